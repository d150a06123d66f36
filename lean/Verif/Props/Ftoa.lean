import Verif.Proofs.Sample
import Verif.Proofs.FixedText
/-
Properties of FormatFloat, internal/strconv/ftoa.go (C42, C43 and C51 of properties.jsonl). `W` is the size of `uint`;
`opt` is the package variable `optimize`, which turns the fast algorithms on.
-/
namespace GoFloat.Strconv
open Spec

/-- What a negative precision prints: the digits do not depend on the format; a float that can be written with as few digits is printed itself. -/
theorem short_digits_self {W : ℕ} (hW : W = 32 ∨ W = 64) {F : Format} {size : ℤ} (hS : SizeOf F size) (opt : Bool) {c : ℕ} {s : Bool} {m : ℚ}
    (hc : F.decode c = .num s m) {val : F64} (hd : double.decode val.toNat = .num s m) :
    ∃ ds dp x, NormalDec ds dp ∧ (ds = [] ↔ m = 0) ∧ F.RoundsTo s (decValue ds dp) c ∧ (expOf ds dp).natAbs < 1000 ∧
      (∀ {prec : ℤ} (_ : prec < 0) {fmt : Char} (_ : DecimalFormat fmt),
        genericFtoa W opt val fmt prec size = .ok (formatDigits true s ⟨ds.map (· + 48), dp, x⟩ (shortPrec fmt ds.length dp) fmt)) ∧
      (∀ n y, FitsDigits n y → F.RoundsTo s y c → ds.length ≤ n) ∧
      ((∀ y, FitsDigits ds.length y → F.RoundsTo s y c → |decValue ds dp - m| ≤ |y - m|) ∨
        c % 2 = 1 ∧ (2 : ℚ) ^ (F.t + 1) ≤ m ∧ ∃ r, F.Adjacent m r ∧ ∀ n y, FitsDigits n y → F.RoundsTo s y c → FitsDigits (n - 1) ((m + r) / 2)) ∧
      (FitsDigits ds.length m → decValue ds dp = m) := by
  have hF := hS.go
  obtain ⟨n, k, N, hs, rfl, d1, d2, hz⟩ := value_split hF hc
  have hb := hF.bounds
  obtain ⟨ds, dp, x, h1, h2, h3, h4, h5⟩ := ftoaFinite_short hW hF hs opt s
  have hri : ∀ y, 0 ≤ y → (F.RoundsTo s y c ↔ InInterval F n y) := fun y hy =>
    (roundsTo_congr d1 d2).trans (roundsTo_iff F (by omega) (by omega) s hs.fin hy)
  have hfn : ∀ {j y}, FitsDigits j y → 0 ≤ y := by
    rintro j y ⟨a, e, -, rfl⟩
    positivity
  have hr : F.RoundsTo s (decValue ds dp) c := (hri _ (by rw [decValue_eq]; positivity)).2 h3
  refine ⟨ds, dp, x, h1, h2.trans hz, hr, ?_, fun hp _ hfmt => by rw [genericFtoa_finite hS hs hd]; exact h4 hp hfmt.digit, ?_⟩
  · by_cases hN : N = 0
    · rw [h2.2 hN]
      unfold expOf
      simp
    · obtain ⟨r1, r2⟩ := interval_range hF hs hN h3
      exact expOf_small h1 (Or.inr r1) r2
  · have hself : |decValue ds dp - F.magc n| ≤ |F.magc n - F.magc n| → decValue ds dp = F.magc n := by
      intro h
      rw [sub_self, abs_zero] at h
      exact sub_eq_zero.1 (abs_eq_zero.1 (le_antisymm h (abs_nonneg _)))
    have hrm : F.RoundsTo s (F.magc n) c := (hri _ (F.magc_nonneg n)).2 (inInterval_self n)
    by_cases hN : N = 0
    · have h0 := h2.2 hN
      have hm0 := hz.1 hN
      subst h0
      refine ⟨fun _ _ _ _ => by simp, Or.inl fun y _ _ => ?_, fun _ => by rw [hm0]; simp [decValue]⟩
      have : decValue [] dp = 0 := by simp [decValue]
      rw [this, hm0, sub_zero, abs_zero]
      exact abs_nonneg _
    · have hn0 : n ≠ 0 := fun hc => hN (hs.zero_iff.2 hc)
      rcases h5 hN with ⟨-, h5⟩ | h5
      · have hsp := h5.spec hF hs hN s
        exact ⟨fun j y hy hr => hsp.minimal j y hy ((roundsTo_congr d1 d2).1 hr), Or.inl fun y hy hr => hsp.closest y hy ((roundsTo_congr d1 d2).1 hr),
          fun hf => hself (hsp.closest _ hf ((roundsTo_congr d1 d2).1 hrm))⟩
      · have hbi : ∀ y, Between ((F.magc (n - 1) + F.magc n) / 2) ((F.magc n + F.magc (n + 1)) / 2) (decide (n % 2 = 0)) y ↔ InInterval F n y :=
          fun y => between_iff hn0 (by ring) (by ring)
        refine ⟨fun j y hy hr => h5.1 j y hy ((hbi y).2 ((hri y (hfn hy)).1 hr)), ?_⟩
        by_cases hq : F.qmin + k ≤ 0
        · exact ⟨Or.inl fun y hy hr => h5.small hs hN hq hy ((hri y (hfn hy)).1 hr), fun hf => hself (h5.small hs hN hq hf (inInterval_self n))⟩
        · rcases h5.2 with h6 | ⟨h6, h7, h8⟩
          · exact ⟨Or.inl fun y hy hr => h6 y hy ((hbi y).2 ((hri y (hfn hy)).1 hr)), fun hf => hself (h6 _ hf ((hbi _).2 (inInterval_self n)))⟩
          · refine ⟨Or.inr ?_, h8⟩
            refine ⟨?_, ?_, F.magc (n + 1), adjacent_magc (by omega) hs.fin, fun j y hy hr => h7 j y hy ((hbi y).2 ((hri y (hfn hy)).1 hr))⟩
            · rw [decide_eq_false_iff_not] at h6
              have := signPart_even F (by omega) s
              omega
            · have hq0 : F.qmin ≤ 0 := by
                rcases hF with rfl | rfl | rfl <;> decide
              have hNt := hs.norm.resolve_left (by omega)
              have hNq : (2 : ℚ) ^ F.t ≤ N := by exact_mod_cast hNt
              have h1 : (2 : ℚ) ^ (1 : ℤ) ≤ (2 : ℚ) ^ (F.qmin + (k : ℤ)) := zpow_le_zpow_right₀ (by norm_num) (by omega)
              rw [hs.value, pow_succ]
              have : (0 : ℚ) < 2 ^ F.t := by positivity
              norm_num at h1
              nlinarith

/-- What a negative precision prints: the digits do not depend on the format. -/
theorem short_digits {W : ℕ} (hW : W = 32 ∨ W = 64) {F : Format} {size : ℤ} (hS : SizeOf F size) (opt : Bool) {c : ℕ} {s : Bool} {m : ℚ}
    (hc : F.decode c = .num s m) {val : F64} (hd : double.decode val.toNat = .num s m) :
    ∃ ds dp x, NormalDec ds dp ∧ (ds = [] ↔ m = 0) ∧ F.RoundsTo s (decValue ds dp) c ∧ (expOf ds dp).natAbs < 1000 ∧
      (∀ {prec : ℤ} (_ : prec < 0) {fmt : Char} (_ : DecimalFormat fmt),
        genericFtoa W opt val fmt prec size = .ok (formatDigits true s ⟨ds.map (· + 48), dp, x⟩ (shortPrec fmt ds.length dp) fmt)) ∧
      (∀ n y, FitsDigits n y → F.RoundsTo s y c → ds.length ≤ n) ∧
      ((∀ y, FitsDigits ds.length y → F.RoundsTo s y c → |decValue ds dp - m| ≤ |y - m|) ∨
        c % 2 = 1 ∧ (2 : ℚ) ^ (F.t + 1) ≤ m ∧ ∃ r, F.Adjacent m r ∧ ∀ n y, FitsDigits n y → F.RoundsTo s y c → FitsDigits (n - 1) ((m + r) / 2)) := by
  obtain ⟨ds, dp, x, h1, h2, h3, h4, h5, h6, h7, -⟩ := short_digits_self hW hS opt hc hd
  exact ⟨ds, dp, x, h1, h2, h3, h4, h5, h6, h7⟩

/-- What a negative precision prints. -/
theorem short_text {W : ℕ} (hW : W = 32 ∨ W = 64) {F : Format} {size : ℤ} (hS : SizeOf F size) {fmt : Char} (hfmt : DecimalFormat fmt) {prec : ℤ}
    (hp : prec < 0) (opt : Bool) {c : ℕ} {s : Bool} {m : ℚ} (hc : F.decode c = .num s m) {val : F64} (hd : double.decode val.toNat = .num s m) :
    ∃ ds dp x, NormalDec ds dp ∧ (ds = [] ↔ m = 0) ∧ F.RoundsTo s (decValue ds dp) c ∧ (expOf ds dp).natAbs < 1000 ∧
      genericFtoa W opt val fmt prec size = .ok (formatDigits true s ⟨ds.map (· + 48), dp, x⟩ (shortPrec fmt ds.length dp) fmt) ∧
      (∀ n y, FitsDigits n y → F.RoundsTo s y c → ds.length ≤ n) ∧
      ((∀ y, FitsDigits ds.length y → F.RoundsTo s y c → |decValue ds dp - m| ≤ |y - m|) ∨
        c % 2 = 1 ∧ (2 : ℚ) ^ (F.t + 1) ≤ m ∧ ∃ r, F.Adjacent m r ∧ ∀ n y, FitsDigits n y → F.RoundsTo s y c → FitsDigits (n - 1) ((m + r) / 2)) := by
  obtain ⟨ds, dp, x, h1, h2, h3, h4, h5, h6⟩ := short_digits hW hS opt hc hd
  exact ⟨ds, dp, x, h1, h2, h3, h4, h5 hp hfmt, h6⟩

/-- C42: with a negative precision the text is a number that is rounded back to the float, for every finite float of the three
sizes, every format and with either algorithm. (`val` is the float64 with the value of the float `c`.) -/
theorem C42_roundtrip {W : ℕ} (hW : W = 32 ∨ W = 64) {F : Format} {size : ℤ} (hS : SizeOf F size) {fmt : Char} (hfmt : DecimalFormat fmt) {prec : ℤ}
    (hp : prec < 0) (opt : Bool) {c : ℕ} {s : Bool} {m : ℚ} (hc : F.decode c = .num s m) {val : F64} (hd : double.decode val.toNat = .num s m) :
    ∃ t q, genericFtoa W opt val fmt prec size = .ok t ∧ readDecimal t = some (s, q) ∧ F.RoundsTo s q c := by
  obtain ⟨ds, dp, x, h1, -, h3, h4, h5, -⟩ := short_text hW hS hfmt hp opt hc hd
  exact ⟨_, _, h5, formatDigits_shortest_read s h1.digit dp x hfmt.digit h4, h3⟩

-- -11/8 as a half
example := C42_roundtrip (W := 64) (.inr rfl) (F := half) (size := 16) (.inl ⟨rfl, rfl⟩) (fmt := 'g') (by simp [DecimalFormat]) (prec := -1) (by norm_num) true Sample.x_half (val := 0xBFF6000000000000) Sample.x_double

/-- C42 for `FormatFloat` itself. -/
theorem C42_formatFloat {W : ℕ} (hW : W = 32 ∨ W = 64) {F : Format} {size : ℤ} (hS : SizeOf F size) {fmt : Char} (hfmt : DecimalFormat fmt) {prec : ℤ}
    (hp : prec < 0) {c : ℕ} {s : Bool} {m : ℚ} (hc : F.decode c = .num s m) {val : F64} (hd : double.decode val.toNat = .num s m) :
    ∃ t q, formatFloat W val fmt prec size = .ok t ∧ readDecimal t = some (s, q) ∧ F.RoundsTo s q c :=
  C42_roundtrip hW hS hfmt hp true hc hd

example := C42_formatFloat (W := 64) (.inr rfl) (F := half) (size := 16) (.inl ⟨rfl, rfl⟩) (fmt := 'g') (by simp [DecimalFormat]) (prec := -1) (by norm_num) Sample.x_half (val := 0xBFF6000000000000) Sample.x_double

/-- C42 for a float64 that is not a float32, printed with size 32: the text is read back as the nearest float32. -/
theorem C42_float32 {W : ℕ} (hW : W = 32 ∨ W = 64) {fmt : Char} (hfmt : DecimalFormat fmt) {prec : ℤ} (hp : prec < 0) (val : F64)
    {s : Bool} {m : ℚ} (hd : double.decode val.toNat = .num s m) (hov : m < single.overflowAt) :
    ∃ t q, formatFloat W val fmt prec 32 = .ok t ∧ readDecimal t = some (s, q) ∧ single.RoundsTo s m (f64to32 val).toNat ∧
      single.RoundsTo s q (f64to32 val).toNat := by
  have hr := (f64to32_spec val).2.2 s m hd
  have hr' := hr
  unfold Format.RoundsTo at hr'
  rw [if_neg (not_le.2 hov)] at hr'
  obtain ⟨r, hr1, -⟩ := hr'
  have hw := (f32to64_decode (f64to32 val)).2 (by rw [hr1]; rintro ⟨_, hc⟩; exact Datum.noConfusion hc)
  obtain ⟨t, q, h1, h2, h3⟩ := C42_formatFloat hW (Or.inr (Or.inl ⟨rfl, rfl⟩) : SizeOf single 32) hfmt hp hr1 (val := f32to64 (f64to32 val)) (by rw [hw, hr1])
  refine ⟨t, q, ?_, h2, hr, h3⟩
  rw [← h1]
  unfold formatFloat genericFtoa
  rw [if_neg (by decide), if_pos rfl, if_neg (by decide), if_pos rfl]
  congr 2
  have h4 := (f64to32_spec (f32to64 (f64to32 val))).2.2 s r (by rw [hw, hr1])
  obtain ⟨n, hn, rfl, -⟩ := single.code_of_decode hr1
  have h5 := Float128ppc.RoundsTo.unique (by decide) h4 (roundsTo_self (Or.inr (Or.inl rfl)) hn s)
  rw [single.decode_code s hn, ← hr1] at h5
  exact decode_inj32 h5.symm (by rw [hr1]; intro s' hc; exact Datum.noConfusion hc)

-- 0.1 as a double, its nearest float32, the smallest half
example : formatFloat 64 0x3FB999999999999A 'e' (-1) 64 = .ok "1e-01".toList := by decide +kernel
example : formatFloat 32 0x3FB999999999999A 'g' (-1) 32 = .ok "0.1".toList := by decide +kernel
example : formatFloat 64 0xBE70000000000000 'f' (-1) 16 = .ok "-0.00000006".toList := by decide +kernel
example : half.decode 0x8001 = .num true (1 / 16777216) ∧ double.decode (0xBE70000000000000 : F64).toNat = .num true (1 / 16777216) := by
  constructor
  · norm_num [half, Format.decode, Format.bias]
  · show double.decode 0xBE70000000000000 = _
    norm_num [double, Format.decode, Format.bias]

/-- C43: with a negative precision the number printed has the least number of significant digits: whatever is rounded to the
float cannot be written with fewer. -/
theorem C43_minimal {W : ℕ} (hW : W = 32 ∨ W = 64) {F : Format} {size : ℤ} (hS : SizeOf F size) {fmt : Char} (hfmt : DecimalFormat fmt) {prec : ℤ}
    (hp : prec < 0) (opt : Bool) {c : ℕ} {s : Bool} {m : ℚ} (hc : F.decode c = .num s m) {val : F64} (hd : double.decode val.toNat = .num s m) :
    ∃ t q, genericFtoa W opt val fmt prec size = .ok t ∧ readDecimal t = some (s, q) ∧
      ∀ n y, FitsDigits n y → F.RoundsTo s y c → FitsDigits n q := by
  obtain ⟨ds, dp, x, h1, -, -, h4, h5, h6, -⟩ := short_text hW hS hfmt hp opt hc hd
  exact ⟨_, _, h5, formatDigits_shortest_read s h1.digit dp x hfmt.digit h4, fun n y hy hr => fits_mono (h6 n y hy hr) (fits_dec h1.digit)⟩

example := C43_minimal (W := 64) (.inr rfl) (F := half) (size := 16) (.inl ⟨rfl, rfl⟩) (fmt := 'e') (by simp [DecimalFormat]) (prec := -1) (by norm_num) true Sample.x_half (val := 0xBFF6000000000000) Sample.x_double

/-- C43 for `FormatFloat` itself. -/
theorem C43_formatFloat {W : ℕ} (hW : W = 32 ∨ W = 64) {F : Format} {size : ℤ} (hS : SizeOf F size) {fmt : Char} (hfmt : DecimalFormat fmt) {prec : ℤ}
    (hp : prec < 0) {c : ℕ} {s : Bool} {m : ℚ} (hc : F.decode c = .num s m) {val : F64} (hd : double.decode val.toNat = .num s m) :
    ∃ t q, formatFloat W val fmt prec size = .ok t ∧ readDecimal t = some (s, q) ∧
      ∀ n y, FitsDigits n y → F.RoundsTo s y c → FitsDigits n q :=
  C43_minimal hW hS hfmt hp true hc hd

example := C43_formatFloat (W := 64) (.inr rfl) (F := half) (size := 16) (.inl ⟨rfl, rfl⟩) (fmt := 'e') (by simp [DecimalFormat]) (prec := -1) (by norm_num) Sample.x_half (val := 0xBFF6000000000000) Sample.x_double

/-- C51: of the shortest decimals that are read back as the float, the closest is printed. -/
def C51_full : Prop :=
  ∀ (W : ℕ), W = 32 ∨ W = 64 → ∀ (F : Format) (size : ℤ), SizeOf F size → ∀ fmt, DecimalFormat fmt → ∀ prec : ℤ, prec < 0 →
    ∀ (c : ℕ) (s : Bool) (m : ℚ), F.decode c = .num s m → ∀ val : F64, double.decode val.toNat = .num s m →
    ∃ t ds dp, formatFloat W val fmt prec size = .ok t ∧ readDecimal t = some (s, decValue ds dp) ∧ F.ShortestDecimal s c m ds dp

/-- C51: shortest and closest, in all cases but one. Missing, because false (`C51_false`): the floats of at least `2^(t+1)` with
an odd mantissa where the midpoint to the next float has fewer digits than everything in the interval. There the number printed
is a shortest one, but perhaps not the closest. -/
theorem C51_closest_partial {W : ℕ} (hW : W = 32 ∨ W = 64) {F : Format} {size : ℤ} (hS : SizeOf F size) {fmt : Char} (hfmt : DecimalFormat fmt)
    {prec : ℤ} (hp : prec < 0) (opt : Bool) {c : ℕ} {s : Bool} {m : ℚ} (hc : F.decode c = .num s m) {val : F64}
    (hd : double.decode val.toNat = .num s m)
    (hex : ¬ (c % 2 = 1 ∧ (2 : ℚ) ^ (F.t + 1) ≤ m ∧
      ∃ r, F.Adjacent m r ∧ ∀ n y, FitsDigits n y → F.RoundsTo s y c → FitsDigits (n - 1) ((m + r) / 2))) :
    ∃ t ds dp, genericFtoa W opt val fmt prec size = .ok t ∧ readDecimal t = some (s, decValue ds dp) ∧ F.ShortestDecimal s c m ds dp := by
  obtain ⟨ds, dp, x, h1, -, h3, h4, h5, h6, h7⟩ := short_text hW hS hfmt hp opt hc hd
  exact ⟨_, ds, dp, h5, formatDigits_shortest_read s h1.digit dp x hfmt.digit h4, h1, h3, h6, h7.resolve_right hex⟩

example := C51_closest_partial (W := 64) (.inr rfl) (F := half) (size := 16) (.inl ⟨rfl, rfl⟩) (fmt := 'f') (by simp [DecimalFormat]) (prec := -1) (by norm_num) false Sample.x_half (val := 0xBFF6000000000000) Sample.x_double (fun h => absurd h.1 (by decide))

/-- C51 for even mantissas. -/
theorem C51_even_partial {W : ℕ} (hW : W = 32 ∨ W = 64) {F : Format} {size : ℤ} (hS : SizeOf F size) {fmt : Char} (hfmt : DecimalFormat fmt)
    {prec : ℤ} (hp : prec < 0) (opt : Bool) {c : ℕ} {s : Bool} {m : ℚ} (hc : F.decode c = .num s m) {val : F64}
    (hd : double.decode val.toNat = .num s m) (hev : c % 2 = 0) :
    ∃ t ds dp, genericFtoa W opt val fmt prec size = .ok t ∧ readDecimal t = some (s, decValue ds dp) ∧ F.ShortestDecimal s c m ds dp :=
  C51_closest_partial hW hS hfmt hp opt hc hd fun h => by omega

example := C51_even_partial (W := 64) (.inr rfl) (F := half) (size := 16) (.inl ⟨rfl, rfl⟩) (fmt := 'f') (by simp [DecimalFormat]) (prec := -1) (by norm_num) false Sample.x_half (val := 0xBFF6000000000000) Sample.x_double (by decide)

/-- C51 for numbers below `2^(t+1)`. -/
theorem C51_small_partial {W : ℕ} (hW : W = 32 ∨ W = 64) {F : Format} {size : ℤ} (hS : SizeOf F size) {fmt : Char} (hfmt : DecimalFormat fmt)
    {prec : ℤ} (hp : prec < 0) (opt : Bool) {c : ℕ} {s : Bool} {m : ℚ} (hc : F.decode c = .num s m) {val : F64}
    (hd : double.decode val.toNat = .num s m) (hlt : m < (2 : ℚ) ^ (F.t + 1)) :
    ∃ t ds dp, genericFtoa W opt val fmt prec size = .ok t ∧ readDecimal t = some (s, decValue ds dp) ∧ F.ShortestDecimal s c m ds dp :=
  C51_closest_partial hW hS hfmt hp opt hc hd fun h => absurd h.2.1 (not_le.2 hlt)

example := C51_small_partial (W := 64) (.inr rfl) (F := half) (size := 16) (.inl ⟨rfl, rfl⟩) (fmt := 'f') (by simp [DecimalFormat]) (prec := -1) (by norm_num) false Sample.x_half (val := 0xBFF6000000000000) Sample.x_double (by norm_num [half])

/-- The float64 583395537938022366445568 is printed as 5.8339553793802236e+23, but 5.8339553793802237e+23 is closer. -/
theorem C51_false : ¬ C51_full := by
  intro h
  have hdec : double.decode (0x44dee27bdef22651 : F64).toNat = .num false 583395537938022366445568 := by
    show double.decode 0x44dee27bdef22651 = _
    norm_num [double, Format.decode, Format.bias]
  obtain ⟨t, ds, dp, h1, h2, h3⟩ := h 64 (Or.inr rfl) double 64 (Or.inr (Or.inr ⟨rfl, rfl⟩)) 'e' (by unfold DecimalFormat; decide) (-1) (by norm_num)
    0x44dee27bdef22651 false 583395537938022366445568 hdec 0x44dee27bdef22651 hdec
  have ht : formatFloat 64 0x44dee27bdef22651 'e' (-1) 64 = .ok "5.8339553793802236e+23".toList := by decide +kernel
  rw [ht] at h1
  cases h1
  have hr : readDecimal "5.8339553793802236e+23".toList = some (false, 583395537938022360000000) := by
    decide +kernel
  rw [hr] at h2
  have hv : decValue ds dp = 583395537938022360000000 := by
    have := congrArg (Option.map Prod.snd) h2
    simpa using this.symm
  have hlen : ds = [5, 8, 3, 3, 9, 5, 5, 3, 7, 9, 3, 8, 0, 2, 2, 3, 6] := by
    refine (normal_unique h3.normal (b := [5, 8, 3, 3, 9, 5, 5, 3, 7, 9, 3, 8, 0, 2, 2, 3, 6]) (q := 24) ⟨by decide, by decide, by decide, by decide⟩ ?_).1
    rw [hv, decValue]
    norm_num
  have := h3.closest 583395537938022370000000 ⟨58339553793802237, 7, by rw [hlen]; norm_num, by norm_num⟩ ?_
  · rw [hv] at this
    norm_num [abs_of_nonneg, abs_of_nonpos] at this
  · have hs : Split double 0x44dee27bdef22651 1100 0x1ee27bdef22651 := ⟨by decide, by decide, by decide, by decide⟩
    have hl := hs.lower_mid (by norm_num)
    have hu := hs.upper_mid
    have hq : double.qmin = -1074 := by decide
    rw [if_pos (Or.inl (by decide))] at hl
    refine (roundsTo_iff double (by decide) (by decide) false hs.fin (by norm_num)).2 ⟨fun _ => ?_, ?_⟩
    · rw [hl, hq]
      norm_num
    · rw [hu, hq]
      norm_num

end GoFloat.Strconv
