import Verif.Proofs.Sample
import Verif.Proofs.LayoutShape
import Verif.Props.FtoaFixed
/-
The layout of the texts of FormatFloat, internal/strconv/ftoa.go (C46 and C52 of properties.jsonl).
-/
namespace GoFloat.Strconv
open Spec

variable {W : ℕ} {F : Format} {size : ℤ} {fmt : Char} {prec : ℤ} {c : ℕ} {s : Bool} {m : ℚ} {val : F64}

/-- C46 for `%e`, every digit string: the shape, the number of digits after the point, each digit (zeros after the last one) and
the exponent. -/
theorem C46_digits_exponential (neg : Bool) {ds : List ℕ} (hd : ∀ d ∈ ds, d < 10) (dp : ℤ) (x : Bool) (prec : ℤ) (fmt : Char)
    (he : (dp - 1).natAbs < 1000) :
    ∃ d frac, IsExponential fmt (fmtE neg ⟨ds.map (· + 48), dp, x⟩ prec fmt) neg d frac (if ds = [] then 0 else dp - 1) ∧
      frac.length = prec.toNat ∧ charDigit d = some (ds.getD 0 0) ∧
      ∀ i, i < prec.toNat → (frac[i]?).bind charDigit = some (ds.getD (i + 1) 0) := by
  have hx : expOf ds dp = if ds = [] then 0 else dp - 1 := by
    unfold expOf
    simp only [List.length_eq_zero_iff]
  have := fmtE_shape neg hd dp x prec fmt (by rw [hx]; split <;> simp [he])
  rw [hx] at this
  refine ⟨_, _, this, by rw [List.length_map, fracE_length], charDigit_dchar (lt_trans (getD_lt hd 0) (by norm_num)), fun i hi => ?_⟩
  rw [List.getElem?_map, List.getElem?_eq_getElem (by rw [fracE_length]; exact hi)]
  simp only [Option.map_some, Option.bind_some, fracE, List.getElem_map, List.getElem_range]
  exact charDigit_dchar (lt_trans (getD_lt hd _) (by norm_num))

example := C46_digits_exponential true (ds := [1, 3, 7, 5]) (by decide) 1 false 5 'e' (by decide)

/-- C46 for `%f`, every digit string that is normal: the shape, the number of digits after the point, and each of them. -/
theorem C46_digits_fixed (neg : Bool) {ds : List ℕ} {dp : ℤ} (h : NormalDec ds dp) (x : Bool) (prec : ℤ) :
    ∃ int frac, IsFixed (fmtF neg ⟨ds.map (· + 48), dp, x⟩ prec) neg int frac ∧
      int.length = (max dp 1).toNat ∧ frac.length = prec.toNat ∧
      (0 < dp → ∀ i : ℕ, i < dp → (int[i]?).bind charDigit = some (ds.getD i 0)) ∧ (dp ≤ 0 → int = ['0']) ∧
      ∀ i : ℕ, i < prec.toNat → (frac[i]?).bind charDigit = some (if 0 ≤ dp + i then ds.getD (dp + i).toNat 0 else 0) := by
  refine ⟨_, _, fmtF_shape neg h x prec, ?_, by rw [List.length_map, fracF_length], fun h0 i hi => ?_, fun h0 => ?_, fun i hi => ?_⟩
  · rw [List.length_map]
    unfold intF
    split
    · rw [padTake_length]; congr 1; omega
    · simp; omega
  · unfold intF
    rw [if_pos h0, List.getElem?_map, List.getElem?_eq_getElem (by rw [padTake_length]; omega)]
    simp only [Option.map_some, Option.bind_some, padTake, List.getElem_map, List.getElem_range]
    exact charDigit_dchar (lt_trans (getD_lt h.digit _) (by norm_num))
  · unfold intF
    rw [if_neg (by omega)]
    rfl
  · rw [List.getElem?_map, List.getElem?_eq_getElem (by rw [fracF_length]; exact hi)]
    simp only [Option.map_some, Option.bind_some, fracF, List.getElem_map, List.getElem_range]
    apply charDigit_dchar
    split
    · exact lt_trans (getD_lt h.digit _) (by norm_num)
    · norm_num

example := C46_digits_fixed true (ds := [1, 3, 7, 5]) (dp := 1) ⟨by decide, by decide, by decide, by decide⟩ false 5

theorem first_digit {ds : List ℕ} {dp : ℤ} (h : NormalDec ds dp) : dchar (ds.getD 0 0) = '0' ↔ ds = [] := by
  constructor
  · intro hc
    by_contra hne
    obtain ⟨d, ds', rfl⟩ := List.exists_cons_of_ne_nil hne
    have := dchar_inj_zero (lt_trans (h.digit d (by simp)) (by norm_num)) hc
    exact h.head (by rw [this]; rfl)
  · rintro rfl
    decide

/-- C46, `%e` and `%E` for every finite float: one digit before the point, which is zero only for zero, as many digits after it
as asked for (no trailing zero with a negative precision), and an exponent of at least two digits. -/
theorem C46_exponential (hW : W = 32 ∨ W = 64) (hS : SizeOf F size) (hfmt : fmt = 'e' ∨ fmt = 'E') (prec : ℤ) (opt : Bool)
    (hc : F.decode c = .num s m) (hd : double.decode val.toNat = .num s m) :
    ∃ t d frac x, genericFtoa W opt val fmt prec size = .ok t ∧ IsExponential fmt t s d frac x ∧ (d = '0' ↔ m = 0) ∧ (m = 0 → x = 0) ∧
      (0 ≤ prec → frac.length = prec.toNat) ∧ (prec < 0 → frac.getLast? ≠ some '0') := by
  have hD : DecimalFormat fmt := by unfold DecimalFormat; rcases hfmt with rfl | rfl <;> simp
  have hform : ∀ short ds dp x p, formatDigits short s ⟨ds, dp, x⟩ p fmt = fmtE s ⟨ds, dp, x⟩ p fmt := by
    intro short ds dp x p
    unfold formatDigits
    rw [if_pos hfmt]
  by_cases hp : prec < 0
  · obtain ⟨ds, dp, x, h1, h2, -, h4, h5, -⟩ := short_text hW hS hD hp opt hc hd
    rw [hform] at h5
    refine ⟨_, _, _, _, h5, fmtE_shape s h1.digit dp x _ fmt h4, (first_digit h1).trans h2, fun h => ?_, fun h => absurd hp (not_lt.2 h), fun _ => ?_⟩
    · unfold expOf
      rw [h2.2 h]
      rfl
    · unfold shortPrec
      rw [if_pos hfmt]
      exact fracE_last h1
  · obtain ⟨ds, dp, h1, h2, h3, -, h5, h6⟩ := fixed_text_eg hW hS hD (by rcases hfmt with rfl | rfl <;> decide) (not_lt.1 hp) opt hc hd
    rw [hform, if_neg (by rcases hfmt with rfl | rfl <;> decide)] at h6
    refine ⟨_, _, _, _, h6, fmtE_shape s h1.digit dp false _ fmt h5, (first_digit h1).trans h2, fun h => ?_, fun _ => ?_, fun h => absurd h hp⟩
    · unfold expOf
      rw [h2.2 h]
      rfl
    · rw [List.length_map, fracE_length]

example := C46_exponential (W := 64) (.inr rfl) (F := half) (size := 16) (.inl ⟨rfl, rfl⟩) (fmt := 'e') (.inl rfl) 2 true Sample.x_half (val := 0xBFF6000000000000) Sample.x_double

/-- C46, `%f` for every finite float: no leading zeros, as many digits after the point as asked for (no trailing zero with a
negative precision). -/
theorem C46_fixed (hW : W = 32 ∨ W = 64) (hS : SizeOf F size) (prec : ℤ) (opt : Bool)
    (hc : F.decode c = .num s m) (hd : double.decode val.toNat = .num s m) :
    ∃ t int frac, genericFtoa W opt val 'f' prec size = .ok t ∧ IsFixed t s int frac ∧
      (0 ≤ prec → frac.length = prec.toNat) ∧ (prec < 0 → frac.getLast? ≠ some '0') := by
  have hD : DecimalFormat 'f' := by unfold DecimalFormat; simp
  by_cases hp : prec < 0
  · obtain ⟨ds, dp, x, h1, h2, -, h4, h5, -⟩ := short_text hW hS hD hp opt hc hd
    refine ⟨_, _, _, h5, fmtF_shape s h1 x _, fun h => absurd hp (not_lt.2 h), fun _ => ?_⟩
    exact fracF_last h1
  · obtain ⟨ds, dp, z, h1, -, -, -, h5⟩ := fixed_text_f hW hS (not_lt.1 hp) opt hc hd
    exact ⟨_, _, _, h5, fmtF_shape s h1 false _, fun _ => by rw [List.length_map, fracF_length], fun h => absurd h hp⟩

example := C46_fixed (W := 64) (.inr rfl) (F := half) (size := 16) (.inl ⟨rfl, rfl⟩) (-1) true Sample.x_half (val := 0xBFF6000000000000) Sample.x_double

/-- C46, `%g` and `%G` for every finite float: the exponential form exactly if the number printed is below 10⁻⁴ or not below
10^P, where P is the precision (1 for 0, 6 if it is negative); no trailing zeros after the point in either form. -/
theorem C46_general (hW : W = 32 ∨ W = 64) (hS : SizeOf F size) (hfmt : fmt = 'g' ∨ fmt = 'G') (prec : ℤ) (opt : Bool)
    (hc : F.decode c = .num s m) (hd : double.decode val.toNat = .num s m) :
    ∃ t q, genericFtoa W opt val fmt prec size = .ok t ∧ readDecimal t = some (s, q) ∧
      if q ≠ 0 ∧ (q < 1 / 10000 ∨ (10 : ℚ) ^ (if prec < 0 then 6 else max prec.toNat 1) ≤ q) then
        ∃ d frac x, IsExponential (if fmt = 'g' then 'e' else 'E') t s d frac x ∧ d ≠ '0' ∧ frac.getLast? ≠ some '0'
      else ∃ int frac, IsFixed t s int frac ∧ frac.getLast? ≠ some '0' := by
  have hD : DecimalFormat fmt := by unfold DecimalFormat; rcases hfmt with rfl | rfl <;> simp
  have hlet : expLetter fmt = if fmt = 'g' then 'e' else 'E' := by rcases hfmt with rfl | rfl <;> decide
  have key : ∀ (shortest : Bool) (ds : List ℕ) (dp : ℤ) (x : Bool) (p : ℤ), NormalDec ds dp → (ds.length : ℤ) ≤ p →
      (shortest = true → p = ds.length) → (expOf ds dp).natAbs < 1000 →
      (if shortest then (6 : ℤ) else p) = ((if prec < 0 then 6 else max prec.toNat 1 : ℕ) : ℤ) →
      genericFtoa W opt val fmt prec size = .ok (formatDigits shortest s ⟨ds.map (· + 48), dp, x⟩ p fmt) →
      readDecimal (formatDigits shortest s ⟨ds.map (· + 48), dp, x⟩ p fmt) = some (s, decValue ds dp) →
      ∃ t q, genericFtoa W opt val fmt prec size = .ok t ∧ readDecimal t = some (s, q) ∧
        if q ≠ 0 ∧ (q < 1 / 10000 ∨ (10 : ℚ) ^ (if prec < 0 then 6 else max prec.toNat 1) ≤ q) then
          ∃ d frac x, IsExponential (if fmt = 'g' then 'e' else 'E') t s d frac x ∧ d ≠ '0' ∧ frac.getLast? ≠ some '0'
        else ∃ int frac, IsFixed t s int frac ∧ frac.getLast? ≠ some '0' := by
    intro shortest ds dp x p h1 h2 h3 h4 hP h5 h6
    refine ⟨_, _, h5, h6, ?_⟩
    rw [formatDigits_g shortest s dp x hfmt h2 h3, hP]
    generalize (if prec < 0 then 6 else max prec.toNat 1) = P at *
    have hiff : (decValue ds dp ≠ 0 ∧ (decValue ds dp < 1 / 10000 ∨ (10 : ℚ) ^ P ≤ decValue ds dp)) ↔ (dp - 1 < -4 ∨ dp - 1 ≥ (P : ℤ)) := by
      rw [decValue_ne_zero h1]
      by_cases hne : ds = []
      · have := h1.zero hne
        simp [hne]
        omega
      · rw [show (1 / 10000 : ℚ) = (10 : ℚ) ^ (-4 : ℤ) by norm_num, ← zpow_natCast, ← not_lt (b := (10 : ℚ) ^ (P : ℤ)), value_exp h1 hne, value_exp h1 hne]
        simp [hne]
    by_cases hx : dp - 1 < -4 ∨ dp - 1 ≥ (P : ℤ)
    · rw [if_pos (hiff.2 hx), if_pos hx, hlet]
      have hne := (decValue_ne_zero h1).1 (hiff.2 hx).1
      exact ⟨_, _, _, fmtE_shape s h1.digit dp x _ _ h4, fun h => hne ((first_digit h1).1 h), fracE_last h1⟩
    · rw [if_neg (fun h => hx (hiff.1 h)), if_neg hx]
      exact ⟨_, _, fmtF_shape s h1 x _, fracF_last h1⟩
  have hnf : ¬ fmt = 'f' := by rcases hfmt with rfl | rfl <;> decide
  have hne : ¬ (fmt = 'e' ∨ fmt = 'E') := by rcases hfmt with rfl | rfl <;> decide
  by_cases hp : prec < 0
  · obtain ⟨ds, dp, x, h1, h2, -, h4, h5, -⟩ := short_text hW hS hD hp opt hc hd
    have hr := formatDigits_shortest_read s h1.digit dp x hD.digit h4
    have hsp : shortPrec fmt ds.length dp = ds.length := by
      unfold shortPrec
      rw [if_neg hne, if_neg hnf]
    rw [hsp] at h5 hr
    exact key true ds dp x _ h1 le_rfl (fun _ => rfl) h4 (by rw [if_pos hp]; rfl) h5 hr
  · obtain ⟨ds, dp, h1, h2, h3, -, h5, h6⟩ := fixed_text_eg hW hS hD hnf (not_lt.1 hp) opt hc hd
    rw [if_pos hfmt] at h3 h6
    have hr := formatDigits_fixed_read s h1.digit dp false hD.digit h5 (prec := max prec 1) (by omega)
      (by unfold EnoughDigits; rw [if_neg hne, if_neg hnf]; exact h3)
    refine key false ds dp false _ h1 h3 (fun h => absurd h (by decide)) h5 ?_ h6 hr
    rw [if_neg hp, if_neg (by decide)]
    omega

example := C46_general (W := 64) (.inr rfl) (F := half) (size := 16) (.inl ⟨rfl, rfl⟩) (fmt := 'g') (.inl rfl) (-1) true Sample.x_half (val := 0xBFF6000000000000) Sample.x_double

theorem Split.parts (hF : GoFormat F) {n k N : ℕ} (h : Split F n k N) : F.Parts N ((k : ℤ) + 1 - F.bias) (F.magc n) := by
  have hb := hF.bounds
  refine ⟨?_, h.lt, by omega, ?_, ?_⟩
  · rw [h.value]
    congr 2
    have := fexp_eq F k
    rw [← this]
    rfl
  · rcases h.norm with h | h
    · right; omega
    · exact Or.inl h
  · rcases h.k_lt with h1 | ⟨h1, h2⟩
    · rcases hF with rfl | rfl | rfl <;> (simp [Format.bias, half, single, double] at h1 ⊢; omega)
    · exfalso
      have : 2 ^ 5 ≤ 2 ^ F.w := Nat.pow_le_pow_right (by norm_num) hb.2.2.1
      omega

/-- C46, `%b` for every finite float: the mantissa and the exponent of the encoding, in decimal. -/
theorem C46_binary (hW : W = 32 ∨ W = 64) (hS : SizeOf F size) (prec : ℤ) (opt : Bool)
    (hc : F.decode c = .num s m) (hd : double.decode val.toNat = .num s m) :
    ∃ t mant exp, genericFtoa W opt val 'b' prec size = .ok t ∧ F.Parts mant exp m ∧ IsBinary t s mant (exp - F.t) := by
  have hF := hS.go
  obtain ⟨n, k, N, hs, rfl, -, -, hz⟩ := value_split hF hc
  have he := hs.exp_range hF
  have hfe := fexp_eq F k
  obtain ⟨t, h1, h2⟩ := fmtB_shape hW s (N := N) (lt_trans (hs.N_lt hF) (by norm_num)) (exp := (k : ℤ) + 1 - F.bias) (flt := infoOf F) (by omega) (by omega)
  refine ⟨t, N, _, ?_, hs.parts hF, h2⟩
  rw [genericFtoa_finite hS hs hd]
  unfold ftoaFinite
  rw [if_pos rfl, h1]

example := C46_binary (W := 64) (.inr rfl) (F := half) (size := 16) (.inl ⟨rfl, rfl⟩) (-1) true Sample.x_half (val := 0xBFF6000000000000) Sample.x_double

/-- The text of an infinity or a NaN of the size. -/
theorem special_bits (hF : GoFormat F) {bits : BitVec 64} {b : ℕ} (hb : bits.toNat = b) (hlt : b < 2 ^ (F.t + F.w + 1)) (opt : Bool) (fmt : Char) (prec : ℤ) :
    (∀ s, F.decode b = .nan s → ftoaBits W opt bits (infoOf F) fmt prec = .ok "NaN".toList) ∧
    (∀ s, F.decode b = .inf s → ftoaBits W opt bits (infoOf F) fmt prec = .ok (if s then "-Inf" else "+Inf").toList) := by
  subst hb
  obtain ⟨neg, n, h1, h2⟩ := code_parts F hlt
  have hfin : ∀ s, F.decode bits.toNat = .nan s ∨ F.decode bits.toNat = .inf s → F.infCode ≤ n := by
    intro s h
    by_contra hc
    have := F.decode_code neg (not_le.1 hc)
    rw [← h2] at this
    rcases h with h | h <;> rw [h] at this <;> exact Datum.noConfusion this
  constructor
  · intro s h
    rw [ftoaBits_special hF h1 (hfin s (Or.inl h)) h2, if_pos]
    · rfl
    · intro hn
      rw [h2, hn, F.decode_inf] at h
      exact Datum.noConfusion h
  · intro s h
    have hle := hfin s (Or.inr h)
    by_cases hn : n = F.infCode
    · rw [ftoaBits_special hF h1 hle h2, if_neg (by simpa using hn)]
      rw [h2, hn, F.decode_inf] at h
      cases h
      cases neg <;> rfl
    · exfalso
      have hlt' : F.infCode < n := lt_of_le_of_ne hle (Ne.symm hn)
      obtain ⟨f1, f2, f3⟩ := F.code_fields neg h1
      have hE : n / 2 ^ F.t = 2 ^ F.w - 1 := by
        have e1 : 2 ^ F.w - 1 ≤ n / 2 ^ F.t := by
          rw [Nat.le_div_iff_mul_le (Nat.two_pow_pos _)]
          exact hle
        have e2 : n / 2 ^ F.t < 2 ^ F.w := by
          rw [Nat.div_lt_iff_lt_mul (Nat.two_pow_pos _), ← pow_add, add_comm]
          exact h1
        omega
      have : ∃ s', F.decode bits.toNat = .nan s' := by
        rw [decode_nan_iff, h2, f2, f3]
        refine ⟨hE, fun h0 => ?_⟩
        have := Nat.div_add_mod n (2 ^ F.t)
        rw [h0, hE, add_zero, mul_comm] at this
        unfold Format.infCode at hlt'
        omega
      obtain ⟨s', h'⟩ := this
      rw [h'] at h
      exact Datum.noConfusion h

/-- C46: a NaN prints as `NaN` and the infinities as `+Inf` and `-Inf`, in every format, precision and size. -/
theorem C46_special (hS : SizeOf F size) (fmt : Char) (prec : ℤ) (opt : Bool) (val : F64) :
    (∀ s, double.decode val.toNat = .nan s → genericFtoa W opt val fmt prec size = .ok "NaN".toList) ∧
    (∀ s, double.decode val.toNat = .inf s → genericFtoa W opt val fmt prec size = .ok (if s then "-Inf" else "+Inf").toList) := by
  unfold genericFtoa
  rcases hS with ⟨rfl, rfl⟩ | ⟨rfl, rfl⟩ | ⟨rfl, rfl⟩
  · simp only [if_true]
    have hN := Binary16.C12_binary16_constants
    constructor
    · intro s h
      rw [(Binary16.C12_binary16_float64 val s).2.2 h, ok_bind, ← infoOf_half]
      have hb : ∀ f : Binary16.Float, (f.bits.setWidth 64).toNat = f.bits.toNat := fun f => by
        rw [BitVec.toNat_setWidth, Nat.mod_eq_of_lt (lt_trans f.bits.isLt (by norm_num))]
      refine (special_bits (Or.inl rfl) (hb _) (BitVec.isLt _) opt fmt prec).1 s ?_
      cases s
      · exact hN.1
      · exact hN.2.1
    · intro s h
      rw [(Binary16.C12_binary16_float64 val s).2.1 h, ok_bind, ← infoOf_half]
      have hb : ∀ f : Binary16.Float, (f.bits.setWidth 64).toNat = f.bits.toNat := fun f => by
        rw [BitVec.toNat_setWidth, Nat.mod_eq_of_lt (lt_trans f.bits.isLt (by norm_num))]
      refine (special_bits (Or.inl rfl) (hb _) (BitVec.isLt _) opt fmt prec).2 s ?_
      cases s
      · exact hN.2.2.1
      · exact hN.2.2.2.1
  · rw [if_neg (by decide), if_pos rfl, ← infoOf_single]
    have hb : ((f64to32 val).setWidth 64).toNat = (f64to32 val).toNat := by
      rw [BitVec.toNat_setWidth, Nat.mod_eq_of_lt (lt_trans (f64to32 val).isLt (by norm_num))]
    obtain ⟨k1, k2, -⟩ := f64to32_spec val
    obtain ⟨b1, b2⟩ := special_bits (W := W) (Or.inr (Or.inl rfl) : GoFormat single) hb (BitVec.isLt _) opt fmt prec
    exact ⟨fun s h => (k1 s h).elim b1, fun s h => b2 s (k2 s h)⟩
  · rw [if_neg (by decide), if_neg (by decide), if_pos rfl, ← infoOf_double]
    exact special_bits (Or.inr (Or.inr rfl)) rfl (BitVec.isLt _) opt fmt prec

example := (C46_special (W := 64) (F := half) (size := 16) (.inl ⟨rfl, rfl⟩) 'g' (-1) true 0xFFF0000000000000).2 true Sample.inf_double

/-- A float32 survives being a float64. -/
theorem f64to32_f32to64 (x : F32) (hx : ¬ ∃ s, single.decode x.toNat = .nan s) : f64to32 (f32to64 x) = x := by
  have hw := (f32to64_decode x).2 hx
  obtain ⟨-, k2, k3⟩ := f64to32_spec (f32to64 x)
  refine (decode_inj32 ?_ fun s h => hx ⟨s, h⟩).symm
  cases hd : single.decode x.toNat with
  | nan s => exact absurd ⟨s, hd⟩ hx
  | inf s => exact (k2 s (by rw [hw, hd])).symm
  | num s m =>
    have h4 := k3 s m (by rw [hw, hd])
    obtain ⟨n, hn, rfl, -⟩ := single.code_of_decode hd
    have h5 := Float128ppc.RoundsTo.unique (by decide) h4 (roundsTo_self (Or.inr (Or.inl rfl)) hn s)
    rw [single.decode_code s hn] at h5
    exact h5.symm

/-- C46: with size 32 any float64 prints like its conversion to float32. -/
theorem C46_size32 (val : F64) (opt : Bool) (fmt : Char) (prec : ℤ) :
    genericFtoa W opt val fmt prec 32 = genericFtoa W opt (f32to64 (f64to32 val)) fmt prec 32 := by
  by_cases hx : ∃ s, single.decode (f64to32 val).toNat = .nan s
  · obtain ⟨s, hx⟩ := hx
    have hS : SizeOf single 32 := Or.inr (Or.inl ⟨rfl, rfl⟩)
    rw [(C46_special hS fmt prec opt _).1 s ((f32to64_decode _).1 s hx)]
    unfold genericFtoa
    rw [if_neg (by decide), if_pos rfl, ← infoOf_single]
    have hb : ((f64to32 val).setWidth 64).toNat = (f64to32 val).toNat := by
      rw [BitVec.toNat_setWidth, Nat.mod_eq_of_lt (lt_trans (f64to32 val).isLt (by norm_num))]
    exact (special_bits (W := W) (Or.inr (Or.inl rfl) : GoFormat single) hb (BitVec.isLt _) opt fmt prec).1 s hx
  · unfold genericFtoa
    rw [if_neg (by decide), if_pos rfl, if_neg (by decide), if_pos rfl, f64to32_f32to64 _ hx]

/-- C46: with size 16 any float64 prints like its conversion to binary16. -/
theorem C46_size16 (val : F64) (opt : Bool) (fmt : Char) (prec : ℤ) :
    ∃ f acc r, Binary16.newFromFloat64 val = .ok (f, acc) ∧ f.float64 = .ok (r, .exact) ∧
      genericFtoa W opt val fmt prec 16 = genericFtoa W opt r fmt prec 16 := by
  obtain ⟨f, acc, h1, -⟩ := Binary16.C11_binary16_float64 val
  obtain ⟨r, h2, h3⟩ := Binary16.C05_binary16_float64_roundtrip f
  refine ⟨f, acc, r, h1, h2, ?_⟩
  unfold genericFtoa
  simp only [if_true]
  rw [h1, h3, ok_bind, ok_bind, ← infoOf_half]
  have hb : ∀ f : Binary16.Float, (f.bits.setWidth 64).toNat = f.bits.toNat := fun f => by
    rw [BitVec.toNat_setWidth, Nat.mod_eq_of_lt (lt_trans f.bits.isLt (by norm_num))]
  cases hd : half.decode f.bits.toNat with
  | nan s =>
    have hN := Binary16.C12_binary16_constants
    rw [(special_bits (W := W) (Or.inl rfl : GoFormat half) (hb f) (BitVec.isLt _) opt fmt prec).1 s hd]
    refine ((special_bits (Or.inl rfl) (hb _) (BitVec.isLt _) opt fmt prec).1 s ?_).symm
    cases s
    · exact hN.1
    · exact hN.2.1
  | inf s => rfl
  | num s m => rfl

/-- C46: `AppendFloat` appends the text of `FormatFloat`. -/
theorem C46_append (W : ℕ) (dst : Text) (val : F64) (fmt : Char) (prec size : ℤ) :
    appendFloat W dst val fmt prec size = (formatFloat W val fmt prec size).map (dst ++ ·) := by
  unfold appendFloat formatFloat
  cases genericFtoa W true val fmt prec size <;> rfl

example : IsExponential 'E' "-1.250E-07".toList true '1' "250".toList (-7) :=
  ⟨⟨"07".toList, ⟨by decide, by decide, by decide⟩, by decide⟩, by decide⟩
example : formatFloat 64 0xBE80C6F7A0B5ED8D 'E' 3 64 = .ok "-1.250E-07".toList := by decide +kernel
-- the two forms of %g on the two sides of the threshold, and rounding up to it
example : formatFloat 64 0x412E847E00000000 'g' (-1) 64 = .ok "999999".toList ∧ formatFloat 64 0x412E848000000000 'g' (-1) 64 = .ok "1e+06".toList := by
  decide +kernel
example : formatFloat 64 0x412E847E00000000 'G' 3 64 = .ok "1E+06".toList ∧ formatFloat 64 0x4058FF5C28F5C28F 'g' 3 64 = .ok "100".toList := by
  decide +kernel
example : formatFloat 32 0x3FB999999999999A 'b' 0 32 = .ok "13421773p-27".toList ∧ formatFloat 32 0x8000000000000001 'b' (-1) 64 = .ok "-1p-1074".toList := by
  decide +kernel
-- 1e39 is too large for a float32, and 98304 for a binary16 (where the conversion gives a NaN)
example : formatFloat 64 0x48078287F49C4A1D 'f' 2 32 = .ok "+Inf".toList ∧ formatFloat 64 0x40F8000000000000 'f' 2 16 = .ok "NaN".toList := by
  decide +kernel

/-! ### C52 -/

/-- C52: FormatFloat returns a text for every float, format, precision and legal size. -/
def C52_full : Prop := ∀ (val : F64) (fmt : Char) (prec size : ℤ), size = 16 ∨ size = 32 ∨ size = 64 → ∃ t, formatFloat 64 val fmt prec size = .ok t

/-- C52 is false: an unknown format with precision 0 panics. -/
theorem C52_false : ¬ C52_full := by
  intro h
  obtain ⟨t, ht⟩ := h 0x3FF0000000000000 'x' 0 64 (by norm_num)
  have h2 : formatFloat 64 0x3FF0000000000000 'x' 0 64 = .error .internal := by decide +kernel
  rw [h2] at ht
  cases ht

theorem known_total (hW : W = 32 ∨ W = 64) (hS : SizeOf F size) (hfmt : KnownFormat fmt) (prec : ℤ) (opt : Bool)
    (hc : F.decode c = .num s m) (hd : double.decode val.toNat = .num s m) : ∃ t, genericFtoa W opt val fmt prec size = .ok t := by
  rcases hfmt with rfl | hfmt
  · obtain ⟨t, -, -, h, -⟩ := C46_binary hW hS prec opt hc hd
    exact ⟨t, h⟩
  · rcases hfmt.digit with rfl | rfl | rfl | rfl | rfl
    · obtain ⟨t, -, -, -, h, -⟩ := C46_exponential hW hS (Or.inl rfl) prec opt hc hd
      exact ⟨t, h⟩
    · obtain ⟨t, -, -, -, h, -⟩ := C46_exponential hW hS (Or.inr rfl) prec opt hc hd
      exact ⟨t, h⟩
    · obtain ⟨t, -, -, h, -⟩ := C46_fixed hW hS prec opt hc hd
      exact ⟨t, h⟩
    · obtain ⟨t, -, h, -⟩ := C46_general hW hS (Or.inl rfl) prec opt hc hd
      exact ⟨t, h⟩
    · obtain ⟨t, -, h, -⟩ := C46_general hW hS (Or.inr rfl) prec opt hc hd
      exact ⟨t, h⟩

/-- The reduction of a size to the floats of that size. -/
theorem by_size_all (hsize : size = 16 ∨ size = 32 ∨ size = 64) (val : F64) :
    ∃ F val' d, SizeOf F size ∧ (∀ W opt fmt prec, genericFtoa W opt val fmt prec size = genericFtoa W opt val' fmt prec size) ∧ double.decode val'.toNat = d ∧
      match d with
      | .num s m => ∃ c, F.decode c = .num s m
      | _ => True := by
  rcases hsize with rfl | rfl | rfl
  · obtain ⟨f, acc, r, h1, h2, h3⟩ := C46_size16 (W := 64) val true 'e' 0
    refine ⟨half, r, _, Or.inl ⟨rfl, rfl⟩, fun W opt fmt prec => ?_, rfl, ?_⟩
    · obtain ⟨f', acc', r', g1, g2, g3⟩ := C46_size16 (W := W) val opt fmt prec
      rw [h1] at g1
      cases g1
      rw [h2] at g2
      cases g2
      exact g3
    obtain ⟨r', h4, h5⟩ := Binary16.C04_binary16_float64 f
    rw [h2] at h4
    have : r = r' := by injection h4 with h; injection h
    subst this
    cases hd : half.decode f.bits.toNat with
    | nan s =>
      rw [hd] at h5
      simp only at h5
      rw [h5]
      have : double.decode (BitVec.toNat (if s = true then 0xFFF8000000000001 else 0x7FF8000000000001 : F64)) = .nan s := by
        cases s
        · show double.decode 0x7FF8000000000001 = _
          norm_num [double, Format.decode]
        · show double.decode 0xFFF8000000000001 = _
          norm_num [double, Format.decode]
      rw [this]
      trivial
    | inf s => rw [hd] at h5; simp only at h5; rw [h5]; trivial
    | num s m => rw [hd] at h5; simp only at h5; rw [h5]; exact ⟨_, hd⟩
  · refine ⟨single, _, _, Or.inr (Or.inl ⟨rfl, rfl⟩), fun W opt fmt prec => C46_size32 val opt fmt prec, rfl, ?_⟩
    obtain ⟨k1, k2⟩ := f32to64_decode (f64to32 val)
    by_cases hx : ∃ s, single.decode (f64to32 val).toNat = .nan s
    · obtain ⟨s, hx⟩ := hx
      rw [k1 s hx]
      trivial
    · rw [k2 hx]
      cases hd : single.decode (f64to32 val).toNat with
      | nan s => trivial
      | inf s => trivial
      | num s m => exact ⟨_, hd⟩
  · refine ⟨double, val, _, Or.inr (Or.inr ⟨rfl, rfl⟩), fun _ _ _ _ => rfl, rfl, ?_⟩
    cases hd : double.decode val.toNat with
    | nan s => trivial
    | inf s => trivial
    | num s m => exact ⟨_, hd⟩

theorem by_size (hsize : size = 16 ∨ size = 32 ∨ size = 64) (val : F64) (opt : Bool) (fmt : Char) (prec : ℤ) :
    ∃ F val' d, SizeOf F size ∧ genericFtoa W opt val fmt prec size = genericFtoa W opt val' fmt prec size ∧ double.decode val'.toNat = d ∧
      match d with
      | .num s m => ∃ c, F.decode c = .num s m
      | _ => True := by
  obtain ⟨F, v, d, h1, h2, h3⟩ := by_size_all hsize val
  exact ⟨F, v, d, h1, h2 _ _ _ _, h3⟩

/-- C52 for the formats b, e, E, f, g and G: a text for every float64, precision and legal size, with either algorithm.
Missing, because false: other letters with precision 0 (see `C52_unknown_partial`). -/
theorem C52_known_partial (hW : W = 32 ∨ W = 64) (hfmt : KnownFormat fmt) (val : F64) (prec : ℤ) (hsize : size = 16 ∨ size = 32 ∨ size = 64)
    (opt : Bool) : ∃ t, genericFtoa W opt val fmt prec size = .ok t := by
  obtain ⟨F, v, d, hS, h1, h2, h3⟩ := by_size (W := W) hsize val opt fmt prec
  rw [h1]
  cases d with
  | nan s => exact ⟨_, (C46_special hS fmt prec opt v).1 s h2⟩
  | inf s => exact ⟨_, (C46_special hS fmt prec opt v).2 s h2⟩
  | num s m =>
    obtain ⟨c, hc⟩ := h3
    exact known_total hW hS hfmt prec opt hc h2

example := C52_known_partial (W := 64) (.inr rfl) (fmt := 'b') (.inl rfl) 0xFFF0000000000000 (-1) (size := 32) (.inr (.inl rfl)) true

/-- The exact algorithm on an unknown format. -/
theorem bigFtoa_unknown (hW : W = 32 ∨ W = 64) (hF : GoFormat F) {n k N : ℕ} (h : Split F n k N) (hfmt : ¬ KnownFormat fmt) (prec : ℤ) (neg : Bool) :
    bigFtoa W prec fmt neg (BitVec.ofNat 64 N) ((k : ℤ) + 1 - F.bias) (infoOf F) = .ok ['%', fmt] := by
  unfold KnownFormat DecimalFormat at hfmt
  simp only [List.mem_cons, List.not_mem_nil, or_false, not_or] at hfmt
  obtain ⟨-, e1, e2, e3, e4, e5⟩ := hfmt
  have hform : ∀ short digs p, formatDigits short neg digs p fmt = ['%', fmt] := by
    intro short digs p
    unfold formatDigits
    rw [if_neg (by simp [e1, e2]), if_neg e3, if_neg (by simp [e4, e5])]
  obtain ⟨d, d1, d2, d3, d4, d5⟩ := exact_shift hW hF h
  have hi1 : (infoOf F).mantbits = F.t := rfl
  unfold bigFtoa
  dsimp only
  rw [hi1, d1, ok_bind]
  simp only [hform]
  by_cases hp : prec < 0
  · rw [if_pos hp]
    by_cases hN : N = 0
    · unfold roundShortest
      rw [if_pos (by rw [hN]; rfl)]
      rfl
    · obtain ⟨b, hb, -⟩ := roundShortest_ok hW hF h hN d2 d4
      rw [hb, ok_bind]
      rfl
  · rw [if_neg hp]
    rfl

/-- C52 for every other letter: the text is `%` and the letter, except that a nonzero number with precision 0 panics. -/
theorem C52_unknown_partial (hW : W = 32 ∨ W = 64) (hS : SizeOf F size) (hfmt : ¬ KnownFormat fmt) (prec : ℤ)
    (hc : F.decode c = .num s m) (hd : double.decode val.toNat = .num s m) :
    formatFloat W val fmt prec size = if prec = 0 ∧ m ≠ 0 then .error .internal else .ok ['%', fmt] := by
  have hF := hS.go
  have hfmt' := hfmt
  unfold KnownFormat DecimalFormat at hfmt
  simp only [List.mem_cons, List.not_mem_nil, or_false, not_or] at hfmt
  obtain ⟨e0, e1, e2, e3, e4, e5⟩ := hfmt
  have hform : ∀ short digs p, formatDigits short s digs p fmt = ['%', fmt] := by
    intro short digs p
    unfold formatDigits
    rw [if_neg (by simp [e1, e2]), if_neg e3, if_neg (by simp [e4, e5])]
  obtain ⟨n, k, N, hs, rfl, -, -, hz⟩ := value_split hF hc
  unfold formatFloat
  rw [genericFtoa_finite hS hs hd]
  unfold ftoaFinite
  rw [if_neg e0, if_neg (by decide)]
  simp only [hform, bigFtoa_unknown hW hF hs hfmt']
  by_cases hp : prec < 0
  · rw [if_pos hp, if_neg (by omega)]
    rcases hb : assignComputeBounds (BitVec.ofNat 64 N) ((k : ℤ) + 1 - F.bias) s (infoOf F) with ⟨f, lower, upper⟩
    simp only
    by_cases hN : N = 0
    · rw [shortest_zero hF hs hN s hb, ok_bind]
      rfl
    · rcases shortest_float hF hs hN s hb with h | ⟨ds, dp, h, -⟩
      · rw [h, ok_bind]
      · rw [h, ok_bind]
        rfl
  · rw [if_neg hp, if_pos e3]
    have g1 : (if (fmt = 'g' ∨ fmt = 'G') ∧ prec = 0 then 1 else prec) = prec := if_neg (by simp [e4, e5])
    have g2 : (if fmt = 'e' ∨ fmt = 'E' then prec + 1 else prec) = prec := if_neg (by simp [e1, e2])
    simp only [g1, g2]
    by_cases h15 : prec ≤ 15
    · rw [if_pos h15, fexp_eq]
      by_cases hN : N = 0
      · have h0 : ExtFloat.fixedDecimal ⟨BitVec.ofNat 64 N, F.qmin + k, s⟩ prec = .ok (some ⟨[], 0, s⟩) := by
          unfold ExtFloat.fixedDecimal
          rw [if_pos (by rw [hN]; rfl)]
          rfl
        rw [h0, ok_bind, if_neg (by rw [hz.1 hN]; simp)]
        rfl
      · have hN' : BitVec.ofNat 64 N ≠ 0 := by
          intro hc
          have := congrArg BitVec.toNat hc
          rw [ofNat_toNat (lt_trans (hs.N_lt hF) (by norm_num))] at this
          exact hN this
        by_cases hp0 : prec = 0
        · have h0 : ExtFloat.fixedDecimal ⟨BitVec.ofNat 64 N, F.qmin + k, s⟩ prec = .error .internal := by
            unfold ExtFloat.fixedDecimal
            rw [if_neg hN', if_pos hp0]
            rfl
          rw [h0, if_pos ⟨hp0, fun h => hN (hz.2 h)⟩]
          rfl
        · rw [if_neg (fun h => hp0 h.1)]
          obtain ⟨p, rfl⟩ := Int.eq_ofNat_of_zero_le (not_lt.1 hp)
          rcases fixedDecimal_float hF hs hN s (n := p) (by omega) (by omega) with ⟨h, -⟩ | ⟨ds, dp, h, -⟩
          · rw [h, ok_bind]
          · rw [h, ok_bind]
            rfl
    · rw [if_neg h15, if_neg (by omega)]

example := C52_unknown_partial (W := 64) (.inr rfl) (F := half) (size := 16) (.inl ⟨rfl, rfl⟩) (fmt := 'x') (by simp [KnownFormat, DecimalFormat]) 0 Sample.x_half (val := 0xBFF6000000000000) Sample.x_double

/-- C52: an illegal size panics, whatever the float. -/
theorem C52_size (W : ℕ) (val : F64) (fmt : Char) (prec : ℤ) (hs : size ≠ 16 ∧ size ≠ 32 ∧ size ≠ 64) :
    formatFloat W val fmt prec size = .error .illegalBitSize := by
  unfold formatFloat genericFtoa
  rw [if_neg hs.1, if_neg hs.2.1, if_neg hs.2.2]
  rfl

example : formatFloat 64 0x3FF0000000000000 'x' 1 64 = .ok "%x".toList := by decide +kernel

end GoFloat.Strconv
