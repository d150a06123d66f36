import Verif.Proofs.Sample
import Verif.Proofs.Gap
/-
Properties of float.go: which numbers IsExact16, IsExact32 and IsExact64 accept (C72 of properties.jsonl).
-/
namespace GoFloat
open Spec Strconv

variable {W : ℕ} {x : BigFloat} {s : Bool} {m : ℚ}

/-- A float that is one of its own shortest decimals is printed exactly. -/
theorem prints_self (hW : W = 32 ∨ W = 64) {F : Format} {size : ℤ} (hS : SizeOf F size) {c : ℕ} (hc : F.decode c = .num s m) {val : F64}
    (hd : double.decode val.toNat = .num s m) (h : ∀ n y, FitsDigits n y → F.RoundsTo s y c → FitsDigits n m) :
    ∃ t, formatFloat W val 'e' (-1) size = .ok t ∧ readDecimal t = some (s, m) := by
  obtain ⟨ds, dp, x, h1, h2, h3, h4, h5, h6, h7, h8⟩ := short_digits_self hW hS true hc hd
  have h9 := h8 (h _ _ (fits_dec h1.digit) h3)
  have h10 := formatDigits_shortest_read s h1.digit dp x (fmt := 'e') (by simp [DigitFmt]) h4
  rw [h9] at h10
  exact ⟨_, h5 (by norm_num) (by simp [DecimalFormat]), h10⟩

theorem rounded101_double {f : F64} (hv : double.decode f.toNat = .num s m) {j : ℕ} (hj : j ≤ 101) (h : FitsDigits j m) : Rounded101 m m := by
  obtain ⟨N, k, rfl, -⟩ := decode_dyadic hv
  exact rounded101_self hj h

/-- C72: IsExact64 accepts exactly the float64 numbers for which no shorter decimal is read as the same float64. -/
theorem C72_isExact64 (hW : W = 32 ∨ W = 64) (hx : x.WF) :
    isExact64 W x = .ok true ↔ ∃ s m c, x.datum = .num s m ∧ double.decode c = .num s m ∧ ∀ n y, FitsDigits n y → double.RoundsTo s y c → FitsDigits n m := by
  constructor
  · intro h
    rcases datum_cases x with ⟨s, m, hd⟩ | ⟨s, hd⟩
    · obtain ⟨b, h1, h2⟩ := C35_decides64 hW hx hd
      rw [h] at h1
      injection h1 with h1
      obtain ⟨val, hv, t, q, k1, k2, k3⟩ := h2.1 h1.symm
      obtain ⟨⟨D, e, hD, hq⟩, -⟩ := short_digits hW (F := double) (Or.inr (Or.inr ⟨rfl, rfl⟩)) (j := 17) (by decide) (by norm_num) k1 k2
      have hmq := short_equal64 hv hD hq k3
      obtain ⟨t', q', a1, a2, a3⟩ := C43_formatFloat hW (Or.inr (Or.inr ⟨rfl, rfl⟩) : SizeOf double 64) (fmt := 'e') (by simp [DecimalFormat]) (prec := -1) (by norm_num) hv hv
      rw [k1] at a1
      injection a1 with a1
      rw [← a1, k2] at a2
      injection a2 with a2
      injection a2 with _ a2
      rw [← a2, ← hmq] at a3
      exact ⟨s, m, _, hd, hv, a3⟩
    · rw [(C36_infinite hW hd).2.2] at h
      cases h
  · rintro ⟨s, m, c, hd, hc, h⟩
    refine accept64 hW hx hd hc fun val hv => ?_
    obtain ⟨t, h1, h2⟩ := prints_self hW (Or.inr (Or.inr ⟨rfl, rfl⟩) : SizeOf double 64) hc hv h
    obtain ⟨a1, -⟩ := short_digits hW (F := double) (Or.inr (Or.inr ⟨rfl, rfl⟩)) (j := 17) (by decide) (by norm_num) h1 h2
    exact ⟨t, m, h1, h2, rounded101_double hv (by norm_num) a1⟩

example := (C72_isExact64 (W := 64) (.inr rfl) Sample.x_wf).1 (by decide +kernel)

/-- C72: IsExact32 accepts exactly the float32 numbers for which no shorter decimal is read as the same float32. -/
theorem C72_isExact32 (hW : W = 32 ∨ W = 64) (hx : x.WF) :
    isExact32 W x = .ok true ↔ ∃ s m c, x.datum = .num s m ∧ single.decode c = .num s m ∧ ∀ n y, FitsDigits n y → single.RoundsTo s y c → FitsDigits n m := by
  constructor
  · intro h
    rcases datum_cases x with ⟨s, m, hd⟩ | ⟨s, hd⟩
    · obtain ⟨b, h1, h2⟩ := C35_decides32 hW hx hd
      rw [h] at h1
      injection h1 with h1
      obtain ⟨val, hv, t, q, k1, k2, k3⟩ := h2.1 h1.symm
      obtain ⟨⟨D, e, hD, hq⟩, -⟩ := short_digits hW (F := single) (Or.inr (Or.inl ⟨rfl, rfl⟩)) (j := 9) (by decide) (by norm_num) k1 k2
      have hmq := short_equal32 hv hD hq k3
      obtain ⟨t', q', a1, a2, a3⟩ := C43_formatFloat hW (Or.inr (Or.inl ⟨rfl, rfl⟩) : SizeOf single 32) (fmt := 'e') (by simp [DecimalFormat]) (prec := -1) (by norm_num) hv (f32to64_num hv)
      rw [k1] at a1
      injection a1 with a1
      rw [← a1, k2] at a2
      injection a2 with a2
      injection a2 with _ a2
      rw [← a2, ← hmq] at a3
      exact ⟨s, m, _, hd, hv, a3⟩
    · rw [(C36_infinite hW hd).2.1] at h
      cases h
  · rintro ⟨s, m, c, hd, hc, h⟩
    refine accept32 hW hx hd hc fun val hv => ?_
    obtain ⟨t, h1, h2⟩ := prints_self hW (Or.inr (Or.inl ⟨rfl, rfl⟩) : SizeOf single 32) hc hv h
    obtain ⟨a1, -⟩ := short_digits hW (F := single) (Or.inr (Or.inl ⟨rfl, rfl⟩)) (j := 9) (by decide) (by norm_num) h1 h2
    exact ⟨t, m, h1, h2, rounded101_double hv (by norm_num) a1⟩

example := (C72_isExact32 (W := 64) (.inr rfl) Sample.x_wf).1 (by decide +kernel)

/-- What a text printed with a negative precision denotes, however the argument was rounded to the size. -/
theorem reads_shortest (hW : W = 32 ∨ W = 64) {F : Format} {size : ℤ} (hS : SizeOf F size) {val : F64} {t : Text} {q : ℚ}
    (ht : formatFloat W val 'e' (-1) size = .ok t) (hr : readDecimal t = some (s, q)) :
    ∃ c r, F.decode c = .num s r ∧ F.RoundsTo s q c ∧ ∀ n y, FitsDigits n y → F.RoundsTo s y c → FitsDigits n q := by
  obtain ⟨F', val', d, h1, h2, h3, h4⟩ := by_size (W := W) (size := size) (by rcases hS with ⟨-, h⟩ | ⟨-, h⟩ | ⟨-, h⟩ <;> simp [h]) val true 'e' (-1)
  have hFF : F' = F := by
    rcases hS with ⟨rfl, h⟩ | ⟨rfl, h⟩ | ⟨rfl, h⟩ <;> rcases h1 with ⟨rfl, h'⟩ | ⟨rfl, h'⟩ | ⟨rfl, h'⟩ <;> first | rfl | (exfalso; omega)
  subst hFF
  unfold formatFloat at ht
  rw [h2] at ht
  obtain ⟨k1, k2⟩ := C46_special (W := W) h1 'e' (-1) true val'
  cases d with
  | nan s' =>
    rw [k1 s' h3] at ht
    injection ht with ht
    have : readDecimal "NaN".toList = none := by decide +kernel
    rw [← ht, this] at hr
    cases hr
  | inf s' =>
    rw [k2 s' h3] at ht
    injection ht with ht
    have : readDecimal (if s' then "-Inf" else "+Inf").toList = none := by cases s' <;> decide +kernel
    rw [← ht, this] at hr
    cases hr
  | num s' r =>
    obtain ⟨c, hc⟩ := h4
    obtain ⟨ds, dp, a1, a2, a3, a4, a5, -⟩ := short_e hW h1 hc h3
    unfold formatFloat at a2
    rw [a2] at ht
    injection ht with ht
    rw [← ht, sciText_read s' a1.digit dp (by omega)] at hr
    injection hr with hr
    injection hr with e1 e2
    subst e1 e2
    exact ⟨c, r, hc, a4, fun n y hy hy' => fits_mono (a5 n y hy hy') (fits_dec a1.digit)⟩

/-- C72: IsExact16 accepts exactly the float64 numbers that FormatFloat prints, with their exact value, when it rounds them to a
binary16. -/
theorem C72_isExact16 (hW : W = 32 ∨ W = 64) (hx : x.WF) :
    isExact16 W x = .ok true ↔ ∃ s m f t, x.datum = .num s m ∧ double.decode (BitVec.toNat (f : F64)) = .num s m ∧
      formatFloat W f 'e' (-1) 16 = .ok t ∧ readDecimal t = some (s, m) := by
  constructor
  · intro h
    rcases datum_cases x with ⟨s, m, hd⟩ | ⟨s, hd⟩
    · obtain ⟨b, h1, h2⟩ := C35_decides16 hW hx hd
      rw [h] at h1
      injection h1 with h1
      obtain ⟨val, hv, t, q, k1, k2, k3⟩ := h2.1 h1.symm
      obtain ⟨⟨D, e, hD, hq⟩, -⟩ := short_digits hW (F := half) (Or.inl ⟨rfl, rfl⟩) (j := 5) (by decide) (by norm_num) k1 k2
      have hmq := short_equal64 hv (hD.trans (by norm_num)) hq k3
      rw [← hmq] at k2
      exact ⟨s, m, val, t, hd, hv, k1, k2⟩
    · rw [(C36_infinite hW hd).1] at h
      cases h
  · rintro ⟨s, m, f, t, hd, hf, ht, hr⟩
    obtain ⟨b, h1, h2⟩ := C35_decides16 hW hx hd
    obtain ⟨a1, -⟩ := short_digits hW (F := half) (Or.inl ⟨rfl, rfl⟩) (j := 5) (by decide) (by norm_num) ht hr
    rw [h1, h2.2 ⟨f, hf, t, m, ht, hr, rounded101_double hf (by norm_num) a1⟩]

example := (C72_isExact16 (W := 64) (.inr rfl) Sample.x_wf).1 (by decide +kernel)

/-- C72: a number that IsExact16 accepts is a shortest decimal of a binary16. -/
theorem C72_isExact16_shortest (hW : W = 32 ∨ W = 64) (hx : x.WF) (h : isExact16 W x = .ok true) :
    ∃ s m c r, x.datum = .num s m ∧ half.decode c = .num s r ∧ half.RoundsTo s m c ∧ ∀ n y, FitsDigits n y → half.RoundsTo s y c → FitsDigits n m := by
  obtain ⟨s, m, f, t, hd, -, ht, hr⟩ := (C72_isExact16 hW hx).1 h
  obtain ⟨c, r, h1, h2, h3⟩ := reads_shortest hW (Or.inl ⟨rfl, rfl⟩ : SizeOf half 16) ht hr
  exact ⟨s, m, c, r, hd, h1, h2, h3⟩

example := C72_isExact16_shortest (W := 64) (.inr rfl) Sample.x_wf (by decide +kernel)

/-- C72: IsExact16 accepts the binary16 numbers for which no shorter decimal is read as the same binary16. -/
theorem C72_isExact16_self (hW : W = 32 ∨ W = 64) (hx : x.WF) (hd : x.datum = .num s m) {c : ℕ} (hc : half.decode c = .num s m)
    (h : ∀ n y, FitsDigits n y → half.RoundsTo s y c → FitsDigits n m) : isExact16 W x = .ok true := by
  refine accept16 hW hx hd hc fun val hv => ?_
  obtain ⟨t, h1, h2⟩ := prints_self hW (Or.inl ⟨rfl, rfl⟩ : SizeOf half 16) hc hv h
  obtain ⟨a1, -⟩ := short_digits hW (F := half) (Or.inl ⟨rfl, rfl⟩) (j := 5) (by decide) (by norm_num) h1 h2
  exact ⟨t, m, h1, h2, rounded101_double hv (by norm_num) a1⟩

/-- C72: IsExact16, IsExact32 and IsExact64 reject every finite number with more than 5, 9 and 17 significant decimal digits. -/
theorem C72_digits (hW : W = 32 ∨ W = 64) (hx : x.WF) (hd : x.datum = .num s m) :
    (¬ FitsDigits 5 m → isExact16 W x = .ok false) ∧ (¬ FitsDigits 9 m → isExact32 W x = .ok false) ∧
    (¬ FitsDigits 17 m → isExact64 W x = .ok false) := by
  refine ⟨fun h => ?_, fun h => ?_, fun h => ?_⟩
  · obtain ⟨b, h1, -⟩ := C35_decides16 hW hx hd
    rw [h1]
    cases b
    · rfl
    · obtain ⟨s', m', e1, e2, -⟩ := C34_partial hW hx h1
      rw [hd] at e1
      injection e1 with _ e1
      exact absurd (e1 ▸ e2) h
  · obtain ⟨b, h1, -⟩ := C35_decides32 hW hx hd
    rw [h1]
    cases b
    · rfl
    · obtain ⟨s', m', e1, e2, -⟩ := C65_digits32 hW hx h1
      rw [hd] at e1
      injection e1 with _ e1
      exact absurd (e1 ▸ e2) h
  · obtain ⟨b, h1, h2⟩ := C35_decides64 hW hx hd
    rw [h1]
    cases b
    · rfl
    · obtain ⟨val, hv, t, q, k1, k2, k3⟩ := h2.1 rfl
      obtain ⟨a1, -⟩ := short_digits hW (F := double) (Or.inr (Or.inr ⟨rfl, rfl⟩)) (j := 17) (by decide) (by norm_num) k1 k2
      obtain ⟨D, e, hD, hq⟩ := id a1
      rw [← short_equal64 hv hD hq k3] at a1
      exact absurd a1 h

-- concrete cases: 2^53 + 2 and 2^-10 are accepted; 2^70 is a float64, but 1180591620717411300000 denotes it with fewer digits
example : isExact64 64 ⟨64, .toNearestEven, .exact, .finite, false, 4503599627370497, 54⟩ = .ok true := by decide +kernel
example : isExact64 64 ⟨64, .toNearestEven, .exact, .finite, true, 1, -9⟩ = .ok true := by decide +kernel
example : isExact64 64 ⟨64, .toNearestEven, .exact, .finite, false, 1, 71⟩ = .ok false := by decide +kernel
example : isExact32 32 ⟨64, .toNearestEven, .exact, .finite, false, 1, 71⟩ = .ok false := by decide +kernel

-- the hypothesis of the characterisation: no decimal is shorter than 1
example : ∃ s m c, (⟨64, .toNearestEven, .exact, .finite, false, 1, 1⟩ : BigFloat).datum = .num s m ∧ double.decode c = .num s m ∧
    ∀ n y, FitsDigits n y → double.RoundsTo s y c → FitsDigits n m := by
  refine (C72_isExact64 (W := 64) (Or.inr rfl) ?_).1 (by decide +kernel)
  exact ⟨by decide, fun _ => by decide, fun _ => by decide, fun _ => by decide, fun _ => by decide, fun _ => ⟨1, 0, by norm_num, by norm_num⟩⟩

end GoFloat
