import Verif.Proofs.Grisu
import Verif.Proofs.FtoaText
/-
`ShortestDecimal` and `AssignComputeBounds` (internal/strconv/extfloat.go) as a whole.
-/
namespace GoFloat.Strconv
open Spec

/-- Counting the digits of the integer part. -/
theorem countDigits_aux (x : BitVec 32) (f i : ℕ) (pow : BitVec 64) : f + i = 20 → i ≤ 10 → pow.toNat = 10 ^ i →
    (i = 0 ∨ 10 ^ (i - 1) ≤ x.toNat) →
    ∃ r, countDigits x f i pow = r ∧ r ≤ 10 ∧ x.toNat < 10 ^ r ∧ (r = 0 ∨ 10 ^ (r - 1) ≤ x.toNat) := by
  induction f generalizing i pow with
  | zero => intro h1 h2; omega
  | succ f ih =>
    intro h1 h2 h3 h4
    have hx := x.isLt
    have hw : (x.setWidth 64).toNat = x.toNat := by
      rw [BitVec.toNat_setWidth, Nat.mod_eq_of_lt (by omega)]
    unfold countDigits
    by_cases hc : x.toNat < 10 ^ i
    · rw [if_pos (by rw [gt_iff_lt, bv_lt, hw, h3]; exact hc)]
      exact ⟨i, rfl, h2, hc, h4⟩
    · rw [if_neg (by rw [gt_iff_lt, bv_lt, hw, h3]; exact hc)]
      have hi : i < 10 := by
        by_contra hcc
        have : i = 10 := by omega
        subst this
        norm_num at hc hx
        omega
      have hp : 10 ^ i ≤ 10 ^ 9 := Nat.pow_le_pow_right (by norm_num) (by omega)
      norm_num at hp
      refine ih (i + 1) (pow * 10) (by omega) (by omega) ?_ (Or.inr (by rw [Nat.add_sub_cancel]; omega))
      rw [mul_toNat] <;> rw [h3, show (10 : BitVec 64).toNat = 10 from rfl]
      · rw [pow_succ]
      · omega

theorem countDigits_ok (x : BitVec 32) (hx : 0 < x.toNat) :
    ∃ nd, countDigits x 20 0 1 = nd ∧ nd ≤ 10 ∧ 1 ≤ nd ∧ x.toNat < 10 ^ nd ∧ 10 ^ (nd - 1) ≤ x.toNat := by
  obtain ⟨r, r1, r2, r3, r4⟩ := countDigits_aux x 20 0 1 rfl (by norm_num) rfl (Or.inl rfl)
  have : r ≠ 0 := by
    rintro rfl
    rw [pow_zero] at r3
    omega
  exact ⟨r, r1, r2, by omega, r3, r4.resolve_left this⟩

theorem uintOf_nonneg {i : ℤ} (h : 0 ≤ i) (h2 : i < 2 ^ 64) : uintOf i = i.toNat := by
  unfold uintOf
  rw [Int.emod_eq_of_lt h h2]

theorem multiply_mono {a b e : ExtFloat} (h : a.mant.toNat ≤ b.mant.toNat) : (a.multiply e).mant.toNat ≤ (b.multiply e).mant.toNat := by
  rw [multiply_mant, multiply_mant]
  exact Nat.div_le_div_right (Nat.add_le_add_right (Nat.mul_le_mul_right _ h) _)

theorem multiply_le (a e : ExtFloat) : (a.multiply e).mant.toNat ≤ 2 ^ 64 - 2 := by
  rw [multiply_mant]
  have h1 := a.mant.isLt
  have h2 := e.mant.isLt
  have : a.mant.toNat * e.mant.toNat ≤ (2 ^ 64 - 1) * (2 ^ 64 - 1) := Nat.mul_le_mul (by omega) (by omega)
  omega

/-- The decimal `ds`, `dp` lies strictly between `lo` and `hi`; no decimal with a coarser last digit lies between them, and
every other one with the same last digit is farther from `v`. -/
structure ShortestIn (lo hi v : ℚ) (ds : List ℕ) (dp : ℤ) : Prop where
  normal : NormalDec ds dp
  ne_nil : ds ≠ []
  gt : lo < decValue ds dp
  lt : decValue ds dp < hi
  coarser : ∀ z : ℤ, ¬ (lo ≤ z * (10 : ℚ) ^ (dp - ds.length + 1) ∧ z * (10 : ℚ) ^ (dp - ds.length + 1) ≤ hi)
  unique : ∀ z : ℤ, lo ≤ z * (10 : ℚ) ^ (dp - ds.length) → z * (10 : ℚ) ^ (dp - ds.length) ≤ hi →
    z * (10 : ℚ) ^ (dp - ds.length) ≠ decValue ds dp → |decValue ds dp - v| < |z * (10 : ℚ) ^ (dp - ds.length) - v|

/-- From units of `2^-s` to numbers. -/
theorem shortestIn_of {u target A s nd : ℕ} {ds : List ℕ} {exp10 : ℤ} (ho : Out u target A s nd ds) {κ lo hi v U L V : ℚ}
    (hκ : κ = (10 : ℚ) ^ exp10 / 2 ^ s) (hlo : lo = L * κ) (hhi : hi = U * κ) (hv : v = V * κ)
    (hU1 : (u : ℚ) - 2 < U) (hU2 : U < u) (hL1 : (u : ℚ) - A < L) (hL2 : L < (u : ℚ) - A + 2)
    (hV1 : (u : ℚ) - target - 1 < V) (hV2 : V < (u : ℚ) - target + 1) :
    ShortestIn lo hi v ds (nd + exp10) := by
  obtain ⟨unit, X, h⟩ := ho.meaning
  have hκ0 : 0 < κ := by rw [hκ]; positivity
  have hunit0 : 0 < unit := by linarith [h.unit_big]
  have hval : ∀ j : ℤ, (10 : ℚ) ^ ((nd : ℤ) + exp10 - ds.length + j) = unit * 10 ^ j * κ := by
    intro j
    rw [h.unit_eq, hκ, show (nd : ℤ) + exp10 - ds.length + j = ((nd : ℤ) - ds.length) + exp10 + j by ring, zpow_add₀ (by norm_num), zpow_add₀ (by norm_num)]
    field_simp
  have hval0 : (10 : ℚ) ^ ((nd : ℤ) + exp10 - ds.length) = unit * κ := by
    have := hval 0
    rw [add_zero, zpow_zero, mul_one] at this
    exact this
  have hval1 : (10 : ℚ) ^ ((nd : ℤ) + exp10 - ds.length + 1) = 10 * unit * κ := by rw [hval 1, zpow_one]; ring
  have hdec : decValue ds (nd + exp10) = X * κ := by
    show (dv ds : ℚ) * _ = _
    rw [hval0, h.X_eq]; ring
  have hub := h.unit_big
  have hup := h.upper
  have hlw := h.lower
  have hnr := h.near
  refine ⟨⟨ho.digit, ho.head, ho.last, fun hc => absurd hc ho.ne_nil⟩, ho.ne_nil, ?_, ?_, ?_, ?_⟩
  · rw [hdec, hlo]; exact mul_lt_mul_of_pos_right (by linarith) hκ0
  · rw [hdec, hhi]; exact mul_lt_mul_of_pos_right (by linarith) hκ0
  · rintro z ⟨z1, z2⟩
    rw [hval1, hlo, ← mul_assoc] at z1
    rw [hval1, hhi, ← mul_assoc] at z2
    have z1' := le_of_mul_le_mul_right z1 hκ0
    have z2' := le_of_mul_le_mul_right z2 hκ0
    exact h.shortest z ⟨by linarith, by linarith⟩
  · intro z z1 z2 hzne
    rw [hval0, hlo, ← mul_assoc] at z1
    rw [hval0, hhi, ← mul_assoc] at z2
    have z1' := le_of_mul_le_mul_right z1 hκ0
    have z2' := le_of_mul_le_mul_right z2 hκ0
    rw [hdec, hval0, ← mul_assoc] at hzne
    rw [hdec, hval0, hv, ← mul_assoc, ← sub_mul, ← sub_mul, abs_mul, abs_mul]
    apply mul_lt_mul_of_pos_right _ (abs_pos.2 hκ0.ne')
    have hX := h.X_eq
    rcases lt_trichotomy z (dv ds : ℤ) with hz | hz | hz
    · have : (z : ℚ) + 1 ≤ dv ds := by exact_mod_cast hz
      have hzu : (z : ℚ) * unit + unit ≤ X := by rw [hX]; nlinarith
      rw [abs_lt]
      rw [abs_of_neg (by linarith : (z : ℚ) * unit - V < 0)]
      constructor <;> linarith
    · refine absurd ?_ hzne
      rw [hz, hX]; norm_cast
    · have : (dv ds : ℚ) + 1 ≤ z := by exact_mod_cast hz
      have hzu : X + unit ≤ (z : ℚ) * unit := by rw [hX]; nlinarith
      rcases h.far with hf | hf
      · linarith
      · rw [abs_of_pos (by linarith : (0 : ℚ) < (z : ℚ) * unit - V), abs_lt]
        constructor <;> linarith

theorem ok_bind {α β : Type} (a : α) (g : α → Go β) : ((Except.ok a : Go α) >>= g) = g a := rfl

theorem frexp10Many_ok {a b c e : ExtFloat} {i x : ℤ} (h1 : tableAt powersOfTen i = .ok e)
    (h2 : c.frexp10 = .ok (c.multiply e, x, i)) :
    frexp10Many a b c = .ok (a.multiply e, b.multiply e, c.multiply e, x) := by
  unfold frexp10Many
  rw [h2, ok_bind]
  simp only [h1, ok_bind]
  rfl

/-- `ShortestDecimal` after the three numbers have been given a common exponent. -/
theorem shortestDecimal_aligned {f lower upper f2 lo2 up2 : ExtFloat} (hf0 : f.mant ≠ 0) (hne : ¬ (f.exp = 0 ∧ lower = f ∧ lower = upper))
    (hup : upper.normalize.1 = up2)
    (hf2 : (if f.exp > up2.exp then { f with mant := f.mant <<< uintOf (f.exp - up2.exp), exp := up2.exp } else f) = f2)
    (hlo2 : (if lower.exp > up2.exp then { lower with mant := lower.mant <<< uintOf (lower.exp - up2.exp), exp := up2.exp } else lower) = lo2)
    (he1 : f2.exp = up2.exp) (he2 : lo2.exp = up2.exp) (hE1 : -1150 ≤ up2.exp) (hE2 : up2.exp < 1050) (hU : 2 ^ 63 ≤ up2.mant.toNat)
    (hL : 4 ≤ lo2.mant.toNat) (hLV : lo2.mant.toNat ≤ f2.mant.toNat) (hVU : f2.mant.toNat ≤ up2.mant.toNat)
    (hUV : 2 * up2.mant.toNat ≤ 3 * f2.mant.toNat) :
    f.shortestDecimal lower upper = .ok none ∨
      ∃ ds dp, f.shortestDecimal lower upper = .ok (some ⟨ds.map (· + 48), dp, f2.neg⟩) ∧ ShortestIn lo2.val up2.val f2.val ds dp := by
  obtain ⟨i, e, hi, e1, e2, e3, e4, e5⟩ := frexp10_ok up2 hE1 hE2
  obtain ⟨hT1, hT2⟩ := scale_bounds e2
  have mU := multiply_error up2 e2
  have mL := multiply_error lo2 e2
  have mV := multiply_error f2 e2
  have sU := val_scale up2 e (-348 + 8 * (i : ℤ))
  have sL := val_scale lo2 e (-348 + 8 * (i : ℤ))
  have sV := val_scale f2 e (-348 + 8 * (i : ℤ))
  have moLV := multiply_mono (e := e) hLV
  have moVU := multiply_mono (e := e) hVU
  have hup64 := multiply_le up2 e
  rw [he1] at sV
  rw [he2] at sL
  obtain ⟨s, hs⟩ : ∃ s : ℕ, up2.exp + e.exp + 64 = -(s : ℤ) := ⟨(-(up2.exp + e.exp + 64)).toNat, by omega⟩
  have hs1 : 32 ≤ s := by omega
  have hs2 : s ≤ 60 := by omega
  rw [hs] at sU sL sV
  unfold ExtFloat.shortestDecimal
  rw [if_neg hf0, if_neg hne]
  simp only [hup, hf2, hlo2]
  rw [frexp10Many_ok e1 e3, ok_bind]
  dsimp only
  rw [multiply_exp, hs, neg_neg, uintOf_nonneg (by omega) (by omega), Int.toNat_natCast, multiply_neg]
  set T := tenScale e (-348 + 8 * (i : ℤ)) with hT
  generalize (up2.multiply e).mant = Um at *
  generalize (lo2.multiply e).mant = Lm at *
  generalize (f2.multiply e).mant = Vm at *
  rw [abs_lt] at mU mL mV
  have hTlow : (49 : ℚ) / 100 < T := by
    refine lt_of_lt_of_le ?_ hT1
    norm_num
  have hU' : ((2 : ℚ) ^ 63) ≤ up2.mant.toNat := by exact_mod_cast hU
  have hL' : (4 : ℚ) ≤ lo2.mant.toNat := by exact_mod_cast hL
  have hUV' : 2 * (up2.mant.toNat : ℚ) ≤ 3 * f2.mant.toNat := by exact_mod_cast hUV
  have hLpos : 1 ≤ Lm.toNat := by
    have : (0 : ℚ) < Lm.toNat := by nlinarith
    exact_mod_cast this
  have hUbig : 2 ^ 61 ≤ Um.toNat := by
    have h1 : (2 : ℚ) ^ 63 * (49 / 100) ≤ up2.mant.toNat * T := mul_le_mul hU' hTlow.le (by norm_num) (by positivity)
    have : ((2 : ℚ) ^ 61) ≤ Um.toNat := by
      have h2 : (2 : ℚ) ^ 61 + 1 ≤ (2 : ℚ) ^ 63 * (49 / 100) := by norm_num
      linarith
    exact_mod_cast this
  have hu : (Um + 1).toNat = Um.toNat + 1 := add_toNat (by
    rw [show (1 : BitVec 64).toNat = 1 from rfl]
    omega)
  have hl : (Lm - 1).toNat = Lm.toNat - 1 := sub_toNat (by
    rw [show (1 : BitVec 64).toNat = 1 from rfl]
    omega)
  set u := Um.toNat + 1 with hudef
  set integer : BitVec 32 := ((Um + 1) >>> s).setWidth 32 with hint
  have hI : integer.toNat = u / 2 ^ s := by
    rw [hint, BitVec.toNat_setWidth, BitVec.toNat_ushiftRight, hu, Nat.shiftRight_eq_div_pow, Nat.mod_eq_of_lt]
    rw [Nat.div_lt_iff_lt_mul (by positivity)]
    have : 2 ^ 32 ≤ 2 ^ s := Nat.pow_le_pow_right (by norm_num) hs1
    have h3 : 2 ^ 32 * 2 ^ 32 ≤ 2 ^ 32 * 2 ^ s := Nat.mul_le_mul_left _ this
    omega
  have hIlt := integer.isLt
  have hIpos : 0 < integer.toNat := by
    rw [hI]
    apply Nat.div_pos _ (by positivity)
    have : 2 ^ s ≤ 2 ^ 60 := Nat.pow_le_pow_right (by norm_num) hs2
    omega
  obtain ⟨nd, n1, n2, n3, n4, n5⟩ := countDigits_ok integer hIpos
  rw [n1]
  have hI2 : (integer.setWidth 64 <<< s).toNat = integer.toNat * 2 ^ s := by
    rw [BitVec.toNat_shiftLeft, BitVec.toNat_setWidth, Nat.mod_eq_of_lt (by omega : integer.toNat < 2 ^ 64), Nat.shiftLeft_eq, Nat.mod_eq_of_lt]
    have := Nat.div_mul_le_self u (2 ^ s)
    rw [hI]
    omega
  have hIu : integer.toNat * 2 ^ s ≤ u := by rw [hI]; exact Nat.div_mul_le_self u (2 ^ s)
  set fraction := (Um + 1) - (integer.setWidth 64 <<< s) with hfr
  have hfr1 : fraction.toNat = u - integer.toNat * 2 ^ s := by rw [hfr, sub_toNat (by rw [hI2, hu]; exact hIu), hI2, hu]
  have hfr2 : fraction.toNat < 2 ^ s := by
    rw [hfr1, hI]
    have := Nat.lt_div_mul_add (a := u) (b := 2 ^ s) (by positivity)
    have h4 := hIu
    rw [hI] at h4
    generalize u / 2 ^ s * 2 ^ s = w at this h4 ⊢
    clear * - this h4
    omega
  set allowance := (Um + 1) - (Lm - 1) with hal
  have hal1 : allowance.toNat = u - (Lm.toNat - 1) := by rw [hal, sub_toNat (by rw [hu, hl]; omega), hu, hl]
  set target := (Um + 1) - Vm with htg
  have htg1 : target.toNat = u - Vm.toNat := by rw [htg, sub_toNat (by rw [hu]; omega), hu]
  have hhalf : 2 * target.toNat + 4 ≤ u := by
    have h1 : (u : ℚ) + 4 ≤ 2 * (Vm.toNat : ℚ) := by
      have hb : ((2 : ℚ) ^ 61) ≤ Um.toNat := by exact_mod_cast hUbig
      have h2 : (2 : ℚ) ^ 61 ≥ 100 := by norm_num
      have h3 : 2 * ((up2.mant.toNat : ℚ) * T) ≤ 3 * (f2.mant.toNat * T) := by
        have := mul_le_mul_of_nonneg_right hUV' (by linarith : 0 ≤ T)
        linarith
      rw [hudef]
      push_cast
      linarith
    have h2 : u + 4 ≤ 2 * Vm.toNat := by exact_mod_cast h1
    omega
  -- the result
  have key : ∀ ds, Out u target.toNat allowance.toNat s nd ds → ShortestIn lo2.val up2.val f2.val ds (nd + (348 - 8 * (i : ℤ))) := by
    intro ds ho
    have hk : (10 : ℚ) ^ (348 - 8 * (i : ℤ)) = 1 / (10 : ℚ) ^ (-348 + 8 * (i : ℤ)) := by
      rw [one_div, ← zpow_neg]; congr 1; ring
    have conv : ∀ (v m : ℚ), v * (10 : ℚ) ^ (-348 + 8 * (i : ℤ)) = m * T * (2 : ℚ) ^ (-(s : ℤ)) →
        v = m * T * ((10 : ℚ) ^ (348 - 8 * (i : ℤ)) / 2 ^ s) := by
      intro v m hv
      rw [zpow_neg, zpow_natCast] at hv
      rw [hk]
      have hpos : (0 : ℚ) < (10 : ℚ) ^ (-348 + 8 * (i : ℤ)) := by positivity
      generalize (10 : ℚ) ^ (-348 + 8 * (i : ℤ)) = P at *
      field_simp at hv ⊢
      linarith
    refine shortestIn_of ho rfl (conv _ _ sL) (conv _ _ sU) (conv _ _ sV) ?_ ?_ ?_ ?_ ?_ ?_
    · rw [hudef]; push_cast; linarith
    · rw [hudef]; push_cast; linarith
    · rw [hal1, Nat.cast_sub (by omega), Nat.cast_sub hLpos]; push_cast; linarith
    · rw [hal1, Nat.cast_sub (by omega), Nat.cast_sub hLpos]; push_cast; linarith
    · rw [htg1, Nat.cast_sub (by omega)]; linarith
    · rw [htg1, Nat.cast_sub (by omega)]; linarith
  have hu64 : u < 2 ^ 64 := by omega
  rcases shortestInt_ok f2.neg (348 - 8 * (i : ℤ)) u s nd fraction.toNat integer.toNat fraction allowance target (by omega) hs2 n2
    (by rw [hal1]; omega) (by rw [hal1, htg1]; omega) rfl hfr2 (by rw [hfr1]; omega) hu64 hIlt n5 n4 hhalf nd [] integer le_rfl
    (by rw [List.length_nil, Nat.zero_add]) (by intro d hd; cases hd) (by rw [List.head?_nil]; exact fun hc => by cases hc)
    (by show 0 * _ + _ = _; omega) n4 (by rw [hal1, hfr1]; omega) with h | ⟨ds, ho, h⟩ | ⟨ds, d1, d2, d3, d4, d5, h⟩
  · rw [List.map_nil] at h
    rw [h]
    exact Or.inl rfl
  · rw [List.map_nil] at h
    rw [h]
    exact Or.inr ⟨ds, _, rfl, key ds ho⟩
  · rw [List.map_nil] at h
    rw [h, ok_bind]
    dsimp only
    rw [List.length_map, d3]
    rcases shortestFrac_ok f2.neg ((nd : ℤ) + (348 - 8 * (i : ℤ))) u s nd allowance target (by omega) hs2 n2
      (by rw [hal1]; omega) (by rw [hal1, htg1]; omega) 33 0 ds fraction 1 rfl rfl (by rw [d3, Nat.add_zero]) d1 d2
      (by intro hc; rw [hc, List.length_nil] at d3; omega) (by rw [d4, hfr1, pow_zero, mul_one]; omega) hfr2
      (by rw [pow_zero, mul_one]; exact d5) with h | ⟨ds, ho, h⟩
    · exact Or.inl h
    · exact Or.inr ⟨ds, _, h, key ds ho⟩

end GoFloat.Strconv
