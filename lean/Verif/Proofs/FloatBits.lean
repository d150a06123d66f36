import Verif.Proofs.Bounds
import Verif.Proofs.FtoaBits
/-
Lemmas about `floatBits` (extfloat.go:132-174).
-/
namespace GoFloat.Strconv
open Spec

variable {F : Format}

theorem normalize_self {f : ExtFloat} (h : 2 ^ 63 ≤ f.mant.toNat) : f.normalize.1 = f := by
  have hlt := f.mant.isLt
  have hb : bitLen f.mant.toNat = 64 := bitLen_eq_of h hlt
  have h0 : f.mant ≠ 0 := by
    intro hc
    rw [hc] at h
    revert h
    decide
  unfold ExtFloat.normalize
  rw [if_neg h0, hb]
  simp

/-- The fields of a code put together; `A`, `B` are the masks and `S` the sign bit. -/
theorem pack_bits {t w : ℕ} (htw : t + w + 1 ≤ 64) {A B S : BitVec 64} (hA : A.toNat = 2 ^ t - 1) (hB : B.toNat = 2 ^ w - 1)
    (hS : S.toNat = 2 ^ (t + w)) (m : BitVec 64) {y : ℤ} {x : ℕ} (hx : x < 2 ^ w) (hy : y = x) (neg : Bool) :
    (if neg then ((m &&& A) ||| (BitVec.ofInt 64 y &&& B) <<< t) ||| S
      else (m &&& A) ||| (BitVec.ofInt 64 y &&& B) <<< t).toNat =
      (if neg then 2 ^ (t + w) else 0) + (x * 2 ^ t + m.toNat % 2 ^ t) := by
  subst hy
  have hw64 : 2 ^ w ≤ 2 ^ 64 := Nat.pow_le_pow_right (by norm_num) (by omega)
  have hm := Nat.mod_lt m.toNat (Nat.two_pow_pos t)
  have hlt : x * 2 ^ t + m.toNat % 2 ^ t < 2 ^ (t + w) := by
    rw [pow_add, mul_comm]
    calc 2 ^ t * x + m.toNat % 2 ^ t < 2 ^ t * x + 2 ^ t := by omega
      _ = 2 ^ t * (x + 1) := by ring
      _ ≤ 2 ^ t * 2 ^ w := Nat.mul_le_mul_left _ (by omega)
  have htw64 : 2 ^ (t + w) < 2 ^ 64 := Nat.pow_lt_pow_right (by norm_num) (by omega)
  have hx64 : x * 2 ^ t < 2 ^ 64 := by omega
  have e1 : (m &&& A).toNat = m.toNat % 2 ^ t := by
    rw [BitVec.toNat_and, hA, Nat.and_two_pow_sub_one_eq_mod]
  have e2 : (BitVec.ofInt 64 (x : ℤ) &&& B).toNat = x := by
    rw [BitVec.toNat_and, hB, Nat.and_two_pow_sub_one_eq_mod, BitVec.ofInt_natCast, BitVec.toNat_ofNat,
      Nat.mod_eq_of_lt (show x < 2 ^ 64 by omega), Nat.mod_eq_of_lt hx]
  have e3 : ((BitVec.ofInt 64 (x : ℤ) &&& B) <<< t).toNat = x * 2 ^ t := by
    rw [shl_toNat (by rw [e2]; exact hx64), e2]
  have e4 : ((m &&& A) ||| (BitVec.ofInt 64 (x : ℤ) &&& B) <<< t).toNat = x * 2 ^ t + m.toNat % 2 ^ t := by
    rw [BitVec.toNat_or, e1, e3, Nat.lor_comm, mul_comm, Nat.two_pow_add_eq_or_of_lt hm]
  cases neg
  · simp only [Bool.false_eq_true, if_false, zero_add]
    exact e4
  · simp only [if_true]
    have h1 := Nat.two_pow_add_eq_or_of_lt hlt 1
    rw [mul_one] at h1
    rw [BitVec.toNat_or, e4, hS, Nat.lor_comm, h1]

/-- The rounded mantissa: half a unit and more is rounded up. -/
def roundHalfUp (M X : ℕ) : ℕ := M / 2 ^ X + if M.testBit (X - 1) then 1 else 0

theorem roundHalfUp_le {M X t : ℕ} (hX : M < 2 ^ (t + 1 + X)) : roundHalfUp M X ≤ 2 ^ (t + 1) := by
  have : M / 2 ^ X < 2 ^ (t + 1) := by
    rw [Nat.div_lt_iff_lt_mul (Nat.two_pow_pos _), ← pow_add]
    exact hX
  unfold roundHalfUp
  split <;> omega

/-- The part of `floatBits` after rounding: infinities, denormalised numbers, assembly of the bits. -/
theorem assemble (hF : GoFormat F) {mant : BitVec 64} {e : ℤ} {k N : ℕ} (neg : Bool) (hN : mant.toNat = N) (hN2 : N ≤ 2 ^ (F.t + 1))
    (hk : k = 0 ∨ 2 ^ F.t ≤ N) (he : e = k + 1 - F.bias) {A B S T D : BitVec 64} (hA : A.toNat = 2 ^ F.t - 1)
    (hB : B.toNat = 2 ^ F.w - 1) (hS : S.toNat = 2 ^ (F.t + F.w)) (hT : T.toNat = 2 ^ F.t) (hD : D.toNat = 2 ^ (F.t + 1)) :
    (let (mant, exp) := if mant = D then (mant >>> 1, e + 1) else (mant, e)
     let (mant, exp, overflow) :=
       if exp - -F.bias ≥ 2 ^ F.w - 1 then ((0 : BitVec 64), 2 ^ F.w - 1 + -F.bias, true)
       else if mant &&& T = 0 then (mant, -F.bias, false)
       else (mant, exp, false)
     let bits := mant &&& A
     let bits := bits ||| (BitVec.ofInt 64 (exp - -F.bias) &&& B) <<< F.t
     let bits := if neg then bits ||| S else bits
     (bits.toNat, overflow)) = (F.signPart neg + min (k * 2 ^ F.t + N) F.infCode, decide (F.infCode ≤ k * 2 ^ F.t + N)) := by
  have hb := hF.bounds
  have hsp : F.signPart neg = if neg then 2 ^ (F.t + F.w) else 0 := rfl
  have hP := Nat.two_pow_pos F.t
  have hP1 : 2 ^ (F.t + 1) = 2 * 2 ^ F.t := by rw [pow_succ, mul_comm]
  have hW : 2 ^ 5 ≤ 2 ^ F.w := Nat.pow_le_pow_right (by norm_num) hb.2.2.1
  have hic : F.infCode = (2 ^ F.w - 1) * 2 ^ F.t := rfl
  -- the carry
  obtain ⟨mant', e', k', h1, h2, h3, h4, h5⟩ : ∃ (mant' : BitVec 64) (e' : ℤ) (k' : ℕ),
      (if mant = D then (mant >>> 1, e + 1) else (mant, e)) = (mant', e') ∧ e' = k' + 1 - F.bias ∧
      mant'.toNat < 2 ^ (F.t + 1) ∧ (k' = 0 ∨ 2 ^ F.t ≤ mant'.toNat) ∧ k' * 2 ^ F.t + mant'.toNat = k * 2 ^ F.t + N := by
    by_cases h : mant = D
    · have hN' : N = 2 ^ (F.t + 1) := by rw [← hN, h, hD]
      have hm : (mant >>> 1).toNat = 2 ^ F.t := by
        rw [BitVec.toNat_ushiftRight, Nat.shiftRight_eq_div_pow, hN, hN']
        omega
      refine ⟨mant >>> 1, e + 1, k + 1, by rw [if_pos h], by rw [he]; push_cast; ring, by rw [hm]; omega, Or.inr hm.ge, ?_⟩
      rw [hm, hN', hP1]
      ring
    · have hN' : N ≠ 2 ^ (F.t + 1) := by
        intro hc
        apply h
        apply BitVec.eq_of_toNat_eq
        rw [hN, hD, hc]
      exact ⟨mant, e, k, by rw [if_neg h], he, by omega, by rw [hN]; exact hk, by rw [hN]⟩
  rw [h1, ← h5]
  clear h1 h5
  set M := mant'.toNat with hM
  show (let (mant, exp, overflow) :=
       if e' - -F.bias ≥ 2 ^ F.w - 1 then ((0 : BitVec 64), 2 ^ F.w - 1 + -F.bias, true)
       else if mant' &&& T = 0 then (mant', -F.bias, false)
       else (mant', e', false)
     let bits := mant &&& A
     let bits := bits ||| (BitVec.ofInt 64 (exp - -F.bias) &&& B) <<< F.t
     let bits := if neg then bits ||| S else bits
     (bits.toNat, overflow)) = _
  have h2' : e' - -F.bias = ((k' + 1 : ℕ) : ℤ) := by rw [h2]; push_cast; ring
  by_cases hov : e' - -F.bias ≥ 2 ^ F.w - 1
  · rw [if_pos hov]
    rw [h2'] at hov
    have hkw : 2 ^ F.w - 1 ≤ k' + 1 := by zify; rw [Nat.cast_sub (by omega)]; push_cast; push_cast at hov; linarith
    have hMt : 2 ^ F.t ≤ M := by
      rcases h4 with h4 | h4
      · omega
      · exact h4
    have hge : F.infCode ≤ k' * 2 ^ F.t + M := by
      rw [hic]
      calc (2 ^ F.w - 1) * 2 ^ F.t ≤ (k' + 1) * 2 ^ F.t := Nat.mul_le_mul_right _ hkw
        _ ≤ _ := by rw [Nat.add_mul]; omega
    have hy : (2 : ℤ) ^ F.w - 1 + -F.bias - -F.bias = ((2 ^ F.w - 1 : ℕ) : ℤ) := by
      rw [Nat.cast_sub (by omega)]; push_cast; ring
    have := pack_bits (by omega) hA hB hS (0 : BitVec 64) (show 2 ^ F.w - 1 < 2 ^ F.w by omega) hy neg
    dsimp only
    rw [this, min_eq_right hge, hsp, hic]
    rw [Prod.mk.injEq]
    refine ⟨by simp, ?_⟩
    rw [← hic]
    exact (decide_eq_true hge).symm
  · rw [if_neg hov]
    rw [h2'] at hov
    have hkw : k' + 2 < 2 ^ F.w := by push_cast at hov; zify; linarith
    have hand : (mant' &&& T).toNat = if 2 ^ F.t ≤ M then 2 ^ F.t else 0 := by
      rw [BitVec.toNat_and, hT, Nat.and_two_pow, ← hM]
      have : M.testBit F.t = decide (2 ^ F.t ≤ M) := by
        rw [Nat.testBit_eq_decide_div_mod_eq]
        by_cases h : 2 ^ F.t ≤ M
        · have : M / 2 ^ F.t = 1 := Nat.div_eq_of_lt_le (by omega) (by omega)
          simp [h, this]
        · have : M / 2 ^ F.t = 0 := Nat.div_eq_of_lt (by omega)
          simp [h, this]
      rw [this]
      by_cases h : 2 ^ F.t ≤ M <;> simp [h]
    have hlt : k' * 2 ^ F.t + M < F.infCode := by
      rw [hic]
      calc k' * 2 ^ F.t + M < (k' + 2) * 2 ^ F.t := by rw [Nat.add_mul]; omega
        _ ≤ _ := Nat.mul_le_mul_right _ (by omega)
    by_cases hd : mant' &&& T = 0
    · rw [if_pos hd]
      rw [hd] at hand
      have hMt : M < 2 ^ F.t := by
        by_contra hc
        rw [if_pos (by omega)] at hand
        change 0 = _ at hand
        omega
      have hk0 : k' = 0 := by omega
      have := pack_bits (by omega) hA hB hS mant' (show 0 < 2 ^ F.w by omega) (show -F.bias - -F.bias = ((0 : ℕ) : ℤ) by simp) neg
      dsimp only
      rw [this, min_eq_left hlt.le, hsp, hk0, ← hM, Nat.mod_eq_of_lt hMt]
      have : ¬ F.infCode ≤ 0 * 2 ^ F.t + M := by rw [hk0] at hlt; omega
      rw [Prod.mk.injEq]
      exact ⟨rfl, (decide_eq_false this).symm⟩
    · rw [if_neg hd]
      have hMt : 2 ^ F.t ≤ M := by
        by_contra hc
        rw [if_neg hc] at hand
        exact hd (BitVec.eq_of_toNat_eq hand)
      have := pack_bits (by omega) hA hB hS mant' (show k' + 1 < 2 ^ F.w by omega) h2' neg
      have hmod : M % 2 ^ F.t = M - 2 ^ F.t := by
        rw [Nat.mod_eq_sub_mod hMt, Nat.mod_eq_of_lt (by omega)]
      dsimp only
      rw [this, min_eq_left hlt.le, hsp, ← hM, hmod]
      have h6 : ¬ F.infCode ≤ k' * 2 ^ F.t + M := by omega
      have h7 : (k' + 1) * 2 ^ F.t + (M - 2 ^ F.t) = k' * 2 ^ F.t + M := by rw [Nat.add_mul]; omega
      rw [h7, Prod.mk.injEq]
      exact ⟨rfl, (decide_eq_false h6).symm⟩

/-- The number of bits cut off, and the exponent step of the result. -/
def cutBits (F : Format) (e : ℤ) : ℕ := 63 - F.t + (1 - F.bias - (e + 63)).toNat
def stepOf (F : Format) (e : ℤ) : ℕ := (e + 63 - (1 - F.bias)).toNat

theorem cut_step (hF : GoFormat F) (e : ℤ) : F.qmin + stepOf F e = e + cutBits F e := by
  have hb := hF.bounds
  unfold Format.qmin stepOf cutBits
  omega

theorem floatBits_eq (hF : GoFormat F) {f : ExtFloat} (hm : 2 ^ 63 ≤ f.mant.toNat) (he : -2 ^ 60 ≤ f.exp) :
    ((f.floatBits (infoOf F)).1.toNat, (f.floatBits (infoOf F)).2) =
      (F.signPart f.neg + min (stepOf F f.exp * 2 ^ F.t + roundHalfUp f.mant.toNat (cutBits F f.exp)) F.infCode,
        decide (F.infCode ≤ stepOf F f.exp * 2 ^ F.t + roundHalfUp f.mant.toNat (cutBits F f.exp))) := by
  have hb := hF.bounds
  have hlt := f.mant.isLt
  -- the shift for small exponents
  obtain ⟨fm, e, h1, h2, h3⟩ : ∃ (fm : BitVec 64) (e : ℤ),
      (if f.exp + 63 < (infoOf F).bias + 1 then
        (f.mant >>> uintOf ((infoOf F).bias + 1 - (f.exp + 63)), f.exp + 63 + ((infoOf F).bias + 1 - (f.exp + 63)))
        else (f.mant, f.exp + 63)) = (fm, e) ∧ e = stepOf F f.exp + 1 - F.bias ∧
      fm.toNat = f.mant.toNat / 2 ^ (1 - F.bias - (f.exp + 63)).toNat := by
    have hbias : (infoOf F).bias = -F.bias := rfl
    by_cases h : f.exp + 63 < (infoOf F).bias + 1
    · refine ⟨_, _, if_pos h, ?_, ?_⟩
      · rw [hbias] at h ⊢
        unfold stepOf
        omega
      · rw [hbias] at h ⊢
        rw [BitVec.toNat_ushiftRight, Nat.shiftRight_eq_div_pow]
        congr 2
        have : F.bias < 2 ^ 20 := by rcases hF with rfl | rfl | rfl <;> decide
        have : -2 ^ 20 < F.bias := by rcases hF with rfl | rfl | rfl <;> decide
        unfold uintOf
        rw [Int.emod_eq_of_lt (by omega) (by omega)]
        congr 1
        omega
    · refine ⟨_, _, if_neg h, ?_, ?_⟩
      · rw [hbias] at h
        unfold stepOf
        omega
      · rw [hbias] at h
        rw [show (1 - F.bias - (f.exp + 63)).toNat = 0 by omega, pow_zero, Nat.div_one]
  have hcut : roundHalfUp f.mant.toNat (cutBits F f.exp) = roundHalfUp fm.toNat (63 - F.t) := by
    unfold roundHalfUp cutBits
    rw [h3, Nat.div_div_eq_div_mul, ← pow_add, Nat.testBit_div_two_pow]
    rw [add_comm (1 - F.bias - (f.exp + 63)).toNat, show 63 - F.t - 1 + (1 - F.bias - (f.exp + 63)).toNat =
      63 - F.t + (1 - F.bias - (f.exp + 63)).toNat - 1 by omega]
  have hfm := fm.isLt
  have hN2 : roundHalfUp fm.toNat (63 - F.t) ≤ 2 ^ (F.t + 1) :=
    roundHalfUp_le (by rw [show F.t + 1 + (63 - F.t) = 64 by omega]; exact hfm)
  have hk : stepOf F f.exp = 0 ∨ 2 ^ F.t ≤ roundHalfUp fm.toNat (63 - F.t) := by
    by_cases h : stepOf F f.exp = 0
    · exact Or.inl h
    · right
      unfold stepOf at h
      have h0 : (1 - F.bias - (f.exp + 63)).toNat = 0 := by omega
      rw [h0, pow_zero, Nat.div_one] at h3
      have : 2 ^ F.t ≤ fm.toNat / 2 ^ (63 - F.t) := by
        rw [Nat.le_div_iff_mul_le (Nat.two_pow_pos _), ← pow_add, show F.t + (63 - F.t) = 63 by omega, h3]
        exact hm
      unfold roundHalfUp
      omega
  have hmant : ∀ B : BitVec 64, B.toNat = 2 ^ (62 - F.t) →
      (if fm &&& B ≠ 0 then fm >>> (63 - F.t) + 1 else fm >>> (63 - F.t)).toNat = roundHalfUp fm.toNat (63 - F.t) := by
    intro B hB
    have hsh : (fm >>> (63 - F.t)).toNat = fm.toNat / 2 ^ (63 - F.t) := by
      rw [BitVec.toNat_ushiftRight, Nat.shiftRight_eq_div_pow]
    have h62 : 63 - F.t - 1 = 62 - F.t := by omega
    have hand : (fm &&& B).toNat = if fm.toNat.testBit (62 - F.t) then 2 ^ (62 - F.t) else 0 := by
      rw [BitVec.toNat_and, hB, Nat.and_two_pow]
      cases fm.toNat.testBit (62 - F.t) <;> simp
    have hp := Nat.two_pow_pos (62 - F.t)
    unfold roundHalfUp
    rw [h62]
    by_cases hc : fm.toNat.testBit (62 - F.t) = true
    · rw [if_pos hc] at hand
      have hne : fm &&& B ≠ 0 := by
        intro h0
        rw [h0] at hand
        change 0 = _ at hand
        omega
      rw [if_pos hne, if_pos hc, BitVec.toNat_add, hsh]
      have : fm.toNat / 2 ^ (63 - F.t) < 2 ^ 63 := by
        have h63 : 2 ^ 1 ≤ 2 ^ (63 - F.t) := Nat.pow_le_pow_right (by norm_num) (by omega)
        rw [Nat.div_lt_iff_lt_mul (Nat.two_pow_pos _)]
        calc fm.toNat < 2 ^ 63 * 2 ^ 1 := hfm
          _ ≤ _ := Nat.mul_le_mul_left _ h63
      show (_ + 1) % 2 ^ 64 = _
      omega
    · rw [if_neg hc] at hand
      have hz : ¬ (fm &&& B ≠ 0) := by
        rw [not_not]
        exact BitVec.eq_of_toNat_eq hand
      rw [if_neg hz, if_neg hc, hsh, add_zero]
  have := assemble hF f.neg (hmant _ (one_shift (show 62 - F.t < 64 by omega))) hN2 hk h2 (mask_toNat (show F.t < 64 by omega))
    (mask_toNat (show F.w < 64 by omega)) (one_shift (show F.t + F.w < 64 by omega)) (one_shift (show F.t < 64 by omega))
    (show (((2 <<< F.t : ℕ)) : BitVec 64).toNat = 2 ^ (F.t + 1) by
      rw [show 2 <<< F.t = 1 <<< (F.t + 1) by rw [Nat.shiftLeft_eq, Nat.shiftLeft_eq, pow_succ]; ring]
      exact one_shift (by omega))
  rw [hcut, ← this]
  unfold ExtFloat.floatBits
  rw [normalize_self hm]
  dsimp only
  rw [h1]
  rfl

end GoFloat.Strconv
