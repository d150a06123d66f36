import Verif.Proofs.Ftoa
import Verif.Proofs.Fields
/-
Taking the bits apart in `genericFtoa` (internal/strconv/ftoa.go).
-/
namespace GoFloat.Strconv
open Spec

variable {F : Format} {n k N : ℕ}

theorem mask_toNat {t : ℕ} (h : t < 64) : ((((1 <<< t : ℕ)) : BitVec 64) - 1).toNat = 2 ^ t - 1 := by
  rw [BitVec.toNat_sub, one_shift h]
  have h1 := Nat.two_pow_pos t
  have h2 : 2 ^ t < 2 ^ 64 := Nat.pow_lt_pow_right (by norm_num) h
  show (2 ^ 64 - 1 + 2 ^ t) % 2 ^ 64 = _
  rw [show 2 ^ 64 - 1 + 2 ^ t = 2 ^ t - 1 + 2 ^ 64 by omega, Nat.add_mod_right, Nat.mod_eq_of_lt (by omega)]

/-- The three fields of the bits. -/
theorem fields (hF : GoFormat F) {bits : BitVec 64} {neg : Bool} (hn : n < 2 ^ (F.t + F.w))
    (hb : bits.toNat = F.signPart neg + n) :
    decide (bits >>> (F.w + F.t) ≠ 0) = neg ∧
    ((bits >>> F.t) &&& ((((1 <<< F.w : ℕ)) : BitVec 64) - 1)).toNat = n / 2 ^ F.t ∧
    (bits &&& ((((1 <<< F.t : ℕ)) : BitVec 64) - 1)).toNat = n % 2 ^ F.t := by
  have hB := hF.bounds
  obtain ⟨-, h2, h3⟩ := F.code_fields neg hn
  refine ⟨?_, ?_, ?_⟩
  · have key : (bits >>> (F.w + F.t) ≠ 0) ↔ neg = true := by
      rw [BitVec.toNat_ne, BitVec.toNat_ushiftRight, Nat.shiftRight_eq_div_pow, hb, add_comm F.w]
      unfold Format.signPart
      cases neg
      · simp only [Bool.false_eq_true, if_false, zero_add, iff_false, not_not]
        rw [Nat.div_eq_of_lt hn]; rfl
      · simp only [if_true, iff_true]
        rw [Nat.add_div_left _ (Nat.two_pow_pos _)]
        exact Nat.succ_ne_zero _
    cases neg
    · simpa using key
    · simpa using key
  · rw [BitVec.toNat_and, mask_toNat (by omega), BitVec.toNat_ushiftRight, Nat.shiftRight_eq_div_pow,
      Nat.and_two_pow_sub_one_eq_mod, hb, h2]
  · rw [BitVec.toNat_and, mask_toNat (by omega), Nat.and_two_pow_sub_one_eq_mod, hb, h3]

theorem ftoaBits_finite {W : ℕ} {opt : Bool} {fmt : Char} {prec : ℤ} (hF : GoFormat F) {bits : BitVec 64} {neg : Bool}
    (h : Split F n k N) (hb : bits.toNat = F.signPart neg + n) :
    ftoaBits W opt bits (infoOf F) fmt prec =
      ftoaFinite W opt fmt prec neg (BitVec.ofNat 64 N) ((k : ℤ) + 1 - F.bias) (infoOf F) := by
  have hB := hF.bounds
  have hlt : n < 2 ^ (F.t + F.w) := lt_trans h.fin F.infCode_lt
  obtain ⟨h1, h2, h3⟩ := fields hF hlt hb
  have hN := h.N_lt hF
  have hP := Nat.two_pow_pos F.t
  have hPs : 2 ^ (F.t + 1) = 2 * 2 ^ F.t := by rw [pow_succ]; ring
  have hNlt := h.lt
  unfold ftoaBits
  have hi1 : (infoOf F).mantbits = F.t := rfl
  have hi2 : (infoOf F).expbits = F.w := rfl
  have hi3 : (infoOf F).bias = -F.bias := rfl
  simp only [hi1, hi2, hi3]
  rw [h1, h2]
  have hE : ¬ (((n / 2 ^ F.t : ℕ) : ℤ) = 2 ^ F.w - 1) := by
    intro hc
    have hfin := h.fin
    unfold Format.infCode at hfin
    have : n / 2 ^ F.t < 2 ^ F.w - 1 := by
      rw [Nat.div_lt_iff_lt_mul hP]; exact hfin
    have h2w : (1 : ℕ) ≤ 2 ^ F.w := Nat.one_le_two_pow
    have h3 : n / 2 ^ F.t = 2 ^ F.w - 1 := by
      zify [h2w]
      exact_mod_cast hc
    omega
  rw [if_neg hE]
  by_cases hs : N < 2 ^ F.t
  · have hk : k = 0 := by
      rcases h.norm with hk | hk
      · exact hk
      · omega
    have hnN : n = N := by rw [h.code, hk]; simp
    have hdiv : n / 2 ^ F.t = 0 := Nat.div_eq_of_lt (by omega)
    have hm : bits &&& ((((1 <<< F.t : ℕ)) : BitVec 64) - 1) = BitVec.ofNat 64 N := by
      apply BitVec.eq_of_toNat_eq
      rw [h3, ofNat_toNat (by omega), hnN, Nat.mod_eq_of_lt hs]
    rw [hdiv, hm, hk]
    simp only [Nat.cast_zero, if_true]
    rw [sub_eq_add_neg]
  · have hs' : 2 ^ F.t ≤ N := by omega
    have hdiv : n / 2 ^ F.t = k + 1 := by
      rw [h.code, show k * 2 ^ F.t + N = (k + 1) * 2 ^ F.t + (N - 2 ^ F.t) by rw [Nat.add_mul]; omega]
      rw [Nat.add_comm, Nat.add_mul_div_right _ _ hP, Nat.div_eq_of_lt (by omega)]; omega
    have hmod : n % 2 ^ F.t = N - 2 ^ F.t := by
      rw [h.code, show k * 2 ^ F.t + N = (N - 2 ^ F.t) + (k + 1) * 2 ^ F.t by rw [Nat.add_mul]; omega]
      rw [Nat.add_mul_mod_self_right, Nat.mod_eq_of_lt (by omega)]
    have hm : (bits &&& ((((1 <<< F.t : ℕ)) : BitVec 64) - (1 : BitVec 64))) ||| (((1 <<< F.t : ℕ)) : BitVec 64) = BitVec.ofNat 64 N := by
      apply BitVec.eq_of_toNat_eq
      rw [BitVec.toNat_or, h3, hmod, one_shift (by omega), ofNat_toNat (by omega), Nat.or_comm]
      have := nat_or_field (a := 1) (b := N - 2 ^ F.t) (i := F.t) (by omega)
      rw [one_mul] at this
      rw [this]; omega
    have hne : ¬ (((k + 1 : ℕ) : ℤ) = 0) := by omega
    rw [hdiv, hm]
    simp only [if_neg hne]
    rw [sub_eq_add_neg]
    push_cast
    rfl

/-- Infinities and NaNs. -/
theorem ftoaBits_special {W : ℕ} {opt : Bool} {fmt : Char} {prec : ℤ} (hF : GoFormat F) {bits : BitVec 64} {neg : Bool}
    (hn : n < 2 ^ (F.t + F.w)) (hinf : F.infCode ≤ n) (hb : bits.toNat = F.signPart neg + n) :
    ftoaBits W opt bits (infoOf F) fmt prec =
      .ok (if n ≠ F.infCode then ['N', 'a', 'N'] else if neg then ['-', 'I', 'n', 'f'] else ['+', 'I', 'n', 'f']) := by
  obtain ⟨h1, h2, h3⟩ := fields hF hn hb
  have hP := Nat.two_pow_pos F.t
  unfold ftoaBits
  have hi1 : (infoOf F).mantbits = F.t := rfl
  have hi2 : (infoOf F).expbits = F.w := rfl
  simp only [hi1, hi2]
  rw [h1, h2]
  have h2w : (1 : ℕ) ≤ 2 ^ F.w := Nat.one_le_two_pow
  have hdiv : n / 2 ^ F.t = 2 ^ F.w - 1 := by
    unfold Format.infCode at hinf
    apply Nat.le_antisymm
    · have : n / 2 ^ F.t < 2 ^ F.w := by
        rw [Nat.div_lt_iff_lt_mul hP, ← pow_add, add_comm]; exact hn
      omega
    · exact (Nat.le_div_iff_mul_le hP).2 hinf
  have hE : ((n / 2 ^ F.t : ℕ) : ℤ) = 2 ^ F.w - 1 := by
    rw [hdiv]; push_cast [h2w]; rfl
  rw [if_pos hE]
  have hm : (bits &&& ((((1 <<< F.t : ℕ)) : BitVec 64) - 1) ≠ 0) ↔ n ≠ F.infCode := by
    rw [BitVec.toNat_ne, h3]
    show n % 2 ^ F.t ≠ 0 ↔ _
    have := Nat.div_add_mod n (2 ^ F.t)
    rw [hdiv] at this
    unfold Format.infCode
    rw [mul_comm]
    constructor
    · intro h hc; omega
    · intro h hc; apply h; omega
  by_cases hc : n = F.infCode
  · simp only [hm, ne_eq, hc, not_true_eq_false, if_false]
    rfl
  · simp only [hm, ne_eq, hc, not_false_eq_true, if_true]
    rfl

/-- A word of the format's size taken apart. -/
theorem code_parts (F : Format) {c : ℕ} (h : c < 2 ^ (F.t + F.w + 1)) :
    ∃ neg n, n < 2 ^ (F.t + F.w) ∧ c = F.signPart neg + n := by
  refine ⟨decide (2 ^ (F.t + F.w) ≤ c), c % 2 ^ (F.t + F.w), Nat.mod_lt _ (Nat.two_pow_pos _), ?_⟩
  rw [pow_succ] at h
  unfold Format.signPart
  by_cases hc : 2 ^ (F.t + F.w) ≤ c
  · rw [if_pos (by simpa using hc), Nat.mod_eq_sub_mod hc, Nat.mod_eq_of_lt (by omega)]
    omega
  · rw [if_neg (by simpa using hc), Nat.mod_eq_of_lt (by omega)]
    omega

end GoFloat.Strconv
