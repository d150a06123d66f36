import Mathlib.Data.Nat.Bitwise
import Verif.Proofs.Conv
/-
Bit fields of machine words, and the common part of the `Big` methods.
-/
namespace GoFloat
open Spec

theorem nat_and_two_pow_ne_zero (n i : ℕ) : n &&& 2 ^ i ≠ 0 ↔ n / 2 ^ i % 2 = 1 := by
  rw [Nat.and_two_pow, Nat.testBit_eq_decide_div_mod_eq]
  have := Nat.two_pow_pos i
  by_cases h : n / 2 ^ i % 2 = 1 <;> simp [h]

/-- A test of one bit. -/
theorem bv_bit {w : ℕ} (x : BitVec w) (i : ℕ) (h : i < w) :
    (x &&& BitVec.ofNat w (2 ^ i) != 0) = decide (x.toNat / 2 ^ i % 2 = 1) := by
  have hlt : 2 ^ i < 2 ^ w := Nat.pow_lt_pow_right (by norm_num) h
  rw [Bool.eq_iff_iff, bne_iff_ne, decide_eq_true_eq, ← nat_and_two_pow_ne_zero, Ne, Ne, not_iff_not,
    ← BitVec.toNat_inj, BitVec.toNat_and, BitVec.toNat_ofNat, Nat.mod_eq_of_lt hlt]
  simp

/-- `(n & mask) >> s` for a mask of `a` ones above `s` zeros. -/
theorem nat_field (n s a : ℕ) {M : ℕ} (hM : M >>> s = 2 ^ a - 1) : (n &&& M) >>> s = n / 2 ^ s % 2 ^ a := by
  rw [Nat.shiftRight_and_distrib, hM, Nat.and_two_pow_sub_one_eq_mod, Nat.shiftRight_eq_div_pow]

/-- Writing a field above `i` bits that are in use. -/
theorem nat_or_field {a b i : ℕ} (h : b < 2 ^ i) : (a * 2 ^ i) ||| b = a * 2 ^ i + b := by
  rw [Nat.mul_comm]; exact (Nat.two_pow_add_eq_or_of_lt h a).symm

/-- Clearing the bits below `i`. -/
theorem nat_and_high {n i k : ℕ} (h : n < 2 ^ k) (hik : i ≤ k) : n &&& (2 ^ k - 2 ^ i) = n / 2 ^ i * 2 ^ i := by
  apply Nat.eq_of_testBit_eq
  intro j
  have h1 : 2 ^ k - 2 ^ i = (2 ^ (k - i) - 1) <<< i := by
    rw [Nat.shiftLeft_eq, Nat.sub_mul, ← pow_add, Nat.sub_add_cancel hik, Nat.one_mul]
  rw [h1, Nat.testBit_and, Nat.testBit_shiftLeft, Nat.testBit_two_pow_sub_one, ← Nat.shiftLeft_eq,
    Nat.testBit_shiftLeft, ← Nat.shiftRight_eq_div_pow, Nat.testBit_shiftRight]
  by_cases hj : j < k
  · by_cases hij : i ≤ j
    · have : j - i < k - i := by omega
      simp [hij, this]
    · simp [hij]
  · have : n.testBit j = false := Nat.testBit_lt_two_pow (lt_of_lt_of_le h (Nat.pow_le_pow_right (by norm_num) (by omega)))
    by_cases hij : i ≤ j
    · simp [this, hij]
    · simp [this, hij]

/-- Clearing one bit that is set. -/
theorem nat_clear_top {r i k : ℕ} (hr : r < 2 ^ i) (hik : i < k) : (2 ^ i + r) &&& (2 ^ k - 1 - 2 ^ i) = r := by
  have h2 : 2 ^ i < 2 ^ k := Nat.pow_lt_pow_right (by norm_num) hik
  apply Nat.eq_of_testBit_eq
  intro j
  have h1 : 2 ^ i + r = 2 ^ i * 1 ||| r := by
    rw [← Nat.two_pow_add_eq_or_of_lt hr 1, Nat.mul_one]
  rw [h1, Nat.mul_one, show 2 ^ k - 1 - 2 ^ i = 2 ^ k - (2 ^ i + 1) by omega, Nat.testBit_and,
    Nat.testBit_two_pow_sub_succ h2, Nat.testBit_or, Nat.testBit_two_pow]
  by_cases hj : i = j
  · subst hj
    have : r.testBit i = false := Nat.testBit_lt_two_pow hr
    simp [this]
  · by_cases hjk : j < k
    · simp [hj, hjk]
    · have : r.testBit j = false :=
        Nat.testBit_lt_two_pow (hr.trans_le (Nat.pow_le_pow_right (by norm_num) (by omega)))
      simp [this, hjk]

/-- `exp &^ (2^i - 1) != 0` tells whether a non-negative `exp` exceeds `i` bits. -/
theorem ofInt_andNot_ne_zero {e : ℤ} (h0 : 0 ≤ e) (h1 : e < 2 ^ 63) (i : ℕ) (hi : i ≤ 64) {m : BitVec 64}
    (hm : m.toNat = 2 ^ 64 - 2 ^ i) : (BitVec.ofInt 64 e &&& m != 0) = decide ((2 : ℤ) ^ i ≤ e) := by
  obtain ⟨n, rfl⟩ := Int.eq_ofNat_of_zero_le h0
  have hn : n < 2 ^ 64 := by
    have : n < 2 ^ 63 := by exact_mod_cast h1
    omega
  rw [Bool.eq_iff_iff, bne_iff_ne, decide_eq_true_eq, Ne, ← BitVec.toNat_inj, BitVec.toNat_and, BitVec.toNat_ofInt, hm]
  have h2 : ((n : ℤ) % (2 ^ 64 : ℕ)).toNat = n := by
    rw [Int.emod_eq_of_lt h0 (by exact_mod_cast hn)]; rfl
  rw [h2, nat_and_high hn hi]
  have hP := Nat.two_pow_pos i
  constructor
  · intro h
    have : 2 ^ i ≤ n := by
      by_contra hc
      apply h
      rw [Nat.div_eq_of_lt (by omega)]; simp
    exact_mod_cast this
  · intro h
    have h' : 2 ^ i ≤ n := by exact_mod_cast h
    have h3 : 1 ≤ n / 2 ^ i := (Nat.le_div_iff_mul_le hP).2 (by omega)
    have h4 : 1 * 2 ^ i ≤ n / 2 ^ i * 2 ^ i := Nat.mul_le_mul_right _ h3
    change ¬ _ = 0
    omega

/-- `exp & (2^i - 1)`. -/
theorem ofInt_and_toNat {e : ℤ} (h0 : 0 ≤ e) (h1 : e < 2 ^ 63) (i : ℕ) {m : BitVec 64}
    (hm : m.toNat = 2 ^ i - 1) : ((BitVec.ofInt 64 e &&& m).toNat : ℤ) = e % 2 ^ i := by
  obtain ⟨n, rfl⟩ := Int.eq_ofNat_of_zero_le h0
  have hn : n < 2 ^ 64 := by
    have : n < 2 ^ 63 := by exact_mod_cast h1
    omega
  have h2 : ((n : ℤ) % (2 ^ 64 : ℕ)).toNat = n := by
    rw [Int.emod_eq_of_lt h0 (by exact_mod_cast hn)]; rfl
  rw [BitVec.toNat_and, BitVec.toNat_ofInt, h2, hm, Nat.and_two_pow_sub_one_eq_mod]
  push_cast; rfl

theorem newFloat_zero : newFloat 0 = .ok { BigFloat.new with prec := 53 } := by
  have h1 : F64.isNaN 0 = false := by decide
  unfold newFloat
  rw [h1]
  rfl

/-- The common part of `Big`: parsing the text of a number that fits the precision. -/
theorem parse_text {x0 : BigFloat} {neg : Bool} {lead : ℕ} (hl : lead ≤ 1) {fs : List ℕ} (hfs : ∀ d ∈ fs, d < 2) {e : ℤ}
    (hp : fs.length + 1 = x0.prec) (hlen : fs.length ≤ 1000) (he1 : -1000000 ≤ e) (he2 : e ≤ 1000000) :
    ∃ y, x0.parse ((if neg then ['-'] else ['+']) ++ ['0', 'b'] ++ fmtNat 10 lead ++ ['.'] ++ fs.map digitChar
      ++ ['p'] ++ fmtInt e) = some y ∧
      y.prec = x0.prec ∧ y.mode = x0.mode ∧ y.acc = .exact ∧ y.WF ∧
      y.datum = .num neg ((lead * 2 ^ fs.length + digsVal 2 0 fs : ℕ) * (2 : ℚ) ^ (e - fs.length)) := by
  have hsc := scanBinary_text neg hl hfs e
  have hv := digsVal_lt fs hfs
  have hm : lead * 2 ^ fs.length + digsVal 2 0 fs < 2 ^ x0.prec := by
    rw [← hp, pow_succ]
    have := Nat.mul_le_mul_right (2 ^ fs.length) hl
    omega
  have hb := bitLen_le_of_lt hm
  have hpa := parse_of_scan hsc (by omega) hm (by simp only [BigFloat.MinExp]; omega)
    (by simp only [BigFloat.MaxExp]; omega)
  simp only at hpa
  set M := lead * 2 ^ fs.length + digsVal 2 0 fs with hM
  refine ⟨_, hpa, ?_⟩
  by_cases h0 : M = 0
  · rw [if_pos h0, h0]
    refine ⟨rfl, rfl, rfl, ⟨by simp [BigFloat.MaxPrec]; omega, ?_, ?_, ?_, ?_, ?_⟩, by simp [BigFloat.datum]⟩ <;>
      (intro h; simp at h)
  · rw [if_neg h0]
    refine ⟨rfl, rfl, rfl, ⟨by simp [BigFloat.MaxPrec]; omega, fun _ => Nat.pos_of_ne_zero h0, fun _ => ?_, fun _ => ?_,
      fun _ => by simp; omega, fun _ => ⟨M, 0, by simp, hm⟩⟩, ?_⟩
    · simp only [BigFloat.MinExp]; omega
    · simp only [BigFloat.MaxExp]; omega
    · simp only [BigFloat.datum]
      rw [BigFloat.mag_eq]
      simp only
      congr 2
      congr 1; ring

end GoFloat
