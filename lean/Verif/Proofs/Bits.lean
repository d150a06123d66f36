import Mathlib.Tactic.Linarith
import Mathlib.Tactic.Ring
import Mathlib.Tactic.NormNum
import Mathlib.Tactic.Positivity
import Mathlib.Tactic.FieldSimp
import Mathlib.Tactic.Push
import Mathlib.Algebra.Order.Ring.Abs
import Verif.Spec.Format
/-
Lemmas on bit lengths, powers of two and round-half-even.
-/
namespace GoFloat

theorem bitLen_pos {n : ℕ} (h : 0 < n) : 1 ≤ bitLen n := by
  unfold bitLen; rw [if_neg (by omega)]; omega

theorem two_pow_le_of_pos {n : ℕ} (h : 0 < n) : 2 ^ (bitLen n - 1) ≤ n := by
  unfold bitLen; rw [if_neg (by omega)]; simpa using Nat.log2_self_le (by omega)

theorem lt_two_pow_bitLen (n : ℕ) : n < 2 ^ bitLen n := by
  unfold bitLen
  by_cases h : n = 0
  · simp [h]
  · rw [if_neg h]; exact Nat.lt_log2_self

theorem bitLen_eq_of {n k : ℕ} (h1 : 2 ^ k ≤ n) (h2 : n < 2 ^ (k + 1)) : bitLen n = k + 1 := by
  have hn : n ≠ 0 := by have := Nat.two_pow_pos k; omega
  unfold bitLen; rw [if_neg hn, (Nat.log2_eq_iff hn).2 ⟨h1, h2⟩]

theorem bitLen_le_of_lt {n k : ℕ} (h : n < 2 ^ k) : bitLen n ≤ k := by
  unfold bitLen
  split
  · omega
  · rename_i hn; exact (Nat.log2_lt hn).2 h

theorem lt_of_bitLen_le {n k : ℕ} (h : bitLen n ≤ k) : n < 2 ^ k :=
  lt_of_lt_of_le (lt_two_pow_bitLen n) (Nat.pow_le_pow_right (by norm_num) h)

theorem bitLen_mul_two_pow {n : ℕ} (h : 0 < n) (k : ℕ) : bitLen (n * 2 ^ k) = bitLen n + k := by
  obtain ⟨l, hl⟩ : ∃ l, bitLen n = l + 1 := ⟨bitLen n - 1, by have := bitLen_pos h; omega⟩
  have h1 := two_pow_le_of_pos h
  have h2 := lt_two_pow_bitLen n
  rw [hl] at h1 h2 ⊢
  have : bitLen (n * 2 ^ k) = (l + k) + 1 := by
    apply bitLen_eq_of
    · rw [pow_add]; exact Nat.mul_le_mul_right _ (by simpa using h1)
    · rw [show l + k + 1 = (l + 1) + k by ring, pow_add]
      exact Nat.mul_lt_mul_of_pos_right h2 (Nat.two_pow_pos k)
  omega

theorem bitLen_two_pow (k : ℕ) : bitLen (2 ^ k) = k + 1 :=
  bitLen_eq_of (le_refl _) (Nat.pow_lt_pow_right (by norm_num) (by omega))

/-- Round half to even, as an integer. -/
def rhe (v : ℚ) : ℤ :=
  if v - ⌊v⌋ < 1 / 2 then ⌊v⌋
  else if 1 / 2 < v - ⌊v⌋ then ⌊v⌋ + 1
  else if ⌊v⌋ % 2 = 0 then ⌊v⌋ else ⌊v⌋ + 1

theorem rhe_cases (v : ℚ) :
    (rhe v = ⌊v⌋ ∧ v - ⌊v⌋ < 1 / 2) ∨ (rhe v = ⌊v⌋ + 1 ∧ 1 / 2 < v - ⌊v⌋) ∨
    (v - ⌊v⌋ = 1 / 2 ∧ rhe v % 2 = 0 ∧ (rhe v = ⌊v⌋ ∨ rhe v = ⌊v⌋ + 1)) := by
  unfold rhe
  split
  · left; exact ⟨rfl, by assumption⟩
  · split
    · right; left; exact ⟨rfl, by assumption⟩
    · right; right
      refine ⟨by linarith, ?_⟩
      split
      · exact ⟨by assumption, Or.inl rfl⟩
      · exact ⟨by omega, Or.inr rfl⟩

theorem rhe_intCast (n : ℤ) : rhe (n : ℚ) = n := by
  unfold rhe; simp

theorem rhe_natCast (n : ℕ) : rhe (n : ℚ) = n := by
  simpa using rhe_intCast n

theorem abs_sub_rhe_le_half (v : ℚ) : |v - rhe v| ≤ 1 / 2 := by
  rcases rhe_cases v with ⟨h, h'⟩ | ⟨h, h'⟩ | ⟨h', _, h | h⟩ <;> rw [h, abs_le] <;> push_cast <;>
    constructor <;> linarith [Int.floor_le v, Int.lt_floor_add_one v]

theorem rhe_le_of_le {v : ℚ} {n : ℤ} (h : v ≤ n) : rhe v ≤ n := by
  have h1 := abs_le.1 (abs_sub_rhe_le_half v)
  by_contra hc
  push Not at hc
  have : (n : ℚ) + 1 ≤ rhe v := by exact_mod_cast hc
  linarith

theorem le_rhe_of_le {v : ℚ} {n : ℤ} (h : (n : ℚ) ≤ v) : n ≤ rhe v := by
  have h1 := abs_le.1 (abs_sub_rhe_le_half v)
  by_contra hc
  push Not at hc
  have : (rhe v : ℚ) + 1 ≤ n := by exact_mod_cast hc
  linarith

/-- `rhe v` is at least as close to `v` as any other integer. -/
theorem abs_sub_rhe_le (v : ℚ) (n : ℤ) : |v - rhe v| ≤ |v - n| := by
  by_cases hn : n = rhe v
  · rw [hn]
  · have h1 := abs_sub_rhe_le_half v
    have h2 : (1 : ℚ) ≤ |(rhe v : ℚ) - n| := by
      have : (1 : ℤ) ≤ |rhe v - n| := Int.one_le_abs (by omega)
      exact_mod_cast this
    have h3 : |(rhe v : ℚ) - n| ≤ |v - rhe v| + |v - n| := by
      have : (rhe v : ℚ) - n = -(v - rhe v) + (v - n) := by ring
      rw [this]
      refine (abs_add_le _ _).trans ?_
      rw [abs_neg]
    linarith

/-- In case of a tie `rhe v` is even. -/
theorem rhe_even_of_tie {v : ℚ} {n : ℤ} (hn : n ≠ rhe v) (h : |v - rhe v| = |v - n|) : rhe v % 2 = 0 := by
  have h1 := abs_sub_rhe_le_half v
  have h2 : (1 : ℚ) ≤ |(rhe v : ℚ) - n| := by
    have : (1 : ℤ) ≤ |rhe v - n| := Int.one_le_abs (by omega)
    exact_mod_cast this
  have h3 : |(rhe v : ℚ) - n| ≤ |v - rhe v| + |v - n| := by
    have : (rhe v : ℚ) - n = -(v - rhe v) + (v - n) := by ring
    rw [this]
    refine (abs_add_le _ _).trans ?_
    rw [abs_neg]
  have h4 : |v - rhe v| = 1 / 2 := by linarith
  rcases rhe_cases v with ⟨h, h'⟩ | ⟨h, h'⟩ | ⟨_, h, _⟩
  · rw [h, abs_of_nonneg (by linarith [Int.floor_le v])] at h4; linarith
  · rw [h, abs_of_neg (by push_cast; linarith [Int.lt_floor_add_one v])] at h4; push_cast at h4; linarith
  · exact h

/-- `rhe` of a quotient by a power of two, in terms of the bits cut off. -/
theorem rhe_div_two_pow (n s : ℕ) (hs : 1 ≤ s) :
    rhe ((n : ℚ) / 2 ^ s) =
      if n.testBit (s - 1) && (n % 2 ^ (s - 1) != 0 || (n >>> s).testBit 0) then ((n >>> s : ℕ) : ℤ) + 1
      else ((n >>> s : ℕ) : ℤ) := by
  obtain ⟨k, rfl⟩ : ∃ k, s = k + 1 := ⟨s - 1, by omega⟩
  simp only [Nat.add_sub_cancel, Nat.shiftRight_eq_div_pow]
  have hfl : ⌊(n : ℚ) / 2 ^ (k + 1)⌋ = ((n / 2 ^ (k + 1) : ℕ) : ℤ) := by
    have := Rat.floor_natCast_div_natCast n (2 ^ (k + 1))
    push_cast at this ⊢
    exact this
  have hP : (0 : ℚ) < 2 ^ k := by positivity
  have hdm := Nat.div_add_mod n (2 ^ (k + 1))
  have hdm2 := Nat.div_add_mod n (2 ^ k)
  have hlt := Nat.mod_lt n (Nat.two_pow_pos (k + 1))
  have hlt2 := Nat.mod_lt n (Nat.two_pow_pos k)
  have hdd : n / 2 ^ (k + 1) = n / 2 ^ k / 2 := by rw [pow_succ, Nat.div_div_eq_div_mul]
  set q := n / 2 ^ (k + 1) with hq
  set b := n / 2 ^ k with hb
  set r := n % 2 ^ k with hr
  have htb : n.testBit k = decide (b % 2 = 1) := by
    rw [Nat.testBit_eq_decide_div_mod_eq]
  have htq : q.testBit 0 = decide (q % 2 = 1) := by
    rw [Nat.testBit_zero]
  have hrq : (n : ℚ) / 2 ^ (k + 1) - q = ((b % 2 : ℕ) : ℚ) / 2 + (r : ℚ) / 2 ^ (k + 1) := by
    have hn : n = 2 ^ k * (2 * q + b % 2) + r := by
      have : b = 2 * q + b % 2 := by omega
      rw [← this]; omega
    have hn' : (n : ℚ) = 2 ^ k * (2 * q + ((b % 2 : ℕ) : ℚ)) + r := by
      have := congrArg (Nat.cast : ℕ → ℚ) hn
      push_cast at this ⊢
      linarith
    rw [hn', pow_succ]
    field_simp
    ring
  have hr0 : (0 : ℚ) ≤ r := by positivity
  have hr1 : (r : ℚ) < 2 ^ k := by exact_mod_cast hlt2
  have hr2 : (r : ℚ) / 2 ^ (k + 1) < 1 / 2 := by
    rw [div_lt_div_iff₀ (by positivity) (by norm_num), pow_succ]; linarith
  have hr3 : (0 : ℚ) ≤ (r : ℚ) / 2 ^ (k + 1) := by positivity
  rw [htb, htq]
  unfold rhe
  rw [hfl]
  push_cast
  rw [hrq]
  rcases Nat.mod_two_eq_zero_or_one b with hb0 | hb1
  · rw [hb0]
    rw [if_pos (by push_cast; linarith)]
    simp
  · rw [hb1]
    rw [if_neg (by push_cast; linarith)]
    by_cases hrz : r = 0
    · rw [hrz]
      simp only [Nat.cast_zero, zero_div, add_zero, Nat.cast_one, lt_irrefl, if_false]
      rcases Nat.mod_two_eq_zero_or_one q with h0 | h1
      · have : (q : ℤ) % 2 = 0 := by omega
        simp [this, h0]
      · have : ¬ (q : ℤ) % 2 = 0 := by omega
        simp [h1]
        omega
    · have : (0 : ℚ) < (r : ℚ) / 2 ^ (k + 1) := by
        have : (0 : ℚ) < r := by exact_mod_cast Nat.pos_of_ne_zero hrz
        positivity
      rw [if_pos (by push_cast; linarith)]
      simp [hrz]

end GoFloat
