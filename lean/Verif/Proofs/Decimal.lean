import Mathlib.Algebra.Order.Field.Basic
import Mathlib.Algebra.Order.Field.Power
import Mathlib.Tactic.Ring
import Mathlib.Tactic.FieldSimp
import Mathlib.Tactic.Linarith
import Mathlib.Tactic.Positivity
import Verif.Model.Decimal
import Verif.Spec.DecimalValue
import Verif.Proofs.Itoa
/-
What `Assign` and `Shift` of internal/strconv/decimal.go compute.
-/
namespace GoFloat.Strconv
open Spec

/-- The number of a string of decimal digits. -/
abbrev dv (ds : List ℕ) : ℕ := digsVal 10 0 ds

theorem dv_append (a b : List ℕ) : dv (a ++ b) = dv a * 10 ^ b.length + dv b := by
  rw [dv, digsVal_append, digsVal_acc]

theorem dv_cons (c : ℕ) (b : List ℕ) : dv (c :: b) = c * 10 ^ b.length + dv b := by
  rw [← List.singleton_append, dv_append]; simp [dv, digsVal]

theorem dv_nil : dv [] = 0 := rfl

theorem dv_snoc (a : List ℕ) (c : ℕ) : dv (a ++ [c]) = dv a * 10 + c := by
  rw [dv_append]; simp [dv, digsVal]

theorem dv_lt {ds : List ℕ} (h : ∀ d ∈ ds, d < 10) : dv ds < 10 ^ ds.length := digsVal_lt ds h

theorem dv_zeros (k : ℕ) : dv (List.replicate k 0) = 0 := digsVal_replicate_zero 10 k

theorem dv_ge {ds : List ℕ} (hh : ds.head? ≠ some 0) (hne : ds ≠ []) : 10 ^ (ds.length - 1) ≤ dv ds := by
  rcases ds with _ | ⟨c, ds⟩
  · exact absurd rfl hne
  · have hc : c ≠ 0 := by simpa using hh
    rw [dv_cons, List.length_cons, Nat.add_sub_cancel]
    have : 1 * 10 ^ ds.length ≤ c * 10 ^ ds.length := Nat.mul_le_mul_right _ (by omega)
    omega

theorem decValue_eq (ds : List ℕ) (dp : ℤ) : decValue ds dp = (dv ds : ℚ) * (10 : ℚ) ^ (dp - ds.length) := rfl

theorem ten_ne : (10 : ℚ) ≠ 0 := by norm_num

theorem dv_mod {ds : List ℕ} (hd : ∀ d ∈ ds, d < 10) (hl : ds.getLast? ≠ some 0) (hne : ds ≠ []) : dv ds % 10 ≠ 0 := by
  obtain ⟨a, c, rfl⟩ : ∃ a c, ds = a ++ [c] := ⟨_, _, (List.dropLast_append_getLast hne).symm⟩
  have hc : c ≠ 0 := by simpa using hl
  have hc10 : c < 10 := hd c (by simp)
  rw [dv_snoc]; omega

theorem dtz_spec : ∀ ds : List ℕ, ∃ k, ds = dropTrailingZeros ds ++ List.replicate k 0 ∧
    (dropTrailingZeros ds).getLast? ≠ some 0
  | [] => ⟨0, rfl, by simp [dropTrailingZeros]⟩
  | c :: cs => by
    obtain ⟨k, h1, h2⟩ := dtz_spec cs
    unfold dropTrailingZeros
    rcases hr : dropTrailingZeros cs with _ | ⟨x, xs⟩
    · rw [hr] at h1
      simp only
      by_cases hc : c = 0
      · refine ⟨k + 1, ?_, ?_⟩
        · rw [if_pos hc, hc, List.replicate_succ]
          simpa using h1
        · rw [if_pos hc]; simp
      · refine ⟨k, ?_, ?_⟩
        · rw [if_neg hc]
          simpa using h1
        · rw [if_neg hc]; simpa using hc
    · simp only
      refine ⟨k, ?_, ?_⟩
      · rw [hr] at h1
        rw [List.cons_append, ← h1]
      · rw [hr] at h2
        rw [List.getLast?_cons_cons]
        exact h2

theorem dtz_zero_iff {ds : List ℕ} (h : dropTrailingZeros ds = []) : dv ds = 0 := by
  obtain ⟨k, h1, _⟩ := dtz_spec ds
  rw [h, List.nil_append] at h1
  rw [h1, dv_zeros]

theorem dtz_value (ds : List ℕ) (dp : ℤ) : decValue (dropTrailingZeros ds) dp = decValue ds dp := by
  obtain ⟨k, h1, _⟩ := dtz_spec ds
  set t := dropTrailingZeros ds with ht
  have e1 : dv ds = dv t * 10 ^ k := by rw [h1, dv_append, dv_zeros, List.length_replicate, add_zero]
  have e2 : ds.length = t.length + k := by
    have := congrArg List.length h1
    rwa [List.length_append, List.length_replicate] at this
  rw [decValue_eq, decValue_eq, e1, e2]
  push_cast
  rw [mul_assoc, ← zpow_natCast, ← zpow_add₀ ten_ne]
  congr 2
  ring

theorem dtz_mem {ds : List ℕ} {c : ℕ} (h : c ∈ dropTrailingZeros ds) : c ∈ ds := by
  obtain ⟨k, h1, _⟩ := dtz_spec ds
  rw [h1]; exact List.mem_append_left _ h

theorem dtz_head {ds : List ℕ} (hh : ds.head? ≠ some 0) : (dropTrailingZeros ds).head? ≠ some 0 := by
  obtain ⟨k, h1, _⟩ := dtz_spec ds
  rcases hr : dropTrailingZeros ds with _ | ⟨x, xs⟩
  · simp
  · rw [hr] at h1
    rw [h1] at hh
    simpa using hh

theorem dtz_append_zeros (ds : List ℕ) (k : ℕ) : dropTrailingZeros (ds ++ List.replicate k 0) = dropTrailingZeros ds := by
  induction ds with
  | nil =>
    induction k with
    | zero => rfl
    | succ k ih =>
      rw [List.nil_append] at ih ⊢
      rw [List.replicate_succ]
      conv_lhs => unfold dropTrailingZeros
      rw [ih]
      rfl
  | cons c cs ih => rw [List.cons_append, dropTrailingZeros, ih, dropTrailingZeros]

theorem dtz_self {ds : List ℕ} (h : ds.getLast? ≠ some 0) : dropTrailingZeros ds = ds := by
  obtain ⟨k, h1, h2⟩ := dtz_spec ds
  rcases k with _ | k
  · simpa using h1.symm
  · exfalso; apply h
    rw [h1, List.replicate_succ', ← List.append_assoc, List.getLast?_append]
    simp

/-- A normal decimal is determined by its value. -/
theorem decValue_pos {ds : List ℕ} {dp : ℤ} (h : NormalDec ds dp) (hne : ds ≠ []) :
    (10 : ℚ) ^ (dp - 1) ≤ decValue ds dp ∧ decValue ds dp < (10 : ℚ) ^ dp := by
  have h1 := dv_ge h.head hne
  have h2 := dv_lt h.digit
  have hl : 1 ≤ ds.length := List.length_pos_iff.2 hne
  have h1' : ((10 : ℚ) ^ (ds.length - 1)) ≤ (dv ds : ℚ) := by exact_mod_cast h1
  have h2' : (dv ds : ℚ) < (10 : ℚ) ^ ds.length := by exact_mod_cast h2
  have hp : (0 : ℚ) < (10 : ℚ) ^ (dp - ds.length) := zpow_pos (by norm_num) _
  rw [decValue_eq]
  constructor
  · calc (10 : ℚ) ^ (dp - 1) = (10 : ℚ) ^ (ds.length - 1) * (10 : ℚ) ^ (dp - ds.length) := by
          rw [← zpow_natCast, ← zpow_add₀ ten_ne]; congr 1; push_cast [Nat.cast_sub hl]; ring
      _ ≤ _ := mul_le_mul_of_nonneg_right h1' hp.le
  · calc (dv ds : ℚ) * (10 : ℚ) ^ (dp - ds.length) < (10 : ℚ) ^ ds.length * (10 : ℚ) ^ (dp - ds.length) :=
          mul_lt_mul_of_pos_right h2' hp
      _ = (10 : ℚ) ^ dp := by rw [← zpow_natCast, ← zpow_add₀ ten_ne]; congr 1; ring

/-- Comparing exponents: numbers that do not end in zero. -/
theorem no_zero_le {D m : ℕ} {e e' : ℤ} (hD : D % 10 ≠ 0) (h : (D : ℚ) * (10 : ℚ) ^ e = m * (10 : ℚ) ^ e') : D ≤ m := by
  by_cases he : e' ≤ e
  · obtain ⟨j, hj⟩ := Int.eq_ofNat_of_zero_le (show 0 ≤ e - e' by omega)
    have : (m : ℚ) = D * 10 ^ j := by
      have he : e = e' + j := by omega
      rw [he, zpow_add₀ ten_ne, zpow_natCast] at h
      have hp : (10 : ℚ) ^ e' ≠ 0 := zpow_ne_zero _ ten_ne
      apply mul_right_cancel₀ hp
      rw [← h]; ring
    have : m = D * 10 ^ j := by exact_mod_cast this
    rw [this]
    exact Nat.le_mul_of_pos_right _ (by positivity)
  · exfalso
    obtain ⟨j, hj⟩ := Int.eq_ofNat_of_zero_le (show 0 ≤ e' - e - 1 by omega)
    have he : e' = e + (j + 1 : ℕ) := by push_cast; omega
    rw [he, zpow_add₀ ten_ne, zpow_natCast] at h
    have hp : (10 : ℚ) ^ e ≠ 0 := zpow_ne_zero _ ten_ne
    have : (D : ℚ) = m * 10 ^ (j + 1) := by
      apply mul_right_cancel₀ hp
      rw [h]; ring
    have : D = m * 10 ^ (j + 1) := by exact_mod_cast this
    rw [this, pow_succ, ← mul_assoc] at hD
    omega

theorem dv_inj {a b : List ℕ} (ha : ∀ d ∈ a, d < 10) (hb : ∀ d ∈ b, d < 10) (hl : a.length = b.length) (h : dv a = dv b) :
    a = b := by
  rw [dv, dv, digsVal_eq_ofDigits, digsVal_eq_ofDigits] at h
  have := Nat.ofDigits_inj_of_len_eq (b := 10) (by norm_num) (by simpa using hl)
    (fun l hl => ha l (List.mem_reverse.1 hl)) (fun l hl => hb l (List.mem_reverse.1 hl)) h
  simpa using this

theorem normal_unique {a b : List ℕ} {p q : ℤ} (ha : NormalDec a p) (hb : NormalDec b q) (h : decValue a p = decValue b q) :
    a = b ∧ p = q := by
  by_cases hae : a = []
  · by_cases hbe : b = []
    · rw [hae, hbe, ha.zero hae, hb.zero hbe]; exact ⟨rfl, rfl⟩
    · exfalso
      have := (decValue_pos hb hbe).1
      rw [← h, hae] at this
      have hp : (0 : ℚ) < (10 : ℚ) ^ (q - 1) := zpow_pos (by norm_num) _
      simp [decValue] at this
      linarith
  · by_cases hbe : b = []
    · exfalso
      have := (decValue_pos ha hae).1
      rw [h, hbe] at this
      have hp : (0 : ℚ) < (10 : ℚ) ^ (p - 1) := zpow_pos (by norm_num) _
      simp [decValue] at this
      linarith
    · obtain ⟨h1, h2⟩ := decValue_pos ha hae
      obtain ⟨h3, h4⟩ := decValue_pos hb hbe
      have e1 : p - 1 < q := (zpow_lt_zpow_iff_right₀ (by norm_num : (1 : ℚ) < 10)).1 (by rw [h] at h1; linarith)
      have e2 : q - 1 < p := (zpow_lt_zpow_iff_right₀ (by norm_num : (1 : ℚ) < 10)).1 (by rw [h] at h2; linarith)
      have hpq : p = q := by omega
      have l1 := no_zero_le (dv_mod ha.digit ha.last hae) h
      have l2 := no_zero_le (dv_mod hb.digit hb.last hbe) h.symm
      have hv : dv a = dv b := le_antisymm l1 l2
      have hpos : (0 : ℚ) < (dv a : ℚ) := by
        have := dv_mod ha.digit ha.last hae
        have : 0 < dv a := Nat.pos_of_ne_zero (fun hc => this (by rw [hc]))
        exact_mod_cast this
      rw [decValue_eq, decValue_eq, ← hv] at h
      have h5 := mul_left_cancel₀ hpos.ne' h
      have h6 := zpow_right_injective₀ (by norm_num : (0 : ℚ) < 10) (by norm_num) h5
      have hl : a.length = b.length := by
        have h6' : p - (a.length : ℤ) = q - b.length := h6
        omega
      exact ⟨dv_inj ha.digit hb.digit hl hv, hpq⟩

theorem fits_lt {n D : ℕ} {e : ℤ} (hD : D % 10 ≠ 0) (h : FitsDigits n ((D : ℚ) * (10 : ℚ) ^ e)) : D < 10 ^ n := by
  obtain ⟨m, e', h1, h2⟩ := h
  exact lt_of_le_of_lt (no_zero_le hD h2) h1

/-! ### trim and Assign -/

theorem trim_normal {a : Decimal} (hd : ∀ c ∈ a.d, c < 10) (hh : a.d.head? ≠ some 0) :
    NormalDec (trim a).d (trim a).dp ∧ decValue (trim a).d (trim a).dp = decValue a.d a.dp := by
  obtain ⟨k, h1, h2⟩ := dtz_spec a.d
  have hdp : (trim a).dp = if (dropTrailingZeros a.d).length = 0 then 0 else a.dp := rfl
  have hds : (trim a).d = dropTrailingZeros a.d := rfl
  constructor
  · refine ⟨fun d hd' => hd d (dtz_mem hd'), dtz_head hh, h2, ?_⟩
    intro h
    rw [hdp, ← hds, h]; rfl
  · rw [hds, hdp]
    split
    · rename_i h
      have h0 : dropTrailingZeros a.d = [] := List.length_eq_zero_iff.1 h
      have := dtz_zero_iff h0
      rw [h0, decValue_eq, decValue_eq, this]; simp [dv, digsVal]
    · exact dtz_value a.d a.dp

theorem digitsOf_eq {b : ℕ} (hb : 2 ≤ b) (n : ℕ) (hn : n ≠ 0) : digitsOf b n = dg b n := by
  have key : ∀ (f n : ℕ) (acc : List ℕ), n < b ^ f → digitsAux b f n acc = (Nat.digits b n).reverse ++ acc := by
    intro f
    induction f with
    | zero => intro n acc h; rw [pow_zero] at h; have : n = 0 := by omega
              subst this; simp [digitsAux]
    | succ f ih =>
      intro n acc h
      unfold digitsAux
      by_cases h0 : n = 0
      · rw [if_pos h0, h0]; simp
      · rw [if_neg h0, ih (n / b) _ ((Nat.div_lt_iff_lt_mul (by omega)).2 (by rw [← pow_succ]; exact h)),
          Nat.digits_def' (b := b) (n := n) (by omega) (by omega), List.reverse_cons, List.append_assoc]
        rfl
  unfold digitsOf dg
  rw [if_neg hn, key _ _ _ (lt_of_lt_of_le (lt_two_pow_bitLen n) (Nat.pow_le_pow_left hb _)), List.append_nil]

theorem dg_head_ne {b n : ℕ} (hn : n ≠ 0) : (dg b n).head? ≠ some 0 := by
  intro h
  have := dg_head h
  have hv := digsVal_dg (b := b) n
  rw [this] at hv
  simp [digsVal] at hv
  omega

theorem assign_spec (a : Decimal) (v : BitVec 64) :
    NormalDec (a.assign v).d (a.assign v).dp ∧ decValue (a.assign v).d (a.assign v).dp = v.toNat ∧
      (a.assign v).neg = a.neg ∧ (a.assign v).trunc = a.trunc := by
  have hs := digitsOf_spec (b := 10) (by norm_num) v.toNat
  have hh : (digitsOf 10 v.toNat).head? ≠ some 0 := by
    by_cases h0 : v.toNat = 0
    · rw [h0]; simp [digitsOf, bitLen, digitsAux]
    · rw [digitsOf_eq (by norm_num) _ h0]; exact dg_head_ne h0
  obtain ⟨h1, h2⟩ := trim_normal (a := { a with d := digitsOf 10 v.toNat, dp := (digitsOf 10 v.toNat).length }) hs.2.1 hh
  refine ⟨h1, ?_, rfl, rfl⟩
  have h3 : decValue (a.assign v).d (a.assign v).dp = decValue (digitsOf 10 v.toNat) (digitsOf 10 v.toNat).length := h2
  rw [h3, decValue_eq, sub_self, zpow_zero, mul_one]
  exact_mod_cast hs.1

end GoFloat.Strconv
