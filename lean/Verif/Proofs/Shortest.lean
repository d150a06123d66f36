import Verif.Proofs.DecimalRound
import Verif.Model.Ftoa
/-
`roundShortest` of internal/strconv/ftoa.go stays within its bounds.
-/
namespace GoFloat.Strconv
open Spec

/-- The number made of the first `i` digits, padded with zeros. -/
def pre (ds : List ℕ) : ℕ → ℕ
  | 0 => 0
  | i + 1 => pre ds i * 10 + ds.getD i 0

theorem pre_take (ds : List ℕ) : ∀ i, i ≤ ds.length → pre ds i = dv (ds.take i)
  | 0, _ => by simp [pre, dv, digsVal]
  | i + 1, h => by
    have hi : i < ds.length := h
    rw [pre, pre_take ds i hi.le, List.take_add_one, List.getElem?_eq_getElem hi, List.getD_eq_getElem?_getD, List.getElem?_eq_getElem hi]
    simp only [Option.getD_some, Option.toList_some, dv_snoc]

theorem pre_beyond (ds : List ℕ) : ∀ k, pre ds (ds.length + k) = dv ds * 10 ^ k
  | 0 => by rw [add_zero, pre_take ds _ le_rfl, List.take_length, pow_zero, mul_one]
  | k + 1 => by
    rw [← add_assoc, pre, pre_beyond ds k, List.getD_eq_getElem?_getD, List.getElem?_eq_none (by omega)]
    rw [Option.getD_none, pow_succ]; ring

theorem pre_exact {ds : List ℕ} {dp : ℤ} {i : ℕ} (h : ds.length ≤ i) : decValue ds dp = (pre ds i : ℚ) * (10 : ℚ) ^ (dp - i) := by
  obtain ⟨k, rfl⟩ : ∃ k, i = ds.length + k := ⟨i - ds.length, by omega⟩
  rw [pre_beyond, decValue_eq]
  push_cast
  rw [mul_assoc, ← zpow_natCast, ← zpow_add₀ ten_ne]
  congr 2; ring

theorem pre_lt {a : Decimal} (ha : NormalDec a.d a.dp) {i : ℕ} (h : i < a.d.length) :
    (pre a.d i : ℚ) * (10 : ℚ) ^ (a.dp - i) < decValue a.d a.dp := by
  have hu : (0 : ℚ) < (10 : ℚ) ^ (a.dp - i) := zpow_pos (by norm_num) _
  have := (in_units ha h).1
  rw [lt_div_iff₀ hu] at this
  rwa [pre_take _ _ h.le]

theorem pre_le {a : Decimal} (ha : NormalDec a.d a.dp) (i : ℕ) :
    (pre a.d i : ℚ) * (10 : ℚ) ^ (a.dp - i) ≤ decValue a.d a.dp := by
  rcases lt_or_ge i a.d.length with h | h
  · exact (pre_lt ha h).le
  · rw [pre_exact h]

theorem lt_pre {a : Decimal} (ha : NormalDec a.d a.dp) (i : ℕ) :
    decValue a.d a.dp < ((pre a.d i : ℚ) + 1) * (10 : ℚ) ^ (a.dp - i) := by
  have hu : (0 : ℚ) < (10 : ℚ) ^ (a.dp - i) := zpow_pos (by norm_num) _
  rcases lt_or_ge i a.d.length with h | h
  · have := (in_units ha h).2
    rw [div_lt_iff₀ hu] at this
    rwa [pre_take _ _ h.le]
  · rw [pre_exact h]
    nlinarith

/-- The prefixes of two numbers with the same point are ordered like the numbers. -/
theorem pre_mono {a b : Decimal} (ha : NormalDec a.d a.dp) (hb : NormalDec b.d b.dp) (hdp : a.dp = b.dp)
    (h : decValue a.d a.dp ≤ decValue b.d b.dp) (i : ℕ) : pre a.d i ≤ pre b.d i := by
  have h1 := pre_le ha i
  have h2 := lt_pre hb i
  rw [← hdp] at h2
  have hu : (0 : ℚ) < (10 : ℚ) ^ (a.dp - i) := zpow_pos (by norm_num) _
  have h3 : (pre a.d i : ℚ) * (10 : ℚ) ^ (a.dp - i) < ((pre b.d i : ℚ) + 1) * (10 : ℚ) ^ (a.dp - i) := by
    rw [← hdp] at h
    linarith
  have h4 := lt_of_mul_lt_mul_right h3 hu.le
  have h5 : pre a.d i < pre b.d i + 1 := by exact_mod_cast h4
  omega

/-- `q` lies between the bounds, and strictly unless they are included. -/
def Between (lo hi : ℚ) (inclusive : Bool) (q : ℚ) : Prop :=
  lo ≤ q ∧ q ≤ hi ∧ (inclusive = false → lo < q ∧ q < hi)

/-- A decimal in normal form within the bounds, obtained from `d`. -/
def GoodResult (d b : Decimal) (lo hi : ℚ) (inclusive : Bool) : Prop :=
  NormalDec b.d b.dp ∧ Between lo hi inclusive (decValue b.d b.dp) ∧ b.d.length ≤ d.d.length ∧ b.d ≠ []

theorem between_self {lo hi v : ℚ} {inc : Bool} (h1 : lo < v) (h2 : v < hi) : Between lo hi inc v :=
  ⟨h1.le, h2.le, fun _ => ⟨h1, h2⟩⟩

theorem pre_pos {a : Decimal} (ha : NormalDec a.d a.dp) (hne : a.d ≠ []) (i : ℕ) : 1 ≤ pre a.d (i + 1) := by
  have hv := (decValue_pos ha hne).1
  have h := lt_pre ha (i + 1)
  by_contra hc
  have h0 : pre a.d (i + 1) = 0 := by omega
  rw [h0, Nat.cast_zero, zero_add, one_mul] at h
  have : (10 : ℚ) ^ (a.dp - ((i + 1 : ℕ) : ℤ)) ≤ (10 : ℚ) ^ (a.dp - 1) := zpow_le_zpow_right₀ (by norm_num) (by push_cast; omega)
  linarith

theorem ne_nil_of_pos {ds : List ℕ} {dp : ℤ} (h : 0 < decValue ds dp) : ds ≠ [] := by
  rintro rfl
  simp [decValue] at h

/-- Rounding down to `i + 1` digits, if the truncated value is fine. -/
theorem down_good {d : Decimal} (hd : NormalDec d.d d.dp) (hne : d.d ≠ []) {lo hi : ℚ} {inc : Bool} (hlo : lo < decValue d.d d.dp)
    (hhi : decValue d.d d.dp < hi) {i : ℕ}
    (h1 : lo ≤ (pre d.d (i + 1) : ℚ) * (10 : ℚ) ^ (d.dp - (i + 1 : ℕ)))
    (h2 : inc = false → lo < (pre d.d (i + 1) : ℚ) * (10 : ℚ) ^ (d.dp - (i + 1 : ℕ))) :
    GoodResult d (d.roundDown ((i : ℤ) + 1)) lo hi inc := by
  rw [show (i : ℤ) + 1 = ((i + 1 : ℕ) : ℤ) by push_cast; rfl]
  rcases lt_or_ge (i + 1) d.d.length with h | h
  · obtain ⟨r1, r2, r3, -, -⟩ := roundDown_spec hd h
    rw [← pre_take _ _ h.le] at r3
    have hlt := pre_lt hd h
    refine ⟨r1, ?_, by omega, ?_⟩
    · rw [r3]
      exact ⟨h1, by linarith, fun hi' => ⟨h2 hi', by linarith⟩⟩
    · apply ne_nil_of_pos (dp := (d.roundDown ((i + 1 : ℕ) : ℤ)).dp)
      rw [r3]
      have := pre_pos hd hne i
      have : (1 : ℚ) ≤ pre d.d (i + 1) := by exact_mod_cast this
      have hu : (0 : ℚ) < (10 : ℚ) ^ (d.dp - ((i + 1 : ℕ) : ℤ)) := zpow_pos (by norm_num) _
      positivity
  · have : d.roundDown ((i + 1 : ℕ) : ℤ) = d := if_pos (Or.inr (by
      show ((i + 1 : ℕ) : ℤ) ≥ (d.d.length : ℤ)
      omega))
    rw [this]
    exact ⟨hd, between_self hlo hhi, le_rfl, hne⟩

/-- Rounding up to `i + 1` digits, if the next value is fine. -/
theorem up_good {d : Decimal} (hd : NormalDec d.d d.dp) (hne : d.d ≠ []) {lo hi : ℚ} {inc : Bool} (hlo : lo < decValue d.d d.dp)
    (hhi : decValue d.d d.dp < hi) {i : ℕ}
    (h1 : ((pre d.d (i + 1) : ℚ) + 1) * (10 : ℚ) ^ (d.dp - (i + 1 : ℕ)) ≤ hi)
    (h2 : inc = false → ((pre d.d (i + 1) : ℚ) + 1) * (10 : ℚ) ^ (d.dp - (i + 1 : ℕ)) < hi) :
    GoodResult d (d.roundUp ((i : ℤ) + 1)) lo hi inc := by
  rw [show (i : ℤ) + 1 = ((i + 1 : ℕ) : ℤ) by push_cast; rfl]
  rcases lt_or_ge (i + 1) d.d.length with h | h
  · obtain ⟨r1, r2, r3, -, -⟩ := roundUp_spec hd h
    rw [← pre_take _ _ h.le] at r3
    have hlt := lt_pre hd (i + 1)
    have hu : (0 : ℚ) < (10 : ℚ) ^ (d.dp - ((i + 1 : ℕ) : ℤ)) := zpow_pos (by norm_num) _
    have hcast : ((pre d.d (i + 1) + 1 : ℕ) : ℚ) = (pre d.d (i + 1) : ℚ) + 1 := by push_cast; rfl
    rw [hcast] at r3
    refine ⟨r1, ?_, by omega, ?_⟩
    · rw [r3]
      exact ⟨by linarith, h1, fun hi' => ⟨by linarith, h2 hi'⟩⟩
    · apply ne_nil_of_pos (dp := (d.roundUp ((i + 1 : ℕ) : ℤ)).dp)
      rw [r3]
      positivity
  · have : d.roundUp ((i + 1 : ℕ) : ℤ) = d := if_pos (Or.inr (by
      show ((i + 1 : ℕ) : ℤ) ≥ (d.d.length : ℤ)
      omega))
    rw [this]
    exact ⟨hd, between_self hlo hhi, le_rfl, hne⟩

theorem round_cases (d : Decimal) (n : ℤ) : d.round n = d.roundUp n ∨ d.round n = d.roundDown n := by
  unfold Decimal.round
  split
  · rename_i h
    right
    exact (if_pos h).symm
  · split
    · exact Or.inl rfl
    · exact Or.inr rfl

/-- The choice made in one step of the loop. -/
theorem step_good {d : Decimal} {lo hi : ℚ} {inc okdown okup : Bool} {n : ℤ} {rest : Decimal}
    (hdown : okdown = true → GoodResult d (d.roundDown n) lo hi inc) (hup : okup = true → GoodResult d (d.roundUp n) lo hi inc)
    (hrest : okdown = false → okup = false → GoodResult d rest lo hi inc) :
    GoodResult d (if (okdown && okup) = true then d.round n else if okdown = true then d.roundDown n
      else if okup = true then d.roundUp n else rest) lo hi inc := by
  cases okdown <;> cases okup
  · simpa using hrest rfl rfl
  · simpa using hup rfl
  · simpa using hdown rfl
  · rw [if_pos (by rfl)]
    rcases round_cases d n with h | h
    · rw [h]; exact hup rfl
    · rw [h]; exact hdown rfl

variable {d lower upper : Decimal} {inc : Bool}

/-- Rounding down is fine when the digit of the lower bound differs, or when the bound is reached and included. -/
theorem okdown_good (hd : NormalDec d.d d.dp) (hne : d.d ≠ []) (hl : NormalDec lower.d lower.dp)
    (hlo : decValue lower.d lower.dp < decValue d.d d.dp) {hi : ℚ} (hhi : decValue d.d d.dp < hi) (hdp : lower.dp = d.dp) {i : ℕ}
    (hpre : pre lower.d i = pre d.d i)
    (h : lower.d.getD i 0 ≠ d.d.getD i 0 ∨ inc = true ∧ i + 1 = lower.d.length) :
    GoodResult d (d.roundDown ((i : ℤ) + 1)) (decValue lower.d lower.dp) hi inc := by
  have hm := pre_mono hl hd hdp hlo.le (i + 1)
  have hu : (0 : ℚ) < (10 : ℚ) ^ (d.dp - ((i + 1 : ℕ) : ℤ)) := zpow_pos (by norm_num) _
  by_cases hne' : lower.d.getD i 0 = d.d.getD i 0
  · obtain ⟨hinc, hlen⟩ := h.resolve_left fun hc => hc hne'
    have he : pre lower.d (i + 1) = pre d.d (i + 1) := by rw [pre, pre, hpre, hne']
    apply down_good hd hne hlo hhi
    · rw [pre_exact (ds := lower.d) (dp := lower.dp) (i := i + 1) (by omega), he, hdp]
    · intro hc; rw [hinc] at hc; exact absurd hc (by decide)
  · have hlt : pre lower.d (i + 1) + 1 ≤ pre d.d (i + 1) := by
      rw [pre, pre, hpre] at hm ⊢
      omega
    have hltq : (pre lower.d (i + 1) : ℚ) + 1 ≤ pre d.d (i + 1) := by exact_mod_cast hlt
    have h1 := lt_pre hl (i + 1)
    rw [hdp] at h1
    have h2 : decValue lower.d lower.dp < (pre d.d (i + 1) : ℚ) * (10 : ℚ) ^ (d.dp - ((i + 1 : ℕ) : ℤ)) := by
      rw [hdp]
      exact lt_of_lt_of_le h1 (mul_le_mul_of_nonneg_right hltq hu.le)
    exact down_good hd hne hlo hhi h2.le fun _ => h2

/-- Rounding up is fine when the digit of the upper bound is larger and the bound is not reached or included. -/
theorem okup_good (hd : NormalDec d.d d.dp) (hne : d.d ≠ []) (hup : NormalDec upper.d upper.dp)
    (hhi : decValue d.d d.dp < decValue upper.d upper.dp) {lo : ℚ} (hlo : lo < decValue d.d d.dp) (hdp : upper.dp = d.dp) {i : ℕ}
    (hpre : pre upper.d i = pre d.d i)
    (h : d.d.getD i 0 ≠ upper.d.getD i 0 ∧ (inc = true ∨ d.d.getD i 0 + 1 < upper.d.getD i 0 ∨ i + 1 < upper.d.length)) :
    GoodResult d (d.roundUp ((i : ℤ) + 1)) lo (decValue upper.d upper.dp) inc := by
  have hm := pre_mono hd hup hdp.symm hhi.le (i + 1)
  have hu : (0 : ℚ) < (10 : ℚ) ^ (d.dp - ((i + 1 : ℕ) : ℤ)) := zpow_pos (by norm_num) _
  have hlt : pre d.d (i + 1) + 1 ≤ pre upper.d (i + 1) := by
    rw [pre, pre, hpre] at hm ⊢
    omega
  have hltq : (pre d.d (i + 1) : ℚ) + 1 ≤ pre upper.d (i + 1) := by exact_mod_cast hlt
  have h1 := pre_le hup (i + 1)
  rw [hdp] at h1
  have h1' : ((pre d.d (i + 1) : ℚ) + 1) * (10 : ℚ) ^ (d.dp - ((i + 1 : ℕ) : ℤ)) ≤
      (pre upper.d (i + 1) : ℚ) * (10 : ℚ) ^ (d.dp - ((i + 1 : ℕ) : ℤ)) := mul_le_mul_of_nonneg_right hltq hu.le
  rw [← hdp] at h1
  rw [← hdp] at h1' hu
  apply up_good hd hne hlo hhi
  · rw [← hdp]; linarith
  · intro hinc
    rw [← hdp]
    rcases h.2 with h2 | h2 | h2
    · rw [h2] at hinc; exact absurd hinc (by decide)
    · have hlt2 : pre d.d (i + 1) + 1 < pre upper.d (i + 1) := by
        rw [pre, pre, hpre]
        omega
      have hlt2q : (pre d.d (i + 1) : ℚ) + 1 < pre upper.d (i + 1) := by exact_mod_cast hlt2
      have := mul_lt_mul_of_pos_right hlt2q hu
      linarith
    · have := pre_lt hup h2
      linarith

theorem loop_good (hd : NormalDec d.d d.dp) (hne : d.d ≠ []) (hl : NormalDec lower.d lower.dp) (hup : NormalDec upper.d upper.dp)
    (hlo : decValue lower.d lower.dp < decValue d.d d.dp) (hhi : decValue d.d d.dp < decValue upper.d upper.dp) (hdp : lower.dp = d.dp) :
    ∀ n i, pre lower.d i = pre d.d i →
      ((upper.dp = d.dp ∧ pre upper.d i = pre d.d i) ∨ (inc = false ∧ upper.d.length ≤ i)) →
      GoodResult d (shortestLoop d lower upper inc n i) (decValue lower.d lower.dp) (decValue upper.d upper.dp) inc
  | 0, i, _, _ => ⟨hd, between_self hlo hhi, le_rfl, hne⟩
  | n + 1, i, hpre, hu => by
    unfold shortestLoop
    apply step_good
    · intro h
      apply okdown_good hd hne hl hlo hhi hdp hpre
      simp only [Bool.or_eq_true, Bool.and_eq_true, decide_eq_true_eq] at h
      exact h
    · intro h
      simp only [Bool.or_eq_true, Bool.and_eq_true, decide_eq_true_eq] at h
      rcases hu with ⟨hu1, hu2⟩ | ⟨hu1, hu2⟩
      · apply okup_good hd hne hup hhi hlo hu1 hu2
        refine ⟨h.1, ?_⟩
        rcases h.2 with (h' | h') | h'
        · exact Or.inl h'
        · exact Or.inr (Or.inl h')
        · exact Or.inr (Or.inr h')
      · exfalso
        have h0 : upper.d.getD i 0 = 0 := by
          rw [List.getD_eq_getElem?_getD, List.getElem?_eq_none hu2]; rfl
        rw [h0, hu1] at h
        have : upper.nd = upper.d.length := rfl
        simp at h
        omega
    · intro h1 h2
      simp only [Bool.or_eq_false_iff, Bool.and_eq_false_iff, decide_eq_false_iff_not] at h1 h2
      have hlm : lower.d.getD i 0 = d.d.getD i 0 := not_not.1 h1.1
      apply loop_good hd hne hl hup hlo hhi hdp n (i + 1)
      · rw [pre, pre, hpre, hlm]
      · rcases hu with ⟨hu1, hu2⟩ | ⟨hu1, hu2⟩
        · rcases h2 with h2 | h2
          · left
            exact ⟨hu1, by rw [pre, pre, hu2, not_not.1 h2]⟩
          · right
            refine ⟨h2.1.1, ?_⟩
            have := h2.2
            have hh : upper.nd = upper.d.length := rfl
            omega
        · exact Or.inr ⟨hu1, by omega⟩

theorem pre_one (ds : List ℕ) : pre ds 1 = ds.getD 0 0 := by simp [pre]

theorem dp_le_of_le {a b : Decimal} (ha : NormalDec a.d a.dp) (hb : NormalDec b.d b.dp) (hna : a.d ≠ []) (hnb : b.d ≠ [])
    (h : decValue a.d a.dp ≤ decValue b.d b.dp) : a.dp ≤ b.dp := by
  have h1 := (decValue_pos ha hna).1
  have h2 := (decValue_pos hb hnb).2
  have h3 : (10 : ℚ) ^ (a.dp - 1) < (10 : ℚ) ^ b.dp := by linarith
  have := (zpow_lt_zpow_iff_right₀ (by norm_num : (1 : ℚ) < 10)).1 h3
  omega

theorem dp_le_of_lt {a : Decimal} (ha : NormalDec a.d a.dp) (hna : a.d ≠ []) {e : ℤ} (h : decValue a.d a.dp < (10 : ℚ) ^ e) : a.dp ≤ e := by
  have h1 := (decValue_pos ha hna).1
  have := (zpow_lt_zpow_iff_right₀ (by norm_num : (1 : ℚ) < 10)).1 (lt_of_le_of_lt h1 h)
  omega

theorem lt_dp_of_le {a : Decimal} (ha : NormalDec a.d a.dp) (hna : a.d ≠ []) {e : ℤ} (h : (10 : ℚ) ^ e ≤ decValue a.d a.dp) : e < a.dp :=
  (zpow_lt_zpow_iff_right₀ (by norm_num : (1 : ℚ) < 10)).1 (lt_of_le_of_lt h (decValue_pos ha hna).2)

/-- The whole loop stays within the bounds. -/
theorem shortest_good (hd : NormalDec d.d d.dp) (hne : d.d ≠ []) (hl : NormalDec lower.d lower.dp) (hup : NormalDec upper.d upper.dp)
    (hlo : decValue lower.d lower.dp < decValue d.d d.dp) (hhi : decValue d.d d.dp < decValue upper.d upper.dp)
    (hlo2 : decValue d.d d.dp ≤ 2 * decValue lower.d lower.dp) (hhi2 : 2 * decValue upper.d upper.dp ≤ 3 * decValue d.d d.dp) :
    GoodResult d (shortestLoop d lower upper inc d.nd 0) (decValue lower.d lower.dp) (decValue upper.d upper.dp) inc := by
  have hv : 0 < decValue d.d d.dp := lt_of_lt_of_le (zpow_pos (by norm_num) _) (decValue_pos hd hne).1
  have hln : lower.d ≠ [] := ne_nil_of_pos (dp := lower.dp) (by linarith)
  have hun : upper.d ≠ [] := ne_nil_of_pos (dp := upper.dp) (by linarith)
  have h1 := dp_le_of_le hl hd hln hne hlo.le
  have h2 := dp_le_of_le hd hup hne hun hhi.le
  obtain ⟨hv1, hv2⟩ := decValue_pos hd hne
  obtain ⟨hL1, hL2⟩ := decValue_pos hl hln
  obtain ⟨hU1, hU2⟩ := decValue_pos hup hun
  have h10 : (10 : ℚ) ^ d.dp = 10 * (10 : ℚ) ^ (d.dp - 1) := by
    rw [← zpow_one_add₀ ten_ne]; congr 1; ring
  have hpos : (0 : ℚ) < (10 : ℚ) ^ (d.dp - 1) := zpow_pos (by norm_num) _
  have hup0 : upper.dp = d.dp → pre upper.d 0 = pre d.d 0 := fun _ => rfl
  rcases eq_or_lt_of_le h1 with hdp | hdp
  · rcases eq_or_lt_of_le h2 with hdpu | hdpu
    · exact loop_good hd hne hl hup hlo hhi hdp _ 0 rfl (Or.inl ⟨hdpu.symm, rfl⟩)
    · -- the upper bound has one more digit before the point
      obtain ⟨n, hn⟩ : ∃ n, d.nd = n + 1 := ⟨d.d.length - 1, by
        have : d.d.length ≠ 0 := fun hc => hne (List.length_eq_zero_iff.1 hc)
        show d.d.length = _
        omega⟩
      have hUle : (10 : ℚ) ^ d.dp ≤ (10 : ℚ) ^ (upper.dp - 1) := zpow_le_zpow_right₀ (by norm_num) (by omega)
      have hudp : upper.dp = d.dp + 1 := by
        have : upper.dp ≤ d.dp + 1 := by
          apply dp_le_of_lt hup hun
          rw [zpow_add_one₀ ten_ne]
          linarith
        omega
      have hu1 : pre upper.d 1 = 1 := by
        have a1 := lt_pre hup 1
        have a2 := pre_le hup 1
        rw [hudp, show d.dp + 1 - ((1 : ℕ) : ℤ) = d.dp by push_cast; ring, ← hudp] at a1 a2
        have b1 : (1 : ℚ) * (10 : ℚ) ^ d.dp < ((pre upper.d 1 : ℚ) + 1) * (10 : ℚ) ^ d.dp := by linarith
        have b2 : (pre upper.d 1 : ℚ) * (10 : ℚ) ^ d.dp < 2 * (10 : ℚ) ^ d.dp := by linarith
        have hp : (0 : ℚ) ≤ (10 : ℚ) ^ d.dp := (zpow_pos (by norm_num) _).le
        have c1 := lt_of_mul_lt_mul_right b1 hp
        have c2 := lt_of_mul_lt_mul_right b2 hp
        have d1 : 1 < pre upper.d 1 + 1 := by exact_mod_cast c1
        have d2 : pre upper.d 1 < 2 := by exact_mod_cast c2
        omega
      have hm6 : 6 ≤ pre d.d 1 := by
        have a1 := lt_pre hd 1
        rw [show d.dp - ((1 : ℕ) : ℤ) = d.dp - 1 by push_cast; ring] at a1
        have b1 : (6 : ℚ) * (10 : ℚ) ^ (d.dp - 1) < ((pre d.d 1 : ℚ) + 1) * (10 : ℚ) ^ (d.dp - 1) := by linarith
        have c1 := lt_of_mul_lt_mul_right b1 hpos.le
        have d1 : 6 < pre d.d 1 + 1 := by exact_mod_cast c1
        omega
      have hm10 : pre d.d 1 + 1 ≤ 10 := by
        have a1 := pre_le hd 1
        rw [show d.dp - ((1 : ℕ) : ℤ) = d.dp - 1 by push_cast; ring] at a1
        have b1 : (pre d.d 1 : ℚ) * (10 : ℚ) ^ (d.dp - 1) < 10 * (10 : ℚ) ^ (d.dp - 1) := by linarith
        have c1 := lt_of_mul_lt_mul_right b1 hpos.le
        have d1 : pre d.d 1 < 10 := by exact_mod_cast c1
        omega
      rw [hn]
      unfold shortestLoop
      apply step_good
      · intro h
        apply okdown_good hd hne hl hlo hhi hdp rfl
        simp only [Bool.or_eq_true, Bool.and_eq_true, decide_eq_true_eq] at h
        exact h
      · intro h
        simp only [Bool.or_eq_true, Bool.and_eq_true, decide_eq_true_eq] at h
        rw [pre_one] at hu1 hm6
        have hmq : (pre d.d (0 + 1) : ℚ) + 1 ≤ 10 := by
          rw [zero_add]; exact_mod_cast hm10
        have hmu : ((pre d.d (0 + 1) : ℚ) + 1) * (10 : ℚ) ^ (d.dp - ((0 + 1 : ℕ) : ℤ)) ≤ (10 : ℚ) ^ d.dp := by
          rw [h10, show d.dp - ((0 + 1 : ℕ) : ℤ) = d.dp - 1 by push_cast; ring]
          exact mul_le_mul_of_nonneg_right hmq hpos.le
        apply up_good hd hne hlo hhi
        · linarith
        · intro hinc
          rcases h.2 with (h' | h') | h'
          · rw [hinc] at h'; exact absurd h' (by decide)
          · omega
          · have := pre_lt hup (i := 1) (by
              have hh : upper.nd = upper.d.length := rfl
              omega)
            rw [pre_one, hu1, hudp, show d.dp + 1 - ((1 : ℕ) : ℤ) = d.dp by push_cast; ring, ← hudp, Nat.cast_one, one_mul] at this
            linarith
      · intro h1' h2'
        simp only [Bool.or_eq_false_iff, Bool.and_eq_false_iff, decide_eq_false_iff_not] at h1' h2'
        have hlm : lower.d.getD 0 0 = d.d.getD 0 0 := not_not.1 h1'.1
        rw [pre_one] at hu1 hm6
        apply loop_good hd hne hl hup hlo hhi hdp n (0 + 1)
        · rw [zero_add, pre_one, pre_one, hlm]
        · right
          rcases h2' with h2' | h2'
          · exact absurd h2' (by omega)
          · refine ⟨h2'.1.1, ?_⟩
            have := h2'.2
            have hh : upper.nd = upper.d.length := rfl
            omega
  · -- the lower bound has one digit less before the point
    obtain ⟨n, hn⟩ : ∃ n, d.nd = n + 1 := ⟨d.d.length - 1, by
      have : d.d.length ≠ 0 := fun hc => hne (List.length_eq_zero_iff.1 hc)
      show d.d.length = _
      omega⟩
    have hLlt : decValue lower.d lower.dp < (10 : ℚ) ^ (d.dp - 1) :=
      lt_of_lt_of_le hL2 (zpow_le_zpow_right₀ (by norm_num) (by omega))
    have hudp : upper.dp = d.dp := by
      have : upper.dp ≤ d.dp := dp_le_of_lt hup hun (by linarith)
      omega
    have hm1 : pre d.d 1 = 1 := by
      have a1 := lt_pre hd 1
      have a2 := pre_le hd 1
      rw [show d.dp - ((1 : ℕ) : ℤ) = d.dp - 1 by push_cast; ring] at a1 a2
      have b1 : (1 : ℚ) * (10 : ℚ) ^ (d.dp - 1) < ((pre d.d 1 : ℚ) + 1) * (10 : ℚ) ^ (d.dp - 1) := by linarith
      have b2 : (pre d.d 1 : ℚ) * (10 : ℚ) ^ (d.dp - 1) < 2 * (10 : ℚ) ^ (d.dp - 1) := by linarith
      have c1 := lt_of_mul_lt_mul_right b1 hpos.le
      have c2 := lt_of_mul_lt_mul_right b2 hpos.le
      have d1 : 1 < pre d.d 1 + 1 := by exact_mod_cast c1
      have d2 : pre d.d 1 < 2 := by exact_mod_cast c2
      omega
    have hldp : lower.dp = d.dp - 1 := by
      have : d.dp - 2 < lower.dp := lt_dp_of_le hl hln (by
        have : (10 : ℚ) ^ (d.dp - 1) = 10 * (10 : ℚ) ^ (d.dp - 2) := by
          rw [← zpow_one_add₀ ten_ne]; congr 1; ring
        have hp2 : (0 : ℚ) < (10 : ℚ) ^ (d.dp - 2) := zpow_pos (by norm_num) _
        linarith)
      omega
    have hl5 : 5 ≤ pre lower.d 1 := by
      have a1 := lt_pre hl 1
      have e1 : (10 : ℚ) ^ (d.dp - 1) = 10 * (10 : ℚ) ^ (lower.dp - ((1 : ℕ) : ℤ)) := by
        rw [← zpow_one_add₀ ten_ne]; congr 1; push_cast; omega
      have hp2 : (0 : ℚ) < (10 : ℚ) ^ (lower.dp - ((1 : ℕ) : ℤ)) := zpow_pos (by norm_num) _
      have b1 : (5 : ℚ) * (10 : ℚ) ^ (lower.dp - ((1 : ℕ) : ℤ)) < ((pre lower.d 1 : ℚ) + 1) * (10 : ℚ) ^ (lower.dp - ((1 : ℕ) : ℤ)) := by
        linarith
      have c1 := lt_of_mul_lt_mul_right b1 hp2.le
      have d1 : 5 < pre lower.d 1 + 1 := by exact_mod_cast c1
      omega
    have hdown : GoodResult d (d.roundDown (((0 : ℕ) : ℤ) + 1)) (decValue lower.d lower.dp) (decValue upper.d upper.dp) inc := by
      have e : decValue lower.d lower.dp < (pre d.d (0 + 1) : ℚ) * (10 : ℚ) ^ (d.dp - ((0 + 1 : ℕ) : ℤ)) := by
        rw [zero_add, hm1, Nat.cast_one, one_mul]
        exact hLlt
      exact down_good hd hne hlo hhi e.le fun _ => e
    rw [hn]
    unfold shortestLoop
    apply step_good
    · intro _; exact hdown
    · intro h
      simp only [Bool.or_eq_true, Bool.and_eq_true, decide_eq_true_eq] at h
      apply okup_good hd hne hup hhi hlo hudp rfl
      refine ⟨h.1, ?_⟩
      rcases h.2 with (h' | h') | h'
      · exact Or.inl h'
      · exact Or.inr (Or.inl h')
      · exact Or.inr (Or.inr h')
    · intro h1' _
      simp only [Bool.or_eq_false_iff, Bool.and_eq_false_iff, decide_eq_false_iff_not] at h1'
      exfalso
      have hlm : lower.d.getD 0 0 = d.d.getD 0 0 := not_not.1 h1'.1
      rw [pre_one] at hm1 hl5
      omega

end GoFloat.Strconv
