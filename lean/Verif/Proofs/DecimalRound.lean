import Mathlib.Algebra.Order.Ring.Abs
import Verif.Proofs.DecimalExact
/-
`Round`, `RoundUp`, `RoundDown`, `RoundedInteger` of internal/strconv/decimal.go.
-/
namespace GoFloat.Strconv
open Spec

theorem getD_drop {a : List ℕ} {n : ℕ} (h : n < a.length) : ∃ rest, a.drop n = a.getD n 0 :: rest ∧ rest.length = a.length - n - 1 := by
  refine ⟨a.drop (n + 1), ?_, by rw [List.length_drop]; omega⟩
  rw [List.drop_eq_getElem_cons h, List.getD_eq_getElem?_getD, List.getElem?_eq_getElem h]
  rfl

theorem getLast?_drop_ne {a : List ℕ} {n : ℕ} (h : n < a.length) : (a.drop n).getLast? = a.getLast? := by
  rw [List.getLast?_drop, if_neg (by omega)]

/-- The integer part, and the fraction, of a decimal in units of its `n`-th digit. -/
theorem split_at {a : Decimal} {n : ℕ} (h : n ≤ a.d.length) :
    decValue a.d a.dp = ((dv (a.d.take n) : ℚ) + (dv (a.d.drop n) : ℚ) / 10 ^ (a.d.length - n)) * (10 : ℚ) ^ (a.dp - n) := by
  have h1 : dv a.d = dv (a.d.take n) * 10 ^ (a.d.length - n) + dv (a.d.drop n) := by
    conv_lhs => rw [← List.take_append_drop n a.d]
    rw [dv_append, List.length_drop]
  rw [decValue_eq, h1]
  have h2 : (10 : ℚ) ^ (a.dp - (a.d.length : ℤ)) = (10 : ℚ) ^ (a.dp - n) / 10 ^ (a.d.length - n) := by
    rw [eq_div_iff (by positivity), ← zpow_natCast, ← zpow_add₀ ten_ne]
    congr 1
    push_cast [Nat.cast_sub h]
    ring
  rw [h2]
  push_cast
  field_simp

theorem dv_mod_two (l : List ℕ) (c : ℕ) : dv (l ++ [c]) % 2 = c % 2 := by
  rw [dv_snoc]; omega

/-- What `shouldRoundUp` decides. -/
theorem shouldRoundUp_spec {a : Decimal} {n : ℕ} (hd : ∀ d ∈ a.d, d < 10) (hlast : a.d.getLast? ≠ some 0) (h : n < a.d.length) {y : ℚ}
    (hy : Represents a.d a.dp a.trunc y) :
    NearestEven (y / (10 : ℚ) ^ (a.dp - n)) (dv (a.d.take n) + if shouldRoundUp a n then 1 else 0 : ℕ) := by
  obtain ⟨rest, hdrop, hrl⟩ := getD_drop h
  set f := a.d.getD n 0 with hf
  set r := a.d.length - n with hr
  have hr1 : 1 ≤ r := by omega
  have hdd : ∀ d ∈ a.d.drop n, d < 10 := fun d hd' => hd d (List.mem_of_mem_drop hd')
  have hFv : dv (a.d.drop n) = f * 10 ^ (r - 1) + dv rest := by rw [hdrop, dv_cons, hrl]
  have hrest : dv rest < 10 ^ (r - 1) := by
    rw [← show rest.length = r - 1 by omega]
    exact dv_lt fun d hd' => hdd d (by rw [hdrop]; simp [hd'])
  have hR : 10 ^ r = 10 * 10 ^ (r - 1) := by rw [← pow_succ']; congr 1; omega
  set T := dv (a.d.take n) with hT
  set F := dv (a.d.drop n) with hF
  set u := (10 : ℚ) ^ (a.dp - n) with hu
  have hup : 0 < u := zpow_pos (by norm_num) _
  have hRp : (0 : ℚ) < 10 ^ r := by positivity
  have hx : decValue a.d a.dp / u = T + F / 10 ^ r := by
    rw [split_at h.le, ← hu, ← hr, ← hT, ← hF, mul_div_assoc, div_self hup.ne', mul_one]
  -- the bounds of y / u
  have hlo : (T : ℚ) + F / 10 ^ r ≤ y / u ∧ (a.trunc = true → (T : ℚ) + F / 10 ^ r < y / u) := by
    unfold Represents at hy
    by_cases ht : a.trunc = true
    · rw [if_pos ht] at hy
      have : decValue a.d a.dp / u < y / u := div_lt_div_of_pos_right hy.1 hup
      rw [hx] at this
      exact ⟨this.le, fun _ => this⟩
    · rw [if_neg ht] at hy
      rw [hy, hx]
      exact ⟨le_rfl, fun hc => absurd hc ht⟩
  have hhi : y / u < T + (F + 1) / 10 ^ r ∧ (a.trunc = false → y / u = T + F / 10 ^ r) := by
    unfold Represents at hy
    by_cases ht : a.trunc = true
    · rw [if_pos ht] at hy
      have h1 : y / u < (decValue a.d a.dp + (10 : ℚ) ^ (a.dp - a.d.length)) / u := div_lt_div_of_pos_right hy.2 hup
      have h2 : (10 : ℚ) ^ (a.dp - (a.d.length : ℤ)) / u = 1 / 10 ^ r := by
        rw [hu, div_eq_div_iff (zpow_pos (by norm_num) _).ne' hRp.ne', one_mul, ← zpow_natCast, ← zpow_add₀ ten_ne]
        congr 1
        rw [hr]
        push_cast [Nat.cast_sub h.le]
        ring
      rw [add_div, hx, h2, add_assoc, ← add_div] at h1
      exact ⟨h1, fun hc => by rw [hc] at ht; exact absurd ht (by decide)⟩
    · rw [if_neg ht] at hy
      rw [hy, hx]
      refine ⟨?_, fun _ => rfl⟩
      have : (F : ℚ) / 10 ^ r < (F + 1) / 10 ^ r := div_lt_div_of_pos_right (by linarith) hRp
      linarith
  have hF0 : (0 : ℚ) ≤ F / 10 ^ r := by positivity
  have hF1 : ((F : ℚ) + 1) / 10 ^ r ≤ 1 := by
    rw [div_le_one hRp]
    have : F < 10 ^ r := by
      have := dv_lt hdd
      rwa [List.length_drop] at this
    have : F + 1 ≤ 10 ^ r := this
    exact_mod_cast this
  -- the three cases
  have hnear_up : (1 / 2 : ℚ) < y / u - T → NearestEven (y / u) ((T + 1 : ℕ) : ℤ) := by
    intro hlt
    have habs : |y / u - ((T + 1 : ℕ) : ℤ)| < 1 / 2 := by
      push_cast
      rw [abs_lt]; constructor <;> linarith [hhi.1]
    exact ⟨habs.le, fun hc => absurd hc habs.ne⟩
  have hnear_down : y / u - T < (1 / 2 : ℚ) → NearestEven (y / u) ((T + 0 : ℕ) : ℤ) := by
    intro hlt
    have habs : |y / u - ((T + 0 : ℕ) : ℤ)| < 1 / 2 := by
      push_cast
      rw [abs_lt]; constructor <;> linarith [hlo.1]
    exact ⟨habs.le, fun hc => absurd hc habs.ne⟩
  have hsr : shouldRoundUp a n = if f = 5 ∧ n + 1 = a.d.length then
      (if a.trunc then true else decide (n > 0) && a.d.getD (n - 1) 0 % 2 != 0) else decide (f ≥ 5) := by
    unfold shouldRoundUp
    rw [if_neg (by
      show ¬ ((n : ℤ) < 0 ∨ (n : ℤ) ≥ (a.d.length : ℤ))
      omega)]
    simp only [Int.toNat_natCast]
    rfl
  rw [hsr]
  by_cases htie : f = 5 ∧ n + 1 = a.d.length
  · rw [if_pos htie]
    have hr' : r = 1 := by omega
    have hFhalf : (F : ℚ) / 10 ^ r = 1 / 2 := by
      have h0 : dv rest = 0 := by
        rw [hr'] at hrest
        simp at hrest
        simpa using hrest
      rw [hFv, h0, htie.1, hr']; norm_num
    by_cases ht : a.trunc = true
    · rw [if_pos ht]
      apply hnear_up
      have := hlo.2 ht
      rw [hFhalf] at this
      linarith
    · rw [if_neg ht]
      have hyu := hhi.2 (by simpa using ht)
      rw [hFhalf] at hyu
      by_cases hn : n = 0
      · subst hn
        have hT0 : T = 0 := by rw [hT]; rfl
        rw [show (decide (0 > 0) && a.d.getD (0 - 1) 0 % 2 != 0) = false by simp]
        rw [if_neg (by simp), hT0, hyu, hT0]
        refine ⟨by norm_num [abs_of_nonneg], fun _ => by simp⟩
      · have htake : a.d.take n = a.d.take (n - 1) ++ [a.d.getD (n - 1) 0] := by
          have hlt : n - 1 < a.d.length := by omega
          conv_lhs => rw [show n = (n - 1) + 1 by omega]
          rw [List.take_add_one, List.getD_eq_getElem?_getD, List.getElem?_eq_getElem hlt]
          rfl
        have hpar : T % 2 = a.d.getD (n - 1) 0 % 2 := by rw [hT, htake, dv_mod_two]
        rw [← hpar, show decide (n > 0) = true by simp; omega, Bool.true_and]
        by_cases hodd : T % 2 = 0
        · rw [hodd]
          rw [if_neg (by simp), hyu]
          refine ⟨?_, fun _ => ?_⟩
          · push_cast
            rw [show (T : ℚ) + 1 / 2 - (T + 0) = 1 / 2 by ring]
            norm_num [abs_of_nonneg]
          · rw [add_zero]
            exact_mod_cast Nat.even_iff.2 hodd
        · have h1 : T % 2 = 1 := by omega
          rw [h1, if_pos (by rfl), hyu]
          refine ⟨?_, fun _ => ?_⟩
          · push_cast
            rw [show (T : ℚ) + 1 / 2 - (T + 1) = -(1 / 2) by ring, abs_neg]
            norm_num [abs_of_nonneg]
          · have : Even (T + 1) := Nat.even_iff.2 (by omega)
            exact_mod_cast this
  · rw [if_neg htie]
    by_cases h5 : f ≥ 5
    · rw [if_pos (by simpa using h5)]
      apply hnear_up
      have hgt : 10 ^ r < 2 * F := by
        by_cases hrest0 : dv rest = 0 ∧ f = 5
        · exfalso
          have hlen : n + 1 ≠ a.d.length := fun hc => htie ⟨hrest0.2, hc⟩
          have hne : rest ≠ [] := by
            intro hc
            rw [hc] at hrl
            simp at hrl
            omega
          have hl : rest.getLast? ≠ some 0 := by
            have := getLast?_drop_ne h
            rw [hdrop] at this
            rcases rest with _ | ⟨x, xs⟩
            · exact absurd rfl hne
            · rw [List.getLast?_cons_cons] at this
              rw [this]; exact hlast
          have := dv_mod (ds := rest) (fun d hd' => hdd d (by rw [hdrop]; simp [hd'])) hl hne
          rw [hrest0.1] at this
          exact this rfl
        · rw [hFv, hR]
          have hp : 0 < 10 ^ (r - 1) := by positivity
          rcases Nat.eq_or_lt_of_le h5 with h5' | h5'
          · have : 0 < dv rest := Nat.pos_of_ne_zero fun hc => hrest0 ⟨hc, h5'.symm⟩
            rw [← h5']
            omega
          · have : 6 * 10 ^ (r - 1) ≤ f * 10 ^ (r - 1) := Nat.mul_le_mul_right _ h5'
            omega
      have : (1 / 2 : ℚ) < F / 10 ^ r := by
        rw [lt_div_iff₀ hRp]
        have : ((10 : ℚ) ^ r) < 2 * F := by exact_mod_cast hgt
        linarith
      linarith [hlo.1]
    · rw [if_neg (by simpa using h5)]
      apply hnear_down
      have hle : 2 * (F + 1) ≤ 10 ^ r := by
        rw [hFv, hR]
        have : f * 10 ^ (r - 1) ≤ 4 * 10 ^ (r - 1) := Nat.mul_le_mul_right _ (by omega)
        omega
      have : ((F : ℚ) + 1) / 10 ^ r ≤ 1 / 2 := by
        rw [div_le_iff₀ hRp]
        have : 2 * ((F : ℚ) + 1) ≤ 10 ^ r := by exact_mod_cast hle
        linarith
      linarith [hhi.1]

theorem roundUpDigits_spec : ∀ ds : List ℕ, (∀ d ∈ ds, d < 10) →
    (∀ r, roundUpDigits ds = some r → dv r * 10 ^ (ds.length - r.length) = dv ds + 1 ∧ r.length ≤ ds.length ∧ r ≠ [] ∧
      (∀ d ∈ r, d < 10) ∧ r.getLast? ≠ some 0 ∧ (ds.head? ≠ some 0 → r.head? ≠ some 0)) ∧
    (roundUpDigits ds = none → dv ds + 1 = 10 ^ ds.length)
  | [], _ => by simp [roundUpDigits, dv, digsVal]
  | c :: cs, hd => by
    obtain ⟨h1, h2⟩ := roundUpDigits_spec cs fun d hd' => hd d (by simp [hd'])
    have hc : c < 10 := hd c (by simp)
    unfold roundUpDigits
    rcases hr : roundUpDigits cs with _ | r'
    · have h2' := h2 hr
      simp only
      by_cases h9 : c < 9
      · rw [if_pos h9]
        refine ⟨?_, by simp⟩
        rintro r hr
        have hr' : r = [c + 1] := by simpa using hr.symm
        subst hr'
        refine ⟨?_, by simp, by simp, by simp; omega, by simp, by simp⟩
        rw [dv_cons, dv_cons, add_assoc, h2']
        simp [dv, digsVal]
        ring
      · rw [if_neg h9]
        refine ⟨by simp, fun _ => ?_⟩
        rw [dv_cons, List.length_cons, add_assoc, h2', show c = 9 by omega]
        ring
    · simp only
      refine ⟨?_, by simp⟩
      rintro r hrr
      have hr' : r = c :: r' := by simpa using hrr.symm
      subst hr'
      obtain ⟨e1, e2, e3, e4, e5, e6⟩ := h1 r' hr
      refine ⟨?_, by simpa using e2, by simp, ?_, ?_, by simp⟩
      · rw [dv_cons, dv_cons, List.length_cons, List.length_cons, Nat.add_sub_add_right, add_assoc, ← e1, add_mul, mul_assoc,
          ← pow_add]
        congr 3
        omega
      · intro d hd'
        rcases List.mem_cons.1 hd' with rfl | hd'
        · exact hc
        · exact e4 d hd'
      · rcases r' with _ | ⟨x, xs⟩
        · exact absurd rfl e3
        · rw [List.getLast?_cons_cons]; exact e5

theorem take_head {a : List ℕ} {n : ℕ} (hh : a.head? ≠ some 0) : (a.take n).head? ≠ some 0 := by
  rw [List.head?_take]
  split
  · simp
  · exact hh

/-- `RoundDown` truncates. -/
theorem roundDown_spec {a : Decimal} {n : ℕ} (ha : NormalDec a.d a.dp) (h : n < a.d.length) :
    NormalDec (a.roundDown n).d (a.roundDown n).dp ∧ (a.roundDown n).d.length ≤ n ∧
      decValue (a.roundDown n).d (a.roundDown n).dp = dv (a.d.take n) * (10 : ℚ) ^ (a.dp - n) ∧
      (a.roundDown n).neg = a.neg ∧ (a.roundDown n).trunc = a.trunc := by
  have e : a.roundDown n = trim { a with d := a.d.take n } := by
    unfold Decimal.roundDown
    rw [if_neg (by
      show ¬ ((n : ℤ) < 0 ∨ (n : ℤ) ≥ (a.d.length : ℤ))
      omega), Int.toNat_natCast]
  rw [e]
  obtain ⟨t1, t2⟩ := trim_normal (a := { a with d := a.d.take n }) (fun d hd => ha.digit d (List.mem_of_mem_take hd)) (take_head ha.head)
  refine ⟨t1, ?_, ?_, rfl, rfl⟩
  · obtain ⟨z, hz, _⟩ := dtz_spec (a.d.take n)
    have := congrArg List.length hz
    rw [List.length_append, List.length_take] at this
    show (dropTrailingZeros (a.d.take n)).length ≤ n
    omega
  · rw [t2]
    show decValue (a.d.take n) a.dp = _
    rw [decValue_eq, List.length_take, min_eq_left h.le]

/-- `RoundUp` adds a unit. -/
theorem roundUp_spec {a : Decimal} {n : ℕ} (ha : NormalDec a.d a.dp) (h : n < a.d.length) :
    NormalDec (a.roundUp n).d (a.roundUp n).dp ∧ (a.roundUp n).d.length ≤ max n 1 ∧
      decValue (a.roundUp n).d (a.roundUp n).dp = (dv (a.d.take n) + 1 : ℕ) * (10 : ℚ) ^ (a.dp - n) ∧
      (a.roundUp n).neg = a.neg ∧ (a.roundUp n).trunc = a.trunc := by
  have hd : ∀ d ∈ a.d.take n, d < 10 := fun d hd => ha.digit d (List.mem_of_mem_take hd)
  have hl : (a.d.take n).length = n := by rw [List.length_take, min_eq_left h.le]
  obtain ⟨h1, h2⟩ := roundUpDigits_spec (a.d.take n) hd
  unfold Decimal.roundUp
  rw [if_neg (by
      show ¬ ((n : ℤ) < 0 ∨ (n : ℤ) ≥ (a.d.length : ℤ))
      omega), Int.toNat_natCast]
  rcases hr : roundUpDigits (a.d.take n) with _ | r
  · have h2' := h2 hr
    simp only
    refine ⟨⟨by simp, by simp, by simp, by simp⟩, by simp, ?_, trivial, trivial⟩
    rw [h2', hl, decValue_eq]
    simp [dv, digsVal]
    rw [← zpow_natCast, ← zpow_add₀ ten_ne]
    congr 1; ring
  · obtain ⟨e1, e2, e3, e4, e5, e6⟩ := h1 r hr
    simp only
    refine ⟨⟨e4, e6 (take_head ha.head), e5, fun hc => absurd hc e3⟩, by rw [hl] at e2; exact le_max_of_le_left e2, ?_, trivial, trivial⟩
    rw [← e1, hl, decValue_eq]
    rw [hl] at e2
    push_cast
    rw [mul_assoc, ← zpow_natCast, ← zpow_add₀ ten_ne]
    congr 2
    push_cast [Nat.cast_sub e2]
    ring

/-- `Round` rounds to nearest, half to even. -/
theorem round_spec {a : Decimal} {n : ℕ} (ha : NormalDec a.d a.dp) (h : n < a.d.length) {y : ℚ} (hy : Represents a.d a.dp a.trunc y) :
    NormalDec (a.round n).d (a.round n).dp ∧ (a.round n).d.length ≤ max n 1 ∧
      (∃ m : ℕ, NearestEven (y / (10 : ℚ) ^ (a.dp - n)) m ∧
        decValue (a.round n).d (a.round n).dp = m * (10 : ℚ) ^ (a.dp - n)) ∧
      (a.round n).neg = a.neg ∧ (a.round n).trunc = a.trunc := by
  have hs := shouldRoundUp_spec ha.digit ha.last h hy
  unfold Decimal.round
  rw [if_neg (by
      show ¬ ((n : ℤ) < 0 ∨ (n : ℤ) ≥ (a.d.length : ℤ))
      omega)]
  by_cases hu : shouldRoundUp a n = true
  · rw [if_pos hu] at hs ⊢
    obtain ⟨r1, r2, r3, r4, r5⟩ := roundUp_spec ha h
    exact ⟨r1, r2, ⟨_, hs, r3⟩, r4, r5⟩
  · rw [if_neg hu] at hs ⊢
    obtain ⟨r1, r2, r3, r4, r5⟩ := roundDown_spec ha h
    exact ⟨r1, le_max_of_le_left r2, ⟨_, hs, r3⟩, r4, r5⟩

theorem drop_bounds {a : Decimal} {n : ℕ} (ha : NormalDec a.d a.dp) (h : n < a.d.length) :
    0 < dv (a.d.drop n) ∧ dv (a.d.drop n) < 10 ^ (a.d.length - n) := by
  have hd : ∀ d ∈ a.d.drop n, d < 10 := fun d hd' => ha.digit d (List.mem_of_mem_drop hd')
  have hl : (a.d.drop n).length = a.d.length - n := List.length_drop
  have hne : a.d.drop n ≠ [] := by
    intro hc
    rw [hc] at hl
    simp at hl
    omega
  refine ⟨Nat.pos_of_ne_zero fun hc => ?_, by rw [← hl]; exact dv_lt hd⟩
  have := dv_mod hd (by rw [getLast?_drop_ne h]; exact ha.last) hne
  rw [hc] at this
  exact this rfl

theorem in_units {a : Decimal} {n : ℕ} (ha : NormalDec a.d a.dp) (h : n < a.d.length) :
    (dv (a.d.take n) : ℚ) < decValue a.d a.dp / (10 : ℚ) ^ (a.dp - n) ∧
      decValue a.d a.dp / (10 : ℚ) ^ (a.dp - n) < (dv (a.d.take n) : ℚ) + 1 := by
  obtain ⟨h1, h2⟩ := drop_bounds ha h
  have hup : (0 : ℚ) < (10 : ℚ) ^ (a.dp - n) := zpow_pos (by norm_num) _
  have hRp : (0 : ℚ) < 10 ^ (a.d.length - n) := by positivity
  rw [split_at h.le, mul_div_assoc, div_self hup.ne', mul_one]
  have h1' : (0 : ℚ) < dv (a.d.drop n) := by exact_mod_cast h1
  have h2' : (dv (a.d.drop n) : ℚ) < 10 ^ (a.d.length - n) := by exact_mod_cast h2
  have h3 : (0 : ℚ) < dv (a.d.drop n) / 10 ^ (a.d.length - n) := by positivity
  have h4 : (dv (a.d.drop n) : ℚ) / 10 ^ (a.d.length - n) < 1 := (div_lt_one hRp).2 h2'
  constructor <;> linarith

theorem floor_units {a : Decimal} {n : ℕ} (ha : NormalDec a.d a.dp) (h : n < a.d.length) :
    ⌊decValue a.d a.dp / (10 : ℚ) ^ (a.dp - n)⌋ = (dv (a.d.take n) : ℤ) := by
  obtain ⟨h1, h2⟩ := in_units ha h
  rw [Int.floor_eq_iff]
  push_cast
  exact ⟨h1.le, h2⟩

theorem ceil_units {a : Decimal} {n : ℕ} (ha : NormalDec a.d a.dp) (h : n < a.d.length) :
    ⌈decValue a.d a.dp / (10 : ℚ) ^ (a.dp - n)⌉ = ((dv (a.d.take n) + 1 : ℕ) : ℤ) := by
  obtain ⟨h1, h2⟩ := in_units ha h
  rw [Int.ceil_eq_iff]
  push_cast
  constructor <;> linarith

/-! ### RoundedInteger -/

theorem intDigits_spec : ∀ (n : ℕ) (ds : List ℕ) (acc : ℕ),
    intDigits n ds acc % 2 ^ 64 = (acc * 10 ^ n + dv (ds.take n) * 10 ^ (n - ds.length)) % 2 ^ 64
  | 0, ds, acc => by simp [intDigits, dv, digsVal]
  | n + 1, [], acc => by
    rw [intDigits, intDigits_spec n [], List.take_nil, List.take_nil, dv_nil, zero_mul, zero_mul, add_zero, add_zero, Nat.mul_mod,
      Nat.mod_mod, ← Nat.mul_mod, pow_succ']
    congr 1; ring
  | n + 1, c :: cs, acc => by
    rw [intDigits, intDigits_spec n cs, List.take_succ_cons, dv_cons, List.length_cons, Nat.add_sub_add_right, List.length_take]
    rw [Nat.add_mod, Nat.mul_mod, Nat.mod_mod, ← Nat.mul_mod, ← Nat.add_mod]
    congr 1
    have : 10 ^ n = 10 ^ min n cs.length * 10 ^ (n - cs.length) := by rw [← pow_add]; congr 1; omega
    rw [pow_succ']
    calc (acc * 10 + c) * 10 ^ n + dv (cs.take n) * 10 ^ (n - cs.length)
        = acc * (10 * 10 ^ n) + (c * 10 ^ n + dv (cs.take n) * 10 ^ (n - cs.length)) := by ring
      _ = _ := by conv_lhs => enter [2, 1, 2]; rw [this]
                  ring

theorem nearest_unique {q : ℚ} {m m' : ℤ} (h : NearestEven q m) (h' : NearestEven q m') : m = m' := by
  obtain ⟨a1, a2⟩ := h
  obtain ⟨b1, b2⟩ := h'
  have hd : |(m : ℚ) - m'| ≤ 1 := by
    calc |(m : ℚ) - m'| = |(q - m') - (q - m)| := by congr 1; ring
      _ ≤ |q - m'| + |q - m| := abs_sub _ _
      _ ≤ 1 := by linarith
  have hd' : |m - m'| ≤ 1 := by exact_mod_cast hd
  by_contra hne
  have h1 : |m - m'| = 1 := by
    have : 0 < |m - m'| := abs_pos.2 (sub_ne_zero.2 hne)
    omega
  have h1q : |(m : ℚ) - m'| = 1 := by exact_mod_cast h1
  have hsum : |(m : ℚ) - m'| ≤ |q - m'| + |q - m| := by
    calc |(m : ℚ) - m'| = |(q - m') - (q - m)| := by congr 1; ring
      _ ≤ _ := abs_sub _ _
  have ha : |q - m| = 1 / 2 := by linarith
  have hb : |q - m'| = 1 / 2 := by linarith
  have e1 := a2 ha
  have e2 := b2 hb
  have : Even (m - m') := Int.even_sub.2 ⟨fun _ => e2, fun _ => e1⟩
  rcases abs_eq (by norm_num : (0 : ℤ) ≤ 1) |>.1 h1 with h | h <;> rw [h] at this <;> revert this <;> decide

/-- `RoundedInteger` is the nearest integer. -/
theorem roundedInteger_spec {a : Decimal} (ha : NormalDec a.d a.dp) {y : ℚ} (hy : Represents a.d a.dp a.trunc y) {m : ℕ} (hm : NearestEven y m)
    (hlt : m < 2 ^ 64) (hdp : a.trunc = false ∨ a.dp < a.d.length) : a.roundedInteger.toNat = m := by
  have hu64 : (2 : ℕ) ^ 64 < 10 ^ 20 := by norm_num
  rcases lt_or_ge a.dp 0 with hneg | hpos
  · -- below a tenth
    have hsmall : 0 ≤ y ∧ y < 1 / 2 := by
      have hlen : dv a.d + 1 ≤ 10 ^ a.d.length := dv_lt ha.digit
      have hlenq : ((dv a.d : ℚ) + 1) ≤ 10 ^ a.d.length := by exact_mod_cast hlen
      have hp : (0 : ℚ) < (10 : ℚ) ^ (a.dp - a.d.length) := zpow_pos (by norm_num) _
      have hb : ((dv a.d : ℚ) + 1) * (10 : ℚ) ^ (a.dp - a.d.length) ≤ 1 / 10 := by
        calc ((dv a.d : ℚ) + 1) * (10 : ℚ) ^ (a.dp - a.d.length) ≤ 10 ^ a.d.length * (10 : ℚ) ^ (a.dp - a.d.length) :=
              mul_le_mul_of_nonneg_right hlenq hp.le
          _ = (10 : ℚ) ^ a.dp := by rw [← zpow_natCast, ← zpow_add₀ ten_ne]; congr 1; ring
          _ ≤ (10 : ℚ) ^ (-1 : ℤ) := zpow_le_zpow_right₀ (by norm_num) (by omega)
          _ = 1 / 10 := by norm_num
      have h0 : (0 : ℚ) ≤ dv a.d * (10 : ℚ) ^ (a.dp - a.d.length) := by positivity
      unfold Represents at hy
      rw [decValue_eq] at hy
      split at hy
      · exact ⟨by linarith [hy.1], by linarith [hy.2]⟩
      · exact ⟨by linarith, by linarith⟩
    have h0 : NearestEven y (0 : ℤ) := by
      have : |y - ((0 : ℤ) : ℚ)| < 1 / 2 := by
        rw [Int.cast_zero, sub_zero, abs_of_nonneg hsmall.1]; exact hsmall.2
      exact ⟨this.le, fun hc => absurd hc this.ne⟩
    have := nearest_unique hm h0
    have hm0 : m = 0 := by exact_mod_cast this
    unfold Decimal.roundedInteger
    have hs : shouldRoundUp a a.dp = false := by
      unfold shouldRoundUp
      rw [if_pos (Or.inl hneg)]
    rw [if_neg (by omega), hs, show a.dp.toNat = 0 by omega, hm0]
    rfl
  · obtain ⟨n, hn⟩ := Int.eq_ofNat_of_zero_le hpos
    rcases lt_or_ge n a.d.length with hlt' | hge
    · have hs := shouldRoundUp_spec ha.digit ha.last hlt' hy
      rw [hn, sub_self, zpow_zero, div_one] at hs
      have hm' := nearest_unique hm hs
      have hmm : m = dv (a.d.take n) + if shouldRoundUp a n then 1 else 0 := by exact_mod_cast hm'
      have hl : (a.d.take n).length = n := by rw [List.length_take, min_eq_left hlt'.le]
      have hn20 : n ≤ 20 := by
        by_contra hc
        have hne : a.d.take n ≠ [] := by
          intro h0
          rw [h0] at hl
          simp at hl
          omega
        have := dv_ge (take_head (n := n) ha.head) hne
        rw [hl] at this
        have h2 : 10 ^ 20 ≤ 10 ^ (n - 1) := Nat.pow_le_pow_right (by norm_num) (by omega)
        omega
      unfold Decimal.roundedInteger
      rw [if_neg (by omega), BitVec.toNat_ofNat, Nat.add_mod, hn, Int.toNat_natCast, intDigits_spec, ← Nat.add_mod, zero_mul, zero_add,
        show n - a.d.length = 0 by omega, pow_zero, mul_one, ← hmm, Nat.mod_eq_of_lt hlt]
    · have ht : a.trunc = false := by
        rcases hdp with h | h
        · exact h
        · omega
      unfold Represents at hy
      rw [ht, if_neg (by simp), decValue_eq, hn] at hy
      have hyn : y = ((dv a.d * 10 ^ (n - a.d.length) : ℕ) : ℤ) := by
        rw [hy]
        push_cast
        congr 1
        rw [← zpow_natCast]
        congr 1
        push_cast [Nat.cast_sub hge]
        ring
      have hs : NearestEven y ((dv a.d * 10 ^ (n - a.d.length) : ℕ) : ℤ) := by
        rw [hyn]
        refine ⟨by rw [sub_self]; norm_num, fun hc => ?_⟩
        rw [sub_self, abs_zero] at hc
        norm_num at hc
      have hm' := nearest_unique hm hs
      have hmm : m = dv a.d * 10 ^ (n - a.d.length) := by exact_mod_cast hm'
      have hn20 : n ≤ 20 := by
        by_contra hc
        have hne : a.d ≠ [] := by
          intro h0
          have := ha.zero h0
          omega
        have h1 := dv_ge ha.head hne
        have hlp : 0 < a.d.length := List.length_pos_iff.2 hne
        have h2 : 10 ^ (n - 1) ≤ m := by
          rw [hmm, show n - 1 = (a.d.length - 1) + (n - a.d.length) by omega, pow_add]
          exact Nat.mul_le_mul_right _ h1
        have h3 : 10 ^ 20 ≤ 10 ^ (n - 1) := Nat.pow_le_pow_right (by norm_num) (by omega)
        omega
      have hsr : shouldRoundUp a a.dp = false := by
        unfold shouldRoundUp
        rw [if_pos (Or.inr (by
          show a.dp ≥ (a.d.length : ℤ)
          omega))]
      unfold Decimal.roundedInteger
      rw [if_neg (by omega), hsr, if_neg (by simp), add_zero, BitVec.toNat_ofNat, hn, Int.toNat_natCast, intDigits_spec, zero_mul, zero_add,
        List.take_of_length_le hge, ← hmm, Nat.mod_eq_of_lt hlt]

end GoFloat.Strconv
