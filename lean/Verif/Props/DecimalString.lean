import Verif.Props.Decimal
import Verif.Proofs.LayoutShape
import Verif.Proofs.IsExact
/-
C40: the text of a multiprecision decimal.
-/
namespace GoFloat.Strconv
open Spec

/-- Digits in front of the point and behind it, and what reads them. -/
theorem read_point {int frac : List ℕ} (hi : ∀ d ∈ int, d < 10) (hf : ∀ d ∈ frac, d < 10) (hne : int ≠ []) :
    readDecimal (int.map dchar ++ pointed (frac.map dchar)) = some (false, (dv (int ++ frac) : ℚ) * (10 : ℚ) ^ (-(frac.length : ℤ))) := by
  have hdig : ∀ {l : List ℕ}, (∀ d ∈ l, d < 10) → ∀ c ∈ l.map dchar, IsDig c := by
    intro l hl c hc
    obtain ⟨d, h1, rfl⟩ := List.mem_map.1 hc
    exact isDig_dchar (hl d h1)
  have h := readDecimal_layout false (int.map dchar) (frac.map dchar) [] (hdig hi) (by simpa using hne) (hdig hf) (by simp)
  rw [← List.map_append, readNumeral_map (by norm_num) (by
    intro d hd
    rcases List.mem_append.1 hd with hd | hd
    · exact hi d hd
    · exact hf d hd)] at h
  unfold pointed
  simpa [readExp] using h

/-- C40: `String` writes the magnitude of a decimal in fixed notation: no superfluous zeros in front, none at the end of a
fraction, and the text read as a number is exactly the value of the digits. -/
theorem C40_string (a : Decimal) (ha : NormalDec a.d a.dp) :
    (∃ int frac, IsFixed a.string false int frac ∧ frac.getLast? ≠ some '0') ∧
    readDecimal a.string = some (false, decValue a.d a.dp) := by
  suffices h : ∃ int frac : List ℕ, (∀ d ∈ int, d < 10) ∧ (∀ d ∈ frac, d < 10) ∧ int ≠ [] ∧ (int.head? = some 0 → int = [0]) ∧
      frac.getLast? ≠ some 0 ∧ a.string = int.map dchar ++ pointed (frac.map dchar) ∧
      decValue a.d a.dp = (dv (int ++ frac) : ℚ) * (10 : ℚ) ^ (-(frac.length : ℤ)) by
    obtain ⟨int, frac, h1, h2, h3, h4, h5, h6, h7⟩ := h
    refine ⟨⟨int.map dchar, frac.map dchar, ⟨by rw [h6]; rfl, ⟨_, by simpa using h3, readNumeral_map (by norm_num) h1, fun hc => ?_⟩,
      fun c hc => ?_⟩, fun hc => ?_⟩, by rw [h6, read_point h1 h2 h3, h7]⟩
    · rw [List.head?_map, Option.map_eq_some_iff] at hc
      obtain ⟨d, e1, e2⟩ := hc
      have := dchar_inj_zero (lt_trans (h1 d (List.mem_of_head? e1)) (by norm_num)) e2
      subst this
      rw [h4 e1]
      rfl
    · obtain ⟨d, e1, rfl⟩ := List.mem_map.1 hc
      exact dchar_range (h2 d e1)
    · rw [List.getLast?_map, Option.map_eq_some_iff] at hc
      obtain ⟨d, e1, e2⟩ := hc
      have := dchar_inj_zero (lt_trans (h2 d (List.mem_of_getLast? e1)) (by norm_num)) e2
      subst this
      exact h5 e1
  have hnd : a.nd = a.d.length := rfl
  unfold Decimal.string
  by_cases h0 : a.nd = 0
  · rw [if_pos h0]
    have hd : a.d = [] := List.length_eq_zero_iff.1 (by omega)
    exact ⟨[0], [], by simp, by simp, by simp, by simp, by simp, rfl, by rw [hd]; simp [decValue, dv, digsVal]⟩
  rw [if_neg h0]
  have hne : a.d ≠ [] := fun h => h0 (by rw [hnd, h]; rfl)
  by_cases h1 : a.dp ≤ 0
  · rw [if_pos h1]
    refine ⟨[0], List.replicate (-a.dp).toNat 0 ++ a.d, by simp, ?_, by simp, by simp, ?_, ?_, ?_⟩
    · intro d hd
      rcases List.mem_append.1 hd with hd | hd
      · rw [(List.mem_replicate.1 hd).2]; norm_num
      · exact ha.digit d hd
    · rw [List.getLast?_append]
      rcases hl : a.d.getLast? with _ | x
      · exact absurd (List.getLast?_eq_none_iff.1 hl) hne
      · have := ha.last
        rw [hl] at this
        simpa using this
    · rw [map_digitChar ha.digit, pointed, if_neg (by simp [hne])]
      simp [show dchar 0 = '0' by decide]
    · rw [decValue_eq, List.singleton_append, dv_cons, dv_append, dv_zeros, List.length_append, List.length_replicate]
      simp only [zero_mul, zero_add]
      congr 2
      push_cast
      omega
  rw [if_neg h1]
  by_cases h2 : a.dp < a.nd
  · rw [if_pos h2]
    refine ⟨a.d.take a.dp.toNat, a.d.drop a.dp.toNat, fun d hd => ha.digit d (List.mem_of_mem_take hd),
      fun d hd => ha.digit d (List.mem_of_mem_drop hd), ?_, ?_, ?_, ?_, ?_⟩
    · intro h
      rcases List.take_eq_nil_iff.1 h with h | h
      · omega
      · exact hne h
    · intro h
      rw [List.head?_take, if_neg (by omega)] at h
      exact absurd h ha.head
    · rw [List.getLast?_drop, if_neg (by omega)]
      exact ha.last
    · rw [map_digitChar (fun d hd => ha.digit d (List.mem_of_mem_take hd)), map_digitChar (fun d hd => ha.digit d (List.mem_of_mem_drop hd)),
        pointed, if_neg]
      · simp
      · rw [List.map_eq_nil_iff, List.drop_eq_nil_iff]
        omega
    · rw [decValue_eq, List.take_append_drop, List.length_drop]
      congr 2
      omega
  · rw [if_neg h2]
    refine ⟨a.d ++ List.replicate (a.dp - a.nd).toNat 0, [], ?_, by simp, by simp [hne], ?_, by simp, ?_, ?_⟩
    · intro d hd
      rcases List.mem_append.1 hd with hd | hd
      · exact ha.digit d hd
      · rw [(List.mem_replicate.1 hd).2]; norm_num
    · intro h
      rw [List.head?_append] at h
      rcases hl : a.d.head? with _ | x
      · exact absurd (List.head?_eq_none_iff.1 hl) hne
      · rw [hl] at h
        exact absurd (hl.trans (by simpa using h)) ha.head
    · rw [map_digitChar ha.digit]
      simp [pointed, show dchar 0 = '0' by decide]
    · rw [decValue_eq, List.append_nil, dv_append, dv_zeros, List.length_replicate, show a.dp - (a.d.length : ℤ) = ((a.dp - a.nd).toNat : ℤ) by omega,
        zpow_natCast]
      push_cast
      simp

example : NormalDec [1, 2, 5] 1 ∧ Decimal.string { d := [1, 2, 5], dp := 1, neg := false, trunc := false } = ['1', '.', '2', '5'] :=
  ⟨⟨by decide, by decide, by decide, by decide⟩, by decide⟩
example : Decimal.string { d := [1, 2, 5], dp := -2, neg := false, trunc := false } = ['0', '.', '0', '0', '1', '2', '5'] := by decide
example : Decimal.string { d := [1, 2, 5], dp := 5, neg := false, trunc := false } = ['1', '2', '5', '0', '0'] := by decide

/-- C40: the sign is not written. -/
theorem C40_string_sign (a : Decimal) (b : Bool) : Decimal.string { a with neg := b } = a.string := rfl

end GoFloat.Strconv
