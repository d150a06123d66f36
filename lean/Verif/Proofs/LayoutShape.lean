import Verif.Spec.Layout
import Verif.Proofs.FixedText
import Verif.Props.Itoa
/-
The shapes of the texts of fmtE, fmtF and fmtB.
-/
namespace GoFloat.Strconv
open Spec

theorem dchar_range {d : ℕ} (h : d < 10) : '0' ≤ dchar d ∧ dchar d ≤ '9' := by
  interval_cases d <;> decide

theorem isExponent_digits (e : ℕ) : IsExponent ((expDigits e).map dchar) e := by
  refine ⟨?_, by rw [List.length_map]; exact expDigits_length e, ?_⟩
  · rw [readNumeral_map (by norm_num) (expDigits_lt e)]
    exact congrArg some (dv_expDigits e)
  · intro hl
    rw [List.length_map] at hl
    unfold expDigits at hl ⊢
    split at hl
    · simp at hl
    · rename_i h
      rw [if_neg h]
      intro hc
      have h1 := (isNumeral_dg (b := 10) (by norm_num) (by norm_num) e).2.2 hc
      have := congrArg List.length h1
      rw [List.length_map] at this
      simp at this
      omega

theorem fmtE_shape (neg : Bool) {ds : List ℕ} (hd : ∀ d ∈ ds, d < 10) (dp : ℤ) (x : Bool) (prec : ℤ) (fmt : Char)
    (he : (expOf ds dp).natAbs < 1000) :
    IsExponential fmt (fmtE neg ⟨ds.map (· + 48), dp, x⟩ prec fmt) neg (dchar (ds.getD 0 0)) ((fracE ds prec).map dchar) (expOf ds dp) := by
  refine ⟨⟨_, isExponent_digits _, ?_⟩, ?_⟩
  · rw [fmtE_eq neg hd dp x prec fmt he]
    unfold minus pointed expText
    simp
  · intro c hc
    rcases List.mem_cons.1 hc with rfl | hc
    · exact dchar_range (getD_lt hd 0)
    · obtain ⟨d, h1, rfl⟩ := List.mem_map.1 hc
      exact dchar_range (fracE_lt hd prec d h1)

theorem intF_numeral {ds : List ℕ} {dp : ℤ} (h : NormalDec ds dp) : ∃ n, IsNumeral 10 ((intF ds dp).map dchar) n := by
  refine ⟨_, by simpa using intF_ne_nil ds dp, readNumeral_map (by norm_num) (intF_lt h.digit dp), fun hc => ?_⟩
  unfold intF at hc ⊢
  by_cases h0 : dp > 0
  · exfalso
    rw [if_pos h0] at hc
    obtain ⟨p, hp⟩ : ∃ p : ℕ, dp.toNat = p + 1 := ⟨dp.toNat - 1, by omega⟩
    have hne : ds ≠ [] := fun h1 => by rw [h.zero h1] at h0; exact lt_irrefl _ h0
    obtain ⟨d, ds', rfl⟩ := List.exists_cons_of_ne_nil hne
    rw [hp, padTake, List.range_succ_eq_map] at hc
    simp only [List.map_cons, List.getD_cons_zero, List.head?_cons, Option.some.injEq] at hc
    have := dchar_inj_zero (lt_trans (h.digit d (by simp)) (by norm_num)) hc
    exact h.head (by rw [this]; rfl)
  · rw [if_neg h0]
    rfl

theorem fmtF_shape (neg : Bool) {ds : List ℕ} {dp : ℤ} (h : NormalDec ds dp) (x : Bool) (prec : ℤ) :
    IsFixed (fmtF neg ⟨ds.map (· + 48), dp, x⟩ prec) neg ((intF ds dp).map dchar) ((fracF ds dp prec).map dchar) := by
  refine ⟨?_, intF_numeral h, ?_⟩
  · rw [fmtF_eq neg h.digit dp x prec]
    rfl
  · intro c hc
    obtain ⟨d, h1, rfl⟩ := List.mem_map.1 hc
    exact dchar_range (fracF_lt h.digit dp prec d h1)

/-- The digits of a shortest decimal do not end in a zero: `e` format. -/
theorem fracE_last {ds : List ℕ} {dp : ℤ} (h : NormalDec ds dp) : ((fracE ds ((ds.length : ℤ) - 1)).map dchar).getLast? ≠ some '0' := by
  intro hc
  rw [List.getLast?_map, Option.map_eq_some_iff] at hc
  obtain ⟨d, h1, h2⟩ := hc
  have hd : d < 10 := fracE_lt h.digit _ d (List.mem_of_getLast? h1)
  have h0 := dchar_inj_zero (by omega) h2
  subst h0
  apply h.last
  have hne : fracE ds ((ds.length : ℤ) - 1) ≠ [] := by intro hc; rw [hc] at h1; simp at h1
  have hl : 2 ≤ ds.length := by
    have := List.length_pos_iff.2 hne
    rw [fracE_length] at this
    omega
  have e := fracE_cons ds ((ds.length : ℤ) - 1)
  rw [show ((ds.length : ℤ) - 1).toNat + 1 = ds.length by omega, padTake_take le_rfl, List.take_length] at e
  rw [← e, List.getLast?_cons, h1]
  rfl

/-- The digits of a shortest decimal do not end in a zero: `f` format. -/
theorem fracF_last {ds : List ℕ} {dp : ℤ} (h : NormalDec ds dp) : ((fracF ds dp (max (ds.length - dp) 0)).map dchar).getLast? ≠ some '0' := by
  intro hc
  rw [List.getLast?_map, Option.map_eq_some_iff] at hc
  obtain ⟨d, h1, h2⟩ := hc
  have hd : d < 10 := fracF_lt h.digit _ _ d (List.mem_of_getLast? h1)
  have h0 := dchar_inj_zero (by omega) h2
  subst h0
  apply h.last
  have hne : fracF ds dp (max (ds.length - dp) 0) ≠ [] := by intro hc; rw [hc] at h1; simp at h1
  have hl : 1 ≤ (ds.length : ℤ) - dp := by
    have := List.length_pos_iff.2 hne
    rw [fracF_length] at this
    omega
  have hne' : ds ≠ [] := by
    intro h3
    rw [h.zero h3, h3] at hl
    simp at hl
  have hlen := List.length_pos_iff.2 hne'
  rw [max_eq_left (by omega)] at h1
  obtain ⟨p, hp⟩ : ∃ p : ℕ, ((ds.length : ℤ) - dp).toNat = p + 1 := ⟨((ds.length : ℤ) - dp).toNat - 1, by omega⟩
  unfold fracF at h1
  rw [hp, List.range_succ, List.map_append, List.getLast?_append] at h1
  simp only [List.map_cons, List.map_nil, List.getLast?_singleton, Option.some_or, Option.some.injEq] at h1
  rw [if_pos (by omega), show (dp + (p : ℤ)).toNat = ds.length - 1 by omega, List.getD_eq_getElem?_getD, List.getElem?_eq_getElem (by omega)] at h1
  rw [List.getLast?_eq_getElem?, List.getElem?_eq_getElem (by omega)]
  exact congrArg some h1

/-- The letter of the exponent for the `g` formats. -/
def expLetter (fmt : Char) : Char := if fmt = 'G' ∨ fmt = 'E' then 'E' else 'e'

/-- The choice made by the `g` format. -/
theorem formatDigits_g (shortest neg : Bool) {ds : List ℕ} (dp : ℤ) (x : Bool) {fmt : Char} (hfmt : fmt = 'g' ∨ fmt = 'G') {prec : ℤ}
    (hp : (ds.length : ℤ) ≤ prec) (hs : shortest = true → prec = ds.length) :
    formatDigits shortest neg ⟨ds.map (· + 48), dp, x⟩ prec fmt =
      if dp - 1 < -4 ∨ dp - 1 ≥ (if shortest then 6 else prec) then fmtE neg ⟨ds.map (· + 48), dp, x⟩ (ds.length - 1) (expLetter fmt)
      else fmtF neg ⟨ds.map (· + 48), dp, x⟩ (max (ds.length - dp) 0) := by
  have hnd : DecimalSlice.nd ⟨ds.map (· + 48), dp, x⟩ = ds.length := by simp [DecimalSlice.nd]
  have hl : Char.ofNat (fmt.toNat + 101 - 103) = expLetter fmt := by rcases hfmt with rfl | rfl <;> decide
  unfold formatDigits
  rw [if_neg (by rcases hfmt with rfl | rfl <;> decide), if_neg (by rcases hfmt with rfl | rfl <;> decide), if_pos hfmt, hnd]
  simp only [hl]
  have hif : (dp - 1 < -4 ∨ dp - 1 ≥ (if shortest then (6 : ℤ) else if prec > (ds.length : ℤ) ∧ (ds.length : ℤ) ≥ dp then (ds.length : ℤ) else prec)) ↔
      (dp - 1 < -4 ∨ dp - 1 ≥ (if shortest then 6 else prec)) := by
    cases shortest
    · simp only [Bool.false_eq_true, if_false]
      split <;> omega
    · simp
  by_cases hx : dp - 1 < -4 ∨ dp - 1 ≥ (if shortest then 6 else prec)
  · rw [if_pos (hif.2 hx), if_pos hx]
    congr 1
    split <;> omega
  · rw [if_neg (fun h => hx (hif.1 h)), if_neg hx]
    congr 1
    cases shortest
    · simp only [Bool.false_eq_true, if_false] at hx
      split <;> omega
    · have := hs rfl
      split <;> omega

/-- The exponent of digits that are not zero, by their value. -/
theorem value_exp {ds : List ℕ} {dp : ℤ} (h : NormalDec ds dp) (hne : ds ≠ []) (P : ℤ) :
    (decValue ds dp < (10 : ℚ) ^ P ↔ dp - 1 < P) := by
  obtain ⟨h1, h2⟩ := decValue_pos h hne
  constructor
  · intro h3
    have := lt_of_le_of_lt h1 h3
    exact (zpow_lt_zpow_iff_right₀ (by norm_num)).1 this
  · intro h3
    exact lt_of_lt_of_le h2 (zpow_le_zpow_right₀ (by norm_num) (by omega))

theorem decValue_ne_zero {ds : List ℕ} {dp : ℤ} (h : NormalDec ds dp) : decValue ds dp ≠ 0 ↔ ds ≠ [] := by
  constructor
  · rintro h1 rfl
    exact h1 (by simp [decValue])
  · intro hne
    exact (lt_of_lt_of_le (by positivity) (decValue_pos h hne).1).ne'

/-- `fmtB`. -/
theorem fmtB_shape {W : ℕ} (hW : W = 32 ∨ W = 64) (neg : Bool) {N : ℕ} (hN : N < 2 ^ 64) {exp : ℤ} {flt : FloatInfo}
    (h1 : -2 ^ 63 ≤ exp - flt.mantbits) (h2 : exp - flt.mantbits < 2 ^ 63) :
    ∃ t, fmtB W neg (BitVec.ofNat 64 N) exp flt = .ok t ∧ IsBinary t neg N (exp - flt.mantbits) := by
  unfold fmtB
  rw [formatBits_ok hW _ (by norm_num) (by norm_num), ok_bind]
  generalize exp - flt.mantbits = e at *
  simp only
  rw [formatBits_ok hW _ (by norm_num) (by norm_num), ok_bind]
  refine ⟨_, rfl, (dg 10 N).map dchar, (dg 10 e.natAbs).map dchar, isNumeral_dg (by norm_num) (by norm_num) _, isNumeral_dg (by norm_num) (by norm_num) _, ?_⟩
  have hi : (BitVec.ofInt 64 e).toInt = e := by
    rw [BitVec.toInt_ofInt]
    unfold Int.bmod
    norm_num at *
    omega
  have hN' : (BitVec.ofNat 64 N).toNat = N := ofNat_toNat hN
  simp only [Bool.false_eq_true, if_false, hN', show Int.toNat 10 = 10 from rfl]
  unfold minus
  by_cases h : e < 0
  · have hn := neg_toNat (i := BitVec.ofInt 64 e) (by rw [hi]; exact h)
    rw [hi] at hn
    simp [h, hn, not_le.2 h]
  · have hn := nonneg_toNat (i := BitVec.ofInt 64 e) (by rw [hi]; exact h)
    rw [hi] at hn
    simp [h, hn, not_lt.1 h]

end GoFloat.Strconv
