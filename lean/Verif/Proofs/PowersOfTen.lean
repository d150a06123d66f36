import Verif.Proofs.ExtFloat
/-
The tables of powers of ten of internal/strconv/extfloat.go.
-/
namespace GoFloat.Strconv

/-- The entry is normalised and within half a unit of `10^k`, in whole numbers. -/
def entryOk (e : ExtFloat) (k : ℤ) : Bool :=
  let U : ℤ := 2 ^ e.exp.toNat * 10 ^ (-k).toNat
  let R : ℤ := 10 ^ k.toNat * 2 ^ (-e.exp).toNat
  decide (2 ^ 63 ≤ e.mant.toNat) && decide (-U ≤ 2 * e.mant.toNat * U - 2 * R) && decide (2 * e.mant.toNat * U - 2 * R ≤ U) && !e.neg

theorem pow_split (b : ℚ) (k : ℤ) : b ^ k = b ^ k.toNat / b ^ (-k).toNat := by
  rcases le_total 0 k with h | h
  · obtain ⟨n, rfl⟩ := Int.eq_ofNat_of_zero_le h
    simp
  · obtain ⟨n, hn⟩ := Int.eq_ofNat_of_zero_le (show 0 ≤ -k by omega)
    have : k = -(n : ℤ) := by omega
    subst this
    rw [zpow_neg, zpow_natCast]
    simp

theorem entryOk_spec {e : ExtFloat} {k : ℤ} (h : entryOk e k = true) :
    2 ^ 63 ≤ e.mant.toNat ∧ |e.val - (10 : ℚ) ^ k| ≤ (2 : ℚ) ^ e.exp / 2 ∧ e.neg = false := by
  unfold entryOk at h
  simp only [Bool.and_eq_true, decide_eq_true_eq, Bool.not_eq_true'] at h
  obtain ⟨⟨⟨h1, h2⟩, h3⟩, h4⟩ := h
  refine ⟨h1, ?_, h4⟩
  have h2' : (-((2 : ℚ) ^ e.exp.toNat * 10 ^ (-k).toNat)) ≤
      2 * e.mant.toNat * ((2 : ℚ) ^ e.exp.toNat * 10 ^ (-k).toNat) - 2 * (10 ^ k.toNat * 2 ^ (-e.exp).toNat) := by exact_mod_cast h2
  have h3' : 2 * e.mant.toNat * ((2 : ℚ) ^ e.exp.toNat * 10 ^ (-k).toNat) - 2 * (10 ^ k.toNat * 2 ^ (-e.exp).toNat) ≤
      (2 : ℚ) ^ e.exp.toNat * 10 ^ (-k).toNat := by exact_mod_cast h3
  unfold ExtFloat.val
  rw [pow_split 2 e.exp, pow_split 10 k]
  have a1 : (0 : ℚ) < 2 ^ e.exp.toNat := by positivity
  have a2 : (0 : ℚ) < 2 ^ (-e.exp).toNat := by positivity
  have a3 : (0 : ℚ) < 10 ^ k.toNat := by positivity
  have a4 : (0 : ℚ) < 10 ^ (-k).toNat := by positivity
  generalize (2 : ℚ) ^ e.exp.toNat = A at *
  generalize (2 : ℚ) ^ (-e.exp).toNat = B at *
  generalize (10 : ℚ) ^ k.toNat = C at *
  generalize (10 : ℚ) ^ (-k).toNat = D at *
  generalize (e.mant.toNat : ℚ) = m at *
  have hBD : 0 < B * D := by positivity
  have e1 : m * (A / B) - C / D = (m * (A * D) - C * B) / (B * D) := by field_simp
  have e2 : A / B / 2 = A * D / 2 / (B * D) := by field_simp
  rw [e1, e2, abs_div, abs_of_pos hBD, div_le_div_iff_of_pos_right hBD, abs_le]
  constructor <;> linarith

/-- All rows of the table. -/
theorem powersOfTen_check :
    (List.range 87).all (fun i => match powersOfTen[i]? with
      | some e => entryOk e (-348 + 8 * (i : ℤ))
      | none => false) = true := by decide +kernel

theorem powersOfTen_length : powersOfTen.length = 87 := by decide +kernel

theorem powersOfTen_row {i : ℕ} (h : i < 87) : ∃ e, powersOfTen[i]? = some e ∧ entryOk e (-348 + 8 * (i : ℤ)) = true := by
  have := List.all_eq_true.1 powersOfTen_check i (List.mem_range.2 h)
  split at this
  · exact ⟨_, ‹_›, this⟩
  · exact absurd this (by decide)

theorem smallPowersOfTen_check :
    (List.range 8).all (fun i => match smallPowersOfTen[i]? with
      | some e => entryOk e (i : ℤ) && decide (e.exp ≤ 0) && decide (e.mant.toNat = 10 ^ i * 2 ^ (-e.exp).toNat)
      | none => false) = true := by decide +kernel

theorem smallPowersOfTen_length : smallPowersOfTen.length = 8 := by decide +kernel

theorem uint64pow10_check :
    (List.range 20).all (fun i => match uint64pow10[i]? with
      | some e => decide (e.toNat = 10 ^ i)
      | none => false) = true := by decide +kernel

theorem uint64pow10_length : uint64pow10.length = 20 := by decide

theorem tableAt_ok {α : Type} {t : List α} {i : ℕ} {x : α} (h : t[i]? = some x) : tableAt t (i : ℤ) = .ok x := by
  unfold tableAt
  rw [if_neg (by omega), Int.toNat_natCast, h]

theorem pow10_row {i : ℕ} (h : i < 20) : ∃ p, tableAt uint64pow10 (i : ℤ) = .ok p ∧ p.toNat = 10 ^ i := by
  have := List.all_eq_true.1 uint64pow10_check i (List.mem_range.2 h)
  split at this
  · exact ⟨_, tableAt_ok ‹_›, by simpa using this⟩
  · exact absurd this (by decide)

theorem small_row {i : ℕ} (h : i < 8) : ∃ e, tableAt smallPowersOfTen (i : ℤ) = .ok e ∧ entryOk e i = true ∧ e.val = (10 : ℚ) ^ i := by
  have := List.all_eq_true.1 smallPowersOfTen_check i (List.mem_range.2 h)
  split at this
  · rename_i e he
    simp only [Bool.and_eq_true, decide_eq_true_eq] at this
    obtain ⟨⟨h1, h2⟩, h3⟩ := this
    refine ⟨e, tableAt_ok he, h1, ?_⟩
    unfold ExtFloat.val
    rw [h3]
    push_cast
    rw [mul_assoc, ← zpow_natCast (2 : ℚ) (-e.exp).toNat, ← zpow_add₀ (by norm_num), show (((-e.exp).toNat : ℕ) : ℤ) + e.exp = 0 by omega]
    simp
  · exact absurd this (by decide)

theorem power_row {i : ℕ} (h : i < 87) : ∃ e, tableAt powersOfTen (i : ℤ) = .ok e ∧ entryOk e (-348 + 8 * (i : ℤ)) = true := by
  obtain ⟨e, h1, h2⟩ := powersOfTen_row h
  exact ⟨e, tableAt_ok h1, h2⟩

/-- The search finds an entry, for each binary exponent. -/
def searchOk (fexp : ℤ) : Bool :=
  match frexp10Loop fexp 256 ((((-46 - fexp) * 28).tdiv 93 - firstPowerOfTen).tdiv stepPowerOfTen) with
  | .ok i => decide (0 ≤ i) && decide (i < 87) &&
      (match powersOfTen[i.toNat]? with
      | some e => decide (-60 ≤ fexp + e.exp + 64) && decide (fexp + e.exp + 64 ≤ -32)
      | none => false)
  | .error _ => false

theorem search_check : (List.range 2200).all (fun j => searchOk ((j : ℤ) - 1150)) = true := by decide +kernel

theorem search_ok {fexp : ℤ} (h1 : -1150 ≤ fexp) (h2 : fexp < 1050) :
    ∃ i : ℕ, i < 87 ∧ ∃ e, tableAt powersOfTen (i : ℤ) = .ok e ∧ entryOk e (-348 + 8 * (i : ℤ)) = true ∧
      frexp10Loop fexp 256 ((((-46 - fexp) * 28).tdiv 93 - firstPowerOfTen).tdiv stepPowerOfTen) = .ok (i : ℤ) ∧
      -60 ≤ fexp + e.exp + 64 ∧ fexp + e.exp + 64 ≤ -32 := by
  obtain ⟨j, hj⟩ := Int.eq_ofNat_of_zero_le (show 0 ≤ fexp + 1150 by omega)
  have := List.all_eq_true.1 search_check j (List.mem_range.2 (by omega))
  rw [show (j : ℤ) - 1150 = fexp by omega] at this
  unfold searchOk at this
  split at this
  · rename_i i hi
    simp only [Bool.and_eq_true, decide_eq_true_eq] at this
    obtain ⟨⟨g1, g2⟩, g3⟩ := this
    obtain ⟨m, rfl⟩ := Int.eq_ofNat_of_zero_le g1
    have hm : m < 87 := by exact_mod_cast g2
    obtain ⟨e, e1, e2⟩ := powersOfTen_row hm
    rw [Int.toNat_natCast, e1] at g3
    simp only [Bool.and_eq_true, decide_eq_true_eq] at g3
    exact ⟨m, hm, e, tableAt_ok e1, e2, hi, g3.1, g3.2⟩
  · exact absurd this (by decide)

/-- `frexp10` scales by a power of ten; the exponent ends up in the range wanted. -/
theorem frexp10_ok (f : ExtFloat) (h1 : -1150 ≤ f.exp) (h2 : f.exp < 1050) :
    ∃ (i : ℕ) (e : ExtFloat), i < 87 ∧ tableAt powersOfTen (i : ℤ) = .ok e ∧ entryOk e (-348 + 8 * (i : ℤ)) = true ∧
      f.frexp10 = .ok (f.multiply e, 348 - 8 * (i : ℤ), (i : ℤ)) ∧
      -60 ≤ f.exp + e.exp + 64 ∧ f.exp + e.exp + 64 ≤ -32 := by
  obtain ⟨i, hi, e, e1, e2, e3, e4, e5⟩ := search_ok h1 h2
  refine ⟨i, e, hi, e1, e2, ?_, e4, e5⟩
  unfold ExtFloat.frexp10
  simp only [e3, e1, bind, Except.bind, pure, Except.pure]
  congr 3
  unfold firstPowerOfTen stepPowerOfTen
  ring

/-- The exact factor that the entry `e` for `10^k` stands for, as a fraction of 2^64. -/
def tenScale (e : ExtFloat) (k : ℤ) : ℚ := (10 : ℚ) ^ k / (2 : ℚ) ^ e.exp / 2 ^ 64

theorem val_scale (f e : ExtFloat) (k : ℤ) :
    f.val * (10 : ℚ) ^ k = (f.mant.toNat * tenScale e k) * (2 : ℚ) ^ (f.exp + e.exp + 64) := by
  rw [zpow_add₀ (by norm_num), zpow_add₀ (by norm_num), show (64 : ℤ) = ((64 : ℕ) : ℤ) from rfl, zpow_natCast]
  unfold ExtFloat.val tenScale
  field_simp

theorem scale_near {e : ExtFloat} {k : ℤ} (he : entryOk e k = true) : |tenScale e k * 2 ^ 64 - e.mant.toNat| ≤ 1 / 2 := by
  obtain ⟨h1, h2, -⟩ := entryOk_spec he
  have hE : (0 : ℚ) < (2 : ℚ) ^ e.exp := by positivity
  unfold tenScale
  rw [div_mul_cancel₀ _ (by positivity)]
  have : e.val - (10 : ℚ) ^ k = -((10 : ℚ) ^ k / (2 : ℚ) ^ e.exp - e.mant.toNat) * (2 : ℚ) ^ e.exp := by
    unfold ExtFloat.val
    field_simp
    ring
  rw [this, abs_mul, abs_neg, abs_of_pos hE, show (2 : ℚ) ^ e.exp / 2 = 1 / 2 * (2 : ℚ) ^ e.exp by ring] at h2
  exact le_of_mul_le_mul_right h2 hE

theorem scale_pos (e : ExtFloat) (k : ℤ) : 0 < tenScale e k := by unfold tenScale; positivity

theorem scale_bounds {e : ExtFloat} {k : ℤ} (he : entryOk e k = true) : 1 / 2 - 1 / 2 ^ 65 ≤ tenScale e k ∧ tenScale e k < 1 := by
  have h1 := scale_near he
  have hem := e.mant.isLt
  have hem' : (e.mant.toNat : ℚ) + 1 ≤ 2 ^ 64 := by exact_mod_cast hem
  have h1' : (2 : ℚ) ^ 63 ≤ e.mant.toNat := by exact_mod_cast (entryOk_spec he).1
  rw [abs_le] at h1
  obtain ⟨a, b⟩ := h1
  have hP : (2 : ℚ) ^ 63 = 2 ^ 64 / 2 := by norm_num
  have hP2 : (2 : ℚ) ^ 65 = 2 ^ 64 * 2 := by norm_num
  rw [hP] at h1'
  have hP0 : (0 : ℚ) < 2 ^ 64 := by norm_num
  rw [hP2]
  generalize (2 : ℚ) ^ 64 = P at *
  generalize tenScale e k = T at *
  constructor
  · rw [show (1 : ℚ) / 2 - 1 / (P * 2) = (P / 2 - 1 / 2) / P by field_simp, div_le_iff₀ hP0]
    linarith
  · by_contra hc
    nlinarith

/-- One multiplication by a table entry: the error is below one unit. -/
theorem multiply_error (f : ExtFloat) {e : ExtFloat} {k : ℤ} (he : entryOk e k = true) :
    |((f.multiply e).mant.toNat : ℚ) - f.mant.toNat * tenScale e k| < 1 := by
  have hT := scale_near he
  have hfm' : (f.mant.toNat : ℚ) < 2 ^ 64 := by exact_mod_cast f.mant.isLt
  generalize tenScale e k = T at *
  rw [abs_le] at hT
  have ha0 : (0 : ℚ) ≤ f.mant.toNat := Nat.cast_nonneg _
  rw [multiply_mant]
  set p := f.mant.toNat * e.mant.toNat with hp
  have hpq : (p : ℚ) = f.mant.toNat * e.mant.toNat := by rw [hp]; push_cast; rfl
  have d1 : ((p + 2 ^ 63) / 2 ^ 64 : ℕ) * 2 ^ 64 ≤ p + 2 ^ 63 := Nat.div_mul_le_self _ _
  have d2 : p + 2 ^ 63 < ((p + 2 ^ 63) / 2 ^ 64 : ℕ) * 2 ^ 64 + 2 ^ 64 := by omega
  set Q := (p + 2 ^ 63) / 2 ^ 64 with hQ
  have d1' : (Q : ℚ) * 2 ^ 64 ≤ p + 2 ^ 63 := by exact_mod_cast d1
  have d2' : (p : ℚ) + 2 ^ 63 < Q * 2 ^ 64 + 2 ^ 64 := by exact_mod_cast d2
  rw [hpq] at d1' d2'
  generalize (e.mant.toNat : ℚ) = m at *
  generalize (f.mant.toNat : ℚ) = a at *
  have hx2 : a * (T * 2 ^ 64 - m) ≤ a * (1 / 2) := mul_le_mul_of_nonneg_left hT.2 ha0
  have hx3 : a * (-(1 / 2)) ≤ a * (T * 2 ^ 64 - m) := mul_le_mul_of_nonneg_left hT.1 ha0
  have hP : (2 : ℚ) ^ 63 = 2 ^ 64 / 2 := by norm_num
  rw [hP] at d1' d2'
  have hP0 : (0 : ℚ) < 2 ^ 64 := by norm_num
  generalize (2 : ℚ) ^ 64 = P at *
  have e1 : (Q : ℚ) - a * T = (Q * P - a * T * P) / P := by field_simp
  rw [e1, abs_lt]
  constructor
  · rw [lt_div_iff₀ hP0]
    linarith
  · rw [div_lt_iff₀ hP0]
    linarith

end GoFloat.Strconv
