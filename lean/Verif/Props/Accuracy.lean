import Verif.Proofs.Sample
import Verif.Props.Value
/-
Exactly when the accuracy reported by the constructors from big.Float is true (C67 of properties.jsonl).
-/
namespace GoFloat
open Spec

theorem accuracyTrue_num_iff {acc : Accuracy} {s : Bool} {r m : ℚ} :
    AccuracyTrue acc (.num s r) (.num s m) ↔
      match acc with
      | .exact => r = m
      | .below => if s then m < r else r < m
      | .above => if s then r < m else m < r := by
  unfold AccuracyTrue keyLt
  cases acc <;> cases s <;> simp [Datum.key, signed]

theorem accuracyTrue_inf_iff {acc : Accuracy} {s : Bool} {m : ℚ} : AccuracyTrue acc (.inf s) (.num s m) ↔ acc = if s then .below else .above := by
  unfold AccuracyTrue keyLt
  cases acc <;> cases s <;> simp [Datum.key]

theorem not_accuracyTrue_nan {acc : Accuracy} {s : Bool} {d : Datum} : ¬ AccuracyTrue acc (.nan s) d := by
  rintro ⟨a, b, h, -⟩
  cases h

theorem decode_lt {F : Format} (hw : 2 ≤ F.w) {c : ℕ} {s : Bool} {r : ℚ} (h : F.decode c = .num s r) : r < 2 ^ (F.bias + 1) := by
  obtain ⟨n, hn, rfl, -⟩ := F.code_of_decode h
  exact magc_lt_max F hw hn

/-- A truncated number is exact or smaller. -/
theorem floor_scaled_le {m : ℚ} (j : ℤ) : ⌊m * (2 : ℚ) ^ j⌋ * (2 : ℚ) ^ (-j) ≤ m ∧
    (⌊m * (2 : ℚ) ^ j⌋ * (2 : ℚ) ^ (-j) = m ↔ (⌊m * (2 : ℚ) ^ j⌋ : ℚ) = m * (2 : ℚ) ^ j) := by
  have hp : (0 : ℚ) < (2 : ℚ) ^ j := by positivity
  have hl := Int.floor_le (m * (2 : ℚ) ^ j)
  rw [zpow_neg, ← div_eq_mul_inv, div_le_iff₀ hp, div_eq_iff hp.ne']
  exact ⟨hl, Iff.rfl⟩

/-- The smaller numbers of which a power of two is the truncation are inexact, and that power exact. -/
theorem floor_exact_one {m : ℚ} {e : ℤ} {t : ℕ} (h1 : (2 : ℚ) ^ (e - 1) ≤ m) (h2 : m < (2 : ℚ) ^ (e - 1) * (1 + 1 / 2 ^ t)) :
    (⌊m * (2 : ℚ) ^ ((t : ℤ) + 1 - e)⌋ : ℚ) = m * (2 : ℚ) ^ ((t : ℤ) + 1 - e) ↔ m = (2 : ℚ) ^ (e - 1) := by
  have hlt : m < (2 : ℚ) ^ e := by
    refine h2.trans_le ?_
    rw [show e = e - 1 + 1 by ring, zpow_add_one₀ (by norm_num), add_sub_cancel_right]
    have : (1 : ℚ) / 2 ^ t ≤ 1 := by
      rw [div_le_one (by positivity)]
      exact one_le_pow₀ (by norm_num)
    have hp : (0 : ℚ) < (2 : ℚ) ^ (e - 1) := by positivity
    nlinarith
  rw [(floor_one h1 hlt).2 h2]
  have hp : (0 : ℚ) < (2 : ℚ) ^ ((t : ℤ) + 1 - e) := by positivity
  have heq : (2 : ℚ) ^ (e - 1) * (2 : ℚ) ^ ((t : ℤ) + 1 - e) = 2 ^ t := by
    rw [← zpow_add₀ (by norm_num), show e - 1 + ((t : ℤ) + 1 - e) = (t : ℕ) by ring, zpow_natCast]
  push_cast
  rw [← heq]
  constructor
  · intro h
    exact (mul_right_cancel₀ hp.ne' h).symm
  · rintro rfl
    rfl

namespace Binary16

/-- C67: exactly when the accuracy that `binary16.NewFromBig` reports is true, for a number of magnitude `m` in `[2^(e-1), 2^e)`.
Up to 2^-24: the residue of the leading bits is 0 and the number is positive, or neither. For other subnormals: the number is exact. In the normal range: the number is positive or exact.
Beyond the range: only by accident. -/
theorem C67_binary16 (x : BigFloat) (hx : x.WF) {s : Bool} {m : ℚ} {e : ℤ} (hd : x.datum = .num s m)
    (h1 : (2 : ℚ) ^ (e - 1) ≤ m) (h2 : m < (2 : ℚ) ^ e) :
    ∃ f acc, newFromBig x = .ok (f, acc) ∧
      (AccuracyTrue acc (half.decode f.bits.toNat) (.num s m) ↔
        (e ≤ -24 ∧ (⌊m * (2 : ℚ) ^ (20 - e)⌋ % 2 ^ 11 = 0 ↔ s = false)) ∨
        (-24 < e ∧ e ≤ -14 ∧ (⌊m * (2 : ℚ) ^ (24 : ℤ)⌋ : ℚ) = m * (2 : ℚ) ^ (24 : ℤ)) ∨
        (-14 < e ∧ e ≤ 16 ∧ (s = false ∨ (⌊m * (2 : ℚ) ^ (11 - e)⌋ : ℚ) = m * (2 : ℚ) ^ (11 - e))) ∨
        (e = 17 ∧ s = true ∧ (2 : ℚ) ^ (e - 1) < m ∧ m < (2 : ℚ) ^ (e - 1) * (1 + 1 / 2 ^ 10)) ∨
        (18 ≤ e ∧ (e + 14) % 2 ^ 5 ≠ 31 ∧ (s = true ↔ (⌊m * (2 : ℚ) ^ (11 - e)⌋ : ℚ) = m * (2 : ℚ) ^ (11 - e))) ∨
        (18 ≤ e ∧ (e + 14) % 2 ^ 5 = 31 ∧ m < (2 : ℚ) ^ (e - 1) * (1 + 1 / 2 ^ 10) ∧ (s = true ↔ m ≠ (2 : ℚ) ^ (e - 1)))) := by
  obtain ⟨f, acc, hr, a1, a2, a3⟩ := C55_binary16_big x hx hd h1 h2
  obtain ⟨f', acc', hr', v1, v2, v3, v4, v5⟩ := C66_binary16 x hx hd h1 h2
  rw [hr] at hr'
  injection hr' with hr'
  injection hr' with e1 e2
  subst e1 e2
  refine ⟨f, acc, hr, ?_⟩
  have hm0 : 0 < m := lt_of_lt_of_le (by positivity) h1
  have hfin : ∀ s' r, half.decode f.bits.toNat = .num s' r → r < (2 : ℚ) ^ (16 : ℤ) := by
    intro s' r h
    have := decode_lt (by decide) h
    rwa [show half.bias + 1 = 16 by decide] at this
  by_cases c1 : e ≤ -24
  · have hacc : acc = .below := (a1 c1).2
    rw [v1 c1, hacc, accuracyTrue_num_iff]
    have h3 : m < (2 : ℚ) ^ (-24 : ℤ) := h2.trans_le (zpow_le_zpow_right₀ (by norm_num) c1)
    have hp : (0 : ℚ) < (2 : ℚ) ^ (-24 : ℤ) := by positivity
    have hr0 : 0 ≤ ⌊m * (2 : ℚ) ^ (20 - e)⌋ % 2 ^ 11 := Int.emod_nonneg _ (by norm_num)
    generalize ⌊m * (2 : ℚ) ^ (20 - e)⌋ % 2 ^ 11 = R at *
    generalize (2 : ℚ) ^ (-24 : ℤ) = u at *
    have hR : R = 0 ∨ (1 : ℚ) ≤ R := by
      rcases hr0.eq_or_lt with h | h
      · exact Or.inl h.symm
      · exact Or.inr (by exact_mod_cast h)
    have hother : ∀ p : Prop, (e ≤ -24 ∧ p ∨ (-24 < e ∧ e ≤ -14 ∧ (⌊m * (2 : ℚ) ^ (24 : ℤ)⌋ : ℚ) = m * (2 : ℚ) ^ (24 : ℤ)) ∨
        (-14 < e ∧ e ≤ 16 ∧ (s = false ∨ (⌊m * (2 : ℚ) ^ (11 - e)⌋ : ℚ) = m * (2 : ℚ) ^ (11 - e))) ∨
        (e = 17 ∧ s = true ∧ (2 : ℚ) ^ (e - 1) < m ∧ m < (2 : ℚ) ^ (e - 1) * (1 + 1 / 2 ^ 10)) ∨
        (18 ≤ e ∧ (e + 14) % 2 ^ 5 ≠ 31 ∧ (s = true ↔ (⌊m * (2 : ℚ) ^ (11 - e)⌋ : ℚ) = m * (2 : ℚ) ^ (11 - e))) ∨
        (18 ≤ e ∧ (e + 14) % 2 ^ 5 = 31 ∧ m < (2 : ℚ) ^ (e - 1) * (1 + 1 / 2 ^ 10) ∧ (s = true ↔ m ≠ (2 : ℚ) ^ (e - 1)))) ↔ p := by
      intro p
      constructor
      · rintro (h | h | h | h | h | h)
        · exact h.2
        all_goals (exfalso; omega)
      · exact fun h => Or.inl ⟨c1, h⟩
    rw [hother]
    rcases hR with rfl | hR
    · cases s
      · simpa using hm0
      · simpa using hm0.le
    · have hR' : R ≠ 0 := by rintro rfl; norm_num at hR
      have hlt : m < R * u := by nlinarith
      cases s
      · simpa [hR'] using hlt.le
      · simpa [hR'] using hlt
  by_cases c2 : e ≤ -14
  · have hacc : acc = .exact := (a2 (by omega) c2).2
    rw [v2 (by omega) c2, hacc, accuracyTrue_num_iff]
    have hf := (floor_scaled_le (m := m) 24).2
    constructor
    · intro h
      exact Or.inr (Or.inl ⟨by omega, c2, hf.1 h⟩)
    · rintro (h | h | h | h | h | h)
      rotate_left
      · exact hf.2 h.2.2
      all_goals (exfalso; omega)
  have hacc := (a3 (by omega)).2
  by_cases c3 : e ≤ 16
  · obtain ⟨hle, hf⟩ := floor_scaled_le (m := m) (11 - e)
    have he : (e + 14) % 2 ^ 5 - 25 = -(11 - e) := by omega
    rw [v4 (by omega) (by omega) (by omega), he, hacc, if_neg (by omega : ¬ 18 ≤ e), accuracyTrue_num_iff]
    have hother : ((e ≤ -24 ∧ (⌊m * (2 : ℚ) ^ (20 - e)⌋ % 2 ^ 11 = 0 ↔ s = false)) ∨
        (-24 < e ∧ e ≤ -14 ∧ (⌊m * (2 : ℚ) ^ (24 : ℤ)⌋ : ℚ) = m * (2 : ℚ) ^ (24 : ℤ)) ∨
        (-14 < e ∧ e ≤ 16 ∧ (s = false ∨ (⌊m * (2 : ℚ) ^ (11 - e)⌋ : ℚ) = m * (2 : ℚ) ^ (11 - e))) ∨
        (e = 17 ∧ s = true ∧ (2 : ℚ) ^ (e - 1) < m ∧ m < (2 : ℚ) ^ (e - 1) * (1 + 1 / 2 ^ 10)) ∨
        (18 ≤ e ∧ (e + 14) % 2 ^ 5 ≠ 31 ∧ (s = true ↔ (⌊m * (2 : ℚ) ^ (11 - e)⌋ : ℚ) = m * (2 : ℚ) ^ (11 - e))) ∨
        (18 ≤ e ∧ (e + 14) % 2 ^ 5 = 31 ∧ m < (2 : ℚ) ^ (e - 1) * (1 + 1 / 2 ^ 10) ∧ (s = true ↔ m ≠ (2 : ℚ) ^ (e - 1)))) ↔
        (s = false ∨ (⌊m * (2 : ℚ) ^ (11 - e)⌋ : ℚ) = m * (2 : ℚ) ^ (11 - e)) := by
      constructor
      · rintro (h | h | h | h | h | h)
        rotate_left
        rotate_left
        · exact h.2.2
        all_goals (exfalso; omega)
      · exact fun h => Or.inr (Or.inr (Or.inl ⟨by omega, c3, h⟩))
    rw [hother]
    by_cases c : (⌊m * (2 : ℚ) ^ (11 - e)⌋ : ℚ) = m * (2 : ℚ) ^ (11 - e)
    · rw [if_pos c]
      simp only [c, or_true, iff_true]
      have := hf.2 c
      rwa [c] at this
    · rw [if_neg c]
      have hlt := lt_of_le_of_ne hle (fun h => c (hf.1 h))
      cases s
      · simpa using hlt
      · simpa [c] using hle
  have hbig : 17 ≤ e → (2 : ℚ) ^ (16 : ℤ) ≤ m := fun h => le_trans (zpow_le_zpow_right₀ (by norm_num) (by omega)) h1
  by_cases c4 : (e + 14) % 2 ^ 5 = 31
  · have hval := v5 (by omega) c4
    rw [hval]
    have hone := fun h => floor_exact_one (t := 10) h1 h
    rw [show (((10 : ℕ) : ℤ) + 1 - e) = 11 - e by push_cast; ring] at hone
    split_ifs with c5
    · rw [accuracyTrue_inf_iff, hacc]
      simp only [hone c5]
      by_cases c6 : e = 17
      · rw [if_neg (by omega : ¬ 18 ≤ e)]
        constructor
        · intro h
          refine Or.inr (Or.inr (Or.inr (Or.inl ⟨c6, ?_⟩)))
          by_cases c7 : m = (2 : ℚ) ^ (e - 1)
          · rw [if_pos c7] at h
            cases s <;> simp at h
          · rw [if_neg c7] at h
            cases s
            · simp at h
            · exact ⟨rfl, lt_of_le_of_ne h1 (Ne.symm c7), c5⟩
        · rintro (h | h | h | h | h | h)
          all_goals first | (exfalso; omega) | skip
          rw [if_neg h.2.2.1.ne', h.2.1]
          rfl
      · rw [if_pos (by omega : 18 ≤ e)]
        constructor
        · intro h
          refine Or.inr (Or.inr (Or.inr (Or.inr (Or.inr ⟨by omega, c4, c5, ?_⟩))))
          by_cases c7 : m = (2 : ℚ) ^ (e - 1)
          · rw [if_pos c7] at h
            cases s <;> simp [c7] at h ⊢
          · rw [if_neg c7] at h
            cases s <;> simp [c7] at h ⊢
        · rintro (h | h | h | h | h | h)
          all_goals first | (exfalso; omega) | skip
          obtain ⟨-, -, -, h⟩ := h
          by_cases c7 : m = (2 : ℚ) ^ (e - 1)
          · cases s <;> simp [c7] at h ⊢
          · cases s <;> simp [c7] at h ⊢
    · refine iff_of_false not_accuracyTrue_nan ?_
      rintro (h | h | h | h | h | h)
      all_goals first | omega | skip
      · exact c5 h.2.2.2
      · exact c5 h.2.2.1
  · have hnum : ∃ r, half.decode f.bits.toNat = .num s r := by
      by_cases c6 : (e + 14) % 2 ^ 5 = 0
      · exact ⟨_, v3 (by omega) c6⟩
      · exact ⟨_, v4 (by omega) (by omega) (by omega)⟩
    obtain ⟨r, hv⟩ := hnum
    have hlt : r < m := (hfin _ _ hv).trans_le (hbig (by omega))
    rw [hv, accuracyTrue_num_iff, hacc, if_pos (by omega : 18 ≤ e)]
    constructor
    · intro h
      refine Or.inr (Or.inr (Or.inr (Or.inr (Or.inl ⟨by omega, c4, ?_⟩))))
      by_cases c : (⌊m * (2 : ℚ) ^ (11 - e)⌋ : ℚ) = m * (2 : ℚ) ^ (11 - e)
      · rw [if_pos c] at h
        simp only [c, iff_true]
        cases s
        · exact absurd hlt (not_lt.2 (le_of_lt (by simpa using h)))
        · rfl
      · rw [if_neg c] at h
        simp only [c, iff_false]
        cases s
        · simp
        · exact absurd hlt (not_lt.2 (le_of_lt (by simpa using h)))
    · rintro (h | h | h | h | h | h)
      all_goals first | (exfalso; omega) | skip
      obtain ⟨-, -, h⟩ := h
      by_cases c : (⌊m * (2 : ℚ) ^ (11 - e)⌋ : ℚ) = m * (2 : ℚ) ^ (11 - e)
      · rw [if_pos c]
        have hs : s = true := h.2 c
        subst hs
        simpa using hlt
      · rw [if_neg c]
        have hs : s = false := by
          rw [← Bool.not_eq_true]
          exact fun hs => c (h.1 hs)
        subst hs
        simpa using hlt

-- at -11/8, and at a number that is truncated
example := C67_binary16 Sample.x Sample.x_wf Sample.x_datum (e := 1) (by norm_num) (by norm_num)
example := C67_binary16 Sample.y Sample.y_wf Sample.y_datum (e := 1) (by norm_num) (by norm_num)

end Binary16

namespace Binary128

/-- C67: exactly when the accuracy that `binary128.NewFromBig` reports is true, for a number of magnitude `m` in `[2^(e-1), 2^e)`.
Up to 2^-16494: the residue of the leading bits is 0 and the number is positive, or neither. For other subnormals: the number is exact. In the normal range: the number is positive or exact.
Beyond the range: only by accident. -/
theorem C67_binary128 (x : BigFloat) (hx : x.WF) {s : Bool} {m : ℚ} {e : ℤ} (hd : x.datum = .num s m)
    (h1 : (2 : ℚ) ^ (e - 1) ≤ m) (h2 : m < (2 : ℚ) ^ e) :
    ∃ f acc, newFromBig x = .ok (f, acc) ∧
      (AccuracyTrue acc (quad.decode f.code) (.num s m) ↔
        (e ≤ -16494 ∧ (⌊m * (2 : ℚ) ^ (224 - e)⌋ % 2 ^ 112 = 0 ↔ s = false)) ∨
        (-16494 < e ∧ e ≤ -16382 ∧ (⌊m * (2 : ℚ) ^ (16494 : ℤ)⌋ : ℚ) = m * (2 : ℚ) ^ (16494 : ℤ)) ∨
        (-16382 < e ∧ e ≤ 16384 ∧ (s = false ∨ (⌊m * (2 : ℚ) ^ (113 - e)⌋ : ℚ) = m * (2 : ℚ) ^ (113 - e))) ∨
        (e = 16385 ∧ s = true ∧ (2 : ℚ) ^ (e - 1) < m ∧ m < (2 : ℚ) ^ (e - 1) * (1 + 1 / 2 ^ 112)) ∨
        (16386 ≤ e ∧ (e + 16382) % 2 ^ 15 ≠ 32767 ∧ (s = true ↔ (⌊m * (2 : ℚ) ^ (113 - e)⌋ : ℚ) = m * (2 : ℚ) ^ (113 - e))) ∨
        (16386 ≤ e ∧ (e + 16382) % 2 ^ 15 = 32767 ∧ m < (2 : ℚ) ^ (e - 1) * (1 + 1 / 2 ^ 112) ∧ (s = true ↔ m ≠ (2 : ℚ) ^ (e - 1)))) := by
  obtain ⟨f, acc, hr, a1, a2, a3⟩ := C55_binary128_big x hx hd h1 h2
  obtain ⟨f', acc', hr', v1, v2, v3, v4, v5⟩ := C66_binary128 x hx hd h1 h2
  rw [hr] at hr'
  injection hr' with hr'
  injection hr' with e1 e2
  subst e1 e2
  refine ⟨f, acc, hr, ?_⟩
  have hm0 : 0 < m := lt_of_lt_of_le (by positivity) h1
  have hfin : ∀ s' r, quad.decode f.code = .num s' r → r < (2 : ℚ) ^ (16384 : ℤ) := by
    intro s' r h
    have := decode_lt (by decide) h
    rwa [show quad.bias + 1 = 16384 by decide] at this
  by_cases c1 : e ≤ -16494
  · have hacc : acc = .below := (a1 c1).2
    rw [v1 c1, hacc, accuracyTrue_num_iff]
    have h3 : m < (2 : ℚ) ^ (-16494 : ℤ) := h2.trans_le (zpow_le_zpow_right₀ (by norm_num) c1)
    have hp : (0 : ℚ) < (2 : ℚ) ^ (-16494 : ℤ) := by positivity
    have hr0 : 0 ≤ ⌊m * (2 : ℚ) ^ (224 - e)⌋ % 2 ^ 112 := Int.emod_nonneg _ (by norm_num)
    generalize ⌊m * (2 : ℚ) ^ (224 - e)⌋ % 2 ^ 112 = R at *
    generalize (2 : ℚ) ^ (-16494 : ℤ) = u at *
    have hR : R = 0 ∨ (1 : ℚ) ≤ R := by
      rcases hr0.eq_or_lt with h | h
      · exact Or.inl h.symm
      · exact Or.inr (by exact_mod_cast h)
    have hother : ∀ p : Prop, (e ≤ -16494 ∧ p ∨ (-16494 < e ∧ e ≤ -16382 ∧ (⌊m * (2 : ℚ) ^ (16494 : ℤ)⌋ : ℚ) = m * (2 : ℚ) ^ (16494 : ℤ)) ∨
        (-16382 < e ∧ e ≤ 16384 ∧ (s = false ∨ (⌊m * (2 : ℚ) ^ (113 - e)⌋ : ℚ) = m * (2 : ℚ) ^ (113 - e))) ∨
        (e = 16385 ∧ s = true ∧ (2 : ℚ) ^ (e - 1) < m ∧ m < (2 : ℚ) ^ (e - 1) * (1 + 1 / 2 ^ 112)) ∨
        (16386 ≤ e ∧ (e + 16382) % 2 ^ 15 ≠ 32767 ∧ (s = true ↔ (⌊m * (2 : ℚ) ^ (113 - e)⌋ : ℚ) = m * (2 : ℚ) ^ (113 - e))) ∨
        (16386 ≤ e ∧ (e + 16382) % 2 ^ 15 = 32767 ∧ m < (2 : ℚ) ^ (e - 1) * (1 + 1 / 2 ^ 112) ∧ (s = true ↔ m ≠ (2 : ℚ) ^ (e - 1)))) ↔ p := by
      intro p
      constructor
      · rintro (h | h | h | h | h | h)
        · exact h.2
        all_goals (exfalso; omega)
      · exact fun h => Or.inl ⟨c1, h⟩
    rw [hother]
    rcases hR with rfl | hR
    · cases s
      · simpa using hm0
      · simpa using hm0.le
    · have hR' : R ≠ 0 := by rintro rfl; norm_num at hR
      have hlt : m < R * u := by nlinarith
      cases s
      · simpa [hR'] using hlt.le
      · simpa [hR'] using hlt
  by_cases c2 : e ≤ -16382
  · have hacc : acc = .exact := (a2 (by omega) c2).2
    rw [v2 (by omega) c2, hacc, accuracyTrue_num_iff]
    have hf := (floor_scaled_le (m := m) 16494).2
    constructor
    · intro h
      exact Or.inr (Or.inl ⟨by omega, c2, hf.1 h⟩)
    · rintro (h | h | h | h | h | h)
      rotate_left
      · exact hf.2 h.2.2
      all_goals (exfalso; omega)
  have hacc := (a3 (by omega)).2
  by_cases c3 : e ≤ 16384
  · obtain ⟨hle, hf⟩ := floor_scaled_le (m := m) (113 - e)
    have he : (e + 16382) % 2 ^ 15 - 16495 = -(113 - e) := by omega
    rw [v4 (by omega) (by omega) (by omega), he, hacc, if_neg (by omega : ¬ 16386 ≤ e), accuracyTrue_num_iff]
    have hother : ((e ≤ -16494 ∧ (⌊m * (2 : ℚ) ^ (224 - e)⌋ % 2 ^ 112 = 0 ↔ s = false)) ∨
        (-16494 < e ∧ e ≤ -16382 ∧ (⌊m * (2 : ℚ) ^ (16494 : ℤ)⌋ : ℚ) = m * (2 : ℚ) ^ (16494 : ℤ)) ∨
        (-16382 < e ∧ e ≤ 16384 ∧ (s = false ∨ (⌊m * (2 : ℚ) ^ (113 - e)⌋ : ℚ) = m * (2 : ℚ) ^ (113 - e))) ∨
        (e = 16385 ∧ s = true ∧ (2 : ℚ) ^ (e - 1) < m ∧ m < (2 : ℚ) ^ (e - 1) * (1 + 1 / 2 ^ 112)) ∨
        (16386 ≤ e ∧ (e + 16382) % 2 ^ 15 ≠ 32767 ∧ (s = true ↔ (⌊m * (2 : ℚ) ^ (113 - e)⌋ : ℚ) = m * (2 : ℚ) ^ (113 - e))) ∨
        (16386 ≤ e ∧ (e + 16382) % 2 ^ 15 = 32767 ∧ m < (2 : ℚ) ^ (e - 1) * (1 + 1 / 2 ^ 112) ∧ (s = true ↔ m ≠ (2 : ℚ) ^ (e - 1)))) ↔
        (s = false ∨ (⌊m * (2 : ℚ) ^ (113 - e)⌋ : ℚ) = m * (2 : ℚ) ^ (113 - e)) := by
      constructor
      · rintro (h | h | h | h | h | h)
        rotate_left
        rotate_left
        · exact h.2.2
        all_goals (exfalso; omega)
      · exact fun h => Or.inr (Or.inr (Or.inl ⟨by omega, c3, h⟩))
    rw [hother]
    by_cases c : (⌊m * (2 : ℚ) ^ (113 - e)⌋ : ℚ) = m * (2 : ℚ) ^ (113 - e)
    · rw [if_pos c]
      simp only [c, or_true, iff_true]
      have := hf.2 c
      rwa [c] at this
    · rw [if_neg c]
      have hlt := lt_of_le_of_ne hle (fun h => c (hf.1 h))
      cases s
      · simpa using hlt
      · simpa [c] using hle
  have hbig : 16385 ≤ e → (2 : ℚ) ^ (16384 : ℤ) ≤ m := fun h => le_trans (zpow_le_zpow_right₀ (by norm_num) (by omega)) h1
  by_cases c4 : (e + 16382) % 2 ^ 15 = 32767
  · have hval := v5 (by omega) c4
    rw [hval]
    have hone := fun h => floor_exact_one (t := 112) h1 h
    rw [show (((112 : ℕ) : ℤ) + 1 - e) = 113 - e by push_cast; ring] at hone
    split_ifs with c5
    · rw [accuracyTrue_inf_iff, hacc]
      simp only [hone c5]
      by_cases c6 : e = 16385
      · rw [if_neg (by omega : ¬ 16386 ≤ e)]
        constructor
        · intro h
          refine Or.inr (Or.inr (Or.inr (Or.inl ⟨c6, ?_⟩)))
          by_cases c7 : m = (2 : ℚ) ^ (e - 1)
          · rw [if_pos c7] at h
            cases s <;> simp at h
          · rw [if_neg c7] at h
            cases s
            · simp at h
            · exact ⟨rfl, lt_of_le_of_ne h1 (Ne.symm c7), c5⟩
        · rintro (h | h | h | h | h | h)
          all_goals first | (exfalso; omega) | skip
          rw [if_neg h.2.2.1.ne', h.2.1]
          rfl
      · rw [if_pos (by omega : 16386 ≤ e)]
        constructor
        · intro h
          refine Or.inr (Or.inr (Or.inr (Or.inr (Or.inr ⟨by omega, c4, c5, ?_⟩))))
          by_cases c7 : m = (2 : ℚ) ^ (e - 1)
          · rw [if_pos c7] at h
            cases s <;> simp [c7] at h ⊢
          · rw [if_neg c7] at h
            cases s <;> simp [c7] at h ⊢
        · rintro (h | h | h | h | h | h)
          all_goals first | (exfalso; omega) | skip
          obtain ⟨-, -, -, h⟩ := h
          by_cases c7 : m = (2 : ℚ) ^ (e - 1)
          · cases s <;> simp [c7] at h ⊢
          · cases s <;> simp [c7] at h ⊢
    · refine iff_of_false not_accuracyTrue_nan ?_
      rintro (h | h | h | h | h | h)
      all_goals first | omega | skip
      · exact c5 h.2.2.2
      · exact c5 h.2.2.1
  · have hnum : ∃ r, quad.decode f.code = .num s r := by
      by_cases c6 : (e + 16382) % 2 ^ 15 = 0
      · exact ⟨_, v3 (by omega) c6⟩
      · exact ⟨_, v4 (by omega) (by omega) (by omega)⟩
    obtain ⟨r, hv⟩ := hnum
    have hlt : r < m := (hfin _ _ hv).trans_le (hbig (by omega))
    rw [hv, accuracyTrue_num_iff, hacc, if_pos (by omega : 16386 ≤ e)]
    constructor
    · intro h
      refine Or.inr (Or.inr (Or.inr (Or.inr (Or.inl ⟨by omega, c4, ?_⟩))))
      by_cases c : (⌊m * (2 : ℚ) ^ (113 - e)⌋ : ℚ) = m * (2 : ℚ) ^ (113 - e)
      · rw [if_pos c] at h
        simp only [c, iff_true]
        cases s
        · exact absurd hlt (not_lt.2 (le_of_lt (by simpa using h)))
        · rfl
      · rw [if_neg c] at h
        simp only [c, iff_false]
        cases s
        · simp
        · exact absurd hlt (not_lt.2 (le_of_lt (by simpa using h)))
    · rintro (h | h | h | h | h | h)
      all_goals first | (exfalso; omega) | skip
      obtain ⟨-, -, h⟩ := h
      by_cases c : (⌊m * (2 : ℚ) ^ (113 - e)⌋ : ℚ) = m * (2 : ℚ) ^ (113 - e)
      · rw [if_pos c]
        have hs : s = true := h.2 c
        subst hs
        simpa using hlt
      · rw [if_neg c]
        have hs : s = false := by
          rw [← Bool.not_eq_true]
          exact fun hs => c (h.1 hs)
        subst hs
        simpa using hlt

-- at -11/8, and at a number that is rounded
example := C67_binary128 Sample.x Sample.x_wf Sample.x_datum (e := 1) (by norm_num) (by norm_num)
example := C67_binary128 Sample.y Sample.y_wf Sample.y_datum (e := 1) (by norm_num) (by norm_num)

end Binary128

namespace Float80x86

/-- C67: exactly when the accuracy that `float80x86.NewFromBig` reports is true, for a number of magnitude `m` in `[2^(e-1), 2^e)`.
Up to 2^-16445: the number is negative. For other subnormals: the number is exact. In the normal range: the number is positive or exact.
Beyond the range: only by accident. -/
theorem C67_float80x86 (x : BigFloat) (hx : x.WF) {s : Bool} {m : ℚ} {e : ℤ} (hd : x.datum = .num s m)
    (h1 : (2 : ℚ) ^ (e - 1) ≤ m) (h2 : m < (2 : ℚ) ^ e) :
    ∃ f acc, newFromBig x = .ok (f, acc) ∧
      (AccuracyTrue acc (decode80 f.se.toNat f.m.toNat) (.num s m) ↔
        (e ≤ -16445 ∧ s = true) ∨
        (-16445 < e ∧ e ≤ -16382 ∧ (⌊m * (2 : ℚ) ^ (16445 : ℤ)⌋ : ℚ) = m * (2 : ℚ) ^ (16445 : ℤ)) ∨
        (-16382 < e ∧ e ≤ 16384 ∧ (s = false ∨ (⌊m * (2 : ℚ) ^ (64 - e)⌋ : ℚ) = m * (2 : ℚ) ^ (64 - e))) ∨
        (e = 16385 ∧ s = true ∧ (2 : ℚ) ^ (e - 1) < m ∧ m < (2 : ℚ) ^ (e - 1) * (1 + 1 / 2 ^ 63)) ∨
        (16386 ≤ e ∧ (e + 16382) % 2 ^ 15 ≠ 32767 ∧ (s = true ↔ (⌊m * (2 : ℚ) ^ (64 - e)⌋ : ℚ) = m * (2 : ℚ) ^ (64 - e))) ∨
        (16386 ≤ e ∧ (e + 16382) % 2 ^ 15 = 32767 ∧ m < (2 : ℚ) ^ (e - 1) * (1 + 1 / 2 ^ 63) ∧ (s = true ↔ m ≠ (2 : ℚ) ^ (e - 1)))) := by
  obtain ⟨f, acc, hr, a1, a2, a3⟩ := C55_float80x86_big x hx hd h1 h2
  obtain ⟨f', acc', hr', v1, v2, v3, v4⟩ := C66_float80x86 x hx hd h1 h2
  rw [hr] at hr'
  injection hr' with hr'
  injection hr' with e1 e2
  subst e1 e2
  refine ⟨f, acc, hr, ?_⟩
  have hm0 : 0 < m := lt_of_lt_of_le (by positivity) h1
  have hfin : ∀ s' r, decode80 f.se.toNat f.m.toNat = .num s' r → r < (2 : ℚ) ^ (16384 : ℤ) := by
    intro s' r h
    unfold decode80 at h
    simp only at h
    split_ifs at h with c1 c2
    injection h with _ h
    rw [← h]
    have hm : (f.m.toNat : ℚ) < 2 ^ 64 := by exact_mod_cast f.m.isLt
    have hE : f.se.toNat % 2 ^ 15 < 2 ^ 15 := Nat.mod_lt _ (by norm_num)
    have hx : ((max (f.se.toNat % 2 ^ 15) 1 : ℕ) : ℤ) - 16383 - 63 ≤ 16320 := by
      rw [show 2 ^ 15 - 1 = 32767 from rfl] at c1
      rw [show (2 : ℕ) ^ 15 = 32768 from rfl] at *
      omega
    calc (f.m.toNat : ℚ) * (2 : ℚ) ^ (((max (f.se.toNat % 2 ^ 15) 1 : ℕ) : ℤ) - 16383 - 63) < 2 ^ 64 * (2 : ℚ) ^ (((max (f.se.toNat % 2 ^ 15) 1 : ℕ) : ℤ) - 16383 - 63) := by
          gcongr
      _ ≤ 2 ^ 64 * (2 : ℚ) ^ (16320 : ℤ) := by
          gcongr
          norm_num
      _ = (2 : ℚ) ^ (16384 : ℤ) := by
          rw [← zpow_natCast, ← zpow_add₀ (by norm_num)]
          norm_num only
  by_cases c1 : e ≤ -16445
  · have hacc : acc = .below := (a1 c1).2.2
    rw [v1 c1, hacc, accuracyTrue_num_iff]
    have hlt : m < (2 ^ 63 - 1) * (2 : ℚ) ^ (-16445 : ℤ) := by
      have h3 : (2 : ℚ) ^ e ≤ (2 : ℚ) ^ (-16445 : ℤ) := zpow_le_zpow_right₀ (by norm_num) c1
      have hp : (0 : ℚ) < (2 : ℚ) ^ (-16445 : ℤ) := by positivity
      generalize (2 : ℚ) ^ (-16445 : ℤ) = u at *
      nlinarith
    cases s
    · simp only [Bool.false_eq_true, if_false]
      constructor
      · intro h
        exact absurd hlt (not_lt.2 h.le)
      · intro h
        exfalso
        rcases h with h | h | h | h | h | h
        · exact h.2
        all_goals omega
    · simp only [if_true]
      exact ⟨fun _ => Or.inl ⟨c1, trivial⟩, fun _ => hlt⟩
  by_cases c2 : e ≤ -16382
  · have hacc : acc = .exact := (a2 (by omega) c2).2.2
    rw [v2 (by omega) c2, hacc, accuracyTrue_num_iff]
    have hf := (floor_scaled_le (m := m) 16445).2
    constructor
    · intro h
      exact Or.inr (Or.inl ⟨by omega, c2, hf.1 h⟩)
    · rintro (h | h | h | h | h | h)
      rotate_left
      · exact hf.2 h.2.2
      all_goals (exfalso; omega)
  have hacc := (a3 (by omega)).2.2
  by_cases c3 : e ≤ 16384
  · obtain ⟨hle, hf⟩ := floor_scaled_le (m := m) (64 - e)
    have he : max ((e + 16382) % 2 ^ 15) 1 - 16446 = -(64 - e) := by omega
    rw [v3 (by omega) (by omega), he, hacc, if_neg (by omega : ¬ 16386 ≤ e), accuracyTrue_num_iff]
    have hother : ((e ≤ -16445 ∧ s = true) ∨
        (-16445 < e ∧ e ≤ -16382 ∧ (⌊m * (2 : ℚ) ^ (16445 : ℤ)⌋ : ℚ) = m * (2 : ℚ) ^ (16445 : ℤ)) ∨
        (-16382 < e ∧ e ≤ 16384 ∧ (s = false ∨ (⌊m * (2 : ℚ) ^ (64 - e)⌋ : ℚ) = m * (2 : ℚ) ^ (64 - e))) ∨
        (e = 16385 ∧ s = true ∧ (2 : ℚ) ^ (e - 1) < m ∧ m < (2 : ℚ) ^ (e - 1) * (1 + 1 / 2 ^ 63)) ∨
        (16386 ≤ e ∧ (e + 16382) % 2 ^ 15 ≠ 32767 ∧ (s = true ↔ (⌊m * (2 : ℚ) ^ (64 - e)⌋ : ℚ) = m * (2 : ℚ) ^ (64 - e))) ∨
        (16386 ≤ e ∧ (e + 16382) % 2 ^ 15 = 32767 ∧ m < (2 : ℚ) ^ (e - 1) * (1 + 1 / 2 ^ 63) ∧ (s = true ↔ m ≠ (2 : ℚ) ^ (e - 1)))) ↔
        (s = false ∨ (⌊m * (2 : ℚ) ^ (64 - e)⌋ : ℚ) = m * (2 : ℚ) ^ (64 - e)) := by
      constructor
      · rintro (h | h | h | h | h | h)
        rotate_left
        rotate_left
        · exact h.2.2
        all_goals (exfalso; omega)
      · exact fun h => Or.inr (Or.inr (Or.inl ⟨by omega, c3, h⟩))
    rw [hother]
    by_cases c : (⌊m * (2 : ℚ) ^ (64 - e)⌋ : ℚ) = m * (2 : ℚ) ^ (64 - e)
    · rw [if_pos c]
      simp only [c, or_true, iff_true]
      have := hf.2 c
      rwa [c] at this
    · rw [if_neg c]
      have hlt := lt_of_le_of_ne hle (fun h => c (hf.1 h))
      cases s
      · simpa using hlt
      · simpa [c] using hle
  have hbig : 16385 ≤ e → (2 : ℚ) ^ (16384 : ℤ) ≤ m := fun h => le_trans (zpow_le_zpow_right₀ (by norm_num) (by omega)) h1
  by_cases c4 : (e + 16382) % 2 ^ 15 = 32767
  · have hval := v4 (by omega) c4
    rw [hval]
    have hone := fun h => floor_exact_one (t := 63) h1 h
    rw [show (((63 : ℕ) : ℤ) + 1 - e) = 64 - e by push_cast; ring] at hone
    split_ifs with c5
    · rw [accuracyTrue_inf_iff, hacc]
      simp only [hone c5]
      by_cases c6 : e = 16385
      · rw [if_neg (by omega : ¬ 16386 ≤ e)]
        constructor
        · intro h
          refine Or.inr (Or.inr (Or.inr (Or.inl ⟨c6, ?_⟩)))
          by_cases c7 : m = (2 : ℚ) ^ (e - 1)
          · rw [if_pos c7] at h
            cases s <;> simp at h
          · rw [if_neg c7] at h
            cases s
            · simp at h
            · exact ⟨rfl, lt_of_le_of_ne h1 (Ne.symm c7), c5⟩
        · rintro (h | h | h | h | h | h)
          all_goals first | (exfalso; omega) | skip
          rw [if_neg h.2.2.1.ne', h.2.1]
          rfl
      · rw [if_pos (by omega : 16386 ≤ e)]
        constructor
        · intro h
          refine Or.inr (Or.inr (Or.inr (Or.inr (Or.inr ⟨by omega, c4, c5, ?_⟩))))
          by_cases c7 : m = (2 : ℚ) ^ (e - 1)
          · rw [if_pos c7] at h
            cases s <;> simp [c7] at h ⊢
          · rw [if_neg c7] at h
            cases s <;> simp [c7] at h ⊢
        · rintro (h | h | h | h | h | h)
          all_goals first | (exfalso; omega) | skip
          obtain ⟨-, -, -, h⟩ := h
          by_cases c7 : m = (2 : ℚ) ^ (e - 1)
          · cases s <;> simp [c7] at h ⊢
          · cases s <;> simp [c7] at h ⊢
    · refine iff_of_false not_accuracyTrue_nan ?_
      rintro (h | h | h | h | h | h)
      all_goals first | omega | skip
      · exact c5 h.2.2.2
      · exact c5 h.2.2.1
  · have hnum : ∃ r, decode80 f.se.toNat f.m.toNat = .num s r := by
      exact ⟨_, v3 (by omega) (by omega)⟩
    obtain ⟨r, hv⟩ := hnum
    have hlt : r < m := (hfin _ _ hv).trans_le (hbig (by omega))
    rw [hv, accuracyTrue_num_iff, hacc, if_pos (by omega : 16386 ≤ e)]
    constructor
    · intro h
      refine Or.inr (Or.inr (Or.inr (Or.inr (Or.inl ⟨by omega, c4, ?_⟩))))
      by_cases c : (⌊m * (2 : ℚ) ^ (64 - e)⌋ : ℚ) = m * (2 : ℚ) ^ (64 - e)
      · rw [if_pos c] at h
        simp only [c, iff_true]
        cases s
        · exact absurd hlt (not_lt.2 (le_of_lt (by simpa using h)))
        · rfl
      · rw [if_neg c] at h
        simp only [c, iff_false]
        cases s
        · simp
        · exact absurd hlt (not_lt.2 (le_of_lt (by simpa using h)))
    · rintro (h | h | h | h | h | h)
      all_goals first | (exfalso; omega) | skip
      obtain ⟨-, -, h⟩ := h
      by_cases c : (⌊m * (2 : ℚ) ^ (64 - e)⌋ : ℚ) = m * (2 : ℚ) ^ (64 - e)
      · rw [if_pos c]
        have hs : s = true := h.2 c
        subst hs
        simpa using hlt
      · rw [if_neg c]
        have hs : s = false := by
          rw [← Bool.not_eq_true]
          exact fun hs => c (h.1 hs)
        subst hs
        simpa using hlt

end Float80x86

-- concrete cases: -(1 + 2^-11) is reported Below although the result is above it, and 1 + 2^-11 truly
example : Binary16.negInexact.datum = .num true (2049 / 2048) := by
  rw [BigFloat.datum_lit 12 rfl (by decide)]; norm_num [Binary16.negInexact]
example : Binary16.newFromBig Binary16.negInexact = .ok (⟨0xBC00⟩, .below) := by decide +kernel
example : ¬ ((⌊(2049 / 2048 : ℚ) * (2 : ℚ) ^ ((11 : ℤ) - 1)⌋ : ℚ) = 2049 / 2048 * (2 : ℚ) ^ ((11 : ℤ) - 1)) := by norm_num
-- -(2^16 + 32) is reported Below, which is true of -Inf
example : Binary16.newFromBig ⟨53, .toNearestEven, .exact, .finite, true, 65568, 17⟩ = .ok (⟨0xFC00⟩, .below) := by decide +kernel
example : (2 : ℚ) ^ ((17 : ℤ) - 1) < 65568 ∧ (65568 : ℚ) < (2 : ℚ) ^ ((17 : ℤ) - 1) * (1 + 1 / 2 ^ 10) := by norm_num

namespace Binary16

theorem bits_integral {r : ℚ} {k e' e : ℤ} (hk : |k| < 2 ^ 11) (hr : r = k * (2 : ℚ) ^ e') (h1 : (2 : ℚ) ^ (e - 1) ≤ r) :
    (⌊r * (2 : ℚ) ^ (11 - e)⌋ : ℚ) = r * (2 : ℚ) ^ (11 - e) := by
  have hkq : (k : ℚ) < 2 ^ 11 := by
    have := (abs_lt.1 hk).2
    exact_mod_cast this
  have hlt : (2 : ℚ) ^ (e - 1) < (2 : ℚ) ^ (11 + e') := by
    rw [zpow_add₀ (by norm_num)]
    refine h1.trans_lt ?_
    rw [hr]
    have : (0 : ℚ) < (2 : ℚ) ^ e' := by positivity
    gcongr
    exact_mod_cast hkq
  have he := (zpow_lt_zpow_iff_right₀ (by norm_num : (1 : ℚ) < 2)).1 hlt
  obtain ⟨d, hd⟩ : ∃ d : ℕ, e' + (11 - e) = d := ⟨(e' + (11 - e)).toNat, by omega⟩
  have : r * (2 : ℚ) ^ (11 - e) = ((k * 2 ^ d : ℤ) : ℚ) := by
    rw [hr, mul_assoc, ← zpow_add₀ (by norm_num), hd, zpow_natCast]
    push_cast
    rfl
  rw [this, Int.floor_intCast]

/-- C67: the accuracy that `binary16.NewFromFloat64` reports depends on the size of the number only: it is Exact for every number
of the range, whether or not it is exact. -/
theorem C67_binary16_float64 (x : F64) {s : Bool} {m : ℚ} (hd : double.decode x.toNat = .num s m) :
    ∃ f acc, newFromFloat64 x = .ok (f, acc) ∧
      acc = if m = 0 then .exact else if m < (2 : ℚ) ^ (-24 : ℤ) * (1 - 1 / 2 ^ 12) then .below
        else if m < (2 : ℚ) ^ (17 : ℤ) * (1 - 1 / 2 ^ 12) then .exact else .above := by
  by_cases hm : m = 0
  · obtain ⟨f, h1, h2⟩ := C07_float64_partial x hd ⟨half.signPart s + 0, by rw [half.decode_code s (by decide), hm]; simp [Format.magc]⟩
    exact ⟨f, _, h1, by rw [if_pos hm]⟩
  have hpos : 0 < m := lt_of_le_of_ne (by
    obtain ⟨n, -, rfl, -⟩ := double.code_of_decode hd
    exact double.magc_nonneg n) (Ne.symm hm)
  obtain ⟨z, r, hr, hz, hzd, hrb⟩ := C55_binary16_float64 x hd hm
  have hrb := roundsToBits_mag hrb
  obtain ⟨k, e', hk, hrk⟩ := hrb.1
  have hrp : 0 < r := by
    obtain ⟨i, hi, -⟩ := exists_mem_Ico_zpow hpos (by norm_num : (1 : ℚ) < 2)
    have hp : (0 : ℚ) < (2 : ℚ) ^ i := by positivity
    exact hp.trans_le ((rounds_reaches hrb i).2 (by nlinarith))
  obtain ⟨i, hi1, hi2⟩ := exists_mem_Ico_zpow hrp (by norm_num : (1 : ℚ) < 2)
  have hi1' : (2 : ℚ) ^ (i + 1 - 1) ≤ r := by rwa [add_sub_cancel_right]
  obtain ⟨f, acc, h1, a1, a2, a3⟩ := C55_binary16_big z hz hzd hi1' hi2
  refine ⟨f, acc, hr.trans h1, ?_⟩
  rw [if_neg hm]
  have hfl := bits_integral (e := i + 1) hk hrk hi1'
  have hlow : m < (2 : ℚ) ^ (-24 : ℤ) * (1 - 1 / 2 ^ 12) ↔ r < (2 : ℚ) ^ (-24 : ℤ) := by
    rw [← not_le, ← rounds_reaches hrb, not_le]
  have hhigh : m < (2 : ℚ) ^ (17 : ℤ) * (1 - 1 / 2 ^ 12) ↔ r < (2 : ℚ) ^ (17 : ℤ) := by
    rw [← not_le, ← rounds_reaches hrb, not_le]
  simp only [hlow, hhigh]
  have two : (1 : ℚ) < 2 := by norm_num
  by_cases c1 : i + 1 ≤ -24
  · rw [(a1 c1).2, if_pos]
    exact hi2.trans_le (zpow_le_zpow_right₀ two.le c1)
  · rw [if_neg (not_lt.2 (le_trans (zpow_le_zpow_right₀ two.le (by omega)) hi1))]
    by_cases c2 : i + 1 ≤ -14
    · rw [(a2 (by omega) c2).2, if_pos (hi2.trans_le (zpow_le_zpow_right₀ two.le (by omega)))]
    · rw [(a3 (by omega)).2, if_pos hfl]
      by_cases c3 : 18 ≤ i + 1
      · rw [if_pos c3, if_neg (not_lt.2 (le_trans (zpow_le_zpow_right₀ two.le (by omega)) hi1))]
      · rw [if_neg c3, if_pos (hi2.trans_le (zpow_le_zpow_right₀ two.le (by omega)))]

example := C67_binary16_float64 0xBFF6000000000000 Sample.x_double

/-- C67: so, for a number of the range, the accuracy of `NewFromFloat64` is true only if the result is the number. -/
theorem C67_binary16_float64_true (x : F64) {s : Bool} {m : ℚ} (hd : double.decode x.toNat = .num s m)
    (h1 : (2 : ℚ) ^ (-24 : ℤ) ≤ m) (h2 : m < 65520) :
    ∃ f acc, newFromFloat64 x = .ok (f, acc) ∧ (AccuracyTrue acc (half.decode f.bits.toNat) (.num s m) ↔ half.Representable s m) := by
  obtain ⟨f, acc, hr, ha⟩ := C67_binary16_float64 x hd
  refine ⟨f, acc, hr, ?_⟩
  have hp : (0 : ℚ) < (2 : ℚ) ^ (-24 : ℤ) := by positivity
  rw [if_neg (by linarith), if_neg (not_lt.2 (by norm_num at h1 ⊢; linarith)), if_pos (by norm_num; linarith)] at ha
  constructor
  · intro h
    rw [ha] at h
    obtain ⟨a, b, e1, e2, e3⟩ := h
    cases hf : half.decode f.bits.toNat with
    | nan s' => rw [hf] at e1; cases e1
    | inf s' =>
      rw [hf] at e1
      cases e1
      cases e2
      cases s' <;> simp at e3
    | num s' r =>
      rw [hf] at e1
      cases e1
      cases e2
      have hsm : signed s' r = signed s m := by
        injection e3
      have hr0 : 0 ≤ r := by
        obtain ⟨n, -, rfl, -⟩ := half.code_of_decode hf
        exact half.magc_nonneg n
      have : s' = s ∧ r = m := by
        unfold signed at hsm
        cases s' <;> cases s <;> simp at hsm ⊢ <;> linarith
      exact ⟨_, by rw [hf, this.1, this.2]⟩
  · intro h
    obtain ⟨f', h3, h4⟩ := C07_float64_partial x hd h
    rw [hr] at h3
    injection h3 with h3
    injection h3 with h5 h6
    subst h5
    rw [h4, h6]
    exact accuracyTrue_num_iff.2 rfl

-- 1/3 is reported Exact, 2^17 Above and 2^-25 Below
example : newFromFloat64 0x3FD5555555555555 = .ok (⟨0x3555⟩, .exact) := by decide +kernel
example : newFromFloat64 0x4100000000000000 = .ok (⟨0x0000⟩, .above) := by decide +kernel
example : (newFromFloat64 0x3E60000000000000).map Prod.snd = .ok .below := by decide +kernel
example : double.decode (0x3E60000000000000 : F64).toNat = .num false (2 ^ (-25 : ℤ)) := by
  simp [Format.decode, double, Format.bias]

end Binary16

end GoFloat
