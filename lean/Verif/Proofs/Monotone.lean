import Verif.Spec.Order
import Verif.Spec.Bits
import Verif.Proofs.Float128ppc
/-
Rounding is monotone.
-/
namespace GoFloat
open Spec

theorem signed_nonneg_iff {s : Bool} {m : ℚ} (hm : 0 ≤ m) : 0 ≤ signed s m ↔ s = false ∨ m = 0 := by
  unfold signed
  cases s
  · simp [hm]
  · simp; constructor
    · intro h; exact le_antisymm h hm
    · intro h; rw [h]

theorem le_num {s s' : Bool} {m m' : ℚ} : Datum.Le (.num s m) (.num s' m') ↔ signed s m ≤ signed s' m' := by
  unfold Datum.Le Datum.key keyLt
  simp

theorem negInf_le {b : Datum} (h : ∀ s, b ≠ .nan s) : Datum.Le (.inf true) b := by
  unfold Datum.Le Datum.key keyLt
  cases b with
  | nan s => exact absurd rfl (h s)
  | inf s => cases s <;> simp
  | num s m => simp

theorem le_inf {b : Datum} (h : ∀ s, b ≠ .nan s) : Datum.Le b (.inf false) := by
  unfold Datum.Le Datum.key keyLt
  cases b with
  | nan s => exact absurd rfl (h s)
  | inf s => cases s <;> simp
  | num s m => simp

theorem not_le_negInf {s : Bool} {m : ℚ} : ¬ Datum.Le (.num s m) (.inf true) := by
  unfold Datum.Le Datum.key keyLt; simp

theorem not_inf_le {s : Bool} {m : ℚ} : ¬ Datum.Le (.inf false) (.num s m) := by
  unfold Datum.Le Datum.key keyLt; simp

theorem not_inf_le_negInf : ¬ Datum.Le (.inf false) (.inf true) := by
  unfold Datum.Le Datum.key keyLt; simp

theorem Datum.Le.left {a b : Datum} (h : Datum.Le a b) : ∀ s, a ≠ .nan s := by
  rintro s rfl; obtain ⟨p, q, h1, -⟩ := h; simp [Datum.key] at h1

theorem Datum.Le.right {a b : Datum} (h : Datum.Le a b) : ∀ s, b ≠ .nan s := by
  rintro s rfl; obtain ⟨p, q, -, h1, -⟩ := h; simp [Datum.key] at h1

/-- A number below another is not rounded to something nearer to the other than what that one is rounded to. -/
theorem nearest_mono {x y r r' : ℚ} (h : x < y) (h1 : |x - r| ≤ |x - r'|) (h2 : |y - r'| ≤ |y - r|) : r ≤ r' := by
  by_contra hc
  push Not at hc
  rcases abs_cases (x - r) with ⟨a1, a2⟩ | ⟨a1, a2⟩ <;> rcases abs_cases (x - r') with ⟨b1, b2⟩ | ⟨b1, b2⟩ <;>
    rcases abs_cases (y - r) with ⟨c1, c2⟩ | ⟨c1, c2⟩ <;> rcases abs_cases (y - r') with ⟨d1, d2⟩ | ⟨d1, d2⟩ <;> linarith

theorem roundsTo_not_nan {F : Format} {s : Bool} {m : ℚ} {c : ℕ} (h : F.RoundsTo s m c) : ∀ s', F.decode c ≠ .nan s' := by
  unfold Format.RoundsTo at h
  split at h
  · rw [h]; simp
  · obtain ⟨r, h, -⟩ := h; rw [h]; simp

/-- Correct rounding is monotone. -/
theorem roundsTo_mono {F : Format} (ht : 1 ≤ F.t + F.w) {s s' : Bool} {m m' : ℚ} {c c' : ℕ} (hm : 0 ≤ m) (hm' : 0 ≤ m')
    (h : F.RoundsTo s m c) (h' : F.RoundsTo s' m' c') (hle : signed s m ≤ signed s' m') : Datum.Le (F.decode c) (F.decode c') := by
  have hn := roundsTo_not_nan h
  have hn' := roundsTo_not_nan h'
  have hov := overflowAt_pos F
  by_cases hs : s = true ∧ F.overflowAt ≤ m
  · have : F.decode c = .inf true := by
      unfold Format.RoundsTo at h; rw [if_pos hs.2, hs.1] at h; exact h
    rw [this]; exact negInf_le hn'
  by_cases hs' : s' = false ∧ F.overflowAt ≤ m'
  · have : F.decode c' = .inf false := by
      unfold Format.RoundsTo at h'; rw [if_pos hs'.2, hs'.1] at h'; exact h'
    rw [this]; exact le_inf hn
  have o1 : ¬ F.overflowAt ≤ m := by
    intro ho
    cases s
    · cases s'
      · exact hs' ⟨rfl, le_trans ho (by simpa [signed] using hle)⟩
      · simp [signed] at hle; linarith
    · exact hs ⟨rfl, ho⟩
  have o2 : ¬ F.overflowAt ≤ m' := by
    intro ho
    cases s'
    · exact hs' ⟨rfl, ho⟩
    · cases s
      · simp [signed] at hle; linarith
      · exact o1 (le_trans ho (by simpa [signed] using hle))
  have hh := h
  have hh' := h'
  unfold Format.RoundsTo at h h'
  rw [if_neg o1] at h
  rw [if_neg o2] at h'
  obtain ⟨r, d, n, -⟩ := h
  obtain ⟨r', d', n', -⟩ := h'
  rcases hle.lt_or_eq with hlt | heq
  · rw [d, d', le_num]
    exact nearest_mono hlt (n _ _ _ d') (n' _ _ _ d)
  · by_cases h0 : m = 0
    · have h0' : m' = 0 := by
        rw [h0] at heq; unfold signed at heq
        cases s <;> cases s' <;> simp at heq <;> linarith
      obtain ⟨z, z1⟩ : ∃ z, F.decode z = .num s 0 := by
        obtain ⟨k, hk, hkr, -⟩ := F.code_of_decode d
        refine ⟨F.signPart s + 0, ?_⟩
        rw [F.decode_code s (n := 0) (by omega)]
        unfold Format.magc; simp
      have e1 := n _ _ _ z1
      have e2 := n' _ _ _ z1
      rw [d, d', le_num]
      have z0 : ∀ t : Bool, signed t 0 = 0 := by intro t; unfold signed; cases t <;> simp
      simp only [h0, z0, sub_self, abs_zero, zero_sub, abs_neg, abs_nonpos_iff] at e1
      simp only [h0', z0, sub_self, abs_zero, zero_sub, abs_neg, abs_nonpos_iff] at e2
      rw [e1, e2]
    · have hss : s = s' ∧ m = m' := by
        have : 0 < m := lt_of_le_of_ne hm (Ne.symm h0)
        unfold signed at heq
        cases s <;> cases s' <;> simp at heq
        · exact ⟨rfl, heq⟩
        · linarith
        · linarith
        · exact ⟨rfl, heq⟩
      obtain ⟨rfl, rfl⟩ := hss
      rw [← Float128ppc.RoundsTo.unique ht hh hh', d, le_num]

/-- Rounding to a number of bits is monotone. -/
theorem roundsToBits_mono {p : ℕ} {x y r r' : ℚ} (h : RoundsToBits p x r) (h' : RoundsToBits p y r') (hlt : x < y) : r ≤ r' := by
  obtain ⟨⟨k, e, hk, rfl⟩, h2, -⟩ := h
  obtain ⟨⟨k', e', hk', rfl⟩, h2', -⟩ := h'
  exact nearest_mono hlt (h2 _ _ hk') (h2' _ _ hk)

/-- A function of the magnitude that is monotone and keeps zero is monotone. -/
theorem signed_mono {s s' : Bool} {m m' r r' : ℚ} (hm : 0 ≤ m) (hm' : 0 ≤ m') (hr : 0 ≤ r) (hr' : 0 ≤ r')
    (h : signed s m ≤ signed s' m') (h1 : m ≤ m' → r ≤ r') (h2 : m' ≤ m → r' ≤ r) (h3 : m = 0 → r = 0) (h4 : m' = 0 → r' = 0) :
    signed s r ≤ signed s' r' := by
  unfold signed at *
  cases s <;> cases s' <;> simp at h ⊢
  · exact h1 h
  · rw [h3 (by linarith), h4 (by linarith)]; simp
  · linarith
  · exact h2 h

end GoFloat
