import Verif.Spec.Place
import Verif.Proofs.Widen
/-
The numbers of a format in the order of their bit patterns.
-/
namespace GoFloat
open Spec

/-- The three kinds of encodings, by the bits behind the sign. -/
theorem Spec.Format.decode_cases (F : Format) (c : ℕ) :
    (c % 2 ^ (F.t + F.w) < F.infCode ∧ F.decode c = .num (decide (c / 2 ^ (F.t + F.w) % 2 = 1)) (F.magc (c % 2 ^ (F.t + F.w)))) ∨
    (c % 2 ^ (F.t + F.w) = F.infCode ∧ F.decode c = .inf (decide (c / 2 ^ (F.t + F.w) % 2 = 1))) ∨
    (F.infCode < c % 2 ^ (F.t + F.w) ∧ F.decode c = .nan (decide (c / 2 ^ (F.t + F.w) % 2 = 1))) := by
  have hPt := Nat.two_pow_pos F.t
  have hPw := Nat.two_pow_pos F.w
  have hnlt : c % 2 ^ (F.t + F.w) < 2 ^ (F.t + F.w) := Nat.mod_lt _ (Nat.two_pow_pos _)
  have hE : c / 2 ^ F.t % 2 ^ F.w = c % 2 ^ (F.t + F.w) / 2 ^ F.t := by
    rw [pow_add, Nat.mod_mul_right_div_self]
  have hT : c % 2 ^ F.t = c % 2 ^ (F.t + F.w) % 2 ^ F.t := by
    rw [pow_add, Nat.mod_mul_right_mod]
  rcases lt_trichotomy (c % 2 ^ (F.t + F.w)) F.infCode with h | h | h
  · left
    refine ⟨h, ?_⟩
    rw [← F.decode_code _ h]
    obtain ⟨h1, h2, h3⟩ := F.code_fields (decide (c / 2 ^ (F.t + F.w) % 2 = 1)) hnlt
    unfold Format.decode
    simp only [h1, h2, h3, hE, hT]
    by_cases hs : c / 2 ^ (F.t + F.w) % 2 = 1 <;> simp [hs]
  · right; left
    refine ⟨h, ?_⟩
    unfold Format.decode
    have e1 : c % 2 ^ (F.t + F.w) / 2 ^ F.t = 2 ^ F.w - 1 := by rw [h]; exact Nat.mul_div_cancel _ hPt
    have e2 : c % 2 ^ (F.t + F.w) % 2 ^ F.t = 0 := by rw [h]; exact Nat.mul_mod_left _ _
    simp only [hE, hT]
    rw [e1, e2, if_pos rfl, if_pos rfl]
  · right; right
    refine ⟨h, ?_⟩
    have e1 : c % 2 ^ (F.t + F.w) / 2 ^ F.t = 2 ^ F.w - 1 := by
      apply le_antisymm
      · have : c % 2 ^ (F.t + F.w) / 2 ^ F.t < 2 ^ F.w := by
          rw [Nat.div_lt_iff_lt_mul hPt, ← pow_add, Nat.add_comm F.w]; exact hnlt
        omega
      · rw [Nat.le_div_iff_mul_le hPt]; exact h.le
    have e2 : c % 2 ^ (F.t + F.w) % 2 ^ F.t ≠ 0 := by
      intro e
      have := Nat.div_add_mod (c % 2 ^ (F.t + F.w)) (2 ^ F.t)
      rw [e1, e, Nat.add_zero, Nat.mul_comm] at this
      exact absurd this h.ne
    unfold Format.decode
    simp only [hE, hT]
    rw [e1, if_pos rfl, if_neg e2]

/-- The place of an encoding is within the infinities exactly if it is not a NaN. -/
theorem Spec.Format.place_abs (F : Format) (c : ℕ) : |place (F.t + F.w) c| = (c % 2 ^ (F.t + F.w) : ℕ) := by
  unfold place
  split
  · rw [abs_neg, Nat.abs_cast]
  · rw [Nat.abs_cast]

theorem Spec.Format.nan_iff_place (F : Format) (c : ℕ) : (∃ s, F.decode c = .nan s) ↔ (F.infCode : ℤ) < |place (F.t + F.w) c| := by
  rw [F.place_abs, Nat.cast_lt]
  rcases F.decode_cases c with ⟨h1, h2⟩ | ⟨h1, h2⟩ | ⟨h1, h2⟩
  · rw [h2]; simp [h1.le]
  · rw [h2]; simp [h1.le]
  · rw [h2]; simp [h1]

theorem keyLt_irrefl (a : ℤ × ℚ) : ¬ keyLt a a := by
  unfold keyLt; simp

theorem key_eq_iff (a b : ℤ × ℚ) : a = b ↔ ¬ keyLt a b ∧ ¬ keyLt b a := by
  constructor
  · rintro rfl; exact ⟨keyLt_irrefl a, keyLt_irrefl a⟩
  · rintro ⟨h1, h2⟩
    unfold keyLt at h1 h2
    push Not at h1 h2
    have e := le_antisymm h2.1 h1.1
    exact Prod.ext e (le_antisymm (h2.2 e.symm) (h1.2 e))

theorem signed_magc_lt (F : Format) (s s' : Bool) (n n' : ℕ) :
    signed s (F.magc n) < signed s' (F.magc n') ↔ (if s then -(n : ℤ) else n) < (if s' then -(n' : ℤ) else n') := by
  have h0 := F.magc_nonneg n
  have h0' := F.magc_nonneg n'
  have hz := @GoFloat.magc_eq_zero F n
  have hz' := @GoFloat.magc_eq_zero F n'
  cases s <;> cases s' <;> simp only [signed, if_true, if_false, Bool.false_eq_true]
  · rw [F.magc_strictMono.lt_iff_lt, Nat.cast_lt]
  · constructor
    · intro h; linarith
    · intro h; omega
  · constructor
    · intro h
      by_contra hc
      have e : n = 0 ∧ n' = 0 := by omega
      rw [hz.2 e.1, hz'.2 e.2] at h
      simp at h
    · intro h
      rcases h0.lt_or_eq with h1 | h1
      · linarith
      · have e := hz.1 h1.symm
        rcases h0'.lt_or_eq with h2 | h2
        · linarith
        · have := hz'.1 h2.symm
          omega
  · rw [neg_lt_neg_iff, F.magc_strictMono.lt_iff_lt, neg_lt_neg_iff, Nat.cast_lt]

theorem Spec.Format.key_lt_iff (F : Format) (hw : 2 ≤ F.w) {c c' : ℕ} {a b : ℤ × ℚ} (ha : (F.decode c).key = some a) (hb : (F.decode c').key = some b) :
    keyLt a b ↔ place (F.t + F.w) c < place (F.t + F.w) c' := by
  have hpos : 0 < F.infCode := by
    unfold Format.infCode
    have : 2 ^ 1 ≤ 2 ^ F.w := Nat.pow_le_pow_right (by norm_num) (by omega)
    exact Nat.mul_pos (by omega) (Nat.two_pow_pos _)
  have hp : ∀ x, place (F.t + F.w) x = if decide (x / 2 ^ (F.t + F.w) % 2 = 1) then -((x % 2 ^ (F.t + F.w) : ℕ) : ℤ) else ((x % 2 ^ (F.t + F.w) : ℕ) : ℤ) := by
    intro x; unfold place; simp
  rw [hp, hp]
  rcases F.decode_cases c with ⟨h1, h2⟩ | ⟨h1, h2⟩ | ⟨h1, h2⟩ <;> rw [h2] at ha <;>
  rcases F.decode_cases c' with ⟨h1', h2'⟩ | ⟨h1', h2'⟩ | ⟨h1', h2'⟩ <;> rw [h2'] at hb <;>
  simp only [Datum.key, Option.some.injEq, reduceCtorEq] at ha hb <;> subst ha <;> subst hb <;>
  generalize decide (c / 2 ^ (F.t + F.w) % 2 = 1) = s at * <;>
  generalize decide (c' / 2 ^ (F.t + F.w) % 2 = 1) = s' at * <;>
  generalize c % 2 ^ (F.t + F.w) = n at * <;>
  generalize c' % 2 ^ (F.t + F.w) = n' at *
  · refine Iff.trans ?_ (signed_magc_lt F s s' n n'); simp [keyLt]
  · cases s <;> cases s' <;> simp [keyLt] <;> omega
  · cases s <;> cases s' <;> simp [keyLt] <;> omega
  · cases s <;> cases s' <;> simp [keyLt] <;> omega

end GoFloat
