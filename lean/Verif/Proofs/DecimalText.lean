import Mathlib.Algebra.Order.Field.Basic
import Mathlib.Tactic.Ring
import Mathlib.Tactic.FieldSimp
import Mathlib.Tactic.Linarith
import Verif.Spec.Decimal
import Verif.Proofs.Itoa
/-
Reading back decimal texts.
-/
namespace GoFloat
open Spec Strconv

/-- A decimal digit. -/
def IsDig (c : Char) : Prop := '0' ≤ c ∧ c ≤ '9'

instance (c : Char) : Decidable (IsDig c) := inferInstanceAs (Decidable (_ ∧ _))

theorem IsDig.toNat {c : Char} (h : IsDig c) : 48 ≤ c.toNat ∧ c.toNat ≤ 57 := by
  constructor
  · simpa [Char.le_def, UInt32.le_iff_toNat_le] using h.1
  · simpa [Char.le_def, UInt32.le_iff_toNat_le] using h.2

theorem IsDig.ne {c d : Char} (h : IsDig c) (hd : ¬ IsDig d) : c ≠ d := fun e => hd (e ▸ h)

theorem IsDig.charDigit {c : Char} (h : IsDig c) : charDigit c = some (c.toNat - 48) := by
  unfold Spec.charDigit; exact if_pos h

theorem isDig_dchar {d : ℕ} (h : d < 10) : IsDig (dchar d) := by
  interval_cases d <;> decide

theorem readNumeral_append_zeros (b : ℕ) (hb : 1 ≤ b) (s : Text) (k : ℕ) :
    readNumeral b (s ++ List.replicate k '0') = (readNumeral b s).map (· * b ^ k) := by
  induction k with
  | zero => simp
  | succ k ih =>
    rw [List.replicate_succ', ← List.append_assoc]
    unfold readNumeral at *
    rw [List.foldl_append, ih]
    rcases s.foldl _ (some 0) with _ | n
    · rfl
    · simp only [Option.map_some, List.foldl_cons, List.foldl_nil, Option.bind_some, show Spec.charDigit '0' = some 0 by decide,
        if_pos (show 0 < b by omega), pow_succ]
      congr 1
      ring

theorem splitSign_dig {s : Text} (h : ∀ c, s.head? = some c → IsDig c) : splitSign s = (false, s) := by
  rcases s with _ | ⟨c, s⟩
  · rfl
  · have hc := h c rfl
    unfold splitSign
    split
    · rename_i heq
      injection heq with h1 h2
      exact absurd h1 (hc.ne (by decide))
    · rename_i heq
      injection heq with h1 h2
      exact absurd h1 (hc.ne (by decide))
    · rfl

theorem takeWhile_split {α : Type} (p : α → Bool) : ∀ (a b : List α), (∀ c ∈ a, p c = true) → (∀ c, b.head? = some c → p c = false) →
    (a ++ b).takeWhile p = a ∧ (a ++ b).dropWhile p = b
  | [], b, _, hb => by
    rcases b with _ | ⟨c, b⟩
    · simp
    · have := hb c rfl
      simp [this]
  | x :: a, b, ha, hb => by
    obtain ⟨h1, h2⟩ := takeWhile_split p a b (fun c hc => ha c (by simp [hc])) hb
    have hx := ha x (by simp)
    rw [List.cons_append, List.takeWhile_cons_of_pos hx, List.dropWhile_cons_of_pos hx, h1, h2]
    exact ⟨rfl, rfl⟩

/-- Reading a number laid out as sign, digits, point and digits, exponent. -/
theorem readDecimal_layout (neg : Bool) (int frac e : Text) (hi : ∀ c ∈ int, IsDig c) (hne : int ≠ [])
    (hf : ∀ c ∈ frac, IsDig c) (he : ∀ c, e.head? = some c → c = 'e' ∨ c = 'E') :
    readDecimal ((if neg then ['-'] else []) ++ int ++ (if frac = [] then [] else '.' :: frac) ++ e) =
      (readNumeral 10 (int ++ frac)).bind fun n =>
        (readExp e).map fun x : ℤ => (neg, (n : ℚ) * (10 : ℚ) ^ (x - frac.length)) := by
  set body := int ++ (if frac = [] then [] else '.' :: frac) ++ e with hbody
  have hsign : splitSign ((if neg then ['-'] else []) ++ int ++ (if frac = [] then [] else '.' :: frac) ++ e) = (neg, body) := by
    cases neg
    · rw [show ((if false = true then ['-'] else []) ++ int ++ (if frac = [] then [] else '.' :: frac) ++ e) = body by
        rw [hbody]; simp]
      apply splitSign_dig
      intro c hc
      rcases int with _ | ⟨x, int⟩
      · exact absurd rfl hne
      · rw [hbody] at hc
        have : x = c := by simpa using hc
        exact this ▸ hi x (by simp)
    · rw [show ((if true = true then ['-'] else []) ++ int ++ (if frac = [] then [] else '.' :: frac) ++ e) = '-' :: body by
        rw [hbody]; simp]
      rfl
  have hdp : ∀ c, IsDig c → (c ≠ 'e' ∧ c ≠ 'E') ∧ c ≠ '.' := fun c hc =>
    ⟨⟨hc.ne (by decide), hc.ne (by decide)⟩, hc.ne (by decide)⟩
  obtain ⟨h1, h2⟩ := takeWhile_split (fun c : Char => decide (c ≠ 'e' ∧ c ≠ 'E'))
    (int ++ (if frac = [] then [] else '.' :: frac)) e (by
      intro c hc
      rw [decide_eq_true_eq]
      rcases List.mem_append.1 hc with hc | hc
      · exact (hdp c (hi c hc)).1
      · by_cases hfr : frac = []
        · rw [if_pos hfr] at hc; simp at hc
        · rw [if_neg hfr] at hc
          rcases List.mem_cons.1 hc with rfl | hc
          · decide
          · exact (hdp c (hf c hc)).1) (by
      intro c hc
      rw [decide_eq_false_iff_not]
      rcases he c hc with rfl | rfl <;> decide)
  obtain ⟨h3, h4⟩ := takeWhile_split (fun c : Char => decide (c ≠ '.')) int (if frac = [] then [] else '.' :: frac) (by
      intro c hc
      rw [decide_eq_true_eq]
      exact (hdp c (hi c hc)).2) (by
      intro c hc
      rw [decide_eq_false_iff_not]
      by_cases hfr : frac = []
      · rw [if_pos hfr] at hc; simp at hc
      · rw [if_neg hfr] at hc
        have : '.' = c := by simpa using hc
        exact fun h => h this.symm)
  unfold readDecimal
  simp only [hsign, hbody, h1, h2, h3, h4]
  have hfr : ((if frac = [] then [] else '.' :: frac : Text)).drop 1 = frac := by
    split
    · rename_i h; rw [h]; rfl
    · rfl
  rw [hfr, if_neg]
  rintro (h | ⟨h, h'⟩)
  · exact hne h
  · exact h (if_pos h')

end GoFloat
