import Verif.Model.Float
import Verif.Proofs.DecimalText
/-
What `trimZeros` of float.go computes.
-/
namespace GoFloat
open Spec Strconv

theorem getD_append_right' (a b : Text) (i : ℕ) (d : Char) : (a ++ b).getD (a.length + i) d = b.getD i d := by
  rw [List.getD_eq_getElem?_getD, List.getD_eq_getElem?_getD, List.getElem?_append_right (by omega)]
  congr 2
  omega

/-- The loop stops at the last character that is not a zero. -/
theorem trimPos_stop (pre : Text) (c : Char) (hc : c ≠ '0') (rest : Text) :
    ∀ k : ℕ, trimPos (pre ++ c :: List.replicate k '0' ++ rest) (pre.length + k) = pre.length := by
  intro k
  suffices h : ∀ j ≤ k, trimPos (pre ++ c :: List.replicate k '0' ++ rest) (pre.length + j) = pre.length from h k le_rfl
  intro j
  induction j with
  | zero =>
    intro _
    rcases hp : pre.length with _ | n
    · rfl
    · show (if _ then _ else _) = _
      rw [if_pos]
      rw [List.append_assoc, ← hp, show pre.length = pre.length + 0 by rfl, getD_append_right']
      exact hc
  | succ j ih =>
    intro hj
    rw [← add_assoc]
    show (if _ then _ else _) = _
    rw [if_neg, ih (by omega)]
    rw [not_not, List.append_assoc, show pre.length + j + 1 = pre.length + (j + 1) by ring, getD_append_right']
    rw [List.cons_append, List.getD_cons_succ, List.getD_eq_getElem?_getD,
      List.getElem?_append_left (by rw [List.length_replicate]; omega), List.getElem?_replicate, if_pos (by omega)]
    rfl

theorem findIdx_e (body ex : Text) (h : 'e' ∉ body) :
    (body ++ 'e' :: ex).findIdx? (· = 'e') = some body.length := by
  induction body with
  | nil => simp [List.findIdx?_cons]
  | cons c body ih =>
    have hc : c ≠ 'e' := fun hh => h (by rw [hh]; simp)
    have hb : 'e' ∉ body := fun hh => h (by simp [hh])
    rw [List.cons_append, List.findIdx?_cons, ih hb]
    simp [hc]

theorem trimZeros_noExp {s : Text} (h : 'e' ∉ s) : trimZeros s = .error .noExponent := by
  unfold trimZeros
  have : s.findIdx? (· = 'e') = none := by
    rw [List.findIdx?_eq_none_iff]
    intro x hx
    rw [decide_eq_false_iff_not]
    exact fun hh => h (hh ▸ hx)
  rw [this]
  rfl

/-- `trimZeros` when the text before the exponent is `pre`, a character other than zero, and `k` zeros. -/
theorem trimZeros_eq (pre : Text) (c : Char) (hc : c ≠ '0') (k : ℕ) (ex : Text) (he : 'e' ∉ pre) (hce : c ≠ 'e') :
    trimZeros (pre ++ c :: List.replicate k '0' ++ 'e' :: ex) = .ok (pre ++ (if c = '.' then [] else [c]) ++ 'e' :: ex) := by
  set body := pre ++ c :: List.replicate k '0' with hbody
  have hlen : body.length = pre.length + k + 1 := by
    rw [hbody, List.length_append, List.length_cons, List.length_replicate]; ring
  have hb : 'e' ∉ body := by
    rw [hbody, List.mem_append, List.mem_cons, List.mem_replicate]
    rintro (h | h | h)
    · exact he h
    · exact hce h.symm
    · exact absurd h.2 (by decide)
  unfold trimZeros
  rw [findIdx_e body ex hb]
  simp only
  rw [if_neg (by omega)]
  have hpos : trimPos (body ++ 'e' :: ex) (body.length - 1) = pre.length := by
    rw [hlen, Nat.add_sub_cancel, hbody]
    exact trimPos_stop pre c hc _ k
  simp only [hpos]
  have hget : (body ++ 'e' :: ex).getD pre.length 'e' = c := by
    rw [hbody, List.append_assoc, show pre.length = pre.length + 0 by rfl, getD_append_right']
    rfl
  rw [hget, List.drop_left]
  by_cases hp : c = '.'
  · rw [if_neg (by simpa using hp), if_pos hp, hbody, List.append_assoc, List.take_left, List.append_nil]
    rfl
  · rw [if_pos hp, if_neg hp, hbody,
      show pre ++ c :: List.replicate k '0' ++ 'e' :: ex = (pre ++ [c]) ++ (List.replicate k '0' ++ 'e' :: ex) by simp,
      List.take_left' (by simp)]
    rfl

end GoFloat
