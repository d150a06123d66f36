import Verif.Spec.Format
import Verif.Model.Text
/-
Specification: negation of numbers, accuracies and printed numbers.
-/
namespace GoFloat.Spec

/-- The datum with the other sign. -/
def Datum.neg : Datum → Datum
  | .nan s => .nan (!s)
  | .inf s => .inf (!s)
  | .num s m => .num (!s) m

/-- The accuracy with the other direction. -/
def flipAccuracy : Accuracy → Accuracy
  | .below => .above
  | .exact => .exact
  | .above => .below

/-- `t'` is the text of the negation of a number with text `t`, which is not negative: the infinity is written with its sign, a NaN
without one, and every other number gets a minus sign in front. -/
def NegatedText (t t' : Text) : Prop :=
  t = "NaN".toList ∧ t' = "NaN".toList ∨ t = "+Inf".toList ∧ t' = "-Inf".toList ∨ t' = '-' :: t

end GoFloat.Spec
