import Verif.Spec.Format
import Verif.Model.Math
/-
Specification: correct conversion of a datum to float64 and float32.
-/
namespace GoFloat.Spec

/-- `(r, acc)` is the correct conversion of `d` to float64: the correctly rounded double with the true accuracy; an
infinity stays one; a NaN becomes the NaN of package math with the sign of `d`. -/
def Converts64 (d : Datum) (r : F64) (acc : Accuracy) : Prop :=
  match d with
  | .nan s => r = (if s then 0xFFF8000000000001 else 0x7FF8000000000001) ∧ acc = .exact
  | .inf s => double.decode r.toNat = .inf s ∧ acc = .exact
  | .num s m => double.RoundsTo s m r.toNat ∧ AccuracyTrue acc (double.decode r.toNat) (.num s m)

/-- The same for float32; a NaN becomes the quiet NaN with the sign of `d`. -/
def Converts32 (d : Datum) (r : F32) (acc : Accuracy) : Prop :=
  match d with
  | .nan s => r = (if s then 0xFFC00000 else 0x7FC00000) ∧ acc = .exact
  | .inf s => single.decode r.toNat = .inf s ∧ acc = .exact
  | .num s m => single.RoundsTo s m r.toNat ∧ AccuracyTrue acc (single.decode r.toNat) (.num s m)

end GoFloat.Spec
