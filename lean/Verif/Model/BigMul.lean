import Verif.Model.BigText
/-
`Mul` and `Quo` of `math/big` for all operands. /repo does not call them with zeros, infinities or a variable without a precision; those who
compute with what `Big` returns (binary16/binary16.go:203, binary128/binary128.go:227, float80x86/float80x86.go:224) do. Modelled after the
documentation and source of `math/big`, as all of `BigFloat` is (Model/BigFloat.lean).
-/
namespace GoFloat.BigFloat

/-- A variable without a precision gets the larger one of the operands. -/
def withPrec (z x y : BigFloat) : BigFloat := if z.prec = 0 then { z with prec := max x.prec y.prec } else z

/-- `z.Mul(x, y)` of `math/big` (float.go, `func (z *Float) Mul`) -/
def mulAny (z x y : BigFloat) : Go BigFloat :=
  let z := z.withPrec x y
  match x.form, y.form with
  | .finite, .finite => .ok (z.mul x y)
  | .zero, .inf => .error .errNaN
  | .inf, .zero => .error .errNaN
  | .inf, _ => .ok { z with acc := .exact, form := .inf, neg := x.neg != y.neg }
  | _, .inf => .ok { z with acc := .exact, form := .inf, neg := x.neg != y.neg }
  | _, _ => .ok { z with acc := .exact, form := .zero, neg := x.neg != y.neg }

/-- `z.Quo(x, y)` of `math/big` (float.go, `func (z *Float) Quo`) -/
def quoAny (z x y : BigFloat) : Go BigFloat :=
  let z := z.withPrec x y
  match x.form, y.form with
  | .finite, .finite => .ok (z.quo x y)
  | .zero, .zero => .error .errNaN
  | .inf, .inf => .error .errNaN
  | .zero, _ => .ok { z with acc := .exact, form := .zero, neg := x.neg != y.neg }
  | _, .inf => .ok { z with acc := .exact, form := .zero, neg := x.neg != y.neg }
  | _, _ => .ok { z with acc := .exact, form := .inf, neg := x.neg != y.neg }

end GoFloat.BigFloat
