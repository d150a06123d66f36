import Verif.Model.Gen
/-
The order in which binary128/gen.go lists the mantissas.
-/
namespace GoFloat
namespace Binary128.Gen

/-- binary128/gen.go:62-67: the function given to `sort.Slice`, as a function of the two elements -/
def MantBits.less (x y : MantBits) : Bool :=
  if x.a < y.a then true else x.b < y.b

end Binary128.Gen
end GoFloat
