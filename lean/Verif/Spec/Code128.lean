import Verif.Model.Binary128
import Verif.Spec.Format
/-
Specification: the encodings of package binary128.
-/
namespace GoFloat.Binary128

/-- The 128-bit pattern. -/
def Float.code (f : Float) : ℕ := f.a.toNat * 2 ^ 64 + f.b.toNat

end GoFloat.Binary128
