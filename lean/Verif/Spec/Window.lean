import Verif.Model.Slices
/-
Specification: slices that point into the memory.
-/
namespace GoFloat.Strconv

/-- The window of the slice lies in an array that exists. -/
structure Slice.Valid (h : Arrays) (s : Slice) : Prop where
  len_le : s.len ≤ s.cap
  arr_lt : s.arr < h.length
  window : s.off + s.cap ≤ (h.getD s.arr []).length

end GoFloat.Strconv
