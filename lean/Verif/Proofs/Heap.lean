import Verif.Model.Heap
/-
What the functions of Verif/Model/Heap.lean do to the memory, by running them symbolically.
-/
set_option linter.unusedSimpArgs false
set_option linter.unusedVariables false

namespace GoFloat
namespace Mem

/-- What follows a computation that ended with the given result and memory. -/
def cont {α β : Type} (r : Go α × Heap) (k : α → Mem β) : Go β × Heap :=
  match r with
  | (.ok a, h) => k a h
  | (.error e, h) => (.error e, h)

theorem bind_run {α β : Type} (m : Mem α) (k : α → Mem β) (h : Heap) :
    (m >>= k) h = cont (m h) k := by
  change (m.bind k).exec h = cont (m.exec h) k
  induction m generalizing h with
  | done r => cases r <;> rfl
  | load p f ih =>
    simp only [Mem.bind, exec]
    split
    · exact ih _ _
    · rfl
  | store p v f ih =>
    simp only [Mem.bind, exec]
    split
    · exact ih _
    · rfl
  | alloc v f ih => exact ih _ _
theorem pure_run {α : Type} (a : α) (h : Heap) : (pure a : Mem α) h = (.ok a, h) := rfl
theorem ok_cont {α β : Type} (a : α) (h : Heap) (k : α → Mem β) : cont (.ok a, h) k = k a h := rfl
theorem error_cont {α β : Type} (e : Panic) (h : Heap) (k : α → Mem β) :
    cont (.error e, h) k = (.error e, h) := rfl
theorem ite_run {α : Type} (c : Prop) [Decidable c] (m m' : Mem α) (h : Heap) :
    (if c then m else m') h = if c then m h else m' h := by split <;> rfl
theorem run_run {α : Type} (g : Go α) (h : Heap) : run g h = (g, h) := rfl

theorem get_run (p : Addr) (h : Heap) :
    get p h = match h[p]? with
      | some v => (.ok v, h)
      | none => (.error .nilPointer, h) := by
  simp only [get, exec]
  cases h[p]? <;> rfl
theorem put_run (p : Addr) (v : BigFloat) (h : Heap) :
    put p v h = if p < h.length then (.ok (), h.set p v) else (.error .nilPointer, h) := rfl

theorem load_of {p : Addr} {h : Heap} {v : BigFloat} (hp : h[p]? = some v) (L : Heap) :
    get p (h ++ L) = (.ok v, h ++ L) := by
  have hl : p < h.length := (List.getElem?_eq_some_iff.1 hp).1
  simp [get_run, List.getElem?_append_left hl, hp]

theorem lt_of_get {p : Addr} {h : Heap} {v : BigFloat} (hp : h[p]? = some v) : p < h.length :=
  (List.getElem?_eq_some_iff.1 hp).1

theorem set_of_get {p : Addr} {h : Heap} {v : BigFloat} (hp : h[p]? = some v) : h.set p v = h := by
  obtain ⟨h1, h2⟩ := List.getElem?_eq_some_iff.1 hp
  rw [← h2, List.set_getElem_self]

theorem store_of {p : Addr} {h : Heap} {v : BigFloat} (hp : h[p]? = some v) (w : BigFloat) (L : Heap) :
    put p w (h ++ L) = (.ok (), h.set p w ++ L) := by
  have hl := lt_of_get hp
  simp [put_run, List.set_append, hl, Nat.lt_of_lt_of_le hl (Nat.le_add_right _ L.length)]

theorem load_set {p : Addr} {h : Heap} {v : BigFloat} (hp : h[p]? = some v) (w : BigFloat) (L : Heap) :
    get p (h.set p w ++ L) = (.ok w, h.set p w ++ L) := by
  apply load_of
  simp [lt_of_get hp]

theorem store_set {p : Addr} {h : Heap} {v : BigFloat} (hp : h[p]? = some v) (w w' : BigFloat) (L : Heap) :
    put p w' (h.set p w ++ L) = (.ok (), h.set p w' ++ L) := by
  rw [store_of (h := h.set p w) (v := w) (by simp [lt_of_get hp]), List.set_set]

theorem load_0 (h : Heap) (a : BigFloat) (L : Heap) : get h.length (h ++ a :: L) = (.ok a, h ++ a :: L) := by
  simp [get_run]
theorem load_1 (h : Heap) (a b : BigFloat) (L : Heap) :
    get (h.length + 1) (h ++ a :: b :: L) = (.ok b, h ++ a :: b :: L) := by
  simp [get_run]
theorem load_2 (h : Heap) (a b c : BigFloat) (L : Heap) :
    get (h.length + 2) (h ++ a :: b :: c :: L) = (.ok c, h ++ a :: b :: c :: L) := by
  simp [get_run]
theorem load_3 (h : Heap) (a b c d : BigFloat) (L : Heap) :
    get (h.length + 3) (h ++ a :: b :: c :: d :: L) = (.ok d, h ++ a :: b :: c :: d :: L) := by
  simp [get_run]
theorem store_0 (h : Heap) (a v : BigFloat) (L : Heap) :
    put h.length v (h ++ a :: L) = (.ok (), h ++ v :: L) := by
  simp [put_run]
theorem store_1 (h : Heap) (a b v : BigFloat) (L : Heap) :
    put (h.length + 1) v (h ++ a :: b :: L) = (.ok (), h ++ a :: v :: L) := by
  simp [put_run]
theorem store_2 (h : Heap) (a b c v : BigFloat) (L : Heap) :
    put (h.length + 2) v (h ++ a :: b :: c :: L) = (.ok (), h ++ a :: b :: v :: L) := by
  simp [put_run]
theorem store_3 (h : Heap) (a b c d v : BigFloat) (L : Heap) :
    put (h.length + 3) v (h ++ a :: b :: c :: d :: L) = (.ok (), h ++ a :: b :: c :: v :: L) := by
  simp [put_run]
theorem alloc_run (h : Heap) (v : BigFloat) : make v h = (.ok h.length, h ++ [v]) := rfl

theorem makePositive_1 (h : Heap) (a b : BigFloat) (L : Heap) :
    makePositive (h.length + 1) (h ++ a :: b :: L)
      = (.ok (), h ++ a :: (if b.signbit then b.negSelf else b) :: L) := by
  simp only [makePositive, bind_run, signbit, load_1, ok_cont, pure_run, ite_run, neg, if_true, store_1]
  split <;> rfl

theorem setMantExp_1 (h : Heap) (a b : BigFloat) (e : Int) (L : Heap) :
    setMantExp (h.length + 1) (h.length + 1) e (h ++ a :: b :: L) = (.ok (), h ++ a :: b.setMantExpSelf e :: L) := by
  simp only [setMantExp, bind_run, load_1, ok_cont, if_true, store_1]

theorem mantExp_1 {p : Addr} {h : Heap} {v : BigFloat} (hp : h[p]? = some v) (a b : BigFloat) (L : Heap) :
    mantExp p (h.length + 1) (h ++ a :: b :: L) = (.ok v.mantExp.1, h ++ a :: v.mantExp.2 :: L) := by
  simp only [mantExp, bind_run, load_of hp, ok_cont, store_1, pure_run]

theorem negIf_0 (h : Heap) (a : BigFloat) (s : Bool) (L : Heap) :
    negIf s h.length (h ++ a :: L) = (.ok (), h ++ (if s then a.negSelf else a) :: L) := by
  simp only [negIf, bind_run, load_0, ok_cont, ite_run, neg, if_true, store_0, pure_run]
  split <;> rfl

theorem parse_0 (h : Heap) (a : BigFloat) (s : Text) (L : Heap) :
    parse h.length s (h ++ a :: L)
      = match a.parse s with
        | some v => (.ok (), h ++ v :: L)
        | none => (.error .parse, h ++ a :: L) := by
  simp only [parse, bind_run, load_0, ok_cont]
  split <;> simp_all [store_0, run_run]

end Mem
open Mem

theorem newFloat_zero_ok : ∃ z, newFloat 0 = .ok z := ⟨_, rfl⟩

theorem go_error {α β : Type} (e : Panic) (k : α → Go β) : (Except.error e >>= k) = Except.error e := rfl
theorem go_bind {α β : Type} (a : α) (k : α → Go β) : (Except.ok a >>= k) = k a := rfl

macro "mem_simp" "[" ts:Lean.Parser.Tactic.simpLemma,* "]" : tactic =>
  `(tactic| simp only [Mem.newFloat, bind_run, run_run, ok_cont, error_cont, alloc_run, isInf, signbit, cmp,
    pure_run, ite_run, load_0, load_1, load_2, load_3, store_0, store_1, store_2, store_3, mantExp_1, setMantExp_1,
    makePositive_1, negIf_0, parse_0, isInt, setPrec, setMode, setInf, Mem.float64, Mem.float32,
    uint64, intNonneg, Mem.new, List.length_append, List.append_assoc, List.cons_append, List.nil_append,
    List.length_cons, List.length_nil, Nat.zero_add, Nat.reduceAdd, go_bind, go_error, $ts,*])

namespace Bfloat
theorem bigMem_eq (f : Float) (h : Heap) :
    ∃ b L, f.bigMem h = (f.big.map (fun r => (h.length, r.2)), h ++ b :: L) ∧
      ∀ r, f.big = .ok r → r.1 = b := by
  obtain ⟨z, hz⟩ := newFloat_zero_ok
  mem_simp [Float.bigMem, Float.big, hz]
  by_cases h1 : f.exp = 0xFF
  · by_cases h2 : f.frac = 0 <;> simp only [h1, h2, if_true, if_false, and_true, and_false] <;>
      exact ⟨_, _, rfl, by rintro r h; first | (cases h; rfl) | cases h⟩
  by_cases h2 : f.exp = 0
  · by_cases h3 : f.frac = 0
    · simp only [h1, h2, h3, if_true, if_false, and_true, and_false, false_and]
      exact ⟨_, _, rfl, by rintro r h; first | (cases h; rfl) | cases h⟩
    · simp only [h1, h2, h3, if_true, if_false, and_true, and_false, false_and]
      cases ((z.setPrec precision).setMode RoundingMode.toNearestEven).parse (bigText f.signbit 0 f.frac (-126)) <;>
      exact ⟨_, _, rfl, by rintro r h; first | (cases h; rfl) | cases h⟩
  · simp only [h1, h2, if_true, if_false, and_true, and_false, false_and]
    cases ((z.setPrec precision).setMode RoundingMode.toNearestEven).parse (bigText f.signbit 1 f.frac (f.exp - bias)) <;>
      exact ⟨_, _, rfl, by rintro r h; first | (cases h; rfl) | cases h⟩
end Bfloat

namespace Binary16

theorem newFromBigMem_eq {x : Addr} {h : Heap} {v : BigFloat} (hx : h[x]? = some v) :
    ∃ L, newFromBigMem x h = (newFromBig v, h ++ L) := by
  obtain ⟨z, hz⟩ := newFloat_zero_ok
  mem_simp [newFromBigMem, newFromBig, hz, load_of hx, mantExp_1 hx]
  by_cases h1 : v.isInf = true
  · simp only [h1, if_true]; cases v.signbit <;> exact ⟨_, rfl⟩
  by_cases h2 : v.cmp z = .eq
  · simp only [h1, h2, if_true]; cases v.signbit <;> exact ⟨_, rfl⟩
  by_cases h3 : v.mantExp.fst - 1 + bias ≤ 0
  · simp only [h1, h2, h3, if_true, if_false]
    by_cases h4 : v.mantExp.fst - 1 + bias ≤ -(↑precision - 1)
    · simp only [h4, if_true, decide_true]; exact ⟨_, rfl⟩
    · simp only [h4, if_false, decide_false]; exact ⟨_, rfl⟩
  · simp only [h1, h2, h3, if_false]
    exact ⟨_, rfl⟩

theorem bigMem_eq (f : Float) (h : Heap) :
    ∃ b L, f.bigMem h = (f.big.map (fun r => (h.length, r.2)), h ++ b :: L) ∧
      ∀ r, f.big = .ok r → r.1 = b := by
  obtain ⟨z, hz⟩ := newFloat_zero_ok
  mem_simp [Float.bigMem, Float.big, hz]
  by_cases h1 : f.exp = 0x1F
  · by_cases h2 : f.frac = 0 <;> simp only [h1, h2, if_true, if_false, and_true, and_false] <;>
      exact ⟨_, _, rfl, by rintro r h; first | (cases h; rfl) | cases h⟩
  by_cases h2 : f.exp = 0
  · by_cases h3 : f.frac = 0
    · simp only [h1, h2, h3, if_true, if_false, and_true, and_false, false_and]
      exact ⟨_, _, rfl, by rintro r h; first | (cases h; rfl) | cases h⟩
    · simp only [h1, h2, h3, if_true, if_false, and_true, and_false, false_and]
      cases ((z.setPrec precision).setMode RoundingMode.toNearestEven).parse (bigText f.signbit 0 f.frac (-14)) <;>
      exact ⟨_, _, rfl, by rintro r h; first | (cases h; rfl) | cases h⟩
  · simp only [h1, h2, if_true, if_false, and_true, and_false, false_and]
    cases ((z.setPrec precision).setMode RoundingMode.toNearestEven).parse (bigText f.signbit 1 f.frac (f.exp - bias)) <;>
      exact ⟨_, _, rfl, by rintro r h; first | (cases h; rfl) | cases h⟩

theorem newFromFloat64Mem_eq (x : F64) (h : Heap) :
    ∃ L, newFromFloat64Mem x h = (newFromFloat64 x, h ++ L) := by
  by_cases h1 : F64.isNaN x = true
  · mem_simp [newFromFloat64Mem, newFromFloat64, h1, if_true]
    cases F64.signbit x <;> exact ⟨[], by simp [Except.map, pure, Except.pure]⟩
  · mem_simp [newFromFloat64Mem, newFromFloat64, h1, Bool.false_eq_true, if_false]
    cases hy : newFloat x with
    | error e => exact ⟨[], by simp [error_cont, go_error]⟩
    | ok y =>
      mem_simp [hy]
      obtain ⟨L, hL⟩ := newFromBigMem_eq (x := h.length)
        (h := h ++ [(y.setPrec precision).setMode .toNearestEven])
        (v := (y.setPrec precision).setMode .toNearestEven) (by simp)
      exact ⟨(y.setPrec precision).setMode .toNearestEven :: L, by
        rw [hL]; simp only [List.append_assoc, List.cons_append, List.nil_append]⟩

theorem Float.float64Mem_eq (f : Float) (h : Heap) :
    ∃ L, f.float64Mem h = (f.float64, h ++ L) := by
  obtain ⟨b, L, hL, hb'⟩ := bigMem_eq f h
  simp only [Float.float64Mem, Float.float64, bind_run, hL]
  cases hb : f.big with
  | error e => exact ⟨_, rfl⟩
  | ok r =>
    obtain ⟨b2, n⟩ := r
    obtain rfl := hb' _ hb
    refine ⟨b2 :: L, ?_⟩
    simp only [Except.map, ok_cont, go_bind]
    cases n
    · mem_simp [Bool.false_eq_true, if_false]; rfl
    · mem_simp [if_true]; cases b2.signbit <;> rfl

theorem Float.float32Mem_eq (f : Float) (h : Heap) :
    ∃ L, f.float32Mem h = (f.float32, h ++ L) := by
  obtain ⟨b, L, hL, hb'⟩ := bigMem_eq f h
  simp only [Float.float32Mem, Float.float32, bind_run, hL]
  cases hb : f.big with
  | error e => exact ⟨_, rfl⟩
  | ok r =>
    obtain ⟨b2, n⟩ := r
    obtain rfl := hb' _ hb
    refine ⟨b2 :: L, ?_⟩
    simp only [Except.map, ok_cont, go_bind]
    cases n
    · mem_simp [Bool.false_eq_true, if_false]; rfl
    · mem_simp [if_true]; cases b2.signbit <;> rfl

theorem newFromFloat32Mem_eq (x : F32) (h : Heap) :
    ∃ L, newFromFloat32Mem x h = (newFromFloat32 x, h ++ L) := by
  obtain ⟨L, hL⟩ := newFromFloat64Mem_eq (f32to64 x) h
  simp only [newFromFloat32Mem, newFromFloat32, bind_run, hL]
  cases hb : newFromFloat64 (f32to64 x) with
  | error e => exact ⟨_, rfl⟩
  | ok r =>
    obtain ⟨f, acc⟩ := r
    simp only [Except.map, ok_cont, go_bind, ite_run, bind_run]
    by_cases ha : acc = .exact
    · obtain ⟨L', hL'⟩ := Float.float32Mem_eq f (h ++ L)
      refine ⟨L ++ L', ?_⟩
      simp only [ha, if_true, hL', List.append_assoc]
      cases f.float32 <;> rfl
    · exact ⟨L, by simp only [ha, if_false]; rfl⟩
end Binary16

namespace Binary128

theorem newFromBigMem_eq {x : Addr} {h : Heap} {v : BigFloat} (hx : h[x]? = some v) :
    ∃ L, newFromBigMem x h = (newFromBig v, h ++ L) := by
  obtain ⟨z, hz⟩ := newFloat_zero_ok
  mem_simp [newFromBigMem, newFromBig, hz, load_of hx, mantExp_1 hx]
  by_cases h1 : v.isInf = true
  · simp only [h1, if_true]; cases v.signbit <;> exact ⟨_, rfl⟩
  by_cases h2 : v.cmp (z.setPrec precision) = .eq
  · simp only [h1, h2, if_true]; cases v.signbit <;> exact ⟨_, rfl⟩
  by_cases h3 : v.mantExp.fst - 1 + bias ≤ 0
  · simp only [h1, h2, h3, if_true, if_false]
    by_cases h4 : v.mantExp.fst - 1 + bias ≤ -(↑precision - 1)
    · simp only [h4, if_true, decide_true]; exact ⟨_, rfl⟩
    · simp only [h4, if_false, decide_false]; exact ⟨_, rfl⟩
  · simp only [h1, h2, h3, if_false]
    exact ⟨_, rfl⟩

theorem bigMem_eq (f : Float) (h : Heap) :
    ∃ b L, f.bigMem h = (f.big.map (fun r => (h.length, r.2)), h ++ b :: L) ∧
      ∀ r, f.big = .ok r → r.1 = b := by
  obtain ⟨z, hz⟩ := newFloat_zero_ok
  mem_simp [Float.bigMem, Float.big, Float.bigWith, hz]
  by_cases h1 : f.exp = 0x7FFF
  · by_cases h2 : f.frac.1 = 0 ∧ f.frac.2 = 0 <;> simp only [h1, h2, if_true, if_false, and_true, and_false] <;>
      exact ⟨_, _, rfl, by rintro r h; first | (cases h; rfl) | cases h⟩
  by_cases h2 : f.exp = 0
  · by_cases h3 : f.frac.1 = 0 ∧ f.frac.2 = 0
    · simp only [h1, h2, h3, if_true, if_false, and_true, and_false, false_and]
      exact ⟨_, _, rfl, by rintro r h; first | (cases h; rfl) | cases h⟩
    · simp only [h1, h2, h3, if_true, if_false, and_true, and_false, false_and]
      cases ((z.setPrec precision).setMode RoundingMode.toNearestEven).parse (bigText f.signbit 0 f.frac.1 f.frac.2 (-16382)) <;>
      exact ⟨_, _, rfl, by rintro r h; first | (cases h; rfl) | cases h⟩
  · simp only [h1, h2, if_true, if_false, and_true, and_false, false_and]
    cases ((z.setPrec precision).setMode RoundingMode.toNearestEven).parse (bigText f.signbit 1 f.frac.1 f.frac.2 (f.exp - bias)) <;>
      exact ⟨_, _, rfl, by rintro r h; first | (cases h; rfl) | cases h⟩

theorem newFromFloat64Mem_eq (x : F64) (h : Heap) :
    ∃ L, newFromFloat64Mem x h = (newFromFloat64 x, h ++ L) := by
  by_cases h1 : F64.isNaN x = true
  · mem_simp [newFromFloat64Mem, newFromFloat64, h1, if_true]
    cases F64.signbit x <;> exact ⟨[], by simp [Except.map, pure, Except.pure]⟩
  · mem_simp [newFromFloat64Mem, newFromFloat64, h1, Bool.false_eq_true, if_false]
    cases hy : newFloat x with
    | error e => exact ⟨[], by simp [error_cont, go_error]⟩
    | ok y =>
      mem_simp [hy]
      obtain ⟨L, hL⟩ := newFromBigMem_eq (x := h.length)
        (h := h ++ [(y.setPrec precision).setMode .toNearestEven])
        (v := (y.setPrec precision).setMode .toNearestEven) (by simp)
      exact ⟨(y.setPrec precision).setMode .toNearestEven :: L, by
        rw [hL]; simp only [List.append_assoc, List.cons_append, List.nil_append]⟩

theorem Float.float64Mem_eq (f : Float) (h : Heap) :
    ∃ L, f.float64Mem h = (f.float64, h ++ L) := by
  obtain ⟨b, L, hL, hb'⟩ := bigMem_eq f h
  simp only [Float.float64Mem, Float.float64, bind_run, hL]
  cases hb : f.big with
  | error e => exact ⟨_, rfl⟩
  | ok r =>
    obtain ⟨b2, n⟩ := r
    obtain rfl := hb' _ hb
    refine ⟨b2 :: L, ?_⟩
    simp only [Except.map, ok_cont, go_bind]
    cases n
    · mem_simp [Bool.false_eq_true, if_false]; rfl
    · mem_simp [if_true]; cases b2.signbit <;> rfl

theorem Float.float32Mem_eq (f : Float) (h : Heap) :
    ∃ L, f.float32Mem h = (f.float32, h ++ L) := by
  obtain ⟨b, L, hL, hb'⟩ := bigMem_eq f h
  simp only [Float.float32Mem, Float.float32, bind_run, hL]
  cases hb : f.big with
  | error e => exact ⟨_, rfl⟩
  | ok r =>
    obtain ⟨b2, n⟩ := r
    obtain rfl := hb' _ hb
    refine ⟨b2 :: L, ?_⟩
    simp only [Except.map, ok_cont, go_bind]
    cases n
    · mem_simp [Bool.false_eq_true, if_false]; rfl
    · mem_simp [if_true]; cases b2.signbit <;> rfl

theorem newFromFloat32Mem_eq (x : F32) (h : Heap) :
    ∃ L, newFromFloat32Mem x h = (newFromFloat32 x, h ++ L) := by
  obtain ⟨L, hL⟩ := newFromFloat64Mem_eq (f32to64 x) h
  simp only [newFromFloat32Mem, newFromFloat32, bind_run, hL]
  cases hb : newFromFloat64 (f32to64 x) with
  | error e => exact ⟨_, rfl⟩
  | ok r =>
    obtain ⟨f, acc⟩ := r
    simp only [Except.map, ok_cont, go_bind, ite_run, bind_run]
    by_cases ha : acc = .exact
    · obtain ⟨L', hL'⟩ := Float.float32Mem_eq f (h ++ L)
      refine ⟨L ++ L', ?_⟩
      simp only [ha, if_true, hL', List.append_assoc]
      cases f.float32 <;> rfl
    · exact ⟨L, by simp only [ha, if_false]; rfl⟩
end Binary128

namespace Float80x86

theorem newFromBigMem_eq {x : Addr} {h : Heap} {v : BigFloat} (hx : h[x]? = some v) :
    ∃ L, newFromBigMem x h = (newFromBig v, h ++ L) := by
  obtain ⟨z, hz⟩ := newFloat_zero_ok
  mem_simp [newFromBigMem, newFromBig, hz, load_of hx, mantExp_1 hx]
  by_cases h1 : v.isInf = true
  · simp only [h1, if_true]; cases v.signbit <;> exact ⟨_, rfl⟩
  by_cases h2 : v.cmp z = .eq
  · simp only [h1, h2, if_true]; cases v.signbit <;> exact ⟨_, rfl⟩
  by_cases h3 : v.mantExp.fst - 1 + bias ≤ 0
  · simp only [h1, h2, h3, if_true, if_false]
    by_cases h4 : v.mantExp.fst - 1 + bias ≤ -(↑precision - 1)
    · simp only [h4, if_true, decide_true]; exact ⟨_, rfl⟩
    · simp only [h4, if_false, decide_false]; exact ⟨_, rfl⟩
  · simp only [h1, h2, h3, if_false]
    exact ⟨_, rfl⟩

theorem bigMem_eq (f : Float) (h : Heap) :
    ∃ b L, f.bigMem h = (f.big.map (fun r => (h.length, r.2)), h ++ b :: L) ∧
      ∀ r, f.big = .ok r → r.1 = b := by
  obtain ⟨z, hz⟩ := newFloat_zero_ok
  mem_simp [Float.bigMem, Float.big, hz]
  by_cases h1 : f.exp = 0x7FFF
  · by_cases h2 : f.m = 0x8000000000000000 <;> simp only [h1, h2, if_true, if_false, and_true, and_false] <;>
      exact ⟨_, _, rfl, by rintro r h; first | (cases h; rfl) | cases h⟩
  by_cases h2 : f.exp = 0
  · by_cases h3 : f.m = 0
    · simp only [h1, h2, h3, if_true, if_false, and_true, and_false, false_and]
      exact ⟨_, _, rfl, by rintro r h; first | (cases h; rfl) | cases h⟩
    · simp only [h1, h2, h3, if_true, if_false, and_true, and_false, false_and]
      cases ((z.setPrec precision).setMode RoundingMode.toNearestEven).parse (bigText f.signbit f.lead f.frac (-16382)) <;>
      exact ⟨_, _, rfl, by rintro r h; first | (cases h; rfl) | cases h⟩
  · simp only [h1, h2, if_true, if_false, and_true, and_false, false_and]
    cases ((z.setPrec precision).setMode RoundingMode.toNearestEven).parse (bigText f.signbit f.lead f.frac (f.exp - bias)) <;>
      exact ⟨_, _, rfl, by rintro r h; first | (cases h; rfl) | cases h⟩

theorem newFromFloat64Mem_eq (x : F64) (h : Heap) :
    ∃ L, newFromFloat64Mem x h = (newFromFloat64 x, h ++ L) := by
  by_cases h1 : F64.isNaN x = true
  · mem_simp [newFromFloat64Mem, newFromFloat64, h1, if_true]
    cases F64.signbit x <;> exact ⟨[], by simp [Except.map, pure, Except.pure]⟩
  · mem_simp [newFromFloat64Mem, newFromFloat64, h1, Bool.false_eq_true, if_false]
    cases hy : newFloat x with
    | error e => exact ⟨[], by simp [error_cont, go_error]⟩
    | ok y =>
      mem_simp [hy]
      obtain ⟨L, hL⟩ := newFromBigMem_eq (x := h.length)
        (h := h ++ [(y.setPrec precision).setMode .toNearestEven])
        (v := (y.setPrec precision).setMode .toNearestEven) (by simp)
      exact ⟨(y.setPrec precision).setMode .toNearestEven :: L, by
        rw [hL]; simp only [List.append_assoc, List.cons_append, List.nil_append]⟩

theorem Float.float64Mem_eq (f : Float) (h : Heap) :
    ∃ L, f.float64Mem h = (f.float64, h ++ L) := by
  obtain ⟨b, L, hL, hb'⟩ := bigMem_eq f h
  simp only [Float.float64Mem, Float.float64, bind_run, hL]
  cases hb : f.big with
  | error e => exact ⟨_, rfl⟩
  | ok r =>
    obtain ⟨b2, n⟩ := r
    obtain rfl := hb' _ hb
    refine ⟨b2 :: L, ?_⟩
    simp only [Except.map, ok_cont, go_bind]
    cases n
    · mem_simp [Bool.false_eq_true, if_false]; rfl
    · mem_simp [if_true]; cases b2.signbit <;> rfl

theorem Float.float32Mem_eq (f : Float) (h : Heap) :
    ∃ L, f.float32Mem h = (f.float32, h ++ L) := by
  obtain ⟨b, L, hL, hb'⟩ := bigMem_eq f h
  simp only [Float.float32Mem, Float.float32, bind_run, hL]
  cases hb : f.big with
  | error e => exact ⟨_, rfl⟩
  | ok r =>
    obtain ⟨b2, n⟩ := r
    obtain rfl := hb' _ hb
    refine ⟨b2 :: L, ?_⟩
    simp only [Except.map, ok_cont, go_bind]
    cases n
    · mem_simp [Bool.false_eq_true, if_false]; rfl
    · mem_simp [if_true]; cases b2.signbit <;> rfl

theorem newFromFloat32Mem_eq (x : F32) (h : Heap) :
    ∃ L, newFromFloat32Mem x h = (newFromFloat32 x, h ++ L) := by
  obtain ⟨L, hL⟩ := newFromFloat64Mem_eq (f32to64 x) h
  simp only [newFromFloat32Mem, newFromFloat32, bind_run, hL]
  cases hb : newFromFloat64 (f32to64 x) with
  | error e => exact ⟨_, rfl⟩
  | ok r =>
    obtain ⟨f, acc⟩ := r
    simp only [Except.map, ok_cont, go_bind, ite_run, bind_run]
    by_cases ha : acc = .exact
    · obtain ⟨L', hL'⟩ := Float.float32Mem_eq f (h ++ L)
      refine ⟨L ++ L', ?_⟩
      simp only [ha, if_true, hL', List.append_assoc]
      cases f.float32 <;> rfl
    · exact ⟨L, by simp only [ha, if_false]; rfl⟩
end Float80x86

namespace Float128ppc

theorem bigMem_eq (f : Float) (h : Heap) :
    ∃ b L, f.bigMem h = (f.big.map (fun r => (h.length, r.2)), h ++ b :: L) ∧
      ∀ r, f.big = .ok r → r.1 = b := by
  obtain ⟨z, hz⟩ := newFloat_zero_ok
  mem_simp [Float.bigMem, Float.big, hz]
  by_cases h1 : f.isNaN = true
  · simp only [h1, if_true]; exact ⟨_, _, rfl, by rintro r h; first | (cases h; rfl) | cases h⟩
  simp only [h1, Bool.false_eq_true, if_false]
  cases hh : newFloat f.high with
  | error e => exact ⟨_, _, rfl, by rintro r h; first | (cases h; rfl) | cases h⟩
  | ok a =>
    cases hl : newFloat f.low with
    | error e => mem_simp [hh, hl, Bool.false_eq_true, if_false]; exact ⟨_, _, rfl, by rintro r h; first | (cases h; rfl) | cases h⟩
    | ok b =>
      mem_simp [hh, hl, Mem.add]
      cases hs : BigFloat.add ((z.setPrec precision).setMode RoundingMode.toNearestEven) (a.setPrec precision)
          (b.setPrec precision) with
      | error e => exact ⟨_, _, rfl, by rintro r h; first | (cases h; rfl) | cases h⟩
      | ok x =>
        mem_simp [Mem.neg, if_true]
        by_cases h2 : x.cmp (z.setPrec precision) = .eq ∧ F64.signbit f.high = true
        · simp only [h2, if_true, and_self]
          cases x.signbit <;> exact ⟨_, _, rfl, by rintro r h; first | (cases h; rfl) | cases h⟩
        · simp only [h2, if_false]
          exact ⟨_, _, rfl, by rintro r h; first | (cases h; rfl) | cases h⟩

theorem cmp_newZero (v z : BigFloat) (hz : newFloat 0 = .ok z) :
    v.cmp (z.setPrec precision) = .eq ↔ v.form = .zero := by
  have h0 : (z.setPrec precision).ord = 0 := by
    have : z = { BigFloat.new with prec := 53 } := by
      have h1 : newFloat 0 = .ok { BigFloat.new with prec := 53 } := rfl
      rw [h1] at hz; cases hz; rfl
    subst this
    decide +kernel
  simp only [BigFloat.cmp, h0]
  rcases hv : v.form with _ | _ | _ <;> cases hn : v.neg <;> simp [BigFloat.ord, hv, hn]

theorem newFromBigMem_eq {x : Addr} {h : Heap} {v : BigFloat} (hx : h[x]? = some v) :
    ∃ L, newFromBigMem x h = ((newFromBig v).map Prod.fst,
      h.set x (if v.form = .finite then (v.setPrec precision).setMode .toNearestEven else v) ++ L) := by
  obtain ⟨z, hz⟩ := newFloat_zero_ok
  have hc := cmp_newZero v z hz
  mem_simp [newFromBigMem, newFromBig, hz, load_of hx, store_of hx, load_set hx, store_set hx]
  by_cases h1 : v.isInf = true
  · have hf : ¬ v.form = .finite := by
      intro hf; simp [BigFloat.isInf, hf] at h1
    simp only [h1, hf, if_true, if_false]
    refine ⟨[z.setPrec precision], ?_⟩
    cases v.signbit <;> simp only [Except.map, pure, Except.pure, set_of_get hx] <;> rfl
  by_cases h2 : v.form = .zero
  · have hf : ¬ v.form = .finite := by simp [h2]
    simp only [h1, hc.2 h2, hf, Bool.false_eq_true, if_true, if_false]
    refine ⟨[z.setPrec precision], ?_⟩
    cases v.signbit <;> simp only [Except.map, pure, Except.pure, set_of_get hx] <;> rfl
  have hf : v.form = .finite := by
    rcases hv : v.form with _ | _ | _
    · exact absurd hv h2
    · rfl
    · exact absurd (by simp [BigFloat.isInf, hv]) h1
  have h3 : ¬ v.cmp (z.setPrec precision) = .eq := fun h => h2 (hc.1 h)
  simp only [h1, h3, hf, Bool.false_eq_true, if_false, if_true]
  cases hh : newFloat ((v.setPrec precision).setMode .toNearestEven).float64.1 with
  | error e => exact ⟨_, rfl⟩
  | ok a =>
    mem_simp [hh, hz, load_set hx, store_set hx, Mem.sub]
    cases hs : BigFloat.sub ((z.setPrec precision).setMode RoundingMode.toNearestEven)
        ((v.setPrec precision).setMode .toNearestEven) ((a.setPrec precision).setMode .toNearestEven) with
    | error e => exact ⟨_, rfl⟩
    | ok l =>
      mem_simp [hz, load_set hx, store_set hx, Mem.add]
      cases hr : BigFloat.add ((z.setPrec precision).setMode RoundingMode.toNearestEven)
          ((a.setPrec precision).setMode .toNearestEven) l with
      | error e => exact ⟨_, rfl⟩
      | ok r =>
        mem_simp [load_set hx, store_set hx]
        exact ⟨_, rfl⟩

theorem newFromFloat64Mem_eq (x : F64) (h : Heap) :
    ∃ L, newFromFloat64Mem x h = (newFromFloat64 x, h ++ L) := by
  by_cases h1 : F64.isNaN x = true
  · mem_simp [newFromFloat64Mem, newFromFloat64, h1, if_true]
    cases F64.signbit x <;> exact ⟨[], by simp [Except.map, pure, Except.pure]⟩
  · obtain ⟨b, L, hL, hb'⟩ := bigMem_eq ⟨x, 0⟩ h
    mem_simp [newFromFloat64Mem, newFromFloat64, h1, Bool.false_eq_true, if_false, hL]
    cases hb : Float.big ⟨x, 0⟩ with
    | error e => exact ⟨_, rfl⟩
    | ok r =>
      obtain rfl := hb' _ hb
      mem_simp [Except.map, Mem.acc]
      exact ⟨_, rfl⟩

theorem Float.float64Mem_eq (f : Float) (h : Heap) :
    ∃ L, f.float64Mem h = (f.float64, h ++ L) := by
  obtain ⟨b, L, hL, hb'⟩ := bigMem_eq f h
  simp only [Float.float64Mem, Float.float64, bind_run, hL]
  cases hb : f.big with
  | error e => exact ⟨_, rfl⟩
  | ok r =>
    obtain ⟨b2, n⟩ := r
    obtain rfl := hb' _ hb
    refine ⟨b2 :: L, ?_⟩
    simp only [Except.map, ok_cont, go_bind]
    cases n
    · mem_simp [Bool.false_eq_true, if_false]; rfl
    · mem_simp [if_true]; cases b2.signbit <;> rfl

theorem Float.float32Mem_eq (f : Float) (h : Heap) :
    ∃ L, f.float32Mem h = (f.float32, h ++ L) := by
  obtain ⟨b, L, hL, hb'⟩ := bigMem_eq f h
  simp only [Float.float32Mem, Float.float32, bind_run, hL]
  cases hb : f.big with
  | error e => exact ⟨_, rfl⟩
  | ok r =>
    obtain ⟨b2, n⟩ := r
    obtain rfl := hb' _ hb
    refine ⟨b2 :: L, ?_⟩
    simp only [Except.map, ok_cont, go_bind]
    cases n
    · mem_simp [Bool.false_eq_true, if_false]; rfl
    · mem_simp [if_true]; cases b2.signbit <;> rfl

theorem newFromFloat32Mem_eq (x : F32) (h : Heap) :
    ∃ L, newFromFloat32Mem x h = (newFromFloat32 x, h ++ L) := by
  obtain ⟨L, hL⟩ := newFromFloat64Mem_eq (f32to64 x) h
  simp only [newFromFloat32Mem, newFromFloat32, bind_run, hL]
  cases hb : newFromFloat64 (f32to64 x) with
  | error e => exact ⟨_, rfl⟩
  | ok r =>
    obtain ⟨f, acc⟩ := r
    simp only [Except.map, ok_cont, go_bind, ite_run, bind_run]
    by_cases ha : acc = .exact
    · obtain ⟨L', hL'⟩ := Float.float32Mem_eq f (h ++ L)
      refine ⟨L ++ L', ?_⟩
      simp only [ha, if_true, hL', List.append_assoc]
      cases f.float32 <;> rfl
    · exact ⟨L, by simp only [ha, if_false]; rfl⟩

end Float128ppc

theorem isExact16Mem_eq (W : Nat) {x : Addr} {h : Heap} {v : BigFloat} (hx : h[x]? = some v) :
    isExact16Mem W x h = (isExact16 W v, h) := by
  have hl : get x h = (.ok v, h) := by simp [get_run, hx]
  mem_simp [isExact16Mem, isExact16, hl]
  by_cases h1 : v.float64.2 = .exact
  · simp only [h1, ne_eq, not_true_eq_false, if_false]
    cases Strconv.formatFloat W v.float64.1 'e' (-1) 16 with
    | error e => rfl
    | ok s =>
      mem_simp [hl]
      cases trimZeros (v.textE 100) <;> rfl
  · simp only [h1, ne_eq, not_false_eq_true, if_true]; rfl

theorem isExact32Mem_eq (W : Nat) {x : Addr} {h : Heap} {v : BigFloat} (hx : h[x]? = some v) :
    isExact32Mem W x h = (isExact32 W v, h) := by
  have hl : get x h = (.ok v, h) := by simp [get_run, hx]
  mem_simp [isExact32Mem, isExact32, hl]
  by_cases h1 : v.float32.2 = .exact
  · simp only [h1, ne_eq, not_true_eq_false, if_false]
    cases Strconv.formatFloat W (f32to64 v.float32.1) 'e' (-1) 32 with
    | error e => rfl
    | ok s =>
      mem_simp [hl]
      cases trimZeros (v.textE 100) <;> rfl
  · simp only [h1, ne_eq, not_false_eq_true, if_true]; rfl

theorem isExact64Mem_eq (W : Nat) {x : Addr} {h : Heap} {v : BigFloat} (hx : h[x]? = some v) :
    isExact64Mem W x h = (isExact64 W v, h) := by
  have hl : get x h = (.ok v, h) := by simp [get_run, hx]
  mem_simp [isExact64Mem, isExact64, hl]
  by_cases h1 : v.float64.2 = .exact
  · simp only [h1, ne_eq, not_true_eq_false, if_false]
    cases Strconv.formatFloat W v.float64.1 'e' (-1) 64 with
    | error e => rfl
    | ok s =>
      mem_simp [hl]
      cases trimZeros (v.textE 100) <;> rfl
  · simp only [h1, ne_eq, not_false_eq_true, if_true]; rfl

end GoFloat
