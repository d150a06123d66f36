import Verif.Proofs.Sample
import Verif.Proofs.Heap
/-
C80: whose memory is read and written. The functions take and return pointers to `big.Float`; the
theorems say which of the numbers that exist at the time of a call are changed by it, what the pointer
that `Big` returns points to, and that nobody else knows it.
-/
namespace GoFloat
open Mem

/-- All numbers that existed in `h` are in `h'` what they were. -/
def Kept (h h' : Heap) : Prop := ∀ p, p < h.length → h'[p]? = h[p]?

/-- The computation `m` that works on the memory does what the computation `g` on values does, and
leaves every existing number as it was, whether it returns or panics. -/
def Harmless {α : Type} (m : Mem α) (g : Go α) : Prop := ∀ h, ∃ h', m h = (g, h') ∧ Kept h h'

/-- `m` leaves every existing number as it was and returns what `g` returns, in a variable that did
not exist before the call. -/
def Fresh (m : Mem (Addr × Bool)) (g : Go (BigFloat × Bool)) : Prop :=
  ∀ h, ∃ h', Kept h h' ∧
    match g with
    | .ok (b, nan) => ∃ p, h.length ≤ p ∧ h'[p]? = some b ∧ m h = (.ok (p, nan), h')
    | .error e => m h = (.error e, h')

theorem kept_append (h L : Heap) : Kept h (h ++ L) := fun _ hp => List.getElem?_append_left hp

theorem Kept.trans {h h' h'' : Heap} (h1 : Kept h h') (h2 : Kept h' h'') : Kept h h'' := by
  intro p hp
  have hp' : p < h'.length := by
    have := h1 p hp
    rw [List.getElem?_eq_getElem hp] at this
    exact (List.getElem?_eq_some_iff.1 this).1
  rw [h2 p hp', h1 p hp]

theorem fresh_of {m : Mem (Addr × Bool)} {g : Go (BigFloat × Bool)}
    (H : ∀ h, ∃ b L, m h = (g.map (fun r => (h.length, r.2)), h ++ b :: L) ∧ ∀ r, g = .ok r → r.1 = b) :
    Fresh m g := by
  intro h
  obtain ⟨b, L, h1, h2⟩ := H h
  refine ⟨_, kept_append h (b :: L), ?_⟩
  rcases g with e | ⟨c, n⟩
  · exact h1
  · obtain rfl := h2 _ rfl
    exact ⟨h.length, Nat.le_refl _, by simp, h1⟩

theorem harmless_of {α : Type} {m : Mem α} {g : Go α} (H : ∀ h, ∃ L, m h = (g, h ++ L)) : Harmless m g := by
  intro h
  obtain ⟨L, h1⟩ := H h
  exact ⟨_, h1, kept_append h L⟩

/-! ### `Big` hands out memory that nobody else knows -/

/-- bfloat: `Big` returns a new variable and changes no existing one. -/
theorem C80_bfloat_big (f : Bfloat.Float) : Fresh f.bigMem f.big := fresh_of (Bfloat.bigMem_eq f)

/-- binary16: `Big` returns a new variable and changes no existing one. -/
theorem C80_binary16_big (f : Binary16.Float) : Fresh f.bigMem f.big := fresh_of (Binary16.bigMem_eq f)

/-- binary128: `Big` returns a new variable and changes no existing one. -/
theorem C80_binary128_big (f : Binary128.Float) : Fresh f.bigMem f.big := fresh_of (Binary128.bigMem_eq f)

/-- float80x86: `Big` returns a new variable and changes no existing one. -/
theorem C80_float80x86_big (f : Float80x86.Float) : Fresh f.bigMem f.big := fresh_of (Float80x86.bigMem_eq f)

/-- float128ppc: `Big` returns a new variable and changes no existing one. -/
theorem C80_float128ppc_big (f : Float128ppc.Float) : Fresh f.bigMem f.big := fresh_of (Float128ppc.bigMem_eq f)

/-- Two calls of `Big`, of any two of the packages, return different variables, and the second call
leaves what the first returned. So writing to one of them does not change the other. -/
theorem C80_big_twice {m1 m2 : Mem (Addr × Bool)} {b1 b2 : BigFloat} {n1 n2 : Bool}
    (H1 : Fresh m1 (.ok (b1, n1))) (H2 : Fresh m2 (.ok (b2, n2))) (h : Heap) :
    ∃ p q h1 h2, m1 h = (.ok (p, n1), h1) ∧ m2 h1 = (.ok (q, n2), h2) ∧ p ≠ q ∧
      h2[p]? = some b1 ∧ h2[q]? = some b2 ∧ ∀ v, (h2.set p v)[q]? = some b2 ∧ (h2.set q v)[p]? = some b1 := by
  obtain ⟨h1, k1, p, hp, hb1, e1⟩ := H1 h
  obtain ⟨h2, k2, q, hq, hb2, e2⟩ := H2 h1
  have hl : p < h1.length := (List.getElem?_eq_some_iff.1 hb1).1
  have hne : p ≠ q := by omega
  have hp2 : h2[p]? = some b1 := by rw [k2 p hl, hb1]
  refine ⟨p, q, h1, h2, e1, e2, hne, hp2, hb2, fun v => ⟨?_, ?_⟩⟩
  · rw [List.getElem?_set_ne hne, hb2]
  · rw [List.getElem?_set_ne hne.symm, hp2]

/-- A case of it: two calls of `Big` of the same half-precision number. -/
example (h : Heap) : ∃ p q h1 h2 b, (Binary16.newFromBits 0x3C00).bigMem h = (.ok (p, false), h1) ∧
    (Binary16.newFromBits 0x3C00).bigMem h1 = (.ok (q, false), h2) ∧ p ≠ q ∧
    h2[p]? = some b ∧ h2[q]? = some b := by
  have hb : (Binary16.newFromBits 0x3C00).big = .ok
      ({ prec := 11, mode := .toNearestEven, acc := .exact, form := .finite, neg := false, mant := 1024, exp := 1 }, false) := by
    rfl
  have H := C80_binary16_big (Binary16.newFromBits 0x3C00)
  rw [hb] at H
  obtain ⟨p, q, h1, h2, e1, e2, hne, a, b, _⟩ := C80_big_twice H H h
  exact ⟨p, q, h1, h2, _, e1, e2, hne, a, b⟩

/-! ### The other functions leave existing numbers alone -/

/-- binary16: `NewFromBig` reads its argument and changes no existing number, its argument included. -/
theorem C80_binary16_newFromBig {x : Addr} {h : Heap} (hx : x < h.length) :
    ∃ r h', Binary16.newFromBigMem x h = (.ok r, h') ∧ Binary16.newFromBig h[x] = .ok r ∧ Kept h h' := by
  obtain ⟨L, e⟩ := Binary16.newFromBigMem_eq (List.getElem?_eq_getElem hx)
  have hr : ∃ r, Binary16.newFromBig h[x] = .ok r := by
    obtain ⟨z, hz⟩ := newFloat_zero_ok
    simp only [Binary16.newFromBig, hz, go_bind]
    split
    · exact ⟨_, rfl⟩
    split
    · exact ⟨_, rfl⟩
    split
    · exact ⟨_, rfl⟩
    · exact ⟨_, rfl⟩
  obtain ⟨r, hr⟩ := hr
  exact ⟨r, _, by rw [e, hr], hr, kept_append h L⟩

example := C80_binary16_newFromBig (x := 1) (h := [Sample.x, Sample.y]) (by decide)

/-- binary128: `NewFromBig` reads its argument and changes no existing number, its argument included. -/
theorem C80_binary128_newFromBig {x : Addr} {h : Heap} (hx : x < h.length) :
    ∃ r h', Binary128.newFromBigMem x h = (.ok r, h') ∧ Binary128.newFromBig h[x] = .ok r ∧ Kept h h' := by
  obtain ⟨L, e⟩ := Binary128.newFromBigMem_eq (List.getElem?_eq_getElem hx)
  have hr : ∃ r, Binary128.newFromBig h[x] = .ok r := by
    obtain ⟨z, hz⟩ := newFloat_zero_ok
    simp only [Binary128.newFromBig, hz, go_bind]
    split
    · exact ⟨_, rfl⟩
    split
    · exact ⟨_, rfl⟩
    split
    · exact ⟨_, rfl⟩
    · exact ⟨_, rfl⟩
  obtain ⟨r, hr⟩ := hr
  exact ⟨r, _, by rw [e, hr], hr, kept_append h L⟩

example := C80_binary128_newFromBig (x := 1) (h := [Sample.x, Sample.y]) (by decide)

/-- float80x86: `NewFromBig` reads its argument and changes no existing number, its argument included. -/
theorem C80_float80x86_newFromBig {x : Addr} {h : Heap} (hx : x < h.length) :
    ∃ r h', Float80x86.newFromBigMem x h = (.ok r, h') ∧ Float80x86.newFromBig h[x] = .ok r ∧ Kept h h' := by
  obtain ⟨L, e⟩ := Float80x86.newFromBigMem_eq (List.getElem?_eq_getElem hx)
  have hr : ∃ r, Float80x86.newFromBig h[x] = .ok r := by
    obtain ⟨z, hz⟩ := newFloat_zero_ok
    simp only [Float80x86.newFromBig, hz, go_bind]
    split
    · exact ⟨_, rfl⟩
    split
    · exact ⟨_, rfl⟩
    split
    · exact ⟨_, rfl⟩
    · exact ⟨_, rfl⟩
  obtain ⟨r, hr⟩ := hr
  exact ⟨r, _, by rw [e, hr], hr, kept_append h L⟩

example := C80_float80x86_newFromBig (x := 1) (h := [Sample.x, Sample.y]) (by decide)

/-- binary16: `NewFromFloat64`, `NewFromFloat32`, `Float64` and `Float32` change no existing number. -/
theorem C80_binary16_floats : (∀ x, Harmless (Binary16.newFromFloat64Mem x) (Binary16.newFromFloat64 x)) ∧
    (∀ x, Harmless (Binary16.newFromFloat32Mem x) (Binary16.newFromFloat32 x)) ∧
    (∀ f : Binary16.Float, Harmless f.float64Mem f.float64) ∧ (∀ f : Binary16.Float, Harmless f.float32Mem f.float32) :=
  ⟨fun x => harmless_of (Binary16.newFromFloat64Mem_eq x), fun x => harmless_of (Binary16.newFromFloat32Mem_eq x),
    fun f => harmless_of (Binary16.Float.float64Mem_eq f), fun f => harmless_of (Binary16.Float.float32Mem_eq f)⟩

/-- binary128: `NewFromFloat64`, `NewFromFloat32`, `Float64` and `Float32` change no existing number. -/
theorem C80_binary128_floats : (∀ x, Harmless (Binary128.newFromFloat64Mem x) (Binary128.newFromFloat64 x)) ∧
    (∀ x, Harmless (Binary128.newFromFloat32Mem x) (Binary128.newFromFloat32 x)) ∧
    (∀ f : Binary128.Float, Harmless f.float64Mem f.float64) ∧ (∀ f : Binary128.Float, Harmless f.float32Mem f.float32) :=
  ⟨fun x => harmless_of (Binary128.newFromFloat64Mem_eq x), fun x => harmless_of (Binary128.newFromFloat32Mem_eq x),
    fun f => harmless_of (Binary128.Float.float64Mem_eq f), fun f => harmless_of (Binary128.Float.float32Mem_eq f)⟩

/-- float80x86: `NewFromFloat64`, `NewFromFloat32`, `Float64` and `Float32` change no existing number. -/
theorem C80_float80x86_floats : (∀ x, Harmless (Float80x86.newFromFloat64Mem x) (Float80x86.newFromFloat64 x)) ∧
    (∀ x, Harmless (Float80x86.newFromFloat32Mem x) (Float80x86.newFromFloat32 x)) ∧
    (∀ f : Float80x86.Float, Harmless f.float64Mem f.float64) ∧ (∀ f : Float80x86.Float, Harmless f.float32Mem f.float32) :=
  ⟨fun x => harmless_of (Float80x86.newFromFloat64Mem_eq x), fun x => harmless_of (Float80x86.newFromFloat32Mem_eq x),
    fun f => harmless_of (Float80x86.Float.float64Mem_eq f), fun f => harmless_of (Float80x86.Float.float32Mem_eq f)⟩

/-- float128ppc: `NewFromFloat64`, `NewFromFloat32`, `Float64` and `Float32` change no existing number. -/
theorem C80_float128ppc_floats : (∀ x, Harmless (Float128ppc.newFromFloat64Mem x) (Float128ppc.newFromFloat64 x)) ∧
    (∀ x, Harmless (Float128ppc.newFromFloat32Mem x) (Float128ppc.newFromFloat32 x)) ∧
    (∀ f : Float128ppc.Float, Harmless f.float64Mem f.float64) ∧ (∀ f : Float128ppc.Float, Harmless f.float32Mem f.float32) :=
  ⟨fun x => harmless_of (Float128ppc.newFromFloat64Mem_eq x), fun x => harmless_of (Float128ppc.newFromFloat32Mem_eq x),
    fun f => harmless_of (Float128ppc.Float.float64Mem_eq f), fun f => harmless_of (Float128ppc.Float.float32Mem_eq f)⟩

/-- A case of it: the number 1, alone in memory, is still there after `binary16.NewFromBig`. -/
example : ∃ r h', Binary16.newFromBigMem 0
      [{ BigFloat.new with prec := 53, form := .finite, mant := 1, exp := 1 }] = (.ok r, h') ∧
    h'[0]? = some { BigFloat.new with prec := 53, form := .finite, mant := 1, exp := 1 } := by
  obtain ⟨r, h', e, -, k⟩ := C80_binary16_newFromBig (x := 0)
    (h := [{ BigFloat.new with prec := 53, form := .finite, mant := 1, exp := 1 }]) (by decide)
  exact ⟨r, h', e, k 0 (by decide)⟩

/-- `IsExact16`, `IsExact32` and `IsExact64` write nothing at all. -/
theorem C80_isExact (W : Nat) {x : Addr} {h : Heap} (hx : x < h.length) :
    isExact16Mem W x h = (isExact16 W h[x], h) ∧ isExact32Mem W x h = (isExact32 W h[x], h) ∧
      isExact64Mem W x h = (isExact64 W h[x], h) :=
  ⟨isExact16Mem_eq W (List.getElem?_eq_getElem hx), isExact32Mem_eq W (List.getElem?_eq_getElem hx),
    isExact64Mem_eq W (List.getElem?_eq_getElem hx)⟩

example := C80_isExact 64 (x := 1) (h := [Sample.x, Sample.y]) (by decide)

/-! ### float128ppc.NewFromBig changes its argument, and only it -/
namespace Float128ppc

theorem setPrec_prec (v : BigFloat) : (v.setPrec precision).prec = 106 := by
  have hp : ¬ precision = 0 := by decide
  have hm : min precision BigFloat.MaxPrec = 106 := by decide
  simp only [BigFloat.setPrec, hp, if_false, hm]
  split
  · simp only [BigFloat.round]
    split
    · split
      · rfl
      split
      · rfl
      split
      · split
        · split <;> rfl
        · rfl
      · rfl
    · rfl
  · rfl

theorem setPrec_self {v : BigFloat} (h1 : v.prec = 106) (h2 : v.mode = .toNearestEven) (h3 : v.acc = .exact) :
    (v.setPrec precision).setMode .toNearestEven = v := by
  obtain ⟨prec, mode, acc, form, neg, mant, exp⟩ := v
  simp only at h1 h2 h3
  subst h1 h2 h3
  simp [BigFloat.setPrec, BigFloat.setMode, BigFloat.MaxPrec, precision]

/-- `NewFromBig` of float128ppc changes its argument and nothing else: a finite, nonzero argument is
rounded to 106 bits and its rounding mode set to nearest-even, also when the call panics; a zero or
an infinity is left as it was. -/
theorem C80_newFromBig {x : Addr} {h : Heap} (hx : x < h.length) :
    ∃ h', newFromBigMem x h = ((newFromBig h[x]).map Prod.fst, h') ∧
      (∀ p, p < h.length → p ≠ x → h'[p]? = h[p]?) ∧
      h'[x]? = some (if h[x].form = .finite then (h[x].setPrec 106).setMode .toNearestEven else h[x]) := by
  obtain ⟨L, e⟩ := newFromBigMem_eq (List.getElem?_eq_getElem hx)
  refine ⟨_, e, fun p hp hne => ?_, ?_⟩
  · rw [List.getElem?_append_left (by simpa using hp), List.getElem?_set_ne (Ne.symm hne)]
  · rw [List.getElem?_append_left (by simpa using hx), List.getElem?_set_self hx]; rfl

example := C80_newFromBig (x := 1) (h := [Sample.x, Sample.y]) (by decide)

/-- Exactly when the argument comes out as it went in: it is a zero or an infinity, or it has 106 bits
of precision, the mode nearest-even and the accuracy `Exact` already. -/
theorem C80_newFromBig_kept {x : Addr} {h : Heap} (hx : x < h.length) :
    Kept h (newFromBigMem x h).2 ↔
      h[x].form ≠ .finite ∨ h[x].prec = 106 ∧ h[x].mode = .toNearestEven ∧ h[x].acc = .exact := by
  obtain ⟨h', e, h1, h2⟩ := C80_newFromBig hx
  have key : Kept h (newFromBigMem x h).2 ↔
      (if h[x].form = .finite then (h[x].setPrec 106).setMode .toNearestEven else h[x]) = h[x] := by
    rw [e]
    constructor
    · intro k
      have := k x hx
      rw [h2, List.getElem?_eq_getElem hx] at this
      exact Option.some.inj this
    · intro k p hp
      by_cases hpx : p = x
      · subst hpx; rw [h2, k, List.getElem?_eq_getElem hp]
      · exact h1 p hp hpx
  rw [key]
  by_cases hf : h[x].form = .finite
  · simp only [hf, if_true, ne_eq, not_true_eq_false, false_or]
    constructor
    · intro k
      refine ⟨?_, ?_, ?_⟩
      · rw [← k]; exact setPrec_prec _
      · rw [← k]; rfl
      · rw [← k]; rfl
    · rintro ⟨k1, k2, k3⟩
      exact setPrec_self k1 k2 k3
  · simp [hf]

example := C80_newFromBig_kept (x := 1) (h := [Sample.x, Sample.y]) (by decide)

theorem newFromBig_finite {v : BigFloat} (hf : v.form = .finite) :
    newFromBig v = (do
      let x := (v.setPrec precision).setMode .toNearestEven
      let high := x.float64.1
      let h ← newFloat high
      let h := (h.setPrec precision).setMode .toNearestEven
      let l ← newFloat 0
      let l := (l.setPrec precision).setMode .toNearestEven
      let l ← l.sub x h
      let low := l.float64.1
      let result ← newFloat 0
      let result := (result.setPrec precision).setMode .toNearestEven
      let result ← result.add h l
      return ((⟨high, low⟩, Accuracy.ofOrdering (x.cmp result)), x)) := by
  obtain ⟨z, hz⟩ := newFloat_zero_ok
  have h1 : v.isInf = false := by simp [BigFloat.isInf, hf]
  have h2 : ¬ v.cmp (z.setPrec precision) = .eq := by
    rw [cmp_newZero v z hz, hf]; decide
  simp only [newFromBig, hz, go_bind, h1, h2, Bool.false_eq_true, if_false]

theorem round_form {v : BigFloat} (hf : v.form = .finite) : v.round.form = .finite ∨
    v.round.form = .inf ∧ v.round.neg = v.neg := by
  simp only [BigFloat.round, hf]
  split
  · exact .inl rfl
  split
  · exact .inl rfl
  split
  · split
    · split
      · exact .inr ⟨rfl, rfl⟩
      · exact .inl rfl
    · exact .inl rfl
  · exact .inl rfl

theorem setPrec_form {v : BigFloat} (hf : v.form = .finite) :
    (v.setPrec precision).form = .finite ∨ (v.setPrec precision).form = .inf := by
  have hp : ¬ precision = 0 := by decide
  simp only [BigFloat.setPrec, hp, if_false]
  split
  · rcases round_form (v := { v with prec := min precision BigFloat.MaxPrec }) hf with h | h
    · exact .inl h
    · exact .inr h.1
  · exact .inl hf

/-- After rounding to an infinity the subtraction `Inf - Inf` panics. -/
theorem newFromBig_overflow {v : BigFloat} (hf : v.form = .finite)
    (hi : ((v.setPrec precision).setMode .toNearestEven).form = .inf) : newFromBig v = .error .errNaN := by
  rw [newFromBig_finite hf]
  generalize (v.setPrec precision).setMode .toNearestEven = w at hi
  obtain ⟨z, hz⟩ := newFloat_zero_ok
  have key : ∃ a, newFloat w.float64.1 = .ok a ∧
      ((a.setPrec precision).setMode .toNearestEven).form = .inf ∧
      ((a.setPrec precision).setMode .toNearestEven).neg = w.neg := by
    obtain ⟨prec, mode, acc, form, neg, mant, exp⟩ := w
    simp only at hi
    subst hi
    cases neg
    · have hn : F64.isNaN (BitVec.ofNat 64 (2047 * 2 ^ 52)) = false := by decide +kernel
      refine ⟨decodeIEEE 52 11 (BitVec.ofNat 64 (2047 * 2 ^ 52)).toNat, ?_, by decide +kernel, ?_⟩
      rotate_left
      · show _ = false
        decide +kernel
      have : (BigFloat.float64 ⟨prec, mode, acc, .inf, false, mant, exp⟩).1 = BitVec.ofNat 64 (2047 * 2 ^ 52) := by
        simp [BigFloat.float64, BigFloat.toIEEE]
      rw [this, newFloat, hn]; rfl
    · have hn : F64.isNaN (BitVec.ofNat 64 (2 ^ 63 + 2047 * 2 ^ 52)) = false := by decide +kernel
      refine ⟨decodeIEEE 52 11 (BitVec.ofNat 64 (2 ^ 63 + 2047 * 2 ^ 52)).toNat, ?_, by decide +kernel, ?_⟩
      rotate_left
      · show _ = true
        decide +kernel
      have : (BigFloat.float64 ⟨prec, mode, acc, .inf, true, mant, exp⟩).1 = BitVec.ofNat 64 (2 ^ 63 + 2047 * 2 ^ 52) := by
        simp [BigFloat.float64, BigFloat.toIEEE]
      rw [this, newFloat, hn]; rfl
  obtain ⟨a, ha, h1, h2⟩ := key
  simp only [ha, hz, go_bind, BigFloat.sub, hi, h1, h2, if_true, go_error]

/-- What `NewFromBig` makes of its argument. -/
def settle (v : BigFloat) : BigFloat :=
  if v.form = .finite then (v.setPrec precision).setMode .toNearestEven else v

theorem settle_settle (v : BigFloat) : settle (settle v) = settle v := by
  by_cases hf : v.form = .finite
  · have e : settle v = (v.setPrec precision).setMode .toNearestEven := by simp [settle, hf]
    rw [e]
    by_cases hg : ((v.setPrec precision).setMode .toNearestEven).form = .finite
    · rw [settle, if_pos hg]
      exact setPrec_self (setPrec_prec v) rfl rfl
    · rw [settle, if_neg hg]
  · have e : settle v = v := by simp [settle, hf]
    rw [e, e]

theorem newFromBig_settle {v w : BigFloat} {r : Float × Accuracy} (h : newFromBig v = .ok (r, w)) :
    ∃ w', newFromBig (settle v) = .ok (r, w') := by
  by_cases hf : v.form = .finite
  · have e : settle v = (v.setPrec precision).setMode .toNearestEven := by simp [settle, hf]
    rcases setPrec_form hf with hg | hg
    · have hg' : (settle v).form = .finite := by rw [e]; exact hg
      have e2 : ((settle v).setPrec precision).setMode .toNearestEven = (v.setPrec precision).setMode .toNearestEven := by
        rw [e]; exact setPrec_self (setPrec_prec v) rfl rfl
      rw [newFromBig_finite hf] at h
      exact ⟨w, by rw [newFromBig_finite hg', e2]; exact h⟩
    · rw [newFromBig_overflow hf hg] at h
      cases h
  · have e : settle v = v := by simp [settle, hf]
    exact ⟨w, by rw [e]; exact h⟩

/-- A second call with the same variable returns the same and changes nothing more. -/
theorem C80_newFromBig_twice {x : Addr} {h h' : Heap} {r : Float × Accuracy} (hx : x < h.length)
    (e : newFromBigMem x h = (.ok r, h')) : ∃ h'', newFromBigMem x h' = (.ok r, h'') ∧ Kept h' h'' := by
  obtain ⟨h1, e1, -, k⟩ := C80_newFromBig hx
  rw [e] at e1
  obtain ⟨e0, rfl⟩ := Prod.mk.inj e1
  change h'[x]? = some (settle h[x]) at k
  obtain ⟨L, e2⟩ := newFromBigMem_eq k
  change _ = (_, h'.set x (settle (settle h[x])) ++ L) at e2
  rw [settle_settle, set_of_get k] at e2
  rcases hn : newFromBig h[x] with _ | ⟨r', w⟩
  · rw [hn] at e0; cases e0
  · rw [hn] at e0
    obtain rfl : r = r' := by
      have := e0
      simp only [Except.map] at this
      exact Except.ok.inj this
    obtain ⟨w', hw⟩ := newFromBig_settle hn
    exact ⟨_, by rw [e2, hw]; rfl, kept_append h' L⟩

/-- A case of it: the number 1 with 53 bits of precision, alone in memory, comes out with 106 bits. -/
example : ∃ r h', newFromBigMem 0 [{ BigFloat.new with prec := 53, form := .finite, mant := 1, exp := 1 }] = (.ok r, h') ∧
    h'[0]? = some { BigFloat.new with prec := 106, form := .finite, mant := 1, exp := 1 } := by
  obtain ⟨h', e, -, k⟩ := C80_newFromBig (x := 0)
    (h := [{ BigFloat.new with prec := 53, form := .finite, mant := 1, exp := 1 }]) (by decide)
  refine ⟨(⟨0x3FF0000000000000, 0⟩, .exact), h', ?_, ?_⟩
  · rw [e]
    have : newFromBig { BigFloat.new with prec := 53, form := .finite, mant := 1, exp := 1 } = .ok
        ((⟨0x3FF0000000000000, 0⟩, .exact), { BigFloat.new with prec := 106, form := .finite, mant := 1, exp := 1 }) := by
      rfl
    exact congrArg (fun g : Go ((Float × Accuracy) × BigFloat) => (g.map Prod.fst, h')) this
  · rw [k]; rfl

end Float128ppc
end GoFloat
