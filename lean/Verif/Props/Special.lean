import Verif.Model.BigMul
import Verif.Spec.Special
import Verif.Props.Product
import Verif.Props.Monotone
/-
C111: arithmetic with infinities and zeros by way of `Big`, `math/big` and `NewFromBig`.
-/
namespace GoFloat
open Spec

variable {x y z : BigFloat} {d d' : Datum}

/-- What an operation of `math/big` returns: the datum, or the panic that stands for a NaN. -/
def Yields (r : Go BigFloat) (o : Option Datum) : Prop :=
  match o with
  | some d => ∃ R, r = .ok R ∧ ((R.form = .inf ∧ d = .inf R.neg) ∨ (R.form = .zero ∧ d = .num R.neg 0))
  | none => r = .error .errNaN

/-- The forms that belong to a datum. -/
theorem form_of_datum (hx : x.WF) (h : x.datum = d) :
    (x.form = .zero ∧ d = .num x.neg 0) ∨ (x.form = .inf ∧ d = .inf x.neg) ∨ (x.form = .finite ∧ ∃ m, m ≠ 0 ∧ d = .num x.neg m) := by
  unfold BigFloat.datum at h
  cases hf : x.form <;> simp only [hf] at h
  · exact Or.inl ⟨rfl, h.symm⟩
  · exact Or.inr (Or.inr ⟨rfl, x.mag, (BigFloat.mag_pos (hx.mant_pos hf)).ne', h.symm⟩)
  · exact Or.inr (Or.inl ⟨rfl, h.symm⟩)

theorem notnan_datum {nan : Bool} (hd : NotNaN d) (h : Decoded d x nan) : nan = false ∧ x.datum = d := by
  cases d with
  | nan s => exact absurd hd (by simp [NotNaN])
  | inf s => exact h
  | num s m => exact h

theorem mul_special (hx : x.WF) (hy : y.WF) (h : x.datum = d) (h' : y.datum = d') (hn : ¬ (IsNonzero d ∧ IsNonzero d')) :
    Yields (z.mulAny x y) (specialProduct d d') := by
  unfold BigFloat.mulAny
  rcases form_of_datum hx h with ⟨hf, rfl⟩ | ⟨hf, rfl⟩ | ⟨hf, m, hm, rfl⟩ <;>
    rcases form_of_datum hy h' with ⟨hg, rfl⟩ | ⟨hg, rfl⟩ | ⟨hg, m', hm', rfl⟩ <;>
    simp_all [specialProduct, Yields, IsNonzero]

theorem quo_special (hx : x.WF) (hy : y.WF) (h : x.datum = d) (h' : y.datum = d') (hn : ¬ (IsNonzero d ∧ IsNonzero d')) :
    Yields (z.quoAny x y) (specialQuotient d d') := by
  unfold BigFloat.quoAny
  rcases form_of_datum hx h with ⟨hf, rfl⟩ | ⟨hf, rfl⟩ | ⟨hf, m, hm, rfl⟩ <;>
    rcases form_of_datum hy h' with ⟨hg, rfl⟩ | ⟨hg, rfl⟩ | ⟨hg, m', hm', rfl⟩ <;>
    simp_all [specialQuotient, Yields, IsNonzero]

theorem set_inf_form (hf : x.form = .inf) : (BigFloat.set z x).form = .inf ∧ (BigFloat.set z x).neg = x.neg := by
  unfold BigFloat.set BigFloat.round
  simp only [hf]
  split
  · exact ⟨rfl, rfl⟩
  · split <;> simp

theorem add_special (hx : x.WF) (hy : y.WF) (h : x.datum = d) (h' : y.datum = d') (hn : ¬ (IsNum d ∧ IsNum d')) :
    Yields (z.add x y) (infiniteSum d d') := by
  unfold BigFloat.add
  rcases form_of_datum hx h with ⟨hf, rfl⟩ | ⟨hf, rfl⟩ | ⟨hf, m, hm, rfl⟩ <;>
    rcases form_of_datum hy h' with ⟨hg, rfl⟩ | ⟨hg, rfl⟩ | ⟨hg, m', hm', rfl⟩ <;>
    simp_all [infiniteSum, Yields, IsNum, set_inf_form]
  by_cases e : x.neg = y.neg <;> simp [e, set_inf_form, hf]

theorem sub_special (hx : x.WF) (hy : y.WF) (h : x.datum = d) (h' : y.datum = d') (hn : ¬ (IsNum d ∧ IsNum d')) :
    Yields (z.sub x y) (infiniteSum d (opposite d')) := by
  have hneg : ∀ {z y : BigFloat}, y.form = .inf → (BigFloat.negOf z y).form = .inf ∧ (BigFloat.negOf z y).neg = !y.neg := by
    intro z y hy
    unfold BigFloat.negOf BigFloat.negSelf
    exact ⟨(set_inf_form hy).1, congrArg not (set_inf_form hy).2⟩
  unfold BigFloat.sub
  rcases form_of_datum hx h with ⟨hf, rfl⟩ | ⟨hf, rfl⟩ | ⟨hf, m, hm, rfl⟩ <;>
    rcases form_of_datum hy h' with ⟨hg, rfl⟩ | ⟨hg, rfl⟩ | ⟨hg, m', hm', rfl⟩ <;>
    simp_all [infiniteSum, Yields, IsNum, set_inf_form, opposite]
  cases e : x.neg <;> cases e' : y.neg <;> simp [set_inf_form, hf, e]

/-- The precision of a new variable is that of the operands. -/
theorem withPrec_prec {p : ℕ} (hx : x.prec = p) (hy : y.prec = p) (hz : z.prec = 0 ∨ z.prec = p) :
    (z.withPrec x y).prec = p ∧ (z.withPrec x y).mode = z.mode := by
  unfold BigFloat.withPrec
  split
  · exact ⟨by show max x.prec y.prec = p; rw [hx, hy, max_self], rfl⟩
  · exact ⟨by omega, rfl⟩

theorem any_finite (hx : x.form = .finite) (hy : y.form = .finite) :
    z.mulAny x y = .ok ((z.withPrec x y).mul x y) ∧ z.quoAny x y = .ok ((z.withPrec x y).quo x y) := by
  unfold BigFloat.mulAny BigFloat.quoAny
  simp [hx, hy]

namespace Binary16

/-- What comes back: the value, exactly, or the panic of math/big. -/
def Comes (r : Go BigFloat) (o : Option Datum) : Prop :=
  match o with
  | some d => ∃ R h, r = .ok R ∧ newFromBig R = .ok (h, .exact) ∧ half.decode h.bits.toNat = d
  | none => r = .error .errNaN

theorem special_decode (s : Bool) : half.decode (if s then NegZero else Zero).bits.toNat = .num s 0 ∧ half.decode (if s then NegInf else Inf).bits.toNat = .inf s := by
  cases s <;> simp [NegZero, Zero, NegInf, Inf, half, Format.decode]

theorem comes {r : Go BigFloat} {o : Option Datum} (h : Yields r o) : Comes r o := by
  cases o with
  | none => exact h
  | some d =>
    obtain ⟨R, h1, ⟨h2, rfl⟩ | ⟨h2, rfl⟩⟩ := h
    · exact ⟨R, _, h1, newFromBig_inf h2, (special_decode R.neg).2⟩
    · exact ⟨R, _, h1, newFromBig_zero h2, (special_decode R.neg).1⟩

/-- C111 for binary16 -/
theorem C111_binary16 {f g : Float} (hf : NotNaN (half.decode f.bits.toNat)) (hg : NotNaN (half.decode g.bits.toNat)) :
    ∃ x y, f.big = .ok (x, false) ∧ g.big = .ok (y, false) ∧ ∀ z : BigFloat,
      (¬ (IsNum (half.decode f.bits.toNat) ∧ IsNum (half.decode g.bits.toNat)) →
        Comes (z.add x y) (infiniteSum (half.decode f.bits.toNat) (half.decode g.bits.toNat)) ∧
        Comes (z.sub x y) (infiniteSum (half.decode f.bits.toNat) (opposite (half.decode g.bits.toNat)))) ∧
      (¬ (IsNonzero (half.decode f.bits.toNat) ∧ IsNonzero (half.decode g.bits.toNat)) →
        Comes (z.mulAny x y) (specialProduct (half.decode f.bits.toNat) (half.decode g.bits.toNat)) ∧
        Comes (z.quoAny x y) (specialQuotient (half.decode f.bits.toNat) (half.decode g.bits.toNat))) := by
  obtain ⟨x, nx, hx, -, -, -, wx, dx⟩ := C02_binary16_big f
  obtain ⟨y, ny, hy, -, -, -, wy, dy⟩ := C02_binary16_big g
  obtain ⟨rfl, ex⟩ := notnan_datum hf dx
  obtain ⟨rfl, ey⟩ := notnan_datum hg dy
  exact ⟨x, y, hx, hy, fun z => ⟨fun h => ⟨comes (add_special wx wy ex ey h), comes (sub_special wx wy ex ey h)⟩,
    fun h => ⟨comes (mul_special wx wy ex ey h), comes (quo_special wx wy ex ey h)⟩⟩⟩

/-- C111 for binary16, numbers that are not zero: a new variable does as well as one with the precision of the format. -/
theorem C111_binary16_new {f g : Float} {s s' : Bool} {m m' : ℚ} (hf : half.decode f.bits.toNat = .num s m) (hg : half.decode g.bits.toNat = .num s' m')
    (h0 : m ≠ 0) (h0' : m' ≠ 0) (hz : z.prec = 0 ∨ z.prec = 11) (hmode : z.mode = .toNearestEven) :
    ∃ x y R R', f.big = .ok (x, false) ∧ g.big = .ok (y, false) ∧ z.mulAny x y = .ok R ∧ z.quoAny x y = .ok R' ∧
      Returned (s != s') (m * m') R ∧ Returned (s != s') (m / m') R' := by
  obtain ⟨x, nx, hx, px, -, -, wx, dx⟩ := C02_binary16_big f
  obtain ⟨y, ny, hy, py, -, -, wy, dy⟩ := C02_binary16_big g
  rw [hf] at dx; rw [hg] at dy
  obtain ⟨rfl, dx⟩ := dx
  obtain ⟨rfl, dy⟩ := dy
  obtain ⟨e1, e2⟩ := withPrec_prec px py hz
  obtain ⟨x', y', hx', hy', r1, r2⟩ := C108_binary16 hf hg h0 h0' e1 (e2.trans hmode)
  obtain rfl : x = x' := congrArg Prod.fst (Except.ok.inj (hx.symm.trans hx'))
  obtain rfl : y = y' := congrArg Prod.fst (Except.ok.inj (hy.symm.trans hy'))
  obtain ⟨a1, a2⟩ := any_finite (z := z) (nonzero_form wx dx h0).1 (nonzero_form wy dy h0').1
  exact ⟨x, y, _, _, hx, hy, a1, a2, r1, r2⟩

end Binary16

namespace Binary128

/-- What comes back: the value, exactly, or the panic of math/big. -/
def Comes (r : Go BigFloat) (o : Option Datum) : Prop :=
  match o with
  | some d => ∃ R h, r = .ok R ∧ newFromBig R = .ok (h, .exact) ∧ quad.decode h.code = d
  | none => r = .error .errNaN

theorem comes {r : Go BigFloat} {o : Option Datum} (h : Yields r o) : Comes r o := by
  cases o with
  | none => exact h
  | some d =>
    obtain ⟨R, h1, ⟨h2, rfl⟩ | ⟨h2, rfl⟩⟩ := h
    · exact ⟨R, _, h1, newFromBig_inf h2, (special_decode R.neg).2⟩
    · exact ⟨R, _, h1, newFromBig_zero h2, (special_decode R.neg).1⟩

/-- C111 for binary128 -/
theorem C111_binary128 {f g : Float} (hf : NotNaN (quad.decode f.code)) (hg : NotNaN (quad.decode g.code)) :
    ∃ x y, f.big = .ok (x, false) ∧ g.big = .ok (y, false) ∧ ∀ z : BigFloat,
      (¬ (IsNum (quad.decode f.code) ∧ IsNum (quad.decode g.code)) →
        Comes (z.add x y) (infiniteSum (quad.decode f.code) (quad.decode g.code)) ∧
        Comes (z.sub x y) (infiniteSum (quad.decode f.code) (opposite (quad.decode g.code)))) ∧
      (¬ (IsNonzero (quad.decode f.code) ∧ IsNonzero (quad.decode g.code)) →
        Comes (z.mulAny x y) (specialProduct (quad.decode f.code) (quad.decode g.code)) ∧
        Comes (z.quoAny x y) (specialQuotient (quad.decode f.code) (quad.decode g.code))) := by
  obtain ⟨x, nx, hx, -, -, -, wx, dx⟩ := C14_binary128_big f
  obtain ⟨y, ny, hy, -, -, -, wy, dy⟩ := C14_binary128_big g
  obtain ⟨rfl, ex⟩ := notnan_datum hf dx
  obtain ⟨rfl, ey⟩ := notnan_datum hg dy
  exact ⟨x, y, hx, hy, fun z => ⟨fun h => ⟨comes (add_special wx wy ex ey h), comes (sub_special wx wy ex ey h)⟩,
    fun h => ⟨comes (mul_special wx wy ex ey h), comes (quo_special wx wy ex ey h)⟩⟩⟩

/-- C111 for binary128, numbers that are not zero: a new variable does as well as one with the precision of the format. -/
theorem C111_binary128_new {f g : Float} {s s' : Bool} {m m' : ℚ} (hf : quad.decode f.code = .num s m) (hg : quad.decode g.code = .num s' m')
    (h0 : m ≠ 0) (h0' : m' ≠ 0) (hz : z.prec = 0 ∨ z.prec = 113) (hmode : z.mode = .toNearestEven) :
    ∃ x y R R', f.big = .ok (x, false) ∧ g.big = .ok (y, false) ∧ z.mulAny x y = .ok R ∧ z.quoAny x y = .ok R' ∧
      Returned (s != s') (m * m') R ∧ Returned (s != s') (m / m') R' := by
  obtain ⟨x, nx, hx, px, -, -, wx, dx⟩ := C14_binary128_big f
  obtain ⟨y, ny, hy, py, -, -, wy, dy⟩ := C14_binary128_big g
  rw [hf] at dx; rw [hg] at dy
  obtain ⟨rfl, dx⟩ := dx
  obtain ⟨rfl, dy⟩ := dy
  obtain ⟨e1, e2⟩ := withPrec_prec px py hz
  obtain ⟨x', y', hx', hy', r1, r2⟩ := C108_binary128 hf hg h0 h0' e1 (e2.trans hmode)
  obtain rfl : x = x' := congrArg Prod.fst (Except.ok.inj (hx.symm.trans hx'))
  obtain rfl : y = y' := congrArg Prod.fst (Except.ok.inj (hy.symm.trans hy'))
  obtain ⟨a1, a2⟩ := any_finite (z := z) (nonzero_form wx dx h0).1 (nonzero_form wy dy h0').1
  exact ⟨x, y, _, _, hx, hy, a1, a2, r1, r2⟩

end Binary128

namespace Float80x86

/-- What comes back: the value, exactly, or the panic of math/big. -/
def Comes (r : Go BigFloat) (o : Option Datum) : Prop :=
  match o with
  | some d => ∃ R h, r = .ok R ∧ newFromBig R = .ok (h, .exact) ∧ h.val = d
  | none => r = .error .errNaN

theorem comes {r : Go BigFloat} {o : Option Datum} (h : Yields r o) : Comes r o := by
  cases o with
  | none => exact h
  | some d =>
    obtain ⟨R, h1, ⟨h2, rfl⟩ | ⟨h2, rfl⟩⟩ := h
    · exact ⟨R, _, h1, newFromBig_inf h2, (special_val R.neg).2⟩
    · exact ⟨R, _, h1, newFromBig_zero h2, (special_val R.neg).1⟩

/-- C111 for float80x86 -/
theorem C111_float80x86 {f g : Float} (hf : NotNaN f.val) (hg : NotNaN g.val) :
    ∃ x y, f.big = .ok (x, false) ∧ g.big = .ok (y, false) ∧ ∀ z : BigFloat,
      (¬ (IsNum f.val ∧ IsNum g.val) →
        Comes (z.add x y) (infiniteSum f.val g.val) ∧
        Comes (z.sub x y) (infiniteSum f.val (opposite g.val))) ∧
      (¬ (IsNonzero f.val ∧ IsNonzero g.val) →
        Comes (z.mulAny x y) (specialProduct f.val g.val) ∧
        Comes (z.quoAny x y) (specialQuotient f.val g.val)) := by
  obtain ⟨x, nx, hx, -, -, -, wx, dx⟩ := C20_float80x86_big f
  obtain ⟨y, ny, hy, -, -, -, wy, dy⟩ := C20_float80x86_big g
  obtain ⟨rfl, ex⟩ := notnan_datum hf dx
  obtain ⟨rfl, ey⟩ := notnan_datum hg dy
  exact ⟨x, y, hx, hy, fun z => ⟨fun h => ⟨comes (add_special wx wy ex ey h), comes (sub_special wx wy ex ey h)⟩,
    fun h => ⟨comes (mul_special wx wy ex ey h), comes (quo_special wx wy ex ey h)⟩⟩⟩

/-- C111 for float80x86, numbers that are not zero: a new variable does as well as one with the precision of the format. -/
theorem C111_float80x86_new {f g : Float} {s s' : Bool} {m m' : ℚ} (hf : f.val = .num s m) (hg : g.val = .num s' m')
    (h0 : m ≠ 0) (h0' : m' ≠ 0) (hz : z.prec = 0 ∨ z.prec = 64) (hmode : z.mode = .toNearestEven) :
    ∃ x y R R', f.big = .ok (x, false) ∧ g.big = .ok (y, false) ∧ z.mulAny x y = .ok R ∧ z.quoAny x y = .ok R' ∧
      Returned (s != s') (m * m') R ∧ Returned (s != s') (m / m') R' := by
  obtain ⟨x, nx, hx, px, -, -, wx, dx⟩ := C20_float80x86_big f
  obtain ⟨y, ny, hy, py, -, -, wy, dy⟩ := C20_float80x86_big g
  rw [hf] at dx; rw [hg] at dy
  obtain ⟨rfl, dx⟩ := dx
  obtain ⟨rfl, dy⟩ := dy
  obtain ⟨e1, e2⟩ := withPrec_prec px py hz
  obtain ⟨x', y', hx', hy', r1, r2⟩ := C108_float80x86 hf hg h0 h0' e1 (e2.trans hmode)
  obtain rfl : x = x' := congrArg Prod.fst (Except.ok.inj (hx.symm.trans hx'))
  obtain rfl : y = y' := congrArg Prod.fst (Except.ok.inj (hy.symm.trans hy'))
  obtain ⟨a1, a2⟩ := any_finite (z := z) (nonzero_form wx dx h0).1 (nonzero_form wy dy h0').1
  exact ⟨x, y, _, _, hx, hy, a1, a2, r1, r2⟩

end Float80x86

-- an infinity and -11/8 in either order, and two infinities
example := Binary16.C111_binary16 (f := Binary16.Inf) (g := ⟨0xBD80⟩) (by rw [Binary16.C12_binary16_constants.2.2.1]; trivial) (by rw [Sample.x_half]; trivial)
example : infiniteSum (.inf false) (.num true (11 / 8)) = some (.inf false) ∧ specialProduct (.inf false) (.num true (11 / 8)) = some (.inf true) ∧
    specialQuotient (.num true (11 / 8)) (.inf false) = some (.num true 0) ∧ infiniteSum (.inf false) (opposite (.inf false)) = none ∧
    specialQuotient (.num true (11 / 8)) (.num true 0) = some (.inf false) ∧ specialProduct (.num true 0) (.inf false) = none := by
  simp [infiniteSum, specialProduct, specialQuotient, opposite]
example := Binary128.C111_binary128 (f := Binary128.Inf) (g := ⟨0xBFFF600000000000, 0⟩) (by rw [Binary128.C12_binary128_constants.2.2.1]; trivial)
  (by rw [Sample.x_quad]; trivial)
example := Float80x86.C111_float80x86 (f := Float80x86.Inf) (g := ⟨0xBFFF, 0xB000000000000000⟩) (by rw [show Float80x86.Inf.val = _ from (Float80x86.special_val false).2]; trivial)
  (by rw [show (⟨0xBFFF, 0xB000000000000000⟩ : Float80x86.Float).val = .num true (11 / 8) from Sample.x_extended]; trivial)
example := Binary16.C111_binary16_new (z := BigFloat.new) (f := ⟨0xBD80⟩) (g := ⟨0xBD80⟩) Sample.x_half Sample.x_half (by norm_num) (by norm_num) (.inl rfl) rfl
example := Binary128.C111_binary128_new (z := BigFloat.new) (f := ⟨0xBFFF600000000000, 0⟩) (g := ⟨0xBFFF600000000000, 0⟩) Sample.x_quad Sample.x_quad
  (by norm_num) (by norm_num) (.inl rfl) rfl
example := Float80x86.C111_float80x86_new (z := BigFloat.new) (f := ⟨0xBFFF, 0xB000000000000000⟩) (g := ⟨0xBFFF, 0xB000000000000000⟩) Sample.x_extended
  Sample.x_extended (by norm_num) (by norm_num) (.inl rfl) rfl

end GoFloat
