import Verif.Props.CodeOrder
import Verif.Proofs.Sample
/-
Comparing two values with `==` and comparing their numbers (C100 of properties.jsonl). The values are structures of words without pointers, so `==`
of Go compares the words, and `f = g` below is `f == g`.
-/
namespace GoFloat
open Spec

theorem datum_sign (x : BigFloat) : x.datum.sign = x.neg := by
  unfold BigFloat.datum
  cases x.form <;> rfl

theorem decoded_sign {d : Datum} {x : BigFloat} {nan : Bool} (h : Decoded d x nan) : x.neg = d.sign := by
  rw [← datum_sign]
  cases d with
  | nan s => rw [h.2]; rfl
  | inf s => rw [h.2]
  | num s m => rw [h.2]

/-- An encoding is its place and its sign. -/
theorem place_sign {n c c' : ℕ} (h : c < 2 ^ (n + 1)) (h' : c' < 2 ^ (n + 1)) :
    c = c' ↔ place n c = place n c' ∧ (c / 2 ^ n % 2 = 1 ↔ c' / 2 ^ n % 2 = 1) := by
  constructor
  · rintro rfl; exact ⟨rfl, Iff.rfl⟩
  rintro ⟨e, s⟩
  have hP := Nat.two_pow_pos n
  rw [pow_succ] at h h'
  have d1 := Nat.div_add_mod c (2 ^ n)
  have d2 := Nat.div_add_mod c' (2 ^ n)
  have q1 : c / 2 ^ n < 2 := Nat.div_lt_of_lt_mul h
  have q2 : c' / 2 ^ n < 2 := Nat.div_lt_of_lt_mul h'
  unfold place at e
  have two : ∀ a b : ℕ, a < 2 → b < 2 → (a % 2 = 1 ↔ b % 2 = 1) → a = b := by omega
  have hq : c / 2 ^ n = c' / 2 ^ n := two _ _ q1 q2 s
  have hm : c % 2 ^ n = c' % 2 ^ n := by
    rw [← hq] at e
    by_cases hb : c / 2 ^ n % 2 = 1
    · rw [if_pos hb, if_pos hb] at e; exact_mod_cast neg_injective e
    · rw [if_neg hb, if_neg hb] at e; exact_mod_cast e
  rw [← d1, ← d2, hq, hm]

/-- A place of zero is a zero. -/
theorem place_zero {F : Format} {c : ℕ} {x : BigFloat} (hw : 2 ≤ F.w) (hx : x.WF) (hd : Decoded (F.decode c) x false) :
    place (F.t + F.w) c = 0 ↔ x.form = .zero := by
  have hd0 : Decoded (F.decode 0) ⟨0, .toNearestEven, .exact, .zero, false, 0, 0⟩ false := by
    have := F.decode_code false (n := 0) (by
      unfold Format.infCode
      have : 2 ^ 2 ≤ 2 ^ F.w := Nat.pow_le_pow_right (by norm_num) hw
      have := Nat.two_pow_pos F.t
      have : 0 < 2 ^ F.w - 1 := by omega
      positivity)
    rw [(magc_eq_zero F).2 rfl] at this
    simp only [Format.signPart] at this
    rw [show F.decode 0 = .num false 0 by simpa using this]
    exact ⟨rfl, rfl⟩
  have hwf : (⟨0, .toNearestEven, .exact, .zero, false, 0, 0⟩ : BigFloat).WF :=
    ⟨by decide, by decide, by decide, by decide, by decide, fun h => absurd h (by decide)⟩
  have := (cmp_place hw hx hwf hd hd0).2.2
  rw [show place (F.t + F.w) 0 = 0 by simp [place]] at this
  rw [← this]
  constructor
  · intro h
    by_contra hz
    cases hf : x.form with
    | zero => exact hz hf
    | finite => exact BigFloat.cmp_zero_finite hf rfl h
    | inf => exact Float128ppc.cmp_inf hf h
  · intro h; exact BigFloat.cmp_zero_zero h rfl

/-- From the places to `==`. -/
theorem equal_place {F : Format} (hw : 2 ≤ F.w) {c c' : ℕ} (h : c < 2 ^ (F.t + F.w + 1)) (h' : c' < 2 ^ (F.t + F.w + 1)) {x y : BigFloat} (hx : x.WF) (hy : y.WF)
    (hd : Decoded (F.decode c) x false) (hd' : Decoded (F.decode c') y false) :
    (c = c' ↔ x.cmp y = .eq ∧ x.neg = y.neg) ∧ (x.cmp y = .eq ↔ c = c' ∨ x.form = .zero ∧ y.form = .zero) := by
  have h3 := (cmp_place hw hx hy hd hd').2.2
  have hs : (x.neg = y.neg) ↔ (c / 2 ^ (F.t + F.w) % 2 = 1 ↔ c' / 2 ^ (F.t + F.w) % 2 = 1) := by
    rw [decoded_sign hd, decoded_sign hd', decode_sign, decode_sign, decide_eq_decide]
  have h1 : c = c' ↔ x.cmp y = .eq ∧ x.neg = y.neg := by rw [place_sign h h', h3, hs]
  refine ⟨h1, ?_⟩
  rw [← place_zero hw hx hd, ← place_zero hw hy hd', h3, place_sign h h']
  constructor
  · intro e
    by_cases hz : place (F.t + F.w) c = 0
    · exact .inr ⟨hz, e ▸ hz⟩
    · refine .inl ⟨e, ?_⟩
      unfold place at e hz
      split at e <;> split at e <;> simp_all <;> omega
  · rintro (⟨e, -⟩ | ⟨e, e'⟩)
    · exact e
    · rw [e, e']

namespace Binary16

/-- C100: two halves that are not NaNs are equal under `==` exactly if their numbers compare as equal and have the same sign; numbers that compare as equal
without `==` are zeros. -/
theorem C100_binary16 (f g : Float) : ∃ x nan y nan', f.big = .ok (x, nan) ∧ g.big = .ok (y, nan') ∧ (nan = false → nan' = false →
    (f = g ↔ x.cmp y = .eq ∧ x.neg = y.neg) ∧ (x.cmp y = .eq ↔ f = g ∨ x.form = .zero ∧ y.form = .zero)) := by
  obtain ⟨x, nan, h1, -, -, -, hx, h2⟩ := C02_binary16_big f
  obtain ⟨y, nan', h3, -, -, -, hy, h4⟩ := C02_binary16_big g
  refine ⟨x, nan, y, nan', h1, h3, ?_⟩
  rintro rfl rfl
  have e : f = g ↔ f.bits.toNat = g.bits.toNat := by
    cases f; cases g; simp [BitVec.toNat_inj]
  rw [e]
  exact equal_place (by decide) f.bits.isLt g.bits.isLt hx hy h2 h4

end Binary16

namespace Bfloat

/-- C100: the same for bfloat16. -/
theorem C100_bfloat (f g : Float) : ∃ x nan y nan', f.big = .ok (x, nan) ∧ g.big = .ok (y, nan') ∧ (nan = false → nan' = false →
    (f = g ↔ x.cmp y = .eq ∧ x.neg = y.neg) ∧ (x.cmp y = .eq ↔ f = g ∨ x.form = .zero ∧ y.form = .zero)) := by
  obtain ⟨x, nan, h1, -, -, -, hx, h2⟩ := C25_bfloat_big_format f
  obtain ⟨y, nan', h3, -, -, -, hy, h4⟩ := C25_bfloat_big_format g
  refine ⟨x, nan, y, nan', h1, h3, ?_⟩
  rintro rfl rfl
  have e : f = g ↔ f.bits.toNat = g.bits.toNat := by
    cases f; cases g; simp [BitVec.toNat_inj]
  rw [e]
  exact equal_place (by decide) f.bits.isLt g.bits.isLt hx hy h2 h4

end Bfloat

namespace Binary128

/-- C100: the same for binary128. -/
theorem C100_binary128 (f g : Float) : ∃ x nan y nan', f.big = .ok (x, nan) ∧ g.big = .ok (y, nan') ∧ (nan = false → nan' = false →
    (f = g ↔ x.cmp y = .eq ∧ x.neg = y.neg) ∧ (x.cmp y = .eq ↔ f = g ∨ x.form = .zero ∧ y.form = .zero)) := by
  obtain ⟨x, nan, h1, -, -, -, hx, h2⟩ := C14_binary128_big f
  obtain ⟨y, nan', h3, -, -, -, hy, h4⟩ := C14_binary128_big g
  refine ⟨x, nan, y, nan', h1, h3, ?_⟩
  rintro rfl rfl
  have e : f = g ↔ f.code = g.code := by
    constructor
    · rintro rfl; rfl
    · obtain ⟨a, b⟩ := f
      obtain ⟨a', b'⟩ := g
      unfold Float.code
      intro h
      have i1 := a.isLt
      have i2 := b.isLt
      have i3 := a'.isLt
      have i4 := b'.isLt
      dsimp only at h i1 i2 i3 i4
      have ha : a = a' := BitVec.eq_of_toNat_eq (by omega)
      have hb : b = b' := BitVec.eq_of_toNat_eq (by omega)
      rw [ha, hb]
  rw [e]
  have lt : ∀ f : Float, f.code < 2 ^ 128 := by
    intro f
    have i1 := f.a.isLt
    have i2 := f.b.isLt
    unfold Float.code
    omega
  exact equal_place (by decide) (lt f) (lt g) hx hy h2 h4

end Binary128

namespace Float80x86

/-- C100, for all encodings of float80x86 with an exponent field below 0x7FFF: the numbers compare as equal exactly if both 64-bit words are zero or if the signs
agree and so do the 64-bit words times two to the exponents, where an exponent of 0 counts as 1. -/
theorem C100_float80x86_finite (f g : Float) (hf : f.exp ≠ 0x7FFF) (hg : g.exp ≠ 0x7FFF) : ∃ x y, f.big = .ok (x, false) ∧ g.big = .ok (y, false) ∧
    (x.cmp y = .eq ↔ f.m = 0 ∧ g.m = 0 ∨ f.signbit = g.signbit ∧ f.m.toNat * 2 ^ (max f.exp 1).toNat = g.m.toNat * 2 ^ (max g.exp 1).toNat) := by
  have val : ∀ f : Float, f.exp ≠ 0x7FFF → f.val = .num f.signbit (f.m.toNat * 2 ^ (max f.exp 1).toNat * (2 : ℚ) ^ (-16446 : ℤ)) := by
    intro f hf
    obtain ⟨-, h1, h2, -⟩ := C19_float80x86_fields f.se f.m
    change (f.signbit = true ↔ _) at h1
    change f.exp = _ at h2
    have hlt := f.se.isLt
    unfold Float.val decode80
    simp only
    rw [if_neg (by rw [h2] at hf; omega)]
    rw [Datum.num.injEq]
    refine ⟨?_, ?_⟩
    · rw [Bool.eq_iff_iff, h1, decide_eq_true_eq]; omega
    · rw [h2, mul_assoc]
      have e : (2 : ℚ) ^ (max ((f.se.toNat % 2 ^ 15 : ℕ) : ℤ) 1).toNat = (2 : ℚ) ^ (max ((f.se.toNat % 2 ^ 15 : ℕ) : ℤ) 1) := by
        rw [← zpow_natCast, Int.toNat_of_nonneg (by omega)]
      rw [e, ← zpow_add₀ (by norm_num)]
      congr 2
      rw [show ((max (f.se.toNat % 2 ^ 15) 1 : ℕ) : ℤ) = max ((f.se.toNat % 2 ^ 15 : ℕ) : ℤ) 1 by push_cast; rfl]
      ring
  obtain ⟨x, nan, h1, -, -, -, hx, h2⟩ := C20_float80x86_big f
  obtain ⟨y, nan', h3, -, -, -, hy, h4⟩ := C20_float80x86_big g
  rw [val f hf] at h2
  rw [val g hg] at h4
  obtain ⟨rfl, h2⟩ := h2
  obtain ⟨rfl, h4⟩ := h4
  refine ⟨x, y, h1, h3, ?_⟩
  obtain ⟨a, b, ha, hb, -, -, h⟩ := BigFloat.C91_cmp hx hy
  rw [h2] at ha
  rw [h4] at hb
  simp only [Datum.key, Option.some.injEq] at ha hb
  rw [h, ← ha, ← hb, Prod.mk.injEq, eq_self_iff_true, true_and]
  have hu : (0 : ℚ) < (2 : ℚ) ^ (-16446 : ℤ) := zpow_pos (by norm_num) _
  have z : ∀ m : BitVec 64, m = 0 ↔ m.toNat = 0 := by
    intro m
    rw [← BitVec.toNat_inj]
    rfl
  rw [z, z]
  generalize (2 : ℚ) ^ (-16446 : ℤ) = u at hu ⊢
  generalize (max f.exp 1).toNat = p
  generalize (max g.exp 1).toNat = q
  generalize f.m.toNat = m
  generalize g.m.toNat = n
  have hp := Nat.two_pow_pos p
  have hq := Nat.two_pow_pos q
  have c1 : (m : ℚ) * 2 ^ p * u = ((m * 2 ^ p : ℕ) : ℚ) * u := by push_cast; ring
  have c2 : (n : ℚ) * 2 ^ q * u = ((n * 2 ^ q : ℕ) : ℚ) * u := by push_cast; ring
  rw [c1, c2]
  have m0 : m = 0 ↔ m * 2 ^ p = 0 := by simp
  have n0 : n = 0 ↔ n * 2 ^ q = 0 := by simp
  rw [m0, n0]
  generalize m * 2 ^ p = M
  generalize n * 2 ^ q = N
  have key : ∀ A B : ℤ, ((A : ℚ) * u = (B : ℚ) * u ↔ A = B) := by
    intro A B
    rw [mul_left_inj' hu.ne']
    exact_mod_cast Iff.rfl
  have k1 := key M N
  have k2 := key M (-N)
  have k3 := key (-M) N
  have k4 := key (-M) (-N)
  push_cast at k1 k2 k3 k4
  clear hf hg val h1 h2 h3 h4 hp hq m0 n0 c1 c2 key ha hb h hx hy
  cases f.signbit <;> cases g.signbit
  · show (M : ℚ) * u = (N : ℚ) * u ↔ _
    rw [k1]; constructor
    · intro e; exact .inr ⟨rfl, by omega⟩
    · rintro (⟨e, e'⟩ | ⟨-, e⟩) <;> omega
  · show (M : ℚ) * u = -((N : ℚ) * u) ↔ _
    rw [← neg_mul, k2]; constructor
    · intro e; left; omega
    · rintro (⟨e, e'⟩ | ⟨e, -⟩)
      · omega
      · exact absurd e (by decide)
  · show -((M : ℚ) * u) = (N : ℚ) * u ↔ _
    rw [← neg_mul, k3]; constructor
    · intro e; left; omega
    · rintro (⟨e, e'⟩ | ⟨e, -⟩)
      · omega
      · exact absurd e (by decide)
  · show -((M : ℚ) * u) = -((N : ℚ) * u) ↔ _
    rw [← neg_mul, ← neg_mul, k4]; constructor
    · intro e; exact .inr ⟨rfl, by omega⟩
    · rintro (⟨e, e'⟩ | ⟨-, e⟩) <;> omega

-- exponent fields 0x3FFF and 0x4000: 1 and an unnormal encoding of 1
example := C100_float80x86_finite ⟨0x3FFF, 0x8000000000000000⟩ ⟨0x4000, 0x4000000000000000⟩ (by decide) (by decide)

/-- C100: canonical encodings of float80x86, as with the other formats. -/
theorem C100_float80x86 (f g : Float) (hf : f.Canonical) (hg : g.Canonical) : ∃ x nan y nan', f.big = .ok (x, nan) ∧ g.big = .ok (y, nan') ∧
    (nan = false → nan' = false → (f = g ↔ x.cmp y = .eq ∧ x.neg = y.neg) ∧ (x.cmp y = .eq ↔ f = g ∨ x.form = .zero ∧ y.form = .zero)) := by
  obtain ⟨x, nan, h1, -, -, -, hx, h2⟩ := C20_float80x86_big f
  obtain ⟨y, nan', h3, -, -, -, hy, h4⟩ := C20_float80x86_big g
  rw [val_canonical hf] at h2
  rw [val_canonical hg] at h4
  refine ⟨x, nan, y, nan', h1, h3, ?_⟩
  rintro rfl rfl
  have e : f = g ↔ f.code = g.code := by
    constructor
    · rintro rfl; rfl
    · obtain ⟨a, b⟩ := f
      obtain ⟨a', b'⟩ := g
      unfold Float.code
      unfold Float.Canonical Canonical80 at hf hg
      intro h
      have i1 := a.isLt
      have i2 := b.isLt
      have i3 := a'.isLt
      have i4 := b'.isLt
      dsimp only at h i1 i2 i3 i4 hf hg
      have ha : a = a' := BitVec.eq_of_toNat_eq (by omega)
      have hb : b = b' := BitVec.eq_of_toNat_eq (by omega)
      rw [ha, hb]
  rw [e]
  have lt : ∀ f : Float, f.code < 2 ^ 79 := by
    intro f
    have i1 := f.se.isLt
    have i2 := f.m.isLt
    unfold Float.code
    omega
  exact equal_place (by decide) (lt f) (lt g) hx hy h2 h4

-- -11/8
example := C100_float80x86 ⟨0xBFFF, 0xB000000000000000⟩ ⟨0xBFFF, 0xB000000000000000⟩ Sample.x_canonical Sample.x_canonical

/-- C100: the infinities of float80x86 are equal to themselves only, whatever the other encoding is. -/
theorem C100_float80x86_inf (f g : Float) (hf : f.exp = 0x7FFF) : ∃ x nan y nan', f.big = .ok (x, nan) ∧ g.big = .ok (y, nan') ∧
    (nan = false → nan' = false → (x.cmp y = .eq ↔ f = g)) := by
  obtain ⟨x, nan, h1, -, -, -, hx, h2⟩ := C20_float80x86_big f
  obtain ⟨y, nan', h3, -, -, -, hy, h4⟩ := C20_float80x86_big g
  refine ⟨x, nan, y, nan', h1, h3, ?_⟩
  rintro rfl rfl
  have field : ∀ f : Float, f.exp = (f.se.toNat % 2 ^ 15 : ℕ) := fun f => (C19_float80x86_fields f.se f.m).2.2.1
  have isInf : ∀ f : Float, f.exp = 0x7FFF → ∀ {x : BigFloat}, Decoded f.val x false → f.m.toNat = 2 ^ 63 ∧
      x.datum = .inf (decide (f.se.toNat / 2 ^ 15 % 2 = 1)) := by
    intro f hf x h
    rw [field] at hf
    unfold Float.val decode80 at h
    simp only at h
    rw [if_pos (by omega)] at h
    by_cases hm : f.m.toNat = 2 ^ 63
    · rw [if_pos hm] at h
      exact ⟨hm, h.2⟩
    · rw [if_neg hm] at h
      exact absurd h.1 (by decide)
  obtain ⟨m1, d1⟩ := isInf f hf h2
  obtain ⟨a, b, ha, hb, -, -, h⟩ := BigFloat.C91_cmp hx hy
  rw [h]
  by_cases hg : g.exp = 0x7FFF
  · obtain ⟨m2, d2⟩ := isInf g hg h4
    rw [d1] at ha
    rw [d2] at hb
    simp only [Datum.key, Option.some.injEq] at ha hb
    rw [← ha, ← hb]
    rw [field] at hf hg
    have i1 := f.se.isLt
    have i2 := g.se.isLt
    constructor
    · intro e
      have hs : f.se.toNat / 2 ^ 15 % 2 = 1 ↔ g.se.toNat / 2 ^ 15 % 2 = 1 := by
        rw [← decide_eq_decide]
        cases c1 : decide (f.se.toNat / 2 ^ 15 % 2 = 1) <;> cases c2 : decide (g.se.toNat / 2 ^ 15 % 2 = 1) <;> rw [c1, c2] at e <;>
          first | rfl | exact absurd (congrArg Prod.fst e) (by decide)
      obtain ⟨se, m⟩ := f
      obtain ⟨se', m'⟩ := g
      dsimp only at *
      have ha : se = se' := BitVec.eq_of_toNat_eq (by omega)
      have hb : m = m' := BitVec.eq_of_toNat_eq (by omega)
      rw [ha, hb]
    · rintro rfl; rfl
  · constructor
    · intro e
      exfalso
      rw [field] at hg
      unfold Float.val decode80 at h4
      simp only at h4
      rw [if_neg (by omega)] at h4
      rw [d1] at ha
      rw [h4.2] at hb
      simp only [Datum.key, Option.some.injEq] at ha hb
      rw [← ha, ← hb] at e
      have e1 := congrArg Prod.fst e
      dsimp only at e1
      split at e1 <;> omega
    · rintro rfl; exact absurd hf hg

-- -Inf and -11/8
example := C100_float80x86_inf ⟨0xFFFF, 0x8000000000000000⟩ ⟨0xBFFF, 0xB000000000000000⟩ (by decide)

/-- C100: the encodings of the number of a canonical encoding that is neither zero nor infinite: the 64-bit word is shifted to the right by as many places as the exponent is
raised, without losing a bit; exponents 0 and 1 count as the same. -/
theorem C100_float80x86_others (f g : Float) (hf : f.Canonical) (h0 : f.m ≠ 0) (hfe : f.exp ≠ 0x7FFF) (hge : g.exp ≠ 0x7FFF) :
    ∃ x y, f.big = .ok (x, false) ∧ g.big = .ok (y, false) ∧
      (x.cmp y = .eq ↔ g.signbit = f.signbit ∧ ∃ k : ℕ, f.m.toNat = g.m.toNat * 2 ^ k ∧ max g.exp 1 = max f.exp 1 + k) := by
  obtain ⟨x, y, h1, h2, h⟩ := C100_float80x86_finite f g hfe hge
  refine ⟨x, y, h1, h2, h.trans ?_⟩
  have field : f.exp = (f.se.toNat % 2 ^ 15 : ℕ) := (C19_float80x86_fields f.se f.m).2.2.1
  have hc : f.m.toNat < 2 ^ 63 → f.exp = 0 := by
    unfold Float.Canonical Canonical80 at hf
    intro hm
    rw [field]
    omega
  have hgm := g.m.isLt
  have m0 : f.m.toNat ≠ 0 := fun e => h0 (BitVec.eq_of_toNat_eq (by rw [e]; rfl))
  constructor
  · rintro (⟨e, -⟩ | ⟨hs, e⟩)
    · exact absurd e h0
    refine ⟨hs.symm, ?_⟩
    rcases le_or_gt (max f.exp 1) (max g.exp 1) with hle | hlt
    · refine ⟨(max g.exp 1 - max f.exp 1).toNat, ?_, by omega⟩
      have : (max g.exp 1).toNat = (max g.exp 1 - max f.exp 1).toNat + (max f.exp 1).toNat := by omega
      rw [this, pow_add, ← mul_assoc] at e
      exact Nat.eq_of_mul_eq_mul_right (Nat.two_pow_pos _) e
    · exfalso
      have h63 : 2 ^ 63 ≤ f.m.toNat := by
        by_contra hh
        have := hc (by omega)
        omega
      have hd : (max f.exp 1).toNat = ((max f.exp 1 - max g.exp 1).toNat - 1 + 1) + (max g.exp 1).toNat := by omega
      rw [hd, pow_add, ← mul_assoc] at e
      have e' := Nat.eq_of_mul_eq_mul_right (Nat.two_pow_pos _) e
      rw [pow_succ] at e'
      have hp : 1 ≤ 2 ^ ((max f.exp 1 - max g.exp 1).toNat - 1) := Nat.one_le_two_pow
      have : 2 ^ 63 * 2 ≤ g.m.toNat := by
        rw [← e', ← mul_assoc]
        exact Nat.mul_le_mul_right 2 (le_trans h63 (Nat.le_mul_of_pos_right _ hp))
      omega
  · rintro ⟨hs, k, e, hk⟩
    refine .inr ⟨hs.symm, ?_⟩
    rw [e, show (max g.exp 1).toNat = k + (max f.exp 1).toNat by omega, pow_add, mul_assoc]

-- the encodings of -11/8
example := C100_float80x86_others ⟨0xBFFF, 0xB000000000000000⟩ ⟨0xC003, 0x0B00000000000000⟩ Sample.x_canonical (by decide) (by decide) (by decide)

/-- C100, why `==` does not compare numbers in float80x86: 1 has several encodings, and so has zero. -/
theorem C100_float80x86_false : ∃ f g x y : _, f ≠ g ∧ f.signbit = g.signbit ∧ Float.big f = .ok (x, false) ∧ Float.big g = .ok (y, false) ∧ x.cmp y = .eq :=
  ⟨⟨0x3FFF, 0x8000000000000000⟩, ⟨0x4000, 0x4000000000000000⟩, ⟨64, .toNearestEven, .exact, .finite, false, 0x8000000000000000, 1⟩,
    ⟨64, .toNearestEven, .exact, .finite, false, 0x4000000000000000, 1⟩, by decide, by decide, by decide +kernel, by decide +kernel, by decide +kernel⟩

end Float80x86

namespace Float128ppc

/-- C100: the numbers of two canonical double-doubles compare as equal exactly if the pairs are equal, but for the signs of zeros. -/
theorem C100_float128ppc (f g : Float) (hf : Canonical f) (hg : Canonical g) : ∃ x y, f.big = .ok (x, false) ∧ g.big = .ok (y, false) ∧
    (x.cmp y = .eq ↔ (f.high = g.high ∨ f.high &&& 0x7FFFFFFFFFFFFFFF = 0 ∧ g.high &&& 0x7FFFFFFFFFFFFFFF = 0) ∧
      (f.low = g.low ∨ f.low &&& 0x7FFFFFFFFFFFFFFF = 0 ∧ g.low &&& 0x7FFFFFFFFFFFFFFF = 0)) := by
  obtain ⟨x, y, h1, h2, -, h⟩ := C92_float128ppc f g hf hg
  have key : ∀ a b : F64, place 63 a.toNat = place 63 b.toNat ↔ (a = b ∨ a &&& 0x7FFFFFFFFFFFFFFF = 0 ∧ b &&& 0x7FFFFFFFFFFFFFFF = 0) := by
    have z : ∀ a : F64, a &&& 0x7FFFFFFFFFFFFFFF = 0 ↔ a.toNat % 2 ^ 63 = 0 := by
      intro a
      rw [← BitVec.toNat_inj, BitVec.toNat_and, show (0x7FFFFFFFFFFFFFFF : F64).toNat = 2 ^ 63 - 1 from rfl, Nat.and_two_pow_sub_one_eq_mod]
      rfl
    intro a b
    rw [z, z, ← BitVec.toNat_inj]
    have i1 := a.isLt
    have i2 := b.isLt
    unfold place
    split <;> split <;> omega
  exact ⟨x, y, h1, h2, by rw [h, key, key]⟩

-- 1
example := C100_float128ppc ⟨0x3FF0000000000000, 0⟩ ⟨0x3FF0000000000000, 0⟩ (canonical_low_zero 0 false (roundsTo_zero double (by decide) false).1)
  (canonical_low_zero 0 false (roundsTo_zero double (by decide) false).1)

/-- C100, why `==` does not compare numbers in float128ppc: the pairs (1, 0) and (1/2, 1/2) are both 1. -/
theorem C100_float128ppc_false : ∃ f g x y : _, f ≠ g ∧ Float.big f = .ok (x, false) ∧ Float.big g = .ok (y, false) ∧ x.cmp y = .eq :=
  ⟨⟨0x3FF0000000000000, 0⟩, ⟨0x3FE0000000000000, 0x3FE0000000000000⟩, _, _, by decide, rfl, rfl, by decide +kernel⟩

end Float128ppc
end GoFloat
