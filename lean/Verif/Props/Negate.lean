import Verif.Proofs.Sample
import Verif.Props.Complete
import Verif.Props.Float
import Verif.Props.FtoaLayout
import Verif.Props.Bfloat
import Verif.Proofs.Negate
import Verif.Spec.Negate
/-
Negation (C58 of properties.jsonl): the sign is carried through, and nothing else depends on it.
-/
namespace GoFloat
open Spec

theorem Datum.neg_neg (d : Datum) : d.neg.neg = d := by cases d <;> simp [Datum.neg]

theorem Format.decode_flip (F : Format) (c : ℕ) : F.decode (c + 2 ^ (F.t + F.w)) = (F.decode c).neg := by
  have h1 : (c + 2 ^ (F.t + F.w)) % 2 ^ F.t = c % 2 ^ F.t := by
    rw [pow_add, Nat.add_mul_mod_self_left]
  have h2 : (c + 2 ^ (F.t + F.w)) / 2 ^ F.t % 2 ^ F.w = c / 2 ^ F.t % 2 ^ F.w := by
    rw [pow_add, Nat.add_mul_div_left _ _ (Nat.two_pow_pos _), Nat.add_mod_right]
  have h3 : ((c + 2 ^ (F.t + F.w)) / 2 ^ (F.t + F.w) % 2 = 1) = ¬ (c / 2 ^ (F.t + F.w) % 2 = 1) := by
    rw [Nat.add_div_right _ (Nat.two_pow_pos _), eq_iff_iff]
    omega
  unfold Format.decode
  simp only [h1, h2, h3, decide_not]
  split
  · split <;> rfl
  · split <;> rfl

/-- Rounding a number and its negation. -/
theorem roundsTo_neg {F : Format} {s : Bool} {m : ℚ} {c : ℕ} (ht : 1 ≤ F.t + F.w) (h : F.RoundsTo s m c) :
    F.RoundsTo (!s) m (c + 2 ^ (F.t + F.w)) := by
  have hs : ∀ (s : Bool) (m : ℚ), signed (!s) m = - signed s m := fun s m => by unfold signed; cases s <;> simp
  have he : (c + 2 ^ (F.t + F.w)) % 2 = c % 2 := by
    obtain ⟨k, hk⟩ := Nat.exists_eq_add_of_le ht
    rw [hk, pow_add, pow_one, Nat.add_mul_mod_self_left]
  have hab : ∀ a b : ℚ, |-a - -b| = |a - b| := fun a b => by rw [← abs_neg]; congr 1; ring
  have hab' : ∀ a b : ℚ, |-a - b| = |a - -b| := fun a b => by rw [← abs_neg]; congr 1; ring
  unfold Format.RoundsTo at h ⊢
  rw [Format.decode_flip, he]
  split at h
  · rw [if_pos ‹_›, h]; rfl
  · rw [if_neg ‹_›]
    obtain ⟨r, h1, h2, h3⟩ := h
    refine ⟨r, by rw [h1]; rfl, ?_, ?_⟩
    · intro c' s' r' hc
      have := h2 (c' + 2 ^ (F.t + F.w)) (!s') r' (by rw [Format.decode_flip, hc]; rfl)
      rw [hs, hs, hab, hab']
      rwa [hs] at this
    · intro c' s' r' hc hne heq
      refine h3 (c' + 2 ^ (F.t + F.w)) (!s') r' (by rw [Format.decode_flip, hc]; rfl) ?_ ?_
      · rw [hs]
        rw [hs] at hne
        intro h; apply hne; rw [← h, neg_neg]
      · rw [hs, hs, hab, hab'] at heq
        rw [hs]; exact heq

theorem accuracy_neg {acc : Accuracy} {r x : Datum} (h : AccuracyTrue acc r x) : AccuracyTrue (flipAccuracy acc) r.neg x.neg := by
  have hk : ∀ {d : Datum} {a : ℤ × ℚ}, d.key = some a → d.neg.key = some (-a.1, -a.2) := by
    intro d a h
    cases d with
    | nan s => cases h
    | inf s => cases s <;> (simp only [Datum.key, Option.some.injEq] at h; subst h; simp [Datum.neg, Datum.key])
    | num s m => simp only [Datum.key, Option.some.injEq] at h; subst h; cases s <;> simp [Datum.neg, Datum.key, signed]
  obtain ⟨a, b, h1, h2, h3⟩ := h
  refine ⟨_, _, hk h1, hk h2, ?_⟩
  cases acc with
  | exact => simp only [flipAccuracy]; simp only at h3; rw [h3]
  | below =>
    simp only [flipAccuracy, keyLt] at h3 ⊢
    rcases h3 with h | ⟨h, h'⟩
    · left; omega
    · right; exact ⟨by omega, by linarith⟩
  | above =>
    simp only [flipAccuracy, keyLt] at h3 ⊢
    rcases h3 with h | ⟨h, h'⟩
    · left; omega
    · right; exact ⟨by omega, by linarith⟩

theorem accuracy_unique {a b : Accuracy} {r x : Datum} (h : AccuracyTrue a r x) (h' : AccuracyTrue b r x) : a = b := by
  obtain ⟨p, q, h1, h2, h3⟩ := h
  obtain ⟨p', q', h1', h2', h3'⟩ := h'
  rw [h1] at h1'
  rw [h2] at h2'
  simp only [Option.some.injEq] at h1' h2'
  subst h1' h2'
  cases a <;> cases b <;> simp only [keyLt] at h3 h3' ⊢ <;> exfalso
  all_goals first
    | (subst h3; rcases h3' with h | ⟨_, h⟩ <;> exact absurd h (lt_irrefl _))
    | (subst h3'; rcases h3 with h | ⟨_, h⟩ <;> exact absurd h (lt_irrefl _))
    | (rcases h3 with h | ⟨g, h⟩ <;> rcases h3' with h' | ⟨g', h'⟩ <;> first | omega | exact absurd h (lt_asymm h'))

theorem converts64_neg {d : Datum} {r r' : F64} {acc acc' : Accuracy} (h : Converts64 d r acc) (h' : Converts64 d.neg r' acc') :
    double.decode r'.toNat = (double.decode r.toNat).neg ∧ acc' = flipAccuracy acc := by
  cases d with
  | nan s =>
    obtain ⟨rfl, rfl⟩ := h
    obtain ⟨rfl, rfl⟩ := h'
    refine ⟨?_, rfl⟩
    cases s <;> simp [Datum.neg, Format.decode, double]
  | inf s =>
    obtain ⟨h1, rfl⟩ := h
    obtain ⟨h2, rfl⟩ := h'
    exact ⟨by rw [h1, h2]; rfl, rfl⟩
  | num s m =>
    obtain ⟨h1, h2⟩ := h
    obtain ⟨h3, h4⟩ := h'
    have hd := Float128ppc.RoundsTo.unique (by decide) h3 (roundsTo_neg (by decide) h1)
    rw [Format.decode_flip] at hd
    refine ⟨hd, ?_⟩
    rw [hd] at h4
    exact accuracy_unique h4 (accuracy_neg h2)

theorem converts32_neg {d : Datum} {r r' : F32} {acc acc' : Accuracy} (h : Converts32 d r acc) (h' : Converts32 d.neg r' acc') :
    single.decode r'.toNat = (single.decode r.toNat).neg ∧ acc' = flipAccuracy acc := by
  cases d with
  | nan s =>
    obtain ⟨rfl, rfl⟩ := h
    obtain ⟨rfl, rfl⟩ := h'
    refine ⟨?_, rfl⟩
    cases s <;> simp [Datum.neg, Format.decode, single]
  | inf s =>
    obtain ⟨h1, rfl⟩ := h
    obtain ⟨h2, rfl⟩ := h'
    exact ⟨by rw [h1, h2]; rfl, rfl⟩
  | num s m =>
    obtain ⟨h1, h2⟩ := h
    obtain ⟨h3, h4⟩ := h'
    have hd := Float128ppc.RoundsTo.unique (by decide) h3 (roundsTo_neg (by decide) h1)
    rw [Format.decode_flip] at hd
    refine ⟨hd, ?_⟩
    rw [hd] at h4
    exact accuracy_unique h4 (accuracy_neg h2)

theorem decoded_neg {d : Datum} {x y : BigFloat} {nan nan' : Bool} (h : Decoded d x nan) (h' : Decoded d.neg y nan') :
    nan' = nan ∧ y.datum = x.datum.neg := by
  cases d with
  | nan s => exact ⟨h'.1.trans h.1.symm, by rw [h'.2, h.2]; rfl⟩
  | inf s => exact ⟨h'.1.trans h.1.symm, by rw [h'.2, h.2]; rfl⟩
  | num s m => exact ⟨h'.1.trans h.1.symm, by rw [h'.2, h.2]; rfl⟩

/-- Codes that differ in the sign bit `N` only. -/
def Flipped (N a b : ℕ) : Prop := b = a + N ∨ a = b + N

instance (N a b : ℕ) : Decidable (Flipped N a b) := inferInstanceAs (Decidable (_ ∨ _))

theorem Flipped.decode {F : Format} {a b : ℕ} (h : Flipped (2 ^ (F.t + F.w)) a b) : F.decode b = (F.decode a).neg := by
  rcases h with rfl | rfl
  · exact Format.decode_flip F a
  · rw [Format.decode_flip, Datum.neg_neg]

theorem flipped_of_int {N a b : ℕ} {s : Bool} {k : ℤ} (ha : (a : ℤ) = (if s then (N : ℤ) else 0) + k) (hb : (b : ℤ) = (if !s then (N : ℤ) else 0) + k) :
    Flipped N a b := by
  unfold Flipped
  cases s <;> simp at ha hb <;> omega

/-- Variables of opposite values: both zero, both infinite, or finite with equal magnitude and exponent. -/
theorem BigFloat.opposite {x y : BigFloat} (hx : x.WF) (hy : y.WF) (h : y.datum = x.datum.neg) :
    y.neg = (!x.neg) ∧ x.form = y.form ∧ (x.form = .finite → x.mag = y.mag ∧ x.exp = y.exp) := by
  have hn : y.negSelf.datum = x.datum := by
    have : y.negSelf.datum = y.datum.neg := by
      unfold BigFloat.datum BigFloat.negSelf
      cases y.form <;> rfl
    rw [this, h, Datum.neg_neg]
  have hw : y.negSelf.WF := ⟨hy.prec_le, hy.mant_pos, hy.exp_ge, hy.exp_le, hy.prec_pos, hy.fits⟩
  obtain ⟨h1, h2, h3⟩ := BigFloat.same_datum hx hw hn.symm
  refine ⟨?_, h2, h3⟩
  rw [h1]; show y.neg = !!y.neg
  rw [Bool.not_not]

namespace Binary16

/-- `g` is `f` with the other sign bit. -/
def Negated (f g : Float) : Prop := g.signbit = (!f.signbit) ∧ g.exp = f.exp ∧ g.frac = f.frac

theorem negated_iff (f g : Float) : Negated f g ↔ Flipped (2 ^ 15) f.bits.toNat g.bits.toNat := by
  obtain ⟨a⟩ := f
  obtain ⟨b⟩ := g
  obtain ⟨-, f1, f2, f3, f4⟩ := C01_binary16_fields a
  obtain ⟨-, g1, g2, g3, g4⟩ := C01_binary16_fields b
  unfold newFromBits at *
  unfold Negated Flipped
  rw [← BitVec.toNat_inj, f2, f3, g2, g3, Nat.cast_inj, Bool.eq_iff_iff, g1, Bool.not_eq_true', ← Bool.not_eq_true, f1]
  have ha := a.isLt
  have hb := b.isLt
  simp only
  omega

theorem Negated.decode {f g : Float} (h : Negated f g) : half.decode g.bits.toNat = (half.decode f.bits.toNat).neg :=
  Flipped.decode (F := half) ((negated_iff f g).1 h)

/-- C58: `Big` of a half with the other sign bit is the negated number, and the NaN flag is the same. -/
theorem C58_binary16_big (f g : Float) (h : Negated f g) :
    ∃ x y nan, f.big = .ok (x, nan) ∧ g.big = .ok (y, nan) ∧ y.datum = x.datum.neg := by
  obtain ⟨x, nan, h1, -, -, -, -, h2⟩ := C02_binary16_big f
  obtain ⟨y, nan', h3, -, -, -, -, h4⟩ := C02_binary16_big g
  rw [h.decode] at h4
  obtain ⟨rfl, h5⟩ := decoded_neg h2 h4
  exact ⟨x, y, _, h1, h3, h5⟩

-- 11/8 and its negation
example := C58_binary16_big ⟨0xBD80⟩ ⟨0x3D80⟩ (by unfold Negated; decide)

/-- C58: `Float64` and `Float32` of a half with the other sign bit are negated. -/
theorem C58_binary16_float (f g : Float) (h : Negated f g) :
    (∃ r r', f.float64 = .ok (r, .exact) ∧ g.float64 = .ok (r', .exact) ∧ double.decode r'.toNat = (double.decode r.toNat).neg) ∧
    (∃ r r', f.float32 = .ok (r, .exact) ∧ g.float32 = .ok (r', .exact) ∧ single.decode r'.toNat = (single.decode r.toNat).neg) := by
  have hd := h.decode
  constructor
  · obtain ⟨r, h1, h2⟩ := C04_binary16_float64 f
    obtain ⟨r', h3, h4⟩ := C04_binary16_float64 g
    refine ⟨r, r', h1, h3, ?_⟩
    rw [hd] at h4
    cases hf : half.decode f.bits.toNat with
    | nan s =>
      rw [hf] at h2 h4
      simp only [Datum.neg] at h2 h4
      subst h2 h4
      cases s <;> simp [Datum.neg, Format.decode, double]
    | inf s => rw [hf] at h2 h4; exact h4.trans (by rw [h2])
    | num s m => rw [hf] at h2 h4; exact h4.trans (by rw [h2])
  · obtain ⟨r, h1, h2⟩ := C04_binary16_float32 f
    obtain ⟨r', h3, h4⟩ := C04_binary16_float32 g
    refine ⟨r, r', h1, h3, ?_⟩
    rw [hd] at h4
    cases hf : half.decode f.bits.toNat with
    | nan s =>
      rw [hf] at h2 h4
      simp only [Datum.neg] at h2 h4
      subst h2 h4
      cases s <;> simp [Datum.neg, Format.decode, single]
    | inf s => rw [hf] at h2 h4; exact h4.trans (by rw [h2])
    | num s m => rw [hf] at h2 h4; exact h4.trans (by rw [h2])

example := C58_binary16_float ⟨0xBD80⟩ ⟨0x3D80⟩ (by unfold Negated; decide)

/-- C58: `NewFromBig` of the negated number differs in the sign bit only; the accuracy is the same (so it is true for at most one of
the two, see C07). -/
theorem C58_binary16_newFromBig (x y : BigFloat) (hx : x.WF) (hy : y.WF) (h : y.datum = x.datum.neg) :
    ∃ f g acc, newFromBig x = .ok (f, acc) ∧ newFromBig y = .ok (g, acc) ∧ Negated f g := by
  obtain ⟨h1, h2, h3⟩ := BigFloat.opposite hx hy h
  simp only [negated_iff]
  cases hf : x.form with
  | zero =>
    refine ⟨_, _, _, newFromBig_zero hf, newFromBig_zero (h2 ▸ hf), ?_⟩
    rw [h1]; cases x.neg <;> decide
  | inf =>
    refine ⟨_, _, _, newFromBig_inf hf, newFromBig_inf (h2 ▸ hf), ?_⟩
    rw [h1]; cases x.neg <;> decide
  | finite =>
    obtain ⟨hm, he⟩ := h3 hf
    obtain ⟨b, acc, hr, a1, a2, a3⟩ := newFromBig_finite hx hf
    obtain ⟨b', acc', hr', a1', a2', a3'⟩ := newFromBig_finite hy (h2 ▸ hf)
    rw [hm, he] at a1 a2 a3
    have hs : ∀ s, (half.signPart s : ℤ) = if s then ((2 ^ 15 : ℕ) : ℤ) else 0 := by
      intro s; unfold Format.signPart half; cases s <;> rfl
    rw [h1, hs] at a1' a2' a3'
    rw [hs] at a1 a2 a3
    have key : acc = acc' ∧ Flipped (2 ^ 15) b.toNat b'.toNat := by
      rcases lt_or_ge (-10) (y.exp + 14) with c1 | c1
      · rcases le_or_gt (y.exp + 14) 0 with c2 | c2
        · exact ⟨(a1 c1 c2).2.trans (a1' c1 c2).2.symm, flipped_of_int (a1 c1 c2).1 (a1' c1 c2).1⟩
        · refine ⟨(a3 c2).2.trans (a3' c2).2.symm, flipped_of_int ((a3 c2).1.trans (add_assoc _ _ _)) ((a3' c2).1.trans (add_assoc _ _ _))⟩
      · exact ⟨(a2 c1).2.trans (a2' c1).2.symm, flipped_of_int (a2 c1).1 (a2' c1).1⟩
    obtain ⟨rfl, k⟩ := key
    exact ⟨_, _, _, hr, hr', k⟩

example := C58_binary16_newFromBig Sample.x Sample.x_neg Sample.x_wf Sample.x_neg_wf (by rw [Sample.x_neg_datum, Sample.x_datum]; rfl)

/-- C58: the same for `NewFromFloat64`, for every float64 and NaNs too. -/
theorem C58_binary16_newFromFloat64 (x y : F64) (h : double.decode y.toNat = (double.decode x.toNat).neg) :
    ∃ f g acc, newFromFloat64 x = .ok (f, acc) ∧ newFromFloat64 y = .ok (g, acc) ∧ Negated f g := by
  cases hd : double.decode x.toNat with
  | nan s =>
    rw [hd] at h
    refine ⟨_, _, _, (C12_binary16_float64 x s).2.2 hd, (C12_binary16_float64 y (!s)).2.2 h, ?_⟩
    rw [negated_iff]; cases s <;> decide
  | inf s =>
    rw [hd] at h
    refine ⟨_, _, _, (C12_binary16_float64 x s).2.1 hd, (C12_binary16_float64 y (!s)).2.1 h, ?_⟩
    rw [negated_iff]; cases s <;> decide
  | num s m =>
    rw [hd] at h
    by_cases hm : m = 0
    · subst hm
      refine ⟨_, _, _, (C12_binary16_float64 x s).1 hd, (C12_binary16_float64 y (!s)).1 h, ?_⟩
      rw [negated_iff]; cases s <;> decide
    · obtain ⟨p, z, e1, p1, p2, p3, p4, p5, p6, z1, z2, z3, z4, -⟩ := newFromFloat64_num hd hm
      obtain ⟨p', z', e1', p1', p2', p3', p4', p5', p6', z1', z2', z3', z4', -⟩ := newFromFloat64_num h hm
      have hexp : p'.exp = p.exp := by
        refine BigFloat.exp_of_mag (p1'.mant_pos p2') ?_ ?_
        · rw [p4', ← p4]; exact BigFloat.le_mag (p1.mant_pos p2)
        · rw [p4', ← p4]; exact BigFloat.mag_lt p
      rw [e1, e1']
      refine C58_binary16_newFromBig z z' z1 z1' ?_
      rw [BigFloat.datum_finite z2, BigFloat.datum_finite z2', z4, z4', hexp, p4, p4', z3, z3']
      rfl

example := C58_binary16_newFromFloat64 0xBFF6000000000000 0x3FF6000000000000 (by rw [Sample.x_neg_double, Sample.x_double]; rfl)

theorem f32to64_neg {x y : F32} (h : single.decode y.toNat = (single.decode x.toNat).neg) :
    double.decode (f32to64 y).toNat = (double.decode (f32to64 x).toNat).neg := by
  obtain ⟨x1, x2⟩ := f32to64_decode x
  obtain ⟨y1, y2⟩ := f32to64_decode y
  by_cases hx : ∃ s, single.decode x.toNat = .nan s
  · obtain ⟨s, hs⟩ := hx
    rw [x1 s hs, y1 (!s) (by rw [h, hs]; rfl)]; rfl
  · rw [x2 hx, y2 ?_, h]
    rintro ⟨s, hs⟩
    apply hx
    rw [h] at hs
    exact ⟨!s, by rw [← Datum.neg_neg (single.decode x.toNat), hs]; rfl⟩

/-- C58: the same for `NewFromFloat32`. -/
theorem C58_binary16_newFromFloat32 (x y : F32) (h : single.decode y.toNat = (single.decode x.toNat).neg) :
    ∃ f g acc, newFromFloat32 x = .ok (f, acc) ∧ newFromFloat32 y = .ok (g, acc) ∧ Negated f g := by
  rw [C55_binary16_float32, C55_binary16_float32]
  exact C58_binary16_newFromFloat64 _ _ (f32to64_neg h)

example := C58_binary16_newFromFloat32 0xBFB00000 0x3FB00000 (by rw [Sample.x_neg_single, Sample.x_single]; rfl)

end Binary16

namespace Binary128

/-- `g` is `f` with the other sign bit. -/
def Negated (f g : Float) : Prop := g.signbit = (!f.signbit) ∧ g.exp = f.exp ∧ g.frac = f.frac

theorem negated_iff (f g : Float) : Negated f g ↔ Flipped (2 ^ 127) f.code g.code := by
  obtain ⟨a, b⟩ := f
  obtain ⟨a', b'⟩ := g
  obtain ⟨-, f1, f2, f3, f4, f5⟩ := C13_partial a b
  obtain ⟨-, g1, g2, g3, g4, g5⟩ := C13_partial a' b'
  unfold newFromBits at *
  unfold Negated Flipped Float.code
  rw [Prod.ext_iff, ← BitVec.toNat_inj, f2, f3, f4, g2, g3, g4, Nat.cast_inj, Bool.eq_iff_iff, g1, Bool.not_eq_true', ← Bool.not_eq_true, f1,
    ← BitVec.toNat_inj]
  have ha := a.isLt
  have hb := b.isLt
  have ha' := a'.isLt
  have hb' := b'.isLt
  simp only
  omega

theorem Negated.decode {f g : Float} (h : Negated f g) : quad.decode g.code = (quad.decode f.code).neg :=
  Flipped.decode (F := quad) ((negated_iff f g).1 h)

/-- C58: `Big` of a quadruple with the other sign bit is the negated number, and the NaN flag is the same. -/
theorem C58_binary128_big (f g : Float) (h : Negated f g) :
    ∃ x y nan, f.big = .ok (x, nan) ∧ g.big = .ok (y, nan) ∧ y.datum = x.datum.neg := by
  obtain ⟨x, nan, h1, -, -, -, -, h2⟩ := C14_binary128_big f
  obtain ⟨y, nan', h3, -, -, -, -, h4⟩ := C14_binary128_big g
  rw [h.decode] at h4
  obtain ⟨rfl, h5⟩ := decoded_neg h2 h4
  exact ⟨x, y, _, h1, h3, h5⟩

-- 11/8 and its negation
example := C58_binary128_big ⟨0xBFFF600000000000, 0⟩ ⟨0x3FFF600000000000, 0⟩ (by unfold Negated; decide)

/-- C58: `Float64` and `Float32` of a quadruple with the other sign bit are negated, with the accuracy turned round. -/
theorem C58_binary128_float (f g : Float) (h : Negated f g) :
    (∃ r r' acc, f.float64 = .ok (r, acc) ∧ g.float64 = .ok (r', flipAccuracy acc) ∧ double.decode r'.toNat = (double.decode r.toNat).neg) ∧
    (∃ r r' acc, f.float32 = .ok (r, acc) ∧ g.float32 = .ok (r', flipAccuracy acc) ∧ single.decode r'.toNat = (single.decode r.toNat).neg) := by
  constructor
  · obtain ⟨r, acc, h1, h2⟩ := C17_binary128_float64 f
    obtain ⟨r', acc', h3, h4⟩ := C17_binary128_float64 g
    rw [h.decode] at h4
    obtain ⟨h5, rfl⟩ := converts64_neg h2 h4
    exact ⟨r, r', acc, h1, h3, h5⟩
  · obtain ⟨r, acc, h1, h2⟩ := C17_binary128_float32 f
    obtain ⟨r', acc', h3, h4⟩ := C17_binary128_float32 g
    rw [h.decode] at h4
    obtain ⟨h5, rfl⟩ := converts32_neg h2 h4
    exact ⟨r, r', acc, h1, h3, h5⟩

example := C58_binary128_float ⟨0xBFFF600000000000, 0⟩ ⟨0x3FFF600000000000, 0⟩ (by unfold Negated; decide)

/-- C58: `NewFromBig` of the negated number differs in the sign bit only; the accuracy is the same. -/
theorem C58_binary128_newFromBig (x y : BigFloat) (hx : x.WF) (hy : y.WF) (h : y.datum = x.datum.neg) :
    ∃ f g acc, newFromBig x = .ok (f, acc) ∧ newFromBig y = .ok (g, acc) ∧ Negated f g := by
  obtain ⟨h1, h2, h3⟩ := BigFloat.opposite hx hy h
  simp only [negated_iff]
  cases hf : x.form with
  | zero =>
    refine ⟨_, _, _, newFromBig_zero hf, newFromBig_zero (h2 ▸ hf), ?_⟩
    rw [h1]; cases x.neg <;> decide +kernel
  | inf =>
    refine ⟨_, _, _, newFromBig_inf hf, newFromBig_inf (h2 ▸ hf), ?_⟩
    rw [h1]; cases x.neg <;> decide +kernel
  | finite =>
    obtain ⟨hm, he⟩ := h3 hf
    obtain ⟨b, acc, hr, a1, a2, a3⟩ := newFromBig_finite hx hf
    obtain ⟨b', acc', hr', a1', a2', a3'⟩ := newFromBig_finite hy (h2 ▸ hf)
    rw [hm, he] at a1 a2 a3
    have hs : ∀ s, (quad.signPart s : ℤ) = if s then ((2 ^ 127 : ℕ) : ℤ) else 0 := by
      intro s; unfold Format.signPart quad; cases s <;> rfl
    rw [h1, hs] at a1' a2' a3'
    rw [hs] at a1 a2 a3
    have key : acc = acc' ∧ Flipped (2 ^ 127) b.code b'.code := by
      rcases lt_or_ge (-112) (y.exp + 16382) with c1 | c1
      · rcases le_or_gt (y.exp + 16382) 0 with c2 | c2
        · exact ⟨(a1 c1 c2).2.trans (a1' c1 c2).2.symm, flipped_of_int (a1 c1 c2).1 (a1' c1 c2).1⟩
        · refine ⟨(a3 c2).2.trans (a3' c2).2.symm, flipped_of_int ((a3 c2).1.trans (add_assoc _ _ _)) ((a3' c2).1.trans (add_assoc _ _ _))⟩
      · exact ⟨(a2 c1).2.trans (a2' c1).2.symm, flipped_of_int (a2 c1).1 (a2' c1).1⟩
    obtain ⟨rfl, k⟩ := key
    exact ⟨_, _, _, hr, hr', k⟩

example := C58_binary128_newFromBig Sample.x Sample.x_neg Sample.x_wf Sample.x_neg_wf (by rw [Sample.x_neg_datum, Sample.x_datum]; rfl)

/-- C58: the same for `NewFromFloat64`, for every float64 and NaNs too. -/
theorem C58_binary128_newFromFloat64 (x y : F64) (h : double.decode y.toNat = (double.decode x.toNat).neg) :
    ∃ f g acc, newFromFloat64 x = .ok (f, acc) ∧ newFromFloat64 y = .ok (g, acc) ∧ Negated f g := by
  by_cases hn : ∃ s, double.decode x.toNat = .nan s
  · obtain ⟨s, hd⟩ := hn
    rw [hd] at h
    refine ⟨_, _, _, (C12_binary128_float64 x s).2.2 hd, (C12_binary128_float64 y (!s)).2.2 h, ?_⟩
    rw [negated_iff]; cases s <;> decide +kernel
  · have hn' : ¬ ∃ s, double.decode y.toNat = .nan s := by
      rintro ⟨s, hs⟩
      rw [h] at hs
      exact hn ⟨!s, by rw [← Datum.neg_neg (double.decode x.toNat), hs]; rfl⟩
    obtain ⟨z, hw, hd, e⟩ := newFromFloat64_eq (x := x) (by rw [Bool.eq_false_iff, Ne, isNaN64_iff]; exact hn)
    obtain ⟨z', hw', hd', e'⟩ := newFromFloat64_eq (x := y) (by rw [Bool.eq_false_iff, Ne, isNaN64_iff]; exact hn')
    rw [e, e']
    exact C58_binary128_newFromBig z z' hw hw' (by rw [hd, hd', h])

example := C58_binary128_newFromFloat64 0xBFF6000000000000 0x3FF6000000000000 (by rw [Sample.x_neg_double, Sample.x_double]; rfl)

theorem newFromFloat32_eq (x : F32) : newFromFloat32 x = newFromFloat64 (f32to64 x) := by
  by_cases hn : ∃ s, single.decode x.toNat = .nan s
  · obtain ⟨s, hd⟩ := hn
    rw [(C12_binary128_float32 x s).2.2 hd, (C12_binary128_float64 _ s).2.2 ((f32to64_decode x).1 s hd)]
  · have hw := (f32to64_decode x).2 hn
    push Not at hn
    obtain ⟨f, h1, h2, -⟩ := newFromFloat32_spec hn
    obtain ⟨g, h3, h4⟩ := newFromFloat64_spec (x := f32to64 x) (by rw [hw]; exact hn)
    rw [h1, h3, decode_inj (f := f) (g := g) (by rw [h2, h4, hw]) (by rw [h2]; exact hn)]

/-- C58: the same for `NewFromFloat32`. -/
theorem C58_binary128_newFromFloat32 (x y : F32) (h : single.decode y.toNat = (single.decode x.toNat).neg) :
    ∃ f g acc, newFromFloat32 x = .ok (f, acc) ∧ newFromFloat32 y = .ok (g, acc) ∧ Negated f g := by
  rw [newFromFloat32_eq, newFromFloat32_eq]
  exact C58_binary128_newFromFloat64 _ _ (Binary16.f32to64_neg h)

example := C58_binary128_newFromFloat32 0xBFB00000 0x3FB00000 (by rw [Sample.x_neg_single, Sample.x_single]; rfl)

end Binary128

namespace Float80x86

/-- `g` is `f` with the other sign bit. -/
def Negated (f g : Float) : Prop := g.signbit = (!f.signbit) ∧ g.exp = f.exp ∧ g.lead = f.lead ∧ g.frac = f.frac

theorem negated_iff (f g : Float) : Negated f g ↔ Flipped (2 ^ 15) f.se.toNat g.se.toNat ∧ g.m = f.m := by
  obtain ⟨a, b⟩ := f
  obtain ⟨a', b'⟩ := g
  obtain ⟨-, f1, f2, f3, f4, f5⟩ := C19_float80x86_fields a b
  obtain ⟨-, g1, g2, g3, g4, g5⟩ := C19_float80x86_fields a' b'
  unfold newFromBits at *
  unfold Negated Flipped
  rw [← BitVec.toNat_inj, f2, f3, f4, g2, g3, g4, Nat.cast_inj, Bool.eq_iff_iff, g1, Bool.not_eq_true', ← Bool.not_eq_true, f1,
    ← BitVec.toNat_inj]
  have ha := a.isLt
  have hb := b.isLt
  have ha' := a'.isLt
  have hb' := b'.isLt
  simp only
  omega

theorem Negated.val {f g : Float} (h : Negated f g) : g.val = f.val.neg := by
  obtain ⟨h1, h2⟩ := (negated_iff f g).1 h
  unfold Float.val
  rw [h2]
  have key : ∀ a : ℕ, decode80 (a + 2 ^ 15) f.m.toNat = (decode80 a f.m.toNat).neg := by
    intro a
    have e1 : (a + 2 ^ 15) % 2 ^ 15 = a % 2 ^ 15 := by omega
    have e2 : ((a + 2 ^ 15) / 2 ^ 15 % 2 = 1) = ¬ (a / 2 ^ 15 % 2 = 1) := by
      rw [eq_iff_iff]; omega
    unfold decode80
    simp only [e1, e2, decide_not]
    split
    · split <;> rfl
    · rfl
  rcases h1 with h1 | h1
  · rw [h1, key]
  · rw [h1, key, Datum.neg_neg]

/-- C58: `Big` of an extended double with the other sign bit is the negated number, and the NaN flag is the same. -/
theorem C58_float80x86_big (f g : Float) (h : Negated f g) :
    ∃ x y nan, f.big = .ok (x, nan) ∧ g.big = .ok (y, nan) ∧ y.datum = x.datum.neg := by
  obtain ⟨x, nan, h1, -, -, -, -, h2⟩ := C20_float80x86_big f
  obtain ⟨y, nan', h3, -, -, -, -, h4⟩ := C20_float80x86_big g
  rw [h.val] at h4
  obtain ⟨rfl, h5⟩ := decoded_neg h2 h4
  exact ⟨x, y, _, h1, h3, h5⟩

-- 11/8 and its negation
example := C58_float80x86_big ⟨0xBFFF, 0xB000000000000000⟩ ⟨0x3FFF, 0xB000000000000000⟩ (by unfold Negated; decide)

/-- C58: `Float64` and `Float32` of an extended double with the other sign bit are negated, with the accuracy turned round. -/
theorem C58_float80x86_float (f g : Float) (h : Negated f g) :
    (∃ r r' acc, f.float64 = .ok (r, acc) ∧ g.float64 = .ok (r', flipAccuracy acc) ∧ double.decode r'.toNat = (double.decode r.toNat).neg) ∧
    (∃ r r' acc, f.float32 = .ok (r, acc) ∧ g.float32 = .ok (r', flipAccuracy acc) ∧ single.decode r'.toNat = (single.decode r.toNat).neg) := by
  constructor
  · obtain ⟨r, acc, h1, h2⟩ := C23_float80x86_float64 f
    obtain ⟨r', acc', h3, h4⟩ := C23_float80x86_float64 g
    rw [h.val] at h4
    obtain ⟨h5, rfl⟩ := converts64_neg h2 h4
    exact ⟨r, r', acc, h1, h3, h5⟩
  · obtain ⟨r, acc, h1, h2⟩ := C23_float80x86_float32 f
    obtain ⟨r', acc', h3, h4⟩ := C23_float80x86_float32 g
    rw [h.val] at h4
    obtain ⟨h5, rfl⟩ := converts32_neg h2 h4
    exact ⟨r, r', acc, h1, h3, h5⟩

example := C58_float80x86_float ⟨0xBFFF, 0xB000000000000000⟩ ⟨0x3FFF, 0xB000000000000000⟩ (by unfold Negated; decide)

/-- C58: `NewFromBig` of the negated number differs in the sign bit only; the accuracy is the same. -/
theorem C58_float80x86_newFromBig (x y : BigFloat) (hx : x.WF) (hy : y.WF) (h : y.datum = x.datum.neg) :
    ∃ f g acc, newFromBig x = .ok (f, acc) ∧ newFromBig y = .ok (g, acc) ∧ Negated f g := by
  obtain ⟨h1, h2, h3⟩ := BigFloat.opposite hx hy h
  simp only [negated_iff]
  cases hf : x.form with
  | zero =>
    refine ⟨_, _, _, newFromBig_zero hf, newFromBig_zero (h2 ▸ hf), ?_⟩
    rw [h1]; cases x.neg <;> decide +kernel
  | inf =>
    refine ⟨_, _, _, newFromBig_inf hf, newFromBig_inf (h2 ▸ hf), ?_⟩
    rw [h1]; cases x.neg <;> decide +kernel
  | finite =>
    obtain ⟨hm, he⟩ := h3 hf
    obtain ⟨b, acc, hr, a1, a2, a3⟩ := newFromBig_finite hx hf
    obtain ⟨b', acc', hr', a1', a2', a3'⟩ := newFromBig_finite hy (h2 ▸ hf)
    rw [hm, he] at a1 a3
    rw [he] at a2
    rw [h1] at a1' a2' a3'
    have hf1 : ∀ {k : ℤ}, (b.se.toNat : ℤ) = (if x.neg then 1 else 0) * 2 ^ 15 + k → (b'.se.toNat : ℤ) = (if !x.neg then 1 else 0) * 2 ^ 15 + k →
        Flipped (2 ^ 15) b.se.toNat b'.se.toNat := by
      intro k k1 k2
      refine flipped_of_int (s := x.neg) (k := k) ?_ ?_
      · rw [k1]; cases x.neg <;> norm_num
      · rw [k2]; cases x.neg <;> norm_num
    have hf0 : b.se.toNat = (if x.neg then 1 else 0) * 2 ^ 15 → b'.se.toNat = (if !x.neg then 1 else 0) * 2 ^ 15 → Flipped (2 ^ 15) b.se.toNat b'.se.toNat := by
      intro k1 k2
      rw [k1, k2]; cases x.neg <;> decide
    have key : acc = acc' ∧ Flipped (2 ^ 15) b.se.toNat b'.se.toNat ∧ b'.m = b.m := by
      rcases lt_or_ge (-63) (y.exp + 16382) with c1 | c1
      · rcases le_or_gt (y.exp + 16382) 0 with c2 | c2
        · obtain ⟨p1, p2, -, p3⟩ := a1 c1 c2
          obtain ⟨q1, q2, -, q3⟩ := a1' c1 c2
          exact ⟨p3.trans q3.symm, hf0 p1 q1, BitVec.eq_of_toNat_eq (by rw [← p2] at q2; exact_mod_cast q2)⟩
        · obtain ⟨p1, p2, -, p3⟩ := a3 c2
          obtain ⟨q1, q2, -, q3⟩ := a3' c2
          exact ⟨p3.trans q3.symm, hf1 p1 q1, BitVec.eq_of_toNat_eq (by rw [← p2] at q2; exact_mod_cast q2)⟩
      · obtain ⟨p1, p2, p3⟩ := a2 c1
        obtain ⟨q1, q2, q3⟩ := a2' c1
        exact ⟨p3.trans q3.symm, hf0 p1 q1, by rw [p2, q2]⟩
    obtain ⟨rfl, k⟩ := key
    exact ⟨_, _, _, hr, hr', k⟩

example := C58_float80x86_newFromBig Sample.x Sample.x_neg Sample.x_wf Sample.x_neg_wf (by rw [Sample.x_neg_datum, Sample.x_datum]; rfl)

/-- C58: the same for `NewFromFloat64`, for every float64 and NaNs too. -/
theorem C58_float80x86_newFromFloat64 (x y : F64) (h : double.decode y.toNat = (double.decode x.toNat).neg) :
    ∃ f g acc, newFromFloat64 x = .ok (f, acc) ∧ newFromFloat64 y = .ok (g, acc) ∧ Negated f g := by
  by_cases hn : ∃ s, double.decode x.toNat = .nan s
  · obtain ⟨s, hd⟩ := hn
    rw [hd] at h
    refine ⟨_, _, _, (C12_float80x86_float64 x s).2.2 hd, (C12_float80x86_float64 y (!s)).2.2 h, ?_⟩
    rw [negated_iff]; cases s <;> decide +kernel
  · have hn' : ¬ ∃ s, double.decode y.toNat = .nan s := by
      rintro ⟨s, hs⟩
      rw [h] at hs
      exact hn ⟨!s, by rw [← Datum.neg_neg (double.decode x.toNat), hs]; rfl⟩
    obtain ⟨z, hw, hd, e⟩ := newFromFloat64_eq (x := x) (by rw [Bool.eq_false_iff, Ne, isNaN64_iff]; exact hn)
    obtain ⟨z', hw', hd', e'⟩ := newFromFloat64_eq (x := y) (by rw [Bool.eq_false_iff, Ne, isNaN64_iff]; exact hn')
    rw [e, e']
    exact C58_float80x86_newFromBig z z' hw hw' (by rw [hd, hd', h])

example := C58_float80x86_newFromFloat64 0xBFF6000000000000 0x3FF6000000000000 (by rw [Sample.x_neg_double, Sample.x_double]; rfl)

theorem newFromFloat32_eq (x : F32) : newFromFloat32 x = newFromFloat64 (f32to64 x) := by
  by_cases hn : ∃ s, single.decode x.toNat = .nan s
  · obtain ⟨s, hd⟩ := hn
    rw [(C12_float80x86_float32 x s).2.2 hd, (C12_float80x86_float64 _ s).2.2 ((f32to64_decode x).1 s hd)]
  · have hw := (f32to64_decode x).2 hn
    push Not at hn
    obtain ⟨f, h1, c1, h2, -⟩ := newFromFloat32_spec hn
    obtain ⟨g, h3, c2, h4⟩ := newFromFloat64_spec (x := f32to64 x) (by rw [hw]; exact hn)
    rw [h1, h3, val_inj c1 c2 (by rw [h2, h4, hw]) (by rw [h2]; exact hn)]

/-- C58: the same for `NewFromFloat32`. -/
theorem C58_float80x86_newFromFloat32 (x y : F32) (h : single.decode y.toNat = (single.decode x.toNat).neg) :
    ∃ f g acc, newFromFloat32 x = .ok (f, acc) ∧ newFromFloat32 y = .ok (g, acc) ∧ Negated f g := by
  rw [newFromFloat32_eq, newFromFloat32_eq]
  exact C58_float80x86_newFromFloat64 _ _ (Binary16.f32to64_neg h)

example := C58_float80x86_newFromFloat32 0xBFB00000 0x3FB00000 (by rw [Sample.x_neg_single, Sample.x_single]; rfl)

end Float80x86

namespace Bfloat

/-- `g` is `f` with the other sign bit. -/
def Negated (f g : Float) : Prop := g.signbit = (!f.signbit) ∧ g.exp = f.exp ∧ g.frac = f.frac

/-- C58: `Big` of a bfloat16 with the other sign bit is the negated number, and the NaN flag is the same. -/
theorem C58_bfloat_big (f g : Float) (h : Negated f g) :
    ∃ x y nan, f.big = .ok (x, nan) ∧ g.big = .ok (y, nan) ∧ y.datum = x.datum.neg := by
  have hd : brain.decode g.bits.toNat = (brain.decode f.bits.toNat).neg := by
    apply Flipped.decode (F := brain)
    obtain ⟨a⟩ := f
    obtain ⟨b⟩ := g
    obtain ⟨f1, f2, f3, f4⟩ := C25_bfloat_fields a
    obtain ⟨g1, g2, g3, g4⟩ := C25_bfloat_fields b
    unfold newFromBits at *
    unfold Negated at h
    unfold Flipped
    rw [← BitVec.toNat_inj, f2, f3, g2, g3, Nat.cast_inj, Bool.eq_iff_iff, g1, Bool.not_eq_true', ← Bool.not_eq_true, f1] at h
    have ha := a.isLt
    have hb := b.isLt
    simp only [show brain.t + brain.w = 15 from rfl] at h ⊢
    omega
  obtain ⟨x, nan, h1, -, -, -, -, h2⟩ := C25_bfloat_big_format f
  obtain ⟨y, nan', h3, -, -, -, -, h4⟩ := C25_bfloat_big_format g
  rw [hd] at h4
  obtain ⟨rfl, h5⟩ := decoded_neg h2 h4
  exact ⟨x, y, _, h1, h3, h5⟩

-- 11/8 and its negation
example := C58_bfloat_big ⟨0xBFB0⟩ ⟨0x3FB0⟩ (by unfold Negated; decide)

end Bfloat

namespace Strconv

variable {W : ℕ} {F : Format} {size : ℤ} {fmt : Char}

theorem ftoaBits_neg (hF : GoFormat F) {a b : BitVec 64} (ha : a.toNat < 2 ^ (F.t + F.w + 1)) (hb : b.toNat < 2 ^ (F.t + F.w + 1))
    (hs : (F.decode a.toNat).sign = false) (h : F.decode b.toNat = (F.decode a.toNat).neg) (opt : Bool) (fmt : Char) (prec : ℤ) :
    (∃ t t', ftoaBits W opt a (infoOf F) fmt prec = .ok t ∧ ftoaBits W opt b (infoOf F) fmt prec = .ok t' ∧
      (t = "NaN".toList ∧ t' = "NaN".toList ∨ t = "+Inf".toList ∧ t' = "-Inf".toList)) ∨
    (∃ m, F.decode a.toNat = .num false m) ∧
    ftoaBits W opt b (infoOf F) fmt prec = ((if fmt = 'b' then signText true else signFor fmt true) ++ ·) <$> ftoaBits W opt a (infoOf F) fmt prec := by
  obtain ⟨a1, a2⟩ := special_bits (W := W) hF (bits := a) rfl ha opt fmt prec
  obtain ⟨b1, b2⟩ := special_bits (W := W) hF (bits := b) rfl hb opt fmt prec
  cases hd : F.decode a.toNat with
  | nan s => rw [hd] at h; exact Or.inl ⟨_, _, a1 s hd, b1 (!s) h, Or.inl ⟨rfl, rfl⟩⟩
  | inf s =>
    rw [hd] at h hs
    cases (show s = false from hs)
    exact Or.inl ⟨_, _, a2 false hd, b2 true h, Or.inr ⟨rfl, rfl⟩⟩
  | num s m =>
    right
    rw [hd] at h hs
    cases (show s = false from hs)
    refine ⟨⟨m, rfl⟩, ?_⟩
    obtain ⟨n, hn, rfl, -⟩ := F.code_of_decode hd
    obtain ⟨k, N, hsp⟩ := exists_split F hn
    rw [ftoaBits_finite hF hsp (code_eq ha hd), ftoaBits_finite hF hsp (code_eq hb h), ftoaFinite_sign]
    rfl

theorem neg_signs (hfmt : KnownFormat fmt) : (if fmt = 'b' then signText true else signFor fmt true) = ['-'] := by
  unfold signFor
  rcases hfmt with h | h
  · rw [if_pos h]; rfl
  · rw [if_pos h]; split <;> rfl

theorem neg_unknown (hfmt : ¬ KnownFormat fmt) : (if fmt = 'b' then signText true else signFor fmt true) = [] := by
  unfold KnownFormat at hfmt
  push Not at hfmt
  unfold signFor
  rw [if_neg hfmt.1, if_neg hfmt.2]

/-- The bits that `genericFtoa` prints. -/
theorem genericFtoa_neg (hS : SizeOf F size) {x y : F64} (hs : (double.decode x.toNat).sign = false)
    (h : double.decode y.toNat = (double.decode x.toNat).neg) (opt : Bool) (fmt : Char) (prec : ℤ) :
    (∃ t t', genericFtoa W opt x fmt prec size = .ok t ∧ genericFtoa W opt y fmt prec size = .ok t' ∧
      (t = "NaN".toList ∧ t' = "NaN".toList ∨ t = "+Inf".toList ∧ t' = "-Inf".toList)) ∨
    genericFtoa W opt y fmt prec size = ((if fmt = 'b' then signText true else signFor fmt true) ++ ·) <$> genericFtoa W opt x fmt prec size := by
  unfold genericFtoa
  rcases hS with ⟨rfl, rfl⟩ | ⟨rfl, rfl⟩ | ⟨rfl, rfl⟩
  · simp only [if_true]
    obtain ⟨f, g, acc, h1, h2, h3⟩ := Binary16.C58_binary16_newFromFloat64 x y h
    obtain ⟨f', acc', h4, h5⟩ := Binary16.C11_binary16_float64 x
    rw [h1] at h4
    injection h4 with h4
    injection h4 with h4
    subst h4
    rw [signbit64_eq, hs, Binary16.signbit_eq] at h5
    rw [h1, h2, ok_bind, ok_bind, ← infoOf_half]
    have hb : ∀ f : Binary16.Float, (f.bits.setWidth 64).toNat = f.bits.toNat := fun f => by
      rw [BitVec.toNat_setWidth, Nat.mod_eq_of_lt (lt_trans f.bits.isLt (by norm_num))]
    rcases ftoaBits_neg (W := W) (F := half) (Or.inl rfl) (a := f.bits.setWidth 64) (b := g.bits.setWidth 64) (by rw [hb]; exact f.bits.isLt)
      (by rw [hb]; exact g.bits.isLt) (by rw [hb, decode_sign]; exact h5) (by rw [hb, hb]; exact h3.decode) opt fmt prec with h | ⟨-, h⟩
    · exact Or.inl h
    · exact Or.inr h
  · rw [if_neg (by decide), if_pos rfl, if_neg (by decide), if_pos rfl, ← infoOf_single]
    have hb : ∀ v : F64, ((f64to32 v).setWidth 64).toNat = (f64to32 v).toNat := fun v => by
      rw [BitVec.toNat_setWidth, Nat.mod_eq_of_lt (lt_trans (f64to32 v).isLt (by norm_num))]
    obtain ⟨x1, x2, x3⟩ := f64to32_spec x
    obtain ⟨y1, y2, y3⟩ := f64to32_spec y
    by_cases hn : ∃ s, double.decode x.toNat = .nan s
    · obtain ⟨s, hn⟩ := hn
      obtain ⟨s1, e1⟩ := x1 s hn
      obtain ⟨s2, e2⟩ := y1 (!s) (by rw [h, hn]; rfl)
      left
      refine ⟨_, _, (special_bits (W := W) (F := single) (Or.inr (Or.inl rfl)) (hb x) (BitVec.isLt _) opt fmt prec).1 s1 e1,
        (special_bits (W := W) (F := single) (Or.inr (Or.inl rfl)) (hb y) (BitVec.isLt _) opt fmt prec).1 s2 e2, Or.inl ⟨rfl, rfl⟩⟩
    · have key : (single.decode (f64to32 x).toNat).sign = false ∧ single.decode (f64to32 y).toNat = (single.decode (f64to32 x).toNat).neg := by
        cases hd : double.decode x.toNat with
        | nan s => exact absurd ⟨s, hd⟩ hn
        | inf s =>
          rw [hd] at h hs
          rw [x2 s hd, y2 (!s) h]
          exact ⟨hs, rfl⟩
        | num s m =>
          rw [hd] at h hs
          cases (show s = false from hs)
          have r1 := x3 false m hd
          have r2 := Float128ppc.RoundsTo.unique (by decide) (y3 true m h) (roundsTo_neg (by decide) r1)
          rw [Format.decode_flip] at r2
          refine ⟨?_, r2⟩
          unfold Format.RoundsTo at r1
          split at r1
          · rw [r1]; rfl
          · obtain ⟨r, e, -⟩ := r1
            rw [e]; rfl
      rcases ftoaBits_neg (W := W) (F := single) (Or.inr (Or.inl rfl)) (a := (f64to32 x).setWidth 64) (b := (f64to32 y).setWidth 64)
        (by rw [hb]; exact (f64to32 x).isLt) (by rw [hb]; exact (f64to32 y).isLt) (by rw [hb]; exact key.1) (by rw [hb, hb]; exact key.2)
        opt fmt prec with h | ⟨-, h⟩
      · exact Or.inl h
      · exact Or.inr h
  · rw [if_neg (by decide), if_neg (by decide), if_pos rfl, if_neg (by decide), if_neg (by decide), if_pos rfl, ← infoOf_double]
    rcases ftoaBits_neg (W := W) (F := double) (Or.inr (Or.inr rfl)) (a := x) (b := y) x.isLt y.isLt hs h opt fmt prec with h | ⟨-, h⟩
    · exact Or.inl h
    · exact Or.inr h

/-- C58: the text of a negated number is the text of the number with a minus sign in front, in every known format, with every
precision and size; infinities are written with their sign, and a NaN without one. -/
theorem C58_format (hW : W = 32 ∨ W = 64) (hfmt : KnownFormat fmt) (hsize : size = 16 ∨ size = 32 ∨ size = 64) (x y : F64)
    (hs : (double.decode x.toNat).sign = false) (h : double.decode y.toNat = (double.decode x.toNat).neg) (opt : Bool) (prec : ℤ) :
    ∃ t t', genericFtoa W opt x fmt prec size = .ok t ∧ genericFtoa W opt y fmt prec size = .ok t' ∧ NegatedText t t' := by
  obtain ⟨t, ht⟩ := C52_known_partial hW hfmt x prec hsize opt
  have hS : ∃ F, SizeOf F size := by
    rcases hsize with rfl | rfl | rfl
    · exact ⟨half, Or.inl ⟨rfl, rfl⟩⟩
    · exact ⟨single, Or.inr (Or.inl ⟨rfl, rfl⟩)⟩
    · exact ⟨double, Or.inr (Or.inr ⟨rfl, rfl⟩)⟩
  obtain ⟨F, hS⟩ := hS
  rcases genericFtoa_neg (W := W) hS hs h opt fmt prec with ⟨t1, t2, h1, h2, h3⟩ | h1
  · exact ⟨t1, t2, h1, h2, h3.elim Or.inl fun h => Or.inr (Or.inl h)⟩
  · rw [ht, neg_signs hfmt] at h1
    exact ⟨t, _, ht, h1, Or.inr (Or.inr rfl)⟩

/-- C58: with an unknown format letter nothing is printed for the sign of a finite number: the result is that for the other sign
(also the panics). -/
theorem C58_format_unknown (hfmt : ¬ KnownFormat fmt) (hsize : size = 16 ∨ size = 32 ∨ size = 64) (x y : F64)
    (hs : (double.decode x.toNat).sign = false) (h : double.decode y.toNat = (double.decode x.toNat).neg) (opt : Bool) (prec : ℤ) :
    genericFtoa W opt x fmt prec size = .ok "+Inf".toList ∧ genericFtoa W opt y fmt prec size = .ok "-Inf".toList ∨
    genericFtoa W opt y fmt prec size = genericFtoa W opt x fmt prec size := by
  have hS : ∃ F, SizeOf F size := by
    rcases hsize with rfl | rfl | rfl
    · exact ⟨half, Or.inl ⟨rfl, rfl⟩⟩
    · exact ⟨single, Or.inr (Or.inl ⟨rfl, rfl⟩)⟩
    · exact ⟨double, Or.inr (Or.inr ⟨rfl, rfl⟩)⟩
  obtain ⟨F, hS⟩ := hS
  rcases genericFtoa_neg (W := W) hS hs h opt fmt prec with ⟨t1, t2, h1, h2, ⟨rfl, rfl⟩ | ⟨rfl, rfl⟩⟩ | h1
  · exact Or.inr (h2.trans h1.symm)
  · exact Or.inl ⟨h1, h2⟩
  · rw [neg_unknown hfmt] at h1
    right
    rw [h1]
    cases genericFtoa W opt x fmt prec size <;> rfl

/-- C58: for a finite number of the size the text of the negation has a minus sign in front. -/
theorem C58_format_finite (hW : W = 32 ∨ W = 64) (hS : SizeOf F size) (hfmt : KnownFormat fmt) {x y : F64} {m : ℚ} {c : ℕ}
    (hc : F.decode c = .num false m) (hx : double.decode x.toNat = .num false m) (hy : double.decode y.toNat = .num true m) (prec : ℤ) :
    ∃ t, formatFloat W x fmt prec size = .ok t ∧ formatFloat W y fmt prec size = .ok ('-' :: t) := by
  obtain ⟨n, hn, rfl, -⟩ := F.code_of_decode hc
  obtain ⟨k, N, hsp⟩ := exists_split F hn
  obtain ⟨t, ht⟩ := known_total (W := W) hW hS hfmt prec true hc hx
  refine ⟨t, ht, ?_⟩
  unfold formatFloat
  rw [genericFtoa_finite hS hsp hy, ftoaFinite_sign, neg_signs hfmt, ← genericFtoa_finite hS hsp hx, ht]
  rfl

end Strconv

open Strconv in
theorem sciText_neg (ds : List ℕ) (dp prec : ℤ) : sciText true ds dp prec = '-' :: sciText false ds dp prec := rfl

open Strconv in
theorem printsAs_neg {W : ℕ} (hW : W = 32 ∨ W = 64) {size : ℤ} (hsize : size = 16 ∨ size = 32 ∨ size = 64) {x y : F64} {m : ℚ}
    (hx : double.decode x.toNat = .num false m) (hy : double.decode y.toNat = .num true m) (r : ℚ) :
    PrintsAs W size x false r ↔ PrintsAs W size y true r := by
  obtain ⟨t, t', h1, h2, h3⟩ := Strconv.C58_format (fmt := 'e') hW (Or.inr (by unfold DecimalFormat; simp)) hsize x y (by rw [hx]; rfl)
    (by rw [hx, hy]; rfl) true (-1)
  obtain ⟨u, e1, e2⟩ := format_e hW hsize x
  obtain ⟨u', e3, e4⟩ := format_e hW hsize y
  have h1' : formatFloat W x 'e' (-1) size = .ok t := h1
  have h2' : formatFloat W y 'e' (-1) size = .ok t' := h2
  rw [h1'] at e1
  rw [h2'] at e3
  injection e1 with e1
  injection e3 with e3
  subst e1 e3
  unfold PrintsAs
  rw [h1', h2']
  have key : ∀ q, readDecimal t = some (false, q) ↔ readDecimal t' = some (true, q) := by
    intro q
    rcases h3 with ⟨rfl, rfl⟩ | ⟨rfl, rfl⟩ | rfl
    · rw [show readDecimal "NaN".toList = none by decide]; simp
    · rw [show readDecimal "+Inf".toList = none by decide, show readDecimal "-Inf".toList = none by decide]; simp
    · constructor
      · intro h
        rcases e2 with e2 | ⟨s, ds, dp, n, rfl⟩
        · rw [e2] at h; cases h
        · rw [sciText_read s n.digit dp (by omega)] at h
          injection h with h
          injection h with h h'
          subst h h'
          rw [← sciText_neg, sciText_read true n.digit dp (by omega)]
      · intro h
        rcases e4 with e4 | ⟨s, ds, dp, n, e⟩
        · rw [e4] at h; cases h
        · rw [e, sciText_read s n.digit dp (by omega)] at h
          injection h with h
          injection h with h h'
          subst h h'
          rw [sciText_neg] at e
          injection e with _ e
          rw [e, sciText_read false n.digit dp (by omega)]
  constructor
  · rintro ⟨_, q, h, a, b⟩
    injection h with h
    subst h
    exact ⟨_, q, rfl, (key q).1 a, b⟩
  · rintro ⟨_, q, h, a, b⟩
    injection h with h
    subst h
    exact ⟨_, q, rfl, (key q).2 a, b⟩

theorem exists_neg64 {m : ℚ} {x : F64} {s : Bool} (hx : double.decode x.toNat = .num s m) : ∃ y : F64, double.decode y.toNat = .num (!s) m := by
  obtain ⟨n, hn, rfl, -⟩ := double.code_of_decode hx
  have hlt : double.signPart (!s) + n < 2 ^ 64 := by
    have : n < 2 ^ 63 := lt_of_lt_of_le hn (by decide)
    unfold Format.signPart
    simp only [show double.t + double.w = 63 from rfl]
    split <;> omega
  exact ⟨BitVec.ofNat 64 (double.signPart (!s) + n), by rw [BitVec.toNat_ofNat, Nat.mod_eq_of_lt hlt, double.decode_code (!s) hn]⟩

theorem exists_neg32 {m : ℚ} {x : F32} {s : Bool} (hx : single.decode x.toNat = .num s m) : ∃ y : F32, single.decode y.toNat = .num (!s) m := by
  obtain ⟨n, hn, rfl, -⟩ := single.code_of_decode hx
  have hlt : single.signPart (!s) + n < 2 ^ 32 := by
    have : n < 2 ^ 31 := lt_of_lt_of_le hn (by decide)
    unfold Format.signPart
    simp only [show single.t + single.w = 31 from rfl]
    split <;> omega
  exact ⟨BitVec.ofNat 32 (single.signPart (!s) + n), by rw [BitVec.toNat_ofNat, Nat.mod_eq_of_lt hlt, single.decode_code (!s) hn]⟩

theorem exists_printsAs_neg {W : ℕ} (hW : W = 32 ∨ W = 64) {size : ℤ} (hsize : size = 16 ∨ size = 32 ∨ size = 64) (m r : ℚ) :
    (∃ v : F64, double.decode v.toNat = .num false m ∧ PrintsAs W size v false r) ↔
      ∃ v : F64, double.decode v.toNat = .num true m ∧ PrintsAs W size v true r := by
  constructor
  · rintro ⟨v, h, hp⟩
    obtain ⟨u, hu⟩ := exists_neg64 h
    exact ⟨u, hu, (printsAs_neg hW hsize h hu r).1 hp⟩
  · rintro ⟨v, h, hp⟩
    obtain ⟨u, hu⟩ := exists_neg64 h
    exact ⟨u, hu, (printsAs_neg hW hsize hu h r).2 hp⟩

theorem exists_printsAs_neg32 {W : ℕ} (hW : W = 32 ∨ W = 64) (m r : ℚ) :
    (∃ v : F32, single.decode v.toNat = .num false m ∧ PrintsAs W 32 (f32to64 v) false r) ↔
      ∃ v : F32, single.decode v.toNat = .num true m ∧ PrintsAs W 32 (f32to64 v) true r := by
  constructor
  · rintro ⟨v, h, hp⟩
    obtain ⟨u, hu⟩ := exists_neg32 h
    exact ⟨u, hu, (printsAs_neg hW (Or.inr (Or.inl rfl)) (by rw [(f32to64_decode v).2 (by simp [h]), h]) (by rw [(f32to64_decode u).2 (by simp [hu]), hu]; rfl) r).1 hp⟩
  · rintro ⟨v, h, hp⟩
    obtain ⟨u, hu⟩ := exists_neg32 h
    exact ⟨u, hu, (printsAs_neg hW (Or.inr (Or.inl rfl)) (by rw [(f32to64_decode u).2 (by simp [hu]), hu]; rfl) (by rw [(f32to64_decode v).2 (by simp [h]), h]) r).2 hp⟩

theorem isExact_neg {W : ℕ} (hW : W = 32 ∨ W = 64) {x y : BigFloat} (hx : x.WF) (hy : y.WF) {s : Bool} {m : ℚ} (hd : x.datum = .num s m)
    (hd' : y.datum = .num (!s) m) :
    isExact16 W x = isExact16 W y ∧ isExact32 W x = isExact32 W y ∧ isExact64 W x = isExact64 W y := by
  wlog h : s = false generalizing x y s
  · have := this hy hx (s := !s) hd' (by rw [Bool.not_not]; exact hd) (by cases s <;> simp_all)
    exact ⟨this.1.symm, this.2.1.symm, this.2.2.symm⟩
  subst h
  obtain ⟨a, a1, a2⟩ := C35_decides16 hW hx hd
  obtain ⟨b, b1, b2⟩ := C35_decides16 hW hy hd'
  obtain ⟨a', a1', a2'⟩ := C35_decides32 hW hx hd
  obtain ⟨b', b1', b2'⟩ := C35_decides32 hW hy hd'
  obtain ⟨a'', a1'', a2''⟩ := C35_decides64 hW hx hd
  obtain ⟨b'', b1'', b2''⟩ := C35_decides64 hW hy hd'
  rw [exists_printsAs_neg hW (Or.inl rfl)] at a2
  rw [exists_printsAs_neg32 hW] at a2'
  rw [exists_printsAs_neg hW (Or.inr (Or.inr rfl))] at a2''
  rw [a1, b1, a1', b1', a1'', b1'', Bool.eq_iff_iff.2 (a2.trans b2.symm), Bool.eq_iff_iff.2 (a2'.trans b2'.symm), Bool.eq_iff_iff.2 (a2''.trans b2''.symm)]
  exact ⟨rfl, rfl, rfl⟩

/-- C58: IsExact16, IsExact32 and IsExact64 do not depend on the sign. -/
theorem C58_isExact {W : ℕ} (hW : W = 32 ∨ W = 64) {x y : BigFloat} (hx : x.WF) (hy : y.WF) (h : y.datum = x.datum.neg) :
    isExact16 W x = isExact16 W y ∧ isExact32 W x = isExact32 W y ∧ isExact64 W x = isExact64 W y := by
  rcases datum_cases x with ⟨s, m, hd⟩ | ⟨s, hd⟩
  · exact isExact_neg hW hx hy hd (by rw [h, hd]; rfl)
  · obtain ⟨a1, a2, a3⟩ := C36_infinite hW hd
    obtain ⟨b1, b2, b3⟩ := C36_infinite hW (x := y) (s := !s) (by rw [h, hd]; rfl)
    exact ⟨a1.trans b1.symm, a2.trans b2.symm, a3.trans b3.symm⟩

example := C58_isExact (W := 64) (.inr rfl) Sample.x_wf Sample.x_neg_wf (by rw [Sample.x_neg_datum, Sample.x_datum]; rfl)

/-- C36, the part about the sign: the answers for a number and for its negation are the same, whatever the precision,
rounding mode and accuracy fields of the two variables.
Missing, because false: that the answers for infinities are right (`C36_infinite`). -/
theorem C36_sign_partial {W : ℕ} (hW : W = 32 ∨ W = 64) {x y : BigFloat} (hx : x.WF) (hy : y.WF) (h : y.datum = x.datum.neg) :
    isExact16 W x = isExact16 W y ∧ isExact32 W x = isExact32 W y ∧ isExact64 W x = isExact64 W y := C58_isExact hW hx hy h

-- The hypotheses are met: -0.1 and 0.1, a NaN and its negation, and variables of opposite value.
example : double.decode (0xBFB999999999999A : F64).toNat = (double.decode (0x3FB999999999999A : F64).toNat).neg ∧
    (double.decode (0x3FB999999999999A : F64).toNat).sign = false := by
  simp [Format.decode, double, Format.bias, Datum.neg, Datum.sign]
example : double.decode (0xFFF8000000000001 : F64).toNat = (double.decode (0x7FF0000000000001 : F64).toNat).neg := by
  simp [Format.decode, double, Datum.neg]
example : (⟨10, .toZero, .above, .finite, true, 9, -5⟩ : BigFloat).datum = (⟨53, .toNearestEven, .exact, .finite, false, 9, -5⟩ : BigFloat).datum.neg := by
  rfl
example : Binary16.newFromFloat64 0x3FB999999999999A = .ok (⟨0x2E66⟩, .exact) ∧ Binary16.newFromFloat64 0xBFB999999999999A = .ok (⟨0xAE66⟩, .exact) := by
  decide +kernel
example : Binary16.Negated ⟨0x2E66⟩ ⟨0xAE66⟩ ∧ Bfloat.Negated ⟨0x7FC0⟩ ⟨0xFFC0⟩ ∧ Binary128.Negated ⟨0x3FFF000000000000, 5⟩ ⟨0xBFFF000000000000, 5⟩ ∧
    Float80x86.Negated ⟨0x3FFF, 0xC000000000000000⟩ ⟨0xBFFF, 0xC000000000000000⟩ := by
  unfold Binary16.Negated Bfloat.Negated Binary128.Negated Float80x86.Negated
  decide
example : Strconv.formatFloat 64 0x3FB999999999999A 'e' (-1) 64 = .ok "1e-01".toList ∧
    Strconv.formatFloat 64 0xBFB999999999999A 'e' (-1) 64 = .ok "-1e-01".toList := by
  decide +kernel

end GoFloat
