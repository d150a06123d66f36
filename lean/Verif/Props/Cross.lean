import Verif.Proofs.Sample
import Verif.Props.Complete
import Verif.Props.Bfloat
import Verif.Props.Float128ppc
import Verif.Props.Float
/-
Conversions between the packages through big.Float (C56 of properties.jsonl).
-/
namespace GoFloat
open Spec

/-- A `big.Float` decoded from an encoding that is not a NaN. -/
theorem decoded_datum {d : Datum} {x : BigFloat} {nan : Bool} (h : ∀ s, d ≠ .nan s) (hd : Decoded d x nan) : x.datum = d ∧ nan = false := by
  cases d with
  | nan s => exact absurd rfl (h s)
  | inf s => exact ⟨hd.2, hd.1⟩
  | num s m => exact ⟨hd.2, hd.1⟩

/-- A number of a format contained in quadruple precision becomes a quadruple. -/
theorem Binary128.newFromBig_widen {F : Format} (hw : 2 ≤ F.w) (ht : F.t ≤ quad.t) (hq : quad.qmin ≤ F.qmin)
    (hb : F.bias ≤ quad.bias) {x : BigFloat} (hx : x.WF) {c : ℕ} (hd : x.datum = F.decode c) :
    ∃ g, Binary128.newFromBig x = .ok (g, .exact) ∧ quad.decode g.code = F.decode c := by
  obtain ⟨h1, h2⟩ := toIEEE_widen (F := F) (G := quad) hw (by decide) (by decide) ht hq hb hx hd
  have hlt : (x.toIEEE quad.t quad.w).1 < 2 ^ 128 := toIEEE_lt quad (by decide) (by decide) hx
  generalize (x.toIEEE quad.t quad.w).1 = c' at h1 hlt
  have hc : (⟨BitVec.ofNat 64 (c' / 2 ^ 64), BitVec.ofNat 64 c'⟩ : Binary128.Float).code = c' := by
    unfold Binary128.Float.code
    simp only [BitVec.toNat_ofNat]
    omega
  exact ⟨⟨BitVec.ofNat 64 (c' / 2 ^ 64), BitVec.ofNat 64 c'⟩, Binary128.newFromBig_of_decode hx (by rw [hc, h1, hd]), by rw [hc, h1]⟩

/-- A number of a format contained in double-extended precision becomes its canonical encoding. -/
theorem Float80x86.newFromBig_widen {F : Format} (hw : 2 ≤ F.w) (ht : F.t ≤ extended.t) (hq : extended.qmin ≤ F.qmin)
    (hb : F.bias ≤ extended.bias) {x : BigFloat} (hx : x.WF) {c : ℕ} (hd : x.datum = F.decode c) :
    ∃ g : Float80x86.Float, Float80x86.newFromBig x = .ok (g, .exact) ∧ g.Canonical ∧ g.val = F.decode c := by
  obtain ⟨h1, h2⟩ := toIEEE_widen (F := F) (G := extended) hw (by decide) (by decide) ht hq hb hx hd
  have hlt : (x.toIEEE extended.t extended.w).1 < 2 ^ 79 := toIEEE_lt extended (by decide) (by decide) hx
  obtain ⟨g, g1, g2, g3⟩ := Float80x86.newFromBig_of_decode hx hlt (by rw [h1, hd])
  exact ⟨g, g1, g2, by rw [Float80x86.val_canonical g2, g3, h1]⟩

/-- C56: a half that is not a NaN becomes a quadruple of the same value, reported exact, and comes back bit for bit. -/
theorem C56_binary16_binary128 (f : Binary16.Float) (h : ∀ s, half.decode f.bits.toNat ≠ .nan s) :
    ∃ x g y, f.big = .ok (x, false) ∧ Binary128.newFromBig x = .ok (g, .exact) ∧ quad.decode g.code = half.decode f.bits.toNat ∧
      g.big = .ok (y, false) ∧ Binary16.newFromBig y = .ok (f, .exact) := by
  obtain ⟨x, nan, hb, -, -, -, hwf, hd⟩ := Binary16.big_spec f
  obtain ⟨hxd, rfl⟩ := decoded_datum h hd
  obtain ⟨g, g1, g2⟩ := Binary128.newFromBig_widen (by decide) (by decide) (by decide +kernel) (by decide +kernel) hwf hxd
  obtain ⟨y, nan, yb, -, -, -, ywf, yd⟩ := Binary128.big_spec g
  obtain ⟨hyd, rfl⟩ := decoded_datum (by rw [g2]; exact h) yd
  exact ⟨x, g, y, hb, g1, g2, yb, Binary16.newFromBig_of_decode ywf (by rw [hyd, g2])⟩

example := C56_binary16_binary128 ⟨0xBD80⟩ (fun s h => by rw [Sample.x_half] at h; simp at h)

/-- C56: a half that is not a NaN becomes a canonical 80-bit extended float of the same value, reported exact, and comes back bit
for bit. -/
theorem C56_binary16_float80x86 (f : Binary16.Float) (h : ∀ s, half.decode f.bits.toNat ≠ .nan s) :
    ∃ x g y, f.big = .ok (x, false) ∧ Float80x86.newFromBig x = .ok (g, .exact) ∧ g.Canonical ∧ g.val = half.decode f.bits.toNat ∧
      g.big = .ok (y, false) ∧ Binary16.newFromBig y = .ok (f, .exact) := by
  obtain ⟨x, nan, hb, -, -, -, hwf, hd⟩ := Binary16.big_spec f
  obtain ⟨hxd, rfl⟩ := decoded_datum h hd
  obtain ⟨g, g1, g3, g2⟩ := Float80x86.newFromBig_widen (by decide) (by decide) (by decide +kernel) (by decide +kernel) hwf hxd
  obtain ⟨y, nan, yb, -, -, -, ywf, yd⟩ := Float80x86.big_spec g
  obtain ⟨hyd, rfl⟩ := decoded_datum (by rw [g2]; exact h) yd
  exact ⟨x, g, y, hb, g1, g3, g2, yb, Binary16.newFromBig_of_decode ywf (by rw [hyd, g2])⟩

example := C56_binary16_float80x86 ⟨0xBD80⟩ (fun s h => by rw [Sample.x_half] at h; simp at h)

/-- C56: a bfloat that is not a NaN becomes a quadruple of the same value, reported exact. -/
theorem C56_bfloat_binary128 (f : Bfloat.Float) (h : ∀ s, brain.decode f.bits.toNat ≠ .nan s) :
    ∃ x g, f.big = .ok (x, false) ∧ Binary128.newFromBig x = .ok (g, .exact) ∧ quad.decode g.code = brain.decode f.bits.toNat := by
  obtain ⟨x, nan, hb, -, -, -, hwf, hd⟩ := Bfloat.big_spec f
  obtain ⟨hxd, rfl⟩ := decoded_datum h hd
  obtain ⟨g, g1, g2⟩ := Binary128.newFromBig_widen (by decide) (by decide) (by decide +kernel) (by decide +kernel) hwf hxd
  exact ⟨x, g, hb, g1, g2⟩

example := C56_bfloat_binary128 ⟨0xBFB0⟩ (fun s h => by rw [Sample.x_brain] at h; simp at h)

/-- C56: a bfloat that is not a NaN becomes a canonical 80-bit extended float of the same value, reported exact. -/
theorem C56_bfloat_float80x86 (f : Bfloat.Float) (h : ∀ s, brain.decode f.bits.toNat ≠ .nan s) :
    ∃ x g, f.big = .ok (x, false) ∧ Float80x86.newFromBig x = .ok (g, .exact) ∧ g.Canonical ∧ g.val = brain.decode f.bits.toNat := by
  obtain ⟨x, nan, hb, -, -, -, hwf, hd⟩ := Bfloat.big_spec f
  obtain ⟨hxd, rfl⟩ := decoded_datum h hd
  obtain ⟨g, g1, g2, g3⟩ := Float80x86.newFromBig_widen (by decide) (by decide) (by decide +kernel) (by decide +kernel) hwf hxd
  exact ⟨x, g, hb, g1, g2, g3⟩

example := C56_bfloat_float80x86 ⟨0xBFB0⟩ (fun s h => by rw [Sample.x_brain] at h; simp at h)

/-- C56: an 80-bit extended float that is not a NaN, canonical or not, becomes a quadruple of the same value, reported exact, and
comes back as the canonical encoding of that value, reported exact. -/
theorem C56_float80x86_binary128 (f : Float80x86.Float) (h : ∀ s, f.val ≠ .nan s) :
    ∃ x g y f', f.big = .ok (x, false) ∧ Binary128.newFromBig x = .ok (g, .exact) ∧ quad.decode g.code = f.val ∧
      g.big = .ok (y, false) ∧ Float80x86.newFromBig y = .ok (f', .exact) ∧ f'.Canonical ∧ f'.val = f.val := by
  obtain ⟨x, nan, hb, -, -, -, hwf, hd⟩ := Float80x86.big_spec f
  obtain ⟨hxd, rfl⟩ := decoded_datum h hd
  obtain ⟨c, hc, hcd⟩ := Float80x86.exists_canonical f h
  obtain ⟨g, g1, g2⟩ := Binary128.newFromBig_widen (F := extended) (by decide) (by decide) (by decide +kernel) (by decide +kernel) hwf
    (c := c) (by rw [hxd, hcd])
  obtain ⟨y, nan, yb, -, -, -, ywf, yd⟩ := Binary128.big_spec g
  rw [g2, hcd] at yd
  obtain ⟨hyd, rfl⟩ := decoded_datum h yd
  obtain ⟨f', e1, e2, e3⟩ := Float80x86.newFromBig_of_decode ywf hc (by rw [hyd, hcd])
  exact ⟨x, g, y, f', hb, g1, by rw [g2, hcd], yb, e1, e2, by rw [Float80x86.val_canonical e2, e3, hcd]⟩

example := C56_float80x86_binary128 ⟨0xBFFF, 0xB000000000000000⟩ (fun s h => by rw [Sample.x_val] at h; simp at h)

/-- C56: if the value of a quadruple is that of a half or of a canonical 80-bit extended float, converting it there returns
that encoding, reported exact. -/
theorem C56_binary128_narrow (g : Binary128.Float) (h : ∀ s, quad.decode g.code ≠ .nan s) :
    ∃ y, g.big = .ok (y, false) ∧
      (∀ f : Binary16.Float, half.decode f.bits.toNat = quad.decode g.code → Binary16.newFromBig y = .ok (f, .exact)) ∧
      (∀ f : Float80x86.Float, f.Canonical → f.val = quad.decode g.code → Float80x86.newFromBig y = .ok (f, .exact)) := by
  obtain ⟨y, nan, yb, -, -, -, ywf, yd⟩ := Binary128.big_spec g
  obtain ⟨hyd, rfl⟩ := decoded_datum h yd
  exact ⟨y, yb, fun f hf => Binary16.newFromBig_of_decode ywf (by rw [hyd, hf]),
    fun f hc hf => Float80x86.newFromBig_of_val ywf hc (by rw [hyd, hf])⟩

example := C56_binary128_narrow ⟨0xBFFF600000000000, 0⟩ (fun s h => by rw [Sample.x_quad] at h; simp at h)

/-- C56: the same from 80-bit extended floats to halves. -/
theorem C56_float80x86_narrow (g : Float80x86.Float) (h : ∀ s, g.val ≠ .nan s) :
    ∃ y, g.big = .ok (y, false) ∧
      ∀ f : Binary16.Float, half.decode f.bits.toNat = g.val → Binary16.newFromBig y = .ok (f, .exact) := by
  obtain ⟨y, nan, yb, -, -, -, ywf, yd⟩ := Float80x86.big_spec g
  obtain ⟨hyd, rfl⟩ := decoded_datum h yd
  exact ⟨y, yb, fun f hf => Binary16.newFromBig_of_decode ywf (by rw [hyd, hf])⟩

example := C56_float80x86_narrow ⟨0xBFFF, 0xB000000000000000⟩ (fun s h => by rw [Sample.x_val] at h; simp at h)

/-- C56: going through float64 is the same as going through big.Float: for a half that is not a NaN, `NewFromFloat64(f.Float64())`
and `NewFromBig(f.Big())` of the wider packages agree. -/
theorem C56_routes (f : Binary16.Float) (h : ∀ s, half.decode f.bits.toNat ≠ .nan s) :
    ∃ x r, f.big = .ok (x, false) ∧ f.float64 = .ok (r, .exact) ∧
      Binary128.newFromFloat64 r = Binary128.newFromBig x ∧ Float80x86.newFromFloat64 r = Float80x86.newFromBig x := by
  obtain ⟨x, nan, hb, -, -, -, hwf, hd⟩ := Binary16.big_spec f
  obtain ⟨hxd, rfl⟩ := decoded_datum h hd
  obtain ⟨r, r1, r2⟩ := Binary16.C04_binary16_float64 f
  have hr : double.decode r.toNat = half.decode f.bits.toNat := by
    cases hc : half.decode f.bits.toNat with
    | nan s => exact absurd hc (h s)
    | inf s => rw [hc] at r2; exact r2
    | num s m => rw [hc] at r2; exact r2
  refine ⟨x, r, hb, r1, ?_, ?_⟩
  · obtain ⟨g, g1, g2⟩ := Binary128.newFromFloat64_spec (x := r) (by rw [hr]; exact h)
    rw [g1, Binary128.newFromBig_of_decode hwf (f := g) (by rw [g2, hr, hxd])]
  · obtain ⟨g, g1, g3, g2⟩ := Float80x86.newFromFloat64_spec (x := r) (by rw [hr]; exact h)
    rw [g1, Float80x86.newFromBig_of_val hwf g3 (by rw [g2, hr, hxd])]

example := C56_routes ⟨0xBD80⟩ (fun s h => by rw [Sample.x_half] at h; simp at h)

/-- Finite doubles are well below the overflow threshold. -/
theorem Float128ppc.magc_lt_overflow' {n : ℕ} (hn : n < double.infCode) : double.magc n < double.overflowAt - 2 ^ (917 : ℤ) := by
  have h1 : double.magc n ≤ double.magc (2045 * 2 ^ double.t + (2 ^ 53 - 1)) :=
    (Format.magc_strictMono double).monotone (by
      have : double.infCode = 2045 * 2 ^ double.t + (2 ^ 53 - 1) + 1 := by decide
      omega)
  rw [double.magc_eq (by decide) (by right; decide)] at h1
  refine h1.trans_lt ?_
  unfold Format.overflowAt
  obtain ⟨d1, d2, d3, d4⟩ := double_facts
  rw [d1, d2, d3, show (1023 : ℤ) = 52 + (-1074 + (2045 : ℕ)) by norm_num, show (917 : ℤ) = -54 + (-1074 + (2045 : ℕ)) by norm_num,
    zpow_add₀ (by norm_num : (2 : ℚ) ≠ 0) 52, zpow_add₀ (by norm_num : (2 : ℚ) ≠ 0) (-54)]
  have hP : (0 : ℚ) < 2 ^ (-1074 + ((2045 : ℕ) : ℤ)) := zpow_pos (by norm_num) _
  generalize (2 : ℚ) ^ (-1074 + ((2045 : ℕ) : ℤ)) = P at hP ⊢
  rw [mul_right_comm, ← sub_mul]
  refine mul_lt_mul_of_pos_right ?_ hP
  norm_num

/-- C56: `float128ppc.NewFromBig` of a number (or +Inf) that is a double returns that double and a zero `low`, reported exact. -/
theorem C56_float128ppc_double (x : BigFloat) (hx : x.WF) (hmode : x.mode = .toNearestEven ∨ x.prec ≤ 106) (val : F64)
    (hd : x.datum = double.decode val.toNat) (hi : x.datum ≠ .inf true) :
    ∃ x', Float128ppc.newFromBig x = .ok ((⟨val, 0⟩, .exact), x') := by
  have hnn : ∀ s, double.decode val.toNat ≠ .nan s := by
    intro s h
    rw [h] at hd
    unfold BigFloat.datum at hd
    split at hd <;> simp at hd
  cases hf : x.form with
  | zero =>
    rw [Float128ppc.newFromBig_zero hf]
    refine ⟨x, ?_⟩
    have hz : double.decode (if x.neg then Float128ppc.NegZero else Float128ppc.Zero).high.toNat = .num x.neg 0 := by
      cases x.neg
      · show double.decode 0 = _
        norm_num [Format.decode, double]
      · show double.decode 0x8000000000000000 = _
        norm_num [Format.decode, double]
    have hv : val = (if x.neg then Float128ppc.NegZero else Float128ppc.Zero).high :=
      decode_inj64 (by rw [← hd, hz]; unfold BigFloat.datum; rw [hf]) hnn
    rw [hv]; cases x.neg <;> rfl
  | inf =>
    rw [Float128ppc.newFromBig_inf hf]
    have hn : x.neg = false := by
      cases h : x.neg
      · rfl
      · exact absurd (by unfold BigFloat.datum; rw [hf, h]) hi
    have hz : double.decode Float128ppc.Inf.high.toNat = .inf false := by
      show double.decode 0x7FF0000000000000 = _
      norm_num [Format.decode, double]
    have hv : val = Float128ppc.Inf.high := decode_inj64 (by rw [← hd, hz, ← hn]; unfold BigFloat.datum; rw [hf]) hnn
    rw [hv, hn]
    exact ⟨x, rfl⟩
  | finite =>
    rw [BigFloat.datum_finite hf] at hd
    have hpos := BigFloat.mag_pos (hx.mant_pos hf)
    obtain ⟨n, hn, hmn, -, -⟩ := double.code_of_decode hd.symm
    have hlt := Float128ppc.magc_lt_overflow' hn
    rw [← hmn] at hlt
    obtain ⟨f, x', h1, v, mh, h2, h3, h4, h5, h6⟩ := Float128ppc.C29_float128ppc_nearest x hx hf hmode hlt
    have hsv : x.sval = signed x.neg x.mag := BigFloat.sval_finite hf
    have hv : v = x.sval := by
      obtain ⟨N, q, e1, e2⟩ := decode_dyadic hd.symm
      have h8 := h2.2.1 (if x.neg then -N else N) q (by
        have : N < 2 ^ 106 := lt_of_lt_of_le e2 (by decide +kernel)
        split
        · rw [abs_neg]; exact_mod_cast this
        · exact_mod_cast this)
      have : ((if x.neg then -N else N : ℤ) : ℚ) * 2 ^ q = x.sval := by
        rw [hsv, e1]; unfold signed; cases x.neg <;> simp
      rw [this, sub_self, abs_zero, abs_nonpos_iff, sub_eq_zero] at h8
      exact h8.symm
    have habs : |v| = x.mag := by rw [hv, hsv, BigFloat.signed_abs hpos.le]
    rw [habs] at h4
    have hself : double.RoundsTo x.neg x.mag val.toNat := by
      unfold Format.RoundsTo
      rw [if_neg (not_le.2 (by rw [hmn]; exact Float128ppc.magc_lt_overflow hn))]
      refine ⟨x.mag, hd.symm, fun c' s r' _ => by simp, fun c' s r' _ hne heq => ?_⟩
      rw [sub_self, abs_zero, eq_comm, abs_eq_zero, sub_eq_zero] at heq
      exact absurd heq.symm hne
    have hu := Float128ppc.RoundsTo.unique (by decide) h4 hself
    have hh : f.high = val := decode_inj64 hu (by rw [hu]; exact hnn)
    have hmh : mh = x.mag := by
      rw [hh, ← hd] at h3; simpa using h3.symm
    have hl : f.low = 0 := h5 (by rw [hv, hsv, hmh, sub_self])
    exact ⟨x', by rw [h1, ← hh, ← hl]⟩

example := C56_float128ppc_double Sample.x Sample.x_wf (.inl rfl) 0xBFF6000000000000 (Sample.x_datum.trans Sample.x_double.symm)
  (by rw [Sample.x_datum]; simp)

/-- C56: a half that is neither a NaN nor -Inf becomes the pair of the double of the same value and zero. -/
theorem C56_binary16_float128ppc (f : Binary16.Float) (h : ∀ s, half.decode f.bits.toNat ≠ .nan s)
    (hi : half.decode f.bits.toNat ≠ .inf true) :
    ∃ x r x', f.big = .ok (x, false) ∧ f.float64 = .ok (r, .exact) ∧ Float128ppc.newFromBig x = .ok ((⟨r, 0⟩, .exact), x') := by
  obtain ⟨x, nan, hb, hp, -, -, hwf, hd⟩ := Binary16.big_spec f
  obtain ⟨hxd, rfl⟩ := decoded_datum h hd
  obtain ⟨r, r1, r2⟩ := Binary16.C04_binary16_float64 f
  have hr : double.decode r.toNat = half.decode f.bits.toNat := by
    cases hc : half.decode f.bits.toNat with
    | nan s => exact absurd hc (h s)
    | inf s => rw [hc] at r2; exact r2
    | num s m => rw [hc] at r2; exact r2
  obtain ⟨x', h1⟩ := C56_float128ppc_double x hwf (Or.inr (by rw [hp]; norm_num)) r (by rw [hxd, hr]) (by rw [hxd]; exact hi)
  exact ⟨x, r, x', hb, r1, h1⟩

-- The hypotheses hold for a negative subnormal half, the smallest bfloat, and an 80-bit unnormal.
example : ∀ s, half.decode (⟨0x83FF⟩ : Binary16.Float).bits.toNat ≠ .nan s := by simp [Format.decode, half]
example : ∀ s, brain.decode (⟨0x0001⟩ : Bfloat.Float).bits.toNat ≠ .nan s := by simp [Format.decode, brain]
example : ∀ s, (⟨0xC000, 0x4000000000000000⟩ : Float80x86.Float).val ≠ .nan s := by
  simp [Float80x86.Float.val, decode80]
-- The half 1.5 and the quadruple 1.5.
example : half.decode (⟨0x3E00⟩ : Binary16.Float).bits.toNat = quad.decode (⟨0x3FFF800000000000, 0⟩ : Binary128.Float).code := by
  rw [show (⟨0x3FFF800000000000, 0⟩ : Binary128.Float).code = 0x3FFF8000000000000000000000000000 by decide +kernel]
  simp [Format.decode, half, quad, Format.bias]; norm_num

end GoFloat
