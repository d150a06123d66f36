import Verif.Proofs.Place
import Verif.Props.Binary16
import Verif.Props.Binary128
import Verif.Props.Float80x86
import Verif.Props.Bfloat
import Verif.Props.Float128ppcOrder
import Verif.Props.Float128ppcRoundTrip
import Verif.Props.Library
/-
The order of the numbers is the order of the bit patterns (C92 of properties.jsonl).
-/
namespace GoFloat
open Spec

theorem decoded_key {d : Datum} {x : BigFloat} (h : Decoded d x false) : x.datum.key = d.key := by
  cases d with
  | nan s => exact absurd h.1 (by decide)
  | inf s => rw [h.2]
  | num s m => rw [h.2]

theorem decoded_nan {d : Datum} {x : BigFloat} {nan : Bool} (h : Decoded d x nan) : nan = true ↔ ∃ s, d = .nan s := by
  cases d with
  | nan s => simp [h.1]
  | inf s => simp [h.1]
  | num s m => simp [h.1]

/-- The three answers of `Cmp`, from the order of the places. -/
theorem cmp_place {F : Format} (hw : 2 ≤ F.w) {c c' : ℕ} {x y : BigFloat} (hx : x.WF) (hy : y.WF) (hd : Decoded (F.decode c) x false)
    (hd' : Decoded (F.decode c') y false) :
    (x.cmp y = .lt ↔ place (F.t + F.w) c < place (F.t + F.w) c') ∧ (x.cmp y = .gt ↔ place (F.t + F.w) c' < place (F.t + F.w) c) ∧
    (x.cmp y = .eq ↔ place (F.t + F.w) c = place (F.t + F.w) c') := by
  obtain ⟨a, b, ha, hb, h1, h2, h3⟩ := BigFloat.C91_cmp hx hy
  rw [decoded_key hd] at ha
  rw [decoded_key hd'] at hb
  have e1 := F.key_lt_iff hw ha hb
  have e2 := F.key_lt_iff hw hb ha
  refine ⟨h1.trans e1, h2.trans e2, h3.trans ?_⟩
  rw [key_eq_iff, e1, e2]
  constructor
  · rintro ⟨p, q⟩; omega
  · intro e; omega

namespace Binary16

/-- C92: the numbers of two halves compare as their bit patterns do, read as sign and magnitude; NaNs are the patterns beyond the infinities. -/
theorem C92_binary16 (f g : Float) :
    ∃ x nan y nan', f.big = .ok (x, nan) ∧ g.big = .ok (y, nan') ∧
      (nan = true ↔ 0x7C00 < |place 15 f.bits.toNat|) ∧
      (nan = false → nan' = false →
        (x.cmp y = .lt ↔ place 15 f.bits.toNat < place 15 g.bits.toNat) ∧
        (x.cmp y = .gt ↔ place 15 g.bits.toNat < place 15 f.bits.toNat) ∧
        (x.cmp y = .eq ↔ place 15 f.bits.toNat = place 15 g.bits.toNat)) := by
  obtain ⟨x, nan, h1, -, -, -, hx, h2⟩ := C02_binary16_big f
  obtain ⟨y, nan', h3, -, -, -, hy, h4⟩ := C02_binary16_big g
  refine ⟨x, nan, y, nan', h1, h3, (decoded_nan h2).trans (half.nan_iff_place _), ?_⟩
  rintro rfl rfl
  exact cmp_place (by decide) hx hy h2 h4

/-- C92: adding one to the bit pattern of a half with a clear sign bit, below the infinity, gives the next number: it is greater and there is no half
between the two. -/
theorem C92_binary16_next (f h : Float) (hf : f.bits.toNat < 0x7C00) :
    ∃ x y z nan, f.big = .ok (x, false) ∧ (newFromBits (f.bits + 1)).big = .ok (y, false) ∧ h.big = .ok (z, nan) ∧ x.cmp y = .lt ∧
      ¬ (nan = false ∧ x.cmp z = .lt ∧ z.cmp y = .lt) := by
  have e : (newFromBits (f.bits + 1)).bits.toNat = f.bits.toNat + 1 := by
    show (f.bits + 1).toNat = _
    rw [BitVec.toNat_add]; simp; omega
  have p : ∀ n : ℕ, n ≤ 0x7C00 → place 15 n = n := by
    intro n hn
    unfold place
    rw [if_neg (by omega), Nat.mod_eq_of_lt (by omega)]
  have p1 := p f.bits.toNat (by omega)
  have p2 := p (f.bits.toNat + 1) (by omega)
  obtain ⟨x, nx, y, ny, h1, h2, h3, h4⟩ := C92_binary16 f (newFromBits (f.bits + 1))
  obtain ⟨y', ny', z, nz, h5, h6, h7, h8⟩ := C92_binary16 (newFromBits (f.bits + 1)) h
  rw [h2] at h5
  injection h5 with h5
  injection h5 with h5 h5'
  subst h5 h5'
  obtain ⟨x', nx', z', nz', h9, h10, -, h12⟩ := C92_binary16 f h
  rw [h1] at h9
  injection h9 with h9
  injection h9 with h9 h9'
  subst h9 h9'
  rw [h6] at h10
  injection h10 with h10
  injection h10 with h10 h10'
  subst h10 h10'
  rw [e] at h4 h7 h8
  rw [p1] at h3 h4 h12
  rw [p2] at h4 h7 h8
  have n1 : nx = false := by rw [Bool.eq_false_iff, Ne, h3]; rw [Nat.abs_cast]; omega
  have n2 : ny = false := by rw [Bool.eq_false_iff, Ne, h7]; rw [Nat.abs_cast]; omega
  subst n1 n2
  refine ⟨x, y, z, nz, h1, h2, h6, (h4 rfl rfl).1.2 (by omega), ?_⟩
  rintro ⟨rfl, q1, q2⟩
  have q1 := (h12 rfl rfl).1.1 q1
  have q2' : z.cmp y = .lt → place 15 h.bits.toNat < ((f.bits.toNat + 1 : ℕ) : ℤ) := by
    obtain ⟨u, nu, v, nv, r1, r2, -, r4⟩ := C92_binary16 h (newFromBits (f.bits + 1))
    rw [h6] at r1
    rw [h2] at r2
    injection r1 with r1
    injection r1 with r1 r1'
    injection r2 with r2
    injection r2 with r2 r2'
    subst r1 r1' r2 r2'
    rw [e, p2] at r4
    exact (r4 rfl rfl).1.1
  have q2 := q2' q2
  omega

-- -2 and 1.5: the pattern of -2 is greater as an unsigned integer; the zeros are equal; the largest half is next to the infinity
example : place 15 (newFromBits 0xC000).bits.toNat < place 15 (newFromBits 0x3E00).bits.toNat ∧
    place 15 (newFromBits 0x8000).bits.toNat = place 15 (newFromBits 0).bits.toNat ∧ 0x7C00 < |place 15 (newFromBits 0xFE00).bits.toNat| := by decide
example : (newFromBits 0x7BFF).bits.toNat < 0x7C00 ∧ newFromBits ((newFromBits 0x7BFF).bits + 1) = Inf := by decide

end Binary16

namespace Bfloat

/-- C92: the same for bfloat. -/
theorem C92_bfloat (f g : Float) :
    ∃ x nan y nan', f.big = .ok (x, nan) ∧ g.big = .ok (y, nan') ∧
      (nan = true ↔ 0x7F80 < |place 15 f.bits.toNat|) ∧
      (nan = false → nan' = false →
        (x.cmp y = .lt ↔ place 15 f.bits.toNat < place 15 g.bits.toNat) ∧
        (x.cmp y = .gt ↔ place 15 g.bits.toNat < place 15 f.bits.toNat) ∧
        (x.cmp y = .eq ↔ place 15 f.bits.toNat = place 15 g.bits.toNat)) := by
  obtain ⟨x, nan, h1, -, -, -, hx, h2⟩ := C25_bfloat_big_format f
  obtain ⟨y, nan', h3, -, -, -, hy, h4⟩ := C25_bfloat_big_format g
  refine ⟨x, nan, y, nan', h1, h3, (decoded_nan h2).trans (brain.nan_iff_place _), ?_⟩
  rintro rfl rfl
  exact cmp_place (by decide) hx hy h2 h4

end Bfloat

namespace Binary128

/-- C92: the same for binary128; the pattern is the first word followed by the second. -/
theorem C92_binary128 (f g : Float) :
    ∃ x nan y nan', f.big = .ok (x, nan) ∧ g.big = .ok (y, nan') ∧
      (nan = true ↔ 0x7FFF * 2 ^ 112 < |place 127 (f.a.toNat * 2 ^ 64 + f.b.toNat)|) ∧
      (nan = false → nan' = false →
        (x.cmp y = .lt ↔ place 127 (f.a.toNat * 2 ^ 64 + f.b.toNat) < place 127 (g.a.toNat * 2 ^ 64 + g.b.toNat)) ∧
        (x.cmp y = .gt ↔ place 127 (g.a.toNat * 2 ^ 64 + g.b.toNat) < place 127 (f.a.toNat * 2 ^ 64 + f.b.toNat)) ∧
        (x.cmp y = .eq ↔ place 127 (f.a.toNat * 2 ^ 64 + f.b.toNat) = place 127 (g.a.toNat * 2 ^ 64 + g.b.toNat))) := by
  obtain ⟨x, nan, h1, -, -, -, hx, h2⟩ := C14_binary128_big f
  obtain ⟨y, nan', h3, -, -, -, hy, h4⟩ := C14_binary128_big g
  refine ⟨x, nan, y, nan', h1, h3, (decoded_nan h2).trans ((quad.nan_iff_place _).trans ?_), ?_⟩
  · rw [show ((quad.infCode : ℕ) : ℤ) = 0x7FFF * 2 ^ 112 by norm_num [quad, Format.infCode]]; rfl
  · rintro rfl rfl
    exact cmp_place (by decide) hx hy h2 h4

-- the order of the first words decides, then that of the second words
example : let f : Float := ⟨0x3FFF000000000000, 0xFFFFFFFFFFFFFFFF⟩; let g : Float := ⟨0x3FFF000000000001, 0⟩; let h : Float := ⟨0xBFFF000000000000, 1⟩
    place 127 (f.a.toNat * 2 ^ 64 + f.b.toNat) < place 127 (g.a.toNat * 2 ^ 64 + g.b.toNat) ∧
    place 127 (h.a.toNat * 2 ^ 64 + h.b.toNat) < place 127 (f.a.toNat * 2 ^ 64 + f.b.toNat) := by decide +kernel

end Binary128

namespace Float80x86

/-- An 80-bit pattern. -/
def Float.pattern (f : Float) : ℕ := f.se.toNat * 2 ^ 64 + f.m.toNat

theorem place_pattern (f : Float) : place 79 f.pattern =
    if f.se.toNat / 2 ^ 15 = 1 then -((f.se.toNat % 2 ^ 15 * 2 ^ 64 + f.m.toNat : ℕ) : ℤ) else ((f.se.toNat % 2 ^ 15 * 2 ^ 64 + f.m.toNat : ℕ) : ℤ) := by
  have h1 := f.se.isLt
  have h2 := f.m.isLt
  unfold place Float.pattern
  rw [show (f.se.toNat * 2 ^ 64 + f.m.toNat) / 2 ^ 79 % 2 = f.se.toNat / 2 ^ 15 by omega,
    show (f.se.toNat * 2 ^ 64 + f.m.toNat) % 2 ^ 79 = f.se.toNat % 2 ^ 15 * 2 ^ 64 + f.m.toNat by omega]

theorem place_code (f : Float) : place 78 f.code =
    if f.se.toNat / 2 ^ 15 = 1 then -((f.se.toNat % 2 ^ 15 * 2 ^ 63 + f.m.toNat % 2 ^ 63 : ℕ) : ℤ) else ((f.se.toNat % 2 ^ 15 * 2 ^ 63 + f.m.toNat % 2 ^ 63 : ℕ) : ℤ) := by
  have h1 := f.se.isLt
  have h2 := f.m.isLt
  unfold place Float.code
  rw [show (f.se.toNat / 2 ^ 15 * 2 ^ 78 + f.se.toNat % 2 ^ 15 * 2 ^ 63 + f.m.toNat % 2 ^ 63) / 2 ^ 78 % 2 = f.se.toNat / 2 ^ 15 by omega,
    show (f.se.toNat / 2 ^ 15 * 2 ^ 78 + f.se.toNat % 2 ^ 15 * 2 ^ 63 + f.m.toNat % 2 ^ 63) % 2 ^ 78 = f.se.toNat % 2 ^ 15 * 2 ^ 63 + f.m.toNat % 2 ^ 63 by omega]

theorem place_lt {f g : Float} (hf : f.Canonical) (hg : g.Canonical) : place 78 f.code < place 78 g.code ↔ place 79 f.pattern < place 79 g.pattern := by
  have h1 := f.se.isLt
  have h2 := f.m.isLt
  have h3 := g.se.isLt
  have h4 := g.m.isLt
  unfold Float.Canonical Canonical80 at hf hg
  rw [place_pattern, place_pattern, place_code, place_code]
  split <;> split <;> omega

/-- C92: the same for the canonical encodings of float80x86; the pattern is the 16-bit word followed by the 64-bit word. -/
theorem C92_float80x86 (f g : Float) (hf : f.Canonical) (hg : g.Canonical) :
    ∃ x nan y nan', f.big = .ok (x, nan) ∧ g.big = .ok (y, nan') ∧
      (nan = true ↔ 0x7FFF * 2 ^ 64 + 2 ^ 63 < |place 79 f.pattern|) ∧
      (nan = false → nan' = false →
        (x.cmp y = .lt ↔ place 79 f.pattern < place 79 g.pattern) ∧
        (x.cmp y = .gt ↔ place 79 g.pattern < place 79 f.pattern) ∧
        (x.cmp y = .eq ↔ place 79 f.pattern = place 79 g.pattern)) := by
  obtain ⟨x, nan, h1, -, -, -, hx, h2⟩ := C20_float80x86_big f
  obtain ⟨y, nan', h3, -, -, -, hy, h4⟩ := C20_float80x86_big g
  rw [val_canonical hf] at h2
  rw [val_canonical hg] at h4
  refine ⟨x, nan, y, nan', h1, h3, (decoded_nan h2).trans ((extended.nan_iff_place _).trans ?_), ?_⟩
  · rw [show ((extended.infCode : ℕ) : ℤ) = 0x7FFF * 2 ^ 63 by norm_num [extended, Format.infCode]]
    show _ < |place 78 _| ↔ _
    have h1 := f.se.isLt
    have h2 := f.m.isLt
    unfold Float.Canonical Canonical80 at hf
    rw [place_pattern, place_code]
    split
    · rw [abs_neg, abs_neg, Nat.abs_cast, Nat.abs_cast]; omega
    · rw [Nat.abs_cast, Nat.abs_cast]; omega
  · rintro rfl rfl
    obtain ⟨a, b, c⟩ := cmp_place (by decide) hx hy h2 h4
    have e1 := place_lt hf hg
    have e2 := place_lt hg hf
    refine ⟨a.trans e1, b.trans e2, c.trans ?_⟩
    change place 78 f.code = place 78 g.code ↔ _
    constructor
    · intro e; omega
    · intro e; omega

-- 2 and 3 are canonical, in this order
example : (⟨0x4000, 0x8000000000000000⟩ : Float).Canonical ∧ (⟨0x4000, 0xC000000000000000⟩ : Float).Canonical ∧
    place 79 (⟨0x4000, 0x8000000000000000⟩ : Float).pattern < place 79 (⟨0x4000, 0xC000000000000000⟩ : Float).pattern := by
  refine ⟨by unfold Float.Canonical Canonical80; decide +kernel, by unfold Float.Canonical Canonical80; decide +kernel, by decide +kernel⟩

/-- C92, why only canonical encodings: an encoding of 1 with the exponent of 2 lies above that of 1.5. -/
theorem C92_float80x86_unnormal :
    ∃ x y, (⟨0x3FFF, 0xC000000000000000⟩ : Float).big = .ok (x, false) ∧ (⟨0x4000, 0x4000000000000000⟩ : Float).big = .ok (y, false) ∧ x.cmp y = .gt ∧
      place 79 (⟨0x3FFF, 0xC000000000000000⟩ : Float).pattern < place 79 (⟨0x4000, 0x4000000000000000⟩ : Float).pattern :=
  ⟨⟨64, .toNearestEven, .exact, .finite, false, 0xC000000000000000, 1⟩, ⟨64, .toNearestEven, .exact, .finite, false, 0x4000000000000000, 1⟩,
    by decide +kernel, by decide +kernel, by decide +kernel, by decide +kernel⟩

end Float80x86

namespace Float128ppc

/-- The exact sum of a normalised pair. -/
theorem normalised_round {f : Float} {s₁ s₂ : Bool} {m₁ m₂ : ℚ} (h1 : double.decode f.high.toNat = .num s₁ m₁)
    (h3 : signed s₁ m₁ + signed s₂ m₂ = 0 → m₁ = 0)
    (h4 : signed s₁ m₁ + signed s₂ m₂ ≠ 0 → double.RoundsTo (decide (signed s₁ m₁ + signed s₂ m₂ < 0)) |signed s₁ m₁ + signed s₂ m₂| f.high.toNat) :
    ∃ c, double.RoundsTo (decide (signed s₁ m₁ + signed s₂ m₂ < 0)) |signed s₁ m₁ + signed s₂ m₂| c ∧ ∃ s r, double.decode c = .num s r ∧ signed s r = signed s₁ m₁ := by
  by_cases hz : signed s₁ m₁ + signed s₂ m₂ = 0
  · refine ⟨0, ?_, false, 0, ?_, ?_⟩
    · rw [hz]
      have := Strconv.roundsTo_self (F := double) (Or.inr (Or.inr rfl)) (n := 0) (by decide) false
      rw [(magc_eq_zero double).2 rfl] at this
      simpa [Format.signPart] using this
    · have := double.decode_code false (n := 0) (by decide)
      rw [(magc_eq_zero double).2 rfl] at this
      simpa [Format.signPart] using this
    · rw [h3 hz]; cases s₁ <;> simp [signed]
  · exact ⟨_, h4 hz, s₁, m₁, h1, rfl⟩

/-- C92: canonical double-doubles compare by their high halves, and by their low halves if the high ones are equal. -/
theorem C92_float128ppc (f g : Float) (hf : Canonical f) (hg : Canonical g) :
    ∃ x y, f.big = .ok (x, false) ∧ g.big = .ok (y, false) ∧
      (x.cmp y = .lt ↔ place 63 f.high.toNat < place 63 g.high.toNat ∨
        place 63 f.high.toNat = place 63 g.high.toNat ∧ place 63 f.low.toNat < place 63 g.low.toNat) ∧
      (x.cmp y = .eq ↔ place 63 f.high.toNat = place 63 g.high.toNat ∧ place 63 f.low.toNat = place 63 g.low.toNat) := by
  obtain ⟨s₁, m₁, s₂, m₂, h1, h2, h3, h4, k, e, hk, hv⟩ := hf
  obtain ⟨s₁', m₁', s₂', m₂', h1', h2', h3', h4', k', e', hk', hv'⟩ := hg
  obtain ⟨x, s, m, hx, hd, hs, -⟩ := C27_float128ppc_exact f h1 h2 hk hv
  obtain ⟨y, s', m', hy, hd', hs', -⟩ := C27_float128ppc_exact g h1' h2' hk' hv'
  have wf : ∀ {f : Float} {s₁ s₂ : Bool} {m₁ m₂ : ℚ} {x : BigFloat}, double.decode f.high.toNat = .num s₁ m₁ → double.decode f.low.toNat = .num s₂ m₂ →
      f.big = .ok (x, false) → x.WF := by
    intro f s₁ s₂ m₁ m₂ x h1 h2 hx
    obtain ⟨x', nan, hb, hs⟩ := C27_partial f (by intro s; rw [h1]; simp)
    rw [h1, h2] at hs
    obtain ⟨rfl, -, -, w, -⟩ := hs
    rw [hx] at hb
    injection hb with hb
    injection hb with hb
    rwa [hb]
  refine ⟨x, y, hx, hy, ?_⟩
  obtain ⟨a, b, ha, hb, c1, c2, c3⟩ := BigFloat.C91_cmp (wf h1 h2 hx) (wf h1' h2' hy)
  rw [hd] at ha
  rw [hd'] at hb
  simp only [Datum.key, Option.some.injEq] at ha hb
  rw [hs] at ha
  rw [hs'] at hb
  have key : ∀ {c c' : ℕ} {s s' : Bool} {m m' : ℚ}, double.decode c = .num s m → double.decode c' = .num s' m' →
      (signed s m < signed s' m' ↔ place 63 c < place 63 c') := by
    intro c c' s s' m m' hc hc'
    have := double.key_lt_iff (by decide) (c := c) (c' := c') (by rw [hc]; rfl) (by rw [hc']; rfl)
    rw [show (63 : ℕ) = double.t + double.w from rfl, ← this]
    simp [keyLt]
  have k1 := key h1 h1'
  have k2 := key h1' h1
  have k3 := key h2 h2'
  have k4 := key h2' h2
  obtain ⟨c, r1, t, r, r2, r3⟩ := normalised_round h1 h3 h4
  obtain ⟨c', r1', t', r', r2', r3'⟩ := normalised_round h1' h3' h4'
  have sg : ∀ v : ℚ, signed (decide (v < 0)) |v| = v := by
    intro v
    rcases lt_or_ge v 0 with h | h
    · rw [decide_eq_true h, abs_of_neg h]; simp [signed]
    · rw [decide_eq_false (not_lt.2 h), abs_of_nonneg h]; simp [signed]
  have mono : signed s₁ m₁ + signed s₂ m₂ ≤ signed s₁' m₁' + signed s₂' m₂' → signed s₁ m₁ ≤ signed s₁' m₁' := by
    intro hle
    have := roundsTo_mono (by decide) (abs_nonneg _) (abs_nonneg _) r1 r1' (by rw [sg, sg]; exact hle)
    rwa [r2, r2', le_num, r3, r3'] at this
  have mono' : signed s₁' m₁' + signed s₂' m₂' ≤ signed s₁ m₁ + signed s₂ m₂ → signed s₁' m₁' ≤ signed s₁ m₁ := by
    intro hle
    have := roundsTo_mono (by decide) (abs_nonneg _) (abs_nonneg _) r1' r1 (by rw [sg, sg]; exact hle)
    rwa [r2, r2', le_num, r3, r3'] at this
  have hlt : keyLt a b ↔ signed s₁ m₁ + signed s₂ m₂ < signed s₁' m₁' + signed s₂' m₂' := by
    rw [← ha, ← hb]; simp [keyLt]
  have heq : a = b ↔ signed s₁ m₁ + signed s₂ m₂ = signed s₁' m₁' + signed s₂' m₂' := by
    rw [← ha, ← hb]; simp
  have ph : place 63 f.high.toNat = place 63 g.high.toNat ↔ signed s₁ m₁ = signed s₁' m₁' := by
    constructor
    · intro e
      apply le_antisymm <;> rw [← not_lt]
      · rw [k2]; omega
      · rw [k1]; omega
    · intro e
      have a1 := k1.not.1 (by rw [e]; exact lt_irrefl _)
      have a2 := k2.not.1 (by rw [e]; exact lt_irrefl _)
      omega
  have pl : place 63 f.low.toNat = place 63 g.low.toNat ↔ signed s₂ m₂ = signed s₂' m₂' := by
    constructor
    · intro e
      apply le_antisymm <;> rw [← not_lt]
      · rw [k4]; omega
      · rw [k3]; omega
    · intro e
      have a1 := k3.not.1 (by rw [e]; exact lt_irrefl _)
      have a2 := k4.not.1 (by rw [e]; exact lt_irrefl _)
      omega
  rw [c1, c3, hlt, heq, ph, pl, ← k1, ← k3]
  constructor
  · constructor
    · intro h
      rcases (mono h.le).lt_or_eq with q | q
      · exact Or.inl q
      · exact Or.inr ⟨q, by linarith⟩
    · rintro (h | ⟨q, h⟩)
      · by_contra hc
        have := mono' (not_lt.1 hc)
        linarith
      · linarith
  · constructor
    · intro h
      have q := le_antisymm (mono h.le) (mono' h.ge)
      exact ⟨q, by linarith⟩
    · rintro ⟨q, h⟩; linarith

-- 1 and 1 + 2^-60 are canonical and have the same high half
example : Canonical (newFromBits 0x3FF0000000000000 0) ∧ Canonical (newFromBits 0x3FF0000000000000 0x3C30000000000000) ∧
    place 63 (newFromBits 0x3FF0000000000000 0).low.toNat < place 63 (newFromBits 0x3FF0000000000000 0x3C30000000000000).low.toNat := by
  refine ⟨canonical_low_zero 0 false (roundsTo_zero double (by decide) false).1, ?_, by decide⟩
  have := (C62_float128ppc_survives (newFromBits 0x3FF0000000000000 0x3C30000000000000)).1
    ⟨⟨106, .toNearestEven, .exact, .finite, false, 2 ^ 105 + 2 ^ 45, 1⟩, false, .exact,
     ⟨106, .toNearestEven, .exact, .finite, false, 2 ^ 105 + 2 ^ 45, 1⟩, by decide +kernel, by decide +kernel⟩
  rcases this with h | h
  · exact h.1
  · exact absurd h (by decide)

end Float128ppc

end GoFloat
