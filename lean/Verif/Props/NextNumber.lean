import Verif.Props.CodeOrder
/-
The number after a number: C92 of properties.jsonl for bfloat, binary128 and float80x86.
-/
namespace GoFloat
open Spec

namespace Bfloat

/-- C92: adding one to the bit pattern of a bfloat with a clear sign bit, below the infinity, gives the next number: it is greater and there is no bfloat
between the two. -/
theorem C92_bfloat_next (f h : Float) (hf : f.bits.toNat < 0x7F80) :
    ∃ x y z nan, f.big = .ok (x, false) ∧ (newFromBits (f.bits + 1)).big = .ok (y, false) ∧ h.big = .ok (z, nan) ∧ x.cmp y = .lt ∧
      ¬ (nan = false ∧ x.cmp z = .lt ∧ z.cmp y = .lt) := by
  have e : (newFromBits (f.bits + 1)).bits.toNat = f.bits.toNat + 1 := by
    show (f.bits + 1).toNat = _
    rw [BitVec.toNat_add]; simp; omega
  have p : ∀ n : ℕ, n ≤ 0x7F80 → place 15 n = n := by
    intro n hn
    unfold place
    rw [if_neg (by omega), Nat.mod_eq_of_lt (by omega)]
  have p1 := p f.bits.toNat (by omega)
  have p2 := p (f.bits.toNat + 1) (by omega)
  generalize newFromBits (f.bits + 1) = g at *
  rw [← e] at p2
  obtain ⟨x, nx, y, ny, h1, h2, h3, h4⟩ := C92_bfloat f g
  obtain ⟨y', ny', z, nz, h5, h6, h7, -⟩ := C92_bfloat g h
  rw [h2] at h5
  obtain ⟨rfl, rfl⟩ : y = y' ∧ ny = ny' := by simpa using h5
  obtain ⟨x', nx', z', nz', h9, h10, -, h12⟩ := C92_bfloat f h
  rw [h1] at h9
  rw [h6] at h10
  obtain ⟨rfl, rfl⟩ : x = x' ∧ nx = nx' := by simpa using h9
  obtain ⟨rfl, rfl⟩ : z = z' ∧ nz = nz' := by simpa using h10
  obtain ⟨z', nz', y', ny', h13, h14, -, h15⟩ := C92_bfloat h g
  rw [h6] at h13
  rw [h2] at h14
  obtain ⟨rfl, rfl⟩ : z = z' ∧ nz = nz' := by simpa using h13
  obtain ⟨rfl, rfl⟩ : y = y' ∧ ny = ny' := by simpa using h14
  have n1 : nx = false := by rw [Bool.eq_false_iff, Ne, h3, p1, Nat.abs_cast]; omega
  have n2 : ny = false := by rw [Bool.eq_false_iff, Ne, h7, p2, Nat.abs_cast]; omega
  subst n1 n2
  refine ⟨x, y, z, nz, h1, h2, h6, (h4 rfl rfl).1.2 (by omega), ?_⟩
  rintro ⟨rfl, q1, q2⟩
  have q1 := (h12 rfl rfl).1.1 q1
  have q2 := (h15 rfl rfl).1.1 q2
  omega

-- the largest subnormal bfloat
example : (newFromBits 0x007F).bits.toNat < 0x7F80 ∧ newFromBits ((newFromBits 0x007F).bits + 1) = newFromBits 0x0080 := by decide

end Bfloat

namespace Binary128

/-- The pattern after a pattern: one is added to the second word, and the carry to the first. -/
def successor (f : Float) : Float := newFromBits (if f.b = 0xFFFFFFFFFFFFFFFF then f.a + 1 else f.a) (f.b + 1)

theorem successor_pattern (f : Float) (hf : f.a.toNat < 0x7FFF000000000000) :
    (successor f).a.toNat * 2 ^ 64 + (successor f).b.toNat = f.a.toNat * 2 ^ 64 + f.b.toNat + 1 := by
  have hb := f.b.isLt
  unfold successor newFromBits
  by_cases h : f.b = 0xFFFFFFFFFFFFFFFF
  · rw [if_pos h, h]
    simp only [BitVec.toNat_add]
    simp
    omega
  · rw [if_neg h]
    have h' : f.b.toNat ≠ 0xFFFFFFFFFFFFFFFF := fun e => h (BitVec.eq_of_toNat_eq (by rw [e]; rfl))
    simp only [BitVec.toNat_add]
    simp
    omega

/-- C92: adding one to the second word of a positive binary128, with the carry to the first word, gives the next number: it is greater and there is no
binary128 between the two. -/
theorem C92_binary128_next (f h : Float) (hf : f.a.toNat < 0x7FFF000000000000) :
    ∃ x y z nan, f.big = .ok (x, false) ∧
      (newFromBits (if f.b = 0xFFFFFFFFFFFFFFFF then f.a + 1 else f.a) (f.b + 1)).big = .ok (y, false) ∧ h.big = .ok (z, nan) ∧ x.cmp y = .lt ∧
      ¬ (nan = false ∧ x.cmp z = .lt ∧ z.cmp y = .lt) := by
  have hb := f.b.isLt
  have e := successor_pattern f hf
  have p : ∀ n : ℕ, n ≤ 0x7FFF * 2 ^ 112 → place 127 n = n := by
    intro n hn
    unfold place
    rw [if_neg (by omega), Nat.mod_eq_of_lt (by omega)]
  have p1 := p (f.a.toNat * 2 ^ 64 + f.b.toNat) (by omega)
  have p2 := p (f.a.toNat * 2 ^ 64 + f.b.toNat + 1) (by omega)
  show ∃ x y z nan, f.big = .ok (x, false) ∧ (successor f).big = .ok (y, false) ∧ _
  generalize successor f = g at *
  rw [← e] at p2
  obtain ⟨x, nx, y, ny, h1, h2, h3, h4⟩ := C92_binary128 f g
  obtain ⟨y', ny', z, nz, h5, h6, h7, -⟩ := C92_binary128 g h
  rw [h2] at h5
  obtain ⟨rfl, rfl⟩ : y = y' ∧ ny = ny' := by simpa using h5
  obtain ⟨x', nx', z', nz', h9, h10, -, h12⟩ := C92_binary128 f h
  rw [h1] at h9
  rw [h6] at h10
  obtain ⟨rfl, rfl⟩ : x = x' ∧ nx = nx' := by simpa using h9
  obtain ⟨rfl, rfl⟩ : z = z' ∧ nz = nz' := by simpa using h10
  obtain ⟨z', nz', y', ny', h13, h14, -, h15⟩ := C92_binary128 h g
  rw [h6] at h13
  rw [h2] at h14
  obtain ⟨rfl, rfl⟩ : z = z' ∧ nz = nz' := by simpa using h13
  obtain ⟨rfl, rfl⟩ : y = y' ∧ ny = ny' := by simpa using h14
  have n1 : nx = false := by rw [Bool.eq_false_iff, Ne, h3, p1, Nat.abs_cast]; omega
  have n2 : ny = false := by rw [Bool.eq_false_iff, Ne, h7, p2, Nat.abs_cast]; omega
  subst n1 n2
  refine ⟨x, y, z, nz, h1, h2, h6, (h4 rfl rfl).1.2 (by omega), ?_⟩
  rintro ⟨rfl, q1, q2⟩
  have q1 := (h12 rfl rfl).1.1 q1
  have q2 := (h15 rfl rfl).1.1 q2
  omega

-- the largest subnormal, where the carry goes through both words into the exponent
example : (⟨0x0000FFFFFFFFFFFF, 0xFFFFFFFFFFFFFFFF⟩ : Float).a.toNat < 0x7FFF000000000000 ∧
    successor ⟨0x0000FFFFFFFFFFFF, 0xFFFFFFFFFFFFFFFF⟩ = ⟨0x0001000000000000, 0⟩ := by decide +kernel

end Binary128

namespace Float80x86

/-- C92: the number after a positive, canonical float80x86: one is added to the mantissa; from the largest mantissa of an exponent the next is the smallest of
the next exponent, and from the largest subnormal the next is the smallest normal number. It is greater, canonical, and no canonical float80x86
lies between. -/
theorem C92_float80x86_next (f g h : Float) (hf : f.Canonical) (hh : h.Canonical) (hs : f.se.toNat < 0x7FFF)
    (hg : (g.se, g.m) = if f.m = 0xFFFFFFFFFFFFFFFF then (f.se + 1, 0x8000000000000000) else if f.m = 0x7FFFFFFFFFFFFFFF then (1, 0x8000000000000000)
      else (f.se, f.m + 1)) :
    g.Canonical ∧ ∃ x y z nan, f.big = .ok (x, false) ∧ g.big = .ok (y, false) ∧ h.big = .ok (z, nan) ∧ x.cmp y = .lt ∧
      ¬ (nan = false ∧ x.cmp z = .lt ∧ z.cmp y = .lt) := by
  have hse := f.se.isLt
  have hm := f.m.isLt
  obtain ⟨e, hc⟩ : g.se.toNat * 2 ^ 63 + g.m.toNat % 2 ^ 63 = f.se.toNat * 2 ^ 63 + f.m.toNat % 2 ^ 63 + 1 ∧ g.Canonical := by
    unfold Float.Canonical Canonical80 at hf ⊢
    by_cases c1 : f.m = 0xFFFFFFFFFFFFFFFF
    · rw [if_pos c1] at hg
      injection hg with g1 g2
      rw [g1, g2, c1]
      rw [c1] at hf
      simp only [BitVec.toNat_add]
      simp at hf ⊢
      omega
    · rw [if_neg c1] at hg
      have c1' : f.m.toNat ≠ 0xFFFFFFFFFFFFFFFF := fun e => c1 (BitVec.eq_of_toNat_eq (by rw [e]; rfl))
      by_cases c2 : f.m = 0x7FFFFFFFFFFFFFFF
      · rw [if_pos c2] at hg
        injection hg with g1 g2
        rw [g1, g2, c2]
        rw [c2] at hf
        simp at hf ⊢
        omega
      · rw [if_neg c2] at hg
        have c2' : f.m.toNat ≠ 0x7FFFFFFFFFFFFFFF := fun e => c2 (BitVec.eq_of_toNat_eq (by rw [e]; rfl))
        injection hg with g1 g2
        rw [g1, g2]
        simp only [BitVec.toNat_add]
        simp
        omega
  have hse' : g.se.toNat < 2 ^ 15 := by
    have := g.m.isLt
    omega
  have p1 : place 78 f.code = (f.se.toNat * 2 ^ 63 + f.m.toNat % 2 ^ 63 : ℕ) := by
    rw [place_code, if_neg (by omega), Nat.mod_eq_of_lt (by omega)]
  have p2 : place 78 g.code = (f.se.toNat * 2 ^ 63 + f.m.toNat % 2 ^ 63 + 1 : ℕ) := by
    rw [place_code, if_neg (by omega), Nat.mod_eq_of_lt (by omega), e]
  have l1 := place_lt hf hc
  have l2 := place_lt hf hh
  have l3 := place_lt hh hc
  refine ⟨hc, ?_⟩
  obtain ⟨x, nx, y, ny, h1, h2, h3, h4⟩ := C92_float80x86 f g hf hc
  obtain ⟨y', ny', z, nz, h5, h6, h7, -⟩ := C92_float80x86 g h hc hh
  rw [h2] at h5
  obtain ⟨rfl, rfl⟩ : y = y' ∧ ny = ny' := by simpa using h5
  obtain ⟨x', nx', z', nz', h9, h10, -, h12⟩ := C92_float80x86 f h hf hh
  rw [h1] at h9
  rw [h6] at h10
  obtain ⟨rfl, rfl⟩ : x = x' ∧ nx = nx' := by simpa using h9
  obtain ⟨rfl, rfl⟩ : z = z' ∧ nz = nz' := by simpa using h10
  obtain ⟨z', nz', y', ny', h13, h14, -, h15⟩ := C92_float80x86 h g hh hc
  rw [h6] at h13
  rw [h2] at h14
  obtain ⟨rfl, rfl⟩ : z = z' ∧ nz = nz' := by simpa using h13
  obtain ⟨rfl, rfl⟩ : y = y' ∧ ny = ny' := by simpa using h14
  have hgm := g.m.isLt
  have n1 : nx = false := by
    rw [Bool.eq_false_iff, Ne, h3, place_pattern, if_neg (by omega), Nat.abs_cast]
    omega
  have n2 : ny = false := by
    rw [Bool.eq_false_iff, Ne, h7, place_pattern, if_neg (by omega), Nat.abs_cast]
    unfold Float.Canonical Canonical80 at hc hf
    omega
  subst n1 n2
  refine ⟨x, y, z, nz, h1, h2, h6, (h4 rfl rfl).1.2 (l1.1 (by omega)), ?_⟩
  rintro ⟨rfl, q1, q2⟩
  have q1 := l2.2 ((h12 rfl rfl).1.1 q1)
  have q2 := l3.2 ((h15 rfl rfl).1.1 q2)
  omega

-- the largest subnormal and the largest number
example : (⟨0, 0x7FFFFFFFFFFFFFFF⟩ : Float).Canonical ∧ (⟨0x7FFE, 0xFFFFFFFFFFFFFFFF⟩ : Float).Canonical ∧ (⟨0x7FFF, 0x8000000000000000⟩ : Float).Canonical := by
  unfold Float.Canonical Canonical80; decide +kernel

end Float80x86

end GoFloat
