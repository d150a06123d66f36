import Verif.Proofs.IntSizeNew
import Verif.Proofs.Itoa
import Verif.Proofs.FormatFloat
/-
The size of `uint` does not show in the text: the multi-precision decimal is shifted in steps of different sizes, and
comes out the same.
-/
namespace GoFloat.Strconv
open Spec

variable {W W' : ℕ} (hW : W = 32 ∨ W = 64) (hW' : W' = 32 ∨ W' = 64)
include hW hW'

theorem shift_size (v : BitVec 64) {q : ℤ} (h1 : -1100 ≤ q) (h2 : q ≤ 2500) :
    (Decimal.new.assign v).shift W q = (Decimal.new.assign v).shift W' q := by
  obtain ⟨a1, a2, a3, a4⟩ := assign_spec Decimal.new v
  have hl := assign_length Decimal.new v
  obtain ⟨b, b1, b2, b3, b4, b5, b6, -⟩ := shift_ok hW (Decimal.new.assign v) q a1 (by omega) (by rw [a2]; exact fits_word v.isLt h1 h2)
  obtain ⟨c, c1, c2, c3, c4, c5, c6, -⟩ := shift_ok hW' (Decimal.new.assign v) q a1 (by omega) (by rw [a2]; exact fits_word v.isLt h1 h2)
  obtain ⟨e1, e2⟩ := normal_unique b2 c2 (b4.trans c4.symm)
  rw [b1, c1]
  congr 1
  cases b; cases c
  simp only at *
  rw [e1, e2, b5, c5, b6, c6]

theorem roundShortest_size (d : Decimal) (mant : BitVec 64) {exp : ℤ} {flt : FloatInfo} (ht : flt.mantbits ≤ 52) (h1 : -1030 ≤ exp) (h2 : exp ≤ 1100) :
    roundShortest W d mant exp flt = roundShortest W' d mant exp flt := by
  unfold roundShortest
  by_cases h0 : mant = 0
  · rw [if_pos h0, if_pos h0]
  rw [if_neg h0, if_neg h0]
  dsimp only
  split
  · rfl
  rw [shift_size hW hW' _ (by omega) (by omega)]
  apply bind_ext
  intro upper _
  have : ∀ p : BitVec 64 × ℤ, p.2 = exp ∨ p.2 = exp - 1 → (Decimal.new.assign (p.1 * 2 + 1)).shift W (p.2 - flt.mantbits - 1) =
      (Decimal.new.assign (p.1 * 2 + 1)).shift W' (p.2 - flt.mantbits - 1) := by
    intro p hp
    exact shift_size hW hW' _ (by omega) (by omega)
  split
  · change (Decimal.shift W _ _ >>= _) = (Decimal.shift W' _ _ >>= _)
    rw [this (mant - 1, exp) (Or.inl rfl)]
  · change (Decimal.shift W _ _ >>= _) = (Decimal.shift W' _ _ >>= _)
    rw [this (mant * 2 - 1, exp - 1) (Or.inr rfl)]

theorem bigFtoa_size (prec : ℤ) (fmt : Char) (neg : Bool) (mant : BitVec 64) {exp : ℤ} {flt : FloatInfo} (ht : flt.mantbits ≤ 52) (h1 : -1030 ≤ exp)
    (h2 : exp ≤ 1100) : bigFtoa W prec fmt neg mant exp flt = bigFtoa W' prec fmt neg mant exp flt := by
  unfold bigFtoa
  dsimp only
  rw [shift_size hW hW' _ (by omega) (by omega)]
  apply bind_ext
  intro d _
  rw [roundShortest_size hW hW' d mant ht h1 h2]

theorem formatBits_size (u : BitVec 64) (base : ℤ) (neg : Bool) : formatBits W u base neg = formatBits W' u base neg := by
  by_cases h : base < 2 ∨ 36 < base
  · rw [formatBits_illegal u h neg, formatBits_illegal u h neg]
  · rw [formatBits_ok hW u (by omega) (by omega) neg, formatBits_ok hW' u (by omega) (by omega) neg]

theorem ftoaFinite_size (opt : Bool) (prec : ℤ) (fmt : Char) (neg : Bool) (mant : BitVec 64) {exp : ℤ} {flt : FloatInfo} (ht : flt.mantbits ≤ 52)
    (h1 : -1030 ≤ exp) (h2 : exp ≤ 1100) : ftoaFinite W opt fmt prec neg mant exp flt = ftoaFinite W' opt fmt prec neg mant exp flt := by
  unfold ftoaFinite fmtB
  have hb : ∀ p, bigFtoa W p fmt neg mant exp flt = bigFtoa W' p fmt neg mant exp flt := fun p => bigFtoa_size hW hW' p fmt neg mant ht h1 h2
  simp only [hb, formatBits_size hW hW']

theorem ftoaBits_size (opt : Bool) (prec : ℤ) (fmt : Char) (bits : BitVec 64) {flt : FloatInfo}
    (hf : flt = float16info ∨ flt = float32info ∨ flt = float64info) : ftoaBits W opt bits flt fmt prec = ftoaBits W' opt bits flt fmt prec := by
  have hb : flt.expbits ≤ 11 ∧ flt.mantbits ≤ 52 ∧ -1023 ≤ flt.bias ∧ flt.bias ≤ 0 ∧ 2 ^ flt.expbits + flt.bias ≤ 1026 ∧ (3 : ℤ) ≤ 2 ^ flt.expbits := by
    rcases hf with rfl | rfl | rfl <;> decide
  obtain ⟨b1, b2, b3, b4, b5, b6⟩ := hb
  unfold ftoaBits
  obtain ⟨-, x2⟩ := exp_bits (Or.inr rfl) bits (t := flt.mantbits) (w := flt.expbits) b1 (W := 64)
  dsimp only
  generalize (bits >>> flt.mantbits &&& ((((1 <<< flt.expbits : ℕ)) : BitVec 64) - 1)).toNat = E at x2 ⊢
  have x3 : (E : ℤ) < 2 ^ flt.expbits := by exact_mod_cast x2
  split
  · rfl
  by_cases h0 : (E : ℤ) = 0
  · rw [if_pos h0]
    exact ftoaFinite_size hW hW' opt prec fmt _ _ b2 (by dsimp only; omega) (by dsimp only; omega)
  · rw [if_neg h0]
    exact ftoaFinite_size hW hW' opt prec fmt _ _ b2 (by dsimp only; omega) (by dsimp only; omega)

theorem genericFtoa_size (opt : Bool) (val : F64) (fmt : Char) (prec size : ℤ) : genericFtoa W opt val fmt prec size = genericFtoa W' opt val fmt prec size := by
  unfold genericFtoa
  split
  · apply bind_ext
    intro r _
    exact ftoaBits_size hW hW' opt prec fmt _ (Or.inl rfl)
  split
  · exact ftoaBits_size hW hW' opt prec fmt _ (Or.inr (Or.inl rfl))
  split
  · exact ftoaBits_size hW hW' opt prec fmt _ (Or.inr (Or.inr rfl))
  · rfl

end GoFloat.Strconv
