import Verif.Proofs.Fields
import Verif.Model.Bfloat
import Verif.Proofs.ToFloat
/-
What the functions of package bfloat compute.
-/
namespace GoFloat.Bfloat
open Spec

theorem signbit_eq (f : Float) : f.signbit = decide (f.bits.toNat / 2 ^ 15 % 2 = 1) := bv_bit f.bits 15 (by norm_num)

theorem exp_eq (f : Float) : f.exp = (f.bits.toNat / 2 ^ 7 % 2 ^ 8 : ℕ) := by
  unfold Float.exp
  rw [BitVec.toNat_ushiftRight, BitVec.toNat_and]
  congr 1
  exact nat_field _ 7 8 rfl

theorem frac_eq (f : Float) : f.frac.toNat = f.bits.toNat % 2 ^ 7 := by
  unfold Float.frac
  rw [BitVec.toNat_and]
  exact Nat.and_two_pow_sub_one_eq_mod _ 7

/-- The variable prepared by `Big` before the case distinction. -/
def big0 : BigFloat := { BigFloat.new with prec := 8 }

theorem big_eq (f : Float) : f.big =
    if f.exp = 0xFF ∧ f.frac = 0 then .ok (big0.setInf f.signbit, false)
    else if f.exp = 0xFF then .ok (if f.signbit then big0.negSelf else big0, true)
    else if f.exp = 0 ∧ f.frac = 0 then .ok (if f.signbit then big0.negSelf else big0, false)
    else match big0.parse (bigText f.signbit (if f.exp = 0 then 0 else 1) f.frac (if f.exp = 0 then -126 else f.exp - bias)) with
      | some x => .ok (x, false)
      | none => .error .parse := by
  unfold Float.big
  rw [newFloat_zero]
  have h0 : BigFloat.setMode (BigFloat.setPrec { BigFloat.new with prec := 53 } precision) .toNearestEven = big0 := by rfl
  simp only [bind, Except.bind, pure, Except.pure, throw, throwThe, MonadExceptOf.throw, h0]
  split
  · rfl
  · split
    · rfl
    · split
      · rfl
      · rfl

theorem big_spec (f : Float) : ∃ x nan, f.big = .ok (x, nan) ∧ x.prec = 8 ∧ x.mode = .toNearestEven ∧
    x.acc = .exact ∧ x.WF ∧ Decoded (brain.decode f.bits.toNat) x nan := by
  rw [big_eq, signbit_eq, exp_eq]
  have hfr : f.frac = 0 ↔ f.bits.toNat % 2 ^ 7 = 0 := by rw [← frac_eq, ← BitVec.toNat_inj]; rfl
  simp only [hfr]
  have hd : brain.decode f.bits.toNat = (
      let s := decide (f.bits.toNat / 2 ^ 15 % 2 = 1)
      if f.bits.toNat / 2 ^ 7 % 2 ^ 8 = 255 then (if f.bits.toNat % 2 ^ 7 = 0 then .inf s else .nan s)
      else if f.bits.toNat / 2 ^ 7 % 2 ^ 8 = 0 then .num s ((2 : ℚ) ^ (1 - brain.bias) * ((f.bits.toNat % 2 ^ 7 : ℕ) / 2 ^ 7))
      else .num s ((2 : ℚ) ^ (((f.bits.toNat / 2 ^ 7 % 2 ^ 8 : ℕ) : ℤ) - brain.bias) * (1 + (f.bits.toNat % 2 ^ 7 : ℕ) / 2 ^ 7))) := rfl
  rw [hd]
  have hElt : f.bits.toNat / 2 ^ 7 % 2 ^ 8 < 256 := Nat.mod_lt _ (by norm_num)
  have hTlt : f.bits.toNat % 2 ^ 7 < 2 ^ 7 := Nat.mod_lt _ (by norm_num)
  have hfv := frac_eq f
  set s := decide (f.bits.toNat / 2 ^ 15 % 2 = 1)
  set E := f.bits.toNat / 2 ^ 7 % 2 ^ 8
  set T := f.bits.toNat % 2 ^ 7
  have hb : brain.bias = 127 := by rfl
  have wf0 : ∀ s, ({ big0 with neg := s } : BigFloat).WF := by
    intro s
    refine ⟨by simp [big0, BigFloat.MaxPrec], ?_, ?_, ?_, ?_, ?_⟩ <;> (intro h; simp [big0, BigFloat.new] at h)
  have wfi : ∀ s, (big0.setInf s).WF := by
    intro s
    refine ⟨by simp [big0, BigFloat.setInf, BigFloat.MaxPrec], ?_, ?_, ?_, ?_, ?_⟩ <;>
      (intro h; simp [BigFloat.setInf] at h)
  have hsz : (if s then big0.negSelf else big0) = { big0 with neg := s } := by cases s <;> rfl
  rw [hsz]
  by_cases h1 : E = 255
  · have h1' : (E : ℤ) = 0xFF := by omega
    by_cases h2 : T = 0
    · rw [if_pos ⟨h1', h2⟩]
      refine ⟨_, _, rfl, rfl, rfl, rfl, wfi s, ?_⟩
      simp only [h1, h2, if_true, Decoded]; exact ⟨trivial, rfl⟩
    · rw [if_neg (by tauto), if_pos h1']
      refine ⟨_, _, rfl, rfl, rfl, rfl, wf0 s, ?_⟩
      simp only [h1, h2, if_true, if_false, Decoded]; exact ⟨trivial, rfl⟩
  · have h1' : ¬ (E : ℤ) = 0xFF := by omega
    rw [if_neg (by tauto), if_neg h1']
    by_cases h2 : E = 0 ∧ T = 0
    · have h2' : (E : ℤ) = 0 ∧ T = 0 := ⟨by omega, h2.2⟩
      rw [if_pos h2']
      refine ⟨_, _, rfl, rfl, rfl, rfl, wf0 s, ?_⟩
      simp [h2, Decoded, BigFloat.datum, big0, BigFloat.new]
    · rw [if_neg (by omega)]
      obtain ⟨fs, hf1, hf2, hf3, hf4⟩ := fmtBinPad_digits (w := 7) (n := f.frac.toNat) (by norm_num) (by rw [hfv]; exact hTlt)
      obtain ⟨y, hy, hyp, hym, hya, hyw, hyd⟩ := parse_text (x0 := big0) (neg := s)
        (lead := if (E : ℤ) = 0 then 0 else 1) (by split <;> norm_num) hf3
        (e := if (E : ℤ) = 0 then -126 else (E : ℤ) - bias) (by rw [hf2]; rfl) (by omega)
        (by unfold bias; split <;> omega) (by unfold bias; split <;> omega)
      have ht : bigText s (if (E : ℤ) = 0 then 0 else 1) f.frac (if (E : ℤ) = 0 then -126 else (E : ℤ) - bias) =
        (if s then ['-'] else ['+']) ++ ['0', 'b'] ++ fmtNat 10 (if (E : ℤ) = 0 then 0 else 1) ++ ['.'] ++ fs.map digitChar
          ++ ['p'] ++ fmtInt (if (E : ℤ) = 0 then -126 else (E : ℤ) - bias) := by
        unfold bigText; rw [hf1]
      rw [ht, hy]
      refine ⟨_, _, rfl, hyp, hym, hya, hyw, ?_⟩
      rw [hf4, hf2, hfv] at hyd
      by_cases hE : E = 0
      · have hE' : (E : ℤ) = 0 := by omega
        rw [if_neg h1, if_pos hE]
        refine ⟨rfl, ?_⟩
        rw [hyd, if_pos hE', if_pos hE', hb]
        congr 1
        push_cast
        norm_num
        ring
      · have hE' : ¬ (E : ℤ) = 0 := by omega
        rw [if_neg h1, if_neg hE]
        refine ⟨rfl, ?_⟩
        rw [hyd, if_neg hE', if_neg hE', hb]
        clear_value E T s
        congr 1
        simp only [bias]
        rw [zpow_sub₀ (by norm_num) _ ((7 : ℕ) : ℤ), zpow_natCast]
        push_cast
        field_simp
        norm_num

/-- A bfloat16 denotes what the float32 with the same upper 16 bits denotes. -/
theorem decode_single (c : ℕ) : brain.decode c = single.decode (c * 2 ^ 16) := by
  have h1 : c * 2 ^ 16 / 2 ^ 31 = c / 2 ^ 15 := by omega
  have h2 : c * 2 ^ 16 / 2 ^ 23 % 2 ^ 8 = c / 2 ^ 7 % 2 ^ 8 := by omega
  have h3 : c * 2 ^ 16 % 2 ^ 23 = c % 2 ^ 7 * 2 ^ 16 := by omega
  have h4 : c % 2 ^ 7 * 2 ^ 16 = 0 ↔ c % 2 ^ 7 = 0 := by omega
  have h5 : ((c % 2 ^ 7 * 2 ^ 16 : ℕ) : ℚ) / 2 ^ 23 = (c % 2 ^ 7 : ℕ) / 2 ^ 7 := by
    rw [Nat.cast_mul]; push_cast; field_simp; norm_num
  have hs : single.decode (c * 2 ^ 16) = (
      let s := decide (c * 2 ^ 16 / 2 ^ 31 % 2 = 1)
      if c * 2 ^ 16 / 2 ^ 23 % 2 ^ 8 = 255 then (if c * 2 ^ 16 % 2 ^ 23 = 0 then .inf s else .nan s)
      else if c * 2 ^ 16 / 2 ^ 23 % 2 ^ 8 = 0 then .num s ((2 : ℚ) ^ (1 - single.bias) * ((c * 2 ^ 16 % 2 ^ 23 : ℕ) / 2 ^ 23))
      else .num s ((2 : ℚ) ^ (((c * 2 ^ 16 / 2 ^ 23 % 2 ^ 8 : ℕ) : ℤ) - single.bias) * (1 + (c * 2 ^ 16 % 2 ^ 23 : ℕ) / 2 ^ 23))) := rfl
  rw [hs]
  simp only [h1, h2, h3, h4, h5]
  rfl

end GoFloat.Bfloat
