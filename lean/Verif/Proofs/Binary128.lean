import Verif.Proofs.Fields
import Verif.Proofs.TruncGen
import Verif.Model.Binary128
import Verif.Spec.Code128
/-
What the functions of package binary128 compute.
-/
namespace GoFloat.Binary128
open Spec

theorem code_lt128 (f : Float) : f.code < 2 ^ 128 := by
  have := f.a.isLt; have := f.b.isLt; unfold Float.code; omega

theorem code_inj {f g : Float} (h : f.code = g.code) : f = g := by
  have h1 := f.a.isLt; have h2 := f.b.isLt; have h3 := g.a.isLt; have h4 := g.b.isLt
  unfold Float.code at h
  cases f; cases g
  simp only [Float.mk.injEq, ← BitVec.toNat_inj] at *
  omega

theorem signbit_eq (f : Float) : f.signbit = decide (f.code / 2 ^ 127 % 2 = 1) := by
  have := bv_bit f.a 63 (by norm_num)
  unfold Float.signbit
  rw [show (0x8000000000000000 : BitVec 64) = BitVec.ofNat 64 (2 ^ 63) from rfl, this]
  have h2 := f.b.isLt
  unfold Float.code
  congr 1
  apply propext
  omega

theorem exp_eq (f : Float) : f.exp = (f.code / 2 ^ 112 % 2 ^ 15 : ℕ) := by
  have ha := f.a.isLt
  have hb := f.b.isLt
  have h1 : (f.a &&& 0x7FFF000000000000).toNat >>> 48 = f.a.toNat / 2 ^ 48 % 2 ^ 15 := by
    rw [BitVec.toNat_and]; exact nat_field _ 48 15 rfl
  have h2 : (f.a &&& 0x7FFF000000000000).toNat < 2 ^ 63 := by
    rw [BitVec.toNat_and]
    exact lt_of_le_of_lt Nat.and_le_right (by decide)
  have h3 : ((f.a &&& 0x7FFF000000000000).setWidth 64).toInt = ((f.a &&& 0x7FFF000000000000).toNat : ℤ) := by
    rw [BitVec.setWidth_eq, BitVec.toInt_eq_toNat_of_lt (by omega)]
  unfold Float.exp Float.expW
  rw [h3]
  have h4 : ∀ n : ℕ, ((n : ℤ) >>> 48) = ((n >>> 48 : ℕ) : ℤ) := fun n => rfl
  rw [h4, h1]
  unfold Float.code
  congr 1
  omega

theorem frac1_eq (f : Float) : f.frac.1.toNat = f.a.toNat % 2 ^ 48 := by
  unfold Float.frac
  simp only
  rw [BitVec.toNat_and]
  exact Nat.and_two_pow_sub_one_eq_mod _ 48

theorem frac_eq (f : Float) : f.frac.1.toNat * 2 ^ 64 + f.frac.2.toNat = f.code % 2 ^ 112 := by
  have ha := f.a.isLt
  have hb := f.b.isLt
  rw [frac1_eq]
  show _ + f.b.toNat = _
  unfold Float.code
  omega

/-- The variable prepared by `Big` before the case distinction. -/
def big0 : BigFloat := { BigFloat.new with prec := 113 }

theorem bigWith_eq (f : Float) (exp : ℤ) : f.bigWith exp =
    if exp = 0x7FFF ∧ f.frac.1 = 0 ∧ f.frac.2 = 0 then .ok (big0.setInf f.signbit, false)
    else if exp = 0x7FFF then .ok (if f.signbit then big0.negSelf else big0, true)
    else if exp = 0 ∧ f.frac.1 = 0 ∧ f.frac.2 = 0 then .ok (if f.signbit then big0.negSelf else big0, false)
    else match big0.parse (bigText f.signbit (if exp = 0 then 0 else 1) f.frac.1 f.frac.2 (if exp = 0 then -16382 else exp - bias)) with
      | some x => .ok (x, false)
      | none => .error .parse := by
  unfold Float.bigWith
  rw [newFloat_zero]
  have h0 : BigFloat.setMode (BigFloat.setPrec { BigFloat.new with prec := 53 } precision) .toNearestEven = big0 := by rfl
  simp only [bind, Except.bind, pure, Except.pure, throw, throwThe, MonadExceptOf.throw, h0]
  split
  · rfl
  · split
    · rfl
    · split
      · rfl
      · rfl

theorem big_spec (f : Float) : ∃ x nan, f.big = .ok (x, nan) ∧ x.prec = 113 ∧ x.mode = .toNearestEven ∧
    x.acc = .exact ∧ x.WF ∧ Decoded (quad.decode f.code) x nan := by
  unfold Float.big
  rw [bigWith_eq, signbit_eq, exp_eq]
  have hfr : (f.frac.1 = 0 ∧ f.frac.2 = 0) ↔ f.code % 2 ^ 112 = 0 := by
    rw [← frac_eq, ← BitVec.toNat_inj, ← BitVec.toNat_inj (x := f.frac.2)]
    show (_ = 0 ∧ _ = 0) ↔ _
    omega
  simp only [hfr]
  have hd : quad.decode f.code = (
      let s := decide (f.code / 2 ^ 127 % 2 = 1)
      if f.code / 2 ^ 112 % 2 ^ 15 = 2 ^ 15 - 1 then (if f.code % 2 ^ 112 = 0 then .inf s else .nan s)
      else if f.code / 2 ^ 112 % 2 ^ 15 = 0 then .num s ((2 : ℚ) ^ (1 - quad.bias) * ((f.code % 2 ^ 112 : ℕ) / 2 ^ 112))
      else .num s ((2 : ℚ) ^ (((f.code / 2 ^ 112 % 2 ^ 15 : ℕ) : ℤ) - quad.bias) * (1 + (f.code % 2 ^ 112 : ℕ) / 2 ^ 112))) := rfl
  rw [hd]
  have hElt : f.code / 2 ^ 112 % 2 ^ 15 < 2 ^ 15 := Nat.mod_lt _ (by norm_num)
  have hf1 : f.frac.1.toNat < 2 ^ 48 := by rw [frac1_eq]; exact Nat.mod_lt _ (by norm_num)
  have hf2 : f.frac.2.toNat < 2 ^ 64 := f.frac.2.isLt
  have hfv := frac_eq f
  set s := decide (f.code / 2 ^ 127 % 2 = 1)
  set E := f.code / 2 ^ 112 % 2 ^ 15
  set T := f.code % 2 ^ 112
  have hb : quad.bias = 16383 := by rfl
  have wf0 : ∀ s, ({ big0 with neg := s } : BigFloat).WF := by
    intro s
    refine ⟨by simp [big0, BigFloat.MaxPrec], ?_, ?_, ?_, ?_, ?_⟩ <;> (intro h; simp [big0, BigFloat.new] at h)
  have wfi : ∀ s, (big0.setInf s).WF := by
    intro s
    refine ⟨by simp [big0, BigFloat.setInf, BigFloat.MaxPrec], ?_, ?_, ?_, ?_, ?_⟩ <;>
      (intro h; simp [BigFloat.setInf] at h)
  have hsz : (if s then big0.negSelf else big0) = { big0 with neg := s } := by cases s <;> rfl
  rw [hsz]
  by_cases h1 : E = 2 ^ 15 - 1
  · have h1' : (E : ℤ) = 0x7FFF := by omega
    by_cases h2 : T = 0
    · rw [if_pos ⟨h1', h2⟩]
      refine ⟨_, _, rfl, rfl, rfl, rfl, wfi s, ?_⟩
      rw [if_pos h1, if_pos h2]; exact ⟨rfl, rfl⟩
    · rw [if_neg (by tauto), if_pos h1']
      refine ⟨_, _, rfl, rfl, rfl, rfl, wf0 s, ?_⟩
      rw [if_pos h1, if_neg h2]; exact ⟨rfl, rfl⟩
  · have h1' : ¬ (E : ℤ) = 0x7FFF := by omega
    rw [if_neg (by tauto), if_neg h1']
    by_cases h2 : E = 0 ∧ T = 0
    · have h2' : (E : ℤ) = 0 ∧ T = 0 := ⟨by omega, h2.2⟩
      rw [if_pos h2']
      refine ⟨_, _, rfl, rfl, rfl, rfl, wf0 s, ?_⟩
      rw [if_neg h1, if_pos h2.1, h2.2, Nat.cast_zero, zero_div, mul_zero]
      exact ⟨rfl, rfl⟩
    · rw [if_neg (by omega)]
      obtain ⟨fs, hg1, hg2, hg3, hg4⟩ := fmtBinPad_digits (w := 48) (n := f.frac.1.toNat) (by norm_num) hf1
      obtain ⟨gs, hk1, hk2, hk3, hk4⟩ := fmtBinPad_digits (w := 64) (n := f.frac.2.toNat) (by norm_num) hf2
      have hlen : (fs ++ gs).length = 112 := by rw [List.length_append, hg2, hk2]
      obtain ⟨y, hy, hyp, hym, hya, hyw, hyd⟩ := parse_text (x0 := big0) (neg := s)
        (lead := if (E : ℤ) = 0 then 0 else 1) (by split <;> norm_num) (fs := fs ++ gs)
        (by intro d hd; rcases List.mem_append.1 hd with h | h; exact hg3 d h; exact hk3 d h)
        (e := if (E : ℤ) = 0 then -16382 else (E : ℤ) - bias) (by rw [hlen]; rfl) (by omega)
        (by unfold bias; split <;> omega) (by unfold bias; split <;> omega)
      have ht : bigText s (if (E : ℤ) = 0 then 0 else 1) f.frac.1 f.frac.2 (if (E : ℤ) = 0 then -16382 else (E : ℤ) - bias) =
        (if s then ['-'] else ['+']) ++ ['0', 'b'] ++ fmtNat 10 (if (E : ℤ) = 0 then 0 else 1) ++ ['.'] ++ (fs ++ gs).map digitChar
          ++ ['p'] ++ fmtInt (if (E : ℤ) = 0 then -16382 else (E : ℤ) - bias) := by
        unfold bigText; simp only; rw [hg1, hk1, List.map_append]
      rw [ht, hy]
      refine ⟨_, _, rfl, hyp, hym, hya, hyw, ?_⟩
      have hval : digsVal 2 0 (fs ++ gs) = T := by
        rw [digsVal_append, digsVal_acc, hg4, hk4, hk2, ← hfv]
      rw [hval, hlen] at hyd
      clear_value E T s
      by_cases hE : E = 0
      · have hE' : (E : ℤ) = 0 := by omega
        rw [if_neg h1, if_pos hE]
        refine ⟨rfl, ?_⟩
        rw [hyd, if_pos hE', if_pos hE', hb]
        congr 1
        rw [Nat.zero_mul, Nat.zero_add, zpow_sub₀ (by norm_num) _ ((112 : ℕ) : ℤ), zpow_natCast,
          show (1 - 16383 : ℤ) = -16382 from rfl]
        generalize (2 : ℚ) ^ (-16382 : ℤ) = Q
        generalize (2 : ℚ) ^ 112 = P
        rw [mul_div_assoc', mul_div_assoc', mul_comm]
      · have hE' : ¬ (E : ℤ) = 0 := by omega
        rw [if_neg h1, if_neg hE]
        refine ⟨rfl, ?_⟩
        rw [hyd, if_neg hE', if_neg hE', hb]
        congr 1
        simp only [bias]
        rw [zpow_sub₀ (by norm_num) _ ((112 : ℕ) : ℤ), zpow_natCast, Nat.cast_add, Nat.one_mul, Nat.cast_pow, Nat.cast_ofNat]
        have h112 : (2 : ℚ) ^ 112 ≠ 0 := by positivity
        generalize (2 : ℚ) ^ 112 = P at h112
        generalize (2 : ℚ) ^ ((E : ℤ) - 16383) = Q
        field_simp

theorem maskA_eq : maskA = 2 ^ 112 - 2 ^ 64 := by decide +kernel
theorem maskB_eq : maskB = 2 ^ 64 - 1 := by decide +kernel

theorem mask_split (m : ℕ) : (m &&& maskA) >>> 64 = m / 2 ^ 64 % 2 ^ 48 ∧ m &&& maskB = m % 2 ^ 64 := by
  constructor
  · exact nat_field m 64 48 (by rw [maskA_eq]; decide +kernel)
  · rw [maskB_eq]; exact Nat.and_two_pow_sub_one_eq_mod _ 64

theorem intNonneg_eq {x : BigFloat} (hf : x.form = .finite) : (x.intNonneg : ℤ) = ⌊x.mag⌋ := by
  unfold BigFloat.intNonneg; rw [hf]; exact BigFloat.truncMag_eq x

/-- Assembling the two words. -/
theorem pack (s : Bool) (e M : ℕ) (he : e < 2 ^ 15) :
    (⟨(if s then (0x8000000000000000 : BitVec 64) else 0) ||| BitVec.ofNat 64 e <<< 48
        ||| (BitVec.ofNat 64 ((M &&& maskA) >>> 64) &&& 0x0000FFFFFFFFFFFF), BitVec.ofNat 64 (M &&& maskB)⟩ : Float).code
      = quad.signPart s + e * 2 ^ 112 + M % 2 ^ 112 := by
  obtain ⟨h1, h2⟩ := mask_split M
  rw [h1, h2]
  have hA : M / 2 ^ 64 % 2 ^ 48 < 2 ^ 48 := Nat.mod_lt _ (by norm_num)
  have hB : M % 2 ^ 64 < 2 ^ 64 := Nat.mod_lt _ (by norm_num)
  have hand : (BitVec.ofNat 64 (M / 2 ^ 64 % 2 ^ 48) &&& 0x0000FFFFFFFFFFFF).toNat = M / 2 ^ 64 % 2 ^ 48 := by
    rw [BitVec.toNat_and, BitVec.toNat_ofNat, Nat.mod_eq_of_lt (by omega)]
    refine (Nat.and_two_pow_sub_one_eq_mod _ 48).trans (Nat.mod_eq_of_lt hA)
  have hs : (if s then (0x8000000000000000 : BitVec 64) else 0).toNat = (if s then 1 else 0) * 2 ^ 63 := by cases s <;> rfl
  have hsq : quad.signPart s = (if s then 1 else 0) * 2 ^ 127 := by cases s <;> rfl
  unfold Float.code
  simp only
  rw [BitVec.toNat_or, BitVec.toNat_or, hand, hs, BitVec.toNat_shiftLeft, BitVec.toNat_ofNat, BitVec.toNat_ofNat,
    Nat.shiftLeft_eq, Nat.mod_eq_of_lt (a := e) (by omega), Nat.mod_eq_of_lt (a := e * 2 ^ 48) (by omega),
    Nat.mod_eq_of_lt hB, nat_or_field (by omega), hsq]
  have h3 : ∀ t : ℕ, t * 2 ^ 63 + e * 2 ^ 48 = (t * 2 ^ 15 + e) * 2 ^ 48 := by intro t; ring
  rw [h3, nat_or_field hA]
  have h4 : M % 2 ^ 112 = (M / 2 ^ 64 % 2 ^ 48) * 2 ^ 64 + M % 2 ^ 64 := by omega
  rw [h4]
  ring

/-- The finite case of `NewFromBig`, with the panics and special cases resolved. -/
theorem newFromBig_finite {x : BigFloat} (hx : x.WF) (hf : x.form = .finite) :
    ∃ f acc, newFromBig x = .ok (f, acc) ∧
      (-112 < x.exp + 16382 → x.exp + 16382 ≤ 0 →
        ((f.code : ℤ) = (quad.signPart x.neg : ℤ) + ⌊x.mag * 2 ^ (16494 : ℤ)⌋ ∧ acc = .exact)) ∧
      (x.exp + 16382 ≤ -112 →
        ((f.code : ℤ) = (quad.signPart x.neg : ℤ) + ⌊x.mag * 2 ^ (224 - x.exp)⌋ % 2 ^ 112 ∧ acc = .below)) ∧
      (1 ≤ x.exp + 16382 →
        ((f.code : ℤ) = (quad.signPart x.neg : ℤ) + (x.exp + 16382) % 2 ^ 15 * 2 ^ 112
            + (⌊x.mag * 2 ^ (113 - x.exp)⌋ - 2 ^ 112) ∧
          acc = if (⌊x.mag * 2 ^ (113 - x.exp)⌋ : ℚ) = x.mag * 2 ^ (113 - x.exp) then
            (if 2 ^ 15 ≤ x.exp + 16382 then .above else .exact) else .below)) := by
  have hm := hx.mant_pos hf
  have hge := hx.exp_ge hf
  have hle := hx.exp_le hf
  simp only [BigFloat.MinExp, BigFloat.MaxExp] at hge hle
  have hinf : x.isInf = false := by unfold BigFloat.isInf; rw [hf]; rfl
  have hcmp := BigFloat.cmp_zero_finite hf (z := BigFloat.setPrec { BigFloat.new with prec := 53 } precision) rfl
  have hme : x.mantExp.1 = x.exp := by unfold BigFloat.mantExp; rw [if_pos hf]
  have hmpos := BigFloat.mag_pos hm
  unfold newFromBig
  rw [newFloat_zero]
  simp only [bind, Except.bind, pure, Except.pure, hinf, hcmp, hme, Bool.false_eq_true, if_false]
  have hE : x.exp - 1 + bias = x.exp + 16382 := by unfold bias; ring
  simp only [hE, precision]
  have hsb : x.signbit = x.neg := rfl
  by_cases hden : x.exp + 16382 ≤ 0
  · rw [if_pos hden]
    have hk : ∃ k acc, (if x.exp + 16382 ≤ -(((113 : ℕ) : ℤ) - 1) then (((113 : ℕ) : ℤ) - 1, Accuracy.below)
        else (x.exp + 16382, Accuracy.exact)) = (k, acc) ∧
        (-112 < x.exp + 16382 → k = x.exp + 16382 ∧ acc = .exact) ∧ (x.exp + 16382 ≤ -112 → k = 112 ∧ acc = .below) := by
      by_cases h : x.exp + 16382 ≤ -(((113 : ℕ) : ℤ) - 1)
      · rw [if_pos h]; exact ⟨_, _, rfl, by omega, fun _ => ⟨rfl, rfl⟩⟩
      · rw [if_neg h]; exact ⟨_, _, rfl, fun _ => ⟨rfl, rfl⟩, by omega⟩
    obtain ⟨k, acc, hk, hk1, hk2⟩ := hk
    simp only [hk]
    have hkr : -112 < k ∧ k ≤ 112 := by
      by_cases h : x.exp + 16382 ≤ -112
      · have := hk2 h; omega
      · have := hk1 (by omega); omega
    obtain ⟨a, ha, haf, han, hae, haw, hamag⟩ := BigFloat.mant_scale_abs hx hf (k := k + ((113 : ℕ) : ℤ) - 1)
      (by simp only [BigFloat.MinExp]; omega) (by simp only [BigFloat.MaxExp]; omega)
    rw [ha]
    have hu := intNonneg_eq haf
    rw [hamag] at hu
    have hp := pack x.neg 0 a.intNonneg (by norm_num)
    rw [show ∀ t : BitVec 64, t ||| BitVec.ofNat 64 0 <<< 48 = t from fun t => by rw [show BitVec.ofNat 64 0 <<< 48 = 0#64 from rfl]; exact BitVec.or_zero, Nat.zero_mul, Nat.add_zero] at hp
    refine ⟨_, _, rfl, ?_⟩
    rw [hsb, hp]
    refine ⟨fun h _ => ⟨?_, (hk1 h).2⟩, fun h => ⟨?_, (hk2 h).2⟩, fun h => by omega⟩
    · have h1 := (hk1 h).1
      rw [show k + ((113 : ℕ) : ℤ) - 1 - x.exp = 16494 by omega] at hu
      have hlt : a.intNonneg < 2 ^ 112 := by
        have : (a.intNonneg : ℤ) < 2 ^ 112 := by
          rw [hu, Int.floor_lt]
          have h3 := BigFloat.mag_lt x
          have h4 : (2 : ℚ) ^ x.exp ≤ 2 ^ (-16382 : ℤ) := zpow_le_zpow_right₀ (by norm_num) (by omega)
          have h5 : x.mag < 2 ^ (-16382 : ℤ) := h3.trans_le h4
          have h6 := mul_lt_mul_of_pos_right h5 (show (0 : ℚ) < 2 ^ (16494 : ℤ) by positivity)
          rw [← zpow_add₀ (by norm_num), show (-16382 : ℤ) + 16494 = (112 : ℕ) by norm_num, zpow_natCast] at h6
          rw [Int.cast_pow]; exact h6
        exact_mod_cast this
      rw [Nat.mod_eq_of_lt hlt, Nat.cast_add, hu]
    · have h1 := (hk2 h).1
      rw [show k + ((113 : ℕ) : ℤ) - 1 - x.exp = 224 - x.exp by omega] at hu
      rw [Nat.cast_add, Int.natCast_emod, hu]; rfl
  · rw [if_neg hden]
    obtain ⟨a, ha, haf, han, hae, haw, hamag⟩ := BigFloat.mant_abs_scale hx hf (k := ((113 : ℕ) : ℤ))
      (by simp only [BigFloat.MinExp]; omega) (by simp only [BigFloat.MaxExp]; omega)
    simp only [ha]
    have hu := intNonneg_eq haf
    have hint := BigFloat.isInt_eq haw haf
    have hfl := BigFloat.floor_scaled hm (p := 113) (by norm_num)
    rw [hamag] at hu hint
    rw [← hu] at hfl
    set M := a.intNonneg with hMdef
    have hM1 : 2 ^ 112 ≤ M := by have := hfl.1; exact_mod_cast this
    have hM2 : M < 2 ^ 113 := by have := hfl.2; exact_mod_cast this
    have htb : M.testBit 112 = true := by
      rw [Nat.testBit_eq_decide_div_mod_eq, decide_eq_true_eq]; omega
    rw [if_pos htb]
    have hov := ofInt_andNot_ne_zero (e := x.exp + 16382) (by omega) (by omega) 15 (by norm_num) (m := ~~~0x7FFF) rfl
    have hfe := ofInt_and_toNat (e := x.exp + 16382) (by omega) (by omega) 15 (m := 0x7FFF) rfl
    have hEl : (BitVec.ofInt 64 (x.exp + 16382) &&& 0x7FFF).toNat < 2 ^ 15 := by
      have : ((BitVec.ofInt 64 (x.exp + 16382) &&& 0x7FFF).toNat : ℤ) < 2 ^ 15 := by
        rw [hfe]; exact Int.emod_lt_of_pos _ (by norm_num)
      exact_mod_cast this
    have hp := pack x.neg _ (M - 2 ^ 112) hEl
    rw [BitVec.ofNat_toNat, BitVec.setWidth_eq, Nat.mod_eq_of_lt (a := M - 2 ^ 112) (by omega)] at hp
    have hz : BitVec.ofNat 64 (((M - 2 ^ 112) &&& maskA) >>> 64) &&& ~~~0x0000FFFFFFFFFFFF = 0 := by
      rw [← BitVec.toNat_inj, BitVec.toNat_and, BitVec.toNat_ofNat, (mask_split _).1]
      have hA : (M - 2 ^ 112) / 2 ^ 64 % 2 ^ 48 < 2 ^ 48 := Nat.mod_lt _ (by norm_num)
      generalize (M - 2 ^ 112) / 2 ^ 64 % 2 ^ 48 = A at hA
      rw [Nat.mod_eq_of_lt (by omega)]
      change A &&& (2 ^ 64 - 2 ^ 48) = 0
      rw [nat_and_high (by omega) (by norm_num), Nat.div_eq_of_lt hA, Nat.zero_mul]
    rw [hint, hz, hov, hsb]
    refine ⟨_, _, rfl, fun h _ => by omega, fun h => by omega, fun h => ⟨?_, ?_⟩⟩
    · rw [hp, Nat.cast_add, Nat.cast_add, Nat.cast_mul, Nat.cast_sub hM1, hfe, hu]; rfl
    · simp only [ne_eq, not_true_eq_false, and_false, if_false, decide_eq_true_eq, Bool.not_eq_true', decide_eq_false_iff_not]
      have hc : (((113 : ℕ) : ℤ) - x.exp) = 113 - x.exp := rfl
      rw [hc]
      by_cases h' : (⌊x.mag * 2 ^ ((113 : ℤ) - x.exp)⌋ : ℚ) = x.mag * 2 ^ ((113 : ℤ) - x.exp)
      · rw [if_neg (by simpa using h'), if_pos h']
      · rw [if_pos h', if_neg h']

theorem quad_facts : quad.qmin = -16494 ∧ quad.bias = 16383 ∧ quad.t = 112 ∧ quad.w = 15 ∧ 2 ≤ quad.w := by
  refine ⟨by decide +kernel, by decide +kernel, rfl, rfl, by decide⟩

theorem infCode_lt112 : quad.infCode < 2 ^ 127 := quad.infCode_lt

/-- Inside the range `NewFromBig` truncates. -/
theorem newFromBig_range {x : BigFloat} (hx : x.WF) (hf : x.form = .finite) (h1 : quad.qmin < x.exp)
    (h2 : x.exp ≤ quad.bias + 1) :
    ∃ f acc n, newFromBig x = .ok (f, acc) ∧ f.code = quad.signPart x.neg + n ∧ n < quad.infCode ∧
      quad.magc n ≤ x.mag ∧ x.mag < quad.magc (n + 1) ∧
      (x.exp - 1 + quad.bias ≤ 0 → acc = .exact) ∧
      (1 ≤ x.exp - 1 + quad.bias → acc = if quad.magc n = x.mag then .exact else .below) := by
  obtain ⟨f1, f2, f3, f4, f5⟩ := quad_facts
  obtain ⟨f, acc, hr, hd, -, hn⟩ := newFromBig_finite hx hf
  have he : x.exp - 1 + quad.bias = x.exp + 16382 := by rw [f2]; ring
  obtain ⟨n, h⟩ := trunc_range quad f5 (hx.mant_pos hf) (c := f.code) (acc := acc)
    (fun a b => by
      rw [he] at a b; rw [f3] at a; rw [f1, show (-(-16494) : ℤ) = 16494 by norm_num]
      exact hd (by exact a) b)
    (fun a => by
      rw [he] at a; rw [he, f3, f4]
      exact hn a) h1 h2
  exact ⟨f, acc, n, hr, h⟩

/-- A quadruple is kept. -/
theorem newFromBig_of_magc {x : BigFloat} (hx : x.WF) (hf : x.form = .finite) {n : ℕ} (hn : n < quad.infCode)
    (h : x.mag = quad.magc n) : ∃ f, newFromBig x = .ok (f, .exact) ∧ f.code = quad.signPart x.neg + n := by
  obtain ⟨f, acc, hr, -⟩ := newFromBig_finite hx hf
  obtain ⟨h1, h2⟩ := trunc_exact quad quad_facts.2.2.2.2 (hx.mant_pos hf) (c := f.code) (acc := acc) (fun a b => by
    obtain ⟨f', acc', n, hr', h⟩ := newFromBig_range hx hf a b
    rw [hr] at hr'
    simp only [Except.ok.injEq, Prod.mk.injEq] at hr'
    rw [hr'.1, hr'.2]; exact ⟨n, h⟩) hn h
  exact ⟨f, by rw [hr, h2], h1⟩

theorem newFromBig_inf {x : BigFloat} (hf : x.form = .inf) :
    newFromBig x = .ok (if x.neg then NegInf else Inf, .exact) := by
  unfold newFromBig
  rw [newFloat_zero]
  have : x.isInf = true := by unfold BigFloat.isInf; rw [hf]; rfl
  simp only [bind, Except.bind, pure, Except.pure, this, if_true]; rfl

theorem newFromBig_zero {x : BigFloat} (hf : x.form = .zero) :
    newFromBig x = .ok (if x.neg then NegZero else Zero, .exact) := by
  unfold newFromBig
  rw [newFloat_zero]
  have h1 : x.isInf = false := by unfold BigFloat.isInf; rw [hf]; rfl
  have h2 := BigFloat.cmp_zero_zero hf (z := BigFloat.setPrec { BigFloat.new with prec := 53 } precision) rfl
  simp only [bind, Except.bind, pure, Except.pure, h1, h2, if_true]; rfl

theorem code_inf (s : Bool) : (if s then NegInf else Inf).code = quad.signPart s + quad.infCode := by
  cases s <;> decide +kernel
theorem code_zero (s : Bool) : (if s then NegZero else Zero).code = quad.signPart s := by
  cases s <;> decide +kernel

/-- `NewFromBig` of a variable that holds a quadruple. -/
theorem newFromBig_of_decode {x : BigFloat} (hx : x.WF) {f : Float} (hd : x.datum = quad.decode f.code) :
    newFromBig x = .ok (f, .exact) := by
  have h := of_decode quad (c := f.code) (code_lt128 f) hd (R := fun c => ∃ g : Float, newFromBig x = .ok (g, .exact) ∧ g.code = c)
    (fun hf => ⟨_, newFromBig_inf hf, code_inf _⟩) (fun hf => ⟨_, newFromBig_zero hf, code_zero _⟩)
    (fun hf n hn h => newFromBig_of_magc hx hf hn h)
  obtain ⟨g, h1, h2⟩ := h
  rw [h1, code_inj h2]

theorem newFromFloat64_nan {x : F64} (h : F64.isNaN x = true) :
    newFromFloat64 x = .ok (if (double.decode x.toNat).sign then NegNaN else NaN, .exact) := by
  unfold newFromFloat64
  rw [if_pos h, signbit64_eq]; rfl

/-- `NewFromFloat64` widens to 113 bits and calls `NewFromBig`. -/
theorem newFromFloat64_eq {x : F64} (h : F64.isNaN x = false) :
    ∃ y : BigFloat, y.WF ∧ y.datum = double.decode x.toNat ∧ newFromFloat64 x = newFromBig y := by
  obtain ⟨y, hy, hd, hwf, hp, hmo, -⟩ := newFloat_spec x h
  have hw := BigFloat.setPrec_widen (x := y) (p := 113) (by norm_num) (by decide) (by omega)
  refine ⟨(y.setPrec 113).setMode .toNearestEven, ?_, ?_, ?_⟩
  · rw [hw]; exact hwf.widen (p := 113) (by decide) (by omega) .toNearestEven .exact
  · rw [hw, ← hd]; rfl
  · unfold newFromFloat64
    rw [if_neg (by rw [h]; simp), hy]; rfl

/-- Doubles are kept. -/
theorem newFromFloat64_spec {x : F64} (h : ∀ s, double.decode x.toNat ≠ .nan s) :
    ∃ f, newFromFloat64 x = .ok (f, .exact) ∧ quad.decode f.code = double.decode x.toNat := by
  have hnn : F64.isNaN x = false := by
    rw [Bool.eq_false_iff, Ne, isNaN64_iff]; push Not; exact h
  obtain ⟨y, hwf, hyd, he⟩ := newFromFloat64_eq hnn
  obtain ⟨h1, h2⟩ := toIEEE_widen (F := double) (G := quad) (by decide) (by decide) (by decide) (by decide) (by decide +kernel) (by decide +kernel)
    hwf hyd
  have hlt := toIEEE_lt quad (by decide) (by decide) hwf
  have hlt : (y.toIEEE quad.t quad.w).1 < 2 ^ 128 := hlt
  generalize (y.toIEEE quad.t quad.w).1 = c at h1 hlt
  have hc : (⟨BitVec.ofNat 64 (c / 2 ^ 64), BitVec.ofNat 64 c⟩ : Float).code = c := by
    unfold Float.code
    simp only [BitVec.toNat_ofNat]
    omega
  refine ⟨⟨BitVec.ofNat 64 (c / 2 ^ 64), BitVec.ofNat 64 c⟩, ?_, by rw [hc, h1]⟩
  rw [he]
  exact newFromBig_of_decode hwf (by rw [hc, h1, hyd])

theorem float64_spec (f : Float) : ∃ x nan, x.WF ∧ Decoded (quad.decode f.code) x nan ∧ f.float64 = .ok (toF64 x nan) := by
  obtain ⟨x, nan, hb, -, -, -, hwf, hdec⟩ := big_spec f
  refine ⟨x, nan, hwf, hdec, ?_⟩
  unfold Float.float64 toF64
  rw [hb]
  cases nan <;> cases h : x.signbit <;> simp [bind, Except.bind, pure, Except.pure, h]

theorem float32_spec (f : Float) : ∃ x nan, x.WF ∧ Decoded (quad.decode f.code) x nan ∧ f.float32 = .ok (toF32 x nan) := by
  obtain ⟨x, nan, hb, -, -, -, hwf, hdec⟩ := big_spec f
  refine ⟨x, nan, hwf, hdec, ?_⟩
  unfold Float.float32 toF32
  rw [hb]
  cases nan <;> cases h : x.signbit <;> simp [bind, Except.bind, pure, Except.pure, h]

/-- `NewFromBig` never panics, and the sign is the top bit of the result. -/
theorem newFromBig_sign {x : BigFloat} (hx : x.WF) : ∃ f acc n, newFromBig x = .ok (f, acc) ∧
    f.code = quad.signPart x.neg + n ∧ n < 2 ^ 127 := by
  cases hf : x.form with
  | zero => exact ⟨_, _, 0, newFromBig_zero hf, code_zero _, by norm_num⟩
  | inf => exact ⟨_, _, quad.infCode, newFromBig_inf hf, code_inf _, infCode_lt112⟩
  | finite =>
    obtain ⟨f, acc, hr, h1, h2, h3⟩ := newFromBig_finite hx hf
    refine ⟨f, acc, ?_⟩
    suffices h : ∃ n, n < 2 ^ 127 ∧ f.code = quad.signPart x.neg + n by
      obtain ⟨n, hn, hb⟩ := h; exact ⟨n, hr, hb, hn⟩
    have hfl := BigFloat.floor_scaled (hx.mant_pos hf) (p := 113) (by norm_num)
    rw [show (((113 : ℕ) : ℤ) - x.exp) = 113 - x.exp from rfl, show 113 - 1 = 112 from rfl] at hfl
    have hm := BigFloat.mag_pos (hx.mant_pos hf)
    by_cases h : x.exp + 16382 ≤ 0
    · by_cases h' : x.exp + 16382 ≤ -112
      · have := (h2 h').1
        generalize ⌊x.mag * 2 ^ (224 - x.exp)⌋ = M at this
        exact ⟨(M % 2 ^ 112).toNat, by omega, by omega⟩
      · have := (h1 (by omega) h).1
        have g1 : 0 ≤ ⌊x.mag * 2 ^ (16494 : ℤ)⌋ := Int.floor_nonneg.2 (by positivity)
        have g2 : ⌊x.mag * 2 ^ (16494 : ℤ)⌋ < 2 ^ 112 := by
          rw [Int.floor_lt]
          have a1 := BigFloat.mag_lt x
          have a2 : (2 : ℚ) ^ x.exp ≤ 2 ^ (-16382 : ℤ) := zpow_le_zpow_right₀ (by norm_num) (by omega)
          have h6 := mul_lt_mul_of_pos_right (a1.trans_le a2) (show (0 : ℚ) < 2 ^ (16494 : ℤ) by positivity)
          rw [← zpow_add₀ (by norm_num), show (-16382 : ℤ) + 16494 = (112 : ℕ) by norm_num, zpow_natCast] at h6
          rw [Int.cast_pow]; exact h6
        generalize ⌊x.mag * 2 ^ (16494 : ℤ)⌋ = M at this g1 g2
        exact ⟨M.toNat, by omega, by omega⟩
    · have := (h3 (by omega)).1
      generalize ⌊x.mag * 2 ^ (113 - x.exp)⌋ = M at this hfl
      exact ⟨((x.exp + 16382) % 2 ^ 15 * 2 ^ 112 + (M - 2 ^ 112)).toNat, by omega, by omega⟩

theorem signbit_of_code {f : Float} {s : Bool} {n : ℕ} (h : f.code = quad.signPart s + n) (hn : n < 2 ^ 127) : f.signbit = s := by
  rw [signbit_eq, h]; exact bit_of_code quad s hn

theorem signbit_decode (f : Float) : f.signbit = (quad.decode f.code).sign := by
  rw [signbit_eq, decode_sign]; rfl

/-- `NewFromFloat32` goes through `NewFromFloat64`. -/
theorem newFromFloat32_spec {x : F32} (h : ∀ s, single.decode x.toNat ≠ .nan s) :
    ∃ f, newFromFloat32 x = .ok (f, .exact) ∧ quad.decode f.code = single.decode x.toNat ∧ f.float32 = .ok (x, .exact) := by
  have hw := (f32to64_decode x).2 (by push Not; exact h)
  obtain ⟨f, h1, h2⟩ := newFromFloat64_spec (x := f32to64 x) (by rw [hw]; exact h)
  rw [hw] at h2
  obtain ⟨y, nan, hwf, hdec, hr⟩ := float32_spec f
  rw [h2] at hdec
  obtain ⟨h3, h4⟩ := toF32_exact (F := single) (by decide) (by decide) (by decide) (by decide) hwf hdec h
  have h5 : f.float32 = .ok (x, .exact) := by
    rw [hr, ← h4, ← decode_inj32 h3 (by rw [h3]; exact h)]
  refine ⟨f, ?_, h2, h5⟩
  unfold newFromFloat32
  rw [h1]
  simp only [bind, Except.bind, pure, Except.pure, h5, if_true]

end GoFloat.Binary128
