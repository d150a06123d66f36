import Verif.Proofs.Fields
import Verif.Model.Binary16
import Verif.Proofs.ToFloat
/-
What the functions of package binary16 compute.
-/
namespace GoFloat.Binary16
open Spec

theorem signbit_eq (f : Float) : f.signbit = decide (f.bits.toNat / 2 ^ 15 % 2 = 1) := bv_bit f.bits 15 (by norm_num)

theorem exp_eq (f : Float) : f.exp = (f.bits.toNat / 2 ^ 10 % 2 ^ 5 : ℕ) := by
  unfold Float.exp
  rw [BitVec.toNat_ushiftRight, BitVec.toNat_and]
  congr 1
  exact nat_field _ 10 5 rfl

theorem frac_eq (f : Float) : f.frac.toNat = f.bits.toNat % 2 ^ 10 := by
  unfold Float.frac
  rw [BitVec.toNat_and]
  exact Nat.and_two_pow_sub_one_eq_mod _ 10

/-- The variable prepared by `Big` before the case distinction. -/
def big0 : BigFloat := { BigFloat.new with prec := 11 }

theorem big_eq (f : Float) : f.big =
    if f.exp = 0x1F ∧ f.frac = 0 then .ok (big0.setInf f.signbit, false)
    else if f.exp = 0x1F then .ok (if f.signbit then big0.negSelf else big0, true)
    else if f.exp = 0 ∧ f.frac = 0 then .ok (if f.signbit then big0.negSelf else big0, false)
    else match big0.parse (bigText f.signbit (if f.exp = 0 then 0 else 1) f.frac (if f.exp = 0 then -14 else f.exp - bias)) with
      | some x => .ok (x, false)
      | none => .error .parse := by
  unfold Float.big
  rw [newFloat_zero]
  have h0 : BigFloat.setMode (BigFloat.setPrec { BigFloat.new with prec := 53 } precision) .toNearestEven = big0 := by rfl
  simp only [bind, Except.bind, pure, Except.pure, throw, throwThe, MonadExceptOf.throw, h0]
  split
  · rfl
  · split
    · rfl
    · split
      · rfl
      · rfl

theorem big_spec (f : Float) : ∃ x nan, f.big = .ok (x, nan) ∧ x.prec = 11 ∧ x.mode = .toNearestEven ∧
    x.acc = .exact ∧ x.WF ∧ Decoded (half.decode f.bits.toNat) x nan := by
  rw [big_eq, signbit_eq, exp_eq]
  have hfr : f.frac = 0 ↔ f.bits.toNat % 2 ^ 10 = 0 := by rw [← frac_eq, ← BitVec.toNat_inj]; rfl
  simp only [hfr]
  have hd : half.decode f.bits.toNat = (
      let s := decide (f.bits.toNat / 2 ^ 15 % 2 = 1)
      if f.bits.toNat / 2 ^ 10 % 2 ^ 5 = 31 then (if f.bits.toNat % 2 ^ 10 = 0 then .inf s else .nan s)
      else if f.bits.toNat / 2 ^ 10 % 2 ^ 5 = 0 then .num s ((2 : ℚ) ^ (1 - half.bias) * ((f.bits.toNat % 2 ^ 10 : ℕ) / 2 ^ 10))
      else .num s ((2 : ℚ) ^ (((f.bits.toNat / 2 ^ 10 % 2 ^ 5 : ℕ) : ℤ) - half.bias) * (1 + (f.bits.toNat % 2 ^ 10 : ℕ) / 2 ^ 10))) := rfl
  rw [hd]
  have hElt : f.bits.toNat / 2 ^ 10 % 2 ^ 5 < 32 := Nat.mod_lt _ (by norm_num)
  have hTlt : f.bits.toNat % 2 ^ 10 < 2 ^ 10 := Nat.mod_lt _ (by norm_num)
  have hfv := frac_eq f
  set s := decide (f.bits.toNat / 2 ^ 15 % 2 = 1)
  set E := f.bits.toNat / 2 ^ 10 % 2 ^ 5
  set T := f.bits.toNat % 2 ^ 10
  have hb : half.bias = 15 := by rfl
  have wf0 : ∀ s, ({ big0 with neg := s } : BigFloat).WF := by
    intro s
    refine ⟨by simp [big0, BigFloat.MaxPrec], ?_, ?_, ?_, ?_, ?_⟩ <;> (intro h; simp [big0, BigFloat.new] at h)
  have wfi : ∀ s, (big0.setInf s).WF := by
    intro s
    refine ⟨by simp [big0, BigFloat.setInf, BigFloat.MaxPrec], ?_, ?_, ?_, ?_, ?_⟩ <;>
      (intro h; simp [BigFloat.setInf] at h)
  have hsz : (if s then big0.negSelf else big0) = { big0 with neg := s } := by cases s <;> rfl
  rw [hsz]
  by_cases h1 : E = 31
  · have h1' : (E : ℤ) = 0x1F := by omega
    by_cases h2 : T = 0
    · rw [if_pos ⟨h1', h2⟩]
      refine ⟨_, _, rfl, rfl, rfl, rfl, wfi s, ?_⟩
      simp only [h1, h2, if_true, Decoded]; exact ⟨trivial, rfl⟩
    · rw [if_neg (by tauto), if_pos h1']
      refine ⟨_, _, rfl, rfl, rfl, rfl, wf0 s, ?_⟩
      simp only [h1, h2, if_true, if_false, Decoded]; exact ⟨trivial, rfl⟩
  · have h1' : ¬ (E : ℤ) = 0x1F := by omega
    rw [if_neg (by tauto), if_neg h1']
    by_cases h2 : E = 0 ∧ T = 0
    · have h2' : (E : ℤ) = 0 ∧ T = 0 := ⟨by omega, h2.2⟩
      rw [if_pos h2']
      refine ⟨_, _, rfl, rfl, rfl, rfl, wf0 s, ?_⟩
      simp [h2, Decoded, BigFloat.datum, big0, BigFloat.new]
    · rw [if_neg (by omega)]
      obtain ⟨fs, hf1, hf2, hf3, hf4⟩ := fmtBinPad_digits (w := 10) (n := f.frac.toNat) (by norm_num) (by rw [hfv]; exact hTlt)
      obtain ⟨y, hy, hyp, hym, hya, hyw, hyd⟩ := parse_text (x0 := big0) (neg := s)
        (lead := if (E : ℤ) = 0 then 0 else 1) (by split <;> norm_num) hf3
        (e := if (E : ℤ) = 0 then -14 else (E : ℤ) - bias) (by rw [hf2]; rfl) (by omega)
        (by unfold bias; split <;> omega) (by unfold bias; split <;> omega)
      have ht : bigText s (if (E : ℤ) = 0 then 0 else 1) f.frac (if (E : ℤ) = 0 then -14 else (E : ℤ) - bias) =
        (if s then ['-'] else ['+']) ++ ['0', 'b'] ++ fmtNat 10 (if (E : ℤ) = 0 then 0 else 1) ++ ['.'] ++ fs.map digitChar
          ++ ['p'] ++ fmtInt (if (E : ℤ) = 0 then -14 else (E : ℤ) - bias) := by
        unfold bigText; rw [hf1]
      rw [ht, hy]
      refine ⟨_, _, rfl, hyp, hym, hya, hyw, ?_⟩
      rw [hf4, hf2, hfv] at hyd
      by_cases hE : E = 0
      · have hE' : (E : ℤ) = 0 := by omega
        rw [if_neg h1, if_pos hE]
        refine ⟨rfl, ?_⟩
        rw [hyd, if_pos hE', if_pos hE', hb]
        congr 1
        push_cast
        norm_num
        ring
      · have hE' : ¬ (E : ℤ) = 0 := by omega
        rw [if_neg h1, if_neg hE]
        refine ⟨rfl, ?_⟩
        rw [hyd, if_neg hE', if_neg hE', hb]
        clear_value E T s
        congr 1
        simp only [bias]
        rw [zpow_sub₀ (by norm_num) _ ((10 : ℕ) : ℤ), zpow_natCast]
        push_cast
        field_simp
        norm_num

/-- The finite case of `NewFromBig`, with the panics and special cases resolved. -/
theorem newFromBig_finite {x : BigFloat} (hx : x.WF) (hf : x.form = .finite) :
    ∃ b acc, newFromBig x = .ok (⟨b⟩, acc) ∧
      (-10 < x.exp + 14 → x.exp + 14 ≤ 0 →
        ((b.toNat : ℤ) = (half.signPart x.neg : ℤ) + ⌊x.mag * 2 ^ (24 : ℤ)⌋ ∧ acc = .exact)) ∧
      (x.exp + 14 ≤ -10 →
        ((b.toNat : ℤ) = (half.signPart x.neg : ℤ) + ⌊x.mag * 2 ^ (20 - x.exp)⌋ % 2048 ∧ acc = .below)) ∧
      (1 ≤ x.exp + 14 →
        ((b.toNat : ℤ) = (half.signPart x.neg : ℤ) + (x.exp + 14) % 32 * 1024 + (⌊x.mag * 2 ^ (11 - x.exp)⌋ - 1024) ∧
          acc = if (⌊x.mag * 2 ^ (11 - x.exp)⌋ : ℚ) = x.mag * 2 ^ (11 - x.exp) then
            (if 32 ≤ x.exp + 14 then .above else .exact) else .below)) := by
  have hm := hx.mant_pos hf
  have hge := hx.exp_ge hf
  have hle := hx.exp_le hf
  simp only [BigFloat.MinExp, BigFloat.MaxExp] at hge hle
  have hinf : x.isInf = false := by unfold BigFloat.isInf; rw [hf]; rfl
  have hcmp := BigFloat.cmp_zero_finite hf (z := { BigFloat.new with prec := 53 }) rfl
  have hme : x.mantExp.1 = x.exp := by unfold BigFloat.mantExp; rw [if_pos hf]
  have hsg : (if x.signbit then (0x8000 : BitVec 16) else 0).toNat = half.signPart x.neg := by
    unfold BigFloat.signbit; cases x.neg <;> rfl
  unfold newFromBig
  rw [newFloat_zero]
  simp only [bind, Except.bind, pure, Except.pure, hinf, hcmp, hme, Bool.false_eq_true, if_false]
  have hE : x.exp - 1 + bias = x.exp + 14 := by unfold bias; ring
  simp only [hE, precision]
  have hs15 : half.signPart x.neg = (if x.neg then 1 else 0) * 2 ^ 15 := by cases x.neg <;> rfl
  by_cases hden : x.exp + 14 ≤ 0
  · rw [if_pos hden]
    have hk : ∃ k acc, (if x.exp + 14 ≤ -(((11 : ℕ) : ℤ) - 1) then (((11 : ℕ) : ℤ) - 1, Accuracy.below)
        else (x.exp + 14, Accuracy.exact)) = (k, acc) ∧
        (-10 < x.exp + 14 → k = x.exp + 14 ∧ acc = .exact) ∧ (x.exp + 14 ≤ -10 → k = 10 ∧ acc = .below) := by
      by_cases h : x.exp + 14 ≤ -(((11 : ℕ) : ℤ) - 1)
      · rw [if_pos h]; exact ⟨_, _, rfl, by omega, fun _ => ⟨rfl, rfl⟩⟩
      · rw [if_neg h]; exact ⟨_, _, rfl, fun _ => ⟨rfl, rfl⟩, by omega⟩
    obtain ⟨k, acc, hk, hk1, hk2⟩ := hk
    simp only [hk]
    have hkr : -10 < k ∧ k ≤ 10 := by
      by_cases h : x.exp + 14 ≤ -10
      · have := hk2 h; omega
      · have := hk1 (by omega); omega
    obtain ⟨a, ha, haf, han, hae, haw, hamag⟩ := BigFloat.mant_scale_abs hx hf (k := k + ((11 : ℕ) : ℤ) - 1)
      (by simp only [BigFloat.MinExp]; omega) (by simp only [BigFloat.MaxExp]; omega)
    rw [ha]
    have hu := BigFloat.uint64_eq haf han (by omega) (haw.mant_pos haf)
    rw [hamag] at hu
    refine ⟨_, _, rfl, ?_⟩
    have hM : (a.uint64.1 &&& 2047).toNat = a.uint64.1.toNat % 2048 := by
      rw [BitVec.toNat_and]; exact Nat.and_two_pow_sub_one_eq_mod _ 11
    have hb : ((if x.signbit = true then (0x8000 : BitVec 16) else 0) ||| BitVec.setWidth 16 (a.uint64.1 &&& 2047)).toNat
        = half.signPart x.neg + a.uint64.1.toNat % 2048 := by
      rw [BitVec.toNat_or, hsg, BitVec.toNat_setWidth, hM, hs15, Nat.mod_eq_of_lt (by omega), nat_or_field (by omega)]
    rw [hb]
    refine ⟨fun h _ => ⟨?_, (hk1 h).2⟩, fun h => ⟨?_, (hk2 h).2⟩, fun h => by omega⟩
    · have h1 := (hk1 h).1
      rw [show k + ((11 : ℕ) : ℤ) - 1 - x.exp = 24 by omega] at hu
      rw [Nat.cast_add, Int.natCast_emod, hu, Int.emod_eq_of_lt (by rw [← hu]; exact Int.natCast_nonneg _)]
      · rw [Int.floor_lt]
        have h3 := BigFloat.mag_lt x
        have h4 : (2 : ℚ) ^ x.exp ≤ 2 ^ (-14 : ℤ) := zpow_le_zpow_right₀ (by norm_num) (by omega)
        norm_num at h4 ⊢
        linarith
    · have h1 := (hk2 h).1
      rw [show k + ((11 : ℕ) : ℤ) - 1 - x.exp = 20 - x.exp by omega] at hu
      rw [Nat.cast_add, Int.natCast_emod, hu]; rfl
  · rw [if_neg hden]
    obtain ⟨a, ha, haf, han, hae, haw, hamag⟩ := BigFloat.mant_abs_scale hx hf (k := ((11 : ℕ) : ℤ))
      (by simp only [BigFloat.MinExp]; omega) (by simp only [BigFloat.MaxExp]; omega)
    rw [ha]
    have hu := BigFloat.uint64_eq haf han (by omega) (haw.mant_pos haf)
    have hint := BigFloat.isInt_eq haw haf
    have hfl := BigFloat.floor_scaled hm (p := 11) (by norm_num)
    rw [hamag] at hu hint
    rw [← hu] at hfl
    set M := a.uint64.1 with hMdef
    have hM1 : 1024 ≤ M.toNat := by have := hfl.1; norm_num at this; exact_mod_cast this
    have hM2 : M.toNat < 2048 := by have := hfl.2; norm_num at this; exact_mod_cast this
    have hc : (M &&& ~~~1024).toNat = M.toNat - 1024 := by
      rw [BitVec.toNat_and]
      have := nat_clear_top (r := M.toNat - 1024) (i := 10) (k := 64) (by omega) (by norm_num)
      rw [show 2 ^ 10 + (M.toNat - 1024) = M.toNat by omega] at this
      exact this
    have hc2 : M &&& ~~~1024 &&& 2047 = M &&& ~~~1024 := by
      rw [← BitVec.toNat_inj, BitVec.toNat_and, hc]
      change _ &&& (2 ^ 11 - 1) = _
      rw [Nat.and_two_pow_sub_one_eq_mod, Nat.mod_eq_of_lt (by omega)]
    have hc3 : M &&& ~~~1024 &&& ~~~2047 = 0 := by
      rw [← BitVec.toNat_inj, BitVec.toNat_and, hc]
      change _ &&& (2 ^ 64 - 2 ^ 11) = 0
      rw [nat_and_high (by omega) (by norm_num), Nat.div_eq_of_lt (by omega), Nat.zero_mul]
    have hov := ofInt_andNot_ne_zero (e := x.exp + 14) (by omega) (by omega) 5 (by norm_num) (m := ~~~31) rfl
    have hfe := ofInt_and_toNat (e := x.exp + 14) (by omega) (by omega) 5 (m := 31) rfl
    rw [hint, hc2, hc3, hov]
    refine ⟨_, _, rfl, fun h _ => by omega, fun h => by omega, fun h => ⟨?_, ?_⟩⟩
    · have hEl : (BitVec.ofInt 64 (x.exp + 14) &&& 31).toNat < 32 := by
        have : ((BitVec.ofInt 64 (x.exp + 14) &&& 31).toNat : ℤ) < 32 := by rw [hfe]; exact Int.emod_lt_of_pos _ (by norm_num)
        exact_mod_cast this
      have hb : ((if x.signbit = true then (0x8000 : BitVec 16) else 0) |||
            BitVec.setWidth 16 (BitVec.ofInt 64 (x.exp + 14) &&& 31) <<< 10 ||| BitVec.setWidth 16 (M &&& ~~~1024)).toNat
          = half.signPart x.neg + (BitVec.ofInt 64 (x.exp + 14) &&& 31).toNat * 1024 + (M.toNat - 1024) := by
        rw [BitVec.toNat_or, BitVec.toNat_or, hsg, BitVec.toNat_setWidth, hc, hs15, BitVec.toNat_shiftLeft,
          BitVec.toNat_setWidth, Nat.shiftLeft_eq]
        generalize (BitVec.ofInt 64 (x.exp + 14) &&& 31).toNat = e at hEl
        rw [Nat.mod_eq_of_lt (a := e) (by omega), Nat.mod_eq_of_lt (by omega), Nat.mod_eq_of_lt (by omega),
          nat_or_field (by omega)]
        have : ∀ s : ℕ, s * 2 ^ 15 + e * 2 ^ 10 = (s * 2 ^ 5 + e) * 2 ^ 10 := by intro s; ring
        rw [this, nat_or_field (by omega)]
        ring
      rw [hb]
      rw [Nat.cast_add, Nat.cast_add, Nat.cast_mul, Nat.cast_sub hM1, hfe, hu]; rfl
    · simp only [ne_eq, not_true_eq_false, and_false, if_false, decide_eq_true_eq, Bool.not_eq_true', decide_eq_false_iff_not]
      push_cast
      by_cases h' : (⌊x.mag * 2 ^ ((11 : ℤ) - x.exp)⌋ : ℚ) = x.mag * 2 ^ ((11 : ℤ) - x.exp)
      · rw [if_neg (by simpa using h'), if_pos h']
      · rw [if_pos h', if_neg h']

theorem half_facts : half.qmin = -24 ∧ half.bias = 15 ∧ half.infCode = 31744 ∧ half.t = 10 ∧ half.w = 5 := by decide

/-- Inside the range `NewFromBig` truncates. -/
theorem newFromBig_range {x : BigFloat} (hx : x.WF) (hf : x.form = .finite) (h1 : -24 < x.exp) (h2 : x.exp ≤ 16) :
    ∃ b acc n, newFromBig x = .ok (⟨b⟩, acc) ∧ b.toNat = half.signPart x.neg + n ∧ n < half.infCode ∧
      half.magc n ≤ x.mag ∧ x.mag < half.magc (n + 1) ∧
      (x.exp ≤ -14 → acc = .exact) ∧ (-14 < x.exp → acc = if half.magc n = x.mag then .exact else .below) := by
  obtain ⟨f1, f2, f3, f4, f5⟩ := half_facts
  have hm := hx.mant_pos hf
  obtain ⟨b, acc, hr, hd, -, hn⟩ := newFromBig_finite hx hf
  obtain ⟨n, hn1, hn2, hn3, hn4⟩ := truncCode_spec half (by decide) hm (by rw [f2]; omega)
  refine ⟨b, acc, n, hr, ?_, hn2, hn3, hn4, ?_, ?_⟩
  · by_cases h : x.exp ≤ -14
    · have h3 := (hd (by omega) (by omega)).1
      unfold truncCode at hn1
      rw [if_pos (by rw [f2]; omega), f1] at hn1
      rw [show (24 : ℤ) = -(-24) by norm_num, hn1] at h3
      exact_mod_cast h3
    · have h3 := (hn (by omega)).1
      unfold truncCode at hn1
      rw [if_neg (by rw [f2]; omega), f2, f4, show (((10 : ℕ) : ℤ) + 1 - x.exp) = 11 - x.exp by norm_num,
        show (2 : ℤ) ^ 10 = 1024 by norm_num] at hn1
      rw [Int.emod_eq_of_lt (by omega) (by omega)] at h3
      have : (b.toNat : ℤ) = ((half.signPart x.neg + n : ℕ) : ℤ) := by rw [h3, Nat.cast_add, ← hn1]; ring
      exact_mod_cast this
  · intro h; exact (hd (by omega) (by omega)).2
  · intro h
    have h3 := (hn (by omega)).2
    have h4 := floor_iff_magc half hm (by rw [f2]; omega) hn1
    rw [f4, show (((10 : ℕ) : ℤ) + 1 - x.exp) = 11 - x.exp by norm_num] at h4
    have h6 : ¬ (32 ≤ x.exp + 14) := by omega
    rw [if_neg h6] at h3
    rw [h3]
    by_cases h5 : half.magc n = x.mag
    · rw [if_pos (h4.2 h5), if_pos h5]
    · rw [if_neg (fun h => h5 (h4.1 h)), if_neg h5]

/-- A half is kept. -/
theorem newFromBig_of_magc {x : BigFloat} (hx : x.WF) (hf : x.form = .finite) {n : ℕ} (hn : n < half.infCode)
    (h : x.mag = half.magc n) : newFromBig x = .ok (⟨BitVec.ofNat 16 (half.signPart x.neg + n)⟩, .exact) := by
  obtain ⟨f1, f2, f3, f4, f5⟩ := half_facts
  have hm := hx.mant_pos hf
  obtain ⟨-, h2, h3⟩ := truncCode_exact half (by decide) hm hn h
  rw [f1] at h2; rw [f2] at h3
  obtain ⟨b, acc, n', hr, hb, hn1, hn2, hn3, ha1, ha2⟩ := newFromBig_range hx hf h2 (by omega)
  rw [h] at hn2 hn3
  have hnn : n' = n := by
    have h5 : n' ≤ n := half.magc_strictMono.le_iff_le.1 hn2
    have h6 : n < n' + 1 := half.magc_strictMono.lt_iff_lt.1 hn3
    omega
  subst hnn
  have hacc : acc = .exact := by
    by_cases h7 : x.exp ≤ -14
    · exact ha1 h7
    · rw [ha2 (by omega), if_pos h.symm]
  rw [hr, hacc, ← hb, BitVec.ofNat_toNat, BitVec.setWidth_eq]

theorem newFromBig_inf {x : BigFloat} (hf : x.form = .inf) :
    newFromBig x = .ok (if x.neg then NegInf else Inf, .exact) := by
  unfold newFromBig
  rw [newFloat_zero]
  have : x.isInf = true := by unfold BigFloat.isInf; rw [hf]; rfl
  simp only [bind, Except.bind, pure, Except.pure, this, if_true]; rfl

theorem newFromBig_zero {x : BigFloat} (hf : x.form = .zero) :
    newFromBig x = .ok (if x.neg then NegZero else Zero, .exact) := by
  unfold newFromBig
  rw [newFloat_zero]
  have h1 : x.isInf = false := by unfold BigFloat.isInf; rw [hf]; rfl
  have h2 := BigFloat.cmp_zero_zero hf (z := { BigFloat.new with prec := 53 }) rfl
  simp only [bind, Except.bind, pure, Except.pure, h1, h2, if_true]; rfl

theorem code_lt (s : Bool) {n : ℕ} (h : n ≤ half.infCode) : half.signPart s + n < 2 ^ 16 := by
  have f3 := half_facts.2.2.1
  have : half.signPart s ≤ 2 ^ 15 := by cases s <;> decide
  omega

/-- `NewFromBig` of a variable that holds a half. -/
theorem newFromBig_of_decode {x : BigFloat} (hx : x.WF) {f : Float} (hd : x.datum = half.decode f.bits.toNat) :
    newFromBig x = .ok (f, .exact) := by
  have f3 := half_facts.2.2.1
  have hlt := f.bits.isLt
  have hw : half.t + half.w = 15 := rfl
  have hs : half.signPart (decide (f.bits.toNat / 2 ^ 15 % 2 = 1)) + f.bits.toNat % 2 ^ 15 = f.bits.toNat := by
    by_cases h : f.bits.toNat / 2 ^ 15 % 2 = 1
    · rw [decide_eq_true h, show half.signPart true = 2 ^ 15 from rfl]; omega
    · rw [decide_eq_false h, show half.signPart false = 0 from rfl]; omega
  rcases decode_cases half f.bits.toNat with ⟨s, h⟩ | ⟨h, hc⟩ | ⟨h, hc⟩
  · rw [h] at hd
    cases hf : x.form <;> simp [BigFloat.datum, hf] at hd
  · rw [h] at hd
    rw [hw] at hd hc
    rw [hc] at hs
    cases hf : x.form with
    | zero => simp [BigFloat.datum, hf] at hd
    | finite => simp [BigFloat.datum, hf] at hd
    | inf =>
      simp only [BigFloat.datum, hf, Datum.inf.injEq] at hd
      rw [newFromBig_inf hf, hd]
      congr 2
      rcases f with ⟨b⟩
      by_cases hb : b.toNat / 2 ^ 15 % 2 = 1
      · rw [if_pos (by simpa using hb)]; simp only at hs; rw [decide_eq_true hb] at hs
        simp only [NegInf, Float.mk.injEq]; rw [← BitVec.toNat_inj, ← hs]; decide
      · rw [if_neg (by simpa using hb)]; simp only at hs; rw [decide_eq_false hb] at hs
        simp only [Inf, Float.mk.injEq]; rw [← BitVec.toNat_inj, ← hs]; decide
  · rw [h] at hd
    rw [hw] at hd hc
    cases hf : x.form with
    | zero =>
      simp only [BigFloat.datum, hf, Datum.num.injEq] at hd
      have h0 := (magc_eq_zero half).1 hd.2.symm
      rw [h0] at hs
      rw [newFromBig_zero hf, hd.1]
      congr 2
      rcases f with ⟨b⟩
      by_cases hb : b.toNat / 2 ^ 15 % 2 = 1
      · rw [if_pos (by simpa using hb)]; simp only at hs; rw [decide_eq_true hb] at hs
        simp only [NegZero, Float.mk.injEq]; rw [← BitVec.toNat_inj, ← hs]; decide
      · rw [if_neg (by simpa using hb)]; simp only at hs; rw [decide_eq_false hb] at hs
        simp only [Zero, Float.mk.injEq]; rw [← BitVec.toNat_inj, ← hs]; decide
    | finite =>
      rw [BigFloat.datum_finite hf, Datum.num.injEq] at hd
      rw [newFromBig_of_magc hx hf hc hd.2, hd.1, hs, BitVec.ofNat_toNat, BitVec.setWidth_eq]
    | inf => simp [BigFloat.datum, hf] at hd

theorem newFromFloat64_nan {x : F64} (h : F64.isNaN x = true) :
    newFromFloat64 x = .ok (if (double.decode x.toNat).sign then NegNaN else NaN, .exact) := by
  unfold newFromFloat64
  rw [if_pos h, signbit64_eq]; rfl

/-- `NewFromFloat64` rounds to 11 bits and calls `NewFromBig`. -/
theorem newFromFloat64_eq {x : F64} (h : F64.isNaN x = false) :
    ∃ y : BigFloat, y.WF ∧ y.datum = double.decode x.toNat ∧ y.prec = 53 ∧ y.mode = .toNearestEven ∧
      newFromFloat64 x = newFromBig ((y.setPrec 11).setMode .toNearestEven) := by
  obtain ⟨y, hy, hd, hwf, hp, hmo, -⟩ := newFloat_spec x h
  refine ⟨y, hwf, hd, hp, hmo, ?_⟩
  unfold newFromFloat64
  rw [if_neg (by rw [h]; simp), hy]; rfl

/-- A non-zero number is rounded to nearest even with 11 bits, and then handed to `NewFromBig`. -/
theorem newFromFloat64_num {x : F64} {s : Bool} {m : ℚ} (hd : double.decode x.toNat = .num s m) (hm : m ≠ 0) :
    ∃ y z : BigFloat, newFromFloat64 x = newFromBig z ∧ y.WF ∧ y.form = .finite ∧ y.neg = s ∧ y.mag = m ∧
      -1074 < y.exp ∧ y.exp ≤ 1024 ∧
      z.WF ∧ z.form = .finite ∧ z.neg = s ∧ z.mag = (rhe (y.mag / 2 ^ (y.exp - 11)) : ℤ) * (2 : ℚ) ^ (y.exp - 11) ∧
      (z.exp = y.exp ∨ z.exp = y.exp + 1 ∧ z.mag = 2 ^ y.exp) := by
  have hnn : F64.isNaN x = false := by
    rw [Bool.eq_false_iff, Ne, isNaN64_iff, hd]; simp
  obtain ⟨y, hwf, hyd, hp, hmo, he⟩ := newFromFloat64_eq hnn
  rw [hd] at hyd
  obtain ⟨hneg, -, hfin⟩ := BigFloat.datum_inj_form hwf hyd
  obtain ⟨hf, hmag⟩ := hfin hm
  have hexp := exp_double hwf hf (c := x.toNat) (by rw [hd, hyd])
  obtain ⟨z1, z2, z3, z4, z5, z6, -, z7⟩ := BigFloat.setPrec_spec hwf hf hmo (p := 11) (by norm_num) (by omega)
    (by unfold BigFloat.MaxExp; omega)
  refine ⟨y, (y.setPrec 11).setMode .toNearestEven, he, hwf, hf, hneg, hmag, hexp.1, hexp.2, ?_, z1, by rw [← hneg, ← z3]; rfl,
    z6, z7⟩
  exact ⟨z2.prec_le, z2.mant_pos, z2.exp_ge, z2.exp_le, z2.prec_pos, z2.fits⟩

theorem newFromFloat64_zero {x : F64} {s : Bool} (hd : double.decode x.toNat = .num s 0) :
    newFromFloat64 x = .ok (if s then NegZero else Zero, .exact) := by
  have hnn : F64.isNaN x = false := by
    rw [Bool.eq_false_iff, Ne, isNaN64_iff, hd]; simp
  obtain ⟨y, hwf, hyd, hp, hmo, he⟩ := newFromFloat64_eq hnn
  rw [hd] at hyd
  obtain ⟨hneg, hfin, -⟩ := BigFloat.datum_inj_form hwf hyd
  have hf := hfin rfl
  obtain ⟨h1, h2⟩ := BigFloat.setPrec_special (y := y) (by rw [hf]; simp) (p := 11) (by norm_num)
  rw [he, newFromBig_zero (by rw [← hf, ← h1]; rfl), ← hneg, ← h2]; rfl

theorem newFromFloat64_inf {x : F64} {s : Bool} (hd : double.decode x.toNat = .inf s) :
    newFromFloat64 x = .ok (if s then NegInf else Inf, .exact) := by
  have hnn : F64.isNaN x = false := by
    rw [Bool.eq_false_iff, Ne, isNaN64_iff, hd]; simp
  obtain ⟨y, hwf, hyd, hp, hmo, he⟩ := newFromFloat64_eq hnn
  rw [hd] at hyd
  obtain ⟨hneg, hf⟩ := BigFloat.datum_inf hyd
  obtain ⟨h1, h2⟩ := BigFloat.setPrec_special (y := y) (by rw [hf]; simp) (p := 11) (by norm_num)
  rw [he, newFromBig_inf (by rw [← hf, ← h1]; rfl), ← hneg, ← h2]; rfl

/-- `NewFromFloat64` of a double that holds a half. -/
theorem newFromFloat64_of_decode {x : F64} {f : Float} (hnan : ¬ ∃ s, half.decode f.bits.toNat = .nan s)
    (hd : double.decode x.toNat = half.decode f.bits.toNat) : newFromFloat64 x = .ok (f, .exact) := by
  have hnn : F64.isNaN x = false := by
    rw [Bool.eq_false_iff, Ne, isNaN64_iff, hd]; exact hnan
  obtain ⟨y, hwf, hyd, hp, hmo, he⟩ := newFromFloat64_eq hnn
  rw [hd] at hyd
  rw [he]
  by_cases hf : y.form = .finite
  · -- a half has at most 11 bits
    have hexp := exp_double hwf hf (c := x.toNat) (by rw [hyd, hd])
    obtain ⟨z1, z2, z3, z4, z5, z6, -, z7⟩ := BigFloat.setPrec_spec hwf hf hmo (p := 11) (by norm_num) (by omega)
      (by unfold BigFloat.MaxExp; omega)
    refine newFromBig_of_decode (x := (y.setPrec 11).setMode .toNearestEven)
      ⟨z2.prec_le, z2.mant_pos, z2.exp_ge, z2.exp_le, z2.prec_pos, z2.fits⟩ ?_
    rw [← hyd, BigFloat.datum_finite hf, BigFloat.datum_finite (by exact z1)]
    have hkeep : (y.setPrec 11).mag = y.mag := by
      rw [z6]
      rw [BigFloat.datum_finite hf] at hyd
      obtain ⟨n, hn, hr, -, -⟩ := half.code_of_decode hyd.symm
      obtain ⟨k, N, h1, h2, h3⟩ := half.code_split n
      have hmg := half.magc_eq h2.le h3
      rw [← h1, ← hr] at hmg
      -- the quantum divides
      have hm := hwf.mant_pos hf
      have hge := BigFloat.le_mag hm
      have hle : y.exp - 11 ≤ half.qmin + k := by
        have h5 : y.mag < 2 ^ (11 + (half.qmin + k)) := by
          rw [zpow_add₀ (by norm_num), hmg]
          have : (N : ℚ) < 2 ^ (11 : ℤ) := by exact_mod_cast h2
          exact mul_lt_mul_of_pos_right this (by positivity)
        have := BigFloat.exp_lt_of_mag hm h5
        omega
      obtain ⟨d, hd'⟩ : ∃ d : ℕ, half.qmin + (k : ℤ) = (y.exp - 11) + d := ⟨(half.qmin + k - (y.exp - 11)).toNat, by omega⟩
      have hint : y.mag / 2 ^ (y.exp - 11) = ((N * 2 ^ d : ℕ) : ℚ) := by
        rw [hmg, hd', zpow_add₀ (by norm_num), zpow_natCast]
        push_cast
        field_simp
      rw [show (y.exp - ((11 : ℕ) : ℤ)) = y.exp - 11 from rfl, hint, rhe_natCast]
      rw [div_eq_iff (by positivity)] at hint
      rw [hint]; push_cast; rfl
    show Datum.num (y.setPrec 11).neg (y.setPrec 11).mag = _
    rw [z3, hkeep]
  · obtain ⟨h1, h2⟩ := BigFloat.setPrec_special hf (p := 11) (by norm_num)
    cases hf' : y.form with
    | finite => exact absurd hf' hf
    | zero =>
      refine newFromBig_of_decode (x := (y.setPrec 11).setMode .toNearestEven) ?_ ?_
      · have h3 : ((y.setPrec 11).setMode .toNearestEven).form = .zero := by rw [← hf', ← h1]; rfl
        refine ⟨?_, ?_, ?_, ?_, ?_, ?_⟩
        · have := hwf.prec_le
          unfold BigFloat.setMode BigFloat.setPrec BigFloat.round
          simp [hf', hp, BigFloat.MaxPrec]
        all_goals (intro h; rw [h3] at h; simp at h)
      · rw [← hyd]; unfold BigFloat.datum BigFloat.setMode; simp only [h1, h2, hf']
    | inf =>
      refine newFromBig_of_decode (x := (y.setPrec 11).setMode .toNearestEven) ?_ ?_
      · have h3 : ((y.setPrec 11).setMode .toNearestEven).form = .inf := by rw [← hf', ← h1]; rfl
        refine ⟨?_, ?_, ?_, ?_, ?_, ?_⟩
        · have := hwf.prec_le
          unfold BigFloat.setMode BigFloat.setPrec BigFloat.round
          simp [hf', hp, BigFloat.MaxPrec]
        all_goals (intro h; rw [h3] at h; simp at h)
      · rw [← hyd]; unfold BigFloat.datum BigFloat.setMode; simp only [h1, h2, hf']

theorem half_single : 2 ≤ half.w ∧ 2 ≤ single.w ∧ single.w ≤ 30 ∧ half.t ≤ single.t ∧
    single.qmin ≤ half.qmin ∧ half.bias ≤ single.bias := by decide
theorem half_double : 2 ≤ half.w ∧ 2 ≤ double.w ∧ double.w ≤ 30 ∧ half.t ≤ double.t ∧
    double.qmin ≤ half.qmin ∧ half.bias ≤ double.bias := by decide

theorem float64_spec (f : Float) : ∃ x nan, x.WF ∧ Decoded (half.decode f.bits.toNat) x nan ∧ f.float64 = .ok (toF64 x nan) := by
  obtain ⟨x, nan, hb, -, -, -, hwf, hdec⟩ := big_spec f
  refine ⟨x, nan, hwf, hdec, ?_⟩
  unfold Float.float64 toF64
  rw [hb]
  cases nan <;> cases h : x.signbit <;> simp [bind, Except.bind, pure, Except.pure, h]

theorem float32_spec (f : Float) : ∃ x nan, x.WF ∧ Decoded (half.decode f.bits.toNat) x nan ∧ f.float32 = .ok (toF32 x nan) := by
  obtain ⟨x, nan, hb, -, -, -, hwf, hdec⟩ := big_spec f
  refine ⟨x, nan, hwf, hdec, ?_⟩
  unfold Float.float32 toF32
  rw [hb]
  cases nan <;> cases h : x.signbit <;> simp [bind, Except.bind, pure, Except.pure, h]

/-- In the normal range `NewFromFloat64` computes what the correctly rounding conversion computes. -/
theorem newFromFloat64_normal {x : F64} {s : Bool} {m : ℚ} (hd : double.decode x.toNat = .num s m)
    (h1 : (2 : ℚ) ^ (-14 : ℤ) ≤ m) (h2 : m < 2 ^ (16 : ℤ)) :
    ∃ (y : BigFloat) (f : Float), y.WF ∧ y.datum = .num s m ∧ newFromFloat64 x = .ok (f, .exact) ∧
      f.bits.toNat = (y.toIEEE half.t half.w).1 := by
  obtain ⟨f1, f2, f3, f4, f5⟩ := half_facts
  have hm0 : m ≠ 0 := by have : (0 : ℚ) < 2 ^ (-14 : ℤ) := by positivity
                         intro h; linarith
  obtain ⟨y, z, he, hyw, hyf, hyn, hym, hye1, hye2, hzw, hzf, hzn, hzm, hze⟩ := newFromFloat64_num hd hm0
  have hmp := hyw.mant_pos hyf
  have hlo : -14 < y.exp := BigFloat.exp_gt_of_mag (by rw [hym]; exact h1)
  have hhi : y.exp ≤ 16 := BigFloat.exp_lt_of_mag hmp (by rw [hym]; exact h2)
  obtain ⟨n, hn1, hn2, hn3⟩ := rounded_toIEEE half (by decide) (by decide) hyw hyf (by rw [f2]; omega)
  have hzn2 : z.mag = half.magc n := by rw [hzm, ← hn1]; rfl
  have hdat : y.datum = .num s m := by rw [BigFloat.datum_finite hyf, hyn, hym]
  rcases lt_or_ge n half.infCode with hlt | hge
  · refine ⟨y, _, hyw, hdat, by rw [he, newFromBig_of_magc hzw hzf hlt hzn2], ?_⟩
    rw [hn2 hlt, BitVec.toNat_ofNat, Nat.mod_eq_of_lt (code_lt _ hlt.le), hzn, hyn]
  · have h3 := half.magc_strictMono.monotone hge
    rw [magc_infCode half (by decide), f2, ← hzn2] at h3
    have hz16 : 16 < z.exp := BigFloat.exp_gt_of_mag h3
    have hz17 : z.exp = 17 ∧ z.mag = 2 ^ (16 : ℤ) := by
      rcases hze with h | ⟨h, h'⟩
      · omega
      · have : y.exp = 16 := by omega
        rw [this] at h'; exact ⟨by omega, h'⟩
    obtain ⟨b, acc, hr, -, -, hfin⟩ := newFromBig_finite hzw hzf
    obtain ⟨hb, hacc⟩ := hfin (by omega)
    rw [hz17.1, hz17.2] at hb hacc
    have hfl : (2 : ℚ) ^ (16 : ℤ) * 2 ^ ((11 : ℤ) - 17) = ((1024 : ℤ) : ℚ) := by norm_num
    rw [hfl, Int.floor_intCast] at hb hacc
    norm_num at hb hacc
    refine ⟨y, ⟨b⟩, hyw, hdat, by rw [he, hr, hacc], ?_⟩
    rw [hn3 hge, f3]
    rw [hzn] at hb; rw [hyn]
    show b.toNat = _
    have : (b.toNat : ℤ) = ((half.signPart s + 31744 : ℕ) : ℤ) := by rw [hb]; push_cast; ring
    exact_mod_cast this

/-- `NewFromFloat32` returns the number `NewFromFloat64` returns. -/
theorem newFromFloat32_fst {x : F32} {f : Float} {acc : Accuracy} (h : newFromFloat64 (f32to64 x) = .ok (f, acc)) :
    newFromFloat32 x = .ok (f, acc) := by
  obtain ⟨y, nan, hwf, hdec, hr⟩ := float32_spec f
  obtain ⟨-, -, -, a4, a5, a6⟩ := half_single
  have hacc : (toF32 y nan).2 = .exact := by
    by_cases hn : ∀ s, half.decode f.bits.toNat ≠ .nan s
    · exact (toF32_exact (F := half) (by decide) a4 a5 a6 hwf hdec hn).2
    · push Not at hn
      obtain ⟨s, hs⟩ := hn
      rw [(toF32_spec hwf hdec).1 s hs]
  unfold newFromFloat32
  rw [h]
  simp only [bind, Except.bind, pure, Except.pure, hr]
  by_cases ha : acc = .exact
  · rw [if_pos ha, hacc, ha]
  · rw [if_neg ha]

/-- In the subnormal range the result of `NewFromFloat64` is one of the two neighbours. -/
theorem newFromFloat64_subnormal {x : F64} {s : Bool} {m : ℚ} (hd : double.decode x.toNat = .num s m)
    (h1 : (2 : ℚ) ^ (-24 : ℤ) ≤ m) (h2 : m < 2 ^ (-14 : ℤ)) :
    ∃ (f : Float) (acc : Accuracy) (n : ℕ), newFromFloat64 x = .ok (f, acc) ∧ f.bits.toNat = half.signPart s + n ∧
      n ≤ 1024 ∧ |m - n * 2 ^ (-24 : ℤ)| < 2 ^ (-24 : ℤ) := by
  obtain ⟨f1, f2, f3, f4, f5⟩ := half_facts
  have hm0 : m ≠ 0 := by have : (0 : ℚ) < 2 ^ (-24 : ℤ) := by positivity
                         intro h; linarith
  obtain ⟨y, z, he, hyw, hyf, hyn, hym, hye1, hye2, hzw, hzf, hzn, hzm, hze⟩ := newFromFloat64_num hd hm0
  have hmp := hyw.mant_pos hyf
  have hlo : -24 < y.exp := BigFloat.exp_gt_of_mag (by rw [hym]; exact h1)
  have hhi : y.exp ≤ -14 := BigFloat.exp_lt_of_mag hmp (by rw [hym]; exact h2)
  obtain ⟨b, acc, n, hr, hb, hn1, hn2, hn3, -, -⟩ := newFromBig_range hzw hzf (by omega) (by omega)
  -- the grid of subnormals in units of the 11-bit quantum
  obtain ⟨d, hd'⟩ : ∃ d : ℕ, (-24 : ℤ) = (y.exp - 11) + d := ⟨(-24 - (y.exp - 11)).toNat, by omega⟩
  have hq : (0 : ℚ) < 2 ^ (y.exp - 11) := by positivity
  have hg : ∀ k : ℕ, (k : ℚ) * 2 ^ (-24 : ℤ) = ((k * 2 ^ d : ℕ) : ℤ) * (2 : ℚ) ^ (y.exp - 11) := by
    intro k; rw [hd', zpow_add₀ (by norm_num), zpow_natCast]; push_cast; ring
  have mono1 : ∀ k : ℕ, (k : ℚ) * 2 ^ (-24 : ℤ) ≤ m → (k : ℚ) * 2 ^ (-24 : ℤ) ≤ z.mag := by
    intro k hk
    rw [hg] at hk ⊢
    rw [hzm]
    refine mul_le_mul_of_nonneg_right ?_ hq.le
    rw [hym]
    exact_mod_cast le_rhe_of_le (by rw [le_div_iff₀ hq]; exact hk)
  have mono2 : ∀ k : ℕ, m ≤ (k : ℚ) * 2 ^ (-24 : ℤ) → z.mag ≤ (k : ℚ) * 2 ^ (-24 : ℤ) := by
    intro k hk
    rw [hg] at hk ⊢
    rw [hzm]
    refine mul_le_mul_of_nonneg_right ?_ hq.le
    rw [hym]
    exact_mod_cast rhe_le_of_le (by rw [div_le_iff₀ hq]; exact hk)
  have hz1024 : z.mag ≤ (1024 : ℕ) * 2 ^ (-24 : ℤ) := by
    apply mono2
    refine h2.le.trans ?_
    norm_num
  have hn1024 : n ≤ 1024 := by
    by_contra hcon
    have h5 : half.magc 1025 ≤ half.magc n := half.magc_strictMono.monotone (by omega)
    have h6 := half.magc_eq (k := 0) (N := 1025) (by decide) (Or.inl rfl)
    rw [Nat.zero_mul, Nat.zero_add, f1] at h6
    rw [h6] at h5
    have h7 := h5.trans (hn2.trans hz1024)
    norm_num at h7
  have hmn : half.magc n = n * 2 ^ (-24 : ℤ) := by
    have := half.magc_eq (k := 0) (N := n) (by rw [f4]; omega) (Or.inl rfl)
    rw [Nat.zero_mul, Nat.zero_add, f1] at this
    simpa using this
  have hmn1 : half.magc (n + 1) = ((n + 1 : ℕ) : ℚ) * 2 ^ (-24 : ℤ) := by
    have := half.magc_eq (k := 0) (N := n + 1) (by rw [f4]; omega) (Or.inl rfl)
    rw [Nat.zero_mul, Nat.zero_add, f1] at this
    simpa using this
  rw [hmn] at hn2
  rw [hmn1] at hn3
  refine ⟨⟨b⟩, acc, n, by rw [he, hr], by rw [← hzn]; exact hb, hn1024, ?_⟩
  have hup : m < ((n + 1 : ℕ) : ℚ) * 2 ^ (-24 : ℤ) := by
    by_contra hcon
    push Not at hcon
    have := mono1 _ hcon
    linarith
  have hu : (0 : ℚ) < 2 ^ (-24 : ℤ) := by positivity
  rw [abs_lt]
  constructor
  · -- m > (n - 1) u
    by_contra hcon
    push Not at hcon
    have hn0 : 1 ≤ n := by
      rcases Nat.eq_zero_or_pos n with h | h
      · subst h; simp at hcon; linarith
      · exact h
    have h8 : m ≤ ((n - 1 : ℕ) : ℚ) * 2 ^ (-24 : ℤ) := by
      rw [Nat.cast_sub hn0]; push_cast; linarith
    have h9 := mono2 _ h8
    rw [Nat.cast_sub hn0] at h9; push_cast at h9; linarith
  · push_cast at hup; linarith

end GoFloat.Binary16
