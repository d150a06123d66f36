import Verif.Proofs.Fields
import Verif.Proofs.TruncGen
import Verif.Spec.Code80
import Verif.Model.Float80x86
/-
What the functions of package float80x86 compute.
-/
namespace GoFloat.Float80x86
open Spec

theorem signbit_eq (f : Float) : f.signbit = decide (f.se.toNat / 2 ^ 15 % 2 = 1) := bv_bit f.se 15 (by norm_num)

theorem exp_eq (f : Float) : f.exp = (f.se.toNat % 2 ^ 15 : ℕ) := by
  unfold Float.exp
  rw [BitVec.toNat_and]
  congr 1
  exact Nat.and_two_pow_sub_one_eq_mod _ 15

theorem lead_eq (f : Float) : f.lead = f.m.toNat / 2 ^ 63 := by
  unfold Float.lead; rw [BitVec.toNat_ushiftRight, Nat.shiftRight_eq_div_pow]

theorem frac_eq (f : Float) : f.frac.toNat = f.m.toNat % 2 ^ 63 := by
  unfold Float.frac; rw [BitVec.toNat_and]; exact Nat.and_two_pow_sub_one_eq_mod _ 63

/-- The variable prepared by `Big` before the case distinction. -/
def big0 : BigFloat := { BigFloat.new with prec := 64 }

theorem big_eq (f : Float) : f.big =
    if f.exp = 0x7FFF ∧ f.m = 0x8000000000000000 then .ok (big0.setInf f.signbit, false)
    else if f.exp = 0x7FFF then .ok (if f.signbit then big0.negSelf else big0, true)
    else if f.exp = 0 ∧ f.m = 0 then .ok (if f.signbit then big0.negSelf else big0, false)
    else match big0.parse (bigText f.signbit f.lead f.frac (if f.exp = 0 then -16382 else f.exp - bias)) with
      | some x => .ok (x, false)
      | none => .error .parse := by
  unfold Float.big
  rw [newFloat_zero]
  have h0 : BigFloat.setMode (BigFloat.setPrec { BigFloat.new with prec := 53 } precision) .toNearestEven = big0 := by rfl
  simp only [bind, Except.bind, pure, Except.pure, throw, throwThe, MonadExceptOf.throw, h0]
  split
  · rfl
  · split
    · rfl
    · split
      · rfl
      · rfl

theorem big_spec (f : Float) : ∃ x nan, f.big = .ok (x, nan) ∧ x.prec = 64 ∧ x.mode = .toNearestEven ∧
    x.acc = .exact ∧ x.WF ∧ Decoded f.val x nan := by
  rw [big_eq, signbit_eq, exp_eq, lead_eq]
  have hm1 : f.m = 0x8000000000000000 ↔ f.m.toNat = 2 ^ 63 := by rw [← BitVec.toNat_inj]; rfl
  have hm2 : f.m = 0 ↔ f.m.toNat = 0 := by rw [← BitVec.toNat_inj]; rfl
  simp only [hm1, hm2]
  have hd : f.val = (
      let s := decide (f.se.toNat / 2 ^ 15 % 2 = 1)
      if f.se.toNat % 2 ^ 15 = 2 ^ 15 - 1 then (if f.m.toNat = 2 ^ 63 then .inf s else .nan s)
      else .num s (f.m.toNat * (2 : ℚ) ^ ((max (f.se.toNat % 2 ^ 15) 1 : ℕ) - 16383 - 63 : ℤ))) := rfl
  rw [hd]
  have hElt : f.se.toNat % 2 ^ 15 < 2 ^ 15 := Nat.mod_lt _ (by norm_num)
  have hmlt := f.m.isLt
  have hf1 : f.frac.toNat < 2 ^ 63 := by rw [frac_eq]; exact Nat.mod_lt _ (by norm_num)
  have hfv := frac_eq f
  set s := decide (f.se.toNat / 2 ^ 15 % 2 = 1)
  set E := f.se.toNat % 2 ^ 15
  set M := f.m.toNat
  have wf0 : ∀ s, ({ big0 with neg := s } : BigFloat).WF := by
    intro s
    refine ⟨by simp [big0, BigFloat.MaxPrec], ?_, ?_, ?_, ?_, ?_⟩ <;> (intro h; simp [big0, BigFloat.new] at h)
  have wfi : ∀ s, (big0.setInf s).WF := by
    intro s
    refine ⟨by simp [big0, BigFloat.setInf, BigFloat.MaxPrec], ?_, ?_, ?_, ?_, ?_⟩ <;>
      (intro h; simp [BigFloat.setInf] at h)
  have hsz : (if s then big0.negSelf else big0) = { big0 with neg := s } := by cases s <;> rfl
  rw [hsz]
  by_cases h1 : E = 2 ^ 15 - 1
  · have h1' : (E : ℤ) = 0x7FFF := by omega
    by_cases h2 : M = 2 ^ 63
    · rw [if_pos ⟨h1', h2⟩]
      refine ⟨_, _, rfl, rfl, rfl, rfl, wfi s, ?_⟩
      simp only; rw [if_pos h1, if_pos h2]; exact ⟨rfl, rfl⟩
    · rw [if_neg (by tauto), if_pos h1']
      refine ⟨_, _, rfl, rfl, rfl, rfl, wf0 s, ?_⟩
      simp only; rw [if_pos h1, if_neg h2]; exact ⟨rfl, rfl⟩
  · have h1' : ¬ (E : ℤ) = 0x7FFF := by omega
    rw [if_neg (by tauto), if_neg h1']
    by_cases h2 : E = 0 ∧ M = 0
    · have h2' : (E : ℤ) = 0 ∧ M = 0 := ⟨by omega, h2.2⟩
      rw [if_pos h2']
      refine ⟨_, _, rfl, rfl, rfl, rfl, wf0 s, ?_⟩
      simp only
      rw [if_neg h1, h2.2, Nat.cast_zero, zero_mul]
      exact ⟨rfl, rfl⟩
    · rw [if_neg (by omega)]
      obtain ⟨fs, hg1, hg2, hg3, hg4⟩ := fmtBinPad_digits (w := 63) (n := f.frac.toNat) (by norm_num) hf1
      obtain ⟨y, hy, hyp, hym, hya, hyw, hyd⟩ := parse_text (x0 := big0) (neg := s)
        (lead := M / 2 ^ 63) (by omega) hg3
        (e := if (E : ℤ) = 0 then -16382 else (E : ℤ) - bias) (by rw [hg2]; rfl) (by omega)
        (by unfold bias; split <;> omega) (by unfold bias; split <;> omega)
      have ht : bigText s (M / 2 ^ 63) f.frac (if (E : ℤ) = 0 then -16382 else (E : ℤ) - bias) =
        (if s then ['-'] else ['+']) ++ ['0', 'b'] ++ fmtNat 10 (M / 2 ^ 63) ++ ['.'] ++ fs.map digitChar
          ++ ['p'] ++ fmtInt (if (E : ℤ) = 0 then -16382 else (E : ℤ) - bias) := by
        unfold bigText; rw [hg1]
      rw [ht, hy]
      refine ⟨_, _, rfl, hyp, hym, hya, hyw, ?_⟩
      simp only
      rw [if_neg h1]
      refine ⟨rfl, ?_⟩
      rw [hyd, hg4, hg2, hfv, show M / 2 ^ 63 * 2 ^ 63 + M % 2 ^ 63 = M by omega]
      congr 3
      unfold bias
      split <;> omega

theorem code_lt (f : Float) : f.code < 2 ^ 79 := by
  have := f.se.isLt; unfold Float.code; omega

theorem code_inj {f g : Float} (hf : f.Canonical) (hg : g.Canonical) (h : f.code = g.code) : f = g := by
  have h1 := f.se.isLt; have h2 := f.m.isLt; have h3 := g.se.isLt; have h4 := g.m.isLt
  unfold Float.code at h
  unfold Float.Canonical Canonical80 at hf hg
  cases f; cases g
  simp only [Float.mk.injEq, ← BitVec.toNat_inj] at *
  omega

theorem ext_facts : extended.qmin = -16445 ∧ extended.bias = 16383 ∧ extended.t = 63 ∧ extended.w = 15 ∧ 2 ≤ extended.w := by
  refine ⟨by decide +kernel, by decide +kernel, rfl, rfl, by decide⟩

/-- Canonical encodings are those of the format `extended`. -/
theorem val_canonical {f : Float} (h : f.Canonical) : f.val = extended.decode f.code := by
  have h1 := f.se.isLt; have h2 := f.m.isLt
  have hs : f.code / 2 ^ 78 % 2 = f.se.toNat / 2 ^ 15 % 2 := by unfold Float.code; omega
  have hE : f.code / 2 ^ 63 % 2 ^ 15 = f.se.toNat % 2 ^ 15 := by unfold Float.code; omega
  have hT : f.code % 2 ^ 63 = f.m.toNat % 2 ^ 63 := by unfold Float.code; omega
  have hd : extended.decode f.code = (
      let s := decide (f.code / 2 ^ 78 % 2 = 1)
      if f.code / 2 ^ 63 % 2 ^ 15 = 2 ^ 15 - 1 then (if f.code % 2 ^ 63 = 0 then .inf s else .nan s)
      else if f.code / 2 ^ 63 % 2 ^ 15 = 0 then .num s ((2 : ℚ) ^ (1 - extended.bias) * ((f.code % 2 ^ 63 : ℕ) / 2 ^ 63))
      else .num s ((2 : ℚ) ^ (((f.code / 2 ^ 63 % 2 ^ 15 : ℕ) : ℤ) - extended.bias) * (1 + (f.code % 2 ^ 63 : ℕ) / 2 ^ 63))) := rfl
  rw [hd, hs, hE, hT, ext_facts.2.1]
  unfold Float.val decode80
  unfold Float.Canonical Canonical80 at h
  simp only
  generalize f.se.toNat % 2 ^ 15 = E at h
  generalize f.m.toNat = M at h h2
  by_cases hE1 : E = 2 ^ 15 - 1
  · rw [if_pos hE1, if_pos hE1]
    by_cases hM : M = 2 ^ 63
    · rw [if_pos hM, if_pos (by omega)]
    · rw [if_neg hM, if_neg (by omega)]
  · rw [if_neg hE1, if_neg hE1]
    by_cases hE0 : E = 0
    · have hM : M % 2 ^ 63 = M := by omega
      rw [if_pos hE0, hE0, hM]
      rw [show ((max 0 1 : ℕ) - 16383 - 63 : ℤ) = (1 - 16383) - (63 : ℕ) by norm_num, zpow_sub₀ (by norm_num), zpow_natCast]
      generalize (2 : ℚ) ^ ((1 : ℤ) - 16383) = P
      congr 1; ring
    · have hM : M = 2 ^ 63 + M % 2 ^ 63 := by omega
      rw [if_neg hE0, show ((max E 1 : ℕ) - 16383 - 63 : ℤ) = ((E : ℤ) - 16383) - (63 : ℕ) by
        rw [Nat.max_eq_left (by omega)]; norm_num, zpow_sub₀ (by norm_num), zpow_natCast]
      generalize (2 : ℚ) ^ ((E : ℤ) - 16383) = P
      congr 1
      have hM' : (M : ℚ) = 2 ^ 63 + (M % 2 ^ 63 : ℕ) := by rw [hM]; push_cast; norm_num
      rw [hM']; field_simp

/-- The finite case of `NewFromBig`, with the panics and special cases resolved. -/
theorem newFromBig_finite {x : BigFloat} (hx : x.WF) (hf : x.form = .finite) :
    ∃ f acc, newFromBig x = .ok (f, acc) ∧
      (-63 < x.exp + 16382 → x.exp + 16382 ≤ 0 →
        (f.se.toNat = (if x.neg then 1 else 0) * 2 ^ 15 ∧ (f.m.toNat : ℤ) = ⌊x.mag * 2 ^ (16445 : ℤ)⌋ ∧ f.m.toNat < 2 ^ 63 ∧
          acc = .exact)) ∧
      (x.exp + 16382 ≤ -63 →
        (f.se.toNat = (if x.neg then 1 else 0) * 2 ^ 15 ∧ f.m = 0x7FFFFFFFFFFFFFFF ∧ acc = .below)) ∧
      (1 ≤ x.exp + 16382 →
        ((f.se.toNat : ℤ) = (if x.neg then 1 else 0) * 2 ^ 15 + (x.exp + 16382) % 2 ^ 15 ∧
          (f.m.toNat : ℤ) = ⌊x.mag * 2 ^ (64 - x.exp)⌋ ∧ 2 ^ 63 ≤ f.m.toNat ∧
          acc = if (⌊x.mag * 2 ^ (64 - x.exp)⌋ : ℚ) = x.mag * 2 ^ (64 - x.exp) then
            (if 2 ^ 15 ≤ x.exp + 16382 then .above else .exact) else .below)) := by
  have hm := hx.mant_pos hf
  have hge := hx.exp_ge hf
  have hle := hx.exp_le hf
  simp only [BigFloat.MinExp, BigFloat.MaxExp] at hge hle
  have hinf : x.isInf = false := by unfold BigFloat.isInf; rw [hf]; rfl
  have hcmp := BigFloat.cmp_zero_finite hf (z := { BigFloat.new with prec := 53 }) rfl
  have hme : x.mantExp.1 = x.exp := by unfold BigFloat.mantExp; rw [if_pos hf]
  have hmpos := BigFloat.mag_pos hm
  have hsg : (if x.signbit then (0x8000 : BitVec 16) else 0).toNat = (if x.neg then 1 else 0) * 2 ^ 15 := by
    unfold BigFloat.signbit; cases x.neg <;> rfl
  unfold newFromBig
  rw [newFloat_zero]
  simp only [bind, Except.bind, pure, Except.pure, hinf, hcmp, hme, Bool.false_eq_true, if_false]
  have hE : x.exp - 1 + bias = x.exp + 16382 := by unfold bias; ring
  simp only [hE, precision]
  have hor0 : ∀ v : BitVec 64, 0 ||| v = v := fun v => by exact BitVec.zero_or
  simp only [hor0]
  by_cases hden : x.exp + 16382 ≤ 0
  · rw [if_pos hden]
    by_cases hu : x.exp + 16382 ≤ -63
    · have hu' : x.exp + 16382 ≤ -(((64 : ℕ) : ℤ) - 1) := by omega
      simp only [hu', if_true]
      obtain ⟨a, ha, haf, han, hae, haw, hamag⟩ := BigFloat.mant_scale_abs hx hf (k := ((64 : ℕ) : ℤ) - 1 + ((64 : ℕ) : ℤ) - 1)
        (by simp only [BigFloat.MinExp]; omega) (by simp only [BigFloat.MaxExp]; omega)
      rw [ha]
      have hv : a.uint64.1 = BitVec.ofNat 64 (2 ^ 64 - 1) := by
        unfold BigFloat.uint64
        rw [haf]
        simp only [han, Bool.false_eq_true, if_false]
        rw [if_neg (by omega), if_neg (by omega)]
      rw [hv]
      refine ⟨_, _, rfl, fun h => by omega, fun _ => ⟨hsg, ?_, rfl⟩, fun h => by omega⟩
      show BitVec.ofNat 64 (2 ^ 64 - 1) &&& 0x7FFFFFFFFFFFFFFF = 0x7FFFFFFFFFFFFFFF
      decide +kernel
    · have hu' : ¬ x.exp + 16382 ≤ -(((64 : ℕ) : ℤ) - 1) := by omega
      simp only [hu', if_false]
      obtain ⟨a, ha, haf, han, hae, haw, hamag⟩ := BigFloat.mant_scale_abs hx hf (k := x.exp + 16382 + ((64 : ℕ) : ℤ) - 1)
        (by simp only [BigFloat.MinExp]; omega) (by simp only [BigFloat.MaxExp]; omega)
      rw [ha]
      have hv := BigFloat.uint64_eq haf han (by omega) (haw.mant_pos haf)
      rw [hamag, show x.exp + 16382 + ((64 : ℕ) : ℤ) - 1 - x.exp = 16445 by omega] at hv
      have hlt : a.uint64.1.toNat < 2 ^ 63 := by
        have : (a.uint64.1.toNat : ℤ) < 2 ^ 63 := by
          rw [hv, Int.floor_lt]
          have a1 := BigFloat.mag_lt x
          have a2 : (2 : ℚ) ^ x.exp ≤ 2 ^ (-16382 : ℤ) := zpow_le_zpow_right₀ (by norm_num) (by omega)
          have h6 := mul_lt_mul_of_pos_right (a1.trans_le a2) (show (0 : ℚ) < 2 ^ (16445 : ℤ) by positivity)
          rw [← zpow_add₀ (by norm_num), show (-16382 : ℤ) + 16445 = (63 : ℕ) by norm_num, zpow_natCast] at h6
          rw [Int.cast_pow]; exact h6
        exact_mod_cast this
      have hand : (a.uint64.1 &&& 0x7FFFFFFFFFFFFFFF).toNat = a.uint64.1.toNat := by
        rw [BitVec.toNat_and]
        exact (Nat.and_two_pow_sub_one_eq_mod _ 63).trans (Nat.mod_eq_of_lt hlt)
      refine ⟨_, _, rfl, fun _ _ => ⟨hsg, by rw [hand, hv], by rw [hand]; exact hlt, rfl⟩, fun h => by omega, fun h => by omega⟩
  · rw [if_neg hden]
    obtain ⟨a, ha, haf, han, hae, haw, hamag⟩ := BigFloat.mant_abs_scale hx hf (k := ((64 : ℕ) : ℤ))
      (by simp only [BigFloat.MinExp]; omega) (by simp only [BigFloat.MaxExp]; omega)
    simp only [ha]
    have hu := BigFloat.uint64_eq haf han (by omega) (haw.mant_pos haf)
    have hacc2 : a.uint64.2 = if a.isInt then .exact else .below := by
      unfold BigFloat.uint64
      rw [haf]
      simp only [han, Bool.false_eq_true, if_false]
      rw [if_neg (by omega), if_pos (by omega)]
    have hint := BigFloat.isInt_eq haw haf
    have hfl := BigFloat.floor_scaled hm (p := 64) (by norm_num)
    rw [hamag] at hu hint
    rw [← hu] at hfl
    rw [show (((64 : ℕ) : ℤ) - x.exp) = 64 - x.exp from rfl] at hu hint
    have hov := ofInt_andNot_ne_zero (e := x.exp + 16382) (by omega) (by omega) 15 (by norm_num) (m := ~~~0x7FFF) rfl
    have hfe := ofInt_and_toNat (e := x.exp + 16382) (by omega) (by omega) 15 (m := 0x7FFF) rfl
    have hEl : (BitVec.ofInt 64 (x.exp + 16382) &&& 0x7FFF).toNat < 2 ^ 15 := by
      have : ((BitVec.ofInt 64 (x.exp + 16382) &&& 0x7FFF).toNat : ℤ) < 2 ^ 15 := by
        rw [hfe]; exact Int.emod_lt_of_pos _ (by norm_num)
      exact_mod_cast this
    rw [hacc2, hint, hov]
    refine ⟨_, _, rfl, fun h _ => by omega, fun h => by omega, fun h => ⟨?_, hu, by have := hfl.1; exact_mod_cast this, ?_⟩⟩
    · simp only
      rw [BitVec.toNat_or, hsg, BitVec.toNat_setWidth, Nat.mod_eq_of_lt (by omega), nat_or_field hEl, Nat.cast_add, hfe]
      cases x.neg <;> rfl
    · simp only [decide_eq_true_eq, Bool.not_eq_true', decide_eq_false_iff_not]
      by_cases h' : (⌊x.mag * 2 ^ ((64 : ℤ) - x.exp)⌋ : ℚ) = x.mag * 2 ^ ((64 : ℤ) - x.exp)
      · rw [if_pos h']
        simp only [h', not_true_eq_false, if_false, if_true]
        by_cases h2 : (2 : ℤ) ^ 15 ≤ x.exp + 16382
        · rw [if_pos h2]; rfl
        · rw [if_neg h2]; rfl
      · rw [if_neg h']
        simp only [h', not_false_eq_true, if_true]; rfl

theorem signPart_eq (s : Bool) : extended.signPart s = (if s then 1 else 0) * 2 ^ 78 := by cases s <;> rfl

/-- Inside the range `NewFromBig` truncates. -/
theorem newFromBig_range {x : BigFloat} (hx : x.WF) (hf : x.form = .finite) (h1 : extended.qmin < x.exp)
    (h2 : x.exp ≤ extended.bias + 1) :
    ∃ f acc n, newFromBig x = .ok (f, acc) ∧ f.Canonical ∧ f.code = extended.signPart x.neg + n ∧ n < extended.infCode ∧
      extended.magc n ≤ x.mag ∧ x.mag < extended.magc (n + 1) ∧
      (x.exp - 1 + extended.bias ≤ 0 → acc = .exact) ∧
      (1 ≤ x.exp - 1 + extended.bias → acc = if extended.magc n = x.mag then .exact else .below) := by
  obtain ⟨f1, f2, f3, f4, f5⟩ := ext_facts
  obtain ⟨f, acc, hr, hd, -, hn⟩ := newFromBig_finite hx hf
  have he : x.exp - 1 + extended.bias = x.exp + 16382 := by rw [f2]; ring
  have hs : (if x.neg then 1 else 0) ≤ 1 := by cases x.neg <;> decide
  obtain ⟨n, h⟩ := trunc_range extended f5 (hx.mant_pos hf) (c := f.code) (acc := acc)
    (fun a b => by
      rw [he] at a b; rw [f3] at a; rw [f1, show (-(-16445) : ℤ) = 16445 by norm_num]
      obtain ⟨g1, g2, g3, g4⟩ := hd (by exact a) b
      refine ⟨?_, g4⟩
      rw [← g2, signPart_eq]
      unfold Float.code
      rw [g1]
      cases x.neg <;> simp only [Bool.false_eq_true, if_true, if_false] <;> omega)
    (fun a => by
      rw [he] at a; rw [he, f3, f4]
      obtain ⟨g1, g2, g3, g4⟩ := hn a
      rw [show ((63 : ℕ) : ℤ) + 1 - x.exp = 64 - x.exp by norm_num]
      refine ⟨?_, g4⟩
      rw [← g2, signPart_eq]
      unfold Float.code
      have := f.m.isLt
      cases hn : x.neg <;> rw [hn] at g1 <;> simp only [Bool.false_eq_true, if_true, if_false] at g1 ⊢ <;> omega) h1 h2
  refine ⟨f, acc, n, hr, ?_, h⟩
  rw [f1] at h1; rw [f2] at h2
  unfold Float.Canonical Canonical80
  by_cases hle : x.exp + 16382 ≤ 0
  · obtain ⟨g1, g2, g3, g4⟩ := hd (by omega) hle
    rw [g1]; omega
  · obtain ⟨g1, g2, g3, g4⟩ := hn (by omega)
    cases hn : x.neg <;> rw [hn] at g1 <;> simp only [Bool.false_eq_true, if_true, if_false] at g1 ⊢ <;> omega

/-- A number of the format is kept. -/
theorem newFromBig_of_magc {x : BigFloat} (hx : x.WF) (hf : x.form = .finite) {n : ℕ} (hn : n < extended.infCode)
    (h : x.mag = extended.magc n) :
    ∃ f, newFromBig x = .ok (f, .exact) ∧ f.Canonical ∧ f.code = extended.signPart x.neg + n := by
  obtain ⟨f, acc, hr, -⟩ := newFromBig_finite hx hf
  have hr' : ∀ a b, ∃ n, f.Canonical ∧ _ := fun a b => by
    obtain ⟨f', acc', n, hr', h⟩ := newFromBig_range hx hf a b
    rw [hr] at hr'
    simp only [Except.ok.injEq, Prod.mk.injEq] at hr'
    rw [← hr'.1, ← hr'.2] at h; exact ⟨n, h⟩
  obtain ⟨h1, h2⟩ := trunc_exact extended ext_facts.2.2.2.2 (hx.mant_pos hf) (c := f.code) (acc := acc) (fun a b => by
    obtain ⟨n, -, h⟩ := hr' a b; exact ⟨n, h⟩) hn h
  obtain ⟨-, h3, h4⟩ := truncCode_exact extended ext_facts.2.2.2.2 (hx.mant_pos hf) hn h
  obtain ⟨-, hc, -⟩ := hr' h3 h4
  exact ⟨f, by rw [hr, h2], hc, h1⟩

theorem newFromBig_inf {x : BigFloat} (hf : x.form = .inf) :
    newFromBig x = .ok (if x.neg then NegInf else Inf, .exact) := by
  unfold newFromBig
  rw [newFloat_zero]
  have : x.isInf = true := by unfold BigFloat.isInf; rw [hf]; rfl
  simp only [bind, Except.bind, pure, Except.pure, this, if_true]; rfl

theorem newFromBig_zero {x : BigFloat} (hf : x.form = .zero) :
    newFromBig x = .ok (if x.neg then NegZero else Zero, .exact) := by
  unfold newFromBig
  rw [newFloat_zero]
  have h1 : x.isInf = false := by unfold BigFloat.isInf; rw [hf]; rfl
  have h2 := BigFloat.cmp_zero_zero hf (z := { BigFloat.new with prec := 53 }) rfl
  simp only [bind, Except.bind, pure, Except.pure, h1, h2, if_true]; rfl

theorem code_inf (s : Bool) : (if s then NegInf else Inf).code = extended.signPart s + extended.infCode ∧
    (if s then NegInf else Inf).Canonical := by
  cases s <;> (unfold Float.Canonical Canonical80; decide +kernel)
theorem code_zero (s : Bool) : (if s then NegZero else Zero).code = extended.signPart s ∧
    (if s then NegZero else Zero).Canonical := by
  cases s <;> (unfold Float.Canonical Canonical80; decide +kernel)

/-- `NewFromBig` of a variable that holds a number of the format. -/
theorem newFromBig_of_decode {x : BigFloat} (hx : x.WF) {c : ℕ} (hc : c < 2 ^ 79) (hd : x.datum = extended.decode c) :
    ∃ f, newFromBig x = .ok (f, .exact) ∧ f.Canonical ∧ f.code = c :=
  of_decode extended (c := c) hc hd (R := fun c => ∃ g : Float, newFromBig x = .ok (g, .exact) ∧ g.Canonical ∧ g.code = c)
    (fun hf => ⟨_, newFromBig_inf hf, (code_inf _).2, (code_inf _).1⟩)
    (fun hf => ⟨_, newFromBig_zero hf, (code_zero _).2, (code_zero _).1⟩)
    (fun hf _ hn h => newFromBig_of_magc hx hf hn h)

/-- `NewFromBig` of a variable that holds the value of a canonical encoding. -/
theorem newFromBig_of_val {x : BigFloat} (hx : x.WF) {f : Float} (hf : f.Canonical) (hd : x.datum = f.val) :
    newFromBig x = .ok (f, .exact) := by
  obtain ⟨g, h1, h2, h3⟩ := newFromBig_of_decode hx (code_lt f) (by rw [hd, val_canonical hf])
  rw [h1, code_inj h2 hf h3]

/-- Every encoding has the value of a canonical one. -/
theorem exists_canonical (f : Float) (h : ∀ s, f.val ≠ .nan s) : ∃ c, c < 2 ^ 79 ∧ extended.decode c = f.val := by
  obtain ⟨f1, f2, f3, f4, f5⟩ := ext_facts
  have hmlt := f.m.isLt
  have hElt : f.se.toNat % 2 ^ 15 < 2 ^ 15 := Nat.mod_lt _ (by norm_num)
  unfold Float.val decode80 at h ⊢
  simp only at h ⊢
  generalize decide (f.se.toNat / 2 ^ 15 % 2 = 1) = s at h
  generalize f.se.toNat % 2 ^ 15 = E at h hElt
  generalize f.m.toNat = M at h hmlt
  have hsp : extended.signPart s ≤ 2 ^ 78 := by rw [signPart_eq]; cases s <;> norm_num
  have hinf : extended.infCode < 2 ^ 78 := extended.infCode_lt
  by_cases hE : E = 2 ^ 15 - 1
  · rw [if_pos hE] at h ⊢
    by_cases hM : M = 2 ^ 63
    · rw [if_pos hM]
      exact ⟨extended.signPart s + extended.infCode, by omega, extended.decode_inf s⟩
    · rw [if_neg hM] at h; exact absurd rfl (h s)
  · rw [if_neg hE]
    have hq : extended.qmin ≤ ((max E 1 : ℕ) - 16383 - 63 : ℤ) := by rw [f1]; push_cast; omega
    obtain ⟨n, hn1, hn2⟩ := exists_code extended f5 (N := M) (by rw [f3]; exact hmlt) hq (by
      have h3 : (M : ℚ) < 2 ^ (64 : ℤ) := by exact_mod_cast hmlt
      refine (mul_lt_mul_of_pos_right h3 (by positivity)).trans_le ?_
      rw [← zpow_add₀ (by norm_num), f2]
      exact zpow_le_zpow_right₀ (by norm_num) (by push_cast; omega))
    exact ⟨extended.signPart s + n, by omega, by rw [extended.decode_code s hn1, hn2]⟩

theorem newFromFloat64_nan {x : F64} (h : F64.isNaN x = true) :
    newFromFloat64 x = .ok (if (double.decode x.toNat).sign then NegNaN else NaN, .exact) := by
  unfold newFromFloat64
  rw [if_pos h, signbit64_eq]; rfl

/-- `NewFromFloat64` widens to 64 bits and calls `NewFromBig`. -/
theorem newFromFloat64_eq {x : F64} (h : F64.isNaN x = false) :
    ∃ y : BigFloat, y.WF ∧ y.datum = double.decode x.toNat ∧ newFromFloat64 x = newFromBig y := by
  obtain ⟨y, hy, hd, hwf, hp, hmo, -⟩ := newFloat_spec x h
  have hw := BigFloat.setPrec_widen (x := y) (p := 64) (by norm_num) (by decide) (by omega)
  refine ⟨(y.setPrec 64).setMode .toNearestEven, ?_, ?_, ?_⟩
  · rw [hw]; exact hwf.widen (p := 64) (by decide) (by omega) .toNearestEven .exact
  · rw [hw, ← hd]; rfl
  · unfold newFromFloat64
    rw [if_neg (by rw [h]; simp), hy]; rfl

/-- Doubles are kept. -/
theorem newFromFloat64_spec {x : F64} (h : ∀ s, double.decode x.toNat ≠ .nan s) :
    ∃ f, newFromFloat64 x = .ok (f, .exact) ∧ f.Canonical ∧ f.val = double.decode x.toNat := by
  have hnn : F64.isNaN x = false := by
    rw [Bool.eq_false_iff, Ne, isNaN64_iff]; push Not; exact h
  obtain ⟨y, hwf, hyd, he⟩ := newFromFloat64_eq hnn
  obtain ⟨h1, h2⟩ := toIEEE_widen (F := double) (G := extended) (by decide) (by decide) (by decide) (by decide)
    (by decide +kernel) (by decide +kernel) hwf hyd
  have hlt : (y.toIEEE extended.t extended.w).1 < 2 ^ 79 := toIEEE_lt extended (by decide) (by decide) hwf
  obtain ⟨f, h3, h4, h5⟩ := newFromBig_of_decode hwf hlt (by rw [h1, hyd])
  exact ⟨f, by rw [he, h3], h4, by rw [val_canonical h4, h5, h1]⟩

theorem float64_spec (f : Float) : ∃ x nan, x.WF ∧ Decoded f.val x nan ∧ f.float64 = .ok (toF64 x nan) := by
  obtain ⟨x, nan, hb, -, -, -, hwf, hdec⟩ := big_spec f
  refine ⟨x, nan, hwf, hdec, ?_⟩
  unfold Float.float64 toF64
  rw [hb]
  cases nan <;> cases h : x.signbit <;> simp [bind, Except.bind, pure, Except.pure, h]

theorem float32_spec (f : Float) : ∃ x nan, x.WF ∧ Decoded f.val x nan ∧ f.float32 = .ok (toF32 x nan) := by
  obtain ⟨x, nan, hb, -, -, -, hwf, hdec⟩ := big_spec f
  refine ⟨x, nan, hwf, hdec, ?_⟩
  unfold Float.float32 toF32
  rw [hb]
  cases nan <;> cases h : x.signbit <;> simp [bind, Except.bind, pure, Except.pure, h]

/-- `NewFromFloat32` goes through `NewFromFloat64`. -/
theorem newFromFloat32_spec {x : F32} (h : ∀ s, single.decode x.toNat ≠ .nan s) :
    ∃ f, newFromFloat32 x = .ok (f, .exact) ∧ f.Canonical ∧ f.val = single.decode x.toNat ∧ f.float32 = .ok (x, .exact) := by
  have hw := (f32to64_decode x).2 (by push Not; exact h)
  obtain ⟨f, h1, hc, h2⟩ := newFromFloat64_spec (x := f32to64 x) (by rw [hw]; exact h)
  rw [hw] at h2
  obtain ⟨y, nan, hwf, hdec, hr⟩ := float32_spec f
  rw [h2] at hdec
  obtain ⟨h3, h4⟩ := toF32_exact (F := single) (by decide) (by decide) (by decide) (by decide) hwf hdec h
  have h5 : f.float32 = .ok (x, .exact) := by
    rw [hr, ← h4, ← decode_inj32 h3 (by rw [h3]; exact h)]
  refine ⟨f, ?_, hc, h2, h5⟩
  unfold newFromFloat32
  rw [h1]
  simp only [bind, Except.bind, pure, Except.pure, h5, if_true]

theorem newFromFloat32_nan {x : F32} {s : Bool} (h : single.decode x.toNat = .nan s) :
    newFromFloat32 x = .ok (if s then NegNaN else NaN, .exact) := by
  have h1 := (f32to64_decode x).1 s h
  have h2 := newFromFloat64_nan ((isNaN64_iff _).2 ⟨s, h1⟩)
  unfold newFromFloat32
  rw [h2, h1]
  cases s <;> decide +kernel

theorem val_sign (f : Float) : f.val.sign = f.signbit := by
  rw [signbit_eq]
  unfold Float.val decode80
  simp only
  split
  · split <;> rfl
  · rfl

end GoFloat.Float80x86
