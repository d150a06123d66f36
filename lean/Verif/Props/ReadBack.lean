import Verif.Proofs.Sample
import Verif.Props.FloatBits
import Verif.Props.FtoaOrder
import Verif.Props.FtoaDigits
/-
C90: what `FormatFloat` prints, read by `AssignDecimal` and `floatBits`.
-/
namespace GoFloat.Strconv
open Spec

variable {W : ℕ} {F : Format} {flt : FloatInfo} {size : ℤ} {fmt : Char} {prec : ℤ} {c : ℕ} {s : Bool} {r : ℚ} {val : F64}

/-- A number determines its encoding, apart from the bits in front. -/
theorem decode_num_inj {c c' : ℕ} (h1 : F.decode c = .num s r) (h2 : F.decode c' = .num s r) (l1 : c < 2 ^ (F.t + F.w + 1))
    (l2 : c' < 2 ^ (F.t + F.w + 1)) : c = c' := by
  have key : ∀ {c : ℕ}, F.decode c = .num s r → decide (c / 2 ^ (F.t + F.w) % 2 = 1) = s ∧ F.magc (c % 2 ^ (F.t + F.w)) = r := by
    intro c h
    rcases decode_cases F c with ⟨s', h'⟩ | ⟨h', -⟩ | ⟨h', -⟩
    · rw [h] at h'; exact absurd h' (by simp)
    · rw [h] at h'; exact absurd h' (by simp)
    · rw [h, Datum.num.injEq] at h'
      exact ⟨h'.1.symm, h'.2.symm⟩
  obtain ⟨a1, a2⟩ := key h1
  obtain ⟨b1, b2⟩ := key h2
  have hm : c % 2 ^ (F.t + F.w) = c' % 2 ^ (F.t + F.w) := F.magc_strictMono.injective (a2.trans b2.symm)
  have hs : (c / 2 ^ (F.t + F.w) % 2 = 1) ↔ (c' / 2 ^ (F.t + F.w) % 2 = 1) := by
    rw [← decide_eq_decide, a1, b1]
  rw [pow_succ] at l1 l2
  have e1 : c / 2 ^ (F.t + F.w) < 2 := Nat.div_lt_of_lt_mul l1
  have e2 : c' / 2 ^ (F.t + F.w) < 2 := Nat.div_lt_of_lt_mul l2
  rw [← Nat.div_add_mod c (2 ^ (F.t + F.w)), ← Nat.div_add_mod c' (2 ^ (F.t + F.w)), hm,
    show c / 2 ^ (F.t + F.w) = c' / 2 ^ (F.t + F.w) by
      generalize c / 2 ^ (F.t + F.w) = x at *
      generalize c' / 2 ^ (F.t + F.w) = y at *
      omega]

/-- A number that is rounded to another number than zero is above half the smallest one. -/
theorem above_half (hF : GoFormat F) (hc : F.decode c = .num s r) (hr : r ≠ 0) {q : ℚ} (hq0 : 0 ≤ q) (hq : F.RoundsTo s q c) :
    (2 : ℚ) ^ (F.qmin - 1) < q := by
  have hb := hF.bounds
  obtain ⟨n, k, N, hs, rfl, d1, d2, -⟩ := value_split hF hc
  have hI := (roundsTo_iff F (by omega) (by omega) s hs.fin hq0).1 ((roundsTo_congr d1 d2).1 hq)
  have hn0 : n ≠ 0 := by
    rintro rfl
    exact hr (by unfold Format.magc; simp)
  obtain ⟨i1, i2⟩ := hI.1 hn0
  have hmono := F.magc_strictMono
  have m1 : F.magc 1 = (2 : ℚ) ^ F.qmin := by
    have : 1 / 2 ^ F.t = 0 := Nat.div_eq_of_lt (Nat.one_lt_two_pow (by omega))
    unfold Format.magc
    simp [this]
  have m0 : F.magc 0 = 0 := by unfold Format.magc; simp
  have h2 : (2 : ℚ) ^ F.qmin = 2 * (2 : ℚ) ^ (F.qmin - 1) := by
    rw [zpow_sub_one₀ (by norm_num)]; ring
  by_cases h1 : n = 1
  · subst h1
    have := i2 rfl
    rw [show 1 - 1 = 0 from rfl, m0, m1, h2] at this
    linarith
  · have h3 : F.magc 1 ≤ F.magc (n - 1) := hmono.monotone (by omega)
    have h4 : F.magc 1 < F.magc n := hmono (by omega)
    have h5 : (0 : ℚ) < F.magc 1 := by rw [m1]; positivity
    rw [m1, h2] at h3 h4 h5
    linarith

/-- C90: if the decimal `m * 10^e10` is rounded to a float that is not zero, and `AssignDecimal` reports success for it, then `floatBits` gives the
bits of that float and reports no overflow. -/
theorem C90_decimal (hI : InfoFor F flt) (hc : F.decode c = .num s r) (hr : r ≠ 0) (hlt : c < 2 ^ (F.t + F.w + 1)) {m : BitVec 64} {e10 : ℤ}
    (hq : F.RoundsTo s (m.toNat * (10 : ℚ) ^ e10) c) {f : ExtFloat} (hok : assignDecimal m e10 s false flt = .ok (f, true)) :
    (f.floatBits flt).1.toNat = c ∧ (f.floatBits flt).2 = false := by
  obtain ⟨hG, hfl⟩ := hI.go
  have hb := hG.bounds
  have hq0 : (0 : ℚ) ≤ m.toNat * (10 : ℚ) ^ e10 := by positivity
  have hhalf := above_half hG hc hr hq0 hq
  have hm : m ≠ 0 := by
    rintro rfl
    have : (0 : ℚ) < (2 : ℚ) ^ (F.qmin - 1) := by positivity
    rw [show (0 : BitVec 64).toNat = 0 from rfl, Nat.cast_zero, zero_mul] at hhalf
    linarith
  obtain ⟨h1, h2⟩ := C49_correct_partial hI hm hok (x := m.toNat) (by unfold Leading; simp) (by simp) (fun h => absurd h.2 (not_le.2 hhalf))
  have hdec := Float128ppc.RoundsTo.unique (by omega) h1 hq
  rw [hc] at hdec
  have hov : ¬ F.overflowAt ≤ m.toNat * (10 : ℚ) ^ e10 := by
    intro ho
    unfold Format.RoundsTo at hq
    rw [if_pos ho, hc] at hq
    exact absurd hq (by simp)
  refine ⟨decode_num_inj hdec hc ?_ hlt, ?_⟩
  · have hrng : ¬ (e10 < -348 ∨ 348 ≤ e10) := by
      intro hr
      rw [assign_out m s false flt hr] at hok
      injection hok with hok
      injection hok with _ hok
      exact absurd hok (by decide)
    obtain ⟨g, E, hg, -, -, hgm, -, hge, -⟩ := assign_bounds m hm s false flt (show -348 ≤ e10 by omega) (show e10 < 348 by omega)
    rw [hg] at hok
    injection hok with hok
    injection hok with hfg _
    subst hfg
    rw [hfl]
    have heq := floatBits_eq hG hgm hge
    rw [Prod.mk.injEq] at heq
    rw [heq.1]
    have hinf : F.infCode < 2 ^ (F.t + F.w) := by
      unfold Format.infCode
      rw [pow_add, mul_comm]
      exact Nat.mul_lt_mul_of_pos_left (Nat.sub_lt (by positivity) (by norm_num)) (by positivity)
    have hsp : F.signPart g.neg ≤ 2 ^ (F.t + F.w) := by
      unfold Format.signPart
      split <;> simp
    rw [pow_succ]
    omega
  · by_contra hf
    exact hov (h2.1 (by simpa using hf))

/-- What is read from a text that denotes a number rounded to the float. -/
theorem read_back (hI : InfoFor F flt) (hc : F.decode c = .num s r) (hr : r ≠ 0) (hlt : c < 2 ^ (F.t + F.w + 1)) {t : Text} {q : ℚ}
    (ht : readDecimal t = some (s, q)) (hq : F.RoundsTo s q c) (m : BitVec 64) (e10 : ℤ) (hm : readDecimal t = some (s, m.toNat * (10 : ℚ) ^ e10)) :
    ∃ f ok, assignDecimal m e10 s false flt = .ok (f, ok) ∧
      (ok = true → (f.floatBits flt).1.toNat = c ∧ (f.floatBits flt).2 = false) := by
  obtain rfl : q = m.toNat * (10 : ℚ) ^ e10 := by
    rw [ht] at hm
    exact (Prod.mk.inj (Option.some.inj hm)).2
  obtain ⟨f, ok, h⟩ := C49_total m e10 s false flt
  refine ⟨f, ok, h, fun hok => ?_⟩
  subst hok
  exact C90_decimal hI hc hr hlt hq h

/-- C90, negative precision: the text of a finite float that is not zero, split in any way into an integer of 64 bits and a power of ten, is read as
the same float or `AssignDecimal` says that it gives up. There is such a way within the range of the tables. -/
theorem C90_shortest (hW : W = 32 ∨ W = 64) (hS : SizeOf F size) (hI : InfoFor F flt) (hfmt : DecimalFormat fmt) (hp : prec < 0) (opt : Bool)
    (hc : F.decode c = .num s r) (hr : r ≠ 0) (hlt : c < 2 ^ (F.t + F.w + 1)) (hd : double.decode val.toNat = .num s r) :
    ∃ t, genericFtoa W opt val fmt prec size = .ok t ∧
      (∀ (m : BitVec 64) (e10 : ℤ), readDecimal t = some (s, m.toNat * (10 : ℚ) ^ e10) →
        ∃ f ok, assignDecimal m e10 s false flt = .ok (f, ok) ∧
          (ok = true → (f.floatBits flt).1.toNat = c ∧ (f.floatBits flt).2 = false)) ∧
      ∃ (m : BitVec 64) (e10 : ℤ), readDecimal t = some (s, m.toNat * (10 : ℚ) ^ e10) ∧ -348 ≤ e10 ∧ e10 < 348 := by
  have hG := hS.go
  have hb := hG.bounds
  obtain ⟨t, q, h1, h2, h3⟩ := C42_roundtrip hW hS hfmt hp opt hc hd
  obtain ⟨t', q', g1, g2, a, e, g3, g4⟩ := C53_digits hW hS hp hc hd hfmt (opt := opt)
  obtain rfl : t = t' := by rw [h1] at g1; exact Except.ok.inj g1
  obtain rfl : q = q' := by
    rw [h2] at g2
    exact (Prod.mk.inj (Option.some.inj g2)).2
  refine ⟨t, h1, fun m e10 hm => read_back hI hc hr hlt h2 h3 m e10 hm, ?_⟩
  have hq0 : 0 ≤ q := by rw [g4]; positivity
  have hlo := above_half hG hc hr hq0 h3
  have ha : a < 10 ^ 17 := lt_of_lt_of_le g3 (Nat.pow_le_pow_right (by norm_num) (by
    rcases hS with ⟨rfl, rfl⟩ | ⟨rfl, rfl⟩ | ⟨rfl, rfl⟩ <;> decide))
  have ha0 : a ≠ 0 := by
    rintro rfl
    have : (0 : ℚ) < (2 : ℚ) ^ (F.qmin - 1) := by positivity
    rw [g4, Nat.cast_zero, zero_mul] at hlo
    linarith
  have hov : q < F.overflowAt := by
    by_contra ho
    unfold Format.RoundsTo at h3
    rw [if_pos (not_lt.1 ho), hc] at h3
    exact absurd h3 (by simp)
  refine ⟨BitVec.ofNat 64 a, e, ?_, ?_, ?_⟩
  · rw [h2, BitVec.toNat_ofNat, Nat.mod_eq_of_lt (lt_trans ha (by norm_num)), g4]
  · by_contra hc'
    have k1 : q < (10 : ℚ) ^ (-331 : ℤ) := by
      have h5 : (a : ℚ) < (10 : ℚ) ^ (17 : ℤ) := by exact_mod_cast ha
      have h6 : (10 : ℚ) ^ e ≤ (10 : ℚ) ^ (-348 : ℤ) := zpow_le_zpow_right₀ (by norm_num) (by omega)
      calc q = a * (10 : ℚ) ^ e := g4
        _ ≤ a * (10 : ℚ) ^ (-348 : ℤ) := mul_le_mul_of_nonneg_left h6 (by positivity)
        _ < (10 : ℚ) ^ (17 : ℤ) * (10 : ℚ) ^ (-348 : ℤ) := mul_lt_mul_of_pos_right h5 (by positivity)
        _ = _ := by rw [← zpow_add₀ (by norm_num)]; rfl
    have k2 : (2 : ℚ) ^ (-1075 : ℤ) ≤ (2 : ℚ) ^ (F.qmin - 1) := zpow_le_zpow_right₀ (by norm_num) (by
      rcases hS with ⟨rfl, rfl⟩ | ⟨rfl, rfl⟩ | ⟨rfl, rfl⟩ <;> decide)
    have k3 : (10 : ℚ) ^ (-331 : ℤ) ≤ (2 : ℚ) ^ (-1075 : ℤ) := by
      rw [zpow_neg, zpow_neg]
      refine inv_anti₀ (by positivity) ?_
      have : 2 ^ 1075 ≤ 10 ^ 331 := by decide +kernel
      exact_mod_cast this
    exact absurd (k1.trans_le (k3.trans (k2.trans hlo.le))) (lt_irrefl _)
  · by_contra hc'
    have k1 : (10 : ℚ) ^ (348 : ℤ) ≤ q := by
      have h5 : (1 : ℚ) ≤ a := by exact_mod_cast Nat.one_le_iff_ne_zero.2 ha0
      have h6 : (10 : ℚ) ^ (348 : ℤ) ≤ (10 : ℚ) ^ e := zpow_le_zpow_right₀ (by norm_num) (by omega)
      rw [g4]
      exact h6.trans (le_mul_of_one_le_left (by positivity) h5)
    have k2 : F.overflowAt ≤ (2 : ℚ) ^ (1024 : ℤ) := by
      have h5 : F.overflowAt ≤ (2 : ℚ) ^ (F.bias + 1) := by
        unfold Format.overflowAt
        rw [zpow_add_one₀ (by norm_num)]
        refine mul_le_mul_of_nonneg_left ?_ (by positivity)
        have : (0 : ℚ) < 1 / 2 ^ (F.t + 1) := by positivity
        linarith
      exact h5.trans (zpow_le_zpow_right₀ (by norm_num) (by
        rcases hS with ⟨rfl, rfl⟩ | ⟨rfl, rfl⟩ | ⟨rfl, rfl⟩ <;> decide))
    have k3 : (2 : ℚ) ^ (1024 : ℤ) ≤ (10 : ℚ) ^ (348 : ℤ) := by
      have : 2 ^ 1024 ≤ 10 ^ 348 := by decide +kernel
      exact_mod_cast this
    exact absurd (hov.trans_le (k2.trans (k3.trans k1))) (lt_irrefl _)

example := C90_shortest (W := 64) (.inr rfl) (F := single) (size := 32) (.inr (.inl ⟨rfl, rfl⟩)) (.inr (.inl ⟨rfl, rfl⟩)) (fmt := 'g') (by simp [DecimalFormat]) (prec := -1) (by norm_num) true Sample.x_single (by norm_num) (by decide) (val := 0xBFF6000000000000) Sample.x_double

/-- C90, precision given: the same for the texts with enough digits, 17, 9 and 5. -/
theorem C90_digits (hW : W = 32 ∨ W = 64) (hS : SizeOf F size) (hI : InfoFor F flt) (opt : Bool)
    (hp : (fmt = 'e' ∨ fmt = 'E') ∧ (size = 64 ∧ 16 ≤ prec ∨ size = 32 ∧ 8 ≤ prec ∨ size = 16 ∧ 4 ≤ prec) ∨
      (fmt = 'g' ∨ fmt = 'G') ∧ (size = 64 ∧ 17 ≤ prec ∨ size = 32 ∧ 9 ≤ prec ∨ size = 16 ∧ 5 ≤ prec))
    (hc : F.decode c = .num s r) (hr : r ≠ 0) (hlt : c < 2 ^ (F.t + F.w + 1)) (hd : double.decode val.toNat = .num s r) :
    ∃ t, genericFtoa W opt val fmt prec size = .ok t ∧
      ∀ (m : BitVec 64) (e10 : ℤ), readDecimal t = some (s, m.toNat * (10 : ℚ) ^ e10) →
        ∃ f ok, assignDecimal m e10 s false flt = .ok (f, ok) ∧
          (ok = true → (f.floatBits flt).1.toNat = c ∧ (f.floatBits flt).2 = false) := by
  obtain ⟨t, q, h1, h2, h3⟩ : ∃ t q, genericFtoa W opt val fmt prec size = .ok t ∧ readDecimal t = some (s, q) ∧ F.RoundsTo s q c := by
    rcases hp with ⟨hf, hp⟩ | ⟨hf, hp⟩
    · exact C60_exponential hW hS hf opt hp hc hd
    · exact C60_general hW hS hf opt hp hc hd
  exact ⟨t, h1, fun m e10 hm => read_back hI hc hr hlt h2 h3 m e10 hm⟩

example := C90_digits (W := 64) (.inr rfl) (F := single) (size := 32) (.inr (.inl ⟨rfl, rfl⟩)) (.inr (.inl ⟨rfl, rfl⟩)) true (fmt := 'e') (prec := 8) (.inl ⟨.inl rfl, .inr (.inl ⟨rfl, by norm_num⟩)⟩) Sample.x_single (by norm_num) (by decide) (val := 0xBFF6000000000000) Sample.x_double

/-- C90: and it gives up only if the number of the text lies next to the middle of two neighbouring floats. -/
theorem C90_gives_up (hI : InfoFor F flt) (hc : F.decode c = .num s r) (hr : r ≠ 0) {m : BitVec 64} {e10 : ℤ} (he : -348 ≤ e10) (he' : e10 < 348)
    (hq : F.RoundsTo s (m.toNat * (10 : ℚ) ^ e10) c) {f : ExtFloat} (hok : assignDecimal m e10 s false flt = .ok (f, false)) :
    ∃ (N : ℕ) (z : ℤ), F.qmin ≤ z ∧ N < 2 ^ (F.t + 1) ∧ (2 ^ F.t ≤ N ∨ z = F.qmin) ∧
      |m.toNat * (10 : ℚ) ^ e10 - (N + 1 / 2) * (2 : ℚ) ^ z| ≤ m.toNat * (10 : ℚ) ^ e10 / 2 ^ 55 := by
  obtain ⟨hG, -⟩ := hI.go
  have hq0 : (0 : ℚ) ≤ m.toNat * (10 : ℚ) ^ e10 := by positivity
  have hhalf := above_half hG hc hr hq0 hq
  have hm : m ≠ 0 := by
    rintro rfl
    have : (0 : ℚ) < (2 : ℚ) ^ (F.qmin - 1) := by positivity
    rw [show (0 : BitVec 64).toNat = 0 from rfl, Nat.cast_zero, zero_mul] at hhalf
    linarith
  exact C54_gives_up_only_near hI hm he he' hok (x := m.toNat) (by unfold Leading; simp) (by simp) hhalf.le

-- 0.1 is printed as 1e-01, and 1 * 10^-1 is read as the same bits
example : formatFloat 64 0x3FB999999999999A 'e' (-1) 64 = .ok "1e-01".toList ∧ readDecimal "1e-01".toList = some (false, (1 : BitVec 64).toNat * (10 : ℚ) ^ (-1 : ℤ)) ∧
    (assignDecimal 1 (-1) false false float64info).map (fun r => (r.2, r.1.floatBits float64info)) = .ok (true, 0x3FB999999999999A, false) := by
  refine ⟨by decide +kernel, by decide +kernel, by decide +kernel⟩
-- the largest and the smallest float of each size are read back, too
example : (assignDecimal 17976931348623157 292 true false float64info).map (fun r => (r.2, r.1.floatBits float64info)) = .ok (true, 0xFFEFFFFFFFFFFFFF, false) ∧
    (assignDecimal 5 (-324) false false float64info).map (fun r => (r.2, r.1.floatBits float64info)) = .ok (true, 1, false) ∧
    (assignDecimal 34028235 31 false false float32info).map (fun r => (r.2, r.1.floatBits float32info)) = .ok (true, 0x7F7FFFFF, false) ∧
    (assignDecimal 1 (-45) false false float32info).map (fun r => (r.2, r.1.floatBits float32info)) = .ok (true, 1, false) ∧
    (assignDecimal 655 2 false false float16info).map (fun r => (r.2, r.1.floatBits float16info)) = .ok (true, 0x7BFF, false) ∧
    (assignDecimal 6 (-8) false false float16info).map (fun r => (r.2, r.1.floatBits float16info)) = .ok (true, 1, false) := by
  decide +kernel

end GoFloat.Strconv
