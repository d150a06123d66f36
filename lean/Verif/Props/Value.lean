import Verif.Proofs.Sample
import Verif.Props.Complete
import Mathlib.Algebra.Order.Archimedean.Basic
/-
What the results of the constructors from big.Float denote, for every number (C66 of properties.jsonl).
-/
namespace GoFloat
open Spec

/-- What an encoding denotes, from its fields. -/
theorem decode_fields (F : Format) (s : Bool) {E M : ℕ} (hE : E < 2 ^ F.w) (hM : M < 2 ^ F.t) :
    F.decode (F.signPart s + (E * 2 ^ F.t + M)) =
      if E = 2 ^ F.w - 1 then (if M = 0 then .inf s else .nan s)
      else if E = 0 then .num s (M * (2 : ℚ) ^ F.qmin)
      else .num s ((2 ^ F.t + M : ℕ) * (2 : ℚ) ^ (F.qmin + (E - 1))) := by
  have hPt := Nat.two_pow_pos F.t
  have hdiv : (E * 2 ^ F.t + M) / 2 ^ F.t = E := by
    rw [Nat.add_comm, Nat.add_mul_div_right _ _ hPt, Nat.div_eq_of_lt hM, Nat.zero_add]
  have hmod : (E * 2 ^ F.t + M) % 2 ^ F.t = M := by
    rw [Nat.add_comm, Nat.add_mul_mod_self_right, Nat.mod_eq_of_lt hM]
  have hlt : E * 2 ^ F.t + M < 2 ^ (F.t + F.w) := by
    have : (E + 1) * 2 ^ F.t ≤ 2 ^ F.w * 2 ^ F.t := Nat.mul_le_mul_right _ hE
    rw [Nat.add_comm F.t, pow_add]
    nlinarith
  split_ifs with c1 c2 c3
  · have := F.decode_inf s
    unfold Format.infCode at this
    rw [c1, c2, Nat.add_zero, this]
  · obtain ⟨k1, k2, k3⟩ := F.code_fields s hlt
    unfold Format.decode
    simp only [k1, k2, k3, hdiv, hmod]
    rw [if_pos c1, if_neg c2]
    simp
  · have hfin : E * 2 ^ F.t + M < F.infCode := by
      unfold Format.infCode
      have : (E + 1) * 2 ^ F.t ≤ (2 ^ F.w - 1) * 2 ^ F.t := Nat.mul_le_mul_right _ (by omega)
      nlinarith
    rw [F.decode_code s hfin, c3, F.magc_eq (k := 0) (N := M) (by rw [pow_succ]; omega) (Or.inl rfl)]
    simp
  · have hfin : E * 2 ^ F.t + M < F.infCode := by
      unfold Format.infCode
      have : (E + 1) * 2 ^ F.t ≤ (2 ^ F.w - 1) * 2 ^ F.t := Nat.mul_le_mul_right _ (by omega)
      nlinarith
    obtain ⟨E', rfl⟩ : ∃ E', E = E' + 1 := ⟨E - 1, by omega⟩
    rw [F.decode_code s hfin, show (E' + 1) * 2 ^ F.t + M = E' * 2 ^ F.t + (2 ^ F.t + M) by ring,
      F.magc_eq (k := E') (N := 2 ^ F.t + M) (by rw [pow_succ]; omega) (Or.inr (by omega))]
    congr 3
    push_cast
    ring

/-- The leading bits of a number. -/
theorem floor_leading {m : ℚ} {e : ℤ} {t : ℕ} (h1 : (2 : ℚ) ^ (e - 1) ≤ m) (h2 : m < (2 : ℚ) ^ e) :
    2 ^ t ≤ ⌊m * (2 : ℚ) ^ ((t : ℤ) + 1 - e)⌋ ∧ ⌊m * (2 : ℚ) ^ ((t : ℤ) + 1 - e)⌋ < 2 ^ (t + 1) := by
  have hp : (0 : ℚ) < (2 : ℚ) ^ ((t : ℤ) + 1 - e) := by positivity
  constructor
  · rw [Int.le_floor]
    calc ((2 ^ t : ℤ) : ℚ) = (2 : ℚ) ^ (e - 1) * (2 : ℚ) ^ ((t : ℤ) + 1 - e) := by
          rw [← zpow_add₀ (by norm_num), show e - 1 + ((t : ℤ) + 1 - e) = (t : ℕ) by ring, zpow_natCast]
          push_cast
          rfl
      _ ≤ _ := by gcongr
  · rw [Int.floor_lt]
    calc m * (2 : ℚ) ^ ((t : ℤ) + 1 - e) < (2 : ℚ) ^ e * (2 : ℚ) ^ ((t : ℤ) + 1 - e) := by gcongr
      _ = _ := by
          rw [← zpow_add₀ (by norm_num), show e + ((t : ℤ) + 1 - e) = ((t + 1 : ℕ) : ℤ) by push_cast; ring, zpow_natCast]
          push_cast
          rfl

theorem floor_one {m : ℚ} {e : ℤ} {t : ℕ} (h1 : (2 : ℚ) ^ (e - 1) ≤ m) (h2 : m < (2 : ℚ) ^ e) :
    ⌊m * (2 : ℚ) ^ ((t : ℤ) + 1 - e)⌋ = 2 ^ t ↔ m < (2 : ℚ) ^ (e - 1) * (1 + 1 / 2 ^ t) := by
  have hp : (0 : ℚ) < (2 : ℚ) ^ ((t : ℤ) + 1 - e) := by positivity
  have hle := (floor_leading (t := t) h1 h2).1
  have heq : (2 : ℚ) ^ (e - 1) * (1 + 1 / 2 ^ t) * (2 : ℚ) ^ ((t : ℤ) + 1 - e) = 2 ^ t + 1 := by
    rw [mul_right_comm, ← zpow_add₀ (by norm_num), show e - 1 + ((t : ℤ) + 1 - e) = (t : ℕ) by ring, zpow_natCast]
    field_simp
  rw [← mul_lt_mul_iff_of_pos_right hp, heq]
  constructor
  · intro h
    have := Int.lt_floor_add_one (m * (2 : ℚ) ^ ((t : ℤ) + 1 - e))
    rw [h] at this
    push_cast at this
    exact this
  · intro h
    have : ⌊m * (2 : ℚ) ^ ((t : ℤ) + 1 - e)⌋ < 2 ^ t + 1 := by
      rw [Int.floor_lt]
      push_cast
      exact h
    omega

/-- What a number with the exponent field `E` and the truncated mantissa denotes. -/
theorem decode_wrapped (F : Format) (hw : 2 ≤ F.w) {s : Bool} {c : ℕ} {E : ℤ} {m : ℚ} {e : ℤ} (h1 : (2 : ℚ) ^ (e - 1) ≤ m) (h2 : m < (2 : ℚ) ^ e)
    (hE0 : 0 ≤ E) (hE : E < 2 ^ F.w) (hc : (c : ℤ) = F.signPart s + E * 2 ^ F.t + (⌊m * (2 : ℚ) ^ ((F.t : ℤ) + 1 - e)⌋ - 2 ^ F.t)) :
    F.decode c =
      if E = 2 ^ F.w - 1 then (if m < (2 : ℚ) ^ (e - 1) * (1 + 1 / 2 ^ F.t) then .inf s else .nan s)
      else if E = 0 then .num s ((⌊m * (2 : ℚ) ^ ((F.t : ℤ) + 1 - e)⌋ - 2 ^ F.t) * (2 : ℚ) ^ F.qmin)
      else .num s (⌊m * (2 : ℚ) ^ ((F.t : ℤ) + 1 - e)⌋ * (2 : ℚ) ^ (F.qmin + (E - 1))) := by
  obtain ⟨l1, l2⟩ := floor_leading (t := F.t) h1 h2
  have l3 := floor_one (t := F.t) h1 h2
  generalize ⌊m * (2 : ℚ) ^ ((F.t : ℤ) + 1 - e)⌋ = L at *
  obtain ⟨M, hM⟩ : ∃ M : ℕ, L = ((2 ^ F.t + M : ℕ) : ℤ) := ⟨(L - 2 ^ F.t).toNat, by push_cast; omega⟩
  obtain ⟨E', rfl⟩ := Int.eq_ofNat_of_zero_le hE0
  have hcn : c = F.signPart s + (E' * 2 ^ F.t + M) := by
    rw [hM] at hc
    push_cast at hc
    have : (c : ℤ) = ((F.signPart s + (E' * 2 ^ F.t + M) : ℕ) : ℤ) := by
      rw [hc]
      push_cast
      ring
    exact_mod_cast this
  have hP2 : 4 ≤ 2 ^ F.w := by
    calc 4 = 2 ^ 2 := by norm_num
      _ ≤ 2 ^ F.w := Nat.pow_le_pow_right (by norm_num) hw
  have hMt : M < 2 ^ F.t := by
    rw [hM, pow_succ] at l2
    push_cast at l2
    have : (M : ℤ) < ((2 ^ F.t : ℕ) : ℤ) := by push_cast; omega
    exact_mod_cast this
  rw [hcn, decode_fields F s (by exact_mod_cast hE) hMt]
  have e1 : ((E' : ℤ) = 2 ^ F.w - 1) ↔ E' = 2 ^ F.w - 1 := by
    constructor
    · intro h
      have : (E' : ℤ) = ((2 ^ F.w : ℕ) : ℤ) - 1 := by push_cast; exact h
      omega
    · intro h
      rw [h]
      push_cast [Nat.cast_sub (by omega : 1 ≤ 2 ^ F.w)]
      rfl
  have e2 : M = 0 ↔ m < (2 : ℚ) ^ (e - 1) * (1 + 1 / 2 ^ F.t) := by
    rw [← l3, hM]
    push_cast
    omega
  have e3 : ((E' : ℤ) = 0) ↔ E' = 0 := by omega
  simp only [e1, e2, e3]
  have hLq : (L : ℚ) = 2 ^ F.t + M := by
    rw [hM]
    push_cast
    rfl
  rw [hLq]
  push_cast
  rw [add_sub_cancel_left]

/-- What an encoding with a small exponent field denotes. -/
theorem decode_low (F : Format) (hw : 2 ≤ F.w) {s : Bool} {c : ℕ} {N : ℤ} (h0 : 0 ≤ N) (hN : N < 2 ^ (F.t + 1)) (hc : (c : ℤ) = F.signPart s + N) :
    F.decode c = .num s (N * (2 : ℚ) ^ F.qmin) := by
  obtain ⟨N', rfl⟩ := Int.eq_ofNat_of_zero_le h0
  have hN' : N' < 2 ^ (F.t + 1) := by exact_mod_cast hN
  have hcn : c = F.signPart s + (0 * 2 ^ F.t + N') := by
    rw [Nat.zero_mul, Nat.zero_add]
    exact_mod_cast hc
  have hfin : 0 * 2 ^ F.t + N' < F.infCode := by
    unfold Format.infCode
    have : 2 * 2 ^ F.t ≤ (2 ^ F.w - 1) * 2 ^ F.t := Nat.mul_le_mul_right _ (by
      have : 2 ^ 2 ≤ 2 ^ F.w := Nat.pow_le_pow_right (by norm_num) hw
      omega)
    rw [pow_succ] at hN'
    omega
  rw [hcn, F.decode_code s hfin, F.magc_eq (k := 0) (N := N') hN'.le (Or.inl rfl)]
  simp

namespace Binary16

/-- C66: what the result of `binary16.NewFromBig` denotes for every number of magnitude `m` in `[2^(e-1), 2^e)`, always with the sign of
the number: up to 2^-24 a residue of its leading bits, in units of 2^-24; up to 2^-14 the number of units of 2^-24, truncated; above the number truncated to 11 bits, divided by a power of 2^(2^5); of the numbers
with `e = 17` modulo 2^5, an infinity or a NaN; of those with `e = 18` modulo 2^5, a subnormal. -/
theorem C66_binary16 (x : BigFloat) (hx : x.WF) {s : Bool} {m : ℚ} {e : ℤ} (hd : x.datum = .num s m)
    (h1 : (2 : ℚ) ^ (e - 1) ≤ m) (h2 : m < (2 : ℚ) ^ e) :
    ∃ f acc, newFromBig x = .ok (f, acc) ∧
      (e ≤ -24 → half.decode f.bits.toNat = .num s ((⌊m * 2 ^ (20 - e)⌋ % 2 ^ 11 : ℤ) * (2 : ℚ) ^ (-24 : ℤ))) ∧
      (-24 < e → e ≤ -14 → half.decode f.bits.toNat = .num s (⌊m * 2 ^ (24 : ℤ)⌋ * (2 : ℚ) ^ (-24 : ℤ))) ∧
      (-14 < e → (e + 14) % 2 ^ 5 = 0 → half.decode f.bits.toNat = .num s ((⌊m * 2 ^ (11 - e)⌋ - 2 ^ 10) * (2 : ℚ) ^ (-24 : ℤ))) ∧
      (-14 < e → 1 ≤ (e + 14) % 2 ^ 5 → (e + 14) % 2 ^ 5 ≤ 30 →
        half.decode f.bits.toNat = .num s (⌊m * 2 ^ (11 - e)⌋ * (2 : ℚ) ^ ((e + 14) % 2 ^ 5 - 25))) ∧
      (-14 < e → (e + 14) % 2 ^ 5 = 31 →
        half.decode f.bits.toNat = if m < (2 : ℚ) ^ (e - 1) * (1 + 1 / 2 ^ 10) then .inf s else .nan s) := by
  obtain ⟨f, acc, hr, a1, a2, a3⟩ := C55_binary16_big x hx hd h1 h2
  have hs : ((half.signPart s : ℕ) : ℤ) = if s then 2 ^ 15 else 0 := by unfold Format.signPart half; cases s <;> rfl
  have hq : half.qmin = -24 := by decide
  have ht : half.t = 10 := rfl
  have hw : half.w = 5 := rfl
  have hE0 : 0 ≤ (e + 14) % 2 ^ 5 := Int.emod_nonneg _ (by norm_num)
  have hE : (e + 14) % 2 ^ 5 < 2 ^ 5 := Int.emod_lt_of_pos _ (by norm_num)
  have hex : (((half.t : ℕ) : ℤ) + 1 - e) = 11 - e := by rw [ht]; push_cast; ring
  have key := fun h : -14 < e => decode_wrapped half (by decide) (s := s) (c := f.bits.toNat) (E := (e + 14) % 2 ^ 5) h1 h2 hE0 hE
    (by rw [hs, (a3 h).1, hex, ht])
  rw [hex, ht, hw, hq] at key
  have hm0 : 0 ≤ m := le_trans (by positivity) h1
  refine ⟨f, acc, hr, fun h => ?_, fun h h' => ?_, fun h h' => ?_, fun h h' h'' => ?_, fun h h' => ?_⟩
  · have hlo : 0 ≤ ⌊m * (2 : ℚ) ^ (20 - e)⌋ % 2 ^ 11 := Int.emod_nonneg _ (by norm_num)
    have hhi : ⌊m * (2 : ℚ) ^ (20 - e)⌋ % 2 ^ 11 < 2 ^ 11 := Int.emod_lt_of_pos _ (by norm_num)
    rw [decode_low half (by decide) (s := s) (c := f.bits.toNat) hlo (lt_of_lt_of_le hhi (by decide +kernel)) (by rw [hs, (a1 h).1]), hq]
  · have hlo : 0 ≤ ⌊m * (2 : ℚ) ^ (24 : ℤ)⌋ := Int.floor_nonneg.2 (by positivity)
    have hhi : ⌊m * (2 : ℚ) ^ (24 : ℤ)⌋ < 2 ^ 10 := by
      rw [Int.floor_lt]
      have h3 : (2 : ℚ) ^ e ≤ (2 : ℚ) ^ (-14 : ℤ) := zpow_le_zpow_right₀ (by norm_num) h'
      calc m * (2 : ℚ) ^ (24 : ℤ) < (2 : ℚ) ^ (-14 : ℤ) * (2 : ℚ) ^ (24 : ℤ) := by
            have := h2.trans_le h3
            gcongr
        _ = _ := by
            rw [← zpow_add₀ (by norm_num)]
            norm_num
    rw [decode_low half (by decide) (s := s) (c := f.bits.toNat) hlo (lt_of_lt_of_le hhi (by decide +kernel)) (by rw [hs, (a2 h h').1]), hq]
  · rw [key h, if_neg (by rw [h']; norm_num), if_pos h']
  · rw [key h, if_neg (by norm_num; omega), if_neg (by omega)]
    congr 3
    ring
  · rw [key h, if_pos (by rw [h']; norm_num)]

example := C66_binary16 Sample.y Sample.y_wf Sample.y_datum (e := 1) (by norm_num) (by norm_num)

/-- C66: `binary16.NewFromBig` makes a NaN of exactly these numbers. -/
theorem C66_binary16_nan (x : BigFloat) (hx : x.WF) {s : Bool} {m : ℚ} {e : ℤ} (hd : x.datum = .num s m)
    (h1 : (2 : ℚ) ^ (e - 1) ≤ m) (h2 : m < (2 : ℚ) ^ e) :
    ∃ f acc, newFromBig x = .ok (f, acc) ∧
      ((∃ s', half.decode f.bits.toNat = .nan s') ↔ 17 ≤ e ∧ (e - 17) % 2 ^ 5 = 0 ∧ (2 : ℚ) ^ (e - 1) * (1 + 1 / 2 ^ 10) ≤ m) := by
  obtain ⟨f, acc, hr, a1, a2, a3, a4, a5⟩ := C66_binary16 x hx hd h1 h2
  refine ⟨f, acc, hr, ?_⟩
  by_cases c1 : e ≤ -24
  · rw [a1 c1]
    simp only [reduceCtorEq, exists_false, false_iff]
    omega
  by_cases c2 : e ≤ -14
  · rw [a2 (by omega) c2]
    simp only [reduceCtorEq, exists_false, false_iff]
    omega
  by_cases c3 : (e + 14) % 2 ^ 5 = 0
  · rw [a3 (by omega) c3]
    simp only [reduceCtorEq, exists_false, false_iff]
    omega
  by_cases c4 : (e + 14) % 2 ^ 5 = 31
  · rw [a5 (by omega) c4]
    split_ifs with c5
    · simp only [exists_false, false_iff]
      exact fun h => absurd c5 (not_lt.2 h.2.2)
    · exact ⟨fun _ => ⟨by omega, by omega, not_lt.1 c5⟩, fun _ => ⟨s, rfl⟩⟩
  · rw [a4 (by omega) (by omega) (by omega)]
    simp only [reduceCtorEq, exists_false, false_iff]
    omega

example := C66_binary16_nan Sample.y Sample.y_wf Sample.y_datum (e := 1) (by norm_num) (by norm_num)

/-- C66: `binary16.NewFromBig` makes an infinity of exactly these numbers. -/
theorem C66_binary16_inf (x : BigFloat) (hx : x.WF) {s : Bool} {m : ℚ} {e : ℤ} (hd : x.datum = .num s m)
    (h1 : (2 : ℚ) ^ (e - 1) ≤ m) (h2 : m < (2 : ℚ) ^ e) :
    ∃ f acc, newFromBig x = .ok (f, acc) ∧
      ((∃ s', half.decode f.bits.toNat = .inf s') ↔ 17 ≤ e ∧ (e - 17) % 2 ^ 5 = 0 ∧ m < (2 : ℚ) ^ (e - 1) * (1 + 1 / 2 ^ 10)) := by
  obtain ⟨f, acc, hr, a1, a2, a3, a4, a5⟩ := C66_binary16 x hx hd h1 h2
  refine ⟨f, acc, hr, ?_⟩
  by_cases c1 : e ≤ -24
  · rw [a1 c1]
    simp only [reduceCtorEq, exists_false, false_iff]
    omega
  by_cases c2 : e ≤ -14
  · rw [a2 (by omega) c2]
    simp only [reduceCtorEq, exists_false, false_iff]
    omega
  by_cases c3 : (e + 14) % 2 ^ 5 = 0
  · rw [a3 (by omega) c3]
    simp only [reduceCtorEq, exists_false, false_iff]
    omega
  by_cases c4 : (e + 14) % 2 ^ 5 = 31
  · rw [a5 (by omega) c4]
    split_ifs with c5
    · exact ⟨fun _ => ⟨by omega, by omega, c5⟩, fun _ => ⟨s, rfl⟩⟩
    · simp only [exists_false, false_iff]
      exact fun h => c5 h.2.2
  · rw [a4 (by omega) (by omega) (by omega)]
    simp only [reduceCtorEq, exists_false, false_iff]
    omega

example := C66_binary16_inf Sample.y Sample.y_wf Sample.y_datum (e := 1) (by norm_num) (by norm_num)

end Binary16

namespace Binary128

/-- C66: what the result of `binary128.NewFromBig` denotes for every number of magnitude `m` in `[2^(e-1), 2^e)`, always with the sign of
the number: up to 2^-16494 a residue of its leading bits, in units of 2^-16494; up to 2^-16382 the number of units of 2^-16494, truncated; above the number truncated to 113 bits, divided by a power of 2^(2^15); of the numbers
with `e = 16385` modulo 2^15, an infinity or a NaN; of those with `e = 16386` modulo 2^15, a subnormal. -/
theorem C66_binary128 (x : BigFloat) (hx : x.WF) {s : Bool} {m : ℚ} {e : ℤ} (hd : x.datum = .num s m)
    (h1 : (2 : ℚ) ^ (e - 1) ≤ m) (h2 : m < (2 : ℚ) ^ e) :
    ∃ f acc, newFromBig x = .ok (f, acc) ∧
      (e ≤ -16494 → quad.decode f.code = .num s ((⌊m * 2 ^ (224 - e)⌋ % 2 ^ 112 : ℤ) * (2 : ℚ) ^ (-16494 : ℤ))) ∧
      (-16494 < e → e ≤ -16382 → quad.decode f.code = .num s (⌊m * 2 ^ (16494 : ℤ)⌋ * (2 : ℚ) ^ (-16494 : ℤ))) ∧
      (-16382 < e → (e + 16382) % 2 ^ 15 = 0 → quad.decode f.code = .num s ((⌊m * 2 ^ (113 - e)⌋ - 2 ^ 112) * (2 : ℚ) ^ (-16494 : ℤ))) ∧
      (-16382 < e → 1 ≤ (e + 16382) % 2 ^ 15 → (e + 16382) % 2 ^ 15 ≤ 32766 →
        quad.decode f.code = .num s (⌊m * 2 ^ (113 - e)⌋ * (2 : ℚ) ^ ((e + 16382) % 2 ^ 15 - 16495))) ∧
      (-16382 < e → (e + 16382) % 2 ^ 15 = 32767 →
        quad.decode f.code = if m < (2 : ℚ) ^ (e - 1) * (1 + 1 / 2 ^ 112) then .inf s else .nan s) := by
  obtain ⟨f, acc, hr, a1, a2, a3⟩ := C55_binary128_big x hx hd h1 h2
  have hs : ((quad.signPart s : ℕ) : ℤ) = if s then 2 ^ 127 else 0 := by unfold Format.signPart quad; cases s <;> rfl
  have hq : quad.qmin = -16494 := by decide
  have ht : quad.t = 112 := rfl
  have hw : quad.w = 15 := rfl
  have hE0 : 0 ≤ (e + 16382) % 2 ^ 15 := Int.emod_nonneg _ (by norm_num)
  have hE : (e + 16382) % 2 ^ 15 < 2 ^ 15 := Int.emod_lt_of_pos _ (by norm_num)
  have hex : (((quad.t : ℕ) : ℤ) + 1 - e) = 113 - e := by rw [ht]; push_cast; ring
  have key := fun h : -16382 < e => decode_wrapped quad (by decide) (s := s) (c := f.code) (E := (e + 16382) % 2 ^ 15) h1 h2 hE0 hE
    (by rw [hs, (a3 h).1, hex, ht])
  rw [hex, ht, hw, hq] at key
  have hm0 : 0 ≤ m := le_trans (by positivity) h1
  refine ⟨f, acc, hr, fun h => ?_, fun h h' => ?_, fun h h' => ?_, fun h h' h'' => ?_, fun h h' => ?_⟩
  · have hlo : 0 ≤ ⌊m * (2 : ℚ) ^ (224 - e)⌋ % 2 ^ 112 := Int.emod_nonneg _ (by norm_num)
    have hhi : ⌊m * (2 : ℚ) ^ (224 - e)⌋ % 2 ^ 112 < 2 ^ 112 := Int.emod_lt_of_pos _ (by norm_num)
    rw [decode_low quad (by decide) (s := s) (c := f.code) hlo (lt_of_lt_of_le hhi (by decide +kernel)) (by rw [hs, (a1 h).1]), hq]
  · have hlo : 0 ≤ ⌊m * (2 : ℚ) ^ (16494 : ℤ)⌋ := Int.floor_nonneg.2 (by positivity)
    have hhi : ⌊m * (2 : ℚ) ^ (16494 : ℤ)⌋ < 2 ^ 112 := by
      rw [Int.floor_lt]
      have h3 : (2 : ℚ) ^ e ≤ (2 : ℚ) ^ (-16382 : ℤ) := zpow_le_zpow_right₀ (by norm_num) h'
      calc m * (2 : ℚ) ^ (16494 : ℤ) < (2 : ℚ) ^ (-16382 : ℤ) * (2 : ℚ) ^ (16494 : ℤ) := by
            have := h2.trans_le h3
            gcongr
        _ = _ := by
            rw [← zpow_add₀ (by norm_num)]
            norm_num
    rw [decode_low quad (by decide) (s := s) (c := f.code) hlo (lt_of_lt_of_le hhi (by decide +kernel)) (by rw [hs, (a2 h h').1]), hq]
  · rw [key h, if_neg (by rw [h']; norm_num), if_pos h']
  · rw [key h, if_neg (by norm_num; omega), if_neg (by omega)]
    congr 3
    ring
  · rw [key h, if_pos (by rw [h']; norm_num)]

example := C66_binary128 Sample.y Sample.y_wf Sample.y_datum (e := 1) (by norm_num) (by norm_num)

/-- C66: `binary128.NewFromBig` makes a NaN of exactly these numbers. -/
theorem C66_binary128_nan (x : BigFloat) (hx : x.WF) {s : Bool} {m : ℚ} {e : ℤ} (hd : x.datum = .num s m)
    (h1 : (2 : ℚ) ^ (e - 1) ≤ m) (h2 : m < (2 : ℚ) ^ e) :
    ∃ f acc, newFromBig x = .ok (f, acc) ∧
      ((∃ s', quad.decode f.code = .nan s') ↔ 16385 ≤ e ∧ (e - 16385) % 2 ^ 15 = 0 ∧ (2 : ℚ) ^ (e - 1) * (1 + 1 / 2 ^ 112) ≤ m) := by
  obtain ⟨f, acc, hr, a1, a2, a3, a4, a5⟩ := C66_binary128 x hx hd h1 h2
  refine ⟨f, acc, hr, ?_⟩
  by_cases c1 : e ≤ -16494
  · rw [a1 c1]
    simp only [reduceCtorEq, exists_false, false_iff]
    omega
  by_cases c2 : e ≤ -16382
  · rw [a2 (by omega) c2]
    simp only [reduceCtorEq, exists_false, false_iff]
    omega
  by_cases c3 : (e + 16382) % 2 ^ 15 = 0
  · rw [a3 (by omega) c3]
    simp only [reduceCtorEq, exists_false, false_iff]
    omega
  by_cases c4 : (e + 16382) % 2 ^ 15 = 32767
  · rw [a5 (by omega) c4]
    split_ifs with c5
    · simp only [exists_false, false_iff]
      exact fun h => absurd c5 (not_lt.2 h.2.2)
    · exact ⟨fun _ => ⟨by omega, by omega, not_lt.1 c5⟩, fun _ => ⟨s, rfl⟩⟩
  · rw [a4 (by omega) (by omega) (by omega)]
    simp only [reduceCtorEq, exists_false, false_iff]
    omega

example := C66_binary128_nan Sample.y Sample.y_wf Sample.y_datum (e := 1) (by norm_num) (by norm_num)

/-- C66: `binary128.NewFromBig` makes an infinity of exactly these numbers. -/
theorem C66_binary128_inf (x : BigFloat) (hx : x.WF) {s : Bool} {m : ℚ} {e : ℤ} (hd : x.datum = .num s m)
    (h1 : (2 : ℚ) ^ (e - 1) ≤ m) (h2 : m < (2 : ℚ) ^ e) :
    ∃ f acc, newFromBig x = .ok (f, acc) ∧
      ((∃ s', quad.decode f.code = .inf s') ↔ 16385 ≤ e ∧ (e - 16385) % 2 ^ 15 = 0 ∧ m < (2 : ℚ) ^ (e - 1) * (1 + 1 / 2 ^ 112)) := by
  obtain ⟨f, acc, hr, a1, a2, a3, a4, a5⟩ := C66_binary128 x hx hd h1 h2
  refine ⟨f, acc, hr, ?_⟩
  by_cases c1 : e ≤ -16494
  · rw [a1 c1]
    simp only [reduceCtorEq, exists_false, false_iff]
    omega
  by_cases c2 : e ≤ -16382
  · rw [a2 (by omega) c2]
    simp only [reduceCtorEq, exists_false, false_iff]
    omega
  by_cases c3 : (e + 16382) % 2 ^ 15 = 0
  · rw [a3 (by omega) c3]
    simp only [reduceCtorEq, exists_false, false_iff]
    omega
  by_cases c4 : (e + 16382) % 2 ^ 15 = 32767
  · rw [a5 (by omega) c4]
    split_ifs with c5
    · exact ⟨fun _ => ⟨by omega, by omega, c5⟩, fun _ => ⟨s, rfl⟩⟩
    · simp only [exists_false, false_iff]
      exact fun h => c5 h.2.2
  · rw [a4 (by omega) (by omega) (by omega)]
    simp only [reduceCtorEq, exists_false, false_iff]
    omega

example := C66_binary128_inf Sample.y Sample.y_wf Sample.y_datum (e := 1) (by norm_num) (by norm_num)

end Binary128

namespace Float80x86

/-- C66: what the result of `float80x86.NewFromBig` denotes for every number of magnitude `m` in `[2^(e-1), 2^e)`, always with the sign
of the number: below 2^-16445 the largest subnormal; up to 2^-16382 the number of units of 2^-16445, truncated; and above the number
truncated to 64 bits, multiplied by a power of two that depends on `e` modulo 2^15, or an infinity or a NaN. -/
theorem C66_float80x86 (x : BigFloat) (hx : x.WF) {s : Bool} {m : ℚ} {e : ℤ} (hd : x.datum = .num s m)
    (h1 : (2 : ℚ) ^ (e - 1) ≤ m) (h2 : m < (2 : ℚ) ^ e) :
    ∃ f acc, newFromBig x = .ok (f, acc) ∧
      (e ≤ -16445 → decode80 f.se.toNat f.m.toNat = .num s ((2 ^ 63 - 1) * (2 : ℚ) ^ (-16445 : ℤ))) ∧
      (-16445 < e → e ≤ -16382 → decode80 f.se.toNat f.m.toNat = .num s (⌊m * 2 ^ (16445 : ℤ)⌋ * (2 : ℚ) ^ (-16445 : ℤ))) ∧
      (-16382 < e → (e + 16382) % 2 ^ 15 ≤ 32766 →
        decode80 f.se.toNat f.m.toNat = .num s (⌊m * 2 ^ (64 - e)⌋ * (2 : ℚ) ^ (max ((e + 16382) % 2 ^ 15) 1 - 16446))) ∧
      (-16382 < e → (e + 16382) % 2 ^ 15 = 32767 →
        decode80 f.se.toNat f.m.toNat = if m < (2 : ℚ) ^ (e - 1) * (1 + 1 / 2 ^ 63) then .inf s else .nan s) := by
  obtain ⟨f, acc, hr, a1, a2, a3⟩ := C55_float80x86_big x hx hd h1 h2
  have hsub : (f.se.toNat : ℤ) = (if s then 2 ^ 15 else 0) →
      decode80 f.se.toNat f.m.toNat = .num s (f.m.toNat * (2 : ℚ) ^ (-16445 : ℤ)) := by
    intro h
    have hse : f.se.toNat = if s then 2 ^ 15 else 0 := by
      split_ifs at h ⊢ <;> exact_mod_cast h
    unfold decode80
    rw [hse]
    cases s <;> norm_num
  have hsig : ∀ E : ℤ, 0 ≤ E → E < 2 ^ 15 → (f.se.toNat : ℤ) = (if s then 2 ^ 15 else 0) + E →
      decode80 f.se.toNat f.m.toNat = if E = 32767 then (if f.m.toNat = 2 ^ 63 then .inf s else .nan s)
        else .num s (f.m.toNat * (2 : ℚ) ^ (max E 1 - 16446)) := by
    intro E hE0 hE h
    obtain ⟨E', rfl⟩ := Int.eq_ofNat_of_zero_le hE0
    have hE' : E' < 2 ^ 15 := by exact_mod_cast hE
    have hse : f.se.toNat = (if s then 2 ^ 15 else 0) + E' := by
      split_ifs at h ⊢ <;> exact_mod_cast h
    have hd1 : decide (f.se.toNat / 2 ^ 15 % 2 = 1) = s := by
      rw [hse]
      cases s
      · simp only [Bool.false_eq_true, if_false, Nat.zero_add, Nat.div_eq_of_lt hE']
        decide
      · simp only [if_true]
        rw [Nat.add_div_left _ (by norm_num), Nat.div_eq_of_lt hE']
        decide
    have hd2 : f.se.toNat % 2 ^ 15 = E' := by
      rw [hse]
      cases s
      · simp only [Bool.false_eq_true, if_false, Nat.zero_add]
        exact Nat.mod_eq_of_lt hE'
      · simp only [if_true]
        rw [Nat.add_mod_left, Nat.mod_eq_of_lt hE']
    unfold decode80
    simp only [hd1, hd2]
    have e1 : (E' = 2 ^ 15 - 1) ↔ ((E' : ℤ) = 32767) := by norm_num; omega
    simp only [e1]
    congr 3
    push_cast
    ring_nf
  have hE0 : 0 ≤ (e + 16382) % 2 ^ 15 := Int.emod_nonneg _ (by norm_num)
  have hE : (e + 16382) % 2 ^ 15 < 2 ^ 15 := Int.emod_lt_of_pos _ (by norm_num)
  refine ⟨f, acc, hr, fun h => ?_, fun h h' => ?_, fun h h' => ?_, fun h h' => ?_⟩
  · obtain ⟨b1, b2, -⟩ := a1 h
    rw [hsub b1, b2]
    norm_num
  · obtain ⟨b1, b2, -⟩ := a2 h h'
    rw [hsub b1, ← b2]
    norm_num
  · obtain ⟨b1, b2, -⟩ := a3 h
    rw [hsig _ hE0 hE b1, if_neg (by omega), ← b2]
    norm_num
  · obtain ⟨b1, b2, -⟩ := a3 h
    rw [hsig _ hE0 hE b1, if_pos h']
    have := floor_one (t := 63) h1 h2
    rw [show (((63 : ℕ) : ℤ) + 1 - e) = 64 - e by push_cast; ring, ← b2] at this
    have h3 : f.m.toNat = 2 ^ 63 ↔ m < (2 : ℚ) ^ (e - 1) * (1 + 1 / 2 ^ 63) := by
      rw [← this]
      exact_mod_cast Iff.rfl
    simp only [h3]

example := C66_float80x86 Sample.y Sample.y_wf Sample.y_datum (e := 1) (by norm_num) (by norm_num)

/-- C66: `float80x86.NewFromBig` makes a NaN of exactly these numbers. -/
theorem C66_float80x86_nan (x : BigFloat) (hx : x.WF) {s : Bool} {m : ℚ} {e : ℤ} (hd : x.datum = .num s m)
    (h1 : (2 : ℚ) ^ (e - 1) ≤ m) (h2 : m < (2 : ℚ) ^ e) :
    ∃ f acc, newFromBig x = .ok (f, acc) ∧
      ((∃ s', decode80 f.se.toNat f.m.toNat = .nan s') ↔ 16385 ≤ e ∧ (e - 16385) % 2 ^ 15 = 0 ∧ (2 : ℚ) ^ (e - 1) * (1 + 1 / 2 ^ 63) ≤ m) := by
  obtain ⟨f, acc, hr, a1, a2, a3, a4⟩ := C66_float80x86 x hx hd h1 h2
  refine ⟨f, acc, hr, ?_⟩
  by_cases c1 : e ≤ -16445
  · rw [a1 c1]
    simp only [reduceCtorEq, exists_false, false_iff]
    omega
  by_cases c2 : e ≤ -16382
  · rw [a2 (by omega) c2]
    simp only [reduceCtorEq, exists_false, false_iff]
    omega
  by_cases c4 : (e + 16382) % 2 ^ 15 = 32767
  · rw [a4 (by omega) c4]
    split_ifs with c5
    · simp only [exists_false, false_iff]
      exact fun h => absurd c5 (not_lt.2 h.2.2)
    · exact ⟨fun _ => ⟨by omega, by omega, not_lt.1 c5⟩, fun _ => ⟨s, rfl⟩⟩
  · rw [a3 (by omega) (by omega)]
    simp only [reduceCtorEq, exists_false, false_iff]
    omega

example := C66_float80x86_nan Sample.y Sample.y_wf Sample.y_datum (e := 1) (by norm_num) (by norm_num)

/-- C66: `float80x86.NewFromBig` makes an infinity of exactly these numbers. -/
theorem C66_float80x86_inf (x : BigFloat) (hx : x.WF) {s : Bool} {m : ℚ} {e : ℤ} (hd : x.datum = .num s m)
    (h1 : (2 : ℚ) ^ (e - 1) ≤ m) (h2 : m < (2 : ℚ) ^ e) :
    ∃ f acc, newFromBig x = .ok (f, acc) ∧
      ((∃ s', decode80 f.se.toNat f.m.toNat = .inf s') ↔ 16385 ≤ e ∧ (e - 16385) % 2 ^ 15 = 0 ∧ m < (2 : ℚ) ^ (e - 1) * (1 + 1 / 2 ^ 63)) := by
  obtain ⟨f, acc, hr, a1, a2, a3, a4⟩ := C66_float80x86 x hx hd h1 h2
  refine ⟨f, acc, hr, ?_⟩
  by_cases c1 : e ≤ -16445
  · rw [a1 c1]
    simp only [reduceCtorEq, exists_false, false_iff]
    omega
  by_cases c2 : e ≤ -16382
  · rw [a2 (by omega) c2]
    simp only [reduceCtorEq, exists_false, false_iff]
    omega
  by_cases c4 : (e + 16382) % 2 ^ 15 = 32767
  · rw [a4 (by omega) c4]
    split_ifs with c5
    · exact ⟨fun _ => ⟨by omega, by omega, c5⟩, fun _ => ⟨s, rfl⟩⟩
    · simp only [exists_false, false_iff]
      exact fun h => c5 h.2.2
  · rw [a3 (by omega) (by omega)]
    simp only [reduceCtorEq, exists_false, false_iff]
    omega

example := C66_float80x86_inf Sample.y Sample.y_wf Sample.y_datum (e := 1) (by norm_num) (by norm_num)

end Float80x86

-- concrete cases: 98304 = 1.5 * 2^16 becomes a binary16 NaN and 2^16 an infinity; 2^48 * 1.5 too is a NaN
example : (17 : ℤ) ≤ 17 ∧ ((17 : ℤ) - 17) % 2 ^ 5 = 0 ∧ (2 : ℚ) ^ ((17 : ℤ) - 1) * (1 + 1 / 2 ^ 10) ≤ 98304 := by norm_num
example : (17 : ℤ) ≤ 49 ∧ ((49 : ℤ) - 17) % 2 ^ 5 = 0 ∧ (2 : ℚ) ^ ((49 : ℤ) - 1) * (1 + 1 / 2 ^ 10) ≤ 2 ^ 48 * (3 / 2) := by norm_num
example : Binary16.newFromBig ⟨53, .toNearestEven, .exact, .finite, false, 3 * 2 ^ 47, 49⟩ = .ok (⟨0x7E00⟩, .above) := by decide +kernel
example : Binary16.newFromBig ⟨53, .toNearestEven, .exact, .finite, true, 2 ^ 16, 17⟩ = .ok (⟨0xFC00⟩, .exact) := by decide +kernel
example : (⟨53, .toNearestEven, .exact, .finite, true, 2 ^ 16, 17⟩ : BigFloat).datum = .num true (2 ^ 16) := by
  rw [BigFloat.datum_lit 17 rfl (by decide +kernel)]; norm_num

/-! ### binary16.NewFromFloat64 -/

theorem roundsToBits_mag {p : ℕ} {s : Bool} {m r : ℚ} (h : RoundsToBits p (signed s m) (signed s r)) : RoundsToBits p m r := by
  cases s
  · exact h
  · obtain ⟨⟨k, e, hk, hr⟩, h2, h3⟩ := h
    simp only [signed, if_true] at hr h2 h3
    have hab : ∀ a b : ℚ, |-a - -b| = |a - b| := fun a b => by rw [← abs_neg]; congr 1; ring
    have hsub : ∀ (k e : ℤ) (v : ℚ), |-v - ((-k : ℤ) : ℚ) * (2 : ℚ) ^ e| = |v - k * (2 : ℚ) ^ e| := fun k e v => by
      rw [← abs_neg]
      congr 1
      push_cast
      ring
    refine ⟨⟨-k, e, by rwa [abs_neg], by push_cast; linarith⟩, fun k e hk => ?_, fun k e hk hne heq q l1 l2 => ?_⟩
    · have := h2 (-k) e (by rwa [abs_neg])
      rwa [hab, hsub] at this
    · obtain ⟨j, hj⟩ := h3 (-k) e (by rwa [abs_neg]) (by push_cast; intro h; exact hne (by linarith)) (by rw [hab, hsub]; exact heq) q (by rwa [abs_neg])
        (by rwa [abs_neg])
      exact ⟨-j, by push_cast; linarith⟩

/-- No number with 11 bits lies between two neighbouring multiples of a unit, from 1024 units on. -/
theorem bits_gap {k e q : ℤ} {N : ℤ} (hk : |k| < 2 ^ 11) (hN : 1024 ≤ N) (h1 : N * (2 : ℚ) ^ q < k * (2 : ℚ) ^ e) (h2 : k * (2 : ℚ) ^ e < (N + 1) * (2 : ℚ) ^ q) : False := by
  rcases le_or_gt q e with h | h
  · obtain ⟨d, rfl⟩ : ∃ d : ℕ, e = q + d := ⟨(e - q).toNat, by omega⟩
    have hu : (0 : ℚ) < (2 : ℚ) ^ q := by positivity
    rw [zpow_add₀ (by norm_num), zpow_natCast] at h1 h2
    have h3 : (N : ℚ) < k * 2 ^ d := by
      by_contra hc
      push Not at hc
      nlinarith
    have h4 : (k : ℚ) * 2 ^ d < N + 1 := by
      by_contra hc
      push Not at hc
      nlinarith
    have h5 : N < k * 2 ^ d := by exact_mod_cast h3
    have h6 : k * 2 ^ d < N + 1 := by exact_mod_cast h4
    omega
  · have hkq : (k : ℚ) < 2 ^ 11 := by
      have := (abs_lt.1 hk).2
      exact_mod_cast this
    have hle : (2 : ℚ) ^ e ≤ (2 : ℚ) ^ (q - 1) := zpow_le_zpow_right₀ (by norm_num) (by omega)
    rw [zpow_sub_one₀ (by norm_num)] at hle
    have hNq : (1024 : ℚ) ≤ N := by exact_mod_cast hN
    have hu : (0 : ℚ) < (2 : ℚ) ^ q := by positivity
    have hv : (0 : ℚ) < (2 : ℚ) ^ e := by positivity
    have h3 : (k : ℚ) * (2 : ℚ) ^ e < 2 ^ 11 * (2 : ℚ) ^ e := by gcongr
    nlinarith

theorem odd_unit {u : ℚ} (hu : 0 < u) {a j : ℤ} (ha : a % 2 = 1) (h : (a : ℚ) * u = 2 * j * u) : False := by
  have : (a : ℚ) = 2 * j := mul_right_cancel₀ hu.ne' h
  have : a = 2 * j := by exact_mod_cast this
  omega

/-- Where rounding to 11 bits leaves a power of two. -/
theorem rounds_above {m r : ℚ} (h : RoundsToBits 11 m r) (j : ℤ) : (2 : ℚ) ^ j * (1 + 1 / 2 ^ 10) ≤ r ↔ (2 : ℚ) ^ j * (1 + 1 / 2 ^ 11) < m := by
  obtain ⟨⟨k, e, hk, hr⟩, h2, h3⟩ := h
  obtain ⟨q, rfl⟩ : ∃ q, j = q + 10 := ⟨j - 10, by ring⟩
  have hu : (0 : ℚ) < (2 : ℚ) ^ q := by positivity
  rw [zpow_add₀ (by norm_num)]
  have hP := h2 1024 q (by norm_num)
  have hb := h2 1025 q (by norm_num)
  have hgap : ¬ (1024 * (2 : ℚ) ^ q < r ∧ r < 1025 * (2 : ℚ) ^ q) := fun hc =>
    bits_gap (N := 1024) (q := q) hk le_rfl (by push_cast; rw [← hr]; exact hc.1) (by push_cast; rw [← hr]; norm_num; exact hc.2)
  have htie := h3 1024 q (by norm_num)
  push_cast at hP hb htie
  have g1 : (2 : ℚ) ^ q * (2 : ℚ) ^ (10 : ℤ) * (1 + 1 / 2 ^ 10) = 1025 * (2 : ℚ) ^ q := by norm_num; ring
  have g2 : (2 : ℚ) ^ q * (2 : ℚ) ^ (10 : ℤ) * (1 + 1 / 2 ^ 11) = (1024 + 1 / 2) * (2 : ℚ) ^ q := by norm_num; ring
  rw [g1, g2]
  have hodd : ∀ j : ℤ, r = 1025 * (2 : ℚ) ^ q → r = 2 * j * (2 : ℚ) ^ q → False := fun j a b =>
    odd_unit (a := 1025) hu (by norm_num) (by push_cast; rw [← a, b])
  have htie' := fun h1 h2 => htie h1 h2 q
  generalize (2 : ℚ) ^ q = u at *
  constructor
  · intro hle
    by_contra hc
    push Not at hc
    have e1 : |m - r| = r - m := by rw [abs_sub_comm, abs_of_nonneg]; linarith
    rw [e1] at hP htie'
    rcases le_or_gt (1024 * u) m with c | c
    · have e2 : |m - 1024 * u| = m - 1024 * u := abs_of_nonneg (by linarith)
      rw [e2] at hP htie'
      have hm : m = (1024 + 1 / 2) * u := by linarith
      have hr' : r = 1025 * u := by linarith
      have ham : |m| = m := abs_of_nonneg (by rw [hm]; positivity)
      obtain ⟨j, hj⟩ := htie' (by linarith) (by linarith) (by rw [ham]; norm_num; linarith) (by rw [ham]; norm_num; linarith)
      exact hodd j hr' hj
    · have e2 : |m - 1024 * u| = 1024 * u - m := by rw [abs_sub_comm, abs_of_nonneg]; linarith
      rw [e2] at hP
      linarith
  · intro hlt
    by_contra hc
    push Not at hc
    rcases le_or_gt (1025 * u) m with c | c
    · rw [abs_of_nonneg (by linarith), abs_of_nonneg (by linarith)] at hb
      linarith
    · rw [abs_sub_comm m (1025 * u), abs_of_nonneg (by linarith : 0 ≤ 1025 * u - m)] at hb
      rcases le_or_gt r (1024 * u) with c' | c'
      · rw [abs_of_nonneg (by linarith)] at hb
        linarith
      · exact hgap ⟨c', hc⟩

/-- Where rounding to 11 bits reaches a power of two. -/
theorem rounds_reaches {m r : ℚ} (h : RoundsToBits 11 m r) (j : ℤ) : (2 : ℚ) ^ j ≤ r ↔ (2 : ℚ) ^ j * (1 - 1 / 2 ^ 12) ≤ m := by
  obtain ⟨⟨k, e, hk, hr⟩, h2, h3⟩ := h
  obtain ⟨q, rfl⟩ : ∃ q, j = q + 11 := ⟨j - 11, by ring⟩
  have hu : (0 : ℚ) < (2 : ℚ) ^ q := by positivity
  rw [zpow_add₀ (by norm_num)]
  have hP := h2 1024 (q + 1) (by norm_num)
  have hb := h2 2047 q (by norm_num)
  have hgap : ¬ (2047 * (2 : ℚ) ^ q < r ∧ r < 2048 * (2 : ℚ) ^ q) := fun hc =>
    bits_gap (N := 2047) (q := q) hk (by norm_num) (by push_cast; rw [← hr]; exact hc.1) (by push_cast; rw [← hr]; norm_num; exact hc.2)
  have htie := h3 1024 (q + 1) (by norm_num)
  have g0 : (1024 : ℚ) * (2 : ℚ) ^ (q + 1) = 2048 * (2 : ℚ) ^ q := by rw [zpow_add_one₀ (by norm_num)]; ring
  push_cast at hP hb htie
  rw [g0] at hP htie
  have g1 : (2 : ℚ) ^ q * (2 : ℚ) ^ (11 : ℤ) = 2048 * (2 : ℚ) ^ q := by norm_num; ring
  have g2 : (2048 : ℚ) * (2 : ℚ) ^ q * (1 - 1 / 2 ^ 12) = (2048 - 1 / 2) * (2 : ℚ) ^ q := by norm_num; ring
  rw [g1, g2]
  have hodd : ∀ j : ℤ, r = 2047 * (2 : ℚ) ^ q → r = 2 * j * (2 : ℚ) ^ q → False := fun j a b =>
    odd_unit (a := 2047) hu (by norm_num) (by push_cast; rw [← a, b])
  have htie' := fun h1 h2 => htie h1 h2 q
  generalize (2 : ℚ) ^ q = u at *
  constructor
  · intro hle
    by_contra hc
    push Not at hc
    rw [abs_sub_comm m r, abs_of_nonneg (by linarith : 0 ≤ r - m)] at hb
    rcases le_or_gt (2047 * u) m with c | c
    · rw [abs_of_nonneg (by linarith)] at hb
      linarith
    · rw [abs_sub_comm, abs_of_nonneg (by linarith)] at hb
      linarith
  · intro hle
    by_contra hc
    push Not at hc
    have hr' : r ≤ 2047 * u := by
      by_contra hc'
      push Not at hc'
      exact hgap ⟨hc', hc⟩
    have e1 : |m - r| = m - r := abs_of_nonneg (by linarith)
    rw [e1] at hP htie'
    rcases le_or_gt (2048 * u) m with c | c
    · rw [abs_of_nonneg (by linarith)] at hP
      linarith
    · have e2 : |m - 2048 * u| = 2048 * u - m := by rw [abs_sub_comm, abs_of_nonneg]; linarith
      rw [e2] at hP htie'
      have hm : m = (2048 - 1 / 2) * u := by linarith
      have hr2 : r = 2047 * u := by linarith
      have ham : |m| = m := abs_of_nonneg (by rw [hm]; linarith)
      obtain ⟨j, hj⟩ := htie' (by linarith) (by linarith) (by rw [ham]; norm_num; linarith) (by rw [ham]; norm_num; linarith)
      exact hodd j hr2 hj

namespace Binary16

/-- C66: of which float64 numbers `binary16.NewFromFloat64` makes an infinity and of which a NaN: for every `k`, those that are
2^(16+32k) when rounded to 11 bits, and those that lie between that and the next power of two. -/
theorem C66_binary16_float64 (x : F64) {s : Bool} {m : ℚ} (hd : double.decode x.toNat = .num s m) :
    ∃ f acc, newFromFloat64 x = .ok (f, acc) ∧
      ((∃ s', half.decode f.bits.toNat = .inf s') ↔
        ∃ k : ℕ, (2 : ℚ) ^ (16 + 32 * k) * (1 - 1 / 2 ^ 12) ≤ m ∧ m ≤ (2 : ℚ) ^ (16 + 32 * k) * (1 + 1 / 2 ^ 11)) ∧
      ((∃ s', half.decode f.bits.toNat = .nan s') ↔
        ∃ k : ℕ, (2 : ℚ) ^ (16 + 32 * k) * (1 + 1 / 2 ^ 11) < m ∧ m < (2 : ℚ) ^ (17 + 32 * k) * (1 - 1 / 2 ^ 12)) := by
  by_cases hm : m = 0
  · obtain ⟨f, h1, h2⟩ := C07_float64_partial x hd ⟨half.signPart s + 0, by rw [half.decode_code s (by decide), hm]; simp [Format.magc]⟩
    refine ⟨f, _, h1, ?_, ?_⟩
    · rw [h2, hm]
      simp only [reduceCtorEq, exists_false, false_iff]
      rintro ⟨k, h, -⟩
      have : (0 : ℚ) < 2 ^ (16 + 32 * k) := by positivity
      nlinarith
    · rw [h2, hm]
      simp only [reduceCtorEq, exists_false, false_iff]
      rintro ⟨k, h, -⟩
      have : (0 : ℚ) < 2 ^ (16 + 32 * k) := by positivity
      nlinarith
  have hpos : 0 < m := lt_of_le_of_ne (by
    obtain ⟨n, -, rfl, -⟩ := double.code_of_decode hd
    exact double.magc_nonneg n) (Ne.symm hm)
  obtain ⟨z, r, hr, hz, hzd, hrb⟩ := C55_binary16_float64 x hd hm
  have hrb := roundsToBits_mag hrb
  have hrp : 0 < r := by
    obtain ⟨i, hi, -⟩ := exists_mem_Ico_zpow hpos (by norm_num : (1 : ℚ) < 2)
    have hp : (0 : ℚ) < (2 : ℚ) ^ i := by positivity
    exact hp.trans_le ((rounds_reaches hrb i).2 (by nlinarith))
  obtain ⟨i, hi1, hi2⟩ := exists_mem_Ico_zpow hrp (by norm_num : (1 : ℚ) < 2)
  have hi1' : (2 : ℚ) ^ (i + 1 - 1) ≤ r := by rwa [add_sub_cancel_right]
  obtain ⟨f, acc, h1, h2⟩ := C66_binary16_inf z hz hzd hi1' hi2
  obtain ⟨f', acc', h1', h3⟩ := C66_binary16_nan z hz hzd hi1' hi2
  rw [h1] at h1'
  injection h1' with h1'
  injection h1' with e1 e2
  subst e1
  refine ⟨f, acc, hr.trans h1, ?_, ?_⟩
  · rw [h2, add_sub_cancel_right]
    constructor
    · rintro ⟨a1, a2, a3⟩
      obtain ⟨k, hk⟩ : ∃ k : ℕ, i = ((16 + 32 * k : ℕ) : ℤ) := ⟨((i - 16) / 32).toNat, by omega⟩
      have b1 := (rounds_reaches hrb i).1 hi1
      have b2 := (rounds_above hrb i).not.1 (not_le.2 a3)
      rw [hk, zpow_natCast] at b1 b2
      exact ⟨k, b1, not_lt.1 b2⟩
    · rintro ⟨k, b1, b2⟩
      rw [← zpow_natCast] at b1 b2
      have c1 := (rounds_reaches hrb _).2 b1
      have c2 := not_le.1 ((rounds_above hrb _).not.2 (not_lt.2 b2))
      have hk : i = ((16 + 32 * k : ℕ) : ℤ) := by
        have d1 : ((16 + 32 * k : ℕ) : ℤ) < i + 1 := (zpow_lt_zpow_iff_right₀ (by norm_num : (1 : ℚ) < 2)).1 (c1.trans_lt hi2)
        have d2 : i < ((16 + 32 * k : ℕ) : ℤ) + 1 := (zpow_lt_zpow_iff_right₀ (by norm_num : (1 : ℚ) < 2)).1 (by
          refine hi1.trans_lt (c2.trans ?_)
          rw [zpow_add_one₀ (by norm_num)]
          have : (0 : ℚ) < (2 : ℚ) ^ ((16 + 32 * k : ℕ) : ℤ) := by positivity
          nlinarith)
        omega
      rw [← hk] at c2
      exact ⟨by omega, by omega, c2⟩
  · rw [h3, add_sub_cancel_right]
    constructor
    · rintro ⟨a1, a2, a3⟩
      obtain ⟨k, hk⟩ : ∃ k : ℕ, i = ((16 + 32 * k : ℕ) : ℤ) := ⟨((i - 16) / 32).toNat, by omega⟩
      have b1 := (rounds_above hrb i).1 a3
      have b2 := (rounds_reaches hrb (i + 1)).not.1 (not_le.2 hi2)
      rw [show i + 1 = ((17 + 32 * k : ℕ) : ℤ) by omega, zpow_natCast] at b2
      rw [hk, zpow_natCast] at b1
      exact ⟨k, b1, not_le.1 b2⟩
    · rintro ⟨k, b1, b2⟩
      rw [← zpow_natCast] at b1 b2
      have c1 := (rounds_above hrb _).2 b1
      have c2 := not_le.1 ((rounds_reaches hrb _).not.2 (not_le.2 b2))
      have hk : i = ((16 + 32 * k : ℕ) : ℤ) := by
        have d1 : ((16 + 32 * k : ℕ) : ℤ) < i + 1 := (zpow_lt_zpow_iff_right₀ (by norm_num : (1 : ℚ) < 2)).1 (by
          refine lt_of_le_of_lt (le_trans ?_ c1) hi2
          have : (0 : ℚ) < (2 : ℚ) ^ ((16 + 32 * k : ℕ) : ℤ) := by positivity
          nlinarith)
        have d2 : i < ((17 + 32 * k : ℕ) : ℤ) := (zpow_lt_zpow_iff_right₀ (by norm_num : (1 : ℚ) < 2)).1 (hi1.trans_lt c2)
        omega
      rw [← hk] at c1
      exact ⟨by omega, by omega, c1⟩

-- 65520 is an infinity and 65569 a NaN
example : (2 : ℚ) ^ (16 + 32 * 0) * (1 - 1 / 2 ^ 12) ≤ 65520 ∧ (65520 : ℚ) ≤ 2 ^ (16 + 32 * 0) * (1 + 1 / 2 ^ 11) := by norm_num
example : (2 : ℚ) ^ (16 + 32 * 0) * (1 + 1 / 2 ^ 11) < 65569 ∧ (65569 : ℚ) < 2 ^ (17 + 32 * 0) * (1 - 1 / 2 ^ 12) := by norm_num
example : newFromFloat64 0x40F0021000000000 = .ok (⟨0x7C01⟩, .exact) := by decide +kernel
example : newFromFloat64 0x40EFFE0000000000 = .ok (⟨0x7C00⟩, .exact) := by decide +kernel

end Binary16

end GoFloat
