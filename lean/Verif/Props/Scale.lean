import Verif.Props.Detour
import Verif.Props.Complete
import Verif.Proofs.SplitMode
/-
C122: multiplying the argument of a constructor by a power of two.
-/
namespace GoFloat
open Spec

/-- The binade of a number in a range. -/
theorem range_binade {m : ℚ} {a b : ℤ} (h1 : (2 : ℚ) ^ a ≤ m) (h2 : m < (2 : ℚ) ^ b) :
    ∃ e : ℤ, (2 : ℚ) ^ (e - 1) ≤ m ∧ m < (2 : ℚ) ^ e ∧ a < e ∧ e ≤ b := by
  obtain ⟨e, e1, e2⟩ := binade (lt_of_lt_of_le (by positivity) h1)
  have h3 := (zpow_lt_zpow_iff_right₀ (by norm_num : (1 : ℚ) < 2)).1 (h1.trans_lt e2)
  have h4 := (zpow_lt_zpow_iff_right₀ (by norm_num : (1 : ℚ) < 2)).1 (e1.trans_lt h2)
  exact ⟨e, e1, e2, h3, by omega⟩

theorem scaled_binade {m : ℚ} {e : ℤ} (k : ℤ) (h1 : (2 : ℚ) ^ (e - 1) ≤ m) (h2 : m < (2 : ℚ) ^ e) :
    (2 : ℚ) ^ (e + k - 1) ≤ m * (2 : ℚ) ^ k ∧ m * (2 : ℚ) ^ k < (2 : ℚ) ^ (e + k) := by
  have hp : (0 : ℚ) < (2 : ℚ) ^ k := by positivity
  rw [show e + k - 1 = e - 1 + k by ring, zpow_add₀ (by norm_num), zpow_add₀ (by norm_num)]
  exact ⟨mul_le_mul_of_nonneg_right h1 hp.le, mul_lt_mul_of_pos_right h2 hp⟩

theorem scaled_unit (m : ℚ) (p e k : ℤ) : m * (2 : ℚ) ^ k * (2 : ℚ) ^ (p - (e + k)) = m * (2 : ℚ) ^ (p - e) := by
  rw [mul_assoc, ← zpow_add₀ (by norm_num), show k + (p - (e + k)) = p - e by ring]

/-- Rounding to a number of bits commutes with multiplying by a power of two. -/
theorem RoundsToBits.scale {p : ℕ} {v r : ℚ} (h : RoundsToBits p v r) (i : ℤ) : RoundsToBits p (v * (2 : ℚ) ^ i) (r * (2 : ℚ) ^ i) := by
  obtain ⟨⟨k, e, hk, hr⟩, hmin, heven⟩ := h
  have hp : (0 : ℚ) < (2 : ℚ) ^ i := by positivity
  have hsub : ∀ k e : ℤ, |v * (2 : ℚ) ^ i - k * (2 : ℚ) ^ e| = |v - k * (2 : ℚ) ^ (e - i)| * (2 : ℚ) ^ i := by
    intro k e
    rw [← abs_of_pos hp, ← abs_mul, abs_of_pos hp, sub_mul, mul_assoc (k : ℚ), ← zpow_add₀ (by norm_num), sub_add_cancel]
  have hrr : |v * (2 : ℚ) ^ i - r * (2 : ℚ) ^ i| = |v - r| * (2 : ℚ) ^ i := by rw [← sub_mul, abs_mul, abs_of_pos hp]
  refine ⟨⟨k, e + i, hk, by rw [hr, zpow_add₀ (by norm_num), mul_assoc]⟩, fun k' e' hk' => ?_, fun k' e' hk' hne heq q q1 q2 => ?_⟩
  · rw [hrr, hsub]
    exact mul_le_mul_of_nonneg_right (hmin k' _ hk') hp.le
  · rw [hrr, hsub] at heq
    have hsp : (2 : ℚ) ^ q = (2 : ℚ) ^ (q - i) * (2 : ℚ) ^ i := by rw [← zpow_add₀ (by norm_num), sub_add_cancel]
    rw [abs_mul, abs_of_pos hp, hsp, ← mul_assoc] at q1 q2
    obtain ⟨j, hj⟩ := heven k' (e' - i) hk' (fun hc => hne (by
      rw [← hc, mul_assoc, ← zpow_add₀ (by norm_num), sub_add_cancel])) (mul_right_cancel₀ hp.ne' heq) (q - i)
      (le_of_mul_le_mul_right q1 hp) (lt_of_mul_lt_mul_right q2 hp.le)
    exact ⟨j, by rw [hj, hsp]; ring⟩

theorem signed_scale (s : Bool) (m : ℚ) (k : ℤ) : signed s (m * (2 : ℚ) ^ k) = signed s m * (2 : ℚ) ^ k := by
  unfold signed; split <;> ring

theorem Binary16.scale_big {x x' : BigFloat} (hx : x.WF) (hx' : x'.WF) {s : Bool} {m : ℚ} {k : ℤ} (hd : x.datum = .num s m)
    (hd' : x'.datum = .num s (m * (2 : ℚ) ^ k)) (h1 : (2 : ℚ) ^ (-14 : ℤ) ≤ m) (h2 : m < (2 : ℚ) ^ (17 : ℤ))
    (h1' : (2 : ℚ) ^ (-14 : ℤ) ≤ m * (2 : ℚ) ^ k) (h2' : m * (2 : ℚ) ^ k < (2 : ℚ) ^ (17 : ℤ)) :
    ∃ f f' acc, Binary16.newFromBig x = .ok (f, acc) ∧ Binary16.newFromBig x' = .ok (f', acc) ∧
      (f'.bits.toNat : ℤ) = f.bits.toNat + k * 2 ^ 10 := by
  obtain ⟨e, e1, e2, e3, e4⟩ := range_binade h1 h2
  obtain ⟨s1, s2⟩ := scaled_binade k e1 e2
  have e3' := (zpow_lt_zpow_iff_right₀ (by norm_num : (1 : ℚ) < 2)).1 (h1'.trans_lt s2)
  have e4' := (zpow_lt_zpow_iff_right₀ (by norm_num : (1 : ℚ) < 2)).1 (s1.trans_lt h2')
  obtain ⟨f, acc, a1, -, -, a2⟩ := Binary16.C55_binary16_big x hx hd e1 e2
  obtain ⟨f', acc', b1, -, -, b2⟩ := Binary16.C55_binary16_big x' hx' hd' s1 s2
  obtain ⟨a3, a4⟩ := a2 e3
  obtain ⟨b3, b4⟩ := b2 e3'
  rw [scaled_unit] at b3 b4
  rw [if_neg (show ¬ 18 ≤ e by omega)] at a4
  rw [if_neg (show ¬ 18 ≤ e + k by omega)] at b4
  obtain rfl : acc' = acc := by rw [a4, b4]
  refine ⟨f, f', acc', a1, b1, ?_⟩
  rw [a3, b3, Int.emod_eq_of_lt (by omega) (by omega), Int.emod_eq_of_lt (by omega) (by omega)]
  ring

/-- C122 for `binary16.NewFromBig`: in the normal range, a factor of 2^k only adds k to the exponent field, and the accuracy is the same. -/
theorem C122_binary16 (x x' : BigFloat) (hx : x.WF) (hx' : x'.WF) {s : Bool} {m : ℚ} {k : ℤ} (hd : x.datum = .num s m)
    (hd' : x'.datum = .num s (m * (2 : ℚ) ^ k)) (h1 : (2 : ℚ) ^ (-14 : ℤ) ≤ m) (h2 : m < (2 : ℚ) ^ (16 : ℤ))
    (h1' : (2 : ℚ) ^ (-14 : ℤ) ≤ m * (2 : ℚ) ^ k) (h2' : m * (2 : ℚ) ^ k < (2 : ℚ) ^ (16 : ℤ)) :
    ∃ f f' acc, Binary16.newFromBig x = .ok (f, acc) ∧ Binary16.newFromBig x' = .ok (f', acc) ∧
      (f'.bits.toNat : ℤ) = f.bits.toNat + k * 2 ^ 10 :=
  Binary16.scale_big hx hx' hd hd' h1 (h2.trans (by norm_num)) h1' (h2'.trans (by norm_num))

/-- C122 for `binary16.NewFromFloat64`. -/
theorem C122_binary16_float64 (x x' : F64) {s : Bool} {m : ℚ} {k : ℤ} (hd : double.decode x.toNat = .num s m)
    (hd' : double.decode x'.toNat = .num s (m * (2 : ℚ) ^ k)) (h1 : (2 : ℚ) ^ (-14 : ℤ) ≤ m) (h2 : m < (2 : ℚ) ^ (16 : ℤ))
    (h1' : (2 : ℚ) ^ (-14 : ℤ) ≤ m * (2 : ℚ) ^ k) (h2' : m * (2 : ℚ) ^ k < (2 : ℚ) ^ (16 : ℤ)) :
    ∃ f f' acc, Binary16.newFromFloat64 x = .ok (f, acc) ∧ Binary16.newFromFloat64 x' = .ok (f', acc) ∧
      (f'.bits.toNat : ℤ) = f.bits.toNat + k * 2 ^ 10 := by
  have hp : (0 : ℚ) < (2 : ℚ) ^ k := by positivity
  have hm : 0 < m := lt_of_lt_of_le (by positivity) h1
  have hm' : 0 < m * (2 : ℚ) ^ k := by positivity
  obtain ⟨z, r, z1, z2, z3, z4⟩ := Binary16.C55_binary16_float64 x hd hm.ne'
  obtain ⟨z', r', y1, y2, y3, y4⟩ := Binary16.C55_binary16_float64 x' hd' hm'.ne'
  have z5 := RoundsToBits.scale z4 k
  rw [← signed_scale, ← signed_scale] at z5
  have hne : signed s (m * (2 : ℚ) ^ k) ≠ 0 := by unfold signed; split <;> linarith
  have hr := RoundsToBits.unique (by norm_num) hne y4 z5
  obtain rfl : r' = r * (2 : ℚ) ^ k := by unfold signed at hr; split at hr <;> linarith
  have range : ∀ {m r : ℚ}, RoundsToBits 11 (signed s m) (signed s r) → (2 : ℚ) ^ (-14 : ℤ) ≤ m → m < (2 : ℚ) ^ (16 : ℤ) →
      (2 : ℚ) ^ (-14 : ℤ) ≤ r ∧ r < (2 : ℚ) ^ (17 : ℤ) := by
    intro m r h g1 g2
    have a := h.2.1 (if s then -1 else 1) (-14) (by cases s <;> norm_num)
    have b := h.2.1 (if s then -1 else 1) 16 (by cases s <;> norm_num)
    unfold signed at a b
    cases s
    · simp only [Bool.false_eq_true, if_false] at a b
      rw [Int.cast_one, one_mul] at a b
      rw [abs_of_nonneg (by linarith : (0 : ℚ) ≤ m - (2 : ℚ) ^ (-14 : ℤ))] at a
      rw [abs_of_nonpos (by linarith : m - (2 : ℚ) ^ (16 : ℤ) ≤ 0)] at b
      obtain ⟨a1, a2⟩ := abs_le.1 a
      obtain ⟨b1, b2⟩ := abs_le.1 b
      exact ⟨by linarith, lt_of_le_of_lt (by linarith : r ≤ (2 : ℚ) ^ (16 : ℤ)) (by norm_num)⟩
    · simp only [if_true] at a b
      rw [Int.cast_neg, Int.cast_one] at a b
      rw [show -m - -1 * (2 : ℚ) ^ (-14 : ℤ) = -(m - (2 : ℚ) ^ (-14 : ℤ)) by ring, abs_neg, show -m - -r = -(m - r) by ring, abs_neg,
        abs_of_nonneg (by linarith : (0 : ℚ) ≤ m - (2 : ℚ) ^ (-14 : ℤ))] at a
      rw [show -m - -1 * (2 : ℚ) ^ (16 : ℤ) = -(m - (2 : ℚ) ^ (16 : ℤ)) by ring, abs_neg, show -m - -r = -(m - r) by ring, abs_neg,
        abs_of_nonpos (by linarith : m - (2 : ℚ) ^ (16 : ℤ) ≤ 0)] at b
      obtain ⟨a1, a2⟩ := abs_le.1 a
      obtain ⟨b1, b2⟩ := abs_le.1 b
      exact ⟨by linarith, lt_of_le_of_lt (by linarith : r ≤ (2 : ℚ) ^ (16 : ℤ)) (by norm_num)⟩
  obtain ⟨r1, r2⟩ := range z4 h1 h2
  obtain ⟨r1', r2'⟩ := range y4 h1' h2'
  rw [z1, y1]
  exact Binary16.scale_big z2 y2 z3 y3 r1 r2 r1' r2'

/-- C122 for `binary128.NewFromBig`. -/
theorem C122_binary128 (x x' : BigFloat) (hx : x.WF) (hx' : x'.WF) {s : Bool} {m : ℚ} {k : ℤ} (hd : x.datum = .num s m)
    (hd' : x'.datum = .num s (m * (2 : ℚ) ^ k)) (h1 : (2 : ℚ) ^ (-16382 : ℤ) ≤ m) (h2 : m < (2 : ℚ) ^ (16384 : ℤ))
    (h1' : (2 : ℚ) ^ (-16382 : ℤ) ≤ m * (2 : ℚ) ^ k) (h2' : m * (2 : ℚ) ^ k < (2 : ℚ) ^ (16384 : ℤ)) :
    ∃ f f' acc, Binary128.newFromBig x = .ok (f, acc) ∧ Binary128.newFromBig x' = .ok (f', acc) ∧
      (f'.code : ℤ) = f.code + k * 2 ^ 112 := by
  obtain ⟨e, e1, e2, e3, e4⟩ := range_binade h1 h2
  obtain ⟨s1, s2⟩ := scaled_binade k e1 e2
  have e3' := (zpow_lt_zpow_iff_right₀ (by norm_num : (1 : ℚ) < 2)).1 (h1'.trans_lt s2)
  have e4' := (zpow_lt_zpow_iff_right₀ (by norm_num : (1 : ℚ) < 2)).1 (s1.trans_lt h2')
  obtain ⟨f, acc, a1, -, -, a2⟩ := Binary128.C55_binary128_big x hx hd e1 e2
  obtain ⟨f', acc', b1, -, -, b2⟩ := Binary128.C55_binary128_big x' hx' hd' s1 s2
  obtain ⟨a3, a4⟩ := a2 e3
  obtain ⟨b3, b4⟩ := b2 e3'
  rw [scaled_unit] at b3 b4
  rw [if_neg (show ¬ 16386 ≤ e by omega)] at a4
  rw [if_neg (show ¬ 16386 ≤ e + k by omega)] at b4
  obtain rfl : acc' = acc := by rw [a4, b4]
  refine ⟨f, f', acc', a1, b1, ?_⟩
  rw [a3, b3, Int.emod_eq_of_lt (by omega) (by omega), Int.emod_eq_of_lt (by omega) (by omega)]
  ring

/-- C122 for `float80x86.NewFromBig`: the sign and exponent word grows by k, and the significand is the same. -/
theorem C122_float80x86 (x x' : BigFloat) (hx : x.WF) (hx' : x'.WF) {s : Bool} {m : ℚ} {k : ℤ} (hd : x.datum = .num s m)
    (hd' : x'.datum = .num s (m * (2 : ℚ) ^ k)) (h1 : (2 : ℚ) ^ (-16382 : ℤ) ≤ m) (h2 : m < (2 : ℚ) ^ (16384 : ℤ))
    (h1' : (2 : ℚ) ^ (-16382 : ℤ) ≤ m * (2 : ℚ) ^ k) (h2' : m * (2 : ℚ) ^ k < (2 : ℚ) ^ (16384 : ℤ)) :
    ∃ f f' acc, Float80x86.newFromBig x = .ok (f, acc) ∧ Float80x86.newFromBig x' = .ok (f', acc) ∧
      (f'.se.toNat : ℤ) = f.se.toNat + k ∧ f'.m = f.m := by
  obtain ⟨e, e1, e2, e3, e4⟩ := range_binade h1 h2
  obtain ⟨s1, s2⟩ := scaled_binade k e1 e2
  have e3' := (zpow_lt_zpow_iff_right₀ (by norm_num : (1 : ℚ) < 2)).1 (h1'.trans_lt s2)
  have e4' := (zpow_lt_zpow_iff_right₀ (by norm_num : (1 : ℚ) < 2)).1 (s1.trans_lt h2')
  obtain ⟨f, acc, a1, -, -, a2⟩ := Float80x86.C55_float80x86_big x hx hd e1 e2
  obtain ⟨f', acc', b1, -, -, b2⟩ := Float80x86.C55_float80x86_big x' hx' hd' s1 s2
  obtain ⟨a3, a5, a4⟩ := a2 e3
  obtain ⟨b3, b5, b4⟩ := b2 e3'
  rw [scaled_unit] at b5 b4
  rw [if_neg (show ¬ 16386 ≤ e by omega)] at a4
  rw [if_neg (show ¬ 16386 ≤ e + k by omega)] at b4
  obtain rfl : acc' = acc := by rw [a4, b4]
  refine ⟨f, f', acc', a1, b1, ?_, BitVec.eq_of_toNat_eq (by rw [← a5] at b5; exact_mod_cast b5)⟩
  rw [a3, b3, Int.emod_eq_of_lt (by omega) (by omega), Int.emod_eq_of_lt (by omega) (by omega)]
  ring

/-- C122 is not vacuous: -11/8 and -11, and 1 + 2^-199, which is not kept, and 2^-9 times that. -/
def eleven : BigFloat := ⟨53, .toNearestEven, .exact, .finite, true, 11, 4⟩

theorem eleven_wf : eleven.WF :=
  ⟨by decide, fun _ => by decide, fun _ => by decide, fun _ => by decide, fun _ => by decide, fun _ => ⟨11, 0, by decide, by decide⟩⟩

theorem eleven_datum : eleven.datum = .num true (11 / 8 * (2 : ℚ) ^ (3 : ℤ)) := by rw [BigFloat.datum_lit 4 rfl (by decide)]; norm_num [eleven]

def smallY : BigFloat := ⟨200, .awayFromZero, .exact, .finite, false, 2 ^ 199 + 1, -8⟩

theorem smallY_wf : smallY.WF :=
  ⟨by decide, fun _ => by decide, fun _ => by decide, fun _ => by decide, fun _ => by decide, fun _ => ⟨2 ^ 199 + 1, 0, by decide, by decide +kernel⟩⟩

theorem smallY_datum : smallY.datum = .num false ((1 + 1 / 2 ^ 199) * (2 : ℚ) ^ (-9 : ℤ)) := by
  rw [BigFloat.datum_lit 200 rfl (by decide +kernel)]; norm_num [smallY]

example := C122_binary16 Sample.x eleven Sample.x_wf eleven_wf Sample.x_datum eleven_datum (by norm_num) (by norm_num) (by norm_num) (by norm_num)
example := C122_binary16 Sample.y smallY Sample.y_wf smallY_wf Sample.y_datum smallY_datum (by norm_num) (by norm_num) (by norm_num) (by norm_num)
example := C122_binary16_float64 0xBFF6000000000000 0xC026000000000000 (k := 3) Sample.x_double (by
  show double.decode 0xC026000000000000 = _
  norm_num [double, Format.decode, Format.bias]) (by norm_num) (by norm_num) (by norm_num) (by norm_num)

theorem scale_small : (2 : ℚ) ^ (-16382 : ℤ) ≤ (2 : ℚ) ^ (-9 : ℤ) := zpow_le_zpow_right₀ (by norm_num) (by norm_num)
theorem scale_large : (2 : ℚ) ^ (4 : ℤ) ≤ (2 : ℚ) ^ (16384 : ℤ) := zpow_le_zpow_right₀ (by norm_num) (by norm_num)

example := C122_binary128 Sample.y smallY Sample.y_wf smallY_wf Sample.y_datum smallY_datum (scale_small.trans (by norm_num))
  (lt_of_lt_of_le (by norm_num) scale_large) (scale_small.trans (by norm_num)) (lt_of_lt_of_le (by norm_num) scale_large)
example := C122_float80x86 Sample.x eleven Sample.x_wf eleven_wf Sample.x_datum eleven_datum (scale_small.trans (by norm_num))
  (lt_of_lt_of_le (by norm_num) scale_large) (scale_small.trans (by norm_num)) (lt_of_lt_of_le (by norm_num) scale_large)

end GoFloat
