import Verif.Proofs.Sample
import Verif.Props.Value
import Verif.Proofs.Interval
import Verif.Spec.DecimalValue
/-
Exactly when the constructors from big.Float return the number nearest to their argument (C71 of properties.jsonl).
-/
namespace GoFloat
open Spec

/-- A number rounds to a finite encoding exactly if it is in the interval of its code. -/
theorem roundsTo_num_iff (F : Format) (ht : 1 ≤ F.t) (hw : 2 ≤ F.w) {c n : ℕ} {s : Bool} (hn : n < F.infCode)
    (hd : F.decode c = .num s (F.magc n)) {m : ℚ} (hm : 0 ≤ m) : F.RoundsTo s m c ↔ InInterval F n m := by
  rw [← roundsTo_iff F ht hw s hn hm]
  have hd' := F.decode_code s hn
  obtain ⟨n', -, h2, h3, -⟩ := F.code_of_decode hd
  have hnn : n' = n := F.magc_strictMono.injective h2.symm
  subst hnn
  have hpar : c % 2 = (F.signPart s + n') % 2 := by
    have hsg := signPart_even F ht s
    rw [Nat.add_mod, hsg, Nat.zero_add, Nat.mod_mod, ← h3]
    obtain ⟨j, hj⟩ : ∃ j, F.t + F.w = j + 1 := ⟨F.t + F.w - 1, by omega⟩
    rw [hj, pow_succ]
    exact (Nat.mod_mul_left_mod c (2 ^ j) 2).symm
  unfold Format.RoundsTo
  rw [hd, hd', hpar]

/-- Of a subnormal or the first normal numbers: the multiple of the smallest number nearest to `m`. -/
theorem interval_low (F : Format) {N : ℕ} (hN : N + 1 ≤ 2 ^ (F.t + 1)) {m : ℚ} (hm : 0 ≤ m) :
    InInterval F N m ↔ NearestEven (m * (2 : ℚ) ^ (-F.qmin)) N := by
  have e1 : F.magc N = N * (2 : ℚ) ^ F.qmin := by
    have := F.magc_eq (k := 0) (N := N) (by omega) (Or.inl rfl)
    simpa using this
  have e2 : F.magc (N + 1) = (N + 1) * (2 : ℚ) ^ F.qmin := by
    have := F.magc_eq (k := 0) (N := N + 1) (by omega) (Or.inl rfl)
    simpa using this
  have e0 : N ≠ 0 → F.magc (N - 1) = (N - 1) * (2 : ℚ) ^ F.qmin := by
    intro h
    have := F.magc_eq (k := 0) (N := N - 1) (by omega) (Or.inl rfl)
    rw [Nat.cast_sub (by omega)] at this
    simpa using this
  have hQ : (0 : ℚ) < 2 ^ F.qmin := by positivity
  obtain ⟨v, rfl⟩ : ∃ v, m = v * (2 : ℚ) ^ F.qmin := ⟨m / 2 ^ F.qmin, by field_simp⟩
  have hv : 0 ≤ v := nonneg_of_mul_nonneg_left hm hQ
  have hvv : v * (2 : ℚ) ^ F.qmin * 2 ^ (-F.qmin) = v := by
    rw [mul_assoc, ← zpow_add₀ (by norm_num), add_neg_cancel, zpow_zero, mul_one]
  rw [hvv]
  unfold InInterval NearestEven
  rw [e1, e2]
  have hle : ∀ a b : ℚ, a * (2 : ℚ) ^ F.qmin ≤ b * 2 ^ F.qmin ↔ a ≤ b := fun a b => mul_le_mul_iff_left₀ hQ
  have hlt : ∀ a b : ℚ, a * (2 : ℚ) ^ F.qmin < b * 2 ^ F.qmin ↔ a < b := fun a b => mul_lt_mul_iff_left₀ hQ
  have hev : Even (N : ℤ) ↔ ¬ N % 2 = 1 := by rw [Int.even_coe_nat, Nat.even_iff]; omega
  rw [← add_mul, ← mul_assoc, hle, hlt, hev]
  constructor
  · rintro ⟨h1, h2, h3⟩
    have hlow : (N : ℚ) - v ≤ 1 / 2 ∧ (N % 2 = 1 → (N : ℚ) - v < 1 / 2) := by
      by_cases hz : N = 0
      · subst hz
        refine ⟨by push_cast; linarith, by omega⟩
      · obtain ⟨g1, g2⟩ := h1 hz
        rw [e0 hz, ← add_mul, hle] at g1
        rw [e0 hz, ← add_mul, hlt] at g2
        exact ⟨by linarith, fun h => by linarith [g2 h]⟩
    push_cast
    refine ⟨abs_le.2 ⟨by linarith [hlow.1], by linarith⟩, fun h ho => ?_⟩
    have a := hlow.2 ho
    have b := h3 ho
    have : |v - (N : ℚ)| < 1 / 2 := abs_lt.2 ⟨by linarith, by linarith⟩
    linarith
  · rintro ⟨h1, h2⟩
    push_cast at h1 h2
    rw [abs_le] at h1
    have hst : N % 2 = 1 → |v - (N : ℚ)| < 1 / 2 := fun ho => lt_of_le_of_ne (abs_le.2 h1) fun h => h2 h ho
    refine ⟨fun hz => ?_, by linarith [h1.2], fun ho => by have := (abs_lt.1 (hst ho)).2; linarith⟩
    rw [e0 hz, ← add_mul, hle, hlt]
    exact ⟨by linarith [h1.1], fun ho => by have := (abs_lt.1 (hst ho)).1; linarith⟩

/-- Of a number truncated to the bits of the format. -/
theorem interval_trunc (F : Format) (ht : 1 ≤ F.t) {k : ℕ} {K : ℕ} (hK : K + 1 ≤ 2 ^ (F.t + 1)) (hk : k = 0 ∨ 2 ^ F.t ≤ K) {v : ℚ}
    (h1 : (K : ℚ) ≤ v) :
    InInterval F (k * 2 ^ F.t + K) (v * (2 : ℚ) ^ (F.qmin + k)) ↔ NearestEven v K := by
  have e1 : F.magc (k * 2 ^ F.t + K) = K * (2 : ℚ) ^ (F.qmin + k) := F.magc_eq (by omega) hk
  have e2 : F.magc (k * 2 ^ F.t + K + 1) = (K + 1) * (2 : ℚ) ^ (F.qmin + k) := by
    have := F.magc_eq (k := k) (N := K + 1) hK (hk.imp_right (by omega))
    push_cast at this
    rw [← this, Nat.add_assoc]
  have hQ : (0 : ℚ) < 2 ^ (F.qmin + (k : ℤ)) := by positivity
  have hpar : (k * 2 ^ F.t + K) % 2 = 1 ↔ K % 2 = 1 := by
    obtain ⟨j, hj⟩ : ∃ j, F.t = j + 1 := ⟨F.t - 1, by omega⟩
    rw [hj, pow_succ, ← Nat.mul_assoc]
    omega
  have hlow : k * 2 ^ F.t + K ≠ 0 → F.magc (k * 2 ^ F.t + K - 1) < K * (2 : ℚ) ^ (F.qmin + k) := by
    intro h
    rw [← e1]
    exact F.magc_strictMono (by omega)
  have hev : Even (K : ℤ) ↔ ¬ K % 2 = 1 := by rw [Int.even_coe_nat, Nat.even_iff]; omega
  unfold InInterval NearestEven
  rw [e1, e2, hpar, hev]
  generalize (2 : ℚ) ^ (F.qmin + (k : ℤ)) = Q at *
  have hm : (K : ℚ) * Q ≤ v * Q := mul_le_mul_of_nonneg_right h1 hQ.le
  have hle : ∀ a b : ℚ, a * Q ≤ b * Q ↔ a ≤ b := fun a b => mul_le_mul_iff_left₀ hQ
  have hlt : ∀ a b : ℚ, a * Q < b * Q ↔ a < b := fun a b => mul_lt_mul_iff_left₀ hQ
  have habs : |v - ((K : ℤ) : ℚ)| = v - K := by push_cast; exact abs_of_nonneg (by linarith)
  rw [habs, ← add_mul, ← mul_assoc, hle, hlt]
  constructor
  · rintro ⟨-, g1, g2⟩
    exact ⟨by linarith, fun h ho => by have := g2 ho; linarith⟩
  · rintro ⟨g1, g2⟩
    refine ⟨fun h => ⟨?_, fun _ => ?_⟩, by linarith, fun ho => ?_⟩
    · have := hlow h; rw [mul_assoc]; linarith
    · have := hlow h; rw [mul_assoc]; linarith
    · have : v - K < 1 / 2 := lt_of_le_of_ne g1 fun h => g2 h ho
      linarith

/-- Results below the normal range. -/
theorem nearest_low (F : Format) (ht : 1 ≤ F.t) (hw : 2 ≤ F.w) {c : ℕ} {s : Bool} {N : ℤ} (hN0 : 0 ≤ N) (hN : N < 2 ^ (F.t + 1))
    (hd : F.decode c = .num s (N * (2 : ℚ) ^ F.qmin)) {m : ℚ} (hm : 0 ≤ m) :
    F.RoundsTo s m c ↔ NearestEven (m * (2 : ℚ) ^ (-F.qmin)) N := by
  obtain ⟨N, rfl⟩ := Int.eq_ofNat_of_zero_le hN0
  have hb : N < 2 ^ (F.t + 1) := by exact_mod_cast hN
  have hif : N < F.infCode := by
    unfold Format.infCode
    have : 2 * 2 ^ F.t ≤ (2 ^ F.w - 1) * 2 ^ F.t := Nat.mul_le_mul_right _ (by
      have : 2 ^ 2 ≤ 2 ^ F.w := Nat.pow_le_pow_right (by norm_num) hw
      omega)
    rw [pow_succ] at hb
    omega
  have e1 : F.magc N = ((N : ℤ) : ℚ) * (2 : ℚ) ^ F.qmin := by
    have := F.magc_eq (k := 0) (N := N) (by omega) (Or.inl rfl)
    simpa using this
  rw [roundsTo_num_iff F ht hw hif (by rw [hd, e1]) hm]
  exact interval_low F hb hm

/-- Results in the normal range: the number truncated to the bits of the format. -/
theorem nearest_trunc (F : Format) (ht : 1 ≤ F.t) (hw : 2 ≤ F.w) {c : ℕ} {s : Bool} {m : ℚ} {e : ℤ} (h1 : (2 : ℚ) ^ (e - 1) ≤ m)
    (h2 : m < (2 : ℚ) ^ e) (hlo : F.qmin + F.t < e) (hhi : e ≤ F.bias + 1)
    (hd : F.decode c = .num s (⌊m * (2 : ℚ) ^ ((F.t : ℤ) + 1 - e)⌋ * (2 : ℚ) ^ (e - (F.t + 1)))) :
    F.RoundsTo s m c ↔ NearestEven (m * (2 : ℚ) ^ ((F.t : ℤ) + 1 - e)) ⌊m * (2 : ℚ) ^ ((F.t : ℤ) + 1 - e)⌋ := by
  have hP := Nat.two_pow_pos F.t
  have hmp : 0 < m := lt_of_lt_of_le (by positivity) h1
  set v : ℚ := m * (2 : ℚ) ^ ((F.t : ℤ) + 1 - e) with hv
  have hmv : m = v * (2 : ℚ) ^ (e - (F.t + 1)) := by
    rw [hv, mul_assoc, ← zpow_add₀ (by norm_num), show ((F.t : ℤ) + 1 - e + (e - (F.t + 1))) = 0 by ring, zpow_zero, mul_one]
  have v1 : (2 : ℚ) ^ F.t ≤ v := by
    have : (2 : ℚ) ^ (e - 1) * (2 : ℚ) ^ ((F.t : ℤ) + 1 - e) ≤ v := by rw [hv]; gcongr
    rw [← zpow_add₀ (by norm_num), show e - 1 + ((F.t : ℤ) + 1 - e) = F.t by ring, zpow_natCast] at this
    exact this
  have v2 : v < (2 : ℚ) ^ (F.t + 1) := by
    have : v < (2 : ℚ) ^ e * (2 : ℚ) ^ ((F.t : ℤ) + 1 - e) := by rw [hv]; gcongr
    rw [← zpow_add₀ (by norm_num), show e + ((F.t : ℤ) + 1 - e) = ((F.t + 1 : ℕ) : ℤ) by push_cast; ring, zpow_natCast] at this
    exact this
  have hv0 : 0 ≤ v := le_trans (by positivity) v1
  obtain ⟨K, hK⟩ := Int.eq_ofNat_of_zero_le (Int.floor_nonneg.2 hv0)
  have hK' : ((⌊v⌋ : ℤ) : ℚ) = K := by rw [hK]; simp
  have k1 : (K : ℚ) ≤ v := by rw [← hK']; exact Int.floor_le v
  have k3 : 2 ^ F.t ≤ K := by
    have : ((2 ^ F.t : ℤ)) ≤ ⌊v⌋ := Int.le_floor.2 (by exact_mod_cast v1)
    rw [hK] at this
    exact_mod_cast this
  have k4 : K + 1 ≤ 2 ^ (F.t + 1) := by
    have : ⌊v⌋ < (2 ^ (F.t + 1) : ℤ) := Int.floor_lt.2 (by exact_mod_cast v2)
    rw [hK] at this
    have : (K : ℤ) < ((2 ^ (F.t + 1) : ℕ) : ℤ) := by push_cast; exact this
    omega
  obtain ⟨k, hk⟩ : ∃ k : ℕ, e - (F.t + 1) = F.qmin + k := ⟨(e - (F.t + 1) - F.qmin).toNat, by omega⟩
  have hbw : (2 : ℤ) ^ F.w = 2 * (F.bias + 1) := by
    unfold Format.bias
    obtain ⟨j, hj⟩ : ∃ j, F.w = j + 1 := ⟨F.w - 1, by omega⟩
    rw [hj, Nat.add_sub_cancel, pow_succ]
    ring
  have hqm : F.qmin = 1 - F.bias - F.t := rfl
  have hkb : k + 3 ≤ 2 ^ F.w := by
    have : ((2 ^ F.w : ℕ) : ℤ) = 2 * (F.bias + 1) := by push_cast; exact hbw
    omega
  have hif : k * 2 ^ F.t + K < F.infCode := by
    unfold Format.infCode
    have : (k + 2) * 2 ^ F.t ≤ (2 ^ F.w - 1) * 2 ^ F.t := Nat.mul_le_mul_right _ (by omega)
    rw [pow_succ] at k4
    nlinarith
  have hmag : F.magc (k * 2 ^ F.t + K) = ((⌊v⌋ : ℤ) : ℚ) * (2 : ℚ) ^ (e - (F.t + 1)) := by
    rw [F.magc_eq (by omega) (Or.inr k3), hk, hK']
  rw [roundsTo_num_iff F ht hw hif (by rw [hd, hmag]) hmp.le, hmv, hk, hK]
  exact interval_trunc F ht k4 (Or.inr k3) k1

/-- Numbers below the smallest one round to it or to zero. -/
theorem nearest_residue {v : ℚ} {N : ℤ} (hv0 : 0 ≤ v) (hv : v < 1) :
    NearestEven v N ↔ v ≤ 1 / 2 ∧ N = 0 ∨ 1 / 2 < v ∧ N = 1 := by
  unfold NearestEven
  constructor
  · rintro ⟨h1, h2⟩
    rw [abs_le] at h1
    have a : (N : ℚ) < 2 := by linarith
    have b : (-1 : ℚ) < N := by linarith
    have a' : N < 2 := by exact_mod_cast a
    have b' : -1 < N := by exact_mod_cast b
    obtain rfl | rfl : N = 0 ∨ N = 1 := by omega
    · left; push_cast at h1; exact ⟨by linarith, rfl⟩
    · right
      push_cast at h1 h2
      refine ⟨lt_of_le_of_ne (by linarith) fun h => ?_, rfl⟩
      have := h2 (by rw [← h]; norm_num [abs_of_nonpos])
      revert this; decide
  · rintro (⟨h, rfl⟩ | ⟨h, rfl⟩)
    · push_cast
      exact ⟨by rw [abs_le]; constructor <;> linarith, fun _ => ⟨0, rfl⟩⟩
    · push_cast
      refine ⟨by rw [abs_le]; constructor <;> linarith, fun h' => ?_⟩
      rw [abs_of_nonpos (by linarith)] at h'
      linarith

/-- Beyond the range only the infinity is right. -/
theorem nearest_high (F : Format) {c : ℕ} {s : Bool} {m : ℚ} (h : (2 : ℚ) ^ (F.bias + 1) ≤ m) :
    F.RoundsTo s m c ↔ F.decode c = .inf s := by
  have ho : F.overflowAt ≤ m := by
    refine le_trans ?_ h
    unfold Format.overflowAt
    rw [zpow_add_one₀ (by norm_num)]
    have : (0 : ℚ) < 1 / 2 ^ (F.t + 1) := by positivity
    gcongr
    linarith
  unfold Format.RoundsTo
  rw [if_pos ho]

/-- `m / 2^-u` for `m` below the smallest number `2^-u`. -/
theorem units_lt {m : ℚ} {e u : ℤ} (h2 : m < (2 : ℚ) ^ e) (h : e ≤ -u) : m * (2 : ℚ) ^ u < 1 := by
  have h3 : (2 : ℚ) ^ e ≤ (2 : ℚ) ^ (-u) := zpow_le_zpow_right₀ (by norm_num) h
  calc m * (2 : ℚ) ^ u < (2 : ℚ) ^ (-u) * (2 : ℚ) ^ u := by
        have := h2.trans_le h3
        gcongr
    _ = 1 := by rw [← zpow_add₀ (by norm_num), neg_add_cancel, zpow_zero]

theorem units_half {m : ℚ} (u : ℤ) : m * (2 : ℚ) ^ u ≤ 1 / 2 ↔ m ≤ (2 : ℚ) ^ (-u - 1) := by
  have hp : (0 : ℚ) < 2 ^ u := by positivity
  rw [show (2 : ℚ) ^ (-u - 1) = 1 / 2 / 2 ^ u by rw [zpow_sub_one₀ (by norm_num), zpow_neg]; field_simp, le_div_iff₀ hp]

theorem floor_units_lt {m : ℚ} {e u : ℤ} (t : ℕ) (h2 : m < (2 : ℚ) ^ e) (h : e ≤ t - u) : ⌊m * (2 : ℚ) ^ u⌋ < 2 ^ t := by
  rw [Int.floor_lt]
  have h3 : (2 : ℚ) ^ e ≤ (2 : ℚ) ^ (t - u : ℤ) := zpow_le_zpow_right₀ (by norm_num) h
  calc m * (2 : ℚ) ^ u < (2 : ℚ) ^ (t - u : ℤ) * (2 : ℚ) ^ u := by
        have := h2.trans_le h3
        gcongr
    _ = _ := by rw [← zpow_add₀ (by norm_num), sub_add_cancel]; push_cast; rfl

namespace Binary16

/-- C71: exactly when the result of `binary16.NewFromBig` for a number of magnitude `m` in `[2^(e-1), 2^e)` is correctly rounded (to nearest, ties
to even). Up to 2^-24, if the residue of its leading bits is by chance the right one of 0 and 1; up to 2^-14 and from there to 2^16, if
the number of whole units happens to be the nearest even one; from 2^16 on, if the result is by chance an infinity. -/
theorem C71_binary16 (x : BigFloat) (hx : x.WF) {s : Bool} {m : ℚ} {e : ℤ} (hd : x.datum = .num s m)
    (h1 : (2 : ℚ) ^ (e - 1) ≤ m) (h2 : m < (2 : ℚ) ^ e) :
    ∃ f acc, newFromBig x = .ok (f, acc) ∧
      (e ≤ -24 → (half.RoundsTo s m f.bits.toNat ↔
        m ≤ (2 : ℚ) ^ (-25 : ℤ) ∧ ⌊m * 2 ^ (20 - e)⌋ % 2 ^ 11 = 0 ∨ (2 : ℚ) ^ (-25 : ℤ) < m ∧ ⌊m * 2 ^ (20 - e)⌋ % 2 ^ 11 = 1)) ∧
      (-24 < e → e ≤ -14 → (half.RoundsTo s m f.bits.toNat ↔ NearestEven (m * 2 ^ (24 : ℤ)) ⌊m * 2 ^ (24 : ℤ)⌋)) ∧
      (-14 < e → e ≤ 16 → (half.RoundsTo s m f.bits.toNat ↔ NearestEven (m * 2 ^ (11 - e)) ⌊m * 2 ^ (11 - e)⌋)) ∧
      (17 ≤ e → (half.RoundsTo s m f.bits.toNat ↔ (e - 17) % 2 ^ 5 = 0 ∧ m < (2 : ℚ) ^ (e - 1) * (1 + 1 / 2 ^ 10))) := by
  obtain ⟨f, acc, hr, a1, a2, a3, a4, a5⟩ := C66_binary16 x hx hd h1 h2
  have hq : half.qmin = -24 := by decide
  have hb : half.bias = 15 := by decide
  have hm0 : 0 ≤ m := le_trans (by positivity) h1
  refine ⟨f, acc, hr, fun h => ?_, fun h h' => ?_, fun h h' => ?_, fun h => ?_⟩
  · have hE0 : 0 ≤ ⌊m * (2 : ℚ) ^ (20 - e)⌋ % 2 ^ 11 := Int.emod_nonneg _ (by norm_num)
    have hE : ⌊m * (2 : ℚ) ^ (20 - e)⌋ % 2 ^ 11 < 2 ^ 11 := Int.emod_lt_of_pos _ (by norm_num)
    rw [nearest_low half (by decide) (by decide) hE0 hE (by rw [a1 h, hq]) hm0, hq, neg_neg,
      nearest_residue (by positivity) (units_lt h2 (by omega)), ← not_le, ← not_le, units_half 24]
    norm_num
  · rw [nearest_low half (by decide) (by decide) (N := ⌊m * (2 : ℚ) ^ (24 : ℤ)⌋) (Int.floor_nonneg.2 (by positivity))
      (floor_units_lt 11 h2 (by omega)) (by rw [a2 h h', hq]) hm0, hq, neg_neg]
  · have := nearest_trunc half (by decide) (by decide) (c := f.bits.toNat) (s := s) h1 h2 (by rw [hq]; show (-24 + (10 : ℕ) : ℤ) < e; omega)
      (by rw [hb]; omega)
    rw [show ((half.t : ℕ) : ℤ) + 1 - e = 11 - e by show ((10 : ℕ) : ℤ) + 1 - e = _; push_cast; ring,
      show e - (((half.t : ℕ) : ℤ) + 1) = (e + 14) % 2 ^ 5 - 25 by show e - (((10 : ℕ) : ℤ) + 1) = _; omega] at this
    exact this (a4 h (by omega) (by omega))
  · rw [nearest_high half (le_trans (zpow_le_zpow_right₀ (by norm_num) (by rw [hb]; omega)) h1)]
    by_cases c : (e - 17) % 2 ^ 5 = 0
    · rw [a5 (by omega) (by omega)]
      split_ifs with c'
      · simp only [c, c', and_self]
      · simp only [c', and_false]
    · simp only [c, false_and, iff_false]
      by_cases c0 : (e + 14) % 2 ^ 5 = 0
      · rw [a3 (by omega) c0]; simp
      · rw [a4 (by omega) (by omega) (by omega)]; simp

example := C71_binary16 Sample.y Sample.y_wf Sample.y_datum (e := 1) (by norm_num) (by norm_num)

end Binary16

namespace Binary128

/-- C71: exactly when the result of `binary128.NewFromBig` for a number of magnitude `m` in `[2^(e-1), 2^e)` is correctly rounded (to nearest, ties
to even). Up to 2^-16494, if the residue of its leading bits is by chance the right one of 0 and 1; up to 2^-16382 and from there to 2^16384, if
the number of whole units happens to be the nearest even one; from 2^16384 on, if the result is by chance an infinity. -/
theorem C71_binary128 (x : BigFloat) (hx : x.WF) {s : Bool} {m : ℚ} {e : ℤ} (hd : x.datum = .num s m)
    (h1 : (2 : ℚ) ^ (e - 1) ≤ m) (h2 : m < (2 : ℚ) ^ e) :
    ∃ f acc, newFromBig x = .ok (f, acc) ∧
      (e ≤ -16494 → (quad.RoundsTo s m f.code ↔
        m ≤ (2 : ℚ) ^ (-16495 : ℤ) ∧ ⌊m * 2 ^ (224 - e)⌋ % 2 ^ 112 = 0 ∨ (2 : ℚ) ^ (-16495 : ℤ) < m ∧ ⌊m * 2 ^ (224 - e)⌋ % 2 ^ 112 = 1)) ∧
      (-16494 < e → e ≤ -16382 → (quad.RoundsTo s m f.code ↔ NearestEven (m * 2 ^ (16494 : ℤ)) ⌊m * 2 ^ (16494 : ℤ)⌋)) ∧
      (-16382 < e → e ≤ 16384 → (quad.RoundsTo s m f.code ↔ NearestEven (m * 2 ^ (113 - e)) ⌊m * 2 ^ (113 - e)⌋)) ∧
      (16385 ≤ e → (quad.RoundsTo s m f.code ↔ (e - 16385) % 2 ^ 15 = 0 ∧ m < (2 : ℚ) ^ (e - 1) * (1 + 1 / 2 ^ 112))) := by
  obtain ⟨f, acc, hr, a1, a2, a3, a4, a5⟩ := C66_binary128 x hx hd h1 h2
  have hq : quad.qmin = -16494 := by decide
  have hb : quad.bias = 16383 := by decide
  have hm0 : 0 ≤ m := le_trans (by positivity) h1
  refine ⟨f, acc, hr, fun h => ?_, fun h h' => ?_, fun h h' => ?_, fun h => ?_⟩
  · have hE0 : 0 ≤ ⌊m * (2 : ℚ) ^ (224 - e)⌋ % 2 ^ 112 := Int.emod_nonneg _ (by norm_num)
    have hE : ⌊m * (2 : ℚ) ^ (224 - e)⌋ % 2 ^ 112 < 2 ^ 112 := Int.emod_lt_of_pos _ (by norm_num)
    rw [nearest_low quad (by decide) (by decide) hE0 (hE.trans (show (2 : ℤ) ^ 112 < 2 ^ (112 + 1) by norm_num)) (by rw [a1 h, hq]) hm0, hq, neg_neg,
      nearest_residue (by positivity) (units_lt h2 (by omega)), ← not_le, ← not_le, units_half 16494, show (-16494 - 1 : ℤ) = -16495 by norm_num]
  · rw [nearest_low quad (by decide) (by decide) (N := ⌊m * (2 : ℚ) ^ (16494 : ℤ)⌋) (Int.floor_nonneg.2 (by positivity))
      (floor_units_lt 113 h2 (by omega)) (by rw [a2 h h', hq]) hm0, hq, neg_neg]
  · have := nearest_trunc quad (by decide) (by decide) (c := f.code) (s := s) h1 h2 (by rw [hq]; show (-16494 + (112 : ℕ) : ℤ) < e; omega)
      (by rw [hb]; omega)
    rw [show ((quad.t : ℕ) : ℤ) + 1 - e = 113 - e by show ((112 : ℕ) : ℤ) + 1 - e = _; push_cast; ring,
      show e - (((quad.t : ℕ) : ℤ) + 1) = (e + 16382) % 2 ^ 15 - 16495 by show e - (((112 : ℕ) : ℤ) + 1) = _; omega] at this
    exact this (a4 h (by omega) (by omega))
  · rw [nearest_high quad (le_trans (zpow_le_zpow_right₀ (by norm_num) (by rw [hb]; omega)) h1)]
    by_cases c : (e - 16385) % 2 ^ 15 = 0
    · rw [a5 (by omega) (by omega)]
      split_ifs with c'
      · simp only [c, c', and_self]
      · simp only [c', and_false]
    · simp only [c, false_and, iff_false]
      by_cases c0 : (e + 16382) % 2 ^ 15 = 0
      · rw [a3 (by omega) c0]; simp
      · rw [a4 (by omega) (by omega) (by omega)]; simp

example := C71_binary128 Sample.y Sample.y_wf Sample.y_datum (e := 1) (by norm_num) (by norm_num)

end Binary128

namespace Float80x86

/-- C71: exactly when the result of `float80x86.NewFromBig` for a number of magnitude `m` in `[2^(e-1), 2^e)` is canonical and correctly rounded: never
below 2^-16445; up to 2^-16382 and from there to 2^16384, if the number of whole units happens to be the nearest even one; from 2^16384
on, if the result is by chance an infinity. -/
theorem C71_float80x86 (x : BigFloat) (hx : x.WF) {s : Bool} {m : ℚ} {e : ℤ} (hd : x.datum = .num s m)
    (h1 : (2 : ℚ) ^ (e - 1) ≤ m) (h2 : m < (2 : ℚ) ^ e) :
    ∃ f acc, newFromBig x = .ok (f, acc) ∧
      (e ≤ -16445 → ¬ (f.Canonical ∧ extended.RoundsTo s m f.code)) ∧
      (-16445 < e → e ≤ -16382 → (f.Canonical ∧ extended.RoundsTo s m f.code ↔ NearestEven (m * 2 ^ (16445 : ℤ)) ⌊m * 2 ^ (16445 : ℤ)⌋)) ∧
      (-16382 < e → e ≤ 16384 → (f.Canonical ∧ extended.RoundsTo s m f.code ↔ NearestEven (m * 2 ^ (64 - e)) ⌊m * 2 ^ (64 - e)⌋)) ∧
      (16385 ≤ e → (f.Canonical ∧ extended.RoundsTo s m f.code ↔
        (e - 16385) % 2 ^ 15 = 0 ∧ m < (2 : ℚ) ^ (e - 1) * (1 + 1 / 2 ^ 63))) := by
  obtain ⟨f, acc, hr, a1, a2, a3, a4⟩ := C66_float80x86 x hx hd h1 h2
  obtain ⟨hq, hb, ht, hw, -⟩ := ext_facts
  have hm0 : 0 < m := lt_of_lt_of_le (by positivity) h1
  have hcan : -16445 < e → e ≤ 16384 → f.Canonical := by
    intro c1 c2
    obtain ⟨hneg, -, hfin⟩ := BigFloat.datum_inj_form hx hd
    obtain ⟨hf, hmag⟩ := hfin hm0.ne'
    have e1 : e - 1 < x.exp := BigFloat.exp_gt_of_mag (by rw [hmag]; exact h1)
    have e2 : x.exp ≤ e := BigFloat.exp_lt_of_mag (hx.mant_pos hf) (by rw [hmag]; exact h2)
    obtain ⟨f', acc', n, hr', hc, -⟩ := newFromBig_range hx hf (by rw [hq]; omega) (by rw [hb]; omega)
    rw [hr] at hr'
    injection hr' with hr'
    injection hr' with e1 e2
    rw [e1]
    exact hc
  have hval : f.Canonical → extended.decode f.code = decode80 f.se.toNat f.m.toNat := fun h => (val_canonical h).symm
  refine ⟨f, acc, hr, fun h => ?_, fun h h' => ?_, fun h h' => ?_, fun h => ?_⟩
  · rintro ⟨hc, h'⟩
    rw [nearest_low extended (by decide) (by decide) (N := 2 ^ 63 - 1) (by norm_num) (by rw [ht]; norm_num)
      (by rw [hval hc, a1 h, hq]; norm_num) hm0.le, hq, neg_neg, nearest_residue (by positivity) (units_lt h2 (by omega))] at h'
    omega
  · have hc := hcan h (by omega)
    rw [and_iff_right hc, nearest_low extended (by decide) (by decide) (N := ⌊m * (2 : ℚ) ^ (16445 : ℤ)⌋) (Int.floor_nonneg.2 (by positivity))
      (floor_units_lt 64 h2 (by omega)) (by rw [hval hc, a2 h h', hq]) hm0.le, hq, neg_neg]
  · have hc := hcan (by omega) h'
    rw [and_iff_right hc]
    have := nearest_trunc extended (by decide) (by decide) (c := f.code) (s := s) h1 h2 (by rw [hq]; show (-16445 + (63 : ℕ) : ℤ) < e; omega)
      (by rw [hb]; omega)
    rw [show ((extended.t : ℕ) : ℤ) + 1 - e = 64 - e by show ((63 : ℕ) : ℤ) + 1 - e = _; push_cast; ring,
      show e - (((extended.t : ℕ) : ℤ) + 1) = max ((e + 16382) % 2 ^ 15) 1 - 16446 by show e - (((63 : ℕ) : ℤ) + 1) = _; omega] at this
    exact this (by rw [hval hc]; exact a3 h (by omega))
  · rw [nearest_high extended (le_trans (zpow_le_zpow_right₀ (by norm_num) (by rw [hb]; omega)) h1)]
    by_cases c : (e - 16385) % 2 ^ 15 = 0
    · have a := a4 (by omega) (by omega)
      by_cases c' : m < (2 : ℚ) ^ (e - 1) * (1 + 1 / 2 ^ 63)
      · simp only [c, c', and_self, iff_true]
        rw [if_pos c'] at a
        have hc : f.Canonical := by
          unfold Float.Canonical Canonical80
          unfold decode80 at a
          simp only at a
          split_ifs at a with g1 g2
          rw [g1, g2]; decide
        exact ⟨hc, by rw [hval hc, a]⟩
      · simp only [c', and_false, iff_false]
        rw [if_neg c'] at a
        rintro ⟨hc, h'⟩
        rw [hval hc, a] at h'
        cases h'
    · simp only [c, false_and, iff_false]
      rintro ⟨hc, h'⟩
      rw [hval hc, a3 (by omega) (by omega)] at h'
      cases h'

example := C71_float80x86 Sample.y Sample.y_wf Sample.y_datum (e := 1) (by norm_num) (by norm_num)

end Float80x86

namespace Binary16

/-- C71: exactly when the result of `binary16.NewFromFloat64` for a number of magnitude `m`, which is `r` when rounded to 11 bits, is correctly
rounded: in the normal range always; below it, if the whole units of 2^-24 in `r` are the nearest even number of units in `m` (and if
even `r` is less than one unit, if the residue of its leading bits is by chance the right one of 0 and 1); from 2^16 on, if the result is
by chance an infinity. -/
theorem C71_binary16_float64 (x : F64) {s : Bool} {m : ℚ} (hd : double.decode x.toNat = .num s m) (hm : m ≠ 0) :
    ∃ f acc r, newFromFloat64 x = .ok (f, acc) ∧ RoundsToBits 11 m r ∧
      (∀ e : ℤ, (2 : ℚ) ^ (e - 1) ≤ r → r < (2 : ℚ) ^ e → e ≤ -24 → (half.RoundsTo s m f.bits.toNat ↔
        m ≤ (2 : ℚ) ^ (-25 : ℤ) ∧ ⌊r * 2 ^ (20 - e)⌋ % 2 ^ 11 = 0 ∨ (2 : ℚ) ^ (-25 : ℤ) < m ∧ ⌊r * 2 ^ (20 - e)⌋ % 2 ^ 11 = 1)) ∧
      ((2 : ℚ) ^ (-24 : ℤ) ≤ r → m < (2 : ℚ) ^ (-14 : ℤ) → (half.RoundsTo s m f.bits.toNat ↔ NearestEven (m * 2 ^ (24 : ℤ)) ⌊r * 2 ^ (24 : ℤ)⌋)) ∧
      ((2 : ℚ) ^ (-14 : ℤ) ≤ m → m < (2 : ℚ) ^ (16 : ℤ) → half.RoundsTo s m f.bits.toNat) ∧
      ((2 : ℚ) ^ (16 : ℤ) ≤ m → (half.RoundsTo s m f.bits.toNat ↔
        ∃ k : ℕ, (2 : ℚ) ^ (16 + 32 * k) * (1 - 1 / 2 ^ 12) ≤ m ∧ m ≤ (2 : ℚ) ^ (16 + 32 * k) * (1 + 1 / 2 ^ 11))) := by
  have hpos : 0 < m := lt_of_le_of_ne (by
    obtain ⟨n, -, rfl, -⟩ := double.code_of_decode hd
    exact double.magc_nonneg n) (Ne.symm hm)
  obtain ⟨z, r, hr, hz, hzd, hrb⟩ := C55_binary16_float64 x hd hm
  have hrb := roundsToBits_mag hrb
  have hrp : 0 < r := by
    obtain ⟨i, hi, -⟩ := exists_mem_Ico_zpow hpos (by norm_num : (1 : ℚ) < 2)
    have hp : (0 : ℚ) < (2 : ℚ) ^ i := by positivity
    exact hp.trans_le ((rounds_reaches hrb i).2 (by nlinarith))
  obtain ⟨i, hi1, hi2⟩ := exists_mem_Ico_zpow hrp (by norm_num : (1 : ℚ) < 2)
  have hi1' : (2 : ℚ) ^ (i + 1 - 1) ≤ r := by rwa [add_sub_cancel_right]
  obtain ⟨f, acc, h1, a1, a2, a3, a4, a5⟩ := C66_binary16 z hz hzd hi1' hi2
  have hfx := hr.trans h1
  have hq : half.qmin = -24 := by decide
  have hb : half.bias = 15 := by decide
  have hpow : ∀ a b : ℤ, (2 : ℚ) ^ a ≤ r → r < (2 : ℚ) ^ b → a < b := fun a b ha hb =>
    (zpow_lt_zpow_iff_right₀ (by norm_num : (1 : ℚ) < 2)).1 (ha.trans_lt hb)
  refine ⟨f, acc, r, hfx, hrb, fun e g1 g2 h => ?_, fun g1 g2 => ?_, fun g1 g2 => ?_, fun g1 => ?_⟩
  · obtain rfl : e = i + 1 := by
      have := hpow _ _ g1 hi2
      have := hpow _ _ hi1 g2
      omega
    have hE0 : 0 ≤ ⌊r * (2 : ℚ) ^ (20 - (i + 1))⌋ % 2 ^ 11 := Int.emod_nonneg _ (by norm_num)
    have hE : ⌊r * (2 : ℚ) ^ (20 - (i + 1))⌋ % 2 ^ 11 < 2 ^ 11 := Int.emod_lt_of_pos _ (by norm_num)
    have hmlt : m < (2 : ℚ) ^ (-24 : ℤ) := by
      by_contra hc
      have : (2 : ℚ) ^ (-24 : ℤ) ≤ r := (rounds_reaches hrb _).2 (by norm_num at hc ⊢; linarith)
      have := hpow _ _ this g2
      omega
    rw [nearest_low half (by decide) (by decide) hE0 hE (by rw [a1 h, hq]) hpos.le, hq, neg_neg,
      nearest_residue (by positivity) (units_lt hmlt le_rfl), ← not_le, ← not_le, units_half 24]
    norm_num
  · have hlo := hpow _ _ g1 hi2
    have hr14 : r ≤ (2 : ℚ) ^ (-14 : ℤ) := by
      by_contra hc
      have := hrb.2.1 1 (-14) (by norm_num)
      rw [Int.cast_one, one_mul, abs_of_nonpos (by linarith), abs_of_nonpos (by linarith)] at this
      linarith
    have hhi : i ≤ -14 := (zpow_le_zpow_iff_right₀ (by norm_num : (1 : ℚ) < 2)).1 (hi1.trans hr14)
    have hdec : half.decode f.bits.toNat = .num s (⌊r * (2 : ℚ) ^ (24 : ℤ)⌋ * (2 : ℚ) ^ half.qmin) := by
      rw [hq]
      by_cases hi : i = -14
      · rw [a4 (by omega) (by omega) (by omega), hi]
        norm_num
      · exact a2 (by omega) (by omega)
    rw [nearest_low half (by decide) (by decide) (N := ⌊r * (2 : ℚ) ^ (24 : ℤ)⌋) (Int.floor_nonneg.2 (by positivity))
      (floor_units_lt 11 hi2 (by omega)) hdec hpos.le, hq, neg_neg]
  · obtain ⟨f', acc', e1, e2⟩ := C06_partial x (Or.inl ⟨s, m, hd, Or.inl ⟨g1, g2⟩⟩)
    rw [hfx] at e1
    injection e1 with e1
    injection e1 with e1 e3
    subst e1
    rw [hd] at e2
    exact e2
  · obtain ⟨f', acc', e1, e2, -⟩ := C66_binary16_float64 x hd
    rw [hfx] at e1
    injection e1 with e1
    injection e1 with e1 e3
    subst e1
    rw [nearest_high half (by rw [hb]; exact g1), ← e2]
    refine ⟨fun h => ⟨s, h⟩, fun ⟨s', h⟩ => ?_⟩
    have hr16 : (2 : ℚ) ^ (16 : ℤ) ≤ r := (rounds_reaches hrb _).2 (by norm_num at g1 ⊢; linarith)
    have := hpow _ _ hr16 hi2
    by_cases c0 : (i + 1 + 14) % 2 ^ 5 = 0
    · rw [a3 (by omega) c0] at h; cases h
    · by_cases c1 : (i + 1 + 14) % 2 ^ 5 = 31
      · have a := a5 (by omega) c1
        split_ifs at a
        · exact a
        · rw [a] at h; cases h
      · rw [a4 (by omega) (by omega) (by omega)] at h; cases h

end Binary16

namespace Binary16

-- the hypotheses of `C71_binary16` with a number that is not rounded correctly, since 1024 is not the nearest integer to 1024.75
example : nearUpper.WF ∧ nearUpper.datum = .num false (4099 / 4096) ∧ (2 : ℚ) ^ ((1 : ℤ) - 1) ≤ 4099 / 4096 ∧ (4099 / 4096 : ℚ) < (2 : ℚ) ^ (1 : ℤ) ∧
    ¬ NearestEven (4099 / 4096 * (2 : ℚ) ^ ((11 : ℤ) - 1)) ⌊(4099 / 4096 : ℚ) * (2 : ℚ) ^ ((11 : ℤ) - 1)⌋ := by
  refine ⟨nearUpper_wf, by rw [BigFloat.datum_lit 13 rfl (by decide)]; norm_num [nearUpper], by norm_num, by norm_num, ?_⟩
  have h : ⌊(4099 / 4096 : ℚ) * (2 : ℚ) ^ ((11 : ℤ) - 1)⌋ = 1024 := by rw [Int.floor_eq_iff]; norm_num
  rw [h]
  unfold NearestEven
  norm_num [abs_le]

-- and with one that is, since 1024 is the nearest integer to 1024.25
example : NearestEven (4097 / 4096 * (2 : ℚ) ^ ((11 : ℤ) - 1)) ⌊(4097 / 4096 : ℚ) * (2 : ℚ) ^ ((11 : ℤ) - 1)⌋ := by
  have h : ⌊(4097 / 4096 : ℚ) * (2 : ℚ) ^ ((11 : ℤ) - 1)⌋ = 1024 := by rw [Int.floor_eq_iff]; norm_num
  rw [h]
  unfold NearestEven
  norm_num [abs_of_pos]

-- below 2^-25 the result 0 is right for some numbers: the number 2^-30, with e = -29
example : (2 : ℚ) ^ ((-29 : ℤ) - 1) ≤ (2 : ℚ) ^ (-30 : ℤ) ∧ (2 : ℚ) ^ (-30 : ℤ) < (2 : ℚ) ^ (-29 : ℤ) ∧
    ⌊(2 : ℚ) ^ (-30 : ℤ) * 2 ^ (20 - (-29) : ℤ)⌋ % 2 ^ 11 = 0 := by
  refine ⟨by norm_num, by norm_num, ?_⟩
  have h : ⌊(2 : ℚ) ^ (-30 : ℤ) * 2 ^ (20 - (-29) : ℤ)⌋ = 2 ^ 19 := by rw [Int.floor_eq_iff]; norm_num
  rw [h]; norm_num

-- a double that becomes the wrong subnormal: 1.75 units of 2^-24 (11 bits, so that r = m) have 1 whole unit, and 2 is nearer
example : double.decode (0x3E7C000000000000 : F64).toNat = .num false ((2 : ℚ) ^ (-24 : ℤ) * (7 / 4)) ∧
    ¬ NearestEven ((2 : ℚ) ^ (-24 : ℤ) * (7 / 4) * 2 ^ (24 : ℤ)) ⌊(2 : ℚ) ^ (-24 : ℤ) * (7 / 4) * 2 ^ (24 : ℤ)⌋ := by
  refine ⟨by simp [Format.decode, double, Format.bias]; norm_num, ?_⟩
  have h : ⌊(2 : ℚ) ^ (-24 : ℤ) * (7 / 4) * 2 ^ (24 : ℤ)⌋ = 1 := by rw [Int.floor_eq_iff]; norm_num
  rw [h]
  unfold NearestEven
  norm_num [abs_le]

end Binary16

namespace Float80x86

-- the hypotheses of `C71_float80x86` with a number that is not rounded correctly: 2^63 is not the nearest integer to 2^63 + 3/4
example : nearUpper.WF ∧ nearUpper.datum = .num false (1 + 3 / 2 ^ 65) ∧ (2 : ℚ) ^ ((1 : ℤ) - 1) ≤ 1 + 3 / 2 ^ 65 ∧ (1 + 3 / 2 ^ 65 : ℚ) < (2 : ℚ) ^ (1 : ℤ) ∧
    ¬ NearestEven ((1 + 3 / 2 ^ 65) * (2 : ℚ) ^ ((64 : ℤ) - 1)) ⌊(1 + 3 / 2 ^ 65 : ℚ) * (2 : ℚ) ^ ((64 : ℤ) - 1)⌋ := by
  refine ⟨nearUpper_wf, nearUpper_datum, by norm_num, by norm_num, ?_⟩
  have h : ⌊(1 + 3 / 2 ^ 65 : ℚ) * (2 : ℚ) ^ ((64 : ℤ) - 1)⌋ = 2 ^ 63 := by rw [Int.floor_eq_iff]; norm_num
  rw [h]
  unfold NearestEven
  norm_num [abs_le]

end Float80x86

end GoFloat
