import Verif.Props.Sum
/-
C106: what the sums and differences of C104 keep: a difference is zero only between equal numbers, a difference of close numbers is exact, and the
rounding error of a sum is a number of the format.
-/
namespace GoFloat
open Spec Strconv

variable {F : Format} {z : BigFloat} {c c' : ℕ} {s s' : Bool} {m m' v : ℚ}

/-- A finite number as an integer times a power of two, not below the least. -/
theorem value_form (h : F.decode c = .num s m) : ∃ K q : ℤ, |K| < 2 ^ (F.t + 1) ∧ F.qmin ≤ q ∧ signed s m = K * (2 : ℚ) ^ q := by
  obtain ⟨n, hn, rfl, -, -⟩ := F.code_of_decode h
  obtain ⟨k, N, rfl, h2, h3⟩ := F.code_split n
  rw [F.magc_eq h2.le h3]
  have hN : |(N : ℤ)| < 2 ^ (F.t + 1) := by rw [abs_of_nonneg (by positivity)]; exact_mod_cast h2
  cases s
  · exact ⟨N, F.qmin + k, hN, by omega, by simp [signed]⟩
  · exact ⟨-N, F.qmin + k, by rwa [abs_neg], by omega, by simp [signed]⟩

/-- Such products in range are numbers of the format, with either sign of zero. -/
theorem form_value (hw : 2 ≤ F.w) {K q : ℤ} (hK : |K| < 2 ^ (F.t + 1)) (hq : F.qmin ≤ q) (hv : |v| = |(K : ℚ)| * (2 : ℚ) ^ q)
    (hlt : |v| < (2 : ℚ) ^ (F.bias + 1)) (b : Bool) : ∃ c, F.decode c = .num b |v| := by
  have h1 : K.natAbs < 2 ^ (F.t + 1) := by zify; exact hK
  have h2 : |v| = (K.natAbs : ℚ) * (2 : ℚ) ^ q := by rw [hv, Nat.cast_natAbs]; push_cast; rfl
  obtain ⟨n, hn, he⟩ := exists_code F hw h1 hq (h2 ▸ hlt)
  exact ⟨F.signPart b + n, by rw [F.decode_code _ hn, he, h2]⟩

/-- A multiple of the smaller unit of two numbers that is not larger than either of them. -/
theorem small_multiple {K K' q q' : ℤ} (hK : |K| < 2 ^ (F.t + 1)) (hK' : |K'| < 2 ^ (F.t + 1)) (hq : F.qmin ≤ q) (hq' : F.qmin ≤ q')
    {j : ℤ} (hj : v = j * (2 : ℚ) ^ min q q') (h1 : |v| ≤ |(K : ℚ) * (2 : ℚ) ^ q|) (h2 : |v| ≤ |(K' : ℚ) * (2 : ℚ) ^ q'|) :
    |j| < 2 ^ (F.t + 1) ∧ F.qmin ≤ min q q' ∧ |v| = |(j : ℚ)| * (2 : ℚ) ^ min q q' := by
  have hp : ∀ e : ℤ, (0 : ℚ) < (2 : ℚ) ^ e := fun e => by positivity
  have he : |v| = |(j : ℚ)| * (2 : ℚ) ^ min q q' := by rw [hj, abs_mul, abs_of_pos (hp _)]
  refine ⟨?_, le_min hq hq', he⟩
  rw [he, abs_mul, abs_of_pos (hp _)] at h1 h2
  rcases le_total q q' with h | h
  · rw [min_eq_left h] at h1
    have := le_of_mul_le_mul_right h1 (hp q)
    have : |j| ≤ |K| := by exact_mod_cast this
    omega
  · rw [min_eq_right h] at h2
    have := le_of_mul_le_mul_right h2 (hp q')
    have : |j| ≤ |K'| := by exact_mod_cast this
    omega

theorem as_multiple (K : ℤ) {q e : ℤ} (h : e ≤ q) : ∃ j : ℤ, (K : ℚ) * (2 : ℚ) ^ q = j * (2 : ℚ) ^ e := by
  refine ⟨K * 2 ^ (q - e).toNat, ?_⟩
  push_cast
  rw [mul_assoc, ← zpow_natCast, ← zpow_add₀ (by norm_num), show ((q - e).toNat : ℤ) + e = q by omega]

/-- A number that is rounded and is not below the least number is not rounded to zero. -/
theorem rounded_ne_zero (ht : 1 ≤ F.t) (hw : 2 ≤ F.w) {b : Bool} (hv : (2 : ℚ) ^ F.qmin ≤ v) (h : F.RoundsTo b v c) (a : Bool) : F.decode c ≠ .num a 0 := by
  intro h0
  unfold Format.RoundsTo at h
  split_ifs at h with ho
  · rw [h] at h0; cases h0
  · obtain ⟨r, h1, h2, -⟩ := h
    rw [h1] at h0
    obtain ⟨-, rfl⟩ := Datum.num.inj h0
    have hu : (0 : ℚ) < (2 : ℚ) ^ F.qmin := by positivity
    have hi : 1 < F.infCode := by
      unfold Format.infCode
      have a1 : 2 ^ 2 ≤ 2 ^ F.w := Nat.pow_le_pow_right (by norm_num) hw
      have a2 : 2 ^ 1 ≤ 2 ^ F.t := Nat.pow_le_pow_right (by norm_num) ht
      calc 1 < 3 * 2 := by norm_num
        _ ≤ _ := Nat.mul_le_mul (by omega) (by omega)
    have h3 := h2 _ b _ (F.decode_code b hi)
    have h4 : F.magc 1 = (2 : ℚ) ^ F.qmin := by
      have := F.magc_eq (k := 0) (N := 1) (Nat.one_le_two_pow) (by omega)
      simpa using this
    rw [h4] at h3
    have h5 : ∀ a : ℚ, |signed b v - signed b a| = |v - a| := fun a => by
      cases b
      · rfl
      · simp only [signed, if_true]; rw [← abs_neg]; ring_nf
    rw [h5, h5, sub_zero, abs_of_pos (by linarith), abs_of_nonneg (by linarith)] at h3
    linarith

/-- Sterbenz: the sum of numbers of opposite signs that are within a factor of two is a number of the format. -/
theorem close_sum (hw : 2 ≤ F.w) (hc : F.decode c = .num s m) (hc' : F.decode c' = .num s' m') (h1 : |signed s m| ≤ 2 * |signed s' m'|)
    (h2 : |signed s' m'| ≤ 2 * |signed s m|) (h3 : signed s m * signed s' m' ≤ 0) (b : Bool) : ∃ d, F.decode d = .num b |signed s m + signed s' m'| := by
  obtain ⟨K, q, k1, k2, k3⟩ := value_form hc
  obtain ⟨K', q', k1', k2', k3'⟩ := value_form hc'
  have hm := (decode_multiple hw hc).2
  have hm0 : 0 ≤ m := by obtain ⟨n, -, rfl, -⟩ := F.code_of_decode hc; exact F.magc_nonneg n
  have hma : |signed s m| = m := by cases s <;> simp [signed, abs_of_nonneg hm0]
  obtain ⟨l1, l2⟩ : |signed s m + signed s' m'| ≤ |signed s m| ∧ |signed s m + signed s' m'| ≤ |signed s' m'| := by
    generalize signed s m = u at *
    generalize signed s' m' = w at *
    rcases mul_nonpos_iff.1 h3 with ⟨a, b⟩ | ⟨a, b⟩
    · rw [abs_of_nonneg a, abs_of_nonpos b] at *
      constructor <;> rw [abs_le] <;> constructor <;> linarith
    · rw [abs_of_nonpos a, abs_of_nonneg b] at *
      constructor <;> rw [abs_le] <;> constructor <;> linarith
  obtain ⟨i, hi⟩ := as_multiple K (min_le_left q q')
  obtain ⟨i', hi'⟩ := as_multiple K' (min_le_right q q')
  have hj : signed s m + signed s' m' = ((i + i' : ℤ) : ℚ) * (2 : ℚ) ^ min q q' := by rw [k3, k3', hi, hi']; push_cast; ring
  obtain ⟨g1, g2, g3⟩ := small_multiple k1 k1' k2 k2' hj (by rw [← k3]; exact l1) (by rw [← k3']; exact l2)
  exact form_value hw g1 g2 g3 (by linarith) b

/-- Numbers of the format are below the overflow threshold. -/
theorem value_lt_overflow (hw : 2 ≤ F.w) (h : F.decode c = .num s m) : m < F.overflowAt := by
  obtain ⟨K, q, k1, -, k3⟩ := value_form h
  have hm := (decode_multiple hw h).2
  have hm0 : 0 ≤ m := by obtain ⟨n, -, rfl, -⟩ := F.code_of_decode h; exact F.magc_nonneg n
  have hp : ∀ e : ℤ, (0 : ℚ) < (2 : ℚ) ^ e := fun e => by positivity
  have hmK : m = |(K : ℚ)| * (2 : ℚ) ^ q := by
    rw [← abs_of_pos (hp q), ← abs_mul, ← k3]
    cases s <;> simp [signed, abs_of_nonneg hm0]
  have hb : (2 : ℚ) ^ F.bias = 2 ^ F.t * (2 : ℚ) ^ (F.bias - F.t) := by
    rw [← zpow_natCast, ← zpow_add₀ (by norm_num)]; congr 1; ring
  obtain ⟨J, hJ, hle⟩ : ∃ J : ℤ, J < 2 ^ (F.t + 1) ∧ m ≤ J * (2 : ℚ) ^ (F.bias - F.t) := by
    rcases le_total q (F.bias - F.t) with hq | hq
    · refine ⟨|K|, k1, ?_⟩
      rw [hmK]
      push_cast
      exact mul_le_mul_of_nonneg_left (zpow_le_zpow_right₀ (by norm_num) hq) (abs_nonneg _)
    · obtain ⟨j, hj⟩ := as_multiple |K| hq
      push_cast at hj
      rw [← hmK] at hj
      refine ⟨j, ?_, hj.le⟩
      rw [hj, zpow_add_one₀ (by norm_num), hb] at hm
      have : (j : ℚ) < 2 ^ (F.t + 1) := lt_of_mul_lt_mul_right (by rw [pow_succ]; linarith) (hp (F.bias - F.t)).le
      exact_mod_cast this
  have hJ' : (J : ℚ) ≤ 2 ^ (F.t + 1) - 1 := by exact_mod_cast Int.le_sub_one_of_lt hJ
  unfold Format.overflowAt
  rw [hb]
  have h2 := mul_le_mul_of_nonneg_right hJ' (hp (F.bias - F.t)).le
  have h3 : (2 : ℚ) ^ F.t * (2 : ℚ) ^ (F.bias - F.t) * (2 - 1 / 2 ^ (F.t + 1)) = (2 ^ (F.t + 1) - 1 / 2) * (2 : ℚ) ^ (F.bias - F.t) := by
    rw [pow_succ]; field_simp
  rw [h3]
  have := hp (F.bias - F.t)
  linarith

/-- A number of the format is rounded to itself only. -/
theorem round_to_self (hw : 2 ≤ F.w) {b : Bool} (hd : F.decode c' = .num b v) (h : F.RoundsTo b v c) : F.decode c = .num b v := by
  unfold Format.RoundsTo at h
  have hlt : v < F.overflowAt := by
    exact value_lt_overflow hw hd
  rw [if_neg (not_le.2 hlt)] at h
  obtain ⟨r, h1, h2, -⟩ := h
  have := h2 _ _ _ hd
  rw [sub_self, abs_zero] at this
  have := sub_eq_zero.1 (abs_eq_zero.1 (le_antisymm this (abs_nonneg _)))
  rw [h1]
  cases b <;> simp [signed] at this <;> rw [this]

/-- The error of a sum below the overflow threshold is a number of the format. -/
theorem error_value (hw : 2 ≤ F.w) (hc : F.decode c = .num s m) (hc' : F.decode c' = .num s' m')
    (hlt : |signed s m + signed s' m'| < F.overflowAt) {e : ℕ} (h : IsSum F s m s' m' e) :
    ∃ b r, F.decode e = .num b r ∧ ∀ a, ∃ d, F.decode d = .num a |signed s m + signed s' m' - signed b r| := by
  obtain ⟨K, q, k1, k2, k3⟩ := value_form hc
  obtain ⟨K', q', k1', k2', k3'⟩ := value_form hc'
  have hp : ∀ e : ℤ, (0 : ℚ) < (2 : ℚ) ^ e := fun e => by positivity
  have hov : F.overflowAt < (2 : ℚ) ^ (F.bias + 1) := by
    unfold Format.overflowAt
    rw [zpow_add_one₀ (by norm_num)]
    have : (0 : ℚ) < 1 / 2 ^ (F.t + 1) := by positivity
    nlinarith [hp F.bias]
  obtain ⟨i, hi⟩ := as_multiple K (min_le_left q q')
  obtain ⟨i', hi'⟩ := as_multiple K' (min_le_right q q')
  have hj : signed s m + signed s' m' = ((i + i' : ℤ) : ℚ) * (2 : ℚ) ^ min q q' := by rw [k3, k3', hi, hi']; push_cast; ring
  have hzero : ∀ a, ∃ d, F.decode d = .num a |(0 : ℚ)| := fun a =>
    form_value (K := 0) (q := F.qmin) hw (by simp) le_rfl (by simp) (by rw [abs_zero]; exact hp _) a
  unfold IsSum at h
  split_ifs at h with h0
  · refine ⟨_, _, h, fun a => ?_⟩
    rw [h0, show (0 : ℚ) - signed (s && s') 0 = 0 by cases (s && s') <;> simp [signed]]
    exact hzero a
  set v := signed s m + signed s' m' with hv
  have hsv := signed_of_decide v
  set b := decide (v < 0) with hb
  have hav : |v| = |((i + i' : ℤ) : ℚ)| * (2 : ℚ) ^ min q q' := by rw [hj, abs_mul, abs_of_pos (hp _)]
  rcases lt_or_ge |i + i'| (2 ^ (F.t + 1)) with hs | hs
  · -- the sum is exact
    obtain ⟨d, hd⟩ := form_value (v := v) hw hs (le_min k2 k2') hav (hlt.trans hov) b
    refine ⟨b, _, round_to_self hw hd h, fun a => ?_⟩
    rw [hsv, sub_self]
    exact hzero a
  · -- the sum is rounded to a multiple of a larger unit
    unfold Format.RoundsTo at h
    rw [if_neg (not_le.2 hlt)] at h
    obtain ⟨r, h1, h2, -⟩ := h
    rw [hsv] at h2
    refine ⟨b, r, h1, fun a => ?_⟩
    obtain ⟨R, p, r1, r2, r3⟩ := value_form h1
    have hr0 : 0 ≤ r := by obtain ⟨n, -, rfl, -⟩ := F.code_of_decode h1; exact F.magc_nonneg n
    have hbig : (2 : ℚ) ^ (F.t + 1) * (2 : ℚ) ^ min q q' ≤ |v| := by
      rw [hav]
      exact mul_le_mul_of_nonneg_right (by exact_mod_cast hs) (hp _).le
    have hpw : (2 : ℚ) ^ (F.t + 1) * (2 : ℚ) ^ min q q' = ((1 : ℤ) : ℚ) * (2 : ℚ) ^ (min q q' + (F.t + 1 : ℕ)) := by
      rw [zpow_add₀ (by norm_num), zpow_natCast]; push_cast; ring
    have hrP : (2 : ℚ) ^ (F.t + 1) * (2 : ℚ) ^ min q q' ≤ r := by
      by_contra hcon
      have hcon := not_le.1 hcon
      have hPpos : 0 < (2 : ℚ) ^ (F.t + 1) * (2 : ℚ) ^ min q q' := mul_pos (by positivity) (hp _)
      obtain ⟨d, hd⟩ := form_value (F := F) (v := (2 : ℚ) ^ (F.t + 1) * (2 : ℚ) ^ min q q') (K := 1) (q := min q q' + (F.t + 1 : ℕ)) hw
        (by rw [abs_one]; exact one_lt_pow₀ (by norm_num) (by omega)) (by have := le_min k2 k2'; omega)
        (by rw [abs_of_pos hPpos, hpw]; push_cast; rw [abs_one]) (by rw [abs_of_pos hPpos]; linarith) b
      have h3 := h2 _ _ _ hd
      rw [abs_of_pos hPpos] at h3
      generalize (2 : ℚ) ^ (F.t + 1) * (2 : ℚ) ^ min q q' = P at *
      have h5 : ∀ x : ℚ, |v - signed b x| = |(|v| - x)| := fun x => by
        conv_lhs => rw [← hsv]
        cases b
        · rfl
        · simp only [signed, if_true]; rw [← abs_neg]; ring_nf
      rw [h5, h5, abs_of_pos (show 0 < |v| - r by linarith), abs_of_nonneg (show 0 ≤ |v| - P by linarith)] at h3
      linarith
    have hmp : min q q' ≤ p := by
      by_contra hcon
      have e1 : |signed b r| = r := by cases b <;> simp [signed, abs_of_nonneg hr0]
      rw [r3, abs_mul, abs_of_pos (hp _)] at e1
      have e2 : |(R : ℚ)| < 2 ^ (F.t + 1) := by exact_mod_cast r1
      have e3 : (2 : ℚ) ^ p ≤ (2 : ℚ) ^ min q q' := zpow_le_zpow_right₀ (by norm_num) (by omega)
      have := mul_lt_mul_of_pos_right e2 (hp p)
      have := mul_le_mul_of_nonneg_left e3 (show (0 : ℚ) ≤ 2 ^ (F.t + 1) by positivity)
      linarith
    obtain ⟨l, hl⟩ := as_multiple R hmp
    have hjj : v - signed b r = ((i + i' - l : ℤ) : ℚ) * (2 : ℚ) ^ min q q' := by rw [hj, r3, hl]; push_cast; ring
    have l1 : |v - signed b r| ≤ |signed s m| := by
      have := h2 _ _ _ hc'
      rwa [hv, add_sub_cancel_right] at this
    have l2 : |v - signed b r| ≤ |signed s' m'| := by
      have := h2 _ _ _ hc
      rwa [hv, add_sub_cancel_left] at this
    obtain ⟨g1, g2, g3⟩ := small_multiple k1 k1' k2 k2' hjj (by rw [← k3]; exact l1) (by rw [← k3']; exact l2)
    refine form_value hw g1 g2 g3 (l1.trans_lt ?_) a
    have hm := (decode_multiple hw hc).2
    have hm0 : 0 ≤ m := by obtain ⟨n, -, rfl, -⟩ := F.code_of_decode hc; exact F.magc_nonneg n
    rw [show |signed s m| = m by cases s <;> simp [signed, abs_of_nonneg hm0]]
    exact hm

/-- What the result `d` of adding the numbers `u` and `w` of a format keeps: it is zero only if the sum is; it is the sum if the signs differ and the
numbers are within a factor of two; and, below the overflow threshold, what it lacks to the sum is a number of the format. -/
def SumKept (F : Format) (u w : ℚ) (d : Datum) : Prop :=
  ((∃ b, d = .num b 0) ↔ u + w = 0) ∧
  (|u| ≤ 2 * |w| → |w| ≤ 2 * |u| → u * w ≤ 0 → ∃ b r, d = .num b r ∧ signed b r = u + w) ∧
  (|u + w| < F.overflowAt → ∃ b r c b' r', d = .num b r ∧ F.decode c = .num b' r' ∧ signed b r + signed b' r' = u + w)

theorem signed_not (b : Bool) (a : ℚ) : signed (!b) a = -signed b a := by cases b <;> simp [signed]

theorem kept_of (ht : 1 ≤ F.t) (hw : 2 ≤ F.w) (hc : F.decode c = .num s m) (hc' : F.decode c' = .num s' m') {d : Datum}
    (h1 : |signed s m + signed s' m'| < F.overflowAt → ∃ e, d = F.decode e ∧ IsSum F s m s' m' e)
    (h2 : F.overflowAt ≤ |signed s m + signed s' m'| → ∀ b r, d ≠ .num b r) : SumKept F (signed s m) (signed s' m') d := by
  have hov := overflowAt_pos F
  refine ⟨⟨?_, fun h => ?_⟩, fun a1 a2 a3 => ?_, fun h => ?_⟩
  · rintro ⟨b, hb⟩
    by_contra hne
    rcases lt_or_ge |signed s m + signed s' m'| F.overflowAt with hv | hv
    · obtain ⟨e, rfl, he⟩ := h1 hv
      unfold IsSum at he
      rw [if_neg hne] at he
      refine rounded_ne_zero ht hw ?_ he b hb
      obtain ⟨⟨j, hj⟩, -⟩ := decode_multiple hw hc
      obtain ⟨⟨j', hj'⟩, -⟩ := decode_multiple hw hc'
      have hp : (0 : ℚ) < (2 : ℚ) ^ F.qmin := by positivity
      have hv : signed s m + signed s' m' = ((j + j' : ℤ) : ℚ) * (2 : ℚ) ^ F.qmin := by rw [hj, hj']; push_cast; ring
      rw [hv] at hne ⊢
      rw [abs_mul, abs_of_pos hp]
      have h0 : j + j' ≠ 0 := fun h => hne (by rw [h]; simp)
      have : (1 : ℚ) ≤ |((j + j' : ℤ) : ℚ)| := by exact_mod_cast Int.one_le_abs h0
      nlinarith
    · exact h2 hv _ _ hb
  · obtain ⟨e, rfl, he⟩ := h1 (by rw [h, abs_zero]; exact hov)
    unfold IsSum at he
    rw [if_pos h] at he
    exact ⟨_, he⟩
  · obtain ⟨g, hg⟩ := close_sum hw hc hc' a1 a2 a3 (decide (signed s m + signed s' m' < 0))
    obtain ⟨e, rfl, he⟩ := h1 (value_lt_overflow hw hg)
    unfold IsSum at he
    split_ifs at he with h0
    · exact ⟨_, _, he, by rw [h0]; cases (s && s') <;> simp [signed]⟩
    · exact ⟨_, _, round_to_self hw hg he, signed_of_decide _⟩
  · obtain ⟨e, rfl, he⟩ := h1 h
    obtain ⟨b, r, e1, e2⟩ := error_value hw hc hc' h he
    obtain ⟨g, hg⟩ := e2 (decide (signed s m + signed s' m' - signed b r < 0))
    exact ⟨b, r, g, _, _, e1, hg, by rw [signed_of_decide]; ring⟩

/-- C106 for binary16 -/
theorem Binary16.C106_binary16 {f g : Binary16.Float} (hf : half.decode f.bits.toNat = .num s m) (hg : half.decode g.bits.toNat = .num s' m')
    (hz : z.prec = 0 ∨ z.prec = 11) (hmode : z.mode = .toNearestEven) :
    ∃ x y, f.big = .ok (x, false) ∧ g.big = .ok (y, false) ∧
      (∃ r h acc, z.add x y = .ok r ∧ newFromBig r = .ok (h, acc) ∧ SumKept half (signed s m) (signed s' m') (half.decode h.bits.toNat)) ∧
      (∃ r h acc, z.sub x y = .ok r ∧ newFromBig r = .ok (h, acc) ∧ SumKept half (signed s m) (-signed s' m') (half.decode h.bits.toNat)) := by
  obtain ⟨x, y, hx, hy, ⟨r, a1, h, acc, a2, a3, a4⟩, ⟨r', b1, h', acc', b2, b3, b4⟩⟩ := C104_binary16 hf hg hz hmode
  refine ⟨x, y, hx, hy, ⟨r, h, acc, a1, a2, ?_⟩, ⟨r', h', acc', b1, b2, ?_⟩⟩
  · refine kept_of (by decide) (by decide) hf hg (fun h => ⟨_, rfl, (a3 h).1⟩) (fun h b q => ?_)
    rw [a4 h]; split_ifs <;> simp
  · obtain ⟨n, hn, rfl, -, -⟩ := half.code_of_decode hg
    rw [← signed_not]
    refine kept_of (by decide) (by decide) hf (half.decode_code (!s') hn) (fun h => ⟨_, rfl, (b3 h).1⟩) (fun h b q => ?_)
    rw [b4 h]; split_ifs <;> simp

/-- C106 for binary128 -/
theorem Binary128.C106_binary128 {f g : Binary128.Float} (hf : quad.decode f.code = .num s m) (hg : quad.decode g.code = .num s' m')
    (hz : z.prec = 0 ∨ z.prec = 113) (hmode : z.mode = .toNearestEven) :
    ∃ x y, f.big = .ok (x, false) ∧ g.big = .ok (y, false) ∧
      (∃ r h acc, z.add x y = .ok r ∧ newFromBig r = .ok (h, acc) ∧ SumKept quad (signed s m) (signed s' m') (quad.decode h.code)) ∧
      (∃ r h acc, z.sub x y = .ok r ∧ newFromBig r = .ok (h, acc) ∧ SumKept quad (signed s m) (-signed s' m') (quad.decode h.code)) := by
  obtain ⟨x, y, hx, hy, ⟨r, a1, h, acc, a2, a3, a4⟩, ⟨r', b1, h', acc', b2, b3, b4⟩⟩ := C104_binary128 hf hg hz hmode
  refine ⟨x, y, hx, hy, ⟨r, h, acc, a1, a2, ?_⟩, ⟨r', h', acc', b1, b2, ?_⟩⟩
  · refine kept_of (by decide) (by decide) hf hg (fun h => ⟨_, rfl, (a3 h).1⟩) (fun h b q => ?_)
    rw [a4 h]; split_ifs <;> simp
  · obtain ⟨n, hn, rfl, -, -⟩ := quad.code_of_decode hg
    rw [← signed_not]
    refine kept_of (by decide) (by decide) hf (quad.decode_code (!s') hn) (fun h => ⟨_, rfl, (b3 h).1⟩) (fun h b q => ?_)
    rw [b4 h]; split_ifs <;> simp

/-- C106 for float80x86 -/
theorem Float80x86.C106_float80x86 {f g : Float80x86.Float} (hf : f.val = .num s m) (hg : g.val = .num s' m')
    (hz : z.prec = 0 ∨ z.prec = 64) (hmode : z.mode = .toNearestEven) :
    ∃ x y, f.big = .ok (x, false) ∧ g.big = .ok (y, false) ∧
      (∃ r h acc, z.add x y = .ok r ∧ newFromBig r = .ok (h, acc) ∧ SumKept extended (signed s m) (signed s' m') h.val) ∧
      (∃ r h acc, z.sub x y = .ok r ∧ newFromBig r = .ok (h, acc) ∧ SumKept extended (signed s m) (-signed s' m') h.val) := by
  obtain ⟨x, y, hx, hy, ⟨r, a1, h, acc, a2, a3, a4⟩, ⟨r', b1, h', acc', b2, b3, b4⟩⟩ := C104_float80x86 hf hg hz hmode
  obtain ⟨c, -, hc⟩ := exists_canonical f (fun _ h => by rw [hf] at h; cases h)
  obtain ⟨c', -, hc'⟩ := exists_canonical g (fun _ h => by rw [hg] at h; cases h)
  rw [hf] at hc; rw [hg] at hc'
  refine ⟨x, y, hx, hy, ⟨r, h, acc, a1, a2, ?_⟩, ⟨r', h', acc', b1, b2, ?_⟩⟩
  · refine kept_of (by decide) (by decide) hc hc' (fun h => ⟨_, ?_, (a3 h).2.1⟩) (fun h b q => ?_)
    · exact val_canonical (a3 h).1
    · rw [a4 h]; split_ifs <;> simp
  · obtain ⟨n, hn, rfl, -, -⟩ := extended.code_of_decode hc'
    rw [← signed_not]
    refine kept_of (by decide) (by decide) hc (extended.decode_code (!s') hn) (fun h => ⟨_, ?_, (b3 h).2.1⟩) (fun h b q => ?_)
    · exact val_canonical (b3 h).1
    · rw [b4 h]; split_ifs <;> simp

-- -11/8 and itself, with a new receiver
example := Binary16.C106_binary16 (z := ⟨0, .toNearestEven, .exact, .zero, false, 0, 0⟩) (f := ⟨0xBD80⟩) (g := ⟨0xBD80⟩) Sample.x_half Sample.x_half (.inl rfl) rfl
example := Binary128.C106_binary128 (z := ⟨113, .toNearestEven, .exact, .zero, false, 0, 0⟩) (f := ⟨0xBFFF600000000000, 0⟩) (g := ⟨0xBFFF600000000000, 0⟩)
  Sample.x_quad Sample.x_quad (.inr rfl) rfl
example := Float80x86.C106_float80x86 (z := ⟨64, .toNearestEven, .exact, .zero, false, 0, 0⟩) (f := ⟨0xBFFF, 0xB000000000000000⟩) (g := ⟨0xBFFF, 0xB000000000000000⟩)
  Sample.x_extended Sample.x_extended (.inr rfl) rfl
-- 2048 and 11/8 as halves: a sum that is rounded, below the threshold; 2048 and -1025, which are close
example : half.decode 0x6800 = .num false 2048 ∧ half.decode 0x3D80 = .num false (11 / 8) := by norm_num [half, Format.decode, Format.bias]
example : |signed false 2048 + signed false (11 / 8)| < half.overflowAt := by norm_num [half, Format.overflowAt, Format.bias, signed]
example : half.decode 0xE401 = .num true 1025 ∧ |signed false 2048| ≤ 2 * |signed true 1025| ∧ |signed true 1025| ≤ 2 * |signed false 2048| ∧
    signed false 2048 * signed true 1025 ≤ 0 := by norm_num [half, Format.decode, Format.bias, signed]
-- results that do not keep it: zero for 1 + 1, and 1024 for 2048 - 1025
example : ¬ SumKept half 1 1 (.num false 0) := fun h => by have := h.1.1 ⟨_, rfl⟩; norm_num at this
example : ¬ SumKept half 2048 (-1025) (.num false 1024) := fun h => by
  obtain ⟨b, r, h1, h2⟩ := h.2.1 (by norm_num) (by norm_num) (by norm_num)
  obtain ⟨rfl, rfl⟩ := Datum.num.inj h1
  norm_num [signed] at h2

end GoFloat
