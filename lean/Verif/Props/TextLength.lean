import Verif.Props.FtoaDigits
import Verif.Proofs.LayoutShape
/-
How long the texts of FormatFloat are (C73 of properties.jsonl).
-/
namespace GoFloat.Strconv
open Spec

/-- The number of decimals that is enough for the floats of a size: 8, 45 and 324. -/
def maxDecimals (size : ℤ) : ℕ := if size = 16 then 8 else if size = 32 then 45 else 324

/-- The number of digits before the point of the largest float of a size: 5, 39 and 309. -/
def maxIntegers (size : ℤ) : ℕ := if size = 16 then 5 else if size = 32 then 39 else 309

section
variable {F : Format} {n k N : ℕ}

/-- Numbers nearer than half the least distance of two floats. -/
theorem abs_interval (hs : Split F n k N) (hN : N ≠ 0) {y : ℚ} (h : 2 * |y - F.magc n| < (2 : ℚ) ^ F.qmin) : InInterval F n y := by
  have e1 := two_zpow_pred (F.qmin + k)
  have e2 := two_zpow_pred (F.qmin + k - 1)
  rw [show F.qmin + (k : ℤ) - 1 - 1 = F.qmin + k - 2 by ring] at e2
  have hu : (2 : ℚ) ^ F.qmin ≤ (2 : ℚ) ^ (F.qmin + (k : ℤ)) := zpow_le_zpow_right₀ (by norm_num) (by omega)
  have hu' : k ≠ 0 → (2 : ℚ) ^ F.qmin ≤ (2 : ℚ) ^ (F.qmin + (k : ℤ) - 1) := fun h => zpow_le_zpow_right₀ (by norm_num) (by omega)
  obtain ⟨a1, a2⟩ := abs_le.1 (le_refl |y - F.magc n|)
  have hl := hs.lower_mid (Nat.pos_of_ne_zero hN)
  have hr := hs.upper_mid
  have hv := hs.value
  rw [e1, e2] at hv
  rw [e2] at hl hr hu'
  rw [e1, e2] at hu
  generalize (2 : ℚ) ^ (F.qmin + (k : ℤ) - 2) = v at *
  generalize |y - F.magc n| = d at *
  have hlow : F.magc (n - 1) + F.magc n < 2 * y := by
    split at hl
    · rw [hl]
      linarith
    · rename_i hc
      push Not at hc
      have := hu' hc.2
      rw [hl]
      linarith
  have hup : 2 * y < F.magc n + F.magc (n + 1) := by
    rw [hr]
    linarith
  exact ⟨fun _ => ⟨hlow.le, fun _ => hlow⟩, hup.le, fun _ => hup⟩

/-- The last digit of the shortest decimal is not beyond the least distance of two floats. -/
theorem last_place (hF : GoFormat F) {c : ℕ} {s : Bool} {m : ℚ} (hc : F.decode c = .num s m) (hm : m ≠ 0) {ds : List ℕ} {dp : ℤ} (hd : NormalDec ds dp) (hne : ds ≠ [])
    (hr : F.RoundsTo s (decValue ds dp) c) (hmin : ∀ n y, FitsDigits n y → F.RoundsTo s y c → ds.length ≤ n)
    (hcl : (∀ y, FitsDigits ds.length y → F.RoundsTo s y c → |decValue ds dp - m| ≤ |y - m|) ∨ (2 : ℚ) ^ (F.t + 1) ≤ m) {P : ℕ}
    (hP : (10 : ℚ) ^ (-(P : ℤ)) < (2 : ℚ) ^ F.qmin) : (ds.length : ℤ) - dp ≤ P := by
  obtain ⟨n, k, N, hs, rfl, d1, d2, hz⟩ := value_split hF hc
  have hb := hF.bounds
  have hN : N ≠ 0 := fun h => hm (hz.1 h)
  have hNq : (1 : ℚ) ≤ N := by exact_mod_cast Nat.one_le_iff_ne_zero.2 hN
  have hri : ∀ y, 0 ≤ y → (F.RoundsTo s y c ↔ InInterval F n y) := fun y hy =>
    (roundsTo_congr d1 d2).trans (roundsTo_iff F (by omega) (by omega) s hs.fin hy)
  have hq0 : 0 ≤ decValue ds dp := by rw [decValue_eq]; positivity
  have hin := (hri _ hq0).1 hr
  have hmq : (2 : ℚ) ^ F.qmin ≤ F.magc n := by
    rw [hs.value]
    have hu : (2 : ℚ) ^ F.qmin ≤ (2 : ℚ) ^ (F.qmin + (k : ℤ)) := zpow_le_zpow_right₀ (by norm_num) (by omega)
    have h1 : (1 : ℚ) * (2 : ℚ) ^ (F.qmin + (k : ℤ)) ≤ N * (2 : ℚ) ^ (F.qmin + (k : ℤ)) := by gcongr
    linarith
  set T : ℚ := (10 : ℚ) ^ (-(P : ℤ)) with hT
  have hT0 : 0 < T := by positivity
  -- the nearest multiple of 10^-P
  obtain ⟨M, hM⟩ : ∃ M : ℕ, 2 * |(M : ℚ) * T - F.magc n| ≤ T := by
    have h0 : 0 ≤ F.magc n / T := div_nonneg (F.magc_nonneg n) hT0.le
    refine ⟨⌊F.magc n / T + 1 / 2⌋₊, ?_⟩
    have h1 := Nat.floor_le (a := F.magc n / T + 1 / 2) (by linarith)
    have h2 := Nat.lt_floor_add_one (F.magc n / T + 1 / 2)
    generalize (⌊F.magc n / T + 1 / 2⌋₊ : ℚ) = M at *
    have h3 : |M - F.magc n / T| ≤ 1 / 2 := abs_le.2 ⟨by linarith, by linarith⟩
    have h4 : M * T - F.magc n = (M - F.magc n / T) * T := by field_simp
    rw [h4, abs_mul, abs_of_pos hT0]
    nlinarith
  have hy0 : (0 : ℚ) ≤ M * T := by positivity
  have hyin : InInterval F n (M * T) := abs_interval hs hN (lt_of_le_of_lt hM hP)
  obtain ⟨p1, p2⟩ := decValue_pos hd hne
  have hlen : 1 ≤ ds.length := List.length_pos_iff.2 hne
  rcases le_or_gt ((10 : ℚ) ^ dp) (M * T) with hA | hA
  · have h10 : InInterval F n ((10 : ℚ) ^ dp) := InInterval.convex hin hyin p2.le hA
    have h10' := (hri _ (by positivity)).2 h10
    have hfit : FitsDigits 1 ((10 : ℚ) ^ dp) := ⟨1, dp, by norm_num, by simp⟩
    have hl := hmin 1 _ hfit h10'
    by_contra hcon
    push Not at hcon
    have hdp : dp ≤ -(P : ℤ) := by omega
    have h3 : (10 : ℚ) ^ dp ≤ T := zpow_le_zpow_right₀ (by norm_num) hdp
    rcases hcl with hcl | hcl
    · have h4 := hcl _ (fits_mono hlen hfit) h10'
      rw [abs_of_nonpos (by linarith), abs_of_nonpos (by linarith)] at h4
      linarith
    · have hw := interval_width hs hN hin
      have e1 := two_zpow_pred (F.qmin + (k : ℤ))
      rw [hs.value, abs_le, e1] at hw
      rw [hs.value, e1, pow_succ] at hcl
      have ht : (1 : ℚ) ≤ 2 ^ F.t := one_le_pow₀ (by norm_num)
      have h5 : (1 : ℚ) * (2 : ℚ) ^ (F.qmin + (k : ℤ) - 1) ≤ N * (2 : ℚ) ^ (F.qmin + (k : ℤ) - 1) := by gcongr
      have hT1 : T ≤ 1 := by
        rw [hT, zpow_neg]
        exact inv_le_one_of_one_le₀ (by rw [zpow_natCast]; exact one_le_pow₀ (by norm_num))
      linarith [hw.1]
  · have hdp : -(P : ℤ) < dp := by
      by_contra hcon
      push Not at hcon
      have h3 : (10 : ℚ) ^ dp ≤ T := zpow_le_zpow_right₀ (by norm_num) hcon
      have h4 : (M : ℚ) * T < 1 * T := by linarith
      have h5 : (M : ℚ) < 1 := lt_of_mul_lt_mul_right h4 hT0.le
      have h6 : M = 0 := by
        have : M < 1 := by exact_mod_cast h5
        omega
      rw [h6, Nat.cast_zero, zero_mul, zero_sub, abs_neg, abs_of_nonneg (F.magc_nonneg n)] at hM
      linarith
    obtain ⟨j, hj⟩ : ∃ j : ℕ, dp = j - (P : ℤ) := ⟨(dp + P).toNat, by omega⟩
    have hfit : FitsDigits j ((M : ℚ) * T) := by
      refine ⟨M, -(P : ℤ), ?_, rfl⟩
      rw [hj, sub_eq_add_neg, zpow_add₀ (by norm_num), zpow_natCast] at hA
      have := lt_of_mul_lt_mul_right hA hT0.le
      exact_mod_cast this
    have := hmin j _ hfit ((hri _ hy0).2 hyin)
    omega

theorem rounds_lt {c : ℕ} {s : Bool} {m q : ℚ} (hc : F.decode c = .num s m) (hr : F.RoundsTo s q c) : q < F.overflowAt := by
  by_contra hcon
  push Not at hcon
  unfold Format.RoundsTo at hr
  rw [if_pos hcon, hc] at hr
  cases hr

/-- The place of the first digit. -/
theorem first_place {c : ℕ} {s : Bool} {m : ℚ} (hc : F.decode c = .num s m) {ds : List ℕ} {dp : ℤ} (hd : NormalDec ds dp) (hne : ds ≠ [])
    (hr : F.RoundsTo s (decValue ds dp) c) {I : ℕ} (hI : F.overflowAt ≤ (10 : ℚ) ^ I) : dp ≤ I := by
  obtain ⟨p1, -⟩ := decValue_pos hd hne
  have hlt := rounds_lt hc hr
  by_contra hcon
  push Not at hcon
  have h3 : (10 : ℚ) ^ (I : ℤ) ≤ (10 : ℚ) ^ (dp - 1) := zpow_le_zpow_right₀ (by norm_num) (by omega)
  rw [zpow_natCast] at h3
  linarith
end

theorem limits_of {F : Format} {P I a b : ℕ} (ha : F.qmin = -(a : ℤ)) (h1 : 2 ^ a < 10 ^ P) (hb : F.bias + 1 = b) (h2 : 2 ^ b + 1 ≤ 10 ^ I) :
    (10 : ℚ) ^ (-(P : ℤ)) < (2 : ℚ) ^ F.qmin ∧ F.overflowAt + 1 ≤ (10 : ℚ) ^ I := by
  have h1q : (2 : ℚ) ^ a < 10 ^ P := by exact_mod_cast h1
  have h2q : (2 : ℚ) ^ b + 1 ≤ 10 ^ I := by exact_mod_cast h2
  constructor
  · rw [ha, zpow_neg, zpow_neg, zpow_natCast, zpow_natCast]
    exact inv_strictAnti₀ (by positivity) h1q
  · refine le_trans (add_le_add_left ?_ 1) h2q
    unfold Format.overflowAt
    rw [← zpow_natCast 2 b, ← hb, zpow_add_one₀ (by norm_num)]
    have : (0 : ℚ) ≤ 1 / 2 ^ (F.t + 1) := by positivity
    gcongr
    linarith

theorem size_limits {F : Format} {size : ℤ} (hS : SizeOf F size) :
    (10 : ℚ) ^ (-(maxDecimals size : ℤ)) < (2 : ℚ) ^ F.qmin ∧ F.overflowAt + 1 ≤ (10 : ℚ) ^ maxIntegers size := by
  rcases hS with ⟨rfl, rfl⟩ | ⟨rfl, rfl⟩ | ⟨rfl, rfl⟩
  · exact limits_of (a := 24) (b := 16) (by decide) (by decide +kernel) (by decide) (by decide +kernel)
  · exact limits_of (a := 149) (b := 128) (by decide) (by decide +kernel) (by decide) (by decide +kernel)
  · exact limits_of (a := 1074) (b := 1024) (by decide) (by decide +kernel) (by decide) (by decide +kernel)

/-- What is known of the digits with a negative precision: their number and the places of the first and the last. -/
theorem short_places {W : ℕ} (hW : W = 32 ∨ W = 64) {F : Format} {size : ℤ} (hS : SizeOf F size) (opt : Bool) {c : ℕ} {s : Bool} {m : ℚ}
    (hc : F.decode c = .num s m) {val : F64} (hd : double.decode val.toNat = .num s m) :
    ∃ ds dp x, NormalDec ds dp ∧ (expOf ds dp).natAbs < 1000 ∧
      (∀ {prec : ℤ} (_ : prec < 0) {fmt : Char} (_ : DecimalFormat fmt),
        genericFtoa W opt val fmt prec size = .ok (formatDigits true s ⟨ds.map (· + 48), dp, x⟩ (shortPrec fmt ds.length dp) fmt)) ∧
      ds.length ≤ maxDigits size ∧ (ds.length : ℤ) - dp ≤ maxDecimals size ∧ dp ≤ maxIntegers size ∧ (ds = [] → dp = 0) := by
  obtain ⟨ds, dp, x, h1, h2, h3, h4, h5, h6, h7⟩ := short_digits hW hS opt hc hd
  refine ⟨ds, dp, x, h1, h4, h5, ?_⟩
  by_cases hm : m = 0
  · have h0 := h2.2 hm
    have hdp := h1.zero h0
    subst h0 hdp
    exact ⟨Nat.zero_le _, by simp, by simp, fun _ => rfl⟩
  · have hne : ds ≠ [] := fun h => hm (h2.1 h)
    have hj : 2 ^ (F.t + 1) < 10 ^ (maxDigits size - 1) ∧ 1 ≤ maxDigits size := by
      rcases hS with ⟨rfl, rfl⟩ | ⟨rfl, rfl⟩ | ⟨rfl, rfl⟩ <;> decide
    obtain ⟨y, y1, y2⟩ := enough_digits hS.go hc hm hj.1 hj.2
    obtain ⟨l1, l2⟩ := size_limits hS
    exact ⟨h6 _ y y1 y2, last_place hS.go hc hm h1 hne h3 h6 (h7.imp_right fun h => h.2.1) l1, first_place hc h1 hne h3 (by linarith), fun h => absurd h hne⟩

theorem minus_length (s : Bool) : (if s = true then ['-'] else []).length ≤ 1 := by cases s <;> simp

/-- The length of the exponential form. -/
theorem fmtE_length_prec (neg : Bool) {ds : List ℕ} (hd : ∀ d ∈ ds, d < 10) (dp : ℤ) (x : Bool) (fmt : Char) {j : ℕ} (hj : 2 ≤ j) (hj' : j ≤ 3)
    (he : (expOf ds dp).natAbs < 10 ^ j) (P : ℤ) : ((fmtE neg ⟨ds.map (· + 48), dp, x⟩ P fmt).length : ℤ) ≤ 4 + j + (if 0 < P then 1 + P else 0) := by
  have h3 : 10 ^ j ≤ 10 ^ 3 := Nat.pow_le_pow_right (by norm_num) hj'
  rw [fmtE_eq neg hd dp x _ fmt (lt_of_lt_of_le he h3)]
  have hx : (expText fmt (expOf ds dp)).length ≤ 2 + j := by
    unfold expText expDigits
    simp only [List.length_cons, List.length_map]
    split
    · simp
      omega
    · have := dg_length_le (b := 10) (by norm_num) (k := j) (by omega) he
      omega
  have hf := fracE_length ds P
  have hm := minus_length neg
  generalize (if neg = true then ['-'] else []) = sg at *
  simp only [List.length_append, List.length_singleton]
  split
  · rename_i h0
    have : P.toNat = 0 := by rw [← hf, List.length_eq_zero_iff, ← List.map_eq_nil_iff (f := dchar), h0]
    rw [if_neg (by omega)]
    simp only [List.length_nil]
    push_cast
    omega
  · rename_i h0
    have : P.toNat ≠ 0 := fun h => h0 (by rw [List.map_eq_nil_iff, ← List.length_eq_zero_iff, hf, h])
    rw [if_pos (by omega)]
    simp only [List.length_cons, List.length_map, hf]
    push_cast
    omega

theorem fmtE_length (neg : Bool) {ds : List ℕ} (hd : ∀ d ∈ ds, d < 10) (dp : ℤ) (x : Bool) (fmt : Char) {j : ℕ} (hj : 2 ≤ j) (hj' : j ≤ 3)
    (he : (expOf ds dp).natAbs < 10 ^ j) : (fmtE neg ⟨ds.map (· + 48), dp, x⟩ ((ds.length : ℤ) - 1) fmt).length ≤ max ds.length 1 + 4 + j := by
  have := fmtE_length_prec neg hd dp x fmt hj hj' he ((ds.length : ℤ) - 1)
  split at this <;> omega

/-- The length of the fixed form. -/
theorem fmtF_length (neg : Bool) {ds : List ℕ} (hd : ∀ d ∈ ds, d < 10) (dp : ℤ) (x : Bool) {P : ℤ} (hP : 0 ≤ P) :
    ((fmtF neg ⟨ds.map (· + 48), dp, x⟩ P).length : ℤ) ≤ 1 + max dp 1 + (if P = 0 then 0 else 1 + P) := by
  rw [fmtF_eq neg hd dp x]
  have hi : ((intF ds dp).length : ℤ) = max dp 1 := by
    unfold intF
    split
    · rw [padTake_length]
      omega
    · rw [List.length_singleton]
      omega
  have hm := minus_length neg
  generalize (if neg = true then ['-'] else []) = sg at *
  have hf := fracF_length ds dp P
  simp only [List.length_append, List.length_map]
  split
  · rename_i h0
    have : P.toNat = 0 := by rw [← hf, List.length_eq_zero_iff, ← List.map_eq_nil_iff (f := dchar), h0]
    rw [if_pos (by omega)]
    simp only [List.length_nil]
    push_cast
    omega
  · rename_i h0
    have : P.toNat ≠ 0 := fun h => h0 (by rw [List.map_eq_nil_iff, ← List.length_eq_zero_iff, hf, h])
    rw [if_neg (by omega)]
    simp only [List.length_cons, List.length_map, hf]
    push_cast
    omega

/-- The longest texts of the exponential and general formats: 11, 15 and 24 characters. -/
def maxText (size : ℤ) : ℕ := if size = 16 then 11 else if size = 32 then 15 else 24

/-- The longest texts of the fixed format: 11, 48 and 327 characters. -/
def maxFixedText (size : ℤ) : ℕ := if size = 16 then 11 else if size = 32 then 48 else 327

section
variable {W : ℕ} (hW : W = 32 ∨ W = 64) {F : Format} {size : ℤ} (hS : SizeOf F size) {prec : ℤ} (hp : prec < 0) (opt : Bool) {c : ℕ} {s : Bool}
  {m : ℚ} (hc : F.decode c = .num s m) {val : F64} (hd : double.decode val.toNat = .num s m)
include hW hS hp hc hd

theorem finite_short {fmt : Char} (hfmt : fmt = 'e' ∨ fmt = 'E' ∨ fmt = 'g' ∨ fmt = 'G') : ∃ t, genericFtoa W opt val fmt prec size = .ok t ∧ t.length ≤ maxText size := by
  obtain ⟨ds, dp, x, h1, h4, h5, h6, h7, h8, h9⟩ := short_places hW hS opt hc hd
  refine ⟨_, h5 hp (by rcases hfmt with rfl | rfl | rfl | rfl <;> simp [DecimalFormat]), ?_⟩
  have hE : ∀ letter, (fmtE s ⟨ds.map (· + 48), dp, x⟩ ((ds.length : ℤ) - 1) letter).length ≤ maxText size := by
    intro letter
    have hx : expOf ds dp = 0 ∨ expOf ds dp = dp - 1 ∧ 1 ≤ ds.length := by
      unfold expOf
      split
      · exact Or.inl rfl
      · exact Or.inr ⟨rfl, by omega⟩
    rcases hS with ⟨rfl, rfl⟩ | ⟨rfl, rfl⟩ | ⟨rfl, rfl⟩
    · refine le_trans (fmtE_length s h1.digit dp x letter (j := 2) le_rfl (by norm_num) ?_) ?_
      · simp [maxDecimals, maxIntegers] at h7 h8
        omega
      · simp [maxDigits, maxText] at h6 ⊢
        omega
    · refine le_trans (fmtE_length s h1.digit dp x letter (j := 2) le_rfl (by norm_num) ?_) ?_
      · simp [maxDecimals, maxIntegers] at h7 h8
        omega
      · simp [maxDigits, maxText] at h6 ⊢
        omega
    · refine le_trans (fmtE_length s h1.digit dp x letter (j := 3) (by norm_num) le_rfl (by omega)) ?_
      simp [maxDigits, maxText] at h6 ⊢
      omega
  by_cases he : fmt = 'e' ∨ fmt = 'E'
  · unfold formatDigits shortPrec
    rw [if_pos he, if_pos he]
    exact hE fmt
  · have hg : fmt = 'g' ∨ fmt = 'G' := by
      rcases hfmt with h | h | h | h
      · exact absurd (Or.inl h) he
      · exact absurd (Or.inr h) he
      · exact Or.inl h
      · exact Or.inr h
    have hsp : shortPrec fmt ds.length dp = ds.length := by
      unfold shortPrec
      rw [if_neg he, if_neg (by rcases hg with rfl | rfl <;> decide)]
    rw [hsp, formatDigits_g true s dp x hg le_rfl (fun _ => rfl)]
    simp only [↓reduceIte]
    split
    · exact hE _
    · rename_i hx
      push Not at hx
      have hl := fmtF_length s h1.digit dp x (P := max ((ds.length : ℤ) - dp) 0) (le_max_right _ _)
      have : (maxDigits size : ℤ) + 6 ≤ maxText size ∧ 8 ≤ (maxText size : ℤ) := by
        rcases hS with ⟨rfl, rfl⟩ | ⟨rfl, rfl⟩ | ⟨rfl, rfl⟩ <;> simp [maxDigits, maxText]
      split at hl <;> omega

theorem finite_fixed : ∃ t, genericFtoa W opt val 'f' prec size = .ok t ∧ t.length ≤ maxFixedText size := by
  obtain ⟨ds, dp, x, h1, h4, h5, h6, h7, h8, h9⟩ := short_places hW hS opt hc hd
  refine ⟨_, h5 hp (by simp [DecimalFormat]), ?_⟩
  have hl := fmtF_length s h1.digit dp x (P := max ((ds.length : ℤ) - dp) 0) (le_max_right _ _)
  have h10 : (maxDigits size : ℤ) + 2 ≤ maxFixedText size ∧ (maxDecimals size : ℤ) + 3 ≤ maxFixedText size ∧ (maxIntegers size : ℤ) + 1 ≤ maxFixedText size := by
    rcases hS with ⟨rfl, rfl⟩ | ⟨rfl, rfl⟩ | ⟨rfl, rfl⟩ <;> simp [maxDigits, maxFixedText, maxDecimals, maxIntegers]
  have : formatDigits true s ⟨ds.map (· + 48), dp, x⟩ (shortPrec 'f' ds.length dp) 'f' = fmtF s ⟨ds.map (· + 48), dp, x⟩ (max ((ds.length : ℤ) - dp) 0) := rfl
  rw [this]
  split at hl <;> omega
end

section
variable {W : ℕ} {size : ℤ} (hsize : size = 16 ∨ size = 32 ∨ size = 64) {prec : ℤ} (opt : Bool) (val : F64)
include hsize

theorem every_short {fmt : Char} {L : ℤ → ℕ} (hL : ∀ {F}, SizeOf F size → 4 ≤ L size)
    (h : ∀ {F : Format}, SizeOf F size → ∀ {c : ℕ} {s : Bool} {m : ℚ}, F.decode c = .num s m → ∀ {val : F64}, double.decode val.toNat = .num s m →
      ∃ t, genericFtoa W opt val fmt prec size = .ok t ∧ t.length ≤ L size) :
    ∃ t, genericFtoa W opt val fmt prec size = .ok t ∧ t.length ≤ L size := by
  obtain ⟨F, val', d, h1, h2, h3, h4⟩ := by_size (W := W) hsize val opt fmt prec
  rw [h2]
  obtain ⟨k1, k2⟩ := C46_special (W := W) h1 fmt prec opt val'
  have h5 := hL h1
  cases d with
  | nan s => exact ⟨_, k1 s h3, le_trans (by decide) h5⟩
  | inf s => exact ⟨_, k2 s h3, le_trans (by cases s <;> decide) h5⟩
  | num s m =>
    obtain ⟨c, hc⟩ := h4
    exact h h1 hc h3
end

section
variable {W : ℕ} (hW : W = 32 ∨ W = 64) {size : ℤ} (hsize : size = 16 ∨ size = 32 ∨ size = 64) {prec : ℤ} (hp : prec < 0) (opt : Bool) (val : F64)
include hW hsize hp

/-- C73: with a negative precision the formats `e`, `E`, `g` and `G` print at most 24 characters for a float64, 15 for a float32 and 11 for
a binary16. -/
theorem C73_shortest {fmt : Char} (hfmt : fmt = 'e' ∨ fmt = 'E' ∨ fmt = 'g' ∨ fmt = 'G') :
    ∃ t, genericFtoa W opt val fmt prec size = .ok t ∧ t.length ≤ maxText size :=
  every_short hsize opt val (L := maxText) (fun hS => by rcases hS with ⟨rfl, rfl⟩ | ⟨rfl, rfl⟩ | ⟨rfl, rfl⟩ <;> decide)
    fun hS _ _ _ hc _ hd => finite_short hW hS hp opt hc hd hfmt

/-- C73: with a negative precision the format `f` prints at most 327, 48 and 11 characters. -/
theorem C73_shortest_fixed : ∃ t, genericFtoa W opt val 'f' prec size = .ok t ∧ t.length ≤ maxFixedText size :=
  every_short hsize opt val (L := maxFixedText) (fun hS => by rcases hS with ⟨rfl, rfl⟩ | ⟨rfl, rfl⟩ | ⟨rfl, rfl⟩ <;> decide)
    fun hS _ _ _ hc _ hd => finite_fixed hW hS hp opt hc hd
end

section
variable {W : ℕ} (hW : W = 32 ∨ W = 64) {F : Format} {size : ℤ} (hS : SizeOf F size) {prec : ℤ} (hp : 0 ≤ prec) (opt : Bool) {c : ℕ} {s : Bool}
  {m : ℚ} (hc : F.decode c = .num s m) {val : F64} (hd : double.decode val.toNat = .num s m)
include hW hS hp hc hd

theorem finite_exp {fmt : Char} (hfmt : fmt = 'e' ∨ fmt = 'E') : ∃ t, genericFtoa W opt val fmt prec size = .ok t ∧ (t.length : ℤ) ≤ prec + 8 := by
  obtain ⟨ds, dp, h1, -, -, -, h5, h6⟩ := fixed_text_eg hW hS (fmt := fmt) (by rcases hfmt with rfl | rfl <;> simp [DecimalFormat])
    (by rcases hfmt with rfl | rfl <;> decide) hp opt hc hd
  refine ⟨_, h6, ?_⟩
  rw [if_neg (by rcases hfmt with rfl | rfl <;> decide)]
  unfold formatDigits
  rw [if_pos hfmt]
  have := fmtE_length_prec s h1.digit dp false fmt (j := 3) (by norm_num) le_rfl (by omega) prec
  split at this <;> omega

theorem finite_general {fmt : Char} (hfmt : fmt = 'g' ∨ fmt = 'G') : ∃ t, genericFtoa W opt val fmt prec size = .ok t ∧ (t.length : ℤ) ≤ max prec 1 + 7 := by
  obtain ⟨ds, dp, h1, -, h3, -, h5, h6⟩ := fixed_text_eg hW hS (fmt := fmt) (by rcases hfmt with rfl | rfl <;> simp [DecimalFormat])
    (by rcases hfmt with rfl | rfl <;> decide) hp opt hc hd
  refine ⟨_, h6, ?_⟩
  rw [if_pos hfmt] at h3 ⊢
  rw [formatDigits_g false s dp false hfmt h3 (by simp)]
  simp only [Bool.false_eq_true, ↓reduceIte]
  split
  · have := fmtE_length_prec s h1.digit dp false (expLetter fmt) (j := 3) (by norm_num) le_rfl (by omega) ((ds.length : ℤ) - 1)
    split at this <;> omega
  · have hl := fmtF_length s h1.digit dp false (P := max ((ds.length : ℤ) - dp) 0) (le_max_right _ _)
    split at hl <;> omega

theorem finite_decimals : ∃ t, genericFtoa W opt val 'f' prec size = .ok t ∧ (t.length : ℤ) ≤ maxIntegers size + 2 + prec := by
  obtain ⟨ds, dp, z, h1, h2, h3, h4, h5⟩ := fixed_text_f hW hS hp opt hc hd
  refine ⟨_, h5, ?_⟩
  have hl := fmtF_length s h1.digit dp false hp
  have hI : 1 ≤ maxIntegers size := by rcases hS with ⟨rfl, rfl⟩ | ⟨rfl, rfl⟩ | ⟨rfl, rfl⟩ <;> decide
  have hdp : dp ≤ maxIntegers size := by
    by_cases hne : ds = []
    · rw [h1.zero hne]
      omega
    · obtain ⟨p1, -⟩ := decValue_pos h1 hne
      obtain ⟨-, l2⟩ := size_limits hS
      have hm : m < F.overflowAt := by
        obtain ⟨n, k, N, hs, rfl, d1, d2, -⟩ := value_split hS.go hc
        have hb := hS.go.bounds
        exact rounds_lt hc ((roundsTo_congr d1 d2).2 ((roundsTo_iff F (by omega) (by omega) s hs.fin (F.magc_nonneg n)).2 (inInterval_self n)))
      have hq : decValue ds dp ≤ m + 1 := by
        have hT : (0 : ℚ) < (10 : ℚ) ^ prec := by positivity
        have hT1 : (1 : ℚ) ≤ (10 : ℚ) ^ prec := one_le_zpow₀ (by norm_num) hp
        have h6 := (abs_le.1 h2.1).1
        rw [h3, zpow_neg, ← div_eq_mul_inv, div_le_iff₀ hT, add_mul, one_mul]
        push_cast at h6
        linarith
      by_contra hcon
      push Not at hcon
      have h7 : (10 : ℚ) ^ (maxIntegers size : ℤ) ≤ (10 : ℚ) ^ (dp - 1) := zpow_le_zpow_right₀ (by norm_num) (by omega)
      rw [zpow_natCast] at h7
      linarith
  split at hl <;> omega
end

theorem every_prec {W : ℕ} {size : ℤ} (hsize : size = 16 ∨ size = 32 ∨ size = 64) {prec : ℤ} (opt : Bool) (val : F64) {fmt : Char} {L : ℤ} (hL : 4 ≤ L)
    (h : ∀ {F : Format}, SizeOf F size → ∀ {c : ℕ} {s : Bool} {m : ℚ}, F.decode c = .num s m → ∀ {val : F64}, double.decode val.toNat = .num s m →
      ∃ t, genericFtoa W opt val fmt prec size = .ok t ∧ (t.length : ℤ) ≤ L) :
    ∃ t, genericFtoa W opt val fmt prec size = .ok t ∧ (t.length : ℤ) ≤ L := by
  obtain ⟨t, h1, h2⟩ := every_short (W := W) hsize (prec := prec) opt val (fmt := fmt) (L := fun _ => L.toNat) (fun _ => by omega) fun hS _ _ _ hc _ hd => by
    obtain ⟨t, h1, h2⟩ := h hS hc hd
    exact ⟨t, h1, by omega⟩
  exact ⟨t, h1, by omega⟩

section
variable {W : ℕ} (hW : W = 32 ∨ W = 64) {size : ℤ} (hsize : size = 16 ∨ size = 32 ∨ size = 64) {prec : ℤ} (hp : 0 ≤ prec) (opt : Bool) (val : F64)
include hW hsize hp

/-- C73: with a precision `prec` the formats `e` and `E` print at most `prec + 8` characters, of every number: a sign, a digit, a point,
`prec` digits and an exponent of at most five. -/
theorem C73_exponential {fmt : Char} (hfmt : fmt = 'e' ∨ fmt = 'E') : ∃ t, genericFtoa W opt val fmt prec size = .ok t ∧ (t.length : ℤ) ≤ prec + 8 :=
  every_prec hsize opt val (by omega) fun hS _ _ _ hc _ hd => finite_exp hW hS hp opt hc hd hfmt

/-- C73: the formats `g` and `G` print at most `prec + 7` characters, and 8 with precision 0. -/
theorem C73_general {fmt : Char} (hfmt : fmt = 'g' ∨ fmt = 'G') : ∃ t, genericFtoa W opt val fmt prec size = .ok t ∧ (t.length : ℤ) ≤ max prec 1 + 7 :=
  every_prec hsize opt val (by omega) fun hS _ _ _ hc _ hd => finite_general hW hS hp opt hc hd hfmt

/-- C73: the format `f` prints at most `prec` characters more than a sign, the digits of the largest float of the size (5, 39 or 309) and a point. -/
theorem C73_decimals : ∃ t, genericFtoa W opt val 'f' prec size = .ok t ∧ (t.length : ℤ) ≤ maxIntegers size + 2 + prec :=
  every_prec hsize opt val (by
    have : 5 ≤ maxIntegers size := by rcases hsize with rfl | rfl | rfl <;> decide
    omega) fun hS _ _ _ hc _ hd => finite_decimals hW hS hp opt hc hd
end

-- concrete cases: the bounds are attained
example : formatFloat 64 0x8010000000000000 'e' (-1) 64 = .ok "-2.2250738585072014e-308".toList ∧ "-2.2250738585072014e-308".toList.length = 24 := by
  decide +kernel
example : formatFloat 64 (f32to64 0x83EA5F6E) 'g' (-1) 32 = .ok "-1.37751935e-36".toList ∧ "-1.37751935e-36".toList.length = 15 := by decide +kernel
example : ∃ t, formatFloat 64 0x8000000000000001 'f' (-1) 64 = .ok t ∧ t.length = 327 := by
  exact ⟨_, rfl, by decide +kernel⟩
example : formatFloat 64 0xBF1A400000000000 'e' (-1) 16 = .ok "-1.0014e-04".toList ∧ "-1.0014e-04".toList.length = 11 := by decide +kernel
example : formatFloat 64 0xBE70000000000000 'f' (-1) 16 = .ok "-0.00000006".toList ∧ "-0.00000006".toList.length = 11 := by decide +kernel
example : formatFloat 64 0x8010000000000000 'e' 3 64 = .ok "-2.225e-308".toList ∧ ("-2.225e-308".toList.length : ℤ) = 3 + 8 := by decide +kernel
example : formatFloat 64 0x8010000000000000 'g' 4 64 = .ok "-2.225e-308".toList ∧ ("-2.225e-308".toList.length : ℤ) = 4 + 7 := by decide +kernel
example : formatFloat 64 0xC0EFFC0000000000 'f' 2 16 = .ok "-65504.00".toList ∧ ("-65504.00".toList.length : ℤ) = maxIntegers 16 + 2 + 2 := by
  decide +kernel

end GoFloat.Strconv
