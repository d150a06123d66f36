import Verif.Proofs.Bounds
/-
`FixedDecimal` and `adjustLastDigitFixed` (internal/strconv/extfloat.go).
-/
namespace GoFloat.Strconv
open Spec

/-- The digits of the fraction; with an error far below the last digit the loop does not give up. -/
theorem fixedLoop_ok (s : ℕ) (hs1 : 32 ≤ s) (hs2 : s ≤ 60) : ∀ (needed j : ℕ) (ds : List ℕ) (fraction ε : BitVec 64),
    fraction.toNat < 2 ^ s → ε.toNat = 10 ^ j → ds.length + needed ≤ 24 → 4 * 10 ^ (j + needed) ≤ 2 ^ s →
    (∀ d ∈ ds, d < 10) → ds.head? ≠ some 0 → ds ≠ [] →
    ∃ (ds' : List ℕ) (fr ε' : BitVec 64), fixedLoop s needed (ds.map (· + 48)) fraction ε = .ok (some (ds'.map (· + 48), fr, ε')) ∧
      fr.toNat < 2 ^ s ∧ ε'.toNat = 10 ^ (j + needed) ∧ ds'.length = ds.length + needed ∧
      dv ds' * 2 ^ s + fr.toNat = (dv ds * 2 ^ s + fraction.toNat) * 10 ^ needed ∧
      (∀ d ∈ ds', d < 10) ∧ ds'.head? ≠ some 0 ∧ ds' ≠ []
  | 0, j, ds, fraction, ε, h1, h2, h3, h4, h5, h6, h7 =>
    ⟨ds, fraction, ε, rfl, h1, h2, rfl, by rw [pow_zero, mul_one], h5, h6, h7⟩
  | needed + 1, j, ds, fraction, ε, h1, h2, h3, h4, h5, h6, h7 => by
    have hp : 2 ^ s ≤ 2 ^ 60 := Nat.pow_le_pow_right (by norm_num) hs2
    have hj : 10 ^ (j + 1) ≤ 10 ^ (j + (needed + 1)) := Nat.pow_le_pow_right (by norm_num) (by omega)
    have hj1 : 10 ^ (j + 1) = 10 * 10 ^ j := by rw [pow_succ]; ring
    obtain ⟨P, hP⟩ : ∃ P, P = 2 ^ s := ⟨_, rfl⟩
    have hPpos : 0 < P := by rw [hP]; positivity
    rw [← hP] at hp h1 h4
    have e1 : (fraction * 10).toNat = fraction.toNat * 10 := mul_toNat (by
      rw [show (10 : BitVec 64).toNat = 10 from rfl]; omega)
    have e2 : (ε * 10).toNat = 10 ^ (j + 1) := by
      rw [mul_toNat, h2, show (10 : BitVec 64).toNat = 10 from rfl, pow_succ]
      rw [h2, show (10 : BitVec 64).toNat = 10 from rfl]; omega
    have e3 : (2 * (ε * 10)).toNat = 2 * 10 ^ (j + 1) := by
      rw [mul_toNat, e2, show (2 : BitVec 64).toNat = 2 from rfl]
      rw [e2, show (2 : BitVec 64).toNat = 2 from rfl]; omega
    have e4 : (((1 <<< s : ℕ)) : BitVec 64).toNat = P := by rw [one_shift (by omega), hP]
    have e5 : ((fraction * 10) >>> s).toNat = fraction.toNat * 10 / P := by
      rw [BitVec.toNat_ushiftRight, e1, Nat.shiftRight_eq_div_pow, hP]
    set q := fraction.toNat * 10 / P with hq
    have hq10 : q < 10 := by rw [hq, Nat.div_lt_iff_lt_mul hPpos]; omega
    have hqle : q * P ≤ fraction.toNat * 10 := Nat.div_mul_le_self _ _
    have hqlt : fraction.toNat * 10 < q * P + P := Nat.lt_div_mul_add hPpos
    have e6 : (((fraction * 10) >>> s) <<< s).toNat = q * P := by
      rw [shl_toNat, e5, hP]
      rw [e5, ← hP]; omega
    have e7 : (fraction * 10 - ((fraction * 10) >>> s) <<< s).toNat = fraction.toNat * 10 - q * P := by
      rw [sub_toNat, e6, e1]; rw [e6, e1]; exact hqle
    have hnot : ¬ (((2 : ℕ) : BitVec 64) * (ε * (10 : BitVec 64)) > (((1 <<< s : ℕ)) : BitVec 64)) := by
      have h2' : ((2 : ℕ) : BitVec 64) = 2 := rfl
      rw [gt_iff_lt, bv_lt, h2', e3, e4]; omega
    have hput : putByte 24 (ds.map (· + 48)) ((((fraction * 10) >>> s).toNat + 48) % 256) = .ok ((ds ++ [q]).map (· + 48)) := by
      unfold putByte
      rw [if_pos (by rw [List.length_map]; omega), e5, Nat.mod_eq_of_lt (by omega), List.map_append]
      rfl
    obtain ⟨ds', fr, ε', g1, g2, g3, g4, g5, g6, g7, g8⟩ := fixedLoop_ok s hs1 hs2 needed (j + 1) (ds ++ [q])
      (fraction * 10 - ((fraction * 10) >>> s) <<< s) (ε * 10) (by rw [e7]; omega) e2
      (by rw [List.length_append, List.length_singleton]; omega) (by rw [show j + 1 + needed = j + (needed + 1) by ring, ← hP]; exact h4)
      (by
        intro d hd
        rcases List.mem_append.1 hd with h | h
        · exact h5 d h
        · have : d = q := by simpa using h
          omega)
      (head_append h6 (fun h => absurd h h7)) (by simp)
    refine ⟨ds', fr, ε', ?_, g2, ?_, ?_, ?_, g6, g7, g8⟩
    · rw [fixedLoop]
      dsimp only
      rw [if_neg hnot, hput, ok_bind]
      exact g1
    · rw [g3]; congr 1; ring
    · rw [g4, List.length_append, List.length_singleton]; ring
    · rw [g5, dv_snoc, e7, ← hP, pow_succ]
      have : (dv ds * 10 + q) * P + (fraction.toNat * 10 - q * P) = (dv ds * P + fraction.toNat) * 10 := by
        have h8 : (dv ds * 10 + q) * P = dv ds * P * 10 + q * P := by ring
        rw [h8]; omega
      rw [this]; ring

theorem dropWhile_nines (ds : List ℕ) : ∃ j, ds = (ds.reverse.dropWhile (· = 9)).reverse ++ List.replicate j 9 ∧
    (ds.reverse.dropWhile (· = 9)).reverse.getLast? ≠ some 9 := by
  have h : ∀ l : List ℕ, ∃ j, l = List.replicate j 9 ++ l.dropWhile (· = 9) ∧ (l.dropWhile (· = 9)).head? ≠ some 9 := by
    intro l
    induction l with
    | nil => exact ⟨0, rfl, by simp⟩
    | cons a t ih =>
      by_cases ha : a = 9
      · obtain ⟨j, h1, h2⟩ := ih
        refine ⟨j + 1, ?_, ?_⟩
        · rw [List.dropWhile_cons_of_pos (by simpa using ha), List.replicate_succ, List.cons_append, ← h1, ha]
        · rw [List.dropWhile_cons_of_pos (by simpa using ha)]; exact h2
      · refine ⟨0, ?_, ?_⟩
        · rw [List.dropWhile_cons_of_neg (by simpa using ha)]; rfl
        · rw [List.dropWhile_cons_of_neg (by simpa using ha)]; simpa using ha
  obtain ⟨j, h1, h2⟩ := h ds.reverse
  refine ⟨j, ?_, ?_⟩
  · have := congrArg List.reverse h1
    rw [List.reverse_reverse, List.reverse_append, List.reverse_replicate] at this
    exact this
  · rw [List.getLast?_reverse]; exact h2

theorem dv_nines (j : ℕ) : dv (List.replicate j 9) + 1 = 10 ^ j := by
  induction j with
  | zero => rfl
  | succ j ih => rw [List.replicate_succ', dv_snoc, pow_succ]; omega

theorem map_dropWhile (ds : List ℕ) (c : ℕ) :
    ((ds.map (· + 48)).reverse.dropWhile (· = c + 48)).reverse = (ds.reverse.dropWhile (· = c)).reverse.map (· + 48) := by
  rw [← List.map_reverse, List.dropWhile_map, ← List.map_reverse]
  congr 3
  funext x
  simp [Function.comp]

theorem trimFixed_ok {ds : List ℕ} (h : dv ds ≠ 0) : trimFixed (ds.map (· + 48)) = (dropTrailingZeros ds).map (· + 48) := by
  unfold trimFixed
  dsimp only
  have := map_dropWhile ds 0
  rw [Nat.zero_add] at this
  rw [this, dropWhile_dtz, if_neg]
  rw [List.map_eq_nil_iff]
  exact fun hc => h (dtz_zero_iff hc)

/-- Rounding the last digit. -/
theorem adjustFixed_ok {ds : List ℕ} (hd : ∀ d ∈ ds, d < 10) (hh : ds.head? ≠ some 0) (hne : ds ≠ []) (dp : ℤ) (neg : Bool)
    {num den ε : BitVec 64} {s D : ℕ} (hD : (den <<< s).toNat = D) (hnum : num.toNat < D) (he : 4 * ε.toNat ≤ D)
    (hov : 2 * (num.toNat + ε.toNat) < 2 ^ 64) {x : ℚ} (hx : |x - (dv ds * D + num.toNat)| < ε.toNat) :
    (adjustLastDigitFixed ⟨ds.map (· + 48), dp, neg⟩ num den s ε = .ok none ∧ |x - (dv ds + 1 / 2) * D| < 2 * ε.toNat) ∨
      ∃ (ds' : List ℕ) (dp' : ℤ) (M : ℕ), adjustLastDigitFixed ⟨ds.map (· + 48), dp, neg⟩ num den s ε = .ok (some ⟨ds'.map (· + 48), dp', neg⟩) ∧
        (∀ d ∈ ds', d < 10) ∧ ds'.head? ≠ some 0 ∧ ds' ≠ [] ∧ ds'.length ≤ ds.length ∧
        decValue ds' dp' = M * (10 : ℚ) ^ (dp - ds.length) ∧ |x - M * D| < D / 2 := by
  rw [abs_lt] at hx
  have hDq : (num.toNat : ℚ) < D := by exact_mod_cast hnum
  have heq : 4 * (ε.toNat : ℚ) ≤ D := by exact_mod_cast he
  have hn0 : (0 : ℚ) ≤ num.toNat := Nat.cast_nonneg _
  have a1 : (num + ε).toNat = num.toNat + ε.toNat := add_toNat (by omega)
  have a2 : (2 * (num + ε)).toNat = 2 * (num.toNat + ε.toNat) := by
    rw [mul_toNat, a1, show (2 : BitVec 64).toNat = 2 from rfl]
    rw [a1, show (2 : BitVec 64).toNat = 2 from rfl]; omega
  have a3 : (2 * ε).toNat = 2 * ε.toNat := by
    rw [mul_toNat, show (2 : BitVec 64).toNat = 2 from rfl]
    rw [show (2 : BitVec 64).toNat = 2 from rfl]; omega
  unfold adjustLastDigitFixed
  rw [if_neg (by rw [gt_iff_lt, bv_lt, hD]; omega), if_neg (by rw [gt_iff_lt, bv_lt, hD, a3]; omega)]
  by_cases hc : 2 * (num.toNat + ε.toNat) < D
  · rw [if_pos (by rw [bv_lt, hD, a2]; exact hc)]
    right
    have hcq : 2 * ((num.toNat : ℚ) + ε.toNat) < D := by exact_mod_cast hc
    refine ⟨ds, dp, dv ds, rfl, hd, hh, hne, le_rfl, rfl, ?_⟩
    rw [abs_lt]
    constructor <;> linarith
  · rw [if_neg (by rw [bv_lt, hD, a2]; exact hc)]
    have hle : ε.toNat ≤ num.toNat := by omega
    have a4 : (num - ε).toNat = num.toNat - ε.toNat := sub_toNat hle
    have a5 : (2 * (num - ε)).toNat = 2 * (num.toNat - ε.toNat) := by
      rw [mul_toNat, a4, show (2 : BitVec 64).toNat = 2 from rfl]
      rw [a4, show (2 : BitVec 64).toNat = 2 from rfl]; omega
    by_cases hc2 : D < 2 * (num.toNat - ε.toNat)
    · rw [if_pos (by rw [gt_iff_lt, bv_lt, hD, a5]; exact hc2)]
      right
      have hcq : (D : ℚ) < 2 * ((num.toNat : ℚ) - ε.toNat) := by
        rw [← Nat.cast_sub hle]; exact_mod_cast hc2
      obtain ⟨j, j1, j2⟩ := dropWhile_nines ds
      have hm := map_dropWhile ds 9
      have habs : |x - ((dv ds + 1 : ℕ) : ℚ) * D| < D / 2 := by
        push_cast
        rw [abs_lt]
        constructor <;> linarith
      simp only [hm]
      generalize hr : (ds.reverse.dropWhile (fun x => decide (x = 9))).reverse = r at *
      have hlen : ds.length = r.length + j := by
        rw [j1, List.length_append, List.length_replicate]
      have hdv : dv ds + 1 = (dv r + 1) * 10 ^ j := by
        have := dv_nines j
        rw [j1, dv_append, List.length_replicate, add_assoc, this]; ring
      rcases List.eq_nil_or_concat r with h0 | ⟨r', c, h0⟩
      · subst h0
        refine ⟨[1], dp + 1, dv ds + 1, rfl, by simp, by simp, by simp, ?_, ?_, habs⟩
        · simp only [List.length_singleton]
          have := List.length_pos_iff.2 hne
          omega
        · rw [hdv, decValue_eq, hlen]
          simp only [List.length_nil, List.length_singleton, Nat.zero_add]
          show ((1 : ℕ) : ℚ) * _ = (((0 + 1) * 10 ^ j : ℕ) : ℚ) * _
          rw [zpow_sub₀ (by norm_num) dp (j : ℤ), zpow_natCast]
          push_cast
          rw [show dp + 1 - 1 = dp by ring]
          field_simp
      · rw [List.concat_eq_append] at h0
        subst h0
        have hc10 : c < 10 := hd c (by rw [j1]; simp)
        have hc9 : c ≠ 9 := by
          intro hcc
          rw [hcc] at j2
          simp at j2
        have hl : ((r' ++ [c]).map (· + 48)).getLast? = some (c + 48) := by simp
        have hdl : ((r' ++ [c]).map (· + 48)).dropLast = r'.map (· + 48) := by simp
        simp only [hl, hdl]
        have hmod : (c + 48 + 1) % 256 = c + 1 + 48 := by omega
        rw [hmod]
        refine ⟨r' ++ [c + 1], dp, dv ds + 1, ?_, ?_, ?_, by simp, ?_, ?_, habs⟩
        · rw [List.map_append]; rfl
        · intro d hdd
          rcases List.mem_append.1 hdd with h | h
          · exact hd d (by rw [j1]; simp [h])
          · have : d = c + 1 := by simpa using h
            omega
        · apply head_append
          · intro hcc
            apply hh
            rw [j1]
            cases r' with
            | nil => simp at hcc
            | cons a t => simpa using hcc
          · intro _; omega
        · rw [hlen]; simp
        · have h2 : dv (r' ++ [c + 1]) = dv (r' ++ [c]) + 1 := by rw [dv_snoc, dv_snoc]; ring
          have h3 : (r' ++ [c + 1]).length = (r' ++ [c]).length := by simp
          rw [hdv, decValue_eq, h2, hlen, h3]
          push_cast
          rw [show dp - ((r' ++ [c]).length + j : ℤ) = dp - ((r' ++ [c]).length : ℤ) - j by ring, zpow_sub₀ (by norm_num) _ (j : ℤ), zpow_natCast]
          field_simp
    · rw [if_neg (by rw [gt_iff_lt, bv_lt, hD, a5]; exact hc2)]
      refine Or.inl ⟨rfl, ?_⟩
      have b1 : (D : ℚ) ≤ 2 * ((num.toNat : ℚ) + ε.toNat) := by exact_mod_cast not_lt.1 hc
      have b2 : 2 * ((num.toNat : ℚ) - ε.toNat) ≤ D := by
        rw [← Nat.cast_sub hle]; exact_mod_cast not_lt.1 hc2
      rw [abs_lt]
      constructor <;> linarith

/-- A number less than half a unit away from an integer multiple `M` of the unit, with an error that is tiny compared with the
unit at the powers of ten, is rounded to `M` units also if the unit is taken from its own leading digit. -/
theorem roundedDigits_of {n M : ℕ} (hn : 1 ≤ n) {v : ℚ} {e : ℤ} (hM1 : 10 ^ (n - 1) ≤ M) (hM2 : M ≤ 10 ^ n) (hM : |v / (10 : ℚ) ^ e - M| < 1 / 2)
    (hlo : (10 : ℚ) ^ (n - 1) - 1 / 100 ≤ v / (10 : ℚ) ^ e) (hhi : v / (10 : ℚ) ^ e ≤ 10 ^ n + 1 / 100) :
    RoundedDigits n v (M * (10 : ℚ) ^ e) := by
  obtain ⟨p, hp⟩ : ∃ p, n = p + 1 := ⟨n - 1, by omega⟩
  subst hp
  rw [Nat.add_sub_cancel] at hM1 hlo
  have hE : (0 : ℚ) < (10 : ℚ) ^ e := by positivity
  have hM1q : (10 : ℚ) ^ p ≤ M := by exact_mod_cast hM1
  have hM2q : (M : ℚ) ≤ 10 ^ (p + 1) := by exact_mod_cast hM2
  have hp1 : (1 : ℚ) ≤ 10 ^ p := one_le_pow₀ (by norm_num)
  have hps : (10 : ℚ) ^ (p + 1) = 10 * 10 ^ p := by rw [pow_succ]; ring
  obtain ⟨x, hx⟩ : ∃ x, x = v / (10 : ℚ) ^ e := ⟨_, rfl⟩
  have hv : v = x * (10 : ℚ) ^ e := by rw [hx]; field_simp
  rw [← hx] at hM hlo hhi
  rw [abs_lt] at hM
  have strict : ∀ y : ℚ, ∀ m : ℕ, |y - m| < 1 / 2 → NearestEven y m := fun y m h => ⟨by exact_mod_cast h.le, fun hc => by
    have : ((m : ℤ) : ℚ) = (m : ℚ) := by norm_cast
    rw [this] at hc
    exact absurd hc h.ne⟩
  by_cases h1 : x < 10 ^ p
  · -- just below a power of ten: the unit is ten times smaller
    have hMe : M = 10 ^ p := by
      have : (M : ℚ) < 10 ^ p + 1 := by linarith
      have : M < 10 ^ p + 1 := by exact_mod_cast this
      omega
    have hE1 : (10 : ℚ) ^ (e - 1) = (10 : ℚ) ^ e / 10 := by rw [zpow_sub₀ (by norm_num), zpow_one]
    have hx1 : v / (10 : ℚ) ^ (e - 1) = 10 * x := by rw [hE1, hv]; field_simp
    refine ⟨10 ^ (p + 1), e - 1, ?_, ?_, ?_, ?_⟩
    · rw [hx1, Nat.add_sub_cancel]; linarith
    · rw [hx1, hps]; linarith
    · rw [hx1]
      apply strict
      push_cast
      rw [hps, abs_lt]
      constructor <;> linarith
    · rw [hE1, hMe]; push_cast; rw [hps]; field_simp
  · by_cases h2 : x < 10 ^ (p + 1)
    · refine ⟨M, e, ?_, ?_, ?_, rfl⟩
      · rw [← hx, Nat.add_sub_cancel]; linarith
      · rw [← hx]; exact h2
      · rw [← hx]
        apply strict
        rw [abs_lt]; exact hM
    · have hMe : M = 10 ^ (p + 1) := by
        have : (10 : ℚ) ^ (p + 1) < M + 1 := by linarith
        have : 10 ^ (p + 1) < M + 1 := by exact_mod_cast this
        omega
      have hE1 : (10 : ℚ) ^ (e + 1) = (10 : ℚ) ^ e * 10 := by rw [zpow_add₀ (by norm_num), zpow_one]
      have hx1 : v / (10 : ℚ) ^ (e + 1) = x / 10 := by rw [hE1, hv]; field_simp
      refine ⟨10 ^ p, e + 1, ?_, ?_, ?_, ?_⟩
      · rw [hx1, Nat.add_sub_cancel]; linarith
      · rw [hx1]; linarith
      · rw [hx1]
        apply strict
        push_cast
        rw [abs_lt]
        constructor <;> linarith
      · rw [hE1, hMe]; push_cast; rw [hps]; ring

set_option maxHeartbeats 1000000 in
/-- `FixedDecimal` after normalisation: it gives up, and the number is close to the middle between two decimals of `n` digits, or its
digits are the number rounded to `n` digits, and the number is less than half a unit of the last digit away. -/
theorem fixedDecimal_norm {f g : ExtFloat} (hf0 : f.mant ≠ 0) (hg : f.normalize.1 = g) (hE1 : -1150 ≤ g.exp) (hE2 : g.exp < 1050)
    (hU : 2 ^ 63 ≤ g.mant.toNat) {n : ℕ} (hn1 : 1 ≤ n) (hn2 : n ≤ 15) :
    (f.fixedDecimal n = .ok none ∧ ∃ (M : ℕ) (x : ℤ), 10 ^ (n - 1) ≤ M ∧ M < 10 ^ n ∧ |g.val - (M + 1 / 2) * (10 : ℚ) ^ x| < g.val / 2 ^ 60) ∨
      ∃ ds dp, f.fixedDecimal n = .ok (some ⟨ds.map (· + 48), dp, false⟩) ∧ NormalDec ds dp ∧ ds ≠ [] ∧ ds.length ≤ n ∧
        RoundedDigits n g.val (decValue ds dp) ∧ ∃ (M : ℕ) (x : ℤ), (10 : ℚ) ^ (n - 1) - 1 / 100 ≤ g.val / (10 : ℚ) ^ x ∧ g.val / (10 : ℚ) ^ x ≤ 10 ^ n + 1 / 100 ∧
          |g.val / (10 : ℚ) ^ x - M| < 1 / 2 := by
  obtain ⟨i, e, hi, e1, e2, e3, e4, e5⟩ := frexp10_ok g hE1 hE2
  obtain ⟨hT1, hT2⟩ := scale_bounds e2
  have mU := multiply_error g e2
  have sU := val_scale g e (-348 + 8 * (i : ℤ))
  have hup64 := multiply_le g e
  obtain ⟨s, hs⟩ : ∃ s : ℕ, g.exp + e.exp + 64 = -(s : ℤ) := ⟨(-(g.exp + e.exp + 64)).toNat, by omega⟩
  have hs1 : 32 ≤ s := by omega
  have hs2 : s ≤ 60 := by omega
  rw [hs] at sU
  unfold ExtFloat.fixedDecimal
  rw [if_neg hf0, if_neg (by omega)]
  simp only [hg]
  rw [e3, ok_bind]
  dsimp only
  rw [multiply_exp, hs, neg_neg, uintOf_nonneg (by omega) (by omega), Int.toNat_natCast]
  set T := tenScale e (-348 + 8 * (i : ℤ)) with hT
  generalize (g.multiply e).mant = Um at *
  have hTlow : (49 : ℚ) / 100 < T := by
    refine lt_of_lt_of_le ?_ hT1
    norm_num
  have hU' : ((2 : ℚ) ^ 63) ≤ g.mant.toNat := by exact_mod_cast hU
  have hUbig : 2 ^ 61 ≤ Um.toNat := by
    rw [abs_lt] at mU
    have h1 : (2 : ℚ) ^ 63 * (49 / 100) ≤ g.mant.toNat * T := mul_le_mul hU' hTlow.le (by norm_num) (by positivity)
    have : ((2 : ℚ) ^ 61) ≤ Um.toNat := by
      have h2 : (2 : ℚ) ^ 61 + 1 ≤ (2 : ℚ) ^ 63 * (49 / 100) := by norm_num
      linarith
    exact_mod_cast this
  have hXbig : (2 : ℚ) * 2 ^ 60 ≤ g.mant.toNat * T := by
    have h1 : (2 : ℚ) ^ 63 * (49 / 100) ≤ g.mant.toNat * T := mul_le_mul hU' hTlow.le (by norm_num) (by positivity)
    have h2 : (2 : ℚ) * 2 ^ 60 ≤ (2 : ℚ) ^ 63 * (49 / 100) := by norm_num
    linarith
  generalize hX : (g.mant.toNat : ℚ) * T = X at *
  set u := Um.toNat with hudef
  obtain ⟨P, hP⟩ : ∃ P, P = 2 ^ s := ⟨_, rfl⟩
  have hPpos : 0 < P := by rw [hP]; positivity
  have hPle : P ≤ 2 ^ 60 := by rw [hP]; exact Nat.pow_le_pow_right (by norm_num) hs2
  have hPge : 2 ^ 32 ≤ P := by rw [hP]; exact Nat.pow_le_pow_right (by norm_num) hs1
  set integer : BitVec 32 := (Um >>> s).setWidth 32 with hint
  have hI : integer.toNat = u / P := by
    rw [hint, BitVec.toNat_setWidth, BitVec.toNat_ushiftRight, Nat.shiftRight_eq_div_pow, ← hP, Nat.mod_eq_of_lt]
    rw [Nat.div_lt_iff_lt_mul hPpos]
    have h3 : 2 ^ 32 * 2 ^ 32 ≤ 2 ^ 32 * P := Nat.mul_le_mul_left _ hPge
    omega
  have hIlt := integer.isLt
  have hIpos : 0 < integer.toNat := by
    rw [hI]
    apply Nat.div_pos _ hPpos
    omega
  obtain ⟨nd, n1, n2, n3, n4, n5⟩ := countDigits_ok integer hIpos
  rw [n1]
  have hIu : integer.toNat * P ≤ u := by rw [hI]; exact Nat.div_mul_le_self u P
  have hIu2 : u < integer.toNat * P + P := by rw [hI]; exact Nat.lt_div_mul_add hPpos
  have hI2 : (integer.setWidth 64 <<< s).toNat = integer.toNat * P := by
    have : (integer.setWidth 64).toNat = integer.toNat := by rw [BitVec.toNat_setWidth, Nat.mod_eq_of_lt (by omega)]
    rw [shl_toNat, this, hP]
    rw [this, ← hP]; omega
  set fraction := Um - (integer.setWidth 64 <<< s) with hfr
  have hfr1 : fraction.toNat = u - integer.toNat * P := by rw [hfr, sub_toNat (by rw [hI2]; exact hIu), hI2]
  have hfr2 : fraction.toNat < P := by omega
  clear_value fraction integer
  set I := integer.toNat with hIdef
  -- what is left to do after the digits have been written
  have finish : ∀ (ds : List ℕ) (m D : ℕ) (num den ε : BitVec 64), (∀ d ∈ ds, d < 10) → ds.head? ≠ some 0 → ds ≠ [] → ds.length = n →
      (den <<< s).toNat = D → ε.toNat = m → num.toNat < D → 200 * m ≤ D → 2 * (num.toNat + ε.toNat) < 2 ^ 64 → dv ds * D + num.toNat = u * m →
      (D : ℚ) / m = (10 : ℚ) ^ ((nd : ℤ) - n) * P → 0 < m →
      ((adjustLastDigitFixed ⟨ds.map (· + 48), nd + (348 - 8 * (i : ℤ)), false⟩ num den s ε >>= fun r =>
        match r with
        | none => return none
        | some d => return some { d with d := trimFixed d.d }) = (.ok none : Go (Option DecimalSlice)) ∧ (∃ (M : ℕ) (x : ℤ), 10 ^ (n - 1) ≤ M ∧ M < 10 ^ n ∧ |g.val - (M + 1 / 2) * (10 : ℚ) ^ x| < g.val / 2 ^ 60)) ∨
      ∃ ds' dp', (adjustLastDigitFixed ⟨ds.map (· + 48), nd + (348 - 8 * (i : ℤ)), false⟩ num den s ε >>= fun r =>
        match r with
        | none => return none
        | some d => return some { d with d := trimFixed d.d }) = (.ok (some ⟨ds'.map (· + 48), dp', false⟩) : Go (Option DecimalSlice)) ∧
        NormalDec ds' dp' ∧ ds' ≠ [] ∧ ds'.length ≤ n ∧ RoundedDigits n g.val (decValue ds' dp') ∧ ∃ (M : ℕ) (x : ℤ), (10 : ℚ) ^ (n - 1) - 1 / 100 ≤ g.val / (10 : ℚ) ^ x ∧ g.val / (10 : ℚ) ^ x ≤ 10 ^ n + 1 / 100 ∧
          |g.val / (10 : ℚ) ^ x - M| < 1 / 2 := by
    intro ds m D num den ε h1 h2 h3 h4 h5 h6 h7 h8 h9 h10 h11 h12
    have hmq : (0 : ℚ) < m := by exact_mod_cast h12
    have hD0 : (0 : ℚ) < D := by
      have : 0 < D := by omega
      exact_mod_cast this
    have h8q : 200 * (m : ℚ) ≤ D := by exact_mod_cast h8
    have hx : |X * m - (dv ds * D + num.toNat)| < ε.toNat := by
      have : ((dv ds : ℚ) * D + num.toNat) = u * m := by exact_mod_cast h10
      rw [this, h6, ← sub_mul, abs_mul, abs_of_pos hmq, abs_sub_comm]
      calc _ < 1 * (m : ℚ) := mul_lt_mul_of_pos_right mU hmq
        _ = m := one_mul _
    -- the number in units of the last digit
    have hu : g.val / (10 : ℚ) ^ ((nd : ℤ) + (348 - 8 * (i : ℤ)) - n) = X * m / D := by
      have h13 : (10 : ℚ) ^ ((nd : ℤ) + (348 - 8 * (i : ℤ)) - n) = (10 : ℚ) ^ ((nd : ℤ) - n) / (10 : ℚ) ^ (-348 + 8 * (i : ℤ)) := by
        rw [← zpow_sub₀ (by norm_num)]; congr 1; ring
      rw [h13, div_div_eq_mul_div, sU, zpow_neg, zpow_natCast]
      have h14 : ((2 : ℚ) ^ s) = P := by rw [hP]; push_cast; rfl
      have hPq : (0 : ℚ) < P := by exact_mod_cast hPpos
      have hT0 : (0 : ℚ) < (10 : ℚ) ^ ((nd : ℤ) - n) := by positivity
      rw [h14]
      generalize (10 : ℚ) ^ ((nd : ℤ) - n) = Q at *
      have : (D : ℚ) = Q * P * m := by rw [← h11]; field_simp
      rw [this]
      field_simp
    have hdv1 : 10 ^ (n - 1) ≤ dv ds := by rw [← h4]; exact dv_ge h2 h3
    have hdv2 : dv ds < 10 ^ n := by rw [← h4]; exact dv_lt h1
    rcases adjustFixed_ok h1 h2 h3 (nd + (348 - 8 * (i : ℤ))) false h5 h7 (by omega) h9 hx with ⟨h, hmid⟩ | ⟨ds', dp', M, g1, g2, g3, g4, g5, g6, g7⟩
    · left
      refine ⟨by rw [h]; rfl, dv ds, (nd : ℤ) + (348 - 8 * (i : ℤ)) - n, hdv1, hdv2, ?_⟩
      have hE : (0 : ℚ) < (10 : ℚ) ^ ((nd : ℤ) + (348 - 8 * (i : ℤ)) - n) := by positivity
      generalize (10 : ℚ) ^ ((nd : ℤ) + (348 - 8 * (i : ℤ)) - n) = E at *
      have hv : g.val = X * m / D * E := by rw [← hu]; field_simp
      rw [h6] at hmid
      have e1 : g.val - (dv ds + 1 / 2) * E = (X * m - (dv ds + 1 / 2) * D) * (E / D) := by rw [hv]; field_simp
      have e2 : g.val / 2 ^ 60 = X / 2 ^ 60 * m * (E / D) := by rw [hv]; field_simp
      rw [e1, e2, abs_mul, abs_of_pos (div_pos hE hD0)]
      refine mul_lt_mul_of_pos_right (hmid.trans_le (mul_le_mul_of_nonneg_right ?_ hmq.le)) (div_pos hE hD0)
      rw [le_div_iff₀ (by norm_num)]
      linarith
    · right
      rw [h4] at g6
      rw [abs_lt] at hx g7
      have hxd : |X * m / D - M| < 1 / 2 := by
        rw [abs_lt]
        constructor
        · rw [lt_sub_iff_add_lt, lt_div_iff₀ hD0]; linarith
        · rw [sub_lt_iff_lt_add, div_lt_iff₀ hD0]; linarith
      have hnum0 : (0 : ℚ) ≤ num.toNat := Nat.cast_nonneg _
      have hnumD : (num.toNat : ℚ) ≤ D := by exact_mod_cast h7.le
      have hdq1 : (10 : ℚ) ^ (n - 1) * D ≤ dv ds * D := by
        have : (10 : ℚ) ^ (n - 1) ≤ dv ds := by exact_mod_cast hdv1
        exact mul_le_mul_of_nonneg_right this hD0.le
      have hdq2 : ((dv ds : ℚ) + 1) * D ≤ 10 ^ n * D := by
        have : (dv ds : ℚ) + 1 ≤ 10 ^ n := by exact_mod_cast hdv2
        exact mul_le_mul_of_nonneg_right this hD0.le
      rw [h6] at hx
      have hlo : (10 : ℚ) ^ (n - 1) - 1 / 100 ≤ X * m / D := by rw [le_div_iff₀ hD0]; linarith
      have hhi : X * m / D ≤ 10 ^ n + 1 / 100 := by rw [div_le_iff₀ hD0]; linarith
      have hMr : 10 ^ (n - 1) ≤ M ∧ M ≤ 10 ^ n := by
        rw [abs_lt] at hxd
        constructor
        · have : (10 : ℚ) ^ (n - 1) < M + 1 := by linarith
          have : 10 ^ (n - 1) < M + 1 := by exact_mod_cast this
          omega
        · have : (M : ℚ) < 10 ^ n + 1 := by linarith
          have : M < 10 ^ n + 1 := by exact_mod_cast this
          omega
      have hdvn : dv ds' ≠ 0 := by
        have := dv_ge g3 g4
        have : 0 < 10 ^ (ds'.length - 1) := by positivity
        omega
      obtain ⟨j, j1, j2⟩ := dtz_spec ds'
      have hne' : dropTrailingZeros ds' ≠ [] := fun hc => hdvn (dtz_zero_iff hc)
      refine ⟨dropTrailingZeros ds', dp', ?_, ⟨fun c hc => g2 c (dtz_mem hc), dtz_head g3, j2, fun hc => absurd hc hne'⟩, hne', ?_, ?_⟩
      · rw [g1, ok_bind]
        dsimp only
        rw [trimFixed_ok hdvn]
        rfl
      · have : ds'.length = (dropTrailingZeros ds').length + j := by
          conv_lhs => rw [j1]
          rw [List.length_append, List.length_replicate]
        omega
      · refine ⟨?_, M, _, by rw [hu]; exact hlo, by rw [hu]; exact hhi, by rw [hu]; exact hxd⟩
        rw [dtz_value, g6]
        refine roundedDigits_of hn1 hMr.1 hMr.2 ?_ ?_ ?_
        · rw [hu]; exact hxd
        · rw [hu]; exact hlo
        · rw [hu]; exact hhi
  by_cases hc : n < nd
  · -- the integer has more digits than needed
    obtain ⟨pw, hp1, hp2⟩ := pow10_row (show nd - n < 20 by omega)
    rw [Nat.cast_sub hc.le] at hp1
    have hk10 : 10 ^ (nd - n) ≤ 10 ^ 9 := Nat.pow_le_pow_right (by norm_num) (by omega)
    norm_num at hk10
    obtain ⟨Q, hQ⟩ : ∃ Q, Q = 10 ^ (nd - n) := ⟨_, rfl⟩
    have hQ10 : 10 ≤ Q := by
      rw [hQ]
      calc 10 = 10 ^ 1 := rfl
        _ ≤ 10 ^ (nd - n) := Nat.pow_le_pow_right (by norm_num) (by omega)
    rw [← hQ] at hp2 hk10
    have p32 : (pw.setWidth 32).toNat = Q := by rw [BitVec.toNat_setWidth, hp2, Nat.mod_eq_of_lt (by omega)]
    have p32ne : ¬ ((pw.setWidth 32 : BitVec 32) = 0) := by
      intro hcc
      have := congrArg BitVec.toNat hcc
      rw [p32] at this
      change Q = 0 at this
      omega
    have hqI : I / Q * Q ≤ I := Nat.div_mul_le_self _ _
    have hqI' : I < I / Q * Q + Q := Nat.lt_div_mul_add (by omega)
    obtain ⟨q, hq⟩ : ∃ q, q = I / Q := ⟨_, rfl⟩
    rw [← hq] at hqI hqI'
    have d1 : (integer / pw.setWidth 32).toNat = q := by rw [BitVec.toNat_udiv, p32, hq]
    have d2 : (integer / pw.setWidth 32 * pw.setWidth 32).toNat = q * Q := by
      rw [BitVec.toNat_mul, d1, p32, Nat.mod_eq_of_lt]
      omega
    have d3 : (integer - integer / pw.setWidth 32 * pw.setWidth 32).toNat = I - q * Q := by
      rw [BitVec.toNat_sub_of_le (by rw [BitVec.le_def, d2]; exact hqI), d2]
    have hq1 : 10 ^ (n - 1) ≤ q := by
      rw [hq, Nat.le_div_iff_mul_le (by omega), hQ, ← pow_add, show n - 1 + (nd - n) = nd - 1 by omega]
      exact n5
    have hq2 : q < 10 ^ n := by
      rw [hq, Nat.div_lt_iff_lt_mul (by omega), hQ, ← pow_add, show n + (nd - n) = nd by omega]
      exact n4
    have hq0 : q ≠ 0 := by
      have : 0 < 10 ^ (n - 1) := by positivity
      omega
    have hds := digitsOf_spec (b := 10) (by norm_num) q
    have hdslen : (digitsOf 10 q).length = n := by
      have hdv : dv (digitsOf 10 q) = q := hds.1
      have h2 := hds.2.2.1 n hq2
      have h3 := dv_lt hds.2.1
      rw [hdv] at h3
      have h4 : 10 ^ (n - 1) < 10 ^ (digitsOf 10 q).length := by omega
      rw [Nat.pow_lt_pow_iff_right (by norm_num)] at h4
      omega
    have hhead : (digitsOf 10 q).head? ≠ some 0 := by rw [digitsOf_eq (by norm_num) _ hq0]; exact dg_head_ne hq0
    rw [if_pos (by exact_mod_cast hc), hp1, ok_bind]
    rw [if_neg p32ne]
    simp only [pure_bind]
    rw [d1, if_neg (by rw [List.length_map, hdslen]; omega), List.length_map, hdslen, if_neg (by omega)]
    have hQP : (pw <<< s).toNat = Q * P := by
      have : Q * P ≤ I * P := Nat.mul_le_mul_right _ ((Nat.le_mul_of_pos_left Q (by omega)).trans hqI)
      rw [shl_toNat, hp2, hP]
      rw [hp2, ← hP]; omega
    have hrest : ((integer - integer / pw.setWidth 32 * pw.setWidth 32).setWidth 64).toNat = I - q * Q := by
      rw [BitVec.toNat_setWidth, d3, Nat.mod_eq_of_lt (by omega)]
    have hrP : (I - q * Q) * P ≤ I * P := Nat.mul_le_mul_right _ (by omega)
    have hrs : ((integer - integer / pw.setWidth 32 * pw.setWidth 32).setWidth 64 <<< s).toNat = (I - q * Q) * P := by
      rw [shl_toNat, hrest, hP]
      rw [hrest, ← hP]; omega
    have hnum : ((integer - integer / pw.setWidth 32 * pw.setWidth 32).setWidth 64 <<< s ||| fraction).toNat = (I - q * Q) * P + fraction.toNat := by
      rw [BitVec.toNat_or, hrs, hP, mul_comm, ← Nat.two_pow_add_eq_or_of_lt (by rw [← hP]; exact hfr2)]
    have hQPu : q * (Q * P) + ((I - q * Q) * P + fraction.toNat) = u := by
      have : q * (Q * P) + (I - q * Q) * P = I * P := by
        rw [← mul_assoc, ← Nat.add_mul]; congr 1; omega
      omega
    have hlt : (I - q * Q) * P + fraction.toNat < Q * P := by
      have h1 : (I - q * Q) * P + P ≤ Q * P := by
        have : (I - q * Q + 1) * P ≤ Q * P := Nat.mul_le_mul_right _ (by omega)
        rw [Nat.add_mul, one_mul] at this
        exact this
      omega
    have hqQP : Q * P ≤ q * (Q * P) := Nat.le_mul_of_pos_left _ (by omega)
    have hbig : 10 * P ≤ Q * P := Nat.mul_le_mul_right _ hQ10
    refine finish (digitsOf 10 q) 1 (Q * P) _ pw 1 hds.2.1 hhead (hds.2.2.2 hq0) hdslen hQP rfl (by rw [hnum]; exact hlt) (by omega)
      (by rw [hnum, show (1 : BitVec 64).toNat = 1 from rfl]; omega)
      (by
        have : dv (digitsOf 10 q) = q := hds.1
        rw [this, hnum, mul_one]; exact hQPu)
      (by
        rw [hQ, Nat.cast_one, div_one, Nat.cast_mul, Nat.cast_pow, show (nd : ℤ) - n = ((nd - n : ℕ) : ℤ) by omega, zpow_natCast]
        push_cast; rfl) one_pos
  · -- all digits of the integer, and some of the fraction
    have hnn : nd ≤ n := by omega
    have hds := digitsOf_spec (b := 10) (by norm_num) I
    have hdvI : dv (digitsOf 10 I) = I := hds.1
    have hdslen : (digitsOf 10 I).length = nd := by
      have h2 := hds.2.2.1 nd n4
      have h3 := dv_lt hds.2.1
      rw [hdvI] at h3
      have h4 : 10 ^ (nd - 1) < 10 ^ (digitsOf 10 I).length := by omega
      rw [Nat.pow_lt_pow_iff_right (by norm_num)] at h4
      omega
    have hhead : (digitsOf 10 I).head? ≠ some 0 := by rw [digitsOf_eq (by norm_num) _ (by omega)]; exact dg_head_ne (by omega)
    -- the error is far below the last digit
    have hsmall : 10 ^ (n - nd) * 2 ^ 11 < P := by
      have h1 : 10 ^ (n - nd) * 10 ^ nd ≤ 10 ^ 15 := by
        rw [← pow_add, show n - nd + nd = n by omega]; exact Nat.pow_le_pow_right (by norm_num) hn2
      have h2 : 2 ^ 61 < (I + 1) * P := by
        rw [Nat.add_mul, one_mul]; omega
      have h3 : (I + 1) * P ≤ 10 ^ nd * P := Nat.mul_le_mul_right _ n4
      by_contra hcc
      have h4 : 10 ^ nd * P ≤ 10 ^ nd * (10 ^ (n - nd) * 2 ^ 11) := Nat.mul_le_mul_left _ (by omega)
      have h5 : 10 ^ nd * (10 ^ (n - nd) * 2 ^ 11) = 10 ^ (n - nd) * 10 ^ nd * 2 ^ 11 := by ring
      norm_num at h1 h2
      omega
    have hm0 : 0 < 10 ^ (n - nd) := by positivity
    have hden : ((1 : BitVec 64) <<< s).toNat = P := by
      rw [shl_toNat, hP, show (1 : BitVec 64).toNat = 1 from rfl, one_mul]
      rw [← hP, show (1 : BitVec 64).toNat = 1 from rfl]; omega
    have hnum : ∀ x : BitVec 64, ((0 : BitVec 32).setWidth 64) <<< s ||| x = x := by
      intro x
      have : (0 : BitVec 32).setWidth 64 = (0 : BitVec 64) := rfl
      rw [this]
      simp
    rw [if_neg (by exact_mod_cast hc)]
    simp only [pure_bind]
    rw [← hIdef, if_neg (by rw [List.length_map, hdslen]; omega), List.length_map, hdslen]
    by_cases hz : n = nd
    · rw [if_neg (by omega)]
      rw [hnum]
      refine finish (digitsOf 10 I) 1 P _ 1 1 hds.2.1 hhead (hds.2.2.2 (by omega)) (by rw [hdslen, hz]) hden rfl hfr2 (by omega)
        (by rw [show (1 : BitVec 64).toNat = 1 from rfl]; omega) (by rw [hdvI, mul_one]; omega)
        (by rw [hz, sub_self, zpow_zero, Nat.cast_one, div_one, one_mul]) one_pos
    · rw [if_pos (by omega), if_neg (by simp)]
      obtain ⟨ds', fr, ε', g1, g2, g3, g4, g5, g6, g7, g8⟩ := fixedLoop_ok s hs1 hs2 (n - nd) 0 (digitsOf 10 I) fraction 1 (by rw [← hP]; exact hfr2) rfl
        (by rw [hdslen]; omega) (by rw [Nat.zero_add, ← hP]; omega) hds.2.1 hhead (hds.2.2.2 (by omega))
      rw [show ((n : ℤ) - nd).toNat = n - nd by omega, g1, ok_bind]
      dsimp only
      rw [hnum]
      rw [← hP, hdvI] at g5
      rw [← hP] at g2
      rw [Nat.zero_add] at g3
      refine finish ds' (10 ^ (n - nd)) P fr 1 ε' g6 g7 g8 (by rw [g4, hdslen]; omega) hden g3 g2 (by omega) (by rw [g3]; omega)
        (by rw [g5]; congr 1; omega)
        (by
          rw [show (nd : ℤ) - n = -((n - nd : ℕ) : ℤ) by omega, zpow_neg, zpow_natCast]
          push_cast
          field_simp) hm0

/-- `FixedDecimal` on a float: it gives up, or its digits are the float rounded to `n` digits. -/
theorem fixedDecimal_float {F : Format} {k N c : ℕ} (hF : GoFormat F) (h : Split F c k N) (hN0 : N ≠ 0) (neg : Bool) {n : ℕ} (hn1 : 1 ≤ n) (hn2 : n ≤ 15) :
    (ExtFloat.fixedDecimal ⟨BitVec.ofNat 64 N, F.qmin + k, neg⟩ n = .ok none ∧
      ∃ (M : ℕ) (x : ℤ), 10 ^ (n - 1) ≤ M ∧ M < 10 ^ n ∧ |F.magc c - (M + 1 / 2) * (10 : ℚ) ^ x| < F.magc c / 2 ^ 60) ∨
      ∃ ds dp, ExtFloat.fixedDecimal ⟨BitVec.ofNat 64 N, F.qmin + k, neg⟩ n = .ok (some ⟨ds.map (· + 48), dp, false⟩) ∧ NormalDec ds dp ∧ ds ≠ [] ∧
        ds.length ≤ n ∧ RoundedDigits n (F.magc c) (decValue ds dp) ∧ ∃ (M : ℕ) (x : ℤ), (10 : ℚ) ^ (n - 1) - 1 / 100 ≤ F.magc c / (10 : ℚ) ^ x ∧ F.magc c / (10 : ℚ) ^ x ≤ 10 ^ n + 1 / 100 ∧
          |F.magc c / (10 : ℚ) ^ x - M| < 1 / 2 := by
  obtain ⟨q1, q2⟩ := h.exp_range hF
  have hN53 := h.N_lt hF
  have hN : N < 2 ^ 64 := lt_trans hN53 (by norm_num)
  have hU0 : BitVec.ofNat 64 N ≠ 0 := by
    rw [BitVec.toNat_ne, ofNat_toNat hN]; exact hN0
  obtain ⟨s1, s2, s3, s4, s5, s6, s7⟩ := normalize_spec ⟨BitVec.ofNat 64 N, F.qmin + k, neg⟩ hU0
  have hmain := fixedDecimal_norm (f := ⟨BitVec.ofNat 64 N, F.qmin + k, neg⟩) hU0 rfl (by rw [s4]; dsimp only; omega) (by rw [s4]; dsimp only; omega) s2 hn1 hn2
  rw [s1] at hmain
  have hv : ExtFloat.val ⟨BitVec.ofNat 64 N, F.qmin + k, neg⟩ = F.magc c := by
    rw [h.value]; unfold ExtFloat.val; rw [ofNat_toNat hN]
  rw [hv] at hmain
  exact hmain

end GoFloat.Strconv
