import Verif.Proofs.PowersOfTen
import Verif.Proofs.Layout
/-
The digit generation of `ShortestDecimal` (internal/strconv/extfloat.go).
-/
namespace GoFloat.Strconv
open Spec

theorem bv_lt (a b : BitVec 64) : (a < b) ↔ a.toNat < b.toNat := BitVec.lt_def

theorem add_toNat {a b : BitVec 64} (h : a.toNat + b.toNat < 2 ^ 64) : (a + b).toNat = a.toNat + b.toNat := by
  rw [BitVec.toNat_add, Nat.mod_eq_of_lt h]

theorem sub_toNat {a b : BitVec 64} (h : b.toNat ≤ a.toNat) : (a - b).toNat = a.toNat - b.toNat :=
  BitVec.toNat_sub_of_le (by rw [BitVec.le_def]; exact h)

theorem mul_toNat {a b : BitVec 64} (h : a.toNat * b.toNat < 2 ^ 64) : (a * b).toNat = a.toNat * b.toNat := by
  rw [BitVec.toNat_mul, Nat.mod_eq_of_lt h]

/-- The loop that decrements the last digit: `R` is the remainder before that digit, `b` the smallest digit reached. -/
theorem adjustLoop_ok (target ulp ub : BitVec 64) (R b : ℕ) (hu : 0 < ulp.toNat)
    (hov : R - b * ulp.toNat + ulp.toNat / 2 + ub.toNat < 2 ^ 64) (hov2 : R - b * ulp.toNat < 2 ^ 64)
    (hstop : target.toNat ≤ R - b * ulp.toNat + ulp.toNat / 2 + ub.toNat) :
    ∀ (n dg : ℕ) (cur : BitVec 64), dg < n + b → b ≤ dg → dg < 100 → cur.toNat + dg * ulp.toNat = R →
      ∃ d' cur', b ≤ d' ∧ d' ≤ dg ∧ adjustLoop target ulp ub n (48 + dg) cur = .ok (48 + d', cur') ∧
        cur'.toNat + d' * ulp.toNat = R ∧ ¬ cur'.toNat + ulp.toNat / 2 + ub.toNat < target.toNat ∧
        (d' = dg ∨ cur'.toNat + ulp.toNat / 2 + ub.toNat < target.toNat + ulp.toNat)
  | 0, dg, cur, h1, h2, _, _ => by omega
  | n + 1, dg, cur, h1, h2, h3, h4 => by
    have hb : b * ulp.toNat ≤ dg * ulp.toNat := Nat.mul_le_mul_right _ h2
    have hhalf : (ulp / 2).toNat = ulp.toNat / 2 := by rw [BitVec.toNat_udiv]; rfl
    have e1 : (cur + ulp / 2).toNat = cur.toNat + ulp.toNat / 2 := by rw [add_toNat (by rw [hhalf]; omega), hhalf]
    have e2 : (cur + ulp / 2 + ub).toNat = cur.toNat + ulp.toNat / 2 + ub.toNat := by rw [add_toNat (by rw [e1]; omega), e1]
    unfold adjustLoop
    by_cases hc : cur.toNat + ulp.toNat / 2 + ub.toNat < target.toNat
    · rw [if_pos (by rw [bv_lt, e2]; exact hc)]
      have hlt : b < dg := by
        rcases Nat.lt_or_ge b dg with h | h
        · exact h
        · have : b = dg := by omega
          subst this
          omega
      obtain ⟨c, rfl⟩ : ∃ c, dg = c + 1 := ⟨dg - 1, by omega⟩
      have hcb : b * ulp.toNat ≤ c * ulp.toNat := Nat.mul_le_mul_right _ (by omega)
      rw [Nat.add_mul, one_mul] at h4
      have e3 : (cur + ulp).toNat = cur.toNat + ulp.toNat := add_toNat (by omega)
      rw [show (48 + (c + 1) + 255) % 256 = 48 + c by omega]
      obtain ⟨d', cur', g1, g2, g3, g4, g5, g6⟩ :=
        adjustLoop_ok target ulp ub R b hu hov hov2 hstop n c (cur + ulp) (by omega) (by omega) (by omega) (by rw [e3]; omega)
      refine ⟨d', cur', g1, by omega, g3, g4, g5, Or.inr ?_⟩
      rcases g6 with rfl | g6
      · have : cur'.toNat = cur.toNat + ulp.toNat := by omega
        omega
      · exact g6
    · rw [if_neg (by rw [bv_lt, e2]; exact hc)]
      exact ⟨dg, cur, h2, le_rfl, rfl, h4, hc, Or.inl rfl⟩

/-- What `adjustLastDigit` guarantees about the last digit `d'` and what is left, `c`. -/
structure Adjusted (R target max ulp ub dg d' c : ℕ) : Prop where
  pos : 1 ≤ d'
  le : d' ≤ dg
  rest : c + d' * ulp = R
  ge : ub ≤ c
  lt : c + ub ≤ max
  near : target + ulp / 2 + ub < c + ulp
  far : d' = dg ∨ c + ulp / 2 + ub < target + ulp
  ulp2 : 2 * ub ≤ ulp

theorem adjustLastDigit_ok (ds : List ℕ) (dg : ℕ) (dp : ℤ) (neg : Bool) (cur target max ulp ub : BitVec 64) (R b : ℕ)
    (hu : 2 ≤ ulp.toNat) (hub : 0 < ub.toNat) (hub2 : 2 * ub.toNat < 2 ^ 64)
    (hov : 2 * ub.toNat ≤ ulp.toNat → R - b * ulp.toNat + ulp.toNat < 2 ^ 64)
    (hstop : target.toNat ≤ R - b * ulp.toNat + ulp.toNat / 2)
    (hov3 : 2 * ub.toNat ≤ ulp.toNat → target.toNat + ulp.toNat / 2 + ub.toNat < 2 ^ 64)
    (hbd : b ≤ dg) (hdg : dg < 10) (hR : cur.toNat + dg * ulp.toNat = R)
    (hmax : max.toNat ≤ R) (hmax2 : ub.toNat ≤ max.toNat) :
    adjustLastDigit ⟨ds ++ [48 + dg], dp, neg⟩ cur target max ulp ub = .ok none ∨
    ∃ d' c, Adjusted R target.toNat max.toNat ulp.toNat ub.toNat dg d' c ∧
      adjustLastDigit ⟨ds ++ [48 + dg], dp, neg⟩ cur target max ulp ub = .ok (some ⟨ds ++ [48 + d'], dp, neg⟩) := by
  have hhalf : (ulp / 2).toNat = ulp.toNat / 2 := by rw [BitVec.toNat_udiv]; rfl
  have e0 : (2 * ub).toNat = 2 * ub.toNat := by
    rw [mul_toNat]
    · rfl
    · exact hub2
  unfold adjustLastDigit
  by_cases hg : ulp.toNat < 2 * ub.toNat
  · rw [if_pos (by rw [bv_lt, e0]; exact hg)]
    exact Or.inl rfl
  · rw [if_neg (by rw [bv_lt, e0]; exact hg)]
    have hg' : 2 * ub.toNat ≤ ulp.toNat := by omega
    have hov := hov hg'
    have hov3 := hov3 hg'
    have hb : b * ulp.toNat ≤ dg * ulp.toNat := Nat.mul_le_mul_right _ hbd
    obtain ⟨d', cur', g1, g2, g3, g4, g5, g6⟩ := adjustLoop_ok target ulp ub R b (by omega) (by omega) (by omega) (by omega) 256 dg cur
      (by omega) hbd (by omega) hR
    have hb' : b * ulp.toNat ≤ d' * ulp.toNat := Nat.mul_le_mul_right _ g1
    have e1 : (cur' + ulp).toNat = cur'.toNat + ulp.toNat := add_toNat (by omega)
    have e2 : (target + ulp / 2).toNat = target.toNat + ulp.toNat / 2 := by rw [add_toNat (by rw [hhalf]; omega), hhalf]
    have e3 : (target + ulp / 2 + ub).toNat = target.toNat + ulp.toNat / 2 + ub.toNat := by rw [add_toNat (by rw [e2]; omega), e2]
    have e4 : (max - ub).toNat = max.toNat - ub.toNat := sub_toNat hmax2
    simp only [List.getLast?_append, List.getLast?_singleton, Option.some_or, g3, bind, Except.bind, List.dropLast_concat, pure, Except.pure]
    by_cases h1 : cur' + ulp ≤ target + ulp / 2 + ub
    · rw [if_pos h1]; exact Or.inl rfl
    · rw [if_neg h1]
      rw [BitVec.le_def, e1, e3] at h1
      by_cases h2 : cur' < ub ∨ cur' > max - ub
      · rw [if_pos h2]; exact Or.inl rfl
      · rw [if_neg h2]
        rw [gt_iff_lt, bv_lt, bv_lt, e4] at h2
        have hd1 : 1 ≤ d' := by
          rcases Nat.eq_zero_or_pos d' with h | h
          · subst h; omega
          · exact h
        have hne : ¬ (ds ++ [48 + d'] = [48]) := by
          intro hc
          have := congrArg List.getLast? hc
          rw [List.getLast?_append, List.getLast?_singleton] at this
          simp at this
          omega
        rw [if_neg hne]
        right
        exact ⟨d', cur'.toNat, ⟨hd1, g2, g4, by omega, by omega, by omega, g6, hg'⟩, rfl⟩

/-- The digits `ds` come out of the loops: `u / 2^s` is the upper bound, `nd` the number of its integer digits, `ulp / m` the
unit of the last digit of `ds`. -/
structure Out (u target A s nd : ℕ) (ds : List ℕ) : Prop where
  digit : ∀ d ∈ ds, d < 10
  head : ds.head? ≠ some 0
  run : ∃ ulp m ps R dg d' c, 0 < m ∧ 0 < ulp ∧ ulp * 10 ^ ds.length = m * 2 ^ s * 10 ^ nd ∧ ds = ps ++ [d'] ∧
    dv ps * (10 * ulp) + R = u * m ∧ A * m ≤ R ∧ dg * ulp ≤ R ∧ R < (dg + 1) * ulp ∧ dg < 10 ∧
    Adjusted R (target * m) (A * m) ulp (2 * m) dg d' c ∧ ulp % 2 = 0

theorem head_append {ps : List ℕ} {d : ℕ} (h : ps.head? ≠ some 0) (hd : ps = [] → d ≠ 0) : (ps ++ [d]).head? ≠ some 0 := by
  cases ps with
  | nil => simpa using hd rfl
  | cons a t => simpa using h

/-- The digits of the fraction. -/
theorem shortestFrac_ok (neg : Bool) (dp : ℤ) (u s nd : ℕ) (allowance targetDiff : BitVec 64) (hs1 : 1 ≤ s) (hs : s ≤ 60)
    (hnd : nd ≤ 10) (hA : 2 ≤ allowance.toNat) (hT : targetDiff.toNat ≤ allowance.toNat) :
    ∀ (f j : ℕ) (ds : List ℕ) (fraction multiplier : BitVec 64), f + j = 33 → multiplier.toNat = 10 ^ j → ds.length = nd + j →
      (∀ d ∈ ds, d < 10) → ds.head? ≠ some 0 → ds ≠ [] → dv ds * 2 ^ s + fraction.toNat = u * 10 ^ j → fraction.toNat < 2 ^ s →
      allowance.toNat * 10 ^ j ≤ fraction.toNat →
      shortestFrac neg dp s allowance targetDiff f (ds.map (· + 48)) fraction multiplier = .ok none ∨
      ∃ ds', Out u targetDiff.toNat allowance.toNat s nd ds' ∧
        shortestFrac neg dp s allowance targetDiff f (ds.map (· + 48)) fraction multiplier = .ok (some ⟨ds'.map (· + 48), dp, neg⟩)
  | 0, j, ds, fraction, multiplier, h1, h2, h3, h4, h5, h6, h7, h8, h9 => by
    exfalso
    have hj : j = 33 := by omega
    have hp : 2 ^ s ≤ 2 ^ 60 := Nat.pow_le_pow_right (by norm_num) hs
    have : 2 * 10 ^ j ≤ allowance.toNat * 10 ^ j := Nat.mul_le_mul_right _ hA
    rw [hj] at this h9
    norm_num at this h9 hp
    omega
  | f + 1, j, ds, fraction, multiplier, h1, h2, h3, h4, h5, h6, h7, h8, h9 => by
    have hp : 2 ^ s ≤ 2 ^ 60 := Nat.pow_le_pow_right (by norm_num) hs
    have hA10 : 2 * 10 ^ j ≤ allowance.toNat * 10 ^ j := Nat.mul_le_mul_right _ hA
    have hj : j ≤ 17 := by
      by_contra hc
      have : 10 ^ 18 ≤ 10 ^ j := Nat.pow_le_pow_right (by norm_num) (by omega)
      norm_num at this hp
      omega
    have hten : 10 ^ (j + 1) = 10 * 10 ^ j := by rw [pow_succ]; ring
    have hj17 : 10 ^ j ≤ 10 ^ 17 := Nat.pow_le_pow_right (by norm_num) hj
    norm_num at hj17
    have hP2 : 2 ^ s = 2 * 2 ^ (s - 1) := by rw [← pow_succ']; congr 1; omega
    norm_num at hp
    have c10 : (10 : BitVec 64).toNat = 10 := rfl
    have m1 : (fraction * 10).toNat = fraction.toNat * 10 := by rw [mul_toNat] <;> rw [c10]; omega
    have m2 : (multiplier * 10).toNat = 10 ^ (j + 1) := by
      rw [mul_toNat] <;> rw [c10, h2]
      · rw [hten]; ring
      · omega
    set P := 2 ^ s with hP
    have hPpos : 0 < P := Nat.two_pow_pos s
    set FR := fraction.toNat with hFR
    set q := FR * 10 / P with hq
    have hq10 : q < 10 := by rw [hq, Nat.div_lt_iff_lt_mul hPpos]; omega
    have m3 : (((fraction * 10) >>> s)).toNat = q := by rw [BitVec.toNat_ushiftRight, Nat.shiftRight_eq_div_pow, m1]
    have hqP : q * P ≤ FR * 10 := Nat.div_mul_le_self _ _
    have hqP' : FR * 10 < q * P + P := by
      have := Nat.lt_div_mul_add hPpos (a := FR * 10)
      rw [← hq] at this; exact this
    have m4 : (((fraction * 10) >>> s) <<< s).toNat = q * P := by
      rw [BitVec.toNat_shiftLeft, m3, Nat.shiftLeft_eq, ← hP, Nat.mod_eq_of_lt (by omega)]
    have m5 : (fraction * 10 - ((fraction * 10) >>> s) <<< s).toNat = FR * 10 - q * P := by rw [sub_toNat (by rw [m4, m1]; exact hqP), m1, m4]
    have a1 : (allowance * (multiplier * 10)).toNat = allowance.toNat * 10 ^ (j + 1) := by
      rw [mul_toNat] <;> rw [m2]
      rw [hten, Nat.mul_left_comm]; omega
    have hTT : targetDiff.toNat * 10 ^ (j + 1) ≤ allowance.toNat * 10 ^ (j + 1) := Nat.mul_le_mul_right _ hT
    have hAeq : allowance.toNat * 10 ^ (j + 1) = 10 * (allowance.toNat * 10 ^ j) := by rw [hten]; ring
    have a2 : (targetDiff * (multiplier * 10)).toNat = targetDiff.toNat * 10 ^ (j + 1) := by
      rw [mul_toNat] <;> rw [m2]
      omega
    have a3 : (multiplier * 10 * 2).toNat = 2 * 10 ^ (j + 1) := by
      rw [mul_toNat] <;> rw [m2, show (2 : BitVec 64).toNat = 2 from rfl]
      · ring
      · omega
    have a4 : ((((1 <<< s : ℕ)) : BitVec 64)).toNat = P := by
      show (BitVec.ofNat 64 (1 <<< s)).toNat = _
      rw [BitVec.toNat_ofNat, Nat.one_shiftLeft, Nat.mod_eq_of_lt]
      omega
    unfold shortestFrac
    simp only [m3, bind, Except.bind]
    have hput : putByte 32 (ds.map (· + 48)) ((q + 48) % 256) = .ok (ds.map (· + 48) ++ [48 + q]) := by
      unfold putByte
      rw [if_pos (by rw [List.length_map]; omega), show (q + 48) % 256 = 48 + q by omega]
    simp only [hput]
    have hinv : dv (ds ++ [q]) * P + (FR * 10 - q * P) = u * 10 ^ (j + 1) := by
      have e : dv (ds ++ [q]) * P = (dv ds * P) * 10 + q * P := by rw [dv_snoc]; ring
      have e2 : u * 10 ^ (j + 1) = u * 10 ^ j * 10 := by rw [hten]; ring
      omega
    by_cases hc : FR * 10 - q * P < allowance.toNat * 10 ^ (j + 1)
    · rw [if_pos (by rw [bv_lt, m5, a1]; exact hc)]
      have hR : FR * 10 - q * P + q * P = FR * 10 := by omega
      rcases adjustLastDigit_ok (ds.map (· + 48)) q dp neg (fraction * 10 - ((fraction * 10) >>> s) <<< s) (targetDiff * (multiplier * 10))
          (allowance * (multiplier * 10)) (((1 <<< s : ℕ)) : BitVec 64) (multiplier * 10 * 2) (FR * 10) 0
          (by rw [a4]; omega) (by rw [a3]; positivity) (by rw [a3]; omega) (by rw [a3, a4]; omega) (by rw [a2, a4]; omega)
          (by rw [a2, a3, a4]; omega) (Nat.zero_le _) hq10 (by rw [m5, a4]; exact hR) (by rw [a1]; omega) (by rw [a3, a1]; omega)
        with hn | ⟨d', c, hadj, hres⟩
      · left; exact hn
      · right
        rw [a1, a2, a3, a4] at hadj
        refine ⟨ds ++ [d'], ⟨?_, head_append h5 (fun h => absurd h h6), ⟨P, 10 ^ (j + 1), ds, FR * 10, q, d', c, by positivity, hPpos, ?_, rfl, ?_,
          by omega, hqP, by rw [Nat.add_mul, one_mul]; exact hqP', hq10, hadj, by omega⟩⟩, ?_⟩
        · intro d hd
          rcases List.mem_append.1 hd with h | h
          · exact h4 d h
          · have hd' : d = d' := by simpa using h
            have := hadj.le
            omega
        · rw [List.length_append, List.length_singleton, h3, pow_add, pow_add, pow_succ]; ring
        · have e2 : u * 10 ^ (j + 1) = u * 10 ^ j * 10 := by rw [hten]; ring
          have e : dv ds * (10 * P) = (dv ds * P) * 10 := by ring
          omega
        · rw [hres, List.map_append, List.map_singleton, add_comm 48]
    · rw [if_neg (by rw [bv_lt, m5, a1]; exact hc)]
      have hbytes : ds.map (· + 48) ++ [48 + q] = (ds ++ [q]).map (· + 48) := by rw [List.map_append, List.map_singleton, add_comm 48]
      rw [hbytes]
      refine shortestFrac_ok neg dp u s nd allowance targetDiff hs1 hs hnd hA hT f (j + 1) (ds ++ [q]) _ _ (by omega) m2
        (by rw [List.length_append, List.length_singleton, h3]; omega) ?_ (head_append h5 (fun h => absurd h h6)) (by simp) ?_ ?_ ?_
      · intro d hd
        rcases List.mem_append.1 hd with h | h
        · exact h4 d h
        · have hd' : d = q := by simpa using h
          omega
      · rw [m5]; exact hinv
      · rw [m5]; omega
      · rw [m5]; omega

/-- The digits of the integer. -/
theorem shortestInt_ok (neg : Bool) (exp10 : ℤ) (u s nd fr I : ℕ) (fraction allowance targetDiff : BitVec 64) (hs1 : 2 ≤ s) (hs : s ≤ 60)
    (hnd : nd ≤ 10) (hA : 2 ≤ allowance.toNat) (hT : targetDiff.toNat ≤ allowance.toNat) (hfr : fraction.toNat = fr)
    (hfr2 : fr < 2 ^ s) (hu : I * 2 ^ s + fr = u) (hu64 : u < 2 ^ 64) (hI : I < 2 ^ 32) (hI1 : 10 ^ (nd - 1) ≤ I) (hI2 : I < 10 ^ nd)
    (hhalf : 2 * targetDiff.toNat + 4 ≤ u) :
    ∀ (k : ℕ) (ds : List ℕ) (integer : BitVec 32), k ≤ nd → ds.length + k = nd → (∀ d ∈ ds, d < 10) → ds.head? ≠ some 0 →
      dv ds * 10 ^ k + integer.toNat = I → integer.toNat < 10 ^ k → allowance.toNat ≤ integer.toNat * 2 ^ s + fr →
      shortestInt neg exp10 nd s fraction allowance targetDiff k (ds.map (· + 48)) integer = .ok (.inl none) ∨
      (∃ ds', Out u targetDiff.toNat allowance.toNat s nd ds' ∧
        shortestInt neg exp10 nd s fraction allowance targetDiff k (ds.map (· + 48)) integer =
          .ok (.inl (some ⟨ds'.map (· + 48), nd + exp10, neg⟩))) ∨
      (∃ ds', (∀ d ∈ ds', d < 10) ∧ ds'.head? ≠ some 0 ∧ ds'.length = nd ∧ dv ds' = I ∧ allowance.toNat ≤ fr ∧
        shortestInt neg exp10 nd s fraction allowance targetDiff k (ds.map (· + 48)) integer = .ok (.inr (ds'.map (· + 48))))
  | 0, ds, integer, h1, h2, h3, h4, h5, h6, h7 => by
    right; right
    rw [pow_zero] at h5 h6
    have h0 : integer.toNat = 0 := by omega
    rw [h0] at h5 h7
    refine ⟨ds, h3, h4, by omega, by omega, by omega, rfl⟩
  | k + 1, ds, integer, h1, h2, h3, h4, h5, h6, h7 => by
    obtain ⟨pw, hp1, hp2⟩ := pow10_row (show k < 20 by omega)
    have hk10 : 10 ^ k ≤ 10 ^ 9 := Nat.pow_le_pow_right (by norm_num) (by omega)
    have hten : 10 ^ (k + 1) = 10 * 10 ^ k := by rw [pow_succ]; ring
    have hkI : 10 ^ k ≤ I := le_trans (Nat.pow_le_pow_right (by norm_num) (by omega)) hI1
    have hkpos : 0 < 10 ^ k := by positivity
    norm_num at hk10
    have p32 : (pw.setWidth 32).toNat = 10 ^ k := by rw [BitVec.toNat_setWidth, hp2, Nat.mod_eq_of_lt (by omega)]
    have p32ne : ¬ ((pw.setWidth 32 : BitVec 32) = 0) := by
      intro hc
      have := congrArg BitVec.toNat hc
      rw [p32] at this
      change 10 ^ k = 0 at this
      omega
    set T := 10 ^ k with hTk
    set J := integer.toNat with hJ
    set P := 2 ^ s with hP
    have hPpos : 0 < P := Nat.two_pow_pos s
    set q := J / T with hq
    have hq10 : q < 10 := by rw [hq, Nat.div_lt_iff_lt_mul hkpos]; omega
    have hqJ : q * T ≤ J := Nat.div_mul_le_self _ _
    have hqJ' : J < q * T + T := Nat.lt_div_mul_add hkpos
    have d1 : (integer / pw.setWidth 32).toNat = q := by rw [BitVec.toNat_udiv, p32]
    have d2 : (integer / pw.setWidth 32 * pw.setWidth 32).toNat = q * T := by
      rw [BitVec.toNat_mul, d1, p32, Nat.mod_eq_of_lt]
      have := integer.isLt
      omega
    have d3 : (integer - integer / pw.setWidth 32 * pw.setWidth 32).toNat = J - q * T := by
      rw [BitVec.toNat_sub_of_le (by rw [BitVec.le_def, d2]; exact hqJ), d2]
    set J' := J - q * T with hJ'
    have hJI : J ≤ I := by omega
    have hJ'P : J' * P + fr ≤ J * P + fr := by
      have : J' * P ≤ J * P := Nat.mul_le_mul_right _ (by omega)
      omega
    have hJP : J * P ≤ I * P := Nat.mul_le_mul_right _ hJI
    have d4 : (((integer - integer / pw.setWidth 32 * pw.setWidth 32).setWidth 64) <<< s).toNat = J' * P := by
      rw [BitVec.toNat_shiftLeft, BitVec.toNat_setWidth, d3, Nat.shiftLeft_eq, ← hP, Nat.mod_eq_of_lt (a := J')]
      · rw [Nat.mod_eq_of_lt]; omega
      · have := integer.isLt; omega
    have d5 : (((integer - integer / pw.setWidth 32 * pw.setWidth 32).setWidth 64) <<< s + fraction).toNat = J' * P + fr := by
      rw [add_toNat (by rw [d4, hfr]; omega), d4, hfr]
    have hTP : T * P ≤ I * P := Nat.mul_le_mul_right _ hkI
    have d6 : (pw <<< s).toNat = T * P := by
      rw [BitVec.toNat_shiftLeft, hp2, Nat.shiftLeft_eq, ← hP, Nat.mod_eq_of_lt]
      omega
    have hP4 : 4 ≤ P := by
      have : 2 ^ 2 ≤ 2 ^ s := Nat.pow_le_pow_right (by norm_num) hs1
      norm_num at this
      exact this
    have hTP4 : 4 ≤ T * P := le_trans hP4 (Nat.le_mul_of_pos_left _ hkpos)
    have hput : putByte 32 (ds.map (· + 48)) ((q + 48) % 256) = .ok (ds.map (· + 48) ++ [48 + q]) := by
      unfold putByte
      rw [if_pos (by rw [List.length_map]; omega), show (q + 48) % 256 = 48 + q by omega]
    have hfirst : ds = [] → q ≠ 0 := by
      intro h0
      have hk : k + 1 = nd := by rw [h0] at h2; simpa using h2
      have hJe : J = I := by rw [h0] at h5; simpa [dv, digsVal] using h5
      rw [hq, hJe]
      have : T ≤ I := hkI
      exact (Nat.div_pos this hkpos).ne'
    unfold shortestInt
    simp only [hp1, bind, Except.bind, if_neg p32ne, d1, hput, pure, Except.pure]
    by_cases hc : J' * P + fr < allowance.toNat
    · rw [if_pos (by rw [bv_lt, d5]; exact hc)]
      have hRR : J' * P + fr + q * (T * P) = J * P + fr := by
        have : J * P = J' * P + q * T * P := by rw [← Nat.add_mul]; congr 1; omega
        rw [this]; ring
      have hub : (2 : BitVec 64).toNat = 2 := rfl
      have hbig : ds ≠ [] → J * P + fr + T * P ≤ u := by
        intro h0
        have hd1 : 1 ≤ dv ds := le_trans Nat.one_le_two_pow (le_trans (Nat.pow_le_pow_left (by norm_num) _) (dv_ge h4 h0))
        have : T * P ≤ dv ds * 10 ^ (k + 1) * P := by
          apply Nat.mul_le_mul_right
          rw [hten]
          calc T = 1 * T := (one_mul T).symm
            _ ≤ dv ds * (10 * T) := Nat.mul_le_mul hd1 (Nat.le_mul_of_pos_left _ (by norm_num))
        rw [← hu, ← h5, Nat.add_mul]
        omega
      have hone : ds = [] → J = I := by
        intro h0; rw [h0] at h5; simpa [dv, digsVal] using h5
      have hadjust : ∃ b, b ≤ q ∧ J * P + fr - b * (T * P) + T * P < 2 ^ 64 ∧ targetDiff.toNat ≤ J * P + fr - b * (T * P) + T * P / 2 ∧
          targetDiff.toNat + T * P / 2 + 2 < 2 ^ 64 := by
        by_cases h0 : ds = []
        · have := hone h0
          refine ⟨1, Nat.one_le_iff_ne_zero.2 (hfirst h0), ?_, ?_, ?_⟩
          · rw [one_mul, this]; omega
          · rw [one_mul, this]; omega
          · omega
        · have := hbig h0
          exact ⟨0, Nat.zero_le _, by omega, by omega, by omega⟩
      obtain ⟨b, b1, b2, b3, b4⟩ := hadjust
      rcases adjustLastDigit_ok (ds.map (· + 48)) q (nd + exp10) neg
          (((integer - integer / pw.setWidth 32 * pw.setWidth 32).setWidth 64) <<< s + fraction) targetDiff allowance (pw <<< s) 2
          (J * P + fr) b (by rw [d6]; omega) (by decide) (by decide) (by rw [d6]; exact fun _ => b2) (by rw [d6]; exact b3)
          (by rw [d6]; exact fun _ => b4) b1 hq10 (by rw [d5, d6]; exact hRR) h7 (by rw [hub]; exact hA) with hn | ⟨d', c, hadj, hres⟩
      · left; rw [hn]
      · right; left
        rw [d6, hub] at hadj
        refine ⟨ds ++ [d'], ⟨?_, head_append h4 (fun _ => by have := hadj.pos; omega), ⟨T * P, 1, ds, J * P + fr, q, d', c, one_pos, by omega, ?_, rfl, ?_,
          by omega, by omega, ?_, hq10, by simpa using hadj, ?_⟩⟩, ?_⟩
        · intro d hd
          rcases List.mem_append.1 hd with h | h
          · exact h3 d h
          · have hd' : d = d' := by simpa using h
            have := hadj.le
            omega
        · rw [List.length_append, List.length_singleton, one_mul, ← h2, hTk, pow_add, pow_add, pow_add]
          ring
        · rw [mul_one, ← hu, ← h5, hten]; ring
        · have : (q + 1) * (T * P) = (q * T + T) * P := by ring
          rw [this]
          calc J * P + fr < J * P + P := by omega
            _ = (J + 1) * P := by ring
            _ ≤ (q * T + T) * P := Nat.mul_le_mul_right _ (by omega)
        · have : P = 2 * 2 ^ (s - 1) := by rw [hP, ← pow_succ']; congr 1; omega
          rw [this, Nat.mul_left_comm]; exact Nat.mul_mod_right _ _
        · rw [hres, List.map_append, List.map_singleton, add_comm 48]
    · rw [if_neg (by rw [bv_lt, d5]; exact hc)]
      have hbytes : ds.map (· + 48) ++ [48 + q] = (ds ++ [q]).map (· + 48) := by rw [List.map_append, List.map_singleton, add_comm 48]
      rw [hbytes]
      refine shortestInt_ok neg exp10 u s nd fr I fraction allowance targetDiff hs1 hs hnd hA hT hfr hfr2 hu hu64 hI hI1 hI2 hhalf k (ds ++ [q]) _
        (by omega) (by rw [List.length_append, List.length_singleton]; omega) ?_ (head_append h4 hfirst) ?_ ?_ ?_
      · intro d hd
        rcases List.mem_append.1 hd with h | h
        · exact h3 d h
        · have hd' : d = q := by simpa using h
          omega
      · rw [d3, dv_snoc, ← h5, hten, ← hTk, Nat.add_mul]
        have : dv ds * 10 * T = dv ds * (10 * T) := by ring
        omega
      · rw [d3, ← hTk]; omega
      · rw [d3, ← hP]; omega

/-- What the digits mean, in units of `2^-s`. -/
structure Meaning (u target A s nd : ℕ) (ds : List ℕ) (unit X : ℚ) : Prop where
  unit_eq : unit = (10 : ℚ) ^ ((nd : ℤ) - ds.length) * 2 ^ s
  X_eq : X = dv ds * unit
  upper : X + 2 ≤ u
  lower : (u : ℚ) - A + 2 ≤ X
  near : X - ((u : ℚ) - target) < unit / 2 - 2
  far : (u : ℚ) < X + unit ∨ ((u : ℚ) - target) - X < unit / 2 - 2
  shortest : ∀ z : ℤ, ¬ ((u : ℚ) - A < z * (10 * unit) ∧ z * (10 * unit) ≤ u)
  unit_big : 4 ≤ unit

theorem Out.last {u target A s nd : ℕ} {ds : List ℕ} (h : Out u target A s nd ds) : ds.getLast? ≠ some 0 := by
  obtain ⟨ulp, m, ps, R, dg, d', c, h1, h2, h3, rfl, h5, h6, h7, h8, h9, ha, h10⟩ := h.run
  have := ha.pos
  simp; omega

theorem Out.ne_nil {u target A s nd : ℕ} {ds : List ℕ} (h : Out u target A s nd ds) : ds ≠ [] := by
  obtain ⟨ulp, m, ps, R, dg, d', c, h1, h2, h3, rfl, h5⟩ := h.run
  simp

theorem Out.meaning {u target A s nd : ℕ} {ds : List ℕ} (h : Out u target A s nd ds) :
    ∃ unit X, Meaning u target A s nd ds unit X := by
  obtain ⟨ulp, m, ps, R, dg, d', c, h1, h2, h3, h4, h5, h6, h7, h8, h9, ha, h10⟩ := h.run
  have hm : (0 : ℚ) < m := by exact_mod_cast h1
  have hulp : (0 : ℚ) < ulp := by exact_mod_cast h2
  have hdv : dv ds = dv ps * 10 + d' := by rw [h4, dv_snoc]
  have hunit : (ulp : ℚ) / m = (10 : ℚ) ^ ((nd : ℤ) - ds.length) * 2 ^ s := by
    have h3' : (ulp : ℚ) * 10 ^ ds.length = m * 2 ^ s * 10 ^ nd := by exact_mod_cast h3
    rw [zpow_sub₀ (by norm_num), zpow_natCast, zpow_natCast, div_eq_iff hm.ne']
    have : (10 : ℚ) ^ ds.length ≠ 0 := by positivity
    field_simp
    linarith
  have hc : (c : ℚ) = u * m - dv ds * ulp := by
    have e1 : (dv ps : ℚ) * (10 * ulp) + R = u * m := by exact_mod_cast h5
    have e2 : (c : ℚ) + d' * ulp = R := by exact_mod_cast ha.rest
    rw [hdv]; push_cast; linarith
  set w : ℚ := (ulp : ℚ) / m with hw
  have hwm : (ulp : ℚ) = w * m := by rw [hw]; field_simp
  have hhalf : ((ulp / 2 : ℕ) : ℚ) = w * m / 2 := by
    have : (ulp : ℚ) = 2 * (ulp / 2 : ℕ) := by exact_mod_cast (by omega : ulp = 2 * (ulp / 2))
    rw [← hwm, this]; ring
  have hcm : (c : ℚ) = (u - dv ds * w) * m := by rw [hc, hwm]; ring
  refine ⟨w, dv ds * w, hunit, rfl, ?_, ?_, ?_, ?_, ?_, ?_⟩
  · have : (2 : ℚ) * m ≤ c := by exact_mod_cast ha.ge
    rw [hcm] at this
    have := le_of_mul_le_mul_right this hm
    linarith
  · have : (c : ℚ) + 2 * m ≤ A * m := by exact_mod_cast ha.lt
    rw [hcm, ← add_mul] at this
    have := le_of_mul_le_mul_right this hm
    linarith
  · have : (target : ℚ) * m + (ulp / 2 : ℕ) + 2 * m < c + ulp := by exact_mod_cast ha.near
    rw [hcm, hhalf, hwm] at this
    have h' : (target + w / 2 + 2 : ℚ) * m < (u - dv ds * w + w) * m := by linarith
    have := lt_of_mul_lt_mul_right h' hm.le
    linarith
  · rcases ha.far with hd | hf
    · left
      have : R < (d' + 1) * ulp := by rw [hd]; exact h8
      have hlt : c < ulp := by
        have := ha.rest
        rw [Nat.add_mul, one_mul] at *
        omega
      have hlt' : (c : ℚ) < ulp := by exact_mod_cast hlt
      rw [hcm, hwm] at hlt'
      have := lt_of_mul_lt_mul_right hlt' hm.le
      linarith
    · right
      have : (c : ℚ) + (ulp / 2 : ℕ) + 2 * m < target * m + ulp := by exact_mod_cast hf
      rw [hcm, hhalf, hwm] at this
      have h' : (u - dv ds * w + w / 2 + 2 : ℚ) * m < (target + w) * m := by linarith
      have := lt_of_mul_lt_mul_right h' hm.le
      linarith
  · rintro z ⟨hz1, hz2⟩
    -- z is the truncated prefix
    have e1 : (dv ps : ℚ) * (10 * ulp) + R = u * m := by exact_mod_cast h5
    have hR0 : (0 : ℚ) ≤ R := by positivity
    have hR10 : (R : ℚ) < 10 * ulp := by
      have : R < 10 * ulp := lt_of_lt_of_le h8 (Nat.mul_le_mul_right _ (by omega))
      exact_mod_cast this
    have hRA : (A : ℚ) * m ≤ R := by exact_mod_cast h6
    have hz2' : (z : ℚ) * (10 * ulp) ≤ dv ps * (10 * ulp) + R := by
      rw [e1, hwm]
      have := mul_le_mul_of_nonneg_right hz2 hm.le
      linarith
    have hzlt : (z : ℚ) < dv ps + 1 := by
      have : (z : ℚ) * (10 * ulp) < (dv ps + 1) * (10 * ulp) := by linarith
      exact lt_of_mul_lt_mul_right this (by positivity)
    have hzle : z ≤ (dv ps : ℤ) := by
      have : z < (dv ps : ℤ) + 1 := by exact_mod_cast hzlt
      omega
    have hzle' : (z : ℚ) ≤ dv ps := by exact_mod_cast hzle
    have h3' : (z : ℚ) * (10 * w) * m ≤ dv ps * (10 * ulp) := by
      rw [hwm]
      have := mul_le_mul_of_nonneg_right hzle' (show (0 : ℚ) ≤ 10 * ulp by positivity)
      rw [hwm] at this
      linarith
    have h4' : ((u : ℚ) - A) * m < z * (10 * w) * m := mul_lt_mul_of_pos_right hz1 hm
    linarith
  · have : (2 : ℚ) * (2 * m) ≤ ulp := by exact_mod_cast ha.ulp2
    rw [hwm] at this
    have h' : (4 : ℚ) * m ≤ w * m := by linarith
    exact le_of_mul_le_mul_right h' hm

end GoFloat.Strconv
