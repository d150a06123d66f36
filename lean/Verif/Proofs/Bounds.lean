import Verif.Proofs.GrisuFloat
/-
`AssignComputeBounds` and `ShortestDecimal` on a float.
-/
namespace GoFloat.Strconv
open Spec

variable {F : Format} {n k N : ℕ}

theorem fexp_eq (F : Format) (k : ℕ) : (k : ℤ) + 1 - F.bias - (infoOf F).mantbits = F.qmin + k := by
  show (k : ℤ) + 1 - F.bias - (F.t : ℤ) = F.qmin + k
  unfold Format.qmin
  ring

theorem shift_back {N j : ℕ} (hN : N < 2 ^ 64) :
    BitVec.ofNat 64 N = (BitVec.ofNat 64 N >>> j) <<< j ↔ 2 ^ j ∣ N := by
  have hd : N / 2 ^ j * 2 ^ j ≤ N := Nat.div_mul_le_self _ _
  rw [← BitVec.toNat_inj, BitVec.toNat_shiftLeft, BitVec.toNat_ushiftRight, ofNat_toNat hN, Nat.shiftRight_eq_div_pow, Nat.shiftLeft_eq,
    Nat.mod_eq_of_lt (by omega)]
  constructor
  · intro h; exact ⟨N / 2 ^ j, by rw [mul_comm]; exact h⟩
  · intro h; exact (Nat.div_mul_cancel h).symm

/-- The float is an integer that `AssignComputeBounds` keeps as it is. -/
def IsSmallInt (q : ℤ) (N : ℕ) : Prop := q ≤ 0 ∧ 2 ^ (-q).toNat ∣ N

theorem bounds_int (hF : GoFormat F) (h : Split F n k N) (neg : Bool) (hi : IsSmallInt (F.qmin + k) N) :
    ∃ m : BitVec 64, m.toNat = N / 2 ^ (-(F.qmin + k)).toNat ∧ (m.toNat : ℚ) = F.magc n ∧
      assignComputeBounds (BitVec.ofNat 64 N) ((k : ℤ) + 1 - F.bias) neg (infoOf F) = (⟨m, 0, neg⟩, ⟨m, 0, neg⟩, ⟨m, 0, neg⟩) := by
  obtain ⟨q1, q2⟩ := h.exp_range hF
  obtain ⟨i1, i2⟩ := hi
  have hN : N < 2 ^ 64 := lt_trans (h.N_lt hF) (by norm_num)
  have hu : uintOf (-(F.qmin + (k : ℤ))) = (-(F.qmin + (k : ℤ))).toNat := uintOf_nonneg (by omega) (by omega)
  have hm : (BitVec.ofNat 64 N >>> (-(F.qmin + (k : ℤ))).toNat).toNat = N / 2 ^ (-(F.qmin + (k : ℤ))).toNat := by
    rw [BitVec.toNat_ushiftRight, ofNat_toNat hN, Nat.shiftRight_eq_div_pow]
  refine ⟨BitVec.ofNat 64 N >>> (-(F.qmin + (k : ℤ))).toNat, hm, ?_, ?_⟩
  · rw [hm, h.value]
    obtain ⟨j, hj⟩ : ∃ j : ℕ, F.qmin + (k : ℤ) = -(j : ℤ) := ⟨(-(F.qmin + (k : ℤ))).toNat, by omega⟩
    obtain ⟨c, hc⟩ := i2
    rw [hj, neg_neg, Int.toNat_natCast] at hc ⊢
    rw [hc, Nat.mul_div_cancel_left _ (by positivity), zpow_neg, zpow_natCast]
    push_cast
    field_simp
  · unfold assignComputeBounds
    simp only [fexp_eq, hu]
    rw [if_pos ⟨i1, (shift_back hN).2 i2⟩]

/-- The bounds of a float that is not a small integer are the exact midpoints to its neighbours. -/
theorem bounds_mid (hF : GoFormat F) (h : Split F n k N) (hN0 : N ≠ 0) (neg : Bool) (hi : ¬ IsSmallInt (F.qmin + k) N) :
    ∃ (Lm : BitVec 64) (Le : ℤ), 
      assignComputeBounds (BitVec.ofNat 64 N) ((k : ℤ) + 1 - F.bias) neg (infoOf F) =
        (⟨BitVec.ofNat 64 N, F.qmin + k, neg⟩, ⟨Lm, Le, neg⟩, ⟨BitVec.ofNat 64 (2 * N + 1), F.qmin + k - 1, neg⟩) ∧
      (Lm.toNat = 2 * N - 1 ∧ Le = F.qmin + k - 1 ∨ Lm.toNat = 4 * N - 1 ∧ Le = F.qmin + k - 2) ∧
      F.magc (n - 1) + F.magc n = 2 * ExtFloat.val ⟨Lm, Le, neg⟩ ∧
      F.magc n = ExtFloat.val ⟨BitVec.ofNat 64 N, F.qmin + k, neg⟩ ∧
      F.magc n + F.magc (n + 1) = 2 * ExtFloat.val ⟨BitVec.ofNat 64 (2 * N + 1), F.qmin + k - 1, neg⟩ := by
  obtain ⟨q1, q2⟩ := h.exp_range hF
  have hN53 := h.N_lt hF
  have hN : N < 2 ^ 64 := lt_trans hN53 (by norm_num)
  have h2 : 2 * BitVec.ofNat 64 N + 1 = BitVec.ofNat 64 (2 * N + 1) := by
    rw [← BitVec.toNat_inj, BitVec.toNat_add, BitVec.toNat_mul, ofNat_toNat hN, ofNat_toNat (by omega)]
    show (2 * N % 2 ^ 64 + 1) % 2 ^ 64 = _
    omega
  have h3 : (2 * BitVec.ofNat 64 N - 1).toNat = 2 * N - 1 := by
    have : (2 * BitVec.ofNat 64 N).toNat = 2 * N := by
      rw [mul_toNat, ofNat_toNat hN] <;> rw [show (2 : BitVec 64).toNat = 2 from rfl]
      rw [ofNat_toNat hN]; omega
    rw [sub_toNat, this] <;> rw [show (1 : BitVec 64).toNat = 1 from rfl]
    rw [this]; omega
  have h4 : (4 * BitVec.ofNat 64 N - 1).toNat = 4 * N - 1 := by
    have : (4 * BitVec.ofNat 64 N).toNat = 4 * N := by
      rw [mul_toNat, ofNat_toNat hN] <;> rw [show (4 : BitVec 64).toNat = 4 from rfl]
      rw [ofNat_toNat hN]; omega
    rw [sub_toNat, this] <;> rw [show (1 : BitVec 64).toNat = 1 from rfl]
    rw [this]; omega
  have hcond : ¬ (F.qmin + (k : ℤ) ≤ 0 ∧ BitVec.ofNat 64 N =
      (BitVec.ofNat 64 N >>> uintOf (-(F.qmin + (k : ℤ)))) <<< uintOf (-(F.qmin + (k : ℤ)))) := by
    rintro ⟨a, b⟩
    rw [uintOf_nonneg (by omega) (by omega)] at b
    exact hi ⟨a, (shift_back hN).1 b⟩
  have hcond2 : (BitVec.ofNat 64 N ≠ ((1 <<< (infoOf F).mantbits : ℕ) : BitVec 64) ∨ (k : ℤ) + 1 - F.bias - (infoOf F).bias = 1) ↔
      (2 ^ F.t < N ∨ k = 0) := by
    show (BitVec.ofNat 64 N ≠ ((1 <<< F.t : ℕ) : BitVec 64) ∨ (k : ℤ) + 1 - F.bias - -F.bias = 1) ↔ (2 ^ F.t < N ∨ k = 0)
    rw [BitVec.toNat_ne, ofNat_toNat hN, one_shift (by have := hF.bounds; omega)]
    have := h.norm
    omega
  have hlow := h.lower_mid (by omega)
  have hup := h.upper_mid
  have hcl : ((2 * N - 1 : ℕ) : ℚ) = 2 * N - 1 := by rw [Nat.cast_sub (by omega)]; push_cast; ring
  have hcl4 : ((4 * N - 1 : ℕ) : ℚ) = 4 * N - 1 := by rw [Nat.cast_sub (by omega)]; push_cast; ring
  have hval : F.magc n = ExtFloat.val ⟨BitVec.ofNat 64 N, F.qmin + k, neg⟩ := by
    rw [h.value]; unfold ExtFloat.val; rw [ofNat_toNat hN]
  have hupv : F.magc n + F.magc (n + 1) = 2 * ExtFloat.val ⟨BitVec.ofNat 64 (2 * N + 1), F.qmin + k - 1, neg⟩ := by
    rw [hup]; unfold ExtFloat.val; rw [ofNat_toNat (by omega)]; push_cast; ring
  by_cases hc : 2 ^ F.t < N ∨ k = 0
  · refine ⟨2 * BitVec.ofNat 64 N - 1, F.qmin + k - 1, ?_, Or.inl ⟨h3, rfl⟩, ?_, hval, hupv⟩
    · unfold assignComputeBounds
      simp only [fexp_eq]
      rw [if_neg hcond, if_pos (hcond2.2 hc), h2]
    · rw [hlow, if_pos hc]; unfold ExtFloat.val; rw [h3, hcl]
  · refine ⟨4 * BitVec.ofNat 64 N - 1, F.qmin + k - 2, ?_, Or.inr ⟨h4, rfl⟩, ?_, hval, hupv⟩
    · unfold assignComputeBounds
      simp only [fexp_eq]
      rw [if_neg hcond, if_neg (fun hcc => hc (hcond2.1 hcc)), h2]
    · rw [hlow, if_neg hc]; unfold ExtFloat.val; rw [h4, hcl4]

/-- The digits are the shortest for the float with code `n`, even with the midpoints to its neighbours added, and closer than any
others of that length. -/
structure FloatShortest (F : Format) (n : ℕ) (ds : List ℕ) (dp : ℤ) : Prop where
  normal : NormalDec ds dp
  ne_nil : ds ≠ []
  mem : InInterval F n (decValue ds dp)
  gt : F.magc (n - 1) + F.magc n < 2 * decValue ds dp
  lt : 2 * decValue ds dp < F.magc n + F.magc (n + 1)
  coarser : ∀ z : ℤ, ¬ (F.magc (n - 1) + F.magc n ≤ 2 * (z * (10 : ℚ) ^ (dp - ds.length + 1)) ∧
    2 * (z * (10 : ℚ) ^ (dp - ds.length + 1)) ≤ F.magc n + F.magc (n + 1))
  unique : ∀ z : ℤ, InInterval F n (z * (10 : ℚ) ^ (dp - ds.length)) → z * (10 : ℚ) ^ (dp - ds.length) ≠ decValue ds dp →
    |decValue ds dp - F.magc n| < |z * (10 : ℚ) ^ (dp - ds.length) - F.magc n|

theorem uintOf_nat {i : ℤ} {j : ℕ} (h : i = j) (hj : j < 1000) : uintOf i = j := by
  rw [uintOf_nonneg (by omega) (by omega), h, Int.toNat_natCast]

theorem shl_toNat {x : BitVec 64} {j : ℕ} (h : x.toNat * 2 ^ j < 2 ^ 64) : (x <<< j).toNat = x.toNat * 2 ^ j := by
  rw [BitVec.toNat_shiftLeft, Nat.shiftLeft_eq, Nat.mod_eq_of_lt h]

theorem val_shift {m m' : BitVec 64} {e e' : ℤ} {neg neg' : Bool} {j : ℕ} (h : m'.toNat = m.toNat * 2 ^ j) (he : e' = e - j) :
    ExtFloat.val ⟨m', e', neg'⟩ = ExtFloat.val ⟨m, e, neg⟩ := by
  unfold ExtFloat.val
  rw [h, he, zpow_sub₀ (by norm_num), zpow_natCast]
  push_cast
  field_simp

theorem shortest_mid (hF : GoFormat F) (h : Split F n k N) (hN0 : N ≠ 0) (neg : Bool) (hi : ¬ IsSmallInt (F.qmin + k) N)
    {f lower upper : ExtFloat} (hb : assignComputeBounds (BitVec.ofNat 64 N) ((k : ℤ) + 1 - F.bias) neg (infoOf F) = (f, lower, upper)) :
    f.shortestDecimal lower upper = .ok none ∨
      ∃ ds dp, f.shortestDecimal lower upper = .ok (some ⟨ds.map (· + 48), dp, neg⟩) ∧ FloatShortest F n ds dp := by
  obtain ⟨q1, q2⟩ := h.exp_range hF
  have hN53 := h.N_lt hF
  have hN : N < 2 ^ 64 := lt_trans hN53 (by norm_num)
  obtain ⟨Lm, Le, b1, b2, b3, b4, b5⟩ := bounds_mid hF h hN0 neg hi
  rw [b1] at hb
  simp only [Prod.mk.injEq] at hb
  obtain ⟨rfl, rfl, rfl⟩ := hb
  set q := F.qmin + (k : ℤ) with hq
  have hU0 : BitVec.ofNat 64 (2 * N + 1) ≠ 0 := by
    rw [BitVec.toNat_ne, ofNat_toNat (by omega)]
    show 2 * N + 1 ≠ 0
    omega
  obtain ⟨s1, s2, s3, s4, s5, s6, s7⟩ := normalize_spec ⟨BitVec.ofNat 64 (2 * N + 1), q - 1, neg⟩ hU0
  set up2 := (ExtFloat.normalize ⟨BitVec.ofNat 64 (2 * N + 1), q - 1, neg⟩).1 with hup2
  set sh := (ExtFloat.normalize ⟨BitVec.ofNat 64 (2 * N + 1), q - 1, neg⟩).2 with hsh
  simp only [ofNat_toNat (show 2 * N + 1 < 2 ^ 64 by omega)] at s4 s5 s6 s7
  have hU64 := up2.mant.isLt
  have hsh10 : 10 ≤ sh := by
    by_contra hc
    have : 2 ^ sh ≤ 2 ^ 9 := Nat.pow_le_pow_right (by norm_num) (by omega)
    have h3 : (2 * N + 1) * 2 ^ sh ≤ (2 * N + 1) * 2 ^ 9 := Nat.mul_le_mul_left _ this
    omega
  have hsh64 : sh ≤ 64 := by omega
  have hP : 2 ^ 9 ≤ 2 ^ (sh - 1) := Nat.pow_le_pow_right (by norm_num) (by omega)
  obtain ⟨P, hPd⟩ : ∃ P, P = 2 ^ (sh - 1) := ⟨_, rfl⟩
  have hP1 : 2 ^ sh = 2 * P := by
    rw [hPd, ← pow_succ']; congr 1; omega
  have hP2 : 2 ^ (sh + 1) = 4 * P := by rw [pow_succ, hP1]; ring
  rw [← hPd] at hP
  rw [hP1] at s5
  have hNP : N * P * 4 + 2 * P = up2.mant.toNat := by rw [s5]; ring
  have hNP1 : P ≤ N * P := Nat.le_mul_of_pos_left _ (by omega)
  -- the shifted f
  have hfs : (BitVec.ofNat 64 N <<< (sh + 1)).toNat = N * P * 4 := by
    have hr : N * (4 * P) = N * P * 4 := by ring
    rw [shl_toNat (by rw [ofNat_toNat hN, hP2, hr]; omega), ofNat_toNat hN, hP2, hr]
  have hfu : uintOf (q - up2.exp) = sh + 1 := uintOf_nat (by rw [s4]; push_cast; ring) (by omega)
  -- the shifted lower
  obtain ⟨j, hj1, hj2, hj3, hj4⟩ : ∃ j, Le - up2.exp = ((j : ℕ) : ℤ) ∧ j < 1000 ∧ 0 < j ∧ (Lm.toNat * 2 ^ j = N * P * 4 - 2 * P ∨ Lm.toNat * 2 ^ j = N * P * 4 - P) := by
    rcases b2 with ⟨c1, c2⟩ | ⟨c1, c2⟩
    · refine ⟨sh, by rw [s4, c2]; ring, by omega, by omega, Or.inl ?_⟩
      rw [c1, hP1, Nat.sub_mul]
      congr 1 <;> ring
    · refine ⟨sh - 1, by rw [s4, c2]; omega, by omega, by omega, Or.inr ?_⟩
      rw [c1, ← hPd, Nat.sub_mul]
      congr 1 <;> ring
  have hls : (Lm <<< j).toNat = Lm.toNat * 2 ^ j := shl_toNat (by omega)
  have hlu : uintOf (Le - up2.exp) = j := uintOf_nat hj1 hj2
  have vL : ExtFloat.val ⟨Lm <<< j, up2.exp, neg⟩ = ExtFloat.val ⟨Lm, Le, neg⟩ := val_shift hls (by omega)
  have vF : ExtFloat.val ⟨BitVec.ofNat 64 N <<< (sh + 1), up2.exp, neg⟩ = ExtFloat.val ⟨BitVec.ofNat 64 N, q, neg⟩ :=
    val_shift (j := sh + 1) (by rw [hfs, ofNat_toNat hN, hP2]; ring) (by rw [s4]; push_cast; ring)
  have hmain := shortestDecimal_aligned (f := ⟨BitVec.ofNat 64 N, q, neg⟩) (lower := ⟨Lm, Le, neg⟩) (upper := ⟨BitVec.ofNat 64 (2 * N + 1), q - 1, neg⟩)
    (f2 := ⟨BitVec.ofNat 64 N <<< (sh + 1), up2.exp, neg⟩) (lo2 := ⟨Lm <<< j, up2.exp, neg⟩) (up2 := up2)
    (by
      show BitVec.ofNat 64 N ≠ 0
      rw [BitVec.toNat_ne, ofNat_toNat hN]; exact hN0)
    (by
      rintro ⟨-, c, -⟩
      have : Le = q := congrArg ExtFloat.exp c
      omega)
    hup2.symm
    (by rw [if_pos (by show q > up2.exp; rw [s4]; omega)]; show ExtFloat.mk _ _ _ = _; rw [hfu])
    (by rw [if_pos (by show Le > up2.exp; omega)]; show ExtFloat.mk _ _ _ = _; rw [hlu])
    rfl rfl (by rw [s4]; omega) (by rw [s4]; omega) s2
    (by show 4 ≤ (Lm <<< j).toNat; rw [hls]; omega)
    (by show (Lm <<< j).toNat ≤ (BitVec.ofNat 64 N <<< (sh + 1)).toNat; rw [hls, hfs]; omega)
    (by show (BitVec.ofNat 64 N <<< (sh + 1)).toNat ≤ _; rw [hfs]; omega)
    (by show _ ≤ 3 * (BitVec.ofNat 64 N <<< (sh + 1)).toNat; rw [hfs]; omega)
  rw [vL, vF, s1, ← b4] at hmain
  rcases hmain with h1 | ⟨ds, dp, h1, h2⟩
  · exact Or.inl h1
  · have hn0 : n ≠ 0 := fun hc => hN0 (h.zero_iff.2 hc)
    refine Or.inr ⟨ds, dp, h1, h2.normal, h2.ne_nil, ⟨fun _ => ?_, ?_⟩, by rw [b3]; linarith [h2.gt], by rw [b5]; linarith [h2.lt], ?_, ?_⟩
    · rw [b3]; exact ⟨by linarith [h2.gt], fun _ => by linarith [h2.gt]⟩
    · rw [b5]; exact ⟨by linarith [h2.lt], fun _ => by linarith [h2.lt]⟩
    · rintro z ⟨z1, z2⟩
      rw [b3] at z1
      rw [b5] at z2
      exact h2.coarser z ⟨by linarith, by linarith⟩
    · rintro z ⟨z1, z2⟩ hz
      have z1 := (z1 hn0).1
      have z2 := z2.1
      rw [b3] at z1
      rw [b5] at z2
      exact h2.unique z (by linarith) (by linarith) hz

theorem dropWhile_dtz (ds : List ℕ) : (ds.reverse.dropWhile (· = 0)).reverse = dropTrailingZeros ds := by
  obtain ⟨j, h1, h2⟩ := dtz_spec ds
  generalize dropTrailingZeros ds = t at *
  subst h1
  rw [List.reverse_append, List.reverse_replicate]
  have : (List.replicate j 0 ++ t.reverse).dropWhile (fun x => decide (x = 0)) = t.reverse := by
    induction j with
    | zero =>
      rw [List.replicate_zero, List.nil_append]
      cases ht : t.reverse with
      | nil => rfl
      | cons a l =>
        have hl : t.getLast? = some a := by
          rw [← List.head?_reverse, ht]; rfl
        have ha : a ≠ 0 := fun hc => h2 (by rw [hl, hc])
        rw [List.dropWhile_cons_of_neg (by simpa using ha)]
    | succ j ih => rw [List.replicate_succ, List.cons_append, List.dropWhile_cons_of_pos (by simp), ih]
  rw [this, List.reverse_reverse]

theorem shortest_int (hF : GoFormat F) (h : Split F n k N) (hN0 : N ≠ 0) (neg : Bool) (hi : IsSmallInt (F.qmin + k) N)
    {f lower upper : ExtFloat} (hb : assignComputeBounds (BitVec.ofNat 64 N) ((k : ℤ) + 1 - F.bias) neg (infoOf F) = (f, lower, upper)) :
    ∃ ds dp, f.shortestDecimal lower upper = .ok (some ⟨ds.map (· + 48), dp, neg⟩) ∧ FloatShortest F n ds dp ∧ decValue ds dp = F.magc n := by
  obtain ⟨m, m1, m2, m3⟩ := bounds_int hF h neg hi
  rw [m3] at hb
  simp only [Prod.mk.injEq] at hb
  obtain ⟨rfl, rfl, rfl⟩ := hb
  have hm0 : m.toNat ≠ 0 := by
    rw [m1]
    obtain ⟨c, hc⟩ := hi.2
    rw [hc, Nat.mul_div_cancel_left _ (by positivity)]
    rintro rfl
    exact hN0 (by rw [hc, mul_zero])
  have hbv : m ≠ 0 := by
    rw [BitVec.toNat_ne]; exact hm0
  have hs := digitsOf_spec (b := 10) (by norm_num) m.toNat
  have hh : (digitsOf 10 m.toNat).head? ≠ some 0 := by
    rw [digitsOf_eq (by norm_num) _ hm0]; exact dg_head_ne hm0
  obtain ⟨j, j1, j2⟩ := dtz_spec (digitsOf 10 m.toNat)
  have hval : decValue (dropTrailingZeros (digitsOf 10 m.toNat)) (digitsOf 10 m.toNat).length = F.magc n := by
    rw [dtz_value, ← m2, decValue_eq, sub_self, zpow_zero, mul_one]
    congr 1
    exact hs.1
  have hmem : ∀ c ∈ dropTrailingZeros (digitsOf 10 m.toNat), c < 10 := fun c hc => hs.2.1 c (dtz_mem hc)
  have hne : dropTrailingZeros (digitsOf 10 m.toNat) ≠ [] := fun hc => hm0 (by
    have h1 : dv (digitsOf 10 m.toNat) = m.toNat := hs.1
    rw [← h1]; exact dtz_zero_iff hc)
  have hlen : (digitsOf 10 m.toNat).length = (dropTrailingZeros (digitsOf 10 m.toNat)).length + j := by
    conv_lhs => rw [j1]
    rw [List.length_append, List.length_replicate]
  have hhead := dtz_head hh
  refine ⟨dropTrailingZeros (digitsOf 10 m.toNat), (digitsOf 10 m.toNat).length, ?_, ?_, hval⟩
  · unfold ExtFloat.shortestDecimal
    rw [if_neg hbv, if_pos ⟨rfl, rfl, rfl⟩]
    dsimp only
    rw [dropWhile_dtz, if_neg (by rw [List.length_eq_zero_iff]; exact hne)]
    rfl
  · generalize dropTrailingZeros (digitsOf 10 m.toNat) = ds at *
    generalize (digitsOf 10 m.toNat).length = L at *
    have hn0 : n ≠ 0 := fun hc => hN0 (h.zero_iff.2 hc)
    refine ⟨⟨hmem, hhead, j2, fun hc => absurd hc hne⟩, hne, by rw [hval]; exact inInterval_self n,
      by rw [hval]; linarith [F.magc_strictMono (show n - 1 < n by omega)],
      by rw [hval]; linarith [F.magc_lt_succ n], ?_, ?_⟩
    · rintro z ⟨z1, z2⟩
      have hq0 : (2 : ℚ) ^ (F.qmin + (k : ℤ)) ≤ 1 := zpow_le_one_of_nonpos₀ (by norm_num) hi.1
      have hqp : (0 : ℚ) < (2 : ℚ) ^ (F.qmin + (k : ℤ)) := by positivity
      have hL : (L : ℤ) - ds.length = j := by omega
      rw [hL] at z1 z2
      have hint : (z : ℚ) * (10 : ℚ) ^ ((j : ℤ) + 1) = ((z * 10 ^ (j + 1) : ℤ) : ℚ) := by
        rw [show (j : ℤ) + 1 = ((j + 1 : ℕ) : ℤ) by push_cast; rfl, zpow_natCast]
        push_cast; rfl
      rw [hint] at z1 z2
      have hup := h.upper_mid
      have hlow := h.lower_mid (by omega)
      have hv := h.value
      have hlow' : 2 * F.magc n - 1 ≤ F.magc (n - 1) + F.magc n := by
        rw [hlow, hv]
        rw [two_zpow_pred] at hq0 hqp ⊢
        split
        · nlinarith
        · rw [two_zpow_pred (F.qmin + k - 1)] at hq0 hqp ⊢
          rw [show F.qmin + (k : ℤ) - 1 - 1 = F.qmin + k - 2 by ring] at *
          nlinarith
      have hup' : F.magc n + F.magc (n + 1) ≤ 2 * F.magc n + 1 := by
        rw [hup, hv, two_zpow_pred (F.qmin + k)]
        rw [two_zpow_pred (F.qmin + k)] at hq0 hqp
        linarith
      have hval2 : F.magc n = ((dv ds * 10 ^ j : ℕ) : ℚ) := by
        rw [← hval, decValue_eq, hL, zpow_natCast]; push_cast; rfl
      rw [hval2] at hlow' hup'
      have e1 : 2 * ((dv ds * 10 ^ j : ℕ) : ℤ) - 1 ≤ 2 * (z * 10 ^ (j + 1)) := by
        have : 2 * ((dv ds * 10 ^ j : ℕ) : ℚ) - 1 ≤ 2 * ((z * 10 ^ (j + 1) : ℤ) : ℚ) := by linarith
        exact_mod_cast this
      have e2 : 2 * (z * 10 ^ (j + 1)) ≤ 2 * ((dv ds * 10 ^ j : ℕ) : ℤ) + 1 := by
        have : 2 * ((z * 10 ^ (j + 1) : ℤ) : ℚ) ≤ 2 * ((dv ds * 10 ^ j : ℕ) : ℚ) + 1 := by linarith
        exact_mod_cast this
      have e3 : ((dv ds * 10 ^ j : ℕ) : ℤ) = z * 10 ^ (j + 1) := by omega
      have e4 : (dv ds : ℤ) = z * 10 := by
        have hp : (10 : ℤ) ^ j ≠ 0 := by positivity
        apply mul_right_cancel₀ hp
        rw [pow_succ] at e3
        push_cast at e3
        rw [e3]; ring
      have := dv_mod hmem j2 hne
      omega
    · intro z _ hz
      rw [hval] at hz ⊢
      rw [sub_self, abs_zero]
      exact abs_pos.2 (sub_ne_zero.2 hz)

/-- `ShortestDecimal` on a float: it gives up, or its digits read back as the float, no shorter ones do, and no others of the
same length are closer. -/
theorem shortest_float (hF : GoFormat F) (h : Split F n k N) (hN0 : N ≠ 0) (neg : Bool)
    {f lower upper : ExtFloat} (hb : assignComputeBounds (BitVec.ofNat 64 N) ((k : ℤ) + 1 - F.bias) neg (infoOf F) = (f, lower, upper)) :
    f.shortestDecimal lower upper = .ok none ∨
      ∃ ds dp, f.shortestDecimal lower upper = .ok (some ⟨ds.map (· + 48), dp, neg⟩) ∧ FloatShortest F n ds dp := by
  by_cases hi : IsSmallInt (F.qmin + k) N
  · obtain ⟨ds, dp, h1, h2, -⟩ := shortest_int hF h hN0 neg hi hb
    exact Or.inr ⟨ds, dp, h1, h2⟩
  · exact shortest_mid hF h hN0 neg hi hb

/-- Zero has no digits. -/
theorem shortest_zero (hF : GoFormat F) (h : Split F n k N) (hN0 : N = 0) (neg : Bool)
    {f lower upper : ExtFloat} (hb : assignComputeBounds (BitVec.ofNat 64 N) ((k : ℤ) + 1 - F.bias) neg (infoOf F) = (f, lower, upper)) :
    f.shortestDecimal lower upper = .ok (some ⟨[], 0, neg⟩) := by
  have hk : k = 0 := by
    have := h.norm
    have := Nat.two_pow_pos F.t
    omega
  have hq : F.qmin + (k : ℤ) ≤ 0 := by
    subst hk
    rcases hF with rfl | rfl | rfl <;> decide
  obtain ⟨m, m1, m2, m3⟩ := bounds_int hF h neg ⟨hq, by rw [hN0]; exact dvd_zero _⟩
  rw [m3] at hb
  simp only [Prod.mk.injEq] at hb
  obtain ⟨rfl, rfl, rfl⟩ := hb
  unfold ExtFloat.shortestDecimal
  rw [if_pos (by
    show m = 0
    rw [← BitVec.toNat_inj, m1, hN0, Nat.zero_div]; rfl)]
  rfl

end GoFloat.Strconv
