import Verif.Proofs.Fixed
/-
The fast and the exact path of internal/strconv/ftoa.go together.
-/
namespace GoFloat.Strconv
open Spec

theorem nearestEven_unique {q : ℚ} {a b : ℤ} (ha : NearestEven q a) (hb : NearestEven q b) : a = b := by
  obtain ⟨a1, a2⟩ := ha
  obtain ⟨b1, b2⟩ := hb
  by_contra hne
  have h1 := abs_le.1 a1
  have h2 := abs_le.1 b1
  rcases lt_or_gt_of_ne hne with h | h
  · have hq : (a : ℚ) + 1 ≤ b := by exact_mod_cast h
    have e1 : |q - a| = 1 / 2 := by rw [abs_of_nonneg (by linarith)]; linarith
    have e2 : |q - b| = 1 / 2 := by rw [abs_of_nonpos (by linarith)]; linarith
    have h3 : (b : ℚ) = a + 1 := by
      rw [abs_of_nonneg (by linarith)] at e1
      rw [abs_of_nonpos (by linarith)] at e2
      linarith
    have h4 : b = a + 1 := by exact_mod_cast h3
    have := a2 e1
    have := b2 e2
    rw [h4] at this
    exact absurd this (by rw [Int.even_add_one]; simpa using a2 e1)
  · have hq : (b : ℚ) + 1 ≤ a := by exact_mod_cast h
    have e1 : |q - b| = 1 / 2 := by rw [abs_of_nonneg (by linarith)]; linarith
    have e2 : |q - a| = 1 / 2 := by rw [abs_of_nonpos (by linarith)]; linarith
    have h3 : (a : ℚ) = b + 1 := by
      rw [abs_of_nonneg (by linarith)] at e1
      rw [abs_of_nonpos (by linarith)] at e2
      linarith
    have h4 : a = b + 1 := by exact_mod_cast h3
    have := a2 e2
    rw [h4] at this
    exact absurd this (by rw [Int.even_add_one]; simpa using b2 e1)

/-- The leading digit fixes the unit. -/
theorem unit_unique {n : ℕ} (hn : 1 ≤ n) {v : ℚ} {e e' : ℤ} (h1 : (10 : ℚ) ^ (n - 1) ≤ v / (10 : ℚ) ^ e) (h2 : v / (10 : ℚ) ^ e < 10 ^ n)
    (h3 : (10 : ℚ) ^ (n - 1) ≤ v / (10 : ℚ) ^ e') (h4 : v / (10 : ℚ) ^ e' < 10 ^ n) : e = e' := by
  have key : ∀ a b : ℤ, (10 : ℚ) ^ (n - 1) ≤ v / (10 : ℚ) ^ a → v / (10 : ℚ) ^ b < 10 ^ n → a ≤ b := by
    intro a b h h'
    rw [le_div_iff₀ (by positivity)] at h
    rw [div_lt_iff₀ (by positivity)] at h'
    have := h.trans_lt h'
    rw [← zpow_natCast, ← zpow_natCast, ← zpow_add₀ (by norm_num), ← zpow_add₀ (by norm_num), zpow_lt_zpow_iff_right₀ (by norm_num)] at this
    omega
  exact le_antisymm (key _ _ h1 h4) (key _ _ h3 h2)

theorem roundedDigits_unique {n : ℕ} (hn : 1 ≤ n) {v y y' : ℚ} (h : RoundedDigits n v y) (h' : RoundedDigits n v y') : y = y' := by
  obtain ⟨m, e, a1, a2, a3, a4⟩ := h
  obtain ⟨m', e', b1, b2, b3, b4⟩ := h'
  have he := unit_unique hn a1 a2 b1 b2
  subst he
  have := nearestEven_unique a3 b3
  have hm : m = m' := by exact_mod_cast this
  rw [a4, b4, hm]

/-- Rounding an exact decimal to `n` digits. -/
theorem round_digits {d : Decimal} (hd : NormalDec d.d d.dp) (ht : d.trunc = false) (hne : d.d ≠ []) {n : ℕ} (hn : 1 ≤ n) :
    NormalDec (d.round n).d (d.round n).dp ∧ (d.round n).d ≠ [] ∧ (d.round n).d.length ≤ n ∧
      RoundedDigits n (decValue d.d d.dp) (decValue (d.round n).d (d.round n).dp) := by
  obtain ⟨p1, p2⟩ := decValue_pos hd hne
  have hE : (0 : ℚ) < (10 : ℚ) ^ (d.dp - n) := by positivity
  have r1 : (10 : ℚ) ^ (n - 1) ≤ decValue d.d d.dp / (10 : ℚ) ^ (d.dp - n) := by
    rw [le_div_iff₀ hE, ← zpow_natCast, ← zpow_add₀ (by norm_num), show ((n - 1 : ℕ) : ℤ) + (d.dp - n) = d.dp - 1 by omega]
    exact p1
  have r2 : decValue d.d d.dp / (10 : ℚ) ^ (d.dp - n) < 10 ^ n := by
    rw [div_lt_iff₀ hE, ← zpow_natCast, ← zpow_add₀ (by norm_num), show ((n : ℕ) : ℤ) + (d.dp - n) = d.dp by omega]
    exact p2
  by_cases hl : n < d.d.length
  · obtain ⟨s1, s2, ⟨m, s3, s4⟩, -, -⟩ := round_spec hd hl (y := decValue d.d d.dp) (by unfold Represents; rw [ht]; rfl)
    refine ⟨s1, ?_, by omega, ⟨m, _, r1, r2, s3, s4⟩⟩
    intro hc
    have h0 : decValue (d.round n).d (d.round n).dp = 0 := by rw [hc]; show ((0 : ℕ) : ℚ) * _ = 0; simp
    rw [s4] at h0
    have hm : (m : ℚ) = 0 := by
      rcases mul_eq_zero.1 h0 with h | h
      · exact h
      · exact absurd h hE.ne'
    have := (abs_le.1 s3.1).2
    rw [show ((m : ℤ) : ℚ) = (m : ℚ) by norm_cast, hm] at this
    have h1 : (1 : ℚ) ≤ 10 ^ (n - 1) := one_le_pow₀ (by norm_num)
    linarith
  · have hr : d.round n = d := by
      unfold Decimal.round
      rw [if_pos (by
        show (n : ℤ) < 0 ∨ (n : ℤ) ≥ (d.d.length : ℤ)
        omega)]
    rw [hr]
    refine ⟨hd, hne, by omega, dv d.d * 10 ^ (n - d.d.length), d.dp - n, r1, r2, ?_, ?_⟩
    · have : decValue d.d d.dp / (10 : ℚ) ^ (d.dp - n) = ((dv d.d * 10 ^ (n - d.d.length) : ℕ) : ℚ) := by
        rw [decValue_eq, div_eq_iff hE.ne']
        push_cast
        rw [mul_assoc, ← zpow_natCast, ← zpow_add₀ (by norm_num)]
        congr 2
        omega
      rw [this]
      unfold NearestEven
      rw [show (((dv d.d * 10 ^ (n - d.d.length) : ℕ) : ℤ) : ℚ) = ((dv d.d * 10 ^ (n - d.d.length) : ℕ) : ℚ) by norm_cast, sub_self, abs_zero]
      norm_num
    · rw [decValue_eq]
      push_cast
      rw [mul_assoc, ← zpow_natCast, ← zpow_add₀ (by norm_num)]
      congr 2
      omega

variable {F : Format} {n k N : ℕ}

theorem fmtE_prec (neg : Bool) (d : DecimalSlice) {p p' : ℤ} (fmt : Char) (h : p ≤ 0) (h' : p' ≤ 0) : fmtE neg d p fmt = fmtE neg d p' fmt := by
  unfold fmtE
  simp only [if_neg (not_lt.2 h), if_neg (not_lt.2 h'), gt_iff_lt]

/-- With a negative precision: digits in the rounding interval of the float; if the fast path is used and answers, they are
the shortest ones, and the closest of these. -/
theorem ftoaFinite_short {W : ℕ} (hW : W = 32 ∨ W = 64) (hF : GoFormat F) (h : Split F n k N) (opt : Bool) (neg : Bool) :
    ∃ ds dp x, NormalDec ds dp ∧ (ds = [] ↔ N = 0) ∧ InInterval F n (decValue ds dp) ∧
      (∀ {prec : ℤ} (_ : prec < 0) {fmt : Char} (_ : DigitFmt fmt),
        ftoaFinite W opt fmt prec neg (BitVec.ofNat 64 N) ((k : ℤ) + 1 - F.bias) (infoOf F) =
          .ok (formatDigits true neg ⟨ds.map (· + 48), dp, x⟩ (shortPrec fmt ds.length dp) fmt)) ∧
      (N ≠ 0 → opt = true ∧ FloatShortest F n ds dp ∨ FloatUnless F n ds dp) := by
  have hb : ∀ {fmt : Char}, DigitFmt fmt → ¬ fmt = 'b' := by
    rintro _ hfmt rfl
    rcases hfmt with h | h | h | h | h <;> exact absurd h (by decide)
  have hbig : ∀ {prec : ℤ} {fmt : Char}, DigitFmt fmt → ftoaFinite W false fmt prec neg (BitVec.ofNat 64 N) ((k : ℤ) + 1 - F.bias) (infoOf F) =
      bigFtoa W prec fmt neg (BitVec.ofNat 64 N) ((k : ℤ) + 1 - F.bias) (infoOf F) := by
    intro prec fmt hfmt
    unfold ftoaFinite
    rw [if_neg (hb hfmt), if_pos (by rfl)]
  obtain ⟨ds, dp, c1, c2, c3, c5, c4⟩ := bigFtoa_shortest hW hF h neg
  cases opt with
  | false => exact ⟨ds, dp, false, c1, c2, c3, fun hp _ hfmt => by rw [hbig hfmt]; exact c4 hp hfmt, fun hN => Or.inr (c5 hN).1⟩
  | true =>
    obtain ⟨f, lower, upper, hbd⟩ : ∃ f lower upper, assignComputeBounds (BitVec.ofNat 64 N) ((k : ℤ) + 1 - F.bias) neg (infoOf F) = (f, lower, upper) :=
      ⟨_, _, _, rfl⟩
    have hprec : ∀ {prec : ℤ} {fmt : Char}, DigitFmt fmt → ∀ (nd : ℕ) (dp : ℤ) (d : DecimalSlice), formatDigits true neg d (if fmt = 'e' ∨ fmt = 'E' then max ((nd : ℤ) - 1) 0
        else if fmt = 'f' then max ((nd : ℤ) - dp) 0 else if fmt = 'g' ∨ fmt = 'G' then (nd : ℤ) else prec) fmt =
        formatDigits true neg d (shortPrec fmt nd dp) fmt := by
      intro prec fmt hfmt nd dp d
      unfold shortPrec
      by_cases h1 : fmt = 'e' ∨ fmt = 'E'
      · rw [if_pos h1, if_pos h1]
        unfold formatDigits
        rw [if_pos h1, if_pos h1]
        by_cases h2 : nd = 0
        · subst h2
          exact fmtE_prec _ _ _ (by norm_num) (by norm_num)
        · rw [max_eq_left (by omega)]
      · rw [if_neg h1, if_neg h1]
        by_cases h2 : fmt = 'f'
        · rw [if_pos h2, if_pos h2]
        · rw [if_neg h2, if_neg h2, if_pos]
          rcases hfmt with h | h | h | h | h
          · exact absurd (Or.inl h) h1
          · exact absurd (Or.inr h) h1
          · exact absurd h h2
          · exact Or.inl h
          · exact Or.inr h
    by_cases hN0 : N = 0
    · have hz := shortest_zero hF h hN0 neg hbd
      refine ⟨[], 0, neg, ⟨by simp, by simp, by simp, fun _ => rfl⟩, by simp [hN0], ?_, fun {prec} hp {fmt} hfmt => ?_, fun hc => absurd hN0 hc⟩
      · have : decValue [] 0 = F.magc n := by
          rw [h.value, hN0]; show ((0 : ℕ) : ℚ) * _ = _; simp
        rw [this]; exact inInterval_self n
      · unfold ftoaFinite
        rw [if_neg (hb hfmt), if_neg (by decide), if_pos hp, hbd]
        dsimp only
        rw [hz, ok_bind]
        dsimp only
        rw [show ([] : List ℕ).length = 0 from rfl, show ([] : List ℕ).map (· + 48) = [] from rfl, ← hprec hfmt 0 0]
        rfl
    · rcases shortest_float hF h hN0 neg hbd with hs | ⟨ds', dp', hs, hsh⟩
      · have heq : ∀ {prec : ℤ} (_ : prec < 0) {fmt : Char} (_ : DigitFmt fmt), ftoaFinite W true fmt prec neg (BitVec.ofNat 64 N) ((k : ℤ) + 1 - F.bias) (infoOf F) =
            bigFtoa W prec fmt neg (BitVec.ofNat 64 N) ((k : ℤ) + 1 - F.bias) (infoOf F) := by
          intro prec hp fmt hfmt
          unfold ftoaFinite
          rw [if_neg (hb hfmt), if_neg (by decide), if_pos hp, hbd]
          dsimp only
          rw [hs, ok_bind]
        exact ⟨ds, dp, false, c1, c2, c3, fun hp _ hfmt => by rw [heq hp hfmt]; exact c4 hp hfmt, fun hN => Or.inr (c5 hN).1⟩
      · refine ⟨ds', dp', neg, hsh.normal, by simp [hsh.ne_nil, hN0], hsh.mem, fun {prec} hp {fmt} hfmt => ?_, fun _ => Or.inl ⟨rfl, hsh⟩⟩
        unfold ftoaFinite
        rw [if_neg (hb hfmt), if_neg (by decide), if_pos hp, hbd]
        dsimp only
        rw [hs, ok_bind]
        dsimp only
        rw [← hprec hfmt]
        unfold DecimalSlice.nd
        rw [List.length_map]
        rfl

/-- With a nonnegative precision the fast path changes nothing. -/
theorem ftoaFinite_fixed {W : ℕ} (hW : W = 32 ∨ W = 64) (hF : GoFormat F) (h : Split F n k N) (opt : Bool) {prec : ℤ} (hp : 0 ≤ prec) (neg : Bool)
    {fmt : Char} (hfmt : DigitFmt fmt) :
    ftoaFinite W opt fmt prec neg (BitVec.ofNat 64 N) ((k : ℤ) + 1 - F.bias) (infoOf F) =
      bigFtoa W prec fmt neg (BitVec.ofNat 64 N) ((k : ℤ) + 1 - F.bias) (infoOf F) := by
  have hb : ¬ fmt = 'b' := by
    rintro rfl
    rcases hfmt with h | h | h | h | h <;> exact absurd h (by decide)
  cases opt with
  | false =>
    unfold ftoaFinite
    rw [if_neg hb, if_pos (by rfl)]
  | true =>
    by_cases hf : fmt = 'f'
    · unfold ftoaFinite
      rw [if_neg hb, if_neg (by decide), if_neg (by omega), if_neg (by simpa using hf)]
    · set p : ℤ := if (fmt = 'g' ∨ fmt = 'G') ∧ prec = 0 then 1 else prec with hpd
      have hp0 : 0 ≤ p := by rw [hpd]; split <;> omega
      set dg : ℤ := if fmt = 'e' ∨ fmt = 'E' then p + 1 else p with hdg
      have hbp : bigFtoa W p fmt neg (BitVec.ofNat 64 N) ((k : ℤ) + 1 - F.bias) (infoOf F) =
          bigFtoa W prec fmt neg (BitVec.ofNat 64 N) ((k : ℤ) + 1 - F.bias) (infoOf F) := by
        unfold bigFtoa
        simp only [if_neg (not_lt.2 hp), if_neg (not_lt.2 hp0)]
        have : (if (fmt = 'g' ∨ fmt = 'G') ∧ p = 0 then 1 else p) = p := by
          rw [hpd]; split_ifs <;> simp_all
        rw [this]
      have hdg1 : 1 ≤ dg ∧ ∀ dp, askedDigits fmt dp p = dg := by
        rw [hdg, hpd]
        unfold askedDigits
        rcases hfmt with rfl | rfl | rfl | rfl | rfl
        · simp; omega
        · simp; omega
        · exact absurd rfl hf
        · simp; split <;> omega
        · simp; split <;> omega
      have hpp : (if fmt = 'g' ∨ fmt = 'G' then max p 1 else p) = p := by
        split
        · rename_i hg
          have : ¬ (fmt = 'e' ∨ fmt = 'E') := by
            rcases hg with rfl | rfl <;> decide
          rw [hdg, if_neg this] at hdg1
          omega
        · rfl
      unfold ftoaFinite
      rw [if_neg hb, if_neg (by decide), if_neg (by omega), if_pos (by simpa using hf)]
      dsimp only
      rw [← hpd, ← hdg]
      by_cases h15 : dg ≤ 15
      · rw [if_pos h15, fexp_eq]
        obtain ⟨m, hm⟩ : ∃ m : ℕ, dg = m := ⟨dg.toNat, by omega⟩
        obtain ⟨d, d1, d2, d3, d4⟩ := bigFtoa_fixed hW hF h hp0 neg hfmt
        rw [hdg1.2, hpp] at d4
        by_cases hN0 : N = 0
        · have hz : ExtFloat.fixedDecimal ⟨BitVec.ofNat 64 N, F.qmin + k, neg⟩ dg = .ok (some ⟨[], 0, neg⟩) := by
            unfold ExtFloat.fixedDecimal
            rw [if_pos (by rw [hN0]; rfl)]
            rfl
          have hdn : d.d = [] := by
            by_contra hc
            have := (decValue_pos d1 hc).1
            have hz : F.magc n = 0 := by rw [h.value, hN0]; simp
            rw [d2, hz] at this
            exact absurd this (not_le.2 (zpow_pos (by norm_num) _))
          have hr : d.round dg = d := by
            unfold Decimal.round
            rw [if_pos (by
              show dg < 0 ∨ dg ≥ (d.d.length : ℤ)
              rw [hdn]
              right
              simp only [List.length_nil]
              omega)]
          rw [hz, ok_bind, ← hbp, d4, hr, hdn, d1.zero hdn]
          dsimp only
          unfold formatDigits fmtE fmtF
          rfl
        · have hne : d.d ≠ [] := by
            intro hc
            have h0 : decValue d.d d.dp = 0 := by rw [hc]; show ((0 : ℕ) : ℚ) * _ = 0; simp
            rw [d2, h.value] at h0
            rcases mul_eq_zero.1 h0 with h1 | h1
            · exact hN0 (by exact_mod_cast h1)
            · exact absurd h1 (by positivity)
          rw [hm] at hdg1 h15 d4 ⊢
          rcases fixedDecimal_float hF h hN0 neg (n := m) (by omega) (by omega) with ⟨hs, -⟩ | ⟨ds, dp, hs, s1, s2, s3, s4, -⟩
          · rw [hs, ok_bind]
            exact hbp
          · obtain ⟨r1, r2, r3, r4⟩ := round_digits d1 d3 hne (n := m) (by omega)
            rw [d2] at r4
            have heq := roundedDigits_unique (by omega) s4 r4
            obtain ⟨u1, u2⟩ := normal_unique s1 r1 heq
            rw [hs, ok_bind, ← hbp, d4, ← u1, ← u2]
            rfl
      · rw [if_neg h15]
        exact hbp

end GoFloat.Strconv
