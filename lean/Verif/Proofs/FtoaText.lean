import Verif.Proofs.FtoaBits
import Verif.Proofs.BigShortest
import Verif.Proofs.Layout
/-
What `formatDigits` and `bigFtoa` of internal/strconv/ftoa.go print.
-/
namespace GoFloat.Strconv
open Spec

/-- The formats with digits. -/
def DigitFmt (fmt : Char) : Prop := fmt = 'e' ∨ fmt = 'E' ∨ fmt = 'f' ∨ fmt = 'g' ∨ fmt = 'G'

/-- The precision used for the shortest digits. -/
def shortPrec (fmt : Char) (nd : ℕ) (dp : ℤ) : ℤ :=
  if fmt = 'e' ∨ fmt = 'E' then (nd : ℤ) - 1 else if fmt = 'f' then max (nd - dp) 0 else nd

theorem toE (fmt : Char) (h : fmt = 'g' ∨ fmt = 'G') :
    Char.ofNat (fmt.toNat + 101 - 103) = 'e' ∨ Char.ofNat (fmt.toNat + 101 - 103) = 'E' := by
  rcases h with rfl | rfl
  · left; decide
  · right; decide

/-- The text of shortest digits reads back as their value. -/
theorem formatDigits_shortest_read (neg : Bool) {ds : List ℕ} (hd : ∀ d ∈ ds, d < 10) (dp : ℤ) (x : Bool) {fmt : Char}
    (hfmt : DigitFmt fmt) (he : (expOf ds dp).natAbs < 1000) :
    readDecimal (formatDigits true neg ⟨ds.map (· + 48), dp, x⟩ (shortPrec fmt ds.length dp) fmt) = some (neg, decValue ds dp) := by
  have hnd : DecimalSlice.nd ⟨ds.map (· + 48), dp, x⟩ = ds.length := by simp [DecimalSlice.nd]
  unfold formatDigits shortPrec
  by_cases h1 : fmt = 'e' ∨ fmt = 'E'
  · simp only [if_pos h1]
    exact fmtE_read neg hd dp x _ h1 he (by omega)
  · by_cases h2 : fmt = 'f'
    · simp only [if_neg h1, if_pos h2]
      exact fmtF_read neg hd dp x _ (le_max_right _ _) (by omega)
    · have h3 : fmt = 'g' ∨ fmt = 'G' := by
        rcases hfmt with h | h | h | h | h
        · exact absurd (Or.inl h) h1
        · exact absurd (Or.inr h) h1
        · exact absurd h h2
        · exact Or.inl h
        · exact Or.inr h
      simp only [if_neg h1, if_neg h2, if_pos h3, hnd, lt_irrefl, gt_iff_lt, false_and, if_true, ite_self]
      split
      · exact fmtE_read neg hd dp x _ (toE fmt h3) he (by omega)
      · exact fmtF_read neg hd dp x _ (le_max_right _ _) (by omega)

/-- The digits the format asks for are all there are. -/
def EnoughDigits (fmt : Char) (nd : ℕ) (dp prec : ℤ) : Prop :=
  if fmt = 'e' ∨ fmt = 'E' then (nd : ℤ) ≤ prec + 1 else if fmt = 'f' then (nd : ℤ) ≤ dp + prec ∨ nd = 0 else (nd : ℤ) ≤ prec

/-- The text of a fixed number of digits reads back as their value. -/
theorem formatDigits_fixed_read (neg : Bool) {ds : List ℕ} (hd : ∀ d ∈ ds, d < 10) (dp : ℤ) (x : Bool) {fmt : Char}
    (hfmt : DigitFmt fmt) (he : (expOf ds dp).natAbs < 1000) {prec : ℤ} (hp : 0 ≤ prec)
    (hen : EnoughDigits fmt ds.length dp prec) :
    readDecimal (formatDigits false neg ⟨ds.map (· + 48), dp, x⟩ prec fmt) = some (neg, decValue ds dp) := by
  have hnd : DecimalSlice.nd ⟨ds.map (· + 48), dp, x⟩ = ds.length := by simp [DecimalSlice.nd]
  unfold formatDigits
  unfold EnoughDigits at hen
  by_cases h1 : fmt = 'e' ∨ fmt = 'E'
  · rw [if_pos h1] at hen
    simp only [if_pos h1]
    exact fmtE_read neg hd dp x _ h1 he (by omega)
  · rw [if_neg h1] at hen
    by_cases h2 : fmt = 'f'
    · rw [if_pos h2] at hen
      simp only [if_neg h1, if_pos h2]
      exact fmtF_read neg hd dp x _ hp (by rw [← List.length_eq_zero_iff]; exact hen)
    · rw [if_neg h2] at hen
      have h3 : fmt = 'g' ∨ fmt = 'G' := by
        rcases hfmt with h | h | h | h | h
        · exact absurd (Or.inl h) h1
        · exact absurd (Or.inr h) h1
        · exact absurd h h2
        · exact Or.inl h
        · exact Or.inr h
      simp only [if_neg h1, if_neg h2, if_pos h3, hnd, Bool.false_eq_true, if_false]
      generalize hep : (if prec > (ds.length : ℤ) ∧ (ds.length : ℤ) ≥ dp then (ds.length : ℤ) else prec) = ep
      split
      · refine fmtE_read neg hd dp x _ (toE fmt h3) he ?_
        split <;> omega
      · rename_i hc
        refine fmtF_read neg hd dp x _ (le_max_right _ _) (Or.inl ?_)
        split
        · omega
        · split at hep <;> omega

/-- Powers of ten around the magnitudes of floats. -/
theorem pow_bounds : (10 : ℚ) ^ (-400 : ℤ) < (2 : ℚ) ^ (-1100 : ℤ) ∧ (2 : ℚ) ^ (1100 : ℤ) < (10 : ℚ) ^ (400 : ℤ) := by
  constructor
  · rw [zpow_neg, zpow_neg]
    apply inv_strictAnti₀ (by norm_num)
    rw [show (1100 : ℤ) = ((1100 : ℕ) : ℤ) from rfl, show (400 : ℤ) = ((400 : ℕ) : ℤ) from rfl, zpow_natCast, zpow_natCast]
    exact_mod_cast (by decide +kernel : (2 : ℕ) ^ 1100 < 10 ^ 400)
  · rw [show (1100 : ℤ) = ((1100 : ℕ) : ℤ) from rfl, show (400 : ℤ) = ((400 : ℕ) : ℤ) from rfl, zpow_natCast, zpow_natCast]
    exact_mod_cast (by decide +kernel : (2 : ℕ) ^ 1100 < 10 ^ 400)

theorem expOf_small {ds : List ℕ} {dp : ℤ} (hd : NormalDec ds dp)
    (h1 : ds = [] ∨ (2 : ℚ) ^ (-1100 : ℤ) ≤ decValue ds dp) (h2 : decValue ds dp ≤ (2 : ℚ) ^ (1100 : ℤ)) :
    (expOf ds dp).natAbs < 1000 := by
  unfold expOf
  split
  · decide
  · rename_i h0
    have hne : ds ≠ [] := fun hc => h0 (by rw [hc]; rfl)
    have hlow := h1.resolve_left hne
    obtain ⟨p1, p2⟩ := pow_bounds
    have e1 := dp_le_of_lt (a := ⟨ds, dp, false, false⟩) hd hne (lt_of_le_of_lt h2 p2)
    have e2 := lt_dp_of_le (a := ⟨ds, dp, false, false⟩) hd hne (le_trans p1.le hlow)
    simp only at e1 e2
    omega

variable {F : Format} {n k N : ℕ}

/-- The magnitude of a nonzero finite number. -/
theorem Split.range (hF : GoFormat F) (h : Split F n k N) (hN0 : N ≠ 0) :
    (2 : ℚ) ^ (-1074 : ℤ) ≤ F.magc n ∧ F.magc n < (2 : ℚ) ^ (1024 : ℤ) := by
  have hr := h.exp_range hF
  rw [h.value]
  have hN1 : (1 : ℚ) ≤ N := by exact_mod_cast Nat.one_le_iff_ne_zero.2 hN0
  have hN2 : (N : ℚ) < (2 : ℚ) ^ (53 : ℤ) := by
    have := h.N_lt hF
    have : (N : ℚ) < ((2 ^ 53 : ℕ) : ℚ) := by exact_mod_cast this
    rw [show (53 : ℤ) = ((53 : ℕ) : ℤ) from rfl, zpow_natCast]
    exact_mod_cast this
  have hp : (0 : ℚ) < (2 : ℚ) ^ (F.qmin + (k : ℤ)) := zpow_pos (by norm_num) _
  constructor
  · calc (2 : ℚ) ^ (-1074 : ℤ) ≤ (2 : ℚ) ^ (F.qmin + (k : ℤ)) := zpow_le_zpow_right₀ (by norm_num) hr.1
      _ ≤ N * (2 : ℚ) ^ (F.qmin + (k : ℤ)) := le_mul_of_one_le_left hp.le hN1
  · calc (N : ℚ) * (2 : ℚ) ^ (F.qmin + (k : ℤ)) < (2 : ℚ) ^ (53 : ℤ) * (2 : ℚ) ^ (F.qmin + (k : ℤ)) := mul_lt_mul_of_pos_right hN2 hp
      _ = (2 : ℚ) ^ (53 + (F.qmin + (k : ℤ))) := (zpow_add₀ (by norm_num) _ _).symm
      _ ≤ (2 : ℚ) ^ (1024 : ℤ) := zpow_le_zpow_right₀ (by norm_num) (by omega)

/-- Numbers in the rounding interval have about the same magnitude. -/
theorem interval_range (hF : GoFormat F) (h : Split F n k N) (hN0 : N ≠ 0) {q : ℚ} (hq : InInterval F n q) :
    (2 : ℚ) ^ (-1100 : ℤ) ≤ q ∧ q ≤ (2 : ℚ) ^ (1100 : ℤ) := by
  obtain ⟨r1, r2⟩ := h.range hF hN0
  obtain ⟨i1, i2, -⟩ := hq
  have hn0 : 0 < n := Nat.pos_of_ne_zero fun hc => hN0 (h.zero_iff.2 hc)
  have h1 := (i1 hn0.ne').1
  have hp := F.magc_nonneg (n - 1)
  have hs : F.magc (n + 1) ≤ 2 * F.magc n := by
    rw [h.succ, h.value]
    have hN1 : (1 : ℚ) ≤ N := by exact_mod_cast Nat.one_le_iff_ne_zero.2 hN0
    have hz : (0 : ℚ) < (2 : ℚ) ^ (F.qmin + (k : ℤ)) := zpow_pos (by norm_num) _
    nlinarith
  have e1 : (2 : ℚ) ^ (-1074 : ℤ) = 2 * (2 : ℚ) ^ (-1075 : ℤ) := two_zpow_pred (-1074)
  have e2 : (2 : ℚ) ^ (1025 : ℤ) = 2 * (2 : ℚ) ^ (1024 : ℤ) := two_zpow_pred 1025
  have m1 : (2 : ℚ) ^ (-1100 : ℤ) ≤ (2 : ℚ) ^ (-1075 : ℤ) := zpow_le_zpow_right₀ (by norm_num) (by norm_num)
  have m2 : (2 : ℚ) ^ (1025 : ℤ) ≤ (2 : ℚ) ^ (1100 : ℤ) := zpow_le_zpow_right₀ (by norm_num) (by norm_num)
  generalize (2 : ℚ) ^ (-1100 : ℤ) = A at *
  generalize (2 : ℚ) ^ (1100 : ℤ) = B at *
  generalize (2 : ℚ) ^ (-1074 : ℤ) = C at *
  generalize (2 : ℚ) ^ (1024 : ℤ) = D at *
  generalize (2 : ℚ) ^ (-1075 : ℤ) = E at *
  generalize (2 : ℚ) ^ (1025 : ℤ) = G at *
  constructor <;> linarith

/-- The exact decimal of a float. -/
theorem exact_shift {W : ℕ} (hW : W = 32 ∨ W = 64) (hF : GoFormat F) (h : Split F n k N) :
    ∃ d, (Decimal.new.assign (BitVec.ofNat 64 N)).shift W ((k : ℤ) + 1 - F.bias - F.t) = .ok d ∧ NormalDec d.d d.dp ∧
      d.d.length ≤ 800 ∧ decValue d.d d.dp = F.magc n ∧ d.trunc = false := by
  have hr := h.exp_range hF
  have hq : (k : ℤ) + 1 - F.bias - F.t = F.qmin + k := by unfold Format.qmin; ring
  rw [hq]
  have := new_shift hW (BitVec.ofNat 64 N) (F.qmin + k) (by omega) (by omega)
  rw [ofNat_toNat (lt_trans (h.N_lt hF) (by norm_num)), ← h.value] at this
  exact this

/-- `bigFtoa` with shortest digits. -/
theorem bigFtoa_shortest {W : ℕ} (hW : W = 32 ∨ W = 64) (hF : GoFormat F) (h : Split F n k N) (neg : Bool) :
    ∃ ds dp, NormalDec ds dp ∧ (ds = [] ↔ N = 0) ∧ InInterval F n (decValue ds dp) ∧ (N ≠ 0 → FloatUnless F n ds dp ∧ FloatPicks F n ds dp) ∧
      ∀ {prec : ℤ} (_ : prec < 0) {fmt : Char} (_ : DigitFmt fmt), bigFtoa W prec fmt neg (BitVec.ofNat 64 N) ((k : ℤ) + 1 - F.bias) (infoOf F) =
        .ok (formatDigits true neg ⟨ds.map (· + 48), dp, false⟩ (shortPrec fmt ds.length dp) fmt) := by
  obtain ⟨d, d1, d2, d3, d4, d5⟩ := exact_shift hW hF h
  have hi1 : (infoOf F).mantbits = F.t := rfl
  have hsp : ∀ {prec : ℤ} {fmt : Char}, DigitFmt fmt → ∀ nd : ℕ, ∀ dp : ℤ, (if fmt = 'e' ∨ fmt = 'E' then (nd : ℤ) - 1 else if fmt = 'f' then max ((nd : ℤ) - dp) 0
      else if fmt = 'g' ∨ fmt = 'G' then (nd : ℤ) else prec) = shortPrec fmt nd dp := by
    intro prec fmt hfmt nd dp
    unfold shortPrec
    split_ifs with a b c
    · rfl
    · rfl
    · rfl
    · exfalso
      rcases hfmt with h | h | h | h | h
      · exact a (Or.inl h)
      · exact a (Or.inr h)
      · exact b h
      · exact c (Or.inl h)
      · exact c (Or.inr h)
  unfold bigFtoa
  simp only [hi1, d1, bind, Except.bind, pure, Except.pure]
  by_cases hN0 : N = 0
  · have hn0 := h.zero_iff.1 hN0
    have hdn : d.d = [] := by
      by_contra hc
      have := (decValue_pos d2 hc).1
      have hz : F.magc n = 0 := by rw [h.value, hN0]; simp
      rw [d4, hz] at this
      exact absurd this (not_le.2 (zpow_pos (by norm_num) _))
    refine ⟨d.d, d.dp, d2, by simp [hdn, hN0], by rw [d4]; exact inInterval_self n, fun hc => absurd hN0 hc, fun {prec} hp {fmt} hfmt => ?_⟩
    rw [if_pos hp]
    have hr : roundShortest W d (BitVec.ofNat 64 N) ((k : ℤ) + 1 - F.bias) (infoOf F) = .ok { d with d := [] } := by
      unfold roundShortest
      rw [if_pos (by rw [hN0]; rfl)]
      rfl
    simp only [hr, hdn, List.map_nil, DecimalSlice.nd, List.length_nil]
    rw [← hsp hfmt 0 d.dp]
  · obtain ⟨b, b1, b2, b3, b4, b5⟩ := roundShortest_ok hW hF h hN0 d2 d4
    obtain ⟨b', c1, c2⟩ := roundShortest_min hW hF h hN0 d2 d5 d4
    rw [b1] at c1
    cases c1
    refine ⟨b.d, b.dp, b2, by simp [b3, hN0], b4, fun _ => c2, fun {prec} hp {fmt} hfmt => ?_⟩
    rw [if_pos hp]
    simp only [b1, DecimalSlice.nd, List.length_map]
    rw [← hsp hfmt b.d.length b.dp]

/-- The number of digits asked for. -/
def askedDigits (fmt : Char) (dp prec : ℤ) : ℤ :=
  if fmt = 'e' ∨ fmt = 'E' then prec + 1 else if fmt = 'f' then dp + prec else max prec 1

/-- `bigFtoa` with a fixed precision. -/
theorem bigFtoa_fixed {W : ℕ} (hW : W = 32 ∨ W = 64) (hF : GoFormat F) (h : Split F n k N) {prec : ℤ} (hp : 0 ≤ prec) (neg : Bool)
    {fmt : Char} (hfmt : DigitFmt fmt) :
    ∃ d : Decimal, NormalDec d.d d.dp ∧ decValue d.d d.dp = F.magc n ∧ d.trunc = false ∧
      bigFtoa W prec fmt neg (BitVec.ofNat 64 N) ((k : ℤ) + 1 - F.bias) (infoOf F) =
        .ok (formatDigits false neg ⟨(d.round (askedDigits fmt d.dp prec)).d.map (· + 48), (d.round (askedDigits fmt d.dp prec)).dp, false⟩
          (if fmt = 'g' ∨ fmt = 'G' then max prec 1 else prec) fmt) := by
  obtain ⟨d, d1, d2, d3, d4, d5⟩ := exact_shift hW hF h
  refine ⟨d, d2, d4, d5, ?_⟩
  have hi1 : (infoOf F).mantbits = F.t := rfl
  unfold bigFtoa
  simp only [hi1, d1, bind, Except.bind, if_neg (not_lt.2 hp), pure, Except.pure]
  unfold askedDigits
  rcases hfmt with rfl | rfl | rfl | rfl | rfl
  · rfl
  · rfl
  · rfl
  · have : (if prec = 0 then 1 else prec) = max prec 1 := by split <;> omega
    simp [this]
  · have : (if prec = 0 then 1 else prec) = max prec 1 := by split <;> omega
    simp [this]

end GoFloat.Strconv
