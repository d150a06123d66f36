import Verif.Spec.Bits
import Verif.Proofs.Trunc
import Verif.Proofs.ToFloat
/-
`Add`, `Sub` and `Cmp` of the model of `math/big.Float`.
-/
namespace GoFloat
open Spec
namespace BigFloat

/-- `r` is `v ≠ 0` rounded to nearest even with the precision of `z`. -/
def RoundedTo (z : BigFloat) (v : ℚ) (r : BigFloat) : Prop :=
  r.prec = z.prec ∧ r.mode = z.mode ∧ r.WF ∧ r.form = .finite ∧ r.neg = decide (v < 0) ∧
  ∃ e : ℤ, (2 : ℚ) ^ (e - 1) ≤ |v| ∧ |v| < 2 ^ e ∧ r.mag = (rhe (|v| / 2 ^ (e - z.prec)) : ℤ) * (2 : ℚ) ^ (e - z.prec) ∧
    (r.exp = e ∨ r.exp = e + 1) ∧ r.acc = accOf r.neg r.mag |v|

theorem signed_abs {s : Bool} {m : ℚ} (h : 0 ≤ m) : |signed s m| = m := by
  unfold signed; split
  · rw [abs_neg, abs_of_nonneg h]
  · exact abs_of_nonneg h

theorem signed_neg_iff {s : Bool} {m : ℚ} (h : 0 < m) : signed s m < 0 ↔ s = true := by
  unfold signed; cases s <;> simp <;> linarith

theorem round_roundedTo {z : BigFloat} (hf : z.form = .finite) (hm : 0 < z.mant) (hp1 : 1 ≤ z.prec)
    (hp2 : z.prec ≤ MaxPrec) (hmode : z.mode = .toNearestEven) (h1 : MinExp ≤ z.exp) (h2 : z.exp < MaxExp) :
    RoundedTo z (signed z.neg z.mag) z.round := by
  obtain ⟨r1, r2, r3, r4, r5⟩ := round_nearest hf hm hp1 hmode
  have hmag := mag_pos hm
  rcases r5 with ⟨f1, f2, f3, f4, f5⟩ | ⟨-, -, h⟩
  · have hexp : z.round.exp = z.exp ∨ z.round.exp = z.exp + 1 := by
      rcases f4 with h | h
      · exact Or.inl h.1
      · exact Or.inr h.1
    refine ⟨r2, r3, ⟨by rw [r2]; exact hp2, fun _ => f2, fun _ => by omega, fun _ => by omega, fun _ => by rw [r2]; exact hp1,
      fun _ => by rw [r2]; exact f5⟩, f1, ?_, z.exp, ?_, ?_, ?_, hexp, ?_⟩
    · rw [r1, eq_comm, Bool.eq_iff_iff, decide_eq_true_eq]; exact signed_neg_iff hmag
    · rw [signed_abs hmag.le]; exact le_mag hm
    · rw [signed_abs hmag.le]; exact mag_lt z
    · rw [signed_abs hmag.le]; exact f3
    · rw [signed_abs hmag.le, r4, r1, f3]
  · omega

/-- Scaling a natural number to a `big.Float`. -/
theorem setExpAndRound_spec {z : BigFloat} {m : ℕ} (hm : 0 < m) {e : ℤ} (hp1 : 1 ≤ z.prec)
    (hp2 : z.prec ≤ MaxPrec) (hmode : z.mode = .toNearestEven) (hlo : (2 : ℚ) ^ MinExp ≤ m * 2 ^ e)
    (hhi : (m : ℚ) * 2 ^ e < 2 ^ (MaxExp - 1)) :
    RoundedTo z (signed z.neg (m * 2 ^ e)) (setExpAndRound { z with mant := m } (e + bitLen m)) := by
  set y : BigFloat := { z with mant := m, form := .finite, exp := e + bitLen m } with hy
  have hmag : y.mag = m * 2 ^ e := by
    rw [mag_eq]; simp only [hy]; congr 2; ring
  have hE1 : MinExp < y.exp := exp_gt_of_mag (by rw [hmag]; exact hlo)
  have hE2 : y.exp ≤ MaxExp - 1 := exp_lt_of_mag hm (by rw [hmag]; exact hhi)
  have hr : setExpAndRound { z with mant := m } (e + bitLen m) = y.round := by
    unfold setExpAndRound
    rw [if_neg (by simp only [hy] at hE1; omega), if_neg (by simp only [hy] at hE2; omega)]
  rw [hr, ← hmag]
  exact round_roundedTo (z := y) rfl hm hp1 hp2 hmode hE1.le (by omega)

/-- The aligned mantissas of `uadd` and `usub`. -/
theorem aligned {x y : BigFloat} :
    let ex : ℤ := x.exp - bitLen x.mant
    let ey : ℤ := y.exp - bitLen y.mant
    ((x.mant <<< (ex - min ex ey).toNat : ℕ) : ℚ) * 2 ^ min ex ey = x.mag ∧
    ((y.mant <<< (ey - min ex ey).toNat : ℕ) : ℚ) * 2 ^ min ex ey = y.mag := by
  intro ex ey
  constructor
  · rw [mag_eq, Nat.shiftLeft_eq, Nat.cast_mul, Nat.cast_pow, ← zpow_natCast, Nat.cast_ofNat, mul_assoc,
      ← zpow_add₀ (by norm_num), Int.toNat_of_nonneg (by omega), sub_add_cancel]
  · rw [mag_eq, Nat.shiftLeft_eq, Nat.cast_mul, Nat.cast_pow, ← zpow_natCast, Nat.cast_ofNat, mul_assoc,
      ← zpow_add₀ (by norm_num), Int.toNat_of_nonneg (by omega), sub_add_cancel]

theorem ucmp_spec {x y : BigFloat} (hx : 0 < x.mant) (hy : 0 < y.mant) :
    (ucmp x y = .lt ↔ x.mag < y.mag) ∧ (ucmp x y = .gt ↔ y.mag < x.mag) ∧ (ucmp x y = .eq ↔ x.mag = y.mag) := by
  unfold ucmp
  have key : ∀ {a b : BigFloat}, 0 < b.mant → a.exp < b.exp → a.mag < b.mag := by
    intro a b hb h
    refine (mag_lt a).trans_le (le_trans ?_ (le_mag hb))
    exact zpow_le_zpow_right₀ (by norm_num) (by omega)
  by_cases h1 : x.exp < y.exp
  · rw [if_pos h1]
    have := key hy h1
    simp [this, this.le, this.ne]
  · rw [if_neg h1]
    by_cases h2 : y.exp < x.exp
    · have := key hx h2
      rw [if_pos h2]
      simp [this, this.le, this.ne']
    · rw [if_neg h2]
      have he : x.exp = y.exp := by omega
      -- both magnitudes as multiples of one power of two
      have hpos : (0 : ℚ) < 2 ^ (x.exp - (max (bitLen x.mant) (bitLen y.mant) : ℕ)) := by positivity
      have hxm : x.mag = ((x.mant <<< (bitLen y.mant - bitLen x.mant) : ℕ) : ℚ) *
          2 ^ (x.exp - (max (bitLen x.mant) (bitLen y.mant) : ℕ)) := by
        rw [mag_eq, Nat.shiftLeft_eq, Nat.cast_mul, Nat.cast_pow, ← zpow_natCast, Nat.cast_ofNat, mul_assoc,
          ← zpow_add₀ (by norm_num)]
        congr 2; omega
      have hym : y.mag = ((y.mant <<< (bitLen x.mant - bitLen y.mant) : ℕ) : ℚ) *
          2 ^ (x.exp - (max (bitLen x.mant) (bitLen y.mant) : ℕ)) := by
        rw [mag_eq, Nat.shiftLeft_eq, Nat.cast_mul, Nat.cast_pow, ← zpow_natCast, Nat.cast_ofNat, mul_assoc,
          ← zpow_add₀ (by norm_num), he]
        congr 2; omega
      rw [hxm, hym, mul_lt_mul_iff_left₀ hpos, mul_lt_mul_iff_left₀ hpos, mul_left_inj' hpos.ne', Nat.cast_lt, Nat.cast_lt,
        Nat.cast_inj, compare_lt_iff_lt, compare_gt_iff_gt, compare_eq_iff_eq]
      exact ⟨Iff.rfl, Iff.rfl, Iff.rfl⟩

theorem uadd_spec {z x y : BigFloat} (hx : 0 < x.mant) (hp1 : 1 ≤ z.prec)
    (hp2 : z.prec ≤ MaxPrec) (hmode : z.mode = .toNearestEven) (hlo : (2 : ℚ) ^ MinExp ≤ x.mag + y.mag)
    (hhi : x.mag + y.mag < 2 ^ (MaxExp - 1)) :
    RoundedTo z (signed z.neg (x.mag + y.mag)) (uadd z x y) := by
  unfold uadd
  obtain ⟨h1, h2⟩ := aligned (x := x) (y := y)
  simp only at h1 h2 ⊢
  set ex : ℤ := x.exp - bitLen x.mant
  set ey : ℤ := y.exp - bitLen y.mant
  set m := x.mant <<< (ex - min ex ey).toNat + y.mant <<< (ey - min ex ey).toNat with hm
  have hsum : (m : ℚ) * 2 ^ min ex ey = x.mag + y.mag := by rw [← h1, ← h2, hm, Nat.cast_add, add_mul]
  have hm0 : 0 < m := by
    have : 0 < x.mant <<< (ex - min ex ey).toNat := by rw [Nat.shiftLeft_eq]; positivity
    rw [hm]; exact Nat.add_pos_left this _
  rw [← hsum]
  exact setExpAndRound_spec hm0 hp1 hp2 hmode (by rw [hsum]; exact hlo) (by rw [hsum]; exact hhi)

theorem usub_spec {z x y : BigFloat} (hp1 : 1 ≤ z.prec) (hle : y.mag ≤ x.mag)
    (hp2 : z.prec ≤ MaxPrec) (hmode : z.mode = .toNearestEven) (hlo : x.mag - y.mag ≠ 0 → (2 : ℚ) ^ MinExp ≤ x.mag - y.mag)
    (hhi : x.mag - y.mag < 2 ^ (MaxExp - 1)) :
    (x.mag - y.mag = 0 → usub z x y = { z with acc := .exact, form := .zero, neg := false, mant := z.mant }) ∧
    (x.mag - y.mag ≠ 0 → RoundedTo z (signed z.neg (x.mag - y.mag)) (usub z x y)) := by
  unfold usub
  obtain ⟨h1, h2⟩ := aligned (x := x) (y := y)
  simp only at h1 h2 ⊢
  set ex : ℤ := x.exp - bitLen x.mant
  set ey : ℤ := y.exp - bitLen y.mant
  have hpos : (0 : ℚ) < 2 ^ min ex ey := by positivity
  have hle' : y.mant <<< (ey - min ex ey).toNat ≤ x.mant <<< (ex - min ex ey).toNat := by
    rw [← h1, ← h2, mul_le_mul_iff_left₀ hpos] at hle; exact_mod_cast hle
  set m := x.mant <<< (ex - min ex ey).toNat - y.mant <<< (ey - min ex ey).toNat with hm
  have hsum : (m : ℚ) * 2 ^ min ex ey = x.mag - y.mag := by rw [← h1, ← h2, hm, Nat.cast_sub hle', sub_mul]
  constructor
  · intro h
    have : m = 0 := by
      rw [h] at hsum
      rcases mul_eq_zero.1 hsum with h | h
      · exact_mod_cast h
      · exact absurd h hpos.ne'
    rw [if_pos this]
  · intro h
    have hm0 : m ≠ 0 := by
      intro h0; rw [h0] at hsum; simp at hsum; exact h hsum.symm
    rw [if_neg hm0, ← hsum]
    exact setExpAndRound_spec (Nat.pos_of_ne_zero hm0) hp1 hp2 hmode (by rw [hsum]; exact hlo h) (by rw [hsum]; exact hhi)

theorem sval_zero {x : BigFloat} (h : x.form = .zero) : x.sval = 0 := by unfold sval; rw [h]; simp
theorem sval_finite {x : BigFloat} (h : x.form = .finite) : x.sval = signed x.neg x.mag := by unfold sval; rw [if_pos h]

theorem set_roundedTo {z x : BigFloat} (hx : x.WF) (hf : x.form = .finite) (hp1 : 1 ≤ z.prec)
    (hp2 : z.prec ≤ MaxPrec) (hmode : z.mode = .toNearestEven) (h2 : x.exp < MaxExp) :
    RoundedTo z (signed x.neg x.mag) (set z x) := by
  obtain ⟨r1, r2, r3, r4, r5⟩ := set_nearest hx hf hp1 hmode
  have hm := hx.mant_pos hf
  have hmag := mag_pos hm
  have hge := hx.exp_ge hf
  rcases r5 with ⟨f1, f2, f3, f4, f5⟩ | ⟨-, -, h⟩
  · have hexp : (set z x).exp = x.exp ∨ (set z x).exp = x.exp + 1 := by
      rcases f4 with h | h
      · exact Or.inl h.1
      · exact Or.inr h.1
    refine ⟨r2, r3, ⟨by rw [r2]; exact hp2, fun _ => f2, fun _ => by omega, fun _ => by omega, fun _ => by rw [r2]; exact hp1,
      fun _ => by rw [r2]; exact f5⟩, f1, ?_, x.exp, ?_, ?_, ?_, hexp, ?_⟩
    · rw [r1, eq_comm, Bool.eq_iff_iff, decide_eq_true_eq]; exact signed_neg_iff hmag
    · rw [signed_abs hmag.le]; exact le_mag hm
    · rw [signed_abs hmag.le]; exact mag_lt x
    · rw [signed_abs hmag.le]; exact f3
    · rw [signed_abs hmag.le, r4, r1, f3]
  · omega

/-- `z.Add(x, y)` with `z` in mode ToNearestEven: the rounded sum; an exact zero sum is negative only if both summands are. -/
theorem add_spec {z x y : BigFloat} (hx : x.WF) (hy : y.WF) (hxf : x.form ≠ .inf) (hyf : y.form ≠ .inf)
    (hp1 : 1 ≤ z.prec) (hp2 : z.prec ≤ MaxPrec) (hmode : z.mode = .toNearestEven)
    (hlo : x.form = .finite → y.form = .finite → x.sval + y.sval ≠ 0 → (2 : ℚ) ^ MinExp ≤ |x.sval + y.sval|) (hhi : |x.sval + y.sval| < 2 ^ (MaxExp - 1)) :
    ∃ r, z.add x y = .ok r ∧
      (x.sval + y.sval = 0 → r.form = .zero ∧ r.acc = .exact ∧ r.prec = z.prec ∧ r.mode = z.mode ∧ r.neg = (x.neg && y.neg)) ∧
      (x.sval + y.sval ≠ 0 → RoundedTo z (x.sval + y.sval) r) := by
  unfold add
  rw [if_neg (by omega)]
  have hexp : ∀ {a : BigFloat}, a.WF → a.form = .finite → |a.sval| < (2 : ℚ) ^ (MaxExp - 1) → a.exp < MaxExp := by
    intro a ha haf h
    rw [sval_finite haf, signed_abs (mag_pos (ha.mant_pos haf)).le] at h
    have := exp_lt_of_mag (ha.mant_pos haf) h
    omega
  have hne : ∀ {a : BigFloat}, a.WF → a.form = .finite → a.sval ≠ 0 := by
    intro a ha haf h
    have := mag_pos (ha.mant_pos haf)
    have h2 := signed_abs (s := a.neg) this.le
    rw [← sval_finite haf, h, abs_zero] at h2
    exact this.ne h2
  have hnorm : ∀ {r : BigFloat}, r.mode = .toNearestEven →
      (if r.form = .zero ∧ r.mode = .toNegativeInf ∧ r.acc = .exact then { r with neg := true } else r) = r := by
    intro r h; rw [if_neg]; rw [h]; simp
  cases hxf' : x.form with
  | inf => exact absurd hxf' hxf
  | zero =>
    rw [sval_zero hxf', zero_add] at *
    cases hyf' : y.form with
    | inf => exact absurd hyf' hyf
    | zero =>
      simp only
      refine ⟨_, rfl, fun _ => ⟨rfl, rfl, rfl, rfl, rfl⟩, fun h => absurd (sval_zero hyf') h⟩
    | finite =>
      simp only
      refine ⟨_, rfl, fun h => absurd h (hne hy hyf'), fun _ => ?_⟩
      rw [sval_finite hyf']
      exact set_roundedTo hy hyf' hp1 hp2 hmode (hexp hy hyf' hhi)
  | finite =>
    cases hyf' : y.form with
    | inf => exact absurd hyf' hyf
    | zero =>
      rw [sval_zero hyf', add_zero] at *
      simp only
      refine ⟨_, rfl, fun h => absurd h (hne hx hxf'), fun _ => ?_⟩
      rw [sval_finite hxf']
      exact set_roundedTo hx hxf' hp1 hp2 hmode (hexp hx hxf' hhi)
    | finite =>
      have hmx := mag_pos (hx.mant_pos hxf')
      have hmy := mag_pos (hy.mant_pos hyf')
      replace hlo := hlo hxf' hyf'
      rw [sval_finite hxf', sval_finite hyf'] at *
      simp only
      by_cases hs : x.neg = y.neg
      · rw [if_pos hs]
        have hsum : signed x.neg x.mag + signed y.neg y.mag = signed x.neg (x.mag + y.mag) := by
          rw [← hs]; unfold signed; split <;> ring
        have hne0 : signed x.neg (x.mag + y.mag) ≠ 0 := by
          intro h
          have := signed_abs (s := x.neg) (m := x.mag + y.mag) (by linarith)
          rw [h, abs_zero] at this; linarith
        rw [hsum] at hlo hhi ⊢
        rw [signed_abs (by linarith)] at hlo hhi
        have hu := uadd_spec (z := { z with neg := x.neg }) (y := y) (hx.mant_pos hxf') hp1 hp2 hmode (hlo hne0) hhi
        refine ⟨_, rfl, fun h => absurd h hne0, fun _ => ?_⟩
        rw [hnorm (by rw [hu.2.1]; exact hmode)]
        exact hu
      · rw [if_neg hs]
        have hyn : y.neg = !x.neg := by cases hh : x.neg <;> cases hh' : y.neg <;> simp_all
        have hsum1 : signed x.neg x.mag + signed y.neg y.mag = signed x.neg (x.mag - y.mag) := by
          rw [hyn]; unfold signed; cases x.neg <;> simp <;> ring
        have hsum2 : signed x.neg x.mag + signed y.neg y.mag = signed (!x.neg) (y.mag - x.mag) := by
          rw [hyn]; unfold signed; cases x.neg <;> simp <;> ring
        have hz : ∀ s m, signed s m = 0 ↔ m = 0 := by intro s m; unfold signed; split <;> simp
        have hxyn : (x.neg && y.neg) = false := by rw [hyn]; cases x.neg <;> rfl
        by_cases hc : ucmp x y = .gt
        · rw [if_pos hc]
          have hlt : y.mag < x.mag := (ucmp_spec (hx.mant_pos hxf') (hy.mant_pos hyf')).2.1.1 hc
          rw [hsum1] at hlo hhi ⊢
          have hne0 : x.mag - y.mag ≠ 0 := by intro h; linarith
          rw [signed_abs (by linarith)] at hlo hhi
          have hu := (usub_spec (z := { z with neg := x.neg }) hp1 hlt.le hp2 hmode (fun h => hlo (by rw [Ne, hz]; exact h)) hhi).2 hne0
          refine ⟨_, rfl, fun h => absurd ((hz _ _).1 h) hne0, fun _ => ?_⟩
          rw [hnorm (by rw [hu.2.1]; exact hmode)]
          exact hu
        · rw [if_neg hc]
          have hle : x.mag ≤ y.mag := by
            by_contra h; exact hc ((ucmp_spec (hx.mant_pos hxf') (hy.mant_pos hyf')).2.1.2 (not_le.1 h))
          rw [hsum2] at hlo hhi ⊢
          rw [signed_abs (by linarith)] at hlo hhi
          obtain ⟨u1, u2⟩ := usub_spec (z := { z with neg := !x.neg }) hp1 hle hp2 hmode (fun h => hlo (by rw [Ne, hz]; exact h)) hhi
          refine ⟨_, rfl, fun h => ?_, fun h => ?_⟩
          · have h0 := (hz _ _).1 h
            rw [hnorm (by rw [u1 h0]; exact hmode), u1 h0]
            exact ⟨rfl, rfl, rfl, rfl, hxyn.symm⟩
          · have h0 := fun h' => h ((hz _ _).2 h')
            rw [hnorm (by rw [(u2 h0).2.1]; exact hmode)]
            exact u2 h0

/-- `z.Sub(x, y)` for finite `x` is the addition of `-y`, unless `y` is an infinity of the same sign. -/
theorem sub_eq_add {z x y : BigFloat} (hxf : x.form = .finite) (hyf : y.form ≠ .inf) : z.sub x y = z.add x y.negSelf := by
  unfold sub add
  have h1 : y.negSelf.form = y.form := rfl
  have h2 : y.negSelf.prec = y.prec := rfl
  have h3 : ∀ z' : BigFloat, uadd z' x y.negSelf = uadd z' x y := fun _ => rfl
  have h4 : ∀ z' : BigFloat, usub z' x y.negSelf = usub z' x y := fun _ => rfl
  have h5 : ∀ z' : BigFloat, usub z' y.negSelf x = usub z' y x := fun _ => rfl
  have h6 : ucmp x y.negSelf = ucmp x y := rfl
  have h7 : (x.neg = y.negSelf.neg) ↔ (x.neg ≠ y.neg) := by
    show x.neg = !y.neg ↔ _; cases x.neg <;> cases y.neg <;> simp
  simp only [h1, h2, h3, h4, h5, h6, h7]
  rw [hxf]
  cases hy : y.form with
  | inf => exact absurd hy hyf
  | zero => rfl
  | finite => rfl

theorem negSelf_wf {x : BigFloat} (hx : x.WF) : x.negSelf.WF := hx.withSign _

theorem sval_negSelf (x : BigFloat) : x.negSelf.sval = - x.sval := by
  unfold sval
  have h1 : x.negSelf.form = x.form := rfl
  have h2 : x.negSelf.mag = x.mag := rfl
  have h3 : x.negSelf.neg = !x.neg := rfl
  rw [h1, h2, h3]
  split
  · unfold signed; cases x.neg <;> simp
  · simp

/-- `x.Cmp(y)` compares the values. -/
theorem cmp_spec {x y : BigFloat} (hx : x.WF) (hy : y.WF) (hxf : x.form ≠ .inf) (hyf : y.form ≠ .inf) :
    (cmp x y = .lt ↔ x.sval < y.sval) ∧ (cmp x y = .gt ↔ y.sval < x.sval) ∧ (cmp x y = .eq ↔ x.sval = y.sval) := by
  have hpos : ∀ {a : BigFloat}, a.WF → a.form = .finite → 0 < a.mag := fun ha haf => mag_pos (ha.mant_pos haf)
  unfold cmp
  cases hxf' : x.form with
  | inf => exact absurd hxf' hxf
  | zero =>
    have hox : x.ord = 0 := by unfold ord; rw [hxf']
    rw [sval_zero hxf', hox]
    cases hyf' : y.form with
    | inf => exact absurd hyf' hyf
    | zero =>
      have hoy : y.ord = 0 := by unfold ord; rw [hyf']
      rw [sval_zero hyf', hoy]; simp
    | finite =>
      have hm := hpos hy hyf'
      have hoy : y.ord = if y.neg then -1 else 1 := by unfold ord; rw [hyf']
      rw [sval_finite hyf', hoy]
      unfold signed
      cases y.neg
      · simp [hm, hm.le, hm.ne]
      · simp [hm, hm.le, hm.ne']
  | finite =>
    have hmx := hpos hx hxf'
    have hox : x.ord = if x.neg then -1 else 1 := by unfold ord; rw [hxf']
    rw [sval_finite hxf', hox]
    cases hyf' : y.form with
    | inf => exact absurd hyf' hyf
    | zero =>
      have hoy : y.ord = 0 := by unfold ord; rw [hyf']
      rw [sval_zero hyf', hoy]
      unfold signed
      cases x.neg
      · simp [hmx, hmx.le, hmx.ne']
      · simp [hmx, hmx.le, hmx.ne']
    | finite =>
      have hmy := hpos hy hyf'
      have hoy : y.ord = if y.neg then -1 else 1 := by unfold ord; rw [hyf']
      rw [sval_finite hyf', hoy]
      have hu := ucmp_spec (hx.mant_pos hxf') (hy.mant_pos hyf')
      have hu' := ucmp_spec (hy.mant_pos hyf') (hx.mant_pos hxf')
      unfold signed
      have p1 : -x.mag < y.mag := by linarith
      have p2 : -y.mag < x.mag := by linarith
      cases x.neg <;> cases y.neg
      · simpa using hu
      · simp [p2, p2.le, p2.ne']
      · simp [p1, p1.le, p1.ne]
      · simp only [if_true, neg_lt_neg_iff, neg_inj]
        refine ⟨?_, ?_, ?_⟩
        · simpa using hu'.1
        · simpa using hu'.2.1
        · simpa [eq_comm] using hu'.2.2

/-- The result of rounding meets the specification of rounding to `p` bits. -/
theorem RoundedTo.spec {z r : BigFloat} {v : ℚ} (hp : 1 ≤ z.prec) (h : RoundedTo z v r) :
    RoundsToBits z.prec v r.sval := by
  obtain ⟨h1, h2, hwf, hf, hneg, e, he1, he2, hmag, -, -⟩ := h
  set p := z.prec with hpz
  set q : ℤ := e - p with hq
  set N : ℤ := rhe (|v| / 2 ^ q) with hN
  have hq0 : (0 : ℚ) < 2 ^ q := by positivity
  have hNpos : 0 < N := by
    have := mag_pos (hwf.mant_pos hf)
    rw [hmag] at this
    have h3 : (0 : ℚ) < N := by
      by_contra hc; push Not at hc
      have := mul_nonpos_of_nonpos_of_nonneg hc hq0.le
      linarith
    exact_mod_cast h3
  have hNle : N ≤ 2 ^ p := by
    apply rhe_le_of_le
    rw [div_le_iff₀ hq0]
    push_cast
    rw [← zpow_natCast, ← zpow_add₀ (by norm_num), show (p : ℤ) + q = e by omega]
    exact he2.le
  have hge : (2 : ℚ) ^ (p - 1) * 2 ^ q ≤ |v| := by
    rw [← zpow_natCast, ← zpow_add₀ (by norm_num), show ((p - 1 : ℕ) : ℤ) + q = e - 1 by omega]
    exact he1
  have hNge : 2 ^ (p - 1) ≤ N := by
    apply le_rhe_of_le
    rw [le_div_iff₀ hq0]; push_cast; exact hge
  -- the sign
  set σ : ℤ := if v < 0 then -1 else 1 with hσ
  have hσv : v = σ * |v| := by
    by_cases h : v < 0
    · rw [hσ, if_pos h, abs_of_neg h]; push_cast; ring
    · rw [hσ, if_neg h, abs_of_nonneg (not_lt.1 h)]; push_cast; ring
  have hσ1 : |(σ : ℚ)| = 1 := by rw [hσ]; split <;> norm_num
  have hσσ : (σ : ℚ) * σ = 1 := by rw [hσ]; split <;> norm_num
  have hσσ' : σ * σ = 1 := by rw [hσ]; split <;> norm_num
  have hr : r.sval = σ * (N * 2 ^ q) := by
    rw [sval_finite hf, hneg, hmag, hσ]
    unfold signed
    by_cases h : v < 0 <;> simp [h]
  have hdist : ∀ y : ℚ, |v - y| = |(|v|) - σ * y| := by
    intro y
    have : v - y = σ * (|v| - σ * y) := by rw [mul_sub, ← mul_assoc, hσσ, one_mul, ← hσv]
    rw [this, abs_mul, hσ1, one_mul]
  have hdr : |v - r.sval| = |(|v|) - N * 2 ^ q| := by rw [hdist, hr, ← mul_assoc, hσσ, one_mul]
  have hscale : ∀ n : ℤ, |(|v|) - n * 2 ^ q| = |(|v| / 2 ^ q) - n| * 2 ^ q := by
    intro n
    rw [← abs_of_pos hq0, ← abs_mul, sub_mul, abs_of_pos hq0, div_mul_cancel₀ _ hq0.ne']
  -- compare with any p-bit number
  have hcmp : ∀ k e' : ℤ, |k| < 2 ^ p → (∃ n : ℤ, σ * (k * (2 : ℚ) ^ e') = n * 2 ^ q) ∨ |v - r.sval| < |v - k * 2 ^ e'| := by
    intro k e' hk
    by_cases hee : q ≤ e'
    · left
      refine ⟨σ * k * 2 ^ (e' - q).toNat, ?_⟩
      push_cast
      rw [← zpow_natCast, Int.toNat_of_nonneg (by omega), mul_assoc (_ * _) _ _, ← zpow_add₀ (by norm_num), sub_add_cancel, mul_assoc]
    · right
      rw [hdr, hdist]
      have hsmall : σ * (k * (2 : ℚ) ^ e') < 2 ^ (p - 1) * 2 ^ q := by
        have hk' : |(k : ℚ)| < 2 ^ p := by exact_mod_cast hk
        have he0 : (0 : ℚ) < 2 ^ e' := by positivity
        calc σ * (k * (2 : ℚ) ^ e') ≤ |σ * (k * (2 : ℚ) ^ e')| := le_abs_self _
          _ = |(k : ℚ)| * 2 ^ e' := by rw [abs_mul, hσ1, one_mul, abs_mul, abs_of_pos he0]
          _ < 2 ^ p * 2 ^ e' := mul_lt_mul_of_pos_right hk' he0
          _ ≤ 2 ^ (p - 1) * 2 ^ q := by
            rw [← zpow_natCast, ← zpow_natCast, ← zpow_add₀ (by norm_num), ← zpow_add₀ (by norm_num)]
            exact zpow_le_zpow_right₀ (by norm_num) (by omega)
      have h3 := abs_sub_rhe_le (|v| / 2 ^ q) (2 ^ (p - 1))
      rw [← hN] at h3
      have h4 := mul_le_mul_of_nonneg_right h3 hq0.le
      rw [← hscale, ← hscale] at h4
      refine lt_of_le_of_lt h4 ?_
      push_cast
      generalize |v| = w at hge ⊢
      rw [abs_of_nonneg (by linarith : 0 ≤ w - 2 ^ (p - 1) * 2 ^ q), abs_of_pos (by linarith : 0 < w - _)]
      linarith
  refine ⟨?_, ?_, ?_⟩
  · by_cases hN2 : N < 2 ^ p
    · refine ⟨σ * N, q, ?_, by rw [hr]; push_cast; ring⟩
      rw [abs_mul, abs_of_pos hNpos, show |σ| = 1 by rw [hσ]; split <;> norm_num, one_mul]; exact hN2
    · have hN3 : N = 2 ^ p := by omega
      refine ⟨σ, q + p, ?_, ?_⟩
      · rw [show |σ| = 1 by rw [hσ]; split <;> norm_num]
        exact_mod_cast Nat.one_lt_two_pow (by omega)
      · rw [hr, hN3, zpow_add₀ (by norm_num)]; push_cast; rw [zpow_natCast, mul_comm ((2 : ℚ) ^ p)]
  · intro k e' hk
    rcases hcmp k e' hk with ⟨n, hn⟩ | h
    · rw [hdr, hdist (k * 2 ^ e'), hn, hscale, hscale]
      exact mul_le_mul_of_nonneg_right (abs_sub_rhe_le _ _) hq0.le
    · exact h.le
  · intro k e' hk hne heq q' hq1 hq2
    have hqq : q' = q := by
      have a1 : (2 : ℚ) ^ (((p - 1 : ℕ) : ℤ) + q') < 2 ^ (p + q) := by
        rw [zpow_add₀ (by norm_num), zpow_natCast, show (p : ℤ) + q = e by omega]; exact hq1.trans_lt he2
      have a2 : (2 : ℚ) ^ (((p - 1 : ℕ) : ℤ) + q) < 2 ^ (p + q') := by
        rw [zpow_add₀ (by norm_num), zpow_natCast, zpow_add₀ (by norm_num) _ q', zpow_natCast]; exact hge.trans_lt hq2
      have b1 := (zpow_lt_zpow_iff_right₀ (by norm_num : (1 : ℚ) < 2)).1 a1
      have b2 := (zpow_lt_zpow_iff_right₀ (by norm_num : (1 : ℚ) < 2)).1 a2
      omega
    rw [hqq]
    rcases hcmp k e' hk with ⟨n, hn⟩ | h
    · have hnN : n ≠ N := by
        intro h
        apply hne
        rw [hr, ← h, ← hn, ← mul_assoc, hσσ, one_mul]
      rw [hdr, hdist (k * 2 ^ e'), hn, hscale, hscale] at heq
      have heven := rhe_even_of_tie hnN (mul_right_cancel₀ hq0.ne' heq)
      rw [← hN] at heven
      refine ⟨σ * (N / 2), ?_⟩
      rw [hr]
      have : (N : ℚ) = 2 * ((N / 2 : ℤ) : ℚ) := by exact_mod_cast (by omega : N = 2 * (N / 2))
      rw [this]; push_cast; ring
    · exact absurd heq h.ne

end BigFloat
end GoFloat
