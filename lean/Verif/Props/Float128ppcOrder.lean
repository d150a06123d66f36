import Verif.Spec.Sum
import Verif.Props.Float128ppcModes
import Verif.Props.Monotone
import Verif.Props.Negate
import Verif.Props.Value
import Verif.Proofs.DoubleRound
/-
C70: order and negation of double-doubles.
-/
namespace GoFloat.Float128ppc
open Spec

/-- The exact sum of the halves of a double-double. -/
def Float.sum (f : Float) : Option Datum := (double.decode f.high.toNat).sum (double.decode f.low.toNat)

theorem signed_parts (v : ℚ) (s : Bool) : signed (if v = 0 then s else decide (v < 0)) |v| = v := by
  unfold signed
  by_cases h0 : v = 0
  · simp [h0]
  · rw [if_neg h0]
    rcases lt_or_gt_of_ne h0 with h | h
    · simp [h, abs_of_neg h]
    · simp [not_lt.2 h.le, abs_of_pos h]

/-- What `Big` returns for a pair that has a sum. -/
theorem big_sum {f : Float} {a : Datum} (h : f.sum = some a) : ∃ x, f.big = .ok (x, false) ∧ x.WF ∧
    (match a with
      | .nan _ => False
      | .inf s => x.datum = .inf s ∧ x.acc = .exact
      | .num s m => ∃ r, x.datum = .num s r ∧ RoundsToBits 106 (signed s m) (signed s r) ∧ AccuracyOf x.acc (signed s r) (signed s m)) := by
  unfold Float.sum at h
  have nn : ∀ y : F64, (∀ s, double.decode y.toNat ≠ .nan s) → F64.isNaN y = false := by
    intro y hy
    rw [Bool.eq_false_iff]; intro hc; obtain ⟨s, hs⟩ := (isNaN64_iff y).1 hc; exact hy s hs
  have hinf : ∀ s, (double.decode f.high.toNat = .inf s ∨ double.decode f.low.toNat = .inf s) →
      (∀ s, double.decode f.high.toNat ≠ .nan s) → (∀ s, double.decode f.low.toNat ≠ .nan s) →
      double.decode f.high.toNat ≠ .inf (!s) → double.decode f.low.toNat ≠ .inf (!s) →
      ∃ x, f.big = .ok (x, false) ∧ x.WF ∧ x.datum = .inf s ∧ x.acc = .exact := by
    intro s h1 h2 h3 h4 h5
    obtain ⟨x, e1, e2, e3, e4, e5, e6⟩ := (big_infinite (nn _ h2) (nn _ h3) h1).1 h4 h5
    exact ⟨x, e1, e6, e2, e4⟩
  cases h1 : double.decode f.high.toNat with
  | nan s => rw [h1] at h; simp [Datum.sum] at h
  | inf s =>
    cases h2 : double.decode f.low.toNat with
    | nan s => rw [h1, h2] at h; simp [Datum.sum] at h
    | inf s' =>
      rw [h1, h2] at h
      simp only [Datum.sum] at h
      split at h
      · rename_i hs
        simp only [Option.some.injEq] at h
        subst h hs
        exact hinf s (Or.inl h1) (by rw [h1]; simp) (by rw [h2]; simp) (by rw [h1]; simp) (by rw [h2]; simp)
      · simp at h
    | num s' m' =>
      rw [h1, h2] at h
      simp only [Datum.sum, Option.some.injEq] at h
      subst h
      exact hinf s (Or.inl h1) (by rw [h1]; simp) (by rw [h2]; simp) (by rw [h1]; simp) (by rw [h2]; simp)
  | num s₁ m₁ =>
    cases h2 : double.decode f.low.toNat with
    | nan s => rw [h1, h2] at h; simp [Datum.sum] at h
    | inf s =>
      rw [h1, h2] at h
      simp only [Datum.sum, Option.some.injEq] at h
      subst h
      exact hinf s (Or.inr h2) (by rw [h1]; simp) (by rw [h2]; simp) (by rw [h1]; simp) (by rw [h2]; simp)
    | num s₂ m₂ =>
      rw [h1, h2] at h
      simp only [Datum.sum, Option.some.injEq] at h
      subst h
      obtain ⟨x, nan, hb, hs⟩ := C27_partial f (by intro s; rw [h1]; simp)
      rw [h1, h2] at hs
      obtain ⟨rfl, -, -, hwf, s, m, hd, hr, ha, hz, hnz⟩ := hs
      refine ⟨x, hb, hwf, m, ?_⟩
      have hse : s = (if signed s₁ m₁ + signed s₂ m₂ = 0 then s₁ else decide (signed s₁ m₁ + signed s₂ m₂ < 0)) := by
        split
        · rename_i h; exact hz h
        · rename_i h; exact hnz h
      rw [signed_parts, ← hse]
      exact ⟨hd, hr, ha⟩

/-- Rounding to 106 bits of ordered numbers. -/
theorem rounds_le {v w r r' : ℚ} (h : v ≤ w) (hr : RoundsToBits 106 v r) (hr' : RoundsToBits 106 w r') : r ≤ r' := by
  rcases lt_or_eq_of_le h with h | rfl
  · exact roundsToBits_mono hr hr' h
  · by_cases h0 : v = 0
    · subst h0
      have e : ∀ {r : ℚ}, RoundsToBits 106 0 r → r = 0 := by
        intro r hr
        have := hr.2.1 0 0 (by norm_num)
        simpa using this
      rw [e hr, e hr']
    · exact (RoundsToBits.unique (by norm_num) h0 hr hr').le

/-- C70: `Big` is monotone: of two double-doubles, the one with the smaller exact sum is not the greater number. -/
theorem C70_float128ppc_big {f g : Float} {a b : Datum} (ha : f.sum = some a) (hb : g.sum = some b) (h : a.Le b) :
    ∃ x y, f.big = .ok (x, false) ∧ g.big = .ok (y, false) ∧ x.datum.Le y.datum := by
  obtain ⟨x, hx, -, hxd⟩ := big_sum ha
  obtain ⟨y, hy, -, hyd⟩ := big_sum hb
  refine ⟨x, y, hx, hy, ?_⟩
  cases a with
  | nan s => exact absurd hxd (by simp)
  | inf s =>
    cases b with
    | nan s => exact absurd hyd (by simp)
    | inf s' => rw [hxd.1, hyd.1]; exact h
    | num s' m' =>
      obtain ⟨r, hr, -⟩ := hyd
      cases s
      · exact absurd h not_inf_le
      · rw [hxd.1, hr]; exact negInf_le (by simp)
  | num s m =>
    obtain ⟨r, hr, hrr, -⟩ := hxd
    cases b with
    | nan s => exact absurd hyd (by simp)
    | inf s' =>
      cases s'
      · rw [hr, hyd.1]; exact le_inf (by simp)
      · exact absurd h not_le_negInf
    | num s' m' =>
      obtain ⟨r', hr', hrr', -⟩ := hyd
      rw [hr, hr', le_num]
      exact rounds_le (le_num.1 h) hrr hrr'

theorem converts {x : BigFloat} (hx : x.WF) (h : ∀ s, x.datum ≠ .nan s) :
    Converts64 x.datum (toF64 x false).1 (toF64 x false).2 ∧ Converts32 x.datum (toF32 x false).1 (toF32 x false).2 := by
  cases hd : x.datum with
  | nan s => exact absurd hd (h s)
  | inf s =>
    have hdec : Decoded (.inf s) x false := ⟨rfl, hd⟩
    obtain ⟨-, a, -, b⟩ := toF64_spec hx hdec
    obtain ⟨-, a', -, b'⟩ := toF32_spec hx hdec
    refine ⟨⟨a s rfl, ?_⟩, ⟨a' s rfl, ?_⟩⟩
    · have := b (by simp)
      rw [a s rfl] at this
      exact accuracy_unique this ⟨_, _, rfl, rfl, rfl⟩
    · have := b' (by simp)
      rw [a' s rfl] at this
      exact accuracy_unique this ⟨_, _, rfl, rfl, rfl⟩
  | num s m =>
    have hdec : Decoded (.num s m) x false := ⟨rfl, hd⟩
    obtain ⟨-, -, a, b⟩ := toF64_spec hx hdec
    obtain ⟨-, -, a', b'⟩ := toF32_spec hx hdec
    exact ⟨⟨a s m rfl, b (by simp)⟩, ⟨a' s m rfl, b' (by simp)⟩⟩

theorem datum_not_nan (x : BigFloat) (s : Bool) : x.datum ≠ .nan s := by
  unfold BigFloat.datum; cases x.form <;> simp

/-- C70: `Float64` and `Float32` are monotone. -/
theorem C70_float128ppc_float {f g : Float} {a b : Datum} (ha : f.sum = some a) (hb : g.sum = some b) (h : a.Le b) :
    (∃ r acc r' acc', f.float64 = .ok (r, acc) ∧ g.float64 = .ok (r', acc') ∧ (double.decode r.toNat).Le (double.decode r'.toNat)) ∧
    (∃ r acc r' acc', f.float32 = .ok (r, acc) ∧ g.float32 = .ok (r', acc') ∧ (single.decode r.toNat).Le (single.decode r'.toNat)) := by
  obtain ⟨x, y, hx, hy, hle⟩ := C70_float128ppc_big ha hb h
  obtain ⟨x', hx', wx, -⟩ := big_sum ha
  obtain ⟨y', hy', wy, -⟩ := big_sum hb
  rw [hx] at hx'
  rw [hy] at hy'
  simp only [Except.ok.injEq, Prod.mk.injEq, and_true] at hx' hy'
  subst hx' hy'
  obtain ⟨c1, c2⟩ := converts wx (datum_not_nan x)
  obtain ⟨d1, d2⟩ := converts wy (datum_not_nan y)
  exact ⟨⟨_, _, _, _, float64_of_big hx, float64_of_big hy,
      converts64_mono hle (fun _ _ => Binary16.datum_nonneg) (fun _ _ => Binary16.datum_nonneg) c1 d1⟩,
    ⟨_, _, _, _, float32_of_big hx, float32_of_big hy,
      converts32_mono hle (fun _ _ => Binary16.datum_nonneg) (fun _ _ => Binary16.datum_nonneg) c2 d2⟩⟩

/-- Both halves have the opposite value. -/
def Negated (f g : Float) : Prop :=
  double.decode g.high.toNat = (double.decode f.high.toNat).neg ∧ double.decode g.low.toNat = (double.decode f.low.toNat).neg

theorem Negated.sum {f g : Float} (h : Negated f g) : g.sum = f.sum.map Datum.neg := by
  unfold Float.sum
  rw [h.1, h.2]
  cases double.decode f.high.toNat with
  | nan s => simp [Datum.sum, Datum.neg]
  | inf s =>
    cases double.decode f.low.toNat with
    | nan s => simp [Datum.sum, Datum.neg]
    | inf s' => simp only [Datum.sum, Datum.neg]; cases s <;> cases s' <;> simp [Datum.neg]
    | num s' m' => simp [Datum.sum, Datum.neg]
  | num s m =>
    cases double.decode f.low.toNat with
    | nan s => simp [Datum.sum, Datum.neg]
    | inf s' => simp [Datum.sum, Datum.neg]
    | num s' m' =>
      have hs : ∀ (s : Bool) (m : ℚ), signed (!s) m = - signed s m := fun s m => by unfold signed; cases s <;> simp
      simp only [Datum.sum, Datum.neg, Option.map_some, hs, ← neg_add, abs_neg, neg_eq_zero]
      congr 2
      split
      · rfl
      · rename_i h0
        rcases lt_or_gt_of_ne h0 with h | h
        · rw [decide_eq_true h, decide_eq_false (by linarith)]; rfl
        · rw [decide_eq_false (not_lt.2 h.le), decide_eq_true (by linarith)]; rfl

/-- C70: negating both halves negates `Big`, `Float64` and `Float32` of a pair that has a sum, a zero sum included, and turns the
accuracies around. -/
theorem C70_float128ppc_negate {f g : Float} (h : Negated f g) {a : Datum} (ha : f.sum = some a) :
    (∃ x y, f.big = .ok (x, false) ∧ g.big = .ok (y, false) ∧ y.datum = x.datum.neg ∧ y.acc = flipAccuracy x.acc) ∧
    (∃ r r' acc, f.float64 = .ok (r, acc) ∧ g.float64 = .ok (r', flipAccuracy acc) ∧
      double.decode r'.toNat = (double.decode r.toNat).neg) ∧
    (∃ r r' acc, f.float32 = .ok (r, acc) ∧ g.float32 = .ok (r', flipAccuracy acc) ∧
      single.decode r'.toNat = (single.decode r.toNat).neg) := by
  have hb : g.sum = some a.neg := by rw [h.sum, ha]; rfl
  obtain ⟨x, hx, wx, hxd⟩ := big_sum ha
  obtain ⟨y, hy, wy, hyd⟩ := big_sum hb
  have hd : y.datum = x.datum.neg ∧ y.acc = flipAccuracy x.acc := by
    cases a with
    | nan s => exact absurd hxd (by simp)
    | inf s => exact ⟨by rw [hxd.1, hyd.1]; rfl, by rw [hxd.2, hyd.2]; rfl⟩
    | num s m =>
      obtain ⟨r, hr, hrr, hac⟩ := hxd
      obtain ⟨r', hr', hrr', hac'⟩ := hyd
      have e : r = r' := by
        have h1 := roundsToBits_mag hrr
        have h2 := roundsToBits_mag hrr'
        exact le_antisymm (rounds_le le_rfl h1 h2) (rounds_le le_rfl h2 h1)
      subst e
      refine ⟨by rw [hr, hr']; rfl, ?_⟩
      have hs : ∀ (s : Bool) (m : ℚ), signed (!s) m = - signed s m := fun s m => by unfold signed; cases s <;> simp
      rw [hs, hs] at hac'
      unfold AccuracyOf at hac hac'
      cases h1 : x.acc <;> cases h2 : y.acc <;> rw [h1] at hac <;> rw [h2] at hac' <;> simp only at hac hac' <;>
        first | rfl | (exfalso; linarith)
  obtain ⟨c1, c2⟩ := converts wx (datum_not_nan x)
  obtain ⟨d1, d2⟩ := converts wy (datum_not_nan y)
  rw [hd.1] at d1 d2
  obtain ⟨e1, e2⟩ := converts64_neg c1 d1
  obtain ⟨e3, e4⟩ := converts32_neg c2 d2
  refine ⟨⟨x, y, hx, hy, hd⟩, ⟨(toF64 x false).1, (toF64 y false).1, (toF64 x false).2, float64_of_big hx, ?_, e1⟩,
    ⟨(toF32 x false).1, (toF32 y false).1, (toF32 x false).2, float32_of_big hx, ?_, e3⟩⟩
  · rw [float64_of_big hy, ← e2]
  · rw [float32_of_big hy, ← e4]

/-- C70: for a pair without a sum, `Big` of the pair and of its negation both report a NaN or both panic. -/
theorem C70_float128ppc_nosum {f g : Float} (h : Negated f g) (hn : f.sum = none) :
    (∃ x y, f.big = .ok (x, true) ∧ g.big = .ok (y, true)) ∨ (f.big = .error .errNaN ∧ g.big = .error .errNaN) := by
  have hnan : ∀ f : Float, ((∃ s, double.decode f.high.toNat = .nan s) ∨ (∃ s, double.decode f.low.toNat = .nan s)) → ∃ x, f.big = .ok (x, true) :=
    fun f => (C27_float128ppc_nan f).2
  by_cases h0 : (∃ s, double.decode f.high.toNat = .nan s) ∨ (∃ s, double.decode f.low.toNat = .nan s)
  · left
    obtain ⟨x, hx⟩ := hnan f h0
    obtain ⟨y, hy⟩ := hnan g (by
      rcases h0 with ⟨s, hs⟩ | ⟨s, hs⟩
      · exact Or.inl ⟨_, by rw [h.1, hs]; rfl⟩
      · exact Or.inr ⟨_, by rw [h.2, hs]; rfl⟩)
    exact ⟨x, y, hx, hy⟩
  · right
    rw [not_or, not_exists, not_exists] at h0
    have nn : ∀ y : F64, (∀ s, double.decode y.toNat ≠ .nan s) → F64.isNaN y = false := by
      intro y hy
      rw [Bool.eq_false_iff]; intro hc; obtain ⟨s, hs⟩ := (isNaN64_iff y).1 hc; exact hy s hs
    have key : ∀ f : Float, ∀ s, double.decode f.high.toNat = .inf s → double.decode f.low.toNat = .inf (!s) → f.big = .error .errNaN := by
      intro f s h1 h2
      exact (big_infinite (nn _ (by rw [h1]; simp)) (nn _ (by rw [h2]; simp)) (Or.inl h1)).2 (Or.inr h2)
    have : ∃ s, double.decode f.high.toNat = .inf s ∧ double.decode f.low.toNat = .inf (!s) := by
      unfold Float.sum at hn
      cases h1 : double.decode f.high.toNat with
      | nan s => exact absurd h1 (h0.1 s)
      | inf s =>
        cases h2 : double.decode f.low.toNat with
        | nan s => exact absurd h2 (h0.2 s)
        | inf s' =>
          rw [h1, h2] at hn
          refine ⟨s, rfl, ?_⟩
          cases s <;> cases s' <;> simp [Datum.sum] at hn ⊢
        | num s' m' => rw [h1, h2] at hn; simp [Datum.sum] at hn
      | num s m =>
        cases h2 : double.decode f.low.toNat with
        | nan s => exact absurd h2 (h0.2 s)
        | inf s' => rw [h1, h2] at hn; simp [Datum.sum] at hn
        | num s' m' => rw [h1, h2] at hn; simp [Datum.sum] at hn
    obtain ⟨s, h1, h2⟩ := this
    exact ⟨key f s h1 h2, key g (!s) (by rw [h.1, h1]; rfl) (by rw [h.2, h2]; rfl)⟩

/-! ### NewFromBig -/

theorem rat_round (a : ℚ) {u : ℚ} (hu : 0 < u) : ∃ K : ℤ, |a - K * u| ≤ u / 2 ∧ ∀ N : ℕ, |a| ≤ N * u → |K| ≤ N := by
  refine ⟨round (a / u), ?_, fun N hN => ?_⟩
  · have h := abs_sub_round (a / u)
    have e : a - round (a / u) * u = (a / u - round (a / u)) * u := by field_simp
    rw [e, abs_mul, abs_of_pos hu]
    nlinarith
  · have h := abs_le.1 (abs_sub_round (a / u))
    have hd : |a / u| ≤ N := by rw [abs_div, abs_of_pos hu, div_le_iff₀ hu]; exact hN
    have hd' := abs_le.1 hd
    rw [abs_le]
    constructor
    · have : (-(N : ℤ) : ℚ) - 1 / 2 ≤ round (a / u) := by push_cast; linarith
      have : (-(N : ℤ) - 1 : ℤ) < round (a / u) := by
        have h2 : ((-(N : ℤ) - 1 : ℤ) : ℚ) < round (a / u) := by push_cast at this ⊢; linarith
        exact_mod_cast h2
      omega
    · have : (round (a / u) : ℚ) ≤ N + 1 / 2 := by linarith
      have : round (a / u) < (N : ℤ) + 1 := by
        have h2 : (round (a / u) : ℚ) < ((N : ℤ) + 1 : ℤ) := by push_cast; linarith
        exact_mod_cast h2
      omega

/-- Multiples of `2^q` below `2^53` of them are doubles. -/
theorem double_of_int {K : ℤ} (hK : |K| ≤ 2 ^ 52) {q : ℤ} (hq : -1074 ≤ q) (hq' : q ≤ 0) :
    ∃ c s m, double.decode c = .num s m ∧ signed s m = K * (2 : ℚ) ^ q := by
  have d1 := double_facts.1
  have d2 := double_facts.2.1
  have d3 := double_facts.2.2.1
  have hn : K.natAbs ≤ 2 ^ 52 := by rw [Int.abs_eq_natAbs] at hK; exact_mod_cast hK
  obtain ⟨c, hc⟩ := signed_rep (F := double) (by decide) (N := K.natAbs) (q := q) (by rw [d3]; omega) (by rw [d1]; exact hq) (by
    have h1 : (K.natAbs : ℚ) ≤ 2 ^ (52 : ℤ) := by
      rw [show (2 : ℚ) ^ (52 : ℤ) = ((2 ^ 52 : ℕ) : ℚ) by norm_num]; exact_mod_cast hn
    have h2 : (2 : ℚ) ^ q ≤ 1 := zpow_le_one_of_nonpos₀ (by norm_num) hq'
    have h3 : (2 : ℚ) ^ (52 : ℤ) < 2 ^ (double.bias + 1) := zpow_lt_zpow_right₀ (by norm_num) (by rw [d2]; norm_num)
    have h4 : (0 : ℚ) ≤ K.natAbs := Nat.cast_nonneg _
    calc (K.natAbs : ℚ) * 2 ^ q ≤ K.natAbs * 1 := mul_le_mul_of_nonneg_left h2 h4
      _ ≤ 2 ^ (52 : ℤ) := by rw [mul_one]; exact h1
      _ < _ := h3) (decide (K < 0))
  refine ⟨c, _, _, hc, ?_⟩
  unfold signed
  rcases lt_or_ge K 0 with h | h
  · rw [decide_eq_true h, if_pos rfl, ← neg_mul]
    congr 1
    rw [Nat.cast_natAbs, abs_of_neg h, Int.cast_neg, neg_neg]
  · rw [decide_eq_false (not_lt.2 h)]
    simp only [Bool.false_eq_true, if_false]
    congr 1
    rw [Nat.cast_natAbs, abs_of_nonneg h]

theorem double_grid {c : ℕ} {s : Bool} {m : ℚ} (h : double.decode c = .num s m) : ∃ K : ℤ, signed s m = K * (2 : ℚ) ^ (-1074 : ℤ) := by
  obtain ⟨N, h1, -⟩ := double_multiple h
  cases s
  · exact ⟨N, by rw [h1]; simp [signed]⟩
  · exact ⟨-(N : ℤ), by rw [h1]; simp [signed]⟩

theorem small_lt_overflow {t : ℚ} (h : t ≤ 2) : ¬ double.overflowAt ≤ t := not_le.2 (lt_of_le_of_lt h one_lt_overflow)

/-- Splitting a tiny number: the sum of the halves is the nearest multiple of 2^-1074, or one of two. -/
theorem split_small {v : ℚ} (hv : |v| ≤ 2 ^ (-969 : ℤ)) {s : Bool} {high low : ℕ} {rh : ℚ} (hs : signed s |v| = v)
    (h1 : double.decode high = .num s rh) (h2 : double.RoundsTo s |v| high)
    (h3 : v - signed s rh = 0 → double.decode low = .num false 0)
    (h4 : v - signed s rh ≠ 0 → double.RoundsTo (decide (v - signed s rh < 0)) |v - signed s rh| low) :
    ∃ sl rl, double.decode low = .num sl rl ∧ ∃ J : ℤ, signed s rh + signed sl rl = J * (2 : ℚ) ^ (-1074 : ℤ) ∧
      |signed s rh + signed sl rl - v| ≤ 2 ^ (-1074 : ℤ) / 2 := by
  have hu : (0 : ℚ) < 2 ^ (-1074 : ℤ) := by positivity
  have e969 : (2 : ℚ) ^ (-969 : ℤ) ≤ 1 := zpow_le_one_of_nonpos₀ (by norm_num) (by norm_num)
  have e1021 : (2 : ℚ) ^ (-969 : ℤ) = (2 ^ 52 : ℕ) * 2 ^ (-1021 : ℤ) := by
    rw [Nat.cast_pow, Nat.cast_ofNat, ← zpow_natCast, ← zpow_add₀ (by norm_num)]; norm_num
  have e1022 : (2 : ℚ) ^ (-1021 : ℤ) / 2 = 2 ^ (-1022 : ℤ) := by
    rw [div_eq_mul_inv, ← zpow_neg_one, ← zpow_add₀ (by norm_num)]; norm_num
  have e1074 : (2 : ℚ) ^ (-1022 : ℤ) = (2 ^ 52 : ℕ) * 2 ^ (-1074 : ℤ) := by
    rw [Nat.cast_pow, Nat.cast_ofNat, ← zpow_natCast, ← zpow_add₀ (by norm_num)]; norm_num
  unfold Format.RoundsTo at h2
  rw [if_neg (small_lt_overflow (by linarith)), h1, hs] at h2
  obtain ⟨r, hr, hnear, -⟩ := h2
  injection hr with _ hr
  subst hr
  obtain ⟨Kh, hKh⟩ := double_grid h1
  have ht : |v - signed s rh| ≤ 2 ^ (-1022 : ℤ) := by
    obtain ⟨K, k1, k2⟩ := rat_round v (show (0 : ℚ) < 2 ^ (-1021 : ℤ) by positivity)
    obtain ⟨c, s', m', hc, hcv⟩ := double_of_int (K := K) (q := -1021) (by exact_mod_cast k2 (2 ^ 52) (by rw [← e1021]; exact hv))
      (by norm_num) (by norm_num)
    have := hnear c s' m' hc
    rw [hcv] at this
    rw [← e1022]
    exact this.trans k1
  by_cases h0 : v - signed s rh = 0
  · refine ⟨false, 0, h3 h0, Kh, by rw [hKh]; simp [signed], ?_⟩
    have : signed s rh + signed false 0 - v = 0 := by simp only [signed, Bool.false_eq_true, if_false] at *; linarith
    rw [this, abs_zero]; positivity
  · have h5 := h4 h0
    set t := v - signed s rh with htd
    have hst : signed (decide (t < 0)) |t| = t := by
      have := signed_parts t false
      rwa [if_neg h0] at this
    have e1 : (2 : ℚ) ^ (-1022 : ℤ) ≤ 1 := zpow_le_one_of_nonpos₀ (by norm_num) (by norm_num)
    unfold Format.RoundsTo at h5
    rw [if_neg (small_lt_overflow (by linarith)), hst] at h5
    obtain ⟨rl, hl, hnear', -⟩ := h5
    obtain ⟨Kl, hKl⟩ := double_grid hl
    refine ⟨_, rl, hl, Kh + Kl, by rw [hKh, hKl, Int.cast_add, add_mul], ?_⟩
    obtain ⟨K, k1, k2⟩ := rat_round t hu
    obtain ⟨c, s', m', hc, hcv⟩ := double_of_int (K := K) (q := -1074) (by exact_mod_cast k2 (2 ^ 52) (by rw [← e1074]; exact ht))
      (by norm_num) (by norm_num)
    have := hnear' c s' m' hc
    rw [hcv] at this
    rw [show signed s rh + signed (decide (t < 0)) rl - v = -(t - signed (decide (t < 0)) rl) by rw [htd]; ring, abs_neg]
    exact this.trans k1

/-- The arguments that `NewFromBig` splits to nearest: zeros, and finite numbers below the overflow threshold that round to nearest even
or have at most 106 bits. -/
def Splittable (x : BigFloat) : Prop :=
  x.WF ∧ (x.form = .zero ∨
    x.form = .finite ∧ (x.mode = .toNearestEven ∨ x.prec ≤ 106) ∧ x.mag < double.overflowAt - 2 ^ (917 : ℤ))

theorem double_zero : double.decode (0 : F64).toNat = .num false 0 := by
  show double.decode 0 = _
  norm_num [Format.decode, double, Format.bias]

theorem rounds_zero {r : ℚ} (hr : RoundsToBits 106 0 r) : r = 0 := by
  have := hr.2.1 0 0 (by norm_num)
  simpa using this

/-- The halves that `NewFromBig` returns, and their sum. -/
theorem newFromBig_halves {x : BigFloat} (h : Splittable x) : ∃ f x' v rh sl rl, newFromBig x = .ok ((f, .exact), x') ∧
    RoundsToBits 106 x.sval v ∧ signed x.neg |v| = v ∧ double.decode f.high.toNat = .num x.neg rh ∧ double.decode f.low.toNat = .num sl rl ∧
    double.RoundsTo x.neg |v| f.high.toNat ∧
    (v - signed x.neg rh = 0 → f.low = 0) ∧
    (v - signed x.neg rh ≠ 0 → double.RoundsTo (decide (v - signed x.neg rh < 0)) |v - signed x.neg rh| f.low.toNat) ∧
    (2 ^ (-969 : ℤ) ≤ |x.sval| → signed x.neg rh + signed sl rl = v) ∧
    (|x.sval| < 2 ^ (-969 : ℤ) → ∃ J : ℤ, signed x.neg rh + signed sl rl = J * (2 : ℚ) ^ (-1074 : ℤ) ∧
      |signed x.neg rh + signed sl rl - v| ≤ 2 ^ (-1074 : ℤ) / 2) := by
  obtain ⟨hx, hf | ⟨hf, hmode, hhi⟩⟩ := h
  · have hsv : x.sval = 0 := by unfold BigFloat.sval; rw [hf]; rfl
    have hz : ∀ s, signed s 0 = 0 := by intro s; unfold signed; split <;> simp
    have hh : double.decode (if x.neg then NegZero else Zero).high.toNat = .num x.neg 0 := by
      cases x.neg
      · exact double_zero
      · show double.decode 0x8000000000000000 = _
        norm_num [Format.decode, double, Format.bias]
    have hl : (if x.neg then NegZero else Zero).low = 0 := by cases x.neg <;> rfl
    refine ⟨_, x, 0, 0, false, 0, newFromBig_zero hf, by rw [hsv]; exact roundsToBits_zero, by rw [abs_zero, hz], hh, by rw [hl]; exact double_zero,
      ?_, fun _ => hl, fun hc => absurd (by rw [hz, sub_zero]) hc, fun _ => by rw [hz, hz, add_zero], fun _ => ⟨0, by rw [hz, hz]; simp, ?_⟩⟩
    · unfold Format.RoundsTo
      rw [abs_zero, if_neg (small_lt_overflow (by norm_num))]
      refine ⟨0, hh, fun _ _ _ _ => by rw [sub_self, abs_zero]; exact abs_nonneg _, fun c s r hc hne heq => ?_⟩
      rw [sub_self, abs_zero, hz, zero_sub, abs_neg, eq_comm, abs_eq_zero] at heq
      exact absurd (heq.trans (hz _).symm) hne
    · rw [hz, hz, add_zero, sub_zero, abs_zero]; positivity
  · obtain ⟨v, high, low, rh, h1, h2, h3, h4, h5, h6, h7, h8⟩ := (newFromBig_spec hx hf hmode).2 hhi
    have hsv : |x.sval| = x.mag := by
      rw [BigFloat.sval_finite hf]
      have : 0 ≤ x.mag := Binary16.datum_nonneg (BigFloat.datum_finite hf)
      unfold signed; split
      · rw [abs_neg, abs_of_nonneg this]
      · exact abs_of_nonneg this
    by_cases hm : 2 ^ (-969 : ℤ) ≤ x.mag
    · obtain ⟨⟨sl, rl, q1, q2⟩, -⟩ := h8 hm
      exact ⟨⟨high, low⟩, prepared x, v, rh, sl, rl, h1, h2, h4, h3, q1, h5, h6, h7, fun _ => by rw [q2]; ring,
        fun hc => absurd (hsv ▸ hc) (not_lt.2 hm)⟩
    · have hv : |v| ≤ 2 ^ (-969 : ℤ) := by
        have hb : |x.sval| ≤ 2 ^ (-969 : ℤ) := by rw [hsv]; exact (not_le.1 hm).le
        have hb' := abs_le.1 hb
        rw [abs_le]
        constructor
        · have := ge_of_ge h2 (K := -1) (e := -969) (by norm_num) (by rw [Int.cast_neg, Int.cast_one, neg_one_mul]; exact hb'.1)
          rwa [Int.cast_neg, Int.cast_one, neg_one_mul] at this
        · have := le_of_le h2 (K := 1) (e := -969) (by norm_num) (by rw [Int.cast_one, one_mul]; exact hb'.2)
          rwa [Int.cast_one, one_mul] at this
      obtain ⟨sl, rl, q1, J, q2, q3⟩ := split_small hv h4 h3 h5 (fun h => by rw [h6 h]; exact double_zero) h7
      exact ⟨⟨high, low⟩, prepared x, v, rh, sl, rl, h1, h2, h4, h3, q1, h5, h6, h7, fun hc => absurd (hsv ▸ hc) hm,
        fun _ => ⟨J, q2, q3⟩⟩

theorem Splittable.datum {x : BigFloat} (h : Splittable x) : ∃ m, x.datum = .num x.neg m ∧ x.sval = signed x.neg m := by
  obtain ⟨hx, hf | ⟨hf, -, -⟩⟩ := h
  · refine ⟨0, by unfold BigFloat.datum; rw [hf], ?_⟩
    unfold BigFloat.sval signed
    rw [hf]; simp
  · exact ⟨x.mag, BigFloat.datum_finite hf, BigFloat.sval_finite hf⟩

theorem sum_halves {f : Float} {s sl : Bool} {rh rl : ℚ} (h1 : double.decode f.high.toNat = .num s rh)
    (h2 : double.decode f.low.toNat = .num sl rl) :
    f.sum = some (.num (if signed s rh + signed sl rl = 0 then s else decide (signed s rh + signed sl rl < 0)) |signed s rh + signed sl rl|) := by
  unfold Float.sum
  rw [h1, h2]
  rfl

theorem grid_zero {J : ℤ} {S u : ℚ} (hu : 0 < u) (h1 : S = J * u) (h2 : |S| ≤ u / 2) : S = 0 := by
  have h3 := abs_le.1 h2
  have : J = 0 := by
    have a : (J : ℚ) < 1 := by by_contra hc; rw [not_lt] at hc; nlinarith
    have b : (-1 : ℚ) < J := by by_contra hc; rw [not_lt] at hc; nlinarith
    have a' : J < 1 := by exact_mod_cast a
    have b' : -1 < J := by exact_mod_cast b
    omega
  rw [h1, this]; simp

/-- C70: `NewFromBig` is monotone: of two numbers below the overflow threshold, the smaller does not become the pair with the greater sum,
down to the tiny numbers whose pair does not have 106 bits. -/
theorem C70_float128ppc_newFromBig {x y : BigFloat} (hx : Splittable x) (hy : Splittable y) (h : x.datum.Le y.datum) :
    ∃ f x' g y' a b, newFromBig x = .ok ((f, .exact), x') ∧ newFromBig y = .ok ((g, .exact), y') ∧ f.sum = some a ∧ g.sum = some b ∧ a.Le b := by
  obtain ⟨f, x', v, rh, sl, rl, a1, a2, a3, a4, a5, a6, a7, a8, a9, a10⟩ := newFromBig_halves hx
  obtain ⟨g, y', w, rh', sl', rl', b1, b2, b3, b4, b5, b6, b7, b8, b9, b10⟩ := newFromBig_halves hy
  refine ⟨f, x', g, y', _, _, a1, b1, sum_halves a4 a5, sum_halves b4 b5, ?_⟩
  rw [le_num, signed_parts, signed_parts]
  have hu : (0 : ℚ) < 2 ^ (-1074 : ℤ) := by positivity
  have hB : (0 : ℚ) < 2 ^ (-969 : ℤ) := by positivity
  have hle : x.sval ≤ y.sval := by
    obtain ⟨m, e1, e2⟩ := hx.datum
    obtain ⟨m', e1', e2'⟩ := hy.datum
    rw [e1, e1', le_num] at h
    rwa [e2, e2']
  have hvw : v ≤ w := rounds_le hle a2 b2
  have hK : (2 : ℚ) ^ (-969 : ℤ) = ((2 ^ 105 : ℤ) : ℚ) * 2 ^ (-1074 : ℤ) := by
    rw [Int.cast_pow, Int.cast_ofNat, ← zpow_natCast, ← zpow_add₀ (by norm_num)]; norm_num
  -- bounds on a rounded small number
  have small_hi : ∀ {a b : ℚ}, RoundsToBits 106 a b → |a| < 2 ^ (-969 : ℤ) → b ≤ 2 ^ (-969 : ℤ) ∧ -(2 : ℚ) ^ (-969 : ℤ) ≤ b := by
    intro a b hr ha
    have ha' := abs_lt.1 ha
    constructor
    · have := le_of_le hr (K := 1) (e := -969) (by norm_num) (by rw [Int.cast_one, one_mul]; exact ha'.2.le)
      rwa [Int.cast_one, one_mul] at this
    · have := ge_of_ge hr (K := -1) (e := -969) (by norm_num) (by rw [Int.cast_neg, Int.cast_one, neg_one_mul]; exact ha'.1.le)
      rwa [Int.cast_neg, Int.cast_one, neg_one_mul] at this
  generalize hS : signed x.neg rh + signed sl rl = S at *
  generalize hT : signed y.neg rh' + signed sl' rl' = T at *
  by_cases hxs : 2 ^ (-969 : ℤ) ≤ |x.sval|
  · by_cases hys : 2 ^ (-969 : ℤ) ≤ |y.sval|
    · rw [a9 hxs, b9 hys]; exact hvw
    · -- x is big and not above the small y, so it is negative
      rw [not_le] at hys
      obtain ⟨J, j1, j2⟩ := b10 hys
      have hy' := abs_lt.1 hys
      have hxneg : x.sval ≤ -(2 : ℚ) ^ (-969 : ℤ) := by
        rcases le_abs.1 hxs with hc | hc
        · linarith
        · linarith
      have hv : v ≤ -(2 : ℚ) ^ (-969 : ℤ) := by
        have := le_of_le a2 (K := -1) (e := -969) (by norm_num) (by rw [Int.cast_neg, Int.cast_one, neg_one_mul]; exact hxneg)
        rwa [Int.cast_neg, Int.cast_one, neg_one_mul] at this
      have hw := (small_hi b2 hys).2
      rw [a9 hxs]
      refine hv.trans ?_
      have j2' := abs_le.1 j2
      rw [j1] at j2' ⊢
      rw [hK] at hw ⊢
      generalize (2 : ℚ) ^ (-1074 : ℤ) = u at *
      have : (-(2 ^ 105 : ℤ) - 1 : ℤ) < J := by
        by_contra hc
        rw [not_lt] at hc
        have hc' : (J : ℚ) ≤ ((-(2 ^ 105 : ℤ) - 1 : ℤ) : ℚ) := by exact_mod_cast hc
        rw [Int.cast_sub, Int.cast_neg, Int.cast_one] at hc'
        generalize ((2 ^ 105 : ℤ) : ℚ) = A at *
        nlinarith
      have : ((-(2 ^ 105 : ℤ) : ℤ) : ℚ) ≤ J := by
        have : -(2 ^ 105 : ℤ) ≤ J := by omega
        exact_mod_cast this
      rw [Int.cast_neg] at this
      generalize ((2 ^ 105 : ℤ) : ℚ) = A at *
      nlinarith
  · rw [not_le] at hxs
    obtain ⟨J, j1, j2⟩ := a10 hxs
    have j2' := abs_le.1 j2
    by_cases hys : 2 ^ (-969 : ℤ) ≤ |y.sval|
    · have hx' := abs_lt.1 hxs
      have hypos : (2 : ℚ) ^ (-969 : ℤ) ≤ y.sval := by
        rcases le_abs.1 hys with hc | hc
        · exact hc
        · linarith
      have hw : (2 : ℚ) ^ (-969 : ℤ) ≤ w := by
        have := ge_of_ge b2 (K := 1) (e := -969) (by norm_num) (by rw [Int.cast_one, one_mul]; exact hypos)
        rwa [Int.cast_one, one_mul] at this
      have hv := (small_hi a2 hxs).1
      rw [b9 hys]
      refine le_trans ?_ hw
      rw [j1] at j2' ⊢
      rw [hK] at hv ⊢
      generalize (2 : ℚ) ^ (-1074 : ℤ) = u at *
      have : J < (2 ^ 105 : ℤ) + 1 := by
        by_contra hc
        rw [not_lt] at hc
        have hc' : (((2 ^ 105 : ℤ) + 1 : ℤ) : ℚ) ≤ J := by exact_mod_cast hc
        rw [Int.cast_add, Int.cast_one] at hc'
        generalize ((2 ^ 105 : ℤ) : ℚ) = A at *
        nlinarith
      have : (J : ℚ) ≤ ((2 ^ 105 : ℤ) : ℚ) := by
        have : J ≤ (2 ^ 105 : ℤ) := by omega
        exact_mod_cast this
      generalize ((2 ^ 105 : ℤ) : ℚ) = A at *
      nlinarith
    · rw [not_le] at hys
      obtain ⟨L, l1, l2⟩ := b10 hys
      have l2' := abs_le.1 l2
      rcases lt_or_eq_of_le hvw with hlt | heq
      · by_contra hc
        rw [not_le, l1, j1] at hc
        rw [j1] at j2'
        rw [l1] at l2'
        generalize (2 : ℚ) ^ (-1074 : ℤ) = u at *
        have h1 : L + 1 ≤ J := by
          have : (L : ℚ) < J := lt_of_mul_lt_mul_right hc hu.le
          have : L < J := by exact_mod_cast this
          omega
        have h2 : ((L : ℚ) + 1) ≤ J := by exact_mod_cast h1
        nlinarith
      · by_cases hv0 : v = 0
        · have hw0 : w = 0 := heq ▸ hv0
          rw [grid_zero hu j1 (by rw [hv0, sub_zero] at j2; exact j2), grid_zero hu l1 (by rw [hw0, sub_zero] at l2; exact l2)]
        · subst heq
          have hneg : x.neg = y.neg := by
            have e := a3.trans b3.symm
            have hp : 0 < |v| := abs_pos.2 hv0
            unfold signed at e
            cases hxn : x.neg <;> cases hyn : y.neg <;> rw [hxn, hyn] at e <;> simp at e ⊢ <;> linarith
          rw [← hneg] at b4 b6 b7 b8 hT
          have hd := RoundsTo.unique (by decide) a6 b6
          rw [a4, b4] at hd
          injection hd with _ hd
          subst hd
          have hlow : double.decode f.low.toNat = double.decode g.low.toNat := by
            by_cases h0 : v - signed x.neg rh = 0
            · rw [a7 h0, b7 h0]
            · exact RoundsTo.unique (by decide) (a8 h0) (b8 h0)
          rw [a5, b5] at hlow
          injection hlow with e1 e2
          rw [← hS, ← hT, e1, e2]

/-- C70: `NewFromBig` of the negated number has the negated high half, and the negated low half unless that is zero, which is +0
for both. -/
theorem C70_float128ppc_newFromBig_negate {x y : BigFloat} (hx : Splittable x) (hy : Splittable y) (h : y.datum = x.datum.neg) :
    ∃ f x' g y', newFromBig x = .ok ((f, .exact), x') ∧ newFromBig y = .ok ((g, .exact), y') ∧
      double.decode g.high.toNat = (double.decode f.high.toNat).neg ∧
      (f.low = 0 ∧ g.low = 0 ∨ double.decode g.low.toNat = (double.decode f.low.toNat).neg) := by
  obtain ⟨f, x', v, rh, sl, rl, a1, a2, a3, a4, a5, a6, a7, a8, -⟩ := newFromBig_halves hx
  obtain ⟨g, y', w, rh', sl', rl', b1, b2, b3, b4, b5, b6, b7, b8, -⟩ := newFromBig_halves hy
  refine ⟨f, x', g, y', a1, b1, ?_⟩
  obtain ⟨m, e1, e2⟩ := hx.datum
  obtain ⟨m', e1', e2'⟩ := hy.datum
  rw [e1, e1'] at h
  simp only [Datum.neg, Datum.num.injEq] at h
  obtain ⟨hn, rfl⟩ := h
  have hs : ∀ (s : Bool) (m : ℚ), signed (!s) m = - signed s m := fun s m => by unfold signed; cases s <;> simp
  rw [hn] at e2' b3 b4 b6 b7 b8
  have habs : |v| = |w| := by
    rw [e2, ← a3] at a2
    rw [e2', ← b3] at b2
    have c1 := roundsToBits_mag a2
    have c2 := roundsToBits_mag b2
    exact le_antisymm (rounds_le le_rfl c1 c2) (rounds_le le_rfl c2 c1)
  have hw : w = -v := by rw [← b3, ← a3, hs, habs]
  have hhigh : double.decode g.high.toNat = (double.decode f.high.toNat).neg := by
    have := RoundsTo.unique (by decide) b6 (habs ▸ roundsTo_neg (by decide) a6)
    rw [this, Format.decode_flip]
  refine ⟨hhigh, ?_⟩
  rw [b4, a4] at hhigh
  simp only [Datum.neg, Datum.num.injEq, true_and] at hhigh
  subst hhigh
  have hsub : w - signed (!x.neg) rh' = -(v - signed x.neg rh') := by rw [hw, hs]; ring
  rw [hsub, neg_eq_zero] at b7
  rw [hsub, abs_neg] at b8
  by_cases h0 : v - signed x.neg rh' = 0
  · exact Or.inl ⟨a7 h0, b7 h0⟩
  · right
    have c1 := a8 h0
    have c2 := b8 (neg_ne_zero.2 h0)
    have hdec : decide (-(v - signed x.neg rh') < 0) = !decide (v - signed x.neg rh' < 0) := by
      rcases lt_or_gt_of_ne h0 with h | h
      · rw [decide_eq_true h, decide_eq_false (by linarith)]; rfl
      · rw [decide_eq_false (not_lt.2 h.le), decide_eq_true (by linarith)]; rfl
    rw [hdec] at c2
    have := RoundsTo.unique (by decide) c2 (roundsTo_neg (by decide) c1)
    rw [this, Format.decode_flip]

/-! ### Concrete cases -/

-- 1 + 1 ≤ 1 + inf; the pair (1, 1), its negation, and a pair that cancels
theorem sum_one_one : (newFromBits 0x3FF0000000000000 0x3FF0000000000000).sum = some (.num false 2) := by
  have h : double.decode 0x3FF0000000000000 = .num false 1 := double_one
  show (double.decode 0x3FF0000000000000).sum (double.decode 0x3FF0000000000000) = _
  rw [h]
  norm_num [Datum.sum, signed]

theorem sum_one_inf : (newFromBits 0x3FF0000000000000 0x7FF0000000000000).sum = some (.inf false) := by
  have h : double.decode 0x3FF0000000000000 = .num false 1 := double_one
  have h' : double.decode 0x7FF0000000000000 = .inf false := by norm_num [Format.decode, double]
  show (double.decode 0x3FF0000000000000).sum (double.decode 0x7FF0000000000000) = _
  rw [h, h']
  rfl

example : Datum.Le (.num false 2) (.inf false) := le_inf (by simp)

example : Negated (newFromBits 0x3FF0000000000000 0x3FF0000000000000) (newFromBits 0xBFF0000000000000 0xBFF0000000000000) := by
  have h : double.decode 0x3FF0000000000000 = .num false 1 := double_one
  have h' : double.decode 0xBFF0000000000000 = .num true 1 := by norm_num [Format.decode, double, Format.bias]
  constructor
  · show double.decode 0xBFF0000000000000 = (double.decode 0x3FF0000000000000).neg
    rw [h, h']; rfl
  · show double.decode 0xBFF0000000000000 = (double.decode 0x3FF0000000000000).neg
    rw [h, h']; rfl

example : (newFromBits 0x7FF0000000000000 0xFFF0000000000000).big = .error .errNaN := by decide +kernel

-- arguments of NewFromBig: zero, and the smallest subnormal over four, which is tiny and has fewer than 106 bits in a pair
theorem splittable_zero : Splittable ⟨53, .toNearestEven, .exact, .zero, true, 0, 0⟩ :=
  ⟨⟨by decide, by simp, by simp, by simp, by simp, by simp⟩, Or.inl rfl⟩

/-- 3 * 2^-1075 -/
def tiny : BigFloat := ⟨53, .toNearestEven, .exact, .finite, false, 3, -1073⟩

theorem splittable_tiny : Splittable tiny := by
  refine ⟨⟨show 53 ≤ BigFloat.MaxPrec by decide, fun _ => show 0 < 3 by decide, fun _ => show BigFloat.MinExp ≤ -1073 by decide,
    fun _ => show -1073 ≤ BigFloat.MaxExp by decide, fun _ => show 1 ≤ 53 by decide, fun _ => ⟨3, 0, rfl, show 3 < 2 ^ 53 by norm_num⟩⟩,
    Or.inr ⟨rfl, Or.inl rfl, ?_⟩⟩
  have h1 : tiny.mag ≤ 1 := by
    rw [BigFloat.mag_eq]
    show ((3 : ℕ) : ℚ) * 2 ^ (-1073 - (bitLen 3 : ℤ)) ≤ 1
    rw [show bitLen 3 = 2 by decide]
    have : (2 : ℚ) ^ (-1073 - (2 : ℕ) : ℤ) ≤ 2 ^ (-2 : ℤ) := zpow_le_zpow_right₀ (by norm_num) (by norm_num)
    rw [show (2 : ℚ) ^ (-2 : ℤ) = 1 / 4 by norm_num] at this
    generalize (2 : ℚ) ^ (-1073 - (2 : ℕ) : ℤ) = P at this ⊢
    rw [Nat.cast_ofNat]
    linarith
  have h2 : (1 : ℚ) < double.overflowAt - 2 ^ (917 : ℤ) := by
    unfold Format.overflowAt
    rw [double_facts.2.1, double_facts.2.2.1, show (1023 : ℤ) = 106 + 917 by norm_num, zpow_add₀ (by norm_num),
      show (2 : ℚ) ^ (106 : ℤ) = 2 ^ 106 by norm_cast]
    have : (1 : ℚ) ≤ 2 ^ (917 : ℤ) := one_le_zpow₀ (by norm_num) (by norm_num)
    generalize (2 : ℚ) ^ (917 : ℤ) = P at this ⊢
    norm_num
    linarith
  linarith

-- it becomes the pair of 2^-1073 and -0: the high half rounds up to even, the rest -2^-1075 rounds to zero
example : ∃ x', newFromBig tiny = .ok ((newFromBits 2 0x8000000000000000, .exact), x') :=
  ⟨tiny.setPrec precision |>.setMode .toNearestEven, by decide +kernel⟩

end GoFloat.Float128ppc
