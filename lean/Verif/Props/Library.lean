import Verif.Proofs.Library
/-
C91: the stand-ins for `math/big` do what the documentation of `math/big` says.
-/
namespace GoFloat
open Spec
namespace BigFloat

theorem datum_num {x : BigFloat} {s : Bool} {m : ℚ} (hx : x.WF) (h : x.datum = .num s m) :
    x.neg = s ∧ x.sval = signed s m ∧ (x.form = .zero ∧ m = 0 ∨ x.form = .finite ∧ x.mag = m ∧ 0 < m) := by
  unfold datum at h
  cases hf : x.form with
  | zero =>
    rw [hf] at h; simp only [Datum.num.injEq] at h
    refine ⟨h.1, ?_, Or.inl ⟨rfl, h.2.symm⟩⟩
    rw [sval_zero hf, ← h.2]; unfold signed; simp
  | inf => rw [hf] at h; exact absurd h (by simp)
  | finite =>
    rw [hf] at h; simp only [Datum.num.injEq] at h
    refine ⟨h.1, ?_, Or.inr ⟨rfl, h.2, by rw [← h.2]; exact mag_pos (hx.mant_pos hf)⟩⟩
    rw [sval_finite hf, h.1, h.2]

/-- C91, `SetPrec`: a number becomes the number rounded to the new precision, in its own mode; a zero or an infinity stays;
with precision 0 every number becomes a zero, and an infinity stays. -/
theorem C91_setPrec {x : BigFloat} (hx : x.WF) (p : ℕ) :
    (x.setPrec p).prec = min p MaxPrec ∧
    (1 ≤ p → x.form = .finite → BigResult x.mode (min p MaxPrec) x.neg x.sval (x.setPrec p)) ∧
    (1 ≤ p → x.form ≠ .finite → (x.setPrec p).datum = x.datum ∧ (x.setPrec p).acc = .exact) ∧
    (x.setPrec 0).datum = (match x.datum with | .num s _ => .num s 0 | d => d) ∧
    ((x.setPrec 0).acc = if x.form = .finite then makeAcc x.neg else .exact) := by
  refine ⟨?_, fun hp hf => setPrec_big hx hf hp, fun hp hf => ?_, ?_, ?_⟩
  · unfold setPrec
    by_cases h : p = 0
    · rw [if_pos h, h]; split <;> rfl
    · rw [if_neg h]
      simp only
      split
      · unfold round
        split
        · simp only
          split
          · rfl
          · split
            · rfl
            · split
              · split
                · split <;> rfl
                · rfl
              · rfl
        · rfl
      · rfl
  · have hr : ∀ z : BigFloat, z.form ≠ .finite → z.round = { z with acc := .exact } := by
      intro z h; unfold round
      cases hz : z.form with
      | finite => exact absurd hz h
      | zero => rfl
      | inf => rfl
    unfold setPrec
    rw [if_neg (by omega)]
    simp only
    split
    · rw [hr _ (by exact hf)]; exact ⟨rfl, rfl⟩
    · exact ⟨rfl, rfl⟩
  · unfold setPrec datum
    cases hf : x.form <;> simp
  · unfold setPrec
    rw [if_pos rfl]
    by_cases h : x.form = .finite
    · rw [if_pos h, if_pos h]
    · rw [if_neg h, if_neg h]

example : let x : BigFloat := { new with prec := 4, mode := .toZero, form := .finite, mant := 13, exp := 4 }
    x.WF ∧ x.form = .finite ∧ x.sval = 13 ∧ (x.setPrec 2).sval = 12 ∧ (x.setPrec 2).acc = .below := by
  refine ⟨⟨by decide, by decide, by decide, by decide, by decide, fun _ => ⟨13, 0, by decide, by decide⟩⟩, rfl, ?_, ?_, by decide⟩
  · unfold sval mag; norm_num [new, signed, bitLen, show Nat.log2 13 = 3 by decide]
  · have : (({ new with prec := 4, mode := .toZero, form := .finite, mant := 13, exp := 4 } : BigFloat).setPrec 2)
        = { new with prec := 2, mode := .toZero, acc := .below, form := .finite, mant := 3, exp := 4 } := by decide
    rw [this]
    unfold sval mag; norm_num [new, signed, bitLen, show Nat.log2 3 = 1 by decide]

/-- C91, `Set`: the variable takes the value, rounded to its precision in its mode; if it has no precision yet it takes that
of the argument and the value exactly. -/
theorem C91_set {z x : BigFloat} (hz : z.prec ≤ MaxPrec) (hx : x.WF) :
    (1 ≤ z.prec → x.form = .finite → BigResult z.mode z.prec x.neg x.sval (z.set x)) ∧
    (z.prec = 0 ∨ x.form ≠ .finite → (z.set x).datum = x.datum ∧ (z.set x).acc = .exact) ∧
    (z.prec = 0 → (z.set x).prec = x.prec) := by
  refine ⟨fun h hf => set_big hx hf h hz, fun h => ?_, fun h => ?_⟩
  · by_cases hp : z.prec = 0
    · unfold set; rw [if_pos hp]
      refine ⟨?_, rfl⟩
      unfold datum mag
      cases hf : x.form <;> simp
    · have hf : x.form ≠ .finite := h.resolve_left hp
      unfold set; rw [if_neg hp]
      simp only [if_neg hf]
      split
      · unfold round datum
        cases hf' : x.form with
        | finite => exact absurd hf' hf
        | zero => exact ⟨rfl, rfl⟩
        | inf => exact ⟨rfl, rfl⟩
      · unfold datum
        cases hf' : x.form with
        | finite => exact absurd hf' hf
        | zero => exact ⟨rfl, rfl⟩
        | inf => exact ⟨rfl, rfl⟩
  · unfold set; rw [if_pos h]

example : let x : BigFloat := { new with prec := 4, form := .finite, mant := 13, exp := 4 }
    x.WF ∧ ({ new with prec := 2, mode := .awayFromZero } : BigFloat).set x =
      { new with prec := 2, mode := .awayFromZero, acc := .above, form := .finite, mant := 2, exp := 5 } := by
  refine ⟨⟨by decide, by decide, by decide, by decide, by decide, fun _ => ⟨13, 0, by decide, by decide⟩⟩, by decide⟩

theorem add_prec (z x y : BigFloat) :
    z.add x y = add { z with prec := if z.prec = 0 then max x.prec y.prec else z.prec } x y := by
  by_cases h : z.prec = 0
  · have h1 : ({ z with prec := max x.prec y.prec } : BigFloat).add x y = z.add x y := by
      unfold add
      simp only [h, if_true]
      by_cases h2 : max x.prec y.prec = 0
      · rw [if_pos h2]
      · rw [if_neg h2]
    rw [if_pos h, h1]
  · rw [if_neg h]

/-- C91, `Add`: infinities of opposite signs panic, another infinity prevails, and the sum of two numbers is their exact sum,
rounded to the precision of the receiver in its mode, with the true accuracy; a receiver without precision takes the larger
one of the summands. A zero sum is exact; its sign is that of IEEE 754. -/
theorem C91_add {z x y : BigFloat} (hz : z.prec ≤ MaxPrec) (hx : x.WF) (hy : y.WF) :
    (∀ s, x.datum = .inf s → y.datum = .inf (!s) → z.add x y = .error .errNaN) ∧
    (∀ s, x.datum = .inf s ∧ y.datum ≠ .inf (!s) ∨ y.datum = .inf s ∧ x.datum ≠ .inf (!s) →
      ∃ r, z.add x y = .ok r ∧ r.datum = .inf s ∧ r.acc = .exact) ∧
    (∀ s m s' m', x.datum = .num s m → y.datum = .num s' m' →
      let p := if z.prec = 0 then max x.prec y.prec else z.prec
      let v := signed s m + signed s' m'
      ∃ r, z.add x y = .ok r ∧
        (v ≠ 0 → BigResult z.mode p (decide (v < 0)) v r) ∧
        (v = 0 → r.datum = .num (if m = 0 then s && s' else decide (z.mode = .toNegativeInf)) 0 ∧ r.acc = .exact ∧
          r.prec = p ∧ r.mode = z.mode)) := by
  have hinf : ∀ {a : BigFloat} {s : Bool}, a.datum = .inf s → a.form = .inf ∧ a.neg = s := by
    intro a s h; exact ⟨(datum_inf h).2, (datum_inf h).1⟩
  have hset : ∀ {z a : BigFloat} {s : Bool}, a.datum = .inf s → (z.set a).datum = .inf s ∧ (z.set a).acc = .exact := by
    intro z a s h
    obtain ⟨h1, h2⟩ := hinf h
    unfold set
    simp only [h1, h2]
    split
    · exact ⟨rfl, rfl⟩
    · split
      · exact ⟨rfl, rfl⟩
      · exact ⟨rfl, rfl⟩
  refine ⟨fun s h1 h2 => ?_, fun s h => ?_, fun s m s' m' h1 h2 => ?_⟩
  · obtain ⟨a1, a2⟩ := hinf h1
    obtain ⟨b1, b2⟩ := hinf h2
    unfold add
    simp only [a1, b1, a2, b2]
    rw [if_pos (by cases s <;> simp)]
  · rcases h with ⟨h1, h2⟩ | ⟨h1, h2⟩
    · obtain ⟨a1, a2⟩ := hinf h1
      refine ⟨_, ?_, hset (z := if z.prec = 0 then { z with prec := max x.prec y.prec } else z) h1⟩
      unfold add
      rw [a1]
      cases hf : y.form with
      | finite => rfl
      | zero => rfl
      | inf =>
        simp only
        rw [if_neg]
        intro hne
        refine h2 ?_
        unfold datum
        rw [hf]
        simp only [Datum.inf.injEq]
        rw [a2] at hne
        cases s <;> cases hy' : y.neg <;> simp_all
    · obtain ⟨a1, a2⟩ := hinf h1
      cases hf : x.form with
      | finite =>
        refine ⟨_, ?_, hset (z := if z.prec = 0 then { z with prec := max x.prec y.prec } else z) h1⟩
        unfold add
        rw [a1, hf]
      | zero =>
        refine ⟨_, ?_, hset (z := if z.prec = 0 then { z with prec := max x.prec y.prec } else z) h1⟩
        unfold add
        rw [a1, hf]
      | inf =>
        have hs : x.neg = s := by
          by_contra hne
          refine h2 ?_
          unfold datum
          rw [hf]
          simp only [Datum.inf.injEq]
          cases s <;> cases hy' : x.neg <;> simp_all
        have hxd : x.datum = .inf s := by unfold datum; rw [hf, hs]
        refine ⟨_, ?_, hset (z := if z.prec = 0 then { z with prec := max x.prec y.prec } else z) hxd⟩
        unfold add
        rw [a1, hf]
        simp only
        rw [if_neg (by rw [hs, a2]; simp)]
  · simp only
    rw [add_prec]
    set p := if z.prec = 0 then max x.prec y.prec else z.prec with hp
    have hp2 : p ≤ MaxPrec := by
      rw [hp]; split
      · exact max_le hx.prec_le hy.prec_le
      · exact hz
    have hpx : x.form = .finite → 1 ≤ p := by
      intro h; have := hx.prec_pos h; rw [hp]; split
      · exact this.trans (le_max_left _ _)
      · omega
    have hpy : y.form = .finite → 1 ≤ p := by
      intro h; have := hy.prec_pos h; rw [hp]; split
      · exact this.trans (le_max_right _ _)
      · omega
    obtain ⟨a1, a2, a3⟩ := datum_num hx h1
    obtain ⟨b1, b2, b3⟩ := datum_num hy h2
    rw [← a2, ← b2]
    have hne : ∀ {a : BigFloat}, a.WF → a.form = .finite → a.sval ≠ 0 ∧ decide (a.sval < 0) = a.neg := by
      intro a ha haf
      have := mag_pos (ha.mant_pos haf)
      rw [sval_finite haf]
      refine ⟨fun h => ?_, ?_⟩
      · have h2 := signed_abs (s := a.neg) this.le
        rw [h, abs_zero] at h2
        exact this.ne h2
      · rw [Bool.eq_iff_iff, decide_eq_true_eq]; exact signed_neg_iff this
    rcases a3 with ⟨c1, c2⟩ | ⟨c1, c2, c3⟩ <;> rcases b3 with ⟨d1, d2⟩ | ⟨d1, d2, d3⟩
    · rw [sval_zero c1, sval_zero d1, add_zero]
      refine ⟨_, by unfold add; rw [c1, d1], fun h => absurd rfl h, fun _ => ?_⟩
      rw [if_pos c2]
      refine ⟨?_, rfl, ?_, ?_⟩
      · unfold datum; simp only [a1, b1]
      · by_cases h : p = 0
        · have h' : max x.prec y.prec = 0 := by
            rw [hp] at h
            split at h
            · exact h
            · contradiction
          simp only [h, if_true]; exact h'
        · simp only [if_neg h]
      · simp only
        by_cases h : p = 0
        · rw [if_pos h]
        · rw [if_neg h]
    · rw [sval_zero c1, zero_add]
      refine ⟨set { z with prec := p } y, ?_, fun _ => ?_, fun h => absurd h (hne hy d1).1⟩
      · unfold add; rw [c1, d1]; simp only; rw [if_neg (by have := hpy d1; omega)]
      · rw [(hne hy d1).2]
        exact set_big (z := { z with prec := p }) hy d1 (hpy d1) hp2
    · rw [sval_zero d1, add_zero]
      refine ⟨set { z with prec := p } x, ?_, fun _ => ?_, fun h => absurd h (hne hx c1).1⟩
      · unfold add; rw [c1, d1]; simp only; rw [if_neg (by have := hpx c1; omega)]
      · rw [(hne hx c1).2]
        exact set_big (z := { z with prec := p }) hx c1 (hpx c1) hp2
    · obtain ⟨r, e1, e2, e3⟩ := add_finite (z := { z with prec := p }) hx hy c1 d1 (hpx c1) hp2
      refine ⟨r, e1, e3, fun h => ?_⟩
      obtain ⟨f1, f2, f3, f4, f5⟩ := e2 h
      refine ⟨?_, f2, f3, f4⟩
      rw [if_neg c3.ne']
      unfold datum; rw [f1, f5]

/-- What the subtraction is in terms of the addition. -/
theorem sub_eq {z x y : BigFloat} (h : x.form = .zero → y.form = .finite → z.prec = 0 ∨ y.prec ≤ z.prec) :
    z.sub x y = z.add x y.negSelf := by
  by_cases hfin : x.form = .finite ∧ y.form ≠ .inf
  · exact sub_eq_add hfin.1 hfin.2
  unfold sub add
  have h1 : y.negSelf.form = y.form := rfl
  have h2 : y.negSelf.prec = y.prec := rfl
  have h3 : ∀ z' : BigFloat, uadd z' x y.negSelf = uadd z' x y := fun _ => rfl
  have h4 : ∀ z' : BigFloat, usub z' x y.negSelf = usub z' x y := fun _ => rfl
  have h5 : ∀ z' : BigFloat, usub z' y.negSelf x = usub z' y x := fun _ => rfl
  have h6 : ucmp x y.negSelf = ucmp x y := rfl
  have h8 : y.negSelf.neg = !y.neg := rfl
  have h9 : ∀ z' : BigFloat, (y.form = .finite → z'.prec = 0 ∨ y.prec ≤ z'.prec) → negOf z' y = set z' y.negSelf := by
    intro z' hz
    unfold negOf set
    cases hy : y.form with
    | finite =>
      simp only [negSelf, hy, if_true]
      by_cases hp : z'.prec = 0
      · rw [if_pos hp, if_pos hp]
      · rw [if_neg hp, if_neg hp, if_neg (by have := hz hy; omega), if_neg (by have := hz hy; omega)]
    | zero => simp only [negSelf, round, hy]; split <;> (try split) <;> rfl
    | inf => simp only [negSelf, round, hy]; split <;> (try split) <;> rfl
  simp only [h1, h2, h3, h4, h5, h6, h8]
  have hz : x.form = .zero → y.form = .finite →
      (if z.prec = 0 then { z with prec := max x.prec y.prec } else z).prec = 0 ∨
        y.prec ≤ (if z.prec = 0 then { z with prec := max x.prec y.prec } else z).prec := by
    intro h1 h2
    by_cases hp : z.prec = 0
    · rw [if_pos hp]; exact Or.inr (le_max_right _ _)
    · rw [if_neg hp]; exact h h1 h2
  generalize (if z.prec = 0 then { z with prec := max x.prec y.prec } else z) = z' at hz ⊢
  cases hx : x.form with
  | finite =>
    cases hy : y.form with
    | finite => exact absurd ⟨hx, by rw [hy]; simp⟩ hfin
    | zero => rfl
    | inf => exact congrArg _ (h9 z' (fun h => by rw [hy] at h; cases h))
  | inf =>
    cases hy : y.form with
    | finite => rfl
    | zero => rfl
    | inf => cases x.neg <;> cases y.neg <;> rfl
  | zero =>
    cases hy : y.form with
    | finite => exact congrArg _ (h9 z' (hz hx))
    | zero => rfl
    | inf => exact congrArg _ (h9 z' (fun h => by rw [hy] at h; cases h))

/-- C91, `Sub`: as `Add` with the sign of the subtrahend reversed. (The documentation has no such
hypothesis. The library subtracts from a zero by rounding first and reversing the sign then, which in a directed mode rounds
the wrong way. The only subtraction in /repo, float128ppc/float128ppc.go:112, is never from a zero.) -/
theorem C91_sub {z x y : BigFloat} (hz : z.prec ≤ MaxPrec) (hx : x.WF) (hy : y.WF)
    (h0 : x.form = .zero → y.form = .finite → z.prec = 0 ∨ y.prec ≤ z.prec) :
    (∀ s, x.datum = .inf s → y.datum = .inf s → z.sub x y = .error .errNaN) ∧
    (∀ s, x.datum = .inf s ∧ y.datum ≠ .inf s ∨ y.datum = .inf (!s) ∧ x.datum ≠ .inf (!s) →
      ∃ r, z.sub x y = .ok r ∧ r.datum = .inf s ∧ r.acc = .exact) ∧
    (∀ s m s' m', x.datum = .num s m → y.datum = .num s' m' →
      let p := if z.prec = 0 then max x.prec y.prec else z.prec
      let v := signed s m - signed s' m'
      ∃ r, z.sub x y = .ok r ∧
        (v ≠ 0 → BigResult z.mode p (decide (v < 0)) v r) ∧
        (v = 0 → r.datum = .num (if m = 0 then s && !s' else decide (z.mode = .toNegativeInf)) 0 ∧ r.acc = .exact ∧
          r.prec = p ∧ r.mode = z.mode)) := by
  rw [sub_eq h0]
  obtain ⟨k1, k2, k3⟩ := C91_add (x := x) (y := y.negSelf) hz hx (negSelf_wf hy)
  have hd : ∀ s, y.negSelf.datum = .inf s ↔ y.datum = .inf (!s) := by
    intro s
    unfold datum negSelf
    cases y.form <;> simp
  refine ⟨fun s h1 h2 => k1 s h1 ((hd _).2 (by simpa using h2)), fun s h => k2 s ?_, fun s m s' m' h1 h2 => ?_⟩
  · rw [Ne, hd, hd, Bool.not_not]; exact h
  · have h3 : y.negSelf.datum = .num (!s') m' := by
      unfold datum negSelf at *
      cases hf : y.form <;> rw [hf] at h2 <;> simp only [Datum.num.injEq, reduceCtorEq] at h2 ⊢
      · exact ⟨by rw [h2.1], h2.2⟩
      · exact ⟨by rw [h2.1], h2.2⟩
    have := k3 s m (!s') m' h1 h3
    have hs : signed (!s') m' = - signed s' m' := by unfold signed; cases s' <;> simp
    rw [hs, ← sub_eq_add_neg] at this
    exact this

example : let z : BigFloat := { new with prec := 3, mode := .toPositiveInf }
    let x : BigFloat := { new with prec := 4, form := .finite, mant := 13, exp := 4 }
    let y : BigFloat := { new with prec := 1, form := .finite, neg := true, mant := 1, exp := 3 }
    x.WF ∧ y.WF ∧ x.datum = .num false 13 ∧ y.datum = .num true 4 ∧
      z.add x y = .ok { z with acc := .above, form := .finite, mant := 5, exp := 4 } ∧
      z.sub x y = .ok { z with acc := .above, form := .finite, mant := 5, exp := 5 } := by
  refine ⟨⟨by decide, by decide, by decide, by decide, by decide, fun _ => ⟨13, 0, by decide, by decide⟩⟩,
    ⟨by decide, by decide, by decide, by decide, by decide, fun _ => ⟨1, 0, by decide, by decide⟩⟩, ?_, ?_, by decide, by decide⟩
  · unfold datum mag; norm_num [new, bitLen, show Nat.log2 13 = 3 by decide]
  · unfold datum mag; norm_num [new, bitLen, show Nat.log2 1 = 0 by decide]

/-- C91, `Mul` and `Quo` of numbers that are not zero: the exact product and the exact quotient, rounded to the precision of
the receiver in its mode, with the true accuracy. -/
theorem C91_mul_quo {z x y : BigFloat} (hz1 : 1 ≤ z.prec) (hz : z.prec ≤ MaxPrec) (hx : x.WF) (hy : y.WF) (hxf : x.form = .finite)
    (hyf : y.form = .finite) :
    BigResult z.mode z.prec (x.neg != y.neg) (x.sval * y.sval) (z.mul x y) ∧
    BigResult z.mode z.prec (x.neg != y.neg) (x.sval / y.sval) (z.quo x y) := by
  have h1 := mul_big (z := z) (hx.mant_pos hxf) (hy.mant_pos hyf) hz1 hz
  have h2 := quo_big (z := z) (hx.mant_pos hxf) (hy.mant_pos hyf) hz1 hz
  rw [sval_finite hxf, sval_finite hyf]
  have e1 : signed x.neg x.mag * signed y.neg y.mag = signed (x.neg != y.neg) (x.mag * y.mag) := by
    unfold signed; cases x.neg <;> cases y.neg <;> simp
  have e2 : signed x.neg x.mag / signed y.neg y.mag = signed (x.neg != y.neg) (x.mag / y.mag) := by
    unfold signed; cases x.neg <;> cases y.neg <;> simp [neg_div, div_neg]
  rw [e1, e2]
  exact ⟨h1, h2⟩

example : let z : BigFloat := { new with prec := 3, mode := .toZero }
    let x : BigFloat := { new with prec := 1, form := .finite, mant := 1, exp := 1 }
    let y : BigFloat := { new with prec := 2, form := .finite, neg := true, mant := 3, exp := 2 }
    x.WF ∧ y.WF ∧ z.quo x y = { z with acc := .above, form := .finite, neg := true, mant := 5, exp := -1 } := by
  refine ⟨⟨by decide, by decide, by decide, by decide, by decide, fun _ => ⟨1, 0, by decide, by decide⟩⟩,
    ⟨by decide, by decide, by decide, by decide, by decide, fun _ => ⟨3, 0, by decide, by decide⟩⟩, by decide⟩

/-- C91, `Cmp`: the order of the extended number line; the two zeros are equal. -/
theorem C91_cmp {x y : BigFloat} (hx : x.WF) (hy : y.WF) :
    ∃ a b, x.datum.key = some a ∧ y.datum.key = some b ∧
      (x.cmp y = .lt ↔ keyLt a b) ∧ (x.cmp y = .gt ↔ keyLt b a) ∧ (x.cmp y = .eq ↔ a = b) := by
  have key : ∀ a : BigFloat, a.datum.key = some (if a.form = .inf then (if a.neg then -1 else 1, 0) else (0, a.sval)) := by
    intro a
    unfold datum sval
    cases a.form with
    | zero => simp only [Datum.key]; unfold signed; simp
    | inf => simp [Datum.key]
    | finite => simp [Datum.key]
  refine ⟨_, _, key x, key y, ?_⟩
  by_cases h1 : x.form = .inf
  · by_cases h2 : y.form = .inf
    · rw [if_pos h1, if_pos h2]
      unfold cmp ord keyLt
      rw [h1, h2]
      cases x.neg <;> cases y.neg <;> simp
    · rw [if_pos h1, if_neg h2]
      unfold cmp ord keyLt
      rw [h1]
      cases hy' : y.form with
      | inf => exact absurd hy' h2
      | zero => cases x.neg <;> simp
      | finite => cases x.neg <;> cases y.neg <;> simp
  · by_cases h2 : y.form = .inf
    · rw [if_neg h1, if_pos h2]
      unfold cmp ord keyLt
      rw [h2]
      cases hx' : x.form with
      | inf => exact absurd hx' h1
      | zero => cases y.neg <;> simp
      | finite => cases x.neg <;> cases y.neg <;> simp
    · rw [if_neg h1, if_neg h2]
      obtain ⟨c1, c2, c3⟩ := cmp_spec hx hy h1 h2
      unfold keyLt
      rw [c1, c2, c3]
      simp

example : ({ new with form := .inf, neg := true } : BigFloat).WF ∧ new.WF ∧
    ({ new with form := .inf, neg := true } : BigFloat).cmp new = .lt :=
  ⟨⟨by decide, by decide, by decide, by decide, by decide, fun h => by cases h⟩,
    ⟨by decide, by decide, by decide, by decide, by decide, fun h => by cases h⟩, by decide⟩

/-- C91, `Float64` and `Float32`: the nearest float, ties to even, with the true accuracy. -/
theorem C91_float {x : BigFloat} (hx : x.WF) :
    (∀ s, x.datum = .inf s → double.decode x.float64.1.toNat = .inf s ∧ single.decode x.float32.1.toNat = .inf s) ∧
    (∀ s m, x.datum = .num s m → double.RoundsTo s m x.float64.1.toNat ∧ single.RoundsTo s m x.float32.1.toNat) ∧
    AccuracyTrue x.float64.2 (double.decode x.float64.1.toNat) x.datum ∧
    AccuracyTrue x.float32.2 (single.decode x.float32.1.toNat) x.datum := by
  obtain ⟨a1, a2, a3⟩ := toIEEE_spec double (by decide) (by decide) (by decide) hx
  obtain ⟨b1, b2, b3⟩ := toIEEE_spec single (by decide) (by decide) (by decide) hx
  rw [float64_toNat hx, float32_toNat hx]
  exact ⟨fun s h => ⟨a1 s h, b1 s h⟩, fun s m h => ⟨a2 s m h, b2 s m h⟩, a3, b3⟩

example : let x : BigFloat := { new with prec := 4, form := .finite, mant := 13, exp := 4 }
    x.WF ∧ x.float64 = (0x402A000000000000, .exact) ∧ x.float32 = (0x41500000, .exact) := by
  refine ⟨⟨by decide, by decide, by decide, by decide, by decide, fun _ => ⟨13, 0, by decide, by decide⟩⟩, by decide, by decide⟩

/-- C91, `MantExp` and `SetMantExp`: a number is its mantissa, in magnitude at least 1/2 and below 1, times a power of two;
and scaling by a power of two is exact up to the limits of the exponent. -/
theorem C91_mantExp {x : BigFloat} (hx : x.WF) :
    (x.form = .finite → x.sval = x.mantExp.2.sval * (2 : ℚ) ^ x.mantExp.1 ∧ 1 / 2 ≤ |x.mantExp.2.sval| ∧ |x.mantExp.2.sval| < 1) ∧
    (x.form ≠ .finite → x.mantExp = (0, x)) ∧
    (x.form = .finite → ∀ k, BigResult x.mode x.prec x.neg (x.sval * (2 : ℚ) ^ k) (x.setMantExpSelf k)) ∧
    (x.form ≠ .finite → ∀ k, x.setMantExpSelf k = x) := by
  refine ⟨fun hf => ?_, fun hf => ?_, fun hf k => ?_, fun hf k => ?_⟩
  · have hm := hx.mant_pos hf
    unfold mantExp
    rw [if_pos hf]
    set y : BigFloat := { x with exp := 0 } with hy
    have hym : y.mag * (2 : ℚ) ^ x.exp = x.mag := by unfold mag; simp [hy]
    have hys : y.sval = signed x.neg y.mag := sval_finite (x := y) hf
    have h1 := le_mag (x := y) hm
    have h2 := mag_lt y
    simp only
    rw [hys, signed_abs (mag_pos (x := y) hm).le, sval_finite hf, ← hym]
    refine ⟨?_, ?_, ?_⟩
    · unfold signed; cases x.neg <;> simp
    · refine le_trans (le_of_eq ?_) h1; simp [hy]
    · refine lt_of_lt_of_eq h2 ?_; simp [hy]
  · unfold mantExp; rw [if_neg hf]
  · unfold setMantExpSelf
    rw [if_pos hf]
    have := setExpAndRound_big (z := x) (m := x.mant) (hx.mant_pos hf) (e := x.exp + k - bitLen x.mant) (hx.prec_pos hf) hx.prec_le
    rw [sub_add_cancel] at this
    have hv : x.sval * (2 : ℚ) ^ k = signed x.neg (x.mant * 2 ^ (x.exp + k - bitLen x.mant)) := by
      rw [sval_finite hf, mag_eq, show x.exp + k - bitLen x.mant = x.exp - bitLen x.mant + k by ring, zpow_add₀ (by norm_num)]
      unfold signed; cases x.neg <;> simp [mul_assoc]
    rw [hv]
    exact this
  · unfold setMantExpSelf; rw [if_neg hf]

example : let x : BigFloat := { new with prec := 4, form := .finite, neg := true, mant := 13, exp := 4 }
    x.WF ∧ x.mantExp = (4, { x with exp := 0 }) ∧ x.setMantExpSelf (-4) = { x with exp := 0 } ∧
      (x.setMantExpSelf MaxExp).form = .inf ∧ (x.setMantExpSelf (2 * MinExp)).form = .zero := by
  refine ⟨⟨by decide, by decide, by decide, by decide, by decide, fun _ => ⟨13, 0, by decide, by decide⟩⟩, by decide, by decide,
    by decide, by decide⟩

/-- C91, `IsInt`, `Uint64` and `Int`: the test for integers, the number truncated to an integer of 64 bits with the accuracy that
the documentation gives, and the integer part of a number that is not negative. -/
theorem C91_integers {x : BigFloat} (hx : x.WF) {s : Bool} {m : ℚ} (h : x.datum = .num s m) :
    (x.isInt = true ↔ ∃ n : ℕ, m = n) ∧
    (signed s m < 0 → x.uint64 = (0, .above)) ∧
    (0 ≤ signed s m → m < 2 ^ 64 → (x.uint64.1.toNat : ℤ) = ⌊m⌋ ∧ (x.uint64.2 = if x.isInt then .exact else .below)) ∧
    (0 ≤ signed s m → 2 ^ 64 ≤ m → x.uint64 = (BitVec.ofNat 64 (2 ^ 64 - 1), .below)) ∧
    (x.intNonneg : ℤ) = ⌊m⌋ := by
  obtain ⟨h1, h2, h3⟩ := datum_num hx h
  rcases h3 with ⟨hf, hm⟩ | ⟨hf, hmag, hpos⟩
  · rw [hm]
    have hs : signed s 0 = 0 := by unfold signed; simp
    rw [hs]
    refine ⟨?_, fun h => absurd h (lt_irrefl _), fun _ _ => ?_, fun _ h => absurd h (by norm_num), ?_⟩
    · unfold isInt; rw [hf]; exact ⟨fun _ => ⟨0, by simp⟩, fun _ => rfl⟩
    · unfold uint64 isInt; rw [hf]; simp
    · unfold intNonneg; rw [hf]; simp
  · have hm := hx.mant_pos hf
    have hexp : m < 2 ^ 64 ↔ x.exp ≤ 64 := by
      rw [← hmag]
      constructor
      · intro h
        by_contra hc
        have h1 := le_mag hm
        have h2 : (2 : ℚ) ^ (64 : ℤ) ≤ 2 ^ (x.exp - 1) := zpow_le_zpow_right₀ (by norm_num) (by omega)
        have h3 : (2 : ℚ) ^ (64 : ℤ) = 2 ^ 64 := by norm_cast
        linarith
      · intro h
        have h1 := mag_lt x
        have h2 : (2 : ℚ) ^ x.exp ≤ 2 ^ (64 : ℤ) := zpow_le_zpow_right₀ (by norm_num) h
        have h3 : (2 : ℚ) ^ (64 : ℤ) = 2 ^ 64 := by norm_cast
        linarith
    have hneg : signed s m < 0 ↔ x.neg = true := by rw [h1]; exact signed_neg_iff hpos
    refine ⟨by rw [isInt_iff hx hf, hmag], fun h => ?_, fun h hl => ?_, fun h hl => ?_, ?_⟩
    · unfold uint64; rw [hf, hneg.1 h]; rfl
    · have hn : x.neg = false := by
        cases hh : x.neg with
        | false => rfl
        | true => exact absurd (hneg.2 hh) (not_lt.2 h)
      refine ⟨by rw [← hmag]; exact uint64_eq hf hn (hexp.1 hl) hm, ?_⟩
      unfold uint64
      rw [hf, hn]
      simp only [Bool.false_eq_true, if_false]
      by_cases h0 : x.exp ≤ 0
      · rw [if_pos h0]
        have : x.isInt = false := by unfold isInt; rw [hf]; simp; intro h; omega
        rw [this]; rfl
      · rw [if_neg h0, if_pos (hexp.1 hl)]
    · have hn : x.neg = false := by
        cases hh : x.neg with
        | false => rfl
        | true => exact absurd (hneg.2 hh) (not_lt.2 h)
      have he : ¬ x.exp ≤ 64 := fun h => absurd (hexp.2 h) (not_lt.2 hl)
      unfold uint64
      rw [hf, hn]
      simp only [Bool.false_eq_true, if_false]
      rw [if_neg (by omega), if_neg he]
    · unfold intNonneg; rw [hf]; simp only; rw [truncMag_eq, hmag]

example : let x : BigFloat := { new with prec := 4, form := .finite, mant := 13, exp := 3 }
    x.WF ∧ x.datum = .num false (13 / 2) ∧ x.isInt = false ∧ x.uint64 = (6, .below) := by
  refine ⟨⟨by decide, by decide, by decide, by decide, by decide, fun _ => ⟨13, 0, by decide, by decide⟩⟩, ?_, by decide, by decide⟩
  unfold datum mag; norm_num [new, bitLen, show Nat.log2 13 = 3 by decide]

/-- C91, `Parse` of a binary numeral with a sign, one digit, a fraction and a binary exponent, such as the packages build: the
number it denotes, rounded to the precision of the receiver (64 if it has none) in its mode, unless its exponent is out of
range. -/
theorem C91_parse {z : BigFloat} (hz : z.prec ≤ MaxPrec) (neg : Bool) {lead : ℕ} (hl : lead ≤ 1) {fs : List ℕ} (hfs : ∀ d ∈ fs, d < 2) (e : ℤ)
    {n : ℕ} (hn : n = fs.foldl (fun a d => 2 * a + d) lead) :
    let text := (if neg then ['-'] else ['+']) ++ ['0', 'b'] ++ fmtNat 10 lead ++ ['.'] ++ fs.map digitChar ++ ['p'] ++ fmtInt e
    let p := if z.prec = 0 then 64 else z.prec
    (n = 0 → ∃ r, z.parse text = some r ∧ r.datum = .num neg 0 ∧ r.acc = .exact ∧ r.prec = p) ∧
    (n ≠ 0 → (2 : ℚ) ^ (MinExp - 1) ≤ n * (2 : ℚ) ^ (e - fs.length) → n * (2 : ℚ) ^ (e - fs.length) < 2 ^ MaxExp →
      ∃ r, z.parse text = some r ∧ BigResult z.mode p neg (signed neg (n * (2 : ℚ) ^ (e - fs.length))) r) := by
  intro text p
  have hscan := scanBinary_text neg hl hfs e
  have hval : lead * 2 ^ fs.length + digsVal 2 0 fs = n := by
    have hd : ∀ (l : List ℕ) (a : ℕ), l.foldl (fun a d => 2 * a + d) a = a * 2 ^ l.length + digsVal 2 0 l := by
      intro l
      induction l using List.reverseRecOn with
      | nil => intro a; simp [digsVal]
      | append_singleton l d ih =>
        intro a
        rw [List.foldl_append, ih, digsVal_append]
        simp [digsVal, pow_succ]; ring
    rw [hn, hd]
  rw [hval] at hscan
  have hp1 : 1 ≤ p := by show 1 ≤ (if _ then _ else _); split <;> omega
  have hp2 : p ≤ MaxPrec := by show (if _ then _ else _) ≤ _; split; decide; exact hz
  constructor
  · intro h0
    refine ⟨_, by unfold parse; rw [hscan]; simp only; rw [if_pos h0], rfl, rfl, rfl⟩
  · intro h0 hlo hhi
    have hn0 : 0 < n := Nat.pos_of_ne_zero h0
    set y : BigFloat := { z with neg := neg, prec := p, form := .finite, mant := n, exp := bitLen n - fs.length + e } with hy
    have hmag : y.mag = n * (2 : ℚ) ^ (e - fs.length) := by
      rw [mag_eq]; simp only [hy]; congr 2; ring
    have e1 : MinExp ≤ y.exp := by
      by_contra hc
      have h1 := mag_lt y
      have h2 : (2 : ℚ) ^ y.exp ≤ 2 ^ (MinExp - 1) := zpow_le_zpow_right₀ (by norm_num) (by omega)
      rw [hmag] at h1
      exact absurd (h1.trans_le (h2.trans hlo)) (lt_irrefl _)
    have e2 : y.exp ≤ MaxExp := by
      by_contra hc
      have h1 := le_mag (x := y) hn0
      have h2 : (2 : ℚ) ^ MaxExp ≤ 2 ^ (y.exp - 1) := zpow_le_zpow_right₀ (by norm_num) (by omega)
      rw [hmag] at h1
      exact absurd ((h2.trans h1).trans_lt hhi) (lt_irrefl _)
    refine ⟨y.round, ?_, ?_⟩
    · unfold parse
      rw [hscan]
      simp only
      rw [if_neg h0, if_pos ⟨e1, e2⟩]
    · rw [← hmag]
      exact round_big (z := y) rfl hn0 hp1 hp2 e1 e2

example : ({ new with prec := 2, mode := .awayFromZero } : BigFloat).parse "-0b1.101p3".toList =
    some { new with prec := 2, mode := .awayFromZero, acc := .below, form := .finite, neg := true, mant := 2, exp := 5 } := by decide

/-- C91, `NewFloat`: a NaN panics, and every other float64 becomes exactly the number it encodes, with 53 bits. -/
theorem C91_newFloat (x : F64) :
    (F64.isNaN x = true → newFloat x = .error .errNaN) ∧
    (F64.isNaN x = false → ∃ y, newFloat x = .ok y ∧ y.datum = double.decode x.toNat ∧ y.WF ∧ y.prec = 53 ∧ y.mode = .toNearestEven ∧
      y.acc = .exact) := by
  refine ⟨fun h => ?_, newFloat_spec x⟩
  unfold newFloat; rw [if_pos h]

example : F64.isNaN F64.nan = true ∧ F64.isNaN 0x402A000000000000 = false := by decide

end BigFloat
end GoFloat
