import Verif.Proofs.FixedText
/-
The sign in internal/strconv: no digit depends on it, and it is printed as a leading '-'.
-/
namespace GoFloat.Strconv
open Spec

/-- Give a decimal the sign `s`. -/
def sgnD (s : Bool) (d : DecimalSlice) : DecimalSlice := { d with neg := s }

/-- Give a number the sign `s`. -/
def sgnE (s : Bool) (f : ExtFloat) : ExtFloat := { f with neg := s }

theorem sgnE_multiply (s : Bool) (f g : ExtFloat) : (sgnE s f).multiply g = sgnE s (f.multiply g) := rfl

theorem sgnE_normalize (s : Bool) (f : ExtFloat) : (sgnE s f).normalize = (sgnE s f.normalize.1, f.normalize.2) := by
  unfold ExtFloat.normalize sgnE
  by_cases h : f.mant = 0
  · simp only [h, if_true]
  · simp only [h, if_false]

theorem sgnE_frexp10 (s : Bool) (f : ExtFloat) :
    (sgnE s f).frexp10 = (fun r => (sgnE s r.1, r.2)) <$> f.frexp10 := by
  unfold ExtFloat.frexp10
  simp only [show (sgnE s f).exp = f.exp from rfl]
  cases frexp10Loop f.exp 256 ((((-46 - f.exp) * 28).tdiv 93 - firstPowerOfTen).tdiv stepPowerOfTen) with
  | error e => rfl
  | ok i =>
    cases h : tableAt powersOfTen i with
    | error e => simp only [bind, Except.bind, h]; rfl
    | ok g => simp only [bind, Except.bind, h, sgnE_multiply]; rfl

theorem sgnE_frexp10Many (s : Bool) (a b c : ExtFloat) :
    frexp10Many (sgnE s a) (sgnE s b) (sgnE s c) = (fun r => (sgnE s r.1, sgnE s r.2.1, sgnE s r.2.2.1, r.2.2.2)) <$> frexp10Many a b c := by
  unfold frexp10Many
  rw [sgnE_frexp10]
  cases c.frexp10 with
  | error e => rfl
  | ok r =>
    obtain ⟨c', exp10, i⟩ := r
    simp only [Functor.map, Except.map, bind, Except.bind]
    cases h : tableAt powersOfTen i with
    | error e => rfl
    | ok g => simp only [sgnE_multiply]; rfl

theorem sgnD_adjustLastDigit (s : Bool) (d : DecimalSlice) (a b c x y : BitVec 64) :
    adjustLastDigit (sgnD s d) a b c x y = Option.map (sgnD s) <$> adjustLastDigit d a b c x y := by
  unfold adjustLastDigit
  simp only [show (sgnD s d).d = d.d from rfl]
  by_cases h1 : x < 2 * y
  · simp only [h1, if_true]; rfl
  · simp only [h1, if_false]
    cases h2 : d.d.getLast? with
    | none => rfl
    | some l =>
      simp only
      cases adjustLoop b x y 256 l a with
      | error e => rfl
      | ok r =>
        obtain ⟨l', cd⟩ := r
        simp only [bind, Except.bind, pure, Except.pure]
        split
        · rfl
        split
        · rfl
        split <;> rfl

theorem sgnD_shortestInt (s : Bool) (exp10 : ℤ) (nd shift : ℕ) (fr al td : BitVec 64) (k : ℕ) (d : List ℕ) (n : BitVec 32) :
    shortestInt s exp10 nd shift fr al td k d n =
      (Sum.map (Option.map (sgnD s)) id) <$> shortestInt false exp10 nd shift fr al td k d n := by
  induction k generalizing d n with
  | zero => rfl
  | succ k ih =>
    unfold shortestInt
    cases tableAt uint64pow10 k with
    | error e => rfl
    | ok p =>
      simp only [bind, Except.bind]
      by_cases h0 : BitVec.setWidth 32 p = 0
      · simp only [h0, if_true]; rfl
      simp only [h0, if_false, pure, Except.pure]
      cases putByte 32 d (((n / BitVec.setWidth 32 p).toNat + 48) % 256) with
      | error e => rfl
      | ok d' =>
        simp only
        split
        · have := sgnD_adjustLastDigit s ⟨d', nd + exp10, false⟩ (BitVec.setWidth 64 (n - n / BitVec.setWidth 32 p * BitVec.setWidth 32 p) <<< shift + fr) td al (p <<< shift) 2
          rw [show sgnD s ⟨d', nd + exp10, false⟩ = ⟨d', nd + exp10, s⟩ from rfl] at this
          rw [this]
          cases adjustLastDigit ⟨d', nd + exp10, false⟩ (BitVec.setWidth 64 (n - n / BitVec.setWidth 32 p * BitVec.setWidth 32 p) <<< shift + fr) td al (p <<< shift) 2 <;> rfl
        · exact ih _ _

theorem sgnD_shortestFrac (s : Bool) (dp : ℤ) (shift : ℕ) (al td : BitVec 64) (k : ℕ) (d : List ℕ) (fr m : BitVec 64) :
    shortestFrac s dp shift al td k d fr m = Option.map (sgnD s) <$> shortestFrac false dp shift al td k d fr m := by
  induction k generalizing d fr m with
  | zero => rfl
  | succ k ih =>
    unfold shortestFrac
    simp only [bind, Except.bind]
    cases putByte 32 d ((((fr * 10) >>> shift).toNat + 48) % 256) with
    | error e => rfl
    | ok d' =>
      simp only
      split
      · exact sgnD_adjustLastDigit s ⟨d', dp, false⟩ _ _ _ _ _
      · exact ih _ _ _

theorem sgnE_inj {s : Bool} {f g : ExtFloat} (hf : f.neg = false) (hg : g.neg = false) : sgnE s f = sgnE s g ↔ f = g := by
  obtain ⟨m, e, n⟩ := f
  obtain ⟨m', e', n'⟩ := g
  simp only at hf hg
  subst hf hg
  simp [sgnE]

/-- The part of `ShortestDecimal` after the scaling. -/
def shortestRest (lower f upper : ExtFloat) (exp10 : ℤ) : Go (Option DecimalSlice) := do
  let upper : ExtFloat := { upper with mant := upper.mant + 1 }
  let lower : ExtFloat := { lower with mant := lower.mant - 1 }
  let shift := uintOf (-upper.exp)
  let integer : BitVec 32 := (upper.mant >>> shift).setWidth 32
  let fraction := upper.mant - (integer.setWidth 64) <<< shift
  let allowance := upper.mant - lower.mant
  let targetDiff := upper.mant - f.mant
  let integerDigits := countDigits integer 20 0 1
  match ← shortestInt f.neg exp10 integerDigits shift fraction allowance targetDiff integerDigits [] integer with
  | .inl r => return r
  | .inr d => shortestFrac f.neg (d.length + exp10) shift allowance targetDiff 33 d fraction 1

theorem sgnE_shortestRest (s : Bool) (l f u : ExtFloat) (hf : f.neg = false) (exp10 : ℤ) :
    shortestRest (sgnE s l) (sgnE s f) (sgnE s u) exp10 = Option.map (sgnD s) <$> shortestRest l f u exp10 := by
  unfold shortestRest
  simp only [show (sgnE s u).mant = u.mant from rfl, show (sgnE s u).exp = u.exp from rfl, show (sgnE s l).mant = l.mant from rfl,
    show (sgnE s f).mant = f.mant from rfl, show (sgnE s f).neg = s from rfl, hf]
  generalize uintOf (-u.exp) = sh
  generalize hi : (BitVec.setWidth 32 ((u.mant + 1) >>> sh)) = i
  generalize countDigits i 20 0 1 = nd
  generalize u.mant + 1 - BitVec.setWidth 64 i <<< sh = fr
  generalize u.mant + 1 - (l.mant - 1) = al
  generalize u.mant + 1 - f.mant = td
  rw [sgnD_shortestInt]
  cases shortestInt false exp10 nd sh fr al td nd [] i with
  | error e => rfl
  | ok r =>
    cases r with
    | inl r => rfl
    | inr d => exact sgnD_shortestFrac s _ _ _ _ _ _ _ _

/-- Scale a number to the exponent of a normalised one. -/
def alignTo (f u : ExtFloat) : ExtFloat :=
  if f.exp > u.exp then { f with mant := f.mant <<< uintOf (f.exp - u.exp), exp := u.exp } else f

theorem sgnE_alignTo (s t : Bool) (f u : ExtFloat) : alignTo (sgnE s f) (sgnE t u) = sgnE s (alignTo f u) := by
  unfold alignTo
  simp only [show (sgnE s f).exp = f.exp from rfl, show (sgnE t u).exp = u.exp from rfl]
  split <;> rfl

theorem alignTo_neg (f u : ExtFloat) : (alignTo f u).neg = f.neg := by
  unfold alignTo
  split <;> rfl

theorem shortestDecimal_eq (f lower upper : ExtFloat) : f.shortestDecimal lower upper =
    (if f.mant = 0 then .ok (some ⟨[], 0, f.neg⟩)
    else if f.exp = 0 ∧ lower = f ∧ lower = upper then
      .ok (some ⟨((digitsOf 10 f.mant.toNat).reverse.dropWhile (· = 0)).reverse.map (· + 48),
        if ((digitsOf 10 f.mant.toNat).reverse.dropWhile (· = 0)).reverse.length = 0 then 0 else (digitsOf 10 f.mant.toNat).length, f.neg⟩)
    else do
      let r ← frexp10Many (alignTo lower upper.normalize.1) (alignTo f upper.normalize.1) upper.normalize.1
      shortestRest r.1 r.2.1 r.2.2.1 r.2.2.2) := by
  unfold ExtFloat.shortestDecimal
  split
  · rfl
  split
  · rfl
  generalize upper.normalize.1 = u
  have h1 : (if f.exp > u.exp then ExtFloat.mk (f.mant <<< uintOf (f.exp - u.exp)) u.exp f.neg else f) = alignTo f u := rfl
  have h2 : (if lower.exp > u.exp then ExtFloat.mk (lower.mant <<< uintOf (lower.exp - u.exp)) u.exp lower.neg else lower) = alignTo lower u := rfl
  simp only [h1, h2]
  generalize frexp10Many (alignTo lower u) (alignTo f u) u = g
  cases g with
  | error e => rfl
  | ok r => rfl

theorem frexp10Many_neg {a b c : ExtFloat} {r} (h : frexp10Many a b c = .ok r) : r.2.1.neg = b.neg := by
  unfold frexp10Many at h
  cases hc : c.frexp10 with
  | error e => rw [hc] at h; cases h
  | ok q =>
    obtain ⟨c', exp10, i⟩ := q
    rw [hc] at h
    simp only [bind, Except.bind] at h
    cases hg : tableAt powersOfTen i with
    | error e => rw [hg] at h; cases h
    | ok g =>
      rw [hg] at h
      simp only [pure, Except.pure, Except.ok.injEq] at h
      rw [← h]
      exact multiply_neg b g

theorem sgnE_shortestDecimal (s : Bool) {f l u : ExtFloat} (hf : f.neg = false) (hl : l.neg = false) (hu : u.neg = false) :
    (sgnE s f).shortestDecimal (sgnE s l) (sgnE s u) = Option.map (sgnD s) <$> f.shortestDecimal l u := by
  rw [shortestDecimal_eq, shortestDecimal_eq]
  simp only [sgnE_inj hl hf, sgnE_inj hl hu, show (sgnE s f).mant = f.mant from rfl, show (sgnE s f).exp = f.exp from rfl]
  split
  · rfl
  split
  · rfl
  rw [sgnE_normalize]
  simp only [sgnE_alignTo, sgnE_frexp10Many]
  cases h : frexp10Many (alignTo l u.normalize.1) (alignTo f u.normalize.1) u.normalize.1 with
  | error e => rfl
  | ok r =>
    refine sgnE_shortestRest s _ _ _ ?_ _
    rw [frexp10Many_neg h, alignTo_neg, hf]

theorem assignComputeBounds_sgn (s : Bool) (mant : BitVec 64) (exp : ℤ) (flt : FloatInfo) :
    assignComputeBounds mant exp s flt = (sgnE s (assignComputeBounds mant exp false flt).1,
      sgnE s (assignComputeBounds mant exp false flt).2.1, sgnE s (assignComputeBounds mant exp false flt).2.2) := by
  unfold assignComputeBounds
  simp only
  split
  · rfl
  split <;> rfl

theorem assignComputeBounds_neg (mant : BitVec 64) (exp : ℤ) (flt : FloatInfo) :
    (assignComputeBounds mant exp false flt).1.neg = false ∧ (assignComputeBounds mant exp false flt).2.1.neg = false ∧
      (assignComputeBounds mant exp false flt).2.2.neg = false := by
  unfold assignComputeBounds
  simp only
  split
  · exact ⟨rfl, rfl, rfl⟩
  split <;> exact ⟨rfl, rfl, rfl⟩

theorem throw_bind {α β : Type} (e : Panic) (g : α → Go β) : ((throw e : Go α) >>= g) = .error e := rfl

theorem sgnE_fixedDecimal (s : Bool) (f : ExtFloat) (n : ℤ) :
    (sgnE s f).fixedDecimal n = .ok (some ⟨[], 0, s⟩) ∧ f.fixedDecimal n = .ok (some ⟨[], 0, f.neg⟩) ∨
      (sgnE s f).fixedDecimal n = f.fixedDecimal n := by
  unfold ExtFloat.fixedDecimal
  by_cases h0 : f.mant = 0
  · left
    rw [if_pos h0, if_pos (show (sgnE s f).mant = 0 from h0)]
    exact ⟨rfl, rfl⟩
  right
  rw [if_neg h0, if_neg (show ¬ (sgnE s f).mant = 0 from h0)]
  by_cases hn : n = 0
  · rw [if_pos hn, if_pos hn, throw_bind, throw_bind]
  rw [if_neg hn, if_neg hn, sgnE_normalize]
  dsimp only
  rw [sgnE_frexp10]
  generalize f.normalize.1.frexp10 = g
  cases g with
  | error e => rfl
  | ok r =>
    obtain ⟨g, e10, i⟩ := r
    rw [show (fun r : ExtFloat × ℤ × ℤ => (sgnE s r.1, r.2)) <$> (Except.ok (g, e10, i) : Go (ExtFloat × ℤ × ℤ)) = .ok (sgnE s g, e10, i) from rfl,
      ok_bind, ok_bind]
    have hm : (sgnE s g).mant = g.mant := rfl
    have he : (sgnE s g).exp = g.exp := rfl
    generalize sgnE s g = h at hm he ⊢
    obtain ⟨m, e, _⟩ := g
    obtain ⟨m', e', _⟩ := h
    subst hm he
    rfl

/-- The text of a sign. -/
def signText (s : Bool) : Text := if s then ['-'] else []

theorem fmtE_sign (s : Bool) (d : DecimalSlice) (prec : ℤ) (fmt : Char) : fmtE s d prec fmt = signText s ++ fmtE false d prec fmt := by
  unfold fmtE signText
  simp only [Bool.false_eq_true, if_false, List.append_assoc, List.nil_append]

theorem fmtF_sign (s : Bool) (d : DecimalSlice) (prec : ℤ) : fmtF s d prec = signText s ++ fmtF false d prec := by
  unfold fmtF signText
  simp only [Bool.false_eq_true, if_false, List.append_assoc, List.nil_append]

theorem fmtE_sgnD (s t : Bool) (d : DecimalSlice) (prec : ℤ) (fmt : Char) : fmtE s (sgnD t d) prec fmt = fmtE s d prec fmt := rfl

theorem fmtF_sgnD (s t : Bool) (d : DecimalSlice) (prec : ℤ) : fmtF s (sgnD t d) prec = fmtF s d prec := rfl

theorem formatDigits_sgnD (sh s t : Bool) (d : DecimalSlice) (prec : ℤ) (fmt : Char) :
    formatDigits sh s (sgnD t d) prec fmt = formatDigits sh s d prec fmt := rfl

/-- The letters that print a number. -/
theorem formatDigits_sign (sh s : Bool) (d : DecimalSlice) (prec : ℤ) {fmt : Char} (hfmt : DecimalFormat fmt) :
    formatDigits sh s d prec fmt = signText s ++ formatDigits sh false d prec fmt := by
  unfold formatDigits
  simp only [DecimalFormat, List.mem_cons, List.not_mem_nil, or_false] at hfmt
  by_cases h1 : fmt = 'e' ∨ fmt = 'E'
  · rw [if_pos h1, if_pos h1, fmtE_sign]
  rw [if_neg h1, if_neg h1]
  by_cases h2 : fmt = 'f'
  · rw [if_pos h2, if_pos h2, fmtF_sign]
  rw [if_neg h2, if_neg h2]
  have h3 : fmt = 'g' ∨ fmt = 'G' := by tauto
  rw [if_pos h3, if_pos h3]
  dsimp only
  generalize (if sh = true then (6 : ℤ) else if prec > d.nd ∧ (d.nd : ℤ) ≥ d.dp then (d.nd : ℤ) else prec) = ep
  by_cases h4 : d.dp - 1 < -4 ∨ d.dp - 1 ≥ ep
  · rw [if_pos h4, if_pos h4, fmtE_sign]
  · rw [if_neg h4, if_neg h4, fmtF_sign]

theorem formatDigits_unknown (sh s : Bool) (d : DecimalSlice) (prec : ℤ) {fmt : Char} (hfmt : ¬ DecimalFormat fmt) :
    formatDigits sh s d prec fmt = ['%', fmt] := by
  unfold formatDigits
  simp only [DecimalFormat, List.mem_cons, List.not_mem_nil, or_false] at hfmt
  rw [if_neg (by tauto), if_neg (by tauto), if_neg (by tauto)]

/-- The sign that is printed with a format letter: none if the letter is not one that prints a number. -/
noncomputable def signFor (fmt : Char) (s : Bool) : Text := open Classical in if DecimalFormat fmt then signText s else []

theorem formatDigits_signFor (sh s : Bool) (d : DecimalSlice) (prec : ℤ) (fmt : Char) :
    formatDigits sh s d prec fmt = signFor fmt s ++ formatDigits sh false d prec fmt := by
  unfold signFor
  split
  next h => exact formatDigits_sign sh s d prec h
  next h => rw [formatDigits_unknown sh s d prec h, formatDigits_unknown sh false d prec h]; rfl

theorem bigFtoa_sign (W : ℕ) (prec : ℤ) (fmt : Char) (s : Bool) (mant : BitVec 64) (exp : ℤ) (flt : FloatInfo) :
    bigFtoa W prec fmt s mant exp flt = (signFor fmt s ++ ·) <$> bigFtoa W prec fmt false mant exp flt := by
  unfold bigFtoa
  dsimp only
  cases (Decimal.new.assign mant).shift W (exp - flt.mantbits) with
  | error e => rfl
  | ok d =>
    simp only [bind, Except.bind]
    by_cases hp : prec < 0
    · simp only [hp, if_true]
      cases roundShortest W d mant exp flt with
      | error e => rfl
      | ok d =>
        simp only
        rw [formatDigits_signFor]
        rfl
    · simp only [hp, if_false]
      rw [formatDigits_signFor]
      rfl

theorem fmtB_sign (W : ℕ) (s : Bool) (mant : BitVec 64) (exp : ℤ) (flt : FloatInfo) :
    fmtB W s mant exp flt = (signText s ++ ·) <$> fmtB W false mant exp flt := by
  unfold fmtB
  dsimp only
  cases formatBits W mant 10 false with
  | error e => rfl
  | ok m =>
    simp only [bind, Except.bind]
    cases formatBits W (BitVec.ofInt 64 (exp - flt.mantbits)) 10 (exp - flt.mantbits < 0) with
    | error e => rfl
    | ok e =>
      simp only [pure, Except.pure, Functor.map, Except.map, signText, Bool.false_eq_true, if_false, List.append_assoc, List.nil_append]

/-- The digits, exponent and error of a finite float do not depend on its sign. -/
theorem ftoaFinite_sign (W : ℕ) (opt : Bool) (fmt : Char) (prec : ℤ) (s : Bool) (mant : BitVec 64) (exp : ℤ) (flt : FloatInfo) :
    ftoaFinite W opt fmt prec s mant exp flt =
      ((if fmt = 'b' then signText s else signFor fmt s) ++ ·) <$> ftoaFinite W opt fmt prec false mant exp flt := by
  unfold ftoaFinite
  by_cases hb : fmt = 'b'
  · simp only [hb, if_true]
    rw [fmtB_sign]
  simp only [hb, if_false]
  rw [bigFtoa_sign]
  cases opt with
  | false =>
    simp only [Bool.not_false, if_true]
  | true =>
    simp only [Bool.not_true, Bool.false_eq_true, if_false]
    by_cases hp : prec < 0
    · simp only [hp, if_true]
      rw [assignComputeBounds_sgn]
      obtain ⟨n1, n2, n3⟩ := assignComputeBounds_neg mant exp flt
      generalize assignComputeBounds mant exp false flt = r at *
      obtain ⟨f, l, u⟩ := r
      simp only at n1 n2 n3 ⊢
      rw [sgnE_shortestDecimal s n1 n2 n3]
      cases f.shortestDecimal l u with
      | error e => rfl
      | ok o =>
        cases o with
        | none => rfl
        | some d =>
          simp only [bind, Except.bind, Functor.map, Except.map, Option.map, pure, Except.pure]
          rw [formatDigits_sgnD, formatDigits_signFor]
          rfl
    · simp only [hp, if_false]
      by_cases hf : fmt = 'f'
      · simp only [hf, ne_eq, not_true, if_false]
      · simp only [hf, ne_eq, not_false_eq_true, if_true]
        generalize (if (fmt = 'g' ∨ fmt = 'G') ∧ prec = 0 then (1 : ℤ) else prec) = p
        generalize (if fmt = 'e' ∨ fmt = 'E' then p + 1 else p) = n
        by_cases hn : n ≤ 15
        · rw [if_pos hn, if_pos hn, bigFtoa_sign]
          have := sgnE_fixedDecimal s ⟨mant, exp - flt.mantbits, false⟩ n
          rw [show sgnE s ⟨mant, exp - flt.mantbits, false⟩ = ⟨mant, exp - flt.mantbits, s⟩ from rfl] at this
          rcases this with ⟨h1, h2⟩ | h
          · rw [h1, h2, ok_bind, ok_bind]
            dsimp only
            rw [formatDigits_signFor]
            rfl
          · rw [h]
            generalize ExtFloat.fixedDecimal ⟨mant, exp - flt.mantbits, false⟩ n = g
            cases g with
            | error e => rfl
            | ok o =>
              cases o with
              | none => rfl
              | some d =>
                rw [ok_bind, ok_bind]
                dsimp only
                rw [formatDigits_signFor]
                rfl
        · rw [if_neg hn, if_neg hn, bigFtoa_sign]

end GoFloat.Strconv
