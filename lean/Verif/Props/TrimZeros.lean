import Verif.Proofs.TrimZeros
/-
Properties of `trimZeros` of float.go (C38 of properties.jsonl).
-/
namespace GoFloat
open Spec Strconv

/-- The text `t` is the scientific number `s` without the trailing zeros of its fraction. -/
def Trimmed (s t : Text) (neg : Bool) (d : Char) (frac : Text) (expNeg : Bool) (ex : Text) : Prop :=
  ∃ frac', IsScientific t neg d frac' expNeg ex ∧ (∃ k, frac = frac' ++ List.replicate k '0') ∧
    frac'.getLast? ≠ some '0' ∧ readDecimal t = readDecimal s ∧ (readDecimal s).isSome

/-- A text that ends in zeros, split. -/
theorem split_zeros (s : Text) : ∃ t k, s = t ++ List.replicate k '0' ∧ t.getLast? ≠ some '0' := by
  induction s using List.reverseRecOn with
  | nil => exact ⟨[], 0, rfl, by simp⟩
  | append_singleton s c ih =>
    by_cases hc : c = '0'
    · obtain ⟨t, k, h1, h2⟩ := ih
      refine ⟨t, k + 1, ?_, h2⟩
      rw [h1, hc, List.replicate_succ', List.append_assoc]
    · exact ⟨s ++ [c], 0, by simp, by simpa using hc⟩

theorem readNumeral_isSome {s : Text} (h : ∀ c ∈ s, IsDig c) : ∃ n, readNumeral 10 s = some n := by
  induction s using List.reverseRecOn with
  | nil => exact ⟨0, rfl⟩
  | append_singleton s c ih =>
    obtain ⟨n, hn⟩ := ih fun x hx => h x (by simp [hx])
    have hc := h c (by simp)
    refine ⟨n * 10 + (c.toNat - 48), ?_⟩
    unfold readNumeral at *
    rw [List.foldl_append, hn]
    simp only [List.foldl_cons, List.foldl_nil, Option.bind_some, hc.charDigit]
    rw [if_pos (by have := hc.toNat; omega)]

theorem splitSign_sign (n : Bool) (s : Text) : splitSign ((if n then '-' else '+') :: s) = (n, s) := by
  cases n <;> rfl

/-- The value of a number in scientific notation. -/
theorem readDecimal_scientific {s : Text} {neg : Bool} {d : Char} {frac : Text} {expNeg : Bool} {ex : Text}
    (h : IsScientific s neg d frac expNeg ex) : ∃ n x : ℕ, readNumeral 10 (d :: frac) = some n ∧ readNumeral 10 ex = some x ∧
      readDecimal s = some (neg, (n : ℚ) * (10 : ℚ) ^ ((if expNeg then -(x : ℤ) else x) - frac.length)) := by
  obtain ⟨hs, hd, hex⟩ := h
  obtain ⟨n, hn⟩ := readNumeral_isSome (s := d :: frac) fun c hc => hd c (List.mem_append_left _ hc)
  obtain ⟨x, hx⟩ := readNumeral_isSome (s := ex) fun c hc => hd c (List.mem_append_right _ hc)
  refine ⟨n, x, hn, hx, ?_⟩
  have := readDecimal_layout neg [d] frac ('e' :: (if expNeg then '-' else '+') :: ex)
    (fun c hc => hd c (by simp at hc; simp [hc])) (by simp) (fun c hc => hd c (by simp [hc])) (by
      intro c hc
      have : 'e' = c := by simpa using hc
      exact Or.inl this.symm)
  rw [hs, show (if neg then ['-'] else []) ++ d :: (if frac = [] then [] else '.' :: frac) ++
    'e' :: (if expNeg then '-' else '+') :: ex = (if neg then ['-'] else []) ++ [d] ++ (if frac = [] then [] else '.' :: frac) ++
    'e' :: (if expNeg then '-' else '+') :: ex by simp, this]
  rw [List.singleton_append, hn, Option.bind_some]
  unfold readExp
  simp only [splitSign_sign]
  rw [if_neg (by intro hc; rw [hc] at hex; simp at hex), hx]
  rfl

/-- C38, in full: every number in scientific notation keeps its sign, digit, exponent and value, and loses the
trailing zeros of its fraction, and the point if nothing is left after it. -/
def C38_full : Prop := ∀ (s : Text) (neg : Bool) (d : Char) (frac : Text) (expNeg : Bool) (ex : Text),
  IsScientific s neg d frac expNeg ex → ∃ t, trimZeros s = .ok t ∧ Trimmed s t neg d frac expNeg ex

/-- C38 is false: `-0e+00` becomes `-e+00`, which is not a number. -/
theorem C38_false : ¬ C38_full := by
  intro h
  obtain ⟨t, h1, frac', h2, _, _, _⟩ := h "-0e+00".toList true '0' [] false ['0', '0'] (by
    refine ⟨rfl, ?_, by norm_num⟩
    decide +kernel)
  have ht : trimZeros "-0e+00".toList = .ok "-e+00".toList := by decide +kernel
  rw [ht] at h1
  injection h1 with h1
  obtain ⟨h2, h3, _⟩ := h2
  rw [← h1] at h2
  have h4 : 'e' = '0' ∨ 'e' = '0' := by
    have : ("-e+00".toList) = ['-', 'e', '+', '0', '0'] := by decide
    rw [this] at h2
    rw [if_pos rfl] at h2
    have h5 := congrArg (fun l : Text => l.getD 2 'x') h2
    by_cases hf : frac' = []
    · simp [hf] at h2
    · simp [hf] at h2
  rcases h4 with h4 | h4 <;> exact absurd h4 (by decide)

theorem isScientific_replace {s t : Text} {neg : Bool} {d : Char} {frac frac' : Text} {expNeg : Bool} {ex : Text} {k : ℕ}
    (h : IsScientific s neg d frac expNeg ex) (hfr : frac = frac' ++ List.replicate k '0')
    (ht : t = (if neg then ['-'] else []) ++ d :: (if frac' = [] then [] else '.' :: frac') ++
      'e' :: (if expNeg then '-' else '+') :: ex) : IsScientific t neg d frac' expNeg ex ∧ readDecimal t = readDecimal s := by
  have h' : IsScientific t neg d frac' expNeg ex := by
    refine ⟨ht, ?_, h.2.2⟩
    intro c hc
    apply h.2.1 c
    rw [hfr]
    simp only [List.cons_append, List.mem_cons, List.mem_append] at hc ⊢
    tauto
  refine ⟨h', ?_⟩
  obtain ⟨n, x, h1, h2, h3⟩ := readDecimal_scientific h
  obtain ⟨n', x', h1', h2', h3'⟩ := readDecimal_scientific h'
  rw [h3, h3']
  rw [h2] at h2'
  have hx := Option.some.inj h2'
  rw [hfr, ← List.cons_append, readNumeral_append_zeros 10 (by norm_num), h1', Option.map_some] at h1
  have hn := Option.some.inj h1
  rw [← hx, ← hn, hfr, List.length_append, List.length_replicate]
  congr 2
  push_cast
  rw [mul_assoc, ← zpow_natCast, ← zpow_add₀ (by norm_num : (10 : ℚ) ≠ 0)]
  congr 2
  ring

/-- C38, what holds: numbers with a point, which are all those that `big.Float.Text('e', 100)` prints, and numbers
without a point unless they are minus zero. Missing, because false: minus zero without a point (see `C38_false`). -/
theorem C38_trimZeros_partial (s : Text) (neg : Bool) (d : Char) (frac : Text) (expNeg : Bool) (ex : Text)
    (h : IsScientific s neg d frac expNeg ex) (hf : frac ≠ [] ∨ neg = false ∨ d ≠ '0') :
    ∃ t, trimZeros s = .ok t ∧ Trimmed s t neg d frac expNeg ex := by
  have hdig : IsDig d := h.2.1 d (by simp)
  have hsome : (readDecimal s).isSome := by
    obtain ⟨n, x, _, _, h3⟩ := readDecimal_scientific h
    rw [h3]; rfl
  have hnd : ∀ c, IsDig c → c ≠ 'e' := fun c hc => hc.ne (by decide)
  obtain ⟨frac', k, hfr, hlast⟩ := split_zeros frac
  set ex' : Text := (if expNeg then '-' else '+') :: ex with hex'
  have hsig : 'e' ∉ (if neg then ['-'] else [] : Text) := by cases neg <;> decide
  refine ⟨(if neg then ['-'] else []) ++ d :: (if frac' = [] then [] else '.' :: frac') ++ 'e' :: ex', ?_, frac', ?_⟩
  · by_cases hfrac : frac = []
    · -- no point
      have hfr' : frac' = [] := by
        rw [hfrac] at hfr
        exact (List.append_eq_nil_iff.1 hfr.symm).1
      rw [if_pos hfr']
      rw [h.1, if_pos hfrac]
      by_cases hd0 : d = '0'
      · have hneg : neg = false := by tauto
        rw [hneg, hd0]
        show trimZeros ('0' :: 'e' :: ex') = .ok ('0' :: 'e' :: ex')
        unfold trimZeros
        have := findIdx_e ['0'] ex' (by decide)
        rw [List.singleton_append] at this
        rw [this]
        rfl
      · have := trimZeros_eq (if neg then ['-'] else []) d hd0 0 ex' hsig (hnd d hdig)
        rw [List.replicate_zero] at this
        rw [this, if_neg (hdig.ne (by decide))]
    · have hmem : ∀ c ∈ frac', IsDig c := fun c hc => h.2.1 c (by rw [hfr]; simp [hc])
      rw [h.1, if_neg hfrac]
      by_cases hfr' : frac' = []
      · -- only zeros after the point
        have := trimZeros_eq ((if neg then ['-'] else []) ++ [d]) '.' (by decide) k ex' (by
          rw [List.mem_append]
          rintro (hc | hc)
          · exact hsig hc
          · exact hnd d hdig (List.mem_singleton.1 hc).symm) (by decide)
        rw [if_pos rfl] at this
        rw [if_pos hfr', hfr, hfr', List.nil_append]
        rw [show (if neg then ['-'] else []) ++ d :: '.' :: List.replicate k '0' ++ 'e' :: ex' =
          (if neg then ['-'] else []) ++ [d] ++ '.' :: List.replicate k '0' ++ 'e' :: ex' by simp, this]
        simp
      · obtain ⟨f0, c, hc⟩ : ∃ f0 c, frac' = f0 ++ [c] := ⟨_, _, (List.dropLast_append_getLast hfr').symm⟩
        have hc0 : c ≠ '0' := by
          rw [hc] at hlast
          simpa using hlast
        have hcd : IsDig c := hmem c (by rw [hc]; simp)
        have := trimZeros_eq ((if neg then ['-'] else []) ++ d :: '.' :: f0) c hc0 k ex' (by
          rw [List.mem_append, List.mem_cons, List.mem_cons]
          rintro (hx | hx | hx | hx)
          · exact hsig hx
          · exact hnd d hdig hx.symm
          · exact absurd hx (by decide)
          · exact hnd 'e' (hmem _ (by rw [hc]; simp [hx])) rfl) (hnd c hcd)
        rw [if_neg (hcd.ne (by decide))] at this
        rw [if_neg hfr', hfr, hc]
        rw [show (if neg then ['-'] else []) ++ d :: '.' :: (f0 ++ [c] ++ List.replicate k '0') ++ 'e' :: ex' =
          (if neg then ['-'] else []) ++ d :: '.' :: f0 ++ c :: List.replicate k '0' ++ 'e' :: ex' by simp, this]
        simp
  · obtain ⟨h1, h2⟩ := isScientific_replace h hfr rfl
    exact ⟨h1, ⟨k, hfr⟩, hlast, h2, hsome⟩

/-- C38: a text without exponent panics. -/
theorem C38_noExponent (s : Text) (h : 'e' ∉ s) : trimZeros s = .error .noExponent := trimZeros_noExp h

/-- C38: there is no other panic, except for a text that begins with the exponent. -/
theorem C38_panics (s : Text) : (∃ t, trimZeros s = .ok t) ↔ 'e' ∈ s ∧ s.head? ≠ some 'e' := by
  constructor
  · rintro ⟨t, ht⟩
    have h1 : 'e' ∈ s := by
      by_contra hc
      rw [trimZeros_noExp hc] at ht
      cases ht
    refine ⟨h1, fun hc => ?_⟩
    rcases s with _ | ⟨c, s⟩
    · cases hc
    · have : c = 'e' := by simpa using hc
      subst this
      have h0 := findIdx_e [] s (by simp)
      rw [List.nil_append] at h0
      unfold trimZeros at ht
      rw [h0] at ht
      cases ht
  · rintro ⟨h1, h2⟩
    rcases hi : s.findIdx? (· = 'e') with _ | i
    · rw [List.findIdx?_eq_none_iff] at hi
      simpa using hi 'e' h1
    · have h0 : i ≠ 0 := by
        rintro rfl
        rw [List.findIdx?_eq_some_iff_getElem] at hi
        obtain ⟨hl, hi, _⟩ := hi
        apply h2
        rw [List.head?_eq_getElem?, List.getElem?_eq_getElem hl]
        simpa using hi
      unfold trimZeros
      simp only [hi]
      rw [if_neg h0]
      exact ⟨_, rfl⟩

-- concrete cases
example : IsScientific "-1.2500e+03".toList true '1' "2500".toList false "03".toList := by
  refine ⟨by decide, by decide +kernel, by decide⟩
example : trimZeros "-1.2500e+03".toList = .ok "-1.25e+03".toList := by decide +kernel
example : trimZeros "1.000e-07".toList = .ok "1e-07".toList := by decide +kernel
example : readDecimal "-1.2500e+03".toList = some (true, 1250) := by
  have h : IsScientific "-1.2500e+03".toList true '1' "2500".toList false "03".toList := by
    refine ⟨by decide, by decide +kernel, by decide⟩
  obtain ⟨n, x, h1, h2, h3⟩ := readDecimal_scientific h
  have e1 : readNumeral 10 ('1' :: "2500".toList) = some 12500 := by decide
  have e2 : readNumeral 10 "03".toList = some 3 := by decide
  rw [e1] at h1
  rw [e2] at h2
  rw [h3, ← Option.some.inj h1, ← Option.some.inj h2, show "2500".toList.length = 4 by decide]
  norm_num

end GoFloat
