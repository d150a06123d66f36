import Verif.Proofs.Big
import Verif.Model.Text
import Mathlib.Tactic.IntervalCases
/-
Printing with `fmt.Sprintf` and reading back with `Parse` are inverse.
-/
namespace GoFloat

/-- Value of a digit string (most significant first) appended to the number `acc`. -/
def digsVal (b : ℕ) (acc : ℕ) (ds : List ℕ) : ℕ := ds.foldl (fun a d => a * b + d) acc

theorem digsVal_append (b acc : ℕ) (xs ys : List ℕ) :
    digsVal b acc (xs ++ ys) = digsVal b (digsVal b acc xs) ys := List.foldl_append

theorem digsVal_acc (b : ℕ) (ds : List ℕ) : ∀ acc, digsVal b acc ds = acc * b ^ ds.length + digsVal b 0 ds := by
  induction ds with
  | nil => intro acc; simp [digsVal]
  | cons d ds ih =>
    intro acc
    change digsVal b (acc * b + d) ds = _ + digsVal b (0 * b + d) ds
    rw [ih (acc * b + d), ih (0 * b + d), List.length_cons, pow_succ]; ring

theorem digsVal_lt {b : ℕ} (ds : List ℕ) (h : ∀ d ∈ ds, d < b) : digsVal b 0 ds < b ^ ds.length := by
  induction ds with
  | nil => simp [digsVal]
  | cons d ds ih =>
    change digsVal b (0 * b + d) ds < _
    rw [digsVal_acc]
    have h1 := ih (fun x hx => h x (List.mem_cons_of_mem _ hx))
    have h2 := h d List.mem_cons_self
    rw [List.length_cons, pow_succ]
    have : (0 * b + d + 1) * b ^ ds.length ≤ b * b ^ ds.length := Nat.mul_le_mul_right _ (by omega)
    nlinarith

theorem digsVal_replicate_zero (b n : ℕ) : digsVal b 0 (List.replicate n 0) = 0 := by
  induction n with
  | zero => rfl
  | succ n ih =>
    rw [List.replicate_succ]
    change digsVal b (0 * b + 0) (List.replicate n 0) = 0
    simpa using ih

theorem digitVal_digitChar {b d : ℕ} (h : d < min b 10) : digitVal b (digitChar d) = some d := by
  have h10 : d < 10 := by omega
  have hc : (digitChar d).toNat = 48 + d := by interval_cases d <;> rfl
  have hle : '0' ≤ digitChar d := by interval_cases d <;> decide
  unfold digitVal
  rw [hc, if_pos ⟨hle, by omega⟩]
  congr 1; omega

theorem scanDigits_append {b : ℕ} (ds : List ℕ) (hd : ∀ d ∈ ds, d < min b 10) (rest : Text)
    (hr : ∀ c ∈ rest.head?, digitVal b c = none) : ∀ acc n,
    scanDigits b (ds.map digitChar ++ rest) acc n = (digsVal b acc ds, n + ds.length, rest) := by
  induction ds with
  | nil =>
    intro acc n
    cases rest with
    | nil => rfl
    | cons c cs =>
      have := hr c (by simp)
      simp [scanDigits, this, digsVal]
  | cons d ds ih =>
    intro acc n
    have h1 := digitVal_digitChar (hd d List.mem_cons_self)
    simp only [List.map_cons, List.cons_append, scanDigits, h1]
    rw [ih (fun x hx => hd x (List.mem_cons_of_mem _ hx))]
    simp only [List.length_cons, digsVal, List.foldl_cons]
    congr 2; omega

theorem digitsAux_spec {b : ℕ} (hb : 2 ≤ b) : ∀ (f n : ℕ) (acc : List ℕ), n < b ^ f →
    digsVal b 0 (digitsAux b f n acc) = digsVal b n acc ∧
    ((∀ d ∈ acc, d < b) → ∀ d ∈ digitsAux b f n acc, d < b) ∧
    (∀ k, n < b ^ k → (digitsAux b f n acc).length ≤ k + acc.length) ∧
    (n ≠ 0 → digitsAux b f n acc ≠ []) := by
  intro f
  induction f with
  | zero =>
    intro n acc h
    have : n = 0 := by simpa using h
    subst this
    exact ⟨rfl, fun h => h, fun k _ => by simp [digitsAux], fun h => absurd rfl h⟩
  | succ f ih =>
    intro n acc h
    unfold digitsAux
    by_cases hn : n = 0
    · subst hn
      rw [if_pos rfl]
      exact ⟨rfl, fun h => h, fun k _ => by omega, fun h => absurd rfl h⟩
    · rw [if_neg hn]
      have hlt : n / b < b ^ f := by
        rw [Nat.div_lt_iff_lt_mul (by omega), ← pow_succ]; exact h
      obtain ⟨h1, h2, h3, h4⟩ := ih (n / b) (n % b :: acc) hlt
      refine ⟨?_, ?_, ?_, ?_⟩
      · rw [h1]
        change digsVal b (n / b * b + n % b) acc = _
        rw [Nat.div_add_mod']
      · intro ha
        apply h2
        intro d hd
        rcases List.mem_cons.1 hd with rfl | hd
        · exact Nat.mod_lt _ (by omega)
        · exact ha d hd
      · intro k hk
        cases k with
        | zero => simp at hk; omega
        | succ k =>
          have := h3 k (by rw [Nat.div_lt_iff_lt_mul (by omega), ← pow_succ]; exact hk)
          rw [List.length_cons] at this; omega
      · intro _
        by_cases hd : n / b = 0
        · cases f with
          | zero => simp [digitsAux]
          | succ f => simp [digitsAux, hd]
        · exact h4 hd

theorem digitsOf_spec {b : ℕ} (hb : 2 ≤ b) (n : ℕ) :
    digsVal b 0 (digitsOf b n) = n ∧ (∀ d ∈ digitsOf b n, d < b) ∧
    (∀ k, n < b ^ k → (digitsOf b n).length ≤ k) ∧ (n ≠ 0 → digitsOf b n ≠ []) := by
  have h : n < b ^ bitLen n := lt_of_lt_of_le (lt_two_pow_bitLen n) (Nat.pow_le_pow_left hb _)
  obtain ⟨h1, h2, h3, h4⟩ := digitsAux_spec hb (bitLen n) n [] h
  exact ⟨h1, h2 (by simp), fun k hk => by simpa [digitsOf] using h3 k hk, h4⟩

theorem fmtNat_digits {b : ℕ} (hb : 2 ≤ b) (n : ℕ) :
    ∃ ds : List ℕ, fmtNat b n = ds.map digitChar ∧ ds ≠ [] ∧ (∀ d ∈ ds, d < b) ∧ digsVal b 0 ds = n ∧
      (∀ k, 1 ≤ k → n < b ^ k → ds.length ≤ k) := by
  unfold fmtNat
  by_cases hn : n = 0
  · subst hn
    refine ⟨[0], by simp [digitChar], by simp, by simp; omega, by simp [digsVal], fun k hk _ => by simpa using hk⟩
  · rw [if_neg hn]
    obtain ⟨h1, h2, h3, h4⟩ := digitsOf_spec hb n
    exact ⟨_, rfl, h4 hn, h2, h1, fun k _ hk => h3 k hk⟩

theorem fmtBinPad_digits {w n : ℕ} (hw : 1 ≤ w) (hn : n < 2 ^ w) :
    ∃ ds : List ℕ, fmtBinPad w n = ds.map digitChar ∧ ds.length = w ∧ (∀ d ∈ ds, d < 2) ∧ digsVal 2 0 ds = n := by
  obtain ⟨ds, h1, h2, h3, h4, h5⟩ := fmtNat_digits (le_refl 2) n
  refine ⟨List.replicate (w - ds.length) 0 ++ ds, ?_, ?_, ?_, ?_⟩
  · unfold fmtBinPad
    rw [h1]; simp [digitChar]
  · have := h5 w hw hn
    simp; omega
  · intro d hd
    rcases List.mem_append.1 hd with h | h
    · have := List.eq_of_mem_replicate h; omega
    · exact h3 d h
  · rw [digsVal_append, digsVal_replicate_zero, h4]

theorem scan_fmtInt (e : ℤ) : ∃ (eneg : Bool) (s : Text) (a k : ℕ), scanSign (fmtInt e) = (eneg, s) ∧
    scanDigits 10 s 0 0 = (a, k, []) ∧ k ≠ 0 ∧ (if eneg then -(a : ℤ) else a) = e := by
  obtain ⟨ds, h1, h2, h3, h4, -⟩ := fmtNat_digits (b := 10) (by norm_num) e.natAbs
  have hlen : ds.length ≠ 0 := fun h => h2 (List.length_eq_zero_iff.1 h)
  have hsc := scanDigits_append ds (b := 10) (fun d hd => by simpa using h3 d hd) [] (by simp) 0 0
  rw [List.append_nil, h4, Nat.zero_add] at hsc
  unfold fmtInt
  rw [h1]
  by_cases he : e < 0
  · rw [if_pos he]
    exact ⟨true, ds.map digitChar, e.natAbs, ds.length, rfl, hsc, hlen, by simp only [if_true]; omega⟩
  · rw [if_neg he]
    refine ⟨false, ds.map digitChar, e.natAbs, ds.length, ?_, hsc, hlen, by simp only [Bool.false_eq_true, if_false]; omega⟩
    cases ds with
    | nil => exact absurd rfl h2
    | cons d ds =>
      have hd : d < 10 := h3 d List.mem_cons_self
      simp only [List.map_cons]
      have h1 : digitChar d ≠ '-' := by interval_cases d <;> decide
      have h2 : digitChar d ≠ '+' := by interval_cases d <;> decide
      generalize digitChar d = c at *
      unfold scanSign
      split
      · rename_i heq; exact absurd (List.cons.inj heq).1 h1
      · rename_i heq; exact absurd (List.cons.inj heq).1 h2
      · rfl

/-- The text `[+-]0b<lead>.<frac>p<exp>` that the packages build reads back as its parts. -/
theorem scanBinary_text (neg : Bool) {lead : ℕ} (hl : lead ≤ 1) {fs : List ℕ} (hfs : ∀ d ∈ fs, d < 2) (e : ℤ) :
    scanBinary ((if neg then ['-'] else ['+']) ++ ['0', 'b'] ++ fmtNat 10 lead ++ ['.'] ++ fs.map digitChar
      ++ ['p'] ++ fmtInt e) =
    some { neg := neg, mant := lead * 2 ^ fs.length + digsVal 2 0 fs, frac := fs.length, exp := e } := by
  obtain ⟨eneg, s, a, k, hs1, hs2, hk, hval⟩ := scan_fmtInt e
  have hlead : fmtNat 10 lead = [lead].map digitChar := by
    rcases (by omega : lead = 0 ∨ lead = 1) with rfl | rfl <;> rfl
  have h1 : scanSign ((if neg then ['-'] else ['+']) ++ ['0', 'b'] ++ fmtNat 10 lead ++ ['.'] ++ fs.map digitChar
      ++ ['p'] ++ fmtInt e) =
      (neg, '0' :: 'b' :: ([lead].map digitChar ++ ('.' :: (fs.map digitChar ++ ('p' :: fmtInt e))))) := by
    rw [hlead]
    cases neg <;> simp [scanSign]
  have hd1 := scanDigits_append (b := 2) [lead] (by simp; omega) ('.' :: (fs.map digitChar ++ ('p' :: fmtInt e)))
    (by simp; decide) 0 0
  have hd2 := scanDigits_append (b := 2) fs (fun d hd => by simpa using hfs d hd) ('p' :: fmtInt e)
    (by simp; decide) (digsVal 2 0 [lead]) 0
  unfold scanBinary
  rw [h1]
  simp only [hd1, hd2, hs1, hs2]
  rw [if_neg (by simp), if_neg (by simp [hk]), hval, digsVal_acc 2 fs]
  congr 2
  · simp [digsVal]
  · omega

/-- Parsing such a text, when the mantissa fits the precision. -/
theorem parse_of_scan {x : BigFloat} {s : Text} {r : Scanned} (h : scanBinary s = some r) (hp : 1 ≤ x.prec)
    (hm : r.mant < 2 ^ x.prec) (h1 : BigFloat.MinExp ≤ (bitLen r.mant : ℤ) - r.frac + r.exp)
    (h2 : (bitLen r.mant : ℤ) - r.frac + r.exp ≤ BigFloat.MaxExp) :
    x.parse s = some (if r.mant = 0 then { x with neg := r.neg, acc := .exact, form := .zero, mant := 0 }
      else { x with neg := r.neg, acc := .exact, form := .finite, mant := r.mant,
                    exp := bitLen r.mant - r.frac + r.exp }) := by
  unfold BigFloat.parse
  rw [h]
  simp only
  rw [if_neg (by omega : ¬ x.prec = 0)]
  by_cases hm0 : r.mant = 0
  · simp [hm0]
  · rw [if_neg hm0, if_neg hm0, if_pos ⟨h1, h2⟩]
    unfold BigFloat.round
    simp only
    rw [if_pos (bitLen_le_of_lt hm)]

end GoFloat
