import Verif.Spec.Shown
import Verif.Proofs.DecimalText
import Verif.Proofs.Decimal
import Mathlib.Tactic.Linarith
import Mathlib.Tactic.Positivity
import Mathlib.Tactic.FieldSimp
import Mathlib.Tactic.Ring
/-
The shape and the value of a decimal text determine it.
-/
namespace GoFloat.Strconv
open Spec

/-- A text of digits is a list of digits. -/
theorem digits_of {a : Text} (h : ∀ c ∈ a, IsDig c) : ∃ ds : List ℕ, a = ds.map dchar ∧ ∀ d ∈ ds, d < 10 := by
  induction a with
  | nil => exact ⟨[], rfl, by simp⟩
  | cons c a ih =>
    obtain ⟨ds, h1, h2⟩ := ih fun x hx => h x (by simp [hx])
    have hc := h c (by simp)
    have hn := hc.toNat
    refine ⟨(c.toNat - 48) :: ds, ?_, ?_⟩
    · rw [List.map_cons, ← h1, (dchar_charDigit hc.charDigit).2]
    · intro d hd
      rcases List.mem_cons.1 hd with rfl | hd
      · omega
      · exact h2 d hd

theorem read_digits {ds : List ℕ} (h : ∀ d ∈ ds, d < 10) : readNumeral 10 (ds.map dchar) = some (dv ds) :=
  readNumeral_map (by norm_num) h

/-- The digits of an exponent are determined by it. -/
theorem exponent_unique {a b : Text} {n : ℕ} (ha : IsExponent a n) (hb : IsExponent b n) : a = b := by
  obtain ⟨a1, a2, a3⟩ := ha
  obtain ⟨b1, b2, b3⟩ := hb
  obtain ⟨da, rfl, la, va⟩ := readNumeral_inv a1
  obtain ⟨db, rfl, lb, vb⟩ := readNumeral_inv b1
  change dv da = n at va
  change dv db = n at vb
  simp only [List.length_map] at *
  have key : ∀ x y : List ℕ, (∀ d ∈ x, d < 10) → 2 ≤ x.length → (2 < y.length → (y.map dchar).head? ≠ some '0') → dv x = dv y → y.length ≤ x.length := by
    intro x y hx h2 h3 hv
    by_contra hc
    have hne : y ≠ [] := by
      rintro rfl
      simp at hc
    have h4 := h3 (by omega)
    have h5 : y.head? ≠ some 0 := by
      intro h0
      apply h4
      rw [List.head?_map, h0]
      rfl
    have h6 := dv_ge h5 hne
    have h7 := dv_lt hx
    have h8 : 10 ^ x.length ≤ 10 ^ (y.length - 1) := Nat.pow_le_pow_right (by norm_num) (by omega)
    omega
  have hl : da.length = db.length := le_antisymm (key db da lb b2 a3 (vb.trans va.symm)) (key da db la a2 b3 (va.trans vb.symm))
  rw [dv_inj la lb hl (va.trans vb.symm)]

theorem zpow_split {q : ℚ} {n k : ℕ} {x : ℤ} (h : q = n * (10 : ℚ) ^ (x - k)) : q * 10 ^ k = n * (10 : ℚ) ^ x := by
  rw [h, zpow_sub₀ (by norm_num), zpow_natCast]
  field_simp

/-- Of two numbers of the same value, without a zero at the end of the fraction, the fractions are equally long. -/
theorem frac_length {i i' f f' : List ℕ} {x : ℤ}
    (hf : f.getLast? ≠ some 0) (hf' : f'.getLast? ≠ some 0)
    (hl : ∀ d ∈ f, d < 10) (hl' : ∀ d ∈ f', d < 10)
    (h : (dv (i ++ f) : ℚ) * (10 : ℚ) ^ (x - f.length) = dv (i' ++ f') * (10 : ℚ) ^ (x - f'.length)) : f.length = f'.length := by
  have key : ∀ {i i' f f' : List ℕ}, f'.getLast? ≠ some 0 → (∀ d ∈ f', d < 10) →
      (dv (i ++ f) : ℚ) * (10 : ℚ) ^ (x - f.length) = dv (i' ++ f') * (10 : ℚ) ^ (x - f'.length) → ¬ f.length < f'.length := by
    intro i i' f f' hf' hl' h hc
    rcases List.eq_nil_or_concat f' with h0 | ⟨r, c, h0⟩
    · rw [h0] at hc
      simp at hc
    · rw [List.concat_eq_append] at h0
      have hc0 : c ≠ 0 := by
        rintro rfl
        apply hf'
        rw [h0]
        simp
      have hc10 : c < 10 := hl' c (by rw [h0]; simp)
      obtain ⟨k, hk⟩ : ∃ k : ℕ, f'.length = f.length + k + 1 := ⟨f'.length - f.length - 1, by omega⟩
      have e : (dv (i' ++ f') : ℚ) = dv (i ++ f) * 10 ^ (k + 1) := by
        have e1 : (10 : ℚ) ^ (x - f.length) = (10 : ℚ) ^ (x - f'.length) * 10 ^ (k + 1) := by
          rw [← zpow_natCast, ← zpow_add₀ (by norm_num), hk]
          congr 1
          push_cast
          ring
        rw [e1] at h
        have hp : (10 : ℚ) ^ (x - f'.length) ≠ 0 := by positivity
        have : (dv (i' ++ f') : ℚ) * (10 : ℚ) ^ (x - f'.length) = dv (i ++ f) * 10 ^ (k + 1) * (10 : ℚ) ^ (x - f'.length) := by
          rw [← h]; ring
        exact mul_right_cancel₀ hp this
      have e' : dv (i' ++ f') = dv (i ++ f) * 10 ^ (k + 1) := by exact_mod_cast e
      rw [h0, ← List.append_assoc, dv_snoc, pow_succ, ← mul_assoc] at e'
      omega
  exact le_antisymm (not_lt.1 (key hf hl h.symm)) (not_lt.1 (key hf' hl' h))

theorem last_map {f : List ℕ} (h : (f.map dchar).getLast? ≠ some '0') : f.getLast? ≠ some 0 := by
  intro h0
  apply h
  rw [List.getLast?_map, h0]
  rfl

/-- What a text in exponential form denotes. -/
theorem exponential_read {letter : Char} {t : Text} {s : Bool} {d : Char} {frac : Text} {x : ℤ} (hle : letter = 'e' ∨ letter = 'E')
    (h : IsExponential letter t s d frac x) : ∃ (k : ℕ) (f : List ℕ), d = dchar k ∧ frac = f.map dchar ∧ k < 10 ∧ (∀ d ∈ f, d < 10) ∧
      readDecimal t = some (s, (dv (k :: f) : ℚ) * (10 : ℚ) ^ (x - f.length)) := by
  obtain ⟨⟨ex, ⟨x1, x2, x3⟩, rfl⟩, hdig⟩ := h
  obtain ⟨ds, h1, h2⟩ := digits_of (a := d :: frac) hdig
  rcases ds with _ | ⟨k, f⟩
  · simp at h1
  · rw [List.map_cons, List.cons.injEq] at h1
    refine ⟨k, f, h1.1, h1.2, h2 k (by simp), fun d hd => h2 d (by simp [hd]), ?_⟩
    have hne : ex ≠ [] := by
      rintro rfl
      simp at x2
    have hex : readExp (letter :: (if x < 0 then '-' else '+') :: ex) = some x := by
      unfold readExp
      have hs : splitSign ((if x < 0 then '-' else '+') :: ex) = (decide (x < 0), ex) := by
        by_cases hx : x < 0
        · rw [if_pos hx, decide_eq_true hx]; rfl
        · rw [if_neg hx, decide_eq_false hx]; rfl
      simp only [hs, if_neg hne, x1, decide_eq_true_eq]
      change some (if x < 0 then -(x.natAbs : ℤ) else x.natAbs) = some x
      congr 1
      by_cases hx : x < 0
      · rw [if_pos hx]; omega
      · rw [if_neg hx]; omega
    have hr := readDecimal_layout s [d] frac (letter :: (if x < 0 then '-' else '+') :: ex) (fun c hc => hdig c (by simp at hc; simp [hc])) (by simp)
      (fun c hc => hdig c (by simp [hc])) (fun c hc => by
        have : letter = c := by simpa using hc
        exact this ▸ hle)
    rw [hex] at hr
    have hn : readNumeral 10 ([d] ++ frac) = some (dv (k :: f)) := by
      rw [List.singleton_append, h1.1, h1.2, ← List.map_cons]
      exact read_digits h2
    rw [hn] at hr
    simp only [Option.bind_some, Option.map_some] at hr
    rw [show minus s ++ d :: pointed frac ++ letter :: (if x < 0 then '-' else '+') :: ex =
      (if s then ['-'] else []) ++ [d] ++ (if frac = [] then [] else '.' :: frac) ++ letter :: (if x < 0 then '-' else '+') :: ex by
        unfold minus pointed; simp]
    rw [hr, h1.2, List.length_map]

/-- What a text in fixed form denotes. -/
theorem fixed_read {t : Text} {s : Bool} {int frac : Text} (h : IsFixed t s int frac) : ∃ (n : ℕ) (i f : List ℕ), IsNumeral 10 int n ∧
    int = i.map dchar ∧ frac = f.map dchar ∧ (∀ d ∈ i, d < 10) ∧ (∀ d ∈ f, d < 10) ∧ dv i = n ∧
      readDecimal t = some (s, (dv (i ++ f) : ℚ) * (10 : ℚ) ^ (0 - (f.length : ℤ))) := by
  obtain ⟨rfl, ⟨n, hn⟩, hdig⟩ := h
  obtain ⟨i, rfl, hi, vi⟩ := readNumeral_inv hn.2.1
  obtain ⟨f, rfl, hf⟩ := digits_of (a := frac) hdig
  refine ⟨n, i, f, hn, rfl, rfl, hi, hf, vi, ?_⟩
  have hr := readDecimal_layout s (i.map dchar) (f.map dchar) [] (fun c hc => by
      obtain ⟨d, hd, rfl⟩ := List.mem_map.1 hc
      exact isDig_dchar (hi d hd)) hn.1 hdig (fun c hc => by simp at hc)
  rw [List.append_nil] at hr
  have hv : readNumeral 10 (i.map dchar ++ f.map dchar) = some (dv (i ++ f)) := by
    rw [← List.map_append]
    exact read_digits (by
      intro d hd
      rcases List.mem_append.1 hd with h | h
      · exact hi d h
      · exact hf d h)
  rw [hv] at hr
  simp only [Option.bind_some, show readExp [] = some 0 from rfl, Option.map_some, List.length_map] at hr
  exact hr

/-- The fractions end alike: they are equally long, or neither ends in a zero. -/
def SameEnd (f f' : Text) : Prop := f.length = f'.length ∨ f.getLast? ≠ some '0' ∧ f'.getLast? ≠ some '0'

/-- The shape and the value determine a text in exponential form. -/
theorem shapeE_unique {letter : Char} {t t' : Text} {s : Bool} {q : ℚ} {f f' : Text} (hle : letter = 'e' ∨ letter = 'E')
    (h : ShapeE letter t s q f) (h' : ShapeE letter t' s q f') (hr : readDecimal t = some (s, q)) (hr' : readDecimal t' = some (s, q))
    (he : SameEnd f f') : t = t' := by
  obtain ⟨d, x, g1, g2, g3⟩ := h
  obtain ⟨d', x', g1', g2', g3'⟩ := h'
  obtain ⟨k, a, rfl, rfl, hk, ha, hv⟩ := exponential_read hle g1
  obtain ⟨k', a', rfl, rfl, hk', ha', hv'⟩ := exponential_read hle g1'
  rw [hr] at hv
  rw [hr'] at hv'
  have hq : q = dv (k :: a) * (10 : ℚ) ^ (x - a.length) := (Prod.mk.inj (Option.some.inj hv)).2
  have hq' : q = dv (k' :: a') * (10 : ℚ) ^ (x' - a'.length) := (Prod.mk.inj (Option.some.inj hv')).2
  -- the exponent
  have hx : x = x' := by
    by_cases hq0 : q = 0
    · rw [g3 hq0, g3' hq0]
    · have key : ∀ (k : ℕ) (a : List ℕ) (x : ℤ), k < 10 → (∀ d ∈ a, d < 10) → (dchar k = '0' ↔ q = 0) → q = dv (k :: a) * (10 : ℚ) ^ (x - a.length) →
          (10 : ℚ) ^ x ≤ q ∧ q < (10 : ℚ) ^ (x + 1) := by
        intro k a x hk ha h0 hq
        have hk0 : k ≠ 0 := by
          rintro rfl
          exact hq0 (h0.1 rfl)
        have h1 : 10 ^ a.length ≤ dv (k :: a) := by
          have := dv_ge (ds := k :: a) (by simpa using hk0) (by simp)
          simpa using this
        have h2 : dv (k :: a) < 10 ^ (a.length + 1) := by
          have := dv_lt (ds := k :: a) (by
            intro d hd
            rcases List.mem_cons.1 hd with rfl | hd
            · exact hk
            · exact ha d hd)
          simpa using this
        have h1q : (10 : ℚ) ^ a.length ≤ dv (k :: a) := by exact_mod_cast h1
        have h2q : (dv (k :: a) : ℚ) < 10 ^ (a.length + 1) := by exact_mod_cast h2
        have hp : (0 : ℚ) < (10 : ℚ) ^ (x - a.length) := by positivity
        constructor
        · calc (10 : ℚ) ^ x = 10 ^ a.length * (10 : ℚ) ^ (x - a.length) := by
                rw [← zpow_natCast, ← zpow_add₀ (by norm_num)]; congr 1; ring
            _ ≤ _ := by rw [hq]; exact mul_le_mul_of_nonneg_right h1q hp.le
        · calc q < 10 ^ (a.length + 1) * (10 : ℚ) ^ (x - a.length) := by rw [hq]; exact mul_lt_mul_of_pos_right h2q hp
            _ = _ := by rw [← zpow_natCast, ← zpow_add₀ (by norm_num)]; congr 1; push_cast; ring
      obtain ⟨l1, l2⟩ := key k a x hk ha g2 hq
      obtain ⟨m1, m2⟩ := key k' a' x' hk' ha' g2' hq'
      have n1 := l1.trans_lt m2
      have n2 := m1.trans_lt l2
      rw [zpow_lt_zpow_iff_right₀ (by norm_num)] at n1 n2
      omega
  subst hx
  have hlen : a.length = a'.length := by
    rcases he with he | ⟨e1, e2⟩
    · simpa using he
    · exact frac_length (i := [k]) (i' := [k']) (last_map e1) (last_map e2) ha ha' (hq.symm.trans hq')
  have hdv : dv (k :: a) = dv (k' :: a') := by
    have := hq.symm.trans hq'
    rw [hlen] at this
    have hp : (10 : ℚ) ^ (x - a'.length) ≠ 0 := by positivity
    exact_mod_cast mul_right_cancel₀ hp this
  have hall : k :: a = k' :: a' := dv_inj (by
      intro d hd
      rcases List.mem_cons.1 hd with rfl | hd
      · exact hk
      · exact ha d hd) (by
      intro d hd
      rcases List.mem_cons.1 hd with rfl | hd
      · exact hk'
      · exact ha' d hd) (by simpa using hlen) hdv
  rw [List.cons.injEq] at hall
  obtain ⟨⟨ex, p1, rfl⟩, -⟩ := g1
  obtain ⟨⟨ex', p1', rfl⟩, -⟩ := g1'
  rw [hall.1, hall.2, exponent_unique p1 p1']

/-- The shape and the value determine a text in fixed form. -/
theorem fixed_unique {t t' : Text} {s : Bool} {q : ℚ} {int int' f f' : Text} (h : IsFixed t s int f) (h' : IsFixed t' s int' f')
    (hr : readDecimal t = some (s, q)) (hr' : readDecimal t' = some (s, q)) (he : SameEnd f f') : t = t' := by
  obtain ⟨n, i, a, h1, rfl, rfl, hi, ha, hn, hv⟩ := fixed_read h
  obtain ⟨n', i', a', h1', rfl, rfl, hi', ha', hn', hv'⟩ := fixed_read h'
  rw [hr] at hv
  rw [hr'] at hv'
  have hq : q = dv (i ++ a) * (10 : ℚ) ^ (0 - (a.length : ℤ)) := (Prod.mk.inj (Option.some.inj hv)).2
  have hq' : q = dv (i' ++ a') * (10 : ℚ) ^ (0 - (a'.length : ℤ)) := (Prod.mk.inj (Option.some.inj hv')).2
  have hlen : a.length = a'.length := by
    rcases he with he | ⟨e1, e2⟩
    · simpa using he
    · exact frac_length (last_map e1) (last_map e2) ha ha' (hq.symm.trans hq')
  have hdv : dv (i ++ a) = dv (i' ++ a') := by
    have := hq.symm.trans hq'
    rw [hlen] at this
    have hp : (10 : ℚ) ^ (0 - (a'.length : ℤ)) ≠ 0 := by positivity
    exact_mod_cast mul_right_cancel₀ hp this
  rw [dv_append, dv_append, hlen, hn, hn'] at hdv
  have l1 := dv_lt ha
  have l2 := dv_lt ha'
  rw [hlen] at l1
  have hp : 0 < 10 ^ a'.length := by positivity
  have hnn : n = n' := by
    have := congrArg (· / 10 ^ a'.length) hdv
    simpa [Nat.mul_comm _ (10 ^ a'.length), Nat.mul_add_div hp, Nat.div_eq_of_lt l1, Nat.div_eq_of_lt l2] using this
  subst hnn
  have haa : a = a' := dv_inj ha ha' hlen (by omega)
  rw [h.text, h'.text, isNumeral_unique (by norm_num) h1 h1', haa]

end GoFloat.Strconv
