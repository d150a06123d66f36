import Verif.Model.GenRow
import Verif.Spec.GoSource
import Verif.Props.GenText
import Verif.Props.FtoaLayout
import Verif.Props.Ftoa
/-
Property C86: the lines of source text that the programs gen.go write.
-/
namespace GoFloat
open Spec Strconv

/-- The characters of numbers. -/
def NumChar (c : Char) : Prop := ('0' ≤ c ∧ c ≤ '9') ∨ c ∈ ['+', '-', '.', 'e', 'b', 'p']

theorem NumChar.ne {c : Char} (h : NumChar c) : c ≠ '\n' ∧ c ≠ '"' ∧ c ≠ '\\' ∧ c ≠ '}' ∧ c ≠ ':' ∧ c ≠ ',' := by
  rcases h with ⟨h1, h2⟩ | h
  · refine ⟨?_, ?_, ?_, ?_, ?_, ?_⟩ <;> rintro rfl <;> revert h1 h2 <;> decide
  · simp only [List.mem_cons, List.not_mem_nil, or_false] at h
    rcases h with rfl | rfl | rfl | rfl | rfl | rfl <;> decide

theorem numChar_digit {d : ℕ} (h : d < 10) : NumChar (digitChar d) ∧ NumChar (dchar d) := by
  unfold NumChar
  interval_cases d <;> decide

theorem numChar_minus (s : Bool) : ∀ c ∈ minus s, NumChar c := by
  unfold NumChar
  cases s <;> decide

theorem numChar_pointed {t : Text} (h : ∀ c ∈ t, NumChar c) : ∀ c ∈ pointed t, NumChar c := by
  unfold pointed
  split
  · simp
  · intro c hc
    rcases List.mem_cons.1 hc with rfl | hc
    · exact Or.inr (by decide)
    · exact h c hc

theorem numChar_append {s t : Text} (h : ∀ c ∈ s, NumChar c) (h' : ∀ c ∈ t, NumChar c) : ∀ c ∈ s ++ t, NumChar c := by
  intro c hc
  rcases List.mem_append.1 hc with hc | hc
  · exact h c hc
  · exact h' c hc

theorem numChar_map {f : ℕ → Char} (hf : ∀ d < 10, NumChar (f d)) {ds : List ℕ} (h : ∀ d ∈ ds, d < 10) : ∀ c ∈ ds.map f, NumChar c := by
  intro c hc
  obtain ⟨d, hd, rfl⟩ := List.mem_map.1 hc
  exact hf d (h d hd)

theorem numChar_numeral {t : Text} {n : ℕ} (h : readNumeral 10 t = some n) : ∀ c ∈ t, NumChar c := by
  obtain ⟨ds, rfl, h1, -⟩ := readNumeral_inv h
  exact numChar_map (fun d hd => (numChar_digit hd).2) h1

theorem numChar_fixed {t : Text} {s : Bool} {int frac : Text} (h : IsFixed t s int frac) : ∀ c ∈ t, NumChar c := by
  obtain ⟨h1, ⟨n, h2⟩, h3⟩ := h
  rw [h1]
  exact numChar_append (numChar_append (numChar_minus s) (numChar_numeral h2.2.1)) (numChar_pointed fun c hc => Or.inl (h3 c hc))

theorem numChar_exponential {t : Text} {s : Bool} {d : Char} {frac : Text} {x : ℤ} (h : IsExponential 'e' t s d frac x) :
    ∀ c ∈ t, NumChar c := by
  obtain ⟨⟨ex, h1, h2⟩, h3⟩ := h
  rw [h2]
  refine numChar_append (numChar_append (numChar_minus s) ?_) ?_
  · intro c hc
    rcases List.mem_cons.1 hc with rfl | hc
    · exact Or.inl (h3 _ List.mem_cons_self)
    · exact numChar_pointed (fun c hc => Or.inl (h3 c (List.mem_cons_of_mem _ hc))) c hc
  · intro c hc
    rcases List.mem_cons.1 hc with rfl | hc
    · exact Or.inr (by decide)
    rcases List.mem_cons.1 hc with rfl | hc
    · split
      · exact Or.inr (by decide)
      · exact Or.inr (by decide)
    · exact numChar_numeral h1.1 c hc

theorem numChar_constant {t : Text} {s : Bool} {q : ℚ} (h : FloatConstant t s q) : ∀ c ∈ t, NumChar c := by
  rcases h.2 with ⟨d, frac, x, h⟩ | ⟨int, frac, h⟩
  · exact numChar_exponential h
  · exact numChar_fixed h

/-- Hexadecimal digits read back. -/
theorem readHex_aux : ∀ (ds : List ℕ) (a : ℕ), (∀ d ∈ ds, d < 16) →
    (ds.map hexChar).foldl (fun a c => a.bind fun a => (hexDigit c).map fun d => a * 16 + d) (some a) = some (digsVal 16 a ds)
  | [], _, _ => rfl
  | d :: ds, a, h => by
    have hd : ∀ d < 16, hexDigit (hexChar d) = some d := by decide
    rw [List.map_cons, List.foldl_cons, Option.bind_some, hd d (h d List.mem_cons_self)]
    exact readHex_aux ds _ fun x hx => h x (List.mem_cons_of_mem _ hx)

theorem fmtHexPad_digits (w n : ℕ) : ∃ ds : List ℕ, fmtHexPad w n = ds.map hexChar ∧ ds ≠ [] ∧ (∀ d ∈ ds, d < 16) ∧ digsVal 16 0 ds = n := by
  have key : ∃ ds : List ℕ, (if n = 0 then ['0'] else (digitsOf 16 n).map hexChar) = ds.map hexChar ∧ ds ≠ [] ∧ (∀ d ∈ ds, d < 16) ∧
      digsVal 16 0 ds = n := by
    by_cases hn : n = 0
    · subst hn
      exact ⟨[0], by decide, by simp, by simp, by simp [digsVal]⟩
    · rw [if_neg hn]
      obtain ⟨h1, h2, -, h4⟩ := digitsOf_spec (b := 16) (by norm_num) n
      exact ⟨_, rfl, h4 hn, h2, h1⟩
  obtain ⟨ds, h1, h2, h3, h4⟩ := key
  refine ⟨List.replicate (w - ds.length) 0 ++ ds, ?_, by simp [h2], ?_, ?_⟩
  · unfold fmtHexPad
    rw [h1]
    simp [hexChar, digitChar]
  · intro d hd
    rcases List.mem_append.1 hd with h | h
    · have := List.eq_of_mem_replicate h; omega
    · exact h3 d h
  · rw [digsVal_append, digsVal_replicate_zero, h4]

theorem readHex_fmtHexPad (w n : ℕ) : readHex (fmtHexPad w n) = some n := by
  obtain ⟨ds, h1, h2, h3, h4⟩ := fmtHexPad_digits w n
  unfold readHex
  rw [h1, if_neg (by simpa using h2), readHex_aux ds 0 h3, h4]

theorem fmtHexPad_char (w n : ℕ) : '\n' ∉ fmtHexPad w n := by
  obtain ⟨ds, h1, -, h3, -⟩ := fmtHexPad_digits w n
  rw [h1]
  intro h
  obtain ⟨d, hd, he⟩ := List.mem_map.1 h
  have : ∀ d < 16, hexChar d ≠ '\n' := by decide
  exact this d (h3 d hd) he

/-- The text of an expression is read as the value of the expression. -/
theorem lit_text {l : Lit} {w : F64} (h : l.eval = some w) : ∃ t, l.text = .ok t ∧ FloatExpr t w ∧ '\n' ∉ t := by
  cases l with
  | negZero =>
    injection h with h
    subst h
    exact ⟨_, rfl, Or.inr (Or.inl ⟨rfl, Binary16.Gen.zero_decode.1⟩), by decide⟩
  | inf sign =>
    injection h with h
    subst h
    show ∃ t, (.ok (if sign ≥ 0 then "math.Inf(+1)" else "math.Inf(-1)").toList : Go Text) = .ok t ∧ _
    unfold F64.inf
    by_cases hs : sign ≥ 0
    · rw [if_pos hs, if_pos hs]
      exact ⟨_, rfl, Or.inr (Or.inr (Or.inl ⟨rfl, by simp [Format.decode, double]⟩)), by decide⟩
    · rw [if_neg hs, if_neg hs]
      exact ⟨_, rfl, Or.inr (Or.inr (Or.inr ⟨rfl, by simp [Format.decode, double]⟩)), by decide⟩
  | value x =>
    unfold Lit.eval at h
    dsimp only at h
    by_cases hx : x.toNat % 2 ^ 63 ≥ 0x7FF * 2 ^ 52
    · rw [if_pos hx] at h; cases h
    rw [if_neg hx] at h
    obtain ⟨s, m, hd⟩ : ∃ s m, double.decode x.toNat = .num s m := by
      unfold Format.decode
      dsimp only
      rw [if_neg]
      · split
        · exact ⟨_, _, rfl⟩
        · exact ⟨_, _, rfl⟩
      · show ¬ x.toNat / 2 ^ 52 % 2 ^ 11 = 2 ^ 11 - 1
        omega
    have hS : SizeOf double 64 := Or.inr (Or.inr ⟨rfl, rfl⟩)
    obtain ⟨t, q, h1, h2, h3⟩ := C46_general (Or.inr rfl : (64 : ℕ) = 32 ∨ (64 : ℕ) = 64) hS (Or.inl rfl : 'g' = 'g' ∨ 'g' = 'G') (-1) true hd hd
    obtain ⟨t', q', h1', h2', h4⟩ := C42_roundtrip (Or.inr rfl : (64 : ℕ) = 32 ∨ (64 : ℕ) = 64) hS (fmt := 'g') (by unfold DecimalFormat; simp)
      (prec := -1) (by norm_num) true hd hd
    rw [h1] at h1'
    injection h1' with h1'
    subst h1'
    rw [h2] at h2'
    injection h2' with h2'
    injection h2' with _ h2'
    subst h2'
    have hshape : FloatConstant t s q := by
      refine ⟨h2, ?_⟩
      rw [if_pos (rfl : 'g' = 'g'), if_pos (by norm_num : (-1 : ℤ) < 0)] at h3
      split_ifs at h3
      · obtain ⟨d, frac, e, h3, -⟩ := h3
        exact Or.inl ⟨d, frac, e, h3⟩
      · obtain ⟨int, frac, h3, -⟩ := h3
        exact Or.inr ⟨int, frac, h3⟩
    refine ⟨t, h1, Or.inl ⟨s, q, x.toNat, hshape, ?_, h4, ?_, ?_⟩, fun hc => (numChar_constant hshape _ hc).ne.1 rfl⟩
    · by_contra hov
      unfold Format.RoundsTo at h4
      rw [if_pos (not_lt.1 hov), hd] at h4
      cases h4
    · intro hz
      have : x = F64.negZero := decode_inj64 (by rw [hz, Binary16.Gen.zero_decode.1]) (by rw [hz]; simp)
      rw [if_pos this] at h
      injection h with h
      exact h.symm
    · intro hz
      have : x ≠ F64.negZero := by
        rintro rfl
        exact hz Binary16.Gen.zero_decode.1
      rw [if_neg this] at h
      injection h with h
      rw [h]

theorem numChar_fmtNat {b : ℕ} (hb : 2 ≤ b) (hb' : b ≤ 10) (n : ℕ) : ∀ c ∈ fmtNat b n, NumChar c := by
  obtain ⟨ds, h1, -, h3, -⟩ := fmtNat_digits hb n
  rw [h1]
  exact numChar_map (fun d hd => (numChar_digit hd).1) fun d hd => lt_of_lt_of_le (h3 d hd) hb'

theorem numChar_fmtBinPad (w n : ℕ) : ∀ c ∈ fmtBinPad w n, NumChar c := by
  unfold fmtBinPad
  refine numChar_append ?_ (numChar_fmtNat le_rfl (by norm_num) n)
  intro c hc
  rw [List.eq_of_mem_replicate hc]
  exact Or.inl (by decide)

theorem numChar_fmtInt (i : ℤ) : ∀ c ∈ fmtInt i, NumChar c := by
  unfold fmtInt
  split
  · intro c hc
    rcases List.mem_cons.1 hc with rfl | hc
    · exact Or.inr (by decide)
    · exact numChar_fmtNat (by norm_num) le_rfl _ c hc
  · exact numChar_fmtNat (by norm_num) le_rfl _

/-- Texts cut at a character that the first part does not contain. -/
theorem cut {x : Char} : ∀ {a a' b b' : Text}, x ∉ a → x ∉ a' → a ++ x :: b = a' ++ x :: b' → a = a' ∧ b = b'
  | [], [], _, _, _, _, h => ⟨rfl, by simpa using h⟩
  | [], c :: a', _, _, _, h', h => by
    injection h with h1 h2
    exact absurd (h1 ▸ List.mem_cons_self) h'
  | c :: a, [], _, _, h', _, h => by
    injection h with h1 h2
    exact absurd (h1 ▸ List.mem_cons_self) h'
  | c :: a, c' :: a', _, _, h1, h1', h => by
    injection h with h2 h3
    obtain ⟨h4, h5⟩ := cut (fun hx => h1 (List.mem_cons_of_mem _ hx)) (fun hx => h1' (List.mem_cons_of_mem _ hx)) h3
    exact ⟨by rw [h2, h4], h5⟩

theorem readHex_char {t : Text} {n : ℕ} (h : readHex t = some n) : ',' ∉ t := by
  unfold readHex at h
  split at h
  · cases h
  · clear * - h
    have none_fold : ∀ t : Text, t.foldl (fun a c => a.bind fun a => (hexDigit c).map fun d => a * 16 + d) (none : Option ℕ) = none := by
      intro t
      induction t with
      | nil => rfl
      | cons c t ih => exact ih
    have key : ∀ (t : Text) (a : ℕ), t.foldl (fun a c => a.bind fun a => (hexDigit c).map fun d => a * 16 + d) (some a) = some n → ',' ∉ t := by
      intro t
      induction t with
      | nil => simp
      | cons c t ih =>
        intro a h hc
        rw [List.foldl_cons, Option.bind_some] at h
        rcases List.mem_cons.1 hc with rfl | hc
        · rw [show hexDigit ',' = none by decide, Option.map_none, none_fold] at h
          cases h
        · cases hd : hexDigit c with
          | none => rw [hd, Option.map_none, none_fold] at h; cases h
          | some d => rw [hd] at h; exact ih _ h hc
    exact key t 0 h

/-- An expression has one value. -/
theorem Spec.FloatExpr.unique {t : Text} {w w' : F64} (h : FloatExpr t w) (h' : FloatExpr t w') : w = w' := by
  have hfix : ∀ u : Text, u.head? = some 'm' → ∀ s q, ¬ FloatConstant u s q := by
    intro u hu s q hc
    cases u with
    | nil => cases hu
    | cons c u =>
      injection hu with hu
      subst hu
      have := numChar_constant hc 'm' List.mem_cons_self
      revert this
      unfold NumChar
      decide
  have inj : ∀ {d : Datum}, (∀ s, d ≠ .nan s) → double.decode w.toNat = d → double.decode w'.toNat = d → w = w' := by
    intro d hd h1 h2
    exact decode_inj64 (by rw [h1, h2]) (by rw [h1]; exact hd)
  rcases h with ⟨s, q, c, h1, h2, h3, h4, h5⟩ | ⟨rfl, h⟩ | ⟨rfl, h⟩ | ⟨rfl, h⟩
  · rcases h' with ⟨s', q', c', h1', h2', h3', h4', h5'⟩ | ⟨rfl, h⟩ | ⟨rfl, h⟩ | ⟨rfl, h⟩
    · have e := h1.1.symm.trans h1'.1
      injection e with e
      injection e with e1 e2
      subst e1 e2
      have e := Float128ppc.RoundsTo.unique (F := double) (by decide) h3 h3'
      by_cases hz : double.decode c = .num true 0
      · rw [h4 hz, h4' (e ▸ hz)]
      · have hz' : double.decode c' ≠ .num true 0 := e ▸ hz
        have hn : ∃ r, double.decode c = .num s r := by
          unfold Format.RoundsTo at h3
          rw [if_neg (not_le.2 h2)] at h3
          obtain ⟨r, h3, -⟩ := h3
          exact ⟨r, h3⟩
        obtain ⟨r, hn⟩ := hn
        refine inj (d := .num s r) (by simp) ?_ ?_
        · rw [h5 hz]; exact hn
        · rw [h5' hz', ← e]; exact hn
    · exact absurd h1 (hfix _ rfl _ _)
    · exact absurd h1 (hfix _ rfl _ _)
    · exact absurd h1 (hfix _ rfl _ _)
  all_goals
    rcases h' with ⟨s', q', c', h1', h2', h3', h4', h5'⟩ | ⟨e, h'⟩ | ⟨e, h'⟩ | ⟨e, h'⟩
    · exact absurd h1' (hfix _ rfl _ _)
    all_goals first
      | exact inj (by simp) h h'
      | exact absurd e (by decide)

/-- The characters that an expression does not contain. -/
theorem Spec.FloatExpr.char {t : Text} {w : F64} (h : FloatExpr t w) : '}' ∉ t ∧ ':' ∉ t := by
  rcases h with ⟨s, q, c, h1, -⟩ | ⟨rfl, -⟩ | ⟨rfl, -⟩ | ⟨rfl, -⟩
  · exact ⟨fun h => (numChar_constant h1 _ h).ne.2.2.2.1 rfl, fun h => (numChar_constant h1 _ h).ne.2.2.2.2.1 rfl⟩
  all_goals decide

/-- The text of a number is made of digits, signs, points and the letter `e`. -/
theorem numChar_textG {x : BigFloat} (hx : x.WF) {s : Bool} {m : ℚ} (hd : x.datum = .num s m) {n : ℕ} (hn : 1 ≤ n) :
    ∀ c ∈ x.textG n, NumChar c := by
  obtain ⟨ds, dp, h1, h2, -⟩ := textG_spec hx hd hn
  have hmap := fun {ds : List ℕ} (h : ∀ d ∈ ds, d < 10) => numChar_map (fun d hd => (numChar_digit hd).2) h
  rw [h2]
  unfold gText
  split_ifs
  all_goals first
    | (unfold sciText expText
       refine numChar_append (numChar_append (numChar_append (numChar_minus s) ?_) (numChar_pointed (hmap (fracE_lt h1.digit _)))) ?_
       · intro c hc
         rw [List.mem_singleton.1 hc]
         exact (numChar_digit (getD_lt h1.digit 0)).2
       · intro c hc
         rcases List.mem_cons.1 hc with rfl | hc
         · exact Or.inr (by decide)
         rcases List.mem_cons.1 hc with rfl | hc
         · split
           · exact Or.inr (by decide)
           · exact Or.inr (by decide)
         · exact hmap (expDigits_lt _) c hc)
    | (unfold plainText
       exact numChar_append (numChar_append (numChar_minus s) (hmap (intF_lt h1.digit _))) (numChar_pointed (hmap (fracF_lt h1.digit _ _))))

/-- A row of the binary16 table is read in one way. -/
theorem Spec.ReadsRow16.unique {t : Text} {b b' : BitVec 16} {w w' : F64} (h : ReadsRow16 t b w) (h' : ReadsRow16 t b' w') :
    b = b' ∧ w = w' := by
  obtain ⟨x, l, c, h1, h2, h3, -⟩ := h
  obtain ⟨x', l', c', h1', h2', h3', -⟩ := h'
  rw [h1] at h1'
  simp only [List.append_assoc] at h1'
  have e := List.append_cancel_left h1'
  obtain ⟨e1, e⟩ := cut (x := ',') (readHex_char h2) (readHex_char h2') (e : x ++ ',' :: _ = x' ++ ',' :: _)
  have e : " want: ".toList ++ (l ++ '}' :: (", // ".toList ++ c)) = " want: ".toList ++ (l' ++ '}' :: (", // ".toList ++ c')) := e
  obtain ⟨e2, -⟩ := cut h3.char.1 h3'.char.1 (List.append_cancel_left e)
  subst e1 e2
  rw [h2] at h2'
  injection h2' with h2'
  exact ⟨BitVec.eq_of_toNat_eq h2', h3.unique h3'⟩

/-- A row of the binary128 table is read in one way. -/
theorem Spec.ReadsRow128.unique {t : Text} {a b a' b' w w' : BitVec 64} {want want' : Text} {acc acc' : Accuracy}
    (h : ReadsRow128 t a b want w acc) (h' : ReadsRow128 t a' b' want' w' acc') : a = a' ∧ b = b' ∧ want = want' ∧ w = w' ∧ acc = acc' := by
  obtain ⟨ha, hb, l, n, c, h1, h2, h3, h4, -, h6, h7, -⟩ := h
  obtain ⟨ha', hb', l', n', c', h1', h2', h3', h4', -, h6', h7', -⟩ := h'
  rw [h1] at h1'
  simp only [List.append_assoc] at h1'
  have e := List.append_cancel_left h1'
  obtain ⟨rfl, e1⟩ := cut (x := ',') (readHex_char h2) (readHex_char h2') (e : ha ++ ',' :: _ = ha' ++ ',' :: _)
  have e := List.append_cancel_left (as := " b: 0x".toList) e1
  obtain ⟨rfl, e2⟩ := cut (x := ',') (readHex_char h3) (readHex_char h3') (e : hb ++ ',' :: _ = hb' ++ ',' :: _)
  have e := List.append_cancel_left (as := " want: \"".toList) e2
  obtain ⟨rfl, e3⟩ := cut (x := '"') h4 h4' (e : want ++ '"' :: _ = want' ++ '"' :: _)
  have e := List.append_cancel_left (as := ", want64: ".toList) e3
  -- the expression ends where ", acc64:" begins: cut at the colon
  have hc : ∀ {l : Text} {w : F64}, FloatExpr l w → ':' ∉ l ++ ", acc64".toList := by
    intro l w h hm
    rcases List.mem_append.1 hm with hm | hm
    · exact h.char.2 hm
    · revert hm; decide
  have e : (l ++ ", acc64".toList) ++ ':' :: (" big.".toList ++ (n ++ '}' :: (", // ".toList ++ c))) =
      (l' ++ ", acc64".toList) ++ ':' :: (" big.".toList ++ (n' ++ '}' :: (", // ".toList ++ c'))) := by
    rw [List.append_assoc, List.append_assoc]
    exact e
  obtain ⟨el, e5⟩ := cut (hc h6) (hc h6') e
  have el := List.append_cancel_right el
  subst el
  have hn : ∀ acc : Accuracy, '}' ∉ (match acc with | .below => "Below" | .exact => "Exact" | .above => "Above").toList := by
    intro acc; cases acc <;> decide
  have e6 := List.append_cancel_left e5
  rw [h7, h7'] at e6
  obtain ⟨en, -⟩ := cut (hn acc) (hn acc') e6
  rw [h2] at h2'
  rw [h3] at h3'
  injection h2' with h2'
  injection h3' with h3'
  refine ⟨BitVec.eq_of_toNat_eq h2', BitVec.eq_of_toNat_eq h3', rfl, h6.unique h6', ?_⟩
  revert en
  cases acc <;> cases acc' <;> decide

/-- Running a second step after each step of a loop. -/
theorem mapM_then {α β γ : Type} {f : α → Go β} {g : α → β → Go γ} {P : β → γ → Prop} : ∀ {l : List α} {bs : List β},
    l.mapM f = .ok bs → (∀ a ∈ l, ∀ b ∈ bs, ∃ c, g a b = .ok c ∧ P b c) →
    ∃ cs, (l.mapM fun a => do g a (← f a)) = .ok cs ∧ List.Forall₂ P bs cs
  | [], bs, h, _ => by
    obtain rfl : [] = bs := by simpa [pure, Except.pure] using h
    exact ⟨[], by simp [pure, Except.pure], .nil⟩
  | a :: l, bs, h, hg => by
    rw [List.mapM_cons] at h
    cases hf : f a with
    | error e => rw [hf] at h; cases h
    | ok b =>
      cases hl : l.mapM f with
      | error e => rw [hf, hl] at h; cases h
      | ok bs' =>
        rw [hf, hl] at h
        obtain rfl : b :: bs' = bs := by injection h
        obtain ⟨c, hc, hp⟩ := hg a List.mem_cons_self b List.mem_cons_self
        obtain ⟨cs, hcs, hps⟩ := mapM_then hl fun a ha b hb => hg a (List.mem_cons_of_mem _ ha) b (List.mem_cons_of_mem _ hb)
        exact ⟨c :: cs, by rw [List.mapM_cons, hf, hcs]; show (g a b >>= _) = _; rw [hc]; rfl, .cons hp hps⟩

theorem notin_append {x : Char} {s t : Text} (h : x ∉ s) (h' : x ∉ t) : x ∉ s ++ t := fun hm =>
  (List.mem_append.1 hm).elim h h'

namespace Binary16.Gen

theorem numChar_text {lead : ℕ} (mant : ℕ) : ∀ c ∈ text lead mant, NumChar c := by
  unfold text
  refine numChar_append (numChar_append (numChar_append (numChar_append ?_ (numChar_fmtNat (by norm_num) le_rfl _)) ?_)
    (numChar_fmtBinPad _ _)) ?_ <;> unfold NumChar <;> decide

theorem row_text {r : Row} (h : r.Passes) {s : Text} (hs : ∀ c ∈ s, NumChar c) : ∃ t, r.text s = .ok t ∧
    ∃ w acc, ReadsRow16 t r.bits w ∧ (newFromBits r.bits).float64 = .ok (w, acc) := by
  obtain ⟨w, h1, ⟨acc, h2⟩, -⟩ := h
  obtain ⟨l, h3, h4, h5⟩ := lit_text h1
  unfold Row.text
  rw [h3]
  refine ⟨_, rfl, w, acc, ⟨_, _, _, rfl, readHex_fmtHexPad _ _, h4, ?_⟩, h2⟩
  exact notin_append (notin_append (notin_append (notin_append (notin_append (by decide) (fmtHexPad_char _ _)) (by decide)) h5) (by decide))
    fun hc => (hs _ hc).ne.1 rfl

/-- C86: the lines that binary16/gen.go writes. The program does not panic; Go reads each line, in one way only, as a row of a code and a
float64; the float64 is the number that IEEE 754 assigns to the code, and the one that `Float64` yields for it; and the
lines list every code of a number exactly once, the normalized and the denormalized ones in the right table. -/
theorem C86_binary16 : ∃ nt dt bs cs, getNormalizedText = .ok nt ∧ getDenormalizedText = .ok dt ∧
    List.Forall₂ (fun t b => ∃ w, ReadsRow16 t b w ∧ double.decode w.toNat = half.decode b.toNat ∧
      (newFromBits b).float64 = .ok (w, .exact) ∧ ∀ b' w', ReadsRow16 t b' w' → b' = b ∧ w' = w) (nt ++ dt) (bs ++ cs) ∧
    nt.length = bs.length ∧ bs.Nodup ∧ cs.Nodup ∧
    (∀ b : BitVec 16, b ∈ bs ↔ 1 ≤ b.toNat / 2 ^ 10 % 2 ^ 5 ∧ b.toNat / 2 ^ 10 % 2 ^ 5 ≤ 30) ∧
    (∀ b : BitVec 16, b ∈ cs ↔ b.toNat / 2 ^ 10 % 2 ^ 5 = 0) := by
  obtain ⟨ns, ds, h1, h2, h3, h4, h5, h6, h7⟩ := C68_binary16
  have key : ∀ (b : BitVec 16) (t : Text), b.toNat / 2 ^ 10 % 2 ^ 5 ≤ 30 →
      (∃ w acc, ReadsRow16 t b w ∧ (newFromBits b).float64 = .ok (w, acc)) →
      ∃ w, ReadsRow16 t b w ∧ double.decode w.toNat = half.decode b.toNat ∧
      (newFromBits b).float64 = .ok (w, .exact) ∧ ∀ b' w', ReadsRow16 t b' w' → b' = b ∧ w' = w := by
    rintro b t hb ⟨w, acc, e1, e2⟩
    obtain ⟨v, v1, v2⟩ := C04_binary16_float64 (newFromBits b)
    rw [e2] at v1
    injection v1 with v1
    obtain ⟨rfl, rfl⟩ := Prod.mk.inj v1
    refine ⟨w, e1, ?_, e2, fun b' w' h' => h'.unique e1⟩
    cases hd : half.decode b.toNat with
    | nan s =>
      exfalso
      unfold Format.decode at hd
      dsimp only at hd
      rw [if_neg (show ¬ b.toNat / 2 ^ half.t % 2 ^ half.w = 2 ^ half.w - 1 by
        show ¬ b.toNat / 2 ^ 10 % 2 ^ 5 = 2 ^ 5 - 1
        omega)] at hd
      split at hd <;> cases hd
    | inf s => rw [show half.decode (newFromBits b).bits.toNat = _ from hd] at v2; exact v2
    | num s m => rw [show half.decode (newFromBits b).bits.toNat = _ from hd] at v2; exact v2
  obtain ⟨nt, g1, g2⟩ := mapM_then (g := fun (a : ℕ × ℕ × ℕ) (r : Row) => r.text (text 1 a.2.2))
    (P := fun r t => ∃ w, ReadsRow16 t r.bits w ∧ double.decode w.toNat = half.decode r.bits.toNat ∧
      (newFromBits r.bits).float64 = .ok (w, .exact) ∧ ∀ b' w', ReadsRow16 t b' w' → b' = r.bits ∧ w' = w) h1 fun a _ r hr => by
      obtain ⟨t, t1, t2⟩ := row_text (h3 r (List.mem_append_left _ hr)) (numChar_text (lead := 1) a.2.2)
      exact ⟨t, t1, key _ _ ((h6 _).1 (List.mem_map_of_mem hr)).2 t2⟩
  obtain ⟨dt, k1, k2⟩ := mapM_then (g := fun (a : ℕ × ℕ) (r : Row) => r.text (text 0 a.2))
    (P := fun r t => ∃ w, ReadsRow16 t r.bits w ∧ double.decode w.toNat = half.decode r.bits.toNat ∧
      (newFromBits r.bits).float64 = .ok (w, .exact) ∧ ∀ b' w', ReadsRow16 t b' w' → b' = r.bits ∧ w' = w) h2 fun a _ r hr => by
      obtain ⟨t, t1, t2⟩ := row_text (h3 r (List.mem_append_right _ hr)) (numChar_text (lead := 0) a.2)
      have := (h7 _).1 (List.mem_map_of_mem hr)
      exact ⟨t, t1, key _ _ (by omega) t2⟩
  refine ⟨nt, dt, ns.map Row.bits, ds.map Row.bits, g1, k1, ?_, ?_, h4, h5, h6, h7⟩
  · rw [← List.map_append, List.forall₂_map_right_iff]
    exact List.rel_append g2.flip k2.flip
  · rw [List.length_map, g2.length_eq]

end Binary16.Gen

namespace Binary128.Gen

theorem numChar_text (signbit lead : ℕ) (m : MantBits) (exponent : ℤ) : ∀ c ∈ text signbit lead m exponent, NumChar c := by
  unfold text
  dsimp only
  refine numChar_append (numChar_append (numChar_append (numChar_append (numChar_append (numChar_append ?_ ?_)
    (numChar_fmtNat (by norm_num) le_rfl _)) ?_) (numChar_append (numChar_fmtBinPad _ _) (numChar_fmtBinPad _ _))) ?_) (numChar_fmtInt _)
  · unfold NumChar
    split <;> decide
  all_goals unfold NumChar; decide

theorem row_text {r : Row} (h : r.Passes) {sg : Bool} {m : ℚ} (hd : quad.decode (newFromBits r.a r.b).code = .num sg m) {s : Text}
    (hs : ∀ c ∈ s, NumChar c) : ∃ t, r.text s = .ok t ∧
    ∃ w, ReadsRow128 t r.a r.b (r.want.textG 35) w r.acc64 ∧ (newFromBits r.a r.b).float64 = .ok (w, r.acc64) ∧
      ∃ V, readDecimal (r.want.textG 35) = some (sg, V) ∧ (m = 0 → V = 0) ∧ (m ≠ 0 → RoundedDigits 35 m V) := by
  obtain ⟨w, h1, h2, h3, -⟩ := h
  obtain ⟨x, x1, x2, x3⟩ := big_num _ hd
  obtain ⟨y, V, y1, y2, y3, y4⟩ := C84_text _ hd
  rw [h2] at x1 y1
  obtain rfl : r.want = x := by injection x1 with x1; exact (Prod.mk.inj x1).1
  obtain rfl : r.want = y := by injection y1 with y1; exact (Prod.mk.inj y1).1
  have hw := numChar_textG x2 x3 (n := 35) (by norm_num)
  obtain ⟨l, l1, l2, l3⟩ := lit_text h1
  unfold Row.text
  rw [l1]
  have hacc : accuracyText r.acc64 = (match r.acc64 with | .below => "Below" | .exact => "Exact" | .above => "Above").toList := by
    cases r.acc64 <;> rfl
  refine ⟨_, rfl, w, ⟨_, _, _, _, _, rfl, readHex_fmtHexPad _ _, readHex_fmtHexPad _ _, fun hc => (hw _ hc).ne.2.1 rfl,
    fun hc => (hw _ hc).ne.2.2.1 rfl, l2, hacc, ?_⟩, h3, V, y2, y3, y4⟩
  refine notin_append (notin_append (notin_append (notin_append (notin_append (notin_append (notin_append (notin_append
    (notin_append (notin_append (notin_append (by decide) (fmtHexPad_char _ _)) (by decide)) (fmtHexPad_char _ _)) (by decide))
    fun hc => (hw _ hc).ne.1 rfl) (by decide)) l3) (by decide)) ?_) (by decide)) fun hc => (hs _ hc).ne.1 rfl
  cases r.acc64 <;> decide

/-- What a line of the binary128 table says: Go reads it, in one way only, as a row of the words `a` and `b`, the text of the number
of this code with 35 digits, and the results of `Float64`. -/
def GoodLine (t : Text) (a : ℕ) (b : BitVec 64) : Prop :=
  ∃ (a' : BitVec 64) (want : Text) (w : F64) (acc : Accuracy), a'.toNat = a ∧ ReadsRow128 t a' b want w acc ∧
    (newFromBits a' b).float64 = .ok (w, acc) ∧
    (∃ sg m V, quad.decode (a * 2 ^ 64 + b.toNat) = .num sg m ∧ readDecimal want = some (sg, V) ∧ (m = 0 → V = 0) ∧
      (m ≠ 0 → RoundedDigits 35 m V)) ∧
    ∀ a₂ b₂ want₂ w₂ acc₂, ReadsRow128 t a₂ b₂ want₂ w₂ acc₂ → a₂ = a' ∧ b₂ = b ∧ want₂ = want ∧ w₂ = w ∧ acc₂ = acc

/-- C86: the lines that binary128/gen.go writes, for every choice of exponents in 1..0x7FFE and of 112-bit mantissas. The program does
not panic; the lines are, in order, those of the two signs of every combination of exponent and mantissa; Go reads each line, in one way only,
as a row of the words of the code, a text that denotes the number of the code rounded to 35 digits, and the float64 and the accuracy that
`Float64` yields for it. -/
theorem C86_binary128 (exps : List ℕ) (mants : List MantBits) (he : ∀ e ∈ exps, 1 ≤ e ∧ e ≤ 0x7FFE)
    (hm : ∀ m ∈ mants, m.a.toNat < 2 ^ 48) : ∃ nt dt, getNormalizedText exps mants = .ok nt ∧ getDenormalizedText mants = .ok dt ∧
    List.Forall₂ (fun t c => GoodLine t c.1 c.2) nt ([0, 1].flatMap fun s => exps.flatMap fun e => mants.map fun m =>
      (s * 2 ^ 63 + e * 2 ^ 48 + m.a.toNat, m.b)) ∧
    List.Forall₂ (fun t c => GoodLine t c.1 c.2) dt ([0, 1].flatMap fun s => mants.map fun m => (s * 2 ^ 63 + m.a.toNat, m.b)) := by
  obtain ⟨ns, ds, h1, h2, h3, h4, h5⟩ := C68_binary128 exps mants he hm
  have key : ∀ (r : Row) (s : Text), r.Passes → r.a.toNat / 2 ^ 48 % 2 ^ 15 ≤ 0x7FFE → (∀ c ∈ s, NumChar c) →
      ∃ t, r.text s = .ok t ∧ GoodLine t r.a.toNat r.b := by
    intro r s hp ha hs
    have hb := r.b.isLt
    obtain ⟨sg, m, hd⟩ : ∃ sg m, quad.decode (r.a.toNat * 2 ^ 64 + r.b.toNat) = .num sg m := by
      unfold Format.decode
      dsimp only
      rw [if_neg]
      · split
        · exact ⟨_, _, rfl⟩
        · exact ⟨_, _, rfl⟩
      · show ¬ (r.a.toNat * 2 ^ 64 + r.b.toNat) / 2 ^ 112 % 2 ^ 15 = 2 ^ 15 - 1
        omega
    obtain ⟨t, t1, w, t2, t3, V, t4, t5, t6⟩ := row_text hp (show quad.decode (newFromBits r.a r.b).code = _ from hd) hs
    exact ⟨t, t1, r.a, _, w, _, rfl, t2, t3, ⟨sg, m, V, hd, t4, t5, t6⟩, fun _ _ _ _ _ h => h.unique t2⟩
  obtain ⟨nt, g1, g2⟩ := mapM_then (g := fun (x : ℕ × ℕ × MantBits) (r : Row) => r.text (text x.1 1 x.2.2 ((x.2.1 : Int) - bias)))
    (P := fun r t => GoodLine t r.a.toNat r.b) h1 fun x _ r hr => by
      refine key r _ (h3 r (List.mem_append_left _ hr)).1 ?_ (numChar_text _ _ _ _)
      have hx := List.mem_map_of_mem (f := fun r : Row => (r.a.toNat, r.b)) hr
      rw [h4] at hx
      simp only [List.mem_flatMap, List.mem_map, Prod.mk.injEq] at hx
      obtain ⟨s, hs, e, he1, m, hm1, ha, -⟩ := hx
      have hs2 : s < 2 := by simp at hs; omega
      have := hm m hm1
      have := he e he1
      omega
  obtain ⟨dt, k1, k2⟩ := mapM_then (g := fun (x : ℕ × MantBits) (r : Row) => r.text (text x.1 0 x.2 (0 - bias + 1)))
    (P := fun r t => GoodLine t r.a.toNat r.b) h2 fun x _ r hr => by
      refine key r _ (h3 r (List.mem_append_right _ hr)).1 ?_ (numChar_text _ _ _ _)
      have hx := List.mem_map_of_mem (f := fun r : Row => (r.a.toNat, r.b)) hr
      rw [h5] at hx
      simp only [List.mem_flatMap, List.mem_map, Prod.mk.injEq] at hx
      obtain ⟨s, hs, m, hm1, ha, -⟩ := hx
      have hs2 : s < 2 := by simp at hs; omega
      have := hm m hm1
      omega
  refine ⟨nt, dt, g1, k1, ?_, ?_⟩
  · rw [← h4, List.forall₂_map_right_iff]
    exact g2.flip
  · rw [← h5, List.forall₂_map_right_iff]
    exact k2.flip

end Binary128.Gen

-- lines of the tables
example : (do (← Binary16.Gen.normalizedRow 1 0x10 0x200).text (Binary16.Gen.text 1 0x200)) =
    .ok "{bits: 0xC200, want: -3}, // +0b1.1000000000p0".toList := by decide +kernel
example : (do (← Binary16.Gen.denormalizedRow 1 0).text (Binary16.Gen.text 0 0)) =
    .ok "{bits: 0x8000, want: math.Copysign(0, -1)}, // +0b0.0000000000p0".toList := by decide +kernel
example : (do (← Binary16.Gen.denormalizedRow 0 1).text (Binary16.Gen.text 0 1)) =
    .ok "{bits: 0x0001, want: 5.960464477539063e-08}, // +0b0.0000000001p0".toList := by decide +kernel
example : ((do (← Binary128.Gen.row 1 1 0x3FFF 0 ⟨0x800000000000, 1⟩).text (Binary128.Gen.text 1 1 ⟨0x800000000000, 1⟩ 0) : Go Text)).map
    (fun t => t.take 136) = .ok "{a: 0xBFFF800000000000, b: 0x0000000000000001, want: \"-1.5000000000000000000000000000000002\", want64: -1.5, acc64: big.Above}, // -0b1.1".toList := by
  decide +kernel

-- a text that Go would read differently: without the special case, the row of 0x8000 would be read as the positive zero
example : ∃ t, (Lit.value F64.negZero).text = .ok t ∧ FloatExpr t 0 := by
  obtain ⟨t, h1, h2, -⟩ := lit_text (l := .value F64.negZero) (w := 0) (by decide)
  exact ⟨t, h1, h2⟩

end GoFloat
