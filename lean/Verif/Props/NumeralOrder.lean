import Verif.Props.Itoa
/-
C124: the length and the order of the texts of FormatUint.
-/
namespace GoFloat.Strconv
open Spec

theorem digsVal_cons (b d : ℕ) (ds : List ℕ) : digsVal b 0 (d :: ds) = d * b ^ ds.length + digsVal b 0 ds := by
  show digsVal b (0 * b + d) ds = _
  rw [digsVal_acc, zero_mul, zero_add]

theorem digsVal_lt {b : ℕ} {ds : List ℕ} (h : ∀ d ∈ ds, d < b) : digsVal b 0 ds < b ^ ds.length := by
  induction ds with
  | nil => simp [digsVal]
  | cons d ds ih =>
    have h1 := ih fun x hx => h x (by simp [hx])
    have h2 : d + 1 ≤ b := h d (by simp)
    rw [digsVal_cons, List.length_cons, pow_succ]
    have := Nat.mul_le_mul_right (b ^ ds.length) h2
    have e : b * b ^ ds.length = b ^ ds.length * b := Nat.mul_comm _ _
    rw [Nat.add_mul] at this
    omega

theorem dchar_lt_iff {d e : ℕ} (hd : d < 36) (he : e < 36) : (dchar d < dchar e ↔ d < e) ∧ (dchar d = dchar e ↔ d = e) := by
  have : ∀ d < 36, ∀ e < 36, (dchar d < dchar e ↔ d < e) ∧ (dchar d = dchar e ↔ d = e) := by decide +kernel
  exact this d hd e he

/-- Digits of the same number are ordered as the numbers. -/
theorem text_lt_iff {b : ℕ} (hb : b ≤ 36) : ∀ {xs ys : List ℕ}, xs.length = ys.length → (∀ d ∈ xs, d < b) → (∀ d ∈ ys, d < b) →
    (xs.map dchar < ys.map dchar ↔ digsVal b 0 xs < digsVal b 0 ys)
  | [], [], _, _, _ => by simp
  | x :: xs, y :: ys, hl, hx, hy => by
    have hl' : xs.length = ys.length := by simpa using hl
    have ih := text_lt_iff hb hl' (fun d h => hx d (by simp [h])) (fun d h => hy d (by simp [h]))
    have l1 := digsVal_lt (b := b) (ds := xs) fun d h => hx d (by simp [h])
    have l2 := digsVal_lt (b := b) (ds := ys) fun d h => hy d (by simp [h])
    have hxb := hx x (by simp)
    have hyb := hy y (by simp)
    obtain ⟨c1, c2⟩ := dchar_lt_iff (d := x) (e := y) (by omega) (by omega)
    rw [List.map_cons, List.map_cons, List.cons_lt_cons_iff, c1, c2, ih, digsVal_cons, digsVal_cons, hl']
    rw [hl'] at l1
    generalize b ^ ys.length = P at *
    rcases lt_trichotomy x y with h | rfl | h
    · have := Nat.mul_le_mul_right P (Nat.succ_le_of_lt h)
      rw [Nat.succ_mul] at this
      constructor
      · intro _; omega
      · intro _; exact Or.inl h
    · constructor
      · rintro (h | h) <;> omega
      · intro h; exact Or.inr ⟨rfl, by omega⟩
    · have := Nat.mul_le_mul_right P (Nat.succ_le_of_lt h)
      rw [Nat.succ_mul] at this
      constructor
      · rintro (h' | h') <;> omega
      · intro _; omega

/-- The length of a numeral. -/
theorem numeral_length {b : ℕ} {t : Text} {n : ℕ} (h : IsNumeral b t n) : 1 ≤ t.length ∧ n < b ^ t.length ∧ (n ≠ 0 → b ^ (t.length - 1) ≤ n) := by
  obtain ⟨h1, h2, h3⟩ := h
  obtain ⟨ds, rfl, hlt, rfl⟩ := readNumeral_inv h2
  rw [List.length_map]
  refine ⟨List.length_pos_iff.2 (by simpa using h1), digsVal_lt hlt, fun h0 => ?_⟩
  cases ds with
  | nil => exact absurd rfl h1
  | cons d ds =>
    rw [digsVal_cons, List.length_cons, Nat.add_sub_cancel]
    have hd : 1 ≤ d := by
      rcases Nat.eq_zero_or_pos d with rfl | h
      · have := h3 rfl
        rw [List.map_cons, List.cons.injEq] at this
        obtain rfl : ds = [] := by simpa using this.2
        exact absurd (by simp [digsVal]) h0
      · exact h
    have := Nat.mul_le_mul_right (b ^ ds.length) hd
    omega

/-- Numerals are ordered by length first, and then as texts. -/
theorem numeral_lt {b : ℕ} (hb2 : 2 ≤ b) (hb : b ≤ 36) {t u : Text} {n m : ℕ} (h : IsNumeral b t n) (h' : IsNumeral b u m) :
    n < m ↔ t.length < u.length ∨ t.length = u.length ∧ t < u := by
  obtain ⟨l1, l2, l3⟩ := numeral_length h
  obtain ⟨k1, k2, k3⟩ := numeral_length h'
  have mono : ∀ i j, i ≤ j → b ^ i ≤ b ^ j := fun i j hij => Nat.pow_le_pow_right (by omega) hij
  rcases lt_trichotomy t.length u.length with hl | hl | hl
  · refine ⟨fun _ => Or.inl hl, fun _ => ?_⟩
    have hm : m ≠ 0 := by
      rintro rfl
      have : u = ['0'] := isNumeral_unique hb2 h' ⟨by simp, by simp [readNumeral, charDigit]; omega, fun _ => rfl⟩
      rw [this, List.length_singleton] at hl
      omega
    have := k3 hm
    have := mono t.length (u.length - 1) (by omega)
    omega
  · obtain ⟨ds, rfl, hlt, rfl⟩ := readNumeral_inv h.2.1
    obtain ⟨es, rfl, hlt', rfl⟩ := readNumeral_inv h'.2.1
    rw [← text_lt_iff hb (by simpa using hl) hlt hlt']
    constructor
    · intro h; exact Or.inr ⟨hl, h⟩
    · rintro (h | h)
      · omega
      · exact h.2
  · constructor
    · intro hnm
      exfalso
      have hn : n ≠ 0 := by
        rintro rfl
        have : t = ['0'] := isNumeral_unique hb2 h ⟨by simp, by simp [readNumeral, charDigit]; omega, fun _ => rfl⟩
        rw [this, List.length_singleton] at hl
        omega
      have := l3 hn
      have := mono u.length (t.length - 1) (by omega)
      omega
    · rintro (h | h) <;> omega

/-- C124: the text of `FormatUint` has `L` characters exactly if the number is below base^L and, unless it has one character only, not below base^(L-1). -/
theorem C124_length {W : ℕ} (hW : W = 32 ∨ W = 64) (u : BitVec 64) {base : ℤ} (h1 : 2 ≤ base) (h2 : base ≤ 36) :
    ∃ t, formatUint W u base = .ok t ∧ ∀ L : ℕ, t.length = L ↔ 1 ≤ L ∧ u.toNat < base.toNat ^ L ∧ (L = 1 ∨ base.toNat ^ (L - 1) ≤ u.toNat) := by
  obtain ⟨t, h, hn⟩ := C39_formatUint hW u h1 h2
  obtain ⟨l1, l2, l3⟩ := numeral_length hn
  have mono : ∀ i j, i ≤ j → base.toNat ^ i ≤ base.toNat ^ j := fun i j hij => Nat.pow_le_pow_right (by omega) hij
  have hlow : t.length = 1 ∨ base.toNat ^ (t.length - 1) ≤ u.toNat := by
    by_cases h0 : u.toNat = 0
    · left
      rw [h0] at hn
      rw [isNumeral_unique (by omega) hn (t := ['0']) ⟨by simp, by simp [readNumeral, charDigit]; omega, fun _ => rfl⟩]
      rfl
    · exact Or.inr (l3 h0)
  refine ⟨t, h, fun L => ⟨?_, fun ⟨a1, a2, a3⟩ => ?_⟩⟩
  · rintro rfl; exact ⟨l1, l2, hlow⟩
  · rcases lt_trichotomy t.length L with hl | hl | hl
    · rcases a3 with a3 | a3
      · omega
      · have := mono t.length (L - 1) (by omega); omega
    · exact hl
    · rcases hlow with hlow | hlow
      · omega
      · have := mono L (t.length - 1) (by omega); omega

/-- C124: the character `k` places before the end is the digit `n / base^k % base`. -/
theorem C124_digit {W : ℕ} (hW : W = 32 ∨ W = 64) (u : BitVec 64) {base : ℤ} (h1 : 2 ≤ base) (h2 : base ≤ 36) :
    ∃ t, formatUint W u base = .ok t ∧ ∀ k < t.length, (t.reverse[k]?).bind charDigit = some (u.toNat / base.toNat ^ k % base.toNat) := by
  obtain ⟨t, h, hn⟩ := C39_formatUint hW u h1 h2
  refine ⟨t, h, fun k hk => ?_⟩
  rw [isNumeral_eq_dg (by omega) hn] at hk ⊢
  rw [List.length_map] at hk
  have hk' : k < (dg base.toNat u.toNat).reverse.length := by simpa using hk
  rw [← List.map_reverse, List.getElem?_map, List.getElem?_eq_getElem hk', Option.map_some, Option.bind_some]
  have hd : (dg base.toNat u.toNat).reverse[k] = u.toNat / base.toNat ^ k % base.toNat := by
    by_cases h0 : u.toNat = 0
    · simp only [dg, h0, if_true] at hk' ⊢
      simp
    · simp only [dg, h0, if_false, List.reverse_reverse] at hk' ⊢
      rw [← Nat.getD_digits _ _ (by omega), List.getD_eq_getElem?_getD, List.getElem?_eq_getElem hk', Option.getD_some]
  rw [hd]
  exact charDigit_dchar ((Nat.mod_lt _ (by omega)).trans_le (by omega))

/-- C124: in base 16 the characters are the groups of four bits. -/
theorem C124_hex {W : ℕ} (hW : W = 32 ∨ W = 64) (u : BitVec 64) :
    ∃ t, formatUint W u 16 = .ok t ∧ ∀ k < t.length, (t.reverse[k]?).bind charDigit = some ((u.extractLsb' (4 * k) 4).toNat) := by
  obtain ⟨t, h, hd⟩ := C124_digit hW u (base := 16) (by norm_num) (by norm_num)
  refine ⟨t, h, fun k hk => ?_⟩
  rw [hd k hk, BitVec.extractLsb'_toNat, Nat.shiftRight_eq_div_pow, pow_mul]
  rfl

example := C124_digit (W := 64) (.inr rfl) 0xBEEF (base := 13) (by norm_num) (by norm_num)
example := C124_hex (W := 64) (.inr rfl) 0xBEEF

/-- C124: numbers are ordered as their texts of `FormatUint` in the same base, by length first and then character by character. -/
theorem C124_order {W : ℕ} (hW : W = 32 ∨ W = 64) (u v : BitVec 64) {base : ℤ} (h1 : 2 ≤ base) (h2 : base ≤ 36) :
    ∃ t t', formatUint W u base = .ok t ∧ formatUint W v base = .ok t' ∧ (u.toNat < v.toNat ↔ t.length < t'.length ∨ t.length = t'.length ∧ t < t') := by
  obtain ⟨t, h, hn⟩ := C39_formatUint hW u h1 h2
  obtain ⟨t', h', hn'⟩ := C39_formatUint hW v h1 h2
  exact ⟨t, t', h, h', numeral_lt (by omega) (by omega) hn hn'⟩

/-- C124: zeros put in front make texts of a common length that are ordered as the numbers, as for file names. -/
theorem C124_padded {W : ℕ} (hW : W = 32 ∨ W = 64) (u v : BitVec 64) {base : ℤ} (h1 : 2 ≤ base) (h2 : base ≤ 36) :
    ∃ t t', formatUint W u base = .ok t ∧ formatUint W v base = .ok t' ∧ ∀ n, t.length ≤ n → t'.length ≤ n →
      (List.replicate (n - t.length) '0' ++ t < List.replicate (n - t'.length) '0' ++ t' ↔ u.toNat < v.toNat) := by
  obtain ⟨t, h, hn⟩ := C39_formatUint hW u h1 h2
  obtain ⟨t', h', hn'⟩ := C39_formatUint hW v h1 h2
  refine ⟨t, t', h, h', fun n a b => ?_⟩
  obtain ⟨ds, rfl, hlt, hv⟩ := readNumeral_inv hn.2.1
  obtain ⟨es, rfl, hlt', hv'⟩ := readNumeral_inv hn'.2.1
  have hz : ∀ (k : ℕ) (l : List ℕ), List.replicate k '0' ++ l.map dchar = (List.replicate k 0 ++ l).map dchar := by
    intro k l; rw [List.map_append, List.map_replicate]; rfl
  have hval : ∀ (k : ℕ) (l : List ℕ), digsVal base.toNat 0 (List.replicate k 0 ++ l) = digsVal base.toNat 0 l := by
    intro k l
    induction k with
    | zero => rfl
    | succ k ih => rw [List.replicate_succ, List.cons_append, digsVal_cons, ih]; simp
  have hd : ∀ (k : ℕ) (l : List ℕ), (∀ d ∈ l, d < base.toNat) → ∀ d ∈ List.replicate k 0 ++ l, d < base.toNat := by
    intro k l hl d hm
    rcases List.mem_append.1 hm with hm | hm
    · rw [List.eq_of_mem_replicate hm]; omega
    · exact hl d hm
  rw [List.length_map] at a b
  rw [List.length_map, List.length_map, hz, hz, text_lt_iff (b := base.toNat) (by omega) (by simp; omega) (hd _ _ hlt) (hd _ _ hlt'), hval, hval, hv, hv']

/-- C124: the longest texts of `FormatUint`, in base 2 and in base 10. -/
theorem C124_longest {W : ℕ} (hW : W = 32 ∨ W = 64) (u : BitVec 64) {base : ℤ} (h1 : 2 ≤ base) (h2 : base ≤ 36) :
    ∃ t, formatUint W u base = .ok t ∧ t.length ≤ 64 ∧ (10 ≤ base → t.length ≤ 20) := by
  obtain ⟨t, h, hn⟩ := C39_formatUint hW u h1 h2
  obtain ⟨l1, l2, l3⟩ := numeral_length hn
  have key : ∀ a k : ℕ, 1 ≤ k → (a : ℤ) ≤ base → 1 ≤ a → 2 ^ 64 ≤ a ^ k → t.length ≤ k := by
    intro a k hk ha ha1 hak
    by_contra hc
    have hu := u.isLt
    by_cases h0 : u.toNat = 0
    · rw [h0] at hn
      have : t = ['0'] := isNumeral_unique (by omega) hn ⟨by simp, by simp [readNumeral, charDigit]; omega, fun _ => rfl⟩
      rw [this] at hc
      simp at hc
      omega
    · have b1 := l3 h0
      have b2 : a ^ k ≤ base.toNat ^ k := Nat.pow_le_pow_left (by omega) k
      have b3 : base.toNat ^ k ≤ base.toNat ^ (t.length - 1) := Nat.pow_le_pow_right (by omega) (by omega)
      omega
  exact ⟨t, h, key 2 64 (by norm_num) (by simpa using h1) (by norm_num) (by norm_num),
    fun h10 => key 10 20 (by norm_num) (by simpa using h10) (by norm_num) (by norm_num)⟩

-- The hypotheses hold for 9 and 10, which are in the other order as texts of different length.
example := C124_order (W := 64) (.inr rfl) 9 10 (base := 10) (by norm_num) (by norm_num)
example : formatUint 64 9 10 = .ok "9".toList ∧ formatUint 64 10 10 = .ok "10".toList ∧ "10".toList < "9".toList := by decide +kernel
example := C124_length (W := 32) (.inl rfl) 0xFFFFFFFFFFFFFFFF (base := 7) (by norm_num) (by norm_num)
example := C124_padded (W := 64) (.inr rfl) 9 10 (base := 36) (by norm_num) (by norm_num)
-- The bounds of `C124_longest` are reached.
example := C124_longest (W := 64) (.inr rfl) 0xFFFFFFFFFFFFFFFF (base := 2) (by norm_num) (by norm_num)
example : (formatUint 64 0xFFFFFFFFFFFFFFFF 2).map List.length = .ok 64 ∧ (formatUint 64 0xFFFFFFFFFFFFFFFF 10).map List.length = .ok 20 := by decide +kernel

/-- A numeral does not begin with a sign. -/
theorem numeral_no_sign {b : ℕ} (hb : b ≤ 36) {t : Text} {n : ℕ} (h : IsNumeral b t n) : t.head? ≠ some '-' := by
  obtain ⟨ds, rfl, hlt, -⟩ := readNumeral_inv h.2.1
  cases ds with
  | nil => simp
  | cons d ds =>
    have hd : ∀ d < 36, dchar d ≠ '-' := by decide
    simpa using hd d (lt_of_lt_of_le (hlt d (by simp)) hb)

/-- C124 for `FormatInt`: a negative number has a sign in front of the text of its magnitude, any other number is printed as by `FormatUint`; the longest
texts are those of the least number. -/
theorem C124_int {W : ℕ} (hW : W = 32 ∨ W = 64) (i : BitVec 64) {base : ℤ} (h1 : 2 ≤ base) (h2 : base ≤ 36) :
    ∃ t, formatInt W i base = .ok t ∧ (0 ≤ i.toInt → formatUint W i base = .ok t) ∧ (i.toInt < 0 → ∃ u, formatUint W (-i) base = .ok u ∧ t = '-' :: u) ∧
      t.length ≤ 65 ∧ (10 ≤ base → t.length ≤ 20) := by
  obtain ⟨t, h, hn⟩ := C39_formatInt hW i h1 h2
  refine ⟨t, h, ?_⟩
  unfold IsIntNumeral at hn
  split at hn
  · rename_i hi
    obtain ⟨u, rfl, hu⟩ := hn
    have hmag : (-i).toNat = i.toInt.natAbs := by
      have := i.isLt
      rw [BitVec.toInt_eq_toNat_cond] at hi ⊢
      rw [BitVec.toNat_neg]
      split at hi <;> omega
    obtain ⟨u', e', n'⟩ := C39_formatUint hW (-i) h1 h2
    rw [hmag] at n'
    obtain rfl : u' = u := isNumeral_unique (by omega) n' hu
    obtain ⟨v, e, l1, -⟩ := C124_longest hW (-i) h1 h2
    rw [e'] at e
    injection e with e
    subst e
    refine ⟨fun h => absurd hi (not_lt.2 h), fun _ => ⟨u', e', rfl⟩, by simp; omega, fun h10 => ?_⟩
    by_contra hc
    rw [List.length_cons] at hc
    have b1 := (numeral_length hu).2.2 (by omega)
    have b2 : 10 ^ 19 ≤ base.toNat ^ 19 := Nat.pow_le_pow_left (by omega) 19
    have b3 : base.toNat ^ 19 ≤ base.toNat ^ (u'.length - 1) := Nat.pow_le_pow_right (by omega) (by omega)
    have b4 : i.toInt.natAbs ≤ 2 ^ 63 := by
      have := i.isLt
      rw [BitVec.toInt_eq_toNat_cond] at hi ⊢
      split at hi <;> omega
    omega
  · rename_i hi
    have hmag : i.toNat = i.toInt.natAbs := by
      have := i.isLt
      rw [BitVec.toInt_eq_toNat_cond] at hi ⊢
      split at hi <;> omega
    obtain ⟨u', e', l1, l2⟩ := C124_longest hW i h1 h2
    obtain ⟨v, e, n'⟩ := C39_formatUint hW i h1 h2
    rw [e'] at e
    injection e with e
    subst e
    rw [hmag] at n'
    obtain rfl : u' = t := isNumeral_unique (by omega) n' hn
    exact ⟨fun _ => e', fun h => absurd h hi, by omega, l2⟩

/-- C124 for `FormatInt`, the order: a text with a sign comes before one without; of two without a sign the shorter one, or the first one of the same length,
is the smaller number, and of two with a sign it is the other way round. -/
theorem C124_int_order {W : ℕ} (hW : W = 32 ∨ W = 64) (i j : BitVec 64) {base : ℤ} (h1 : 2 ≤ base) (h2 : base ≤ 36) :
    ∃ t t', formatInt W i base = .ok t ∧ formatInt W j base = .ok t' ∧ (i.toInt < j.toInt ↔
      if t.head? = some '-' then t'.head? = some '-' → t'.length < t.length ∨ t'.length = t.length ∧ t' < t
      else t'.head? ≠ some '-' ∧ (t.length < t'.length ∨ t.length = t'.length ∧ t < t')) := by
  obtain ⟨t, h, hn⟩ := C39_formatInt hW i h1 h2
  obtain ⟨t', h', hn'⟩ := C39_formatInt hW j h1 h2
  refine ⟨t, t', h, h', ?_⟩
  unfold IsIntNumeral at hn hn'
  split at hn <;> split at hn'
  · obtain ⟨u, rfl, hu⟩ := hn
    obtain ⟨u', rfl, hu'⟩ := hn'
    have := numeral_lt (by omega) (by omega) hu' hu
    simp only [List.head?_cons, if_true, forall_const, List.length_cons, Nat.add_lt_add_iff_right, Nat.add_right_cancel_iff, List.cons_lt_cons_self]
    rw [← this]
    omega
  · obtain ⟨u, rfl, hu⟩ := hn
    have := numeral_no_sign (by omega) hn'
    simp only [List.head?_cons, if_true, this, false_imp_iff, iff_true]
    omega
  · obtain ⟨u', rfl, hu'⟩ := hn'
    rw [if_neg (numeral_no_sign (by omega) hn)]
    simp only [List.head?_cons, ne_eq, not_true_eq_false, false_and, iff_false]
    omega
  · have := numeral_lt (by omega) (by omega) hn hn'
    rw [if_neg (numeral_no_sign (by omega) hn), ← this]
    have h0 := numeral_no_sign (by omega) hn'
    simp only [ne_eq, h0, not_false_eq_true, true_and]
    omega

-- the least number in base 2 and in base 10
example := C124_int (W := 64) (.inr rfl) 0x8000000000000000 (base := 2) (by norm_num) (by norm_num)
example : (formatInt 64 0x8000000000000000 2).map List.length = .ok 65 ∧ (formatInt 64 0x8000000000000000 10).map List.length = .ok 20 := by decide +kernel
-- -10 is less than -9
example := C124_int_order (W := 64) (.inr rfl) (-10) (-9) (base := 10) (by norm_num) (by norm_num)

end GoFloat.Strconv
