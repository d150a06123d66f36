import Verif.Proofs.Sample
import Verif.Proofs.Itoa
/-
Properties of internal/strconv/itoa.go (C39 of properties.jsonl). `W` is the size of `uint` and `int`.
-/
namespace GoFloat.Strconv
open Spec

/-- C39: a numeral is determined by its number and determines it, so that the theorems below fix the text. -/
theorem C39_numeral_unique {b : ℕ} (hb : 2 ≤ b) {s t : Text} {n m : ℕ} (h : IsNumeral b s n) (h' : IsNumeral b t m) :
    s = t ↔ n = m :=
  ⟨fun e => isNumeral_value h (e ▸ h'), fun e => isNumeral_unique hb h (e ▸ h')⟩

example := C39_numeral_unique (b := 36) (by norm_num) (s := "z".toList) (t := "10".toList) (n := 35) (m := 36) ⟨by decide, by decide, by decide⟩ ⟨by decide, by decide, by decide⟩

/-- C39: likewise for numerals with sign. -/
theorem C39_int_numeral_unique {b : ℕ} (hb : 2 ≤ b) {s t : Text} {n m : ℤ} (h : IsIntNumeral b s n) (h' : IsIntNumeral b t m) :
    s = t ↔ n = m := by
  unfold IsIntNumeral at h h'
  split at h <;> split at h'
  · obtain ⟨s, rfl, h⟩ := h
    obtain ⟨t, rfl, h'⟩ := h'
    rw [List.cons.injEq, C39_numeral_unique hb h h']
    constructor
    · rintro ⟨_, e⟩; omega
    · intro e; exact ⟨rfl, by omega⟩
  · obtain ⟨s, rfl, h⟩ := h
    exact ⟨fun e => absurd e.symm (isNumeral_no_sign h'), fun e => by omega⟩
  · obtain ⟨t, rfl, h'⟩ := h'
    exact ⟨fun e => absurd e (isNumeral_no_sign h), fun e => by omega⟩
  · rw [C39_numeral_unique hb h h']; omega

example := C39_int_numeral_unique (b := 36) (by norm_num) (s := "-z".toList) (t := "10".toList) (n := -35) (m := 36)
  ((if_pos (by norm_num)).mpr ⟨"z".toList, rfl, by decide, by decide, by decide⟩) ((if_neg (by norm_num)).mpr ⟨by decide, by decide, by decide⟩)

/-- C39: `FormatUint` prints the numeral of its argument, on 32- and on 64-bit hosts. -/
theorem C39_formatUint {W : ℕ} (hW : W = 32 ∨ W = 64) (u : BitVec 64) {base : ℤ} (h1 : 2 ≤ base) (h2 : base ≤ 36) :
    ∃ s, formatUint W u base = .ok s ∧ IsNumeral base.toNat s u.toNat := by
  refine ⟨(dg base.toNat u.toNat).map dchar, ?_, isNumeral_dg (by omega) (by omega) _⟩
  unfold formatUint
  split
  · rename_i h
    obtain ⟨ha, rfl⟩ := h
    exact small_ok ha
  · rw [formatBits_ok hW u h1 h2]; rfl

example := C39_formatUint (W := 32) (.inl rfl) 0xFFFFFFFFFFFFFFFF (base := 36) (by norm_num) (by norm_num)

theorem neg_toNat {i : BitVec 64} (h : i.toInt < 0) : (-i).toNat = i.toInt.natAbs := by
  have hlt := i.isLt
  rw [BitVec.toInt_eq_toNat_cond] at h ⊢
  rw [BitVec.toNat_neg]
  split at h
  · omega
  · rename_i hc; rw [if_neg hc]; omega

theorem nonneg_toNat {i : BitVec 64} (h : ¬ i.toInt < 0) : i.toNat = i.toInt.natAbs := by
  have hlt := i.isLt
  rw [BitVec.toInt_eq_toNat_cond] at h ⊢
  split at h
  · rename_i hc; rw [if_pos hc]; omega
  · omega

/-- The text of an integer. -/
theorem formatInt_eq {W : ℕ} (hW : W = 32 ∨ W = 64) (i : BitVec 64) {base : ℤ} (h1 : 2 ≤ base) (h2 : base ≤ 36) :
    formatInt W i base = .ok ((if i.toInt < 0 then ['-'] else []) ++ (dg base.toNat i.toInt.natAbs).map dchar) := by
  unfold formatInt
  split
  · rename_i h
    obtain ⟨ha, hb, rfl⟩ := h
    rw [if_neg (by omega), small_ok (by have : nSmalls = 100 := rfl; omega), show i.toInt.toNat = i.toInt.natAbs by omega]; rfl
  · rw [formatBits_ok hW i h1 h2]
    by_cases hn : i.toInt < 0
    · simp only [hn, decide_true, if_true, neg_toNat hn]
    · simp only [hn, decide_false, Bool.false_eq_true, if_false, nonneg_toNat hn]

theorem isIntNumeral_dg {b : ℕ} (hb : 2 ≤ b) (hb36 : b ≤ 36) (i : ℤ) :
    IsIntNumeral b ((if i < 0 then ['-'] else []) ++ (dg b i.natAbs).map dchar) i := by
  unfold IsIntNumeral
  split
  · exact ⟨_, rfl, isNumeral_dg hb hb36 _⟩
  · exact isNumeral_dg hb hb36 _

/-- C39: `FormatInt` prints the numeral with sign, on 32- and on 64-bit hosts. -/
theorem C39_formatInt {W : ℕ} (hW : W = 32 ∨ W = 64) (i : BitVec 64) {base : ℤ} (h1 : 2 ≤ base) (h2 : base ≤ 36) :
    ∃ s, formatInt W i base = .ok s ∧ IsIntNumeral base.toNat s i.toInt :=
  ⟨_, formatInt_eq hW i h1 h2, isIntNumeral_dg (by omega) (by omega) _⟩

example := C39_formatInt (W := 32) (.inl rfl) 0x8000000000000000 (base := 3) (by norm_num) (by norm_num)

/-- C39: `Itoa` prints the decimal numeral of an `int`. -/
theorem C39_itoa {W : ℕ} (hW : W = 32 ∨ W = 64) (i : BitVec W) :
    ∃ s, itoa W i = .ok s ∧ IsIntNumeral 10 s i.toInt := by
  obtain ⟨s, h1, h2⟩ := C39_formatInt hW (i.signExtend 64) (base := 10) (by norm_num) (by norm_num)
  refine ⟨s, h1, ?_⟩
  rw [BitVec.toInt_signExtend_of_le (by omega)] at h2
  exact h2

example := C39_itoa (W := 32) (.inl rfl) 0x80000000

/-- C39: `AppendUint` and `AppendInt` append the text of `FormatUint` and `FormatInt`, or panic with them. -/
theorem C39_append (W : ℕ) (dst : Text) (i : BitVec 64) (base : ℤ) :
    appendUint W dst i base = (formatUint W i base).map (dst ++ ·) ∧
    appendInt W dst i base = (formatInt W i base).map (dst ++ ·) := by
  constructor
  · unfold appendUint formatUint
    split
    · cases small i.toNat <;> rfl
    · cases formatBits W i base false <;> rfl
  · unfold appendInt formatInt
    split
    · cases small i.toInt.toNat <;> rfl
    · cases formatBits W i base (decide (i.toInt < 0)) <;> rfl

/-- C39: the text does not depend on the host. -/
theorem C39_host_independent (i : BitVec 64) {base : ℤ} (h1 : 2 ≤ base) (h2 : base ≤ 36) :
    formatUint 32 i base = formatUint 64 i base ∧ formatInt 32 i base = formatInt 64 i base := by
  constructor
  · obtain ⟨s, e, n⟩ := C39_formatUint (Or.inl rfl) i h1 h2
    obtain ⟨t, e', n'⟩ := C39_formatUint (Or.inr rfl) i h1 h2
    rw [e, e', (C39_numeral_unique (by omega) n n').2 rfl]
  · obtain ⟨s, e, n⟩ := C39_formatInt (Or.inl rfl) i h1 h2
    obtain ⟨t, e', n'⟩ := C39_formatInt (Or.inr rfl) i h1 h2
    rw [e, e', (C39_int_numeral_unique (by omega) n n').2 rfl]

example := C39_host_independent 0x8000000000000000 (base := 7) (by norm_num) (by norm_num)

/-- C39: every other base panics, whatever the value. -/
theorem C39_illegal_base (W : ℕ) (i : BitVec 64) {base : ℤ} (h : base < 2 ∨ 36 < base) :
    formatUint W i base = .error .illegalBase ∧ formatInt W i base = .error .illegalBase := by
  constructor
  · unfold formatUint
    rw [if_neg (by omega), formatBits_illegal _ h]
  · unfold formatInt
    rw [if_neg (by omega), formatBits_illegal _ h]

-- the largest and the smallest values, in several bases
example : formatUint 32 0xFFFFFFFFFFFFFFFF 10 = .ok "18446744073709551615".toList := by decide +kernel
example : formatInt 32 0x8000000000000000 10 = .ok "-9223372036854775808".toList := by decide +kernel
example : formatInt 64 0x8000000000000000 2 = .ok ("-1" ++ "".pushn '0' 63).toList := by decide +kernel
example : formatUint 64 0xFFFFFFFFFFFFFFFF 36 = .ok "3w5e11264sgsf".toList := by decide +kernel
example : itoa 32 0x80000000 = .ok "-2147483648".toList := by decide +kernel
example : IsNumeral 36 "zz".toList 1295 ∧ ¬ IsNumeral 10 "007".toList 7 := by
  unfold IsNumeral
  decide +kernel

end GoFloat.Strconv
