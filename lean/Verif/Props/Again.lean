import Verif.Proofs.Float128ppc
import Verif.Proofs.FtoaOrder
import Verif.Proofs.Sample
import Verif.Props.Nearest
import Verif.Props.ShownText
/-
C103: printing a float, reading the text and printing what was read.
-/
namespace GoFloat.Strconv
open Spec

variable {W : ℕ} {F : Format} {size : ℤ} {fmt : Char} {prec : ℤ} {c c' c'' : ℕ} {s : Bool} {m m' m'' : ℚ} {val val' val'' : F64} {t t' t'' : Text}
  {q q' : ℚ}

theorem ten_pos (e : ℤ) : (0 : ℚ) < (10 : ℚ) ^ e := zpow_pos (by norm_num) _

theorem ten_lt {a b : ℤ} (h : (10 : ℚ) ^ a < (10 : ℚ) ^ b) : a < b := (zpow_lt_zpow_iff_right₀ (by norm_num)).1 h

theorem ten_le {a b : ℤ} (h : a ≤ b) : (10 : ℚ) ^ a ≤ (10 : ℚ) ^ b := zpow_le_zpow_right₀ (by norm_num) h

theorem ten_succ (a : ℤ) : (10 : ℚ) ^ (a + 1) = 10 * (10 : ℚ) ^ a := by rw [zpow_add_one₀ (by norm_num)]; ring

/-- A number rounded to `n` digits, in multiples `D` of the last place. -/
theorem rounded_parts {n : ℕ} (hn : 1 ≤ n) {v y : ℚ} (h : RoundedDigits n v y) :
    ∃ (K : ℕ) (e : ℤ), (10 : ℚ) ^ (e + n - 1) ≤ v ∧ v < (10 : ℚ) ^ (e + n) ∧ y = K * (10 : ℚ) ^ e ∧ |y - v| ≤ (10 : ℚ) ^ e / 2 ∧
      (|y - v| = (10 : ℚ) ^ e / 2 → Even K) ∧ (10 : ℚ) ^ (e + n - 1) ≤ y ∧ y ≤ (10 : ℚ) ^ (e + n) := by
  obtain ⟨K, e, h1, h2, h3, rfl⟩ := h
  have hD := ten_pos e
  have e1 : (10 : ℚ) ^ (e + n - 1) = ((10 ^ (n - 1) : ℕ) : ℚ) * (10 : ℚ) ^ e := by
    rw [show e + (n : ℤ) - 1 = ((n - 1 : ℕ) : ℤ) + e by omega, zpow_add₀ (by norm_num), zpow_natCast]; push_cast; rfl
  have e2 : (10 : ℚ) ^ (e + n) = ((10 ^ n : ℕ) : ℚ) * (10 : ℚ) ^ e := by
    rw [add_comm, zpow_add₀ (by norm_num), zpow_natCast]; push_cast; rfl
  have hv : v = v / (10 : ℚ) ^ e * (10 : ℚ) ^ e := by field_simp
  have key : |(K : ℚ) * (10 : ℚ) ^ e - v| = |v / (10 : ℚ) ^ e - ((K : ℤ) : ℚ)| * (10 : ℚ) ^ e := by
    conv_lhs => rw [hv, ← sub_mul, abs_mul, abs_of_pos hD, abs_sub_comm]
    push_cast; rfl
  have a1 := (abs_le.1 h3.1)
  have k1 : 10 ^ (n - 1) ≤ K := by
    have : ((10 ^ (n - 1) : ℕ) : ℚ) - 1 < K := by push_cast at a1 ⊢; linarith [a1.1, a1.2]
    have : ((10 ^ (n - 1) : ℕ) : ℤ) - 1 < K := by exact_mod_cast this
    have : ((10 ^ (n - 1) : ℕ) : ℤ) ≤ K := by omega
    exact_mod_cast this
  have k2 : K ≤ 10 ^ n := by
    have : (K : ℚ) < ((10 ^ n : ℕ) : ℚ) + 1 := by push_cast at a1 ⊢; linarith [a1.1, a1.2]
    have : K < 10 ^ n + 1 := by exact_mod_cast this
    omega
  refine ⟨K, e, ?_, ?_, rfl, ?_, fun h => ?_, ?_, ?_⟩
  · rw [e1, hv]; exact mul_le_mul_of_nonneg_right (by push_cast; exact h1) hD.le
  · rw [e2, hv]; exact mul_lt_mul_of_pos_right (by push_cast; exact h2) hD
  · rw [key]
    have := mul_le_mul_of_nonneg_right h3.1 hD.le
    linarith
  · rw [key] at h
    have h' : |v / (10 : ℚ) ^ e - ((K : ℤ) : ℚ)| = 1 / 2 := mul_right_cancel₀ hD.ne' (h.trans (by ring))
    exact_mod_cast h3.2 h'
  · rw [e1]; exact mul_le_mul_of_nonneg_right (by exact_mod_cast k1) hD.le
  · rw [e2]; exact mul_le_mul_of_nonneg_right (by exact_mod_cast k2) hD.le

/-- Two multiples of the last place near the same number. -/
theorem near_unique {D v : ℚ} (hD : 0 < D) {K L : ℕ} (h1 : |K * D - v| ≤ D / 2) (h2 : |K * D - v| = D / 2 → Even K) (h3 : |L * D - v| ≤ D / 2)
    (h4 : |L * D - v| = D / 2 → Even L) : K = L := by
  have key : ∀ a : ℕ, |v / D - ((a : ℤ) : ℚ)| * D = |a * D - v| := fun a => by
    rw [← abs_of_pos hD, ← abs_mul, abs_of_pos hD, abs_sub_comm, sub_mul, div_mul_cancel₀ _ hD.ne', Int.cast_natCast]
  have mk : ∀ a : ℕ, |a * D - v| ≤ D / 2 → (|a * D - v| = D / 2 → Even a) → NearestEven (v / D) a := fun a g1 g2 => by
    refine ⟨?_, fun h => ?_⟩
    · rw [← key a] at g1
      have : |v / D - ((a : ℤ) : ℚ)| * D ≤ 1 / 2 * D := by linarith
      exact le_of_mul_le_mul_right this hD
    · have : Even a := g2 (by rw [← key a, h]; ring)
      exact_mod_cast this
  exact_mod_cast nearestEven_unique (mk K h1 h2) (mk L h3 h4)

/-- Rounding to `n` digits again, from a number at least as near to the result of the first rounding: the result changes exactly if it is a power
of ten and the second number is below it by more than half of what the last of `n` digits counts there. -/
theorem rounded_again {n : ℕ} (hn : 1 ≤ n) {v v' q q' : ℚ} (h : RoundedDigits n v q) (h' : RoundedDigits n v' q') (hle : |q - v'| ≤ |q - v|) :
    (q' = q ∨ ∃ k : ℤ, q = (10 : ℚ) ^ k ∧ v' < q ∧ q ≤ v ∧ (10 : ℚ) ^ (k - 1) < q' ∧ q' < q ∧ (10 : ℚ) ^ (k - n) / 2 < q - v') := by
  obtain ⟨K, e, a1, a2, a3, a4, a5, a6, a7⟩ := rounded_parts hn h
  obtain ⟨K', e', b1, b2, b3, b4, b5, b6, b7⟩ := rounded_parts hn h'
  have hD := ten_pos e
  have hv' : |q - v'| ≤ (10 : ℚ) ^ e / 2 := hle.trans a4
  have hab := abs_le.1 hv'
  -- a multiple of the last place next to a power of ten is the power
  have step : ∀ j : ℕ, |q - ((j : ℚ) * (10 : ℚ) ^ e)| < (10 : ℚ) ^ e → q = j * (10 : ℚ) ^ e := fun j hj => by
    rw [a3, ← sub_mul, abs_mul, abs_of_pos hD] at hj
    have h1 : |(K : ℚ) - j| < 1 := by
      by_contra hc
      have := mul_le_mul_of_nonneg_right (not_lt.1 hc) hD.le
      linarith
    have h2 : |(K : ℤ) - j| < 1 := by exact_mod_cast h1
    rw [Int.abs_lt_one_iff] at h2
    rw [a3, show K = j by omega]
  have p1 : (10 : ℚ) ^ (e + n - 1) = ((10 ^ (n - 1) : ℕ) : ℚ) * (10 : ℚ) ^ e := by
    rw [show e + (n : ℤ) - 1 = ((n - 1 : ℕ) : ℤ) + e by omega, zpow_add₀ (by norm_num), zpow_natCast]; push_cast; rfl
  have p2 : (10 : ℚ) ^ (e + n) = ((10 ^ n : ℕ) : ℚ) * (10 : ℚ) ^ e := by
    rw [add_comm, zpow_add₀ (by norm_num), zpow_natCast]; push_cast; rfl
  rcases lt_trichotomy e' e with hlt | heq | hgt
  · -- the second number is below the power of ten
    have c1 : v' < (10 : ℚ) ^ (e + n - 1) := b2.trans_le (ten_le (by omega))
    have hq : q = (10 : ℚ) ^ (e + n - 1) := by
      rw [p1]; apply step; rw [← p1, abs_of_nonneg (by linarith)]; linarith [hab.1, hab.2]
    have hbig : (10 : ℚ) ^ e ≤ (10 : ℚ) ^ (e + n - 1) := ten_le (by omega)
    have hee : e' = e - 1 := by
      have : (10 : ℚ) ^ (e + n - 2) < (10 : ℚ) ^ (e' + n) := by
        refine lt_of_lt_of_le ?_ b2.le
        have : (10 : ℚ) ^ (e + n - 1) = 10 * (10 : ℚ) ^ (e + n - 2) := by rw [← ten_succ]; congr 1; ring
        have := ten_pos (e + n - 2)
        linarith [hab.1, hab.2]
      have := ten_lt this
      omega
    subst hee
    have hD' := ten_pos (e - 1)
    have hDD : (10 : ℚ) ^ e = 10 * (10 : ℚ) ^ (e - 1) := by rw [← ten_succ]; congr 1; ring
    by_cases hx : (10 : ℚ) ^ (e - 1) / 2 < q - v'
    · right
      refine ⟨e + n - 1, hq, hq ▸ c1, hq ▸ a1, ?_, ?_, by rwa [show e + (n : ℤ) - 1 - n = e - 1 by ring]⟩
      · have : (10 : ℚ) ^ (e + n - 1) = 10 * (10 : ℚ) ^ (e + n - 1 - 1) := by rw [← ten_succ]; congr 1; ring
        have := ten_pos (e + n - 1 - 1)
        have := abs_le.1 b4
        linarith [hab.1, hab.2, this.1, this.2]
      · have hb : q' ≤ q := by rw [hq]; refine b7.trans (le_of_eq ?_); congr 1; ring
        refine lt_of_le_of_ne hb fun he => ?_
        rw [he, abs_of_nonneg (by linarith)] at b4
        linarith
    · left
      have hq2 : q = ((10 ^ n : ℕ) : ℚ) * (10 : ℚ) ^ (e - 1) := by
        rw [hq, show e + (n : ℤ) - 1 = (n : ℤ) + (e - 1) by ring, zpow_add₀ (by norm_num), zpow_natCast]; push_cast; rfl
      rw [b3, hq2]
      congr 2
      refine near_unique hD' (by rw [← b3]; exact b4) (by rw [← b3]; exact b5) ?_ fun _ => ?_
      · rw [← hq2, abs_of_nonneg (by linarith)]; linarith
      · exact (show Even 10 by decide).pow_of_ne_zero (by omega)
  · left
    subst heq
    rw [b3, a3]
    congr 2
    refine near_unique hD (by rw [← b3]; exact b4) (by rw [← b3]; exact b5) (by rw [← a3]; exact hv') fun h => a5 ?_
    rw [← a3] at h
    exact le_antisymm a4 (h ▸ hle)
  · left
    have c1 : (10 : ℚ) ^ (e + n) ≤ v' := (ten_le (by omega)).trans b1
    have hq : q = (10 : ℚ) ^ (e + n) := by
      rw [p2]; apply step; rw [← p2, abs_sub_comm, abs_of_nonneg (by linarith)]; linarith [hab.1, hab.2]
    have hbig : (10 : ℚ) ^ e ≤ (10 : ℚ) ^ (e + n) := ten_le (by omega)
    have hee : e' = e + 1 := by
      have : (10 : ℚ) ^ (e' + n - 1) < (10 : ℚ) ^ (e + n + 1) := by
        refine lt_of_le_of_lt b1 ?_
        rw [ten_succ]
        linarith [hab.1, hab.2]
      have := ten_lt this
      omega
    subst hee
    have hD' := ten_pos (e + 1)
    have hDD := ten_succ e
    have hq2 : q = ((10 ^ (n - 1) : ℕ) : ℚ) * (10 : ℚ) ^ (e + 1) := by
      rw [hq, show e + (n : ℤ) = ((n - 1 : ℕ) : ℤ) + (e + 1) by omega, zpow_add₀ (by norm_num), zpow_natCast]; push_cast; rfl
    rw [b3, hq2]
    congr 2
    have hlt : |q - v'| < (10 : ℚ) ^ (e + 1) / 2 := by rw [hDD]; linarith
    refine near_unique hD' (by rw [← b3]; exact b4) (by rw [← b3]; exact b5) (by rw [← hq2]; exact hlt.le) fun h => ?_
    rw [← hq2] at h
    exact absurd h hlt.ne

/-- The number `q` is a power of ten and `v` is below it by more than half of what the last of `n` digits counts there. -/
def BelowPower (n : ℕ) (q v : ℚ) : Prop := ∃ k : ℤ, q = (10 : ℚ) ^ k ∧ (10 : ℚ) ^ (k - n) / 2 < q - v

theorem rounded_again_iff {n : ℕ} (hn : 1 ≤ n) {v v' q q' : ℚ} (h : RoundedDigits n v q) (h' : RoundedDigits n v' q') (hle : |q - v'| ≤ |q - v|) :
    q' = q ↔ ¬ BelowPower n q v' := by
  constructor
  · rintro rfl ⟨k, hk, hlt⟩
    obtain ⟨K', e', b1, b2, b3, b4, b5, b6, b7⟩ := rounded_parts hn h'
    have := ten_pos (k - n)
    rw [abs_of_nonneg (by linarith)] at b4
    have h1 : (10 : ℚ) ^ (e' + n - 1) < (10 : ℚ) ^ k := by rw [← hk]; linarith
    have h2 : (10 : ℚ) ^ e' ≤ (10 : ℚ) ^ (k - n) := ten_le (by have := ten_lt h1; omega)
    linarith
  · intro hx
    rcases rounded_again hn h h' hle with h | ⟨k, h1, h2, h3, h4, h5, h6⟩
    · exact h
    · exact absurd ⟨k, h1, h6⟩ hx

/-- What is read from the text of a float is at least as near to the text as the float is. -/
theorem read_near (hc : F.decode c = .num s m) (hr : F.RoundsTo s q c') (hc' : F.decode c' = .num s m') : |q - m'| ≤ |q - m| := by
  unfold Format.RoundsTo at hr
  split_ifs at hr with ho
  · rw [hc'] at hr; cases hr
  · obtain ⟨r, h1, h2, -⟩ := hr
    obtain ⟨-, rfl⟩ : s = s ∧ m' = r := by rw [hc'] at h1; exact Datum.num.inj h1
    have := h2 c s m hc
    cases s
    · simpa [signed] using this
    · simp only [signed, if_true] at this
      rwa [show -q - -m' = -(q - m') by ring, show -q - -m = -(q - m) by ring, abs_neg, abs_neg] at this

/-- The number of significant digits that a precision of at least zero asks for in the formats `e`, `E`, `g` and `G`. -/
def digitsAsked (fmt : Char) (prec : ℤ) : ℕ := if fmt = 'g' ∨ fmt = 'G' then max prec.toNat 1 else prec.toNat + 1

theorem digitsAsked_pos (fmt : Char) (prec : ℤ) : 1 ≤ digitsAsked fmt prec := by unfold digitsAsked; split_ifs <;> omega

/-- What is read from the text of a number that is not zero is not zero. -/
theorem read_pos {n : ℕ} (hn : 1 ≤ n) (h : RoundedDigits n m q) (hle : |q - m'| ≤ |q - m|) : m' ≠ 0 := by
  obtain ⟨K, e, a1, a2, a3, a4, a5, a6, a7⟩ := rounded_parts hn h
  rintro rfl
  have h1 := ten_pos e
  have h2 : (10 : ℚ) ^ e ≤ (10 : ℚ) ^ (e + n - 1) := ten_le (by omega)
  rw [sub_zero, abs_of_nonneg (by linarith)] at hle
  linarith

section
variable (hW : W = 32 ∨ W = 64) (hS : SizeOf F size) (hp : 0 ≤ prec) (opt opt' : Bool)
  (hc : F.decode c = .num s m) (hd : double.decode val.toNat = .num s m) (ht : genericFtoa W opt val fmt prec size = .ok t)
  (hq : readDecimal t = some (s, q)) (hr : F.RoundsTo s q c') (hc' : F.decode c' = .num s m') (hd' : double.decode val'.toNat = .num s m')
include hW hS hp hc hd ht hq hr hc' hd'

/-- C103, formats `e`, `E`, `g` and `G`: a float is printed, the text is read, and what was read is printed again. The second text is the first,
unless the first is the text of a power of ten and what was read is below the power by more than half of what the last digit counts there. -/
theorem C103_significant (hfmt : fmt = 'e' ∨ fmt = 'E' ∨ fmt = 'g' ∨ fmt = 'G') :
    genericFtoa W opt' val' fmt prec size = .ok t ↔ ¬ BelowPower (digitsAsked fmt prec) q m' := by
  have hD : DecimalFormat fmt := by rcases hfmt with rfl | rfl | rfl | rfl <;> simp [DecimalFormat]
  have hf : fmt ≠ 'f' := by rcases hfmt with rfl | rfl | rfl | rfl <;> decide
  have hn := digitsAsked_pos fmt prec
  obtain ⟨q₀, g1, g2, g3⟩ := (C89_text hW hS hD prec opt hc hd t).1 ht
  obtain rfl : q₀ = q := congrArg Prod.snd (Option.some.inj (g2.symm.trans hq))
  have hle := read_near hc hr hc'
  unfold Format.Shows at g1
  rw [if_neg (not_lt.2 hp), if_neg hf] at g1
  change (m = 0 → q₀ = 0) ∧ (m ≠ 0 → RoundedDigits (digitsAsked fmt prec) m q₀) at g1
  have shows : ∀ q', F.Shows fmt prec s c' m' q' ↔ (m' = 0 → q' = 0) ∧ (m' ≠ 0 → RoundedDigits (digitsAsked fmt prec) m' q') := fun q' => by
    unfold Format.Shows
    rw [if_neg (not_lt.2 hp), if_neg hf]
    rfl
  rw [C89_text hW hS hD prec opt' hc' hd' t]
  by_cases hm : m = 0
  · have hq0 := g1.1 hm
    have hm0 : m' = 0 := by
      rw [hq0, hm] at hle
      simpa using hle
    refine ⟨fun _ => ?_, fun _ => ⟨q₀, (shows _).2 ⟨fun _ => hq0, fun h => absurd hm0 h⟩, g2, g3⟩⟩
    rintro ⟨k, hk, -⟩
    exact absurd (hk.symm.trans hq0) (ten_pos k).ne'
  · have h1 := g1.2 hm
    have hm' := read_pos hn h1 hle
    constructor
    · rintro ⟨q', k1, k2, k3⟩
      obtain rfl : q' = q₀ := congrArg Prod.snd (Option.some.inj (k2.symm.trans hq))
      exact (rounded_again_iff hn h1 (((shows _).1 k1).2 hm') hle).1 rfl
    · intro hx
      obtain ⟨t₁, q₁, -, k1, k2, -⟩ := shown_text hW hS hD prec opt' hc' hd'
      have k3 := ((shows _).1 k1).2 hm'
      obtain rfl := (rounded_again_iff hn h1 k3 hle).2 hx
      exact ⟨_, k1, g2, g3⟩

/-- C103, format `f`: the second text is the first. -/
theorem C103_fixed (hfmt : fmt = 'f') : genericFtoa W opt' val' fmt prec size = .ok t := by
  subst hfmt
  have hD : DecimalFormat 'f' := by simp [DecimalFormat]
  obtain ⟨q₀, g1, g2, g3⟩ := (C89_text hW hS hD prec opt hc hd t).1 ht
  obtain rfl : q₀ = q := congrArg Prod.snd (Option.some.inj (g2.symm.trans hq))
  have hle := read_near hc hr hc'
  refine (C89_text hW hS hD prec opt' hc' hd' t).2 ⟨q₀, ?_, g2, g3⟩
  unfold Format.Shows at g1 ⊢
  rw [if_neg (not_lt.2 hp), if_pos rfl] at g1 ⊢
  obtain ⟨z, h1, h2⟩ := g1
  have hu : (0 : ℚ) < (10 : ℚ) ^ prec.toNat := by positivity
  have key : ∀ a : ℚ, |a * (10 : ℚ) ^ prec.toNat - ((z : ℤ) : ℚ)| = |q₀ - a| * (10 : ℚ) ^ prec.toNat := fun a => by
    rw [← abs_sub_comm, Int.cast_natCast, show (z : ℚ) = q₀ * (10 : ℚ) ^ prec.toNat by rw [h2, div_mul_cancel₀ _ hu.ne'], ← sub_mul, abs_mul, abs_of_pos hu]
  have hle' := mul_le_mul_of_nonneg_right hle hu.le
  unfold NearestEven at h1
  rw [key] at h1
  refine ⟨z, ⟨?_, ?_⟩, h2⟩
  · rw [key]; exact hle'.trans h1.1
  · rw [key]; exact fun h => h1.2 (le_antisymm h1.1 (h ▸ hle'))

/-- C103: from the second text on nothing changes any more. What is read from the second text is printed as the second text. -/
theorem C103_twice (hfmt : DecimalFormat fmt) (opt'' : Bool) (ht' : genericFtoa W opt' val' fmt prec size = .ok t') (hq' : readDecimal t' = some (s, q'))
    (hr' : F.RoundsTo s q' c'') (hc'' : F.decode c'' = .num s m'') (hd'' : double.decode val''.toNat = .num s m'') :
    genericFtoa W opt'' val'' fmt prec size = .ok t' := by
  by_cases hf : fmt = 'f'
  · exact C103_fixed hW hS hp opt' opt'' hc' hd' ht' hq' hr' hc'' hd'' hf
  have hfmt' : fmt = 'e' ∨ fmt = 'E' ∨ fmt = 'g' ∨ fmt = 'G' := by
    simp only [DecimalFormat, List.mem_cons, List.not_mem_nil, or_false] at hfmt; tauto
  refine (C103_significant hW hS hp opt' opt'' hc' hd' ht' hq' hr' hc'' hd'' hfmt').2 fun hx => ?_
  have hn := digitsAsked_pos fmt prec
  obtain ⟨q₀, g1, g2, g3⟩ := (C89_text hW hS hfmt prec opt hc hd t).1 ht
  obtain rfl : q₀ = q := congrArg Prod.snd (Option.some.inj (g2.symm.trans hq))
  obtain ⟨q₁, k1, k2, k3⟩ := (C89_text hW hS hfmt prec opt' hc' hd' t').1 ht'
  obtain rfl : q₁ = q' := congrArg Prod.snd (Option.some.inj (k2.symm.trans hq'))
  unfold Format.Shows at g1 k1
  rw [if_neg (not_lt.2 hp), if_neg hf] at g1 k1
  change (m = 0 → q₀ = 0) ∧ (m ≠ 0 → RoundedDigits (digitsAsked fmt prec) m q₀) at g1
  change (m' = 0 → q₁ = 0) ∧ (m' ≠ 0 → RoundedDigits (digitsAsked fmt prec) m' q₁) at k1
  have hle := read_near hc hr hc'
  by_cases hm : m = 0
  · have hm0 : m' = 0 := by
      rw [g1.1 hm, hm] at hle
      simpa using hle
    obtain ⟨k, hk, -⟩ := hx
    exact absurd (hk.symm.trans (k1.1 hm0)) (ten_pos k).ne'
  · have h1 := g1.2 hm
    have hm' := read_pos hn h1 hle
    have h2 := k1.2 hm'
    rcases rounded_again hn h1 h2 hle with h | ⟨k, j1, j2, j3, j4, j5, j6⟩
    · subst h
      have hu := (Float128ppc.RoundsTo.unique (by rcases hS.go with rfl | rfl | rfl <;> decide) hr hr').symm
      rw [hc', hc''] at hu
      obtain ⟨-, rfl⟩ := Datum.num.inj hu
      exact (rounded_again_iff hn h1 h2 hle).1 rfl hx
    · obtain ⟨k', hk', -⟩ := hx
      rw [hk'] at j4 j5
      rw [j1] at j5
      have := ten_lt j4
      have := ten_lt j5
      omega
end

-- -11/8 as a half, with one decimal: -1.4 is read as another half, which is printed as -1.4 as well
theorem sample_again : half.decode 0xBD9A = .num true (717 / 512) ∧ double.decode (0xBFF6680000000000 : F64).toNat = .num true (717 / 512) ∧
    half.RoundsTo true (7 / 5) 0xBD9A := by
  have h : half.decode 0xBD9A = .num true (717 / 512) := by norm_num [half, Format.decode, Format.bias]
  refine ⟨h, ?_, ?_⟩
  · show double.decode 0xBFF6680000000000 = _
    norm_num [double, Format.decode, Format.bias]
  · refine (roundsTo_num_iff half (by decide) (by decide) (n := 0x3D9A) (by decide) (by rw [h]; norm_num [Format.magc, half, Format.qmin, Format.bias]) (by norm_num)).2 ?_
    norm_num [InInterval, Format.magc, half, Format.qmin, Format.bias]

example : formatFloat 64 0xBFF6680000000000 'f' 1 16 = .ok "-1.4".toList :=
  C103_fixed (.inr rfl) (F := half) (.inl ⟨rfl, rfl⟩) (by norm_num) true true Sample.x_half (val := 0xBFF6000000000000) Sample.x_double (q := 7 / 5) (by decide +kernel) (by decide +kernel)
    sample_again.2.2 sample_again.1 sample_again.2.1 rfl

example := C103_significant (W := 64) (.inr rfl) (F := half) (size := 16) (.inl ⟨rfl, rfl⟩) (prec := 1) (by norm_num) true true Sample.x_half (val := 0xBFF6000000000000) Sample.x_double
  (t := "-1.4e+00".toList) (q := 7 / 5) (fmt := 'e') (by decide +kernel) (by decide +kernel) sample_again.2.2 sample_again.1 sample_again.2.1 (.inl rfl)

example := C103_twice (W := 64) (.inr rfl) (F := half) (size := 16) (.inl ⟨rfl, rfl⟩) (prec := 1) (by norm_num) true true Sample.x_half (val := 0xBFF6000000000000) Sample.x_double
  (t := "-1.4e+00".toList) (q := 7 / 5) (fmt := 'e') (by decide +kernel) (by decide +kernel) sample_again.2.2 sample_again.1 sample_again.2.1 (by simp [DecimalFormat]) true
  (t' := "-1.4e+00".toList) (q' := 7 / 5) (by decide +kernel) (by decide +kernel) sample_again.2.2 sample_again.1 sample_again.2.1

theorem decode_positive {n : ℕ} (hn : n < double.infCode) : double.decode n = .num false (double.magc n) := by
  simpa [Format.signPart] using double.decode_code false hn

/-- C103: the exception exists. The float64 above 10^23 is printed with 16 digits as 10^23, which is read as the float64 below 10^23, which is
printed otherwise. The 21st float64 above zero is printed with 2 digits as 10^-322, which is read as the 20th, which is printed otherwise. -/
theorem C103_unstable :
    (formatFloat 64 0x44B52D02C7E14AF7 'e' 15 64 = .ok "1.000000000000000e+23".toList ∧ double.RoundsTo false (10 ^ 23) 0x44B52D02C7E14AF6 ∧
      formatFloat 64 0x44B52D02C7E14AF6 'e' 15 64 = .ok "9.999999999999999e+22".toList) ∧
    (formatFloat 64 21 'e' 1 64 = .ok "1.0e-322".toList ∧ double.RoundsTo false (1 / 10 ^ 322) 20 ∧
      formatFloat 64 20 'e' 1 64 = .ok "9.9e-323".toList) := by
  refine ⟨⟨by decide +kernel, ?_, by decide +kernel⟩, by decide +kernel, ?_, by decide +kernel⟩
  · refine (roundsTo_num_iff double (by decide) (by decide) (n := 0x44B52D02C7E14AF6) (by decide) (decode_positive (by decide)) (by norm_num)).2 ?_
    norm_num [InInterval, Format.magc, double, Format.qmin, Format.bias]
  · refine (roundsTo_num_iff double (by decide) (by decide) (n := 20) (by decide) (decode_positive (by decide)) (by positivity)).2 ?_
    norm_num [InInterval, Format.magc, double, Format.qmin, Format.bias]
    decide +kernel

end GoFloat.Strconv
