import Mathlib.Data.Nat.Digits.Lemmas
import Mathlib.Tactic.IntervalCases
import Verif.Model.Itoa
import Verif.Spec.Numeral
import Verif.Proofs.Text
/-
What the functions of internal/strconv/itoa.go compute.
-/
namespace GoFloat.Strconv
open Spec

/-- The digits of `n`, most significant first, `[0]` for 0. -/
def dg (b n : ℕ) : List ℕ := if n = 0 then [0] else (Nat.digits b n).reverse

theorem dg_small {b n : ℕ} (h : n < b) : dg b n = [n] := by
  unfold dg
  split
  · rename_i h0; rw [h0]
  · rename_i h0; rw [Nat.digits_of_lt b n h0 h]; rfl

theorem dg_step {b n : ℕ} (hb : 2 ≤ b) (h : b ≤ n) : dg b n = dg b (n / b) ++ [n % b] := by
  unfold dg
  have h1 : n / b ≠ 0 := by
    have := Nat.div_pos h (by omega); omega
  rw [if_neg (by omega), if_neg h1, Nat.digits_def' (by omega) (by omega), List.reverse_cons]

/-- The last `k` digits of `n`. -/
def fix (b : ℕ) : ℕ → ℕ → List ℕ
  | 0, _ => []
  | k + 1, n => fix b k (n / b) ++ [n % b]

theorem dg_fix {b : ℕ} (hb : 2 ≤ b) : ∀ (k n : ℕ), b ^ k ≤ n → dg b n = dg b (n / b ^ k) ++ fix b k n
  | 0, n, _ => by simp [fix]
  | k + 1, n, h => by
    have hbp : 0 < b := by omega
    have hb1 : b ≤ n := le_trans (by rw [pow_succ]; exact Nat.le_mul_of_pos_left b (pow_pos hbp k)) h
    rw [dg_step hb hb1, dg_fix hb k (n / b) ((Nat.le_div_iff_mul_le hbp).2 (by rw [← pow_succ]; exact h)), fix,
      Nat.div_div_eq_div_mul, pow_succ', List.append_assoc]

theorem fix_mod {b : ℕ} : ∀ (k n : ℕ), fix b k (n % b ^ k) = fix b k n
  | 0, _ => rfl
  | k + 1, n => by
    rw [fix, fix, pow_succ']
    congr 1
    · rw [Nat.mod_mul_right_div_self, fix_mod k]
    · rw [Nat.mod_mod_of_dvd _ (Dvd.intro _ rfl)]

theorem fix_length {b : ℕ} : ∀ (k n : ℕ), (fix b k n).length = k
  | 0, _ => rfl
  | k + 1, n => by rw [fix, List.length_append, fix_length k]; rfl

theorem dg_length_le {b : ℕ} (hb : 2 ≤ b) {k n : ℕ} (hk : 1 ≤ k) (h : n < b ^ k) : (dg b n).length ≤ k := by
  unfold dg
  split
  · exact hk
  · rw [List.length_reverse]
    exact (Nat.digits_length_le_iff (by omega) n).2 h

/-- The digit characters. -/
def dchar (d : ℕ) : Char := digits.getD d '0'

theorem charAt_digits {d : ℕ} (h : d < 36) : charAt digits d = .ok (dchar d) := by
  interval_cases d <;> rfl

theorem charAt_smalls {i : ℕ} (h : i < 100) :
    charAt smallsString (i * 2) = .ok (dchar (i / 10)) ∧ charAt smallsString (i * 2 + 1) = .ok (dchar (i % 10)) := by
  have : ∀ i < 100, charAt smallsString (i * 2) = .ok (dchar (i / 10)) ∧ charAt smallsString (i * 2 + 1) = .ok (dchar (i % 10)) := by
    decide +kernel
  exact this i h

theorem push_ok {c : Char} {acc : Text} (h : acc.length < 65) : push c acc = .ok (c :: acc) := by
  unfold push; rw [if_pos h]

theorem pushPair_ok {us : ℕ} {acc : Text} (h : acc.length + 2 ≤ 65) :
    pushPair us acc = .ok ((fix 10 2 us).map dchar ++ acc) := by
  unfold pushPair
  obtain ⟨h1, h2⟩ := charAt_smalls (i := us % 100) (by omega)
  simp only [h1, h2, bind, Except.bind]
  rw [push_ok (by omega)]
  simp only
  rw [push_ok (by rw [List.length_cons]; omega)]
  have e1 : us % 100 / 10 = us / 10 % 10 := by omega
  have e2 : us % 100 % 10 = us % 10 := by omega
  rw [e1, e2]
  rfl

theorem fix_add {b : ℕ} : ∀ (j k n : ℕ), fix b (k + j) n = fix b k (n / b ^ j) ++ fix b j n
  | 0, k, n => by simp [fix]
  | j + 1, k, n => by
    rw [← add_assoc, fix, fix_add j k (n / b), fix, Nat.div_div_eq_div_mul, pow_succ', List.append_assoc]

theorem pairs_ok : ∀ (n us : ℕ) (acc : Text), acc.length + 2 * n ≤ 65 →
    pairs n us acc = .ok (us / 100 ^ n, (fix 10 (2 * n) us).map dchar ++ acc)
  | 0, us, acc, _ => by simp [pairs, fix]
  | n + 1, us, acc, h => by
    unfold pairs
    rw [pushPair_ok (by omega)]
    simp only [bind, Except.bind]
    rw [pairs_ok n _ _ (by rw [List.length_append, List.length_map, fix_length]; omega)]
    rw [Nat.div_div_eq_div_mul, ← pow_succ', show 2 * (n + 1) = 2 * n + 2 by ring, fix_add 2 (2 * n) us, List.map_append,
      List.append_assoc]
    norm_num

theorem loop32_ok : ∀ (f u : ℕ) (acc : Text), u < (10 ^ 9) ^ f → 1 ≤ f → acc.length + (dg 10 u).length ≤ 64 →
    ∃ q t, loop32 f u acc = .ok (q, t) ∧ q < 10 ^ 9 ∧ (dg 10 q).map dchar ++ t = (dg 10 u).map dchar ++ acc
  | 0, u, acc, _, h, _ => by omega
  | f + 1, u, acc, h, _, hl => by
    unfold loop32
    by_cases hu : 1000000000 ≤ u
    · rw [if_pos hu]
      have hfix := dg_fix (b := 10) (by norm_num) 9 u (by norm_num; omega)
      have hlen : (dg 10 u).length = (dg 10 (u / 10 ^ 9)).length + 9 := by
        rw [hfix, List.length_append, fix_length]
      have hmod : u - u / 1000000000 * 1000000000 = u % 10 ^ 9 := by omega
      simp only [hmod]
      rw [pairs_ok 4 _ _ (by omega)]
      simp only [bind, Except.bind]
      have h8 : u % 10 ^ 9 / 100 ^ 4 < 10 := by norm_num; omega
      rw [(charAt_smalls (i := u % 10 ^ 9 / 100 ^ 4) (by omega)).2]
      simp only
      rw [push_ok (by rw [List.length_append, List.length_map, fix_length]; omega)]
      simp only
      have hacc : dchar (u % 10 ^ 9 / 100 ^ 4 % 10) :: ((fix 10 (2 * 4) (u % 10 ^ 9)).map dchar ++ acc) =
          (fix 10 9 u).map dchar ++ acc := by
        rw [← fix_mod 9 u, fix_add 8 1 (u % 10 ^ 9), List.map_append, List.append_assoc]
        norm_num [fix]
      rw [hacc]
      obtain ⟨q, t, e1, e2, e3⟩ := loop32_ok f (u / 1000000000) ((fix 10 9 u).map dchar ++ acc) ((Nat.div_lt_iff_lt_mul (by norm_num)).2 (by rw [pow_succ] at h; exact h)) (by
        rcases Nat.eq_zero_or_pos f with h0 | h0
        · rw [h0] at h; norm_num at h; omega
        · exact h0) (by
        rw [List.length_append, List.length_map, fix_length]
        norm_num at hlen ⊢
        omega)
      refine ⟨q, t, e1, e2, ?_⟩
      rw [e3, hfix, List.map_append, List.append_assoc]
      norm_num
    · rw [if_neg hu]
      exact ⟨u, acc, rfl, by omega, rfl⟩

theorem loop10_ok : ∀ (f us : ℕ) (acc : Text), us < 100 ^ f → 1 ≤ f → acc.length + (dg 10 us).length ≤ 65 →
    loop10 f us acc = .ok ((dg 10 us).map dchar ++ acc)
  | 0, us, acc, _, h, _ => by omega
  | f + 1, us, acc, h, _, hl => by
    unfold loop10
    by_cases hu : 100 ≤ us
    · rw [if_pos hu]
      have hfix := dg_fix (b := 10) (by norm_num) 2 us (by norm_num; omega)
      have hlen : (dg 10 us).length = (dg 10 (us / 10 ^ 2)).length + 2 := by
        rw [hfix, List.length_append, fix_length]
      rw [pushPair_ok (by omega)]
      simp only [bind, Except.bind]
      have hf : 1 ≤ f := by
        rcases Nat.eq_zero_or_pos f with h0 | h0
        · rw [h0] at h; norm_num at h; omega
        · exact h0
      rw [loop10_ok f _ _ ((Nat.div_lt_iff_lt_mul (by norm_num)).2 (by rw [← pow_succ]; exact h)) hf (by
        rw [List.length_append, List.length_map, fix_length]
        norm_num at hlen ⊢
        omega)]
      rw [hfix, List.map_append, List.append_assoc]
      norm_num
    · rw [if_neg hu]
      obtain ⟨h1, h2⟩ := charAt_smalls (i := us) (by omega)
      simp only [h1, h2, bind, Except.bind, pure, Except.pure]
      by_cases h10 : 10 ≤ us
      · have hd : dg 10 us = [us / 10, us % 10] := by
          rw [dg_step (by norm_num) h10, dg_small (by omega)]; rfl
        rw [hd] at hl ⊢
        have hl' : acc.length + 2 ≤ 65 := hl
        rw [push_ok (by omega)]
        simp only
        rw [if_pos h10, push_ok (by rw [List.length_cons]; omega)]
        rfl
      · have hd : dg 10 us = [us] := dg_small (by omega)
        rw [hd] at hl ⊢
        have hl' : acc.length + 1 ≤ 65 := hl
        rw [push_ok (by omega)]
        simp only
        rw [if_neg h10, show us % 10 = us by omega]
        rfl

theorem loopGen_ok {W b : ℕ} (hb : 2 ≤ b) (hb36 : b ≤ 36) (hW : 6 ≤ W) : ∀ (f u : ℕ) (acc : Text), u < b ^ f → 1 ≤ f →
    acc.length + (dg b u).length ≤ 65 → loopGen W b f u acc = .ok ((dg b u).map dchar ++ acc)
  | 0, u, acc, _, h, _ => by omega
  | f + 1, u, acc, h, _, hl => by
    have hWp : 64 ≤ 2 ^ W := by
      calc 64 = 2 ^ 6 := by norm_num
        _ ≤ 2 ^ W := Nat.pow_le_pow_right (by norm_num) hW
    unfold loopGen
    by_cases hu : b ≤ u
    · have hd := dg_step hb hu
      have hlen : (dg b u).length = (dg b (u / b)).length + 1 := by rw [hd, List.length_append]; rfl
      have hmod : u - u / b * b = u % b := by
        have := Nat.div_add_mod u b
        rw [mul_comm] at this; omega
      have hlt : u % b < b := Nat.mod_lt _ (by omega)
      rw [if_pos hu]
      simp only [hmod, Nat.mod_eq_of_lt (show u % b < 2 ^ W by omega)]
      rw [charAt_digits (by omega)]
      simp only [bind, Except.bind]
      rw [push_ok (by omega)]
      simp only
      have hf : 1 ≤ f := by
        rcases Nat.eq_zero_or_pos f with h0 | h0
        · rw [h0] at h; rw [zero_add, pow_one] at h; omega
        · exact h0
      rw [loopGen_ok hb hb36 hW f _ _ ((Nat.div_lt_iff_lt_mul (by omega)).2 (by rw [← pow_succ]; exact h)) hf (by
        rw [List.length_cons]; omega), hd, List.map_append, List.append_assoc]
      rfl
    · rw [if_neg hu, Nat.mod_eq_of_lt (show u < 2 ^ W by omega), charAt_digits (by omega)]
      have hd : dg b u = [u] := dg_small (by omega)
      rw [hd] at hl ⊢
      have hl' : acc.length + 1 ≤ 65 := hl
      simp only [bind, Except.bind]
      rw [push_ok (by omega)]
      rfl

theorem loopPow2_ok {W b s : ℕ} (hs : b = 2 ^ s) (hb : 2 ≤ b) (hb36 : b ≤ 36) (hW : 6 ≤ W) : ∀ (f u : ℕ) (acc : Text), u < b ^ f → 1 ≤ f →
    acc.length + (dg b u).length ≤ 65 → loopPow2 W b (b - 1) s f u acc = .ok ((dg b u).map dchar ++ acc)
  | 0, u, acc, _, h, _ => by omega
  | f + 1, u, acc, h, _, hl => by
    have hWp : 64 ≤ 2 ^ W := by
      calc 64 = 2 ^ 6 := by norm_num
        _ ≤ 2 ^ W := Nat.pow_le_pow_right (by norm_num) hW
    have hsW : s ≤ W := by
      have : s < 6 := by
        by_contra hc
        have : 2 ^ 6 ≤ 2 ^ s := Nat.pow_le_pow_right (by norm_num) (by omega)
        omega
      omega
    unfold loopPow2
    by_cases hu : b ≤ u
    · have hd := dg_step hb hu
      have hlen : (dg b u).length = (dg b (u / b)).length + 1 := by rw [hd, List.length_append]; rfl
      have hmod : (u % 2 ^ W) &&& (b - 1) = u % b := by
        rw [hs, Nat.and_two_pow_sub_one_eq_mod, Nat.mod_mod_of_dvd _ (pow_dvd_pow 2 hsW)]
      have hlt : u % b < b := Nat.mod_lt _ (by omega)
      rw [if_pos hu, hmod, charAt_digits (by omega)]
      simp only [bind, Except.bind]
      rw [push_ok (by omega)]
      simp only
      have hf : 1 ≤ f := by
        rcases Nat.eq_zero_or_pos f with h0 | h0
        · rw [h0] at h; rw [zero_add, pow_one] at h; omega
        · exact h0
      have hsh : u >>> s = u / b := by rw [Nat.shiftRight_eq_div_pow, hs]
      rw [hsh, loopPow2_ok hs hb hb36 hW f _ _ ((Nat.div_lt_iff_lt_mul (by omega)).2 (by rw [← pow_succ]; exact h)) hf (by
        rw [List.length_cons]; omega), hd, List.map_append, List.append_assoc]
      rfl
    · rw [if_neg hu, Nat.mod_eq_of_lt (show u < 2 ^ W by omega), charAt_digits (by omega)]
      have hd : dg b u = [u] := dg_small (by omega)
      rw [hd] at hl ⊢
      have hl' : acc.length + 1 ≤ 65 := hl
      simp only [bind, Except.bind]
      rw [push_ok (by omega)]
      rfl

theorem powTwo_cases {b : ℕ} (hb : 2 ≤ b) (hb36 : b ≤ 36) (h : isPowerOfTwo b = true) : b = 2 ^ (ntz b &&& 7) := by
  have : ∀ b ≤ 36, 2 ≤ b → isPowerOfTwo b = true → b = 2 ^ (ntz b &&& 7) := by decide +kernel
  exact this b hb36 hb h

/-- `formatBits` produces the digits. -/
theorem formatBits_ok {W : ℕ} (hW : W = 32 ∨ W = 64) (u : BitVec 64) {base : ℤ} (h1 : 2 ≤ base) (h2 : base ≤ 36) (neg : Bool) :
    formatBits W u base neg = .ok ((if neg then ['-'] else []) ++ (dg base.toNat (if neg then -u else u).toNat).map dchar) := by
  obtain ⟨b, rfl⟩ := Int.eq_ofNat_of_zero_le (show 0 ≤ base by omega)
  have hb : 2 ≤ b := by omega
  have hb36 : b ≤ 36 := by omega
  unfold formatBits
  rw [if_neg (by
    have : (digits.length : ℤ) = 36 := rfl
    omega)]
  simp only [Int.toNat_natCast, bind, Except.bind]
  set v := (if neg then -u else u).toNat with hv
  have hlt : v < 2 ^ 64 := (if neg then -u else u).isLt
  have hbp : v < b ^ 64 := lt_of_lt_of_le hlt (Nat.pow_le_pow_left hb 64)
  have hlen : (dg b v).length ≤ 64 := dg_length_le hb (by norm_num) hbp
  have hfin : ∀ t : Text, t.length ≤ 64 → (if neg = true then push '-' t else pure t : Go Text) =
      .ok ((if neg then ['-'] else []) ++ t) := by
    intro t ht
    cases neg
    · rfl
    · simp only [if_true]; rw [push_ok (by omega)]; rfl
  have hml : ((dg b v).map dchar).length ≤ 64 := by rw [List.length_map]; exact hlen
  by_cases h10 : b = 10
  · subst h10
    rw [if_pos (show ((10 : ℕ) : ℤ) = 10 from rfl)]
    have hl20 : (dg 10 v).length ≤ 64 := hlen
    rcases hW with rfl | rfl
    · rw [if_pos rfl]
      obtain ⟨q, t, e1, e2, e3⟩ := loop32_ok 65 v [] (hlt.trans (by norm_num)) (by norm_num) (by simpa using hl20)
      rw [e1]
      simp only
      have hq : q < 2 ^ 32 := lt_trans e2 (by norm_num)
      have hlq : t.length + (dg 10 q).length ≤ 65 := by
        have := congrArg List.length e3
        simp only [List.length_append, List.length_map, List.length_nil] at this
        omega
      rw [Nat.mod_eq_of_lt hq, loop10_ok 65 q t (hq.trans (by norm_num)) (by norm_num) hlq, e3]
      simp only [List.append_nil]
      exact hfin _ hml
    · rw [if_neg (by norm_num)]
      simp only [pure, Except.pure]
      rw [Nat.mod_eq_of_lt hlt, loop10_ok 65 v [] (hlt.trans (by norm_num)) (by norm_num) (by simp; omega)]
      simp only [List.append_nil]
      exact hfin _ hml
  · rw [if_neg (by omega)]
    by_cases hp : isPowerOfTwo b = true
    · rw [if_pos hp, loopPow2_ok (powTwo_cases hb hb36 hp) hb hb36 (by omega) 65 v [] (by
        exact hbp.trans (Nat.pow_lt_pow_right (by omega) (by norm_num))) (by norm_num) (by simp; omega)]
      simp only [List.append_nil]
      exact hfin _ hml
    · rw [if_neg hp, loopGen_ok hb hb36 (by omega) 65 v [] (by
        exact hbp.trans (Nat.pow_lt_pow_right (by omega) (by norm_num))) (by norm_num) (by simp; omega)]
      simp only [List.append_nil]
      exact hfin _ hml

/-! ### numerals -/

theorem charDigit_dchar {d : ℕ} (h : d < 36) : charDigit (dchar d) = some d := by
  interval_cases d <;> decide

theorem dchar_charDigit {c : Char} {d : ℕ} (h : charDigit c = some d) : d < 36 ∧ dchar d = c := by
  unfold charDigit at h
  have hc : Char.ofNat c.toNat = c := Char.ofNat_toNat c
  split at h
  · rename_i hh
    have h1 : 48 ≤ c.toNat := by simpa [Char.le_def, UInt32.le_iff_toNat_le] using hh.1
    have h2 : c.toNat ≤ 57 := by simpa [Char.le_def, UInt32.le_iff_toNat_le] using hh.2
    have hd : c.toNat - 48 = d := by simpa using h
    have hcd : c.toNat = d + 48 := by omega
    rw [← hc, hcd]
    have : d < 10 := by omega
    refine ⟨by omega, ?_⟩
    interval_cases d <;> rfl
  · split at h
    · rename_i hh
      have h1 : 97 ≤ c.toNat := by simpa [Char.le_def, UInt32.le_iff_toNat_le] using hh.1
      have h2 : c.toNat ≤ 122 := by simpa [Char.le_def, UInt32.le_iff_toNat_le] using hh.2
      have hd : c.toNat - 87 = d := by simpa using h
      have hcd : c.toNat = d + 87 := by omega
      rw [← hc, hcd]
      have h3 : 10 ≤ d := by omega
      have h4 : d < 36 := by omega
      refine ⟨h4, ?_⟩
      interval_cases d <;> rfl
    · cases h

/-- One step of `readNumeral`. -/
theorem read_none (b : ℕ) (s : Text) :
    s.foldl (fun a c => a.bind fun a => (charDigit c).bind fun d => if d < b then some (a * b + d) else none) (none : Option ℕ) = none := by
  induction s with
  | nil => rfl
  | cons c s ih => exact ih

theorem read_map (b : ℕ) (hb : b ≤ 36) : ∀ (ds : List ℕ) (a : ℕ), (∀ d ∈ ds, d < b) →
    (ds.map dchar).foldl (fun a c => a.bind fun a => (charDigit c).bind fun d => if d < b then some (a * b + d) else none) (some a) =
      some (digsVal b a ds)
  | [], a, _ => rfl
  | d :: ds, a, h => by
    have hd : d < b := h d (by simp)
    rw [List.map_cons, List.foldl_cons]
    simp only [Option.bind_some, charDigit_dchar (show d < 36 by omega), if_pos hd]
    rw [read_map b hb ds _ fun x hx => h x (by simp [hx])]
    rfl

theorem read_inv (b : ℕ) : ∀ (s : Text) (a n : ℕ),
    s.foldl (fun a c => a.bind fun a => (charDigit c).bind fun d => if d < b then some (a * b + d) else none) (some a) = some n →
    ∃ ds : List ℕ, s = ds.map dchar ∧ (∀ d ∈ ds, d < b) ∧ digsVal b a ds = n
  | [], a, n, h => ⟨[], rfl, by simp, Option.some.inj h⟩
  | c :: s, a, n, h => by
    rw [List.foldl_cons, Option.bind_some] at h
    rcases hc : charDigit c with _ | d
    · rw [hc, Option.bind_none, read_none] at h; cases h
    · rw [hc, Option.bind_some] at h
      by_cases hd : d < b
      · rw [if_pos hd] at h
        obtain ⟨ds, h1, h2, h3⟩ := read_inv b s _ n h
        refine ⟨d :: ds, by rw [List.map_cons, ← h1, (dchar_charDigit hc).2], ?_, h3⟩
        intro x hx
        rcases List.mem_cons.1 hx with rfl | hx
        · exact hd
        · exact h2 x hx
      · rw [if_neg hd, read_none] at h; cases h

theorem readNumeral_map {b : ℕ} (hb : b ≤ 36) {ds : List ℕ} (h : ∀ d ∈ ds, d < b) :
    readNumeral b (ds.map dchar) = some (digsVal b 0 ds) := read_map b hb ds 0 h

theorem readNumeral_inv {b : ℕ} {s : Text} {n : ℕ} (h : readNumeral b s = some n) :
    ∃ ds : List ℕ, s = ds.map dchar ∧ (∀ d ∈ ds, d < b) ∧ digsVal b 0 ds = n := read_inv b s 0 n h

theorem digsVal_eq_ofDigits (b : ℕ) (ds : List ℕ) : digsVal b 0 ds = Nat.ofDigits b ds.reverse := by
  induction ds using List.reverseRecOn with
  | nil => rfl
  | append_singleton ds d ih =>
    rw [digsVal_append, List.reverse_append, ih]
    show digsVal b (Nat.ofDigits b ds.reverse) [d] = _
    rw [List.reverse_singleton, List.singleton_append, Nat.ofDigits_cons]
    show Nat.ofDigits b ds.reverse * b + d = _
    ring

theorem digsVal_dg {b : ℕ} (n : ℕ) : digsVal b 0 (dg b n) = n := by
  unfold dg
  split
  · rename_i h; rw [h]; simp [digsVal]
  · rw [digsVal_eq_ofDigits, List.reverse_reverse, Nat.ofDigits_digits]

theorem dg_lt {b : ℕ} (hb : 2 ≤ b) (n : ℕ) : ∀ d ∈ dg b n, d < b := by
  unfold dg
  split
  · intro d hd; simp at hd; omega
  · intro d hd
    rw [List.mem_reverse] at hd
    exact Nat.digits_lt_base (by omega) hd

theorem dg_ne_nil (b n : ℕ) : dg b n ≠ [] := by
  unfold dg
  split
  · simp
  · rename_i h
    rw [Ne, List.reverse_eq_nil_iff, Nat.digits_eq_nil_iff_eq_zero]
    exact h

theorem dg_head {b n : ℕ} (h : (dg b n).head? = some 0) : dg b n = [0] := by
  unfold dg at *
  split at h
  · rename_i hn; rw [if_pos hn]
  · rename_i hn
    exfalso
    rw [List.head?_reverse, List.getLast?_eq_getLast_of_ne_nil (Nat.digits_ne_nil_iff_ne_zero.2 hn)] at h
    exact Nat.getLast_digit_ne_zero b hn (Option.some.inj h)

/-- A list of digits without leading zero is the list of the digits of its value. -/
theorem eq_dg {b : ℕ} (hb : 2 ≤ b) {ds : List ℕ} (hlt : ∀ d ∈ ds, d < b) (hne : ds ≠ [])
    (hh : ds.head? = some 0 → ds = [0]) : ds = dg b (digsVal b 0 ds) := by
  by_cases h0 : ds.head? = some 0
  · rw [hh h0]; simp [digsVal, dg]
  · have hrev : Nat.digits b (digsVal b 0 ds) = ds.reverse := by
      rw [digsVal_eq_ofDigits]
      refine Nat.digits_ofDigits b (by omega) _ (fun l hl => hlt l (List.mem_reverse.1 hl)) ?_
      intro hne'
      rw [List.getLast_reverse]
      intro hz
      apply h0
      rw [List.head?_eq_some_head hne, hz]
    have hv : digsVal b 0 ds ≠ 0 := by
      intro hz
      rw [hz, Nat.digits_zero] at hrev
      exact hne (List.reverse_eq_nil_iff.1 hrev.symm)
    unfold dg
    rw [if_neg hv, hrev, List.reverse_reverse]

theorem dchar_inj_zero {d : ℕ} (h : d < 36) (hd : dchar d = '0') : d = 0 := by
  have h1 := charDigit_dchar h
  rw [hd] at h1
  have : charDigit '0' = some 0 := by decide
  rw [this] at h1
  exact (Option.some.inj h1).symm

theorem isNumeral_dg {b : ℕ} (hb : 2 ≤ b) (hb36 : b ≤ 36) (n : ℕ) : IsNumeral b ((dg b n).map dchar) n := by
  refine ⟨?_, ?_, ?_⟩
  · rw [Ne, List.map_eq_nil_iff]; exact dg_ne_nil b n
  · rw [readNumeral_map hb36 (dg_lt hb n), digsVal_dg]
  · intro h
    have hne := dg_ne_nil b n
    rcases hd : dg b n with _ | ⟨d, ds⟩
    · exact absurd hd hne
    · rw [hd] at h
      have h1 : dchar d = '0' := by simpa using h
      have h2 : d = 0 := dchar_inj_zero (lt_of_lt_of_le (dg_lt hb n d (by rw [hd]; simp)) hb36) h1
      have := dg_head (b := b) (n := n) (by rw [hd, h2]; rfl)
      rw [← hd, this]
      rfl

/-- The numeral of a number is unique. -/
theorem isNumeral_eq_dg {b : ℕ} (hb : 2 ≤ b) {s : Text} {n : ℕ} (h : IsNumeral b s n) : s = (dg b n).map dchar := by
  obtain ⟨h1, h2, h3⟩ := h
  obtain ⟨ds, rfl, hlt, hv⟩ := readNumeral_inv h2
  have hne : ds ≠ [] := fun hc => h1 (by rw [hc]; rfl)
  rw [← hv]
  congr 1
  refine Strconv.eq_dg hb hlt hne ?_
  intro h0
  rcases ds with _ | ⟨d, ds⟩
  · exact absurd rfl hne
  · have hd : d = 0 := by simpa using h0
    subst hd
    have := h3 rfl
    simp only [List.map_cons, List.cons.injEq, List.map_eq_nil_iff] at this
    rw [this.2]

theorem isNumeral_unique {b : ℕ} (hb : 2 ≤ b) {s t : Text} {n : ℕ} (h : IsNumeral b s n) (h' : IsNumeral b t n) : s = t := by
  rw [isNumeral_eq_dg hb h, isNumeral_eq_dg hb h']

theorem isNumeral_value {b : ℕ} {s : Text} {n m : ℕ} (h : IsNumeral b s n) (h' : IsNumeral b s m) : n = m :=
  Option.some.inj (h.2.1.symm.trans h'.2.1)

theorem isNumeral_no_sign {b : ℕ} {s t : Text} {n : ℕ} (h : IsNumeral b s n) : s ≠ '-' :: t := by
  rintro rfl
  obtain ⟨_, h2, _⟩ := h
  rw [readNumeral, List.foldl_cons, Option.bind_some, show charDigit '-' = none by decide, Option.bind_none, read_none] at h2
  cases h2

theorem small_ok {n : ℕ} (h : n < 100) : small n = .ok ((dg 10 n).map dchar) := by
  have : ∀ n < 100, small n = .ok (if n < 10 then [dchar n] else [dchar (n / 10), dchar (n % 10)]) := by decide +kernel
  rw [this n h]
  by_cases h10 : n < 10
  · rw [if_pos h10, dg_small h10]; rfl
  · rw [if_neg h10, dg_step (by norm_num) (by omega), dg_small (by omega)]; rfl

theorem formatBits_illegal {W : ℕ} (u : BitVec 64) {base : ℤ} (h : base < 2 ∨ 36 < base) (neg : Bool) :
    formatBits W u base neg = .error .illegalBase := by
  unfold formatBits
  rw [if_pos (by
    have : (digits.length : ℤ) = 36 := rfl
    omega)]
  rfl

end GoFloat.Strconv
