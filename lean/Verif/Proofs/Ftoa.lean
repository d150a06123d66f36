import Verif.Proofs.Interval
import Verif.Proofs.Shortest
/-
Taking a float apart, and the exact path of internal/strconv/ftoa.go.
-/
namespace GoFloat.Strconv
open Spec

/-- The three formats of FormatFloat. -/
def GoFormat (F : Format) : Prop := F = half ∨ F = single ∨ F = double

/-- The table entry for a format. -/
def infoOf (F : Format) : FloatInfo := ⟨F.t, F.w, -F.bias⟩

theorem infoOf_half : infoOf half = float16info := by decide
theorem infoOf_single : infoOf single = float32info := by decide
theorem infoOf_double : infoOf double = float64info := by decide

/-- A finite nonnegative code taken apart: `N * 2^(qmin + k)`. -/
structure Split (F : Format) (n k N : ℕ) : Prop where
  code : n = k * 2 ^ F.t + N
  lt : N < 2 ^ (F.t + 1)
  norm : k = 0 ∨ 2 ^ F.t ≤ N
  fin : n < F.infCode

theorem exists_split (F : Format) {n : ℕ} (h : n < F.infCode) : ∃ k N, Split F n k N := by
  obtain ⟨k, N, h1, h2, h3⟩ := F.code_split n
  exact ⟨k, N, h1, h2, h3, h⟩

variable {F : Format} {n k N : ℕ}

theorem GoFormat.bounds (hF : GoFormat F) : 10 ≤ F.t ∧ F.t ≤ 52 ∧ 5 ≤ F.w ∧ F.w ≤ 11 ∧ F.t + F.w + 1 ≤ 64 := by
  rcases hF with rfl | rfl | rfl <;> decide

theorem Split.value (h : Split F n k N) : F.magc n = N * (2 : ℚ) ^ (F.qmin + k) := by
  rw [h.code]; exact F.magc_eq h.lt.le h.norm

theorem Split.k_lt (h : Split F n k N) : k + 2 < 2 ^ F.w ∨ (k = 0 ∧ 2 ^ F.w ≤ 2) := by
  have h1 := h.fin
  rw [h.code] at h1
  unfold Format.infCode at h1
  have hP := Nat.two_pow_pos F.t
  rcases h.norm with h0 | h0
  · subst h0
    by_cases hc : 2 < 2 ^ F.w
    · left; omega
    · right; omega
  · left
    have : (k + 1) * 2 ^ F.t < (2 ^ F.w - 1) * 2 ^ F.t := by rw [Nat.add_mul]; omega
    have := Nat.lt_of_mul_lt_mul_right this
    omega

theorem Split.exp_range (hF : GoFormat F) (h : Split F n k N) : -1074 ≤ F.qmin + k ∧ F.qmin + k ≤ 971 := by
  have hk := h.k_lt
  rcases hF with rfl | rfl | rfl
  · have : half.qmin = -24 := by decide
    have : (2 : ℕ) ^ half.w = 32 := by decide
    omega
  · have : single.qmin = -149 := by decide
    have : (2 : ℕ) ^ single.w = 256 := by decide
    omega
  · have : double.qmin = -1074 := by decide
    have : (2 : ℕ) ^ double.w = 2048 := by decide
    omega

theorem Split.N_lt (hF : GoFormat F) (h : Split F n k N) : N < 2 ^ 53 :=
  lt_of_lt_of_le h.lt (Nat.pow_le_pow_right (by norm_num) (by have := hF.bounds; omega))

theorem Split.even (hF : GoFormat F) (h : Split F n k N) : N % 2 = n % 2 := by
  obtain ⟨s, hs⟩ : ∃ s, F.t = s + 1 := ⟨F.t - 1, by have := hF.bounds; omega⟩
  rw [h.code, hs, pow_succ, ← mul_assoc]
  omega

theorem Split.zero_iff (h : Split F n k N) : N = 0 ↔ n = 0 := by
  have hP := Nat.two_pow_pos F.t
  constructor
  · intro h0
    have hk : k = 0 := by
      rcases h.norm with hk | hk
      · exact hk
      · omega
    rw [h.code, h0, hk]; simp
  · intro h0
    have := h.code
    omega

theorem Split.succ (h : Split F n k N) : F.magc (n + 1) = (N + 1) * (2 : ℚ) ^ (F.qmin + k) := by
  rw [h.code]; exact magc_succ F h.lt h.norm

theorem Split.pred (h : Split F n k N) (h0 : 0 < N) (hk : k = 0 ∨ 2 ^ F.t < N) : F.magc (n - 1) = (N - 1) * (2 : ℚ) ^ (F.qmin + k) := by
  rw [h.code]; exact magc_pred F h.lt h0 hk

theorem Split.pred' (h : Split F n k N) (hk : k ≠ 0) (hN : N = 2 ^ F.t) :
    F.magc (n - 1) = (2 * (N : ℚ) - 1) * (2 : ℚ) ^ (F.qmin + k - 1) := by
  rw [h.code, hN]
  have := magc_pred' F hk
  push_cast
  exact this

theorem two_zpow_pred (q : ℤ) : (2 : ℚ) ^ q = 2 * (2 : ℚ) ^ (q - 1) := by
  rw [← zpow_one_add₀ (by norm_num)]; congr 1; ring

/-- Twice the lower midpoint. -/
theorem Split.lower_mid (h : Split F n k N) (h0 : 0 < N) :
    F.magc (n - 1) + F.magc n = if 2 ^ F.t < N ∨ k = 0 then 2 * ((2 * N - 1) * (2 : ℚ) ^ (F.qmin + k - 1))
      else 2 * ((4 * N - 1) * (2 : ℚ) ^ (F.qmin + k - 2)) := by
  split
  · rename_i hc
    rw [h.pred h0 hc.symm, h.value, two_zpow_pred]
    ring
  · rename_i hc
    push Not at hc
    have hN : N = 2 ^ F.t := by
      have := h.norm.resolve_left hc.2
      omega
    rw [h.pred' hc.2 hN, h.value, two_zpow_pred (F.qmin + k), two_zpow_pred (F.qmin + k - 1)]
    rw [show F.qmin + (k : ℤ) - 1 - 1 = F.qmin + k - 2 by ring]
    ring

theorem Split.upper_mid (h : Split F n k N) : F.magc n + F.magc (n + 1) = 2 * ((2 * N + 1) * (2 : ℚ) ^ (F.qmin + k - 1)) := by
  rw [h.succ, h.value, two_zpow_pred]
  ring

/-- The number itself is in its interval. -/
theorem inInterval_self (n : ℕ) : InInterval F n (F.magc n) := by
  have hm := F.magc_strictMono
  have h2 : F.magc n < F.magc (n + 1) := hm (by omega)
  refine ⟨fun h0 => ?_, by linarith, fun _ => by linarith⟩
  have h1 : F.magc (n - 1) < F.magc n := hm (by omega)
  exact ⟨by linarith, fun _ => by linarith⟩

theorem new_shift {W : ℕ} (hW : W = 32 ∨ W = 64) (v : BitVec 64) (q : ℤ) (h1 : -1100 ≤ q) (h2 : q ≤ 2500) :
    ∃ b, (Decimal.new.assign v).shift W q = .ok b ∧ NormalDec b.d b.dp ∧ b.d.length ≤ 800 ∧
      decValue b.d b.dp = (v.toNat : ℚ) * 2 ^ q ∧ b.trunc = false := by
  obtain ⟨a1, a2, a3, a4⟩ := assign_spec Decimal.new v
  have hl := assign_length Decimal.new v
  obtain ⟨b, b1, b2, b3, b4, b5, b6, -⟩ := shift_ok hW (Decimal.new.assign v) q a1 (by omega) (by rw [a2]; exact fits_word v.isLt h1 h2)
  exact ⟨b, b1, b2, b3, by rw [b4, a2], by rw [b6, a4]; rfl⟩

theorem ofNat_toNat {N : ℕ} (h : N < 2 ^ 64) : (BitVec.ofNat 64 N).toNat = N := by
  rw [BitVec.toNat_ofNat, Nat.mod_eq_of_lt h]

theorem one_shift {t : ℕ} (h : t < 64) : (((1 <<< t : ℕ)) : BitVec 64).toNat = 2 ^ t := by
  show (BitVec.ofNat 64 (1 <<< t)).toNat = _
  rw [BitVec.toNat_ofNat, Nat.one_shiftLeft, Nat.mod_eq_of_lt (Nat.pow_lt_pow_right (by norm_num) h)]

/-- `roundShortest` delivers a decimal in the rounding interval. -/
theorem roundShortest_ok {W : ℕ} (hW : W = 32 ∨ W = 64) (hF : GoFormat F) (h : Split F n k N) (hN0 : N ≠ 0) {d : Decimal}
    (hd : NormalDec d.d d.dp) (hdv : decValue d.d d.dp = F.magc n) :
    ∃ b, roundShortest W d (BitVec.ofNat 64 N) ((k : ℤ) + 1 - F.bias) (infoOf F) = .ok b ∧ NormalDec b.d b.dp ∧ b.d ≠ [] ∧
      InInterval F n (decValue b.d b.dp) ∧ b.d.length ≤ d.d.length := by
  have hb := hF.bounds
  have hN53 := h.N_lt hF
  have hr := h.exp_range hF
  have hN0' : 0 < N := Nat.pos_of_ne_zero hN0
  have hNw : (BitVec.ofNat 64 N).toNat = N := ofNat_toNat (by omega)
  have hpos : (0 : ℚ) < F.magc n := by
    rw [h.value]
    have : (0 : ℚ) < N := by exact_mod_cast hN0'
    positivity
  have hdne : d.d ≠ [] := ne_nil_of_pos (dp := d.dp) (by rw [hdv]; exact hpos)
  have hself : NormalDec d.d d.dp ∧ d.d ≠ [] ∧ InInterval F n (decValue d.d d.dp) ∧ d.d.length ≤ d.d.length :=
    ⟨hd, hdne, by rw [hdv]; exact inInterval_self n, le_rfl⟩
  have hq : (k : ℤ) + 1 - F.bias - F.t = F.qmin + k := by unfold Format.qmin; ring
  unfold roundShortest
  have hne0 : ¬ (BitVec.ofNat 64 N = 0) := by
    intro hc
    have := congrArg BitVec.toNat hc
    rw [hNw] at this
    exact hN0 this
  rw [if_neg hne0]
  simp only [bind, Except.bind, pure, Except.pure]
  split
  · exact ⟨d, rfl, hself⟩
  · have hup : (BitVec.ofNat 64 N * 2 + 1).toNat = 2 * N + 1 := by
      rw [BitVec.toNat_add, BitVec.toNat_mul, hNw]
      show (N * 2 % 2 ^ 64 + 1) % 2 ^ 64 = _
      omega
    obtain ⟨u, u1, u2, u3, u4, u5⟩ := new_shift hW (BitVec.ofNat 64 N * 2 + 1) ((k : ℤ) + 1 - F.bias - F.t - 1) (by omega) (by omega)
    rw [hup, hq] at u4
    have hinf : (infoOf F).mantbits = F.t := rfl
    have hbias : (infoOf F).bias = -F.bias := rfl
    rw [hinf, hbias, u1]
    simp only
    set c : Prop := BitVec.ofNat 64 N > 1 <<< F.t ∨ (k : ℤ) + 1 - F.bias = -F.bias + 1 with hc
    have hsh := one_shift (t := F.t) (by omega)
    have hciff : c ↔ 2 ^ F.t < N ∨ k = 0 := by
      rw [hc, gt_iff_lt, BitVec.lt_def, hsh, hNw]
      constructor
      · rintro (h | h)
        · exact Or.inl h
        · exact Or.inr (by omega)
      · rintro (h | h)
        · exact Or.inl h
        · exact Or.inr (by omega)
    have hmid := h.lower_mid hN0'
    have hlow : ∃ l, (Decimal.new.assign ((if c then (BitVec.ofNat 64 N - 1, (k : ℤ) + 1 - F.bias) else
          (BitVec.ofNat 64 N * 2 - 1, (k : ℤ) + 1 - F.bias - 1)).1 * 2 + 1)).shift W
          ((if c then (BitVec.ofNat 64 N - 1, (k : ℤ) + 1 - F.bias) else
          (BitVec.ofNat 64 N * 2 - 1, (k : ℤ) + 1 - F.bias - 1)).2 - F.t - 1) = .ok l ∧
        NormalDec l.d l.dp ∧ 2 * decValue l.d l.dp = F.magc (n - 1) + F.magc n := by
      by_cases hcc : c
      · simp only [if_pos hcc]
        rw [if_pos (hciff.1 hcc)] at hmid
        have e : ((BitVec.ofNat 64 N - 1) * 2 + 1).toNat = 2 * N - 1 := by
          rw [BitVec.toNat_add, BitVec.toNat_mul, BitVec.toNat_sub, hNw]
          show ((2 ^ 64 - 1 + N) % 2 ^ 64 * 2 % 2 ^ 64 + 1) % 2 ^ 64 = _
          omega
        obtain ⟨l, l1, l2, l3, l4, l5⟩ := new_shift hW ((BitVec.ofNat 64 N - 1) * 2 + 1) ((k : ℤ) + 1 - F.bias - F.t - 1) (by omega) (by omega)
        refine ⟨l, l1, l2, ?_⟩
        rw [l4, e, hmid, hq]
        push_cast [Nat.cast_sub (show 1 ≤ 2 * N by omega)]
        ring
      · simp only [if_neg hcc]
        rw [if_neg (fun hx => hcc (hciff.2 hx))] at hmid
        have e : ((BitVec.ofNat 64 N * 2 - 1) * 2 + 1).toNat = 4 * N - 1 := by
          rw [BitVec.toNat_add, BitVec.toNat_mul, BitVec.toNat_sub, BitVec.toNat_mul, hNw]
          show ((2 ^ 64 - 1 + N * 2 % 2 ^ 64) % 2 ^ 64 * 2 % 2 ^ 64 + 1) % 2 ^ 64 = _
          omega
        obtain ⟨l, l1, l2, l3, l4, l5⟩ := new_shift hW ((BitVec.ofNat 64 N * 2 - 1) * 2 + 1) ((k : ℤ) + 1 - F.bias - 1 - F.t - 1)
          (by omega) (by omega)
        refine ⟨l, l1, l2, ?_⟩
        rw [l4, e, hmid, show (k : ℤ) + 1 - F.bias - 1 - F.t - 1 = F.qmin + k - 2 by rw [← hq]; ring]
        push_cast [Nat.cast_sub (show 1 ≤ 4 * N by omega)]
        ring
    obtain ⟨l, l1, l2, l3⟩ := hlow
    rw [l1]
    simp only
    have hpar := h.even hF
    have hn0 : n ≠ 0 := fun hc => hN0 (h.zero_iff.2 hc)
    have hmono := F.magc_strictMono
    have hlt : F.magc (n - 1) < F.magc n := hmono (by omega)
    have hgt : F.magc n < F.magc (n + 1) := hmono (by omega)
    have hum := h.upper_mid
    have hu2 : 2 * decValue u.d u.dp = F.magc n + F.magc (n + 1) := by rw [u4, hum]; push_cast; ring
    have hQ : (0 : ℚ) < (2 : ℚ) ^ (F.qmin + (k : ℤ)) := by positivity
    have hN1 : (1 : ℚ) ≤ N := by exact_mod_cast hN0'
    have hpred0 := F.magc_nonneg (n - 1)
    obtain ⟨g1, g2, g3, g4⟩ := shortest_good (inc := decide (BitVec.ofNat 64 N % 2 = 0)) hd hdne l2 u2
      (by rw [hdv]; linarith) (by rw [hdv]; linarith)
      (by rw [hdv]; linarith)
      (by
        rw [hdv, hu2, h.succ, h.value]
        nlinarith)
    refine ⟨_, rfl, g1, g4, ?_, g3⟩
    obtain ⟨b1, b2, b3⟩ := g2
    have hinc : n % 2 = 1 → decide (BitVec.ofNat 64 N % 2 = 0) = false := by
      intro ho
      rw [decide_eq_false_iff_not]
      intro hc
      have := congrArg BitVec.toNat hc
      rw [BitVec.toNat_umod, hNw] at this
      change N % 2 = 0 at this
      omega
    refine ⟨fun _ => ⟨by linarith, fun ho => ?_⟩, by linarith, fun ho => ?_⟩
    · have := (b3 (hinc ho)).1; linarith
    · have := (b3 (hinc ho)).2; linarith

end GoFloat.Strconv
