import Verif.Proofs.Decimal
/-
The shifts of internal/strconv/decimal.go.
-/
namespace GoFloat.Strconv
open Spec

theorem shr_eq_zero {n k : ℕ} : n >>> k = 0 ↔ n < 2 ^ k := by
  rw [Nat.shiftRight_eq_div_pow, Nat.div_eq_zero_iff]
  have : 0 < 2 ^ k := by positivity
  omega

theorem word_lt {W k n : ℕ} (hk : k + 4 ≤ W) (h : n < 10 * 2 ^ k) : n < 2 ^ W := by
  have h1 : 2 ^ (k + 4) ≤ 2 ^ W := Nat.pow_le_pow_right (by norm_num) hk
  rw [pow_add] at h1
  omega

/-! ### right shift -/

theorem rsGrow_ok {W k : ℕ} (hk : k + 4 ≤ W) : ∀ (f n r : ℕ), 0 < n → n < 10 * 2 ^ k → 2 ^ k ≤ n * 2 ^ f →
    ∃ g, rsGrow W k (f + 1) n r = .ok (n * 10 ^ g, r + g) ∧ 2 ^ k ≤ n * 10 ^ g ∧ n * 10 ^ g < 10 * 2 ^ k
  | f, n, r, hn, hlt, h => by
    unfold rsGrow
    by_cases hs : n < 2 ^ k
    · rcases f with _ | f
      · rw [pow_zero, mul_one] at h; omega
      · rw [if_pos (shr_eq_zero.2 hs), Nat.mod_eq_of_lt (word_lt hk (by omega))]
        obtain ⟨g, h1, h2, h3⟩ := rsGrow_ok hk f (n * 10) (r + 1) (by omega) (by omega) (by
          rw [pow_succ] at h
          have : 0 < 2 ^ f := by positivity
          nlinarith)
        refine ⟨g + 1, ?_, ?_, ?_⟩
        · rw [h1, pow_succ', mul_assoc, add_assoc, add_comm 1 g]
        · rw [pow_succ', ← mul_assoc]; exact h2
        · rw [pow_succ', ← mul_assoc]; exact h3
    · rw [if_neg (fun hc => hs (shr_eq_zero.1 hc))]
      exact ⟨0, by simp, by simpa using Nat.le_of_not_lt hs, by simpa using hlt⟩

theorem rsLead_ok {W k : ℕ} (hk : k + 4 ≤ W) : ∀ (ds : List ℕ) (n r : ℕ), (∀ d ∈ ds, d < 10) → n < 10 * 2 ^ k →
    0 < n * 10 ^ ds.length + dv ds →
    ∃ n' r' rest g, rsLead W k ds n r = .ok (some (n', r', rest)) ∧
      n' * 10 ^ rest.length + dv rest = (n * 10 ^ ds.length + dv ds) * 10 ^ g ∧
      r' + rest.length = r + ds.length + g ∧ 2 ^ k ≤ n' ∧ n' < 10 * 2 ^ k ∧ (∀ d ∈ rest, d < 10) ∧
      rest.length ≤ ds.length
  | ds, n, r, hd, hn, hpos => by
    by_cases hs : n < 2 ^ k
    · have hns : ¬ (n >>> k ≠ 0) := by rw [not_not]; exact shr_eq_zero.2 hs
      rcases ds with _ | ⟨c, cs⟩
      · have hn0 : n ≠ 0 := by
          intro h0; rw [h0] at hpos; simp [dv, digsVal] at hpos
        unfold rsLead
        rw [if_neg hns]
        simp only [if_neg hn0]
        obtain ⟨g, h1, h2, h3⟩ := rsGrow_ok hk (k + 1) n r (by omega) hn (by
          rw [pow_add]
          have : 0 < 2 ^ k := by positivity
          nlinarith [Nat.pos_of_ne_zero hn0])
        rw [h1]
        refine ⟨n * 10 ^ g, r + g, [], g, rfl, ?_, ?_, h2, h3, by simp, le_rfl⟩
        · simp [dv, digsVal]
        · simp
      · have hc : c < 10 := hd c (by simp)
        unfold rsLead
        rw [if_neg hns]
        simp only
        rw [Nat.mod_eq_of_lt (word_lt hk (by omega))]
        obtain ⟨n', r', rest, g, h1, h2, h3, h4, h5, h6, h7⟩ := rsLead_ok hk cs (n * 10 + c) (r + 1)
          (fun d hd' => hd d (by simp [hd'])) (by omega) (by
            rw [dv_cons, List.length_cons, pow_succ] at hpos
            rw [show (n * 10 + c) * 10 ^ cs.length = n * (10 ^ cs.length * 10) + c * 10 ^ cs.length by ring]
            omega)
        refine ⟨n', r', rest, g, h1, ?_, ?_, h4, h5, h6, ?_⟩
        · rw [h2, dv_cons, List.length_cons]; ring
        · rw [h3, List.length_cons]; ring
        · rw [List.length_cons]; omega
    · have hns : n >>> k ≠ 0 := fun hc => hs (shr_eq_zero.1 hc)
      refine ⟨n, r, ds, 0, ?_, by simp, by simp, by omega, hn, hd, le_rfl⟩
      unfold rsLead
      rw [if_pos hns]

theorem and_mask (n k : ℕ) : n &&& (2 ^ k - 1) = n % 2 ^ k := Nat.and_two_pow_sub_one_eq_mod n k

theorem rsMiddle_ok {W k : ℕ} (hk : k + 4 ≤ W) : ∀ (rest : List ℕ) (n : ℕ), (∀ d ∈ rest, d < 10) → n < 10 * 2 ^ k →
    (rsMiddle W k rest n).1.length = rest.length ∧
    n * 10 ^ rest.length + dv rest = 10 * 2 ^ k * dv (rsMiddle W k rest n).1 + (rsMiddle W k rest n).2 ∧
    (rsMiddle W k rest n).2 < 10 * 2 ^ k ∧ (∀ d ∈ (rsMiddle W k rest n).1, d < 10) ∧
    (2 ^ k ≤ n → (rsMiddle W k rest n).1.head? ≠ some 0) ∧ (rest = [] → (rsMiddle W k rest n).2 = n)
  | [], n, _, hn => by simp [rsMiddle, dv, digsVal, hn]
  | c :: cs, n, hd, hn => by
    have hc : c < 10 := hd c (by simp)
    have hp : 0 < 2 ^ k := by positivity
    have hmod : n % 2 ^ k < 2 ^ k := Nat.mod_lt _ hp
    have hdm := Nat.div_add_mod n (2 ^ k)
    have hlt : n % 2 ^ k * 10 + c < 10 * 2 ^ k := by omega
    obtain ⟨h1, h2, h3, h4, h5, h6⟩ := rsMiddle_ok hk cs (n % 2 ^ k * 10 + c) (fun d hd' => hd d (by simp [hd'])) hlt
    unfold rsMiddle
    simp only [and_mask, Nat.mod_eq_of_lt (word_lt hk hlt)]
    set R := rsMiddle W k cs (n % 2 ^ k * 10 + c) with hR
    rw [Nat.shiftRight_eq_div_pow]
    refine ⟨by simp [h1], ?_, h3, ?_, ?_, by simp⟩
    · rw [dv_cons, dv_cons, h1, List.length_cons]
      calc n * 10 ^ (cs.length + 1) + (c * 10 ^ cs.length + dv cs)
          = (n / 2 ^ k) * (10 * 2 ^ k) * 10 ^ cs.length + ((n % 2 ^ k * 10 + c) * 10 ^ cs.length + dv cs) := by
            conv_lhs => rw [← hdm]
            ring
        _ = _ := by rw [h2]; ring
    · intro d hd'
      rcases List.mem_cons.1 hd' with rfl | hd'
      · exact (Nat.div_lt_iff_lt_mul hp).2 hn
      · exact h4 d hd'
    · intro hge
      have : 1 ≤ n / 2 ^ k := (Nat.le_div_iff_mul_le hp).2 (by omega)
      simp only [List.head?_cons, ne_eq, Option.some.injEq]
      omega

/-- The extra digits, without the limit of 800. -/
def extra (k : ℕ) : ℕ → ℕ → List ℕ
  | 0, _ => []
  | f + 1, n => if n = 0 then [] else (n / 2 ^ k) :: extra k f (n % 2 ^ k * 10)

/-- Enough rounds are left to put down the digits of `n`. -/
def Enough (k f n : ℕ) : Prop := n = 0 ∨ ∃ i ≤ k, 2 ^ i ∣ n ∧ k + 1 ≤ f + i

theorem enough_step {k f n : ℕ} (h : Enough k (f + 1) n) : Enough k f (n % 2 ^ k * 10) := by
  rcases h with h | ⟨i, hik, hi, hf⟩
  · left; rw [h]; simp
  · by_cases hk : i = k
    · left
      rw [← hk, Nat.mod_eq_zero_of_dvd hi, zero_mul]
    · right
      refine ⟨i + 1, by omega, ?_, by omega⟩
      have : 2 ^ i ∣ n % 2 ^ k := (Nat.dvd_mod_iff (pow_dvd_pow 2 hik)).2 hi
      rw [pow_succ]
      exact Nat.mul_dvd_mul this (by norm_num)

theorem extra_ok {k : ℕ} : ∀ (f n : ℕ), n < 10 * 2 ^ k → Enough k f n →
    n * 10 ^ (extra k f n).length = 10 * 2 ^ k * dv (extra k f n) ∧ (∀ d ∈ extra k f n, d < 10) ∧
    (extra k f n).getLast? ≠ some 0
  | 0, n, hn, h => by
    have : n = 0 := by
      rcases h with h | ⟨i, h1, _, h2⟩
      · exact h
      · omega
    simp [this, extra, dv, digsVal]
  | f + 1, n, hn, hf => by
    unfold extra
    by_cases h0 : n = 0
    · simp [h0, dv, digsVal]
    · rw [if_neg h0]
      have hp : 0 < 2 ^ k := by positivity
      have hmod : n % 2 ^ k < 2 ^ k := Nat.mod_lt _ hp
      have hdm := Nat.div_add_mod n (2 ^ k)
      obtain ⟨h1, h2, h3⟩ := extra_ok f (n % 2 ^ k * 10) (by omega) (enough_step hf)
      set E := extra k f (n % 2 ^ k * 10) with hE
      refine ⟨?_, ?_, ?_⟩
      · rw [List.length_cons, dv_cons]
        calc n * 10 ^ (E.length + 1)
            = (2 ^ k * (n / 2 ^ k) + n % 2 ^ k) * 10 ^ (E.length + 1) := by rw [hdm]
          _ = (n / 2 ^ k) * (10 * 2 ^ k) * 10 ^ E.length + (n % 2 ^ k * 10) * 10 ^ E.length := by ring
          _ = _ := by rw [h1]; ring
      · intro d hd'
        rcases List.mem_cons.1 hd' with rfl | hd'
        · exact (Nat.div_lt_iff_lt_mul hp).2 hn
        · exact h2 d hd'
      · rcases hx : E with _ | ⟨x, xs⟩
        · rw [hx] at h1
          simp [dv, digsVal] at h1
          have : n / 2 ^ k ≠ 0 := by
            intro hc
            rw [hc] at hdm
            omega
          simpa using this
        · rw [List.getLast?_cons_cons, ← hx]; exact h3

theorem rsExtra_ok {W k : ℕ} (hk : k + 4 ≤ W) : ∀ (f n w : ℕ) (t : Bool), n < 10 * 2 ^ k → Enough k f n →
    w + (extra k f n).length ≤ 800 → rsExtra W k (f + 1) n w t = .ok (extra k f n, t)
  | 0, n, w, t, hn, h, _ => by
    have : n = 0 := by
      rcases h with h | ⟨i, h1, _, h2⟩
      · exact h
      · omega
    simp [this, extra, rsExtra]
  | f + 1, n, w, t, hn, hf, hl => by
    unfold rsExtra
    by_cases h0 : n = 0
    · simp [extra, h0]
    · have hp : 0 < 2 ^ k := by positivity
      have hmod : n % 2 ^ k < 2 ^ k := Nat.mod_lt _ hp
      have he : extra k (f + 1) n = (n / 2 ^ k) :: extra k f (n % 2 ^ k * 10) := by
        conv_lhs => unfold extra
        rw [if_neg h0]
      rw [he] at hl ⊢
      rw [List.length_cons] at hl
      rw [if_neg h0]
      simp only [and_mask]
      rw [if_pos (show w < decimalCap by show w < 800; omega), Nat.mod_eq_of_lt (word_lt hk (by omega)),
        rsExtra_ok hk f _ _ t (by omega) (enough_step hf) (by omega), Nat.shiftRight_eq_div_pow]
      rfl

theorem getLast_append_ne {a b : List ℕ} (h : b ≠ []) : (a ++ b).getLast? = b.getLast? := by
  rw [List.getLast?_append]
  rcases hb : b.getLast? with _ | x
  · exact absurd (List.getLast?_eq_none_iff.1 hb) h
  · rfl

/-- `rightShift` is exact if the result has at most 800 digits. -/
theorem rightShift_ok {W k : ℕ} (hk : k + 4 ≤ W) {a : Decimal} (ha : NormalDec a.d a.dp) (hne : a.d ≠ []) (hnd : a.d.length ≤ 800)
    (hfit : FitsDigits 800 (decValue a.d a.dp / 2 ^ k)) :
    ∃ b, rightShift W a k = .ok b ∧ NormalDec b.d b.dp ∧ b.d ≠ [] ∧ b.d.length ≤ 800 ∧
      decValue b.d b.dp = decValue a.d a.dp / 2 ^ k ∧ b.neg = a.neg ∧ b.trunc = a.trunc := by
  have hpos : 0 < dv a.d := by
    have := dv_ge ha.head hne
    have h10 : 0 < 10 ^ (a.d.length - 1) := by positivity
    omega
  obtain ⟨n, r, rest, g, h1, h2, h3, h4, h5, h6, h7⟩ := rsLead_ok hk a.d 0 0 ha.digit (by positivity) (by simpa using hpos)
  rw [zero_mul, zero_add] at h2
  rw [zero_add] at h3
  obtain ⟨m1, m2, m3, m4, m5, m6⟩ := rsMiddle_ok hk rest n h6 h5
  set M := rsMiddle W k rest n with hM
  have hen : Enough k (k + 1) M.2 := Or.inr ⟨0, by omega, by simp, by omega⟩
  obtain ⟨x1, x2, x3⟩ := extra_ok (k + 1) M.2 m3 hen
  set E := extra k (k + 1) M.2 with hE
  have hout : 10 * 2 ^ k * dv (M.1 ++ E) = dv a.d * 10 ^ g * 10 ^ E.length := by
    rw [dv_append, mul_add, ← x1, ← h2, m2]; ring
  have hdig : ∀ d ∈ M.1 ++ E, d < 10 := by
    intro d hd
    rcases List.mem_append.1 hd with hd | hd
    · exact m4 d hd
    · exact x2 d hd
  have hhead : (M.1 ++ E).head? ≠ some 0 := by
    by_cases hr : rest = []
    · have hm0 : M.1 = [] := List.length_eq_zero_iff.1 (by rw [m1, hr]; rfl)
      have hm2 : M.2 = n := m6 hr
      rw [hm0, List.nil_append, hE, hm2]
      unfold extra
      rw [if_neg (by have : 0 < 2 ^ k := by positivity
                     omega)]
      have : 1 ≤ n / 2 ^ k := (Nat.le_div_iff_mul_le (by positivity)).2 (by omega)
      simp only [List.head?_cons, ne_eq, Option.some.injEq]
      omega
    · have hm0 : M.1 ≠ [] := by
        intro hc
        rw [hc] at m1
        exact hr (List.length_eq_zero_iff.1 m1.symm)
      rw [List.head?_append_of_ne_nil _ hm0]
      exact m5 h4
  have hval : decValue (M.1 ++ E) (a.dp - ((r : ℤ) - 1)) = decValue a.d a.dp / 2 ^ k := by
    have hq : (10 : ℚ) * 2 ^ k * (dv (M.1 ++ E) : ℚ) = dv a.d * 10 ^ g * 10 ^ E.length := by exact_mod_cast hout
    have h2k : (2 : ℚ) ^ k ≠ 0 := by positivity
    rw [decValue_eq, decValue_eq, eq_div_iff h2k, List.length_append, m1]
    have hexp : a.dp - ((r : ℤ) - 1) - ((rest.length + E.length : ℕ) : ℤ) = (a.dp - (a.d.length : ℤ)) + 1 - g - E.length := by
      push_cast; omega
    rw [hexp, zpow_sub₀ ten_ne, zpow_sub₀ ten_ne, zpow_add₀ ten_ne, zpow_natCast, zpow_natCast, zpow_one]
    have hv : (dv (M.1 ++ E) : ℚ) = dv a.d * 10 ^ g * 10 ^ E.length / (10 * 2 ^ k) := by
      rw [eq_div_iff (by positivity), ← hq]; ring
    rw [hv]
    field_simp
  have hne' : M.1 ++ E ≠ [] := by
    intro hc
    have hz : dv a.d * 10 ^ g * 10 ^ E.length = 0 := by rw [← hout, hc]; rfl
    have : 0 < dv a.d * 10 ^ g * 10 ^ E.length := by positivity
    omega
  have hcap : M.1.length + E.length ≤ 800 := by
    by_cases he : E = []
    · rw [he, List.length_nil, m1]; omega
    · have hl : (M.1 ++ E).getLast? ≠ some 0 := by rw [getLast_append_ne he]; exact x3
      have hmod := dv_mod hdig hl hne'
      rw [← hval, decValue_eq] at hfit
      have hlt := fits_lt hmod hfit
      have hge := dv_ge hhead hne'
      have := (Nat.pow_lt_pow_iff_right (by norm_num : 1 < 10)).1 (lt_of_le_of_lt hge hlt)
      rw [List.length_append] at this
      omega
  have hx := rsExtra_ok hk (k + 1) M.2 M.1.length a.trunc m3 hen hcap
  refine ⟨trim { a with d := M.1 ++ E, dp := a.dp - ((r : ℤ) - 1), trunc := a.trunc }, ?_, ?_⟩
  · unfold rightShift
    rw [h1]
    simp only [bind, Except.bind, ← hM]
    rw [hx]
    rfl
  · obtain ⟨t1, t2⟩ := trim_normal (a := { a with d := M.1 ++ E, dp := a.dp - ((r : ℤ) - 1), trunc := a.trunc }) hdig hhead
    refine ⟨t1, ?_, ?_, t2.trans hval, rfl, rfl⟩
    · intro hc
      have hc' : dropTrailingZeros (M.1 ++ E) = [] := hc
      have := dtz_zero_iff hc'
      rw [this, mul_zero] at hout
      have : 0 < dv a.d * 10 ^ g * 10 ^ E.length := by positivity
      omega
    · obtain ⟨z, hz, _⟩ := dtz_spec (M.1 ++ E)
      have := congrArg List.length hz
      rw [List.length_append, List.length_append] at this
      show (dropTrailingZeros (M.1 ++ E)).length ≤ 800
      omega

/-! ### left shift -/

theorem prefixIsLessThan_iff : ∀ (b s : List ℕ), (∀ d ∈ b, d < 10) → (∀ d ∈ s, d < 10) → s.getLast? ≠ some 0 →
    (prefixIsLessThan b s = true ↔ dv b * 10 ^ s.length < dv s * 10 ^ b.length)
  | b, [], _, _, _ => by
    simp only [prefixIsLessThan, Bool.false_eq_true, false_iff, dv_nil]
    omega
  | [], x :: xs, _, hs, hl => by
    simp only [prefixIsLessThan, true_iff, dv_nil, zero_mul, List.length_nil, pow_zero, mul_one]
    have := dv_mod hs hl (by simp)
    exact Nat.pos_of_ne_zero fun hc => this (by rw [hc])
  | c :: cs, x :: xs, hb, hs, hl => by
    have hc := dv_lt (ds := cs) fun d hd => hb d (by simp [hd])
    have hx := dv_lt (ds := xs) fun d hd => hs d (by simp [hd])
    set P := 10 ^ cs.length with hP
    set Q := 10 ^ xs.length with hQ
    have hPp : 0 < P := by positivity
    have hQp : 0 < Q := by positivity
    unfold prefixIsLessThan
    rw [dv_cons, dv_cons, List.length_cons, List.length_cons, pow_succ, pow_succ, ← hP, ← hQ]
    by_cases hcx : c = x
    · rw [if_neg (by simpa using hcx)]
      have hl' : xs.getLast? ≠ some 0 := by
        rcases xs with _ | ⟨y, ys⟩
        · simp
        · rwa [List.getLast?_cons_cons] at hl
      rw [prefixIsLessThan_iff cs xs (fun d hd => hb d (by simp [hd])) (fun d hd => hs d (by simp [hd])) hl', hcx, ← hP, ← hQ]
      have e1 : (x * P + dv cs) * (Q * 10) = x * P * Q * 10 + dv cs * Q * 10 := by ring
      have e2 : (x * Q + dv xs) * (P * 10) = x * P * Q * 10 + dv xs * P * 10 := by ring
      rw [e1, e2]
      omega
    · rw [if_pos hcx, decide_eq_true_eq]
      constructor
      · intro h
        have h1 : (c * P + dv cs) * Q < (c + 1) * (P * Q) := by nlinarith
        have h2 : (c + 1) * (P * Q) ≤ x * (P * Q) := Nat.mul_le_mul_right _ h
        have h3 : x * (P * Q) ≤ (x * Q + dv xs) * P := by nlinarith
        nlinarith
      · intro h
        by_contra hc'
        have hxc : x + 1 ≤ c := by omega
        have h1 : (x * Q + dv xs) * P < (x + 1) * (P * Q) := by nlinarith
        have h2 : (x + 1) * (P * Q) ≤ c * (P * Q) := Nat.mul_le_mul_right _ hxc
        have h3 : c * (P * Q) ≤ (c * P + dv cs) * Q := by nlinarith
        nlinarith

theorem lsDigits_ok {W k : ℕ} (hk : k + 4 ≤ W) : ∀ ds : List ℕ, (∀ d ∈ ds, d < 10) →
    (lsDigits W k ds).1.length = ds.length ∧ (∀ d ∈ (lsDigits W k ds).1, d < 10) ∧
    (lsDigits W k ds).2 * 10 ^ ds.length + dv (lsDigits W k ds).1 = dv ds * 2 ^ k ∧ (lsDigits W k ds).2 < 2 ^ k
  | [], _ => by simp [lsDigits, dv, digsVal]
  | c :: cs, hd => by
    obtain ⟨h1, h2, h3, h4⟩ := lsDigits_ok hk cs fun d hd' => hd d (by simp [hd'])
    have hc : c < 10 := hd c (by simp)
    have hp : 0 < 2 ^ k := by positivity
    set S := lsDigits W k cs with hS
    have hck : c * 2 ^ k ≤ 9 * 2 ^ k := Nat.mul_le_mul_right _ (by omega)
    have hn : (S.2 + (c <<< k) % 2 ^ W) % 2 ^ W = S.2 + c * 2 ^ k := by
      rw [Nat.shiftLeft_eq, Nat.mod_eq_of_lt (word_lt (n := c * 2 ^ k) hk (by omega)), Nat.mod_eq_of_lt (word_lt hk (by omega))]
    have he : lsDigits W k (c :: cs) = (((S.2 + c * 2 ^ k) - 10 * ((S.2 + c * 2 ^ k) / 10)) :: S.1, (S.2 + c * 2 ^ k) / 10) := by
      rw [← hn]; rfl
    rw [he]
    generalize hN : S.2 + c * 2 ^ k = N at *
    have hdm : N = 10 * (N / 10) + (N - 10 * (N / 10)) := by omega
    refine ⟨by simp [h1], ?_, ?_, by omega⟩
    · intro d hd'
      rcases List.mem_cons.1 hd' with rfl | hd'
      · omega
      · exact h2 d hd'
    · show N / 10 * 10 ^ (c :: cs).length + dv ((N - 10 * (N / 10)) :: S.1) = _
      rw [dv_cons, dv_cons, h1, List.length_cons]
      calc N / 10 * 10 ^ (cs.length + 1) + ((N - 10 * (N / 10)) * 10 ^ cs.length + dv S.1)
          = (10 * (N / 10) + (N - 10 * (N / 10))) * 10 ^ cs.length + dv S.1 := by ring
        _ = N * 10 ^ cs.length + dv S.1 := by rw [← hdm]
        _ = c * 2 ^ k * 10 ^ cs.length + (S.2 * 10 ^ cs.length + dv S.1) := by rw [← hN]; ring
        _ = _ := by rw [h3]; ring

theorem lsExtra_ok : ∀ (f n : ℕ) (acc : List ℕ), n < 10 ^ f → lsExtra (f + 1) n acc = .ok ((Nat.digits 10 n).reverse ++ acc)
  | f, n, acc, h => by
    unfold lsExtra
    by_cases h0 : n = 0
    · simp [h0]
    · rw [if_neg h0]
      rcases f with _ | f
      · rw [pow_zero] at h; omega
      · simp only
        rw [lsExtra_ok f (n / 10) _ (by rw [pow_succ] at h; omega), Nat.digits_def' (b := 10) (n := n) (by norm_num) (by omega),
          List.reverse_cons, List.append_assoc, show n - 10 * (n / 10) = n % 10 by omega]
        rfl

/-- The table: the cutoff of entry `k` is the numeral of `5^k`, and `delta` is the number of digits that a shift by `k`
adds to numbers from the cutoff on. -/
theorem leftcheats_ok : ∀ k : ℕ, k ≤ 60 → 1 ≤ k → ∃ c : List ℕ, leftcheats[k]? = some ((k : ℤ) + 1 - c.length, c) ∧
    (∀ d ∈ c, d < 10) ∧ c.getLast? ≠ some 0 ∧ c.head? ≠ some 0 ∧ dv c = 5 ^ k := by
  have h : ∀ k : ℕ, k < 61 → 1 ≤ k → leftcheats[k]? = some ((k : ℤ) + 1 - (dg 10 (5 ^ k)).length, dg 10 (5 ^ k)) := by
    decide +kernel
  intro k hk h1
  have h5 : 5 ^ k % 10 = 5 := by
    obtain ⟨j, rfl⟩ : ∃ j, k = j + 1 := ⟨k - 1, by omega⟩
    have : 5 ^ j % 2 = 1 := by rw [Nat.pow_mod]; simp
    rw [pow_succ]; omega
  have hv := digsVal_dg (b := 10) (5 ^ k)
  refine ⟨dg 10 (5 ^ k), h k (by omega) h1, dg_lt (by norm_num) _, ?_, dg_head_ne (by positivity), hv⟩
  intro hc
  have hne := dg_ne_nil 10 (5 ^ k)
  obtain ⟨a, c, hac⟩ : ∃ a c, dg 10 (5 ^ k) = a ++ [c] := ⟨_, _, (List.dropLast_append_getLast hne).symm⟩
  rw [hac] at hc hv
  have hc0 : c = 0 := by simpa using hc
  have := dv_snoc a c
  rw [dv, hv, hc0] at this
  omega

/-- The number of digits is determined by the size. -/
theorem length_unique {N a b : ℕ} (h1 : 10 ^ (a - 1) ≤ N) (h2 : N < 10 ^ a) (h3 : 10 ^ (b - 1) ≤ N) (h4 : N < 10 ^ b)
    : a = b := by
  have e1 := (Nat.pow_lt_pow_iff_right (by norm_num : 1 < 10)).1 (lt_of_le_of_lt h1 h4)
  have e2 := (Nat.pow_lt_pow_iff_right (by norm_num : 1 < 10)).1 (lt_of_le_of_lt h3 h2)
  have hn : a ≠ 0 ∨ b ≠ 0 := by omega
  omega

/-- `leftShift` is exact if the result has at most 800 digits. -/
theorem leftShift_ok {W k : ℕ} (hk : k + 4 ≤ W) (hk1 : 1 ≤ k) (hk60 : k ≤ 60) {a : Decimal} (ha : NormalDec a.d a.dp) (hne : a.d ≠ [])
    (hfit : FitsDigits 800 (decValue a.d a.dp * 2 ^ k)) :
    ∃ b, leftShift W a k = .ok b ∧ NormalDec b.d b.dp ∧ b.d ≠ [] ∧ b.d.length ≤ 800 ∧
      decValue b.d b.dp = decValue a.d a.dp * 2 ^ k ∧ b.neg = a.neg ∧ b.trunc = a.trunc := by
  obtain ⟨c, c1, c2, c3, c4, c5⟩ := leftcheats_ok k hk60 hk1
  have hcne : c ≠ [] := by
    rintro rfl
    have : 0 < 5 ^ k := by positivity
    rw [← c5] at this
    simp [dv, digsVal] at this
  have hclen : 1 ≤ c.length := List.length_pos_iff.2 hcne
  have hc5lt := dv_lt c2
  have hc5ge := dv_ge c4 hcne
  rw [c5] at hc5lt hc5ge
  have hpre := prefixIsLessThan_iff a.d c ha.digit c2 c3
  rw [c5] at hpre
  obtain ⟨l1, l2, l3, l4⟩ := lsDigits_ok hk a.d ha.digit
  set L := lsDigits W k a.d with hL
  have hWW : 2 ^ k ≤ 10 ^ W := le_trans (Nat.pow_le_pow_right (by norm_num) (by omega : k ≤ W)) (Nat.pow_le_pow_left (by norm_num) W)
  have hx := lsExtra_ok W L.2 L.1 (lt_of_lt_of_le l4 hWW)
  set out := (Nat.digits 10 L.2).reverse ++ L.1 with hout
  set A := dv a.d with hA
  set nd := a.d.length with hnd
  have hnd1 : 1 ≤ nd := List.length_pos_iff.2 hne
  have hAlt : A < 10 ^ nd := dv_lt ha.digit
  have hAge : 10 ^ (nd - 1) ≤ A := dv_ge ha.head hne
  have hval : dv out = A * 2 ^ k := by
    rw [hout, dv_append, l1, dv, digsVal_eq_ofDigits, List.reverse_reverse, Nat.ofDigits_digits]
    exact l3
  have h2k : 0 < 2 ^ k := by positivity
  have hdig : ∀ d ∈ out, d < 10 := by
    intro d hd
    rcases List.mem_append.1 hd with hd | hd
    · exact Nat.digits_lt_base (by norm_num) (List.mem_reverse.1 hd)
    · exact l2 d hd
  have hone : out ≠ [] := by
    intro hc
    rw [hc] at hval
    have : 0 < A * 2 ^ k := Nat.mul_pos (lt_of_lt_of_le (by positivity) hAge) h2k
    rw [dv_nil] at hval
    omega
  have hhead : out.head? ≠ some 0 := by
    by_cases hq : L.2 = 0
    · have hout' : out = L.1 := by rw [hout, hq, Nat.digits_zero, List.reverse_nil, List.nil_append]
      rw [hout'] at hval ⊢
      intro hz
      rcases hl : L.1 with _ | ⟨x, xs⟩
      · rw [hl] at hz; cases hz
      · rw [hl] at hz hval l1 l2
        have hx0 : x = 0 := by simpa using hz
        subst hx0
        rw [dv_cons, zero_mul, zero_add] at hval
        have h1 := dv_lt (ds := xs) fun d hd => l2 d (by simp [hd])
        rw [List.length_cons] at l1
        have h2 : xs.length = nd - 1 := by omega
        rw [h2, hval] at h1
        have : A * 1 ≤ A * 2 ^ k := Nat.mul_le_mul_left _ h2k
        omega
    · have hr : (Nat.digits 10 L.2).reverse ≠ [] := by
        rw [Ne, List.reverse_eq_nil_iff, Nat.digits_eq_nil_iff_eq_zero]; exact hq
      rw [hout, List.head?_append_of_ne_nil _ hr]
      have := dg_head_ne (b := 10) hq
      unfold dg at this
      rwa [if_neg hq] at this
  -- the number of digits
  have hT1 := dv_lt hdig
  have hT2 := dv_ge hhead hone
  rw [hval] at hT1 hT2
  set delta : ℤ := if prefixIsLessThan a.d c then (k : ℤ) + 1 - c.length - 1 else (k : ℤ) + 1 - c.length with hdelta
  have h10 : (10 : ℕ) ^ k = 5 ^ k * 2 ^ k := by rw [← mul_pow]; rfl
  have hlen : (out.length : ℤ) = nd + delta := by
    have hclk : c.length ≤ k := by
      have h1 : (10 : ℕ) ^ (c.length - 1) < 10 ^ k :=
        lt_of_le_of_lt hc5ge (Nat.pow_lt_pow_left (by norm_num) (by omega))
      have := (Nat.pow_lt_pow_iff_right (by norm_num : 1 < 10)).1 h1
      omega
    by_cases hp : prefixIsLessThan a.d c = true
    · have hlt := hpre.1 hp
      rw [hdelta, if_pos hp]
      have hT : out.length = nd + k - c.length := by
        refine length_unique hT2 hT1 ?_ ?_
        · have e : (10 : ℕ) ^ (nd + k - c.length - 1) * 10 ^ c.length = 10 ^ (nd - 1) * 10 ^ k := by
            rw [← pow_add, ← pow_add]; congr 1; omega
          have h3 : 10 ^ (nd - 1) * 10 ^ k ≤ A * 2 ^ k * 10 ^ c.length := by
            rw [h10]
            calc 10 ^ (nd - 1) * (5 ^ k * 2 ^ k) ≤ A * (10 ^ c.length * 2 ^ k) :=
                  Nat.mul_le_mul hAge (Nat.mul_le_mul_right _ hc5lt.le)
              _ = _ := by ring
          rw [← e] at h3
          exact Nat.le_of_mul_le_mul_right h3 (by positivity)
        · have e : (10 : ℕ) ^ (nd + k - c.length) * 10 ^ c.length = 10 ^ nd * 10 ^ k := by
            rw [← pow_add, ← pow_add]; congr 1; omega
          have h3 : A * 2 ^ k * 10 ^ c.length < 10 ^ nd * 10 ^ k := by
            rw [h10]
            calc A * 2 ^ k * 10 ^ c.length = A * 10 ^ c.length * 2 ^ k := by ring
              _ < 5 ^ k * 10 ^ nd * 2 ^ k := Nat.mul_lt_mul_of_pos_right hlt h2k
              _ = _ := by ring
          rw [← e] at h3
          exact Nat.lt_of_mul_lt_mul_right h3
      rw [hT]
      push_cast [Nat.cast_sub (show c.length ≤ nd + k by omega)]
      ring
    · have hge : 5 ^ k * 10 ^ nd ≤ A * 10 ^ c.length := Nat.le_of_not_lt fun h => hp (hpre.2 h)
      rw [hdelta, if_neg hp]
      have hT : out.length = nd + k + 1 - c.length := by
        refine length_unique hT2 hT1 ?_ ?_
        · have e : (10 : ℕ) ^ (nd + k + 1 - c.length - 1) * 10 ^ c.length = 10 ^ nd * 10 ^ k := by
            rw [← pow_add, ← pow_add]; congr 1; omega
          have h3 : 10 ^ nd * 10 ^ k ≤ A * 2 ^ k * 10 ^ c.length := by
            rw [h10]
            calc 10 ^ nd * (5 ^ k * 2 ^ k) = 5 ^ k * 10 ^ nd * 2 ^ k := by ring
              _ ≤ A * 10 ^ c.length * 2 ^ k := Nat.mul_le_mul_right _ hge
              _ = _ := by ring
          rw [← e] at h3
          exact Nat.le_of_mul_le_mul_right h3 (by positivity)
        · have e : (10 : ℕ) ^ (nd + k + 1 - c.length) * 10 ^ (c.length - 1) = 10 ^ nd * 10 ^ k := by
            rw [← pow_add, ← pow_add]; congr 1; omega
          have h3 : A * 2 ^ k * 10 ^ (c.length - 1) < 10 ^ nd * 10 ^ k := by
            rw [h10]
            calc A * 2 ^ k * 10 ^ (c.length - 1) ≤ A * 2 ^ k * 5 ^ k := Nat.mul_le_mul_left _ hc5ge
              _ = A * (5 ^ k * 2 ^ k) := by ring
              _ < 10 ^ nd * (5 ^ k * 2 ^ k) := Nat.mul_lt_mul_of_pos_right hAlt (by positivity)
          rw [← e] at h3
          exact Nat.lt_of_mul_lt_mul_right h3
      rw [hT]
      push_cast [Nat.cast_sub (show c.length ≤ nd + k + 1 by omega)]
      ring
  have hdval : decValue out (a.dp + delta) = decValue a.d a.dp * 2 ^ k := by
    rw [decValue_eq, decValue_eq, hval, hlen]
    push_cast
    rw [show a.dp + delta - ((nd : ℤ) + delta) = a.dp - nd by ring]
    ring
  -- what is beyond the 800th digit is zero
  obtain ⟨z, hz, hzl⟩ := dtz_spec out
  set t := dropTrailingZeros out with ht
  have htne : t ≠ [] := by
    intro hc
    have := dtz_zero_iff (ds := out) hc
    rw [hval] at this
    have : 0 < A * 2 ^ k := Nat.mul_pos (lt_of_lt_of_le (by positivity) hAge) h2k
    omega
  have htl : t.length ≤ 800 := by
    have hmod := dv_mod (ds := t) (fun d hd => hdig d (dtz_mem hd)) hzl htne
    rw [← hdval, ← dtz_value, ← ht, decValue_eq] at hfit
    have hlt := fits_lt hmod hfit
    have hge := dv_ge (ds := t) (dtz_head hhead) htne
    have := (Nat.pow_lt_pow_iff_right (by norm_num : 1 < 10)).1 (lt_of_le_of_lt hge hlt)
    omega
  have hdrop : (out.drop decimalCap).any (fun c => decide (c ≠ 0)) = false := by
    rw [hz, List.drop_append, List.drop_of_length_le (show t.length ≤ decimalCap from htl), List.nil_append, List.drop_replicate]
    rw [List.any_eq_false]
    intro x hx
    have := List.eq_of_mem_replicate hx
    simp [this]
  have htake : out.take decimalCap = t ++ List.replicate (min (800 - t.length) z) 0 := by
    rw [hz, List.take_append, List.take_of_length_le (show t.length ≤ decimalCap from htl), List.take_replicate]
    rfl
  refine ⟨trim { a with d := out.take decimalCap, dp := a.dp + delta, trunc := a.trunc || false }, ?_, ?_⟩
  · unfold leftShift
    rw [c1]
    simp only [← hL, ← hdelta, bind, Except.bind]
    rw [hx]
    have hw : ((a.nd : ℤ) + delta - out.length) = 0 := by
      show ((a.d.length : ℤ) + delta - out.length) = 0
      rw [hlen]; ring
    simp only [hw]
    rw [if_neg (by norm_num)]
    simp only [Int.toNat_zero, List.take_zero, List.nil_append, hdrop]
    rfl
  · have hd' : ∀ d ∈ out.take decimalCap, d < 10 := fun d hd => hdig d (List.mem_of_mem_take hd)
    have hh' : (out.take decimalCap).head? ≠ some 0 := by
      rw [List.head?_take]
      show (if _ then _ else _) ≠ _
      rw [if_neg (by decide)]
      exact hhead
    obtain ⟨t1, t2⟩ := trim_normal (a := { a with d := out.take decimalCap, dp := a.dp + delta, trunc := a.trunc || false }) hd' hh'
    have hdt : dropTrailingZeros (out.take decimalCap) = t := by
      rw [htake, dtz_append_zeros, dtz_self hzl]
    have htd : (trim { a with d := out.take decimalCap, dp := a.dp + delta, trunc := a.trunc || false }).d = t := hdt
    refine ⟨t1, ?_, ?_, ?_, rfl, by simp [trim]⟩
    · rw [htd]; exact htne
    · rw [htd]; exact htl
    · rw [t2]
      show decValue (out.take decimalCap) (a.dp + delta) = _
      rw [← dtz_value, hdt, ht, dtz_value, hdval]

end GoFloat.Strconv
