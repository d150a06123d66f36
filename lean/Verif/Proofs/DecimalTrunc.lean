import Verif.Proofs.DecimalExact
/-
`Shift` of internal/strconv/decimal.go when the result has more than 800 digits.
-/
namespace GoFloat.Strconv
open Spec

theorem rsExtra_any {W k : ℕ} (hk : k + 4 ≤ W) : ∀ (f n w : ℕ) (t : Bool), n < 10 * 2 ^ k → Enough k f n → w ≤ 800 →
    rsExtra W k (f + 1) n w t =
      .ok ((extra k f n).take (800 - w), t || ((extra k f n).drop (800 - w)).any (fun c => decide (c ≠ 0)))
  | 0, n, w, t, hn, h, _ => by
    have : n = 0 := by
      rcases h with h | ⟨i, h1, _, h2⟩
      · exact h
      · omega
    simp [this, extra, rsExtra]
  | f + 1, n, w, t, hn, hf, hl => by
    unfold rsExtra
    by_cases h0 : n = 0
    · simp [extra, h0]
    · have hp : 0 < 2 ^ k := by positivity
      have hmod : n % 2 ^ k < 2 ^ k := Nat.mod_lt _ hp
      have he : extra k (f + 1) n = (n / 2 ^ k) :: extra k f (n % 2 ^ k * 10) := by
        conv_lhs => unfold extra
        rw [if_neg h0]
      rw [he]
      rw [if_neg h0]
      simp only [and_mask]
      by_cases hw : w < 800
      · rw [if_pos (show w < decimalCap from hw), Nat.mod_eq_of_lt (word_lt hk (by omega)),
          rsExtra_any hk f _ _ t (by omega) (enough_step hf) (by omega), Nat.shiftRight_eq_div_pow]
        rw [show 800 - w = (800 - (w + 1)) + 1 by omega, List.take_succ_cons, List.drop_succ_cons]
        rfl
      · have hw' : w = 800 := by omega
        subst hw'
        rw [if_neg (show ¬ 800 < decimalCap by decide), Nat.mod_eq_of_lt (word_lt hk (by omega)),
          rsExtra_any hk f _ _ _ (by omega) (enough_step hf) (by omega), Nat.shiftRight_eq_div_pow]
        simp only [Nat.sub_self, List.take_zero, List.drop_zero, List.any_cons, Bool.or_assoc]
        congr 4
        simp [Nat.pos_iff_ne_zero]

/-- The decimal with the digits `D` that has no room for more than 800 of them. -/
def cut (a : Decimal) (D : List ℕ) (dp : ℤ) : Decimal :=
  trim { a with d := D.take 800, dp := dp, trunc := a.trunc || (D.drop 800).any (fun c => decide (c ≠ 0)) }

/-- `rightShift` gives the first 800 digits of the exact result. -/
theorem rightShift_any {W k : ℕ} (hk : k + 4 ≤ W) {a : Decimal} (ha : NormalDec a.d a.dp) (hne : a.d ≠ []) (hnd : a.d.length ≤ 800) :
    ∃ D dp, rightShift W a k = .ok (cut a D dp) ∧ (∀ d ∈ D, d < 10) ∧ D.head? ≠ some 0 ∧ D ≠ [] ∧
      decValue D dp = decValue a.d a.dp / 2 ^ k := by
  have hpos : 0 < dv a.d := by
    have := dv_ge ha.head hne
    have h10 : 0 < 10 ^ (a.d.length - 1) := by positivity
    omega
  obtain ⟨n, r, rest, g, h1, h2, h3, h4, h5, h6, h7⟩ := rsLead_ok hk a.d 0 0 ha.digit (by positivity) (by simpa using hpos)
  rw [zero_mul, zero_add] at h2
  rw [zero_add] at h3
  obtain ⟨m1, m2, m3, m4, m5, m6⟩ := rsMiddle_ok hk rest n h6 h5
  set M := rsMiddle W k rest n with hM
  have hen : Enough k (k + 1) M.2 := Or.inr ⟨0, by omega, by simp, by omega⟩
  obtain ⟨x1, x2, x3⟩ := extra_ok (k + 1) M.2 m3 hen
  set E := extra k (k + 1) M.2 with hE
  have hout : 10 * 2 ^ k * dv (M.1 ++ E) = dv a.d * 10 ^ g * 10 ^ E.length := by
    rw [dv_append, mul_add, ← x1, ← h2, m2]; ring
  have hdig : ∀ d ∈ M.1 ++ E, d < 10 := by
    intro d hd
    rcases List.mem_append.1 hd with hd | hd
    · exact m4 d hd
    · exact x2 d hd
  have hhead : (M.1 ++ E).head? ≠ some 0 := by
    by_cases hr : rest = []
    · have hm0 : M.1 = [] := List.length_eq_zero_iff.1 (by rw [m1, hr]; rfl)
      have hm2 : M.2 = n := m6 hr
      rw [hm0, List.nil_append, hE, hm2]
      unfold extra
      rw [if_neg (by have : 0 < 2 ^ k := by positivity
                     omega)]
      have : 1 ≤ n / 2 ^ k := (Nat.le_div_iff_mul_le (by positivity)).2 (by omega)
      simp only [List.head?_cons, ne_eq, Option.some.injEq]
      omega
    · have hm0 : M.1 ≠ [] := by
        intro hc
        rw [hc] at m1
        exact hr (List.length_eq_zero_iff.1 m1.symm)
      rw [List.head?_append_of_ne_nil _ hm0]
      exact m5 h4
  have hval : decValue (M.1 ++ E) (a.dp - ((r : ℤ) - 1)) = decValue a.d a.dp / 2 ^ k := by
    have hq : (10 : ℚ) * 2 ^ k * (dv (M.1 ++ E) : ℚ) = dv a.d * 10 ^ g * 10 ^ E.length := by exact_mod_cast hout
    have h2k : (2 : ℚ) ^ k ≠ 0 := by positivity
    rw [decValue_eq, decValue_eq, eq_div_iff h2k, List.length_append, m1]
    have hexp : a.dp - ((r : ℤ) - 1) - ((rest.length + E.length : ℕ) : ℤ) = (a.dp - (a.d.length : ℤ)) + 1 - g - E.length := by
      push_cast; omega
    rw [hexp, zpow_sub₀ ten_ne, zpow_sub₀ ten_ne, zpow_add₀ ten_ne, zpow_natCast, zpow_natCast, zpow_one]
    have hv : (dv (M.1 ++ E) : ℚ) = dv a.d * 10 ^ g * 10 ^ E.length / (10 * 2 ^ k) := by
      rw [eq_div_iff (by positivity), ← hq]; ring
    rw [hv]
    field_simp
  have hne' : M.1 ++ E ≠ [] := by
    intro hc
    have hz : dv a.d * 10 ^ g * 10 ^ E.length = 0 := by rw [← hout, hc]; rfl
    have : 0 < dv a.d * 10 ^ g * 10 ^ E.length := by positivity
    omega
  have hm800 : M.1.length ≤ 800 := by rw [m1]; omega
  have hx := rsExtra_any hk (k + 1) M.2 M.1.length a.trunc m3 hen hm800
  refine ⟨M.1 ++ E, a.dp - ((r : ℤ) - 1), ?_, hdig, hhead, hne', hval⟩
  unfold rightShift
  rw [h1]
  simp only [bind, Except.bind, ← hM]
  rw [hx]
  unfold cut
  rw [List.take_append, List.drop_append, List.take_of_length_le hm800, List.drop_of_length_le hm800]
  rfl

/-- `leftShift` gives the first 800 digits of the exact result. -/
theorem leftShift_any {W k : ℕ} (hk : k + 4 ≤ W) (hk1 : 1 ≤ k) (hk60 : k ≤ 60) {a : Decimal} (ha : NormalDec a.d a.dp) (hne : a.d ≠ []) :
    ∃ D dp, leftShift W a k = .ok (cut a D dp) ∧ (∀ d ∈ D, d < 10) ∧ D.head? ≠ some 0 ∧ D ≠ [] ∧
      decValue D dp = decValue a.d a.dp * 2 ^ k := by
  obtain ⟨c, c1, c2, c3, c4, c5⟩ := leftcheats_ok k hk60 hk1
  have hcne : c ≠ [] := by
    rintro rfl
    have : 0 < 5 ^ k := by positivity
    rw [← c5] at this
    simp [dv, digsVal] at this
  have hclen : 1 ≤ c.length := List.length_pos_iff.2 hcne
  have hc5lt := dv_lt c2
  have hc5ge := dv_ge c4 hcne
  rw [c5] at hc5lt hc5ge
  have hpre := prefixIsLessThan_iff a.d c ha.digit c2 c3
  rw [c5] at hpre
  obtain ⟨l1, l2, l3, l4⟩ := lsDigits_ok hk a.d ha.digit
  set L := lsDigits W k a.d with hL
  have hWW : 2 ^ k ≤ 10 ^ W := le_trans (Nat.pow_le_pow_right (by norm_num) (by omega : k ≤ W)) (Nat.pow_le_pow_left (by norm_num) W)
  have hx := lsExtra_ok W L.2 L.1 (lt_of_lt_of_le l4 hWW)
  set out := (Nat.digits 10 L.2).reverse ++ L.1 with hout
  set A := dv a.d with hA
  set nd := a.d.length with hnd
  have hnd1 : 1 ≤ nd := List.length_pos_iff.2 hne
  have hAlt : A < 10 ^ nd := dv_lt ha.digit
  have hAge : 10 ^ (nd - 1) ≤ A := dv_ge ha.head hne
  have hval : dv out = A * 2 ^ k := by
    rw [hout, dv_append, l1, dv, digsVal_eq_ofDigits, List.reverse_reverse, Nat.ofDigits_digits]
    exact l3
  have h2k : 0 < 2 ^ k := by positivity
  have hdig : ∀ d ∈ out, d < 10 := by
    intro d hd
    rcases List.mem_append.1 hd with hd | hd
    · exact Nat.digits_lt_base (by norm_num) (List.mem_reverse.1 hd)
    · exact l2 d hd
  have hone : out ≠ [] := by
    intro hc
    rw [hc] at hval
    have : 0 < A * 2 ^ k := Nat.mul_pos (lt_of_lt_of_le (by positivity) hAge) h2k
    rw [dv_nil] at hval
    omega
  have hhead : out.head? ≠ some 0 := by
    by_cases hq : L.2 = 0
    · have hout' : out = L.1 := by rw [hout, hq, Nat.digits_zero, List.reverse_nil, List.nil_append]
      rw [hout'] at hval ⊢
      intro hz
      rcases hl : L.1 with _ | ⟨x, xs⟩
      · rw [hl] at hz; cases hz
      · rw [hl] at hz hval l1 l2
        have hx0 : x = 0 := by simpa using hz
        subst hx0
        rw [dv_cons, zero_mul, zero_add] at hval
        have h1 := dv_lt (ds := xs) fun d hd => l2 d (by simp [hd])
        rw [List.length_cons] at l1
        have h2 : xs.length = nd - 1 := by omega
        rw [h2, hval] at h1
        have : A * 1 ≤ A * 2 ^ k := Nat.mul_le_mul_left _ h2k
        omega
    · have hr : (Nat.digits 10 L.2).reverse ≠ [] := by
        rw [Ne, List.reverse_eq_nil_iff, Nat.digits_eq_nil_iff_eq_zero]; exact hq
      rw [hout, List.head?_append_of_ne_nil _ hr]
      have := dg_head_ne (b := 10) hq
      unfold dg at this
      rwa [if_neg hq] at this
  -- the number of digits
  have hT1 := dv_lt hdig
  have hT2 := dv_ge hhead hone
  rw [hval] at hT1 hT2
  set delta : ℤ := if prefixIsLessThan a.d c then (k : ℤ) + 1 - c.length - 1 else (k : ℤ) + 1 - c.length with hdelta
  have h10 : (10 : ℕ) ^ k = 5 ^ k * 2 ^ k := by rw [← mul_pow]; rfl
  have hlen : (out.length : ℤ) = nd + delta := by
    have hclk : c.length ≤ k := by
      have h1 : (10 : ℕ) ^ (c.length - 1) < 10 ^ k :=
        lt_of_le_of_lt hc5ge (Nat.pow_lt_pow_left (by norm_num) (by omega))
      have := (Nat.pow_lt_pow_iff_right (by norm_num : 1 < 10)).1 h1
      omega
    by_cases hp : prefixIsLessThan a.d c = true
    · have hlt := hpre.1 hp
      rw [hdelta, if_pos hp]
      have hT : out.length = nd + k - c.length := by
        refine length_unique hT2 hT1 ?_ ?_
        · have e : (10 : ℕ) ^ (nd + k - c.length - 1) * 10 ^ c.length = 10 ^ (nd - 1) * 10 ^ k := by
            rw [← pow_add, ← pow_add]; congr 1; omega
          have h3 : 10 ^ (nd - 1) * 10 ^ k ≤ A * 2 ^ k * 10 ^ c.length := by
            rw [h10]
            calc 10 ^ (nd - 1) * (5 ^ k * 2 ^ k) ≤ A * (10 ^ c.length * 2 ^ k) :=
                  Nat.mul_le_mul hAge (Nat.mul_le_mul_right _ hc5lt.le)
              _ = _ := by ring
          rw [← e] at h3
          exact Nat.le_of_mul_le_mul_right h3 (by positivity)
        · have e : (10 : ℕ) ^ (nd + k - c.length) * 10 ^ c.length = 10 ^ nd * 10 ^ k := by
            rw [← pow_add, ← pow_add]; congr 1; omega
          have h3 : A * 2 ^ k * 10 ^ c.length < 10 ^ nd * 10 ^ k := by
            rw [h10]
            calc A * 2 ^ k * 10 ^ c.length = A * 10 ^ c.length * 2 ^ k := by ring
              _ < 5 ^ k * 10 ^ nd * 2 ^ k := Nat.mul_lt_mul_of_pos_right hlt h2k
              _ = _ := by ring
          rw [← e] at h3
          exact Nat.lt_of_mul_lt_mul_right h3
      rw [hT]
      push_cast [Nat.cast_sub (show c.length ≤ nd + k by omega)]
      ring
    · have hge : 5 ^ k * 10 ^ nd ≤ A * 10 ^ c.length := Nat.le_of_not_lt fun h => hp (hpre.2 h)
      rw [hdelta, if_neg hp]
      have hT : out.length = nd + k + 1 - c.length := by
        refine length_unique hT2 hT1 ?_ ?_
        · have e : (10 : ℕ) ^ (nd + k + 1 - c.length - 1) * 10 ^ c.length = 10 ^ nd * 10 ^ k := by
            rw [← pow_add, ← pow_add]; congr 1; omega
          have h3 : 10 ^ nd * 10 ^ k ≤ A * 2 ^ k * 10 ^ c.length := by
            rw [h10]
            calc 10 ^ nd * (5 ^ k * 2 ^ k) = 5 ^ k * 10 ^ nd * 2 ^ k := by ring
              _ ≤ A * 10 ^ c.length * 2 ^ k := Nat.mul_le_mul_right _ hge
              _ = _ := by ring
          rw [← e] at h3
          exact Nat.le_of_mul_le_mul_right h3 (by positivity)
        · have e : (10 : ℕ) ^ (nd + k + 1 - c.length) * 10 ^ (c.length - 1) = 10 ^ nd * 10 ^ k := by
            rw [← pow_add, ← pow_add]; congr 1; omega
          have h3 : A * 2 ^ k * 10 ^ (c.length - 1) < 10 ^ nd * 10 ^ k := by
            rw [h10]
            calc A * 2 ^ k * 10 ^ (c.length - 1) ≤ A * 2 ^ k * 5 ^ k := Nat.mul_le_mul_left _ hc5ge
              _ = A * (5 ^ k * 2 ^ k) := by ring
              _ < 10 ^ nd * (5 ^ k * 2 ^ k) := Nat.mul_lt_mul_of_pos_right hAlt (by positivity)
          rw [← e] at h3
          exact Nat.lt_of_mul_lt_mul_right h3
      rw [hT]
      push_cast [Nat.cast_sub (show c.length ≤ nd + k + 1 by omega)]
      ring
  have hdval : decValue out (a.dp + delta) = decValue a.d a.dp * 2 ^ k := by
    rw [decValue_eq, decValue_eq, hval, hlen]
    push_cast
    rw [show a.dp + delta - ((nd : ℤ) + delta) = a.dp - nd by ring]
    ring
  refine ⟨out, a.dp + delta, ?_, hdig, hhead, hone, hdval⟩
  unfold leftShift
  rw [c1]
  simp only [← hL, ← hdelta, bind, Except.bind]
  rw [hx]
  have hw : ((a.nd : ℤ) + delta - out.length) = 0 := by
    show ((a.d.length : ℤ) + delta - out.length) = 0
    rw [hlen]; ring
  simp only [hw]
  rw [if_neg (by norm_num)]
  simp only [Int.toNat_zero, List.take_zero, List.nil_append]
  rfl

/-- Cutting off digits: how much is lost. -/
theorem cut_spec {a : Decimal} {D : List ℕ} {dp : ℤ} (hd : ∀ d ∈ D, d < 10) (hh : D.head? ≠ some 0) (hne : D ≠ []) :
    NormalDec (cut a D dp).d (cut a D dp).dp ∧ (cut a D dp).d ≠ [] ∧ (cut a D dp).d.length ≤ 800 ∧
    decValue (cut a D dp).d (cut a D dp).dp ≤ decValue D dp ∧
    decValue D dp < decValue (cut a D dp).d (cut a D dp).dp * (1 + 1 / 10 ^ 799) ∧
    (cut a D dp).neg = a.neg ∧
    ((cut a D dp).trunc = true ↔ a.trunc = true ∨ decValue (cut a D dp).d (cut a D dp).dp < decValue D dp) := by
  have hd' : ∀ d ∈ D.take 800, d < 10 := fun d hd1 => hd d (List.mem_of_mem_take hd1)
  have hh' : (D.take 800).head? ≠ some 0 := by
    rw [List.head?_take, if_neg (by decide)]
    exact hh
  have hne' : D.take 800 ≠ [] := by
    rcases D with _ | ⟨c, cs⟩
    · exact absurd rfl hne
    · simp
  obtain ⟨t1, t2⟩ := trim_normal (a := { a with d := D.take 800, dp := dp, trunc := a.trunc || (D.drop 800).any (fun c => decide (c ≠ 0)) }) hd' hh'
  have hcut : cut a D dp = trim { a with d := D.take 800, dp := dp, trunc := a.trunc || (D.drop 800).any (fun c => decide (c ≠ 0)) } := rfl
  rw [← hcut] at t1 t2
  change decValue _ _ = decValue (D.take 800) dp at t2
  have hge := dv_ge hh' hne'
  have hlt := dv_lt (ds := D.drop 800) (fun d h => hd d (List.mem_of_mem_drop h))
  have hsum : dv D = dv (D.take 800) * 10 ^ (D.drop 800).length + dv (D.drop 800) := by
    rw [← dv_append, List.take_append_drop]
  have hlen : (D.length : ℤ) = (D.take 800).length + (D.drop 800).length := by
    have := congrArg List.length (List.take_append_drop 800 D)
    rw [List.length_append] at this
    omega
  have hpw : (10 : ℚ) ^ (dp - (D.take 800).length) = 10 ^ (D.drop 800).length * (10 : ℚ) ^ (dp - D.length) := by
    rw [← zpow_natCast, ← zpow_add₀ ten_ne]; congr 1; omega
  have hu : (0 : ℚ) < (10 : ℚ) ^ (dp - D.length) := by positivity
  have hv : decValue D dp = decValue (D.take 800) dp + dv (D.drop 800) * (10 : ℚ) ^ (dp - D.length) := by
    rw [decValue_eq, decValue_eq, hsum, hpw]; push_cast; ring
  have hnz : (D.drop 800).any (fun c => decide (c ≠ 0)) = true ↔ 0 < dv (D.drop 800) := by
    rw [List.any_eq_true]
    constructor
    · rintro ⟨x, hx, h0⟩
      by_contra hc
      have : dv (D.drop 800) = dv (List.replicate (D.drop 800).length 0) := by rw [dv_zeros]; omega
      have e := dv_inj (fun d h => hd d (List.mem_of_mem_drop h)) (by intro d h; rw [List.eq_of_mem_replicate h]; norm_num) (by simp) this
      rw [e] at hx
      have := List.eq_of_mem_replicate hx
      simp [this] at h0
    · intro h
      by_contra hc
      push Not at hc
      have : D.drop 800 = List.replicate (D.drop 800).length 0 := by
        rw [List.eq_replicate_iff]
        refine ⟨rfl, fun b hb => ?_⟩
        have := hc b hb
        simpa using this
      rw [this, dv_zeros] at h
      omega
  refine ⟨t1, ?_, ?_, ?_, ?_, rfl, ?_⟩
  · intro hc
    have := dtz_zero_iff (ds := D.take 800) hc
    have : 0 < 10 ^ ((D.take 800).length - 1) := by positivity
    omega
  · obtain ⟨z, hz, _⟩ := dtz_spec (D.take 800)
    have := congrArg List.length hz
    rw [List.length_append] at this
    have h2 : (D.take 800).length ≤ 800 := List.length_take_le _ _
    show (dropTrailingZeros (D.take 800)).length ≤ 800
    omega
  · rw [t2, hv]
    have : (0 : ℚ) ≤ dv (D.drop 800) * (10 : ℚ) ^ (dp - D.length) := by positivity
    linarith
  · rw [t2, hv, mul_add, mul_one]
    refine add_lt_add_right ?_ _
    rw [mul_one_div, lt_div_iff₀ (by positivity), decValue_eq, hpw]
    rcases Nat.lt_or_ge 800 D.length with hl | hl
    · have h800 : (D.take 800).length = 800 := by rw [List.length_take]; omega
      rw [h800] at hge
      have h1 : (dv (D.drop 800) : ℚ) < 10 ^ (D.drop 800).length := by exact_mod_cast hlt
      have h2 : ((10 : ℚ) ^ 799) ≤ dv (D.take 800) := by exact_mod_cast hge
      calc (dv (D.drop 800) : ℚ) * 10 ^ (dp - D.length) * 10 ^ 799
          = dv (D.drop 800) * 10 ^ 799 * 10 ^ (dp - D.length) := by ring
        _ < 10 ^ (D.drop 800).length * 10 ^ 799 * 10 ^ (dp - D.length) := by
            refine mul_lt_mul_of_pos_right (mul_lt_mul_of_pos_right h1 (by positivity)) hu
        _ ≤ 10 ^ (D.drop 800).length * dv (D.take 800) * 10 ^ (dp - D.length) := by
            refine mul_le_mul_of_nonneg_right (mul_le_mul_of_nonneg_left h2 (by positivity)) hu.le
        _ = _ := by ring
    · rw [List.drop_of_length_le hl, dv_nil]
      have h2 : (0 : ℚ) < dv (D.take 800) := by
        have : 0 < 10 ^ ((D.take 800).length - 1) := by positivity
        exact_mod_cast (by omega : 0 < dv (D.take 800))
      have : (0 : ℚ) < dv (D.take 800) * (10 ^ ([] : List ℕ).length * 10 ^ (dp - D.length)) := by positivity
      simpa using this
  · rw [t2, hv]
    have htr : (cut a D dp).trunc = (a.trunc || (D.drop 800).any (fun c => decide (c ≠ 0))) := rfl
    rw [htr, Bool.or_eq_true, hnz]
    have : (0 : ℚ) < dv (D.drop 800) * (10 : ℚ) ^ (dp - D.length) ↔ 0 < dv (D.drop 800) := by
      rw [mul_pos_iff_of_pos_right hu]; exact_mod_cast Iff.rfl
    rw [lt_add_iff_pos_right, this]

/-- Cutting off digits is rounding down to 800 digits. -/
theorem cut_floor {a : Decimal} {D : List ℕ} {dp : ℤ} (hd : ∀ d ∈ D, d < 10) (hh : D.head? ≠ some 0) (hne : D ≠ []) :
    (10 : ℚ) ^ 799 ≤ decValue D dp / 10 ^ (dp - 800) ∧ decValue D dp / 10 ^ (dp - 800) < 10 ^ 800 ∧
    decValue (cut a D dp).d (cut a D dp).dp = ⌊decValue D dp / 10 ^ (dp - 800)⌋ * 10 ^ (dp - 800) := by
  have hd' : ∀ d ∈ D.take 800, d < 10 := fun d hd1 => hd d (List.mem_of_mem_take hd1)
  have hh' : (D.take 800).head? ≠ some 0 := by
    rw [List.head?_take, if_neg (by decide)]
    exact hh
  obtain ⟨-, t2⟩ := trim_normal (a := { a with d := D.take 800, dp := dp, trunc := a.trunc || (D.drop 800).any (fun c => decide (c ≠ 0)) }) hd' hh'
  have hcut : cut a D dp = trim { a with d := D.take 800, dp := dp, trunc := a.trunc || (D.drop 800).any (fun c => decide (c ≠ 0)) } := rfl
  rw [← hcut] at t2
  change decValue _ _ = decValue (D.take 800) dp at t2
  rw [t2]
  have hge := dv_ge hh hne
  have hlt := dv_lt hd
  have hl1 : 1 ≤ D.length := List.length_pos_iff.2 hne
  have hq : decValue D dp / 10 ^ (dp - 800) = (dv D : ℚ) * (10 : ℚ) ^ (800 - (D.length : ℤ)) := by
    rw [decValue_eq, mul_div_assoc, ← zpow_sub₀ ten_ne]; congr 2; ring
  have hu : (0 : ℚ) < (10 : ℚ) ^ (800 - (D.length : ℤ)) := by positivity
  have hgeq : (10 : ℚ) ^ (D.length - 1) ≤ dv D := by exact_mod_cast hge
  have hltq : (dv D : ℚ) < 10 ^ D.length := by exact_mod_cast hlt
  refine ⟨?_, ?_, ?_⟩
  · rw [hq]
    calc (10 : ℚ) ^ 799 = 10 ^ (D.length - 1) * (10 : ℚ) ^ (800 - (D.length : ℤ)) := by
          rw [← zpow_natCast (10 : ℚ) (D.length - 1), ← zpow_add₀ ten_ne,
            show ((D.length - 1 : ℕ) : ℤ) + (800 - (D.length : ℤ)) = ((799 : ℕ) : ℤ) by omega, zpow_natCast]
      _ ≤ (dv D : ℚ) * (10 : ℚ) ^ (800 - (D.length : ℤ)) := mul_le_mul_of_nonneg_right hgeq hu.le
  · rw [hq]
    calc (dv D : ℚ) * (10 : ℚ) ^ (800 - (D.length : ℤ)) < 10 ^ D.length * (10 : ℚ) ^ (800 - (D.length : ℤ)) :=
          mul_lt_mul_of_pos_right hltq hu
      _ = 10 ^ 800 := by
          rw [← zpow_natCast (10 : ℚ) D.length, ← zpow_add₀ ten_ne,
            show (D.length : ℤ) + (800 - (D.length : ℤ)) = ((800 : ℕ) : ℤ) by omega, zpow_natCast]
  · have key : ⌊decValue D dp / 10 ^ (dp - 800)⌋ = (dv (D.take 800) * 10 ^ (800 - (D.take 800).length) : ℕ) := by
      rw [hq, Int.floor_eq_iff]
      rcases Nat.lt_or_ge 800 D.length with hl | hl
      · have h800 : (D.take 800).length = 800 := by rw [List.length_take]; omega
        have hsum : dv D = dv (D.take 800) * 10 ^ (D.drop 800).length + dv (D.drop 800) := by
          rw [← dv_append, List.take_append_drop]
        have hdl : (D.drop 800).length = D.length - 800 := List.length_drop
        have hr := dv_lt (ds := D.drop 800) (fun d h => hd d (List.mem_of_mem_drop h))
        rw [hdl] at hsum hr
        have hz : (10 : ℚ) ^ (800 - (D.length : ℤ)) = (10 ^ (D.length - 800))⁻¹ := by
          rw [show 800 - (D.length : ℤ) = -((D.length - 800 : ℕ) : ℤ) by omega, zpow_neg, zpow_natCast]
        rw [hz, ← div_eq_mul_inv, h800, Nat.sub_self, pow_zero, mul_one, le_div_iff₀ (by positivity), div_lt_iff₀ (by positivity), hsum]
        push_cast
        have hr' : (dv (D.drop 800) : ℚ) < 10 ^ (D.length - 800) := by exact_mod_cast hr
        have h0 : (0 : ℚ) ≤ dv (D.drop 800) := Nat.cast_nonneg _
        constructor
        · linarith
        · rw [add_mul, one_mul]; linarith
      · rw [List.take_of_length_le hl]
        have hz : (10 : ℚ) ^ (800 - (D.length : ℤ)) = 10 ^ (800 - D.length) := by
          rw [← zpow_natCast]; congr 1; omega
        rw [hz]
        push_cast
        exact ⟨le_refl _, by linarith⟩
    rw [key, decValue_eq]
    push_cast
    rw [mul_assoc, ← zpow_natCast (10 : ℚ) (800 - (D.take 800).length), ← zpow_add₀ ten_ne]
    have : (D.take 800).length ≤ 800 := List.length_take_le _ _
    congr 2
    omega

/-- What a shift by several steps gives: an underestimate, by a relative error of less than `10^-799` per step. -/
def Cuts (s : ℕ) (a b : Decimal) (q : ℚ) : Prop :=
  NormalDec b.d b.dp ∧ b.d ≠ [] ∧ b.d.length ≤ 800 ∧ decValue b.d b.dp ≤ q ∧ q < decValue b.d b.dp * (1 + 1 / 10 ^ 799) ^ s ∧
    b.neg = a.neg ∧ (b.trunc = true ↔ a.trunc = true ∨ decValue b.d b.dp < q)

/-- One step more. -/
theorem Cuts.next {s : ℕ} {a b c : Decimal} {q x : ℚ} (hx : 0 < x) (h1 : Cuts 1 a b q)
    (h2 : Cuts s b c (decValue b.d b.dp * x)) : Cuts (s + 1) a c (q * x) := by
  obtain ⟨-, -, -, a4, a5, a6, a7⟩ := h1
  obtain ⟨b1, b2, b3, b4, b5, b6, b7⟩ := h2
  refine ⟨b1, b2, b3, b4.trans (mul_le_mul_of_nonneg_right a4 hx.le), ?_, b6.trans a6, ?_⟩
  · rw [pow_one] at a5
    generalize hw : (1 + 1 / 10 ^ 799 : ℚ) = w at *
    have hw0 : (0 : ℚ) < w := by rw [← hw]; positivity
    calc q * x < decValue b.d b.dp * w * x := mul_lt_mul_of_pos_right a5 hx
      _ = decValue b.d b.dp * x * w := by ring
      _ < decValue c.d c.dp * w ^ s * w := mul_lt_mul_of_pos_right b5 hw0
      _ = _ := by rw [pow_succ]; ring
  · rw [b7, a7]
    constructor
    · rintro ((h | h) | h)
      · exact .inl h
      · exact .inr (lt_of_le_of_lt b4 (mul_lt_mul_of_pos_right h hx))
      · exact .inr (lt_of_lt_of_le h (mul_le_mul_of_nonneg_right a4 hx.le))
    · rintro (h | h)
      · exact .inl (.inl h)
      · rcases lt_or_eq_of_le a4 with h' | h'
        · exact .inl (.inr h')
        · rw [← h'] at h; exact .inr h

theorem shiftLeftLoop_any {W : ℕ} (hW : W = 32 ∨ W = 64) : ∀ (f k : ℕ) (a : Decimal), k ≤ f → 1 ≤ k → NormalDec a.d a.dp →
    a.d ≠ [] → ∃ b, shiftLeftLoop W f a k = .ok b ∧ Cuts ((k + (maxShift W - 1)) / maxShift W) a b (decValue a.d a.dp * 2 ^ k)
  | 0, k, a, h, h1, _, _ => by omega
  | f + 1, k, a, h, h1, ha, hne => by
    obtain ⟨m1, m2, m3⟩ := maxShift_ok hW
    unfold shiftLeftLoop
    by_cases hk : k > maxShift W
    · rw [if_pos hk]
      obtain ⟨D, dp, e1, e2, e3, e4, e5⟩ := leftShift_any m1 m2 m3 ha hne
      obtain ⟨c1, c2, c3, c4, c5, c6, c7⟩ := cut_spec (a := a) (dp := dp) e2 e3 e4
      rw [e5] at c4 c5 c7
      obtain ⟨c, hc, d1⟩ := shiftLeftLoop_any hW f (k - maxShift W) (cut a D dp) (by omega) (by omega) c1 c2
      rw [e1]
      refine ⟨c, hc, ?_⟩
      have := Cuts.next (q := decValue a.d a.dp * 2 ^ maxShift W) (by positivity) ⟨c1, c2, c3, c4, by rwa [pow_one], c6, c7⟩ d1
      rw [mul_assoc, ← pow_add, show maxShift W + (k - maxShift W) = k by omega] at this
      rwa [show k + (maxShift W - 1) = k - maxShift W + (maxShift W - 1) + maxShift W by omega, Nat.add_div_right _ (by omega)]
    · rw [if_neg hk]
      obtain ⟨D, dp, e1, e2, e3, e4, e5⟩ := leftShift_any (W := W) (k := k) (by omega) h1 (by omega) ha hne
      obtain ⟨c1, c2, c3, c4, c5, c6, c7⟩ := cut_spec (a := a) (dp := dp) e2 e3 e4
      rw [e5] at c4 c5 c7
      rw [show (k + (maxShift W - 1)) / maxShift W = 1 from Nat.div_eq_of_lt_le (by omega) (by omega)]
      exact ⟨_, e1, c1, c2, c3, c4, by rwa [pow_one], c6, c7⟩

theorem shiftRightLoop_any {W : ℕ} (hW : W = 32 ∨ W = 64) : ∀ (f k : ℕ) (a : Decimal), k ≤ f → 1 ≤ k → NormalDec a.d a.dp →
    a.d ≠ [] → a.d.length ≤ 800 →
    ∃ b, shiftRightLoop W f a k = .ok b ∧ Cuts ((k + (maxShift W - 1)) / maxShift W) a b (decValue a.d a.dp / 2 ^ k)
  | 0, k, a, h, h1, _, _, _ => by omega
  | f + 1, k, a, h, h1, ha, hne, hl => by
    obtain ⟨m1, m2, m3⟩ := maxShift_ok hW
    unfold shiftRightLoop
    by_cases hk : k > maxShift W
    · rw [if_pos hk]
      obtain ⟨D, dp, e1, e2, e3, e4, e5⟩ := rightShift_any m1 ha hne hl
      obtain ⟨c1, c2, c3, c4, c5, c6, c7⟩ := cut_spec (a := a) (dp := dp) e2 e3 e4
      rw [e5] at c4 c5 c7
      obtain ⟨c, hc, d1⟩ := shiftRightLoop_any hW f (k - maxShift W) (cut a D dp) (by omega) (by omega) c1 c2 c3
      rw [e1]
      refine ⟨c, hc, ?_⟩
      rw [div_eq_mul_inv] at d1
      have := Cuts.next (q := decValue a.d a.dp / 2 ^ maxShift W) (by positivity) ⟨c1, c2, c3, c4, by rwa [pow_one], c6, c7⟩ d1
      rw [← div_eq_mul_inv, div_div, ← pow_add, show maxShift W + (k - maxShift W) = k by omega] at this
      rwa [show k + (maxShift W - 1) = k - maxShift W + (maxShift W - 1) + maxShift W by omega, Nat.add_div_right _ (by omega)]
    · rw [if_neg hk]
      obtain ⟨D, dp, e1, e2, e3, e4, e5⟩ := rightShift_any (W := W) (k := k) (by omega) ha hne hl
      obtain ⟨c1, c2, c3, c4, c5, c6, c7⟩ := cut_spec (a := a) (dp := dp) e2 e3 e4
      rw [e5] at c4 c5 c7
      rw [show (k + (maxShift W - 1)) / maxShift W = 1 from Nat.div_eq_of_lt_le (by omega) (by omega)]
      exact ⟨_, e1, c1, c2, c3, c4, by rwa [pow_one], c6, c7⟩

/-- `Shift` of any decimal by any number of bits. -/
theorem shift_any {W : ℕ} (hW : W = 32 ∨ W = 64) (a : Decimal) (k : ℤ) (ha : NormalDec a.d a.dp) (hl : a.d.length ≤ 800)
    (hne : a.d ≠ []) (hk : k ≠ 0) :
    ∃ b, a.shift W k = .ok b ∧ Cuts ((k.natAbs + (maxShift W - 1)) / maxShift W) a b (decValue a.d a.dp * 2 ^ k) := by
  unfold Decimal.shift
  rw [if_neg (show ¬ a.nd = 0 from fun hc => hne (List.length_eq_zero_iff.1 hc))]
  by_cases hp : 0 < k
  · rw [if_pos hp]
    obtain ⟨n, rfl⟩ := Int.eq_ofNat_of_zero_le hp.le
    rw [zpow_natCast, Int.toNat_natCast, Int.natAbs_natCast]
    exact shiftLeftLoop_any hW (n + 1) n a (by omega) (by omega) ha hne
  · rw [if_neg hp, if_pos (by omega)]
    obtain ⟨n, hn'⟩ := Int.eq_ofNat_of_zero_le (show 0 ≤ -k by omega)
    have hk' : k = -(n : ℤ) := by omega
    rw [hn', Int.toNat_natCast, hk', zpow_neg, zpow_natCast, ← div_eq_mul_inv, Int.natAbs_neg, Int.natAbs_natCast]
    exact shiftRightLoop_any hW (n + 1) n a (by omega) (by omega) ha hne hl

/-- `Shift` by at most `maxShift` bits rounds the exact result down to 800 digits. -/
theorem shift_floor {W : ℕ} (hW : W = 32 ∨ W = 64) (a : Decimal) (k : ℤ) (ha : NormalDec a.d a.dp) (hl : a.d.length ≤ 800)
    (hne : a.d ≠ []) (hk : k ≠ 0) (hk1 : k.natAbs ≤ maxShift W) :
    ∃ b, a.shift W k = .ok b ∧ ∃ e : ℤ, (10 : ℚ) ^ 799 ≤ decValue a.d a.dp * 2 ^ k / 10 ^ e ∧
      decValue a.d a.dp * 2 ^ k / 10 ^ e < 10 ^ 800 ∧
      decValue b.d b.dp = ⌊decValue a.d a.dp * 2 ^ k / 10 ^ e⌋ * 10 ^ e := by
  obtain ⟨m1, m2, m3⟩ := maxShift_ok hW
  unfold Decimal.shift
  rw [if_neg (show ¬ a.nd = 0 from fun hc => hne (List.length_eq_zero_iff.1 hc))]
  by_cases hp : 0 < k
  · rw [if_pos hp]
    obtain ⟨n, rfl⟩ := Int.eq_ofNat_of_zero_le hp.le
    rw [Int.natAbs_natCast] at hk1
    rw [zpow_natCast, Int.toNat_natCast]
    unfold shiftLeftLoop
    rw [if_neg (by omega)]
    obtain ⟨D, dp, e1, e2, e3, e4, e5⟩ := leftShift_any (W := W) (k := n) (by omega) (by omega) (by omega) ha hne
    obtain ⟨f1, f2, f3⟩ := cut_floor (a := a) (dp := dp) e2 e3 e4
    rw [e5] at f1 f2 f3
    exact ⟨_, e1, _, f1, f2, f3⟩
  · rw [if_neg hp, if_pos (by omega)]
    obtain ⟨n, hn'⟩ := Int.eq_ofNat_of_zero_le (show 0 ≤ -k by omega)
    have hk' : k = -(n : ℤ) := by omega
    rw [hk', Int.natAbs_neg, Int.natAbs_natCast] at hk1
    rw [hn', Int.toNat_natCast, hk', zpow_neg, zpow_natCast, ← div_eq_mul_inv]
    unfold shiftRightLoop
    rw [if_neg (by omega)]
    obtain ⟨D, dp, e1, e2, e3, e4, e5⟩ := rightShift_any (W := W) (k := n) (by omega) ha hne hl
    obtain ⟨f1, f2, f3⟩ := cut_floor (a := a) (dp := dp) e2 e3 e4
    rw [e5] at f1 f2 f3
    exact ⟨_, e1, _, f1, f2, f3⟩

end GoFloat.Strconv
