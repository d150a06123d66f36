import Verif.Model.BigText
import Verif.Proofs.IsExact
import Verif.Proofs.BigAdd
/-
`big.Float.Text('g', n)` and `big.Float.SetString`: the layout of the text, what the reader reads, and the error of the
number that it returns.
-/
namespace GoFloat
open Spec Strconv

/-! ### The text -/

theorem bigFmtE_zero (neg : Bool) {ds : List ℕ} (hd : ∀ d ∈ ds, d < 10) (dp : ℤ) :
    minus neg ++ bigFmtE 0 (ds, dp) = sciText neg ds dp 0 := by
  unfold bigFmtE sciText expText
  have hexp : ∀ e : ℕ, (if e < 10 then ['0'] else []) ++ fmtNat 10 e = (expDigits e).map dchar := by
    intro e
    unfold expDigits fmtNat
    by_cases h0 : e = 0
    · subst h0
      decide
    · rw [if_neg h0, digitsOf_eq (by norm_num) e h0, map_digitChar (dg_lt (by norm_num) e)]
      by_cases h1 : e < 10
      · rw [if_pos h1, if_pos h1, dg_small h1]
        rfl
      · rw [if_neg h1, if_neg h1]
        rfl
  dsimp only
  have hx : (if ds.length = 0 then 0 else dp - 1) = expOf ds dp := rfl
  rw [if_neg (by omega), hx, digitChar_dchar (getD_lt hd 0)]
  have hfr : (fracE ds 0).map dchar = [] := rfl
  rw [hfr]
  unfold pointed
  rw [if_pos rfl]
  have := hexp (expOf ds dp).natAbs
  simp only [List.cons_append, List.append_assoc, List.nil_append, this]

/-- A number without an exponent. -/
def plainText (neg : Bool) (ds : List ℕ) (dp : ℤ) (prec : ℤ) : Text :=
  minus neg ++ (intF ds dp).map dchar ++ pointed ((fracF ds dp prec).map dchar)

theorem bigFmtF_eq (neg : Bool) {ds : List ℕ} (hd : ∀ d ∈ ds, d < 10) (dp : ℤ) (prec : ℕ) :
    minus neg ++ bigFmtF prec (ds, dp) = plainText neg ds dp prec := by
  unfold bigFmtF plainText
  dsimp only
  rw [List.append_assoc]
  congr 1
  congr 1
  · unfold intF
    by_cases h : dp > 0
    · rw [if_pos h, if_pos h, map_digitChar (fun d h => hd d (List.mem_of_mem_take h)), show '0' = dchar 0 by decide, ← List.map_replicate,
        ← List.map_append]
      congr 1
      rcases le_total ds.length dp.toNat with hle | hle
      · rw [padTake_zeros hle, List.take_of_length_le hle]
      · rw [padTake_take hle, Nat.sub_eq_zero_of_le hle, List.replicate_zero, List.append_nil]
    · rw [if_neg h, if_neg h]; decide
  · unfold pointed
    by_cases hp : prec > 0
    · have hne : (fracF ds dp prec).map dchar ≠ [] := by
        intro hc
        have := congrArg List.length hc
        rw [List.length_map, fracF_length] at this
        simp at this
        omega
      rw [if_pos hp, if_neg hne]
      congr 1
      unfold fracF
      rw [List.map_map, Int.toNat_natCast]
      apply List.map_congr_left
      intro i _
      simp only [Function.comp, decimalAt]
      split
      · exact digitChar_dchar (getD_lt hd _)
      · decide
    · rw [if_neg hp, if_pos]
      rw [fracF, show prec = 0 by omega]
      rfl

/-- The layout of `Text('g', n)` for the digits `ds`. -/
def gText (neg : Bool) (n : ℕ) (ds : List ℕ) (dp : ℤ) : Text :=
  if dp - 1 < -4 ∨ dp - 1 ≥ (if n > ds.length ∧ (ds.length : ℤ) ≥ dp then (ds.length : ℤ) else n) then
    sciText neg ds dp ((ds.length : ℤ) - 1)
  else plainText neg ds dp (max ((ds.length : ℤ) - dp) 0)

theorem bigFmtG_eq (neg : Bool) {ds : List ℕ} {dp : ℤ} (h : NormalDec ds dp) {n : ℕ} (hn : 1 ≤ n) (hl : ds.length ≤ n) :
    minus neg ++ bigFmtG n (ds, dp) = gText neg n ds dp := by
  unfold bigFmtG gText
  dsimp only
  set ep : ℤ := if n > ds.length ∧ (ds.length : ℤ) ≥ dp then (ds.length : ℤ) else n with hep
  by_cases hc : dp - 1 < -4 ∨ dp - 1 ≥ ep
  · rw [if_pos hc, if_pos hc]
    have hne : ds ≠ [] := by
      intro h0
      have := h.zero h0
      subst h0
      subst this
      rw [if_pos ⟨by simp; omega, by simp⟩] at hep
      simp only [List.length_nil] at hep
      omega
    have hlen : 1 ≤ ds.length := List.length_pos_iff.2 hne
    rw [min_eq_right hl]
    by_cases h1 : ds.length = 1
    · rw [h1]
      exact bigFmtE_zero neg h.digit dp
    · rw [bigFmtE_eq neg h.digit dp (by omega)]
      congr 1
      omega
  · rw [if_neg hc, if_neg hc, bigFmtF_eq neg h.digit]
    congr 1
    rw [Int.toNat_of_nonneg (le_max_right _ _)]
    split
    · rfl
    · rename_i h2
      have : dp - 1 < n := by
        by_contra h3
        apply hc
        right
        rw [hep]
        split <;> omega
      omega

theorem plainText_read (neg : Bool) {ds : List ℕ} (hd : ∀ d ∈ ds, d < 10) (dp : ℤ) {prec : ℤ} (hp0 : 0 ≤ prec)
    (hl : (ds.length : ℤ) ≤ dp + prec ∨ ds = []) : readDecimal (plainText neg ds dp prec) = some (neg, decValue ds dp) := by
  rw [← fmtF_read neg hd dp false prec hp0 hl, fmtF_eq neg hd dp false prec]
  rfl

theorem gText_read (neg : Bool) {ds : List ℕ} {dp : ℤ} (h : NormalDec ds dp) (n : ℕ) :
    readDecimal (gText neg n ds dp) = some (neg, decValue ds dp) := by
  unfold gText
  split_ifs
  all_goals first
    | exact sciText_read neg h.digit dp (by omega)
    | exact plainText_read neg h.digit dp (le_max_right _ _) (Or.inl (by omega))

/-- What `Text('g', n)` prints: the number rounded to `n` digits. -/
theorem textG_spec {x : BigFloat} (hx : x.WF) {s : Bool} {m : ℚ} (hd : x.datum = .num s m) {n : ℕ} (hn : 1 ≤ n) :
    ∃ ds dp, NormalDec ds dp ∧ x.textG n = gText s n ds dp ∧ ds.length ≤ n ∧ (ds = [] ↔ m = 0) ∧
      (m ≠ 0 → RoundedDigits n m (decValue ds dp)) := by
  have hsign : ∀ b : Bool, (if b = true then ['-'] else []) = minus b := fun b => rfl
  cases hf : x.form with
  | inf =>
    unfold BigFloat.datum at hd
    rw [hf] at hd
    cases hd
  | zero =>
    unfold BigFloat.datum at hd
    rw [hf] at hd
    injection hd with h1 h2
    subst h1 h2
    have h0 : NormalDec [] 0 := ⟨by simp, by simp, by simp, fun _ => rfl⟩
    refine ⟨[], 0, h0, ?_, by simp, by simp, by simp⟩
    unfold BigFloat.textG
    simp only [hf, hsign]
    exact bigFmtG_eq x.neg h0 hn (by simp)
  | finite =>
    rw [BigFloat.datum_finite hf] at hd
    injection hd with h1 h2
    subst h1 h2
    have hm := hx.mant_pos hf
    obtain ⟨e1, e2⟩ := exactDecimal_spec hm.ne' (x.exp - bitLen x.mant)
    have hmag : x.mag = x.mant * (2 : ℚ) ^ (x.exp - bitLen x.mant) := by
      unfold BigFloat.mag
      rw [zpow_sub₀ (by norm_num), zpow_natCast]
      ring
    rw [← hmag] at e2
    have hpos : 0 < x.mag := by
      rw [hmag]
      have : (0 : ℚ) < x.mant := by exact_mod_cast hm
      positivity
    unfold BigFloat.textG
    simp only [hf, hsign]
    generalize exactDecimal x.mant (x.exp - bitLen x.mant) = p at e1 e2 ⊢
    obtain ⟨ds, dp⟩ := p
    have hne : ds ≠ [] := by
      rintro rfl
      have : decValue [] dp = 0 := by simp [decValue]
      rw [this] at e2
      exact hpos.ne e2
    obtain ⟨r1, r2, r3, r4⟩ := round_digits (d := ⟨ds, dp, false, false⟩) e1 rfl hne (n := n) hn
    rw [roundDecimal_eq]
    refine ⟨_, _, r1, bigFmtG_eq x.neg r1 hn r3, r3, iff_of_false r2 hpos.ne', fun _ => ?_⟩
    rw [← e2]
    exact r4

/-! ### Reading -/

theorem scanSign_minus (neg : Bool) {d : ℕ} (hd : d < 10) (t : Text) : scanSign (minus neg ++ dchar d :: t) = (neg, dchar d :: t) := by
  cases neg
  · show scanSign (dchar d :: t) = _
    interval_cases d <;> rfl
  · rfl

theorem scanDecimal_layout (neg : Bool) {I F : List ℕ} (hI : ∀ d ∈ I, d < 10) (hF : ∀ d ∈ F, d < 10) (hne : I ≠ []) :
    scanDecimal (minus neg ++ I.map dchar ++ pointed (F.map dchar)) = some ⟨neg, dv (I ++ F), F.length, 0⟩ ∧
    ∀ e : ℤ, scanDecimal (minus neg ++ I.map dchar ++ pointed (F.map dchar) ++ expText 'e' e) = some ⟨neg, dv (I ++ F), F.length, e⟩ := by
  have hscan : ∀ {l : List ℕ}, (∀ d ∈ l, d < 10) → ∀ (rest : Text), (∀ c ∈ rest.head?, digitVal 10 c = none) → ∀ acc n,
      scanDigits 10 (l.map dchar ++ rest) acc n = (digsVal 10 acc l, n + l.length, rest) := by
    intro l hl rest hr acc n
    rw [← map_digitChar hl]
    exact scanDigits_append l (by simpa using hl) rest hr acc n
  have main : ∀ tail : Text, (∀ c ∈ tail.head?, digitVal 10 c = none ∧ c ≠ '.') →
      ∃ n1 n2, n1 + n2 ≠ 0 ∧ n2 = F.length ∧ scanSign (minus neg ++ I.map dchar ++ pointed (F.map dchar) ++ tail) =
        (neg, I.map dchar ++ (pointed (F.map dchar) ++ tail)) ∧
      scanDigits 10 (I.map dchar ++ (pointed (F.map dchar) ++ tail)) 0 0 = (dv I, n1, pointed (F.map dchar) ++ tail) ∧
      scanFraction (dv I) (pointed (F.map dchar) ++ tail) = (dv (I ++ F), n2, tail) := by
    intro tail ht
    have hlen : I.length ≠ 0 := by simpa using hne
    refine ⟨I.length, F.length, by omega, rfl, ?_, ?_, ?_⟩
    · obtain ⟨d, I', rfl⟩ := List.exists_cons_of_ne_nil hne
      rw [List.append_assoc, List.append_assoc, List.map_cons, List.cons_append, scanSign_minus neg (hI d List.mem_cons_self)]
    · rw [hscan hI]
      · simp
      · unfold pointed
        split
        · rw [List.nil_append]
          exact fun c hc => (ht c hc).1
        · intro c hc
          simp at hc
          subst hc
          decide
    · rw [dv_append]
      unfold pointed
      by_cases h0 : F = []
      · subst h0
        rw [List.map_nil, if_pos rfl, List.nil_append]
        cases tail with
        | nil => simp [scanFraction, dv, digsVal]
        | cons c t =>
          have hc := (ht c (by simp)).2
          simp only [List.length_nil, pow_zero, mul_one, dv_nil, add_zero]
          unfold scanFraction
          split
          · rename_i heq
            injection heq with h1 h2
            exact absurd h1 hc
          · rfl
      · rw [if_neg (by simpa using h0), List.cons_append]
        show scanDigits 10 (F.map dchar ++ tail) (dv I) 0 = _
        rw [hscan hF tail (fun c hc => (ht c hc).1), digsVal_acc 10 F, zero_add]
  constructor
  · obtain ⟨n1, n2, h0, h1, h2, h3, h4⟩ := main [] (by simp)
    rw [List.append_nil] at h2
    unfold scanDecimal
    rw [h2]
    dsimp only
    rw [h3]
    dsimp only
    rw [h4]
    dsimp only
    rw [if_neg h0, h1]
  · intro e
    obtain ⟨n1, n2, h0, h1, h2, h3, h4⟩ := main (expText 'e' e) (by
      unfold expText
      simp
      decide)
    unfold scanDecimal
    rw [h2]
    dsimp only
    rw [h3]
    dsimp only
    rw [h4]
    dsimp only
    rw [if_neg h0, h1]
    unfold expText
    have hs : scanSign ((if e < 0 then '-' else '+') :: (expDigits e.natAbs).map dchar) = (decide (e < 0), (expDigits e.natAbs).map dchar) := by
      by_cases he : e < 0
      · rw [if_pos he, decide_eq_true he]; rfl
      · rw [if_neg he, decide_eq_false he]; rfl
    generalize (if e < 0 then '-' else '+') :: (expDigits e.natAbs).map dchar = t at hs ⊢
    change (if (scanDigits 10 (scanSign t).2 0 0).2.1 = 0 ∨ (scanDigits 10 (scanSign t).2 0 0).2.2 ≠ [] then (none : Option Scanned)
      else some { neg := neg, mant := dv (I ++ F), frac := F.length,
                  exp := if (scanSign t).1 = true then -((scanDigits 10 (scanSign t).2 0 0).1 : ℤ) else (scanDigits 10 (scanSign t).2 0 0).1 } : Option Scanned) = _
    rw [hs]
    dsimp only
    have := hscan (expDigits_lt e.natAbs) [] (by simp) 0 0
    rw [List.append_nil] at this
    rw [this]
    dsimp only
    have hl := expDigits_length e.natAbs
    rw [if_neg (by
      rintro (h | h)
      · omega
      · exact h rfl)]
    have hv : digsVal 10 0 (expDigits e.natAbs) = e.natAbs := dv_expDigits _
    rw [hv]
    congr 2
    by_cases he : e < 0
    · rw [decide_eq_true he, if_pos rfl]; omega
    · rw [decide_eq_false he, if_neg (by simp)]; omega

/-- What `SetString` reads in a text of `Text('g', n)`. -/
theorem scanDecimal_gText' (neg : Bool) {ds : List ℕ} {dp : ℤ} (h : NormalDec ds dp) {n : ℕ} (hl : ds.length ≤ n) :
    ∃ r, scanDecimal (gText neg n ds dp) = some r ∧ r.neg = neg ∧ (r.mant : ℚ) * 10 ^ (r.exp - r.frac) = decValue ds dp ∧
      r.mant < 10 ^ n ∧ min (dp - ds.length) 0 ≤ r.exp - r.frac ∧ dp - n ≤ r.exp - r.frac ∧ r.exp - r.frac ≤ max dp 0 := by
  unfold gText
  by_cases hc : dp - 1 < -4 ∨ dp - 1 ≥ (if n > ds.length ∧ (ds.length : ℤ) ≥ dp then (ds.length : ℤ) else n)
  · rw [if_pos hc]
    have hlay := (scanDecimal_layout neg (I := [ds.getD 0 0]) (F := fracE ds ((ds.length : ℤ) - 1)) (by simpa using getD_lt h.digit 0)
      (fracE_lt h.digit _) (by simp)).2 (expOf ds dp)
    have hne : ds ≠ [] := by
      intro h0
      have := h.zero h0
      subst h0
      subst this
      simp only [List.length_nil, Nat.cast_zero] at hc
      have : ¬ ((0 : ℤ) - 1 ≥ if n > 0 ∧ (0 : ℤ) ≥ 0 then (0 : ℤ) else n) := by split <;> omega
      omega
    have hlen : 1 ≤ ds.length := List.length_pos_iff.2 hne
    have hdv : dv ([ds.getD 0 0] ++ fracE ds ((ds.length : ℤ) - 1)) = dv (padTake ds ds.length) := by
      rw [List.singleton_append, fracE_cons, show ((ds.length : ℤ) - 1).toNat + 1 = ds.length by omega]
    have hx : expOf ds dp = dp - 1 := by
      unfold expOf
      rw [if_neg (by omega)]
    rw [hdv, hx] at hlay
    unfold sciText
    rw [hx]
    refine ⟨_, hlay, rfl, ?_, ?_, ?_, ?_, ?_⟩
    · rw [← padTake_value (le_refl ds.length)]
      simp only [fracE_length]
      congr 2
      omega
    · refine (dv_lt (padTake_lt h.digit _)).trans_le ?_
      rw [padTake_length]
      exact Nat.pow_le_pow_right (by norm_num) hl
    · simp only [fracE_length]
      omega
    · simp only [fracE_length]
      omega
    · simp only [fracE_length]
      omega
  · rw [if_neg hc]
    have hlay := (scanDecimal_layout neg (I := intF ds dp) (F := fracF ds dp (max ((ds.length : ℤ) - dp) 0)) (intF_lt h.digit dp)
      (fracF_lt h.digit dp _) (intF_ne_nil ds dp)).1
    have hdn : dp ≤ n := by
      by_contra h3
      apply hc
      right
      split <;> omega
    rw [f_digits ds dp _ (by omega) (le_max_right _ _)] at hlay
    refine ⟨_, hlay, rfl, ?_, ?_, ?_, ?_, ?_⟩
    · rw [← padTake_value (n := (dp + max ((ds.length : ℤ) - dp) 0).toNat) (by omega)]
      simp only [fracF_length]
      congr 2
      omega
    · refine (dv_lt (padTake_lt h.digit _)).trans_le ?_
      rw [padTake_length]
      exact Nat.pow_le_pow_right (by norm_num) (by omega)
    · simp only [fracF_length]
      omega
    · simp only [fracF_length]
      omega
    · simp only [fracF_length]
      omega

theorem scanDecimal_gText (neg : Bool) {ds : List ℕ} {dp : ℤ} (h : NormalDec ds dp) {n : ℕ} (hl : ds.length ≤ n) :
    ∃ r, scanDecimal (gText neg n ds dp) = some r ∧ r.neg = neg ∧ (r.mant : ℚ) * 10 ^ (r.exp - r.frac) = decValue ds dp ∧
      r.mant < 10 ^ n ∧ dp - n ≤ r.exp - r.frac ∧ r.exp - r.frac ≤ max dp 0 := by
  obtain ⟨r, h1, h2, h3, h4, -, h5, h6⟩ := scanDecimal_gText' neg h hl
  exact ⟨r, h1, h2, h3, h4, h5, h6⟩

end GoFloat
