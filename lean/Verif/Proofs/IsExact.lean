import Verif.Spec.PrintsAs
import Verif.Model.Float
import Verif.Spec.Exact
import Verif.Props.TrimZeros
import Verif.Props.FtoaLayout
/-
The texts compared by IsExact16, IsExact32 and IsExact64 of float.go.
-/
namespace GoFloat
open Spec Strconv

/-- `math/big` rounds a decimal like the decimal of package strconv. -/
theorem roundDecimal_eq (ds : List ℕ) (dp : ℤ) (n : ℕ) :
    roundDecimal (ds, dp) n = ((Decimal.round ⟨ds, dp, false, false⟩ n).d, (Decimal.round ⟨ds, dp, false, false⟩ n).dp) := by
  unfold roundDecimal Decimal.round
  have hnd : Decimal.nd ⟨ds, dp, false, false⟩ = ds.length := rfl
  simp only [hnd]
  by_cases h : n ≥ ds.length
  · rw [if_pos h, if_pos (Or.inr (by exact_mod_cast h))]
  · have hn : ¬ ((n : ℤ) < 0 ∨ (n : ℤ) ≥ ds.length) := by omega
    rw [if_neg h, if_neg hn]
    have hup : shouldRoundUp ⟨ds, dp, false, false⟩ n = (if ds.getD n 0 = 5 ∧ n + 1 = ds.length then decide (n > 0) && ds.getD (n - 1) 0 % 2 != 0
        else decide (ds.getD n 0 ≥ 5)) := by
      unfold shouldRoundUp
      rw [hnd, if_neg hn]
      simp
    rw [← hup]
    by_cases hu : shouldRoundUp ⟨ds, dp, false, false⟩ n = true
    · rw [if_pos hu, if_pos hu]
      unfold Decimal.roundUp
      rw [hnd, if_neg hn]
      simp only [Int.toNat_natCast]
      cases roundUpDigits (ds.take n) <;> rfl
    · rw [if_neg hu, if_neg hu]
      unfold Decimal.roundDown
      rw [hnd, if_neg hn]
      rfl

theorem exactDecimal_spec {mant : ℕ} (hm : mant ≠ 0) (e : ℤ) :
    NormalDec (exactDecimal mant e).1 (exactDecimal mant e).2 ∧ decValue (exactDecimal mant e).1 (exactDecimal mant e).2 = mant * (2 : ℚ) ^ e := by
  unfold exactDecimal
  set n : ℕ := if 0 ≤ e then mant * 2 ^ e.toNat else mant * 5 ^ (-e).toNat with hn
  set dp : ℤ := if 0 ≤ e then ((digitsOf 10 n).length : ℤ) else (digitsOf 10 n).length + e with hdp
  have hn0 : n ≠ 0 := by
    rw [hn]
    split <;> positivity
  have hdg := digitsOf_eq (b := 10) (by norm_num) n hn0
  have hhead : (digitsOf 10 n).head? ≠ some 0 := by rw [hdg]; exact dg_head_ne hn0
  have hval : decValue (digitsOf 10 n) dp = mant * (2 : ℚ) ^ e := by
    rw [decValue_eq]
    have hdv : dv (digitsOf 10 n) = n := (digitsOf_spec (by norm_num) n).1
    rw [hdv, hdp, hn]
    by_cases he : 0 ≤ e
    · rw [if_pos he, if_pos he, sub_self, zpow_zero, mul_one]
      push_cast
      rw [← zpow_natCast, Int.toNat_of_nonneg he]
    · rw [if_neg he, if_neg he]
      push_cast
      rw [add_sub_cancel_left, ← zpow_natCast, Int.toNat_of_nonneg (by omega), mul_assoc, show (10 : ℚ) = 5 * 2 by norm_num, mul_zpow, ← mul_assoc ((5 : ℚ) ^ (-e)),
        ← zpow_add₀ (by norm_num), neg_add_cancel, zpow_zero, one_mul]
  have hne : dropTrailingZeros (digitsOf 10 n) ≠ [] := by
    intro h
    have := dtz_zero_iff h
    rw [show dv (digitsOf 10 n) = n from (digitsOf_spec (by norm_num) n).1] at this
    exact hn0 this
  refine ⟨⟨fun d hd => (digitsOf_spec (by norm_num) n).2.1 d (dtz_mem hd), dtz_head hhead, ?_, fun h => absurd h hne⟩, ?_⟩
  · obtain ⟨k, -, h⟩ := dtz_spec (digitsOf 10 n)
    exact h
  · show decValue (dropTrailingZeros (digitsOf 10 n)) dp = _
    rw [dtz_value, hval]

theorem digitChar_dchar {d : ℕ} (h : d < 10) : digitChar d = dchar d := by
  interval_cases d <;> decide

theorem map_digitChar {ds : List ℕ} (h : ∀ d ∈ ds, d < 10) : ds.map digitChar = ds.map dchar :=
  List.map_congr_left fun d hd => digitChar_dchar (h d hd)

/-- A number in scientific notation, with any exponent. -/
def sciText (neg : Bool) (ds : List ℕ) (dp : ℤ) (prec : ℤ) : Text :=
  minus neg ++ [dchar (ds.getD 0 0)] ++ pointed ((fracE ds prec).map dchar) ++ expText 'e' (expOf ds dp)

theorem bigFmtE_eq (neg : Bool) {ds : List ℕ} (hd : ∀ d ∈ ds, d < 10) (dp : ℤ) {prec : ℕ} (hp : 0 < prec) :
    minus neg ++ bigFmtE prec (ds, dp) = sciText neg ds dp prec := by
  unfold bigFmtE sciText expText
  have hfrac : ((ds.take (prec + 1)).drop 1).map digitChar ++ List.replicate (prec - (((ds.take (prec + 1)).drop 1).map digitChar).length) '0' =
      (fracE ds prec).map dchar := by
    rw [map_digitChar (fun d h => hd d (List.mem_of_mem_take (List.mem_of_mem_drop h))), List.length_map, show '0' = dchar 0 by decide, ← List.map_replicate,
      ← List.map_append]
    congr 1
    have e := fracE_cons ds prec
    rw [Int.toNat_natCast] at e
    rcases le_total ds.length (prec + 1) with hle | hle
    · rw [padTake_zeros hle] at e
      rw [List.take_of_length_le hle, List.length_drop]
      cases ds with
      | nil =>
        have e2 := congrArg (List.drop 1) e
        simp only [List.drop_one, List.tail_cons, List.nil_append, List.length_nil, Nat.sub_zero, List.replicate_succ] at e2
        simp [e2]
      | cons d ds' =>
        rw [List.cons_append, List.cons.injEq] at e
        rw [e.2, List.drop_one, List.tail_cons]
        congr 2
        simp
    · rw [padTake_take hle] at e
      rw [← e, List.drop_one, List.tail_cons, fracE_length]
      simp
  have hne : (fracE ds prec).map dchar ≠ [] := by
    intro h
    have := congrArg List.length h
    rw [List.length_map, fracE_length] at this
    simp at this
    omega
  have hexp : ∀ e : ℕ, (if e < 10 then ['0'] else []) ++ fmtNat 10 e = (expDigits e).map dchar := by
    intro e
    unfold expDigits fmtNat
    by_cases h0 : e = 0
    · subst h0
      decide
    · rw [if_neg h0, digitsOf_eq (by norm_num) e h0, map_digitChar (dg_lt (by norm_num) e)]
      by_cases h1 : e < 10
      · rw [if_pos h1, if_pos h1, dg_small h1]
        rfl
      · rw [if_neg h1, if_neg h1]
        rfl
  dsimp only
  rw [if_pos hp, List.cons_append (a := '.'), hfrac]
  have hx : (if ds.length = 0 then 0 else dp - 1) = expOf ds dp := rfl
  rw [hx, digitChar_dchar (getD_lt hd 0)]
  unfold pointed
  rw [if_neg hne]
  have := hexp (expOf ds dp).natAbs
  simp only [List.cons_append, List.append_assoc, List.nil_append, this]

theorem fmtE_sci (neg : Bool) {ds : List ℕ} (hd : ∀ d ∈ ds, d < 10) (dp : ℤ) (x : Bool) (prec : ℤ)
    (he : (expOf ds dp).natAbs < 1000) : fmtE neg ⟨ds.map (· + 48), dp, x⟩ prec 'e' = sciText neg ds dp prec :=
  fmtE_eq neg hd dp x prec 'e' he

/-- Zeros at the end of a fraction are what distinguishes two precisions. -/
theorem fracE_zeros (ds : List ℕ) {p : ℕ} (h : ds.length ≤ p + 1) :
    ∃ k, (fracE ds p).map dchar = (fracE ds ((ds.length : ℤ) - 1)).map dchar ++ List.replicate k '0' := by
  refine ⟨p - (ds.length - 1), ?_⟩
  rw [show '0' = dchar 0 by decide, ← List.map_replicate, ← List.map_append]
  congr 1
  apply List.ext_getElem
  · rw [List.length_append, fracE_length, fracE_length, List.length_replicate]
    omega
  · intro i h1 h2
    rw [fracE_length] at h1
    simp only [fracE, List.getElem_map, List.getElem_range]
    by_cases hi : i < ((ds.length : ℤ) - 1).toNat
    · rw [List.getElem_append_left (by simpa using hi)]
      simp
    · rw [List.getElem_append_right (by simpa using hi), List.getElem_replicate, List.getD_eq_getElem?_getD, List.getElem?_eq_none (by omega)]
      rfl

theorem strip_unique {a b : Text} {j k : ℕ} (h : a ++ List.replicate j '0' = b ++ List.replicate k '0') (ha : a.getLast? ≠ some '0') (hb : b.getLast? ≠ some '0') :
    a = b := by
  have key : ∀ {a b : Text} {j k : ℕ}, a ++ List.replicate j '0' = b ++ List.replicate k '0' → a.getLast? ≠ some '0' → j ≤ k → a = b ∨ j < k := by
    intro a b j k _ _ hjk
    rcases Nat.lt_or_ge j k with h | h
    · exact Or.inr h
    · left
      have : j = k := by omega
      subst this
      exact List.append_cancel_right ‹_›
  have main : ∀ {a b : Text} {j k : ℕ}, a ++ List.replicate j '0' = b ++ List.replicate k '0' → a.getLast? ≠ some '0' → j < k → False := by
    intro a b j k h ha hjk
    obtain ⟨i, rfl⟩ : ∃ i, k = (i + 1) + j := ⟨k - j - 1, by omega⟩
    rw [List.replicate_add, ← List.append_assoc] at h
    have h' := List.append_cancel_right h
    apply ha
    rw [h', List.replicate_succ', ← List.append_assoc, List.getLast?_append]
    rfl
  rcases Nat.lt_trichotomy j k with hjk | hjk | hjk
  · exact (main h ha hjk).elim
  · subst hjk
    exact List.append_cancel_right h
  · exact (main h.symm hb hjk).elim

theorem sciText_scientific (neg : Bool) {ds : List ℕ} (hd : ∀ d ∈ ds, d < 10) (dp prec : ℤ) :
    IsScientific (sciText neg ds dp prec) neg (dchar (ds.getD 0 0)) ((fracE ds prec).map dchar) (decide (expOf ds dp < 0)) ((expDigits (expOf ds dp).natAbs).map dchar) := by
  refine ⟨?_, ?_, by rw [List.length_map]; exact expDigits_length _⟩
  · unfold sciText minus pointed expText
    simp
  · intro c hc
    simp only [List.cons_append, List.mem_cons, List.mem_append] at hc
    rcases hc with rfl | hc | hc
    · exact dchar_range (getD_lt hd 0)
    · obtain ⟨d, h1, rfl⟩ := List.mem_map.1 hc
      exact dchar_range (fracE_lt hd prec d h1)
    · obtain ⟨d, h1, rfl⟩ := List.mem_map.1 hc
      exact dchar_range (expDigits_lt _ d h1)

/-- `trimZeros` on the digits of a number. -/
theorem trimZeros_sci (neg : Bool) {ds : List ℕ} {dp : ℤ} (h : NormalDec ds dp) {p : ℕ} (hp : 0 < p) (hl : ds.length ≤ p + 1) :
    trimZeros (sciText neg ds dp p) = .ok (sciText neg ds dp ((ds.length : ℤ) - 1)) := by
  have hsci := sciText_scientific neg h.digit dp p
  have hne : (fracE ds p).map dchar ≠ [] := by
    intro h
    have := congrArg List.length h
    rw [List.length_map, fracE_length] at this
    simp at this
    omega
  obtain ⟨t, h1, frac', h2, ⟨k, h3⟩, h4, -⟩ := C38_trimZeros_partial _ _ _ _ _ _ hsci (Or.inl hne)
  rw [h1]
  obtain ⟨j, hj⟩ := fracE_zeros ds hl
  rw [hj] at h3
  have := strip_unique h3 (fracE_last h) h4
  rw [h2.1, ← this]
  congr 1
  unfold sciText minus pointed expText
  simp

theorem sciText_read (neg : Bool) {ds : List ℕ} (hd : ∀ d ∈ ds, d < 10) (dp : ℤ) {prec : ℤ} (hl : ds.length ≤ prec.toNat + 1) :
    readDecimal (sciText neg ds dp prec) = some (neg, decValue ds dp) := by
  have hsci := sciText_scientific neg hd dp prec
  obtain ⟨n, x, h1, h2, h3⟩ := readDecimal_scientific hsci
  rw [h3]
  rw [← List.map_cons, fracE_cons, readNumeral_map (by norm_num) (padTake_lt hd _)] at h1
  rw [readNumeral_map (by norm_num) (expDigits_lt _)] at h2
  have e1 : dv (padTake ds (prec.toNat + 1)) = n := Option.some.inj h1
  have e2 : (expOf ds dp).natAbs = x := by
    rw [← Option.some.inj h2]
    exact (dv_expDigits _).symm
  congr 2
  rw [← e1, ← e2, List.length_map, fracE_length]
  have e3 : (if decide (expOf ds dp < 0) = true then -(((expOf ds dp).natAbs : ℕ) : ℤ) else ((expOf ds dp).natAbs : ℕ)) = expOf ds dp := by
    simp only [decide_eq_true_eq]
    split <;> omega
  rw [e3]
  by_cases hne : ds = []
  · subst hne
    have hz : dv (padTake [] (prec.toNat + 1)) = 0 := by
      rw [padTake_zeros (by simp)]
      simp [dv_zeros]
    rw [hz]
    simp [decValue]
  · rw [← padTake_value hl]
    congr 2
    unfold expOf
    rw [if_neg (by simpa using hne)]
    push_cast
    ring

/-- Texts of normal digits are equal exactly if the numbers are. -/
theorem sciText_inj {s s' : Bool} {ds ds' : List ℕ} {dp dp' : ℤ} (h : NormalDec ds dp) (h' : NormalDec ds' dp') :
    sciText s ds dp ((ds.length : ℤ) - 1) = sciText s' ds' dp' ((ds'.length : ℤ) - 1) ↔ s = s' ∧ decValue ds dp = decValue ds' dp' := by
  constructor
  · intro he
    have := congrArg readDecimal he
    rw [sciText_read s h.digit dp (by omega), sciText_read s' h'.digit dp' (by omega)] at this
    injection this with this
    injection this with h1 h2
    exact ⟨h1, h2⟩
  · rintro ⟨rfl, he⟩
    obtain ⟨rfl, rfl⟩ := normal_unique h h' he
    rfl

/-- What `IsExact…` compares with: the number rounded to 101 digits. -/
theorem textE_spec {x : BigFloat} (hx : x.WF) {s : Bool} {m : ℚ} (hd : x.datum = .num s m) :
    ∃ ds dp, NormalDec ds dp ∧ trimZeros (x.textE 100) = .ok (sciText s ds dp ((ds.length : ℤ) - 1)) ∧ (ds = [] ↔ m = 0) ∧
      (m ≠ 0 → RoundedDigits 101 m (decValue ds dp)) := by
  have hsign : ∀ b : Bool, (if b = true then ['-'] else []) = minus b := fun b => rfl
  cases hf : x.form with
  | inf =>
    unfold BigFloat.datum at hd
    rw [hf] at hd
    cases hd
  | zero =>
    unfold BigFloat.datum at hd
    rw [hf] at hd
    injection hd with h1 h2
    subst h1 h2
    refine ⟨[], 0, ⟨by simp, by simp, by simp, fun _ => rfl⟩, ?_, by simp, by simp⟩
    unfold BigFloat.textE
    simp only [hf, hsign]
    rw [bigFmtE_eq x.neg (by simp) 0 (by norm_num)]
    exact trimZeros_sci x.neg ⟨by simp, by simp, by simp, fun _ => rfl⟩ (by norm_num) (by simp)
  | finite =>
    rw [BigFloat.datum_finite hf] at hd
    injection hd with h1 h2
    subst h1 h2
    have hm := hx.mant_pos hf
    obtain ⟨e1, e2⟩ := exactDecimal_spec hm.ne' (x.exp - bitLen x.mant)
    have hmag : x.mag = x.mant * (2 : ℚ) ^ (x.exp - bitLen x.mant) := by
      unfold BigFloat.mag
      rw [zpow_sub₀ (by norm_num), zpow_natCast]
      ring
    rw [← hmag] at e2
    have hpos : 0 < x.mag := by
      rw [hmag]
      have : (0 : ℚ) < x.mant := by exact_mod_cast hm
      positivity
    unfold BigFloat.textE
    simp only [hf, hsign]
    generalize exactDecimal x.mant (x.exp - bitLen x.mant) = p at e1 e2 ⊢
    obtain ⟨ds, dp⟩ := p
    have hne : ds ≠ [] := by
      rintro rfl
      have : decValue [] dp = 0 := by simp [decValue]
      rw [this] at e2
      exact hpos.ne e2
    obtain ⟨r1, r2, r3, r4⟩ := round_digits (d := ⟨ds, dp, false, false⟩) e1 rfl hne (n := 101) (by norm_num)
    rw [roundDecimal_eq]
    refine ⟨_, _, r1, ?_, iff_of_false r2 hpos.ne', fun _ => ?_⟩
    · rw [bigFmtE_eq x.neg r1.digit _ (by norm_num)]
      exact trimZeros_sci x.neg r1 (by norm_num) r3
    · rw [← e2]
      exact r4

/-- What `IsExact…` compares: the shortest decimal. -/
theorem short_e {W : ℕ} (hW : W = 32 ∨ W = 64) {F : Format} {size : ℤ} (hS : SizeOf F size) {c : ℕ} {s : Bool} {m : ℚ} (hc : F.decode c = .num s m) {val : F64}
    (hd : double.decode val.toNat = .num s m) :
    ∃ ds dp, NormalDec ds dp ∧ formatFloat W val 'e' (-1) size = .ok (sciText s ds dp ((ds.length : ℤ) - 1)) ∧ (ds = [] ↔ m = 0) ∧
      F.RoundsTo s (decValue ds dp) c ∧ (∀ n y, FitsDigits n y → F.RoundsTo s y c → ds.length ≤ n) ∧
      ((∀ y, FitsDigits ds.length y → F.RoundsTo s y c → |decValue ds dp - m| ≤ |y - m|) ∨ c % 2 = 1 ∧ (2 : ℚ) ^ (F.t + 1) ≤ m) := by
  obtain ⟨ds, dp, x, h1, h2, h3, h4, h5, h6, h7⟩ := short_text hW hS (fmt := 'e') (by simp [DecimalFormat]) (prec := -1) (by norm_num) true hc hd
  refine ⟨ds, dp, h1, ?_, h2, h3, h6, h7.imp_right fun h => ⟨h.1, h.2.1⟩⟩
  unfold formatFloat
  rw [h5]
  congr 1
  have : shortPrec 'e' ds.length dp = (ds.length : ℤ) - 1 := rfl
  rw [this]
  exact fmtE_sci s h1.digit dp x _ h4

/-- Two numbers of `d` digits are not closer than this. -/
theorem digits_apart {d : ℕ} {a b : ℚ} (ha : FitsDigits d a) (hb : FitsDigits d b) (hne : a ≠ b) : a ≤ |a - b| * 10 ^ d := by
  obtain ⟨M, e, hM, rfl⟩ := ha
  obtain ⟨N, f, hN, rfl⟩ := hb
  have hMq : (M : ℚ) ≤ 10 ^ d := by exact_mod_cast hM.le
  have hNq : (N : ℚ) + 1 ≤ 10 ^ d := by exact_mod_cast hN
  have hd1 : (1 : ℚ) ≤ 10 ^ d := one_le_pow₀ (by norm_num)
  have key : ∀ (z : ℤ) (g : ℤ), (z : ℚ) * (10 : ℚ) ^ g ≠ 0 → (10 : ℚ) ^ g ≤ |(z : ℚ) * (10 : ℚ) ^ g| := by
    intro z g hz
    rw [abs_mul, abs_of_pos (by positivity : (0 : ℚ) < (10 : ℚ) ^ g)]
    have : z ≠ 0 := by
      rintro rfl
      simp at hz
    have : (1 : ℚ) ≤ |(z : ℚ)| := by exact_mod_cast Int.one_le_abs this
    nlinarith [(by positivity : (0 : ℚ) < (10 : ℚ) ^ g)]
  have hsub := sub_ne_zero.2 hne
  have he0 : (0 : ℚ) < (10 : ℚ) ^ e := by positivity
  have hf0 : (0 : ℚ) < (10 : ℚ) ^ f := by positivity
  rcases le_total e f with hef | hef
  · obtain ⟨k, rfl⟩ : ∃ k : ℕ, f = e + k := ⟨(f - e).toNat, by omega⟩
    have h1 : (M : ℚ) * (10 : ℚ) ^ e - N * (10 : ℚ) ^ (e + (k : ℤ)) = ((M - N * 10 ^ k : ℤ) : ℚ) * (10 : ℚ) ^ e := by
      rw [zpow_add₀ (by norm_num), zpow_natCast]
      push_cast
      ring
    rw [h1] at hsub ⊢
    have := key _ _ hsub
    calc (M : ℚ) * (10 : ℚ) ^ e ≤ 10 ^ d * (10 : ℚ) ^ e := by gcongr
      _ = (10 : ℚ) ^ e * 10 ^ d := by ring
      _ ≤ _ := by gcongr
  · obtain ⟨k, rfl⟩ : ∃ k : ℕ, e = f + k := ⟨(e - f).toNat, by omega⟩
    have h1 : (M : ℚ) * (10 : ℚ) ^ (f + (k : ℤ)) - N * (10 : ℚ) ^ f = ((M * 10 ^ k - N : ℤ) : ℚ) * (10 : ℚ) ^ f := by
      rw [zpow_add₀ (by norm_num), zpow_natCast]
      push_cast
      ring
    have h2 := key _ _ (by rw [← h1]; exact hsub)
    rw [← h1] at h2
    set a := (M : ℚ) * (10 : ℚ) ^ (f + (k : ℤ)) with ha
    by_cases hU : a ≤ 10 ^ d * (10 : ℚ) ^ f
    · calc a ≤ 10 ^ d * (10 : ℚ) ^ f := hU
        _ = (10 : ℚ) ^ f * 10 ^ d := by ring
        _ ≤ _ := by gcongr
    · push Not at hU
      have h3 : a - N * (10 : ℚ) ^ f ≤ |a - N * (10 : ℚ) ^ f| := le_abs_self _
      have h4 : (N : ℚ) * (10 : ℚ) ^ f ≤ (10 ^ d - 1) * (10 : ℚ) ^ f := by
        have : (N : ℚ) ≤ 10 ^ d - 1 := by linarith
        gcongr
      have h5 : (a - 10 ^ d * (10 : ℚ) ^ f + (10 : ℚ) ^ f) * 10 ^ d ≤ |a - N * (10 : ℚ) ^ f| * 10 ^ d := by
        gcongr
        linarith
      nlinarith

/-- A binary fraction that has few decimal digits is not small. -/
theorem dyadic_digits {d : ℕ} {N : ℕ} {q : ℤ} (hN : N ≠ 0) (h : FitsDigits d ((N : ℚ) * (2 : ℚ) ^ q)) : 1 ≤ (N : ℚ) * (2 : ℚ) ^ q * 10 ^ d := by
  obtain ⟨D, e, hD, he⟩ := h
  have hNq : (1 : ℚ) ≤ N := by exact_mod_cast Nat.one_le_iff_ne_zero.2 hN
  have hpos : (0 : ℚ) < (N : ℚ) * (2 : ℚ) ^ q := by positivity
  have hD0 : 1 ≤ D := by
    rcases Nat.eq_zero_or_pos D with h | h
    · rw [h, Nat.cast_zero, zero_mul] at he
      exact absurd he hpos.ne'
    · exact h
  have hd1 : (1 : ℚ) ≤ 10 ^ d := one_le_pow₀ (by norm_num)
  rcases le_or_gt 0 e with h0 | h0
  · rw [he]
    have : (1 : ℚ) ≤ (10 : ℚ) ^ e := one_le_zpow₀ (by norm_num) h0
    have hDq : (1 : ℚ) ≤ D := by exact_mod_cast hD0
    nlinarith [mul_le_mul hDq this (by norm_num) (by linarith)]
  · obtain ⟨j, rfl⟩ : ∃ j : ℕ, e = -(j : ℤ) := ⟨(-e).toNat, by omega⟩
    have hdvd : 5 ^ j ∣ D := by
      have hcop : Nat.Coprime (5 ^ j) (2 ^ (-q).toNat) := Nat.Coprime.pow _ _ (by decide)
      refine hcop.dvd_of_dvd_mul_right ⟨N * 2 ^ q.toNat * 2 ^ j, ?_⟩
      have h2 : (2 : ℚ) ^ q = 2 ^ q.toNat / 2 ^ (-q).toNat := by
        rw [eq_div_iff (by positivity), ← zpow_natCast, ← zpow_natCast, ← zpow_add₀ (by norm_num)]
        congr 1
        omega
      rw [h2, zpow_neg, zpow_natCast] at he
      field_simp at he
      have h3 : (D : ℚ) * 2 ^ (-q).toNat = 5 ^ j * (N * 2 ^ q.toNat * 2 ^ j) := by
        rw [← mul_comm (2 ^ (-q).toNat : ℚ) D, ← he, show (10 : ℚ) = 5 * 2 by norm_num, mul_pow]
        ring
      exact_mod_cast h3
    have h5 : 5 ^ j ≤ D := Nat.le_of_dvd hD0 hdvd
    have h25 : 2 ^ j ≤ 10 ^ d := le_trans (Nat.pow_le_pow_left (by norm_num) j) (le_trans h5 hD.le)
    have h5q : (5 : ℚ) ^ j ≤ D := by exact_mod_cast h5
    have h25q : (2 : ℚ) ^ j ≤ 10 ^ d := by exact_mod_cast h25
    rw [he, zpow_neg, zpow_natCast]
    have : (1 : ℚ) = 5 ^ j * ((10 : ℚ) ^ j)⁻¹ * 2 ^ j := by
      rw [show (10 : ℚ) = 5 * 2 by norm_num, mul_pow]
      field_simp
    rw [this]
    gcongr

variable {F : Format} {n k N : ℕ}

theorem interval_width (hs : Split F n k N) (hN : N ≠ 0) {q : ℚ} (hi : InInterval F n q) : |q - F.magc n| ≤ (2 : ℚ) ^ (F.qmin + k - 1) := by
  have hn0 : n ≠ 0 := fun hc => hN (hs.zero_iff.2 hc)
  have h1 := (hi.1 hn0).1
  have h2 := hi.2.1
  have hp : (0 : ℚ) < (2 : ℚ) ^ (F.qmin + k - 2) := by positivity
  have e1 := two_zpow_pred (F.qmin + k)
  have e2 := two_zpow_pred (F.qmin + k - 1)
  rw [show F.qmin + (k : ℤ) - 1 - 1 = F.qmin + k - 2 by ring] at e2
  rw [hs.lower_mid (Nat.pos_of_ne_zero hN)] at h1
  rw [hs.upper_mid] at h2
  rw [hs.value, abs_le, e1]
  constructor
  · split at h1
    · linarith
    · rw [e2]
      linarith
  · linarith

theorem near_interval (hs : Split F n k N) (hN : N ≠ 0) {y : ℚ} (h : |y - F.magc n| * 2 ^ (F.t + 2) < F.magc n) : InInterval F n y := by
  have hp : (0 : ℚ) < (2 : ℚ) ^ (F.qmin + k - 2) := by positivity
  have e1 := two_zpow_pred (F.qmin + k)
  have e2 := two_zpow_pred (F.qmin + k - 1)
  rw [show F.qmin + (k : ℤ) - 1 - 1 = F.qmin + k - 2 by ring] at e2
  have hNq : (N : ℚ) ≤ 2 ^ (F.t + 1) := by exact_mod_cast hs.lt.le
  have ht : (0 : ℚ) < 2 ^ F.t := by positivity
  rw [hs.value] at h
  have hw : |y - N * (2 : ℚ) ^ (F.qmin + k)| < (2 : ℚ) ^ (F.qmin + k - 1) := by
    by_contra hc
    push Not at hc
    have : (2 : ℚ) ^ (F.qmin + k - 1) * 2 ^ (F.t + 2) ≤ |y - N * (2 : ℚ) ^ (F.qmin + k)| * 2 ^ (F.t + 2) := by gcongr
    have h3 : (N : ℚ) * (2 : ℚ) ^ (F.qmin + k) ≤ 2 ^ (F.t + 1) * (2 : ℚ) ^ (F.qmin + k) := by gcongr
    have h4 : (2 : ℚ) ^ (F.t + 1) * (2 : ℚ) ^ (F.qmin + k) = (2 : ℚ) ^ (F.qmin + k - 1) * 2 ^ (F.t + 2) := by
      rw [e1, pow_succ _ (F.t + 1)]
      ring
    linarith
  have hlow : F.magc (n - 1) + F.magc n < 2 * y := by
    rw [hs.lower_mid (Nat.pos_of_ne_zero hN)]
    split
    · have := (abs_lt.1 hw).1
      rw [e1] at this
      linarith
    · rename_i hc
      push Not at hc
      have hN2 : N = 2 ^ F.t := by
        have := hs.norm.resolve_left hc.2
        omega
      have hN3 : (N : ℚ) = 2 ^ F.t := by exact_mod_cast hN2
      have h4 : |y - N * (2 : ℚ) ^ (F.qmin + k)| < (2 : ℚ) ^ (F.qmin + k - 2) := by
        by_contra hc
        push Not at hc
        have : (2 : ℚ) ^ (F.qmin + k - 2) * 2 ^ (F.t + 2) ≤ |y - N * (2 : ℚ) ^ (F.qmin + k)| * 2 ^ (F.t + 2) := by gcongr
        have h5 : (N : ℚ) * (2 : ℚ) ^ (F.qmin + k) = (2 : ℚ) ^ (F.qmin + k - 2) * 2 ^ (F.t + 2) := by
          rw [hN3, e1, e2, pow_add]
          ring
        linarith
      have := (abs_lt.1 h4).1
      rw [e1, e2] at this
      linarith
  have hup : 2 * y < F.magc n + F.magc (n + 1) := by
    rw [hs.upper_mid]
    have := (abs_lt.1 hw).2
    rw [e1] at this
    linarith
  exact ⟨fun _ => ⟨hlow.le, fun _ => hlow⟩, hup.le, fun _ => hup⟩

theorem rounded_near {j : ℕ} {m y : ℚ} (h : RoundedDigits j m y) : |y - m| * (2 * 10 ^ (j - 1)) ≤ m := by
  obtain ⟨M, e, h1, -, ⟨h3, -⟩, rfl⟩ := h
  have he : (0 : ℚ) < (10 : ℚ) ^ e := by positivity
  have hm : m = m / (10 : ℚ) ^ e * (10 : ℚ) ^ e := by field_simp
  set u := m / (10 : ℚ) ^ e with hu
  rw [hm, show (M : ℚ) * (10 : ℚ) ^ e - u * (10 : ℚ) ^ e = -((u - M) * (10 : ℚ) ^ e) by ring, abs_neg, abs_mul, abs_of_pos he]
  have hp : (0 : ℚ) < 10 ^ (j - 1) := by positivity
  have h3' : |u - M| ≤ 1 / 2 := by exact_mod_cast h3
  calc |u - M| * (10 : ℚ) ^ e * (2 * 10 ^ (j - 1)) ≤ 1 / 2 * (10 : ℚ) ^ e * (2 * 10 ^ (j - 1)) := by gcongr
    _ = 10 ^ (j - 1) * (10 : ℚ) ^ e := by ring
    _ ≤ _ := by gcongr

theorem exists_rounded {N : ℕ} (hN : N ≠ 0) (q : ℤ) {j : ℕ} (hj : 1 ≤ j) : ∃ y, RoundedDigits j (N * (2 : ℚ) ^ q) y ∧ FitsDigits j y := by
  obtain ⟨e1, e2⟩ := exactDecimal_spec hN q
  generalize exactDecimal N q = p at e1 e2
  obtain ⟨ds, dp⟩ := p
  have hpos : (0 : ℚ) < (N : ℚ) * (2 : ℚ) ^ q := by
    have : (0 : ℚ) < N := by exact_mod_cast Nat.pos_of_ne_zero hN
    positivity
  have hne : ds ≠ [] := by
    rintro rfl
    have : decValue [] dp = 0 := by simp [decValue]
    simp only [this] at e2
    exact hpos.ne e2
  obtain ⟨r1, r2, r3, r4⟩ := round_digits (d := ⟨ds, dp, false, false⟩) e1 rfl hne hj
  refine ⟨_, by rw [← e2]; exact r4, dv _, _, lt_of_lt_of_le (dv_lt r1.digit) (Nat.pow_le_pow_right (by norm_num) r3), decValue_eq _ _⟩

/-- `j` digits are enough to identify a float. -/
theorem enough_digits (hF : GoFormat F) {c : ℕ} {s : Bool} {m : ℚ} (hc : F.decode c = .num s m) (hm : m ≠ 0) {j : ℕ} (hj : 2 ^ (F.t + 1) < 10 ^ (j - 1)) (hj1 : 1 ≤ j) :
    ∃ y, FitsDigits j y ∧ F.RoundsTo s y c := by
  obtain ⟨n, k, N, hs, rfl, d1, d2, hz⟩ := value_split hF hc
  have hb := hF.bounds
  have hN : N ≠ 0 := fun h => hm (hz.1 h)
  obtain ⟨y, h1, h2⟩ := exists_rounded hN (F.qmin + k) hj1
  rw [← hs.value] at h1
  have h0 : 0 ≤ y := by
    obtain ⟨a, e, -, rfl⟩ := h2
    positivity
  refine ⟨y, h2, (roundsTo_congr d1 d2).2 ((roundsTo_iff F (by omega) (by omega) s hs.fin h0).2 (near_interval hs hN ?_))⟩
  have hpos : 0 < F.magc n := lt_of_le_of_ne (F.magc_nonneg n) (Ne.symm hm)
  have := rounded_near h1
  have hjq : (2 : ℚ) ^ (F.t + 1) < 10 ^ (j - 1) := by exact_mod_cast hj
  rcases (abs_nonneg (y - F.magc n)).eq_or_lt with h | h
  · rw [← h, zero_mul]
    exact hpos
  · refine lt_of_lt_of_le ?_ this
    rw [pow_succ, mul_comm ((2 : ℚ) ^ (F.t + 1))]
    gcongr

theorem rounded101_unique {m q q' : ℚ} (h : Rounded101 m q) (h' : Rounded101 m q') : q = q' := by
  unfold Rounded101 at h h'
  split at h
  · rename_i h0
    rw [if_pos h0] at h'
    rw [h, h']
  · rename_i h0
    rw [if_neg h0] at h'
    exact roundedDigits_unique (by norm_num) h h'

/-- The text of a float, read back. -/
theorem format_e {W : ℕ} (hW : W = 32 ∨ W = 64) {size : ℤ} (hsize : size = 16 ∨ size = 32 ∨ size = 64) (val : F64) :
    ∃ t, formatFloat W val 'e' (-1) size = .ok t ∧
      (readDecimal t = none ∨ ∃ s ds dp, NormalDec ds dp ∧ t = sciText s ds dp ((ds.length : ℤ) - 1)) := by
  obtain ⟨F, val', d, h1, h2, h3, h4⟩ := by_size (W := W) hsize val true 'e' (-1)
  unfold formatFloat
  rw [h2]
  obtain ⟨k1, k2⟩ := C46_special (W := W) h1 'e' (-1) true val'
  cases d with
  | nan s => exact ⟨_, k1 s h3, Or.inl (by decide +kernel)⟩
  | inf s =>
    refine ⟨_, k2 s h3, Or.inl ?_⟩
    cases s <;> decide +kernel
  | num s m =>
    obtain ⟨c, hc⟩ := h4
    obtain ⟨ds, dp, a1, a2, -⟩ := short_e hW h1 hc h3
    exact ⟨_, a2, Or.inr ⟨s, ds, dp, a1, rfl⟩⟩

/-- The comparison at the end of IsExact16, IsExact32 and IsExact64. -/
theorem verdict {W : ℕ} (hW : W = 32 ∨ W = 64) {size : ℤ} (hsize : size = 16 ∨ size = 32 ∨ size = 64) (val : F64) {x : BigFloat} (hx : x.WF) {s : Bool} {m : ℚ}
    (hd : x.datum = .num s m) :
    ∃ b, (do
      let s1 ← formatFloat W val 'e' (-1) size
      let s2 ← trimZeros (x.textE 100)
      return s1 == s2 : Go Bool) = .ok b ∧
      (b = true ↔ ∃ t q, formatFloat W val 'e' (-1) size = .ok t ∧ readDecimal t = some (s, q) ∧ Rounded101 m q) := by
  obtain ⟨t, h1, h2⟩ := format_e hW hsize val
  obtain ⟨ds, dp, a1, a2, a3, a4⟩ := textE_spec hx hd
  have hr : Rounded101 m (decValue ds dp) := by
    unfold Rounded101
    split
    · rename_i h0
      rw [a3.2 h0]
      simp [decValue]
    · rename_i h0
      exact a4 h0
  have hread := sciText_read s a1.digit dp (prec := (ds.length : ℤ) - 1) (by omega)
  rw [h1, ok_bind, a2, ok_bind]
  refine ⟨_, rfl, ?_⟩
  rw [beq_iff_eq]
  constructor
  · rintro rfl
    exact ⟨_, _, rfl, hread, hr⟩
  · rintro ⟨t', q, k1, k2, k3⟩
    injection k1 with k1
    subst k1
    rcases h2 with h2 | ⟨s', ds', dp', b1, rfl⟩
    · rw [h2] at k2
      cases k2
    · rw [sciText_inj b1 a1]
      rw [sciText_read s' b1.digit dp' (by omega)] at k2
      injection k2 with k2
      injection k2 with k2 k4
      exact ⟨k2, k4.trans (rounded101_unique k3 hr)⟩

/-- The accuracy of a conversion to a float tells whether the float has the value of `x`. -/
theorem exact_iff (F : Format) (ht : 1 ≤ F.t) (hw2 : 2 ≤ F.w) (hw30 : F.w ≤ 30) {x : BigFloat} (hx : x.WF) {s : Bool} {m : ℚ} (hd : x.datum = .num s m) :
    (x.toIEEE F.t F.w).2 = .exact ↔ F.decode (x.toIEEE F.t F.w).1 = .num s m := by
  obtain ⟨-, h2, h3⟩ := toIEEE_spec F ht hw2 hw30 hx
  have h2 := h2 s m hd
  constructor
  · intro h
    obtain ⟨a, b, k1, k2, k3⟩ := h3
    rw [h] at k3
    simp only at k3
    rw [hd] at k2
    unfold Format.RoundsTo at h2
    split at h2
    · rw [h2] at k1
      simp only [Datum.key, Option.some.injEq] at k1 k2
      rw [← k1, ← k2] at k3
      cases s <;> simp at k3
    · obtain ⟨r, h4, -⟩ := h2
      rw [h4] at k1 ⊢
      simp only [Datum.key, Option.some.injEq] at k1 k2
      rw [← k1, ← k2] at k3
      congr 1
      cases s <;> simpa [signed] using k3
  · intro h
    exact (toIEEE_widen (F := F) hw2 hw2 hw30 le_rfl le_rfl le_rfl hx (c := (x.toIEEE F.t F.w).1) (by rw [h, hd])).2

/-- A number of at most `j` digits is its own rounding to `j` digits. -/
theorem rounded_self {N : ℕ} (hN : N ≠ 0) {q : ℤ} {j : ℕ} (hj : 1 ≤ j) (h : FitsDigits j ((N : ℚ) * (2 : ℚ) ^ q)) :
    RoundedDigits j ((N : ℚ) * (2 : ℚ) ^ q) ((N : ℚ) * (2 : ℚ) ^ q) := by
  obtain ⟨y, ⟨M, e, h1, h2, -, -⟩, -⟩ := exists_rounded hN q hj
  obtain ⟨D, f, hD, hm⟩ := h
  generalize (N : ℚ) * (2 : ℚ) ^ q = m at *
  have he0 : (0 : ℚ) < (10 : ℚ) ^ e := by positivity
  have hef : e ≤ f := by
    by_contra hc
    push Not at hc
    rw [hm, le_div_iff₀ he0] at h1
    have h3 : (D : ℚ) < 10 ^ j := by exact_mod_cast hD
    have h4 : (10 : ℚ) ^ j * (10 : ℚ) ^ f ≤ 10 ^ (j - 1) * (10 : ℚ) ^ e := by
      rw [← zpow_natCast, ← zpow_natCast, ← zpow_add₀ (by norm_num), ← zpow_add₀ (by norm_num)]
      exact zpow_le_zpow_right₀ (by norm_num) (by omega)
    have h5 : (D : ℚ) * (10 : ℚ) ^ f < 10 ^ j * (10 : ℚ) ^ f := by gcongr
    linarith
  obtain ⟨k, rfl⟩ : ∃ k : ℕ, f = e + k := ⟨(f - e).toNat, by omega⟩
  have h3 : m / (10 : ℚ) ^ e = (D * 10 ^ k : ℕ) := by
    rw [hm, zpow_add₀ (by norm_num), zpow_natCast]
    push_cast
    field_simp
  refine ⟨D * 10 ^ k, e, h1, h2, ?_, ?_⟩
  · rw [h3]
    constructor
    · simp
    · intro h
      simp at h
  · rw [← h3]
    field_simp

theorem rounded101_self {N : ℕ} {q : ℤ} {j : ℕ} (hj : j ≤ 101) (h : FitsDigits j ((N : ℚ) * (2 : ℚ) ^ q)) :
    Rounded101 ((N : ℚ) * (2 : ℚ) ^ q) ((N : ℚ) * (2 : ℚ) ^ q) := by
  unfold Rounded101
  split
  · assumption
  · rename_i h0
    refine rounded_self ?_ (by norm_num) ?_
    · rintro rfl
      simp at h0
    · obtain ⟨D, e, hD, he⟩ := h
      exact ⟨D, e, lt_of_lt_of_le hD (Nat.pow_le_pow_right (by norm_num) hj), he⟩

section
variable {W : ℕ} (hW : W = 32 ∨ W = 64) {size : ℤ} (hS : SizeOf F size) {c : ℕ} {s : Bool} {m : ℚ} (hc : F.decode c = .num s m) {val : F64}
  (hd : double.decode val.toNat = .num s m)
include hW hS hc hd

/-- Numbers with few digits are printed. -/
theorem few_digits {d : ℕ} (hd1 : 10 ^ d < 2 ^ (F.t + 1)) (hm : FitsDigits d m) : PrintsAs W size val s m := by
  obtain ⟨ds, dp, h1, h2, h3, h4, h5, -⟩ := short_e hW hS hc hd
  refine ⟨_, _, h2, sciText_read s h1.digit dp (by omega), ?_⟩
  have hF := hS.go
  have hb := hF.bounds
  obtain ⟨n, k, N, hs, rfl, d1, d2, hz⟩ := value_split hF hc
  have hri : ∀ y, 0 ≤ y → (F.RoundsTo s y c ↔ InInterval F n y) := fun y hy =>
    (roundsTo_congr d1 d2).trans (roundsTo_iff F (by omega) (by omega) s hs.fin hy)
  have hd101 : d ≤ 101 := by
    by_contra hc
    push Not at hc
    have e1 : 10 ^ 101 ≤ 10 ^ d := Nat.pow_le_pow_right (by norm_num) (by omega)
    have e2 : 2 ^ (F.t + 1) ≤ 2 ^ 53 := Nat.pow_le_pow_right (by norm_num) (by omega)
    have e3 : 2 ^ 53 < 10 ^ 101 := by norm_num
    omega
  have hself := fun h => rounded101_self (N := N) (q := F.qmin + k) hd101 h
  rw [← hs.value] at hself
  have hself := hself hm
  by_cases hN : N = 0
  · rw [h3.2 (hz.1 hN), hz.1 hN]
    simp [decValue, Rounded101]
  have hq0 : 0 ≤ decValue ds dp := by rw [decValue_eq]; positivity
  suffices decValue ds dp = F.magc n by rw [this]; exact hself
  have hin := (hri _ hq0).1 h4
  have hmr : F.RoundsTo s (F.magc n) c := (roundsTo_congr d1 d2).2 (roundsTo_self hF hs.fin s)
  have hlen := h5 d _ hm hmr
  have hqd : FitsDigits d (decValue ds dp) :=
    ⟨dv ds, _, lt_of_lt_of_le (dv_lt h1.digit) (Nat.pow_le_pow_right (by norm_num) hlen), decValue_eq _ _⟩
  by_contra hne
  have ha := digits_apart hm hqd (Ne.symm hne)
  rw [abs_sub_comm] at ha
  have hw := interval_width hs hN hin
  have hd1q : (10 : ℚ) ^ d < 2 ^ (F.t + 1) := by exact_mod_cast hd1
  have e1 := two_zpow_pred (F.qmin + k)
  have hp : (0 : ℚ) < (2 : ℚ) ^ (F.qmin + k - 1) := by positivity
  have hle : F.magc n ≤ (2 : ℚ) ^ (F.qmin + k - 1) * 10 ^ d := le_trans ha (by gcongr)
  have hlt : F.magc n < (2 : ℚ) ^ (F.qmin + k - 1) * 2 ^ (F.t + 1) := lt_of_le_of_lt hle (by gcongr)
  have hNt : N < 2 ^ F.t := by
    rw [hs.value, e1, pow_succ] at hlt
    have : (N : ℚ) < 2 ^ F.t := by
      by_contra hc
      push Not at hc
      nlinarith
    exact_mod_cast this
  have hk : k = 0 := by
    rcases hs.norm with h | h
    · exact h
    · omega
  subst hk
  have hdy := dyadic_digits (d := d) hN (by rw [← hs.value]; exact hm)
  rw [hs.value] at hm
  have hlt2 : (N : ℚ) * (2 : ℚ) ^ (F.qmin + (0 : ℕ)) * 10 ^ d < 2 ^ F.t * (2 : ℚ) ^ (F.qmin + (0 : ℕ)) * 2 ^ (F.t + 1) := by
    have : (N : ℚ) < 2 ^ F.t := by exact_mod_cast hNt
    gcongr
  have : (2 : ℚ) ^ F.t * (2 : ℚ) ^ (F.qmin + (0 : ℕ)) * 2 ^ (F.t + 1) ≤ 1 := by
    rw [← zpow_natCast, ← zpow_natCast, ← zpow_add₀ (by norm_num), ← zpow_add₀ (by norm_num)]
    apply zpow_le_one_of_nonpos₀ (by norm_num)
    rcases hF with rfl | rfl | rfl <;> decide
  linarith

omit hW hd in
theorem rounds_self : F.RoundsTo s m c := by
  have hF := hS.go
  obtain ⟨n, k, N, hs, rfl, d1, d2, hz⟩ := value_split hF hc
  exact (roundsTo_congr d1 d2).2 (roundsTo_self hF hs.fin s)

/-- Integers up to a power of two are printed. -/
theorem integers {i : ℕ} (hi : m = i) (hle : i ≤ 2 ^ (F.t + 1)) : PrintsAs W size val s m := by
  obtain ⟨ds, dp, h1, h2, h3, h4, h5, h6⟩ := short_e hW hS hc hd
  refine ⟨_, _, h2, sciText_read s h1.digit dp (by omega), ?_⟩
  have hself := rounds_self hS hc
  have hF := hS.go
  have hb := hF.bounds
  obtain ⟨n, k, N, hs, hmn, d1, d2, hz⟩ := value_split hF hc
  have hri : ∀ y, 0 ≤ y → (F.RoundsTo s y c ↔ InInterval F n y) := fun y hy =>
    (roundsTo_congr d1 d2).trans (roundsTo_iff F (by omega) (by omega) s hs.fin hy)
  by_cases hi0 : i = 0
  · have hm0 : m = 0 := by rw [hi, hi0]; rfl
    rw [h3.2 hm0, hm0]
    simp [decValue, Rounded101]
  have hN : N ≠ 0 := by
    intro h
    rw [hz.1 h] at hi
    exact hi0 (by exact_mod_cast hi.symm)
  have hi53 : i ≤ 2 ^ 53 := le_trans hle (Nat.pow_le_pow_right (by norm_num) (by omega))
  obtain ⟨L, hL1, hL2⟩ : ∃ L, 10 ^ L ≤ i ∧ i < 10 ^ (L + 1) :=
    ⟨Nat.log 10 i, Nat.pow_log_le_self 10 hi0, Nat.lt_pow_succ_log_self (by norm_num) i⟩
  have hL17 : L < 17 := by
    by_contra hc
    have : 10 ^ 17 ≤ 10 ^ L := Nat.pow_le_pow_right (by norm_num) (by omega)
    norm_num at this hi53
    omega
  have hfit : FitsDigits (L + 1) m := ⟨i, 0, hL2, by rw [hi]; simp⟩
  have hR : Rounded101 m m := by
    have := rounded101_self (N := N) (q := F.qmin + k) (j := L + 1) (by omega)
    rw [← hs.value, ← hmn] at this
    exact this hfit
  suffices decValue ds dp = m by rw [this]; exact hR
  have hlen := h5 _ _ hfit hself
  have hq0 : 0 ≤ decValue ds dp := by rw [decValue_eq]; positivity
  have hw := interval_width hs hN ((hri _ hq0).1 h4)
  have hv := hs.value
  rw [← hmn] at hw hv
  -- the unit in the last place
  have hiq : (1 : ℚ) ≤ i := by exact_mod_cast Nat.one_le_iff_ne_zero.2 hi0
  have hQ : F.qmin + (k : ℤ) ≤ 0 ∨ F.qmin + (k : ℤ) = 1 ∧ i = 2 ^ (F.t + 1) ∧ N = 2 ^ F.t := by
    rcases le_or_gt (F.qmin + (k : ℤ)) 0 with h | h
    · exact Or.inl h
    · right
      have hq0 : F.qmin ≤ 0 := by
        rcases hF with rfl | rfl | rfl <;> decide
      have hNt := hs.norm.resolve_left (by omega)
      obtain ⟨u, hu⟩ : ∃ u : ℕ, F.qmin + (k : ℤ) = (u + 1 : ℕ) := ⟨(F.qmin + (k : ℤ) - 1).toNat, by push_cast; omega⟩
      rw [hi, hu, zpow_natCast] at hv
      have hv' : i = N * 2 ^ (u + 1) := by exact_mod_cast hv
      have e1 : N * 2 ^ (u + 1) ≤ 2 ^ F.t * 2 := by rw [← pow_succ, ← hv']; exact hle
      have hu0 : u = 0 := by
        by_contra hc
        have : 2 ^ 2 ≤ 2 ^ (u + 1) := Nat.pow_le_pow_right (by norm_num) (by omega)
        have hp : 0 < 2 ^ F.t := by positivity
        nlinarith
      subst hu0
      have hN2 : N = 2 ^ F.t := by omega
      refine ⟨by rw [hu]; rfl, ?_, hN2⟩
      rw [hv', hN2]
      rfl
  have hw1 : |decValue ds dp - i| ≤ 1 := by
    rw [← hi]
    refine le_trans hw ?_
    apply zpow_le_one_of_nonpos₀ (by norm_num)
    omega
  rcases hlen.eq_or_lt with hl | hl
  · rcases h6 with h6 | ⟨h6, h7⟩
    · rw [hl] at h6
      have := h6 m hfit hself
      rw [sub_self, abs_zero, abs_nonpos_iff, sub_eq_zero] at this
      exact this
    · exfalso
      rw [hi] at h7
      have h8 : 2 ^ (F.t + 1) ≤ i := by exact_mod_cast h7
      have hN1 : N % 2 = 1 := by
        rw [hs.even hF]
        have := signPart_even F (by omega) s
        omega
      have h2t : 2 ^ F.t % 2 = 0 := by
        obtain ⟨u, hu⟩ : ∃ u, F.t = u + 1 := ⟨F.t - 1, by omega⟩
        rw [hu, pow_succ]
        omega
      rcases hQ with hQ | ⟨-, -, hQ⟩
      · have : m ≤ N := by
          rw [hv]
          have : (2 : ℚ) ^ (F.qmin + (k : ℤ)) ≤ 1 := zpow_le_one_of_nonpos₀ (by norm_num) hQ
          have hNq : (0 : ℚ) ≤ N := by positivity
          nlinarith
        rw [hi] at this
        have : i ≤ N := by exact_mod_cast this
        have := hs.lt
        omega
      · omega
  · have hD : dv ds < 10 ^ L := lt_of_lt_of_le (dv_lt h1.digit) (Nat.pow_le_pow_right (by norm_num) (by omega))
    rw [decValue_eq] at hw hw1 ⊢
    rcases le_or_gt 0 (dp - (ds.length : ℤ)) with he | he
    · obtain ⟨e, he⟩ : ∃ e : ℕ, dp - (ds.length : ℤ) = e := ⟨(dp - (ds.length : ℤ)).toNat, by omega⟩
      rw [he, zpow_natCast] at hw hw1 ⊢
      rw [hi] at hw ⊢
      have hcast : ((dv ds : ℚ) * 10 ^ e - i) = ((dv ds * 10 ^ e - i : ℤ) : ℚ) := by push_cast; ring
      rcases hQ with hQ | ⟨-, hQ, -⟩
      · have h12 : (2 : ℚ) ^ (F.qmin + (k : ℤ) - 1) ≤ (2 : ℚ) ^ (-1 : ℤ) := zpow_le_zpow_right₀ (by norm_num) (by omega)
        have h13 := le_trans hw h12
        rw [hcast, show (2 : ℚ) ^ (-1 : ℤ) = 1 / 2 by norm_num] at h13
        have h14 : |((dv ds * 10 ^ e - i : ℤ) : ℚ)| < 1 := lt_of_le_of_lt h13 (by norm_num)
        have h15 : |(dv ds * 10 ^ e - i : ℤ)| < 1 := by exact_mod_cast h14
        rw [Int.abs_lt_one_iff] at h15
        have h16 : dv ds * 10 ^ e = i := by
          have : ((dv ds * 10 ^ e : ℕ) : ℤ) = i := by push_cast; linarith
          exact_mod_cast this
        rw [← h16]
        push_cast
        rfl
      · -- the power of two
        rw [hcast] at hw1
        have hw2 : |(dv ds * 10 ^ e - i : ℤ)| ≤ 1 := by exact_mod_cast hw1
        rw [abs_le] at hw2
        have h17 : i ≤ dv ds * 10 ^ e + 1 ∧ dv ds * 10 ^ e ≤ i + 1 := by
          constructor
          · have : (i : ℤ) ≤ ((dv ds * 10 ^ e + 1 : ℕ) : ℤ) := by push_cast; linarith
            exact_mod_cast this
          · have : ((dv ds * 10 ^ e : ℕ) : ℤ) ≤ ((i + 1 : ℕ) : ℤ) := by push_cast; linarith
            exact_mod_cast this
        exfalso
        rcases Nat.eq_zero_or_pos e with he0 | he0
        · subst he0
          rw [pow_zero, mul_one] at h17
          have : dv ds + 1 = i := by omega
          have h10 : 10 ^ L = i := by omega
          rw [hQ] at h10
          have hL0 : L ≠ 0 := by
            rintro rfl
            rw [pow_zero] at h10
            have : 1 < 2 ^ (F.t + 1) := Nat.one_lt_two_pow (by omega)
            omega
          have h5 : 5 ∣ 2 ^ (F.t + 1) := by
            rw [← h10]
            exact dvd_pow (by norm_num) hL0
          have := Nat.Coprime.eq_one_of_dvd (Nat.Coprime.pow_right (F.t + 1) (by decide : Nat.Coprime 5 2)) h5
          omega
        · obtain ⟨f, rfl⟩ : ∃ f, e = f + 1 := ⟨e - 1, by omega⟩
          rw [pow_succ, ← mul_assoc] at h17
          generalize dv ds * 10 ^ f = z at h17
          rw [hQ] at h17
          rcases hF with rfl | rfl | rfl
          · simp only [half] at h17; norm_num at h17; omega
          · simp only [single] at h17; norm_num at h17; omega
          · simp only [double] at h17; norm_num at h17; omega
    · exfalso
      have h10 : (10 : ℚ) ^ (dp - (ds.length : ℤ)) ≤ (10 : ℚ) ^ (-1 : ℤ) := zpow_le_zpow_right₀ (by norm_num) (by omega)
      rw [show (10 : ℚ) ^ (-1 : ℤ) = 1 / 10 by norm_num] at h10
      have hDq : (dv ds : ℚ) < i := by exact_mod_cast lt_of_lt_of_le hD hL1
      have hD0 : (0 : ℚ) ≤ dv ds := by positivity
      have h11 : (dv ds : ℚ) * (10 : ℚ) ^ (dp - (ds.length : ℤ)) ≤ (dv ds : ℚ) * (1 / 10) := by gcongr
      rcases hQ with hQ | ⟨-, hQ, -⟩
      · have h12 : (2 : ℚ) ^ (F.qmin + (k : ℤ) - 1) ≤ (2 : ℚ) ^ (-1 : ℤ) := zpow_le_zpow_right₀ (by norm_num) (by omega)
        have h13 := le_trans hw h12
        rw [show (2 : ℚ) ^ (-1 : ℤ) = 1 / 2 by norm_num, hi, abs_le] at h13
        linarith [h13.1]
      · have h4 : 4 ≤ i := by
          rw [hQ]
          calc 4 = 2 ^ 2 := by norm_num
            _ ≤ _ := Nat.pow_le_pow_right (by norm_num) (by omega)
        have h4q : (4 : ℚ) ≤ i := by exact_mod_cast h4
        linarith [(abs_le.1 hw1).1]

end

end GoFloat
