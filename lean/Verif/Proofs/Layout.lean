import Verif.Proofs.Shortest
import Verif.Proofs.DecimalText
/-
The texts made by `fmtE`, `fmtF` and `formatDigits` of internal/strconv/ftoa.go.
-/
namespace GoFloat.Strconv
open Spec

/-- The first `n` digits, padded with zeros. -/
def padTake (ds : List ℕ) (n : ℕ) : List ℕ := (List.range n).map (ds.getD · 0)

theorem padTake_length (ds : List ℕ) (n : ℕ) : (padTake ds n).length = n := by simp [padTake]

theorem padTake_succ (ds : List ℕ) (n : ℕ) : padTake ds (n + 1) = padTake ds n ++ [ds.getD n 0] := by
  simp [padTake, List.range_succ]

theorem dv_padTake (ds : List ℕ) : ∀ n, dv (padTake ds n) = pre ds n
  | 0 => by simp [padTake, pre, dv, digsVal]
  | n + 1 => by rw [padTake_succ, dv_snoc, dv_padTake ds n, pre]

theorem getD_lt {ds : List ℕ} (h : ∀ d ∈ ds, d < 10) (i : ℕ) : ds.getD i 0 < 10 := by
  rw [List.getD_eq_getElem?_getD]
  rcases lt_or_ge i ds.length with hi | hi
  · rw [List.getElem?_eq_getElem hi]
    exact h _ (List.getElem_mem hi)
  · rw [List.getElem?_eq_none hi]; decide

theorem padTake_lt {ds : List ℕ} (h : ∀ d ∈ ds, d < 10) (n : ℕ) : ∀ d ∈ padTake ds n, d < 10 := by
  intro d hd
  simp only [padTake, List.mem_map, List.mem_range] at hd
  obtain ⟨i, -, rfl⟩ := hd
  exact getD_lt h i

theorem padTake_take {ds : List ℕ} {n : ℕ} (h : n ≤ ds.length) : padTake ds n = ds.take n := by
  apply List.ext_getElem
  · rw [padTake_length, List.length_take, min_eq_left h]
  · intro i h1 h2
    rw [padTake_length] at h1
    rw [List.getElem_take]
    simp only [padTake, List.getElem_map, List.getElem_range]
    rw [List.getD_eq_getElem?_getD, List.getElem?_eq_getElem (by omega)]
    rfl

theorem padTake_zeros {ds : List ℕ} {n : ℕ} (h : ds.length ≤ n) : padTake ds n = ds ++ List.replicate (n - ds.length) 0 := by
  apply List.ext_getElem
  · rw [padTake_length, List.length_append, List.length_replicate]; omega
  · intro i h1 h2
    simp only [padTake, List.getElem_map, List.getElem_range]
    rw [List.getD_eq_getElem?_getD]
    rcases lt_or_ge i ds.length with hi | hi
    · rw [List.getElem?_eq_getElem hi, List.getElem_append_left hi]; rfl
    · rw [List.getElem?_eq_none hi, List.getElem_append_right hi, List.getElem_replicate]; rfl

/-- The value of padded digits. -/
theorem padTake_value {ds : List ℕ} {dp : ℤ} {n : ℕ} (h : ds.length ≤ n) :
    (dv (padTake ds n) : ℚ) * (10 : ℚ) ^ (dp - n) = decValue ds dp := by
  rw [dv_padTake, ← pre_exact h]

theorem byteChar_digit {d : ℕ} (h : d < 10) : byteChar (d + 48) = dchar d := by
  interval_cases d <;> decide

theorem map_byteChar {ds : List ℕ} (h : ∀ d ∈ ds, d < 10) : (ds.map (· + 48)).map byteChar = ds.map dchar := by
  rw [List.map_map]
  apply List.map_congr_left
  intro d hd
  exact byteChar_digit (h d hd)

theorem getD_map48 (ds : List ℕ) (i : ℕ) : (ds.map (· + 48)).getD i 48 = ds.getD i 0 + 48 := by
  rw [List.getD_eq_getElem?_getD, List.getD_eq_getElem?_getD, List.getElem?_map]
  rcases ds[i]? with _ | x <;> rfl

theorem isDig_map {ds : List ℕ} (h : ∀ d ∈ ds, d < 10) : ∀ c ∈ ds.map dchar, IsDig c := by
  intro c hc
  obtain ⟨d, hd, rfl⟩ := List.mem_map.1 hc
  exact isDig_dchar (h d hd)

/-- The exponent digits: at least two. -/
def expDigits (e : ℕ) : List ℕ := if e < 10 then [0, e] else dg 10 e

theorem expDigits_lt (e : ℕ) : ∀ d ∈ expDigits e, d < 10 := by
  unfold expDigits
  split
  · intro d hd
    simp at hd
    omega
  · exact dg_lt (by norm_num) e

theorem dv_expDigits (e : ℕ) : dv (expDigits e) = e := by
  unfold expDigits
  split
  · simp [dv, digsVal]
  · exact digsVal_dg e

theorem expDigits_length (e : ℕ) : 2 ≤ (expDigits e).length := by
  unfold expDigits
  split
  · simp
  · rename_i h
    rw [dg_step (by norm_num) (by omega), List.length_append]
    have := List.length_pos_iff.2 (dg_ne_nil 10 (e / 10))
    simp; omega

/-- The exponent as text. -/
def expText (fmt : Char) (e : ℤ) : Text := fmt :: (if e < 0 then '-' else '+') :: (expDigits e.natAbs).map dchar

theorem expText_eq {e : ℕ} (h : e < 1000) :
    (if e < 10 then ['0', byteChar (e + 48)]
      else if e < 100 then [byteChar (e / 10 + 48), byteChar (e % 10 + 48)]
      else [byteChar ((e / 100 % 256 + 48) % 256), byteChar (e / 10 % 256 % 10 + 48), byteChar (e % 10 + 48)]) =
    (expDigits e).map dchar := by
  unfold expDigits
  by_cases h1 : e < 10
  · rw [if_pos h1, if_pos h1, byteChar_digit h1]; rfl
  · rw [if_neg h1, if_neg h1]
    have hmod : byteChar (e % 10 + 48) = dchar (e % 10) := byteChar_digit (by omega)
    by_cases h2 : e < 100
    · rw [if_pos h2, byteChar_digit (show e / 10 < 10 by omega), hmod, dg_step (by norm_num) (by omega), dg_small (by omega)]
      rfl
    · rw [if_neg h2, hmod, show (e / 100 % 256 + 48) % 256 = e / 100 + 48 by omega, byteChar_digit (show e / 100 < 10 by omega),
        show e / 10 % 256 % 10 = e / 10 % 10 by omega, byteChar_digit (show e / 10 % 10 < 10 by omega),
        dg_step (by norm_num) (by omega), dg_step (by norm_num) (show 10 ≤ e / 10 by omega), Nat.div_div_eq_div_mul,
        dg_small (show e / (10 * 10) < 10 by omega)]
      rfl

/-- The fraction digits of the `e` format. -/
def fracE (ds : List ℕ) (prec : ℤ) : List ℕ := (List.range prec.toNat).map (fun i => ds.getD (i + 1) 0)

theorem fracE_cons (ds : List ℕ) (prec : ℤ) : ds.getD 0 0 :: fracE ds prec = padTake ds (prec.toNat + 1) := by
  simp only [fracE, padTake, List.range_succ_eq_map, List.map_cons, List.map_map]
  rfl

theorem fracE_length (ds : List ℕ) (prec : ℤ) : (fracE ds prec).length = prec.toNat := by simp [fracE]

theorem fracE_lt {ds : List ℕ} (h : ∀ d ∈ ds, d < 10) (prec : ℤ) : ∀ d ∈ fracE ds prec, d < 10 := by
  intro d hd
  apply padTake_lt h (prec.toNat + 1)
  rw [← fracE_cons]
  exact List.mem_cons_of_mem _ hd

/-- The exponent printed. -/
def expOf (ds : List ℕ) (dp : ℤ) : ℤ := if ds.length = 0 then 0 else dp - 1

/-- The text of `fmtE`. -/
theorem fmtE_eq (neg : Bool) {ds : List ℕ} (hd : ∀ d ∈ ds, d < 10) (dp : ℤ) (x : Bool) (prec : ℤ) (fmt : Char)
    (he : (expOf ds dp).natAbs < 1000) :
    fmtE neg ⟨ds.map (· + 48), dp, x⟩ prec fmt = (if neg then ['-'] else []) ++ [dchar (ds.getD 0 0)] ++
      (if (fracE ds prec).map dchar = [] then [] else '.' :: (fracE ds prec).map dchar) ++ expText fmt (expOf ds dp) := by
  unfold fmtE
  have hnd : DecimalSlice.nd ⟨ds.map (· + 48), dp, x⟩ = ds.length := by simp [DecimalSlice.nd]
  simp only [hnd, getD_map48]
  have hfirst : byteChar (if ds.length ≠ 0 then ds.getD 0 0 + 48 else 48) = dchar (ds.getD 0 0) := by
    by_cases h0 : ds.length = 0
    · rw [if_neg (by simpa using h0), List.length_eq_zero_iff.1 h0]; decide
    · rw [if_pos h0, byteChar_digit (getD_lt hd 0)]
  rw [hfirst]
  have hexp : (if ds.length = 0 then 0 else dp - 1) = expOf ds dp := rfl
  rw [hexp, expText_eq he]
  have hmore : (if prec > 0 then
        '.' :: (if 1 < min (ds.length : ℤ) (prec + 1) then
            (((ds.map (· + 48)).take (min (ds.length : ℤ) (prec + 1)).toNat).drop 1).map byteChar else []) ++
          List.replicate (prec + 1 - if 1 < min (ds.length : ℤ) (prec + 1) then min (ds.length : ℤ) (prec + 1) else 1).toNat '0'
        else []) = if (fracE ds prec).map dchar = [] then [] else '.' :: (fracE ds prec).map dchar := by
    by_cases hp : prec > 0
    · have hne : (fracE ds prec).map dchar ≠ [] := by
        intro hc
        have := congrArg List.length hc
        rw [List.length_map, fracE_length] at this
        simp at this
        omega
      rw [if_pos hp, if_neg hne, List.cons_append]
      congr 1
      have hz : '0' = dchar 0 := by decide
      rw [hz, ← List.map_replicate]
      set m := min (ds.length : ℤ) (prec + 1) with hm
      have key : (if 1 < m then ((ds.take m.toNat).drop 1) else []) ++ List.replicate (prec + 1 - if 1 < m then m else 1).toNat 0 =
          fracE ds prec := by
        by_cases h1 : 1 < m
        · rw [if_pos h1, if_pos h1]
          have e := fracE_cons ds prec
          rcases le_total (ds.length : ℤ) (prec + 1) with hle | hle
          · have hm' : m = ds.length := min_eq_left hle
            rw [padTake_zeros (by omega)] at e
            rw [hm', Int.toNat_natCast, List.take_length]
            have e2 := congrArg (List.drop 1) e
            rw [List.drop_one, List.tail_cons, List.drop_append_of_le_length (by omega)] at e2
            rw [e2]
            congr 2
            omega
          · have hm' : m = prec + 1 := min_eq_right hle
            rw [padTake_take (by omega)] at e
            rw [hm', sub_self, Int.toNat_zero, List.replicate_zero, List.append_nil, show (prec + 1).toNat = prec.toNat + 1 by omega, ← e]
            rfl
        · rw [if_neg h1, if_neg h1, List.nil_append]
          have hl : ds.length ≤ 1 := by
            by_contra hc
            exact h1 (lt_min (by omega) (by omega))
          apply List.ext_getElem
          · rw [List.length_replicate, fracE_length]; omega
          · intro i h2 h3
            rw [List.getElem_replicate]
            simp only [fracE, List.getElem_map, List.getElem_range]
            rw [List.getD_eq_getElem?_getD, List.getElem?_eq_none (by omega)]
            rfl
      rw [← key, List.map_append]
      congr 1
      by_cases h1 : 1 < m
      · rw [if_pos h1, if_pos h1, ← List.map_take, ← List.map_drop, map_byteChar]
        intro d hd'
        exact hd d (List.mem_of_mem_take (List.mem_of_mem_drop hd'))
      · rw [if_neg h1, if_neg h1]; rfl
    · rw [if_neg hp, if_pos]
      rw [fracE, show prec.toNat = 0 by omega]
      rfl
  rw [hmore]
  simp only [expText, List.append_assoc, List.cons_append, List.nil_append]

theorem readExp_expText (fmt : Char) (e : ℤ) : readExp (expText fmt e) = some e := by
  unfold expText readExp
  have hne : (expDigits e.natAbs).map dchar ≠ [] := by
    intro hc
    have := congrArg List.length hc
    have h2 := expDigits_length e.natAbs
    rw [List.length_map] at this
    simp at this
    rw [this] at h2
    simp at h2
  have hr : readNumeral 10 ((expDigits e.natAbs).map dchar) = some e.natAbs := by
    rw [readNumeral_map (by norm_num) (expDigits_lt _)]
    exact congrArg some (dv_expDigits _)
  by_cases h : e < 0
  · simp only [if_pos h, splitSign, if_neg hne, hr, if_true]
    show some (-(e.natAbs : ℤ)) = some e
    congr 1; omega
  · simp only [if_neg h, splitSign, if_neg hne, hr]
    show some (e.natAbs : ℤ) = some e
    congr 1; omega

/-- Reading back the `e` format. -/
theorem fmtE_read (neg : Bool) {ds : List ℕ} (hd : ∀ d ∈ ds, d < 10) (dp : ℤ) (x : Bool) (prec : ℤ) {fmt : Char}
    (hfmt : fmt = 'e' ∨ fmt = 'E') (he : (expOf ds dp).natAbs < 1000) (hl : ds.length ≤ prec.toNat + 1) :
    readDecimal (fmtE neg ⟨ds.map (· + 48), dp, x⟩ prec fmt) = some (neg, decValue ds dp) := by
  rw [fmtE_eq neg hd dp x prec fmt he]
  rw [readDecimal_layout neg [dchar (ds.getD 0 0)] ((fracE ds prec).map dchar) (expText fmt (expOf ds dp))
    (isDig_map (ds := [ds.getD 0 0]) (by
      intro d hd'
      have : d = ds.getD 0 0 := by simpa using hd'
      rw [this]; exact getD_lt hd 0)) (by simp)
    (isDig_map (fracE_lt hd prec)) (by
      intro c hc
      have : fmt = c := by simpa [expText] using hc
      rw [← this]; exact hfmt)]
  have e1 : [dchar (ds.getD 0 0)] ++ (fracE ds prec).map dchar = (padTake ds (prec.toNat + 1)).map dchar := by
    rw [← fracE_cons]; rfl
  rw [e1, readNumeral_map (by norm_num) (padTake_lt hd _), readExp_expText]
  simp only [Option.bind_some, Option.map_some, List.length_map, fracE_length]
  congr 2
  show (dv (padTake ds (prec.toNat + 1)) : ℚ) * _ = _
  unfold expOf
  by_cases h0 : ds.length = 0
  · rw [if_pos h0]
    have : ds = [] := List.length_eq_zero_iff.1 h0
    rw [← padTake_value (dp := dp) hl]
    have hz : dv (padTake ds (prec.toNat + 1)) = 0 := by
      rw [this, padTake_zeros (by simp)]
      exact dv_zeros _
    rw [hz]; simp
  · rw [if_neg h0, ← padTake_value (dp := dp) hl]
    congr 2
    push_cast
    ring

/-- The digits of the `f` format before the point. -/
def intF (ds : List ℕ) (dp : ℤ) : List ℕ := if dp > 0 then padTake ds dp.toNat else [0]

/-- The digits of the `f` format after the point. -/
def fracF (ds : List ℕ) (dp prec : ℤ) : List ℕ :=
  (List.range prec.toNat).map fun i : ℕ => if 0 ≤ dp + i then ds.getD (dp + i).toNat 0 else 0

theorem fracF_length (ds : List ℕ) (dp prec : ℤ) : (fracF ds dp prec).length = prec.toNat := by simp [fracF]

theorem fracF_lt {ds : List ℕ} (h : ∀ d ∈ ds, d < 10) (dp prec : ℤ) : ∀ d ∈ fracF ds dp prec, d < 10 := by
  intro d hd
  simp only [fracF, List.mem_map, List.mem_range] at hd
  obtain ⟨i, -, rfl⟩ := hd
  split
  · exact getD_lt h _
  · norm_num

theorem intF_lt {ds : List ℕ} (h : ∀ d ∈ ds, d < 10) (dp : ℤ) : ∀ d ∈ intF ds dp, d < 10 := by
  unfold intF
  split
  · exact padTake_lt h _
  · simp

theorem intF_ne_nil (ds : List ℕ) (dp : ℤ) : intF ds dp ≠ [] := by
  unfold intF
  split
  · intro hc
    have := congrArg List.length hc
    rw [padTake_length] at this
    simp at this
    omega
  · simp

/-- The text of `fmtF`. -/
theorem fmtF_eq (neg : Bool) {ds : List ℕ} (hd : ∀ d ∈ ds, d < 10) (dp : ℤ) (x : Bool) (prec : ℤ) :
    fmtF neg ⟨ds.map (· + 48), dp, x⟩ prec = (if neg then ['-'] else []) ++ (intF ds dp).map dchar ++
      (if (fracF ds dp prec).map dchar = [] then [] else '.' :: (fracF ds dp prec).map dchar) := by
  unfold fmtF
  have hnd : DecimalSlice.nd ⟨ds.map (· + 48), dp, x⟩ = ds.length := by simp [DecimalSlice.nd]
  simp only [hnd, getD_map48]
  congr 1
  · congr 1
    unfold intF
    by_cases h : dp > 0
    · rw [if_pos h, if_pos h]
      have hz : '0' = dchar 0 := by decide
      rcases le_total (ds.length : ℤ) dp with hle | hle
      · rw [min_eq_left hle, Int.toNat_natCast, padTake_zeros (by omega), List.map_append, List.map_replicate, ← hz]
        congr 1
        · rw [List.take_of_length_le (by simp), map_byteChar hd]
        · congr 1; omega
      · rw [min_eq_right hle, sub_self, Int.toNat_zero, List.replicate_zero, List.append_nil, padTake_take (by omega),
          ← List.map_take, map_byteChar]
        exact fun d hd' => hd d (List.mem_of_mem_take hd')
    · rw [if_neg h, if_neg h]; decide
  · by_cases hp : prec > 0
    · have hne : (fracF ds dp prec).map dchar ≠ [] := by
        intro hc
        have := congrArg List.length hc
        rw [List.length_map, fracF_length] at this
        simp at this
        omega
      rw [if_pos hp, if_neg hne]
      congr 1
      unfold fracF
      rw [List.map_map]
      apply List.map_congr_left
      intro i _
      simp only [Function.comp]
      by_cases h0 : 0 ≤ dp + (i : ℤ)
      · rw [if_pos h0]
        by_cases h1 : dp + (i : ℤ) < ds.length
        · rw [if_pos ⟨h0, h1⟩, byteChar_digit (getD_lt hd _)]
        · rw [if_neg fun hc => h1 hc.2, List.getD_eq_getElem?_getD, List.getElem?_eq_none (by omega)]
          decide
      · rw [if_neg h0, if_neg fun hc => h0 hc.1]
        decide
    · rw [if_neg hp, if_pos]
      rw [fracF, show prec.toNat = 0 by omega]
      rfl

/-- The digits of the `f` format, all together. -/
theorem f_digits (ds : List ℕ) (dp prec : ℤ) (hp : 0 ≤ dp + prec) (hp0 : 0 ≤ prec) :
    dv (intF ds dp ++ fracF ds dp prec) = dv (padTake ds (dp + prec).toNat) := by
  unfold intF fracF
  by_cases h : dp > 0
  · rw [if_pos h]
    congr 1
    unfold padTake
    rw [show (dp + prec).toNat = dp.toNat + prec.toNat by omega, List.range_add, List.map_append, List.map_map]
    congr 1
    apply List.map_congr_left
    intro i _
    simp only [Function.comp]
    rw [if_pos (by omega)]
    congr 1
    omega
  · rw [if_neg h, List.cons_append, List.nil_append, dv_cons, zero_mul, zero_add]
    have e : (List.range prec.toNat).map (fun i : ℕ => if 0 ≤ dp + i then ds.getD (dp + i).toNat 0 else 0) =
        List.replicate (-dp).toNat 0 ++ padTake ds (dp + prec).toNat := by
      rw [show prec.toNat = (-dp).toNat + (dp + prec).toNat by omega, List.range_add, List.map_append, List.map_map]
      congr 1
      · rw [List.eq_replicate_iff]
        refine ⟨by simp, fun b hb => ?_⟩
        simp only [List.mem_map, List.mem_range] at hb
        obtain ⟨i, hi, rfl⟩ := hb
        rw [if_neg (by omega)]
      · unfold padTake
        apply List.map_congr_left
        intro i _
        simp only [Function.comp]
        rw [if_pos (by omega)]
        congr 1
        omega
    rw [e, dv_append, dv_zeros, zero_mul, zero_add]

/-- Reading back the `f` format. -/
theorem fmtF_read (neg : Bool) {ds : List ℕ} (hd : ∀ d ∈ ds, d < 10) (dp : ℤ) (x : Bool) (prec : ℤ) (hp0 : 0 ≤ prec)
    (hl : (ds.length : ℤ) ≤ dp + prec ∨ ds = []) :
    readDecimal (fmtF neg ⟨ds.map (· + 48), dp, x⟩ prec) = some (neg, decValue ds dp) := by
  have hlay := readDecimal_layout neg ((intF ds dp).map dchar) ((fracF ds dp prec).map dchar) []
    (isDig_map (intF_lt hd dp)) (by simpa using intF_ne_nil ds dp) (isDig_map (fracF_lt hd dp prec)) (by simp)
  rw [fmtF_eq neg hd dp x prec, ← List.append_nil (_ ++ _), hlay, ← List.map_append,
    readNumeral_map (by norm_num) (by
      intro d hd'
      rcases List.mem_append.1 hd' with h | h
      · exact intF_lt hd dp d h
      · exact fracF_lt hd dp prec d h)]
  simp only [readExp, Option.bind_some, Option.map_some, List.length_map, fracF_length]
  congr 2
  show (dv (intF ds dp ++ fracF ds dp prec) : ℚ) * _ = _
  by_cases h0 : ds = []
  · subst h0
    have hz : dv (intF [] dp ++ fracF [] dp prec) = 0 := by
      rw [dv_append]
      have h1 : dv (intF [] dp) = 0 := by
        unfold intF
        split
        · rw [padTake_zeros (by simp)]; exact dv_zeros _
        · rfl
      have h2 : dv (fracF [] dp prec) = 0 := by
        unfold fracF
        have : (List.range prec.toNat).map (fun i : ℕ => if 0 ≤ dp + i then ([] : List ℕ).getD (dp + i).toNat 0 else 0) =
            List.replicate prec.toNat 0 := by
          rw [List.eq_replicate_iff]
          refine ⟨by simp, fun b hb => ?_⟩
          simp only [List.mem_map, List.mem_range] at hb
          obtain ⟨i, hi, rfl⟩ := hb
          simp
        rw [this]; exact dv_zeros _
      rw [h1, h2]; simp
    rw [hz]; simp [decValue]
  · have hl' := hl.resolve_right h0
    rw [f_digits ds dp prec (by omega) hp0, ← padTake_value (dp := dp) (n := (dp + prec).toNat) (by omega)]
    congr 2
    omega

end GoFloat.Strconv
