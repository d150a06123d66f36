import Verif.Proofs.Sample
import Verif.Props.FtoaLayout
/-
What the letter of the format changes in the text of FormatFloat (C64 of properties.jsonl).
-/
namespace GoFloat.Strconv
open Spec

/-- A text with every `e` made a capital. -/
def capital (t : Text) : Text := t.map fun c => if c = 'e' then 'E' else c

variable {W : ℕ} {F : Format} {size : ℤ} {fmt : Char} {prec : ℤ} {c : ℕ} {s : Bool} {m : ℚ} {val : F64}

theorem capital_append (a b : Text) : capital (a ++ b) = capital a ++ capital b := List.map_append

theorem capital_digits {l : List ℕ} (h : ∀ d ∈ l, d < 10) : capital (l.map dchar) = l.map dchar := by
  unfold capital
  rw [List.map_map]
  apply List.map_congr_left
  intro d hd
  have := h d hd
  interval_cases d <;> decide

theorem capital_minus (neg : Bool) : capital (if neg then ['-'] else []) = if neg then ['-'] else [] := by
  cases neg <;> decide

theorem capital_pointed {l : List ℕ} (h : ∀ d ∈ l, d < 10) :
    capital (if l.map dchar = [] then [] else '.' :: l.map dchar) = if l.map dchar = [] then [] else '.' :: l.map dchar := by
  split
  · rfl
  · have := capital_digits h
    unfold capital at *
    rw [List.map_cons, this]
    rfl

theorem fmtE_capital (neg : Bool) {ds : List ℕ} (hd : ∀ d ∈ ds, d < 10) (dp : ℤ) (x : Bool) (prec : ℤ) (he : (expOf ds dp).natAbs < 1000) :
    fmtE neg ⟨ds.map (· + 48), dp, x⟩ prec 'E' = capital (fmtE neg ⟨ds.map (· + 48), dp, x⟩ prec 'e') := by
  rw [fmtE_eq neg hd dp x prec 'E' he, fmtE_eq neg hd dp x prec 'e' he, capital_append, capital_append, capital_append, capital_minus,
    capital_pointed (fracE_lt hd prec)]
  congr 1
  · congr 2
    exact (capital_digits (l := [ds.getD 0 0]) (by simpa using getD_lt hd 0)).symm
  · unfold expText
    have : capital ((expDigits (expOf ds dp).natAbs).map dchar) = _ := capital_digits (expDigits_lt _)
    unfold capital at *
    rw [List.map_cons, List.map_cons, this]
    congr 2
    split <;> decide

theorem fmtF_capital (neg : Bool) {ds : List ℕ} (hd : ∀ d ∈ ds, d < 10) (dp : ℤ) (x : Bool) (prec : ℤ) :
    capital (fmtF neg ⟨ds.map (· + 48), dp, x⟩ prec) = fmtF neg ⟨ds.map (· + 48), dp, x⟩ prec := by
  rw [fmtF_eq neg hd dp x prec, capital_append, capital_append, capital_minus, capital_pointed (fracF_lt hd dp prec), capital_digits (intF_lt hd dp)]

/-- `formatDigits` for `'g'` and `'G'`. -/
theorem formatDigits_gG (short neg : Bool) (digs : DecimalSlice) (prec : ℤ) (hfmt : fmt = 'g' ∨ fmt = 'G') : formatDigits short neg digs prec fmt =
    if digs.dp - 1 < -4 ∨ digs.dp - 1 ≥ (if short then 6 else if prec > digs.nd ∧ (digs.nd : ℤ) ≥ digs.dp then (digs.nd : ℤ) else prec) then
      fmtE neg digs ((if prec > digs.nd then (digs.nd : ℤ) else prec) - 1) (if fmt = 'g' then 'e' else 'E')
    else fmtF neg digs (max ((if prec > digs.dp then (digs.nd : ℤ) else prec) - digs.dp) 0) := by
  unfold formatDigits
  rcases hfmt with rfl | rfl <;> rfl

theorem formatDigits_capital (short neg : Bool) {ds : List ℕ} (hd : ∀ d ∈ ds, d < 10) (dp : ℤ) (x : Bool) (prec : ℤ) (he : (expOf ds dp).natAbs < 1000) :
    formatDigits short neg ⟨ds.map (· + 48), dp, x⟩ prec 'E' = capital (formatDigits short neg ⟨ds.map (· + 48), dp, x⟩ prec 'e') ∧
    formatDigits short neg ⟨ds.map (· + 48), dp, x⟩ prec 'G' = capital (formatDigits short neg ⟨ds.map (· + 48), dp, x⟩ prec 'g') := by
  refine ⟨fmtE_capital neg hd dp x prec he, ?_⟩
  rw [formatDigits_gG _ _ _ _ (Or.inl rfl), formatDigits_gG _ _ _ _ (Or.inr rfl)]
  dsimp only
  generalize (if short = true then (6 : ℤ) else _) = e
  split
  · exact fmtE_capital neg hd dp x _ he
  · exact (fmtF_capital neg hd dp x _).symm

theorem capital_finite (hW : W = 32 ∨ W = 64) (hS : SizeOf F size) (prec : ℤ) (opt : Bool) (hc : F.decode c = .num s m)
    (hd : double.decode val.toNat = .num s m) :
    genericFtoa W opt val 'E' prec size = (genericFtoa W opt val 'e' prec size).map capital ∧
    genericFtoa W opt val 'G' prec size = (genericFtoa W opt val 'g' prec size).map capital := by
  have de : DecimalFormat 'e' := by simp [DecimalFormat]
  have dE : DecimalFormat 'E' := by simp [DecimalFormat]
  have dg : DecimalFormat 'g' := by simp [DecimalFormat]
  have dG : DecimalFormat 'G' := by simp [DecimalFormat]
  by_cases hp : prec < 0
  · obtain ⟨ds, dp, x, h1, h2, h3, h4, h5, -⟩ := short_digits hW hS opt hc hd
    rw [h5 hp de, h5 hp dE, h5 hp dg, h5 hp dG]
    have h := fun p => formatDigits_capital true s h1.digit dp x p h4
    exact ⟨congrArg Except.ok (h _).1, congrArg Except.ok (h _).2⟩
  · push Not at hp
    have key : ∀ a b, DecimalFormat a → DecimalFormat b → a ≠ 'f' → b ≠ 'f' → (if a = 'g' ∨ a = 'G' then max prec 1 else prec + 1) = (if b = 'g' ∨ b = 'G' then max prec 1 else prec + 1) →
        (if a = 'g' ∨ a = 'G' then max prec 1 else prec) = (if b = 'g' ∨ b = 'G' then max prec 1 else prec) →
        ∃ (ds : List ℕ) (dp : ℤ) (p : ℤ), (∀ d ∈ ds, d < 10) ∧ (expOf ds dp).natAbs < 1000 ∧
          genericFtoa W opt val a prec size = .ok (formatDigits false s ⟨ds.map (· + 48), dp, false⟩ p a) ∧
          genericFtoa W opt val b prec size = .ok (formatDigits false s ⟨ds.map (· + 48), dp, false⟩ p b) := by
      intro a b ha hb fa fb h1 h2
      obtain ⟨ds, dp, a1, a2, a3, a4, a5, a6⟩ := fixed_text_eg hW hS ha fa hp opt hc hd
      obtain ⟨ds', dp', b1, b2, b3, b4, b5, b6⟩ := fixed_text_eg hW hS hb fb hp opt hc hd
      rw [← h1] at b4
      have hv : decValue ds dp = decValue ds' dp' := by
        by_cases hm : m = 0
        · rw [a2.2 hm, b2.2 hm]; simp [decValue]
        · exact roundedDigits_unique (by split <;> omega) (a4 hm) (b4 hm)
      obtain ⟨rfl, rfl⟩ := normal_unique a1 b1 hv
      exact ⟨ds, dp, _, a1.digit, a5, a6, by rw [b6, h2]⟩
    constructor
    · obtain ⟨ds, dp, p, h1, h2, h3, h4⟩ := key 'e' 'E' de dE (by decide) (by decide) rfl rfl
      rw [h3, h4]
      exact congrArg Except.ok (formatDigits_capital false s h1 dp false p h2).1
    · obtain ⟨ds, dp, p, h1, h2, h3, h4⟩ := key 'g' 'G' dg dG (by decide) (by decide) rfl rfl
      rw [h3, h4]
      exact congrArg Except.ok (formatDigits_capital false s h1 dp false p h2).2

/-- C64: `'E'` and `'G'` print what `'e'` and `'g'` print, with a capital `E`, for every float64, precision and size (an illegal size
panics with all four). -/
theorem C64_capital (hW : W = 32 ∨ W = 64) (val : F64) (prec size : ℤ) (opt : Bool) :
    genericFtoa W opt val 'E' prec size = (genericFtoa W opt val 'e' prec size).map capital ∧
    genericFtoa W opt val 'G' prec size = (genericFtoa W opt val 'g' prec size).map capital := by
  by_cases hsize : size = 16 ∨ size = 32 ∨ size = 64
  · obtain ⟨F, v, d, hS, h1, h2, h3⟩ := by_size_all hsize val
    simp only [h1]
    cases d with
    | nan s => simp only [(C46_special hS _ prec opt v).1 s h2]; constructor <;> rfl
    | inf s => simp only [(C46_special hS _ prec opt v).2 s h2]; cases s <;> constructor <;> rfl
    | num s m =>
      obtain ⟨c, hc⟩ := h3
      exact capital_finite hW hS prec opt hc h2
  · push Not at hsize
    unfold genericFtoa
    simp only [if_neg hsize.1, if_neg hsize.2.1, if_neg hsize.2.2]
    constructor <;> rfl

example := C64_capital (W := 64) (.inr rfl) 0xBFF6000000000000 20 32 true

/-- C64: all negative precisions are the same, for every float64, format letter and size. -/
theorem C64_negative {prec prec' : ℤ} (hp : prec < 0) (hp' : prec' < 0) (hfmt : KnownFormat fmt) (W : ℕ) (val : F64) (size : ℤ) (opt : Bool) :
    genericFtoa W opt val fmt prec size = genericFtoa W opt val fmt prec' size := by
  have hfmt : fmt = 'b' ∨ (fmt = 'e' ∨ fmt = 'E') ∨ fmt = 'f' ∨ (fmt = 'g' ∨ fmt = 'G') := by
    rcases hfmt with h | h
    · exact Or.inl h
    · simp only [DecimalFormat, List.mem_cons, List.not_mem_nil, or_false] at h
      tauto
  have hpr : ∀ (a b c : ℤ), (if fmt = 'e' ∨ fmt = 'E' then a else if fmt = 'f' then b else if fmt = 'g' ∨ fmt = 'G' then c else prec) =
      (if fmt = 'e' ∨ fmt = 'E' then a else if fmt = 'f' then b else if fmt = 'g' ∨ fmt = 'G' then c else prec') ∨ fmt = 'b' := by
    intro a b c
    rcases hfmt with h | h | h | h
    · exact Or.inr h
    · left; rw [if_pos h, if_pos h]
    · left; subst h; rfl
    · left
      rcases h with rfl | rfl <;> rfl
  by_cases hb : fmt = 'b'
  · subst hb
    rfl
  have hpr : ∀ (a b c : ℤ), (if fmt = 'e' ∨ fmt = 'E' then a else if fmt = 'f' then b else if fmt = 'g' ∨ fmt = 'G' then c else prec) =
      (if fmt = 'e' ∨ fmt = 'E' then a else if fmt = 'f' then b else if fmt = 'g' ∨ fmt = 'G' then c else prec') := fun a b c => (hpr a b c).resolve_right hb
  have hbig : ∀ neg mant exp flt, bigFtoa W prec fmt neg mant exp flt = bigFtoa W prec' fmt neg mant exp flt := by
    intro neg mant exp flt
    unfold bigFtoa
    simp only [if_pos hp, if_pos hp', hpr]
  have hfin : ∀ neg mant exp flt, ftoaFinite W opt fmt prec neg mant exp flt = ftoaFinite W opt fmt prec' neg mant exp flt := by
    intro neg mant exp flt
    unfold ftoaFinite
    simp only [if_pos hp, if_pos hp', hpr, hbig]
  unfold genericFtoa ftoaBits
  simp only [hfin]

example := C64_negative (prec := -1) (prec' := -7) (fmt := 'g') (by norm_num) (by norm_num) (.inr (by simp [DecimalFormat])) 64 0xBFF6000000000000 32 true

/-- C64: with a negative precision the letter does not change the number that is printed, nor its digits: `'g'` prints the text of
`'f'` for zero and from 0.0001 up to, but without, a million; and otherwise the text of `'e'`. -/
theorem C64_shortest (hW : W = 32 ∨ W = 64) (hS : SizeOf F size) (hp : prec < 0) (opt : Bool) (hc : F.decode c = .num s m)
    (hd : double.decode val.toNat = .num s m) :
    ∃ q, (∀ fmt, DecimalFormat fmt → ∃ t, genericFtoa W opt val fmt prec size = .ok t ∧ readDecimal t = some (s, q)) ∧
      genericFtoa W opt val 'g' prec size =
        genericFtoa W opt val (if q = 0 ∨ (1 / 10000 ≤ q ∧ q < 1000000) then 'f' else 'e') prec size := by
  have de : DecimalFormat 'e' := by simp [DecimalFormat]
  have df : DecimalFormat 'f' := by simp [DecimalFormat]
  have dg : DecimalFormat 'g' := by simp [DecimalFormat]
  obtain ⟨ds, dp, x, h1, h2, h3, h4, h5, -⟩ := short_digits hW hS opt hc hd
  refine ⟨decValue ds dp, fun fmt hfmt => ⟨_, h5 hp hfmt, formatDigits_shortest_read s h1.digit dp x hfmt.digit h4⟩, ?_⟩
  have hiff : (decValue ds dp = 0 ∨ (1 / 10000 ≤ decValue ds dp ∧ decValue ds dp < 1000000)) ↔ ¬ (dp - 1 < -4 ∨ dp - 1 ≥ 6) := by
    by_cases hne : ds = []
    · subst hne
      rw [h1.zero rfl]
      simp [decValue]
    · obtain ⟨p1, p2⟩ := decValue_pos h1 hne
      have p0 : (0 : ℚ) < (10 : ℚ) ^ (dp - 1) := by positivity
      constructor
      · rintro (h | ⟨ha, hb⟩)
        · linarith
        · rintro (hlt | hge)
          · have : (10 : ℚ) ^ dp ≤ (10 : ℚ) ^ (-4 : ℤ) := zpow_le_zpow_right₀ (by norm_num) (by omega)
            norm_num at this ha
            linarith
          · have : (10 : ℚ) ^ (6 : ℤ) ≤ (10 : ℚ) ^ (dp - 1) := zpow_le_zpow_right₀ (by norm_num) (by omega)
            norm_num at this hb
            linarith
      · intro h
        push Not at h
        right
        have a : (10 : ℚ) ^ (-4 : ℤ) ≤ (10 : ℚ) ^ (dp - 1) := zpow_le_zpow_right₀ (by norm_num) (by omega)
        have b : (10 : ℚ) ^ dp ≤ (10 : ℚ) ^ (6 : ℤ) := zpow_le_zpow_right₀ (by norm_num) (by omega)
        norm_num at a b ⊢
        constructor <;> linarith
  have hnd : DecimalSlice.nd ⟨ds.map (· + 48), dp, x⟩ = ds.length := by simp [DecimalSlice.nd]
  rw [h5 hp dg, formatDigits_gG _ _ _ _ (Or.inl rfl)]
  simp only [if_true, hnd, hiff]
  by_cases hx : dp - 1 < -4 ∨ dp - 1 ≥ 6
  · rw [if_pos hx, if_neg (not_not.2 hx), h5 hp de]
    show _ = Except.ok (fmtE _ _ _ _)
    unfold shortPrec
    simp
  · rw [if_neg hx, if_pos hx, h5 hp df]
    show _ = Except.ok (fmtF _ _ _)
    unfold shortPrec
    simp only [show ¬ ('g' = 'e' ∨ 'g' = 'E') by decide, show ¬ ('f' = 'e' ∨ 'f' = 'E') by decide, show ¬ 'g' = 'f' by decide, if_false, if_true, ite_self]

example := C64_shortest (W := 64) (.inr rfl) (F := half) (size := 16) (.inl ⟨rfl, rfl⟩) (prec := -1) (by norm_num) true Sample.x_half (val := 0xBFF6000000000000) Sample.x_double

/-- C64: with a precision `'g'` with `n + 1` digits prints the same number as `'e'` with `n` digits after the point; precision 0 is
precision 1. -/
theorem C64_fixed (hW : W = 32 ∨ W = 64) (hS : SizeOf F size) (n : ℕ) (opt : Bool) (hc : F.decode c = .num s m)
    (hd : double.decode val.toNat = .num s m) :
    (∃ q te tg, genericFtoa W opt val 'e' n size = .ok te ∧ readDecimal te = some (s, q) ∧
      genericFtoa W opt val 'g' (n + 1) size = .ok tg ∧ readDecimal tg = some (s, q)) ∧
    genericFtoa W opt val 'g' 0 size = genericFtoa W opt val 'g' 1 size := by
  constructor
  · obtain ⟨te, q, h1, h2, h3, h4⟩ := C47_exponential hW hS (fmt := 'e') (Or.inl rfl) (prec := n) (by omega) opt hc hd
    obtain ⟨tg, q', g1, g2, g3, g4⟩ := C47_general hW hS (fmt := 'g') (Or.inl rfl) (prec := n + 1) (by omega) opt hc hd
    refine ⟨q, te, tg, h1, h2, g1, ?_⟩
    rw [g2]
    by_cases hm : m = 0
    · rw [h3 hm, g3 hm]
    · have a := h4 hm
      have b := g4 hm
      rw [show max ((n : ℤ) + 1).toNat 1 = (n : ℤ).toNat + 1 by omega] at b
      rw [roundedDigits_unique (by omega) a b]
  · obtain ⟨k, j, N, hs, rfl, -⟩ := value_split hS.go hc
    have hg : DigitFmt 'g' := by unfold DigitFmt; simp
    rw [genericFtoa_finite hS hs hd, genericFtoa_finite hS hs hd, ftoaFinite_fixed hW hS.go hs opt (by norm_num) s hg,
      ftoaFinite_fixed hW hS.go hs opt (by norm_num) s hg]
    rfl

-- 1234567 and 0.5 in the formats
example : formatFloat 64 0x4132D68700000000 'g' (-1) 64 = .ok "1.234567e+06".toList ∧
    formatFloat 64 0x4132D68700000000 'G' (-1) 64 = .ok "1.234567E+06".toList ∧
    formatFloat 64 0x4132D68700000000 'f' (-7) 64 = .ok "1234567".toList := by decide +kernel
example : formatFloat 64 0x3FE0000000000000 'g' (-1) 32 = .ok "0.5".toList ∧
    formatFloat 64 0x3FE0000000000000 'e' (-1) 32 = .ok "5e-01".toList ∧
    formatFloat 64 0x7FF0000000000000 'E' 3 16 = .ok "+Inf".toList := by decide +kernel

end GoFloat.Strconv
