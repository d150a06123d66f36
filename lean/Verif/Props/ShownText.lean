import Verif.Proofs.Sample
import Verif.Proofs.TextUnique
import Verif.Props.FtoaLayout
import Verif.Props.FtoaFixed
import Verif.Props.ShortestExact
/-
C89: the text that `FormatFloat` returns for a finite float is exactly described: which number it denotes, and how it is laid out.
-/
namespace GoFloat.Strconv
open Spec

variable {W : ℕ} {F : Format} {size : ℤ} {fmt : Char} {prec : ℤ} {c : ℕ} {s : Bool} {m : ℚ} {val : F64} {t t' : Text} {q q' : ℚ}

/-- The number to be shown is determined. -/
theorem shows_unique (hS : SizeOf F size) (hc : F.decode c = .num s m) (h : F.Shows fmt prec s c m q) (h' : F.Shows fmt prec s c m q') : q = q' := by
  unfold Format.Shows at h h'
  by_cases hp : prec < 0
  · rw [if_pos hp] at h h'
    by_cases hm : m = 0
    · rw [h.1 hm, h'.1 hm]
    · obtain ⟨L, e, h⟩ := h.2 hm
      obtain ⟨L', e', h'⟩ := h'.2 hm
      exact (C77_determined hS hc h h').1
  · rw [if_neg hp] at h h'
    by_cases hf : fmt = 'f'
    · rw [if_pos hf] at h h'
      obtain ⟨z, h1, rfl⟩ := h
      obtain ⟨z', h1', rfl⟩ := h'
      have hz : z = z' := by exact_mod_cast nearestEven_unique h1 h1'
      rw [hz]
    · rw [if_neg hf] at h h'
      by_cases hm : m = 0
      · rw [h.1 hm, h'.1 hm]
      · exact roundedDigits_unique (by split <;> omega) (h.2 hm) (h'.2 hm)

/-- The number and the layout determine the text. -/
theorem layout_unique (hfmt : DecimalFormat fmt) (h : Layout fmt prec s q t) (h' : Layout fmt prec s q t')
    (hr : readDecimal t = some (s, q)) (hr' : readDecimal t' = some (s, q)) : t = t' := by
  obtain ⟨f, h1, h2⟩ := h
  obtain ⟨f', h1', h2'⟩ := h'
  have he : SameEnd f f' := by
    by_cases hp : prec < 0 ∨ fmt = 'g' ∨ fmt = 'G'
    · rw [if_pos hp] at h2 h2'
      exact Or.inr ⟨h2, h2'⟩
    · rw [if_neg hp] at h2 h2'
      exact Or.inl (h2.trans h2'.symm)
  by_cases hf : fmt = 'f'
  · rw [if_pos hf] at h1 h1'
    obtain ⟨i, h1⟩ := h1
    obtain ⟨i', h1'⟩ := h1'
    exact fixed_unique h1 h1' hr hr' he
  rw [if_neg hf] at h1 h1'
  by_cases hg : fmt = 'g' ∨ fmt = 'G'
  · rw [if_pos hg] at h1 h1'
    by_cases hx : q ≠ 0 ∧ (q < 1 / 10000 ∨ (10 : ℚ) ^ (if prec < 0 then 6 else max prec.toNat 1) ≤ q)
    · rw [if_pos hx] at h1 h1'
      exact shapeE_unique (by split <;> simp) h1 h1' hr hr' he
    · rw [if_neg hx] at h1 h1'
      obtain ⟨i, h1⟩ := h1
      obtain ⟨i', h1'⟩ := h1'
      exact fixed_unique h1 h1' hr hr' he
  · rw [if_neg hg] at h1 h1'
    refine shapeE_unique ?_ h1 h1' hr hr' he
    unfold DecimalFormat at hfmt
    simp only [List.mem_cons, List.not_mem_nil, or_false] at hfmt
    tauto

/-- The first digit of a number in exponential form is zero only if the number is. -/
theorem exponential_zero {letter d : Char} {frac : Text} {x : ℤ} (hle : letter = 'e' ∨ letter = 'E') (h : IsExponential letter t s d frac x)
    (hd : d ≠ '0') (hr : readDecimal t = some (s, q)) : q ≠ 0 := by
  obtain ⟨k, a, rfl, rfl, hk, ha, hv⟩ := exponential_read hle h
  rw [hr] at hv
  rw [(Prod.mk.inj (Option.some.inj hv)).2]
  have hk0 : k ≠ 0 := by
    rintro rfl
    exact hd rfl
  have h1 := dv_ge (ds := k :: a) (by simpa using hk0) (by simp)
  have h2 : 0 < dv (k :: a) := lt_of_lt_of_le (by positivity) h1
  have h3 : (0 : ℚ) < dv (k :: a) := by exact_mod_cast h2
  exact ne_of_gt (mul_pos h3 (by positivity))

/-- The number that is shown. -/
theorem shown_number (hW : W = 32 ∨ W = 64) (hS : SizeOf F size) (hfmt : DecimalFormat fmt) (prec : ℤ) (opt : Bool)
    (hc : F.decode c = .num s m) (hd : double.decode val.toNat = .num s m) :
    ∃ t q, genericFtoa W opt val fmt prec size = .ok t ∧ readDecimal t = some (s, q) ∧ F.Shows fmt prec s c m q := by
  unfold Format.Shows
  by_cases hp : prec < 0
  · simp only [if_pos hp]
    by_cases hm : m = 0
    · obtain ⟨ds, dp, x, h1, h2, -, h4, h5, -⟩ := short_text hW hS hfmt hp opt hc hd
      refine ⟨_, _, h5, formatDigits_shortest_read s h1.digit dp x hfmt.digit h4, fun _ => ?_, fun h => absurd hm h⟩
      rw [h2.2 hm, decValue_eq]
      simp [dv, digsVal]
    · obtain ⟨t, q, L, e, h1, h2, h3⟩ := C77_printed hW hS hfmt hp opt hc hm hd
      exact ⟨t, q, h1, h2, fun h => absurd h hm, fun _ => ⟨L, e, h3⟩⟩
  · simp only [if_neg hp]
    by_cases hf : fmt = 'f'
    · subst hf
      simp only [if_true]
      obtain ⟨t, z, h1, h2, h3⟩ := C47_fixed hW hS (not_lt.1 hp) opt hc hd
      exact ⟨t, _, h1, h2, z, h3, rfl⟩
    · simp only [if_neg hf]
      by_cases hg : fmt = 'g' ∨ fmt = 'G'
      · simp only [if_pos hg]
        exact C47_general hW hS hg (not_lt.1 hp) opt hc hd
      · simp only [if_neg hg]
        refine C47_exponential hW hS ?_ (not_lt.1 hp) opt hc hd
        unfold DecimalFormat at hfmt
        simp only [List.mem_cons, List.not_mem_nil, or_false] at hfmt
        tauto

/-- The text that is returned. -/
theorem shown_text (hW : W = 32 ∨ W = 64) (hS : SizeOf F size) (hfmt : DecimalFormat fmt) (prec : ℤ) (opt : Bool)
    (hc : F.decode c = .num s m) (hd : double.decode val.toNat = .num s m) :
    ∃ t q, genericFtoa W opt val fmt prec size = .ok t ∧ F.Shows fmt prec s c m q ∧ readDecimal t = some (s, q) ∧ Layout fmt prec s q t := by
  obtain ⟨t, q, h1, h2, h3⟩ := shown_number hW hS hfmt prec opt hc hd
  refine ⟨t, q, h1, h3, h2, ?_⟩
  unfold Layout
  by_cases hf : fmt = 'f'
  · subst hf
    obtain ⟨t', int, frac, g1, g2, g3, g4⟩ := C46_fixed hW hS prec opt hc hd
    obtain rfl : t = t' := by rw [h1] at g1; exact Except.ok.inj g1
    refine ⟨frac, by rw [if_pos rfl]; exact ⟨int, g2⟩, ?_⟩
    by_cases hp : prec < 0
    · rw [if_pos (Or.inl hp)]; exact g4 hp
    · rw [if_neg (by rintro (h | h | h); exacts [hp h, absurd h (by decide), absurd h (by decide)])]
      exact g3 (not_lt.1 hp)
  by_cases hg : fmt = 'g' ∨ fmt = 'G'
  · obtain ⟨t', q', g1, g2, g3⟩ := C46_general hW hS hg prec opt hc hd
    obtain rfl : t = t' := by rw [h1] at g1; exact Except.ok.inj g1
    obtain rfl : q = q' := by
      rw [h2] at g2
      exact (Prod.mk.inj (Option.some.inj g2)).2
    by_cases hx : q ≠ 0 ∧ (q < 1 / 10000 ∨ (10 : ℚ) ^ (if prec < 0 then 6 else max prec.toNat 1) ≤ q)
    · rw [if_pos hx] at g3
      obtain ⟨d, frac, x, k1, k2, k3⟩ := g3
      refine ⟨frac, ?_, by rw [if_pos (Or.inr hg)]; exact k3⟩
      rw [if_neg hf, if_pos hg, if_pos hx]
      exact ⟨d, x, k1, ⟨fun h => absurd h k2, fun h => absurd h hx.1⟩, fun h => absurd h hx.1⟩
    · rw [if_neg hx] at g3
      obtain ⟨int, frac, k1, k2⟩ := g3
      refine ⟨frac, ?_, by rw [if_pos (Or.inr hg)]; exact k2⟩
      rw [if_neg hf, if_pos hg, if_neg hx]
      exact ⟨int, k1⟩
  · have he : fmt = 'e' ∨ fmt = 'E' := by
      unfold DecimalFormat at hfmt
      simp only [List.mem_cons, List.not_mem_nil, or_false] at hfmt
      tauto
    obtain ⟨t', d, frac, x, g1, g2, g3, g4, g5, g6⟩ := C46_exponential hW hS he prec opt hc hd
    obtain rfl : t = t' := by rw [h1] at g1; exact Except.ok.inj g1
    have hq0 : q = 0 ↔ m = 0 := by
      constructor
      · intro h
        by_contra hm
        exact exponential_zero he g2 (fun h => hm (g3.1 h)) h2 h
      · intro hm
        unfold Format.Shows at h3
        rw [if_neg hf] at h3
        by_cases hp : prec < 0
        · rw [if_pos hp] at h3; exact h3.1 hm
        · rw [if_neg hp] at h3; exact h3.1 hm
    refine ⟨frac, ?_, ?_⟩
    · rw [if_neg hf, if_neg hg]
      exact ⟨d, x, g2, g3.trans hq0.symm, fun h => g4 (hq0.1 h)⟩
    · by_cases hp : prec < 0
      · rw [if_pos (Or.inl hp)]; exact g6 hp
      · rw [if_neg (by rintro (h | h); exacts [hp h, hg h])]; exact g5 (not_lt.1 hp)

/-- C89: the text returned for a finite float of the three sizes, in every decimal format, with every precision and with either algorithm, is the
one text that denotes the number to be shown and has the layout of the format. -/
theorem C89_text (hW : W = 32 ∨ W = 64) (hS : SizeOf F size) (hfmt : DecimalFormat fmt) (prec : ℤ) (opt : Bool)
    (hc : F.decode c = .num s m) (hd : double.decode val.toNat = .num s m) (t : Text) :
    genericFtoa W opt val fmt prec size = .ok t ↔
      ∃ q, F.Shows fmt prec s c m q ∧ readDecimal t = some (s, q) ∧ Layout fmt prec s q t := by
  obtain ⟨t₀, q₀, h1, h2, h3, h4⟩ := shown_text hW hS hfmt prec opt hc hd
  constructor
  · intro h
    obtain rfl : t₀ = t := by rw [h1] at h; exact Except.ok.inj h
    exact ⟨q₀, h2, h3, h4⟩
  · rintro ⟨q, g1, g2, g3⟩
    obtain rfl := shows_unique hS hc h2 g1
    rw [h1, layout_unique hfmt h4 g3 h3 g2]

example := C89_text (W := 64) (.inr rfl) (F := half) (size := 16) (.inl ⟨rfl, rfl⟩) (fmt := 'g') (by simp [DecimalFormat]) 3 true Sample.x_half (val := 0xBFF6000000000000) Sample.x_double "-1.38".toList

/-- C89 for `FormatFloat` and `AppendFloat` themselves. -/
theorem C89_formatFloat (hW : W = 32 ∨ W = 64) (hS : SizeOf F size) (hfmt : DecimalFormat fmt) (prec : ℤ)
    (hc : F.decode c = .num s m) (hd : double.decode val.toNat = .num s m) (t dst : Text) :
    (formatFloat W val fmt prec size = .ok t ↔ ∃ q, F.Shows fmt prec s c m q ∧ readDecimal t = some (s, q) ∧ Layout fmt prec s q t) ∧
    (appendFloat W dst val fmt prec size = .ok (dst ++ t) ↔ ∃ q, F.Shows fmt prec s c m q ∧ readDecimal t = some (s, q) ∧ Layout fmt prec s q t) := by
  have h := C89_text hW hS hfmt prec true hc hd t
  refine ⟨h, ?_⟩
  rw [← h, C46_append]
  change (genericFtoa W true val fmt prec size).map (dst ++ ·) = _ ↔ _
  cases genericFtoa W true val fmt prec size with
  | error p => simp [Except.map]
  | ok r => simp [Except.map]

example := C89_formatFloat (W := 64) (.inr rfl) (F := half) (size := 16) (.inl ⟨rfl, rfl⟩) (fmt := 'g') (by simp [DecimalFormat]) 3 Sample.x_half (val := 0xBFF6000000000000) Sample.x_double "-1.38".toList "x=".toList

/-- The mantissa and the exponent of a float are determined. -/
theorem parts_determined {a b : ℕ} {x y : ℤ} (h : F.Parts a x m) (h' : F.Parts b y m) : a = b ∧ x = y := by
  have key : ∀ {a b : ℕ} {x y : ℤ}, F.Parts a x m → F.Parts b y m → y ≤ x := by
    intro a b x y h h'
    by_contra hc
    have hy : 2 ^ F.t ≤ b := by
      rcases h'.norm with h1 | h1
      · exact h1
      · have := h.ge; omega
    have h1 : (2 : ℚ) ^ F.t ≤ b := by exact_mod_cast hy
    have h2 : (a : ℚ) < 2 ^ (F.t + 1) := by exact_mod_cast h.lt
    have h3 : (2 : ℚ) ^ (x - F.t + 1) ≤ (2 : ℚ) ^ (y - F.t) := zpow_le_zpow_right₀ (by norm_num) (by omega)
    have h4 : (0 : ℚ) < (2 : ℚ) ^ (x - F.t) := by positivity
    rw [zpow_add_one₀ (by norm_num)] at h3
    have h5 : (a : ℚ) * (2 : ℚ) ^ (x - F.t) < 2 ^ (F.t + 1) * (2 : ℚ) ^ (x - F.t) := mul_lt_mul_of_pos_right h2 h4
    have h6 : (2 : ℚ) ^ F.t * ((2 : ℚ) ^ (x - F.t) * 2) ≤ b * (2 : ℚ) ^ (y - F.t) := by
      refine mul_le_mul h1 h3 (by positivity) (by positivity)
    rw [← h.value, pow_succ] at h5
    rw [← h'.value] at h6
    have : (2 : ℚ) ^ F.t * 2 * (2 : ℚ) ^ (x - F.t) = (2 : ℚ) ^ F.t * ((2 : ℚ) ^ (x - F.t) * 2) := by ring
    linarith
  have hxy : x = y := le_antisymm (key h' h) (key h h')
  subst hxy
  have := h.value.symm.trans h'.value
  have hp : (2 : ℚ) ^ (x - F.t) ≠ 0 := by positivity
  exact ⟨by exact_mod_cast mul_right_cancel₀ hp this, rfl⟩

/-- C89, the format `b`: the one text of the mantissa and the exponent of the encoding, whatever the precision. -/
theorem C89_binary (hW : W = 32 ∨ W = 64) (hS : SizeOf F size) (prec : ℤ) (opt : Bool)
    (hc : F.decode c = .num s m) (hd : double.decode val.toNat = .num s m) (t : Text) :
    genericFtoa W opt val 'b' prec size = .ok t ↔ ∃ mant exp, F.Parts mant exp m ∧ IsBinary t s mant (exp - F.t) := by
  obtain ⟨t₀, a, x, h1, h2, b, e, h3, h4, h5⟩ := C46_binary hW hS prec opt hc hd
  constructor
  · intro h
    obtain rfl : t₀ = t := by rw [h1] at h; exact Except.ok.inj h
    exact ⟨a, x, h2, b, e, h3, h4, h5⟩
  · rintro ⟨a', x', h2', b', e', h3', h4', h5'⟩
    obtain ⟨rfl, rfl⟩ := parts_determined h2 h2'
    obtain rfl := isNumeral_unique (by norm_num) h3 h3'
    obtain rfl := isNumeral_unique (by norm_num) h4 h4'
    rw [h1, h5, h5']

-- the statement gives the text of a number from the specification alone: -1.5 with two digits after the point is "-1.50e+00"
example : formatFloat 64 0xBFF8000000000000 'e' 2 64 = .ok "-1.50e+00".toList := by
  refine (C89_text (F := double) (c := 0xBFF8000000000000) (s := true) (m := 3 / 2) (Or.inr rfl) (Or.inr (Or.inr ⟨rfl, rfl⟩)) (by unfold DecimalFormat; simp) 2 true ?_ ?_ _).2
    ⟨3 / 2, ?_, ?_, ?_⟩
  · norm_num [double, Format.decode, Format.bias]
  · show double.decode 0xBFF8000000000000 = _
    norm_num [double, Format.decode, Format.bias]
  · unfold Format.Shows
    rw [if_neg (by norm_num), if_neg (by decide)]
    refine ⟨fun h => by norm_num at h, fun _ => ⟨150, -2, ?_, ?_, ?_, ?_⟩⟩
    · rw [if_neg (by decide), show (2 : ℤ).toNat = 2 from rfl]; norm_num
    · rw [if_neg (by decide), show (2 : ℤ).toNat = 2 from rfl]; norm_num
    · constructor <;> norm_num
    · norm_num
  · decide +kernel
  · refine ⟨"50".toList, ?_, ?_⟩
    · rw [if_neg (by decide), if_neg (by decide)]
      exact ⟨'1', 0, ⟨⟨"00".toList, ⟨by decide, by decide, by decide⟩, by decide⟩, by decide⟩, ⟨fun h => absurd h (by decide), fun h => by norm_num at h⟩, fun h => rfl⟩
    · decide
-- and the other texts are not returned
example : formatFloat 64 0xBFF8000000000000 'e' 2 64 ≠ .ok "-1.5e+00".toList ∧ formatFloat 64 0xBFF8000000000000 'b' 2 64 = .ok "-6755399441055744p-52".toList := by
  decide +kernel

end GoFloat.Strconv
