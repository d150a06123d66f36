import Verif.Proofs.Sample
import Verif.Props.Optimise
/-
Exactly which decimal FormatFloat prints with a negative precision (C77 of properties.jsonl).
-/
namespace GoFloat.Strconv
open Spec

variable {F : Format} {n k N : ℕ}

theorem adjacent_unique {a b b' : ℚ} (h : F.Adjacent a b) (h' : F.Adjacent a b') : b = b' := by
  have h1 := (h.none _ h'.right).resolve_left (not_le.2 h'.lt)
  have h2 := (h'.none _ h.right).resolve_left (not_le.2 h.lt)
  exact le_antisymm h1 h2

/-- The place of the last of the first `L` digits of `m`. -/
theorem place_unique {m : ℚ} {L : ℕ} {e e' : ℤ} (h1 : (10 : ℚ) ^ (e + L - 1) ≤ m) (h2 : m < (10 : ℚ) ^ (e + L))
    (h1' : (10 : ℚ) ^ (e' + L - 1) ≤ m) (h2' : m < (10 : ℚ) ^ (e' + L)) : e = e' := by
  have a := (zpow_lt_zpow_iff_right₀ (by norm_num : (1 : ℚ) < 10)).1 (lt_of_le_of_lt h1 h2')
  have b := (zpow_lt_zpow_iff_right₀ (by norm_num : (1 : ℚ) < 10)).1 (lt_of_le_of_lt h1' h2)
  omega

theorem adjacent_unique_left {a a' b : ℚ} (h : F.Adjacent a b) (h' : F.Adjacent a' b) : a = a' := by
  have h1 := (h.none _ h'.left).resolve_right (not_le.2 h'.lt)
  have h2 := (h'.none _ h.left).resolve_right (not_le.2 h.lt)
  exact le_antisymm h2 h1

theorem rounded_place {m : ℚ} {L : ℕ} {e e' : ℤ} (hL : 1 ≤ L) (h1 : (10 : ℚ) ^ (e + L - 1) ≤ m) (h2 : m < (10 : ℚ) ^ (e + L))
    (a1 : (10 : ℚ) ^ (L - 1) ≤ m / (10 : ℚ) ^ e') (a2 : m / (10 : ℚ) ^ e' < 10 ^ L) : e = e' := by
  have hu' : (0 : ℚ) < (10 : ℚ) ^ e' := zpow_pos (by norm_num) _
  refine place_unique h1 h2 (L := L) ?_ ?_
  · rw [le_div_iff₀ hu', ← zpow_natCast, ← zpow_add₀ (by norm_num)] at a1
    rwa [show e' + (L : ℤ) - 1 = ((L - 1 : ℕ) : ℤ) + e' by omega]
  · rw [div_lt_iff₀ hu', ← zpow_natCast, ← zpow_add₀ (by norm_num)] at a2
    rwa [add_comm]

theorem prefer_antisymm {u v : ℚ} (hu : 0 < u) {w z : ℤ} (h1 : Prefer u v w z) (h2 : Prefer u v z w) (hmid : ∀ x : ℤ, v = x * u → Prefer u v w x) : w = z := by
  by_contra hne
  rcases h1 with h1 | h1 | ⟨h1, e1⟩
  · exact hne h1.symm
  · exact absurd h2.le (not_le.2 h1)
  · rcases h2 with h2 | h2 | ⟨-, e2⟩
    · exact hne h2
    · exact absurd h1 h2.ne'
    · have hs : v = ((w + z) / 2 : ℤ) * u := by
        have hq : (((w + z) / 2 : ℤ) : ℚ) * 2 = w + z := by
          have : (w + z) / 2 * 2 = w + z := by omega
          exact_mod_cast this
        rcases abs_eq_abs.1 h1 with h | h
        · exfalso
          have : ((w : ℚ) - z) * u = 0 := by linarith
          rcases mul_eq_zero.1 this with h | h
          · exact hne (by exact_mod_cast sub_eq_zero.1 h)
          · exact hu.ne' h
        · have : 2 * v = (((w + z) / 2 : ℤ) : ℚ) * 2 * u := by rw [hq]; linarith
          linarith
      have h3 := (hmid _ hs).le
      rw [← hs, sub_self, abs_zero] at h3
      have h4 : (w : ℚ) * u = v := sub_eq_zero.1 (abs_eq_zero.1 (le_antisymm h3 (abs_nonneg _)))
      rw [h4, sub_self, abs_zero] at h1
      have h5 : (z : ℚ) * u = v := sub_eq_zero.1 (abs_eq_zero.1 h1.symm)
      have := mul_right_cancel₀ hu.ne' (h4.trans h5.symm)
      exact hne (by exact_mod_cast this)

/-- The description determines the decimal. -/
theorem printed_unique {neg : Bool} {c : ℕ} {m q q' : ℚ} {L L' : ℕ} {e e' : ℤ} (hm : F.RoundsTo neg m c)
    (h : F.Printed neg c m q L e) (h' : F.Printed neg c m q' L' e') : q = q' ∧ L = L' ∧ e = e' := by
  obtain rfl : L = L' := le_antisymm (h.least _ _ h'.fits h'.reads) (h'.least _ _ h.fits h.reads)
  obtain rfl : e = e' := place_unique h.lower h.upper h'.lower h'.upper
  refine ⟨?_, rfl, rfl⟩
  have hu : (0 : ℚ) < (10 : ℚ) ^ e := zpow_pos (by norm_num) _
  by_cases hx : F.Exceptional c m L
  · obtain ⟨w, rfl, h1, h2⟩ := h.cut hx
    obtain ⟨w', rfl, h1', h2'⟩ := h'.cut hx
    generalize (10 : ℚ) ^ e = u at *
    have a : (w : ℚ) * u < (w' + 1) * u := by linarith
    have b : (w' : ℚ) * u < (w + 1) * u := by linarith
    have a' : w < w' + 1 := by exact_mod_cast lt_of_mul_lt_mul_right a hu.le
    have b' : w' < w + 1 := by exact_mod_cast lt_of_mul_lt_mul_right b hu.le
    rw [show w = w' by omega]
  · obtain ⟨w, rfl, h1⟩ := h.pick hx
    obtain ⟨w', rfl, h1'⟩ := h'.pick hx
    have := prefer_antisymm hu (h1 w' h'.reads) (h1' w h.reads) (fun x hxm => by
      have hmp : 0 < m := lt_of_lt_of_le (zpow_pos (by norm_num) _) h.lower
      have hx0 : 0 ≤ x := by
        rw [hxm] at hmp
        have := pos_of_mul_pos_left hmp hu.le
        exact_mod_cast this.le
      obtain ⟨y, rfl⟩ := Int.eq_ofNat_of_zero_le hx0
      refine h1 y ?_
      rw [Int.cast_natCast] at hxm
      rw [← hxm]
      exact hm)
    rw [show w = w' by exact_mod_cast this]

/-- The digits of the exact path, and so of either. -/
theorem short_digits_exact {W : ℕ} (hW : W = 32 ∨ W = 64) {size : ℤ} (hS : SizeOf F size) (opt : Bool) {c : ℕ} {s : Bool} {m : ℚ}
    (hc : F.decode c = .num s m) (hm0 : m ≠ 0) {val : F64} (hd : double.decode val.toNat = .num s m) :
    ∃ ds dp L e, NormalDec ds dp ∧ ds.length = L ∧ (expOf ds dp).natAbs < 1000 ∧
      (∀ {prec : ℤ} (_ : prec < 0) {fmt : Char} (_ : DecimalFormat fmt),
        genericFtoa W opt val fmt prec size = .ok (formatDigits true s ⟨ds.map (· + 48), dp, false⟩ (shortPrec fmt ds.length dp) fmt)) ∧
      F.Printed s c m (decValue ds dp) L e := by
  have hF := hS.go
  obtain ⟨n, k, N, hs, rfl, d1, d2, hz⟩ := value_split hF hc
  have hb := hF.bounds
  have hN0 : N ≠ 0 := fun h => hm0 (hz.1 h)
  have hn0 : n ≠ 0 := fun hc => hN0 (hs.zero_iff.2 hc)
  obtain ⟨ds, dp, h1, h2, h3, h4, h5⟩ := bigFtoa_shortest hW hF hs s
  obtain ⟨L, e, w, p1, p2, p3, p4, p5, p6, p7, p8⟩ := (h4 hN0).2
  have hri : ∀ y, 0 ≤ y → (F.RoundsTo s y c ↔ InInterval F n y) := fun y hy =>
    (roundsTo_congr d1 d2).trans (roundsTo_iff F (by omega) (by omega) s hs.fin hy)
  have hbi : ∀ y, Between ((F.magc (n - 1) + F.magc n) / 2) ((F.magc n + F.magc (n + 1)) / 2) (decide (n % 2 = 0)) y ↔ InInterval F n y :=
    fun y => between_iff hn0 (by ring) (by ring)
  have hfn : ∀ {j y}, FitsDigits j y → 0 ≤ y := by
    rintro j y ⟨a, e, -, rfl⟩
    positivity
  have hu : (0 : ℚ) < (10 : ℚ) ^ e := zpow_pos (by norm_num) _
  have hq0 : 0 ≤ decValue ds dp := by rw [decValue_eq]; positivity
  have hw0 : 0 ≤ w := by
    rw [p6] at hq0
    have := nonneg_of_mul_nonneg_left hq0 hu
    exact_mod_cast this
  obtain ⟨w, rfl⟩ := Int.eq_ofNat_of_zero_le hw0
  rw [Int.cast_natCast] at p6 p7
  have hlen : ds.length = L := le_antisymm p2 (p5 _ _ (fits_dec h1.digit) ((hbi _).2 h3))
  have hex : (decide (n % 2 = 0) = false ∧ FitsDigits (L - 1) ((F.magc n + F.magc (n + 1)) / 2)) ↔ F.Exceptional c (F.magc n) L := by
    unfold Format.Exceptional
    have hadj : F.Adjacent (F.magc n) (F.magc (n + 1)) := adjacent_magc (by omega) hs.fin
    have hev := signPart_even F (by omega) s
    rw [decide_eq_false_iff_not]
    constructor
    · rintro ⟨a, b⟩
      exact ⟨by omega, _, hadj, b⟩
    · rintro ⟨a, r, hr, b⟩
      rw [← adjacent_unique hadj hr] at b
      exact ⟨by omega, b⟩
  refine ⟨ds, dp, L, e, h1, hlen, ?_, fun {prec} hp {fmt} hfmt => ?_, p1, p3, p4, fun j y hy hr => p5 j y hy ((hbi y).2 ((hri y (hfn hy)).1 hr)),
    by rw [← hlen]; exact fits_dec h1.digit, (hri _ hq0).2 h3, fun hx => ?_, fun hx => ?_⟩
  · obtain ⟨r1, r2⟩ := interval_range hF hs hN0 h3
    exact expOf_small h1 (Or.inr r1) r2
  · have hsame : genericFtoa W opt val fmt prec size = genericFtoa W false val fmt prec size := by
      cases opt
      · rfl
      · exact C76_optimise hW (Or.inr hfmt) val prec size
    have hnb : ¬ fmt = 'b' := by
      rintro rfl
      rcases hfmt.digit with h | h | h | h | h <;> exact absurd h (by decide)
    rw [hsame, genericFtoa_finite hS hs hd]
    unfold ftoaFinite
    rw [if_neg hnb, if_pos (by rfl)]
    exact h5 hp hfmt.digit
  · obtain ⟨a, b⟩ := p7 (hex.2 hx)
    exact ⟨w, p6, by rw [p6]; exact a, by rw [p6]; linarith⟩
  · refine ⟨w, p6, fun z hz => ?_⟩
    have := p8 (fun h => hx (hex.1 h)) z ((hbi _).2 (by
      rw [Int.cast_natCast]
      exact (hri _ (by positivity)).1 hz))
    exact this

variable {W : ℕ} {fmt : Char} {size : ℤ} {c : ℕ} {s : Bool} {m : ℚ} {val : F64}

/-- C77: exactly which decimal a negative precision prints, for every finite float that is not zero, in every decimal format and with either
algorithm. -/
theorem C77_printed (hW : W = 32 ∨ W = 64) (hS : SizeOf F size) (hfmt : DecimalFormat fmt) {prec : ℤ} (hp : prec < 0) (opt : Bool)
    (hc : F.decode c = .num s m) (hm0 : m ≠ 0) (hd : double.decode val.toNat = .num s m) :
    ∃ t q L e, genericFtoa W opt val fmt prec size = .ok t ∧ readDecimal t = some (s, q) ∧ F.Printed s c m q L e := by
  obtain ⟨ds, dp, L, e, h1, h2, h3, h4, h5⟩ := short_digits_exact hW hS opt hc hm0 hd
  exact ⟨_, _, L, e, h4 hp hfmt, formatDigits_shortest_read s h1.digit dp false hfmt.digit h3, h5⟩

example := C77_printed (W := 64) (.inr rfl) (F := half) (size := 16) (.inl ⟨rfl, rfl⟩) (fmt := 'g') (by simp [DecimalFormat]) (prec := -1) (by norm_num) true Sample.x_half (by norm_num) (val := 0xBFF6000000000000) Sample.x_double

/-- C77: and the description leaves no choice. -/
theorem C77_determined (hS : SizeOf F size) (hc : F.decode c = .num s m) {q q' : ℚ} {L L' : ℕ} {e e' : ℤ}
    (h : F.Printed s c m q L e) (h' : F.Printed s c m q' L' e') : q = q' ∧ L = L' ∧ e = e' := by
  have hF := hS.go
  obtain ⟨n, k, N, hs, rfl, d1, d2, hz⟩ := value_split hF hc
  exact printed_unique ((roundsTo_congr d1 d2).2 (roundsTo_self hF hs.fin s)) h h'

/-- The value rounded to the least number of digits, against the decimal printed. -/
theorem printed_rounded (hm : F.RoundsTo s m c) {q q' : ℚ} {L : ℕ} {e : ℤ} (h : F.Printed s c m q L e) (hr : RoundedDigits L m q') :
    q = q' ↔ F.RoundsTo s q' c ∧ (F.Exceptional c m L → q' ≤ m) := by
  obtain ⟨w', e', a1, a2, a3, rfl⟩ := hr
  have hu' : (0 : ℚ) < (10 : ℚ) ^ e' := zpow_pos (by norm_num) _
  have hL := h.pos
  obtain rfl : e = e' := rounded_place hL h.lower h.upper a1 a2
  constructor
  · rintro rfl
    refine ⟨h.reads, fun hx => ?_⟩
    obtain ⟨w, b1, b2, -⟩ := h.cut hx
    exact b2
  · rintro ⟨b1, b2⟩
    by_cases hx : F.Exceptional c m L
    · obtain ⟨w, rfl, c2, c3⟩ := h.cut hx
      have c4 := b2 hx
      have c5 := (prefer_nearest hu' a3 w).le
      rw [Int.cast_natCast, Int.cast_natCast] at c5
      rw [abs_of_nonpos (by linarith), abs_of_nonpos (by linarith)] at c5
      have c6 := (prefer_nearest hu' a3 (w + 1)).le
      have c7 : (w' : ℚ) * (10 : ℚ) ^ e < (w + 1) * (10 : ℚ) ^ e := by linarith
      have c8 : (w' : ℚ) < w + 1 := lt_of_mul_lt_mul_right c7 hu'.le
      have c9 : (w : ℚ) ≤ w' := le_of_mul_le_mul_right (by linarith) hu'
      have d1 : w' < w + 1 := by exact_mod_cast c8
      have d2 : w ≤ w' := by exact_mod_cast c9
      rw [show w = w' by omega]
    · obtain ⟨w, rfl, c2⟩ := h.pick hx
      have := prefer_antisymm hu' (c2 w' b1) (prefer_nearest hu' a3 w) (fun x hxm => by
        have hmp : 0 < m := lt_of_lt_of_le (zpow_pos (by norm_num) _) h.lower
        have hx0 : 0 ≤ x := by
          rw [hxm] at hmp
          have := pos_of_mul_pos_left hmp hu'.le
          exact_mod_cast this.le
        obtain ⟨y, rfl⟩ := Int.eq_ofNat_of_zero_le hx0
        refine c2 y ?_
        rw [Int.cast_natCast] at hxm
        rw [← hxm]
        exact hm)
      rw [show w = w' by exact_mod_cast this]

/-- C77: with `L` digits asked for, the formats `e` and `E` print the shortest text exactly if that text is read back as the float and, for
an exceptional float, is not above it. -/
theorem C77_fixed (hW : W = 32 ∨ W = 64) (hS : SizeOf F size) (hfmt : fmt = 'e' ∨ fmt = 'E') {prec : ℤ} (hp : prec < 0) (opt : Bool)
    (hc : F.decode c = .num s m) (hm0 : m ≠ 0) (hd : double.decode val.toNat = .num s m) {q : ℚ} {L : ℕ} {e : ℤ} (h : F.Printed s c m q L e) :
    ∃ t q', genericFtoa W opt val fmt ((L : ℤ) - 1) size = .ok t ∧ readDecimal t = some (s, q') ∧
      (genericFtoa W opt val fmt prec size = .ok t ↔ F.RoundsTo s q' c ∧ (F.Exceptional c m L → q' ≤ m)) := by
  have hD : DecimalFormat fmt := by unfold DecimalFormat; rcases hfmt with rfl | rfl <;> simp
  have hg : ¬ (fmt = 'g' ∨ fmt = 'G') := by rcases hfmt with rfl | rfl <;> decide
  have hL := h.pos
  have hp' : (0 : ℤ) ≤ (L : ℤ) - 1 := by omega
  obtain ⟨ds', dp', h1, h2, h3, h4, h5, h6⟩ := fixed_text_eg hW hS hD (by rcases hfmt with rfl | rfl <;> decide) hp' opt hc hd
  rw [if_neg hg] at h3 h4 h6
  rw [show ((L : ℤ) - 1 + 1).toNat = L by omega] at h4
  obtain ⟨ds, dp, L1, e1, g1, g2, g3, g4, g5⟩ := short_digits_exact hW hS opt hc hm0 hd
  obtain ⟨rfl, rfl, rfl⟩ := C77_determined hS hc h g5
  have hF := hS.go
  have hself : F.RoundsTo s m c := by
    obtain ⟨n, k, N, hs, rfl, d1, d2, hz⟩ := value_split hF hc
    exact (roundsTo_congr d1 d2).2 (roundsTo_self hF hs.fin s)
  have hread := formatDigits_fixed_read s h1.digit dp' false hD.digit h5 hp' (by unfold EnoughDigits; rw [if_pos hfmt]; exact h3)
  refine ⟨_, _, h6, hread, ?_⟩
  rw [← printed_rounded hself h (h4 hm0), g4 hp hD]
  constructor
  · intro heq
    have hr := formatDigits_shortest_read s g1.digit dp false hD.digit g3
    rw [Except.ok.inj heq, hread] at hr
    exact (Prod.mk.inj (Option.some.inj hr)).2.symm
  · intro heq
    obtain ⟨rfl, rfl⟩ := normal_unique g1 h1 heq
    have hsp : shortPrec fmt ds.length dp = (L : ℤ) - 1 := by
      unfold shortPrec
      rw [if_pos hfmt, g2]
    rw [hsp]
    unfold formatDigits
    rw [if_pos hfmt, if_pos hfmt]

/-- C77: the two texts are the same whenever the neighbours of the float are equally far, and it is not exceptional. So they can differ
only at powers of two and at the exceptional floats. -/
theorem C77_fixed_same (hW : W = 32 ∨ W = 64) (hS : SizeOf F size) (hfmt : fmt = 'e' ∨ fmt = 'E') {prec : ℤ} (hp : prec < 0) (opt : Bool)
    (hc : F.decode c = .num s m) (hm0 : m ≠ 0) (hd : double.decode val.toNat = .num s m) {q : ℚ} {L : ℕ} {e : ℤ} (h : F.Printed s c m q L e)
    {a b : ℚ} (ha : F.Adjacent a m) (hb : F.Adjacent m b) (hsym : m - a = b - m) (hx : ¬ F.Exceptional c m L) :
    genericFtoa W opt val fmt prec size = genericFtoa W opt val fmt ((L : ℤ) - 1) size := by
  have hL := h.pos
  obtain ⟨t, q', h1, h2, h3⟩ := C77_fixed hW hS hfmt hp opt hc hm0 hd h
  rw [h1, h3]
  refine ⟨?_, fun hc => absurd hc hx⟩
  obtain ⟨t', q'', g1, g2, -, g4⟩ := C47_exponential hW hS hfmt (show (0 : ℤ) ≤ (L : ℤ) - 1 by omega) opt hc hd
  rw [h1] at g1
  cases g1
  rw [h2] at g2
  obtain ⟨-, rfl⟩ := Prod.mk.inj (Option.some.inj g2)
  replace g4 := g4 hm0
  rw [show ((L : ℤ) - 1).toNat + 1 = L by omega] at g4
  have hle : |q' - m| ≤ |q - m| ∧ 0 ≤ q' := by
    obtain ⟨w', e', a1, a2, a3, rfl⟩ := g4
    have hu' : (0 : ℚ) < (10 : ℚ) ^ e' := zpow_pos (by norm_num) _
    obtain rfl : e = e' := rounded_place hL h.lower h.upper a1 a2
    obtain ⟨w, rfl, -⟩ := h.pick hx
    have := (prefer_nearest hu' a3 w).le
    exact ⟨by exact_mod_cast this, by positivity⟩
  have hF := hS.go
  have hb' := hF.bounds
  obtain ⟨n, k, N, hs, rfl, d1, d2, hz⟩ := value_split hF hc
  have hn0 : n ≠ 0 := fun hc => hm0 (hz.1 (hs.zero_iff.2 hc))
  have hri : ∀ y, 0 ≤ y → (F.RoundsTo s y c ↔ InInterval F n y) := fun y hy =>
    (roundsTo_congr d1 d2).trans (roundsTo_iff F (by omega) (by omega) s hs.fin hy)
  have hbi : ∀ y, Between ((F.magc (n - 1) + F.magc n) / 2) ((F.magc n + F.magc (n + 1)) / 2) (decide (n % 2 = 0)) y ↔ InInterval F n y :=
    fun y => between_iff hn0 (by ring) (by ring)
  have hq0 : 0 ≤ q := by
    obtain ⟨x, y, -, rfl⟩ := h.fits
    positivity
  have ea : F.magc (n - 1) = a := by
    have := adjacent_magc (F := F) (by omega) (show n - 1 < F.infCode from lt_of_le_of_lt (by omega) hs.fin)
    rw [show n - 1 + 1 = n by omega] at this
    exact adjacent_unique_left this ha
  have eb : F.magc (n + 1) = b := adjacent_unique (adjacent_magc (by omega) hs.fin) hb
  rw [hri _ hle.2, ← hbi]
  have hq := (hbi _).2 ((hri _ hq0).1 h.reads)
  rw [ea, eb] at hq ⊢
  obtain ⟨b1, b2, b3⟩ := hq
  have hab := abs_le.1 hle.1
  have habs : |q - F.magc n| ≤ (F.magc n - a) / 2 := abs_le.2 ⟨by linarith, by linarith⟩
  refine ⟨by linarith, by linarith, fun hi => ?_⟩
  obtain ⟨b4, b5⟩ := b3 hi
  have habs : |q - F.magc n| < (F.magc n - a) / 2 := abs_lt.2 ⟨by linarith, by linarith⟩
  exact ⟨by linarith, by linarith⟩

-- a tie: the binary16 4.0625 lies between 4.062 and 4.063, which are both read back as it; the even one is printed
example : formatFloat 64 0x4010400000000000 'e' (-1) 16 = .ok "4.062e+00".toList ∧ half.decode 0x4410 = .num false (65 / 16) ∧
    double.decode (0x4010400000000000 : F64).toNat = .num false (65 / 16) := by
  refine ⟨by decide +kernel, by norm_num [half, Format.decode, Format.bias], ?_⟩
  show double.decode 0x4010400000000000 = _
  norm_num [double, Format.decode, Format.bias]
-- another one, where the even one is above
example : formatFloat 64 0x4010C00000000000 'e' (-1) 16 = .ok "4.188e+00".toList := by decide +kernel
-- an ordinary float: the shortest text has 17 digits, and is the one with precision 16
example : formatFloat 64 0x3FD3333333333334 'e' (-1) 64 = .ok "3.0000000000000004e-01".toList ∧
    formatFloat 64 0x3FD3333333333334 'e' 16 64 = .ok "3.0000000000000004e-01".toList := by decide +kernel
-- 2^-44, where the neighbour below is nearer: rounded to 16 digits it is not read back
example : formatFloat 64 0x3D30000000000000 'e' (-1) 64 = .ok "5.684341886080802e-14".toList ∧
    formatFloat 64 0x3D30000000000000 'e' 15 64 = .ok "5.684341886080801e-14".toList := by decide +kernel
-- an exceptional float: the midpoint to the next one, 583395537938022400000000, has 16 digits
example : double.Exceptional 0x44dee27bdef22651 583395537938022366445568 17 := by
  have hs : Split double 0x44dee27bdef22651 1100 0x1ee27bdef22651 := ⟨by decide, by decide, by decide, by decide⟩
  have hq : double.qmin = -1074 := by decide
  have hv : double.magc 0x44dee27bdef22651 = 583395537938022366445568 := by
    rw [hs.value, hq]
    norm_num
  have hu := hs.upper_mid
  refine ⟨by norm_num, double.magc (0x44dee27bdef22651 + 1), ?_, 5833955379380224, 8, by norm_num, ?_⟩
  · rw [← hv]
    exact adjacent_magc (by decide) hs.fin
  · rw [← hv, hu, hq]
    norm_num
example : formatFloat 64 0x44dee27bdef22651 'e' (-1) 64 = .ok "5.8339553793802236e+23".toList ∧
    formatFloat 64 0x44dee27bdef22651 'e' 16 64 = .ok "5.8339553793802237e+23".toList := by decide +kernel

end GoFloat.Strconv
