import Verif.Proofs.Sample
import Verif.Proofs.ShortestDigits
import Verif.Proofs.Widen
/-
Properties of internal/strconv/extfloat.go (C44, C45 and C48 of properties.jsonl).
-/
namespace GoFloat.Strconv
open Spec

theorem InfoFor.go {F : Format} {flt : FloatInfo} (h : InfoFor F flt) : GoFormat F ∧ flt = infoOf F := by
  rcases h with ⟨rfl, rfl⟩ | ⟨rfl, rfl⟩ | ⟨rfl, rfl⟩
  · exact ⟨Or.inl rfl, infoOf_half.symm⟩
  · exact ⟨Or.inr (Or.inl rfl), infoOf_single.symm⟩
  · exact ⟨Or.inr (Or.inr rfl), infoOf_double.symm⟩

theorem roundsTo_congr {F : Format} {neg : Bool} {q : ℚ} {c c' : ℕ} (h1 : F.decode c = F.decode c') (h2 : c % 2 = c' % 2) :
    F.RoundsTo neg q c ↔ F.RoundsTo neg q c' := by
  unfold Format.RoundsTo
  rw [h1, h2]

/-- Every encoding of a number rounds like the canonical one. -/
theorem code_canonical {F : Format} (hF : GoFormat F) {c n : ℕ} {neg : Bool} (hn : n < F.infCode) (h : F.decode c = .num neg (F.magc n)) :
    F.decode c = F.decode (F.signPart neg + n) ∧ c % 2 = (F.signPart neg + n) % 2 := by
  have hb := hF.bounds
  refine ⟨by rw [h, F.decode_code neg hn], ?_⟩
  obtain ⟨m, -, hm, hc, -⟩ := F.code_of_decode h
  have : n = m := F.magc_strictMono.injective hm
  subst this
  have hs := signPart_even F (by omega) neg
  have : c % 2 = n % 2 := by
    rw [← hc, Nat.mod_mod_of_dvd _ (dvd_pow_self 2 (by omega))]
  omega

/-- C44: for every nonzero float of the three formats the fast algorithm returns normally, without reading or writing outside
its buffers or tables, and either gives up or delivers digits strictly inside the rounding interval, of minimal length, and
closer to the float than any others of that length. -/
theorem C44_shortest_sound {F : Format} {flt : FloatInfo} (hF : InfoFor F flt) {mant : ℕ} {exp : ℤ} {v : ℚ} (h : F.Parts mant exp v)
    (hv : v ≠ 0) {neg : Bool} {c : ℕ} (hc : F.decode c = .num neg v) :
    ∃ f lower upper, assignComputeBounds (BitVec.ofNat 64 mant) exp neg flt = (f, lower, upper) ∧
      (f.shortestDecimal lower upper = .ok none ∨
        ∃ ds dp, f.shortestDecimal lower upper = .ok (some ⟨ds.map (· + 48), dp, neg⟩) ∧
          F.StrictlyNearest v (decValue ds dp) ∧ F.ShortestDecimal neg c v ds dp ∧
          ∀ y, FitsDigits ds.length y → F.RoundsTo neg y c → y ≠ decValue ds dp → |decValue ds dp - v| < |y - v|) := by
  obtain ⟨hG, rfl⟩ := hF.go
  obtain ⟨k, n, hs, rfl, rfl⟩ := parts_split hG h
  have hN0 : mant ≠ 0 := fun hc => hv ((magc_eq_zero F).2 (hs.zero_iff.1 hc))
  refine ⟨_, _, _, rfl, ?_⟩
  rcases shortest_float hG hs hN0 neg rfl with h1 | ⟨ds, dp, h1, h2⟩
  · exact Or.inl h1
  · have hsp := h2.spec hG hs hN0 neg
    obtain ⟨d1, d2⟩ := code_canonical hG hs.fin hc
    refine Or.inr ⟨ds, dp, h1, FloatShortest.strictly hG hs (by rw [decValue_eq]; positivity) h2.gt h2.lt, ⟨hsp.normal, ?_, ?_, ?_⟩, ?_⟩
    · exact (roundsTo_congr d1 d2).2 hsp.reads
    · exact fun m y hy hr => hsp.minimal m y hy ((roundsTo_congr d1 d2).1 hr)
    · exact fun y hy hr => hsp.closest y hy ((roundsTo_congr d1 d2).1 hr)
    · intro y hy hr hne
      obtain ⟨a, e, ha, rfl⟩ := hy
      have hb := hG.bounds
      exact h2.closer hG hs hN0 ⟨a, e, ha, rfl⟩
        ((roundsTo_iff F (by omega) (by omega) neg hs.fin (by positivity)).1 ((roundsTo_congr d1 d2).1 hr)) hne

-- 3/2 as a half: mantissa 1536, exponent 0
example := C44_shortest_sound (F := half) (.inl ⟨rfl, rfl⟩) (mant := 1536) (exp := 0) (v := 3 / 2) (neg := false) (c := 0x3E00)
  ⟨by norm_num [half], by norm_num [half], by norm_num [half, Format.bias], .inl (by norm_num [half]), by norm_num [half, Format.bias]⟩ (by norm_num) (by norm_num [half, Format.decode, Format.bias])

/-- C44: a zero has no digits. -/
theorem C44_shortest_zero {F : Format} {flt : FloatInfo} (hF : InfoFor F flt) {mant : ℕ} {exp : ℤ} (h : F.Parts mant exp 0) (neg : Bool) :
    ∃ f lower upper, assignComputeBounds (BitVec.ofNat 64 mant) exp neg flt = (f, lower, upper) ∧
      f.shortestDecimal lower upper = .ok (some ⟨[], 0, neg⟩) := by
  obtain ⟨hG, rfl⟩ := hF.go
  obtain ⟨k, n, hs, rfl, h0⟩ := parts_split hG h
  have hN0 : mant = 0 := hs.zero_iff.2 ((magc_eq_zero F).1 h0.symm)
  exact ⟨_, _, _, rfl, shortest_zero hG hs hN0 neg rfl⟩

-- the zero of the halves
example := C44_shortest_zero (F := half) (.inl ⟨rfl, rfl⟩) (mant := 0) (exp := -14)
  ⟨by norm_num [half], by norm_num [half, Format.bias], by norm_num [half, Format.bias], .inr (by norm_num [half, Format.bias]), by norm_num [half, Format.bias]⟩ true

/-- C44: an integer below `2^(t+1)` is always answered, and exactly. -/
theorem C44_shortest_integer {F : Format} {flt : FloatInfo} (hF : InfoFor F flt) {mant : ℕ} {exp : ℤ} {m : ℕ} (h : F.Parts mant exp m)
    (hm : m ≠ 0) (he : exp ≤ F.t) (neg : Bool) :
    ∃ f lower upper, assignComputeBounds (BitVec.ofNat 64 mant) exp neg flt = (f, lower, upper) ∧
      ∃ ds dp, f.shortestDecimal lower upper = .ok (some ⟨ds.map (· + 48), dp, neg⟩) ∧ NormalDec ds dp ∧ decValue ds dp = m := by
  obtain ⟨hG, rfl⟩ := hF.go
  obtain ⟨k, n, hs, rfl, h0⟩ := parts_split hG h
  have hN0 : mant ≠ 0 := fun hc => by
    have := (magc_eq_zero F).2 (hs.zero_iff.1 hc)
    rw [← h0] at this
    exact hm (by exact_mod_cast this)
  have hq := fexp_eq F k
  have hi : IsSmallInt (F.qmin + k) mant := by
    have hle : F.qmin + k ≤ 0 := by
      have : ((infoOf F).mantbits : ℤ) = F.t := rfl
      omega
    refine ⟨hle, m, ?_⟩
    have hv := hs.value
    rw [← h0] at hv
    have h2 : (mant : ℚ) = 2 ^ (-(F.qmin + (k : ℤ))).toNat * m := by
      rw [hv, ← zpow_natCast, show ((-(F.qmin + (k : ℤ))).toNat : ℤ) = -(F.qmin + k) by omega, mul_comm (mant : ℚ), ← mul_assoc, ← zpow_add₀ (by norm_num)]
      simp
    exact_mod_cast h2
  obtain ⟨ds, dp, h1, h2, h3⟩ := shortest_int hG hs hN0 neg hi rfl
  exact ⟨_, _, _, rfl, ds, dp, h1, h2.normal, by rw [h3, ← h0]⟩

-- 0.1, the smallest and the largest float64 are answered; this one is given up
example : double.Parts 0x1999999999999A (-4) (3602879701896397 / 36028797018963968) :=
  ⟨by norm_num [double], by decide, by decide, Or.inl (by decide), by decide⟩
example : double.decode 0x3FB999999999999A = .num false (3602879701896397 / 36028797018963968) := by
  norm_num [double, Format.decode, Format.bias]
example : (match assignComputeBounds 0x1999999999999A (-4) true float64info with
    | (f, lower, upper) => f.shortestDecimal lower upper) = .ok (some ⟨[49], 0, true⟩) := by decide +kernel
example : (match assignComputeBounds 1 (-1022) false float64info with
    | (f, lower, upper) => f.shortestDecimal lower upper) = .ok (some ⟨[53], -323, false⟩) := by decide +kernel
example : (match assignComputeBounds 0x1FFFFFFFFFFFFF 1023 false float64info with
    | (f, lower, upper) => f.shortestDecimal lower upper) = .ok (some ⟨"17976931348623157".toList.map Char.toNat, 309, false⟩) := by
  decide +kernel
example : (match assignComputeBounds 0x1ee27bdef22651 78 false float64info with
    | (f, lower, upper) => f.shortestDecimal lower upper) = .ok none := by decide +kernel

/-- C45: the table has 87 rows; row `i` is normalised, positive and the nearest number with 64 bits to `10^(8i-348)`: off by at
most half a unit in the last place. -/
theorem C45_powers : powersOfTen.length = 87 ∧ ∀ (i : ℕ) (e : ExtFloat), powersOfTen[i]? = some e →
    2 ^ 63 ≤ e.mant.toNat ∧ e.neg = false ∧
      |(e.mant.toNat : ℚ) * (2 : ℚ) ^ e.exp - (10 : ℚ) ^ (firstPowerOfTen + i * stepPowerOfTen)| ≤ (2 : ℚ) ^ e.exp / 2 := by
  refine ⟨powersOfTen_length, fun i e he => ?_⟩
  have hi : i < 87 := by
    rw [← powersOfTen_length]
    exact (List.getElem?_eq_some_iff.1 he).1
  obtain ⟨e', h1, h2⟩ := powersOfTen_row hi
  rw [he] at h1
  obtain rfl := Option.some.inj h1
  obtain ⟨a, b, c⟩ := entryOk_spec h2
  refine ⟨a, c, ?_⟩
  rw [show firstPowerOfTen + (i : ℤ) * stepPowerOfTen = -348 + 8 * i by unfold firstPowerOfTen stepPowerOfTen; ring]
  exact b

/-- C45: the two small tables are exact. -/
theorem C45_small_powers : smallPowersOfTen.length = 8 ∧ uint64pow10.length = 20 ∧
    (∀ (i : ℕ) (e : ExtFloat), smallPowersOfTen[i]? = some e → 2 ^ 63 ≤ e.mant.toNat ∧ e.neg = false ∧
      (e.mant.toNat : ℚ) * (2 : ℚ) ^ e.exp = (10 : ℚ) ^ i) ∧
    (∀ (i : ℕ) (p : BitVec 64), uint64pow10[i]? = some p → p.toNat = 10 ^ i) := by
  refine ⟨smallPowersOfTen_length, uint64pow10_length, fun i e he => ?_, fun i p hp => ?_⟩
  · have hi : i < 8 := by
      rw [← smallPowersOfTen_length]
      exact (List.getElem?_eq_some_iff.1 he).1
    obtain ⟨e', h1, h2, h3⟩ := small_row hi
    rw [tableAt_ok he] at h1
    obtain rfl := Except.ok.inj h1
    obtain ⟨a, -, c⟩ := entryOk_spec h2
    exact ⟨a, c, h3⟩
  · have hi : i < 20 := by
      rw [← uint64pow10_length]
      exact (List.getElem?_eq_some_iff.1 hp).1
    obtain ⟨e', h1, h2⟩ := pow10_row hi
    rw [tableAt_ok hp] at h1
    obtain rfl := Except.ok.inj h1
    exact h2

/-- C45: for every exponent that occurs the search ends at a row of the table that brings the product to an exponent in
`[-60, -32]`, and the exponent of ten belongs to this row. -/
theorem C45_search (f : ExtFloat) (h1 : -1150 ≤ f.exp) (h2 : f.exp < 1050) :
    ∃ (g : ExtFloat) (exp10 : ℤ) (i : ℕ) (e : ExtFloat), f.frexp10 = .ok (g, exp10, i) ∧ powersOfTen[i]? = some e ∧ g = f.multiply e ∧
      exp10 = -(firstPowerOfTen + i * stepPowerOfTen) ∧ -60 ≤ g.exp ∧ g.exp ≤ -32 := by
  obtain ⟨i, e, hi, r1, -, r3, r4, r5⟩ := frexp10_ok f h1 h2
  obtain ⟨e', he', -⟩ := powersOfTen_row hi
  rw [tableAt_ok he'] at r1
  obtain rfl := Except.ok.inj r1
  refine ⟨_, _, i, e', r3, he', rfl, ?_, ?_, ?_⟩
  · unfold firstPowerOfTen stepPowerOfTen; ring
  · rw [multiply_exp]; exact r4
  · rw [multiply_exp]; exact r5

example := C45_search ⟨0x8000000000000000, -63, false⟩ (by norm_num) (by norm_num)

/-- C45: the exponents that occur: a normalised number of at most 64 bits with the exponent of a float of the three formats, or
of a bound of its interval. -/
theorem C45_search_range {F : Format} {flt : FloatInfo} (hF : InfoFor F flt) {mant : ℕ} {exp : ℤ} {v : ℚ} (h : F.Parts mant exp v)
    {m : BitVec 64} (hm : m ≠ 0) (neg : Bool) {d : ℤ} (hd : 0 ≤ d ∧ d ≤ 2) :
    -1150 ≤ (ExtFloat.normalize ⟨m, exp - flt.mantbits - d, neg⟩).1.exp ∧ (ExtFloat.normalize ⟨m, exp - flt.mantbits - d, neg⟩).1.exp < 1050 := by
  obtain ⟨hG, rfl⟩ := hF.go
  obtain ⟨k, n, hs, rfl, -⟩ := parts_split hG h
  obtain ⟨q1, q2⟩ := hs.exp_range hG
  rw [fexp_eq]
  obtain ⟨-, -, -, s4, -, s6, s7⟩ := normalize_spec ⟨m, F.qmin + k - d, neg⟩ hm
  rw [s4, s6]
  dsimp only at *
  omega

example := C45_search_range (F := half) (.inl ⟨rfl, rfl⟩) (mant := 1536) (exp := 0) (v := 3 / 2)
  ⟨by norm_num [half], by norm_num [half], by norm_num [half, Format.bias], .inl (by norm_num [half]), by norm_num [half, Format.bias]⟩ (m := 3) (by decide) true (d := 1) (by norm_num)

/-- C48: `Normalize` shifts the leading bit to the top and keeps value and sign; a zero is kept. -/
theorem C48_normalize (f : ExtFloat) :
    (f.mant = 0 → f.normalize.1 = f) ∧
    (f.mant ≠ 0 → 2 ^ 63 ≤ f.normalize.1.mant.toNat ∧ f.normalize.1.neg = f.neg ∧
      (f.normalize.1.mant.toNat : ℚ) * (2 : ℚ) ^ f.normalize.1.exp = (f.mant.toNat : ℚ) * (2 : ℚ) ^ f.exp ∧
      f.normalize.1.exp = f.exp - f.normalize.2) := by
  constructor
  · intro h
    unfold ExtFloat.normalize
    rw [if_pos h]
  · intro h
    obtain ⟨s1, s2, s3, s4, -⟩ := normalize_spec f h
    exact ⟨s2, s3, s1, s4⟩

example := (C48_normalize ⟨3, 5, true⟩).2 (by decide)

/-- C48: `Multiply` gives the upper half of the 128-bit product, rounded to nearest, without overflow. -/
theorem C48_multiply (f g : ExtFloat) :
    ((f.multiply g).mant.toNat : ℤ) = ⌊((f.mant.toNat : ℚ) * g.mant.toNat) / 2 ^ 64 + 1 / 2⌋ ∧
    (f.multiply g).exp = f.exp + g.exp + 64 ∧ (f.multiply g).neg = f.neg := by
  refine ⟨?_, multiply_exp f g, multiply_neg f g⟩
  rw [multiply_mant]
  rw [show ((f.mant.toNat : ℚ) * g.mant.toNat) / 2 ^ 64 + 1 / 2 = ((f.mant.toNat * g.mant.toNat + 2 ^ 63 : ℕ) : ℚ) / ((2 ^ 64 : ℕ) : ℚ) by
    push_cast; ring]
  rw [Rat.floor_natCast_div_natCast]
  rfl

/-- C48: so a product is off by at most half a unit in the last place. -/
theorem C48_multiply_error (f g : ExtFloat) :
    |((f.multiply g).mant.toNat : ℚ) * (2 : ℚ) ^ (f.multiply g).exp -
      ((f.mant.toNat : ℚ) * (2 : ℚ) ^ f.exp) * ((g.mant.toNat : ℚ) * (2 : ℚ) ^ g.exp)| ≤ (2 : ℚ) ^ (f.multiply g).exp / 2 := by
  obtain ⟨h1, h2, -⟩ := C48_multiply f g
  rw [h2]
  have e : ((f.mant.toNat : ℚ) * (2 : ℚ) ^ f.exp) * ((g.mant.toNat : ℚ) * (2 : ℚ) ^ g.exp) =
      ((f.mant.toNat : ℚ) * g.mant.toNat) / 2 ^ 64 * (2 : ℚ) ^ (f.exp + g.exp + 64) := by
    rw [zpow_add₀ (by norm_num), zpow_add₀ (by norm_num)]
    norm_num
    ring
  have hp : (0 : ℚ) < (2 : ℚ) ^ (f.exp + g.exp + 64) := by positivity
  have l1 := Int.floor_le (((f.mant.toNat : ℚ) * g.mant.toNat) / 2 ^ 64 + 1 / 2)
  have l2 := Int.lt_floor_add_one (((f.mant.toNat : ℚ) * g.mant.toNat) / 2 ^ 64 + 1 / 2)
  rw [← h1] at l1 l2
  push_cast at l1 l2
  have hle : |((f.multiply g).mant.toNat : ℚ) - ((f.mant.toNat : ℚ) * g.mant.toNat) / 2 ^ 64| ≤ 1 / 2 := by
    rw [abs_le]
    constructor <;> linarith
  rw [e, ← sub_mul, abs_mul, abs_of_pos hp]
  linarith [mul_le_mul_of_nonneg_right hle hp.le]

/-- C48: around every nonzero float the bounds are exactly the midpoints to its neighbours (above the largest: to the power of
two that would come next), unless the float is an integer below `2^(t+1)`; then all three are the float itself. -/
theorem C48_bounds {F : Format} {flt : FloatInfo} (hF : InfoFor F flt) {mant : ℕ} {exp : ℤ} {v : ℚ} (h : F.Parts mant exp v)
    (hv : v ≠ 0) (neg : Bool) :
    ∃ f lower upper : ExtFloat, assignComputeBounds (BitVec.ofNat 64 mant) exp neg flt = (f, lower, upper) ∧
      (f.mant.toNat : ℚ) * (2 : ℚ) ^ f.exp = v ∧ f.neg = neg ∧ lower.neg = neg ∧ upper.neg = neg ∧
      ((∃ m : ℕ, v = m) ∧ exp ≤ F.t ∧ lower = f ∧ upper = f ∨
        ¬ ((∃ m : ℕ, v = m) ∧ exp ≤ F.t) ∧ ∃ below above, F.Adjacent below v ∧ F.Adjacent v above ∧
          (lower.mant.toNat : ℚ) * (2 : ℚ) ^ lower.exp = (below + v) / 2 ∧
          (upper.mant.toNat : ℚ) * (2 : ℚ) ^ upper.exp = (v + above) / 2) := by
  obtain ⟨hG, rfl⟩ := hF.go
  obtain ⟨k, n, hs, rfl, rfl⟩ := parts_split hG h
  have hb := hG.bounds
  have hN0 : mant ≠ 0 := fun hc => hv ((magc_eq_zero F).2 (hs.zero_iff.1 hc))
  have hn0 : n ≠ 0 := fun hc => hN0 (hs.zero_iff.2 hc)
  have hq := fexp_eq F k
  have htm : ((infoOf F).mantbits : ℤ) = F.t := rfl
  have hadj : ∀ i, i < F.infCode → F.Adjacent (F.magc i) (F.magc (i + 1)) := fun i hi => adjacent_magc (by omega) hi
  have hiff : IsSmallInt (F.qmin + k) mant ↔ (∃ m : ℕ, F.magc n = m) ∧ (k : ℤ) + 1 - F.bias ≤ F.t := by
    constructor
    · rintro hi
      obtain ⟨m, -, h2, -⟩ := bounds_int hG hs neg hi
      exact ⟨⟨_, h2.symm⟩, by have := hi.1; omega⟩
    · rintro ⟨⟨m, hm⟩, he⟩
      have hle : F.qmin + k ≤ 0 := by omega
      refine ⟨hle, m, ?_⟩
      have hv := hs.value
      rw [hm] at hv
      have h2 : (mant : ℚ) = 2 ^ (-(F.qmin + (k : ℤ))).toNat * m := by
        rw [hv, ← zpow_natCast, show ((-(F.qmin + (k : ℤ))).toNat : ℤ) = -(F.qmin + k) by omega, mul_comm (mant : ℚ), ← mul_assoc, ← zpow_add₀ (by norm_num)]
        simp
      exact_mod_cast h2
  by_cases hi : IsSmallInt (F.qmin + k) mant
  · obtain ⟨m, -, h2, h3⟩ := bounds_int hG hs neg hi
    obtain ⟨i1, i2⟩ := hiff.1 hi
    exact ⟨_, _, _, h3, by simpa using h2, rfl, rfl, rfl, Or.inl ⟨i1, i2, rfl, rfl⟩⟩
  · obtain ⟨Lm, Le, b1, -, b3, b4, b5⟩ := bounds_mid hG hs hN0 neg hi
    refine ⟨_, _, _, b1, b4.symm, rfl, rfl, rfl, Or.inr ⟨fun hc => hi (hiff.2 hc), F.magc (n - 1), F.magc (n + 1), ?_, hadj n hs.fin, ?_, ?_⟩⟩
    · have := hadj (n - 1) (by have := hs.fin; omega)
      rwa [Nat.sub_add_cancel (by omega)] at this
    · show ExtFloat.val ⟨Lm, Le, neg⟩ = _
      linarith
    · show ExtFloat.val ⟨_, _, neg⟩ = _
      linarith

-- the upper half of the largest product, and a tie; the bounds of 0.1 and, one ulp below half as far, of 2^60
example : (ExtFloat.multiply ⟨0xFFFFFFFFFFFFFFFF, 0, false⟩ ⟨0xFFFFFFFFFFFFFFFF, 0, false⟩).mant = 0xFFFFFFFFFFFFFFFE := by decide +kernel
example : (ExtFloat.multiply ⟨0x8000000000000000, 0, true⟩ ⟨1, 3, false⟩) = ⟨1, 67, true⟩ := by decide +kernel
example : ExtFloat.normalize ⟨5, 7, true⟩ = (⟨0xA000000000000000, -54, true⟩, 61) := by decide +kernel
example : assignComputeBounds 0x10000000000000 60 false float64info =
    (⟨0x10000000000000, 8, false⟩, ⟨0x3FFFFFFFFFFFFF, 6, false⟩, ⟨0x20000000000001, 7, false⟩) := by decide +kernel
example : assignComputeBounds 0x10000000000000 10 true float64info = (⟨1024, 0, true⟩, ⟨1024, 0, true⟩, ⟨1024, 0, true⟩) := by decide +kernel

end GoFloat.Strconv
