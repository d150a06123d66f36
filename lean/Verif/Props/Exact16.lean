import Verif.Proofs.Sample
import Verif.Props.ExactSelf
import Verif.Props.Nearest
import Verif.Props.ShortestExact
/-
Properties of float.go: exactly which numbers IsExact16 accepts (C72 of properties.jsonl), and up to where it is sound (C34).
-/
namespace GoFloat
open Spec Strconv

variable {W : ℕ} {x : BigFloat} {s : Bool} {m : ℚ}

/-- A binary fraction that is a decimal with `-e` places has no more than `-e` binary places. -/
theorem dyadic_decimal {N D : ℕ} {k e : ℤ} (hm : m = N * (2 : ℚ) ^ k) (hd : m = D * (10 : ℚ) ^ e) :
    (∃ a : ℕ, m = a) ∨ ∃ (j a : ℕ), e = -j ∧ m = a * (2 : ℚ) ^ e ∧ D = a * 5 ^ j := by
  by_cases he : 0 ≤ e
  · obtain ⟨e, rfl⟩ := Int.eq_ofNat_of_zero_le he
    exact Or.inl ⟨D * 10 ^ e, by rw [hd]; push_cast; simp⟩
  by_cases hk : 0 ≤ k
  · obtain ⟨k, rfl⟩ := Int.eq_ofNat_of_zero_le hk
    exact Or.inl ⟨N * 2 ^ k, by rw [hm]; push_cast; simp⟩
  right
  obtain ⟨j, rfl⟩ : ∃ j : ℕ, e = -j := ⟨(-e).toNat, by omega⟩
  obtain ⟨i, rfl⟩ : ∃ i : ℕ, k = -i := ⟨(-k).toNat, by omega⟩
  have h1 : D * 2 ^ i = 5 ^ j * (2 ^ j * N) := by
    have h2 : (N : ℚ) * (2 : ℚ) ^ (-(i : ℤ)) = D * (10 : ℚ) ^ (-(j : ℤ)) := hm.symm.trans hd
    rw [zpow_neg, zpow_neg, zpow_natCast, zpow_natCast] at h2
    field_simp at h2
    rw [show (10 : ℚ) = 5 * 2 by norm_num, mul_pow] at h2
    have h3 : (D * 2 ^ i : ℚ) = 5 ^ j * (2 ^ j * N) := by linarith
    exact_mod_cast h3
  have h2 : 5 ^ j ∣ D := (Nat.Coprime.pow j i (by decide : Nat.Coprime 5 2)).dvd_of_dvd_mul_right ⟨_, h1⟩
  obtain ⟨a, rfl⟩ := h2
  refine ⟨j, a, rfl, ?_, mul_comm _ _⟩
  rw [hd, zpow_neg, zpow_neg, zpow_natCast, zpow_natCast, show (10 : ℚ) = 5 * 2 by norm_num, mul_pow]
  push_cast
  field_simp

/-- The text printed for a binary16, against the description of C77. -/
theorem printed_text (hW : W = 32 ∨ W = 64) {c : ℕ} {r : ℚ} (hc : half.decode c = .num s r) (hr : r ≠ 0) {L : ℕ} {e : ℤ}
    (hp : half.Printed s c r m L e) {val : F64} (hv : double.decode val.toNat = .num s r) :
    ∃ t, formatFloat W val 'e' (-1) 16 = .ok t ∧ readDecimal t = some (s, m) := by
  have hS : SizeOf half 16 := Or.inl ⟨rfl, rfl⟩
  obtain ⟨t, q, L', e', h1, h2, h3⟩ := C77_printed hW hS (fmt := 'e') (by simp [DecimalFormat]) (prec := -1) (by norm_num) true hc hr hv
  obtain ⟨rfl, -, -⟩ := C77_determined hS hc hp h3
  exact ⟨t, h1, h2⟩

/-- C72: IsExact16 accepts exactly the zeros and the float64 numbers that are the decimal printed for some binary16. -/
theorem C72_isExact16_iff (hW : W = 32 ∨ W = 64) (hx : x.WF) :
    isExact16 W x = .ok true ↔ ∃ s m, x.datum = .num s m ∧ (m = 0 ∨ (∃ c, double.decode c = .num s m) ∧
      ∃ c r L e, half.decode c = .num s r ∧ r ≠ 0 ∧ half.Printed s c r m L e) := by
  have hS : SizeOf half 16 := Or.inl ⟨rfl, rfl⟩
  constructor
  · intro h
    obtain ⟨s, m, f, t, hd, hf, ht, hrd⟩ := (C72_isExact16 hW hx).1 h
    refine ⟨s, m, hd, ?_⟩
    by_cases h0 : m = 0
    · exact Or.inl h0
    refine Or.inr ⟨⟨_, hf⟩, ?_⟩
    obtain ⟨F', val', d, h1, h2, h3, h4⟩ := by_size (W := W) (size := 16) (Or.inl rfl) f true 'e' (-1)
    obtain rfl : F' = half := by
      rcases h1 with ⟨rfl, -⟩ | ⟨-, h⟩ | ⟨-, h⟩
      · rfl
      · omega
      · omega
    unfold formatFloat at ht
    rw [h2] at ht
    obtain ⟨k1, k2⟩ := C46_special (W := W) h1 'e' (-1) true val'
    cases d with
    | nan s' =>
      rw [k1 s' h3] at ht
      injection ht with ht
      have : readDecimal "NaN".toList = none := by decide +kernel
      rw [← ht, this] at hrd
      cases hrd
    | inf s' =>
      rw [k2 s' h3] at ht
      injection ht with ht
      have : readDecimal (if s' then "-Inf" else "+Inf").toList = none := by cases s' <;> decide +kernel
      rw [← ht, this] at hrd
      cases hrd
    | num s' r =>
      obtain ⟨c, hc⟩ := h4
      by_cases hr : r = 0
      · obtain ⟨ds, dp, y, g1, g2, g3, g4, g5, -⟩ := short_digits_self hW hS true hc h3
        have g6 := g5 (prec := -1) (by norm_num) (fmt := 'e') (by simp [DecimalFormat])
        rw [ht] at g6
        injection g6 with g6
        have g7 := formatDigits_shortest_read s' g1.digit dp y (fmt := 'e') (by simp [DigitFmt]) g4
        rw [← g6, hrd] at g7
        injection g7 with g7
        injection g7 with _ g7
        rw [g2.2 hr] at g7
        exact absurd (g7.trans (by simp [decValue])) h0
      · obtain ⟨t', q, L, e, g1, g2, g3⟩ := C77_printed hW hS (fmt := 'e') (by simp [DecimalFormat]) (prec := -1) (by norm_num) true hc hr h3
        rw [ht] at g1
        injection g1 with g1
        rw [← g1, hrd] at g2
        injection g2 with g2
        injection g2 with e1 e2
        subst e1 e2
        exact ⟨c, r, L, e, hc, hr, g3⟩
  · rintro ⟨s, m, hd, h0 | ⟨⟨c', hc'⟩, c, r, L, e, hc, hr, hp⟩⟩
    · subst h0
      refine C72_isExact16_self hW hx hd (c := half.signPart s + 0) ?_ fun n y _ _ => ⟨0, 0, by positivity, by simp⟩
      rw [half.decode_code s (by decide)]
      simp [Format.magc]
    · obtain ⟨f, hf⟩ : ∃ f : F64, double.decode f.toNat = .num s m := widen_double (Or.inr (Or.inr ⟨rfl, rfl⟩) : SizeOf double 64) hc'
      obtain ⟨val, hv⟩ := widen_double hS hc
      obtain ⟨t, ht, hrd⟩ := printed_text hW hc hr hp hv
      -- the number is neither small nor large
      obtain ⟨⟨D, e1, hD, hm1⟩, h2, -⟩ := short_digits hW (F := half) hS (j := 5) (by decide) (by norm_num) ht hrd
      have hm0 : 0 < m := by
        rcases h2 with h2 | h2
        · exfalso
          have hz : half.RoundsTo s 0 (half.signPart s + 0) := by
            have := roundsTo_self (Or.inl rfl : GoFormat half) (n := 0) (by decide) s
            rwa [show half.magc 0 = 0 by simp [Format.magc]] at this
          have h3 := Float128ppc.RoundsTo.unique (by decide) (h2 ▸ hp.reads) hz
          rw [hc, half.decode_code s (by decide)] at h3
          injection h3 with _ h3
          exact hr (h3.trans (by simp [Format.magc]))
        · exact lt_of_lt_of_le (by positivity) h2
      obtain ⟨N, k, hN, -⟩ := decode_dyadic hf
      have hlow : (2 : ℚ) ^ (-14 : ℤ) ≤ m := by
        rcases dyadic_decimal hN hm1 with ⟨a, ha⟩ | ⟨j, a, rfl, ha, hDa⟩
        · have : 1 ≤ a := by
            rcases Nat.eq_zero_or_pos a with h | h
            · rw [ha, h] at hm0; simp at hm0
            · exact h
          have h1 : (1 : ℚ) ≤ a := by exact_mod_cast this
          rw [ha]
          refine le_trans ?_ h1
          norm_num
        · have ha1 : 1 ≤ a := by
            rcases Nat.eq_zero_or_pos a with h | h
            · rw [ha, h] at hm0; simp at hm0
            · exact h
          have hj : j ≤ 7 := by
            by_contra hc
            have h5 : 5 ^ 8 ≤ 5 ^ j := Nat.pow_le_pow_right (by norm_num) (by omega)
            have h6 : 5 ^ j ≤ a * 5 ^ j := Nat.le_mul_of_pos_left _ ha1
            omega
          have h1 : (1 : ℚ) ≤ a := by exact_mod_cast ha1
          rw [ha]
          calc (2 : ℚ) ^ (-14 : ℤ) ≤ (2 : ℚ) ^ (-(j : ℤ)) := zpow_le_zpow_right₀ (by norm_num) (by omega)
            _ ≤ _ := le_mul_of_one_le_left (by positivity) h1
      have hhigh : m < (2 : ℚ) ^ (16 : ℤ) := by
        by_contra hcon
        have hR := hp.reads
        unfold Format.RoundsTo at hR
        rw [if_pos] at hR
        · rw [hc] at hR
          cases hR
        · refine le_trans ?_ (not_lt.1 hcon)
          norm_num [half, Format.overflowAt, Format.bias]
      obtain ⟨g, acc, r', hg, -, -, -, hR, -⟩ := Binary16.C71_binary16_float64 f hf hm0.ne'
      have hgd := Float128ppc.RoundsTo.unique (by decide) (hR hlow hhigh) hp.reads
      rw [hc] at hgd
      obtain ⟨g', acc', v, hg', hv', heq⟩ := C46_size16 (W := W) f true 'e' (-1)
      rw [hg] at hg'
      injection hg' with hg'
      injection hg' with hg' _
      subst hg'
      obtain ⟨v', hv1, hv2⟩ := Binary16.C04_binary16_float64 g
      rw [hv'] at hv1
      injection hv1 with hv1
      injection hv1 with hv1 _
      subst hv1
      rw [hgd] at hv2
      obtain ⟨t', ht', hrd'⟩ := printed_text hW hc hr hp hv2
      refine (C72_isExact16 hW hx).2 ⟨s, m, f, t', hd, hf, ?_, hrd'⟩
      unfold formatFloat at ht' ⊢
      rw [heq, ht']

example := (C72_isExact16_iff (W := 64) (.inr rfl) Sample.x_wf).1 (by decide +kernel)

/-- A decimal printed for a number that is a multiple of its last place is the number itself. -/
theorem printed_multiple {F : Format} {c : ℕ} {r : ℚ} {L : ℕ} {e : ℤ} (hself : F.RoundsTo s r c) (hp : F.Printed s c r m L e) {z : ℕ}
    (hz : r = z * (10 : ℚ) ^ e) : m = r := by
  have hu : (0 : ℚ) < (10 : ℚ) ^ e := zpow_pos (by norm_num) _
  by_cases hx : F.Exceptional c r L
  · obtain ⟨w, rfl, h1, h2⟩ := hp.cut hx
    rw [hz] at h1 h2 ⊢
    generalize (10 : ℚ) ^ e = u at *
    have a : (w : ℚ) ≤ z := le_of_mul_le_mul_right h1 hu
    have b : (z : ℚ) * u < (w + 1) * u := by linarith
    have a' : w ≤ z := by exact_mod_cast a
    have b' : z < w + 1 := by exact_mod_cast lt_of_mul_lt_mul_right b hu.le
    rw [show w = z by omega]
  · obtain ⟨w, rfl, h1⟩ := hp.pick hx
    have h2 := h1 z (by rw [← hz]; exact hself)
    unfold Prefer at h2
    push_cast at h2
    rw [← hz, sub_self, abs_zero] at h2
    rcases h2 with h2 | h2 | h2
    · rw [hz, show z = w by exact_mod_cast h2]
    · exact absurd h2 (not_lt.2 (abs_nonneg _))
    · exact sub_eq_zero.1 (abs_eq_zero.1 h2.1)

/-- C34 up to 4110: a number below that IsExact16 accepts is a binary16. Missing, because false: 4110 and some greater numbers
(`C34_least`). -/
theorem C34_below_partial (hW : W = 32 ∨ W = 64) (hx : x.WF) (h : isExact16 W x = .ok true) (hd : x.datum = .num s m) (hlt : m < 4110) :
    ∃ c, half.decode c = .num s m := by
  obtain ⟨s', m', hd', h⟩ := (C72_isExact16_iff hW hx).1 h
  rw [hd] at hd'
  injection hd' with e1 e2
  subst e1 e2
  rcases h with rfl | ⟨⟨c', hc'⟩, c, r, L, e, hc, hr, hp⟩
  · exact ⟨half.signPart s + 0, by rw [half.decode_code s (by decide)]; simp [Format.magc]⟩
  by_contra hno
  have hG : GoFormat half := Or.inl rfl
  obtain ⟨n, k, N, hs, rfl, d1, d2, hz⟩ := value_split hG hc
  have hself : half.RoundsTo s (half.magc n) c := (roundsTo_congr d1 d2).2 (roundsTo_self hG hs.fin s)
  have hmul : ∀ z : ℕ, half.magc n ≠ z * (10 : ℚ) ^ e := fun z hz => hno ⟨c, by rw [printed_multiple hself hp hz]; exact hc⟩
  have hm0 : 0 ≤ m := by
    obtain ⟨D, e1, -, h1⟩ := hp.fits
    rw [h1]
    positivity
  obtain ⟨w, hw⟩ : ∃ w : ℕ, m = w * (10 : ℚ) ^ e := by
    by_cases hE : half.Exceptional c (half.magc n) L
    · obtain ⟨w, h1, -⟩ := hp.cut hE
      exact ⟨w, h1⟩
    · obtain ⟨w, h1, -⟩ := hp.pick hE
      exact ⟨w, h1⟩
  have hI : InInterval half n m := (roundsTo_iff half (by decide) (by decide) s hs.fin hm0).1 ((roundsTo_congr d1 d2).1 hp.reads)
  have hval := hs.value
  have hsucc := magc_succ half hs.lt hs.norm
  rw [← hs.code] at hsucc
  have hN0 : N ≠ 0 := fun h0 => hr (hz.1 h0)
  have hn0 : n ≠ 0 := fun h0 => hN0 (hs.zero_iff.2 h0)
  have hq : half.qmin = -24 := by decide
  have ht : half.t = 10 := rfl
  have hNlt : N < 2048 := by have := hs.lt; rw [ht] at this; omega
  rw [hq] at hval hsucc
  have hup : 2 * m ≤ (2 * N + 1) * (2 : ℚ) ^ (-24 + (k : ℤ)) := by
    have := hI.2.1
    rw [hsucc, hval] at this
    linarith
  have hU : (0 : ℚ) < (2 : ℚ) ^ (-24 + (k : ℤ)) := by positivity
  by_cases hk : k < 24
  · -- units below 1
    obtain ⟨i, hi⟩ : ∃ i : ℕ, (-24 + (k : ℤ)) = -(i : ℤ) := ⟨24 - k, by omega⟩
    have he : -(i : ℤ) < e := by
      by_contra hc
      obtain ⟨d, hd⟩ : ∃ d : ℕ, -(i : ℤ) = e + d := ⟨(-(i : ℤ) - e).toNat, by omega⟩
      apply hmul (N * 5 ^ i * 10 ^ d)
      have h10 : (10 : ℚ) ^ e = (10 : ℚ) ^ (-(i : ℤ)) / 10 ^ d := by
        rw [hd, zpow_add₀ (by norm_num), zpow_natCast]
        field_simp
      rw [hval, hi, h10, zpow_neg, zpow_neg, zpow_natCast, zpow_natCast, show (10 : ℚ) ^ i = 5 ^ i * 2 ^ i by rw [← mul_pow]; norm_num]
      push_cast
      field_simp
    obtain ⟨N', k', hN', -⟩ := decode_dyadic hc'
    obtain ⟨b, hb⟩ : ∃ b : ℕ, m = b * (2 : ℚ) ^ (-(i : ℤ)) := by
      rcases dyadic_decimal hN' hw with ⟨a, ha⟩ | ⟨j, a, rfl, ha, -⟩
      · refine ⟨a * 2 ^ i, ?_⟩
        rw [ha, zpow_neg, zpow_natCast]
        push_cast
        field_simp
      · refine ⟨a * 2 ^ (i - j), ?_⟩
        rw [ha]
        push_cast
        rw [← zpow_natCast, mul_assoc, ← zpow_add₀ (by norm_num)]
        congr 2
        omega
    rw [hi] at hup hU
    have hb2 : b < 2 ^ (half.t + 1) := by
      rw [hb] at hup
      have h1 : (2 * b : ℚ) * (2 : ℚ) ^ (-(i : ℤ)) ≤ (2 * N + 1) * (2 : ℚ) ^ (-(i : ℤ)) := by linarith
      have h2 : (2 * b : ℚ) ≤ 2 * N + 1 := le_of_mul_le_mul_right h1 hU
      have h3 : 2 * b ≤ 2 * N + 1 := by exact_mod_cast h2
      rw [ht]
      omega
    obtain ⟨n', h1, h2⟩ := exists_code half (by decide) (q := -(i : ℤ)) hb2 (by rw [hq]; omega) (by
      rw [← hb]
      refine lt_trans hlt ?_
      norm_num [half, Format.bias])
    exact hno ⟨half.signPart s + n', by rw [half.decode_code s h1, h2, ← hb]⟩
  · -- units from 1 on
    obtain ⟨i, rfl⟩ : ∃ i : ℕ, k = 24 + i := ⟨k - 24, by omega⟩
    have hi : (-24 + ((24 + i : ℕ) : ℤ)) = (i : ℤ) := by push_cast; ring
    rw [hi, zpow_natCast] at hval hsucc hup hU
    have hN1 : 1024 ≤ N := by
      rcases hs.norm with h | h
      · omega
      · rw [ht] at h; omega
    have hlow : (2 * N - 1) * (2 : ℚ) ^ i ≤ 2 * m := by
      have h1 := (hI.1 hn0).1
      have h2 : ((N : ℚ) - 1) * 2 ^ i ≤ half.magc (n - 1) := by
        by_cases hc : N = 1024
        · have h3 := magc_pred' half (k := 24 + i) (by omega)
          have h4 : n - 1 = (24 + i) * 2 ^ half.t + 2 ^ half.t - 1 := by rw [hs.code, hc, ht]; norm_num
          rw [h4, h3, hq, ht, zpow_sub_one₀ (by norm_num), hi, zpow_natCast, hc]
          push_cast
          linarith
        · have h4 : n - 1 = (24 + i) * 2 ^ half.t + (N - 1) := by rw [hs.code]; omega
          rw [h4, half.magc_eq (by rw [ht]; omega) (Or.inr (by rw [ht]; omega)), hq, hi, zpow_natCast, Nat.cast_sub (by omega)]
          push_cast
          exact le_rfl
      rw [hval] at h1
      linarith
    have he : 1 ≤ e := by
      by_contra hc
      obtain ⟨d, rfl⟩ : ∃ d : ℕ, e = -(d : ℤ) := ⟨(-e).toNat, by omega⟩
      apply hmul (N * 2 ^ i * 10 ^ d)
      rw [hval, zpow_neg, zpow_natCast]
      push_cast
      field_simp
    obtain ⟨v, hv⟩ : ∃ v : ℕ, m = (10 * v : ℕ) := by
      obtain ⟨d, rfl⟩ : ∃ d : ℕ, e = (d + 1 : ℕ) := ⟨(e - 1).toNat, by omega⟩
      refine ⟨w * 10 ^ d, ?_⟩
      rw [hw, zpow_natCast, pow_succ]
      push_cast
      ring
    have hne : 10 * v ≠ N * 2 ^ i := by
      intro h1
      refine hno ⟨c, ?_⟩
      rw [hc, hval, hv, h1]
      push_cast
      rfl
    rw [hv] at hup hlow hlt
    have a1 : 2 * (10 * v) ≤ (2 * N + 1) * 2 ^ i := by exact_mod_cast hup
    have a2 : 2 * N * 2 ^ i ≤ 2 * (10 * v) + 2 ^ i := by
      have : (2 * N : ℚ) * 2 ^ i ≤ 2 * ((10 * v : ℕ) : ℚ) + 2 ^ i := by linarith
      exact_mod_cast this
    have a3 : 10 * v < 4110 := by exact_mod_cast hlt
    rcases i with _ | _ | _ | i
    · omega
    · omega
    · omega
    · have h8 : 8 ≤ 2 ^ (i + 1 + 1 + 1) := by
        have := Nat.two_pow_pos i
        rw [pow_succ, pow_succ, pow_succ]
        omega
      generalize 2 ^ (i + 1 + 1 + 1) = P at *
      have h9 : 2047 * P ≤ 2 * N * P - P := by
        obtain ⟨M, rfl⟩ : ∃ M, N = 1024 + M := ⟨N - 1024, by omega⟩
        have : 2 * (1024 + M) * P = 2048 * P + 2 * (M * P) := by ring
        omega
      omega

/-- The hypotheses of `C34_below_partial` are met by 2047 and by -0.375; 2047.5 is rejected. -/
example : isExact16 64 ⟨53, .toNearestEven, .exact, .finite, false, 2047, 11⟩ = .ok true ∧
    isExact16 64 ⟨53, .toNearestEven, .exact, .finite, true, 3, -1⟩ = .ok true ∧
    isExact16 64 ⟨53, .toNearestEven, .exact, .finite, false, 4095, 11⟩ = .ok false := by decide +kernel

/-- 4110 as a variable of precision 53. -/
def big4110 : BigFloat := ⟨53, .toNearestEven, .exact, .finite, false, 4110, 13⟩

/-- C34: the bound is sharp. IsExact16 accepts 4110, which lies half way between the binary16 values 4108 and 4112. -/
theorem C34_least : big4110.WF ∧ big4110.datum = .num false 4110 ∧ isExact16 32 big4110 = .ok true ∧ isExact16 64 big4110 = .ok true ∧
    ¬ ∃ c, half.decode c = .num false 4110 := by
  refine ⟨⟨by decide, by decide, by decide, by decide, by decide, fun _ => ⟨4110, 0, by decide, by decide⟩⟩, ?_, by decide +kernel, by decide +kernel, ?_⟩
  · show Datum.num false ((4110 : ℕ) / 2 ^ bitLen 4110 * (2 : ℚ) ^ (13 : ℤ)) = _
    rw [show bitLen 4110 = 13 by decide]
    norm_num
  · rintro ⟨c, hc⟩
    obtain ⟨n, -, hn, -⟩ := half.code_of_decode hc
    have e1 : half.magc 27651 = 4108 := by norm_num [half, Format.magc, Format.qmin, Format.bias]
    have e2 : half.magc 27652 = 4112 := by norm_num [half, Format.magc, Format.qmin, Format.bias]
    have h1 : 27651 < n := half.magc_strictMono.lt_iff_lt.1 (by rw [e1, ← hn]; norm_num)
    have h2 : n < 27652 := half.magc_strictMono.lt_iff_lt.1 (by rw [e2, ← hn]; norm_num)
    omega

end GoFloat
