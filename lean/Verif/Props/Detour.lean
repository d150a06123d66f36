import Verif.Proofs.Sample
import Verif.Props.Value
import Verif.Props.Library
import Verif.Props.TwiceRounded
/-
C95: a number on its way to float64 or float32 through a wider format, compared with the direct way `x.Float64()`, `x.Float32()`.
-/
namespace GoFloat
open Spec Float128ppc

/-- Truncation to `p` bits does not jump over numbers that have `p` bits. -/
theorem trunc_ge {m : ℚ} {e : ℤ} {p : ℕ} (hp : 1 ≤ p) (h1 : (2 : ℚ) ^ (e - 1) ≤ m) {K E : ℤ} (hK : |K| < 2 ^ p)
    (h : K * (2 : ℚ) ^ E ≤ m) : K * (2 : ℚ) ^ E ≤ ⌊m * 2 ^ (p - e)⌋ * (2 : ℚ) ^ (e - p) := by
  have hu : (0 : ℚ) < 2 ^ (e - p) := zpow_pos (by norm_num) _
  have hinv : (2 : ℚ) ^ ((p : ℤ) - e) * 2 ^ (e - p) = 1 := by
    rw [← zpow_add₀ (by norm_num)]; simp
  have hinv' : (2 : ℚ) ^ (e - p) * 2 ^ ((p : ℤ) - e) = 1 := by rw [mul_comm]; exact hinv
  have hv : (0 : ℚ) < 2 ^ ((p : ℤ) - e) := zpow_pos (by norm_num) _
  by_cases hE : e - p ≤ E
  · obtain ⟨d, hd⟩ := Int.eq_ofNat_of_zero_le (sub_nonneg.2 hE)
    have e1 : (2 : ℚ) ^ E = ((2 ^ d : ℤ) : ℚ) * 2 ^ (e - p) := by
      rw [Int.cast_pow, Int.cast_ofNat, ← zpow_natCast, ← zpow_add₀ (by norm_num)]
      congr 1; omega
    rw [e1, ← mul_assoc] at h ⊢
    refine mul_le_mul_of_nonneg_right ?_ hu.le
    rw [← Int.cast_mul]
    have : K * 2 ^ d ≤ ⌊m * 2 ^ ((p : ℤ) - e)⌋ := by
      rw [Int.le_floor]
      have := mul_le_mul_of_nonneg_right h hv.le
      rw [mul_assoc, hinv', mul_one] at this
      push_cast at this ⊢
      exact this
    exact_mod_cast this
  · have hE : E + p ≤ e - 1 := by omega
    have hk : (K : ℚ) * 2 ^ E ≤ (2 : ℚ) ^ (e - 1) := by
      have : (K : ℚ) ≤ 2 ^ p := by exact_mod_cast (le_abs_self K).trans hK.le
      have h2 : (K : ℚ) * 2 ^ E ≤ 2 ^ p * 2 ^ E := mul_le_mul_of_nonneg_right this (zpow_pos (by norm_num) _).le
      rw [← zpow_natCast, ← zpow_add₀ (by norm_num)] at h2
      exact h2.trans (zpow_le_zpow_right₀ (by norm_num) (by omega))
    refine hk.trans ?_
    have e2 : (2 : ℚ) ^ (e - 1) = ((2 ^ (p - 1) : ℤ) : ℚ) * 2 ^ (e - p) := by
      rw [Int.cast_pow, Int.cast_ofNat, ← zpow_natCast, ← zpow_add₀ (by norm_num)]
      congr 1; omega
    rw [e2]
    refine mul_le_mul_of_nonneg_right ?_ hu.le
    have : (2 ^ (p - 1) : ℤ) ≤ ⌊m * 2 ^ ((p : ℤ) - e)⌋ := by
      rw [Int.le_floor]
      have h3 := mul_le_mul_of_nonneg_right h1 hv.le
      rw [e2, mul_assoc, hinv', mul_one] at h3
      exact h3
    exact_mod_cast this

theorem trunc_le {m : ℚ} {e : ℤ} {p : ℕ} : ⌊m * 2 ^ ((p : ℤ) - e)⌋ * (2 : ℚ) ^ (e - p) ≤ m := by
  have hu : (0 : ℚ) < 2 ^ (e - p) := zpow_pos (by norm_num) _
  have h := mul_le_mul_of_nonneg_right (Int.floor_le (m * 2 ^ ((p : ℤ) - e))) hu.le
  rwa [mul_assoc, ← zpow_add₀ (by norm_num), show (p : ℤ) - e + (e - p) = 0 by ring, zpow_zero, mul_one] at h

/-- Through truncation to `p` bits. -/
theorem detour_trunc (F : Format) (ht : 1 ≤ F.t) (hw : 2 ≤ F.w) {p : ℕ} (hp : F.t + 2 ≤ p) {s : Bool} {m : ℚ} {e : ℤ}
    (h1 : (2 : ℚ) ^ (e - 1) ≤ m) {c : ℕ} (hc : F.RoundsTo s (⌊m * 2 ^ ((p : ℤ) - e)⌋ * (2 : ℚ) ^ (e - p)) c) :
    F.RoundsTo s m c ↔ ¬ Misled F m (⌊m * 2 ^ ((p : ℤ) - e)⌋ * (2 : ℚ) ^ (e - p)) := by
  have hm : 0 < m := lt_of_lt_of_le (zpow_pos (by norm_num) _) h1
  refine twice_of F ht hw hm.le ?_ ?_ ?_ hc
  · exact mul_nonneg (by exact_mod_cast Int.floor_nonneg.2 (mul_nonneg hm.le (zpow_pos (by norm_num) _).le)) (zpow_pos (by norm_num) _).le
  · intro n hn h
    obtain ⟨K, E, hK, he⟩ := halfway_fits F hn hp
    rw [he] at h ⊢
    linarith [trunc_ge (by omega) h1 hK (by linarith)]
  · intro n hn h
    linarith [trunc_le (m := m) (e := e) (p := p)]

/-- Through a number that is as small: both are rounded to zero. -/
theorem detour_small (F : Format) (ht : 1 ≤ F.t) (hw : 2 ≤ F.w) {s : Bool} {m q : ℚ} (hm : 0 ≤ m) (hq : 0 ≤ q)
    (h1 : 2 * m < (2 : ℚ) ^ F.qmin) (h2 : 2 * q < (2 : ℚ) ^ F.qmin) {c : ℕ} (hc : F.RoundsTo s q c) : F.RoundsTo s m c ↔ ¬ Misled F m q := by
  have hmid : ∀ n, (2 : ℚ) ^ F.qmin ≤ F.magc n + F.magc (n + 1) := by
    intro n
    have h3 : F.magc 1 ≤ F.magc (n + 1) := F.magc_strictMono.monotone (by omega)
    have h4 : F.magc 1 = (2 : ℚ) ^ F.qmin := by
      have := F.magc_eq (k := 0) (N := 1) (by have := Nat.two_pow_pos (F.t + 1); omega) (Or.inl rfl)
      simpa using this
    linarith [F.magc_nonneg n]
  refine twice_of F ht hw hm hq ?_ ?_ hc
  · intro n hn h; linarith [hmid n]
  · intro n hn h; linarith [hmid n]

theorem same64 {x : BigFloat} (hx : x.WF) {s : Bool} {m : ℚ} (hd : x.datum = .num s m) {r : F64} :
    r = x.float64.1 ↔ double.RoundsTo s m r.toNat := by
  have h := ((BigFloat.C91_float hx).2.1 s m hd).1
  constructor
  · rintro rfl; exact h
  · intro hr
    refine (decode_inj64 (RoundsTo.unique (by decide) h hr) ?_).symm
    intro s' hs
    unfold Format.RoundsTo at h
    split at h
    · rw [h] at hs; cases hs
    · obtain ⟨r', h', -⟩ := h
      rw [h'] at hs; cases hs

theorem same32 {x : BigFloat} (hx : x.WF) {s : Bool} {m : ℚ} (hd : x.datum = .num s m) {r : F32} :
    r = x.float32.1 ↔ single.RoundsTo s m r.toNat := by
  have h := ((BigFloat.C91_float hx).2.1 s m hd).2
  constructor
  · rintro rfl; exact h
  · intro hr
    refine (decode_inj32 (RoundsTo.unique (by decide) h hr) ?_).symm
    intro s' hs
    unfold Format.RoundsTo at h
    split at h
    · rw [h] at hs; cases hs
    · obtain ⟨r', h', -⟩ := h
      rw [h'] at hs; cases hs

/-- Every positive number lies in a binade. -/
theorem binade {m : ℚ} (hm : 0 < m) : ∃ e : ℤ, (2 : ℚ) ^ (e - 1) ≤ m ∧ m < (2 : ℚ) ^ e := by
  obtain ⟨n, h1, h2⟩ := exists_mem_Ico_zpow hm (by norm_num : (1 : ℚ) < 2)
  exact ⟨n + 1, by simpa using h1, h2⟩

theorem qmins : double.qmin = -1074 ∧ single.qmin = -149 := by constructor <;> decide

/-- Numbers below `2^-2000` are rounded to zero. -/
theorem tiny_two {m : ℚ} (h : m < (2 : ℚ) ^ (-2000 : ℤ)) : 2 * m < (2 : ℚ) ^ double.qmin ∧ 2 * m < (2 : ℚ) ^ single.qmin := by
  have h1 : (2 : ℚ) ^ (-2000 : ℤ) * 2 = 2 ^ (-1999 : ℤ) := by rw [← zpow_add_one₀ (by norm_num)]; norm_num
  have h2 : (2 : ℚ) ^ (-1999 : ℤ) ≤ 2 ^ (-1074 : ℤ) := zpow_le_zpow_right₀ (by norm_num) (by norm_num)
  have h3 : (2 : ℚ) ^ (-1999 : ℤ) ≤ 2 ^ (-149 : ℤ) := zpow_le_zpow_right₀ (by norm_num) (by norm_num)
  rw [qmins.1, qmins.2]
  generalize (2 : ℚ) ^ (-2000 : ℤ) = A at *
  generalize (2 : ℚ) ^ (-1999 : ℤ) = B at *
  exact ⟨lt_of_lt_of_le (by linarith) h2, lt_of_lt_of_le (by linarith) h3⟩

/-- The integer part of a small number in units of `2^-k`. -/
theorem floor_small {m : ℚ} (hm : 0 ≤ m) {k : ℤ} : 0 ≤ (⌊m * 2 ^ k⌋ : ℚ) * (2 : ℚ) ^ (-k) ∧ (⌊m * 2 ^ k⌋ : ℚ) * (2 : ℚ) ^ (-k) ≤ m := by
  have h1 : (0 : ℚ) < 2 ^ k := zpow_pos (by norm_num) _
  have h2 : (0 : ℚ) < 2 ^ (-k) := zpow_pos (by norm_num) _
  refine ⟨mul_nonneg (by exact_mod_cast Int.floor_nonneg.2 (mul_nonneg hm h1.le)) h2.le, ?_⟩
  have h := mul_le_mul_of_nonneg_right (Int.floor_le (m * 2 ^ k)) h2.le
  rwa [mul_assoc, ← zpow_add₀ (by norm_num), add_neg_cancel, zpow_zero, mul_one] at h

namespace Binary128

/-- C95, binary128: a number below `2^16384` goes to the same float64 and float32 through binary128 as directly, unless the number in
between is half way between two floats, the even one of which is below, and the number itself is above. -/
theorem C95_binary128 (x : BigFloat) (hx : x.WF) {s : Bool} {m : ℚ} (hd : x.datum = .num s m) (hm : 0 < m) (hlt : m < (2 : ℚ) ^ (16384 : ℤ)) :
    ∃ f acc q, newFromBig x = .ok (f, acc) ∧ quad.decode f.code = .num s q ∧
      (∃ r a, f.float64 = .ok (r, a) ∧ (r = x.float64.1 ↔ ¬ Misled double m q)) ∧
      (∃ r a, f.float32 = .ok (r, a) ∧ (r = x.float32.1 ↔ ¬ Misled single m q)) := by
  obtain ⟨e, h1, h2⟩ := binade hm
  obtain ⟨f, acc, hr, a1, a2, -, a4, -⟩ := C66_binary128 x hx hd h1 h2
  have he : e ≤ 16384 := by
    have := (zpow_lt_zpow_iff_right₀ (by norm_num : (1 : ℚ) < 2)).1 (h1.trans_lt hlt)
    omega
  obtain ⟨r, ra, hr64, hc64⟩ := C17_binary128_float64 f
  obtain ⟨r', ra', hr32, hc32⟩ := C17_binary128_float32 f
  by_cases c : -16382 < e
  · have hq := a4 c (by omega) (by omega)
    rw [Int.emod_eq_of_lt (by omega) (by omega), show e + 16382 - 16495 = e - (113 : ℕ) by push_cast; ring,
      show 113 - e = ((113 : ℕ) : ℤ) - e by norm_num] at hq
    rw [hq] at hc64 hc32
    exact ⟨f, acc, _, hr, hq,
      ⟨r, ra, hr64, by rw [same64 hx hd]; exact detour_trunc double (by decide) (by decide) (by decide) h1 hc64.1⟩,
      ⟨r', ra', hr32, by rw [same32 hx hd]; exact detour_trunc single (by decide) (by decide) (by decide) h1 hc32.1⟩⟩
  · have hm' : m < (2 : ℚ) ^ (-2000 : ℤ) := h2.trans_le (zpow_le_zpow_right₀ (by norm_num) (by omega))
    have hq : ∃ q, quad.decode f.code = .num s q ∧ 0 ≤ q ∧ q < (2 : ℚ) ^ (-2000 : ℤ) := by
      by_cases c2 : e ≤ -16494
      · refine ⟨_, a1 c2, mul_nonneg ?_ (zpow_pos (by norm_num) _).le, ?_⟩
        · exact_mod_cast Int.emod_nonneg _ (by norm_num)
        · have h3 : ((⌊m * 2 ^ (224 - e)⌋ % 2 ^ 112 : ℤ) : ℚ) < 2 ^ 112 := by exact_mod_cast Int.emod_lt_of_pos _ (by norm_num)
          have h4 : (2 : ℚ) ^ 112 * 2 ^ (-16494 : ℤ) ≤ 2 ^ (-2000 : ℤ) := by
            rw [← zpow_natCast, ← zpow_add₀ (by norm_num)]
            exact zpow_le_zpow_right₀ (by norm_num) (by norm_num)
          exact lt_of_lt_of_le (mul_lt_mul_of_pos_right h3 (zpow_pos (by norm_num) _)) h4
      · obtain ⟨b1, b2⟩ := floor_small hm.le (k := 16494)
        exact ⟨_, a2 (by omega) (by omega), b1, b2.trans_lt hm'⟩
    obtain ⟨q, hq, hq0, hq1⟩ := hq
    rw [hq] at hc64 hc32
    exact ⟨f, acc, q, hr, hq,
      ⟨r, ra, hr64, by rw [same64 hx hd]; exact detour_small double (by decide) (by decide) hm.le hq0 (tiny_two hm').1 (tiny_two hq1).1 hc64.1⟩,
      ⟨r', ra', hr32, by rw [same32 hx hd]; exact detour_small single (by decide) (by decide) hm.le hq0 (tiny_two hm').2 (tiny_two hq1).2 hc32.1⟩⟩

example := C95_binary128 Sample.y Sample.y_wf Sample.y_datum (by norm_num) (lt_of_lt_of_le (b := (2 : ℚ) ^ (1 : ℤ)) (by norm_num) (zpow_le_zpow_right₀ (by norm_num) (by norm_num)))

end Binary128

namespace Float80x86

/-- C95, float80x86: the same for the extended format. -/
theorem C95_float80x86 (x : BigFloat) (hx : x.WF) {s : Bool} {m : ℚ} (hd : x.datum = .num s m) (hm : 0 < m) (hlt : m < (2 : ℚ) ^ (16384 : ℤ)) :
    ∃ f acc q, newFromBig x = .ok (f, acc) ∧ f.val = .num s q ∧
      (∃ r a, f.float64 = .ok (r, a) ∧ (r = x.float64.1 ↔ ¬ Misled double m q)) ∧
      (∃ r a, f.float32 = .ok (r, a) ∧ (r = x.float32.1 ↔ ¬ Misled single m q)) := by
  obtain ⟨e, h1, h2⟩ := binade hm
  obtain ⟨f, acc, hr, a1, a2, a4, -⟩ := C66_float80x86 x hx hd h1 h2
  have he : e ≤ 16384 := by
    have := (zpow_lt_zpow_iff_right₀ (by norm_num : (1 : ℚ) < 2)).1 (h1.trans_lt hlt)
    omega
  obtain ⟨r, ra, hr64, hc64⟩ := C23_float80x86_float64 f
  obtain ⟨r', ra', hr32, hc32⟩ := C23_float80x86_float32 f
  by_cases c : -16382 < e
  · have hq : f.val = _ := a4 c (by omega)
    rw [Int.emod_eq_of_lt (by omega) (by omega), max_eq_left (by omega), show e + 16382 - 16446 = e - (64 : ℕ) by push_cast; ring,
      show 64 - e = ((64 : ℕ) : ℤ) - e by norm_num] at hq
    rw [hq] at hc64 hc32
    exact ⟨f, acc, _, hr, hq,
      ⟨r, ra, hr64, by rw [same64 hx hd]; exact detour_trunc double (by decide) (by decide) (by decide) h1 hc64.1⟩,
      ⟨r', ra', hr32, by rw [same32 hx hd]; exact detour_trunc single (by decide) (by decide) (by decide) h1 hc32.1⟩⟩
  · have hm' : m < (2 : ℚ) ^ (-2000 : ℤ) := h2.trans_le (zpow_le_zpow_right₀ (by norm_num) (by omega))
    have hq : ∃ q, f.val = .num s q ∧ 0 ≤ q ∧ q < (2 : ℚ) ^ (-2000 : ℤ) := by
      by_cases c2 : e ≤ -16445
      · refine ⟨_, a1 c2, mul_nonneg (by norm_num) (zpow_pos (by norm_num) _).le, ?_⟩
        have h4 : (2 : ℚ) ^ 63 * 2 ^ (-16445 : ℤ) ≤ 2 ^ (-2000 : ℤ) := by
          rw [← zpow_natCast, ← zpow_add₀ (by norm_num)]
          exact zpow_le_zpow_right₀ (by norm_num) (by norm_num)
        exact lt_of_lt_of_le (mul_lt_mul_of_pos_right (by norm_num) (zpow_pos (by norm_num) _)) h4
      · obtain ⟨b1, b2⟩ := floor_small hm.le (k := 16445)
        exact ⟨_, a2 (by omega) (by omega), b1, b2.trans_lt hm'⟩
    obtain ⟨q, hq, hq0, hq1⟩ := hq
    rw [hq] at hc64 hc32
    exact ⟨f, acc, q, hr, hq,
      ⟨r, ra, hr64, by rw [same64 hx hd]; exact detour_small double (by decide) (by decide) hm.le hq0 (tiny_two hm').1 (tiny_two hq1).1 hc64.1⟩,
      ⟨r', ra', hr32, by rw [same32 hx hd]; exact detour_small single (by decide) (by decide) hm.le hq0 (tiny_two hm').2 (tiny_two hq1).2 hc32.1⟩⟩

example := C95_float80x86 Sample.y Sample.y_wf Sample.y_datum (by norm_num) (lt_of_lt_of_le (b := (2 : ℚ) ^ (1 : ℤ)) (by norm_num) (zpow_le_zpow_right₀ (by norm_num) (by norm_num)))

end Float80x86

namespace Float128ppc

/-- C95, float128ppc: the same for double-doubles, where the number in between is the argument rounded to 106 bits. -/
theorem C95_float128ppc (x : BigFloat) (hx : x.WF) (hf : x.form = .finite) (hmode : x.mode = .toNearestEven ∨ x.prec ≤ 106)
    (hlo : 2 ^ (-969 : ℤ) ≤ x.mag) (hhi : x.mag < double.overflowAt - 2 ^ (917 : ℤ)) {v : ℚ} (hv : RoundsToBits 106 x.sval v) :
    ∃ f x', newFromBig x = .ok ((f, .exact), x') ∧
      (∃ r a, f.float64 = .ok (r, a) ∧ (r = x.float64.1 ↔ ¬ Misled double |x.sval| |v|)) ∧
      (∃ r a, f.float32 = .ok (r, a) ∧ (r = x.float32.1 ↔ ¬ Misled single |x.sval| |v|)) := by
  have hxm := BigFloat.mag_pos (hx.mant_pos hf)
  have hsv := BigFloat.sval_finite hf
  have habs : |x.sval| = x.mag := by rw [hsv, BigFloat.signed_abs hxm.le]
  have h0 : x.sval ≠ 0 := by rw [← abs_pos, habs]; exact hxm
  obtain ⟨f, x', h1, v', mh, sl, ml, h2, h3, h4, h5, h6, h7⟩ := C29_partial x hx hf hmode hlo hhi
  obtain rfl := RoundsToBits.unique (by norm_num) h0 hv h2
  have hpos : (0 : ℚ) < 2 ^ (-969 : ℤ) := zpow_pos (by norm_num) _
  have hside : v ≠ 0 ∧ decide (v < 0) = x.neg := by
    cases hn : x.neg with
    | true =>
      have : x.sval = -x.mag := by rw [hsv, hn]; rfl
      have h8 := le_of_le hv (K := -1) (e := -969) (by norm_num) (by rw [Int.cast_neg, Int.cast_one, neg_one_mul, this]; linarith)
      rw [Int.cast_neg, Int.cast_one, neg_one_mul] at h8
      have h9 : v < 0 := by linarith
      exact ⟨h9.ne, by simpa using h9⟩
    | false =>
      have : x.sval = x.mag := by rw [hsv, hn]; rfl
      have h8 := ge_of_ge hv (K := 1) (e := -969) (by norm_num) (by rw [Int.cast_one, one_mul, this]; exact hlo)
      rw [Int.cast_one, one_mul] at h8
      have h9 : 0 < v := by linarith
      exact ⟨h9.ne', by simpa using h9.le⟩
  have hself : ∀ F : Format, ¬ Misled F |v| |v| := by
    rintro F ⟨c, -, hc⟩
    split at hc <;> exact lt_irrefl _ hc
  obtain ⟨k, e, hk, hke⟩ := hv.1
  have hvv : RoundsToBits 106 v v := by
    refine ⟨hv.1, fun k e _ => by rw [sub_self, abs_zero]; exact abs_nonneg _, ?_⟩
    intro k e _ hne heq
    rw [sub_self, abs_zero, eq_comm, abs_eq_zero, sub_eq_zero] at heq
    exact absurd heq.symm hne
  obtain ⟨⟨r, a, b1, b2⟩, ⟨r', a', c1, c2⟩⟩ := C75_float128ppc_correct f h3 h5 h6.symm hside.1 hvv
  have hd := BigFloat.datum_finite hf
  have hb : RoundsToBits 106 |x.sval| |v| := by
    refine roundsToBits_mag (s := x.neg) ?_
    rw [habs, ← hsv]
    have : signed x.neg |v| = v := by
      rw [← hside.2]; exact signed_abs v
    rw [this]; exact hv
  rw [hside.2] at b2 c2
  refine ⟨f, x', h1, ⟨r, a, b1, ?_⟩, ⟨r', a', c1, ?_⟩⟩
  · rw [same64 hx hd, ← habs]
    exact twice_iff double (by decide) (by decide) (by decide) (abs_nonneg _) (abs_nonneg _) hb (b2.2 (hself _))
  · rw [same32 hx hd, ← habs]
    exact twice_iff single (by decide) (by decide) (by decide) (abs_nonneg _) (abs_nonneg _) hb (c2.2 (hself _))

end Float128ppc

/-! `1 + 2^-53 + 2^-120` is nearer to the double `1 + 2^-52`, but its 113 leading bits are `1 + 2^-53`, half way between that and 1. -/

/-- 1 + 2^-53 + 2^-120 -/
def aboveTie : BigFloat := ⟨200, .toNearestEven, .exact, .finite, false, 2 ^ 120 + 2 ^ 67 + 1, 1⟩

example : aboveTie.WF := ⟨by decide, by decide, by decide, by decide, by decide, fun _ => ⟨2 ^ 120 + 2 ^ 67 + 1, 0, by decide, by decide⟩⟩
example : aboveTie.float64.1 = 0x3FF0000000000001 ∧
    (do let (f, _) ← Binary128.newFromBig aboveTie; f.float64) = .ok (0x3FF0000000000000, .below) ∧
    (do let (f, _) ← Float80x86.newFromBig aboveTie; f.float64) = .ok (0x3FF0000000000000, .below) ∧
    (do let ((f, _), _) ← Float128ppc.newFromBig aboveTie; f.float64) = .ok (0x3FF0000000000000, .below) := by decide +kernel
-- float32 is not affected: 1 + 2^-53 is half way between no two of them
example : aboveTie.float32.1 = 0x3F800000 ∧
    (do let (f, _) ← Binary128.newFromBig aboveTie; f.float32) = .ok (0x3F800000, .below) := by decide +kernel
-- the number in between is half way between two doubles
example : Misled double (1 + 2 ^ (-53 : ℤ) + 2 ^ (-120 : ℤ)) (1 + 2 ^ (-53 : ℤ)) := by
  refine ⟨0x3FF0000000000000, ⟨by decide, 1, by norm_num [Format.decode, double, Format.bias], Or.inl ⟨1 + 2 ^ (-52 : ℤ), ?_, ?_⟩⟩, ?_⟩
  · norm_num [Format.decode, double, Format.bias]
  · norm_num
  · rw [if_pos (by decide)]; norm_num

end GoFloat
