import Verif.Props.Float128ppc
import Verif.Props.Value
import Verif.Proofs.DoubleRound
import Verif.Proofs.FormatFloat
import Verif.Props.Monotone
/-
C69: what `Float64` makes of a normalised double-double.
-/
namespace GoFloat.Float128ppc
open Spec Strconv

/-- A normalised double-double: two finite halves (with sign and magnitude), the high one being the double nearest to
their sum. -/
def Normalised (f : Float) (s₁ : Bool) (m₁ : ℚ) (s₂ : Bool) (m₂ : ℚ) : Prop :=
  double.decode f.high.toNat = .num s₁ m₁ ∧ double.decode f.low.toNat = .num s₂ m₂ ∧
  (signed s₁ m₁ + signed s₂ m₂ = 0 → m₁ = 0) ∧
  (signed s₁ m₁ + signed s₂ m₂ ≠ 0 →
    double.RoundsTo (decide (signed s₁ m₁ + signed s₂ m₂ < 0)) |signed s₁ m₁ + signed s₂ m₂| f.high.toNat)

/-- The exception: the fraction of `high` is odd, and the magnitude of `low` is the largest double below half a unit in
the last place of `high`. -/
def Exceptional (f : Float) (m₁ m₂ : ℚ) : Prop :=
  f.high.toNat % 2 = 1 ∧ ∃ k : ℤ, (2 : ℚ) ^ k ≤ m₁ ∧ m₁ < (2 : ℚ) ^ (k + 1) ∧ m₂ = 2 ^ (k - 53) - 2 ^ (k - 106)

theorem signed_rel {s₁ s₂ : Bool} {m₁ m₂ : ℚ} {a : ℚ} (h : signed s₁ a = signed s₁ m₁ + signed s₂ m₂) :
    a = m₁ + (if s₁ = s₂ then m₂ else -m₂) := by
  cases s₁ <;> cases s₂ <;> simp [signed] at h ⊢ <;> linarith

theorem signed_abs (v : ℚ) : signed (decide (v < 0)) |v| = v := by
  unfold signed
  by_cases h : v < 0
  · simp [h, abs_of_neg h]
  · simp [h, abs_of_nonneg (not_lt.1 h)]

/-- The shape of an exceptional pair. -/
theorem exceptional_shape {c : ℕ} {s₂ : Bool} {m₂ : ℚ} (h2 : double.decode c = .num s₂ m₂) {n k' N : ℕ} (hs : Split double n k' N)
    (hodd : n % 2 = 1) {k : ℤ} (l1 : (2 : ℚ) ^ k ≤ double.magc n) (l2 : double.magc n < (2 : ℚ) ^ (k + 1))
    (hm : m₂ = 2 ^ (k - 53) - 2 ^ (k - 106)) : 2 ^ 52 < N ∧ k = -1074 + k' + 52 := by
  have hv := hs.value
  rw [double_facts.1] at hv
  have hN := hs.lt
  have hcode := hs.code
  have hnorm := hs.norm
  rw [show double.t = 52 from rfl] at hN hcode hnorm
  have hNq : (N : ℚ) < 2 ^ 53 := by exact_mod_cast hN
  rw [hv] at l1 l2
  have hbig : 2 ^ 52 ≤ N := by
    by_contra hlt
    push Not at hlt
    have hk0 : k' = 0 := by omega
    obtain ⟨N₂, e2, -⟩ := double_multiple h2
    have hk : k < -968 := by
      by_contra hc
      push Not at hc
      have h3 : (2 : ℚ) ^ (-1022 : ℤ) ≤ 2 ^ k := zpow_le_zpow_right₀ (by norm_num) (by omega)
      have h4 : (2 : ℚ) ^ (-1022 : ℤ) = 2 ^ 52 * 2 ^ (-1074 : ℤ) := by
        rw [← zpow_natCast, ← zpow_add₀ (by norm_num)]; norm_num
      have h5 : (N : ℚ) * 2 ^ (-1074 : ℤ) < 2 ^ 52 * 2 ^ (-1074 : ℤ) := by
        have : (N : ℚ) < 2 ^ 52 := by exact_mod_cast hlt
        have hp : (0 : ℚ) < 2 ^ (-1074 : ℤ) := by positivity
        exact mul_lt_mul_of_pos_right this hp
      have h6 : (2 : ℚ) ^ (-1074 + (k' : ℤ)) = 2 ^ (-1074 : ℤ) := by rw [hk0]; norm_num
      rw [h6] at l1
      rw [h4] at h3
      exact absurd (h3.trans l1) (not_le.2 h5)
    obtain ⟨d, hd⟩ : ∃ d : ℕ, (-1074 : ℤ) = k - 106 + (d + 1) := ⟨(-1074 - (k - 106) - 1).toNat, by omega⟩
    rw [hm, show k - 53 = k - 106 + 53 by ring, hd, zpow_add₀ (by norm_num), zpow_add₀ (by norm_num) (k - 106),
      show (2 : ℚ) ^ ((d : ℤ) + 1) = 2 ^ (d + 1) by rw [← zpow_natCast]; push_cast; rfl] at e2
    have hp : (0 : ℚ) < 2 ^ (k - 106) := by positivity
    generalize (2 : ℚ) ^ (k - 106) = w at *
    have h7 : (2 ^ 53 - 1 : ℚ) = N₂ * 2 ^ (d + 1) := by
      refine mul_right_cancel₀ (b := w) hp.ne' ?_
      have h53 : (2 : ℚ) ^ (53 : ℤ) = 2 ^ 53 := by norm_num
      rw [h53] at e2
      linarith
    have h8 : (2 ^ 53 - 1 : ℤ) = N₂ * 2 ^ (d + 1) := by
      have h9 : ((2 ^ 53 - 1 : ℤ) : ℚ) = ((N₂ * 2 ^ (d + 1) : ℤ) : ℚ) := by
        rw [Int.cast_sub, Int.cast_mul, Int.cast_pow, Int.cast_pow, Int.cast_natCast]
        exact h7
      exact Int.cast_injective h9
    rw [pow_succ 2 d, ← mul_assoc] at h8
    generalize (N₂ : ℤ) * 2 ^ d = z at h8
    omega
  refine ⟨by omega, ?_⟩
  have hu : (0 : ℚ) < 2 ^ (-1074 + (k' : ℤ)) := by positivity
  have hNq1 : (2 : ℚ) ^ 52 ≤ N := by exact_mod_cast hbig
  have e1 : (2 : ℚ) ^ (-1074 + (k' : ℤ) + 52) = 2 ^ 52 * 2 ^ (-1074 + (k' : ℤ)) := by
    rw [zpow_add₀ (by norm_num)]; norm_num; ring
  have e3 : (2 : ℚ) ^ (-1074 + (k' : ℤ) + 53) = 2 ^ 53 * 2 ^ (-1074 + (k' : ℤ)) := by
    rw [zpow_add₀ (by norm_num)]; norm_num; ring
  have g1 : (2 : ℚ) ^ k < 2 ^ (-1074 + (k' : ℤ) + 53) := by
    rw [e3]; exact lt_of_le_of_lt l1 (mul_lt_mul_of_pos_right hNq hu)
  have g2 : (2 : ℚ) ^ (-1074 + (k' : ℤ) + 52) < 2 ^ (k + 1) := by
    rw [e1]; exact lt_of_le_of_lt (mul_le_mul_of_nonneg_right hNq1 hu.le) l2
  have g3 := (zpow_lt_zpow_iff_right₀ (by norm_num : (1 : ℚ) < 2)).1 g1
  have g4 := (zpow_lt_zpow_iff_right₀ (by norm_num : (1 : ℚ) < 2)).1 g2
  omega

theorem exp_units (q : ℤ) : (2 : ℚ) ^ (q + 52 - 53) = 2 ^ q / 2 ∧ (2 : ℚ) ^ (q + 52 - 106) = 2 ^ (q - 54) ∧
    (2 : ℚ) ^ (q + 52) = 2 ^ 52 * 2 ^ q ∧ (2 : ℚ) ^ (q + 52 + 1) = 2 ^ 53 * 2 ^ q := by
  refine ⟨?_, ?_, ?_, ?_⟩
  · rw [show q + 52 - 53 = q - 1 by ring, zpow_sub₀ (by norm_num)]; norm_num
  · congr 1; ring
  · rw [zpow_add₀ (by norm_num)]; norm_num; ring
  · rw [show q + 52 + 1 = q + 53 by ring, zpow_add₀ (by norm_num)]; norm_num; ring

/-- C69: `Float64` of a normalised double-double is its high half, except that in the exceptional case it is the
neighbour of the high half in the direction of the low half (which may be an infinity). -/
theorem C69_float128ppc_high (f : Float) {s₁ s₂ : Bool} {m₁ m₂ : ℚ} (h : Normalised f s₁ m₁ s₂ m₂) :
    (¬ Exceptional f m₁ m₂ → ∃ acc, f.float64 = .ok (f.high, acc)) ∧
    (Exceptional f m₁ m₂ → ∃ acc, f.float64 = .ok (if s₁ = s₂ then f.high + 1 else f.high - 1, acc)) := by
  obtain ⟨h1, h2, hz, hnz⟩ := h
  obtain ⟨x, nan, hb, hsum⟩ := C27_partial f (by intro s; rw [h1]; simp)
  rw [h1, h2] at hsum
  obtain ⟨rfl, -, -, hwf, s, m, hd, hr, -, hs0, hs1⟩ := hsum
  obtain ⟨-, -, hR, -⟩ := toF64_spec hwf (show Decoded (.num s m) x false from ⟨rfl, hd⟩)
  have hR := hR s m rfl
  have hf64 := float64_of_big hb
  set r := (toF64 x false).1 with hrdef
  have hfin : ∀ w : F64, double.RoundsTo s m w.toNat → f.float64 = .ok (w, (toF64 x false).2) := by
    intro w hw
    rw [hf64]
    have := decode_inj64 (RoundsTo.unique (by decide) hR hw) (roundsTo_not_nan hR)
    rw [← this]
  have hm0 : 0 ≤ m := Binary16.datum_nonneg hd
  obtain ⟨n, hn, hmn, -, -⟩ := double.code_of_decode h1
  have hcode : f.high.toNat = double.signPart s₁ + n := code_eq (F := double) (by exact f.high.isLt) (by rw [h1, hmn])
  have hpar : f.high.toNat % 2 = n % 2 := by
    rw [hcode]
    have := signPart_even double (by decide) s₁
    omega
  by_cases hv0 : signed s₁ m₁ + signed s₂ m₂ = 0
  · have hm1 := hz hv0
    have hss := hs0 hv0
    have hmz : m = 0 := by
      have := eq_of_fits hr (K := 0) (e := 0) (by norm_num) (by rw [hv0]; norm_num)
      rw [hv0] at this
      cases s <;> simpa [signed] using this
    have hne : ¬ Exceptional f m₁ m₂ := by
      rintro ⟨-, k, hk, -⟩
      rw [hm1] at hk
      exact absurd hk (not_le.2 (by positivity))
    refine ⟨fun _ => ⟨_, hfin f.high ?_⟩, fun h => absurd h hne⟩
    have hn0 : n = 0 := by rw [hm1] at hmn; exact (magc_eq_zero double).1 hmn.symm
    rw [hcode, hn0, hmz, hss, add_zero]
    exact (roundsTo_zero double (by decide) s₁).2
  · have hrt := hnz hv0
    set v := signed s₁ m₁ + signed s₂ m₂ with hv
    have hss : decide (v < 0) = s₁ := by
      unfold Format.RoundsTo at hrt
      rw [h1] at hrt
      split at hrt
      · simp at hrt
      · obtain ⟨r, h3, -⟩ := hrt
        simp only [Datum.num.injEq] at h3
        exact h3.1.symm
    have hs := (hs1 hv0).trans hss
    subst hs
    rw [hss] at hrt
    have hsa : signed s |v| = v := by have := signed_abs v; rwa [hss] at this
    have ha := signed_rel (hsa.trans hv)
    have hb106 : RoundsToBits 106 |v| m := roundsToBits_mag (s := s) (by rw [hsa]; exact hr)
    rw [hcode] at hrt
    have hint := (roundsTo_iff double (by decide) (by decide) s hn (abs_nonneg v)).1 hrt
    obtain ⟨k, N, hsp⟩ := exists_split double hn
    have hval := hsp.value
    have hup := hsp.upper_mid
    rw [double_facts.1] at hval hup
    have hN := hsp.lt
    rw [show double.t = 52 from rfl] at hN
    have hmul : ∃ K : ℤ, |v| = K * (2 : ℚ) ^ (-1074 : ℤ) := by
      obtain ⟨N1, e1, -⟩ := double_multiple h1
      obtain ⟨N2, e2, -⟩ := double_multiple h2
      rw [ha, e1, e2]
      split
      · exact ⟨N1 + N2, by rw [Int.cast_add, Int.cast_natCast, Int.cast_natCast, add_mul]⟩
      · exact ⟨N1 - N2, by rw [Int.cast_sub, Int.cast_natCast, Int.cast_natCast, sub_mul, sub_eq_add_neg]⟩
    have hm20 : 0 ≤ m₂ := decode_nonneg h2
    refine ⟨fun hne => ⟨_, hfin f.high ?_⟩, fun hex => ?_⟩
    · rw [hcode, roundsTo_iff double (by decide) (by decide) s hn hm0]
      rcases stays hsp hint (abs_nonneg v) hb106 hmul with h3 | ⟨hNo, hno, hNb, h3⟩
      · exact h3
      · exfalso
        refine hne ⟨by omega, -1074 + k + 52, ?_⟩
        obtain ⟨e1, e2, e3, e4⟩ := exp_units (-1074 + k)
        rw [e1, e2, e3, e4, hmn, hval]
        have hNq1 : (2 : ℚ) ^ 52 < N := by exact_mod_cast hNb
        have hNq2 : (N : ℚ) < 2 ^ 53 := by exact_mod_cast hN
        have hu : (0 : ℚ) < 2 ^ (-1074 + (k : ℤ)) := by positivity
        refine ⟨mul_le_mul_of_nonneg_right hNq1.le hu.le, mul_lt_mul_of_pos_right hNq2 hu, ?_⟩
        have h54 := (unit_half (-1074 + k)).2.2
        have hlow := double_pred h2 (j := -1074 + k - 1)
        rw [show (-1074 + k - 1 - 53 : ℤ) = -1074 + k - 54 by ring, (unit_half (-1074 + k)).1] at hlow
        rw [hmn, hval] at ha
        rw [h54] at hlow h3 ⊢
        generalize (2 : ℚ) ^ (-1074 + (k : ℤ)) = u at *
        rcases h3 with ⟨h4, h5, h6⟩ | ⟨h4, h5, h6⟩
        · split at ha
          · exact hlow (by linarith) (by linarith)
          · linarith
        · split at ha
          · linarith
          · exact hlow (by linarith) (by linarith)
    · obtain ⟨hodd, k₀, l1, l2, hm2⟩ := hex
      rw [hpar] at hodd
      rw [hmn] at l1 l2
      obtain ⟨hNb, hk₀⟩ := exceptional_shape h2 hsp hodd l1 l2 hm2
      obtain ⟨e1, e2, -, -⟩ := exp_units (-1074 + k)
      rw [hk₀, e1, e2] at hm2
      rw [hmn, hval] at ha
      have hsgn : double.signPart s ≤ 2 ^ 63 := by cases s <;> decide
      have hinf : double.infCode = 0x7FF * 2 ^ 52 := by decide
      have hn0 : n ≠ 0 := by omega
      by_cases hsame : s = s₂
      · rw [if_pos hsame] at ha ⊢
        refine ⟨_, hfin _ ?_⟩
        have hbv := mid_up hNb.le hN hb106 (by rw [ha, hm2]; ring)
        have hup' : double.magc n + double.magc (n + 1) = 2 * m := by
          rw [hup, hbv, (unit_half (-1074 + k)).1]; ring
        have hc : (f.high + 1).toNat = double.signPart s + (n + 1) := by
          rw [BitVec.toNat_add, hcode]
          show (_ + 1) % 2 ^ 64 = _
          omega
        rw [hc]
        rcases Nat.lt_or_ge (n + 1) double.infCode with hlt | hge
        · rw [roundsTo_iff double (by decide) (by decide) s hlt hm0]
          have hmono := double.magc_strictMono (show n < n + 1 + 1 by omega)
          refine ⟨fun _ => ⟨by rw [Nat.add_sub_cancel]; linarith, fun h => by omega⟩, by linarith, fun h => by omega⟩
        · have hni : n + 1 = double.infCode := by omega
          have hov := magc_infCode_add double (by decide)
          rw [← hni, Nat.add_sub_cancel, hup'] at hov
          rw [hni]
          unfold Format.RoundsTo
          rw [if_pos (by linarith)]
          exact double.decode_inf s
      · rw [if_neg hsame] at ha ⊢
        refine ⟨_, hfin _ ?_⟩
        have hbv := mid_down hNb hN hb106 (by rw [ha, hm2]; ring)
        have hpr := hsp.pred (by omega) (Or.inr hNb)
        rw [double_facts.1] at hpr
        have hlo : double.magc (n - 1) + double.magc n = 2 * m := by
          rw [hpr, hval, hbv]; ring
        have hc : (f.high - 1).toNat = double.signPart s + (n - 1) := by
          rw [BitVec.toNat_sub, hcode]
          show (2 ^ 64 - 1 + (_ + n)) % 2 ^ 64 = _
          omega
        rw [hc, roundsTo_iff double (by decide) (by decide) s (by omega) hm0, InInterval, show n - 1 + 1 = n by omega]
        refine ⟨fun h0 => ⟨?_, fun h => by omega⟩, by linarith, fun h => by omega⟩
        have hmono := double.magc_strictMono (show n - 1 - 1 < n by omega)
        linarith

theorem inInterval_above {n : ℕ} {q : ℚ} (h : double.magc n ≤ q) (h' : 2 * q < double.magc n + double.magc (n + 1)) :
    InInterval double n q := by
  refine ⟨fun h0 => ?_, le_of_lt h', fun _ => h'⟩
  have hmono := double.magc_strictMono (show n - 1 < n by omega)
  exact ⟨by linarith, fun _ => by linarith⟩

theorem roundsTo_pos {v : ℚ} (hv : 0 ≤ v) {n : ℕ} (h : double.RoundsTo false v n) :
    double.RoundsTo (decide (v < 0)) |v| n := by
  rwa [abs_of_nonneg hv, decide_eq_false (not_lt.2 hv)]

/-- C69: so a finite double-double may have an infinite `Float64`: the largest double plus the largest double below half
its last place. -/
theorem C69_float128ppc_overflow : ∃ m₁ m₂, Normalised (newFromBits 0x7FEFFFFFFFFFFFFF 0x7C8FFFFFFFFFFFFF) false m₁ false m₂ ∧
    Exceptional (newFromBits 0x7FEFFFFFFFFFFFFF 0x7C8FFFFFFFFFFFFF) m₁ m₂ ∧
    (newFromBits 0x7FEFFFFFFFFFFFFF 0x7C8FFFFFFFFFFFFF).float64 = .ok (F64.inf 1, .above) := by
  have e1 : double.decode 0x7FEFFFFFFFFFFFFF = .num false ((2 ^ 53 - 1 : ℕ) * (2 : ℚ) ^ (971 : ℤ)) := by
    rw [show 0x7FEFFFFFFFFFFFFF = double.signPart false + 0x7FEFFFFFFFFFFFFF by decide, double.decode_code false (by decide)]
    rw [show 0x7FEFFFFFFFFFFFFF = 2045 * 2 ^ double.t + (2 ^ 53 - 1) by decide, double.magc_eq (by decide) (by decide)]
    congr 2
  have e2 : double.decode 0x7C8FFFFFFFFFFFFF = .num false ((2 ^ 53 - 1 : ℕ) * (2 : ℚ) ^ (917 : ℤ)) := by
    rw [show 0x7C8FFFFFFFFFFFFF = double.signPart false + 0x7C8FFFFFFFFFFFFF by decide, double.decode_code false (by decide)]
    rw [show 0x7C8FFFFFFFFFFFFF = 1991 * 2 ^ double.t + (2 ^ 53 - 1) by decide, double.magc_eq (by decide) (by decide)]
    congr 2
  have p1 : (2 : ℚ) ^ (971 : ℤ) = 2 ^ 54 * 2 ^ (917 : ℤ) := by
    rw [← zpow_natCast, ← zpow_add₀ (by norm_num)]; norm_num
  have hov : double.overflowAt = (2 ^ 107 - 2 ^ 53) * (2 : ℚ) ^ (917 : ℤ) := by
    unfold Format.overflowAt
    rw [double_facts.2.1, double_facts.2.2.1, show (1023 : ℤ) = 106 + 917 by norm_num, zpow_add₀ (by norm_num),
      show (2 : ℚ) ^ (106 : ℤ) = 2 ^ 106 by norm_cast]
    ring
  have hP : (0 : ℚ) < 2 ^ (917 : ℤ) := by positivity
  have hcode : (newFromBits 0x7FEFFFFFFFFFFFFF 0x7C8FFFFFFFFFFFFF).high.toNat = double.signPart false + 0x7FEFFFFFFFFFFFFF := by
    decide
  refine ⟨_, _, ⟨e1, e2, ?_, fun _ => ?_⟩, ⟨by decide, 1023, ?_, ?_, ?_⟩, by decide +kernel⟩
  · intro h
    exact absurd h (ne_of_gt (by simp only [signed, Bool.false_eq_true, if_false]; positivity))
  · have hpos : (0 : ℚ) ≤ signed false ((2 ^ 53 - 1 : ℕ) * (2 : ℚ) ^ (971 : ℤ)) + signed false ((2 ^ 53 - 1 : ℕ) * (2 : ℚ) ^ (917 : ℤ)) := by
      simp only [signed, Bool.false_eq_true, if_false]; positivity
    refine roundsTo_pos hpos ?_
    rw [hcode]
    have hm : double.magc 0x7FEFFFFFFFFFFFFF = (2 ^ 53 - 1 : ℕ) * (2 : ℚ) ^ (971 : ℤ) := by
      rw [show 0x7FEFFFFFFFFFFFFF = double.signPart false + 0x7FEFFFFFFFFFFFFF by decide, double.decode_code false (by decide)] at e1
      simp only [Datum.num.injEq] at e1
      exact e1.2
    refine (roundsTo_iff double (by decide) (by decide) false (n := 0x7FEFFFFFFFFFFFFF) (by decide) hpos).2 (inInterval_above ?_ ?_)
    · rw [hm]
      simp only [signed, Bool.false_eq_true, if_false]
      exact le_add_of_nonneg_right (by positivity)
    · have hi := magc_infCode_add double (by decide)
      rw [show double.infCode = 0x7FEFFFFFFFFFFFFF + 1 by decide, Nat.add_sub_cancel, hov] at hi
      rw [hi, p1]
      simp only [signed, Bool.false_eq_true, if_false]
      generalize (2 : ℚ) ^ (917 : ℤ) = P at *
      norm_num
      linarith only [hP]
  · rw [p1, show (1023 : ℤ) = 106 + 917 by norm_num, zpow_add₀ (by norm_num)]
    generalize (2 : ℚ) ^ (917 : ℤ) = P at *
    norm_num
    linarith only [hP]
  · rw [p1, show (1023 : ℤ) + 1 = 107 + 917 by norm_num, zpow_add₀ (by norm_num)]
    generalize (2 : ℚ) ^ (917 : ℤ) = P at *
    norm_num
    linarith only [hP]
  · rw [show (1023 : ℤ) - 53 = 53 + 917 by norm_num, zpow_add₀ (by norm_num), show (1023 : ℤ) - 106 = 917 by norm_num]
    generalize (2 : ℚ) ^ (917 : ℤ) = P at *
    norm_num
    ring

-- an ordinary pair, 1 + 2^-60, and an exceptional one below its high half, (1 + 2^-52) - (2^-53 - 2^-106)
example : (newFromBits 0x3FF0000000000000 0x3C30000000000000).float64 = .ok (0x3FF0000000000000, .below) := by decide +kernel
example : (newFromBits 0x3FF0000000000001 0xBC9FFFFFFFFFFFFF).float64 = .ok (0x3FF0000000000000, .below) := by decide +kernel
-- the low half one unit smaller: no exception
example : (newFromBits 0x3FF0000000000001 0xBC9FFFFFFFFFFFFE).float64 = .ok (0x3FF0000000000001, .above) := by decide +kernel

end GoFloat.Float128ppc
