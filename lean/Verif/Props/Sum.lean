import Verif.Proofs.Sample
import Verif.Proofs.Sum
import Verif.Props.Binary16
import Verif.Props.Binary128
import Verif.Props.Float80x86
import Verif.Props.Value
import Verif.Props.Library
/-
C104: adding and subtracting values by way of `Big`, `Add` or `Sub` of math/big, and `NewFromBig`.
-/
namespace GoFloat
open Spec Strconv

/-- The encoding `c` is the sum of two numbers of the format as IEEE 754 defines it for rounding to nearest, ties to even: the exact sum correctly
rounded; a sum of zero is negative only if both summands are (IEEE 754-2008, 6.3). -/
def IsSum (F : Format) (s : Bool) (m : ℚ) (s' : Bool) (m' : ℚ) (c : ℕ) : Prop :=
  if signed s m + signed s' m' = 0 then F.decode c = .num (s && s') 0
  else F.RoundsTo (decide (signed s m + signed s' m' < 0)) |signed s m + signed s' m'| c

variable {F : Format} {z x y : BigFloat} {c c' : ℕ} {s s' : Bool} {m m' : ℚ}

theorem signed_of_decide (v : ℚ) : signed (decide (v < 0)) |v| = v := by
  by_cases h : v < 0
  · simp [signed, h, abs_of_neg h]
  · simp [signed, h, abs_of_nonneg (not_lt.1 h)]

/-- What `Add` makes of two numbers of a format: below the overflow threshold a number of the format, their sum; beyond it a number of the first
power of two out of range. -/
def SumOf (F : Format) (s : Bool) (m : ℚ) (s' : Bool) (m' : ℚ) (r : BigFloat) : Prop :=
  r.WF ∧
  (|signed s m + signed s' m'| < F.overflowAt → ∃ e, e < 2 ^ (F.t + F.w + 1) ∧ r.datum = F.decode e ∧ IsSum F s m s' m' e) ∧
  (F.overflowAt ≤ |signed s m + signed s' m'| → ∃ q, r.datum = .num (decide (signed s m + signed s' m' < 0)) q ∧
    (2 : ℚ) ^ (F.bias + 1) ≤ q ∧ q < (2 : ℚ) ^ (F.bias + 2) ∧
    (q < (2 : ℚ) ^ (F.bias + 1) * (1 + 1 / 2 ^ F.t) ↔ |signed s m + signed s' m'| ≤ (2 : ℚ) ^ (F.bias + 1) * (1 + 1 / 2 ^ (F.t + 1))))

/-- Numbers that cancel: a zero, negative only if both are. -/
theorem add_cancel {p : ℕ} (hp1 : 1 ≤ p) (hp : p ≤ BigFloat.MaxPrec) (hz : z.prec = 0 ∨ z.prec = p) (hmode : z.mode = .toNearestEven) (hx : x.WF) (hy : y.WF)
    (hxp : x.prec = p) (hyp : y.prec = p) (hxf : x.form ≠ .inf) (hyf : y.form ≠ .inf) (hsv : x.sval + y.sval = 0) :
    ∃ r, z.add x y = .ok r ∧ r.form = .zero ∧ r.neg = (x.neg && y.neg) ∧ r.WF := by
  obtain ⟨z', hz', e1, e2⟩ : ∃ z' : BigFloat, z.add x y = z'.add x y ∧ z'.prec = p ∧ z'.mode = .toNearestEven := by
    by_cases h0 : z.prec = 0
    · refine ⟨{ z with prec := max x.prec y.prec }, ?_, by simp [hxp, hyp], hmode⟩
      unfold BigFloat.add
      have h1 : ¬ max x.prec y.prec = 0 := by rw [hxp, hyp, max_self]; omega
      rw [if_pos h0]
      simp only [if_neg h1]
    · exact ⟨z, rfl, hz.resolve_left h0, hmode⟩
  obtain ⟨r', g1, g2, -⟩ := BigFloat.add_spec (z := z') hx hy hxf hyf (by omega) (by omega) e2 (fun _ _ h => absurd hsv h) (by rw [hsv]; simp; positivity)
  obtain ⟨k1, k2, k3, k4, k5⟩ := g2 hsv
  refine ⟨r', by rw [hz', g1], k1, k5, ⟨by omega, ?_, ?_, ?_, ?_, ?_⟩⟩
  iterate 5 (rw [k1]; intro h; cases h)

/-- `Add` of two numbers of a format, with the precision of the format. -/
theorem add_result (ht : 1 ≤ F.t) (hw : 2 ≤ F.w) (hp : F.t + 1 ≤ BigFloat.MaxPrec) (hmax : F.bias + 2 < BigFloat.MaxExp - 1) (hmin : BigFloat.MinExp ≤ F.qmin)
    (hz : z.prec = 0 ∨ z.prec = F.t + 1) (hmode : z.mode = .toNearestEven) (hx : x.WF) (hy : y.WF) (hxp : x.prec = F.t + 1) (hyp : y.prec = F.t + 1)
    (hxd : x.datum = .num s m) (hyd : y.datum = .num s' m') (hc : F.decode c = .num s m) (hc' : F.decode c' = .num s' m') :
    ∃ r, z.add x y = .ok r ∧ SumOf F s m s' m' r := by
  obtain ⟨⟨j, hj⟩, hm2⟩ := decode_multiple hw hc
  obtain ⟨⟨j', hj'⟩, hm2'⟩ := decode_multiple hw hc'
  obtain ⟨hxs, hxf, hxn⟩ := BigFloat.sval_of_datum hx hxd
  obtain ⟨hys, hyf, hyn⟩ := BigFloat.sval_of_datum hy hyd
  have hzp : (if z.prec = 0 then max x.prec y.prec else z.prec) = F.t + 1 := by rw [hxp, hyp, max_self]; split_ifs <;> omega
  obtain ⟨r, hr, hr1, -⟩ := (BigFloat.C91_add (z := z) (by omega) hx hy).2.2 s m s' m' hxd hyd
  rw [hzp, hmode] at hr1
  set v := signed s m + signed s' m' with hv
  have hvz : v = ((j + j' : ℤ) : ℚ) * (2 : ℚ) ^ F.qmin := by rw [hv, hj, hj']; push_cast; ring
  have hu : (0 : ℚ) < (2 : ℚ) ^ F.qmin := by positivity
  have hav : |v| = ((j + j').natAbs : ℚ) * (2 : ℚ) ^ F.qmin := by
    rw [hvz, abs_mul, abs_of_pos hu, Nat.cast_natAbs]; push_cast; rfl
  have hm0 : 0 ≤ m := by obtain ⟨n, -, rfl, -⟩ := F.code_of_decode hc; exact F.magc_nonneg n
  have hm0' : 0 ≤ m' := by obtain ⟨n, -, rfl, -⟩ := F.code_of_decode hc'; exact F.magc_nonneg n
  have habs : ∀ (b : Bool) {a : ℚ}, 0 ≤ a → |signed b a| = a := fun b a ha => by cases b <;> simp [signed, abs_of_nonneg ha]
  have hb2 : (2 : ℚ) ^ (F.bias + 2) = 2 * (2 : ℚ) ^ (F.bias + 1) := by
    rw [show F.bias + 2 = F.bias + 1 + 1 by ring, zpow_add_one₀ (by norm_num)]; ring
  have hvlt : |v| < (2 : ℚ) ^ (F.bias + 2) := by
    have := abs_add_le (signed s m) (signed s' m')
    rw [habs s hm0, habs s' hm0'] at this
    rw [hb2]
    linarith
  have hbig : (2 : ℚ) ^ (F.bias + 2) < (2 : ℚ) ^ (BigFloat.MaxExp - 1) := zpow_lt_zpow_right₀ (by norm_num) hmax
  have hov : 0 < F.overflowAt := overflowAt_pos F
  by_cases hv0 : v = 0
  · -- an exact zero
    obtain ⟨r', g1, k1, k5, k6⟩ := add_cancel (by omega) hp hz hmode hx hy hxp hyp hxf hyf (by rw [hxs, hys]; exact hv0)
    refine ⟨r', g1, k6, fun _ => ?_, fun h => ?_⟩
    · refine ⟨F.signPart (s && s') + 0, ?_, ?_, ?_⟩
      · unfold Format.signPart
        have := Nat.two_pow_pos (F.t + F.w)
        rw [pow_succ]
        cases (s && s') <;> simp
      · have hi : 0 < F.infCode := by
          unfold Format.infCode
          have : 2 ^ 2 ≤ 2 ^ F.w := Nat.pow_le_pow_right (by norm_num) hw
          exact Nat.mul_pos (by omega) (Nat.two_pow_pos _)
        rw [F.decode_code _ hi, (magc_eq_zero F).2 rfl]
        unfold BigFloat.datum
        rw [k1, k5, hxn, hyn]
      · unfold IsSum
        rw [if_pos hv0]
        exact ((roundsTo_zero F (by omega) (s && s')).1)
    · rw [← hv, hv0, abs_zero] at h; linarith
  · obtain ⟨b1, b2, b3, b4, b5⟩ := hr1 hv0
    have hjz : (j + j').natAbs ≠ 0 := by
      intro h
      exact hv0 (abs_eq_zero.1 (by rw [hav, h, Nat.cast_zero, zero_mul]))
    have hge : (2 : ℚ) ^ F.qmin ≤ |v| := by
      rw [hav]
      have : (1 : ℚ) ≤ ((j + j').natAbs : ℚ) := by exact_mod_cast Nat.one_le_iff_ne_zero.2 hjz
      nlinarith
    have hcap : ∀ w, RoundsToBits (F.t + 1) |v| w → w ≤ (2 : ℚ) ^ (F.bias + 2) := fun w h => by
      have := Float128ppc.le_of_le h (K := 1) (e := F.bias + 2) (two_pow_bits _ 0).1 (by rw [(two_pow_bits 0 _).2]; exact hvlt.le)
      rwa [(two_pow_bits 0 _).2] at this
    have hmag : ∀ {w : ℚ}, RoundsToBits (F.t + 1) v (signed (decide (v < 0)) w) → RoundsToBits (F.t + 1) |v| w := fun {w} h =>
      roundsToBits_mag (s := decide (v < 0)) (by rwa [signed_of_decide])
    have hfin : r.form = .finite ∧ RoundsToBits (F.t + 1) v r.sval := by
      rcases b5 with ⟨h1, h2, -⟩ | ⟨-, -, h⟩ | ⟨-, -, h⟩
      · exact ⟨h1, h2.2⟩
      · exfalso
        have : (2 : ℚ) ^ (BigFloat.MinExp - 1) ≤ (2 : ℚ) ^ F.qmin := zpow_le_zpow_right₀ (by norm_num) (by omega)
        linarith
      · exfalso
        have hlt : (2 : ℚ) ^ (BigFloat.MaxExp - 1) < (2 : ℚ) ^ BigFloat.MaxExp := zpow_lt_zpow_right₀ (by norm_num) (by omega)
        rcases h with h | h
        · linarith
        · have h2 : RoundsToBits (F.t + 1) v _ := h.2
          have := hcap _ (hmag h2)
          linarith
    obtain ⟨hf, hrb⟩ := hfin
    rw [BigFloat.sval_finite hf, b3] at hrb
    have hrm := hmag hrb
    have hdat : r.datum = .num (decide (v < 0)) r.mag := by rw [BigFloat.datum_finite hf, b3]
    refine ⟨r, hr, b4, fun h => ?_, fun h => ?_⟩
    · obtain ⟨n, hn, n1, n2⟩ := multiple_rounds ht hw (decide (v < 0)) hjz hav hrm ((rounded_range_iff ht hw hjz hav hrm).2 h)
      refine ⟨_, ?_, by rw [hdat, F.decode_code _ hn, n1], by unfold IsSum; rw [if_neg hv0]; exact n2⟩
      have h1 := F.infCode_lt
      unfold Format.signPart
      rw [pow_succ]
      split_ifs <;> omega
    · refine ⟨r.mag, hdat, ?_, ?_, ?_⟩
      · by_contra hlt
        have := (rounded_range_iff ht hw hjz hav hrm).1 (not_le.1 hlt)
        linarith
      · -- twice the larger summand has the bits of the format
        obtain ⟨a, ha, hac⟩ : ∃ a, |v| ≤ 2 * a ∧ ∃ n, a = F.magc n ∧ a < (2 : ℚ) ^ (F.bias + 1) := by
          have := abs_add_le (signed s m) (signed s' m')
          rw [habs s hm0, habs s' hm0'] at this
          rcases le_total m m' with h | h
          · obtain ⟨n, -, hn, -⟩ := F.code_of_decode hc'
            exact ⟨m', by linarith, n, hn, hm2'⟩
          · obtain ⟨n, -, hn, -⟩ := F.code_of_decode hc
            exact ⟨m, by linarith, n, hn, hm2⟩
        obtain ⟨n, hn, hlt⟩ := hac
        obtain ⟨K, e, hK, hKe⟩ := magc_bits F n
        have h2 : 2 * a = K * (2 : ℚ) ^ (e + 1) := by rw [hn, hKe, zpow_add_one₀ (by norm_num)]; ring
        have := Float128ppc.le_of_le hrm hK (h2 ▸ ha)
        rw [← h2] at this
        rw [hb2]
        linarith
      · have h1 := rounds_past ht hrm (F.bias + 1 - F.t)
        have h2 : (2 : ℚ) ^ (F.bias + 1) = 2 ^ F.t * (2 : ℚ) ^ (F.bias + 1 - F.t) := by
          rw [← zpow_natCast, ← zpow_add₀ (by norm_num)]; congr 1; ring
        have h3 : (2 : ℚ) ^ (F.bias + 1) * (1 + 1 / 2 ^ F.t) = (2 ^ F.t + 1) * (2 : ℚ) ^ (F.bias + 1 - F.t) := by
          rw [h2]; field_simp
        have h4 : (2 : ℚ) ^ (F.bias + 1) * (1 + 1 / 2 ^ (F.t + 1)) = (2 ^ F.t + 1 / 2) * (2 : ℚ) ^ (F.bias + 1 - F.t) := by
          rw [h2, pow_succ]; field_simp
        rw [h3, h4, ← not_le, h1, not_lt]

/-- Likewise `Sub`. -/
theorem sub_result (ht : 1 ≤ F.t) (hw : 2 ≤ F.w) (hp : F.t + 1 ≤ BigFloat.MaxPrec) (hmax : F.bias + 2 < BigFloat.MaxExp - 1) (hmin : BigFloat.MinExp ≤ F.qmin)
    (hz : z.prec = 0 ∨ z.prec = F.t + 1) (hmode : z.mode = .toNearestEven) (hx : x.WF) (hy : y.WF) (hxp : x.prec = F.t + 1) (hyp : y.prec = F.t + 1)
    (hxd : x.datum = .num s m) (hyd : y.datum = .num s' m') (hc : F.decode c = .num s m) (hc' : F.decode c' = .num s' m') :
    ∃ r, z.sub x y = .ok r ∧ SumOf F s m (!s') m' r := by
  obtain ⟨n, hn, rfl, -, -⟩ := F.code_of_decode hc'
  have hyd' : y.negSelf.datum = .num (!s') (F.magc n) := by
    unfold BigFloat.datum at hyd ⊢
    rw [show y.negSelf.form = y.form from rfl]
    cases hf : y.form <;> rw [hf] at hyd
    · obtain ⟨rfl, h⟩ := Datum.num.inj hyd; rw [← h]; rfl
    · obtain ⟨rfl, h⟩ := Datum.num.inj hyd; rw [← h]; rfl
    · cases hyd
  rw [BigFloat.sub_eq (fun _ _ => by omega)]
  exact add_result ht hw hp hmax hmin hz hmode hx (BigFloat.negSelf_wf hy) hxp hyp hxd hyd' hc (F.decode_code (!s') hn)

namespace Binary16

/-- What comes back from a sum. -/
def Back (s : Bool) (m : ℚ) (s' : Bool) (m' : ℚ) (r : BigFloat) : Prop :=
  ∃ h acc, newFromBig r = .ok (h, acc) ∧
    (|signed s m + signed s' m'| < half.overflowAt → IsSum half s m s' m' h.bits.toNat ∧ acc = .exact) ∧
    (half.overflowAt ≤ |signed s m + signed s' m'| → half.decode h.bits.toNat =
      if |signed s m + signed s' m'| ≤ (2 : ℚ) ^ 16 * (1 + 1 / 2 ^ 11) then .inf (decide (signed s m + signed s' m' < 0))
      else .nan (decide (signed s m + signed s' m' < 0)))

theorem back {r : BigFloat} (h : SumOf half s m s' m' r) : Back s m s' m' r := by
  obtain ⟨h1, h2, h3⟩ := h
  rcases lt_or_ge |signed s m + signed s' m'| half.overflowAt with hv | hv
  · obtain ⟨e, he, hd, hs⟩ := h2 hv
    have hb : (BitVec.ofNat 16 e).toNat = e := by rw [BitVec.toNat_ofNat]; exact Nat.mod_eq_of_lt he
    refine ⟨⟨BitVec.ofNat 16 e⟩, .exact, newFromBig_of_decode h1 (f := ⟨BitVec.ofNat 16 e⟩) (by rw [hb]; exact hd), fun _ => ⟨by rw [hb]; exact hs, rfl⟩, fun h => ?_⟩
    exact absurd hv (not_lt.2 h)
  · obtain ⟨q, hd, q1, q2, q3⟩ := h3 hv
    obtain ⟨h, acc, hr, -, -, -, -, a5⟩ := C66_binary16 r h1 (e := 17) hd q1 q2
    refine ⟨h, acc, hr, fun h => absurd h (not_lt.2 hv), fun _ => ?_⟩
    rw [a5 (by norm_num) (by norm_num)]
    exact if_congr q3 rfl rfl

/-- C104 for binary16 -/
theorem C104_binary16 {f g : Float} (hf : half.decode f.bits.toNat = .num s m) (hg : half.decode g.bits.toNat = .num s' m')
    (hz : z.prec = 0 ∨ z.prec = 11) (hmode : z.mode = .toNearestEven) :
    ∃ x y, f.big = .ok (x, false) ∧ g.big = .ok (y, false) ∧
      (∃ r, z.add x y = .ok r ∧ Back s m s' m' r) ∧ (∃ r, z.sub x y = .ok r ∧ Back s m (!s') m' r) := by
  obtain ⟨x, nx, hx, px, -, -, wx, dx⟩ := C02_binary16_big f
  obtain ⟨y, ny, hy, py, -, -, wy, dy⟩ := C02_binary16_big g
  rw [hf] at dx; rw [hg] at dy
  obtain ⟨rfl, dx⟩ := dx
  obtain ⟨rfl, dy⟩ := dy
  refine ⟨x, y, hx, hy, ?_, ?_⟩
  · obtain ⟨r, h1, h2⟩ := add_result (F := half) (by decide) (by decide) (by decide) (by decide) (by decide) hz hmode wx wy px py dx dy hf hg
    exact ⟨r, h1, back h2⟩
  · obtain ⟨r, h1, h2⟩ := sub_result (F := half) (by decide) (by decide) (by decide) (by decide) (by decide) hz hmode wx wy px py dx dy hf hg
    exact ⟨r, h1, back h2⟩

end Binary16

namespace Binary128

/-- What comes back from a sum. -/
def Back (s : Bool) (m : ℚ) (s' : Bool) (m' : ℚ) (r : BigFloat) : Prop :=
  ∃ h acc, newFromBig r = .ok (h, acc) ∧
    (|signed s m + signed s' m'| < quad.overflowAt → IsSum quad s m s' m' h.code ∧ acc = .exact) ∧
    (quad.overflowAt ≤ |signed s m + signed s' m'| → quad.decode h.code =
      if |signed s m + signed s' m'| ≤ (2 : ℚ) ^ (16384 : ℤ) * (1 + 1 / 2 ^ 113) then .inf (decide (signed s m + signed s' m' < 0))
      else .nan (decide (signed s m + signed s' m' < 0)))

theorem back {r : BigFloat} (h : SumOf quad s m s' m' r) : Back s m s' m' r := by
  obtain ⟨h1, h2, h3⟩ := h
  rcases lt_or_ge |signed s m + signed s' m'| quad.overflowAt with hv | hv
  · obtain ⟨e, he, hd, hs⟩ := h2 hv
    have he' : e < 2 ^ 128 := he
    have hb : (⟨BitVec.ofNat 64 (e / 2 ^ 64), BitVec.ofNat 64 e⟩ : Float).code = e := by
      unfold Float.code
      rw [BitVec.toNat_ofNat, BitVec.toNat_ofNat]
      omega
    refine ⟨⟨BitVec.ofNat 64 (e / 2 ^ 64), BitVec.ofNat 64 e⟩, .exact, newFromBig_of_decode h1 (by rw [hb]; exact hd), fun _ => ⟨by rw [hb]; exact hs, rfl⟩, fun h => ?_⟩
    exact absurd hv (not_lt.2 h)
  · obtain ⟨q, hd, q1, q2, q3⟩ := h3 hv
    obtain ⟨h, acc, hr, -, -, -, -, a5⟩ := C66_binary128 r h1 (e := 16385) hd q1 q2
    refine ⟨h, acc, hr, fun h => absurd h (not_lt.2 hv), fun _ => ?_⟩
    rw [a5 (by norm_num) (by norm_num)]
    exact if_congr q3 rfl rfl

/-- C104 for binary128 -/
theorem C104_binary128 {f g : Float} (hf : quad.decode f.code = .num s m) (hg : quad.decode g.code = .num s' m')
    (hz : z.prec = 0 ∨ z.prec = 113) (hmode : z.mode = .toNearestEven) :
    ∃ x y, f.big = .ok (x, false) ∧ g.big = .ok (y, false) ∧
      (∃ r, z.add x y = .ok r ∧ Back s m s' m' r) ∧ (∃ r, z.sub x y = .ok r ∧ Back s m (!s') m' r) := by
  obtain ⟨x, nx, hx, px, -, -, wx, dx⟩ := C14_binary128_big f
  obtain ⟨y, ny, hy, py, -, -, wy, dy⟩ := C14_binary128_big g
  rw [hf] at dx; rw [hg] at dy
  obtain ⟨rfl, dx⟩ := dx
  obtain ⟨rfl, dy⟩ := dy
  refine ⟨x, y, hx, hy, ?_, ?_⟩
  · obtain ⟨r, h1, h2⟩ := add_result (F := quad) (by decide) (by decide) (by decide) (by decide) (by decide) hz hmode wx wy px py dx dy hf hg
    exact ⟨r, h1, back h2⟩
  · obtain ⟨r, h1, h2⟩ := sub_result (F := quad) (by decide) (by decide) (by decide) (by decide) (by decide) hz hmode wx wy px py dx dy hf hg
    exact ⟨r, h1, back h2⟩

end Binary128

namespace Float80x86

/-- What comes back from a sum. -/
def Back (s : Bool) (m : ℚ) (s' : Bool) (m' : ℚ) (r : BigFloat) : Prop :=
  ∃ h acc, newFromBig r = .ok (h, acc) ∧
    (|signed s m + signed s' m'| < extended.overflowAt → h.Canonical ∧ IsSum extended s m s' m' h.code ∧ acc = .exact) ∧
    (extended.overflowAt ≤ |signed s m + signed s' m'| → h.val =
      if |signed s m + signed s' m'| ≤ (2 : ℚ) ^ (16384 : ℤ) * (1 + 1 / 2 ^ 64) then .inf (decide (signed s m + signed s' m' < 0))
      else .nan (decide (signed s m + signed s' m' < 0)))

theorem back {r : BigFloat} (h : SumOf extended s m s' m' r) : Back s m s' m' r := by
  obtain ⟨h1, h2, h3⟩ := h
  rcases lt_or_ge |signed s m + signed s' m'| extended.overflowAt with hv | hv
  · obtain ⟨e, he, hd, hs⟩ := h2 hv
    obtain ⟨f, hf, hcan, rfl⟩ := newFromBig_of_decode h1 he hd
    exact ⟨f, .exact, hf, fun _ => ⟨hcan, hs, rfl⟩, fun h => absurd hv (not_lt.2 h)⟩
  · obtain ⟨q, hd, q1, q2, q3⟩ := h3 hv
    obtain ⟨h, acc, hr, -, -, -, a5⟩ := C66_float80x86 r h1 (e := 16385) hd q1 q2
    refine ⟨h, acc, hr, fun h => absurd h (not_lt.2 hv), fun _ => ?_⟩
    unfold Float.val
    rw [a5 (by norm_num) (by norm_num)]
    exact if_congr q3 rfl rfl

/-- C104 for float80x86; the summands may be unnormals, the sum is canonical -/
theorem C104_float80x86 {f g : Float} (hf : f.val = .num s m) (hg : g.val = .num s' m')
    (hz : z.prec = 0 ∨ z.prec = 64) (hmode : z.mode = .toNearestEven) :
    ∃ x y, f.big = .ok (x, false) ∧ g.big = .ok (y, false) ∧
      (∃ r, z.add x y = .ok r ∧ Back s m s' m' r) ∧ (∃ r, z.sub x y = .ok r ∧ Back s m (!s') m' r) := by
  obtain ⟨x, nx, hx, px, -, -, wx, dx⟩ := C20_float80x86_big f
  obtain ⟨y, ny, hy, py, -, -, wy, dy⟩ := C20_float80x86_big g
  obtain ⟨c, -, hc⟩ := exists_canonical f (fun _ h => by rw [hf] at h; cases h)
  obtain ⟨c', -, hc'⟩ := exists_canonical g (fun _ h => by rw [hg] at h; cases h)
  rw [hf] at dx hc; rw [hg] at dy hc'
  obtain ⟨rfl, dx⟩ := dx
  obtain ⟨rfl, dy⟩ := dy
  refine ⟨x, y, hx, hy, ?_, ?_⟩
  · obtain ⟨r, h1, h2⟩ := add_result (F := extended) (by decide) (by decide) (by decide) (by decide) (by decide) hz hmode wx wy px py dx dy hc hc'
    exact ⟨r, h1, back h2⟩
  · obtain ⟨r, h1, h2⟩ := sub_result (F := extended) (by decide) (by decide) (by decide) (by decide) (by decide) hz hmode wx wy px py dx dy hc hc'
    exact ⟨r, h1, back h2⟩

end Float80x86

-- -11/8 and -11/8 as numbers of each format, with a new receiver
example := Binary16.C104_binary16 (z := ⟨0, .toNearestEven, .exact, .zero, false, 0, 0⟩) (f := ⟨0xBD80⟩) (g := ⟨0xBD80⟩) Sample.x_half Sample.x_half (.inl rfl) rfl
example := Binary128.C104_binary128 (z := ⟨113, .toNearestEven, .exact, .zero, false, 0, 0⟩) (f := ⟨0xBFFF600000000000, 0⟩) (g := ⟨0xBFFF600000000000, 0⟩)
  Sample.x_quad Sample.x_quad (.inr rfl) rfl
example := Float80x86.C104_float80x86 (z := ⟨64, .toNearestEven, .exact, .zero, false, 0, 0⟩) (f := ⟨0xBFFF, 0xB000000000000000⟩) (g := ⟨0xBFFF, 0xB000000000000000⟩)
  Sample.x_extended Sample.x_extended (.inr rfl) rfl
-- every case is met: 65504 + 8 is below the threshold 65520 of binary16, 65504 + 32 gives the infinity, 65504 + 65504 a NaN
example : |signed false 65504 + signed false 8| < half.overflowAt := by norm_num [half, Format.overflowAt, Format.bias, signed]
example : half.overflowAt ≤ |signed false 65504 + signed false 32| ∧ |signed false 65504 + signed false 32| ≤ (2 : ℚ) ^ 16 * (1 + 1 / 2 ^ 11) := by
  norm_num [half, Format.overflowAt, Format.bias, signed]
example : ¬ |signed false 65504 + signed false 65504| ≤ (2 : ℚ) ^ 16 * (1 + 1 / 2 ^ 11) := by norm_num [signed]

end GoFloat
