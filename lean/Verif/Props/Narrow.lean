import Verif.Proofs.Sample
import Verif.Props.Detour
/-
C96: narrowing in two steps. The constructors truncate, and truncating to 113 bits, then to 64, then to 11 is truncating to 11.
-/
namespace GoFloat
open Spec

/-- Leading bits of the leading bits. -/
theorem floor_trunc {m : ℚ} {e k : ℤ} {p : ℕ} (hp : 1 ≤ p) (h1 : (2 : ℚ) ^ (e - 1) ≤ m) (h2 : m < (2 : ℚ) ^ e) (hk : k + e ≤ p) :
    ⌊⌊m * 2 ^ ((p : ℤ) - e)⌋ * (2 : ℚ) ^ (e - p) * 2 ^ k⌋ = ⌊m * 2 ^ k⌋ := by
  have hm : 0 < m := lt_of_lt_of_le (zpow_pos (by norm_num) _) h1
  have hu : (0 : ℚ) < 2 ^ k := zpow_pos (by norm_num) _
  have hu' : (0 : ℚ) < 2 ^ (-k) := zpow_pos (by norm_num) _
  have hinv : (2 : ℚ) ^ k * 2 ^ (-k) = 1 := by rw [← zpow_add₀ (by norm_num)]; simp
  have hinv' : (2 : ℚ) ^ (-k) * 2 ^ k = 1 := by rw [mul_comm]; exact hinv
  apply le_antisymm
  · exact Int.floor_le_floor (mul_le_mul_of_nonneg_right trunc_le hu.le)
  · rw [Int.le_floor]
    have hN : (⌊m * 2 ^ k⌋ : ℚ) * 2 ^ (-k) ≤ m := by
      have := mul_le_mul_of_nonneg_right (Int.floor_le (m * 2 ^ k)) hu'.le
      rwa [mul_assoc, hinv, mul_one] at this
    have hlt : |⌊m * 2 ^ k⌋| < 2 ^ p := by
      rw [abs_of_nonneg (Int.floor_nonneg.2 (mul_nonneg hm.le hu.le))]
      have : (⌊m * 2 ^ k⌋ : ℚ) < 2 ^ p := by
        refine (Int.floor_le _).trans_lt ((mul_lt_mul_of_pos_right h2 hu).trans_le ?_)
        rw [← zpow_add₀ (by norm_num), ← zpow_natCast]
        exact zpow_le_zpow_right₀ (by norm_num) (by omega)
      exact_mod_cast this
    have := mul_le_mul_of_nonneg_right (trunc_ge hp h1 hlt hN) hu.le
    rwa [mul_assoc, hinv', mul_one] at this

/-- The leading bits are in the same binade. -/
theorem trunc_binade {m : ℚ} {e : ℤ} {p : ℕ} (hp : 1 ≤ p) (h1 : (2 : ℚ) ^ (e - 1) ≤ m) (h2 : m < (2 : ℚ) ^ e) :
    (2 : ℚ) ^ (e - 1) ≤ ⌊m * 2 ^ ((p : ℤ) - e)⌋ * (2 : ℚ) ^ (e - p) ∧ ⌊m * 2 ^ ((p : ℤ) - e)⌋ * (2 : ℚ) ^ (e - p) < (2 : ℚ) ^ e := by
  refine ⟨?_, trunc_le.trans_lt h2⟩
  have h := trunc_ge (K := 1) (E := e - 1) hp h1 (by rw [abs_one]; exact one_lt_pow₀ (by norm_num) (by omega)) (by rwa [Int.cast_one, one_mul])
  rwa [Int.cast_one, one_mul] at h

/-- `Binary16.newFromBig` of a number and of its leading bits, 20 or more. -/
theorem half_of_trunc {x y : BigFloat} (hx : x.WF) (hy : y.WF) {s : Bool} {m : ℚ} {e : ℤ} {p : ℕ} (hp : 20 ≤ p)
    (hd : x.datum = .num s m) (h1 : (2 : ℚ) ^ (e - 1) ≤ m) (h2 : m < (2 : ℚ) ^ e)
    (hyd : y.datum = .num s (⌊m * 2 ^ ((p : ℤ) - e)⌋ * (2 : ℚ) ^ (e - p))) :
    ∃ g a a', Binary16.newFromBig x = .ok (g, a) ∧ Binary16.newFromBig y = .ok (g, a') := by
  obtain ⟨b1, b2⟩ := trunc_binade (p := p) (by omega) h1 h2
  obtain ⟨f, a, hr, c1, c2, c3⟩ := Binary16.C55_binary16_big x hx hd h1 h2
  obtain ⟨g, a', hr', d1, d2, d3⟩ := Binary16.C55_binary16_big y hy hyd b1 b2
  have key : f = g := by
    have : (f.bits.toNat : ℤ) = g.bits.toNat := by
      by_cases e1 : e ≤ -24
      · rw [(c1 e1).1, (d1 e1).1, floor_trunc (by omega) h1 h2 (by omega)]
      by_cases e2 : e ≤ -14
      · rw [(c2 (by omega) e2).1, (d2 (by omega) e2).1, floor_trunc (by omega) h1 h2 (by omega)]
      · rw [(c3 (by omega)).1, (d3 (by omega)).1, floor_trunc (by omega) h1 h2 (by omega)]
    cases f; cases g
    congr 1
    exact BitVec.eq_of_toNat_eq (by exact_mod_cast this)
  subst key
  exact ⟨f, a, a', hr, hr'⟩

/-- `Float80x86.newFromBig` of a normal number and of its leading bits, 64 or more. -/
theorem extended_of_trunc {x y : BigFloat} (hx : x.WF) (hy : y.WF) {s : Bool} {m : ℚ} {e : ℤ} {p : ℕ} (hp : 64 ≤ p) (he : -16382 < e)
    (hd : x.datum = .num s m) (h1 : (2 : ℚ) ^ (e - 1) ≤ m) (h2 : m < (2 : ℚ) ^ e)
    (hyd : y.datum = .num s (⌊m * 2 ^ ((p : ℤ) - e)⌋ * (2 : ℚ) ^ (e - p))) :
    ∃ g a a', Float80x86.newFromBig x = .ok (g, a) ∧ Float80x86.newFromBig y = .ok (g, a') := by
  obtain ⟨b1, b2⟩ := trunc_binade (p := p) (by omega) h1 h2
  obtain ⟨f, a, hr, -, -, c3⟩ := Float80x86.C55_float80x86_big x hx hd h1 h2
  obtain ⟨g, a', hr', -, -, d3⟩ := Float80x86.C55_float80x86_big y hy hyd b1 b2
  have key : f = g := by
    obtain ⟨u1, u2, -⟩ := c3 he
    obtain ⟨v1, v2, -⟩ := d3 he
    rw [floor_trunc (by omega) h1 h2 (by omega), ← u2] at v2
    rw [← u1] at v1
    cases f; cases g
    congr 1
    · exact BitVec.eq_of_toNat_eq (by exact_mod_cast v1.symm)
    · exact BitVec.eq_of_toNat_eq (by exact_mod_cast v2.symm)
  subst key
  exact ⟨f, a, a', hr, hr'⟩

theorem normal_binade {m : ℚ} (h1 : (2 : ℚ) ^ (-16382 : ℤ) ≤ m) (h2 : m < (2 : ℚ) ^ (16384 : ℤ)) :
    ∃ e : ℤ, (2 : ℚ) ^ (e - 1) ≤ m ∧ m < (2 : ℚ) ^ e ∧ -16382 < e ∧ e ≤ 16384 := by
  obtain ⟨e, a1, a2⟩ := binade (lt_of_lt_of_le (zpow_pos (by norm_num) _) h1)
  have b1 := (zpow_lt_zpow_iff_right₀ (by norm_num : (1 : ℚ) < 2)).1 (h1.trans_lt a2)
  have b2 := (zpow_lt_zpow_iff_right₀ (by norm_num : (1 : ℚ) < 2)).1 (a1.trans_lt h2)
  exact ⟨e, a1, a2, b1, by omega⟩

/-- C96: from `2^-16382` up to `2^16384` a number goes to the same half and the same extended float through binary128 as directly. -/
theorem C96_binary128 (x : BigFloat) (hx : x.WF) {s : Bool} {m : ℚ} (hd : x.datum = .num s m) (h1 : (2 : ℚ) ^ (-16382 : ℤ) ≤ m)
    (h2 : m < (2 : ℚ) ^ (16384 : ℤ)) :
    ∃ f acc y, Binary128.newFromBig x = .ok (f, acc) ∧ f.big = .ok (y, false) ∧
      (∃ g a a', Float80x86.newFromBig x = .ok (g, a) ∧ Float80x86.newFromBig y = .ok (g, a')) ∧
      (∃ g a a', Binary16.newFromBig x = .ok (g, a) ∧ Binary16.newFromBig y = .ok (g, a')) := by
  obtain ⟨e, b1, b2, b3, b4⟩ := normal_binade h1 h2
  obtain ⟨f, acc, hr, -, -, -, a4, -⟩ := Binary128.C66_binary128 x hx hd b1 b2
  have hq := a4 b3 (by omega) (by omega)
  rw [Int.emod_eq_of_lt (by omega) (by omega), show e + 16382 - 16495 = e - (113 : ℕ) by push_cast; ring,
    show 113 - e = ((113 : ℕ) : ℤ) - e by norm_num] at hq
  obtain ⟨y, nan, hy, -, -, -, hwf, hdec⟩ := Binary128.C14_binary128_big f
  rw [hq] at hdec
  obtain ⟨rfl, hyd⟩ := hdec
  exact ⟨f, acc, y, hr, hy, extended_of_trunc hx hwf (by norm_num) b3 hd b1 b2 hyd, half_of_trunc hx hwf (by norm_num) hd b1 b2 hyd⟩

example := C96_binary128 Sample.y Sample.y_wf Sample.y_datum (Sample.le_one (by norm_num) (by norm_num)) (Sample.lt_two (by norm_num) (by norm_num))

/-- C96: in the same range a number goes to the same half through the extended format as directly. -/
theorem C96_float80x86 (x : BigFloat) (hx : x.WF) {s : Bool} {m : ℚ} (hd : x.datum = .num s m) (h1 : (2 : ℚ) ^ (-16382 : ℤ) ≤ m)
    (h2 : m < (2 : ℚ) ^ (16384 : ℤ)) :
    ∃ f acc y, Float80x86.newFromBig x = .ok (f, acc) ∧ f.big = .ok (y, false) ∧
      ∃ g a a', Binary16.newFromBig x = .ok (g, a) ∧ Binary16.newFromBig y = .ok (g, a') := by
  obtain ⟨e, b1, b2, b3, b4⟩ := normal_binade h1 h2
  obtain ⟨f, acc, hr, -, -, a4, -⟩ := Float80x86.C66_float80x86 x hx hd b1 b2
  have hq : f.val = _ := a4 b3 (by omega)
  rw [Int.emod_eq_of_lt (by omega) (by omega), max_eq_left (by omega), show e + 16382 - 16446 = e - (64 : ℕ) by push_cast; ring,
    show 64 - e = ((64 : ℕ) : ℤ) - e by norm_num] at hq
  obtain ⟨y, nan, hy, -, -, -, hwf, hdec⟩ := Float80x86.C20_float80x86_big f
  rw [hq] at hdec
  obtain ⟨rfl, hyd⟩ := hdec
  exact ⟨f, acc, y, hr, hy, half_of_trunc hx hwf (by norm_num) hd b1 b2 hyd⟩

/-! `1 + 2^-53 + 2^-120` and the way through binary128 and the extended format. -/

example : aboveTie.WF ∧ aboveTie.datum = .num false ((2 ^ 120 + 2 ^ 67 + 1 : ℕ) * (2 : ℚ) ^ (-120 : ℤ)) := by
  refine ⟨⟨by decide, by decide, by decide, by decide, by decide, fun _ => ⟨2 ^ 120 + 2 ^ 67 + 1, 0, by decide, by decide⟩⟩, ?_⟩
  rw [BigFloat.datum_finite rfl]
  norm_num [BigFloat.mag, aboveTie, bitLen, show Nat.log2 1329227995784916020477759649956757505 = 120 by decide]
example : Float80x86.newFromBig aboveTie = .ok (⟨0x3FFF, 0x8000000000000400⟩, .below) ∧
    (do let (f, _) ← Binary128.newFromBig aboveTie; let (y, _) ← f.big; Float80x86.newFromBig y) = .ok (⟨0x3FFF, 0x8000000000000400⟩, .exact) ∧
    (do let (f, _) ← Binary128.newFromBig aboveTie; let (y, _) ← f.big; Binary16.newFromBig y) = .ok (⟨0x3C00⟩, .below) ∧
    (do let (f, _) ← Float80x86.newFromBig aboveTie; let (y, _) ← f.big; Binary16.newFromBig y) = .ok (⟨0x3C00⟩, .below) := by decide +kernel

/-! Outside the range the two ways differ. -/

/-- `2^16384`, of which binary128 makes an infinity and binary16 the number 1 -/
def tooBig : BigFloat := ⟨53, .toNearestEven, .exact, .finite, false, 1, 16385⟩
/-- `(1 + 2^-19) × 2^-16490`, of which binary128 keeps `2^-16490` -/
def tooSmall : BigFloat := ⟨53, .toNearestEven, .exact, .finite, false, 2 ^ 19 + 1, -16489⟩

/-- to binary16 directly -/
def halfOf (x : BigFloat) : Go Binary16.Float := do let (g, _) ← Binary16.newFromBig x; return g
/-- to binary16 through binary128 -/
def halfViaQuad (x : BigFloat) : Go Binary16.Float := do let (f, _) ← Binary128.newFromBig x; let (y, _) ← f.big; halfOf y

example : halfOf tooBig = .ok ⟨0x3C00⟩ ∧ halfViaQuad tooBig = .ok ⟨0x7C00⟩ := by decide +kernel
example : halfOf tooSmall = .ok ⟨0x0001⟩ ∧ halfViaQuad tooSmall = .ok ⟨0x0000⟩ := by decide +kernel

end GoFloat
