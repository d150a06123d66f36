import Verif.Proofs.IntSize
import Verif.Proofs.FtoaBits
/-
The constructors with an `int` of 32 or 64 bits, and the formatting functions as a whole.
-/
namespace GoFloat

theorem ofInt_32_64 {e : ℤ} (h0 : 0 ≤ e) (h1 : e ≤ 2147483647) : BitVec.ofInt 64 e = (BitVec.ofInt 32 e).setWidth 64 := by
  apply BitVec.eq_of_toNat_eq
  rw [BitVec.toNat_setWidth, BitVec.toNat_ofInt, BitVec.toNat_ofInt]
  norm_num at *
  omega

theorem high_mask (x m : BitVec 32) : (x.setWidth 64 &&& ~~~(m.setWidth 64) != 0) = (x &&& ~~~m != 0) := by
  have : x.setWidth 64 &&& ~~~(m.setWidth 64) = (x &&& ~~~m).setWidth 64 := by
    ext i hi
    simp
    by_cases h : i < 32
    · simp [h]
    · simp [h, BitVec.getLsbD_of_ge _ _ (Nat.le_of_not_lt h)]
  rw [this]
  have h2 : ((x &&& ~~~m).setWidth 64 = 0) ↔ (x &&& ~~~m = 0) := by
    constructor
    · intro h
      have := congrArg BitVec.toNat h
      apply BitVec.eq_of_toNat_eq
      rw [BitVec.toNat_setWidth_of_le (by norm_num)] at this
      simpa using this
    · intro h
      rw [h]; rfl
  rw [Bool.eq_iff_iff, bne_iff_ne, bne_iff_ne]
  exact not_congr h2

/-- The exponent field is the same for both sizes. -/
theorem exp_field {W : ℕ} (hW : W = 32 ∨ W = 64) {e : ℤ} (h0 : 0 ≤ e) (h1 : e ≤ 2147483647) (m : ℕ) (hm : m < 2 ^ 16) :
    (BitVec.ofInt W e &&& ~~~(BitVec.ofNat W m) != 0) = (BitVec.ofInt 64 e &&& ~~~(BitVec.ofNat 64 m) != 0) ∧
    (∀ k : ℕ, (BitVec.ofInt W e &&& BitVec.ofNat W m).setWidth k = (BitVec.ofInt 64 e &&& BitVec.ofNat 64 m).setWidth k) := by
  rcases hW with rfl | rfl
  · have hm' : BitVec.ofNat 64 m = (BitVec.ofNat 32 m).setWidth 64 := by
      apply BitVec.eq_of_toNat_eq
      rw [BitVec.toNat_setWidth, BitVec.toNat_ofNat, BitVec.toNat_ofNat]
      norm_num at *
      omega
    rw [ofInt_32_64 h0 h1, hm']
    refine ⟨(high_mask _ _).symm, fun k => ?_⟩
    apply BitVec.eq_of_toNat_eq
    rw [← BitVec.setWidth_and, BitVec.toNat_setWidth, BitVec.toNat_setWidth, BitVec.toNat_setWidth_of_le (by norm_num)]
  · exact ⟨rfl, fun _ => rfl⟩

theorem wrap_add (W : ℕ) (a b : ℤ) : wrap W (wrap W a + b) = wrap W (a + b) := by
  unfold wrap
  exact Int.bmod_add_bmod

/-- The biased exponent of a `big.Float`, whose exponent is an `int32`. -/
theorem wrap_exp {W : ℕ} (hW : W = 32 ∨ W = 64) {e b : ℤ} (h1 : -2147483648 ≤ e) (h2 : e ≤ 2147483647) (hb : 1 ≤ b) (hb2 : b ≤ 16383)
    (h3 : W = 32 → e - 1 + b ≤ 2147483647) : wrap W (wrap W (e - 1) + b) = e - 1 + b := by
  rw [wrap_add]
  apply wrap_range hW
  · simp only [minInt]
    rcases hW with rfl | rfl <;> norm_num <;> omega
  · simp only [maxInt]
    rcases hW with rfl | rfl
    · norm_num
      exact h3 rfl
    · norm_num
      omega

theorem exp_field' {W : ℕ} (hW : W = 32 ∨ W = 64) {e : ℤ} (h0 : 0 ≤ e) (h1 : e ≤ 2147483647 ∨ W = 64) (m : ℕ) (hm : m < 2 ^ 16) (k : ℕ) :
    (BitVec.ofInt W e &&& ~~~(BitVec.ofNat W m) != 0) = (BitVec.ofInt 64 e &&& ~~~(BitVec.ofNat 64 m) != 0) ∧
    (BitVec.ofInt W e &&& BitVec.ofNat W m).setWidth k = (BitVec.ofInt 64 e &&& BitVec.ofNat 64 m).setWidth k := by
  rcases h1 with h1 | rfl
  · exact ⟨(exp_field hW h0 h1 m hm).1, (exp_field hW h0 h1 m hm).2 k⟩
  · exact ⟨rfl, rfl⟩

theorem newFloat_exp (x : F64) (h : F64.isNaN x = false) :
    ∃ y, newFloat x = .ok y ∧ -2000 ≤ y.exp ∧ y.exp ≤ 2000 := by
  refine ⟨decodeIEEE 52 11 x.toNat, by unfold newFloat; rw [h]; rfl, ?_⟩
  have hE : x.toNat / 2 ^ 52 % 2 ^ 11 < 2048 := by omega
  have hT : x.toNat % 2 ^ 52 < 2 ^ 52 := by omega
  unfold decodeIEEE
  dsimp only
  generalize x.toNat / 2 ^ 52 % 2 ^ 11 = E at hE ⊢
  generalize x.toNat % 2 ^ 52 = T at hT ⊢
  have h0 : BigFloat.new.exp = 0 := rfl
  split
  · exact ⟨by rw [h0]; norm_num, by rw [h0]; norm_num⟩
  split
  · exact ⟨by rw [h0]; norm_num, by rw [h0]; norm_num⟩
  have hl : bitLen (if E = 0 then T else 2 ^ 52 + T) ≤ 53 := by
    exact bitLen_le_of_lt (by split <;> omega)
  have hb : ((2 : ℤ) ^ (11 - 1) - 1) = 1023 := by norm_num
  dsimp only
  rw [hb]
  generalize bitLen (if E = 0 then T else 2 ^ 52 + T) = l at hl ⊢
  have hm : ((max E 1 : ℕ) : ℤ) ≤ 2048 := by exact_mod_cast (by omega : max E 1 ≤ 2048)
  have hm0 : (0 : ℤ) ≤ ((max E 1 : ℕ) : ℤ) := by positivity
  push_cast at hm hm0 ⊢
  omega

theorem setPrec_exp {x : BigFloat} {p : ℕ} (h1 : -2000 ≤ x.exp) (h2 : x.exp ≤ 2000) :
    -2000 ≤ (x.setPrec p).exp ∧ (x.setPrec p).exp ≤ 2001 := by
  unfold BigFloat.setPrec
  split
  · split <;> exact ⟨h1, by change x.exp ≤ _; omega⟩
  dsimp only
  split
  · unfold BigFloat.round
    dsimp only
    split
    · split
      · exact ⟨h1, by change x.exp ≤ _; omega⟩
      split
      · exact ⟨h1, by change x.exp ≤ _; omega⟩
      split
      · split
        · split
          · exact ⟨h1, by change x.exp ≤ _; omega⟩
          · exact ⟨by change _ ≤ x.exp + 1; omega, by change x.exp + 1 ≤ _; omega⟩
        · exact ⟨h1, by change x.exp ≤ _; omega⟩
      · exact ⟨h1, by change x.exp ≤ _; omega⟩
    · exact ⟨h1, by change x.exp ≤ _; omega⟩
  · exact ⟨h1, by change x.exp ≤ _; omega⟩

namespace Binary16

theorem newFromBigI_eq {W : ℕ} (hW : W = 32 ∨ W = 64) {x : BigFloat} (h : x.form = .finite → -2147483648 ≤ x.exp ∧
    x.exp ≤ 2147483647 ∧ (W = 32 → x.exp - 1 + 15 ≤ 2147483647)) : newFromBigI W x = newFromBig x := by
  unfold newFromBigI newFromBig
  apply bind_ext
  intro zero _
  split
  · rfl
  split
  · rfl
  have he : ∃ e m, x.mantExp = (e, m) ∧ -2147483648 ≤ e ∧ e ≤ 2147483647 ∧ (W = 32 → e - 1 + 15 ≤ 2147483647) := by
    unfold BigFloat.mantExp
    split
    · rename_i hform
      exact ⟨_, _, rfl, h hform⟩
    · exact ⟨_, _, rfl, by norm_num, by norm_num, fun _ => by norm_num⟩
  obtain ⟨e, m, hm, e1, e2, e3⟩ := he
  rw [hm]
  dsimp only
  have hb : bias = 15 := rfl
  have hp : (precision : ℤ) = 11 := rfl
  rw [hb, hp, wrap_exp hW e1 e2 (by norm_num) (by norm_num) e3]
  split
  · rename_i h0
    generalize hg : (if e - 1 + 15 ≤ -((11 : ℤ) - 1) then ((11 : ℤ) - 1, Accuracy.below) else (e - 1 + 15, Accuracy.exact)) = g
    have hg2 : -10 ≤ g.1 ∧ g.1 ≤ 10 := by
      rw [← hg]
      split <;> dsimp only <;> omega
    rw [wrap_small hW (i := g.1 + 11) (by omega) (by omega), wrap_small hW (i := g.1 + 11 - 1) (by omega) (by omega)]
  · rename_i h0
    have hle : e - 1 + 15 ≤ 2147483647 ∨ W = 64 := by
      rcases hW with h | h
      · exact Or.inl (e3 h)
      · exact Or.inr h
    have hf := exp_field' hW (e := e - 1 + 15) (by omega) hle 0x1F (by norm_num) 16
    have f1 : (BitVec.ofInt W (e - 1 + 15) &&& ~~~0x1F != 0) = (BitVec.ofInt 64 (e - 1 + 15) &&& ~~~0x1F != 0) := hf.1
    have f2 : (BitVec.ofInt W (e - 1 + 15) &&& 0x1F).setWidth 16 = (BitVec.ofInt 64 (e - 1 + 15) &&& 0x1F).setWidth 16 := hf.2
    rw [f1, f2]

theorem newFromFloat64I_eq {W : ℕ} (hW : W = 32 ∨ W = 64) (x : F64) : newFromFloat64I W x = newFromFloat64 x := by
  unfold newFromFloat64I newFromFloat64
  split
  · rfl
  rename_i hn
  obtain ⟨y, hy, h1, h2⟩ := newFloat_exp x (by simpa using hn)
  rw [hy]
  have h := setPrec_exp (p := precision) h1 h2
  exact newFromBigI_eq hW (fun _ => ⟨by change _ ≤ (y.setPrec precision).exp; omega, by change (y.setPrec precision).exp ≤ _; omega,
    fun _ => by change (y.setPrec precision).exp - 1 + _ ≤ _; omega⟩)

end Binary16
namespace Binary128

theorem newFromBigI_eq {W : ℕ} (hW : W = 32 ∨ W = 64) {x : BigFloat} (h : x.form = .finite → -2147483648 ≤ x.exp ∧
    x.exp ≤ 2147483647 ∧ (W = 32 → x.exp - 1 + 16383 ≤ 2147483647)) : newFromBigI W x = newFromBig x := by
  unfold newFromBigI newFromBig
  apply bind_ext
  intro zero _
  split
  · rfl
  change ite _ _ _ = ite _ _ _
  split
  · rfl
  have he : ∃ e m, x.mantExp = (e, m) ∧ -2147483648 ≤ e ∧ e ≤ 2147483647 ∧ (W = 32 → e - 1 + 16383 ≤ 2147483647) := by
    unfold BigFloat.mantExp
    split
    · rename_i hform
      exact ⟨_, _, rfl, h hform⟩
    · exact ⟨_, _, rfl, by norm_num, by norm_num, fun _ => by norm_num⟩
  obtain ⟨e, m, hm, e1, e2, e3⟩ := he
  rw [hm]
  dsimp only
  have hb : bias = 16383 := rfl
  have hp : (precision : ℤ) = 113 := rfl
  rw [hb, hp, wrap_exp hW e1 e2 (by norm_num) (by norm_num) e3]
  split
  · rename_i h0
    generalize hg : (if e - 1 + 16383 ≤ -((113 : ℤ) - 1) then ((113 : ℤ) - 1, Accuracy.below) else (e - 1 + 16383, Accuracy.exact)) = g
    have hg2 : -112 ≤ g.1 ∧ g.1 ≤ 112 := by
      rw [← hg]
      split <;> dsimp only <;> omega
    rw [wrap_small hW (i := g.1 + 113) (by omega) (by omega), wrap_small hW (i := g.1 + 113 - 1) (by omega) (by omega)]
  · rename_i h0
    have hle : e - 1 + 16383 ≤ 2147483647 ∨ W = 64 := by
      rcases hW with h | h
      · exact Or.inl (e3 h)
      · exact Or.inr h
    have hf := exp_field' hW (e := e - 1 + 16383) (by omega) hle 0x7FFF (by norm_num) 64
    have f1 : (BitVec.ofInt W (e - 1 + 16383) &&& ~~~0x7FFF != 0) = (BitVec.ofInt 64 (e - 1 + 16383) &&& ~~~0x7FFF != 0) := hf.1
    have f2 : (BitVec.ofInt W (e - 1 + 16383) &&& 0x7FFF).setWidth 64 = (BitVec.ofInt 64 (e - 1 + 16383) &&& 0x7FFF) := hf.2.trans (BitVec.setWidth_eq _)
    rw [f1, f2]

theorem newFromFloat64I_eq {W : ℕ} (hW : W = 32 ∨ W = 64) (x : F64) : newFromFloat64I W x = newFromFloat64 x := by
  unfold newFromFloat64I newFromFloat64
  split
  · rfl
  rename_i hn
  obtain ⟨y, hy, h1, h2⟩ := newFloat_exp x (by simpa using hn)
  rw [hy]
  have h := setPrec_exp (p := precision) h1 h2
  exact newFromBigI_eq hW (fun _ => ⟨by change _ ≤ (y.setPrec precision).exp; omega, by change (y.setPrec precision).exp ≤ _; omega,
    fun _ => by change (y.setPrec precision).exp - 1 + _ ≤ _; omega⟩)

end Binary128
namespace Float80x86

theorem newFromBigI_eq {W : ℕ} (hW : W = 32 ∨ W = 64) {x : BigFloat} (h : x.form = .finite → -2147483648 ≤ x.exp ∧
    x.exp ≤ 2147483647 ∧ (W = 32 → x.exp - 1 + 16383 ≤ 2147483647)) : newFromBigI W x = newFromBig x := by
  unfold newFromBigI newFromBig
  apply bind_ext
  intro zero _
  split
  · rfl
  split
  · rfl
  have he : ∃ e m, x.mantExp = (e, m) ∧ -2147483648 ≤ e ∧ e ≤ 2147483647 ∧ (W = 32 → e - 1 + 16383 ≤ 2147483647) := by
    unfold BigFloat.mantExp
    split
    · rename_i hform
      exact ⟨_, _, rfl, h hform⟩
    · exact ⟨_, _, rfl, by norm_num, by norm_num, fun _ => by norm_num⟩
  obtain ⟨e, m, hm, e1, e2, e3⟩ := he
  rw [hm]
  dsimp only
  have hb : bias = 16383 := rfl
  have hp : (precision : ℤ) = 64 := rfl
  rw [hb, hp, wrap_exp hW e1 e2 (by norm_num) (by norm_num) e3]
  split
  · rename_i h0
    generalize hg : (if e - 1 + 16383 ≤ -((64 : ℤ) - 1) then ((64 : ℤ) - 1, Accuracy.below) else (e - 1 + 16383, Accuracy.exact)) = g
    have hg2 : -63 ≤ g.1 ∧ g.1 ≤ 63 := by
      rw [← hg]
      split <;> dsimp only <;> omega
    rw [wrap_small hW (i := g.1 + 64) (by omega) (by omega), wrap_small hW (i := g.1 + 64 - 1) (by omega) (by omega)]
  · rename_i h0
    have hle : e - 1 + 16383 ≤ 2147483647 ∨ W = 64 := by
      rcases hW with h | h
      · exact Or.inl (e3 h)
      · exact Or.inr h
    have hf := exp_field' hW (e := e - 1 + 16383) (by omega) hle 0x7FFF (by norm_num) 16
    have f1 : (BitVec.ofInt W (e - 1 + 16383) &&& ~~~0x7FFF != 0) = (BitVec.ofInt 64 (e - 1 + 16383) &&& ~~~0x7FFF != 0) := hf.1
    have f2 : (BitVec.ofInt W (e - 1 + 16383) &&& 0x7FFF).setWidth 16 = (BitVec.ofInt 64 (e - 1 + 16383) &&& 0x7FFF).setWidth 16 := hf.2
    rw [f1, f2]

theorem newFromFloat64I_eq {W : ℕ} (hW : W = 32 ∨ W = 64) (x : F64) : newFromFloat64I W x = newFromFloat64 x := by
  unfold newFromFloat64I newFromFloat64
  split
  · rfl
  rename_i hn
  obtain ⟨y, hy, h1, h2⟩ := newFloat_exp x (by simpa using hn)
  rw [hy]
  have h := setPrec_exp (p := precision) h1 h2
  exact newFromBigI_eq hW (fun _ => ⟨by change _ ≤ (y.setPrec precision).exp; omega, by change (y.setPrec precision).exp ≤ _; omega,
    fun _ => by change (y.setPrec precision).exp - 1 + _ ≤ _; omega⟩)

end Float80x86
namespace Strconv
open Spec

/-- The exponent field, extracted from a `uint` of any size. -/
theorem exp_bits {W : ℕ} (hW : W = 32 ∨ W = 64) (bits : BitVec 64) {t w : ℕ} (hw : w ≤ 11) :
    ((bits >>> t).setWidth W &&& ((((1 <<< w : ℕ)) : BitVec W) - 1)).toInt = ((((bits >>> t) &&& ((((1 <<< w : ℕ)) : BitVec 64) - 1)).toNat : ℕ) : ℤ) ∧
    ((bits >>> t) &&& ((((1 <<< w : ℕ)) : BitVec 64) - 1)).toNat < 2 ^ w := by
  have hP := Nat.two_pow_pos w
  have h11 : 2 ^ w ≤ 2 ^ 11 := Nat.pow_le_pow_right (by norm_num) hw
  have hm : ∀ U, U = 32 ∨ U = 64 → ((((1 <<< w : ℕ)) : BitVec U) - 1).toNat = 2 ^ w - 1 := by
    intro U hU
    have hc : ((((1 <<< w : ℕ)) : BitVec U)).toNat = 2 ^ w := by
      rw [Nat.one_shiftLeft]
      change (BitVec.ofNat U (2 ^ w)).toNat = _
      rw [BitVec.toNat_ofNat, Nat.mod_eq_of_lt]
      rcases hU with rfl | rfl <;> omega
    have hone : (1 : BitVec U).toNat = 1 := by rcases hU with rfl | rfl <;> rfl
    rw [BitVec.toNat_sub, hc, hone]
    have hU' : 2 ^ w < 2 ^ U := by rcases hU with rfl | rfl <;> omega
    rw [show 2 ^ U - 1 + 2 ^ w = 2 ^ w - 1 + 2 ^ U by omega, Nat.add_mod_right, Nat.mod_eq_of_lt (by omega)]
  have hlt : ((bits >>> t) &&& ((((1 <<< w : ℕ)) : BitVec 64) - 1)).toNat < 2 ^ w := by
    rw [BitVec.toNat_and, hm 64 (Or.inr rfl), Nat.and_two_pow_sub_one_eq_mod]
    exact Nat.mod_lt _ hP
  refine ⟨?_, hlt⟩
  have hN : ((bits >>> t).setWidth W &&& ((((1 <<< w : ℕ)) : BitVec W) - 1)).toNat = ((bits >>> t) &&& ((((1 <<< w : ℕ)) : BitVec 64) - 1)).toNat := by
    rw [BitVec.toNat_and, BitVec.toNat_and, hm 64 (Or.inr rfl), hm W hW, Nat.and_two_pow_sub_one_eq_mod, Nat.and_two_pow_sub_one_eq_mod,
      BitVec.toNat_setWidth, Nat.mod_mod_of_dvd]
    exact Nat.pow_dvd_pow 2 (by rcases hW with rfl | rfl <;> omega)
  rw [BitVec.toInt_eq_toNat_cond, if_pos, hN]
  rw [hN]
  rcases hW with rfl | rfl <;> omega

theorem ftoaBitsI_eq {W : ℕ} (hW : W = 32 ∨ W = 64) (opt : Bool) {fmt : Char} {prec : ℤ} (hp : Fine W fmt prec) (bits : BitVec 64) {flt : FloatInfo}
    (hf : flt = float16info ∨ flt = float32info ∨ flt = float64info) :
    ftoaBitsI W opt bits flt fmt prec = ftoaBits W opt bits flt fmt prec := by
  have hb : flt.expbits ≤ 11 ∧ flt.mantbits ≤ 52 ∧ -1023 ≤ flt.bias ∧ flt.bias ≤ 0 ∧ 2 ^ flt.expbits - 1 + flt.bias ≤ 1024 ∧
      2 ^ flt.expbits ≤ 2048 := by
    rcases hf with rfl | rfl | rfl <;> decide
  obtain ⟨b1, b2, b3, b4, b5, b6⟩ := hb
  unfold ftoaBitsI ftoaBits
  obtain ⟨x1, x2⟩ := exp_bits hW bits (t := flt.mantbits) (w := flt.expbits) b1
  have hml : ((((1 <<< flt.mantbits : ℕ)) : BitVec 64) - 1).toNat = 2 ^ flt.mantbits - 1 := mask_toNat (by omega)
  have hPm := Nat.two_pow_pos flt.mantbits
  have hm : (bits &&& ((((1 <<< flt.mantbits : ℕ)) : BitVec 64) - 1)).toNat < 2 ^ flt.mantbits := by
    rw [BitVec.toNat_and, hml, Nat.and_two_pow_sub_one_eq_mod]
    exact Nat.mod_lt _ hPm
  dsimp only
  rw [x1]
  generalize (bits >>> flt.mantbits &&& ((((1 <<< flt.expbits : ℕ)) : BitVec 64) - 1)).toNat = E at x2 ⊢
  generalize (bits &&& ((((1 <<< flt.mantbits : ℕ)) : BitVec 64) - 1)) = T at hm ⊢
  split
  · rfl
  rename_i hE
  have hE2 : ((E : ℤ)) < 2 ^ flt.expbits - 1 := by
    have : (E : ℤ) < 2 ^ flt.expbits := by exact_mod_cast x2
    omega
  have key : ∀ (e : ℤ) (m : BitVec 64), 0 ≤ e → e ≤ max (E : ℤ) 1 → m.toNat < 2 ^ (flt.mantbits + 1) →
      ftoaFiniteI W opt fmt prec (decide (bits >>> (flt.expbits + flt.mantbits) ≠ 0)) m (wrap W (e + flt.bias)) flt =
        ftoaFinite W opt fmt prec (decide (bits >>> (flt.expbits + flt.mantbits) ≠ 0)) m (e + flt.bias) flt := by
    intro e m he0 he1 hm
    have h3 : (3 : ℤ) ≤ 2 ^ flt.expbits - 1 := by rcases hf with rfl | rfl | rfl <;> decide
    have hle : e + flt.bias ≤ 1023 := by omega
    rw [wrap_small hW (i := e + flt.bias) (by omega) (by omega)]
    exact ftoaFiniteI_eq hW opt _ ⟨by omega, by omega, by omega, by omega, by omega⟩ hp
  have hor : (T ||| 1 <<< flt.mantbits).toNat < 2 ^ (flt.mantbits + 1) := by
    rw [BitVec.toNat_or]
    apply Nat.or_lt_two_pow
    · exact lt_trans hm (Nat.pow_lt_pow_right (by norm_num) (by omega))
    · rw [one_shift (by omega)]
      exact Nat.pow_lt_pow_right (by norm_num) (by omega)
  by_cases h0 : (E : ℤ) = 0
  · rw [if_pos h0]
    exact key _ _ (by omega) (by omega) (lt_trans hm (Nat.pow_lt_pow_right (by norm_num) (by omega)))
  · rw [if_neg h0]
    exact key _ _ (by omega) (by omega) hor

theorem genericFtoaI_eq {W : ℕ} (hW : W = 32 ∨ W = 64) (opt : Bool) (val : F64) {fmt : Char} {prec : ℤ} (hp : Fine W fmt prec) (bitSize : ℤ) :
    genericFtoaI W opt val fmt prec bitSize = genericFtoa W opt val fmt prec bitSize := by
  unfold genericFtoaI genericFtoa
  rw [Binary16.newFromFloat64I_eq hW]
  split
  · apply bind_ext
    intro r _
    exact ftoaBitsI_eq hW opt hp _ (Or.inl rfl)
  split
  · exact ftoaBitsI_eq hW opt hp _ (Or.inr (Or.inl rfl))
  split
  · exact ftoaBitsI_eq hW opt hp _ (Or.inr (Or.inr rfl))
  · rfl

end Strconv
end GoFloat
