import Verif.Proofs.SameText
import Verif.Proofs.FixedText
/-
The one precision that does not fit: the largest `int`, with the formats `e` and `E`.
-/
namespace GoFloat.Strconv
open Spec

variable {F : Format} {n k N : ℕ}

theorem exp_limit (hF : GoFormat F) (h : Split F n k N) : -1074 ≤ (k : ℤ) + 1 - F.bias ∧ (k : ℤ) + 1 - F.bias ≤ 1023 := by
  have h1 := h.exp_range hF
  have hB := hF.bounds
  unfold Format.qmin at h1
  omega

theorem ftoaBitsI_finite {W : ℕ} (hW : W = 32 ∨ W = 64) {opt : Bool} {fmt : Char} {prec : ℤ} (hF : GoFormat F) {bits : BitVec 64} {neg : Bool}
    (h : Split F n k N) (hb : bits.toNat = F.signPart neg + n) :
    ftoaBitsI W opt bits (infoOf F) fmt prec =
      ftoaFiniteI W opt fmt prec neg (BitVec.ofNat 64 N) ((k : ℤ) + 1 - F.bias) (infoOf F) := by
  have hB := hF.bounds
  have hlt : n < 2 ^ (F.t + F.w) := lt_trans h.fin F.infCode_lt
  obtain ⟨h1, h2, h3⟩ := fields hF hlt hb
  have hN := h.N_lt hF
  have hk0 := exp_limit hF h
  have hP := Nat.two_pow_pos F.t
  have hPs : 2 ^ (F.t + 1) = 2 * 2 ^ F.t := by rw [pow_succ]; ring
  have hNlt := h.lt
  unfold ftoaBitsI
  have hi1 : (infoOf F).mantbits = F.t := rfl
  have hi2 : (infoOf F).expbits = F.w := rfl
  have hi3 : (infoOf F).bias = -F.bias := rfl
  simp only [hi1, hi2, hi3]
  rw [h1, (exp_bits hW bits (by omega)).1, h2]
  have hE : ¬ (((n / 2 ^ F.t : ℕ) : ℤ) = 2 ^ F.w - 1) := by
    intro hc
    have hfin := h.fin
    unfold Format.infCode at hfin
    have : n / 2 ^ F.t < 2 ^ F.w - 1 := by
      rw [Nat.div_lt_iff_lt_mul hP]; exact hfin
    have h2w : (1 : ℕ) ≤ 2 ^ F.w := Nat.one_le_two_pow
    have h3 : n / 2 ^ F.t = 2 ^ F.w - 1 := by
      zify [h2w]
      exact_mod_cast hc
    omega
  rw [if_neg hE]
  by_cases hs : N < 2 ^ F.t
  · have hk : k = 0 := by
      rcases h.norm with hk | hk
      · exact hk
      · omega
    have hnN : n = N := by rw [h.code, hk]; simp
    have hdiv : n / 2 ^ F.t = 0 := Nat.div_eq_of_lt (by omega)
    have hm : bits &&& ((((1 <<< F.t : ℕ)) : BitVec 64) - 1) = BitVec.ofNat 64 N := by
      apply BitVec.eq_of_toNat_eq
      rw [h3, ofNat_toNat (by omega), hnN, Nat.mod_eq_of_lt hs]
    rw [hdiv, hm, hk]
    rw [hk] at hk0
    simp only [Nat.cast_zero, if_true]
    rw [wrap_small hW (by push_cast at hk0; omega) (by push_cast at hk0; omega), sub_eq_add_neg]
  · have hs' : 2 ^ F.t ≤ N := by omega
    have hdiv : n / 2 ^ F.t = k + 1 := by
      rw [h.code, show k * 2 ^ F.t + N = (k + 1) * 2 ^ F.t + (N - 2 ^ F.t) by rw [Nat.add_mul]; omega]
      rw [Nat.add_comm, Nat.add_mul_div_right _ _ hP, Nat.div_eq_of_lt (by omega)]; omega
    have hmod : n % 2 ^ F.t = N - 2 ^ F.t := by
      rw [h.code, show k * 2 ^ F.t + N = (N - 2 ^ F.t) + (k + 1) * 2 ^ F.t by rw [Nat.add_mul]; omega]
      rw [Nat.add_mul_mod_self_right, Nat.mod_eq_of_lt (by omega)]
    have hm : (bits &&& ((((1 <<< F.t : ℕ)) : BitVec 64) - (1 : BitVec 64))) ||| (((1 <<< F.t : ℕ)) : BitVec 64) = BitVec.ofNat 64 N := by
      apply BitVec.eq_of_toNat_eq
      rw [BitVec.toNat_or, h3, hmod, one_shift (by omega), ofNat_toNat (by omega), Nat.or_comm]
      have := nat_or_field (a := 1) (b := N - 2 ^ F.t) (i := F.t) (by omega)
      rw [one_mul] at this
      rw [this]; omega
    have hne : ¬ (((k + 1 : ℕ) : ℤ) = 0) := by omega
    rw [hdiv, hm]
    simp only [if_neg hne]
    rw [wrap_small hW (by push_cast; omega) (by push_cast; omega), sub_eq_add_neg]
    push_cast
    rfl

theorem genericFtoaI_bits {W : ℕ} (hW : W = 32 ∨ W = 64) {size : ℤ} (hS : SizeOf F size) (hn : n < F.infCode) {s : Bool} {val : F64}
    (hd : double.decode val.toNat = .num s (F.magc n)) (opt : Bool) (fmt : Char) (prec : ℤ) :
    ∃ bits : BitVec 64, bits.toNat = F.signPart s + n ∧ genericFtoaI W opt val fmt prec size = ftoaBitsI W opt bits (infoOf F) fmt prec := by
  unfold genericFtoaI
  rw [Binary16.newFromFloat64I_eq hW]
  rcases hS with ⟨rfl, rfl⟩ | ⟨rfl, rfl⟩ | ⟨rfl, rfl⟩
  · obtain ⟨f, h1, h2⟩ := Binary16.C07_float64_partial val hd ⟨_, half.decode_code s hn⟩
    refine ⟨f.bits.setWidth 64, ?_, ?_⟩
    · rw [BitVec.toNat_setWidth, Nat.mod_eq_of_lt (lt_trans f.bits.isLt (by norm_num))]
      exact code_eq f.bits.isLt h2
    · rw [if_pos rfl, h1, ok_bind, infoOf_half]
  · refine ⟨(f64to32 val).setWidth 64, ?_, ?_⟩
    · rw [BitVec.toNat_setWidth, Nat.mod_eq_of_lt (lt_trans (f64to32 val).isLt (by norm_num))]
      have h1 := (f64to32_spec val).2.2 s _ hd
      have h2 := roundsTo_self (Or.inr (Or.inl rfl)) hn s
      have h3 := Float128ppc.RoundsTo.unique (by decide) h1 h2
      rw [single.decode_code s hn] at h3
      exact code_eq (f64to32 val).isLt h3
    · rw [if_neg (by decide), if_pos rfl, infoOf_single]
  · refine ⟨val, code_eq val.isLt hd, ?_⟩
    rw [if_neg (by decide), if_neg (by decide), if_pos rfl, infoOf_double]

/-- `MinInt` digits are asked for: the index of the table of powers of ten is negative. -/
theorem fixedDecimalI_min {W : ℕ} (hW : W = 32 ∨ W = 64) {f : ExtFloat} (hm : f.mant ≠ 0) (h1 : -1080 ≤ f.exp) (h2 : f.exp ≤ 1040) :
    f.fixedDecimalI W (minInt W) = .error .index := by
  have hmin : minInt W = -maxInt W - 1 := by simp only [minInt, maxInt]; ring
  have hM : (2147483647 : ℤ) ≤ maxInt W := by simp only [maxInt]; rcases hW with rfl | rfl <;> norm_num
  have hn0 : ¬ minInt W = 0 := by omega
  unfold ExtFloat.fixedDecimalI
  rw [if_neg hm, if_neg hn0, normalizeI_eq hW (by omega) (by omega)]
  have hne := normalize_exp f
  obtain ⟨i, e, -, -, -, hx, -, -⟩ := frexp10_ok f.normalize.1 (by omega) (by omega)
  change (ExtFloat.frexp10I W f.normalize.1 >>= _) = _
  rw [frexp10I_eq hW (by omega) (by omega), hx, ok_bind]
  dsimp only
  generalize (BitVec.setWidth 32 ((f.normalize.1.multiply e).mant >>> uintI W (wrap W (-(f.normalize.1.multiply e).exp)))) = x
  have hc := countDigits_le x 20 0 1
  generalize countDigits x 20 0 1 = c at *
  rw [if_pos (by omega)]
  have ht : ∀ {α : Type} (t : List α), tableAt t (wrap W ((c : ℤ) - minInt W)) = .error .index := by
    intro α t
    have := wrap_over hW (i := (c : ℤ) - minInt W) (by omega) (by omega)
    unfold tableAt
    rw [if_pos this]
  rw [ht]
  rfl

theorem maxPrec_index {W : ℕ} (hW : W = 32 ∨ W = 64) {size : ℤ} (hS : SizeOf F size) {c : ℕ} {s : Bool} {m : ℚ} {val : F64}
    (hc : F.decode c = .num s m) (hd : double.decode val.toNat = .num s m) (hm : m ≠ 0) {fmt : Char} (hf : fmt = 'e' ∨ fmt = 'E') :
    genericFtoaI W true val fmt (maxInt W) size = .error .index := by
  have hF := hS.go
  obtain ⟨n, k, N, hs, rfl, -⟩ := value_split hF hc
  obtain ⟨bits, hb, he⟩ := genericFtoaI_bits hW hS hs.fin hd true fmt (maxInt W)
  rw [he, ftoaBitsI_finite hW hF hs hb]
  have hB := hF.bounds
  have hM : (2147483647 : ℤ) ≤ maxInt W := by simp only [maxInt]; rcases hW with rfl | rfl <;> norm_num
  have hmin : minInt W = -maxInt W - 1 := by simp only [minInt, maxInt]; ring
  have hw : wrap W (maxInt W + 1) = minInt W := by simp only [minInt, maxInt, wrap]; rcases hW with rfl | rfl <;> decide
  have hN : BitVec.ofNat 64 N ≠ 0 := by
    intro h0
    have hN0 : N = 0 := by
      have := congrArg BitVec.toNat h0
      rwa [ofNat_toNat (lt_trans (hs.N_lt hF) (by norm_num))] at this
    apply hm
    rw [hs.value, hN0]
    simp
  have hk : -1074 ≤ (k : ℤ) + 1 - F.bias - F.t ∧ (k : ℤ) + 1 - F.bias - F.t ≤ 971 := by
    have h1 := hs.exp_range hF
    unfold Format.qmin at h1
    omega
  unfold ftoaFiniteI
  have hb2 : ¬ fmt = 'b' := by rcases hf with rfl | rfl <;> decide
  have hf2 : fmt ≠ 'f' := by rcases hf with rfl | rfl <;> decide
  have hg : ¬ ((fmt = 'g' ∨ fmt = 'G') ∧ maxInt W = 0) := by omega
  have hi1 : (infoOf F).mantbits = F.t := rfl
  rw [if_neg hb2, if_neg (by decide), if_neg (by omega), if_pos hf2, if_neg hg]
  dsimp only
  rw [if_pos hf, hw, if_pos (by omega), hi1, wrap_small hW (by omega) (by omega),
    fixedDecimalI_min hW hN (by dsimp only; omega) (by dsimp only; omega)]
  rfl

end GoFloat.Strconv
