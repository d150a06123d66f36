import Verif.Spec.Sizes
import Verif.Proofs.Format
import Verif.Proofs.ShortestDigits
import Verif.Props.Binary16
import Verif.Proofs.Float128ppc
/-
From FormatFloat to the digits of a float of the size asked for.
-/
namespace GoFloat.Strconv
open Spec

theorem SizeOf.go {F : Format} {size : ℤ} (h : SizeOf F size) : GoFormat F := by
  rcases h with ⟨rfl, -⟩ | ⟨rfl, -⟩ | ⟨rfl, -⟩
  · exact Or.inl rfl
  · exact Or.inr (Or.inl rfl)
  · exact Or.inr (Or.inr rfl)

/-- `float32(x)` rounds correctly. -/
theorem f64to32_spec (x : F64) :
    (∀ s, double.decode x.toNat = .nan s → ∃ s', single.decode (f64to32 x).toNat = .nan s') ∧
    (∀ s, double.decode x.toNat = .inf s → single.decode (f64to32 x).toNat = .inf s) ∧
    (∀ s m, double.decode x.toNat = .num s m → single.RoundsTo s m (f64to32 x).toNat) := by
  refine ⟨fun s hd => ?_, ?_⟩
  · have hn : F64.isNaN x = true := (isNaN64_iff x).2 ⟨s, hd⟩
    unfold f64to32
    rw [if_pos hn]
    rw [decode_nan_iff, BitVec.toNat_ofNat]
    have hx := x.isLt
    have hor : ((x.toNat / 2 ^ 29 % 2 ^ 23) ||| 0x400000) < 2 ^ 23 := Nat.or_lt_two_pow (Nat.mod_lt _ (by norm_num)) (by norm_num)
    have hor2 : (0x400000 : ℕ) ≤ ((x.toNat / 2 ^ 29 % 2 ^ 23) ||| 0x400000) := Nat.right_le_or
    generalize ((x.toNat / 2 ^ 29 % 2 ^ 23) ||| 0x400000) = y at *
    show ((_ % 2 ^ 32) / 2 ^ 23 % 2 ^ 8 = 2 ^ 8 - 1 ∧ (_ % 2 ^ 32) % 2 ^ 23 ≠ 0)
    constructor <;> omega
  · have key : (¬ ∃ s, double.decode x.toNat = .nan s) → (decodeIEEE 52 11 x.toNat).datum = double.decode x.toNat ∧ (decodeIEEE 52 11 x.toNat).WF ∧
        (f64to32 x).toNat = ((decodeIEEE 52 11 x.toNat).toIEEE single.t single.w).1 := by
      intro hn
      have hspec := decodeIEEE_spec double (by decide) (by decide) (by decide) x.toNat hn
      refine ⟨hspec.1, hspec.2.1, ?_⟩
      have hnn : ¬ F64.isNaN x = true := fun hc => hn ((isNaN64_iff x).1 hc)
      unfold f64to32
      rw [if_neg hnn, BitVec.toNat_ofNat]
      exact Nat.mod_eq_of_lt (toIEEE_lt single (by decide) (by decide) hspec.2.1)
    constructor
    · intro s hd
      obtain ⟨k1, k2, k3⟩ := key (by rw [hd]; rintro ⟨s', hc⟩; exact Datum.noConfusion hc)
      rw [k3]
      exact (toIEEE_spec single (by decide) (by decide) (by decide) k2).1 s (by rw [k1, hd])
    · intro s m hd
      obtain ⟨k1, k2, k3⟩ := key (by rw [hd]; rintro ⟨s', hc⟩; exact Datum.noConfusion hc)
      rw [k3]
      exact (toIEEE_spec single (by decide) (by decide) (by decide) k2).2.1 s m (by rw [k1, hd])

/-- A number rounds to itself. -/
theorem roundsTo_self {F : Format} (hF : GoFormat F) {n : ℕ} (hn : n < F.infCode) (neg : Bool) : F.RoundsTo neg (F.magc n) (F.signPart neg + n) := by
  have hb := hF.bounds
  exact (roundsTo_iff F (by omega) (by omega) neg hn (F.magc_nonneg n)).2 (inInterval_self n)

theorem code_lt_size (F : Format) {n : ℕ} (hn : n < F.infCode) (neg : Bool) : F.signPart neg + n < 2 ^ (F.t + F.w + 1) := by
  have := F.infCode_lt
  unfold Format.signPart
  rw [pow_succ]
  split <;> omega

/-- The encoding is determined by the datum. -/
theorem code_eq {F : Format} {c n : ℕ} {neg : Bool} (hc : c < 2 ^ (F.t + F.w + 1)) (h : F.decode c = .num neg (F.magc n)) :
    c = F.signPart neg + n := by
  obtain ⟨m, -, hm, h1, h2⟩ := F.code_of_decode h
  have : n = m := F.magc_strictMono.injective hm
  subst this
  have hdiv : c / 2 ^ (F.t + F.w) < 2 := by
    rw [Nat.div_lt_iff_lt_mul (Nat.two_pow_pos _), mul_comm, ← pow_succ]; exact hc
  have := Nat.div_add_mod c (2 ^ (F.t + F.w))
  rw [h1] at this
  unfold Format.signPart
  rw [← this, h2]
  rcases Nat.lt_or_ge 0 (c / 2 ^ (F.t + F.w)) with h | h
  · have e : c / 2 ^ (F.t + F.w) = 1 := by omega
    rw [e]; simp
  · have e : c / 2 ^ (F.t + F.w) = 0 := Nat.le_zero.1 h
    rw [e]; simp

variable {F : Format} {n k N : ℕ}

/-- A float64 that is a number of the format of the size asked for. -/
theorem genericFtoa_eq {size : ℤ} (hS : SizeOf F size) (hn : n < F.infCode) {s : Bool} {val : F64} (hd : double.decode val.toNat = .num s (F.magc n))
    (W : ℕ) (opt : Bool) (fmt : Char) (prec : ℤ) :
    ∃ bits : BitVec 64, bits.toNat = F.signPart s + n ∧ genericFtoa W opt val fmt prec size = ftoaBits W opt bits (infoOf F) fmt prec := by
  unfold genericFtoa
  rcases hS with ⟨rfl, rfl⟩ | ⟨rfl, rfl⟩ | ⟨rfl, rfl⟩
  · obtain ⟨f, h1, h2⟩ := Binary16.C07_float64_partial val hd ⟨_, half.decode_code s hn⟩
    refine ⟨f.bits.setWidth 64, ?_, ?_⟩
    · rw [BitVec.toNat_setWidth, Nat.mod_eq_of_lt (lt_trans f.bits.isLt (by norm_num))]
      exact code_eq f.bits.isLt h2
    · rw [if_pos rfl, h1, ok_bind, infoOf_half]
  · refine ⟨(f64to32 val).setWidth 64, ?_, ?_⟩
    · rw [BitVec.toNat_setWidth, Nat.mod_eq_of_lt (lt_trans (f64to32 val).isLt (by norm_num))]
      have h1 := (f64to32_spec val).2.2 s _ hd
      have h2 := roundsTo_self (Or.inr (Or.inl rfl)) hn s
      have h3 := Float128ppc.RoundsTo.unique (by decide) h1 h2
      rw [single.decode_code s hn] at h3
      exact code_eq (f64to32 val).isLt h3
    · rw [if_neg (by decide), if_pos rfl, infoOf_single]
  · refine ⟨val, code_eq val.isLt hd, ?_⟩
    rw [if_neg (by decide), if_neg (by decide), if_pos rfl, infoOf_double]

/-- The finite case. -/
theorem genericFtoa_finite {size : ℤ} (hS : SizeOf F size) (h : Split F n k N) {s : Bool} {val : F64} (hd : double.decode val.toNat = .num s (F.magc n))
    (W : ℕ) (opt : Bool) (fmt : Char) (prec : ℤ) :
    genericFtoa W opt val fmt prec size = ftoaFinite W opt fmt prec s (BitVec.ofNat 64 N) ((k : ℤ) + 1 - F.bias) (infoOf F) := by
  obtain ⟨bits, hb, he⟩ := genericFtoa_eq hS h.fin hd W opt fmt prec
  rw [he, ftoaBits_finite hS.go h hb]

end GoFloat.Strconv
