import Verif.Props.Library
import Verif.Props.Float
import Verif.Proofs.BigText
/-
C91, continued: the texts of `big.Float` and Go's conversions between float32 and float64.
-/
namespace GoFloat
open Spec Strconv

/-- C91: `Text('e', n)` with `n > 0` is the number rounded to `n + 1` digits, to the nearest and to the even one of two; a zero keeps its sign, and an
infinity is `+Inf` or `-Inf`. -/
theorem BigFloat.C91_text {x : BigFloat} (hx : x.WF) {n : ℕ} (hn : 0 < n) :
    (∀ s m, x.datum = .num s m → ∃ y d frac eneg ex, IsScientific (x.textE n) s d frac eneg ex ∧ frac.length = n ∧
      readDecimal (x.textE n) = some (s, y) ∧ (m = 0 → y = 0) ∧ (m ≠ 0 → RoundedDigits (n + 1) m y)) ∧
    (∀ s, x.datum = .inf s → x.textE n = (if s then '-' else '+') :: ['I', 'n', 'f']) := by
  have hsign : ∀ b : Bool, (if b = true then ['-'] else []) = minus b := fun b => rfl
  refine ⟨fun s m hd => ?_, fun s hd => ?_⟩
  · cases hf : x.form with
    | inf =>
      unfold BigFloat.datum at hd
      rw [hf] at hd
      cases hd
    | zero =>
      unfold BigFloat.datum at hd
      rw [hf] at hd
      injection hd with h1 h2
      subst h1 h2
      have ht : x.textE n = sciText x.neg [] 0 n := by
        unfold BigFloat.textE
        simp only [hf, hsign]
        exact bigFmtE_eq x.neg (by simp) 0 hn
      rw [ht]
      refine ⟨_, _, _, _, _, sciText_scientific x.neg (by simp) 0 n, by rw [List.length_map, fracE_length]; simp,
        sciText_read x.neg (by simp) 0 (by simp), fun _ => by simp [decValue], fun h => absurd rfl h⟩
    | finite =>
      rw [BigFloat.datum_finite hf] at hd
      injection hd with h1 h2
      subst h1 h2
      have hm := hx.mant_pos hf
      obtain ⟨e1, e2⟩ := exactDecimal_spec hm.ne' (x.exp - bitLen x.mant)
      have hmag : x.mag = x.mant * (2 : ℚ) ^ (x.exp - bitLen x.mant) := by
        unfold BigFloat.mag
        rw [zpow_sub₀ (by norm_num), zpow_natCast]
        ring
      rw [← hmag] at e2
      have hpos : 0 < x.mag := BigFloat.mag_pos hm
      unfold BigFloat.textE
      simp only [hf, hsign]
      generalize exactDecimal x.mant (x.exp - bitLen x.mant) = p at e1 e2 ⊢
      obtain ⟨ds, dp⟩ := p
      have hne : ds ≠ [] := by
        rintro rfl
        have : decValue [] dp = 0 := by simp [decValue]
        rw [this] at e2
        exact hpos.ne e2
      obtain ⟨r1, r2, r3, r4⟩ := round_digits (d := ⟨ds, dp, false, false⟩) e1 rfl hne (n := n + 1) (by omega)
      rw [roundDecimal_eq, bigFmtE_eq x.neg r1.digit _ hn]
      refine ⟨_, _, _, _, _, sciText_scientific x.neg r1.digit _ n, by rw [List.length_map, fracE_length]; simp,
        sciText_read x.neg r1.digit _ (by simpa using r3), fun h => absurd h hpos.ne', fun _ => ?_⟩
      rw [← e2]
      exact r4
  · unfold BigFloat.datum at hd
    cases hf : x.form with
    | zero => rw [hf] at hd; cases hd
    | finite => rw [hf] at hd; cases hd
    | inf =>
      rw [hf] at hd
      injection hd with hd
      unfold BigFloat.textE
      simp only [hf, hd]
      cases s <;> rfl

/-- C91: `Text('g', n)` with `n > 0` is the number rounded to `n` digits. -/
theorem BigFloat.C91_textG {x : BigFloat} (hx : x.WF) {n : ℕ} (hn : 0 < n) {s : Bool} {m : ℚ} (hd : x.datum = .num s m) :
    ∃ y, readDecimal (x.textG n) = some (s, y) ∧ (m = 0 → y = 0) ∧ (m ≠ 0 → RoundedDigits n m y) := by
  obtain ⟨ds, dp, h1, h2, -, h4, h5⟩ := textG_spec hx hd hn
  rw [h2]
  refine ⟨_, gText_read s h1 n, fun h => ?_, h5⟩
  rw [h4.2 h]
  simp [decValue]

theorem nan_sign (y : F64) (s : Bool) (h : double.decode y.toNat = .nan s) : single.decode (f64to32 y).toNat = .nan s := by
  obtain ⟨s', hs'⟩ := (f64to32_spec y).1 s h
  have h1 := decode_sign double y.toNat
  have h2 := decode_sign single (f64to32 y).toNat
  rw [h] at h1
  rw [hs'] at h2
  have h1 : s = decide (y.toNat / 2 ^ 63 % 2 = 1) := h1
  have h2 : s' = decide ((f64to32 y).toNat / 2 ^ 31 % 2 = 1) := h2
  rw [hs', h1, h2]
  have hn : F64.isNaN y = true := (isNaN64_iff y).2 ⟨s, h⟩
  unfold f64to32
  rw [if_pos hn, BitVec.toNat_ofNat]
  have hy := y.isLt
  have hor : ((y.toNat / 2 ^ 29 % 2 ^ 23) ||| 0x400000) < 2 ^ 23 := Nat.or_lt_two_pow (Nat.mod_lt _ (by norm_num)) (by norm_num)
  generalize ((y.toNat / 2 ^ 29 % 2 ^ 23) ||| 0x400000) = z at *
  congr 2
  have : (y.toNat / 2 ^ 63 * 2 ^ 31 + 0xFF * 2 ^ 23 + z) % 2 ^ 32 / 2 ^ 31 % 2 = y.toNat / 2 ^ 63 % 2 := by omega
  rw [this]

/-- C91: Go's conversion of a float32 to float64 keeps the number, and of a float64 to float32 rounds it correctly; converting there and back gives the
float32 back. NaNs stay NaNs. -/
theorem C91_conversion (x : F32) (y : F64) :
    ((¬ ∃ s, single.decode x.toNat = .nan s) → double.decode (f32to64 x).toNat = single.decode x.toNat ∧ f64to32 (f32to64 x) = x) ∧
    (∀ s, single.decode x.toNat = .nan s → double.decode (f32to64 x).toNat = .nan s) ∧
    (∀ s, double.decode y.toNat = .nan s → single.decode (f64to32 y).toNat = .nan s) ∧
    (∀ s, double.decode y.toNat = .inf s → single.decode (f64to32 y).toNat = .inf s) ∧
    (∀ s m, double.decode y.toNat = .num s m → single.RoundsTo s m (f64to32 y).toNat) :=
  ⟨fun h => ⟨(f32to64_decode x).2 h, f64to32_f32to64 x h⟩, (f32to64_decode x).1, nan_sign y, (f64to32_spec y).2⟩

example : f32to64 0x3F800001 = 0x3FF0000020000000 ∧ f64to32 0x3FF0000010000000 = 0x3F800000 := by decide +kernel
-- half of 1/1024 to three digits
example : (⟨53, .toNearestEven, .exact, .finite, true, 1, -10⟩ : BigFloat).textE 2 = "-4.88e-04".toList := by decide +kernel

end GoFloat
