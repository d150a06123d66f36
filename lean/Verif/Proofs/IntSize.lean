import Verif.Model.IntSize
import Verif.Proofs.DecimalExact
import Mathlib.Tactic.NormNum
import Mathlib.Tactic.Linarith
/-
The functions of `Model/IntSize`, where `int` wraps around, return what the functions with an unbounded `int` return:
no intermediate result leaves the range of a 32-bit `int`.
-/
namespace GoFloat

theorem wrap_range {W : ℕ} (hW : W = 32 ∨ W = 64) {i : ℤ} (h1 : minInt W ≤ i) (h2 : i ≤ maxInt W) : wrap W i = i := by
  unfold minInt at h1
  unfold maxInt at h2
  unfold wrap
  apply Int.bmod_eq_of_le <;> rcases hW with rfl | rfl <;> norm_num at * <;> omega

/-- A sum just above the range wraps to a negative number. -/
theorem wrap_over {W : ℕ} (hW : W = 32 ∨ W = 64) {i : ℤ} (h1 : maxInt W < i) (h2 : i ≤ maxInt W + 4000000) : wrap W i < 0 := by
  unfold maxInt at h1 h2
  unfold wrap
  rw [Int.bmod_def]
  rcases hW with rfl | rfl <;> norm_num at * <;> split <;> omega

theorem wrap_small {W : ℕ} (hW : W = 32 ∨ W = 64) {i : ℤ} (h1 : -2147483648 ≤ i) (h2 : i ≤ 2147483647) : wrap W i = i := by
  apply wrap_range hW <;> simp only [minInt, maxInt] <;> rcases hW with rfl | rfl <;> norm_num <;> omega

theorem uintI_small {W : ℕ} (hW : W = 32 ∨ W = 64) {i : ℤ} (h1 : 0 ≤ i) (h2 : i ≤ 2147483647) : uintI W i = i.toNat := by
  unfold uintI
  rcases hW with rfl | rfl <;> norm_num <;> omega

theorem bind_ext {α β : Type} {x : Go α} {f g : α → Go β} (h : ∀ v, x = .ok v → f v = g v) : x >>= f = x >>= g := by
  cases x with
  | error e => rfl
  | ok v => exact h v rfl

namespace Strconv

/-- A decimal whose fields are far from the limits of `int`. -/
def Tame (B : ℤ) (a : Decimal) : Prop := a.d.length ≤ 800 ∧ -B ≤ a.dp ∧ a.dp ≤ B

theorem Tame.mono {B C : ℤ} (h : B ≤ C) {a : Decimal} (ha : Tame B a) : Tame C a := ⟨ha.1, by linarith [ha.2.1], by linarith [ha.2.2]⟩

theorem dtz_length (ds : List ℕ) : (dropTrailingZeros ds).length ≤ ds.length := by
  induction ds with
  | nil => simp [dropTrailingZeros]
  | cons c cs ih =>
    unfold dropTrailingZeros
    split
    · split <;> simp
    · rename_i r hr
      simp only [List.length_cons]
      omega

theorem tame_trim {B : ℤ} (hB : 0 ≤ B) {a : Decimal} (ha : Tame B a) : Tame B (trim a) := by
  refine ⟨le_trans (dtz_length a.d) ha.1, ?_⟩
  simp only [trim]
  split
  · exact ⟨by linarith, hB⟩
  · exact ha.2

theorem rsGrow_bound {W k : ℕ} : ∀ (f n r : ℕ) {n' r' : ℕ}, rsGrow W k f n r = .ok (n', r') → r' ≤ r + f := by
  intro f
  induction f with
  | zero => intro n r n' r' h; simp [rsGrow] at h
  | succ f ih =>
    intro n r n' r' h
    unfold rsGrow at h
    split at h
    · have := ih _ _ h
      omega
    · cases h
      omega

theorem rsLead_bound {W k : ℕ} : ∀ (ds : List ℕ) (n r : ℕ) {n' r' : ℕ} {rest : List ℕ}, rsLead W k ds n r = .ok (some (n', r', rest)) →
    r' ≤ r + ds.length + k + 2 ∧ rest.length ≤ ds.length := by
  intro ds
  induction ds with
  | nil =>
    intro n r n' r' rest h
    unfold rsLead at h
    split at h
    · cases h
      simp
      omega
    · simp only at h
      split at h
      · cases h
      · rcases hg : rsGrow W k (k + 2) n r with e | ⟨m, q⟩
        · rw [hg] at h
          cases h
        · rw [hg] at h
          cases h
          have := rsGrow_bound _ _ _ hg
          simp
          omega
  | cons c cs ih =>
    intro n r n' r' rest h
    unfold rsLead at h
    split at h
    · cases h
      simp
      omega
    · have := ih _ _ h
      simp only [List.length_cons]
      omega

theorem rsMiddle_length {W k : ℕ} : ∀ (ds : List ℕ) (n : ℕ), (rsMiddle W k ds n).1.length = ds.length := by
  intro ds
  induction ds with
  | nil => intro n; rfl
  | cons c cs ih => intro n; simp [rsMiddle, ih]

theorem rsExtra_bound {W k : ℕ} : ∀ (f n w : ℕ) (t : Bool) {out : List ℕ} {t' : Bool}, rsExtra W k f n w t = .ok (out, t') → w ≤ 800 → out.length + w ≤ 800 := by
  intro f
  induction f with
  | zero => intro n w t out t' h; simp [rsExtra] at h
  | succ f ih =>
    intro n w t out t' h hw
    unfold rsExtra at h
    split at h
    · cases h
      simpa using hw
    · split at h
      · rename_i hlt
        simp only at h
        rcases hx : rsExtra W k f ((n &&& (2 ^ k - 1)) * 10 % 2 ^ W) (w + 1) t with e | ⟨o, s⟩
        · rw [hx] at h
          cases h
        · rw [hx] at h
          cases h
          unfold decimalCap at hlt
          have := ih _ _ _ hx (by omega)
          simp only [List.length_cons]
          omega
      · exact ih _ _ _ h hw

theorem rightShift_tame {W k : ℕ} (hk : k ≤ 60) {B : ℤ} (hB : 0 ≤ B) {a b : Decimal} (ha : Tame B a) (h : rightShift W a k = .ok b) : Tame (B + 900) b := by
  unfold rightShift at h
  rcases hl : rsLead W k a.d 0 0 with e | o
  · rw [hl] at h
    cases h
  · rw [hl] at h
    cases o with
    | none =>
      cases h
      exact ⟨by simp, by linarith [ha.2.1], by linarith [ha.2.2]⟩
    | some p =>
      obtain ⟨n, r, rest⟩ := p
      obtain ⟨h1, h2⟩ := rsLead_bound _ _ _ hl
      have h3 := rsMiddle_length (W := W) (k := k) rest n
      rcases hm : rsMiddle W k rest n with ⟨out1, n1⟩
      rw [hm] at h3
      simp only at h3
      simp only [hm, bind, Except.bind] at h
      rcases hx : rsExtra W k (k + 2) n1 out1.length a.trunc with e | ⟨out2, t⟩
      · rw [hx] at h
        cases h
      · rw [hx] at h
        cases h
        have h4 := rsExtra_bound _ _ _ _ hx (by have := ha.1; omega)
        have h5 := ha.1
        have h6 := ha.2.1
        have h7 := ha.2.2
        apply tame_trim (by linarith)
        refine ⟨by simp; omega, ?_, ?_⟩ <;> simp only <;> omega

theorem rightShiftI_eq {W : ℕ} (hW : W = 32 ∨ W = 64) {k : ℕ} (hk : k ≤ 60) {B : ℤ} (hB : B ≤ 2000000000) {a : Decimal} (ha : Tame B a) :
    rightShiftI W a k = rightShift W a k := by
  unfold rightShiftI rightShift
  apply bind_ext
  intro o ho
  cases o with
  | none => rfl
  | some p =>
    obtain ⟨n, r, rest⟩ := p
    obtain ⟨h1, h2⟩ := rsLead_bound _ _ _ ho
    have h5 := ha.1
    have h6 := ha.2.1
    have h7 := ha.2.2
    simp only
    rw [wrap_small hW (i := (r : ℤ) - 1) (by omega) (by omega), wrap_small hW (by omega) (by omega)]

theorem leftcheats_bound : ∀ p ∈ leftcheats, (0 : ℤ) ≤ p.1 ∧ p.1 ≤ 19 := by decide

theorem leftShift_tame {W k : ℕ} {B : ℤ} (hB : 0 ≤ B) {a b : Decimal} (ha : Tame B a) (h : leftShift W a k = .ok b) : Tame (B + 900) b := by
  unfold leftShift at h
  cases hc : leftcheats[k]? with
  | none => rw [hc] at h; cases h
  | some p =>
    obtain ⟨delta, cutoff⟩ := p
    have hd := leftcheats_bound _ (List.mem_of_getElem? hc)
    rw [hc] at h
    simp only [bind, Except.bind] at h hd
    generalize hD : (if prefixIsLessThan a.d cutoff = true then delta - 1 else delta) = D at h
    have hD2 : -1 ≤ D ∧ D ≤ 19 := by rw [← hD]; split <;> omega
    split at h
    · cases h
    · split at h
      · cases h
      · cases h
        have h6 := ha.2.1
        have h7 := ha.2.2
        apply tame_trim (by linarith)
        refine ⟨by simp [decimalCap], ?_, ?_⟩ <;> simp only <;> omega

theorem leftShiftI_eq {W : ℕ} (hW : W = 32 ∨ W = 64) {k : ℕ} {B : ℤ} (hB : B ≤ 2000000000) {a : Decimal} (ha : Tame B a) :
    leftShiftI W a k = leftShift W a k := by
  unfold leftShiftI leftShift
  cases hc : leftcheats[k]? with
  | none => rfl
  | some p =>
    obtain ⟨delta, cutoff⟩ := p
    have hd := leftcheats_bound _ (List.mem_of_getElem? hc)
    have h5 : a.nd ≤ 800 := ha.1
    have h6 := ha.2.1
    have h7 := ha.2.2
    simp only at hd ⊢
    rw [wrap_small hW (i := delta - 1) (by omega) (by omega)]
    generalize hD : (if prefixIsLessThan a.d cutoff = true then delta - 1 else delta) = D
    have hD2 : -1 ≤ D ∧ D ≤ 19 := by rw [← hD]; split <;> omega
    rw [wrap_small hW (i := (a.nd : ℤ) + D) (by omega) (by omega), wrap_small hW (i := a.dp + D) (by omega) (by omega)]

theorem maxShift_bound {W : ℕ} (hW : W = 32 ∨ W = 64) : 28 ≤ maxShift W ∧ maxShift W ≤ 60 := by
  rcases hW with rfl | rfl <;> decide

theorem shiftLeftLoop_tame {W : ℕ} (hW : W = 32 ∨ W = 64) : ∀ (f k : ℕ) {a : Decimal} {B : ℤ}, 0 ≤ B → Tame B a → B + 1000 * (k + 1) ≤ 2000000000 →
    shiftLeftLoopI W f a k = shiftLeftLoop W f a k ∧ ∀ b, shiftLeftLoop W f a k = .ok b → Tame (B + 1000 * (k + 1)) b := by
  intro f
  obtain ⟨hm1, hm2⟩ := maxShift_bound hW
  induction f with
  | zero => intro k a B _ _ _; exact ⟨rfl, fun b h => by simp [shiftLeftLoop] at h⟩
  | succ f ih =>
    intro k a B hB ha hk
    unfold shiftLeftLoopI shiftLeftLoop
    by_cases hc : k > maxShift W
    · have e : ((k - maxShift W : ℕ) : ℤ) = (k : ℤ) - maxShift W := by omega
      rw [if_pos hc, if_pos (by exact_mod_cast hc), wrap_small hW (by omega) (by omega), leftShiftI_eq hW (by omega) ha, ← e]
      have hle : B + 900 + 1000 * (((k - maxShift W : ℕ) : ℤ) + 1) ≤ B + 1000 * (k + 1) := by omega
      constructor
      · apply bind_ext
        intro v hv
        exact (ih (k - maxShift W) (by omega) (leftShift_tame hB ha hv) (by omega)).1
      · intro b hb
        rcases hv : leftShift W a (maxShift W) with e | v
        · rw [hv] at hb
          cases hb
        · rw [hv] at hb
          exact ((ih (k - maxShift W) (by omega) (leftShift_tame hB ha hv) (by omega)).2 b hb).mono hle
    · rw [if_neg hc, if_neg (by exact_mod_cast hc), uintI_small hW (by omega) (by omega), Int.toNat_natCast, leftShiftI_eq hW (by omega) ha]
      exact ⟨rfl, fun b hb => (leftShift_tame hB ha hb).mono (by omega)⟩

theorem shiftRightLoop_tame {W : ℕ} (hW : W = 32 ∨ W = 64) : ∀ (f k : ℕ) {a : Decimal} {B : ℤ}, 0 ≤ B → Tame B a → B + 1000 * (k + 1) ≤ 2000000000 →
    shiftRightLoopI W f a (-k) = shiftRightLoop W f a k ∧ ∀ b, shiftRightLoop W f a k = .ok b → Tame (B + 1000 * (k + 1)) b := by
  intro f
  obtain ⟨hm1, hm2⟩ := maxShift_bound hW
  induction f with
  | zero => intro k a B _ _ _; exact ⟨rfl, fun b h => by simp [shiftRightLoop] at h⟩
  | succ f ih =>
    intro k a B hB ha hk
    unfold shiftRightLoopI shiftRightLoop
    by_cases hc : k > maxShift W
    · have e : (-((k - maxShift W : ℕ) : ℤ)) = -(k : ℤ) + maxShift W := by omega
      rw [if_pos hc, if_pos (by omega), wrap_small hW (by omega) (by omega), rightShiftI_eq hW hm2 (by omega) ha, ← e]
      have hle : B + 900 + 1000 * (((k - maxShift W : ℕ) : ℤ) + 1) ≤ B + 1000 * (k + 1) := by omega
      constructor
      · apply bind_ext
        intro v hv
        exact (ih (k - maxShift W) (by omega) (rightShift_tame hm2 hB ha hv) (by omega)).1
      · intro b hb
        rcases hv : rightShift W a (maxShift W) with e | v
        · rw [hv] at hb
          cases hb
        · rw [hv] at hb
          exact ((ih (k - maxShift W) (by omega) (rightShift_tame hm2 hB ha hv) (by omega)).2 b hb).mono hle
    · rw [if_neg hc, if_neg (by omega), neg_neg, wrap_small hW (by omega) (by omega), uintI_small hW (by omega) (by omega), Int.toNat_natCast,
        rightShiftI_eq hW (by omega) (by omega) ha]
      exact ⟨rfl, fun b hb => (rightShift_tame (by omega) hB ha hb).mono (by omega)⟩

theorem shiftI_eq {W : ℕ} (hW : W = 32 ∨ W = 64) {a : Decimal} (ha : Tame 1000 a) {k : ℤ} (h1 : -2500 ≤ k) (h2 : k ≤ 2500) :
    a.shiftI W k = a.shift W k ∧ ∀ b, a.shift W k = .ok b → Tame 3000000 b := by
  unfold Decimal.shiftI Decimal.shift
  split
  · exact ⟨rfl, fun b hb => by cases hb; exact ha.mono (by norm_num)⟩
  · split
    · have e : ((k.toNat : ℕ) : ℤ) = k := by omega
      obtain ⟨h3, h4⟩ := shiftLeftLoop_tame hW (k.toNat + 1) k.toNat (by norm_num) ha (by omega)
      rw [e] at h3
      exact ⟨h3, fun b hb => (h4 b hb).mono (by omega)⟩
    · split
      · have e : -(((-k).toNat : ℕ) : ℤ) = k := by omega
        obtain ⟨h3, h4⟩ := shiftRightLoop_tame hW ((-k).toNat + 1) (-k).toNat (by norm_num) ha (by omega)
        rw [e] at h3
        exact ⟨h3, fun b hb => (h4 b hb).mono (by omega)⟩
      · exact ⟨rfl, fun b hb => by cases hb; exact ha.mono (by norm_num)⟩

/-! ### rounding -/

theorem assign_tame (v : BitVec 64) : Tame 1000 (Decimal.new.assign v) := by
  refine ⟨le_trans (assign_length _ v) (by norm_num), ?_⟩
  have hs := (digitsOf_spec (b := 10) (by norm_num) v.toNat).2.2.1 20 (lt_trans v.isLt (by norm_num))
  simp only [Decimal.assign, trim]
  split
  · omega
  · omega

theorem roundUpDigits_length_int : ∀ (ds : List ℕ) {r : List ℕ}, roundUpDigits ds = some r → r.length ≤ ds.length := by
  intro ds
  induction ds with
  | nil => intro r h; cases h
  | cons c cs ih =>
    intro r h
    unfold roundUpDigits at h
    cases hr : roundUpDigits cs with
    | some q =>
      rw [hr] at h
      cases h
      have := ih hr
      simp only [List.length_cons]
      omega
    | none =>
      rw [hr] at h
      simp only at h
      split at h
      · cases h
        simp
      · cases h

theorem roundUp_tame {B : ℤ} {a : Decimal} (ha : Tame B a) (nd : ℤ) : Tame (B + 1) (a.roundUp nd) := by
  have h1 := ha.1
  have h2 := ha.2.1
  have h3 := ha.2.2
  unfold Decimal.roundUp
  split
  · exact ha.mono (by omega)
  · split
    · rename_i d hd
      have := roundUpDigits_length_int _ hd
      rw [List.length_take] at this
      refine ⟨?_, ?_, ?_⟩ <;> simp only <;> omega
    · refine ⟨by simp, ?_, ?_⟩ <;> simp only <;> omega

theorem roundUpI_eq {W : ℕ} (hW : W = 32 ∨ W = 64) {B : ℤ} (hB : B ≤ 2000000000) {a : Decimal} (ha : Tame B a) (nd : ℤ) :
    a.roundUpI W nd = a.roundUp nd := by
  have h2 := ha.2.1
  have h3 := ha.2.2
  unfold Decimal.roundUpI Decimal.roundUp
  rw [wrap_small hW (by omega) (by omega)]
  rfl

theorem round_dp {a : Decimal} {D : ℤ} (hD : 0 ≤ D) (ha : a.dp ≤ D) (nd : ℤ) : (a.round nd).dp ≤ D + 1 := by
  unfold Decimal.round Decimal.roundUp Decimal.roundDown
  split
  · omega
  · split
    · split
      · simp only
        omega
      · simp only
        omega
    · simp only [trim]
      split <;> omega

theorem roundDown_tame {B : ℤ} (hB : 0 ≤ B) {a : Decimal} (ha : Tame B a) (nd : ℤ) : Tame (B + 1) (a.roundDown nd) := by
  have h1 := ha.1
  have h2 := ha.2.1
  have h3 := ha.2.2
  unfold Decimal.roundDown
  split
  · exact ha.mono (by omega)
  · apply tame_trim (by omega)
    refine ⟨?_, ?_, ?_⟩ <;> simp only [List.length_take] <;> omega

theorem round_tame {B : ℤ} (hB : 0 ≤ B) {a : Decimal} (ha : Tame B a) (nd : ℤ) : Tame (B + 1) (a.round nd) := by
  unfold Decimal.round
  split
  · exact ha.mono (by omega)
  · split
    · exact roundUp_tame ha nd
    · exact roundDown_tame hB ha nd

theorem roundI_eq {W : ℕ} (hW : W = 32 ∨ W = 64) {B : ℤ} (hB : B ≤ 2000000000) {a : Decimal} (ha : Tame B a) (nd : ℤ) :
    a.roundI W nd = a.round nd := by
  unfold Decimal.roundI Decimal.round
  rw [roundUpI_eq hW hB ha]

theorem shortestLoop_tame {B : ℤ} (hB : 0 ≤ B) {d lower upper : Decimal} (hd : Tame B d) (inc : Bool) : ∀ n i : ℕ,
    Tame (B + 1) (shortestLoop d lower upper inc n i) := by
  intro n
  induction n with
  | zero => intro i; exact hd.mono (by omega)
  | succ n ih =>
    intro i
    unfold shortestLoop
    simp only
    split
    · exact round_tame hB hd _
    · split
      · exact roundDown_tame hB hd _
      · split
        · exact roundUp_tame hd _
        · exact ih _

theorem shortestLoopI_eq {W : ℕ} (hW : W = 32 ∨ W = 64) {B : ℤ} (hB : B ≤ 2000000000) {d lower upper : Decimal} (hd : Tame B d) (inc : Bool) :
    ∀ n i : ℕ, shortestLoopI W d lower upper inc n i = shortestLoop d lower upper inc n i := by
  intro n
  induction n with
  | zero => intro i; rfl
  | succ n ih =>
    intro i
    unfold shortestLoopI shortestLoop
    simp only [roundI_eq hW hB hd, roundUpI_eq hW hB hd, ih]

/-- The formats: a mantissa of at most 60 bits, exponents below 2000. -/
def Small (flt : FloatInfo) (exp : ℤ) : Prop := flt.mantbits ≤ 60 ∧ -1100 ≤ flt.bias ∧ flt.bias ≤ 1100 ∧ -1100 ≤ exp ∧ exp ≤ 1100

theorem roundShortest_tame {W : ℕ} {d r : Decimal} {mant : BitVec 64} {exp : ℤ} {flt : FloatInfo} (hd : Tame 3000000 d)
    (h : roundShortest W d mant exp flt = .ok r) : Tame 3000001 r := by
  unfold roundShortest at h
  split at h
  · cases h
    exact ⟨by simp, by have := hd.2.1; simp only; omega, by have := hd.2.2; simp only; omega⟩
  · simp only at h
    split at h
    · cases h
      exact hd.mono (by norm_num)
    · generalize (Decimal.new.assign (mant * 2 + 1)).shift W (exp - flt.mantbits - 1) = u at h
      cases u with
      | error e => cases h
      | ok u =>
        simp only [bind, Except.bind] at h
        split at h
        · cases h
        · cases h
          exact shortestLoop_tame (by norm_num) hd _ _ _

theorem roundShortestI_eq {W : ℕ} (hW : W = 32 ∨ W = 64) {d : Decimal} {mant : BitVec 64} {exp : ℤ} {flt : FloatInfo} (hd : Tame 3000000 d)
    (hs : Small flt exp) : roundShortestI W d mant exp flt = roundShortest W d mant exp flt := by
  obtain ⟨s1, s2, s3, s4, s5⟩ := hs
  have h1 : d.nd ≤ 800 := hd.1
  have h2 := hd.2.1
  have h3 := hd.2.2
  unfold roundShortestI roundShortest
  rw [wrap_small hW (i := flt.bias + 1) (by omega) (by omega), wrap_small hW (i := d.dp - d.nd) (by omega) (by omega),
    wrap_small hW (i := 332 * (d.dp - d.nd)) (by omega) (by omega), wrap_small hW (i := exp - flt.mantbits) (by omega) (by omega),
    wrap_small hW (i := 100 * (exp - flt.mantbits)) (by omega) (by omega), wrap_small hW (i := exp - flt.mantbits - 1) (by omega) (by omega),
    (shiftI_eq hW (assign_tame _) (by omega) (by omega)).1, wrap_small hW (i := exp - 1) (by omega) (by omega)]
  split
  · rfl
  · simp only
    split
    · rfl
    · apply bind_ext
      intro upper _
      generalize hg : (if mant > 1 <<< flt.mantbits ∨ exp = flt.bias + 1 then (mant - 1, exp) else (mant * 2 - 1, exp - 1)) = g
      have hg2 : exp - 1 ≤ g.2 ∧ g.2 ≤ exp := by rw [← hg]; split <;> simp
      rw [wrap_small hW (i := g.2 - flt.mantbits) (by omega) (by omega), wrap_small hW (i := g.2 - flt.mantbits - 1) (by omega) (by omega),
        (shiftI_eq hW (assign_tame _) (by omega) (by omega)).1]
      apply bind_ext
      intro lower _
      rw [shortestLoopI_eq hW (by norm_num) hd]

/-! ### the texts -/

theorem fmtEI_eq {W : ℕ} (hW : W = 32 ∨ W = 64) (neg : Bool) {d : DecimalSlice} (h1 : -4000000 ≤ d.dp) (h2 : d.dp ≤ 4000000) {prec : ℤ}
    (hp : prec < maxInt W) (fmt : Char) : fmtEI W neg d prec fmt = fmtE neg d prec fmt := by
  unfold fmtEI fmtE
  rw [wrap_small hW (i := d.dp - 1) (by omega) (by omega)]
  generalize hE : (if d.nd = 0 then 0 else d.dp - 1) = E
  have hE2 : -4000001 ≤ E ∧ E ≤ 4000000 := by rw [← hE]; split <;> omega
  have hn : (if E < 0 then wrap W (-E) else E).natAbs = E.natAbs := by
    rw [wrap_small hW (i := -E) (by omega) (by omega)]
    split <;> omega
  simp only [hn]
  by_cases hq : prec > 0
  · have : wrap W (prec + 1) = prec + 1 := by
      apply wrap_range hW
      · have : minInt W ≤ 0 := by simp only [minInt]; rcases hW with rfl | rfl <;> norm_num
        omega
      · omega
    rw [this]
  · simp only [if_neg hq]

theorem fmtFI_eq {W : ℕ} (hW : W = 32 ∨ W = 64) (neg : Bool) {d : DecimalSlice} (hn : d.nd ≤ 800) (h1 : -4000000 ≤ d.dp) (h2 : d.dp ≤ 4000000)
    {prec : ℤ} (hp : prec ≤ maxInt W) : fmtFI W neg d prec = fmtF neg d prec := by
  unfold fmtFI fmtF
  by_cases hq : prec > 0
  · simp only [if_pos hq]
    congr 2
    apply List.map_congr_left
    intro i hi
    rw [List.mem_range] at hi
    have hm : minInt W ≤ -4000000 := by simp only [minInt]; rcases hW with rfl | rfl <;> norm_num
    have hM : (2147483647 : ℤ) ≤ maxInt W := by simp only [maxInt]; rcases hW with rfl | rfl <;> norm_num
    by_cases hov : d.dp + i ≤ maxInt W
    · rw [wrap_range hW (by omega) hov]
    · have hneg := wrap_over hW (i := d.dp + i) (by omega) (by omega)
      rw [if_neg (by omega), if_neg (by omega)]
  · simp only [if_neg hq]

theorem formatDigitsI_eq {W : ℕ} (hW : W = 32 ∨ W = 64) (shortest neg : Bool) {d : DecimalSlice} (hn : d.nd ≤ 800) (h1 : -4000000 ≤ d.dp)
    (h2 : d.dp ≤ 4000000) {prec : ℤ} {fmt : Char} (hp : (fmt = 'e' ∨ fmt = 'E' → prec < maxInt W) ∧ (fmt = 'f' → prec ≤ maxInt W) ∧
      (fmt = 'g' ∨ fmt = 'G' → 0 ≤ prec)) : formatDigitsI W shortest neg d prec fmt = formatDigits shortest neg d prec fmt := by
  have hM : (2147483647 : ℤ) ≤ maxInt W := by simp only [maxInt]; rcases hW with rfl | rfl <;> norm_num
  unfold formatDigitsI formatDigits
  split
  · rename_i he
    exact fmtEI_eq hW neg h1 h2 (hp.1 he) fmt
  · split
    · rename_i _ hf
      exact fmtFI_eq hW neg hn h1 h2 (hp.2.1 hf)
    · split
      · rename_i hg
        have hq := hp.2.2 hg
        have e1 : -1 ≤ (if prec > d.nd then (d.nd : ℤ) else prec) - 1 ∧ (if prec > d.nd then (d.nd : ℤ) else prec) - 1 ≤ 800 := by split <;> omega
        have e2 : -4000000 ≤ (if prec > d.dp then (d.nd : ℤ) else prec) - d.dp ∧ (if prec > d.dp then (d.nd : ℤ) else prec) - d.dp ≤ 4000800 ∧
            (if prec > d.dp then (d.nd : ℤ) else prec) ≤ 4000800 := by split <;> omega
        rw [wrap_small hW (i := d.dp - 1) (by omega) (by omega)]
        simp only
        rw [wrap_small hW (i := (if prec > d.nd then (d.nd : ℤ) else prec) - 1) (by omega) (by omega),
          wrap_small hW (i := (if prec > d.dp then (d.nd : ℤ) else prec) - d.dp) (by omega) (by omega),
          fmtEI_eq hW neg h1 h2 (by omega), fmtFI_eq hW neg hn h1 h2 (by omega)]
      · rfl

/-- The precisions for which the size of `int` does not show: all that the type has, except the largest with the formats `e` and `E`. -/
def Fine (W : ℕ) (fmt : Char) (prec : ℤ) : Prop := prec ≤ maxInt W ∧ (fmt = 'e' ∨ fmt = 'E' → prec < maxInt W)

theorem bigFtoaI_eq {W : ℕ} (hW : W = 32 ∨ W = 64) {prec : ℤ} {fmt : Char} (neg : Bool) {mant : BitVec 64} {exp : ℤ} {flt : FloatInfo}
    (hs : Small flt exp) (hp : Fine W fmt prec) :
    bigFtoaI W prec fmt neg mant exp flt = bigFtoa W prec fmt neg mant exp flt := by
  have hM : (2147483647 : ℤ) ≤ maxInt W := by simp only [maxInt]; rcases hW with rfl | rfl <;> norm_num
  have hM2 : minInt W ≤ -4000000 := by simp only [minInt]; rcases hW with rfl | rfl <;> norm_num
  have hs' := hs
  obtain ⟨s1, s2, s3, s4, s5⟩ := hs
  unfold bigFtoaI bigFtoa
  rw [wrap_small hW (i := exp - flt.mantbits) (by omega) (by omega)]
  obtain ⟨h1, h2⟩ := shiftI_eq hW (assign_tame mant) (k := exp - flt.mantbits) (by omega) (by omega)
  simp only [h1]
  apply bind_ext
  intro d hd
  have ht := h2 d hd
  split
  · rename_i hneg
    rw [roundShortestI_eq hW ht hs']
    apply bind_ext
    intro r hr
    obtain ⟨t1, t2, t3⟩ := roundShortest_tame ht hr
    have hnd : (⟨r.d.map (· + 48), r.dp, false⟩ : DecimalSlice).nd = r.d.length := by simp [DecimalSlice.nd]
    rw [hnd, wrap_small hW (i := (r.d.length : ℤ) - r.dp) (by omega) (by omega), formatDigitsI_eq hW true neg (by omega) (by simp only; omega) (by simp only; omega)]
    refine ⟨?_, ?_, ?_⟩
    · intro he
      rw [if_pos he]
      omega
    · intro hf
      subst hf
      simp only
      rw [if_neg (by decide), if_pos trivial]
      omega
    · intro hg
      have : ¬(fmt = 'e' ∨ fmt = 'E') ∧ ¬ fmt = 'f' := by rcases hg with rfl | rfl <;> decide
      rw [if_neg this.1, if_neg this.2, if_pos hg]
      omega
  · rename_i hneg
    have hfirst : (if fmt = 'e' ∨ fmt = 'E' then d.roundI W (wrap W ((if (fmt = 'g' ∨ fmt = 'G') ∧ prec = 0 then 1 else prec) + 1))
        else if fmt = 'f' then d.roundI W (wrap W (d.dp + (if (fmt = 'g' ∨ fmt = 'G') ∧ prec = 0 then 1 else prec)))
        else if fmt = 'g' ∨ fmt = 'G' then d.roundI W (if (fmt = 'g' ∨ fmt = 'G') ∧ prec = 0 then 1 else prec) else d)
        = (if fmt = 'e' ∨ fmt = 'E' then d.round ((if (fmt = 'g' ∨ fmt = 'G') ∧ prec = 0 then 1 else prec) + 1)
        else if fmt = 'f' then d.round (d.dp + (if (fmt = 'g' ∨ fmt = 'G') ∧ prec = 0 then 1 else prec))
        else if fmt = 'g' ∨ fmt = 'G' then d.round (if (fmt = 'g' ∨ fmt = 'G') ∧ prec = 0 then 1 else prec) else d) := by
      simp only [roundI_eq hW (by norm_num) ht]
      split
      · rename_i he
        have := hp.2 he
        rw [wrap_range hW]
        · split <;> omega
        · split <;> omega
      · split
        · rename_i hf
          have hng : ¬((fmt = 'g' ∨ fmt = 'G') ∧ prec = 0) := by rw [hf]; simp
          obtain ⟨h5, h6, h7⟩ := ht
          have h8 := hp.1
          rw [if_neg hng]
          by_cases hov : d.dp + prec ≤ maxInt W
          · rw [wrap_range hW (by omega) hov]
          · have hw := wrap_over hW (i := d.dp + prec) (by omega) (by omega)
            have hnd : d.nd = d.d.length := rfl
            unfold Decimal.round
            rw [if_pos (by omega), if_pos (by omega)]
        · rfl
    simp only [hfirst]
    generalize hR : (if fmt = 'e' ∨ fmt = 'E' then d.round ((if (fmt = 'g' ∨ fmt = 'G') ∧ prec = 0 then 1 else prec) + 1)
        else if fmt = 'f' then d.round (d.dp + (if (fmt = 'g' ∨ fmt = 'G') ∧ prec = 0 then 1 else prec))
        else if fmt = 'g' ∨ fmt = 'G' then d.round (if (fmt = 'g' ∨ fmt = 'G') ∧ prec = 0 then 1 else prec) else d) = R
    have hRt : Tame 3000001 R := by
      rw [← hR]
      split
      · exact round_tame (by norm_num) ht _
      · split
        · exact round_tame (by norm_num) ht _
        · split
          · exact round_tame (by norm_num) ht _
          · exact ht.mono (by norm_num)
    obtain ⟨t1, t2, t3⟩ := hRt
    congr 1
    have hnd : (⟨R.d.map (· + 48), R.dp, false⟩ : DecimalSlice).nd = R.d.length := by simp [DecimalSlice.nd]
    apply formatDigitsI_eq hW false neg (by omega) (by simp only; omega) (by simp only; omega)
    refine ⟨?_, ?_, ?_⟩
    · intro he
      have : ¬((fmt = 'g' ∨ fmt = 'G') ∧ prec = 0) := by rcases he with rfl | rfl <;> simp
      rw [if_neg this]
      exact hp.2 he
    · intro hf
      have hng : ¬((fmt = 'g' ∨ fmt = 'G') ∧ prec = 0) := by rw [hf]; simp
      rw [if_neg hng]
      exact hp.1
    · intro hg
      split <;> omega

/-! ### the fast algorithms -/

theorem normalizeI_eq {W : ℕ} (hW : W = 32 ∨ W = 64) {f : ExtFloat} (h1 : -10000 ≤ f.exp) (h2 : f.exp ≤ 10000) : f.normalizeI W = f.normalize := by
  unfold ExtFloat.normalizeI ExtFloat.normalize
  split
  · rfl
  · simp only
    rw [wrap_small hW (by omega) (by omega)]

theorem normalize_exp (f : ExtFloat) : f.exp - 64 ≤ f.normalize.1.exp ∧ f.normalize.1.exp ≤ f.exp := by
  unfold ExtFloat.normalize
  split
  · simp
  · simp only
    omega

theorem multiply_exp_int (f g : ExtFloat) : (f.multiply g).exp = f.exp + g.exp + 64 := by
  unfold ExtFloat.multiply
  rfl

theorem multiplyI_eq {W : ℕ} (hW : W = 32 ∨ W = 64) {f g : ExtFloat} (h1 : -10000 ≤ f.exp) (h2 : f.exp ≤ 10000) (h3 : -10000 ≤ g.exp)
    (h4 : g.exp ≤ 10000) : f.multiplyI W g = f.multiply g := by
  unfold ExtFloat.multiplyI
  rw [wrap_small hW (i := f.exp + g.exp) (by omega) (by omega), wrap_small hW (by omega) (by omega)]
  have h5 := multiply_exp_int f g
  generalize f.multiply g = M at *
  cases M
  simp only at h5 ⊢
  rw [h5]

theorem powersOfTen_bound : ∀ p ∈ powersOfTen, (-1220 : ℤ) ≤ p.exp ∧ p.exp ≤ 1066 := by decide

theorem tableAt_ok_int {α : Type} {t : List α} {i : ℤ} {x : α} (h : tableAt t i = .ok x) : 0 ≤ i ∧ i < t.length ∧ x ∈ t := by
  unfold tableAt at h
  split at h
  · cases h
  · split at h
    · rename_i y hy
      cases h
      have := (List.getElem?_eq_some_iff.1 hy).1
      exact ⟨by omega, by omega, List.mem_of_getElem? hy⟩
    · cases h

theorem powers_ok {i : ℤ} {p : ExtFloat} (h : tableAt powersOfTen i = .ok p) : 0 ≤ i ∧ i < 87 ∧ -1220 ≤ p.exp ∧ p.exp ≤ 1066 := by
  obtain ⟨h1, h2, h3⟩ := tableAt_ok_int h
  have := powersOfTen_bound p h3
  have hl : powersOfTen.length = 87 := by decide
  omega

theorem frexp10LoopI_eq {W : ℕ} (hW : W = 32 ∨ W = 64) {fexp : ℤ} (h1 : -10000 ≤ fexp) (h2 : fexp ≤ 10000) : ∀ (f : ℕ) (i : ℤ),
    frexp10LoopI W fexp f i = frexp10Loop fexp f i := by
  intro f
  induction f with
  | zero => intro i; rfl
  | succ f ih =>
    intro i
    unfold frexp10LoopI frexp10Loop
    apply bind_ext
    intro p hp
    have := powers_ok hp
    rw [wrap_small hW (i := fexp + p.exp) (by omega) (by omega), wrap_small hW (i := fexp + p.exp + 64) (by omega) (by omega),
      wrap_small hW (i := i + 1) (by omega) (by omega), wrap_small hW (i := i - 1) (by omega) (by omega), ih, ih]

theorem frexp10Loop_ok {fexp : ℤ} : ∀ (f : ℕ) (i : ℤ) {j : ℤ}, frexp10Loop fexp f i = .ok j → 0 ≤ j ∧ j < 87 ∧
    ∀ p, tableAt powersOfTen j = .ok p → -60 ≤ fexp + p.exp + 64 ∧ fexp + p.exp + 64 ≤ -32 := by
  intro f
  induction f with
  | zero => intro i j h; cases h
  | succ f ih =>
    intro i j h
    unfold frexp10Loop at h
    cases hp : tableAt powersOfTen i with
    | error e =>
      rw [hp] at h
      cases h
    | ok p =>
      rw [hp] at h
      simp only [bind, Except.bind] at h
      split at h
      · exact ih _ h
      · split at h
        · exact ih _ h
        · cases h
          have := powers_ok hp
          refine ⟨by omega, by omega, ?_⟩
          intro q hq
          rw [hp] at hq
          cases hq
          omega

theorem tdiv_bound {a b : ℤ} {B : ℤ} (h1 : -B ≤ a) (h2 : a ≤ B) : -B ≤ a.tdiv b ∧ a.tdiv b ≤ B := by
  have h : (a.tdiv b).natAbs ≤ a.natAbs := by
    rw [Int.natAbs_tdiv]
    exact Nat.div_le_self _ _
  omega

theorem frexp10I_eq {W : ℕ} (hW : W = 32 ∨ W = 64) {f : ExtFloat} (h1 : -10000 ≤ f.exp) (h2 : f.exp ≤ 10000) : f.frexp10I W = f.frexp10 := by
  unfold ExtFloat.frexp10I ExtFloat.frexp10
  have h3 := tdiv_bound (a := (-46 - f.exp) * 28) (b := 93) (B := 300000) (by omega) (by omega)
  rw [wrap_small hW (i := -46 - f.exp) (by omega) (by omega), wrap_small hW (i := (-46 - f.exp) * 28) (by omega) (by omega)]
  simp only [firstPowerOfTen, stepPowerOfTen]
  rw [wrap_small hW (by omega) (by omega), frexp10LoopI_eq hW h1 h2]
  apply bind_ext
  intro i hi
  have := frexp10Loop_ok _ _ hi
  apply bind_ext
  intro p hp
  have := powers_ok hp
  rw [multiplyI_eq hW h1 h2 (by omega) (by omega), wrap_small hW (i := i * 8) (by omega) (by omega), wrap_small hW (i := -348 + i * 8) (by omega) (by omega),
    wrap_small hW (by omega) (by omega)]

theorem frexp10_exp {f g : ExtFloat} {e i : ℤ} (h : f.frexp10 = .ok (g, e, i)) : -60 ≤ g.exp ∧ g.exp ≤ -32 ∧ -348 ≤ e ∧ e ≤ 348 := by
  unfold ExtFloat.frexp10 at h
  simp only at h
  generalize hL : frexp10Loop f.exp 256 _ = L at h
  cases L with
  | error e => cases h
  | ok j =>
    simp only [bind, Except.bind] at h
    cases hp : tableAt powersOfTen j with
    | error e =>
      rw [hp] at h
      cases h
    | ok p =>
      rw [hp] at h
      have h1 := frexp10Loop_ok _ _ hL
      have h2 := h1.2.2 p hp
      simp only [pure, Except.pure, Except.ok.injEq, Prod.mk.injEq, firstPowerOfTen, stepPowerOfTen] at h
      obtain ⟨rfl, rfl, rfl⟩ := h
      rw [multiply_exp_int]
      omega

theorem frexp10ManyI_eq {W : ℕ} (hW : W = 32 ∨ W = 64) {a b c : ExtFloat} (a1 : -10000 ≤ a.exp) (a2 : a.exp ≤ 10000) (b1 : -10000 ≤ b.exp)
    (b2 : b.exp ≤ 10000) (c1 : -10000 ≤ c.exp) (c2 : c.exp ≤ 10000) : frexp10ManyI W a b c = frexp10Many a b c := by
  unfold frexp10ManyI frexp10Many
  rw [frexp10I_eq hW c1 c2]
  apply bind_ext
  rintro ⟨c', e, i⟩ _
  apply bind_ext
  intro p hp
  have := powers_ok hp
  apply bind_ext
  intro q hq
  have := powers_ok hq
  rw [multiplyI_eq hW a1 a2 (by omega) (by omega), multiplyI_eq hW b1 b2 (by omega) (by omega)]

theorem frexp10Many_exp {a b c : ExtFloat} {r} (h : frexp10Many a b c = .ok r) :
    -60 ≤ r.2.2.1.exp ∧ r.2.2.1.exp ≤ -32 ∧ -348 ≤ r.2.2.2 ∧ r.2.2.2 ≤ 348 := by
  unfold frexp10Many at h
  cases hc : c.frexp10 with
  | error e =>
    rw [hc] at h
    cases h
  | ok v =>
    obtain ⟨c', e, i⟩ := v
    have := frexp10_exp hc
    rw [hc] at h
    simp only [bind, Except.bind] at h
    cases hp : tableAt powersOfTen i with
    | error e =>
      rw [hp] at h
      cases h
    | ok p =>
      rw [hp] at h
      simp only [pure, Except.pure, Except.ok.injEq] at h
      subst h
      exact this

theorem countDigits_le (integer : BitVec 32) : ∀ (f i : ℕ) (p : BitVec 64), countDigits integer f i p ≤ i + f := by
  intro f
  induction f with
  | zero => intro i p; simp [countDigits]
  | succ f ih =>
    intro i p
    unfold countDigits
    split
    · omega
    · have := ih (i + 1) (p * 10)
      omega

theorem uint_shift {W : ℕ} (hW : W = 32 ∨ W = 64) {i : ℤ} (h1 : 0 ≤ i) (h2 : i ≤ 2147483647) : uintI W i = uintOf i := by
  rw [uintI_small hW h1 h2]
  unfold uintOf
  norm_num
  omega

theorem adjustLastDigitFixedI_eq {W : ℕ} (hW : W = 32 ∨ W = 64) {d : DecimalSlice} (h1 : -10000 ≤ d.dp) (h2 : d.dp ≤ 10000) (num den : BitVec 64)
    (shift : ℕ) (ε : BitVec 64) : adjustLastDigitFixedI W d num den shift ε = adjustLastDigitFixed d num den shift ε := by
  unfold adjustLastDigitFixedI adjustLastDigitFixed
  rw [wrap_small hW (by omega) (by omega)]
  rfl

theorem fixedDecimalI_eq {W : ℕ} (hW : W = 32 ∨ W = 64) {f : ExtFloat} (h1 : -9000 ≤ f.exp) (h2 : f.exp ≤ 9000) {n : ℤ} (hn : 0 ≤ n) (hn2 : n ≤ 100) :
    f.fixedDecimalI W n = f.fixedDecimal n := by
  unfold ExtFloat.fixedDecimalI ExtFloat.fixedDecimal
  rw [normalizeI_eq hW (by omega) (by omega)]
  by_cases hm : f.mant = 0
  · rw [if_pos hm, if_pos hm]
  by_cases hn0 : n = 0
  · rw [if_neg hm, if_neg hm, if_pos hn0, if_pos hn0]
    rfl
  rw [if_neg hm, if_neg hm, if_neg hn0, if_neg hn0]
  have hne := normalize_exp f
  change ExtFloat.frexp10I W f.normalize.1 >>= _ = ExtFloat.frexp10 f.normalize.1 >>= _
  rw [frexp10I_eq hW (by omega) (by omega)]
  apply bind_ext
  rintro ⟨g, e, i⟩ hg
  have hg2 := frexp10_exp hg
  have e1 : uintI W (wrap W (-g.exp)) = uintOf (-g.exp) := by
    rw [wrap_small hW (i := -g.exp) (by omega) (by omega), uint_shift hW (by omega) (by omega)]
  have e2 : ∀ x : BitVec 32, wrap W ((countDigits x 20 0 1 : ℤ) - n) = (countDigits x 20 0 1 : ℤ) - n := by
    intro x
    have := countDigits_le x 20 0 1
    rw [wrap_small hW (by omega) (by omega)]
  have e3 : ∀ x : BitVec 32, wrap W ((countDigits x 20 0 1 : ℤ) + e) = (countDigits x 20 0 1 : ℤ) + e := by
    intro x
    have := countDigits_le x 20 0 1
    rw [wrap_small hW (by omega) (by omega)]
  have e4 : ∀ x : BitVec 32, wrap W (n - ((digitsOf 10 x.toNat).map (· + 48)).length) = n - ((digitsOf 10 x.toNat).map (· + 48)).length := by
    intro x
    have hs := (digitsOf_spec (b := 10) (by norm_num) x.toNat).2.2.1 10 (lt_trans x.isLt (by norm_num))
    rw [List.length_map, wrap_small hW (by omega) (by omega)]
  have e5 : ∀ (ds : List ℕ) (x : BitVec 32) (num den : BitVec 64) (sh : ℕ) (ε : BitVec 64),
      adjustLastDigitFixedI W ⟨ds, (countDigits x 20 0 1 : ℤ) + e, false⟩ num den sh ε = adjustLastDigitFixed ⟨ds, (countDigits x 20 0 1 : ℤ) + e, false⟩ num den sh ε := by
    intro ds x num den sh ε
    have := countDigits_le x 20 0 1
    exact adjustLastDigitFixedI_eq hW (by simp only; omega) (by simp only; omega) num den sh ε
  dsimp only
  simp -zeta only [e1, e2, e3, e4, e5]
  rfl

theorem shortestIntI_eq {W : ℕ} (hW : W = 32 ∨ W = 64) (neg : Bool) {exp10 : ℤ} {n : ℕ} (h1 : -10000 ≤ exp10) (h2 : exp10 ≤ 10000) (hn : n ≤ 100) (shift : ℕ)
    (fraction allowance targetDiff : BitVec 64) : ∀ (k : ℕ) (d : List ℕ) (integer : BitVec 32),
    shortestIntI W neg exp10 n shift fraction allowance targetDiff k d integer = shortestInt neg exp10 n shift fraction allowance targetDiff k d integer := by
  intro k
  induction k with
  | zero => intro d integer; rfl
  | succ k ih =>
    intro d integer
    unfold shortestIntI shortestInt
    rw [wrap_small hW (i := (n : ℤ) + exp10) (by omega) (by omega)]
    dsimp only
    simp -zeta only [ih]

theorem putByte_length {cap : ℕ} {d d' : List ℕ} {b : ℕ} (h : putByte cap d b = .ok d') : d'.length = d.length + 1 ∧ d'.length ≤ cap := by
  unfold putByte at h
  split at h
  · cases h
    simp
    omega
  · cases h

theorem adjustLastDigit_tame {d r : DecimalSlice} {a b c e f : BitVec 64} (h : adjustLastDigit d a b c e f = .ok (some r)) :
    r.d.length ≤ d.d.length ∧ (r.dp = d.dp ∨ r.dp = 0) := by
  unfold adjustLastDigit at h
  split at h
  · cases h
  · cases hl : d.d.getLast? with
    | none =>
      simp only [hl] at h
      cases h
    | some last =>
      have hne : d.d ≠ [] := by
        rintro h0
        rw [h0] at hl
        cases hl
      have hpos := List.length_pos_iff.2 hne
      simp only [hl] at h
      cases ha : adjustLoop b e f 256 last a with
      | error x =>
        rw [ha] at h
        cases h
      | ok p =>
        obtain ⟨l2, c2⟩ := p
        rw [ha] at h
        simp only [bind, Except.bind] at h
        split at h
        · cases h
        · split at h
          · cases h
          · split at h
            · cases h
              simp
            · cases h
              simp
              omega

theorem shortestInt_tame {neg : Bool} {exp10 : ℤ} {n : ℕ} {shift : ℕ} {fraction allowance targetDiff : BitVec 64} : ∀ (k : ℕ) (d : List ℕ) (integer : BitVec 32) {r},
    shortestInt neg exp10 n shift fraction allowance targetDiff k d integer = .ok r → d.length ≤ 32 →
      (∀ s, r = .inl (some s) → s.d.length ≤ 32 ∧ (s.dp = n + exp10 ∨ s.dp = 0)) ∧ (∀ ds, r = .inr ds → ds.length ≤ 32) := by
  intro k
  induction k with
  | zero =>
    intro d integer r h hd
    cases h
    refine ⟨fun s hs => ?_, fun ds hs => ?_⟩
    · cases hs
    · cases hs
      exact hd
  | succ k ih =>
    intro d integer r h hd
    unfold shortestInt at h
    cases hp : tableAt uint64pow10 k with
    | error e =>
      rw [hp] at h
      cases h
    | ok pow =>
      rw [hp] at h
      simp only [bind, Except.bind] at h
      split at h
      · cases h
      · split at h
        · cases h
        · rename_i d' hd'
          have hl := putByte_length hd'
          split at h
          · split at h
            · cases h
            · rename_i v hv
              cases h
              refine ⟨fun s hs => ?_, fun ds hs => by cases hs⟩
              cases hs
              obtain ⟨a1, a2⟩ := adjustLastDigit_tame hv
              exact ⟨le_trans a1 hl.2, a2⟩
          · exact ih _ _ h hl.2

theorem shortestFrac_tame {neg : Bool} {dp : ℤ} {shift : ℕ} {allowance targetDiff : BitVec 64} : ∀ (f : ℕ) (d : List ℕ) (fraction m : BitVec 64) {s : DecimalSlice},
    shortestFrac neg dp shift allowance targetDiff f d fraction m = .ok (some s) → s.d.length ≤ 32 ∧ (s.dp = dp ∨ s.dp = 0) := by
  intro f
  induction f with
  | zero => intro d fraction m s h; cases h
  | succ f ih =>
    intro d fraction m s h
    unfold shortestFrac at h
    simp only at h
    cases hp : putByte 32 d ((((fraction * 10) >>> shift).toNat + 48) % 256) with
    | error e =>
      rw [hp] at h
      cases h
    | ok d' =>
      rw [hp] at h
      have hl := putByte_length hp
      simp only [bind, Except.bind] at h
      split at h
      · obtain ⟨a1, a2⟩ := adjustLastDigit_tame h
        exact ⟨le_trans a1 hl.2, a2⟩
      · exact ih _ _ _ h

theorem aligned_exp {f U : ExtFloat} (m : BitVec 64) (f1 : -5000 ≤ f.exp) (f2 : f.exp ≤ 5000) (u1 : -6000 ≤ U.exp) (u2 : U.exp ≤ 5000) :
    -10000 ≤ (if f.exp > U.exp then ⟨m, U.exp, f.neg⟩ else f : ExtFloat).exp ∧ (if f.exp > U.exp then ⟨m, U.exp, f.neg⟩ else f : ExtFloat).exp ≤ 10000 := by
  split
  · simp only
    omega
  · omega

theorem alignI_eq {W : ℕ} (hW : W = 32 ∨ W = 64) {f U : ExtFloat} (f1 : -5000 ≤ f.exp) (f2 : f.exp ≤ 5000) (u1 : -6000 ≤ U.exp) (u2 : U.exp ≤ 5000) :
    (if f.exp > U.exp then ⟨f.mant <<< uintI W (wrap W (f.exp - U.exp)), U.exp, f.neg⟩ else f : ExtFloat) =
      (if f.exp > U.exp then ⟨f.mant <<< uintOf (f.exp - U.exp), U.exp, f.neg⟩ else f) := by
  split
  · rw [wrap_small hW (by omega) (by omega), uint_shift hW (by omega) (by omega)]
  · rfl

theorem shortestDecimalI_eq {W : ℕ} (hW : W = 32 ∨ W = 64) {f lower upper : ExtFloat} (f1 : -5000 ≤ f.exp) (f2 : f.exp ≤ 5000) (l1 : -5000 ≤ lower.exp)
    (l2 : lower.exp ≤ 5000) (u1 : -5000 ≤ upper.exp) (u2 : upper.exp ≤ 5000) :
    f.shortestDecimalI W lower upper = f.shortestDecimal lower upper := by
  unfold ExtFloat.shortestDecimalI ExtFloat.shortestDecimal
  by_cases hm : f.mant = 0
  · rw [if_pos hm, if_pos hm]
  rw [if_neg hm, if_neg hm]
  by_cases hx : f.exp = 0 ∧ lower = f ∧ lower = upper
  · rw [if_pos hx, if_pos hx]
  rw [if_neg hx, if_neg hx]
  have hn := normalize_exp upper
  rw [normalizeI_eq hW (by omega) (by omega)]
  dsimp only
  generalize upper.normalize.1 = U at *
  rw [alignI_eq hW f1 f2 (by omega) (by omega), alignI_eq hW l1 l2 (by omega) (by omega)]
  have hF := aligned_exp (U := U) (f.mant <<< uintOf (f.exp - U.exp)) f1 f2 (by omega) (by omega)
  have hL := aligned_exp (U := U) (lower.mant <<< uintOf (lower.exp - U.exp)) l1 l2 (by omega) (by omega)
  rw [frexp10ManyI_eq hW hL.1 hL.2 hF.1 hF.2 (by omega) (by omega)]
  apply bind_ext
  rintro ⟨L', F', U', e⟩ hM
  have hv := frexp10Many_exp hM
  dsimp only at hv ⊢
  rw [wrap_small hW (i := -U'.exp) (by omega) (by omega), uint_shift hW (by omega) (by omega)]
  generalize uintOf (-U'.exp) = sh
  generalize BitVec.setWidth 32 ((U'.mant + 1) >>> sh) = int
  have hc := countDigits_le int 20 0 1
  generalize countDigits int 20 0 1 = c at *
  rw [shortestIntI_eq hW F'.neg (by omega) (by omega) (by omega)]
  apply bind_ext
  intro r hr
  obtain ⟨i1, i2⟩ := shortestInt_tame _ _ _ hr (by simp)
  cases r with
  | inl r => dsimp only
  | inr ds =>
    have := i2 ds rfl
    dsimp only
    rw [wrap_small hW (by omega) (by omega)]

theorem shortestDecimal_tame {f lower upper : ExtFloat} {s : DecimalSlice} (h : f.shortestDecimal lower upper = .ok (some s)) :
    s.d.length ≤ 32 ∧ -10000 ≤ s.dp ∧ s.dp ≤ 10000 := by
  unfold ExtFloat.shortestDecimal at h
  by_cases hm : f.mant = 0
  · rw [if_pos hm] at h
    cases h
    simp
  rw [if_neg hm] at h
  by_cases hx : f.exp = 0 ∧ lower = f ∧ lower = upper
  · rw [if_pos hx] at h
    cases h
    have hs := (digitsOf_spec (b := 10) (by norm_num) f.mant.toNat).2.2.1 20 (lt_trans f.mant.isLt (by norm_num))
    have hd := (List.dropWhile_suffix (l := (digitsOf 10 f.mant.toNat).reverse) (fun x => decide (x = 0))).length_le
    rw [List.length_reverse] at hd
    simp only [List.length_map, List.length_reverse]
    refine ⟨by omega, ?_⟩
    split <;> omega
  rw [if_neg hx] at h
  dsimp only at h
  generalize hM : frexp10Many _ _ _ = M at h
  cases M with
  | error e => cases h
  | ok v =>
    obtain ⟨L', F', U', e⟩ := v
    have hv := frexp10Many_exp hM
    clear hM
    dsimp only [bind, Except.bind] at h hv
    generalize uintOf (-U'.exp) = sh at h
    generalize BitVec.setWidth 32 ((U'.mant + 1) >>> sh) = int at h
    have hc := countDigits_le int 20 0 1
    generalize countDigits int 20 0 1 = c at *
    generalize hI : shortestInt F'.neg e c sh _ _ _ c [] int = I at h
    cases I with
    | error e => cases h
    | ok r =>
      obtain ⟨i1, i2⟩ := shortestInt_tame _ _ _ hI (by simp)
      clear hI
      cases r with
      | inl r =>
        simp only [pure, Except.pure, Except.ok.injEq] at h
        subst h
        have := i1 s rfl
        exact ⟨this.1, by omega, by omega⟩
      | inr ds =>
        have := i2 ds rfl
        dsimp only at h
        have := shortestFrac_tame _ _ _ _ h
        exact ⟨this.1, by omega, by omega⟩

theorem fixedLoop_length {shift : ℕ} : ∀ (n : ℕ) (d : List ℕ) (fraction ε : BitVec 64) {r}, fixedLoop shift n d fraction ε = .ok (some r) → d.length ≤ 24 →
    r.1.length ≤ 24 := by
  intro n
  induction n with
  | zero => intro d fraction ε r h hd; cases h; exact hd
  | succ n ih =>
    intro d fraction ε r h hd
    unfold fixedLoop at h
    simp only at h
    split at h
    · cases h
    · cases hp : putByte 24 d ((((fraction * 10) >>> shift).toNat + 48) % 256) with
      | error e =>
        rw [hp] at h
        cases h
      | ok d' =>
        rw [hp] at h
        exact ih _ _ _ h (putByte_length hp).2

/-- Every value that `x` returns satisfies `P`. -/
structure Post {α : Type} (x : Go α) (P : α → Prop) : Prop where
  out : ∀ v, x = .ok v → P v

theorem post_bind {α β : Type} {x : Go α} {f : α → Go β} {P : β → Prop} (Q : α → Prop) (h1 : Post x Q) (h2 : ∀ v, Q v → Post (f v) P) :
    Post (x >>= f) P := by
  cases x with
  | error e => exact ⟨fun v hv => by cases hv⟩
  | ok a => exact h2 a (h1.out a rfl)

theorem post_throw {α β : Type} {e : Panic} {f : α → Go β} {P : β → Prop} : Post ((throw e : Go α) >>= f) P := by
  exact ⟨fun v hv => by cases hv⟩

theorem post_pure {α β : Type} {a : α} {f : α → Go β} {P : β → Prop} (h : Post (f a) P) : Post ((pure a : Go α) >>= f) P := h

theorem post_ite {α : Type} {c : Prop} [Decidable c] {x y : Go α} {P : α → Prop} (h1 : Post x P) (h2 : ¬c → Post y P) : Post (if c then x else y) P := by
  split
  · exact h1
  · exact h2 ‹_›

theorem adjustFixed_tame {d r : DecimalSlice} {num den ε : BitVec 64} {shift : ℕ} (h : adjustLastDigitFixed d num den shift ε = .ok (some r)) :
    r.d.length ≤ d.d.length + 1 ∧ (r.dp = d.dp ∨ r.dp = d.dp + 1) := by
  suffices hp : Post (adjustLastDigitFixed d num den shift ε) (fun o => ∀ r, o = some r → r.d.length ≤ d.d.length + 1 ∧ (r.dp = d.dp ∨ r.dp = d.dp + 1)) from
    hp.out _ h r rfl
  clear h r
  unfold adjustLastDigitFixed
  apply post_ite
  · exact post_throw
  intro _
  apply post_ite
  · exact post_throw
  intro _
  apply post_ite
  · constructor
    intro v hv r hr
    cases hv
    cases hr
    simp
  intro _
  apply post_ite
  · have hd := (List.dropWhile_suffix (l := d.d.reverse) (fun x => decide (x = 57))).length_le
    rw [List.length_reverse] at hd
    constructor
    intro v hv r hr
    subst hr
    dsimp only at hv
    split at hv
    · cases hv
      simp
    · cases hv
      simp
      omega
  · intro _
    constructor
    intro v hv r hr
    cases hv
    cases hr

theorem fixedDecimal_tame {f : ExtFloat} {n : ℤ} {s : DecimalSlice} (h : f.fixedDecimal n = .ok (some s)) :
    s.d.length ≤ 32 ∧ -10000 ≤ s.dp ∧ s.dp ≤ 10000 := by
  suffices hp : Post (f.fixedDecimal n) (fun o => ∀ s, o = some s → s.d.length ≤ 32 ∧ -10000 ≤ s.dp ∧ s.dp ≤ 10000) from hp.out _ h s rfl
  clear h s
  unfold ExtFloat.fixedDecimal
  apply post_ite
  · constructor
    intro v hv s hs
    cases hv
    cases hs
    simp
  intro _
  apply post_ite
  · exact post_throw
  intro _
  change Post (ExtFloat.frexp10 f.normalize.1 >>= _) _
  apply post_bind (fun r : ExtFloat × ℤ × ℤ => -348 ≤ r.2.1 ∧ r.2.1 ≤ 348)
  · constructor
    rintro ⟨g, e, i⟩ hg
    exact (frexp10_exp hg).2.2
  rintro ⟨g, e, i⟩ he
  dsimp only at he
  have hJ : ∀ (sh c : ℕ) (fraction : BitVec 64), c ≤ 20 → ∀ x : BitVec 64 × BitVec 32 × BitVec 32, Post (
      match x with
      | (pow10, integer, rest) =>
        have ds := (digitsOf 10 integer.toNat).map (· + 48)
        have jp : Unit → Go (Option DecimalSlice) := fun _ =>
          have d : DecimalSlice := ⟨ds, c + e, false⟩
          have needed := n - ds.length
          have jp2 : Option (List ℕ × BitVec 64 × BitVec 64) → Go (Option DecimalSlice) := fun r =>
            match r with
            | none => pure none
            | some (ds, fraction, ε) => do
              match ← adjustLastDigitFixed { d with d := ds } ((rest.setWidth 64) <<< sh ||| fraction) pow10 sh ε with
              | none => pure none
              | some d => pure (some { d with d := trimFixed d.d })
          if needed > 0 then
            have jp3 : Unit → Go (Option DecimalSlice) := fun _ => fixedLoop sh needed.toNat ds fraction 1 >>= jp2
            if rest ≠ 0 ∨ pow10 ≠ 1 then (throw Panic.internal : Go Unit) >>= jp3
            else jp3 ()
          else pure (some (ds, fraction, 1)) >>= jp2
        if ds.length > 24 then (throw Panic.index : Go Unit) >>= jp else jp ()) (fun o => ∀ s, o = some s → s.d.length ≤ 32 ∧ -10000 ≤ s.dp ∧ s.dp ≤ 10000) := by
    rintro sh c fraction hc ⟨pow10, integer, rest⟩
    apply post_ite
    · exact post_throw
    intro hl
    have h2 : ∀ r : Option (List ℕ × BitVec 64 × BitVec 64), (∀ v, r = some v → v.1.length ≤ 24) → Post (match r with
            | none => pure none
            | some (ds, fraction, ε) => do
              match ← adjustLastDigitFixed { d := ds, dp := c + e, neg := false } ((rest.setWidth 64) <<< sh ||| fraction) pow10 sh ε with
              | none => pure none
              | some d => pure (some { d with d := trimFixed d.d })) (fun o => ∀ s, o = some s → s.d.length ≤ 32 ∧ -10000 ≤ s.dp ∧ s.dp ≤ 10000) := by
      intro r hr
      cases r with
      | none => exact ⟨fun v hv s hs => by cases hv; cases hs⟩
      | some r =>
        obtain ⟨ds, fraction, ε⟩ := r
        have h3 := hr _ rfl
        dsimp only at h3 ⊢
        apply post_bind (fun o => ∀ s, o = some s → s.d.length ≤ 25 ∧ -9000 ≤ s.dp ∧ s.dp ≤ 9000)
        · constructor
          intro v hv s hs
          subst hs
          obtain ⟨a1, a2⟩ := adjustFixed_tame hv
          dsimp only at a1 a2
          omega
        · intro v hv
          cases v with
          | none => exact ⟨fun w hw s hs => by cases hw; cases hs⟩
          | some s =>
            have h5 := hv s rfl
            constructor
            intro w hw t ht
            cases hw
            cases ht
            have hd := (List.dropWhile_suffix (l := s.d.reverse) (fun x => decide (x = 48))).length_le
            rw [List.length_reverse] at hd
            refine ⟨?_, by dsimp only; omega, by dsimp only; omega⟩
            dsimp only [trimFixed]
            split
            · omega
            · rw [List.length_reverse]
              omega
    apply post_ite
    · apply post_ite
      · exact post_throw
      · intro _
        apply post_bind (fun o => ∀ v, o = some v → v.1.length ≤ 24)
        · constructor
          intro v hv r hr
          subst hr
          exact fixedLoop_length _ _ _ _ hv (by omega)
        · exact h2
    · intro _
      apply post_pure
      refine h2 (some ((digitsOf 10 integer.toNat).map (· + 48), fraction, 1)) ?_
      intro v hv
      cases hv
      dsimp only
      omega
  dsimp only
  generalize uintOf (-g.exp) = sh
  generalize BitVec.setWidth 32 (g.mant >>> sh) = int
  generalize g.mant - BitVec.setWidth 64 int <<< sh = fr
  have hc := countDigits_le int 20 0 1
  generalize countDigits int 20 0 1 = c at *
  have hJ' := hJ sh c fr hc
  clear hJ
  apply post_ite
  · apply post_bind (fun _ => True) ⟨fun _ _ => trivial⟩
    intro pow10 _
    apply post_ite
    · exact post_throw
    · intro _
      apply post_pure
      exact hJ' (pow10, int / BitVec.setWidth 32 pow10, int - int / BitVec.setWidth 32 pow10 * BitVec.setWidth 32 pow10)
  · intro _
    apply post_pure
    exact hJ' (1, int, 0)

theorem assignComputeBoundsI_eq {W : ℕ} (hW : W = 32 ∨ W = 64) (mant : BitVec 64) {exp : ℤ} (neg : Bool) {flt : FloatInfo} (hs : Small flt exp) :
    assignComputeBoundsI W mant exp neg flt = assignComputeBounds mant exp neg flt := by
  obtain ⟨s1, s2, s3, s4, s5⟩ := hs
  unfold assignComputeBoundsI assignComputeBounds
  rw [wrap_small hW (i := exp - flt.mantbits) (by omega) (by omega), wrap_small hW (i := exp - flt.bias) (by omega) (by omega)]
  dsimp only
  rw [wrap_small hW (i := exp - flt.mantbits - 1) (by omega) (by omega), wrap_small hW (i := exp - flt.mantbits - 2) (by omega) (by omega),
    wrap_small hW (i := -(exp - flt.mantbits)) (by omega) (by omega)]
  by_cases h : exp - flt.mantbits ≤ 0
  · rw [uint_shift hW (by omega) (by omega)]
  · simp only [h, false_and, if_false]

theorem bounds_exp {mant : BitVec 64} {exp : ℤ} {neg : Bool} {flt : FloatInfo} (hs : Small flt exp) {f l u : ExtFloat}
    (h : assignComputeBounds mant exp neg flt = (f, l, u)) :
    (-5000 ≤ f.exp ∧ f.exp ≤ 5000) ∧ (-5000 ≤ l.exp ∧ l.exp ≤ 5000) ∧ -5000 ≤ u.exp ∧ u.exp ≤ 5000 := by
  obtain ⟨s1, s2, s3, s4, s5⟩ := hs
  unfold assignComputeBounds at h
  dsimp only at h
  split at h
  · cases h
    simp
  · cases h
    refine ⟨by dsimp only; omega, ?_, by dsimp only; omega⟩
    split <;> dsimp only <;> omega

theorem fmtBI_eq {W : ℕ} (hW : W = 32 ∨ W = 64) (neg : Bool) (mant : BitVec 64) {exp : ℤ} {flt : FloatInfo} (hs : Small flt exp) :
    fmtBI W neg mant exp flt = fmtB W neg mant exp flt := by
  obtain ⟨s1, s2, s3, s4, s5⟩ := hs
  unfold fmtBI fmtB
  rw [wrap_small hW (i := exp - flt.mantbits) (by omega) (by omega)]

theorem ftoaFiniteI_eq {W : ℕ} (hW : W = 32 ∨ W = 64) (opt : Bool) {fmt : Char} {prec : ℤ} (neg : Bool) {mant : BitVec 64} {exp : ℤ} {flt : FloatInfo}
    (hs : Small flt exp) (hp : Fine W fmt prec) :
    ftoaFiniteI W opt fmt prec neg mant exp flt = ftoaFinite W opt fmt prec neg mant exp flt := by
  have hM : (2147483647 : ℤ) ≤ maxInt W := by simp only [maxInt]; rcases hW with rfl | rfl <;> norm_num
  have hM2 : minInt W ≤ -4000000 := by simp only [minInt]; rcases hW with rfl | rfl <;> norm_num
  have hs' := hs
  obtain ⟨s1, s2, s3, s4, s5⟩ := hs
  unfold ftoaFiniteI ftoaFinite
  by_cases hb : fmt = 'b'
  · rw [if_pos hb, if_pos hb, fmtBI_eq hW neg mant hs']
  rw [if_neg hb, if_neg hb]
  by_cases ho : (!opt) = true
  · rw [if_pos ho, if_pos ho, bigFtoaI_eq hW neg hs' hp]
  rw [if_neg ho, if_neg ho]
  by_cases hneg : prec < 0
  · rw [if_pos hneg, if_pos hneg, assignComputeBoundsI_eq hW mant neg hs', bigFtoaI_eq hW neg hs' hp]
    rcases hx : assignComputeBounds mant exp neg flt with ⟨f, l, u⟩
    obtain ⟨b1, b2, b3⟩ := bounds_exp hs' hx
    dsimp only
    rw [shortestDecimalI_eq hW b1.1 b1.2 b2.1 b2.2 b3.1 b3.2]
    apply bind_ext
    intro o hd
    cases o with
    | none => rfl
    | some d =>
      obtain ⟨t1, t2, t3⟩ := shortestDecimal_tame hd
      have hnd : d.nd = d.d.length := rfl
      dsimp only
      rw [wrap_small hW (i := (d.nd : ℤ) - d.dp) (by omega) (by omega), formatDigitsI_eq hW true neg (by omega) (by omega) (by omega)]
      refine ⟨?_, ?_, ?_⟩
      · intro he
        rw [if_pos he]
        omega
      · intro hf
        rw [if_neg (by rw [hf]; decide), if_pos hf]
        omega
      · intro hg
        have : ¬(fmt = 'e' ∨ fmt = 'E') ∧ ¬ fmt = 'f' := by rcases hg with rfl | rfl <;> decide
        rw [if_neg this.1, if_neg this.2, if_pos hg]
        omega
  rw [if_neg hneg, if_neg hneg]
  by_cases hf : fmt ≠ 'f'
  · rw [if_pos hf, if_pos hf]
    have hp' : Fine W fmt (if (fmt = 'g' ∨ fmt = 'G') ∧ prec = 0 then 1 else prec) := by
      obtain ⟨p1, p2⟩ := hp
      refine ⟨by split <;> omega, fun he => ?_⟩
      have := p2 he
      split <;> omega
    have hq0 : 0 ≤ (if (fmt = 'g' ∨ fmt = 'G') ∧ prec = 0 then 1 else prec) := by split <;> omega
    dsimp only
    generalize (if (fmt = 'g' ∨ fmt = 'G') ∧ prec = 0 then 1 else prec) = q at *
    have hdig : (if fmt = 'e' ∨ fmt = 'E' then wrap W (q + 1) else q) = (if fmt = 'e' ∨ fmt = 'E' then q + 1 else q) := by
      split
      · rename_i he
        have := hp'.2 he
        rw [wrap_range hW (by omega) (by omega)]
      · rfl
    have hdig0 : 0 ≤ (if fmt = 'e' ∨ fmt = 'E' then q + 1 else q) := by split <;> omega
    rw [hdig, bigFtoaI_eq hW neg hs' hp']
    by_cases h15 : (if fmt = 'e' ∨ fmt = 'E' then q + 1 else q) ≤ 15
    · rw [if_pos h15, if_pos h15, wrap_small hW (by omega) (by omega), fixedDecimalI_eq hW (by dsimp only; omega) (by dsimp only; omega) hdig0 (by omega)]
      apply bind_ext
      intro o hd
      cases o with
      | none => rfl
      | some d =>
        obtain ⟨t1, t2, t3⟩ := fixedDecimal_tame hd
        have hnd : d.nd = d.d.length := rfl
        dsimp only
        rw [formatDigitsI_eq hW false neg (by omega) (by omega) (by omega)]
        exact ⟨hp'.2, fun h => absurd h hf, fun _ => hq0⟩
    · rw [if_neg h15, if_neg h15]
  · rw [if_neg hf, if_neg hf, bigFtoaI_eq hW neg hs' hp]

end Strconv
end GoFloat
