import Verif.Proofs.Nearest
/-
The rounding interval of a number of a format: what rounds to it lies between the midpoints to its neighbours.
-/
namespace GoFloat
open Spec

/-- `q` is in the rounding interval of code `n`. -/
def InInterval (F : Format) (n : ℕ) (q : ℚ) : Prop :=
  (n ≠ 0 → F.magc (n - 1) + F.magc n ≤ 2 * q ∧ (n % 2 = 1 → F.magc (n - 1) + F.magc n < 2 * q)) ∧
  (2 * q ≤ F.magc n + F.magc (n + 1) ∧ (n % 2 = 1 → 2 * q < F.magc n + F.magc (n + 1)))

theorem magc_infCode_add (F : Format) (hw : 2 ≤ F.w) :
    F.magc (F.infCode - 1) + F.magc F.infCode = 2 * F.overflowAt := by
  have hP := Nat.two_pow_pos F.t
  have hw4 : 2 ^ 2 ≤ 2 ^ F.w := Nat.pow_le_pow_right (by norm_num) hw
  obtain ⟨k, hk⟩ : ∃ k, 2 ^ F.w = k + 3 := ⟨2 ^ F.w - 3, by omega⟩
  have h1 : F.infCode - 1 = k * 2 ^ F.t + (2 ^ (F.t + 1) - 1) := by
    unfold Format.infCode
    rw [hk, show k + 3 - 1 = k + 2 by omega, Nat.add_mul, pow_succ]
    omega
  have h2 : F.infCode = k * 2 ^ F.t + 2 ^ (F.t + 1) := by
    unfold Format.infCode
    rw [hk, show k + 3 - 1 = k + 2 by omega, Nat.add_mul, pow_succ]
    omega
  have hb : F.qmin + (k : ℤ) = F.bias - F.t := by
    unfold Format.qmin Format.bias
    have hk2 : 2 * 2 ^ (F.w - 1) = k + 3 := by
      rw [← hk, ← pow_succ']; congr 1; omega
    have hk3 : 2 * (2 : ℤ) ^ (F.w - 1) = k + 3 := by exact_mod_cast hk2
    linarith
  have hQ : (2 : ℚ) ^ F.bias = 2 ^ F.t * 2 ^ (F.qmin + (k : ℤ)) := by
    rw [hb, ← zpow_natCast, ← zpow_add₀ (by norm_num)]; congr 1; ring
  have e1 : F.magc (k * 2 ^ F.t + (2 ^ (F.t + 1) - 1)) = ((2 ^ (F.t + 1) - 1 : ℕ) : ℚ) * 2 ^ (F.qmin + (k : ℤ)) :=
    F.magc_eq (by omega) (Or.inr (by rw [pow_succ]; omega))
  have e2 : F.magc (k * 2 ^ F.t + 2 ^ (F.t + 1)) = ((2 ^ (F.t + 1) : ℕ) : ℚ) * 2 ^ (F.qmin + (k : ℤ)) :=
    F.magc_eq le_rfl (Or.inr (by rw [pow_succ]; omega))
  rw [h1, h2, e1, e2]
  unfold Format.overflowAt
  rw [hQ]
  push_cast [Nat.one_le_two_pow]
  generalize (2 : ℚ) ^ (F.qmin + (k : ℤ)) = Q
  rw [pow_succ]
  field_simp
  ring

theorem infCode_even (F : Format) (ht : 1 ≤ F.t) : F.infCode % 2 = 0 := by
  unfold Format.infCode
  obtain ⟨s, hs⟩ : ∃ s, F.t = s + 1 := ⟨F.t - 1, by omega⟩
  rw [hs, pow_succ, ← mul_assoc]
  exact Nat.mul_mod_left _ _

theorem signPart_even (F : Format) (ht : 1 ≤ F.t) (neg : Bool) : F.signPart neg % 2 = 0 := by
  unfold Format.signPart
  obtain ⟨s, hs⟩ : ∃ s, F.t + F.w = s + 1 := ⟨F.t + F.w - 1, by omega⟩
  rw [hs, pow_succ]
  cases neg <;> simp

theorem signed_sub (neg : Bool) (a b : ℚ) : |signed neg a - signed neg b| = |a - b| := by
  cases neg
  · rfl
  · simp only [signed, if_true]
    rw [show -a - -b = -(a - b) by ring, abs_neg]

/-- A number rounds to a finite code exactly if it is in its interval. -/
theorem roundsTo_iff (F : Format) (ht : 1 ≤ F.t) (hw : 2 ≤ F.w) (neg : Bool) {n : ℕ} (hn : n < F.infCode) {q : ℚ} (hq : 0 ≤ q) :
    F.RoundsTo neg q (F.signPart neg + n) ↔ InInterval F n q := by
  have hmono := F.magc_strictMono
  have hinf := magc_infCode_add F hw
  have hev := infCode_even F ht
  have hsg := signPart_even F ht neg
  constructor
  · intro h
    unfold Format.RoundsTo at h
    have hdec := F.decode_code neg hn
    by_cases hov : F.overflowAt ≤ q
    · rw [if_pos hov, hdec] at h
      exact absurd h (by simp)
    · rw [if_neg hov] at h
      obtain ⟨r, hr, h1, h2⟩ := h
      have hrr : r = F.magc n := by
        rw [hdec] at hr
        injection hr with _ hr
        exact hr.symm
      subst hrr
      refine ⟨fun hn0 => ?_, ?_⟩
      · have hlt : F.magc (n - 1) < F.magc n := hmono (by omega)
        have hd := F.decode_code neg (show n - 1 < F.infCode by omega)
        have a1 := h1 _ _ _ hd
        rw [signed_sub, signed_sub] at a1
        have key : F.magc (n - 1) + F.magc n ≤ 2 * q := by
          rcases le_or_gt (F.magc n) q with hc | hc
          · linarith
          · rw [abs_of_neg (by linarith : q - F.magc n < 0)] at a1
            by_contra hlt'
            push Not at hlt'
            have hb : |q - F.magc (n - 1)| < F.magc n - q := by
              rw [abs_lt]; constructor <;> linarith
            linarith
        refine ⟨key, fun hodd => lt_of_le_of_ne key fun heq => ?_⟩
        have := h2 _ _ _ hd (by
          intro hc
          have := signed_sub neg (F.magc (n - 1)) (F.magc n)
          rw [hc, sub_self, abs_zero] at this
          have := abs_eq_zero.1 this.symm
          linarith) (by
          rw [signed_sub, signed_sub, abs_of_neg (by linarith), abs_of_pos (by linarith)]
          linarith)
        omega
      · rcases Nat.lt_or_ge (n + 1) F.infCode with hlt | hge
        · have hlt' : F.magc n < F.magc (n + 1) := hmono (by omega)
          have hd := F.decode_code neg hlt
          have a1 := h1 _ _ _ hd
          rw [signed_sub, signed_sub] at a1
          have key : 2 * q ≤ F.magc n + F.magc (n + 1) := by
            rcases le_or_gt q (F.magc n) with hc | hc
            · linarith
            · rw [abs_of_pos (by linarith : 0 < q - F.magc n)] at a1
              by_contra hlt''
              push Not at hlt''
              have hb : |q - F.magc (n + 1)| < q - F.magc n := by
                rw [abs_lt]; constructor <;> linarith
              linarith
          refine ⟨key, fun hodd => lt_of_le_of_ne key fun heq => ?_⟩
          have := h2 _ _ _ hd (by
            intro hc
            have := signed_sub neg (F.magc (n + 1)) (F.magc n)
            rw [hc, sub_self, abs_zero] at this
            have := abs_eq_zero.1 this.symm
            linarith) (by
            rw [signed_sub, signed_sub, abs_of_pos (by linarith), abs_of_neg (by linarith)]
            linarith)
          omega
        · have hnn : n = F.infCode - 1 := by omega
          rw [hnn, show F.infCode - 1 + 1 = F.infCode by omega, hinf]
          push Not at hov
          exact ⟨by linarith, fun _ => by linarith⟩
  · intro ⟨hlo, hhi⟩
    obtain ⟨k, N, hkN, hN, hk⟩ := F.code_split n
    have hm : F.magc n = N * (2 : ℚ) ^ (F.qmin + k) := by rw [hkN]; exact F.magc_eq hN.le hk
    have hpar : N % 2 = n % 2 := by
      obtain ⟨s, hs⟩ : ∃ s, F.t = s + 1 := ⟨F.t - 1, by omega⟩
      rw [hkN, hs, pow_succ, ← mul_assoc]
      omega
    have hupper : ∀ n', n < n' → F.magc (n + 1) ≤ F.magc n' := fun n' h => hmono.monotone h
    have hlower : ∀ n', n' < n → F.magc n' ≤ F.magc (n - 1) := fun n' h => hmono.monotone (by omega)
    have hnear : ∀ n', n' ≠ n → |q - F.magc n| ≤ |q - F.magc n'| ∧ (n % 2 = 1 → |q - F.magc n| < |q - F.magc n'|) := by
      intro n' hne
      rcases Nat.lt_or_gt_of_ne hne with h | h
      · have h1 := hlower n' h
        obtain ⟨h2, h3⟩ := hlo (by omega)
        have h4 : F.magc (n - 1) < F.magc n := hmono (by omega)
        rw [abs_of_nonneg (by linarith : 0 ≤ q - F.magc n')]
        refine ⟨abs_le.2 ⟨by linarith, by linarith⟩, fun ho => ?_⟩
        have := h3 ho
        exact abs_lt.2 ⟨by linarith, by linarith⟩
      · have h1 := hupper n' h
        obtain ⟨h2, h3⟩ := hhi
        have h4 : F.magc n < F.magc (n + 1) := hmono (by omega)
        rw [abs_of_nonpos (by linarith : q - F.magc n' ≤ 0)]
        refine ⟨abs_le.2 ⟨by linarith, by linarith⟩, fun ho => ?_⟩
        have := h3 ho
        exact abs_lt.2 ⟨by linarith, by linarith⟩
    rw [hkN]
    apply roundsTo_of_nearest F ht neg hq (by rw [← hkN]; exact hn) _ hN.le hk
    · intro n'
      rw [← hm]
      by_cases h : n' = n
      · rw [h]
      · exact (hnear n' h).1
    · intro n' h1 h2
      rw [← hm] at h1 h2
      rw [hpar]
      by_contra hc
      have := (hnear n' (fun h => h1 (by rw [h]))).2 (by omega)
      linarith
    · rw [not_le]
      rcases Nat.lt_or_ge (n + 1) F.infCode with hlt | hge
      · have h1 : F.magc n ≤ F.magc (F.infCode - 1) := hmono.monotone (by omega)
        have h2 : F.magc (n + 1) < F.magc F.infCode := hmono hlt
        linarith [hhi.1]
      · have := hhi.2 (by omega)
        rw [show n + 1 = F.infCode by omega, show n = F.infCode - 1 by omega] at this
        linarith

/-- The neighbours of a code, in units of its last place. -/
theorem magc_succ (F : Format) {k N : ℕ} (hN : N < 2 ^ (F.t + 1)) (hk : k = 0 ∨ 2 ^ F.t ≤ N) :
    F.magc (k * 2 ^ F.t + N + 1) = (N + 1) * (2 : ℚ) ^ (F.qmin + k) := by
  rw [add_assoc, F.magc_eq (k := k) (N := N + 1) hN (by omega)]
  push_cast; ring

theorem magc_pred (F : Format) {k N : ℕ} (hN : N < 2 ^ (F.t + 1)) (hN0 : 0 < N) (hk : k = 0 ∨ 2 ^ F.t < N) :
    F.magc (k * 2 ^ F.t + N - 1) = (N - 1) * (2 : ℚ) ^ (F.qmin + k) := by
  rw [Nat.add_sub_assoc hN0, F.magc_eq (k := k) (N := N - 1) (by omega) (by omega)]
  push_cast [Nat.cast_sub hN0]; ring

theorem magc_pred' (F : Format) {k : ℕ} (hk : k ≠ 0) :
    F.magc (k * 2 ^ F.t + 2 ^ F.t - 1) = (2 * (2 : ℚ) ^ F.t - 1) * (2 : ℚ) ^ (F.qmin + k - 1) := by
  obtain ⟨j, rfl⟩ : ∃ j, k = j + 1 := ⟨k - 1, by omega⟩
  have hP := Nat.two_pow_pos F.t
  rw [show (j + 1) * 2 ^ F.t + 2 ^ F.t - 1 = j * 2 ^ F.t + (2 ^ (F.t + 1) - 1) by rw [Nat.add_mul, pow_succ]; omega,
    F.magc_eq (k := j) (N := 2 ^ (F.t + 1) - 1) (by omega) (Or.inr (by rw [pow_succ]; omega))]
  push_cast [Nat.one_le_two_pow]
  rw [pow_succ, show F.qmin + ((j : ℤ) + 1) - 1 = F.qmin + j by ring]
  ring

end GoFloat
