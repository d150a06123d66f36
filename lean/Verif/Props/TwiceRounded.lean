import Verif.Props.Float128ppcHigh
import Verif.Proofs.SplitMode
/-
Exactly when Float64 and Float32 of a double-double are the correctly rounded sum of its halves (C75 of properties.jsonl).
-/
namespace GoFloat.Float128ppc
open Spec Strconv

/-- `q` is half way between the magnitude encoded by `c` and the next larger one, the number past the largest float counting as the next
power of two. -/
def Halfway (F : Format) (c : ℕ) (q : ℚ) : Prop :=
  c < 2 ^ (F.t + F.w) ∧ ∃ a, F.decode c = .num false a ∧
    ((∃ b, F.decode (c + 1) = .num false b ∧ 2 * q = a + b) ∨ (F.decode (c + 1) = .inf false ∧ q = F.overflowAt))

/-- Rounding `a` to `m` first leads to a wrong float: `m` is half way between two floats, of which the even one is taken, and `a` is nearer to the other. -/
def Misled (F : Format) (a m : ℚ) : Prop := ∃ c, Halfway F c m ∧ if c % 2 = 0 then m < a else a < m

theorem signPart_false (F : Format) : F.signPart false = 0 := rfl

theorem halfway_iff (F : Format) (hw : 2 ≤ F.w) {c : ℕ} {q : ℚ} : Halfway F c q ↔ c < F.infCode ∧ 2 * q = F.magc c + F.magc (c + 1) := by
  have hinf := magc_infCode_add F hw
  have hP := Nat.two_pow_pos F.t
  have hi : 0 < F.infCode := by
    unfold Format.infCode
    have : 2 ^ 2 ≤ 2 ^ F.w := Nat.pow_le_pow_right (by norm_num) hw
    exact Nat.mul_pos (by omega) hP
  have hdec : ∀ {n}, n < F.infCode → F.decode n = .num false (F.magc n) := fun h => by
    have := F.decode_code false h
    rwa [signPart_false, zero_add] at this
  have hdinf : F.decode F.infCode = .inf false := by
    have := F.decode_inf false
    rwa [signPart_false, zero_add] at this
  constructor
  · rintro ⟨h0, a, h1, h2⟩
    obtain ⟨n, n1, n2, n3, -⟩ := F.code_of_decode h1
    rw [Nat.mod_eq_of_lt h0] at n3
    subst n3
    refine ⟨n1, ?_⟩
    rcases Nat.lt_or_ge (c + 1) F.infCode with hlt | hge
    · rw [hdec hlt] at h2
      rcases h2 with ⟨b, h3, h4⟩ | ⟨h3, -⟩
      · rw [h4, n2]
        congr 1
        injection h3 with _ h3
        exact h3.symm
      · cases h3
    · have hc : c + 1 = F.infCode := by omega
      rw [hc, hdinf] at h2
      rcases h2 with ⟨b, h3, -⟩ | ⟨-, h4⟩
      · cases h3
      · rw [hc, h4, ← hinf, ← hc]
        rfl
  · rintro ⟨h1, h2⟩
    refine ⟨h1.trans F.infCode_lt, _, hdec h1, ?_⟩
    rcases Nat.lt_or_ge (c + 1) F.infCode with hlt | hge
    · exact Or.inl ⟨_, hdec hlt, h2⟩
    · have hc : c + 1 = F.infCode := by omega
      right
      rw [hc]
      refine ⟨hdinf, ?_⟩
      rw [← hc] at hinf
      rw [hc] at h2
      rw [Nat.add_sub_cancel, hc] at hinf
      linarith

/-- The points half way between floats have few bits. -/
theorem halfway_fits (F : Format) {n p : ℕ} (hn : n < F.infCode) (hp : F.t + 2 ≤ p) : ∃ K e : ℤ, |K| < 2 ^ p ∧ F.magc n + F.magc (n + 1) = 2 * (K * (2 : ℚ) ^ e) := by
  obtain ⟨k, N, hs⟩ := exists_split F hn
  refine ⟨2 * N + 1, F.qmin + k - 1, ?_, by rw [hs.upper_mid]; push_cast; ring⟩
  have h1 := hs.lt
  have h2 : 2 ^ (F.t + 2) ≤ 2 ^ p := Nat.pow_le_pow_right (by norm_num) hp
  rw [pow_succ] at h2
  have h3 : 2 * N + 1 < 2 ^ p := by omega
  rw [abs_of_nonneg (by positivity)]
  exact_mod_cast h3

/-- Rounding twice: first from `a` to `m` without jumping over a point half way, then to the format. -/
theorem twice_of (F : Format) (ht : 1 ≤ F.t) (hw : 2 ≤ F.w) {s : Bool} {a m : ℚ} (ha : 0 ≤ a) (hm : 0 ≤ m)
    (hup : ∀ {n}, n < F.infCode → F.magc n + F.magc (n + 1) ≤ 2 * a → F.magc n + F.magc (n + 1) ≤ 2 * m)
    (hdown : ∀ {n}, n < F.infCode → 2 * a ≤ F.magc n + F.magc (n + 1) → 2 * m ≤ F.magc n + F.magc (n + 1))
    {c : ℕ} (hc : F.RoundsTo s m c) : F.RoundsTo s a c ↔ ¬ Misled F a m := by
  have hinf := magc_infCode_add F hw
  have hev := infCode_even F ht
  have hi : 0 < F.infCode := by
    unfold Format.infCode
    have : 2 ^ 2 ≤ 2 ^ F.w := Nat.pow_le_pow_right (by norm_num) hw
    exact Nat.mul_pos (by omega) (Nat.two_pow_pos F.t)
  have hmono := F.magc_strictMono
  unfold Misled
  simp only [halfway_iff F hw]
  by_cases hov : F.overflowAt ≤ m
  · have hdc : F.decode c = .inf s := by
      unfold Format.RoundsTo at hc
      rwa [if_pos hov] at hc
    have h1 : F.RoundsTo s a c ↔ F.overflowAt ≤ a := by
      unfold Format.RoundsTo
      split
      · rename_i h
        exact ⟨fun _ => h, fun _ => hdc⟩
      · rename_i h
        refine ⟨fun ⟨r, hr, _⟩ => ?_, fun h' => absurd h' h⟩
        rw [hdc] at hr
        cases hr
    rw [h1]
    have hl : F.infCode - 1 + 1 = F.infCode := by omega
    constructor
    · rintro h ⟨n, ⟨n1, n2⟩, n3⟩
      -- `m` is at least the last of the points half way
      have hn : n = F.infCode - 1 := by
        by_contra hne
        have a1 := hmono (show n < F.infCode - 1 by omega)
        have a2 := hmono (show n + 1 < F.infCode by omega)
        linarith
      rw [if_neg (by omega)] at n3
      rw [hn, hl, hinf] at n2
      linarith
    · intro h
      by_contra hlt
      push Not at hlt
      have := hdown (n := F.infCode - 1) (by omega) (by rw [hl, hinf]; linarith)
      rw [hl, hinf] at this
      refine h ⟨F.infCode - 1, ⟨by omega, by rw [hl, hinf]; linarith⟩, ?_⟩
      rw [if_neg (by omega)]
      linarith
  · obtain ⟨r, hdc, -⟩ : ∃ r, F.decode c = .num s r ∧ True := by
      have h := hc
      unfold Format.RoundsTo at h
      rw [if_neg hov] at h
      obtain ⟨r, hr, -⟩ := h
      exact ⟨r, hr, trivial⟩
    obtain ⟨n, n1, n2, n3, -⟩ := F.code_of_decode hdc
    have hpar : c % 2 = (F.signPart s + n) % 2 := by
      have h2 : 2 ∣ 2 ^ (F.t + F.w) := dvd_pow_self 2 (by omega)
      have h3 := signPart_even F ht s
      have h4 := Nat.mod_mod_of_dvd c h2
      omega
    have hcode : F.decode c = F.decode (F.signPart s + n) := by rw [hdc, F.decode_code s n1, n2]
    have hcongr : ∀ q, F.RoundsTo s q c ↔ F.RoundsTo s q (F.signPart s + n) := fun q => by
      unfold Format.RoundsTo
      rw [hcode, hpar]
    rw [hcongr] at hc ⊢
    rw [roundsTo_iff F ht hw s n1 hm] at hc
    rw [roundsTo_iff F ht hw s n1 ha]
    obtain ⟨c1, c2, c3⟩ := hc
    constructor
    · rintro ⟨a1, a2, a3⟩ ⟨j, ⟨j1, j2⟩, j3⟩
      -- the point half way is one of the ends of the interval
      rcases lt_trichotomy j n with hlt | rfl | hgt
      · obtain ⟨b1, b2⟩ := c1 (by omega)
        obtain ⟨d1, d2⟩ := a1 (by omega)
        have hj : j = n - 1 := by
          by_contra hne
          have e1 := hmono (show j < n - 1 by omega)
          have e2 := hmono (show j + 1 < n by omega)
          linarith
        rw [hj, show n - 1 + 1 = n by omega] at j2
        rcases Nat.mod_two_eq_zero_or_one n with h0 | h0
        · rw [if_neg (by omega)] at j3
          linarith
        · have := b2 h0
          linarith
      · split at j3
        · linarith
        · have := c3 (by omega)
          linarith
      · have e1 := hmono (show n < j by omega)
        have e2 := hmono (show n + 1 < j + 1 by omega)
        linarith
    · intro hno
      refine ⟨fun h0 => ?_, ?_⟩
      · obtain ⟨b1, b2⟩ := c1 h0
        have hl : n - 1 + 1 = n := by omega
        by_contra hcon
        have hle : 2 * a ≤ F.magc (n - 1) + F.magc (n - 1 + 1) := by
          rw [hl]
          by_contra hgt
          push Not at hgt
          exact hcon ⟨hgt.le, fun _ => hgt⟩
        have h1 := hdown (by omega) hle
        rw [hl] at h1 hle
        have heq : 2 * m = F.magc (n - 1) + F.magc n := le_antisymm h1 b1
        have heven : n % 2 = 0 := by
          by_contra hodd
          have := b2 (by omega)
          linarith
        refine hno ⟨n - 1, ⟨by omega, by rw [hl]; exact heq⟩, ?_⟩
        rw [if_neg (by omega)]
        by_contra hge
        push Not at hge
        exact hcon ⟨by linarith, fun h => by omega⟩
      · by_contra hcon
        have hge : F.magc n + F.magc (n + 1) ≤ 2 * a := by
          by_contra hlt
          push Not at hlt
          exact hcon ⟨hlt.le, fun _ => hlt⟩
        have h1 := hup n1 hge
        have heq : 2 * m = F.magc n + F.magc (n + 1) := le_antisymm c2 h1
        have heven : n % 2 = 0 := by
          by_contra hodd
          have := c3 (by omega)
          linarith
        refine hno ⟨n, ⟨n1, heq⟩, ?_⟩
        rw [if_pos heven]
        by_contra hle
        push Not at hle
        exact hcon ⟨by linarith, fun h => by omega⟩

/-- Rounding twice: first to `p` bits, then to a format with at most `p - 2` of them. -/
theorem twice_iff (F : Format) (ht : 1 ≤ F.t) (hw : 2 ≤ F.w) {p : ℕ} (hp : F.t + 2 ≤ p) {s : Bool} {a m : ℚ} (ha : 0 ≤ a) (hm : 0 ≤ m)
    (hb : RoundsToBits p a m) {c : ℕ} (hc : F.RoundsTo s m c) : F.RoundsTo s a c ↔ ¬ Misled F a m := by
  refine twice_of F ht hw ha hm ?_ ?_ hc
  · intro n hn h
    obtain ⟨K, e, hK, he⟩ := halfway_fits F hn hp
    rw [he] at h ⊢
    linarith [ge_of_ge hb hK (by linarith)]
  · intro n hn h
    obtain ⟨K, e, hK, he⟩ := halfway_fits F hn hp
    rw [he] at h ⊢
    linarith [le_of_le hb hK (by linarith)]

/-- C75: for finite halves with a sum `v` that is not zero, `Float64` and `Float32` are the correctly rounded sum unless the sum rounded to 106 bits
is half way between two floats of the format and `v` itself is nearer to the odd one of them. -/
theorem C75_float128ppc_correct (f : Float) {s₁ s₂ : Bool} {m₁ m₂ : ℚ} (h1 : double.decode f.high.toNat = .num s₁ m₁)
    (h2 : double.decode f.low.toNat = .num s₂ m₂) {v w : ℚ} (hv : v = signed s₁ m₁ + signed s₂ m₂) (h0 : v ≠ 0) (hw : RoundsToBits 106 v w) :
    (∃ r acc, f.float64 = .ok (r, acc) ∧ (double.RoundsTo (decide (v < 0)) |v| r.toNat ↔ ¬ Misled double |v| |w|)) ∧
    (∃ r acc, f.float32 = .ok (r, acc) ∧ (single.RoundsTo (decide (v < 0)) |v| r.toNat ↔ ¬ Misled single |v| |w|)) := by
  obtain ⟨x, nan, hb, hsum⟩ := C27_partial f (by intro s; rw [h1]; simp)
  rw [h1, h2] at hsum
  obtain ⟨rfl, -, -, hwf, s, m, hd, hr, -, -, hs1⟩ := hsum
  rw [← hv] at hr hs1
  have hs := hs1 h0
  have hm0 : 0 ≤ m := Binary16.datum_nonneg hd
  have huw : w = signed s m := RoundsToBits.unique (by norm_num) h0 hw hr
  have hwm : |w| = m := by rw [huw, BigFloat.signed_abs hm0]
  have hb106 : RoundsToBits 106 |v| m := roundsToBits_mag (s := s) (by rw [hs, signed_abs, ← hs]; exact hr)
  have hdec : Decoded (.num s m) x false := ⟨rfl, hd⟩
  rw [hwm, ← hs]
  exact ⟨⟨_, _, float64_of_big hb, twice_iff double (by decide) (by decide) (by decide) (abs_nonneg v) hm0 hb106 ((toF64_spec hwf hdec).2.2.1 s m rfl)⟩,
    ⟨_, _, float32_of_big hb, twice_iff single (by decide) (by decide) (by decide) (abs_nonneg v) hm0 hb106 ((toF32_spec hwf hdec).2.2.1 s m rfl)⟩⟩

/-- A number that is itself a float is half way between no two. -/
theorem not_misled_of_float {F : Format} (hw : 2 ≤ F.w) {a m : ℚ} {c : ℕ} {s : Bool} (h : F.decode c = .num s m) : ¬ Misled F a m := by
  rintro ⟨j, hj, -⟩
  obtain ⟨-, h2⟩ := (halfway_iff F hw).1 hj
  obtain ⟨n, -, rfl, -⟩ := F.code_of_decode h
  have h3 := F.magc_strictMono (Nat.lt_succ_self j)
  have h4 : j < n := F.magc_strictMono.lt_iff_lt.1 (by linarith)
  have h5 : n < j + 1 := F.magc_strictMono.lt_iff_lt.1 (by linarith)
  omega

/-! The halves `1 + 2^-24` and `2^-200`: rounded to 106 bits their sum is `1 + 2^-24`, half way between the floats `1` and `1 + 2^-23`. `Float32`
returns the even `1`, `Float64` the correctly rounded sum. -/

private theorem eg_bits : RoundsToBits 106 (1 + 2 ^ (-24 : ℤ) + 2 ^ (-200 : ℤ)) (1 + 2 ^ (-24 : ℤ)) := by
  have h := step_spec (mode := .toNearestEven) (neg := false) (p := 106) (q := 2 ^ 105 + 2 ^ 81) (N := 2 ^ 105 + 2 ^ 81) (r := 2 ^ (-95 : ℤ)) (j := -105)
    (by norm_num) (by norm_num) (by norm_num) (by positivity) (by norm_num) ⟨Or.inl rfl, fun _ => rfl, by norm_num⟩
  norm_num [signed] at h ⊢
  exact h.2

private theorem eg_high : double.decode (0x3FF0000010000000 : F64).toNat = .num false (1 + 2 ^ (-24 : ℤ)) := by
  show double.decode 0x3FF0000010000000 = _
  norm_num [Format.decode, double, Format.bias]

private theorem eg_low : double.decode (0x3370000000000000 : F64).toNat = .num false (2 ^ (-200 : ℤ)) := by
  show double.decode 0x3370000000000000 = _
  norm_num [Format.decode, double, Format.bias]

private theorem eg_abs : |(1 : ℚ) + 2 ^ (-24 : ℤ) + 2 ^ (-200 : ℤ)| = 1 + 2 ^ (-24 : ℤ) + 2 ^ (-200 : ℤ) ∧ |(1 : ℚ) + 2 ^ (-24 : ℤ)| = 1 + 2 ^ (-24 : ℤ) := by
  constructor <;> norm_num

theorem eg_misled : Misled single |1 + 2 ^ (-24 : ℤ) + 2 ^ (-200 : ℤ)| |1 + 2 ^ (-24 : ℤ)| := by
  refine ⟨0x3F800000, ⟨by decide, 1, by norm_num [Format.decode, single, Format.bias], Or.inl ⟨1 + 2 ^ (-23 : ℤ), ?_, ?_⟩⟩, ?_⟩
  · norm_num [Format.decode, single, Format.bias]
  · rw [eg_abs.2]; norm_num
  · rw [if_pos (by decide), eg_abs.1, eg_abs.2]; norm_num

example : ∃ r acc, (newFromBits 0x3FF0000010000000 0x3370000000000000).float32 = .ok (r, acc) ∧
    ¬ single.RoundsTo false |1 + 2 ^ (-24 : ℤ) + 2 ^ (-200 : ℤ)| r.toNat := by
  obtain ⟨-, r, acc, h1, h2⟩ := C75_float128ppc_correct (newFromBits 0x3FF0000010000000 0x3370000000000000) eg_high eg_low rfl
    (by norm_num [signed]) eg_bits
  have hs : decide (signed false (1 + 2 ^ (-24 : ℤ)) + signed false (2 ^ (-200 : ℤ)) < (0 : ℚ)) = false := by norm_num [signed]
  rw [hs] at h2
  exact ⟨r, acc, h1, fun h => h2.1 h eg_misled⟩

example : ∃ r acc, (newFromBits 0x3FF0000010000000 0x3370000000000000).float64 = .ok (r, acc) ∧
    double.RoundsTo false |1 + 2 ^ (-24 : ℤ) + 2 ^ (-200 : ℤ)| r.toNat := by
  obtain ⟨⟨r, acc, h1, h2⟩, -⟩ := C75_float128ppc_correct (newFromBits 0x3FF0000010000000 0x3370000000000000) eg_high eg_low rfl
    (by norm_num [signed]) eg_bits
  have hs : decide (signed false (1 + 2 ^ (-24 : ℤ)) + signed false (2 ^ (-200 : ℤ)) < (0 : ℚ)) = false := by norm_num [signed]
  rw [hs] at h2
  exact ⟨r, acc, h1, h2.2 (by rw [eg_abs.2]; exact not_misled_of_float (by decide) eg_high)⟩

end GoFloat.Float128ppc
