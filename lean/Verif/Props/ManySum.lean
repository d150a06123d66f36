import Verif.Props.ViaDouble
/-
C120: summing many halves in float64.
-/
namespace GoFloat.Binary16
open Spec Float128ppc

/-- The number of a finite half (and 0 for infinities and NaNs). -/
def value (f : Float) : ℚ := match half.decode f.bits.toNat with
  | .num s m => signed s m
  | _ => 0

/-- `r` is the sum of the halves of the list, computed in float64, one after the other from the end of the list to its front: a variable that starts with 0, to
which `Float64` of each half is added. Only defined for finite halves. -/
inductive Accumulates : List Float → F64 → Prop
  | nil : Accumulates [] 0
  | add {l : List Float} {r r' : F64} {f : Float} {x : F64} {s σ : Bool} {m q : ℚ} : Accumulates l r → f.float64 = .ok (x, .exact) →
      double.decode x.toNat = .num s m → double.decode r.toNat = .num σ q → NearestDouble (signed σ q + signed s m) r' → Accumulates (f :: l) r'

theorem sum_exact_many {v : ℚ} {r : F64} (hj : ∃ j : ℤ, v = j * (2 : ℚ) ^ (-24 : ℤ)) (hlt : |v| < 2 ^ 29) (h : NearestDouble v r) :
    ∃ σ, double.decode r.toNat = .num σ |v| ∧ signed σ |v| = v := by
  obtain ⟨j, hj⟩ := hj
  refine nearest_self (K := j) (q := -24) ?_ (by norm_num) hj (hlt.trans ?_) h
  · have hp : (0 : ℚ) < (2 : ℚ) ^ (-24 : ℤ) := by positivity
    rw [hj, abs_mul, abs_of_pos hp] at hlt
    have h1 : |(j : ℚ)| < 2 ^ 53 := by
      norm_num at hlt ⊢
      linarith
    exact_mod_cast h1
  · exact lt_of_le_of_lt (by norm_num) (zpow_lt_zpow_right₀ (by norm_num) (by norm_num : (29 : ℤ) < 1024))

/-- A half that `Float64` turns into a finite double is finite, and the double has its number. -/
theorem float64_value {f : Float} {x : F64} {s : Bool} {m : ℚ} (h : f.float64 = .ok (x, .exact)) (hx : double.decode x.toNat = .num s m) :
    half.decode f.bits.toNat = .num s m := by
  obtain ⟨r, h1, h2⟩ := C04_binary16_float64 f
  rw [h] at h1
  obtain rfl : x = r := by injection h1 with h1; exact congrArg Prod.fst h1
  cases hd : half.decode f.bits.toNat with
  | nan σ =>
    rw [hd] at h2
    simp only at h2
    exfalso
    have hnan : double.decode x.toNat = .nan σ := by
      rw [h2]
      cases σ
      · show double.decode 0x7FF8000000000001 = _
        norm_num [double, Format.decode, Format.bias]
      · show double.decode 0xFFF8000000000001 = _
        norm_num [double, Format.decode, Format.bias]
    rw [hnan] at hx
    cases hx
  | inf σ => rw [hd] at h2; simp only at h2; rw [h2] at hx; cases hx
  | num σ q => rw [hd] at h2; simp only at h2; rw [h2] at hx; exact hx

/-- The sum of a list of finite halves in float64 is exact. -/
theorem accumulates_exact {l : List Float} {r : F64} (h : Accumulates l r) (hb : (l.map fun f => |value f|).sum < 2 ^ 29) :
    (∃ j : ℤ, (l.map value).sum = j * (2 : ℚ) ^ (-24 : ℤ)) ∧ |(l.map value).sum| ≤ (l.map fun f => |value f|).sum ∧
      ∃ σ, double.decode r.toNat = .num σ |(l.map value).sum| ∧ signed σ |(l.map value).sum| = (l.map value).sum := by
  induction h with
  | nil =>
    refine ⟨⟨0, by simp⟩, by simp, false, ?_, by simp [signed]⟩
    show double.decode 0 = _
    norm_num [double, Format.decode, Format.bias]
  | @add l r r' f x s σ m q hl hf hx hr hn ih =>
    have hd := float64_value hf hx
    have hv : value f = signed s m := by unfold value; rw [hd]
    obtain ⟨⟨j', hj'⟩, -, -⟩ := half_value hd
    simp only [List.map_cons, List.sum_cons] at hb ⊢
    obtain ⟨⟨j, hj⟩, i2, σ', i3, i4⟩ := ih (by have := abs_nonneg (value f); linarith)
    rw [i3] at hr
    obtain ⟨rfl, rfl⟩ := Datum.num.inj hr
    rw [i4, ← hv, add_comm] at hn
    have hm : ∃ j : ℤ, value f + (l.map value).sum = j * (2 : ℚ) ^ (-24 : ℤ) := ⟨j' + j, by rw [hv, hj', hj]; push_cast; ring⟩
    have ha : |value f + (l.map value).sum| ≤ |value f| + (l.map fun f => |value f|).sum := (abs_add_le _ _).trans (by linarith)
    exact ⟨hm, ha, sum_exact_many hm (ha.trans_lt hb) hn⟩

theorem value_lt (f : Float) : |value f| < 2 ^ 16 := by
  unfold value
  cases hd : half.decode f.bits.toNat with
  | nan s => norm_num
  | inf s => norm_num
  | num s m =>
    obtain ⟨-, h1, h2⟩ := half_value hd
    show |signed s m| < 2 ^ 16
    rwa [BigFloat.signed_abs h1]

/-- C120: the sum of finite halves in float64, in the order of the list, is exact if the sum of the magnitudes is below 2^29, and `NewFromFloat64` rounds it
once, to nearest, ties to even, if it is below 2^16. -/
theorem C120_sum {l : List Float} {r : F64} (h : Accumulates l r) (hb : (l.map fun f => |value f|).sum < 2 ^ 29) {v : ℚ} (hv : v = (l.map value).sum) :
    ∃ σ, double.decode r.toNat = .num σ |v| ∧ signed σ |v| = v ∧
      (|v| < 2 ^ 16 → ∃ h acc, newFromFloat64 r = .ok (h, acc) ∧ half.RoundsTo σ |v| h.bits.toNat) := by
  obtain ⟨hm, -, σ, h1, h2⟩ := accumulates_exact h hb
  rw [← hv] at hm h1 h2
  refine ⟨σ, h1, h2, fun h16 => ?_⟩
  have hn : Nearest64 r := by
    refine C06_partial r (.inl ⟨σ, |v|, h1, ?_⟩)
    rcases le_or_gt ((2 : ℚ) ^ (-14 : ℤ)) |v| with h | h
    · exact .inl ⟨h, by exact_mod_cast h16⟩
    · exact .inr (small_half hm h σ)
  obtain ⟨h, acc, e1, e2⟩ := hn
  rw [h1] at e2
  exact ⟨h, acc, e1, e2⟩

/-- C120: the sum of up to 8192 halves is such a sum. -/
theorem C120_count {l : List Float} (h : l.length ≤ 8192) : (l.map fun f => |value f|).sum < 2 ^ 29 := by
  rcases l with _ | ⟨f, l⟩
  · norm_num
  have key : ∀ l : List Float, (l.map fun f => |value f|).sum ≤ l.length * 2 ^ 16 := by
    intro l
    induction l with
    | nil => simp
    | cons g l ih =>
      simp only [List.map_cons, List.sum_cons, List.length_cons]
      have := value_lt g
      push_cast
      linarith
  have h1 := key l
  have h2 := value_lt f
  have h3 : (l.length : ℚ) ≤ 8191 := by
    simp only [List.length_cons] at h
    exact_mod_cast (by omega : l.length ≤ 8191)
  simp only [List.map_cons, List.sum_cons]
  norm_num at h1 h2 ⊢
  linarith

/-- C120: the order does not matter: two sums of the same halves are the same float64, except that the sign of a zero is left open. -/
theorem C120_order {l l' : List Float} {r r' : F64} (hp : l.Perm l') (h : Accumulates l r) (h' : Accumulates l' r')
    (hb : (l.map fun f => |value f|).sum < 2 ^ 29) : (l.map value).sum = 0 ∧ (∃ σ σ', double.decode r.toNat = .num σ 0 ∧ double.decode r'.toNat = .num σ' 0) ∨ r = r' := by
  have e := (hp.map value).sum_eq
  obtain ⟨-, -, σ, h1, h2⟩ := accumulates_exact h hb
  obtain ⟨-, -, σ', h1', h2'⟩ := accumulates_exact h' (by rwa [← (hp.map fun f => |value f|).sum_eq])
  rw [← e] at h1' h2'
  by_cases h0 : (l.map value).sum = 0
  · rw [h0, abs_zero] at h1 h1'
    exact .inl ⟨h0, σ, σ', h1, h1'⟩
  · right
    have hs : σ = σ' := by
      cases σ <;> cases σ' <;> simp only [signed, if_true, Bool.false_eq_true, if_false] at h2 h2' <;> first | rfl | (exfalso; apply h0; linarith)
    subst hs
    exact decode_inj64 (h1.trans h1'.symm) (by rw [h1]; simp)

/-- C120: there is such a sum for every list of finite halves whose magnitudes sum to less than 2^29. -/
theorem C120_exists {l : List Float} (hl : ∀ f ∈ l, ∃ s m, half.decode f.bits.toNat = .num s m) (hb : (l.map fun f => |value f|).sum < 2 ^ 29) :
    ∃ r, Accumulates l r := by
  induction l with
  | nil => exact ⟨0, .nil⟩
  | cons f l ih =>
    simp only [List.map_cons, List.sum_cons] at hb
    have hb' : (l.map fun f => |value f|).sum < 2 ^ 29 := by have := abs_nonneg (value f); linarith
    obtain ⟨r, hr⟩ := ih (fun g hg => hl g (List.mem_cons_of_mem _ hg)) hb'
    obtain ⟨⟨j, hj⟩, i2, σ, i3, i4⟩ := accumulates_exact hr hb'
    obtain ⟨s, m, hd⟩ := hl f List.mem_cons_self
    have hv : value f = signed s m := by unfold value; rw [hd]
    obtain ⟨x, hx1, hx2⟩ := C04_binary16_float64 f
    rw [hd] at hx2
    simp only at hx2
    obtain ⟨⟨j', hj'⟩, -, -⟩ := half_value hd
    obtain ⟨v, hvv⟩ : ∃ v, v = (l.map value).sum + signed s m := ⟨_, rfl⟩
    have hvj : v = ((j + j' : ℤ) : ℚ) * (2 : ℚ) ^ (-24 : ℤ) := by rw [hvv, hj, hj']; push_cast; ring
    have hlt : |v| < 2 ^ 29 := by
      rw [hvv, ← hv]
      refine (abs_add_le _ _).trans_lt ?_
      linarith
    have hp : (0 : ℚ) < (2 : ℚ) ^ (-24 : ℤ) := by positivity
    obtain ⟨c, hc⟩ := form_value (F := double) (by decide) (K := j + j') (q := -24) (v := v) (by
        rw [hvj, abs_mul, abs_of_pos hp] at hlt
        have h1 : |((j + j' : ℤ) : ℚ)| < 2 ^ 53 := by
          norm_num at hlt ⊢
          linarith
        exact_mod_cast h1) (by decide) (by rw [hvj, abs_mul, abs_of_pos hp]) (hlt.trans (lt_of_le_of_lt (by norm_num) (zpow_lt_zpow_right₀ (by norm_num) (by decide : (29 : ℤ) < double.bias + 1)))) (decide (v < 0))
    obtain ⟨n, hn, hmn, -, -⟩ := double.code_of_decode hc
    have hcode : double.signPart (decide (v < 0)) + n < 2 ^ 64 := by
      have : double.signPart (decide (v < 0)) ≤ 2 ^ 63 := by cases decide (v < 0) <;> decide
      have h2 : double.infCode < 2 ^ 63 := by decide
      omega
    refine ⟨BitVec.ofNat 64 (double.signPart (decide (v < 0)) + n), .add hr hx1 hx2 i3 ?_⟩
    rw [i4, ← hvv]
    unfold NearestDouble
    rw [BitVec.toNat_ofNat, Nat.mod_eq_of_lt hcode]
    split
    · rename_i h0
      exact ⟨_, by rw [double.decode_code _ hn, ← hmn, h0, abs_zero]⟩
    · rw [hmn]
      exact Strconv.roundsTo_self (Strconv.SizeOf.go (F := double) (size := 64) (.inr (.inr ⟨rfl, rfl⟩))) hn _

-- 2048 + 1 + 1 is 2050 in this way; adding half by half, 2048 + 1 is rounded to 2048 each time
example : ∃ r, Accumulates [⟨0x3C00⟩, ⟨0x3C00⟩, ⟨0x6800⟩] r := C120_exists (fun f hf => by
    rcases List.mem_cons.1 hf with rfl | hf
    · exact ⟨false, 1, by show half.decode 0x3C00 = _; norm_num [half, Format.decode, Format.bias]⟩
    rcases List.mem_cons.1 hf with rfl | hf
    · exact ⟨false, 1, by show half.decode 0x3C00 = _; norm_num [half, Format.decode, Format.bias]⟩
    rw [List.mem_singleton.1 hf]
    exact ⟨false, 2048, by show half.decode 0x6800 = _; norm_num [half, Format.decode, Format.bias]⟩) (C120_count (by decide))
example : newFromFloat64 0x40A0040000000000 = .ok (⟨0x6801⟩, .exact) ∧ newFromFloat64 0x40A0020000000000 = .ok (⟨0x6800⟩, .exact) := by decide +kernel
example {r : F64} (h : Accumulates [⟨0x3C00⟩, ⟨0x3C00⟩, ⟨0x6800⟩] r) := C120_sum h (C120_count (by decide)) rfl
example {r r' : F64} (h : Accumulates [⟨0x3C00⟩, ⟨0x3C00⟩, ⟨0x6800⟩] r) (h' : Accumulates [⟨0x3C00⟩, ⟨0x6800⟩, ⟨0x3C00⟩] r') :=
  C120_order (.cons _ (.swap _ _ _)) h h' (C120_count (by decide))

end GoFloat.Binary16
