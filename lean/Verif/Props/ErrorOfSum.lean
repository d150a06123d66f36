import Verif.Props.Difference
/-
C107: the rounding error of a sum is computed by two more operations (Dekker's Fast2Sum).
-/
namespace GoFloat
open Spec Strconv

variable {F : Format} {c c' e : ℕ} {s s' : Bool} {m m' v : ℚ}

/-- A sum that is a number of the format comes out exactly. -/
theorem sum_exact (hw : 2 ≤ F.w) (hr : ∀ b, ∃ d, F.decode d = .num b |signed s m + signed s' m'|) (h : IsSum F s m s' m' e) :
    ∃ b r, F.decode e = .num b r ∧ signed b r = signed s m + signed s' m' := by
  unfold IsSum at h
  split_ifs at h with h0
  · exact ⟨_, _, h, by rw [h0]; cases (s && s') <;> simp [signed]⟩
  · obtain ⟨d, hd⟩ := hr (decide (signed s m + signed s' m' < 0))
    exact ⟨_, _, round_to_self hw hd h, signed_of_decide _⟩

/-- What is not less than a number of the format is not rounded below it, and what is not more is not rounded above it. -/
theorem rounded_sides {b : Bool} {r a : ℚ} (h2 : ∀ c' s r', F.decode c' = .num s r' → |signed b v - signed b r| ≤ |signed b v - signed s r'|)
    (hd : ∃ d, F.decode d = .num b a) : (a ≤ v → a ≤ r) ∧ (v ≤ a → r ≤ a) := by
  obtain ⟨d, hd⟩ := hd
  have h := h2 _ _ _ hd
  have h5 : ∀ x : ℚ, |signed b v - signed b x| = |v - x| := fun x => by
    cases b
    · rfl
    · simp only [signed, if_true]; rw [← abs_neg]; ring_nf
  rw [h5, h5] at h
  constructor
  · intro hle
    by_contra hc
    rw [abs_of_pos (show 0 < v - r by linarith), abs_of_nonneg (show 0 ≤ v - a by linarith)] at h
    linarith
  · intro hle
    by_contra hc
    rw [abs_of_neg (show v - r < 0 by linarith), abs_of_nonpos (show v - a ≤ 0 by linarith)] at h
    linarith

/-- The sum less the larger summand is a number of the format. -/
theorem sum_less_larger (hw : 2 ≤ F.w) (hc : F.decode c = .num s m) (hc' : F.decode c' = .num s' m') (hle : m' ≤ m)
    (hlt : |signed s m + signed s' m'| < F.overflowAt) (h : IsSum F s m s' m' e) :
    ∃ b r, F.decode e = .num b r ∧ ∀ a, ∃ d, F.decode d = .num a |signed b r + signed (!s) m| := by
  have hm0 : 0 ≤ m := by obtain ⟨n, -, rfl, -⟩ := F.code_of_decode hc; exact F.magc_nonneg n
  have hm0' : 0 ≤ m' := by obtain ⟨n, -, rfl, -⟩ := F.code_of_decode hc'; exact F.magc_nonneg n
  have hp : ∀ e : ℤ, (0 : ℚ) < (2 : ℚ) ^ e := fun e => by positivity
  have hm' : ∀ a, ∃ d, F.decode d = .num a m' := fun a => by
    obtain ⟨n, hn, rfl, -, -⟩ := F.code_of_decode hc'
    exact ⟨_, F.decode_code a hn⟩
  -- if the sum is exact, the other summand is left
  by_cases hex : ∀ b, ∃ d, F.decode d = .num b |signed s m + signed s' m'|
  · obtain ⟨b, r, h1, h2⟩ := sum_exact hw hex h
    refine ⟨b, r, h1, fun a => ?_⟩
    rw [h2, signed_not, show signed s m + signed s' m' + -signed s m = signed s' m' by ring, show |signed s' m'| = m' by cases s' <;> simp [signed, abs_of_nonneg hm0']]
    exact hm' a
  -- otherwise the sum is within a factor of two of the larger summand, and of its sign
  obtain ⟨b, r, h1, -⟩ := error_value hw hc hc' hlt h
  have hr0 : 0 ≤ r := by obtain ⟨n, -, rfl, -⟩ := F.code_of_decode h1; exact F.magc_nonneg n
  have hne : ¬ signed s m + signed s' m' = 0 := fun h0 => hex (fun b => by
    rw [h0]; exact form_value (K := 0) (q := F.qmin) hw (by simp) le_rfl (by simp) (by rw [abs_zero]; exact hp _) b)
  unfold IsSum at h
  rw [if_neg hne] at h
  unfold Format.RoundsTo at h
  rw [if_neg (not_le.2 hlt)] at h
  obtain ⟨r', h1', h2, -⟩ := h
  rw [h1] at h1'
  obtain ⟨rfl, rfl⟩ := Datum.num.inj h1'
  -- the sign
  have hsg : decide (signed s m + signed s' m' < 0) = s := by
    cases s <;> cases s' <;> simp only [signed, if_true, Bool.false_eq_true, if_false] at hne ⊢
    · rw [decide_eq_false_iff_not]; linarith
    · rw [decide_eq_false_iff_not]; linarith
    · rw [decide_eq_true_eq]; exact lt_of_le_of_ne (by linarith) hne
    · rw [decide_eq_true_eq]; exact lt_of_le_of_ne (by linarith) hne
  rw [hsg] at h1 h2
  refine ⟨s, r, h1, fun a => ?_⟩
  obtain ⟨K, q, k1, k2, k3⟩ := value_form hc
  have hmK : m = |(K : ℚ)| * (2 : ℚ) ^ q := by
    rw [← abs_of_pos (hp q), ← abs_mul, ← k3]
    cases s <;> simp [signed, abs_of_nonneg hm0]
  set V := |signed s m + signed s' m'| with hV
  have hV2 : V ≤ 2 * m := by
    have := abs_add_le (signed s m) (signed s' m')
    rw [show |signed s m| = m by cases s <;> simp [signed, abs_of_nonneg hm0], show |signed s' m'| = m' by cases s' <;> simp [signed, abs_of_nonneg hm0']] at this
    linarith
  -- not more than twice
  have u2 : r ≤ 2 * m := by
    have e2 : 2 * m = |(K : ℚ)| * (2 : ℚ) ^ (q + 1) := by rw [hmK, zpow_add_one₀ (by norm_num)]; ring
    rcases lt_or_ge (2 * m) ((2 : ℚ) ^ (F.bias + 1)) with hb | hb
    · refine (rounded_sides h2 ?_).2 hV2
      have := form_value (F := F) (v := 2 * m) hw k1 (show F.qmin ≤ q + 1 by omega) (by rw [abs_of_nonneg (by linarith), e2]) (by rw [abs_of_nonneg (by linarith)]; exact hb) s
      rwa [abs_of_nonneg (by linarith)] at this
    · have := (decode_multiple hw h1).2
      linarith
  -- not less than half
  have u1 : m ≤ 2 * r := by
    by_contra hcon
    have hcon := not_le.1 hcon
    by_cases hVm : m ≤ V
    · have := (rounded_sides h2 ⟨_, hc⟩).1 hVm
      linarith
    have hVm := not_le.1 hVm
    -- the signs differ
    have hss : s' = !s := by
      by_contra hss
      have : s' = s := by cases s <;> cases s' <;> simp_all
      rw [this] at hV
      apply absurd hVm
      rw [not_lt, hV]
      cases s <;> simp only [signed, if_true, Bool.false_eq_true, if_false]
      · rw [abs_of_nonneg (by linarith)]; linarith
      · rw [abs_of_nonpos (by linarith)]; linarith
    subst hss
    by_cases hhalf : m ≤ 2 * m'
    · -- close numbers: the sum would be exact
      refine hex (fun b => close_sum hw hc hc' ?_ ?_ ?_ b)
      · rw [signed_not, abs_neg]; cases s <;> simp [signed, abs_of_nonneg hm0, abs_of_nonneg hm0'] <;> linarith
      · rw [signed_not, abs_neg]; cases s <;> simp [signed, abs_of_nonneg hm0, abs_of_nonneg hm0'] <;> linarith
      · have := mul_nonneg hm0 hm0'
        cases s <;> simp [signed] <;> linarith
    have hVe : V = m - m' := by
      rw [hV, signed_not]
      cases s <;> simp only [signed, if_true, Bool.false_eq_true, if_false]
      · rw [abs_of_nonneg (by linarith)]; ring
      · rw [abs_of_nonpos (by linarith)]; ring
    rcases eq_or_lt_of_le k2 with hq | hq
    · -- a multiple of the least number that is not larger than the summand is a number of the format
      obtain ⟨⟨j, hj⟩, -⟩ := decode_multiple hw hc
      obtain ⟨⟨j', hj'⟩, -⟩ := decode_multiple hw hc'
      have hjj : signed s m + signed (!s) m' = ((j + j' : ℤ) : ℚ) * (2 : ℚ) ^ F.qmin := by rw [hj, hj']; push_cast; ring
      have hVj : V = |((j + j' : ℤ) : ℚ)| * (2 : ℚ) ^ F.qmin := by rw [hV, hjj, abs_mul, abs_of_pos (hp _)]
      have hjk : |j + j'| < 2 ^ (F.t + 1) := by
        rw [hVj, hmK, ← hq] at hVm
        have := lt_of_mul_lt_mul_right hVm (hp _).le
        have : |j + j'| < |K| := by exact_mod_cast this
        omega
      exact hex (fun b => form_value hw hjk le_rfl hVj (by have := (decode_multiple hw hc).2; rw [← hV]; linarith) b)
    · -- the half of the summand is a number of the format
      have e2 : m / 2 = |(K : ℚ)| * (2 : ℚ) ^ (q - 1) := by rw [hmK, zpow_sub_one₀ (by norm_num)]; ring
      have hd := form_value (F := F) (v := m / 2) hw k1 (show F.qmin ≤ q - 1 by omega) (by rw [abs_of_nonneg (by linarith), e2])
        (by rw [abs_of_nonneg (by linarith)]; have := (decode_multiple hw hc).2; linarith) s
      rw [abs_of_nonneg (by linarith)] at hd
      have := (rounded_sides h2 hd).1 (by linarith)
      linarith
  obtain ⟨n, hn, rfl, -, -⟩ := F.code_of_decode hc
  refine close_sum hw h1 (F.decode_code (!s) hn) ?_ ?_ ?_ a
  · rw [signed_not, abs_neg]; cases s <;> simp [signed, abs_of_nonneg hm0, abs_of_nonneg hr0] <;> linarith
  · rw [signed_not, abs_neg]; cases s <;> simp [signed, abs_of_nonneg hm0, abs_of_nonneg hr0] <;> linarith
  · have := mul_nonneg hr0 hm0
    cases s <;> simp [signed] <;> linarith

namespace Binary16

/-- `h` is what NewFromBig returns for the sum of the numbers that Big returns for `f` and `g`, by Add of a new big.Float. -/
def Adds (f g h : Float) : Prop :=
  ∃ x y r acc, f.big = .ok (x, false) ∧ g.big = .ok (y, false) ∧ BigFloat.add ⟨0, .toNearestEven, .exact, .zero, false, 0, 0⟩ x y = .ok r ∧ newFromBig r = .ok (h, acc)

/-- Likewise the difference, by Sub. -/
def Subs (f g h : Float) : Prop :=
  ∃ x y r acc, f.big = .ok (x, false) ∧ g.big = .ok (y, false) ∧ BigFloat.sub ⟨0, .toNearestEven, .exact, .zero, false, 0, 0⟩ x y = .ok r ∧ newFromBig r = .ok (h, acc)

/-- C107 for binary16 -/
theorem C107_binary16 {f g : Float} (hf : half.decode f.bits.toNat = .num s m) (hg : half.decode g.bits.toNat = .num s' m')
    (hle : m' ≤ m) (hlt : |signed s m + signed s' m'| < half.overflowAt) :
    ∃ h t e b r b₁ r₁ b₂ r₂, Adds f g h ∧ Subs h f t ∧ Subs g t e ∧ half.decode h.bits.toNat = .num b r ∧ half.decode t.bits.toNat = .num b₁ r₁ ∧
      half.decode e.bits.toNat = .num b₂ r₂ ∧ signed b₁ r₁ = signed b r - signed s m ∧ signed b r + signed b₂ r₂ = signed s m + signed s' m' := by
  obtain ⟨x, y, hx, hy, ⟨r₀, a1, h, acc, a2, a3, -⟩, -⟩ := C104_binary16 (z := ⟨0, .toNearestEven, .exact, .zero, false, 0, 0⟩) hf hg (.inl rfl) rfl
  obtain ⟨i1, -⟩ := a3 hlt
  obtain ⟨b, r, d1, rep⟩ := sum_less_larger (by decide) hf hg hle hlt i1
  obtain ⟨b', r', d1', err⟩ := error_value (by decide) hf hg hlt i1
  rw [d1] at d1'
  obtain ⟨rfl, rfl⟩ := Datum.num.inj d1'
  have v1 : half.decode h.bits.toNat = .num b r := d1
  obtain ⟨x', y', hx', hy', -, ⟨r₁, b1, t, acc₁, b2, b3, -⟩⟩ := C104_binary16 (z := ⟨0, .toNearestEven, .exact, .zero, false, 0, 0⟩) v1 hf (.inl rfl) rfl
  obtain ⟨d, hd⟩ := rep false
  obtain ⟨i2, -⟩ := b3 (value_lt_overflow (by decide) hd)
  obtain ⟨b₁, q₁, d2, e2⟩ := sum_exact (by decide) rep i2
  have v2 : half.decode t.bits.toNat = .num b₁ q₁ := d2
  have e3 : signed s' m' + signed (!b₁) q₁ = signed s m + signed s' m' - signed b r := by rw [signed_not, e2, signed_not]; ring
  obtain ⟨x₂, y₂, hx₂, hy₂, -, ⟨r₂, c1, e, acc₂, c2, c3, -⟩⟩ := C104_binary16 (z := ⟨0, .toNearestEven, .exact, .zero, false, 0, 0⟩) hg v2 (.inl rfl) rfl
  obtain ⟨d', hd'⟩ := err false
  rw [e3] at c3
  obtain ⟨i3, -⟩ := c3 (value_lt_overflow (by decide) hd')
  obtain ⟨b₂, q₂, d3, e4⟩ := sum_exact (by decide) (by rw [e3]; exact err) i3
  refine ⟨h, t, e, b, r, b₁, q₁, b₂, q₂, ⟨x, y, r₀, acc, hx, hy, a1, a2⟩, ⟨x', y', r₁, acc₁, hx', hy', b1, b2⟩, ⟨x₂, y₂, r₂, acc₂, hx₂, hy₂, c1, c2⟩, v1, v2,
    d3, by rw [e2, signed_not]; ring, by rw [e4, e3]; ring⟩

end Binary16

namespace Binary128

/-- `h` is what NewFromBig returns for the sum of the numbers that Big returns for `f` and `g`, by Add of a new big.Float. -/
def Adds (f g h : Float) : Prop :=
  ∃ x y r acc, f.big = .ok (x, false) ∧ g.big = .ok (y, false) ∧ BigFloat.add ⟨0, .toNearestEven, .exact, .zero, false, 0, 0⟩ x y = .ok r ∧ newFromBig r = .ok (h, acc)

/-- Likewise the difference, by Sub. -/
def Subs (f g h : Float) : Prop :=
  ∃ x y r acc, f.big = .ok (x, false) ∧ g.big = .ok (y, false) ∧ BigFloat.sub ⟨0, .toNearestEven, .exact, .zero, false, 0, 0⟩ x y = .ok r ∧ newFromBig r = .ok (h, acc)

/-- C107 for binary128 -/
theorem C107_binary128 {f g : Float} (hf : quad.decode f.code = .num s m) (hg : quad.decode g.code = .num s' m')
    (hle : m' ≤ m) (hlt : |signed s m + signed s' m'| < quad.overflowAt) :
    ∃ h t e b r b₁ r₁ b₂ r₂, Adds f g h ∧ Subs h f t ∧ Subs g t e ∧ quad.decode h.code = .num b r ∧ quad.decode t.code = .num b₁ r₁ ∧
      quad.decode e.code = .num b₂ r₂ ∧ signed b₁ r₁ = signed b r - signed s m ∧ signed b r + signed b₂ r₂ = signed s m + signed s' m' := by
  obtain ⟨x, y, hx, hy, ⟨r₀, a1, h, acc, a2, a3, -⟩, -⟩ := C104_binary128 (z := ⟨0, .toNearestEven, .exact, .zero, false, 0, 0⟩) hf hg (.inl rfl) rfl
  obtain ⟨i1, -⟩ := a3 hlt
  obtain ⟨b, r, d1, rep⟩ := sum_less_larger (by decide) hf hg hle hlt i1
  obtain ⟨b', r', d1', err⟩ := error_value (by decide) hf hg hlt i1
  rw [d1] at d1'
  obtain ⟨rfl, rfl⟩ := Datum.num.inj d1'
  have v1 : quad.decode h.code = .num b r := d1
  obtain ⟨x', y', hx', hy', -, ⟨r₁, b1, t, acc₁, b2, b3, -⟩⟩ := C104_binary128 (z := ⟨0, .toNearestEven, .exact, .zero, false, 0, 0⟩) v1 hf (.inl rfl) rfl
  obtain ⟨d, hd⟩ := rep false
  obtain ⟨i2, -⟩ := b3 (value_lt_overflow (by decide) hd)
  obtain ⟨b₁, q₁, d2, e2⟩ := sum_exact (by decide) rep i2
  have v2 : quad.decode t.code = .num b₁ q₁ := d2
  have e3 : signed s' m' + signed (!b₁) q₁ = signed s m + signed s' m' - signed b r := by rw [signed_not, e2, signed_not]; ring
  obtain ⟨x₂, y₂, hx₂, hy₂, -, ⟨r₂, c1, e, acc₂, c2, c3, -⟩⟩ := C104_binary128 (z := ⟨0, .toNearestEven, .exact, .zero, false, 0, 0⟩) hg v2 (.inl rfl) rfl
  obtain ⟨d', hd'⟩ := err false
  rw [e3] at c3
  obtain ⟨i3, -⟩ := c3 (value_lt_overflow (by decide) hd')
  obtain ⟨b₂, q₂, d3, e4⟩ := sum_exact (by decide) (by rw [e3]; exact err) i3
  refine ⟨h, t, e, b, r, b₁, q₁, b₂, q₂, ⟨x, y, r₀, acc, hx, hy, a1, a2⟩, ⟨x', y', r₁, acc₁, hx', hy', b1, b2⟩, ⟨x₂, y₂, r₂, acc₂, hx₂, hy₂, c1, c2⟩, v1, v2,
    d3, by rw [e2, signed_not]; ring, by rw [e4, e3]; ring⟩

end Binary128

namespace Float80x86

/-- `h` is what NewFromBig returns for the sum of the numbers that Big returns for `f` and `g`, by Add of a new big.Float. -/
def Adds (f g h : Float) : Prop :=
  ∃ x y r acc, f.big = .ok (x, false) ∧ g.big = .ok (y, false) ∧ BigFloat.add ⟨0, .toNearestEven, .exact, .zero, false, 0, 0⟩ x y = .ok r ∧ newFromBig r = .ok (h, acc)

/-- Likewise the difference, by Sub. -/
def Subs (f g h : Float) : Prop :=
  ∃ x y r acc, f.big = .ok (x, false) ∧ g.big = .ok (y, false) ∧ BigFloat.sub ⟨0, .toNearestEven, .exact, .zero, false, 0, 0⟩ x y = .ok r ∧ newFromBig r = .ok (h, acc)

/-- C107 for float80x86 -/
theorem C107_float80x86 {f g : Float} (hf : f.val = .num s m) (hg : g.val = .num s' m')
    (hle : m' ≤ m) (hlt : |signed s m + signed s' m'| < extended.overflowAt) :
    ∃ h t e b r b₁ r₁ b₂ r₂, Adds f g h ∧ Subs h f t ∧ Subs g t e ∧ h.val = .num b r ∧ t.val = .num b₁ r₁ ∧
      e.val = .num b₂ r₂ ∧ signed b₁ r₁ = signed b r - signed s m ∧ signed b r + signed b₂ r₂ = signed s m + signed s' m' := by
  obtain ⟨c, -, hc⟩ := exists_canonical f (fun _ h => by rw [hf] at h; cases h)
  obtain ⟨c', -, hc'⟩ := exists_canonical g (fun _ h => by rw [hg] at h; cases h)
  rw [hf] at hc; rw [hg] at hc'
  obtain ⟨x, y, hx, hy, ⟨r₀, a1, h, acc, a2, a3, -⟩, -⟩ := C104_float80x86 (z := ⟨0, .toNearestEven, .exact, .zero, false, 0, 0⟩) hf hg (.inl rfl) rfl
  obtain ⟨cn1, i1, -⟩ := a3 hlt
  obtain ⟨b, r, d1, rep⟩ := sum_less_larger (by decide) hc hc' hle hlt i1
  obtain ⟨b', r', d1', err⟩ := error_value (by decide) hc hc' hlt i1
  rw [d1] at d1'
  obtain ⟨rfl, rfl⟩ := Datum.num.inj d1'
  have v1 : h.val = .num b r := (val_canonical cn1).trans d1
  obtain ⟨x', y', hx', hy', -, ⟨r₁, b1, t, acc₁, b2, b3, -⟩⟩ := C104_float80x86 (z := ⟨0, .toNearestEven, .exact, .zero, false, 0, 0⟩) v1 hf (.inl rfl) rfl
  obtain ⟨d, hd⟩ := rep false
  obtain ⟨cn2, i2, -⟩ := b3 (value_lt_overflow (by decide) hd)
  obtain ⟨b₁, q₁, d2, e2⟩ := sum_exact (by decide) rep i2
  have v2 : t.val = .num b₁ q₁ := (val_canonical cn2).trans d2
  have e3 : signed s' m' + signed (!b₁) q₁ = signed s m + signed s' m' - signed b r := by rw [signed_not, e2, signed_not]; ring
  obtain ⟨x₂, y₂, hx₂, hy₂, -, ⟨r₂, c1, e, acc₂, c2, c3, -⟩⟩ := C104_float80x86 (z := ⟨0, .toNearestEven, .exact, .zero, false, 0, 0⟩) hg v2 (.inl rfl) rfl
  obtain ⟨d', hd'⟩ := err false
  rw [e3] at c3
  obtain ⟨cn3, i3, -⟩ := c3 (value_lt_overflow (by decide) hd')
  obtain ⟨b₂, q₂, d3, e4⟩ := sum_exact (by decide) (by rw [e3]; exact err) i3
  refine ⟨h, t, e, b, r, b₁, q₁, b₂, q₂, ⟨x, y, r₀, acc, hx, hy, a1, a2⟩, ⟨x', y', r₁, acc₁, hx', hy', b1, b2⟩, ⟨x₂, y₂, r₂, acc₂, hx₂, hy₂, c1, c2⟩, v1, v2,
    (val_canonical cn3).trans d3, by rw [e2, signed_not]; ring, by rw [e4, e3]; ring⟩

end Float80x86

theorem four_le_overflow (hb : 2 ≤ F.bias) : 4 ≤ F.overflowAt := by
  unfold Format.overflowAt
  have h1 : (2 : ℚ) ^ (2 : ℤ) ≤ (2 : ℚ) ^ F.bias := zpow_le_zpow_right₀ (by norm_num) hb
  have h2 : 1 / (2 : ℚ) ^ (F.t + 1) ≤ 1 := by rw [div_le_one (by positivity)]; exact one_le_pow₀ (by norm_num)
  norm_num at h1
  nlinarith

theorem twice_lt (hb : 2 ≤ F.bias) : |signed true (11 / 8) + signed true (11 / 8)| < F.overflowAt :=
  lt_of_lt_of_le (by norm_num [signed]) (four_le_overflow hb)

-- 2048 and 11/8 as halves; -11/8 twice as a quadruple and as an extended float
example := Binary16.C107_binary16 (f := ⟨0x6800⟩) (g := ⟨0x3D80⟩) (s := false) (s' := false) (m := 2048) (m' := 11 / 8)
  (by show half.decode 0x6800 = _; norm_num [half, Format.decode, Format.bias]) (by show half.decode 0x3D80 = _; norm_num [half, Format.decode, Format.bias]) (by norm_num)
  (by norm_num [half, Format.overflowAt, Format.bias, signed])
example := Binary128.C107_binary128 (f := ⟨0xBFFF600000000000, 0⟩) (g := ⟨0xBFFF600000000000, 0⟩) Sample.x_quad Sample.x_quad le_rfl (twice_lt (by decide))
example := Float80x86.C107_float80x86 (f := ⟨0xBFFF, 0xB000000000000000⟩) (g := ⟨0xBFFF, 0xB000000000000000⟩) Sample.x_extended Sample.x_extended le_rfl (twice_lt (by decide))

/-- The order matters: with 11/8 first and 2048 second the error is lost. Their sum is 2050, and 0 comes out instead of -5/8. -/
theorem Binary16.C107_order : ∃ h t e : Binary16.Float, Adds ⟨0x3D80⟩ ⟨0x6800⟩ h ∧ Subs h ⟨0x3D80⟩ t ∧ Subs ⟨0x6800⟩ t e ∧
    half.decode h.bits.toNat = .num false 2050 ∧ half.decode e.bits.toNat = .num false 0 := by
  refine ⟨⟨0x6801⟩, ⟨0x6800⟩, ⟨0⟩, ⟨_, _, _, _, rfl, rfl, rfl, rfl⟩, ⟨_, _, _, _, rfl, rfl, rfl, rfl⟩, ⟨_, _, _, _, rfl, rfl, rfl, rfl⟩, ?_, ?_⟩
  · show half.decode 0x6801 = _; norm_num [half, Format.decode, Format.bias]
  · show half.decode 0 = _; norm_num [half, Format.decode, Format.bias]

end GoFloat
