import Verif.Proofs.Sample
import Verif.Proofs.IsExact
/-
Properties of float.go.
-/
namespace GoFloat
open Spec Strconv

variable {W : ℕ} {x : BigFloat} {s : Bool} {m : ℚ}

theorem double_bounds : 1 ≤ double.t ∧ 2 ≤ double.w ∧ double.w ≤ 30 := by decide
theorem single_bounds : 1 ≤ single.t ∧ 2 ≤ single.w ∧ single.w ≤ 30 := by decide

theorem float64_exact (hx : x.WF) (hd : x.datum = .num s m) : x.float64.2 = .exact ↔ double.decode x.float64.1.toNat = .num s m := by
  obtain ⟨b1, b2, b3⟩ := double_bounds
  rw [float64_toNat hx]
  exact exact_iff double b1 b2 b3 hx hd

theorem float32_exact (hx : x.WF) (hd : x.datum = .num s m) : x.float32.2 = .exact ↔ single.decode x.float32.1.toNat = .num s m := by
  obtain ⟨b1, b2, b3⟩ := single_bounds
  rw [float32_toNat hx]
  exact exact_iff single b1 b2 b3 hx hd

theorem float64_of (hx : x.WF) (hd : x.datum = .num s m) {val : F64} (hv : double.decode val.toNat = .num s m) : x.float64 = (val, .exact) := by
  obtain ⟨b1, b2, b3⟩ := double_bounds
  obtain ⟨h1, h2⟩ := toIEEE_widen (F := double) b2 b2 b3 le_rfl le_rfl le_rfl hx (c := val.toNat) (by rw [hd, hv])
  have h3 : x.float64.1 = val := by
    apply decode_inj64
    · rw [float64_toNat hx, h1]
    · rw [float64_toNat hx, h1, hv]
      simp
  have h4 : x.float64.2 = .exact := h2
  rw [← h3, ← h4]

theorem float32_of (hx : x.WF) (hd : x.datum = .num s m) {val : F32} (hv : single.decode val.toNat = .num s m) : x.float32 = (val, .exact) := by
  obtain ⟨b1, b2, b3⟩ := single_bounds
  obtain ⟨h1, h2⟩ := toIEEE_widen (F := single) b2 b2 b3 le_rfl le_rfl le_rfl hx (c := val.toNat) (by rw [hd, hv])
  have h3 : x.float32.1 = val := by
    apply decode_inj32
    · rw [float32_toNat hx, h1]
    · rw [float32_toNat hx, h1, hv]
      simp
  have h4 : x.float32.2 = .exact := h2
  rw [← h3, ← h4]

theorem via64 {g : F64 → Go Bool} (hx : x.WF) (hd : x.datum = .num s m) {P : F64 → Prop} (hg : ∀ f, ∃ b, g f = .ok b ∧ (b = true ↔ P f)) :
    ∃ b, (do
      let (f, acc) := x.float64
      if acc ≠ .exact then return false
      g f : Go Bool) = .ok b ∧ (b = true ↔ ∃ val : F64, double.decode val.toNat = .num s m ∧ P val) := by
  have he := float64_exact hx hd
  by_cases h : x.float64.2 = .exact
  · obtain ⟨b, h1, h2⟩ := hg x.float64.1
    refine ⟨b, ?_, ?_⟩
    · rw [← h1]
      show (if x.float64.2 ≠ .exact then _ else _) = _
      rw [if_neg (not_not.2 h)]
      rfl
    · rw [h2]
      constructor
      · intro hp
        exact ⟨_, he.1 h, hp⟩
      · rintro ⟨val, hv, hp⟩
        rw [float64_of hx hd hv]
        exact hp
  · refine ⟨false, ?_, ?_⟩
    · show (if x.float64.2 ≠ .exact then _ else _) = _
      rw [if_pos h]
      rfl
    · simp only [Bool.false_eq_true, false_iff, not_exists, not_and]
      intro val hv
      rw [float64_of hx hd hv] at h
      exact absurd rfl h

theorem via32 {g : F32 → Go Bool} (hx : x.WF) (hd : x.datum = .num s m) {P : F32 → Prop} (hg : ∀ f, ∃ b, g f = .ok b ∧ (b = true ↔ P f)) :
    ∃ b, (do
      let (f, acc) := x.float32
      if acc ≠ .exact then return false
      g f : Go Bool) = .ok b ∧ (b = true ↔ ∃ val : F32, single.decode val.toNat = .num s m ∧ P val) := by
  have he := float32_exact hx hd
  by_cases h : x.float32.2 = .exact
  · obtain ⟨b, h1, h2⟩ := hg x.float32.1
    refine ⟨b, ?_, ?_⟩
    · rw [← h1]
      show (if x.float32.2 ≠ .exact then _ else _) = _
      rw [if_neg (not_not.2 h)]
      rfl
    · rw [h2]
      constructor
      · intro hp
        exact ⟨_, he.1 h, hp⟩
      · rintro ⟨val, hv, hp⟩
        rw [float32_of hx hd hv]
        exact hp
  · refine ⟨false, ?_, ?_⟩
    · show (if x.float32.2 ≠ .exact then _ else _) = _
      rw [if_pos h]
      rfl
    · simp only [Bool.false_eq_true, false_iff, not_exists, not_and]
      intro val hv
      rw [float32_of hx hd hv] at h
      exact absurd rfl h

/-- C35: what IsExact64 decides for a finite number: whether it is a float64 whose shortest decimal is, to 101 digits, the number. -/
theorem C35_decides64 (hW : W = 32 ∨ W = 64) (hx : x.WF) (hd : x.datum = .num s m) :
    ∃ b, isExact64 W x = .ok b ∧ (b = true ↔ ∃ val : F64, double.decode val.toNat = .num s m ∧ PrintsAs W 64 val s m) :=
  via64 hx hd fun f => verdict hW (Or.inr (Or.inr rfl)) f hx hd

example := C35_decides64 (W := 64) (.inr rfl) Sample.x_wf Sample.x_datum

/-- C35: what IsExact32 decides for a finite number. -/
theorem C35_decides32 (hW : W = 32 ∨ W = 64) (hx : x.WF) (hd : x.datum = .num s m) :
    ∃ b, isExact32 W x = .ok b ∧ (b = true ↔ ∃ val : F32, single.decode val.toNat = .num s m ∧ PrintsAs W 32 (f32to64 val) s m) :=
  via32 hx hd fun f => verdict hW (Or.inr (Or.inl rfl)) (f32to64 f) hx hd

example := C35_decides32 (W := 64) (.inr rfl) Sample.x_wf Sample.x_datum

/-- C35: what IsExact16 decides for a finite number: whether it is a *float64* that is printed like the number when it is
first rounded to a binary16. -/
theorem C35_decides16 (hW : W = 32 ∨ W = 64) (hx : x.WF) (hd : x.datum = .num s m) :
    ∃ b, isExact16 W x = .ok b ∧ (b = true ↔ ∃ val : F64, double.decode val.toNat = .num s m ∧ PrintsAs W 16 val s m) :=
  via64 hx hd fun f => verdict hW (Or.inl rfl) f hx hd

example := C35_decides16 (W := 64) (.inr rfl) Sample.x_wf Sample.x_datum

theorem trimZeros_inf {x : BigFloat} {s : Bool} (hd : x.datum = .inf s) : trimZeros (x.textE 100) = .error .noExponent := by
  cases hf : x.form with
  | inf =>
    unfold BigFloat.textE
    simp only [hf]
    cases x.neg <;> decide +kernel
  | zero =>
    unfold BigFloat.datum at hd
    rw [hf] at hd
    cases hd
  | finite =>
    unfold BigFloat.datum at hd
    rw [hf] at hd
    cases hd

theorem infinite_panics (hW : W = 32 ∨ W = 64) {size : ℤ} (hsize : size = 16 ∨ size = 32 ∨ size = 64) (val : F64) (hd : x.datum = .inf s) :
    (do
      let s1 ← formatFloat W val 'e' (-1) size
      let s2 ← trimZeros (x.textE 100)
      return s1 == s2 : Go Bool) = .error .noExponent := by
  obtain ⟨t, h1, -⟩ := format_e hW hsize val
  rw [h1, ok_bind, trimZeros_inf hd]
  rfl

/-- C36: each of the three functions panics for an infinity. -/
theorem C36_infinite (hW : W = 32 ∨ W = 64) (hd : x.datum = .inf s) :
    isExact16 W x = .error .noExponent ∧ isExact32 W x = .error .noExponent ∧ isExact64 W x = .error .noExponent := by
  have hf : x.form = .inf := by
    unfold BigFloat.datum at hd
    split at hd <;> first | assumption | cases hd
  have e64 : x.float64.2 = .exact := by
    show (x.toIEEE double.t double.w).2 = _
    rw [toIEEE_inf double hf]
  have e32 : x.float32.2 = .exact := by
    show (x.toIEEE single.t single.w).2 = _
    rw [toIEEE_inf single hf]
  refine ⟨?_, ?_, ?_⟩
  · show (if x.float64.2 ≠ .exact then _ else _) = _
    rw [if_neg (not_not.2 e64)]
    exact infinite_panics hW (Or.inl rfl) _ hd
  · show (if x.float32.2 ≠ .exact then _ else _) = _
    rw [if_neg (not_not.2 e32)]
    exact infinite_panics hW (Or.inr (Or.inl rfl)) _ hd
  · show (if x.float64.2 ≠ .exact then _ else _) = _
    rw [if_neg (not_not.2 e64)]
    exact infinite_panics hW (Or.inr (Or.inr rfl)) _ hd

example := C36_infinite (W := 64) (.inr rfl) Sample.inf_datum

theorem datum_cases (x : BigFloat) : (∃ s m, x.datum = .num s m) ∨ ∃ s, x.datum = .inf s := by
  unfold BigFloat.datum
  split
  · exact Or.inl ⟨_, _, rfl⟩
  · exact Or.inr ⟨_, rfl⟩
  · exact Or.inl ⟨_, _, rfl⟩

/-- C33: a number that IsExact64 accepts is the value of a float64, sign included. -/
theorem C33_isExact64 (hW : W = 32 ∨ W = 64) (hx : x.WF) (h : isExact64 W x = .ok true) :
    ∃ f : F64, double.decode f.toNat = x.datum ∧ ∃ s m, x.datum = .num s m := by
  rcases datum_cases x with ⟨s, m, hd⟩ | ⟨s, hd⟩
  · obtain ⟨b, h1, h2⟩ := C35_decides64 hW hx hd
    rw [h] at h1
    injection h1 with h1
    obtain ⟨f, hf, -⟩ := h2.1 h1.symm
    exact ⟨f, by rw [hf, hd], s, m, hd⟩
  · rw [(C36_infinite hW hd).2.2] at h
    cases h

example := C33_isExact64 (W := 64) (.inr rfl) Sample.x_wf (by decide +kernel)

/-- C33: a number that IsExact32 accepts is the value of a float32, sign included. -/
theorem C33_isExact32 (hW : W = 32 ∨ W = 64) (hx : x.WF) (h : isExact32 W x = .ok true) :
    ∃ f : F32, single.decode f.toNat = x.datum ∧ ∃ s m, x.datum = .num s m := by
  rcases datum_cases x with ⟨s, m, hd⟩ | ⟨s, hd⟩
  · obtain ⟨b, h1, h2⟩ := C35_decides32 hW hx hd
    rw [h] at h1
    injection h1 with h1
    obtain ⟨f, hf, -⟩ := h2.1 h1.symm
    exact ⟨f, by rw [hf, hd], s, m, hd⟩
  · rw [(C36_infinite hW hd).2.1] at h
    cases h

example := C33_isExact32 (W := 64) (.inr rfl) Sample.x_wf (by decide +kernel)

/-- 8210 as a big.Float. -/
def big8210 : BigFloat := ⟨53, .toNearestEven, .exact, .finite, false, 8210, 14⟩
/-- 8208 as a big.Float. -/
def big8208 : BigFloat := ⟨53, .toNearestEven, .exact, .finite, false, 8208, 14⟩
/-- 65504, the largest binary16 value, as a big.Float. -/
def big65504 : BigFloat := ⟨53, .toNearestEven, .exact, .finite, false, 65504, 16⟩
/-- The float32 nearest to 0.1 as a big.Float. -/
def bigTenth32 : BigFloat := ⟨24, .toNearestEven, .exact, .finite, false, 13421773, -3⟩
/-- The float64 nearest to 0.1 as a big.Float. -/
def bigTenth64 : BigFloat := ⟨53, .toNearestEven, .exact, .finite, false, 0x1999999999999A, -3⟩

theorem big8210_wf : big8210.WF := ⟨by decide, by decide, by decide, by decide, by decide, fun _ => ⟨8210, 0, by decide, by decide⟩⟩
theorem big8208_wf : big8208.WF := ⟨by decide, by decide, by decide, by decide, by decide, fun _ => ⟨8208, 0, by decide, by decide⟩⟩
theorem big65504_wf : big65504.WF := ⟨by decide, by decide, by decide, by decide, by decide, fun _ => ⟨65504, 0, by decide, by decide⟩⟩
theorem bigTenth32_wf : bigTenth32.WF := ⟨by decide, by decide, by decide, by decide, by decide, fun _ => ⟨13421773, 0, by decide, by decide⟩⟩
theorem bigTenth64_wf : bigTenth64.WF := ⟨by decide, by decide, by decide, by decide, by decide, fun _ => ⟨0x1999999999999A, 0, by decide, by decide⟩⟩

theorem big8210_datum : big8210.datum = .num false 8210 := by
  show Datum.num false ((8210 : ℕ) / 2 ^ bitLen 8210 * (2 : ℚ) ^ (14 : ℤ)) = _
  rw [show bitLen 8210 = 14 by decide]
  norm_num
theorem big8208_datum : big8208.datum = .num false 8208 := by
  show Datum.num false ((8208 : ℕ) / 2 ^ bitLen 8208 * (2 : ℚ) ^ (14 : ℤ)) = _
  rw [show bitLen 8208 = 14 by decide]
  norm_num
theorem big65504_datum : big65504.datum = .num false 65504 := by
  show Datum.num false ((65504 : ℕ) / 2 ^ bitLen 65504 * (2 : ℚ) ^ (16 : ℤ)) = _
  rw [show bitLen 65504 = 16 by decide]
  norm_num
theorem bigTenth32_datum : bigTenth32.datum = .num false (13421773 / 2 ^ 27) := by
  show Datum.num false ((13421773 : ℕ) / 2 ^ bitLen 13421773 * (2 : ℚ) ^ (-3 : ℤ)) = _
  rw [show bitLen 13421773 = 24 by decide]
  norm_num
theorem bigTenth64_datum : bigTenth64.datum = .num false (0x1999999999999A / 2 ^ 56) := by
  show Datum.num false ((0x1999999999999A : ℕ) / 2 ^ bitLen 0x1999999999999A * (2 : ℚ) ^ (-3 : ℤ)) = _
  rw [show bitLen 0x1999999999999A = 53 by decide]
  norm_num

/-- C34 in full. -/
def C34_full : Prop := ∀ W : ℕ, (W = 32 ∨ W = 64) → ∀ x : BigFloat, x.WF → isExact16 W x = .ok true → ∃ c, half.decode c = x.datum

/-- C34 is false: IsExact16 accepts 8210, which lies between the binary16 values 8208 and 8216. -/
theorem C34_false : ¬ C34_full := by
  intro h
  obtain ⟨c, hc⟩ := h 64 (Or.inr rfl) big8210 big8210_wf (by decide +kernel)
  rw [big8210_datum] at hc
  obtain ⟨n, -, hn, -⟩ := half.code_of_decode hc
  have e1 : half.magc 28674 = 8208 := by norm_num [half, Format.magc, Format.qmin, Format.bias]
  have e2 : half.magc 28675 = 8216 := by norm_num [half, Format.magc, Format.qmin, Format.bias]
  have h1 : 28674 < n := half.magc_strictMono.lt_iff_lt.1 (by rw [e1, ← hn]; norm_num)
  have h2 : n < 28675 := half.magc_strictMono.lt_iff_lt.1 (by rw [e2, ← hn]; norm_num)
  omega

/-- C35 in full. -/
def C35_full : Prop :=
  ∀ W : ℕ, (W = 32 ∨ W = 64) → ∀ x : BigFloat, x.WF → ∀ s m, x.datum = .num s m →
    ((∃ c, half.decode c = .num s m) → isExact16 W x = .ok true) ∧
    ((∃ c, single.decode c = .num s m) → isExact32 W x = .ok true) ∧
    ((∃ c, double.decode c = .num s m) → isExact64 W x = .ok true)

/-- C35 is false: IsExact16 rejects 65504, the largest binary16 value. -/
theorem C35_false16 : half.decode 0x7BFF = .num false 65504 ∧ isExact16 64 big65504 = .ok false := by
  refine ⟨?_, by decide +kernel⟩
  norm_num [half, Format.decode, Format.bias]

/-- C35 is false: IsExact32 rejects the float32 nearest to 0.1. -/
theorem C35_false32 : single.decode 0x3DCCCCCD = .num false (13421773 / 2 ^ 27) ∧ isExact32 64 bigTenth32 = .ok false := by
  refine ⟨?_, by decide +kernel⟩
  norm_num [single, Format.decode, Format.bias]

/-- C35 is false: IsExact64 rejects the float64 nearest to 0.1. -/
theorem C35_false64 : double.decode 0x3FB999999999999A = .num false (0x1999999999999A / 2 ^ 56) ∧ isExact64 64 bigTenth64 = .ok false := by
  refine ⟨?_, by decide +kernel⟩
  norm_num [double, Format.decode, Format.bias]

theorem C35_false : ¬ C35_full := by
  intro h
  have := (h 64 (Or.inr rfl) _ bigTenth64_wf _ _ bigTenth64_datum).2.2 ⟨_, C35_false64.1⟩
  rw [C35_false64.2] at this
  cases this

theorem widen_double {F : Format} {size : ℤ} (hS : SizeOf F size) {c : ℕ} (hc : F.decode c = .num s m) : ∃ val : F64, double.decode val.toNat = .num s m := by
  obtain ⟨n, hn, rfl, -⟩ := F.code_of_decode hc
  have hF : 2 ≤ F.w ∧ F.t ≤ double.t ∧ double.qmin ≤ F.qmin ∧ F.bias ≤ double.bias := by
    rcases hS with ⟨rfl, -⟩ | ⟨rfl, -⟩ | ⟨rfl, -⟩ <;> decide
  obtain ⟨n', h1, h2⟩ := magc_widen (G := double) hF.1 (by decide) hF.2.1 hF.2.2.1 hF.2.2.2 hn
  refine ⟨BitVec.ofNat 64 (double.signPart s + n'), ?_⟩
  rw [BitVec.toNat_ofNat, Nat.mod_eq_of_lt (show _ < 2 ^ 64 from code_lt_size double h1 s), double.decode_code s h1, h2]

theorem narrow_single {c : ℕ} (hc : single.decode c = .num s m) : ∃ val : F32, single.decode val.toNat = .num s m := by
  obtain ⟨n, hn, rfl, -⟩ := single.code_of_decode hc
  refine ⟨BitVec.ofNat 32 (single.signPart s + n), ?_⟩
  rw [BitVec.toNat_ofNat, Nat.mod_eq_of_lt (show _ < 2 ^ 32 from code_lt_size single hn s), single.decode_code s hn]

theorem f32to64_num {val : F32} (hv : single.decode val.toNat = .num s m) : double.decode (f32to64 val).toNat = .num s m := by
  rw [(f32to64_decode val).2 (by rintro ⟨s', h⟩; rw [hv] at h; cases h), hv]

theorem accept16 (hW : W = 32 ∨ W = 64) (hx : x.WF) (hd : x.datum = .num s m) {c : ℕ} (hc : half.decode c = .num s m)
    (hp : ∀ val, double.decode val.toNat = .num s m → PrintsAs W 16 val s m) : isExact16 W x = .ok true := by
  obtain ⟨val, hv⟩ := widen_double (Or.inl ⟨rfl, rfl⟩) hc
  obtain ⟨b, h1, h2⟩ := C35_decides16 hW hx hd
  rw [h1, h2.2 ⟨val, hv, hp val hv⟩]

theorem accept32 (hW : W = 32 ∨ W = 64) (hx : x.WF) (hd : x.datum = .num s m) {c : ℕ} (hc : single.decode c = .num s m)
    (hp : ∀ val, double.decode val.toNat = .num s m → PrintsAs W 32 val s m) : isExact32 W x = .ok true := by
  obtain ⟨val, hv⟩ := narrow_single hc
  obtain ⟨b, h1, h2⟩ := C35_decides32 hW hx hd
  rw [h1, h2.2 ⟨val, hv, hp _ (f32to64_num hv)⟩]

theorem accept64 (hW : W = 32 ∨ W = 64) (hx : x.WF) (hd : x.datum = .num s m) {c : ℕ} (hc : double.decode c = .num s m)
    (hp : ∀ val, double.decode val.toNat = .num s m → PrintsAs W 64 val s m) : isExact64 W x = .ok true := by
  obtain ⟨val, hv⟩ := widen_double (Or.inr (Or.inr ⟨rfl, rfl⟩)) hc
  obtain ⟨b, h1, h2⟩ := C35_decides64 hW hx hd
  rw [h1, h2.2 ⟨val, hv, hp val hv⟩]

/-- C35 for numbers with at most 3, 7 and 15 significant decimal digits: IsExact16, IsExact32 and IsExact64 accept every binary16,
float32 and float64 among them. Missing, because false: numbers with more digits (see `C35_rejects_partial`). -/
theorem C35_digits_partial (hW : W = 32 ∨ W = 64) (hx : x.WF) (hd : x.datum = .num s m) :
    (FitsDigits 3 m → (∃ c, half.decode c = .num s m) → isExact16 W x = .ok true) ∧
    (FitsDigits 7 m → (∃ c, single.decode c = .num s m) → isExact32 W x = .ok true) ∧
    (FitsDigits 15 m → (∃ c, double.decode c = .num s m) → isExact64 W x = .ok true) := by
  refine ⟨fun h ⟨c, hc⟩ => ?_, fun h ⟨c, hc⟩ => ?_, fun h ⟨c, hc⟩ => ?_⟩
  · exact accept16 hW hx hd hc fun val hv => few_digits hW (Or.inl ⟨rfl, rfl⟩) hc hv (by decide) h
  · exact accept32 hW hx hd hc fun val hv => few_digits hW (Or.inr (Or.inl ⟨rfl, rfl⟩)) hc hv (by decide) h
  · exact accept64 hW hx hd hc fun val hv => few_digits hW (Or.inr (Or.inr ⟨rfl, rfl⟩)) hc hv (by decide) h

-- 1.375 has four digits
example := (C35_digits_partial (W := 64) (.inr rfl) Sample.x_wf Sample.x_datum).2.1 ⟨1375, -3, by norm_num, by norm_num⟩ ⟨_, Sample.x_single⟩

theorem signed_rep {F : Format} (hw : 2 ≤ F.w) {N : ℕ} {q : ℤ} (hN : N < 2 ^ (F.t + 1)) (hq : F.qmin ≤ q) (hlt : (N : ℚ) * 2 ^ q < 2 ^ (F.bias + 1)) (s : Bool) :
    ∃ c, F.decode c = .num s (N * (2 : ℚ) ^ q) := by
  obtain ⟨n, h1, h2⟩ := exists_code F hw hN hq hlt
  exact ⟨F.signPart s + n, by rw [F.decode_code s h1, h2]⟩

theorem integer_rep {F : Format} {size : ℤ} (hS : SizeOf F size) {i : ℕ} (hi : i ≤ 2 ^ (F.t + 1)) (s : Bool) : ∃ c, F.decode c = .num s i := by
  have hF : 2 ≤ F.w ∧ F.qmin ≤ 0 ∧ ((F.t : ℤ) + 1 < F.bias + 1) := by
    rcases hS with ⟨rfl, -⟩ | ⟨rfl, -⟩ | ⟨rfl, -⟩ <;> decide
  have hlt : ((2 : ℚ) ^ (F.t + 1)) < 2 ^ (F.bias + 1) := by
    rw [← zpow_natCast]
    exact zpow_lt_zpow_right₀ (by norm_num) (by push_cast; omega)
  rcases hi.eq_or_lt with rfl | h
  · obtain ⟨c, hc⟩ := signed_rep (F := F) hF.1 (N := 1) (q := F.t + 1) (Nat.one_lt_two_pow (by omega)) (by omega)
      (by rw [Nat.cast_one, one_mul]; exact zpow_lt_zpow_right₀ (by norm_num) hF.2.2) s
    refine ⟨c, ?_⟩
    rw [hc]
    push_cast
    rw [one_mul, ← zpow_natCast]
    push_cast
    rfl
  · have hiq : (i : ℚ) < 2 ^ (F.t + 1) := by exact_mod_cast h
    obtain ⟨c, hc⟩ := signed_rep (F := F) hF.1 h hF.2.1 (by rw [zpow_zero, mul_one]; exact hiq.trans hlt) s
    exact ⟨c, by rw [hc, zpow_zero, mul_one]⟩

/-- C37: IsExact16, IsExact32 and IsExact64 accept all integers up to 2^11, 2^24 and 2^53, with either sign and however they are
represented. -/
theorem C37_integers (hW : W = 32 ∨ W = 64) (hx : x.WF) {i : ℕ} (hd : x.datum = .num s i) :
    (i ≤ 2 ^ 11 → isExact16 W x = .ok true) ∧ (i ≤ 2 ^ 24 → isExact32 W x = .ok true) ∧ (i ≤ 2 ^ 53 → isExact64 W x = .ok true) := by
  refine ⟨fun h => ?_, fun h => ?_, fun h => ?_⟩
  · obtain ⟨c, hc⟩ := integer_rep (F := half) (Or.inl ⟨rfl, rfl⟩) h s
    exact accept16 hW hx hd hc fun val hv => integers hW (Or.inl ⟨rfl, rfl⟩) hc hv rfl h
  · obtain ⟨c, hc⟩ := integer_rep (F := single) (Or.inr (Or.inl ⟨rfl, rfl⟩)) h s
    exact accept32 hW hx hd hc fun val hv => integers hW (Or.inr (Or.inl ⟨rfl, rfl⟩)) hc hv rfl h
  · obtain ⟨c, hc⟩ := integer_rep (F := double) (Or.inr (Or.inr ⟨rfl, rfl⟩)) h s
    exact accept64 hW hx hd hc fun val hv => integers hW (Or.inr (Or.inr ⟨rfl, rfl⟩)) hc hv rfl h

-- 2047
example := C37_integers (W := 64) (x := ⟨53, .toNearestEven, .exact, .finite, false, 2047, 11⟩) (s := false) (i := 2047) (.inr rfl)
  ⟨by decide, by decide, by decide, by decide, by decide, fun _ => ⟨2047, 0, by decide, by decide⟩⟩
  (by rw [BigFloat.datum_lit 11 rfl (by decide)]; norm_num)

/-- The shortest decimal of a float is not longer than these. -/
theorem short_digits (hW : W = 32 ∨ W = 64) {F : Format} {size : ℤ} (hS : SizeOf F size) {j : ℕ} (hj : 2 ^ (F.t + 1) < 10 ^ (j - 1)) (hj1 : 1 ≤ j) {val : F64} {t : Text} {s : Bool}
    {q : ℚ} (ht : formatFloat W val 'e' (-1) size = .ok t) (hr : readDecimal t = some (s, q)) :
    FitsDigits j q ∧ (q = 0 ∨ (2 : ℚ) ^ (F.qmin - 1) ≤ q) ∧ ∃ c r, F.decode c = .num s r ∧ F.RoundsTo s q c := by
  obtain ⟨F', val', d, h1, h2, h3, h4⟩ := by_size (W := W) (size := size) (by rcases hS with ⟨-, h⟩ | ⟨-, h⟩ | ⟨-, h⟩ <;> simp [h]) val true 'e' (-1)
  have hFF : F' = F := by
    rcases hS with ⟨rfl, h⟩ | ⟨rfl, h⟩ | ⟨rfl, h⟩ <;> rcases h1 with ⟨rfl, h'⟩ | ⟨rfl, h'⟩ | ⟨rfl, h'⟩ <;> first | rfl | (exfalso; omega)
  subst hFF
  unfold formatFloat at ht
  rw [h2] at ht
  obtain ⟨k1, k2⟩ := C46_special (W := W) h1 'e' (-1) true val'
  cases d with
  | nan s' =>
    rw [k1 s' h3] at ht
    injection ht with ht
    have : readDecimal "NaN".toList = none := by decide +kernel
    rw [← ht, this] at hr
    cases hr
  | inf s' =>
    rw [k2 s' h3] at ht
    injection ht with ht
    have : readDecimal (if s' then "-Inf" else "+Inf").toList = none := by cases s' <;> decide +kernel
    rw [← ht, this] at hr
    cases hr
  | num s' r =>
    obtain ⟨c, hc⟩ := h4
    obtain ⟨ds, dp, a1, a2, a3, a4, a5, -⟩ := short_e hW h1 hc h3
    unfold formatFloat at a2
    rw [a2] at ht
    injection ht with ht
    rw [← ht, sciText_read s' a1.digit dp (by omega)] at hr
    injection hr with hr
    injection hr with e1 e2
    subst e1 e2
    refine ⟨?_, ?_, c, r, hc, a4⟩
    rotate_left
    · by_cases hr0 : r = 0
      · left
        rw [a3.2 hr0]
        simp [decValue]
      · right
        have hb := h1.go.bounds
        obtain ⟨n, k, N, hs, rfl, d1, d2, hz⟩ := value_split h1.go hc
        have hN : N ≠ 0 := fun h => hr0 (hz.1 h)
        have hq0 : 0 ≤ decValue ds dp := by rw [decValue_eq]; positivity
        have hw := interval_width hs hN ((roundsTo_iff F' (by omega) (by omega) s' hs.fin hq0).1 ((roundsTo_congr d1 d2).1 a4))
        rw [hs.value, two_zpow_pred, abs_le] at hw
        have hNq : (1 : ℚ) ≤ N := by exact_mod_cast Nat.one_le_iff_ne_zero.2 hN
        have hp : (0 : ℚ) < (2 : ℚ) ^ (F'.qmin + k - 1) := by positivity
        have hle : (2 : ℚ) ^ (F'.qmin - 1) ≤ (2 : ℚ) ^ (F'.qmin + k - 1) := zpow_le_zpow_right₀ (by norm_num) (by omega)
        nlinarith [hw.1]
    have hl : ds.length ≤ j := by
      by_cases hr0 : r = 0
      · rw [a3.2 hr0]
        simp
      · obtain ⟨y, y1, y2⟩ := enough_digits h1.go hc hr0 hj hj1
        exact a5 _ _ y1 y2
    exact ⟨dv ds, _, lt_of_lt_of_le (dv_lt a1.digit) (Nat.pow_le_pow_right (by norm_num) hl), decValue_eq _ _⟩

theorem rounded_eq {v : ℚ} {N : ℕ} {q : ℤ} (hm : m = N * (2 : ℚ) ^ q) (hfit : FitsDigits 101 m) (h : Rounded101 m v) : v = m :=
  rounded101_unique h (by rw [hm]; rw [hm] at hfit; exact rounded101_self le_rfl hfit)

theorem decode_dyadic {F : Format} {c : ℕ} (hc : F.decode c = .num s m) : ∃ (N : ℕ) (q : ℤ), m = N * (2 : ℚ) ^ q ∧ N < 2 ^ (F.t + 1) := by
  obtain ⟨n, hn, rfl, -⟩ := F.code_of_decode hc
  obtain ⟨k, N, hs⟩ := exists_split F hn
  exact ⟨N, _, hs.value, hs.lt⟩

/-- C35, the numbers that are missing: IsExact16, IsExact32 and IsExact64 reject every number, among those with at most 101
significant decimal digits, that has more than 5, 9 and 17. -/
theorem C35_rejects_partial (hW : W = 32 ∨ W = 64) (hx : x.WF) (hd : x.datum = .num s m) (h101 : FitsDigits 101 m) :
    (¬ FitsDigits 5 m → isExact16 W x = .ok false) ∧ (¬ FitsDigits 9 m → isExact32 W x = .ok false) ∧
    (¬ FitsDigits 17 m → isExact64 W x = .ok false) := by
  refine ⟨fun h => ?_, fun h => ?_, fun h => ?_⟩
  · obtain ⟨b, h1, h2⟩ := C35_decides16 hW hx hd
    rw [h1]
    cases b
    · rfl
    · obtain ⟨val, hv, t, q, k1, k2, k3⟩ := h2.1 rfl
      obtain ⟨N, e, hm, -⟩ := decode_dyadic hv
      rw [← rounded_eq hm h101 k3] at h
      exact absurd (short_digits hW (Or.inl ⟨rfl, rfl⟩) (by decide) (by norm_num) k1 k2).1 h
  · obtain ⟨b, h1, h2⟩ := C35_decides32 hW hx hd
    rw [h1]
    cases b
    · rfl
    · obtain ⟨val, hv, t, q, k1, k2, k3⟩ := h2.1 rfl
      obtain ⟨N, e, hm, -⟩ := decode_dyadic hv
      rw [← rounded_eq hm h101 k3] at h
      exact absurd (short_digits hW (Or.inr (Or.inl ⟨rfl, rfl⟩)) (by decide) (by norm_num) k1 k2).1 h
  · obtain ⟨b, h1, h2⟩ := C35_decides64 hW hx hd
    rw [h1]
    cases b
    · rfl
    · obtain ⟨val, hv, t, q, k1, k2, k3⟩ := h2.1 rfl
      obtain ⟨N, e, hm, -⟩ := decode_dyadic hv
      rw [← rounded_eq hm h101 k3] at h
      exact absurd (short_digits hW (Or.inr (Or.inr ⟨rfl, rfl⟩)) (by decide) (by norm_num) k1 k2).1 h

example := C35_rejects_partial (W := 64) (.inr rfl) Sample.x_wf Sample.x_datum ⟨1375, -3, by norm_num, by norm_num⟩

/-- A small binary fraction and a short decimal that agree to 101 digits are equal. -/
theorem short_equal {N D : ℕ} {k e : ℤ} (hN : N < 2 ^ 53) (hD : D < 10 ^ 5) {q : ℚ} (hm : m = N * (2 : ℚ) ^ k) (hq : q = D * (10 : ℚ) ^ e) (h1 : (2 : ℚ) ^ (-25 : ℤ) ≤ q)
    (h2 : q ≤ 65520) (h : Rounded101 m q) : m = q := by
  have hq0 : 0 < q := lt_of_lt_of_le (by positivity) h1
  unfold Rounded101 at h
  split at h
  · rename_i h0
    rw [h0, h]
  · have hr := rounded_near h
    rename_i h0
    norm_num at hr
    have hmq : q / 2 ≤ m ∧ m ≤ 2 * q := by
      have h3 := abs_nonneg (q - m)
      have h4 : |q - m| * 4 ≤ m := by linarith
      have h5 := (abs_le.1 (le_refl |q - m|)).1
      have h6 := (abs_le.1 (le_refl |q - m|)).2
      constructor <;> linarith
    have hk : -78 ≤ k := by
      by_contra hc
      push Not at hc
      have h3 : (2 : ℚ) ^ k ≤ (2 : ℚ) ^ (-79 : ℤ) := zpow_le_zpow_right₀ (by norm_num) (by omega)
      have h4 : (N : ℚ) < 2 ^ 53 := by exact_mod_cast hN
      have h5 : m < 2 ^ 53 * (2 : ℚ) ^ (-79 : ℤ) := by
        rw [hm]
        calc (N : ℚ) * (2 : ℚ) ^ k < 2 ^ 53 * (2 : ℚ) ^ k := by gcongr
          _ ≤ _ := by gcongr
      norm_num at h5 h1
      linarith [hmq.1]
    have he : -12 ≤ e := by
      by_contra hc
      push Not at hc
      have h3 : (10 : ℚ) ^ e ≤ (10 : ℚ) ^ (-13 : ℤ) := zpow_le_zpow_right₀ (by norm_num) (by omega)
      have h4 : (D : ℚ) < 10 ^ 5 := by exact_mod_cast hD
      have h5 : q < 10 ^ 5 * (10 : ℚ) ^ (-13 : ℤ) := by
        rw [hq]
        calc (D : ℚ) * (10 : ℚ) ^ e < 10 ^ 5 * (10 : ℚ) ^ e := by gcongr
          _ ≤ _ := by gcongr
      norm_num at h5 h1
      linarith
    obtain ⟨k', rfl⟩ : ∃ k' : ℕ, k = k' - 78 := ⟨(k + 78).toNat, by omega⟩
    obtain ⟨e', rfl⟩ : ∃ e' : ℕ, e = e' - 12 := ⟨(e + 12).toNat, by omega⟩
    set z : ℤ := N * 2 ^ k' * 10 ^ 12 - D * 10 ^ e' * 2 ^ 78 with hz
    have hzq : (z : ℚ) = (m - q) * (10 ^ 12 * 2 ^ 78) := by
      rw [hz, hm, hq, zpow_sub₀ (by norm_num), zpow_sub₀ (by norm_num)]
      push_cast
      simp only [zpow_natCast]
      norm_num
      ring
    have hlt : |(z : ℚ)| < 1 := by
      rw [hzq, abs_mul, abs_of_pos (by positivity : (0 : ℚ) < 10 ^ 12 * 2 ^ 78), abs_sub_comm]
      norm_num
      linarith [hmq.2]
    have hz0 : |z| < 1 := by exact_mod_cast hlt
    rw [Int.abs_lt_one_iff] at hz0
    rw [hz0, Int.cast_zero] at hzq
    have h9 := mul_eq_zero.1 hzq.symm
    rcases h9 with h9 | h9
    · linarith
    · norm_num at h9

/-- C34, what remains true: a number that IsExact16 accepts has at most five significant decimal digits, and it lies, for some finite
binary16 value, among the numbers that are rounded to it. Missing, because false: that it is that value (`C34_false`). -/
theorem C34_partial (hW : W = 32 ∨ W = 64) (hx : x.WF) (h : isExact16 W x = .ok true) :
    ∃ s m, x.datum = .num s m ∧ FitsDigits 5 m ∧ ∃ c r, half.decode c = .num s r ∧ half.RoundsTo s m c := by
  rcases datum_cases x with ⟨s, m, hd⟩ | ⟨s, hd⟩
  · obtain ⟨b, h1, h2⟩ := C35_decides16 hW hx hd
    rw [h] at h1
    injection h1 with h1
    obtain ⟨val, hv, t, q, k1, k2, k3⟩ := h2.1 h1.symm
    obtain ⟨a1, a2, c, r, a3, a4⟩ := short_digits hW (F := half) (Or.inl ⟨rfl, rfl⟩) (j := 5) (by decide) (by norm_num) k1 k2
    obtain ⟨N, k, hm, hN⟩ := decode_dyadic hv
    have hmq : m = q := by
      rcases a2 with a2 | a2
      · unfold Rounded101 at k3
        split at k3
        · rename_i h0
          rw [h0, k3]
        · have := rounded_near k3
          rename_i h0
          rw [a2, zero_sub, abs_neg] at this
          have h3 := le_abs_self m
          norm_num at this
          have : |m| = 0 := by linarith [abs_nonneg m]
          exact absurd (abs_eq_zero.1 this) h0
      · obtain ⟨D, e, hD, hq⟩ := a1
        refine short_equal hN hD hm hq ?_ ?_ k3
        · exact a2
        · by_contra hc
          push Not at hc
          unfold Format.RoundsTo at a4
          rw [if_pos] at a4
          · rw [a3] at a4
            cases a4
          · refine le_trans (le_of_eq ?_) hc.le
            norm_num [half, Format.overflowAt, Format.bias]
    rw [← hmq] at a1 a4
    exact ⟨s, m, hd, a1, c, r, a3, a4⟩
  · rw [(C36_infinite hW hd).1] at h
    cases h

example := C34_partial (W := 64) (.inr rfl) Sample.x_wf (by decide +kernel)

/-- C36 in full. -/
def C36_full : Prop :=
  ∀ W : ℕ, (W = 32 ∨ W = 64) → ∀ x : BigFloat, x.WF → (∃ b, isExact16 W x = .ok b) ∧ (∃ b, isExact32 W x = .ok b) ∧ (∃ b, isExact64 W x = .ok b)

/-- C36 is false: infinities panic. -/
theorem C36_false : ¬ C36_full := by
  intro h
  obtain ⟨⟨b, hb⟩, -⟩ := h 64 (Or.inr rfl) ⟨53, .toNearestEven, .exact, .inf, false, 0, 0⟩
    ⟨by decide, by decide, by decide, by decide, by decide, fun h => by cases h⟩
  rw [(C36_infinite (Or.inr rfl) (s := false) rfl).1] at hb
  cases hb

/-- C36 for finite numbers: there is an answer, and it depends on the value of the number (and the sign of a zero) only, not on how
it is represented. Missing, because false: infinities (`C36_infinite`). -/
theorem C36_partial (hW : W = 32 ∨ W = 64) (hx : x.WF) (hd : x.datum = .num s m) :
    (∃ b, isExact16 W x = .ok b ∧ ∀ y : BigFloat, y.WF → y.datum = .num s m → isExact16 W y = .ok b) ∧
    (∃ b, isExact32 W x = .ok b ∧ ∀ y : BigFloat, y.WF → y.datum = .num s m → isExact32 W y = .ok b) ∧
    (∃ b, isExact64 W x = .ok b ∧ ∀ y : BigFloat, y.WF → y.datum = .num s m → isExact64 W y = .ok b) := by
  have key : ∀ {a b : Bool} {P : Prop}, (a = true ↔ P) → (b = true ↔ P) → a = b := by
    intro a b P h1 h2
    rw [Bool.eq_iff_iff]
    exact h1.trans h2.symm
  refine ⟨?_, ?_, ?_⟩
  · obtain ⟨b, h1, h2⟩ := C35_decides16 hW hx hd
    refine ⟨b, h1, fun y hy hyd => ?_⟩
    obtain ⟨b', h3, h4⟩ := C35_decides16 hW hy hyd
    rw [h3, key h4 h2]
  · obtain ⟨b, h1, h2⟩ := C35_decides32 hW hx hd
    refine ⟨b, h1, fun y hy hyd => ?_⟩
    obtain ⟨b', h3, h4⟩ := C35_decides32 hW hy hyd
    rw [h3, key h4 h2]
  · obtain ⟨b, h1, h2⟩ := C35_decides64 hW hx hd
    refine ⟨b, h1, fun y hy hyd => ?_⟩
    obtain ⟨b', h3, h4⟩ := C35_decides64 hW hy hyd
    rw [h3, key h4 h2]

-- concrete cases
example : isExact16 64 big8210 = .ok true := by decide +kernel
example : isExact16 64 big8208 = .ok false := by decide +kernel
example : isExact64 32 ⟨10, .toZero, .above, .finite, true, 9, -5⟩ = .ok true := by decide +kernel
example : FitsDigits 15 (1 / 8) := ⟨125, -3, by norm_num, by norm_num⟩
example : ¬ FitsDigits 17 (1 / 2 ^ 60) := by
  intro h
  rw [show (1 : ℚ) / 2 ^ 60 = (5 ^ 60 : ℕ) * (10 : ℚ) ^ (-60 : ℤ) by norm_num] at h
  have := fits_lt (by decide) h
  norm_num at this

end GoFloat
