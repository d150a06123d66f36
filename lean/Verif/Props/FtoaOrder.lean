import Verif.Proofs.Sample
import Verif.Props.FtoaFixed
import Verif.Props.FtoaLayout
import Verif.Props.Monotone
import Verif.Proofs.FtoaOrder
/-
FormatFloat and the order of numbers, and how many digits are enough (C59, C60 and C61 of properties.jsonl).
-/
namespace GoFloat.Strconv
open Spec

variable {W : ℕ} {F : Format} {size : ℤ}

theorem read_nonneg {t : Text} {s : Bool} {q : ℚ} (h : readDecimal t = some (s, q)) : 0 ≤ q := by
  unfold readDecimal at h
  simp only at h
  split at h
  · cases h
  · obtain ⟨n, -, h⟩ := Option.bind_eq_some_iff.1 h
    obtain ⟨x, -, h⟩ := Option.map_eq_some_iff.1 h
    injection h with _ h
    rw [← h]
    positivity

/-- C59: with a negative precision a smaller float is printed as a smaller number, whatever the formats and algorithms. -/
theorem C59_shortest (hW : W = 32 ∨ W = 64) (hS : SizeOf F size) {fmt fmt' : Char} (hfmt : DecimalFormat fmt) (hfmt' : DecimalFormat fmt') {prec prec' : ℤ}
    (hp : prec < 0) (hp' : prec' < 0) (opt opt' : Bool) {c c' : ℕ} {s s' : Bool} {m m' : ℚ} (hc : F.decode c = .num s m) (hc' : F.decode c' = .num s' m')
    {val val' : F64} (hd : double.decode val.toNat = .num s m) (hd' : double.decode val'.toNat = .num s' m') (hlt : signed s m < signed s' m') :
    ∃ t q t' q', genericFtoa W opt val fmt prec size = .ok t ∧ genericFtoa W opt' val' fmt' prec' size = .ok t' ∧
      readDecimal t = some (s, q) ∧ readDecimal t' = some (s', q') ∧ signed s q < signed s' q' := by
  obtain ⟨t, q, h1, h2, h3⟩ := C42_roundtrip hW hS hfmt hp opt hc hd
  obtain ⟨t', q', h1', h2', h3'⟩ := C42_roundtrip hW hS hfmt' hp' opt' hc' hd'
  refine ⟨t, q, t', q', h1, h1', h2, h2', ?_⟩
  by_contra hle
  have hb := hS.go.bounds
  have := roundsTo_mono (by omega) (read_nonneg h2') (read_nonneg h2) h3' h3 (not_lt.1 hle)
  rw [hc, hc', le_num] at this
  linarith

-- -11/8 and 3/2
example := C59_shortest (W := 64) (.inr rfl) (F := half) (size := 16) (.inl ⟨rfl, rfl⟩) (fmt := 'g') (fmt' := 'e') (by simp [DecimalFormat]) (by simp [DecimalFormat]) (prec := -1) (prec' := -1) (by norm_num) (by norm_num) true false Sample.x_half Sample.w_half
  (val := 0xBFF6000000000000) (val' := 0x3FF8000000000000) Sample.x_double Sample.w_double (by norm_num [signed])

theorem isBinary_inj {t : Text} {s s' : Bool} {a a' : ℕ} {x x' : ℤ} (h : IsBinary t s a x) (h' : IsBinary t s' a' x') : s = s' ∧ a = a' ∧ x = x' := by
  obtain ⟨u, e, h1, h2, rfl⟩ := h
  obtain ⟨u', e', h1', h2', h3⟩ := h'
  have nop : ∀ {v : Text} {n : ℕ}, IsNumeral 10 v n → ∀ c ∈ v, c ≠ 'p' := by
    intro v n hv c hc hcp
    rw [isNumeral_eq_dg (by norm_num) hv, List.mem_map] at hc
    obtain ⟨d, hd, rfl⟩ := hc
    have hd10 : d < 10 := dg_lt (by norm_num) _ d hd
    interval_cases d <;> revert hcp <;> decide
  have hsplit : ∀ (v : Text) (r : Text), (∀ c ∈ v, c ≠ 'p') → (v ++ 'p' :: r).takeWhile (· ≠ 'p') = v ∧ (v ++ 'p' :: r).dropWhile (· ≠ 'p') = 'p' :: r := by
    intro v r hv
    constructor
    · rw [List.takeWhile_append_of_pos (by simpa using hv)]; simp
    · rw [List.dropWhile_append_of_pos (by simpa using hv)]; simp
  have hne : ∀ {v : Text} {n : ℕ} (r l : Text), IsNumeral 10 v n → v ++ r ≠ '-' :: l := by
    intro v n r l hv hh
    cases v with
    | nil => exact hv.1 rfl
    | cons c v =>
      simp only [List.cons_append, List.cons.injEq] at hh
      exact isNumeral_no_sign (t := v) hv (by rw [hh.1])
  have hs : s = s' := by
    cases s <;> cases s'
    · rfl
    · simp only [minus, Bool.false_eq_true, if_false, if_true, List.nil_append, List.cons_append] at h3
      exact absurd h3 (hne _ _ h1)
    · simp only [minus, Bool.false_eq_true, if_false, if_true, List.nil_append, List.cons_append] at h3
      exact absurd h3.symm (hne _ _ h1')
    · rfl
  subst hs
  rw [List.append_assoc, List.append_assoc, List.append_cancel_left_eq] at h3
  obtain ⟨k1, k2⟩ := hsplit u ((if x < 0 then '-' else '+') :: e) (nop h1)
  obtain ⟨k1', k2'⟩ := hsplit u' ((if x' < 0 then '-' else '+') :: e') (nop h1')
  rw [h3, k1'] at k1
  rw [h3, k2'] at k2
  subst k1
  simp only [List.cons.injEq, true_and] at k2
  obtain ⟨k3, rfl⟩ := k2
  refine ⟨rfl, isNumeral_value h1 h1', ?_⟩
  have := isNumeral_value h2 h2'
  split at k3 <;> split at k3
  · omega
  · exact absurd k3 (by decide)
  · exact absurd k3 (by decide)
  · omega

/-- `val` is a number of the format (a NaN or an infinity, too). -/
def Fits (F : Format) (val : F64) : Prop := ∃ c, F.decode c = double.decode val.toNat

/-- C59: distinct floats have distinct texts with a negative precision (all NaNs have the same). The formats need not be the same. -/
theorem C59_distinct (hW : W = 32 ∨ W = 64) (hS : SizeOf F size) {fmt fmt' : Char} (hfmt : DecimalFormat fmt) (hfmt' : DecimalFormat fmt') {prec prec' : ℤ}
    (hp : prec < 0) (hp' : prec' < 0) (opt opt' : Bool) {val val' : F64} (hv : Fits F val) (hv' : Fits F val')
    (h : genericFtoa W opt val fmt prec size = genericFtoa W opt' val' fmt' prec' size) :
    val = val' ∨ (∃ s, double.decode val.toNat = .nan s) ∧ ∃ s, double.decode val'.toNat = .nan s := by
  obtain ⟨c, hc⟩ := hv
  obtain ⟨c', hc'⟩ := hv'
  obtain ⟨a1, a2⟩ := C46_special (W := W) hS fmt prec opt val
  obtain ⟨b1, b2⟩ := C46_special (W := W) hS fmt' prec' opt' val'
  have hb := hS.go.bounds
  have inj : double.decode val.toNat = double.decode val'.toNat → (∀ s, double.decode val.toNat ≠ .nan s) → val = val' := decode_inj64
  have hspec : ∀ (t : Text), readDecimal t = none → ∀ {s q}, readDecimal t ≠ some (s, q) := by
    intro t ht s q hh; rw [ht] at hh; cases hh
  have n1 : readDecimal "NaN".toList = none := by decide
  have n2 : ∀ s : Bool, readDecimal (if s then "-Inf" else "+Inf").toList = none := by decide
  cases hd : double.decode val.toNat with
  | nan s =>
    rw [a1 s hd] at h
    cases hd' : double.decode val'.toNat with
    | nan s' => exact Or.inr ⟨⟨s, rfl⟩, s', rfl⟩
    | inf s' =>
      rw [b2 s' hd'] at h
      exfalso; revert h; cases s' <;> decide
    | num s' m' =>
      obtain ⟨t', q', h1', h2', h3'⟩ := C42_roundtrip hW hS hfmt' hp' opt' (hc'.trans hd') hd'
      rw [h1'] at h
      injection h with h
      rw [← h, n1] at h2'; cases h2'
  | inf s =>
    rw [a2 s hd] at h
    cases hd' : double.decode val'.toNat with
    | nan s' =>
      rw [b1 s' hd'] at h
      exfalso; revert h; cases s <;> decide
    | inf s' =>
      rw [b2 s' hd'] at h
      left
      refine inj ?_ (by rw [hd]; simp)
      rw [hd, hd']
      congr 1
      revert h; cases s <;> cases s' <;> decide
    | num s' m' =>
      obtain ⟨t', q', h1', h2', h3'⟩ := C42_roundtrip hW hS hfmt' hp' opt' (hc'.trans hd') hd'
      rw [h1'] at h
      injection h with h
      rw [← h, n2] at h2'; cases h2'
  | num s m =>
    obtain ⟨t, q, h1, h2, h3⟩ := C42_roundtrip hW hS hfmt hp opt (hc.trans hd) hd
    rw [h1] at h
    cases hd' : double.decode val'.toNat with
    | nan s' =>
      rw [b1 s' hd'] at h
      injection h with h
      rw [h, n1] at h2; cases h2
    | inf s' =>
      rw [b2 s' hd'] at h
      injection h with h
      rw [h, n2] at h2; cases h2
    | num s' m' =>
      obtain ⟨t', q', h1', h2', h3'⟩ := C42_roundtrip hW hS hfmt' hp' opt' (hc'.trans hd') hd'
      rw [h1'] at h
      injection h with h
      subst h
      rw [h2] at h2'
      injection h2' with h2'
      injection h2' with e1 e2
      subst e1 e2
      have := Float128ppc.RoundsTo.unique (by omega) h3 h3'
      rw [hc, hc'] at this
      exact Or.inl (inj this (by rw [hd]; simp))

-- the letters g and f give the same text of -11/8
example := C59_distinct (W := 64) (.inr rfl) (F := half) (size := 16) (.inl ⟨rfl, rfl⟩) (fmt := 'g') (fmt' := 'f') (by simp [DecimalFormat]) (by simp [DecimalFormat]) (prec := -1) (prec' := -2) (by norm_num) (by norm_num) true false
  (val := 0xBFF6000000000000) (val' := 0xBFF6000000000000) ⟨_, Sample.x_half.trans Sample.x_double.symm⟩ ⟨_, Sample.x_half.trans Sample.x_double.symm⟩
  (by decide +kernel)

/-- C59: distinct finite floats have distinct texts in the binary format. -/
theorem C59_distinct_binary (hW : W = 32 ∨ W = 64) (hS : SizeOf F size) (prec prec' : ℤ) (opt opt' : Bool) {c c' : ℕ} {s s' : Bool} {m m' : ℚ}
    (hc : F.decode c = .num s m) (hc' : F.decode c' = .num s' m')
    {val val' : F64} (hd : double.decode val.toNat = .num s m) (hd' : double.decode val'.toNat = .num s' m')
    (h : genericFtoa W opt val 'b' prec size = genericFtoa W opt' val' 'b' prec' size) : val = val' := by
  obtain ⟨t, a, e, h1, h2, h3⟩ := C46_binary hW hS prec opt hc hd
  obtain ⟨t', a', e', h1', h2', h3'⟩ := C46_binary hW hS prec' opt' hc' hd'
  rw [h1, h1'] at h
  injection h with h
  subst h
  obtain ⟨rfl, rfl, he⟩ := isBinary_inj h3 h3'
  have he : e = e' := by omega
  subst he
  refine decode_inj64 ?_ (by rw [hd]; simp)
  rw [hd, hd', h2.value, h2'.value]

example := C59_distinct_binary (W := 64) (.inr rfl) (F := half) (size := 16) (.inl ⟨rfl, rfl⟩) 0 1 true false Sample.x_half Sample.x_half
  (val := 0xBFF6000000000000) (val' := 0xBFF6000000000000) Sample.x_double Sample.x_double (by decide +kernel)

/-- C59: with a precision, a float that is not greater is printed as a number that is not greater. -/
theorem C59_precision (hW : W = 32 ∨ W = 64) (hS : SizeOf F size) {fmt : Char} (hfmt : DecimalFormat fmt) {prec : ℤ} (hp : 0 ≤ prec) (opt opt' : Bool)
    {c c' : ℕ} {s s' : Bool} {m m' : ℚ} (hc : F.decode c = .num s m) (hc' : F.decode c' = .num s' m')
    {val val' : F64} (hd : double.decode val.toNat = .num s m) (hd' : double.decode val'.toNat = .num s' m') (hle : signed s m ≤ signed s' m') :
    ∃ t q t' q', genericFtoa W opt val fmt prec size = .ok t ∧ genericFtoa W opt' val' fmt prec size = .ok t' ∧
      readDecimal t = some (s, q) ∧ readDecimal t' = some (s', q') ∧ signed s q ≤ signed s' q' := by
  have hm := decode_nonneg hc
  have hm' := decode_nonneg hc'
  have digits : ∀ {n : ℕ} {q q' : ℚ}, 1 ≤ n → 0 ≤ q → 0 ≤ q' → (m = 0 → q = 0) → (m ≠ 0 → RoundedDigits n m q) → (m' = 0 → q' = 0) →
      (m' ≠ 0 → RoundedDigits n m' q') → signed s q ≤ signed s' q' := by
    intro n q q' hn hq hq' z1 r1 z2 r2
    refine signed_mono hm hm' hq hq' hle (fun h => ?_) (fun h => ?_) z1 z2
    · by_cases h0 : m = 0
      · rw [z1 h0]; exact hq'
      · by_cases h0' : m' = 0
        · exact absurd (le_antisymm (h0' ▸ h) hm) h0
        · exact roundedDigits_mono hn h (r1 h0) (r2 h0')
    · by_cases h0 : m' = 0
      · rw [z2 h0]; exact hq
      · by_cases h0' : m = 0
        · exact absurd (le_antisymm (h0' ▸ h) hm') h0
        · exact roundedDigits_mono hn h (r2 h0) (r1 h0')
  simp only [DecimalFormat, List.mem_cons, List.not_mem_nil, or_false] at hfmt
  by_cases hE : fmt = 'e' ∨ fmt = 'E'
  · obtain ⟨t, q, h1, h2, h3, h4⟩ := C47_exponential hW hS hE hp opt hc hd
    obtain ⟨t', q', h1', h2', h3', h4'⟩ := C47_exponential hW hS hE hp opt' hc' hd'
    exact ⟨t, q, t', q', h1, h1', h2, h2', digits (by omega) (read_nonneg h2) (read_nonneg h2') h3 h4 h3' h4'⟩
  by_cases hG : fmt = 'g' ∨ fmt = 'G'
  · obtain ⟨t, q, h1, h2, h3, h4⟩ := C47_general hW hS hG hp opt hc hd
    obtain ⟨t', q', h1', h2', h3', h4'⟩ := C47_general hW hS hG hp opt' hc' hd'
    exact ⟨t, q, t', q', h1, h1', h2, h2', digits (by omega) (read_nonneg h2) (read_nonneg h2') h3 h4 h3' h4'⟩
  have hf : fmt = 'f' := by tauto
  subst hf
  obtain ⟨t, z, h1, h2, h3⟩ := C47_fixed hW hS hp opt hc hd
  obtain ⟨t', z', h1', h2', h3'⟩ := C47_fixed hW hS hp opt' hc' hd'
  refine ⟨t, _, t', _, h1, h1', h2, h2', ?_⟩
  have hP : (0 : ℚ) < 10 ^ prec.toNat := by positivity
  have mono : ∀ {a b : ℚ} {u v : ℕ}, NearestEven (a * 10 ^ prec.toNat) u → NearestEven (b * 10 ^ prec.toNat) v → a ≤ b →
      (u : ℚ) / 10 ^ prec.toNat ≤ v / 10 ^ prec.toNat := by
    intro a b u v hu hv hab
    have := nearestEven_mono (mul_le_mul_of_nonneg_right hab hP.le) hu hv
    have : u ≤ v := by exact_mod_cast this
    gcongr
  have zero : ∀ {a : ℚ} {u : ℕ}, NearestEven (a * 10 ^ prec.toNat) u → a = 0 → (u : ℚ) / 10 ^ prec.toNat = 0 := by
    intro a u hu ha
    rw [ha, zero_mul] at hu
    have : (u : ℤ) = 0 := nearestEven_unique hu ⟨by norm_num, by norm_num⟩
    have : u = 0 := by exact_mod_cast this
    simp [this]
  exact signed_mono hm hm' (by positivity) (by positivity) hle (mono h3 h3') (mono h3' h3) (zero h3) (zero h3')

example := C59_precision (W := 64) (.inr rfl) (F := half) (size := 16) (.inl ⟨rfl, rfl⟩) (fmt := 'g') (by simp [DecimalFormat]) (prec := 1) (by norm_num) true false Sample.x_half Sample.w_half
  (val := 0xBFF6000000000000) (val' := 0x3FF8000000000000) Sample.x_double Sample.w_double (by norm_num [signed])

theorem roundsTo_zero (hF : GoFormat F) {c : ℕ} {s : Bool} (hc : F.decode c = .num s 0) : F.RoundsTo s 0 c := by
  obtain ⟨n, k, N, hs, h0, d1, d2, -⟩ := value_split hF hc
  rw [h0]
  exact (roundsTo_congr d1 d2).2 (roundsTo_self hF hs.fin s)

/-- C60: with 17 significant digits (9 for a float32, 5 for a half) or more the text is read back as the float: exponential format. -/
theorem C60_exponential (hW : W = 32 ∨ W = 64) (hS : SizeOf F size) {fmt : Char} (hfmt : fmt = 'e' ∨ fmt = 'E') {prec : ℤ} (opt : Bool)
    (hp : size = 64 ∧ 16 ≤ prec ∨ size = 32 ∧ 8 ≤ prec ∨ size = 16 ∧ 4 ≤ prec) {c : ℕ} {s : Bool} {m : ℚ} (hc : F.decode c = .num s m) {val : F64}
    (hd : double.decode val.toNat = .num s m) :
    ∃ t q, genericFtoa W opt val fmt prec size = .ok t ∧ readDecimal t = some (s, q) ∧ F.RoundsTo s q c := by
  obtain ⟨t, q, h1, h2, h3, h4⟩ := C47_exponential (prec := prec) hW hS hfmt (by omega) opt hc hd
  refine ⟨t, q, h1, h2, ?_⟩
  by_cases h0 : m = 0
  · rw [h3 h0]; subst h0; exact roundsTo_zero hS.go hc
  · refine rounded_roundsTo hS.go hc h0 ?_ (h4 h0)
    rw [Nat.add_sub_cancel]
    rcases hS with ⟨rfl, rfl⟩ | ⟨rfl, rfl⟩ | ⟨rfl, rfl⟩
    · exact lt_of_lt_of_le (show 2 ^ (half.t + 1) < 10 ^ 4 by decide) (Nat.pow_le_pow_right (by norm_num) (by omega))
    · exact lt_of_lt_of_le (show 2 ^ (single.t + 1) < 10 ^ 8 by decide) (Nat.pow_le_pow_right (by norm_num) (by omega))
    · exact lt_of_lt_of_le (show 2 ^ (double.t + 1) < 10 ^ 16 by decide) (Nat.pow_le_pow_right (by norm_num) (by omega))

example := C60_exponential (W := 64) (.inr rfl) (F := half) (size := 16) (.inl ⟨rfl, rfl⟩) (fmt := 'e') (.inl rfl) (prec := 4) true (.inr (.inr ⟨rfl, by norm_num⟩)) Sample.x_half (val := 0xBFF6000000000000) Sample.x_double

/-- C60 for the general format. -/
theorem C60_general (hW : W = 32 ∨ W = 64) (hS : SizeOf F size) {fmt : Char} (hfmt : fmt = 'g' ∨ fmt = 'G') {prec : ℤ} (opt : Bool)
    (hp : size = 64 ∧ 17 ≤ prec ∨ size = 32 ∧ 9 ≤ prec ∨ size = 16 ∧ 5 ≤ prec) {c : ℕ} {s : Bool} {m : ℚ} (hc : F.decode c = .num s m) {val : F64}
    (hd : double.decode val.toNat = .num s m) :
    ∃ t q, genericFtoa W opt val fmt prec size = .ok t ∧ readDecimal t = some (s, q) ∧ F.RoundsTo s q c := by
  obtain ⟨t, q, h1, h2, h3, h4⟩ := C47_general (prec := prec) hW hS hfmt (by omega) opt hc hd
  refine ⟨t, q, h1, h2, ?_⟩
  by_cases h0 : m = 0
  · rw [h3 h0]; subst h0; exact roundsTo_zero hS.go hc
  · refine rounded_roundsTo hS.go hc h0 ?_ (h4 h0)
    rcases hS with ⟨rfl, rfl⟩ | ⟨rfl, rfl⟩ | ⟨rfl, rfl⟩
    · exact lt_of_lt_of_le (show 2 ^ (half.t + 1) < 10 ^ 4 by decide) (Nat.pow_le_pow_right (by norm_num) (by omega))
    · exact lt_of_lt_of_le (show 2 ^ (single.t + 1) < 10 ^ 8 by decide) (Nat.pow_le_pow_right (by norm_num) (by omega))
    · exact lt_of_lt_of_le (show 2 ^ (double.t + 1) < 10 ^ 16 by decide) (Nat.pow_le_pow_right (by norm_num) (by omega))

example := C60_general (W := 64) (.inr rfl) (F := half) (size := 16) (.inl ⟨rfl, rfl⟩) (fmt := 'g') (.inl rfl) (prec := 5) true (.inr (.inr ⟨rfl, by norm_num⟩)) Sample.x_half (val := 0xBFF6000000000000) Sample.x_double

/-- The number of digits that survive in each size. -/
def Survives (size : ℤ) (n : ℕ) : Prop := size = 64 ∧ n = 15 ∨ size = 32 ∧ n = 6 ∨ size = 16 ∧ n = 3

theorem Survives.pos {n : ℕ} (h : Survives size n) : 1 ≤ n := by unfold Survives at h; omega

theorem Survives.lt {n : ℕ} (h : Survives size n) (hS : SizeOf F size) : (10 : ℚ) ^ n < 2 ^ F.t := by
  unfold Survives at h
  rcases hS with ⟨rfl, rfl⟩ | ⟨rfl, rfl⟩ | ⟨rfl, rfl⟩
  · obtain rfl : n = 3 := by omega
    norm_num [half]
  · obtain rfl : n = 6 := by omega
    norm_num [single]
  · obtain rfl : n = 15 := by omega
    norm_num [double]

theorem Survives.rounded {n : ℕ} (h : Survives size n) (hS : SizeOf F size) {c : ℕ} {s : Bool} {m : ℚ} (hc : F.decode c = .num s m)
    (hnorm : (2 : ℚ) ^ (1 - F.bias) ≤ m) {d : ℚ} (hd : FitsDigits n d) (hr : F.RoundsTo s d c) : RoundedDigits n m d := by
  have hd0 : 0 ≤ d := by
    obtain ⟨a, e, -, rfl⟩ := hd
    positivity
  exact fits_rounded h.pos (h.lt hS) (lt_of_lt_of_le (by positivity) hnorm) hd (roundsTo_close hS.go hc hnorm hd0 hr)

/-- C61: a decimal of at most 15 significant digits (6 for a float32, 3 for a half), rounded to a float that is not subnormal, is what
is printed for the float with a negative precision. -/
theorem C61_shortest (hW : W = 32 ∨ W = 64) (hS : SizeOf F size) {n : ℕ} (hn : Survives size n) {fmt : Char} (hfmt : DecimalFormat fmt) {prec : ℤ}
    (hp : prec < 0) (opt : Bool) {c : ℕ} {s : Bool} {m : ℚ} (hc : F.decode c = .num s m) (hnorm : (2 : ℚ) ^ (1 - F.bias) ≤ m)
    {d : ℚ} (hd : FitsDigits n d) (hr : F.RoundsTo s d c) {val : F64} (hv : double.decode val.toNat = .num s m) :
    ∃ t, genericFtoa W opt val fmt prec size = .ok t ∧ readDecimal t = some (s, d) := by
  obtain ⟨t, q, h1, h2, h3⟩ := C42_roundtrip hW hS hfmt hp opt hc hv
  obtain ⟨t', q', h1', h2', h3'⟩ := C43_minimal hW hS hfmt hp opt hc hv
  rw [h1] at h1'
  injection h1' with h1'
  subst h1'
  rw [h2] at h2'
  injection h2' with h2'
  injection h2' with _ h2'
  subst h2'
  have hq := h3' n d hd hr
  rw [roundedDigits_unique hn.pos (hn.rounded hS hc hnorm hd hr) (hn.rounded hS hc hnorm hq h3)]
  exact ⟨t, h1, h2⟩

-- 1.5 as a half
example := C61_shortest (W := 64) (.inr rfl) (F := half) (size := 16) (.inl ⟨rfl, rfl⟩) (n := 3) (.inr (.inr ⟨rfl, rfl⟩)) (fmt := 'g') (by simp [DecimalFormat]) (prec := -1) (by norm_num) true Sample.w_half (by norm_num [half, Format.bias])
  (d := 3 / 2) ⟨15, -1, by norm_num, by norm_num⟩ Sample.w_rounds (val := 0x3FF8000000000000) Sample.w_double

/-- C61: and it is what is printed with as many digits, in the exponential format. -/
theorem C61_exponential (hW : W = 32 ∨ W = 64) (hS : SizeOf F size) {n : ℕ} (hn : Survives size n) {fmt : Char} (hfmt : fmt = 'e' ∨ fmt = 'E')
    (opt : Bool) {c : ℕ} {s : Bool} {m : ℚ} (hc : F.decode c = .num s m) (hnorm : (2 : ℚ) ^ (1 - F.bias) ≤ m)
    {d : ℚ} (hd : FitsDigits n d) (hr : F.RoundsTo s d c) {val : F64} (hv : double.decode val.toNat = .num s m) :
    ∃ t, genericFtoa W opt val fmt (n - 1) size = .ok t ∧ readDecimal t = some (s, d) := by
  have hn1 := hn.pos
  obtain ⟨t, q, h1, h2, -, h4⟩ := C47_exponential (prec := (n : ℤ) - 1) hW hS hfmt (by omega) opt hc hv
  have hm : m ≠ 0 := (lt_of_lt_of_le (by positivity) hnorm).ne'
  have h5 := h4 hm
  rw [show ((n : ℤ) - 1).toNat + 1 = n by omega] at h5
  rw [roundedDigits_unique hn1 (hn.rounded hS hc hnorm hd hr) h5]
  exact ⟨t, h1, h2⟩

example := C61_exponential (W := 64) (.inr rfl) (F := half) (size := 16) (.inl ⟨rfl, rfl⟩) (n := 3) (.inr (.inr ⟨rfl, rfl⟩)) (fmt := 'e') (.inl rfl) true Sample.w_half (by norm_num [half, Format.bias])
  (d := 3 / 2) ⟨15, -1, by norm_num, by norm_num⟩ Sample.w_rounds (val := 0x3FF8000000000000) Sample.w_double

/-- C61: and in the general format. -/
theorem C61_general (hW : W = 32 ∨ W = 64) (hS : SizeOf F size) {n : ℕ} (hn : Survives size n) {fmt : Char} (hfmt : fmt = 'g' ∨ fmt = 'G')
    (opt : Bool) {c : ℕ} {s : Bool} {m : ℚ} (hc : F.decode c = .num s m) (hnorm : (2 : ℚ) ^ (1 - F.bias) ≤ m)
    {d : ℚ} (hd : FitsDigits n d) (hr : F.RoundsTo s d c) {val : F64} (hv : double.decode val.toNat = .num s m) :
    ∃ t, genericFtoa W opt val fmt n size = .ok t ∧ readDecimal t = some (s, d) := by
  have hn1 := hn.pos
  obtain ⟨t, q, h1, h2, -, h4⟩ := C47_general (prec := (n : ℤ)) hW hS hfmt (by omega) opt hc hv
  have hm : m ≠ 0 := (lt_of_lt_of_le (by positivity) hnorm).ne'
  have h5 := h4 hm
  rw [show max ((n : ℤ).toNat) 1 = n by omega] at h5
  rw [roundedDigits_unique hn1 (hn.rounded hS hc hnorm hd hr) h5]
  exact ⟨t, h1, h2⟩

-- 0.1 and its successor: distinct texts, in order; 16 digits do not tell them apart
example : formatFloat 64 0x3FB999999999999A 'g' (-1) 64 = .ok "0.1".toList ∧ formatFloat 64 0x3FB999999999999B 'g' (-1) 64 = .ok "0.10000000000000002".toList ∧
    formatFloat 64 0x3FB999999999999A 'e' 15 64 = .ok "1.000000000000000e-01".toList ∧ formatFloat 64 0x3FB999999999999B 'e' 15 64 = .ok "1.000000000000000e-01".toList ∧
    formatFloat 64 0x3FB999999999999A 'e' 16 64 = .ok "1.0000000000000001e-01".toList ∧ formatFloat 64 0x3FB999999999999B 'e' 16 64 = .ok "1.0000000000000002e-01".toList := by
  decide +kernel
-- 0.1 has one digit and is rounded to a normal double
example : FitsDigits 15 (1 / 10) := ⟨1, -1, by norm_num, by norm_num⟩
example : double.decode (0x3FB999999999999A : F64).toNat = .num false (0x1999999999999A / 2 ^ 56) := by
  show double.decode 0x3FB999999999999A = _
  norm_num [double, Format.decode, Format.bias]
example : half.RoundsTo false (1 / 10) 0x2E66 ∧ half.decode 0x2E66 = .num false (1638 / 16384) ∧ (2 : ℚ) ^ (1 - half.bias) ≤ 1638 / 16384 := by
  refine ⟨?_, by norm_num [half, Format.decode, Format.bias], by norm_num [half, Format.bias]⟩
  have := (roundsTo_iff half (by decide) (by decide) false (n := 0x2E66) (by decide) (q := 1 / 10) (by norm_num)).2
    (by norm_num [InInterval, Format.magc, Format.qmin, half, Format.bias])
  exact this
-- 9007199254740993 has 16 digits and is not printed: 15 is the limit
example : formatFloat 64 0x4340000000000000 'f' (-1) 64 = .ok "9007199254740992".toList := by decide +kernel
-- subnormals keep fewer digits: 1.2e-323 is rounded to the subnormal that is printed as 1e-323
example : formatFloat 64 2 'e' (-1) 64 = .ok "1e-323".toList := by decide +kernel

end GoFloat.Strconv
