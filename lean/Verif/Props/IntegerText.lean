import Verif.Props.ShownText
import Verif.Props.Integers
import Verif.Props.Itoa
/-
C123: how FormatFloat prints integers.
-/
namespace GoFloat.Strconv
open Spec

variable {W : ℕ} {F : Format} {size : ℤ} {prec : ℤ} {c : ℕ} {s : Bool} {val : F64} {n : ℕ} {t : Text}

/-- A numeral, with or without a minus sign, is a text of the layout of the format `f`, and denotes its number. -/
theorem numeral_text (s : Bool) (h : IsNumeral 10 t n) : readDecimal (minus s ++ t) = some (s, (n : ℚ)) ∧ IsFixed (minus s ++ t) s t [] := by
  have hdig : ∀ x ∈ t, IsDig x := by
    obtain ⟨ds, rfl, hlt, -⟩ := readNumeral_inv h.2.1
    exact isDig_map hlt
  refine ⟨?_, ⟨by simp [pointed], ⟨n, h⟩, by simp⟩⟩
  have := readDecimal_layout s t [] [] hdig h.1 (by simp) (by simp)
  simp only [if_true, List.append_nil] at this
  rw [show minus s = if s then ['-'] else [] from rfl, this, h.2.1]
  simp [readExp]

/-- The shortest decimal that is read back as an integer below 2^p is the integer. -/
theorem printed_integer (hS : SizeOf F size) (hc : F.decode c = .num s n) (h0 : n ≠ 0) (hn : n < 2 ^ (F.t + 1)) {q : ℚ} {L : ℕ} {e : ℤ}
    (h : F.Printed s c n q L e) : q = n := by
  have hnq : (1 : ℚ) ≤ n := by exact_mod_cast Nat.one_le_iff_ne_zero.2 h0
  have hself : F.RoundsTo s n c := by
    obtain ⟨k, k', N, hs, he, d1, d2, -⟩ := value_split hS.go hc
    have := (roundsTo_congr d1 d2).2 (roundsTo_self hS.go hs.fin s)
    rwa [← he] at this
  have heL : 1 ≤ e + L := by
    by_contra hcon
    have h1 : (10 : ℚ) ^ (e + L) ≤ 1 := zpow_le_one_of_nonpos₀ (by norm_num) (by omega)
    linarith [h.upper]
  have he : 0 ≤ e := by
    have hfit : FitsDigits (e + L).toNat (n : ℚ) := by
      refine ⟨n, 0, ?_, by simp⟩
      have h1 := h.upper
      rw [← Int.toNat_of_nonneg (by omega : 0 ≤ e + L), zpow_natCast] at h1
      exact_mod_cast h1
    have := h.least _ _ hfit hself
    omega
  obtain ⟨w, hw⟩ : ∃ w : ℕ, q = w := by
    have : ∃ w : ℕ, q = w * (10 : ℚ) ^ e := by
      by_cases hx : F.Exceptional c n L
      · obtain ⟨w, h1, -⟩ := h.cut hx; exact ⟨w, h1⟩
      · obtain ⟨w, h1, -⟩ := h.pick hx; exact ⟨w, h1⟩
    obtain ⟨w, h1⟩ := this
    refine ⟨w * 10 ^ e.toNat, ?_⟩
    rw [h1]
    conv_lhs => rw [← Int.toNat_of_nonneg he, zpow_natCast]
    push_cast; rfl
  have hr := h.reads
  unfold Format.RoundsTo at hr
  split_ifs at hr with ho
  · rw [hr] at hc; cases hc
  · obtain ⟨r, r1, r2, -⟩ := hr
    rw [hc] at r1
    obtain ⟨-, rfl⟩ := Datum.num.inj r1
    have facts : 2 ≤ F.w ∧ F.qmin ≤ 0 ∧ (F.t : ℤ) + 1 ≤ F.bias := by
      rcases hS.go with rfl | rfl | rfl <;> decide
    rw [hw] at r2 ⊢
    have hdiff : ∀ a b : ℚ, |signed s a - signed s b| = |a - b| := by
      intro a b; unfold signed; split
      · rw [show -a - -b = -(a - b) by ring, abs_neg]
      · rfl
    rcases le_or_gt w (2 ^ (F.t + 1)) with hle | hgt
    · obtain ⟨k, hk, hk'⟩ := integer_code F facts.1 facts.2.1 facts.2.2 hle s
      have := r2 _ _ _ hk'
      rw [hdiff, hdiff, sub_self, abs_zero] at this
      exact sub_eq_zero.1 (abs_nonpos_iff.1 this)
    · exfalso
      obtain ⟨k, hk, hk'⟩ := integer_code F facts.1 facts.2.1 facts.2.2 (le_refl (2 ^ (F.t + 1))) s
      have := r2 _ _ _ hk'
      have a1 : (n : ℚ) < ((2 ^ (F.t + 1) : ℕ) : ℚ) := by exact_mod_cast hn
      have a2 : ((2 ^ (F.t + 1) : ℕ) : ℚ) < w := by exact_mod_cast hgt
      rw [hdiff, hdiff, abs_of_pos (by linarith), abs_of_pos (by linarith)] at this
      linarith

/-- C123: with precision 0, the format `f` prints every float that is an integer as the numeral of the integer, however large. -/
theorem C123_fixed (hW : W = 32 ∨ W = 64) (hS : SizeOf F size) (hc : F.decode c = .num s n) (hd : double.decode val.toNat = .num s n)
    (ht : IsNumeral 10 t n) : formatFloat W val 'f' 0 size = .ok (minus s ++ t) := by
  obtain ⟨h1, h2⟩ := numeral_text s ht
  refine (C89_formatFloat hW hS (by simp [DecimalFormat]) 0 hc hd _ []).1.2 ⟨n, ?_, h1, [], ?_, by simp⟩
  · unfold Format.Shows
    rw [if_neg (by norm_num), if_pos rfl]
    exact ⟨n, by unfold NearestEven; simp, by simp⟩
  · rw [if_pos rfl]; exact ⟨t, h2⟩

/-- C123: with a negative precision, so does it for integers below 2^p, and so does the format `g` for those below a million. -/
theorem C123_shortest (hW : W = 32 ∨ W = 64) (hS : SizeOf F size) (hp : prec < 0) (hc : F.decode c = .num s n)
    (hd : double.decode val.toNat = .num s n) (hn : n < 2 ^ (F.t + 1)) (ht : IsNumeral 10 t n) :
    formatFloat W val 'f' prec size = .ok (minus s ++ t) ∧ (n < 1000000 → formatFloat W val 'g' prec size = .ok (minus s ++ t)) := by
  obtain ⟨h1, h2⟩ := numeral_text s ht
  have hshow : ∀ fmt, DecimalFormat fmt → F.Shows fmt prec s c n n := by
    intro fmt hfmt
    unfold Format.Shows
    rw [if_pos hp]
    refine ⟨id, fun h0 => ?_⟩
    obtain ⟨-, q, L, e, -, -, hpr⟩ := C77_printed hW hS hfmt hp true hc h0 hd
    obtain rfl := printed_integer hS hc (by exact_mod_cast h0) hn hpr
    exact ⟨L, e, hpr⟩
  constructor
  · exact (C89_formatFloat hW hS (by simp [DecimalFormat]) prec hc hd _ []).1.2 ⟨n, hshow _ (by simp [DecimalFormat]), h1, [],
      by rw [if_pos rfl]; exact ⟨t, h2⟩, by simp [hp]⟩
  · intro hlt
    refine (C89_formatFloat hW hS (by simp [DecimalFormat]) prec hc hd _ []).1.2 ⟨n, hshow _ (by simp [DecimalFormat]), h1, [], ?_, by simp⟩
    rw [if_neg (by decide), if_pos (by simp), if_neg ?_]
    · exact ⟨t, h2⟩
    · rintro ⟨h0, h⟩
      have hnq : (1 : ℚ) ≤ n := by exact_mod_cast Nat.one_le_iff_ne_zero.2 (by exact_mod_cast h0)
      rcases h with h | h
      · linarith
      · rw [if_pos hp] at h
        have : (n : ℚ) < 1000000 := by exact_mod_cast hlt
        linarith

/-- The text of `FormatInt` in base ten. -/
theorem formatInt_minus (hW : W = 32 ∨ W = 64) (i : BitVec 64) :
    ∃ t, formatInt W i 10 = .ok (minus (decide (i.toInt < 0)) ++ t) ∧ IsNumeral 10 t i.toInt.natAbs := by
  obtain ⟨u, h1, h2⟩ := C39_formatInt hW i (base := 10) (by norm_num) (by norm_num)
  unfold IsIntNumeral at h2
  split_ifs at h2 with h
  · obtain ⟨t, rfl, ht⟩ := h2
    exact ⟨t, by rw [h1]; simp [minus, h], ht⟩
  · exact ⟨u, by rw [h1]; simp [minus, h], h2⟩

/-- C123: `FormatFloat` and `FormatInt` agree: on every int64 that is a float with precision 0, on those below 2^p with a negative precision, and on those below a
million in the format `g`. -/
theorem C123_formatInt (hW : W = 32 ∨ W = 64) (hS : SizeOf F size) (i : BitVec 64) (hc : F.decode c = .num (decide (i.toInt < 0)) i.toInt.natAbs)
    (hd : double.decode val.toNat = .num (decide (i.toInt < 0)) i.toInt.natAbs) :
    formatFloat W val 'f' 0 size = formatInt W i 10 ∧
    (prec < 0 → |i.toInt| < 2 ^ (F.t + 1) → formatFloat W val 'f' prec size = formatInt W i 10) ∧
    (prec < 0 → |i.toInt| < 2 ^ (F.t + 1) → |i.toInt| < 1000000 → formatFloat W val 'g' prec size = formatInt W i 10) := by
  obtain ⟨t, h1, h2⟩ := formatInt_minus hW i
  rw [h1]
  have hab : ∀ N : ℕ, |i.toInt| < (N : ℤ) → i.toInt.natAbs < N := fun N h => by rw [Int.abs_eq_natAbs] at h; exact_mod_cast h
  refine ⟨C123_fixed hW hS hc hd h2, fun hp hb => ?_, fun hp hb hm => ?_⟩
  · exact (C123_shortest hW hS hp hc hd (hab _ (by exact_mod_cast hb)) h2).1
  · exact (C123_shortest hW hS hp hc hd (hab _ (by exact_mod_cast hb)) h2).2 (hab _ (by exact_mod_cast hm))

/-- C123 for `FormatUint`. -/
theorem C123_formatUint (hW : W = 32 ∨ W = 64) (hS : SizeOf F size) (u : BitVec 64) (hc : F.decode c = .num false u.toNat)
    (hd : double.decode val.toNat = .num false u.toNat) :
    formatFloat W val 'f' 0 size = formatUint W u 10 ∧
    (prec < 0 → u.toNat < 2 ^ (F.t + 1) → formatFloat W val 'f' prec size = formatUint W u 10) ∧
    (prec < 0 → u.toNat < 2 ^ (F.t + 1) → u.toNat < 1000000 → formatFloat W val 'g' prec size = formatUint W u 10) := by
  obtain ⟨t, h1, h2⟩ := C39_formatUint hW u (base := 10) (by norm_num) (by norm_num)
  rw [h1]
  exact ⟨C123_fixed hW hS hc hd h2, fun hp hb => (C123_shortest hW hS hp hc hd hb h2).1, fun hp hb hm => (C123_shortest hW hS hp hc hd hb h2).2 hm⟩

/-- C123, the bound 2^p is needed: with precision -1 the half 65504 is printed as 65500 and the double 2^60, which is 1152921504606846976, with three zeros at the end;
and the format `g` prints a million with an exponent. -/
theorem C123_bounds : half.decode 0x7BFF = .num false (65504 : ℕ) ∧ double.decode 0x40EFFC0000000000 = .num false (65504 : ℕ) ∧
    formatFloat 64 0x40EFFC0000000000 'f' (-1) 16 = .ok "65500".toList ∧
    double.decode 0x43B0000000000000 = .num false ((2 ^ 60 : ℕ) : ℚ) ∧ formatFloat 64 0x43B0000000000000 'f' (-1) 64 = .ok "1152921504606847000".toList ∧
    double.decode 0x412E848000000000 = .num false (1000000 : ℕ) ∧ formatFloat 64 0x412E848000000000 'g' (-1) 64 = .ok "1e+06".toList := by
  refine ⟨?_, ?_, by decide +kernel, ?_, by decide +kernel, ?_, by decide +kernel⟩ <;> norm_num [half, double, Format.decode, Format.bias]

/-- C123 is not vacuous: -11, as a half and as a double. -/
theorem minus_eleven : half.decode 0xC980 = .num true (11 : ℕ) ∧ double.decode 0xC026000000000000 = .num true (11 : ℕ) := by
  constructor <;> norm_num [half, double, Format.decode, Format.bias]

example := C123_formatInt (W := 32) (.inl rfl) (F := half) (size := 16) (.inl ⟨rfl, rfl⟩) (prec := -1) (-11) (val := 0xC026000000000000) minus_eleven.1 minus_eleven.2
example := C123_fixed (W := 64) (.inr rfl) (F := half) (size := 16) (.inl ⟨rfl, rfl⟩) (val := 0xC026000000000000) minus_eleven.1 minus_eleven.2
  (t := "11".toList) ⟨by decide, by decide, by decide⟩
example := C123_shortest (W := 64) (.inr rfl) (F := half) (size := 16) (.inl ⟨rfl, rfl⟩) (prec := -1) (by norm_num) (val := 0xC026000000000000) minus_eleven.1
  minus_eleven.2 (by norm_num [half]) (t := "11".toList) ⟨by decide, by decide, by decide⟩

theorem million_double : double.decode 0x412E848000000000 = .num false (1000000 : ℕ) := by norm_num [double, Format.decode, Format.bias]

example := C123_formatUint (W := 64) (.inr rfl) (F := double) (size := 64) (.inr (.inr ⟨rfl, rfl⟩)) (prec := -1) 1000000 (val := 0x412E848000000000) million_double
  million_double

end GoFloat.Strconv
