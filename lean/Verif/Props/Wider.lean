import Verif.Proofs.Sample
import Verif.Proofs.Sum
import Verif.Props.ShortestExact
/-
C105: a float printed with the size of a wider type.
-/
namespace GoFloat.Strconv
open Spec

variable {F F' : Format} {c c' : ℕ} {s : Bool} {m : ℚ}

/-- The middle of two neighbours is a number of the wider format. -/
theorem middle_wider (ht : F.t + 1 ≤ F'.t) (hq : F'.qmin + 1 ≤ F.qmin) (hb : F.bias ≤ F'.bias) (hw : 2 ≤ F.w) (hw' : 2 ≤ F'.w) {n : ℕ} (hn : n < F.infCode) :
    ∃ k, k < F'.infCode ∧ F'.magc k = (F.magc n + F.magc (n + 1)) / 2 := by
  have hlt : (F.magc n + F.magc (n + 1)) / 2 < (2 : ℚ) ^ (F.bias + 1) := by
    rw [← magc_infCode F hw]
    have h1 := F.magc_strictMono hn
    have h2 := F.magc_strictMono.monotone (show n + 1 ≤ F.infCode by omega)
    linarith
  obtain ⟨k, N, rfl, h2, h3⟩ := F.code_split n
  have e1 := F.magc_eq h2.le h3
  have e2 := F.magc_eq (k := k) (N := N + 1) h2 (by omega)
  rw [← add_assoc] at e2
  have he : (F.magc (k * 2 ^ F.t + N) + F.magc (k * 2 ^ F.t + N + 1)) / 2 = ((2 * N + 1 : ℕ) : ℚ) * (2 : ℚ) ^ (F.qmin + k - 1) := by
    rw [e1, e2, zpow_sub_one₀ (by norm_num)]
    push_cast
    ring
  rw [he] at hlt ⊢
  refine exists_code F' hw' ?_ (by omega) (hlt.trans_le (zpow_le_zpow_right₀ (by norm_num) (by omega)))
  calc 2 * N + 1 < 2 ^ (F.t + 1) * 2 := by omega
    _ = 2 ^ (F.t + 1 + 1) := (pow_succ _ _).symm
    _ ≤ 2 ^ (F'.t + 1) := Nat.pow_le_pow_right (by norm_num) (by omega)

/-- What is rounded to a number in the wider format is rounded to it in the narrower one. -/
theorem interval_wider (ht : F.t + 1 ≤ F'.t) (hq : F'.qmin + 1 ≤ F.qmin) (hb : F.bias ≤ F'.bias) (hw : 2 ≤ F.w) (hw' : 2 ≤ F'.w) {n n' : ℕ} (hn : n < F.infCode)
    (hm : F.magc n = F'.magc n') {y : ℚ} (h : InInterval F' n' y) : InInterval F n y := by
  have hmono := F'.magc_strictMono
  refine ⟨fun h0 => ?_, ?_⟩
  · obtain ⟨k, -, hk⟩ := middle_wider ht hq hb hw hw' (n := n - 1) (by omega)
    rw [show n - 1 + 1 = n by omega] at hk
    have h1 := F.magc_strictMono (show n - 1 < n by omega)
    have h2 : k < n' := hmono.lt_iff_lt.1 (by rw [hk, ← hm]; linarith)
    have h3 := hmono.monotone (show k ≤ n' - 1 by omega)
    have h4 := (h.1 (by omega)).1
    exact ⟨by linarith, fun _ => by linarith⟩
  · obtain ⟨k, -, hk⟩ := middle_wider ht hq hb hw hw' hn
    have h1 := F.magc_strictMono (show n < n + 1 by omega)
    have h2 : n' < k := hmono.lt_iff_lt.1 (by rw [hk, ← hm]; linarith)
    have h3 := hmono.monotone (show n' + 1 ≤ k by omega)
    have h4 := h.2.1
    exact ⟨by linarith, fun _ => by linarith⟩

/-- The encoding of a number of the narrower format is even in the wider one. -/
theorem even_wider (ht : F.t + 1 ≤ F'.t) (hq : F'.qmin + 1 ≤ F.qmin) {n n' : ℕ} (hm : F.magc n = F'.magc n') : n' % 2 = 0 := by
  obtain ⟨k, N, rfl, h2, h3⟩ := F.code_split n
  rw [F.magc_eq h2.le h3] at hm
  have e : (N : ℚ) * (2 : ℚ) ^ (F.qmin + (k : ℤ)) = 2 * ((N : ℤ) : ℚ) * (2 : ℚ) ^ (F.qmin + (k : ℤ) - 1) := by
    rw [zpow_sub_one₀ (by norm_num)]; push_cast; ring
  refine code_even (F := F') (by omega) (j := N) (q := F.qmin + k - 1) (by omega) (by rw [← hm, e]) ?_
  rw [← hm]
  calc (N : ℚ) * (2 : ℚ) ^ (F.qmin + (k : ℤ)) ≤ 2 ^ (F.t + 1) * (2 : ℚ) ^ (F.qmin + (k : ℤ)) :=
        mul_le_mul_of_nonneg_right (by exact_mod_cast h2.le) (by positivity)
    _ = (2 : ℚ) ^ (F.qmin + (k : ℤ) + (F.t + 1 : ℕ)) := by rw [zpow_add₀ (by norm_num) (F.qmin + (k : ℤ)), zpow_natCast]; ring
    _ ≤ _ := zpow_le_zpow_right₀ (by norm_num) (by push_cast; omega)

theorem sizes_wider {size size' : ℤ} (hS : SizeOf F size) (hS' : SizeOf F' size') (h : size < size') :
    F.t + 1 ≤ F'.t ∧ F'.qmin + 1 ≤ F.qmin ∧ F.bias ≤ F'.bias ∧ 2 ≤ F.w ∧ 2 ≤ F'.w ∧ 1 ≤ F.t := by
  rcases hS with ⟨rfl, rfl⟩ | ⟨rfl, rfl⟩ | ⟨rfl, rfl⟩ <;> rcases hS' with ⟨rfl, rfl⟩ | ⟨rfl, rfl⟩ | ⟨rfl, rfl⟩ <;> first | omega | decide

/-- C105: what is read as a number of the wider type is read as the same number of the narrower type. -/
theorem C105_reads {size size' : ℤ} (hS : SizeOf F size) (hS' : SizeOf F' size') (hlt : size < size') (hc : F.decode c = .num s m) (hc' : F'.decode c' = .num s m)
    {y : ℚ} (hy : 0 ≤ y) (h : F'.RoundsTo s y c') : F.RoundsTo s y c := by
  obtain ⟨a1, a2, a3, a4, a5, a6⟩ := sizes_wider hS hS' hlt
  obtain ⟨n, k, N, hs, hm, d1, d2, -⟩ := value_split hS.go hc
  obtain ⟨n', k', N', hs', hm', d1', d2', -⟩ := value_split hS'.go hc'
  rw [roundsTo_congr d1' d2', roundsTo_iff F' (by omega) a5 s hs'.fin hy] at h
  rw [roundsTo_congr d1 d2, roundsTo_iff F a6 a4 s hs.fin hy]
  exact interval_wider a1 a2 a3 a4 a5 hs.fin (hm.symm.trans hm') h

example := C105_reads (size := 16) (size' := 32) (.inl ⟨rfl, rfl⟩) (.inr (.inl ⟨rfl, rfl⟩)) (by norm_num) Sample.x_half Sample.x_single (y := 11 / 8) (by norm_num)

theorem fits_nonneg {n : ℕ} {q : ℚ} (h : FitsDigits n q) : 0 ≤ q := by
  obtain ⟨m, e, -, rfl⟩ := h
  positivity

/-- C105: the texts of a float that is not zero with the size of its type and with the size of a wider type. The wider text is read as the same
float of the narrower type, it has at least as many digits, and the texts are the same exactly if the narrower one is read as the same float of the wider
type and, for an exceptional float (C51), the wider one is not above it. -/
theorem C105_texts {W : ℕ} (hW : W = 32 ∨ W = 64) {size size' : ℤ} (hS : SizeOf F size) (hS' : SizeOf F' size') (hlt : size < size') {fmt : Char} (hfmt : DecimalFormat fmt)
    {prec : ℤ} (hp : prec < 0) (opt : Bool) (hc : F.decode c = .num s m) (hc' : F'.decode c' = .num s m) (hm0 : m ≠ 0) {val : F64}
    (hd : double.decode val.toNat = .num s m) :
    ∃ t t' q q' L L' e e', genericFtoa W opt val fmt prec size = .ok t ∧ genericFtoa W opt val fmt prec size' = .ok t' ∧
      readDecimal t = some (s, q) ∧ readDecimal t' = some (s, q') ∧ F.Printed s c m q L e ∧ F'.Printed s c' m q' L' e' ∧
      F.RoundsTo s q' c ∧ L ≤ L' ∧ (t = t' ↔ q = q') ∧
      (t = t' ↔ F'.RoundsTo s q c' ∧ (F.Exceptional c m L → q' ≤ m)) := by
  obtain ⟨a1, a2, a3, a4, a5, a6⟩ := sizes_wider hS hS' hlt
  obtain ⟨ds, dp, L, e, h1, h2, h3, h4, h5⟩ := short_digits_exact hW hS opt hc hm0 hd
  obtain ⟨ds', dp', L', e', h1', h2', h3', h4', h5'⟩ := short_digits_exact hW hS' opt hc' hm0 hd
  have hrd := formatDigits_shortest_read s h1.digit dp false hfmt.digit h3
  have hrd' := formatDigits_shortest_read s h1'.digit dp' false hfmt.digit h3'
  have hread := C105_reads hS hS' hlt hc hc' (fits_nonneg h5'.fits) h5'.reads
  have hL : L ≤ L' := h5.least _ _ h5'.fits hread
  have htq : formatDigits true s ⟨ds.map (· + 48), dp, false⟩ (shortPrec fmt ds.length dp) fmt =
      formatDigits true s ⟨ds'.map (· + 48), dp', false⟩ (shortPrec fmt ds'.length dp') fmt ↔ decValue ds dp = decValue ds' dp' := by
    constructor
    · intro h
      rw [h, hrd'] at hrd
      exact (Prod.mk.inj (Option.some.inj hrd)).2.symm
    · intro h
      obtain ⟨rfl, rfl⟩ := normal_unique h1 h1' h
      rfl
  refine ⟨_, _, _, _, L, L', e, e', h4 hp hfmt, h4' hp hfmt, hrd, hrd', h5, h5', hread, hL, htq, htq.trans ?_⟩
  generalize decValue ds dp = q at *
  generalize decValue ds' dp' = q' at *
  have hev : c' % 2 = 0 := by
    obtain ⟨n, k, N, hs, hm, -⟩ := value_split hS.go hc
    obtain ⟨n', k', N', hs', hm', -, d2', -⟩ := value_split hS'.go hc'
    have := even_wider a1 a2 (hm.symm.trans hm')
    have := signPart_even F' (by omega) s
    omega
  constructor
  · rintro rfl
    exact ⟨h5'.reads, fun hx => (h5.cut hx).choose_spec.2.1⟩
  · rintro ⟨hr, hx⟩
    obtain rfl : L = L' := le_antisymm hL (h5'.least _ _ h5.fits hr)
    obtain rfl : e = e' := place_unique h5.lower h5.upper h5'.lower h5'.upper
    have hu : (0 : ℚ) < (10 : ℚ) ^ e := zpow_pos (by norm_num) _
    obtain ⟨w', rfl, p'⟩ := h5'.pick (fun h => by have := h.1; omega)
    have hself : F.RoundsTo s m c := by
      obtain ⟨n, k, N, hs, rfl, d1, d2, -⟩ := value_split hS.go hc
      exact (roundsTo_congr d1 d2).2 (roundsTo_self hS.go hs.fin s)
    by_cases hex : F.Exceptional c m L
    · obtain ⟨w, rfl, b1, b2⟩ := h5.cut hex
      have b3 := hx hex
      have hpr := (p' w hr).le
      push_cast at hpr
      generalize (10 : ℚ) ^ e = u at *
      rw [abs_of_nonpos (by linarith), abs_of_nonpos (by linarith)] at hpr
      have h6 : (w : ℚ) * u ≤ w' * u := by linarith
      have h7 : (w' : ℚ) * u < (w + 1) * u := by linarith
      have h8 : (w : ℚ) ≤ w' := le_of_mul_le_mul_right h6 hu
      have h9 : (w' : ℚ) < w + 1 := lt_of_mul_lt_mul_right h7 hu.le
      have h10 : w ≤ w' := by exact_mod_cast h8
      have h11 : w' < w + 1 := by exact_mod_cast h9
      rw [show w = w' by omega]
    · obtain ⟨w, rfl, p⟩ := h5.pick hex
      have := prefer_antisymm hu (p w' hread) (p' w hr) (fun x hxm => by
        have hx0 : 0 ≤ x := by
          have h0 : 0 ≤ m := (zpow_pos (by norm_num) _).le.trans h5.lower
          by_contra hneg
          have h1 : (x : ℚ) < 0 := by exact_mod_cast not_le.1 hneg
          have := mul_neg_of_neg_of_pos h1 hu
          linarith
        obtain ⟨z, rfl⟩ := Int.eq_ofNat_of_zero_le hx0
        exact p z (by have : m = (z : ℚ) * (10 : ℚ) ^ e := by rw [hxm]; push_cast; rfl
                      rw [← this]; exact hself))
      rw [show w = w' by exact_mod_cast this]

example := C105_texts (W := 64) (.inr rfl) (size := 16) (size' := 64) (.inl ⟨rfl, rfl⟩) (.inr (.inr ⟨rfl, rfl⟩)) (by norm_num) (fmt := 'g') (by simp [DecimalFormat]) (prec := -1)
  (by norm_num) true Sample.x_half Sample.x_double (by norm_num) Sample.x_double

-- the half and the float32 next to 1/10, with the three sizes
example : formatFloat 64 0x3FB9980000000000 'g' (-1) 16 = .ok "0.1".toList ∧ formatFloat 64 0x3FB9980000000000 'g' (-1) 32 = .ok "0.099975586".toList ∧
    formatFloat 64 0x3FB9980000000000 'g' (-1) 64 = .ok "0.0999755859375".toList := by decide +kernel
example : formatFloat 64 0x3FB99999A0000000 'g' (-1) 32 = .ok "0.1".toList ∧ formatFloat 64 0x3FB99999A0000000 'g' (-1) 64 = .ok "0.10000000149011612".toList := by
  decide +kernel
-- texts that are the same
example : formatFloat 64 0x3FF8000000000000 'e' (-1) 16 = .ok "1.5e+00".toList ∧ formatFloat 64 0x3FF8000000000000 'e' (-1) 64 = .ok "1.5e+00".toList := by decide +kernel

end GoFloat.Strconv
