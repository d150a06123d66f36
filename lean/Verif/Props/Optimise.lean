import Verif.Proofs.Sample
import Verif.Props.FtoaLetters
import Verif.Props.FtoaFixed
/-
The package variable that switches the fast algorithms on does not change any text (C76 of properties.jsonl).
-/
namespace GoFloat.Strconv
open Spec

variable {F : Format} {n k N : ℕ}

/-- The fast algorithm, when it answers, and the exact one give the same digits: the fast one answers only if its decimal is closer than any
other of its length, and if neither midpoint is as short. -/
theorem shortest_same (hF : GoFormat F) (h : Split F n k N) (hN0 : N ≠ 0) {ds ds' : List ℕ} {dp dp' : ℤ} (hfast : FloatShortest F n ds dp)
    (hnd : NormalDec ds' dp') (hin : InInterval F n (decValue ds' dp')) (hexact : FloatUnless F n ds' dp') : ds = ds' ∧ dp = dp' := by
  have hn0 : n ≠ 0 := fun hc => hN0 (h.zero_iff.2 hc)
  have hbi : ∀ y, Between ((F.magc (n - 1) + F.magc n) / 2) ((F.magc n + F.magc (n + 1)) / 2) (decide (n % 2 = 0)) y ↔ InInterval F n y :=
    fun y => between_iff hn0 (by ring) (by ring)
  have hfits := fits_dec (dp := dp) hfast.normal.digit
  have hfits' := fits_dec (dp := dp') hnd.digit
  have hlen : ds.length = ds'.length :=
    le_antisymm (hfast.minimal hn0 hfits' hin) (hexact.1 _ _ hfits ((hbi _).2 hfast.mem))
  by_contra hne
  have hval : decValue ds' dp' ≠ decValue ds dp := by
    intro heq
    obtain ⟨rfl, rfl⟩ := normal_unique hfast.normal hnd heq.symm
    exact hne ⟨rfl, rfl⟩
  have hlt := hfast.closer hF h hN0 (by rw [hlen]; exact hfits') hin hval
  rcases hexact.2 with h2 | ⟨-, h2, -⟩
  · have := h2 _ (by rw [← hlen]; exact hfits) ((hbi _).2 hfast.mem)
    linarith
  · have h3 := h2 _ _ hfits ((hbi _).2 hfast.mem)
    have h4 := hfast.minimal_closed hn0 h3 ⟨by linarith [F.magc_strictMono (show n - 1 < n by omega), F.magc_lt_succ n],
      by linarith⟩
    have : 1 ≤ ds.length := List.length_pos_iff.2 hfast.ne_nil
    omega

theorem formatDigits_neg (short neg : Bool) (ds : List ℕ) (dp : ℤ) (x y : Bool) (prec : ℤ) (fmt : Char) :
    formatDigits short neg ⟨ds, dp, x⟩ prec fmt = formatDigits short neg ⟨ds, dp, y⟩ prec fmt := rfl

theorem ftoaFinite_same {W : ℕ} (hW : W = 32 ∨ W = 64) (hF : GoFormat F) (h : Split F n k N) (neg : Bool) (prec : ℤ) {fmt : Char} (hfmt : DigitFmt fmt) :
    ftoaFinite W true fmt prec neg (BitVec.ofNat 64 N) ((k : ℤ) + 1 - F.bias) (infoOf F) =
      ftoaFinite W false fmt prec neg (BitVec.ofNat 64 N) ((k : ℤ) + 1 - F.bias) (infoOf F) := by
  rcases lt_or_ge prec 0 with hp | hp
  swap
  · rw [ftoaFinite_fixed hW hF h true hp neg hfmt, ftoaFinite_fixed hW hF h false hp neg hfmt]
  obtain ⟨ds, dp, x, a1, a2, a3, a4, a5⟩ := ftoaFinite_short hW hF h true neg
  obtain ⟨ds', dp', x', b1, b2, b3, b4, b5⟩ := ftoaFinite_short hW hF h false neg
  have hdone : ds = ds' ∧ dp = dp' → ftoaFinite W true fmt prec neg (BitVec.ofNat 64 N) ((k : ℤ) + 1 - F.bias) (infoOf F) =
      ftoaFinite W false fmt prec neg (BitVec.ofNat 64 N) ((k : ℤ) + 1 - F.bias) (infoOf F) := by
    rintro ⟨rfl, rfl⟩
    rw [a4 hp hfmt, b4 hp hfmt]
    exact congrArg _ (formatDigits_neg _ _ _ _ _ _ _ _)
  by_cases hN0 : N = 0
  · exact hdone (normal_unique a1 b1 (by rw [a2.2 hN0, b2.2 hN0]; simp [decValue]))
  have hexact := (b5 hN0).resolve_left (by simp)
  obtain ⟨f, lower, upper, hbd⟩ : ∃ f lower upper, assignComputeBounds (BitVec.ofNat 64 N) ((k : ℤ) + 1 - F.bias) neg (infoOf F) = (f, lower, upper) :=
    ⟨_, _, _, rfl⟩
  rcases shortest_float hF h hN0 neg hbd with hs | ⟨dt, pt, hs, hsh⟩
  · have hb : ¬ fmt = 'b' := by
      rintro rfl
      rcases hfmt with h | h | h | h | h <;> exact absurd h (by decide)
    unfold ftoaFinite
    rw [if_neg hb, if_neg (by decide), if_pos hp, hbd, if_neg hb, if_pos (by rfl)]
    dsimp only
    rw [hs, ok_bind]
  · refine hdone (shortest_same hF h hN0 ?_ b1 b3 hexact)
    rcases a5 hN0 with ⟨-, h5⟩ | h5
    · exact h5
    · obtain ⟨rfl, rfl⟩ := shortest_same hF h hN0 hsh a1 a3 h5
      exact hsh

variable {W : ℕ} {fmt : Char}

/-- C76: with the fast algorithms switched off, every known format letter prints the same text, for every float64 (infinities and NaNs too),
precision and size. -/
theorem C76_optimise (hW : W = 32 ∨ W = 64) (hfmt : KnownFormat fmt) (val : F64) (prec size : ℤ) :
    genericFtoa W true val fmt prec size = genericFtoa W false val fmt prec size := by
  by_cases hsize : size = 16 ∨ size = 32 ∨ size = 64
  · obtain ⟨F, v, d, hS, h1, h2, h3⟩ := by_size_all hsize val
    simp only [h1]
    cases d with
    | nan s => simp only [(C46_special hS _ prec _ v).1 s h2]
    | inf s => simp only [(C46_special hS _ prec _ v).2 s h2]
    | num s m =>
      obtain ⟨c, hc⟩ := h3
      have hF := hS.go
      obtain ⟨n, k, N, hs, rfl, -⟩ := value_split hF hc
      rw [genericFtoa_finite hS hs h2, genericFtoa_finite hS hs h2]
      rcases hfmt with rfl | hfmt
      · rfl
      · exact ftoaFinite_same hW hF hs s prec hfmt.digit
  · push Not at hsize
    unfold genericFtoa
    simp only [if_neg hsize.1, if_neg hsize.2.1, if_neg hsize.2.2]

example := C76_optimise (W := 64) (.inr rfl) (fmt := 'g') (by simp [KnownFormat, DecimalFormat]) 0xBFF6000000000000 (-1) 16

/-- C76 for the other letters: the same text unless the precision is 0 and the number is not zero; then the fast algorithm panics and the
exact one does not. -/
theorem C76_unknown (hW : W = 32 ∨ W = 64) {F : Format} {size : ℤ} (hS : SizeOf F size) (hfmt : ¬ KnownFormat fmt) (prec : ℤ) {c : ℕ} {s : Bool} {m : ℚ} {val : F64}
    (hc : F.decode c = .num s m) (hd : double.decode val.toNat = .num s m) :
    genericFtoa W true val fmt prec size = genericFtoa W false val fmt prec size ↔ ¬ (prec = 0 ∧ m ≠ 0) := by
  have h1 := C52_unknown_partial hW hS hfmt prec hc hd
  unfold formatFloat at h1
  have hF := hS.go
  obtain ⟨n, k, N, hs, rfl, -⟩ := value_split hF hc
  have hb : ¬ fmt = 'b' := fun h => hfmt (Or.inl h)
  have h2 : genericFtoa W false val fmt prec size = .ok ['%', fmt] := by
    rw [genericFtoa_finite hS hs hd]
    unfold ftoaFinite
    rw [if_neg hb, if_pos (by rfl), bigFtoa_unknown hW hF hs hfmt]
  rw [h1, h2]
  split <;> rename_i h
  · simp [h]
  · simp [h]

-- the fast algorithm answers for the first float and gives up for the second, a tie, and the third, with a short midpoint
example : genericFtoa 64 true 0x3FB999999999999A 'g' (-1) 64 = .ok "0.1".toList ∧ genericFtoa 64 false 0x3FB999999999999A 'g' (-1) 64 = .ok "0.1".toList := by
  decide +kernel
example : genericFtoa 64 true 0x4310000000000001 'g' (-1) 64 = .ok "1.1258999068426242e+15".toList ∧
    genericFtoa 64 false 0x4310000000000001 'g' (-1) 64 = .ok "1.1258999068426242e+15".toList := by decide +kernel
example : genericFtoa 64 true 0x44dee27bdef22651 'g' (-1) 64 = .ok "5.8339553793802236e+23".toList ∧
    genericFtoa 64 false 0x44dee27bdef22651 'g' (-1) 64 = .ok "5.8339553793802236e+23".toList := by decide +kernel
example : genericFtoa 64 true 0x3FF0000000000000 'x' 0 64 = .error .internal ∧ genericFtoa 64 false 0x3FF0000000000000 'x' 0 64 = .ok "%x".toList := by
  decide +kernel

end GoFloat.Strconv
