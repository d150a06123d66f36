import Verif.Proofs.Sample
import Verif.Props.Agree
import Verif.Props.Exact16
import Verif.Props.ExactChain
/-
Numbers that IsExact accepts convert without loss (C93 of properties.jsonl).
-/
namespace GoFloat
open Spec

variable {W : ℕ} {x : BigFloat}

/-- C93: a number that IsExact64 accepts becomes a float64, a binary128, an 80-bit float and a double-double without loss, each conversion reports
exact, and the float64 comes back from each of them. -/
theorem C93_isExact64 (hW : W = 32 ∨ W = 64) (hx : x.WF) (h : isExact64 W x = .ok true) :
    ∃ r f g x', double.decode (BitVec.toNat (r : F64)) = x.datum ∧ x.float64 = (r, .exact) ∧
      Binary128.newFromBig x = .ok (f, .exact) ∧ f.float64 = .ok (r, .exact) ∧
      Float80x86.newFromBig x = .ok (g, .exact) ∧ g.float64 = .ok (r, .exact) ∧
      Float128ppc.newFromBig x = .ok ((Float128ppc.newFromBits r 0, .exact), x') ∧ (Float128ppc.newFromBits r 0).float64 = .ok (r, .exact) := by
  obtain ⟨r, hr, s, m, hd⟩ := C33_isExact64 hW hx h
  have hn : ∀ s, double.decode r.toNat ≠ .nan s := by rw [hr, hd]; simp
  obtain ⟨h3, h4⟩ := toF64_exact (F := double) (c := r.toNat) (by decide) (by decide) (by decide) (by decide) hx
    (by rw [hr, hd]; exact ⟨rfl, hd⟩ : Decoded (double.decode r.toNat) x false) hn
  have e : (toF64 x false).1 = r := decode_inj64 h3 (by rw [h3]; exact hn)
  obtain ⟨f, f1, -, f2⟩ := Binary128.C16_binary128_float64 r hn
  obtain ⟨g, g1, -, -, g2⟩ := Float80x86.C22_float80x86_float64 r hn
  obtain ⟨x', x1, -⟩ := Float128ppc.C74_float128ppc_big r x hx hr.symm (by rw [hr, hd]; simp)
  refine ⟨r, f, g, x', hr, Prod.ext e h4, ?_, f2, ?_, g2, x1, (Float128ppc.C28_float128ppc_float64 r hn).2⟩
  · rw [Binary128.C74_binary128_big r x hx hr.symm, f1]
  · rw [Float80x86.C74_float80x86_big r x hx hr.symm, g1]

example := C93_isExact64 (W := 64) (.inr rfl) Sample.x_wf (by decide +kernel)

/-- C93: the same for IsExact32 and float32. -/
theorem C93_isExact32 (hW : W = 32 ∨ W = 64) (hx : x.WF) (h : isExact32 W x = .ok true) :
    ∃ r f g p x', single.decode (BitVec.toNat (r : F32)) = x.datum ∧ x.float32 = (r, .exact) ∧
      Binary128.newFromBig x = .ok (f, .exact) ∧ f.float32 = .ok (r, .exact) ∧
      Float80x86.newFromBig x = .ok (g, .exact) ∧ g.float32 = .ok (r, .exact) ∧
      Float128ppc.newFromBig x = .ok ((p, .exact), x') ∧ p.float32 = .ok (r, .exact) := by
  obtain ⟨r, hr, s, m, hd⟩ := C33_isExact32 hW hx h
  have hn : ∀ s, single.decode r.toNat ≠ .nan s := by rw [hr, hd]; simp
  obtain ⟨h3, h4⟩ := toF32_exact (F := single) (c := r.toNat) (by decide) (by decide) (by decide) (by decide) hx
    (by rw [hr, hd]; exact ⟨rfl, hd⟩ : Decoded (single.decode r.toNat) x false) hn
  have e : (toF32 x false).1 = r := decode_inj32 h3 (by rw [h3]; exact hn)
  obtain ⟨f, f1, -, f2⟩ := Binary128.C16_binary128_float32 r hn
  obtain ⟨g, g1, -, -, g2⟩ := Float80x86.C22_float80x86_float32 r hn
  obtain ⟨y, y1, -, y3, -⟩ := Float128ppc.C28_float128ppc_float32 r hn
  have hy : x.datum = double.decode y.toNat := by rw [y1, hr]
  obtain ⟨x', x1, -⟩ := Float128ppc.C74_float128ppc_big y x hx hy (by rw [← hy, hd]; simp)
  have hw : x.datum = double.decode (f32to64 r).toNat := by rw [(f32to64_decode r).2 (by rintro ⟨s, hs⟩; exact hn s hs), hr]
  refine ⟨r, f, g, _, x', hr, Prod.ext e h4, ?_, f2, ?_, g2, x1, y3⟩
  · rw [Binary128.C74_binary128_big _ x hx hw, ← Binary128.C74_binary128_float32, f1]
  · rw [Float80x86.C74_float80x86_big _ x hx hw, ← Float80x86.C74_float80x86_float32, g1]

example := C93_isExact32 (W := 64) (.inr rfl) Sample.x_wf (by decide +kernel)

/-- C93: a number below 4110 that IsExact16 accepts becomes a binary16 without loss, is reported exact, and comes back from `Big`. From 4110 on
IsExact16 accepts numbers that are no binary16 (`C34_least`). -/
theorem C93_isExact16 (hW : W = 32 ∨ W = 64) (hx : x.WF) (h : isExact16 W x = .ok true) {s : Bool} {m : ℚ} (hd : x.datum = .num s m) (hlt : m < 4110) :
    ∃ f y, Binary16.newFromBig x = .ok (f, .exact) ∧ f.big = .ok (y, false) ∧ y.datum = x.datum := by
  obtain ⟨c, hc⟩ := C34_below_partial hW hx h hd hlt
  obtain ⟨n, hn, hm, hcn, hs⟩ := half.code_of_decode hc
  have hlt' := Binary16.code_lt s hn.le
  have hc' : half.decode (BitVec.ofNat 16 (half.signPart s + n)).toNat = .num s m := by
    rw [BitVec.toNat_ofNat, Nat.mod_eq_of_lt hlt', half.decode_code s hn, hm]
  refine ⟨⟨BitVec.ofNat 16 (half.signPart s + n)⟩, ?_⟩
  obtain ⟨y, nan, hy, -, -, -, -, hdy⟩ := Binary16.C02_binary16_big ⟨BitVec.ofNat 16 (half.signPart s + n)⟩
  rw [show half.decode (Binary16.Float.bits ⟨BitVec.ofNat 16 (half.signPart s + n)⟩).toNat = .num s m from hc'] at hdy
  obtain ⟨rfl, hdy⟩ := hdy
  exact ⟨y, Binary16.newFromBig_of_decode hx (hd.trans hc'.symm), hy, hdy.trans hd.symm⟩

example := C93_isExact16 (W := 64) (.inr rfl) Sample.x_wf (by decide +kernel) Sample.x_datum (by norm_num)

/-- C93: without accepting, an exact conversion is still possible: 2^70 has more than 17 digits, but is a float64. -/
theorem C93_converse : isExact64 64 { BigFloat.new with prec := 1, form := .finite, mant := 1, exp := 71 } = .ok false ∧
    BigFloat.float64 { BigFloat.new with prec := 1, form := .finite, mant := 1, exp := 71 } = (0x4450000000000000, .exact) := by
  constructor <;> decide +kernel

-- 1.5 is accepted by IsExact16 and IsExact32, 65537 by IsExact64
example : isExact16 64 { BigFloat.new with prec := 2, form := .finite, mant := 3, exp := 1 } = .ok true ∧
    isExact32 64 { BigFloat.new with prec := 2, form := .finite, mant := 3, exp := 1 } = .ok true ∧
    isExact64 64 { BigFloat.new with prec := 53, form := .finite, mant := 65537, exp := 17 } = .ok true := by
  refine ⟨by decide +kernel, by decide +kernel, by decide +kernel⟩

end GoFloat
