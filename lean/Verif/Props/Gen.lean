import Verif.Proofs.Gen
import Verif.Proofs.FormatFloat
import Verif.Proofs.Monotone
import Mathlib.Data.List.Nodup
/-
Property C68: the tests that the programs gen.go generate.
-/
namespace GoFloat
open Spec

/-- A loop in which no round panics. -/
theorem mapM_ok {α β : Type} {f : α → Go β} {P : α → β → Prop} : ∀ {l : List α}, (∀ a ∈ l, ∃ b, f a = .ok b ∧ P a b) →
    ∃ bs, l.mapM f = .ok bs ∧ List.Forall₂ P l bs
  | [], _ => ⟨[], by simp [pure, Except.pure], .nil⟩
  | a :: l, h => by
    obtain ⟨b, hb, hp⟩ := h a List.mem_cons_self
    obtain ⟨bs, hbs, hps⟩ := mapM_ok (l := l) fun a ha => h a (List.mem_cons_of_mem _ ha)
    exact ⟨b :: bs, by rw [List.mapM_cons, hb, hbs]; rfl, .cons hp hps⟩

theorem forall₂_map {α β γ : Type} {P : α → β → Prop} {g : α → γ} {h : β → γ} : ∀ {l : List α} {bs : List β}, List.Forall₂ P l bs →
    (∀ a b, P a b → h b = g a) → bs.map h = l.map g
  | _, _, .nil, _ => rfl
  | _, _, .cons hp hs, hh => by rw [List.map_cons, List.map_cons, hh _ _ hp, forall₂_map hs hh]

theorem forall₂_mem {α β : Type} {P : α → β → Prop} {Q : β → Prop} : ∀ {l : List α} {bs : List β}, List.Forall₂ P l bs →
    (∀ a ∈ l, ∀ b, P a b → Q b) → ∀ b ∈ bs, Q b
  | _, _, .nil, _ => by simp
  | _, _, .cons hp hs, hh => by
    intro b hb
    rcases List.mem_cons.1 hb with rfl | h
    · exact hh _ List.mem_cons_self _ hp
    · exact forall₂_mem hs (fun a ha => hh a (List.mem_cons_of_mem _ ha)) b h

namespace Binary16.Gen

/-- The checks of binary16/extra_test.tmpl for one row: `want` is a float64 expression, `NewFromBits(bits)`
converts to it, and it and its float32 convert to `bits`. -/
def Row.Passes (r : Row) : Prop := ∃ w, r.want.eval = some w ∧
  (∃ acc, (newFromBits r.bits).float64 = .ok (w, acc)) ∧
  (∃ f acc, newFromFloat32 (f64to32 w) = .ok (f, acc) ∧ f.bitsOf = r.bits) ∧
  (∃ f acc, newFromFloat64 w = .ok (f, acc) ∧ f.bitsOf = r.bits)

theorem passes_of {r : Row} {w : F64} (hw : r.want.eval = some w) {s : Bool} {m : ℚ} (hd : half.decode r.bits.toNat = .num s m)
    (hv : double.decode w.toNat = .num s m) : r.Passes := by
  refine ⟨w, hw, ⟨.exact, ?_⟩, ?_, ?_⟩
  · obtain ⟨v, h1, h2⟩ := C04_binary16_float64 (newFromBits r.bits)
    rw [show half.decode (newFromBits r.bits).bits.toNat = .num s m from hd] at h2
    rw [h1, decode_inj64 (x := v) (y := w) (by rw [hv]; exact h2) (by rw [show double.decode v.toNat = .num s m from h2]; simp)]
  · obtain ⟨v, h1, h2⟩ := C04_binary16_float32 (newFromBits r.bits)
    obtain ⟨v', h3, h4⟩ := C05_binary16_float32_roundtrip (newFromBits r.bits)
    rw [h1] at h3
    obtain rfl : v = v' := by simpa using h3
    rw [show half.decode (newFromBits r.bits).bits.toNat = .num s m from hd] at h2 h4
    rw [f64to32_of hv h2]
    exact ⟨_, _, h4, rfl⟩
  · exact ⟨_, _, newFromFloat64_of_decode (f := newFromBits r.bits) (by
      rw [show half.decode (newFromBits r.bits).bits.toNat = .num s m from hd]; simp) (hv.trans hd.symm), rfl⟩

theorem decode_row {s e m : ℕ} (hs : s < 2) (he : e < 31) (hm : m < 1024) :
    half.decode (rowBits s e m).toNat = .num (s = 1) (if e = 0 then 2 ^ (-14 : ℤ) * ((m : ℚ) * 2 ^ (-10 : ℤ))
      else 2 ^ ((e : ℤ) - 15) * (((1 * 2 ^ 10 + m : ℕ) : ℚ) * 2 ^ (-10 : ℤ))) := by
  rw [rowBits_toNat hs (by omega) hm]
  unfold Format.decode
  have hb : half.bias = 15 := by decide
  have h1 : (s * 2 ^ 15 + e * 2 ^ 10 + m) / 2 ^ (half.t + half.w) % 2 = s := by
    show (s * 2 ^ 15 + e * 2 ^ 10 + m) / 2 ^ 15 % 2 = s
    omega
  have h2 : (s * 2 ^ 15 + e * 2 ^ 10 + m) / 2 ^ half.t % 2 ^ half.w = e := by
    show (s * 2 ^ 15 + e * 2 ^ 10 + m) / 2 ^ 10 % 2 ^ 5 = e
    omega
  have h3 : (s * 2 ^ 15 + e * 2 ^ 10 + m) % 2 ^ half.t = m := by
    show (s * 2 ^ 15 + e * 2 ^ 10 + m) % 2 ^ 10 = m
    omega
  simp only [h1, h2, h3, hb]
  have h4 : half.t = 10 := rfl
  have h5 : half.w = 5 := rfl
  rw [if_neg (by rw [h5]; omega), h4]
  split
  · congr 1
  · congr 1
    push_cast
    norm_num
    left; ring

theorem zero_decode : double.decode F64.negZero.toNat = .num true 0 ∧ double.decode (0 : F64).toNat = .num false 0 := by
  constructor <;> simp [Format.decode, double, Format.bias, F64.negZero]

theorem eval_value {x : F64} {s : Bool} {m : ℚ} (hd : double.decode x.toNat = .num s m) (h : s = true → m ≠ 0) :
    (Lit.value x).eval = some x := by
  unfold Lit.eval
  have h1 : ¬ x.toNat % 2 ^ 63 ≥ 0x7FF * 2 ^ 52 := by
    intro h2
    have hx := x.isLt
    unfold Format.decode at hd
    have h3 : x.toNat / 2 ^ double.t % 2 ^ double.w = 2 ^ double.w - 1 := by
      show x.toNat / 2 ^ 52 % 2 ^ 11 = 2 ^ 11 - 1
      omega
    simp only [h3, if_true] at hd
    split at hd <;> simp at hd
  have h2 : x ≠ F64.negZero := by
    rintro rfl
    rw [zero_decode.1] at hd
    simp only [Datum.num.injEq] at hd
    exact h hd.1.symm hd.2.symm
  simp only [h1, h2, if_false]

theorem normalizedRow_spec {s e m : ℕ} (hs : s < 2) (he : 1 ≤ e) (he' : e < 31) (hm : m < 1024) :
    ∃ r, normalizedRow s e m = .ok r ∧ r.bits = rowBits s e m ∧ r.Passes := by
  obtain ⟨x, hx, hd⟩ := mantissa_spec (lead := 1) le_rfl hm
  have hw := want_spec (k := (e : ℤ) - 15) hs le_rfl hm (by omega) (by omega) hd
  have hr := decode_row hs he' hm
  rw [if_neg (by omega)] at hr
  unfold normalizedRow
  rw [hx]
  refine ⟨_, rfl, rfl, ?_⟩
  refine passes_of (eval_value hw fun _ => ?_) hr hw
  positivity

theorem denormalizedRow_spec {s m : ℕ} (hs : s < 2) (hm : m < 1024) :
    ∃ r, denormalizedRow s m = .ok r ∧ r.bits = rowBits s 0 m ∧ r.Passes := by
  obtain ⟨x, hx, hd⟩ := mantissa_spec (lead := 0) (by norm_num) hm
  have hw := want_spec (k := -14) hs (by norm_num) hm (by omega) (by omega) hd
  have hr := decode_row (e := 0) hs (by norm_num) hm
  rw [if_pos rfl] at hr
  rw [zero_mul, zero_add] at hw
  unfold denormalizedRow
  rw [hx]
  refine ⟨_, rfl, rfl, ?_⟩
  have hz : rowBits s 0 m = 0x8000 ↔ s = 1 ∧ m = 0 := by
    rw [← BitVec.toNat_inj, rowBits_toNat hs (by norm_num) hm]
    show _ = 32768 ↔ _
    omega
  by_cases h : rowBits s 0 m = 0x8000
  · refine passes_of (w := F64.negZero) ?_ hr ?_
    · show (if rowBits s 0 m = 0x8000 then Lit.negZero else _).eval = _
      rw [if_pos h]; rfl
    · obtain ⟨rfl, rfl⟩ := hz.1 h
      rw [zero_decode.1]; simp
  · refine passes_of (w := f64mul (f64mul (powMinusOne s) (powTwo (-14))) x) ?_ hr hw
    · show (if rowBits s 0 m = 0x8000 then Lit.negZero else _).eval = _
      rw [if_neg h]
      refine eval_value hw fun h1 h2 => h (hz.2 ?_)
      refine ⟨by simpa using h1, ?_⟩
      have : (2 : ℚ) ^ (-14 : ℤ) ≠ 0 := by positivity
      simpa using h2

/-- The encodings of the rows, in order. -/
def normalizedCodes : List (ℕ × ℕ × ℕ) := (List.range 2).flatMap fun signbit =>
  (List.range 0x1E).flatMap fun exp => (List.range 0x400).map fun mant => (signbit, exp + 1, mant)

/-- The encodings of the rows, in order. -/
def denormalizedCodes : List (ℕ × ℕ) := (List.range 2).flatMap fun signbit => (List.range 0x400).map fun mant => (signbit, mant)

theorem mem_normalizedCodes (t : ℕ × ℕ × ℕ) : t ∈ normalizedCodes ↔ t.1 < 2 ∧ 1 ≤ t.2.1 ∧ t.2.1 < 31 ∧ t.2.2 < 1024 := by
  obtain ⟨s, e, m⟩ := t
  simp only [normalizedCodes, List.mem_flatMap, List.mem_map, List.mem_range, Prod.mk.injEq]
  constructor
  · rintro ⟨a, ha, b, hb, c, hc, rfl, rfl, rfl⟩; omega
  · intro h; exact ⟨s, h.1, e - 1, by omega, m, h.2.2.2, rfl, by omega, rfl⟩

theorem mem_denormalizedCodes (t : ℕ × ℕ) : t ∈ denormalizedCodes ↔ t.1 < 2 ∧ t.2 < 1024 := by
  obtain ⟨s, m⟩ := t
  simp only [denormalizedCodes, List.mem_flatMap, List.mem_map, List.mem_range, Prod.mk.injEq]
  constructor
  · rintro ⟨a, ha, c, hc, rfl, rfl⟩; omega
  · intro h; exact ⟨s, h.1, m, h.2, rfl, rfl⟩

theorem nodup_flatMap' {α β : Type} {l : List α} (hl : l.Nodup) {f : α → List β} (hf : ∀ a ∈ l, (f a).Nodup) (g : β → α)
    (hg : ∀ a ∈ l, ∀ b ∈ f a, g b = a) : (l.flatMap f).Nodup := by
  rw [List.nodup_flatMap]
  refine ⟨hf, ?_⟩
  refine List.Pairwise.imp_of_mem ?_ hl
  intro a b ha hb hne c h1 h2
  exact hne ((hg a ha c h1).symm.trans (hg b hb c h2))

theorem nodup_normalizedCodes : normalizedCodes.Nodup := by
  refine nodup_flatMap' List.nodup_range (fun s _ => ?_) (fun t => t.1) ?_
  · refine nodup_flatMap' List.nodup_range (fun e _ => ?_) (fun t => t.2.1 - 1) ?_
    · exact List.nodup_range.map fun a b h => by simpa using h
    · intro e _ t ht
      obtain ⟨m, -, rfl⟩ := List.mem_map.1 ht
      simp
  · intro s _ t ht
    obtain ⟨e, -, h⟩ := List.mem_flatMap.1 ht
    obtain ⟨m, -, rfl⟩ := List.mem_map.1 h
    rfl

theorem nodup_denormalizedCodes : denormalizedCodes.Nodup := by
  refine nodup_flatMap' List.nodup_range (fun s _ => ?_) (fun t => t.1) ?_
  · exact List.nodup_range.map fun a b h => by simpa using h
  · intro s _ t ht
    obtain ⟨m, -, rfl⟩ := List.mem_map.1 ht
    rfl

/-- C68: the generator of the binary16 tests does not panic; every generated check passes; and the rows list
every encoding of a number exactly once, the normalized and the denormalized ones in the right table. -/
theorem C68_binary16 : ∃ ns ds, getNormalized = .ok ns ∧ getDenormalized = .ok ds ∧
    (∀ r ∈ ns ++ ds, r.Passes) ∧ (ns.map Row.bits).Nodup ∧ (ds.map Row.bits).Nodup ∧
    (∀ b : BitVec 16, b ∈ ns.map Row.bits ↔ 1 ≤ b.toNat / 2 ^ 10 % 2 ^ 5 ∧ b.toNat / 2 ^ 10 % 2 ^ 5 ≤ 30) ∧
    (∀ b : BitVec 16, b ∈ ds.map Row.bits ↔ b.toNat / 2 ^ 10 % 2 ^ 5 = 0) := by
  obtain ⟨ns, hn, hn2⟩ := mapM_ok (l := normalizedCodes) (f := fun (signbit, exp, mant) => normalizedRow signbit exp mant)
    (P := fun t r => r.bits = rowBits t.1 t.2.1 t.2.2 ∧ r.Passes) (by
      rintro ⟨s, e, m⟩ ht
      obtain ⟨h1, h2, h3, h4⟩ := (mem_normalizedCodes _).1 ht
      exact normalizedRow_spec h1 h2 h3 h4)
  obtain ⟨ds, hd, hd2⟩ := mapM_ok (l := denormalizedCodes) (f := fun (signbit, mant) => denormalizedRow signbit mant)
    (P := fun t r => r.bits = rowBits t.1 0 t.2 ∧ r.Passes) (by
      rintro ⟨s, m⟩ ht
      obtain ⟨h1, h2⟩ := (mem_denormalizedCodes _).1 ht
      exact denormalizedRow_spec h1 h2)
  have en := forall₂_map (h := Row.bits) (g := fun t => rowBits t.1 t.2.1 t.2.2) hn2 (by rintro ⟨a, b, c⟩ r ⟨h1, -⟩; exact h1)
  have ed := forall₂_map (h := Row.bits) (g := fun t => rowBits t.1 0 t.2) hd2 (by rintro ⟨a, b⟩ r ⟨h1, -⟩; exact h1)
  refine ⟨ns, ds, hn, hd, ?_, ?_, ?_, ?_, ?_⟩
  · intro r hr
    rcases List.mem_append.1 hr with h | h
    · exact forall₂_mem hn2 (fun _ _ _ h => h.2) r h
    · exact forall₂_mem hd2 (fun _ _ _ h => h.2) r h
  · rw [en]
    refine List.Nodup.map_on ?_ nodup_normalizedCodes
    rintro ⟨s, e, m⟩ h ⟨s', e', m'⟩ h' heq
    obtain ⟨h1, h2, h3, h4⟩ := (mem_normalizedCodes _).1 h
    obtain ⟨h1', h2', h3', h4'⟩ := (mem_normalizedCodes _).1 h'
    simp only at *
    rw [← BitVec.toNat_inj, rowBits_toNat h1 (by omega) h4, rowBits_toNat h1' (by omega) h4'] at heq
    simp only [Prod.mk.injEq]
    omega
  · rw [ed]
    refine List.Nodup.map_on ?_ nodup_denormalizedCodes
    rintro ⟨s, m⟩ h ⟨s', m'⟩ h' heq
    obtain ⟨h1, h2⟩ := (mem_denormalizedCodes _).1 h
    obtain ⟨h1', h2'⟩ := (mem_denormalizedCodes _).1 h'
    simp only at *
    rw [← BitVec.toNat_inj, rowBits_toNat h1 (by omega) h2, rowBits_toNat h1' (by omega) h2'] at heq
    simp only [Prod.mk.injEq]
    omega
  · intro b
    rw [en, List.mem_map]
    have hb := b.isLt
    constructor
    · rintro ⟨⟨s, e, m⟩, h, rfl⟩
      obtain ⟨h1, h2, h3, h4⟩ := (mem_normalizedCodes _).1 h
      simp only at *
      rw [rowBits_toNat h1 (by omega) h4]
      omega
    · intro h
      refine ⟨(b.toNat / 2 ^ 15, b.toNat / 2 ^ 10 % 2 ^ 5, b.toNat % 2 ^ 10), ?_, ?_⟩
      · rw [mem_normalizedCodes]; simp only; omega
      · simp only
        rw [← BitVec.toNat_inj, rowBits_toNat (by omega) (by omega) (by omega)]
        omega
  · intro b
    rw [ed, List.mem_map]
    have hb := b.isLt
    constructor
    · rintro ⟨⟨s, m⟩, h, rfl⟩
      obtain ⟨h1, h2⟩ := (mem_denormalizedCodes _).1 h
      simp only at *
      rw [rowBits_toNat h1 (by omega) h2]
      omega
    · intro h
      refine ⟨(b.toNat / 2 ^ 15, b.toNat % 2 ^ 10), ?_, ?_⟩
      · rw [mem_denormalizedCodes]; simp only; omega
      · simp only
        rw [← BitVec.toNat_inj, rowBits_toNat (by omega) (by omega) (by omega)]
        omega

-- two rows, as the generator writes them: -1.25 * 2^3 and the negative zero
example : normalizedRow 1 18 0x100 = .ok ⟨0xC900, .value 0xC024000000000000⟩ := by decide +kernel
example : denormalizedRow 1 0 = .ok ⟨0x8000, .negZero⟩ ∧ denormalizedRow 0 3 = .ok ⟨0x0003, .value 0x3E88000000000000⟩ := by
  decide +kernel

end Binary16.Gen

namespace Binary128.Gen

/-- The checks of binary128/extra_test.tmpl for one row: `NewFromBits(a, b)` is the number printed in the row,
and converts to the double of the row with the accuracy of the row; that double and its float32 survive the
conversion to binary128 and back. -/
def Row.Passes (r : Row) : Prop := ∃ w, r.want64.eval = some w ∧
  (newFromBits r.a r.b).big = .ok (r.want, false) ∧
  (newFromBits r.a r.b).float64 = .ok (w, r.acc64) ∧
  (∃ f acc, newFromFloat64 w = .ok (f, acc) ∧ ∃ acc', f.float64 = .ok (w, acc')) ∧
  (∃ f acc, newFromFloat32 (f64to32 w) = .ok (f, acc) ∧ ∃ acc', f.float32 = .ok (f64to32 w, acc'))

/-- The word `a` of a row. -/
def rowA (signbit exp : ℕ) (mantBits : MantBits) : BitVec 64 :=
  BitVec.ofNat 64 signbit <<< 63 ||| BitVec.ofNat 64 exp <<< 48 ||| mantBits.a

theorem rowA_toNat {s e : ℕ} {m : MantBits} (hs : s < 2) (he : e < 2 ^ 15) (hm : m.a.toNat < 2 ^ 48) :
    (rowA s e m).toNat = s * 2 ^ 63 + e * 2 ^ 48 + m.a.toNat := by
  unfold rowA
  rw [BitVec.toNat_or, BitVec.toNat_or, BitVec.toNat_shiftLeft, BitVec.toNat_shiftLeft, BitVec.toNat_ofNat, BitVec.toNat_ofNat,
    Nat.shiftLeft_eq, Nat.shiftLeft_eq, Nat.mod_eq_of_lt (a := s) (by omega), Nat.mod_eq_of_lt (a := e) (by omega),
    Nat.mod_eq_of_lt (a := s * 2 ^ 63) (by omega), Nat.mod_eq_of_lt (a := e * 2 ^ 48) (by omega),
    nat_or_field (by omega), show s * 2 ^ 63 + e * 2 ^ 48 = (s * 2 ^ 15 + e) * 2 ^ 48 by ring, nat_or_field (by omega)]

theorem lit_eval {w : F64} (h : ∀ s, double.decode w.toNat ≠ .nan s) : (lit w).eval = some w := by
  unfold lit
  split_ifs with h1 h2 h3
  · rw [h1]; rfl
  · rw [h2]; rfl
  · rw [h3]; rfl
  · unfold Lit.eval
    have h4 : ¬ w.toNat % 2 ^ 63 ≥ 0x7FF * 2 ^ 52 := by
      intro h4
      have hw := w.isLt
      have hm : w.toNat % 2 ^ 52 = 0 := by
        by_contra hm
        obtain ⟨s, hs⟩ : ∃ s, double.decode w.toNat = .nan s := by
          rw [decode_nan_iff]
          show w.toNat / 2 ^ 52 % 2 ^ 11 = 2 ^ 11 - 1 ∧ w.toNat % 2 ^ 52 ≠ 0
          omega
        exact h s hs
      rw [← BitVec.toNat_inj] at h2 h3
      have e2 : (F64.inf 1).toNat = 0x7FF * 2 ^ 52 := by decide
      have e3 : (F64.inf (-1)).toNat = 0xFFF * 2 ^ 52 := by decide
      omega
    simp only [h4, h1, if_false]

theorem parse_zero (s : Bool) (e : ℤ) (he : e = -16382) :
    big0.parse (bigText s 0 0 0 e) = some (if s then big0.negSelf else big0) := by
  subst he; cases s <;> decide +kernel

theorem row_spec {s lead exp : ℕ} {exponent : ℤ} {m : MantBits} (hs : s < 2) (hm : m.a.toNat < 2 ^ 48)
    (h : (1 ≤ exp ∧ exp ≤ 0x7FFE ∧ lead = 1 ∧ exponent = (exp : ℤ) - 16383) ∨ (exp = 0 ∧ lead = 0 ∧ exponent = -16382)) :
    ∃ r, row s lead exp exponent m = .ok r ∧ (r.a = rowA s exp m ∧ r.b = m.b) ∧ r.Passes ∧
      r.want.datum = quad.decode (s * 2 ^ 127 + exp * 2 ^ 112 + m.a.toNat * 2 ^ 64 + m.b.toNat) := by
  have he : exp < 2 ^ 15 := by omega
  have hb := m.b.isLt
  set f : Float := newFromBits (rowA s exp m) m.b with hf
  have hA := rowA_toNat hs he hm
  have hcode : f.code = s * 2 ^ 127 + exp * 2 ^ 112 + m.a.toNat * 2 ^ 64 + m.b.toNat := by
    unfold Float.code
    show (rowA s exp m).toNat * 2 ^ 64 + m.b.toNat = _
    rw [hA]; ring
  have hsb : f.signbit = decide (s = 1) := by
    rw [signbit_eq, hcode]
    have : (s * 2 ^ 127 + exp * 2 ^ 112 + m.a.toNat * 2 ^ 64 + m.b.toNat) / 2 ^ 127 % 2 = s := by omega
    rw [this]
  have hexp : f.exp = (exp : ℤ) := by
    rw [exp_eq, hcode]
    have : (s * 2 ^ 127 + exp * 2 ^ 112 + m.a.toNat * 2 ^ 64 + m.b.toNat) / 2 ^ 112 % 2 ^ 15 = exp := by omega
    rw [this]
  have hf1 : f.frac.1 = m.a := by
    rw [← BitVec.toNat_inj, frac1_eq]
    show (rowA s exp m).toNat % 2 ^ 48 = _
    rw [hA]; omega
  have hf2 : f.frac.2 = m.b := rfl
  have htext : text s lead m exponent = bigText f.signbit lead f.frac.1 f.frac.2 exponent := by
    rw [hsb, hf1, hf2]
    unfold text bigText
    simp only [decide_eq_true_eq]
  have hnan : ∀ t, quad.decode f.code ≠ .nan t := by
    intro t ht
    have := (decode_nan_iff _ _).1 ⟨t, ht⟩
    rw [hcode] at this
    have h1 : (s * 2 ^ 127 + exp * 2 ^ 112 + m.a.toNat * 2 ^ 64 + m.b.toNat) / 2 ^ 112 % 2 ^ 15 = 2 ^ 15 - 1 := this.1
    omega
  obtain ⟨x, nan, hbig, -, -, -, hwf, hdec⟩ := big_spec f
  have hnn : nan = false ∧ x.datum = quad.decode f.code := by
    cases hd : quad.decode f.code with
    | nan t => exact absurd hd (hnan t)
    | inf t => rw [hd] at hdec; exact hdec
    | num t q => rw [hd] at hdec; exact hdec
  obtain ⟨rfl, hxd⟩ := hnn
  have hparse : big0.parse (text s lead m exponent) = some x := by
    have h0 := hbig
    unfold Float.big at h0
    rw [bigWith_eq, hexp] at h0
    rw [htext]
    have hne : ¬ (exp : ℤ) = 0x7FFF := by omega
    rw [if_neg (by tauto), if_neg hne] at h0
    by_cases hz : (exp : ℤ) = 0 ∧ f.frac.1 = 0 ∧ f.frac.2 = 0
    · rw [if_pos hz] at h0
      obtain ⟨h1, h2, h3⟩ := hz
      have : lead = 0 ∧ exponent = -16382 := by omega
      rw [h2, h3, this.1, parse_zero _ _ this.2]
      injection h0 with h0
      rw [Prod.mk.injEq] at h0
      rw [h0.1]
    · rw [if_neg hz] at h0
      have e1 : (if (exp : ℤ) = 0 then 0 else 1) = lead := by split <;> omega
      have e2 : (if (exp : ℤ) = 0 then -16382 else (exp : ℤ) - Binary128.bias) = exponent := by
        show (if (exp : ℤ) = 0 then -16382 else (exp : ℤ) - 16383) = exponent
        split <;> omega
      rw [e1, e2] at h0
      cases hp : big0.parse (bigText f.signbit lead f.frac.1 f.frac.2 exponent) with
      | none => rw [hp] at h0; simp at h0
      | some y =>
        rw [hp] at h0
        injection h0 with h0
        rw [Prod.mk.injEq] at h0
        rw [h0.1]
  have hpf : parseFloat (text s lead m exponent) precision .toNearestEven = some x := hparse
  have hrow : row s lead exp exponent m = .ok ⟨rowA s exp m, m.b, x, lit x.float64.1, x.float64.2⟩ := by
    unfold row
    rw [hpf]
    rfl
  have h64 : f.float64 = .ok (x.float64.1, x.float64.2) := by
    unfold Float.float64
    rw [hbig]
    rfl
  obtain ⟨r, acc, hr1, hr2⟩ := C17_binary128_float64 f
  obtain ⟨rfl, rfl⟩ : x.float64.1 = r ∧ x.float64.2 = acc := by
    rw [h64] at hr1
    injection hr1 with hr1
    rwa [Prod.mk.injEq] at hr1
  have hn64 : ∀ t, double.decode x.float64.1.toNat ≠ .nan t := by
    intro t ht
    cases hd : quad.decode f.code with
    | nan t => exact hnan t hd
    | inf t' => rw [hd] at hr2; rw [show double.decode _ = _ from hr2.1] at ht; simp at ht
    | num t' q => rw [hd] at hr2; exact roundsTo_not_nan hr2.1 t ht
  have hn32 : ∀ t, single.decode (f64to32 x.float64.1).toNat ≠ .nan t := by
    intro t ht
    obtain ⟨-, g2, g3⟩ := Strconv.f64to32_spec x.float64.1
    cases hd : double.decode x.float64.1.toNat with
    | nan t => exact hn64 t hd
    | inf t' => rw [g2 _ hd] at ht; simp at ht
    | num t' q => exact roundsTo_not_nan (g3 _ _ hd) t ht
  refine ⟨_, hrow, ⟨rfl, rfl⟩, ⟨x.float64.1, lit_eval hn64, hbig, h64, ?_, ?_⟩, ?_⟩
  · obtain ⟨g, k1, -, k2⟩ := C16_binary128_float64 _ hn64
    exact ⟨g, _, k1, _, k2⟩
  · obtain ⟨g, k1, -, k2⟩ := C16_binary128_float32 _ hn32
    exact ⟨g, _, k1, _, k2⟩
  · rw [← hcode]; exact hxd

/-- C68: the generator of the binary128 tests, for every choice of exponents in 1..0x7FFE and of 112-bit
mantissas: it does not panic; every generated check passes; the rows are, in order, the two signs of every
combination of exponent and mantissa, and the number printed in a row is the number IEEE 754 assigns to its
encoding. -/
theorem C68_binary128 (exps : List ℕ) (mants : List MantBits) (he : ∀ e ∈ exps, 1 ≤ e ∧ e ≤ 0x7FFE)
    (hm : ∀ m ∈ mants, m.a.toNat < 2 ^ 48) : ∃ ns ds, getNormalized exps mants = .ok ns ∧ getDenormalized mants = .ok ds ∧
    (∀ r ∈ ns ++ ds, r.Passes ∧ r.want.datum = quad.decode (r.a.toNat * 2 ^ 64 + r.b.toNat)) ∧
    ns.map (fun r => (r.a.toNat, r.b)) = ([0, 1].flatMap fun s => exps.flatMap fun e => mants.map fun m =>
      (s * 2 ^ 63 + e * 2 ^ 48 + m.a.toNat, m.b)) ∧
    ds.map (fun r => (r.a.toNat, r.b)) = ([0, 1].flatMap fun s => mants.map fun m => (s * 2 ^ 63 + m.a.toNat, m.b)) := by
  obtain ⟨ns, hn, hn2⟩ := mapM_ok (l := (List.range 2).flatMap fun signbit =>
      exps.flatMap fun exp => mants.map fun mantBits => (signbit, exp, mantBits))
    (f := fun (signbit, exp, mantBits) => row signbit 1 exp ((exp : Int) - bias) mantBits)
    (P := fun t r => (r.a.toNat, r.b) = (t.1 * 2 ^ 63 + t.2.1 * 2 ^ 48 + t.2.2.a.toNat, t.2.2.b) ∧ r.Passes ∧
      r.want.datum = quad.decode (r.a.toNat * 2 ^ 64 + r.b.toNat)) (by
      rintro ⟨s, e, m⟩ ht
      simp only [List.mem_flatMap, List.mem_map, List.mem_range, Prod.mk.injEq] at ht
      obtain ⟨s, hs, e, he1, m, hm1, rfl, rfl, rfl⟩ := ht
      obtain ⟨r, h1, ⟨h2, h3⟩, h4, h5⟩ := row_spec (lead := 1) (exp := e) (exponent := (e : ℤ) - 16383) hs (hm m hm1)
        (Or.inl ⟨(he e he1).1, (he e he1).2, rfl, rfl⟩)
      have hA := rowA_toNat hs (by have := (he e he1).2; omega) (hm m hm1) (e := e)
      refine ⟨r, h1, ?_, h4, ?_⟩
      · simp only [h2, h3, hA]
      · rw [h5, h2, h3, hA]; exact congrArg quad.decode (by ring))
  obtain ⟨ds, hd, hd2⟩ := mapM_ok (l := (List.range 2).flatMap fun signbit => mants.map fun mantBits => (signbit, mantBits))
    (f := fun (signbit, mantBits) => row signbit 0 0 (0 - bias + 1) mantBits)
    (P := fun t r => (r.a.toNat, r.b) = (t.1 * 2 ^ 63 + t.2.a.toNat, t.2.b) ∧ r.Passes ∧
      r.want.datum = quad.decode (r.a.toNat * 2 ^ 64 + r.b.toNat)) (by
      rintro ⟨s, m⟩ ht
      simp only [List.mem_flatMap, List.mem_map, List.mem_range, Prod.mk.injEq] at ht
      obtain ⟨s, hs, m, hm1, rfl, rfl⟩ := ht
      obtain ⟨r, h1, ⟨h2, h3⟩, h4, h5⟩ := row_spec (lead := 0) (exp := 0) (exponent := 0 - bias + 1) hs (hm m hm1)
        (Or.inr ⟨rfl, rfl, rfl⟩)
      have hA := rowA_toNat hs (by norm_num) (hm m hm1) (e := 0)
      refine ⟨r, h1, ?_, h4, ?_⟩
      · simp only [h2, h3, hA, zero_mul, add_zero]
      · rw [h5, h2, h3, hA]; exact congrArg quad.decode (by ring))
  have en := forall₂_map (h := fun r : Row => (r.a.toNat, r.b))
    (g := fun t : ℕ × ℕ × MantBits => (t.1 * 2 ^ 63 + t.2.1 * 2 ^ 48 + t.2.2.a.toNat, t.2.2.b)) hn2
    (by rintro ⟨a, b, c⟩ r ⟨h1, -⟩; exact h1)
  have ed := forall₂_map (h := fun r : Row => (r.a.toNat, r.b))
    (g := fun t : ℕ × MantBits => (t.1 * 2 ^ 63 + t.2.a.toNat, t.2.b)) hd2
    (by rintro ⟨a, c⟩ r ⟨h1, -⟩; exact h1)
  have hr : List.range 2 = [0, 1] := rfl
  refine ⟨ns, ds, hn, hd, ?_, ?_, ?_⟩
  · intro r hr
    rcases List.mem_append.1 hr with h | h
    · exact forall₂_mem (Q := fun r => r.Passes ∧ r.want.datum = quad.decode (r.a.toNat * 2 ^ 64 + r.b.toNat)) hn2 (fun _ _ _ h => h.2) r h
    · exact forall₂_mem (Q := fun r => r.Passes ∧ r.want.datum = quad.decode (r.a.toNat * 2 ^ 64 + r.b.toNat)) hd2 (fun _ _ _ h => h.2) r h
  · rw [en, hr]
    simp only [List.map_flatMap, List.map_map, Function.comp_def]
  · rw [ed, hr]
    simp only [List.map_flatMap, List.map_map, Function.comp_def]

-- the hypotheses hold of non-trivial lists; a row that overflows the doubles, and one that is rounded to -0
example : (∀ e ∈ [1, 0x3FFF, 0x7FFE], 1 ≤ e ∧ e ≤ 0x7FFE) ∧
    ∀ m ∈ [(⟨0, 0⟩ : MantBits), ⟨0xFFFFFFFFFFFF, 1⟩], m.a.toNat < 2 ^ 48 := by decide
example : (row 1 1 0x7FFE (0x7FFE - 16383) ⟨1, 5⟩).map (fun r => (r.a, r.b, r.want64, r.acc64)) =
    .ok (0xFFFE000000000001, 5, .inf (-1), .below) := by decide +kernel
example : (row 1 0 0 (-16382) ⟨0, 5⟩).map (fun r => (r.a, r.b, r.want64, r.acc64)) =
    .ok (0x8000000000000000, 5, .negZero, .above) := by decide +kernel

end Binary128.Gen

end GoFloat
