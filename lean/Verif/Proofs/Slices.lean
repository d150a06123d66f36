import Verif.Spec.Window
import Verif.Model.Slices
import Verif.Proofs.Itoa
/-
What the appending functions of the slice model do to the arrays: lemmas for Verif/Props/Slices.lean.
-/
namespace GoFloat.Strconv

/-- `s'` in `h'` is what appending `t` to `s` in `h` may give. -/
structure Ext (h : Arrays) (s : Slice) (t : Text) (h' : Arrays) (s' : Slice) : Prop where
  valid : s'.Valid h'
  bytes : s'.bytes h' = s.bytes h ++ t
  mono : h.length ≤ h'.length
  other : ∀ i, i < h.length → i ≠ s.arr → h'.getD i [] = h.getD i []
  size : (h'.getD s.arr []).length = (h.getD s.arr []).length
  outside : ∀ j, j < s.off + s.len ∨ s.off + s.cap ≤ j → (h'.getD s.arr [])[j]? = (h.getD s.arr [])[j]?
  fits : s.len + t.length ≤ s.cap → s' = { s with len := s.len + t.length } ∧ h'.length = h.length ∧
    ∀ j, s.off + s.len + t.length ≤ j → (h'.getD s.arr [])[j]? = (h.getD s.arr [])[j]?
  moves : s.cap < s.len + t.length → h.length ≤ s'.arr

theorem bytes_length {h : Arrays} {s : Slice} (hv : s.Valid h) : (s.bytes h).length = s.len := by
  have := hv.len_le
  have := hv.window
  simp only [Slice.bytes, List.length_take, List.length_drop]
  omega

theorem Ext.len {h : Arrays} {s : Slice} {t : Text} {h' : Arrays} {s' : Slice} (e : Ext h s t h' s') (hv : s.Valid h) : s'.len = s.len + t.length := by
  have := congrArg List.length e.bytes
  rw [bytes_length e.valid, List.length_append, bytes_length hv] at this
  exact this

theorem Ext.refl {h : Arrays} {s : Slice} (hv : s.Valid h) : Ext h s [] h s where
  valid := hv
  bytes := by simp
  mono := Nat.le_refl _
  other := fun _ _ _ => rfl
  size := rfl
  outside := fun _ _ => rfl
  fits := fun _ => ⟨by simp, rfl, fun _ _ => rfl⟩
  moves := fun hc => by have := hv.len_le; simp at hc; omega

theorem Ext.trans {h h1 h2 : Arrays} {s s1 s2 : Slice} {t u : Text} (hv : s.Valid h) (e : Ext h s t h1 s1) (f : Ext h1 s1 u h2 s2) : Ext h s (t ++ u) h2 s2 := by
  have hl := hv.arr_lt
  have hm := e.mono
  have hm' := f.mono
  by_cases ht : s.len + t.length ≤ s.cap
  · obtain ⟨rfl, e2, e3⟩ := e.fits ht
    refine ⟨f.valid, ?_, by omega, ?_, ?_, ?_, ?_, ?_⟩
    · rw [f.bytes, e.bytes, List.append_assoc]
    · intro i hi hne
      rw [f.other i (by omega) hne, e.other i hi hne]
    · rw [← e.size]; exact f.size
    · intro j hj
      rw [← e.outside j hj]
      exact f.outside j (by rcases hj with hj | hj
                            · left; dsimp only; omega
                            · right; exact hj)
    · intro hu
      rw [List.length_append] at hu
      obtain ⟨f1, f2, f3⟩ := f.fits (by dsimp only; omega)
      refine ⟨?_, by omega, ?_⟩
      · rw [f1, List.length_append]; dsimp only; rw [Nat.add_assoc]
      · intro j hj
        rw [List.length_append] at hj
        rw [← e3 j (by omega)]
        exact f3 j (by dsimp only; omega)
    · intro hu
      rw [List.length_append] at hu
      have := f.moves (by dsimp only; omega)
      omega
  · have hmv := e.moves (by omega)
    refine ⟨f.valid, ?_, by omega, ?_, ?_, ?_, ?_, ?_⟩
    · rw [f.bytes, e.bytes, List.append_assoc]
    · intro i hi hne
      rw [f.other i (by omega) (by omega), e.other i hi hne]
    · rw [f.other s.arr (by omega) (by omega)]; exact e.size
    · intro j hj
      rw [f.other s.arr (by omega) (by omega)]; exact e.outside j hj
    · intro hu
      rw [List.length_append] at hu
      omega
    · intro _
      by_cases hu : s1.len + u.length ≤ s1.cap
      · rw [(f.fits hu).1]; exact hmv
      · have := f.moves (by omega)
        omega

theorem getD_set_self {h : Arrays} {n : Nat} (hn : n < h.length) (a : Text) : (h.set n a).getD n [] = a := by
  rw [List.getD_eq_getElem?_getD, List.getElem?_set_self hn]; rfl

theorem getD_set_ne {h : Arrays} {n i : Nat} (hn : i ≠ n) (a : Text) : (h.set n a).getD i [] = h.getD i [] := by
  rw [List.getD_eq_getElem?_getD, List.getElem?_set_ne (Ne.symm hn), List.getD_eq_getElem?_getD]

theorem getD_append_lt {h : Arrays} {i : Nat} (hi : i < h.length) (l : Arrays) : (h ++ l).getD i [] = h.getD i [] := by
  rw [List.getD_eq_getElem?_getD, List.getElem?_append_left hi, List.getD_eq_getElem?_getD]

theorem getD_append_self (h : Arrays) (a : Text) : (h ++ [a]).getD h.length [] = a := by
  rw [List.getD_eq_getElem?_getD, List.getElem?_append_right (Nat.le_refl _)]; simp

theorem writeAt_length {a : Text} {i : Nat} {bs : Text} (hi : i + bs.length ≤ a.length) : (writeAt a i bs).length = a.length := by
  simp only [writeAt, List.length_append, List.length_take, List.length_drop]
  omega

theorem writeAt_outside {a : Text} {i : Nat} {bs : Text} (hi : i + bs.length ≤ a.length) {j : Nat} (hj : j < i ∨ i + bs.length ≤ j) :
    (writeAt a i bs)[j]? = a[j]? := by
  unfold writeAt
  rcases hj with hj | hj
  · rw [List.append_assoc, List.getElem?_append_left (by rw [List.length_take]; omega), List.getElem?_take, if_pos hj]
  · rw [List.getElem?_append_right (by rw [List.length_append, List.length_take]; omega), List.getElem?_drop, List.length_append, List.length_take]
    congr 1
    omega

theorem writeAt_window {a : Text} {o n : Nat} {bs : Text} (hi : o + n + bs.length ≤ a.length) :
    ((writeAt a (o + n) bs).drop o).take (n + bs.length) = (a.drop o).take n ++ bs := by
  unfold writeAt
  rw [List.append_assoc, List.drop_append_of_le_length (by rw [List.length_take]; omega), List.drop_take, Nat.add_sub_cancel_left,
    ← List.append_assoc, List.take_append_of_le_length (by simp only [List.length_append, List.length_take, List.length_drop]; omega),
    List.take_of_length_le (by simp only [List.length_append, List.length_take, List.length_drop]; omega)]

/-- One `append`. -/
theorem append_ext (grow : Nat → Nat → Nat) {h : Arrays} {s : Slice} (hv : s.Valid h) (bs : Text) :
    ∃ h' s', s.append grow bs h = (.ok s', h') ∧ Ext h s bs h' s' := by
  have h1 := hv.len_le
  have h2 := hv.arr_lt
  have h3 := hv.window
  unfold Slice.append
  by_cases hc : s.len + bs.length ≤ s.cap
  · rw [if_pos hc]
    refine ⟨_, _, rfl, ⟨hc, by rw [List.length_set]; exact h2, ?_⟩, ?_, ?_, ?_, ?_, ?_, ?_, ?_⟩
    · dsimp only
      rw [getD_set_self h2, writeAt_length (by omega)]
      exact h3
    · unfold Slice.bytes
      dsimp only
      rw [getD_set_self h2, writeAt_window (by omega)]
    · rw [List.length_set]
    · intro i hi hne
      exact getD_set_ne hne _
    · rw [getD_set_self h2, writeAt_length (by omega)]
    · intro j hj
      rw [getD_set_self h2]
      exact writeAt_outside (by omega) (by omega)
    · intro _
      refine ⟨rfl, by rw [List.length_set], fun j hj => ?_⟩
      rw [getD_set_self h2]
      exact writeAt_outside (by omega) (by omega)
    · intro hlt; omega
  · rw [if_neg hc]
    have hb := bytes_length hv
    refine ⟨_, _, rfl, ⟨?_, ?_, ?_⟩, ?_, ?_, ?_, ?_, ?_, ?_, ?_⟩
    · exact Nat.le_max_left _ _
    · dsimp only; rw [List.length_append, List.length_singleton]; omega
    · dsimp only
      rw [getD_append_self]
      simp only [List.length_append, List.length_replicate, hb]
      omega
    · rw [Slice.bytes]
      dsimp only
      rw [getD_append_self, List.drop_zero, List.take_append_of_le_length (by simp [hb]), List.take_of_length_le (by simp [hb])]
    · rw [List.length_append]; omega
    · intro i hi _
      exact getD_append_lt hi _
    · rw [getD_append_lt h2]
    · intro j _
      rw [getD_append_lt h2]
    · intro hlt; omega
    · intro _; exact Nat.le_refl _

/-- `m` appends the text `g` to its slice, or panics as `g` does, and before it has written anything. -/
def Emits (m : Slice → Buf Slice) (g : Go Text) : Prop :=
  ∀ h s, s.Valid h → (∀ t, g = .ok t → ∃ h' s', m s h = (.ok s', h') ∧ Ext h s t h' s') ∧ ∀ e, g = .error e → m s h = (.error e, h)

theorem buf_bind {α β : Type} (m : Buf α) (k : α → Buf β) (h : Arrays) :
    (m >>= k : Buf β) h = match m h with | (.ok a, h') => k a h' | (.error e, h') => (.error e, h') := by
  change (ExceptT.bind m k : Buf β) h = _
  unfold ExceptT.bind ExceptT.mk
  change (StateT.bind m (ExceptT.bindCont k) : StateM Arrays _) h = _
  unfold StateT.bind
  change (match m h with | (a, s) => ExceptT.bindCont k a s) = _
  rcases m h with ⟨_ | _, _⟩ <;> rfl

variable {grow : Nat → Nat → Nat} {m k : Slice → Buf Slice} {g g' : Go Text}

theorem Emits.cast (hm : Emits m g) (h : g = g') : Emits m g' := h ▸ hm

theorem Emits.ok {t : Text} (hm : ∀ h s, s.Valid h → ∃ h' s', m s h = (.ok s', h') ∧ Ext h s t h' s') : Emits m (.ok t) := by
  intro h s hv
  refine ⟨?_, fun e he => by cases he⟩
  rintro _ ⟨⟩
  exact hm h s hv

theorem emits_pure : Emits (fun s => pure s) (.ok []) := Emits.ok fun h s hv => ⟨h, s, rfl, Ext.refl hv⟩

theorem emits_append (bs : Text) : Emits (fun s => s.append grow bs) (.ok bs) := Emits.ok fun _ _ hv => append_ext grow hv bs

theorem emits_bind {t u : Text} (hm : Emits m (.ok t)) (hk : Emits k (.ok u)) : Emits (fun s => m s >>= k) (.ok (t ++ u)) := by
  refine Emits.ok fun h s hv => ?_
  obtain ⟨h1, s1, e1, x1⟩ := (hm h s hv).1 _ rfl
  obtain ⟨h2, s2, e2, x2⟩ := (hk h1 s1 x1.valid).1 _ rfl
  refine ⟨h2, s2, ?_, x1.trans hv x2⟩
  rw [buf_bind, e1]
  exact e2

theorem emits_run {α : Type} {a : Go α} {k : α → Slice → Buf Slice} {f : α → Go Text} (hk : ∀ x, Emits (k x) (f x)) :
    Emits (fun s => Buf.run a >>= fun x => k x s) (a >>= f) := by
  intro h s hv
  change (∀ t, _ → ∃ h' s', (Buf.run a >>= fun x => k x s) h = _ ∧ _) ∧ ∀ e, _ → (Buf.run a >>= fun x => k x s) h = _
  rw [buf_bind]
  cases a with
  | ok x => exact hk x h s hv
  | error e =>
    refine ⟨fun t ht => ?_, fun e' he => ?_⟩
    · cases ht
    · cases he
      rfl

theorem emits_ite {c : Prop} [Decidable c] (h1 : c → Emits m g) (h2 : ¬ c → Emits k g') :
    Emits (fun s => if c then m s else k s) (if c then g else g') := by
  by_cases hc : c
  · simp only [if_pos hc]; exact h1 hc
  · simp only [if_neg hc]; exact h2 hc

theorem emits_zeros (n : Nat) : Emits (appendZeros grow n) (.ok (List.replicate n '0')) := by
  induction n with
  | zero => exact emits_pure
  | succ n ih => exact (emits_bind (emits_append ['0']) ih).cast rfl

theorem emits_frac (d : DecimalSlice) (n i : Nat) : Emits (appendFrac grow d n i) (.ok ((List.range' i n).map (fun i : Nat =>
        let j := d.dp + i
        byteChar (if 0 ≤ j ∧ j < d.nd then d.d.getD j.toNat 48 else 48)))) := by
  induction n generalizing i with
  | zero => exact emits_pure
  | succ n ih => exact (emits_bind (emits_append _) (ih (i + 1))).cast rfl

/-- An optional append before the rest. -/
theorem emits_opt {c : Prop} [Decidable c] {t u : Text} (hm : c → Emits m (.ok t)) (hk : Emits k (.ok u)) :
    Emits (fun s => if c then m s >>= k else pure s >>= k) (.ok ((if c then t else []) ++ u)) := by
  by_cases hc : c
  · simp only [if_pos hc]; exact emits_bind (hm hc) hk
  · simp only [if_neg hc]; exact emits_bind emits_pure hk

theorem emits_fmtE (neg : Bool) (d : DecimalSlice) (prec : Int) (fmt : Char) :
    Emits (fun s => fmtEBuf grow s neg d prec fmt) (.ok (fmtE neg d prec fmt)) := by
  unfold fmtEBuf fmtE
  extract_lets ch exp c e j2 m i j1 j0 sign first mid more expText
  have h2 : Emits j2 (.ok ([fmt] ++ ([c] ++ expText))) := by
    refine emits_bind (emits_append _) (emits_bind (emits_append _) ?_)
    have := emits_ite (c := e < 10) (fun _ => emits_append (grow := grow) ['0', byteChar (e + 48)])
      (fun _ => emits_ite (c := e < 100) (fun _ => emits_append (grow := grow) [byteChar (e / 10 + 48), byteChar (e % 10 + 48)])
        (fun _ => emits_append (grow := grow) [byteChar ((e / 100 % 256 + 48) % 256), byteChar (e / 10 % 256 % 10 + 48), byteChar (e % 10 + 48)]))
    refine this.cast ?_
    simp only [expText]
    split_ifs <;> rfl
  have h1 : Emits j1 (.ok (List.replicate (prec + 1 - i).toNat '0' ++ ([fmt] ++ ([c] ++ expText)))) := emits_bind (emits_zeros _) h2
  have h0 : Emits j0 (.ok (first ++ (more ++ ([fmt] ++ ([c] ++ expText))))) := by
    refine emits_bind (emits_append _) ?_
    by_cases hp : prec > 0
    · simp only [if_pos hp, more]
      refine (emits_bind (emits_append ['.']) (emits_opt (c := 1 < m) (fun _ => emits_append _) h1)).cast ?_
      simp [mid]
    · simp only [if_neg hp, more]
      exact emits_bind emits_pure h2
  refine (emits_opt (c := neg = true) (fun _ => emits_append ['-']) h0).cast ?_
  simp [sign]

theorem emits_fmtF (neg : Bool) (d : DecimalSlice) (prec : Int) :
    Emits (fun s => fmtFBuf grow s neg d prec) (.ok (fmtF neg d prec)) := by
  unfold fmtFBuf fmtF
  extract_lets j2 m j0 sign int frac
  have h2 : Emits j2 (.ok frac) := by
    by_cases hp : prec > 0
    · simp only [if_pos hp, j2, frac]
      refine (emits_bind (emits_append ['.']) (emits_frac d prec.toNat 0)).cast ?_
      rw [← List.range_eq_range']; rfl
    · simp only [if_neg hp, j2, frac]
      exact emits_pure
  have h0 : Emits j0 (.ok (int ++ frac)) := by
    by_cases hp : d.dp > 0
    · simp only [if_pos hp, j0, int]
      refine (emits_bind (emits_append _) (emits_bind (emits_zeros _) h2)).cast ?_
      simp [m]
    · simp only [if_neg hp, j0, int]
      exact emits_bind (emits_append _) h2
  refine (emits_opt (c := neg = true) (fun _ => emits_append ['-']) h0).cast ?_
  simp [sign]

theorem emits_formatBits (W : Nat) (u : BitVec 64) (base : Int) (neg : Bool) : Emits (fun s => formatBitsBuf grow W s u base neg) (formatBits W u base neg) := by
  have := emits_run (a := formatBits W u base neg) (k := fun x s => s.append grow x) (f := fun x => .ok x) fun x => emits_append x
  refine this.cast ?_
  cases formatBits W u base neg <;> rfl

theorem emits_fmtB {W : Nat} (hW : W = 32 ∨ W = 64) (neg : Bool) (mant : BitVec 64) (exp : Int) (flt : FloatInfo) :
    Emits (fun s => fmtBBuf grow W s neg mant exp flt) (fmtB W neg mant exp flt) := by
  obtain ⟨t, ht⟩ : ∃ t, formatBits W mant 10 false = .ok t := ⟨_, formatBits_ok hW mant (by decide) (by decide) false⟩
  obtain ⟨u, hu⟩ : ∃ u, formatBits W (BitVec.ofInt 64 (exp - flt.mantbits)) 10 (exp - flt.mantbits < 0) = .ok u :=
    ⟨_, formatBits_ok hW _ (by decide) (by decide) _⟩
  have h1 := (emits_formatBits (grow := grow) W mant 10 false).cast ht
  have h2 := (emits_formatBits (grow := grow) W (BitVec.ofInt 64 (exp - flt.mantbits)) 10 (exp - flt.mantbits < 0)).cast hu
  have h3 := emits_bind h1 (emits_bind (emits_append (grow := grow) ['p']) (emits_opt (c := exp - flt.mantbits ≥ 0) (fun _ => emits_append (grow := grow) ['+']) h2))
  refine (emits_opt (c := neg = true) (fun _ => emits_append (grow := grow) ['-']) h3).cast ?_
  unfold fmtB
  rw [ht]
  dsimp only [bind, Except.bind]
  rw [hu]
  simp [pure, Except.pure]

theorem emits_formatDigits (shortest neg : Bool) (digs : DecimalSlice) (prec : Int) (fmt : Char) :
    Emits (fun s => formatDigitsBuf grow s shortest neg digs prec fmt) (.ok (formatDigits shortest neg digs prec fmt)) := by
  unfold formatDigitsBuf formatDigits
  by_cases h1 : fmt = 'e' ∨ fmt = 'E'
  · simp only [if_pos h1]; exact emits_fmtE _ _ _ _
  simp only [if_neg h1]
  by_cases h2 : fmt = 'f'
  · simp only [if_pos h2]; exact emits_fmtF _ _ _
  simp only [if_neg h2]
  by_cases h3 : fmt = 'g' ∨ fmt = 'G'
  · simp only [if_pos h3]
    exact (emits_ite (fun _ => emits_fmtE _ _ _ _) (fun _ => emits_fmtF _ _ _)).cast (apply_ite Except.ok _ _ _).symm
  simp only [if_neg h3]
  exact emits_append _

theorem emits_bigFtoa (W : Nat) (prec : Int) (fmt : Char) (neg : Bool) (mant : BitVec 64) (exp : Int) (flt : FloatInfo) :
    Emits (fun s => bigFtoaBuf grow W s prec fmt neg mant exp flt) (bigFtoa W prec fmt neg mant exp flt) := by
  unfold bigFtoaBuf bigFtoa
  refine emits_run fun d => ?_
  by_cases h1 : prec < 0
  · simp only [if_pos h1]
    exact emits_run fun d => emits_formatDigits _ _ _ _ _
  · simp only [if_neg h1]
    exact emits_formatDigits _ _ _ _ _

theorem emits_finite {W : Nat} (hW : W = 32 ∨ W = 64) (optimize : Bool) (fmt : Char) (prec : Int) (neg : Bool) (mant : BitVec 64) (exp : Int) (flt : FloatInfo) :
    Emits (fun s => ftoaFiniteBuf grow W optimize s fmt prec neg mant exp flt) (ftoaFinite W optimize fmt prec neg mant exp flt) := by
  have hbig : ∀ prec, Emits (fun s => bigFtoaBuf grow W s prec fmt neg mant exp flt) (bigFtoa W prec fmt neg mant exp flt) := fun prec => emits_bigFtoa _ _ _ _ _ _ _
  unfold ftoaFiniteBuf ftoaFinite
  by_cases h1 : fmt = 'b'
  · simp only [if_pos h1]
    refine (emits_fmtB hW neg mant exp flt).cast ?_
    cases fmtB W neg mant exp flt <;> rfl
  simp only [if_neg h1]
  by_cases h2 : (!optimize) = true
  · simp only [if_pos h2]
    refine (hbig _).cast ?_
    cases bigFtoa W prec fmt neg mant exp flt <;> rfl
  simp only [if_neg h2]
  by_cases h3 : prec < 0
  · simp only [if_pos h3]
    refine emits_run fun x => ?_
    cases x with
    | none => exact hbig _
    | some digs => exact emits_formatDigits _ _ _ _ _
  simp only [if_neg h3]
  by_cases h4 : fmt ≠ 'f'
  · simp only [if_pos h4]
    refine emits_ite (fun _ => emits_run fun x => ?_) fun _ => hbig _
    cases x with
    | none => exact hbig _
    | some digs => exact emits_formatDigits _ _ _ _ _
  · simp only [if_neg h4]
    exact hbig _

theorem emits_bits {W : Nat} (hW : W = 32 ∨ W = 64) (optimize : Bool) (bits : BitVec 64) (flt : FloatInfo) (fmt : Char) (prec : Int) :
    Emits (fun s => ftoaBitsBuf grow W optimize s bits flt fmt prec) (ftoaBits W optimize bits flt fmt prec) := by
  unfold ftoaBitsBuf ftoaBits
  extract_lets neg exp mant
  refine emits_ite (fun _ => emits_append _) fun _ => ?_
  split_ifs
  · exact emits_finite hW _ _ _ _ _ _ _
  · exact emits_finite hW _ _ _ _ _ _ _

theorem emits_ftoa {W : Nat} (hW : W = 32 ∨ W = 64) (optimize : Bool) (val : F64) (fmt : Char) (prec bitSize : Int) :
    Emits (fun s => genericFtoaBuf grow W optimize s val fmt prec bitSize) (genericFtoa W optimize val fmt prec bitSize) := by
  unfold genericFtoaBuf genericFtoa
  split_ifs
  · exact emits_run fun x => emits_bits hW _ _ _ _ _
  · exact emits_bits hW _ _ _ _ _
  · exact emits_bits hW _ _ _ _ _
  · intro h s _
    refine ⟨fun t ht => ?_, fun e he => ?_⟩
    · cases ht
    · cases he
      rfl

theorem emits_int (W : Nat) (i : BitVec 64) (base : Int) : Emits (fun s => appendIntBuf grow W s i base) (formatInt W i base) := by
  unfold appendIntBuf formatInt
  refine emits_ite (fun _ => ?_) fun _ => emits_formatBits _ _ _ _
  refine (emits_run (f := fun x => .ok x) fun x => emits_append x).cast ?_
  cases small i.toInt.toNat <;> rfl

theorem emits_uint (W : Nat) (i : BitVec 64) (base : Int) : Emits (fun s => appendUintBuf grow W s i base) (formatUint W i base) := by
  unfold appendUintBuf formatUint
  refine emits_ite (fun _ => ?_) fun _ => emits_formatBits _ _ _ _
  refine (emits_run (f := fun x => .ok x) fun x => emits_append x).cast ?_
  cases small i.toNat <;> rfl

end GoFloat.Strconv
