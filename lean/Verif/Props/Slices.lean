import Verif.Proofs.Slices
import Verif.Props.Itoa
import Verif.Props.TextLength
/-
What AppendFloat, AppendInt, AppendUint and FormatFloat do to memory (C81 of properties.jsonl).
`Slice.Valid` (Verif/Proofs/Slices.lean): the slice is a window into an array that exists, and its bytes lie in the window.
The size that the Go runtime gives to a new array is not specified; `grow` stands for any choice.
-/
namespace GoFloat.Strconv

/-- The result of appending the text `t` to the slice `s`: memory was `h` and is now `h'`, and the call returned `s'`. -/
structure Appended (h : Arrays) (s : Slice) (t : Text) (h' : Arrays) (s' : Slice) : Prop where
  /-- the result is a slice -/
  valid : s'.Valid h'
  /-- the result holds the bytes of `s` and then the text -/
  bytes : s'.bytes h' = s.bytes h ++ t
  /-- a slice that does not look into the free part of `s`, behind its bytes and before the end of its capacity, keeps its bytes; `s` itself is one of these -/
  kept : ∀ r : Slice, r.Valid h → (r.arr = s.arr → r.off + r.len ≤ s.off + s.len ∨ s.off + s.cap ≤ r.off) → r.Valid h' ∧ r.bytes h' = r.bytes h
  /-- if the text fits in the free part the result is `s` made longer, no array is made, and the free part behind the text keeps its bytes -/
  fits : s.len + t.length ≤ s.cap → s' = { s with len := s.len + t.length } ∧ h'.length = h.length ∧
    ∀ r : Slice, r.Valid h → r.arr = s.arr → s.off + s.len + t.length ≤ r.off → r.bytes h' = r.bytes h
  /-- otherwise the result lies in an array made by the call, and shares it with no slice that was there before -/
  moves : s.cap < s.len + t.length → ∀ r : Slice, r.Valid h → r.arr ≠ s'.arr

/-- A call with a slice `s` appends the text `g`, or panics as `g` says and leaves memory as it is. -/
def Appends (call : Slice → Buf Slice) (g : Go Text) : Prop :=
  ∀ h s, s.Valid h → (∀ t, g = .ok t → ∃ h' s', call s h = (.ok s', h') ∧ Appended h s t h' s') ∧ ∀ e, g = .error e → call s h = (.error e, h)

theorem getElem?_bytes (r : Slice) (h : Arrays) (j : ℕ) : (r.bytes h)[j]? = if j < r.len then (h.getD r.arr [])[r.off + j]? else none := by
  rw [Slice.bytes, List.getElem?_take, List.getElem?_drop]

theorem bytes_congr {r : Slice} {h h' : Arrays} (e : ∀ j, j < r.len → (h'.getD r.arr [])[r.off + j]? = (h.getD r.arr [])[r.off + j]?) : r.bytes h' = r.bytes h := by
  apply List.ext_getElem?
  intro j
  rw [getElem?_bytes, getElem?_bytes]
  split
  · rename_i hj; exact e j hj
  · rfl

theorem Ext.stays {h : Arrays} {s : Slice} {t : Text} {h' : Arrays} {s' : Slice} (e : Ext h s t h' s') {r : Slice} (hr : r.Valid h) : r.Valid h' := by
  refine ⟨hr.len_le, lt_of_lt_of_le hr.arr_lt e.mono, ?_⟩
  by_cases hc : r.arr = s.arr
  · have := e.size
    rw [hc, this, ← hc]; exact hr.window
  · rw [e.other _ hr.arr_lt hc]; exact hr.window

theorem Ext.appended {h : Arrays} {s : Slice} {t : Text} {h' : Arrays} {s' : Slice} (e : Ext h s t h' s') : Appended h s t h' s' where
  valid := e.valid
  bytes := e.bytes
  kept := fun r hr hd => by
    refine ⟨e.stays hr, bytes_congr fun j hj => ?_⟩
    by_cases hc : r.arr = s.arr
    · rw [hc]
      exact e.outside _ (by have := hd hc; omega)
    · rw [e.other _ hr.arr_lt hc]
  fits := fun hf => by
    obtain ⟨e1, e2, e3⟩ := e.fits hf
    refine ⟨e1, e2, fun r hr hc hd => bytes_congr fun j hj => ?_⟩
    rw [hc]
    exact e3 _ (by omega)
  moves := fun hm r hr hc => by
    have := e.moves hm
    have := hr.arr_lt
    omega

theorem Emits.appends {call : Slice → Buf Slice} {g : Go Text} (hm : Emits call g) : Appends call g := by
  intro h s hv
  refine ⟨fun t ht => ?_, (hm h s hv).2⟩
  obtain ⟨h', s', e1, e2⟩ := (hm h s hv).1 t ht
  exact ⟨h', s', e1, e2.appended⟩

variable {W : ℕ} (hW : W = 32 ∨ W = 64) (grow : ℕ → ℕ → ℕ)

/-- C81: AppendFloat appends the text of FormatFloat, with the effect on memory that `Appended` describes. -/
theorem C81_appendFloat (hW : W = 32 ∨ W = 64) (f : F64) (fmt : Char) (prec size : ℤ) :
    Appends (fun s => appendFloatBuf grow W s f fmt prec size) (formatFloat W f fmt prec size) :=
  (emits_ftoa hW true f fmt prec size).appends

/-- C81: AppendInt appends the text of FormatInt. -/
theorem C81_appendInt (i : BitVec 64) (base : ℤ) : Appends (fun s => appendIntBuf grow W s i base) (formatInt W i base) := (emits_int W i base).appends

/-- C81: AppendUint appends the text of FormatUint. -/
theorem C81_appendUint (i : BitVec 64) (base : ℤ) : Appends (fun s => appendUintBuf grow W s i base) (formatUint W i base) := (emits_uint W i base).appends

/-! ### A slice without free part -/

/-- C81: appending to a slice without free part (such as `b[:len(b):len(b)]`) changes no array that exists. -/
theorem C81_no_free {call : Slice → Buf Slice} {g : Go Text} (hc : Appends call g) {h : Arrays} {s : Slice} (hv : s.Valid h) (hf : s.cap = s.len) :
    ∀ r : Slice, r.Valid h → r.Valid (call s h).2 ∧ r.bytes (call s h).2 = r.bytes h := by
  intro r hr
  obtain ⟨h1, h2⟩ := hc h s hv
  cases g with
  | error e => rw [h2 e rfl]; exact ⟨hr, rfl⟩
  | ok t =>
    obtain ⟨h', s', e1, e2⟩ := h1 t rfl
    rw [e1]
    -- split `r` at the end of `s`
    by_cases ha : r.arr = s.arr
    · have hv1 := hr.len_le
      have hv2 := hr.window
      let n := min r.len (s.off + s.len - r.off)
      have k1 := e2.kept ⟨r.arr, r.off, n, n⟩ ⟨le_refl _, hr.arr_lt, by dsimp only; omega⟩ (fun _ => by dsimp only; omega)
      have k2 := e2.kept ⟨r.arr, r.off + n, r.len - n, r.len - n⟩ ⟨le_refl _, hr.arr_lt, by dsimp only; omega⟩ (fun _ => by dsimp only; omega)
      have k3 := e2.kept ⟨r.arr, r.off + r.cap, 0, 0⟩ ⟨le_refl _, hr.arr_lt, by dsimp only; omega⟩ (fun _ => by dsimp only; omega)
      refine ⟨⟨hv1, k1.1.arr_lt, k3.1.window⟩, bytes_congr fun j hj => ?_⟩
      by_cases hj' : j < n
      · have := congrArg (·[j]?) k1.2
        simpa only [getElem?_bytes, if_pos hj'] using this
      · have := congrArg (·[j - n]?) k2.2
        simp only [getElem?_bytes] at this
        rw [if_pos (by omega), if_pos (by omega), show r.off + n + (j - n) = r.off + j by omega] at this
        exact this
    · exact e2.kept r hr (fun h => absurd h ha)

/-! ### Appending twice to the same slice -/

/-- C81: two appends to the same slice, both of which fit, share the array: afterwards the first result holds the second text, and of the first
one only what the second does not cover. -/
theorem C81_twice_fits {call1 call2 : Slice → Buf Slice} {t1 t2 : Text} (hc1 : Appends call1 (.ok t1)) (hc2 : Appends call2 (.ok t2)) {h : Arrays} {s : Slice}
    (hv : s.Valid h) (hf1 : s.len + t1.length ≤ s.cap) (hf2 : s.len + t2.length ≤ s.cap) :
    ∃ h1 s1 h2 s2, call1 s h = (.ok s1, h1) ∧ call2 s h1 = (.ok s2, h2) ∧ s2.bytes h2 = s.bytes h ++ t2 ∧
      s1.bytes h2 = s.bytes h ++ (t2.take t1.length ++ t1.drop t2.length) := by
  obtain ⟨h1, s1, e1, a1⟩ := (hc1 h s hv).1 t1 rfl
  obtain ⟨hv1, hb1⟩ := a1.kept s hv (fun _ => Or.inl (le_refl _))
  obtain ⟨h2, s2, e2, a2⟩ := (hc2 h1 s hv1).1 t2 rfl
  refine ⟨h1, s1, h2, s2, e1, e2, by rw [a2.bytes, hb1], ?_⟩
  obtain ⟨rfl, -, -⟩ := a1.fits hf1
  obtain ⟨rfl, -, q⟩ := a2.fits hf2
  have hl := bytes_length hv
  have b1 := a1.bytes
  have b2 := a2.bytes
  rw [hb1] at b2
  have hw := hv1.window
  apply List.ext_getElem?
  intro j
  have c1 := congrArg (·[j]?) b1
  have c2 := congrArg (·[j]?) b2
  simp only [getElem?_bytes, List.getElem?_append, hl] at c1 c2 ⊢
  by_cases hj : j < s.len
  · rw [if_pos (by omega), if_pos hj] at c2
    rw [if_pos (by omega), if_pos hj, c2]
  · rw [if_neg hj] at c1 c2 ⊢
    by_cases hj2 : j - s.len < t2.length
    · rw [if_pos (by omega)] at c2
      by_cases hj1 : j < s.len + t1.length
      · rw [if_pos hj1, c2, if_pos (by rw [List.length_take]; omega), List.getElem?_take, if_pos (by omega)]
      · rw [if_neg hj1, if_neg (by rw [List.length_take]; omega), List.getElem?_drop, List.length_take, List.getElem?_eq_none (by omega)]
    · have hq := q ⟨s.arr, s.off + s.len + t2.length, s.cap - s.len - t2.length, s.cap - s.len - t2.length⟩
        ⟨le_refl _, hv1.arr_lt, by dsimp only; omega⟩ rfl (le_refl _)
      have hq' := congrArg (·[j - s.len - t2.length]?) hq
      simp only [getElem?_bytes] at hq'
      by_cases hj1 : j < s.len + t1.length
      · rw [if_pos (by omega), if_pos (by omega), show s.off + s.len + t2.length + (j - s.len - t2.length) = s.off + j by omega] at hq'
        rw [if_pos hj1] at c1
        rw [if_pos hj1, hq', c1, if_neg (by rw [List.length_take]; omega), List.getElem?_drop, List.length_take]
        congr 1
        omega
      · rw [if_neg hj1, if_neg (by rw [List.length_take]; omega), List.getElem?_drop, List.length_take, List.getElem?_eq_none (by omega)]

/-- C81: if the first text does not fit, the first result keeps its bytes whatever is appended to the same slice afterwards. -/
theorem C81_twice_moved {call1 call2 : Slice → Buf Slice} {t1 : Text} {g : Go Text} (hc1 : Appends call1 (.ok t1)) (hc2 : Appends call2 g) {h : Arrays} {s : Slice}
    (hv : s.Valid h) (hf : s.cap < s.len + t1.length) :
    ∃ h1 s1, call1 s h = (.ok s1, h1) ∧ s1.bytes (call2 s h1).2 = s.bytes h ++ t1 := by
  obtain ⟨h1, s1, e1, a1⟩ := (hc1 h s hv).1 t1 rfl
  obtain ⟨hv1, -⟩ := a1.kept s hv (fun _ => Or.inl (le_refl _))
  refine ⟨h1, s1, e1, ?_⟩
  obtain ⟨k1, k2⟩ := hc2 h1 s hv1
  cases g with
  | error e => rw [k2 e rfl]; exact a1.bytes
  | ok t =>
    obtain ⟨h2, s2, e2, a2⟩ := k1 t rfl
    rw [e2, (a2.kept s1 a1.valid fun h => absurd h.symm (a1.moves hf s hv)).2]
    exact a1.bytes

/-! ### Texts that do not fit -/

/-- A call that leaves all existing arrays as they are if its text does not fit. -/
def AllOrNothing (call : Slice → Buf Slice) (g : Go Text) : Prop :=
  ∀ h s t, s.Valid h → g = .ok t → s.cap < s.len + t.length → ∀ r : Slice, r.Valid h → r.bytes (call s h).2 = r.bytes h

theorem append_all {h : Arrays} {s : Slice} {t : Text} (hc : s.cap < s.len + t.length) {r : Slice} (hr : r.Valid h) :
    r.bytes (s.append grow t h).2 = r.bytes h := by
  unfold Slice.append
  rw [if_neg (by omega)]
  unfold Slice.bytes
  dsimp only
  rw [getD_append_lt hr.arr_lt]

/-- C81: AppendInt and AppendUint write nothing into the slice given if the text does not fit. -/
theorem C81_int_all_or_nothing (i : BitVec 64) (base : ℤ) :
    AllOrNothing (fun s => appendIntBuf grow W s i base) (formatInt W i base) ∧ AllOrNothing (fun s => appendUintBuf grow W s i base) (formatUint W i base) := by
  have key : ∀ (g : Go Text) (h : Arrays) (s : Slice) (t : Text), g = .ok t → s.cap < s.len + t.length → ∀ r : Slice, r.Valid h →
      r.bytes ((Buf.run g >>= fun x => s.append grow x) h).2 = r.bytes h := by
    rintro g h s t rfl hc r hr
    rw [buf_bind]
    exact append_all grow hc hr
  constructor
  · intro h s t hv ht hc r hr
    dsimp only
    unfold appendIntBuf formatBitsBuf
    unfold formatInt at ht
    split <;> rename_i hs
    · rw [if_pos hs] at ht; exact key _ h s t ht hc r hr
    · rw [if_neg hs] at ht; exact key _ h s t ht hc r hr
  · intro h s t hv ht hc r hr
    dsimp only
    unfold appendUintBuf formatBitsBuf
    unfold formatUint at ht
    split <;> rename_i hs
    · rw [if_pos hs] at ht; exact key _ h s t ht hc r hr
    · rw [if_neg hs] at ht; exact key _ h s t ht hc r hr

/-- C81: AppendFloat is different: it appends piece by piece, so that a text that does not fit leaves its beginning in the free part of the slice
given, although the result lies elsewhere. -/
theorem C81_float_not_all_or_nothing : ¬ ∀ (f : F64) (fmt : Char) (prec size : ℤ),
    AllOrNothing (fun s => appendFloatBuf grow 64 s f fmt prec size) (formatFloat 64 f fmt prec size) := by
  intro hall
  -- 0 with one decimal appended to a slice with room for two of its three characters
  have := hall 0 'f' 1 64 [['a', 'b', 'c']] ⟨0, 0, 1, 3⟩ ['0', '.', '0'] ⟨by decide, by decide, by decide⟩ (by rfl) (by decide) ⟨0, 0, 3, 3⟩ ⟨by decide, by decide, by decide⟩
  have h2 : Slice.bytes ⟨0, 0, 3, 3⟩ (appendFloatBuf grow 64 ⟨0, 0, 1, 3⟩ 0 'f' 1 64 [['a', 'b', 'c']]).2 = ['a', '0', '.'] := rfl
  rw [h2] at this
  revert this
  decide

/-! ### How much room is enough -/

/-- C81: a slice with 24 free bytes (15 for size 32, 11 for size 16) takes the shortest text of every float in the formats `e`, `E`, `g` and `G` without a new
array. -/
theorem C81_room_shortest (hW : W = 32 ∨ W = 64) (f : F64) {fmt : Char} (hfmt : fmt = 'e' ∨ fmt = 'E' ∨ fmt = 'g' ∨ fmt = 'G') {prec : ℤ} (hp : prec < 0) {size : ℤ}
    (hsize : size = 16 ∨ size = 32 ∨ size = 64) {h : Arrays} {s : Slice} (hv : s.Valid h) (hroom : s.len + maxText size ≤ s.cap) :
    ∃ h' s' t, formatFloat W f fmt prec size = .ok t ∧ appendFloatBuf grow W s f fmt prec size h = (.ok s', h') ∧ s' = { s with len := s.len + t.length } ∧
      s'.bytes h' = s.bytes h ++ t ∧ h'.length = h.length := by
  obtain ⟨t, h1, h2⟩ := C73_shortest hW hsize hp true f hfmt
  obtain ⟨h', s', e1, a⟩ := (C81_appendFloat grow hW f fmt prec size h s hv).1 t h1
  obtain ⟨q1, q2, -⟩ := a.fits (by omega)
  exact ⟨h', s', t, h1, e1, q1, a.bytes, q2⟩

/-- C81: a slice with 20 free bytes takes every number in base 10, and one with 65 free bytes in every base. -/
theorem C81_room_int (hW : W = 32 ∨ W = 64) (i : BitVec 64) {base : ℤ} (h1 : 2 ≤ base) (h2 : base ≤ 36) {h : Arrays} {s : Slice} (hv : s.Valid h)
    (hroom : s.len + (if base = 10 then 20 else 65) ≤ s.cap) :
    ∃ h' s' t, formatInt W i base = .ok t ∧ appendIntBuf grow W s i base h = (.ok s', h') ∧ s' = { s with len := s.len + t.length } ∧
      s'.bytes h' = s.bytes h ++ t ∧ h'.length = h.length := by
  have hl : ∀ t, formatInt W i base = .ok t → t.length ≤ if base = 10 then 20 else 65 := by
    intro t ht
    rw [formatInt_eq hW i h1 h2] at ht
    cases ht
    have hn : i.toInt.natAbs ≤ 2 ^ 63 := by
      have := i.toInt_lt
      have := i.le_toInt
      norm_num at *
      omega
    have h0 : (if i.toInt < 0 then ['-'] else []).length ≤ 1 := by split <;> simp
    rw [List.length_append, List.length_map]
    by_cases hb : base = 10
    · rw [if_pos hb, hb]
      have := dg_length_le (b := 10) (by norm_num) (k := 19) (n := i.toInt.natAbs) (by norm_num) (by norm_num at *; omega)
      rw [show (10 : ℤ).toNat = 10 from rfl]
      omega
    · rw [if_neg hb]
      have := dg_length_le (b := base.toNat) (by omega) (k := 64) (n := i.toInt.natAbs) (by norm_num)
        (lt_of_lt_of_le (show i.toInt.natAbs < 2 ^ 64 by norm_num at *; omega) (Nat.pow_le_pow_left (by omega) 64))
      omega
  obtain ⟨t, ht, -⟩ := C39_formatInt hW i h1 h2
  obtain ⟨h', s', e1, a⟩ := (C81_appendInt grow i base h s hv).1 t ht
  have := hl t ht
  obtain ⟨q1, q2, -⟩ := a.fits (by omega)
  exact ⟨h', s', t, ht, e1, q1, a.bytes, q2⟩

/-! ### FormatFloat -/

/-- C81: FormatFloat changes no array that exists. Its buffer is the only array it makes exactly if the text is no longer than 24 characters or, for
larger precisions, than the precision and 4. -/
theorem C81_formatFloat (hW : W = 32 ∨ W = 64) (f : F64) (fmt : Char) (prec size : ℤ) (h : Arrays) :
    ∃ h', formatFloatBuf grow W f fmt prec size h = (formatFloat W f fmt prec size, h') ∧ (∀ r : Slice, r.Valid h → r.Valid h' ∧ r.bytes h' = r.bytes h) ∧
      ∀ t, formatFloat W f fmt prec size = .ok t → (h'.length = h.length + 1 ↔ (t.length : ℤ) ≤ max (prec + 4) 24) := by
  set n := (max (prec + 4) 24).toNat with hn
  set h0 : Arrays := h ++ [List.replicate n (Char.ofNat 0)] with hh0
  have hv : Slice.Valid h0 ⟨h.length, 0, 0, n⟩ := by
    refine ⟨Nat.zero_le _, by simp [hh0], ?_⟩
    rw [hh0, getD_append_self, List.length_replicate]
    simp
  have hl0 : h0.length = h.length + 1 := by simp [hh0]
  have hb0 : Slice.bytes ⟨h.length, 0, 0, n⟩ h0 = [] := by simp [Slice.bytes]
  have hold : ∀ r : Slice, r.Valid h → r.Valid h0 ∧ r.bytes h0 = r.bytes h := by
    intro r hr
    have := hr.arr_lt
    refine ⟨⟨hr.len_le, by omega, ?_⟩, ?_⟩
    · rw [hh0, getD_append_lt hr.arr_lt]; exact hr.window
    · unfold Slice.bytes
      rw [hh0, getD_append_lt hr.arr_lt]
  have hcall := emits_ftoa (grow := grow) hW true f fmt prec size h0 ⟨h.length, 0, 0, n⟩ hv
  have hrun : formatFloatBuf grow W f fmt prec size h =
      match genericFtoaBuf grow W true ⟨h.length, 0, 0, n⟩ f fmt prec size h0 with
      | (.ok s, h') => (.ok (s.bytes h'), h')
      | (.error e, h') => (.error e, h') := by
    unfold formatFloatBuf
    rw [buf_bind]
    change ((genericFtoaBuf grow W true ⟨h.length, 0, 0, n⟩ f fmt prec size >>= fun s => (fun h => (Except.ok (s.bytes h), h) : Buf Text)) : Buf Text) h0 = _
    rw [buf_bind]
    rcases genericFtoaBuf grow W true ⟨h.length, 0, 0, n⟩ f fmt prec size h0 with ⟨_ | _, _⟩ <;> rfl
  rw [hrun]
  unfold formatFloat
  cases hg : genericFtoa W true f fmt prec size with
  | error e =>
    have := hcall.2 e hg
    dsimp only at this
    rw [this]
    exact ⟨h0, rfl, hold, fun t ht => by cases ht⟩
  | ok t =>
    obtain ⟨h', s', e1, e2⟩ := hcall.1 t hg
    dsimp only at e1
    rw [e1]
    refine ⟨h', ?_, fun r hr => ?_, ?_⟩
    · dsimp only
      rw [e2.bytes, hb0, List.nil_append]
    · obtain ⟨r1, r2⟩ := hold r hr
      obtain ⟨q1, q2⟩ := e2.appended.kept r r1 (fun ha => by have := hr.arr_lt; dsimp only at ha; omega)
      exact ⟨q1, q2.trans r2⟩
    · rintro _ ⟨⟩
      by_cases hc : t.length ≤ n
      · obtain ⟨-, q, -⟩ := e2.fits (by simpa using hc)
        constructor
        · intro _; omega
        · intro _; omega
      · have q := e2.moves (by simpa using hc)
        have := e2.valid.arr_lt
        constructor
        · intro _; omega
        · intro _; omega

/-- C81: FormatFloat makes no second array for the shortest text in the formats `e`, `E`, `g` and `G`, nor with at most 16 decimals in `e` and `E`
and at most 17 digits in `g` and `G`. -/
theorem C81_one_array (hW : W = 32 ∨ W = 64) (f : F64) {fmt : Char} (hfmt : fmt = 'e' ∨ fmt = 'E' ∨ fmt = 'g' ∨ fmt = 'G') {prec size : ℤ}
    (hp : prec ≤ if fmt = 'e' ∨ fmt = 'E' then 16 else 17) (hsize : size = 16 ∨ size = 32 ∨ size = 64) (h : Arrays) :
    (formatFloatBuf grow W f fmt prec size h).2.length = h.length + 1 := by
  obtain ⟨t, ht, hl⟩ : ∃ t, formatFloat W f fmt prec size = .ok t ∧ t.length ≤ 24 := by
    by_cases hneg : prec < 0
    · obtain ⟨t, h1, h2⟩ := C73_shortest hW hsize hneg true f hfmt
      exact ⟨t, h1, le_trans h2 (by rcases hsize with rfl | rfl | rfl <;> decide)⟩
    · by_cases he : fmt = 'e' ∨ fmt = 'E'
      · obtain ⟨t, h1, h2⟩ := C73_exponential hW hsize (by omega : 0 ≤ prec) true f he
        rw [if_pos he] at hp
        exact ⟨t, h1, by omega⟩
      · obtain ⟨t, h1, h2⟩ := C73_general hW hsize (by omega : 0 ≤ prec) true f (fmt := fmt) (by tauto)
        rw [if_neg he] at hp
        exact ⟨t, h1, by omega⟩
  obtain ⟨h', e1, -, e3⟩ := C81_formatFloat grow hW f fmt prec size h
  rw [e1]
  exact (e3 t ht).2 (by omega)

-- slices that meet the hypotheses: with room for every short text, without free part, and nil
example : Slice.Valid [List.replicate 40 'x', ['a', 'b']] ⟨0, 3, 2, 30⟩ ∧ 2 + maxText 64 ≤ 30 := ⟨⟨by decide, by decide, by decide⟩, by decide⟩
example : Slice.Valid [List.replicate 40 'x', ['a', 'b']] ⟨1, 0, 2, 2⟩ ∧ Slice.Valid [['a']] ⟨0, 0, 0, 0⟩ :=
  ⟨⟨by decide, by decide, by decide⟩, ⟨by decide, by decide, by decide⟩⟩
-- concrete cases: the bounds are attained
example : formatFloat 64 0x8010000000000000 'e' 17 64 = .ok "-2.22507385850720138e-308".toList ∧ ("-2.22507385850720138e-308".toList.length : ℤ) = 25 := by
  decide +kernel
example : formatInt 64 0x8000000000000000 10 = .ok "-9223372036854775808".toList ∧ "-9223372036854775808".toList.length = 20 := by decide +kernel
example : ∃ t, formatInt 64 0x8000000000000000 2 = .ok t ∧ t.length = 65 := ⟨_, rfl, by decide +kernel⟩
-- 1.5 appended to the empty slice in front of "xyz", with capacity for both, and then 2.25: the first result becomes "2.2"
example : ((do
    let a ← appendFloatBuf (fun _ _ => 0) 64 ⟨0, 0, 0, 6⟩ 0x3FF8000000000000 'g' (-1) 64
    let b ← appendFloatBuf (fun _ _ => 0) 64 ⟨0, 0, 0, 6⟩ 0x4002000000000000 'g' (-1) 64
    fun h => (.ok (a.bytes h, b.bytes h), h) : Buf (Text × Text)) [['u', 'v', 'w', 'x', 'y', 'z']]).1.toOption =
    some (['2', '.', '2'], ['2', '.', '2', '5']) := by decide +kernel

end GoFloat.Strconv
