import Verif.Proofs.Goroutines
/-
When goroutines that call the functions of /repo race.
-/
namespace GoFloat
open Mem

variable {n : Nat} {F W : Addr → Prop} {α β : Type}

/-! ### All accesses of a computation that is alone -/

/-- The accesses of a computation that is alone with the memory. -/
def Mem.touches : Mem α → Heap → List Access
  | .done _, _ => []
  | .load p k, h =>
    .read p :: match h[p]? with
      | some v => (k v).touches h
      | none => []
  | .store p v k, h => .write p :: if p < h.length then k.touches (h.set p v) else []
  | .alloc v k, h => (k h.length).touches (h ++ [v])

theorem touches_step (m : Mem α) (h : Heap) : m.touches h = m.access.toList ++ (m.step h).1.touches (m.step h).2 := by
  cases m with
  | done r => rfl
  | load p k => simp only [touches, access, step]; cases h[p]? <;> rfl
  | store p v k => simp only [touches, access, step]; split <;> rfl
  | alloc v k => rfl

theorem touches_after (m : Mem α) (h : Heap) (k : Nat) :
    m.touches h = m.accesses h k ++ (m.after h k).1.touches (m.after h k).2 := by
  induction k with
  | zero => rfl
  | succ k ih =>
    rw [ih, touches_step, accesses, List.append_assoc]
    rfl

theorem accesses_of_done {m : Mem α} {h : Heap} {k : Nat} {r : Go α} (e : (m.after h k).1 = .done r) :
    m.accesses h k = m.touches h := by
  rw [touches_after m h k, e, touches, List.append_nil]

theorem touches_bind (m : Mem α) (f : α → Mem β) (h : Heap) :
    (m >>= f).touches h = m.touches h ++ (match m h with
      | (.ok a, h') => (f a).touches h'
      | (.error _, _) => []) := by
  change (m.bind f).touches h = _
  induction m generalizing h with
  | done r => cases r <;> rfl
  | load p k ih =>
    simp only [Mem.bind, touches, exec]
    cases h[p]? with
    | none => rfl
    | some v => simp only [ih, List.cons_append]
  | store p v k ih =>
    simp only [Mem.bind, touches, exec]
    split
    · simp only [ih, List.cons_append]
    · rfl
  | alloc v k ih => exact ih _ _

theorem touch_first {m : Mem α} {f : α → Mem β} {h : Heap} {a : Access} (ha : a ∈ m.touches h) :
    a ∈ (m >>= f).touches h := by
  rw [touches_bind]; exact List.mem_append_left _ ha

theorem touch_next {m : Mem α} {f : α → Mem β} {h h' : Heap} {b : α} {a : Access} (e : m h = (.ok b, h'))
    (ha : a ∈ (f b).touches h') : a ∈ (m >>= f).touches h := by
  rw [touches_bind, e]; exact List.mem_append_right _ ha

/-- A computation that keeps to its numbers leaves the other common numbers. -/
theorem within_exec {Q : α → Prop} {m : Mem α} {h : Heap} (hm : Within n F W Q m) (hn : n ≤ h.length) :
    n ≤ (m h).2.length ∧ ∀ p, p < n → ¬ W p → (m h).2[p]? = h[p]? := by
  induction m generalizing h with
  | done r => exact ⟨hn, fun _ _ _ => rfl⟩
  | load p k ih =>
    simp only [exec]
    cases h[p]? with
    | none => exact ⟨hn, fun _ _ _ => rfl⟩
    | some v => exact ih v (hm.2 v) hn
  | store p v k ih =>
    simp only [exec]
    split
    · obtain ⟨i1, i2⟩ := ih (h := h.set p v) hm.2 (by simpa using hn)
      refine ⟨i1, fun q hq hw => ?_⟩
      rw [i2 q hq hw, List.getElem?_set_ne]
      rintro rfl
      exact hw (hm.1 hq)
    · exact ⟨hn, fun _ _ _ => rfl⟩
  | alloc v k ih =>
    simp only [exec]
    obtain ⟨i1, i2⟩ := ih h.length (h := h ++ [v]) (hm _ hn) (by simp; omega)
    refine ⟨i1, fun q hq hw => ?_⟩
    rw [i2 q hq hw, List.getElem?_append_left (Nat.lt_of_lt_of_le hq hn)]

theorem within_reads {Q : α → Prop} {m : Mem α} {h : Heap} (hm : Within n F W Q m) (hn : n ≤ h.length) :
    ∀ p, p < n → .read p ∈ m.touches h → F p := by
  induction m generalizing h with
  | done r => intro p _ h; simp [touches] at h
  | load q k ih =>
    intro p hp h1
    simp only [touches, List.mem_cons, Access.read.injEq] at h1
    rcases h1 with rfl | h1
    · exact hm.1 hp
    · cases hq : h[q]? with
      | none => simp [hq] at h1
      | some v => rw [hq] at h1; exact ih v (hm.2 v) hn p hp h1
  | store q v k ih =>
    intro p hp h1
    simp only [touches, List.mem_cons, reduceCtorEq, false_or] at h1
    split at h1
    · exact ih (h := h.set q v) hm.2 (by simpa using hn) p hp h1
    · simp at h1
  | alloc v k ih =>
    intro p hp h1
    exact ih h.length (h := h ++ [v]) (hm _ hn) (by simp; omega) p hp h1

theorem within_touches {Q : α → Prop} {m : Mem α} {h : Heap} (hm : Within n F W Q m) (hn : n ≤ h.length) :
    ∀ p, p < n → .write p ∈ m.touches h → W p := by
  induction m generalizing h with
  | done r => intro p _ h; simp [touches] at h
  | load q k ih =>
    intro p hp h1
    simp only [touches, List.mem_cons, reduceCtorEq, false_or] at h1
    cases hq : h[q]? with
    | none => simp [hq] at h1
    | some v => rw [hq] at h1; exact ih v (hm.2 v) hn p hp h1
  | store q v k ih =>
    intro p hp h1
    simp only [touches, List.mem_cons, Access.write.injEq] at h1
    rcases h1 with rfl | h1
    · exact hm.1 hp
    · split at h1
      · exact ih (h := h.set q v) hm.2 (by simpa using hn) p hp h1
      · simp at h1
  | alloc v k ih =>
    intro p hp h1
    exact ih h.length (h := h ++ [v]) (hm _ hn) (by simp; omega) p hp h1

/-! ### What a call accesses -/

theorem touch_get (x : Addr) (h : Heap) : .read x ∈ (get x).touches h := by simp [Mem.get, touches]

theorem touches_get (p : Addr) (h : Heap) : (Mem.get p).touches h = [.read p] := by
  simp only [Mem.get, touches]
  cases h[p]? <;> rfl
theorem touches_put (p : Addr) (v : BigFloat) (h : Heap) : (Mem.put p v).touches h = [.write p] := by
  simp only [Mem.put, touches]
  split <;> rfl
theorem touches_pure (a : α) (h : Heap) : (pure a : Mem α).touches h = [] := rfl

theorem newZero_run (h : Heap) : ∃ z, newFloat 0 = .ok z ∧ Mem.newFloat 0 h = (.ok h.length, h ++ [z]) := by
  obtain ⟨z, hz⟩ := newFloat_zero_ok
  exact ⟨z, hz, by simp only [Mem.newFloat, bind_run, run_run, hz, ok_cont, alloc_run]⟩

theorem setPrec_new (h : Heap) (z : BigFloat) (k : Nat) :
    setPrec h.length k (h ++ [z]) = (.ok h.length, h ++ [z.setPrec k]) := by
  simp only [setPrec, bind_run, load_0, ok_cont, store_0, pure_run]

theorem isInf_run {x : Addr} {h : Heap} {v : BigFloat} (hx : h[x]? = some v) (L : Heap) :
    isInf x (h ++ L) = (.ok v.isInf, h ++ L) := by
  simp only [isInf, bind_run, load_of hx, ok_cont, pure_run]

theorem signbit_run {x : Addr} {h : Heap} {v : BigFloat} (hx : h[x]? = some v) (L : Heap) :
    Mem.signbit x (h ++ L) = (.ok v.signbit, h ++ L) := by
  simp only [Mem.signbit, bind_run, load_of hx, ok_cont, pure_run]

theorem cmp_run {x : Addr} {h : Heap} {v z : BigFloat} (hx : h[x]? = some v) :
    cmp x h.length (h ++ [z]) = (.ok (v.cmp z), h ++ [z]) := by
  simp only [cmp, bind_run, load_of hx, load_0, ok_cont, pure_run]

/-- A call reads the variable that it is given. -/
theorem touches_arg {c : Call} {x : Addr} (hc : c.arg = some x) (h : Heap) : .read x ∈ c.mem.touches h := by
  obtain ⟨z, _, hz⟩ := newZero_run h
  cases c <;> simp only [Call.arg, reduceCtorEq, Option.some.injEq] at hc <;> subst hc
  case isExact16 => exact touch_first (touch_first (touch_first (touch_get _ _)))
  case isExact32 => exact touch_first (touch_first (touch_first (touch_get _ _)))
  case isExact64 => exact touch_first (touch_first (touch_first (touch_get _ _)))
  case binary16NewFromBig => exact touch_first (touch_next hz (touch_first (touch_first (touch_get _ _))))
  case float80x86NewFromBig => exact touch_first (touch_next hz (touch_first (touch_first (touch_get _ _))))
  case binary128NewFromBig =>
    exact touch_first (touch_next hz (touch_next (setPrec_new ..) (touch_first (touch_first (touch_get _ _)))))
  case float128ppcNewFromBig =>
    exact touch_first (touch_next hz (touch_next (setPrec_new ..) (touch_first (touch_first (touch_get _ _)))))

/-- `NewFromBig` of float128ppc writes to its argument if it is a finite number other than zero. -/
theorem touches_write {x : Addr} {h : Heap} {v : BigFloat} (hx : h[x]? = some v) (hv : v.form = .finite) :
    .write x ∈ (Call.float128ppcNewFromBig x).mem.touches h := by
  obtain ⟨z, hz0, hz⟩ := newZero_run h
  have h1 : v.isInf = false := by simp [BigFloat.isInf, hv]
  have h2 : ¬ v.cmp (z.setPrec Float128ppc.precision) = .eq := fun e => by
    have := (Float128ppc.cmp_newZero v z hz0).1 e
    rw [hv] at this; cases this
  refine touch_first (touch_next hz (touch_next (setPrec_new ..) (touch_next (isInf_run hx _) ?_)))
  simp only [h1, Bool.false_eq_true, if_false]
  refine touch_next (cmp_run hx) ?_
  simp only [h2, if_false]
  refine touch_first (touch_next (load_of hx _) (touch_first ?_))
  simp [put, touches]

theorem touches_next {m : Mem α} {f : α → Mem β} {h h' : Heap} {b : α} (e : m h = (.ok b, h')) :
    (m >>= f).touches h = m.touches h ++ (f b).touches h' := by
  rw [touches_bind, e]

/-- It does not if the argument is zero or infinite. -/
theorem touches_no_write {x : Addr} {h : Heap} {v : BigFloat} (hx : h[x]? = some v) (hv : v.form ≠ .finite) :
    .write x ∉ (Call.float128ppcNewFromBig x).mem.touches h := by
  obtain ⟨z, hz0, hz⟩ := newZero_run h
  have hne : x ≠ h.length := Nat.ne_of_lt (lt_of_get hx)
  have t1 : (Mem.newFloat 0).touches h = [] := by
    rw [Mem.newFloat, touches_next (b := z) (h' := h) (by rw [run_run, hz0])]; rfl
  have t2 : (setPrec h.length Float128ppc.precision).touches (h ++ [z]) = [.read h.length, .write h.length] := by
    rw [setPrec, touches_next (load_0 h z [])]
    rw [touches_next (store_0 h z _ []), touches_get, touches_put, touches_pure]; rfl
  have t3 (L : Heap) : (isInf x).touches (h ++ L) = [.read x] := by
    rw [isInf, touches_next (load_of hx L), touches_get, touches_pure]; rfl
  have t4 (L : Heap) : (Mem.signbit x).touches (h ++ L) = [.read x] := by
    rw [Mem.signbit, touches_next (load_of hx L), touches_get, touches_pure]; rfl
  have t5 (a : BigFloat) : (cmp x h.length).touches (h ++ [a]) = [.read x, .read h.length] := by
    rw [cmp, touches_next (load_of hx [a]), touches_next (load_0 h a []), touches_get, touches_get, touches_pure]; rfl
  have key : .write x ∉ (Float128ppc.newFromBigMem x).touches h := by
    rw [Float128ppc.newFromBigMem, touches_next hz, touches_next (setPrec_new ..), touches_next (isInf_run hx _), t1, t2, t3]
    by_cases h1 : v.isInf = true
    · simp only [h1, if_true]
      rw [touches_next (signbit_run hx _), t4]
      cases v.signbit <;> simp [touches, hne, pure]
    · have h2 : v.form = .zero := by
        rcases hf : v.form with _ | _ | _
        · rfl
        · exact absurd hf hv
        · exact absurd (by simp [BigFloat.isInf, hf]) h1
      simp only [h1, Bool.false_eq_true, if_false]
      rw [touches_next (cmp_run hx), t5]
      simp only [(Float128ppc.cmp_newZero v z hz0).2 h2, if_true]
      rw [touches_next (signbit_run hx _), t4]
      cases v.signbit <;> simp [touches, hne, pure]
  rw [Call.mem, touches_bind]
  simp only [List.mem_append, not_or]
  refine ⟨key, ?_⟩
  split <;> simp [touches_pure]

/-- A sequence of calls writes a common number only if it is given to `NewFromBig` of float128ppc and finite
and not zero. -/
theorem all_no_write {cs : List Call} {h : Heap} {x : Addr} {v : BigFloat} (hx : h[x]? = some v)
    (hw : .write x ∈ (Call.all cs).touches h) : Call.float128ppcNewFromBig x ∈ cs ∧ v.form = .finite := by
  induction cs generalizing h with
  | nil => simp [Call.all, touches_pure] at hw
  | cons c cs ih =>
    have hl := lt_of_get hx
    have hwc : Within (x + 1) (fun _ => True) (fun p => c = .float128ppcNewFromBig p) (fun _ => True) c.mem :=
      within_call (fun _ _ => trivial) (fun _ e => e)
    rw [Call.all, touches_bind, List.mem_append] at hw
    rcases hw with hw | hw
    · obtain rfl := within_touches hwc hl x (Nat.lt_succ_self x) hw
      refine ⟨List.mem_cons_self .., ?_⟩
      by_contra hv
      exact touches_no_write hx hv hw
    · cases hr : c.mem h with
      | mk r h' =>
      rw [hr] at hw
      cases r with
      | error e => simp at hw
      | ok r =>
        simp only [touches_bind, List.mem_append] at hw
        have hw' : .write x ∈ (Call.all cs).touches h' := by
          rcases hw with hw | hw
          · exact hw
          · split at hw <;> simp [touches_pure] at hw
        by_cases hc : c = .float128ppcNewFromBig x
        · subst hc
          by_cases hv : v.form = .finite
          · exact ⟨List.mem_cons_self .., hv⟩
          · obtain ⟨L, e⟩ := Float128ppc.newFromBigMem_eq hx
            have hh : h' = h ++ L := by
              rw [Call.mem, bind_run, e, if_neg hv, set_of_get hx] at hr
              cases hn : (Float128ppc.newFromBig v).map Prod.fst with
              | error e => rw [hn, error_cont] at hr; cases hr
              | ok q => rw [hn, ok_cont] at hr; cases hr; rfl
            subst hh
            have hx' : (h ++ L)[x]? = some v := by rw [List.getElem?_append_left hl, hx]
            exact ⟨List.mem_cons_of_mem _ (ih hx' hw').1, (ih hx' hw').2⟩
        · have := (within_exec hwc hl).2 x (Nat.lt_succ_self x) hc
          rw [hr] at this
          have hx' : h'[x]? = some v := by rw [← hx]; exact this
          exact ⟨List.mem_cons_of_mem _ (ih hx' hw').1, (ih hx' hw').2⟩

/-- A sequence of calls that ends without a panic reads what its calls are given, and writes the finite numbers that
`NewFromBig` of float128ppc is given. -/
theorem all_touches {cs : List Call} {h h' : Heap} {rs : List Result} (hr : Call.all cs h = (.ok rs, h')) {x : Addr} :
    (∀ c ∈ cs, c.arg = some x → .read x ∈ (Call.all cs).touches h) ∧
    (Call.float128ppcNewFromBig x ∈ cs → ∀ v, h[x]? = some v → v.form = .finite → .write x ∈ (Call.all cs).touches h) := by
  induction cs generalizing h h' rs with
  | nil => exact ⟨fun c hc => by simp at hc, fun hc => by simp at hc⟩
  | cons c cs ih =>
    rw [Call.all, bind_run] at hr
    cases hc : c.mem h with
    | mk r h1 =>
    rw [hc] at hr
    cases r with
    | error e => rw [error_cont] at hr; cases hr
    | ok r =>
      rw [ok_cont, bind_run] at hr
      cases hcs : Call.all cs h1 with
      | mk rs' h2 =>
      rw [hcs] at hr
      cases rs' with
      | error e => rw [error_cont] at hr; cases hr
      | ok rs' =>
        obtain ⟨i1, i2⟩ := ih hcs
        refine ⟨fun d hd hx => ?_, fun hd v hv hf => ?_⟩
        · rcases List.mem_cons.1 hd with rfl | hd
          · exact touch_first (touches_arg hx h)
          · exact touch_next hc (touch_first (i1 d hd hx))
        · by_cases hcx : c = .float128ppcNewFromBig x
          · subst hcx
            exact touch_first (touches_write hv hf)
          · have hwc : Within (x + 1) (fun _ => True) (fun p => c = .float128ppcNewFromBig p) (fun _ => True) c.mem :=
              within_call (fun _ _ => trivial) (fun _ e => e)
            have := (within_exec hwc (lt_of_get hv)).2 x (Nat.lt_succ_self x) hcx
            rw [hc] at this
            have hv' : h1[x]? = some v := by rw [← hv]; exact this
            refine touch_next hc (touch_first (i2 ?_ v hv' hf))
            rcases List.mem_cons.1 hd with e | hd
            · exact absurd e.symm hcx
            · exact hd

/-! ### Races -/
namespace Machine

theorem trace_singleton (m : Machine α) (k : Nat) (q : Nat × Access) :
    q ∈ m.trace [k] ↔ ∃ g a, m.gs[k]? = some g ∧ g.code.access = some a ∧ q = (k, a) := by
  simp only [trace]
  cases hg : m.gs[k]? with
  | none => simp
  | some g =>
    cases ha : g.code.access with
    | none => simp [ha]
    | some a => simp [ha]

theorem trace_lt {m : Machine α} {s : List Nat} {i : Nat} {a : Access} (h : (i, a) ∈ m.trace s) : i < m.gs.length := by
  induction s generalizing m with
  | nil => simp [trace] at h
  | cons k s ih =>
    have ih' : (i, a) ∈ (m.step k).trace s → i < m.gs.length := fun h => by
      have := ih h; rwa [step_gs_length] at this
    simp only [trace] at h
    split at h
    · exact ih' h
    · rename_i g hg
      split at h
      · exact ih' h
      · rcases List.mem_cons.1 h with e | h
        · obtain ⟨rfl, rfl⟩ := Prod.mk.inj e
          exact (List.getElem?_eq_some_iff.1 hg).1
        · exact ih' h

/-- If nobody writes the common numbers, they stay what they were. -/
theorem shared_kept {m : Machine α} {s : List Nat} (h : ∀ j p, p < m.shared.length → (j, .write p) ∉ m.trace s) :
    (m.run s).shared = m.shared := by
  induction s generalizing m with
  | nil => rfl
  | cons i s ih =>
    have hs : (m.step i).shared = m.shared := by
      simp only [step]
      cases hg : m.gs[i]? with
      | none => rfl
      | some g =>
        simp only [trace, hg] at h
        rcases g with ⟨c, own⟩
        cases c with
        | done r => simp [Mem.step]
        | load q k => simp only [Mem.step]; split <;> simp
        | alloc v k => simp [Mem.step]
        | store q v k =>
          have hq : m.shared.length ≤ q := by
            by_contra hq
            exact h i q (Nat.lt_of_not_le hq) (by simp [access])
          simp only [Mem.step]
          split
          · simp [hq]
          · simp
    rw [run, ih, hs]
    intro j p hp hw
    rw [hs] at hp
    refine h j p hp ?_
    simp only [trace]
    split
    · exact hw
    · split
      · exact hw
      · exact List.mem_cons_of_mem _ hw

/-- If there is a race, there is one while all goroutines still do what they do alone. -/
theorem race_first {m : Machine α} {s : List Nat} (hr : m.Race s) :
    ∃ (i j p : Nat) (a : Access) (gi gj : Goroutine α), i ≠ j ∧ p < m.shared.length ∧ m.gs[i]? = some gi ∧ m.gs[j]? = some gj ∧
      .write p ∈ gi.code.touches (m.shared ++ gi.own) ∧ a ∈ gj.code.touches (m.shared ++ gj.own) ∧ a.addr = p := by
  induction s using List.reverseRecOn with
  | nil => obtain ⟨i, j, p, a, _, _, h, _⟩ := hr; simp [trace] at h
  | append_singleton t k ih =>
    by_cases ht : m.Race t
    · exact ih ht
    · have key : ∀ i a, (i, a) ∈ m.trace (t ++ [k]) → ∃ g, m.gs[i]? = some g ∧ a ∈ g.code.touches (m.shared ++ g.own) := by
        intro i a h
        rw [trace_append, List.mem_append, trace_singleton] at h
        have hg : ∃ g, m.gs[i]? = some g := by
          rcases h with h | ⟨g, b, hg, _, hb⟩
          · exact ⟨_, List.getElem?_eq_getElem (trace_lt h)⟩
          · obtain ⟨rfl, rfl⟩ := Prod.mk.inj hb
            have := (List.getElem?_eq_some_iff.1 hg).1
            rw [run_gs_length] at this
            exact ⟨_, List.getElem?_eq_getElem this⟩
        obtain ⟨g, hg⟩ := hg
        obtain ⟨_, d2, _, d4⟩ := drf_state ht hg
        refine ⟨g, hg, ?_⟩
        rw [touches_after _ _ (t.count i), List.mem_append]
        rcases h with h | ⟨g', b, hg', hb, e⟩
        · exact .inl ((d4 a).1 h)
        · obtain ⟨rfl, rfl⟩ := Prod.mk.inj e
          rw [d2] at hg'
          obtain rfl := Option.some.inj hg'
          refine .inr ?_
          rw [touches_step, hb]
          simp
      obtain ⟨i, j, p, a, h1, h2, h3, h4, h5⟩ := hr
      obtain ⟨gi, e1, e2⟩ := key _ _ h3
      obtain ⟨gj, e3, e4⟩ := key _ _ h4
      exact ⟨i, j, p, a, gi, gj, h1, h2, e1, e3, e2, e4, h5⟩
end Machine

end GoFloat
