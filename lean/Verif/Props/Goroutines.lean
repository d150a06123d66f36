import Verif.Proofs.Races
/-
C83: the functions in goroutines that run at the same time.
-/
namespace GoFloat
open Mem

/-- Goroutine `i` is done, and this is what it returned. -/
def Machine.Done {α : Type} (m : Machine α) (i : Nat) (r : Go α) : Prop := ∃ own, m.gs[i]? = some ⟨.done r, own⟩

/-- Without data races it does not matter what the other goroutines do and when: a goroutine that is done has returned
what it returns when it runs alone from the start. (For any computations on the memory.) -/
theorem C83_race_free {α : Type} {shared : Heap} {code : List (Mem α)} {s : List Nat}
    (hr : ¬ (Machine.mk shared (code.map (fun c => ⟨c, []⟩))).Race s) {i : Nat} {r : Go α}
    (hd : ((Machine.mk shared (code.map (fun c => ⟨c, []⟩))).run s).Done i r) :
    ∃ c, code[i]? = some c ∧ (c shared).1 = r := by
  obtain ⟨own, hd⟩ := hd
  have hi : i < code.length := by
    have := (List.getElem?_eq_some_iff.1 hd).1
    rwa [Machine.run_gs_length, List.length_map] at this
  refine ⟨code[i], List.getElem?_eq_getElem hi, ?_⟩
  obtain ⟨_, d2, _, _⟩ := Machine.drf_state hr (i := i) (g := ⟨code[i], []⟩) (by simp [hi])
  rw [hd] at d2
  have e := (Goroutine.mk.injEq .. ▸ Option.some.inj d2).1
  simp only [List.append_nil] at e
  have := after_exec code[i] shared (s.count i)
  rw [← e] at this
  rw [← this]
  rfl

/-- When goroutines that call the functions race: only if one calls `NewFromBig` of float128ppc with a finite
number other than zero, and another calls any function with the same variable. -/
theorem C83_race_only {shared : Heap} {calls : List (List Call)} {s : List Nat} (hr : (Machine.start shared calls).Race s) :
    ∃ (i j : Nat) (x : Addr) (v : BigFloat) (cs ds : List Call) (d : Call), i ≠ j ∧ shared[x]? = some v ∧ v.form = .finite ∧
      calls[i]? = some cs ∧ .float128ppcNewFromBig x ∈ cs ∧ calls[j]? = some ds ∧ d ∈ ds ∧ d.arg = some x := by
  obtain ⟨i, j, x, a, gi, gj, hij, hx, hi, hj, hw, ha, rfl⟩ := Machine.race_first hr
  simp only [Machine.start, List.getElem?_map, Option.map_eq_some_iff] at hi hj
  obtain ⟨cs, hcs, rfl⟩ := hi
  obtain ⟨ds, hds, rfl⟩ := hj
  simp only [Machine.start, List.append_nil] at hw ha hx
  have hv := List.getElem?_eq_getElem hx
  obtain ⟨h1, h2⟩ := all_no_write hv hw
  have hwin : Within shared.length (fun p => ∃ d ∈ ds, d.arg = some p) (fun p => ∃ d ∈ ds, d.arg = some p) (fun _ => True)
      (Call.all ds) :=
    within_all (fun c hc p hp => ⟨c, hc, hp⟩) (fun c hc p hp => ⟨c, hc, by rw [hp]; rfl⟩)
  have hd : ∃ d ∈ ds, d.arg = some a.addr := by
    cases a with
    | read p => exact within_reads hwin (Nat.le_refl _) p hx ha
    | write p => exact within_touches hwin (Nat.le_refl _) p hx ha
  obtain ⟨d, hd, hda⟩ := hd
  exact ⟨i, j, a.addr, _, cs, ds, d, hij, hv, h2, hcs, h1, hds, hd, hda⟩

/-- And then they do: however the goroutines are scheduled, once both are done without a panic there was a race. -/
theorem C83_race {shared : Heap} {calls : List (List Call)} {i j : Nat} {x : Addr} {v : BigFloat} {cs ds : List Call}
    {d : Call} (hij : i ≠ j) (hx : shared[x]? = some v) (hv : v.form = .finite) (hi : calls[i]? = some cs)
    (hc : .float128ppcNewFromBig x ∈ cs) (hj : calls[j]? = some ds) (hd : d ∈ ds) (hda : d.arg = some x)
    {s : List Nat} {rs qs : List Result} (h1 : ((Machine.start shared calls).run s).Done i (.ok rs))
    (h2 : ((Machine.start shared calls).run s).Done j (.ok qs)) : (Machine.start shared calls).Race s := by
  by_contra hr
  have key : ∀ k ks us, calls[k]? = some ks → ((Machine.start shared calls).run s).Done k (.ok us) →
      (∃ h', Call.all ks shared = (.ok us, h')) ∧
      ∀ a, (k, a) ∈ (Machine.start shared calls).trace s ↔ a ∈ (Call.all ks).touches shared := by
    intro k ks us hk ⟨own, hdone⟩
    obtain ⟨_, d2, _, d4⟩ := Machine.drf_state hr (i := k) (g := ⟨Call.all ks, []⟩) (by simp [Machine.start, hk])
    rw [hdone] at d2
    have e := (Goroutine.mk.injEq .. ▸ Option.some.inj d2).1
    simp only [List.append_nil, Machine.start] at e d4
    refine ⟨⟨((Call.all ks).after shared (s.count k)).2, ?_⟩, fun a => ?_⟩
    · rw [← after_exec _ _ (s.count k), ← e]; rfl
    · rw [← accesses_of_done e.symm]; exact d4 a
  obtain ⟨⟨_, e1⟩, t1⟩ := key i cs rs hi h1
  obtain ⟨⟨_, e2⟩, t2⟩ := key j ds qs hj h2
  exact hr ⟨i, j, x, .read x, hij, lt_of_get hx, (t1 _).2 ((all_touches e1).2 hc v hx hv),
    (t2 _).2 ((all_touches e2).1 d hd hda), rfl⟩

/-- Goroutines that do not call `NewFromBig` of float128ppc can be given the same numbers: in whatever order the steps
are made, there is no race, the numbers stay what they were, and every goroutine that is done has returned what the
functions return for these numbers. -/
theorem C83_values {shared : Heap} {calls : List (List Call)}
    (harg : ∀ cs ∈ calls, ∀ c ∈ cs, ∀ x, c.arg = some x → x < shared.length)
    (hcall : ∀ cs ∈ calls, ∀ c ∈ cs, ∀ x, c ≠ .float128ppcNewFromBig x) (s : List Nat) :
    ¬ (Machine.start shared calls).Race s ∧
    ((Machine.start shared calls).run s).shared = shared ∧
    ∀ i cs r, calls[i]? = some cs → ((Machine.start shared calls).run s).Done i r → r = cs.mapM (Call.value shared) := by
  have hr : ¬ (Machine.start shared calls).Race s := by
    intro h
    obtain ⟨i, _, x, _, cs, _, _, _, _, _, h1, h2, _⟩ := C83_race_only h
    exact hcall cs (List.mem_of_getElem? h1) _ h2 x rfl
  refine ⟨hr, Machine.shared_kept fun j p hp hw => ?_, fun i cs r hi hd => ?_⟩
  · obtain ⟨cs, h1, h2⟩ := trace_calls.2 j p hw hp
    exact hcall cs (List.mem_of_getElem? h1) _ h2 p rfl
  · have hm : Machine.start shared calls = Machine.mk shared ((calls.map Call.all).map (fun c => ⟨c, []⟩)) := by
      simp [Machine.start]
    rw [hm] at hr hd
    obtain ⟨c, h1, h2⟩ := C83_race_free hr hd
    simp only [List.getElem?_map, hi, Option.map_some, Option.some.injEq] at h1
    subst h1
    obtain ⟨L, e⟩ := all_run (h := shared) [] (harg cs (List.mem_of_getElem? hi)) (hcall cs (List.mem_of_getElem? hi))
    rw [List.append_nil] at e
    rw [← h2, e]

/-- No goroutine waits for another: each is done after a number of its own steps, whatever the others do meanwhile,
unless there is a race. -/
theorem C83_ends (shared : Heap) (calls : List (List Call)) {i : Nat} (hi : i < calls.length) :
    ∃ k, ∀ s : List Nat, k ≤ s.count i → ¬ (Machine.start shared calls).Race s →
      ∃ r, ((Machine.start shared calls).run s).Done i r := by
  obtain ⟨k, r, e⟩ := after_done (Call.all calls[i]) shared
  refine ⟨k, fun s hk hr => ⟨r, ?_⟩⟩
  obtain ⟨_, d2, _, _⟩ := Machine.drf_state hr (i := i) (g := ⟨Call.all calls[i], []⟩) (by simp [Machine.start, hi])
  obtain ⟨d, hd⟩ := Nat.exists_eq_add_of_le hk
  simp only [Machine.start, List.append_nil] at d2
  rw [hd, (after_stays e d).1, e] at d2
  exact ⟨_, d2⟩

/-! ### Cases -/

/-- The number 1/3 of type `big.Float` with 53 bits. -/
private def third : BigFloat :=
  { prec := 53, mode := .toNearestEven, acc := .exact, form := .finite, neg := false, mant := 6004799503160661, exp := -1 }

/-- Two goroutines that convert the same number at the same time, to half precision and to quadruple precision. -/
example (s : List Nat) :
    ¬ (Machine.start [third] [[.binary16NewFromBig 0, .isExact64 64 0], [.binary128NewFromBig 0]]).Race s ∧
    ∀ r, ((Machine.start [third] [[.binary16NewFromBig 0, .isExact64 64 0], [.binary128NewFromBig 0]]).run s).Done 1 r →
      r = [Call.binary128NewFromBig 0].mapM (Call.value [third]) := by
  have h := C83_values (shared := [third]) (calls := [[.binary16NewFromBig 0, .isExact64 64 0], [.binary128NewFromBig 0]])
    (by simp [Call.arg]) (by simp) s
  exact ⟨h.1, fun r hr => h.2.2 1 _ r rfl hr⟩

/-- ... and what the second returns. -/
example : [Call.binary128NewFromBig 0].mapM (Call.value [third]) =
    .ok [.binary128 ⟨0x3FFD555555555555, 0x5000000000000000⟩ .exact] := by
  rfl

/-- Two goroutines that convert the same number, one of them to a double-double: a race in every schedule that is long
enough for both. -/
example {s : List Nat} {rs qs : List Result}
    (h1 : ((Machine.start [third] [[.float128ppcNewFromBig 0], [.binary16NewFromBig 0]]).run s).Done 0 (.ok rs))
    (h2 : ((Machine.start [third] [[.float128ppcNewFromBig 0], [.binary16NewFromBig 0]]).run s).Done 1 (.ok qs)) :
    (Machine.start [third] [[.float128ppcNewFromBig 0], [.binary16NewFromBig 0]]).Race s :=
  C83_race (i := 0) (j := 1) (x := 0) (v := third) (by decide) rfl rfl rfl (by simp) rfl (List.mem_singleton.2 rfl) rfl h1 h2

/-- Is goroutine `i` done, without a panic? -/
private def returned {α : Type} (m : Machine α) (i : Nat) : Bool :=
  match m.gs[i]? with
  | some ⟨.done (.ok _), _⟩ => true
  | _ => false

private theorem done_of_returned {α : Type} {m : Machine α} {i : Nat} (h : returned m i = true) : ∃ r, m.Done i (.ok r) := by
  unfold returned at h
  split at h
  · rename_i r own e
    exact ⟨r, own, e⟩
  · cases h

/-- There are such schedules: the goroutines take turns. -/
example : ∃ s rs qs,
    ((Machine.start [third] [[.float128ppcNewFromBig 0], [.binary16NewFromBig 0]]).run s).Done 0 (.ok rs) ∧
    ((Machine.start [third] [[.float128ppcNewFromBig 0], [.binary16NewFromBig 0]]).run s).Done 1 (.ok qs) := by
  have h1 : returned ((Machine.start [third] [[.float128ppcNewFromBig 0], [.binary16NewFromBig 0]]).run
      (List.replicate 60 [0, 1]).flatten) 0 = true := by decide +kernel
  have h2 : returned ((Machine.start [third] [[.float128ppcNewFromBig 0], [.binary16NewFromBig 0]]).run
      (List.replicate 60 [0, 1]).flatten) 1 = true := by decide +kernel
  obtain ⟨rs, h1⟩ := done_of_returned h1
  obtain ⟨qs, h2⟩ := done_of_returned h2
  exact ⟨_, rs, qs, h1, h2⟩

/-- So `C83_race_only` has a case: the schedule of the last example has a race. -/
example : (Machine.start [third] [[.float128ppcNewFromBig 0], [.binary16NewFromBig 0]]).Race
    (List.replicate 60 [0, 1]).flatten := by
  obtain ⟨rs, h1⟩ := done_of_returned (i := 0) (m := (Machine.start [third] [[.float128ppcNewFromBig 0], [.binary16NewFromBig 0]]).run
      (List.replicate 60 [0, 1]).flatten) (by decide +kernel)
  obtain ⟨qs, h2⟩ := done_of_returned (i := 1) (m := (Machine.start [third] [[.float128ppcNewFromBig 0], [.binary16NewFromBig 0]]).run
      (List.replicate 60 [0, 1]).flatten) (by decide +kernel)
  exact C83_race (i := 0) (j := 1) (x := 0) (v := third) (by decide) rfl rfl rfl (by simp) rfl (List.mem_singleton.2 rfl) rfl h1 h2

/-- And `C83_race_free` and `C83_ends` have one: two goroutines with a common number, no race, and both are done. -/
example : ∃ s, ¬ (Machine.start [third] [[.float80x86NewFromBig 0], [.binary16NewFromBig 0, .binary128NewFromBig 0]]).Race s ∧
    ∃ rs qs, ((Machine.start [third] [[.float80x86NewFromBig 0], [.binary16NewFromBig 0, .binary128NewFromBig 0]]).run s).Done 0 (.ok rs) ∧
      ((Machine.start [third] [[.float80x86NewFromBig 0], [.binary16NewFromBig 0, .binary128NewFromBig 0]]).run s).Done 1 (.ok qs) := by
  refine ⟨(List.replicate 80 [1, 0]).flatten, ?_, ?_⟩
  · exact (C83_values (shared := [third]) (calls := [[.float80x86NewFromBig 0], [.binary16NewFromBig 0, .binary128NewFromBig 0]])
      (by simp [Call.arg]) (by simp) _).1
  · obtain ⟨rs, h1⟩ := done_of_returned (i := 0) (m := (Machine.start [third] [[.float80x86NewFromBig 0],
      [.binary16NewFromBig 0, .binary128NewFromBig 0]]).run (List.replicate 80 [1, 0]).flatten) (by decide +kernel)
    obtain ⟨qs, h2⟩ := done_of_returned (i := 1) (m := (Machine.start [third] [[.float80x86NewFromBig 0],
      [.binary16NewFromBig 0, .binary128NewFromBig 0]]).run (List.replicate 80 [1, 0]).flatten) (by decide +kernel)
    exact ⟨rs, qs, h1, h2⟩

end GoFloat
