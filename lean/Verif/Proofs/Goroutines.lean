import Verif.Model.Goroutines
import Verif.Proofs.Heap
import Mathlib.Data.List.Induction
/-
Goroutines without data races do what each of them does alone.
-/
namespace GoFloat
open Mem

/-! ### A computation alone, step by step -/

/-- The state after `k` steps of a computation that is alone. -/
def Mem.after {α : Type} (m : Mem α) (h : Heap) : Nat → Mem α × Heap
  | 0 => (m, h)
  | k + 1 => (m.after h k).1.step (m.after h k).2

/-- The accesses of the first `k` steps of a computation that is alone. -/
def Mem.accesses {α : Type} (m : Mem α) (h : Heap) : Nat → List Access
  | 0 => []
  | k + 1 => m.accesses h k ++ (m.after h k).1.access.toList

theorem step_length {α : Type} (m : Mem α) (h : Heap) : h.length ≤ (m.step h).2.length := by
  cases m with
  | done r => exact Nat.le_refl _
  | load p k => simp only [step]; split <;> exact Nat.le_refl _
  | store p v k => simp only [step]; split <;> simp
  | alloc v k => simp [step]

theorem after_length {α : Type} (m : Mem α) (h : Heap) (k : Nat) : h.length ≤ (m.after h k).2.length := by
  induction k with
  | zero => exact Nat.le_refl _
  | succ k ih => exact Nat.le_trans ih (step_length _ _)

theorem step_exec {α : Type} (m : Mem α) (h : Heap) : (m.step h).1 (m.step h).2 = m h := by
  cases m with
  | done r => rfl
  | load p k => simp only [step, exec]; split <;> rfl
  | store p v k => simp only [step, exec]; split <;> rfl
  | alloc v k => rfl

theorem after_exec {α : Type} (m : Mem α) (h : Heap) (k : Nat) : (m.after h k).1 (m.after h k).2 = m h := by
  induction k with
  | zero => rfl
  | succ k ih => exact (step_exec _ _).trans ih

theorem after_step {α : Type} (m : Mem α) (h : Heap) (k : Nat) :
    m.after h (k + 1) = (m.step h).1.after (m.step h).2 k := by
  induction k with
  | zero => rfl
  | succ k ih => rw [after, ih]; rfl

/-- Every computation ends. -/
theorem after_done {α : Type} (m : Mem α) (h : Heap) : ∃ k r, (m.after h k).1 = .done r := by
  induction m generalizing h with
  | done r => exact ⟨0, r, rfl⟩
  | load p f ih =>
    cases hp : h[p]? with
    | some v =>
      obtain ⟨k, r, e⟩ := ih v h
      refine ⟨k + 1, r, ?_⟩
      rw [after_step]
      simpa [step, hp] using e
    | none => exact ⟨1, .error .nilPointer, by simp [after, step, hp]⟩
  | store p v f ih =>
    by_cases hp : p < h.length
    · obtain ⟨k, r, e⟩ := ih (h.set p v)
      refine ⟨k + 1, r, ?_⟩
      rw [after_step]
      simpa [step, hp] using e
    · exact ⟨1, .error .nilPointer, by simp [after, step, hp]⟩
  | alloc v f ih =>
    obtain ⟨k, r, e⟩ := ih h.length (h ++ [v])
    exact ⟨k + 1, r, by rw [after_step]; exact e⟩

theorem after_stays {α : Type} {m : Mem α} {h : Heap} {k : Nat} {r : Go α} (e : (m.after h k).1 = .done r) (d : Nat) :
    m.after h (k + d) = m.after h k ∧ m.accesses h (k + d) = m.accesses h k := by
  induction d with
  | zero => exact ⟨rfl, rfl⟩
  | succ d ih =>
    obtain ⟨i1, i2⟩ := ih
    have h1 : (m.after h (k + d)).1 = .done r := by rw [i1, e]
    refine ⟨?_, ?_⟩
    · show (m.after h (k + d)).1.step (m.after h (k + d)).2 = _
      rw [h1]
      show (Mem.done r, _) = _
      rw [← h1, i1]
    · show m.accesses h (k + d) ++ (m.after h (k + d)).1.access.toList = _
      rw [h1, i2]; simp [Mem.access]

theorem accesses_mono {α : Type} {m : Mem α} {h : Heap} {k : Nat} (d : Nat) {a : Access}
    (ha : a ∈ m.accesses h k) : a ∈ m.accesses h (k + d) := by
  induction d with
  | zero => exact ha
  | succ d ih => exact List.mem_append_left _ ih

/-- The accesses of a finished computation are all its accesses. -/
theorem accesses_done {α : Type} {m : Mem α} {h : Heap} {k l : Nat} {r : Go α} (e : (m.after h k).1 = .done r)
    {a : Access} (ha : a ∈ m.accesses h l) : a ∈ m.accesses h k := by
  rcases Nat.le_total k l with h1 | h1
  · obtain ⟨d, rfl⟩ := Nat.exists_eq_add_of_le h1
    rwa [(after_stays e d).2] at ha
  · obtain ⟨d, rfl⟩ := Nat.exists_eq_add_of_le h1
    exact accesses_mono d ha

/-! ### Schedules -/
namespace Machine
variable {α : Type}

theorem run_append (m : Machine α) (s t : List Nat) : m.run (s ++ t) = (m.run s).run t := by
  induction s generalizing m with
  | nil => rfl
  | cons i s ih => exact ih _

theorem trace_append (m : Machine α) (s t : List Nat) : m.trace (s ++ t) = m.trace s ++ (m.run s).trace t := by
  induction s generalizing m with
  | nil => rfl
  | cons i s ih =>
    simp only [List.cons_append, trace, run]
    split
    · exact ih _
    · split
      · exact ih _
      · rw [ih]; rfl

theorem step_gs_length (m : Machine α) (i : Nat) : (m.step i).gs.length = m.gs.length := by
  simp only [step]; split <;> simp

theorem run_gs_length (m : Machine α) (s : List Nat) : (m.run s).gs.length = m.gs.length := by
  induction s generalizing m with
  | nil => rfl
  | cons i s ih => rw [run, ih, step_gs_length]

/-- The memory as a goroutine sees it. -/
theorem view_get {S O : Heap} {p : Nat} (hp : p < S.length) : (S ++ O)[p]? = S[p]? :=
  List.getElem?_append_left hp

/-- A step does the same in two memories that agree where the step reads and beyond the first `n` numbers. -/
theorem view_step {c : Mem α} {S H : Heap} {n : Nat} (hS : S.length = n) (hH : n ≤ H.length)
    (hread : ∀ p, c.access = some (.read p) → p < n → S[p]? = H[p]?) :
    (c.step (S ++ H.drop n)).1 = (c.step H).1 ∧
    (c.step (S ++ H.drop n)).2.drop n = (c.step H).2.drop n ∧
    ((c.step (S ++ H.drop n)).2.take n).length = n ∧
    ∀ p, p < n → (c.access = some (.write p) → ((c.step (S ++ H.drop n)).2.take n)[p]? = (c.step H).2[p]?) ∧
      (c.access ≠ some (.write p) → ((c.step (S ++ H.drop n)).2.take n)[p]? = S[p]? ∧ (c.step H).2[p]? = H[p]?) := by
  have hlen : (S ++ H.drop n).length = H.length := by simp [hS]; omega
  have htake : (S ++ H.drop n).take n = S := by rw [← hS]; simp
  have hdrop : (S ++ H.drop n).drop n = H.drop n := by rw [← hS]; simp
  cases c with
  | done r =>
    simp only [Mem.step]
    refine ⟨trivial, hdrop, by rw [htake, hS], fun p _ => ⟨fun h => by simp [Mem.access] at h, fun _ => ⟨by rw [htake], trivial⟩⟩⟩
  | load q k =>
    have hq : (S ++ H.drop n)[q]? = H[q]? := by
      by_cases hq : q < n
      · have hq' : q < S.length := by rw [hS]; exact hq
        rw [List.getElem?_append_left hq']
        exact hread q rfl hq
      · have hq' : S.length ≤ q := by rw [hS]; exact Nat.le_of_not_lt hq
        have hq2 : n + (q - S.length) = q := by rw [← hS]; exact Nat.add_sub_cancel' hq'
        rw [List.getElem?_append_right hq', List.getElem?_drop, hq2]
    simp only [Mem.step, hq]
    cases H[q]? <;> exact ⟨rfl, hdrop, by simp only [htake, hS],
        fun p _ => ⟨fun h => by simp [Mem.access] at h, fun _ => ⟨by simp only [htake], rfl⟩⟩⟩
  | store q v k =>
    simp only [Mem.step, hlen]
    by_cases hq : q < H.length
    · simp only [hq, if_true]
      refine ⟨trivial, ?_, by simp [hS], fun p hp => ⟨fun h => ?_, fun h => ?_⟩⟩
      · rw [List.drop_set, List.drop_set, hdrop]
      · simp only [Mem.access, Option.some.injEq, Access.write.injEq] at h
        subst h
        rw [List.getElem?_take_of_lt hp, List.getElem?_set_self (by omega), List.getElem?_set_self hq]
      · have hne : q ≠ p := by rintro rfl; exact h rfl
        rw [List.getElem?_take_of_lt hp, List.getElem?_set_ne hne, List.getElem?_set_ne hne]
        exact ⟨List.getElem?_append_left (by omega), rfl⟩
    · simp only [hq, if_false]
      refine ⟨trivial, hdrop, by rw [htake, hS], fun p hp => ⟨fun h => ?_, fun _ => ⟨by rw [htake], trivial⟩⟩⟩
      simp only [Mem.access, Option.some.injEq, Access.write.injEq] at h
      exact absurd (Nat.lt_of_lt_of_le (h ▸ hp) hH) hq
  | alloc v k =>
    simp only [Mem.step, hlen]
    refine ⟨trivial, ?_, by simp [hS], fun p hp => ⟨fun h => by simp [Mem.access] at h, fun _ => ⟨?_, ?_⟩⟩⟩
    · rw [List.drop_append_of_le_length (by omega), List.drop_append_of_le_length hH, hdrop]
    · rw [List.getElem?_take_of_lt hp, List.getElem?_append_left (by omega), List.getElem?_append_left (by omega)]
    · rw [List.getElem?_append_left (by omega)]

/-- Without races, each goroutine is after a schedule where it is alone after as many steps of its own, has made
the same accesses, and finds the numbers that nobody else has written as it would alone. -/
theorem drf_state {m : Machine α} {s : List Nat} (hr : ¬ m.Race s) {i : Nat} {g : Goroutine α} (hi : m.gs[i]? = some g) :
    (m.run s).shared.length = m.shared.length ∧
    (m.run s).gs[i]? = some ⟨(g.code.after (m.shared ++ g.own) (s.count i)).1,
        (g.code.after (m.shared ++ g.own) (s.count i)).2.drop m.shared.length⟩ ∧
    (∀ p, p < m.shared.length → (∀ j, j ≠ i → (j, .write p) ∉ m.trace s) →
        (m.run s).shared[p]? = (g.code.after (m.shared ++ g.own) (s.count i)).2[p]?) ∧
    (∀ a, (i, a) ∈ m.trace s ↔ a ∈ g.code.accesses (m.shared ++ g.own) (s.count i)) := by
  induction s using List.reverseRecOn generalizing i g with
  | nil =>
    refine ⟨rfl, ?_, ?_, ?_⟩
    · simp [run, after, hi]
    · intro p hp _
      simp [run, after, List.getElem?_append_left hp]
    · intro a; simp [trace, accesses]
  | append_singleton s j ih =>
    have hr' : ¬ m.Race s := by
      rintro ⟨a, b, p, c, h1, h2, h3, h4, h5⟩
      exact hr ⟨a, b, p, c, h1, h2, by rw [trace_append]; exact List.mem_append_left _ h3,
        by rw [trace_append]; exact List.mem_append_left _ h4, h5⟩
    have hlen := (ih hr' hi).1
    have hrun : m.run (s ++ [j]) = (m.run s).step j := by rw [run_append]; rfl
    cases hj : m.gs[j]? with
    | none =>
      have hj' : (m.run s).gs[j]? = none := by
        rw [List.getElem?_eq_none_iff] at hj ⊢
        rw [run_gs_length]; exact hj
      have hne : j ≠ i := by rintro rfl; rw [hi] at hj; cases hj
      have h1 : (m.run s).step j = m.run s := by simp [step, hj']
      have h2 : m.trace (s ++ [j]) = m.trace s := by rw [trace_append]; simp [trace, hj']
      have h3 : (s ++ [j]).count i = s.count i := by simp [List.count_append, hne]
      rw [hrun, h1, h2, h3]
      exact ih hr' hi
    | some gj =>
      obtain ⟨-, j2, j3, j4⟩ := ih hr' hj
      set A := gj.code.after (m.shared ++ gj.own) (s.count j) with hA
      have hH : m.shared.length ≤ A.2.length := by
        have := after_length gj.code (m.shared ++ gj.own) (s.count j)
        rw [← hA, List.length_append] at this
        omega
      have htr : ∀ k a, (k, a) ∈ m.trace (s ++ [j]) ↔ (k, a) ∈ m.trace s ∨ k = j ∧ A.1.access = some a := by
        intro k a
        rw [trace_append, List.mem_append]
        refine or_congr Iff.rfl ?_
        simp only [trace, j2]
        cases hacc : A.1.access with
        | none => simp
        | some b => simp [eq_comm]
      have hread : ∀ p, A.1.access = some (.read p) → p < m.shared.length → (m.run s).shared[p]? = A.2[p]? := by
        intro p hp hlt
        refine j3 p hlt (fun k hk hw => hr ⟨k, j, p, .read p, hk, hlt, (htr _ _).2 (.inl hw), (htr _ _).2 (.inr ⟨rfl, hp⟩), rfl⟩)
      obtain ⟨v1, v2, v3, v4⟩ := view_step (c := A.1) hlen hH hread
      have hstep : (m.run s).step j = ⟨(A.1.step ((m.run s).shared ++ A.2.drop m.shared.length)).2.take m.shared.length,
          (m.run s).gs.set j ⟨(A.1.step ((m.run s).shared ++ A.2.drop m.shared.length)).1,
            (A.1.step ((m.run s).shared ++ A.2.drop m.shared.length)).2.drop m.shared.length⟩⟩ := by
        simp only [step, j2, hlen]
      rw [hrun, hstep]
      by_cases hij : j = i
      · subst hij
        obtain rfl : gj = g := by rw [hi] at hj; exact (Option.some.inj hj).symm
        have hc : (s ++ [j]).count j = s.count j + 1 := by simp [List.count_append]
        have hnext : gj.code.after (m.shared ++ gj.own) ((s ++ [j]).count j) = A.1.step A.2 := by rw [hc, after, hA]
        rw [hnext]
        refine ⟨v3, ?_, ?_, ?_⟩
        · have hjl : j < (m.run s).gs.length := (List.getElem?_eq_some_iff.1 j2).1
          rw [List.getElem?_set_self hjl, v1, v2]
        · intro p hp hw
          obtain ⟨w1, w2⟩ := v4 p hp
          by_cases ha : A.1.access = some (.write p)
          · exact w1 ha
          · obtain ⟨w3, w4⟩ := w2 ha
            rw [w3, w4]
            exact j3 p hp (fun k hk hw' => hw k hk ((htr _ _).2 (.inl hw')))
        · intro a
          rw [htr, hc, accesses, ← hA, List.mem_append, ← j4]
          simp
      · obtain ⟨-, i2, i3, i4⟩ := ih hr' hi
        have hc : (s ++ [j]).count i = s.count i := by simp [List.count_append, hij]
        rw [hc]
        refine ⟨v3, ?_, ?_, ?_⟩
        · rw [List.getElem?_set_ne hij, i2]
        · intro p hp hw
          obtain ⟨w1, w2⟩ := v4 p hp
          have ha : A.1.access ≠ some (.write p) := fun ha => hw j hij ((htr _ _).2 (.inr ⟨rfl, ha⟩))
          rw [(w2 ha).1]
          exact i3 p hp (fun k hk hw' => hw k hk ((htr _ _).2 (.inl hw')))
        · intro a
          rw [htr, ← i4]
          simp [Ne.symm hij]
end Machine

/-! ### Which common numbers a computation touches -/

/-- Whatever it finds in the memory, the computation reads only common numbers (addresses below `n`) in `F` and writes
only common numbers in `W`; if it ends without a panic, the result satisfies `Q`. -/
def Within {α : Type} (n : Nat) (F W : Addr → Prop) (Q : α → Prop) : Mem α → Prop
  | .done r => ∀ a, r = .ok a → Q a
  | .load p k => (p < n → F p) ∧ ∀ v, Within n F W Q (k v)
  | .store p _ k => (p < n → W p) ∧ Within n F W Q k
  | .alloc _ k => ∀ p, n ≤ p → Within n F W Q (k p)

variable {n : Nat} {F W : Addr → Prop} {α β : Type}

theorem Within.bind {m : Mem α} {f : α → Mem β} {P : α → Prop} {Q : β → Prop} (h1 : Within n F W P m)
    (h2 : ∀ a, P a → Within n F W Q (f a)) : Within n F W Q (m >>= f) := by
  change Within n F W Q (m.bind f)
  induction m with
  | done r =>
    cases r with
    | ok a => exact h2 a (h1 a rfl)
    | error e => exact fun _ h => by cases h
  | load p k ih => exact ⟨h1.1, fun v => ih v (h1.2 v)⟩
  | store p v k ih => exact ⟨h1.1, ih h1.2⟩
  | alloc v k ih => exact fun p hp => ih p (h1 p hp)

theorem within_pure {Q : α → Prop} {a : α} (h : Q a) : Within n F W Q (pure a : Mem α) :=
  fun _ e => (Except.ok.inj e) ▸ h
theorem within_run {g : Go α} : Within n F W (fun _ => True) (run g) := fun _ _ => trivial
theorem within_get {p : Addr} (h : p < n → F p) : Within n F W (fun _ => True) (get p) :=
  ⟨h, fun _ => within_pure trivial⟩
theorem within_put {p : Addr} {v : BigFloat} (h : p < n → W p) : Within n F W (fun _ => True) (put p v) :=
  ⟨h, within_pure trivial⟩
theorem within_make {v : BigFloat} : Within n F W (n ≤ ·) (make v) := fun _ hp => within_pure hp

theorem within_step {Q : α → Prop} {m : Mem α} {h : Heap} (hm : Within n F W Q m) (hn : n ≤ h.length) :
    Within n F W Q (m.step h).1 := by
  cases m with
  | done r => exact hm
  | load p k =>
    simp only [step]
    split
    · exact hm.2 _
    · exact fun _ e => by cases e
  | store p v k =>
    simp only [step]
    split
    · exact hm.2
    · exact fun _ e => by cases e
  | alloc v k => exact hm _ hn

theorem within_access {Q : α → Prop} {m : Mem α} (hm : Within n F W Q m) :
    (∀ p, m.access = some (.read p) → p < n → F p) ∧ (∀ p, m.access = some (.write p) → p < n → W p) := by
  cases m with
  | done r => exact ⟨fun _ h => by simp [Mem.access] at h, fun _ h => by simp [Mem.access] at h⟩
  | load p k =>
    refine ⟨fun q h => ?_, fun _ h => by simp [Mem.access] at h⟩
    simp only [Mem.access, Option.some.injEq, Access.read.injEq] at h
    exact h ▸ hm.1
  | store p v k =>
    refine ⟨fun _ h => by simp [Mem.access] at h, fun q h => ?_⟩
    simp only [Mem.access, Option.some.injEq, Access.write.injEq] at h
    exact h ▸ hm.1
  | alloc v k => exact ⟨fun _ h => by simp [Mem.access] at h, fun _ h => by simp [Mem.access] at h⟩

/-- What the goroutines access if each of them keeps to its numbers. -/
theorem trace_within {m : Machine α} {s : List Nat} {F W : Nat → Addr → Prop}
    (H : ∀ i g, m.gs[i]? = some g → Within m.shared.length (F i) (W i) (fun _ => True) g.code) :
    (∀ i p, (i, .read p) ∈ m.trace s → p < m.shared.length → F i p) ∧
    (∀ i p, (i, .write p) ∈ m.trace s → p < m.shared.length → W i p) := by
  induction s generalizing m with
  | nil => exact ⟨fun _ _ h => by simp [Machine.trace] at h, fun _ _ h => by simp [Machine.trace] at h⟩
  | cons j s ih =>
    have hnext : (m.step j).shared.length = m.shared.length ∧
        ∀ i g, (m.step j).gs[i]? = some g → Within m.shared.length (F i) (W i) (fun _ => True) g.code := by
      simp only [Machine.step]
      split
      · exact ⟨rfl, H⟩
      · rename_i g hg
        have hl : m.shared.length ≤ (m.shared ++ g.own).length := by simp
        refine ⟨?_, fun i g' hi => ?_⟩
        · have := step_length g.code (m.shared ++ g.own)
          rw [List.length_take]
          exact Nat.min_eq_left (Nat.le_trans hl this)
        · by_cases hij : j = i
          · subst hij
            rw [List.getElem?_set_self (List.getElem?_eq_some_iff.1 hg).1] at hi
            obtain rfl := Option.some.inj hi
            exact within_step (H _ _ hg) hl
          · rw [List.getElem?_set_ne hij] at hi
            exact H _ _ hi
    obtain ⟨n1, n2⟩ := hnext
    rw [← n1] at n2
    obtain ⟨i1, i2⟩ := ih n2
    rw [n1] at i1 i2
    simp only [Machine.trace]
    split
    · exact ⟨i1, i2⟩
    · rename_i g hg
      obtain ⟨a1, a2⟩ := within_access (H _ _ hg)
      split
      · exact ⟨i1, i2⟩
      · rename_i a ha
        refine ⟨fun i p hp hlt => ?_, fun i p hp hlt => ?_⟩
        · rcases List.mem_cons.1 hp with e | e
          · obtain ⟨rfl, rfl⟩ := Prod.mk.inj e
            exact a1 p ha hlt
          · exact i1 i p e hlt
        · rcases List.mem_cons.1 hp with e | e
          · obtain ⟨rfl, rfl⟩ := Prod.mk.inj e
            exact a2 p ha hlt
          · exact i2 i p e hlt

/-! ### The functions of `math/big` -/

theorem within_newFloat {x : F64} : Within n F W (n ≤ ·) (Mem.newFloat x) :=
  within_run.bind fun _ _ => within_make
theorem within_new : Within n F W (n ≤ ·) Mem.new := within_make

/-- Common numbers that may be read / written; a goroutine's own numbers always may. -/
def Rd (n : Nat) (F : Addr → Prop) (p : Addr) : Prop := p < n → F p
theorem rd_own {p : Addr} (h : n ≤ p) : Rd n F p := fun h' => absurd h' (Nat.not_lt.2 h)

theorem within_setPrec {z : Addr} {k : Nat} (h1 : Rd n F z) (h2 : Rd n W z) : Within n F W (· = z) (setPrec z k) :=
  (within_get h1).bind fun _ _ => (within_put h2).bind fun _ _ => within_pure rfl
theorem within_setMode {z : Addr} {k : RoundingMode} (h1 : Rd n F z) (h2 : Rd n W z) : Within n F W (· = z) (setMode z k) :=
  (within_get h1).bind fun _ _ => (within_put h2).bind fun _ _ => within_pure rfl
theorem within_setInf {z : Addr} {b : Bool} (h1 : Rd n F z) (h2 : Rd n W z) : Within n F W (fun _ => True) (setInf z b) :=
  (within_get h1).bind fun _ _ => within_put h2
theorem within_isInf {x : Addr} (h1 : Rd n F x) : Within n F W (fun _ => True) (isInf x) :=
  (within_get h1).bind fun _ _ => within_pure trivial
theorem within_signbit {x : Addr} (h1 : Rd n F x) : Within n F W (fun _ => True) (Mem.signbit x) :=
  (within_get h1).bind fun _ _ => within_pure trivial
theorem within_isInt {x : Addr} (h1 : Rd n F x) : Within n F W (fun _ => True) (isInt x) :=
  (within_get h1).bind fun _ _ => within_pure trivial
theorem within_uint64 {x : Addr} (h1 : Rd n F x) : Within n F W (fun _ => True) (uint64 x) :=
  (within_get h1).bind fun _ _ => within_pure trivial
theorem within_intNonneg {x : Addr} (h1 : Rd n F x) : Within n F W (fun _ => True) (intNonneg x) :=
  (within_get h1).bind fun _ _ => within_pure trivial
theorem within_float32 {x : Addr} (h1 : Rd n F x) : Within n F W (fun _ => True) (Mem.float32 x) :=
  (within_get h1).bind fun _ _ => within_pure trivial
theorem within_float64 {x : Addr} (h1 : Rd n F x) : Within n F W (fun _ => True) (Mem.float64 x) :=
  (within_get h1).bind fun _ _ => within_pure trivial
theorem within_acc {x : Addr} (h1 : Rd n F x) : Within n F W (fun _ => True) (acc x) :=
  (within_get h1).bind fun _ _ => within_pure trivial
theorem within_cmp {x y : Addr} (h1 : Rd n F x) (h2 : Rd n F y) : Within n F W (fun _ => True) (cmp x y) :=
  (within_get h1).bind fun _ _ => (within_get h2).bind fun _ _ => within_pure trivial
theorem within_neg {z x : Addr} (h1 : Rd n F z) (h2 : Rd n F x) (h3 : Rd n W z) :
    Within n F W (fun _ => True) (neg z x) := by
  simp only [neg]
  split
  · exact (within_get h1).bind fun _ _ => within_put h3
  · exact (within_get h1).bind fun _ _ => (within_get h2).bind fun _ _ => within_put h3
theorem within_mantExp {x mant : Addr} (h1 : Rd n F x) (h2 : Rd n W mant) :
    Within n F W (fun _ => True) (mantExp x mant) :=
  (within_get h1).bind fun _ _ => (within_put h2).bind fun _ _ => within_pure trivial
theorem within_setMantExp {z x : Addr} {e : Int} (h1 : Rd n F z) (h2 : Rd n F x) (h3 : Rd n W z) :
    Within n F W (fun _ => True) (setMantExp z x e) := by
  simp only [setMantExp]
  split
  · exact (within_get h1).bind fun _ _ => within_put h3
  · exact (within_get h1).bind fun _ _ => (within_get h2).bind fun _ _ => within_put h3
theorem within_add {z x y : Addr} (h1 : Rd n F z) (h2 : Rd n F x) (h3 : Rd n F y) (h4 : Rd n W z) :
    Within n F W (fun _ => True) (add z x y) :=
  (within_get h1).bind fun _ _ => (within_get h2).bind fun _ _ => (within_get h3).bind fun _ _ =>
    within_run.bind fun _ _ => within_put h4
theorem within_sub {z x y : Addr} (h1 : Rd n F z) (h2 : Rd n F x) (h3 : Rd n F y) (h4 : Rd n W z) :
    Within n F W (fun _ => True) (sub z x y) :=
  (within_get h1).bind fun _ _ => (within_get h2).bind fun _ _ => (within_get h3).bind fun _ _ =>
    within_run.bind fun _ _ => within_put h4
theorem within_parse {z : Addr} {s : Text} (h1 : Rd n F z) (h2 : Rd n W z) :
    Within n F W (fun _ => True) (parse z s) := by
  refine (within_get h1).bind fun v _ => ?_
  split
  · exact within_put h2
  · exact within_run
theorem within_negIf {b : Bool} {x : Addr} (h1 : Rd n F x) (h2 : Rd n W x) :
    Within n F W (fun _ => True) (negIf b x) := by
  simp only [negIf]
  split
  · exact within_neg h1 h1 h2
  · exact within_pure trivial
theorem within_makePositive {x : Addr} (h1 : Rd n F x) (h2 : Rd n W x) :
    Within n F W (fun _ => True) (makePositive x) := by
  refine (within_signbit h1).bind fun b _ => ?_
  split
  · exact within_neg h1 h1 h2
  · exact within_pure trivial

attribute [local irreducible] Within Mem.newFloat Mem.new Mem.run Mem.get setPrec setMode setInf isInf Mem.signbit isInt
  uint64 intNonneg Mem.float32 Mem.float64 acc cmp neg mantExp setMantExp add sub parse negIf makePositive

/-- Follow a computation statement by statement. -/
macro "within" : tactic => `(tactic| (
  repeat' (first
    | with_reducible assumption
    | with_reducible exact ‹Rd _ _ _›
    | with_reducible exact trivial
    | with_reducible exact rd_own (by assumption)
    | with_reducible apply within_pure
    | with_reducible refine Within.bind within_newFloat fun _ _ => ?_
    | with_reducible refine Within.bind within_new fun _ _ => ?_
    | with_reducible refine Within.bind within_run fun _ _ => ?_
    | with_reducible refine Within.bind (within_get ?_) fun _ _ => ?_
    | (with_reducible refine Within.bind (within_setPrec ?_ ?_) fun _ h => ?_; rotate_left 2; subst h)
    | (with_reducible refine Within.bind (within_setMode ?_ ?_) fun _ h => ?_; rotate_left 2; subst h)
    | with_reducible refine Within.bind (within_setInf ?_ ?_) fun _ _ => ?_
    | with_reducible refine Within.bind (within_isInf ?_) fun _ _ => ?_
    | with_reducible refine Within.bind (within_signbit ?_) fun _ _ => ?_
    | with_reducible refine Within.bind (within_isInt ?_) fun _ _ => ?_
    | with_reducible refine Within.bind (within_uint64 ?_) fun _ _ => ?_
    | with_reducible refine Within.bind (within_intNonneg ?_) fun _ _ => ?_
    | with_reducible refine Within.bind (within_float32 ?_) fun _ _ => ?_
    | with_reducible refine Within.bind (within_float64 ?_) fun _ _ => ?_
    | with_reducible refine Within.bind (within_acc ?_) fun _ _ => ?_
    | with_reducible refine Within.bind (within_cmp ?_ ?_) fun _ _ => ?_
    | with_reducible refine Within.bind (within_neg ?_ ?_ ?_) fun _ _ => ?_
    | with_reducible refine Within.bind (within_mantExp ?_ ?_) fun _ _ => ?_
    | with_reducible refine Within.bind (within_setMantExp ?_ ?_ ?_) fun _ _ => ?_
    | with_reducible refine Within.bind (within_add ?_ ?_ ?_ ?_) fun _ _ => ?_
    | with_reducible refine Within.bind (within_sub ?_ ?_ ?_ ?_) fun _ _ => ?_
    | with_reducible refine Within.bind (within_parse ?_ ?_) fun _ _ => ?_
    | with_reducible refine Within.bind (within_negIf ?_ ?_) fun _ _ => ?_
    | with_reducible refine Within.bind (within_makePositive ?_ ?_) fun _ _ => ?_
    | with_reducible apply within_float32
    | with_reducible apply within_float64
    | with_reducible apply within_neg
    | dsimp only
    | split)))

theorem Bfloat.within_big (f : Bfloat.Float) : Within n F W (fun r => n ≤ r.1) f.bigMem := by
  unfold Bfloat.Float.bigMem
  within

namespace Binary16
theorem within_big (f : Float) : Within n F W (fun r => n ≤ r.1) f.bigMem := by
  unfold Float.bigMem
  within
theorem within_newFromBig {x : Addr} (h1 : Rd n F x) : Within n F W (fun _ => True) (newFromBigMem x) := by
  unfold newFromBigMem
  within
theorem within_newFromFloat64 (x : F64) : Within n F W (fun _ => True) (newFromFloat64Mem x) := by
  unfold newFromFloat64Mem
  within
  exact within_newFromBig (rd_own (by assumption))
theorem within_float64 (f : Float) : Within n F W (fun _ => True) f.float64Mem := by
  unfold Float.float64Mem
  refine (within_big f).bind fun r hr => ?_
  within
theorem within_float32 (f : Float) : Within n F W (fun _ => True) f.float32Mem := by
  unfold Float.float32Mem
  refine (within_big f).bind fun r hr => ?_
  within
theorem within_newFromFloat32 (x : F32) : Within n F W (fun _ => True) (newFromFloat32Mem x) := by
  unfold newFromFloat32Mem
  refine (within_newFromFloat64 _).bind fun r hr => ?_
  dsimp only
  split
  · exact (within_float32 _).bind fun _ _ => within_pure (Q := fun _ => True) trivial
  · exact within_pure (Q := fun _ => True) trivial
end Binary16

namespace Binary128
theorem within_big (f : Float) : Within n F W (fun r => n ≤ r.1) f.bigMem := by
  unfold Float.bigMem
  within
theorem within_newFromBig {x : Addr} (h1 : Rd n F x) : Within n F W (fun _ => True) (newFromBigMem x) := by
  unfold newFromBigMem
  within
theorem within_newFromFloat64 (x : F64) : Within n F W (fun _ => True) (newFromFloat64Mem x) := by
  unfold newFromFloat64Mem
  within
  exact within_newFromBig (rd_own (by assumption))
theorem within_float64 (f : Float) : Within n F W (fun _ => True) f.float64Mem := by
  unfold Float.float64Mem
  refine (within_big f).bind fun r hr => ?_
  within
theorem within_float32 (f : Float) : Within n F W (fun _ => True) f.float32Mem := by
  unfold Float.float32Mem
  refine (within_big f).bind fun r hr => ?_
  within
theorem within_newFromFloat32 (x : F32) : Within n F W (fun _ => True) (newFromFloat32Mem x) := by
  unfold newFromFloat32Mem
  refine (within_newFromFloat64 _).bind fun r hr => ?_
  dsimp only
  split
  · exact (within_float32 _).bind fun _ _ => within_pure (Q := fun _ => True) trivial
  · exact within_pure (Q := fun _ => True) trivial
end Binary128

namespace Float80x86
theorem within_big (f : Float) : Within n F W (fun r => n ≤ r.1) f.bigMem := by
  unfold Float.bigMem
  within
theorem within_newFromBig {x : Addr} (h1 : Rd n F x) : Within n F W (fun _ => True) (newFromBigMem x) := by
  unfold newFromBigMem
  within
theorem within_newFromFloat64 (x : F64) : Within n F W (fun _ => True) (newFromFloat64Mem x) := by
  unfold newFromFloat64Mem
  within
  exact within_newFromBig (rd_own (by assumption))
theorem within_float64 (f : Float) : Within n F W (fun _ => True) f.float64Mem := by
  unfold Float.float64Mem
  refine (within_big f).bind fun r hr => ?_
  within
theorem within_float32 (f : Float) : Within n F W (fun _ => True) f.float32Mem := by
  unfold Float.float32Mem
  refine (within_big f).bind fun r hr => ?_
  within
theorem within_newFromFloat32 (x : F32) : Within n F W (fun _ => True) (newFromFloat32Mem x) := by
  unfold newFromFloat32Mem
  refine (within_newFromFloat64 _).bind fun r hr => ?_
  dsimp only
  split
  · exact (within_float32 _).bind fun _ _ => within_pure (Q := fun _ => True) trivial
  · exact within_pure (Q := fun _ => True) trivial
end Float80x86

namespace Float128ppc
theorem within_big (f : Float) : Within n F W (fun r => n ≤ r.1) f.bigMem := by
  unfold Float.bigMem
  within
theorem within_newFromBig {x : Addr} (h1 : Rd n F x) (h2 : Rd n W x) : Within n F W (fun _ => True) (newFromBigMem x) := by
  unfold newFromBigMem
  within
theorem within_newFromFloat64 (x : F64) : Within n F W (fun _ => True) (newFromFloat64Mem x) := by
  unfold newFromFloat64Mem
  split
  · within
  · refine (within_big _).bind fun r hr => ?_
    within
theorem within_float64 (f : Float) : Within n F W (fun _ => True) f.float64Mem := by
  unfold Float.float64Mem
  refine (within_big f).bind fun r hr => ?_
  within
theorem within_float32 (f : Float) : Within n F W (fun _ => True) f.float32Mem := by
  unfold Float.float32Mem
  refine (within_big f).bind fun r hr => ?_
  within
theorem within_newFromFloat32 (x : F32) : Within n F W (fun _ => True) (newFromFloat32Mem x) := by
  unfold newFromFloat32Mem
  refine (within_newFromFloat64 _).bind fun r hr => ?_
  dsimp only
  split
  · exact (within_float32 _).bind fun _ _ => within_pure (Q := fun _ => True) trivial
  · exact within_pure (Q := fun _ => True) trivial
end Float128ppc

theorem within_isExact16 {V : Nat} {x : Addr} (h1 : Rd n F x) : Within n F W (fun _ => True) (isExact16Mem V x) := by
  unfold isExact16Mem
  within
  exact h1

theorem within_isExact32 {V : Nat} {x : Addr} (h1 : Rd n F x) : Within n F W (fun _ => True) (isExact32Mem V x) := by
  unfold isExact32Mem
  within
  exact h1

theorem within_isExact64 {V : Nat} {x : Addr} (h1 : Rd n F x) : Within n F W (fun _ => True) (isExact64Mem V x) := by
  unfold isExact64Mem
  within
  exact h1

/-! ### Calls -/

theorem within_look {m : Mem (Addr × Bool)} (h : Within n F W (fun r => n ≤ r.1) m) :
    Within n F W (fun _ => True) (Call.look m) :=
  h.bind fun _ hr => (within_get (rd_own hr)).bind fun _ _ => within_pure (Q := fun _ => True) trivial

theorem within_then {m : Mem α} {f : α → β} (h : Within n F W (fun _ => True) m) :
    Within n F W (fun _ => True) (m >>= fun a => pure (f a)) :=
  h.bind fun _ _ => within_pure (Q := fun _ => True) trivial

theorem within_call {c : Call} (h1 : ∀ x, c.arg = some x → F x) (h2 : ∀ x, c = .float128ppcNewFromBig x → W x) :
    Within n F W (fun _ => True) c.mem := by
  cases c with
  | bfloatBig f => exact within_look (Bfloat.within_big f)
  | binary16Big f => exact within_look (Binary16.within_big f)
  | binary16NewFromBig x => exact within_then (Binary16.within_newFromBig (fun _ => h1 x rfl))
  | binary16NewFromFloat64 x => exact within_then (Binary16.within_newFromFloat64 x)
  | binary16NewFromFloat32 x => exact within_then (Binary16.within_newFromFloat32 x)
  | binary16Float64 f => exact within_then (Binary16.within_float64 f)
  | binary16Float32 f => exact within_then (Binary16.within_float32 f)
  | binary128Big f => exact within_look (Binary128.within_big f)
  | binary128NewFromBig x => exact within_then (Binary128.within_newFromBig (fun _ => h1 x rfl))
  | binary128NewFromFloat64 x => exact within_then (Binary128.within_newFromFloat64 x)
  | binary128NewFromFloat32 x => exact within_then (Binary128.within_newFromFloat32 x)
  | binary128Float64 f => exact within_then (Binary128.within_float64 f)
  | binary128Float32 f => exact within_then (Binary128.within_float32 f)
  | float80x86Big f => exact within_look (Float80x86.within_big f)
  | float80x86NewFromBig x => exact within_then (Float80x86.within_newFromBig (fun _ => h1 x rfl))
  | float80x86NewFromFloat64 x => exact within_then (Float80x86.within_newFromFloat64 x)
  | float80x86NewFromFloat32 x => exact within_then (Float80x86.within_newFromFloat32 x)
  | float80x86Float64 f => exact within_then (Float80x86.within_float64 f)
  | float80x86Float32 f => exact within_then (Float80x86.within_float32 f)
  | float128ppcBig f => exact within_look (Float128ppc.within_big f)
  | float128ppcNewFromBig x => exact within_then (Float128ppc.within_newFromBig (fun _ => h1 x rfl) (fun _ => h2 x rfl))
  | float128ppcNewFromFloat64 x => exact within_then (Float128ppc.within_newFromFloat64 x)
  | float128ppcNewFromFloat32 x => exact within_then (Float128ppc.within_newFromFloat32 x)
  | float128ppcFloat64 f => exact within_then (Float128ppc.within_float64 f)
  | float128ppcFloat32 f => exact within_then (Float128ppc.within_float32 f)
  | isExact16 V x => exact within_then (within_isExact16 (fun _ => h1 x rfl))
  | isExact32 V x => exact within_then (within_isExact32 (fun _ => h1 x rfl))
  | isExact64 V x => exact within_then (within_isExact64 (fun _ => h1 x rfl))

theorem within_all {cs : List Call} (h1 : ∀ c ∈ cs, ∀ x, c.arg = some x → F x)
    (h2 : ∀ c ∈ cs, ∀ x, c = .float128ppcNewFromBig x → W x) : Within n F W (fun _ => True) (Call.all cs) := by
  induction cs with
  | nil => exact within_pure trivial
  | cons c cs ih =>
    unfold Call.all
    exact (within_call (h1 c (List.mem_cons_self ..)) (h2 c (List.mem_cons_self ..))).bind fun _ _ =>
      (ih (fun d hd => h1 d (List.mem_cons_of_mem _ hd)) (fun d hd => h2 d (List.mem_cons_of_mem _ hd))).bind fun _ _ =>
        within_pure (Q := fun _ => True) trivial

/-- Goroutines that make calls: which common numbers they access. -/
theorem trace_calls {h : Heap} {calls : List (List Call)} {s : List Nat} :
    (∀ i p, (i, .read p) ∈ (Machine.start h calls).trace s → p < h.length →
      ∃ cs, calls[i]? = some cs ∧ ∃ c ∈ cs, c.arg = some p) ∧
    (∀ i p, (i, .write p) ∈ (Machine.start h calls).trace s → p < h.length →
      ∃ cs, calls[i]? = some cs ∧ Call.float128ppcNewFromBig p ∈ cs) := by
  refine trace_within (m := Machine.start h calls)
    (F := fun i p => ∃ cs, calls[i]? = some cs ∧ ∃ c ∈ cs, c.arg = some p)
    (W := fun i p => ∃ cs, calls[i]? = some cs ∧ Call.float128ppcNewFromBig p ∈ cs) (fun i g hi => ?_)
  simp only [Machine.start, List.getElem?_map, Option.map_eq_some_iff] at hi
  obtain ⟨cs, hcs, rfl⟩ := hi
  exact within_all (fun c hc x hx => ⟨cs, hcs, c, hc, hx⟩) (fun c hc x hx => ⟨cs, hcs, hx ▸ hc⟩)

/-- A call of `Big` and a look at the result. -/
theorem look_run {m : Mem (Addr × Bool)} {g : Go (BigFloat × Bool)} {h : Heap}
    (H : ∃ b L, m h = (g.map (fun r => (h.length, r.2)), h ++ b :: L) ∧ ∀ r, g = .ok r → r.1 = b) :
    ∃ L, Call.look m h = (g >>= fun r => pure (.big r.1 r.2), h ++ L) := by
  obtain ⟨b, L, e, hb⟩ := H
  refine ⟨b :: L, ?_⟩
  unfold Call.look
  rw [bind_run, e]
  cases g with
  | error e => rfl
  | ok r =>
    obtain rfl := hb r rfl
    simp only [Except.map, ok_cont, bind_run, load_0, pure_run]
    rfl

theorem then_run {m : Mem α} {g : Go α} {f : α → β} {h : Heap} (H : ∃ L, m h = (g, h ++ L)) :
    ∃ L, (m >>= fun a => pure (f a)) h = (g >>= fun a => pure (f a), h ++ L) := by
  obtain ⟨L, e⟩ := H
  refine ⟨L, ?_⟩
  rw [bind_run, e]
  cases g <;> rfl

/-- A call other than `NewFromBig` of float128ppc returns what the functions on values return, and only adds numbers. -/
theorem call_run {c : Call} {h : Heap} (h1 : ∀ x, c.arg = some x → x < h.length)
    (h2 : ∀ x, c ≠ .float128ppcNewFromBig x) : ∃ L, c.mem h = (c.value h, h ++ L) := by
  have hg : ∀ x, c.arg = some x → ∃ v, h[x]? = some v ∧ Call.number h x = .ok v := by
    intro x hx
    have := h1 x hx
    exact ⟨h[x], List.getElem?_eq_getElem this, by simp [Call.number, this]⟩
  cases c with
  | bfloatBig f => exact look_run (Bfloat.bigMem_eq f h)
  | binary16Big f => exact look_run (Binary16.bigMem_eq f h)
  | binary16NewFromBig x =>
    obtain ⟨v, hv, hn⟩ := hg x rfl
    simp only [Call.value, hn, go_bind]
    exact then_run (Binary16.newFromBigMem_eq hv)
  | binary16NewFromFloat64 x => exact then_run (Binary16.newFromFloat64Mem_eq x h)
  | binary16NewFromFloat32 x => exact then_run (Binary16.newFromFloat32Mem_eq x h)
  | binary16Float64 f => exact then_run (Binary16.Float.float64Mem_eq f h)
  | binary16Float32 f => exact then_run (Binary16.Float.float32Mem_eq f h)
  | binary128Big f => exact look_run (Binary128.bigMem_eq f h)
  | binary128NewFromBig x =>
    obtain ⟨v, hv, hn⟩ := hg x rfl
    simp only [Call.value, hn, go_bind]
    exact then_run (Binary128.newFromBigMem_eq hv)
  | binary128NewFromFloat64 x => exact then_run (Binary128.newFromFloat64Mem_eq x h)
  | binary128NewFromFloat32 x => exact then_run (Binary128.newFromFloat32Mem_eq x h)
  | binary128Float64 f => exact then_run (Binary128.Float.float64Mem_eq f h)
  | binary128Float32 f => exact then_run (Binary128.Float.float32Mem_eq f h)
  | float80x86Big f => exact look_run (Float80x86.bigMem_eq f h)
  | float80x86NewFromBig x =>
    obtain ⟨v, hv, hn⟩ := hg x rfl
    simp only [Call.value, hn, go_bind]
    exact then_run (Float80x86.newFromBigMem_eq hv)
  | float80x86NewFromFloat64 x => exact then_run (Float80x86.newFromFloat64Mem_eq x h)
  | float80x86NewFromFloat32 x => exact then_run (Float80x86.newFromFloat32Mem_eq x h)
  | float80x86Float64 f => exact then_run (Float80x86.Float.float64Mem_eq f h)
  | float80x86Float32 f => exact then_run (Float80x86.Float.float32Mem_eq f h)
  | float128ppcBig f => exact look_run (Float128ppc.bigMem_eq f h)
  | float128ppcNewFromBig x => exact absurd rfl (h2 x)
  | float128ppcNewFromFloat64 x => exact then_run (Float128ppc.newFromFloat64Mem_eq x h)
  | float128ppcNewFromFloat32 x => exact then_run (Float128ppc.newFromFloat32Mem_eq x h)
  | float128ppcFloat64 f => exact then_run (Float128ppc.Float.float64Mem_eq f h)
  | float128ppcFloat32 f => exact then_run (Float128ppc.Float.float32Mem_eq f h)
  | isExact16 V x =>
    obtain ⟨v, hv, hn⟩ := hg x rfl
    simp only [Call.value, hn, go_bind]
    exact then_run ⟨[], by rw [isExact16Mem_eq V hv, List.append_nil]⟩
  | isExact32 V x =>
    obtain ⟨v, hv, hn⟩ := hg x rfl
    simp only [Call.value, hn, go_bind]
    exact then_run ⟨[], by rw [isExact32Mem_eq V hv, List.append_nil]⟩
  | isExact64 V x =>
    obtain ⟨v, hv, hn⟩ := hg x rfl
    simp only [Call.value, hn, go_bind]
    exact then_run ⟨[], by rw [isExact64Mem_eq V hv, List.append_nil]⟩

theorem value_append {c : Call} {h L : Heap} (h1 : ∀ x, c.arg = some x → x < h.length) :
    c.value (h ++ L) = c.value h := by
  have hg : ∀ x, c.arg = some x → Call.number (h ++ L) x = Call.number h x := by
    intro x hx
    simp only [Call.number]
    rw [List.getElem?_append_left (h1 x hx)]
  cases c <;> first | rfl | simp only [Call.value, hg _ rfl]

theorem all_run {cs : List Call} {h : Heap} (L : Heap) (h1 : ∀ c ∈ cs, ∀ x, c.arg = some x → x < h.length)
    (h2 : ∀ c ∈ cs, ∀ x, c ≠ .float128ppcNewFromBig x) :
    ∃ L', Call.all cs (h ++ L) = (cs.mapM (Call.value h), h ++ L') := by
  induction cs generalizing L with
  | nil => exact ⟨L, rfl⟩
  | cons c cs ih =>
    have hl : ∀ x, c.arg = some x → x < (h ++ L).length := fun x hx => by
      rw [List.length_append]; exact Nat.lt_of_lt_of_le (h1 c (List.mem_cons_self ..) x hx) (Nat.le_add_right _ _)
    obtain ⟨L1, e1⟩ := call_run hl (h2 c (List.mem_cons_self ..))
    rw [value_append (h1 c (List.mem_cons_self ..)), List.append_assoc] at e1
    obtain ⟨L2, e2⟩ := ih (L ++ L1) (fun d hd => h1 d (List.mem_cons_of_mem _ hd)) (fun d hd => h2 d (List.mem_cons_of_mem _ hd))
    unfold Call.all
    rw [bind_run, e1, List.mapM_cons]
    cases c.value h with
    | error e => exact ⟨_, rfl⟩
    | ok r =>
      refine ⟨L2, ?_⟩
      simp only [ok_cont, bind_run, e2, go_bind]
      cases cs.mapM (Call.value h) <;> rfl

end GoFloat
