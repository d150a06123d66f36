import Verif.Proofs.Sample
import Verif.Model.GenSort
import Mathlib.Data.List.Pairwise
/-
Property C85: the order of the mantissas in the generated tests of binary128.
-/
namespace GoFloat
namespace Binary128.Gen

/-- What `sort.Slice` promises of the list it leaves, if the order of the elements is given by `less`: no element is less than
one before it. -/
def SortedBy (less : MantBits → MantBits → Bool) (l : List MantBits) : Prop := l.Pairwise fun x y => less y x = false

/-- Two mantissas of which each one has the smaller word in one place. -/
def Cross (x y : MantBits) : Prop := x.a < y.a ∧ y.b < x.b

/-- C85 as one would like it: the order of the mantissas, hence the generated file, depends on the mantissas drawn only, not on
the algorithm of `sort.Slice`: there is one arrangement that is sorted. -/
def C85_full : Prop := ∀ mants : List MantBits, ∃! l, l.Perm mants ∧ SortedBy MantBits.less l

theorem less_false (x y : MantBits) : MantBits.less y x = false ↔ x.a ≤ y.a ∧ x.b ≤ y.b := by
  unfold MantBits.less
  by_cases h : y.a < x.a
  · rw [if_pos h]
    simp [BitVec.not_le.2 h]
  · rw [if_neg h]
    simp [BitVec.not_lt.1 h]

theorem sorted_unique {l l' : List MantBits} (hp : l.Perm l') (h : SortedBy MantBits.less l) (h' : SortedBy MantBits.less l') : l = l' := by
  refine hp.eq_of_pairwise ?_ h h'
  intro x y _ _ h1 h2
  rw [less_false] at h1 h2
  obtain ⟨a, b⟩ := x
  obtain ⟨c, d⟩ := y
  have e1 := BitVec.le_antisymm h1.1 h2.1
  have e2 := BitVec.le_antisymm h1.2 h2.2
  dsimp only at e1 e2
  rw [e1, e2]

/-- C85: the mantissas can be arranged as `sort.Slice` promises if and only if no two of them cross. -/
theorem C85_sortable_iff (mants : List MantBits) : (∃ l, l.Perm mants ∧ SortedBy MantBits.less l) ↔ ∀ x ∈ mants, ∀ y ∈ mants, ¬ Cross x y := by
  constructor
  · rintro ⟨l, hp, hs⟩ x hx y hy ⟨h1, h2⟩
    have key : ∀ u ∈ l, ∀ v ∈ l, u ≠ v → (MantBits.less v u = false ∨ MantBits.less u v = false) := by
      intro u hu v hv huv
      have hs' : l.Pairwise fun x y => MantBits.less y x = false ∨ MantBits.less x y = false := hs.imp fun h => Or.inl h
      have : Std.Symm fun x y : MantBits => MantBits.less y x = false ∨ MantBits.less x y = false := ⟨fun _ _ h => h.symm⟩
      exact hs'.forall hu hv huv
    rcases key x (hp.mem_iff.2 hx) y (hp.mem_iff.2 hy) (by rintro rfl; exact absurd h1 (BitVec.lt_irrefl _)) with h | h
    · rw [less_false] at h
      exact absurd h2 (BitVec.not_lt.2 h.2)
    · rw [less_false] at h
      exact absurd h1 (BitVec.not_lt.2 h.1)
  · intro h
    let le : MantBits → MantBits → Bool := fun x y => decide (x.a.toNat * 2 ^ 64 + x.b.toNat ≤ y.a.toNat * 2 ^ 64 + y.b.toNat)
    have hp : (mants.mergeSort le).Perm mants := List.mergeSort_perm mants le
    refine ⟨mants.mergeSort le, hp, ?_⟩
    have hs : (mants.mergeSort le).Pairwise fun x y => le x y = true := by
      refine List.pairwise_mergeSort ?_ ?_ mants
      · intro a b c h1 h2
        exact decide_eq_true (Nat.le_trans (of_decide_eq_true h1) (of_decide_eq_true h2))
      · intro a b
        rcases Nat.le_total (a.a.toNat * 2 ^ 64 + a.b.toNat) (b.a.toNat * 2 ^ 64 + b.b.toNat) with h | h
        · exact Bool.or_eq_true_iff.2 (Or.inl (decide_eq_true h))
        · exact Bool.or_eq_true_iff.2 (Or.inr (decide_eq_true h))
    refine hs.imp_of_mem ?_
    intro x y hx hy hxy
    have hc := h x (hp.mem_iff.1 hx) y (hp.mem_iff.1 hy)
    have hxy := of_decide_eq_true hxy
    rw [less_false]
    unfold Cross at hc
    rw [BitVec.lt_def, BitVec.lt_def] at hc
    rw [BitVec.le_def, BitVec.le_def]
    have := x.b.isLt
    have := y.b.isLt
    omega

/-- C85, the part that holds: mantissas of which no two cross have one arrangement that is sorted, which is the ascending order of
the 112 bits. Missing, because false: other mantissas (`C85_false`; there no arrangement is sorted, `C85_sortable_iff`). -/
theorem C85_order_partial (mants : List MantBits) (h : ∀ x ∈ mants, ∀ y ∈ mants, ¬ Cross x y) :
    (∃! l, l.Perm mants ∧ SortedBy MantBits.less l) ∧
    ∀ l, l.Perm mants → SortedBy MantBits.less l → l.Pairwise fun x y => x.a.toNat * 2 ^ 64 + x.b.toNat ≤ y.a.toNat * 2 ^ 64 + y.b.toNat := by
  constructor
  · obtain ⟨l, hp, hs⟩ := (C85_sortable_iff mants).2 h
    exact ⟨l, ⟨hp, hs⟩, fun l' ⟨hp', hs'⟩ => sorted_unique (hp'.trans hp.symm) hs' hs⟩
  · intro l _ hs
    refine hs.imp ?_
    intro x y hxy
    rw [less_false, BitVec.le_def, BitVec.le_def] at hxy
    omega

example := C85_order_partial [⟨2, 7⟩, ⟨1, 5⟩, ⟨1, 3⟩] (by unfold Cross; decide)

theorem C85_false : ¬ C85_full := by
  intro h
  obtain ⟨l, ⟨hp, hs⟩, -⟩ := h [⟨1, 5⟩, ⟨2, 3⟩]
  exact (C85_sortable_iff _).1 ⟨l, hp, hs⟩ ⟨1, 5⟩ (by simp) ⟨2, 3⟩ (by simp) ⟨by decide, by decide⟩

/-- `less` is not an order: of two mantissas that cross each one is less than the other. -/
theorem C85_both (x y : MantBits) (h : Cross x y) : MantBits.less x y = true ∧ MantBits.less y x = true := by
  unfold MantBits.less
  rw [if_pos h.1, if_neg (BitVec.not_lt.2 (BitVec.le_of_lt h.1))]
  exact ⟨rfl, by simpa using h.2⟩

/-! Concrete cases. -/
example : ∀ x ∈ [MantBits.mk 2 7, ⟨1, 5⟩, ⟨1, 3⟩], ∀ y ∈ [MantBits.mk 2 7, ⟨1, 5⟩, ⟨1, 3⟩], ¬ Cross x y := by
  unfold Cross
  decide
example : SortedBy MantBits.less [⟨1, 3⟩, ⟨1, 5⟩, ⟨2, 7⟩] := by unfold SortedBy; decide
example : Cross ⟨1, 5⟩ ⟨2, 3⟩ := ⟨by decide, by decide⟩

end Binary128.Gen
end GoFloat
