import Mathlib.Logic.Relation
/-!
# Specification of connectivity: constraints are lists of elements, two elements are linked by a chain of constraints
-/
namespace Fiksi.Spec

/-- Element `i` occurs in a constraint. -/
def Constrained (cs : List (List Nat)) (i : Nat) : Prop := ∃ c ∈ cs, i ∈ c

/-- Elements `i` and `j` occur in a common constraint. -/
def Touch (cs : List (List Nat)) (i j : Nat) : Prop := ∃ c ∈ cs, i ∈ c ∧ j ∈ c

/-- There is a chain of constraints from `i` to `j`. -/
def Linked (cs : List (List Nat)) : Nat → Nat → Prop := Relation.ReflTransGen (Touch cs)

/-- No constraint joins two parts that already were separate constrained parts: the elements of a new constraint that already are
constrained already are linked. -/
def NeverJoins (cs : List (List Nat)) : Prop :=
  ∀ (m : Nat) (c : List Nat), cs[m]? = some c → ∀ i ∈ c, ∀ j ∈ c, Constrained (cs.take m) i → Constrained (cs.take m) j →
    Linked (cs.take m) i j

theorem Touch.symm {cs : List (List Nat)} {i j : Nat} (h : Touch cs i j) : Touch cs j i :=
  h.imp fun _ h => ⟨h.1, h.2.2, h.2.1⟩

theorem Linked.symm {cs : List (List Nat)} {i j : Nat} (h : Linked cs i j) : Linked cs j i := by
  induction h with
  | refl => exact Relation.ReflTransGen.refl
  | tail _ h2 ih => exact Relation.ReflTransGen.head h2.symm ih

theorem Linked.trans {cs : List (List Nat)} {i j k : Nat} (h : Linked cs i j) (h' : Linked cs j k) : Linked cs i k :=
  Relation.ReflTransGen.trans h h'

theorem Linked.refl (cs : List (List Nat)) (i : Nat) : Linked cs i i := Relation.ReflTransGen.refl

theorem Linked.of_mem {cs : List (List Nat)} {c : List Nat} (h : c ∈ cs) {i j : Nat} (hi : i ∈ c) (hj : j ∈ c) : Linked cs i j :=
  Relation.ReflTransGen.single ⟨c, h, hi, hj⟩

theorem Linked.mono {cs cs' : List (List Nat)} (h : ∀ c ∈ cs, c ∈ cs') {i j : Nat} (hl : Linked cs i j) : Linked cs' i j :=
  Relation.ReflTransGen.mono (r := Touch cs) (p := Touch cs') (fun _ _ ⟨c, h1, h2⟩ => ⟨c, h c h1, h2⟩) _ _ hl

end Fiksi.Spec
