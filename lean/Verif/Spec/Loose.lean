import Verif.Spec.Size
/-!
# Specification: constraints that share nothing
-/
namespace Fiksi.Spec

/-- Two points are apart; with perturbation, by more than it can move them. -/
def Store.Apart (st : Store ℝ) (perturb : Bool) (p q : Nat) : Prop :=
  ∀ P Q, Geo.PointIs st p P → Geo.PointIs st q Q → (if perturb then (|P.re| + |P.im| + |Q.re| + |Q.im|) / 8196 + st.size / 16392 else 0) < dist P Q

/-- A distance of points that are apart and not both fixed, or a point on a circle whose centre is apart from the point and whose radius is not negative, not all fixed. -/
def Store.Attainable (st : Store ℝ) (perturb : Bool) : Con ℝ → Prop
  | .pointPointDistance p q d => 0 ≤ d ∧ st.Apart perturb p q ∧ ¬ (p ∈ st.fixed ∧ q ∈ st.fixed)
  | .pointCircleIncidence p c => ∀ q r, st.elems[c]? = some (.circle q r) →
      st.Apart perturb p q ∧ (∀ ρ, st.elems[r]? = some (.length ρ) → 0 ≤ ρ) ∧ ¬ (p ∈ st.fixed ∧ q ∈ st.fixed ∧ r ∈ st.fixed)
  | _ => False

/-- No point or length is in two constraints. -/
def Store.Unshared (st : Store ℝ) : Prop := st.cons.Pairwise fun con con' => ∀ i ∈ st.actsOn con, i ∉ st.actsOn con'

end Fiksi.Spec
