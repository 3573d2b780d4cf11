import Verif.Spec.Store
/-!
# Specification: the equations of a constraint

A coincidence is two equations (one per coordinate), every other constraint is one. Equations are numbered in the order in which the
constraints were created.
-/
namespace Fiksi.Spec

variable {F : Type}

/-- The number of equations of a constraint. -/
def Con.equations : Con F → Nat
  | .pointPointCoincidence _ _ => 2
  | _ => 1

/-- The number of the first equation of constraint number `n`. -/
def Store.firstEquation (st : Store F) (n : Nat) : Nat := ((st.cons.take n).map Con.equations).sum

/-- Equation number `e` belongs to constraint number `n`. -/
def Store.EquationOf (st : Store F) (n e : Nat) : Prop :=
  ∃ con, st.cons[n]? = some con ∧ st.firstEquation n ≤ e ∧ e < st.firstEquation n + con.equations

end Fiksi.Spec
