import Verif.Props.Jacobian
import Verif.Props.LineSearch
import Verif.Proofs.Analytic
/-!
# Lines in the problems `solve` poses
-/
namespace Fiksi

open Spec

/-- No expression has a variable twice among its arguments. -/
def Subsystem.Plain (sub : Subsystem ℝ) : Prop :=
  ∀ id ∈ sub.expressions, ∀ e, sub.allExpressions[id]? = some e → e.variableIndices.Nodup

/-- The rate of change of a variable of the system while the free variables move in the direction `d`. -/
noncomputable def Subsystem.velocity (sub : Subsystem ℝ) (d : List ℝ) (v : Nat) : ℝ :=
  match sub.freeVariables.idxOf? v with
  | some k => d.getD k 0
  | none => 0

noncomputable def Expr.gradientOf (e : Expr ℝ) (vs : List ℝ) : List ℝ :=
  match e.computeResidualAndGradient vs with
  | .ok rg => rg.2
  | .error _ => []

theorem getD_along {x d : List ℝ} (h : x.length = d.length) (t : ℝ) (k : Nat) : (along x d t).getD k 0 = x.getD k 0 + t * d.getD k 0 := by
  simp only [along, List.getD_eq_getElem?_getD, List.getElem?_zipWith]
  by_cases hk : k < x.length
  · rw [List.getElem?_eq_getElem hk, List.getElem?_eq_getElem (h ▸ hk)]
    rfl
  · rw [List.getElem?_eq_none (by omega), List.getElem?_eq_none (by omega)]
    simp

theorem Subsystem.valueOf_along (sub : Subsystem ℝ) {x d : List ℝ} (h : x.length = d.length) (t : ℝ) (v : Nat) :
    sub.valueOf (along x d t) v = sub.valueOf x v + t * sub.velocity d v := by
  rw [valueOf, valueOf, velocity]
  cases sub.freeVariables.idxOf? v with
  | some k => exact getD_along h t k
  | none => simp

theorem gradient_length {e : Expr ℝ} {h : Nat → ℝ} {rg : ℝ × List ℝ} (he : e.computeResidualAndGradient (e.variableIndices.map h) = .ok rg) :
    rg.2.length = e.variableIndices.length := by
  cases e <;> cases he <;> first | rfl | exact lct_length ..

theorem slots_dot (sub : Subsystem ℝ) (u d : List ℝ) {n : Nat} (hn : sub.freeVariables.length = n) : ∀ (is : List Nat) (gs : List ℝ),
    ∑ k ∈ Finset.range n, (slotVals k ((is.map (sub.varOf u)).zip gs)).sum * d.getD k 0 = dotList gs (is.map (sub.velocity d)) := by
  intro is
  induction is with
  | nil => intro gs; simp [dotList, slotVals]
  | cons i is ih =>
    intro gs
    cases gs with
    | nil => simp [dotList, slotVals]
    | cons g gs =>
      have ih := ih gs
      rw [dotList] at ih ⊢
      rw [List.map_cons, List.map_cons, List.zip_cons_cons, List.zipWith_cons_cons, List.sum_cons, ← ih, Subsystem.varOf, Subsystem.velocity]
      cases hk : sub.freeVariables.idxOf? i with
      | none => simp [slotVals]
      | some k =>
        have hlt : k < n := by rw [List.idxOf?_eq_some_iff] at hk; exact hn ▸ hk.1
        have e : ∀ c, (slotVals c ((Variable.free (u.getD k 0) k, g) :: (is.map (sub.varOf u)).zip gs)).sum * d.getD c 0 =
            (if k = c then g * d.getD c 0 else 0) + (slotVals c ((is.map (sub.varOf u)).zip gs)).sum * d.getD c 0 := by
          intro c
          rw [slotVals]
          split
          · rw [List.sum_cons]; ring
          · ring
        simp only [e, Finset.sum_add_distrib, Finset.sum_ite_eq, Finset.mem_range, hlt, if_true]

theorem slotVals_none {sub : Subsystem ℝ} {u : List ℝ} {c : Nat} : ∀ {is : List Nat} {gs : List ℝ}, (∀ v ∈ is, sub.freeVariables.idxOf? v ≠ some c) →
    slotVals c ((is.map (sub.varOf u)).zip gs) = [] := by
  intro is
  induction is with
  | nil => intro gs _; rfl
  | cons i is ih =>
    intro gs h
    cases gs with
    | nil => rfl
    | cons g gs =>
      have h1 := h i List.mem_cons_self
      have h2 := ih (gs := gs) (fun v hv => h v (List.mem_cons_of_mem _ hv))
      rw [List.map_cons, List.zip_cons_cons, Subsystem.varOf]
      cases hk : sub.freeVariables.idxOf? i with
      | none => exact h2
      | some k =>
        simp only [slotVals]
        rw [if_neg (by rintro rfl; exact h1 hk)]
        exact h2

theorem none_of_slotVals {sub : Subsystem ℝ} {u : List ℝ} {c : Nat} : ∀ {is : List Nat} {gs : List ℝ}, gs.length = is.length →
    slotVals c ((is.map (sub.varOf u)).zip gs) = [] → ∀ v ∈ is, sub.freeVariables.idxOf? v ≠ some c := by
  intro is
  induction is with
  | nil => intro gs _ _ v hv; cases hv
  | cons i is ih =>
    intro gs hl h
    cases gs with
    | nil => cases hl
    | cons g gs =>
      rw [List.map_cons, List.zip_cons_cons, Subsystem.varOf] at h
      have key : sub.freeVariables.idxOf? i ≠ some c ∧ slotVals c ((is.map (sub.varOf u)).zip gs) = [] := by
        cases hk : sub.freeVariables.idxOf? i with
        | none => rw [hk] at h; exact ⟨by simp, h⟩
        | some k =>
          rw [hk] at h
          simp only [slotVals] at h
          split at h
          · cases h
          · rename_i hne
            exact ⟨by simpa using hne, h⟩
      intro v hv
      rcases List.mem_cons.1 hv with rfl | hv
      · exact key.1
      · exact ih (by simpa using hl) key.2 v hv

section
variable {sub : Subsystem ℝ} (hok : sub.Ok)
include hok

theorem Subsystem.dense_rows {u rs jac : List ℝ} (hu : u.length = sub.freeVariables.length) (hr : rs.length = sub.expressions.length)
    (hj : jac.length = sub.expressions.length * sub.freeVariables.length) :
    ∃ r j, sub.problem.denseJacobian u rs jac = .ok (r, j) ∧ sub.problem.residuals u = .ok r ∧ r.length = sub.expressions.length ∧
      j.length = sub.expressions.length * sub.freeVariables.length ∧
      ∀ (c id : Nat) (e : Expr ℝ), sub.expressions[c]? = some id → sub.allExpressions[id]? = some e →
        r[c]? = some (e.residualOf (e.variableIndices.map (sub.valueOf u))) ∧
        ∀ k < sub.freeVariables.length, j[c * sub.freeVariables.length + k]? =
          ((slotVals k ((e.variableIndices.map (sub.varOf u)).zip (e.gradientOf (e.variableIndices.map (sub.valueOf u))))).getLast?).or
            jac[c * sub.freeVariables.length + k]? := by
  have hex : ∀ id ∈ sub.expressions, ∃ d, rowData sub u id = .ok d ∧ SlotsLt sub.freeVariables.length d.2 := by
    intro id hid
    obtain ⟨e, he, hv⟩ := hok id hid
    obtain ⟨rg, -, h, -⟩ := rowData_total hu he hv
    exact ⟨_, h, slotsLt_of _ _⟩
  obtain ⟨r, j, q1, q2, q3, -, -, q5⟩ := dense_fold (sub := sub) (u := u) rfl sub.expressions 0 rs jac hex (by omega) (by rw [Nat.zero_add, hj])
  obtain ⟨rs', p1, p2, p3⟩ := residuals_total hok hu
  have hrow : ∀ (c id : Nat) (e : Expr ℝ), sub.expressions[c]? = some id → sub.allExpressions[id]? = some e →
        r[c]? = some (e.residualOf (e.variableIndices.map (sub.valueOf u))) ∧
        rs'[c]? = some (e.residualOf (e.variableIndices.map (sub.valueOf u))) ∧
        ∀ k < sub.freeVariables.length, j[c * sub.freeVariables.length + k]? =
          ((slotVals k ((e.variableIndices.map (sub.varOf u)).zip (e.gradientOf (e.variableIndices.map (sub.valueOf u))))).getLast?).or
            jac[c * sub.freeVariables.length + k]? := by
    intro c id e hc he
    obtain ⟨e', he', hv⟩ := hok id (List.mem_of_getElem? hc)
    rw [he, Option.some.injEq] at he'
    subst he'
    obtain ⟨rg, a1, a2, a3⟩ := rowData_total hu he hv
    obtain ⟨b1, b2⟩ := q5 c id _ hc a2
    obtain ⟨r', c1, c2⟩ := p3 c id e hc he
    rw [a3, Except.ok.injEq] at c1
    subst c1
    rw [Nat.zero_add] at b1
    have e1 : e.residualOf (e.variableIndices.map (sub.valueOf u)) = rg.1 := by rw [Expr.residualOf, a1]
    have e2 : e.gradientOf (e.variableIndices.map (sub.valueOf u)) = rg.2 := by rw [Expr.gradientOf, a1]
    refine ⟨by rw [b1, e1], by rw [c2, e1], fun k hk => ?_⟩
    have := b2 k hk
    rw [Nat.zero_add] at this
    rw [this, e2]
  have hrr : rs' = r := by
    apply List.ext_getElem?
    intro c
    by_cases hc : c < sub.expressions.length
    · obtain ⟨e, he, -⟩ := hok _ (List.getElem_mem hc)
      obtain ⟨h1, h2, -⟩ := hrow c _ e (List.getElem?_eq_getElem hc) he
      rw [h1, h2]
    · rw [List.getElem?_eq_none (by omega), List.getElem?_eq_none (by omega)]
  subst hrr
  exact ⟨rs', j, q1, p1, p2, by rw [q3, hj], fun c id e hc he => ⟨(hrow c id e hc he).1, (hrow c id e hc he).2.2⟩⟩

/-- Slots of the Jacobian that belong to no argument stay zero. -/
theorem Subsystem.buffer_zero {jac : List ℝ} (h : sub.problem.Buffer jac) :
    jac.length = sub.expressions.length * sub.freeVariables.length ∧
    ∀ (c id : Nat) (e : Expr ℝ) (k : Nat), sub.expressions[c]? = some id → sub.allExpressions[id]? = some e → k < sub.freeVariables.length →
      (∀ v ∈ e.variableIndices, sub.freeVariables.idxOf? v ≠ some k) → jac[c * sub.freeVariables.length + k]? = some 0 := by
  induction h with
  | zero =>
    refine ⟨by simp [Subsystem.problem], fun c id e k hc _ hk _ => ?_⟩
    have hc := lt_of_getElem? hc
    have hlt : c * sub.freeVariables.length + k < sub.expressions.length * sub.freeVariables.length := by
      calc c * sub.freeVariables.length + k < (c + 1) * sub.freeVariables.length := by rw [Nat.add_mul]; omega
        _ ≤ _ := Nat.mul_le_mul_right _ hc
    simp [Subsystem.problem, hlt]
  | next hb hx hr hd ih =>
    obtain ⟨r', j', h1, -, -, h4, h5⟩ := Subsystem.dense_rows hok hx hr ih.1
    rw [h1] at hd
    cases hd
    refine ⟨h4, fun c id e k hc he hk hv => ?_⟩
    rw [(h5 c id e hc he).2 k hk, slotVals_none hv, ih.2 c id e k hc he hk hv]
    rfl

theorem Subsystem.dense_dot (hpl : sub.Plain) {u rs jac r j d : List ℝ} (hu : u.length = sub.freeVariables.length)
    (hr : rs.length = sub.expressions.length) (hb : sub.problem.Buffer jac) (h : sub.problem.denseJacobian u rs jac = .ok (r, j))
    {c id : Nat} {e : Expr ℝ} (hc : sub.expressions[c]? = some id) (he : sub.allExpressions[id]? = some e) :
    r.getD c 0 = e.residualOf (e.variableIndices.map (sub.valueOf u)) ∧
    ∑ k ∈ Finset.range sub.freeVariables.length, j.getD (c * sub.freeVariables.length + k) 0 * d.getD k 0 =
      dotList (e.gradientOf (e.variableIndices.map (sub.valueOf u))) (e.variableIndices.map (sub.velocity d)) := by
  obtain ⟨hj, hz⟩ := Subsystem.buffer_zero hok hb
  obtain ⟨r', j', h1, -, -, h4, h5⟩ := Subsystem.dense_rows hok hu hr hj
  rw [h1] at h
  cases h
  obtain ⟨h6, h7⟩ := h5 c id e hc he
  refine ⟨by rw [List.getD_eq_getElem?_getD, h6]; rfl, ?_⟩
  rw [← slots_dot sub u d rfl]
  refine Finset.sum_congr rfl (fun k hk => ?_)
  rw [Finset.mem_range] at hk
  congr 1
  rw [List.getD_eq_getElem?_getD, h7 k hk]
  obtain ⟨e', he', hv⟩ := hok id (List.mem_of_getElem? hc)
  rw [he, Option.some.injEq] at he'
  subst he'
  have hl := slotVals_length_le (gs := e.gradientOf (e.variableIndices.map (sub.valueOf u))) k (hpl id (List.mem_of_getElem? hc) e he)
    (mapM_getValue hu hv)
  obtain ⟨rg, a1, -, -⟩ := rowData_total hu he hv
  have e2 : e.gradientOf (e.variableIndices.map (sub.valueOf u)) = rg.2 := by rw [Expr.gradientOf, a1]
  rw [e2] at hl ⊢
  have hnone := none_of_slotVals (sub := sub) (u := u) (c := k) (gradient_length a1)
  generalize slotVals k ((e.variableIndices.map (sub.varOf u)).zip rg.2) = sv at *
  match sv, hl with
  | [], _ =>
    rw [hz c id e k hc he hk (hnone rfl)]
    rfl
  | [a], _ => simp

end

end Fiksi
