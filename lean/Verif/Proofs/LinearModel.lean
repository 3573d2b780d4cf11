import Verif.Proofs.FittingMap
/-!
# The linear model of a subsystem, equation by equation
-/
namespace Fiksi
open Spec

/-- The linear model of an equation at the values `g`, for the change `d` of the values. -/
noncomputable def Expr.linear (e : Expr ℝ) (g d : Nat → ℝ) : ℝ :=
  match e.computeResidualAndGradient (e.variableIndices.map g) with
  | .ok rg => (List.zipWith (· * ·) rg.2 (e.variableIndices.map d)).sum + rg.1
  | .error _ => 0

/-- The change of a variable. -/
noncomputable def changeOf (free : List Nat) (δ : List ℝ) (v : Nat) : ℝ :=
  match free.idxOf? v with
  | some k => δ.getD k 0
  | none => 0

theorem slot_sum {n : Nat} (δ : List ℝ) (l : List (Variable ℝ × ℝ)) (hl : ∀ p ∈ l, ∀ x i, p.1 = .free x i → i < n) :
    ∑ c ∈ Finset.range n, (slotVals c l).sum * δ.getD c 0 =
      (l.map fun p => match p.1 with | .free _ i => p.2 * δ.getD i 0 | .fixed _ => 0).sum := by
  induction l with
  | nil => simp [slotVals]
  | cons p l ih =>
    have ih := ih fun p hp => hl p (List.mem_cons_of_mem _ hp)
    obtain ⟨_ | _, g⟩ := p
    · rename_i x i
      have hi := hl _ (List.mem_cons_self ..) x i rfl
      rw [List.map_cons, List.sum_cons, ← ih]
      have h1 : ∀ c, (slotVals c ((Variable.free x i, g) :: l)).sum * δ.getD c 0 = (if c = i then g * δ.getD i 0 else 0) + (slotVals c l).sum * δ.getD c 0 := by
        intro c
        rw [slotVals]
        by_cases hc : i = c
        · subst hc
          rw [if_pos rfl, if_pos rfl, List.sum_cons, add_mul]
        · rw [if_neg hc, if_neg (Ne.symm hc), zero_add]
      simp only [h1]
      rw [Finset.sum_add_distrib, Finset.sum_ite_eq' (Finset.range n) i, if_pos (Finset.mem_range.2 hi)]
    · rw [List.map_cons, List.sum_cons, ← ih, zero_add]
      rfl

theorem varOf_change {sub : Subsystem ℝ} {x δ : List ℝ} (vs : List Nat) (gs : List ℝ) :
    ((vs.map (sub.varOf x)).zip gs |>.map fun p => match p.1 with | .free _ i => p.2 * δ.getD i 0 | .fixed _ => 0) =
      List.zipWith (· * ·) (gs.take vs.length) (vs.map (changeOf sub.freeVariables δ)) := by
  induction vs generalizing gs with
  | nil => simp
  | cons v vs ih =>
    cases gs with
    | nil => simp
    | cons g gs =>
      simp only [List.map_cons, List.zip_cons_cons, List.length_cons, List.take_succ_cons, List.zipWith_cons_cons]
      rw [← ih]
      congr 1
      unfold Subsystem.varOf changeOf
      cases sub.freeVariables.idxOf? v with
      | none => simp
      | some k => rfl

theorem zipWith_take_length {α β γ : Type} (f : α → β → γ) (l : List α) (r : List β) : List.zipWith f (l.take r.length) r = List.zipWith f l r := by
  induction l generalizing r with
  | nil => simp
  | cons a l ih =>
    cases r with
    | nil => simp
    | cons b r => simp [ih]

/-- The problem that a subsystem computes: its linear model is the sum of the squares of the linear models of its equations. -/
theorem Subsystem.Ok.linear_fitting {sub : Subsystem ℝ} (hok : sub.Ok) : ∃ P : Fitting, sub.problem.Computes P sub.pattern ∧ P.m = sub.expressions.length ∧ P.n = sub.freeVariables.length ∧
    ∀ x δ, x.length = sub.freeVariables.length → δ.length = sub.freeVariables.length →
      P.model x δ = (sub.expressions.map fun id => ((sub.allExpressions[id]?.map fun e => e.linear (sub.valueOf x) (changeOf sub.freeVariables δ)).getD 0) ^ 2).sum := by
  obtain ⟨P, h1, h2, -, h3⟩ := hok.fitting_rows
  have hm : P.m = sub.expressions.length := h1.rows.symm
  have hn : P.n = sub.freeVariables.length := h1.columns.symm
  refine ⟨P, h1, hm, hn, fun x δ hx hδ => ?_⟩
  have hsum : ∀ (l : List Nat) (f : Nat → ℝ), (l.map f).sum = ∑ r ∈ Finset.range l.length, f (l.getD r 0) := by
    intro l f
    induction l with
    | nil => rfl
    | cons a l ih =>
      rw [List.map_cons, List.sum_cons, ih, List.length_cons, Finset.sum_range_succ']
      simp [add_comm]
  rw [hsum, Fitting.model, hm]
  refine Finset.sum_congr rfl fun r hr => ?_
  have hr := Finset.mem_range.1 hr
  have hid := List.getElem?_eq_getElem hr
  rw [List.getD_eq_getElem?_getD (l := sub.expressions), hid, Option.getD_some]
  generalize sub.expressions[r] = id at hid
  obtain ⟨e, he, hv⟩ := hok id (List.mem_of_getElem? hid)
  obtain ⟨rg, h4, h5, -⟩ := rowData_total hx he hv
  obtain ⟨h6, h7⟩ := h3 x hx r id _ hid h5
  rw [h6, he, Option.map_some, Option.getD_some, Expr.linear, h4]
  simp only [h7]
  rw [hn, slot_sum δ _ (fun p hp y i hpi => ?_), varOf_change, ← List.length_map (f := changeOf sub.freeVariables δ), zipWith_take_length]
  obtain ⟨hp1, -⟩ := List.of_mem_zip hp
  obtain ⟨v, -, h8⟩ := List.mem_map.1 hp1
  rw [hpi] at h8
  unfold Subsystem.varOf at h8
  split at h8
  · rename_i k hk
    cases h8
    exact (List.idxOf?_eq_some_iff.1 hk).1
  · cases h8

end Fiksi
