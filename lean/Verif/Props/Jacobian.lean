import Verif.Model.Subsystem
import Verif.Props.Gradient
import Verif.Props.Geometry
import Mathlib.Data.List.Nodup
/-!
# Jacobians of numerical subproblems (C29)
-/
namespace Fiksi

set_option linter.unusedSectionVars false
variable {F : Type} [Add F] [Sub F] [Mul F] [Div F] [Neg F] [Zero F] [One F] [FloatOps F]

/-! ## Specification -/

/-- The entry of the matrix described by triplets: the sum of the values pushed at that position. -/
def Spec.entrySum (ts : List (Nat × Nat × ℝ)) (r c : Nat) : ℝ :=
  ((ts.filter (fun t => t.1 = r ∧ t.2.1 = c)).map (·.2.2)).sum

open Spec (entrySum Op Store)

theorem entrySum_append (a b : List (Nat × Nat × ℝ)) (r c : Nat) : entrySum (a ++ b) r c = entrySum a r c + entrySum b r c := by
  simp [entrySum]

theorem entrySum_eq_zero {ts : List (Nat × Nat × ℝ)} {r c : Nat} (h : ∀ t ∈ ts, t.1 ≠ r) : entrySum ts r c = 0 := by
  rw [entrySum, List.filter_eq_nil_iff.2 (by simpa using fun a b c hm h1 => absurd h1 (h _ hm))]
  rfl

/-! ## One row -/

/-- The gradient values of the arguments that are free variable `c`. -/
def slotVals (c : Nat) : List (Variable F × F) → List F
  | [] => []
  | (.free _ i, g) :: rest => if i = c then g :: slotVals c rest else slotVals c rest
  | (.fixed _, _) :: rest => slotVals c rest

theorem entrySum_pushRow (row c : Nat) (l : List (Variable ℝ × ℝ)) : entrySum (pushRow row l) row c = (slotVals c l).sum := by
  induction l with
  | nil => rfl
  | cons a l ih =>
    obtain ⟨_ | _, g⟩ := a
    · rw [pushRow, slotVals]
      split
      · rename_i hi
        rw [List.sum_cons, ← ih]
        simp [entrySum, hi]
      · rename_i hi
        rw [← ih]
        simp [entrySum, hi]
    · rw [pushRow, slotVals, ih]

theorem pushRow_row {row : Nat} {l : List (Variable F × F)} {t : Nat × Nat × F} (h : t ∈ pushRow row l) : t.1 = row := by
  induction l with
  | nil => simp [pushRow] at h
  | cons a l ih =>
    obtain ⟨_ | _, g⟩ := a
    · rw [pushRow, List.mem_cons] at h
      rcases h with rfl | h
      · rfl
      · exact ih h
    · exact ih h

/-- The free indices used are below `n`. -/
def SlotsLt (n : Nat) (l : List (Variable F × F)) : Prop := ∀ v i g, (Variable.free v i, g) ∈ l → i < n

theorem writeGradient_spec {n : Nat} : ∀ (l : List (Variable F × F)) (gradient : List F), SlotsLt n l → gradient.length = n →
    ∃ g, writeGradient l gradient = .ok g ∧ g.length = n ∧ ∀ c, g[c]? = ((slotVals c l).getLast?).or gradient[c]? := by
  intro l
  induction l with
  | nil => intro gradient _ hl; exact ⟨gradient, rfl, hl, fun c => rfl⟩
  | cons a l ih =>
    intro gradient hlt hl
    have hlt' : SlotsLt n l := fun v i g h => hlt v i g (List.mem_cons_of_mem _ h)
    obtain ⟨v, g⟩ := a
    cases v with
    | fixed x =>
      obtain ⟨g', h1, h2, h3⟩ := ih gradient hlt' hl
      exact ⟨g', h1, h2, h3⟩
    | free x i =>
      have hi : i < gradient.length := by rw [hl]; exact hlt x i g (List.mem_cons_self ..)
      obtain ⟨g', h1, h2, h3⟩ := ih (gradient.set i g) hlt' (by simpa using hl)
      refine ⟨g', ?_, h2, ?_⟩
      · rw [writeGradient, setIdx_of _ hi, ok_bind, h1]
      · intro c
        rw [h3, slotVals]
        by_cases hc : i = c
        · subst hc
          rw [if_pos rfl, List.getElem?_set_self hi]
          cases h4 : slotVals i l with
          | nil => simp
          | cons b bs => rw [List.getLast?_cons]; simp [List.getLast?_cons]
        · rw [if_neg hc, List.getElem?_set_ne hc]

/-- If the arguments are different variables, a free variable has at most one slot. -/
theorem slotVals_length_le {sub : Subsystem ℝ} {u : List ℝ} (c : Nat) : ∀ {is : List Nat} {vs : List (Variable ℝ)} {gs : List ℝ},
    is.Nodup → is.mapM (sub.getValue u) = .ok vs → (slotVals c (vs.zip gs)).length ≤ 1 := by
  have none_of : ∀ {is : List Nat} {vs : List (Variable ℝ)} {gs : List ℝ} {i : Nat}, i ∉ is → sub.freeVariables.idxOf? i = some c →
      is.mapM (sub.getValue u) = .ok vs → slotVals c (vs.zip gs) = [] := by
    intro is
    induction is with
    | nil => intro vs gs i _ _ h; cases h; rfl
    | cons j is ih =>
      intro vs gs i hi hc h
      rw [List.mapM_cons, bind_eq_ok] at h
      obtain ⟨v, hv, h⟩ := h
      rw [bind_eq_ok] at h
      obtain ⟨vs', hvs, h⟩ := h
      cases h
      rw [List.mem_cons, not_or] at hi
      cases gs with
      | nil => simp [slotVals]
      | cons g gs =>
        rw [List.zip_cons_cons]
        have := ih (gs := gs) hi.2 hc hvs
        rw [Subsystem.getValue] at hv
        split at hv
        · rename_i k hk
          rw [bind_eq_ok] at hv
          obtain ⟨w, -, hw⟩ := hv
          cases hw
          rw [slotVals, if_neg, this]
          rintro rfl
          rw [List.idxOf?_eq_some_iff] at hk hc
          obtain ⟨h1, h2, -⟩ := hk
          obtain ⟨h3, h4, -⟩ := hc
          exact hi.1 (h4.symm.trans h2)
        · rw [bind_eq_ok] at hv
          obtain ⟨w, -, hw⟩ := hv
          cases hw
          rw [slotVals, this]
  intro is
  induction is with
  | nil => intro vs gs _ h; cases h; simp [slotVals]
  | cons j is ih =>
    intro vs gs hnd h
    rw [List.mapM_cons, bind_eq_ok] at h
    obtain ⟨v, hv, h⟩ := h
    rw [bind_eq_ok] at h
    obtain ⟨vs', hvs, h⟩ := h
    cases h
    rw [List.nodup_cons] at hnd
    cases gs with
    | nil => simp [slotVals]
    | cons g gs =>
      rw [List.zip_cons_cons]
      rw [Subsystem.getValue] at hv
      split at hv
      · rename_i k hk
        rw [bind_eq_ok] at hv
        obtain ⟨w, -, hw⟩ := hv
        cases hw
        rw [slotVals]
        split
        · rename_i hkc
          rw [none_of hnd.1 (hkc ▸ hk) hvs]
          rfl
        · exact ih hnd.2 hvs
      · rw [bind_eq_ok] at hv
        obtain ⟨w, -, hw⟩ := hv
        cases hw
        exact ih hnd.2 hvs

/-! ## All rows -/

/-- The residual of an expression together with its arguments and their gradient values. -/
noncomputable def rowData (sub : Subsystem F) (u : List F) (id : Nat) : R (F × List (Variable F × F)) := do
  let e ← idx sub.allExpressions id
  let vars ← e.variableIndices.mapM (sub.getValue u)
  let rg ← e.computeResidualAndGradient (vars.map Variable.value)
  pure (rg.1, vars.zip rg.2)

theorem rowData_parts {sub : Subsystem F} {u : List F} {id : Nat} {d : F × List (Variable F × F)} (h : rowData sub u id = .ok d) :
    ∃ e vars rg, idx sub.allExpressions id = .ok e ∧ e.variableIndices.mapM (sub.getValue u) = .ok vars ∧
      e.computeResidualAndGradient (vars.map Variable.value) = .ok rg ∧ d = (rg.1, vars.zip rg.2) := by
  rw [rowData, bind_eq_ok] at h
  obtain ⟨e, h1, h⟩ := h
  rw [bind_eq_ok] at h
  obtain ⟨vars, h2, h⟩ := h
  rw [bind_eq_ok] at h
  obtain ⟨rg, h3, h⟩ := h
  cases h
  exact ⟨e, vars, rg, h1, h2, h3, rfl⟩

theorem sparseRow_of {sub : Subsystem F} {u : List F} {id k : Nat} {d : F × List (Variable F × F)} (h : rowData sub u id = .ok d)
    {rs : List F} (ts : List (Nat × Nat × F)) (hk : k < rs.length) :
    sub.sparseRow u (rs, ts) (id, k) = .ok (rs.set k d.1, ts ++ pushRow k d.2) := by
  obtain ⟨e, vars, rg, h1, h2, h3, rfl⟩ := rowData_parts h
  simp [Subsystem.sparseRow, h1, h2, h3, setIdx_of _ hk]

theorem denseRow_of {sub : Subsystem F} {u : List F} {id k : Nat} {d : F × List (Variable F × F)} (h : rowData sub u id = .ok d)
    {rs jac : List F} (hk : k < rs.length) (hj : (k + 1) * sub.freeVariables.length ≤ jac.length) {g : List F}
    (hg : writeGradient d.2 ((jac.drop (k * sub.freeVariables.length)).take sub.freeVariables.length) = .ok g) :
    sub.denseRow u (rs, jac) (id, k) =
      .ok (rs.set k d.1, jac.take (k * sub.freeVariables.length) ++ g ++ jac.drop ((k + 1) * sub.freeVariables.length)) := by
  obtain ⟨e, vars, rg, h1, h2, h3, rfl⟩ := rowData_parts h
  simp only at hg
  simp [Subsystem.denseRow, h1, h2, h3, setIdx_of _ hk, Expr.calculateResidualAndGradient, hg, Nat.not_lt.2 hj]

theorem sparse_fold {sub : Subsystem ℝ} {u : List ℝ} : ∀ (ids : List Nat) (k : Nat) (rs : List ℝ) (ts : List (Nat × Nat × ℝ)),
    (∀ id ∈ ids, ∃ d, rowData sub u id = .ok d) → k + ids.length ≤ rs.length →
    ∃ rs' ts', (ids.zipIdx k).foldlM (sub.sparseRow u) (rs, ts) = .ok (rs', ts') ∧ rs'.length = rs.length ∧
      (∀ i < k, rs'[i]? = rs[i]?) ∧ (∀ i < k, ∀ c, entrySum ts' i c = entrySum ts i c) ∧
      (∀ (j id : Nat) d, ids[j]? = some id → rowData sub u id = .ok d → rs'[k + j]? = some d.1 ∧
        ∀ c, entrySum ts' (k + j) c = entrySum ts (k + j) c + (slotVals c d.2).sum) := by
  intro ids
  induction ids with
  | nil => intro k rs ts _ _; exact ⟨rs, ts, rfl, rfl, fun _ _ => rfl, fun _ _ _ => rfl, by simp⟩
  | cons id ids ih =>
    intro k rs ts hd hlen
    simp only [List.length_cons] at hlen
    obtain ⟨d, hd0⟩ := hd id (List.mem_cons_self ..)
    have hk : k < rs.length := by omega
    obtain ⟨rs', ts', h1, h2, h3, h4, h5⟩ := ih (k + 1) (rs.set k d.1) (ts ++ pushRow k d.2)
      (fun i hi => hd i (List.mem_cons_of_mem _ hi)) (by simp; omega)
    refine ⟨rs', ts', ?_, by simpa using h2, ?_, ?_, ?_⟩
    · rw [List.zipIdx_cons, List.foldlM_cons, sparseRow_of hd0 ts hk, ok_bind, h1]
    · intro i hi
      rw [h3 i (by omega), List.getElem?_set_ne (by omega)]
    · intro i hi c
      rw [h4 i (by omega), entrySum_append, entrySum_eq_zero (ts := pushRow k d.2), add_zero]
      intro t ht; rw [pushRow_row ht]; omega
    · intro j id' d' hj hd'
      cases j with
      | zero =>
        simp only [List.getElem?_cons_zero, Option.some.injEq] at hj
        subst hj
        rw [hd0, Except.ok.injEq] at hd'
        subst hd'
        refine ⟨?_, fun c => ?_⟩
        · rw [Nat.add_zero, h3 k (by omega), List.getElem?_set_self hk]
        · rw [Nat.add_zero, h4 k (by omega), entrySum_append, entrySum_pushRow]
      | succ j =>
        rw [List.getElem?_cons_succ] at hj
        obtain ⟨h6, h7⟩ := h5 j id' d' hj hd'
        rw [show k + (j + 1) = k + 1 + j by omega]
        refine ⟨h6, fun c => ?_⟩
        rw [h7, entrySum_append, entrySum_eq_zero (ts := pushRow k d.2), add_zero]
        intro t ht; rw [pushRow_row ht]; omega

theorem dense_fold {sub : Subsystem F} {u : List F} {n : Nat} (hn : sub.freeVariables.length = n) :
    ∀ (ids : List Nat) (k : Nat) (rs jac : List F),
    (∀ id ∈ ids, ∃ d, rowData sub u id = .ok d ∧ SlotsLt n d.2) → k + ids.length ≤ rs.length → (k + ids.length) * n ≤ jac.length →
    ∃ rs' jac', (ids.zipIdx k).foldlM (sub.denseRow u) (rs, jac) = .ok (rs', jac') ∧ rs'.length = rs.length ∧
      jac'.length = jac.length ∧ (∀ i < k, rs'[i]? = rs[i]?) ∧ (∀ i < k * n, jac'[i]? = jac[i]?) ∧
      (∀ (j id : Nat) d, ids[j]? = some id → rowData sub u id = .ok d → rs'[k + j]? = some d.1 ∧
        ∀ c < n, jac'[(k + j) * n + c]? = ((slotVals c d.2).getLast?).or jac[(k + j) * n + c]?) := by
  intro ids
  induction ids with
  | nil => intro k rs jac _ _ _; exact ⟨rs, jac, rfl, rfl, rfl, fun _ _ => rfl, fun _ _ => rfl, by simp⟩
  | cons id ids ih =>
    intro k rs jac hd hlen hjac
    simp only [List.length_cons] at hlen hjac
    obtain ⟨d, hd0, hdl⟩ := hd id (List.mem_cons_self ..)
    have hk : k < rs.length := by omega
    have hjk : (k + 1) * n ≤ jac.length := le_trans (Nat.mul_le_mul_right n (by omega)) hjac
    have e1 : (k + 1) * n = k * n + n := by ring
    have hsl : ((jac.drop (k * n)).take n).length = n := by simp; omega
    obtain ⟨g, g1, g2, g3⟩ := writeGradient_spec d.2 ((jac.drop (k * n)).take n) hdl hsl
    have hjac2 : (jac.take (k * n) ++ g ++ jac.drop ((k + 1) * n)).length = jac.length := by simp; omega
    have hlow : ∀ i < k * n, (jac.take (k * n) ++ g ++ jac.drop ((k + 1) * n))[i]? = jac[i]? := by
      intro i hi
      rw [List.append_assoc, List.getElem?_append_left (by simp; omega), List.getElem?_take_of_lt hi]
    have hmid : ∀ c < n, (jac.take (k * n) ++ g ++ jac.drop ((k + 1) * n))[k * n + c]? = g[c]? := by
      intro c hc
      rw [List.append_assoc, List.getElem?_append_right (by simp), List.getElem?_append_left (by simp; omega)]
      congr 1
      simp; omega
    have hhigh : ∀ i, (k + 1) * n ≤ i → (jac.take (k * n) ++ g ++ jac.drop ((k + 1) * n))[i]? = jac[i]? := by
      intro i hi
      rw [List.getElem?_append_right (by simp; omega), List.getElem?_drop]
      congr 1
      simp; omega
    obtain ⟨rs', jac', h1, h2, h3, h4, h5, h6⟩ := ih (k + 1) (rs.set k d.1) (jac.take (k * n) ++ g ++ jac.drop ((k + 1) * n))
      (fun i hi => hd i (List.mem_cons_of_mem _ hi)) (by simp; omega)
      (by rw [hjac2]; rwa [show k + 1 + ids.length = k + (ids.length + 1) by omega])
    refine ⟨rs', jac', ?_, by simpa using h2, by rw [h3, hjac2], ?_, ?_, ?_⟩
    · subst hn
      rw [List.zipIdx_cons, List.foldlM_cons, denseRow_of hd0 hk hjk g1, ok_bind, h1]
    · intro i hi
      rw [h4 i (by omega), List.getElem?_set_ne (by omega)]
    · intro i hi
      rw [h5 i (by omega), hlow i hi]
    · intro j id' d' hj hd'
      cases j with
      | zero =>
        simp only [List.getElem?_cons_zero, Option.some.injEq] at hj
        subst hj
        rw [hd0, Except.ok.injEq] at hd'
        subst hd'
        refine ⟨?_, fun c hc => ?_⟩
        · rw [Nat.add_zero, h4 k (by omega), List.getElem?_set_self hk]
        · rw [Nat.add_zero, h5 _ (by omega), hmid c hc, g3, List.getElem?_take_of_lt hc, List.getElem?_drop]
      | succ j =>
        rw [List.getElem?_cons_succ] at hj
        obtain ⟨h7, h8⟩ := h6 j id' d' hj hd'
        rw [show k + (j + 1) = k + 1 + j by omega]
        refine ⟨h7, fun c hc => ?_⟩
        rw [h8 c hc, hhigh]
        calc (k + 1) * n ≤ (k + 1 + j) * n := Nat.mul_le_mul_right n (by omega)
          _ ≤ _ := Nat.le_add_right _ _

/-! ## Derivatives -/

/-- The value of a variable of the system while the free variables of the subproblem have the values `u`. -/
noncomputable def Subsystem.valueOf (sub : Subsystem F) (u : List F) (v : Nat) : F :=
  match sub.freeVariables.idxOf? v with
  | some k => u.getD k 0
  | none => sub.systemVariables.getD v 0

/-- The subproblem refers to existing expressions and variables. -/
def Subsystem.Ok (sub : Subsystem F) : Prop :=
  ∀ id ∈ sub.expressions, ∃ e, sub.allExpressions[id]? = some e ∧ ∀ v ∈ e.variableIndices, v < sub.systemVariables.length

/-- What the variable map returns. -/
noncomputable def Subsystem.varOf (sub : Subsystem F) (u : List F) (v : Nat) : Variable F :=
  match sub.freeVariables.idxOf? v with
  | some k => .free (u.getD k 0) k
  | none => .fixed (sub.systemVariables.getD v 0)

theorem Subsystem.varOf_value (sub : Subsystem F) (u : List F) (v : Nat) : (sub.varOf u v).value = sub.valueOf u v := by
  rw [varOf, valueOf]
  split <;> rfl

theorem idx_getD {l : List F} {i : Nat} (h : i < l.length) : idx l i = .ok (l.getD i 0) := by
  rw [idx_eq_ok, List.getD_eq_getElem?_getD, List.getElem?_eq_getElem h]
  rfl

theorem Subsystem.getValue_eq {sub : Subsystem F} {u : List F} (hu : u.length = sub.freeVariables.length) {v : Nat}
    (hv : v < sub.systemVariables.length) : sub.getValue u v = .ok (sub.varOf u v) := by
  rw [getValue, varOf]
  cases hk : sub.freeVariables.idxOf? v with
  | some k =>
    rw [List.idxOf?_eq_some_iff] at hk
    simp only
    rw [idx_getD (by rw [hu]; exact hk.1)]
    rfl
  | none =>
    simp only
    rw [idx_getD hv]
    rfl

theorem dot_slots (sub : Subsystem ℝ) (u : List ℝ) (c : Nat) : ∀ (is : List Nat) (gs : List ℝ),
    dotList gs (is.map (fun v => if sub.freeVariables.idxOf? v = some c then 1 else 0)) =
      (slotVals c ((is.map (sub.varOf u)).zip gs)).sum := by
  intro is
  induction is with
  | nil => intro gs; simp [dotList, slotVals]
  | cons i is ih =>
    intro gs
    cases gs with
    | nil => simp [dotList, slotVals]
    | cons g gs =>
      have ih := ih gs
      rw [dotList] at ih ⊢
      rw [List.map_cons, List.map_cons, List.zip_cons_cons, List.zipWith_cons_cons, List.sum_cons, ih, Subsystem.varOf]
      cases hk : sub.freeVariables.idxOf? i with
      | none => simp [slotVals]
      | some k =>
        by_cases hc : k = c
        · simp [slotVals, hc]
        · simp [slotVals, hc]

theorem mapM_getValue {sub : Subsystem F} {u : List F} (hu : u.length = sub.freeVariables.length) {is : List Nat}
    (hv : ∀ v ∈ is, v < sub.systemVariables.length) : is.mapM (sub.getValue u) = .ok (is.map (sub.varOf u)) :=
  mapM_ok_of _ _ _ (fun v h => Subsystem.getValue_eq hu (hv v h))

theorem compute_total (e : Expr F) (h : Nat → F) : ∃ rg, e.computeResidualAndGradient (e.variableIndices.map h) = .ok rg := by
  cases e <;> exact ⟨_, rfl⟩

theorem rowData_total {sub : Subsystem F} {u : List F} (hu : u.length = sub.freeVariables.length) {id : Nat} {e : Expr F}
    (he : sub.allExpressions[id]? = some e) (hv : ∀ v ∈ e.variableIndices, v < sub.systemVariables.length) :
    ∃ rg, e.computeResidualAndGradient (e.variableIndices.map (sub.valueOf u)) = .ok rg ∧
      rowData sub u id = .ok (rg.1, (e.variableIndices.map (sub.varOf u)).zip rg.2) ∧
      e.calculateResidual (sub.getValue u) = .ok rg.1 := by
  obtain ⟨rg, h⟩ := compute_total e (sub.valueOf u)
  have hm : (e.variableIndices.map (sub.varOf u)).map Variable.value = e.variableIndices.map (sub.valueOf u) := by
    rw [List.map_map]
    exact List.map_congr_left (fun v _ => sub.varOf_value u v)
  refine ⟨rg, h, ?_, ?_⟩
  · rw [rowData, idx_of he, ok_bind, mapM_getValue hu hv, ok_bind, hm, h]
    rfl
  · have hmm : e.variableIndices.mapM (fun i => do
        let v ← sub.getValue u i
        pure v.value) = .ok (e.variableIndices.map (sub.valueOf u)) :=
      mapM_ok_of _ _ _ (fun v hvm => by rw [Subsystem.getValue_eq hu (hv v hvm), ok_bind, sub.varOf_value]; rfl)
    rw [Expr.calculateResidual, hmm, ok_bind, h]
    rfl

theorem slotsLt_of {sub : Subsystem F} {u : List F} (is : List Nat) (gs : List F) :
    SlotsLt sub.freeVariables.length ((is.map (sub.varOf u)).zip gs) := by
  intro v i g h
  have h1 := (List.of_mem_zip h).1
  rw [List.mem_map] at h1
  obtain ⟨a, -, ha⟩ := h1
  rw [Subsystem.varOf] at ha
  split at ha
  · rename_i k hk
    rw [List.idxOf?_eq_some_iff] at hk
    cases ha
    exact hk.1
  · cases ha

theorem residuals_total {sub : Subsystem F} (hok : sub.Ok) {u : List F} (hu : u.length = sub.freeVariables.length) :
    ∃ rs, sub.calculateResiduals u = .ok rs ∧ rs.length = sub.expressions.length ∧
      ∀ (row id : Nat) (e : Expr F), sub.expressions[row]? = some id → sub.allExpressions[id]? = some e → ∃ r,
        e.calculateResidual (sub.getValue u) = .ok r ∧ rs[row]? = some r := by
  have key : ∀ ids : List Nat, (∀ id ∈ ids, ∃ e, sub.allExpressions[id]? = some e ∧ ∀ v ∈ e.variableIndices, v < sub.systemVariables.length) →
      ∃ rs, ids.mapM (fun expressionId => do
        let e ← idx sub.allExpressions expressionId
        e.calculateResidual (sub.getValue u)) = .ok rs ∧ rs.length = ids.length ∧
      ∀ (row id : Nat) (e : Expr F), ids[row]? = some id → sub.allExpressions[id]? = some e → ∃ r,
        e.calculateResidual (sub.getValue u) = .ok r ∧ rs[row]? = some r := by
    intro ids
    induction ids with
    | nil => intro _; exact ⟨[], rfl, rfl, by simp⟩
    | cons id ids ih =>
      intro h
      obtain ⟨e, he, hv⟩ := h id (List.mem_cons_self ..)
      obtain ⟨rs, h1, h2, h3⟩ := ih (fun i hi => h i (List.mem_cons_of_mem _ hi))
      obtain ⟨rg, -, -, h4⟩ := rowData_total hu he hv
      refine ⟨rg.1 :: rs, ?_, by simp [h2], ?_⟩
      · rw [List.mapM_cons, idx_of he, ok_bind, h4, ok_bind, h1]
        rfl
      · intro row id' e' hr he'
        cases row with
        | zero =>
          simp only [List.getElem?_cons_zero, Option.some.injEq] at hr
          subst hr
          rw [he, Option.some.injEq] at he'
          subst he'
          exact ⟨_, h4, rfl⟩
        | succ row => exact h3 row id' e' hr he'
  exact key sub.expressions hok

/-- The derivative of one row. -/
theorem row_deriv {sub : Subsystem ℝ} {u : List ℝ} (hu : u.length = sub.freeVariables.length) {id : Nat} {e : Expr ℝ}
    (he : sub.allExpressions[id]? = some e) (hv : ∀ v ∈ e.variableIndices, v < sub.systemVariables.length)
    (hs : SmoothAt e (e.variableIndices.map (sub.valueOf u))) {c : Nat} (hc : c < sub.freeVariables.length) :
    ∃ (d : ℝ × List (Variable ℝ × ℝ)) (f : ℝ → ℝ), rowData sub u id = .ok d ∧ d.1 = f (u.getD c 0) ∧
      (∀ s, e.calculateResidual (sub.getValue (u.set c s)) = .ok (f s)) ∧ HasDerivAt f (slotVals c d.2).sum (u.getD c 0) := by
  have hcu : c < u.length := by omega
  have hself : u.set c (u.getD c 0) = u := by
    apply List.ext_getElem?
    intro i
    by_cases hi : c = i
    · subst hi
      rw [List.getElem?_set_self hcu, List.getD_eq_getElem?_getD, List.getElem?_eq_getElem hcu]
      rfl
    · rw [List.getElem?_set_ne hi]
  obtain ⟨f, g, h1, h2, h3, h4⟩ := C13_gradient_is_derivative e (fun v s => sub.valueOf (u.set c s) v)
    (fun v => if sub.freeVariables.idxOf? v = some c then 1 else 0) (u.getD c 0)
    (by
      intro v _
      simp only [Subsystem.valueOf]
      cases hk : sub.freeVariables.idxOf? v with
      | none => simpa using hasDerivAt_const _ _
      | some k =>
        by_cases hkc : k = c
        · subst hkc
          simp only [List.getD_eq_getElem?_getD, List.getElem?_set_self hcu, if_true]
          exact hasDerivAt_id _
        · simp only [List.getD_eq_getElem?_getD, List.getElem?_set_ne (Ne.symm hkc), Option.some.injEq, hkc, if_false]
          exact hasDerivAt_const _ _)
    (by simpa only [hself] using hs)
  simp only [hself] at h2
  obtain ⟨rg, r1, r2, r3⟩ := rowData_total hu he hv
  rw [r1, Except.ok.injEq] at h2
  subst h2
  refine ⟨_, f, r2, rfl, ?_, ?_⟩
  · intro s
    obtain ⟨rg', q1, q2, q3⟩ := rowData_total (u := u.set c s) (by simpa using hu) he hv
    have h5 := h1 s
    have hmm : e.variableIndices.mapM (fun i => do
        let v ← (fun v => (.ok (.fixed (sub.valueOf (u.set c s) v)) : R (Variable ℝ))) i
        pure v.value) = .ok (e.variableIndices.map (sub.valueOf (u.set c s))) := mapM_ok_of _ _ _ (fun v hvm => rfl)
    rw [Expr.calculateResidual, hmm, ok_bind, q1, ok_bind] at h5
    rw [q3]
    exact h5
  · rw [← dot_slots sub u c]
    exact h4

/-- C29 (sparse): for every subproblem and all values of its free variables at which the expressions are smooth, the triplets
pushed by the sparse assembly, summed per position, are the derivatives of the residuals with respect to the free variables. -/
theorem C29_sparse_is_derivative {sub : Subsystem ℝ} (hok : sub.Ok) {u : List ℝ} (hu : u.length = sub.freeVariables.length)
    (hs : ∀ id ∈ sub.expressions, ∀ e, sub.allExpressions[id]? = some e → SmoothAt e (e.variableIndices.map (sub.valueOf u)))
    (residuals : List ℝ) (hr : residuals.length = sub.expressions.length) :
    ∃ rs ts, sub.sparseJacobian u residuals [] = .ok (rs, ts) ∧ sub.calculateResiduals u = .ok rs ∧
      ∀ row < sub.expressions.length, ∀ c < sub.freeVariables.length, ∃ f : ℝ → ℝ,
        (∀ s, ∃ rs', sub.calculateResiduals (u.set c s) = .ok rs' ∧ rs'[row]? = some (f s)) ∧
        HasDerivAt f (entrySum ts row c) (u.getD c 0) := by
  obtain ⟨rs, ts, h1, h2, -, -, h5⟩ := sparse_fold (sub := sub) (u := u) sub.expressions 0 residuals []
    (fun id hid => by
      obtain ⟨e, he, hv⟩ := hok id hid
      obtain ⟨rg, -, h, -⟩ := rowData_total hu he hv
      exact ⟨_, h⟩) (by omega)
  obtain ⟨rs', q1, q2, q3⟩ := residuals_total hok hu
  have hrs : rs' = rs := by
    apply List.ext_getElem?
    intro row
    by_cases hrow : row < sub.expressions.length
    · obtain ⟨id, hid⟩ : ∃ id, sub.expressions[row]? = some id := ⟨_, List.getElem?_eq_getElem hrow⟩
      obtain ⟨e, he, hv⟩ := hok id (List.mem_of_getElem? hid)
      obtain ⟨rg, -, h, h'⟩ := rowData_total hu he hv
      obtain ⟨r, h6, h7⟩ := q3 row id e hid he
      have := (h5 row id _ hid h).1
      rw [Nat.zero_add] at this
      rw [h7, this, ← Except.ok.inj (h6.symm.trans h')]
    · rw [List.getElem?_eq_none (by omega), List.getElem?_eq_none (by omega)]
  refine ⟨rs, ts, h1, hrs ▸ q1, ?_⟩
  intro row hrow c hc
  obtain ⟨id, hid⟩ : ∃ id, sub.expressions[row]? = some id := ⟨_, List.getElem?_eq_getElem hrow⟩
  obtain ⟨e, he, hv⟩ := hok id (List.mem_of_getElem? hid)
  obtain ⟨d, f, d1, d2, d3, d4⟩ := row_deriv hu he hv (hs id (List.mem_of_getElem? hid) e he) hc
  refine ⟨f, ?_, ?_⟩
  · intro s
    obtain ⟨rs'', p1, p2, p3⟩ := residuals_total hok (u := u.set c s) (by simpa using hu)
    obtain ⟨r, p4, p5⟩ := p3 row id e hid he
    exact ⟨rs'', p1, by rw [p5, ← Except.ok.inj (p4.symm.trans (d3 s))]⟩
  · have := (h5 row id d hid d1).2 c
    rw [Nat.zero_add] at this
    rw [this]
    simpa [entrySum] using d4

/-- C29 (dense, partial): on a zeroed buffer the dense assembly gives the same residuals and the same matrix as the sparse one, if
no expression has the same variable twice among its arguments. (Full statement: without that restriction; false, see
`C29_dense_fails_on_shared_points`.) -/
theorem C29_dense_eq_sparse_partial {sub : Subsystem ℝ} (hok : sub.Ok) {u : List ℝ} (hu : u.length = sub.freeVariables.length)
    (hnd : ∀ id ∈ sub.expressions, ∀ e, sub.allExpressions[id]? = some e → e.variableIndices.Nodup)
    (residuals : List ℝ) (hr : residuals.length = sub.expressions.length) :
    ∃ rs ts jac, sub.sparseJacobian u residuals [] = .ok (rs, ts) ∧
      sub.denseJacobian u residuals (List.replicate (sub.expressions.length * sub.freeVariables.length) 0) = .ok (rs, jac) ∧
      jac.length = sub.expressions.length * sub.freeVariables.length ∧
      ∀ row < sub.expressions.length, ∀ c < sub.freeVariables.length,
        jac[row * sub.freeVariables.length + c]? = some (entrySum ts row c) := by
  have hex : ∀ id ∈ sub.expressions, ∃ d, rowData sub u id = .ok d ∧ SlotsLt sub.freeVariables.length d.2 := by
    intro id hid
    obtain ⟨e, he, hv⟩ := hok id hid
    obtain ⟨rg, -, h, -⟩ := rowData_total hu he hv
    exact ⟨_, h, slotsLt_of _ _⟩
  obtain ⟨rs, ts, h1, h2, -, -, h5⟩ := sparse_fold (sub := sub) (u := u) sub.expressions 0 residuals []
    (fun id hid => (hex id hid).imp (fun d h => h.1)) (by omega)
  obtain ⟨rs', jac, q1, q2, q3, -, -, q5⟩ := dense_fold (sub := sub) (u := u) rfl sub.expressions 0 residuals
    (List.replicate (sub.expressions.length * sub.freeVariables.length) 0) hex (by omega) (by simp)
  have hrs : rs' = rs := by
    apply List.ext_getElem?
    intro row
    by_cases hrow : row < sub.expressions.length
    · obtain ⟨id, hid⟩ : ∃ id, sub.expressions[row]? = some id := ⟨_, List.getElem?_eq_getElem hrow⟩
      obtain ⟨d, hd, -⟩ := hex id (List.mem_of_getElem? hid)
      have a1 := (h5 row id d hid hd).1
      have a2 := (q5 row id d hid hd).1
      rw [Nat.zero_add] at a1 a2
      rw [a1, a2]
    · rw [List.getElem?_eq_none (by omega), List.getElem?_eq_none (by omega)]
  subst hrs
  refine ⟨rs', ts, jac, h1, q1, by simpa using q3, ?_⟩
  intro row hrow c hc
  obtain ⟨id, hid⟩ : ∃ id, sub.expressions[row]? = some id := ⟨_, List.getElem?_eq_getElem hrow⟩
  obtain ⟨d, hd, -⟩ := hex id (List.mem_of_getElem? hid)
  have a1 := (h5 row id d hid hd).2 c
  have a2 := (q5 row id d hid hd).2 c hc
  rw [Nat.zero_add] at a1 a2
  rw [a1, a2]
  obtain ⟨e, vars, rg, e1, e2, e3, rfl⟩ := rowData_parts hd
  have hl := slotVals_length_le (gs := rg.2) c (hnd id (List.mem_of_getElem? hid) e (idx_eq_ok.1 e1)) e2
  simp only
  generalize slotVals c (vars.zip rg.2) = sv at *
  match sv, hl with
  | [], _ =>
    have hlt : row * sub.freeVariables.length + c < sub.expressions.length * sub.freeVariables.length := by
      calc row * sub.freeVariables.length + c < (row + 1) * sub.freeVariables.length := by rw [Nat.add_mul]; omega
        _ ≤ _ := Nat.mul_le_mul_right _ hrow
    simp [entrySum, hlt]
  | [a], _ => simp [entrySum]

/-- Two lines with a common end point: line 3 from `(0,0)` to `(1,0)`, line 4 from `(1,0)` to `(3,1)`, required to be parallel. -/
def sharedOps : List (Op ℝ) :=
  [.createPoint 0 0, .createPoint 1 0, .createPoint 3 1, .createLine 0 1, .createLine 1 2, .createCon (.lineLineParallelism 3 4)]

/-- C29 is false for the dense assembly: when a constraint has a point in two roles, the gradient slots of its variables are
overwritten instead of added. For the system built by `sharedOps`, with the x coordinate of the common point free, the residual
changes at rate `-1`; the sparse assembly reports `-1`, the dense one `0`. -/
theorem C29_dense_fails_on_shared_points : ∃ c, Reaches 0 sharedOps c ∧
    let sub : Subsystem ℝ := { systemVariables := c.sys.vars, allExpressions := c.sys.expressions, expressions := [0], freeVariables := [2] }
    sub.Ok ∧ (∃ rs, sub.denseJacobian [1] [0] [0] = .ok (rs, [0])) ∧
    (∃ rs ts, sub.sparseJacobian [1] [0] [] = .ok (rs, ts) ∧ entrySum ts 0 0 = -1) ∧
    ∃ f : ℝ → ℝ, (∀ s, sub.calculateResiduals [s] = .ok [f s]) ∧ HasDerivAt f (-1) 1 := by
  obtain ⟨c, h⟩ := exists_reaches 0 sharedOps (by
    simp [sharedOps, Store.LegalRun, Store.Legal, Store.empty, Store.step, Store.IsPoint, Store.IsLine, Store.ConOk]) (by simp [sharedOps])
  have hv : c.sys.vars = [0, 0, 1, 0, 3, 1] := h.crel.rel.vars
  have he : c.sys.expressions = [.lineLineParallelism 0 2 2 4] := h.crel.rel.exprs
  refine ⟨c, h, ?_⟩
  rw [hv, he]
  refine ⟨?_, ⟨[(llparResGrad 0 0 1 0 1 0 3 (1 : ℝ)).1], ?_⟩, ⟨[(llparResGrad 0 0 1 0 1 0 3 (1 : ℝ)).1],
    [(0, 0, -(1 - 0)), (0, 0, -(0 - 0))], rfl, ?_⟩, fun s => (3 - s) * (0 - 0) - (1 - 0) * (s - 0), fun s => rfl, ?_⟩
  · intro id hid
    simp only [List.mem_singleton] at hid
    subst hid
    exact ⟨_, rfl, by decide⟩
  · have h1 : ∀ a : ℝ, a = 0 → (Except.ok ([(llparResGrad 0 0 1 0 1 0 3 (1 : ℝ)).1], [a]) : R (List ℝ × List ℝ)) =
      .ok ([(llparResGrad 0 0 1 0 1 0 3 (1 : ℝ)).1], [0]) := by rintro _ rfl; rfl
    exact h1 (-(0 - 0)) (by norm_num)
  · simp [entrySum]
  · have h1 := (((hasDerivAt_id (1 : ℝ)).sub_const 0).const_mul (1 - 0)).const_sub ((3 - 1) * (0 - 0))
    refine HasDerivAt.congr_deriv (f' := -((1 - 0) * 1)) ?_ (by norm_num)
    refine h1.congr_of_eventuallyEq (Filter.Eventually.of_forall (fun s => ?_))
    simp

/-- Non-vacuity of C29: in the same system, with the first point free, no variable occurs twice among the arguments once the lines
are disjoint; here for a distance between two points. -/
example : ∃ sub : Subsystem ℝ, sub.Ok ∧ sub.expressions.length = 1 ∧ sub.freeVariables.length = 2 ∧
    (∀ id ∈ sub.expressions, ∀ e, sub.allExpressions[id]? = some e → e.variableIndices.Nodup) ∧
    (∀ id ∈ sub.expressions, ∀ e, sub.allExpressions[id]? = some e → SmoothAt e (e.variableIndices.map (sub.valueOf [0, 1]))) := by
  refine ⟨⟨[0, 0, 3, 4], [.pointPointDistance 0 2 5], [0], [2, 1]⟩, ?_, rfl, rfl, ?_, ?_⟩
  · intro id hid
    simp only [List.mem_singleton] at hid
    subst hid
    exact ⟨_, rfl, by decide⟩
  · intro id hid e he
    simp only [List.mem_singleton] at hid
    subst hid
    cases he
    decide
  · intro id hid e he
    simp only [List.mem_singleton] at hid
    subst hid
    cases he
    show (⟨0, 1⟩ : ℂ) ≠ ⟨0, 4⟩
    intro h
    rw [Complex.mk.injEq] at h
    norm_num at h

end Fiksi
