import Verif.Model.Lm
import Verif.Props.Jacobian
/-!
# C26: Levenberg–Marquardt

Stated for every scalar type with a transitive `<` and `(-x)(-x) = x x` (true for `f64` and for `ℝ`), every problem, every linear
solver and every start.
-/
namespace Fiksi
open FloatOps

section
variable {F : Type} [Add F] [Sub F] [Mul F] [Div F] [Neg F] [Zero F] [One F] [FloatOps F]

/-- The sum of squared residuals at `z` is smaller than that at `y`. -/
def Problem.Better (p : Problem F) (y z : List F) : Prop :=
  ∃ a b, p.residuals y = .ok a ∧ p.residuals z = .ok b ∧ ltB (normSquared b) (normSquared a) = true

/-- The problem computes the same residuals with and without the Jacobian. -/
def Problem.Consistent (p : Problem F) : Prop :=
  ∀ x rs ts, p.sparseJacobian x (List.replicate p.numResiduals 0) [] = .ok (rs, ts) → p.residuals x = .ok rs

/-- The accepted values form a chain of improvements from `x` to the current value. -/
structure LmState.Chain (p : Problem F) (x : List F) (st : LmState F) : Prop where
  chain : List.IsChain p.Better (x :: st.accepted)
  last : (x :: st.accepted).getLast? = some st.vars

/-- `ssr` is the sum of squared residuals of the current value. -/
def LmState.Current (p : Problem F) (st : LmState F) : Prop := ∃ r, p.residuals st.vars = .ok r ∧ normSquared r = st.ssr

omit [Sub F] [Div F] [One F] [FloatOps F] in
theorem normSquared_neg (hneg : ∀ x : F, -x * -x = x * x) (l : List F) : normSquared (l.map (fun r => -r)) = normSquared l := by
  unfold normSquared
  rw [List.map_map]
  congr 1
  exact List.map_congr_left (fun x _ => hneg x)

theorem lmInner_spec {p : Problem F} {ls : LeastSquares F} {sym : ls.Symbolic} {x : List F} :
    ∀ (fuel : Nat) (st : LmState F) (stop : Bool) (st' : LmState F), st.Chain p x → st.Current p →
      lmInner p ls sym fuel st = .ok (stop, st') →
      st'.Chain p x ∧ (stop = false → st'.Current p) ∧ st'.accepted.length ≤ st.accepted.length + 1 := by
  intro fuel
  induction fuel with
  | zero => intro st stop st' _ _ h; cases h
  | succ fuel ih =>
    intro st stop st' hc hcur h
    rw [lmInner, bind_eq_ok] at h
    obtain ⟨solved, -, h⟩ := h
    cases solved with
    | none => exact ih { st with lambda := st.lambda * ofNat 8 } stop st' ⟨hc.1, hc.2⟩ hcur h
    | some b =>
      simp only at h
      split at h
      · cases h
        exact ⟨hc, fun h => (by cases h), Nat.le_succ _⟩
      · rw [bind_eq_ok] at h
        obtain ⟨scratch, -, h⟩ := h
        rw [bind_eq_ok] at h
        obtain ⟨r, hr, h⟩ := h
        split at h
        · rename_i hlt
          obtain ⟨r0, h1, h2⟩ := hcur
          have hchain : List.IsChain p.Better (x :: (st.accepted ++ [scratch])) := by
            have : List.IsChain p.Better ((x :: st.accepted) ++ [scratch]) := by
              rw [List.isChain_append]
              refine ⟨hc.chain, List.isChain_singleton _, fun y hy z hz => ?_⟩
              rw [hc.last] at hy
              cases hy
              cases hz
              exact ⟨r0, r, h1, hr, by rw [h2]; exact hlt⟩
            simpa using this
          have hlast : (x :: (st.accepted ++ [scratch])).getLast? = some scratch := by
            rw [← List.cons_append, List.getLast?_append]; rfl
          rw [lmAccept] at h
          simp only at h
          split at h
          · cases h
            exact ⟨⟨hchain, hlast⟩, fun h => (by cases h), by simp⟩
          · rw [bind_eq_ok] at h
            obtain ⟨rt, -, h⟩ := h
            cases h
            exact ⟨⟨hchain, hlast⟩, fun _ => ⟨r, hr, rfl⟩, by simp⟩
        · exact ih { st with scratch := scratch, lambda := st.lambda * ofNat 2 } stop st' ⟨hc.1, hc.2⟩ hcur h

theorem lmOuter_spec {p : Problem F} {ls : LeastSquares F} {sym : ls.Symbolic} {x : List F} {fuel : Nat} :
    ∀ (n : Nat) (st st' : LmState F), st.Chain p x → st.Current p → lmOuter p ls sym fuel n st = .ok st' →
      st'.Chain p x ∧ st'.accepted.length ≤ st.accepted.length + n := by
  intro n
  induction n with
  | zero => intro st st' hc _ h; cases h; exact ⟨hc, Nat.le_refl _⟩
  | succ n ih =>
    intro st st' hc hcur h
    rw [lmOuter] at h
    split at h
    · cases h; exact ⟨hc, by omega⟩
    · rw [bind_eq_ok] at h
      obtain ⟨⟨stop, st1⟩, h1, h⟩ := h
      obtain ⟨h2, h3, h4⟩ := lmInner_spec fuel st stop st1 hc hcur h1
      simp only at h
      split at h
      · cases h; exact ⟨h2, by omega⟩
      · rename_i hs
        obtain ⟨h5, h6⟩ := ih st1 st' h2 (h3 (by simpa using hs)) h
        exact ⟨h5, by omega⟩

/-- C26: each accepted step strictly decreases the sum of squared residuals, at most 100 steps are accepted, and the result is the
last accepted value (the start if there is none). -/
theorem C26_steps_decrease (hneg : ∀ x : F, -x * -x = x * x) {p : Problem F} (hp : p.Consistent) {ls : LeastSquares F} {fuel : Nat}
    {x : List F} {st : LmState F} (h : lmRun p ls fuel x = .ok st) :
    List.IsChain p.Better (x :: st.accepted) ∧ st.accepted.length ≤ 100 ∧ (x :: st.accepted).getLast? = some st.vars := by
  rw [lmRun, bind_eq_ok] at h
  obtain ⟨⟨st0, sym⟩, h1, h2⟩ := h
  rw [lmStart, bind_eq_ok] at h1
  obtain ⟨rt, h3, h1⟩ := h1
  rw [bind_eq_ok] at h1
  obtain ⟨sym', -, h1⟩ := h1
  cases h1
  rw [lmJacobian, bind_eq_ok] at h3
  obtain ⟨⟨rs, ts⟩, h4, h3⟩ := h3
  cases h3
  obtain ⟨h5, h6⟩ := lmOuter_spec 100 _ st ⟨List.isChain_singleton x, rfl⟩
    ⟨rs, hp x rs ts h4, (normSquared_neg hneg rs).symm⟩ h2
  exact ⟨h5.chain, by simpa using h6, h5.last⟩

/-- C26: the value at which the optimiser stops is the start or has a smaller sum of squared residuals. -/
theorem C26_not_worse (hneg : ∀ x : F, -x * -x = x * x)
    (htrans : ∀ a b c : F, ltB a b = true → ltB b c = true → ltB a c = true) {p : Problem F} (hp : p.Consistent)
    {ls : LeastSquares F} {fuel : Nat} {x x' : List F} (h : levenbergMarquardt p ls fuel x = .ok x') : x' = x ∨ p.Better x x' := by
  rw [levenbergMarquardt, bind_eq_ok] at h
  obtain ⟨st, h1, h2⟩ := h
  cases h2
  obtain ⟨h3, -, h4⟩ := C26_steps_decrease hneg hp h1
  have htr : ∀ a b c, p.Better a b → p.Better b c → p.Better a c := by
    rintro a b c ⟨r1, r2, e1, e2, e3⟩ ⟨r3, r4, e4, e5, e6⟩
    rw [e2] at e4
    cases e4
    exact ⟨r1, r4, e1, e5, htrans _ _ _ e6 e3⟩
  haveI : IsTrans (List F) p.Better := ⟨htr⟩
  cases hacc : st.accepted with
  | nil => rw [hacc] at h4; left; simpa using h4.symm
  | cons a l =>
    right
    rw [List.isChain_iff_pairwise] at h3
    have hmem : st.vars ∈ st.accepted := by
      rw [hacc] at h4 ⊢
      rw [List.getLast?_cons_cons] at h4
      exact List.mem_of_getLast? h4
    exact (List.pairwise_cons.1 h3).1 _ hmem

/-! ## The subproblems of `solve` are consistent -/

omit [Add F] [Sub F] [Mul F] [Div F] [Neg F] [Zero F] [One F] [FloatOps F] in
theorem mapM_value {get : Nat → R (Variable F)} : ∀ {is : List Nat} {vs : List (Variable F)}, is.mapM get = .ok vs →
    is.mapM (fun i => do let v ← get i; pure v.value) = .ok (vs.map Variable.value) := by
  intro is
  induction is with
  | nil => intro vs h; cases h; rfl
  | cons i is ih =>
    intro vs h
    rw [List.mapM_cons, bind_eq_ok] at h
    obtain ⟨v, h1, h⟩ := h
    rw [bind_eq_ok] at h
    obtain ⟨vs', h2, h⟩ := h
    cases h
    rw [List.mapM_cons, h1, ok_bind, pure_eq_ok, ok_bind, ih h2]
    rfl

theorem sparse_residuals {sub : Subsystem F} {u : List F} : ∀ (ids : List Nat) (k : Nat) (rs : List F) (ts : List (Nat × Nat × F))
    (rs' : List F) (ts' : List (Nat × Nat × F)), rs.length = k + ids.length →
    (ids.zipIdx k).foldlM (sub.sparseRow u) (rs, ts) = .ok (rs', ts') →
    ∃ l, ids.mapM (fun expressionId => do
      let e ← idx sub.allExpressions expressionId
      e.calculateResidual (sub.getValue u)) = .ok l ∧ rs' = rs.take k ++ l := by
  intro ids
  induction ids with
  | nil =>
    intro k rs ts rs' ts' hlen h
    cases h
    exact ⟨[], rfl, by rw [List.append_nil, List.take_of_length_le (by simpa using hlen.le)]⟩
  | cons id ids ih =>
    intro k rs ts rs' ts' hlen h
    rw [List.length_cons] at hlen
    rw [List.zipIdx_cons, List.foldlM_cons, bind_eq_ok] at h
    obtain ⟨⟨rs1, ts1⟩, h1, h2⟩ := h
    rw [Subsystem.sparseRow, bind_eq_ok] at h1
    obtain ⟨e, h3, h1⟩ := h1
    rw [bind_eq_ok] at h1
    obtain ⟨vs, h4, h1⟩ := h1
    rw [bind_eq_ok] at h1
    obtain ⟨rg, h5, h1⟩ := h1
    rw [bind_eq_ok] at h1
    obtain ⟨rs2, h6, h1⟩ := h1
    cases h1
    rw [setIdx_eq_ok] at h6
    obtain ⟨h6, rfl⟩ := h6
    obtain ⟨l, h7, h8⟩ := ih (k + 1) _ _ rs' ts' (by simp only [List.length_set]; omega) h2
    refine ⟨rg.1 :: l, ?_, ?_⟩
    · rw [List.mapM_cons, h3, ok_bind, Expr.calculateResidual, mapM_value h4, ok_bind, h5, ok_bind, pure_eq_ok, ok_bind, h7]
      rfl
    · rw [h8, List.take_add_one, List.getElem?_set_self h6, List.take_set_of_le (Nat.le_refl k)]
      simp

/-- The numerical subproblems of `Decomposer::None` and `SinglePass` compute the same residuals with and without the Jacobian. -/
theorem Subsystem.problem_consistent (sub : Subsystem F) : sub.problem.Consistent := by
  intro x rs ts h
  obtain ⟨l, h1, h2⟩ := sparse_residuals sub.expressions 0 _ _ _ _ (by simp [Subsystem.problem]) h
  rw [h2]
  exact h1

omit [Add F] [Sub F] [Mul F] [Div F] [Neg F] [Zero F] [One F] [FloatOps F] in
theorem foldlM_project {α σ τ : Type} (π : σ → τ) {f : σ → α → R σ} {g : τ → α → R τ} (h : ∀ s a s', f s a = .ok s' → g (π s) a = .ok (π s')) :
    ∀ {l : List α} {s s' : σ}, l.foldlM f s = .ok s' → l.foldlM g (π s) = .ok (π s') := by
  intro l
  induction l with
  | nil => intro s s' hs; cases hs; rfl
  | cons a l ih =>
    intro s s' hs
    rw [List.foldlM_cons, bind_eq_ok] at hs
    obtain ⟨s1, h1, h2⟩ := hs
    rw [List.foldlM_cons, h s a s1 h1, ok_bind, ih h2]

/-- So do the problems of `RecursiveAssembly`. -/
theorem ClusteredSystem.problem_consistent (cs : ClusteredSystem) (s : System F) (exprs : List (Expr F)) (transformed : List F) :
    (cs.problem s exprs transformed).Consistent := by
  intro x rs ts h
  simp only [ClusteredSystem.problem, ClusteredSystem.residualsAndTriplets, bind_eq_ok] at h
  obtain ⟨⟨rs1, ts1⟩, h1, ⟨n2, rs2, ts2⟩, h2, h3⟩ := h
  cases h3
  simp only [ClusteredSystem.problem, ClusteredSystem.calculateResiduals]
  have e1 := foldlM_project Prod.fst (g := fun (residuals : List F) (ei : Nat × Nat) => do
    let e ← idx exprs ei.1
    let vars ← e.variableIndices.mapM (cs.variable x)
    let rg ← e.computeResidualAndGradient (vars.map Variable.value)
    setIdx residuals (cs.numPoseExpressions + ei.2) rg.1) (by
      intro s1 a s2 hs
      simp only [bind_eq_ok] at hs
      obtain ⟨e, q1, vs, q2, rg, q3, r, q4, q5⟩ := hs
      cases q5
      simp only [q1, q2, q3, q4, ok_bind]) h1
  have e2 := foldlM_project (fun (t : Nat × List F × List (Nat × Nat × F)) => (t.1, t.2.1))
    (g := fun (st : Nat × List F) (ck : (Nat × List Nat) × Nat) => do
      let pose ← poseAt x ck.2
      ck.1.2.foldlM (fun (st : Nat × List F) point => do
        let ((x, y), _, (x', y')) ← cs.pointTerm s.elements transformed x point
        let t := pose.transformPoint x y
        let residuals ← setIdx st.2 st.1 (t.1 - x')
        let residuals ← setIdx residuals (st.1 + 1) (t.2 - y')
        pure (st.1 + 2, residuals)) st) (by
      intro s1 a s2 hs
      simp only [bind_eq_ok] at hs
      obtain ⟨pose, q1, q2⟩ := hs
      rw [q1, ok_bind]
      refine foldlM_project (fun (t : Nat × List F × List (Nat × Nat × F)) => (t.1, t.2.1)) ?_ q2
      intro t1 pt t2 ht
      simp only [ClusteredSystem.pointRows, bind_eq_ok] at ht
      obtain ⟨⟨⟨px, py⟩, u, qx, qy⟩, w1, r1, w2, r2, w3, w4⟩ := ht
      cases w4
      rw [w1, ok_bind]
      simp only [w2, w3, ok_bind]
      rfl) h2
  rw [e1, ok_bind, e2, ok_bind]
  rfl

end

/-! ## Over the real numbers -/

theorem normSquared_real (l : List ℝ) : normSquared l = (l.map (fun x => x * x)).sum := by
  rw [normSquared, List.sum_eq_foldl]

/-- C26 in exact arithmetic: the sum of squared residuals where the optimiser stops is at most that at the start. -/
theorem C26_not_worse_real {p : Problem ℝ} (hp : p.Consistent) {ls : LeastSquares ℝ} {fuel : Nat} {x x' : List ℝ} {r r' : List ℝ}
    (h : levenbergMarquardt p ls fuel x = .ok x') (hr : p.residuals x = .ok r) (hr' : p.residuals x' = .ok r') :
    (r'.map (fun x => x * x)).sum ≤ (r.map (fun x => x * x)).sum := by
  rcases C26_not_worse (fun x => neg_mul_neg x x) (fun a b c h1 h2 => by
    simp only [FloatOps.ltB, decide_eq_true_eq] at *; exact lt_trans h1 h2) hp h with rfl | ⟨a, b, h1, h2, h3⟩
  · rw [hr, Except.ok.injEq] at hr'
    rw [hr']
  · rw [hr, Except.ok.injEq] at h1
    rw [hr', Except.ok.injEq] at h2
    subst h1 h2
    simp only [FloatOps.ltB, decide_eq_true_eq, normSquared_real] at h3
    exact h3.le

end Fiksi
