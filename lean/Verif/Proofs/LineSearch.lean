import Verif.Model.Lbfgs
import Verif.Proofs.Solve
/-!
# The line search neither panics nor leaves its buffers elsewhere
-/
namespace Fiksi

open FloatOps

/-! ## Computations that end in a good state, or run for longer than the model looks -/

/-- `x` does not panic: it has a result with `P`, or the bound given to an endless loop was reached. -/
def Ends {α : Type} (P : α → Prop) (x : R α) : Prop := (∃ a, x = .ok a ∧ P a) ∨ x = .error .outOfFuel

theorem Ends.ok {α : Type} {P : α → Prop} {a : α} (h : P a) : Ends P (.ok a) := .inl ⟨a, rfl, h⟩

theorem Ends.of {α : Type} {P : α → Prop} {x : R α} {a : α} (hx : x = .ok a) (h : P a) : Ends P x := .inl ⟨a, hx, h⟩

theorem Ends.bind {α β : Type} {P : α → Prop} {Q : β → Prop} {x : R α} {f : α → R β} (h : Ends P x) (hf : ∀ a, P a → Ends Q (f a)) :
    Ends Q (x >>= f) := by
  rcases h with ⟨a, rfl, h⟩ | rfl
  · exact hf a h
  · exact .inr rfl

theorem Ends.mono {α : Type} {P Q : α → Prop} {x : R α} (h : Ends P x) (hpq : ∀ a, P a → Q a) : Ends Q x := by
  rcases h with ⟨a, rfl, h⟩ | rfl
  · exact .inl ⟨a, rfl, hpq a h⟩
  · exact .inr rfl

theorem Ends.get {α : Type} {P : α → Prop} {x : R α} {a : α} (h : Ends P x) (hx : x = .ok a) : P a := by
  rcases h with ⟨b, rfl, h⟩ | rfl
  · cases hx; exact h
  · cases hx

section
variable {F : Type} [Add F] [Sub F] [Mul F] [Div F] [Neg F] [Zero F] [One F] [FloatOps F]

/-- The dense Jacobian does not panic, comes with the residuals of the values, and fills the buffers. -/
def Problem.DenseOk (p : Problem F) : Prop :=
  ∀ x rs jac, x.length = p.numVariables → rs.length = p.numResiduals → jac.length = p.numResiduals * p.numVariables →
    ∃ r j, p.denseJacobian x rs jac = .ok (r, j) ∧ p.residuals x = .ok r ∧ r.length = p.numResiduals ∧
      j.length = p.numResiduals * p.numVariables

structure EvalState.Sized (p : Problem F) (st : EvalState F) : Prop where
  scratch : st.scratch.length = p.numVariables
  jacobian : st.jacobian.length = p.numResiduals * p.numVariables
  residuals : st.residuals.length = p.numResiduals
  gradient : st.gradient.length = p.numVariables

/-- The point `x + t d`. -/
def along (x d : List F) (t : F) : List F := List.zipWith (fun a b => a + t * b) x d

/-- The buffers hold the values at `x`: the residuals, the Jacobian, and the gradient computed from them. -/
structure EvalState.At (p : Problem F) (st : EvalState F) (x : List F) : Prop where
  sized : st.Sized p
  scratch : st.scratch = x
  residuals : p.residuals x = .ok st.residuals
  jacobian : ∃ rs jac, p.denseJacobian x rs jac = .ok (st.residuals, st.jacobian)
  gradient : computeGradient st.jacobian st.residuals p.numVariables = .ok st.gradient

/-- `c.phi` is the objective at `x + c.p d`. -/
def Param.Measured (p : Problem F) (x d : List F) (c : Param F) : Prop :=
  ∃ r, p.residuals (along x d c.p) = .ok r ∧ c.phi = sumSquares r

theorem computeGradient_ok {jacobian residuals : List F} {n : Nat} (h : jacobian.length = residuals.length * n) :
    ∃ g, computeGradient jacobian residuals n = .ok g ∧ g.length = n := by
  have key : ∀ is : List Nat, (∀ i ∈ is, i < n) → ∃ g, is.mapM (fun i => (List.range residuals.length).foldlM (fun (acc : F) c => do
      let j ← idx jacobian (c * n + i)
      let r ← idx residuals c
      pure (acc + j * r)) 0) = .ok g ∧ g.length = is.length := by
    intro is
    induction is with
    | nil => intro _; exact ⟨[], rfl, rfl⟩
    | cons i is ih =>
      intro hi
      obtain ⟨g, h1, h2⟩ := ih (fun i h => hi i (List.mem_cons_of_mem _ h))
      obtain ⟨a, h3, -⟩ := foldlM_ok (fun _ : F => True) (fun (acc : F) c => do
        let j ← idx jacobian (c * n + i)
        let r ← idx residuals c
        pure (acc + j * r)) (List.range residuals.length) 0 trivial (fun acc c hc _ => by
          rw [List.mem_range] at hc
          have hin := hi i List.mem_cons_self
          have hlt : c * n + i < jacobian.length := by
            rw [h]
            calc c * n + i < (c + 1) * n := by rw [Nat.add_mul]; omega
              _ ≤ _ := Nat.mul_le_mul_right _ hc
          rw [idx_of (List.getElem?_eq_getElem hlt), ok_bind, idx_of (List.getElem?_eq_getElem hc), ok_bind]
          exact ⟨_, rfl, trivial⟩)
      exact ⟨a :: g, by rw [List.mapM_cons, h3, ok_bind, h1]; rfl, by simp [h2]⟩
  obtain ⟨g, h1, h2⟩ := key (List.range n) (fun i hi => List.mem_range.1 hi)
  exact ⟨g, h1, by simpa using h2⟩

omit [Sub F] [Div F] [Neg F] [Zero F] [One F] [FloatOps F] in
theorem scratch_fold {vars direction : List F} {t : F} {n : Nat} (hv : vars.length = n) (hd : direction.length = n) :
    ∀ m, m ≤ n → ∀ scratch : List F, scratch.length = n → (List.range m).foldlM (fun (scratch : List F) i => do
      let x ← idx vars i
      let d ← idx direction i
      setIdx scratch i (x + t * d)) scratch = .ok ((along vars direction t).take m ++ scratch.drop m) := by
  intro m
  induction m with
  | zero => intro _ scratch _; simp
  | succ m ih =>
    intro hm scratch hs
    have h1 : m < vars.length := by omega
    have h2 : m < direction.length := by omega
    have hl : (along vars direction t).length = n := by simp [along, hv, hd]
    have h3 : m < (along vars direction t).length := by omega
    have h4 : (along vars direction t)[m] = vars[m] + t * direction[m] := by simp [along]
    rw [List.range_succ, List.foldlM_append, ih (by omega) scratch hs, ok_bind, List.foldlM_cons,
      idx_of (List.getElem?_eq_getElem h1), ok_bind, idx_of (List.getElem?_eq_getElem h2), ok_bind, setIdx_of _ (by simp; omega), ok_bind,
      ← h4]
    show Except.ok _ = Except.ok _
    congr 1
    rw [List.set_append_right _ _ (by simp), List.length_take, Nat.min_eq_left (by omega), Nat.sub_self,
      List.drop_eq_getElem_cons (show m < scratch.length by omega), List.set_cons_zero, List.take_succ_eq_append_getElem h3,
      List.append_assoc]
    rfl

theorem calculatePhi_ok {p : Problem F} (hp : p.DenseOk) {vars direction : List F} (hv : vars.length = p.numVariables)
    (hd : direction.length = p.numVariables) {st : EvalState F} (hst : st.Sized p) (t : F) :
    ∃ c st', calculatePhi p vars direction st t = .ok (c, st') ∧ c.p = t ∧ c.Measured p vars direction ∧
      c.dphi = dot st'.gradient direction ∧ st'.At p (along vars direction t) := by
  have hl : (along vars direction t).length = p.numVariables := by simp [along, hv, hd]
  have h1 := scratch_fold (t := t) hv hd p.numVariables le_rfl st.scratch hst.scratch
  rw [List.take_of_length_le (by omega), List.drop_eq_nil_of_le (by rw [hst.scratch]), List.append_nil] at h1
  obtain ⟨r, j, h2, h3, h4, h5⟩ := hp (along vars direction t) st.residuals st.jacobian hl hst.residuals hst.jacobian
  obtain ⟨g, h6, h7⟩ := computeGradient_ok (jacobian := j) (residuals := r) (n := p.numVariables) (by rw [h4, h5])
  refine ⟨⟨t, sumSquares r, dot g direction⟩, ⟨along vars direction t, j, r, g⟩, ?_, rfl, ⟨r, h3, rfl⟩, rfl,
    ⟨⟨hl, h5, h4, h7⟩, rfl, h3, ⟨_, _, h2⟩, h6⟩⟩
  rw [calculatePhi, hv, h1, ok_bind, h2, ok_bind, hst.gradient, h6]
  rfl

variable {p : Problem F} (hp : p.DenseOk) {vars direction : List F} (hv : vars.length = p.numVariables)
  (hd : direction.length = p.numVariables)

include hp hv hd

theorem updateLoop_ends (phi0 : F) : ∀ (fuel : Nat) (st : EvalState F) (a b : Param F), st.Sized p →
    Ends (fun r => r.2.Sized p) (updateLoop p vars direction phi0 fuel st a b) := by
  intro fuel
  induction fuel with
  | zero => intro st a b _; exact .inr rfl
  | succ fuel ih =>
    intro st a b hst
    obtain ⟨c, st', h1, -, -, -, h2⟩ := calculatePhi_ok hp hv hd hst ((1 - ratio 5 10) * a.p + ratio 5 10 * b.p)
    rw [updateLoop, h1, ok_bind]
    simp only
    split
    · exact .ok h2.sized
    · split
      · exact ih _ _ _ h2.sized
      · exact ih _ _ _ h2.sized

theorem update_ends (phi0 : F) (fuel : Nat) {st : EvalState F} (hst : st.Sized p) (a b c : Param F) :
    Ends (fun r => r.2.Sized p) (update p vars direction phi0 fuel st a b c) := by
  unfold update
  split
  · exact .ok hst
  · split
    · exact .ok hst
    · split
      · exact .ok hst
      · exact updateLoop_ends hp hv hd phi0 fuel st a c hst

/-- What a search returns: the buffers hold the values at the step. -/
def Found (p : Problem F) (vars direction : List F) (r : Param F × EvalState F) : Prop :=
  r.1.Measured p vars direction ∧ r.2.At p (along vars direction r.1.p)

/-- What `secant2` returns. -/
def Found2 (p : Problem F) (vars direction : List F) (r : HzResult F (Param F × Param F) × EvalState F) : Prop :=
  match r.1 with
  | .satisfied c => Found p vars direction (c, r.2)
  | .unsatisfied _ => r.2.Sized p

theorem secondSecant_ends (phi0 dphi0 : F) (fuel : Nat) {st : EvalState F} (hst : st.Sized p) (a_ b_ : Param F) (t : F) :
    Ends (Found2 p vars direction) (secondSecant p vars direction phi0 dphi0 fuel st a_ b_ t) := by
  obtain ⟨c, st', h1, hc, h3, -, h2⟩ := calculatePhi_ok hp hv hd hst t
  rw [secondSecant, h1, ok_bind]
  simp only
  split
  · exact .ok ⟨h3, by subst hc; exact h2⟩
  · exact (update_ends hp hv hd phi0 fuel h2.sized a_ b_ c).bind (fun r hr => .ok hr)

theorem secant2_ends (phi0 dphi0 : F) (fuel : Nat) {st : EvalState F} (hst : st.Sized p) (a b : Param F) :
    Ends (Found2 p vars direction) (secant2 p vars direction phi0 dphi0 fuel st a b) := by
  obtain ⟨c, st', h1, hc, h3, -, h2⟩ := calculatePhi_ok hp hv hd hst (secant a b)
  rw [secant2, h1, ok_bind]
  simp only
  split
  · refine .ok ⟨h3, ?_⟩
    show st'.At p (along vars direction c.p)
    rw [hc]
    exact h2
  · refine (update_ends hp hv hd phi0 fuel h2.sized a b c).bind (fun r hr => ?_)
    split
    · exact secondSecant_ends hp hv hd phi0 dphi0 fuel hr _ _ _
    · split
      · exact secondSecant_ends hp hv hd phi0 dphi0 fuel hr _ _ _
      · exact .ok hr

theorem search_ends (phi0 dphi0 : F) (fuel : Nat) : ∀ (n : Nat) (st : EvalState F) (a b c : Param F), st.Sized p →
    c.Measured p vars direction → Ends (Found p vars direction) (search p vars direction phi0 dphi0 fuel n st a b c) := by
  intro n
  induction n with
  | zero =>
    intro st a b c hst hc
    obtain ⟨c', st', h1, -, -, -, h2⟩ := calculatePhi_ok hp hv hd hst c.p
    rw [search, h1, ok_bind]
    exact .ok ⟨hc, h2⟩
  | succ n ih =>
    intro st a b c hst hc
    rw [search]
    refine (secant2_ends hp hv hd phi0 dphi0 fuel hst a b).bind (fun r hr => ?_)
    obtain ⟨r1, st1⟩ := r
    cases r1 with
    | satisfied c1 => exact .ok hr
    | unsatisfied ab =>
      simp only
      split
      · obtain ⟨c', st', h1, hc', h3, -, h2⟩ := calculatePhi_ok hp hv hd (st := st1) hr (ratio 5 10 * (a.p + b.p))
        rw [h1, ok_bind]
        simp only
        split
        · refine .ok ⟨h3, ?_⟩
          show st'.At p (along vars direction c'.p)
          rw [hc']
          exact h2
        · exact (update_ends hp hv hd phi0 fuel h2.sized a b c').bind (fun r hr => ih _ _ _ _ hr h3)
      · exact ih _ _ _ _ hr hc

theorem lineSearch_ends (phi0 : F) (fuel : Nat) {st : EvalState F} (hst : st.Sized p) :
    Ends (Found p vars direction) (lineSearch p vars direction phi0 fuel st) := by
  obtain ⟨c, st', h1, hc, h3, -, h2⟩ := calculatePhi_ok hp hv hd hst 1
  rw [lineSearch, lineSearchRun, h1, ok_bind]
  simp only
  split
  · refine .ok ⟨h3, ?_⟩
    show st'.At p (along vars direction c.p)
    rw [hc]
    exact h2
  · obtain ⟨b, st2, h4, -, -, -, h5⟩ := calculatePhi_ok hp hv hd h2.sized (ofNat 5)
    rw [h4, ok_bind]
    exact search_ends hp hv hd phi0 _ fuel 100 _ _ _ _ h5.sized h3

end

end Fiksi
