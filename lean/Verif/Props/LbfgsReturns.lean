import Verif.Proofs.TameLine
import Verif.Props.LmQr
/-!
# C52, C58: when the line search and L-BFGS return for systems of constraints
-/
namespace Fiksi

open Spec FloatOps

/-! ## The line -/

/-- Expression number `c` of the problem. -/
def Subsystem.exprAt (sub : Subsystem ℝ) (c : Nat) : Option (Expr ℝ) := sub.expressions[c]?.bind (sub.allExpressions[·]?)

noncomputable def Subsystem.residualTerm (sub : Subsystem ℝ) (u : List ℝ) (c : Nat) : ℝ :=
  match sub.exprAt c with
  | some e => e.residualOf (e.variableIndices.map (sub.valueOf u))
  | none => 0

noncomputable def Subsystem.rateTerm (sub : Subsystem ℝ) (u d : List ℝ) (c : Nat) : ℝ :=
  match sub.exprAt c with
  | some e => dotList (e.gradientOf (e.variableIndices.map (sub.valueOf u))) (e.variableIndices.map (sub.velocity d))
  | none => 0

/-- Half the derivative of the objective along the line. -/
noncomputable def Subsystem.halfSlope (sub : Subsystem ℝ) (x d : List ℝ) (t : ℝ) : ℝ :=
  ∑ c ∈ Finset.range sub.expressions.length, sub.residualTerm (along x d t) c * sub.rateTerm (along x d t) d c

/-- On the part of the line that is searched, the residuals do not jump: they are of a kind that never does, or away from where they do. -/
def Subsystem.CalmAlong (sub : Subsystem ℝ) (x d : List ℝ) : Prop :=
  ∀ id ∈ sub.expressions, ∀ e, sub.allExpressions[id]? = some e →
    e.Continuous ∨ ∀ t ∈ Set.Icc (0 : ℝ) 5, SmoothAt e (e.variableIndices.map (sub.valueOf (along x d t)))

section
variable {sub : Subsystem ℝ} (hok : sub.Ok) {x d : List ℝ} (hx : x.length = sub.freeVariables.length) (hd : d.length = sub.freeVariables.length)
include hok

theorem Subsystem.exprAt_of {c : Nat} (hc : c < sub.expressions.length) :
    ∃ id e, sub.expressions[c]? = some id ∧ sub.allExpressions[id]? = some e ∧ sub.exprAt c = some e := by
  obtain ⟨e, he, -⟩ := hok _ (List.getElem_mem hc)
  exact ⟨_, e, List.getElem?_eq_getElem hc, he, by rw [exprAt, List.getElem?_eq_getElem hc]; exact he⟩

include hx hd

theorem Subsystem.phi_eq (t : ℝ) : sub.problem.phi x d t = ∑ c ∈ Finset.range sub.expressions.length, sub.residualTerm (along x d t) c ^ 2 := by
  refine Finset.sum_congr rfl (fun c hc => ?_)
  obtain ⟨r, j, -, h2, -, -, h5⟩ := Subsystem.dense_rows hok (u := along x d t) (rs := List.replicate sub.expressions.length 0)
    (jac := List.replicate (sub.expressions.length * sub.freeVariables.length) 0) (by simp [along, hx, hd]) (by simp) (by simp)
  obtain ⟨id, e, h6, h7, h8⟩ := Subsystem.exprAt_of hok (Finset.mem_range.1 hc)
  have h9 : sub.problem.residualAt (along x d t) c = sub.residualTerm (along x d t) c := by
    rw [Problem.residualAt_of h2, List.getD_eq_getElem?_getD, (h5 c id e h6 h7).1, Subsystem.residualTerm, h8]
    rfl
  show sub.problem.residualAt (along x d t) c ^ 2 = _
  rw [h9]

theorem Subsystem.line (hpl : sub.Plain) : sub.problem.Line x d (sub.problem.phi x d) (sub.halfSlope x d) := by
  intro t rs jac h1 h2 h3
  have hl : (along x d t).length = sub.freeVariables.length := by simp [along, hx, hd]
  obtain ⟨r, j, h4, h5, h6, h7, h8⟩ := Subsystem.dense_rows hok hl h1 h2
  have hterm : ∀ c ∈ Finset.range sub.expressions.length, r.getD c 0 = sub.residualTerm (along x d t) c ∧
      ∑ k ∈ Finset.range sub.freeVariables.length, j.getD (c * sub.freeVariables.length + k) 0 * d.getD k 0 = sub.rateTerm (along x d t) d c := by
    intro c hc
    obtain ⟨id, e, g1, g2, g3⟩ := Subsystem.exprAt_of hok (Finset.mem_range.1 hc)
    obtain ⟨g4, g5⟩ := Subsystem.dense_dot hok hpl hl h1 h3 h4 (d := d) g1 g2
    rw [Subsystem.residualTerm, Subsystem.rateTerm, g3]
    exact ⟨g4, g5⟩
  refine ⟨r, j, h4, h5, h6, h7, ?_, ?_⟩
  · rw [Subsystem.phi_eq hok hx hd]
    exact Finset.sum_congr rfl (fun c hc => by rw [(hterm c hc).1])
  · exact Finset.sum_congr rfl (fun c hc => by rw [(hterm c hc).1]; congr 1; exact (hterm c hc).2)

theorem Subsystem.germ (hc : sub.CalmAlong x d) {t : ℝ} (ht : t ∈ Set.Ico (0 : ℝ) 5) :
    Germ (sub.problem.phi x d) (fun s => 2 * sub.halfSlope x d s) t := by
  refine (Germ.sum_sq (Finset.range sub.expressions.length) (f := fun c s => sub.residualTerm (along x d s) c)
    (f' := fun c s => sub.rateTerm (along x d s) d c) (fun c hc' => ?_)).congr (fun s => Subsystem.phi_eq hok hx hd s) (fun s => rfl)
  obtain ⟨id, e, g1, g2, g3⟩ := Subsystem.exprAt_of hok (Finset.mem_range.1 hc')
  simp only [Subsystem.residualTerm, Subsystem.rateTerm, g3]
  have hval : ∀ s, e.variableIndices.map (sub.valueOf (along x d s)) = e.variableIndices.map (fun v => sub.valueOf x v + s * sub.velocity d v) :=
    fun s => List.map_congr_left (fun v _ => sub.valueOf_along (by rw [hx, hd]) s v)
  simp only [hval]
  refine e.germ (sub.valueOf x) (sub.velocity d) ht.2 ?_
  refine (hc id (List.mem_of_getElem? g1) e g2).imp (fun h => h) (fun h s hs => ?_)
  rw [← hval]
  exact h s ⟨ht.1.trans hs.1, hs.2.le⟩

theorem Subsystem.continuousAt_end (hc : sub.CalmAlong x d) : ContinuousAt (sub.problem.phi x d) 5 := by
  rw [show sub.problem.phi x d = fun s => ∑ c ∈ Finset.range sub.expressions.length, sub.residualTerm (along x d s) c ^ 2 from
    funext (Subsystem.phi_eq hok hx hd)]
  refine tendsto_finsetSum _ (fun c hc' => ?_)
  obtain ⟨id, e, g1, g2, g3⟩ := Subsystem.exprAt_of hok (Finset.mem_range.1 hc')
  simp only [Subsystem.residualTerm, g3]
  have hval : ∀ s, e.variableIndices.map (sub.valueOf (along x d s)) = e.variableIndices.map (fun v => sub.valueOf x v + s * sub.velocity d v) :=
    fun s => List.map_congr_left (fun v _ => sub.valueOf_along (by rw [hx, hd]) s v)
  simp only [hval]
  refine ContinuousAt.pow ?_ 2
  rcases hc id (List.mem_of_getElem? g1) e g2 with h | h
  · exact (e.germ (sub.valueOf x) (sub.velocity d) (show (5 : ℝ) < 6 by norm_num) (.inl h)).1
  · have h5 := h 5 ⟨by norm_num, le_rfl⟩
    rw [hval] at h5
    exact (e.residual_analytic (fun v s => sub.valueOf x v + s * sub.velocity d v)
      (fun v _ => analyticAt_const.add (analyticAt_id.mul analyticAt_const)) h5).continuousAt

theorem Subsystem.tame (hc : sub.CalmAlong x d) : Tame (sub.problem.phi x d) (sub.halfSlope x d) 0 5 := by
  refine ⟨fun t ht => ?_, fun t ht => (Subsystem.germ hok hx hd hc ht).side⟩
  rcases ht.2.eq_or_lt with rfl | hlt
  · exact (Subsystem.continuousAt_end hok hx hd hc).continuousWithinAt
  · exact (Subsystem.germ hok hx hd hc ⟨ht.1, hlt⟩).1.continuousWithinAt

end

/-- C58 (partial): on the problems `solve` poses, the search along a line returns if no variable is used twice by one expression and the
residuals do not jump on the part of the line that is searched; this is so for all lines if there are only coincidences, distances of points,
incidences, equal lengths, parallel and perpendicular lines. (Full statement: it returns for every line. Missing: jumps, where it does not
return in `C52_lbfgs_jump_never_returns`; and variables used twice, where the Jacobian is wrong, see `C29_dense_fails_on_shared_points`.) -/
theorem C58_system_returns_partial {sub : Subsystem ℝ} (hok : sub.Ok) (hpl : sub.Plain) {x d : List ℝ} (hx : x.length = sub.freeVariables.length)
    (hd : d.length = sub.freeVariables.length) (hc : sub.CalmAlong x d) {st : EvalState ℝ} (hst : st.Starts sub.problem x) :
    ∃ k c st', ∀ fuel, k ≤ fuel → lineSearch sub.problem x d (sumSquares st.residuals) fuel st = .ok (c, st') := by
  have hl := Subsystem.line hok hx hd hpl
  obtain ⟨hf, h1, h2⟩ := hst.values hx hd hl
  obtain ⟨⟨c, st'⟩, -, k, hk⟩ := lineSearch_returns hl hx hd hf h2 (Subsystem.tame hok hx hd hc)
  rw [h1]
  exact ⟨k, c, st', hk⟩

/-! ## L-BFGS -/

/-- The buffers of L-BFGS between the iterations. -/
def LbfgsState.buffers (st : LbfgsState ℝ) : EvalState ℝ := ⟨st.vars, st.jacobian, st.residuals, st.gradient⟩

theorem lbfgsStep_returns {sub : Subsystem ℝ} (hok : sub.Ok) (hpl : sub.Plain) {k : Nat} {st : LbfgsState ℝ} (hst : st.Ok sub.problem k)
    (hs : st.buffers.Starts sub.problem st.vars)
    (hc : ∀ d, lbfgsDirection st.history k st.gradient = .ok d → sub.CalmAlong st.vars d) :
    Returns (fun r => r.2.vars.length = sub.problem.numVariables ∧ (r.1 = false → r.2.Ok sub.problem (k + 1) ∧
      r.2.buffers.Starts sub.problem r.2.vars)) (fun fuel => lbfgsStep sub.problem fuel k st) := by
  obtain ⟨d, h1, h2, -⟩ := lbfgsDirection_ok hst.ring hst.at_.sized.gradient
  have hx : st.vars.length = sub.problem.numVariables := hst.at_.sized.scratch
  have hl := Subsystem.line hok hx h2 hpl
  obtain ⟨hf, e1, e2⟩ := hs.values hx h2 hl
  obtain ⟨⟨c, ev⟩, ⟨t, e3, e4⟩, m, hm⟩ := lineSearch_returns hl hx h2 hf e2 (Subsystem.tame hok hx h2 (hc d h1))
  simp only at e3 e4 hm
  have e5 : c.p = t := by rw [e3]; rfl
  rw [← e1] at hm
  have hsc := (C54_buffers_at_step hok.denseOk hx h2 hs.sized (hm m le_rfl)).1
  have hstep : ∀ n, m ≤ n → lbfgsStep sub.problem n k st = lbfgsStep sub.problem m k st := by
    intro n hn
    have : ∀ n, m ≤ n → lineSearch sub.problem st.vars d st.ssr n ⟨st.vars, st.jacobian, st.residuals, st.gradient⟩ = .ok (c, ev) := by
      intro n hn
      rw [hst.ssr]
      exact hm n hn
    rw [lbfgsStep, lbfgsStep, h1, ok_bind, ok_bind, this n hn, this m le_rfl]
  have hend := lbfgsStep_ends hok.denseOk (fuel := m) hst
  have hval : ∃ stop st', lbfgsStep sub.problem m k st = .ok (stop, st') ∧ st'.buffers = ev := by
    rw [lbfgsStep, h1, ok_bind, show lineSearch sub.problem st.vars d st.ssr m ⟨st.vars, st.jacobian, st.residuals, st.gradient⟩ =
      .ok (c, ev) by rw [hst.ssr]; exact hm m le_rfl, ok_bind]
    simp only
    rw [setIdx_of _ (by rw [hst.ring.length]; omega), ok_bind]
    exact ⟨_, _, rfl, rfl⟩
  obtain ⟨stop, st', h3, h4⟩ := hval
  have hspec := hend.get h3
  refine ⟨(stop, st'), ⟨hspec.length, fun hstop => ⟨hspec.ok hstop, ?_⟩⟩, m, fun n hn => (hstep n hn).trans h3⟩
  have h5 : st'.vars = along st.vars d t := by
    have : st'.buffers.scratch = ev.scratch := by rw [h4]
    rw [← e5]
    exact this.trans hsc
  rw [h4, h5]
  exact e4

theorem lbfgsLoop_returns {sub : Subsystem ℝ} (hok : sub.Ok) (hpl : sub.Plain) {x : List ℝ}
    (hc : ∀ fuel k st d, LbfgsReaches sub.problem fuel x k st → lbfgsDirection st.history k st.gradient = .ok d → sub.CalmAlong st.vars d) :
    ∀ (n k : Nat) (st : LbfgsState ℝ), st.Ok sub.problem k → st.buffers.Starts sub.problem st.vars →
      (∃ m, ∀ fuel, m ≤ fuel → LbfgsReaches sub.problem fuel x k st) →
      Returns (fun st' => st'.vars.length = sub.problem.numVariables) (fun fuel => lbfgsLoop sub.problem fuel n k st) := by
  intro n
  induction n with
  | zero => intro k st hst _ _; exact .of hst.at_.sized.scratch
  | succ n ih =>
    intro k st hst hs ⟨m, hm⟩
    simp only [lbfgsLoop]
    obtain ⟨⟨stop, st'⟩, ⟨h1, h2⟩, m', hm'⟩ := lbfgsStep_returns hok hpl hst hs (fun d hd => hc m k st d (hm m le_rfl) hd)
    cases stop with
    | true =>
      refine ⟨st', h1, m', fun fuel hf => ?_⟩
      simp only [hm' fuel hf, ok_bind]
      rfl
    | false =>
      obtain ⟨h3, h4⟩ := h2 rfl
      obtain ⟨r, h5, m2, hm2⟩ := ih (k + 1) st' h3 h4 ⟨max m m', fun fuel hf => .step (hm fuel (by omega)) (hm' fuel (by omega))⟩
      refine ⟨r, h5, max m' m2, fun fuel hf => ?_⟩
      simp only [hm' fuel (by omega), ok_bind]
      exact hm2 fuel (by omega)

theorem lbfgs_returns {sub : Subsystem ℝ} (hok : sub.Ok) (hpl : sub.Plain) {x : List ℝ} (hx : x.length = sub.problem.numVariables)
    (hc : ∀ fuel k st d, LbfgsReaches sub.problem fuel x k st → lbfgsDirection st.history k st.gradient = .ok d → sub.CalmAlong st.vars d) :
    Returns (fun x' => x'.length = sub.problem.numVariables) (fun fuel => lbfgs sub.problem fuel x) := by
  obtain ⟨o, h1, h2⟩ := lbfgsStart_ok hok.denseOk hx
  simp only [lbfgs, h1, ok_bind]
  cases o with
  | none => exact .of hx
  | some st =>
    simp only
    obtain ⟨h3, h4⟩ := h2 st rfl
    refine (lbfgsLoop_returns hok hpl hc 100 0 st h3 ?_ ⟨0, fun fuel _ => .start h1⟩).bind (fun st' h => .of h)
    rw [lbfgsStart, bind_eq_ok] at h1
    obtain ⟨rj, h5, h1⟩ := h1
    split at h1
    · cases h1
    · rw [bind_eq_ok] at h1
      obtain ⟨g, h6, h1⟩ := h1
      cases h1
      exact ⟨h3.at_.sized, ⟨_, _, by simp, by simp, .zero, h5⟩, h6⟩

/-- C52 (partial): on the problems `solve` poses, L-BFGS returns, with a result that does not depend on the loop bound of the model, if no
variable is used twice by one expression and the residuals do not jump along the lines that are searched. (Full statement: it returns on every
problem. False: see `C52_lbfgs_jump_never_returns` and `C52_lbfgs_nan_never_returns`.) -/
theorem C52_lbfgs_returns_partial {sub : Subsystem ℝ} (hok : sub.Ok) (hpl : sub.Plain) {x : List ℝ} (hx : x.length = sub.freeVariables.length)
    (hc : ∀ fuel k st d, LbfgsReaches sub.problem fuel x k st → lbfgsDirection st.history k st.gradient = .ok d → sub.CalmAlong st.vars d) :
    ∃ k x', x'.length = sub.freeVariables.length ∧ ∀ fuel, k ≤ fuel → lbfgs sub.problem fuel x = .ok x' := by
  obtain ⟨x', h1, k, h2⟩ := lbfgs_returns hok hpl hx hc
  exact ⟨k, x', h1, h2⟩

/-! ## The result does not depend on the loop bound -/

section
variable {F : Type} [Add F] [Sub F] [Mul F] [Div F] [Neg F] [Zero F] [One F] [FloatOps F] (p : Problem F)

theorem updateLoop_keeps (x d : List F) (phi0 : F) (st : EvalState F) (a b : Param F) : Keeps (fun n => updateLoop p x d phi0 n st a b) := by
  intro n
  induction n generalizing st a b with
  | zero => intro r h hr; exact absurd h.symm hr
  | succ n ih =>
    intro r h hr
    simp only at h ⊢
    rw [updateLoop] at h ⊢
    cases hs : calculatePhi p x d st ((1 - ratio 5 10) * a.p + ratio 5 10 * b.p) with
    | error e => rw [hs] at h; exact h
    | ok r1 =>
      rw [hs, ok_bind] at h
      rw [ok_bind]
      simp only at h ⊢
      split at h
      · rename_i hc; rw [if_pos hc]; exact h
      · rename_i hc
        rw [if_neg hc]
        split at h
        · rename_i hc'; rw [if_pos hc']; exact ih _ _ _ r h hr
        · rename_i hc'; rw [if_neg hc']; exact ih _ _ _ r h hr

theorem update_keeps (x d : List F) (phi0 : F) (st : EvalState F) (a b c : Param F) : Keeps (fun n => update p x d phi0 n st a b c) := by
  simp only [update]
  split
  · exact .const _
  · split
    · exact .const _
    · split
      · exact .const _
      · exact updateLoop_keeps p x d phi0 st a c

theorem secondSecant_keeps (x d : List F) (phi0 dphi0 : F) (st : EvalState F) (a b : Param F) (t : F) :
    Keeps (fun n => secondSecant p x d phi0 dphi0 n st a b t) := by
  simp only [secondSecant]
  refine Keeps.bind (.const _) (fun r => ?_)
  split
  · exact .const _
  · exact Keeps.bind (update_keeps p x d phi0 _ _ _ _) (fun _ => .const _)

theorem secant2_keeps (x d : List F) (phi0 dphi0 : F) (st : EvalState F) (a b : Param F) :
    Keeps (fun n => secant2 p x d phi0 dphi0 n st a b) := by
  simp only [secant2]
  refine Keeps.bind (.const _) (fun r => ?_)
  split
  · exact .const _
  · refine Keeps.bind (update_keeps p x d phi0 _ _ _ _) (fun r => ?_)
    split
    · exact secondSecant_keeps p x d _ _ _ _ _ _
    · split
      · exact secondSecant_keeps p x d _ _ _ _ _ _
      · exact .const _

theorem search_keeps (x d : List F) (phi0 dphi0 : F) : ∀ (k : Nat) (st : EvalState F) (a b c : Param F),
    Keeps (fun n => search p x d phi0 dphi0 n k st a b c) := by
  intro k
  induction k with
  | zero => intro st a b c; exact .const _
  | succ k ih =>
    intro st a b c
    simp only [search]
    refine Keeps.bind (secant2_keeps p x d phi0 dphi0 _ _ _) (fun r => ?_)
    obtain ⟨r1, st1⟩ := r
    cases r1 with
    | satisfied c1 => exact .const _
    | unsatisfied ab =>
      simp only
      split
      · refine Keeps.bind (.const _) (fun r => ?_)
        split
        · exact .const _
        · exact Keeps.bind (update_keeps p x d phi0 _ _ _ _) (fun r => ih _ _ _ _)
      · exact ih _ _ _ _

theorem lineSearch_keeps (x d : List F) (phi0 : F) (st : EvalState F) : Keeps (fun n => lineSearch p x d phi0 n st) := by
  simp only [lineSearch, lineSearchRun]
  refine Keeps.bind (.const _) (fun r => ?_)
  split
  · exact .const _
  · exact Keeps.bind (.const _) (fun r => search_keeps p x d _ _ _ _ _ _ _)

theorem lbfgsLoop_keeps : ∀ (k i : Nat) (st : LbfgsState F), Keeps (fun n => lbfgsLoop p n k i st) := by
  intro k
  induction k with
  | zero => intro i st; exact .const _
  | succ k ih =>
    intro i st
    simp only [lbfgsLoop, lbfgsStep]
    refine Keeps.bind (Keeps.bind (.const _) (fun d => Keeps.bind (lineSearch_keeps p _ _ _ _) (fun r => .const _))) (fun r => ?_)
    split
    · exact .const _
    · exact ih _ _

theorem lbfgs_keeps (x : List F) : Keeps (fun n => lbfgs p n x) := by
  simp only [lbfgs]
  refine Keeps.bind (.const _) (fun r => ?_)
  cases r with
  | none => exact .const _
  | some st => exact Keeps.bind (lbfgsLoop_keeps p _ _ _) (fun _ => .const _)

end

/-! ## `solve` -/

/-- The end points of a line. -/
def Spec.Store.ends {F : Type} (st : Store F) (l : Nat) : List Nat :=
  match st.elems[l]? with
  | some (.line p q) => [p, q]
  | _ => []

/-- The centre of a circle. -/
def Spec.Store.centre {F : Type} (st : Store F) (c : Nat) : List Nat :=
  match st.elems[c]? with
  | some (.circle p _) => [p]
  | _ => []

/-- The points a constraint is about. -/
def Spec.Store.pointsOf {F : Type} (st : Store F) : Spec.Con F → List Nat
  | .pointPointCoincidence p q => [p, q]
  | .pointPointDistance p q _ => [p, q]
  | .pointPointPointAngle p q r _ => [p, q, r]
  | .pointLineIncidence p l => p :: st.ends l
  | .pointLineDistance p l _ => p :: st.ends l
  | .pointCircleIncidence p c => p :: st.centre c
  | .segmentSegmentLengthEquality a b c d => [a, b, c, d]
  | .lineLineAngle l m _ => st.ends l ++ st.ends m
  | .lineLineParallelism l m => st.ends l ++ st.ends m
  | .lineLinePerpendicularity l m => st.ends l ++ st.ends m
  | .lineCircleTangency l c => st.ends l ++ st.centre c

/-- The error of the constraint depends continuously on the coordinates. -/
def Spec.Con.Calm {F : Type} : Spec.Con F → Prop
  | .pointPointPointAngle .. | .pointLineDistance .. | .lineLineAngle .. | .lineCircleTangency .. => False
  | _ => True

theorem off_apart {es : List (Elem ℝ)} {i i' j j' : Nat} {e e' : Elem ℝ} (h : es[i]? = some e) (h' : es[i']? = some e')
    (hj : j < (elemValues e).length) (hj' : j' < (elemValues e').length) (hne : i ≠ i') : off es i + j ≠ off es i' + j' :=
  fun heq => hne (off_inj es h h' hj hj' heq).1

/-- The variables of distinct points are distinct. -/
theorem points_apart {st : Store ℝ} {p q : Nat} (hp : st.IsPoint p) (hq : st.IsPoint q) (hne : p ≠ q) :
    off st.elems p ≠ off st.elems q ∧ off st.elems p ≠ off st.elems q + 1 ∧ off st.elems p + 1 ≠ off st.elems q := by
  obtain ⟨_, _, hp⟩ := hp
  obtain ⟨_, _, hq⟩ := hq
  exact ⟨off_apart (j := 0) (j' := 0) hp hq (by simp [elemValues]) (by simp [elemValues]) hne,
    off_apart (j := 0) (j' := 1) hp hq (by simp [elemValues]) (by simp [elemValues]) hne,
    off_apart (j := 1) (j' := 0) hp hq (by simp [elemValues]) (by simp [elemValues]) hne⟩

theorem length_apart {st : Store ℝ} {p r : Nat} (hp : st.IsPoint p) (hr : st.IsLength r) :
    off st.elems p ≠ off st.elems r ∧ off st.elems p + 1 ≠ off st.elems r := by
  obtain ⟨_, _, hp⟩ := hp
  obtain ⟨_, hr⟩ := hr
  have hne : p ≠ r := by rintro rfl; rw [hp] at hr; cases hr
  exact ⟨off_apart (j := 0) (j' := 0) hp hr (by simp [elemValues]) (by simp [elemValues]) hne,
    off_apart (j := 1) (j' := 0) hp hr (by simp [elemValues]) (by simp [elemValues]) hne⟩

/-- The expressions of a constraint about distinct points use no variable twice. -/
theorem encCon_nodup {s : System ℝ} {st : Store ℝ} (hr : Rel s st) {con : Spec.Con ℝ} (hc : st.ConOk con) (hn : (st.pointsOf con).Nodup) :
    ∀ e ∈ encCon st.elems con, e.variableIndices.Nodup := by
  have hpts : ∀ l : List Nat, (∀ i ∈ l, st.IsPoint i) → l.Nodup → (l.flatMap (fun i => [off st.elems i, off st.elems i + 1])).Nodup := by
    intro l
    induction l with
    | nil => intro _ _; exact List.nodup_nil
    | cons i l ih =>
      intro h1 h2
      rw [List.nodup_cons] at h2
      rw [List.flatMap_cons, List.nodup_append]
      refine ⟨by simp, ih (fun i hi => h1 i (List.mem_cons_of_mem _ hi)) h2.2, ?_⟩
      intro a ha b hb
      rw [List.mem_flatMap] at hb
      obtain ⟨q, hq, hb⟩ := hb
      have := points_apart (h1 i List.mem_cons_self) (h1 q (List.mem_cons_of_mem _ hq)) (by rintro rfl; exact h2.1 hq)
      simp only [List.mem_cons, List.not_mem_nil, or_false] at ha hb
      omega
  have hline : ∀ {l}, st.IsLine l → ∃ p q, st.elems[l]? = some (.line p q) ∧ st.IsPoint p ∧ st.IsPoint q := by
    rintro l ⟨p, q, h⟩
    exact ⟨p, q, h, hr.wfElem l _ h⟩
  have hcirc : ∀ {l}, st.IsCircle l → ∃ p q, st.elems[l]? = some (.circle p q) ∧ st.IsPoint p ∧ st.IsLength q := by
    rintro l ⟨p, q, h⟩
    exact ⟨p, q, h, hr.wfElem l _ h⟩
  have hsnoc : ∀ (l : List Nat) (r : Nat), (∀ i ∈ l, st.IsPoint i) → l.Nodup → st.IsLength r →
      (l.flatMap (fun i => [off st.elems i, off st.elems i + 1]) ++ [off st.elems r]).Nodup := by
    intro l r h1 h2 h3
    rw [List.nodup_append]
    refine ⟨hpts l h1 h2, by simp, ?_⟩
    intro a ha b hb
    rw [List.mem_flatMap] at ha
    obtain ⟨q, hq, ha⟩ := ha
    have := length_apart (h1 q hq) h3
    simp only [List.mem_cons, List.not_mem_nil, or_false] at ha hb
    omega
  intro e he
  cases con with
  | pointPointCoincidence p q =>
    have h := points_apart hc.1 hc.2 (by simpa [Store.pointsOf] using hn)
    simp only [encCon, List.mem_cons, List.not_mem_nil, or_false] at he
    rcases he with rfl | rfl <;> simp [Expr.variableIndices] <;> omega
  | pointPointDistance p q d =>
    have h := hpts [p, q] (by simp [hc.1, hc.2]) hn
    simp only [encCon, List.mem_cons, List.not_mem_nil, or_false] at he
    subst he
    simpa [Expr.variableIndices] using h
  | pointPointPointAngle p q r a =>
    have h := hpts [p, q, r] (by simp [hc.1, hc.2.1, hc.2.2]) hn
    simp only [encCon, List.mem_cons, List.not_mem_nil, or_false] at he
    subst he
    simpa [Expr.variableIndices] using h
  | pointLineIncidence p l =>
    obtain ⟨a, b, h1, h2, h3⟩ := hline hc.2
    simp only [Store.pointsOf, Store.ends, h1] at hn
    have h := hpts [p, a, b] (by simp [hc.1, h2, h3]) hn
    simp only [encCon, lineOff, h1, List.mem_cons, List.not_mem_nil, or_false] at he
    subst he
    simpa [Expr.variableIndices] using h
  | pointLineDistance p l d =>
    obtain ⟨a, b, h1, h2, h3⟩ := hline hc.2
    simp only [Store.pointsOf, Store.ends, h1] at hn
    have h := hpts [p, a, b] (by simp [hc.1, h2, h3]) hn
    simp only [encCon, lineOff, h1, List.mem_cons, List.not_mem_nil, or_false] at he
    subst he
    simpa [Expr.variableIndices] using h
  | pointCircleIncidence p c =>
    obtain ⟨a, r, h1, h2, h3⟩ := hcirc hc.2
    simp only [Store.pointsOf, Store.centre, h1] at hn
    have h := hsnoc [p, a] r (by simp [hc.1, h2]) hn h3
    simp only [encCon, circOff, h1, List.mem_cons, List.not_mem_nil, or_false] at he
    subst he
    simpa [Expr.variableIndices] using h
  | segmentSegmentLengthEquality a b c d =>
    have h := hpts [a, b, c, d] (by simp [hc.1, hc.2.1, hc.2.2.1, hc.2.2.2]) hn
    simp only [encCon, List.mem_cons, List.not_mem_nil, or_false] at he
    subst he
    simpa [Expr.variableIndices] using h
  | lineLineAngle l m t =>
    obtain ⟨a, b, h1, h2, h3⟩ := hline hc.1
    obtain ⟨c, d, g1, g2, g3⟩ := hline hc.2
    simp only [Store.pointsOf, Store.ends, h1, g1] at hn
    have h := hpts [a, b, c, d] (by simp [h2, h3, g2, g3]) hn
    simp only [encCon, lineOff, h1, g1, List.mem_cons, List.not_mem_nil, or_false] at he
    subst he
    simpa [Expr.variableIndices] using h
  | lineLineParallelism l m =>
    obtain ⟨a, b, h1, h2, h3⟩ := hline hc.1
    obtain ⟨c, d, g1, g2, g3⟩ := hline hc.2
    simp only [Store.pointsOf, Store.ends, h1, g1] at hn
    have h := hpts [a, b, c, d] (by simp [h2, h3, g2, g3]) hn
    simp only [encCon, lineOff, h1, g1, List.mem_cons, List.not_mem_nil, or_false] at he
    subst he
    simpa [Expr.variableIndices] using h
  | lineLinePerpendicularity l m =>
    obtain ⟨a, b, h1, h2, h3⟩ := hline hc.1
    obtain ⟨c, d, g1, g2, g3⟩ := hline hc.2
    simp only [Store.pointsOf, Store.ends, h1, g1] at hn
    have h := hpts [a, b, c, d] (by simp [h2, h3, g2, g3]) hn
    simp only [encCon, lineOff, h1, g1, List.mem_cons, List.not_mem_nil, or_false] at he
    subst he
    simpa [Expr.variableIndices] using h
  | lineCircleTangency l c =>
    obtain ⟨a, b, h1, h2, h3⟩ := hline hc.1
    obtain ⟨m, r, g1, g2, g3⟩ := hcirc hc.2
    simp only [Store.pointsOf, Store.ends, Store.centre, h1, g1] at hn
    have h := hsnoc [a, b, m] r (by simp [h2, h3, g2]) hn g3
    simp only [encCon, lineOff, circOff, h1, g1, List.mem_cons, List.not_mem_nil, or_false] at he
    subst he
    simpa [Expr.variableIndices] using h

theorem encCon_continuous {es : List (Elem ℝ)} {con : Spec.Con ℝ} (h : con.Calm) : ∀ e ∈ encCon es con, ∀ k, (e.transform k).Continuous := by
  intro e he k
  cases con <;> first
    | exact h.elim
    | (simp only [encCon, List.mem_cons, List.not_mem_nil, or_false] at he
       first
         | (subst he; trivial)
         | (rcases he with rfl | rfl <;> trivial))

/-- C52 (partial): `solve` with L-BFGS returns, with the decomposers `None` and `SinglePass`, after every legal history whose constraints are
coincidences, distances of points, incidences, equal lengths, parallel and perpendicular lines, each between distinct points: there is a result
that the model gives for all loop bounds from some on. (In exact arithmetic, where division by zero gives zero. Full statement: for all
constraints. False: see `C52_lbfgs_jump_never_returns`.) -/
theorem C52_lbfgs_solve_returns_partial (ls : LeastSquares ℝ) {counter : Nat} {ops : List (Op ℝ)} {c : Client ℝ} (h : Reaches counter ops c)
    (hcalm : ∀ con ∈ ((Store.empty ℝ).run ops).cons, con.Calm ∧ (((Store.empty ℝ).run ops).pointsOf con).Nodup) {ord : HashOrder} (hord : ord.Ok)
    {opts : SolvingOptions} (hd : opts.decomposer ≠ .recursiveAssembly) (ho : opts.optimizer = .lBfgs) :
    ∃ s' k, ∀ fuel, k ≤ fuel → c.sys.solve (crateOptimize ls fuel) ord opts = .ok s' := by
  have hr := h.crel.rel
  have hexpr : ∀ e ∈ c.sys.scaledExpressions, e.Continuous ∧ e.variableIndices.Nodup := by
    intro e he
    rw [System.scaledExpressions, List.mem_map] at he
    obtain ⟨e0, he0, rfl⟩ := he
    rw [hr.exprs, List.mem_flatMap] at he0
    obtain ⟨con, hcon, he0⟩ := he0
    obtain ⟨h1, h2⟩ := hcalm con hcon
    exact ⟨encCon_continuous h1 e0 he0 _, by rw [Expr.transform_variableIndices]; exact encCon_nodup hr (hr.wfCon con hcon) h2 e0 he0⟩
  choose lim hlim using fun p x => (lbfgs_keeps (F := ℝ) p x).settles
  have hsafe : Optimize.SafeFor c.sys.scaledExpressions False c.sys.expressions.length c.sys.vars.length
      (fun (o : Optimizer) p x => match o with | .lBfgs => lim p x | .levenbergMarquardt => .ok x) := by
    intro o sub x hsub hok hw hx
    cases o with
    | levenbergMarquardt => exact .inl ⟨x, rfl, hx⟩
    | lBfgs =>
      have hmem : ∀ {id e}, sub.allExpressions[id]? = some e → e ∈ c.sys.scaledExpressions := fun he => hsub ▸ List.mem_of_getElem? he
      obtain ⟨x', h1, k, h2⟩ := lbfgs_returns hok (fun id _ e he => (hexpr e (hmem he)).2) hx
        (fun _ _ _ _ _ _ id _ e he => .inl (hexpr e (hmem he)).1)
      exact .inl ⟨x', (hlim _ _).ok_of (lbfgs_keeps _ _) (h2 k le_rfl), h1⟩
  obtain ⟨s', h1⟩ : ∃ s', c.sys.solve (fun (o : Optimizer) p x => match o with | .lBfgs => lim p x | .levenbergMarquardt => .ok x) ord opts = .ok s' := by
    rcases h.solve_ends hsafe hord hd with ⟨s', h1, -⟩ | ⟨h1, -⟩
    · exact ⟨s', h1⟩
    · cases h1
  obtain ⟨k, hk⟩ := solve_settles (fam := crateOptimize ls) (opts := opts)
    (lim := fun o p x => match o with | .lBfgs => lim p x | .levenbergMarquardt => .ok x)
    (by rw [ho]; exact hlim) (fun hr => absurd hr hd) ord c.sys
  exact ⟨s', k, fun fuel hf => by rw [← h1]; exact hk fuel hf⟩

/-- Two lines that are to be perpendicular, with a point at a given distance from an end: the assumptions are met. -/
def crossOps : List (Op ℝ) :=
  [.createPoint 0 0, .createPoint 3 1, .createPoint 1 0, .createPoint 1 5, .createLine 0 1, .createLine 2 3,
   .createCon (.lineLinePerpendicularity 4 5), .createCon (.pointPointDistance 0 3 2)]

example : (∃ c, Reaches 0 crossOps c) ∧
    ∀ con ∈ ((Store.empty ℝ).run crossOps).cons, con.Calm ∧ (((Store.empty ℝ).run crossOps).pointsOf con).Nodup := by
  refine ⟨exists_reaches (F := ℝ) 0 crossOps (by
    simp [crossOps, Store.LegalRun, Store.Legal, Store.empty, Store.step, Store.IsPoint, Store.IsLine, Store.ConOk]) (by simp [crossOps]), ?_⟩
  intro con hcon
  simp [crossOps, Store.run, Store.empty, Store.step] at hcon ⊢
  rcases hcon with rfl | rfl <;> simp [Spec.Con.Calm, Store.pointsOf, Store.ends]

end Fiksi
