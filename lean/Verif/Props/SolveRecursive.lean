import Verif.Proofs.RecursiveTotal
import Verif.Props.LmQr
import Verif.Props.SuccessDistances
/-!
# C52, C53: `solve` with `Decomposer::RecursiveAssembly` returns once the plans exist
-/
namespace Fiksi

open Spec

set_option linter.unusedSectionVars false
variable {F : Type} [Add F] [Sub F] [Mul F] [Div F] [Neg F] [Zero F] [One F] [FloatOps F]

/-- On problems that are defined everywhere, with at most `m` residuals and `n` variables and with at most eight Jacobian entries per residual,
Levenberg–Marquardt does not panic and returns as many values as it was given; if `E`, it may also run for ever. -/
def Optimize.SafeSteps (E : Prop) (m n : Nat) (optimize : Optimize F) : Prop :=
  ∀ (p : Problem F) pattern x, p.Total pattern → p.numResiduals ≤ m → p.numVariables ≤ n → pattern.length ≤ 8 * p.numResiduals →
    x.length = p.numVariables → EndsIf E (fun x' => x'.length = p.numVariables) (optimize .levenbergMarquardt p x)

section
variable {counter : Nat} {ops : List (Op F)} {c : Client F} (h : Reaches counter ops c)
include h

theorem Reaches.varsBelow : VarsBelow c.sys.elements c.sys.vars.length := by
  intro e el he v hv
  exact h.varOf_lt (E := {e}) ⟨e, Finset.mem_singleton_self e, el, he, hv⟩

theorem Reaches.equation_lt {n i : Nat} (hi : ((Store.empty F).run ops).EquationOf n i) : i < c.sys.expressions.length := by
  obtain ⟨con, h6, h7, h8⟩ := hi
  have h9 : c.sys.expressions.length = (((Store.empty F).run ops).cons.map Spec.Con.equations).sum := by
    rw [h.crel.rel.exprs, flatMap_encCon_length]
  rw [h9]
  refine lt_of_lt_of_le h8 ?_
  unfold Store.firstEquation
  have h10 := List.take_append_drop n ((Store.empty F).run ops).cons
  have h11 : ((Store.empty F).run ops).cons.drop n = con :: ((Store.empty F).run ops).cons.drop (n + 1) := by
    rw [List.drop_eq_getElem_cons (lt_of_getElem? h6)]
    congr 1
    exact (List.getElem_eq_iff _).2 h6
  conv_rhs => rw [← h10, h11]
  simp only [List.map_append, List.sum_append, List.map_cons, List.sum_cons]
  omega

variable (hn : NeverJoins ((Store.empty F).run ops).arguments) {comp : Component} (hcomp : comp ∈ c.sys.graph.components) {ord : HashOrder} (hord : ord.Ok)
  {steps : List RecombinationStep} (hs : c.sys.recursivePlan ord comp = .ok steps)
include hn hcomp hord hs

/-- The problem of every step of a plan only refers to what exists. -/
theorem Reaches.step_sound {step : RecombinationStep} (hstep : step ∈ steps) {T : List F} (hT : T.length = c.sys.vars.length) {cs : ClusteredSystem} {values : List F}
    (hb : ClusteredSystem.build c.sys T step = .ok (cs, values)) (hbuilt : cs.Built c.sys step T.length values) : cs.Sound c.sys c.sys.scaledExpressions T := by
  have hr := h.crel.rel
  have hmap := build_mapped hr.separate hb
  refine ⟨fun id hid => ?_, hbuilt.poses, (build_counts hb).1, fun q hq p hp => ?_⟩
  · obtain ⟨es, h1, h2⟩ := build_expressions hb
    rw [h2] at hid
    obtain ⟨n, h3, h4⟩ := (mem_flatten_of_mapM hr h1 id).1 hid
    obtain ⟨e, he⟩ : ∃ e, c.sys.expressions[id]? = some e := ⟨_, List.getElem?_eq_getElem (h.equation_lt h4)⟩
    refine ⟨e.transform (1 / c.sys.scale), by rw [System.scaledExpressions, List.getElem?_map, he]; rfl, fun v hv => ?_⟩
    rw [Expr.transform_variableIndices] at hv
    obtain ⟨con, h5, h6⟩ := h.equation_in h4 he
    obtain ⟨p, h7, el, h8, h9, h10⟩ := hr.reads_prim (hr.wfCon con (List.mem_of_getElem? h5)) h6 hv
    have h11 := C49_step_has_arguments_partial h hn hcomp hord hs step hstep n h3 con h5 p h7
    have h12 : p ∈ cs.stepPlusFrontierElements := (build_solvedFor hb p).2 (.inl h11)
    have hlt : ∀ {w i}, cs.mapping.get? w = some i → i < cs.numVariables := fun hw => (hbuilt.mapping _ (IMap.mem_of_get? hw)).2
    rcases h10 with h10 | ⟨k, rfl⟩
    · obtain ⟨k, rfl⟩ := isPoint_iff.1 h10
      obtain ⟨u, h13, h14⟩ := hmap.point p h12 k h8
      simp only [EncodedElement.variableIndices, List.mem_cons, List.not_mem_nil, or_false] at h9
      rcases h9 with rfl | rfl
      · exact ⟨u, h13, hlt h13⟩
      · exact ⟨u + 1, h14, hlt h14⟩
    · obtain ⟨u, h13⟩ := hmap.length p h12 k h8
      simp only [EncodedElement.variableIndices, List.mem_cons, List.not_mem_nil, or_false] at h9
      subst h9
      exact ⟨u, h13, hlt h13⟩
  · obtain ⟨h1, ⟨k, h2⟩, -⟩ := build_tied hb q hq p hp
    obtain ⟨u, h3, h4⟩ := hmap.point p h1 k h2
    refine ⟨k, u, h2, ?_, h3, (hbuilt.mapping _ (IMap.mem_of_get? h4)).2⟩
    rw [hT]
    exact h.varsBelow p _ h2 _ (by simp [EncodedElement.variableIndices])

theorem Reaches.solveStep_ends {E : Prop} {L : Nat} {optimize : Optimize F} {step : RecombinationStep} (hstep : step ∈ steps)
    (hL : step.listing.length ≤ L) {scale : F} {st : SolveState F} (hst : st.Sized c.sys.vars.length)
    (ht : ∀ cs values pattern, ClusteredSystem.build c.sys st.transformed step = .ok (cs, values) → (cs.problem c.sys c.sys.scaledExpressions st.transformed).Total pattern →
      (cs.problem c.sys c.sys.scaledExpressions st.transformed).numResiduals ≤ c.sys.expressions.length + 2 * L →
      (cs.problem c.sys c.sys.scaledExpressions st.transformed).numVariables ≤ 3 * L + 2 * c.sys.elements.length →
      pattern.length ≤ 8 * (cs.problem c.sys c.sys.scaledExpressions st.transformed).numResiduals →
      values.length = (cs.problem c.sys c.sys.scaledExpressions st.transformed).numVariables →
      EndsIf E (fun x' => x'.length = (cs.problem c.sys c.sys.scaledExpressions st.transformed).numVariables)
        (optimize .levenbergMarquardt (cs.problem c.sys c.sys.scaledExpressions st.transformed) values)) :
    EndsIf E (fun st' => st'.Sized c.sys.vars.length) (solveStep optimize c.sys scale c.sys.scaledExpressions st step) := by
  have hr := h.crel.rel
  have hlen : c.sys.graph.elements.length = c.sys.elements.length := by
    rw [hr.elements_length]; exact hr.graph.elements
  have hreal : ∀ v ∈ comp.elements, v < c.sys.elements.length := fun v hv => by
    have h1 := (h.decomposeOk hcomp).verts v hv
    simpa [DCtx.nE, Graph.toD, hlen] using h1
  have hcons : ∀ n ∈ step.constraints, n < ((Store.empty F).run ops).cons.length := fun n hnm => by
    have h4 := (h.decomposeOk hcomp).edges n (((C49_constraints_once h hcomp hord hs).2 n).1 (List.mem_flatMap.2 ⟨step, hstep, hnm⟩))
    have h5 : c.sys.graph.constraints.length = ((Store.empty F).run ops).cons.length := by rw [hr.graphCons]; simp
    simpa [DCtx.nC, Graph.toD, h5] using h4
  have hel := (C49_elements_at_most_once_partial h hcomp hord hs).2 step hstep
  obtain ⟨hf1, hf2⟩ := decompose_fronted hord hs step hstep
  have hg : (c.sys.graph.toD).elements.length = c.sys.elements.length := by simp [Graph.toD, hlen]
  rw [hg] at hf1 hf2
  obtain ⟨cs, values, hb, hbuilt⟩ := build_ok (s := c.sys) (T := st.transformed) (step := step) (by rw [hst.2]; exact h.varsBelow)
    (fun n hnm => hr.constraintExpressions_ok (hcons n hnm)) (fun e he => hreal e (hel.2.2.1 e he)) hel.1 hf1 hf2
  have hsound := h.step_sound hn hcomp hord hs hstep hst.2 hb hbuilt
  have hexpr : cs.expressions.length ≤ c.sys.expressions.length := by
    obtain ⟨es, h1, h2⟩ := build_expressions hb
    rw [h2]
    have h3 : step.constraints.Nodup := (List.nodup_flatMap.1 (C49_constraints_once h hcomp hord hs).1).1 step hstep
    refine length_le_of_lt (flatten_nodup_of_mapM hr h3 h1) (fun id hid => ?_)
    obtain ⟨n, -, h4⟩ := (mem_flatten_of_mapM hr h1 id).1 hid
    exact h.equation_lt h4
  have hfew := build_few hb
  have hrows := hbuilt.rows
  have hvars := hbuilt.few
  rw [solveStep, hb, ok_bind]
  refine (ht cs values _ hb hsound.total ?_ ?_ ?_ hbuilt.values).bind (fun values' hv => ?_)
  · show cs.expressions.length + cs.numPoseExpressions ≤ _
    omega
  · show cs.numVariables ≤ _
    omega
  · exact cs.pattern_length _ _ hsound
  · have hv : values'.length = cs.numVariables := hv
    obtain ⟨tr, h5, h6⟩ := writeTransformed_ok (values := values') (l := cs.mapping) (vars := st.transformed)
      (fun p hp => ⟨(hbuilt.mapping p hp).1, by rw [hv]; exact (hbuilt.mapping p hp).2⟩)
    obtain ⟨vars, h7, h8⟩ := writeVars_ok (scale := scale) (values := values') (l := cs.mapping) (vars := st.vars)
      (fun p hp => ⟨by rw [hst.1, ← hst.2]; exact (hbuilt.mapping p hp).1, by rw [hv]; exact (hbuilt.mapping p hp).2⟩)
    simp only [h5, h7, ok_bind]
    refine EndsIf.foldlM (fun t : SolveState F => t.Sized c.sys.vars.length) _ _ _ ⟨h8.trans hst.1, h6.trans hst.2⟩ (fun t ck hck hs' => ?_)
    have hk : ck.2 < cs.clusters.length := by
      have := zipIdx_snd_lt hck
      simpa [IMap.keys] using this
    have hposes := hbuilt.poses
    rw [poseAt_ok (by rw [hv]; omega), ok_bind]
    refine EndsIf.foldlM (fun t : SolveState F => t.Sized c.sys.vars.length) _ _ _ hs' (fun t e he hs' => ?_)
    have hreal' : e < c.sys.elements.length := by
      cases hg : step.ownedElements.get? ck.1 with
      | none => rw [hg] at he; simp at he
      | some l =>
        rw [hg] at he
        exact hreal e ((decompose_names (h.decomposeOk hcomp) hord hs step hstep).owned.get hg e he)
    unfold moveElement
    split
    · exact .ok hs'
    · have hget := List.getElem?_eq_getElem hreal'
      have hbelow := h.varsBelow e _ hget
      rw [idx_of hget, ok_bind]
      cases hel' : c.sys.elements[e] with
      | point i =>
        rw [hel'] at hbelow
        have hi := hbelow i (by simp [EncodedElement.variableIndices])
        have hi' := hbelow (i + 1) (by simp [EncodedElement.variableIndices])
        have ht1 : i < t.transformed.length := by rw [hs'.2]; exact hi
        have ht2 : i + 1 < t.transformed.length := by rw [hs'.2]; exact hi'
        simp only [idx_of (List.getElem?_eq_getElem ht1), idx_of (List.getElem?_eq_getElem ht2), ok_bind]
        rw [setIdx_of _ ht1, ok_bind, setIdx_of _ (by simpa using ht2), ok_bind, setIdx_of _ (by rw [hs'.1]; exact hi), ok_bind,
          setIdx_of _ (by simpa [hs'.1] using hi'), ok_bind]
        exact .ok ⟨by simpa using hs'.1, by simpa using hs'.2⟩
      | length i => exact .ok hs'
      | line a b => exact .ok hs'
      | circle a b => exact .ok hs'

theorem Reaches.solveStep_ok {E : Prop} {L : Nat} {optimize : Optimize F}
    (ht : optimize.SafeSteps E (c.sys.expressions.length + 2 * L) (3 * L + 2 * c.sys.elements.length)) {step : RecombinationStep} (hstep : step ∈ steps)
    (hL : step.listing.length ≤ L) {scale : F} {st : SolveState F} (hst : st.Sized c.sys.vars.length) :
    EndsIf E (fun st' => st'.Sized c.sys.vars.length) (solveStep optimize c.sys scale c.sys.scaledExpressions st step) :=
  h.solveStep_ends hn hcomp hord hs hstep hL hst (fun _ _ _ _ h1 h2 h3 h4 h5 => ht _ _ _ h1 h2 h3 h4 h5)

end

/-- Every component with elements has a plan (with the iteration orders `solve` passes on), and no step of it lists more than `L` clusters for its
elements. -/
def System.Planned (s : System F) (ord : HashOrder) (L : Nat) : Prop :=
  ∀ ck ∈ s.graph.components.zipIdx, ck.1.elements.Nonempty →
    ∃ steps, s.recursivePlan (fun tag => ord (ck.2 :: 1 :: tag)) ck.1 = .ok steps ∧ ∀ step ∈ steps, (step.onFrontiers.flatMap Prod.snd).length ≤ L

section
variable {counter : Nat} {ops : List (Op F)} {c : Client F} (h : Reaches counter ops c)
include h

theorem Reaches.solve_ends_recursive (hn : NeverJoins ((Store.empty F).run ops).arguments) {ord : HashOrder} (hord : ord.Ok) {L : Nat} (hplan : c.sys.Planned ord L)
    {E : Prop} {optimize : Optimize F} (ht : optimize.SafeSteps E (c.sys.expressions.length + 2 * L) (3 * L + 2 * c.sys.elements.length))
    {opts : SolvingOptions} (hd : opts.decomposer = .recursiveAssembly) : EndsIf E (fun _ => True) (c.sys.solve optimize ord opts) := by
  have h1 := EndsIf.foldlM (E := E) (fun t : SolveState F => t.Sized c.sys.vars.length)
    (solveComponent optimize ord opts c.sys c.sys.scale c.sys.scaledExpressions) c.sys.graph.components.zipIdx
    ⟨c.sys.vars, c.sys.scaledVariables, 42, []⟩ ⟨rfl, by simp [System.scaledVariables]⟩
    (fun t ck hck hs => by
      have hc := mem_zipIdx_fst hck
      unfold solveComponent
      split
      · exact .ok hs
      · rename_i hne
        obtain ⟨free, h1⟩ := h.freeVariables_ok hc
        have hf : ∀ v ∈ free, v < c.sys.vars.length := fun v hv => h.varOf_lt ((freeVariables_spec h1 v).1 hv).1
        obtain ⟨st1, h2, h3⟩ := perturbFree_ok (opts := opts) hs hf
        obtain ⟨steps, h4, h5⟩ := hplan ck hck (Finset.nonempty_iff_ne_empty.2 hne)
        rw [h1, ok_bind, h2, ok_bind, hd]
        simp only [solveRecursive]
        rw [System.recursivePlan] at h4
        rw [h4, ok_bind]
        exact EndsIf.foldlM (fun t : SolveState F => t.Sized c.sys.vars.length) _ steps st1 h3 (fun t step hstep hs' =>
          h.solveStep_ok hn hc (ord := fun tag => ord (ck.2 :: 1 :: tag)) (fun tag s => hord _ s) h4 ht hstep (h5 step hstep) hs'))
  rw [System.solve, System.solveLoop]
  exact h1.bind (fun st _ => .ok trivial)

theorem Reaches.fits_steps {L : Nat} (hshort : ops.length < 2 ^ 22) (hL : L < 2 ^ 22) : ∀ m n k, m ≤ c.sys.expressions.length + 2 * L → n ≤ 3 * L + 2 * c.sys.elements.length →
    k ≤ 8 * m + n → FitsWorkspace m n k := by
  intro m n k hm hn' hk
  obtain ⟨h1, h2⟩ := run_size (Store.empty F) ops h.legal
  have h3 := h.crel.rel.elements_length
  have h4 : c.sys.expressions.length ≤ 2 * ((Store.empty F).run ops).cons.length := by
    rw [h.crel.rel.exprs, List.length_flatMap]
    have : ∀ l : List (Spec.Con F), (l.map (fun a => (encCon ((Store.empty F).run ops).elems a).length)).sum ≤ 2 * l.length := by
      intro l
      induction l with
      | nil => simp
      | cons a l ih =>
        have : (encCon ((Store.empty F).run ops).elems a).length ≤ 2 := by cases a <;> simp [encCon]
        simp only [List.map_cons, List.sum_cons, List.length_cons]
        omega
    exact this _
  have h5 : (Store.empty F).elems.length = 0 := rfl
  have h6 : (Store.empty F).cons.length = 0 := rfl
  unfold FitsWorkspace workspace
  omega

end

/-- C52, C53 (partial): `solve` with recursive assembly returns without a panic once the plans exist: for any legal history of fewer than 2^22 calls in which no constraint
joins two constrained parts, any iteration order, and either optimiser in the options, there is a result that the model gives for all loop bounds from some on.
(Full statement: for all histories and with the plans always existing; false, see `C53_recursive_panics`, `C49_missing_argument`.) -/
theorem C52_recursive_returns_partial (cast : ℝ → Int) {sort : SortByKey} (hsort : Sorts sort)
    {counter : Nat} {ops : List (Op ℝ)} {c : Client ℝ} (h : Reaches counter ops c) (hshort : ops.length < 2 ^ 22) (hn : NeverJoins ((Store.empty ℝ).run ops).arguments)
    {ord : HashOrder} (hord : ord.Ok) {L : Nat} (hL : L < 2 ^ 22) (hplan : c.sys.Planned ord L) {opts : SolvingOptions}
    (hd : opts.decomposer = .recursiveAssembly) :
    ∃ s' k, ∀ fuel, k ≤ fuel → c.sys.solve (crateOptimize (qrLeastSquares sort (colamdOfStructure cast)) fuel) ord opts = .ok s' := by
  have hkeeps := fun (p : Problem ℝ) x => levenbergMarquardt_keeps p (qrLeastSquares sort (colamdOfStructure cast)) x
  choose lim hlim using fun p x => (hkeeps p x).settles
  let limit : Optimize ℝ := fun o p x => match o with | .levenbergMarquardt => lim p x | .lBfgs => .ok x
  have hsafe : limit.SafeSteps False (c.sys.expressions.length + 2 * L) (3 * L + 2 * c.sys.elements.length) := by
    intro p pattern x hp hm hnv hpat hx
    obtain ⟨fuel, x', h1, h2⟩ := C53_lm_no_panic hp (qrColamd_exact cast hsort)
      (h.fits_steps hshort hL p.numResiduals p.numVariables (pattern.length + p.numVariables) hm hnv (by omega)) hx
    exact .inl ⟨x', (hlim _ _).ok_of (hkeeps _ _) h1, h2⟩
  obtain ⟨s', h1⟩ : ∃ s', c.sys.solve limit ord { opts with optimizer := .levenbergMarquardt } = .ok s' := by
    rcases h.solve_ends_recursive hn hord hplan hsafe (opts := { opts with optimizer := .levenbergMarquardt }) hd with ⟨s', h1, -⟩ | ⟨h1, -⟩
    · exact ⟨s', h1⟩
    · cases h1
  obtain ⟨k, hk⟩ := solve_settles (fam := crateOptimize (qrLeastSquares sort (colamdOfStructure cast))) (opts := { opts with optimizer := .levenbergMarquardt })
    (lim := limit) hlim (fun _ => hlim) ord c.sys
  refine ⟨s', k, fun fuel hf => ?_⟩
  rw [← h1, ← hk fuel hf]
  have hopt : ∀ st ck, solveComponent (crateOptimize (qrLeastSquares sort (colamdOfStructure cast)) fuel) ord opts c.sys c.sys.scale c.sys.scaledExpressions st ck =
      solveComponent (crateOptimize (qrLeastSquares sort (colamdOfStructure cast)) fuel) ord { opts with optimizer := .levenbergMarquardt } c.sys c.sys.scale
        c.sys.scaledExpressions st ck := by
    intro st ck
    simp only [solveComponent, hd]
    rfl
  have hfun : solveComponent (crateOptimize (qrLeastSquares sort (colamdOfStructure cast)) fuel) ord opts c.sys c.sys.scale c.sys.scaledExpressions =
      solveComponent (crateOptimize (qrLeastSquares sort (colamdOfStructure cast)) fuel) ord { opts with optimizer := .levenbergMarquardt } c.sys c.sys.scale
        c.sys.scaledExpressions := funext fun st => funext fun ck => hopt st ck
  simp only [System.solve, System.solveLoop, hfun]

/-- C53 (partial): the same for a fixed loop bound: `solve` with recursive assembly gives a result, or the loop bound of the model is too small. -/
theorem C53_recursive_no_panic_partial {counter : Nat} {ops : List (Op F)} {c : Client F} (h : Reaches counter ops c) (hn : NeverJoins ((Store.empty F).run ops).arguments)
    {ord : HashOrder} (hord : ord.Ok) {L : Nat} (hplan : c.sys.Planned ord L) {E : Prop} {optimize : Optimize F}
    (ht : optimize.SafeSteps E (c.sys.expressions.length + 2 * L) (3 * L + 2 * c.sys.elements.length)) {opts : SolvingOptions}
    (hd : opts.decomposer = .recursiveAssembly) :
    (∃ s', c.sys.solve optimize ord opts = .ok s') ∨ (E ∧ c.sys.solve optimize ord opts = .error .outOfFuel) := by
  rcases h.solve_ends_recursive hn hord hplan ht hd with ⟨s', h1, -⟩ | h1
  · exact .inl ⟨s', h1⟩
  · exact .inr h1

/-- Case: two distances between three points. -/
example : ∃ c : Client ℝ, Reaches 0 strandOps c ∧ NeverJoins ((Store.empty ℝ).run strandOps).arguments ∧ c.sys.Planned ascendingOrder 100 := by
  obtain ⟨c, h⟩ := exists_reaches 0 strandOps (by
    simp [strandOps, Store.LegalRun, Store.Legal, Store.empty, Store.step, Store.IsPoint, Store.ConOk]) (by simp [strandOps])
  refine ⟨c, h, strand_neverJoins, fun ck hck _ => ?_⟩
  rw [strand_components h] at hck
  simp only [List.zipIdx_cons, List.zipIdx_nil, List.mem_singleton] at hck
  subst hck
  exact ⟨_, strand_plan h, by simp [strandStep, chainStep]⟩

end Fiksi
