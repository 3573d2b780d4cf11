import Verif.Model.Solve
import Verif.Proofs.DecomposeNames
import Verif.Props.Decompose
import Verif.Props.Plan
/-!
# What `solve` writes and which equations it hands to the optimiser
-/
namespace Fiksi

open Spec

/-! ## Lists that differ at most in some places -/

/-- `l'` has the length of `l` and differs from it at most at the places in `W`. -/
def Frame {α : Type} (W : Nat → Prop) (l l' : List α) : Prop := l'.length = l.length ∧ ∀ v, ¬ W v → l'[v]? = l[v]?

theorem Frame.refl {α : Type} (W : Nat → Prop) (l : List α) : Frame W l l := ⟨rfl, fun _ _ => rfl⟩

theorem Frame.trans {α : Type} {W : Nat → Prop} {a b c : List α} (h : Frame W a b) (h' : Frame W b c) : Frame W a c :=
  ⟨h'.1.trans h.1, fun v hv => (h'.2 v hv).trans (h.2 v hv)⟩

theorem Frame.mono {α : Type} {W W' : Nat → Prop} {a b : List α} (h : Frame W a b) (hw : ∀ v, W v → W' v) : Frame W' a b :=
  ⟨h.1, fun v hv => h.2 v (fun hc => hv (hw v hc))⟩

theorem Frame.setIdx {α : Type} {W : Nat → Prop} {l l' l'' : List α} {i : Nat} {a : α} (h : Frame W l l') (hi : W i)
    (hs : setIdx l' i a = .ok l'') : Frame W l l'' := by
  rw [setIdx_eq_ok] at hs
  obtain ⟨-, rfl⟩ := hs
  refine h.trans ⟨by simp, fun v hv => ?_⟩
  rw [List.getElem?_set_ne]
  rintro rfl
  exact hv hi

theorem mapM_forall {α β : Type} {f : α → R β} : ∀ {l : List α} {r : List β}, l.mapM f = .ok r →
    List.Forall₂ (fun a b => f a = .ok b) l r := by
  intro l
  induction l with
  | nil => intro r h; cases h; exact .nil
  | cons a l ih =>
    intro r h
    rw [List.mapM_cons, bind_eq_ok] at h
    obtain ⟨b, h1, h⟩ := h
    rw [bind_eq_ok] at h
    obtain ⟨bs, h2, h⟩ := h
    cases h
    exact .cons h1 (ih h2)

theorem forall₂_mem {α β : Type} {P : α → β → Prop} {l : List α} {r : List β} (h : List.Forall₂ P l r) {a : α} (ha : a ∈ l) :
    ∃ b ∈ r, P a b := by
  induction h with
  | nil => cases ha
  | cons h1 _ ih =>
    rcases List.mem_cons.1 ha with rfl | ha
    · exact ⟨_, List.mem_cons_self, h1⟩
    · obtain ⟨b, h2, h3⟩ := ih ha
      exact ⟨b, List.mem_cons_of_mem _ h2, h3⟩

section
variable {F : Type} [Add F] [Sub F] [Mul F] [Div F] [Neg F] [Zero F] [One F] [FloatOps F]

/-- The values of the state differ at most in the places in `W`. -/
structure SolveState.Frame (W : Nat → Prop) (st st' : SolveState F) : Prop where
  vars : Fiksi.Frame W st.vars st'.vars
  transformed : Fiksi.Frame W st.transformed st'.transformed

theorem SolveState.Frame.refl (W : Nat → Prop) (st : SolveState F) : st.Frame W st := ⟨.refl W _, .refl W _⟩

theorem SolveState.Frame.trans {W : Nat → Prop} {a b c : SolveState F} (h : a.Frame W b) (h' : b.Frame W c) : a.Frame W c :=
  ⟨h.1.trans h'.1, h.2.trans h'.2⟩

theorem SolveState.Frame.mono {W W' : Nat → Prop} {a b : SolveState F} (h : a.Frame W b) (hw : ∀ v, W v → W' v) : a.Frame W' b :=
  ⟨h.1.mono hw, h.2.mono hw⟩

theorem writeVars_frame {W : Nat → Prop} {scale : F} {values : List F} {l : List (Nat × Nat)} {vars vars' : List F}
    (hl : ∀ p ∈ l, W p.1) (h : l.foldlM (writeVars scale values) vars = .ok vars') : Frame W vars vars' := by
  refine foldlM_inv (fun v => Frame W vars v) _ _ _ _ (.refl W _) (fun v p v' hp hv h1 => ?_) h
  rw [writeVars, bind_eq_ok] at h1
  obtain ⟨x, -, h1⟩ := h1
  exact hv.setIdx (hl p hp) h1

theorem writeTransformed_frame {W : Nat → Prop} {values : List F} {l : List (Nat × Nat)} {vars vars' : List F}
    (hl : ∀ p ∈ l, W p.1) (h : l.foldlM (writeTransformed values) vars = .ok vars') : Frame W vars vars' := by
  refine foldlM_inv (fun v => Frame W vars v) _ _ _ _ (.refl W _) (fun v p v' hp hv h1 => ?_) h
  rw [writeTransformed, bind_eq_ok] at h1
  obtain ⟨x, -, h1⟩ := h1
  exact hv.setIdx (hl p hp) h1

theorem mem_zipIdx_fst {α : Type} {l : List α} {p : α × Nat} (h : p ∈ l.zipIdx) : p.1 ∈ l := by
  obtain ⟨a, i⟩ := p
  exact List.mem_of_getElem? (List.mem_zipIdx_iff_getElem?.1 h)

theorem perturbFree_spec {opts : SolvingOptions} {free : Finset Nat} {st st' : SolveState F}
    (h : perturbFree opts free st = .ok st') : st.Frame (· ∈ free) st' ∧ st'.calls = st.calls := by
  unfold perturbFree at h
  split at h
  · refine foldlM_inv (fun s => st.Frame (· ∈ free) s ∧ s.calls = st.calls) _ _ _ _ ⟨.refl _ _, rfl⟩
      (fun s v s' hv hs h1 => ?_) h
    rw [perturbVariable, bind_eq_ok] at h1
    obtain ⟨x, -, h1⟩ := h1
    rw [bind_eq_ok] at h1
    obtain ⟨t, h2, h1⟩ := h1
    cases h1
    exact ⟨⟨hs.1.1, hs.1.2.setIdx ((mem_ascending _ _).1 hv) h2⟩, hs.2⟩
  · cases h; exact ⟨.refl _ _, rfl⟩

theorem solveWhole_spec {optimize : Optimize F} {opts : SolvingOptions} {s : System F} {scale : F} {exprs : List (Expr F)}
    {constraints free : Finset Nat} {st st' : SolveState F}
    (h : solveWhole optimize opts s scale exprs constraints free st = .ok st') :
    st.Frame (· ∈ free) st' ∧ ∃ es, (ascending constraints).mapM s.constraintExpressions = .ok es ∧
      st'.calls = st.calls ++ [es.flatten] := by
  rw [solveWhole, bind_eq_ok] at h
  obtain ⟨values, -, h⟩ := h
  rw [bind_eq_ok] at h
  obtain ⟨es, h1, h⟩ := h
  rw [bind_eq_ok] at h
  obtain ⟨values', -, h⟩ := h
  rw [bind_eq_ok] at h
  obtain ⟨vars, h2, h⟩ := h
  cases h
  exact ⟨⟨writeVars_frame (fun p hp => (mem_ascending _ _).1 (mem_zipIdx_fst hp)) h2, .refl _ _⟩, es, h1, rfl⟩

theorem solveBlock_spec {optimize : Optimize F} {opts : SolvingOptions} {scale : F} {exprs : List (Expr F)}
    {freeList expressions : List Nat} {st st' : SolveState F}
    (h : solveBlock optimize opts scale exprs freeList expressions st = .ok st') :
    st.Frame (· ∈ freeList) st' ∧ st'.calls = st.calls ++ [expressions] := by
  rw [solveBlock, bind_eq_ok] at h
  obtain ⟨values, -, h⟩ := h
  rw [bind_eq_ok] at h
  obtain ⟨values', -, h⟩ := h
  rw [bind_eq_ok] at h
  obtain ⟨tr, h1, h⟩ := h
  rw [bind_eq_ok] at h
  obtain ⟨vars, h2, h⟩ := h
  cases h
  exact ⟨⟨writeVars_frame (fun p hp => mem_zipIdx_fst hp) h2, writeTransformed_frame (fun p hp => mem_zipIdx_fst hp) h1⟩, rfl⟩

/-- A loop that appends one entry to `calls` in each iteration. -/
theorem foldlM_calls {α : Type} {W : Nat → Prop} (f : SolveState F → α → R (SolveState F)) (g : α → List Nat → Prop) :
    ∀ (l : List α) (st st' : SolveState F),
      (∀ a ∈ l, ∀ s s', f s a = .ok s' → s.Frame W s' ∧ ∃ e, g a e ∧ s'.calls = s.calls ++ [e]) →
      l.foldlM f st = .ok st' → st.Frame W st' ∧ ∃ es, List.Forall₂ g l es ∧ st'.calls = st.calls ++ es := by
  intro l
  induction l with
  | nil =>
    intro st st' _ h
    cases h
    exact ⟨.refl _ _, [], .nil, by simp⟩
  | cons a l ih =>
    intro st st' hf h
    rw [List.foldlM_cons, bind_eq_ok] at h
    obtain ⟨s1, h1, h2⟩ := h
    obtain ⟨h3, e, h4, h5⟩ := hf a List.mem_cons_self st s1 h1
    obtain ⟨h6, es, h7, h8⟩ := ih s1 st' (fun a ha => hf a (List.mem_cons_of_mem _ ha)) h2
    exact ⟨h3.trans h6, e :: es, .cons h4 h7, by rw [h8, h5]; simp⟩

theorem forall₂_map_eq {α β : Type} {f : α → β} {l : List α} {r : List β} (h : List.Forall₂ (fun a b => b = f a) l r) :
    r = l.map f := by
  induction h with
  | nil => rfl
  | cons h1 _ ih => rw [h1, ih]; rfl

theorem solveSinglePass_spec {optimize : Optimize F} {ord : HashOrder} (hord : ord.Ok) {opts : SolvingOptions} {s : System F}
    {scale : F} {exprs : List (Expr F)} {component : Nat} {free : Finset Nat} {st st' : SolveState F} {blocks : List Block}
    (hb : s.equationGraph.findStronglyConnectedExpressions free = .ok blocks) (hf : ∀ b ∈ blocks, b.freeVariables ⊆ free)
    (h : solveSinglePass optimize ord opts s scale exprs component free st = .ok st') :
    st.Frame (· ∈ free) st' ∧ st'.calls = st.calls ++ blocks.map (·.expressions) := by
  rw [solveSinglePass, hb, ok_bind] at h
  obtain ⟨h1, es, h2, h3⟩ := foldlM_calls (W := (· ∈ free)) _ (fun bi e => e = bi.1.expressions) blocks.zipIdx st st'
    (fun bi hbi s s' hs => by
      obtain ⟨h1, h2⟩ := solveBlock_spec hs
      exact ⟨h1.mono (fun v hv => hf bi.1 (mem_zipIdx_fst hbi) (((hord _ _).2 v).1 hv)), _, rfl, h2⟩) h
  refine ⟨h1, ?_⟩
  rw [h3, forall₂_map_eq h2]
  congr 1
  show blocks.zipIdx.map ((fun b : Block => b.expressions) ∘ Prod.fst) = _
  rw [← List.map_map, List.zipIdx_map_fst]

/-! ## Recursive assembly -/

/-- `v` is a variable of one of the elements in `E`. -/
def System.VarOf (s : System F) (E : Finset Nat) (v : Nat) : Prop :=
  ∃ i ∈ E, ∃ el, s.elements[i]? = some el ∧ v ∈ el.variableIndices

theorem followClusters_mem {elements : List EncodedElement} {step : RecombinationStep} {E : Finset Nat}
    (hn : step.frontierElements.Names E) : ∀ (fuel i : Nat) (st : List Nat × List Nat) (l : List Nat), (∀ v ∈ st.2, v ∈ E) →
      followClusters elements step fuel i st = .ok l → ∀ v ∈ l, v ∈ E := by
  intro fuel
  induction fuel with
  | zero => intro i st l _ h; simp [followClusters] at h
  | succ fuel ih =>
    intro i st l hs h
    rw [followClusters] at h
    split at h
    · cases h; exact hs
    · rw [bind_eq_ok] at h
      obtain ⟨fr, h1, h⟩ := h
      rw [bind_eq_ok] at h
      obtain ⟨st1, h2, h⟩ := h
      rw [unwrap_eq_ok] at h1
      refine ih _ _ _ (foldlM_inv (fun st : List Nat × List Nat => ∀ v ∈ st.2, v ∈ E) _ _ _ _ hs (fun st el st' hel hst h3 => ?_) h2) h
      rw [followElement, bind_eq_ok] at h3
      obtain ⟨e, -, h3⟩ := h3
      split at h3
      · simp only at h3
        split at h3 <;> cases h3
        · intro v hv
          rcases List.mem_append.1 hv with hv | hv
          · exact hst v hv
          · rw [List.mem_singleton.1 hv]; exact hn.get h1 el hel
        · exact hst
      · cases h3; exact hst

/-- What `ClusteredSystem::build` guarantees about indices. -/
structure ClusteredSystem.Names (cs : ClusteredSystem) (s : System F) (E : Finset Nat) : Prop where
  elements : ∀ v ∈ cs.stepPlusFrontierElements, v ∈ E
  mapping : ∀ p ∈ cs.mapping, s.VarOf E p.1

theorem build_names {s : System F} {transformed : List F} {step : RecombinationStep} {E : Finset Nat} {cs : ClusteredSystem}
    {values : List F} (he : ∀ v ∈ step.elements, v ∈ E) (hn : step.Names E)
    (h : ClusteredSystem.build s transformed step = .ok (cs, values)) :
    cs.Names s E ∧ ∃ es, step.constraints.mapM s.constraintExpressions = .ok es ∧ cs.expressions = es.flatten := by
  rw [ClusteredSystem.build, bind_eq_ok] at h
  obtain ⟨es, hes, h⟩ := h
  rw [bind_eq_ok] at h
  obtain ⟨reach, -, h⟩ := h
  rw [bind_eq_ok] at h
  obtain ⟨elements, h1, h⟩ := h
  rw [bind_eq_ok] at h
  obtain ⟨⟨clusters, np⟩, -, h⟩ := h
  rw [bind_eq_ok] at h
  obtain ⟨⟨mapping, vs⟩, h2, h⟩ := h
  cases h
  have hel := followClusters_mem hn.front _ _ _ _ he h1
  refine ⟨⟨hel, ?_⟩, es, hes, rfl⟩
  refine foldlM_inv (fun st : IMap Nat Nat × List F => ∀ p ∈ st.1, s.VarOf E p.1) _ _ _ _ (by simp) (fun st i st' hi hst h3 => ?_) h2
  rw [addElementVariables, bind_eq_ok] at h3
  obtain ⟨el, h4, h3⟩ := h3
  rw [idx_eq_ok] at h4
  cases el with
  | length k =>
    simp only [bind_eq_ok] at h3
    obtain ⟨x, -, h3⟩ := h3
    cases h3
    intro p hp
    rcases IMap.mem_insert hp with hp | rfl
    · exact hst p hp
    · exact ⟨i, hel i hi, _, h4, by simp [EncodedElement.variableIndices]⟩
  | point k =>
    simp only [bind_eq_ok] at h3
    obtain ⟨x, -, y, -, h3⟩ := h3
    cases h3
    intro p hp
    rcases IMap.mem_insert hp with hp | rfl
    · rcases IMap.mem_insert hp with hp | rfl
      · exact hst p hp
      · exact ⟨i, hel i hi, _, h4, by simp [EncodedElement.variableIndices]⟩
    · exact ⟨i, hel i hi, _, h4, by simp [EncodedElement.variableIndices]⟩
  | line a b => cases h3; exact hst
  | circle a b => cases h3; exact hst

theorem moveElement_spec {s : System F} {scale : F} {elements : List Nat} {pose : Pose2D F} {st st' : SolveState F} {i : Nat}
    {E : Finset Nat} (hi : i ∈ E) (h : moveElement s scale elements pose st i = .ok st') :
    st.Frame (s.VarOf E) st' ∧ st'.calls = st.calls := by
  unfold moveElement at h
  split at h
  · cases h; exact ⟨.refl _ _, rfl⟩
  · rw [bind_eq_ok] at h
    obtain ⟨el, h1, h⟩ := h
    rw [idx_eq_ok] at h1
    cases el with
    | point k =>
      simp only [bind_eq_ok] at h
      obtain ⟨x, -, y, -, t1, h2, t2, h3, v1, h4, v2, h5, h⟩ := h
      cases h
      have w0 : s.VarOf E k := ⟨i, hi, _, h1, by simp [EncodedElement.variableIndices]⟩
      have w1 : s.VarOf E (k + 1) := ⟨i, hi, _, h1, by simp [EncodedElement.variableIndices]⟩
      exact ⟨⟨((Frame.refl _ _).setIdx w0 h4).setIdx w1 h5, ((Frame.refl _ _).setIdx w0 h2).setIdx w1 h3⟩, rfl⟩
    | length k => cases h; exact ⟨.refl _ _, rfl⟩
    | line a b => cases h; exact ⟨.refl _ _, rfl⟩
    | circle a b => cases h; exact ⟨.refl _ _, rfl⟩

theorem solveStep_spec {optimize : Optimize F} {s : System F} {scale : F} {exprs : List (Expr F)} {st st' : SolveState F}
    {step : RecombinationStep} {E : Finset Nat} (he : ∀ v ∈ step.elements, v ∈ E) (hn : step.Names E)
    (h : solveStep optimize s scale exprs st step = .ok st') :
    st.Frame (s.VarOf E) st' ∧ ∃ es, step.constraints.mapM s.constraintExpressions = .ok es ∧
      st'.calls = st.calls ++ [es.flatten] := by
  rw [solveStep, bind_eq_ok] at h
  obtain ⟨⟨cs, values⟩, h1, h⟩ := h
  obtain ⟨hcs, es, hes, hce⟩ := build_names he hn h1
  simp only at h
  rw [bind_eq_ok] at h
  obtain ⟨values', -, h⟩ := h
  rw [bind_eq_ok] at h
  obtain ⟨tr, h2, h⟩ := h
  rw [bind_eq_ok] at h
  obtain ⟨vars, h3, h⟩ := h
  have h4 : st.Frame (s.VarOf E) { st with vars := vars, transformed := tr, calls := st.calls ++ [cs.expressions] } :=
    ⟨writeVars_frame hcs.mapping h3, writeTransformed_frame hcs.mapping h2⟩
  have := foldlM_inv (fun t : SolveState F => st.Frame (s.VarOf E) t ∧ t.calls = st.calls ++ [cs.expressions]) _ _ _ _ ⟨h4, rfl⟩
    (fun t ck t' _ ht h5 => by
      rw [bind_eq_ok] at h5
      obtain ⟨pose, -, h5⟩ := h5
      refine foldlM_inv (fun t : SolveState F => st.Frame (s.VarOf E) t ∧ t.calls = st.calls ++ [cs.expressions]) _ _ _ _ ht
        (fun t i t' hi ht h6 => ?_) h5
      have hiE : i ∈ E := by
        cases hg : step.ownedElements.get? ck.1 with
        | none => rw [hg] at hi; simp at hi
        | some l => rw [hg] at hi; exact hn.owned.get hg i hi
      obtain ⟨h7, h8⟩ := moveElement_spec hiE h6
      exact ⟨ht.1.trans h7, h8.trans ht.2⟩) h
  exact ⟨this.1, es, hes, by rw [this.2, hce]⟩

theorem solveRecursive_spec {optimize : Optimize F} {ord : HashOrder} (hord : ord.Ok) {s : System F}
    {scale : F} {exprs : List (Expr F)} {component : Nat} {comp : Component} {st st' : SolveState F}
    (hok : DCtx.Ok ⟨s.graph.toD, comp.elements, comp.constraints⟩)
    (h : solveRecursive optimize ord s scale exprs component comp st = .ok st') :
    st.Frame (s.VarOf comp.elements) st' ∧ ∃ steps, s.recursivePlan (fun tag => ord (component :: 1 :: tag)) comp = .ok steps ∧
      ∃ es, List.Forall₂ (fun (step : RecombinationStep) e => ∃ l, step.constraints.mapM s.constraintExpressions = .ok l ∧ e = l.flatten) steps es ∧
        st'.calls = st.calls ++ es := by
  rw [solveRecursive, bind_eq_ok] at h
  obtain ⟨steps, h1, h⟩ := h
  have hord' : HashOrder.Ok (fun tag => ord (component :: 1 :: tag)) := fun tag s => hord _ s
  have hp := decompose_plan hok hord' h1
  have hn := decompose_names hok hord' h1
  obtain ⟨h2, es, h3, h4⟩ := foldlM_calls (W := s.VarOf comp.elements) _
    (fun (step : RecombinationStep) e => ∃ l, step.constraints.mapM s.constraintExpressions = .ok l ∧ e = l.flatten) steps st st'
    (fun step hst t t' ht => by
      obtain ⟨h5, es, h6, h7⟩ := solveStep_spec (hp.ok step hst).elems (hn step hst) ht
      exact ⟨h5, _, ⟨es, h6, rfl⟩, h7⟩) h
  exact ⟨h2, steps, h1, es, h3, h4⟩

/-! ## Components -/

theorem freeVariables_spec {s : System F} {E free : Finset Nat} (h : s.freeVariables E = .ok free) (v : Nat) :
    v ∈ free ↔ s.VarOf E v ∧ v ∉ s.fixedVariables := by
  have key : ∀ (l : List Nat) (f f' : Finset Nat), l.foldlM (fun (free : Finset Nat) elementId => do
      let element ← idx s.elements elementId
      pure (free ∪ (element.variableIndices.toFinset \ s.fixedVariables))) f = .ok f' →
      (v ∈ f' ↔ v ∈ f ∨ ((∃ i ∈ l, ∃ el, s.elements[i]? = some el ∧ v ∈ el.variableIndices) ∧ v ∉ s.fixedVariables)) := by
    intro l
    induction l with
    | nil => intro f f' h; cases h; simp
    | cons a l ih =>
      intro f f' h
      rw [List.foldlM_cons, bind_eq_ok] at h
      obtain ⟨f1, h1, h2⟩ := h
      rw [bind_eq_ok] at h1
      obtain ⟨el, h3, h1⟩ := h1
      cases h1
      rw [idx_eq_ok] at h3
      rw [ih _ _ h2]
      simp only [Finset.mem_union, Finset.mem_sdiff, List.mem_toFinset, List.mem_cons, exists_eq_or_imp, h3, Option.some.injEq,
        exists_eq_left']
      tauto
  have := key _ _ _ h
  rw [this]
  simp [System.VarOf, mem_ascending]

/-- The variables `solve` may write for a component. -/
def System.Writes (s : System F) (opts : SolvingOptions) (comp : Component) (v : Nat) : Prop :=
  s.VarOf comp.elements v ∧ (opts.decomposer ≠ .recursiveAssembly → v ∉ s.fixedVariables)

/-- The calls of the optimiser made for a component with elements: one with all equations; one per step of the plan. -/
def System.CallsFor (s : System F) (ord : HashOrder) (opts : SolvingOptions) (component : Nat) (comp : Component)
    (calls : List (List Nat)) : Prop :=
  match opts.decomposer with
  | .none => ∃ es, (ascending comp.constraints).mapM s.constraintExpressions = .ok es ∧ calls = [es.flatten]
  | .singlePass => ∃ free blocks, s.freeVariables comp.elements = .ok free ∧
      s.equationGraph.findStronglyConnectedExpressions free = .ok blocks ∧ calls = blocks.map (·.expressions)
  | .recursiveAssembly => ∃ steps, s.recursivePlan (fun tag => ord (component :: 1 :: tag)) comp = .ok steps ∧
      List.Forall₂ (fun (step : RecombinationStep) e => ∃ l, step.constraints.mapM s.constraintExpressions = .ok l ∧ e = l.flatten)
        steps calls

theorem solveComponent_spec {optimize : Optimize F} {ord : HashOrder} (hord : ord.Ok) {opts : SolvingOptions} {s : System F}
    {scale : F} {exprs : List (Expr F)} {st st' : SolveState F} {ck : Component × Nat}
    (hok : DCtx.Ok ⟨s.graph.toD, ck.1.elements, ck.1.constraints⟩)
    (hblocks : ∀ free blocks, s.freeVariables ck.1.elements = .ok free →
      s.equationGraph.findStronglyConnectedExpressions free = .ok blocks → ∀ b ∈ blocks, b.freeVariables ⊆ free)
    (h : solveComponent optimize ord opts s scale exprs st ck = .ok st') :
    st.Frame (s.Writes opts ck.1) st' ∧ ∃ calls, st'.calls = st.calls ++ calls ∧
      (ck.1.elements = ∅ → calls = []) ∧ (ck.1.elements ≠ ∅ → s.CallsFor ord opts ck.2 ck.1 calls) := by
  unfold solveComponent at h
  split at h
  · next he => cases h; exact ⟨.refl _ _, [], by simp, fun _ => rfl, fun hne => absurd he hne⟩
  · next he =>
    rw [bind_eq_ok] at h
    obtain ⟨free, hfree, h⟩ := h
    have hf := freeVariables_spec hfree
    rw [bind_eq_ok] at h
    obtain ⟨st1, h1, h⟩ := h
    obtain ⟨h2, h3⟩ := perturbFree_spec h1
    have h2 := h2.mono (W' := s.Writes opts ck.1) (fun v hv => ⟨((hf v).1 hv).1, fun _ => ((hf v).1 hv).2⟩)
    cases hd : opts.decomposer with
    | none =>
      rw [hd] at h
      obtain ⟨h4, es, h5, h6⟩ := solveWhole_spec h
      refine ⟨h2.trans (h4.mono (fun v hv => ⟨((hf v).1 hv).1, fun _ => ((hf v).1 hv).2⟩)), [es.flatten], by rw [h6, h3],
        fun hc => absurd hc he, fun _ => ?_⟩
      rw [System.CallsFor, hd]
      exact ⟨es, h5, rfl⟩
    | singlePass =>
      rw [hd] at h
      obtain ⟨blocks, hb⟩ : ∃ blocks, s.equationGraph.findStronglyConnectedExpressions free = .ok blocks := by
        simp only at h
        rw [solveSinglePass, bind_eq_ok] at h
        exact ⟨_, h.choose_spec.1⟩
      obtain ⟨h4, h6⟩ := solveSinglePass_spec hord hb (hblocks free blocks hfree hb) h
      refine ⟨h2.trans (h4.mono (fun v hv => ⟨((hf v).1 hv).1, fun _ => ((hf v).1 hv).2⟩)), _, by rw [h6, h3],
        fun hc => absurd hc he, fun _ => ?_⟩
      rw [System.CallsFor, hd]
      exact ⟨free, blocks, hfree, hb, rfl⟩
    | recursiveAssembly =>
      rw [hd] at h
      obtain ⟨h4, steps, h5, es, h6, h7⟩ := solveRecursive_spec hord hok h
      refine ⟨h2.trans (h4.mono (fun v hv => ⟨hv, fun hc => absurd hd hc⟩)), es, by rw [h7, h3],
        fun hc => absurd hc he, fun _ => ?_⟩
      rw [System.CallsFor, hd]
      exact ⟨steps, h5, h6⟩

theorem Reaches.varOf_lt {counter : Nat} {ops : List (Op F)} {c : Client F} (h : Reaches counter ops c) {E : Finset Nat} {v : Nat}
    (hv : c.sys.VarOf E v) : v < c.sys.vars.length := by
  obtain ⟨i, -, el, h1, h2⟩ := hv
  have hr := h.crel.rel
  have hi : i < ((Store.empty F).run ops).elems.length := by rw [← hr.elements_length]; exact lt_of_getElem? h1
  obtain ⟨e, he⟩ : ∃ e, ((Store.empty F).run ops).elems[i]? = some e := ⟨_, List.getElem?_eq_getElem hi⟩
  have hok := hr.wfElem i e he
  rw [hr.element_at he] at h1
  cases h1
  have hle : ∀ {j : Nat} {e' : Elem F}, ((Store.empty F).run ops).elems[j]? = some e' →
      off ((Store.empty F).run ops).elems j + (elemValues e').length ≤ c.sys.vars.length := by
    intro j e' he'
    rw [hr.vars]
    exact off_add_le _ he'
  cases e with
  | length x =>
    have := hle he
    simp only [encElem, EncodedElement.variableIndices, elemValues, List.mem_singleton, List.length_cons, List.length_nil] at h2 this
    omega
  | point x y =>
    have := hle he
    simp only [encElem, EncodedElement.variableIndices, elemValues, List.mem_cons, List.not_mem_nil, or_false, List.length_cons,
      List.length_nil] at h2 this
    omega
  | line p q =>
    obtain ⟨⟨x, y, hp⟩, x', y', hq⟩ := hok
    have h3 := hle hp
    have h4 := hle hq
    simp only [encElem, EncodedElement.variableIndices, elemValues, List.mem_cons, List.not_mem_nil, or_false, List.length_cons,
      List.length_nil] at h2 h3 h4
    omega
  | circle p q =>
    obtain ⟨⟨x, y, hp⟩, x', hq⟩ := hok
    have h3 := hle hp
    have h4 := hle hq
    simp only [encElem, EncodedElement.variableIndices, elemValues, List.mem_cons, List.not_mem_nil, or_false, List.length_cons,
      List.length_nil] at h2 h3 h4
    omega

theorem Reaches.blocks_free {counter : Nat} {ops : List (Op F)} {c : Client F} (h : Reaches counter ops c) {E free : Finset Nat}
    {blocks : List Block} (hf : c.sys.freeVariables E = .ok free)
    (hb : c.sys.equationGraph.findStronglyConnectedExpressions free = .ok blocks) : ∀ b ∈ blocks, b.freeVariables ⊆ free := by
  obtain ⟨plan', h1, h2⟩ := C21_plan_steps_independent h (free := free)
    (fun v hv => h.varOf_lt ((freeVariables_spec hf v).1 hv).1)
  rw [hb] at h1
  cases h1
  intro b hb
  exact h2.free (b.freeVariables, b.expressions) (by unfold stepsOf; exact List.mem_map_of_mem hb)

/-- The loop over the components, for a reachable system. -/
theorem Reaches.solveLoop_spec {counter : Nat} {ops : List (Op F)} {c : Client F} (h : Reaches counter ops c)
    {optimize : Optimize F} {ord : HashOrder} (hord : ord.Ok) {opts : SolvingOptions} {st : SolveState F}
    (hs : c.sys.solveLoop optimize ord opts = .ok st) :
    Frame (fun v => ∃ comp ∈ c.sys.graph.components, c.sys.Writes opts comp v) c.sys.vars st.vars ∧
      ∃ calls, List.Forall₂ (fun (ck : Component × Nat) (l : List (List Nat)) => (ck.1.elements = ∅ → l = []) ∧
        (ck.1.elements ≠ ∅ → c.sys.CallsFor ord opts ck.2 ck.1 l)) c.sys.graph.components.zipIdx calls ∧ st.calls = calls.flatten := by
  unfold System.solveLoop at hs
  have key : ∀ (l : List (Component × Nat)) (st st' : SolveState F), (∀ ck ∈ l, ck.1 ∈ c.sys.graph.components) →
      l.foldlM (solveComponent optimize ord opts c.sys c.sys.scale c.sys.scaledExpressions) st = .ok st' →
      st.Frame (fun v => ∃ comp ∈ c.sys.graph.components, c.sys.Writes opts comp v) st' ∧
        ∃ calls, List.Forall₂ (fun (ck : Component × Nat) (l : List (List Nat)) => (ck.1.elements = ∅ → l = []) ∧
        (ck.1.elements ≠ ∅ → c.sys.CallsFor ord opts ck.2 ck.1 l)) l calls ∧ st'.calls = st.calls ++ calls.flatten := by
    intro l
    induction l with
    | nil => intro st st' _ h; cases h; exact ⟨.refl _ _, [], .nil, by simp⟩
    | cons ck l ih =>
      intro st st' hl hf
      rw [List.foldlM_cons, bind_eq_ok] at hf
      obtain ⟨st1, h1, h2⟩ := hf
      have hck := hl ck List.mem_cons_self
      obtain ⟨h3, calls, h4, h5, h6⟩ := solveComponent_spec hord (h.decomposeOk hck)
        (fun free blocks hf hb => h.blocks_free hf hb) h1
      obtain ⟨h7, calls', h8, h9⟩ := ih st1 st' (fun ck hck => hl ck (List.mem_cons_of_mem _ hck)) h2
      refine ⟨(h3.mono (fun v hv => ⟨ck.1, hck, hv⟩)).trans h7, calls :: calls', .cons ⟨h5, h6⟩ h8, ?_⟩
      rw [h9, h4]
      simp
  obtain ⟨h1, calls, h2, h3⟩ := key _ _ _ (fun ck hck => mem_zipIdx_fst hck) hs
  exact ⟨h1.vars, calls, h2, by simpa using h3⟩

end

end Fiksi
