import Verif.Props.Solve
import Verif.Props.LmNan
import Verif.Props.Lbfgs
/-!
# C53: `solve` does not panic with the decomposers `None` and `SinglePass`
-/
namespace Fiksi

set_option linter.unusedSectionVars false
variable {F : Type} [Add F] [Sub F] [Mul F] [Div F] [Neg F] [Zero F] [One F] [FloatOps F]

open Spec

/-- `x` has a result with `P`, or, if `E` allows that, it runs for longer than the model looks. -/
def EndsIf {α : Type} (E : Prop) (P : α → Prop) (x : R α) : Prop := (∃ a, x = .ok a ∧ P a) ∨ (E ∧ x = .error .outOfFuel)

theorem EndsIf.ok {α : Type} {E : Prop} {P : α → Prop} {a : α} (h : P a) : EndsIf E P (.ok a) := .inl ⟨a, rfl, h⟩

theorem EndsIf.bind {α β : Type} {E : Prop} {P : α → Prop} {Q : β → Prop} {x : R α} {f : α → R β} (h : EndsIf E P x)
    (hf : ∀ a, P a → EndsIf E Q (f a)) : EndsIf E Q (x >>= f) := by
  rcases h with ⟨a, rfl, h⟩ | ⟨hE, rfl⟩
  · exact hf a h
  · exact .inr ⟨hE, rfl⟩

theorem EndsIf.foldlM {α β : Type} {E : Prop} (P : β → Prop) (f : β → α → R β) (l : List α) (s : β) (hs : P s)
    (hf : ∀ s a, a ∈ l → P s → EndsIf E P (f s a)) : EndsIf E P (l.foldlM f s) := by
  induction l generalizing s with
  | nil => exact .ok hs
  | cons a l ih =>
    rw [List.foldlM_cons]
    exact (hf s a List.mem_cons_self hs).bind (fun s' h => ih s' h (fun s a ha => hf s a (List.mem_cons_of_mem _ ha)))

/-- The subsystem has at most `m` expressions and `n` free variables. -/
def Subsystem.Within (m n : Nat) (sub : Subsystem F) : Prop := sub.expressions.length ≤ m ∧ sub.freeVariables.length ≤ n

/-- On the problems `solve` poses, with at most `m` expressions and `n` free variables, the optimiser does not panic and returns as many values as
it was given; if `E`, it may also run for ever. -/
def Optimize.Safe (E : Prop) (m n : Nat) (optimize : Optimize F) : Prop :=
  ∀ o (sub : Subsystem F) x, sub.Ok → sub.Within m n → x.length = sub.problem.numVariables →
    EndsIf E (fun x' => x'.length = sub.problem.numVariables) (optimize o sub.problem x)

/-- The same for problems with the expressions `exprs`. -/
def Optimize.SafeFor (exprs : List (Expr F)) (E : Prop) (m n : Nat) (optimize : Optimize F) : Prop :=
  ∀ o (sub : Subsystem F) x, sub.allExpressions = exprs → sub.Ok → sub.Within m n → x.length = sub.problem.numVariables →
    EndsIf E (fun x' => x'.length = sub.problem.numVariables) (optimize o sub.problem x)

theorem Optimize.Safe.safeFor {E : Prop} {m n : Nat} {optimize : Optimize F} (h : optimize.Safe E m n) (exprs : List (Expr F)) :
    optimize.SafeFor exprs E m n := fun o sub x _ => h o sub x

theorem mapM_idx_ok {α : Type} {l : List α} {is : List Nat} (h : ∀ i ∈ is, i < l.length) :
    ∃ r, is.mapM (idx l) = .ok r ∧ r.length = is.length := by
  induction is with
  | nil => exact ⟨[], rfl, rfl⟩
  | cons i is ih =>
    obtain ⟨r, h1, h2⟩ := ih (fun i hi => h i (List.mem_cons_of_mem _ hi))
    have h3 : idx l i = .ok _ := idx_of (List.getElem?_eq_getElem (h i List.mem_cons_self))
    exact ⟨_ :: r, by rw [List.mapM_cons, h3, ok_bind, h1, ok_bind]; rfl, by simp [h2]⟩

theorem mapM_ok_exists {α β : Type} {f : α → R β} {l : List α} (h : ∀ a ∈ l, ∃ b, f a = .ok b) : ∃ r, l.mapM f = .ok r := by
  induction l with
  | nil => exact ⟨[], rfl⟩
  | cons a l ih =>
    obtain ⟨b, hb⟩ := h a List.mem_cons_self
    obtain ⟨r, hr⟩ := ih (fun a ha => h a (List.mem_cons_of_mem _ ha))
    exact ⟨b :: r, by rw [List.mapM_cons, hb, ok_bind, hr]; rfl⟩

theorem writeVars_ok {scale : F} {values : List F} {l : List (Nat × Nat)} {vars : List F}
    (h1 : ∀ p ∈ l, p.1 < vars.length ∧ p.2 < values.length) :
    ∃ vars', l.foldlM (writeVars scale values) vars = .ok vars' ∧ vars'.length = vars.length := by
  refine foldlM_ok (fun v : List F => v.length = vars.length) (writeVars scale values) l vars rfl (fun v p hp hv => ?_)
  have h2 : idx values p.2 = .ok _ := idx_of (List.getElem?_eq_getElem (h1 p hp).2)
  rw [writeVars, h2, ok_bind, setIdx_of _ (by rw [hv]; exact (h1 p hp).1)]
  exact ⟨_, rfl, by simpa using hv⟩

theorem writeTransformed_ok {values : List F} {l : List (Nat × Nat)} {vars : List F}
    (h1 : ∀ p ∈ l, p.1 < vars.length ∧ p.2 < values.length) :
    ∃ vars', l.foldlM (writeTransformed values) vars = .ok vars' ∧ vars'.length = vars.length := by
  refine foldlM_ok (fun v : List F => v.length = vars.length) (writeTransformed values) l vars rfl (fun v p hp hv => ?_)
  have h2 : idx values p.2 = .ok _ := idx_of (List.getElem?_eq_getElem (h1 p hp).2)
  rw [writeTransformed, h2, ok_bind, setIdx_of _ (by rw [hv]; exact (h1 p hp).1)]
  exact ⟨_, rfl, by simpa using hv⟩

theorem zipIdx_snd_lt {α : Type} {l : List α} {p : α × Nat} (h : p ∈ l.zipIdx) : p.2 < l.length := by
  obtain ⟨a, i⟩ := p
  exact lt_of_getElem? (List.mem_zipIdx_iff_getElem?.1 h)

/-- Both vectors have one entry per variable. -/
def SolveState.Sized (n : Nat) (st : SolveState F) : Prop := st.vars.length = n ∧ st.transformed.length = n

/-- The expressions exist and refer to variables below `n`. -/
def ExprsOk (exprs : List (Expr F)) (n : Nat) (ids : List Nat) : Prop :=
  ∀ id ∈ ids, ∃ e, exprs[id]? = some e ∧ ∀ v ∈ e.variableIndices, v < n

theorem solveBlock_ok {E : Prop} {m k : Nat} {optimize : Optimize F} {exprs : List (Expr F)} (ht : optimize.SafeFor exprs E m k) {opts : SolvingOptions} {scale : F}
    {freeList expressions : List Nat} {st : SolveState F} {n : Nat} (hst : st.Sized n) (hf : ∀ v ∈ freeList, v < n)
    (he : ExprsOk exprs n expressions) (hm : expressions.length ≤ m) (hk : freeList.length ≤ k) :
    EndsIf E (fun st' => st'.Sized n) (solveBlock optimize opts scale exprs freeList expressions st) := by
  obtain ⟨values, h1, h2⟩ := mapM_idx_ok (l := st.transformed) (is := freeList) (by rw [hst.2]; exact hf)
  have hok : Subsystem.Ok ⟨st.transformed, exprs, expressions, freeList⟩ := by
    intro id hid
    rw [hst.2]
    exact he id hid
  rw [solveBlock, h1, ok_bind]
  refine (ht opts.optimizer _ values rfl hok ⟨hm, hk⟩ h2).bind (fun values' h4 => ?_)
  have h4 : values'.length = freeList.length := h4
  obtain ⟨tr, h5, h6⟩ := writeTransformed_ok (values := values') (l := freeList.zipIdx) (vars := st.transformed)
    (fun p hp => ⟨by rw [hst.2]; exact hf _ (mem_zipIdx_fst hp), by rw [h4]; exact zipIdx_snd_lt hp⟩)
  obtain ⟨vars, h7, h8⟩ := writeVars_ok (scale := scale) (values := values') (l := freeList.zipIdx) (vars := st.vars)
    (fun p hp => ⟨by rw [hst.1]; exact hf _ (mem_zipIdx_fst hp), by rw [h4]; exact zipIdx_snd_lt hp⟩)
  rw [h5, ok_bind, h7, ok_bind]
  exact .ok ⟨h8.trans hst.1, h6.trans hst.2⟩

theorem solveWhole_ok {E : Prop} {m k : Nat} {optimize : Optimize F} {exprs : List (Expr F)} (ht : optimize.SafeFor exprs E m k) {opts : SolvingOptions} {s : System F} {scale : F}
    {constraints free : Finset Nat} {st : SolveState F} {n : Nat} (hst : st.Sized n) (hf : ∀ v ∈ free, v < n)
    {es : List (List Nat)} (hes : (ascending constraints).mapM s.constraintExpressions = .ok es) (he : ExprsOk exprs n es.flatten)
    (hm : es.flatten.length ≤ m) (hk : (ascending free).length ≤ k) :
    EndsIf E (fun st' => st'.Sized n) (solveWhole optimize opts s scale exprs constraints free st) := by
  have hf' : ∀ v ∈ ascending free, v < n := fun v hv => hf v ((mem_ascending _ _).1 hv)
  obtain ⟨values, h1, h2⟩ := mapM_idx_ok (l := st.transformed) (is := ascending free) (by rw [hst.2]; exact hf')
  have hok : Subsystem.Ok ⟨st.transformed, exprs, es.flatten, ascending free⟩ := by
    intro id hid
    rw [hst.2]
    exact he id hid
  rw [solveWhole, h1, ok_bind, hes, ok_bind]
  refine (ht opts.optimizer _ values rfl hok ⟨hm, hk⟩ h2).bind (fun values' h4 => ?_)
  have h4 : values'.length = (ascending free).length := h4
  obtain ⟨vars, h7, h8⟩ := writeVars_ok (scale := scale) (values := values') (l := (ascending free).zipIdx) (vars := st.vars)
    (fun p hp => ⟨by rw [hst.1]; exact hf' _ (mem_zipIdx_fst hp), by rw [h4]; exact zipIdx_snd_lt hp⟩)
  rw [h7, ok_bind]
  exact .ok ⟨h8.trans hst.1, hst.2⟩

theorem perturbFree_ok {opts : SolvingOptions} {free : Finset Nat} {st : SolveState F} {n : Nat} (hst : st.Sized n)
    (hf : ∀ v ∈ free, v < n) : ∃ st', perturbFree opts free st = .ok st' ∧ st'.Sized n := by
  unfold perturbFree
  split
  · refine foldlM_ok (fun t : SolveState F => t.Sized n) perturbVariable (ascending free) st hst (fun t v hv h => ?_)
    have hv := hf v ((mem_ascending _ _).1 hv)
    have h1 : idx t.transformed v = .ok _ := idx_of (List.getElem?_eq_getElem (by rw [h.2]; exact hv))
    rw [perturbVariable, h1, ok_bind]
    simp only
    rw [setIdx_of _ (by rw [h.2]; exact hv), ok_bind]
    exact ⟨_, rfl, h.1, by simpa using h.2⟩
  · exact ⟨st, rfl, hst⟩

theorem Expr.transform_variableIndices (k : F) (e : Expr F) : (e.transform k).variableIndices = e.variableIndices := by
  cases e <;> rfl

theorem Reaches.freeVariables_ok {counter : Nat} {ops : List (Op F)} {c : Client F} (h : Reaches counter ops c) {comp : Component}
    (hc : comp ∈ c.sys.graph.components) : ∃ free, c.sys.freeVariables comp.elements = .ok free := by
  have := foldlM_ok (fun _ : Finset Nat => True) (fun (free : Finset Nat) elementId => do
    let element ← idx c.sys.elements elementId
    pure (free ∪ (element.variableIndices.toFinset \ c.sys.fixedVariables))) (ascending comp.elements) ∅ trivial (fun f i hi _ => by
      have h1 := (h.decomposeOk hc).verts i ((mem_ascending _ _).1 hi)
      have h2 : i < c.sys.elements.length := by
        have h3 : c.sys.graph.elements.length = c.sys.elements.length := by
          rw [h.crel.rel.elements_length]; exact h.crel.rel.graph.elements
        simpa [DCtx.nE, Graph.toD, h3] using h1
      rw [idx_of (List.getElem?_eq_getElem h2)]
      exact ⟨_, rfl, trivial⟩)
  obtain ⟨f, h1, -⟩ := this
  exact ⟨f, h1⟩

/-- An expression of the system, scaled. -/
theorem Reaches.exprsOk {counter : Nat} {ops : List (Op F)} {c : Client F} (h : Reaches counter ops c) {ids : List Nat}
    (hid : ∀ id ∈ ids, id < c.sys.expressions.length) : ExprsOk c.sys.scaledExpressions c.sys.vars.length ids := by
  intro id hi
  have h1 := List.getElem?_eq_getElem (hid id hi)
  refine ⟨(c.sys.expressions[id]'(hid id hi)).transform (1 / c.sys.scale), by rw [System.scaledExpressions, List.getElem?_map, h1]; rfl,
    fun v hv => ?_⟩
  rw [Expr.transform_variableIndices] at hv
  obtain ⟨l, h2, -⟩ := (h.consistent v id).2 (by
    unfold ExprGraph.Reads
    rw [h.crel.rel.eqGraph.expressions, List.getElem?_map, h1]
    exact ⟨_, rfl, hv⟩)
  have := lt_of_getElem? h2
  rwa [h.crel.rel.eqGraph.varsLength] at this

theorem length_le_of_lt {l : List Nat} {n : Nat} (h : l.Nodup) (hn : ∀ x ∈ l, x < n) : l.length ≤ n := by
  have := (h.subperm (fun x hx => List.mem_range.2 (hn x hx))).length_le
  rwa [List.length_range] at this

theorem Spec.Store.firstEquation_next {F : Type} (st : Spec.Store F) {n n' : Nat} {con : Spec.Con F} (h : st.cons[n]? = some con) (hn : n < n') :
    st.firstEquation n + con.equations ≤ st.firstEquation n' := by
  unfold Store.firstEquation
  have h1 : st.cons.take n' = st.cons.take n ++ (st.cons.drop n).take (n' - n) := by
    conv_lhs => rw [← List.take_append_drop n st.cons]
    rw [List.take_append, List.take_of_length_le (by rw [List.length_take]; omega), List.length_take, Nat.min_eq_left (lt_of_getElem? h).le]
  have h2 : st.cons.drop n = con :: st.cons.drop (n + 1) := by
    rw [List.drop_eq_getElem_cons (lt_of_getElem? h)]
    congr 1
    exact (List.getElem_eq_iff _).2 h
  rw [h1, h2, show n' - n = n' - n - 1 + 1 by omega, List.take_succ_cons]
  simp only [List.map_append, List.sum_append, List.map_cons, List.sum_cons]
  omega

/-- No equation belongs to two constraints. -/
theorem Spec.Store.EquationOf.unique {F : Type} {st : Spec.Store F} {n n' e : Nat} (h : st.EquationOf n e) (h' : st.EquationOf n' e) : n = n' := by
  obtain ⟨con, a1, a2, a3⟩ := h
  obtain ⟨con', b1, b2, b3⟩ := h'
  rcases Nat.lt_trichotomy n n' with hlt | rfl | hgt
  · have := st.firstEquation_next a1 hlt
    omega
  · rfl
  · have := st.firstEquation_next b1 hgt
    omega

theorem flatten_nodup_of_mapM {s : System F} {st : Store F} (hr : Rel s st) : ∀ {ns : List Nat} {es : List (List Nat)},
    ns.Nodup → ns.mapM s.constraintExpressions = .ok es → es.flatten.Nodup := by
  intro ns
  induction ns with
  | nil => intro es _ h; cases h; simp
  | cons n ns ih =>
    intro es hn h
    rw [List.mapM_cons, bind_eq_ok] at h
    obtain ⟨l, h1, h⟩ := h
    rw [bind_eq_ok] at h
    obtain ⟨ls, h2, h⟩ := h
    cases h
    rw [List.nodup_cons] at hn
    rw [List.flatten_cons, List.nodup_append]
    refine ⟨?_, ih hn.2 h2, ?_⟩
    · rw [System.constraintExpressions, bind_eq_ok] at h1
      obtain ⟨k, -, h1⟩ := h1
      cases h1
      exact List.nodup_range.map (fun a b h => by simpa using h)
    · rintro a ha b hb rfl
      obtain ⟨n', h3, h4⟩ := (mem_flatten_of_mapM hr h2 a).1 hb
      exact hn.1 (((hr.constraintExpressions h1 a).1 ha).unique h4 ▸ h3)

/-- The expressions of a component with `Decomposer::None`. -/
theorem Reaches.whole_calls {counter : Nat} {ops : List (Op F)} {c : Client F} (h : Reaches counter ops c) {comp : Component} (hc : comp ∈ c.sys.graph.components) :
    ∃ es, (ascending comp.constraints).mapM c.sys.constraintExpressions = .ok es ∧ (∀ id ∈ es.flatten, id < c.sys.expressions.length) ∧
      es.flatten.length ≤ c.sys.expressions.length := by
  have hr := h.crel.rel
  have hcons : ∀ n ∈ ascending comp.constraints, n < ((Store.empty F).run ops).cons.length := fun n hn => by
    have h4 := (h.decomposeOk hc).edges n ((mem_ascending _ _).1 hn)
    have h5 : c.sys.graph.constraints.length = ((Store.empty F).run ops).cons.length := by rw [hr.graphCons]; simp
    simpa [DCtx.nC, Graph.toD, h5] using h4
  obtain ⟨es, h4⟩ := mapM_ok_exists (f := c.sys.constraintExpressions) (l := ascending comp.constraints)
    (fun n hn => hr.constraintExpressions_ok (hcons n hn))
  suffices hlt : ∀ id ∈ es.flatten, id < c.sys.expressions.length from
    ⟨es, h4, hlt, length_le_of_lt (flatten_nodup_of_mapM hr (ascending_nodup _) h4) hlt⟩
  intro id hid
  obtain ⟨n, -, con, h6, h7, h8⟩ := (mem_flatten_of_mapM hr h4 id).1 hid
  have h9 : c.sys.expressions.length = (((Store.empty F).run ops).cons.map Spec.Con.equations).sum := by
    rw [hr.exprs, flatMap_encCon_length]
  rw [h9]
  refine lt_of_lt_of_le h8 ?_
  unfold Store.firstEquation
  have h10 := List.take_append_drop n ((Store.empty F).run ops).cons
  have h11 : ((Store.empty F).run ops).cons.drop n = con :: ((Store.empty F).run ops).cons.drop (n + 1) := by
    rw [List.drop_eq_getElem_cons (lt_of_getElem? h6)]
    congr 1
    exact (List.getElem_eq_iff _).2 h6
  conv_rhs => rw [← h10, h11]
  simp only [List.map_append, List.sum_append, List.map_cons, List.sum_cons]
  omega

/-- The blocks of a component with `Decomposer::SinglePass`. -/
theorem Reaches.block_calls {counter : Nat} {ops : List (Op F)} {c : Client F} (h : Reaches counter ops c) {free : Finset Nat} (hf : ∀ v ∈ free, v < c.sys.vars.length) :
    ∃ blocks, c.sys.equationGraph.findStronglyConnectedExpressions free = .ok blocks ∧ ∀ b ∈ blocks, (∀ v ∈ b.freeVariables, v ∈ free) ∧
      (∀ id ∈ b.expressions, id < c.sys.expressions.length) ∧ b.expressions.length ≤ c.sys.expressions.length := by
  obtain ⟨blocks, M, h4, hM, -, hnd, h5, h6, -⟩ := h.plan hf
  refine ⟨blocks, h4, fun b hb => ?_⟩
  have hmem : b.expressions ∈ (stepsOf blocks).map Prod.snd := List.mem_map.2 ⟨(b.freeVariables, b.expressions),
    by unfold stepsOf; exact List.mem_map_of_mem hb, rfl⟩
  suffices hlt : ∀ id ∈ b.expressions, id < c.sys.expressions.length from
    ⟨fun v hv => h6.free (b.freeVariables, b.expressions) (by unfold stepsOf; exact List.mem_map_of_mem hb) hv, hlt,
      length_le_of_lt (List.nodup_flatten.1 hnd |>.1 _ hmem) hlt⟩
  intro id hid
  obtain ⟨v, hv⟩ := (h5 id).1 (List.mem_flatten.2 ⟨b.expressions, hmem, hid⟩)
  obtain ⟨-, ex, h7, -⟩ := hM.1.1 _ hv
  exact lt_of_getElem? h7

theorem Reaches.solveComponent_ok {counter : Nat} {ops : List (Op F)} {c : Client F} (h : Reaches counter ops c)
    {E : Prop} {optimize : Optimize F} (ht : optimize.SafeFor c.sys.scaledExpressions E c.sys.expressions.length c.sys.vars.length) {ord : HashOrder} (hord : ord.Ok) {opts : SolvingOptions}
    (hd : opts.decomposer ≠ .recursiveAssembly) {st : SolveState F} (hst : st.Sized c.sys.vars.length) {ck : Component × Nat}
    (hc : ck.1 ∈ c.sys.graph.components) :
    EndsIf E (fun st' => st'.Sized c.sys.vars.length)
      (solveComponent optimize ord opts c.sys c.sys.scale c.sys.scaledExpressions st ck) := by
  unfold solveComponent
  split
  · exact .ok hst
  · obtain ⟨free, h1⟩ := h.freeVariables_ok hc
    have hf : ∀ v ∈ free, v < c.sys.vars.length := fun v hv => h.varOf_lt ((freeVariables_spec h1 v).1 hv).1
    obtain ⟨st1, h2, h3⟩ := perturbFree_ok (opts := opts) hst hf
    rw [h1, ok_bind, h2, ok_bind]
    cases hdec : opts.decomposer with
    | none =>
      obtain ⟨es, h4, h5, h6⟩ := h.whole_calls hc
      exact solveWhole_ok ht h3 hf h4 (h.exprsOk h5) h6 (length_le_of_lt (ascending_nodup _) (fun v hv => hf v ((mem_ascending _ _).1 hv)))
    | singlePass =>
      obtain ⟨blocks, h4, h5⟩ := h.block_calls hf
      show EndsIf E _ (solveSinglePass optimize ord opts c.sys c.sys.scale c.sys.scaledExpressions ck.2 free st1)
      rw [solveSinglePass, h4, ok_bind]
      refine EndsIf.foldlM (fun t : SolveState F => t.Sized c.sys.vars.length) (fun (st : SolveState F) (bi : Block × Nat) =>
        solveBlock optimize opts c.sys.scale c.sys.scaledExpressions (ord [ck.2, 0, bi.2] bi.1.freeVariables) bi.1.expressions st)
        blocks.zipIdx st1 h3 (fun t bi hbi hs => ?_)
      obtain ⟨h6, h7, h8⟩ := h5 _ (mem_zipIdx_fst hbi)
      have hlt : ∀ v ∈ ord [ck.2, 0, bi.2] bi.1.freeVariables, v < c.sys.vars.length := fun v hv => hf v (h6 v (((hord _ _).2 v).1 hv))
      exact solveBlock_ok ht hs hlt (h.exprsOk h7) h8 (length_le_of_lt (hord _ _).1 hlt)
    | recursiveAssembly => exact absurd hdec hd

theorem Reaches.solve_ends {counter : Nat} {ops : List (Op F)} {c : Client F} (h : Reaches counter ops c) {E : Prop}
    {optimize : Optimize F} (ht : optimize.SafeFor c.sys.scaledExpressions E c.sys.expressions.length c.sys.vars.length) {ord : HashOrder} (hord : ord.Ok) {opts : SolvingOptions}
    (hd : opts.decomposer ≠ .recursiveAssembly) : EndsIf E (fun _ => True) (c.sys.solve optimize ord opts) := by
  have h1 := EndsIf.foldlM (E := E) (fun t : SolveState F => t.Sized c.sys.vars.length)
    (solveComponent optimize ord opts c.sys c.sys.scale c.sys.scaledExpressions) c.sys.graph.components.zipIdx
    ⟨c.sys.vars, c.sys.scaledVariables, 42, []⟩ ⟨rfl, by simp [System.scaledVariables]⟩
    (fun t ck hck hs => h.solveComponent_ok ht hord hd hs (mem_zipIdx_fst hck))
  rw [System.solve, System.solveLoop]
  exact h1.bind (fun st _ => .ok trivial)

/-- C53 (partial): with the decomposers `None` and `SinglePass`, `solve` returns without a panic after any legal history, for any
iteration order of the hash sets and any optimiser that returns without a panic by itself. (Full statement: for all decomposers; false,
see `C53_recursive_panics`.) -/
theorem C53_solve_no_panic_partial {counter : Nat} {ops : List (Op F)} {c : Client F} (h : Reaches counter ops c)
    {optimize : Optimize F} (ht : optimize.Safe False c.sys.expressions.length c.sys.vars.length) {ord : HashOrder} (hord : ord.Ok) {opts : SolvingOptions}
    (hd : opts.decomposer ≠ .recursiveAssembly) : ∃ s', c.sys.solve optimize ord opts = .ok s' := by
  rcases h.solve_ends (ht.safeFor _) hord hd with ⟨s', h1, -⟩ | ⟨h1, -⟩
  · exact ⟨s', h1⟩
  · cases h1

/-! ## Levenberg–Marquardt with an exact linear solver meets the assumption -/

section
variable {F : Type} [Add F] [Sub F] [Mul F] [Div F] [Neg F] [Zero F] [One F] [FloatOps F]

theorem lmTrial_length {vars delta scratch scratch' : List F} {l : List Nat}
    (h : l.foldlM (lmTrial vars delta) scratch = .ok scratch') : scratch'.length = scratch.length := by
  refine foldlM_inv (fun s : List F => s.length = scratch.length) (lmTrial vars delta) l scratch scratch' rfl (fun s i s' _ hs h1 => ?_) h
  simp only [lmTrial, bind_eq_ok, setIdx_eq_ok] at h1
  obtain ⟨_, -, _, -, -, rfl⟩ := h1
  simpa using hs

theorem lmInner_length {p : Problem F} {ls : LeastSquares F} {sym : ls.Symbolic} {n : Nat} :
    ∀ (fuel : Nat) (st : LmState F) (stop : Bool) (st' : LmState F), st.vars.length = n → st.scratch.length = n →
      lmInner p ls sym fuel st = .ok (stop, st') → st'.vars.length = n ∧ st'.scratch.length = n := by
  intro fuel
  induction fuel with
  | zero => intro st stop st' _ _ h; cases h
  | succ fuel ih =>
    intro st stop st' h1 h2 h
    rw [lmInner, bind_eq_ok] at h
    obtain ⟨solved, -, h⟩ := h
    cases solved with
    | none => exact ih { st with lambda := st.lambda * FloatOps.ofNat 8 } stop st' h1 h2 h
    | some b =>
      simp only at h
      split at h
      · cases h; exact ⟨h1, h2⟩
      · rw [bind_eq_ok] at h
        obtain ⟨scratch, h3, h⟩ := h
        have h4 := (lmTrial_length h3).trans h2
        rw [bind_eq_ok] at h
        obtain ⟨r, -, h⟩ := h
        split at h
        · rw [lmAccept] at h
          simp only at h
          split at h
          · cases h; exact ⟨h4, h4⟩
          · rw [bind_eq_ok] at h
            obtain ⟨rt, -, h⟩ := h
            cases h
            exact ⟨h4, h4⟩
        · exact ih { st with scratch := scratch, lambda := st.lambda * FloatOps.ofNat 2 } stop st' h1 h4 h

theorem lmOuter_length {p : Problem F} {ls : LeastSquares F} {sym : ls.Symbolic} {fuel n : Nat} :
    ∀ (k : Nat) (st st' : LmState F), st.vars.length = n → st.scratch.length = n →
      lmOuter p ls sym fuel k st = .ok st' → st'.vars.length = n := by
  intro k
  induction k with
  | zero => intro st st' h1 _ h; cases h; exact h1
  | succ k ih =>
    intro st st' h1 h2 h
    rw [lmOuter] at h
    split at h
    · cases h; exact h1
    · rw [bind_eq_ok] at h
      obtain ⟨⟨stop, st1⟩, h3, h⟩ := h
      obtain ⟨h4, h5⟩ := lmInner_length fuel st stop st1 h1 h2 h3
      simp only at h
      split at h
      · cases h; exact h4
      · exact ih st1 st' h4 h5 h

end

/-- With an exact linear solver, Levenberg–Marquardt returns without a panic, with as many values as it was given. -/
theorem C53_lm_no_panic {p : Problem ℝ} {pattern : List (Nat × Nat)} (hp : p.Total pattern) {S : Nat → Nat → Nat → Prop} {ls : LeastSquares ℝ}
    (hls : ls.Exact S) (hS : S p.numResiduals p.numVariables (pattern.length + p.numVariables))
    {x : List ℝ} (hx : x.length = p.numVariables) :
    ∃ fuel x', levenbergMarquardt p ls fuel x = .ok x' ∧ x'.length = p.numVariables := by
  obtain ⟨r, hr, -⟩ := hp.residuals x hx
  obtain ⟨f, hf⟩ := pow_unbounded_of_one_lt ((r.map (fun v => v * v)).sum * 10 ^ 62) (by norm_num : (1 : ℝ) < 2)
  have h0 : (0 : ℝ) < 2 ^ f := by positivity
  obtain ⟨st, hst⟩ := C52_returns_partial hp hls hS hx hr (f := f) (by linarith)
  refine ⟨f + 1, st.vars, by rw [levenbergMarquardt, hst]; rfl, ?_⟩
  rw [lmRun, bind_eq_ok] at hst
  obtain ⟨⟨st0, sym⟩, h1, h2⟩ := hst
  rw [lmStart, bind_eq_ok] at h1
  obtain ⟨rt, -, h1⟩ := h1
  rw [bind_eq_ok] at h1
  obtain ⟨sym', -, h1⟩ := h1
  cases h1
  exact lmOuter_length 100 _ st hx hx h2

/-- Case: an optimiser as assumed by `C53_solve_no_panic_partial` that runs Levenberg–Marquardt. -/
example : ∃ (ls : LeastSquares ℝ) (optimize : Optimize ℝ), (∀ m n, optimize.Safe False m n) ∧ ∀ o (sub : Subsystem ℝ) x, sub.Ok →
    x.length = sub.problem.numVariables → ∃ fuel, optimize o sub.problem x = levenbergMarquardt sub.problem ls fuel x := by
  classical
  obtain ⟨ls, hls⟩ := exists_exact
  have key : ∀ p : Problem ℝ, ∀ x : List ℝ, ∃ fuel, ∀ pattern, p.Total pattern → x.length = p.numVariables →
      ∃ x', levenbergMarquardt p ls fuel x = .ok x' ∧ x'.length = p.numVariables := by
    intro p x
    by_cases h : (∃ pattern, p.Total pattern) ∧ x.length = p.numVariables
    · obtain ⟨⟨pattern, h1⟩, h2⟩ := h
      obtain ⟨fuel, h3⟩ := C53_lm_no_panic h1 hls trivial h2
      exact ⟨fuel, fun _ _ _ => h3⟩
    · exact ⟨0, fun pattern h1 h2 => absurd ⟨⟨pattern, h1⟩, h2⟩ h⟩
  choose fuel hfuel using key
  exact ⟨ls, fun _ p x => levenbergMarquardt p ls (fuel p x) x, fun _ _ o sub x h1 _ h2 => .inl (hfuel _ x _ h1.total h2),
    fun o sub x _ _ => ⟨fuel sub.problem x, rfl⟩⟩

/-! ## The optimisers of the crate -/

/-- What Levenberg–Marquardt needs of the linear solver not to panic: on matrices with the positions it was built for it does not panic,
and a solution has an entry for each variable. It need not be accurate and may report failure. This holds if `S` does for the numbers of rows,
columns and triplets. -/
def LeastSquares.Safe (S : Nat → Nat → Nat → Prop) (ls : LeastSquares ℝ) : Prop :=
  ∀ m n ts₀, Spec.Augmented m n ts₀ → S m n ts₀.length → ∃ sym, ls.build m n ts₀ = .ok sym ∧
    ∀ ts μ b, Spec.Augmented m n ts → positions ts = positions ts₀ → 0 < μ → b.length = m →
      ∃ o, ls.solve sym m n ts μ (b ++ List.replicate n 0) = .ok o ∧ ∀ b', o = some b' → n ≤ b'.length

theorem LeastSquares.Exact.safe {S : Nat → Nat → Nat → Prop} {ls : LeastSquares ℝ} (h : ls.Exact S) : ls.Safe S := by
  intro m n ts₀ h0 hS
  obtain ⟨sym, h1, h2⟩ := h m n ts₀ h0 hS
  refine ⟨sym, h1, fun ts μ b a1 a2 a3 a4 => ?_⟩
  obtain ⟨b', h3, h4, -⟩ := h2 ts μ b a1 a2 a3 a4
  refine ⟨some b', h3, fun b'' hb => ?_⟩
  cases hb
  rw [List.length_take] at h4
  omega

theorem Subsystem.size_le (sub : Subsystem F) :
    sub.pattern.length + sub.problem.numVariables ≤ 8 * sub.problem.numResiduals + sub.problem.numVariables := by
  have h : ∀ l : List (Nat × Nat), (l.flatMap sub.rowPattern).length ≤ 8 * l.length := by
    intro l
    induction l with
    | nil => simp
    | cons ik l ih =>
      rw [List.flatMap_cons, List.length_append, List.length_cons]
      have : (sub.rowPattern ik).length ≤ 8 := by
        unfold Subsystem.rowPattern
        split
        · simp
        · rename_i e _
          refine (List.length_filterMap_le _ _).trans ?_
          cases e <;> simp [Expr.variableIndices]
      omega
  have := h sub.expressions.zipIdx
  rw [List.length_zipIdx] at this
  exact Nat.add_le_add_right this _

section
variable {p : Problem ℝ} {pattern : List (Nat × Nat)} (hp : p.Total pattern) {ls : LeastSquares ℝ} {sym : ls.Symbolic}
  (hsym : ∀ ts μ b, Spec.Augmented p.numResiduals p.numVariables ts →
      positions ts = pattern ++ (List.range p.numVariables).map (fun i => (p.numResiduals + i, i)) → 0 < μ → b.length = p.numResiduals →
      ∃ o, ls.solve sym p.numResiduals p.numVariables ts μ (b ++ List.replicate p.numVariables 0) = .ok o ∧
        ∀ b', o = some b' → p.numVariables ≤ b'.length)
include hp hsym

theorem lmInner_safe : ∀ (fuel : Nat) (st : LmState ℝ), st.Ready p pattern →
    Ends (fun r => r.2.vars.length = p.numVariables ∧ (r.1 = false → r.2.Ready p pattern)) (lmInner p ls sym fuel st) := by
  intro fuel
  induction fuel with
  | zero => intro st _; exact .inr rfl
  | succ fuel ih =>
    intro st hst
    have hlam : 0 < st.lambda := lt_of_lt_of_le pow50_pos hst.lambda
    obtain ⟨o, h1, h2⟩ := hsym st.triplets (Real.sqrt st.lambda) st.residuals hst.augmented hst.positions (Real.sqrt_pos.2 hlam)
      hst.residuals
    rw [lmInner]
    simp only [FloatOps.sqrt, h1, ok_bind]
    cases o with
    | none =>
      refine ih { st with lambda := st.lambda * FloatOps.ofNat 8 } ⟨hst.vars, hst.scratch, hst.residuals, hst.ssr, hst.augmented,
        hst.positions, ?_⟩
      show _ ≤ st.lambda * ((8 : ℕ) : ℝ)
      have := hst.lambda
      push_cast
      linarith
    | some b' =>
      have h2 := h2 b' rfl
      simp only
      split
      · exact .ok ⟨hst.vars, by simp⟩
      · obtain ⟨scratch, h6, h7⟩ := lmTrial_ok hst.vars (delta := b'.take p.numVariables)
          (by rw [List.length_take]; omega) st.scratch hst.scratch
        obtain ⟨r, h8, h9⟩ := hp.residuals scratch h7
        rw [h6, ok_bind, h8, ok_bind]
        split
        · rw [lmAccept]
          simp only
          split
          · exact .ok ⟨h7, by simp⟩
          · obtain ⟨rt, q1, q2, ⟨r', q3, q4⟩, q5, q6⟩ := lmJacobian_ok hp h7 hst.residuals
            rw [h8, Except.ok.injEq] at q3
            subst q3
            rw [q1, ok_bind]
            exact .ok ⟨h7, fun _ => ⟨h7, h7, q2, q4, q5, q6, lmRelax_ge _⟩⟩
        · refine ih { st with scratch := scratch, lambda := st.lambda * FloatOps.ofNat 2 }
            ⟨hst.vars, h7, hst.residuals, hst.ssr, hst.augmented, hst.positions, ?_⟩
          show _ ≤ st.lambda * ((2 : ℕ) : ℝ)
          have := hst.lambda
          push_cast
          linarith

theorem lmOuter_safe {fuel : Nat} : ∀ (n : Nat) (st : LmState ℝ), st.Ready p pattern →
    Ends (fun st' => st'.vars.length = p.numVariables) (lmOuter p ls sym fuel n st) := by
  intro n
  induction n with
  | zero => intro st h; exact .ok h.vars
  | succ n ih =>
    intro st hst
    rw [lmOuter]
    split
    · exact .ok hst.vars
    · refine (lmInner_safe hp hsym fuel st hst).bind (fun r hr => ?_)
      obtain ⟨stop, st'⟩ := r
      cases stop with
      | true => exact .ok hr.1
      | false => exact ih st' (hr.2 rfl)

end

/-- Levenberg–Marquardt does not panic. -/
theorem lm_safe {p : Problem ℝ} {pattern : List (Nat × Nat)} (hp : p.Total pattern) {S : Nat → Nat → Nat → Prop} {ls : LeastSquares ℝ} (hls : ls.Safe S)
    (hS : S p.numResiduals p.numVariables (pattern.length + p.numVariables)) {fuel : Nat}
    {x : List ℝ} (hx : x.length = p.numVariables) :
    Ends (fun x' => x'.length = p.numVariables) (levenbergMarquardt p ls fuel x) := by
  obtain ⟨rt, q1, q2, ⟨r', q3, q4⟩, q5, q6⟩ := lmJacobian_ok hp hx (rs := List.replicate p.numResiduals 0) (by simp)
  obtain ⟨sym, h1, h2⟩ := hls p.numResiduals p.numVariables rt.2 q5 (lmJacobian_size q6 ▸ hS)
  rw [levenbergMarquardt, lmRun, lmStart, q1, ok_bind, h1, ok_bind]
  refine (lmOuter_safe hp (sym := sym) (fun ts μ b a1 a2 a3 a4 => h2 ts μ b a1 (a2.trans q6.symm) a3 a4) 100 _
    ⟨hx, hx, q2, rfl, q5, q6, ?_⟩).bind (fun st h => .ok h)
  show _ ≤ ratio 5 10
  norm_num [ratio, FloatOps.ofNat]

/-- The optimisers of the crate (the matches on `SolvingOptions::optimizer`, `assemble/mod.rs:148-158`, `189-199`). -/
noncomputable def crateOptimize (ls : LeastSquares F) (fuel : Nat) : Optimize F := fun o p x =>
  match o with
  | .levenbergMarquardt => levenbergMarquardt p ls fuel x
  | .lBfgs => lbfgs p fuel x

/-- C53: `solve` with the optimisers as they are in the crate does not panic with the decomposers `None` and `SinglePass`, after any
legal history, whatever the optimisers' numerical results: it returns, or is still in one of the loops without a bound after `fuel`
rounds of it. -/
theorem C53_solve_optimizers_no_panic {counter : Nat} {ops : List (Op ℝ)} {c : Client ℝ} (h : Reaches counter ops c)
    {S : Nat → Nat → Nat → Prop} {ls : LeastSquares ℝ} (hls : ls.Safe S)
    (hS : ∀ m n k, m ≤ c.sys.expressions.length → n ≤ c.sys.vars.length → k ≤ 8 * m + n → S m n k) {fuel : Nat} {ord : HashOrder} (hord : ord.Ok) {opts : SolvingOptions}
    (hd : opts.decomposer ≠ .recursiveAssembly) :
    (∃ s', c.sys.solve (crateOptimize ls fuel) ord opts = .ok s') ∨ c.sys.solve (crateOptimize ls fuel) ord opts = .error .outOfFuel := by
  have ht : (crateOptimize ls fuel).Safe True c.sys.expressions.length c.sys.vars.length := by
    intro o sub x hok hw hx
    have : Ends (fun x' => x'.length = sub.problem.numVariables) (crateOptimize ls fuel o sub.problem x) := by
      cases o with
      | levenbergMarquardt => exact lm_safe hok.total hls (hS _ _ _ hw.1 hw.2 sub.size_le) hx
      | lBfgs => exact lbfgs_ends hok.denseOk hx
    rcases this with h | h
    · exact .inl h
    · exact .inr ⟨trivial, h⟩
  rcases h.solve_ends (ht.safeFor _) hord hd with ⟨s', h1, -⟩ | ⟨-, h1⟩
  · exact .inl ⟨s', h1⟩
  · exact .inr h1

/-- Case: a linear solver as assumed. -/
example : ∃ ls : LeastSquares ℝ, ls.Safe (fun _ _ _ => True) := by
  obtain ⟨ls, h⟩ := exists_exact
  exact ⟨ls, h.safe⟩

/-! ## `RecursiveAssembly` can panic -/

/-- Four points and the four sides of a square as distances. -/
noncomputable def squareRealOps : List (Op ℝ) :=
  [.createPoint 0 0, .createPoint 1 0, .createPoint 1 1, .createPoint 0 1,
   .createCon (.pointPointDistance 0 1 1), .createCon (.pointPointDistance 1 2 1), .createCon (.pointPointDistance 2 3 1),
   .createCon (.pointPointDistance 3 0 1)]

/-- Build the square and solve it. -/
noncomputable def solveSquare (optimize : Optimize ℝ) : R (System ℝ) := do
  let c ← (Client.new ℝ 0).run squareRealOps
  c.sys.solve optimize ascendingOrder ⟨.levenbergMarquardt, .recursiveAssembly, false⟩

set_option maxRecDepth 10000 in
/-- C53 is false with `RecursiveAssembly`: the square of distances makes it panic, for every optimiser. -/
theorem C53_recursive_panics : ∃ c, Reaches 0 squareRealOps c ∧ ∃ ord, HashOrder.Ok ord ∧ ∀ optimize,
    c.sys.solve optimize ord ⟨.levenbergMarquardt, .recursiveAssembly, false⟩ = .error .unwrapNone := by
  obtain ⟨c, h⟩ := exists_reaches 0 squareRealOps (by
    simp [squareRealOps, Store.LegalRun, Store.Legal, Store.empty, Store.step, Store.IsPoint, Store.ConOk]) (by simp [squareRealOps])
  refine ⟨c, h, ascendingOrder, ascendingOrder_ok, fun optimize => ?_⟩
  have key : isUnwrap (solveSquare optimize) = true := by rfl
  rw [isUnwrap_iff, solveSquare, h.run, ok_bind] at key
  exact key

end Fiksi
