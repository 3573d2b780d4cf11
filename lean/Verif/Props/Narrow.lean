import Verif.Proofs.NarrowBound
import Verif.Proofs.Canonical
import Verif.Props.Dense
import Verif.Props.SolvePanic
/-!
# Sixteen-bit counts in recursive assembly (C78)

`RecursiveAssembly` counts degrees of freedom and valencies in `i16`. `System.solveN narrow` is `solve` with the result of every such
addition and subtraction passed through `narrow`.
-/
namespace Fiksi

open Spec Finset

/-- `narrow` is exact on `i16`. -/
theorem checkedI16_wide : checkedI16.Wide 32767 := by
  intro x hx
  rw [checkedI16, if_pos (by omega)]

theorem wrappedI16_wide : wrappedI16.Wide 32767 := by
  intro x hx
  rw [wrappedI16]
  congr 1
  rw [Int.bmod_eq_of_le] <;> omega

section
variable {F : Type} [Add F] [Sub F] [Mul F] [Div F] [Neg F] [Zero F] [One F] [FloatOps F]

/-- C78: a build with overflow checks never returns a wrong result: what `solve` returns with checked `i16` counts, it returns with
integers. -/
theorem C78_checked_is_exact {optimize : Optimize F} {ord : HashOrder} {opts : SolvingOptions} {s s' : System F}
    (h : s.solveN checkedI16 optimize ord opts = .ok s') : s.solve optimize ord opts = .ok s' :=
  solveN_below checkedI16_honest optimize ord opts s s' h

/-- A part with `n` elements and `k` constraints is small enough for sixteen bits. -/
def Spec.FitsI16 (n k : Nat) : Prop := (2 * n + 2 * k + 3) * 2 ^ (n - 2) + 6 * k ≤ 32767

theorem Spec.FitsI16.mono {n k n' k' : Nat} (h : FitsI16 n' k') (hn : n ≤ n') (hk : k ≤ k') : FitsI16 n k := by
  unfold FitsI16 at *
  have h1 : 2 ^ (n - 2) ≤ 2 ^ (n' - 2) := Nat.pow_le_pow_right (by norm_num) (by omega)
  have h2 : (2 * n + 2 * k + 3) * 2 ^ (n - 2) ≤ (2 * n' + 2 * k' + 3) * 2 ^ (n' - 2) := Nat.mul_le_mul (by omega) h1
  omega

omit [Add F] [Sub F] [Mul F] [Div F] [Neg F] [Zero F] [One F] [FloatOps F] in
theorem elem_freedom_le (e : Elem F) : e.freedom ≤ 2 := by cases e <;> simp [Elem.freedom]

theorem tag_valency_le (k : ConstraintTag) : k.valency ≤ 2 := by cases k <;> simp [ConstraintTag.valency]

omit [Add F] [Sub F] [Mul F] [Div F] [Neg F] [Zero F] [One F] [FloatOps F] in
theorem actsOn_length_le (st : Store F) (con : Spec.Con F) : (st.actsOn con).length ≤ 4 := by
  have h1 : ∀ i, (st.lineEnds i).length ≤ 2 := by
    intro i
    unfold Store.lineEnds
    split <;> simp
  have h2 : ∀ i, (st.circleParts i).length ≤ 2 := by
    intro i
    unfold Store.circleParts
    split <;> simp
  cases con <;> simp only [Store.actsOn, List.length_append, List.length_cons, List.length_nil]
  case pointLineIncidence p l => have := h1 l; omega
  case pointLineDistance p l d => have := h1 l; omega
  case pointCircleIncidence p c => have := h2 c; omega
  case lineLineAngle l m a => have := h1 l; have := h1 m; omega
  case lineLineParallelism l m => have := h1 l; have := h1 m; omega
  case lineLinePerpendicularity l m => have := h1 l; have := h1 m; omega
  case lineCircleTangency l c => have := h1 l; have := h2 c; omega
  all_goals omega

theorem sum_count_le (V : Finset Nat) : ∀ l : List Nat, ∑ v ∈ V, l.count v ≤ l.length := by
  intro l
  induction l with
  | nil => simp
  | cons x l ih =>
    have hs : ∑ v ∈ V, (x :: l).count v = ∑ v ∈ V, l.count v + ∑ v ∈ V, (if x = v then 1 else 0) := by
      rw [← sum_add_distrib]
      refine sum_congr rfl (fun v _ => ?_)
      rw [List.count_cons]
      simp
    rw [hs, sum_ite_eq, List.length_cons]
    split <;> omega

omit [Add F] [Sub F] [Mul F] [Div F] [Neg F] [Zero F] [One F] [FloatOps F] in
theorem Reaches.listed {counter : Nat} {ops : List (Op F)} {c : Client F} (h : Reaches counter ops c)
    (hr : c.sys.graph.toD.InRange) (V : Finset Nat) : c.sys.graph.toD.Listed V 4 := by
  intro e
  cases hinc : c.sys.graph.incidents[e]? with
  | none =>
    rw [sum_eq_zero (fun v hv => ?_)]
    · omega
    · unfold incAt
      cases hel : c.sys.graph.toD.elements[v]? with
      | none => simp
      | some el =>
        obtain ⟨el', h1, h2⟩ := Graph.toD_element hel
        rw [Option.map_some, Option.getD_some, List.count_eq_zero]
        intro he
        have h3 := hr.inc v el hel e he
        rw [Graph.incidents, List.getElem?_map, Option.map_eq_none_iff, List.getElem?_eq_none_iff] at hinc
        simp only [Graph.toD, List.length_map] at h3
        omega
  | some inc =>
    have h1 : ∑ v ∈ V, (incAt c.sys.graph.toD v).count e ≤ ∑ v ∈ V, inc.count v := by
      refine sum_le_sum (fun v _ => ?_)
      unfold incAt
      cases hel : c.sys.graph.toD.elements[v]? with
      | none => simp
      | some el =>
        obtain ⟨el', h1, h2⟩ := Graph.toD_element hel
        rw [Option.map_some, Option.getD_some, h2, h.counts v e el' inc h1 hinc]
    refine h1.trans ((sum_count_le V inc).trans ?_)
    rw [h.incidents] at hinc
    have := List.mem_of_getElem? hinc
    simp only [Store.arguments, List.mem_map] at this
    obtain ⟨con, -, rfl⟩ := this
    exact actsOn_length_le _ _

omit [Add F] [Sub F] [Mul F] [Div F] [Neg F] [Zero F] [One F] [FloatOps F] in
theorem Reaches.dofTotal_le {counter : Nat} {ops : List (Op F)} {c : Client F} (h : Reaches counter ops c) (V : Finset Nat) :
    c.sys.graph.toD.dofTotal V ≤ 2 * V.card := by
  unfold DGraph.dofTotal
  rw [mul_comm, ← smul_eq_mul]
  refine sum_le_card_nsmul _ _ _ (fun v _ => ?_)
  unfold dofAt
  have h1 : c.sys.graph.toD.elements[v]?.map DElement.dof = (c.sys.graph.elements.map GElement.dof)[v]?.map (fun n : Nat => (n : Int)) := by
    simp [Graph.toD, List.getElem?_map, Option.map_map, Function.comp_def]
  rw [h1, h.dofs, List.getElem?_map]
  cases hel : ((Store.empty F).run ops).elems[v]? with
  | none => simp
  | some el => simpa using elem_freedom_le el

omit [Add F] [Sub F] [Mul F] [Div F] [Neg F] [Zero F] [One F] [FloatOps F] in
theorem Reaches.valTotal_le {counter : Nat} {ops : List (Op F)} {c : Client F} (h : Reaches counter ops c) (E : Finset Nat) :
    c.sys.graph.toD.valTotal E ≤ 2 * E.card := by
  unfold DGraph.valTotal
  rw [mul_comm, ← smul_eq_mul]
  refine sum_le_card_nsmul _ _ _ (fun e _ => ?_)
  unfold valencyAt
  rw [Graph.toD, h.crel.rel.graphCons]
  cases hel : ((Store.empty F).run ops).cons[e]? with
  | none => simp [hel]
  | some el => simpa [hel] using tag_valency_le el.kind

/-- C78 (partial): when every part of the figure is small (at most 10 elements and 50 constraints, for example), `solve` with `i16`
counts is `solve` with integers, whether or not the build checks for overflow. (Full statement: for every figure; false, see
`C78_counts_overflow`.) -/
theorem C78_counts_fit_partial {counter : Nat} {ops : List (Op F)} {c : Client F} (h : Reaches counter ops c)
    (hfit : ∀ comp ∈ c.sys.graph.components, FitsI16 comp.elements.card comp.constraints.card) {narrow : Narrow}
    (hn : narrow = checkedI16 ∨ narrow = wrappedI16) {ord : HashOrder} (hord : ord.Ok) (optimize : Optimize F) (opts : SolvingOptions) :
    c.sys.solveN narrow optimize ord opts = c.sys.solve optimize ord opts := by
  have hw : narrow.Wide 32767 := by
    rcases hn with rfl | rfl
    · exact checkedI16_wide
    · exact wrappedI16_wide
  have h1 : c.sys.solveLoopN narrow optimize ord opts = c.sys.solveLoop optimize ord opts := by
    unfold System.solveLoopN System.solveLoop
    refine (foldlM_congr_inv (fun _ l => ∀ ck ∈ l, ck.1 ∈ c.sys.graph.components) (fun s ck l hl => ?_)
      (fun s ck l s' hl _ ck' hck' => hl ck' (List.mem_cons_of_mem _ hck')) _ _ (fun ck hck => mem_zipIdx_fst hck)).1
    have hck := hl ck List.mem_cons_self
    unfold solveComponentN solveComponent
    split
    · rfl
    · refine bind_congr (fun free => bind_congr (fun st => ?_))
      cases opts.decomposer with
      | none => rfl
      | singlePass => rfl
      | recursiveAssembly =>
        simp only
        unfold solveRecursiveN solveRecursive
        rw [decomposeN_eq hw (h.decomposeOk hck) (fun tag s => hord _ s) (m := 4) (by norm_num) (h.listed (h.decomposeOk hck).range _)]
        have h2 := hfit _ hck
        have h3 := h.dofTotal_le ck.1.elements
        have h4 := h.valTotal_le ck.1.constraints
        unfold FitsI16 at h2
        have h5 := Nat.mul_le_mul_right (2 ^ (ck.1.elements.card - 2)) (show c.sys.graph.toD.dofTotal ck.1.elements +
          c.sys.graph.toD.valTotal ck.1.constraints + (3 : Int).natAbs ≤ 2 * ck.1.elements.card + 2 * ck.1.constraints.card + 3 by
            have : (3 : Int).natAbs = 3 := rfl
            omega)
        simp only
        omega
  rw [System.solveN, System.solve, h1]

/-- C78 (partial): the same with the numbers of elements and constraints of the whole figure. -/
theorem C78_small_figures_partial {counter : Nat} {ops : List (Op F)} {c : Client F} (h : Reaches counter ops c)
    (hn : ((Store.empty F).run ops).elems.length ≤ 10) (hk : ((Store.empty F).run ops).cons.length ≤ 50) {narrow : Narrow}
    (hnarrow : narrow = checkedI16 ∨ narrow = wrappedI16) {ord : HashOrder} (hord : ord.Ok) (optimize : Optimize F) (opts : SolvingOptions) :
    c.sys.solveN narrow optimize ord opts = c.sys.solve optimize ord opts := by
  refine C78_counts_fit_partial h (fun comp hcomp => ?_) hnarrow hord optimize opts
  have hok := h.decomposeOk hcomp
  have h1 : comp.elements.card ≤ c.sys.graph.elements.length := by
    have : comp.elements ⊆ range c.sys.graph.elements.length := fun v hv => by simpa [DCtx.nE, Graph.toD] using hok.verts v hv
    simpa using card_le_card this
  have h2 : comp.constraints.card ≤ c.sys.graph.constraints.length := by
    have : comp.constraints ⊆ range c.sys.graph.constraints.length := fun v hv => by simpa [DCtx.nC, Graph.toD] using hok.edges v hv
    simpa using card_le_card this
  have h3 := h.crel.rel.graph.elements
  have h4 : c.sys.graph.constraints.length = ((Store.empty F).run ops).cons.length := by rw [h.crel.rel.graphCons, List.length_map]
  exact FitsI16.mono (n' := 10) (k' := 50) (by norm_num [FitsI16]) (by omega) (by omega)

/-- Example: a triangle of distances. -/
example (counter : Nat) : ∃ ops, ∃ c : Client F, Reaches counter ops c ∧ ((Store.empty F).run ops).elems.length = 3 ∧
    ((Store.empty F).run ops).cons.length = 3 := by
  let ops : List (Op F) := [.createPoint 0 0, .createPoint 1 0, .createPoint 0 1, .createCon (.pointPointDistance 0 1 1),
    .createCon (.pointPointDistance 1 2 1), .createCon (.pointPointDistance 2 0 1)]
  obtain ⟨c, h⟩ := exists_reaches counter ops
    (by simp [ops, Store.LegalRun, Store.Legal, Store.empty, Store.step, Store.IsPoint, Store.ConOk]) (by simp [ops])
  exact ⟨ops, c, h, rfl, rfl⟩

/-! ## Two points with more than 32767 distances -/

/-- Two points and `n` distances between them. -/
def manyOps (F : Type) [Zero F] [One F] (n : Nat) : List (Op F) :=
  [.createPoint 0 0, .createPoint 1 0] ++ List.replicate n (.createCon (.pointPointDistance 0 1 1))

/-- Its graph. -/
def pairGraph (n : Nat) : Graph :=
  ⟨[⟨2, List.range n⟩, ⟨2, List.range n⟩], List.replicate n ⟨1, [0, 1]⟩, [some 1, some 1], [⟨{0, 1}, Finset.range n⟩]⟩

theorem pairGraph_addAll (n : Nat) (hn : n < 2 ^ 32) : (Graph.bare [2, 2]).addAll (List.replicate (n + 1) ⟨1, [0, 1]⟩) = .ok (pairGraph (n + 1)) := by
  induction n with
  | zero =>
    have h : (Graph.bare [2, 2]).addAll (List.replicate (0 + 1) ⟨1, [0, 1]⟩) =
        .ok ⟨[⟨2, [0]⟩, ⟨2, [0]⟩], [⟨1, [0, 1]⟩], [some 1, some 1], [⟨insert 1 (insert 0 ∅), insert 0 ∅⟩]⟩ := rfl
    rw [h, pairGraph, show (insert 1 (insert 0 ∅) : Finset Nat) = {0, 1} by decide, show (insert 0 ∅ : Finset Nat) = Finset.range (0 + 1) by decide]
    rfl
  | succ n ih =>
    rw [List.replicate_succ', Graph.addAll, List.foldlM_append]
    have := ih (by omega)
    rw [Graph.addAll] at this
    rw [this, ok_bind]
    have h1 : toU32 (pairGraph (n + 1)).constraints.length = .ok (n + 1) := by
      rw [toU32_eq_ok]
      simp [pairGraph]
      omega
    have h2 : (pairGraph (n + 1)).mergeConnectedComponents (n + 1) [0, 1] =
        .ok { pairGraph (n + 1) with components := [⟨{0, 1} ∪ ∅ ∪ ∅, insert (n + 1) (Finset.range (n + 1) ∪ ∅ ∪ ∅)⟩] } := rfl
    rw [List.foldlM_cons, Graph.addConstraint, h1]
    simp only [ok_bind]
    rw [h2]
    simp only [ok_bind, Graph.pushIncidentConstraint, pairGraph]
    simp [idx, setIdx, List.range_succ, List.replicate_succ', Finset.range_add_one]

omit [Add F] [Sub F] [Mul F] [Div F] [Neg F] [FloatOps F] in
theorem manyOps_run (n : Nat) : (Store.empty F).LegalRun (manyOps F n) ∧
    (Store.empty F).run (manyOps F n) = ⟨[.point 0 0, .point 1 0], List.replicate n (.pointPointDistance 0 1 1), ∅⟩ := by
  have key : ∀ n m : Nat, (⟨[.point 0 0, .point 1 0], List.replicate m (.pointPointDistance 0 1 1), ∅⟩ : Store F).LegalRun
        (List.replicate n (.createCon (.pointPointDistance 0 1 1))) ∧
      (⟨[.point 0 0, .point 1 0], List.replicate m (.pointPointDistance 0 1 1), ∅⟩ : Store F).run (List.replicate n (.createCon (.pointPointDistance 0 1 1))) =
        ⟨[.point 0 0, .point 1 0], List.replicate (m + n) (.pointPointDistance 0 1 1), ∅⟩ := by
    intro n
    induction n with
    | zero => intro m; exact ⟨trivial, rfl⟩
    | succ n ih =>
      intro m
      have hstep : (⟨[.point 0 0, .point 1 0], List.replicate m (.pointPointDistance 0 1 1), ∅⟩ : Store F).step (.createCon (.pointPointDistance 0 1 1)) =
          ⟨[.point 0 0, .point 1 0], List.replicate (m + 1) (.pointPointDistance 0 1 1), ∅⟩ := by
        simp only [Store.step]
        rw [← List.replicate_succ']
      rw [List.replicate_succ, Store.LegalRun, Store.run, List.foldl_cons, hstep, ← Store.run, show m + (n + 1) = m + 1 + n by omega]
      refine ⟨⟨?_, (ih (m + 1)).1⟩, (ih (m + 1)).2⟩
      simp [Store.Legal, Store.ConOk, Store.IsPoint]
  have h0 : (Store.empty F).run [.createPoint 0 0, .createPoint 1 0] = ⟨[.point 0 0, .point 1 0], List.replicate 0 (.pointPointDistance 0 1 1), ∅⟩ := rfl
  constructor
  · rw [manyOps, legalRun_append, h0]
    exact ⟨by simp [Store.LegalRun, Store.Legal], (key n 0).1⟩
  · have : (Store.empty F).run (manyOps F n) = ((Store.empty F).run [.createPoint 0 0, .createPoint 1 0]).run
        (List.replicate n (.createCon (.pointPointDistance 0 1 1))) := by
      rw [manyOps, Store.run, List.foldl_append]; rfl
    rw [this, h0, (key n 0).2, Nat.zero_add]

omit [Add F] [Sub F] [Mul F] [Div F] [Neg F] [FloatOps F] in
theorem Reaches.many_graph {counter n : Nat} (hn : n < 2 ^ 32) {c : Client F} (h : Reaches counter (manyOps F (n + 1)) c) : c.sys.graph = pairGraph (n + 1) := by
  have k := h.canonical
  have d := h.dofs
  have g := h.crel.rel.graphCons
  rw [(manyOps_run (n + 1)).2] at d g
  unfold Graph.Canonical at k
  rw [d, g] at k
  rw [List.map_replicate] at k
  have := pairGraph_addAll n hn
  exact Except.ok.inj (k.symm.trans this)

/-- The distances of a vertex, added up. -/
theorem many_fold (n : Nat) {next : Finset Nat} (h0 : 0 ∈ next) (h1 : 1 ∈ next) : ∀ (l : List Nat) (k : Int), (∀ e ∈ l, e < n) → 0 ≤ k → k ≤ 32767 →
    32767 < k + l.length →
    l.foldlM (fun (add : Int) edgeId => do
      let edge ← idx (pairGraph n).toD.constraints edgeId
      if edge.incidentElements.all (fun u => decide (u ∈ next)) then checkedI16 (add + edge.valency) else pure add) k = .error .overflow := by
  intro l
  induction l with
  | nil =>
    intro k _ _ h2 h3
    simp at h3
    omega
  | cons e l ih =>
    intro k hl h2 h3 h4
    have he : (pairGraph n).toD.constraints[e]? = some ⟨1, [0, 1]⟩ := by
      simp [pairGraph, Graph.toD, hl e List.mem_cons_self]
    rw [List.foldlM_cons, idx_of he, ok_bind]
    simp only [List.all_cons, List.all_nil, h0, h1, decide_true, Bool.and_true, if_true]
    rw [checkedI16]
    split
    · rw [ok_bind]
      exact ih (k + 1) (fun e he => hl e (List.mem_cons_of_mem _ he)) (by omega) (by omega) (by rw [List.length_cons] at h4; push_cast at h4; omega)
    · rfl

theorem many_adjacent (n : Nat) {v : Nat} (hv : v = 0 ∨ v = 1) : ∀ (l : List Nat) (adj : Finset Nat), (∀ e ∈ l, e < n) → (l ≠ [] ∨ adj = {1 - v}) → adj ⊆ {1 - v} →
    l.foldlM (fun (adjacent : Finset Nat) edgeId => do
      let edge ← idx (pairGraph n).toD.constraints edgeId
      (pure (adjacent ∪ (edge.incidentElements.filter (fun u => decide (u ∈ ({0, 1} : Finset Nat)) && !decide (u ∈ ({v} : Finset Nat)))).toFinset) : R (Finset Nat))) adj =
        .ok {1 - v} := by
  intro l
  induction l with
  | nil =>
    intro adj _ h _
    simp at h
    rw [h]
    rfl
  | cons e l ih =>
    intro adj hl _ hs
    have he : (pairGraph n).toD.constraints[e]? = some ⟨1, [0, 1]⟩ := by
      simp [pairGraph, Graph.toD, hl e List.mem_cons_self]
    rw [List.foldlM_cons, idx_of he, ok_bind, pure_eq_ok, ok_bind]
    have h2 : (([0, 1] : List Nat).filter (fun u => decide (u ∈ ({0, 1} : Finset Nat)) && !decide (u ∈ ({v} : Finset Nat)))).toFinset = {1 - v} := by
      rcases hv with rfl | rfl <;> rfl
    simp only
    rw [h2, union_eq_right.2 hs]
    exact ih _ (fun e he => hl e (List.mem_cons_of_mem _ he)) (.inr rfl) (Subset.refl _)

theorem many_decompose (d : Int) {ord : HashOrder} (hord : ord.Ok) {n : Nat} (hn : 32768 ≤ n) (hn' : n < 2 ^ 32) :
    decomposeN checkedI16 d ord (pairGraph n).toD {0, 1} (Finset.range n) = .error .overflow := by
  have hl1 : toU32 (pairGraph n).toD.constraints.length = .ok n := by
    rw [toU32_eq_ok]
    simp [pairGraph, Graph.toD]
    omega
  have hl2 : toU32 (pairGraph n).toD.elements.length = .ok 2 := rfl
  rw [decomposeN, hl1, ok_bind, hl2, ok_bind, show ({0, 1} : Finset Nat).card = 2 from rfl, show 2 ^ (2 + 1) = 7 + 1 from rfl, decomposeLoopN]
  simp only
  have hel : ∀ v, v = 0 ∨ v = 1 → (pairGraph n).toD.elements[v]? = some ⟨2, List.range n⟩ := by
    rintro v (rfl | rfl) <;> rfl
  have hav : ∀ v, v = 0 ∨ v = 1 → (pairGraph n).toD.availableAt (Finset.range n) v = .ok (List.range n) := by
    intro v hv
    rw [DGraph.availableAt_ok (hel v hv)]
    congr 1
    rw [List.filter_eq_self]
    intro e he
    simpa using he
  have hseed : ∀ v, v = 0 ∨ v = 1 → (⟨(pairGraph n).toD, [], Finset.range n, {0, 1}, -(d + 1)⟩ : DenseEnv).seed v = .ok ⟨{v}, 2, {1 - v}, [v]⟩ := by
    intro v hv
    rw [DenseEnv.seed, DGraph.extendAdjacent]
    simp only
    rw [hav v hv, ok_bind, many_adjacent n hv (List.range n) ∅ (by simp) (.inl (by simp; omega)) (by simp), ok_bind, idx_of (hel v hv), ok_bind]
    rfl
  obtain ⟨ho1, ho2⟩ := hord [0, 0] {0, 1}
  cases hl : ord [0, 0] {0, 1} with
  | nil =>
    have := (ho2 0).2 (by simp)
    rw [hl] at this
    cases this
  | cons v rest =>
    have hv : v = 0 ∨ v = 1 := by
      have := (ho2 v).1 (by rw [hl]; exact List.mem_cons_self)
      simpa using this
    have hrest : ∃ q, rest.mapM (⟨(pairGraph n).toD, [], Finset.range n, {0, 1}, -(d + 1)⟩ : DenseEnv).seed = .ok q := by
      refine mapM_ok_exists (fun u hu => ?_)
      have : u = 0 ∨ u = 1 := by
        have := (ho2 u).1 (by rw [hl]; exact List.mem_cons_of_mem _ hu)
        simpa using this
      exact ⟨_, hseed u this⟩
    obtain ⟨q, hq⟩ := hrest
    rw [DenseEnv.denseBfsN]
    simp only
    rw [hl, List.mapM_cons, hseed v hv, ok_bind, hq, ok_bind, pure_eq_ok, ok_bind, show ({0, 1} : Finset Nat).card * (({0, 1} : Finset Nat).card + 1) ^ ({0, 1} : Finset Nat).card = 17 + 1 from rfl,
      DenseEnv.searchN]
    obtain ⟨hp1, hp2⟩ := hord [0, 1, v] {1 - v}
    have hsingle : ord [0, 1, v] {1 - v} = [1 - v] := by
      cases hm : ord [0, 1, v] {1 - v} with
      | nil =>
        have := (hp2 (1 - v)).2 (by simp)
        rw [hm] at this
        cases this
      | cons a l =>
        rw [hm] at hp1 hp2
        have ha : a = 1 - v := by simpa using (hp2 a).1 List.mem_cons_self
        cases l with
        | nil => rw [ha]
        | cons b l =>
          have hb : b = 1 - v := by simpa using (hp2 b).1 (by simp)
          rw [ha, hb] at hp1
          simp at hp1
    simp only
    rw [hsingle, DenseEnv.expandN]
    simp only
    have hw : 1 - v = 0 ∨ 1 - v = 1 := by omega
    rw [DGraph.additionalValencyN, hav _ hw, ok_bind,
      many_fold n (next := insert (1 - v) {v}) (by rcases hv with rfl | rfl <;> simp) (by rcases hv with rfl | rfl <;> simp) (List.range n) 0 (by simp) (by omega) (by omega)
        (by simp; omega)]
    rfl

/-- C78: it is false that the counts always fit. With two points and 32768 distances between them (or more), `solve` with recursive
assembly panics in every build with overflow checks, whatever the optimiser, the order of the hash maps and the seed. -/
theorem C78_counts_overflow (counter : Nat) {n : Nat} (hn : 32768 ≤ n) (hn' : n + 2 < 2 ^ 30) :
    ∃ c : Client F, Reaches counter (manyOps F n) c ∧ ∀ (optimize : Optimize F) (ord : HashOrder) (optimizer : Optimizer) (perturb : Bool), ord.Ok →
      c.sys.solveN checkedI16 optimize ord ⟨optimizer, .recursiveAssembly, perturb⟩ = .error .overflow := by
  obtain ⟨c, h⟩ := exists_reaches counter (manyOps F n) (manyOps_run n).1 (by simp [manyOps]; omega)
  refine ⟨c, h, fun optimize ord optimizer perturb hord => ?_⟩
  obtain ⟨m, rfl⟩ : ∃ m, n = m + 1 := ⟨n - 1, by omega⟩
  have hg := h.many_graph (by omega)
  have hcomps : c.sys.graph.components = [⟨{0, 1}, Finset.range (m + 1)⟩] := by rw [hg]; rfl
  have hmem : (⟨{0, 1}, Finset.range (m + 1)⟩ : Component) ∈ c.sys.graph.components := by rw [hcomps]; exact List.mem_singleton_self _
  obtain ⟨free, hf⟩ := h.freeVariables_ok hmem
  have hfree : ∀ v ∈ free, v < c.sys.vars.length := by
    intro v hv
    exact h.varOf_lt ((freeVariables_spec hf v).1 hv).1
  obtain ⟨st, hst, -⟩ := perturbFree_ok (opts := ⟨optimizer, .recursiveAssembly, perturb⟩) (st := ⟨c.sys.vars, c.sys.scaledVariables, 42, []⟩)
    (n := c.sys.vars.length) ⟨rfl, by simp [System.scaledVariables]⟩ hfree
  have hd := many_decompose 3 (ord := fun tag => ord (0 :: 1 :: tag)) (fun tag s => hord _ s) hn (by omega)
  rw [System.solveN, System.solveLoopN, hcomps, List.zipIdx_singleton, List.foldlM_cons, solveComponentN]
  simp only
  rw [if_neg (by simp), hf, ok_bind, hst, ok_bind]
  rw [solveRecursiveN, hg]
  simp only
  rw [hd]
  rfl

end

end Fiksi
