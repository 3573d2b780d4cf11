import Verif.Proofs.Plan
import Verif.Props.Components
/-!
# Matchings, strongly connected equations and SinglePass plans (C19–C21)
-/
namespace Fiksi

open Spec

/-! ## C19 -/

/-- C19: on every bipartite graph `find_maximum_matching` returns (no panic, no endless loop) a matching, given consistently in
both directions, and no larger matching exists. -/
theorem C19_maximum_matching (g : AToB) (hn : g.verticesA.Nodup) (hnb : ∀ a ∈ g.verticesA, ∃ l, g.neighborsOfA a = some l)
    (hs : g.verticesA.length < 2 ^ 32 - 1) :
    ∃ m M, findMaximumMatching g = .ok m ∧
      IsMaximumMatching (fun a b => a ∈ g.verticesA ∧ ∃ l, g.neighborsOfA a = some l ∧ b ∈ l) M ∧
      ∀ a b, ((a, b) ∈ M ↔ m.aToB.get? a = some b) ∧ ((a, b) ∈ M ↔ m.bToA.get? b = some a) := by
  obtain ⟨m, h1, h2, h3⟩ := findMaximumMatching_spec (g := g) ⟨hn, hnb, hs⟩
  refine ⟨m, m.pairs, h1, ⟨h2.isMatching, fun M' hM' => ?_⟩, fun a b => ⟨h2.mem_pairs a b, ?_⟩⟩
  · rw [h2.card_pairs]; exact h3 M' hM'
  · rw [h2.mem_pairs, h2.ab]

/-- C19 for systems: after every history and for every set of free variables, each equation is paired with at most one of the free
variables it reads, each variable with at most one equation, and no larger pairing exists. -/
theorem C19_equations_paired {F : Type} {counter : Nat} {ops : List (Op F)} {c : Client F} (h : Reaches counter ops c)
    {free : Finset Nat} (hf : ∀ v ∈ free, v < c.sys.vars.length) :
    ∃ m M, findMaximumMatching (maskedGraph c.sys.equationGraph free) = .ok m ∧
      (∀ v e, (v, e) ∈ M ↔ m.aToB.get? v = some e) ∧
      IsMaximumMatching (fun v e => v ∈ free ∧ ∃ ex, c.sys.expressions[e]? = some ex ∧ v ∈ ex.variableIndices) M := by
  obtain ⟨m, h1, h2, h3⟩ := masked_matching h.consistent (h.maskOk hf)
  refine ⟨m, m.pairs, h1, fun v e => h2.mem_pairs v e, ?_⟩
  have : (fun v e => v ∈ free ∧ ∃ ex, c.sys.expressions[e]? = some ex ∧ v ∈ ex.variableIndices) =
      CanPair c.sys.equationGraph.Reads free := by
    funext v e
    apply propext
    unfold CanPair ExprGraph.Reads
    rw [h.crel.rel.eqGraph.expressions, List.getElem?_map]
    simp
  rw [this]
  exact h3

/-- Case: an augmenting path is needed (variable 0 takes equation 0 first, variable 1 only reads equation 0). -/
example : okAnd (findMaximumMatching ⟨[0, 1], fun a => [[0, 1], [0]][a]?⟩) (fun m => m.aToB.length == 2) = true := by
  decide +kernel

/-! ## C20 -/

/-- C20 (all directed graphs): `find_strongly_connected_components` returns exactly the strongly connected components of the graph,
every vertex in exactly one of them, and each component after all components its edges lead to. -/
theorem C20_components_exact (g : VertexGraph) (hn : g.vertices.Nodup)
    (hnb : ∀ x ∈ g.vertices, ∃ l, g.neighbors x = some l ∧ ∀ y ∈ l, y ∈ g.vertices) (hs : g.vertices.length < 2 ^ 32 - 1) :
    ∃ sccs, tarjanPearce g = .ok sccs ∧ IsSccOrder g.vertices (fun x y => ∃ l, g.neighbors x = some l ∧ y ∈ l) sccs := by
  refine tarjanPearce_spec ⟨hn, fun x hx => ?_, ?_, by omega⟩
  · obtain ⟨l, hl, _⟩ := hnb x hx
    exact ⟨l, hl⟩
  · rintro x hx y ⟨l, hl, hy⟩
    obtain ⟨l', hl', hc⟩ := hnb x hx
    rw [hl] at hl'
    cases hl'
    exact hc y hy

/-- Equation `e` of the system reads variable `v`. -/
def System.ReadsVar {F : Type} (s : System F) (e v : Nat) : Prop := ∃ ex, s.expressions[e]? = some ex ∧ v ∈ ex.variableIndices

theorem Reaches.reads {F : Type} {counter : Nat} {ops : List (Op F)} {c : Client F} (h : Reaches counter ops c) :
    c.sys.equationGraph.Reads = c.sys.ReadsVar := by
  funext e v
  apply propext
  unfold ExprGraph.Reads System.ReadsVar
  rw [h.crel.rel.eqGraph.expressions, List.getElem?_map]
  simp

theorem Reaches.plan {F : Type} {counter : Nat} {ops : List (Op F)} {c : Client F} (h : Reaches counter ops c)
    {free : Finset Nat} (hf : ∀ v ∈ free, v < c.sys.vars.length) :
    ∃ plan M, c.sys.equationGraph.findStronglyConnectedExpressions free = .ok plan ∧
      IsMaximumMatching (CanPair c.sys.ReadsVar free) M ∧
      IsSccOrder (((stepsOf plan).map Prod.snd).flatten) (Feeds c.sys.ReadsVar free M) ((stepsOf plan).map Prod.snd).reverse ∧
      ((stepsOf plan).map Prod.snd).flatten.Nodup ∧
      (∀ e, e ∈ ((stepsOf plan).map Prod.snd).flatten ↔ ∃ v, (v, e) ∈ M) ∧
      PlanOk c.sys.ReadsVar free (stepsOf plan) ∧ InSolvingOrder c.sys.ReadsVar free (stepsOf plan) := by
  obtain ⟨plan, M, h1, h2, h3, h4, h5, h6⟩ := plan_spec h.consistent (h.maskOk hf)
  obtain ⟨h7, h8⟩ := plan_ok h2 h3 h5 h4 h6
  rw [h.reads] at h2 h3 h7 h8
  exact ⟨plan, M, h1, h2, h3, h4, h5, h7, h8⟩

/-- C20 for systems: the steps of a SinglePass plan are exactly the strongly connected components of the paired equations (`Feeds`:
one equation settles, or shares, a free variable the other reads), each paired equation is in exactly one step, and when a step is
reached every free variable it reads belongs to it or to an earlier step. -/
theorem C20_plan_blocks {F : Type} {counter : Nat} {ops : List (Op F)} {c : Client F} (h : Reaches counter ops c)
    {free : Finset Nat} (hf : ∀ v ∈ free, v < c.sys.vars.length) :
    ∃ plan M, c.sys.equationGraph.findStronglyConnectedExpressions free = .ok plan ∧
      IsMaximumMatching (CanPair c.sys.ReadsVar free) M ∧
      ((stepsOf plan).map Prod.snd).flatten.Nodup ∧
      (∀ e, e ∈ ((stepsOf plan).map Prod.snd).flatten ↔ ∃ v, (v, e) ∈ M) ∧
      (∀ s ∈ stepsOf plan, ∀ x ∈ s.2, ∀ y, y ∈ s.2 ↔ StronglyConnected (Feeds c.sys.ReadsVar free M) x y) ∧
      InSolvingOrder c.sys.ReadsVar free (stepsOf plan) := by
  obtain ⟨plan, M, h1, h2, h3, h4, h5, _, h7⟩ := h.plan hf
  refine ⟨plan, M, h1, h2, h4, h5, fun s hs => h3.exact s.2 ?_, h7⟩
  rw [List.mem_reverse]
  exact List.mem_map_of_mem hs

/-- Case: a cycle of two vertices that leads to a third. -/
example : okAnd (tarjanPearce ⟨[0, 1, 2], fun a => [[1], [0, 2], []][a]?⟩) (fun s => s == [[2], [0, 1]]) = true := by
  decide +kernel

/-- Case: equation 1 reads only variable 1 and is solved first, then equation 0 (which reads both) for variable 0. -/
example : okAnd (ExprGraph.findStronglyConnectedExpressions ⟨[[0], [0, 1]], [[0, 1], [1]]⟩ {0, 1})
    (fun p => p.map (·.expressions) == [[1], [0]] && p.map (fun b => ascending b.freeVariables) == [[1], [0]]) = true := by
  decide +kernel

/-! ## C21 -/

/-- C21: in a SinglePass plan each equation is solved at most once, the variables changed by different steps are disjoint, only free
variables are changed, and each step has at least as many variables as equations. -/
theorem C21_plan_steps_independent {F : Type} {counter : Nat} {ops : List (Op F)} {c : Client F} (h : Reaches counter ops c)
    {free : Finset Nat} (hf : ∀ v ∈ free, v < c.sys.vars.length) :
    ∃ plan, c.sys.equationGraph.findStronglyConnectedExpressions free = .ok plan ∧ PlanOk c.sys.ReadsVar free (stepsOf plan) := by
  obtain ⟨plan, _, h1, _, _, _, _, h6, _⟩ := h.plan hf
  exact ⟨plan, h1, h6⟩

/-- C21, in particular: a fixed variable is never changed, if the free variables are chosen (as `solve` does) outside the fixed
ones. -/
theorem C21_fixed_never_free {F : Type} {counter : Nat} {ops : List (Op F)} {c : Client F} (h : Reaches counter ops c)
    {free : Finset Nat} (hf : ∀ v ∈ free, v < c.sys.vars.length) (hd : Disjoint free c.sys.fixedVariables)
    {plan : List Block} (hp : c.sys.equationGraph.findStronglyConnectedExpressions free = .ok plan) :
    ∀ b ∈ plan, Disjoint b.freeVariables c.sys.fixedVariables := by
  obtain ⟨plan', h1, h2⟩ := C21_plan_steps_independent h hf
  rw [hp] at h1
  cases h1
  intro b hb
  exact Finset.disjoint_of_subset_left (h2.free (b.freeVariables, b.expressions) (by
    unfold stepsOf; exact List.mem_map_of_mem hb)) hd

/-- Case: a shared unpaired variable (variable 2) joins two equations into one step, so it is not fought over. -/
example : okAnd (ExprGraph.findStronglyConnectedExpressions ⟨[[0], [1], [0, 1]], [[0, 2], [1, 2]]⟩ {0, 1, 2})
    (fun p => p.map (·.expressions) == [[0, 1]] && p.map (fun b => ascending b.freeVariables) == [[0, 1, 2]]) = true := by
  decide +kernel

/-- Case: the graph of a reachable system (a point and two others at a distance, one of them fixed by the mask). -/
example : ∃ c : Client Nat, Reaches 0 [.createPoint 0 0, .createPoint 1 0, .createCon (.pointPointDistance 0 1 5)] c ∧
    ∀ v ∈ ({2, 3} : Finset Nat), v < c.sys.vars.length := by
  obtain ⟨c, h⟩ := exists_reaches (F := Nat) 0
    [.createPoint 0 0, .createPoint 1 0, .createCon (.pointPointDistance 0 1 5)] (by
      simp [Store.LegalRun, Store.Legal, Store.step, Store.empty, Store.ConOk, Store.IsPoint]) (by simp)
  refine ⟨c, h, ?_⟩
  rw [h.crel.rel.vars]
  simp [Store.run, Store.step, Store.empty, elemValues]

end Fiksi
