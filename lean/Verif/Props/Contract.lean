import Verif.Proofs.Contract
import Verif.Props.Dense
import Verif.Props.Decompose
import Verif.Props.Rng
/-!
# Property theorems: contraction of clusters
-/
namespace Fiksi
open Finset Spec

/-- C71 (partial): what the contraction of a cluster does (`recursive_assembly.rs:418-479`), whatever the order of hash sets. The core is replaced by one vertex; the other vertices keep their degrees of
freedom; each frontier vertex is joined to the new vertex as strongly as it was to the core, the other edges stay, and the vertices list the new edges. Edges may have any number of ends in the core. Missing: edges
between two frontier vertices (`C71_depends_on_hash_order`), and the count of degrees of freedom of the new vertex, which is not that of the method (`C71_count_wrong`). -/
theorem C71_contraction_partial {d : Int} {ord : HashOrder} (hord : ord.Ok) {step key : Nat} {S frontier : Finset Nat} {core : List Nat} {st st' : DState}
    (hg : Contractible st.graph st.available S frontier) (h : contract d ord step key S frontier core st = .ok st') :
    ∃ tied, Contracted st.graph st.vertices st.available S frontier core tied st'.graph st'.vertices st'.available := by
  obtain ⟨tied, h1, -⟩ := contract_spec hord hg h
  exact ⟨tied, h1⟩

theorem sum_getD (l : List Int) : ∑ i ∈ range l.length, l.getD i 0 = l.sum := by
  induction l with
  | nil => rfl
  | cons a l ih => rw [List.length_cons, sum_range_succ', List.sum_cons, ← ih, add_comm]; rfl

theorem sum_pull {g : DGraph} {edges S frontier : Finset Nat} (hg : Contractible g edges S frontier) [DecidablePred (Meets g frontier)] :
    ∑ f ∈ frontier, pull g edges S f = ∑ e ∈ edges with Inside g S e ∧ Meets g frontier e, valencyAt g e := by
  have e : edges.filter (fun e => Inside g S e ∧ Meets g frontier e) = frontier.biUnion (fun f => edges.filter (fun e => f ∈ endsOf g e ∧ Inside g S e)) := by
    ext e
    rw [mem_filter, mem_biUnion]
    simp only [mem_filter]
    constructor
    · rintro ⟨h1, h2, f, h3, h4⟩
      exact ⟨f, h3, h1, h4, h2⟩
    · rintro ⟨f, h3, h1, h4, h2⟩
      exact ⟨h1, h2, f, h3, h4⟩
  rw [e, sum_biUnion]
  · rfl
  · intro f hf f' hf' hne
    rw [Function.onFun, disjoint_left]
    intro x h1 h2
    rw [mem_filter] at h1 h2
    obtain ⟨⟨y, h5⟩, -⟩ := hg.one x h1.1 h1.2.2 ⟨f, hf, h1.2.1⟩
    exact hne (one_end h5 hf h1.2.1 hf' h2.2.1)

/-- C71 (partial): the count of degrees of freedom. A set that contains the contracted cluster counts what it counted before, with the cluster's own count replaced by `2·(Σ dof of the frontier − Σ
valencies to the core) − D`. In the method (Hoffmann, Lomonosov, Sitharam) it is replaced by `D`, the freedom of a rigid body; the code has the opposite sign in
`total_frontier_vertex_dof - total_incoming_edge_valency - D` (`recursive_assembly.rs:473-475`). -/
theorem C71_count_partial {d : Int} {ord : HashOrder} (hord : ord.Ok) {step key : Nat} {S frontier : Finset Nat} {core : List Nat} {st st' : DState}
    (hg : Contractible st.graph st.available S frontier) (h : contract d ord step key S frontier core st = .ok st')
    (hends : ∀ e ∈ st.available, endsOf st.graph e ≠ [] ∧ (∀ u ∈ endsOf st.graph e, u < st.graph.elements.length) ∧ 0 ≤ valencyAt st.graph e)
    (hS : frontier = S \ core.toFinset) (hsub : core.toFinset ⊆ S)
    (hcore : ∀ e ∈ st.available, (∃ u ∈ endsOf st.graph e, u ∈ core) → Inside st.graph S e ∧ Meets st.graph frontier e)
    (htied : ∃ f ∈ frontier, 0 < pull st.graph st.available S f) {T : Finset Nat} (hST : S ⊆ T) (hT : ∀ v ∈ T, v < st.graph.elements.length) :
    freedom st'.graph st'.available (insert st.graph.elements.length (T \ core.toFinset)) = freedom st.graph st.available T - freedom st.graph st.available S +
      (2 * (∑ f ∈ frontier, dofAt st.graph f - ∑ f ∈ frontier, pull st.graph st.available S f) - d) := by
  classical
  obtain ⟨tied, hc, hd, -⟩ := contract_spec hord hg h
  have hne : tied ≠ [] := by
    obtain ⟨f, h1, h2⟩ := htied
    exact List.ne_nil_of_mem ((hc.mem_tied f).2 ⟨h1, h2⟩)
  rw [if_neg hne] at hd
  -- only tied vertices pull
  have hpull0 : ∀ f, 0 ≤ pull st.graph st.available S f := fun f => sum_nonneg fun e he => (hends e (mem_filter.1 he).1).2.2
  have hV : (tied.map (pull st.graph st.available S)).sum = ∑ f ∈ frontier, pull st.graph st.available S f := by
    rw [← List.sum_toFinset _ hc.nodup]
    refine sum_subset (fun f hf => ((hc.mem_tied f).1 (List.mem_toFinset.1 hf)).1) fun f hf hf' => ?_
    have h1 : ¬ 0 < pull st.graph st.available S f := fun h1 => hf' (List.mem_toFinset.2 ((hc.mem_tied f).2 ⟨hf, h1⟩))
    have := hpull0 f
    omega
  set c := st.graph.elements.length with hcdef
  set m := st.graph.constraints.length with hmdef
  set V := ∑ f ∈ frontier, pull st.graph st.available S f with hVdef
  -- vertices
  have hcT : c ∉ T \ core.toFinset := fun hcc => (hT c (mem_sdiff.1 hcc).1).false
  have hdofs : ∑ v ∈ T \ core.toFinset, dofAt st'.graph v = ∑ v ∈ T \ core.toFinset, dofAt st.graph v := sum_congr rfl fun v hv => hc.dof v (hT v (mem_sdiff.1 hv).1)
  have hTsum := sum_sdiff (f := dofAt st.graph) (hsub.trans hST)
  have hSsum := sum_sdiff (f := dofAt st.graph) hsub
  rw [← hS] at hSsum
  -- edges
  let rest := st.available.filter (fun e => Inside st.graph T e ∧ ¬ (Inside st.graph S e ∧ Meets st.graph frontier e))
  have hold : ∀ e, e < m → endsOf st'.graph e = endsOf st.graph e ∧ valencyAt st'.graph e = valencyAt st.graph e := fun e he =>
    ⟨endsOf_append hc.constraints he, valencyAt_append hc.constraints he⟩
  have hinT : ∑ e ∈ st.available with (∀ u ∈ endsOf st.graph e, u ∈ T), valencyAt st.graph e = ∑ e ∈ rest, valencyAt st.graph e + V := by
    rw [hVdef, sum_pull hg, ← sum_filter_add_sum_filter_not (st.available.filter (fun e => ∀ u ∈ endsOf st.graph e, u ∈ T)) (fun e => Inside st.graph S e ∧ Meets st.graph frontier e), add_comm, filter_filter,
      filter_filter]
    congr 1
    refine sum_congr (filter_congr fun e _ => ⟨fun h1 => h1.2, fun h1 => ⟨fun u hu => hST (h1.1 u hu), h1⟩⟩) fun _ _ => rfl
  have hinS : ∑ e ∈ st.available with (∀ u ∈ endsOf st.graph e, u ∈ S), valencyAt st.graph e = V := by
    rw [hVdef, sum_pull hg]
    refine sum_congr (filter_congr fun e he => ⟨fun h1 => ⟨h1, ?_⟩, fun h1 => h1.1⟩) fun _ _ => rfl
    obtain ⟨u, hu⟩ := List.exists_mem_of_ne_nil _ (hends e he).1
    by_cases huc : u ∈ core
    · exact (hcore e he ⟨u, hu, huc⟩).2
    · exact ⟨u, by rw [hS]; exact mem_sdiff.2 ⟨h1 u hu, fun h2 => huc (List.mem_toFinset.1 h2)⟩, hu⟩
  have hsplit : st'.available.filter (fun e => ∀ u ∈ endsOf st'.graph e, u ∈ insert c (T \ core.toFinset)) = rest ∪ (range tied.length).image (fun i => m + i) := by
    ext e
    simp only [mem_filter, mem_union, hc.edges, mem_image, mem_range, rest]
    constructor
    · rintro ⟨⟨h1, h2⟩ | h1, h3⟩
      · have hlt := hg.range e h1
        rw [(hold e hlt).1] at h3
        refine .inl ⟨h1, fun u hu => ?_, h2⟩
        have := h3 u hu
        rw [mem_insert] at this
        rcases this with rfl | h4
        · exact absurd ((hends e h1).2.1 _ hu) (lt_irrefl _)
        · exact (mem_sdiff.1 h4).1
      · exact .inr ⟨e - m, by omega, by omega⟩
    · rintro (⟨h1, h2, h3⟩ | ⟨i, h1, rfl⟩)
      · have hlt := hg.range e h1
        refine ⟨.inl ⟨h1, h3⟩, fun u hu => ?_⟩
        rw [(hold e hlt).1] at hu
        exact mem_insert_of_mem (mem_sdiff.2 ⟨h2 u hu, fun h4 => h3 (hcore e h1 ⟨u, hu, List.mem_toFinset.1 h4⟩)⟩)
      · obtain ⟨f, hf⟩ : ∃ f, tied[i]? = some f := ⟨_, List.getElem?_eq_getElem h1⟩
        refine ⟨.inr (by omega), fun u hu => ?_⟩
        rw [endsOf_new hc.constraints hf] at hu
        simp only [List.mem_cons, List.not_mem_nil, or_false] at hu
        rcases hu with rfl | rfl
        · have hfr := ((hc.mem_tied _).1 (List.mem_of_getElem? hf)).1
          rw [hS] at hfr
          exact mem_insert_of_mem (mem_sdiff.2 ⟨hST (mem_sdiff.1 hfr).1, (mem_sdiff.1 hfr).2⟩)
        · exact mem_insert_self _ _
  have hdisj : Disjoint rest ((range tied.length).image (fun i => m + i)) := by
    rw [disjoint_left]
    intro e h1 h2
    obtain ⟨i, -, rfl⟩ := mem_image.1 h2
    have := hg.range _ (mem_filter.1 h1).1
    omega
  have hnew : ∑ i ∈ range tied.length, valencyAt st'.graph (m + i) = V := by
    rw [← hV, ← sum_getD, List.length_map]
    refine sum_congr rfl fun i hi => ?_
    obtain ⟨f, hf⟩ : ∃ f, tied[i]? = some f := ⟨_, List.getElem?_eq_getElem (mem_range.1 hi)⟩
    rw [valencyAt, hc.constraints, List.getElem?_append_right (by omega)]
    simp [← hmdef, hf]
  unfold freedom
  rw [sum_insert hcT, hdofs, hd, hV, hsplit, sum_union hdisj, sum_image (fun a _ b _ hab => Nat.add_left_cancel hab), hinT, hinS]
  rw [hnew, sum_congr rfl fun e he => (hold e (hg.range e (mem_filter.1 he).1)).2]
  linarith

/-! ## States of the loop -/

/-- The state of `decompose` after `n` rounds of its loop, each with a dense subgraph found. -/
def roundsFrom (d : Int) (ord : HashOrder) (numRealElements numRealConstraints : Nat) : Nat → Nat → DState → R DState
  | 0, _, st => .ok st
  | n + 1, step, st => do
      let env : DenseEnv := ⟨st.graph, st.blocked, st.available, st.vertices, -(d + 1)⟩
      match ← env.denseBfs ord step with
      | none => .error .outOfFuel
      | some subgraph => do
          let st ← assembleStep d ord numRealElements numRealConstraints step subgraph st
          roundsFrom d ord numRealElements numRealConstraints n (step + 1) st

/-- The loop goes through these states. -/
theorem decomposeLoop_rounds {d : Int} {ord : HashOrder} {nE nC : Nat} (n : Nat) {step : Nat} {st st' : DState} (h : roundsFrom d ord nE nC n step st = .ok st') (fuel : Nat) :
    decomposeLoop d ord nE nC (fuel + n) step st = decomposeLoop d ord nE nC fuel (step + n) st' := by
  induction n generalizing step st with
  | zero =>
    simp only [roundsFrom, Except.ok.injEq] at h
    rw [h]; rfl
  | succ n ih =>
    simp only [roundsFrom, bind_eq_ok] at h
    obtain ⟨r, h1, h2⟩ := h
    cases r with
    | none => cases h2
    | some S =>
      simp only [bind_eq_ok] at h2
      obtain ⟨st1, h3, h4⟩ := h2
      rw [← add_assoc]
      simp only [decomposeLoop, h1, ok_bind, h3]
      rw [ih h4, Nat.add_assoc, Nat.add_comm 1]

/-- The state in which `decompose` starts. -/
def startState (g : DGraph) (vertices edges : Finset Nat) : DState where
  graph := g
  vertices := vertices
  available := edges
  constraintsHandled := ∅
  verticesHandled := ∅
  onFrontiers := []
  ownedElements := []
  owningCluster := []
  frontierElements := []
  blocked := []
  steps := []
  stepConstraints := []
  stepFixes := []

/-- The state of `decompose::<3>` for a component after `n` rounds. -/
def System.planAfter (s : System F) (ord : HashOrder) (comp : Component) (n : Nat) : R DState :=
  roundsFrom 3 ord s.graph.toD.elements.length s.graph.toD.constraints.length n 0 (startState s.graph.toD comp.elements comp.constraints)

/-- `decompose` goes on from that state. -/
theorem System.planAfter_goes_on {s : System F} {ord : HashOrder} {comp : Component} {n : Nat} {st : DState} (h : s.planAfter ord comp n = .ok st) (h1 : s.graph.toD.elements.length < 2 ^ 32)
    (h2 : s.graph.toD.constraints.length < 2 ^ 32) {fuel : Nat} (hn : fuel + n = 2 ^ (comp.elements.card + 1)) :
    decompose 3 ord s.graph.toD comp.elements comp.constraints = decomposeLoop 3 ord s.graph.toD.elements.length s.graph.toD.constraints.length fuel n st := by
  simp only [decompose, toU32_of h1, toU32_of h2, ok_bind, ← hn]
  exact (decomposeLoop_rounds n h fuel).trans (by rw [Nat.zero_add])

theorem okAnd_exists {α : Type} {x : R α} {p : α → Bool} (h : okAnd x p = true) : ∃ a, x = .ok a ∧ p a = true := by
  cases x with
  | error e => cases h
  | ok a => exact ⟨a, rfl, h⟩

/-- Four points in a row, each at a distance from the next. -/
def rowOps : List (Op Int) :=
  [.createPoint 0 0, .createPoint 1 0, .createPoint 2 0, .createPoint 3 0, .createCon (.pointPointDistance 0 1 1), .createCon (.pointPointDistance 1 2 1), .createCon (.pointPointDistance 2 3 1)]

/-- C71 fails for the count: four points in a row. The points 0, 1, 2 are made a cluster with the core 0, 1; it has four degrees of freedom, as a rigid body it would have three. After the contraction it
counts for -1: the new vertex has -2 degrees of freedom. -/
theorem C71_count_wrong : ∃ c, Reaches 0 rowOps c ∧ ∃ comp, c.sys.graph.components = [comp] ∧ freedom c.sys.graph.toD comp.constraints {0, 1, 2} = 4 ∧
    ∃ ord, HashOrder.Ok ord ∧ ∃ st, c.sys.planAfter ord comp 4 = .ok st ∧ st.vertices = {2, 3, 4} ∧ dofAt st.graph 4 = -2 ∧ freedom st.graph st.available {2, 4} = -1 := by
  obtain ⟨c, h⟩ := exists_reaches 0 rowOps (by simp [rowOps, Store.LegalRun, Store.Legal, Store.empty, Store.step, Store.IsPoint, Store.ConOk]) (by simp [rowOps])
  obtain ⟨h1, h2⟩ := component_of_run (g := ⟨[⟨2, [0]⟩, ⟨2, [0, 1]⟩, ⟨2, [1, 2]⟩, ⟨2, [2]⟩], [⟨1, [0, 1]⟩, ⟨1, [1, 2]⟩, ⟨1, [2, 3]⟩]⟩) (V := {0, 1, 2, 3}) (E := {0, 1, 2}) h (by decide +kernel)
  refine ⟨c, h, _, h2, by rw [h1]; decide +kernel, ascendingOrder, ascendingOrder_ok, ?_⟩
  have h3 : okAnd (roundsFrom 3 ascendingOrder 4 3 4 0 (startState ⟨[⟨2, [0]⟩, ⟨2, [0, 1]⟩, ⟨2, [1, 2]⟩, ⟨2, [2]⟩], [⟨1, [0, 1]⟩, ⟨1, [1, 2]⟩, ⟨1, [2, 3]⟩]⟩ {0, 1, 2, 3} {0, 1, 2}))
      (fun st => decide (st.vertices = {2, 3, 4} ∧ dofAt st.graph 4 = -2 ∧ freedom st.graph st.available {2, 4} = -1)) = true := by decide +kernel
  rw [System.planAfter, h1]
  obtain ⟨st, h4, h5⟩ := okAnd_exists h3
  exact ⟨st, h4, of_decide_eq_true h5⟩

/-- Five points: a quadrangle 0, 1, 3, 2 and a point joined to 2 and 3. -/
def houseOps : List (Op Int) :=
  [.createPoint 0 0, .createPoint 1 0, .createPoint 0 1, .createPoint 1 1, .createPoint 0 2, .createCon (.pointPointDistance 0 1 1), .createCon (.pointPointDistance 0 2 1),
   .createCon (.pointPointDistance 1 3 1), .createCon (.pointPointDistance 2 3 1), .createCon (.pointPointDistance 2 4 1), .createCon (.pointPointDistance 3 4 1)]

/-- Ascending, except for the frontier in the contraction of round 13. -/
def turnedOrder : HashOrder := fun tag s => if tag = [13, 4] then (ascending s).reverse else ascending s

theorem turnedOrder_ok : turnedOrder.Ok := by
  intro tag s
  unfold turnedOrder
  have h := ascendingOrder_ok tag s
  split
  · exact ⟨List.nodup_reverse.2 h.1, fun x => by rw [List.mem_reverse]; exact h.2 x⟩
  · exact h

/-- C71 fails where two frontier vertices are joined: the edge between them becomes an edge to the core, at the vertex that the hash set lists first. The points 2 and 3 are each joined to the core 0, 1 by
one distance, and there is one distance between them: after the contraction one of them is joined to the core with valency 2, and nothing says that they have a distance. -/
theorem C71_depends_on_hash_order : ∃ c, Reaches 0 houseOps c ∧ ∃ comp, c.sys.graph.components = [comp] ∧ ∃ ord ord', HashOrder.Ok ord ∧ HashOrder.Ok ord' ∧ ∃ st st',
    c.sys.planAfter ord comp 14 = .ok st ∧ c.sys.planAfter ord' comp 14 = .ok st' ∧ st.vertices = {2, 3, 4, 5} ∧ st'.vertices = {2, 3, 4, 5} ∧
    pull st.graph st.available {2, 5} 2 = 2 ∧ pull st.graph st.available {3, 5} 3 = 1 ∧ pull st.graph st.available {2, 3} 2 = 0 ∧
    pull st'.graph st'.available {2, 5} 2 = 1 ∧ pull st'.graph st'.available {3, 5} 3 = 2 := by
  obtain ⟨c, h⟩ := exists_reaches 0 houseOps (by simp [houseOps, Store.LegalRun, Store.Legal, Store.empty, Store.step, Store.IsPoint, Store.ConOk]) (by simp [houseOps])
  obtain ⟨h1, h2⟩ := component_of_run (g := ⟨[⟨2, [0, 1]⟩, ⟨2, [0, 2]⟩, ⟨2, [1, 3, 4]⟩, ⟨2, [2, 3, 5]⟩, ⟨2, [4, 5]⟩],
    [⟨1, [0, 1]⟩, ⟨1, [0, 2]⟩, ⟨1, [1, 3]⟩, ⟨1, [2, 3]⟩, ⟨1, [2, 4]⟩, ⟨1, [3, 4]⟩]⟩) (V := {0, 1, 2, 3, 4}) (E := {0, 1, 2, 3, 4, 5}) h (by decide +kernel)
  refine ⟨c, h, _, h2, ascendingOrder, turnedOrder, ascendingOrder_ok, turnedOrder_ok, ?_⟩
  have h3 : okAnd (roundsFrom 3 ascendingOrder 5 6 14 0 (startState ⟨[⟨2, [0, 1]⟩, ⟨2, [0, 2]⟩, ⟨2, [1, 3, 4]⟩, ⟨2, [2, 3, 5]⟩, ⟨2, [4, 5]⟩],
      [⟨1, [0, 1]⟩, ⟨1, [0, 2]⟩, ⟨1, [1, 3]⟩, ⟨1, [2, 3]⟩, ⟨1, [2, 4]⟩, ⟨1, [3, 4]⟩]⟩ {0, 1, 2, 3, 4} {0, 1, 2, 3, 4, 5}))
      (fun st => decide (st.vertices = {2, 3, 4, 5} ∧ pull st.graph st.available {2, 5} 2 = 2 ∧ pull st.graph st.available {3, 5} 3 = 1 ∧ pull st.graph st.available {2, 3} 2 = 0)) = true := by decide +kernel
  have h4 : okAnd (roundsFrom 3 turnedOrder 5 6 14 0 (startState ⟨[⟨2, [0, 1]⟩, ⟨2, [0, 2]⟩, ⟨2, [1, 3, 4]⟩, ⟨2, [2, 3, 5]⟩, ⟨2, [4, 5]⟩],
      [⟨1, [0, 1]⟩, ⟨1, [0, 2]⟩, ⟨1, [1, 3]⟩, ⟨1, [2, 3]⟩, ⟨1, [2, 4]⟩, ⟨1, [3, 4]⟩]⟩ {0, 1, 2, 3, 4} {0, 1, 2, 3, 4, 5}))
      (fun st => decide (st.vertices = {2, 3, 4, 5} ∧ pull st.graph st.available {2, 5} 2 = 1 ∧ pull st.graph st.available {3, 5} 3 = 2)) = true := by decide +kernel
  simp only [System.planAfter, h1]
  obtain ⟨st, h5, h6⟩ := okAnd_exists h3
  obtain ⟨st', h7, h8⟩ := okAnd_exists h4
  obtain ⟨a1, a2, a3, a4⟩ := of_decide_eq_true h6
  obtain ⟨b1, b2, b3⟩ := of_decide_eq_true h8
  exact ⟨st, st', h5, h7, a1, b1, a2, a3, a4, b2, b3⟩

/-- Case: the contraction of the row of points (after the edge inside the core has been taken out) meets the hypotheses of `C71_contraction_partial` and `C71_count_partial`. -/
example : let g : DGraph := ⟨[⟨2, [0]⟩, ⟨2, [0, 1]⟩, ⟨2, [1, 2]⟩, ⟨2, [2]⟩], [⟨1, [0, 1]⟩, ⟨1, [1, 2]⟩, ⟨1, [2, 3]⟩]⟩
    let st := startState g {0, 1, 2, 3} {1, 2}
    Contractible g {1, 2} {0, 1, 2} {2} ∧ (∃ st', contract 3 ascendingOrder 0 0 {0, 1, 2} {2} [0, 1] st = .ok st') ∧
    (∀ e ∈ st.available, endsOf g e ≠ [] ∧ (∀ u ∈ endsOf g e, u < g.elements.length) ∧ 0 ≤ valencyAt g e) ∧ ({2} : Finset Nat) = {0, 1, 2} \ [0, 1].toFinset ∧ [0, 1].toFinset ⊆ ({0, 1, 2} : Finset Nat) ∧
    (∀ e ∈ st.available, (∃ u ∈ endsOf g e, u ∈ [0, 1]) → Inside g {0, 1, 2} e ∧ Meets g {2} e) ∧ ∃ f ∈ ({2} : Finset Nat), 0 < pull g {1, 2} {0, 1, 2} f := by
  refine ⟨⟨by decide, by decide, ?_, ?_⟩, ?_, by decide, by decide, by decide, ?_, by decide +kernel⟩
  · intro f hf
    rw [mem_singleton] at hf
    subst hf
    exact ⟨_, rfl, by decide, by decide, by decide⟩
  · intro e he h1 h2
    simp only [mem_insert, mem_singleton] at he
    rcases he with rfl | rfl
    · exact ⟨⟨2, by decide⟩, 1, by decide, by decide⟩
    · exact absurd h1 (by decide)
  · have h : okAnd (contract 3 ascendingOrder 0 0 {0, 1, 2} {2} [0, 1] (startState ⟨[⟨2, [0]⟩, ⟨2, [0, 1]⟩, ⟨2, [1, 2]⟩, ⟨2, [2]⟩], [⟨1, [0, 1]⟩, ⟨1, [1, 2]⟩, ⟨1, [2, 3]⟩]⟩ {0, 1, 2, 3} {1, 2}))
        (fun _ => true) = true := by decide +kernel
    obtain ⟨a, ha, -⟩ := okAnd_exists h
    exact ⟨a, ha⟩
  · intro e he
    simp only [startState, mem_insert, mem_singleton] at he
    rcases he with rfl | rfl
    · exact fun _ => ⟨by decide, 2, by decide, by decide⟩
    · exact fun h => absurd h (by decide)

/-- Case: an edge of three ends with two of them in the core (an angle at point 2) becomes an edge of two ends and is counted once. -/
example : let g : DGraph := ⟨[⟨2, [0, 1]⟩, ⟨2, [0, 1]⟩, ⟨2, [1, 2]⟩, ⟨2, [2]⟩], [⟨1, [0, 1]⟩, ⟨2, [0, 2, 1]⟩, ⟨1, [2, 3]⟩]⟩
    let st := startState g {0, 1, 2, 3} {1, 2}
    Contractible g {1, 2} {0, 1, 2} {2} ∧ pull g {1, 2} {0, 1, 2} 2 = 2 ∧ ∃ st', contract 3 ascendingOrder 0 0 {0, 1, 2} {2} [0, 1] st = .ok st' := by
  refine ⟨⟨by decide, by decide, ?_, ?_⟩, by decide +kernel, ?_⟩
  · intro f hf
    rw [mem_singleton] at hf
    subst hf
    exact ⟨_, rfl, by decide, by decide, by decide⟩
  · intro e he h1 h2
    simp only [mem_insert, mem_singleton] at he
    rcases he with rfl | rfl
    · exact ⟨⟨2, by decide⟩, 0, by decide, by decide⟩
    · exact absurd h1 (by decide)
  · have h : okAnd (contract 3 ascendingOrder 0 0 {0, 1, 2} {2} [0, 1] (startState ⟨[⟨2, [0, 1]⟩, ⟨2, [0, 1]⟩, ⟨2, [1, 2]⟩, ⟨2, [2]⟩], [⟨1, [0, 1]⟩, ⟨2, [0, 2, 1]⟩, ⟨1, [2, 3]⟩]⟩ {0, 1, 2, 3} {1, 2}))
        (fun _ => true) = true := by decide +kernel
    obtain ⟨a, ha, -⟩ := okAnd_exists h
    exact ⟨a, ha⟩

end Fiksi
