import Verif.Model.DecomposeI16
import Verif.Proofs.DenseBfs
/-! # The `i16` counts of recursive assembly against unbounded integers: when one returns, so does the other -/
namespace Fiksi

/-- What the first returns, the second returns. -/
def Below {α : Type} (a b : R α) : Prop := ∀ r, a = .ok r → b = .ok r

namespace Below
variable {α β σ : Type}

theorem refl (a : R α) : Below a a := fun _ h => h

theorem bind {a b : R α} {f g : α → R β} (h : Below a b) (h' : ∀ x, Below (f x) (g x)) : Below (a >>= f) (b >>= g) := by
  intro r hr
  rw [bind_eq_ok] at hr
  obtain ⟨x, h1, h2⟩ := hr
  rw [h x h1, ok_bind]
  exact h' x r h2

theorem ite {c : Prop} [Decidable c] {a b a' b' : R α} (h : Below a b) (h' : Below a' b') :
    Below (if c then a else a') (if c then b else b') := by
  split
  · exact h
  · exact h'

theorem foldlM {f g : σ → α → R σ} (h : ∀ s a, Below (f s a) (g s a)) : ∀ (l : List α) (s : σ), Below (l.foldlM f s) (l.foldlM g s) := by
  intro l
  induction l with
  | nil => intro s; exact .refl _
  | cons a l ih =>
    intro s
    rw [List.foldlM_cons, List.foldlM_cons]
    exact (h s a).bind ih

end Below

/-- A rounding of results that never returns a wrong number. -/
def Narrow.Honest (narrow : Narrow) : Prop := ∀ x y, narrow x = .ok y → y = x

theorem checkedI16_honest : checkedI16.Honest := by
  intro x y h
  rw [checkedI16] at h
  split at h
  · cases h; rfl
  · cases h

variable {narrow : Narrow}

theorem Narrow.Honest.bind (hn : narrow.Honest) {x : Int} {α : Type} {f g : Int → R α} (h : ∀ y, Below (f y) (g y)) :
    Below (narrow x >>= f) (g x) := by
  intro r hr
  rw [bind_eq_ok] at hr
  obtain ⟨y, h1, h2⟩ := hr
  obtain rfl := hn x y h1
  exact h y r h2

theorem additionalValencyN_below (hn : narrow.Honest) (g : DGraph) (available next : Finset Nat) (vertex : Nat) :
    Below (g.additionalValencyN narrow available next vertex) (g.additionalValency available next vertex) := by
  refine (Below.refl _).bind (fun es => Below.foldlM (fun add e => (Below.refl _).bind (fun edge => ?_)) es 0)
  split
  · intro r hr
    rw [hn _ r hr]
    rfl
  · exact .refl _

theorem expandN_below (hn : narrow.Honest) (env : DenseEnv) (st : SubgraphState) : ∀ (l : List Nat) (new : List SubgraphState),
    Below (env.expandN narrow st l new) (env.expand st l new) := by
  intro l
  induction l with
  | nil => intro new; exact .refl _
  | cons v l ih =>
    intro new
    rw [DenseEnv.expandN, DenseEnv.expand]
    refine (additionalValencyN_below hn _ _ _ _).bind (fun val => (Below.refl _).bind (fun el => ?_))
    refine hn.bind (g := fun sum => if insert v st.subgraph ∉ env.blocked ∧ sum - val > env.k then .ok (.inl (insert v st.subgraph))
      else do
        let adjacent ← env.graph.extendAdjacent env.available env.vertices (insert v st.subgraph) v (st.adjacent.erase v)
        env.expand st l (new ++ [⟨insert v st.subgraph, sum - val, adjacent, v :: st.path⟩])) (fun sum => ?_)
    refine hn.bind (g := fun nextDof => if insert v st.subgraph ∉ env.blocked ∧ nextDof > env.k then .ok (.inl (insert v st.subgraph))
      else do
        let adjacent ← env.graph.extendAdjacent env.available env.vertices (insert v st.subgraph) v (st.adjacent.erase v)
        env.expand st l (new ++ [⟨insert v st.subgraph, nextDof, adjacent, v :: st.path⟩])) (fun nextDof => ?_)
    exact .ite (.refl _) ((Below.refl _).bind (fun adj => ih _))

theorem searchN_below (hn : narrow.Honest) (env : DenseEnv) (ord : HashOrder) (step : Nat) : ∀ (fuel : Nat) (q : List SubgraphState),
    Below (env.searchN narrow ord step fuel q) (env.search ord step fuel q) := by
  intro fuel
  induction fuel with
  | zero => intro q; cases q <;> exact .refl _
  | succ fuel ih =>
    intro q
    cases q with
    | nil => exact .refl _
    | cons st q =>
      rw [DenseEnv.searchN, DenseEnv.search]
      refine (expandN_below hn env st _ _).bind (fun x => ?_)
      cases x with
      | inl f => exact .refl _
      | inr new => exact ih _

theorem denseBfsN_below (hn : narrow.Honest) (env : DenseEnv) (ord : HashOrder) (step : Nat) :
    Below (env.denseBfsN narrow ord step) (env.denseBfs ord step) :=
  (Below.refl _).bind (fun _ => searchN_below hn env ord step _ _)

theorem contractEdgesN_below (hn : narrow.Honest) (sub frontier : Finset Nat) (core : Nat) (edges : List Nat) (st : DState) :
    Below (contractEdgesN narrow sub frontier core edges st) (contractEdges sub frontier core edges st) := by
  refine Below.foldlM (fun bs e => ?_) _ _
  refine .ite (.refl _) ((Below.refl _).bind (fun edge => .ite ?_ (.refl _)))
  refine .ite ?_ (.refl _)
  exact hn.bind (g := fun sum => pure (sum, { bs.2 with available := bs.2.available.erase e })) (fun _ => .refl _)

theorem contractVertexN_below (hn : narrow.Honest) (sub frontier : Finset Nat) (core : Nat) (cs : ContractState) (v : Nat) :
    Below (contractVertexN narrow sub frontier core cs v) (contractVertex sub frontier core cs v) := by
  rw [contractVertexN, contractVertex]
  refine (Below.refl _).bind (fun el => ?_)
  refine hn.bind (g := fun total => do
    let (valency, st) ← contractEdges sub frontier core el.incidentConstraints cs.st
    let cs := { cs with st := st, totalFrontierDof := total }
    if valency > 0 then do
      let (id, g) ← cs.st.graph.addEdge valency v core
      pure { cs with
        st := { cs.st with graph := g, available := insert id cs.st.available }
        totalIncomingValency := cs.totalIncomingValency + valency }
    else pure cs) (fun total => ?_)
  refine (contractEdgesN_below hn _ _ _ _ _).bind (fun vs => .ite ((Below.refl _).bind (fun ig => ?_)) (.refl _))
  exact hn.bind (g := fun incoming => pure (⟨{ vs.2 with graph := ig.2, available := insert ig.1 vs.2.available }, total, incoming⟩ : ContractState))
    (fun _ => .refl _)

theorem contractN_below (hn : narrow.Honest) (d : Int) (ord : HashOrder) (step key : Nat) (sub frontier : Finset Nat) (core : List Nat)
    (st : DState) : Below (contractN narrow d ord step key sub frontier core st) (contract d ord step key sub frontier core st) := by
  refine (Below.refl _).bind (fun id => (Below.foldlM (fun cs v => contractVertexN_below hn _ _ _ cs v) _ _).bind (fun cs => ?_))
  refine .ite ((Below.refl _).bind (fun el => ?_)) (.refl _)
  refine hn.bind (g := fun left => do
    let es ← setIdx cs.st.graph.elements id { el with dof := left - d }
    pure { cs.st with graph := { cs.st.graph with elements := es } }) (fun left => ?_)
  exact hn.bind (g := fun dof => do
    let es ← setIdx cs.st.graph.elements id { el with dof := dof }
    pure { cs.st with graph := { cs.st.graph with elements := es } }) (fun _ => .refl _)

theorem assembleStepN_below (hn : narrow.Honest) (d : Int) (ord : HashOrder) (nE nC step : Nat) (sub : Finset Nat) (st : DState) :
    Below (assembleStepN narrow d ord nE nC step sub st) (assembleStep d ord nE nC step sub st) :=
  (Below.refl _).bind (fun _ => (Below.refl _).bind (fun _ => .ite (.refl _) (contractN_below hn _ _ _ _ _ _ _ _)))

theorem decomposeLoopN_below (hn : narrow.Honest) (d : Int) (ord : HashOrder) (nE nC : Nat) : ∀ (fuel step : Nat) (st : DState),
    Below (decomposeLoopN narrow d ord nE nC fuel step st) (decomposeLoop d ord nE nC fuel step st) := by
  intro fuel
  induction fuel with
  | zero => intro step st; exact .refl _
  | succ fuel ih =>
    intro step st
    rw [decomposeLoopN, decomposeLoop]
    refine (denseBfsN_below hn _ _ _).bind (fun r => ?_)
    cases r with
    | none => exact .refl _
    | some sub => exact (assembleStepN_below hn _ _ _ _ _ _ _).bind (fun st' => ih _ _)

theorem decomposeN_below (hn : narrow.Honest) (d : Int) (ord : HashOrder) (g : DGraph) (V E : Finset Nat) :
    Below (decomposeN narrow d ord g V E) (decompose d ord g V E) :=
  (Below.refl _).bind (fun _ => (Below.refl _).bind (fun _ => decomposeLoopN_below hn _ _ _ _ _ _ _))

section
variable {F : Type} [Add F] [Sub F] [Mul F] [Div F] [Neg F] [Zero F] [One F] [FloatOps F]

theorem solveN_below (hn : narrow.Honest) (optimize : Optimize F) (ord : HashOrder) (opts : SolvingOptions) (s : System F) :
    Below (s.solveN narrow optimize ord opts) (s.solve optimize ord opts) := by
  refine (Below.foldlM (fun st ck => ?_) _ _).bind (fun _ => .refl _)
  refine .ite (.refl _) ((Below.refl _).bind (fun free => (Below.refl _).bind (fun st' => ?_)))
  cases opts.decomposer with
  | none => exact .refl _
  | singlePass => exact .refl _
  | recursiveAssembly => exact (decomposeN_below hn _ _ _ _ _).bind (fun _ => .refl _)

end

end Fiksi
