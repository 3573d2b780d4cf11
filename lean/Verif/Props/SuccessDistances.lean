import Verif.Proofs.PairSolve
/-!
# C62 for recursive assembly of distances between points
-/
namespace Fiksi
open Spec Spec.Geo

section
variable {counter : Nat} {ops : List (Op ℝ)} {c : Client ℝ} (h : Reaches counter ops c) (hdist : ((Store.empty ℝ).run ops).Distances)
  (hn : NeverJoins ((Store.empty ℝ).run ops).arguments) {optimize : Optimize ℝ} {ε : ℝ} (hatt : optimize.Attains ε) (hε : 0 ≤ ε)
  (hs : c.sys.scale ≠ 0) {ord : HashOrder} (hord : ord.Ok)
include h hdist hn hatt hε hs hord

theorem Reaches.distance_component {opts : SolvingOptions} (hd : opts.decomposer = .recursiveAssembly) {ck : Component × Nat} (hcomp : ck.1 ∈ c.sys.graph.components) {st st' : SolveState ℝ}
    (hc : solveComponent optimize ord opts c.sys c.sys.scale c.sys.scaledExpressions st ck = .ok st') :
    (∀ v, ¬ c.sys.VarOf ck.1.elements v → st'.vars[v]? = st.vars[v]?) ∧
      ∀ n ∈ ck.1.constraints, ∀ i, ((Store.empty ℝ).run ops).EquationOf n i →
        SatAt c.sys.scaledExpressions c.sys.scale ((1 + 3 * ((Store.empty ℝ).run ops).cons.length) * ε) st'.vars i := by
  unfold solveComponent at hc
  split at hc
  · rename_i he
    cases hc
    refine ⟨fun _ _ => rfl, fun n hn' => ?_⟩
    obtain ⟨a, b, d, -, h1, -, -⟩ := h.distance_edge hdist hcomp hn'
    have := (C17_linked_together_partial h hn hcomp).2 n hn' _ h1 a (by simp [Store.actsOn])
    rw [he] at this
    simp at this
  rename_i he
  rw [bind_eq_ok] at hc
  obtain ⟨free, hfree, hc⟩ := hc
  rw [bind_eq_ok] at hc
  obtain ⟨st1, h1, hc⟩ := hc
  have hf := freeVariables_spec hfree
  obtain ⟨h2, -⟩ := perturbFree_spec h1
  rw [hd] at hc
  simp only at hc
  have hok := h.decomposeOk hcomp
  obtain ⟨h3, -⟩ := solveRecursive_spec hord hok hc
  refine ⟨fun v hv => ?_, ?_⟩
  · rw [h3.vars.2 v hv, h2.vars.2 v (fun hc => hv ((hf v).1 hc).1)]
  rw [solveRecursive, bind_eq_ok] at hc
  obtain ⟨steps, h4, hc⟩ := hc
  have hord' : HashOrder.Ok (fun tag => ord (ck.2 :: 1 :: tag)) := fun tag s => hord _ s
  obtain ⟨P, hP, hPS⟩ := decompose_pairs (h.distance_pairs hdist hn hcomp (Finset.nonempty_iff_ne_empty.2 he)) hord' h4
  have hplan := decompose_plan hok hord' h4
  have hmem : ∀ s ∈ steps, ∀ n ∈ s.constraints, n ∈ ck.1.constraints := fun s hs' n hn' => (hplan.mem n).1 (List.mem_flatMap.2 ⟨s, hs', hn'⟩)
  have hdone := DistancesDone.fold h hdist hcomp hatt hε h4 hP hPS hmem steps 0 (fun i s hi => by rwa [Nat.zero_add]) (st := st1)
    ⟨fun j' hj' => by omega, fun j' hj' => by omega⟩ hc
  rw [Nat.zero_add] at hdone
  have hlen : steps.length ≤ ((Store.empty ℝ).run ops).cons.length := by
    have e1 : ∀ l : List RecombinationStep, (∀ s ∈ l, s.constraints ≠ []) → l.length ≤ (l.flatMap RecombinationStep.constraints).length := by
      intro l
      induction l with
      | nil => simp
      | cons s l ih =>
        intro hl
        have := ih fun s hs => hl s (by simp [hs])
        have := List.length_pos_iff.2 (hl s (by simp))
        simp only [List.flatMap_cons, List.length_append, List.length_cons]
        omega
    have e2 := e1 steps fun s hs' => (hplan.ok s hs').nonempty
    have e3 : (steps.flatMap RecombinationStep.constraints).toFinset ⊆ Finset.range ((Store.empty ℝ).run ops).cons.length := by
      intro n hn'
      rw [List.mem_toFinset, hplan.mem] at hn'
      have := hok.edges n hn'
      rw [Finset.mem_range, ← h.crel.rel.graph.constraints]
      simpa [DCtx.nC, Graph.toD] using this
    have e4 := Finset.card_le_card e3
    rw [List.toFinset_card_of_nodup hplan.nodup, Finset.card_range] at e4
    omega
  intro n hn' i hi e hei
  obtain ⟨s, hsm, hns⟩ := List.mem_flatMap.1 ((hplan.mem n).2 hn')
  obtain ⟨j, hj⟩ := List.mem_iff_getElem?.1 hsm
  obtain ⟨a, b, d, -, hcon, hends, -⟩ := h.distance_edge hdist hcomp hn'
  obtain ⟨i', h5, h6⟩ := h.distance_expr hcon
  have := (h5 i).1 hi
  subst this
  rw [h6] at hei
  cases hei
  obtain ⟨r, h7, h8⟩ := hdone.solved j (lt_of_getElem? hj) s hj n hns a b d hcon
  refine ⟨r, calculateResidual_mono_on (fun v hv var hvar => ?_) h7, h8.trans ?_⟩
  · rw [identityMap, bind_eq_ok] at hvar
    obtain ⟨y, h9, h10⟩ := hvar
    cases h10
    rw [idx_eq_ok] at h9
    have hsy : Synced c.sys.scale st' v := by
      obtain ⟨p, hp, -, hpe⟩ := (hPS.step j s hj).pair
      have hpt : ∀ x ∈ endsOf c.sys.graph.toD n, Synced c.sys.scale st' (off ((Store.empty ℝ).run ops).elems x) ∧ Synced c.sys.scale st' (off ((Store.empty ℝ).run ops).elems x + 1) := by
        intro x hx
        obtain ⟨u, w, hxe⟩ := h.distance_point hdist hcomp ((C17_linked_together_partial h hn hcomp).2 n hn' _ hcon x (by rw [hends] at hx; exact hx))
        exact hdone.synced j (lt_of_getElem? hj) p hp x (hpe n hns x hx) _ (h.crel.rel.element_at hxe)
      rw [hends] at hpt
      obtain ⟨a1, a2⟩ := hpt a (by simp)
      obtain ⟨b1, b2⟩ := hpt b (by simp)
      simp only [Store.distanceExpr, Expr.variableIndices, List.mem_cons, List.not_mem_nil, or_false] at hv
      rcases hv with rfl | rfl | rfl | rfl <;> assumption
    rw [List.getElem?_map, hsy y h9, Option.map_some]
    congr 1
    show c.sys.scale * y * (1 / c.sys.scale) = y
    field_simp
  · have : (steps.length : ℝ) ≤ ((Store.empty ℝ).run ops).cons.length := by exact_mod_cast hlen
    exact mul_le_mul_of_nonneg_right (by linarith) hε

/-- Recursive assembly of distances: every equation is nearly satisfied in the end. -/
theorem Reaches.distance_loop {opts : SolvingOptions} (hd : opts.decomposer = .recursiveAssembly) {st : SolveState ℝ} (hl : c.sys.solveLoop optimize ord opts = .ok st) :
    ∀ n < ((Store.empty ℝ).run ops).cons.length, ∀ i, ((Store.empty ℝ).run ops).EquationOf n i →
      SatAt c.sys.scaledExpressions c.sys.scale ((1 + 3 * ((Store.empty ℝ).run ops).cons.length) * ε) st.vars i := by
  have key : ∀ (l : List (Component × Nat)) (st st' : SolveState ℝ), (∀ ck ∈ l, c.sys.graph.components[ck.2]? = some ck.1) → (l.map Prod.snd).Nodup →
      l.foldlM (solveComponent optimize ord opts c.sys c.sys.scale c.sys.scaledExpressions) st = .ok st' →
      (∀ v, (∀ ck ∈ l, ¬ c.sys.VarOf ck.1.elements v) → st'.vars[v]? = st.vars[v]?) ∧
      ∀ ck ∈ l, ∀ n ∈ ck.1.constraints, ∀ i, ((Store.empty ℝ).run ops).EquationOf n i →
        SatAt c.sys.scaledExpressions c.sys.scale ((1 + 3 * ((Store.empty ℝ).run ops).cons.length) * ε) st'.vars i := by
    intro l
    induction l with
    | nil =>
      intro st st' _ _ hf
      cases hf
      exact ⟨fun _ _ => rfl, by simp⟩
    | cons ck l ih =>
      intro st st' hcomps hnd hf
      rw [List.foldlM_cons, bind_eq_ok] at hf
      obtain ⟨st1, h1, h2⟩ := hf
      rw [List.map_cons, List.nodup_cons] at hnd
      have hck := hcomps ck (by simp)
      obtain ⟨h3, h4⟩ := h.distance_component hdist hn hatt hε hs hord hd (List.mem_of_getElem? hck) h1
      obtain ⟨h5, h6⟩ := ih st1 st' (fun ck hck => hcomps ck (by simp [hck])) hnd.2 h2
      refine ⟨fun v hv => by rw [h5 v fun ck hck => hv ck (by simp [hck]), h3 v (hv ck (by simp))], fun ck' hck' n hn' i hi => ?_⟩
      rcases List.mem_cons.1 hck' with rfl | hck'
      · refine (h4 n hn' i hi).congr fun e he v hv => h5 v fun ck2 hck2 hcon => ?_
        obtain ⟨q, hq, el', h12, h13⟩ := h.whole_within hn (List.mem_of_getElem? hck) hn' hi e he v hv
        obtain ⟨p, hp, el, h10, h11⟩ := hcon
        have hcomp2 := hcomps ck2 (by simp [hck2])
        have hpc := h.constrained_of_mem (List.mem_of_getElem? hcomp2) hp
        have hpq := h.varOf_unique hpc (h.constrained_of_mem (List.mem_of_getElem? hck) hq) h10 h12 h11 h13
        subst hpq
        obtain ⟨k0, -, h14⟩ := (C17_elements_partitioned h p).1 hpc
        exact hnd.1 (List.mem_map.2 ⟨ck2, hck2, (h14 _ ⟨_, hcomp2, hp⟩).trans (h14 _ ⟨_, hck, hq⟩).symm⟩)
      · exact h6 ck' hck' n hn' i hi
  intro n hn' i hi
  obtain ⟨k, ⟨comp, h1, h2⟩, -⟩ := C17_constraints_partitioned h n hn'
  exact (key _ _ _ (fun ck hck => List.mem_zipIdx_iff_getElem?.1 hck) (by rw [List.zipIdx_map_snd]; exact List.nodup_range') hl).2 (comp, k)
    (List.mem_zipIdx_iff_getElem?.2 h1) n h2 i hi

end

/-- C62 (partial) for `RecursiveAssembly`: for histories whose constraints are distances between two different points, at most seven for any two points, and none of which joins two
constrained parts (see C17): if every call of the optimiser ends where the residuals of its problem are at most `ε`, then in the end every distance is off by at most `(1 + 3 N) ε`, where
`N` is the number of constraints (in the unit of length used for solving). In particular, for `ε = 0` all residuals are zero. (Full statement: for all constraints; false, see
`C62_recursive_unsatisfied_after_success`.) -/
theorem C62_recursive_distances_partial {counter : Nat} {ops : List (Op ℝ)} {c : Client ℝ} (h : Reaches counter ops c) (hnz : ((Store.empty ℝ).run ops).NonZero)
    (hdist : ((Store.empty ℝ).run ops).Distances) (hn : NeverJoins ((Store.empty ℝ).run ops).arguments)
    {optimize : Optimize ℝ} {ε : ℝ} (hatt : optimize.Attains ε) (hε : 0 ≤ ε) {ord : HashOrder} (hord : ord.Ok)
    {opts : SolvingOptions} (hd : opts.decomposer = .recursiveAssembly) {s' : System ℝ} (hs : c.sys.solve optimize ord opts = .ok s')
    {n : Nat} {con : Spec.Con ℝ} {hdl : Handle} (hh : c.conHandles[n]? = some hdl) (hcon : ((Store.empty ℝ).run ops).cons[n]? = some con) :
    ∃ r, s'.calculateResidual con.kind hdl = .ok r ∧ |r| ≤ c.sys.scale * ((1 + 3 * ((Store.empty ℝ).run ops).cons.length) * ε) := by
  obtain ⟨st, h1, rfl⟩ := solve_eq hs
  have hpos := h.scale_pos hnz
  have hcr := h.crel.conHandle (lt_of_getElem? hcon)
  rw [hh] at hcr
  cases hcr
  obtain ⟨a, b, d, -, rfl⟩ := hdist.all con (List.mem_of_getElem? hcon)
  rw [System.calculateResidual, if_neg (by simp)]
  obtain ⟨r, h2, h3⟩ := h.crel.rel.residual_bound (V := st.vars) hcon (B := c.sys.scale * ((1 + 3 * ((Store.empty ℝ).run ops).cons.length) * ε))
    (mul_nonneg hpos.le (mul_nonneg (by positivity) hε)) fun i hi e he => by
      obtain ⟨con', h4, h5⟩ := h.equation_in hi he
      rw [hcon] at h4
      cases h4
      have h6 := encCon_degree h5
      obtain ⟨r, h7, h8⟩ := (h.distance_loop hdist hn hatt hε hpos.ne' hord hd h1 n (lt_of_getElem? hcon) i hi).unscale hpos he
      rw [h6] at h8
      exact ⟨r, h7, by simpa [Spec.Con.lengthPower] using h8⟩
  exact ⟨r, h2, by simpa [Spec.Con.equations] using h3⟩

/-- C62 (partial) in terms of geometry: if every call ends at residuals of zero, every distance is as demanded after `solve` with `RecursiveAssembly`. -/
theorem C62_recursive_distances_hold_partial {counter : Nat} {ops : List (Op ℝ)} {c : Client ℝ} (h : Reaches counter ops c) (hl : ops.length + 1 < 2 ^ 30) (hnz : ((Store.empty ℝ).run ops).NonZero)
    (hdist : ((Store.empty ℝ).run ops).Distances) (hn : NeverJoins ((Store.empty ℝ).run ops).arguments)
    {optimize : Optimize ℝ} (hatt : optimize.Attains 0) {ord : HashOrder} (hord : ord.Ok)
    {opts : SolvingOptions} (hd : opts.decomposer = .recursiveAssembly) {s' : System ℝ} (hs : c.sys.solve optimize ord opts = .ok s') :
    ∃ result, Reaches counter (ops ++ [.solve result]) { c with sys := s' } ∧ ∀ con ∈ ((Store.empty ℝ).run ops).cons,
      Geo.Regular ((Store.empty ℝ).run (ops ++ [.solve result])) con → Geo.Holds ((Store.empty ℝ).run (ops ++ [.solve result])) con := by
  obtain ⟨result, h1⟩ := C25_solve_is_a_call h hl hord hs
  refine ⟨result, h1, fun con hcon hreg => ?_⟩
  obtain ⟨n, hcn⟩ := List.mem_iff_getElem?.1 hcon
  have hcn' : ((Store.empty ℝ).run (ops ++ [.solve result])).cons[n]? = some con := by
    rw [Store.run, List.foldl_append]
    exact hcn
  have hh := h.crel.conHandle (lt_of_getElem? hcn)
  obtain ⟨r, h2, h3⟩ := C62_recursive_distances_partial h hnz hdist hn hatt le_rfl hord hd hs hh hcn
  obtain ⟨r', h4, h5⟩ := C12_zero_residual_iff_partial h1 hh hcn' hreg
  rw [h4] at h2
  cases h2
  refine h5.1 ?_
  rw [mul_zero, mul_zero] at h3
  exact abs_nonpos_iff.1 h3

/-- C49 (partial): in a figure of distances a plan has one step for every pair of points with distances. The step names these two points and solves
all distances between them and nothing else. (Full statement of C49: for every history, see `C49_square_panics` and `C49_missing_argument`.) -/
theorem C49_distances_in_pairs_partial {F : Type} {counter : Nat} {ops : List (Op F)} {c : Client F} (h : Reaches counter ops c) (hdist : ((Store.empty F).run ops).Distances)
    (hn : NeverJoins ((Store.empty F).run ops).arguments) {comp : Component} (hcomp : comp ∈ c.sys.graph.components) (hne : comp.elements.Nonempty) {ord : HashOrder} (hord : ord.Ok)
    {steps : List RecombinationStep} (hs : c.sys.recursivePlan ord comp = .ok steps) {s : RecombinationStep} (hsm : s ∈ steps) :
    ∃ a b, a ≠ b ∧ (∀ x, x ∈ s.elements ↔ x = a ∨ x = b) ∧
      ∀ n, n ∈ s.constraints ↔ n ∈ comp.constraints ∧ (((Store.empty F).run ops).arguments[n]? = some [a, b] ∨ ((Store.empty F).run ops).arguments[n]? = some [b, a]) := by
  obtain ⟨P, hP, hPS⟩ := decompose_pairs (h.distance_pairs hdist hn hcomp hne) hord hs
  obtain ⟨hnd, hmem⟩ := C49_constraints_once h hcomp hord hs
  obtain ⟨j, hj⟩ := List.mem_iff_getElem?.1 hsm
  obtain ⟨p, hpj, hel, hends⟩ := (hPS.step j s hj).pair
  obtain ⟨a, b, hab, -, -, -, rfl⟩ := hP.pair p (List.mem_of_getElem? hpj)
  have harg : ∀ n ∈ comp.constraints, ∀ q : Finset Nat, (∀ u ∈ endsOf c.sys.graph.toD n, u ∈ q) → ∃ x y, x ≠ y ∧ x ∈ q ∧ y ∈ q ∧ ((Store.empty F).run ops).arguments[n]? = some [x, y] := by
    intro n hn' q hq
    obtain ⟨x, y, d, hxy, h1, h2, -⟩ := h.distance_edge hdist hcomp hn'
    rw [h2] at hq
    refine ⟨x, y, hxy, hq x (by simp), hq y (by simp), ?_⟩
    rw [Spec.Store.arguments, List.getElem?_map, h1]
    rfl
  refine ⟨a, b, hab, fun x => by rw [hel]; simp, fun n => ⟨fun hn' => ?_, fun ⟨hn', h1⟩ => ?_⟩⟩
  · have hc := (hmem n).1 (List.mem_flatMap.2 ⟨s, hsm, hn'⟩)
    refine ⟨hc, ?_⟩
    obtain ⟨x, y, hxy, hx, hy, h2⟩ := harg n hc _ (hends n hn')
    rw [h2]
    simp only [Finset.mem_insert, Finset.mem_singleton] at hx hy
    rcases hx with rfl | rfl <;> rcases hy with rfl | rfl <;> simp_all
  · obtain ⟨s', hs', hns'⟩ := List.mem_flatMap.1 ((hmem n).2 hn')
    obtain ⟨i, hi⟩ := List.mem_iff_getElem?.1 hs'
    obtain ⟨q, hqi, -, hends'⟩ := (hPS.step i s' hi).pair
    obtain ⟨a', b', hab', -, -, -, rfl⟩ := hP.pair q (List.mem_of_getElem? hqi)
    obtain ⟨x, y, hxy, hx, hy, h2⟩ := harg n hn' _ (hends' n hns')
    have hq : ({a', b'} : Finset Nat) = {a, b} := by
      have h3 : ({x, y} : Finset Nat) = {a, b} := by
        rw [h2] at h1
        simp only [Option.some.injEq, List.cons.injEq, and_true] at h1
        rcases h1 with ⟨rfl, rfl⟩ | ⟨rfl, rfl⟩
        · rfl
        · exact Finset.pair_comm _ _
      rw [← h3]
      refine (Finset.eq_of_subset_of_card_le (Finset.insert_subset hx (Finset.singleton_subset_iff.2 hy)) ?_).symm
      rw [Finset.card_pair hxy, Finset.card_pair hab']
    rw [hq] at hqi
    have hij := hP.nodup.getElem_inj_iff.1 (show P[i]'(lt_of_getElem? hqi) = P[j]'(lt_of_getElem? hpj) by
      rw [(List.getElem?_eq_some_iff.1 hqi).2, (List.getElem?_eq_some_iff.1 hpj).2])
    subst hij
    rw [hi] at hj
    cases hj
    exact hns'

/-! ## A case: three points, and the second step moves both points of the first -/

/-- A chain of two distances of 1. The second one does not hold yet. -/
noncomputable def strandOps : List (Op ℝ) :=
  [.createPoint 2 0, .createPoint 1 0, .createPoint 0 1, .createCon (.pointPointDistance 0 1 1), .createCon (.pointPointDistance 1 2 1)]

theorem strand_sys {c : Client ℝ} (h : Reaches 0 strandOps c) : c.sys.elements = [.point 0, .point 2, .point 4] ∧ c.sys.vars = [2, 0, 1, 0, 0, 1] ∧ c.sys.fixedVariables = ∅ ∧
    c.sys.expressions = [.pointPointDistance 0 2 1, .pointPointDistance 2 4 1] ∧ c.sys.constraints = [⟨.pointPointDistance, 0⟩, ⟨.pointPointDistance, 1⟩] := by
  have key : (do let c ← (Client.new ℝ 0).run strandOps
                 pure (c.sys.elements, c.sys.vars, c.sys.fixedVariables, c.sys.expressions, c.sys.constraints) : R _) =
    .ok ([.point 0, .point 2, .point 4], [2, 0, 1, 0, 0, 1], ∅, [.pointPointDistance 0 2 1, .pointPointDistance 2 4 1],
      [⟨.pointPointDistance, 0⟩, ⟨.pointPointDistance, 1⟩]) := rfl
  rw [h.run, ok_bind] at key
  simpa [pure_eq_ok] using key

theorem strand_components {c : Client ℝ} (h : Reaches 0 strandOps c) : c.sys.graph.components = [⟨{0, 1, 2}, {0, 1}⟩] := by
  have h2 : okAnd ((Client.new ℝ 0).run strandOps) (fun c => c.sys.graph.components.map (fun k => (k.elements, k.constraints)) = [({0, 1, 2}, {0, 1})]) = true := by decide +kernel
  rw [h.run] at h2
  exact components_of_pairs (of_decide_eq_true h2)

/-- The first step; the second one is `chainStep`. -/
def strandStep : RecombinationStep := ⟨[0], [0, 1], [0, 1], [], [], []⟩

theorem strand_plan {c : Client ℝ} (h : Reaches 0 strandOps c) :
    decompose 3 (fun tag => ascendingOrder (0 :: 1 :: tag)) c.sys.graph.toD {0, 1, 2} {0, 1} = .ok [strandStep, chainStep] := by
  have h2 : okAnd ((Client.new ℝ 0).run strandOps) (fun c => okAnd (decompose 3 (fun tag => ascendingOrder (0 :: 1 :: tag)) c.sys.graph.toD {0, 1, 2} {0, 1})
    (fun (s : List RecombinationStep) => s.map RecombinationStep.data == [strandStep.data, chainStep.data])) = true := by decide +kernel
  rw [h.run] at h2
  obtain ⟨l, hl, h3⟩ := okAnd_ok (show okAnd (decompose 3 (fun tag => ascendingOrder (0 :: 1 :: tag)) c.sys.graph.toD {0, 1, 2} {0, 1})
    (fun (s : List RecombinationStep) => s.map RecombinationStep.data == [strandStep.data, chainStep.data]) = true from h2)
  rw [hl]
  have h4 : l.map RecombinationStep.data = [strandStep, chainStep].map RecombinationStep.data := by simpa using h3
  rw [List.map_injective_iff.2 (fun a b => RecombinationStep.data_injective) h4]

/-- The problem of the first step. -/
def strandCluster : ClusteredSystem := ⟨4, [0, 1], [], [0], 0, [(0, 0), (1, 1), (2, 2), (3, 3)]⟩

/-- The figure. -/
noncomputable def strandFigure : List ℝ := [2, 0, 1, 0, 0, 1]
/-- The equations. -/
noncomputable def strandExprs : List (Expr ℝ) := [.pointPointDistance 0 2 1, .pointPointDistance 2 4 1]

/-- An optimiser that solves the second problem by moving the first cluster up. -/
noncomputable def strandOptimize : Optimize ℝ := fun _ _ v => .ok (if v.length = 4 then v else [0, 0, 1, 1, 1, 0, 1])

theorem ppd_one {a b c d e : ℝ} : (ppdResGrad a b c d e).1 = √((a - c) * (a - c) + (b - d) * (b - d)) - e := rfl

theorem strand_step1 {s : System ℝ} (hs : s.elements = [.point 0, .point 2, .point 4]) (hc : s.constraints = [⟨.pointPointDistance, 0⟩, ⟨.pointPointDistance, 1⟩]) (rng : Nat) :
    solveStep (strandOptimize.checked 0) s 1 strandExprs ⟨strandFigure, strandFigure, rng, []⟩ strandStep = .ok ⟨strandFigure, strandFigure, rng, [[0]]⟩ := by
  have hb : ClusteredSystem.build s strandFigure strandStep = .ok (strandCluster, [2, 0, 1, 0]) := by
    unfold ClusteredSystem.build System.constraintExpressions
    rw [hs, hc]
    rfl
  have hr : ∃ r, (strandCluster.problem s strandExprs strandFigure).residuals [2, 0, 1, 0] = .ok r ∧ ∀ y ∈ r, |y| ≤ 0 := by
    refine ⟨[(ppdResGrad (2 : ℝ) 0 1 0 1).1], ?_, ?_⟩
    · unfold ClusteredSystem.problem
      simp only
      unfold ClusteredSystem.calculateResiduals
      rw [hs]
      rfl
    · intro y hy
      rw [List.mem_singleton.1 hy, ppd_one]
      norm_num
  have ho : strandOptimize.checked 0 .levenbergMarquardt (strandCluster.problem s strandExprs strandFigure) [2, 0, 1, 0] = .ok [2, 0, 1, 0] := by
    rw [Optimize.checked, show strandOptimize .levenbergMarquardt (strandCluster.problem s strandExprs strandFigure) [2, 0, 1, 0] = .ok [2, 0, 1, 0] from rfl, ok_bind, if_pos hr]
    rfl
  unfold solveStep
  rw [hb, ok_bind]
  refine (congrArg (· >>= _) ho).trans ?_
  rw [ok_bind]
  have h1 : strandCluster.mapping.foldlM (writeTransformed [2, 0, 1, 0]) strandFigure = .ok strandFigure := rfl
  have h2 : strandCluster.mapping.foldlM (writeVars 1 [2, 0, 1, 0]) strandFigure = .ok [1 * 2, 1 * 0, 1 * 1, 1 * 0, 0, 1] := rfl
  have h3 : [(1 : ℝ) * 2, 1 * 0, 1 * 1, 1 * 0, 0, 1] = strandFigure := by simp [strandFigure]
  rw [h3] at h2
  rw [h1, ok_bind, h2, ok_bind]
  rfl

theorem strand_step2 {s : System ℝ} (hs : s.elements = [.point 0, .point 2, .point 4]) (hc : s.constraints = [⟨.pointPointDistance, 0⟩, ⟨.pointPointDistance, 1⟩]) (rng : Nat) :
    ∃ st, solveStep (strandOptimize.checked 0) s 1 strandExprs ⟨strandFigure, strandFigure, rng, [[0]]⟩ chainStep = .ok st ∧ st.vars = [2, 1, 1, 1, 0, 1] := by
  have hb : ClusteredSystem.build s strandFigure chainStep = .ok (chainCluster, [0, 0, 0, 1, 0, 0, 1]) := by
    unfold ClusteredSystem.build System.constraintExpressions
    rw [hs, hc]
    rfl
  have hr : ∃ r, (chainCluster.problem s strandExprs strandFigure).residuals [0, 0, 1, 1, 1, 0, 1] = .ok r ∧ ∀ y ∈ r, |y| ≤ 0 := by
    refine ⟨[((⟨0, 0, 1⟩ : Pose2D ℝ).transformPoint 1 0).1 - 1, ((⟨0, 0, 1⟩ : Pose2D ℝ).transformPoint 1 0).2 - 1, (ppdResGrad (1 : ℝ) 1 0 1 1).1], ?_, ?_⟩
    · unfold ClusteredSystem.problem
      simp only
      unfold ClusteredSystem.calculateResiduals
      rw [hs]
      rfl
    · intro y hy
      simp only [List.mem_cons, List.not_mem_nil, or_false, ppd_one] at hy
      rcases hy with rfl | rfl | rfl <;> norm_num [Pose2D.transformPoint, FloatOps.sin, FloatOps.cos]
  have ho : strandOptimize.checked 0 .levenbergMarquardt (chainCluster.problem s strandExprs strandFigure) [0, 0, 0, 1, 0, 0, 1] = .ok [0, 0, 1, 1, 1, 0, 1] := by
    rw [Optimize.checked, show strandOptimize .levenbergMarquardt (chainCluster.problem s strandExprs strandFigure) [0, 0, 0, 1, 0, 0, 1] = .ok [0, 0, 1, 1, 1, 0, 1] from rfl,
      ok_bind, if_pos hr]
    rfl
  unfold solveStep
  rw [hb, ok_bind]
  have h1 : chainCluster.mapping.foldlM (writeTransformed [0, 0, 1, 1, 1, 0, 1]) strandFigure = .ok [2, 0, 1, 1, 0, 1] := rfl
  have h2 : chainCluster.mapping.foldlM (writeVars 1 [0, 0, 1, 1, 1, 0, 1]) strandFigure = .ok [2, 0, 1 * 1, 1 * 1, 1 * 0, 1 * 1] := rfl
  have h3 : [2, 0, (1 : ℝ) * 1, 1 * 1, 1 * 0, 1 * 1] = [2, 0, 1, 1, 0, 1] := by simp
  rw [h3] at h2
  have hm : ∀ calls, ∃ st', chainCluster.clusters.keys.zipIdx.foldlM (fun (st : SolveState ℝ) (ck : Nat × Nat) => do
      let pose ← poseAt [0, 0, 1, 1, 1, 0, 1] ck.2
      ((chainStep.ownedElements.get? ck.1).getD []).foldlM (moveElement s 1 chainCluster.stepPlusFrontierElements pose) st) ⟨[2, 0, 1, 1, 0, 1], [2, 0, 1, 1, 0, 1], rng, calls⟩ = .ok st' ∧
        st'.vars = [2, 1, 1, 1, 0, 1] := by
    intro calls
    refine ⟨⟨[1 * ((⟨0, 0, 1⟩ : Pose2D ℝ).transformPoint 2 0).1, 1 * ((⟨0, 0, 1⟩ : Pose2D ℝ).transformPoint 2 0).2, 1, 1, 0, 1],
        [((⟨0, 0, 1⟩ : Pose2D ℝ).transformPoint 2 0).1, ((⟨0, 0, 1⟩ : Pose2D ℝ).transformPoint 2 0).2, 1, 1, 0, 1], rng, calls⟩, ?_, ?_⟩
    · unfold moveElement
      rw [hs]
      rfl
    · simp [Pose2D.transformPoint, FloatOps.sin, FloatOps.cos]
  obtain ⟨st', hst', hv⟩ := hm ([[0]] ++ [chainCluster.expressions])
  refine ⟨st', ?_, hv⟩
  refine (congrArg (· >>= _) ho).trans ?_
  rw [ok_bind, h1, ok_bind, h2, ok_bind]
  exact hst'

theorem strand_distances : ((Store.empty ℝ).run strandOps).Distances := by
  refine ⟨fun con hcon => ?_, fun a b => (Finset.card_filter_le _ _).trans ?_⟩
  · have : ((Store.empty ℝ).run strandOps).cons = [.pointPointDistance 0 1 1, .pointPointDistance 1 2 1] := rfl
    rw [this] at hcon
    simp only [List.mem_cons, List.not_mem_nil, or_false] at hcon
    rcases hcon with rfl | rfl
    · exact ⟨0, 1, 1, by simp, rfl⟩
    · exact ⟨1, 2, 1, by simp, rfl⟩
  · rw [Finset.card_range]
    show 2 ≤ 7
    norm_num

theorem strand_neverJoins : NeverJoins ((Store.empty ℝ).run strandOps).arguments := by
  have harg : ((Store.empty ℝ).run strandOps).arguments = [[0, 1], [1, 2]] := rfl
  rw [harg]
  intro m l hm i hi j hj hci hcj
  have hlen := lt_of_getElem? hm
  simp only [List.length_cons, List.length_nil] at hlen
  obtain ⟨a, ha, hia⟩ := hci
  obtain ⟨b, hb, hjb⟩ := hcj
  have hm' : m = 1 := by
    rcases (show m = 0 ∨ m = 1 by omega) with rfl | rfl
    · simp at ha
    · rfl
  subst hm'
  simp only [List.take_succ_cons, List.take_zero, List.mem_singleton] at ha hb
  subst ha hb
  exact .single ⟨_, by simp, hia, hjb⟩

/-- A case for C49 about distances: the plan of the figure below has two steps. -/
example : ∃ (c : Client ℝ) (comp : Component) (ord : HashOrder), Reaches 0 strandOps c ∧ ((Store.empty ℝ).run strandOps).Distances ∧ NeverJoins ((Store.empty ℝ).run strandOps).arguments ∧
    comp ∈ c.sys.graph.components ∧ comp.elements.Nonempty ∧ ord.Ok ∧ c.sys.recursivePlan ord comp = .ok [strandStep, chainStep] := by
  obtain ⟨c, h⟩ := exists_reaches 0 strandOps (by
    simp [strandOps, Store.LegalRun, Store.Legal, Store.empty, Store.step, Store.IsPoint, Store.ConOk]) (by simp [strandOps])
  exact ⟨c, ⟨{0, 1, 2}, {0, 1}⟩, _, h, strand_distances, strand_neverJoins, by rw [strand_components h]; simp, ⟨0, by simp⟩, fun tag s => ascendingOrder_ok _ _, strand_plan h⟩

/-- A case for C62 with `RecursiveAssembly`: all hypotheses hold, and solving moves the points of the distance that already held. -/
example : ∃ (c : Client ℝ) (s' : System ℝ), Reaches 0 strandOps c ∧ ((Store.empty ℝ).run strandOps).NonZero ∧ ((Store.empty ℝ).run strandOps).Distances ∧
    NeverJoins ((Store.empty ℝ).run strandOps).arguments ∧ (strandOptimize.checked 0).Attains 0 ∧
    c.sys.solve (strandOptimize.checked 0) ascendingOrder ⟨.levenbergMarquardt, .recursiveAssembly, false⟩ = .ok s' ∧ s'.vars = [2, 1, 1, 1, 0, 1] := by
  obtain ⟨c, h⟩ := exists_reaches 0 strandOps (by
    simp [strandOps, Store.LegalRun, Store.Legal, Store.empty, Store.step, Store.IsPoint, Store.ConOk]) (by simp [strandOps])
  obtain ⟨h2, h3, h4, h5, h6⟩ := strand_sys h
  have h1 := strand_components h
  have hsc : c.sys.scale = 1 := by
    unfold System.scale
    rw [h3, h5]
    show Real.sqrt ((0 + 2 * 2 + 0 * 0 + 1 * 1 + 0 * 0 + 0 * 0 + 1 * 1 + 1 * 1 + 1 * 1) / ((8 : ℕ) : ℝ)) = 1
    norm_num
  have hv : c.sys.scaledVariables = strandFigure := by
    unfold System.scaledVariables
    rw [hsc, h3]
    show [2 * (1 / 1), 0 * (1 / 1), 1 * (1 / 1), 0 * (1 / 1), 0 * (1 / 1), 1 * (1 / (1 : ℝ))] = _
    norm_num [strandFigure]
  have he : c.sys.scaledExpressions = strandExprs := by
    unfold System.scaledExpressions
    rw [h5, hsc]
    show [Expr.pointPointDistance 0 2 (1 / 1 * 1), .pointPointDistance 2 4 (1 / 1 * (1 : ℝ))] = _
    norm_num [strandExprs]
  have hfree : c.sys.freeVariables {0, 1, 2} = .ok (Finset.range 6) := by
    unfold System.freeVariables
    rw [show ascending {0, 1, 2} = [0, 1, 2] by decide +kernel, h2, h4]
    have : Finset.range 6 = ∅ ∪ ((EncodedElement.point 0).variableIndices.toFinset \ ∅) ∪ ((EncodedElement.point 2).variableIndices.toFinset \ ∅) ∪
      ((EncodedElement.point 4).variableIndices.toFinset \ ∅) := by decide
    rw [this]
    rfl
  obtain ⟨st, hst, hstv⟩ := strand_step2 h2 h6 42
  refine ⟨c, { c.sys with vars := [2, 1, 1, 1, 0, 1] }, h, ⟨.point 2 0, by simp [strandOps, Store.run, Store.empty, Store.step], .inl ⟨2, 0, rfl, .inl (by norm_num)⟩⟩, strand_distances, ?_,
    Optimize.checked_attains _ _, ?_, rfl⟩
  · exact strand_neverJoins
  · have hcomp : solveComponent (strandOptimize.checked 0) ascendingOrder ⟨.levenbergMarquardt, .recursiveAssembly, false⟩ c.sys c.sys.scale strandExprs
        ⟨c.sys.vars, strandFigure, 42, []⟩ (⟨{0, 1, 2}, {0, 1}⟩, 0) = .ok st := by
      unfold solveComponent
      rw [if_neg (by simp), hfree, ok_bind, still, ok_bind]
      show solveRecursive _ _ _ _ _ _ _ _ = _
      unfold solveRecursive
      rw [strand_plan h, ok_bind, List.foldlM_cons, hsc, h3]
      refine (congrArg (· >>= _) (strand_step1 h2 h6 42)).trans ?_
      rw [ok_bind, List.foldlM_cons, hst, ok_bind]
      rfl
    unfold System.solve System.solveLoop
    rw [h1, hv, he]
    simp only [List.zipIdx_cons, List.zipIdx_nil, List.foldlM_cons, List.foldlM_nil]
    rw [hcomp, ← hstv]
    rfl

end Fiksi
