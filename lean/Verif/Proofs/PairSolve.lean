import Verif.Proofs.PairKeep
import Verif.Props.Dense
/-! # Recursive assembly of distances between points: what is solved in a step stays solved -/
namespace Fiksi
open Spec Spec.Geo

/-! ## The graph of a component -/

/-- All constraints are distances between two different points, and no two points have more than seven of them. -/
structure Spec.Store.Distances {F : Type} (st : Store F) : Prop where
  all : ∀ con ∈ st.cons, ∃ a b d, a ≠ b ∧ con = .pointPointDistance a b d
  few : ∀ a b : Nat, ((Finset.range st.cons.length).filter (fun n => st.arguments[n]? = some [a, b] ∨ st.arguments[n]? = some [b, a])).card ≤ 7

section
variable {F : Type} {counter : Nat} {ops : List (Op F)} {c : Client F} (h : Reaches counter ops c) (hd : ((Store.empty F).run ops).Distances)
  (hn : NeverJoins ((Store.empty F).run ops).arguments) {comp : Component} (hcomp : comp ∈ c.sys.graph.components)
include h hd hcomp

omit hn in
theorem Reaches.distance_edge {e : Nat} (he : e ∈ comp.constraints) : ∃ a b d, a ≠ b ∧ ((Store.empty F).run ops).cons[e]? = some (.pointPointDistance a b d) ∧
    endsOf c.sys.graph.toD e = [a, b] ∧ valencyAt c.sys.graph.toD e = 1 := by
  have hlt := (h.decomposeOk hcomp).edges e he
  have hlt : e < ((Store.empty F).run ops).cons.length := by
    rw [← h.crel.rel.graph.constraints]
    simpa [DCtx.nC, Graph.toD] using hlt
  obtain ⟨con, hcon⟩ := getElem?_exists hlt
  obtain ⟨a, b, d, hab, rfl⟩ := hd.all con (List.mem_of_getElem? hcon)
  have hg : c.sys.graph.toD.constraints[e]? = some ⟨1, [a, b]⟩ := by
    simp only [Graph.toD, h.crel.rel.graphCons, List.map_map, List.getElem?_map, hcon]
    rfl
  exact ⟨a, b, d, hab, hcon, endsOf_of hg, valencyAt_of hg⟩

omit hn in
theorem Reaches.distance_point {x : Nat} (hx : x ∈ comp.elements) : ((Store.empty F).run ops).IsPoint x := by
  obtain ⟨l, h1, h2⟩ := (C17_elements_partitioned h x).2 ⟨comp, hcomp, hx⟩
  obtain ⟨con, h3, rfl⟩ := List.mem_map.1 h1
  obtain ⟨a, b, d, -, rfl⟩ := hd.all con h3
  have hok := h.crel.rel.wfCon _ h3
  simp only [Store.actsOn, List.mem_cons, List.not_mem_nil, or_false] at h2
  rcases h2 with rfl | rfl
  · exact hok.1
  · exact hok.2

include hn in
/-- The graph of a component of distances. -/
theorem Reaches.distance_pairs (hne : comp.elements.Nonempty) : DCtx.Pairs ⟨c.sys.graph.toD, comp.elements, comp.constraints⟩ 3 := by
  have hin := C17_linked_together_partial h hn hcomp
  have hpt : ∀ x ∈ comp.elements, dofAt c.sys.graph.toD x = 2 := by
    intro x hx
    obtain ⟨u, v, hxe⟩ := h.distance_point hd hcomp hx
    have h1 := h.dofs
    have h2 := congrArg (fun l : List Nat => l[x]?) h1
    simp only [List.getElem?_map, hxe, Option.map_some] at h2
    obtain ⟨el, h3, h4⟩ := Option.map_eq_some_iff.1 h2
    simp only [dofAt, Graph.toD, List.getElem?_map, h3, Option.map_some, Option.getD_some, h4]
    rfl
  refine ⟨h.decomposeOk hcomp, h.graphConsistent hcomp fun e he con hcon => ?_, fun e he => ?_, fun a ha b hb hab => ?_, hne, fun A hA hAne hAS => ?_⟩
  · obtain ⟨a, b, d, hab, h1, -, -⟩ := h.distance_edge hd hcomp he
    rw [h1] at hcon
    cases hcon
    exact ⟨by simpa [Store.actsOn] using hab, by simp [Store.actsOn]⟩
  · obtain ⟨a, b, d, hab, h1, h2, -⟩ := h.distance_edge hd hcomp he
    exact ⟨a, b, hab, hin.2 e he _ h1 a (by simp [Store.actsOn]), hin.2 e he _ h1 b (by simp [Store.actsOn]), h2⟩
  · simp only at ha hb
    have h1 : ∑ e ∈ comp.constraints.filter (fun e => ∀ u ∈ endsOf c.sys.graph.toD e, u ∈ ({a, b} : Finset Nat)), valencyAt c.sys.graph.toD e ≤ 7 := by
      rw [Finset.sum_congr rfl (g := fun _ => (1 : Int)) fun e he => ?_]
      · rw [Finset.sum_const, nsmul_eq_mul, mul_one]
        refine (Nat.cast_le (α := Int).2 (Finset.card_le_card fun e he => ?_)).trans (Nat.cast_le (α := Int).2 (hd.few a b))
        rw [Finset.mem_filter] at he
        obtain ⟨x, y, d, hxy, h1, h2, -⟩ := h.distance_edge hd hcomp he.1
        rw [Finset.mem_filter, Finset.mem_range]
        have hargs : ((Store.empty F).run ops).arguments[e]? = some [x, y] := by
          rw [Spec.Store.arguments, List.getElem?_map, h1]
          rfl
        refine ⟨lt_of_getElem? h1, ?_⟩
        rw [hargs]
        have hx := he.2 x (by rw [h2]; simp)
        have hy := he.2 y (by rw [h2]; simp)
        simp only [Finset.mem_insert, Finset.mem_singleton] at hx hy
        rcases hx with rfl | rfl <;> rcases hy with rfl | rfl <;> simp_all
      · obtain ⟨x, y, d, -, -, -, h3⟩ := h.distance_edge hd hcomp (Finset.mem_filter.1 he).1
        exact h3
    rw [freedom, Finset.sum_pair hab, hpt a ha, hpt b hb]
    simp only at h1 ⊢
    omega
  · simp only at hA hAS
    obtain ⟨a, ha⟩ := hAne
    obtain ⟨b, hb, hbA⟩ := Finset.exists_of_ssubset (Finset.ssubset_iff_subset_ne.2 ⟨hA, hAS⟩)
    have hl := C17_component_linked h hcomp (.inl (hA ha)) (.inl hb)
    have key : ∀ b, Linked ((Store.empty F).run ops).arguments a b → b ∉ A →
        ∃ v ∈ A, ∃ u ∈ comp.elements, u ∉ A ∧ JoinedBy c.sys.graph.toD comp.constraints v u := by
      intro b hl
      induction hl with
      | refl => exact fun hc => absurd ha hc
      | @tail u w h1 h2 ih =>
        intro hw
        by_cases hu : u ∈ A
        · obtain ⟨l, h3, h4, h5⟩ := h2
          refine ⟨u, hu, w, hin.1 u w (hA hu) (.single ⟨l, h3, h4, h5⟩), hw, ?_⟩
          obtain ⟨n, h6⟩ := List.mem_iff_getElem?.1 h3
          have h7 := h6
          rw [Spec.Store.arguments, List.getElem?_map, Option.map_eq_some_iff] at h7
          obtain ⟨con, h8, rfl⟩ := h7
          obtain ⟨k, ⟨comp', h9, h10⟩, -⟩ := C17_constraints_partitioned h n (lt_of_getElem? h8)
          have h11 := (C17_linked_together_partial h hn (List.mem_of_getElem? h9)).2 n h10 con h8 u h4
          obtain ⟨k0, -, h12⟩ := (C17_elements_partitioned h u).1 ⟨_, h3, h4⟩
          obtain ⟨k', h13⟩ := List.mem_iff_getElem?.1 hcomp
          have : k' = k := (h12 k' ⟨comp, h13, hA hu⟩).trans (h12 k ⟨comp', h9, h11⟩).symm
          subst this
          rw [h13] at h9
          cases h9
          refine ⟨n, h10, ?_⟩
          obtain ⟨x, y, d, -, h14, h15, -⟩ := h.distance_edge hd hcomp h10
          rw [h8] at h14
          cases h14
          rw [h15]
          exact ⟨h4, h5⟩
        · exact ih hu
    exact key b hl hbA

end

/-! ## Distances -/

theorem approx_motion {φ ε : ℝ} {t P Q P' Q' : ℂ} (hε : 0 ≤ ε) (h1 : |(motion φ t P - P').re| ≤ ε) (h2 : |(motion φ t P - P').im| ≤ ε)
    (h3 : |(motion φ t Q - Q').re| ≤ ε) (h4 : |(motion φ t Q - Q').im| ≤ ε) : |‖P' - Q'‖ - ‖P - Q‖| ≤ 3 * ε := by
  have small : ∀ z : ℂ, |z.re| ≤ ε → |z.im| ≤ ε → ‖z‖ ≤ 3 / 2 * ε := by
    intro z hr hi
    refine abs_le_of_sq_le_sq' ?_ (by linarith) |>.2
    rw [Complex.sq_norm, Complex.normSq_apply]
    have e1 : z.re ^ 2 ≤ ε ^ 2 := sq_le_sq' (by linarith [neg_abs_le z.re]) (by linarith [le_abs_self z.re])
    have e2 : z.im ^ 2 ≤ ε ^ 2 := sq_le_sq' (by linarith [neg_abs_le z.im]) (by linarith [le_abs_self z.im])
    nlinarith
  have hn : ‖P - Q‖ = ‖motion φ t P - motion φ t Q‖ := by rw [motion_sub, norm_rot]
  rw [hn]
  refine (abs_norm_sub_norm_le _ _).trans ?_
  rw [show P' - Q' - (motion φ t P - motion φ t Q) = (motion φ t Q - Q') - (motion φ t P - P') by ring]
  refine (norm_sub_le _ _).trans ?_
  linarith [small _ h1 h2, small _ h3 h4]

/-- The residual of a distance at given values. -/
theorem ppd_residual {T : List ℝ} {k k' : Nat} {d x y z w : ℝ} (h1 : T[k]? = some x) (h2 : T[k + 1]? = some y) (h3 : T[k']? = some z) (h4 : T[k' + 1]? = some w) :
    (Expr.pointPointDistance k k' d).calculateResidual (identityMap T) = .ok (‖(⟨x, y⟩ : ℂ) - ⟨z, w⟩‖ - d) := by
  rw [← ppd_real]
  simp only [Expr.calculateResidual, Expr.variableIndices, List.mapM_cons, List.mapM_nil, identityMap, idx_of h1, idx_of h2, idx_of h3, idx_of h4]
  rfl

/-! ## The steps of a plan -/

section
variable {counter : Nat} {ops : List (Op ℝ)} {c : Client ℝ} (h : Reaches counter ops c) (hd : ((Store.empty ℝ).run ops).Distances)

/-- The scaled equation of a distance between points `a` and `b`. -/
noncomputable def Spec.Store.distanceExpr (st : Store ℝ) (scale : ℝ) (a b : Nat) (d : ℝ) : Expr ℝ := .pointPointDistance (off st.elems a) (off st.elems b) (1 / scale * d)

include h in
theorem Reaches.distance_expr {n a b : Nat} {d : ℝ} (hcon : ((Store.empty ℝ).run ops).cons[n]? = some (.pointPointDistance a b d)) :
    ∃ i, (∀ i', ((Store.empty ℝ).run ops).EquationOf n i' ↔ i' = i) ∧ c.sys.scaledExpressions[i]? = some (((Store.empty ℝ).run ops).distanceExpr c.sys.scale a b d) := by
  have h1 := h.crel.rel.expression_at hcon (j := 0) (by simp [encCon])
  rw [Nat.add_zero] at h1
  refine ⟨_, fun i' => ?_, by rw [System.scaledExpressions, List.getElem?_map, h1]; rfl⟩
  rw [flatMap_encCon_length]
  constructor
  · rintro ⟨con, h2, h3, h4⟩
    rw [hcon] at h2
    cases h2
    rw [Store.firstEquation] at h3 h4
    simp only [Con.equations] at h4
    omega
  · rintro rfl
    refine ⟨_, hcon, ?_, ?_⟩
    · rw [Store.firstEquation]
    · rw [Store.firstEquation]; simp only [Con.equations]; omega

/-- After the first `j` steps of a plan of pairs: the distances of these steps are nearly as demanded, and the variables of their points follow their scaled copies. -/
structure DistancesDone (c : Client ℝ) (store : Store ℝ) (ε : ℝ) (P : List (Finset Nat)) (steps : List RecombinationStep) (j : Nat) (st : SolveState ℝ) : Prop where
  solved : ∀ j' < j, ∀ s, steps[j']? = some s → ∀ n ∈ s.constraints, ∀ a b d, store.cons[n]? = some (.pointPointDistance a b d) →
    ∃ r, (store.distanceExpr c.sys.scale a b d).calculateResidual (identityMap st.transformed) = .ok r ∧ |r| ≤ (1 + 3 * j) * ε
  synced : ∀ j' < j, ∀ p, P[j']? = some p → ∀ x ∈ p, ∀ k, c.sys.elements[x]? = some (.point k) → Synced c.sys.scale st k ∧ Synced c.sys.scale st (k + 1)

variable {comp : Component} (hcomp : comp ∈ c.sys.graph.components) {optimize : Optimize ℝ} {ε : ℝ} (hatt : optimize.Attains ε) (hε : 0 ≤ ε) {ord : HashOrder}
  {steps : List RecombinationStep} (hp : c.sys.recursivePlan ord comp = .ok steps) {P : List (Finset Nat)}
  (hP : PairList ⟨c.sys.graph.toD, comp.elements, comp.constraints⟩ P) (hPS : PairSteps ⟨c.sys.graph.toD, comp.elements, comp.constraints⟩ P steps)
  (hmem : ∀ s ∈ steps, ∀ n ∈ s.constraints, n ∈ comp.constraints)
include h hd hcomp hatt hε hp hP hPS hmem

theorem DistancesDone.step {j : Nat} {s : RecombinationStep} (hj : steps[j]? = some s) {st st' : SolveState ℝ}
    (hi : DistancesDone c ((Store.empty ℝ).run ops) ε P steps j st) (hs : solveStep optimize c.sys c.sys.scale c.sys.scaledExpressions st s = .ok st') :
    DistancesDone c ((Store.empty ℝ).run ops) ε P steps (j + 1) st' := by
  obtain ⟨es, he1, heff, hsync, hfresh⟩ := C64_step_effect h hp (List.mem_of_getElem? hj) hatt hε hs
  have hst := hPS.step j s hj
  have hpt : ∀ x ∈ comp.elements, ∃ u v, ((Store.empty ℝ).run ops).elems[x]? = some (.point u v) ∧ c.sys.elements[x]? = some (.point (off ((Store.empty ℝ).run ops).elems x)) := by
    intro x hx
    obtain ⟨u, v, hxe⟩ := h.distance_point hd hcomp hx
    exact ⟨u, v, hxe, h.crel.rel.element_at hxe⟩
  refine ⟨fun j' hj' s' hs' n hn a b d hcon => ?_, fun j' hj' p hp' x hx k hk => ?_⟩
  · by_cases hjj : j' = j
    · subst hjj
      rw [hj] at hs'
      cases hs'
      obtain ⟨i, h1, h2⟩ := h.distance_expr hcon
      obtain ⟨e, r, h3, h4, h5⟩ := heff.solved i ((mem_flatten_of_mapM h.crel.rel he1 i).2 ⟨n, hn, (h1 i).2 rfl⟩)
      rw [h2] at h3
      cases h3
      refine ⟨r, h4, h5.trans ?_⟩
      have : (0 : ℝ) ≤ 3 * ((j' + 1 : ℕ) : ℝ) * ε := by positivity
      linarith
    · have hlt : j' < j := by omega
      obtain ⟨r, h1, h2⟩ := hi.solved j' hlt s' hs' n hn a b d hcon
      obtain ⟨p, hp', -, hends⟩ := (hPS.step j' s' hs').pair
      obtain ⟨a', b', d', -, h3, h4, -⟩ := h.distance_edge hd hcomp (hmem s' (List.mem_of_getElem? hs') n hn)
      rw [hcon] at h3
      cases h3
      have ha : a ∈ p := hends n hn a (by rw [h4]; simp)
      have hb : b ∈ p := hends n hn b (by rw [h4]; simp)
      have hv : ∀ x ∈ p, x ∈ comp.elements := fun x hx => by
        obtain ⟨y, z, -, hy, hz, -, rfl⟩ := hP.pair p (List.mem_of_getElem? hp')
        rcases Finset.mem_insert.1 hx with rfl | hx
        · exact hy
        · rw [Finset.mem_singleton] at hx
          exact hx ▸ hz
      obtain ⟨-, -, -, hka⟩ := hpt a (hv a ha)
      obtain ⟨-, -, -, hkb⟩ := hpt b (hv b hb)
      have hbound : (1 + 3 * (j : ℝ)) * ε + 3 * ε = (1 + 3 * ((j + 1 : ℕ) : ℝ)) * ε := by push_cast; ring
      rw [← hbound]
      rcases hst.keeps hP (fun x hx => by obtain ⟨_, _, _, hk⟩ := hpt x hx; exact ⟨_, hk⟩) hlt hp' with hcar | hstill
      · obtain ⟨φ, t, hr⟩ := heff.rigid j'
        obtain ⟨x, y, x', y', a1, a2, a3, a4, a5, a6⟩ := hr a _ (hcar a ha) hka
        obtain ⟨z, w, z', w', b1, b2, b3, b4, b5, b6⟩ := hr b _ (hcar b hb) hkb
        rw [Store.distanceExpr, ppd_residual a1 a2 b1 b2] at h1
        have h1 := Except.ok.inj h1
        refine ⟨_, ppd_residual a3 a4 b3 b4, ?_⟩
        have := approx_motion hε a5 a6 b5 b6
        rw [abs_le] at *
        constructor <;> linarith [this.1, this.2, h2.1, h2.2]
      · obtain ⟨a1, a2⟩ := (heff.still a (hstill a ha) _).1 hka
        obtain ⟨b1, b2⟩ := (heff.still b (hstill b hb) _).1 hkb
        refine ⟨r, calculateResidual_mono_on (fun v hv var hvar => ?_) h1, h2.trans (by linarith)⟩
        rw [identityMap, bind_eq_ok] at hvar
        obtain ⟨y, h5, h6⟩ := hvar
        cases h6
        rw [idx_eq_ok] at h5
        simp only [Store.distanceExpr, Expr.variableIndices, List.mem_cons, List.not_mem_nil, or_false] at hv
        rcases hv with rfl | rfl | rfl | rfl
        · rw [a1]; exact h5
        · rw [a2]; exact h5
        · rw [b1]; exact h5
        · rw [b2]; exact h5
  · by_cases hjj : j' = j
    · subst hjj
      obtain ⟨p', hp'', hel, -⟩ := hst.pair
      rw [hp'] at hp''
      cases hp''
      have hf := hfresh x (.inl ((hel x).2 hx)) k hk
      exact ⟨hf k (.inl rfl), hf (k + 1) (.inr rfl)⟩
    · obtain ⟨h1, h2⟩ := hi.synced j' (by omega) p hp' x hx k hk
      exact ⟨hsync _ h1, hsync _ h2⟩

theorem DistancesDone.fold : ∀ (l : List RecombinationStep) (j : Nat), (∀ i s, l[i]? = some s → steps[j + i]? = some s) → ∀ {st st' : SolveState ℝ},
    DistancesDone c ((Store.empty ℝ).run ops) ε P steps j st → l.foldlM (solveStep optimize c.sys c.sys.scale c.sys.scaledExpressions) st = .ok st' →
    DistancesDone c ((Store.empty ℝ).run ops) ε P steps (j + l.length) st' := by
  intro l
  induction l with
  | nil => intro j _ st st' hi h; cases h; exact hi
  | cons s l ih =>
    intro j hl st st' hi hf
    rw [List.foldlM_cons, bind_eq_ok] at hf
    obtain ⟨st1, h1, h2⟩ := hf
    have := ih (j + 1) (fun i s' hs' => by rw [Nat.add_right_comm]; exact hl (i + 1) s' hs') (hi.step h hd hcomp hatt hε hp hP hPS hmem (hl 0 s rfl) h1) h2
    rwa [List.length_cons, Nat.add_comm l.length, ← Nat.add_assoc]

end

end Fiksi
