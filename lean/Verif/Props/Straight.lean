import Verif.Proofs.Straight
import Verif.Props.Centroid
/-!
# C92: points on a line stay on it
-/
namespace Fiksi
open Spec

/-- A set of points that is only asked about the lengths of segments between them: each constraint is about none of them, or it is a distance between two of them, an equality of lengths of segments
between them or the incidence of one of them with a circle around another one. -/
def Spec.Store.OnlySegments (st : Store ℝ) (S : Finset Nat) : Prop :=
  (∀ p ∈ S, st.IsPoint p) ∧ ∀ con ∈ st.cons, (∀ p ∈ st.actsOn con, p ∉ S) ∨
    (∀ p ∈ st.actsOn con, st.IsPoint p → p ∈ S) ∧
      ((∃ p q d, con = .pointPointDistance p q d) ∨ (∃ p q r t, con = .segmentSegmentLengthEquality p q r t) ∨ ∃ p k, con = .pointCircleIncidence p k)

/-- The places of the first coordinates of the points. -/
def firstCoordinates (elems : List (Elem ℝ)) (S : Finset Nat) : Set Nat := { t | ∃ p ∈ S, t = off elems p }

theorem Expr.transform_along {T : Set Nat} {e : Expr ℝ} (k : ℝ) (h : e.Along T) : (e.transform k).Along T := by
  cases e <;> exact h

section
variable {counter : Nat} {ops : List (Op ℝ)} {c : Client ℝ} (h : Reaches counter ops c)
include h

/-- A variable of a part that is a coordinate of a point is one of a point of the part. -/
theorem Reaches.point_of_varOf {comp : Component} (hcomp : comp ∈ c.sys.graph.components) {p j : Nat} {e : Elem ℝ} (hp : ((Store.empty ℝ).run ops).elems[p]? = some e) (hj : j < (elemValues e).length)
    (hv : c.sys.VarOf comp.elements (off ((Store.empty ℝ).run ops).elems p + j)) : p ∈ comp.elements := by
  have hr := h.crel.rel
  obtain ⟨i, hi, el, h1, h2⟩ := hv
  obtain ⟨l, hl, hil⟩ := h.constrained_of_mem hcomp hi
  obtain ⟨con, hcon, rfl⟩ := List.mem_map.1 hl
  obtain ⟨q, h3, h4⟩ := hr.owner_of_var h1 h2
  have hqi : q = i := by
    rcases actsOn_primitive hr (hr.wfCon con hcon) hil with ⟨x, y, he⟩ | ⟨x, he⟩ <;>
      (rw [Store.primitives, he] at h3; simpa using h3)
  rw [hr.owners, owner_at _ hp hj] at h4
  cases h4
  rw [hqi]
  exact hi

variable {S : Finset Nat} (hS : ((Store.empty ℝ).run ops).OnlySegments S)
include hS

theorem Reaches.along {E : Finset Nat} {con : Spec.Con ℝ} (hcon : con ∈ ((Store.empty ℝ).run ops).cons) (hE : ∀ p ∈ ((Store.empty ℝ).run ops).actsOn con, p ∈ E) :
    ∀ e ∈ encCon ((Store.empty ℝ).run ops).elems con, e.Along { t | ∃ p ∈ S, p ∈ E ∧ t = off ((Store.empty ℝ).run ops).elems p } := by
  have hr := h.crel.rel
  intro e he
  rcases hS.2 con hcon with hno | ⟨hall, ⟨p, q, d, rfl⟩ | ⟨p, q, r, t, rfl⟩ | ⟨p, k, rfl⟩⟩
  · have away : ∀ t ∈ { t | ∃ p ∈ S, p ∈ E ∧ t = off ((Store.empty ℝ).run ops).elems p }, ∀ v ∈ e.variableIndices, v ≠ t ∧ v ≠ t + 1 := by
      rintro _ ⟨p, hp, -, rfl⟩ v hv
      obtain ⟨q, h1, el, h2, h3⟩ := hr.reads_varOf (hr.wfCon con hcon) he hv
      obtain ⟨i, h4, h5⟩ := hr.owner_of_var h2 h3
      have hiq : i = q := by
        rcases actsOn_primitive hr (hr.wfCon con hcon) h1 with ⟨x, y, he⟩ | ⟨x, he⟩ <;>
          (rw [Store.primitives, he] at h4; simpa using h4)
      rw [hr.owners, hiq] at h5
      obtain ⟨x, y, hpe⟩ := hS.1 p hp
      constructor
      · rintro rfl
        have := owner_at _ hpe (j := 0) (by simp [elemValues])
        rw [add_zero, h5] at this
        cases this
        exact hno _ h1 hp
      · rintro rfl
        have := owner_at _ hpe (j := 1) (by simp [elemValues])
        rw [h5] at this
        cases this
        exact hno _ h1 hp
    cases e with
    | pointPointDistance p q d => exact .inr away
    | segmentSegmentLengthEquality p q r s => exact .inr away
    | pointCircleIncidence p q r => exact .inr away
    | _ => exact away
  · simp only [encCon, List.mem_singleton] at he
    subst he
    obtain ⟨w1, w2⟩ := hr.wfCon _ hcon
    simp only [Store.actsOn, List.forall_mem_cons] at hall hE
    exact .inl ⟨⟨p, hall.1 w1, hE.1, rfl⟩, ⟨q, hall.2.1 w2, hE.2.1, rfl⟩⟩
  · simp only [encCon, List.mem_singleton] at he
    subst he
    obtain ⟨w1, w2, w3, w4⟩ := hr.wfCon _ hcon
    simp only [Store.actsOn, List.forall_mem_cons] at hall hE
    exact .inl ⟨⟨p, hall.1 w1, hE.1, rfl⟩, ⟨q, hall.2.1 w2, hE.2.1, rfl⟩, ⟨r, hall.2.2.1 w3, hE.2.2.1, rfl⟩, ⟨t, hall.2.2.2.1 w4, hE.2.2.2.1, rfl⟩⟩
  · obtain ⟨w1, cc, r, hk⟩ := hr.wfCon _ hcon
    obtain ⟨w2, len, w3⟩ := hr.wfElem _ _ hk
    simp only [encCon, circOff, hk, List.mem_singleton] at he
    subst he
    simp only [Store.actsOn, Store.circleParts, hk, List.forall_mem_cons] at hall hE
    refine .inl ⟨⟨p, hall.1 w1, hE.1, rfl⟩, ⟨cc, hall.2.1 w2, hE.2.1, rfl⟩, ?_⟩
    rintro _ ⟨q, hq, -, rfl⟩
    obtain ⟨x, y, hqe⟩ := hS.1 q hq
    have far : ∀ j < 2, off ((Store.empty ℝ).run ops).elems r + 0 ≠ off ((Store.empty ℝ).run ops).elems q + j := by
      intro j hj hc
      obtain ⟨rfl, -⟩ := off_inj _ w3 hqe (by simp [elemValues]) (by simpa [elemValues] using hj) hc
      rw [w3] at hqe
      cases hqe
    exact ⟨by simpa using far 0 (by omega), by simpa using far 1 (by omega)⟩

omit hS in
theorem Reaches.scaled_nodup (hdist : ((Store.empty ℝ).run ops).Distinct) {id : Nat} {e : Expr ℝ} (he : c.sys.scaledExpressions[id]? = some e) : e.variableIndices.Nodup := by
  have hr := h.crel.rel
  rw [System.scaledExpressions, List.getElem?_map, Option.map_eq_some_iff] at he
  obtain ⟨e0, he, rfl⟩ := he
  have he := List.mem_of_getElem? he
  rw [hr.exprs, List.mem_flatMap] at he
  obtain ⟨con, hcon, he⟩ := he
  rw [Expr.transform_variableIndices]
  exact encCon_nodup hr (hr.wfCon con hcon) (hdist con hcon) e0 he

theorem Reaches.all_along {id : Nat} {e : Expr ℝ} (he : c.sys.expressions[id]? = some e) : e.Along (firstCoordinates ((Store.empty ℝ).run ops).elems S) := by
  have h1 := List.mem_of_getElem? he
  rw [h.crel.rel.exprs, List.mem_flatMap] at h1
  obtain ⟨con, hcon, h1⟩ := h1
  have := h.along hS (E := S ∪ (((Store.empty ℝ).run ops).actsOn con).toFinset) hcon (fun p hp => by simp [hp]) e h1
  have hset : { t | ∃ p ∈ S, p ∈ S ∪ (((Store.empty ℝ).run ops).actsOn con).toFinset ∧ t = off ((Store.empty ℝ).run ops).elems p } = firstCoordinates ((Store.empty ℝ).run ops).elems S := by
    ext t
    exact ⟨fun ⟨p, h1, _, h2⟩ => ⟨p, h1, h2⟩, fun ⟨p, h1, h2⟩ => ⟨p, h1, Finset.mem_union_left _ h1, h2⟩⟩
  rw [hset] at this
  exact this

theorem Reaches.firsts_apart : ∀ t ∈ firstCoordinates ((Store.empty ℝ).run ops).elems S, t + 1 ∉ firstCoordinates ((Store.empty ℝ).run ops).elems S := by
  rintro _ ⟨q, hq, rfl⟩ ⟨q', hq', he⟩
  obtain ⟨x, y, h1⟩ := hS.1 q hq
  obtain ⟨x', y', h2⟩ := hS.1 q' hq'
  have := off_inj _ h1 h2 (j := 1) (j' := 0) (by simp [elemValues]) (by simp [elemValues]) (by omega)
  omega

variable (hs : c.sys.scale ≠ 0) (hshort : ops.length < 2 ^ 24) (cast : ℝ → Int) {sort : SortByKey} (hsort : Spec.Sorts sort) {fuel : Nat}
  {ord : HashOrder} {opts : SolvingOptions} (hd : opts.decomposer = .none) (hdist : opts.optimizer = .lBfgs → ((Store.empty ℝ).run ops).Distinct) (hp : opts.perturb = false) {a b κ : ℝ}
include hs hshort hsort hd hdist hp

theorem Reaches.component_straight {ck : Component × Nat} (hck : c.sys.graph.components[ck.2]? = some ck.1)
    {st st' : SolveState ℝ} (hlen : st.transformed.length = c.sys.vars.length)
    (hstart : ∀ p ∈ S, a * st.transformed.getD (off ((Store.empty ℝ).run ops).elems p) 0 + b * st.transformed.getD (off ((Store.empty ℝ).run ops).elems p + 1) 0 = κ / c.sys.scale)
    (hlevel : ∀ p ∈ S, a * st.vars.getD (off ((Store.empty ℝ).run ops).elems p) 0 + b * st.vars.getD (off ((Store.empty ℝ).run ops).elems p + 1) 0 = κ)
    (hc : solveComponent (crateOptimize (qrLeastSquares sort (colamdOfStructure cast)) fuel) ord opts c.sys c.sys.scale c.sys.scaledExpressions st ck = .ok st') :
    st'.transformed = st.transformed ∧ st'.vars.length = st.vars.length ∧
      ∀ p ∈ S, a * st'.vars.getD (off ((Store.empty ℝ).run ops).elems p) 0 + b * st'.vars.getD (off ((Store.empty ℝ).run ops).elems p + 1) 0 = κ := by
  have hr := h.crel.rel
  have hcomp := List.mem_of_getElem? hck
  unfold solveComponent at hc
  split at hc
  · cases hc
    exact ⟨rfl, rfl, hlevel⟩
  rw [bind_eq_ok] at hc
  obtain ⟨free, hfree, hc⟩ := hc
  rw [bind_eq_ok] at hc
  obtain ⟨st1, h1, hc⟩ := hc
  rw [perturbFree, hp] at h1
  cases h1
  rw [hd] at hc
  have hf := freeVariables_spec hfree
  obtain ⟨h4, es, h5, -⟩ := solveWhole_spec hc
  have hmem := mem_flatten_of_mapM h.crel.rel h5
  have hpair : ∀ p ∈ S, off ((Store.empty ℝ).run ops).elems p ∈ free ↔ off ((Store.empty ℝ).run ops).elems p + 1 ∈ free := by
    intro p hpS
    obtain ⟨x, y, hpe⟩ := hS.1 p hpS
    have h0 := owner_at _ hpe (j := 0) (by simp [elemValues])
    have h2 := owner_at _ hpe (j := 1) (by simp [elemValues])
    rw [add_zero] at h0
    have hfix : off ((Store.empty ℝ).run ops).elems p ∈ c.sys.fixedVariables ↔ off ((Store.empty ℝ).run ops).elems p + 1 ∈ c.sys.fixedVariables := by
      rw [hr.fixed, hr.fixed, hr.owners, h0, h2]
    rw [hf, hf, hfix]
    refine and_congr_left fun _ => ⟨fun hv => ?_, fun hv => ?_⟩
    · exact ⟨_, h.point_of_varOf hcomp hpe (j := 0) (by simp [elemValues]) hv, _, hr.element_at hpe, by simp [encElem, EncodedElement.variableIndices]⟩
    · exact ⟨_, h.point_of_varOf hcomp hpe (j := 1) (by simp [elemValues]) hv, _, hr.element_at hpe, by simp [encElem, EncodedElement.variableIndices]⟩
  simp only [solveWhole, bind_eq_ok] at hc
  obtain ⟨values, h6, es', h7, values', h8, vars, h9, h10⟩ := hc
  rw [h5] at h7
  cases h7
  cases h10
  refine ⟨rfl, h4.vars.1, fun p hpS => ?_⟩
  by_cases hpf : off ((Store.empty ℝ).run ops).elems p ∈ free
  swap
  · have e0 := h4.vars.2 _ hpf
    have e1 := h4.vars.2 _ fun hc => hpf ((hpair p hpS).2 hc)
    rw [List.getD_eq_getElem?_getD, List.getD_eq_getElem?_getD, e0, e1, ← List.getD_eq_getElem?_getD, ← List.getD_eq_getElem?_getD]
    exact hlevel p hpS
  have hsub : free ⊆ Finset.range c.sys.vars.length := fun v hv => Finset.mem_range.2 (h.varOf_lt ((hf v).1 hv).1)
  have hid : ∀ id ∈ es.flatten, id < c.sys.expressions.length := fun id hid => by
    obtain ⟨n, -, h11⟩ := (hmem id).1 hid
    exact h.equation_lt h11
  set sub : Subsystem ℝ := ⟨st.transformed, c.sys.scaledExpressions, es.flatten, ascending free⟩ with hsubdef
  have hok : sub.Ok := fun id hi => by
    rw [hsubdef, hlen]
    exact h.exprsOk hid id hi
  have hm : es.flatten.length ≤ c.sys.expressions.length := by
    have hnd := flatten_nodup_of_mapM h.crel.rel (ascending_nodup _) h5
    have := Finset.card_le_card (s := es.flatten.toFinset) (t := Finset.range c.sys.expressions.length) (fun id hi => Finset.mem_range.2 (hid id (List.mem_toFinset.1 hi)))
    rw [List.toFinset_card_of_nodup hnd, Finset.card_range] at this
    exact this
  have hnl : (ascending free).length ≤ c.sys.vars.length := by
    have := Finset.card_le_card hsub
    rw [Finset.card_range] at this
    rw [ascending_length]
    exact this
  have hw := writeVars_values (zipIdx_fst_nodup (ascending_nodup free)) h9
  have after : ∀ v ∈ free, vars.getD v 0 = c.sys.scale * sub.valueOf values' v := by
    intro v hvf
    cases hi : (ascending free).idxOf? v with
    | none => exact absurd ((mem_ascending _ _).2 hvf) (List.idxOf?_eq_none_iff.1 hi)
    | some k =>
      obtain ⟨hlt, h9, -⟩ := List.idxOf?_eq_some_iff.1 hi
      obtain ⟨y, a1, a2⟩ := hw (v, k) (List.mem_zipIdx_iff_getElem?.2 (by rw [← h9]; exact List.getElem?_eq_getElem hlt))
      simp only at a1 a2
      rw [Subsystem.valueOf, hi, List.getD_eq_getElem?_getD, a2]
      show _ = c.sys.scale * values'.getD k 0
      rw [List.getD_eq_getElem?_getD, a1]
      rfl
  have hall := crateOptimize_straight (qrColamd_exact cast hsort) (fuel := fuel) (o := opts.optimizer) hok (fun ho id _ e he => h.scaled_nodup (hdist ho) he)
    (h.fits hshort _ _ _ hm hnl (Subsystem.size_le _)) (T := firstCoordinates ((Store.empty ℝ).run ops).elems S)
    (a := a) (b := b) (κ := κ / c.sys.scale) (x := values) (x' := values') (h.firsts_apart hS) ?_ (ascending_nodup free) ?_ ?_ (mapM_forall h6).length_eq.symm h8
  · have := hall _ ⟨p, hpS, rfl⟩
    show a * vars.getD _ 0 + b * vars.getD _ 0 = κ
    rw [after _ hpf, after _ ((hpair p hpS).1 hpf)]
    rw [eq_div_iff hs] at this
    linarith
  · rintro _ ⟨q, hq, rfl⟩
    show _ ∈ ascending free ↔ _ ∈ ascending free
    rw [mem_ascending, mem_ascending]
    exact hpair q hq
  · intro id hi e he
    have he : c.sys.scaledExpressions[id]? = some e := he
    rw [System.scaledExpressions, List.getElem?_map, Option.map_eq_some_iff] at he
    obtain ⟨e0, he0, rfl⟩ := he
    exact Expr.transform_along _ (h.all_along hS he0)
  · rintro _ ⟨q, hq, rfl⟩
    rw [valueOf_start h6, valueOf_start h6]
    exact hstart q hq

theorem Reaches.loop_straight (hlevel : ∀ p ∈ S, a * c.sys.vars.getD (off ((Store.empty ℝ).run ops).elems p) 0 + b * c.sys.vars.getD (off ((Store.empty ℝ).run ops).elems p + 1) 0 = κ) {st : SolveState ℝ}
    (hl : c.sys.solveLoop (crateOptimize (qrLeastSquares sort (colamdOfStructure cast)) fuel) ord opts = .ok st) : st.vars.length = c.sys.vars.length ∧
    ∀ p ∈ S, a * st.vars.getD (off ((Store.empty ℝ).run ops).elems p) 0 + b * st.vars.getD (off ((Store.empty ℝ).run ops).elems p + 1) 0 = κ := by
  have start : ∀ v, c.sys.scaledVariables.getD v 0 = c.sys.vars.getD v 0 * (1 / c.sys.scale) := by
    intro v
    rw [System.scaledVariables, List.getD_eq_getElem?_getD, List.getD_eq_getElem?_getD, List.getElem?_map]
    cases c.sys.vars[v]? <;> simp
  have key : ∀ (l : List (Component × Nat)) (st st' : SolveState ℝ), (∀ ck ∈ l, c.sys.graph.components[ck.2]? = some ck.1) → st.transformed = c.sys.scaledVariables →
      (∀ p ∈ S, a * st.vars.getD (off ((Store.empty ℝ).run ops).elems p) 0 + b * st.vars.getD (off ((Store.empty ℝ).run ops).elems p + 1) 0 = κ) →
      l.foldlM (solveComponent (crateOptimize (qrLeastSquares sort (colamdOfStructure cast)) fuel) ord opts c.sys c.sys.scale c.sys.scaledExpressions) st = .ok st' → st'.vars.length = st.vars.length ∧
      ∀ p ∈ S, a * st'.vars.getD (off ((Store.empty ℝ).run ops).elems p) 0 + b * st'.vars.getD (off ((Store.empty ℝ).run ops).elems p + 1) 0 = κ := by
    intro l
    induction l with
    | nil => intro st st' _ _ hlv hf; cases hf; exact ⟨rfl, hlv⟩
    | cons ck l ih =>
      intro st st' hcomps htr hlv hf
      rw [List.foldlM_cons, bind_eq_ok] at hf
      obtain ⟨st1, h1, h2⟩ := hf
      obtain ⟨a1, a2, a3⟩ := h.component_straight hS hs hshort cast hsort hd hdist hp (hcomps ck (by simp)) (by rw [htr]; simp [System.scaledVariables]) (fun p hpS => by
        rw [htr, start, start, ← hlevel p hpS]
        ring) hlv h1
      obtain ⟨b1, b2⟩ := ih st1 st' (fun ck hck => hcomps ck (by simp [hck])) (a1.trans htr) a3 h2
      exact ⟨b1.trans a2, b2⟩
  exact key c.sys.graph.components.zipIdx ⟨c.sys.vars, c.sys.scaledVariables, 42, []⟩ st (fun ck hck => List.mem_zipIdx_iff_getElem?.1 hck) rfl hlevel hl

end

section
variable {counter : Nat} {ops : List (Op ℝ)} {c : Client ℝ} (h : Reaches counter ops c)
include h

/-- C92 (partial): points on a line stay on it. After any legal history, for every set of points, fixed or not, that is only asked about the lengths of
segments between its points and about circles with radii around them: if all of them are on the line `a·x + b·y = κ`, whatever its direction and place, then they are on it after `solve` with `Decomposer::None` and no perturbation, whether
or not the lengths can be met, in exact arithmetic; with L-BFGS, if all constraints are about distinct points. (Full statement: for all options and all kinds of
constraints that hold on the line; false with perturbation, see `C92_default_leaves_line`.) -/
theorem C92_line_kept_partial (hnz : ((Store.empty ℝ).run ops).NonZero) (hshort : ops.length < 2 ^ 24) (cast : ℝ → Int) {sort : SortByKey}
    (hsort : Spec.Sorts sort) {fuel : Nat} {ord : HashOrder} {opts : SolvingOptions} (hd : opts.decomposer = .none) (hdist : opts.optimizer = .lBfgs → ((Store.empty ℝ).run ops).Distinct) (hp : opts.perturb = false) {s' : System ℝ}
    (hs : c.sys.solve (crateOptimize (qrLeastSquares sort (colamdOfStructure cast)) fuel) ord opts = .ok s') {S : Finset Nat} (hS : ((Store.empty ℝ).run ops).OnlySegments S) {a b κ : ℝ}
    (hline : ∀ p ∈ S, ∃ x y, c.sys.getValue .point ⟨c.sys.id, p⟩ = .ok (.point x y) ∧ a * x + b * y = κ) :
    ∀ p ∈ S, ∃ x y, s'.getValue .point ⟨c.sys.id, p⟩ = .ok (.point x y) ∧ a * x + b * y = κ := by
  have hr := h.crel.rel
  obtain ⟨st, h2, rfl⟩ := solve_eq hs
  have hlen : ∀ p ∈ S, off ((Store.empty ℝ).run ops).elems p + 1 < c.sys.vars.length := by
    intro p hp
    obtain ⟨x, y, he⟩ := hS.1 p hp
    have := off_add_le _ he
    rw [hr.vars]
    simp only [elemValues, List.length_cons, List.length_nil] at this
    omega
  have hread : ∀ (s : System ℝ), s.id = c.sys.id → s.elements = c.sys.elements → s.vars.length = c.sys.vars.length → ∀ p ∈ S,
      s.getValue .point ⟨c.sys.id, p⟩ = .ok (.point (s.vars.getD (off ((Store.empty ℝ).run ops).elems p) 0) (s.vars.getD (off ((Store.empty ℝ).run ops).elems p + 1) 0)) := by
    intro s h1 h2 h3 p hp
    obtain ⟨x, y, he⟩ := hS.1 p hp
    have := hlen p hp
    unfold System.getValue
    rw [if_neg (by simp [h1]), h2, idx_of (hr.element_at he), ok_bind]
    simp only [encElem, fromEncodedElement]
    rw [idx_getD (by omega), ok_bind, idx_getD (by omega), ok_bind]
    rfl
  obtain ⟨h3, h4⟩ := h.loop_straight hS (h.scale_pos hnz).ne' hshort cast hsort hd hdist hp (a := a) (b := b) (κ := κ) (fun p hpS => by
    obtain ⟨x, y, h5, h6⟩ := hline p hpS
    have := (hread c.sys rfl rfl rfl p hpS).symm.trans h5
    simp only [Except.ok.injEq, ElementValue.point.injEq] at this
    rw [this.1, this.2]
    exact h6) h2
  exact fun p hpS => ⟨_, _, hread { c.sys with vars := st.vars } rfl rfl h3 p hpS, h4 p hpS⟩

end

/-- Three points on the line `x + y = 1`, the first fixed, with distances that do not hold. -/
noncomputable def rulerOps : List (Op ℝ) :=
  [.createPoint 1 0, .createPoint 0 1, .createPoint 2 (-1), .createLength 4, .createCircle 0 3, .createCon (.pointPointDistance 0 1 3), .createCon (.pointPointDistance 1 2 5),
    .createCon (.pointCircleIncidence 2 4), .fix .point 0]

/-- A case for C92. -/
example : ∃ c, Reaches 0 rulerOps c ∧ ((Store.empty ℝ).run rulerOps).NonZero ∧ rulerOps.length < 2 ^ 24 ∧ ((Store.empty ℝ).run rulerOps).Distinct ∧
    ((Store.empty ℝ).run rulerOps).OnlySegments {0, 1, 2} ∧ ∀ p ∈ ({0, 1, 2} : Finset Nat), ∃ x y, c.sys.getValue .point ⟨c.sys.id, p⟩ = .ok (.point x y) ∧ 1 * x + 1 * y = 1 := by
  obtain ⟨c, h⟩ := exists_reaches 0 rulerOps (by
    simp [rulerOps, Store.LegalRun, Store.Legal, Store.empty, Store.step, Store.IsPoint, Store.IsLength, Store.IsCircle, Store.ConOk, Elem.kind]) (by simp [rulerOps])
  have hc : ((Store.empty ℝ).run rulerOps).cons = [.pointPointDistance 0 1 3, .pointPointDistance 1 2 5, .pointCircleIncidence 2 4] := rfl
  have he : ((Store.empty ℝ).run rulerOps).elems = [.point 1 0, .point 0 1, .point 2 (-1), .length 4, .circle 0 3] := rfl
  refine ⟨c, h, ⟨.point 1 0, by rw [he]; simp, .inl ⟨1, 0, rfl, .inl one_ne_zero⟩⟩, by simp [rulerOps], fun con hcon => ?_, ⟨fun p hp => ?_, fun con hcon => .inr ?_⟩, fun p hp => ?_⟩
  · rw [hc] at hcon
    simp only [List.mem_cons, List.not_mem_nil, or_false] at hcon
    rcases hcon with rfl | rfl | rfl <;> simp [Store.pointsOf, Store.centre, he]
  · simp only [Finset.mem_insert, Finset.mem_singleton] at hp
    rcases hp with rfl | rfl | rfl <;> exact ⟨_, _, rfl⟩
  · rw [hc] at hcon
    simp only [List.mem_cons, List.not_mem_nil, or_false] at hcon
    rcases hcon with rfl | rfl | rfl
    · exact ⟨by simp [Store.actsOn], .inl ⟨_, _, _, rfl⟩⟩
    · exact ⟨by simp [Store.actsOn], .inl ⟨_, _, _, rfl⟩⟩
    · exact ⟨by simp [Store.actsOn, Store.circleParts, Store.IsPoint, he], .inr (.inr ⟨_, _, rfl⟩)⟩
  · have read : ∀ {i : Nat} {u v : ℝ}, ((Store.empty ℝ).run rulerOps).elems[i]? = some (.point u v) → c.sys.getValue .point ⟨c.sys.id, i⟩ = .ok (.point u v) := by
      intro i u v h1
      obtain ⟨w, h3, h4⟩ := h.crel.getValue h1
      rw [Store.value, h1] at h3
      cases h3
      exact h4
    simp only [Finset.mem_insert, Finset.mem_singleton] at hp
    rcases hp with rfl | rfl | rfl
    · exact ⟨_, _, read (by rw [he]; rfl), by norm_num⟩
    · exact ⟨_, _, read (by rw [he]; rfl), by norm_num⟩
    · exact ⟨_, _, read (by rw [he]; rfl), by norm_num⟩

end Fiksi
