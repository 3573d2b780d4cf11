import Verif.Props.Straight
/-!
# C92 with `SinglePass`: points on a line stay on it
-/
namespace Fiksi
open Spec

/-- An equation that is about a point of the line reads both its coordinates. -/
theorem Expr.Along.reads {T : Set Nat} (hsep : ∀ t ∈ T, t + 1 ∉ T) {e : Expr ℝ} (h : e.Along T) {t : Nat} (ht : t ∈ T) : t ∈ e.variableIndices ↔ t + 1 ∈ e.variableIndices := by
  have away : ∀ {l : List Nat}, (∀ t ∈ T, ∀ v ∈ l, v ≠ t ∧ v ≠ t + 1) → (t ∈ l ↔ t + 1 ∈ l) := fun h1 =>
    ⟨fun h2 => absurd rfl (h1 t ht _ h2).1, fun h2 => absurd rfl (h1 t ht _ h2).2⟩
  have no : ∀ u ∈ T, t ≠ u + 1 ∧ t + 1 ≠ u := fun u hu => ⟨fun (hc : t = u + 1) => hsep u hu (hc ▸ ht), fun (hc : t + 1 = u) => hsep t ht (hc ▸ hu)⟩
  cases e with
  | pointPointDistance p q d =>
    rcases h with ⟨hp, hq⟩ | h
    · have := no p hp
      have := no q hq
      simp only [Expr.variableIndices, List.mem_cons, List.not_mem_nil, or_false]
      omega
    · exact away h
  | pointCircleIncidence p q r =>
    rcases h with ⟨hp, hq, hr⟩ | h
    · have := no p hp
      have := no q hq
      have := hr t ht
      simp only [Expr.variableIndices, List.mem_cons, List.not_mem_nil, or_false]
      omega
    · exact away h
  | segmentSegmentLengthEquality p q r s =>
    rcases h with ⟨hp, hq, hr, hs⟩ | h
    · have := no p hp
      have := no q hq
      have := no r hr
      have := no s hs
      simp only [Expr.variableIndices, List.mem_cons, List.not_mem_nil, or_false]
      omega
    · exact away h
  | _ => exact away h

/-- Two variables that are read by the same equations are changed in the same step of a plan. -/
theorem same_step {Reads : Nat → Nat → Prop} {free : Finset Nat} {steps : List (Finset Nat × List Nat)} (hplan : PlanOk Reads free steps) (hord : InSolvingOrder Reads free steps) {v w : Nat}
    (hR : ∀ e, Reads e v ↔ Reads e w) (hf : v ∈ free ↔ w ∈ free) {s : Finset Nat × List Nat} (hs : s ∈ steps) (hv : v ∈ s.1) : w ∈ s.1 := by
  obtain ⟨j, hj⟩ := List.mem_iff_getElem?.1 hs
  have hvf := hplan.free s hs hv
  obtain ⟨e, he, hr⟩ := hplan.own s hs v hv
  obtain ⟨i, s', hij, hi, hw⟩ := hord j s hj e he w (hf.1 hvf) ((hR e).1 hr)
  obtain ⟨e', he', hr'⟩ := hplan.own s' (List.mem_of_getElem? hi) w hw
  obtain ⟨i', s'', hij', hi', hv'⟩ := hord i s' hi e' he' v hvf ((hR e').2 hr')
  by_cases hjj : i' = j
  · obtain rfl : i = j := by omega
    rw [hi] at hj
    cases hj
    exact hw
  · exact absurd hv (Finset.disjoint_left.1 (hplan.disjoint i' j s'' s hi' hj hjj) hv')

section
variable {counter : Nat} {ops : List (Op ℝ)} {c : Client ℝ} (h : Reaches counter ops c) {S : Finset Nat} (hS : ((Store.empty ℝ).run ops).OnlySegments S)
include h hS

variable (hs : c.sys.scale ≠ 0) (hshort : ops.length < 2 ^ 24) (cast : ℝ → Int) {sort : SortByKey} (hsort : Spec.Sorts sort) {fuel : Nat}
  {ord : HashOrder} (hord : ord.Ok) {opts : SolvingOptions} (hd : opts.decomposer = .singlePass) (hdist : opts.optimizer = .lBfgs → ((Store.empty ℝ).run ops).Distinct) (hp : opts.perturb = false) {a b κ : ℝ}
include hshort hsort hdist

theorem Reaches.block_straight {freeList es : List Nat} (hnd : freeList.Nodup) (hlt : ∀ v ∈ freeList, v < c.sys.vars.length) (hes : ∀ id ∈ es, id < c.sys.expressions.length) (hesn : es.Nodup)
    (hpair : ∀ p ∈ S, off ((Store.empty ℝ).run ops).elems p ∈ freeList ↔ off ((Store.empty ℝ).run ops).elems p + 1 ∈ freeList) {st st' : SolveState ℝ}
    (hlen : st.transformed.length = c.sys.vars.length) (hsync : ∀ v, Synced c.sys.scale st v)
    (hlevel : ∀ p ∈ S, a * st.transformed.getD (off ((Store.empty ℝ).run ops).elems p) 0 + b * st.transformed.getD (off ((Store.empty ℝ).run ops).elems p + 1) 0 = κ)
    (hb : solveBlock (crateOptimize (qrLeastSquares sort (colamdOfStructure cast)) fuel) opts c.sys.scale c.sys.scaledExpressions freeList es st = .ok st') :
    st'.transformed.length = c.sys.vars.length ∧ st'.vars.length = st.vars.length ∧ (∀ v, Synced c.sys.scale st' v) ∧
      ∀ p ∈ S, a * st'.transformed.getD (off ((Store.empty ℝ).run ops).elems p) 0 + b * st'.transformed.getD (off ((Store.empty ℝ).run ops).elems p + 1) 0 = κ := by
  have hfr := (solveBlock_spec hb).1
  simp only [solveBlock, bind_eq_ok] at hb
  obtain ⟨values, h6, values', h8, tr, h9, vars, h10, h11⟩ := hb
  cases h11
  have hw := writeVars_values (zipIdx_fst_nodup hnd) h10
  have hw' := writeTransformed_values (zipIdx_fst_nodup hnd) h9
  set sub : Subsystem ℝ := ⟨st.transformed, c.sys.scaledExpressions, es, freeList⟩ with hsubdef
  have hok : sub.Ok := fun id hi => by
    rw [hsubdef, hlen]
    exact h.exprsOk hes id hi
  have hm : es.length ≤ c.sys.expressions.length := by
    have := Finset.card_le_card (s := es.toFinset) (t := Finset.range c.sys.expressions.length) (fun id hi => Finset.mem_range.2 (hes id (List.mem_toFinset.1 hi)))
    rw [List.toFinset_card_of_nodup hesn, Finset.card_range] at this
    exact this
  have hnl : freeList.length ≤ c.sys.vars.length := by
    have := Finset.card_le_card (s := freeList.toFinset) (t := Finset.range c.sys.vars.length) (fun id hi => Finset.mem_range.2 (hlt id (List.mem_toFinset.1 hi)))
    rw [List.toFinset_card_of_nodup hnd, Finset.card_range] at this
    exact this
  have hkey : ∀ v, v ∈ freeList → ∃ k : Nat, freeList.idxOf? v = some k ∧ (v, k) ∈ freeList.zipIdx := by
    intro v hv
    cases hi : freeList.idxOf? v with
    | none => exact absurd hv (List.idxOf?_eq_none_iff.1 hi)
    | some k =>
      obtain ⟨hlt, h9, -⟩ := List.idxOf?_eq_some_iff.1 hi
      exact ⟨k, rfl, List.mem_zipIdx_iff_getElem?.2 (by rw [← h9]; exact List.getElem?_eq_getElem hlt)⟩
  have before : ∀ v, sub.valueOf values v = st.transformed.getD v 0 := valueOf_start h6
  have after : ∀ v, sub.valueOf values' v = tr.getD v 0 := by
    intro v
    by_cases hvf : v ∈ freeList
    · obtain ⟨k, hk1, hk2⟩ := hkey v hvf
      have a1 := hw' _ hk2
      simp only at a1
      rw [Subsystem.valueOf, hk1, List.getD_eq_getElem?_getD (l := tr), a1, ← List.getD_eq_getElem?_getD]
    · have e1 := hfr.transformed.2 v hvf
      simp only at e1
      rw [Subsystem.valueOf, List.idxOf?_eq_none_iff.2 hvf, List.getD_eq_getElem?_getD (l := tr), e1, ← List.getD_eq_getElem?_getD]
  have hall := crateOptimize_straight (qrColamd_exact cast hsort) (fuel := fuel) (o := opts.optimizer) hok (fun ho id _ e he => h.scaled_nodup (hdist ho) he)
    (h.fits hshort _ _ _ hm hnl (Subsystem.size_le _)) (T := firstCoordinates ((Store.empty ℝ).run ops).elems S)
    (a := a) (b := b) (κ := κ) (x := values) (x' := values') (h.firsts_apart hS) ?_ hnd ?_ ?_ (mapM_forall h6).length_eq.symm h8
  · refine ⟨hfr.transformed.1.trans hlen, hfr.vars.1, fun v x hx => ?_, fun p hpS => ?_⟩
    · by_cases hvf : v ∈ freeList
      · obtain ⟨k, -, hk2⟩ := hkey v hvf
        obtain ⟨y, h12, h13⟩ := hw _ hk2
        have h14 := hw' _ hk2
        simp only at hx h12 h13 h14
        rw [h14, h12] at hx
        cases hx
        exact h13
      · rw [hfr.transformed.2 v hvf] at hx
        rw [hfr.vars.2 v hvf]
        exact hsync v x hx
    · have := hall _ ⟨p, hpS, rfl⟩
      rw [after, after] at this
      exact this
  · rintro _ ⟨q, hq, rfl⟩
    exact hpair q hq
  · intro id hi e he
    have he : c.sys.scaledExpressions[id]? = some e := he
    rw [System.scaledExpressions, List.getElem?_map, Option.map_eq_some_iff] at he
    obtain ⟨e0, he0, rfl⟩ := he
    exact Expr.transform_along _ (h.all_along hS he0)
  · rintro _ ⟨q, hq, rfl⟩
    rw [before, before]
    exact hlevel q hq

include hord hd hp

theorem Reaches.pass_straight {ck : Component × Nat} (hck : c.sys.graph.components[ck.2]? = some ck.1)
    {st st' : SolveState ℝ} (hlen : st.transformed.length = c.sys.vars.length) (hsync : ∀ v, Synced c.sys.scale st v)
    (hlevel : ∀ p ∈ S, a * st.transformed.getD (off ((Store.empty ℝ).run ops).elems p) 0 + b * st.transformed.getD (off ((Store.empty ℝ).run ops).elems p + 1) 0 = κ)
    (hc : solveComponent (crateOptimize (qrLeastSquares sort (colamdOfStructure cast)) fuel) ord opts c.sys c.sys.scale c.sys.scaledExpressions st ck = .ok st') :
    st'.transformed.length = c.sys.vars.length ∧ st'.vars.length = st.vars.length ∧ (∀ v, Synced c.sys.scale st' v) ∧
      ∀ p ∈ S, a * st'.transformed.getD (off ((Store.empty ℝ).run ops).elems p) 0 + b * st'.transformed.getD (off ((Store.empty ℝ).run ops).elems p + 1) 0 = κ := by
  have hr := h.crel.rel
  have hcomp := List.mem_of_getElem? hck
  unfold solveComponent at hc
  split at hc
  · cases hc
    exact ⟨hlen, rfl, hsync, hlevel⟩
  rw [bind_eq_ok] at hc
  obtain ⟨free, hfree, hc⟩ := hc
  rw [bind_eq_ok] at hc
  obtain ⟨st1, h1, hc⟩ := hc
  rw [perturbFree, hp] at h1
  cases h1
  rw [hd] at hc
  have hf := freeVariables_spec hfree
  have hlt : ∀ v ∈ free, v < c.sys.vars.length := fun v hv => h.varOf_lt ((hf v).1 hv).1
  simp only [solveSinglePass, bind_eq_ok] at hc
  obtain ⟨blocks, hb, hc⟩ := hc
  obtain ⟨plan, hplan1, hplan⟩ := C21_plan_steps_independent h hlt
  obtain ⟨plan', M, hb1, hM, -, hmem, -, hso⟩ := C20_plan_blocks h hlt
  rw [hb] at hplan1 hb1
  cases hplan1
  cases hb1
  have hpairs : ∀ bl ∈ blocks, ∀ p ∈ S, off ((Store.empty ℝ).run ops).elems p ∈ bl.freeVariables ↔ off ((Store.empty ℝ).run ops).elems p + 1 ∈ bl.freeVariables := by
    intro bl hbl p hpS
    obtain ⟨x, y, hpe⟩ := hS.1 p hpS
    have hR : ∀ e, c.sys.ReadsVar e (off ((Store.empty ℝ).run ops).elems p) ↔ c.sys.ReadsVar e (off ((Store.empty ℝ).run ops).elems p + 1) := fun e =>
      exists_congr fun ex => and_congr_right fun hex => (h.all_along hS hex).reads (h.firsts_apart hS) ⟨p, hpS, rfl⟩
    have h0 := owner_at _ hpe (j := 0) (by simp [elemValues])
    have h2 := owner_at _ hpe (j := 1) (by simp [elemValues])
    rw [add_zero] at h0
    have hfix : off ((Store.empty ℝ).run ops).elems p ∈ c.sys.fixedVariables ↔ off ((Store.empty ℝ).run ops).elems p + 1 ∈ c.sys.fixedVariables := by
      rw [hr.fixed, hr.fixed, hr.owners, h0, h2]
    have hff : off ((Store.empty ℝ).run ops).elems p ∈ free ↔ off ((Store.empty ℝ).run ops).elems p + 1 ∈ free := by
      rw [hf, hf, hfix]
      refine and_congr_left fun _ => ⟨fun hv => ?_, fun hv => ?_⟩
      · exact ⟨_, h.point_of_varOf hcomp hpe (j := 0) (by simp [elemValues]) hv, _, hr.element_at hpe, by simp [encElem, EncodedElement.variableIndices]⟩
      · exact ⟨_, h.point_of_varOf hcomp hpe (j := 1) (by simp [elemValues]) hv, _, hr.element_at hpe, by simp [encElem, EncodedElement.variableIndices]⟩
    have hst : (bl.freeVariables, bl.expressions) ∈ stepsOf blocks := List.mem_map_of_mem hbl
    exact ⟨same_step hplan hso hR hff hst, same_step hplan hso (fun e => (hR e).symm) hff.symm hst⟩
  have hids : ∀ bl ∈ blocks, (∀ id ∈ bl.expressions, id < c.sys.expressions.length) ∧ bl.expressions.Nodup := by
    intro bl hbl
    have hst : (bl.freeVariables, bl.expressions) ∈ stepsOf blocks := List.mem_map_of_mem hbl
    refine ⟨fun id hid => ?_, ?_⟩
    · obtain ⟨v, hv⟩ := (hmem id).1 (List.mem_flatten.2 ⟨bl.expressions, List.mem_map_of_mem hst, hid⟩)
      obtain ⟨-, ex, hex, -⟩ := hM.1.edge (v, id) hv
      exact lt_of_getElem? hex
    · exact (List.nodup_flatMap.1 hplan.once).1 _ hst
  have key : ∀ (l : List (Block × Nat)) (st st' : SolveState ℝ), (∀ b ∈ l, b.1 ∈ blocks) → st.transformed.length = c.sys.vars.length → (∀ v, Synced c.sys.scale st v) →
      (∀ p ∈ S, a * st.transformed.getD (off ((Store.empty ℝ).run ops).elems p) 0 + b * st.transformed.getD (off ((Store.empty ℝ).run ops).elems p + 1) 0 = κ) →
      l.foldlM (fun (st : SolveState ℝ) (bi : Block × Nat) => solveBlock (crateOptimize (qrLeastSquares sort (colamdOfStructure cast)) fuel) opts c.sys.scale c.sys.scaledExpressions
        (ord [ck.2, 0, bi.2] bi.1.freeVariables) bi.1.expressions st) st = .ok st' →
      st'.transformed.length = c.sys.vars.length ∧ st'.vars.length = st.vars.length ∧ (∀ v, Synced c.sys.scale st' v) ∧
      ∀ p ∈ S, a * st'.transformed.getD (off ((Store.empty ℝ).run ops).elems p) 0 + b * st'.transformed.getD (off ((Store.empty ℝ).run ops).elems p + 1) 0 = κ := by
    intro l
    induction l with
    | nil => intro st st' _ h1 h2 h3 hf; cases hf; exact ⟨h1, rfl, h2, h3⟩
    | cons bi l ih =>
      intro st st' hbl h1 h2 h3 hfold
      rw [List.foldlM_cons, bind_eq_ok] at hfold
      obtain ⟨st1, h4, h5⟩ := hfold
      have hbi := hbl bi (by simp)
      have ho := hord [ck.2, 0, bi.2] bi.1.freeVariables
      obtain ⟨g1, g2, g3, g4⟩ := h.block_straight hS hshort cast hsort hdist ho.1 (fun v hv => hlt v (hplan.free _ (List.mem_map_of_mem hbi) ((ho.2 v).1 hv))) (hids _ hbi).1 (hids _ hbi).2
        (fun p hpS => by rw [ho.2, ho.2]; exact hpairs _ hbi p hpS) h1 h2 h3 h4
      obtain ⟨k1, k2, k3, k4⟩ := ih st1 st' (fun b hb => hbl b (by simp [hb])) g1 g3 g4 h5
      exact ⟨k1, k2.trans g2, k3, k4⟩
  exact key blocks.zipIdx st st' (fun b hb => mem_zipIdx_fst hb) hlen hsync hlevel hc

end

section
variable {counter : Nat} {ops : List (Op ℝ)} {c : Client ℝ} (h : Reaches counter ops c)
include h

/-- C92 (partial), `Decomposer::SinglePass`: as `C92_line_kept_partial`. Both coordinates of such a point are changed in the same step of the plan. -/
theorem C92_singlePass_line_kept_partial (hnz : ((Store.empty ℝ).run ops).NonZero) (hshort : ops.length < 2 ^ 24) (cast : ℝ → Int) {sort : SortByKey}
    (hsort : Spec.Sorts sort) {fuel : Nat} {ord : HashOrder} (hord : ord.Ok) {opts : SolvingOptions} (hd : opts.decomposer = .singlePass)
    (hdist : opts.optimizer = .lBfgs → ((Store.empty ℝ).run ops).Distinct) (hp : opts.perturb = false) {s' : System ℝ}
    (hs : c.sys.solve (crateOptimize (qrLeastSquares sort (colamdOfStructure cast)) fuel) ord opts = .ok s') {S : Finset Nat} (hS : ((Store.empty ℝ).run ops).OnlySegments S) {a b κ : ℝ}
    (hline : ∀ p ∈ S, ∃ x y, c.sys.getValue .point ⟨c.sys.id, p⟩ = .ok (.point x y) ∧ a * x + b * y = κ) :
    ∀ p ∈ S, ∃ x y, s'.getValue .point ⟨c.sys.id, p⟩ = .ok (.point x y) ∧ a * x + b * y = κ := by
  have hr := h.crel.rel
  have hpos := h.scale_pos hnz
  obtain ⟨st, h2, rfl⟩ := solve_eq hs
  have hlen : ∀ p ∈ S, off ((Store.empty ℝ).run ops).elems p + 1 < c.sys.vars.length := by
    intro p hp
    obtain ⟨x, y, he⟩ := hS.1 p hp
    have := off_add_le _ he
    rw [hr.vars]
    simp only [elemValues, List.length_cons, List.length_nil] at this
    omega
  have hread : ∀ (s : System ℝ), s.id = c.sys.id → s.elements = c.sys.elements → s.vars.length = c.sys.vars.length → ∀ p ∈ S,
      s.getValue .point ⟨c.sys.id, p⟩ = .ok (.point (s.vars.getD (off ((Store.empty ℝ).run ops).elems p) 0) (s.vars.getD (off ((Store.empty ℝ).run ops).elems p + 1) 0)) := by
    intro s h1 h2 h3 p hp
    obtain ⟨x, y, he⟩ := hS.1 p hp
    have := hlen p hp
    unfold System.getValue
    rw [if_neg (by simp [h1]), h2, idx_of (hr.element_at he), ok_bind]
    simp only [encElem, fromEncodedElement]
    rw [idx_getD (by omega), ok_bind, idx_getD (by omega), ok_bind]
    rfl
  have fold : ∀ (l : List (Component × Nat)) (st st' : SolveState ℝ), (∀ ck ∈ l, c.sys.graph.components[ck.2]? = some ck.1) → st.transformed.length = c.sys.vars.length →
      (∀ v, Synced c.sys.scale st v) →
      (∀ p ∈ S, a * st.transformed.getD (off ((Store.empty ℝ).run ops).elems p) 0 + b * st.transformed.getD (off ((Store.empty ℝ).run ops).elems p + 1) 0 = κ / c.sys.scale) →
      l.foldlM (solveComponent (crateOptimize (qrLeastSquares sort (colamdOfStructure cast)) fuel) ord opts c.sys c.sys.scale c.sys.scaledExpressions) st = .ok st' →
      st'.transformed.length = c.sys.vars.length ∧ st'.vars.length = st.vars.length ∧ (∀ v, Synced c.sys.scale st' v) ∧
      ∀ p ∈ S, a * st'.transformed.getD (off ((Store.empty ℝ).run ops).elems p) 0 + b * st'.transformed.getD (off ((Store.empty ℝ).run ops).elems p + 1) 0 = κ / c.sys.scale := by
    intro l
    induction l with
    | nil => intro st st' _ h1 h2 h3 hf; cases hf; exact ⟨h1, rfl, h2, h3⟩
    | cons ck l ih =>
      intro st st' hcomps h1 h2 h3 hf
      rw [List.foldlM_cons, bind_eq_ok] at hf
      obtain ⟨st1, h4, h5⟩ := hf
      obtain ⟨g1, g2, g3, g4⟩ := h.pass_straight hS hshort cast hsort hord hd hdist hp (hcomps ck (by simp)) h1 h2 h3 h4
      obtain ⟨k1, k2, k3, k4⟩ := ih st1 st' (fun ck hck => hcomps ck (by simp [hck])) g1 g3 g4 h5
      exact ⟨k1, k2.trans g2, k3, k4⟩
  have start : ∀ v, c.sys.scaledVariables.getD v 0 = c.sys.vars.getD v 0 * (1 / c.sys.scale) := by
    intro v
    rw [System.scaledVariables, List.getD_eq_getElem?_getD, List.getD_eq_getElem?_getD, List.getElem?_map]
    cases c.sys.vars[v]? <;> simp
  have hsync0 : ∀ v, Synced c.sys.scale ⟨c.sys.vars, c.sys.scaledVariables, 42, []⟩ v := by
    intro v x hx
    simp only at hx
    rw [System.scaledVariables, List.getElem?_map, Option.map_eq_some_iff] at hx
    obtain ⟨y, h2, rfl⟩ := hx
    simp only
    rw [h2]
    congr 1
    field_simp
  have hlevel0 : ∀ p ∈ S, a * c.sys.scaledVariables.getD (off ((Store.empty ℝ).run ops).elems p) 0 + b * c.sys.scaledVariables.getD (off ((Store.empty ℝ).run ops).elems p + 1) 0 = κ / c.sys.scale := by
    intro p hpS
    obtain ⟨x, y, h5, h6⟩ := hline p hpS
    have := (hread c.sys rfl rfl rfl p hpS).symm.trans h5
    simp only [Except.ok.injEq, ElementValue.point.injEq] at this
    simp only [start]
    rw [this.1, this.2, ← h6]
    ring
  obtain ⟨h3, h4, h5, h6⟩ := fold c.sys.graph.components.zipIdx ⟨c.sys.vars, c.sys.scaledVariables, 42, []⟩ st (fun ck hck => List.mem_zipIdx_iff_getElem?.1 hck)
    (by simp [System.scaledVariables]) hsync0 hlevel0 h2
  refine fun p hpS => ⟨_, _, hread { c.sys with vars := st.vars } rfl rfl h4 p hpS, ?_⟩
  have back : ∀ v, v < c.sys.vars.length → st.vars.getD v 0 = c.sys.scale * st.transformed.getD v 0 := by
    intro v hv
    have e1 : st.transformed[v]? = some (st.transformed[v]'(by omega)) := List.getElem?_eq_getElem (by omega)
    rw [List.getD_eq_getElem?_getD, h5 v _ e1, List.getD_eq_getElem?_getD, e1]
    rfl
  have := hlen p hpS
  show a * st.vars.getD _ 0 + b * st.vars.getD _ 0 = κ
  rw [back _ (by omega), back _ (by omega)]
  have := h6 p hpS
  rw [eq_div_iff hpos.ne'] at this
  linarith

end

/-- Four points on the line `x + y = 1`, the last fixed, with distances that do not hold; the last distance joins two constrained parts. -/
noncomputable def joinedRulerOps : List (Op ℝ) :=
  [.createPoint 1 0, .createPoint 0 1, .createPoint 2 (-1), .createPoint 3 (-2), .createCon (.pointPointDistance 0 1 3), .createCon (.pointPointDistance 2 3 5), .createCon (.pointPointDistance 1 2 7),
    .fix .point 3]

/-- A case for C92 with either decomposer, with joined parts. -/
example : ∃ c, Reaches 0 joinedRulerOps c ∧ ((Store.empty ℝ).run joinedRulerOps).NonZero ∧ ¬ NeverJoins ((Store.empty ℝ).run joinedRulerOps).arguments ∧ joinedRulerOps.length < 2 ^ 24 ∧
    ((Store.empty ℝ).run joinedRulerOps).Distinct ∧ HashOrder.Ok (fun _ s => ascending s) ∧
    ((Store.empty ℝ).run joinedRulerOps).OnlySegments {0, 1, 2, 3} ∧ ∀ p ∈ ({0, 1, 2, 3} : Finset Nat), ∃ x y, c.sys.getValue .point ⟨c.sys.id, p⟩ = .ok (.point x y) ∧ 1 * x + 1 * y = 1 := by
  obtain ⟨c, h⟩ := exists_reaches 0 joinedRulerOps (by
    simp [joinedRulerOps, Store.LegalRun, Store.Legal, Store.empty, Store.step, Store.IsPoint, Store.ConOk, Elem.kind]) (by simp [joinedRulerOps])
  have hc : ((Store.empty ℝ).run joinedRulerOps).cons = [.pointPointDistance 0 1 3, .pointPointDistance 2 3 5, .pointPointDistance 1 2 7] := rfl
  have he : ((Store.empty ℝ).run joinedRulerOps).elems = [.point 1 0, .point 0 1, .point 2 (-1), .point 3 (-2)] := rfl
  have ha : ((Store.empty ℝ).run joinedRulerOps).arguments = [[0, 1], [2, 3], [1, 2]] := rfl
  refine ⟨c, h, ⟨.point 1 0, by rw [he]; simp, .inl ⟨1, 0, rfl, .inl one_ne_zero⟩⟩, ?_, by simp [joinedRulerOps], fun con hcon => ?_, fun _ s => ⟨ascending_nodup s, fun v => mem_ascending s v⟩,
    ⟨fun p hp => ?_, fun con hcon => .inr ?_⟩, fun p hp => ?_⟩
  · rw [ha]
    intro hn
    have h1 : Spec.Linked [[0, 1], [2, 3]] 1 2 := hn 2 [1, 2] rfl 1 (by simp) 2 (by simp) ⟨[0, 1], by simp, by simp⟩ ⟨[2, 3], by simp, by simp⟩
    have h2 : ∀ i j, Spec.Linked [[0, 1], [2, 3]] i j → i ≤ 1 → j ≤ 1 := by
      intro i j hij hi
      induction hij with
      | refl => exact hi
      | tail _ ht ih =>
        obtain ⟨l, hl, a1, a2⟩ := ht
        simp only [List.mem_cons, List.not_mem_nil, or_false] at hl
        rcases hl with rfl | rfl
        · simp only [List.mem_cons, List.not_mem_nil, or_false] at a2
          omega
        · simp only [List.mem_cons, List.not_mem_nil, or_false] at a1
          omega
    exact absurd (h2 1 2 h1 le_rfl) (by norm_num)
  · rw [hc] at hcon
    simp only [List.mem_cons, List.not_mem_nil, or_false] at hcon
    rcases hcon with rfl | rfl | rfl <;> simp [Store.pointsOf]
  · simp only [Finset.mem_insert, Finset.mem_singleton] at hp
    rcases hp with rfl | rfl | rfl | rfl <;> exact ⟨_, _, rfl⟩
  · rw [hc] at hcon
    simp only [List.mem_cons, List.not_mem_nil, or_false] at hcon
    rcases hcon with rfl | rfl | rfl
    · exact ⟨by simp [Store.actsOn], .inl ⟨_, _, _, rfl⟩⟩
    · exact ⟨by simp [Store.actsOn], .inl ⟨_, _, _, rfl⟩⟩
    · exact ⟨by simp [Store.actsOn], .inl ⟨_, _, _, rfl⟩⟩
  · have read : ∀ {i : Nat} {u v : ℝ}, ((Store.empty ℝ).run joinedRulerOps).elems[i]? = some (.point u v) → c.sys.getValue .point ⟨c.sys.id, i⟩ = .ok (.point u v) := by
      intro i u v h1
      obtain ⟨w, h3, h4⟩ := h.crel.getValue h1
      rw [Store.value, h1] at h3
      cases h3
      exact h4
    simp only [Finset.mem_insert, Finset.mem_singleton] at hp
    rcases hp with rfl | rfl | rfl | rfl
    · exact ⟨_, _, read (by rw [he]; rfl), by norm_num⟩
    · exact ⟨_, _, read (by rw [he]; rfl), by norm_num⟩
    · exact ⟨_, _, read (by rw [he]; rfl), by norm_num⟩
    · exact ⟨_, _, read (by rw [he]; rfl), by norm_num⟩

end Fiksi
