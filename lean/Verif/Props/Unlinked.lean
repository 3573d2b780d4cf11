import Verif.Proofs.Overlay
import Verif.Props.Success
import Verif.Props.Coincidence
import Verif.Proofs.Stay
import Verif.Spec.Size
/-!
# C73: parts of a figure that no constraint links are solved independently
-/
namespace Fiksi
open Spec Classical

/-! ## Specification -/

/-- No constraint has arguments both inside and outside the set `K` of elements. -/
def Spec.Store.ClosedSet {F : Type} (st : Store F) (K : Set Nat) : Prop :=
  ∀ con ∈ st.cons, (∀ i ∈ st.actsOn con, i ∈ K) ∨ (∀ i ∈ st.actsOn con, i ∉ K)

/-- The call changes the value of a point or a length outside `K`, or the parameter of a constraint with no argument in `K`. -/
def Spec.Store.Outside {F : Type} (st : Store F) (K : Set Nat) : Op F → Prop
  | .updatePoint i _ _ => i ∉ K
  | .updateLength i _ => i ∉ K
  | .updateParameter _ j _ => ∀ con, st.cons[j]? = some con → ∀ i ∈ st.actsOn con, i ∉ K
  | _ => False

section
variable {F : Type}

/-- Variable `v` belongs to a point or a length in `K`. -/
def System.Within (s : System F) (K : Set Nat) (v : Nat) : Prop := ∃ p ∈ K, s.variableToPrimitive[v]? = some p

/-- `s'` is `s` with other values of variables and other parameters, but not for what concerns the variables in `V`. -/
structure System.Apart (V : Nat → Prop) (s s' : System F) : Prop where
  same : s' = { s with vars := s'.vars, expressions := s'.expressions }
  varsLength : s'.vars.length = s.vars.length
  vars : ∀ v, V v → s'.vars[v]? = s.vars[v]?
  exprsLength : s'.expressions.length = s.expressions.length
  exprs : ∀ (e : Nat) x, s.expressions[e]? = some x → (∃ v ∈ x.variableIndices, V v) → s'.expressions[e]? = some x

theorem System.Apart.refl (V : Nat → Prop) (s : System F) : s.Apart V s := ⟨rfl, rfl, fun _ _ => rfl, rfl, fun _ _ h _ => h⟩

theorem System.Apart.setVar {V : Nat → Prop} {s s' : System F} (h : s.Apart V s') {i : Nat} (hi : ¬ V i) {x : F} {vs : List F} (hs : setIdx s'.vars i x = .ok vs) :
    s.Apart V { s' with vars := vs } := by
  obtain ⟨-, rfl⟩ := setIdx_eq_ok.1 hs
  refine ⟨?_, by simpa using h.varsLength, fun v hv => ?_, h.exprsLength, h.exprs⟩
  · rw [h.same]
  · have : i ≠ v := fun hcon => hi (hcon ▸ hv)
    rw [List.getElem?_set_ne this]
    exact h.vars v hv

theorem System.Apart.setExpr {V : Nat → Prop} {s s' : System F} (h : s.Apart V s') {i : Nat} (hi : ∀ x, s.expressions[i]? = some x → ∀ v ∈ x.variableIndices, ¬ V v) {x : Expr F} {es : List (Expr F)}
    (hs : setIdx s'.expressions i x = .ok es) : s.Apart V { s' with expressions := es } := by
  obtain ⟨-, rfl⟩ := setIdx_eq_ok.1 hs
  refine ⟨?_, h.varsLength, h.vars, by simpa using h.exprsLength, fun e y he hv => ?_⟩
  · rw [h.same]
  · have : i ≠ e := by
      rintro rfl
      obtain ⟨v, h1, h2⟩ := hv
      exact hi y he v h1 h2
    rw [List.getElem?_set_ne this]
    exact h.exprs e y he hv

theorem Reaches.prefix {counter : Nat} {ops ops' : List (Op F)} {c' : Client F} (h : Reaches counter (ops ++ ops') c') :
    ∃ c, Reaches counter ops c ∧ c.run ops' = .ok c' := by
  obtain ⟨c, h1, h2⟩ := (client_run_append _ _ _ _).1 h.run
  refine ⟨c, ⟨?_, ((legalRun_append _ _ _).1 h.legal).1, h1⟩, h2⟩
  have := h.short
  rw [List.length_append] at this
  omega

end

section
variable {F : Type} [Add F] [Sub F] [Mul F] [Div F] [Neg F] [Zero F] [One F] [FloatOps F]

theorem Reaches.apart {counter : Nat} {ops : List (Op F)} {c : Client F} (h : Reaches counter ops c) {K : Set Nat} (ups : List (Op F))
    (hout : ∀ op ∈ ups, ((Store.empty F).run ops).Outside K op) : ∀ c', Reaches counter (ops ++ ups) c' → c.sys.Apart (c.sys.Within K) c'.sys := by
  induction ups using List.reverseRecOn with
  | nil =>
    intro c' h'
    rw [List.append_nil] at h'
    have h1 := h.run
    rw [h'.run] at h1
    cases h1
    exact .refl _ _
  | append_singleton ups op ih =>
    intro c' h'
    rw [← List.append_assoc] at h'
    obtain ⟨c1, h1, h2⟩ := h'.prefix
    have hap := ih (fun op hop => hout op (by simp [hop])) c1 h1
    have ho := hout op (by simp)
    have h3 : c1.exec op = .ok c' := by
      rw [Client.run, List.foldlM_cons, bind_eq_ok] at h2
      obtain ⟨c2, h3, h4⟩ := h2
      cases h4
      exact h3
    have hown : c1.sys.variableToPrimitive = c.sys.variableToPrimitive := by rw [hap.same]
    have hr1 := h1.crel.rel
    have hlegal := ((legalRun_append _ _ _).1 h'.legal).2.1
    cases op with
    | updatePoint i x y =>
      simp only [Client.exec, bind_eq_ok, pure_eq_ok, Except.ok.injEq] at h3
      obtain ⟨hd, h4, s1, h5, rfl⟩ := h3
      obtain ⟨x0, y0, he⟩ := hlegal
      rw [idx_of (h1.crel.elemHandle (lt_of_getElem? he))] at h4
      cases h4
      rw [System.updatePoint, hr1.expectPoint ⟨x0, y0, he⟩] at h5
      simp only [ok_bind, bind_eq_ok, pure_eq_ok, Except.ok.injEq] at h5
      obtain ⟨vs, h6, vs', h7, rfl⟩ := h5
      have hnv : ∀ j < 2, ¬ c.sys.Within K (off ((Store.empty F).run (ops ++ ups)).elems i + j) := by
        rintro j hj ⟨p, hp, h8⟩
        rw [← hown, hr1.owners, owner_at _ he (by simpa [elemValues] using hj)] at h8
        cases h8
        exact ho hp
      exact (hap.setVar (hnv 0 (by omega)) h6).setVar (hnv 1 (by omega)) h7
    | updateLength i x =>
      simp only [Client.exec, bind_eq_ok, pure_eq_ok, Except.ok.injEq] at h3
      obtain ⟨hd, h4, s1, h5, rfl⟩ := h3
      obtain ⟨x0, he⟩ := hlegal
      rw [idx_of (h1.crel.elemHandle (lt_of_getElem? he))] at h4
      cases h4
      rw [System.updateLength, hr1.expectLength ⟨x0, he⟩] at h5
      simp only [ok_bind, bind_eq_ok, pure_eq_ok, Except.ok.injEq] at h5
      obtain ⟨vs, h6, rfl⟩ := h5
      refine hap.setVar ?_ h6
      rintro ⟨p, hp, h8⟩
      rw [← hown, hr1.owners, ← Nat.add_zero (off _ i), owner_at _ he (by simp [elemValues])] at h8
      cases h8
      exact ho hp
    | updateParameter tag j v =>
      simp only [Client.exec, bind_eq_ok, pure_eq_ok, Except.ok.injEq] at h3
      obtain ⟨hd, h4, s1, h5, rfl⟩ := h3
      obtain ⟨con1, hcon1, -, -⟩ := hlegal
      rw [idx_of (h1.crel.conHandle (lt_of_getElem? hcon1))] at h4
      cases h4
      obtain ⟨k, hk, hnv⟩ : ∃ k, c1.sys.constraints[j]? = some k ∧
          ∀ x, c.sys.expressions[k.expressionsIdx]? = some x → ∀ v ∈ x.variableIndices, ¬ c.sys.Within K v := by
        refine ⟨_, hr1.constraint_at hcon1, ?_⟩
        have hcs : c1.sys.constraints = c.sys.constraints := by rw [hap.same]
        have hgc : c1.sys.graph.constraints = c.sys.graph.constraints := by rw [hap.same]
        have hr := h.crel.rel
        have hlt : j < ((Store.empty F).run ops).cons.length := by
          have h6 : c1.sys.constraints.length = c.sys.constraints.length := by rw [hcs]
          rw [hr.constraints, hr1.constraints, List.length_mapIdx, List.length_mapIdx] at h6
          rw [← h6]
          exact lt_of_getElem? hcon1
        obtain ⟨con, hcon⟩ : ∃ con, ((Store.empty F).run ops).cons[j]? = some con := ⟨_, List.getElem?_eq_getElem hlt⟩
        have h7 := hr.constraint_at hcon
        have h8 := hr1.constraint_at hcon1
        rw [hcs, h7, Option.some.injEq, EncodedConstraint.mk.injEq] at h8
        intro x hx v hv
        rw [← h8.2] at hx
        rintro ⟨p, hp, h9⟩
        obtain ⟨q, h10, h11⟩ : ∃ q ∈ ((Store.empty F).run ops).actsOn con, c.sys.variableToPrimitive[v]? = some q := by
          have h12 : x ∈ encCon ((Store.empty F).run ops).elems con := by
            have hpos : 0 < (encCon ((Store.empty F).run ops).elems con).length := by
              rw [encCon_length]; cases con <;> simp [Con.kind, ConstraintTag.valency]
            have h13 := hr.expression_at hcon hpos
            rw [Nat.add_zero, hx] at h13
            exact List.mem_of_getElem? h13.symm
          obtain ⟨q, h14, el, h15, h16, h17⟩ := hr.reads_prim (hr.wfCon con (List.mem_of_getElem? hcon)) h12 hv
          obtain ⟨q', h18, h19⟩ := hr.owner_of_var h15 h16
          refine ⟨q, h14, ?_⟩
          have : q' = q := by
            rcases actsOn_primitive hr (hr.wfCon con (List.mem_of_getElem? hcon)) h14 with ⟨x, y, he⟩ | ⟨x, he⟩ <;>
              (rw [Store.primitives, he] at h18; simpa using h18)
          rw [h19, this]
        rw [h9] at h11
        cases h11
        exact ho con hcon p h10 hp
      rw [System.updateParameter] at h5
      simp only [idx_of hk, ok_bind] at h5
      rw [bind_eq_ok] at h5
      obtain ⟨x, -, h5⟩ := h5
      split at h5 <;> first
        | (rw [bind_eq_ok] at h5
           obtain ⟨es, h6, h7⟩ := h5
           cases h7
           exact hap.setExpr hnv h6)
        | cases h5
    | _ => exact ho.elim

variable {counter : Nat} {ops ups : List (Op F)} {c c' : Client F} (h : Reaches counter ops c) {K : Set Nat} (hK : ((Store.empty F).run ops).ClosedSet K)

include hK in
omit [Add F] [Sub F] [Mul F] [Div F] [Neg F] [Zero F] [One F] [FloatOps F] in
theorem linked_closed {i j : Nat} (hl : Spec.Linked ((Store.empty F).run ops).arguments i j) : i ∈ K ↔ j ∈ K := by
  induction hl with
  | refl => rfl
  | tail _ h2 ih =>
    obtain ⟨l, h3, h4, h5⟩ := h2
    obtain ⟨con, h6, rfl⟩ := List.mem_map.1 h3
    rw [ih]
    rcases hK con h6 with h7 | h7
    · exact ⟨fun _ => h7 _ h5, fun _ => h7 _ h4⟩
    · exact ⟨fun h8 => absurd h8 (h7 _ h4), fun h8 => absurd h8 (h7 _ h5)⟩

include h in
/-- The owner of a variable of a constrained element is that element. -/
theorem Reaches.owner_constrained {i : Nat} (hi : Spec.Constrained ((Store.empty F).run ops).arguments i) {el : EncodedElement} (h1 : c.sys.elements[i]? = some el) {v : Nat}
    (h2 : v ∈ el.variableIndices) : c.sys.variableToPrimitive[v]? = some i := by
  have hr := h.crel.rel
  obtain ⟨l, hl, hil⟩ := hi
  obtain ⟨con, hcon, rfl⟩ := List.mem_map.1 hl
  obtain ⟨p, h3, h4⟩ := hr.owner_of_var h1 h2
  have hpi : p = i := by
    rcases actsOn_primitive hr (hr.wfCon con hcon) hil with ⟨x, y, he⟩ | ⟨x, he⟩ <;>
      (rw [Store.primitives, he] at h3; simpa using h3)
  rw [h4, hpi]

/-- What the two runs of the loop share. -/
structure SolveState.Agree (V : Nat → Prop) (st st' : SolveState F) : Prop where
  varsLength : st'.vars.length = st.vars.length
  vars : ∀ v, V v → st'.vars[v]? = st.vars[v]?
  transformedLength : st'.transformed.length = st.transformed.length
  transformed : ∀ v, V v → st'.transformed[v]? = st.transformed[v]?
  rng : st'.rng = st.rng
  calls : st'.calls = st.calls

omit [Add F] [Sub F] [Mul F] [Div F] [Neg F] [Zero F] [One F] [FloatOps F] in
theorem SolveState.Agree.overlay {V : Nat → Prop} {st st' : SolveState F} (h : st.Agree V st') : st' = st.overlay V st'.vars st'.transformed := by
  obtain ⟨v, t, r, cs⟩ := st
  obtain ⟨v', t', r', cs'⟩ := st'
  obtain ⟨h1, h2, h3, h4, h5, h6⟩ := h
  simp only at h1 h2 h3 h4 h5 h6
  subst h5 h6
  simp only [SolveState.overlay, SolveState.mk.injEq, and_self, and_true]
  exact ⟨overlay_of_agree h1 h2, overlay_of_agree h3 h4⟩

omit [Add F] [Sub F] [Mul F] [Div F] [Neg F] [Zero F] [One F] [FloatOps F] in
theorem SolveState.overlay_agree {V : Nat → Prop} {b1 b2 : List F} (st : SolveState F) : st.Agree V (st.overlay V b1 b2) :=
  ⟨overlay_length V b1 _, fun _ hv => overlay_get V b1 _ hv, overlay_length V b2 _, fun _ hv => overlay_get V b2 _ hv, rfl, rfl⟩

include h hK in
theorem Reaches.agree_component (h' : Reaches counter (ops ++ ups) c') (hap : c.sys.Apart (c.sys.Within K) c'.sys) (hscale : c'.sys.scale = c.sys.scale) {optimize : Optimize F} {ord : HashOrder}
    (hord : ord.Ok) {opts : SolvingOptions} {ck : Component × Nat} (hck : c.sys.graph.components[ck.2]? = some ck.1) {st st' t t' : SolveState F} (hag : st.Agree (c.sys.Within K) st')
    (h1 : solveComponent optimize ord opts c.sys c.sys.scale c.sys.scaledExpressions st ck = .ok t)
    (h2 : solveComponent optimize ord opts c.sys c.sys.scale c'.sys.scaledExpressions st' ck = .ok t') : t.Agree (c.sys.Within K) t' := by
  have hcomp := List.mem_of_getElem? hck
  have hr := h.crel.rel
  have hok := h.decomposeOk hcomp
  have hcon : ∀ i ∈ ck.1.elements, Constrained ((Store.empty F).run ops).arguments i := fun i hi => (C17_elements_partitioned h i).2 ⟨ck.1, hcomp, hi⟩
  have hbf : ∀ free blocks, c.sys.freeVariables ck.1.elements = .ok free → c.sys.equationGraph.findStronglyConnectedExpressions free = .ok blocks →
      ∀ b ∈ blocks, b.freeVariables ⊆ free := fun free blocks hf hb => h.blocks_free hf hb
  by_cases hin : ∀ i ∈ ck.1.elements, i ∈ K
  · by_cases hne : ck.1.elements = ∅
    · rw [solveComponent, if_pos hne] at h1 h2
      cases h1
      cases h2
      exact hag
    obtain ⟨i0, hi0⟩ := Finset.nonempty_iff_ne_empty.2 hne
    have hV : ∀ v, c.sys.VarOf ck.1.elements v → c.sys.Within K v := by
      rintro v ⟨i, hi, el, h3, h4⟩
      exact ⟨i, hin i hi, h.owner_constrained (hcon i hi) h3 h4⟩
    have hsame : ∀ (con : Spec.Con F) (e : Nat), con ∈ ((Store.empty F).run ops).cons → (∀ i ∈ ((Store.empty F).run ops).actsOn con, i ∈ K) →
        (∀ x, c.sys.expressions[e]? = some x → x ∈ encCon ((Store.empty F).run ops).elems con) → SameExpr (c.sys.Within K) c.sys.scaledExpressions c'.sys.scaledExpressions e := by
      intro con e hmem hact hx
      have hread : ∀ x, c.sys.expressions[e]? = some x → ∀ v ∈ x.variableIndices, c.sys.Within K v := by
        intro x hxe v hv
        obtain ⟨p, h3, el, h4, h5⟩ := hr.reads_varOf (hr.wfCon con hmem) (hx x hxe) hv
        exact ⟨p, hact p h3, h.owner_constrained ⟨_, List.mem_map_of_mem hmem, h3⟩ h4 h5⟩
      rw [SameExpr, System.scaledExpressions, System.scaledExpressions, hscale, List.getElem?_map, List.getElem?_map]
      cases he : c.sys.expressions[e]? with
      | none =>
        have h3 : c'.sys.expressions[e]? = none := by
          rw [List.getElem?_eq_none_iff] at he ⊢
          rw [hap.exprsLength]
          exact he
        rw [h3]
        simp
      | some x =>
        have h3 := hap.exprs e x he (by
          obtain ⟨v, hv⟩ : ∃ v, v ∈ x.variableIndices := by cases x <;> simp [Expr.variableIndices]
          exact ⟨v, hv, hread x he v hv⟩)
        rw [h3]
        refine ⟨rfl, ?_⟩
        simp only [Option.map_some, Option.some.injEq, forall_eq']
        rw [transform_variableIndices]
        exact hread x he
    have key := solveComponent_inside (V := c.sys.Within K) (b1 := st'.vars) (b2 := st'.transformed) (exprs := c.sys.scaledExpressions) (exprs' := c'.sys.scaledExpressions)
      (optimize := optimize) hord (opts := opts) (scale := c.sys.scale) (st := st) hok hV
      (fun n hn es hes e he => by
        rw [hr.constraintExpressions hes] at he
        obtain ⟨con, h3, -⟩ := id he
        refine hsame con e (List.mem_of_getElem? h3) (fun i hi => ?_) fun x hx => ?_
        · exact (linked_closed hK (C17_component_linked h hcomp (.inl hi0) (.inr ⟨n, hn, con, h3, hi⟩))).1 (hin i0 hi0)
        · obtain ⟨con', h4, h5⟩ := h.equation_in he hx
          rw [h3] at h4
          cases h4
          exact h5)
      (fun free blocks hfree hb b hbm => ⟨hbf free blocks hfree hb b hbm, fun e he => by
        have hf := freeVariables_spec hfree
        obtain ⟨plan, M, p1, p2, -, -, p5, -, -⟩ := h.plan (free := free) (fun v hv => h.varOf_lt ((hf v).1 hv).1)
        rw [hb] at p1
        cases p1
        obtain ⟨u, hu⟩ := (p5 e).1 (List.mem_flatten.2 ⟨b.expressions, by simpa [stepsOf] using ⟨b, hbm, rfl⟩, he⟩)
        obtain ⟨h7, x, h8, h9⟩ := p2.1.edge _ hu
        have hmem := List.mem_of_getElem? h8
        rw [hr.exprs, List.mem_flatMap] at hmem
        obtain ⟨con, hmem, hex⟩ := hmem
        refine hsame con e hmem (fun i hi => ?_) fun y hy => ?_
        · obtain ⟨p, h10, el, h11, h12⟩ := hr.reads_varOf (hr.wfCon con hmem) hex h9
          have hu := h.owner_constrained ⟨_, List.mem_map_of_mem hmem, h10⟩ h11 h12
          obtain ⟨q, h13, h14⟩ := hV u ((hf u).1 h7).1
          rw [h14] at hu
          cases hu
          exact (linked_closed hK (.single ⟨_, List.mem_map_of_mem hmem, h10, hi⟩)).1 h13
        · rw [h8] at hy
          cases hy
          exact hex⟩)
    rw [← hag.overlay, h2, h1] at key
    cases key
    exact SolveState.overlay_agree t
  · push Not at hin
    obtain ⟨i0, h3, h4⟩ := hin
    have hout : ∀ i ∈ ck.1.elements, i ∉ K := fun i hi hcon => h4 ((linked_closed hK (C17_component_linked h hcomp (.inl hi) (.inl h3))).1 hcon)
    have hw : ∀ v, c.sys.Within K v → ¬ c.sys.Writes opts ck.1 v := by
      rintro v ⟨p, hp, h5⟩ ⟨⟨i, hi, el, h6, h7⟩, -⟩
      rw [h.owner_constrained (hcon i hi) h6 h7] at h5
      cases h5
      exact hout _ hi hp
    obtain ⟨f1, cs, e1, e2, e3⟩ := solveComponent_spec hord hok hbf h1
    obtain ⟨f2, cs', e4, e5, e6⟩ := solveComponent_spec hord hok hbf h2
    have hne : ck.1.elements ≠ ∅ := Finset.ne_empty_of_mem h3
    refine ⟨?_, fun v hv => ?_, ?_, fun v hv => ?_, ?_, ?_⟩
    · rw [f1.vars.1, f2.vars.1, hag.varsLength]
    · rw [f1.vars.2 v (hw v hv), f2.vars.2 v (hw v hv), hag.vars v hv]
    · rw [f1.transformed.1, f2.transformed.1, hag.transformedLength]
    · rw [f1.transformed.2 v (hw v hv), f2.transformed.2 v (hw v hv), hag.transformed v hv]
    · rcases solveComponent_rng h1 with ⟨h5, -⟩ | ⟨free, h5, h6⟩
      · exact absurd h5 hne
      · rcases solveComponent_rng h2 with ⟨h7, -⟩ | ⟨free', h7, h8⟩
        · exact absurd h7 hne
        · rw [h5] at h7
          cases h7
          rw [h6, h8, hag.rng]
    · rw [e1, e4, hag.calls, callsFor_unique (e3 hne) (e6 hne)]

include h hK in
/-- C73 (partial): let no constraint have arguments both inside and outside a set `K` of elements, and let a client move points and
lengths outside `K` and change the parameters of constraints outside `K`. If this does not change the number `solve` uses as the unit
of length, then after `solve` every element made of points and lengths in `K` reads exactly the same as it would have without the
changes: for every decomposer, every setting, every optimiser, every order of the hash maps and in every arithmetic. (Full statement:
without the condition on the unit of length; false, see `C73_distant_point_stops_solving`.) -/
theorem C73_unlinked_parts_independent_partial (h' : Reaches counter (ops ++ ups) c') (hout : ∀ op ∈ ups, ((Store.empty F).run ops).Outside K op) (hscale : c'.sys.scale = c.sys.scale)
    {optimize : Optimize F} {ord : HashOrder} (hord : ord.Ok) {opts : SolvingOptions} {s s' : System F} (hs : c.sys.solve optimize ord opts = .ok s)
    (hs' : c'.sys.solve optimize ord opts = .ok s') {i : Nat} {e : Elem F} (he : ((Store.empty F).run ops).elems[i]? = some e)
    (hi : ∀ p ∈ ((Store.empty F).run ops).primitives i, p ∈ K) :
    ∃ v, s.getValue e.kind ⟨counter, i⟩ = .ok v ∧ s'.getValue e.kind ⟨counter, i⟩ = .ok v := by
  have hap := h.apart ups hout c' h'
  obtain ⟨st, hl, rfl⟩ := solve_eq hs
  obtain ⟨st', hl', rfl⟩ := solve_eq hs'
  have hag : st.Agree (c.sys.Within K) st' := by
    have key : ∀ (l : List (Component × Nat)) (st st' t t' : SolveState F), (∀ ck ∈ l, c.sys.graph.components[ck.2]? = some ck.1) → st.Agree (c.sys.Within K) st' →
        l.foldlM (solveComponent optimize ord opts c.sys c.sys.scale c.sys.scaledExpressions) st = .ok t →
        l.foldlM (solveComponent optimize ord opts c.sys c.sys.scale c'.sys.scaledExpressions) st' = .ok t' → t.Agree (c.sys.Within K) t' := by
      intro l
      induction l with
      | nil => intro st st' t t' _ hag h1 h2; cases h1; cases h2; exact hag
      | cons ck l ih =>
        intro st st' t t' hcks hag h1 h2
        rw [List.foldlM_cons, bind_eq_ok] at h1 h2
        obtain ⟨t1, h3, h4⟩ := h1
        obtain ⟨t1', h5, h6⟩ := h2
        exact ih t1 t1' t t' (fun ck hck => hcks ck (by simp [hck])) (h.agree_component hK h' hap hscale hord (hcks ck (by simp)) hag h3 h5) h4 h6
    refine key c.sys.graph.components.zipIdx ⟨c.sys.vars, c.sys.scaledVariables, 42, []⟩ ⟨c'.sys.vars, c'.sys.scaledVariables, 42, []⟩ st st'
      (fun ck hck => List.mem_zipIdx_iff_getElem?.1 hck) ⟨hap.varsLength, hap.vars, ?_, fun v hv => ?_, rfl, rfl⟩ hl ?_
    · simp [System.scaledVariables, hap.varsLength]
    · simp only [System.scaledVariables, List.getElem?_map, hap.vars v hv, hscale]
    · rw [System.solveLoop, hscale] at hl'
      have hg : c'.sys.graph.components = c.sys.graph.components := by rw [hap.same]
      have hsc : solveComponent optimize ord opts c'.sys = solveComponent optimize ord opts c.sys := by rw [hap.same]; rfl
      rw [hg, hsc] at hl'
      exact hl'
  obtain rfl := h.sysId
  obtain ⟨-, -, result, h1, h2⟩ := C25_solve_only_changes_values h hord hs
  obtain ⟨c2, h3, -, h4⟩ := h.step (op := .solve result) h1
  rw [h2] at h3
  cases h3
  obtain ⟨e', h5, h6⟩ := forall₂_get h1 he
  obtain ⟨v, -, h7⟩ := h4.getValue (i := i) (e := e') h5
  have hkind : e'.kind = e.kind := by cases e <;> cases e' <;> simp_all [SameShape, Elem.kind]
  simp only [hkind] at h7
  refine ⟨v, h7, ?_⟩
  rw [← h7]
  have hel := h.crel.rel.element_at he
  have hid' := h'.sysId
  have hels : c'.sys.elements = c.sys.elements := by rw [hap.same]
  unfold System.getValue
  simp only [hid', ne_eq, not_true_eq_false, if_false, hels, idx_of hel, ok_bind]
  refine fromEncodedElement_congr fun k hk => ?_
  obtain ⟨p, h8, h9⟩ := h.crel.rel.owner_of_var hel hk
  exact hag.vars k ⟨p, hi p h8, h9⟩

end

/-- In exact arithmetic, the unit of length is the size of the figure. -/
theorem Rel.scale_size {s : System ℝ} {st : Store ℝ} (hr : Rel s st) : s.scale = st.size := by
  have h1 : ∀ es : List (Elem ℝ), es.flatMap Elem.numbers = es.flatMap elemValues := by
    intro es
    congr 1
    funext e
    cases e <;> rfl
  have h2 : ∀ (es : List (Elem ℝ)) (cons : List (Spec.Con ℝ)), cons.filterMap Spec.Con.distance = (cons.flatMap (encCon es)).filterMap Expr.lengthParameter := by
    intro es cons
    induction cons with
    | nil => rfl
    | cons con cons ih =>
      rw [List.filterMap_cons, List.flatMap_cons, List.filterMap_append, ← ih]
      cases con <;> rfl
  rw [System.scale, rootMeanSquares, meanSquares, sumSquares_real, hr.vars, hr.exprs, Store.size, Store.numbers, h1, h2 st.elems]
  rfl

/-- C73 in exact arithmetic (partial): the unit of length is the root of the mean square of all coordinates, lengths and required distances. If the changes outside `K` keep it, then every element in `K`
reads the same after `solve` as without the changes. -/
theorem C73_equal_size_partial {counter : Nat} {ops ups : List (Op ℝ)} {c c' : Client ℝ} (h : Reaches counter ops c) (h' : Reaches counter (ops ++ ups) c') {K : Set Nat}
    (hK : ((Store.empty ℝ).run ops).ClosedSet K) (hout : ∀ op ∈ ups, ((Store.empty ℝ).run ops).Outside K op)
    (hsize : ((Store.empty ℝ).run (ops ++ ups)).size = ((Store.empty ℝ).run ops).size) {optimize : Optimize ℝ} {ord : HashOrder} (hord : ord.Ok) {opts : SolvingOptions} {s s' : System ℝ}
    (hs : c.sys.solve optimize ord opts = .ok s) (hs' : c'.sys.solve optimize ord opts = .ok s') {i : Nat} {e : Elem ℝ} (he : ((Store.empty ℝ).run ops).elems[i]? = some e)
    (hi : ∀ p ∈ ((Store.empty ℝ).run ops).primitives i, p ∈ K) :
    ∃ v, s.getValue e.kind ⟨counter, i⟩ = .ok v ∧ s'.getValue e.kind ⟨counter, i⟩ = .ok v :=
  C73_unlinked_parts_independent_partial h hK h' hout (by rw [h'.crel.rel.scale_size, h.crel.rel.scale_size, hsize]) hord hs hs' he hi

/-! ## A case, and the unit of length -/

/-- Two points that shall coincide, and a third one that no constraint uses. -/
noncomputable def apartOps : List (Op ℝ) := [.createPoint 0 0, .createPoint 1 0, .createPoint 3 4, .createCon (.pointPointCoincidence 0 1)]

theorem apart_reaches : ∃ c, Reaches 0 apartOps c := exists_reaches 0 apartOps (by
  simp [apartOps, Store.LegalRun, Store.Legal, Store.empty, Store.step, Store.IsPoint, Store.ConOk]) (by simp [apartOps])

theorem apart_moved (x y : ℝ) : ∃ c, Reaches 0 (apartOps ++ [.updatePoint 2 x y]) c := exists_reaches 0 _ (by
  simp [apartOps, Store.LegalRun, Store.Legal, Store.empty, Store.step, Store.IsPoint, Store.ConOk]) (by simp [apartOps])

theorem apart_closed : ((Store.empty ℝ).run apartOps).ClosedSet {0, 1} := by
  intro con hcon
  have hc : ((Store.empty ℝ).run apartOps).cons = [.pointPointCoincidence 0 1] := rfl
  rw [hc, List.mem_singleton] at hcon
  subst hcon
  exact .inl (by simp [Store.actsOn])

/-- A case for C73: the third point is moved from `(3, 4)` to `(5, 0)`; the unit of length stays the same. -/
example : ∃ c c', Reaches 0 apartOps c ∧ Reaches 0 (apartOps ++ [.updatePoint 2 5 0]) c' ∧ ((Store.empty ℝ).run apartOps).ClosedSet {0, 1} ∧
    (∀ op ∈ ([.updatePoint 2 5 0] : List (Op ℝ)), ((Store.empty ℝ).run apartOps).Outside {0, 1} op) ∧ c'.sys.scale = c.sys.scale := by
  obtain ⟨c, h⟩ := apart_reaches
  obtain ⟨c', h'⟩ := apart_moved 5 0
  refine ⟨c, c', h, h', apart_closed, by simp [Store.Outside], ?_⟩
  have h1 : c.sys.vars = [0, 0, 1, 0, 3, 4] := by rw [h.crel.rel.vars]; rfl
  have h2 : c'.sys.vars = [0, 0, 1, 0, 5, 0] := by rw [h'.crel.rel.vars]; rfl
  have h3 : c.sys.expressions = [.variableVariableEquality 0 2, .variableVariableEquality 1 3] := by rw [h.crel.rel.exprs]; rfl
  have h4 : c'.sys.expressions = [.variableVariableEquality 0 2, .variableVariableEquality 1 3] := by rw [h'.crel.rel.exprs]; rfl
  rw [System.scale, System.scale, h1, h2, h3, h4]
  show Real.sqrt ((0 + 0 * 0 + 0 * 0 + 1 * 1 + 0 * 0 + 5 * 5 + 0 * 0) / ((6 : ℕ) : ℝ)) = Real.sqrt ((0 + 0 * 0 + 0 * 0 + 1 * 1 + 0 * 0 + 3 * 3 + 4 * 4) / ((6 : ℕ) : ℝ))
  norm_num

/-- C73, the full claim fails: the unit of length is common to all parts. The third point is in no constraint. While it is at `(3, 4)`, `solve` brings the two other points together, up to `1/1000`. After
it has been moved to `(10^9, 0)`, `solve` returns the figure as it is, and the two points are still 1 apart. -/
theorem C73_distant_point_stops_solving (cast : ℝ → Int) {sort : SortByKey} (hsort : Spec.Sorts sort) {ord : HashOrder} (hord : ord.Ok) :
    ∃ c c', Reaches 0 apartOps c ∧ Reaches 0 (apartOps ++ [.updatePoint 2 (10 ^ 9) 0]) c' ∧ ((Store.empty ℝ).run apartOps).ClosedSet {0, 1} ∧
      (∀ op ∈ ([.updatePoint 2 (10 ^ 9) 0] : List (Op ℝ)), ((Store.empty ℝ).run apartOps).Outside {0, 1} op) ∧
      ∃ s k, (∀ fuel, k ≤ fuel → c.sys.solve (crateOptimize (qrLeastSquares sort (colamdOfStructure cast)) fuel) ord ⟨.levenbergMarquardt, .none, false⟩ = .ok s ∧
          c'.sys.solve (crateOptimize (qrLeastSquares sort (colamdOfStructure cast)) fuel) ord ⟨.levenbergMarquardt, .none, false⟩ = .ok c'.sys) ∧
        (∃ r, s.calculateResidual .pointPointCoincidence ⟨0, 0⟩ = .ok r ∧ |r| ≤ 1 / 1000) ∧ c'.sys.calculateResidual .pointPointCoincidence ⟨0, 0⟩ = .ok 1 := by
  obtain ⟨c, h⟩ := apart_reaches
  obtain ⟨c', h'⟩ := apart_moved (10 ^ 9) 0
  refine ⟨c, c', h, h', apart_closed, by simp [Store.Outside], ?_⟩
  have hc : ((Store.empty ℝ).run apartOps).cons = [.pointPointCoincidence 0 1] := rfl
  have h1 : c.sys.vars = [0, 0, 1, 0, 3, 4] := by rw [h.crel.rel.vars]; rfl
  have h2 : c'.sys.vars = [0, 0, 1, 0, 10 ^ 9, 0] := by rw [h'.crel.rel.vars]; rfl
  have h3 : c.sys.expressions = [.variableVariableEquality 0 2, .variableVariableEquality 1 3] := by rw [h.crel.rel.exprs]; rfl
  have h4 : c'.sys.expressions = [.variableVariableEquality 0 2, .variableVariableEquality 1 3] := by rw [h'.crel.rel.exprs]; rfl
  have hn : NeverJoins ((Store.empty ℝ).run apartOps).arguments := by
    intro m l hm i hi j hj ⟨l', hl', _⟩ _
    have ha : ((Store.empty ℝ).run apartOps).arguments = [[0, 1]] := rfl
    rw [ha] at hm hl'
    have : m = 0 := by have := lt_of_getElem? hm; simpa using this
    subst this
    simp at hl'
  obtain ⟨s, k, h5, h6⟩ := C69_coincidences_solved_partial h hn ⟨.point 3 4, by simp [apartOps, Store.run, Store.empty, Store.step], .inl ⟨3, 4, rfl, .inl (by norm_num)⟩⟩
    (fun con hcon => by rw [hc, List.mem_singleton] at hcon; exact ⟨_, _, hcon⟩)
    ⟨fun _ => (1, 7), fun i hi => by simp [apartOps, Store.run, Store.empty, Store.step] at hi, fun _ _ _ => rfl⟩ (by simp [apartOps]) cast hsort hord
    (opts := ⟨.levenbergMarquardt, .none, false⟩) rfl rfl
  have hsc : c.sys.scale ≤ 3 := by
    rw [System.scale, h1, h3]
    show Real.sqrt ((0 + 0 * 0 + 0 * 0 + 1 * 1 + 0 * 0 + 3 * 3 + 4 * 4) / ((6 : ℕ) : ℝ)) ≤ 3
    rw [Real.sqrt_le_left (by norm_num)]
    norm_num
  have hsc' : 10 ^ 8 ≤ c'.sys.scale := by
    rw [System.scale, h2, h4]
    change (10 : ℝ) ^ 8 ≤ Real.sqrt ((0 + 0 * 0 + 0 * 0 + 1 * 1 + 0 * 0 + 10 ^ 9 * 10 ^ 9 + 0 * 0) / ((6 : ℕ) : ℝ))
    apply Real.le_sqrt_of_sq_le
    norm_num
  have hpos : 0 < c'.sys.scale := lt_of_lt_of_le (by norm_num) hsc'
  have hstay : ∀ fuel, c'.sys.solve (crateOptimize (qrLeastSquares sort (colamdOfStructure cast)) fuel) ord ⟨.levenbergMarquardt, .none, false⟩ = .ok c'.sys := by
    intro fuel
    have a1 : ∀ e ∈ c'.sys.scaledExpressions, ∀ r, e.calculateResidual (identityMap c'.sys.scaledVariables) = .ok r → |r| ≤ 1 / 10 ^ 8 := by
      intro e he r hr
      have hq : 1 / c'.sys.scale ≤ 1 / 10 ^ 8 := one_div_le_one_div_of_le (by norm_num) hsc'
      rw [System.scaledExpressions, h4] at he
      rw [System.scaledVariables, h2] at hr
      simp only [List.map_cons, List.map_nil, List.mem_cons, List.not_mem_nil, or_false] at he
      rcases he with rfl | rfl
      · have hr : Except.ok (1 * (1 / c'.sys.scale) - 0 * (1 / c'.sys.scale)) = Except.ok (ε := Panic) r := hr
        cases hr
        rw [zero_mul, one_mul, sub_zero, abs_of_pos (by positivity)]
        exact hq
      · have hr : Except.ok (0 * (1 / c'.sys.scale) - 0 * (1 / c'.sys.scale)) = Except.ok (ε := Panic) r := hr
        cases hr
        simp
    have a2 : ∀ r : List ℝ, r.length ≤ c'.sys.expressions.length → (∀ y ∈ r, |y| ≤ 1 / 10 ^ 8) → FloatOps.ltB (normSquared (r.map (fun r => -r))) (ratio 1 (10 ^ 8)) = true := by
      intro r hr hy
      have h7 := sumSquares_bound hy
      have h8 : (r.length : ℝ) ≤ 2 := by rw [h4] at hr; exact_mod_cast hr
      have h9 : normSquared (r.map (fun r => -r)) = sumSquares r := by
        rw [normSquared_neg (fun x => neg_mul_neg x x), normSquared_real, sumSquares_real]
        simp only [sq]
      rw [h9]
      refine decide_eq_true ?_
      show sumSquares r < (1 : ℕ) / ((10 ^ 8 : ℕ) : ℝ)
      push_cast
      nlinarith
    have a3 : ∀ r : List ℝ, r.length ≤ c'.sys.expressions.length → (∀ y ∈ r, |y| ≤ 1 / 10 ^ 8) → FloatOps.ltB (sumSquares r) (ratio 1 10000 : ℝ) = true := by
      intro r hr hy
      have h7 := sumSquares_bound hy
      have h8 : (r.length : ℝ) ≤ 2 := by rw [h4] at hr; exact_mod_cast hr
      refine decide_eq_true ?_
      show sumSquares r < (1 : ℕ) / ((10000 : ℕ) : ℝ)
      push_cast
      nlinarith
    obtain ⟨V', e1, e2, e3⟩ := h'.crate_stays cast hsort (by simp [apartOps]) (Small := fun y => |y| ≤ 1 / 10 ^ 8) a1 a2 a3
      (fuel := fuel) hord (opts := ⟨.levenbergMarquardt, .none, false⟩) (by simp) rfl
    have : V' = c'.sys.vars := by
      refine List.ext_getElem? fun v => ?_
      cases hv : c'.sys.vars[v]? with
      | none =>
        rw [List.getElem?_eq_none_iff] at hv ⊢
        rw [e2]
        exact hv
      | some x =>
        rcases e3 v x hv with e4 | e4
        · exact e4
        · rw [e4]
          congr 1
          field_simp
    rw [e1, this]
  refine ⟨s, k, fun fuel hf => ⟨h5 fuel hf, hstay fuel⟩, ?_, ?_⟩
  · obtain ⟨r, h7, h8⟩ := h6 0 ⟨c.sys.id, 0⟩ 0 1 (h.crel.conHandle (by rw [hc]; simp)) (by rw [hc]; rfl)
    rw [h.sysId] at h7
    refine ⟨r, h7, h8.trans ?_⟩
    have h9 : √2 ≤ (3 / 2 : ℝ) := by
      rw [Real.sqrt_le_left (by norm_num)]
      norm_num
    have h10 : max (1 / 10 ^ 4 : ℝ) (((apartOps.length : ℝ) + 5) / 10 ^ 6) = 1 / 10 ^ 4 := by
      rw [max_eq_left]
      norm_num [apartOps]
    rw [h10]
    calc √2 * (c.sys.scale * (1 / 10 ^ 4)) ≤ 3 / 2 * (3 * (1 / 10 ^ 4)) :=
        mul_le_mul h9 (by linarith) (mul_nonneg (Real.sqrt_nonneg _) (by norm_num)) (by norm_num)
      _ ≤ 1 / 1000 := by norm_num
  · have key : (do let c ← (Client.new ℝ 0).run (apartOps ++ [.updatePoint 2 (10 ^ 9) 0])
                   c.sys.calculateResidual .pointPointCoincidence ⟨0, 0⟩ : R ℝ) = .ok (√(0 + (1 - 0) * (1 - 0) + (0 - 0) * (0 - 0))) := rfl
    rw [h'.run, ok_bind] at key
    rw [key]
    norm_num

end Fiksi
