import Verif.Proofs.RefineOps
/-!
# Reading values and residuals of a represented system
-/
namespace Fiksi

open Spec

variable {F : Type}

section reads
variable {s : System F} {st : Store F}

theorem Rel.point_vars (hr : Rel s st) {p : Nat} {x y : F} (h : st.elems[p]? = some (.point x y)) :
    idx s.vars (off st.elems p) = .ok x ∧ idx s.vars (off st.elems p + 1) = .ok y := by
  rw [hr.vars]
  exact ⟨idx_of (var_at st.elems (j := 0) h (by simp [elemValues])), idx_of (var_at st.elems (j := 1) h (by simp [elemValues]))⟩

theorem Rel.length_vars (hr : Rel s st) {p : Nat} {v : F} (h : st.elems[p]? = some (.length v)) :
    idx s.vars (off st.elems p) = .ok v := by
  rw [hr.vars]
  exact idx_of (var_at st.elems (j := 0) h (by simp [elemValues]))

/-- Reading an element gives its value in the store. -/
theorem Rel.read (hr : Rel s st) {i : Nat} {e : Elem F} (he : st.elems[i]? = some e) :
    ∃ v, st.value i = some v ∧ fromEncodedElement e.kind (encElem st.elems i e) s.vars = .ok v := by
  have hok := hr.wfElem i e he
  cases e with
  | length v =>
    refine ⟨.length v, by simp [Store.value, he], ?_⟩
    simp only [Elem.kind, encElem, fromEncodedElement, hr.length_vars he, ok_bind, pure_eq_ok]
  | point x y =>
    refine ⟨.point x y, by simp [Store.value, he], ?_⟩
    simp only [Elem.kind, encElem, fromEncodedElement, (hr.point_vars he).1, (hr.point_vars he).2, ok_bind, pure_eq_ok]
  | line p q =>
    obtain ⟨⟨x0, y0, hp⟩, ⟨x1, y1, hq⟩⟩ := hok
    refine ⟨.line x0 y0 x1 y1, by simp [Store.value, he, Store.pointAt, hp, hq], ?_⟩
    simp only [Elem.kind, encElem, fromEncodedElement, (hr.point_vars hp).1, (hr.point_vars hp).2, (hr.point_vars hq).1,
      (hr.point_vars hq).2, ok_bind, pure_eq_ok]
  | circle p q =>
    obtain ⟨⟨x0, y0, hp⟩, ⟨v, hq⟩⟩ := hok
    refine ⟨.circle x0 y0 v, by simp [Store.value, he, Store.pointAt, Store.lengthAt, hp, hq], ?_⟩
    simp only [Elem.kind, encElem, fromEncodedElement, (hr.point_vars hp).1, (hr.point_vars hp).2, hr.length_vars hq,
      ok_bind, pure_eq_ok]

/-- Reading an element with the wrong type is a panic. -/
theorem Rel.read_wrong {i : Nat} {e : Elem F} {tag : ElementTag} (ht : e.kind ≠ tag) (vars : List F) :
    fromEncodedElement tag (encElem st.elems i e) vars = .error .unreachable := by
  cases e <;> cases tag <;> simp_all [Elem.kind, encElem, fromEncodedElement]

end reads

theorem CRel.getValue {c : Client F} {st : Store F} (h : CRel c st) {i : Nat} {e : Elem F} (he : st.elems[i]? = some e) :
    ∃ v, st.value i = some v ∧ c.sys.getValue e.kind ⟨c.sys.id, i⟩ = .ok v := by
  obtain ⟨v, h1, h2⟩ := h.rel.read he
  refine ⟨v, h1, ?_⟩
  unfold System.getValue
  rw [if_neg (by simp), idx_of (h.rel.element_at he), ok_bind, h2]

/-- What a successful read through an issued handle says about the store. -/
theorem CRel.getValue_inv {c : Client F} {st : Store F} (h : CRel c st) {i : Nat} {hd : Handle} {tag : ElementTag}
    {v : ElementValue F} (hi : c.elemHandles[i]? = some hd) (hv : c.sys.getValue tag hd = .ok v) :
    hd = ⟨c.sys.id, i⟩ ∧ ∃ e, st.elems[i]? = some e ∧ e.kind = tag ∧ st.value i = some v := by
  have hlt : i < st.elems.length := by
    have := lt_of_getElem? hi
    rw [h.elemHandles] at this
    simpa using this
  rw [h.elemHandle hlt] at hi
  simp only [Option.some.injEq] at hi
  subst hi
  refine ⟨rfl, st.elems[i], List.getElem?_eq_getElem hlt, ?_⟩
  have he := List.getElem?_eq_getElem hlt
  obtain ⟨v', h1, h2⟩ := h.getValue he
  by_cases ht : (st.elems[i]).kind = tag
  · subst ht
    rw [h2] at hv
    simp only [Except.ok.injEq] at hv
    subst hv
    exact ⟨rfl, h1⟩
  · exfalso
    unfold System.getValue at hv
    rw [if_neg (by simp), idx_of (h.rel.element_at he), ok_bind, Rel.read_wrong ht] at hv
    simp at hv

/-! ## Residuals -/

section residual
variable [Add F] [Sub F] [Mul F] [Div F] [Neg F] [Zero F] [One F] [FloatOps F]

/-- The coordinates of a point number. -/
def ptOf (st : Store F) (p : Nat) : List F := match st.elems[p]? with
  | some e => elemValues e
  | none => []

/-- The coordinates of the parts of a line or circle. -/
def partsOf (st : Store F) (l : Nat) : List F := match st.elems[l]? with
  | some (.line p q) => ptOf st p ++ ptOf st q
  | some (.circle p q) => ptOf st p ++ ptOf st q
  | _ => []

/-- The residual of a constraint on the values of the store, by the formulas of `expressions.rs`. -/
def storeResidual (st : Store F) : Con F → R F
  | .pointPointCoincidence p q =>
      match ptOf st p, ptOf st q with
      | [x0, y0], [x1, y1] => .ok (FloatOps.sqrt (sumSquares [(vveResGrad x0 x1).1, (vveResGrad y0 y1).1]))
      | _, _ => .error .unreachable
  | .pointPointDistance p q d =>
      match ptOf st p ++ ptOf st q with
      | [a, b, c, e] => .ok (ppdResGrad a b c e d).1
      | _ => .error .unreachable
  | .pointPointPointAngle p q r t =>
      match ptOf st p ++ ptOf st q ++ ptOf st r with
      | [a, b, c, d, e, f] => .ok (pppaResGrad a b c d e f t).1
      | _ => .error .unreachable
  | .pointLineIncidence p l =>
      match ptOf st p ++ partsOf st l with
      | [a, b, c, d, e, f] => .ok (pliResGrad a b c d e f).1
      | _ => .error .unreachable
  | .pointLineDistance p l t =>
      match ptOf st p ++ partsOf st l with
      | [a, b, c, d, e, f] => .ok (pldResGrad a b c d e f t).1
      | _ => .error .unreachable
  | .pointCircleIncidence p l =>
      match ptOf st p ++ partsOf st l with
      | [a, b, c, d, e] => .ok (pciResGrad a b c d e).1
      | _ => .error .unreachable
  | .segmentSegmentLengthEquality p q r t =>
      match ptOf st p ++ ptOf st q ++ ptOf st r ++ ptOf st t with
      | [a, b, c, d, e, f, g, h] => .ok (ssleResGrad a b c d e f g h).1
      | _ => .error .unreachable
  | .lineLineAngle l m t =>
      match partsOf st l ++ partsOf st m with
      | [a, b, c, d, e, f, g, h] => .ok (llaResGrad a b c d e f g h t).1
      | _ => .error .unreachable
  | .lineLineParallelism l m =>
      match partsOf st l ++ partsOf st m with
      | [a, b, c, d, e, f, g, h] => .ok (llparResGrad a b c d e f g h).1
      | _ => .error .unreachable
  | .lineLinePerpendicularity l m =>
      match partsOf st l ++ partsOf st m with
      | [a, b, c, d, e, f, g, h] => .ok (llperpResGrad a b c d e f g h).1
      | _ => .error .unreachable
  | .lineCircleTangency l m =>
      match partsOf st l ++ partsOf st m with
      | [a, b, c, d, e, f, g] => .ok (lctResGrad a b c d e f g).1
      | _ => .error .unreachable

variable {s : System F} {st : Store F}

theorem identityMap_of {vs : List F} {i : Nat} {x : F} (h : idx vs i = .ok x) :
    (do let v ← identityMap vs i; pure v.value : R F) = .ok x := by
  unfold identityMap
  rw [h]
  rfl

/-- Residuals of a represented system are the residuals of the store, and reading them does not panic. -/
theorem Rel.residualOf (hr : Rel s st) {i : Nat} {c : Con F} (hc : st.cons[i]? = some c) :
    ∃ r, storeResidual st c = .ok r ∧ s.residualOf c.kind.valency i = .ok r := by
  have hok := hr.wfCon c (List.mem_of_getElem? hc)
  have hcon := hr.constraint_at hc
  have hex := fun j => hr.expression_at hc (j := j)
  have hline : ∀ {l}, st.IsLine l → ∃ a b x0 y0 x1 y1, lineOff st.elems l = (a, b) ∧ partsOf st l = [x0, y0, x1, y1] ∧
      idx s.vars a = .ok x0 ∧ idx s.vars (a + 1) = .ok y0 ∧ idx s.vars b = .ok x1 ∧ idx s.vars (b + 1) = .ok y1 := by
    intro l hl
    obtain ⟨p, q, h1, ⟨x0, y0, h2⟩, ⟨x1, y1, h3⟩, h4, -⟩ := hr.line hl
    exact ⟨_, _, x0, y0, x1, y1, h4, by simp [partsOf, ptOf, h1, h2, h3, elemValues], (hr.point_vars h2).1, (hr.point_vars h2).2,
      (hr.point_vars h3).1, (hr.point_vars h3).2⟩
  have hcirc : ∀ {l}, st.IsCircle l → ∃ a b x0 y0 v, circOff st.elems l = (a, b) ∧ partsOf st l = [x0, y0, v] ∧
      idx s.vars a = .ok x0 ∧ idx s.vars (a + 1) = .ok y0 ∧ idx s.vars b = .ok v := by
    intro l hl
    obtain ⟨p, q, h1, ⟨x0, y0, h2⟩, ⟨x1, h3⟩, h4, -⟩ := hr.circle hl
    exact ⟨_, _, x0, y0, x1, h4, by simp [partsOf, ptOf, h1, h2, h3, elemValues], (hr.point_vars h2).1, (hr.point_vars h2).2,
      hr.length_vars h3⟩
  have hpoint : ∀ {p}, st.IsPoint p → ∃ x0 y0, ptOf st p = [x0, y0] ∧ idx s.vars (off st.elems p) = .ok x0 ∧
      idx s.vars (off st.elems p + 1) = .ok y0 := by
    intro p hp
    obtain ⟨x0, y0, h2⟩ := hp
    exact ⟨x0, y0, by simp [ptOf, h2, elemValues], (hr.point_vars h2).1, (hr.point_vars h2).2⟩
  have key : ∀ {e : Expr F} {vs : List F} {rg : F × List F}, encCon st.elems c = [e] → c.kind.valency = 1 →
      e.variableIndices.mapM (fun i => do let v ← identityMap s.vars i; pure v.value) = .ok vs →
      e.computeResidualAndGradient vs = .ok rg → s.residualOf c.kind.valency i = .ok rg.1 := by
    intro e vs rg h1 h2 h3 h4
    have := hex 0 (by rw [h1]; simp)
    rw [h1] at this
    simp only [Nat.add_zero, List.getElem?_cons_zero] at this
    unfold System.residualOf
    rw [idx_of hcon, ok_bind, h2, if_neg (by omega), idx_of this, ok_bind]
    unfold Expr.calculateResidual
    rw [h3, ok_bind, h4, ok_bind]
    rfl
  cases c <;> simp only [Store.ConOk] at hok
  · obtain ⟨x0, y0, e1, a1, a2⟩ := hpoint hok.1
    obtain ⟨x1, y1, e2, b1, b2⟩ := hpoint hok.2
    refine ⟨_, by (simp only [storeResidual, e1, e2]; rfl), ?_⟩
    have h0 := hex 0 (by simp [encCon])
    have h1 := hex 1 (by simp [encCon])
    simp only [encCon, List.getElem?_cons_zero, List.getElem?_cons_succ] at h0 h1
    unfold System.residualOf
    rw [idx_of hcon, ok_bind]
    rw [show (Con.pointPointCoincidence _ _ : Con F).kind.valency = 2 from rfl, if_pos (show 2 > 1 by omega)]
    simp only [List.range_succ, List.range_zero, List.nil_append, List.cons_append, List.mapM_cons, List.mapM_nil]
    rw [idx_of h0, ok_bind, idx_of h1]
    simp only [ok_bind, Expr.calculateResidual, Expr.variableIndices, List.mapM_cons, List.mapM_nil, identityMap, a1, a2, b1, b2,
      pure_eq_ok, Variable.value, Expr.computeResidualAndGradient]
  · obtain ⟨x0, y0, e1, a1, a2⟩ := hpoint hok.1
    obtain ⟨x1, y1, e2, b1, b2⟩ := hpoint hok.2
    refine ⟨_, by (simp only [storeResidual, e1, e2, List.cons_append, List.nil_append]; rfl), ?_⟩
    refine key rfl rfl (vs := [x0, y0, x1, y1]) ?_ rfl
    simp only [Expr.variableIndices, List.mapM_cons, List.mapM_nil, identityMap, Variable.value, a1, a2, b1,
      b2, ok_bind, pure_eq_ok]
  · obtain ⟨x0, y0, e1, a1, a2⟩ := hpoint hok.1
    obtain ⟨x1, y1, e2, b1, b2⟩ := hpoint hok.2.1
    obtain ⟨x2, y2, e3, c1, c2⟩ := hpoint hok.2.2
    refine ⟨_, by (simp only [storeResidual, e1, e2, e3, List.cons_append, List.nil_append]; rfl), ?_⟩
    refine key rfl rfl (vs := [x0, y0, x1, y1, x2, y2]) ?_ rfl
    simp only [Expr.variableIndices, List.mapM_cons, List.mapM_nil, identityMap, Variable.value, a1, a2, b1,
      b2, c1, c2, ok_bind, pure_eq_ok]
  · obtain ⟨x0, y0, e1, a1, a2⟩ := hpoint hok.1
    obtain ⟨a, b, x1, y1, x2, y2, e2, e3, b1, b2, b3, b4⟩ := hline hok.2
    refine ⟨_, by (simp only [storeResidual, e1, e3, List.cons_append, List.nil_append]; rfl), ?_⟩
    refine key rfl rfl (vs := [x0, y0, x1, y1, x2, y2]) ?_ rfl
    simp only [e2, Expr.variableIndices, List.mapM_cons, List.mapM_nil, identityMap, Variable.value, a1, a2, b1,
      b2, b3, b4, ok_bind, pure_eq_ok]
  · obtain ⟨x0, y0, e1, a1, a2⟩ := hpoint hok.1
    obtain ⟨a, b, x1, y1, x2, y2, e2, e3, b1, b2, b3, b4⟩ := hline hok.2
    refine ⟨_, by (simp only [storeResidual, e1, e3, List.cons_append, List.nil_append]; rfl), ?_⟩
    refine key rfl rfl (vs := [x0, y0, x1, y1, x2, y2]) ?_ rfl
    simp only [e2, Expr.variableIndices, List.mapM_cons, List.mapM_nil, identityMap, Variable.value, a1, a2, b1,
      b2, b3, b4, ok_bind, pure_eq_ok]
  · obtain ⟨x0, y0, e1, a1, a2⟩ := hpoint hok.1
    obtain ⟨a, b, x1, y1, v, e2, e3, b1, b2, b3⟩ := hcirc hok.2
    refine ⟨_, by (simp only [storeResidual, e1, e3, List.cons_append, List.nil_append]; rfl), ?_⟩
    refine key rfl rfl (vs := [x0, y0, x1, y1, v]) ?_ rfl
    simp only [e2, Expr.variableIndices, List.mapM_cons, List.mapM_nil, identityMap, Variable.value, a1, a2, b1,
      b2, b3, ok_bind, pure_eq_ok]
  · obtain ⟨x0, y0, e1, a1, a2⟩ := hpoint hok.1
    obtain ⟨x1, y1, e2, b1, b2⟩ := hpoint hok.2.1
    obtain ⟨x2, y2, e3, c1, c2⟩ := hpoint hok.2.2.1
    obtain ⟨x3, y3, e4, d1, d2⟩ := hpoint hok.2.2.2
    refine ⟨_, by (simp only [storeResidual, e1, e2, e3, e4, List.cons_append, List.nil_append]; rfl), ?_⟩
    refine key rfl rfl (vs := [x0, y0, x1, y1, x2, y2, x3, y3]) ?_ rfl
    simp only [Expr.variableIndices, List.mapM_cons, List.mapM_nil, identityMap, Variable.value, a1, a2, b1,
      b2, c1, c2, d1, d2, ok_bind, pure_eq_ok]
  · obtain ⟨a', b', x0, y0, x3, y3, e1, e4, a1, a2, a3, a4⟩ := hline hok.1
    obtain ⟨a, b, x1, y1, x2, y2, e2, e3, b1, b2, b3, b4⟩ := hline hok.2
    refine ⟨_, by (simp only [storeResidual, e4, e3, List.cons_append, List.nil_append]; rfl), ?_⟩
    refine key rfl rfl (vs := [x0, y0, x3, y3, x1, y1, x2, y2]) ?_ rfl
    simp only [e2, e1, Expr.variableIndices, List.mapM_cons, List.mapM_nil, identityMap, Variable.value, a1, a2, b1,
      a3, a4, b2, b3, b4, ok_bind, pure_eq_ok]
  · obtain ⟨a', b', x0, y0, x3, y3, e1, e4, a1, a2, a3, a4⟩ := hline hok.1
    obtain ⟨a, b, x1, y1, x2, y2, e2, e3, b1, b2, b3, b4⟩ := hline hok.2
    refine ⟨_, by (simp only [storeResidual, e4, e3, List.cons_append, List.nil_append]; rfl), ?_⟩
    refine key rfl rfl (vs := [x0, y0, x3, y3, x1, y1, x2, y2]) ?_ rfl
    simp only [e2, e1, Expr.variableIndices, List.mapM_cons, List.mapM_nil, identityMap, Variable.value, a1, a2, b1,
      a3, a4, b2, b3, b4, ok_bind, pure_eq_ok]
  · obtain ⟨a', b', x0, y0, x3, y3, e1, e4, a1, a2, a3, a4⟩ := hline hok.1
    obtain ⟨a, b, x1, y1, x2, y2, e2, e3, b1, b2, b3, b4⟩ := hline hok.2
    refine ⟨_, by (simp only [storeResidual, e4, e3, List.cons_append, List.nil_append]; rfl), ?_⟩
    refine key rfl rfl (vs := [x0, y0, x3, y3, x1, y1, x2, y2]) ?_ rfl
    simp only [e2, e1, Expr.variableIndices, List.mapM_cons, List.mapM_nil, identityMap, Variable.value, a1, a2, b1,
      a3, a4, b2, b3, b4, ok_bind, pure_eq_ok]
  · obtain ⟨a', b', x0, y0, x3, y3, e1, e4, a1, a2, a3, a4⟩ := hline hok.1
    obtain ⟨a, b, x1, y1, v, e2, e3, b1, b2, b3⟩ := hcirc hok.2
    refine ⟨_, by (simp only [storeResidual, e4, e3, List.cons_append, List.nil_append]; rfl), ?_⟩
    refine key rfl rfl (vs := [x0, y0, x3, y3, x1, y1, v]) ?_ rfl
    simp only [e2, e1, Expr.variableIndices, List.mapM_cons, List.mapM_nil, identityMap, Variable.value, a1, a2, b1,
      a3, a4, b2, b3, ok_bind, pure_eq_ok]

theorem CRel.calculateResidual {c : Client F} {st : Store F} (h : CRel c st) {i : Nat} {con : Con F}
    (hc : st.cons[i]? = some con) :
    ∃ r, storeResidual st con = .ok r ∧ c.sys.calculateResidual con.kind ⟨c.sys.id, i⟩ = .ok r := by
  obtain ⟨r, h1, h2⟩ := h.rel.residualOf hc
  refine ⟨r, h1, ?_⟩
  unfold System.calculateResidual
  rw [if_neg (by simp)]
  exact h2

end residual

/-! ## Enumerations -/

theorem zipIdx_mapM_handles {α β : Type} (l : List α) (f : α → Nat → β) (hl : l.length < 2 ^ 32) :
    l.zipIdx.mapM (fun ei => do let id ← toU32 ei.2; pure (f ei.1 id)) = (.ok (l.mapIdx (fun i a => f a i)) : R (List β)) := by
  rw [mapM_ok_of _ (fun ei => f ei.1 ei.2)]
  · congr 1
    apply List.ext_getElem?
    intro i
    rw [List.getElem?_map, List.getElem?_zipIdx, List.getElem?_mapIdx]
    cases l[i]? <;> simp
  · intro ei hei
    have : ei.2 < l.length := by
      rw [List.mem_iff_getElem?] at hei
      obtain ⟨k, hk⟩ := hei
      rw [List.getElem?_zipIdx, Option.map_eq_some_iff] at hk
      obtain ⟨a, ha, hk⟩ := hk
      subst hk
      simpa using lt_of_getElem? ha
    rw [toU32_of (by omega)]
    rfl

theorem encElem_tag (es : List (Elem F)) (i : Nat) (e : Elem F) : (encElem es i e).tag = e.kind := by
  cases e <;> rfl

theorem Rel.getElementHandles {s : System F} {st : Store F} (hr : Rel s st) (hn : st.elems.length < 2 ^ 32) :
    s.getElementHandles = .ok (st.elems.mapIdx (fun i e => ⟨s.id, i, e.kind⟩)) := by
  unfold System.getElementHandles
  rw [zipIdx_mapM_handles s.elements (fun e id => (⟨s.id, id, e.tag⟩ : AnyElementHandle)) (by rw [hr.elements_length]; exact hn)]
  congr 1
  rw [hr.elements]
  apply List.ext_getElem?
  intro i
  simp only [List.getElem?_mapIdx]
  cases st.elems[i]? <;> simp [encElem_tag]

theorem Rel.getConstraintHandles {s : System F} {st : Store F} (hr : Rel s st) (hn : st.cons.length < 2 ^ 32) :
    s.getConstraintHandles = .ok (st.cons.mapIdx (fun i c => ⟨s.id, i, c.kind⟩)) := by
  unfold System.getConstraintHandles
  rw [zipIdx_mapM_handles s.constraints (fun e id => (⟨s.id, id, e.tag⟩ : AnyConstraintHandle))
    (by rw [hr.constraints]; simpa using hn)]
  congr 1
  rw [hr.constraints]
  apply List.ext_getElem?
  intro i
  simp only [List.getElem?_mapIdx]
  cases st.cons[i]? <;> simp

end Fiksi
