import Verif.Proofs.Reaches
/-!
# Properties of the API: elements, handles, updates (C01–C09)

All histories (`Reaches counter ops c`): any sequence of creations, fixes, unfixes, updates and solves (with arbitrary outcome) on
a new system, of any length below `2^30`.
-/
namespace Fiksi

open Spec

variable {F : Type}

/-- A history used to show that hypotheses are satisfiable: two points, a line, a length, a circle, a constraint, a fix,
an update and a solve. -/
def demoOps : List (Op Int) :=
  [.createPoint 1 2, .createPoint 3 4, .createLine 0 1, .createLength 5, .createCircle 1 3,
   .createCon (.pointPointDistance 0 1 7), .fix .line 2, .updatePoint 0 10 20, .updateParameter .pointPointDistance 0 8,
   .solve [.point 11 20, .point 3 4, .line 0 1, .length 6, .circle 1 3]]

theorem demo_legal : (Store.empty Int).LegalRun demoOps := by
  simp [demoOps, Store.LegalRun, Store.Legal, Store.empty, Store.step, Store.IsPoint, Store.IsLength, Store.ConOk, Elem.kind,
    Con.kind, Con.withParameter, SameShape]

theorem demo_reaches : ∃ c, Reaches 7 demoOps c := by
  obtain ⟨c, h1, -, -⟩ := (CRel.new (F := Int) 7).run demoOps (by simp [Store.empty, demoOps]) (by simp [Store.empty, demoOps])
    demo_legal
  exact ⟨c, by simp [demoOps], demo_legal, h1⟩

/-! ## C01 -/

/-- C01 (points): a created point reads back as created. -/
theorem C01_point_reads_back {counter : Nat} {ops : List (Op F)} {c : Client F} (h : Reaches counter ops c) (x y : F) :
    ∃ hd s', c.sys.createPoint x y = .ok (hd, s') ∧ s'.getValue .point hd = .ok (.point x y) := by
  have hr := h.crel
  obtain ⟨s', h1, h2, h3⟩ := hr.rel.addElement (by have := h.size; omega) (.point x y) trivial .point
    (by simp [encElem, off_append _ _ (le_refl _)])
  have h4 := hr.pushElem h2 h3
  obtain ⟨v, h5, h6⟩ := h4.getValue (i := ((Store.empty F).run ops).elems.length) (e := .point x y) (by simp)
  refine ⟨_, s', h1, ?_⟩
  simp only [h2] at h6
  rw [show ElementTag.point = (Elem.point x y).kind from rfl, h6]
  simp only [Store.value, List.getElem?_concat_length, Option.some.injEq] at h5
  rw [h5]

/-- C01 (lengths). -/
theorem C01_length_reads_back {counter : Nat} {ops : List (Op F)} {c : Client F} (h : Reaches counter ops c) (x : F) :
    ∃ hd s', c.sys.createLength x = .ok (hd, s') ∧ s'.getValue .length hd = .ok (.length x) := by
  have hr := h.crel
  obtain ⟨s', h1, h2, h3⟩ := hr.rel.addElement (by have := h.size; omega) (.length x) trivial .length
    (by simp [encElem, off_append _ _ (le_refl _)])
  have h4 := hr.pushElem h2 h3
  obtain ⟨v, h5, h6⟩ := h4.getValue (i := ((Store.empty F).run ops).elems.length) (e := .length x) (by simp)
  refine ⟨_, s', h1, ?_⟩
  simp only [h2] at h6
  rw [show ElementTag.length = (Elem.length x).kind from rfl, h6]
  simp only [Store.value, List.getElem?_concat_length, Option.some.injEq] at h5
  rw [h5]

theorem value_point_inv {st : Store F} {i : Nat} {x y : F} {e : Elem F} (he : st.elems[i]? = some e) (hk : e.kind = .point)
    (hv : st.value i = some (.point x y)) : st.elems[i]? = some (.point x y) := by
  cases e <;> simp [Elem.kind] at hk
  simp only [Store.value, he, Option.some.injEq, ElementValue.point.injEq] at hv
  rw [he, hv.1, hv.2]

theorem value_length_inv {st : Store F} {i : Nat} {x : F} {e : Elem F} (he : st.elems[i]? = some e) (hk : e.kind = .length)
    (hv : st.value i = some (.length x)) : st.elems[i]? = some (.length x) := by
  cases e <;> simp [Elem.kind] at hk
  simp only [Store.value, he, Option.some.injEq, ElementValue.length.injEq] at hv
  rw [he, hv]

/-- C01 (lines): a line created from two point handles reads as the line between their current values. -/
theorem C01_line_reads_back {counter : Nat} {ops : List (Op F)} {c : Client F} (h : Reaches counter ops c)
    {hp hq : Handle} (mp : hp ∈ c.elemHandles) (mq : hq ∈ c.elemHandles) {x0 y0 x1 y1 : F}
    (vp : c.sys.getValue .point hp = .ok (.point x0 y0)) (vq : c.sys.getValue .point hq = .ok (.point x1 y1)) :
    ∃ hd s', c.sys.createLine hp hq = .ok (hd, s') ∧ s'.getValue .line hd = .ok (.line x0 y0 x1 y1) := by
  have hr := h.crel
  obtain ⟨p, hp'⟩ := List.mem_iff_getElem?.1 mp
  obtain ⟨q, hq'⟩ := List.mem_iff_getElem?.1 mq
  obtain ⟨rfl, e, he, hk, hv⟩ := hr.getValue_inv hp' vp
  obtain ⟨rfl, e', he', hk', hv'⟩ := hr.getValue_inv hq' vq
  have hpp := value_point_inv he hk hv
  have hqq := value_point_inv he' hk' hv'
  obtain ⟨s', h1, h2, h3⟩ := hr.rel.addElement (by have := h.size; omega) (.line p q) ⟨⟨_, _, hpp⟩, ⟨_, _, hqq⟩⟩
    (fun _ => .line (off ((Store.empty F).run ops).elems p) (off ((Store.empty F).run ops).elems q))
    (by simp only [encElem]; rw [off_append _ _ (le_of_lt (lt_of_getElem? hpp)), off_append _ _ (le_of_lt (lt_of_getElem? hqq))])
  have h4 := hr.pushElem h2 h3
  obtain ⟨v, h5, h6⟩ := h4.getValue (i := ((Store.empty F).run ops).elems.length) (e := .line p q) (by simp)
  refine ⟨⟨c.sys.id, ((Store.empty F).run ops).elems.length⟩, s', ?_, ?_⟩
  · unfold System.createLine
    rw [hr.rel.expectPoint ⟨_, _, hpp⟩, ok_bind, hr.rel.expectPoint ⟨_, _, hqq⟩, ok_bind]
    exact h1
  · simp only [h2] at h6
    rw [show ElementTag.line = (Elem.line (F := F) p q).kind from rfl, h6]
    simp only [Store.value, List.getElem?_concat_length, Store.pointAt, List.getElem?_append_left (lt_of_getElem? hpp),
      List.getElem?_append_left (lt_of_getElem? hqq), hpp, hqq, Option.some.injEq] at h5
    rw [h5]

/-- C01 (circles). -/
theorem C01_circle_reads_back {counter : Nat} {ops : List (Op F)} {c : Client F} (h : Reaches counter ops c)
    {hp hq : Handle} (mp : hp ∈ c.elemHandles) (mq : hq ∈ c.elemHandles) {x0 y0 r : F}
    (vp : c.sys.getValue .point hp = .ok (.point x0 y0)) (vq : c.sys.getValue .length hq = .ok (.length r)) :
    ∃ hd s', c.sys.createCircle hp hq = .ok (hd, s') ∧ s'.getValue .circle hd = .ok (.circle x0 y0 r) := by
  have hr := h.crel
  obtain ⟨p, hp'⟩ := List.mem_iff_getElem?.1 mp
  obtain ⟨q, hq'⟩ := List.mem_iff_getElem?.1 mq
  obtain ⟨rfl, e, he, hk, hv⟩ := hr.getValue_inv hp' vp
  obtain ⟨rfl, e', he', hk', hv'⟩ := hr.getValue_inv hq' vq
  have hpp := value_point_inv he hk hv
  have hqq := value_length_inv he' hk' hv'
  obtain ⟨s', h1, h2, h3⟩ := hr.rel.addElement (by have := h.size; omega) (.circle p q) ⟨⟨_, _, hpp⟩, ⟨_, hqq⟩⟩
    (fun _ => .circle (off ((Store.empty F).run ops).elems p) (off ((Store.empty F).run ops).elems q))
    (by simp only [encElem]; rw [off_append _ _ (le_of_lt (lt_of_getElem? hpp)), off_append _ _ (le_of_lt (lt_of_getElem? hqq))])
  have h4 := hr.pushElem h2 h3
  obtain ⟨v, h5, h6⟩ := h4.getValue (i := ((Store.empty F).run ops).elems.length) (e := .circle p q) (by simp)
  refine ⟨⟨c.sys.id, ((Store.empty F).run ops).elems.length⟩, s', ?_, ?_⟩
  · unfold System.createCircle
    rw [hr.rel.expectPoint ⟨_, _, hpp⟩, ok_bind, hr.rel.expectLength ⟨_, hqq⟩, ok_bind]
    exact h1
  · simp only [h2] at h6
    rw [show ElementTag.circle = (Elem.circle (F := F) p q).kind from rfl, h6]
    simp only [Store.value, List.getElem?_concat_length, Store.pointAt, Store.lengthAt,
      List.getElem?_append_left (lt_of_getElem? hpp),
      List.getElem?_append_left (lt_of_getElem? hqq), hpp, hqq, Option.some.injEq] at h5
    rw [h5]

/-- The hypotheses of C01 hold in a concrete history (two points and a length that can be read). -/
example : ∃ (c : Client Int) (hp hq hl : Handle), Reaches 7 demoOps c ∧ hp ∈ c.elemHandles ∧ hq ∈ c.elemHandles ∧
    hl ∈ c.elemHandles ∧ c.sys.getValue .point hp = .ok (.point 11 20) ∧ c.sys.getValue .point hq = .ok (.point 3 4) ∧
    c.sys.getValue .length hl = .ok (.length 6) := by
  obtain ⟨c, h⟩ := demo_reaches
  have hid := h.sysId
  have hr := h.crel
  have m : ∀ i, i < 5 → (⟨7, i⟩ : Handle) ∈ c.elemHandles := by
    intro i hi
    rw [← hid]
    exact List.mem_of_getElem? (hr.elemHandle (i := i) hi)
  obtain ⟨v0, a0, b0⟩ := hr.getValue (i := 0) (e := .point 11 20) rfl
  obtain ⟨v1, a1, b1⟩ := hr.getValue (i := 1) (e := .point 3 4) rfl
  obtain ⟨v2, a2, b2⟩ := hr.getValue (i := 3) (e := .length 6) rfl
  cases a0; cases a1; cases a2
  rw [hid] at b0 b1 b2
  exact ⟨c, ⟨7, 0⟩, ⟨7, 1⟩, ⟨7, 3⟩, h, m 0 (by omega), m 1 (by omega), m 3 (by omega), b0, b1, b2⟩

/-! ## The refinement, which contains C02, C07 and C08 for all histories -/

/-- After every history, every issued element handle reads the value that the specification store has for that element. -/
theorem API_values_refine {counter : Nat} {ops : List (Op F)} {c : Client F} (h : Reaches counter ops c) {i : Nat} {e : Elem F}
    (he : ((Store.empty F).run ops).elems[i]? = some e) :
    ∃ hd v, c.elemHandles[i]? = some hd ∧ ((Store.empty F).run ops).value i = some v ∧
      c.sys.getValue e.kind hd = .ok v ∧ c.sys.getValueAny (asAnyElement e.kind hd) = .ok v := by
  obtain ⟨v, h1, h2⟩ := h.crel.getValue he
  refine ⟨_, v, h.crel.elemHandle (lt_of_getElem? he), h1, h2, ?_⟩
  rw [← h2]
  unfold System.getValueAny System.getValue asAnyElement
  cases e <;> rfl

/-! ## C02 -/

/-- C02 (values): calls that do not update coordinates or lengths leave everything read through an issued element handle as it
was (also for wrongly typed reads, which stay errors). -/
theorem C02_values_kept {counter : Nat} {ops ops' : List (Op F)} {c c' : Client F} (h : Reaches counter ops c)
    (h' : Reaches counter (ops ++ ops') c') (hops : ∀ op ∈ ops', op.changesValues = false)
    {hd : Handle} (hm : hd ∈ c.elemHandles) (tag : ElementTag) : c'.sys.getValue tag hd = c.sys.getValue tag hd := by
  have hr := h.crel
  have hr' := h'.crel
  obtain ⟨i, hi, rfl⟩ := hr.mem_elemHandles hm
  have hid : c'.sys.id = c.sys.id := by rw [h.sysId, h'.sysId]
  have hpre := run_elems_prefix ((Store.empty F).run ops) ops' hops
  rw [← store_run_append] at hpre
  have he := List.getElem?_eq_getElem hi
  have he' := prefix_get hpre he
  obtain ⟨v, h1, h2⟩ := hr.getValue he
  obtain ⟨v', h1', h2'⟩ := hr'.getValue he'
  rw [value_prefix hr.rel hpre hi, h1, Option.some.injEq] at h1'
  subst h1'
  by_cases ht : (((Store.empty F).run ops).elems[i]).kind = tag
  · subst ht
    rw [h2, ← h2', hid]
  · unfold System.getValue
    rw [if_neg (by simp [hid]), if_neg (by simp), idx_of (hr.rel.element_at he), idx_of (hr'.rel.element_at he'), ok_bind, ok_bind,
      Rel.read_wrong ht, Rel.read_wrong ht]

/-- C02 (kinds): no call at all ever changes the kind seen through an issued handle. -/
theorem C02_kinds_kept {counter : Nat} {ops ops' : List (Op F)} {c c' : Client F} (h : Reaches counter ops c)
    (h' : Reaches counter (ops ++ ops') c') {hd : Handle} (hm : hd ∈ c.elemHandles) (tag : ElementTag) :
    (∃ v, c.sys.getValue tag hd = .ok v) ↔ ∃ v, c'.sys.getValue tag hd = .ok v := by
  have hr := h.crel
  have hr' := h'.crel
  obtain ⟨i, hi, rfl⟩ := hr.mem_elemHandles hm
  have hid : c'.sys.id = c.sys.id := by rw [h.sysId, h'.sysId]
  have hk := run_elems_kind ((Store.empty F).run ops) ops' ((legalRun_append _ _ _).1 h'.legal).2
  rw [← store_run_append] at hk
  have he := List.getElem?_eq_getElem hi
  have hk2 : (((Store.empty F).run (ops ++ ops')).elems.map Elem.kind)[i]? = some (((Store.empty F).run ops).elems[i].kind) := by
    rw [hk, List.getElem?_append_left (by simpa using hi), List.getElem?_map, he]
    rfl
  rw [List.getElem?_map, Option.map_eq_some_iff] at hk2
  obtain ⟨e', he', hke'⟩ := hk2
  constructor
  · rintro ⟨v, hv⟩
    obtain ⟨-, e, he2, hke, -⟩ := hr.getValue_inv (hr.elemHandle hi) hv
    rw [he] at he2
    simp only [Option.some.injEq] at he2
    obtain ⟨v', -, h2'⟩ := hr'.getValue he'
    refine ⟨v', ?_⟩
    rw [← hke, ← he2, ← hke', ← hid]
    exact h2'
  · rintro ⟨v, hv⟩
    rw [← hid] at hv
    obtain ⟨-, e, he2, hke, -⟩ := hr'.getValue_inv (hr'.elemHandle (lt_of_getElem? he')) hv
    rw [he'] at he2
    simp only [Option.some.injEq] at he2
    obtain ⟨v', -, h2'⟩ := hr.getValue he
    refine ⟨v', ?_⟩
    rw [← hke, ← he2, hke']
    exact h2'

section
variable [Add F] [Sub F] [Mul F] [Div F] [Neg F] [Zero F] [One F] [FloatOps F]

/-- C02 (constraints): calls that change no coordinates or lengths and not the parameter of constraint number `i` leave the
residual read through its handle as it was. `tag` is the type of the handle (the kind it was created with). -/
theorem C02_residuals_kept {counter : Nat} {ops ops' : List (Op F)} {c c' : Client F} (h : Reaches counter ops c)
    (h' : Reaches counter (ops ++ ops') c') (hops : ∀ op ∈ ops', op.changesValues = false)
    {i : Nat} (hpar : ∀ op ∈ ops', op.changesParameterOf i = false)
    {hd : Handle} (hm : c.conHandles[i]? = some hd) {tag : ConstraintTag}
    (ht : (ops.filterMap Op.createdConstraint)[i]? = some tag) :
    c'.sys.calculateResidual tag hd = c.sys.calculateResidual tag hd ∧ ∃ r, c.sys.calculateResidual tag hd = .ok r := by
  have hr := h.crel
  have hr' := h'.crel
  have hid : c'.sys.id = c.sys.id := by rw [h.sysId, h'.sysId]
  have hk := run_cons_kind _ ops h.legal
  simp only [Store.empty, List.map_nil, List.nil_append] at hk
  rw [← hk, List.getElem?_map, Option.map_eq_some_iff] at ht
  obtain ⟨con, hcon, rfl⟩ := ht
  rw [show (⟨[], [], ∅⟩ : Store F) = Store.empty F from rfl] at hcon
  rw [hr.conHandle (lt_of_getElem? hcon)] at hm
  simp only [Option.some.injEq] at hm
  subst hm
  have hpre := run_elems_prefix ((Store.empty F).run ops) ops' hops
  have hcon' := run_con_get ((Store.empty F).run ops) ops' hcon hpar
  rw [← store_run_append] at hpre hcon'
  obtain ⟨r, h1, h2⟩ := hr.calculateResidual hcon
  obtain ⟨r', h1', h2'⟩ := hr'.calculateResidual hcon'
  rw [storeResidual_prefix hr.rel hpre (hr.rel.wfCon con (List.mem_of_getElem? hcon)), h1, Except.ok.injEq] at h1'
  subst h1'
  rw [hid] at h2'
  exact ⟨by rw [h2, h2'], r, h2⟩

end

/-- The hypotheses of C02 hold for a concrete continuation with creations, a fix and a parameter update of another constraint. -/
example : ∃ c c' : Client Int, Reaches 7 demoOps c ∧
    Reaches 7 (demoOps ++ [.createPoint 0 0, .createCon (.pointPointDistance 1 5 3), .updateParameter .pointPointDistance 1 4,
      .fix .point 5]) c' ∧ (⟨7, 2⟩ : Handle) ∈ c.elemHandles ∧ c.conHandles[0]? = some ⟨7, 0⟩ := by
  obtain ⟨c, h⟩ := demo_reaches
  have hl : (Store.empty Int).LegalRun (demoOps ++ [.createPoint 0 0, .createCon (.pointPointDistance 1 5 3),
      .updateParameter .pointPointDistance 1 4, .fix .point 5]) := by
    simp [demoOps, Store.LegalRun, Store.Legal, Store.empty, Store.step, Store.IsPoint, Store.IsLength, Store.ConOk, Elem.kind,
      Con.kind, Con.withParameter, SameShape]
  obtain ⟨c', h1, -, -⟩ := (CRel.new (F := Int) 7).run _ (by simp [Store.empty, demoOps]) (by simp [Store.empty, demoOps]) hl
  refine ⟨c, c', h, ⟨by simp [demoOps], hl, h1⟩, ?_, ?_⟩
  · have := List.mem_of_getElem? (h.crel.elemHandle (i := 2) (show 2 < 5 by omega))
    rwa [h.sysId] at this
  · have := h.crel.conHandle (i := 0) (show 0 < 1 by omega)
    rwa [h.sysId] at this

/-! ## C03, C04 -/

/-- C03: enumeration gives one handle per created element, in creation order, equal to the handle issued at creation and of the
kind that was created. -/
theorem C03_element_enumeration {counter : Nat} {ops : List (Op F)} {c : Client F} (h : Reaches counter ops c) :
    c.elemHandles.length = (ops.filterMap Op.createdElement).length ∧
    c.sys.getElementHandles = .ok (List.zipWith asAnyElement (ops.filterMap Op.createdElement) c.elemHandles) := by
  have hr := h.crel
  have hk := run_elems_kind _ ops h.legal
  simp only [Store.empty, List.map_nil, List.nil_append] at hk
  rw [show (⟨[], [], ∅⟩ : Store F) = Store.empty F from rfl] at hk
  refine ⟨by rw [← hk, hr.elemHandles]; simp, ?_⟩
  rw [hr.rel.getElementHandles (by have := h.size; omega), ← hk, hr.elemHandles]
  congr 1
  apply List.ext_getElem?
  intro i
  rw [List.getElem?_mapIdx, List.getElem?_zipWith, List.getElem?_map, List.getElem?_map]
  by_cases hi : i < ((Store.empty F).run ops).elems.length
  · rw [List.getElem?_range hi, List.getElem?_eq_getElem hi]
    rfl
  · rw [List.getElem?_eq_none (by omega)]
    rfl

/-- C04: the same for constraints. -/
theorem C04_constraint_enumeration {counter : Nat} {ops : List (Op F)} {c : Client F} (h : Reaches counter ops c) :
    c.conHandles.length = (ops.filterMap Op.createdConstraint).length ∧
    c.sys.getConstraintHandles = .ok (List.zipWith asAnyConstraint (ops.filterMap Op.createdConstraint) c.conHandles) := by
  have hr := h.crel
  have hk := run_cons_kind _ ops h.legal
  simp only [Store.empty, List.map_nil, List.nil_append] at hk
  rw [show (⟨[], [], ∅⟩ : Store F) = Store.empty F from rfl] at hk
  refine ⟨by rw [← hk, hr.conHandles]; simp, ?_⟩
  rw [hr.rel.getConstraintHandles (by have := h.size; omega), ← hk, hr.conHandles]
  congr 1
  apply List.ext_getElem?
  intro i
  rw [List.getElem?_mapIdx, List.getElem?_zipWith, List.getElem?_map, List.getElem?_map]
  by_cases hi : i < ((Store.empty F).run ops).cons.length
  · rw [List.getElem?_range hi, List.getElem?_eq_getElem hi]
    rfl
  · rw [List.getElem?_eq_none (by omega)]
    rfl

/-- C03/C04: a call that creates hands out exactly one new handle, at the end; other calls hand out none. Issued handles are never
changed. -/
theorem C03_handles_issued_once {counter : Nat} {ops : List (Op F)} {c c' : Client F} (h : Reaches counter ops c) {op : Op F}
    (hop : ((Store.empty F).run ops).Legal op) (hc : c.exec op = .ok c') :
    c.elemHandles <+: c'.elemHandles ∧ c'.elemHandles.length = c.elemHandles.length + (op.createdElement).toList.length ∧
    c.conHandles <+: c'.conHandles ∧ c'.conHandles.length = c.conHandles.length + (op.createdConstraint).toList.length := by
  obtain ⟨c1, h1, -, -⟩ := h.step hop
  cases op <;> simp only [Client.exec, bind_eq_ok, pure_eq_ok, Except.ok.injEq, Prod.exists] at hc
  all_goals
    first
      | (obtain ⟨_, _, _, rfl⟩ := hc; simp [Op.createdElement, Op.createdConstraint])
      | (obtain ⟨_, _, rfl⟩ := hc; simp [Op.createdElement, Op.createdConstraint])
      | (obtain ⟨_, _, _, _, _, rfl⟩ := hc; simp [Op.createdElement, Op.createdConstraint])
      | (obtain ⟨_, _, _, _, _, _, _, rfl⟩ := hc; simp [Op.createdElement, Op.createdConstraint])
      | (obtain ⟨_, _, _, _, rfl⟩ := hc; simp [Op.createdElement, Op.createdConstraint])
      | (subst hc; simp [Op.createdElement, Op.createdConstraint])

example : (demoOps.filterMap Op.createdElement) = [.point, .point, .line, .length, .circle] ∧
    demoOps.filterMap Op.createdConstraint = [.pointPointDistance] := ⟨rfl, rfl⟩

/-! ## C05 -/

section
variable [Add F] [Sub F] [Mul F] [Div F] [Neg F] [Zero F] [One F] [FloatOps F]

/-- C05: no legal history of at most `2^30 - 1` calls panics, and neither does any read afterwards. (Counters are `u32`; the bound
keeps the number of variables below `2^32`.) -/
theorem C05_no_panic (counter : Nat) (ops : List (Op F)) (hlen : ops.length < 2 ^ 30)
    (hl : (Store.empty F).LegalRun ops) :
    ∃ c, (Client.new F counter).run ops = .ok c ∧
      (∃ l, c.sys.getElementHandles = .ok l) ∧ (∃ l, c.sys.getConstraintHandles = .ok l) ∧
      (∀ (i : Nat) tag hd, (ops.filterMap Op.createdElement)[i]? = some tag → c.elemHandles[i]? = some hd →
        (∃ v, c.sys.getValue tag hd = .ok v) ∧ ∃ v, c.sys.getValueAny (asAnyElement tag hd) = .ok v) ∧
      (∀ (i : Nat) tag hd, (ops.filterMap Op.createdConstraint)[i]? = some tag → c.conHandles[i]? = some hd →
        (∃ v, c.sys.calculateResidual tag hd = .ok v) ∧ ∃ v, c.sys.calculateResidualAny (asAnyConstraint tag hd) = .ok v) := by
  obtain ⟨c, h1, h2, hr⟩ := (CRel.new (F := F) counter).run ops (by simp [Store.empty]; omega) (by simp [Store.empty]; omega) hl
  have h : Reaches counter ops c := ⟨hlen, hl, h1⟩
  refine ⟨c, h1, ⟨_, (C03_element_enumeration h).2⟩, ⟨_, (C04_constraint_enumeration h).2⟩, ?_, ?_⟩
  · intro i tag hd ht hhd
    have hk := run_elems_kind _ ops h.legal
    simp only [Store.empty, List.map_nil, List.nil_append] at hk
    rw [← hk, List.getElem?_map, Option.map_eq_some_iff] at ht
    obtain ⟨e, he, rfl⟩ := ht
    obtain ⟨hd', v, a1, a2, a3, a4⟩ := API_values_refine h he
    rw [hhd] at a1
    cases a1
    exact ⟨⟨v, a3⟩, v, a4⟩
  · intro i tag hd ht hhd
    have hk := run_cons_kind _ ops h.legal
    simp only [Store.empty, List.map_nil, List.nil_append] at hk
    rw [← hk, List.getElem?_map, Option.map_eq_some_iff] at ht
    obtain ⟨con, hcon, rfl⟩ := ht
    rw [show (⟨[], [], ∅⟩ : Store F) = Store.empty F from rfl] at hcon
    rw [hr.conHandle (lt_of_getElem? hcon)] at hhd
    cases hhd
    obtain ⟨r, -, h4⟩ := hr.calculateResidual hcon
    refine ⟨⟨r, h4⟩, r, ?_⟩
    exact h4

end

/-! ## C06 -/

/-- C06 (readers): every read through a handle of another system panics with the assertion, whatever the handle's id and type. -/
theorem C06_reads_rejected [Add F] [Sub F] [Mul F] [Div F] [Neg F] [Zero F] [One F] [FloatOps F] (s : System F) (hd : Handle)
    (h : hd.systemId ≠ s.id) (etag : ElementTag) (ctag : ConstraintTag) :
    s.getValue etag hd = .error .assertion ∧ s.getValueAny (asAnyElement etag hd) = .error .assertion ∧
    s.calculateResidual ctag hd = .error .assertion ∧
    s.calculateResidualAny (asAnyConstraint ctag hd) = .error .assertion := by
  simp [System.getValue, System.getValueAny, System.calculateResidual, System.calculateResidualAny, asAnyElement,
    asAnyConstraint, h]

/-- C06 (the protection is exactly the system id): a read that succeeds comes from a handle of this system. -/
theorem C06_successful_read_is_own (s : System F) (hd : Handle) (tag : ElementTag) (v : ElementValue F)
    (h : s.getValue tag hd = .ok v) : hd.systemId = s.id := by
  by_contra hne
  simp [System.getValue, hne] at h

/-- C06 (writers, negation): the writing operations do **not** check the system. With two systems of one point each, updating,
fixing and creating in the first through the handle of the second succeeds and changes the first. -/
theorem C06_writers_unchecked :
    ∃ (c d : Client Int) (hd : Handle), Reaches 0 [.createPoint 1 2] c ∧ Reaches 1 [.createPoint 3 4] d ∧
      d.elemHandles = [hd] ∧ hd.systemId ≠ c.sys.id ∧
      (∃ s', c.sys.updatePoint hd 8 9 = .ok s' ∧ s'.vars = [8, 9] ∧ c.sys.vars = [1, 2]) ∧
      (∃ s', c.sys.fix .point hd = .ok s' ∧ s'.fixedVariables ≠ c.sys.fixedVariables) ∧
      (∃ h' s', c.sys.createLine hd hd = .ok (h', s')) ∧
      (∃ h' s', c.sys.createPointPointDistance hd hd 5 = .ok (h', s')) := by
  have hl : ∀ a b : Int, (Store.empty Int).LegalRun [.createPoint a b] := by
    intro a b; simp [Store.LegalRun, Store.Legal]
  obtain ⟨c, h1, -, hc⟩ := (CRel.new (F := Int) 0).run [.createPoint 1 2] (by simp [Store.empty]) (by simp [Store.empty]) (hl _ _)
  obtain ⟨d, h2, -, hd⟩ := (CRel.new (F := Int) 1).run [.createPoint 3 4] (by simp [Store.empty]) (by simp [Store.empty]) (hl _ _)
  have rc : Reaches 0 [.createPoint 1 2] c := ⟨by simp, hl _ _, h1⟩
  have rd : Reaches 1 [.createPoint 3 4] d := ⟨by simp, hl _ _, h2⟩
  have hp : Store.IsPoint ((Store.empty Int).run [.createPoint 1 2]) 0 := ⟨1, 2, rfl⟩
  have hv : c.sys.vars = [1, 2] := hc.rel.vars
  refine ⟨c, d, ⟨1, 0⟩, rc, rd, ?_, ?_, ?_, ?_, ?_, ?_⟩
  · rw [hd.elemHandles, rd.sysId]; rfl
  · rw [rc.sysId]; simp
  · exact ⟨_, hc.rel.updatePoint hp 1 8 9, rfl, hv⟩
  · obtain ⟨s', a1, -, -, a2⟩ := hc.rel.fix (i := 0) (e := .point 1 2) rfl 1
    refine ⟨s', a1, ?_⟩
    intro heq
    have m : 0 ∈ s'.fixedVariables := (a2.fixed 0).2 ⟨0, by simp [Store.primitives, Store.run, Store.step, Store.empty],
      by rw [a2.owners]; rfl⟩
    rw [heq, hc.rel.fixed] at m
    obtain ⟨i, hi, -⟩ := m
    simp [Store.run, Store.step, Store.empty] at hi
  · obtain ⟨s', a1, -, -⟩ := hc.rel.addElement (by simp [Store.run, Store.step, Store.empty]) (.line 0 0) ⟨hp, hp⟩
      (fun _ => .line (off ((Store.empty Int).run [.createPoint 1 2]).elems 0) (off ((Store.empty Int).run [.createPoint 1 2]).elems 0)) rfl
    refine ⟨⟨c.sys.id, 1⟩, s', ?_⟩
    unfold System.createLine
    rw [hc.rel.expectPoint hp, ok_bind, ok_bind]
    exact a1
  · obtain ⟨s', a1, -, -⟩ := hc.rel.addCon (by simp [Store.run, Store.step, Store.empty]) (.pointPointDistance 0 0 5) ⟨hp, hp⟩
    refine ⟨⟨c.sys.id, 0⟩, s', ?_⟩
    unfold System.createPointPointDistance
    rw [hc.rel.expectPoint hp, ok_bind, ok_bind]
    exact a1

end Fiksi
