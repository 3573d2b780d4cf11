import Verif.Props.Api
/-!
# Properties of the API: updates, fixing, identities, conversions, equation graph (C07–C11, C18)
-/
namespace Fiksi

open Spec

variable {F : Type}

/-! ## C07 -/

theorem read_primitive_set {s s' : System F} {st : Store F} (hr : Rel s st) {i j : Nat} {e e' ej : Elem F}
    (hi : st.elems[i]? = some e) (hs : SameShape e e') (hr' : Rel s' { st with elems := st.elems.set i e' })
    (hid : s'.id = s.id) (hj : st.elems[j]? = some ej) (hne : i ≠ j) (hprim : ej.kind = .point ∨ ej.kind = .length)
    (tag : ElementTag) : s'.getValue tag ⟨s.id, j⟩ = s.getValue tag ⟨s.id, j⟩ := by
  have hj' : (st.elems.set i e')[j]? = some ej := by rw [List.getElem?_set, if_neg hne]; exact hj
  have a := hr.element_at hj
  have b := hr'.element_at (st := { st with elems := st.elems.set i e' }) hj'
  unfold System.getValue
  rw [if_neg (by simp [hid]), if_neg (by simp), idx_of a, idx_of b, ok_bind, ok_bind]
  by_cases ht : ej.kind = tag
  · subst ht
    obtain ⟨v, h1, h2⟩ := hr.read hj
    obtain ⟨v', h1', h2'⟩ := hr'.read (st := { st with elems := st.elems.set i e' }) hj'
    rw [h2, h2']
    cases ej <;> simp [Elem.kind] at hprim
    all_goals
      simp only [Store.value, hj, Option.some.injEq] at h1
      simp only [Store.value, hj', Option.some.injEq] at h1'
      rw [← h1, ← h1']
  · rw [Rel.read_wrong ht, Rel.read_wrong ht]

/-- What a line or circle reads in terms of reads of its parts. `Assembled s` holds when every line (circle) of the store reads as
the line (circle) made of the values its points (centre and radius) read. -/
def Assembled (s : System F) (st : Store F) : Prop :=
  (∀ (j p q : Nat), st.elems[j]? = some (.line p q) → ∃ x0 y0 x1 y1,
    s.getValue .point ⟨s.id, p⟩ = .ok (.point x0 y0) ∧ s.getValue .point ⟨s.id, q⟩ = .ok (.point x1 y1) ∧
    s.getValue .line ⟨s.id, j⟩ = .ok (.line x0 y0 x1 y1)) ∧
  (∀ (j p q : Nat), st.elems[j]? = some (.circle p q) → ∃ x0 y0 r,
    s.getValue .point ⟨s.id, p⟩ = .ok (.point x0 y0) ∧ s.getValue .length ⟨s.id, q⟩ = .ok (.length r) ∧
    s.getValue .circle ⟨s.id, j⟩ = .ok (.circle x0 y0 r))

theorem Rel.getValue {s : System F} {st : Store F} (hr : Rel s st) {i : Nat} {e : Elem F} (he : st.elems[i]? = some e) :
    ∃ v, st.value i = some v ∧ s.getValue e.kind ⟨s.id, i⟩ = .ok v := by
  obtain ⟨v, h1, h2⟩ := hr.read he
  refine ⟨v, h1, ?_⟩
  unfold System.getValue
  rw [if_neg (by simp), idx_of (hr.element_at he), ok_bind, h2]

theorem Rel.assembled {s : System F} {st : Store F} (hr : Rel s st) : Assembled s st := by
  constructor
  · intro j p q hj
    obtain ⟨⟨x0, y0, hp⟩, ⟨x1, y1, hq⟩⟩ := hr.wfElem j _ hj
    refine ⟨x0, y0, x1, y1, ?_, ?_, ?_⟩
    · obtain ⟨v, h1, h2⟩ := hr.getValue hp
      simp only [Store.value, hp, Option.some.injEq] at h1
      rw [h1]; exact h2
    · obtain ⟨v, h1, h2⟩ := hr.getValue hq
      simp only [Store.value, hq, Option.some.injEq] at h1
      rw [h1]; exact h2
    · obtain ⟨v, h1, h2⟩ := hr.getValue hj
      simp only [Store.value, hj, Store.pointAt, hp, hq, Option.some.injEq] at h1
      rw [h1]; exact h2
  · intro j p q hj
    obtain ⟨⟨x0, y0, hp⟩, ⟨r, hq⟩⟩ := hr.wfElem j _ hj
    refine ⟨x0, y0, r, ?_, ?_, ?_⟩
    · obtain ⟨v, h1, h2⟩ := hr.getValue hp
      simp only [Store.value, hp, Option.some.injEq] at h1
      rw [h1]; exact h2
    · obtain ⟨v, h1, h2⟩ := hr.getValue hq
      simp only [Store.value, hq, Option.some.injEq] at h1
      rw [h1]; exact h2
    · obtain ⟨v, h1, h2⟩ := hr.getValue hj
      simp only [Store.value, hj, Store.pointAt, Store.lengthAt, hp, hq, Option.some.injEq] at h1
      rw [h1]; exact h2

/-- C07 (points): `update_value` on an issued point handle succeeds; the point reads the new value; every other point and length
reads as before; lines and circles read as assembled from the (new) values of their parts; nothing but values is changed. -/
theorem C07_update_point {counter : Nat} {ops : List (Op F)} {c : Client F} (h : Reaches counter ops c) {i : Nat} {hd : Handle}
    (hh : c.elemHandles[i]? = some hd) (hk : (ops.filterMap Op.createdElement)[i]? = some .point) (x y : F) :
    ∃ s', c.sys.updatePoint hd x y = .ok s' ∧ s'.getValue .point hd = .ok (.point x y) ∧
      (∀ (j : Nat) (hj : Handle) (kind tag : ElementTag), c.elemHandles[j]? = some hj → j ≠ i →
        (ops.filterMap Op.createdElement)[j]? = some kind → kind = .point ∨ kind = .length →
        s'.getValue tag hj = c.sys.getValue tag hj) ∧
      Assembled s' ((Store.empty F).run ops) ∧ s' = { c.sys with vars := s'.vars } := by
  have hr := h.crel
  have hkk := run_elems_kind _ ops h.legal
  simp only [Store.empty, List.map_nil, List.nil_append] at hkk
  rw [show (⟨[], [], ∅⟩ : Store F) = Store.empty F from rfl] at hkk
  rw [← hkk, List.getElem?_map, Option.map_eq_some_iff] at hk
  obtain ⟨e, he, hke⟩ := hk
  rw [hr.elemHandle (lt_of_getElem? he)] at hh
  cases hh
  cases e <;> simp [Elem.kind] at hke
  rename_i x0 y0
  have hs : SameShape (.point x0 y0) (.point x y) := trivial
  have hr' := hr.rel.reshape (forall₂_set he hs)
  refine ⟨_, hr.rel.updatePoint ⟨_, _, he⟩ c.sys.id x y, ?_, ?_, ?_, rfl⟩
  · have hi' : (((Store.empty F).run ops).elems.set i (.point x y))[i]? = some (.point x y) := by
      rw [List.getElem?_set, if_pos rfl, if_pos (lt_of_getElem? he)]
    obtain ⟨v, h1, h2⟩ := hr'.getValue (i := i) hi'
    simp only [Store.value, hi', Option.some.injEq] at h1
    rw [h1]; exact h2
  · intro j hj kind tag hhj hne hkj hprim
    rw [← hkk, List.getElem?_map, Option.map_eq_some_iff] at hkj
    obtain ⟨ej, hej, hkej⟩ := hkj
    rw [hr.elemHandle (lt_of_getElem? hej)] at hhj
    cases hhj
    exact read_primitive_set hr.rel he hs hr' rfl hej (fun h => hne h.symm) (by rw [hkej]; exact hprim) tag
  · have hset : ∀ (j : Nat) {e : Elem F}, ((Store.empty F).run ops).elems[j]? = some e → (e.kind = .line ∨ e.kind = .circle) →
        (((Store.empty F).run ops).elems.set i (.point x y))[j]? = some e := by
      intro j e hj hkj
      rw [List.getElem?_set, if_neg]
      · exact hj
      · intro hij
        subst hij
        rw [he] at hj
        cases hj
        simp [Elem.kind] at hkj
    exact ⟨fun j p q hj => hr'.assembled.1 j p q (hset j hj (.inl rfl)), fun j p q hj => hr'.assembled.2 j p q (hset j hj (.inr rfl))⟩

/-- C07 (lengths). -/
theorem C07_update_length {counter : Nat} {ops : List (Op F)} {c : Client F} (h : Reaches counter ops c) {i : Nat} {hd : Handle}
    (hh : c.elemHandles[i]? = some hd) (hk : (ops.filterMap Op.createdElement)[i]? = some .length) (x : F) :
    ∃ s', c.sys.updateLength hd x = .ok s' ∧ s'.getValue .length hd = .ok (.length x) ∧
      (∀ (j : Nat) (hj : Handle) (kind tag : ElementTag), c.elemHandles[j]? = some hj → j ≠ i →
        (ops.filterMap Op.createdElement)[j]? = some kind → kind = .point ∨ kind = .length →
        s'.getValue tag hj = c.sys.getValue tag hj) ∧
      Assembled s' ((Store.empty F).run ops) ∧ s' = { c.sys with vars := s'.vars } := by
  have hr := h.crel
  have hkk := run_elems_kind _ ops h.legal
  simp only [Store.empty, List.map_nil, List.nil_append] at hkk
  rw [show (⟨[], [], ∅⟩ : Store F) = Store.empty F from rfl] at hkk
  rw [← hkk, List.getElem?_map, Option.map_eq_some_iff] at hk
  obtain ⟨e, he, hke⟩ := hk
  rw [hr.elemHandle (lt_of_getElem? he)] at hh
  cases hh
  cases e <;> simp [Elem.kind] at hke
  rename_i x0
  have hs : SameShape (.length x0) (.length x) := trivial
  have hr' := hr.rel.reshape (forall₂_set he hs)
  refine ⟨_, hr.rel.updateLength ⟨_, he⟩ c.sys.id x, ?_, ?_, ?_, rfl⟩
  · have hi' : (((Store.empty F).run ops).elems.set i (.length x))[i]? = some (.length x) := by
      rw [List.getElem?_set, if_pos rfl, if_pos (lt_of_getElem? he)]
    obtain ⟨v, h1, h2⟩ := hr'.getValue (i := i) hi'
    simp only [Store.value, hi', Option.some.injEq] at h1
    rw [h1]; exact h2
  · intro j hj kind tag hhj hne hkj hprim
    rw [← hkk, List.getElem?_map, Option.map_eq_some_iff] at hkj
    obtain ⟨ej, hej, hkej⟩ := hkj
    rw [hr.elemHandle (lt_of_getElem? hej)] at hhj
    cases hhj
    exact read_primitive_set hr.rel he hs hr' rfl hej (fun h => hne h.symm) (by rw [hkej]; exact hprim) tag
  · have hset : ∀ (j : Nat) {e : Elem F}, ((Store.empty F).run ops).elems[j]? = some e → (e.kind = .line ∨ e.kind = .circle) →
        (((Store.empty F).run ops).elems.set i (.length x))[j]? = some e := by
      intro j e hj hkj
      rw [List.getElem?_set, if_neg]
      · exact hj
      · intro hij
        subst hij
        rw [he] at hj
        cases hj
        simp [Elem.kind] at hkj
    exact ⟨fun j p q hj => hr'.assembled.1 j p q (hset j hj (.inl rfl)), fun j p q hj => hr'.assembled.2 j p q (hset j hj (.inr rfl))⟩

example : (demoOps.filterMap Op.createdElement)[1]? = some .point ∧ (demoOps.filterMap Op.createdElement)[3]? = some .length :=
  ⟨rfl, rfl⟩

/-! ## C08 -/

section
variable [Add F] [Sub F] [Mul F] [Div F] [Neg F] [Zero F] [One F] [FloatOps F]

/-- C08: `update_parameter` succeeds; the residual of the constraint is from then on that of a constraint created on the same
elements with the new parameter; the residual of every other constraint, and every value, is as before; the elements, the fixed
set, the constraint kinds and the graphs are unchanged. -/
theorem C08_update_parameter {counter : Nat} {ops : List (Op F)} {c : Client F} (h : Reaches counter ops c) {i : Nat} {hd : Handle}
    (hh : c.conHandles[i]? = some hd) {con con' : Con F} (hcon : ((Store.empty F).run ops).cons[i]? = some con) {v : F}
    (hv : con.withParameter v = some con') :
    ∃ s', c.sys.updateParameter con.kind hd v = .ok s' ∧
      (∃ hd2 s2 r, c.createCon con' = .ok (hd2, s2) ∧ s2.calculateResidual con.kind hd2 = .ok r ∧
        s'.calculateResidual con.kind hd = .ok r) ∧
      (∀ (j : Nat) (hj : Handle) (tag : ConstraintTag), c.conHandles[j]? = some hj → j ≠ i →
        (ops.filterMap Op.createdConstraint)[j]? = some tag →
        s'.calculateResidual tag hj = c.sys.calculateResidual tag hj) ∧
      s'.getConstraintHandles = c.sys.getConstraintHandles ∧
      (∀ tag hd, s'.getValue tag hd = c.sys.getValue tag hd) ∧ s' = { c.sys with expressions := s'.expressions } := by
  have hr := h.crel
  rw [hr.conHandle (lt_of_getElem? hcon)] at hh
  cases hh
  obtain ⟨s', h1, h2, h3, h4⟩ := hr.rel.updateParameter hcon hv c.sys.id
  have hs' : s' = { c.sys with expressions := s'.expressions } := by
    unfold System.updateParameter at h1
    simp only [bind_eq_ok] at h1
    obtain ⟨ec, -, e, -, h1⟩ := h1
    split at h1
    all_goals
      first
        | (simp only [bind_eq_ok, pure_eq_ok, Except.ok.injEq] at h1
           obtain ⟨es, -, h1⟩ := h1
           subst h1; rfl)
        | simp at h1
  have hcon'k : con'.kind = con.kind := by
    obtain ⟨-, -, -, -, -, hk⟩ := encCon_withParameter ([] : List (Elem F)) hv
    exact hk
  have hok' : ((Store.empty F).run ops).ConOk con' := ConOk_withParameter hv (hr.rel.wfCon con (List.mem_of_getElem? hcon))
  have hlt := lt_of_getElem? hcon
  refine ⟨s', h1, ?_, ?_, ?_, ?_, hs'⟩
  · obtain ⟨s2, a1, a2, a3⟩ := hr.createCon h.size.2 hok'
    have g1 : (((Store.empty F).run ops).cons ++ [con'])[((Store.empty F).run ops).cons.length]? = some con' := by simp
    obtain ⟨r, b1, b2⟩ := a3.residualOf g1
    have g2 : (((Store.empty F).run ops).cons.set i con')[i]? = some con' := by
      rw [List.getElem?_set, if_pos rfl, if_pos hlt]
    obtain ⟨r', b1', b2'⟩ := h4.residualOf g2
    have hsr : storeResidual { ((Store.empty F).run ops) with cons := ((Store.empty F).run ops).cons ++ [con'] } con' =
        storeResidual { ((Store.empty F).run ops) with cons := ((Store.empty F).run ops).cons.set i con' } con' := by
      cases con' <;> rfl
    rw [hsr, b1', Except.ok.injEq] at b1
    subst b1
    refine ⟨⟨c.sys.id, ((Store.empty F).run ops).cons.length⟩, s2, r', a1, ?_, ?_⟩
    · unfold System.calculateResidual
      rw [if_neg (by simp [a2]), ← hcon'k]
      exact b2
    · unfold System.calculateResidual
      rw [if_neg (by simp [h2]), ← hcon'k]
      exact b2'
  · intro j hj tag hhj hne htag
    have hkk := run_cons_kind _ ops h.legal
    simp only [Store.empty, List.map_nil, List.nil_append] at hkk
    rw [show (⟨[], [], ∅⟩ : Store F) = Store.empty F from rfl] at hkk
    rw [← hkk, List.getElem?_map, Option.map_eq_some_iff] at htag
    obtain ⟨cj, hcj, rfl⟩ := htag
    rw [hr.conHandle (lt_of_getElem? hcj)] at hhj
    cases hhj
    have g2 : (((Store.empty F).run ops).cons.set i con')[j]? = some cj := by
      rw [List.getElem?_set, if_neg (fun h => hne h.symm)]; exact hcj
    obtain ⟨r, b1, b2⟩ := hr.rel.residualOf hcj
    obtain ⟨r', b1', b2'⟩ := h4.residualOf g2
    have hsr : storeResidual { ((Store.empty F).run ops) with cons := ((Store.empty F).run ops).cons.set i con' } cj =
        storeResidual ((Store.empty F).run ops) cj := by
      cases cj <;> rfl
    rw [hsr, b1, Except.ok.injEq] at b1'
    subst b1'
    unfold System.calculateResidual
    rw [if_neg (by simp [h2]), if_neg (by simp), b2, b2']
  · rw [hs']; rfl
  · intro tag hd
    rw [hs']; rfl

end

example : ((Store.empty Int).run demoOps).cons[0]? = some (.pointPointDistance 0 1 8) ∧
    (Con.pointPointDistance 0 1 8 : Con Int).withParameter 3 = some (.pointPointDistance 0 1 3) := ⟨rfl, rfl⟩

/-! ## C09 -/

/-- C09 (meaning): after every history the fixed variables are exactly the degrees of freedom of the points and lengths that the
history fixed and did not free again: a variable of element `i` (its coordinates, number `k` of all variables) is fixed exactly
when `i` is in the fixed set of the specification, whose `fix`/`unfix` are union/difference with the element's own parts. -/
theorem C09_fixed_set {counter : Nat} {ops : List (Op F)} {c : Client F} (h : Reaches counter ops c) {i : Nat} {e : Elem F}
    (he : ((Store.empty F).run ops).elems[i]? = some e) (hp : e.kind = .point ∨ e.kind = .length) :
    ∃ vs, (do let enc ← idx c.sys.elements i; elementVariableIndices e.kind enc) = .ok vs ∧ vs ≠ [] ∧
      ∀ k ∈ vs, (k ∈ c.sys.fixedVariables ↔ i ∈ ((Store.empty F).run ops).fixed) := by
  have hr := h.crel.rel
  obtain ⟨vs, h1, h2⟩ := hr.elementVariables he
  refine ⟨vs, ?_, ?_, ?_⟩
  · rw [idx_of (hr.element_at he), ok_bind, h1]
  · cases e <;> simp [Elem.kind] at hp <;> simp only [Elem.kind, encElem, elementVariableIndices, Except.ok.injEq] at h1 <;>
      subst h1 <;> simp
  · intro k hk
    obtain ⟨p, hp1, hp2⟩ := (h2 k).1 hk
    have hpi : p = i := by
      cases e <;> simp [Elem.kind] at hp <;> simp only [Store.primitives, he, Finset.mem_singleton] at hp1 <;> exact hp1
    subst hpi
    rw [hr.fixed k]
    constructor
    · rintro ⟨q, hq1, hq2⟩
      rw [hp2] at hq2
      cases hq2
      exact hq1
    · exact fun hq => ⟨p, hq, hp2⟩

/-- C09 (frame): fixing or unfixing changes nothing but the fixed set. -/
theorem C09_fix_only_fixes (s s' : System F) (tag : ElementTag) (hd : Handle)
    (h : s.fix tag hd = .ok s' ∨ s.unfix tag hd = .ok s') : s' = { s with fixedVariables := s'.fixedVariables } := by
  rcases h with h | h
  · simp only [System.fix, bind_eq_ok, pure_eq_ok, Except.ok.injEq] at h
    obtain ⟨_, _, _, _, rfl⟩ := h
    rfl
  · simp only [System.unfix, bind_eq_ok, pure_eq_ok, Except.ok.injEq] at h
    obtain ⟨_, _, _, _, rfl⟩ := h
    rfl

/-- C09 (idempotence): for any system and handle, fixing twice is fixing once, unfixing twice is unfixing once. -/
theorem C09_idempotent (s s' : System F) (tag : ElementTag) (hd : Handle) :
    (s.fix tag hd = .ok s' → s'.fix tag hd = .ok s') ∧ (s.unfix tag hd = .ok s' → s'.unfix tag hd = .ok s') := by
  constructor
  · intro h
    simp only [System.fix, bind_eq_ok, pure_eq_ok, Except.ok.injEq] at h
    obtain ⟨e, h1, vs, h2, rfl⟩ := h
    simp only [System.fix, h1, h2, ok_bind, pure_eq_ok]
    simp [Finset.union_assoc]
  · intro h
    simp only [System.unfix, bind_eq_ok, pure_eq_ok, Except.ok.injEq] at h
    obtain ⟨e, h1, vs, h2, rfl⟩ := h
    simp only [System.unfix, h1, h2, ok_bind, pure_eq_ok]
    congr 2
    ext k
    simp only [mem_foldl_erase]
    tauto

/-- C09 (commutation): fixing two elements in either order gives the same system. -/
theorem C09_fix_commutes (s : System F) (t1 t2 : ElementTag) (h1 h2 : Handle) (s1 s2 : System F)
    (a : s.fix t1 h1 = .ok s1) (b : s.fix t2 h2 = .ok s2) : ∃ s12, s1.fix t2 h2 = .ok s12 ∧ s2.fix t1 h1 = .ok s12 := by
  simp only [System.fix, bind_eq_ok, pure_eq_ok, Except.ok.injEq] at a b
  obtain ⟨e1, a1, vs1, a2, rfl⟩ := a
  obtain ⟨e2, b1, vs2, b2, rfl⟩ := b
  refine ⟨{ s with fixedVariables := s.fixedVariables ∪ vs1.toFinset ∪ vs2.toFinset }, ?_, ?_⟩
  · simp only [System.fix, b1, b2, ok_bind, pure_eq_ok]
  · simp only [System.fix, a1, a2, ok_bind, pure_eq_ok]
    congr 2
    ext k
    simp only [Finset.mem_union]
    tauto

/-- C09 (shared end points): unfixing one of two fixed lines that share an end point also frees the shared end point; the other
end point of the other line stays fixed. -/
theorem C09_unfix_frees_shared (st : Store F) {l m p q r : Nat} (hl : st.elems[l]? = some (.line p q))
    (hm : st.elems[m]? = some (.line q r)) (hr : r ≠ p) (hqr : r ≠ q) :
    q ∉ (((st.step (.fix .line l)).step (.fix .line m)).step (.unfix .line l)).fixed ∧
    r ∈ (((st.step (.fix .line l)).step (.fix .line m)).step (.unfix .line l)).fixed := by
  simp [Store.step, Store.primitives, hl, hm, hr, hqr]

example : ∃ c : Client Int, Reaches 7 demoOps c ∧ 0 ∈ ((Store.empty Int).run demoOps).fixed ∧
    3 ∉ ((Store.empty Int).run demoOps).fixed := by
  obtain ⟨c, h⟩ := demo_reaches
  exact ⟨c, h, by decide, by decide⟩

/-! ## C10 -/

/-- C10 (equality): the handles issued in two histories of systems with ids `k` and `k'` are equal (as typed handles and, whatever
their kinds, as untyped handles) exactly when they are the same element of the same system. -/
theorem C10_handle_identity {k k' : Nat} {ops ops' : List (Op F)} {c c' : Client F} (h : Reaches k ops c) (h' : Reaches k' ops' c')
    {i j : Nat} {a b : Handle} (ha : c.elemHandles[i]? = some a) (hb : c'.elemHandles[j]? = some b) (ta tb : ElementTag) :
    (a = b ↔ k = k' ∧ i = j) ∧ ((asAnyElement ta a).eqB (asAnyElement tb b) = true ↔ k = k' ∧ i = j) := by
  have hr := h.crel
  have hr' := h'.crel
  have hi : i < ((Store.empty F).run ops).elems.length := by
    have := lt_of_getElem? ha; rw [hr.elemHandles] at this; simpa using this
  have hj : j < ((Store.empty F).run ops').elems.length := by
    have := lt_of_getElem? hb; rw [hr'.elemHandles] at this; simpa using this
  rw [hr.elemHandle hi, h.sysId] at ha
  rw [hr'.elemHandle hj, h'.sysId] at hb
  cases ha
  cases hb
  simp [AnyElementHandle.eqB, asAnyElement]

/-- C10 (equality) for constraint handles. -/
theorem C10_constraint_handle_identity {k k' : Nat} {ops ops' : List (Op F)} {c c' : Client F} (h : Reaches k ops c)
    (h' : Reaches k' ops' c') {i j : Nat} {a b : Handle} (ha : c.conHandles[i]? = some a) (hb : c'.conHandles[j]? = some b)
    (ta tb : ConstraintTag) :
    (a = b ↔ k = k' ∧ i = j) ∧ ((asAnyConstraint ta a).eqB (asAnyConstraint tb b) = true ↔ k = k' ∧ i = j) := by
  have hr := h.crel
  have hr' := h'.crel
  have hi : i < ((Store.empty F).run ops).cons.length := by
    have := lt_of_getElem? ha; rw [hr.conHandles] at this; simpa using this
  have hj : j < ((Store.empty F).run ops').cons.length := by
    have := lt_of_getElem? hb; rw [hr'.conHandles] at this; simpa using this
  rw [hr.conHandle hi, h.sysId] at ha
  rw [hr'.conHandle hj, h'.sysId] at hb
  cases ha
  cases hb
  simp [AnyConstraintHandle.eqB, asAnyConstraint]

/-- C10 (`as_id`): for `u32` ids the opaque identifier fits `u64` and is injective; it orders handles as `Ord` does. -/
theorem C10_as_id_injective (a b : AnyElementHandle) (ha : a.systemId < 2 ^ 32 ∧ a.id < 2 ^ 32)
    (hb : b.systemId < 2 ^ 32 ∧ b.id < 2 ^ 32) :
    a.asId < 2 ^ 64 ∧ (a.asId = b.asId ↔ a.systemId = b.systemId ∧ a.id = b.id) ∧ (a.asId < b.asId ↔ a.cmp b = .lt) := by
  have e : ∀ n : Nat, n <<< 32 = n * 2 ^ 32 := fun n => Nat.shiftLeft_eq n 32
  simp only [AnyElementHandle.asId, e]
  obtain ⟨h1, h2⟩ := ha
  obtain ⟨h3, h4⟩ := hb
  refine ⟨by omega, by omega, ?_⟩
  unfold AnyElementHandle.cmp
  rcases Nat.lt_trichotomy a.systemId b.systemId with hlt | heq | hgt
  · rw [Nat.compare_eq_lt.2 hlt]
    simp only [Ordering.then, iff_true]
    omega
  · rw [Nat.compare_eq_eq.2 heq]
    simp only [Ordering.then, Nat.compare_eq_lt]
    omega
  · rw [Nat.compare_eq_gt.2 hgt]
    simp only [Ordering.then, reduceCtorEq, iff_false]
    omega

example : (⟨1, 2, .point⟩ : AnyElementHandle).asId = 4294967298 := rfl

/-- The ids of the systems made by `n` successive calls of `System::new`, starting from a counter. -/
def newIds (F : Type) : Nat → Nat → List Nat
  | _, 0 => []
  | counter, n + 1 => (System.new F counter).1.id :: newIds F (System.new F counter).2 n

theorem newIds_get (counter n i : Nat) (hc : counter < 2 ^ 32) (hi : i < n) :
    (newIds F counter n)[i]? = some ((counter + i) % 2 ^ 32) := by
  induction n generalizing counter i with
  | zero => omega
  | succ n ih =>
    cases i with
    | zero => simp only [newIds, System.new, List.getElem?_cons_zero, Option.some.injEq]; omega
    | succ i =>
      simp only [newIds, List.getElem?_cons_succ]
      rw [ih _ i (by simp only [System.new]; omega) (by omega)]
      simp only [System.new, Option.some.injEq]
      omega

/-- C10 (systems): at most `2^32` successive systems have pairwise different ids, so handles of different systems never collide. -/
theorem C10_systems_distinct (counter n i j : Nat) (hc : counter < 2 ^ 32) (hn : n ≤ 2 ^ 32) (hi : i < n) (hj : j < n) :
    (newIds F counter n)[i]? = (newIds F counter n)[j]? ↔ i = j := by
  rw [newIds_get counter n i hc hi, newIds_get counter n j hc hj]
  constructor
  · intro h
    simp only [Option.some.injEq] at h
    omega
  · intro h; rw [h]

/-- C10 (the bound is sharp): system number `2^32` has the id of the first one (the counter wraps), so from then on handles of
different systems can be confused. -/
theorem C10_ids_wrap (counter n : Nat) (hc : counter < 2 ^ 32) (hn : 2 ^ 32 < n) :
    (newIds F counter n)[0]? = (newIds F counter n)[2 ^ 32]? := by
  rw [newIds_get counter n 0 hc (by omega), newIds_get counter n (2 ^ 32) hc hn]
  simp only [Option.some.injEq]
  omega

/-! ## C11 -/

/-- C11: converting a typed handle to an untyped one and back gives the handle and its kind; and the other way round. -/
theorem C11_conversions_lossless (t : ElementTag) (ct : ConstraintTag) (h : Handle) (a : AnyElementHandle) (ca : AnyConstraintHandle) :
    (asAnyElement t h).asTaggedElement = (t, h) ∧ (asAnyConstraint ct h).asTaggedConstraint = (ct, h) ∧
    asAnyElement a.asTaggedElement.1 a.asTaggedElement.2 = a ∧
    asAnyConstraint ca.asTaggedConstraint.1 ca.asTaggedConstraint.2 = ca := by
  refine ⟨by cases t <;> rfl, by cases ct <;> rfl, ?_, ?_⟩
  · rcases a with ⟨s, i, t⟩; cases t <;> rfl
  · rcases ca with ⟨s, i, t⟩; cases t <;> rfl

/-- C11: reads through the untyped handle equal reads through the typed handle, for every system and handle. -/
theorem C11_untyped_reads [Add F] [Sub F] [Mul F] [Div F] [Neg F] [Zero F] [One F] [FloatOps F] (s : System F) (t : ElementTag)
    (ct : ConstraintTag) (h : Handle) :
    s.getValueAny (asAnyElement t h) = s.getValue t h ∧
    s.calculateResidualAny (asAnyConstraint ct h) = s.calculateResidual ct h := by
  refine ⟨?_, rfl⟩
  unfold System.getValueAny System.getValue asAnyElement
  cases t <;> rfl

/-! ## C18 -/

/-- C18 (expressions → variables): after every history the equation graph lists for each expression the variables it reads, and
these are variables of the system. -/
theorem C18_expression_variables {counter : Nat} {ops : List (Op F)} {c : Client F} (h : Reaches counter ops c) :
    c.sys.equationGraph.expressions.length = c.sys.expressions.length ∧
    c.sys.equationGraph.vars.length = c.sys.vars.length ∧
    ∀ (k : Nat) (e : Expr F), c.sys.expressions[k]? = some e →
      c.sys.equationGraph.expressions[k]? = some e.variableIndices ∧ ∀ v ∈ e.variableIndices, v < c.sys.vars.length := by
  have hr := h.crel.rel
  refine ⟨by rw [hr.eqGraph.expressions]; simp, hr.eqGraph.varsLength, ?_⟩
  intro k e he
  refine ⟨by rw [hr.eqGraph.expressions, List.getElem?_map, he]; rfl, fun v hv => hr.expr_lt (List.mem_of_getElem? he) hv⟩

theorem mem_usesOf (exprs : List (Expr F)) (v k : Nat) :
    (usesOf exprs v).count k = match exprs[k]? with | some e => e.variableIndices.count v | none => 0 := by
  induction exprs using List.reverseRecOn with
  | nil => simp [usesOf]
  | append_singleton exprs e ih =>
    rw [usesOf_append, List.count_append, ih, List.count_replicate]
    rcases Nat.lt_trichotomy k exprs.length with hlt | heq | hgt
    · rw [List.getElem?_append_left hlt]
      have : (exprs.length == k) = false := by simp; omega
      simp [this]
    · subst heq
      simp
    · have h1 : exprs[k]? = none := List.getElem?_eq_none (by omega)
      have h2 : (exprs ++ [e])[k]? = none := List.getElem?_eq_none (by simp; omega)
      have : (exprs.length == k) = false := by simp; omega
      simp [h1, h2, this]

theorem usesOf_sorted (exprs : List (Expr F)) (v : Nat) : (usesOf exprs v).Pairwise (· ≤ ·) ∧ ∀ k ∈ usesOf exprs v, k < exprs.length := by
  induction exprs using List.reverseRecOn with
  | nil => simp [usesOf]
  | append_singleton exprs e ih =>
    rw [usesOf_append]
    refine ⟨?_, ?_⟩
    · rw [List.pairwise_append]
      refine ⟨ih.1, by rw [List.pairwise_replicate]; simp, ?_⟩
      intro a ha b hb
      rw [List.mem_replicate] at hb
      have := ih.2 a ha
      omega
    · intro k hk
      rw [List.mem_append, List.mem_replicate] at hk
      rw [List.length_append]
      rcases hk with hk | hk
      · have := ih.2 k hk; simp; omega
      · simp [hk.2]

/-- C18 (variables → expressions): the graph lists for each variable exactly the expressions that read it (as often as they read
it), in creation order. -/
theorem C18_variable_expressions {counter : Nat} {ops : List (Op F)} {c : Client F} (h : Reaches counter ops c) {v : Nat}
    (hv : v < c.sys.vars.length) :
    ∃ l, c.sys.equationGraph.vars[v]? = some l ∧ l.Pairwise (· ≤ ·) ∧
      ∀ k, l.count k = match c.sys.expressions[k]? with | some e => e.variableIndices.count v | none => 0 := by
  have hr := h.crel.rel
  exact ⟨_, hr.eqGraph.vars v hv, (usesOf_sorted _ _).1, mem_usesOf _ _⟩

/-- C18 (the listed variables are the ones that matter): two assignments that agree on the variables listed for an expression give
the same residual. -/
theorem C18_residual_depends_only_on_listed [Add F] [Sub F] [Mul F] [Div F] [Neg F] [Zero F] [One F] [FloatOps F] (e : Expr F)
    (get get' : Nat → R (Variable F)) (h : ∀ v ∈ e.variableIndices, get v = get' v) :
    e.calculateResidual get = e.calculateResidual get' := by
  unfold Expr.calculateResidual
  have : ∀ l : List Nat, (∀ v ∈ l, get v = get' v) →
      l.mapM (fun i => do let v ← get i; pure v.value : Nat → R F) = l.mapM (fun i => do let v ← get' i; pure v.value) := by
    intro l hl
    induction l with
    | nil => rfl
    | cons a l ih =>
      rw [List.mapM_cons, List.mapM_cons, hl a (by simp), ih (fun v hv => hl v (by simp [hv]))]
  rw [this _ h]

/-- C18 (links to constraints): the expressions of constraint number `i` are contiguous and each records constraint `i` as its
owner; every expression belongs to a constraint. -/
theorem C18_expression_owner {counter : Nat} {ops : List (Op F)} {c : Client F} (h : Reaches counter ops c) :
    c.sys.expressionToConstraint.length = c.sys.expressions.length ∧
    ∀ (i : Nat) (ec : EncodedConstraint), c.sys.constraints[i]? = some ec → ∀ j, j < ec.tag.valency →
      c.sys.expressionToConstraint[ec.expressionsIdx + j]? = some i := by
  have hr := h.crel.rel
  set st := (Store.empty F).run ops with hst
  have hlen : ∀ (l : List (Con F)) (k : Nat), ((l.zipIdx k).flatMap (fun ci => List.replicate ci.1.kind.valency ci.2)).length =
      (l.flatMap (encCon st.elems)).length := by
    intro l
    induction l with
    | nil => intro k; rfl
    | cons a l ih => intro k; simp [List.zipIdx_cons, ih (k + 1), encCon_length]
  have htake : ∀ (l : List (Con F)) (k i : Nat),
      (((l.zipIdx k).take i).flatMap (fun ci => List.replicate ci.1.kind.valency ci.2)).length =
      ((l.take i).flatMap (encCon st.elems)).length := by
    intro l
    induction l with
    | nil => intro k i; simp
    | cons a l ih =>
      intro k i
      cases i with
      | zero => simp
      | succ i => simp [List.zipIdx_cons, ih (k + 1) i, encCon_length]
  refine ⟨by rw [hr.exprCon, hr.exprs, hlen], ?_⟩
  intro i ec hec j hj
  rw [hr.constraints, List.getElem?_mapIdx, Option.map_eq_some_iff] at hec
  obtain ⟨con, hcon, rfl⟩ := hec
  simp only at hj ⊢
  rw [hr.exprCon, ← htake st.cons 0 i]
  have hz : st.cons.zipIdx[i]? = some (con, i) := by simp [List.getElem?_zipIdx, hcon]
  rw [flatMap_getElem? (fun ci : Con F × Nat => List.replicate ci.1.kind.valency ci.2) st.cons.zipIdx i j (con, i) hz
    (by simpa using hj)]
  simp [hj]

end Fiksi
