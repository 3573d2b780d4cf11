import Verif.Proofs.Refine
/-!
# Every call of the API follows the specification store
-/
namespace Fiksi

open Spec

variable {F : Type}

/-! ## Changing values -/

section reshape
variable {es es' : List (Elem F)}

theorem SameShape.values_length {e e' : Elem F} (h : SameShape e e') : (elemValues e').length = (elemValues e).length := by
  cases e <;> cases e' <;> simp_all [SameShape, elemValues]

theorem SameShape.refl (e : Elem F) : SameShape e e := by
  cases e <;> simp [SameShape]

theorem SameShape.symm {e e' : Elem F} (h : SameShape e e') : SameShape e' e := by
  cases e <;> cases e' <;> simp_all [SameShape]

theorem forall₂_shape_refl (es : List (Elem F)) : List.Forall₂ SameShape es es := by
  induction es with
  | nil => exact .nil
  | cons e es ih => exact .cons (SameShape.refl e) ih

theorem forall₂_shape_symm (h : List.Forall₂ SameShape es es') : List.Forall₂ SameShape es' es := by
  induction h with
  | nil => exact .nil
  | cons h _ ih => exact .cons (SameShape.symm h) ih

theorem forall₂_set {i : Nat} {e e' : Elem F} (h : es[i]? = some e) (hs : SameShape e e') :
    List.Forall₂ SameShape es (es.set i e') := by
  induction es generalizing i with
  | nil => exact .nil
  | cons a es ih =>
    cases i with
    | zero =>
      simp only [List.getElem?_cons_zero, Option.some.injEq] at h
      exact .cons (h ▸ hs) (forall₂_shape_refl es)
    | succ i =>
      simp only [List.getElem?_cons_succ] at h
      exact .cons (SameShape.refl a) (ih h)

theorem off_reshape (h : List.Forall₂ SameShape es es') (i : Nat) : off es' i = off es i := by
  induction h generalizing i with
  | nil => rfl
  | cons h _ ih =>
    cases i with
    | zero => rfl
    | succ i =>
      have := ih i
      simp only [off, List.take_succ_cons, List.flatMap_cons, List.length_append, SameShape.values_length h] at this ⊢
      omega

theorem forall₂_get (h : List.Forall₂ SameShape es es') {i : Nat} {e : Elem F} (he : es[i]? = some e) :
    ∃ e', es'[i]? = some e' ∧ SameShape e e' := by
  induction h generalizing i with
  | nil => simp at he
  | cons h _ ih =>
    cases i with
    | zero =>
      simp only [List.getElem?_cons_zero, Option.some.injEq] at he ⊢
      exact ⟨_, rfl, he ▸ h⟩
    | succ i =>
      simp only [List.getElem?_cons_succ] at he ⊢
      exact ih he

theorem owners_reshape_aux (h : List.Forall₂ SameShape es es') (k : Nat) :
    (es'.zipIdx k).flatMap (fun ei => List.replicate (elemValues ei.1).length ei.2) =
    (es.zipIdx k).flatMap (fun ei => List.replicate (elemValues ei.1).length ei.2) := by
  induction h generalizing k with
  | nil => rfl
  | cons h _ ih => simp only [List.zipIdx_cons, List.flatMap_cons, SameShape.values_length h, ih (k + 1)]

theorem owners_reshape (h : List.Forall₂ SameShape es es') : owners es' = owners es := owners_reshape_aux h 0

theorem encElem_reshape (h : List.Forall₂ SameShape es es') {e e' : Elem F} (he : SameShape e e') (i : Nat) :
    encElem es' i e' = encElem es i e := by
  cases e <;> cases e' <;> simp_all [SameShape, encElem, off_reshape h]

theorem lineOff_reshape (h : List.Forall₂ SameShape es es') (l : Nat) : lineOff es' l = lineOff es l := by
  unfold lineOff
  cases he : es[l]? with
  | none =>
    have : es'[l]? = none := by
      rw [List.getElem?_eq_none_iff] at he ⊢
      rw [← h.length_eq]; exact he
    rw [this]
  | some e =>
    obtain ⟨e', he', hs⟩ := forall₂_get h he
    rw [he']
    cases e <;> cases e' <;> simp_all [SameShape, off_reshape h]

theorem circOff_reshape (h : List.Forall₂ SameShape es es') (l : Nat) : circOff es' l = circOff es l := by
  unfold circOff
  cases he : es[l]? with
  | none =>
    have : es'[l]? = none := by
      rw [List.getElem?_eq_none_iff] at he ⊢
      rw [← h.length_eq]; exact he
    rw [this]
  | some e =>
    obtain ⟨e', he', hs⟩ := forall₂_get h he
    rw [he']
    cases e <;> cases e' <;> simp_all [SameShape, off_reshape h]

theorem encCon_reshape (h : List.Forall₂ SameShape es es') : encCon es' = encCon (F := F) es := by
  funext c
  cases c <;> simp only [encCon, off_reshape h, lineOff_reshape h, circOff_reshape h]

variable {st : Store F}

theorem IsPoint_reshape (h : List.Forall₂ SameShape st.elems es') {i : Nat} (hi : st.IsPoint i) :
    Store.IsPoint { st with elems := es' } i := by
  obtain ⟨x, y, hi⟩ := hi
  obtain ⟨e', he', hs⟩ := forall₂_get h hi
  cases e' <;> simp only [SameShape] at hs
  exact ⟨_, _, he'⟩

theorem IsLength_reshape (h : List.Forall₂ SameShape st.elems es') {i : Nat} (hi : st.IsLength i) :
    Store.IsLength { st with elems := es' } i := by
  obtain ⟨x, hi⟩ := hi
  obtain ⟨e', he', hs⟩ := forall₂_get h hi
  cases e' <;> simp only [SameShape] at hs
  exact ⟨_, he'⟩

theorem IsLine_reshape (h : List.Forall₂ SameShape st.elems es') {i : Nat} (hi : st.IsLine i) :
    Store.IsLine { st with elems := es' } i := by
  obtain ⟨x, y, hi⟩ := hi
  obtain ⟨e', he', hs⟩ := forall₂_get h hi
  cases e' <;> simp only [SameShape] at hs
  exact ⟨_, _, he'⟩

theorem IsCircle_reshape (h : List.Forall₂ SameShape st.elems es') {i : Nat} (hi : st.IsCircle i) :
    Store.IsCircle { st with elems := es' } i := by
  obtain ⟨x, y, hi⟩ := hi
  obtain ⟨e', he', hs⟩ := forall₂_get h hi
  cases e' <;> simp only [SameShape] at hs
  exact ⟨_, _, he'⟩

theorem ConOk_reshape (h : List.Forall₂ SameShape st.elems es') {c : Con F} (hc : st.ConOk c) :
    Store.ConOk { st with elems := es' } c := by
  cases c <;> simp only [Store.ConOk] at hc ⊢ <;>
    first
      | exact ⟨IsPoint_reshape h hc.1, IsPoint_reshape h hc.2⟩
      | exact ⟨IsPoint_reshape h hc.1, IsPoint_reshape h hc.2.1, IsPoint_reshape h hc.2.2⟩
      | exact ⟨IsPoint_reshape h hc.1, IsLine_reshape h hc.2⟩
      | exact ⟨IsPoint_reshape h hc.1, IsCircle_reshape h hc.2⟩
      | exact ⟨IsPoint_reshape h hc.1, IsPoint_reshape h hc.2.1, IsPoint_reshape h hc.2.2.1, IsPoint_reshape h hc.2.2.2⟩
      | exact ⟨IsLine_reshape h hc.1, IsLine_reshape h hc.2⟩
      | exact ⟨IsLine_reshape h hc.1, IsCircle_reshape h hc.2⟩

theorem lineEnds_reshape (h : List.Forall₂ SameShape st.elems es') (l : Nat) :
    Store.lineEnds { st with elems := es' } l = st.lineEnds l := by
  unfold Store.lineEnds
  simp only
  cases he : st.elems[l]? with
  | none =>
    have : es'[l]? = none := by
      rw [List.getElem?_eq_none_iff] at he ⊢
      rw [← h.length_eq]; exact he
    rw [this]
  | some e =>
    obtain ⟨e', he', hs⟩ := forall₂_get h he
    rw [he']
    cases e <;> cases e' <;> simp_all [SameShape]

theorem circleParts_reshape (h : List.Forall₂ SameShape st.elems es') (l : Nat) :
    Store.circleParts { st with elems := es' } l = st.circleParts l := by
  unfold Store.circleParts
  simp only
  cases he : st.elems[l]? with
  | none =>
    have : es'[l]? = none := by
      rw [List.getElem?_eq_none_iff] at he ⊢
      rw [← h.length_eq]; exact he
    rw [this]
  | some e =>
    obtain ⟨e', he', hs⟩ := forall₂_get h he
    rw [he']
    cases e <;> cases e' <;> simp_all [SameShape]

theorem actsOn_reshape (h : List.Forall₂ SameShape st.elems es') (c : Con F) :
    Store.actsOn { st with elems := es' } c = st.actsOn c := by
  cases c <;> simp only [Store.actsOn, lineEnds_reshape h, circleParts_reshape h]

/-- Changing the values of points and lengths keeps the representation. -/
theorem Rel.reshape {s : System F} (hr : Rel s st) (h : List.Forall₂ SameShape st.elems es') :
    Rel { s with vars := es'.flatMap elemValues } { st with elems := es' } := by
  constructor
  · intro i e he
    obtain ⟨e0, he0, hs⟩ := forall₂_get (forall₂_shape_symm h) he
    have hok := hr.wfElem i e0 he0
    cases e <;> cases e0 <;> simp only [SameShape] at hs
    · trivial
    · trivial
    · obtain ⟨rfl, rfl⟩ := hs
      exact ⟨IsPoint_reshape h hok.1, IsPoint_reshape h hok.2⟩
    · obtain ⟨rfl, rfl⟩ := hs
      exact ⟨IsPoint_reshape h hok.1, IsLength_reshape h hok.2⟩
  · exact fun c hc => ConOk_reshape h (hr.wfCon c hc)
  · intro i hi
    rcases hr.wfFixed i hi with h1 | h1
    · exact .inl (IsPoint_reshape h h1)
    · exact .inr (IsLength_reshape h h1)
  · rfl
  · simp only
    rw [hr.elements]
    apply List.ext_getElem?
    intro i
    rw [List.getElem?_mapIdx, List.getElem?_mapIdx]
    cases he : st.elems[i]? with
    | none =>
      have : es'[i]? = none := by
        rw [List.getElem?_eq_none_iff] at he ⊢
        rw [← h.length_eq]; exact he
      rw [this]; rfl
    | some e =>
      obtain ⟨e', he', hs⟩ := forall₂_get h he
      rw [he']
      simp [encElem_reshape h hs]
  · simp only
    rw [owners_reshape h]; exact hr.owners
  · exact hr.fixed
  · simp only
    rw [encCon_reshape h]; exact hr.exprs
  · simp only
    rw [encCon_reshape h]; exact hr.constraints
  · exact hr.exprCon
  · simp only
    rw [← h.length_eq]; exact hr.graph
  · simp only [actsOn_reshape h]; exact hr.graphCons
  · simp only
    have : (es'.flatMap elemValues).length = s.vars.length := by
      rw [← owners_length, owners_reshape h, owners_length, hr.vars]
    rw [this]
    exact hr.eqGraph

end reshape

/-! ## Updating values and parameters, fixing -/

section ops
variable {s : System F} {st : Store F}

theorem Rel.updatePoint (hr : Rel s st) {i : Nat} (hi : st.IsPoint i) (k : Nat) (x y : F) :
    s.updatePoint ⟨k, i⟩ x y = .ok { s with vars := (st.elems.set i (.point x y)).flatMap elemValues } := by
  have h0 := hr.expectPoint (k := k) hi
  obtain ⟨x0, y0, hi⟩ := hi
  have hlt := off_add_le st.elems hi
  simp only [elemValues, List.length_cons, List.length_nil] at hlt
  unfold System.updatePoint
  rw [h0, ok_bind, setIdx_of _ (by rw [hr.vars]; omega), ok_bind, setIdx_of _ (by rw [List.length_set, hr.vars]; omega)]
  simp only [ok_bind, pure_eq_ok]
  have h1 := flatMap_set elemValues st.elems i 0 (.point x0 y0) (.point x y0) x hi (by simp [elemValues]) (by simp [elemValues])
  have hi' : (st.elems.set i (.point x y0))[i]? = some (.point x y0) := by
    rw [List.getElem?_set, if_pos rfl, if_pos (lt_of_getElem? hi)]
  have h2 := flatMap_set elemValues (st.elems.set i (.point x y0)) i 1 (.point x y0) (.point x y) y hi' (by simp [elemValues])
    (by simp [elemValues])
  rw [List.set_set] at h2
  rw [← h2, ← h1, hr.vars]
  have h3 : ((List.take i (st.elems.set i (.point x y0))).flatMap elemValues).length = off st.elems i := by
    unfold off
    rw [List.take_set_of_le (le_refl i)]
  rw [h3]
  rfl

theorem Rel.updateLength (hr : Rel s st) {i : Nat} (hi : st.IsLength i) (k : Nat) (v : F) :
    s.updateLength ⟨k, i⟩ v = .ok { s with vars := (st.elems.set i (.length v)).flatMap elemValues } := by
  have h0 := hr.expectLength (k := k) hi
  obtain ⟨x0, hi⟩ := hi
  have hlt := off_add_le st.elems hi
  simp only [elemValues, List.length_cons, List.length_nil] at hlt
  unfold System.updateLength
  rw [h0, ok_bind, setIdx_of _ (by rw [hr.vars]; omega)]
  simp only [ok_bind, pure_eq_ok]
  have h1 := flatMap_set elemValues st.elems i 0 (.length x0) (.length v) v hi (by simp [elemValues]) (by simp [elemValues])
  rw [← h1, hr.vars]
  rfl

/-- The variables of an element are exactly those owned by the points and lengths it consists of. -/
theorem Rel.elementVariables (hr : Rel s st) {i : Nat} {e : Elem F} (he : st.elems[i]? = some e) :
    ∃ vs, elementVariableIndices e.kind (encElem st.elems i e) = .ok vs ∧
      ∀ k, k ∈ vs ↔ ∃ p ∈ st.primitives i, s.variableToPrimitive[k]? = some p := by
  have hpt : ∀ {p}, st.IsPoint p → ∀ k, (k = off st.elems p ∨ k = off st.elems p + 1) ↔ s.variableToPrimitive[k]? = some p := by
    intro p hp k
    obtain ⟨x, y, hp⟩ := hp
    rw [hr.owners]
    constructor
    · rintro (rfl | rfl)
      · exact owner_at st.elems (j := 0) hp (by simp [elemValues])
      · exact owner_at st.elems (j := 1) hp (by simp [elemValues])
    · intro h
      obtain ⟨e, j, h1, h2, h3⟩ := owner_inv st.elems h
      rw [hp] at h1
      simp only [Option.some.injEq] at h1
      subst h1
      simp only [elemValues, List.length_cons, List.length_nil] at h2
      omega
  have hln : ∀ {p}, st.IsLength p → ∀ k, k = off st.elems p ↔ s.variableToPrimitive[k]? = some p := by
    intro p hp k
    obtain ⟨x, hp⟩ := hp
    rw [hr.owners]
    constructor
    · rintro rfl
      exact owner_at st.elems (j := 0) hp (by simp [elemValues])
    · intro h
      obtain ⟨e, j, h1, h2, h3⟩ := owner_inv st.elems h
      rw [hp] at h1
      simp only [Option.some.injEq] at h1
      subst h1
      simp only [elemValues, List.length_cons, List.length_nil] at h2
      omega
  have hok := hr.wfElem i e he
  cases e with
  | length v =>
    refine ⟨_, rfl, fun k => ?_⟩
    simp only [List.mem_cons, List.not_mem_nil, or_false, Store.primitives, he, Finset.mem_singleton, exists_eq_left]
    exact hln ⟨v, he⟩ k
  | point x y =>
    refine ⟨_, rfl, fun k => ?_⟩
    simp only [List.mem_cons, List.not_mem_nil, or_false, Store.primitives, he, Finset.mem_singleton, exists_eq_left]
    exact hpt ⟨x, y, he⟩ k
  | line p q =>
    refine ⟨_, rfl, fun k => ?_⟩
    simp only [List.mem_cons, List.not_mem_nil, or_false, Store.primitives, he, Finset.mem_insert, Finset.mem_singleton,
      or_and_right, exists_or, exists_eq_left]
    rw [← hpt hok.1 k, ← hpt hok.2 k]
    tauto
  | circle p q =>
    refine ⟨_, rfl, fun k => ?_⟩
    simp only [List.mem_cons, List.not_mem_nil, or_false, Store.primitives, he, Finset.mem_insert, Finset.mem_singleton,
      or_and_right, exists_or, exists_eq_left]
    rw [← hpt hok.1 k, ← hln hok.2 k]
    tauto

/-- The parts of an element are points and lengths. -/
theorem Rel.primitives_ok (hr : Rel s st) {i p : Nat} (hp : p ∈ st.primitives i) : st.IsPoint p ∨ st.IsLength p := by
  unfold Store.primitives at hp
  cases he : st.elems[i]? with
  | none => simp [he] at hp
  | some e =>
    have hok := hr.wfElem i e he
    rw [he] at hp
    cases e with
    | length v => simp only [Finset.mem_singleton] at hp; subst hp; exact .inr ⟨v, he⟩
    | point x y => simp only [Finset.mem_singleton] at hp; subst hp; exact .inl ⟨x, y, he⟩
    | line a b =>
      simp only [Finset.mem_insert, Finset.mem_singleton] at hp
      rcases hp with rfl | rfl
      exacts [.inl hok.1, .inl hok.2]
    | circle a b =>
      simp only [Finset.mem_insert, Finset.mem_singleton] at hp
      rcases hp with rfl | rfl
      exacts [.inl hok.1, .inr hok.2]

theorem Rel.fix (hr : Rel s st) {i : Nat} {e : Elem F} (he : st.elems[i]? = some e) (k : Nat) :
    ∃ s', s.fix e.kind ⟨k, i⟩ = .ok s' ∧ s'.id = s.id ∧ s'.vars = s.vars ∧
      Rel s' { st with fixed := st.fixed ∪ st.primitives i } := by
  obtain ⟨vs, h1, h2⟩ := hr.elementVariables he
  refine ⟨{ s with fixedVariables := s.fixedVariables ∪ vs.toFinset }, ?_, rfl, rfl, ?_⟩
  · unfold System.fix
    rw [idx_of (hr.element_at he), ok_bind, h1]
    rfl
  · refine { hr with wfFixed := ?_, fixed := ?_ }
    · intro p hp
      simp only [Finset.mem_union] at hp
      rcases hp with hp | hp
      · exact hr.wfFixed p hp
      · exact hr.primitives_ok hp
    · intro k
      simp only [Finset.mem_union, List.mem_toFinset, hr.fixed k, h2 k, or_and_right, exists_or]

theorem mem_foldl_erase (vs : List Nat) (S : Finset Nat) (k : Nat) : k ∈ vs.foldl Finset.erase S ↔ k ∈ S ∧ k ∉ vs := by
  induction vs generalizing S with
  | nil => simp
  | cons v vs ih =>
    rw [List.foldl_cons, ih, Finset.mem_erase, List.mem_cons]
    tauto

theorem Rel.unfix (hr : Rel s st) {i : Nat} {e : Elem F} (he : st.elems[i]? = some e) (k : Nat) :
    ∃ s', s.unfix e.kind ⟨k, i⟩ = .ok s' ∧ s'.id = s.id ∧ s'.vars = s.vars ∧
      Rel s' { st with fixed := st.fixed \ st.primitives i } := by
  obtain ⟨vs, h1, h2⟩ := hr.elementVariables he
  refine ⟨{ s with fixedVariables := vs.foldl Finset.erase s.fixedVariables }, ?_, rfl, rfl, ?_⟩
  · unfold System.unfix
    rw [idx_of (hr.element_at he), ok_bind, h1]
    rfl
  · refine { hr with wfFixed := ?_, fixed := ?_ }
    · intro p hp
      simp only [Finset.mem_sdiff] at hp
      exact hr.wfFixed p hp.1
    · intro k
      simp only [Finset.mem_sdiff, mem_foldl_erase, hr.fixed k, h2 k]
      constructor
      · rintro ⟨⟨p, hp, hk⟩, hn⟩
        exact ⟨p, ⟨hp, fun hp' => hn ⟨p, hp', hk⟩⟩, hk⟩
      · rintro ⟨p, ⟨hp, hp'⟩, hk⟩
        refine ⟨⟨p, hp, hk⟩, ?_⟩
        rintro ⟨q, hq, hk'⟩
        rw [hk] at hk'
        simp only [Option.some.injEq] at hk'
        exact hp' (hk' ▸ hq)

theorem take_flatMap_set (f : Con F → List (Expr F)) (cons : List (Con F)) {i : Nat} {c c' : Con F}
    (hc : cons[i]? = some c) (hl : (f c').length = (f c).length) (j : Nat) :
    (((cons.set i c').take j).flatMap f).length = ((cons.take j).flatMap f).length := by
  induction cons generalizing i j with
  | nil => simp
  | cons a cons ih =>
    cases i with
    | zero =>
      simp only [List.getElem?_cons_zero, Option.some.injEq] at hc
      subst hc
      cases j with
      | zero => simp
      | succ j => simp [hl]
    | succ i =>
      simp only [List.getElem?_cons_succ] at hc
      cases j with
      | zero => simp
      | succ j =>
        have := ih hc j
        simp only [List.set_cons_succ, List.take_succ_cons, List.flatMap_cons, List.length_append, this]

theorem zipIdx_flatMap_set (g : Con F → Nat) (cons : List (Con F)) {i : Nat} {c c' : Con F}
    (hc : cons[i]? = some c) (hl : g c' = g c) (k : Nat) :
    ((cons.set i c').zipIdx k).flatMap (fun ci => List.replicate (g ci.1) ci.2) =
    (cons.zipIdx k).flatMap (fun ci => List.replicate (g ci.1) ci.2) := by
  induction cons generalizing i k with
  | nil => simp
  | cons a cons ih =>
    cases i with
    | zero =>
      simp only [List.getElem?_cons_zero, Option.some.injEq] at hc
      subst hc
      simp [hl]
    | succ i =>
      simp only [List.getElem?_cons_succ] at hc
      simp only [List.set_cons_succ, List.zipIdx_cons, List.flatMap_cons, ih hc (k + 1)]

/-- Expressions with the same variables have the same uses. -/
theorem usesOf_congr {e e' : List (Expr F)} (h : e'.map Expr.variableIndices = e.map Expr.variableIndices) (v : Nat) :
    usesOf e' v = usesOf e v := by
  unfold usesOf
  suffices ∀ k, (e'.zipIdx k).flatMap (fun ei => List.replicate (ei.1.variableIndices.count v) ei.2) =
      (e.zipIdx k).flatMap (fun ei => List.replicate (ei.1.variableIndices.count v) ei.2) from this 0
  intro k
  induction e generalizing e' k with
  | nil =>
    have : e' = [] := by simpa using h
    rw [this]
  | cons a e ih =>
    cases e' with
    | nil => simp at h
    | cons a' e' =>
      simp only [List.map_cons, List.cons.injEq] at h
      simp only [List.zipIdx_cons, List.flatMap_cons, h.1, ih h.2 (k + 1)]

/-- What `withParameter` does to the encoding. -/
theorem encCon_withParameter (es : List (Elem F)) {c c' : Con F} {v : F} (h : c.withParameter v = some c') :
    ∃ e e', encCon es c = [e] ∧ encCon es c' = [e'] ∧ e'.variableIndices = e.variableIndices ∧ c'.kind = c.kind := by
  cases c <;> simp only [Con.withParameter, Option.some.injEq, reduceCtorEq] at h <;> subst h <;>
    exact ⟨_, _, rfl, rfl, rfl, rfl⟩

theorem ConOk_withParameter {c c' : Con F} {v : F} (h : c.withParameter v = some c') (hc : st.ConOk c) : st.ConOk c' := by
  cases c <;> simp only [Con.withParameter, Option.some.injEq, reduceCtorEq] at h <;> subst h <;> exact hc

theorem actsOn_withParameter {c c' : Con F} {v : F} (h : c.withParameter v = some c') : st.actsOn c' = st.actsOn c := by
  cases c <;> simp only [Con.withParameter, Option.some.injEq, reduceCtorEq] at h <;> subst h <;> rfl

theorem Rel.constraint_at (hr : Rel s st) {i : Nat} {c : Con F} (hc : st.cons[i]? = some c) :
    s.constraints[i]? = some ⟨c.kind, ((st.cons.take i).flatMap (encCon st.elems)).length⟩ := by
  rw [hr.constraints, List.getElem?_mapIdx, hc]; rfl

theorem Rel.expression_at (hr : Rel s st) {i : Nat} {c : Con F} (hc : st.cons[i]? = some c) {j : Nat}
    (hj : j < (encCon st.elems c).length) :
    s.expressions[((st.cons.take i).flatMap (encCon st.elems)).length + j]? = (encCon st.elems c)[j]? := by
  rw [hr.exprs]
  exact flatMap_getElem? (encCon st.elems) st.cons i j c hc hj

theorem Rel.updateParameter (hr : Rel s st) {i : Nat} {c c' : Con F} (hc : st.cons[i]? = some c) {v : F}
    (hv : c.withParameter v = some c') (k : Nat) :
    ∃ s', s.updateParameter c.kind ⟨k, i⟩ v = .ok s' ∧ s'.id = s.id ∧ s'.vars = s.vars ∧
      Rel s' { st with cons := st.cons.set i c' } := by
  obtain ⟨e, e', he, he', hvi, hkind⟩ := encCon_withParameter st.elems hv
  have hexp := hr.expression_at hc (j := 0) (by rw [he]; simp)
  rw [he, Nat.add_zero] at hexp
  simp only [List.getElem?_cons_zero] at hexp
  have hlt := lt_of_getElem? hexp
  set o := ((st.cons.take i).flatMap (encCon st.elems)).length with ho
  refine ⟨{ s with expressions := s.expressions.set o e' }, ?_, rfl, rfl, ?_⟩
  · unfold System.updateParameter
    rw [idx_of (hr.constraint_at hc), ok_bind, ← ho]
    simp only
    rw [idx_of hexp, ok_bind]
    cases c <;> simp only [Con.withParameter, Option.some.injEq, reduceCtorEq] at hv <;> subst hv <;>
      simp only [encCon, List.cons.injEq, and_true] at he he' <;> subst he <;> subst he' <;>
      simp only [Con.kind, setIdx_of _ hlt, ok_bind, pure_eq_ok]
  · have hmap : (s.expressions.set o e').map Expr.variableIndices = s.expressions.map Expr.variableIndices := by
      rw [List.map_set, hvi]
      apply List.ext_getElem?
      intro j
      rw [List.getElem?_set]
      split
      · rename_i hj
        subst hj
        rw [List.getElem?_map, hexp]
        simp [hlt]
      · rfl
    have hset := flatMap_set (encCon st.elems) st.cons i 0 c c' e' hc (by rw [he]; simp) (by rw [he, he']; rfl)
    rw [Nat.add_zero, ← ho, ← hr.exprs] at hset
    have hlen : (encCon st.elems c').length = (encCon st.elems c).length := by rw [he, he']; rfl
    refine { hr with wfCon := ?_, exprs := ?_, constraints := ?_, exprCon := ?_, graph := ?_, graphCons := ?_, eqGraph := ?_ }
    · intro c'' hc''
      rcases List.mem_or_eq_of_mem_set hc'' with h | h
      · exact hr.wfCon c'' h
      · subst h
        exact ConOk_withParameter hv (hr.wfCon c (List.mem_of_getElem? hc))
    · exact hset
    · simp only
      rw [hr.constraints]
      apply List.ext_getElem?
      intro j
      rw [List.getElem?_mapIdx, List.getElem?_mapIdx, List.getElem?_set]
      simp only [take_flatMap_set (encCon st.elems) st.cons hc hlen]
      by_cases hij : i = j
      · subst hij
        rw [if_pos rfl, if_pos (lt_of_getElem? hc), hc]
        simp [hkind]
      · simp [hij]
    · simp only
      rw [hr.exprCon]
      exact (zipIdx_flatMap_set (fun c => c.kind.valency) st.cons hc (by rw [hkind]) 0).symm
    · simpa using hr.graph
    · simp only
      rw [hr.graphCons]
      apply List.ext_getElem?
      intro j
      rw [List.getElem?_map, List.getElem?_map, List.getElem?_set]
      by_cases hij : i = j
      · subst hij
        have h1 : c'.kind = c.kind := hkind
        have h2 := actsOn_withParameter (st := st) hv
        have h3 : Store.actsOn { st with cons := st.cons.set i c' } c' = st.actsOn c' := by cases c' <;> rfl
        rw [if_pos rfl, if_pos (lt_of_getElem? hc), hc]
        simp [h1, h3, h2]
      · have h3 : ∀ c, Store.actsOn { st with cons := st.cons.set i c' } c = st.actsOn c := by intro c; cases c <;> rfl
        simp [hij, h3]
    · refine ⟨?_, hr.eqGraph.varsLength, ?_⟩
      · simp only
        rw [hmap]; exact hr.eqGraph.expressions
      · intro v hv
        simp only at hv ⊢
        rw [usesOf_congr hmap]
        exact hr.eqGraph.vars v hv

end ops

/-! ## The client -/

/-- A client whose system represents `st` and whose handles are the numbered handles of that system. -/
structure CRel (c : Client F) (st : Store F) : Prop where
  rel : Rel c.sys st
  elemHandles : c.elemHandles = (List.range st.elems.length).map (Handle.mk c.sys.id)
  conHandles : c.conHandles = (List.range st.cons.length).map (Handle.mk c.sys.id)

theorem CRel.new (counter : Nat) : CRel (Client.new F counter) (Store.empty F) :=
  ⟨Rel.new counter, rfl, rfl⟩

theorem CRel.elemHandle {c : Client F} {st : Store F} (h : CRel c st) {i : Nat} (hi : i < st.elems.length) :
    c.elemHandles[i]? = some ⟨c.sys.id, i⟩ := by
  rw [h.elemHandles, List.getElem?_map, List.getElem?_range hi]; rfl

theorem CRel.conHandle {c : Client F} {st : Store F} (h : CRel c st) {i : Nat} (hi : i < st.cons.length) :
    c.conHandles[i]? = some ⟨c.sys.id, i⟩ := by
  rw [h.conHandles, List.getElem?_map, List.getElem?_range hi]; rfl

theorem range_snoc_handles (k n : Nat) :
    (List.range (n + 1)).map (Handle.mk k) = (List.range n).map (Handle.mk k) ++ [⟨k, n⟩] := by
  rw [List.range_succ, List.map_append]; rfl

theorem CRel.createCon {c : Client F} {st : Store F} (h : CRel c st) (hm : st.cons.length < 2 ^ 30) {con : Con F}
    (hc : st.ConOk con) :
    ∃ s', c.createCon con = .ok (⟨c.sys.id, st.cons.length⟩, s') ∧ s'.id = c.sys.id ∧
      Rel s' { st with cons := st.cons ++ [con] } := by
  have hr := h.rel
  obtain ⟨s', h1, h2⟩ := hr.addCon hm con hc
  refine ⟨s', ?_, h2⟩
  rw [← h1]
  have hp : ∀ {p}, st.IsPoint p → idx c.elemHandles p = .ok ⟨c.sys.id, p⟩ := fun hp => idx_of (h.elemHandle hp.lt)
  have hl : ∀ {l}, st.IsLine l → idx c.elemHandles l = .ok ⟨c.sys.id, l⟩ := by
    intro l hl
    obtain ⟨a, b, hl⟩ := hl
    exact idx_of (h.elemHandle (lt_of_getElem? hl))
  have hk : ∀ {l}, st.IsCircle l → idx c.elemHandles l = .ok ⟨c.sys.id, l⟩ := by
    intro l hl
    obtain ⟨a, b, hl⟩ := hl
    exact idx_of (h.elemHandle (lt_of_getElem? hl))
  cases con <;> simp only [Store.ConOk] at hc <;> simp only [Client.createCon]
  · rw [hp hc.1, hp hc.2]
    simp only [ok_bind, System.createPointPointCoincidence, hr.expectPoint hc.1, hr.expectPoint hc.2]
    rfl
  · rw [hp hc.1, hp hc.2]
    simp only [ok_bind, System.createPointPointDistance, hr.expectPoint hc.1, hr.expectPoint hc.2]
    rfl
  · rw [hp hc.1, hp hc.2.1, hp hc.2.2]
    simp only [ok_bind, System.createPointPointPointAngle, hr.expectPoint hc.1, hr.expectPoint hc.2.1, hr.expectPoint hc.2.2]
    rfl
  · rw [hp hc.1, hl hc.2]
    obtain ⟨p, q, -, hp1, hp2, he1, he2⟩ := hr.line hc.2
    simp only [ok_bind, System.createPointLineIncidence, hr.expectPoint hc.1, hr.expectLine hc.2, he1, hr.owner_point hp1,
      hr.owner_point hp2, encCon, Store.actsOn, he2]
    rfl
  · rw [hp hc.1, hl hc.2]
    obtain ⟨p, q, -, hp1, hp2, he1, he2⟩ := hr.line hc.2
    simp only [ok_bind, System.createPointLineDistance, hr.expectPoint hc.1, hr.expectLine hc.2, he1, hr.owner_point hp1,
      hr.owner_point hp2, encCon, Store.actsOn, he2]
    rfl
  · rw [hp hc.1, hk hc.2]
    obtain ⟨p, q, -, hp1, hp2, he1, he2⟩ := hr.circle hc.2
    simp only [ok_bind, System.createPointCircleIncidence, hr.expectPoint hc.1, hr.expectCircle hc.2, he1, hr.owner_point hp1,
      hr.owner_length hp2, encCon, Store.actsOn, he2]
    rfl
  · rw [hp hc.1, hp hc.2.1, hp hc.2.2.1, hp hc.2.2.2]
    simp only [ok_bind, System.createSegmentSegmentLengthEquality, hr.expectPoint hc.1, hr.expectPoint hc.2.1,
      hr.expectPoint hc.2.2.1, hr.expectPoint hc.2.2.2, hr.owner_point hc.1, hr.owner_point hc.2.1, hr.owner_point hc.2.2.1,
      hr.owner_point hc.2.2.2, encCon, Store.actsOn]
    rfl
  · rw [hl hc.1, hl hc.2]
    obtain ⟨p, q, -, hp1, hp2, he1, he2⟩ := hr.line hc.1
    obtain ⟨p', q', -, hp1', hp2', he1', he2'⟩ := hr.line hc.2
    simp only [ok_bind, System.createLineLineAngle, hr.expectLine hc.1, hr.expectLine hc.2, he1, he1', hr.owner_point hp1,
      hr.owner_point hp2, hr.owner_point hp1', hr.owner_point hp2', encCon, Store.actsOn, he2, he2']
    rfl
  · rw [hl hc.1, hl hc.2]
    obtain ⟨p, q, -, hp1, hp2, he1, he2⟩ := hr.line hc.1
    obtain ⟨p', q', -, hp1', hp2', he1', he2'⟩ := hr.line hc.2
    simp only [ok_bind, System.createLineLineParallelism, hr.expectLine hc.1, hr.expectLine hc.2, he1, he1', hr.owner_point hp1,
      hr.owner_point hp2, hr.owner_point hp1', hr.owner_point hp2', encCon, Store.actsOn, he2, he2']
    rfl
  · rw [hl hc.1, hl hc.2]
    obtain ⟨p, q, -, hp1, hp2, he1, he2⟩ := hr.line hc.1
    obtain ⟨p', q', -, hp1', hp2', he1', he2'⟩ := hr.line hc.2
    simp only [ok_bind, System.createLineLinePerpendicularity, hr.expectLine hc.1, hr.expectLine hc.2, he1, he1',
      hr.owner_point hp1, hr.owner_point hp2, hr.owner_point hp1', hr.owner_point hp2', encCon, Store.actsOn, he2, he2']
    rfl
  · rw [hl hc.1, hk hc.2]
    obtain ⟨p, q, -, hp1, hp2, he1, he2⟩ := hr.line hc.1
    obtain ⟨p', q', -, hp1', hp2', he1', he2'⟩ := hr.circle hc.2
    simp only [ok_bind, System.createLineCircleTangency, hr.expectLine hc.1, hr.expectCircle hc.2, he1, he1',
      hr.owner_point hp1, hr.owner_point hp2, hr.owner_point hp1', hr.owner_length hp2', encCon, Store.actsOn, he2, he2']
    rfl

/-- A client that appended a new element. -/
theorem CRel.pushElem {c : Client F} {st : Store F} (h : CRel c st) {x : Elem F} {s' : System F} (hid : s'.id = c.sys.id)
    (hr : Rel s' { st with elems := st.elems ++ [x] }) :
    CRel { c with sys := s', elemHandles := c.elemHandles ++ [⟨c.sys.id, st.elems.length⟩] }
      { st with elems := st.elems ++ [x] } := by
  refine ⟨hr, ?_, ?_⟩
  · simp only [List.length_append, List.length_cons, List.length_nil, Nat.zero_add, range_snoc_handles, hid, h.elemHandles]
  · simp only [hid, h.conHandles]

/-- One legal call: it succeeds and has the effect the specification says. -/
theorem CRel.exec {c : Client F} {st : Store F} (h : CRel c st) (hn : st.elems.length < 2 ^ 30) (hm : st.cons.length < 2 ^ 30)
    {op : Op F} (hop : st.Legal op) : ∃ c', c.exec op = .ok c' ∧ c'.sys.id = c.sys.id ∧ CRel c' (st.step op) := by
  have hr := h.rel
  cases op with
  | createLength v =>
    obtain ⟨s', h1, h2, h3⟩ := hr.addElement (by omega) (.length v) trivial .length
      (by simp [encElem, off_append _ _ (le_refl _)])
    refine ⟨_, ?_, h2, h.pushElem h2 h3⟩
    simp only [Client.exec, System.createLength]
    rw [show [v] = elemValues (.length v) from rfl, h1]
    rfl
  | createPoint x y =>
    obtain ⟨s', h1, h2, h3⟩ := hr.addElement (by omega) (.point x y) trivial .point
      (by simp [encElem, off_append _ _ (le_refl _)])
    refine ⟨_, ?_, h2, h.pushElem h2 h3⟩
    simp only [Client.exec, System.createPoint]
    rw [show [x, y] = elemValues (.point x y) from rfl, h1]
    rfl
  | createLine p q =>
    obtain ⟨s', h1, h2, h3⟩ := hr.addElement (by omega) (.line p q) hop (fun _ => .line (off st.elems p) (off st.elems q))
      (by simp [encElem, off_append _ _ (le_of_lt hop.1.lt), off_append _ _ (le_of_lt hop.2.lt)])
    refine ⟨_, ?_, h2, h.pushElem h2 h3⟩
    simp only [Client.exec, System.createLine]
    rw [idx_of (h.elemHandle hop.1.lt), ok_bind, idx_of (h.elemHandle hop.2.lt), ok_bind, hr.expectPoint hop.1, ok_bind,
      hr.expectPoint hop.2, ok_bind, show [] = elemValues (F := F) (.line p q) from rfl, h1]
    rfl
  | createCircle p q =>
    obtain ⟨s', h1, h2, h3⟩ := hr.addElement (by omega) (.circle p q) hop (fun _ => .circle (off st.elems p) (off st.elems q))
      (by simp [encElem, off_append _ _ (le_of_lt hop.1.lt), off_append _ _ (le_of_lt hop.2.lt)])
    refine ⟨_, ?_, h2, h.pushElem h2 h3⟩
    simp only [Client.exec, System.createCircle]
    rw [idx_of (h.elemHandle hop.1.lt), ok_bind, idx_of (h.elemHandle hop.2.lt), ok_bind, hr.expectPoint hop.1, ok_bind,
      hr.expectLength hop.2, ok_bind, show [] = elemValues (F := F) (.circle p q) from rfl, h1]
    rfl
  | createCon con =>
    obtain ⟨s', h1, h2, h3⟩ := h.createCon hm hop
    refine ⟨{ c with sys := s', conHandles := c.conHandles ++ [⟨c.sys.id, st.cons.length⟩] }, ?_, h2, h3, ?_, ?_⟩
    · simp only [Client.exec]
      rw [h1]
      rfl
    · simp only [h2, h.elemHandles, Store.step]
    · simp only [Store.step, List.length_append, List.length_cons, List.length_nil, Nat.zero_add, range_snoc_handles, h2,
        h.conHandles]
  | fix tag i =>
    obtain ⟨e, he, htag⟩ := hop
    subst htag
    obtain ⟨s', h1, h2, -, h3⟩ := hr.fix he c.sys.id
    refine ⟨{ c with sys := s' }, ?_, h2, h3, ?_, ?_⟩
    · simp only [Client.exec]
      rw [idx_of (h.elemHandle (lt_of_getElem? he)), ok_bind, h1]
      rfl
    · simp only [h2, h.elemHandles, Store.step]
    · simp only [h2, h.conHandles, Store.step]
  | unfix tag i =>
    obtain ⟨e, he, htag⟩ := hop
    subst htag
    obtain ⟨s', h1, h2, -, h3⟩ := hr.unfix he c.sys.id
    refine ⟨{ c with sys := s' }, ?_, h2, h3, ?_, ?_⟩
    · simp only [Client.exec]
      rw [idx_of (h.elemHandle (lt_of_getElem? he)), ok_bind, h1]
      rfl
    · simp only [h2, h.elemHandles, Store.step]
    · simp only [h2, h.conHandles, Store.step]
  | updatePoint i x y =>
    have h1 := hr.updatePoint hop c.sys.id x y
    have hlt := hop.lt
    obtain ⟨x0, y0, hi⟩ := hop
    refine ⟨{ c with sys := { c.sys with vars := (st.elems.set i (.point x y)).flatMap elemValues } }, ?_, rfl,
      hr.reshape (forall₂_set hi trivial), ?_, ?_⟩
    · simp only [Client.exec]
      rw [idx_of (h.elemHandle hlt), ok_bind, h1]
      rfl
    · simp only [h.elemHandles, Store.step, List.length_set]
    · simp only [h.conHandles, Store.step]
  | updateLength i v =>
    have h1 := hr.updateLength hop c.sys.id v
    have hlt := hop.lt
    obtain ⟨x0, hi⟩ := hop
    refine ⟨{ c with sys := { c.sys with vars := (st.elems.set i (.length v)).flatMap elemValues } }, ?_, rfl,
      hr.reshape (forall₂_set hi trivial), ?_, ?_⟩
    · simp only [Client.exec]
      rw [idx_of (h.elemHandle hlt), ok_bind, h1]
      rfl
    · simp only [h.elemHandles, Store.step, List.length_set]
    · simp only [h.conHandles, Store.step]
  | updateParameter tag i v =>
    obtain ⟨con, hcon, htag, hsome⟩ := hop
    obtain ⟨con', hcon'⟩ := Option.isSome_iff_exists.1 hsome
    subst htag
    obtain ⟨s', h1, h2, -, h3⟩ := hr.updateParameter hcon hcon' c.sys.id
    have hstep : st.step (.updateParameter con.kind i v) = { st with cons := st.cons.set i con' } := by
      simp only [Store.step, hcon, hcon', Option.getD_some]
    rw [hstep]
    refine ⟨{ c with sys := s' }, ?_, h2, h3, ?_, ?_⟩
    · simp only [Client.exec]
      rw [idx_of (h.conHandle (lt_of_getElem? hcon)), ok_bind, h1]
      rfl
    · simp only [h2, h.elemHandles]
    · simp only [h2, h.conHandles, List.length_set]
  | solve result =>
    refine ⟨_, rfl, rfl, hr.reshape hop, ?_, ?_⟩
    · simp only [h.elemHandles, Store.step, (show List.Forall₂ SameShape st.elems result from hop).length_eq]
    · simp only [h.conHandles, Store.step]

theorem step_elems_le (st : Store F) {op : Op F} (h : st.Legal op) :
    (st.step op).elems.length ≤ st.elems.length + 1 ∧ (st.step op).cons.length ≤ st.cons.length + 1 := by
  cases op <;> simp only [Store.step, List.length_append, List.length_cons, List.length_nil, List.length_set] <;> try omega
  · split <;> simp
  · rw [(show List.Forall₂ SameShape st.elems _ from h).length_eq]; omega

/-- A legal sequence of calls (at most `2^30` of them) succeeds and has the specified effect. -/
theorem CRel.run {c : Client F} {st : Store F} (h : CRel c st) (ops : List (Op F)) (hn : st.elems.length + ops.length ≤ 2 ^ 30)
    (hm : st.cons.length + ops.length ≤ 2 ^ 30) (hops : st.LegalRun ops) :
    ∃ c', c.run ops = .ok c' ∧ c'.sys.id = c.sys.id ∧ CRel c' (st.run ops) := by
  induction ops generalizing c st with
  | nil => exact ⟨c, rfl, rfl, h⟩
  | cons op ops ih =>
    simp only [List.length_cons] at hn hm
    obtain ⟨hop, hops⟩ := hops
    obtain ⟨c1, h1, h2, h3⟩ := h.exec (by omega) (by omega) hop
    have hle := step_elems_le st hop
    obtain ⟨c', h4, h5, h6⟩ := ih h3 (by omega) (by omega) hops
    refine ⟨c', ?_, by rw [h5, h2], h6⟩
    unfold Client.run at h4 ⊢
    rw [List.foldlM_cons, h1, ok_bind, h4]

end Fiksi
