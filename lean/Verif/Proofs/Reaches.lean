import Verif.Proofs.Reads
/-!
# Histories of API calls
-/
namespace Fiksi

open Spec

variable {F : Type}

/-- `c` is the client reached by the history `ops` of calls on a new system. The history is legal (see `Store.Legal`) and has
fewer than `2^30` calls. -/
structure Reaches (counter : Nat) (ops : List (Op F)) (c : Client F) : Prop where
  short : ops.length < 2 ^ 30
  legal : (Store.empty F).LegalRun ops
  run : (Client.new F counter).run ops = .ok c

theorem Reaches.crel {counter : Nat} {ops : List (Op F)} {c : Client F} (h : Reaches counter ops c) :
    CRel c ((Store.empty F).run ops) := by
  obtain ⟨c', h1, -, h2⟩ := (CRel.new (F := F) counter).run ops (by simp [Store.empty]; have := h.short; omega)
    (by simp [Store.empty]; have := h.short; omega) h.legal
  rw [h.run] at h1
  simp only [Except.ok.injEq] at h1
  exact h1 ▸ h2

theorem Reaches.sysId {counter : Nat} {ops : List (Op F)} {c : Client F} (h : Reaches counter ops c) :
    c.sys.id = counter := by
  obtain ⟨c', h1, h2, -⟩ := (CRel.new (F := F) counter).run ops (by simp [Store.empty]; have := h.short; omega)
    (by simp [Store.empty]; have := h.short; omega) h.legal
  rw [h.run] at h1
  simp only [Except.ok.injEq] at h1
  rw [h1, h2]; rfl

theorem run_size (st : Store F) (ops : List (Op F)) (h : st.LegalRun ops) :
    (st.run ops).elems.length ≤ st.elems.length + ops.length ∧ (st.run ops).cons.length ≤ st.cons.length + ops.length := by
  induction ops generalizing st with
  | nil => exact ⟨le_refl _, le_refl _⟩
  | cons op ops ih =>
    obtain ⟨h1, h2⟩ := ih (st.step op) h.2
    have := step_elems_le st h.1
    simp only [List.length_cons, Store.run, List.foldl_cons] at h1 h2 ⊢
    omega

theorem Reaches.size {counter : Nat} {ops : List (Op F)} {c : Client F} (h : Reaches counter ops c) :
    ((Store.empty F).run ops).elems.length < 2 ^ 30 ∧ ((Store.empty F).run ops).cons.length < 2 ^ 30 := by
  have h1 := run_size _ _ h.legal
  have h2 := h.short
  simp only [Store.empty, List.length_nil] at h1 ⊢
  omega

theorem legalRun_append (st : Store F) (ops ops' : List (Op F)) :
    st.LegalRun (ops ++ ops') ↔ st.LegalRun ops ∧ (st.run ops).LegalRun ops' := by
  induction ops generalizing st with
  | nil => simp [Store.LegalRun, Store.run]
  | cons op ops ih =>
    simp only [List.cons_append, Store.LegalRun, ih, and_assoc, Store.run, List.foldl_cons]

theorem store_run_append (st : Store F) (ops ops' : List (Op F)) : st.run (ops ++ ops') = (st.run ops).run ops' := by
  simp [Store.run, List.foldl_append]

theorem client_run_append (c c' : Client F) (ops ops' : List (Op F)) :
    c.run (ops ++ ops') = .ok c' ↔ ∃ c1, c.run ops = .ok c1 ∧ c1.run ops' = .ok c' := by
  unfold Client.run
  rw [List.foldlM_append, bind_eq_ok]

/-- A reached client can make one more legal call. -/
theorem Reaches.step {counter : Nat} {ops : List (Op F)} {c : Client F} (h : Reaches counter ops c) {op : Op F}
    (hop : ((Store.empty F).run ops).Legal op) :
    ∃ c', c.exec op = .ok c' ∧ c'.sys.id = c.sys.id ∧ CRel c' (((Store.empty F).run ops).step op) :=
  h.crel.exec h.size.1 h.size.2 hop

/-- Handles of a reached client. -/
theorem CRel.mem_elemHandles {c : Client F} {st : Store F} (h : CRel c st) {hd : Handle} (hm : hd ∈ c.elemHandles) :
    ∃ i, i < st.elems.length ∧ hd = ⟨c.sys.id, i⟩ := by
  rw [h.elemHandles] at hm
  simp only [List.mem_map, List.mem_range] at hm
  obtain ⟨i, h1, h2⟩ := hm
  exact ⟨i, h1, h2.symm⟩

theorem CRel.mem_conHandles {c : Client F} {st : Store F} (h : CRel c st) {hd : Handle} (hm : hd ∈ c.conHandles) :
    ∃ i, i < st.cons.length ∧ hd = ⟨c.sys.id, i⟩ := by
  rw [h.conHandles] at hm
  simp only [List.mem_map, List.mem_range] at hm
  obtain ⟨i, h1, h2⟩ := hm
  exact ⟨i, h1, h2.symm⟩

/-! ## Frames at the level of the store -/

theorem step_elems_prefix (st : Store F) {op : Op F} (h : op.changesValues = false) :
    st.elems <+: (st.step op).elems := by
  cases op <;> simp_all [Op.changesValues, Store.step]
  split <;> simp

theorem run_elems_prefix (st : Store F) (ops : List (Op F)) (h : ∀ op ∈ ops, op.changesValues = false) :
    st.elems <+: (st.run ops).elems := by
  induction ops generalizing st with
  | nil => exact List.prefix_refl _
  | cons op ops ih =>
    exact (step_elems_prefix st (h op (by simp))).trans (ih (st.step op) (fun op hop => h op (by simp [hop])))

theorem prefix_get {α : Type} {l l' : List α} (h : l <+: l') {i : Nat} {a : α} (hi : l[i]? = some a) : l'[i]? = some a := by
  obtain ⟨t, rfl⟩ := h
  rw [List.getElem?_append_left (lt_of_getElem? hi)]
  exact hi

theorem value_prefix {s : System F} {st st' : Store F} (hr : Rel s st) (h : st.elems <+: st'.elems) {i : Nat}
    (hi : i < st.elems.length) : st'.value i = st.value i := by
  have he := List.getElem?_eq_getElem hi
  have hok := hr.wfElem i _ he
  unfold Store.value
  rw [he, prefix_get h he]
  cases hv : st.elems[i] with
  | length v => rfl
  | point x y => rfl
  | line p q =>
    rw [hv] at hok
    obtain ⟨⟨x0, y0, hp⟩, ⟨x1, y1, hq⟩⟩ := hok
    simp only [Store.pointAt, hp, hq, prefix_get h hp, prefix_get h hq]
  | circle p q =>
    rw [hv] at hok
    obtain ⟨⟨x0, y0, hp⟩, ⟨x1, hq⟩⟩ := hok
    simp only [Store.pointAt, Store.lengthAt, hp, hq, prefix_get h hp, prefix_get h hq]

theorem forall₂_kind {es es' : List (Elem F)} (h : List.Forall₂ SameShape es es') :
    es'.map Elem.kind = es.map Elem.kind := by
  induction h with
  | nil => rfl
  | cons h _ ih =>
    rename_i a b _ _ _
    simp only [List.map_cons, ih, List.cons.injEq, and_true]
    revert h
    cases a <;> cases b <;> simp [SameShape, Elem.kind]

theorem run_elems_kind (st : Store F) (ops : List (Op F)) (h : st.LegalRun ops) :
    (st.run ops).elems.map Elem.kind = st.elems.map Elem.kind ++ ops.filterMap Op.createdElement := by
  induction ops generalizing st with
  | nil => simp [Store.run]
  | cons op ops ih =>
    have h1 := ih (st.step op) h.2
    have h2 : (st.step op).elems.map Elem.kind = st.elems.map Elem.kind ++ (op.createdElement).toList := by
      have hop := h.1
      cases op with
      | updatePoint i x y =>
        obtain ⟨x0, y0, hi⟩ := hop
        simp only [Store.step, Op.createdElement, Option.toList_none, List.append_nil]
        exact forall₂_kind (forall₂_set hi trivial)
      | updateLength i x =>
        obtain ⟨x0, hi⟩ := hop
        simp only [Store.step, Op.createdElement, Option.toList_none, List.append_nil]
        exact forall₂_kind (forall₂_set hi trivial)
      | updateParameter tag i v =>
        simp only [Store.step, Op.createdElement, Option.toList_none, List.append_nil]
        split <;> rfl
      | solve result =>
        simp only [Store.step, Op.createdElement, Option.toList_none, List.append_nil]
        exact forall₂_kind hop
      | createLength v => simp [Store.step, Op.createdElement, Elem.kind]
      | createPoint x y => simp [Store.step, Op.createdElement, Elem.kind]
      | createLine p q => simp [Store.step, Op.createdElement, Elem.kind]
      | createCircle p q => simp [Store.step, Op.createdElement, Elem.kind]
      | createCon c => simp [Store.step, Op.createdElement]
      | fix tag i => simp [Store.step, Op.createdElement]
      | unfix tag i => simp [Store.step, Op.createdElement]
    rw [h2] at h1
    simp only [Store.run, List.foldl_cons] at h1 ⊢
    rw [h1, List.filterMap_cons]
    cases op.createdElement <;> simp

theorem run_cons_kind (st : Store F) (ops : List (Op F)) (h : st.LegalRun ops) :
    (st.run ops).cons.map Con.kind = st.cons.map Con.kind ++ ops.filterMap Op.createdConstraint := by
  induction ops generalizing st with
  | nil => simp [Store.run]
  | cons op ops ih =>
    have h1 := ih (st.step op) h.2
    have h2 : (st.step op).cons.map Con.kind = st.cons.map Con.kind ++ (op.createdConstraint).toList := by
      have hop := h.1
      cases op with
      | updateParameter tag i v =>
        obtain ⟨con, hcon, -, hsome⟩ := hop
        obtain ⟨con', hcon'⟩ := Option.isSome_iff_exists.1 hsome
        obtain ⟨-, -, -, -, -, hk⟩ := encCon_withParameter ([] : List (Elem F)) hcon'
        simp only [Store.step, hcon, hcon', Option.getD_some, Op.createdConstraint, Option.toList_none, List.append_nil,
          List.map_set]
        apply List.ext_getElem?
        intro j
        rw [List.getElem?_set]
        split
        · rename_i hij
          subst hij
          rw [List.length_map, if_pos (lt_of_getElem? hcon), List.getElem?_map, hcon, hk]
          rfl
        · rfl
      | _ => simp [Store.step, Op.createdConstraint]
    rw [h2] at h1
    simp only [Store.run, List.foldl_cons] at h1 ⊢
    rw [h1, List.filterMap_cons]
    cases op.createdConstraint <;> simp

theorem run_con_get (st : Store F) (ops : List (Op F)) {i : Nat} {con : Con F} (hc : st.cons[i]? = some con)
    (hop : ∀ op ∈ ops, op.changesParameterOf i = false) : (st.run ops).cons[i]? = some con := by
  induction ops generalizing st with
  | nil => exact hc
  | cons op ops ih =>
    apply ih (st.step op) _ (fun op h => hop op (by simp [h]))
    have h1 := hop op (by simp)
    cases op with
    | createCon c =>
      simp only [Store.step]
      rw [List.getElem?_append_left (lt_of_getElem? hc)]
      exact hc
    | updateParameter tag j v =>
      simp only [Op.changesParameterOf, beq_eq_false_iff_ne, ne_eq] at h1
      simp only [Store.step]
      split
      · simp only
        rw [List.getElem?_set, if_neg (fun h => h1 h.symm)]
        exact hc
      · exact hc
    | _ => exact hc

section residual
variable [Add F] [Sub F] [Mul F] [Div F] [Neg F] [Zero F] [One F] [FloatOps F]

theorem storeResidual_prefix {s : System F} {st st' : Store F} (hr : Rel s st) (h : st.elems <+: st'.elems) {con : Con F}
    (hok : st.ConOk con) : storeResidual st' con = storeResidual st con := by
  have hp : ∀ {p}, st.IsPoint p → ptOf st' p = ptOf st p := by
    intro p hp
    obtain ⟨x, y, hp⟩ := hp
    simp only [ptOf, hp, prefix_get h hp]
  have hl : ∀ {p}, st.IsLength p → ptOf st' p = ptOf st p := by
    intro p hp
    obtain ⟨x, hp⟩ := hp
    simp only [ptOf, hp, prefix_get h hp]
  have hline : ∀ {l}, st.IsLine l → partsOf st' l = partsOf st l := by
    intro l hl
    obtain ⟨p, q, h1, h2, h3, -, -⟩ := hr.line hl
    simp only [partsOf, h1, prefix_get h h1, hp h2, hp h3]
  have hcirc : ∀ {l}, st.IsCircle l → partsOf st' l = partsOf st l := by
    intro l hc
    obtain ⟨p, q, h1, h2, h3, -, -⟩ := hr.circle hc
    simp only [partsOf, h1, prefix_get h h1, hp h2, hl h3]
  cases con <;> simp only [Store.ConOk] at hok <;> simp only [storeResidual]
  · rw [hp hok.1, hp hok.2]
  · rw [hp hok.1, hp hok.2]
  · rw [hp hok.1, hp hok.2.1, hp hok.2.2]
  · rw [hp hok.1, hline hok.2]
  · rw [hp hok.1, hline hok.2]
  · rw [hp hok.1, hcirc hok.2]
  · rw [hp hok.1, hp hok.2.1, hp hok.2.2.1, hp hok.2.2.2]
  · rw [hline hok.1, hline hok.2]
  · rw [hline hok.1, hline hok.2]
  · rw [hline hok.1, hline hok.2]
  · rw [hline hok.1, hcirc hok.2]

end residual

/-- Every legal sequence of calls reaches a client. -/
theorem exists_reaches {F : Type} (counter : Nat) (ops : List (Op F)) (hl : (Store.empty F).LegalRun ops)
    (hs : ops.length < 2 ^ 30) : ∃ c, Reaches counter ops c := by
  obtain ⟨c, h1, -, -⟩ := (CRel.new (F := F) counter).run ops (by simp [Store.empty]; omega) (by simp [Store.empty]; omega) hl
  exact ⟨c, hs, hl, h1⟩

end Fiksi
