import Verif.Proofs.Solve
import Verif.Proofs.Real
import Verif.Spec.Equations
/-!
# What `solve` may change and which constraints it uses (C22–C25)

All theorems hold for every optimiser (`optimize` is an arbitrary function, it may also panic), every iteration order of the hash
sets and all options, as far as they say so.
-/
namespace Fiksi

open Spec

/-! ## C25 -/

theorem exists_reshape {F : Type} (es : List (Elem F)) : ∀ (vals : List F), vals.length = (es.flatMap elemValues).length →
    ∃ es', List.Forall₂ SameShape es es' ∧ es'.flatMap elemValues = vals := by
  induction es with
  | nil => intro vals h; exact ⟨[], .nil, by simpa [eq_comm] using h⟩
  | cons e es ih =>
    intro vals h
    rw [List.flatMap_cons, List.length_append] at h
    cases e with
    | length v =>
      have hv : (elemValues (.length v)).length = 1 := rfl
      obtain _ | ⟨x, vals⟩ := vals
      · rw [hv] at h; simp at h; omega
      · obtain ⟨es', h1, h2⟩ := ih vals (by rw [hv] at h; simp only [List.length_cons, List.length_nil] at h; omega)
        exact ⟨.length x :: es', .cons trivial h1, by simp [elemValues, h2]⟩
    | point a b =>
      have hv : (elemValues (.point a b)).length = 2 := rfl
      obtain _ | ⟨x, _ | ⟨y, vals⟩⟩ := vals
      · rw [hv] at h; simp at h; omega
      · rw [hv] at h; simp at h; omega
      · obtain ⟨es', h1, h2⟩ := ih vals (by rw [hv] at h; simp only [List.length_cons, List.length_nil] at h; omega)
        exact ⟨.point x y :: es', .cons trivial h1, by simp [elemValues, h2]⟩
    | line p q =>
      obtain ⟨es', h1, h2⟩ := ih vals (by simpa [elemValues] using h)
      exact ⟨.line p q :: es', .cons ⟨rfl, rfl⟩ h1, by simp [elemValues, h2]⟩
    | circle p q =>
      obtain ⟨es', h1, h2⟩ := ih vals (by simpa [elemValues] using h)
      exact ⟨.circle p q :: es', .cons ⟨rfl, rfl⟩ h1, by simp [elemValues, h2]⟩

section
variable {F : Type} [Add F] [Sub F] [Mul F] [Div F] [Neg F] [Zero F] [One F] [FloatOps F]

theorem solve_eq {optimize : Optimize F} {ord : HashOrder} {opts : SolvingOptions} {s s' : System F}
    (h : s.solve optimize ord opts = .ok s') : ∃ st, s.solveLoop optimize ord opts = .ok st ∧ s' = { s with vars := st.vars } := by
  rw [System.solve, bind_eq_ok] at h
  obtain ⟨st, h1, h2⟩ := h
  cases h2
  exact ⟨st, h1, rfl⟩

/-- C25: for every reachable system, all options and every optimiser, `solve` keeps everything but the values: elements (with the
parts of lines and circles), constraints with their parameters, the fixed set and the handles. What it does is a value update that
gives every point and length a new value (the specification's `solve` step, whose effect on all reads is described by C01–C11). -/
theorem C25_solve_only_changes_values {counter : Nat} {ops : List (Op F)} {c : Client F} (h : Reaches counter ops c)
    {optimize : Optimize F} {ord : HashOrder} (hord : ord.Ok) {opts : SolvingOptions} {s' : System F}
    (hs : c.sys.solve optimize ord opts = .ok s') :
    s' = { c.sys with vars := s'.vars } ∧ s'.vars.length = c.sys.vars.length ∧
      ∃ result, List.Forall₂ SameShape ((Store.empty F).run ops).elems result ∧
        c.exec (.solve result) = .ok { c with sys := s' } := by
  obtain ⟨st, h1, rfl⟩ := solve_eq hs
  have h2 := (h.solveLoop_spec hord h1).1.1
  refine ⟨rfl, h2, ?_⟩
  obtain ⟨es', h3, h4⟩ := exists_reshape ((Store.empty F).run ops).elems st.vars (by rw [h2, h.crel.rel.vars])
  exact ⟨es', h3, by simp only [Client.exec, h4]; rfl⟩

/-- C25, continued: the system after `solve` is again a reachable one, so every theorem about histories of calls applies to
histories that contain `solve`. -/
theorem C25_solve_is_a_call {counter : Nat} {ops : List (Op F)} {c : Client F} (h : Reaches counter ops c)
    (hl : ops.length + 1 < 2 ^ 30) {optimize : Optimize F} {ord : HashOrder} (hord : ord.Ok) {opts : SolvingOptions} {s' : System F}
    (hs : c.sys.solve optimize ord opts = .ok s') :
    ∃ result, Reaches counter (ops ++ [.solve result]) { c with sys := s' } := by
  obtain ⟨-, -, result, h1, h2⟩ := C25_solve_only_changes_values h hord hs
  refine ⟨result, by simpa using hl, (legalRun_append _ _ _).2 ⟨h.legal, h1, trivial⟩, ?_⟩
  refine (client_run_append _ _ _ _).2 ⟨c, h.run, ?_⟩
  simp [Client.run, h2]

end

/-! ## Variables of elements -/

section
variable {F : Type}

theorem fromEncodedElement_congr {tag : ElementTag} {el : EncodedElement} {vars vars' : List F}
    (h : ∀ v ∈ el.variableIndices, vars'[v]? = vars[v]?) : fromEncodedElement tag el vars' = fromEncodedElement tag el vars := by
  have hi : ∀ v ∈ el.variableIndices, idx vars' v = idx vars v := fun v hv => by rw [idx, idx, h v hv]
  cases tag <;> cases el <;> simp only [EncodedElement.variableIndices, List.mem_cons, List.not_mem_nil, or_false, forall_eq_or_imp,
    forall_eq] at hi <;> simp [fromEncodedElement, hi]

/-- The variables of an element belong to its points and lengths. -/
theorem Rel.owner_of_var {s : System F} {st : Store F} (hr : Rel s st) {i : Nat} {el : EncodedElement} (hel : s.elements[i]? = some el)
    {v : Nat} (hv : v ∈ el.variableIndices) : ∃ p ∈ st.primitives i, s.variableToPrimitive[v]? = some p := by
  have hi : i < st.elems.length := by rw [← hr.elements_length]; exact lt_of_getElem? hel
  obtain ⟨e, he⟩ : ∃ e, st.elems[i]? = some e := ⟨_, List.getElem?_eq_getElem hi⟩
  have hok := hr.wfElem i e he
  rw [hr.element_at he] at hel
  cases hel
  have pt : ∀ {p : Nat} {x y : F}, st.elems[p]? = some (.point x y) → s.variableToPrimitive[off st.elems p]? = some p ∧
      s.variableToPrimitive[off st.elems p + 1]? = some p := by
    intro p x y hp
    rw [hr.owners]
    exact ⟨owner_at st.elems (j := 0) hp (by simp [elemValues]), owner_at st.elems (j := 1) hp (by simp [elemValues])⟩
  have len : ∀ {p : Nat} {x : F}, st.elems[p]? = some (.length x) → s.variableToPrimitive[off st.elems p]? = some p := by
    intro p x hp
    rw [hr.owners]
    exact owner_at st.elems (j := 0) hp (by simp [elemValues])
  unfold Store.primitives
  rw [he]
  cases e with
  | length x =>
    simp only [encElem, EncodedElement.variableIndices, List.mem_singleton] at hv
    subst hv
    exact ⟨i, by simp, len he⟩
  | point x y =>
    simp only [encElem, EncodedElement.variableIndices, List.mem_cons, List.not_mem_nil, or_false] at hv
    rcases hv with rfl | rfl
    · exact ⟨i, by simp, (pt he).1⟩
    · exact ⟨i, by simp, (pt he).2⟩
  | line p q =>
    obtain ⟨⟨x, y, hp⟩, x', y', hq⟩ := hok
    simp only [encElem, EncodedElement.variableIndices, List.mem_cons, List.not_mem_nil, or_false] at hv
    rcases hv with rfl | rfl | rfl | rfl
    · exact ⟨p, by simp, (pt hp).1⟩
    · exact ⟨p, by simp, (pt hp).2⟩
    · exact ⟨q, by simp, (pt hq).1⟩
    · exact ⟨q, by simp, (pt hq).2⟩
  | circle p q =>
    obtain ⟨⟨x, y, hp⟩, x', hq⟩ := hok
    simp only [encElem, EncodedElement.variableIndices, List.mem_cons, List.not_mem_nil, or_false] at hv
    rcases hv with rfl | rfl | rfl
    · exact ⟨p, by simp, (pt hp).1⟩
    · exact ⟨p, by simp, (pt hp).2⟩
    · exact ⟨q, by simp, len hq⟩

/-- Constraints act on points and lengths. -/
theorem actsOn_primitive {st : Store F} {s : System F} (hr : Rel s st) {con : Spec.Con F} (hcon : st.ConOk con) {i : Nat}
    (hi : i ∈ st.actsOn con) : st.IsPoint i ∨ st.IsLength i := by
  have line : ∀ {l : Nat}, st.IsLine l → ∀ j ∈ st.lineEnds l, st.IsPoint j := by
    rintro l ⟨p, q, hl⟩ j hj
    have := hr.wfElem l _ hl
    rw [Store.lineEnds, hl] at hj
    simp only [List.mem_cons, List.not_mem_nil, or_false] at hj
    rcases hj with rfl | rfl
    · exact this.1
    · exact this.2
  have circ : ∀ {l : Nat}, st.IsCircle l → ∀ j ∈ st.circleParts l, st.IsPoint j ∨ st.IsLength j := by
    rintro l ⟨p, q, hl⟩ j hj
    have := hr.wfElem l _ hl
    rw [Store.circleParts, hl] at hj
    simp only [List.mem_cons, List.not_mem_nil, or_false] at hj
    rcases hj with rfl | rfl
    · exact .inl this.1
    · exact .inr this.2
  cases con <;> simp only [Store.ConOk] at hcon <;>
    simp only [Store.actsOn, List.mem_cons, List.not_mem_nil, or_false, List.mem_append] at hi
  · rcases hi with rfl | rfl
    exacts [.inl hcon.1, .inl hcon.2]
  · rcases hi with rfl | rfl
    exacts [.inl hcon.1, .inl hcon.2]
  · rcases hi with rfl | rfl | rfl
    exacts [.inl hcon.1, .inl hcon.2.1, .inl hcon.2.2]
  · rcases hi with rfl | hi
    exacts [.inl hcon.1, .inl (line hcon.2 _ hi)]
  · rcases hi with rfl | hi
    exacts [.inl hcon.1, .inl (line hcon.2 _ hi)]
  · rcases hi with rfl | hi
    exacts [.inl hcon.1, circ hcon.2 _ hi]
  · rcases hi with rfl | rfl | rfl | rfl
    exacts [.inl hcon.1, .inl hcon.2.1, .inl hcon.2.2.1, .inl hcon.2.2.2]
  · rcases hi with hi | hi
    exacts [.inl (line hcon.1 _ hi), .inl (line hcon.2 _ hi)]
  · rcases hi with hi | hi
    exacts [.inl (line hcon.1 _ hi), .inl (line hcon.2 _ hi)]
  · rcases hi with hi | hi
    exacts [.inl (line hcon.1 _ hi), .inl (line hcon.2 _ hi)]
  · rcases hi with hi | hi
    exacts [.inl (line hcon.1 _ hi), circ hcon.2 _ hi]

end

section
variable {F : Type} [Add F] [Sub F] [Mul F] [Div F] [Neg F] [Zero F] [One F] [FloatOps F]

/-- A variable that `solve` may write belongs to a constrained point or length, which is not fixed unless the decomposer is
`RecursiveAssembly`. -/
theorem Reaches.writes_owner {counter : Nat} {ops : List (Op F)} {c : Client F} (h : Reaches counter ops c) {opts : SolvingOptions}
    {comp : Component} (hcomp : comp ∈ c.sys.graph.components) {v p : Nat} (hv : c.sys.Writes opts comp v)
    (hp : c.sys.variableToPrimitive[v]? = some p) :
    Constrained ((Store.empty F).run ops).arguments p ∧
      (opts.decomposer ≠ .recursiveAssembly → p ∉ ((Store.empty F).run ops).fixed) := by
  obtain ⟨⟨i, hi, el, h1, h2⟩, hf⟩ := hv
  have hr := h.crel.rel
  have hc := (C17_elements_partitioned h i).2 ⟨comp, hcomp, hi⟩
  obtain ⟨l, hl, hil⟩ := hc
  obtain ⟨con, hcon, rfl⟩ := List.mem_map.1 hl
  obtain ⟨p', h3, h4⟩ := hr.owner_of_var h1 h2
  rw [hp] at h4
  cases h4
  have hpi : p = i := by
    rcases actsOn_primitive hr (hr.wfCon con hcon) hil with ⟨x, y, he⟩ | ⟨x, he⟩ <;>
      (rw [Store.primitives, he] at h3; simpa using h3)
  subst hpi
  refine ⟨⟨_, hl, hil⟩, fun hne hfx => hf hne ?_⟩
  exact (hr.fixed v).2 ⟨p, hfx, hp⟩

/-- An element none of whose variables `solve` may write reads the same before and after. -/
theorem Reaches.value_kept {counter : Nat} {ops : List (Op F)} {c : Client F} (h : Reaches counter ops c)
    {optimize : Optimize F} {ord : HashOrder} (hord : ord.Ok) {opts : SolvingOptions} {s' : System F}
    (hs : c.sys.solve optimize ord opts = .ok s') {i : Nat} {e : Elem F} (he : ((Store.empty F).run ops).elems[i]? = some e)
    (hp : ∀ p ∈ ((Store.empty F).run ops).primitives i, ¬ (Constrained ((Store.empty F).run ops).arguments p ∧
      (opts.decomposer ≠ .recursiveAssembly → p ∉ ((Store.empty F).run ops).fixed))) :
    ∃ v, c.sys.getValue e.kind ⟨c.sys.id, i⟩ = .ok v ∧ s'.getValue e.kind ⟨c.sys.id, i⟩ = .ok v := by
  obtain ⟨st, h1, rfl⟩ := solve_eq hs
  obtain ⟨v, -, h2⟩ := h.crel.getValue he
  refine ⟨v, h2, ?_⟩
  rw [← h2]
  have hel := h.crel.rel.element_at he
  unfold System.getValue
  rw [if_neg (by simp), if_neg (by simp), idx_of hel, ok_bind, ok_bind]
  refine fromEncodedElement_congr (fun k hk => (h.solveLoop_spec hord h1).1.2 k ?_)
  rintro ⟨comp, hcomp, hw⟩
  obtain ⟨p, h3, h4⟩ := h.crel.rel.owner_of_var hel hk
  exact hp p h3 (h.writes_owner hcomp hw h4)

/-! ## C23 -/

/-- C23 (partial): with the decomposers `None` and `SinglePass`, an element whose degrees of freedom are all fixed reads exactly
the same after `solve` as before, whatever the optimiser returns and for both perturbation settings. (For a line or circle with only
some fixed parts, apply the theorem to the fixed points and lengths. Full statement: for all decomposers; false for
`RecursiveAssembly`, see `C23_recursive_moves_fixed`.) -/
theorem C23_fixed_not_moved_partial {counter : Nat} {ops : List (Op F)} {c : Client F} (h : Reaches counter ops c)
    {optimize : Optimize F} {ord : HashOrder} (hord : ord.Ok) {opts : SolvingOptions} (hd : opts.decomposer ≠ .recursiveAssembly)
    {s' : System F} (hs : c.sys.solve optimize ord opts = .ok s') {i : Nat} {e : Elem F}
    (he : ((Store.empty F).run ops).elems[i]? = some e)
    (hfix : ((Store.empty F).run ops).primitives i ⊆ ((Store.empty F).run ops).fixed) :
    ∃ v, c.sys.getValue e.kind ⟨c.sys.id, i⟩ = .ok v ∧ s'.getValue e.kind ⟨c.sys.id, i⟩ = .ok v :=
  h.value_kept hord hs he (fun _ hp hc => hc.2 hd (hfix hp))

/-! ## C24 -/

/-- C24: for every decomposer, option and optimiser, an element none of whose points and lengths is used by a constraint reads
exactly the same after `solve` as before. -/
theorem C24_unconstrained_not_moved {counter : Nat} {ops : List (Op F)} {c : Client F} (h : Reaches counter ops c)
    {optimize : Optimize F} {ord : HashOrder} (hord : ord.Ok) {opts : SolvingOptions}
    {s' : System F} (hs : c.sys.solve optimize ord opts = .ok s') {i : Nat} {e : Elem F}
    (he : ((Store.empty F).run ops).elems[i]? = some e)
    (hfree : ∀ p ∈ ((Store.empty F).run ops).primitives i, ∀ con ∈ ((Store.empty F).run ops).cons,
      p ∉ ((Store.empty F).run ops).actsOn con) :
    ∃ v, c.sys.getValue e.kind ⟨c.sys.id, i⟩ = .ok v ∧ s'.getValue e.kind ⟨c.sys.id, i⟩ = .ok v := by
  refine h.value_kept hord hs he (fun p hp hc => ?_)
  obtain ⟨l, hl, hpl⟩ := hc.1
  obtain ⟨con, hcon, rfl⟩ := List.mem_map.1 hl
  exact hfree p hp con hcon hpl

/-! ## C22 -/

omit [Add F] [Sub F] [Mul F] [Div F] [Neg F] [Zero F] [One F] [FloatOps F] in
theorem con_equations_eq (con : Spec.Con F) : con.equations = con.kind.valency := by cases con <;> rfl

omit [Add F] [Sub F] [Mul F] [Div F] [Neg F] [Zero F] [One F] [FloatOps F] in
theorem flatMap_encCon_length (es : List (Elem F)) (cons : List (Spec.Con F)) :
    (cons.flatMap (encCon es)).length = (cons.map Spec.Con.equations).sum := by
  induction cons with
  | nil => rfl
  | cons a l ih => simp [encCon_length, ih, con_equations_eq]

/-- The expressions `solve` uses for a constraint are its equations. -/
theorem Rel.constraintExpressions {s : System F} {st : Store F} (hr : Rel s st) {n : Nat} {l : List Nat}
    (h : s.constraintExpressions n = .ok l) (e : Nat) : e ∈ l ↔ st.EquationOf n e := by
  rw [System.constraintExpressions, bind_eq_ok] at h
  obtain ⟨k, h1, h2⟩ := h
  cases h2
  rw [idx_eq_ok, hr.constraints, List.getElem?_mapIdx, Option.map_eq_some_iff] at h1
  obtain ⟨con, h3, rfl⟩ := h1
  unfold Store.EquationOf Store.firstEquation
  simp only [flatMap_encCon_length, h3, Option.some.injEq, exists_eq_left', List.mem_map, List.mem_range, con_equations_eq]
  constructor
  · rintro ⟨a, h4, rfl⟩; omega
  · rintro ⟨h4, h5⟩
    exact ⟨e - ((st.cons.take n).map Spec.Con.equations).sum, by omega, by omega⟩

omit [Add F] [Sub F] [Mul F] [Div F] [Neg F] [Zero F] [One F] [FloatOps F] in
theorem Rel.constraintExpressions_ok {s : System F} {st : Store F} (hr : Rel s st) {n : Nat} (h : n < st.cons.length) :
    ∃ l, s.constraintExpressions n = .ok l := by
  have : ∃ k, s.constraints[n]? = some k := ⟨_, List.getElem?_eq_getElem (by rw [hr.constraints]; simpa using h)⟩
  obtain ⟨k, hk⟩ := this
  exact ⟨_, by rw [System.constraintExpressions, idx_of hk, ok_bind]; rfl⟩

omit [Add F] [Sub F] [Mul F] [Div F] [Neg F] [Zero F] [One F] [FloatOps F] in
theorem forall₂_mem_right {α β : Type} {P : α → β → Prop} {l : List α} {r : List β} (h : List.Forall₂ P l r) {b : β} (hb : b ∈ r) :
    ∃ a ∈ l, P a b := by
  obtain ⟨a, h1, h2⟩ := forall₂_mem h.flip hb
  exact ⟨a, h1, h2⟩

/-- All equations of the constraints `ns` are in the flattened lists. -/
theorem mem_flatten_of_mapM {s : System F} {st : Store F} (hr : Rel s st) {ns : List Nat} {es : List (List Nat)}
    (h : ns.mapM s.constraintExpressions = .ok es) (e : Nat) : e ∈ es.flatten ↔ ∃ n ∈ ns, st.EquationOf n e := by
  have h1 := mapM_forall h
  constructor
  · intro he
    obtain ⟨l, h2, h3⟩ := List.mem_flatten.1 he
    obtain ⟨n, h4, h5⟩ := forall₂_mem_right h1 h2
    exact ⟨n, h4, (hr.constraintExpressions h5 e).1 h3⟩
  · rintro ⟨n, h2, h3⟩
    obtain ⟨l, h4, h5⟩ := forall₂_mem h1 h2
    exact List.mem_flatten.2 ⟨l, h4, (hr.constraintExpressions h5 e).2 h3⟩

/-- The equations handed to the optimiser for a component, with `None` and `RecursiveAssembly`: exactly those of its constraints. -/
theorem Reaches.calls_constraints {counter : Nat} {ops : List (Op F)} {c : Client F} (h : Reaches counter ops c) {ord : HashOrder}
    (hord : ord.Ok) {opts : SolvingOptions} (hd : opts.decomposer ≠ .singlePass) {comp : Component}
    (hcomp : comp ∈ c.sys.graph.components) {k : Nat} {calls : List (List Nat)} (hc : c.sys.CallsFor ord opts k comp calls) (e : Nat) :
    (∃ call ∈ calls, e ∈ call) ↔ ∃ n ∈ comp.constraints, ((Store.empty F).run ops).EquationOf n e := by
  have hr := h.crel.rel
  rw [System.CallsFor] at hc
  cases hdec : opts.decomposer with
  | none =>
    simp only [hdec] at hc
    obtain ⟨es, h1, rfl⟩ := hc
    simp only [List.mem_singleton, exists_eq_left, mem_flatten_of_mapM hr h1, mem_ascending]
  | singlePass => exact absurd hdec hd
  | recursiveAssembly =>
    simp only [hdec] at hc
    obtain ⟨steps, h1, h2⟩ := hc
    have h3 := (C49_constraints_once h hcomp (ord := fun tag => ord (k :: 1 :: tag)) (fun tag s => hord _ s) h1).2
    constructor
    · rintro ⟨call, h4, h5⟩
      obtain ⟨step, h6, l, h7, rfl⟩ := forall₂_mem_right h2 h4
      obtain ⟨n, h8, h9⟩ := (mem_flatten_of_mapM hr h7 e).1 h5
      exact ⟨n, (h3 n).1 (List.mem_flatMap.2 ⟨step, h6, h8⟩), h9⟩
    · rintro ⟨n, h4, h5⟩
      obtain ⟨step, h6, h7⟩ := List.mem_flatMap.1 ((h3 n).2 h4)
      obtain ⟨call, h8, l, h9, rfl⟩ := forall₂_mem h2 h6
      exact ⟨_, h8, (mem_flatten_of_mapM hr h9 e).2 ⟨n, h7, h5⟩⟩

/-- C22, exact description for `None` and `RecursiveAssembly`: the equations handed to the optimiser are those of the constraints in
components that have elements. -/
theorem C22_equations_used {counter : Nat} {ops : List (Op F)} {c : Client F} (h : Reaches counter ops c)
    {optimize : Optimize F} {ord : HashOrder} (hord : ord.Ok) {opts : SolvingOptions} (hd : opts.decomposer ≠ .singlePass)
    {st : SolveState F} (hs : c.sys.solveLoop optimize ord opts = .ok st) (e : Nat) :
    (∃ call ∈ st.calls, e ∈ call) ↔ ∃ comp ∈ c.sys.graph.components, comp.elements ≠ ∅ ∧ ∃ n ∈ comp.constraints,
      ((Store.empty F).run ops).EquationOf n e := by
  obtain ⟨-, calls, h1, h2⟩ := h.solveLoop_spec hord hs
  rw [h2]
  constructor
  · rintro ⟨call, h3, h4⟩
    obtain ⟨l, h5, h6⟩ := List.mem_flatten.1 h3
    obtain ⟨ck, h7, h8, h9⟩ := forall₂_mem_right h1 h5
    have hne : ck.1.elements ≠ ∅ := by
      intro he
      rw [h8 he] at h6
      cases h6
    exact ⟨ck.1, mem_zipIdx_fst h7, hne, (h.calls_constraints hord hd (mem_zipIdx_fst h7) (h9 hne) e).1 ⟨call, h6, h4⟩⟩
  · rintro ⟨comp, h3, hne, h4⟩
    obtain ⟨k, hk⟩ := List.mem_iff_getElem?.1 h3
    have hmem : (comp, k) ∈ c.sys.graph.components.zipIdx := List.mem_zipIdx_iff_getElem?.2 hk
    obtain ⟨l, h5, -, h6⟩ := forall₂_mem h1 hmem
    obtain ⟨call, h7, h8⟩ := (h.calls_constraints hord hd h3 (h6 hne) e).2 h4
    exact ⟨call, List.mem_flatten.2 ⟨l, h5, h7⟩, h8⟩

omit [Add F] [Sub F] [Mul F] [Div F] [Neg F] [Zero F] [One F] [FloatOps F] in
theorem actsOn_nonempty {st : Store F} {con : Spec.Con F} (hcon : st.ConOk con) : st.actsOn con ≠ [] := by
  cases con <;> simp only [Store.ConOk] at hcon <;> simp only [Store.actsOn, ne_eq, reduceCtorEq, not_false_eq_true]
  all_goals
    obtain ⟨⟨p, q, hl⟩, -⟩ := hcon
    simp [Store.lineEnds, hl]

/-- C22 (partial): with the decomposers `None` and `RecursiveAssembly`, if no constraint of the history joins two constrained parts
(see C17), every equation of every constraint is handed to the optimiser in some call. (Full statement: for every history and
decomposer; false, see `C22_constraint_never_solved` and `C22_singlePass_drops_constraint`.) -/
theorem C22_every_constraint_used_partial {counter : Nat} {ops : List (Op F)} {c : Client F} (h : Reaches counter ops c)
    (hn : NeverJoins ((Store.empty F).run ops).arguments)
    {optimize : Optimize F} {ord : HashOrder} (hord : ord.Ok) {opts : SolvingOptions} (hd : opts.decomposer ≠ .singlePass)
    {st : SolveState F} (hs : c.sys.solveLoop optimize ord opts = .ok st) {n e : Nat} (he : ((Store.empty F).run ops).EquationOf n e) :
    ∃ call ∈ st.calls, e ∈ call := by
  obtain ⟨con, hcon, -, -⟩ := id he
  obtain ⟨k, ⟨comp, h1, h2⟩, -⟩ := C17_constraints_partitioned h n (lt_of_getElem? hcon)
  have hcomp := List.mem_of_getElem? h1
  refine (C22_equations_used h hord hd hs e).2 ⟨comp, hcomp, ?_, n, h2, he⟩
  have h3 := (C17_linked_together_partial h hn hcomp).2 n h2 con hcon
  obtain ⟨i, hi⟩ := List.exists_mem_of_ne_nil _ (actsOn_nonempty (h.crel.rel.wfCon con (List.mem_of_getElem? hcon)))
  exact Finset.ne_empty_of_mem (h3 i hi)

/-- C22 (partial, `SinglePass`): if the equations that read a free variable of a component can be paired with different free
variables of it (the component is not over-determined), each of them is handed to the optimiser. -/
theorem C22_singlePass_uses_paired_partial {counter : Nat} {ops : List (Op F)} {c : Client F} (h : Reaches counter ops c)
    {optimize : Optimize F} {ord : HashOrder} (hord : ord.Ok) {opts : SolvingOptions} (hd : opts.decomposer = .singlePass)
    {st : SolveState F} (hs : c.sys.solveLoop optimize ord opts = .ok st) {comp : Component}
    (hcomp : comp ∈ c.sys.graph.components) {free : Finset Nat} (hf : c.sys.freeVariables comp.elements = .ok free)
    {M : Finset (Nat × Nat)} (hM : IsMatching (CanPair c.sys.ReadsVar free) M)
    (hall : ∀ v ∈ free, ∀ e, c.sys.ReadsVar e v → ∃ u, (u, e) ∈ M) {v e : Nat} (hv : v ∈ free) (he : c.sys.ReadsVar e v) :
    ∃ call ∈ st.calls, e ∈ call := by
  obtain ⟨-, calls, h1, h2⟩ := h.solveLoop_spec hord hs
  obtain ⟨plan, M', p1, p2, -, -, p5, -, -⟩ := h.plan (free := free) (fun v hv => h.varOf_lt ((freeVariables_spec hf v).1 hv).1)
  have hne : comp.elements ≠ ∅ := by
    obtain ⟨⟨i, hi, -⟩, -⟩ := (freeVariables_spec hf v).1 hv
    exact Finset.ne_empty_of_mem hi
  obtain ⟨k, hk⟩ := List.mem_iff_getElem?.1 hcomp
  have hmem : (comp, k) ∈ c.sys.graph.components.zipIdx := List.mem_zipIdx_iff_getElem?.2 hk
  obtain ⟨l, h5, -, h6⟩ := forall₂_mem h1 hmem
  have h6 := h6 hne
  simp only [System.CallsFor, hd] at h6
  obtain ⟨free', blocks, h7, h8, rfl⟩ := h6
  rw [hf] at h7
  cases h7
  rw [p1] at h8
  cases h8
  -- the maximum matching covers `e`
  have hcov : ∃ u, (u, e) ∈ M' := by
    have inj' : ∀ {N : Finset (Nat × Nat)}, IsMatching (CanPair c.sys.ReadsVar free) N → (N.image Prod.snd).card = N.card := by
      intro N hN
      exact Finset.card_image_of_injOn (fun p hp q hq hpq => hN.right p hp q hq hpq)
    have hsub : M'.image Prod.snd ⊆ M.image Prod.snd := by
      intro x hx
      obtain ⟨⟨u, y⟩, hp, rfl⟩ := Finset.mem_image.1 hx
      obtain ⟨h9, h10⟩ := p2.1.edge _ hp
      obtain ⟨w, hw⟩ := hall u h9 _ h10
      exact Finset.mem_image.2 ⟨_, hw, rfl⟩
    have heq : M'.image Prod.snd = M.image Prod.snd :=
      Finset.eq_of_subset_of_card_le hsub (by rw [inj' hM, inj' p2.1]; exact p2.2 M hM)
    obtain ⟨w, hw⟩ := hall v hv e he
    have : e ∈ M'.image Prod.snd := by rw [heq]; exact Finset.mem_image.2 ⟨_, hw, rfl⟩
    obtain ⟨⟨u, y⟩, hp, rfl⟩ := Finset.mem_image.1 this
    exact ⟨u, hp⟩
  obtain ⟨b, h9, h10⟩ := List.mem_flatten.1 ((p5 e).2 hcov)
  refine ⟨b, ?_, h10⟩
  rw [h2]
  refine List.mem_flatten.2 ⟨_, h5, ?_⟩
  simpa [stepsOf, List.map_map] using h9

end

/-! ## Witnesses -/

/-- Points `(1,1)` (fixed) and `(-1,1)`, required to be at distance 1. -/
noncomputable def fixedOps : List (Op ℝ) :=
  [.createPoint 1 1, .createPoint (-1) 1, .createCon (.pointPointDistance 0 1 1), .fix .point 0]

theorem fixedOps_reaches : ∃ c, Reaches 0 fixedOps c := exists_reaches 0 fixedOps (by
  simp [fixedOps, Store.LegalRun, Store.Legal, Store.empty, Store.step, Store.IsPoint, Store.ConOk, Elem.kind]) (by simp [fixedOps])

/-- Build a system, solve it, and read point 0 before and after, and the residual of constraint 0 after. -/
noncomputable def solveAndRead (ops : List (Op ℝ)) (optimize : Optimize ℝ) (opts : SolvingOptions) :
    R (ElementValue ℝ × ElementValue ℝ × ℝ) := do
  let c ← (Client.new ℝ 0).run ops
  let v ← c.sys.getValue .point ⟨0, 0⟩
  let s ← c.sys.solve optimize ascendingOrder opts
  let w ← s.getValue .point ⟨0, 0⟩
  let r ← s.calculateResidual .pointPointDistance ⟨0, 0⟩
  pure (v, w, r)

set_option maxRecDepth 10000 in
/-- C23 is false for `RecursiveAssembly`: it hands all variables of the elements of a step to the optimiser, fixed or not, and writes
them all back. Here, with any optimiser that returns `a b c d` for the problem of the only step, the fixed point is moved to
`(a, b)`; for `0 1 -1 1` (which satisfies the constraint) it is moved from `(1,1)` to `(0,1)`. -/
theorem C23_recursive_moves_fixed : ∃ c, Reaches 0 fixedOps c ∧ 0 ∈ ((Store.empty ℝ).run fixedOps).fixed ∧
    c.sys.getValue .point ⟨0, 0⟩ = .ok (.point 1 1) ∧
    (∀ a b c' d : ℝ, ∃ s', c.sys.solve (fun _ _ _ => .ok [a, b, c', d]) ascendingOrder ⟨.levenbergMarquardt, .recursiveAssembly, false⟩
        = .ok s' ∧ s'.getValue .point ⟨0, 0⟩ = .ok (.point a b)) ∧
    ∃ s', c.sys.solve (fun _ _ _ => .ok [0, 1, -1, 1]) ascendingOrder ⟨.levenbergMarquardt, .recursiveAssembly, false⟩ = .ok s' ∧
      s'.getValue .point ⟨0, 0⟩ = .ok (.point 0 1) ∧ s'.calculateResidual .pointPointDistance ⟨0, 0⟩ = .ok 0 := by
  obtain ⟨c, h⟩ := fixedOps_reaches
  refine ⟨c, h, ?_, ?_⟩
  · show 0 ∈ (∅ : Finset Nat) ∪ {0}
    simp
  have key : ∀ a b c' d : ℝ, solveAndRead fixedOps (fun _ _ _ => .ok [a, b, c', d]) ⟨.levenbergMarquardt, .recursiveAssembly, false⟩ =
      .ok (.point 1 1, .point (rootMeanSquares [1, 1, -1, 1, 1] * a) (rootMeanSquares [1, 1, -1, 1, 1] * b),
        (ppdResGrad (rootMeanSquares [1, 1, -1, 1, 1] * a) (rootMeanSquares [1, 1, -1, 1, 1] * b)
          (rootMeanSquares [1, 1, -1, 1, 1] * c') (rootMeanSquares [1, 1, -1, 1, 1] * d) 1).1) := fun a b c' d => rfl
  have hk : rootMeanSquares [1, 1, -1, 1, (1 : ℝ)] = 1 := by
    show Real.sqrt ((0 + 1 * 1 + 1 * 1 + -1 * -1 + 1 * 1 + 1 * 1) / ((5 : ℕ) : ℝ)) = 1
    norm_num
  simp only [hk, one_mul, solveAndRead, h.run, ok_bind, bind_eq_ok, pure_eq_ok, Except.ok.injEq, Prod.mk.injEq] at key
  refine ⟨?_, ?_, ?_⟩
  · obtain ⟨v, h1, s', -, w, -, r, -, rfl, -⟩ := key 0 0 0 0
    exact h1
  · intro a b c' d
    obtain ⟨v, -, s', h1, w, h2, r, -, -, rfl, -⟩ := key a b c' d
    exact ⟨s', h1, h2⟩
  · obtain ⟨v, -, s', h1, w, h2, r, h3, -, rfl, rfl⟩ := key 0 1 (-1) 1
    refine ⟨s', h1, h2, ?_⟩
    rw [h3, Except.ok.injEq]
    show Real.sqrt ((0 - -1) * (0 - -1) + (1 - 1) * (1 - 1)) - 1 = 0
    norm_num

/-- Case for C23 and C24: the same system and options other than `RecursiveAssembly` (solving succeeds). -/
example : ∃ c, Reaches 0 fixedOps c ∧ ∃ s', c.sys.solve (fun _ _ v => .ok v) ascendingOrder .default = .ok s' := by
  obtain ⟨c, h⟩ := fixedOps_reaches
  have key : ∃ s', (do let c ← (Client.new ℝ 0).run fixedOps; c.sys.solve (fun _ _ v => .ok v) ascendingOrder .default) = .ok s' :=
    ⟨_, rfl⟩
  rw [h.run] at key
  exact ⟨c, h, key⟩

/-- The history of `C17_joined_parts_fall_apart` with real coordinates. -/
noncomputable def joinRealOps : List (Op ℝ) :=
  [.createPoint 0 0, .createPoint 1 0, .createPoint 2 0, .createPoint 3 0, .createPoint 4 0, .createPoint 5 0,
   .createCon (.pointPointDistance 0 1 1), .createCon (.pointPointDistance 2 3 1), .createCon (.pointPointDistance 4 5 1),
   .createCon (.pointPointDistance 1 2 1), .createCon (.pointPointDistance 1 4 1), .createCon (.pointPointDistance 3 5 1)]

/-- C22 is false in general: in this history the last constraint (a distance between points 3 and 5) ends up in a component without
elements, which `solve` skips: with `None` and `RecursiveAssembly` no call of the optimiser gets its equation. Solving does
succeed. -/
theorem C22_constraint_never_solved : ∃ c, Reaches 0 joinRealOps c ∧ ((Store.empty ℝ).run joinRealOps).EquationOf 5 5 ∧
    (∃ st, c.sys.solveLoop (fun _ _ v => .ok v) ascendingOrder .default = .ok st) ∧
    ∀ optimize ord opts st, HashOrder.Ok ord → opts.decomposer ≠ .singlePass → c.sys.solveLoop optimize ord opts = .ok st →
      ∀ call ∈ st.calls, 5 ∉ call := by
  obtain ⟨c, h⟩ := exists_reaches 0 joinRealOps (by
    simp [joinRealOps, Store.LegalRun, Store.Legal, Store.empty, Store.step, Store.IsPoint, Store.ConOk]) (by simp [joinRealOps])
  have h2 : okAnd ((Client.new ℝ 0).run joinRealOps) (fun c => c.sys.graph.components.map (fun k => (k.elements, k.constraints)) =
      [({0, 1, 2, 3, 4, 5}, {0, 1, 2, 3, 4}), (∅, ∅), (∅, ∅), (∅, {5})]) = true := by decide +kernel
  rw [h.run] at h2
  have hcomp := components_of_pairs (of_decide_eq_true h2)
  refine ⟨c, h, ⟨_, rfl, by decide, by decide⟩, ?_, ?_⟩
  · have key : ∃ st, (do let c ← (Client.new ℝ 0).run joinRealOps; c.sys.solveLoop (fun _ _ v => .ok v) ascendingOrder .default) = .ok st :=
      ⟨_, rfl⟩
    rw [h.run] at key
    exact key
  · intro optimize ord opts st hord hd hs call hcall h5
    obtain ⟨comp, h3, h4, n, h6, con, h7, h8, h9⟩ := (C22_equations_used h hord hd hs 5).1 ⟨call, hcall, h5⟩
    rw [hcomp] at h3
    simp only [List.map_cons, List.map_nil, List.mem_cons, List.not_mem_nil, or_false] at h3
    rcases h3 with rfl | rfl | rfl | rfl
    · simp only [Finset.mem_insert, Finset.mem_singleton] at h6
      rcases h6 with rfl | rfl | rfl | rfl | rfl <;> cases h7 <;> revert h9 <;> decide
    · exact h4 rfl
    · exact h4 rfl
    · exact h4 rfl

/-- A free point and its distances to three fixed points. -/
noncomputable def overOps : List (Op ℝ) :=
  [.createPoint 0 0, .createPoint 3 0, .createPoint 0 3, .createPoint 3 3,
   .createCon (.pointPointDistance 0 1 2), .createCon (.pointPointDistance 0 2 2), .createCon (.pointPointDistance 0 3 3),
   .fix .point 1, .fix .point 2, .fix .point 3]

/-- C22 is false for `SinglePass`: equations that cannot be paired with a variable are dropped without notice. Here the third
distance takes part in no call, whatever the optimiser and the iteration order. -/
theorem C22_singlePass_drops_constraint : ∃ c, Reaches 0 overOps c ∧ ((Store.empty ℝ).run overOps).EquationOf 2 2 ∧
    (∃ st, c.sys.solveLoop (fun _ _ v => .ok v) ascendingOrder ⟨.levenbergMarquardt, .singlePass, true⟩ = .ok st) ∧
    ∀ optimize ord opts st, HashOrder.Ok ord → opts.decomposer = .singlePass → c.sys.solveLoop optimize ord opts = .ok st →
      ∀ call ∈ st.calls, 2 ∉ call := by
  obtain ⟨c, h⟩ := exists_reaches 0 overOps (by
    simp [overOps, Store.LegalRun, Store.Legal, Store.empty, Store.step, Store.IsPoint, Store.ConOk, Elem.kind]) (by simp [overOps])
  have h2 : okAnd ((Client.new ℝ 0).run overOps) (fun c => c.sys.graph.components.map (fun k => (k.elements, k.constraints)) =
      [({0, 1, 2, 3}, {0, 1, 2})]) = true := by decide +kernel
  have h3 : okAnd ((Client.new ℝ 0).run overOps) (fun c => okAnd (c.sys.freeVariables {0, 1, 2, 3}) (fun free =>
      okAnd (c.sys.equationGraph.findStronglyConnectedExpressions free) (fun p => p.map (·.expressions) = [[0, 1]]))) = true := by
    decide +kernel
  rw [h.run] at h2 h3
  have hcomp := components_of_pairs (of_decide_eq_true h2)
  refine ⟨c, h, ⟨_, rfl, by decide, by decide⟩, ?_, ?_⟩
  · have key : ∃ st, (do let c ← (Client.new ℝ 0).run overOps; c.sys.solveLoop (fun _ _ v => .ok v) ascendingOrder ⟨.levenbergMarquardt, .singlePass, true⟩) = .ok st :=
      ⟨_, rfl⟩
    rw [h.run] at key
    exact key
  · intro optimize ord opts st hord hd hs call hcall h5
    obtain ⟨-, calls, h6, h7⟩ := h.solveLoop_spec hord hs
    rw [hcomp] at h6
    simp only [List.map_cons, List.map_nil, List.zipIdx_cons, List.zipIdx_nil] at h6
    cases h6 with
    | cons h8 h9 =>
      cases h9
      have h8 := h8.2 (by decide)
      simp only [System.CallsFor, hd] at h8
      obtain ⟨free, blocks, h10, h11, rfl⟩ := h8
      simp only [okAnd, h10, h11, decide_eq_true_eq] at h3
      rw [h7, List.flatten_cons, List.flatten_nil, List.append_nil, h3] at hcall
      rw [List.mem_singleton.1 hcall] at h5
      simp at h5

end Fiksi
