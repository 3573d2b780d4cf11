import Verif.Model.Client
import Verif.Proofs.GraphOk
import Mathlib.Tactic.IntervalCases
/-!
# The model of the API refines the specification store

`Rel s st`: the system `s` represents the store `st`. Every field of `s` is determined by `st` (except the connected components,
see `Verif.Proofs.Components`).
-/
namespace Fiksi

open Spec

variable {F : Type}

/-- Index of the first variable of element number `i`. -/
def off (es : List (Elem F)) (i : Nat) : Nat := ((es.take i).flatMap elemValues).length

/-- Encoding of element number `i`. -/
def encElem (es : List (Elem F)) (i : Nat) : Elem F → EncodedElement
  | .length _ => .length (off es i)
  | .point _ _ => .point (off es i)
  | .line p q => .line (off es p) (off es q)
  | .circle c r => .circle (off es c) (off es r)

/-- Variable indices of the end points of line number `l`. -/
def lineOff (es : List (Elem F)) (l : Nat) : Nat × Nat :=
  match es[l]? with
  | some (.line p q) => (off es p, off es q)
  | _ => (0, 0)

/-- Variable indices of centre and radius of circle number `c`. -/
def circOff (es : List (Elem F)) (c : Nat) : Nat × Nat :=
  match es[c]? with
  | some (.circle p r) => (off es p, off es r)
  | _ => (0, 0)

/-- The expressions of a constraint. -/
def encCon (es : List (Elem F)) : Con F → List (Expr F)
  | .pointPointCoincidence p q =>
      [.variableVariableEquality (off es p) (off es q), .variableVariableEquality (off es p + 1) (off es q + 1)]
  | .pointPointDistance p q d => [.pointPointDistance (off es p) (off es q) d]
  | .pointPointPointAngle p q r a => [.pointPointPointAngle (off es p) (off es q) (off es r) a]
  | .pointLineIncidence p l => [.pointLineIncidence (off es p) (lineOff es l).1 (lineOff es l).2]
  | .pointLineDistance p l d => [.pointLineDistance (off es p) (lineOff es l).1 (lineOff es l).2 d]
  | .pointCircleIncidence p c => [.pointCircleIncidence (off es p) (circOff es c).1 (circOff es c).2]
  | .segmentSegmentLengthEquality a b c d =>
      [.segmentSegmentLengthEquality (off es a) (off es b) (off es c) (off es d)]
  | .lineLineAngle l m a =>
      [.lineLineAngle (lineOff es l).1 (lineOff es l).2 (lineOff es m).1 (lineOff es m).2 a]
  | .lineLineParallelism l m =>
      [.lineLineParallelism (lineOff es l).1 (lineOff es l).2 (lineOff es m).1 (lineOff es m).2]
  | .lineLinePerpendicularity l m =>
      [.lineLinePerpendicularity (lineOff es l).1 (lineOff es l).2 (lineOff es m).1 (lineOff es m).2]
  | .lineCircleTangency l c =>
      [.lineCircleTangency (lineOff es l).1 (lineOff es l).2 (circOff es c).1 (circOff es c).2]

/-- The parts of a compound element exist and have the right kinds. -/
def ElemOk (st : Store F) : Elem F → Prop
  | .length _ => True
  | .point _ _ => True
  | .line p q => st.IsPoint p ∧ st.IsPoint q
  | .circle c r => st.IsPoint c ∧ st.IsLength r

/-- The expressions using variable `v`, with multiplicity, in order. -/
def usesOf (exprs : List (Expr F)) (v : Nat) : List Nat :=
  exprs.zipIdx.flatMap (fun ei => List.replicate (ei.1.variableIndices.count v) ei.2)

/-- The equation graph `g` mirrors the list of expressions over `n` variables. -/
structure EqRel (g : ExprGraph) (exprs : List (Expr F)) (n : Nat) : Prop where
  expressions : g.expressions = exprs.map Expr.variableIndices
  varsLength : g.vars.length = n
  vars : ∀ v, v < n → g.vars[v]? = some (usesOf exprs v)

/-- The owner of each variable. -/
def owners (es : List (Elem F)) : List Nat :=
  es.zipIdx.flatMap (fun ei => List.replicate (elemValues ei.1).length ei.2)

/-- The system `s` represents the store `st`. -/
structure Rel (s : System F) (st : Store F) : Prop where
  wfElem : ∀ (i : Nat) e, st.elems[i]? = some e → ElemOk st e
  wfCon : ∀ c ∈ st.cons, st.ConOk c
  wfFixed : ∀ i ∈ st.fixed, st.IsPoint i ∨ st.IsLength i
  vars : s.vars = st.elems.flatMap elemValues
  elements : s.elements = st.elems.mapIdx (encElem st.elems)
  owners : s.variableToPrimitive = owners st.elems
  fixed : ∀ k, k ∈ s.fixedVariables ↔ ∃ i ∈ st.fixed, s.variableToPrimitive[k]? = some i
  exprs : s.expressions = st.cons.flatMap (encCon st.elems)
  constraints : s.constraints =
    st.cons.mapIdx (fun i c => ⟨c.kind, ((st.cons.take i).flatMap (encCon st.elems)).length⟩)
  exprCon : s.expressionToConstraint =
    st.cons.zipIdx.flatMap (fun ci => List.replicate ci.1.kind.valency ci.2)
  graph : GraphShape s.graph st.elems.length st.cons.length
  graphCons : s.graph.constraints = st.cons.map (fun c => ⟨c.kind.valency, st.actsOn c⟩)
  eqGraph : EqRel s.equationGraph s.expressions s.vars.length

theorem Rel.new (counter : Nat) : Rel (System.new F counter).1 (Store.empty F) := by
  constructor <;> first | exact GraphShape.new | skip
  all_goals simp [System.new, Store.empty, Fiksi.owners, Graph.new]
  exact ⟨rfl, rfl, by simp⟩

/-! ## Offsets -/

theorem elemValues_length_le (e : Elem F) : (elemValues e).length ≤ 2 := by
  cases e <;> simp [elemValues]

theorem flatMap_length_le (es : List (Elem F)) : (es.flatMap elemValues).length ≤ 2 * es.length := by
  induction es with
  | nil => simp
  | cons e es ih =>
    have := elemValues_length_le e
    simp only [List.flatMap_cons, List.length_append, List.length_cons]; omega

theorem encCon_length (es : List (Elem F)) (c : Con F) : (encCon es c).length = c.kind.valency := by
  cases c <;> rfl

theorem off_append (es : List (Elem F)) (x : Elem F) {p : Nat} (h : p ≤ es.length) : off (es ++ [x]) p = off es p := by
  unfold off
  rw [List.take_append_of_le_length h]

theorem off_length (es : List (Elem F)) : off es es.length = (es.flatMap elemValues).length := by
  simp [off]

theorem lt_of_getElem? {α : Type} {l : List α} {i : Nat} {a : α} (h : l[i]? = some a) : i < l.length := by
  rw [List.getElem?_eq_some_iff] at h
  exact h.1

theorem Spec.Store.IsPoint.lt {st : Store F} {i : Nat} (h : st.IsPoint i) : i < st.elems.length := by
  obtain ⟨x, y, h⟩ := h
  exact lt_of_getElem? h

theorem Spec.Store.IsLength.lt {st : Store F} {i : Nat} (h : st.IsLength i) : i < st.elems.length := by
  obtain ⟨x, h⟩ := h
  exact lt_of_getElem? h

theorem off_add_le (es : List (Elem F)) {i : Nat} {e : Elem F} (h : es[i]? = some e) :
    off es i + (elemValues e).length ≤ (es.flatMap elemValues).length := by
  induction es generalizing i with
  | nil => simp at h
  | cons a es ih =>
    cases i with
    | zero =>
      simp only [List.getElem?_cons_zero, Option.some.injEq] at h
      subst h
      simp [off]
    | succ i =>
      simp only [List.getElem?_cons_succ] at h
      have := ih h
      simp only [off, List.take_succ_cons, List.flatMap_cons, List.length_append] at this ⊢
      omega

/-- Looking up a coordinate of a point or length. -/
theorem var_at (es : List (Elem F)) {i j : Nat} {e : Elem F} (h : es[i]? = some e) (hj : j < (elemValues e).length) :
    (es.flatMap elemValues)[off es i + j]? = (elemValues e)[j]? :=
  flatMap_getElem? elemValues es i j e h hj

/-- Offsets in the list of owners are the same as in the list of variables. -/
theorem owners_take (es : List (Elem F)) (i k : Nat) :
    (((es.zipIdx k).take i).flatMap (fun ei => List.replicate (elemValues ei.1).length ei.2)).length = off es i := by
  induction es generalizing i k with
  | nil => simp [off]
  | cons a es ih =>
    cases i with
    | zero => simp [off]
    | succ i =>
      have := ih i (k + 1)
      simp only [List.zipIdx_cons, List.take_succ_cons, List.flatMap_cons, List.length_append, List.length_replicate, this,
        off]

theorem owners_length (es : List (Elem F)) : (owners es).length = (es.flatMap elemValues).length := by
  have := owners_take es es.length 0
  rw [off_length] at this
  rw [← this, List.take_of_length_le (by simp)]
  rfl

theorem owner_at (es : List (Elem F)) {i j : Nat} {e : Elem F} (h : es[i]? = some e) (hj : j < (elemValues e).length) :
    (owners es)[off es i + j]? = some i := by
  have h1 : es.zipIdx[i]? = some (e, i) := by simp [List.getElem?_zipIdx, h]
  have := flatMap_getElem? (fun ei : Elem F × Nat => List.replicate (elemValues ei.1).length ei.2) es.zipIdx i j (e, i) h1
    (by simpa using hj)
  rw [owners_take] at this
  unfold owners
  rw [this]
  simp [hj]

theorem owners_append (es : List (Elem F)) (x : Elem F) :
    owners (es ++ [x]) = owners es ++ List.replicate (elemValues x).length es.length := by
  simp [owners, List.zipIdx_append, List.flatMap_append]

/-- Every variable belongs to the element recorded as its owner. -/
theorem owner_inv (es : List (Elem F)) {k i : Nat} (h : (owners es)[k]? = some i) :
    ∃ e j, es[i]? = some e ∧ j < (elemValues e).length ∧ k = off es i + j := by
  induction es using List.reverseRecOn generalizing k with
  | nil => simp [owners] at h
  | append_singleton es x ih =>
    rw [owners_append] at h
    by_cases hk : k < (owners es).length
    · rw [List.getElem?_append_left hk] at h
      obtain ⟨e, j, h1, h2, h3⟩ := ih h
      have := lt_of_getElem? h1
      exact ⟨e, j, by rw [List.getElem?_append_left this]; exact h1, h2, by rw [off_append _ _ (by omega)]; exact h3⟩
    · rw [List.getElem?_append_right (by omega)] at h
      rw [List.getElem?_replicate] at h
      split at h
      · rename_i hlt
        simp only [Option.some.injEq] at h
        subst h
        refine ⟨x, k - (owners es).length, by simp, hlt, ?_⟩
        rw [off_append _ _ (le_refl _), off_length, ← owners_length]
        omega
      · simp at h

/-- Two variables of different elements are different. -/
theorem off_inj (es : List (Elem F)) {i i' j j' : Nat} {e e' : Elem F} (h : es[i]? = some e) (h' : es[i']? = some e')
    (hj : j < (elemValues e).length) (hj' : j' < (elemValues e').length) (heq : off es i + j = off es i' + j') :
    i = i' ∧ j = j' := by
  have h1 := owner_at es h hj
  have h2 := owner_at es h' hj'
  rw [heq, h2] at h1
  simp only [Option.some.injEq] at h1
  subst h1
  omega

/-! ## Lookups in a represented system -/

section lookups
variable {s : System F} {st : Store F}

theorem Rel.elements_length (h : Rel s st) : s.elements.length = st.elems.length := by
  rw [h.elements]; simp

theorem Rel.element_at (h : Rel s st) {i : Nat} {e : Elem F} (he : st.elems[i]? = some e) :
    s.elements[i]? = some (encElem st.elems i e) := by
  rw [h.elements, List.getElem?_mapIdx, he]; rfl

theorem Rel.expectPoint (h : Rel s st) {i k : Nat} (hp : st.IsPoint i) : s.expectPoint ⟨k, i⟩ = .ok (off st.elems i) := by
  obtain ⟨x, y, hp⟩ := hp
  simp only [System.expectPoint, idx_of (h.element_at hp), ok_bind, encElem, pure_eq_ok]

theorem Rel.expectLength (h : Rel s st) {i k : Nat} (hp : st.IsLength i) : s.expectLength ⟨k, i⟩ = .ok (off st.elems i) := by
  obtain ⟨x, hp⟩ := hp
  simp only [System.expectLength, idx_of (h.element_at hp), ok_bind, encElem, pure_eq_ok]

theorem Rel.expectLine (h : Rel s st) {i k : Nat} (hp : st.IsLine i) : s.expectLine ⟨k, i⟩ = .ok (lineOff st.elems i) := by
  obtain ⟨p, q, hp⟩ := hp
  simp only [System.expectLine, idx_of (h.element_at hp), ok_bind, encElem, pure_eq_ok, lineOff, hp]

theorem Rel.expectCircle (h : Rel s st) {i k : Nat} (hp : st.IsCircle i) : s.expectCircle ⟨k, i⟩ = .ok (circOff st.elems i) := by
  obtain ⟨p, q, hp⟩ := hp
  simp only [System.expectCircle, idx_of (h.element_at hp), ok_bind, encElem, pure_eq_ok, circOff, hp]

theorem Rel.owner_point (h : Rel s st) {p : Nat} (hp : st.IsPoint p) :
    idx s.variableToPrimitive (off st.elems p) = .ok p := by
  obtain ⟨x, y, hp⟩ := hp
  apply idx_of
  rw [h.owners]
  exact owner_at st.elems (j := 0) hp (by simp [elemValues])

theorem Rel.owner_length (h : Rel s st) {p : Nat} (hp : st.IsLength p) :
    idx s.variableToPrimitive (off st.elems p) = .ok p := by
  obtain ⟨x, hp⟩ := hp
  apply idx_of
  rw [h.owners]
  exact owner_at st.elems (j := 0) hp (by simp [elemValues])

theorem Rel.line (h : Rel s st) {l : Nat} (hl : st.IsLine l) :
    ∃ p q, st.elems[l]? = some (.line p q) ∧ st.IsPoint p ∧ st.IsPoint q ∧
      lineOff st.elems l = (off st.elems p, off st.elems q) ∧ st.lineEnds l = [p, q] := by
  obtain ⟨p, q, hl⟩ := hl
  have := h.wfElem l _ hl
  exact ⟨p, q, hl, this.1, this.2, by simp [lineOff, hl], by simp [Store.lineEnds, hl]⟩

theorem Rel.circle (h : Rel s st) {l : Nat} (hl : st.IsCircle l) :
    ∃ p q, st.elems[l]? = some (.circle p q) ∧ st.IsPoint p ∧ st.IsLength q ∧
      circOff st.elems l = (off st.elems p, off st.elems q) ∧ st.circleParts l = [p, q] := by
  obtain ⟨p, q, hl⟩ := hl
  have := h.wfElem l _ hl
  exact ⟨p, q, hl, this.1, this.2, by simp [circOff, hl], by simp [Store.circleParts, hl]⟩

theorem Rel.vars_length_le (h : Rel s st) : s.vars.length ≤ 2 * st.elems.length := by
  rw [h.vars]; exact flatMap_length_le _

theorem exprs_length_le (es : List (Elem F)) (cons : List (Con F)) :
    (cons.flatMap (encCon es)).length ≤ 2 * cons.length := by
  induction cons with
  | nil => simp
  | cons c cons ih =>
    have : (encCon es c).length ≤ 2 := by rw [encCon_length]; cases c <;> simp [Con.kind, ConstraintTag.valency]
    simp only [List.flatMap_cons, List.length_append, List.length_cons]; omega

theorem Rel.exprs_length_le (h : Rel s st) : s.expressions.length ≤ 2 * st.cons.length := by
  rw [h.exprs]; exact Fiksi.exprs_length_le _ _

end lookups

/-! ## Creating elements -/

theorem IsPoint_append {st : Store F} {x : Elem F} {i : Nat} (h : st.IsPoint i) :
    Store.IsPoint { st with elems := st.elems ++ [x] } i := by
  obtain ⟨a, b, h⟩ := h
  exact ⟨a, b, by simp only; rw [List.getElem?_append_left (lt_of_getElem? h)]; exact h⟩

theorem IsLength_append {st : Store F} {x : Elem F} {i : Nat} (h : st.IsLength i) :
    Store.IsLength { st with elems := st.elems ++ [x] } i := by
  obtain ⟨a, h⟩ := h
  exact ⟨a, by simp only; rw [List.getElem?_append_left (lt_of_getElem? h)]; exact h⟩

theorem IsLine_append {st : Store F} {x : Elem F} {i : Nat} (h : st.IsLine i) :
    Store.IsLine { st with elems := st.elems ++ [x] } i := by
  obtain ⟨a, b, h⟩ := h
  exact ⟨a, b, by simp only; rw [List.getElem?_append_left (lt_of_getElem? h)]; exact h⟩

theorem IsCircle_append {st : Store F} {x : Elem F} {i : Nat} (h : st.IsCircle i) :
    Store.IsCircle { st with elems := st.elems ++ [x] } i := by
  obtain ⟨a, b, h⟩ := h
  exact ⟨a, b, by simp only; rw [List.getElem?_append_left (lt_of_getElem? h)]; exact h⟩

theorem ElemOk_append {st : Store F} {x e : Elem F} (h : ElemOk st e) :
    ElemOk { st with elems := st.elems ++ [x] } e := by
  cases e with
  | length v => trivial
  | point x y => trivial
  | line p q => exact ⟨IsPoint_append h.1, IsPoint_append h.2⟩
  | circle p q => exact ⟨IsPoint_append h.1, IsLength_append h.2⟩

theorem ConOk_append {st : Store F} {x : Elem F} {c : Con F} (h : st.ConOk c) :
    Store.ConOk { st with elems := st.elems ++ [x] } c := by
  cases c <;> simp only [Store.ConOk] at h ⊢ <;>
    first
      | exact ⟨IsPoint_append h.1, IsPoint_append h.2⟩
      | exact ⟨IsPoint_append h.1, IsPoint_append h.2.1, IsPoint_append h.2.2⟩
      | exact ⟨IsPoint_append h.1, IsLine_append h.2⟩
      | exact ⟨IsPoint_append h.1, IsCircle_append h.2⟩
      | exact ⟨IsPoint_append h.1, IsPoint_append h.2.1, IsPoint_append h.2.2.1, IsPoint_append h.2.2.2⟩
      | exact ⟨IsLine_append h.1, IsLine_append h.2⟩
      | exact ⟨IsLine_append h.1, IsCircle_append h.2⟩

theorem encElem_append (st : Store F) (x e : Elem F) {i : Nat} (hi : i < st.elems.length) (h : ElemOk st e) :
    encElem (st.elems ++ [x]) i e = encElem st.elems i e := by
  cases e with
  | length v => simp [encElem, off_append _ _ (le_of_lt hi)]
  | point a b => simp [encElem, off_append _ _ (le_of_lt hi)]
  | line p q => simp [encElem, off_append _ _ (le_of_lt h.1.lt), off_append _ _ (le_of_lt h.2.lt)]
  | circle p q => simp [encElem, off_append _ _ (le_of_lt h.1.lt), off_append _ _ (le_of_lt h.2.lt)]

theorem lineOff_append {s : System F} {st : Store F} (hr : Rel s st) (x : Elem F) {l : Nat} (h : st.IsLine l) :
    lineOff (st.elems ++ [x]) l = lineOff st.elems l := by
  obtain ⟨p, q, h1, h2, h3, h4, -⟩ := hr.line h
  rw [h4]
  simp [lineOff, List.getElem?_append_left (lt_of_getElem? h1), h1, off_append _ _ (le_of_lt h2.lt),
    off_append _ _ (le_of_lt h3.lt)]

theorem circOff_append {s : System F} {st : Store F} (hr : Rel s st) (x : Elem F) {l : Nat} (h : st.IsCircle l) :
    circOff (st.elems ++ [x]) l = circOff st.elems l := by
  obtain ⟨p, q, h1, h2, h3, h4, -⟩ := hr.circle h
  rw [h4]
  simp [circOff, List.getElem?_append_left (lt_of_getElem? h1), h1, off_append _ _ (le_of_lt h2.lt),
    off_append _ _ (le_of_lt h3.lt)]

theorem encCon_append {s : System F} {st : Store F} (hr : Rel s st) (x : Elem F) {c : Con F} (h : st.ConOk c) :
    encCon (st.elems ++ [x]) c = encCon st.elems c := by
  have ho : ∀ {p}, st.IsPoint p → off (st.elems ++ [x]) p = off st.elems p :=
    fun hp => off_append _ _ (le_of_lt hp.lt)
  cases c <;> simp only [Store.ConOk] at h <;> simp only [encCon]
  · rw [ho h.1, ho h.2]
  · rw [ho h.1, ho h.2]
  · rw [ho h.1, ho h.2.1, ho h.2.2]
  · rw [ho h.1, lineOff_append hr x h.2]
  · rw [ho h.1, lineOff_append hr x h.2]
  · rw [ho h.1, circOff_append hr x h.2]
  · rw [ho h.1, ho h.2.1, ho h.2.2.1, ho h.2.2.2]
  · rw [lineOff_append hr x h.1, lineOff_append hr x h.2]
  · rw [lineOff_append hr x h.1, lineOff_append hr x h.2]
  · rw [lineOff_append hr x h.1, lineOff_append hr x h.2]
  · rw [lineOff_append hr x h.1, circOff_append hr x h.2]

theorem lineEnds_append {st : Store F} (x : Elem F) {l : Nat} (h : st.IsLine l) :
    Store.lineEnds { st with elems := st.elems ++ [x] } l = st.lineEnds l := by
  obtain ⟨p, q, h⟩ := h
  simp [Store.lineEnds, List.getElem?_append_left (lt_of_getElem? h)]

theorem circleParts_append {st : Store F} (x : Elem F) {l : Nat} (h : st.IsCircle l) :
    Store.circleParts { st with elems := st.elems ++ [x] } l = st.circleParts l := by
  obtain ⟨p, q, h⟩ := h
  simp [Store.circleParts, List.getElem?_append_left (lt_of_getElem? h)]

theorem actsOn_append {st : Store F} (x : Elem F) {c : Con F} (h : st.ConOk c) :
    Store.actsOn { st with elems := st.elems ++ [x] } c = st.actsOn c := by
  cases c <;> simp only [Store.ConOk] at h <;> simp only [Store.actsOn]
  · rw [lineEnds_append x h.2]
  · rw [lineEnds_append x h.2]
  · rw [circleParts_append x h.2]
  · rw [lineEnds_append x h.1, lineEnds_append x h.2]
  · rw [lineEnds_append x h.1, lineEnds_append x h.2]
  · rw [lineEnds_append x h.1, lineEnds_append x h.2]
  · rw [lineEnds_append x h.1, circleParts_append x h.2]

theorem flatMap_congr' {α β : Type} {f g : α → List β} {l : List α} (h : ∀ a ∈ l, f a = g a) : l.flatMap f = l.flatMap g := by
  induction l with
  | nil => rfl
  | cons a l ih =>
    rw [List.flatMap_cons, List.flatMap_cons, h a (by simp), ih (fun a ha => h a (by simp [ha]))]

theorem mapIdx_congr' {α β : Type} {f g : Nat → α → β} {l : List α} (h : ∀ i a, l[i]? = some a → f i a = g i a) :
    l.mapIdx f = l.mapIdx g := by
  apply List.ext_getElem?
  intro i
  rw [List.getElem?_mapIdx, List.getElem?_mapIdx]
  cases hi : l[i]? with
  | none => rfl
  | some a => simp [h i a hi]

/-- No expression of a represented system uses a variable that does not exist. -/
theorem encCon_lt {s : System F} {st : Store F} (hr : Rel s st) {c : Con F} (h : st.ConOk c) {e : Expr F}
    (he : e ∈ encCon st.elems c) {v : Nat} (hv : v ∈ e.variableIndices) : v < s.vars.length := by
  have hp : ∀ {p}, st.IsPoint p → off st.elems p + 1 < s.vars.length := by
    intro p hp
    obtain ⟨x, y, hp⟩ := hp
    have := off_add_le st.elems hp
    rw [hr.vars]
    simp only [elemValues, List.length_cons, List.length_nil] at this
    omega
  have hl : ∀ {p}, st.IsLength p → off st.elems p < s.vars.length := by
    intro p hp
    obtain ⟨x, hp⟩ := hp
    have := off_add_le st.elems hp
    rw [hr.vars]
    simp only [elemValues, List.length_cons, List.length_nil] at this
    omega
  have hline : ∀ {l}, st.IsLine l → (lineOff st.elems l).1 + 1 < s.vars.length ∧ (lineOff st.elems l).2 + 1 < s.vars.length := by
    intro l hl
    obtain ⟨p, q, -, h2, h3, h4, -⟩ := hr.line hl
    rw [h4]
    exact ⟨hp h2, hp h3⟩
  have hcirc : ∀ {l}, st.IsCircle l → (circOff st.elems l).1 + 1 < s.vars.length ∧ (circOff st.elems l).2 < s.vars.length := by
    intro l hc
    obtain ⟨p, q, -, h2, h3, h4, -⟩ := hr.circle hc
    rw [h4]
    exact ⟨hp h2, hl h3⟩
  cases c <;> simp only [Store.ConOk] at h <;> simp only [encCon, List.mem_cons, List.not_mem_nil, or_false] at he
  · have h1 := hp h.1; have h2 := hp h.2
    rcases he with he | he <;> subst he <;> simp only [Expr.variableIndices, List.mem_cons, List.not_mem_nil, or_false] at hv <;> omega
  · have h1 := hp h.1; have h2 := hp h.2
    subst he; simp only [Expr.variableIndices, List.mem_cons, List.not_mem_nil, or_false] at hv; omega
  · have h1 := hp h.1; have h2 := hp h.2.1; have h3 := hp h.2.2
    subst he; simp only [Expr.variableIndices, List.mem_cons, List.not_mem_nil, or_false] at hv; omega
  · have h1 := hp h.1; have h2 := hline h.2
    subst he; simp only [Expr.variableIndices, List.mem_cons, List.not_mem_nil, or_false] at hv; omega
  · have h1 := hp h.1; have h2 := hline h.2
    subst he; simp only [Expr.variableIndices, List.mem_cons, List.not_mem_nil, or_false] at hv; omega
  · have h1 := hp h.1; have h2 := hcirc h.2
    subst he; simp only [Expr.variableIndices, List.mem_cons, List.not_mem_nil, or_false] at hv; omega
  · have h1 := hp h.1; have h2 := hp h.2.1; have h3 := hp h.2.2.1; have h4 := hp h.2.2.2
    subst he; simp only [Expr.variableIndices, List.mem_cons, List.not_mem_nil, or_false] at hv; omega
  · have h1 := hline h.1; have h2 := hline h.2
    subst he; simp only [Expr.variableIndices, List.mem_cons, List.not_mem_nil, or_false] at hv; omega
  · have h1 := hline h.1; have h2 := hline h.2
    subst he; simp only [Expr.variableIndices, List.mem_cons, List.not_mem_nil, or_false] at hv; omega
  · have h1 := hline h.1; have h2 := hline h.2
    subst he; simp only [Expr.variableIndices, List.mem_cons, List.not_mem_nil, or_false] at hv; omega
  · have h1 := hline h.1; have h2 := hcirc h.2
    subst he; simp only [Expr.variableIndices, List.mem_cons, List.not_mem_nil, or_false] at hv; omega

theorem Rel.expr_lt {s : System F} {st : Store F} (hr : Rel s st) {e : Expr F} (he : e ∈ s.expressions) {v : Nat}
    (hv : v ∈ e.variableIndices) : v < s.vars.length := by
  rw [hr.exprs, List.mem_flatMap] at he
  obtain ⟨c, hc, he⟩ := he
  exact encCon_lt hr (hr.wfCon c hc) he hv

theorem usesOf_eq_nil {exprs : List (Expr F)} {v : Nat} (h : ∀ e ∈ exprs, v ∉ e.variableIndices) : usesOf exprs v = [] := by
  unfold usesOf
  rw [List.flatMap_eq_nil_iff]
  intro ei hei
  have : ei.1 ∈ exprs := by
    rw [List.mem_iff_getElem?] at hei
    obtain ⟨k, hk⟩ := hei
    rw [List.getElem?_zipIdx, Option.map_eq_some_iff] at hk
    obtain ⟨a, ha, hk⟩ := hk
    subst hk
    exact List.mem_of_getElem? ha
  rw [List.count_eq_zero_of_not_mem (h _ this)]
  rfl

/-- Adding an element keeps the representation. -/
theorem Rel.addElement {s : System F} {st : Store F} (hr : Rel s st) (hn : st.elems.length < 2 ^ 31) (x : Elem F)
    (hx : ElemOk st x) (enc : Nat → EncodedElement)
    (henc : enc (off st.elems st.elems.length) = encElem (st.elems ++ [x]) st.elems.length x) :
    ∃ s', s.addElement (elemValues x) enc = .ok (⟨s.id, st.elems.length⟩, s') ∧ s'.id = s.id ∧
      Rel s' { st with elems := st.elems ++ [x] } := by
  obtain ⟨g', hg1, hg2, hg3⟩ := Graph.addElement_ok hr.graph (by omega) (elemValues x).length
  have hvl := hr.vars_length_le
  refine ⟨{ s with
      vars := s.vars ++ elemValues x
      equationGraph := s.equationGraph.insertVariables (elemValues x).length
      variableToPrimitive := s.variableToPrimitive ++ List.replicate (elemValues x).length st.elems.length
      graph := g'
      elements := s.elements ++ [enc s.vars.length] }, ?_, ?_, ?_⟩
  · unfold System.addElement
    rw [hr.elements_length, toU32_of (by omega), ok_bind, toU32_of (by omega), ok_bind, hg1]
    rfl
  · rfl
  · constructor
    · intro i e he
      rw [List.getElem?_append] at he
      split at he
      · exact ElemOk_append (hr.wfElem i e he)
      · have : e = x := by
          rw [List.getElem?_singleton] at he
          split at he <;> simp_all
        subst this
        exact ElemOk_append hx
    · intro c hc
      exact ConOk_append (hr.wfCon c hc)
    · intro i hi
      rcases hr.wfFixed i hi with h | h
      · exact .inl (IsPoint_append h)
      · exact .inr (IsLength_append h)
    · simp [hr.vars, List.flatMap_append]
    · simp only [List.mapIdx_append, List.mapIdx_cons, List.mapIdx_nil, Nat.zero_add]
      congr 1
      · rw [hr.elements]
        apply mapIdx_congr'
        intro i a ha
        exact (encElem_append st x a (lt_of_getElem? ha) (hr.wfElem i a ha)).symm
      · rw [← henc, off_length, hr.vars]
    · simp only [owners_append, hr.owners]
    · intro k
      simp only
      rw [hr.fixed k]
      constructor
      · rintro ⟨i, hi, hk⟩
        exact ⟨i, hi, by rw [List.getElem?_append_left (lt_of_getElem? hk)]; exact hk⟩
      · rintro ⟨i, hi, hk⟩
        refine ⟨i, hi, ?_⟩
        rw [List.getElem?_append] at hk
        split at hk
        · exact hk
        · rw [List.getElem?_replicate] at hk
          split at hk
          · simp only [Option.some.injEq] at hk
            have : i < st.elems.length := by
              rcases hr.wfFixed i hi with h | h
              · exact h.lt
              · exact h.lt
            omega
          · simp at hk
    · simp only
      rw [hr.exprs]
      exact flatMap_congr' (fun c hc => (encCon_append hr x (hr.wfCon c hc)).symm)
    · simp only
      rw [hr.constraints]
      apply mapIdx_congr'
      intro i c hc
      congr 2
      exact flatMap_congr' (fun c hc => (encCon_append hr x (hr.wfCon c (List.mem_of_mem_take hc))).symm)
    · exact hr.exprCon
    · simpa using hg2
    · simp only
      rw [hg3, hr.graphCons]
      apply List.map_congr_left
      intro c hc
      rw [actsOn_append x (hr.wfCon c hc)]
    · constructor
      · exact hr.eqGraph.expressions
      · simp [ExprGraph.insertVariables, hr.eqGraph.varsLength]
      · intro v hv
        simp only [ExprGraph.insertVariables, List.length_append] at hv ⊢
        by_cases h : v < s.vars.length
        · rw [List.getElem?_append_left (by rw [hr.eqGraph.varsLength]; exact h)]
          exact hr.eqGraph.vars v h
        · rw [List.getElem?_append_right (by rw [hr.eqGraph.varsLength]; omega), hr.eqGraph.varsLength,
            List.getElem?_replicate, if_pos (by omega)]
          rw [usesOf_eq_nil]
          intro e he hv'
          exact h (hr.expr_lt he hv')

/-! ## Creating constraints -/

theorem pushExpression_ok (id : Nat) (vs : List Nat) (lists : List (List Nat)) (h : ∀ v ∈ vs, v < lists.length) :
    ∃ lists', pushExpression id vs lists = .ok lists' ∧ lists'.length = lists.length ∧
      ∀ v, lists'[v]? = lists[v]?.map (fun l => l ++ List.replicate (vs.count v) id) := by
  induction vs generalizing lists with
  | nil => exact ⟨lists, rfl, rfl, by simp⟩
  | cons a vs ih =>
    have ha : a < lists.length := h a (by simp)
    obtain ⟨lists', h1, h2, h3⟩ := ih (lists.set a (lists[a] ++ [id])) (by
      intro v hv; simpa using h v (by simp [hv]))
    refine ⟨lists', ?_, by simpa using h2, ?_⟩
    · unfold pushExpression at h1 ⊢
      rw [List.foldlM_cons, idx_of (List.getElem?_eq_getElem ha), ok_bind, setIdx_of _ ha, ok_bind]
      exact h1
    · intro v
      rw [h3 v, List.getElem?_set]
      by_cases hav : a = v
      · subst hav
        simp only [if_true, ha, List.getElem?_eq_getElem ha, Option.map_some, List.count_cons_self, List.append_assoc]
        rw [List.replicate_succ]; rfl
      · rw [if_neg hav, List.count_cons_of_ne hav]

theorem usesOf_append (exprs : List (Expr F)) (e : Expr F) (v : Nat) :
    usesOf (exprs ++ [e]) v = usesOf exprs v ++ List.replicate (e.variableIndices.count v) exprs.length := by
  simp [usesOf, List.zipIdx_append, List.flatMap_append]

theorem insertExpression_ok {g : ExprGraph} {exprs : List (Expr F)} {n : Nat} (h : EqRel g exprs n)
    (hl : exprs.length < 2 ^ 32) (e : Expr F) (he : ∀ v ∈ e.variableIndices, v < n) :
    ∃ g', g.insertExpression e.variableIndices = .ok g' ∧ EqRel g' (exprs ++ [e]) n := by
  obtain ⟨lists, h1, h2, h3⟩ := pushExpression_ok exprs.length e.variableIndices g.vars (by rw [h.varsLength]; exact he)
  refine ⟨⟨lists, g.expressions ++ [e.variableIndices]⟩, ?_, ?_⟩
  · unfold ExprGraph.insertExpression
    have : g.expressions.length = exprs.length := by rw [h.expressions]; simp
    rw [this, toU32_of hl, ok_bind, h1]
    rfl
  · constructor
    · simp [h.expressions]
    · simp [h2, h.varsLength]
    · intro v hv
      simp only
      rw [h3, h.vars v hv, usesOf_append]
      rfl

theorem addExpressions_ok {s : System F} {n : Nat} (id : Nat) (es : List (Expr F)) (h : EqRel s.equationGraph s.expressions n)
    (hl : s.expressions.length + es.length < 2 ^ 32) (he : ∀ e ∈ es, ∀ v ∈ e.variableIndices, v < n) :
    ∃ eg, es.foldlM (System.addExpression id) s = .ok { s with
        equationGraph := eg
        expressions := s.expressions ++ es
        expressionToConstraint := s.expressionToConstraint ++ List.replicate es.length id } ∧
      EqRel eg (s.expressions ++ es) n := by
  induction es generalizing s with
  | nil => exact ⟨s.equationGraph, by simp, by simpa using h⟩
  | cons e es ih =>
    simp only [List.length_cons] at hl
    obtain ⟨g', h1, h2⟩ := insertExpression_ok h (by omega) e (he e (by simp))
    obtain ⟨eg, h3, h4⟩ := ih (s := { s with
      equationGraph := g'
      expressions := s.expressions ++ [e]
      expressionToConstraint := s.expressionToConstraint ++ [id] }) h2 (by simp; omega)
      (fun e he' => he e (by simp [he']))
    refine ⟨eg, ?_, by simpa using h4⟩
    have h0 : System.addExpression id s e = .ok { s with
        equationGraph := g'
        expressions := s.expressions ++ [e]
        expressionToConstraint := s.expressionToConstraint ++ [id] } := by
      unfold System.addExpression
      rw [h1]
      rfl
    rw [List.foldlM_cons, h0, ok_bind, h3]
    simp [List.replicate_succ]

theorem actsOn_lt {s : System F} {st : Store F} (hr : Rel s st) {c : Con F} (h : st.ConOk c) :
    ∀ e ∈ st.actsOn c, e < st.elems.length := by
  have hline : ∀ {l}, st.IsLine l → ∀ e ∈ st.lineEnds l, e < st.elems.length := by
    intro l hl e he
    obtain ⟨p, q, -, h2, h3, -, h5⟩ := hr.line hl
    rw [h5] at he
    simp only [List.mem_cons, List.not_mem_nil, or_false] at he
    rcases he with he | he
    · exact he ▸ h2.lt
    · exact he ▸ h3.lt
  have hcirc : ∀ {l}, st.IsCircle l → ∀ e ∈ st.circleParts l, e < st.elems.length := by
    intro l hl e he
    obtain ⟨p, q, -, h2, h3, -, h5⟩ := hr.circle hl
    rw [h5] at he
    simp only [List.mem_cons, List.not_mem_nil, or_false] at he
    rcases he with he | he
    · exact he ▸ h2.lt
    · exact he ▸ h3.lt
  intro e he
  cases c <;> simp only [Store.ConOk] at h <;>
    simp only [Store.actsOn, List.mem_cons, List.mem_append, List.not_mem_nil, or_false] at he
  · rcases he with rfl | rfl
    exacts [h.1.lt, h.2.lt]
  · rcases he with rfl | rfl
    exacts [h.1.lt, h.2.lt]
  · rcases he with rfl | rfl | rfl
    exacts [h.1.lt, h.2.1.lt, h.2.2.lt]
  · rcases he with rfl | he
    exacts [h.1.lt, hline h.2 e he]
  · rcases he with rfl | he
    exacts [h.1.lt, hline h.2 e he]
  · rcases he with rfl | he
    exacts [h.1.lt, hcirc h.2 e he]
  · rcases he with rfl | rfl | rfl | rfl
    exacts [h.1.lt, h.2.1.lt, h.2.2.1.lt, h.2.2.2.lt]
  · rcases he with he | he
    exacts [hline h.1 e he, hline h.2 e he]
  · rcases he with he | he
    exacts [hline h.1 e he, hline h.2 e he]
  · rcases he with he | he
    exacts [hline h.1 e he, hline h.2 e he]
  · rcases he with he | he
    exacts [hline h.1 e he, hcirc h.2 e he]

/-- Adding a constraint keeps the representation. -/
theorem Rel.addCon {s : System F} {st : Store F} (hr : Rel s st) (hm : st.cons.length < 2 ^ 30) (c : Con F)
    (hc : st.ConOk c) :
    ∃ s', s.createConstraint c.kind c.kind.valency (st.actsOn c) (encCon st.elems c) =
        .ok (⟨s.id, st.cons.length⟩, s') ∧ s'.id = s.id ∧
      Rel s' { st with cons := st.cons ++ [c] } := by
  obtain ⟨g', hg1, hg2, hg3⟩ := Graph.addConstraint_ok hr.graph (by omega) c.kind.valency (st.actsOn c) (actsOn_lt hr hc)
  have hlen := hr.exprs_length_le
  have hcl : s.constraints.length = st.cons.length := by rw [hr.constraints]; simp
  have hval : (encCon st.elems c).length = c.kind.valency := encCon_length _ _
  have hv2 : c.kind.valency ≤ 2 := by cases c <;> simp [Con.kind, ConstraintTag.valency]
  obtain ⟨eg, he1, he2⟩ := addExpressions_ok
    (s := { s with graph := g', constraints := s.constraints ++ [⟨c.kind, s.expressions.length⟩] })
    (n := s.vars.length) st.cons.length (encCon st.elems c) hr.eqGraph (by simp only; omega)
    (fun e he v hv => encCon_lt hr hc he hv)
  refine ⟨{ s with
      graph := g'
      constraints := s.constraints ++ [⟨c.kind, s.expressions.length⟩]
      equationGraph := eg
      expressions := s.expressions ++ encCon st.elems c
      expressionToConstraint := s.expressionToConstraint ++ List.replicate (encCon st.elems c).length st.cons.length },
      ?_, ?_, ?_⟩
  · unfold System.createConstraint
    rw [hg1]
    simp only [ok_bind]
    unfold System.addConstraint
    simp only [hcl]
    rw [toU32_of (by omega), ok_bind, toU32_of (by omega), ok_bind, he1]
    rfl
  · rfl
  · constructor
    · exact hr.wfElem
    · intro c' hc'
      simp only [List.mem_append, List.mem_singleton] at hc'
      rcases hc' with h | h
      · exact hr.wfCon c' h
      · exact h ▸ hc
    · exact hr.wfFixed
    · exact hr.vars
    · exact hr.elements
    · exact hr.owners
    · exact hr.fixed
    · simp [hr.exprs, List.flatMap_append]
    · simp only [List.mapIdx_append, List.mapIdx_cons, List.mapIdx_nil, Nat.zero_add]
      congr 1
      · rw [hr.constraints]
        apply mapIdx_congr'
        intro i c' hc'
        rw [List.take_append_of_le_length (le_of_lt (lt_of_getElem? hc'))]
      · simp [hr.exprs]
    · simp only [hr.exprCon, hval]
      simp [List.zipIdx_append, List.flatMap_append]
    · simpa using hg2
    · simp only [hg3, hr.graphCons, List.map_append, List.map_cons, List.map_nil]
      rfl
    · exact he2

end Fiksi
