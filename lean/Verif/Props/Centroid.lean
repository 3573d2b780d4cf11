import Verif.Proofs.Balance
import Verif.Props.NotWorseLbfgs
/-!
# C86: solving does not shift a part that is free to move
-/
namespace Fiksi
open Spec

/-- A set of points that is not tied to anything else: none of them is fixed, and each constraint is about points of the set only or about none of them. -/
def Spec.Store.Loose (st : Store ℝ) (S : Finset Nat) : Prop :=
  (∀ p ∈ S, st.IsPoint p ∧ p ∉ st.fixed) ∧ ∀ con ∈ st.cons, (∀ p ∈ st.actsOn con, st.IsPoint p → p ∈ S) ∨ ∀ p ∈ st.actsOn con, p ∉ S

/-! ## Weights -/

/-- Weight `a` for the first and `b` for the second coordinates of the points of `S`. -/
noncomputable def weightOf (es : List (Elem ℝ)) (S : Finset Nat) (a b : ℝ) (v : Nat) : ℝ := ∑ p ∈ S, ((if v = off es p then a else 0) + (if v = off es p + 1 then b else 0))

section
variable {s : System ℝ} {st : Store ℝ} {S : Finset Nat} {a b : ℝ}

theorem weightOf_eq (hS : ∀ p ∈ S, st.IsPoint p) {i j : Nat} {e : Elem ℝ} (he : st.elems[i]? = some e) (hj : j < (elemValues e).length) :
    weightOf st.elems S a b (off st.elems i + j) = if i ∈ S then (if j = 0 then a else b) else 0 := by
  have key : ∀ p ∈ S, ((if off st.elems i + j = off st.elems p then a else 0) + (if off st.elems i + j = off st.elems p + 1 then b else 0)) =
      if p = i then (if j = 0 then a else b) else 0 := by
    intro p hp
    obtain ⟨x, y, hpe⟩ := hS p hp
    have h0 : (off st.elems i + j = off st.elems p) ↔ (p = i ∧ j = 0) := by
      refine ⟨fun h => ?_, fun ⟨h1, h2⟩ => by rw [h1, h2, add_zero]⟩
      have := off_inj st.elems he hpe hj (j' := 0) (by simp [elemValues]) (by omega)
      exact ⟨this.1.symm, this.2⟩
    have h1 : (off st.elems i + j = off st.elems p + 1) ↔ (p = i ∧ j = 1) := by
      refine ⟨fun h => ?_, fun ⟨h1, h2⟩ => by rw [h1, h2]⟩
      have := off_inj st.elems he hpe hj (j' := 1) (by simp [elemValues]) (by omega)
      exact ⟨this.1.symm, this.2⟩
    by_cases hpi : p = i
    · have hj2 : j < 2 := by
        subst hpi
        rw [he] at hpe
        cases hpe
        exact hj
      have : j = 0 ∨ j = 1 := by omega
      rcases this with rfl | rfl
      · simp [hpi]
      · rw [if_neg (by rw [h0]; omega), if_pos (h1.2 ⟨hpi, rfl⟩), if_pos hpi]
        simp
    · rw [if_neg (by rw [h0]; exact fun h => hpi h.1), if_neg (by rw [h1]; exact fun h => hpi h.1), if_neg hpi, add_zero]
  rw [weightOf, Finset.sum_congr rfl key, Finset.sum_ite_eq']

theorem weightOf_point (hS : ∀ p ∈ S, st.IsPoint p) {i : Nat} (hi : st.IsPoint i) :
    weightOf st.elems S a b (off st.elems i) = (if i ∈ S then a else 0) ∧ weightOf st.elems S a b (off st.elems i + 1) = if i ∈ S then b else 0 := by
  obtain ⟨x, y, he⟩ := hi
  exact ⟨by simpa using weightOf_eq hS he (j := 0) (a := a) (b := b) (by simp [elemValues]), by simpa using weightOf_eq hS he (j := 1) (a := a) (b := b) (by simp [elemValues])⟩

theorem weightOf_length (hS : ∀ p ∈ S, st.IsPoint p) {i : Nat} (hi : st.IsLength i) : weightOf st.elems S a b (off st.elems i) = 0 := by
  obtain ⟨x, he⟩ := hi
  have := weightOf_eq hS he (j := 0) (a := a) (b := b) (by simp [elemValues])
  rw [add_zero] at this
  rw [this, if_neg fun h => ?_]
  obtain ⟨_, _, h⟩ := hS i h
  rw [he] at h
  cases h

theorem weightOf_ne_zero {v : Nat} (h : weightOf st.elems S a b v ≠ 0) : ∃ p ∈ S, v = off st.elems p ∨ v = off st.elems p + 1 := by
  obtain ⟨p, hp, h1⟩ := Finset.exists_ne_zero_of_sum_ne_zero h
  refine ⟨p, hp, ?_⟩
  by_contra hc
  push Not at hc
  rw [if_neg hc.1, if_neg hc.2, add_zero] at h1
  exact h1 rfl

theorem weightOf_sum (V : List ℝ) {n : Nat} (hn : ∀ p ∈ S, off st.elems p + 1 < n) :
    ∑ v ∈ Finset.range n, weightOf st.elems S a b v * V.getD v 0 = ∑ p ∈ S, (a * V.getD (off st.elems p) 0 + b * V.getD (off st.elems p + 1) 0) := by
  simp only [weightOf, Finset.sum_mul]
  rw [Finset.sum_comm]
  refine Finset.sum_congr rfl fun p hp => ?_
  have := hn p hp
  simp only [add_mul, Finset.sum_add_distrib, ite_mul, zero_mul]
  rw [Finset.sum_ite_eq' (Finset.range n) (off st.elems p), Finset.sum_ite_eq' (Finset.range n) (off st.elems p + 1), if_pos (Finset.mem_range.2 (by omega)), if_pos (Finset.mem_range.2 this)]

theorem Expr.transform_shifts {e : Expr ℝ} {w : Nat → ℝ} (k : ℝ) (h : e.Shifts w) : (e.transform k).Shifts w := by
  obtain ⟨a, b, h⟩ := h
  refine ⟨a, b, ?_⟩
  rw [Expr.transform_variableIndices, h]
  cases e <;> rfl

/-- The weights of a loose set shift the points of every constraint. -/
theorem encCon_shifts (hr : Rel s st) (hS : st.Loose S) {con : Spec.Con ℝ} (hcon : con ∈ st.cons) : ∀ e ∈ encCon st.elems con, e.Shifts (weightOf st.elems S a b) := by
  have hc := hr.wfCon con hcon
  have hS1 : ∀ p ∈ S, st.IsPoint p := fun p hp => (hS.1 p hp).1
  have hclosed := hS.2 con hcon
  have hline : ∀ l, st.IsLine l → ∃ p q, st.lineEnds l = [p, q] ∧ lineOff st.elems l = (off st.elems p, off st.elems q) ∧ st.IsPoint p ∧ st.IsPoint q := by
    rintro l ⟨p, q, hl⟩
    exact ⟨p, q, by simp [Store.lineEnds, hl], by simp [lineOff, hl], hr.wfElem l _ hl⟩
  have hcirc : ∀ l, st.IsCircle l → ∃ p q, st.circleParts l = [p, q] ∧ circOff st.elems l = (off st.elems p, off st.elems q) ∧ st.IsPoint p ∧ st.IsLength q := by
    rintro l ⟨p, q, hl⟩
    exact ⟨p, q, by simp [Store.circleParts, hl], by simp [circOff, hl], hr.wfElem l _ hl⟩
  have hw : ∀ {i : Nat}, st.IsPoint i → _ := fun {i} hi => weightOf_point (a := a) (b := b) hS1 hi
  have hl : ∀ {i : Nat}, st.IsLength i → _ := fun {i} hi => weightOf_length (a := a) (b := b) hS1 hi
  intro e he
  cases con with
  | pointPointCoincidence p q =>
    simp only [encCon, List.mem_cons, List.not_mem_nil, or_false] at he
    simp only [Store.actsOn, List.forall_mem_cons] at hclosed
    rcases hclosed with ⟨h1, h2, -⟩ | ⟨h1, h2, -⟩
    · rcases he with rfl | rfl
      · exact ⟨a, a, by simp [Expr.variableIndices, Expr.shift, hw hc.1, hw hc.2, h1 hc.1, h2 hc.2]⟩
      · exact ⟨b, b, by simp [Expr.variableIndices, Expr.shift, hw hc.1, hw hc.2, h1 hc.1, h2 hc.2]⟩
    · rcases he with rfl | rfl
      · exact ⟨0, 0, by simp [Expr.variableIndices, Expr.shift, hw hc.1, hw hc.2, h1, h2]⟩
      · exact ⟨0, 0, by simp [Expr.variableIndices, Expr.shift, hw hc.1, hw hc.2, h1, h2]⟩
  | pointPointDistance p q d =>
    simp only [encCon, List.mem_cons, List.not_mem_nil, or_false] at he
    subst he
    simp only [Store.actsOn, List.forall_mem_cons] at hclosed
    rcases hclosed with ⟨h1, h2, -⟩ | ⟨h1, h2, -⟩
    · exact ⟨a, b, by simp [Expr.variableIndices, Expr.shift, hw hc.1, hw hc.2, h1 hc.1, h2 hc.2]⟩
    · exact ⟨0, 0, by simp [Expr.variableIndices, Expr.shift, hw hc.1, hw hc.2, h1, h2]⟩
  | pointPointPointAngle p q r t =>
    simp only [encCon, List.mem_cons, List.not_mem_nil, or_false] at he
    subst he
    simp only [Store.actsOn, List.forall_mem_cons] at hclosed
    rcases hclosed with ⟨h1, h2, h3, -⟩ | ⟨h1, h2, h3, -⟩
    · exact ⟨a, b, by simp [Expr.variableIndices, Expr.shift, hw hc.1, hw hc.2.1, hw hc.2.2, h1 hc.1, h2 hc.2.1, h3 hc.2.2]⟩
    · exact ⟨0, 0, by simp [Expr.variableIndices, Expr.shift, hw hc.1, hw hc.2.1, hw hc.2.2, h1, h2, h3]⟩
  | pointLineIncidence p l =>
    obtain ⟨q, r, e1, e2, hq, hr'⟩ := hline l hc.2
    simp only [encCon, e2, List.mem_cons, List.not_mem_nil, or_false] at he
    subst he
    simp only [Store.actsOn, e1, List.forall_mem_cons] at hclosed
    rcases hclosed with ⟨h1, h2, h3, -⟩ | ⟨h1, h2, h3, -⟩
    · exact ⟨a, b, by simp [Expr.variableIndices, Expr.shift, hw hc.1, hw hq, hw hr', h1 hc.1, h2 hq, h3 hr']⟩
    · exact ⟨0, 0, by simp [Expr.variableIndices, Expr.shift, hw hc.1, hw hq, hw hr', h1, h2, h3]⟩
  | pointLineDistance p l d =>
    obtain ⟨q, r, e1, e2, hq, hr'⟩ := hline l hc.2
    simp only [encCon, e2, List.mem_cons, List.not_mem_nil, or_false] at he
    subst he
    simp only [Store.actsOn, e1, List.forall_mem_cons] at hclosed
    rcases hclosed with ⟨h1, h2, h3, -⟩ | ⟨h1, h2, h3, -⟩
    · exact ⟨a, b, by simp [Expr.variableIndices, Expr.shift, hw hc.1, hw hq, hw hr', h1 hc.1, h2 hq, h3 hr']⟩
    · exact ⟨0, 0, by simp [Expr.variableIndices, Expr.shift, hw hc.1, hw hq, hw hr', h1, h2, h3]⟩
  | pointCircleIncidence p l =>
    obtain ⟨q, r, e1, e2, hq, hr'⟩ := hcirc l hc.2
    simp only [encCon, e2, List.mem_cons, List.not_mem_nil, or_false] at he
    subst he
    simp only [Store.actsOn, e1, List.forall_mem_cons] at hclosed
    rcases hclosed with ⟨h1, h2, -, -⟩ | ⟨h1, h2, -, -⟩
    · exact ⟨a, b, by simp [Expr.variableIndices, Expr.shift, hw hc.1, hw hq, hl hr', h1 hc.1, h2 hq]⟩
    · exact ⟨0, 0, by simp [Expr.variableIndices, Expr.shift, hw hc.1, hw hq, hl hr', h1, h2]⟩
  | segmentSegmentLengthEquality p q r t =>
    obtain ⟨c1, c2, c3, c4⟩ := hc
    simp only [encCon, List.mem_cons, List.not_mem_nil, or_false] at he
    subst he
    simp only [Store.actsOn, List.forall_mem_cons] at hclosed
    rcases hclosed with ⟨h1, h2, h3, h4, -⟩ | ⟨h1, h2, h3, h4, -⟩
    · exact ⟨a, b, by simp [Expr.variableIndices, Expr.shift, hw c1, hw c2, hw c3, hw c4, h1 c1, h2 c2, h3 c3, h4 c4]⟩
    · exact ⟨0, 0, by simp [Expr.variableIndices, Expr.shift, hw c1, hw c2, hw c3, hw c4, h1, h2, h3, h4]⟩
  | lineLineAngle l m t =>
    obtain ⟨p, q, e1, e2, c1, c2⟩ := hline l hc.1
    obtain ⟨r, t, e3, e4, c3, c4⟩ := hline m hc.2
    simp only [encCon, e2, e4, List.mem_cons, List.not_mem_nil, or_false] at he
    subst he
    simp only [Store.actsOn, e1, e3, List.cons_append, List.nil_append, List.forall_mem_cons] at hclosed
    rcases hclosed with ⟨h1, h2, h3, h4, -⟩ | ⟨h1, h2, h3, h4, -⟩
    · exact ⟨a, b, by simp [Expr.variableIndices, Expr.shift, hw c1, hw c2, hw c3, hw c4, h1 c1, h2 c2, h3 c3, h4 c4]⟩
    · exact ⟨0, 0, by simp [Expr.variableIndices, Expr.shift, hw c1, hw c2, hw c3, hw c4, h1, h2, h3, h4]⟩
  | lineLineParallelism l m =>
    obtain ⟨p, q, e1, e2, c1, c2⟩ := hline l hc.1
    obtain ⟨r, t, e3, e4, c3, c4⟩ := hline m hc.2
    simp only [encCon, e2, e4, List.mem_cons, List.not_mem_nil, or_false] at he
    subst he
    simp only [Store.actsOn, e1, e3, List.cons_append, List.nil_append, List.forall_mem_cons] at hclosed
    rcases hclosed with ⟨h1, h2, h3, h4, -⟩ | ⟨h1, h2, h3, h4, -⟩
    · exact ⟨a, b, by simp [Expr.variableIndices, Expr.shift, hw c1, hw c2, hw c3, hw c4, h1 c1, h2 c2, h3 c3, h4 c4]⟩
    · exact ⟨0, 0, by simp [Expr.variableIndices, Expr.shift, hw c1, hw c2, hw c3, hw c4, h1, h2, h3, h4]⟩
  | lineLinePerpendicularity l m =>
    obtain ⟨p, q, e1, e2, c1, c2⟩ := hline l hc.1
    obtain ⟨r, t, e3, e4, c3, c4⟩ := hline m hc.2
    simp only [encCon, e2, e4, List.mem_cons, List.not_mem_nil, or_false] at he
    subst he
    simp only [Store.actsOn, e1, e3, List.cons_append, List.nil_append, List.forall_mem_cons] at hclosed
    rcases hclosed with ⟨h1, h2, h3, h4, -⟩ | ⟨h1, h2, h3, h4, -⟩
    · exact ⟨a, b, by simp [Expr.variableIndices, Expr.shift, hw c1, hw c2, hw c3, hw c4, h1 c1, h2 c2, h3 c3, h4 c4]⟩
    · exact ⟨0, 0, by simp [Expr.variableIndices, Expr.shift, hw c1, hw c2, hw c3, hw c4, h1, h2, h3, h4]⟩
  | lineCircleTangency l m =>
    obtain ⟨p, q, e1, e2, c1, c2⟩ := hline l hc.1
    obtain ⟨r, t, e3, e4, c3, c4⟩ := hcirc m hc.2
    simp only [encCon, e2, e4, List.mem_cons, List.not_mem_nil, or_false] at he
    subst he
    simp only [Store.actsOn, e1, e3, List.cons_append, List.nil_append, List.forall_mem_cons] at hclosed
    rcases hclosed with ⟨h1, h2, h3, -, -⟩ | ⟨h1, h2, h3, -, -⟩
    · exact ⟨a, b, by simp [Expr.variableIndices, Expr.shift, hw c1, hw c2, hw c3, hl c4, h1 c1, h2 c2, h3 c3]⟩
    · exact ⟨0, 0, by simp [Expr.variableIndices, Expr.shift, hw c1, hw c2, hw c3, hl c4, h1, h2, h3]⟩

end

/-! ## One part -/

/-- An optimiser that keeps the sums weighted with `w` in the subproblems with these expressions, at most `m` equations and `n` variables. -/
def Optimize.Balanced (optimize : Optimize ℝ) (o : Optimizer) (exprs : List (Expr ℝ)) (m n : Nat) (w : Nat → ℝ) : Prop := ∀ (sub : Subsystem ℝ) (x x' : List ℝ), sub.allExpressions = exprs → sub.Ok →
  sub.Within m n → (∀ id ∈ sub.expressions, ∀ e, sub.allExpressions[id]? = some e → ∀ v ∈ e.variableIndices, v ∉ sub.freeVariables → w v = 0) →
  x.length = sub.freeVariables.length → optimize o sub.problem x = .ok x' →
  ∑ c ∈ Finset.range sub.freeVariables.length, w (sub.freeVariables.getD c 0) * x'.getD c 0 = ∑ c ∈ Finset.range sub.freeVariables.length, w (sub.freeVariables.getD c 0) * x.getD c 0

theorem sum_map_range (l : List Nat) (f : Nat → ℝ) : (l.map f).sum = ∑ r ∈ Finset.range l.length, f (l.getD r 0) := by
  induction l with
  | nil => rfl
  | cons a l ih =>
    rw [List.map_cons, List.sum_cons, ih, List.length_cons, Finset.sum_range_succ']
    simp [add_comm]

theorem sum_ascending (free : Finset Nat) (f : Nat → ℝ) : ∑ v ∈ free, f v = ∑ k ∈ Finset.range (ascending free).length, f ((ascending free).getD k 0) := by
  have h1 : (ascending free).toFinset = free := by
    ext v
    rw [List.mem_toFinset, mem_ascending]
  rw [← sum_map_range, ← List.sum_toFinset _ (ascending_nodup free), h1]

section
variable {counter : Nat} {ops : List (Op ℝ)} {c : Client ℝ} (h : Reaches counter ops c) (hn : NeverJoins ((Store.empty ℝ).run ops).arguments) (hs : c.sys.scale ≠ 0)
  {optimize : Optimize ℝ} {ord : HashOrder} {opts : SolvingOptions} (hd : opts.decomposer = .none) (hp : opts.perturb = false) {w : Nat → ℝ}
  (hopt : optimize.Balanced opts.optimizer c.sys.scaledExpressions c.sys.expressions.length c.sys.vars.length w) (hfix : ∀ v ∈ c.sys.fixedVariables, w v = 0)
include h hn hs hd hp hopt hfix

omit hs in
theorem Reaches.component_balanced {ck : Component × Nat} (hck : c.sys.graph.components[ck.2]? = some ck.1)
    {st st' : SolveState ℝ} (hlen : st.transformed.length = c.sys.vars.length) (hlen' : st.vars.length = c.sys.vars.length) (hsync : ∀ v, c.sys.VarOf ck.1.elements v → Synced c.sys.scale st v)
    (hc : solveComponent optimize ord opts c.sys c.sys.scale c.sys.scaledExpressions st ck = .ok st') : st'.transformed.length = c.sys.vars.length ∧ st'.vars.length = c.sys.vars.length ∧
    (∀ v, ¬ (c.sys.VarOf ck.1.elements v ∧ v ∉ c.sys.fixedVariables) → st'.vars[v]? = st.vars[v]? ∧ st'.transformed[v]? = st.transformed[v]?) ∧
      ∑ v ∈ Finset.range c.sys.vars.length, w v * st'.vars.getD v 0 = ∑ v ∈ Finset.range c.sys.vars.length, w v * st.vars.getD v 0 := by
  unfold solveComponent at hc
  split at hc
  · cases hc
    exact ⟨hlen, hlen', fun _ _ => ⟨rfl, rfl⟩, rfl⟩
  rw [bind_eq_ok] at hc
  obtain ⟨free, hfree, hc⟩ := hc
  rw [bind_eq_ok] at hc
  obtain ⟨st1, h1, hc⟩ := hc
  rw [perturbFree, hp] at h1
  cases h1
  rw [hd] at hc
  have hf := freeVariables_spec hfree
  obtain ⟨h4, es, h5, -⟩ := solveWhole_spec hc
  have hmem := mem_flatten_of_mapM h.crel.rel h5
  have hframe : ∀ v, ¬ (c.sys.VarOf ck.1.elements v ∧ v ∉ c.sys.fixedVariables) → st'.vars[v]? = st.vars[v]? ∧ st'.transformed[v]? = st.transformed[v]? := by
    intro v hv
    rw [← hf v] at hv
    exact ⟨h4.vars.2 v hv, h4.transformed.2 v hv⟩
  refine ⟨h4.transformed.1.trans hlen, h4.vars.1.trans hlen', hframe, ?_⟩
  simp only [solveWhole, bind_eq_ok] at hc
  obtain ⟨values, h6, es', h7, values', h8, vars, h9, h10⟩ := hc
  rw [h5] at h7
  cases h7
  cases h10
  have hsub : free ⊆ Finset.range c.sys.vars.length := fun v hv => Finset.mem_range.2 (h.varOf_lt ((hf v).1 hv).1)
  have hid : ∀ id ∈ es.flatten, id < c.sys.expressions.length := fun id hid => by
    obtain ⟨n, -, h11⟩ := (hmem id).1 hid
    exact h.equation_lt h11
  have hsum := hopt ⟨st.transformed, c.sys.scaledExpressions, es.flatten, ascending free⟩ values values' rfl (fun id hi => by
      rw [hlen]
      exact h.exprsOk hid id hi) ⟨by
        have hnd := flatten_nodup_of_mapM h.crel.rel (ascending_nodup _) h5
        have := Finset.card_le_card (s := es.flatten.toFinset) (t := Finset.range c.sys.expressions.length) (fun id hi => Finset.mem_range.2 (hid id (List.mem_toFinset.1 hi)))
        rw [List.toFinset_card_of_nodup hnd, Finset.card_range] at this
        exact this, by
        have := Finset.card_le_card hsub
        rw [Finset.card_range] at this
        show (ascending free).length ≤ _
        rw [ascending_length]
        exact this⟩ (fun id hi e he v hv hnf => by
      obtain ⟨n, h11, h12⟩ := (hmem id).1 hi
      have hvo := h.whole_within hn (List.mem_of_getElem? hck) ((mem_ascending _ _).1 h11) h12 e he v hv
      have hvf : v ∈ c.sys.fixedVariables := by
        by_contra hc
        exact hnf ((mem_ascending _ _).2 ((hf v).2 ⟨hvo, hc⟩))
      exact hfix v hvf) (mapM_forall h6).length_eq.symm h8
  rw [← Finset.sum_sdiff hsub, ← Finset.sum_sdiff hsub]
  congr 1
  · refine Finset.sum_congr rfl fun v hv => ?_
    rw [Finset.mem_sdiff] at hv
    rw [List.getD_eq_getElem?_getD, List.getD_eq_getElem?_getD, h4.vars.2 v hv.2]
  have hw := writeVars_values (zipIdx_fst_nodup (ascending_nodup free)) h9
  have hone : ∀ (V x : List ℝ), (∀ p ∈ (ascending free).zipIdx, ∃ y, x[p.2]? = some y ∧ V[p.1]? = some (c.sys.scale * y)) →
      ∑ v ∈ free, w v * V.getD v 0 = c.sys.scale * ∑ k ∈ Finset.range (ascending free).length, w ((ascending free).getD k 0) * x.getD k 0 := by
    intro V x hx
    rw [sum_ascending, Finset.mul_sum]
    refine Finset.sum_congr rfl fun k hk => ?_
    have hk := List.getElem?_eq_getElem (Finset.mem_range.1 hk)
    obtain ⟨y, a1, a2⟩ := hx (_, k) (List.mem_zipIdx_iff_getElem?.2 hk)
    simp only at a1 a2
    rw [List.getD_eq_getElem?_getD (l := ascending free), hk, Option.getD_some, List.getD_eq_getElem?_getD, a2, List.getD_eq_getElem?_getD, a1, Option.getD_some, Option.getD_some]
    ring
  rw [hone vars values' hw, hone st.vars values fun p hp => ?_]
  · exact congrArg _ hsum
  · have hp' := List.mem_zipIdx_iff_getElem?.1 hp
    obtain ⟨y, a1, a2⟩ := forall₂_getElem?' (mapM_forall h6) _ hp'
    rw [idx_eq_ok] at a2
    exact ⟨y, a1, hsync p.1 ((hf p.1).1 ((mem_ascending _ _).1 (List.mem_of_getElem? hp'))).1 y a2⟩

/-! ## All parts -/

theorem Reaches.loop_balanced {st : SolveState ℝ} (hl : c.sys.solveLoop optimize ord opts = .ok st) : st.vars.length = c.sys.vars.length ∧
    ∑ v ∈ Finset.range c.sys.vars.length, w v * st.vars.getD v 0 = ∑ v ∈ Finset.range c.sys.vars.length, w v * c.sys.vars.getD v 0 := by
  have key : ∀ (l : List (Component × Nat)) (st st' : SolveState ℝ), (∀ ck ∈ l, c.sys.graph.components[ck.2]? = some ck.1) → (l.map Prod.snd).Nodup → st.transformed.length = c.sys.vars.length →
      st.vars.length = c.sys.vars.length → (∀ v, (∃ ck ∈ l, c.sys.VarOf ck.1.elements v) → Synced c.sys.scale st v) →
      l.foldlM (solveComponent optimize ord opts c.sys c.sys.scale c.sys.scaledExpressions) st = .ok st' → st'.vars.length = c.sys.vars.length ∧
      ∑ v ∈ Finset.range c.sys.vars.length, w v * st'.vars.getD v 0 = ∑ v ∈ Finset.range c.sys.vars.length, w v * st.vars.getD v 0 := by
    intro l
    induction l with
    | nil => intro st st' _ _ _ hlen' _ hf; cases hf; exact ⟨hlen', rfl⟩
    | cons ck l ih =>
      intro st st' hcomps hnd hlen hlen' hsy hf
      rw [List.foldlM_cons, bind_eq_ok] at hf
      obtain ⟨st1, h1, h2⟩ := hf
      rw [List.map_cons, List.nodup_cons] at hnd
      have hck := hcomps ck (by simp)
      obtain ⟨a1, a2, h3, h4⟩ := h.component_balanced hn hd hp hopt hfix hck hlen hlen' (fun v hv => hsy v ⟨ck, by simp, hv⟩) h1
      refine (ih st1 st' (fun ck hck => hcomps ck (by simp [hck])) hnd.2 a1 a2 (fun v hv x hx => ?_) h2).imp_right (·.trans h4)
      have hnv : ¬ (c.sys.VarOf ck.1.elements v ∧ v ∉ c.sys.fixedVariables) := by
        rintro ⟨hv1, hvf⟩
        obtain ⟨ck', hck', hv2⟩ := hv
        obtain ⟨p, hp, el, h10, h11⟩ := hv1
        obtain ⟨q, hq, el', h12, h13⟩ := hv2
        have hck2 := hcomps ck' (by simp [hck'])
        have hpc := h.constrained_of_mem (List.mem_of_getElem? hck) hp
        have hpq := h.varOf_unique hpc (h.constrained_of_mem (List.mem_of_getElem? hck2) hq) h10 h12 h11 h13
        subst hpq
        obtain ⟨k0, -, h14⟩ := (C17_elements_partitioned h p).1 hpc
        refine hnd.1 (List.mem_map.2 ⟨ck', hck', ?_⟩)
        exact (h14 ck'.2 ⟨ck'.1, hck2, hq⟩).trans (h14 ck.2 ⟨ck.1, hck, hp⟩).symm
      rw [(h3 v hnv).2] at hx
      rw [(h3 v hnv).1]
      obtain ⟨ck', b1, b2⟩ := hv
      exact hsy v ⟨ck', by simp [b1], b2⟩ x hx
  refine key c.sys.graph.components.zipIdx ⟨c.sys.vars, c.sys.scaledVariables, 42, []⟩ st (fun ck hck => List.mem_zipIdx_iff_getElem?.1 hck) (by rw [List.zipIdx_map_snd]; exact List.nodup_range')
    (by simp [System.scaledVariables]) rfl (fun v _ x hx => ?_) hl
  simp only at hx
  rw [System.scaledVariables, List.getElem?_map, Option.map_eq_some_iff] at hx
  obtain ⟨y, h2, rfl⟩ := hx
  simp only
  rw [h2]
  congr 1
  field_simp

end

/-! ## Points -/

section
variable {counter : Nat} {ops : List (Op ℝ)} {c : Client ℝ} (h : Reaches counter ops c) (hnz : ((Store.empty ℝ).run ops).NonZero)
  (hn : NeverJoins ((Store.empty ℝ).run ops).arguments) {ord : HashOrder} {opts : SolvingOptions} (hd : opts.decomposer = .none) (hp : opts.perturb = false)
include h hnz hn hd hp

/-- C86 (partial): with `Decomposer::None` and no perturbation, in exact arithmetic, after any legal history in which no constraint joins two constrained parts: if a set of points is tied to nothing else
and none of them is fixed, its centroid is where it was, whatever `solve` returns; with L-BFGS, if all constraints are about distinct points. (Full statement: for all options and histories.) -/
theorem C86_centroid_stays_partial (cast : ℝ → Int) {sort : SortByKey} (hsort : Spec.Sorts sort) (hshort : ops.length < 2 ^ 24)
    (hdist : opts.optimizer = .lBfgs → ((Store.empty ℝ).run ops).Distinct) {fuel : Nat} {s' : System ℝ}
    (hs : c.sys.solve (crateOptimize (qrLeastSquares sort (colamdOfStructure cast)) fuel) ord opts = .ok s') {S : Finset Nat} (hS : ((Store.empty ℝ).run ops).Loose S) :
    ∃ x y x' y' : Nat → ℝ, (∀ p ∈ S, c.sys.getValue .point ⟨c.sys.id, p⟩ = .ok (.point (x p) (y p)) ∧ s'.getValue .point ⟨c.sys.id, p⟩ = .ok (.point (x' p) (y' p))) ∧
      ∑ p ∈ S, x' p = ∑ p ∈ S, x p ∧ ∑ p ∈ S, y' p = ∑ p ∈ S, y p := by
  have hr := h.crel.rel
  have hpos := h.scale_pos hnz
  obtain ⟨st, h2, rfl⟩ := solve_eq hs
  have hlen : ∀ p ∈ S, off ((Store.empty ℝ).run ops).elems p + 1 < c.sys.vars.length := by
    intro p hp
    obtain ⟨x, y, he⟩ := (hS.1 p hp).1
    have := off_add_le _ he
    rw [hr.vars]
    simp only [elemValues, List.length_cons, List.length_nil] at this
    omega
  have key : ∀ a b : ℝ, st.vars.length = c.sys.vars.length ∧ ∑ p ∈ S, (a * st.vars.getD (off ((Store.empty ℝ).run ops).elems p) 0 + b * st.vars.getD (off ((Store.empty ℝ).run ops).elems p + 1) 0) =
      ∑ p ∈ S, (a * c.sys.vars.getD (off ((Store.empty ℝ).run ops).elems p) 0 + b * c.sys.vars.getD (off ((Store.empty ℝ).run ops).elems p + 1) 0) := by
    intro a b
    rw [← weightOf_sum _ hlen, ← weightOf_sum _ hlen]
    refine h.loop_balanced hn hpos.ne' hd hp (fun sub x x' hsub hok hwi hz hx hx' => ?_) (fun v hv => ?_) h2
    · refine crateOptimize_balanced (qrColamd_exact cast hsort) hok (fun ho id hid e he => ?_) (h.fits hshort _ _ _ hwi.1 hwi.2 (Subsystem.size_le _)) (fun id hid e he => ⟨?_, hz id hid e he⟩) hx hx'
      · rw [hsub, System.scaledExpressions, List.getElem?_map, Option.map_eq_some_iff] at he
        obtain ⟨e0, he, rfl⟩ := he
        have he := List.mem_of_getElem? he
        rw [hr.exprs, List.mem_flatMap] at he
        obtain ⟨con, hcon, he⟩ := he
        rw [Expr.transform_variableIndices]
        exact encCon_nodup hr (hr.wfCon con hcon) (hdist ho con hcon) e0 he
      · rw [hsub, System.scaledExpressions, List.getElem?_map, Option.map_eq_some_iff] at he
        obtain ⟨e0, he, rfl⟩ := he
        have he := List.mem_of_getElem? he
        rw [hr.exprs, List.mem_flatMap] at he
        obtain ⟨con, hcon, he⟩ := he
        exact Expr.transform_shifts _ (encCon_shifts hr hS hcon e0 he)
    · by_contra hne
      obtain ⟨p, hp, hv'⟩ := weightOf_ne_zero hne
      obtain ⟨i, hi, hv⟩ := (hr.fixed v).1 hv
      obtain ⟨⟨x, y, he⟩, hnf⟩ := hS.1 p hp
      rw [hr.owners] at hv
      have h0 := owner_at _ he (j := 0) (by simp [elemValues])
      have h1 := owner_at _ he (j := 1) (by simp [elemValues])
      rcases hv' with rfl | rfl
      · rw [add_zero, hv] at h0
        cases h0
        exact hnf hi
      · rw [hv] at h1
        cases h1
        exact hnf hi
  have hread : ∀ (s : System ℝ), s.id = c.sys.id → s.elements = c.sys.elements → s.vars.length = c.sys.vars.length → ∀ p ∈ S,
      s.getValue .point ⟨c.sys.id, p⟩ = .ok (.point (s.vars.getD (off ((Store.empty ℝ).run ops).elems p) 0) (s.vars.getD (off ((Store.empty ℝ).run ops).elems p + 1) 0)) := by
    intro s h1 h2 h3 p hp
    obtain ⟨⟨x, y, he⟩, -⟩ := hS.1 p hp
    have := hlen p hp
    unfold System.getValue
    rw [if_neg (by simp [h1]), h2, idx_of (hr.element_at he), ok_bind]
    simp only [encElem, fromEncodedElement]
    rw [idx_getD (by omega), ok_bind, idx_getD (by omega), ok_bind]
    rfl
  refine ⟨_, _, _, _, fun p hp => ⟨hread c.sys rfl rfl rfl p hp, hread { c.sys with vars := st.vars } rfl rfl (key 0 0).1 p hp⟩, ?_, ?_⟩
  · simpa using (key 1 0).2
  · simpa using (key 0 1).2

end

/-- A figure that meets the hypotheses for both optimisers, with a constraint that does not hold: two points at the distance 1 that shall be at the distance 3. -/
example : ∃ (ops : List (Op ℝ)) (c : Client ℝ), Reaches 0 ops c ∧ ((Store.empty ℝ).run ops).NonZero ∧ NeverJoins ((Store.empty ℝ).run ops).arguments ∧ ((Store.empty ℝ).run ops).Distinct ∧
    ((Store.empty ℝ).run ops).Loose {0, 1} ∧ c.sys.calculateResidual .pointPointDistance ⟨0, 0⟩ = .ok (-2) := by
  let ops : List (Op ℝ) := [.createPoint 0 0, .createPoint 1 0, .createCon (.pointPointDistance 0 1 3)]
  obtain ⟨c, h⟩ := exists_reaches 0 ops (by
    simp [ops, Store.LegalRun, Store.Legal, Store.empty, Store.step, Store.IsPoint, Store.ConOk]) (by simp [ops])
  refine ⟨ops, c, h, ⟨.point 1 0, by simp [ops, Store.run, Store.empty, Store.step], .inl ⟨1, 0, rfl, .inl (by norm_num)⟩⟩, ?_, ?_, ⟨?_, ?_⟩, ?_⟩
  · intro m l hm i _ j _ hci _
    have hlen := lt_of_getElem? hm
    obtain ⟨k, hk, -⟩ := hci
    rw [show m = 0 by simpa [Store.arguments, ops, Store.run, Store.empty, Store.step] using hlen] at hk
    simp at hk
  · intro con hcon
    simp only [ops, Store.run, Store.empty, Store.step, List.foldl_cons, List.foldl_nil, List.nil_append, List.mem_singleton] at hcon
    subst hcon
    simp [Store.pointsOf]
  · intro p hp
    simp only [Finset.mem_insert, Finset.mem_singleton] at hp
    rcases hp with rfl | rfl
    · exact ⟨⟨0, 0, rfl⟩, by simp [ops, Store.run, Store.empty, Store.step]⟩
    · exact ⟨⟨1, 0, rfl⟩, by simp [ops, Store.run, Store.empty, Store.step]⟩
  · intro con hcon
    simp only [ops, Store.run, Store.empty, Store.step, List.foldl_cons, List.foldl_nil, List.nil_append, List.mem_singleton] at hcon
    subst hcon
    exact .inl (by simp [Store.actsOn])
  · have key : ((Client.new ℝ 0).run ops >>= fun c => c.sys.calculateResidual .pointPointDistance ⟨0, 0⟩) = .ok ((ppdResGrad (0 : ℝ) 0 1 0 3).1) := rfl
    rw [h.run, ok_bind] at key
    rw [key]
    congr 1
    show √((0 - 1) * (0 - 1) + (0 - 0) * (0 - 0)) - 3 = (-2 : ℝ)
    norm_num

/-! ## Where the centroid moves -/

/-- C86 does not hold with perturbation, which is the default: two points in the origin that shall coincide are not fixed and tied to nothing else; all residuals are zero. Afterwards the sum of
their first coordinates is positive. -/
theorem C86_default_shifts : ∃ c, Reaches 0 originPairOps c ∧ ((Store.empty ℝ).run originPairOps).NonZero ∧ ((Store.empty ℝ).run originPairOps).Loose {0, 1} ∧
    c.sys.getValue .point ⟨0, 0⟩ = .ok (.point 0 0) ∧ c.sys.getValue .point ⟨0, 1⟩ = .ok (.point 0 0) ∧
    ∀ (ls : LeastSquares ℝ) (_ : ls.Safe (fun _ _ _ => True)) (fuel : Nat) (ord : HashOrder), ∃ s' x y x' y', c.sys.solve (crateOptimize ls fuel) ord .default = .ok s' ∧
      s'.getValue .point ⟨0, 0⟩ = .ok (.point x y) ∧ s'.getValue .point ⟨0, 1⟩ = .ok (.point x' y') ∧ 0 < x + x' := by
  obtain ⟨c, h⟩ := exists_reaches 0 originPairOps (by
    simp [originPairOps, Store.LegalRun, Store.Legal, Store.empty, Store.step, Store.IsPoint, Store.ConOk]) (by simp [originPairOps])
  have key : (do let c ← (Client.new ℝ 0).run originPairOps
                 let v ← c.sys.getValue .point ⟨0, 0⟩
                 let v' ← c.sys.getValue .point ⟨0, 1⟩
                 pure (v, v', c.sys.id) : R _) = .ok (.point 0 0, .point 0 0, 0) := rfl
  rw [h.run, ok_bind] at key
  simp only [bind_eq_ok, pure_eq_ok, Except.ok.injEq, Prod.mk.injEq] at key
  obtain ⟨v, k1, v', k2, rfl, rfl, hid⟩ := key
  refine ⟨c, h, ⟨.length 1, by simp [originPairOps, Store.run, Store.empty, Store.step], .inr ⟨1, rfl, one_ne_zero⟩⟩, ⟨?_, ?_⟩, k1, k2, ?_⟩
  · intro p hp
    simp only [Finset.mem_insert, Finset.mem_singleton] at hp
    rcases hp with rfl | rfl
    · exact ⟨⟨0, 0, rfl⟩, by simp [originPairOps, Store.run, Store.empty, Store.step]⟩
    · exact ⟨⟨0, 0, rfl⟩, by simp [originPairOps, Store.run, Store.empty, Store.step]⟩
  · intro con hcon
    simp only [originPairOps, Store.run, Store.empty, Store.step, List.foldl_cons, List.foldl_nil, List.nil_append, List.mem_singleton] at hcon
    subst hcon
    exact .inl (by simp [Store.actsOn])
  intro ls hls fuel ord
  have hlm := lm_rests_ok originPair_ok.total hls trivial (fuel := fuel) (x := [originNoise originScale 0, originNoise originScale 1, originNoise originScale 2, originNoise originScale 3])
    rfl (Subsystem.problem_consistent _) (fun r hr => originPair_small hr)
  obtain ⟨s', h1, rfl⟩ := originPair_loop h (crateOptimize ls fuel) ord hlm
  have hpos : 0 < originScale := by
    have : originScale = √((0 + 0 * 0 + 0 * 0 + 0 * 0 + 0 * 0 + 1 * 1) / ((5 : ℕ) : ℝ)) := rfl
    rw [this]
    positivity
  obtain ⟨g1, g2, -⟩ := originPair_sys h
  refine ⟨_, originScale * originNoise originScale 0, originScale * originNoise originScale 1, originScale * originNoise originScale 2, originScale * originNoise originScale 3, h1, ?_, ?_, ?_⟩
  · unfold System.getValue
    simp only [hid, g2]
    rw [if_neg (by simp)]
    rfl
  · unfold System.getValue
    simp only [hid, g2]
    rw [if_neg (by simp)]
    rfl
  · have a1 : 0 < originNoise originScale 0 := lt_of_le_of_ne (noise_bound originScale 0).1 (Ne.symm (noise_zero _))
    have a2 := (noise_bound originScale 2).1
    positivity

/-- Two points that coincide, with a constraint that says so twice, and a third one that shall coincide with the second. (The lengths are not used, they make the unit of length 1.) -/
noncomputable def swayOps : List (Op ℝ) :=
  [.createPoint (-2) 0, .createPoint (-2) 0, .createPoint 2 0, .createLength 0, .createLength 0, .createLength 0, .createLength 0, .createLength 0, .createLength 0,
    .createCon (.pointPointCoincidence 0 1), .createCon (.pointPointCoincidence 0 1), .createCon (.pointPointCoincidence 1 2)]

theorem sway_blocks {c : Client ℝ} (h : Reaches 0 swayOps c) : c.sys.graph.components = [⟨{0, 1, 2}, {0, 1, 2}⟩] ∧
    okAnd (c.sys.freeVariables {0, 1, 2}) (fun free => okAnd (c.sys.equationGraph.findStronglyConnectedExpressions free) (fun l => l.map (fun b => (b.expressions, b.freeVariables)) =
      [([1, 3], {1, 3}), ([5], {5}), ([0, 2], {0, 2}), ([4], {4})])) = true := by
  have h2 : okAnd ((Client.new ℝ 0).run swayOps) (fun c => c.sys.graph.components.map (fun k => (k.elements, k.constraints)) = [({0, 1, 2}, {0, 1, 2})]) = true := by decide +kernel
  have h3 : okAnd ((Client.new ℝ 0).run swayOps) (fun c => okAnd (c.sys.freeVariables {0, 1, 2}) (fun free => okAnd (c.sys.equationGraph.findStronglyConnectedExpressions free)
    (fun l => l.map (fun b => (b.expressions, b.freeVariables)) = [([1, 3], {1, 3}), ([5], {5}), ([0, 2], {0, 2}), ([4], {4})]))) = true := by decide +kernel
  rw [h.run] at h2 h3
  exact ⟨components_of_pairs (of_decide_eq_true h2), h3⟩

/-- C86 does not hold with `Decomposer::SinglePass`: where a constraint is stated twice, the points it is about are not moved for other constraints. Of three points to coincide, two of which do, only the third one
moves, all the way. -/
theorem C86_singlePass_shifts (cast : ℝ → Int) {sort : SortByKey} (hsort : Spec.Sorts sort) {ord : HashOrder} (hord : ord.Ok) :
    ∃ c, Reaches 0 swayOps c ∧ ((Store.empty ℝ).run swayOps).NonZero ∧ NeverJoins ((Store.empty ℝ).run swayOps).arguments ∧ ((Store.empty ℝ).run swayOps).Loose {0, 1, 2} ∧
      c.sys.getValue .point ⟨0, 0⟩ = .ok (.point (-2) 0) ∧ c.sys.getValue .point ⟨0, 1⟩ = .ok (.point (-2) 0) ∧ c.sys.getValue .point ⟨0, 2⟩ = .ok (.point 2 0) ∧ ∃ s' k y,
        (∀ fuel, k ≤ fuel → c.sys.solve (crateOptimize (qrLeastSquares sort (colamdOfStructure cast)) fuel) ord ⟨.levenbergMarquardt, .singlePass, false⟩ = .ok s') ∧
        s'.getValue .point ⟨0, 0⟩ = .ok (.point (-2) 0) ∧ s'.getValue .point ⟨0, 1⟩ = .ok (.point (-2) 0) ∧ s'.getValue .point ⟨0, 2⟩ = .ok (.point y 0) ∧ y ≤ -1 := by
  obtain ⟨c, h⟩ := exists_reaches 0 swayOps (by
    simp [swayOps, Store.LegalRun, Store.Legal, Store.empty, Store.step, Store.IsPoint, Store.ConOk]) (by simp [swayOps])
  have hv : c.sys.vars = [-2, 0, -2, 0, 2, 0, 0, 0, 0, 0, 0, 0] := by rw [h.crel.rel.vars]; rfl
  have he : c.sys.expressions = [.variableVariableEquality 0 2, .variableVariableEquality 1 3, .variableVariableEquality 0 2, .variableVariableEquality 1 3,
      .variableVariableEquality 2 4, .variableVariableEquality 3 5] := by rw [h.crel.rel.exprs]; rfl
  have hsc : c.sys.scale = 1 := by
    unfold System.scale
    rw [hv, he]
    show Real.sqrt ((0 + (-2) * (-2) + 0 * 0 + (-2) * (-2) + 0 * 0 + 2 * 2 + 0 * 0 + 0 * 0 + 0 * 0 + 0 * 0 + 0 * 0 + 0 * 0 + 0 * 0) / ((12 : ℕ) : ℝ)) = 1
    rw [show ((0 + (-2) * (-2) + 0 * 0 + (-2) * (-2) + 0 * 0 + 2 * 2 + 0 * 0 + 0 * 0 + 0 * 0 + 0 * 0 + 0 * 0 + 0 * 0 + 0 * 0) / ((12 : ℕ) : ℝ) : ℝ) = 1 by norm_num, Real.sqrt_one]
  have hw : c.sys.scaledVariables = c.sys.vars := by
    rw [System.scaledVariables, hsc]
    simp
  have hx : c.sys.scaledExpressions = c.sys.expressions := by
    rw [System.scaledExpressions, hsc, he]
    rfl
  rw [hv] at hw
  rw [he] at hx
  obtain ⟨s', k, hk⟩ := C52_solve_returns_partial cast hsort h (by simp [swayOps]) hord (opts := ⟨.levenbergMarquardt, .singlePass, false⟩) (by simp) rfl
  obtain ⟨st1, st2, st3, st4, a1, a2, a3, a4, rfl⟩ := four_blocks hw hv hx hsc (by simp) (sway_blocks h).1 (sway_blocks h).2 (hk k le_rfl)
  rw [ord_single hord] at a2 a4
  obtain ⟨p1, q1⟩ := block_rests (crateOptimize_keeps _ k) rfl rfl (fun i hi e he r hr => by
    simp only [List.mem_cons, List.not_mem_nil, or_false] at hi
    rcases hi with rfl | rfl <;> (cases he; exact vve_zero hr rfl)) a1
  obtain ⟨p2, q2⟩ := block_rests (crateOptimize_keeps _ k) p1 q1 (fun i hi e he r hr => by
    simp only [List.mem_cons, List.not_mem_nil, or_false] at hi
    subst hi
    cases he
    exact vve_zero hr rfl) a2
  obtain ⟨p3, q3⟩ := block_rests (crateOptimize_keeps _ k) p2 q2 (fun i hi e he r hr => by
    simp only [List.mem_cons, List.not_mem_nil, or_false] at hi
    rcases hi with rfl | rfl <;> (cases he; exact vve_zero hr rfl)) a3
  obtain ⟨y, r1, r2⟩ := pull_block cast hsort rfl (st := st3) (fun i hi => by
      simp only [List.mem_singleton] at hi
      subst hi
      exact ⟨_, rfl, by rw [q3]; simp [Expr.variableIndices]⟩) rfl (by norm_num)
    (fun len hl => h.fits (by simp [swayOps]) _ _ _ (by rw [he]; simp) (by rw [hv]; simp) (by omega)) (by rw [q3]; norm_num) a4
  rw [q3] at r2
  obtain ⟨l2, f2⟩ := (solveBlock_spec a4).1.vars
  rw [p3] at l2 f2
  have hy : st4.vars = [-2, 0, -2, 0, y, 0, 0, 0, 0, 0, 0, 0] := by
    refine List.ext_getElem? fun i => ?_
    by_cases hi : i = 4
    · subst hi
      rw [r1]
      rfl
    · rw [f2 i (by simpa using hi)]
      match i with
      | 0 | 1 | 2 | 3 | 5 | 6 | 7 | 8 | 9 | 10 | 11 => rfl
      | 4 => exact absurd rfl hi
      | i + 12 => rfl
  have hread : ∀ y : ℝ, ∀ n : Nat, n < 3 → ((Client.new ℝ 0).run swayOps >>= fun c =>
        ({ c.sys with vars := [-2, 0, -2, 0, y, 0, 0, 0, 0, 0, 0, 0] } : System ℝ).getValue .point ⟨0, n⟩) = .ok (.point ([-2, -2, y].getD n 0) 0) := by
    intro y n hn
    match n, hn with
    | 0, _ => rfl
    | 1, _ => rfl
    | 2, _ => rfl
  simp only [h.run, ok_bind] at hread
  have hsame : ({ c.sys with vars := [-2, 0, -2, 0, 2, 0, 0, 0, 0, 0, 0, 0] } : System ℝ) = c.sys := by rw [← hv]
  have h0 := hread 2
  rw [hsame] at h0
  refine ⟨c, h, ⟨.point 2 0, by simp [swayOps, Store.run, Store.empty, Store.step], .inl ⟨2, 0, rfl, .inl (by norm_num)⟩⟩, ?_, ⟨?_, ?_⟩, h0 0 (by norm_num), h0 1 (by norm_num), h0 2 (by norm_num),
    _, k, y, hk, ?_, ?_, ?_, ?_⟩
  · intro m l hm i hi j hj hci hcj
    have ha : ((Store.empty ℝ).run swayOps).arguments = [[0, 1], [0, 1], [1, 2]] := rfl
    rw [ha] at hm hci hcj ⊢
    match m, hm with
    | 0, _ =>
      obtain ⟨k, hk, -⟩ := hci
      simp at hk
    | 1, hm =>
      obtain rfl : [0, 1] = l := by simpa using hm
      exact .single ⟨_, by simp, hi, hj⟩
    | 2, hm =>
      simp only [Constrained, List.take_succ_cons, List.take_zero, List.mem_cons, List.not_mem_nil, or_false, or_self, exists_eq_left] at hci hcj
      exact .single ⟨[0, 1], by simp, by simpa using hci, by simpa using hcj⟩
    | m + 3, hm => simp at hm
  · intro p hp
    simp only [Finset.mem_insert, Finset.mem_singleton] at hp
    rcases hp with rfl | rfl | rfl
    · exact ⟨⟨-2, 0, rfl⟩, by simp [swayOps, Store.run, Store.empty, Store.step]⟩
    · exact ⟨⟨-2, 0, rfl⟩, by simp [swayOps, Store.run, Store.empty, Store.step]⟩
    · exact ⟨⟨2, 0, rfl⟩, by simp [swayOps, Store.run, Store.empty, Store.step]⟩
  · intro con hcon
    simp only [swayOps, Store.run, Store.empty, Store.step, List.foldl_cons, List.foldl_nil, List.nil_append, List.cons_append, List.mem_cons, List.not_mem_nil, or_false] at hcon
    rcases hcon with rfl | rfl | rfl <;> exact .inl (by simp [Store.actsOn])
  · rw [hy]; exact hread y 0 (by norm_num)
  · rw [hy]; exact hread y 1 (by norm_num)
  · rw [hy]; exact hread y 2 (by norm_num)
  · have r3 : (-2 - y) ^ 2 ≤ 1 / 10 ^ 8 := r2
    nlinarith

end Fiksi
