import Verif.Proofs.Gauss
import Verif.Props.Jacobian
import Verif.Props.ApiUpdates
/-!
# The analysis of a whole system
-/
namespace Fiksi

open Spec

variable {F : Type}

theorem foldlM_congr {α σ : Type} {f g : σ → α → R σ} (l : List α) (h : ∀ s, ∀ a ∈ l, f s a = g s a) (s : σ) :
    l.foldlM f s = l.foldlM g s := by
  induction l generalizing s with
  | nil => rfl
  | cons a l ih =>
    rw [List.foldlM_cons, List.foldlM_cons, h s a (by simp)]
    congr 1
    funext s'
    exact ih (fun s a ha => h s a (by simp [ha])) s'

/-- All expressions, with all variables free. -/
def System.whole (s : System F) : Subsystem F :=
  ⟨s.vars, s.expressions, List.range s.expressions.length, List.range s.vars.length⟩

theorem idxOf?_range {n v : Nat} : (List.range n).idxOf? v = if v < n then some v else none := by
  split
  · rename_i h
    rw [List.idxOf?, List.findIdx?_eq_some_iff_getElem]
    refine ⟨by simpa using h, by simp, ?_⟩
    intro j hj
    simp
    omega
  · rename_i h
    rw [List.idxOf?, List.findIdx?_eq_none_iff]
    intro x hx
    have := List.mem_range.1 hx
    simp
    omega

theorem System.whole_getValue (s : System F) (u : List F) (hu : u.length = s.vars.length) :
    s.whole.getValue u = identityMap u := by
  funext v
  rw [Subsystem.getValue, identityMap]
  simp only [System.whole]
  rw [idxOf?_range]
  by_cases h : v < s.vars.length
  · rw [if_pos h]
  · rw [if_neg h]
    rw [idx, idx, List.getElem?_eq_none (by omega), List.getElem?_eq_none (by omega)]
    rfl

theorem System.whole_jacobian [Add F] [Sub F] [Mul F] [Div F] [Neg F] [Zero F] [One F] [FloatOps F] (s : System F) (st : List F × List F) :
    s.expressions.zipIdx.foldlM s.analysisRow st = s.whole.denseJacobian s.vars st.1 st.2 := by
  rw [Subsystem.denseJacobian]
  have h : s.whole.expressions.zipIdx = s.expressions.zipIdx.map (fun p => (p.2, p.2)) := by
    apply List.ext_getElem?
    intro i
    simp only [System.whole, List.getElem?_zipIdx, List.getElem?_map, Nat.zero_add, Option.map_map]
    by_cases hi : i < s.expressions.length
    · rw [List.getElem?_range hi, List.getElem?_eq_getElem hi]
      rfl
    · rw [List.getElem?_eq_none (by simpa using hi), List.getElem?_eq_none (by omega)]
      rfl
  rw [h, List.foldlM_map]
  apply foldlM_congr
  rintro st ⟨e, i⟩ hm
  have he : s.expressions[i]? = some e := by
    have := List.mem_zipIdx' hm
    rw [this.2]
    exact List.getElem?_eq_getElem this.1
  have h1 : idx s.whole.allExpressions i = .ok e := idx_of he
  have h2 : s.whole.freeVariables.length = s.vars.length := by simp [System.whole]
  rw [System.analysisRow, Subsystem.denseRow]
  simp only
  rw [h1, h2, s.whole_getValue _ rfl]
  rfl

theorem flatMap_index {α β : Type} (f : α → List β) (l : List α) (i : Nat) (h : i < (l.flatMap f).length) :
    ∃ k j a, l[k]? = some a ∧ j < (f a).length ∧ i = ((l.take k).flatMap f).length + j := by
  induction l generalizing i with
  | nil => simp at h
  | cons a l ih =>
    by_cases hi : i < (f a).length
    · exact ⟨0, i, a, by simp, hi, by simp⟩
    · obtain ⟨k, j, b, h1, h2, h3⟩ := ih (i - (f a).length) (by
        rw [List.flatMap_cons, List.length_append] at h
        omega)
      refine ⟨k + 1, j, b, by simpa using h1, h2, ?_⟩
      rw [List.take_succ_cons, List.flatMap_cons, List.length_append]
      omega

/-- Every expression belongs to a constraint. -/
theorem Reaches.owner {counter : Nat} {ops : List (Op F)} {c : Client F} (h : Reaches counter ops c) {i : Nat}
    (hi : i < c.sys.expressions.length) :
    ∃ con ec, c.sys.constraints[con]? = some ec ∧ ec.expressionsIdx ≤ i ∧ i < ec.expressionsIdx + ec.tag.valency ∧
      c.sys.expressionToConstraint[i]? = some con := by
  have hr := h.crel.rel
  have hi' := hi
  rw [hr.exprs] at hi'
  obtain ⟨k, j, a, h1, h2, h3⟩ := flatMap_index _ _ _ hi'
  rw [encCon_length] at h2
  have hc : c.sys.constraints[k]? =
      some ⟨a.kind, ((((Store.empty F).run ops).cons.take k).flatMap (encCon ((Store.empty F).run ops).elems)).length⟩ := by
    rw [hr.constraints, List.getElem?_mapIdx, h1]
    rfl
  refine ⟨k, _, hc, ?_, ?_, ?_⟩
  · simp only; omega
  · simp only; omega
  · have := (C18_expression_owner h).2 k _ hc j h2
    rw [h3]
    exact this

theorem Reaches.wholeOk [Add F] [Sub F] [Mul F] [Div F] [Neg F] [Zero F] [One F] [FloatOps F] {counter : Nat} {ops : List (Op F)} {c : Client F} (h : Reaches counter ops c) : c.sys.whole.Ok := by
  intro id hid
  have hid' : id < c.sys.expressions.length := List.mem_range.1 hid
  exact ⟨_, List.getElem?_eq_getElem hid', fun v hv => h.crel.rel.expr_lt (List.getElem_mem hid') hv⟩

/-- `hd` is the handle, as listed by `get_constraint_handles`, of the constraint one of whose expressions has number `i`. -/
def Spec.HandleOfExpression (s : System F) (i : Nat) (hd : AnyConstraintHandle) : Prop :=
  ∃ (con : Nat) (ec : EncodedConstraint) (handles : List AnyConstraintHandle), s.constraints[con]? = some ec ∧ ec.expressionsIdx ≤ i ∧ i < ec.expressionsIdx + ec.tag.valency ∧
    s.getConstraintHandles = .ok handles ∧ handles[con]? = some hd

theorem Reaches.overconstraint {counter : Nat} {ops : List (Op F)} {c : Client F} (h : Reaches counter ops c) {i : Nat}
    (hi : i < c.sys.expressions.length) : ∃ hd, c.sys.overconstraint i = .ok hd ∧ Spec.HandleOfExpression c.sys i hd := by
  obtain ⟨con, ec, h1, h2, h3, h4⟩ := h.owner hi
  refine ⟨⟨c.sys.id, con, ec.tag⟩, ?_, con, ec, _, h1, h2, h3, h.crel.rel.getConstraintHandles (by have := h.size; omega), ?_⟩
  · rw [System.overconstraint, idx_of h4, ok_bind, idx_of h1, ok_bind, pure_eq_ok]
  · rw [h.crel.rel.constraints, List.getElem?_mapIdx, Option.map_eq_some_iff] at h1
    obtain ⟨con', h5, rfl⟩ := h1
    rw [List.getElem?_mapIdx, h5]
    rfl

/-- The numbers of the flags that are false. -/
def falseFlags (inc : List Bool) : List Nat := (inc.zipIdx.filter (fun p => !p.1)).map Prod.snd

theorem mem_falseFlags {inc : List Bool} {i : Nat} : i ∈ falseFlags inc ↔ inc[i]? = some false := by
  rw [falseFlags, List.mem_map]
  constructor
  · rintro ⟨⟨b, j⟩, h1, rfl⟩
    rw [List.mem_filter] at h1
    have h2 : b = false := by simpa using h1.2
    have h3 := List.mem_zipIdx' h1.1
    subst h2
    exact List.getElem?_eq_some_iff.2 ⟨h3.1, h3.2.symm⟩
  · intro h
    refine ⟨(false, i), List.mem_filter.2 ⟨?_, rfl⟩, rfl⟩
    exact List.mem_zipIdx_iff_getElem?.2 h

theorem falseFlags_sorted (inc : List Bool) : (falseFlags inc).Pairwise (· < ·) := by
  rw [falseFlags, List.pairwise_map]
  refine List.Pairwise.filter _ ?_
  rw [← List.pairwise_map (f := Prod.snd) (R := (· < ·)), List.zipIdx_map_snd]
  exact List.pairwise_lt_range'

theorem falseFlags_length (inc : List Bool) : (falseFlags inc).length + rankOf inc inc.length = inc.length := by
  rw [falseFlags, rankOf, List.take_length, List.length_map]
  have : ∀ k, ((inc.zipIdx k).filter (fun p => !p.1)).length = inc.count false := by
    induction inc with
    | nil => intro k; rfl
    | cons b inc ih => intro k; cases b <;> simp [List.zipIdx_cons, ih]
  rw [this]
  have h := List.length_eq_countP_add_countP (fun b : Bool => b == true) (l := inc)
  have h2 : List.count false inc = List.countP (fun a => decide ¬((a == true) = true)) inc := by
    rw [List.count]
    congr 1
    funext b
    cases b <;> rfl
  rw [h2, h, List.count]
  omega

end Fiksi
