import Verif.Proofs.Canonical
import Verif.Model.Gauss
import Verif.Props.Solve
import Verif.Props.Components
/-!
# C77: only the present figure matters, not how it came about

`Store.run` forgets in which order calls that created elements and calls that created constraints were interleaved, which values were
overwritten, what was fixed and released in between, and how often `solve` was called. Everything the crate computes depends on what is
left: two clients with equal stores hold equal systems. The theorems hold for every arithmetic, so also in rounded arithmetic and with NaN.
-/
namespace Fiksi

open Spec

variable {F : Type}

/-- Handles of another system. -/
def AnyConstraintHandle.moved (k : Nat) (h : AnyConstraintHandle) : AnyConstraintHandle := { h with systemId := k }

section
variable [Add F] [Sub F] [Mul F] [Div F] [Neg F] [Zero F] [One F] [FloatOps F]

/-- C77. Two clients whose calls led to the same figure read the same values and residuals and get the same result from `solve`, with
every optimiser, every option and every iteration order of the hash sets. -/
theorem C77_only_the_figure_matters {k k' : Nat} {ops ops' : List (Op F)} {c c' : Client F} (h : Reaches k ops c) (h' : Reaches k' ops' c')
    (hst : (Store.empty F).run ops = (Store.empty F).run ops') :
    (∀ (i : Nat) hd hd' tag, c.elemHandles[i]? = some hd → c'.elemHandles[i]? = some hd' → c'.sys.getValue tag hd' = c.sys.getValue tag hd) ∧
    (∀ (i : Nat) hd hd' tag, c.conHandles[i]? = some hd → c'.conHandles[i]? = some hd' →
      c'.sys.calculateResidual tag hd' = c.sys.calculateResidual tag hd) ∧
    (∀ optimize ord opts, c'.sys.solve optimize ord opts = (c.sys.solve optimize ord opts).map fun s => { s with id := k' }) ∧
    c'.sys.analyze = (c.sys.analyze).map (List.map (AnyConstraintHandle.moved k')) := by
  have e := h.determined h' hst
  have hk := h.sysId
  refine ⟨fun i hd hd' tag hi hi' => ?_, fun i hd hd' tag hi hi' => ?_, fun optimize ord opts => ?_, ?_⟩
  · have hi2 := hi
    rw [h.crel.elemHandles, List.getElem?_map, Option.map_eq_some_iff] at hi
    rw [h'.crel.elemHandles, List.getElem?_map, Option.map_eq_some_iff] at hi'
    obtain ⟨j, hj, rfl⟩ := hi
    obtain ⟨j', hj', rfl⟩ := hi'
    have a := lt_of_getElem? hj
    have a' := lt_of_getElem? hj'
    rw [List.length_range] at a a'
    rw [List.getElem?_range a, Option.some.injEq] at hj
    rw [List.getElem?_range a', Option.some.injEq] at hj'
    subst hj hj'
    unfold System.getValue
    rw [if_neg (by simp), if_neg (by simp), e]
  · rw [h.crel.conHandles, List.getElem?_map, Option.map_eq_some_iff] at hi
    rw [h'.crel.conHandles, List.getElem?_map, Option.map_eq_some_iff] at hi'
    obtain ⟨j, hj, rfl⟩ := hi
    obtain ⟨j', hj', rfl⟩ := hi'
    have a := lt_of_getElem? hj
    have a' := lt_of_getElem? hj'
    rw [List.length_range] at a a'
    rw [List.getElem?_range a, Option.some.injEq] at hj
    rw [List.getElem?_range a', Option.some.injEq] at hj'
    subst hj hj'
    unfold System.calculateResidual
    rw [if_neg (by simp), if_neg (by simp), e]
    rfl
  · rw [e]
    unfold System.solve
    have : System.solveLoop optimize ord opts { c.sys with id := k' } = c.sys.solveLoop optimize ord opts := rfl
    rw [this]
    cases c.sys.solveLoop optimize ord opts <;> rfl
  · rw [e]
    unfold System.analyze System.findOverconstraints
    have h1 : System.analysisRow { c.sys with id := k' } = c.sys.analysisRow := rfl
    rw [h1]
    simp only
    cases c.sys.expressions.zipIdx.foldlM c.sys.analysisRow (List.replicate c.sys.expressions.length 0,
      List.replicate (c.sys.expressions.length * c.sys.vars.length) 0) with
    | error _ => rfl
    | ok r =>
      rw [ok_bind, ok_bind]
      cases gaussJordan (FloatOps.ofNat 1 / FloatOps.ofNat (10 ^ 8) : F) r.2 c.sys.expressions.length c.sys.vars.length (List.range c.sys.vars.length) with
      | error _ => rfl
      | ok st =>
        rw [ok_bind, ok_bind]
        generalize st.increases.zipIdx.filter (fun p => !p.1) = l
        induction l with
        | nil => rfl
        | cons p l ih =>
          rw [List.mapM_cons, List.mapM_cons, ih]
          unfold System.overconstraint
          cases idx c.sys.expressionToConstraint p.2 with
          | error _ => rfl
          | ok n =>
            simp only [ok_bind]
            cases idx c.sys.constraints n with
            | error _ => rfl
            | ok en =>
              simp only [ok_bind, pure_eq_ok]
              generalize List.mapM (m := R) _ l = q
              cases q <;> rfl

end

/-- The same holds after any further calls: whatever two clients with the same figure do from now on, alike, they cannot tell their
histories apart. -/
theorem C77_histories_are_forgotten {k k' : Nat} {ops ops' more : List (Op F)} {c c' d : Client F} (h : Reaches k ops c) (h' : Reaches k' ops' c')
    (hst : (Store.empty F).run ops = (Store.empty F).run ops') (hl : ops.length + more.length < 2 ^ 30) (hl' : ops'.length + more.length < 2 ^ 30)
    (hmore : ((Store.empty F).run ops).LegalRun more) (hd : c.run more = .ok d) :
    ∃ d', c'.run more = .ok d' ∧ d'.sys = { d.sys with id := k' } := by
  have hd1 : Reaches k (ops ++ more) d :=
    ⟨by simpa using hl, (legalRun_append _ _ _).2 ⟨h.legal, hmore⟩, (client_run_append _ _ _ _).2 ⟨c, h.run, hd⟩⟩
  obtain ⟨d', hd'⟩ := exists_reaches (F := F) k' (ops' ++ more) ((legalRun_append _ _ _).2 ⟨h'.legal, hst ▸ hmore⟩) (by simpa using hl')
  have h1 := hd'.run
  rw [client_run_append] at h1
  obtain ⟨c1, h2, h3⟩ := h1
  rw [h'.run] at h2
  cases h2
  exact ⟨d', h3, hd1.determined hd' (by rw [store_run_append, store_run_append, hst])⟩

/-- A point is misplaced, fixed, solved away and put back; the second constraint comes before the third point. -/
def pastOps : List (Op Int) :=
  [.createPoint 7 7, .createPoint 3 0, .createCon (.pointPointDistance 0 1 2), .fix .point 0, .createPoint 0 4,
   .createCon (.pointPointDistance 1 2 5), .solve [.point 7 7, .point 1 1, .point 2 2], .updatePoint 0 0 0, .unfix .point 0,
   .updatePoint 1 3 0, .updatePoint 2 0 4, .updateParameter .pointPointDistance 0 3]

/-- The same figure, created at once. -/
def presentOps : List (Op Int) :=
  [.createPoint 0 0, .createPoint 3 0, .createPoint 0 4, .createCon (.pointPointDistance 0 1 3), .createCon (.pointPointDistance 1 2 5)]

/-- The hypotheses of C77 are met by these histories. -/
example : ∃ c c', Reaches 0 pastOps c ∧ Reaches 1 presentOps c' ∧ (Store.empty Int).run pastOps = (Store.empty Int).run presentOps ∧
    c'.sys = { c.sys with id := 1 } := by
  have hl : (Store.empty Int).LegalRun pastOps := by
    simp [pastOps, Store.LegalRun, Store.Legal, Store.empty, Store.step, Store.IsPoint, Store.ConOk, Elem.kind, SameShape, Con.kind, Con.withParameter]
  have hl' : (Store.empty Int).LegalRun presentOps := by
    simp [presentOps, Store.LegalRun, Store.Legal, Store.empty, Store.step, Store.IsPoint, Store.ConOk]
  obtain ⟨c, hc⟩ := exists_reaches 0 pastOps hl (by simp [pastOps])
  obtain ⟨c', hc'⟩ := exists_reaches 1 presentOps hl' (by simp [presentOps])
  have hst : (Store.empty Int).run pastOps = (Store.empty Int).run presentOps := by
    simp [pastOps, presentOps, Store.run, Store.step, Store.empty, Store.primitives, Con.withParameter]
  exact ⟨c, c', hc, hc', hst, hc.determined hc' hst⟩

end Fiksi
