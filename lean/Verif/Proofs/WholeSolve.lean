import Verif.Proofs.ConTerm
import Verif.Props.Unlinked
/-!
# What `solve` with `Decomposer::None` and without perturbation returns
-/
namespace Fiksi
open Spec

/-- The subsystem of a component. -/
noncomputable def System.partOf (s : System ℝ) (ids free : List Nat) : Subsystem ℝ := ⟨s.scaledVariables, s.scaledExpressions, ids, free⟩

/-- What the component `comp` is solved to. -/
def System.Solves (s : System ℝ) (optimize : Optimize ℝ) (opts : SolvingOptions) (comp : Component) (V : List ℝ) : Prop :=
  ∃ free es values x', s.freeVariables comp.elements = .ok free ∧ (ascending comp.constraints).mapM s.constraintExpressions = .ok es ∧
    (ascending free).mapM (idx s.scaledVariables) = .ok values ∧ optimize opts.optimizer (s.partOf es.flatten (ascending free)).problem values = .ok x' ∧
    ∀ v ∈ free, V[v]? = some (s.scale * changeOf (ascending free) x' v)

theorem solveComponent_whole {optimize : Optimize ℝ} {ord : HashOrder} {opts : SolvingOptions} (hd : opts.decomposer = .none) (hp : opts.perturb = false) {s : System ℝ} {ck : Component × Nat}
    {st st' : SolveState ℝ} (ht : st.transformed = s.scaledVariables) (h : solveComponent optimize ord opts s s.scale s.scaledExpressions st ck = .ok st') :
    st'.transformed = s.scaledVariables ∧ st'.vars.length = st.vars.length ∧ (∀ v, ¬ s.Writes opts ck.1 v → st'.vars[v]? = st.vars[v]?) ∧
      (ck.1.elements ≠ ∅ → s.Solves optimize opts ck.1 st'.vars) := by
  unfold solveComponent at h
  split at h
  · next he => cases h; exact ⟨ht, rfl, fun _ _ => rfl, fun hne => absurd he hne⟩
  rw [bind_eq_ok] at h
  obtain ⟨free, h1, h⟩ := h
  rw [perturbFree, hp] at h
  simp only [Bool.false_eq_true, if_false, pure_eq_ok, ok_bind, hd, solveWhole, bind_eq_ok] at h
  obtain ⟨values, h2, es, h3, x', h4, vars, h5, h6⟩ := h
  cases h6
  rw [ht] at h2 h4
  have hf := freeVariables_spec h1
  have hw := writeVars_frame (W := (· ∈ free)) (fun p hp => (mem_ascending _ _).1 (mem_zipIdx_fst hp)) h5
  refine ⟨ht, hw.1, fun v hv => hw.2 v fun hc => hv ⟨((hf v).1 hc).1, fun _ => ((hf v).1 hc).2⟩, fun _ => ⟨free, es, values, x', h1, h3, h2, h4, fun v hv => ?_⟩⟩
  have hv' := (mem_ascending free v).2 hv
  obtain ⟨k, hk⟩ := List.mem_iff_getElem?.1 hv'
  have h7 : (v, k) ∈ (ascending free).zipIdx := by
    rw [List.mem_zipIdx_iff_getElem?]
    exact hk
  obtain ⟨x, h8, h9⟩ := writeVars_values (by rw [List.zipIdx_map_fst]; exact ascending_nodup _) h5 (v, k) h7
  rw [h9, changeOf_at (ascending_nodup _) hk, List.getD_eq_getElem?_getD, h8]
  rfl

/-- What `solve` returns. -/
theorem Reaches.solve_whole {counter : Nat} {ops : List (Op ℝ)} {c : Client ℝ} (h : Reaches counter ops c) {optimize : Optimize ℝ} {ord : HashOrder} {opts : SolvingOptions}
    (hd : opts.decomposer = .none) (hp : opts.perturb = false) {s' : System ℝ} (hs : c.sys.solve optimize ord opts = .ok s') :
    s' = { c.sys with vars := s'.vars } ∧ s'.vars.length = c.sys.vars.length ∧
      (∀ v, (∀ comp ∈ c.sys.graph.components, ¬ c.sys.Writes opts comp v) → s'.vars[v]? = c.sys.vars[v]?) ∧
      ∀ comp ∈ c.sys.graph.components, comp.elements ≠ ∅ → c.sys.Solves optimize opts comp s'.vars := by
  rw [System.solve, bind_eq_ok] at hs
  obtain ⟨st, h1, h2⟩ := hs
  cases h2
  have key : ∀ (l : List (Component × Nat)) (st st' : SolveState ℝ), (∀ ck ∈ l, c.sys.graph.components[ck.2]? = some ck.1) → (l.map Prod.snd).Nodup → st.transformed = c.sys.scaledVariables →
      l.foldlM (solveComponent optimize ord opts c.sys c.sys.scale c.sys.scaledExpressions) st = .ok st' →
      st'.vars.length = st.vars.length ∧ (∀ v, (∀ ck ∈ l, ¬ c.sys.Writes opts ck.1 v) → st'.vars[v]? = st.vars[v]?) ∧
        ∀ ck ∈ l, ck.1.elements ≠ ∅ → c.sys.Solves optimize opts ck.1 st'.vars := by
    intro l
    induction l with
    | nil => intro st st' _ _ _ h; cases h; exact ⟨rfl, fun _ _ => rfl, by simp⟩
    | cons ck l ih =>
      intro st st' h1 h2 h3 h4
      rw [List.map_cons, List.nodup_cons] at h2
      rw [List.foldlM_cons, bind_eq_ok] at h4
      obtain ⟨st1, h5, h6⟩ := h4
      obtain ⟨h7, h8, h9, h10⟩ := solveComponent_whole hd hp h3 h5
      obtain ⟨h11, h12, h13⟩ := ih st1 st' (fun ck hck => h1 ck (by simp [hck])) h2.2 h7 h6
      refine ⟨h11.trans h8, fun v hv => ?_, fun ck' hck' hne => ?_⟩
      · rw [h12 v fun ck hck => hv ck (by simp [hck]), h9 v (hv ck (by simp))]
      · rcases List.mem_cons.1 hck' with rfl | hck'
        · obtain ⟨free, es, values, x', e1, e2, e3, e4, e5⟩ := h10 hne
          refine ⟨free, es, values, x', e1, e2, e3, e4, fun v hv => ?_⟩
          rw [← e5 v hv]
          refine h12 v fun ck' hck' hw => ?_
          obtain ⟨p, hp, el, h14, h15⟩ := ((freeVariables_spec e1 v).1 hv).1
          obtain ⟨q, hq, el', h16, h17⟩ := hw.1
          have hck := h1 _ (List.mem_cons_self ..)
          have hck2 := h1 ck' (by simp [hck'])
          have hpc := h.constrained_of_mem (List.mem_of_getElem? hck) hp
          have hpq := h.varOf_unique hpc (h.constrained_of_mem (List.mem_of_getElem? hck2) hq) h14 h16 h15 h17
          subst hpq
          obtain ⟨k0, -, h18⟩ := (C17_elements_partitioned h p).1 hpc
          refine h2.1 (List.mem_map.2 ⟨ck', hck', ?_⟩)
          exact (h18 ck'.2 ⟨ck'.1, hck2, hq⟩).trans (h18 _ ⟨_, hck, hp⟩).symm
        · exact h13 ck' hck' hne
  obtain ⟨k1, k2, k3⟩ := key _ _ _ (fun ck hck => List.mem_zipIdx_iff_getElem?.1 hck) (by rw [List.zipIdx_map_snd]; exact List.nodup_range') rfl h1
  refine ⟨rfl, k1, fun v hv => k2 v fun ck hck => hv ck.1 (mem_zipIdx_fst hck), fun comp hcomp hne => ?_⟩
  obtain ⟨k, hk⟩ := List.mem_iff_getElem?.1 hcomp
  exact k3 (comp, k) (List.mem_zipIdx_iff_getElem?.2 hk) hne

/-- The sum over the equations of a component is the sum over its constraints. -/
theorem Rel.sum_equations {s : System ℝ} {st : Store ℝ} (hr : Rel s st) (g d : Nat → ℝ) : ∀ {ns : List Nat} {es : List (List Nat)}, (∀ n ∈ ns, n < st.cons.length) →
    ns.mapM s.constraintExpressions = .ok es →
    (es.flatten.map fun id => ((s.scaledExpressions[id]?.map fun e => e.linear g d).getD 0) ^ 2).sum =
      (ns.map fun n => (st.cons[n]?.map fun con => conTerm st.elems (1 / s.scale) con g d).getD 0).sum := by
  intro ns
  induction ns with
  | nil => intro es _ h; cases h; rfl
  | cons n ns ih =>
    intro es hlt h
    rw [List.mapM_cons, bind_eq_ok] at h
    obtain ⟨l, h1, h⟩ := h
    rw [bind_eq_ok] at h
    obtain ⟨ls, h2, h⟩ := h
    cases h
    rw [List.flatten_cons, List.map_append, List.sum_append, ih (fun m hm => hlt m (by simp [hm])) h2, List.map_cons, List.sum_cons]
    congr 1
    obtain ⟨con, hcon⟩ : ∃ con, st.cons[n]? = some con := ⟨_, List.getElem?_eq_getElem (hlt n (by simp))⟩
    rw [hcon, Option.map_some, Option.getD_some, conTerm]
    rw [System.constraintExpressions, idx_of (hr.constraint_at hcon), ok_bind] at h1
    cases h1
    rw [List.map_map]
    have h3 : ConstraintTag.valency con.kind = (encCon st.elems con).length := (encCon_length _ _).symm
    simp only [h3]
    refine congrArg List.sum (List.ext_getElem (by simp) fun j h4 h5 => ?_)
    have h6 : j < (encCon st.elems con).length := by simpa using h5
    have h7 := hr.expression_at hcon h6
    simp only [List.getElem_map, List.getElem_range, Function.comp_apply, System.scaledExpressions, List.getElem?_map]
    rw [h7, List.getElem?_eq_getElem h6]
    rfl

end Fiksi
