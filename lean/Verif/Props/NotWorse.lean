import Verif.Props.OrderPass
import Verif.Props.RestDefault
import Mathlib.Algebra.BigOperators.Intervals
/-!
# C81: solving does not make the figure worse
-/
namespace Fiksi
open Spec

/-- The residual of an expression, 0 if it cannot be computed. -/
noncomputable def residualAt (exprs : List (Expr ℝ)) (scale : ℝ) (V : List ℝ) (i : Nat) : ℝ :=
  match exprs[i]? with
  | none => 0
  | some e => match e.calculateResidual (identityMap (V.map (· * (1 / scale)))) with
    | .ok r => r
    | .error _ => 0

theorem residualAt_of {exprs : List (Expr ℝ)} {scale : ℝ} {V : List ℝ} {i : Nat} {e : Expr ℝ} {r : ℝ} (he : exprs[i]? = some e)
    (hr : e.calculateResidual (identityMap (V.map (· * (1 / scale)))) = .ok r) : residualAt exprs scale V i = r := by
  simp only [residualAt, he, hr]

theorem residualAt_congr {exprs : List (Expr ℝ)} {scale : ℝ} {V V' : List ℝ} {i : Nat}
    (hv : ∀ e, exprs[i]? = some e → ∀ v ∈ e.variableIndices, V'[v]? = V[v]?) : residualAt exprs scale V' i = residualAt exprs scale V i := by
  have key : ∀ {V V' : List ℝ} {e : Expr ℝ} {r : ℝ}, (∀ v ∈ e.variableIndices, V'[v]? = V[v]?) → e.calculateResidual (identityMap (V.map (· * (1 / scale)))) = .ok r →
      e.calculateResidual (identityMap (V'.map (· * (1 / scale)))) = .ok r := by
    intro V V' e r hv hr
    refine calculateResidual_mono_on (fun v hve var hvar => ?_) hr
    rw [identityMap, bind_eq_ok] at hvar
    obtain ⟨x, h3, h4⟩ := hvar
    cases h4
    rw [idx_eq_ok] at h3
    rw [List.getElem?_map, hv v hve, ← List.getElem?_map]
    exact h3
  unfold residualAt
  cases he : exprs[i]? with
  | none => rfl
  | some e =>
    simp only
    cases h1 : e.calculateResidual (identityMap (V.map (· * (1 / scale)))) with
    | ok r => simp only [key (hv e he) h1]
    | error _ =>
      cases h2 : e.calculateResidual (identityMap (V'.map (· * (1 / scale)))) with
      | error _ => rfl
      | ok r =>
        rw [key (fun v hve => (hv e he v hve).symm) h2] at h1
        cases h1

/-! ## One call of the optimiser -/

/-- The residuals of a subproblem are those of its expressions at the values of the system. -/
theorem call_residuals {scale : ℝ} (hs : scale ≠ 0) {exprs : List (Expr ℝ)} {T V : List ℝ} {es free : List Nat} {x rs : List ℝ}
    (hx : (⟨T, exprs, es, free⟩ : Subsystem ℝ).problem.residuals x = .ok rs)
    (hw : ∀ p ∈ free.zipIdx, ∃ y, x[p.2]? = some y ∧ V[p.1]? = some (scale * y))
    (hsync : ∀ i ∈ es, ∀ e, exprs[i]? = some e → ∀ v ∈ e.variableIndices, v ∉ free → ∀ x, T[v]? = some x → V[v]? = some (scale * x)) :
    rs = es.map (residualAt exprs scale V) := by
  have h1 := mapM_forall hx
  have key : ∀ (l : List Nat) (rs : List ℝ), (∀ i ∈ l, i ∈ es) → List.Forall₂ (fun i r => (do
      let e ← idx exprs i
      e.calculateResidual ((⟨T, exprs, es, free⟩ : Subsystem ℝ).getValue x)) = Except.ok r) l rs → rs = l.map (residualAt exprs scale V) := by
    intro l
    induction l with
    | nil => intro rs _ h; cases h; rfl
    | cons i l ih =>
      intro rs hl h
      cases h with
      | cons h4 h5 =>
        rw [List.map_cons, ← ih _ (fun i hi => hl i (by simp [hi])) h5]
        congr 1
        have hi := hl i (by simp)
        rw [bind_eq_ok] at h4
        obtain ⟨e, he, h4⟩ := h4
        rw [idx_eq_ok] at he
        refine (residualAt_of he (calculateResidual_mono_on (fun v hv var hvar => ?_) h4)).symm
        have key : ∀ y, V[v]? = some (scale * y) → (V.map (· * (1 / scale)))[v]? = some y := by
          intro y hy
          rw [List.getElem?_map, hy, Option.map_some]
          congr 1
          field_simp
        apply key
        unfold Subsystem.getValue at hvar
        split at hvar
        · rename_i k hk
          rw [bind_eq_ok] at hvar
          obtain ⟨y, h6, h7⟩ := hvar
          cases h7
          rw [idx_eq_ok] at h6
          obtain ⟨hlt, h8, -⟩ := List.idxOf?_eq_some_iff.1 hk
          obtain ⟨y', h9, h10⟩ := hw (v, k) (List.mem_zipIdx_iff_getElem?.2 (by rw [List.getElem?_eq_getElem hlt]; exact congrArg some h8))
          rw [h6] at h9
          cases h9
          exact h10
        · rename_i hk
          rw [bind_eq_ok] at hvar
          obtain ⟨y, h6, h7⟩ := hvar
          cases h7
          rw [idx_eq_ok] at h6
          exact hsync i hi e he v hv (List.idxOf?_eq_none_iff.1 hk) y h6
  exact key es rs (fun _ h => h) h1

/-- Where an optimiser returns for subproblems with these expressions, the sum of the squares is at most that at the start. -/
def Optimize.NotWorse (optimize : Optimize ℝ) (o : Optimizer) (exprs : List (Expr ℝ)) : Prop := ∀ (sub : Subsystem ℝ) (x x' : List ℝ), sub.allExpressions = exprs → sub.Ok →
  x.length = sub.freeVariables.length → optimize o sub.problem x = .ok x' → x' = x ∨ ∃ r r', sub.problem.residuals x = .ok r ∧ sub.problem.residuals x' = .ok r' ∧ (r'.map (· ^ 2)).sum ≤ (r.map (· ^ 2)).sum

theorem crateOptimize_notWorse (ls : LeastSquares ℝ) (fuel : Nat) (exprs : List (Expr ℝ)) : (crateOptimize ls fuel).NotWorse .levenbergMarquardt exprs := by
  intro sub x x' _ _ _ h
  rcases C26_not_worse (fun x => neg_mul_neg x x) (fun a b c h1 h2 => by
    simp only [FloatOps.ltB, decide_eq_true_eq] at *; exact lt_trans h1 h2) (Subsystem.problem_consistent sub) h with h1 | ⟨a, b, h1, h2, -⟩
  · exact .inl h1
  · have h3 := C26_not_worse_real (Subsystem.problem_consistent sub) h h1 h2
    refine .inr ⟨a, b, h1, h2, ?_⟩
    simpa only [pow_two] using h3

/-- The call for a whole part does not increase the sum of the squares of its equations. -/
theorem solveWhole_notWorse {optimize : Optimize ℝ} {opts : SolvingOptions} {exprs : List (Expr ℝ)} (hopt : optimize.NotWorse opts.optimizer exprs) {s : System ℝ} {scale : ℝ} (hs : scale ≠ 0)
    {constraints free : Finset Nat} {st st' : SolveState ℝ} {es : List (List Nat)}
    (hes : (ascending constraints).mapM s.constraintExpressions = .ok es) (hok : Subsystem.Ok ⟨st.transformed, exprs, es.flatten, ascending free⟩) (hfree : ∀ v ∈ free, Synced scale st v)
    (hsync : ∀ i ∈ es.flatten, ∀ e, exprs[i]? = some e → ∀ v ∈ e.variableIndices, v ∉ free → Synced scale st v)
    (h : solveWhole optimize opts s scale exprs constraints free st = .ok st') :
    ((es.flatten.map (residualAt exprs scale st'.vars)).map (· ^ 2)).sum ≤ ((es.flatten.map (residualAt exprs scale st.vars)).map (· ^ 2)).sum := by
  have hfr := (solveWhole_spec h).1
  simp only [solveWhole, bind_eq_ok] at h
  obtain ⟨values, h3, es', h4, values', h5, vars, h6, h7⟩ := h
  rw [hes] at h4
  cases h4
  cases h7
  have hw := writeVars_values (zipIdx_fst_nodup (ascending_nodup free)) h6
  have hw0 : ∀ p ∈ (ascending free).zipIdx, ∃ y, values[p.2]? = some y ∧ st.vars[p.1]? = some (scale * y) := by
    intro p hp
    have hp' := List.mem_zipIdx_iff_getElem?.1 hp
    obtain ⟨y, h8, h9⟩ := forall₂_getElem?' (mapM_forall h3) _ hp'
    rw [idx_eq_ok] at h9
    exact ⟨y, h8, hfree p.1 ((mem_ascending _ _).1 (List.mem_of_getElem? hp')) y h9⟩
  have hsync' : ∀ i ∈ es.flatten, ∀ e, exprs[i]? = some e → ∀ v ∈ e.variableIndices, v ∉ ascending free → ∀ x, st.transformed[v]? = some x → vars[v]? = some (scale * x) := by
    intro i hi e he v hv hnf x hx
    have hnf' : v ∉ free := fun hc => hnf ((mem_ascending _ _).2 hc)
    rw [hfr.vars.2 v hnf']
    exact hsync i hi e he v hv hnf' x hx
  have hsync0 : ∀ i ∈ es.flatten, ∀ e, exprs[i]? = some e → ∀ v ∈ e.variableIndices, v ∉ ascending free → ∀ x, st.transformed[v]? = some x → st.vars[v]? = some (scale * x) :=
    fun i hi e he v hv hnf x hx => hsync i hi e he v hv (fun hc => hnf ((mem_ascending _ _).2 hc)) x hx
  rcases hopt _ _ _ rfl hok (mapM_forall h3).length_eq.symm h5 with rfl | ⟨r, r', e1, e2, e3⟩
  · refine le_of_eq ?_
    congr 2
    refine List.map_congr_left fun i _ => residualAt_congr fun e _ v _ => ?_
    by_cases hv : v ∈ free
    · obtain ⟨k, hk⟩ := List.mem_iff_getElem?.1 ((mem_ascending _ _).2 hv)
      have hmem : (v, k) ∈ (ascending free).zipIdx := List.mem_zipIdx_iff_getElem?.2 hk
      obtain ⟨y, a1, a2⟩ := hw _ hmem
      obtain ⟨y', b1, b2⟩ := hw0 _ hmem
      rw [a1] at b1
      cases b1
      exact a2.trans b2.symm
    · exact hfr.vars.2 v hv
  · rw [call_residuals hs e1 hw0 hsync0, call_residuals hs e2 hw hsync'] at e3
    exact e3

/-! ## All parts -/

section
variable {counter : Nat} {ops : List (Op ℝ)} {c : Client ℝ} (h : Reaches counter ops c) (hn : NeverJoins ((Store.empty ℝ).run ops).arguments) (hs : c.sys.scale ≠ 0)
  {optimize : Optimize ℝ} {ord : HashOrder} {opts : SolvingOptions} (hd : opts.decomposer = .none) (hp : opts.perturb = false)
  (hopt : optimize.NotWorse opts.optimizer c.sys.scaledExpressions)
include h hn hs hd hp hopt

omit hs hd hp hopt in
/-- The equations outside a part do not read its variables. -/
theorem Reaches.other_part {ck : Component × Nat} (hck : c.sys.graph.components[ck.2]? = some ck.1) {n i : Nat} (hi : ((Store.empty ℝ).run ops).EquationOf n i)
    (hnc : n ∉ ck.1.constraints) {e : Expr ℝ} (he : c.sys.scaledExpressions[i]? = some e) {v : Nat} (hv : v ∈ e.variableIndices) : ¬ c.sys.VarOf ck.1.elements v := by
  obtain ⟨con, hcon, -, -⟩ := id hi
  obtain ⟨k, ⟨comp, h1, h2⟩, -⟩ := C17_constraints_partitioned h n (lt_of_getElem? hcon)
  rintro ⟨p, hp, el, h10, h11⟩
  obtain ⟨q, hq, el', h12, h13⟩ := h.whole_within hn (List.mem_of_getElem? h1) h2 hi e he v hv
  have hpc := h.constrained_of_mem (List.mem_of_getElem? hck) hp
  have hpq := h.varOf_unique hpc (h.constrained_of_mem (List.mem_of_getElem? h1) hq) h10 h12 h11 h13
  subst hpq
  obtain ⟨k0, -, h14⟩ := (C17_elements_partitioned h p).1 hpc
  have hk : k = ck.2 := (h14 k ⟨comp, h1, hq⟩).trans (h14 ck.2 ⟨ck.1, hck, hp⟩).symm
  subst hk
  rw [hck] at h1
  cases h1
  exact hnc h2

/-- The sum over a set of equations that contains a part wholly or not at all. -/
theorem Reaches.component_notWorse {ck : Component × Nat} (hck : c.sys.graph.components[ck.2]? = some ck.1) {E : Finset Nat}
    (hE : ∀ i ∈ E, ∃ n, ((Store.empty ℝ).run ops).EquationOf n i)
    (hall : ∀ i ∈ E, ∀ n ∈ ck.1.constraints, ((Store.empty ℝ).run ops).EquationOf n i → ∀ n' ∈ ck.1.constraints, ∀ i', ((Store.empty ℝ).run ops).EquationOf n' i' → i' ∈ E)
    {st st' : SolveState ℝ} (hlen : st.transformed.length = c.sys.vars.length) (hsync : ∀ v, v ∈ c.sys.fixedVariables ∨ c.sys.VarOf ck.1.elements v → Synced c.sys.scale st v)
    (hc : solveComponent optimize ord opts c.sys c.sys.scale c.sys.scaledExpressions st ck = .ok st') : st'.transformed.length = c.sys.vars.length ∧
    (∀ v, ¬ (c.sys.VarOf ck.1.elements v ∧ v ∉ c.sys.fixedVariables) → st'.vars[v]? = st.vars[v]? ∧ st'.transformed[v]? = st.transformed[v]?) ∧
      ∑ i ∈ E, residualAt c.sys.scaledExpressions c.sys.scale st'.vars i ^ 2 ≤ ∑ i ∈ E, residualAt c.sys.scaledExpressions c.sys.scale st.vars i ^ 2 := by
  unfold solveComponent at hc
  split at hc
  · cases hc
    exact ⟨hlen, fun _ _ => ⟨rfl, rfl⟩, le_rfl⟩
  rw [bind_eq_ok] at hc
  obtain ⟨free, hfree, hc⟩ := hc
  rw [bind_eq_ok] at hc
  obtain ⟨st1, h1, hc⟩ := hc
  rw [perturbFree, hp] at h1
  cases h1
  rw [hd] at hc
  have hf := freeVariables_spec hfree
  obtain ⟨h4, es, h5, -⟩ := solveWhole_spec hc
  have hmem := mem_flatten_of_mapM h.crel.rel h5
  have hframe : ∀ v, ¬ (c.sys.VarOf ck.1.elements v ∧ v ∉ c.sys.fixedVariables) → st'.vars[v]? = st.vars[v]? ∧ st'.transformed[v]? = st.transformed[v]? := by
    intro v hv
    rw [← hf v] at hv
    exact ⟨h4.vars.2 v hv, h4.transformed.2 v hv⟩
  refine ⟨h4.transformed.1.trans hlen, hframe, ?_⟩
  have hother : ∀ i ∈ E, i ∉ es.flatten → residualAt c.sys.scaledExpressions c.sys.scale st'.vars i = residualAt c.sys.scaledExpressions c.sys.scale st.vars i := by
    intro i hi hni
    obtain ⟨n, hn'⟩ := hE i hi
    refine residualAt_congr fun e he v hv => (hframe v fun hcon => ?_).1
    exact h.other_part hn hck hn' (fun hnc => hni ((hmem i).2 ⟨n, (mem_ascending _ _).2 hnc, hn'⟩)) he hv hcon.1
  by_cases hsome : ∃ i ∈ E, i ∈ es.flatten
  · obtain ⟨i0, hi0, hi0'⟩ := hsome
    obtain ⟨n0, h7, h8⟩ := (hmem i0).1 hi0'
    have hsub : es.flatten.toFinset ⊆ E := by
      intro i hi
      obtain ⟨n, h9, h10⟩ := (hmem i).1 (List.mem_toFinset.1 hi)
      exact hall i0 hi0 n0 ((mem_ascending _ _).1 h7) h8 n ((mem_ascending _ _).1 h9) i h10
    have hnd := flatten_nodup_of_mapM h.crel.rel (ascending_nodup _) h5
    have hsum := solveWhole_notWorse hopt hs h5 (fun id hid => by
      rw [hlen]
      exact h.exprsOk (fun id hid => by
        obtain ⟨n, -, h10⟩ := (hmem id).1 hid
        exact h.equation_lt h10) id hid) (fun v hv => hsync v (.inr ((hf v).1 hv).1)) (fun i hi e he v hv _ => by
      obtain ⟨n, h9, h10⟩ := (hmem i).1 hi
      exact hsync v (.inr (h.whole_within hn (List.mem_of_getElem? hck) ((mem_ascending _ _).1 h9) h10 e he v hv))) hc
    rw [List.map_map, List.map_map, ← List.sum_toFinset _ hnd, ← List.sum_toFinset _ hnd] at hsum
    rw [← Finset.sum_sdiff hsub, ← Finset.sum_sdiff hsub]
    refine add_le_add (le_of_eq (Finset.sum_congr rfl fun i hi => ?_)) hsum
    rw [Finset.mem_sdiff, List.mem_toFinset] at hi
    rw [hother i hi.1 hi.2]
  · push Not at hsome
    exact le_of_eq (Finset.sum_congr rfl fun i hi => by rw [hother i hi (hsome i hi)])

theorem Reaches.loop_notWorse {E : Finset Nat} (hE : ∀ i ∈ E, ∃ n, ((Store.empty ℝ).run ops).EquationOf n i)
    (hall : ∀ comp ∈ c.sys.graph.components, ∀ i ∈ E, ∀ n ∈ comp.constraints, ((Store.empty ℝ).run ops).EquationOf n i →
      ∀ n' ∈ comp.constraints, ∀ i', ((Store.empty ℝ).run ops).EquationOf n' i' → i' ∈ E) {st : SolveState ℝ} (hl : c.sys.solveLoop optimize ord opts = .ok st) :
    ∑ i ∈ E, residualAt c.sys.scaledExpressions c.sys.scale st.vars i ^ 2 ≤ ∑ i ∈ E, residualAt c.sys.scaledExpressions c.sys.scale c.sys.vars i ^ 2 := by
  have key : ∀ (l : List (Component × Nat)) (st st' : SolveState ℝ), (∀ ck ∈ l, c.sys.graph.components[ck.2]? = some ck.1) → (l.map Prod.snd).Nodup → st.transformed.length = c.sys.vars.length →
      (∀ v, (v ∈ c.sys.fixedVariables ∨ ∃ ck ∈ l, c.sys.VarOf ck.1.elements v) → Synced c.sys.scale st v) →
      l.foldlM (solveComponent optimize ord opts c.sys c.sys.scale c.sys.scaledExpressions) st = .ok st' →
      ∑ i ∈ E, residualAt c.sys.scaledExpressions c.sys.scale st'.vars i ^ 2 ≤ ∑ i ∈ E, residualAt c.sys.scaledExpressions c.sys.scale st.vars i ^ 2 := by
    intro l
    induction l with
    | nil => intro st st' _ _ _ _ hf; cases hf; exact le_rfl
    | cons ck l ih =>
      intro st st' hcomps hnd hlen hfix hf
      rw [List.foldlM_cons, bind_eq_ok] at hf
      obtain ⟨st1, h1, h2⟩ := hf
      rw [List.map_cons, List.nodup_cons] at hnd
      have hck := hcomps ck (by simp)
      obtain ⟨hlen', h3, h4⟩ := h.component_notWorse hn hs hd hp hopt hck hE (hall _ (List.mem_of_getElem? hck)) hlen
        (fun v hv => hfix v (hv.imp_right fun hv => ⟨ck, by simp, hv⟩)) h1
      refine (ih st1 st' (fun ck hck => hcomps ck (by simp [hck])) hnd.2 hlen' (fun v hv x hx => ?_) h2).trans h4
      have hnv : ¬ (c.sys.VarOf ck.1.elements v ∧ v ∉ c.sys.fixedVariables) := by
        rintro ⟨hv1, hvf⟩
        rcases hv with hv | ⟨ck', hck', hv2⟩
        · exact hvf hv
        obtain ⟨p, hp, el, h10, h11⟩ := hv1
        obtain ⟨q, hq, el', h12, h13⟩ := hv2
        have hck2 := hcomps ck' (by simp [hck'])
        have hpc := h.constrained_of_mem (List.mem_of_getElem? hck) hp
        have hpq := h.varOf_unique hpc (h.constrained_of_mem (List.mem_of_getElem? hck2) hq) h10 h12 h11 h13
        subst hpq
        obtain ⟨k0, -, h14⟩ := (C17_elements_partitioned h p).1 hpc
        refine hnd.1 (List.mem_map.2 ⟨ck', hck', ?_⟩)
        exact (h14 ck'.2 ⟨ck'.1, hck2, hq⟩).trans (h14 ck.2 ⟨ck.1, hck, hp⟩).symm
      rw [(h3 v hnv).2] at hx
      rw [(h3 v hnv).1]
      exact hfix v (hv.imp_right fun ⟨ck', a, b⟩ => ⟨ck', by simp [a], b⟩) x hx
  refine key c.sys.graph.components.zipIdx ⟨c.sys.vars, c.sys.scaledVariables, 42, []⟩ st (fun ck hck => List.mem_zipIdx_iff_getElem?.1 hck) (by rw [List.zipIdx_map_snd]; exact List.nodup_range') (by simp [System.scaledVariables]) (fun v _ x hx => ?_) hl
  simp only at hx
  rw [System.scaledVariables, List.getElem?_map, Option.map_eq_some_iff] at hx
  obtain ⟨y, h2, rfl⟩ := hx
  simp only
  rw [h2]
  congr 1
  field_simp

end

/-! ## Constraints -/

theorem Rel.residual_squares {s : System ℝ} {st : Store ℝ} (hr : Rel s st) (hs : 0 < s.scale) {V : List ℝ} {n : Nat} {con : Spec.Con ℝ} (hcon : st.cons[n]? = some con) {r : ℝ}
    (h : ({ s with vars := V } : System ℝ).residualOf con.kind.valency n = .ok r) :
    (r / s.scale ^ con.lengthPower) ^ 2 = ∑ i ∈ Finset.Ico (st.firstEquation n) (st.firstEquation n + con.equations), residualAt s.scaledExpressions s.scale V i ^ 2 := by
  have hone : ∀ {i : Nat} {e : Expr ℝ} {ρ : ℝ}, s.expressions[i]? = some e → e ∈ encCon st.elems con → e.calculateResidual (identityMap V) = .ok ρ →
      residualAt s.scaledExpressions s.scale V i = ρ / s.scale ^ con.lengthPower := by
    intro i e ρ he hmem hρ
    have h1 := (C15_rescaling (k := 1 / s.scale) (by positivity) e V hρ).1
    rw [residualAt_of (by rw [System.scaledExpressions, List.getElem?_map, he]; rfl) h1, encCon_degree hmem, one_div, inv_pow]
    ring
  have hat : ∀ j < con.kind.valency, ∃ e ∈ encCon st.elems con, s.expressions[st.firstEquation n + j]? = some e := by
    intro j hj
    have hlen := encCon_length st.elems con
    have h1 := hr.expression_at hcon (j := j) (by omega)
    rw [List.getElem?_eq_getElem (show j < (encCon st.elems con).length by omega), flatMap_encCon_length] at h1
    exact ⟨_, List.getElem_mem _, h1⟩
  have hfirst : ((st.cons.take n).flatMap (encCon st.elems)).length = st.firstEquation n := flatMap_encCon_length _ _
  rw [Finset.sum_Ico_eq_sum_range, Nat.add_sub_cancel_left, con_equations_eq]
  rw [System.residualOf] at h
  simp only [idx_of (hr.constraint_at hcon), ok_bind, hfirst] at h
  split at h
  · rw [bind_eq_ok] at h
    obtain ⟨rs, h1, h2⟩ := h
    cases h2
    have key : ∀ (l : List Nat) (rs : List ℝ), (∀ j ∈ l, j < con.kind.valency) → l.mapM (fun offset => do
        let e ← idx s.expressions (st.firstEquation n + offset)
        e.calculateResidual (identityMap V)) = .ok rs →
        sumSquares rs / (s.scale ^ con.lengthPower) ^ 2 = (l.map fun j => residualAt s.scaledExpressions s.scale V (st.firstEquation n + j) ^ 2).sum := by
      intro l
      induction l with
      | nil => intro rs _ h; cases h; simp [sumSquares]
      | cons j l ih =>
        intro rs hl h
        rw [List.mapM_cons] at h
        simp only [bind_eq_ok] at h
        obtain ⟨ρ, ⟨e, h3, h4⟩, rs', h5, h6⟩ := h
        cases h6
        obtain ⟨e', h7, h8⟩ := hat j (hl j (by simp))
        rw [idx_eq_ok, h8] at h3
        cases h3
        rw [List.map_cons, List.sum_cons, ← ih rs' (fun j hj => hl j (by simp [hj])) h5, hone h8 h7 h4, sumSquares_real, sumSquares_real, List.map_cons, List.sum_cons]
        ring
    have h3 := key _ _ (fun j hj => List.mem_range.1 hj) h1
    have hnn : 0 ≤ sumSquares rs := by
      rw [sumSquares_real]
      exact List.sum_nonneg (by simp; intros; positivity)
    rw [div_pow, show (FloatOps.sqrt (sumSquares rs)) ^ 2 = sumSquares rs from Real.sq_sqrt hnn, h3, Finset.sum_eq_multiset_sum, Finset.range_val, ← Multiset.coe_range,
      Multiset.map_coe, Multiset.sum_coe]
  · rename_i hv
    have hv1 : con.kind.valency = 1 := by cases con <;> simp_all [Spec.Con.kind, ConstraintTag.valency]
    rw [bind_eq_ok] at h
    obtain ⟨e, h3, h4⟩ := h
    obtain ⟨e', h7, h8⟩ := hat 0 (by omega)
    rw [Nat.add_zero] at h8
    rw [idx_eq_ok, h8] at h3
    cases h3
    rw [hv1, Finset.sum_range_one, Nat.add_zero, hone h8 h7 h4]

/-- The power of the unit of length in which the residual of constraint number `n` is measured. -/
def Spec.Store.power (st : Store ℝ) (n : Nat) : Nat := match st.cons[n]? with
  | some con => con.lengthPower
  | none => 0

/-- A set of constraints that contains with every constraint those that are linked to it. -/
def Spec.Store.Part (st : Store ℝ) (S : Finset Nat) : Prop := (∀ n ∈ S, n < st.cons.length) ∧
  ∀ n ∈ S, ∀ (m : Nat) con con', st.cons[n]? = some con → st.cons[m]? = some con' → (∃ i ∈ st.actsOn con, ∃ j ∈ st.actsOn con', Linked st.arguments i j) → m ∈ S

section
variable {counter : Nat} {ops : List (Op ℝ)} {c : Client ℝ} (h : Reaches counter ops c) (hnz : ((Store.empty ℝ).run ops).NonZero)
  (hn : NeverJoins ((Store.empty ℝ).run ops).arguments) {optimize : Optimize ℝ} {ord : HashOrder} (hord : ord.Ok) {opts : SolvingOptions} (hd : opts.decomposer = .none) (hp : opts.perturb = false)
include h hnz hn hord hd hp

/-- With an optimiser that does not increase the sum of the squares, no linked set of constraints gets worse. -/
theorem Reaches.notWorse (hl : ops.length + 1 < 2 ^ 30) (hopt : optimize.NotWorse opts.optimizer c.sys.scaledExpressions) {s' : System ℝ} (hs : c.sys.solve optimize ord opts = .ok s')
    {S : Finset Nat} (hS : ((Store.empty ℝ).run ops).Part S) :
    ∃ r r' : Nat → ℝ, (∀ (n : Nat) hdl con, c.conHandles[n]? = some hdl → ((Store.empty ℝ).run ops).cons[n]? = some con →
        c.sys.calculateResidual con.kind hdl = .ok (r n) ∧ s'.calculateResidual con.kind hdl = .ok (r' n)) ∧
      ∑ n ∈ S, (r' n / c.sys.scale ^ ((Store.empty ℝ).run ops).power n) ^ 2 ≤ ∑ n ∈ S, (r n / c.sys.scale ^ ((Store.empty ℝ).run ops).power n) ^ 2 := by
  have hr := h.crel.rel
  have hpos := h.scale_pos hnz
  obtain ⟨result, h1⟩ := C25_solve_is_a_call h hl hord hs
  obtain ⟨st, h2, rfl⟩ := solve_eq hs
  have hcons : ((Store.empty ℝ).run (ops ++ [.solve result])).cons = ((Store.empty ℝ).run ops).cons := by
    rw [Store.run, List.foldl_append]
    rfl
  have hex : ∀ n : Nat, ∃ ρ : ℝ × ℝ, ∀ (hdl : Handle) (con : Spec.Con ℝ), c.conHandles[n]? = some hdl → ((Store.empty ℝ).run ops).cons[n]? = some con →
      c.sys.calculateResidual con.kind hdl = .ok ρ.1 ∧ ({ c.sys with vars := st.vars } : System ℝ).calculateResidual con.kind hdl = .ok ρ.2 := by
    intro n
    cases hcon : ((Store.empty ℝ).run ops).cons[n]? with
    | none => exact ⟨(0, 0), by simp⟩
    | some con =>
      obtain ⟨a, -, ha⟩ := h.crel.calculateResidual hcon
      obtain ⟨b, -, hb⟩ := h1.crel.calculateResidual (by rw [hcons]; exact hcon)
      refine ⟨(a, b), fun hdl con' hh hcon' => ?_⟩
      cases hcon'
      rw [h.crel.conHandle (lt_of_getElem? hcon)] at hh
      cases hh
      exact ⟨ha, hb⟩
  choose ρ hρ using hex
  refine ⟨fun n => (ρ n).1, fun n => (ρ n).2, fun n => hρ n, ?_⟩
  let eqs : Nat → Finset Nat := fun n => (((Store.empty ℝ).run ops).cons[n]?.map Spec.Con.equations).elim ∅ fun k =>
    Finset.Ico (((Store.empty ℝ).run ops).firstEquation n) (((Store.empty ℝ).run ops).firstEquation n + k)
  have heqs : ∀ n i, i ∈ eqs n ↔ ((Store.empty ℝ).run ops).EquationOf n i := by
    intro n i
    simp only [eqs, Store.EquationOf]
    cases ((Store.empty ℝ).run ops).cons[n]? with
    | none => simp
    | some con => simp [Finset.mem_Ico]
  have hdis : (S : Set Nat).PairwiseDisjoint eqs := by
    intro n _ m _ hnm
    rw [Function.onFun, Finset.disjoint_left]
    exact fun i hi hj => hnm (((heqs n i).1 hi).unique ((heqs m i).1 hj))
  have hsum : ∀ (V : List ℝ) (f : Nat → ℝ), (∀ (n : Nat) (con : Spec.Con ℝ), ((Store.empty ℝ).run ops).cons[n]? = some con → ({ c.sys with vars := V } : System ℝ).residualOf con.kind.valency n = .ok (f n)) →
      ∑ n ∈ S, (f n / c.sys.scale ^ ((Store.empty ℝ).run ops).power n) ^ 2 = ∑ i ∈ S.biUnion eqs, residualAt c.sys.scaledExpressions c.sys.scale V i ^ 2 := by
    intro V f hf
    rw [Finset.sum_biUnion hdis]
    refine Finset.sum_congr rfl fun n hnS => ?_
    have hcon := List.getElem?_eq_getElem (hS.1 n hnS)
    have h3 := hr.residual_squares hpos hcon (hf n _ hcon)
    simp only [eqs, Store.power, hcon]
    exact h3
  have hread : ∀ (s : System ℝ) (hid : s.id = c.sys.id) (n : Nat) (con : Spec.Con ℝ) (x : ℝ), ((Store.empty ℝ).run ops).cons[n]? = some con →
      s.calculateResidual con.kind ⟨c.sys.id, n⟩ = .ok x → s.residualOf con.kind.valency n = .ok x := by
    intro s hid n con x _ hx
    rw [System.calculateResidual, if_neg (by simp [hid])] at hx
    exact hx
  rw [hsum st.vars _ fun n con hcon => hread { c.sys with vars := st.vars } rfl n con _ hcon (hρ n _ con (h.crel.conHandle (lt_of_getElem? hcon)) hcon).2,
    hsum c.sys.vars _ fun n con hcon => hread c.sys rfl n con _ hcon (hρ n _ con (h.crel.conHandle (lt_of_getElem? hcon)) hcon).1]
  refine h.loop_notWorse hn hpos.ne' hd hp hopt (fun i hi => ?_) (fun comp hcomp i hi n hnc hni n' hnc' i' hi' => ?_) h2
  · obtain ⟨n, -, h3⟩ := Finset.mem_biUnion.1 hi
    exact ⟨n, (heqs n i).1 h3⟩
  · obtain ⟨m, hm, h3⟩ := Finset.mem_biUnion.1 hi
    have hmn := ((heqs m i).1 h3).unique hni
    subst hmn
    obtain ⟨con, hcon, -, -⟩ := id hni
    obtain ⟨con', hcon', -, -⟩ := id hi'
    obtain ⟨a, ha⟩ := List.exists_mem_of_ne_nil _ (actsOn_nonempty (hr.wfCon con (List.mem_of_getElem? hcon)))
    obtain ⟨b, hb⟩ := List.exists_mem_of_ne_nil _ (actsOn_nonempty (hr.wfCon con' (List.mem_of_getElem? hcon')))
    have hlink := C17_component_linked h hcomp (.inr ⟨m, hnc, con, hcon, ha⟩) (.inr ⟨n', hnc', con', hcon', hb⟩)
    exact Finset.mem_biUnion.2 ⟨n', hS.2 m hm n' con con' hcon hcon' ⟨a, ha, b, hb, hlink⟩, (heqs n' i').2 hi'⟩

/-- C81 (partial): with `Decomposer::None`, Levenberg–Marquardt and no perturbation, in exact arithmetic, after any legal history in which no constraint joins two constrained parts: whatever `solve`
returns, the sum of the squares of the residuals, in the unit of length used for solving, is not larger than before, over all constraints and over every linked part of them. This holds whatever the
linear solver returns. (Full statement: for all options and histories; false, see `C81_default_worse` and `C81_singlePass_worse`.) -/
theorem C81_not_worse_partial (hl : ops.length + 1 < 2 ^ 30) (ho : opts.optimizer = .levenbergMarquardt) {ls : LeastSquares ℝ} {fuel : Nat} {s' : System ℝ}
    (hs : c.sys.solve (crateOptimize ls fuel) ord opts = .ok s') {S : Finset Nat} (hS : ((Store.empty ℝ).run ops).Part S) :
    ∃ r r' : Nat → ℝ, (∀ (n : Nat) hdl con, c.conHandles[n]? = some hdl → ((Store.empty ℝ).run ops).cons[n]? = some con →
        c.sys.calculateResidual con.kind hdl = .ok (r n) ∧ s'.calculateResidual con.kind hdl = .ok (r' n)) ∧
      ∑ n ∈ S, (r' n / c.sys.scale ^ ((Store.empty ℝ).run ops).power n) ^ 2 ≤ ∑ n ∈ S, (r n / c.sys.scale ^ ((Store.empty ℝ).run ops).power n) ^ 2 :=
  h.notWorse hnz hn hord hd hp hl (by rw [ho]; exact crateOptimize_notWorse ls fuel _) hs hS

/-- C81 (partial), for constraints whose residuals have the same unit (all of them lengths, say): the sum of the squares of the residuals as read through the API. -/
theorem C81_same_unit_not_worse_partial (hl : ops.length + 1 < 2 ^ 30) (ho : opts.optimizer = .levenbergMarquardt) {ls : LeastSquares ℝ} {fuel : Nat} {s' : System ℝ}
    (hs : c.sys.solve (crateOptimize ls fuel) ord opts = .ok s') {S : Finset Nat} (hS : ((Store.empty ℝ).run ops).Part S) {p : Nat} (hunit : ∀ n ∈ S, ((Store.empty ℝ).run ops).power n = p) :
    ∃ r r' : Nat → ℝ, (∀ (n : Nat) hdl con, c.conHandles[n]? = some hdl → ((Store.empty ℝ).run ops).cons[n]? = some con →
        c.sys.calculateResidual con.kind hdl = .ok (r n) ∧ s'.calculateResidual con.kind hdl = .ok (r' n)) ∧ ∑ n ∈ S, r' n ^ 2 ≤ ∑ n ∈ S, r n ^ 2 := by
  obtain ⟨r, r', h1, h2⟩ := C81_not_worse_partial h hnz hn hord hd hp hl ho hs hS
  have hpos := h.scale_pos hnz
  have key : ∀ f : Nat → ℝ, ∑ n ∈ S, (f n / c.sys.scale ^ ((Store.empty ℝ).run ops).power n) ^ 2 = (∑ n ∈ S, f n ^ 2) / (c.sys.scale ^ p) ^ 2 := by
    intro f
    rw [Finset.sum_div]
    exact Finset.sum_congr rfl fun n hnS => by rw [hunit n hnS, div_pow]
  rw [key, key, div_le_div_iff_of_pos_right (by positivity)] at h2
  exact ⟨r, r', h1, h2⟩

end

/-- All constraints together are such a set. -/
theorem Spec.Store.part_all (st : Store ℝ) : st.Part (Finset.range st.cons.length) :=
  ⟨fun _ h => Finset.mem_range.1 h, fun _ _ m _ con' _ h _ => Finset.mem_range.2 (lt_of_getElem? h)⟩

/-- A figure that meets the hypotheses, with residuals that are not zero. -/
example : ∃ c, Reaches 0 hubOps c ∧ ((Store.empty ℝ).run hubOps).NonZero ∧ NeverJoins ((Store.empty ℝ).run hubOps).arguments ∧ ((Store.empty ℝ).run hubOps).Part (Finset.range 2) ∧
    (∀ n ∈ Finset.range 2, ((Store.empty ℝ).run hubOps).power n = 1) ∧ hubOps.length + 1 < 2 ^ 30 := by
  obtain ⟨c, h⟩ := exists_reaches 0 hubOps (by
    simp [hubOps, Store.LegalRun, Store.Legal, Store.empty, Store.step, Store.IsPoint, Store.ConOk]) (by simp [hubOps])
  refine ⟨c, h, ⟨.point 1 0, by simp [hubOps, Store.run, Store.empty, Store.step], .inl ⟨1, 0, rfl, .inl (by norm_num)⟩⟩, neverJoins_two _ _, Store.part_all _, fun n hn => ?_, by simp [hubOps]⟩
  rw [Finset.mem_range] at hn
  match n, hn with
  | 0, _ => rfl
  | 1, _ => rfl

/-! ## Where the figure gets worse -/

/-- C81 does not hold with perturbation, which is the default: all residuals are zero before, and not afterwards. -/
theorem C81_default_worse : ∃ c, Reaches 0 originPairOps c ∧ ((Store.empty ℝ).run originPairOps).NonZero ∧ ((Store.empty ℝ).run originPairOps).cons = [.pointPointCoincidence 0 1] ∧
    c.sys.calculateResidual .pointPointCoincidence ⟨0, 0⟩ = .ok 0 ∧
    ∀ (ls : LeastSquares ℝ) (_ : ls.Safe (fun _ _ _ => True)) (fuel : Nat) (ord : HashOrder), ∃ s' r, c.sys.solve (crateOptimize ls fuel) ord .default = .ok s' ∧
      s'.calculateResidual .pointPointCoincidence ⟨0, 0⟩ = .ok r ∧ 0 < r ^ 2 := by
  obtain ⟨c, h1, h2, -, h3, h4⟩ := C61_default_moves
  refine ⟨c, h1, h2, rfl, h3, fun ls hls fuel ord => ?_⟩
  obtain ⟨s', h5, -, r, h6, h7⟩ := h4 ls hls fuel ord
  exact ⟨s', r, h5, h6, by positivity⟩

/-- One equation between a variable that is not free and one that is. -/
theorem Subsystem.Ok.pull_contracts {sub : Subsystem ℝ} (hok : sub.Ok) {id p q : Nat} (hids : sub.expressions = [id]) (he : sub.allExpressions[id]? = some (.variableVariableEquality p q)) (hpq : p ≠ q)
    (hp : p ∉ sub.freeVariables) (hq : q ∈ sub.freeVariables) :
    ∃ P : Fitting, sub.problem.Computes P sub.pattern ∧ P.m = 1 ∧ P.n = sub.freeVariables.length ∧ (∀ x, x.length = P.n → P.cost x = (sub.valueOf x p - sub.valueOf x q) ^ 2) ∧
      P.Contracts (fun x => x.length = P.n) (4 / 9) := by
  obtain ⟨P, h1, h2, h3, h4, h5⟩ := hok.single hids he (by simp [Expr.variableIndices, hpq])
  have hres : ∀ x, x.length = P.n → P.res x = [sub.valueOf x q - sub.valueOf x p] := fun x hx => (h5 x (hx.trans h3) _ rfl).1
  have hcost : ∀ x, x.length = P.n → P.cost x = (sub.valueOf x p - sub.valueOf x q) ^ 2 := by
    intro x hx
    rw [Fitting.cost, hres x hx]
    simp only [squares, List.map_cons, List.map_nil, List.sum_cons, List.sum_nil]
    ring
  have hact : act sub.freeVariables p = 0 := by simp only [act, hp, if_false]
  have hnorm : ∀ x, x.length = P.n → ∑ c ∈ Finset.range P.n, P.jac x 0 c ^ 2 = 1 := by
    intro x hx
    rw [(h5 x (hx.trans h3) _ rfl).2.2 rfl]
    show (List.zipWith (fun v g => act sub.freeVariables v * g ^ 2) [p, q] [-1, 1]).sum = 1
    simp only [List.zipWith_cons_cons, List.zipWith_nil_left, List.sum_cons, List.sum_nil, hact, act_of_mem hq]
    norm_num
  have key : ∀ {x δ : List ℝ} {lam : ℝ}, x.length = P.n → 0 < lam → P.IsStep x lam δ →
      (Fitting.add x δ).length = P.n ∧ sub.valueOf (Fitting.add x δ) p = sub.valueOf x p ∧
      sub.valueOf (Fitting.add x δ) q = sub.valueOf x q + (sub.valueOf x p - sub.valueOf x q) / (1 + lam) ∧
      squares δ = ((sub.valueOf x p - sub.valueOf x q) / (1 + lam)) ^ 2 := by
    intro x δ lam hx hl hs
    obtain ⟨h6, h7⟩ := hs.single h2 hl
    rw [hnorm x hx, hres x hx, List.getD_cons_zero] at h6 h7
    have h8 := (h5 x (hx.trans h3) _ rfl).2.1 δ _ (hs.1.trans h3) h6
    have c0 := h8 0 p (-1) rfl rfl
    have c1 := h8 1 q 1 rfl rfl
    rw [hact] at c0
    rw [act_of_mem hq] at c1
    refine ⟨by simp [Fitting.add, hx, hs.1], ?_, ?_, by rw [h7]; ring⟩
    · rw [valueOf_add (hx.trans h3) (hs.1.trans h3), c0]; ring
    · rw [valueOf_add (hx.trans h3) (hs.1.trans h3), c1]; ring
  refine ⟨P, h1, h2, h3, hcost, fun hx hl _ hs => (key hx hl hs).1, fun {x δ lam} hx hl hl' hs => ?_, fun {x δ lam} hx hl hl' hs => ?_⟩
  · obtain ⟨k1, k2, k3, -⟩ := key hx hl hs
    rw [hcost _ k1, hcost _ hx, k2, k3]
    set d := sub.valueOf x p - sub.valueOf x q with hd
    have e : sub.valueOf x p - (sub.valueOf x q + d / (1 + lam)) = lam / (1 + lam) * d := by
      have : 1 + lam ≠ 0 := by linarith
      field_simp
      rw [hd]
      ring
    have e' : lam / (1 + lam) ≤ 1 / 3 := by
      rw [div_le_div_iff₀ (by linarith) (by norm_num)]
      linarith
    have e0 : 0 ≤ lam / (1 + lam) := div_nonneg hl.le (by linarith)
    rw [e, mul_pow]
    nlinarith [sq_nonneg d, mul_nonneg e0 (sub_nonneg.2 e')]
  · obtain ⟨k1, k2, k3, k4⟩ := key hx hl hs
    rw [hcost _ hx, k4, div_pow, le_div_iff₀ (by positivity)]
    have : 4 / 9 * (1 + lam) ^ 2 ≤ 1 := by nlinarith
    nlinarith [sq_nonneg (sub.valueOf x p - sub.valueOf x q)]

/-- What a block with one equation between a fixed and a free variable does. -/
theorem pull_block (cast : ℝ → Int) {sort : SortByKey} (hsort : Spec.Sorts sort) {k : Nat} {opts : SolvingOptions} (ho : opts.optimizer = .levenbergMarquardt) {E : List (Expr ℝ)}
    {id p q : Nat} {st st' : SolveState ℝ} (hok : (⟨st.transformed, E, [id], [q]⟩ : Subsystem ℝ).Ok) (he : E[id]? = some (.variableVariableEquality p q)) (hpq : p ≠ q)
    (hfit : ∀ len, len ≤ 8 + 1 → Spec.FitsWorkspace 1 1 len) (hc : (st.transformed.getD p 0 - st.transformed.getD q 0) ^ 2 ≤ 10 ^ 80)
    (h : solveBlock (crateOptimize (qrLeastSquares sort (colamdOfStructure cast)) k) opts 1 E [q] [id] st = .ok st') :
    ∃ y, st'.vars[q]? = some y ∧ (st.transformed.getD p 0 - y) ^ 2 ≤ 1 / 10 ^ 8 := by
  simp only [solveBlock, bind_eq_ok, ho] at h
  obtain ⟨values, k1, values', k2, tr, k3, vars, k4, k5⟩ := h
  cases k5
  obtain ⟨P, h1, h2, h3, h4, h5⟩ := hok.pull_contracts rfl he hpq (by simpa using hpq) (by simp)
  have e := valueOf_start (exprs := E) (es := [id]) k1
  have hlen : values.length = P.n := by rw [h3]; exact (mapM_forall k1).length_eq.symm
  have hrun := C66_lm_is_method h1 (qrColamd_exact cast hsort) (by
    rw [h2, h3]
    exact hfit _ (Subsystem.size_le (⟨st.transformed, E, [id], [q]⟩ : Subsystem ℝ))) hlen k2
  obtain ⟨h6, h7⟩ := h5.run (by norm_num) (by norm_num) le_rfl hlen hrun
  rw [h4 _ h6, h4 _ hlen, e, e] at h7
  have h8 : (Subsystem.valueOf ⟨st.transformed, E, [id], [q]⟩ values' p - Subsystem.valueOf ⟨st.transformed, E, [id], [q]⟩ values' q) ^ 2 ≤ 1 / 10 ^ 8 := by
    refine h7.trans (max_le (max_le le_rfl (by norm_num)) ?_)
    rw [div_le_iff₀ (by positivity)]
    refine hc.trans ?_
    norm_num
  obtain ⟨y, h9, h10⟩ := writeVars_values (zipIdx_fst_nodup (List.nodup_singleton q)) k4 (q, 0) (by simp)
  simp only [one_mul] at h9 h10
  refine ⟨y, h10, ?_⟩
  have e1 : Subsystem.valueOf ⟨st.transformed, E, [id], [q]⟩ values' q = y := by
    simp only [Subsystem.valueOf, List.idxOf?, List.findIdx?_cons, beq_self_eq_true, if_true]
    rw [List.getD_eq_getElem?_getD, h9, Option.getD_some]
  have e2 : Subsystem.valueOf ⟨st.transformed, E, [id], [q]⟩ values' p = st.transformed.getD p 0 := by
    have : [q].idxOf? p = none := List.idxOf?_eq_none_iff.2 (by simpa using hpq)
    simp only [Subsystem.valueOf, this]
  rwa [e1, e2] at h8

/-- A point between two fixed ones, to coincide with both. (The two lengths are not used, they make the unit of length 1.) -/
noncomputable def tugOps : List (Op ℝ) :=
  [.createPoint (-2) 0, .createPoint 2 0, .createPoint 0 0, .createLength 0, .createLength 0, .fix .point 0, .fix .point 1,
    .createCon (.pointPointCoincidence 0 2), .createCon (.pointPointCoincidence 1 2)]

theorem tug_blocks {c : Client ℝ} (h : Reaches 0 tugOps c) : c.sys.graph.components = [⟨{0, 1, 2}, {0, 1}⟩] ∧
    okAnd (c.sys.freeVariables {0, 1, 2}) (fun free => okAnd (c.sys.equationGraph.findStronglyConnectedExpressions free) (fun l => l.map (fun b => (b.expressions, b.freeVariables)) =
      [([1], {5}), ([0], {4})])) = true := by
  have h2 : okAnd ((Client.new ℝ 0).run tugOps) (fun c => c.sys.graph.components.map (fun k => (k.elements, k.constraints)) = [({0, 1, 2}, {0, 1})]) = true := by decide +kernel
  have h3 : okAnd ((Client.new ℝ 0).run tugOps) (fun c => okAnd (c.sys.freeVariables {0, 1, 2}) (fun free => okAnd (c.sys.equationGraph.findStronglyConnectedExpressions free)
    (fun l => l.map (fun b => (b.expressions, b.freeVariables)) = [([1], {5}), ([0], {4})]))) = true := by decide +kernel
  rw [h.run] at h2 h3
  exact ⟨components_of_pairs (of_decide_eq_true h2), h3⟩

theorem two_blocks {c : Client ℝ} {V : List ℝ} {E : List (Expr ℝ)} (hv : c.sys.scaledVariables = V) (hv' : c.sys.vars = V) (he : c.sys.scaledExpressions = E) (hsc : c.sys.scale = 1) {elements constraints : Finset Nat}
    (hne : elements ≠ ∅) (hcomp : c.sys.graph.components = [⟨elements, constraints⟩]) {e1 e2 : List Nat} {f1 f2 : Finset Nat}
    (hb : okAnd (c.sys.freeVariables elements) (fun free => okAnd (c.sys.equationGraph.findStronglyConnectedExpressions free) (fun l => l.map (fun b => (b.expressions, b.freeVariables)) =
      [(e1, f1), (e2, f2)])) = true)
    {opt : Optimize ℝ} {ord : HashOrder} {s' : System ℝ} (hs : c.sys.solve opt ord ⟨.levenbergMarquardt, .singlePass, false⟩ = .ok s') :
    ∃ st1 st2, solveBlock opt ⟨.levenbergMarquardt, .singlePass, false⟩ 1 E (ord [0, 0, 0] f1) e1 ⟨V, V, 42, []⟩ = .ok st1 ∧
      solveBlock opt ⟨.levenbergMarquardt, .singlePass, false⟩ 1 E (ord [0, 0, 1] f2) e2 st1 = .ok st2 ∧ s' = { c.sys with vars := st2.vars } := by
  unfold System.solve System.solveLoop at hs
  rw [hcomp, hv, he, hsc, hv'] at hs
  simp only [List.zipIdx_cons, List.zipIdx_nil, List.foldlM_cons, List.foldlM_nil, bind_eq_ok] at hs
  obtain ⟨st, ⟨st', hs1, hs2⟩, hs3⟩ := hs
  cases hs2
  cases hs3
  unfold solveComponent at hs1
  rw [if_neg hne] at hs1
  simp only [bind_eq_ok] at hs1
  obtain ⟨free, h1, st0, h2, h3⟩ := hs1
  rw [still] at h2
  cases h2
  simp only [solveSinglePass, bind_eq_ok] at h3
  obtain ⟨blocks, h4, h5⟩ := h3
  simp only [okAnd, h1, h4, decide_eq_true_eq] at hb
  obtain ⟨b1, b2, rfl⟩ : ∃ b1 b2, blocks = [b1, b2] := by
    have hlen := congrArg List.length hb
    simp only [List.length_map, List.length_cons, List.length_nil] at hlen
    match blocks, hlen with
    | [b1, b2], _ => exact ⟨b1, b2, rfl⟩
  simp only [List.map_cons, List.map_nil, List.cons.injEq, Prod.mk.injEq, and_true] at hb
  obtain ⟨⟨g1, g2⟩, ⟨g3, g4⟩⟩ := hb
  simp only [List.zipIdx_cons, List.zipIdx_nil, List.foldlM_cons, List.foldlM_nil, bind_eq_ok, g1, g2, g3, g4] at h5
  obtain ⟨st1, h6, st2, h7, h8⟩ := h5
  cases h8
  exact ⟨st1, _, h6, h7, rfl⟩

/-- What `SinglePass` makes of `tugOps`: the point goes to the first of the two. -/
theorem tug_pulled (cast : ℝ → Int) {sort : SortByKey} (hsort : Spec.Sorts sort) {ord : HashOrder} (hord : ord.Ok) {c : Client ℝ} (h : Reaches 0 tugOps c) :
    ∃ k y, (∀ fuel, k ≤ fuel → c.sys.solve (crateOptimize (qrLeastSquares sort (colamdOfStructure cast)) fuel) ord ⟨.levenbergMarquardt, .singlePass, false⟩ =
      .ok { c.sys with vars := [-2, 0, 2, 0, y, 0, 0, 0] }) ∧ ((-2 : ℝ) - y) ^ 2 ≤ 1 / 10 ^ 8 := by
  have hv : c.sys.vars = [-2, 0, 2, 0, 0, 0, 0, 0] := by rw [h.crel.rel.vars]; rfl
  have he : c.sys.expressions = [.variableVariableEquality 0 4, .variableVariableEquality 1 5, .variableVariableEquality 2 4, .variableVariableEquality 3 5] := by rw [h.crel.rel.exprs]; rfl
  have hsc : c.sys.scale = 1 := by
    unfold System.scale
    rw [hv, he]
    show Real.sqrt ((0 + (-2) * (-2) + 0 * 0 + 2 * 2 + 0 * 0 + 0 * 0 + 0 * 0 + 0 * 0 + 0 * 0) / ((8 : ℕ) : ℝ)) = 1
    rw [show ((0 + (-2) * (-2) + 0 * 0 + 2 * 2 + 0 * 0 + 0 * 0 + 0 * 0 + 0 * 0 + 0 * 0) / ((8 : ℕ) : ℝ) : ℝ) = 1 by norm_num, Real.sqrt_one]
  obtain ⟨hw, hx⟩ := hub_scaled hsc he
  rw [hv] at hw
  rw [he] at hx
  obtain ⟨s', k, hk⟩ := C52_solve_returns_partial cast hsort h (by simp [tugOps]) hord (opts := ⟨.levenbergMarquardt, .singlePass, false⟩) (by simp) rfl
  obtain ⟨st1, st2, a1, a2, rfl⟩ := two_blocks hw hv hx hsc (by simp) (tug_blocks h).1 (tug_blocks h).2 (hk k le_rfl)
  rw [ord_single hord] at a1 a2
  obtain ⟨p1, q1⟩ := block_rests (crateOptimize_keeps _ k) rfl rfl (fun i hi e he r hr => by
    rw [List.mem_singleton] at hi
    subst hi
    cases he
    exact vve_zero hr rfl) a1
  obtain ⟨y, r1, r2⟩ := pull_block cast hsort rfl (st := st1) (fun i hi => by
      simp only [List.mem_singleton] at hi
      subst hi
      exact ⟨_, rfl, by rw [q1]; simp [Expr.variableIndices]⟩) rfl (by norm_num)
    (fun len hl => h.fits (by simp [tugOps]) _ _ _ (by rw [he]; simp) (by rw [hv]; simp) (by omega)) (by rw [q1]; norm_num) a2
  rw [q1] at r2
  obtain ⟨l2, f2⟩ := (solveBlock_spec a2).1.vars
  rw [p1] at l2 f2
  have hy : st2.vars = [-2, 0, 2, 0, y, 0, 0, 0] := by
    refine List.ext_getElem? fun i => ?_
    by_cases hi : i = 4
    · subst hi
      rw [r1]
      rfl
    · rw [f2 i (by simpa using hi)]
      match i with
      | 0 | 1 | 2 | 3 | 5 | 6 | 7 => rfl
      | 4 => exact absurd rfl hi
      | i + 8 => rfl
  rw [hy] at hk
  exact ⟨k, y, hk, r2⟩

/-- C81 does not hold with `Decomposer::SinglePass`, which leaves constraints out: a point 2 away from two fixed points goes to one of them, and the sum of the squares doubles. -/
theorem C81_singlePass_worse (cast : ℝ → Int) {sort : SortByKey} (hsort : Spec.Sorts sort) {ord : HashOrder} (hord : ord.Ok) :
    ∃ c, Reaches 0 tugOps c ∧ ((Store.empty ℝ).run tugOps).NonZero ∧ NeverJoins ((Store.empty ℝ).run tugOps).arguments ∧
      ((Store.empty ℝ).run tugOps).cons = [.pointPointCoincidence 0 2, .pointPointCoincidence 1 2] ∧
      c.sys.calculateResidual .pointPointCoincidence ⟨0, 0⟩ = .ok 2 ∧ c.sys.calculateResidual .pointPointCoincidence ⟨0, 1⟩ = .ok 2 ∧ ∃ s' k r,
        (∀ fuel, k ≤ fuel → c.sys.solve (crateOptimize (qrLeastSquares sort (colamdOfStructure cast)) fuel) ord ⟨.levenbergMarquardt, .singlePass, false⟩ = .ok s') ∧
        s'.calculateResidual .pointPointCoincidence ⟨0, 1⟩ = .ok r ∧ 15 ≤ r ^ 2 := by
  obtain ⟨c, h⟩ := exists_reaches 0 tugOps (by
    simp [tugOps, Store.LegalRun, Store.Legal, Store.empty, Store.step, Store.IsPoint, Store.ConOk, Elem.kind]) (by simp [tugOps])
  have hv : c.sys.vars = [-2, 0, 2, 0, 0, 0, 0, 0] := by rw [h.crel.rel.vars]; rfl
  obtain ⟨k, y, hk, r2⟩ := tug_pulled cast hsort hord h
  have hres : ∀ y : ℝ, ∀ n : Nat, n < 2 → ((Client.new ℝ 0).run tugOps >>= fun c =>
        ({ c.sys with vars := [-2, 0, 2, 0, y, 0, 0, 0] } : System ℝ).calculateResidual .pointPointCoincidence ⟨0, n⟩) =
      .ok (FloatOps.sqrt (sumSquares [(vveResGrad ([-2, 2].getD n 0) y).1, (vveResGrad 0 0).1])) := by
    intro y n hn
    match n, hn with
    | 0, _ => rfl
    | 1, _ => rfl
  simp only [h.run, ok_bind] at hres
  have hsq : ∀ a y : ℝ, FloatOps.sqrt (sumSquares [(vveResGrad a y).1, (vveResGrad 0 0).1]) = √((y - a) ^ 2) := by
    intro a y
    show √_ = _
    congr 1
    simp [vveResGrad, sumSquares]
    ring
  have hsame : ({ c.sys with vars := [-2, 0, 2, 0, 0, 0, 0, 0] } : System ℝ) = c.sys := by rw [← hv]
  refine ⟨c, h, ⟨.point 2 0, by simp [tugOps, Store.run, Store.empty, Store.step], .inl ⟨2, 0, rfl, .inl (by norm_num)⟩⟩, neverJoins_two _ _, rfl, ?_, ?_, _, k, √((y - 2) ^ 2), hk, ?_, ?_⟩
  · have := hres 0 0 (by norm_num)
    rw [hsame, hsq] at this
    rw [this]
    congr 1
    show √((0 - (-2) : ℝ) ^ 2) = 2
    rw [Real.sqrt_sq (by norm_num)]
    norm_num
  · have := hres 0 1 (by norm_num)
    rw [hsame, hsq] at this
    rw [this]
    congr 1
    show √((0 - 2 : ℝ) ^ 2) = 2
    rw [show (0 - 2 : ℝ) ^ 2 = 2 ^ 2 by norm_num, Real.sqrt_sq (by norm_num)]
  · rw [← hsq]
    exact hres y 1 (by norm_num)
  · rw [Real.sq_sqrt (sq_nonneg _)]
    have r3 : ((-2 : ℝ) - y) ^ 2 ≤ 1 / 10 ^ 8 := r2
    have r4 : y ≤ -2 + 1 / 10 ^ 4 := by
      have := abs_le_of_sq_le_sq (a := (-2 : ℝ) - y) (b := 1 / 10 ^ 4) (r3.trans (by norm_num)) (by norm_num)
      linarith [(abs_le.1 this).1]
    nlinarith

end Fiksi
