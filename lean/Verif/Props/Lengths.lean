import Verif.Proofs.Gap
import Verif.Spec.Loose
import Verif.Proofs.FigureParts
import Verif.Props.Coincidence
import Verif.Props.LmStuck
/-!
# C76: distances and incidences on circles that share nothing are solved from any start
-/
namespace Fiksi
open Spec

/-! ## Perturbation -/

theorem perturb_near : ∀ (l : List Nat) (st st' : SolveState ℝ), l.Nodup → l.foldlM perturbVariable st = .ok st' →
    ∀ v ∈ l, |st'.transformed.getD v 0 - st.transformed.getD v 0| ≤ |st.transformed.getD v 0| / 8196 + 1 / 65568 ∧ (0 ≤ st.transformed.getD v 0 → 0 ≤ st'.transformed.getD v 0) := by
  intro l
  induction l with
  | nil => intro st st' _ _ v hv; simp at hv
  | cons a l ih =>
    intro st st' hn h v hv
    obtain ⟨-, hkeep⟩ := perturb_bound (a :: l) st st' hn h
    rw [List.nodup_cons] at hn
    rw [List.foldlM_cons, bind_eq_ok] at h
    obtain ⟨st1, h1, h2⟩ := h
    have h3 := ih st1 st' hn.2 h2
    obtain ⟨-, h4⟩ := perturb_bound l st1 st' hn.2 h2
    rw [perturbVariable, bind_eq_ok] at h1
    obtain ⟨x, h5, h1⟩ := h1
    simp only at h1
    rw [bind_eq_ok] at h1
    obtain ⟨T, h6, h1⟩ := h1
    cases h1
    rw [idx_eq_ok] at h5
    rw [setIdx_eq_ok] at h6
    obtain ⟨h7, rfl⟩ := h6
    simp only at h3 h4
    rcases List.mem_cons.1 hv with rfl | hv
    · rw [List.getD_eq_getElem?_getD (l := st'.transformed), h4 v hn.1, List.getElem?_set_self h7, List.getD_eq_getElem?_getD (l := st.transformed), h5, Option.getD_some, Option.getD_some]
      have r1 : 0 ≤ (rngNextF64 (F := ℝ) st.rng).1 ∧ (rngNextF64 (F := ℝ) st.rng).1 ≤ 1 := C28_unit_interval st.rng 1 _ (List.mem_cons_self ..)
      have r2 : 0 ≤ (rngNextF64 (F := ℝ) (rngNextF64 (F := ℝ) st.rng).2).1 ∧ (rngNextF64 (F := ℝ) (rngNextF64 (F := ℝ) st.rng).2).1 ≤ 1 :=
        C28_unit_interval (rngNextF64 (F := ℝ) st.rng).2 1 _ (List.mem_cons_self ..)
      generalize (rngNextF64 (F := ℝ) (rngNextF64 (F := ℝ) st.rng).2).1 = t at *
      generalize (rngNextF64 (F := ℝ) st.rng).1 = s at *
      have e1 : (FloatOps.ofNat 8196 : ℝ) = 8196 := by show ((8196 : ℕ) : ℝ) = 8196; norm_num
      have e2 : (FloatOps.ofNat 65568 : ℝ) = 65568 := by show ((65568 : ℕ) : ℝ) = 65568; norm_num
      rw [e1, e2]
      refine ⟨?_, fun hx => ?_⟩
      · have g1 : x + (x * (1 / 8196) * s + 1 / 65568 * t) - x = x * (1 / 8196) * s + 1 / 65568 * t := by ring
        rw [g1]
        have g2 := abs_add_le (x * (1 / 8196) * s) (1 / 65568 * t)
        have g3 : |x * (1 / 8196) * s| ≤ |x| / 8196 := by
          rw [abs_mul, abs_mul, abs_of_nonneg r1.1, abs_of_pos (show (0 : ℝ) < 1 / 8196 by norm_num)]
          have := mul_le_mul_of_nonneg_left r1.2 (show 0 ≤ |x| * (1 / 8196) by positivity)
          linarith
        have g4 : |1 / 65568 * t| ≤ 1 / 65568 := by
          rw [abs_mul, abs_of_nonneg r2.1, abs_of_pos (show (0 : ℝ) < 1 / 65568 by norm_num)]
          linarith [r2.2]
        linarith
      · have g1 := mul_nonneg (mul_nonneg hx (show (0 : ℝ) ≤ 1 / 8196 by norm_num)) r1.1
        have g2 := mul_nonneg (show (0 : ℝ) ≤ 1 / 65568 by norm_num) r2.1
        linarith
    · have hva : v ≠ a := fun hc => hn.1 (hc ▸ hv)
      have h8 := h3 v hv
      rwa [List.getD_eq_getElem?_getD (l := List.set _ _ _), List.getElem?_set_ne (Ne.symm hva), ← List.getD_eq_getElem?_getD] at h8

/-- How far perturbation moves a variable. -/
noncomputable def SolvingOptions.reach (opts : SolvingOptions) (x : ℝ) : ℝ := if opts.perturb then |x| / 8196 + 1 / 65568 else 0

theorem SolvingOptions.reach_nonneg (opts : SolvingOptions) (x : ℝ) : 0 ≤ opts.reach x := by
  unfold SolvingOptions.reach
  split <;> positivity

theorem perturbFree_near {opts : SolvingOptions} {free : Finset Nat} {st st' : SolveState ℝ} (h : perturbFree opts free st = .ok st') (v : Nat) :
    |st'.transformed.getD v 0 - st.transformed.getD v 0| ≤ opts.reach (st.transformed.getD v 0) ∧ (0 ≤ st.transformed.getD v 0 → 0 ≤ st'.transformed.getD v 0) := by
  by_cases hv : v ∈ free
  · unfold perturbFree at h
    split at h
    · next hp =>
      rw [SolvingOptions.reach, if_pos hp]
      exact perturb_near _ _ _ (ascending_nodup free) h v ((mem_ascending _ _).2 hv)
    · cases h
      rw [sub_self, abs_zero]
      exact ⟨opts.reach_nonneg _, id⟩
  · rw [List.getD_eq_getElem?_getD (l := st'.transformed), (perturbFree_bound h).2 v hv, ← List.getD_eq_getElem?_getD, sub_self, abs_zero]
    exact ⟨opts.reach_nonneg _, id⟩

/-! ## Solving part by part -/

section
variable {counter : Nat} {ops : List (Op ℝ)} {c : Client ℝ} (h : Reaches counter ops c)

/-- What the variables may be when a part is solved: those of the part have been perturbed, all else that the part reads is as before. -/
structure System.Near (s : System ℝ) (opts : SolvingOptions) (comp : Component) (free : Finset Nat) (T : List ℝ) : Prop where
  length : T.length = s.vars.length
  near : ∀ v, s.VarOf comp.elements v → |T.getD v 0 - s.scaledVariables.getD v 0| ≤ opts.reach (s.scaledVariables.getD v 0)
  sign : ∀ v, s.VarOf comp.elements v → 0 ≤ s.scaledVariables.getD v 0 → 0 ≤ T.getD v 0
  kept : ∀ v, s.VarOf comp.elements v → v ∉ free → T.getD v 0 = s.scaledVariables.getD v 0

/-- The optimiser solves the part. -/
def System.PartSolved (s : System ℝ) (opt : Optimize ℝ) (opts : SolvingOptions) (ε : ℝ) (comp : Component) : Prop :=
  ∀ free es T values, s.freeVariables comp.elements = .ok free → (ascending comp.constraints).mapM s.constraintExpressions = .ok es → s.Near opts comp free T →
    (ascending free).mapM (idx T) = .ok values → ∃ x' rs, x'.length = (ascending free).length ∧
      opt opts.optimizer (⟨T, s.scaledExpressions, es.flatten, ascending free⟩ : Subsystem ℝ).problem values = .ok x' ∧
      (⟨T, s.scaledExpressions, es.flatten, ascending free⟩ : Subsystem ℝ).calculateResiduals x' = .ok rs ∧ ∀ y ∈ rs, |y| ≤ ε

include h in
theorem Reaches.part_step {opt : Optimize ℝ} {ord : HashOrder} {opts : SolvingOptions} (hd : opts.decomposer = .none) {ε : ℝ} {ck : Component × Nat} {l : List (Component × Nat)}
    (hcomp : ck.1 ∈ c.sys.graph.components) (hpart : ck.1.elements ≠ ∅ → c.sys.PartSolved opt opts ε ck.1)
    (hdis : ∀ v, c.sys.VarOf ck.1.elements v → ∀ ck' ∈ l, ¬ c.sys.VarOf ck'.1.elements v) {st : SolveState ℝ} (hst : st.Fresh c.sys (ck :: l)) :
    ∃ st', solveComponent (opt.checked ε) ord opts c.sys c.sys.scale c.sys.scaledExpressions st ck = .ok st' ∧ st'.Fresh c.sys l := by
  have hr := h.crel.rel
  unfold solveComponent
  split
  · exact ⟨st, rfl, hst.sized, fun v hv => hst.fresh v (hv.imp_right fun ⟨ck', h1, h2⟩ => ⟨ck', List.mem_cons_of_mem _ h1, h2⟩)⟩
  next hne =>
  obtain ⟨free, h1⟩ := h.freeVariables_ok hcomp
  have hf := freeVariables_spec h1
  have hflt : ∀ v ∈ free, v < c.sys.vars.length := fun v hv => h.varOf_lt ((hf v).1 hv).1
  obtain ⟨st1, h2, h3⟩ := perturbFree_ok (opts := opts) hst.sized hflt
  obtain ⟨-, hb2⟩ := perturbFree_bound h2
  have hb1 := perturbFree_near h2
  rw [h1, ok_bind, h2, ok_bind, hd]
  simp only
  have hcons := h.part_cons hcomp
  obtain ⟨es, h4⟩ := mapM_ok_exists (f := c.sys.constraintExpressions) (l := ascending ck.1.constraints)
    (fun n hn => hr.constraintExpressions_ok (hcons n hn))
  have hf' : ∀ v ∈ ascending free, v < c.sys.vars.length := fun v hv => hflt v ((mem_ascending _ _).1 hv)
  obtain ⟨values, h5, -⟩ := mapM_idx_ok (l := st1.transformed) (is := ascending free) (by rw [h3.2]; exact hf')
  have hfresh : ∀ v, c.sys.VarOf ck.1.elements v → st.transformed.getD v 0 = c.sys.scaledVariables.getD v 0 := fun v hv => by
    rw [List.getD_eq_getElem?_getD, hst.fresh v (.inr ⟨ck, by simp, hv⟩), ← List.getD_eq_getElem?_getD]
  obtain ⟨x', rs, h7, h8, h9, h10⟩ := hpart hne free es st1.transformed values h1 h4
    ⟨h3.2, fun v hv => by rw [← hfresh v hv]; exact (hb1 v).1, fun v hv => by rw [← hfresh v hv]; exact (hb1 v).2,
      fun v hv hvf => by rw [← hfresh v hv, List.getD_eq_getElem?_getD, hb2 v hvf, ← List.getD_eq_getElem?_getD]⟩ h5
  have h11 : opt.checked ε opts.optimizer (⟨st1.transformed, c.sys.scaledExpressions, es.flatten, ascending free⟩ : Subsystem ℝ).problem values = .ok x' := by
    rw [Optimize.checked, h8, ok_bind, if_pos ⟨rs, h9, h10⟩]
    rfl
  obtain ⟨vars, h12, h13⟩ := writeVars_ok (scale := c.sys.scale) (values := x') (l := (ascending free).zipIdx) (vars := st1.vars)
    (fun p hp => ⟨by rw [h3.1]; exact hf' _ (mem_zipIdx_fst hp), by rw [h7]; exact zipIdx_snd_lt hp⟩)
  refine ⟨⟨vars, st1.transformed, st1.rng, st1.calls ++ [es.flatten]⟩, ?_, ⟨h13.trans h3.1, h3.2⟩, fun v hv => ?_⟩
  · rw [solveWhole, h5, ok_bind, h4, ok_bind]
    simp only [h11, ok_bind, h12]
    rfl
  · have hnf : v ∉ free := by
      intro hc
      obtain ⟨h14, h15⟩ := (hf v).1 hc
      rcases hv with hv | ⟨ck', h16, h17⟩
      · exact h15 hv
      · exact hdis v h14 ck' h16 h17
    show st1.transformed[v]? = _
    rw [hb2 v hnf]
    exact hst.fresh v (hv.imp_right fun ⟨ck', h1, h2⟩ => ⟨ck', List.mem_cons_of_mem _ h1, h2⟩)

include h in
/-- If the optimiser solves every part, `solve` returns. -/
theorem Reaches.parts_solved {opt : Optimize ℝ} {ord : HashOrder} {opts : SolvingOptions} (hd : opts.decomposer = .none) {ε : ℝ}
    (hpart : ∀ comp ∈ c.sys.graph.components, comp.elements ≠ ∅ → c.sys.PartSolved opt opts ε comp) : ∃ s', c.sys.solve (opt.checked ε) ord opts = .ok s' := by
  have key : ∀ (l : List (Component × Nat)) (st : SolveState ℝ), (∀ ck ∈ l, c.sys.graph.components[ck.2]? = some ck.1) → (l.map Prod.snd).Nodup → st.Fresh c.sys l →
      ∃ st', l.foldlM (solveComponent (opt.checked ε) ord opts c.sys c.sys.scale c.sys.scaledExpressions) st = .ok st' := by
    intro l
    induction l with
    | nil => intro st _ _ _; exact ⟨st, rfl⟩
    | cons ck l ih =>
      intro st h1 h2 h3
      rw [List.map_cons, List.nodup_cons] at h2
      have hck := h1 ck (by simp)
      obtain ⟨st1, h4, h5⟩ := h.part_step (ord := ord) hd (List.mem_of_getElem? hck) (hpart _ (List.mem_of_getElem? hck)) (l := l)
        (fun v hv ck' hck' hv' => by
          obtain ⟨p, hp, el, h10, h11⟩ := hv
          obtain ⟨q, hq, el', h12, h13⟩ := hv'
          have hck2 := h1 ck' (by simp [hck'])
          have hpc := h.constrained_of_mem (List.mem_of_getElem? hck) hp
          have hpq := h.varOf_unique hpc (h.constrained_of_mem (List.mem_of_getElem? hck2) hq) h10 h12 h11 h13
          subst hpq
          obtain ⟨k0, -, h14⟩ := (C17_elements_partitioned h p).1 hpc
          refine h2.1 (List.mem_map.2 ⟨ck', hck', ?_⟩)
          exact (h14 ck'.2 ⟨ck'.1, hck2, hq⟩).trans (h14 ck.2 ⟨ck.1, hck, hp⟩).symm) h3
      obtain ⟨st', h6⟩ := ih st1 (fun ck hck => h1 ck (by simp [hck])) h2.2 h5
      exact ⟨st', by rw [List.foldlM_cons, h4, ok_bind, h6]⟩
  obtain ⟨st', h1⟩ := key c.sys.graph.components.zipIdx ⟨c.sys.vars, c.sys.scaledVariables, 42, []⟩ (fun ck hck => List.mem_zipIdx_iff_getElem?.1 hck)
    (by rw [List.zipIdx_map_snd]; exact List.nodup_range') ⟨⟨rfl, by simp [System.scaledVariables]⟩, fun _ _ => rfl⟩
  exact ⟨_, by rw [System.solve, System.solveLoop, h1, ok_bind]; rfl⟩

end

/-! ## Constraints that share nothing -/

/-- The scaled numbers are not large. -/
theorem number_bound (s : System ℝ) (hs : 0 < s.scale) {x : ℝ} (hx : x ∈ s.vars ++ s.expressions.filterMap Expr.lengthParameter) :
    |x * (1 / s.scale)| ≤ (s.vars.length + s.expressions.length : ℕ) := by
  have hlen : (s.vars ++ s.expressions.filterMap Expr.lengthParameter).length ≤ s.vars.length + s.expressions.length := by
    rw [List.length_append]
    have := List.length_filterMap_le Expr.lengthParameter s.expressions
    omega
  have h1 : s.scale ^ 2 * (s.vars ++ s.expressions.filterMap Expr.lengthParameter).length = sumSquares (s.vars ++ s.expressions.filterMap Expr.lengthParameter) := by
    have h2 : s.scale = √(sumSquares (s.vars ++ s.expressions.filterMap Expr.lengthParameter) / ((s.vars ++ s.expressions.filterMap Expr.lengthParameter).length : ℝ)) := rfl
    have h3 : 0 < ((s.vars ++ s.expressions.filterMap Expr.lengthParameter).length : ℝ) := by exact_mod_cast List.length_pos_of_mem hx
    rw [h2, Real.sq_sqrt (div_nonneg (by rw [sumSquares_real]; exact List.sum_nonneg (by simp only [List.mem_map]; rintro _ ⟨t, -, rfl⟩; positivity)) h3.le)]
    field_simp
  have h2 : x ^ 2 ≤ sumSquares (s.vars ++ s.expressions.filterMap Expr.lengthParameter) := by
    rw [sumSquares_real]
    exact List.single_le_sum (by simp only [List.mem_map]; rintro _ ⟨t, -, rfl⟩; positivity) _ (List.mem_map_of_mem hx)
  have h3 : (1 : ℝ) ≤ (s.vars ++ s.expressions.filterMap Expr.lengthParameter).length := by exact_mod_cast List.length_pos_of_mem hx
  have h4 : ((s.vars ++ s.expressions.filterMap Expr.lengthParameter).length : ℝ) ≤ (s.vars.length + s.expressions.length : ℕ) := by exact_mod_cast hlen
  refine le_trans ?_ h4
  refine abs_le_of_sq_le_sq ?_ (by linarith)
  generalize ((s.vars ++ s.expressions.filterMap Expr.lengthParameter).length : ℝ) = L at *
  have h5 : (x * (1 / s.scale)) ^ 2 = x ^ 2 / s.scale ^ 2 := by field_simp
  rw [h5, div_le_iff₀ (by positivity)]
  rw [← h1] at h2
  have h6 : 0 ≤ s.scale ^ 2 := by positivity
  nlinarith [mul_nonneg h6 (sub_nonneg.2 h3)]

theorem Spec.Store.Unshared.same {st : Store ℝ} (hu : st.Unshared) {n m i : Nat} {con con' : Spec.Con ℝ} (h1 : st.cons[n]? = some con) (h2 : st.cons[m]? = some con') (h3 : i ∈ st.actsOn con)
    (h4 : i ∈ st.actsOn con') : n = m := by
  have key : ∀ {n m : Nat} {con con' : Spec.Con ℝ}, st.cons[n]? = some con → st.cons[m]? = some con' → i ∈ st.actsOn con → i ∈ st.actsOn con' → ¬ n < m := by
    intro n m con con' h1 h2 h3 h4 hlt
    obtain ⟨g1, g2⟩ := List.getElem?_eq_some_iff.1 h1
    obtain ⟨g3, g4⟩ := List.getElem?_eq_some_iff.1 h2
    have := List.pairwise_iff_getElem.1 hu n m g1 g3 hlt
    rw [g2, g4] at this
    exact this i h3 h4
  have k1 := key h1 h2 h3 h4
  have k2 := key h2 h1 h4 h3
  omega

theorem Spec.Store.Unshared.linked {st : Store ℝ} (hu : st.Unshared) {n i j : Nat} {con : Spec.Con ℝ} (h1 : st.cons[n]? = some con) (h2 : i ∈ st.actsOn con) (hl : Spec.Linked st.arguments i j) :
    j ∈ st.actsOn con := by
  induction hl with
  | refl => exact h2
  | tail _ h3 ih =>
    obtain ⟨l, hl, h4, h5⟩ := h3
    obtain ⟨con', hcon', rfl⟩ := List.mem_map.1 hl
    obtain ⟨m, hm⟩ := List.mem_iff_getElem?.1 hcon'
    have := hu.same h1 hm ih h4
    subst this
    rw [h1, Option.some.injEq] at hm
    rwa [hm]

theorem Spec.Store.Unshared.neverJoins {st : Store ℝ} (hu : st.Unshared) : NeverJoins st.arguments := by
  intro m l hl i hi j hj h1 _
  exfalso
  obtain ⟨l', hl', hi'⟩ := h1
  obtain ⟨n, hn⟩ := List.mem_iff_getElem?.1 hl'
  have hlt : n < m := by
    have := lt_of_getElem? hn
    rw [List.length_take] at this
    omega
  rw [List.getElem?_take_of_lt hlt] at hn
  rw [Store.arguments, List.getElem?_map, Option.map_eq_some_iff] at hl hn
  obtain ⟨con, g1, rfl⟩ := hl
  obtain ⟨con', g2, rfl⟩ := hn
  have := hu.same g2 g1 hi' hi
  omega

section
variable {counter : Nat} {ops : List (Op ℝ)} {c : Client ℝ} (h : Reaches counter ops c)
include h

/-- Each part has one constraint. -/
theorem Reaches.part_one (hu : ((Store.empty ℝ).run ops).Unshared) {comp : Component} (hcomp : comp ∈ c.sys.graph.components) (hne : comp.elements ≠ ∅) :
    ∃ n con, ((Store.empty ℝ).run ops).cons[n]? = some con ∧ ascending comp.constraints = [n] ∧ ∀ i ∈ ((Store.empty ℝ).run ops).actsOn con, i ∈ comp.elements := by
  have hn := hu.neverJoins
  obtain ⟨i, hi⟩ := Finset.nonempty_iff_ne_empty.2 hne
  obtain ⟨l, hl, hil⟩ := h.constrained_of_mem hcomp hi
  obtain ⟨con, hcon, rfl⟩ := List.mem_map.1 hl
  obtain ⟨n, hcn⟩ := List.mem_iff_getElem?.1 hcon
  have hmem : n ∈ comp.constraints := (h.part_constraints hn hcomp n).2 ⟨con, hcn, i, hil, hi⟩
  refine ⟨n, con, hcn, ?_, (C17_linked_together_partial h hn hcomp).2 n hmem con hcn⟩
  have hall : ∀ m ∈ ascending comp.constraints, m = n := by
    intro m hm
    obtain ⟨con', g1, j, g2, g3⟩ := (h.part_constraints hn hcomp m).1 ((mem_ascending _ _).1 hm)
    exact hu.same g1 hcn g2 (hu.linked hcn hil (C17_component_linked h hcomp (.inl hi) (.inl g3)))
  have hnd := ascending_nodup comp.constraints
  have hin := (mem_ascending comp.constraints n).2 hmem
  generalize ascending comp.constraints = l at hall hnd hin
  cases l with
  | nil => simp at hin
  | cons a l =>
    obtain rfl := hall a (by simp)
    cases l with
    | nil => rfl
    | cons b l =>
      obtain rfl := hall b (by simp)
      simp at hnd

omit h in
theorem abs_add_sqrt (a b : ℝ) : √(a ^ 2 + b ^ 2) ≤ |a| + |b| := by
  rw [Real.sqrt_le_left (by positivity)]
  nlinarith [abs_nonneg a, abs_nonneg b, sq_abs a, sq_abs b]

/-- Perturbation leaves points apart that are apart. -/
theorem Reaches.stays_apart (hnz : ((Store.empty ℝ).run ops).NonZero) {opts : SolvingOptions} {comp : Component} {free : Finset Nat} {T : List ℝ} (hT : c.sys.Near opts comp free T) {p q : Nat}
    {x y x' y' : ℝ} (hp : ((Store.empty ℝ).run ops).elems[p]? = some (.point x y)) (hq : ((Store.empty ℝ).run ops).elems[q]? = some (.point x' y')) (hpc : p ∈ comp.elements) (hqc : q ∈ comp.elements)
    (hapart : ((Store.empty ℝ).run ops).Apart opts.perturb p q) :
    0 < (T.getD (off ((Store.empty ℝ).run ops).elems p) 0 - T.getD (off ((Store.empty ℝ).run ops).elems q) 0) ^ 2 +
      (T.getD (off ((Store.empty ℝ).run ops).elems p + 1) 0 - T.getD (off ((Store.empty ℝ).run ops).elems q + 1) 0) ^ 2 := by
  have hr := h.crel.rel
  have hscale := h.scale_pos hnz
  have hat : ∀ {i k : Nat} {e : Elem ℝ} {x : ℝ}, ((Store.empty ℝ).run ops).elems[i]? = some e → (elemValues e)[k]? = some x →
      c.sys.scaledVariables.getD (off ((Store.empty ℝ).run ops).elems i + k) 0 = x * (1 / c.sys.scale) := by
    intro i k e x h1 h2
    rw [System.scaledVariables, List.getD_eq_getElem?_getD, List.getElem?_map, hr.vars, var_at _ h1 (lt_of_getElem? h2), h2]
    rfl
  have hvar : ∀ {i k : Nat} {x y : ℝ}, ((Store.empty ℝ).run ops).elems[i]? = some (.point x y) → i ∈ comp.elements → (k = 0 ∨ k = 1) → c.sys.VarOf comp.elements (off ((Store.empty ℝ).run ops).elems i + k) := by
    intro i k x y h1 h2 h3
    refine ⟨i, h2, _, hr.element_at h1, ?_⟩
    rcases h3 with rfl | rfl <;> simp [encElem, EncodedElement.variableIndices]
  have n1 := hT.near _ (hvar hp hpc (.inl rfl))
  have n2 := hT.near _ (hvar hp hpc (.inr rfl))
  have n3 := hT.near _ (hvar hq hqc (.inl rfl))
  have n4 := hT.near _ (hvar hq hqc (.inr rfl))
  rw [hat hp rfl] at n1 n2
  rw [hat hq rfl] at n3 n4
  simp only [Nat.add_zero] at n1 n3
  have ha := hapart ⟨x, y⟩ ⟨x', y'⟩ (by simp [Geo.PointIs, Store.value, hp]) (by simp [Geo.PointIs, Store.value, hq])
  rw [← hr.scale_size, Complex.dist_eq, sub_mk, ← sqrt_sq_add] at ha
  by_contra hcon
  set t1 := T.getD (off ((Store.empty ℝ).run ops).elems p) 0
  set t2 := T.getD (off ((Store.empty ℝ).run ops).elems p + 1) 0
  set t3 := T.getD (off ((Store.empty ℝ).run ops).elems q) 0
  set t4 := T.getD (off ((Store.empty ℝ).run ops).elems q + 1) 0
  have e1 : t1 = t3 := by nlinarith [sq_nonneg (t1 - t3), sq_nonneg (t2 - t4)]
  have e2 : t2 = t4 := by nlinarith [sq_nonneg (t1 - t3), sq_nonneg (t2 - t4)]
  rw [e1] at n1
  rw [e2] at n2
  set S := c.sys.scale
  have hle : ∀ a : ℝ, opts.reach (a * (1 / S)) * S = if opts.perturb then |a| / 8196 + S / 65568 else 0 := by
    intro a
    unfold SolvingOptions.reach
    split
    · rw [abs_mul, abs_of_pos (show 0 < 1 / S by positivity)]
      field_simp
    · rw [zero_mul]
  have hdiff : ∀ a b t : ℝ, |t - a * (1 / S)| ≤ opts.reach (a * (1 / S)) → |t - b * (1 / S)| ≤ opts.reach (b * (1 / S)) → |a - b| ≤ opts.reach (a * (1 / S)) * S + opts.reach (b * (1 / S)) * S := by
    intro a b t g1 g2
    have g3 : a - b = (-(t - a * (1 / S)) + (t - b * (1 / S))) * S := by field_simp; ring
    rw [g3, abs_mul, abs_of_pos hscale, ← add_mul]
    refine mul_le_mul_of_nonneg_right ?_ hscale.le
    have := abs_add_le (-(t - a * (1 / S))) (t - b * (1 / S))
    rw [abs_neg] at this
    linarith
  have d1 := hdiff x x' t3 n1 n3
  have d2 := hdiff y y' t4 n2 n4
  have d3 := abs_add_sqrt (x - x') (y - y')
  rw [hle, hle] at d1 d2
  have d4 : (x - x') * (x - x') + (y - y') * (y - y') = (x - x') ^ 2 + (y - y') ^ 2 := by ring
  by_cases hp : opts.perturb
  · simp only [hp, if_true] at ha d1 d2
    rw [d4] at ha
    linarith
  · simp only [hp, Bool.false_eq_true, if_false] at ha d1 d2
    rw [d4] at ha
    linarith

omit h in
theorem gap_solved (cast : ℝ → Int) {sort : SortByKey} (hsort : Spec.Sorts sort) {lim : Problem ℝ → List ℝ → R (List ℝ)}
    (hlim : ∀ p x, Settles (fun fuel => levenbergMarquardt p (qrLeastSquares sort (colamdOfStructure cast)) fuel x) (lim p x)) {sub : Subsystem ℝ}
    (hfit : Spec.FitsWorkspace sub.expressions.length sub.freeVariables.length (sub.pattern.length + sub.freeVariables.length)) {P : Fitting} (h1 : sub.problem.Computes P sub.pattern)
    (h3 : P.n = sub.freeVariables.length) (h4 : ∀ x, x.length = sub.freeVariables.length → sub.calculateResiduals x = .ok (P.res x)) {dx dy R : List ℝ → ℝ} {s t : ℝ} (hgap : P.Gap dx dy R s t)
    {x : List ℝ} (hx : x.length = sub.freeVariables.length) (hpos : 0 < dx x ^ 2 + dy x ^ 2) (hR : 0 ≤ R x) (hcost : |√(dx x ^ 2 + dy x ^ 2) - R x| ≤ 10 ^ 40) :
    ∃ x' rs, x'.length = sub.freeVariables.length ∧ lim sub.problem x = .ok x' ∧ sub.calculateResiduals x' = .ok rs ∧ ∀ y ∈ rs, |y| ≤ 1 / 10 ^ 4 := by
  have hx' := hx.trans h3.symm
  have hm : P.m = sub.expressions.length := h1.rows.symm
  obtain ⟨x', k, h5, h6⟩ := C66_lm_returns_outcome h1 (qrColamd_exact cast hsort) (by rw [hm, h3]; exact hfit) hx'
  obtain ⟨h7, h8⟩ := hgap.run ⟨hx', hpos, hR⟩ h5 (by
    rw [Fitting.cost, hgap.res x hx']
    simp only [squares, List.map_cons, List.map_nil, List.sum_cons, List.sum_nil, add_zero]
    calc _ = |√(dx x ^ 2 + dy x ^ 2) - R x| ^ 2 := (sq_abs _).symm
      _ ≤ (10 ^ 40) ^ 2 := pow_le_pow_left₀ (abs_nonneg _) hcost 2
      _ = 10 ^ 80 := by rw [← pow_mul])
  refine ⟨x', P.res x', h7.1.trans h3, ?_, h4 x' (h7.1.trans h3), fun y hy => ?_⟩
  · obtain ⟨k', hk'⟩ := hlim sub.problem x
    rw [← hk' (max k k') (le_max_right _ _)]
    exact h6 _ (le_max_left _ _)
  · refine abs_le_of_sq_le_sq (le_trans ?_ (h8.trans (show (1 : ℝ) / 10 ^ 8 ≤ (1 / 10 ^ 4) ^ 2 by norm_num))) (by positivity)
    rw [Fitting.cost, squares]
    exact List.single_le_sum (by simp only [List.mem_map]; rintro _ ⟨t, -, rfl⟩; positivity) _ (List.mem_map_of_mem hy)

omit h in
theorem Spec.Store.Apart.ne {st : Store ℝ} {perturb : Bool} {p q : Nat} (ha : st.Apart perturb p q) (hp : st.IsPoint p) : p ≠ q := by
  rintro rfl
  obtain ⟨x, y, hp⟩ := hp
  have h1 : Geo.PointIs st p ⟨x, y⟩ := by simp [Geo.PointIs, Store.value, hp]
  have h2 := ha _ _ h1 h1
  rw [dist_self] at h2
  have h3 : 0 ≤ st.size := Real.sqrt_nonneg _
  split at h2
  · have : 0 ≤ (|x| + |y| + |x| + |y|) / 8196 + st.size / 16392 := by positivity
    linarith
  · exact absurd h2 (lt_irrefl _)

set_option maxHeartbeats 800000 in
/-- Every part is solved. -/
theorem Reaches.attainable_part (hnz : ((Store.empty ℝ).run ops).NonZero) (hu : ((Store.empty ℝ).run ops).Unshared) (hshort : ops.length < 2 ^ 24) (cast : ℝ → Int) {sort : SortByKey}
    (hsort : Spec.Sorts sort) {lim : Problem ℝ → List ℝ → R (List ℝ)} (hlim : ∀ p x, Settles (fun fuel => levenbergMarquardt p (qrLeastSquares sort (colamdOfStructure cast)) fuel x) (lim p x))
    {opt : Optimize ℝ} (hopt : opt .levenbergMarquardt = lim) {opts : SolvingOptions} (ho : opts.optimizer = .levenbergMarquardt)
    (hat : ∀ con ∈ ((Store.empty ℝ).run ops).cons, ((Store.empty ℝ).run ops).Attainable opts.perturb con) {comp : Component} (hcomp : comp ∈ c.sys.graph.components) (hne : comp.elements ≠ ∅) :
    c.sys.PartSolved opt opts (1 / 10 ^ 4) comp := by
  intro free es T values h1 h4 hT h5
  have hr := h.crel.rel
  have hscale := h.scale_pos hnz
  obtain ⟨n, con, hcn, hasc, hin⟩ := h.part_one hu hcomp hne
  have hcon := List.mem_of_getElem? hcn
  have hok0 := hr.wfCon con hcon
  have hat := hat con hcon
  rw [hasc, List.mapM_cons, bind_eq_ok] at h4
  obtain ⟨l, h6, h4⟩ := h4
  rw [bind_eq_ok] at h4
  obtain ⟨ls, h7, h4⟩ := h4
  cases h7
  cases h4
  rw [System.constraintExpressions, idx_of (hr.constraint_at hcn), ok_bind] at h6
  set id := ((((Store.empty ℝ).run ops).cons.take n).flatMap (encCon ((Store.empty ℝ).run ops).elems)).length with hid
  have hes : ConstraintTag.valency con.kind = 1 → [l].flatten = [id] := by
    intro hv
    cases h6
    simp [hv]
  have hf' : ∀ v ∈ ascending free, v < c.sys.vars.length := fun v hv => by rw [hr.vars]; exact h.free_lt h1 v hv
  have hk : (ascending free).length ≤ c.sys.vars.length := length_le_of_lt (ascending_nodup _) hf'
  obtain ⟨values', q1, hvl⟩ := mapM_idx_ok (l := T) (is := ascending free) (by rw [hT.length]; exact hf')
  rw [h5] at q1
  cases q1
  have hidlt : ∀ e, (encCon ((Store.empty ℝ).run ops).elems con) = [e] → id < c.sys.expressions.length ∧ c.sys.scaledExpressions[id]? = some (e.transform (1 / c.sys.scale)) ∧ e ∈ c.sys.expressions := by
    intro e he
    have g1 := hr.expression_at hcn (j := 0) (by simp [he])
    rw [he, Nat.add_zero, List.getElem?_cons_zero] at g1
    refine ⟨lt_of_getElem? g1, ?_, List.mem_of_getElem? g1⟩
    rw [System.scaledExpressions, List.getElem?_map, g1]
    rfl
  have hsub : ∀ e, (encCon ((Store.empty ℝ).run ops).elems con) = [e] → ConstraintTag.valency con.kind = 1 →
      (⟨T, c.sys.scaledExpressions, [l].flatten, ascending free⟩ : Subsystem ℝ).Ok ∧ Spec.FitsWorkspace [l].flatten.length (ascending free).length
        ((⟨T, c.sys.scaledExpressions, [l].flatten, ascending free⟩ : Subsystem ℝ).pattern.length + (ascending free).length) := by
    intro e he hv
    obtain ⟨g1, g2, -⟩ := hidlt e he
    have g3 : ∀ i ∈ [l].flatten, i < c.sys.expressions.length := by
      rw [hes hv]
      simpa using g1
    refine ⟨?_, h.fits hshort _ _ _ ?_ hk (Subsystem.size_le _)⟩
    · intro i hi
      show ∃ e, c.sys.scaledExpressions[i]? = some e ∧ ∀ v ∈ e.variableIndices, v < T.length
      rw [hT.length]
      exact h.exprsOk g3 i hi
    · rw [hes hv]
      simp only [List.length_cons, List.length_nil]
      omega
  have hbig : ((c.sys.vars.length + c.sys.expressions.length : ℕ) : ℝ) ≤ 10 ^ 10 := by
    obtain ⟨hsize1, hsize2⟩ := run_size (Store.empty ℝ) ops h.legal
    have hsize3 : (Store.empty ℝ).elems.length = 0 := rfl
    have hsize4 : (Store.empty ℝ).cons.length = 0 := rfl
    have hvl := hr.vars_length_le
    have hel := hr.exprs_length_le
    have : c.sys.vars.length + c.sys.expressions.length ≤ 10 ^ 10 := by omega
    exact_mod_cast this
  have hTbound : ∀ v, c.sys.VarOf comp.elements v → |T.getD v 0| ≤ 3 * 10 ^ 10 := by
    intro v hv
    have g1 := hT.near v hv
    have g2 := scaled_bound c.sys hscale v
    have g3 : opts.reach (c.sys.scaledVariables.getD v 0) ≤ |c.sys.scaledVariables.getD v 0| + 1 := by
      unfold SolvingOptions.reach
      split
      · linarith [abs_nonneg (c.sys.scaledVariables.getD v 0)]
      · positivity
    have g4 := abs_sub_abs_le_abs_sub (T.getD v 0) (c.sys.scaledVariables.getD v 0)
    linarith
  have hstart : ∀ v, (⟨T, c.sys.scaledExpressions, [l].flatten, ascending free⟩ : Subsystem ℝ).valueOf values v = T.getD v 0 := valueOf_start h5
  have hvar : ∀ {i k : Nat} {x y : ℝ}, ((Store.empty ℝ).run ops).elems[i]? = some (.point x y) → i ∈ comp.elements → (k = 0 ∨ k = 1) → c.sys.VarOf comp.elements (off ((Store.empty ℝ).run ops).elems i + k) := by
    intro i k x y h1 h2 h3
    refine ⟨i, h2, _, hr.element_at h1, ?_⟩
    rcases h3 with rfl | rfl <;> simp [encElem, EncodedElement.variableIndices]
  have hfree : ∀ {i k : Nat} {e : Elem ℝ}, ((Store.empty ℝ).run ops).elems[i]? = some e → k < (elemValues e).length → i ∈ comp.elements →
      (off ((Store.empty ℝ).run ops).elems i + k ∈ ascending free ↔ i ∉ ((Store.empty ℝ).run ops).fixed) := by
    intro i k e g1 g2 g3
    rw [mem_ascending, h.free_iff hcomp h1 g1 g2]
    exact and_iff_right g3
  have hlen : ∀ {p q : Nat} {x y x' y' R : ℝ}, ((Store.empty ℝ).run ops).elems[p]? = some (.point x y) → ((Store.empty ℝ).run ops).elems[q]? = some (.point x' y') → p ∈ comp.elements → q ∈ comp.elements →
      |R| ≤ 10 ^ 30 → |√((T.getD (off ((Store.empty ℝ).run ops).elems p) 0 - T.getD (off ((Store.empty ℝ).run ops).elems q) 0) ^ 2 +
        (T.getD (off ((Store.empty ℝ).run ops).elems p + 1) 0 - T.getD (off ((Store.empty ℝ).run ops).elems q + 1) 0) ^ 2) - R| ≤ 10 ^ 40 := by
    intro p q x y x' y' R hp hq hpc hqc hR
    have g1 := hTbound _ (hvar hp hpc (.inl rfl))
    have g2 := hTbound _ (hvar hp hpc (.inr rfl))
    have g3 := hTbound _ (hvar hq hqc (.inl rfl))
    have g4 := hTbound _ (hvar hq hqc (.inr rfl))
    simp only [Nat.add_zero] at g1 g3
    have g5 := abs_add_sqrt (T.getD (off ((Store.empty ℝ).run ops).elems p) 0 - T.getD (off ((Store.empty ℝ).run ops).elems q) 0)
      (T.getD (off ((Store.empty ℝ).run ops).elems p + 1) 0 - T.getD (off ((Store.empty ℝ).run ops).elems q + 1) 0)
    have g6 := abs_sub (T.getD (off ((Store.empty ℝ).run ops).elems p) 0) (T.getD (off ((Store.empty ℝ).run ops).elems q) 0)
    have g7 := abs_sub (T.getD (off ((Store.empty ℝ).run ops).elems p + 1) 0) (T.getD (off ((Store.empty ℝ).run ops).elems q + 1) 0)
    refine (abs_sub _ _).trans ?_
    rw [abs_of_nonneg (Real.sqrt_nonneg _)]
    have g8 : (12 : ℝ) * 10 ^ 10 + 10 ^ 30 ≤ 10 ^ 40 := by norm_num
    linarith
  cases con with
  | pointPointDistance p q d =>
    obtain ⟨⟨x, y, hp⟩, ⟨x', y', hq⟩⟩ := hok0
    obtain ⟨hd0, hap, hnf⟩ := hat
    have hpc := hin p (by simp [Store.actsOn])
    have hqc := hin q (by simp [Store.actsOn])
    obtain ⟨hok, hfit⟩ := hsub _ rfl rfl
    obtain ⟨-, g2, g3⟩ := hidlt _ rfl
    have hnd := encCon_nodup hr (con := .pointPointDistance p q d) ⟨⟨x, y, hp⟩, ⟨x', y', hq⟩⟩ (by simp [Store.pointsOf, hap.ne ⟨x, y, hp⟩]) _ (List.mem_singleton.2 rfl)
    have fp0 := hfree (k := 0) hp (by simp [elemValues]) hpc
    have fp1 := hfree (k := 1) hp (by simp [elemValues]) hpc
    have fq0 := hfree (k := 0) hq (by simp [elemValues]) hqc
    have fq1 := hfree (k := 1) hq (by simp [elemValues]) hqc
    rw [Nat.add_zero] at fp0 fq0
    obtain ⟨P, p1, p2, p3, p4, p5⟩ := hok.distance_gap (hes rfl) g2 hnd (fp0.trans fp1.symm) (fq0.trans fq1.symm) (by
      rw [fp0, fq0]
      tauto)
    rw [ho, hopt]
    refine gap_solved cast hsort hlim hfit p1 p3 p4 p5 hvl ?_ ?_ ?_
    · simp only [hstart]
      exact h.stays_apart hnz hT hp hq hpc hqc hap
    · exact mul_nonneg (by positivity) hd0
    · simp only [hstart]
      refine hlen hp hq hpc hqc ?_
      have := number_bound c.sys hscale (x := d) (List.mem_append_right _ (List.mem_filterMap.2 ⟨_, g3, rfl⟩))
      rw [mul_comm]
      refine (this.trans hbig).trans (by norm_num)
  | pointCircleIncidence p ci =>
    obtain ⟨hpp, hci⟩ := hok0
    obtain ⟨q, r, hc1, hc2, hc3, hc4, -⟩ := hr.circle hci
    obtain ⟨hap, hrad, hnf⟩ := hat q r hc1
    have hne' := hap.ne hpp
    obtain ⟨x, y, hp⟩ := hpp.imp fun _ h => h
    obtain ⟨x', y', hq⟩ := hc2.imp fun _ h => h
    obtain ⟨ρ, hρ⟩ := hc3.imp fun _ h => h
    have hpc := hin p (by simp [Store.actsOn])
    have hqc := hin q (by simp [Store.actsOn, Store.circleParts, hc1])
    have hrc := hin r (by simp [Store.actsOn, Store.circleParts, hc1])
    have henc : encCon ((Store.empty ℝ).run ops).elems (.pointCircleIncidence p ci) =
        [.pointCircleIncidence (off ((Store.empty ℝ).run ops).elems p) (off ((Store.empty ℝ).run ops).elems q) (off ((Store.empty ℝ).run ops).elems r)] := by
      simp only [encCon, circOff, hc1]
    obtain ⟨hok, hfit⟩ := hsub _ henc rfl
    obtain ⟨-, g2, g3⟩ := hidlt _ henc
    have hnd := encCon_nodup hr (con := .pointCircleIncidence p ci) ⟨hpp, hci⟩ (by simp [Store.pointsOf, Store.centre, hc1, hne']) _ (by rw [henc]; exact List.mem_singleton.2 rfl)
    have fp0 := hfree (k := 0) hp (by simp [elemValues]) hpc
    have fp1 := hfree (k := 1) hp (by simp [elemValues]) hpc
    have fq0 := hfree (k := 0) hq (by simp [elemValues]) hqc
    have fq1 := hfree (k := 1) hq (by simp [elemValues]) hqc
    have fr0 := hfree (k := 0) hρ (by simp [elemValues]) hrc
    rw [Nat.add_zero] at fp0 fq0 fr0
    have hvr : c.sys.VarOf comp.elements (off ((Store.empty ℝ).run ops).elems r) := ⟨r, hrc, _, hr.element_at hρ, by simp [encElem, EncodedElement.variableIndices]⟩
    obtain ⟨P, p1, p2, p3, p4, p5⟩ := hok.circle_gap (hes rfl) g2 hnd (fp0.trans fp1.symm) (fq0.trans fq1.symm) (by
      rw [fp0, fq0, fr0]
      tauto)
    rw [ho, hopt]
    refine gap_solved cast hsort hlim hfit p1 p3 p4 p5 hvl ?_ ?_ ?_
    · simp only [hstart]
      exact h.stays_apart hnz hT hp hq hpc hqc hap
    · simp only [hstart]
      refine hT.sign _ hvr ?_
      have h8 : c.sys.scaledVariables.getD (off ((Store.empty ℝ).run ops).elems r + 0) 0 = ρ * (1 / c.sys.scale) := by
        rw [System.scaledVariables, List.getD_eq_getElem?_getD, List.getElem?_map, hr.vars, var_at _ hρ (by simp [elemValues])]
        rfl
      rw [Nat.add_zero] at h8
      rw [h8]
      exact mul_nonneg (hrad ρ hρ) (by positivity)
    · simp only [hstart]
      exact hlen hp hq hpc hqc ((hTbound _ hvr).trans (by norm_num))
  | _ => exact hat.elim

/-- C76: after any legal history (of fewer than 2²⁴ calls) in which no point or length is in two constraints, all constraints are distances of points or points on circles, and the points of each are apart,
`solve` with `Decomposer::None` and Levenberg–Marquardt (with the sparse QR of the crates) returns, and every constraint holds up to `10⁻⁴` in units of the scale of the system. -/
theorem C76_lengths_solved_partial (hnz : ((Store.empty ℝ).run ops).NonZero) (hu : ((Store.empty ℝ).run ops).Unshared) (hshort : ops.length < 2 ^ 24) (cast : ℝ → Int) {sort : SortByKey}
    (hsort : Spec.Sorts sort) {ord : HashOrder} (hord : ord.Ok) {opts : SolvingOptions} (hd : opts.decomposer = .none) (ho : opts.optimizer = .levenbergMarquardt)
    (hat : ∀ con ∈ ((Store.empty ℝ).run ops).cons, ((Store.empty ℝ).run ops).Attainable opts.perturb con) :
    ∃ s' k, (∀ fuel, k ≤ fuel → c.sys.solve (crateOptimize (qrLeastSquares sort (colamdOfStructure cast)) fuel) ord opts = .ok s') ∧
      ∀ (n : Nat) hdl con, c.conHandles[n]? = some hdl → ((Store.empty ℝ).run ops).cons[n]? = some con →
        ∃ r, s'.calculateResidual con.kind hdl = .ok r ∧ |r| ≤ c.sys.scale / 10 ^ 4 := by
  have hkeeps := fun (p : Problem ℝ) x => levenbergMarquardt_keeps p (qrLeastSquares sort (colamdOfStructure cast)) x
  choose lim hlim using fun p x => (hkeeps p x).settles
  let opt : Optimize ℝ := fun o p x => match o with | .levenbergMarquardt => lim p x | .lBfgs => .ok x
  obtain ⟨s', h1⟩ := h.parts_solved (opt := opt) (ord := ord) hd fun comp hcomp hne => h.attainable_part hnz hu hshort cast hsort hlim rfl ho hat hcomp hne
  obtain ⟨h2, h3⟩ := C62_all_calls_succeed_partial h hnz hu.neverJoins (by norm_num) hord hd h1
  obtain ⟨k, hk⟩ := solve_settles (fam := crateOptimize (qrLeastSquares sort (colamdOfStructure cast))) (opts := opts)
    (lim := opt) (by rw [ho]; exact hlim) (fun hr => absurd hr (by rw [hd]; simp)) ord c.sys
  refine ⟨s', k, fun fuel hf => by rw [← h2]; exact hk fuel hf, fun n hdl con h4 h5 => ?_⟩
  obtain ⟨r, h6, h7⟩ := h3 n hdl con h4 h5
  refine ⟨r, h6, h7.trans (le_of_eq ?_)⟩
  have hat := hat con (List.mem_of_getElem? h5)
  cases con with
  | pointPointDistance p q d => simp [Spec.Con.lengthPower, Spec.Con.equations, div_eq_mul_inv]
  | pointCircleIncidence p q => simp [Spec.Con.lengthPower, Spec.Con.equations, div_eq_mul_inv]
  | _ => exact hat.elim

end

theorem apart_of {st : Store ℝ} {p q : Nat} {x y x' y' : ℝ} (hp : st.elems[p]? = some (.point x y)) (hq : st.elems[q]? = some (.point x' y')) (perturb : Bool) (hs : st.size ≤ 4)
    (h1 : |x| + |y| + |x'| + |y'| ≤ 100) (h2 : 1 ≤ (x - x') ^ 2 + (y - y') ^ 2) : st.Apart perturb p q := by
  intro P Q hP hQ
  simp only [Geo.PointIs, Store.value, hp, hq, Option.some.injEq, ElementValue.point.injEq] at hP hQ
  have h3 : 1 ≤ dist P Q := by
    rw [Complex.dist_eq_re_im, ← hP.1, ← hP.2, ← hQ.1, ← hQ.2]
    exact Real.one_le_sqrt.2 h2
  split
  · rw [← hP.1, ← hP.2, ← hQ.1, ← hQ.2]
    linarith
  · linarith

/-- Two points with a distance, and a point on a circle. -/
noncomputable def looseOps : List (Op ℝ) :=
  [.createPoint 0 0, .createPoint 3 4, .createPoint 5 0, .createPoint 6 1, .createLength 2, .createCircle 3 4, .createCon (.pointPointDistance 0 1 2), .createCon (.pointCircleIncidence 2 5)]

/-- The hypotheses of `C76_lengths_solved_partial` are met with and without perturbation. -/
example (perturb : Bool) : ∃ c, Reaches 0 looseOps c ∧ ((Store.empty ℝ).run looseOps).NonZero ∧ ((Store.empty ℝ).run looseOps).Unshared ∧ looseOps.length < 2 ^ 24 ∧
    ∀ con ∈ ((Store.empty ℝ).run looseOps).cons, ((Store.empty ℝ).run looseOps).Attainable perturb con := by
  obtain ⟨c, h⟩ := exists_reaches 0 looseOps (by
    simp [looseOps, Store.LegalRun, Store.Legal, Store.empty, Store.step, Store.IsPoint, Store.IsLength, Store.IsCircle, Store.ConOk]) (by simp [looseOps])
  have hc : ((Store.empty ℝ).run looseOps).cons = [.pointPointDistance 0 1 2, .pointCircleIncidence 2 5] := rfl
  have he : ((Store.empty ℝ).run looseOps).elems = [.point 0 0, .point 3 4, .point 5 0, .point 6 1, .length 2, .circle 3 4] := rfl
  have hf : ((Store.empty ℝ).run looseOps).fixed = ∅ := rfl
  have hsize : ((Store.empty ℝ).run looseOps).size ≤ 4 := by
    unfold Store.size Store.numbers
    rw [hc, he]
    rw [Real.sqrt_le_left (by norm_num)]
    simp [Elem.numbers, Spec.Con.distance, List.filterMap_cons]
    norm_num
  refine ⟨c, h, ⟨.point 3 4, by simp [looseOps, Store.run, Store.empty, Store.step], .inl ⟨3, 4, rfl, .inl (by norm_num)⟩⟩, ?_, by simp [looseOps], ?_⟩
  · unfold Store.Unshared
    rw [hc]
    simp [Store.actsOn, Store.circleParts, he]
  · rw [hc]
    simp only [List.mem_cons, List.not_mem_nil, or_false]
    rintro con (rfl | rfl)
    · refine ⟨by norm_num, apart_of (x := 0) (y := 0) (x' := 3) (y' := 4) (by rw [he]; rfl) (by rw [he]; rfl) _ hsize (by norm_num) (by norm_num), by simp [hf]⟩
    · intro q r hqr
      rw [he] at hqr
      cases hqr
      refine ⟨apart_of (x := 5) (y := 0) (x' := 6) (y' := 1) (by rw [he]; rfl) (by rw [he]; rfl) _ hsize (by norm_num) (by norm_num), ?_, by simp [hf]⟩
      intro ρ hρ
      rw [he] at hρ
      cases hρ
      norm_num

/-- C76 does not hold for distances that share a point, even if the points of each are apart and all can hold at once: two fixed points and a third one between them that is asked to be further away from both. -/
theorem C76_shared_point_unsolved : ∃ c, Reaches 0 stuckOps c ∧ ((Store.empty ℝ).run stuckOps).NonZero ∧
    (∀ con ∈ ((Store.empty ℝ).run stuckOps).cons, ((Store.empty ℝ).run stuckOps).Attainable false con) ∧
    (∃ c', Reaches 0 (stuckOps ++ [.updatePoint 2 0 (√(28 / 25))]) c' ∧ c'.sys.calculateResidual .pointPointDistance ⟨0, 0⟩ = .ok 0 ∧ c'.sys.calculateResidual .pointPointDistance ⟨0, 1⟩ = .ok 0) ∧
    ∀ (ls : LeastSquares ℝ) (_ : ls.Exact (fun _ _ _ => True)) (fuel : Nat) (ord : HashOrder) (s' : System ℝ),
      c.sys.solve (crateOptimize ls fuel) ord ⟨.levenbergMarquardt, .none, false⟩ = .ok s' →
      s'.calculateResidual .pointPointDistance ⟨0, 0⟩ = .ok (-2 / 5) ∧ s'.calculateResidual .pointPointDistance ⟨0, 1⟩ = .ok (-2 / 5) := by
  obtain ⟨c, h, h1, h2⟩ := C66_stuck
  refine ⟨c, h, ⟨.point (6 / 5) 0, by simp [stuckOps, Store.run, Store.empty, Store.step], .inl ⟨6 / 5, 0, rfl, .inl (by norm_num)⟩⟩, ?_, h1, fun ls hls fuel ord s' hs => (h2 ls hls fuel ord s' hs).2⟩
  have hc : ((Store.empty ℝ).run stuckOps).cons = [.pointPointDistance 0 2 (8 / 5), .pointPointDistance 1 2 (8 / 5)] := rfl
  have he : ((Store.empty ℝ).run stuckOps).elems = [.point (-6 / 5) 0, .point (6 / 5) 0, .point 0 0] := rfl
  have hf : 2 ∉ ((Store.empty ℝ).run stuckOps).fixed := by simp [stuckOps, Store.run, Store.empty, Store.step, Store.primitives]
  have hsize : ((Store.empty ℝ).run stuckOps).size ≤ 4 := by
    unfold Store.size Store.numbers
    rw [hc, he, Real.sqrt_le_left (by norm_num)]
    simp [Elem.numbers, Spec.Con.distance]
    norm_num
  rw [hc]
  simp only [List.mem_cons, List.not_mem_nil, or_false]
  rintro con (rfl | rfl)
  · exact ⟨by norm_num, apart_of (x := -6 / 5) (y := 0) (x' := 0) (y' := 0) (by rw [he]; rfl) (by rw [he]; rfl) _ hsize (by norm_num [abs_div]) (by norm_num), fun hh => hf hh.2⟩
  · exact ⟨by norm_num, apart_of (x := 6 / 5) (y := 0) (x' := 0) (y' := 0) (by rw [he]; rfl) (by rw [he]; rfl) _ hsize (by norm_num [abs_div]) (by norm_num), fun hh => hf hh.2⟩

end Fiksi
