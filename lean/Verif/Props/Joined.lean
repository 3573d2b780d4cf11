import Verif.Props.Centroid
/-!
# C81, C86: where a constraint joins parts that were separate

A constraint that is added after two constrained parts have been joined can land in a component of its own with only some of its points (`C17_joined_parts_fall_apart`); its other points are taken to be where
they were before the call.
-/
namespace Fiksi
open Spec

/-- The two calls of `Decomposer::None` for two components and an empty one between them, in the unit 1. -/
theorem two_wholes {c : Client ℝ} {V : List ℝ} {E : List (Expr ℝ)} (hv : c.sys.scaledVariables = V) (hv' : c.sys.vars = V) (he : c.sys.scaledExpressions = E) (hsc : c.sys.scale = 1)
    {el1 co1 el2 co2 f1 f2 : Finset Nat} (hne1 : el1 ≠ ∅) (hne2 : el2 ≠ ∅) (hcomp : c.sys.graph.components = [⟨el1, co1⟩, ⟨∅, ∅⟩, ⟨el2, co2⟩])
    (hf1 : c.sys.freeVariables el1 = .ok f1) (hf2 : c.sys.freeVariables el2 = .ok f2) {opt : Optimize ℝ} {ord : HashOrder} {s' : System ℝ}
    (hs : c.sys.solve opt ord ⟨.levenbergMarquardt, .none, false⟩ = .ok s') :
    ∃ st1 st2, solveWhole opt ⟨.levenbergMarquardt, .none, false⟩ c.sys 1 E co1 f1 ⟨V, V, 42, []⟩ = .ok st1 ∧
      solveWhole opt ⟨.levenbergMarquardt, .none, false⟩ c.sys 1 E co2 f2 st1 = .ok st2 ∧ s' = { c.sys with vars := st2.vars } := by
  unfold System.solve System.solveLoop at hs
  rw [hcomp, hv, he, hsc, hv'] at hs
  simp only [List.zipIdx_cons, List.zipIdx_nil, List.foldlM_cons, List.foldlM_nil, bind_eq_ok] at hs
  obtain ⟨st, ⟨st1, h1, st0, h0, st2, h2, hs2⟩, hs3⟩ := hs
  cases hs2
  cases hs3
  unfold solveComponent at h0 h1 h2
  rw [if_pos rfl] at h0
  cases h0
  rw [if_neg hne1, hf1, ok_bind, still, ok_bind] at h1
  rw [if_neg hne2, hf2, ok_bind, still, ok_bind] at h2
  exact ⟨st1, st, h1, h2, rfl⟩

/-- A call for coincidences that can be met: each equation holds afterwards, up to 1/1000. -/
theorem whole_equalities (cast : ℝ → Int) {sort : SortByKey} (hsort : Spec.Sorts sort) {opts : SolvingOptions} (ho : opts.optimizer = .levenbergMarquardt) {s : System ℝ} {E : List (Expr ℝ)}
    {co free : Finset Nat} {T : List ℝ} {es : List (List Nat)} (hes : (ascending co).mapM s.constraintExpressions = .ok es)
    (hok : Subsystem.Ok ⟨T, E, es.flatten, ascending free⟩)
    (hfit : ∀ k, k ≤ 8 * es.flatten.length + free.card → Spec.FitsWorkspace es.flatten.length free.card k) {fst snd : Nat → Nat}
    (heq : ∀ (r id : Nat), es.flatten[r]? = some id → E[id]? = some (Expr.variableVariableEquality (fst r) (snd r))) {sol : Nat → ℝ}
    (hsol : ∀ r < es.flatten.length, sol (fst r) = sol (snd r) ∧ ∀ v, (v = fst r ∨ v = snd r) → v ∉ free → T.getD v 0 = sol v)
    (hcard : free.card ≤ 10) (hm : es.flatten.length ≤ 10) (hb : ∀ v, |T.getD v 0| ≤ 10 ^ 100) :
    ∃ k, ∀ fuel, k ≤ fuel → ∀ st st', st.transformed = T → solveWhole (crateOptimize (qrLeastSquares sort (colamdOfStructure cast)) fuel) opts s 1 E co free st = .ok st' →
      st'.transformed = st.transformed ∧ st'.vars.length = st.vars.length ∧ (∀ v, v ∉ free → st'.vars[v]? = st.vars[v]?) ∧ ∃ y : Nat → ℝ, (∀ v, v ∉ free → y v = st.transformed.getD v 0) ∧ (∀ v ∈ free, st'.vars[v]? = some (y v)) ∧
        ∀ r < es.flatten.length, |y (snd r) - y (fst r)| ≤ 1 / 1000 := by
  cases hx : (ascending free).mapM (idx T) with
  | error e =>
    refine ⟨0, fun fuel _ st st' hT h => ?_⟩
    simp only [solveWhole, hT, hx, bind_eq_ok] at h
    obtain ⟨_, h, -⟩ := h
    cases h
  | ok x =>
    have hlen : x.length = (ascending free).length := (mapM_forall hx).length_eq.symm
    have hal : (ascending free).length = free.card := ascending_length _
    obtain ⟨x', h1, ⟨k, h2⟩, rs, h3, h4⟩ := lm_equalities cast hsort hok (by
        have := Subsystem.size_le (⟨T, E, es.flatten, ascending free⟩ : Subsystem ℝ)
        change _ + (ascending free).length ≤ 8 * es.flatten.length + (ascending free).length at this
        show Spec.FitsWorkspace es.flatten.length (ascending free).length (_ + (ascending free).length)
        rw [hal] at this ⊢
        exact hfit _ this) heq (sol := sol)
      (fun r hr => ⟨(hsol r hr).1, fun v hv hvf => (hsol r hr).2 v hv fun hc => hvf ((mem_ascending _ _).2 hc)⟩) (K := 10) (by norm_num) (by norm_num)
      (by show ((ascending free).length : ℝ) ≤ 10; rw [hal]; exact_mod_cast hcard) (by show es.flatten.length ≤ 1000; omega) (x := x) hlen
      (fun r _ v _ => by rw [valueOf_start hx]; exact hb v) (ε := 1 / 1000) (by norm_num) (by
        have : ((es.flatten.length : ℕ) : ℝ) ≤ 10 := by exact_mod_cast hm
        refine max_le (by norm_num) ?_
        show Fitting.tinyCost (1 / 10 ^ 2) (4 * (es.flatten.length : ℝ)) ≤ _
        rw [Fitting.tinyCost, div_le_iff₀ (by positivity), show (1 : ℝ) / (4 * (1 / 10 ^ 2)) = 25 by norm_num, show ((1 : ℝ) / 1000) ^ 2 * 10 ^ 12 = 10 ^ 6 by norm_num]
        linarith)
    refine ⟨k, fun fuel hf st st' hT h => ?_⟩
    have hspec := (solveWhole_spec h).1
    simp only [solveWhole, hT, hx, hes, ho, ok_bind, bind_eq_ok] at h
    obtain ⟨values', h5, vars, h6, h7⟩ := h
    cases h7
    rw [show crateOptimize (qrLeastSquares sort (colamdOfStructure cast)) fuel .levenbergMarquardt (⟨T, E, es.flatten, ascending free⟩ : Subsystem ℝ).problem x = .ok x' from h2 fuel hf] at h5
    cases h5
    refine ⟨hT.symm, hspec.vars.1, hspec.vars.2, (⟨T, E, es.flatten, ascending free⟩ : Subsystem ℝ).valueOf x', fun v hv => ?_, fun v hv => ?_, fun r hr => ?_⟩
    · have : (ascending free).idxOf? v = none := List.idxOf?_eq_none_iff.2 fun hc => hv ((mem_ascending _ _).1 hc)
      simp only [Subsystem.valueOf, this, hT]
    · obtain ⟨j, hj⟩ := List.mem_iff_getElem?.1 ((mem_ascending _ _).2 hv)
      obtain ⟨y, h8, h9⟩ := writeVars_values (zipIdx_fst_nodup (ascending_nodup _)) h6 (v, j) (List.mem_zipIdx_iff_getElem?.2 hj)
      simp only [one_mul] at h8 h9
      show vars[v]? = _
      rw [h9]
      congr 1
      have : (ascending free).idxOf? v = some j := by
        obtain ⟨hlt, rfl⟩ := List.getElem?_eq_some_iff.1 hj
        refine List.idxOf?_eq_some_iff.2 ⟨hlt, rfl, fun i hi hc => ?_⟩
        have := (List.Nodup.getElem_inj_iff (ascending_nodup _)).1 hc
        omega
      simp only [Subsystem.valueOf, this]
      rw [List.getD_eq_getElem?_getD, h8, Option.getD_some]
    · obtain ⟨rs', h8, h9, h10⟩ := residuals_total hok h1
      rw [h3] at h8
      cases h8
      have hid := List.getElem?_eq_getElem hr
      obtain ⟨q, h11, h12⟩ := h10 r _ _ hid (heq r _ hid)
      rw [← equality_residual h11]
      exact h4 _ (List.mem_of_getElem? h12)

/-- Three fixed points in the origin and two points 2 to the right and 1 above, which shall coincide (this is said twice); one of them shall coincide with the fixed points. The fixed points are joined after
this point has been tied to one of them. -/
noncomputable def lagOps : List (Op ℝ) :=
  [.createPoint 0 0, .createPoint 0 0, .createPoint 0 0, .createPoint 2 1, .createPoint 2 1, .fix .point 0, .fix .point 1, .fix .point 2,
    .createCon (.pointPointCoincidence 0 1), .createCon (.pointPointCoincidence 2 3), .createCon (.pointPointCoincidence 1 2), .createCon (.pointPointCoincidence 3 4), .createCon (.pointPointCoincidence 3 4)]

theorem lag_sys {c : Client ℝ} (h : Reaches 0 lagOps c) : c.sys.graph.components = [⟨{0, 1, 2, 3}, {0, 1, 2}⟩, ⟨∅, ∅⟩, ⟨{4}, {3, 4}⟩] ∧
    c.sys.freeVariables {0, 1, 2, 3} = .ok {6, 7} ∧ c.sys.freeVariables {4} = .ok {8, 9} ∧
    (ascending {0, 1, 2}).mapM c.sys.constraintExpressions = .ok [[0, 1], [2, 3], [4, 5]] ∧ (ascending {3, 4}).mapM c.sys.constraintExpressions = .ok [[6, 7], [8, 9]] := by
  have h1 : okAnd ((Client.new ℝ 0).run lagOps) (fun c => c.sys.graph.components.map (fun k => (k.elements, k.constraints)) = [({0, 1, 2, 3}, {0, 1, 2}), (∅, ∅), ({4}, {3, 4})]) = true := by decide +kernel
  have h2 : okAnd ((Client.new ℝ 0).run lagOps) (fun c => okAnd (c.sys.freeVariables {0, 1, 2, 3}) (fun l => l = {6, 7})) = true := by decide +kernel
  have h3 : okAnd ((Client.new ℝ 0).run lagOps) (fun c => okAnd (c.sys.freeVariables {4}) (fun l => l = {8, 9})) = true := by decide +kernel
  have h4 : okAnd ((Client.new ℝ 0).run lagOps) (fun c => okAnd ((ascending {0, 1, 2}).mapM c.sys.constraintExpressions) (fun l => l = [[0, 1], [2, 3], [4, 5]])) = true := by decide +kernel
  have h5 : okAnd ((Client.new ℝ 0).run lagOps) (fun c => okAnd ((ascending {3, 4}).mapM c.sys.constraintExpressions) (fun l => l = [[6, 7], [8, 9]])) = true := by decide +kernel
  rw [h.run] at h1 h2 h3 h4 h5
  have key : ∀ {α : Type} [DecidableEq α] {x : R α} {a : α}, okAnd x (fun l => l = a) = true → x = .ok a := by
    intro α _ x a hx
    cases x with
    | error e => cases hx
    | ok b => exact congrArg _ (of_decide_eq_true hx)
  exact ⟨components_of_pairs (of_decide_eq_true h1), key h2, key h3, key h4, key h5⟩

/-- A call for equations that hold writes the values that the solver has. -/
theorem whole_rests {optimize : Optimize ℝ} (hk : optimize.KeepsSolutions) {opts : SolvingOptions} {s : System ℝ} {E : List (Expr ℝ)} {co free : Finset Nat} {st st' : SolveState ℝ} {es : List (List Nat)}
    (hes : (ascending co).mapM s.constraintExpressions = .ok es)
    (hz : ∀ i ∈ es.flatten, ∀ e, E[i]? = some e → ∀ r, e.calculateResidual (identityMap st.transformed) = .ok r → r = 0)
    (h : solveWhole optimize opts s 1 E co free st = .ok st') :
    st'.transformed = st.transformed ∧ st'.vars.length = st.vars.length ∧ (∀ v, v ∉ free → st'.vars[v]? = st.vars[v]?) ∧ ∀ v ∈ free, st'.vars[v]? = st.transformed[v]? := by
  have hspec := (solveWhole_spec h).1
  simp only [solveWhole, hes, ok_bind, bind_eq_ok] at h
  obtain ⟨values, h1, values', h5, vars, h6, h7⟩ := h
  cases h7
  have h8 := subsystem_rests_on hk hz h1 h5
  subst h8
  refine ⟨rfl, hspec.vars.1, hspec.vars.2, fun v hv => ?_⟩
  obtain ⟨j, hj⟩ := List.mem_iff_getElem?.1 ((mem_ascending _ _).2 hv)
  obtain ⟨y, h9, h10⟩ := writeVars_values (zipIdx_fst_nodup (ascending_nodup _)) h6 (v, j) (List.mem_zipIdx_iff_getElem?.2 hj)
  obtain ⟨z, h11, h12⟩ := mapM_idx h1 hj
  simp only [one_mul] at h9 h10
  rw [h9] at h11
  cases h11
  rw [h12]
  exact h10

theorem unit_scaled {s : System ℝ} (hsc : s.scale = 1) {l : List (Nat × Nat)} (he : s.expressions = l.map fun p => .variableVariableEquality p.1 p.2) :
    s.scaledVariables = s.vars ∧ s.scaledExpressions = s.expressions := by
  constructor
  · rw [System.scaledVariables, hsc]
    simp
  · rw [System.scaledExpressions, hsc, he, List.map_map]
    rfl

/-- C81 does not hold where a constraint joins parts: the two points that coincide are in different components by then. The first one is moved to the fixed points; for the second one the call sees the first
where it was before, and leaves it there. The sum of the squares is 5 before and more than 8 afterwards. -/
theorem C81_joined_worse (cast : ℝ → Int) {sort : SortByKey} (hsort : Spec.Sorts sort) {ord : HashOrder} (hord : ord.Ok) :
    ∃ c, Reaches 0 lagOps c ∧ ((Store.empty ℝ).run lagOps).NonZero ∧
      ((Store.empty ℝ).run lagOps).cons = [.pointPointCoincidence 0 1, .pointPointCoincidence 2 3, .pointPointCoincidence 1 2, .pointPointCoincidence 3 4, .pointPointCoincidence 3 4] ∧
      (∀ n < 5, c.sys.calculateResidual .pointPointCoincidence ⟨0, n⟩ = .ok (if n = 1 then √5 else 0)) ∧ ∃ s' k r,
        (∀ fuel, k ≤ fuel → c.sys.solve (crateOptimize (qrLeastSquares sort (colamdOfStructure cast)) fuel) ord ⟨.levenbergMarquardt, .none, false⟩ = .ok s') ∧
        s'.calculateResidual .pointPointCoincidence ⟨0, 3⟩ = .ok r ∧ s'.calculateResidual .pointPointCoincidence ⟨0, 4⟩ = .ok r ∧ 4 < r ^ 2 := by
  obtain ⟨c, h⟩ := exists_reaches 0 lagOps (by
    simp [lagOps, Store.LegalRun, Store.Legal, Store.empty, Store.step, Store.IsPoint, Store.ConOk, Elem.kind]) (by simp [lagOps])
  obtain ⟨g1, g2, g3, g4, g5⟩ := lag_sys h
  have hv : c.sys.vars = [0, 0, 0, 0, 0, 0, 2, 1, 2, 1] := by rw [h.crel.rel.vars]; rfl
  have he : c.sys.expressions = [(0, 2), (1, 3), (4, 6), (5, 7), (2, 4), (3, 5), (6, 8), (7, 9), (6, 8), (7, 9)].map fun p => .variableVariableEquality p.1 p.2 := by rw [h.crel.rel.exprs]; rfl
  have hsc : c.sys.scale = 1 := by
    unfold System.scale
    rw [hv, he]
    show Real.sqrt ((0 + 0 * 0 + 0 * 0 + 0 * 0 + 0 * 0 + 0 * 0 + 0 * 0 + 2 * 2 + 1 * 1 + 2 * 2 + 1 * 1) / ((10 : ℕ) : ℝ)) = 1
    rw [show ((0 + 0 * 0 + 0 * 0 + 0 * 0 + 0 * 0 + 0 * 0 + 0 * 0 + 2 * 2 + 1 * 1 + 2 * 2 + 1 * 1) / ((10 : ℕ) : ℝ) : ℝ) = 1 by norm_num, Real.sqrt_one]
  obtain ⟨hw, hx⟩ := unit_scaled hsc he
  rw [hv] at hw
  rw [he] at hx
  obtain ⟨k1, hk1⟩ := whole_equalities cast hsort (opts := ⟨.levenbergMarquardt, .none, false⟩) rfl
    (E := [(0, 2), (1, 3), (4, 6), (5, 7), (2, 4), (3, 5), (6, 8), (7, 9), (6, 8), (7, 9)].map fun p => .variableVariableEquality p.1 p.2)
    (free := {6, 7}) (T := [0, 0, 0, 0, 0, 0, 2, 1, 2, 1]) g4
    (fun i hi => by
      simp only [List.flatten_cons, List.flatten_nil, List.cons_append, List.nil_append, List.mem_cons, List.not_mem_nil, or_false] at hi
      rcases hi with rfl | rfl | rfl | rfl | rfl | rfl <;> exact ⟨_, rfl, by simp [Expr.variableIndices]⟩)
    (fun len hl => h.fits (by simp [lagOps]) _ _ _ (by rw [he]; simp) (by rw [hv]; simp) hl)
    (fst := fun r => [0, 1, 4, 5, 2, 3].getD r 0) (snd := fun r => [2, 3, 6, 7, 4, 5].getD r 0)
    (fun r id hr => by
      match r, hr with
      | 0, hr | 1, hr | 2, hr | 3, hr | 4, hr | 5, hr => cases hr; rfl
      | r + 6, hr => simp at hr)
    (sol := fun _ => 0) (fun r hr => ⟨rfl, fun v hv hvf => by
      have : r < 6 := by simpa using hr
      simp only [Finset.mem_insert, Finset.mem_singleton, not_or] at hvf
      interval_cases r <;> simp at hv <;> rcases hv with rfl | rfl <;> simp at hvf ⊢⟩) (by simp) (by simp)
    (fun v => by
      refine le_trans ?_ (show (2 : ℝ) ≤ 10 ^ 100 from le_trans (by norm_num) (le_self_pow₀ (by norm_num : (1 : ℝ) ≤ 10) (by norm_num)))
      match v with
      | 0 | 1 | 2 | 3 | 4 | 5 | 6 | 7 | 8 | 9 => simp
      | v + 10 => simp)
  obtain ⟨s', k, hk⟩ := C52_solve_returns_partial cast hsort h (by simp [lagOps]) hord (opts := ⟨.levenbergMarquardt, .none, false⟩) (by simp) rfl
  obtain ⟨st1, st2, a1, a2, rfl⟩ := two_wholes hw hv hx hsc (by simp) (by simp) g1 g2 g3 (hk (max k k1) (le_max_left _ _))
  obtain ⟨b1, b2, b3, y, b4, b5, b6⟩ := hk1 _ (le_max_right _ _) _ _ rfl a1
  obtain ⟨d1, d2, d3, d4⟩ := whole_rests (crateOptimize_keeps _ _) g5 (fun i hi e hei r hr => by
    rw [b1] at hr
    simp only [List.flatten_cons, List.flatten_nil, List.cons_append, List.nil_append, List.mem_cons, List.not_mem_nil, or_false] at hi
    rcases hi with rfl | rfl | rfl | rfl <;> (cases hei; exact vve_zero hr rfl)) a2
  have hy : st2.vars = [0, 0, 0, 0, 0, 0, y 6, y 7, 2, 1] := by
    refine List.ext_getElem? fun i => ?_
    by_cases hi : i = 8 ∨ i = 9
    · rw [d4 i (by simpa using hi), b1]
      rcases hi with rfl | rfl <;> rfl
    · rw [d3 i (by simpa using hi)]
      by_cases hi' : i = 6 ∨ i = 7
      · rw [b5 i (by simpa using hi')]
        rcases hi' with rfl | rfl <;> rfl
      · rw [b3 i (by simpa using hi')]
        match i with
        | 0 | 1 | 2 | 3 | 4 | 5 => rfl
        | 6 | 7 => simp at hi'
        | 8 | 9 => simp at hi
        | i + 10 => rfl
  have hres : ∀ a b : ℝ, ∀ n : Nat, n < 5 → ((Client.new ℝ 0).run lagOps >>= fun c =>
        ({ c.sys with vars := [0, 0, 0, 0, 0, 0, a, b, 2, 1] } : System ℝ).calculateResidual .pointPointCoincidence ⟨0, n⟩) =
      .ok (√([0 + (0 - 0) * (0 - 0) + (0 - 0) * (0 - 0), 0 + (a - 0) * (a - 0) + (b - 0) * (b - 0), 0 + (0 - 0) * (0 - 0) + (0 - 0) * (0 - 0),
        0 + (2 - a) * (2 - a) + (1 - b) * (1 - b), 0 + (2 - a) * (2 - a) + (1 - b) * (1 - b)].getD n 0)) := by
    intro a b n hn
    match n, hn with
    | 0, _ => rfl
    | 1, _ => rfl
    | 2, _ => rfl
    | 3, _ => rfl
    | 4, _ => rfl
  simp only [h.run, ok_bind] at hres
  have hsame : ({ c.sys with vars := [0, 0, 0, 0, 0, 0, 2, 1, 2, 1] } : System ℝ) = c.sys := by rw [← hv]
  have e1 : |y 6 - y 4| ≤ 1 / 1000 := b6 2 (by simp)
  have e2 : |y 7 - y 5| ≤ 1 / 1000 := b6 3 (by simp)
  rw [show y 4 = 0 from b4 4 (by simp)] at e1
  rw [show y 5 = 0 from b4 5 (by simp)] at e2
  refine ⟨c, h, ⟨.point 2 1, by simp [lagOps, Store.run, Store.empty, Store.step], .inl ⟨2, 1, rfl, .inl (by norm_num)⟩⟩, rfl, fun n hn => ?_, _, k, √(0 + (2 - y 6) * (2 - y 6) + (1 - y 7) * (1 - y 7)), hk, ?_, ?_, ?_⟩
  · have := hres 2 1 n hn
    rw [hsame] at this
    rw [this]
    congr 1
    interval_cases n <;> norm_num
  · rw [hy]
    exact hres _ _ 3 (by norm_num)
  · rw [hy]
    exact hres _ _ 4 (by norm_num)
  · rw [Real.sq_sqrt (by nlinarith [mul_self_nonneg (2 - y 6), mul_self_nonneg (1 - y 7)])]
    rw [abs_le] at e1 e2
    nlinarith

/-- Four points in the origin that coincide in two pairs, which are joined; then a point 3 to the right and 1 above that shall coincide with the last one. -/
noncomputable def strayOps : List (Op ℝ) :=
  [.createPoint 0 0, .createPoint 0 0, .createPoint 0 0, .createPoint 0 0, .createPoint 3 1,
    .createCon (.pointPointCoincidence 0 1), .createCon (.pointPointCoincidence 2 3), .createCon (.pointPointCoincidence 1 2), .createCon (.pointPointCoincidence 3 4)]

theorem stray_sys {c : Client ℝ} (h : Reaches 0 strayOps c) : c.sys.graph.components = [⟨{0, 1, 2, 3}, {0, 1, 2}⟩, ⟨∅, ∅⟩, ⟨{4}, {3}⟩] ∧
    c.sys.freeVariables {0, 1, 2, 3} = .ok {0, 1, 2, 3, 4, 5, 6, 7} ∧ c.sys.freeVariables {4} = .ok {8, 9} ∧
    (ascending {0, 1, 2}).mapM c.sys.constraintExpressions = .ok [[0, 1], [2, 3], [4, 5]] ∧ (ascending {3}).mapM c.sys.constraintExpressions = .ok [[6, 7]] := by
  have h1 : okAnd ((Client.new ℝ 0).run strayOps) (fun c => c.sys.graph.components.map (fun k => (k.elements, k.constraints)) = [({0, 1, 2, 3}, {0, 1, 2}), (∅, ∅), ({4}, {3})]) = true := by decide +kernel
  have h2 : okAnd ((Client.new ℝ 0).run strayOps) (fun c => okAnd (c.sys.freeVariables {0, 1, 2, 3}) (fun l => l = {0, 1, 2, 3, 4, 5, 6, 7})) = true := by decide +kernel
  have h3 : okAnd ((Client.new ℝ 0).run strayOps) (fun c => okAnd (c.sys.freeVariables {4}) (fun l => l = {8, 9})) = true := by decide +kernel
  have h4 : okAnd ((Client.new ℝ 0).run strayOps) (fun c => okAnd ((ascending {0, 1, 2}).mapM c.sys.constraintExpressions) (fun l => l = [[0, 1], [2, 3], [4, 5]])) = true := by decide +kernel
  have h5 : okAnd ((Client.new ℝ 0).run strayOps) (fun c => okAnd ((ascending {3}).mapM c.sys.constraintExpressions) (fun l => l = [[6, 7]])) = true := by decide +kernel
  rw [h.run] at h1 h2 h3 h4 h5
  have key : ∀ {α : Type} [DecidableEq α] {x : R α} {a : α}, okAnd x (fun l => l = a) = true → x = .ok a := by
    intro α _ x a hx
    cases x with
    | error e => cases hx
    | ok b => exact congrArg _ (of_decide_eq_true hx)
  exact ⟨components_of_pairs (of_decide_eq_true h1), key h2, key h3, key h4, key h5⟩

/-- C86 does not hold where a constraint joins parts: only the last point is moved for the last constraint, and the sum of the first coordinates changes from 3 to almost 0. -/
theorem C86_joined_shifts (cast : ℝ → Int) {sort : SortByKey} (hsort : Spec.Sorts sort) {ord : HashOrder} (hord : ord.Ok) :
    ∃ c, Reaches 0 strayOps c ∧ ((Store.empty ℝ).run strayOps).NonZero ∧ ((Store.empty ℝ).run strayOps).Loose {0, 1, 2, 3, 4} ∧
      (∀ n < 5, c.sys.getValue .point ⟨0, n⟩ = .ok (if n = 4 then .point 3 1 else .point 0 0)) ∧ ∃ s' k x y,
        (∀ fuel, k ≤ fuel → c.sys.solve (crateOptimize (qrLeastSquares sort (colamdOfStructure cast)) fuel) ord ⟨.levenbergMarquardt, .none, false⟩ = .ok s') ∧
        (∀ n < 5, s'.getValue .point ⟨0, n⟩ = .ok (if n = 4 then .point x y else .point 0 0)) ∧ x ≤ 1 / 1000 := by
  obtain ⟨c, h⟩ := exists_reaches 0 strayOps (by
    simp [strayOps, Store.LegalRun, Store.Legal, Store.empty, Store.step, Store.IsPoint, Store.ConOk]) (by simp [strayOps])
  obtain ⟨g1, g2, g3, g4, g5⟩ := stray_sys h
  have hv : c.sys.vars = [0, 0, 0, 0, 0, 0, 0, 0, 3, 1] := by rw [h.crel.rel.vars]; rfl
  have he : c.sys.expressions = [(0, 2), (1, 3), (4, 6), (5, 7), (2, 4), (3, 5), (6, 8), (7, 9)].map fun p => .variableVariableEquality p.1 p.2 := by rw [h.crel.rel.exprs]; rfl
  have hsc : c.sys.scale = 1 := by
    unfold System.scale
    rw [hv, he]
    show Real.sqrt ((0 + 0 * 0 + 0 * 0 + 0 * 0 + 0 * 0 + 0 * 0 + 0 * 0 + 0 * 0 + 0 * 0 + 3 * 3 + 1 * 1) / ((10 : ℕ) : ℝ)) = 1
    rw [show ((0 + 0 * 0 + 0 * 0 + 0 * 0 + 0 * 0 + 0 * 0 + 0 * 0 + 0 * 0 + 0 * 0 + 3 * 3 + 1 * 1) / ((10 : ℕ) : ℝ) : ℝ) = 1 by norm_num, Real.sqrt_one]
  obtain ⟨hw, hx⟩ := unit_scaled hsc he
  rw [hv] at hw
  rw [he] at hx
  obtain ⟨s', k, hk⟩ := C52_solve_returns_partial cast hsort h (by simp [strayOps]) hord (opts := ⟨.levenbergMarquardt, .none, false⟩) (by simp) rfl
  obtain ⟨k1, hk1⟩ := whole_equalities cast hsort (opts := ⟨.levenbergMarquardt, .none, false⟩) rfl
    (E := [(0, 2), (1, 3), (4, 6), (5, 7), (2, 4), (3, 5), (6, 8), (7, 9)].map fun p => .variableVariableEquality p.1 p.2)
    (free := {8, 9}) (T := [0, 0, 0, 0, 0, 0, 0, 0, 3, 1]) g5
    (fun i hi => by
      simp only [List.flatten_cons, List.flatten_nil, List.cons_append, List.nil_append, List.mem_cons, List.not_mem_nil, or_false] at hi
      rcases hi with rfl | rfl <;> exact ⟨_, rfl, by simp [Expr.variableIndices]⟩)
    (fun len hl => h.fits (by simp [strayOps]) _ _ _ (by rw [he]; simp) (by rw [hv]; simp) hl)
    (fst := fun r => [6, 7].getD r 0) (snd := fun r => [8, 9].getD r 0)
    (fun r id hr => by
      match r, hr with
      | 0, hr | 1, hr => cases hr; rfl
      | r + 2, hr => simp at hr)
    (sol := fun _ => 0) (fun r hr => ⟨rfl, fun v hv hvf => by
      have : r < 2 := by simpa using hr
      simp only [Finset.mem_insert, Finset.mem_singleton, not_or] at hvf
      interval_cases r <;> simp at hv <;> rcases hv with rfl | rfl <;> simp at hvf ⊢⟩) (by simp) (by simp)
    (fun v => by
      refine le_trans ?_ (show (3 : ℝ) ≤ 10 ^ 100 from le_trans (by norm_num) (le_self_pow₀ (by norm_num : (1 : ℝ) ≤ 10) (by norm_num)))
      match v with
      | 0 | 1 | 2 | 3 | 4 | 5 | 6 | 7 | 8 | 9 => simp
      | v + 10 => simp)
  obtain ⟨st1, st2, a1, a2, rfl⟩ := two_wholes hw hv hx hsc (by simp) (by simp) g1 g2 g3 (hk (max k k1) (le_max_left _ _))
  obtain ⟨d1, d2, d3, d4⟩ := whole_rests (crateOptimize_keeps _ _) g4 (fun i hi e hei r hr => by
    simp only [List.flatten_cons, List.flatten_nil, List.cons_append, List.nil_append, List.mem_cons, List.not_mem_nil, or_false] at hi
    rcases hi with rfl | rfl | rfl | rfl | rfl | rfl <;> (cases hei; exact vve_zero hr rfl)) a1
  obtain ⟨b1, b2, b3, y, b4, b5, b6⟩ := hk1 _ (le_max_right _ _) _ _ d1 a2
  have hy : st2.vars = [0, 0, 0, 0, 0, 0, 0, 0, y 8, y 9] := by
    refine List.ext_getElem? fun i => ?_
    by_cases hi : i = 8 ∨ i = 9
    · rw [b5 i (by simpa using hi)]
      rcases hi with rfl | rfl <;> rfl
    · rw [b3 i (by simpa using hi)]
      by_cases hi' : i < 8
      · rw [d4 i (by interval_cases i <;> simp)]
        interval_cases i <;> rfl
      · rw [d3 i (by simp only [Finset.mem_insert, Finset.mem_singleton]; omega)]
        match i with
        | 0 | 1 | 2 | 3 | 4 | 5 | 6 | 7 => omega
        | 8 | 9 => simp at hi
        | i + 10 => rfl
  have hval : ∀ a b : ℝ, ∀ n : Nat, n < 5 → ((Client.new ℝ 0).run strayOps >>= fun c =>
        ({ c.sys with vars := [0, 0, 0, 0, 0, 0, 0, 0, a, b] } : System ℝ).getValue .point ⟨0, n⟩) = .ok (if n = 4 then .point a b else .point 0 0) := by
    intro a b n hn
    match n, hn with
    | 0, _ => rfl
    | 1, _ => rfl
    | 2, _ => rfl
    | 3, _ => rfl
    | 4, _ => rfl
  simp only [h.run, ok_bind] at hval
  have hsame : ({ c.sys with vars := [0, 0, 0, 0, 0, 0, 0, 0, 3, 1] } : System ℝ) = c.sys := by rw [← hv]
  have e1 : |y 8 - y 6| ≤ 1 / 1000 := b6 0 (by simp)
  rw [show y 6 = 0 by rw [b4 6 (by simp), d1]; rfl, sub_zero, abs_le] at e1
  refine ⟨c, h, ⟨.point 3 1, by simp [strayOps, Store.run, Store.empty, Store.step], .inl ⟨3, 1, rfl, .inl (by norm_num)⟩⟩, ?_, fun n hn => ?_, _, k, y 8, y 9, hk, fun n hn => ?_, e1.2⟩
  · refine ⟨fun p hp => ?_, fun con hcon => ?_⟩
    · simp only [Finset.mem_insert, Finset.mem_singleton] at hp
      rcases hp with rfl | rfl | rfl | rfl | rfl
      · exact ⟨⟨0, 0, rfl⟩, by simp [strayOps, Store.run, Store.empty, Store.step]⟩
      · exact ⟨⟨0, 0, rfl⟩, by simp [strayOps, Store.run, Store.empty, Store.step]⟩
      · exact ⟨⟨0, 0, rfl⟩, by simp [strayOps, Store.run, Store.empty, Store.step]⟩
      · exact ⟨⟨0, 0, rfl⟩, by simp [strayOps, Store.run, Store.empty, Store.step]⟩
      · exact ⟨⟨3, 1, rfl⟩, by simp [strayOps, Store.run, Store.empty, Store.step]⟩
    · simp only [strayOps, Store.run, List.foldl, Store.empty, Store.step, List.nil_append, List.cons_append, List.mem_cons, List.not_mem_nil, or_false] at hcon
      rcases hcon with rfl | rfl | rfl | rfl <;> exact .inl (by simp [Store.actsOn])
  · rw [← hsame]
    exact hval 3 1 n hn
  · rw [hy]
    exact hval _ _ n hn

end Fiksi
