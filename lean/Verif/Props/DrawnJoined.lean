import Verif.Props.Drawn
/-!
# C91, the negation for joined parts
-/
namespace Fiksi
open Spec

/-- The points and coincidences of `splitMeetOps`, with the first point fixed. -/
noncomputable def heldMeetOps : List (Op ℝ) := splitMeetOps ++ [.fix .point 0]

theorem heldMeet_components {c : Client ℝ} (h : Reaches 0 heldMeetOps c) :
    c.sys.graph.components = [⟨{0, 1, 2, 3}, {0, 1, 2}⟩, ⟨∅, ∅⟩, ⟨{4, 5, 6, 7}, {3, 4, 5}⟩, ⟨∅, ∅⟩, ⟨∅, {6}⟩] := by
  have h2 : okAnd ((Client.new ℝ 0).run heldMeetOps) (fun c => c.sys.graph.components.map (fun k => (k.elements, k.constraints)) =
    [({0, 1, 2, 3}, {0, 1, 2}), (∅, ∅), ({4, 5, 6, 7}, {3, 4, 5}), (∅, ∅), (∅, {6})]) = true := by decide +kernel
  rw [h.run] at h2
  exact components_of_pairs (of_decide_eq_true h2)

theorem heldMeet_vars {c : Client ℝ} (h : Reaches 0 heldMeetOps c) : c.sys.vars = [1, 0, 1, 0, 1, 0, 1, 0, 2, 0, 2, 0, 2, 0, 2, 0] := by
  rw [h.crel.rel.vars]
  rfl

theorem heldMeet_expressions {c : Client ℝ} (h : Reaches 0 heldMeetOps c) :
    c.sys.expressions = [.variableVariableEquality 0 2, .variableVariableEquality 1 3, .variableVariableEquality 4 6, .variableVariableEquality 5 7,
      .variableVariableEquality 2 4, .variableVariableEquality 3 5, .variableVariableEquality 8 10, .variableVariableEquality 9 11,
      .variableVariableEquality 12 14, .variableVariableEquality 13 15, .variableVariableEquality 10 12, .variableVariableEquality 11 13,
      .variableVariableEquality 6 14, .variableVariableEquality 7 15] := by
  rw [h.crel.rel.exprs]
  rfl

/-- Without perturbation, the first six coincidences of `heldMeetOps` are satisfied and the seventh is not seen by any call: `solve` leaves the values as they are. -/
theorem heldMeet_rests {c : Client ℝ} (h : Reaches 0 heldMeetOps c) {optimize : Optimize ℝ} (hk : optimize.KeepsSolutions) {ord : HashOrder} {o : Optimizer} {s' : System ℝ}
    (hs : c.sys.solve optimize ord ⟨o, .none, false⟩ = .ok s') : s' = c.sys := by
  obtain ⟨st, h1, rfl⟩ := solve_eq hs
  have hv := heldMeet_vars h
  have he := heldMeet_expressions h
  obtain ⟨hpos, -⟩ := C15_system_scale c.sys (.inl ⟨1, by rw [hv]; simp, by norm_num⟩)
  have hV : ∀ (v : Nat) (x : ℝ), c.sys.scaledVariables[v]? = some x → c.sys.vars[v]? = some (c.sys.scale * x) := by
    intro v x hx
    rw [System.scaledVariables, List.getElem?_map, Option.map_eq_some_iff] at hx
    obtain ⟨y, h2, rfl⟩ := hx
    rw [h2]
    congr 1
    field_simp
  have hzero : ∀ i < 12, ∀ e, c.sys.scaledExpressions[i]? = some e → ∀ r, e.calculateResidual (identityMap c.sys.scaledVariables) = .ok r → r = 0 := by
    intro i hi e hei r hr
    rw [System.scaledExpressions, List.getElem?_map, Option.map_eq_some_iff] at hei
    obtain ⟨e0, h2, rfl⟩ := hei
    have h3 : e0.calculateResidual (identityMap c.sys.vars) = .ok 0 := by
      rw [he] at h2
      rw [hv]
      interval_cases i <;> cases h2 <;> first | exact congrArg Except.ok (sub_self (0 : ℝ)) | exact congrArg Except.ok (sub_self (1 : ℝ)) | exact congrArg Except.ok (sub_self (2 : ℝ))
    have := (C15_rescaling (k := 1 / c.sys.scale) (by positivity) e0 c.sys.vars h3).1
    rw [System.scaledVariables, this] at hr
    cases hr
    rw [mul_zero]
  have := foldlM_inv (fun s' : SolveState ℝ => s'.vars = c.sys.vars ∧ s'.transformed = c.sys.scaledVariables) _ _ _ _ ⟨rfl, rfl⟩
    (fun s3 ck s4 hck h12 h13 => ?_) h1
  · rw [this.1]
  · obtain ⟨h4, h5⟩ := h12
    unfold solveComponent at h13
    split at h13
    · cases h13; exact ⟨h4, h5⟩
    rename_i hne
    have hmem : ∀ n ∈ ck.1.constraints, n < 6 := by
      have h6 := List.fst_mem_of_mem_zipIdx hck
      rw [heldMeet_components h] at h6
      simp only [List.mem_cons, List.not_mem_nil, or_false] at h6
      rcases h6 with h6 | h6 | h6 | h6 | h6 <;> rw [h6] at hne ⊢ <;> simp at hne ⊢
    simp only [bind_eq_ok, perturbFree] at h13
    obtain ⟨free, -, st1, h7, h13⟩ := h13
    cases h7
    simp only [solveWhole, bind_eq_ok] at h13
    obtain ⟨values, h8, es, h9, values', h10, vars, h11, h14⟩ := h13
    cases h14
    rw [h5] at h8 h10
    rw [subsystem_rests_on hk (fun i hi => hzero i ?_) h8 h10, h4] at h11
    · exact ⟨writeVars_same (zipIdx_values h8) hV h11, h5⟩
    · obtain ⟨l, hl, hil⟩ := List.mem_flatten.1 hi
      obtain ⟨n, hn, hnl⟩ := forall₂_mem_right (mapM_forall h9) hl
      have hn6 := hmem n ((mem_ascending _ _).1 hn)
      obtain ⟨con, h15, h16, h17⟩ := (h.crel.rel.constraintExpressions hnl i).1 hil
      have hc : ((Store.empty ℝ).run heldMeetOps).cons = [.pointPointCoincidence 0 1, .pointPointCoincidence 2 3, .pointPointCoincidence 1 2, .pointPointCoincidence 4 5,
        .pointPointCoincidence 6 7, .pointPointCoincidence 5 6, .pointPointCoincidence 3 7] := rfl
      rw [Store.firstEquation, hc] at h17
      rw [hc] at h15
      clear h16
      interval_cases n <;> cases h15 <;> simp [Spec.Con.equations] at h17 <;> omega

/-- C91 does not hold if a constraint joins parts that were separate: four points at `(1, 0)`, the first of them fixed, and four at `(2, 0)` shall all coincide. `solve` returns, and the last point, which is
linked to the fixed one, is where it was. -/
theorem C91_joined_not_drawn (cast : ℝ → Int) {sort : SortByKey} (hsort : Spec.Sorts sort) {ord : HashOrder} (hord : ord.Ok) :
    ∃ c, Reaches 0 heldMeetOps c ∧ ((Store.empty ℝ).run heldMeetOps).NonZero ∧ ((Store.empty ℝ).run heldMeetOps).OnlyCoincidences ∧ ((Store.empty ℝ).run heldMeetOps).Placeable ∧
      0 ∈ ((Store.empty ℝ).run heldMeetOps).fixed ∧ Spec.Linked ((Store.empty ℝ).run heldMeetOps).arguments 0 7 ∧
      ∃ s' k, (∀ fuel, k ≤ fuel → c.sys.solve (crateOptimize (qrLeastSquares sort (colamdOfStructure cast)) fuel) ord ⟨.levenbergMarquardt, .none, false⟩ = .ok s') ∧
        s'.getValue .point ⟨c.sys.id, 0⟩ = .ok (.point 1 0) ∧ s'.getValue .point ⟨c.sys.id, 7⟩ = .ok (.point 2 0) := by
  obtain ⟨c, h⟩ := exists_reaches 0 heldMeetOps (by
    simp [heldMeetOps, splitMeetOps, Store.LegalRun, Store.Legal, Store.empty, Store.step, Store.IsPoint, Store.ConOk, Elem.kind]) (by simp [heldMeetOps, splitMeetOps])
  have hc : ((Store.empty ℝ).run heldMeetOps).cons = [.pointPointCoincidence 0 1, .pointPointCoincidence 2 3, .pointPointCoincidence 1 2, .pointPointCoincidence 4 5,
    .pointPointCoincidence 6 7, .pointPointCoincidence 5 6, .pointPointCoincidence 3 7] := rfl
  have he : ((Store.empty ℝ).run heldMeetOps).elems = [.point 1 0, .point 1 0, .point 1 0, .point 1 0, .point 2 0, .point 2 0, .point 2 0, .point 2 0] := rfl
  have hfx : ((Store.empty ℝ).run heldMeetOps).fixed = {0} := by
    simp [heldMeetOps, splitMeetOps, Store.run, Store.empty, Store.step, Store.primitives]
  have ha : ((Store.empty ℝ).run heldMeetOps).arguments = [[0, 1], [2, 3], [1, 2], [4, 5], [6, 7], [5, 6], [3, 7]] := rfl
  obtain ⟨s', k, hk⟩ := C52_solve_returns_partial cast hsort h (by simp [heldMeetOps, splitMeetOps]) hord (opts := ⟨.levenbergMarquardt, .none, false⟩) (by simp) rfl
  have hs' := heldMeet_rests h (crateOptimize_keeps _ k) (hk k le_rfl)
  have read : ∀ {i : Nat} {u v : ℝ}, ((Store.empty ℝ).run heldMeetOps).elems[i]? = some (.point u v) → c.sys.getValue .point ⟨c.sys.id, i⟩ = .ok (.point u v) := by
    intro i u v h1
    obtain ⟨w, h3, h4⟩ := h.crel.getValue h1
    rw [Store.value, h1] at h3
    cases h3
    exact h4
  refine ⟨c, h, ⟨.point 1 0, by rw [he]; simp, .inl ⟨1, 0, rfl, .inl (by norm_num)⟩⟩, fun con hcon => ?_, ⟨fun _ => (1, 0), fun i hi x y hxy => ?_, fun _ _ _ => rfl⟩, by rw [hfx]; simp, ?_, s', k, hk, ?_, ?_⟩
  · rw [hc] at hcon
    simp only [List.mem_cons, List.not_mem_nil, or_false] at hcon
    rcases hcon with rfl | rfl | rfl | rfl | rfl | rfl | rfl <;> exact ⟨_, _, rfl⟩
  · rw [hfx] at hi
    have hi : i = 0 := by simpa using hi
    subst hi
    rw [he] at hxy
    cases hxy
    rfl
  · rw [ha]
    have step : ∀ {i j : Nat} (l : List Nat), l ∈ [[0, 1], [2, 3], [1, 2], [4, 5], [6, 7], [5, 6], [3, 7]] → i ∈ l → j ∈ l → Spec.Touch [[0, 1], [2, 3], [1, 2], [4, 5], [6, 7], [5, 6], [3, 7]] i j :=
      fun l h1 h2 h3 => ⟨l, h1, h2, h3⟩
    exact (((Relation.ReflTransGen.single (step [0, 1] (by simp) (by simp) (by simp : 1 ∈ [0, 1]))).tail (step [1, 2] (by simp) (by simp) (by simp : 2 ∈ [1, 2]))).tail
      (step [2, 3] (by simp) (by simp) (by simp : 3 ∈ [2, 3]))).tail (step [3, 7] (by simp) (by simp) (by simp))
  · rw [hs']
    exact read (by rw [he]; rfl)
  · rw [hs']
    exact read (by rw [he]; rfl)

end Fiksi
