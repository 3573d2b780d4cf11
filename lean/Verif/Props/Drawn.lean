import Verif.Props.Meeting
/-!
# C91: what coincides with a fixed point is drawn to it
-/
namespace Fiksi
open Spec

section
variable {counter : Nat} {ops : List (Op ℝ)} {c : Client ℝ} (h : Reaches counter ops c)
include h

/-- C91 (partial): what coincides with a fixed point is drawn to it, over any number of links. After any legal history of fewer than 500 calls that has only made coincidences that can be satisfied, in
which no constraint joins two constrained parts: `solve` with `Decomposer::None` and Levenberg–Marquardt (with the sparse QR of the crates) returns, with and without perturbation, and afterwards every
point that is linked to a fixed point by coincidences, directly or over others, is at the place where the fixed point was before and still is, up to the tolerance of C69 for each of the other elements.
(Full statement: for all options and histories; false for joined parts, see `C91_joined_not_drawn`.) -/
theorem C91_drawn_to_fixed_partial (hn : NeverJoins ((Store.empty ℝ).run ops).arguments) (hnz : ((Store.empty ℝ).run ops).NonZero) (hco : ((Store.empty ℝ).run ops).OnlyCoincidences)
    (hpl : ((Store.empty ℝ).run ops).Placeable) (hshort : ops.length < 500) (cast : ℝ → Int) {sort : SortByKey} (hsort : Spec.Sorts sort) {ord : HashOrder} (hord : ord.Ok) {opts : SolvingOptions}
    (hd : opts.decomposer = .none) (ho : opts.optimizer = .levenbergMarquardt) :
    ∃ s' k, (∀ fuel, k ≤ fuel → c.sys.solve (crateOptimize (qrLeastSquares sort (colamdOfStructure cast)) fuel) ord opts = .ok s') ∧
      ∀ p q : Nat, ((Store.empty ℝ).run ops).IsPoint p → p ∈ ((Store.empty ℝ).run ops).fixed → Spec.Linked ((Store.empty ℝ).run ops).arguments p q →
        ∃ x y x' y' : ℝ, c.sys.getValue .point ⟨c.sys.id, p⟩ = .ok (.point x y) ∧ s'.getValue .point ⟨c.sys.id, p⟩ = .ok (.point x y) ∧ s'.getValue .point ⟨c.sys.id, q⟩ = .ok (.point x' y') ∧
          dist (⟨x', y'⟩ : ℂ) ⟨x, y⟩ ≤ ((((Store.empty ℝ).run ops).elems.length : ℝ) - 1) * (√2 * (c.sys.scale * max (1 / 10 ^ 4) (((ops.length : ℝ) + 5) / 10 ^ 6))) := by
  obtain ⟨s', k, hk, hres⟩ := C69_coincidences_solved_partial h hn hnz hco hpl hshort cast hsort hord hd ho
  refine ⟨s', k, hk, fun p q hpt hfix hlink => ?_⟩
  obtain ⟨result, hre⟩ := C25_solve_is_a_call h (by omega) hord (hk k le_rfl)
  have hcons : ((Store.empty ℝ).run (ops ++ [.solve result])).cons = ((Store.empty ℝ).run ops).cons := by
    rw [Store.run, List.foldl_append]; rfl
  have hid : s'.id = c.sys.id := (hre.sysId (c := { c with sys := s' })).trans h.sysId.symm
  set τ := √2 * (c.sys.scale * max (1 / 10 ^ 4) (((ops.length : ℝ) + 5) / 10 ^ 6)) with hτ
  have hτ0 : 0 ≤ τ := mul_nonneg (Real.sqrt_nonneg _) (mul_nonneg (h.scale_pos hnz).le (le_max_of_le_left (by norm_num)))
  -- where the points of constraints are afterwards
  let P : Nat → Prop := fun i => ∃ x y, s'.getValue .point ⟨c.sys.id, i⟩ = .ok (.point x y)
  have reads : ∀ con ∈ ((Store.empty ℝ).run ops).cons, ∀ i ∈ ((Store.empty ℝ).run ops).actsOn con, i < ((Store.empty ℝ).run ops).elems.length ∧ P i := by
    intro con hcon i hi
    have hcon' : con ∈ ((Store.empty ℝ).run (ops ++ [.solve result])).cons := by rw [hcons]; exact hcon
    obtain ⟨a, b, rfl⟩ := hco con hcon
    obtain ⟨ha, hb⟩ := h.crel.rel.wfCon _ hcon
    obtain ⟨ha', hb'⟩ := hre.crel.rel.wfCon _ hcon'
    have read : ∀ {j : Nat}, ((Store.empty ℝ).run (ops ++ [.solve result])).IsPoint j → P j := by
      rintro j ⟨u, v, h1⟩
      obtain ⟨w, h2, h3⟩ := hre.crel.getValue h1
      rw [Store.value, h1] at h2
      cases h2
      exact ⟨u, v, by rw [← hid]; exact h3⟩
    have low : ∀ {j : Nat}, ((Store.empty ℝ).run ops).IsPoint j → j < ((Store.empty ℝ).run ops).elems.length := by
      rintro j ⟨u, v, h1⟩
      exact lt_of_getElem? h1
    simp only [Store.actsOn, List.mem_cons, List.not_mem_nil, or_false] at hi
    rcases hi with rfl | rfl
    exacts [⟨low ha, read ha'⟩, ⟨low hb, read hb'⟩]
  obtain ⟨x, y, hp0⟩ := hpt
  obtain ⟨v, hv, hv'⟩ := C23_fixed_not_moved_partial h hord (by rw [hd]; simp) (hk k le_rfl) hp0 (by
    intro i hi
    simp only [Store.primitives, hp0] at hi
    rw [Finset.mem_singleton.1 hi]
    exact hfix)
  obtain ⟨w, h2, h3⟩ := h.crel.getValue hp0
  rw [Store.value, hp0] at h2
  cases h2
  have hpp : s'.getValue .point ⟨c.sys.id, p⟩ = .ok (.point x y) := hv'.trans (hv.symm.trans h3)
  have hplow : p < ((Store.empty ℝ).run ops).elems.length := lt_of_getElem? hp0
  have touched : ∀ i j, Touch ((Store.empty ℝ).run ops).arguments i j → j < ((Store.empty ℝ).run ops).elems.length ∧ P j := by
    rintro i j ⟨l, hl, hil, hjl⟩
    obtain ⟨con, hcon, rfl⟩ := List.mem_map.1 hl
    exact reads con hcon j hjl
  have hq : P q := by
    rcases Relation.ReflTransGen.cases_tail hlink with rfl | ⟨b, _, hb⟩
    · exact ⟨x, y, hpp⟩
    · exact (touched _ _ hb).2
  classical
  let z : Nat → ℂ := fun i => if hi : P i then ⟨hi.choose, hi.choose_spec.choose⟩ else 0
  have hz : ∀ {i : Nat} {u v : ℝ}, s'.getValue .point ⟨c.sys.id, i⟩ = .ok (.point u v) → z i = ⟨u, v⟩ := by
    intro i u v hi
    have hPi : P i := ⟨u, v, hi⟩
    have e := hPi.choose_spec.choose_spec.symm.trans hi
    simp only [Except.ok.injEq, ElementValue.point.injEq] at e
    show (if hi : P i then (⟨hi.choose, hi.choose_spec.choose⟩ : ℂ) else 0) = _
    rw [dif_pos hPi]
    exact Complex.ext e.1 e.2
  have step : ∀ i ∈ Finset.range ((Store.empty ℝ).run ops).elems.length, ∀ j ∈ Finset.range ((Store.empty ℝ).run ops).elems.length, Touch ((Store.empty ℝ).run ops).arguments i j → dist (z i) (z j) ≤ τ := by
    rintro i - j - ht
    obtain ⟨u, v, hi⟩ := (touched _ _ ht.symm).2
    obtain ⟨u', v', hj⟩ := (touched _ _ ht).2
    rw [hz hi, hz hj]
    obtain ⟨l, hl, hil, hjl⟩ := ht
    obtain ⟨con, hcon, rfl⟩ := List.mem_map.1 hl
    obtain ⟨a, b, rfl⟩ := hco con hcon
    obtain ⟨n, hn'⟩ := List.getElem?_of_mem hcon
    obtain ⟨r, hr1, hr2⟩ := hres n _ a b (h.crel.conHandle (lt_of_getElem? hn')) hn'
    have hab : ∀ {a' b' : Nat} {u v u' v' : ℝ}, a' = a → b' = b → s'.getValue .point ⟨c.sys.id, a'⟩ = .ok (.point u v) → s'.getValue .point ⟨c.sys.id, b'⟩ = .ok (.point u' v') →
        dist (⟨u, v⟩ : ℂ) ⟨u', v'⟩ ≤ τ := by
      rintro _ _ _ _ _ _ rfl rfl ha hb
      have := hre.coincidence_read (by rw [hcons]; exact hn') (by show s'.getValue .point ⟨s'.id, _⟩ = _; rw [hid]; exact ha)
        (by show s'.getValue .point ⟨s'.id, _⟩ = _; rw [hid]; exact hb) (r := r) (by show s'.calculateResidual _ ⟨s'.id, _⟩ = _; rw [hid]; exact hr1)
      rw [← this]
      exact (le_abs_self r).trans hr2
    simp only [Store.actsOn, List.mem_cons, List.not_mem_nil, or_false] at hil hjl
    rcases hil with e1 | e1 <;> rcases hjl with e2 | e2
    · rw [← hz hi, ← hz hj, e1, e2, dist_self]; exact hτ0
    · exact hab e1 e2 hi hj
    · rw [dist_comm]; exact hab e2 e1 hj hi
    · rw [← hz hi, ← hz hj, e1, e2, dist_self]; exact hτ0
  have := spread_of_steps (T := Touch ((Store.empty ℝ).run ops).arguments) (fun _ _ => Touch.symm) (fun i _ j hij => Finset.mem_range.2 (touched i j hij).1) step hτ0 (Finset.mem_range.2 hplow) hlink
  obtain ⟨x', y', hq⟩ := hq
  refine ⟨x, y, x', y', h3, hpp, hq, ?_⟩
  rw [hz hpp, hz hq, Finset.card_range, dist_comm] at this
  exact this

end

/-- Three points, the first fixed, the second to coincide with the first and the third. -/
noncomputable def leashOps : List (Op ℝ) :=
  [.createPoint 1 2, .createPoint 3 0, .createPoint 0 6, .createCon (.pointPointCoincidence 0 1), .createCon (.pointPointCoincidence 1 2), .fix .point 0]

/-- A case for C91: the second and the third point are drawn to (1, 2); the third is linked to the first only over the second. -/
example : ∃ c, Reaches 0 leashOps c ∧ NeverJoins ((Store.empty ℝ).run leashOps).arguments ∧ ((Store.empty ℝ).run leashOps).NonZero ∧ ((Store.empty ℝ).run leashOps).OnlyCoincidences ∧
    ((Store.empty ℝ).run leashOps).Placeable ∧ leashOps.length < 500 ∧ ((Store.empty ℝ).run leashOps).IsPoint 0 ∧ 0 ∈ ((Store.empty ℝ).run leashOps).fixed ∧
    Spec.Linked ((Store.empty ℝ).run leashOps).arguments 0 2 := by
  obtain ⟨c, h⟩ := exists_reaches 0 leashOps (by
    simp [leashOps, Store.LegalRun, Store.Legal, Store.empty, Store.step, Store.IsPoint, Store.ConOk, Elem.kind]) (by simp [leashOps])
  have hc : ((Store.empty ℝ).run leashOps).cons = [.pointPointCoincidence 0 1, .pointPointCoincidence 1 2] := rfl
  have ha : ((Store.empty ℝ).run leashOps).arguments = [[0, 1], [1, 2]] := rfl
  have hf : ((Store.empty ℝ).run leashOps).fixed = {0} := by simp [leashOps, Store.run, Store.empty, Store.step, Store.primitives]
  have he : ((Store.empty ℝ).run leashOps).elems = [.point 1 2, .point 3 0, .point 0 6] := rfl
  refine ⟨c, h, strand_neverJoins, ⟨.point 3 0, by rw [he]; simp, .inl ⟨3, 0, rfl, .inl (by norm_num)⟩⟩, fun con hcon => ?_,
    ⟨fun _ => (1, 2), fun i hi x y hxy => ?_, fun _ _ _ => rfl⟩, by simp [leashOps], ⟨1, 2, rfl⟩, by rw [hf]; simp, ?_⟩
  · rw [hc] at hcon
    simp only [List.mem_cons, List.not_mem_nil, or_false] at hcon
    rcases hcon with rfl | rfl <;> exact ⟨_, _, rfl⟩
  · rw [hf, Finset.mem_singleton] at hi
    rw [hi, he] at hxy
    simp only [List.getElem?_cons_zero, Option.some.injEq, Elem.point.injEq] at hxy
    rw [hxy.1, hxy.2]
  · rw [ha]
    exact (Spec.Linked.of_mem (c := [0, 1]) (by simp) (by simp) (by simp) : Spec.Linked [[0, 1], [1, 2]] 0 1).trans (Spec.Linked.of_mem (c := [1, 2]) (by simp) (by simp) (by simp))

end Fiksi
