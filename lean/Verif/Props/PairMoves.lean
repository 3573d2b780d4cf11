import Verif.Props.Straight
/-!
# C93: two points that are asked for a distance share the way
-/
namespace Fiksi
open Spec

section
variable {counter : Nat} {ops : List (Op ℝ)} {c : Client ℝ} (h : Reaches counter ops c)
include h

/-- C93 (partial): two points in different places, not fixed and only asked for their distance (any number of times, with any values): after `solve` with `Decomposer::None` and no perturbation each is on the
line through both places, and they have moved by the same way in opposite directions, in exact arithmetic, after any legal history in which no constraint joins two constrained parts; with L-BFGS, if all
constraints are about distinct points. (Full statement: for all options and histories.) -/
theorem C93_pair_shares_way_partial (hnz : ((Store.empty ℝ).run ops).NonZero) (hn : NeverJoins ((Store.empty ℝ).run ops).arguments) (hshort : ops.length < 2 ^ 24) (cast : ℝ → Int) {sort : SortByKey}
    (hsort : Spec.Sorts sort) {fuel : Nat} {ord : HashOrder} {opts : SolvingOptions} (hd : opts.decomposer = .none) (hdist : opts.optimizer = .lBfgs → ((Store.empty ℝ).run ops).Distinct)
    (hp : opts.perturb = false) {s' : System ℝ} (hs : c.sys.solve (crateOptimize (qrLeastSquares sort (colamdOfStructure cast)) fuel) ord opts = .ok s') {p q : Nat}
    (hpq : ((Store.empty ℝ).run ops).IsPoint p ∧ ((Store.empty ℝ).run ops).IsPoint q ∧ p ∉ ((Store.empty ℝ).run ops).fixed ∧ q ∉ ((Store.empty ℝ).run ops).fixed)
    (honly : ∀ con ∈ ((Store.empty ℝ).run ops).cons, (∃ d, con = .pointPointDistance p q d ∨ con = .pointPointDistance q p d) ∨ p ∉ ((Store.empty ℝ).run ops).actsOn con ∧ q ∉ ((Store.empty ℝ).run ops).actsOn con)
    {x y u v : ℝ} (hpv : c.sys.getValue .point ⟨c.sys.id, p⟩ = .ok (.point x y)) (hqv : c.sys.getValue .point ⟨c.sys.id, q⟩ = .ok (.point u v)) (hne : (x, y) ≠ (u, v)) :
    ∃ t : ℝ, s'.getValue .point ⟨c.sys.id, p⟩ = .ok (.point (x + t * (u - x)) (y + t * (v - y))) ∧ s'.getValue .point ⟨c.sys.id, q⟩ = .ok (.point (u - t * (u - x)) (v - t * (v - y))) := by
  have hne' : p ≠ q := by
    rintro rfl
    rw [hpv] at hqv
    simp only [Except.ok.injEq, ElementValue.point.injEq] at hqv
    exact hne (Prod.ext hqv.1 hqv.2)
  have hboth : ∀ r ∈ ({p, q} : Finset Nat), r = p ∨ r = q := fun r hr => by simpa using hr
  have hS : ((Store.empty ℝ).run ops).OnlySegments {p, q} := by
    refine ⟨fun r hr => ?_, fun con hcon => ?_⟩
    · rcases hboth r hr with rfl | rfl
      · exact hpq.1
      · exact hpq.2.1
    · rcases honly con hcon with ⟨d, rfl | rfl⟩ | hno
      · exact .inr ⟨by simp [Store.actsOn], .inl ⟨_, _, _, rfl⟩⟩
      · exact .inr ⟨by simp [Store.actsOn], .inl ⟨_, _, _, rfl⟩⟩
      · refine .inl fun r hr hr' => ?_
        rcases hboth r hr' with rfl | rfl
        · exact hno.1 hr
        · exact hno.2 hr
  have hL : ((Store.empty ℝ).run ops).Loose {p, q} := by
    refine ⟨fun r hr => ?_, fun con hcon => ?_⟩
    · rcases hboth r hr with rfl | rfl
      · exact ⟨hpq.1, hpq.2.2.1⟩
      · exact ⟨hpq.2.1, hpq.2.2.2⟩
    · rcases honly con hcon with ⟨d, rfl | rfl⟩ | hno
      · exact .inl (by simp [Store.actsOn])
      · exact .inl (by simp [Store.actsOn])
      · refine .inr fun r hr hr' => ?_
        rcases hboth r hr' with rfl | rfl
        · exact hno.1 hr
        · exact hno.2 hr
  have hline := C92_line_kept_partial h hnz hshort cast hsort hd hdist hp hs hS (a := -(v - y)) (b := u - x) (κ := -(v - y) * x + (u - x) * y) (fun r hr => by
    rcases hboth r hr with rfl | rfl
    · exact ⟨x, y, hpv, rfl⟩
    · exact ⟨u, v, hqv, by ring⟩)
  obtain ⟨X, Y, X', Y', h1, h2, h3⟩ := C86_centroid_stays_partial h hnz hn hd hp cast hsort hshort hdist hs hL
  obtain ⟨x1, y1, h4, h5⟩ := hline p (by simp)
  obtain ⟨p1, p2⟩ := h1 p (by simp)
  obtain ⟨q1, q2⟩ := h1 q (by simp)
  rw [hpv] at p1
  rw [hqv] at q1
  rw [h4] at p2
  simp only [Except.ok.injEq, ElementValue.point.injEq] at p1 q1 p2
  rw [Finset.sum_pair hne', Finset.sum_pair hne', ← p1.1, ← q1.1, ← p2.1] at h2
  rw [Finset.sum_pair hne', Finset.sum_pair hne', ← p1.2, ← q1.2, ← p2.2] at h3
  have hw : ∃ t : ℝ, x1 = x + t * (u - x) ∧ y1 = y + t * (v - y) := by
    by_cases hux : u - x = 0
    · have hvy : v - y ≠ 0 := fun hc => hne (Prod.ext (by linarith) (by linarith))
      refine ⟨(y1 - y) / (v - y), ?_, ?_⟩
      · rw [hux] at h5 ⊢
        have : (v - y) * (x1 - x) = 0 := by linarith
        rcases mul_eq_zero.1 this with hc | hc
        · exact absurd hc hvy
        · linarith
      · field_simp
        ring
    · refine ⟨(x1 - x) / (u - x), ?_, ?_⟩
      · field_simp
        ring
      · field_simp
        linarith
  obtain ⟨t, e1, e2⟩ := hw
  refine ⟨t, ?_, ?_⟩
  · rw [h4, e1, e2]
  · rw [q2, show X' q = u - t * (u - x) by linarith, show Y' q = v - t * (v - y) by linarith]

end

/-- Two points and a distance that does not hold, beside a fixed point with a distance to another one. -/
noncomputable def sharedWayOps : List (Op ℝ) :=
  [.createPoint 1 0, .createPoint 4 4, .createPoint 7 0, .createPoint 7 1, .createCon (.pointPointDistance 0 1 3), .createCon (.pointPointDistance 1 0 3), .createCon (.pointPointDistance 2 3 2), .fix .point 2]

/-- A case for C93. -/
example : ∃ c, Reaches 0 sharedWayOps c ∧ ((Store.empty ℝ).run sharedWayOps).NonZero ∧ NeverJoins ((Store.empty ℝ).run sharedWayOps).arguments ∧ sharedWayOps.length < 2 ^ 24 ∧ ((Store.empty ℝ).run sharedWayOps).Distinct ∧
    (((Store.empty ℝ).run sharedWayOps).IsPoint 0 ∧ ((Store.empty ℝ).run sharedWayOps).IsPoint 1 ∧ 0 ∉ ((Store.empty ℝ).run sharedWayOps).fixed ∧ 1 ∉ ((Store.empty ℝ).run sharedWayOps).fixed) ∧
    (∀ con ∈ ((Store.empty ℝ).run sharedWayOps).cons, (∃ d, con = .pointPointDistance 0 1 d ∨ con = .pointPointDistance 1 0 d) ∨
      0 ∉ ((Store.empty ℝ).run sharedWayOps).actsOn con ∧ 1 ∉ ((Store.empty ℝ).run sharedWayOps).actsOn con) ∧
    c.sys.getValue .point ⟨c.sys.id, 0⟩ = .ok (.point 1 0) ∧ c.sys.getValue .point ⟨c.sys.id, 1⟩ = .ok (.point 4 4) ∧ ((1 : ℝ), (0 : ℝ)) ≠ (4, 4) := by
  obtain ⟨c, h⟩ := exists_reaches 0 sharedWayOps (by
    simp [sharedWayOps, Store.LegalRun, Store.Legal, Store.empty, Store.step, Store.IsPoint, Store.ConOk, Elem.kind]) (by simp [sharedWayOps])
  have hc : ((Store.empty ℝ).run sharedWayOps).cons = [.pointPointDistance 0 1 3, .pointPointDistance 1 0 3, .pointPointDistance 2 3 2] := rfl
  have he : ((Store.empty ℝ).run sharedWayOps).elems = [.point 1 0, .point 4 4, .point 7 0, .point 7 1] := rfl
  have ha : ((Store.empty ℝ).run sharedWayOps).arguments = [[0, 1], [1, 0], [2, 3]] := rfl
  have hfx : ((Store.empty ℝ).run sharedWayOps).fixed = {2} := by
    simp [sharedWayOps, Store.run, Store.empty, Store.step, Store.primitives]
  have read : ∀ {i : Nat} {u v : ℝ}, ((Store.empty ℝ).run sharedWayOps).elems[i]? = some (.point u v) → c.sys.getValue .point ⟨c.sys.id, i⟩ = .ok (.point u v) := by
    intro i u v h1
    obtain ⟨w, h3, h4⟩ := h.crel.getValue h1
    rw [Store.value, h1] at h3
    cases h3
    exact h4
  refine ⟨c, h, ⟨.point 1 0, by rw [he]; simp, .inl ⟨1, 0, rfl, .inl one_ne_zero⟩⟩, ?_, by simp [sharedWayOps], fun con hcon => ?_, ⟨⟨1, 0, rfl⟩, ⟨4, 4, rfl⟩, by rw [hfx]; simp, by rw [hfx]; simp⟩,
    fun con hcon => ?_, read (by rw [he]; rfl), read (by rw [he]; rfl), by simp⟩
  · rw [ha]
    intro m l hm i hi j hj hci hcj
    match m with
    | 0 => obtain ⟨k, hk, -⟩ := hci; simp at hk
    | 1 =>
      cases hm
      have : Spec.Touch [[0, 1]] i j := ⟨[0, 1], by simp, by simpa [or_comm] using hi, by simpa [or_comm] using hj⟩
      exact .single this
    | 2 =>
      cases hm
      obtain ⟨k, hk, hik⟩ := hci
      simp only [List.take_succ_cons, List.take_zero, List.mem_cons, List.not_mem_nil, or_false] at hk hi
      rcases hk with rfl | rfl <;> simp at hik <;> omega
    | m + 3 => simp at hm
  · rw [hc] at hcon
    simp only [List.mem_cons, List.not_mem_nil, or_false] at hcon
    rcases hcon with rfl | rfl | rfl <;> simp [Store.pointsOf]
  · rw [hc] at hcon
    simp only [List.mem_cons, List.not_mem_nil, or_false] at hcon
    rcases hcon with rfl | rfl | rfl
    · exact .inl ⟨_, .inl rfl⟩
    · exact .inl ⟨_, .inr rfl⟩
    · exact .inr ⟨by simp [Store.actsOn], by simp [Store.actsOn]⟩

end Fiksi
