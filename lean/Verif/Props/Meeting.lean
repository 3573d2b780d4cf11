import Mathlib.Combinatorics.SimpleGraph.Paths
import Mathlib.Combinatorics.SimpleGraph.Connectivity.Connected
import Verif.Props.Coincidence
import Verif.Props.Centroid
/-!
# C89: points that shall coincide meet at their centroid
-/
namespace Fiksi
open Spec

/-- What the residual of a coincidence says about the places that the API reports. -/
theorem Reaches.coincidence_read {counter : Nat} {ops : List (Op ℝ)} {c : Client ℝ} (h : Reaches counter ops c) {n p q : Nat} (hcon : ((Store.empty ℝ).run ops).cons[n]? = some (.pointPointCoincidence p q))
    {x y x' y' r : ℝ} (hp : c.sys.getValue .point ⟨c.sys.id, p⟩ = .ok (.point x y)) (hq : c.sys.getValue .point ⟨c.sys.id, q⟩ = .ok (.point x' y'))
    (hr : c.sys.calculateResidual .pointPointCoincidence ⟨c.sys.id, n⟩ = .ok r) : r = dist (⟨x, y⟩ : ℂ) ⟨x', y'⟩ := by
  obtain ⟨⟨a, b, ha⟩, ⟨a', b', ha'⟩⟩ := h.crel.rel.wfCon _ (List.mem_of_getElem? hcon)
  have read : ∀ {i : Nat} {u v u' v' : ℝ}, ((Store.empty ℝ).run ops).elems[i]? = some (.point u v) → c.sys.getValue .point ⟨c.sys.id, i⟩ = .ok (.point u' v') → u' = u ∧ v' = v := by
    intro i u v u' v' h1 h2
    obtain ⟨w, h3, h4⟩ := h.crel.getValue h1
    rw [Store.value, h1] at h3
    cases h3
    have := h2.symm.trans h4
    simpa using this
  obtain ⟨rfl, rfl⟩ := read ha hp
  obtain ⟨rfl, rfl⟩ := read ha' hq
  obtain ⟨ρ, h2, h3⟩ := h.crel.calculateResidual hcon
  have := hr.symm.trans h3
  rw [Except.ok.inj this]
  simp only [storeResidual, ptOf, ha, ha', elemValues] at h2
  rw [← Except.ok.inj h2, Complex.dist_eq, Complex.norm_def]
  show √(sumSquares [x' - x, y' - y]) = _
  congr 1
  simp only [sumSquares, List.foldl_cons, List.foldl_nil, Complex.normSq_apply, Complex.sub_re, Complex.sub_im]
  ring

/-- In a finite set that no step leaves, two linked elements are at most as many steps apart as the set has other elements. -/
theorem spread_of_steps {S : Finset Nat} {T : Nat → Nat → Prop} (hT : ∀ i j, T i j → T j i) (hS : ∀ i ∈ S, ∀ j, T i j → j ∈ S) {z : Nat → ℂ} {τ : ℝ} (hz : ∀ i ∈ S, ∀ j ∈ S, T i j → dist (z i) (z j) ≤ τ)
    (hτ : 0 ≤ τ) {i j : Nat} (hi : i ∈ S) (hij : Relation.ReflTransGen T i j) : dist (z i) (z j) ≤ ((S.card : ℝ) - 1) * τ := by
  classical
  let G : SimpleGraph Nat := { Adj := fun a b => a ≠ b ∧ T a b, symm := ⟨fun a b hab => ⟨hab.1.symm, hT _ _ hab.2⟩⟩, loopless := ⟨fun a ha => ha.1 rfl⟩ }
  have hreach : G.Reachable i j := by
    induction hij with
    | refl => exact .refl _
    | @tail b d _ hbd ih =>
      by_cases hne : b = d
      · exact hne ▸ ih
      · exact ih.trans (SimpleGraph.Adj.reachable (⟨hne, hbd⟩ : G.Adj b d))
  obtain ⟨w⟩ := hreach
  obtain ⟨w, hw⟩ := w.toPath
  have hsup : ∀ {a b : Nat} (w : G.Walk a b), a ∈ S → (∀ v ∈ w.support, v ∈ S) ∧ dist (z a) (z b) ≤ w.length * τ := by
    intro a b w
    induction w with
    | nil => intro ha; simp [ha]
    | @cons u v t hadj w ih =>
      intro ha
      have hv := hS _ ha _ hadj.2
      obtain ⟨h1, h2⟩ := ih hv
      refine ⟨fun x hx => ?_, ?_⟩
      · rw [SimpleGraph.Walk.support_cons, List.mem_cons] at hx
        rcases hx with rfl | hx
        exacts [ha, h1 x hx]
      · have := dist_triangle (z u) (z v) (z t)
        have h3 := hz u ha v hv hadj.2
        rw [SimpleGraph.Walk.length_cons]
        push_cast
        linarith
  obtain ⟨h1, h2⟩ := hsup w hi
  have hlen : w.length + 1 ≤ S.card := by
    rw [← SimpleGraph.Walk.length_support, ← List.toFinset_card_of_nodup hw.support_nodup]
    exact Finset.card_le_card fun v hv => h1 v (List.mem_toFinset.1 hv)
  refine h2.trans (mul_le_mul_of_nonneg_right ?_ hτ)
  have : ((w.length + 1 : ℕ) : ℝ) ≤ S.card := by exact_mod_cast hlen
  push_cast at this
  linarith

/-- Points that are close to each other are close to their centroid. -/
theorem dist_centroid_le {S : Finset Nat} {z : Nat → ℂ} {p : Nat} (hp : p ∈ S) {B : ℝ} (hB : ∀ q ∈ S, dist (z p) (z q) ≤ B) : dist (z p) ((∑ q ∈ S, z q) / (S.card : ℂ)) ≤ B := by
  have hc : (0 : ℝ) < S.card := by exact_mod_cast Finset.card_pos.2 ⟨p, hp⟩
  have hc' : (S.card : ℂ) ≠ 0 := by exact_mod_cast hc.ne'
  have h1 : z p - (∑ q ∈ S, z q) / (S.card : ℂ) = (∑ q ∈ S, (z p - z q)) / (S.card : ℂ) := by
    rw [Finset.sum_sub_distrib, Finset.sum_const, nsmul_eq_mul]
    field_simp
  rw [dist_eq_norm, h1, norm_div, Complex.norm_natCast, div_le_iff₀ hc]
  refine (norm_sum_le _ _).trans ((Finset.sum_le_card_nsmul S _ B fun q hq => ?_).trans ?_)
  · rw [← dist_eq_norm]; exact hB q hq
  · rw [nsmul_eq_mul, mul_comm]

section
variable {counter : Nat} {ops : List (Op ℝ)} {c : Client ℝ} (h : Reaches counter ops c)
include h

/-- C89 (partial): points that shall coincide meet at their centroid. After any legal history of fewer than 500 calls that has only made coincidences that can be satisfied, in which no constraint joins two
constrained parts, for every set of points none of which is fixed, which are linked to each other by coincidences and to nothing else: `solve` with `Decomposer::None`, Levenberg–Marquardt (with the sparse
QR of the crates) and no perturbation returns, and afterwards each of the points is at the centroid of the places where they were, up to the tolerance of C69 for each of the others. (Full statement: for all
options and histories; false, see `C86_singlePass_shifts` and `C86_joined_shifts`.) -/
theorem C89_meet_at_centroid_partial (hn : NeverJoins ((Store.empty ℝ).run ops).arguments) (hnz : ((Store.empty ℝ).run ops).NonZero) (hco : ((Store.empty ℝ).run ops).OnlyCoincidences)
    (hpl : ((Store.empty ℝ).run ops).Placeable) (hshort : ops.length < 500) (cast : ℝ → Int) {sort : SortByKey} (hsort : Spec.Sorts sort) {ord : HashOrder} (hord : ord.Ok) {opts : SolvingOptions}
    (hd : opts.decomposer = .none) (ho : opts.optimizer = .levenbergMarquardt) (hp : opts.perturb = false) :
    ∃ s' k, (∀ fuel, k ≤ fuel → c.sys.solve (crateOptimize (qrLeastSquares sort (colamdOfStructure cast)) fuel) ord opts = .ok s') ∧
      ∀ S : Finset Nat, ((Store.empty ℝ).run ops).Loose S → (∀ i ∈ S, ∀ j ∈ S, Spec.Linked ((Store.empty ℝ).run ops).arguments i j) →
        ∃ x y x' y' : Nat → ℝ, (∀ p ∈ S, c.sys.getValue .point ⟨c.sys.id, p⟩ = .ok (.point (x p) (y p)) ∧ s'.getValue .point ⟨c.sys.id, p⟩ = .ok (.point (x' p) (y' p))) ∧
          ∀ p ∈ S, dist (⟨x' p, y' p⟩ : ℂ) ((∑ q ∈ S, (⟨x q, y q⟩ : ℂ)) / (S.card : ℂ)) ≤ ((S.card : ℝ) - 1) * (√2 * (c.sys.scale * max (1 / 10 ^ 4) (((ops.length : ℝ) + 5) / 10 ^ 6))) := by
  obtain ⟨s', k, hk, hres⟩ := C69_coincidences_solved_partial h hn hnz hco hpl hshort cast hsort hord hd ho
  refine ⟨s', k, hk, fun S hS hlink => ?_⟩
  obtain ⟨x, y, x', y', h1, h2, h3⟩ := C86_centroid_stays_partial h hnz hn hd hp cast hsort (by omega) (by rw [ho]; simp) (hk k le_rfl) hS
  refine ⟨x, y, x', y', h1, fun p hpS => ?_⟩
  have hsum : ∑ q ∈ S, (⟨x q, y q⟩ : ℂ) = ∑ q ∈ S, (⟨x' q, y' q⟩ : ℂ) := by
    apply Complex.ext
    · simpa [Complex.re_sum] using h2.symm
    · simpa [Complex.im_sum] using h3.symm
  rw [hsum]
  obtain ⟨result, hre⟩ := C25_solve_is_a_call h (by omega) hord (hk k le_rfl)
  have hcons : ((Store.empty ℝ).run (ops ++ [.solve result])).cons = ((Store.empty ℝ).run ops).cons := by
    rw [Store.run, List.foldl_append]; rfl
  have hid : s'.id = c.sys.id := (hre.sysId (c := { c with sys := s' })).trans h.sysId.symm
  set τ := √2 * (c.sys.scale * max (1 / 10 ^ 4) (((ops.length : ℝ) + 5) / 10 ^ 6)) with hτ
  have hτ0 : 0 ≤ τ := mul_nonneg (Real.sqrt_nonneg _) (mul_nonneg (h.scale_pos hnz).le (le_max_of_le_left (by norm_num)))
  have step : ∀ i ∈ S, ∀ j ∈ S, Touch ((Store.empty ℝ).run ops).arguments i j → dist (⟨x' i, y' i⟩ : ℂ) ⟨x' j, y' j⟩ ≤ τ := by
    rintro i hi j hj ⟨l, hl, hil, hjl⟩
    obtain ⟨con, hcon, rfl⟩ := List.mem_map.1 hl
    obtain ⟨a, b, rfl⟩ := hco con hcon
    obtain ⟨n, hn'⟩ := List.getElem?_of_mem hcon
    obtain ⟨r, hr1, hr2⟩ := hres n _ a b (h.crel.conHandle (lt_of_getElem? hn')) hn'
    have hab : ∀ a' b', a' = a → b' = b → a' ∈ S → b' ∈ S → dist (⟨x' a', y' a'⟩ : ℂ) ⟨x' b', y' b'⟩ ≤ τ := by
      rintro _ _ rfl rfl ha hb
      have := hre.coincidence_read (by rw [hcons]; exact hn') (by show s'.getValue .point ⟨s'.id, _⟩ = _; rw [hid]; exact (h1 _ ha).2)
        (by show s'.getValue .point ⟨s'.id, _⟩ = _; rw [hid]; exact (h1 _ hb).2) (r := r) (by show s'.calculateResidual _ ⟨s'.id, _⟩ = _; rw [hid]; exact hr1)
      rw [← this]
      exact (le_abs_self r).trans hr2
    simp only [Store.actsOn, List.mem_cons, List.not_mem_nil, or_false] at hil hjl
    rcases hil with e1 | e1 <;> rcases hjl with e2 | e2
    · rw [e1, e2, dist_self]; exact hτ0
    · exact hab i j e1 e2 hi hj
    · rw [dist_comm]; exact hab j i e2 e1 hj hi
    · rw [e1, e2, dist_self]; exact hτ0
  have closed : ∀ i ∈ S, ∀ j, Touch ((Store.empty ℝ).run ops).arguments i j → j ∈ S := by
    rintro i hi j ⟨l, hl, hil, hjl⟩
    obtain ⟨con, hcon, rfl⟩ := List.mem_map.1 hl
    rcases hS.2 con hcon with h4 | h4
    · refine h4 j hjl ?_
      obtain ⟨a, b, rfl⟩ := hco con hcon
      obtain ⟨ha, hb⟩ := h.crel.rel.wfCon _ hcon
      simp only [Store.actsOn, List.mem_cons, List.not_mem_nil, or_false] at hjl
      rcases hjl with rfl | rfl
      exacts [ha, hb]
    · exact absurd hi (h4 i hil)
  refine dist_centroid_le (z := fun q => (⟨x' q, y' q⟩ : ℂ)) hpS fun q hq => ?_
  exact spread_of_steps (T := Touch ((Store.empty ℝ).run ops).arguments) (fun _ _ => Touch.symm) closed step hτ0 hpS (hlink p hpS q hq)

end

/-- Three points, the second to coincide with the first and the third. -/
noncomputable def trioOps : List (Op ℝ) :=
  [.createPoint 0 0, .createPoint 3 0, .createPoint 0 6, .createCon (.pointPointCoincidence 0 1), .createCon (.pointPointCoincidence 1 2)]

/-- A case for C89: the three points meet at (1, 2). -/
example : ∃ c, Reaches 0 trioOps c ∧ NeverJoins ((Store.empty ℝ).run trioOps).arguments ∧ ((Store.empty ℝ).run trioOps).NonZero ∧ ((Store.empty ℝ).run trioOps).OnlyCoincidences ∧
    ((Store.empty ℝ).run trioOps).Placeable ∧ trioOps.length < 500 ∧ ((Store.empty ℝ).run trioOps).Loose {0, 1, 2} ∧
    (∀ i ∈ ({0, 1, 2} : Finset Nat), ∀ j ∈ ({0, 1, 2} : Finset Nat), Spec.Linked ((Store.empty ℝ).run trioOps).arguments i j) ∧
    ((⟨0, 0⟩ : ℂ) + ⟨3, 0⟩ + ⟨0, 6⟩) / 3 = ⟨1, 2⟩ := by
  obtain ⟨c, h⟩ := exists_reaches 0 trioOps (by
    simp [trioOps, Store.LegalRun, Store.Legal, Store.empty, Store.step, Store.IsPoint, Store.ConOk]) (by simp [trioOps])
  have hc : ((Store.empty ℝ).run trioOps).cons = [.pointPointCoincidence 0 1, .pointPointCoincidence 1 2] := rfl
  have ha : ((Store.empty ℝ).run trioOps).arguments = [[0, 1], [1, 2]] := rfl
  have hf : ((Store.empty ℝ).run trioOps).fixed = ∅ := by simp [trioOps, Store.run, Store.empty, Store.step]
  have h01 : Spec.Linked [[0, 1], [1, 2]] 0 1 := Spec.Linked.of_mem (c := [0, 1]) (by simp) (by simp) (by simp)
  have h12 : Spec.Linked [[0, 1], [1, 2]] 1 2 := Spec.Linked.of_mem (c := [1, 2]) (by simp) (by simp) (by simp)
  have to1 : ∀ i ∈ ({0, 1, 2} : Finset Nat), Spec.Linked [[0, 1], [1, 2]] i 1 := by
    intro i hi
    simp only [Finset.mem_insert, Finset.mem_singleton] at hi
    rcases hi with rfl | rfl | rfl
    exacts [h01, .refl _ _, h12.symm]
  refine ⟨c, h, strand_neverJoins, ⟨.point 3 0, by simp [trioOps, Store.run, Store.empty, Store.step], .inl ⟨3, 0, rfl, .inl (by norm_num)⟩⟩, fun con hcon => ?_,
    ⟨fun _ => (1, 2), fun i hi => by rw [hf] at hi; simp at hi, fun _ _ _ => rfl⟩, by simp [trioOps], ⟨fun p hp => ?_, fun con hcon => .inl fun p hp _ => ?_⟩, fun i hi j hj => ?_, ?_⟩
  · rw [hc] at hcon
    simp only [List.mem_cons, List.not_mem_nil, or_false] at hcon
    rcases hcon with rfl | rfl <;> exact ⟨_, _, rfl⟩
  · rw [hf]
    simp only [Finset.mem_insert, Finset.mem_singleton] at hp
    rcases hp with rfl | rfl | rfl <;> exact ⟨⟨_, _, rfl⟩, by simp⟩
  · rw [hc] at hcon
    simp only [List.mem_cons, List.not_mem_nil, or_false] at hcon
    rcases hcon with rfl | rfl <;> (simp only [Store.actsOn, List.mem_cons, List.not_mem_nil, or_false] at hp; rcases hp with rfl | rfl <;> simp)
  · rw [ha]
    exact (to1 i hi).trans (to1 j hj).symm
  · apply Complex.ext <;> norm_num

end Fiksi
