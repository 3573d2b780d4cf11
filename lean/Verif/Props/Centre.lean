import Verif.Props.Contradict
/-!
# A point that is asked to be at several fixed points ends at their centre (C88)
-/
namespace Fiksi
open Spec

/-- All constraints are coincidences of the point `p` with fixed points, the `n`-th with one at `at_ n`. -/
def Spec.Store.Pinned (st : Store ℝ) (p : Nat) (at_ : Nat → ℝ × ℝ) : Prop := ∀ (n : Nat) con, st.cons[n]? = some con →
  ∃ q, (con = .pointPointCoincidence p q ∨ con = .pointPointCoincidence q p) ∧ q ∈ st.fixed ∧ st.elems[q]? = some (.point (at_ n).1 (at_ n).2)

/-- The squared distance to the mean is the smallest: what is over is the number of points times the squared distance from the mean. -/
theorem sum_squares_mean (m : Nat) (x : Nat → ℝ) (a : ℝ) (hm : 0 < m) :
    ∑ n ∈ Finset.range m, (x n - a) ^ 2 = ∑ n ∈ Finset.range m, (x n - (∑ n ∈ Finset.range m, x n) / m) ^ 2 + m * (a - (∑ n ∈ Finset.range m, x n) / m) ^ 2 := by
  have hm' : (m : ℝ) ≠ 0 := by positivity
  set S := ∑ n ∈ Finset.range m, x n with hS
  have h1 : ∀ b : ℝ, ∑ n ∈ Finset.range m, (x n - b) ^ 2 = ∑ n ∈ Finset.range m, x n ^ 2 - 2 * b * S + m * b ^ 2 := by
    intro b
    have : ∀ n ∈ Finset.range m, (x n - b) ^ 2 = x n ^ 2 - 2 * b * x n + b ^ 2 := fun n _ => by ring
    rw [Finset.sum_congr rfl this, Finset.sum_add_distrib, Finset.sum_sub_distrib, ← Finset.mul_sum, Finset.sum_const, Finset.card_range, nsmul_eq_mul]
  rw [h1 a, h1 (S / m)]
  field_simp
  ring

section
variable {counter : Nat} {ops : List (Op ℝ)} {c : Client ℝ} (h : Reaches counter ops c)
  {p : Nat} {at_ : Nat → ℝ × ℝ} (hpin : ((Store.empty ℝ).run ops).Pinned p at_)

include hpin in
theorem pinned_neverJoins : NeverJoins ((Store.empty ℝ).run ops).arguments := by
  have hall : ∀ l ∈ ((Store.empty ℝ).run ops).arguments, p ∈ l := by
    intro l hl
    obtain ⟨con, hcon, rfl⟩ := List.mem_map.1 hl
    obtain ⟨n, hn⟩ := List.getElem?_of_mem hcon
    obtain ⟨q, rfl | rfl, -⟩ := hpin n con hn <;> simp [Store.actsOn]
  intro m l hm i hi j hj ⟨l1, h1, h2⟩ ⟨l2, h3, h4⟩
  exact (Relation.ReflTransGen.single ⟨l1, h1, h2, hall _ (List.mem_of_mem_take h1)⟩).trans (.single ⟨l2, h3, hall _ (List.mem_of_mem_take h3), h4⟩)

include h hpin in
/-- C88 (partial), what the compromise is for a single loose point: a point that is asked to coincide with any number of fixed points at different places ends at their centre (the mean of their places), up
to a small part of their root mean square distance from it and a small number. -/
theorem C88_pinned_point_centre_partial (hp : ((Store.empty ℝ).run ops).IsPoint p) (hfree : p ∉ ((Store.empty ℝ).run ops).fixed) (hm : ((Store.empty ℝ).run ops).cons ≠ [])
    (hnz : ((Store.empty ℝ).run ops).NonZero) (hshort : ops.length < 500) (cast : ℝ → Int) {sort : SortByKey} (hsort : Spec.Sorts sort) {ord : HashOrder} (hord : ord.Ok) {opts : SolvingOptions}
    (hd : opts.decomposer = .none) (ho : opts.optimizer = .levenbergMarquardt) {m : Nat} (hmm : m = ((Store.empty ℝ).run ops).cons.length) {X Y : ℝ}
    (hX : X = (∑ n ∈ Finset.range m, (at_ n).1) / m) (hY : Y = (∑ n ∈ Finset.range m, (at_ n).2) / m) :
    ∃ s' k, (∀ fuel, k ≤ fuel → c.sys.solve (crateOptimize (qrLeastSquares sort (colamdOfStructure cast)) fuel) ord opts = .ok s') ∧ ∃ a b, s'.getValue .point ⟨counter, p⟩ = .ok (.point a b) ∧
      ((a - X) ^ 2 + (b - Y) ^ 2) * (1 - (2 * (ops.length : ℝ) + 2) ^ 2 / (3 * 10 ^ 6)) ≤
        (2 * (ops.length : ℝ) + 2) ^ 2 / (3 * 10 ^ 6) * ((∑ n ∈ Finset.range m, (((at_ n).1 - X) ^ 2 + ((at_ n).2 - Y) ^ 2)) / m) +
          (c.sys.scale * max (1 / 10 ^ 4) (((ops.length : ℝ) + 5) / 10 ^ 6)) ^ 2 := by
  have hco : ((Store.empty ℝ).run ops).OnlyCoincidences := fun con hcon => by
    obtain ⟨n, hn⟩ := List.getElem?_of_mem hcon
    obtain ⟨q, h1 | h1, -⟩ := hpin n con hn
    exacts [⟨_, _, h1⟩, ⟨_, _, h1⟩]
  obtain ⟨s', k, hk, r, hr1, hr2⟩ := C88_best_compromise_partial h hco (pinned_neverJoins hpin) hnz hshort cast hsort hord hd ho
  obtain ⟨result, h1⟩ := C25_solve_is_a_call h (by omega) hord (hk k le_rfl)
  obtain ⟨-, hres, -⟩ := (legalRun_append _ _ _).1 h1.legal
  have hcons : ((Store.empty ℝ).run (ops ++ [.solve result])).cons = ((Store.empty ℝ).run ops).cons := by
    rw [Store.run, List.foldl_append]; rfl
  have helems : ((Store.empty ℝ).run (ops ++ [.solve result])).elems = result := by
    rw [Store.run, List.foldl_append]; rfl
  have hid : s'.id = counter := h1.sysId
  have hid0 : c.sys.id = counter := h.sysId
  have hlt : p < result.length := by
    obtain ⟨x, y, hxy⟩ := hp
    rw [← hres.length_eq]
    exact lt_of_getElem? hxy
  obtain ⟨a, b, hab⟩ : ∃ a b, result[p]? = some (.point a b) := by
    obtain ⟨x, y, hxy⟩ := hp
    have h2 := hres.get (lt_of_getElem? hxy) hlt
    have h3 : ((Store.empty ℝ).run ops).elems[p]'(lt_of_getElem? hxy) = .point x y := Option.some.inj (by rw [← List.getElem?_eq_getElem, hxy])
    rw [List.get_eq_getElem, List.get_eq_getElem, h3] at h2
    rw [List.getElem?_eq_getElem hlt]
    generalize result[p] = e at h2
    cases e <;> simp_all [SameShape]
  have hread : s'.getValue .point ⟨counter, p⟩ = .ok (.point a b) := by
    obtain ⟨v, h2, h3⟩ := h1.crel.getValue (i := p) (by rw [helems]; exact hab)
    rw [Store.value, helems, hab] at h2
    cases h2
    rw [← hid]
    exact h3
  have hfix : ∀ q ∈ ((Store.empty ℝ).run ops).fixed, ∀ x y, ((Store.empty ℝ).run ops).elems[q]? = some (.point x y) → result[q]? = some (.point x y) := by
    intro q hq x y hxy
    obtain ⟨v, h2, h3⟩ := C23_fixed_not_moved_partial h hord (by rw [hd]; simp) (hk k le_rfl) hxy (by simpa [Store.primitives, hxy] using hq)
    obtain ⟨v', h4, h5⟩ := h.crel.getValue hxy
    rw [h2] at h5
    cases h5
    rw [Store.value, hxy] at h4
    cases h4
    obtain ⟨-, e, h6, h7, h8⟩ := h1.crel.getValue_inv (i := q) (h1.crel.elemHandle (by
      rw [helems, ← hres.length_eq]
      exact lt_of_getElem? hxy)) (tag := .point) (v := .point x y) (by
      have : ({ c with sys := s' } : Client ℝ).sys.id = c.sys.id := hid.trans hid0.symm
      rw [this]
      exact h3)
    rw [helems] at h6
    rw [Store.value, helems, h6] at h8
    rw [h6]
    cases e <;> simp_all [Elem.kind]
  refine ⟨s', k, hk, a, b, hread, ?_⟩
  have hlen : 0 < m := by
    rw [hmm]
    exact List.length_pos_of_ne_nil hm
  have hsq : ∀ n ∈ Finset.range m, r n ^ 2 = ((at_ n).1 - a) ^ 2 + ((at_ n).2 - b) ^ 2 := by
    intro n hn
    rw [Finset.mem_range, hmm] at hn
    have hcon := List.getElem?_eq_getElem hn
    obtain ⟨q, hq, hqf, hqe⟩ := hpin n _ hcon
    have hq2 := hfix q hqf _ _ hqe
    rcases hq with hq | hq
    · rw [hq] at hcon
      obtain ⟨ρ, h2, h3⟩ := h1.crel.calculateResidual (i := n) (by rw [hcons]; exact hcon)
      have h4 := hr1 n _ p q (h.crel.conHandle hn) hcon
      have h5 : s'.calculateResidual .pointPointCoincidence ⟨c.sys.id, n⟩ = .ok ρ := by rw [hid0, ← hid]; exact h3
      rw [h5] at h4
      cases h4
      simp only [storeResidual, ptOf, helems, hab, hq2, elemValues] at h2
      rw [← Except.ok.inj h2]
      show (√(sumSquares [(at_ n).1 - a, (at_ n).2 - b])) ^ 2 = _
      have h6 : sumSquares [(at_ n).1 - a, (at_ n).2 - b] = ((at_ n).1 - a) ^ 2 + ((at_ n).2 - b) ^ 2 := by
        simp only [sumSquares, List.foldl_cons, List.foldl_nil]; ring
      rw [h6, Real.sq_sqrt (by positivity)]
    · rw [hq] at hcon
      obtain ⟨ρ, h2, h3⟩ := h1.crel.calculateResidual (i := n) (by rw [hcons]; exact hcon)
      have h4 := hr1 n _ q p (h.crel.conHandle hn) hcon
      have h5 : s'.calculateResidual .pointPointCoincidence ⟨c.sys.id, n⟩ = .ok ρ := by rw [hid0, ← hid]; exact h3
      rw [h5] at h4
      cases h4
      simp only [storeResidual, ptOf, helems, hab, hq2, elemValues] at h2
      rw [← Except.ok.inj h2]
      show (√(sumSquares [a - (at_ n).1, b - (at_ n).2])) ^ 2 = _
      have h6 : sumSquares [a - (at_ n).1, b - (at_ n).2] = ((at_ n).1 - a) ^ 2 + ((at_ n).2 - b) ^ 2 := by
        simp only [sumSquares, List.foldl_cons, List.foldl_nil]; ring
      rw [h6, Real.sq_sqrt (by positivity)]
  classical
  let place : Nat → ℝ × ℝ := fun i => if i = p then (X, Y) else match ((Store.empty ℝ).run ops).elems[i]? with
    | some (.point x y) => (x, y)
    | _ => (0, 0)
  have hne : ∀ q ∈ ((Store.empty ℝ).run ops).fixed, q ≠ p := fun q hq e => hfree (e ▸ hq)
  have hpl : ((Store.empty ℝ).run ops).Allowed place := by
    intro i hi x y hxy
    simp only [place, if_neg (hne i hi), hxy]
  have hmis : ∀ n ∈ Finset.range m, ((Store.empty ℝ).run ops).misfit place n = ((at_ n).1 - X) ^ 2 + ((at_ n).2 - Y) ^ 2 := by
    intro n hn
    rw [Finset.mem_range, hmm] at hn
    have hcon := List.getElem?_eq_getElem hn
    obtain ⟨q, hq, hqf, hqe⟩ := hpin n _ hcon
    have hP : place p = (X, Y) := if_pos rfl
    have hQ : place q = at_ n := by simp only [place, if_neg (hne q hqf), hqe]
    rcases hq with hq | hq <;> rw [hq] at hcon <;> simp only [Store.misfit, hcon, hP, hQ]
    ring
  have key := hr2 place hpl
  rw [← hmm, Finset.sum_congr rfl hsq, Finset.sum_add_distrib, Finset.sum_add_distrib, Finset.sum_congr rfl hmis, Finset.sum_const, Finset.card_range, nsmul_eq_mul, Finset.sum_add_distrib,
    sum_squares_mean m (fun n => (at_ n).1) a hlen, sum_squares_mean m (fun n => (at_ n).2) b hlen, ← hX, ← hY] at key
  rw [Finset.sum_add_distrib]
  have hm0 : (0 : ℝ) < m := by exact_mod_cast hlen
  generalize ∑ n ∈ Finset.range m, ((at_ n).1 - X) ^ 2 = A at key ⊢
  generalize ∑ n ∈ Finset.range m, ((at_ n).2 - Y) ^ 2 = B at key ⊢
  generalize (2 * (ops.length : ℝ) + 2) ^ 2 / (3 * 10 ^ 6) = κ at key ⊢
  generalize (c.sys.scale * max (1 / 10 ^ 4) (((ops.length : ℝ) + 5) / 10 ^ 6)) ^ 2 = τ at key ⊢
  refine le_of_mul_le_mul_left ?_ hm0
  have h2 : (m : ℝ) * (κ * ((A + B) / m) + τ) = κ * (A + B) + m * τ := by field_simp
  rw [h2]
  nlinarith [key]

end

/-- The case of `tornOps`: the third point is asked to be at (0, 0) and at (4, 0); the theorem says that it ends at (2, 0), up to less than `0.02` (`ops.length` is 7, the unit of length is `√3`). -/
example : ((Store.empty ℝ).run tornOps).Pinned 2 (fun n => (4 * n, 0)) ∧ ((Store.empty ℝ).run tornOps).IsPoint 2 ∧ 2 ∉ ((Store.empty ℝ).run tornOps).fixed ∧ ((Store.empty ℝ).run tornOps).cons ≠ [] ∧
    ((Store.empty ℝ).run tornOps).NonZero ∧ (∑ n ∈ Finset.range 2, (4 * n : ℝ)) / 2 = 2 := by
  refine ⟨?_, ⟨1, 1, rfl⟩, by simp [tornOps, Store.run, Store.empty, Store.step, Store.primitives], by simp [tornOps, Store.run, Store.empty, Store.step],
    ⟨.point 4 0, by simp [tornOps, Store.run, Store.empty, Store.step], .inl ⟨4, 0, rfl, .inl (by norm_num)⟩⟩, by norm_num [Finset.sum_range_succ]⟩
  intro n con hcon
  have hc : ((Store.empty ℝ).run tornOps).cons = [.pointPointCoincidence 2 0, .pointPointCoincidence 2 1] := rfl
  rw [hc] at hcon
  match n, hcon with
  | 0, hcon => cases hcon; exact ⟨0, .inl rfl, by simp [tornOps, Store.run, Store.empty, Store.step, Store.primitives], by simp [tornOps, Store.run, Store.empty, Store.step]⟩
  | 1, hcon => cases hcon; exact ⟨1, .inl rfl, by simp [tornOps, Store.run, Store.empty, Store.step, Store.primitives], by simp [tornOps, Store.run, Store.empty, Store.step]⟩

end Fiksi
