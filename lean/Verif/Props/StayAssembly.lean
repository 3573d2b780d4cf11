import Verif.Props.StayAngles
import Verif.Proofs.StayAssembly
/-!
# A figure that satisfies its constraints stays in place under recursive assembly, in rounded arithmetic (C72)
-/
namespace Fiksi

open Spec Spec.Geo

/-- Leading zeros do not change a sum of squares. -/
theorem normSquared_zeros {A : Arith} {u : ℝ} (hA : A.Accurate u) (n : Nat) (l : List (Fl A)) :
    normSquared ((List.replicate n 0 ++ l).map (fun r => -r)) = normSquared (l.map (fun r => -r)) := by
  have h0 : A.rnd 0 = 0 := by simpa using hA.rnd 0
  have hz : (0 : Fl A) + (-0) * (-0) = 0 := by
    show (⟨A.rnd (0 + A.rnd (-0 * -0))⟩ : Fl A) = ⟨0⟩
    rw [neg_zero, mul_zero, h0, add_zero, h0]
  have : ∀ n, List.foldl (· + ·) (0 : Fl A) (((List.replicate n (0 : Fl A)).map (fun r => -r)).map (fun x => x * x)) = 0 := by
    intro n
    induction n with
    | zero => rfl
    | succ n ih =>
      rw [List.replicate_succ, List.map_cons, List.map_cons, List.foldl_cons]
      rw [hz]
      exact ih
  rw [normSquared, normSquared, List.map_append, List.map_append, List.foldl_append, this]

section
variable {A : Arith} {u : ℝ} (hA : A.Accurate u) (hu : u ≤ 1 / 2 ^ 53)
include hA hu

omit hu in
/-- The identity pose leaves scaled points where they are. -/
theorem scaled_pose (hbin : A.Binary64) (hsin : A.sin 0 = 0) (hcos : A.cos 0 = 1) (s : System (Fl A)) :
    (∀ x ∈ s.scaledVariables, x - x = 0) ∧ ∀ x ∈ s.scaledVariables, ∀ y ∈ s.scaledVariables, (⟨0, 0, 0⟩ : Pose2D (Fl A)).transformPoint x y = (x, y) := by
  have z0 : A.rnd 0 = 0 := by simpa using hA.rnd 0
  have hrep : ∀ x ∈ s.scaledVariables, Representable x.val := by
    intro x hx
    rw [System.scaledVariables, List.mem_map] at hx
    obtain ⟨y, -, rfl⟩ := hx
    exact (hbin _).1
  refine ⟨fun x _ => by show (⟨A.rnd (x.val - x.val)⟩ : Fl A) = ⟨0⟩; rw [sub_self, z0], fun x hx y hy => ?_⟩
  show ((⟨A.rnd (A.rnd (0 + A.rnd (x.val * A.cos 0)) - A.rnd (y.val * A.sin 0))⟩ : Fl A), (⟨A.rnd (A.rnd (0 + A.rnd (x.val * A.sin 0)) + A.rnd (y.val * A.cos 0))⟩ : Fl A)) = (x, y)
  simp only [hsin, hcos, mul_one, mul_zero, zero_add, z0, sub_zero, binary64_exact hbin (hrep x hx), binary64_exact hbin (hrep y hy)]

theorem Reaches.zeros_stop {counter : Nat} {ops : List (Op (Fl A))} {c : Client (Fl A)} (h : Reaches counter ops c) (hshort : ops.length < 2 ^ 17) {B : ℝ}
    (hB : (2 * ops.length : ℕ) * B ^ 2 ≤ 65 / 10 ^ 10) (n : Nat) (r : List (Fl A)) (hr : r.length ≤ c.sys.expressions.length) (hy : ∀ y ∈ r, |y.val| ≤ B) :
    FloatOps.ltB (normSquared ((List.replicate n 0 ++ r).map (fun r => -r))) (ratio 1 (10 ^ 8)) = true := by
  have n2 := (run_size (Store.empty (Fl A)) ops h.legal).2
  have n4 := h.crel.rel.counts
  simp only [Store.empty, List.length_nil, Nat.zero_add] at n2
  have n2' : ((Store.empty (Fl A)).run ops).cons.length ≤ ops.length := n2
  rw [normSquared_zeros hA]
  exact (small_stops hA hu (n := 2 * ops.length) (by omega) hB (by omega) hy).1

/-- Where the residuals of the scaled figure are small, `solve` with recursive assembly leaves it in place. -/
theorem Reaches.assembly_of_small (hbin : A.Binary64) (hsin : A.sin 0 = 0) (hcos : A.cos 0 = 1) {counter : Nat} {ops : List (Op (Fl A))}
    {c : Client (Fl A)} (h : Reaches counter ops c) (hshort : ops.length < 2 ^ 17) (hσ : 0 < ((Store.empty (Fl A)).run ops).real.size) {B : ℝ} (hB0 : 0 ≤ B)
    (hB : (2 * ops.length : ℕ) * B ^ 2 ≤ 65 / 10 ^ 10)
    (hsmall : ∀ e ∈ c.sys.scaledExpressions, ∀ r, e.calculateResidual (identityMap c.sys.scaledVariables) = .ok r → |r.val| ≤ B)
    {ls : LeastSquares (Fl A)} {fuel : Nat} {ord : HashOrder} (hord : ord.Ok) {opts : SolvingOptions} (hd : opts.decomposer = .recursiveAssembly) (hp : opts.perturb = false)
    {s' : System (Fl A)} (hs' : c.sys.solve (crateOptimize ls fuel) ord opts = .ok s') :
    ∃ result, Reaches counter (ops ++ [.solve result]) { c with sys := s' } ∧ List.Forall₂ (Elem.Near (4 * u)) ((Store.empty (Fl A)).run ops).elems result := by
  set st := (Store.empty (Fl A)).run ops with hst
  have hr : Rel c.sys st := h.crel.rel
  obtain ⟨n1, n2⟩ := run_size (Store.empty (Fl A)) ops h.legal
  have n3 := numbers_length st
  simp only [Store.empty, List.length_nil, Nat.zero_add] at n1 n2
  have n1' : st.elems.length ≤ ops.length := n1
  have n2' : st.cons.length ≤ ops.length := n2
  obtain ⟨hs, hk, hkσ⟩ := hr.factor hA hu (by omega) hσ
  obtain ⟨hsub, hid⟩ := scaled_pose hA hbin hsin hcos c.sys
  obtain ⟨h1, h2, h3⟩ := h.assembly_stays (Small := fun y => |y.val| ≤ B) (by show |(0 : ℝ)| ≤ B; rwa [abs_zero]) hsub hid hsmall (h.zeros_stop hA hu hshort hB) hord hd hp hs'
  obtain ⟨result, h4⟩ := C25_solve_is_a_call h (by omega) hord hs'
  refine ⟨result, h4, ?_⟩
  have hst' : (Store.empty (Fl A)).run (ops ++ [.solve result]) = { st with elems := result } := by
    rw [Store.run, List.foldl_append]
    rfl
  have h5 := h4.crel.rel.vars
  rw [hst'] at h5
  simp only at h5
  have h6 : List.Forall₂ SameShape st.elems result := ((legalRun_append _ _ _).1 h4.legal).2.1
  refine near_of_values h6 ?_
  rw [← h5, ← hr.vars, List.forall₂_iff_get]
  refine ⟨h2.symm, fun i hi hi' => ?_⟩
  have h7 := h3 i (c.sys.vars[i]) (List.getElem?_eq_getElem hi)
  simp only [List.get_eq_getElem]
  rw [List.getElem?_eq_getElem hi', Option.some.injEq, Option.some.injEq] at h7
  rcases h7 with h7 | h7
  · rw [h7, sub_self, abs_zero]
    have := hA.pos
    positivity
  · rw [h7]
    exact scale_back hA (hu.trans (by norm_num)) hs _

end

/-- C72 for recursive assembly: in binary64 arithmetic with a library for which `sin 0 = 0` and `cos 0 = 1`, after any legal history of fewer than `2¹³` calls whose constraints are satisfied up to
a ten-millionth of the size of the figure, with lines and arms at least a hundredth of it long and no straight angles: if `solve` with `RecursiveAssembly` and without perturbation returns, then
every coordinate and length has changed by at most four units of roundoff. The number of steps, of clusters and of shared points does not matter: the equations that tie clusters to their points
hold exactly. (Full claim: nothing moves, and for all figures; see `C72_stays_exactly_fails` and `C72_any_stays_partial`. That `solve` may fail to return is C53.) -/
theorem C72_assembly_stays_partial {A : Arith} {u : ℝ} (hA : A.Accurate u) (hu : u ≤ 1 / 2 ^ 53) (hbin : A.Binary64) (hsin : A.sin 0 = 0) (hcos : A.cos 0 = 1) {counter : Nat}
    {ops : List (Op (Fl A))} {c : Client (Fl A)} (h : Reaches counter ops c) (hshort : ops.length < 2 ^ 13) (hσ : 0 < ((Store.empty (Fl A)).run ops).real.size)
    (hroom : ∀ con ∈ ((Store.empty (Fl A)).run ops).cons, Roomy ((Store.empty (Fl A)).run ops).real (((Store.empty (Fl A)).run ops).real.size / 100) con.real)
    (hdev : ∀ con ∈ ((Store.empty (Fl A)).run ops).cons, ∃ x t, Deviation ((Store.empty (Fl A)).run ops).real con.real x t ∧ |x| ≤ ((Store.empty (Fl A)).run ops).real.size ^ con.degree / 10 ^ 7)
    {ls : LeastSquares (Fl A)} {fuel : Nat} {ord : HashOrder} (hord : ord.Ok) {opts : SolvingOptions} (hd : opts.decomposer = .recursiveAssembly) (hp : opts.perturb = false)
    {s' : System (Fl A)} (hs' : c.sys.solve (crateOptimize ls fuel) ord opts = .ok s') :
    ∃ result, Reaches counter (ops ++ [.solve result]) { c with sys := s' } ∧ List.Forall₂ (Elem.Near (4 * u)) ((Store.empty (Fl A)).run ops).elems result := by
  exact h.assembly_of_small hA hu hbin hsin hcos (by omega) hσ (B := 2 / 10 ^ 7) (by norm_num) (few_stop hshort) (h.scaled_any_small hA hu hshort hσ hroom hdev) hord hd hp hs'

/-- C72 for recursive assembly, with plans: if in addition the plans exist and no constraint joins two constrained parts, then `solve` returns, with the linear solver of the crate and whatever `fuel`
is given to its loops. -/
theorem C72_assembly_returns_partial {A : Arith} {u : ℝ} (hA : A.Accurate u) (hu : u ≤ 1 / 2 ^ 53) (hbin : A.Binary64) (hsin : A.sin 0 = 0) (hcos : A.cos 0 = 1) (cast : Fl A → Int)
    {sort : SortByKey} (hsort : Sorts sort) {counter : Nat}
    {ops : List (Op (Fl A))} {c : Client (Fl A)} (h : Reaches counter ops c) (hshort : ops.length < 2 ^ 13) (hσ : 0 < ((Store.empty (Fl A)).run ops).real.size)
    (hroom : ∀ con ∈ ((Store.empty (Fl A)).run ops).cons, Roomy ((Store.empty (Fl A)).run ops).real (((Store.empty (Fl A)).run ops).real.size / 100) con.real)
    (hdev : ∀ con ∈ ((Store.empty (Fl A)).run ops).cons, ∃ x t, Deviation ((Store.empty (Fl A)).run ops).real con.real x t ∧ |x| ≤ ((Store.empty (Fl A)).run ops).real.size ^ con.degree / 10 ^ 7)
    {fuel : Nat} {ord : HashOrder} (hord : ord.Ok) (hn : NeverJoins ((Store.empty (Fl A)).run ops).arguments) {L : Nat} (hL : L < 2 ^ 22) (hplan : c.sys.Planned ord L)
    {opts : SolvingOptions} (hd : opts.decomposer = .recursiveAssembly) (hp : opts.perturb = false) :
    ∃ s' result, c.sys.solve (crateOptimize (qrLeastSquares sort (colamdOfStructure cast) : LeastSquares (Fl A)) fuel) ord opts = .ok s' ∧
      Reaches counter (ops ++ [.solve result]) { c with sys := s' } ∧ List.Forall₂ (Elem.Near (4 * u)) ((Store.empty (Fl A)).run ops).elems result := by
  obtain ⟨hsub, hid⟩ := scaled_pose hA hbin hsin hcos c.sys
  obtain ⟨s', hs'⟩ := h.assembly_returns hn hord hplan (Small := fun y => |y.val| ≤ 2 / 10 ^ 7) (by show |(0 : ℝ)| ≤ _; rw [abs_zero]; norm_num) hsub hid
    (h.scaled_any_small hA hu hshort hσ hroom hdev) (h.zeros_stop hA hu (by omega) (few_stop hshort)) (qrColamd_sturdy cast hsort) (h.fits_steps (by omega) hL) (fuel := fuel) hd hp
  obtain ⟨result, h1, h2⟩ := C72_assembly_stays_partial hA hu hbin hsin hcos h hshort hσ hroom hdev hord hd hp hs'
  exact ⟨s', result, hs', h1, h2⟩

/-! ## Three points with two distances, assembled in two steps -/

/-- Three points at the corners of a square of side 1, and the distances along two sides. -/
noncomputable def elbowOps {A : Arith} : List (Op (Fl A)) :=
  [.createPoint ⟨2⟩ ⟨0⟩, .createPoint ⟨1⟩ ⟨0⟩, .createPoint ⟨1⟩ ⟨1⟩, .createCon (.pointPointDistance 0 1 ⟨1⟩), .createCon (.pointPointDistance 1 2 ⟨1⟩)]

theorem elbow_components {c : Client (Fl binary64)} (h : Reaches 0 elbowOps c) : c.sys.graph.components = [⟨{0, 1, 2}, {0, 1}⟩] := by
  have h2 : okAnd ((Client.new (Fl binary64) 0).run elbowOps) (fun c => c.sys.graph.components.map (fun k => (k.elements, k.constraints)) = [({0, 1, 2}, {0, 1})]) = true := by decide +kernel
  rw [h.run] at h2
  exact components_of_pairs (of_decide_eq_true h2)

theorem elbow_plan {c : Client (Fl binary64)} (h : Reaches 0 elbowOps c) :
    decompose 3 (fun tag => ascendingOrder (0 :: 1 :: tag)) c.sys.graph.toD {0, 1, 2} {0, 1} = .ok [strandStep, chainStep] := by
  have h2 : okAnd ((Client.new (Fl binary64) 0).run elbowOps) (fun c => okAnd (decompose 3 (fun tag => ascendingOrder (0 :: 1 :: tag)) c.sys.graph.toD {0, 1, 2} {0, 1})
    (fun (s : List RecombinationStep) => s.map RecombinationStep.data == [strandStep.data, chainStep.data])) = true := by decide +kernel
  rw [h.run] at h2
  obtain ⟨l, hl, h3⟩ := okAnd_ok (show okAnd (decompose 3 (fun tag => ascendingOrder (0 :: 1 :: tag)) c.sys.graph.toD {0, 1, 2} {0, 1})
    (fun (s : List RecombinationStep) => s.map RecombinationStep.data == [strandStep.data, chainStep.data]) = true from h2)
  rw [hl]
  have h4 : l.map RecombinationStep.data = [strandStep, chainStep].map RecombinationStep.data := by simpa using h3
  rw [List.map_injective_iff.2 (fun a b => RecombinationStep.data_injective) h4]

/-- The hypotheses of `C72_assembly_stays_partial` and `C72_assembly_returns_partial` are met in binary64; the second step of the plan has a cluster. -/
example : ∃ c, Reaches 0 (elbowOps (A := binary64)) c ∧ binary64.Accurate (1 / 2 ^ 53) ∧ binary64.Binary64 ∧ binary64.sin 0 = 0 ∧ binary64.cos 0 = 1 ∧
    0 < ((Store.empty (Fl binary64)).run elbowOps).real.size ∧
    (∀ con ∈ ((Store.empty (Fl binary64)).run elbowOps).cons, Roomy ((Store.empty (Fl binary64)).run elbowOps).real (((Store.empty (Fl binary64)).run elbowOps).real.size / 100) con.real) ∧
    (∀ con ∈ ((Store.empty (Fl binary64)).run elbowOps).cons, ∃ x t, Deviation ((Store.empty (Fl binary64)).run elbowOps).real con.real x t ∧
      |x| ≤ ((Store.empty (Fl binary64)).run elbowOps).real.size ^ con.degree / 10 ^ 7) ∧
    NeverJoins ((Store.empty (Fl binary64)).run elbowOps).arguments ∧ c.sys.Planned ascendingOrder 100 := by
  obtain ⟨c, h⟩ := exists_reaches 0 (elbowOps (A := binary64)) (by
    simp [elbowOps, Store.LegalRun, Store.Legal, Store.empty, Store.step, Store.IsPoint, Store.ConOk]) (by simp [elbowOps])
  set st := ((Store.empty (Fl binary64)).run elbowOps) with hst
  have hp0 : PointIs st.real 0 ⟨2, 0⟩ := (pointIs_iff (x := 2) (y := 0) rfl _).2 rfl
  have hp1 : PointIs st.real 1 ⟨1, 0⟩ := (pointIs_iff (x := 1) (y := 0) rfl _).2 rfl
  have hp2 : PointIs st.real 2 ⟨1, 1⟩ := (pointIs_iff (x := 1) (y := 1) rfl _).2 rfl
  have hmem : ∀ con ∈ st.cons, con = .pointPointDistance 0 1 ⟨1⟩ ∨ con = .pointPointDistance 1 2 ⟨1⟩ := by
    intro con hcon
    have h2 : st.cons = [.pointPointDistance 0 1 ⟨1⟩, .pointPointDistance 1 2 ⟨1⟩] := rfl
    rw [h2] at hcon
    simpa using hcon
  have hpos : 0 < st.real.size := by
    have : st.real.numbers = [2, 0, 1, 0, 1, 1, 1, 1] := rfl
    rw [Store.size, this]
    norm_num
  refine ⟨c, h, binary64_accurate, binary64_ok, Real.sin_zero, Real.cos_zero, hpos, fun con hcon => ?_, fun con hcon => ?_, strand_neverJoins, fun ck hck _ => ?_⟩
  · rcases hmem con hcon with rfl | rfl <;> trivial
  · rcases hmem con hcon with rfl | rfl
    · refine ⟨0, _, ⟨_, _, hp0, hp1, ?_, rfl⟩, by rw [abs_zero]; positivity⟩
      show (0 : ℝ) = _ - 1
      rw [Complex.dist_eq, sub_mk, ← sqrt_sq_add]
      norm_num
    · refine ⟨0, _, ⟨_, _, hp1, hp2, ?_, rfl⟩, by rw [abs_zero]; positivity⟩
      show (0 : ℝ) = _ - 1
      rw [Complex.dist_eq, sub_mk, ← sqrt_sq_add]
      norm_num
  · rw [elbow_components h] at hck
    simp only [List.zipIdx_cons, List.zipIdx_nil, List.mem_singleton] at hck
    subst hck
    exact ⟨_, elbow_plan h, by simp [strandStep, chainStep]⟩

end Fiksi
