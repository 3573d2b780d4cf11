import Verif.Props.LmTermination
import Verif.Props.Solve
import Mathlib.LinearAlgebra.FiniteDimensional.Basic
import Mathlib.Algebra.BigOperators.Fin
/-!
# C52, continued: an exact solver exists; with NaN the optimiser does not return
-/
namespace Fiksi
open FloatOps Spec

/-! ## The hypothesis of `C52_returns_partial` can be met -/

theorem damped_exists (J : Nat → Nat → ℝ) (m n : Nat) {μ : ℝ} (hμ : 0 < μ) (b : List ℝ) :
    ∃ δ, IsDampedLeastSquares J m n μ b δ := by
  let L : (Fin n → ℝ) →ₗ[ℝ] (Fin n → ℝ) :=
    { toFun := fun δ c => (∑ r ∈ Finset.range m, J r c * ∑ c' : Fin n, J r c' * δ c') + μ ^ 2 * δ c
      map_add' := fun x y => by
        funext c
        simp only [Pi.add_apply, mul_add, Finset.sum_add_distrib]
        ring
      map_smul' := fun k x => by
        funext c
        simp only [Pi.smul_apply, smul_eq_mul, RingHom.id_apply, mul_add, Finset.mul_sum]
        congr 1
        · refine Finset.sum_congr rfl (fun r _ => Finset.sum_congr rfl (fun c' _ => by ring))
        · ring }
  have hget : ∀ (v : Fin n → ℝ) (c : Fin n), (List.ofFn v).getD c 0 = v c := by
    intro v c
    rw [List.getD_eq_getElem?_getD, List.getElem?_ofFn]
    simp
  have hinj : Function.Injective L := by
    rw [injective_iff_map_eq_zero]
    intro v hv
    have h1 : IsDampedLeastSquares J m n μ (List.replicate m 0) (List.ofFn v) := by
      refine ⟨by simp, fun c hc => ?_⟩
      have h2 := congrFun hv ⟨c, hc⟩
      rw [hget v ⟨c, hc⟩]
      simp only [Finset.sum_range, hget]
      have h3 : ∀ r : Fin m, (List.replicate m (0 : ℝ)).getD r 0 = 0 := fun r => by
        rw [List.getD_eq_getElem?_getD, List.getElem?_replicate]; simp
      simp only [h3, sub_zero]
      simpa [L, Finset.sum_range] using h2
    have h4 := damped_bound (by simp) h1
    have h5 : normSquared (List.replicate m (0 : ℝ)) = 0 := by rw [normSquared_real]; simp
    rw [h5, normSquared_real, sum_map_getD] at h4
    have h6 : ∑ i ∈ Finset.range (List.ofFn v).length, (List.ofFn v).getD i 0 * (List.ofFn v).getD i 0 = 0 := by
      have h7 : 0 ≤ ∑ i ∈ Finset.range (List.ofFn v).length, (List.ofFn v).getD i 0 * (List.ofFn v).getD i 0 :=
        Finset.sum_nonneg (fun i _ => mul_self_nonneg _)
      have h8 : 0 < 4 * μ ^ 2 := by positivity
      nlinarith
    rw [Finset.sum_eq_zero_iff_of_nonneg (fun i _ => mul_self_nonneg _)] at h6
    funext c
    have := h6 c (by simp)
    rw [hget] at this
    simpa using this
  obtain ⟨v, hv⟩ := (LinearMap.injective_iff_surjective.1 hinj)
    (fun c => ∑ r ∈ Finset.range m, J r c * b.getD r 0)
  refine ⟨List.ofFn v, by simp, fun c hc => ?_⟩
  have h2 := congrFun hv ⟨c, hc⟩
  rw [hget v ⟨c, hc⟩]
  simp only [mul_sub, Finset.sum_sub_distrib]
  simp only [L, LinearMap.coe_mk, AddHom.coe_mk] at h2
  have h3 : ∀ r, ∑ c' ∈ Finset.range n, J r c' * (List.ofFn v).getD c' 0 = ∑ c' : Fin n, J r c' * v c' := by
    intro r
    rw [Finset.sum_range]
    exact Finset.sum_congr rfl (fun c' _ => by rw [hget])
  simp only [h3]
  linarith

/-- There is an exact linear solver. -/
theorem exists_exact : ∃ ls : LeastSquares ℝ, ls.Exact (fun _ _ _ => True) := by
  classical
  refine ⟨⟨Unit, fun _ _ _ => .ok (), fun _ m n ts μ b =>
    .ok (some (if h : 0 < μ then (damped_exists (entrySum ts) m n h (b.take m)).choose else []))⟩, fun m n ts₀ _ _ => ⟨(), rfl, ?_⟩⟩
  intro ts μ b _ _ hμ hb
  refine ⟨_, rfl, ?_⟩
  rw [dif_pos hμ, ← hb, List.take_left]
  have h := (damped_exists (entrySum ts) b.length n hμ b).choose_spec
  rw [List.take_of_length_le h.1.le]
  exact h

/-! ## NaN -/

section
variable {F : Type} [Add F] [Sub F] [Mul F] [Div F] [Neg F] [Zero F] [One F] [FloatOps F]

/-- If the sum of squared residuals is not comparable (NaN) and no step is recognised as tiny, the inner loop runs for ever. -/
theorem lmInner_diverges {p : Problem F} {ls : LeastSquares F} {sym : ls.Symbolic} {ssr : F} (hnan : ∀ a : F, ltB a ssr = false)
    (hres : ∀ x, x.length = p.numVariables → ∃ r, p.residuals x = .ok r) {residuals : List F} {triplets : List (Nat × Nat × F)}
    (hsolve : ∀ μ, ∃ o, ls.solve sym p.numResiduals p.numVariables triplets μ (residuals ++ List.replicate p.numVariables 0) = .ok o ∧
      ∀ b, o = some b → p.numVariables ≤ b.length ∧ ltB (normSquared (b.take p.numVariables)) (ratio 1 (10 ^ 12)) = false) :
    ∀ (fuel : Nat) (st : LmState F), st.ssr = ssr → st.residuals = residuals → st.triplets = triplets →
      st.vars.length = p.numVariables → st.scratch.length = p.numVariables → lmInner p ls sym fuel st = .error .outOfFuel := by
  intro fuel
  induction fuel with
  | zero => intros; rfl
  | succ fuel ih =>
    intro st h1 h2 h3 h4 h5
    obtain ⟨o, h6, h7⟩ := hsolve (sqrt st.lambda)
    rw [← h2, ← h3] at h6
    rw [lmInner, h6, ok_bind]
    cases o with
    | none => exact ih { st with lambda := st.lambda * ofNat 8 } h1 h2 h3 h4 h5
    | some b =>
      obtain ⟨h8, h9⟩ := h7 b rfl
      simp only [h9]
      obtain ⟨scratch, h10, h11⟩ := foldlM_ok (fun (s : List F) => s.length = p.numVariables) (lmTrial st.vars (b.take p.numVariables))
        (List.range p.numVariables) st.scratch h5 (fun s i hi hl => by
          rw [List.mem_range] at hi
          refine ⟨s.set i (st.vars[i]'(by omega) + (b.take p.numVariables)[i]'(by rw [List.length_take]; omega)), ?_, by simpa using hl⟩
          rw [lmTrial, idx_of (List.getElem?_eq_getElem _), ok_bind, idx_of (List.getElem?_eq_getElem _), ok_bind,
            setIdx_of _ (by omega)])
      obtain ⟨r, h12⟩ := hres scratch h11
      have h13 : ¬ ltB (normSquared r) st.ssr = true := by rw [h1, hnan]; simp
      simp only [Bool.false_eq_true, if_false, h10, ok_bind, h12]
      rw [if_neg h13]
      exact ih { st with scratch := scratch, lambda := st.lambda * ofNat 2 } h1 h2 h3 h4 h11

end

/-- Numbers with a NaN, which absorbs everything and compares as false; division by zero gives it. A minimal model of the `f64`
behaviour that matters here (`f64` has `1/0 = ∞` and `0·∞ = NaN`). Integers suffice: apart from 0, 1 and -1 every value of the witness
is NaN. -/
inductive NanInt where
  | numb (x : ℤ)
  | nan
  deriving DecidableEq

namespace NanInt
def lift (f : ℤ → ℤ → ℤ) : NanInt → NanInt → NanInt
  | numb x, numb y => numb (f x y)
  | _, _ => nan
def map (f : ℤ → ℤ) : NanInt → NanInt
  | numb x => numb (f x)
  | nan => nan
instance : Add NanInt := ⟨lift (· + ·)⟩
instance : Sub NanInt := ⟨lift (· - ·)⟩
instance : Mul NanInt := ⟨lift (· * ·)⟩
instance : Div NanInt := ⟨fun a b => match a, b with
  | numb x, numb y => if y = 0 then nan else numb (x / y)
  | _, _ => nan⟩
instance : Neg NanInt := ⟨map (fun x => -x)⟩
instance : Zero NanInt := ⟨numb 0⟩
instance : One NanInt := ⟨numb 1⟩
instance : FloatOps NanInt where
  sqrt x := match x with
    | numb x => if x = 0 then numb 0 else nan
    | nan => nan
  atan2 _ _ := nan
  sin _ := nan
  cos _ := nan
  abs := map (fun x => |x|)
  signum := map (fun x => if x < 0 then -1 else 1)
  pi := numb 3
  ofNat n := numb n
  ltB a b := match a, b with
    | numb x, numb y => decide (x < y)
    | _, _ => false
  eqB a b := match a, b with
    | numb x, numb y => decide (x = y)
    | _, _ => false
end NanInt
open NanInt (numb nan)

/-- Two points at the origin, required to coincide. -/
def originOps : List (Op NanInt) := [.createPoint (numb 0) (numb 0), .createPoint (numb 0) (numb 0), .createCon (.pointPointCoincidence 0 1)]

/-- The subproblem `solve` poses for it. -/
def originSub : Subsystem NanInt :=
  ⟨[nan, nan, nan, nan], [.variableVariableEquality 0 2, .variableVariableEquality 1 3], [0, 1], [0, 1, 2, 3]⟩

/-- Build it and solve it. -/
def solveOrigin (optimize : Optimize NanInt) (ord : HashOrder) : R (System NanInt) := do
  let c ← (Client.new NanInt 0).run originOps
  c.sys.solve optimize ord .default

theorem origin_solve (optimize : Optimize NanInt) (ord : HashOrder) : solveOrigin optimize ord =
    solveOrigin (fun _ _ _ => optimize .levenbergMarquardt originSub.problem [nan, nan, nan, nan]) ord := rfl

theorem foldl_add_none (l : List NanInt) : l.foldl (· + ·) nan = nan := by
  induction l with
  | nil => rfl
  | cons a l ih => exact ih

theorem normSquared_none {l : List NanInt} (h : nan ∈ l) : normSquared l = nan := by
  unfold normSquared
  generalize (0 : NanInt) = z
  induction l generalizing z with
  | nil => cases h
  | cons a l ih =>
    rcases List.mem_cons.1 h with rfl | h
    · rw [List.map_cons, List.foldl_cons]
      have : z + (nan * nan : NanInt) = nan := by cases z <;> rfl
      rw [this, foldl_add_none]
    · exact ih h _

/-- A linear solver that does not panic and, for a right-hand side with a NaN, reports failure or returns a solution with a NaN. -/
def LeastSquares.PropagatesNan (ls : LeastSquares NanInt) : Prop :=
  (∀ m n ts, ∃ sym, ls.build m n ts = .ok sym) ∧
  ∀ sym m n ts μ b, nan ∈ b → ∃ o, ls.solve sym m n ts μ b = .ok o ∧ ∀ b', o = some b' → n ≤ b'.length ∧ nan ∈ b'.take n

/-- C52 is false in general: with floating-point numbers a system whose points are all at the origin has scale 0, so the scaled
values are NaN, no comparison in the inner loop succeeds, and `solve` with the default options never returns, whatever bound the
model is given. -/
theorem C52_nan_never_returns : ∃ c, Reaches 0 originOps c ∧ ∀ (ls : LeastSquares NanInt), ls.PropagatesNan →
    ∀ (fuel : Nat) (ord : HashOrder), c.sys.solve (fun _ p x => levenbergMarquardt p ls fuel x) ord .default = .error .outOfFuel := by
  obtain ⟨c, h⟩ := exists_reaches (F := NanInt) 0 originOps (by
    simp [originOps, Store.LegalRun, Store.Legal, Store.empty, Store.step, Store.IsPoint, Store.ConOk]) (by simp [originOps])
  refine ⟨c, h, fun ls hls fuel ord => ?_⟩
  have h1 := origin_solve (fun _ p x => levenbergMarquardt p ls fuel x) ord
  have h2 : levenbergMarquardt originSub.problem ls fuel [nan, nan, nan, nan] = .error .outOfFuel := by
    obtain ⟨sym, h3⟩ := hls.1 2 4 [(0, 0, numb (-1)), (0, 2, numb 1), (1, 1, numb (-1)), (1, 3, numb 1), (2, 0, numb 0), (3, 1, numb 0),
      (4, 2, numb 0), (5, 3, numb 0)]
    have h4 : lmStart originSub.problem ls [nan, nan, nan, nan] = (ls.build 2 4 [(0, 0, numb (-1)), (0, 2, numb 1), (1, 1, numb (-1)),
        (1, 3, numb 1), (2, 0, numb 0), (3, 1, numb 0), (4, 2, numb 0), (5, 3, numb 0)] >>= fun sym => pure
        ((⟨[nan, nan, nan, nan], [nan, nan, nan, nan], [nan, nan], [(0, 0, numb (-1)), (0, 2, numb 1), (1, 1, numb (-1)),
        (1, 3, numb 1), (2, 0, numb 0), (3, 1, numb 0), (4, 2, numb 0), (5, 3, numb 0)], nan, ratio 5 10, []⟩ : LmState NanInt), sym)) := rfl
    rw [levenbergMarquardt, lmRun, h4, h3]
    simp only [ok_bind, pure_eq_ok]
    rw [lmOuter]
    have h5 : ltB (nan : NanInt) (ratio 1 (10 ^ 8)) = false := rfl
    simp only [h5]
    rw [lmInner_diverges (ssr := nan) (fun a => by cases a <;> rfl) ?_ ?_ fuel _ rfl rfl rfl rfl rfl]
    · rfl
    · intro x hx
      match x, hx with
      | [a, b, c, d], _ => exact ⟨_, rfl⟩
    · intro μ
      obtain ⟨o, h6, h7⟩ := hls.2 sym 2 4 [(0, 0, numb (-1)), (0, 2, numb 1), (1, 1, numb (-1)), (1, 3, numb 1), (2, 0, numb 0),
        (3, 1, numb 0), (4, 2, numb 0), (5, 3, numb 0)] μ [nan, nan, numb 0, numb 0, numb 0, numb 0] (by simp)
      refine ⟨o, h6, fun b hb => ⟨(h7 b hb).1, ?_⟩⟩
      have h8 : normSquared (b.take originSub.problem.numVariables) = nan := normSquared_none (h7 b hb).2
      rw [h8]
      rfl
  rw [h2] at h1
  have h9 : solveOrigin (fun _ _ _ => .error .outOfFuel) ord = .error .outOfFuel := rfl
  rw [h9, solveOrigin, h.run] at h1
  exact h1

/-- Case: such a linear solver. -/
example : ∃ ls : LeastSquares NanInt, ls.PropagatesNan :=
  ⟨⟨Unit, fun _ _ _ => .ok (), fun _ _ _ _ _ _ => .ok none⟩, fun _ _ _ => ⟨(), rfl⟩, fun _ _ _ _ _ _ _ => ⟨none, rfl, by simp⟩⟩

/-- Case for `C52_returns_partial` and `C26_not_worse_real`: every subsystem made by `solve` and every start meet the hypotheses. -/
example {sub : Subsystem ℝ} (hok : sub.Ok) {x : List ℝ} (hx : x.length = sub.problem.numVariables) :
    ∃ ls : LeastSquares ℝ, ls.Exact (fun _ _ _ => True) ∧ ∃ f st, lmRun sub.problem ls f x = .ok st := by
  obtain ⟨ls, hls⟩ := exists_exact
  obtain ⟨r, hr, -⟩ := hok.total.residuals x hx
  obtain ⟨f, hf⟩ := pow_unbounded_of_one_lt ((r.map (fun v => v * v)).sum * 10 ^ 62) (by norm_num : (1 : ℝ) < 2)
  have h0 : (0 : ℝ) < 2 ^ f := by positivity
  obtain ⟨st, hst⟩ := C52_returns_partial hok.total hls trivial hx hr (f := f) (by linarith)
  exact ⟨ls, hls, f + 1, st, hst⟩

end Fiksi
