import Verif.Props.Scaling
import Verif.Props.StayRounded
/-!
# C60 in rounded arithmetic: changing the unit of length by a power of two changes no bit of a result
-/
namespace Fiksi
open Spec

/-- `binary64` rounds uniformly. -/
theorem binary64_uniform : binary64.Uniform := by
  intro x
  show roundBinary (2 * x) = 2 * roundBinary x
  by_cases hx : x = 0
  · simp [hx, roundBinary]
  have hpos := abs_pos.2 hx
  have hlog : Int.log 2 |2 * x| = Int.log 2 |x| + 1 := by
    have h1 := Int.zpow_log_le_self (b := 2) (by norm_num) hpos
    have h2 := Int.lt_zpow_succ_log_self (b := 2) (by norm_num) |x|
    have habs : |2 * x| = 2 * |x| := by rw [abs_mul, abs_two]
    have hpos' : 0 < |2 * x| := by rw [habs]; positivity
    push_cast at h1 h2
    refine le_antisymm (Int.lt_add_one_iff.1 ((Int.lt_zpow_iff_log_lt (b := 2) (by norm_num) hpos').1 ?_)) ((Int.zpow_le_iff_le_log (b := 2) (by norm_num) hpos').1 ?_)
    · push_cast
      rw [zpow_add_one₀ (by norm_num), habs]
      linarith
    · push_cast
      rw [zpow_add_one₀ (by norm_num), habs]
      linarith
  have hulp : ulp (2 * x) = 2 * ulp x := by
    unfold ulp
    rw [hlog, show Int.log 2 |x| + 1 - 52 = 1 + (Int.log 2 |x| - 52) by ring, zpow_one_add₀ (by norm_num)]
  unfold roundBinary
  rw [hulp, mul_div_mul_left _ _ (by norm_num)]
  ring

section
variable {A : Arith}

theorem Uniform.rnd_zpow (hu : A.Uniform) (j : ℤ) (x : ℝ) : A.rnd (2 ^ j * x) = 2 ^ j * A.rnd x := by
  induction j generalizing x with
  | zero => simp
  | succ i ih => rw [zpow_add_one₀ (by norm_num), mul_assoc, ih, hu, mul_assoc]
  | pred i ih =>
    have h1 := hu (2 ^ (-(i : ℤ) - 1) * x)
    rw [← mul_assoc, show (2 : ℝ) * 2 ^ (-(i : ℤ) - 1) = 2 ^ (-(i : ℤ)) by rw [zpow_sub_one₀ (by norm_num)]; ring, ih] at h1
    have h2 : (2 : ℝ) ^ (-(i : ℤ) - 1) = 2 ^ (-(i : ℤ)) / 2 := by rw [zpow_sub_one₀ (by norm_num)]; ring
    linear_combination (-1 / 2) * h1 - A.rnd x * h2

/-- Two to the power of `j` as a number of the arithmetic. -/
noncomputable def twoPow (A : Arith) (j : ℤ) : Fl A := ⟨2 ^ j⟩

theorem rnd_rnd (hb : A.Binary64) (x : ℝ) : A.rnd (A.rnd x) = A.rnd x := binary64_exact hb (hb x).1

theorem twoPow_mul (hu : A.Uniform) (j : ℤ) (x : Fl A) : twoPow A j * x = ⟨2 ^ j * A.rnd x.val⟩ := congrArg Fl.mk (Uniform.rnd_zpow hu j x.val)

theorem twoPow_mul_exact (hb : A.Binary64) (hu : A.Uniform) (j : ℤ) {x : Fl A} (hx : Representable x.val) : twoPow A j * x = ⟨2 ^ j * x.val⟩ := by
  rw [twoPow_mul hu, binary64_exact hb hx]

theorem sumSquares_twoPow (hb : A.Binary64) (hu : A.Uniform) (j : ℤ) : ∀ (vs : List (Fl A)) (_ : ∀ v ∈ vs, Representable v.val) (acc : Fl A),
    (vs.map (twoPow A j * ·)).foldl (fun acc v => acc + v * v) ⟨2 ^ (2 * j) * acc.val⟩ = ⟨2 ^ (2 * j) * (vs.foldl (fun acc v => acc + v * v) acc).val⟩
  | [], _, acc => rfl
  | v :: vs, h, acc => by
    rw [List.map_cons, List.foldl_cons, List.foldl_cons, ← sumSquares_twoPow hb hu j vs (fun w hw => h w (List.mem_cons_of_mem _ hw)), twoPow_mul_exact hb hu j (h v (by simp))]
    congr 1
    show (⟨A.rnd (2 ^ (2 * j) * acc.val + A.rnd (2 ^ j * v.val * (2 ^ j * v.val)))⟩ : Fl A) = ⟨2 ^ (2 * j) * A.rnd (acc.val + A.rnd (v.val * v.val))⟩
    have e : (2 : ℝ) ^ (2 * j) = 2 ^ j * 2 ^ j := by rw [two_mul, zpow_add₀ (by norm_num)]
    rw [show (2 : ℝ) ^ j * v.val * (2 ^ j * v.val) = 2 ^ (2 * j) * (v.val * v.val) by rw [e]; ring, Uniform.rnd_zpow hu, ← mul_add, Uniform.rnd_zpow hu]

theorem rootMeanSquares_twoPow (hb : A.Binary64) (hu : A.Uniform) (j : ℤ) {vs : List (Fl A)} (h : ∀ v ∈ vs, Representable v.val) :
    rootMeanSquares (vs.map (twoPow A j * ·)) = ⟨2 ^ j * (rootMeanSquares vs).val⟩ := by
  have h1 : sumSquares (vs.map (twoPow A j * ·)) = ⟨2 ^ (2 * j) * (sumSquares vs).val⟩ := by
    have h2 := sumSquares_twoPow hb hu j vs h 0
    rwa [show (⟨2 ^ (2 * j) * (0 : Fl A).val⟩ : Fl A) = 0 from congrArg Fl.mk (mul_zero _)] at h2
  unfold rootMeanSquares meanSquares
  rw [h1, List.length_map]
  show (⟨A.rnd √(A.rnd (2 ^ (2 * j) * (sumSquares vs).val / A.rnd vs.length))⟩ : Fl A) = ⟨2 ^ j * A.rnd √(A.rnd ((sumSquares vs).val / A.rnd vs.length))⟩
  have e : (2 : ℝ) ^ (2 * j) = 2 ^ j * 2 ^ j := by rw [two_mul, zpow_add₀ (by norm_num)]
  rw [mul_div_assoc, Uniform.rnd_zpow hu, e, Real.sqrt_mul (by positivity), Real.sqrt_mul_self (by positivity), Uniform.rnd_zpow hu]

theorem scaled_numbers {F : Type} [Mul F] (k : F) (s : System F) :
    (s.scaled k).vars ++ (s.scaled k).expressions.filterMap Expr.lengthParameter = (s.vars ++ s.expressions.filterMap Expr.lengthParameter).map (k * ·) := by
  simp only [System.scaled, List.map_append, List.map_filterMap, List.filterMap_map]
  congr 2
  funext e
  cases e <;> rfl

theorem scale_exact (hb : A.Binary64) (s : System (Fl A)) : A.rnd s.scale.val = s.scale.val := rnd_rnd hb _

theorem twoPow_scale (hb : A.Binary64) (hu : A.Uniform) (j : ℤ) {s : System (Fl A)} (h : ∀ v ∈ s.vars ++ s.expressions.filterMap Expr.lengthParameter, Representable v.val) :
    (s.scaled (twoPow A j)).scale = twoPow A j * s.scale := by
  unfold System.scale
  rw [scaled_numbers, rootMeanSquares_twoPow hb hu j h, twoPow_mul hu]
  exact congrArg (fun x => (⟨2 ^ j * x⟩ : Fl A)) (scale_exact hb s).symm

theorem twoPow_cancel (hb : A.Binary64) (hu : A.Uniform) (j : ℤ) {x s : Fl A} (hx : Representable x.val) (hs : A.rnd s.val = s.val) :
    (twoPow A j * x) * (1 / (twoPow A j * s)) = x * (1 / s) ∧ (1 / (twoPow A j * s)) * (twoPow A j * x) = (1 / s) * x := by
  have h1 : (1 / (twoPow A j * s) : Fl A) = ⟨2 ^ (-j) * (1 / s : Fl A).val⟩ := by
    rw [twoPow_mul hu, hs]
    show (⟨A.rnd (1 / (2 ^ j * s.val))⟩ : Fl A) = ⟨2 ^ (-j) * A.rnd (1 / s.val)⟩
    rw [← Uniform.rnd_zpow hu, one_div, mul_inv, ← zpow_neg, one_div]
  have e : (2 : ℝ) ^ j * 2 ^ (-j) = 1 := by rw [← zpow_add₀ (by norm_num), add_neg_cancel, zpow_zero]
  rw [h1, twoPow_mul_exact hb hu j hx]
  refine ⟨congrArg (fun y => (⟨A.rnd y⟩ : Fl A)) ?_, congrArg (fun y => (⟨A.rnd y⟩ : Fl A)) ?_⟩
  · show 2 ^ j * x.val * (2 ^ (-j) * (1 / s : Fl A).val) = x.val * (1 / s : Fl A).val
    linear_combination x.val * (1 / s : Fl A).val * e
  · show 2 ^ (-j) * (1 / s : Fl A).val * (2 ^ j * x.val) = (1 / s : Fl A).val * x.val
    linear_combination x.val * (1 / s : Fl A).val * e

theorem twoPow_transformed (hb : A.Binary64) (hu : A.Uniform) (j : ℤ) {s : System (Fl A)} (h : ∀ v ∈ s.vars ++ s.expressions.filterMap Expr.lengthParameter, Representable v.val) :
    (s.scaled (twoPow A j)).scaledVariables = s.scaledVariables ∧ (s.scaled (twoPow A j)).scaledExpressions = s.scaledExpressions := by
  unfold System.scaledVariables System.scaledExpressions
  rw [twoPow_scale hb hu j h]
  refine ⟨?_, ?_⟩
  · simp only [System.scaled, List.map_map]
    exact List.map_congr_left fun v hv => (twoPow_cancel hb hu j (h v (List.mem_append_left _ hv)) (scale_exact hb s)).1
  · simp only [System.scaled, List.map_map]
    refine List.map_congr_left fun e he => ?_
    cases e with
    | pointPointDistance p q d =>
      exact congrArg _ (twoPow_cancel hb hu j (h d (List.mem_append_right _ (List.mem_filterMap.2 ⟨_, he, rfl⟩))) (scale_exact hb s)).2
    | pointLineDistance p a b d =>
      exact congrArg _ (twoPow_cancel hb hu j (h d (List.mem_append_right _ (List.mem_filterMap.2 ⟨_, he, rfl⟩))) (scale_exact hb s)).2
    | _ => rfl

/-- C60 for rounded results: if every coordinate, length and distance of a history is multiplied by `2 ^ j`, then `solve` does the same up to the last bit,
with any optimiser, decomposer and perturbation. -/
theorem C60_binary_unit (hb : A.Binary64) (hu : A.Uniform) (j : ℤ) {counter : Nat} {ops : List (Op (Fl A))} {c : Client (Fl A)} (h : Reaches counter ops c)
    (hnum : ∀ x ∈ ((Store.empty (Fl A)).run ops).real.numbers, Representable x) :
    ∃ c', Reaches counter (ops.map (Op.scaled ⟨2 ^ j⟩)) c' ∧ c'.elemHandles = c.elemHandles ∧ c'.conHandles = c.conHandles ∧
      ∀ (optimize : Optimize (Fl A)) (ord : HashOrder) (opts : SolvingOptions),
        (∀ e, c.sys.solve optimize ord opts = .error e → c'.sys.solve optimize ord opts = .error e) ∧
        ∀ s, c.sys.solve optimize ord opts = .ok s → ∃ s', c'.sys.solve optimize ord opts = .ok s' ∧
          ∀ tag hd, s'.getValue tag hd = (s.getValue tag hd).map (scaledValue ⟨2 ^ j⟩) := by
  refine ⟨c.scaled (twoPow A j), scaled_reaches (twoPow A j) h, rfl, rfl, fun optimize ord opts => ?_⟩
  have hrep : ∀ v ∈ c.sys.vars ++ c.sys.expressions.filterMap Expr.lengthParameter, Representable v.val := fun v hv =>
    hnum _ (h.crel.rel.numbers ▸ List.mem_map_of_mem hv)
  have massoc : ∀ x : Fl A, twoPow A j * c.sys.scale * x = twoPow A j * (c.sys.scale * x) := by
    intro x
    rw [twoPow_mul hu, twoPow_mul hu, scale_exact hb]
    refine congrArg Fl.mk ?_
    show A.rnd (2 ^ j * c.sys.scale.val * x.val) = 2 ^ j * A.rnd (A.rnd (c.sys.scale.val * x.val))
    rw [mul_assoc, Uniform.rnd_zpow hu, rnd_rnd hb]
  have hsolve : (c.scaled (twoPow A j)).sys.solve optimize ord opts = System.scaled (twoPow A j) <$> c.sys.solve optimize ord opts := by
    unfold System.solve System.solveLoop
    have h1 := twoPow_transformed hb hu j hrep
    simp only [Client.scaled]
    rw [h1.1, h1.2, twoPow_scale hb hu j hrep, map_bind]
    have := foldlM_commutes (g := SolveState.scaled (twoPow A j)) (l := c.sys.graph.components.zipIdx)
      (fun st ck _ => scaled_solveComponent massoc (optimize := optimize) (ord := ord) (opts := opts) (s := c.sys) (exprs := c.sys.scaledExpressions) (st := st) (ck := ck))
      ⟨c.sys.vars, c.sys.scaledVariables, 42, []⟩
    refine (congrArg (· >>= _) this).trans ((bind_map_left ..).trans (bind_congr fun st => ?_))
    rfl
  refine ⟨fun e he => by rw [hsolve, he]; rfl, fun s hs => ⟨s.scaled (twoPow A j), by rw [hsolve, hs]; rfl, fun tag hd => scaled_getValue (twoPow A j) s tag hd⟩⟩

end

/-- The hypotheses of `C60_binary_unit` are met by a triangle in binary64, drawn at 1024 times the size. -/
example : ∃ c c' : Client (Fl binary64), Reaches 0 triangleOps c ∧ Reaches 0 (triangleOps.map (Op.scaled ⟨2 ^ (10 : ℤ)⟩)) c' ∧ c'.elemHandles = c.elemHandles ∧
    ((Store.empty (Fl binary64)).run (triangleOps.map (Op.scaled ⟨2 ^ (10 : ℤ)⟩))).cons.head? = some (.pointPointDistance 1 2 ⟨1024 * 5⟩) := by
  obtain ⟨c, h⟩ := triangleOps_reaches (A := binary64)
  have hrep : ∀ n : ℤ, |n| < 2 ^ 53 → Representable n := fun n hn => ⟨n, 0, hn, by simp⟩
  have hnum : ∀ x ∈ ((Store.empty (Fl binary64)).run triangleOps).real.numbers, Representable x := by
    have : ((Store.empty (Fl binary64)).run triangleOps).real.numbers = [0, 0, 3, 0, 0, 4, 5] := rfl
    rw [this]
    have h0 := hrep 0 (by norm_num)
    have h3 := hrep 3 (by norm_num)
    have h4 := hrep 4 (by norm_num)
    have h5 := hrep 5 (by norm_num)
    push_cast at h0 h3 h4 h5
    simp only [List.forall_mem_cons, h0, h3, h4, h5, true_and]
    simp
  obtain ⟨c', h1, h2, -⟩ := C60_binary_unit binary64_ok binary64_uniform 10 h hnum
  refine ⟨c, c', h, h1, h2, ?_⟩
  show some (Spec.Con.pointPointDistance 1 2 (twoPow binary64 10 * ⟨5⟩)) = _
  rw [twoPow_mul_exact binary64_ok binary64_uniform 10 (show Representable (5 : ℝ) by simpa using hrep 5 (by norm_num))]
  norm_num

end Fiksi
