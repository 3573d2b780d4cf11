import Verif.Props.Solve
import Mathlib.Data.Nat.ModEq
import Mathlib.Data.Fintype.Card
/-!
# C28: the perturbation generator, and what the result of `solve` depends on
-/
namespace Fiksi
open Spec

/-- `1 + a + … + a^(n-1)`. -/
def geomSum (a : Nat) : Nat → Nat
  | 0 => 0
  | n + 1 => a * geomSum a n + 1

theorem geomSum_add (a m n : Nat) : geomSum a (m + n) = a ^ n * geomSum a m + geomSum a n := by
  induction n with
  | zero => simp [geomSum]
  | succ n ih => rw [Nat.add_succ, geomSum, ih, geomSum, pow_succ]; ring

theorem odd_pow_mod {a : Nat} (ha : a % 4 = 1) (m : Nat) : a ^ m % 4 = 1 := by
  rw [Nat.pow_mod, ha, one_pow]; rfl

theorem dvd_geomSum {a : Nat} (ha : a % 4 = 1) (k : Nat) : ∀ n, 2 ^ k ∣ geomSum a n ↔ 2 ^ k ∣ n := by
  induction k with
  | zero => simp
  | succ k ih =>
    intro n
    have hev : ∀ m, geomSum a (m + m) = 2 * (geomSum a m * ((a ^ m + 1) / 2)) := by
      intro m
      have h1 := odd_pow_mod ha m
      have h2 : a ^ m + 1 = 2 * ((a ^ m + 1) / 2) := by omega
      calc geomSum a (m + m) = (a ^ m + 1) * geomSum a m := by rw [geomSum_add]; ring
        _ = 2 * ((a ^ m + 1) / 2) * geomSum a m := by rw [← h2]
        _ = _ := by ring
    rcases Nat.even_or_odd' n with ⟨m, rfl | rfl⟩
    · have hc : Nat.Coprime (2 ^ k) ((a ^ m + 1) / 2) := by
        refine Nat.Coprime.pow_left k ?_
        have h1 := odd_pow_mod ha m
        rw [Nat.coprime_two_left, Nat.odd_iff]; omega
      rw [two_mul, hev, pow_succ, mul_comm (2 ^ k) 2, Nat.mul_dvd_mul_iff_left (by omega), hc.dvd_mul_right, ih, ← two_mul,
        Nat.mul_dvd_mul_iff_left (by omega)]
    · have hodd : ∀ {x : Nat}, x % 2 = 1 → ¬ 2 ^ (k + 1) ∣ x := by
        intro x hx hd
        have : 2 ∣ x := dvd_trans (Dvd.intro_left (2 ^ k) (pow_succ 2 k).symm) hd
        omega
      refine iff_of_false (hodd ?_) (hodd (by omega))
      rw [geomSum, two_mul, hev, ← mul_assoc, mul_comm a 2, mul_assoc]
      omega

theorem rngNext_modEq (s : Nat) : rngNext s ≡ 1664525 * s + 1013904223 [MOD 2 ^ 32] := by
  unfold rngNext Nat.ModEq
  rw [Nat.mod_mod, Nat.mod_add_mod, mul_comm]

theorem rngNext_lt (s : Nat) : rngNext s < 2 ^ 32 := Nat.mod_lt _ (by norm_num)

theorem rng_iterate (s : Nat) (n : Nat) :
    rngNext^[n] s ≡ s + geomSum 1664525 n * (1664524 * s + 1013904223) [MOD 2 ^ 32] := by
  induction n with
  | zero => simp [geomSum]; rfl
  | succ n ih =>
    rw [Function.iterate_succ_apply']
    refine (rngNext_modEq _).trans (((ih.mul_left 1664525).add_right 1013904223).trans ?_)
    rw [geomSum]
    have : 1664525 * (s + geomSum 1664525 n * (1664524 * s + 1013904223)) + 1013904223 =
        s + (1664525 * geomSum 1664525 n + 1) * (1664524 * s + 1013904223) := by ring
    rw [this]

theorem rng_iterate_lt {s : Nat} (hs : s < 2 ^ 32) : ∀ n, rngNext^[n] s < 2 ^ 32
  | 0 => hs
  | n + 1 => by rw [Function.iterate_succ_apply']; exact rngNext_lt _

/-- The generator is back at its state after `n` draws exactly when `n` is a multiple of `2^32`. -/
theorem rng_return {s : Nat} (hs : s < 2 ^ 32) (n : Nat) : rngNext^[n] s = s ↔ 2 ^ 32 ∣ n := by
  have hc : Nat.Coprime (2 ^ 32) (1664524 * s + 1013904223) := by
    refine Nat.Coprime.pow_left 32 ?_
    rw [Nat.coprime_two_left, Nat.odd_iff]; omega
  have h := rng_iterate s n
  rw [← dvd_geomSum (a := 1664525) (by norm_num) 32 n, ← hc.dvd_mul_right]
  constructor
  · intro h1
    rw [h1] at h
    have h2 : s + 0 ≡ s + geomSum 1664525 n * (1664524 * s + 1013904223) [MOD 2 ^ 32] := by simpa using h
    exact (Nat.modEq_zero_iff_dvd).1 (Nat.ModEq.add_left_cancel' s h2).symm
  · intro h1
    have h2 : rngNext^[n] s ≡ s [MOD 2 ^ 32] :=
      h.trans (by simpa using (Nat.ModEq.refl s).add ((Nat.modEq_zero_iff_dvd).2 h1))
    exact Nat.ModEq.eq_of_lt_of_lt h2 (rng_iterate_lt hs n) hs

theorem rngNext_inj {s t : Nat} (hs : s < 2 ^ 32) (ht : t < 2 ^ 32) (h : rngNext s = rngNext t) : s = t := by
  have h0 := rngNext_modEq t
  rw [← h] at h0
  have h1 := (rngNext_modEq s).symm.trans h0
  have h2 := Nat.ModEq.add_right_cancel' _ h1
  exact Nat.ModEq.eq_of_lt_of_lt (Nat.ModEq.cancel_left_of_coprime (Nat.Coprime.pow_left 32 (by decide)) h2) hs ht

theorem rng_iterate_inj {s : Nat} (hs : s < 2 ^ 32) {i j : Nat} (hi : i < 2 ^ 32) (hj : j < 2 ^ 32) (hij : i ≤ j)
    (h : rngNext^[i] s = rngNext^[j] s) : i = j := by
  have h1 : rngNext^[j - i] s = s := by
    have : ∀ i t, t < 2 ^ 32 → rngNext^[i] s = rngNext^[i] t → s = t := by
      intro i
      induction i with
      | zero => intro t _ h; exact h
      | succ i ih =>
        intro t ht h
        rw [Function.iterate_succ_apply', Function.iterate_succ_apply'] at h
        exact ih t ht (rngNext_inj (rng_iterate_lt hs i) (rng_iterate_lt ht i) h)
    refine (this i _ (rng_iterate_lt hs _) ?_).symm
    rw [← Function.iterate_add_apply, Nat.add_sub_cancel' hij]
    exact h
  have := (rng_return hs _).1 h1
  have := Nat.eq_zero_of_dvd_of_lt this (by omega)
  omega

/-- C28: starting from any seed, every one of the `2^32` states comes up exactly once in the first `2^32` draws … -/
theorem C28_every_state_once {s t : Nat} (hs : s < 2 ^ 32) (ht : t < 2 ^ 32) : ∃! n, n < 2 ^ 32 ∧ rngNext^[n] s = t := by
  have inj : Function.Injective (fun i : Fin (2 ^ 32) => (⟨rngNext^[i] s, rng_iterate_lt hs i⟩ : Fin (2 ^ 32))) := by
    intro i j h
    have h := congrArg Fin.val h
    rcases Nat.le_total i j with hij | hij
    · exact Fin.ext (rng_iterate_inj hs i.2 j.2 hij h)
    · exact Fin.ext (rng_iterate_inj hs j.2 i.2 hij h.symm).symm
  obtain ⟨i, hi⟩ := Finite.surjective_of_injective inj ⟨t, ht⟩
  refine ⟨i, ⟨i.2, congrArg Fin.val hi⟩, fun j hj => ?_⟩
  have := inj (a₁ := ⟨j, hj.1⟩) (a₂ := i) (by rw [hi]; exact Fin.ext hj.2)
  exact congrArg Fin.val this

/-- … and the sequence has period exactly `2^32`: after `n` draws the state is the seed again exactly when `2^32` divides `n`. -/
theorem C28_period {s : Nat} (hs : s < 2 ^ 32) (n : Nat) : rngNext^[n] s = s ↔ 2 ^ 32 ∣ n := rng_return hs n

/-- The values drawn one after the other from a seed. -/
noncomputable def draws (s : Nat) : Nat → List ℝ
  | 0 => []
  | n + 1 => (rngNextF64 (F := ℝ) s).1 :: draws (rngNextF64 (F := ℝ) s).2 n

/-- C28: every output of every sequence of draws is in `[0, 1]` (in exact arithmetic). -/
theorem C28_unit_interval (s n : Nat) : ∀ x ∈ draws s n, 0 ≤ x ∧ x ≤ 1 := by
  induction n generalizing s with
  | zero => intro x hx; cases hx
  | succ n ih =>
    intro x hx
    rcases List.mem_cons.1 hx with rfl | hx
    · have h1 : (rngNext s : ℝ) ≤ 4294967295 := by
        have := rngNext_lt s
        have h2 : rngNext s ≤ 4294967295 := by omega
        exact_mod_cast h2
      have h2 : (rngNextF64 (F := ℝ) s).1 = (1 / ((2 ^ 32 - 1 : ℕ) : ℝ)) * (rngNext s : ℝ) := rfl
      rw [h2]
      have h3 : ((2 ^ 32 - 1 : ℕ) : ℝ) = 4294967295 := by norm_num
      rw [h3]
      constructor
      · exact mul_nonneg (by norm_num) (Nat.cast_nonneg _)
      · rw [one_div, inv_mul_le_iff₀ (by norm_num)]; linarith
    · exact ih _ x hx

/-- Cases: the seeds after which the two ends of the interval are drawn, and the first state after the seed 42 that `solve` uses. -/
example : rngNext 634785765 = 0 ∧ rngNext 653637408 = 2 ^ 32 - 1 ∧ rngNext 42 = 1083814273 := by decide

/-! ## Determinism of `solve` -/

section
variable {F : Type} [Add F] [Sub F] [Mul F] [Div F] [Neg F] [Zero F] [One F] [FloatOps F]

/-- C28: with the decomposer `None` the outcome of `solve` (including panics) is a function of the system, the options and the
optimiser: it does not depend on the iteration order of hash sets. (The model has no other source of randomness: the generator
always starts from seed 42.) -/
theorem C28_solve_deterministic_partial (optimize : Optimize F) (ord ord' : HashOrder) (opts : SolvingOptions)
    (hd : opts.decomposer = .none) (s : System F) : s.solve optimize ord opts = s.solve optimize ord' opts := by
  have : solveComponent optimize ord opts s s.scale s.scaledExpressions = solveComponent optimize ord' opts s s.scale s.scaledExpressions := by
    funext st ck
    simp only [solveComponent, hd]
  simp only [System.solve, System.solveLoop, this]

end

/-- Another iteration order. -/
def descendingOrder : HashOrder := fun _ s => (ascending s).reverse

theorem descendingOrder_ok : descendingOrder.Ok :=
  fun _ s => ⟨List.nodup_reverse.2 (ascending_nodup s), fun x => by simp [descendingOrder, mem_ascending]⟩

/-- Five points, a triangle of distances on points 0, 1, 2 and one on points 2, 3, 4. -/
def twoTriangles : List (Op Int) :=
  [.createPoint 0 0, .createPoint 1 0, .createPoint 0 1, .createPoint 5 5, .createPoint 6 5,
   .createCon (.pointPointDistance 0 1 1), .createCon (.pointPointDistance 1 2 1), .createCon (.pointPointDistance 2 0 1),
   .createCon (.pointPointDistance 2 3 1), .createCon (.pointPointDistance 3 4 1), .createCon (.pointPointDistance 4 2 1)]

/-- The constraints of the steps of the plan of the first component, for an iteration order. -/
def stepConstraints (ord : HashOrder) (c : Client Int) : R (List (List Nat)) :=
  match c.sys.graph.components with
  | [] => .error .unreachable
  | comp :: _ => do
      let steps ← c.sys.recursivePlan ord comp
      pure (steps.map RecombinationStep.constraints)

/-- Determinism is false for `RecursiveAssembly`: the plan, hence the sequence of numerical problems, depends on the iteration order
of hash sets. (The hasher of the code is seeded differently in each process.) Two triangles of distances that share a point: with
one order the first triangle is solved first, with another one the second. -/
theorem C28_recursive_depends_on_hash_order : ∃ c, Reaches 0 twoTriangles c ∧ ∃ ord ord', HashOrder.Ok ord ∧ HashOrder.Ok ord' ∧
    stepConstraints ord c = .ok [[0], [2], [1], [3], [5], [4]] ∧ stepConstraints ord' c = .ok [[4], [5], [3], [1], [2], [0]] := by
  obtain ⟨c, h⟩ := legal_of_points (ops := twoTriangles) (by
    simp [twoTriangles, Store.LegalRun, Store.Legal, Store.empty, Store.step, Store.IsPoint, Store.ConOk]) (by simp [twoTriangles])
  refine ⟨c, h, ascendingOrder, descendingOrder, ascendingOrder_ok, descendingOrder_ok, ?_, ?_⟩
  · have h2 : okAnd ((Client.new Int 0).run twoTriangles) (fun c => okAnd (stepConstraints ascendingOrder c)
      (fun l => l = [[0], [2], [1], [3], [5], [4]])) = true := by decide +kernel
    rw [h.run] at h2
    simp only [okAnd] at h2
    split at h2
    · rename_i l hl; rw [hl, of_decide_eq_true h2]
    · cases h2
  · have h2 : okAnd ((Client.new Int 0).run twoTriangles) (fun c => okAnd (stepConstraints descendingOrder c)
      (fun l => l = [[4], [5], [3], [1], [2], [0]])) = true := by decide +kernel
    rw [h.run] at h2
    simp only [okAnd] at h2
    split at h2
    · rename_i l hl; rw [hl, of_decide_eq_true h2]
    · cases h2

end Fiksi
