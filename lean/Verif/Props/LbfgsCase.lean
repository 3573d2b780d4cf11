import Verif.Props.Lbfgs
import Mathlib.Tactic.NormNum
/-!
# A case for `C27_direction_partial`: a run of L-BFGS that reaches the sixth iteration
-/
namespace Fiksi

open Spec FloatOps

/-- The residual and its derivative at some values of one variable. -/
noncomputable def ladderTable (x : ℝ) : ℝ × ℝ :=
  if x = 0 then (8, 4) else if x = -32 then (4, 4) else if x = -64 then (2, 4) else if x = -96 then (1, 4)
  else if x = -104 then (1 / 2, 4) else (1 / 4, 4)

/-- A problem with this residual. -/
noncomputable def ladder : Problem ℝ where
  numVariables := 1
  numResiduals := 1
  residuals := fun
    | [x] => .ok [(ladderTable x).1]
    | _ => .error .indexOutOfBounds
  denseJacobian := fun v _ _ => match v with
    | [x] => .ok ([(ladderTable x).1], [(ladderTable x).2])
    | _ => .error .indexOutOfBounds
  sparseJacobian := fun v _ _ => match v with
    | [x] => .ok ([(ladderTable x).1], [(0, 0, (ladderTable x).2)])
    | _ => .error .indexOutOfBounds

theorem ladder_denseOk : ladder.DenseOk := by
  intro x rs jac hx _ _
  match x, hx with
  | [a], _ => exact ⟨_, _, rfl, rfl, rfl, rfl⟩

theorem leB_real {a b : ℝ} (h : a ≤ b) : leB a b = true := by
  rcases h.lt_or_eq with h | h <;> simp [leB, ltB, eqB, h]

theorem ltB_real {a b : ℝ} (h : b ≤ a) : ltB a b = false := by
  simpa [ltB] using h

theorem ladder_step {fuel k : Nat} {x g d r' j' ssr : ℝ} {jac rs : List ℝ} {history corrections : List (Correction ℝ)} {x' g' y' ρ' ssr' : ℝ}
    (hh : history.length = 5) (hd : lbfgsDirection history k [g] = .ok [d])
    (hx : x + d = x') (ht : ladderTable x' = (r', j')) (hg : j' * r' = g') (hy : g' - g = y') (hρ : 1 / (d * y') = ρ') (hs : r' * r' = ssr')
    (h1 : ssr' ≤ ssr + 1 / 10000 * (g * d)) (h2 : 9 / 10 * (g * d) ≤ g' * d) (h3 : 1 / 100 < ssr - ssr')
    (h4 : 1 / 100 < ssr') :
    lbfgsStep ladder fuel k ⟨[x], jac, rs, [g], history, ssr, corrections⟩ =
      .ok (false, ⟨[x'], [j'], [r'], [g'], history.set (k % 5) ⟨[d], [y'], ρ'⟩, ssr', corrections ++ [⟨[d], [y'], ρ'⟩]⟩) := by
  have e1 : calculatePhi ladder [x] [d] ⟨[x], jac, rs, [g]⟩ 1 = .ok (⟨1, 0 + (ladderTable (x + 1 * d)).1 * (ladderTable (x + 1 * d)).1,
      0 + (0 + (ladderTable (x + 1 * d)).2 * (ladderTable (x + 1 * d)).1) * d⟩,
      ⟨[x + 1 * d], [(ladderTable (x + 1 * d)).2], [(ladderTable (x + 1 * d)).1],
        [0 + (ladderTable (x + 1 * d)).2 * (ladderTable (x + 1 * d)).1]⟩) := rfl
  rw [one_mul, hx, ht] at e1
  simp only [zero_add, hg, hs] at e1
  rw [lbfgsStep]
  simp only
  rw [hd, ok_bind, lineSearch, lineSearchRun, e1, ok_bind]
  have e2 : dot [g] [d] = g * d := by simp [dot]
  simp only [e2]
  have e3 : satisfiesWolfe ssr (g * d) ⟨1, ssr', g' * d⟩ = true := by
    have a1 : leB ssr' (ssr + 1 * (ratio 1 10000 * (g * d))) = true := leB_real (by
      rw [show (ratio 1 10000 : ℝ) = 1 / 10000 by norm_num [ratio, FloatOps.ofNat]]; linarith)
    have a2 : leB (ratio 9 10 * (g * d)) (g' * d) = true := leB_real (by
      rw [show (ratio 9 10 : ℝ) = 9 / 10 by norm_num [ratio, FloatOps.ofNat]]; linarith)
    rw [satisfiesWolfe, a1, a2]
    rfl
  rw [if_pos e3, pure_eq_ok, ok_bind]
  simp only
  rw [setIdx_of _ (by rw [hh]; omega), ok_bind]
  have e4 : newCorrection 1 [d] [g] [g'] = ⟨[d], [y'], ρ'⟩ := by
    simp [newCorrection, dot, hy, ← hρ]
  have e5 : ltB (FloatOps.abs (ssr - ssr')) (ratio 1 (10 ^ 10)) = false := ltB_real (by
    have : |ssr - ssr'| > 1 / 100 := by
      rw [abs_of_pos] <;> linarith
    rw [show (ratio 1 (10 ^ 10) : ℝ) = 1 / 10 ^ 10 by norm_num [ratio, FloatOps.ofNat]]
    refine le_trans ?_ this.le
    norm_num)
  have e6 : ltB ssr' (ratio 1 (10 ^ 6)) = false := ltB_real (by
    rw [show (ratio 1 (10 ^ 6) : ℝ) = 1 / 10 ^ 6 by norm_num [ratio, FloatOps.ofNat]]
    refine le_trans ?_ h4.le
    norm_num)
  rw [e4, e5, e6]
  rfl

/-- The unused slot. -/
noncomputable def emptySlot : Correction ℝ := ⟨[0], [0], 0⟩

/-- The state before each iteration. -/
noncomputable def ladderState : Nat → LbfgsState ℝ
  | 0 => ⟨[0], [4], [8], [32], [emptySlot, emptySlot, emptySlot, emptySlot, emptySlot], 64, []⟩
  | k + 1 =>
    let st := ladderState k
    let row : (ℝ × ℝ × ℝ) × (ℝ × ℝ × ℝ) := match k with
      | 0 => ((-32, 4, 16), (-32, -16, 1 / 512))
      | 1 => ((-64, 2, 8), (-32, -8, 1 / 256))
      | 2 => ((-96, 1, 4), (-32, -4, 1 / 128))
      | 3 => ((-104, 1 / 2, 2), (-8, -2, 1 / 16))
      | _ => ((-120, 1 / 4, 1), (-16, -1, 1 / 16))
    ⟨[row.1.1], [4], [row.1.2.1], [row.1.2.2], st.history.set (k % 5) ⟨[row.2.1], [row.2.2.1], row.2.2.2⟩, row.1.2.1 * row.1.2.1,
      st.corrections ++ [⟨[row.2.1], [row.2.2.1], row.2.2.2⟩]⟩

theorem ladder_start : lbfgsStart ladder [0] = .ok (some (ladderState 0)) := by
  have h1 : ladderTable 0 = (8, 4) := by simp [ladderTable]
  rw [lbfgsStart]
  show (if ltB (sumSquares [(ladderTable 0).1]) (ratio 1 10000) then pure none else
    computeGradient [(ladderTable 0).2] [(ladderTable 0).1] 1 >>= fun g => pure (some
      (⟨[0], [(ladderTable 0).2], [(ladderTable 0).1], g, List.replicate 5 emptySlot, sumSquares [(ladderTable 0).1], []⟩
        : LbfgsState ℝ))) = _
  have h2 : computeGradient [(4 : ℝ)] [8] 1 = .ok [0 + 4 * 8] := rfl
  simp only [h1]
  rw [h2, if_neg (by norm_num [ltB, ratio, FloatOps.ofNat, sumSquares]), ok_bind]
  norm_num [ladderState, sumSquares, List.replicate]

theorem ladder_direction (fuel k : Nat) (hk : k < 5) :
    lbfgsStep ladder fuel k (ladderState k) = .ok (false, ladderState (k + 1)) := by
  have : k = 0 ∨ k = 1 ∨ k = 2 ∨ k = 3 ∨ k = 4 := by omega
  rcases this with rfl | rfl | rfl | rfl | rfl
  all_goals
    simp only [ladderState]
    refine ladder_step (by simp) ?_ (by norm_num) (by norm_num [ladderTable]) (by norm_num) (by norm_num) (by norm_num) rfl
      (by norm_num) (by norm_num) (by norm_num) (by norm_num)
    norm_num [lbfgsDirection, firstLoop, scaleDirection, secondLoop, List.range_succ, emptySlot, dot, ltB, idx, setIdx, pure_eq_ok, ok_bind]

/-- Case for `C27_direction_partial`: the sixth iteration is reached. -/
example (fuel : Nat) : ladder.DenseOk ∧ ∃ st, LbfgsReaches ladder fuel [0] 5 st := by
  have h : ∀ k ≤ 5, LbfgsReaches ladder fuel [0] k (ladderState k) := by
    intro k
    induction k with
    | zero => exact fun _ => .start ladder_start
    | succ k ih => exact fun hk => .step (ih (by omega)) (ladder_direction fuel k (by omega))
  exact ⟨ladder_denseOk, _, h 5 (le_refl _)⟩

end Fiksi
