import Verif.Proofs.Turned
import Verif.Spec.Figure
/-!
# What a constraint adds to the linear model
-/
namespace Fiksi
open Spec

/-- The sum of the squares of the linear models of the equations of a constraint. -/
noncomputable def conTerm (es : List (Elem ℝ)) (r : ℝ) (con : Spec.Con ℝ) (g d : Nat → ℝ) : ℝ := ((encCon es con).map fun e => ((e.transform r).linear g d) ^ 2).sum

section
variable {c s e : ℝ} (h : c ^ 2 + s ^ 2 = 1) (he : e = 1 ∨ e = -1)
include h he

theorem turn_square (x y : ℝ) : (c * x - e * s * y) ^ 2 + (s * x + e * c * y) ^ 2 = x ^ 2 + y ^ 2 := by
  rcases he with rfl | rfl <;> linear_combination (x ^ 2 + y ^ 2) * h

theorem turn_distance (x1 y1 x2 y2 : ℝ) :
    ((c * x1 - e * s * y1) - (c * x2 - e * s * y2)) * ((c * x1 - e * s * y1) - (c * x2 - e * s * y2)) +
      ((s * x1 + e * c * y1) - (s * x2 + e * c * y2)) * ((s * x1 + e * c * y1) - (s * x2 + e * c * y2)) = (x1 - x2) * (x1 - x2) + (y1 - y2) * (y1 - y2) := by
  rcases he with rfl | rfl <;> linear_combination ((x1 - x2) * (x1 - x2) + (y1 - y2) * (y1 - y2)) * h

end

/-- The values at the variables of a point are turned. -/
structure TurnedAt (c s e : ℝ) (g g' : Nat → ℝ) (p p' : Nat) : Prop where
  fst : g' p' = c * g p - e * s * g (p + 1)
  snd : g' (p' + 1) = s * g p + e * c * g (p + 1)

section
variable {c s e : ℝ} (h : c ^ 2 + s ^ 2 = 1) (he : e = 1 ∨ e = -1) {g g' d d' : Nat → ℝ} {p p' q q' r r' u u' : Nat}
  (gp : TurnedAt c s e g g' p p') (dp : TurnedAt c s e d d' p p') (gq : TurnedAt c s e g g' q q') (dq : TurnedAt c s e d d' q q')
include h he gp dp gq dq

theorem turn_vve : ((Expr.variableVariableEquality p' q' : Expr ℝ).linear g' d') ^ 2 + ((Expr.variableVariableEquality (p' + 1) (q' + 1) : Expr ℝ).linear g' d') ^ 2 =
    ((Expr.variableVariableEquality p q : Expr ℝ).linear g d) ^ 2 + ((Expr.variableVariableEquality (p + 1) (q + 1) : Expr ℝ).linear g d) ^ 2 := by
  simp only [Expr.linear, Expr.variableIndices, List.map, Expr.computeResidualAndGradient, vveResGrad, List.zipWith, List.sum_cons, List.sum_nil, gp.fst, gp.snd, gq.fst, gq.snd, dp.fst, dp.snd, dq.fst, dq.snd]
  have := turn_square h he (d q - d p + g q - g p) (d (q + 1) - d (p + 1) + g (q + 1) - g (p + 1))
  linear_combination this

theorem turn_ppd (D : ℝ) : (Expr.pointPointDistance p' q' D : Expr ℝ).linear g' d' = (Expr.pointPointDistance p q D : Expr ℝ).linear g d := by
  simp only [Expr.linear, Expr.variableIndices, List.map, Expr.computeResidualAndGradient, ppdResGrad, square, List.zipWith, List.sum_cons, List.sum_nil, gp.fst, gp.snd, gq.fst, gq.snd, dp.fst, dp.snd, dq.fst, dq.snd]
  rw [turn_distance h he]
  generalize (1 : ℝ) / FloatOps.sqrt ((g p - g q) * (g p - g q) + (g (p + 1) - g (q + 1)) * (g (p + 1) - g (q + 1))) = R
  rcases he with rfl | rfl <;> linear_combination R * ((g p - g q) * (d p - d q) + (g (p + 1) - g (q + 1)) * (d (p + 1) - d (q + 1))) * h

theorem turn_pci {r r' : Nat} (gr : g' r' = g r) (dr : d' r' = d r) :
    (Expr.pointCircleIncidence p' q' r' : Expr ℝ).linear g' d' = (Expr.pointCircleIncidence p q r : Expr ℝ).linear g d := by
  simp only [Expr.linear, Expr.variableIndices, List.map, Expr.computeResidualAndGradient, pciResGrad, ppdResGrad, square, List.zipWith, List.sum_cons, List.sum_nil, gp.fst, gp.snd, gq.fst, gq.snd, dp.fst, dp.snd, dq.fst, dq.snd, gr, dr,
    List.cons_append, List.nil_append]
  rw [turn_distance h he]
  generalize (1 : ℝ) / FloatOps.sqrt ((g p - g q) * (g p - g q) + (g (p + 1) - g (q + 1)) * (g (p + 1) - g (q + 1))) = R
  rcases he with rfl | rfl <;> linear_combination R * ((g p - g q) * (d p - d q) + (g (p + 1) - g (q + 1)) * (d (p + 1) - d (q + 1))) * h

variable (gr : TurnedAt c s e g g' r r') (dr : TurnedAt c s e d d' r r')
include gr dr

theorem turn_pli : (Expr.pointLineIncidence p' q' r' : Expr ℝ).linear g' d' = e * (Expr.pointLineIncidence p q r : Expr ℝ).linear g d := by
  simp only [Expr.linear, Expr.variableIndices, List.map, Expr.computeResidualAndGradient, pliResGrad, List.zipWith, List.sum_cons, List.sum_nil, gp.fst, gp.snd, gq.fst, gq.snd, dp.fst, dp.snd, dq.fst, dq.snd,
    gr.fst, gr.snd, dr.fst, dr.snd]
  rcases he with rfl | rfl
  · linear_combination (-(g (r + 1) - g (q + 1)) * d p + (g r - g q) * d (p + 1) + (-g (p + 1) + g (r + 1)) * d q + (g p - g r) * d (q + 1) + (g (p + 1) - g (q + 1)) * d r - (g p - g q) * d (r + 1) +
      ((g r - g q) * (g (p + 1) - g (q + 1)) - (g (r + 1) - g (q + 1)) * (g p - g q))) * h
  · linear_combination -(-(g (r + 1) - g (q + 1)) * d p + (g r - g q) * d (p + 1) + (-g (p + 1) + g (r + 1)) * d q + (g p - g r) * d (q + 1) + (g (p + 1) - g (q + 1)) * d r - (g p - g q) * d (r + 1) +
      ((g r - g q) * (g (p + 1) - g (q + 1)) - (g (r + 1) - g (q + 1)) * (g p - g q))) * h

theorem turn_pld (hm : e = 1) (D : ℝ) : (Expr.pointLineDistance p' q' r' D : Expr ℝ).linear g' d' = (Expr.pointLineDistance p q r D : Expr ℝ).linear g d := by
  subst hm
  simp only [Expr.linear, Expr.variableIndices, List.map, Expr.computeResidualAndGradient, pldResGrad, List.zipWith, List.sum_cons, List.sum_nil]
  have hlen : (g' r' - g' q') * (g' r' - g' q') + (g' (r' + 1) - g' (q' + 1)) * (g' (r' + 1) - g' (q' + 1)) =
      (g r - g q) * (g r - g q) + (g (r + 1) - g (q + 1)) * (g (r + 1) - g (q + 1)) := by
    rw [gr.fst, gr.snd, gq.fst, gq.snd]
    exact turn_distance h he _ _ _ _
  have hcross : (g' r' - g' q') * (g' (p' + 1) - g' (q' + 1)) - (g' (r' + 1) - g' (q' + 1)) * (g' p' - g' q') =
      (g r - g q) * (g (p + 1) - g (q + 1)) - (g (r + 1) - g (q + 1)) * (g p - g q) := by
    rw [gr.fst, gr.snd, gq.fst, gq.snd, gp.fst, gp.snd]
    linear_combination ((g r - g q) * (g (p + 1) - g (q + 1)) - (g (r + 1) - g (q + 1)) * (g p - g q)) * h
  rw [hlen, hcross]
  generalize (1 : ℝ) / FloatOps.sqrt ((g r - g q) * (g r - g q) + (g (r + 1) - g (q + 1)) * (g (r + 1) - g (q + 1))) = R
  generalize ((g r - g q) * (g (p + 1) - g (q + 1)) - (g (r + 1) - g (q + 1)) * (g p - g q)) / ((g r - g q) * (g r - g q) + (g (r + 1) - g (q + 1)) * (g (r + 1) - g (q + 1))) = a
  rw [gp.fst, gp.snd, gq.fst, gq.snd, dp.fst, dp.snd, dq.fst, dq.snd, gr.fst, gr.snd, dr.fst, dr.snd]
  linear_combination (-R * (g (r + 1) - g (q + 1)) * d p + R * (g r - g q) * d (p + 1) - R * (-a * (g r - g q) - g (r + 1) + g (p + 1)) * d q
    - R * (g r - (g p + a * (g (r + 1) - g (q + 1)))) * d (q + 1) + R * (-a * (g r - g q) + (g (p + 1) - g (q + 1))) * d r - R * (g p + a * (g (r + 1) - g (q + 1)) - g q) * d (r + 1)) * h

theorem turn_lct (hm : e = 1) {u u' : Nat} (gu : g' u' = g u) (du : d' u' = d u) :
    (Expr.lineCircleTangency p' q' r' u' : Expr ℝ).linear g' d' = (Expr.lineCircleTangency p q r u : Expr ℝ).linear g d := by
  subst hm
  simp only [Expr.linear, Expr.variableIndices, List.map, Expr.computeResidualAndGradient, lctResGrad]
  have hlen : (g' p' - g' q') * (g' p' - g' q') + (g' (p' + 1) - g' (q' + 1)) * (g' (p' + 1) - g' (q' + 1)) =
      (g p - g q) * (g p - g q) + (g (p + 1) - g (q + 1)) * (g (p + 1) - g (q + 1)) := by
    rw [gp.fst, gp.snd, gq.fst, gq.snd]
    exact turn_distance h he _ _ _ _
  have hcross : g' p' * (g' (q' + 1) - g' (r' + 1)) + g' q' * (g' (r' + 1) - g' (p' + 1)) + g' r' * (g' (p' + 1) - g' (q' + 1)) =
      g p * (g (q + 1) - g (r + 1)) + g q * (g (r + 1) - g (p + 1)) + g r * (g (p + 1) - g (q + 1)) := by
    rw [gr.fst, gr.snd, gq.fst, gq.snd, gp.fst, gp.snd]
    linear_combination (g p * (g (q + 1) - g (r + 1)) + g q * (g (r + 1) - g (p + 1)) + g r * (g (p + 1) - g (q + 1))) * h
  rw [hlen, hcross]
  generalize hL2 : (g p - g q) * (g p - g q) + (g (p + 1) - g (q + 1)) * (g (p + 1) - g (q + 1)) = L2
  generalize hA : g p * (g (q + 1) - g (r + 1)) + g q * (g (r + 1) - g (p + 1)) + g r * (g (p + 1) - g (q + 1)) = A
  split
  · simp [du]
  generalize (1 : ℝ) / (L2 * FloatOps.sqrt L2) = L3
  generalize (1 : ℝ) / FloatOps.sqrt L2 = R
  generalize FloatOps.signum A = S
  simp only [List.zipWith, List.sum_cons, List.sum_nil]
  rw [gp.fst, gp.snd, gq.fst, gq.snd, dp.fst, dp.snd, dq.fst, dq.snd, gr.fst, gr.snd, dr.fst, dr.snd, gu, du]
  linear_combination (S * L3 * (L2 * (g (q + 1) - g (r + 1)) + A * (g q - g p)) * d p + S * L3 * (L2 * (-g q + g r) + A * (g (q + 1) - g (p + 1))) * d (p + 1)
    + S * L3 * (L2 * (g (r + 1) - g (p + 1)) - A * (g q - g p)) * d q + S * L3 * (L2 * (g p - g r) - A * (g (q + 1) - g (p + 1))) * d (q + 1)
    + S * R * (g (p + 1) - g (q + 1)) * d r + S * R * (-g p + g q) * d (r + 1)) * h

variable (gu : TurnedAt c s e g g' u u') (du : TurnedAt c s e d d' u u')
include gu du

theorem turn_ssle : (Expr.segmentSegmentLengthEquality p' q' r' u' : Expr ℝ).linear g' d' = (Expr.segmentSegmentLengthEquality p q r u : Expr ℝ).linear g d := by
  simp only [Expr.linear, Expr.variableIndices, List.map, Expr.computeResidualAndGradient, ssleResGrad, ppdResGrad, square, List.zipWith, List.sum_cons, List.sum_nil, gp.fst, gp.snd, gq.fst, gq.snd, dp.fst, dp.snd, dq.fst, dq.snd,
    gr.fst, gr.snd, dr.fst, dr.snd, gu.fst, gu.snd, du.fst, du.snd, List.cons_append, List.nil_append]
  rw [turn_distance h he, turn_distance h he]
  generalize (1 : ℝ) / FloatOps.sqrt ((g p - g q) * (g p - g q) + (g (p + 1) - g (q + 1)) * (g (p + 1) - g (q + 1))) = R
  generalize (1 : ℝ) / FloatOps.sqrt ((g r - g u) * (g r - g u) + (g (r + 1) - g (u + 1)) * (g (r + 1) - g (u + 1))) = R'
  rcases he with rfl | rfl <;> linear_combination (R' * ((g r - g u) * (d r - d u) + (g (r + 1) - g (u + 1)) * (d (r + 1) - d (u + 1)))
    - R * ((g p - g q) * (d p - d q) + (g (p + 1) - g (q + 1)) * (d (p + 1) - d (q + 1)))) * h

theorem turn_llpar : (Expr.lineLineParallelism p' q' r' u' : Expr ℝ).linear g' d' = e * (Expr.lineLineParallelism p q r u : Expr ℝ).linear g d := by
  simp only [Expr.linear, Expr.variableIndices, List.map, Expr.computeResidualAndGradient, llparResGrad, List.zipWith, List.sum_cons, List.sum_nil, gp.fst, gp.snd, gq.fst, gq.snd, dp.fst, dp.snd, dq.fst, dq.snd,
    gr.fst, gr.snd, dr.fst, dr.snd, gu.fst, gu.snd, du.fst, du.snd]
  rcases he with rfl | rfl
  · linear_combination ((g (u + 1) - g (r + 1)) * (d p - d q) - (g u - g r) * (d (p + 1) - d (q + 1)) - (g (q + 1) - g (p + 1)) * (d r - d u) + (g q - g p) * (d (r + 1) - d (u + 1))
      + ((g u - g r) * (g (q + 1) - g (p + 1)) - (g (u + 1) - g (r + 1)) * (g q - g p))) * h
  · linear_combination -((g (u + 1) - g (r + 1)) * (d p - d q) - (g u - g r) * (d (p + 1) - d (q + 1)) - (g (q + 1) - g (p + 1)) * (d r - d u) + (g q - g p) * (d (r + 1) - d (u + 1))
      + ((g u - g r) * (g (q + 1) - g (p + 1)) - (g (u + 1) - g (r + 1)) * (g q - g p))) * h

theorem turn_llperp : (Expr.lineLinePerpendicularity p' q' r' u' : Expr ℝ).linear g' d' = (Expr.lineLinePerpendicularity p q r u : Expr ℝ).linear g d := by
  simp only [Expr.linear, Expr.variableIndices, List.map, Expr.computeResidualAndGradient, llperpResGrad, List.zipWith, List.sum_cons, List.sum_nil, gp.fst, gp.snd, gq.fst, gq.snd, dp.fst, dp.snd, dq.fst, dq.snd,
    gr.fst, gr.snd, dr.fst, dr.snd, gu.fst, gu.snd, du.fst, du.snd]
  rcases he with rfl | rfl <;>
    linear_combination (-(g u - g r) * (d p - d q) - (g (u + 1) - g (r + 1)) * (d (p + 1) - d (q + 1)) - (g q - g p) * (d r - d u) - (g (q + 1) - g (p + 1)) * (d (r + 1) - d (u + 1))
      + ((g u - g r) * (g q - g p) + (g (u + 1) - g (r + 1)) * (g (q + 1) - g (p + 1)))) * h

end

end Fiksi
