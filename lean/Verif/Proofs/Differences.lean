import Mathlib.Combinatorics.SimpleGraph.Paths
import Mathlib.Combinatorics.SimpleGraph.Connectivity.Connected
import Mathlib.Data.Real.Basic
import Mathlib.Data.Fintype.Option
import Mathlib.Algebra.Order.BigOperators.Ring.Finset
import Mathlib.Tactic.Linarith
import Mathlib.Tactic.Ring
import Mathlib.Tactic.Positivity
/-!
# Differences along the edges of a graph

`a e` and `b e` are the ends of edge `e < m`; `none` stands for everything that is held fixed.
-/
namespace Fiksi.Spec
open Finset

variable {n m : Nat} (a b : Nat → Option (Fin n))

/-- Vertices are adjacent if an edge joins them. -/
def edgeGraph (m : Nat) : SimpleGraph (Option (Fin n)) where
  Adj u v := u ≠ v ∧ ∃ e < m, (a e = u ∧ b e = v) ∨ (a e = v ∧ b e = u)
  symm := ⟨fun u v ⟨h, e, he, h'⟩ => ⟨h.symm, e, he, h'.symm⟩⟩
  loopless := ⟨fun _ h => h.1 rfl⟩

/-- Along a path the value changes at most by the root of the length times the changes on the edges of the path. -/
theorem path_change (f : Option (Fin n) → ℝ) : ∀ {u v : Option (Fin n)} (p : (edgeGraph a b m).Walk u v), p.IsPath →
    (f v - f u) ^ 2 ≤ p.length * ∑ e ∈ (range m).filter (fun e => a e ∈ p.support ∧ b e ∈ p.support), (f (b e) - f (a e)) ^ 2 := by
  intro u v p
  induction p with
  | nil => intro _; simp
  | @cons u w v hadj p ih =>
    intro hp
    rw [SimpleGraph.Walk.cons_isPath_iff] at hp
    have h1 := ih hp.1
    have hadj' := hadj
    obtain ⟨hne, e0, he0, h2⟩ := hadj'
    have hw : w ∈ p.support := p.start_mem_support
    have hsq : (f w - f u) ^ 2 = (f (b e0) - f (a e0)) ^ 2 := by
      rcases h2 with ⟨h2, h3⟩ | ⟨h2, h3⟩ <;> rw [h2, h3] <;> ring
    have hsum : (f w - f u) ^ 2 + ∑ e ∈ (range m).filter (fun e => a e ∈ p.support ∧ b e ∈ p.support), (f (b e) - f (a e)) ^ 2 ≤
        ∑ e ∈ (range m).filter (fun e => a e ∈ (SimpleGraph.Walk.cons hadj p).support ∧
          b e ∈ (SimpleGraph.Walk.cons hadj p).support), (f (b e) - f (a e)) ^ 2 := by
      rw [hsq, ← Finset.sum_insert (a := e0) (f := fun e => (f (b e) - f (a e)) ^ 2) (by
        simp only [mem_filter, not_and]
        rintro - h3 h4
        rcases h2 with ⟨h2, -⟩ | ⟨-, h2⟩
        · exact hp.2 (h2 ▸ h3)
        · exact hp.2 (h2 ▸ h4))]
      refine Finset.sum_le_sum_of_subset_of_nonneg ?_ (fun _ _ _ => sq_nonneg _)
      intro e he
      simp only [mem_insert, mem_filter, mem_range, SimpleGraph.Walk.support_cons, List.mem_cons] at he ⊢
      rcases he with rfl | ⟨h3, h4, h5⟩
      · refine ⟨he0, ?_⟩
        rcases h2 with ⟨h2, h3⟩ | ⟨h2, h3⟩
        · exact ⟨.inl h2, .inr (h3 ▸ hw)⟩
        · exact ⟨.inr (h2 ▸ hw), .inl h3⟩
      · exact ⟨h3, .inr h4, .inr h5⟩
    have h0 : 0 ≤ ∑ e ∈ (range m).filter (fun e => a e ∈ p.support ∧ b e ∈ p.support), (f (b e) - f (a e)) ^ 2 := Finset.sum_nonneg fun _ _ => sq_nonneg _
    rw [SimpleGraph.Walk.length_cons]
    push_cast
    refine le_trans ?_ (mul_le_mul_of_nonneg_left hsum (by positivity))
    generalize ∑ e ∈ (range m).filter (fun e => a e ∈ p.support ∧ b e ∈ p.support), (f (b e) - f (a e)) ^ 2 = E at *
    have hL : (0 : ℝ) ≤ p.length := by positivity
    generalize (p.length : ℝ) = L at *
    have hx : f v - f u = (f w - f u) + (f v - f w) := by ring
    rw [hx]
    generalize f w - f u = x at *
    generalize f v - f w = y at *
    rcases hL.eq_or_lt with rfl | hL
    · have : y = 0 := by
        have : y ^ 2 ≤ 0 := by simpa using h1
        nlinarith [sq_nonneg y, pow_eq_zero_iff (two_ne_zero) |>.1 (le_antisymm this (sq_nonneg y))]
      rw [this]
      nlinarith
    · have h3 : 2 * x * y ≤ L * x ^ 2 + E := by
        have h4 : L * (2 * x * y) ≤ L * (L * x ^ 2 + E) := by nlinarith [sq_nonneg (L * x - y)]
        exact le_of_mul_le_mul_left h4 hL
      nlinarith

/-- The entries of the matrix of differences. -/
def incidence (e : Nat) (c : Fin n) : ℝ := (if b e = some c then 1 else 0) - if a e = some c then 1 else 0

/-- The values of the vertices; what is fixed has value 0. -/
def grounded (y : Fin n → ℝ) : Option (Fin n) → ℝ
  | none => 0
  | some c => y c

theorem incidence_sum (y : Fin n → ℝ) (e : Nat) : ∑ c, incidence a b e c * y c = grounded y (b e) - grounded y (a e) := by
  have key : ∀ o : Option (Fin n), ∑ c, (if o = some c then 1 else 0) * y c = grounded y o := by
    intro o
    cases o with
    | none => simp [grounded]
    | some d => simp [grounded, Finset.sum_ite_eq]
  simp only [incidence, sub_mul, Finset.sum_sub_distrib, key]

/-- The gradient of the sum of the squared differences is not small where the sum is not. -/
theorem incidence_steep (y : Fin n → ℝ) : ∑ e ∈ range m, (grounded y (b e) - grounded y (a e)) ^ 2 ≤
    n ^ 2 * ∑ c, (∑ e ∈ range m, incidence a b e c * (grounded y (b e) - grounded y (a e))) ^ 2 := by
  classical
  let G := edgeGraph a b m
  let f := grounded y
  let ρ : Option (Fin n) → Option (Fin n) := fun v => if G.Reachable none v then none else (G.connectedComponentMk v).out
  have hρ : ∀ v, G.Reachable (ρ v) v := by
    intro v
    simp only [ρ]
    split
    · assumption
    · exact SimpleGraph.ConnectedComponent.exact (Quot.out_eq _)
  have hρ' : ∀ u v, G.Adj u v → ρ u = ρ v := by
    intro u v h
    simp only [ρ]
    have h1 : G.Reachable none u ↔ G.Reachable none v := ⟨fun h' => h'.trans h.reachable, fun h' => h'.trans h.symm.reachable⟩
    rw [SimpleGraph.ConnectedComponent.sound h.reachable]
    simp only [h1]
  have hnone : ρ none = none := by
    simp only [ρ]
    rw [if_pos (SimpleGraph.Reachable.refl _)]
  let E := ∑ e ∈ range m, (f (b e) - f (a e)) ^ 2
  have hE : 0 ≤ E := Finset.sum_nonneg fun _ _ => sq_nonneg _
  let z : Option (Fin n) → ℝ := fun v => f v - f (ρ v)
  have hz : ∀ v, z v ^ 2 ≤ n * E := by
    intro v
    obtain ⟨p, hp⟩ := (hρ v).exists_isPath
    have h1 := path_change a b f p hp
    have h2 : p.length ≤ n := by
      have := hp.length_lt
      simp only [Fintype.card_option, Fintype.card_fin] at this
      omega
    refine h1.trans ?_
    have h3 : ∑ e ∈ (range m).filter (fun e => a e ∈ p.support ∧ b e ∈ p.support), (f (b e) - f (a e)) ^ 2 ≤ E :=
      Finset.sum_le_sum_of_subset_of_nonneg (Finset.filter_subset _ _) (fun _ _ _ => sq_nonneg _)
    have h4 : (p.length : ℝ) ≤ n := by exact_mod_cast h2
    exact mul_le_mul h4 h3 (Finset.sum_nonneg fun _ _ => sq_nonneg _) (by positivity)
  have hsame : ∀ e ∈ range m, f (b e) - f (a e) = z (b e) - z (a e) := by
    intro e he
    simp only [z]
    by_cases hab : a e = b e
    · rw [hab]; ring
    · rw [hρ' (a e) (b e) ⟨hab, e, mem_range.1 he, .inl ⟨rfl, rfl⟩⟩]
      ring
  have hzg : z = grounded (fun c => z (some c)) := by
    funext v
    cases v with
    | none => simp only [z, hnone, grounded, sub_self]
    | some c => rfl
  have hdot : E = ∑ c, z (some c) * ∑ e ∈ range m, incidence a b e c * (f (b e) - f (a e)) := by
    have h1 : E = ∑ e ∈ range m, (f (b e) - f (a e)) * ∑ c, incidence a b e c * z (some c) := by
      refine Finset.sum_congr rfl fun e he => ?_
      rw [incidence_sum a b (fun c => z (some c)) e, ← hzg, ← hsame e he]
      ring
    rw [h1]
    simp only [Finset.mul_sum]
    rw [Finset.sum_comm]
    exact Finset.sum_congr rfl fun c _ => Finset.sum_congr rfl fun e _ => by ring
  have hcs := Finset.sum_mul_sq_le_sq_mul_sq Finset.univ (fun c => z (some c)) (fun c => ∑ e ∈ range m, incidence a b e c * (f (b e) - f (a e)))
  rw [← hdot] at hcs
  have hzs : ∑ c, z (some c) ^ 2 ≤ n * (n * E) := by
    calc ∑ c, z (some c) ^ 2 ≤ ∑ _c : Fin n, (n * E : ℝ) := Finset.sum_le_sum fun c _ => hz _
      _ = _ := by simp
  have hG : 0 ≤ ∑ c, (∑ e ∈ range m, incidence a b e c * (f (b e) - f (a e))) ^ 2 := Finset.sum_nonneg fun _ _ => sq_nonneg _
  show E ≤ n ^ 2 * ∑ c, (∑ e ∈ range m, incidence a b e c * (f (b e) - f (a e))) ^ 2
  generalize ∑ c, (∑ e ∈ range m, incidence a b e c * (f (b e) - f (a e))) ^ 2 = G' at *
  rcases hE.eq_or_lt with h | h
  · rw [← h]; positivity
  · have h1 : E * E ≤ E * (n ^ 2 * G') := by
      calc E * E = E ^ 2 := by ring
        _ ≤ _ := hcs
        _ ≤ n * (n * E) * G' := mul_le_mul_of_nonneg_right hzs hG
        _ = _ := by ring
    exact le_of_mul_le_mul_left h1 h

/-- The square of the norm of the matrix of differences. -/
theorem incidence_norm (y : Fin n → ℝ) : ∑ e ∈ range m, (∑ c, incidence a b e c * y c) ^ 2 ≤ 4 * m * ∑ c, y c ^ 2 := by
  have hS : 0 ≤ ∑ c, y c ^ 2 := Finset.sum_nonneg fun _ _ => sq_nonneg _
  have h1 : ∀ o, grounded y o ^ 2 ≤ ∑ c, y c ^ 2 := by
    intro o
    cases o with
    | none => simpa [grounded] using hS
    | some c => exact Finset.single_le_sum (f := fun c => y c ^ 2) (fun _ _ => sq_nonneg _) (Finset.mem_univ c)
  calc ∑ e ∈ range m, (∑ c, incidence a b e c * y c) ^ 2 ≤ ∑ _e ∈ range m, 4 * ∑ c, y c ^ 2 := by
        refine Finset.sum_le_sum fun e _ => ?_
        rw [incidence_sum]
        nlinarith [h1 (a e), h1 (b e), sq_nonneg (grounded y (b e) + grounded y (a e))]
    _ = _ := by simp; ring

end Fiksi.Spec
