import Verif.Proofs.QrSteps
import Verif.Proofs.VecNorm
import Verif.Proofs.RoundedBackSubst
/-!
# Reflectors in rounded arithmetic
-/
namespace Fiksi

open Spec

section
variable {A : Arith} {u : ℝ} (hA : A.Accurate u)
include hA

theorem fl_add_near {x y : Fl A} : Near u 1 (x + y).val (x.val + y.val) := hA.near _
theorem fl_mul_near {x y : Fl A} : Near u 1 (x * y).val (x.val * y.val) := hA.near _

theorem dotAt_fold {p : Nat} {rows : List Nat} (hn : rows.Nodup) {values : List (Fl A)} (hlen : values.length = rows.length) {v : Nat → ℝ}
    (hv : ∀ t ∈ rows, Near u p (valueAt rows values t).val (v t)) (x : Nat → Fl A) (z : Fl A) :
    ∃ (θ₀ : ℝ) (θ : Nat → ℝ), Ratio u rows.length θ₀ ∧ (∀ t, Ratio u (p + 1 + rows.length) (θ t)) ∧
      ((rows.zip values).foldl (fun (tau : Fl A) p => tau + p.2 * x p.1) z).val =
        θ₀ * z.val + (rows.map (fun t => θ t * (v t * (x t).val))).sum := by
  have h0 := hA.pos
  have h1 := hA.lt_one
  induction rows generalizing values z with
  | nil => exact ⟨1, fun _ => 1, Ratio.one h0 h1 _, fun _ => Ratio.one h0 h1 _, by simp⟩
  | cons r rows ih =>
    obtain ⟨hn1, hn2⟩ := List.nodup_cons.1 hn
    cases values with
    | nil => simp at hlen
    | cons w values =>
      rw [List.zip_cons_cons, List.foldl_cons]
      obtain ⟨θ₀, θ, g1, g2, g3⟩ := ih hn2 (values := values) (by simpa using hlen) (fun t ht => by
        have h := hv t (List.mem_cons_of_mem _ ht)
        rw [valueAt, List.idxOf_cons_ne _ (by rintro rfl; exact hn1 ht), List.getD_cons_succ] at h
        exact h) (z + w * x r)
      obtain ⟨ρ, k1, k2⟩ := fl_add_near hA (x := z) (y := w * x r)
      obtain ⟨σ, k3, k4⟩ := fl_mul_near hA (x := w) (y := x r)
      obtain ⟨τ, k5, k6⟩ := hv r List.mem_cons_self
      rw [valueAt, List.idxOf_cons_self, List.getD_cons_zero] at k6
      refine ⟨θ₀ * ρ, fun t => if t = r then θ₀ * ρ * σ * τ else θ t, ?_, ?_, ?_⟩
      · exact (g1.mul h0 h1 k1).mono h0 h1 (by simp)
      · intro t
        dsimp only
        split
        · exact (((g1.mul h0 h1 k1).mul h0 h1 k3).mul h0 h1 k5).mono h0 h1 (by simp only [List.length_cons]; omega)
        · exact (g2 t).mono h0 h1 (by simp)
      · rw [g3, List.map_cons, List.sum_cons]
        beta_reduce
        rw [if_pos rfl]
        have : rows.map (fun t => (if t = r then θ₀ * ρ * σ * τ else θ t) * (v t * (x t).val)) = rows.map (fun t => θ t * (v t * (x t).val)) := by
          apply List.map_congr_left
          intro t ht
          rw [if_neg (by rintro rfl; exact hn1 ht)]
        rw [this, k2, k4, k6]
        ring

omit hA in
theorem sum_rows {m : Nat} {rows : List Nat} (hn : rows.Nodup) (hm : ∀ t ∈ rows, t < m) (f : Nat → ℝ) (hf : ∀ t, t ∉ rows → f t = 0) :
    (rows.map f).sum = ∑ t ∈ Finset.range m, f t := by
  rw [← List.sum_toFinset f hn]
  apply Finset.sum_subset
  · intro t ht
    rw [List.mem_toFinset] at ht
    exact Finset.mem_range.2 (hm t ht)
  · intro t _ ht
    rw [List.mem_toFinset] at ht
    exact hf t ht

theorem dotAt_rounded {m p : Nat} {rows : List Nat} (hn : rows.Nodup) (hm : ∀ t ∈ rows, t < m) (hlm : rows.length ≤ m) {values : List (Fl A)}
    (hlen : values.length = rows.length) {v : Nat → ℝ} (hv : ∀ t ∈ rows, Near u p (valueAt rows values t).val (v t)) (hz : ∀ t, t ∉ rows → v t = 0)
    (x : Nat → Fl A) : ∃ θ : Nat → ℝ, (∀ t, Ratio u (p + 1 + m) (θ t)) ∧
      (dotAt rows values x).val = ∑ t ∈ Finset.range m, θ t * (v t * (x t).val) := by
  obtain ⟨θ₀, θ, g1, g2, g3⟩ := dotAt_fold hA hn hlen hv x 0
  refine ⟨θ, fun t => (g2 t).mono hA.pos hA.lt_one (by omega), ?_⟩
  rw [dotAt, g3, fl_zero, mul_zero, zero_add]
  exact sum_rows hn hm _ (fun t ht => by rw [hz t ht]; ring)

/-- Applying a reflector. -/
theorem reflectWith_rounded {m p q : Nat} {rows : List Nat} (hn : rows.Nodup) (hm : ∀ t ∈ rows, t < m) (hlm : rows.length ≤ m)
    {values : List (Fl A)} (hlen : values.length = rows.length) {v : Nat → ℝ} (hv : ∀ t ∈ rows, Near u p (valueAt rows values t).val (v t))
    (hz : ∀ t, t ∉ rows → v t = 0) {β : Fl A} {b : ℝ} (hβ : Near u q β.val b) (ho : Orthogonal m b v) (x : Nat → Fl A) :
    nrm m (fun t => (reflectWith β rows values x t).val - reflect m b v (fun t => (x t).val) t) ≤
      3 * gap u (2 * p + q + m + 4) * nrm m (fun t => (x t).val) := by
  have h0 := hA.pos
  have h1 := hA.lt_one
  set K := 2 * p + q + m + 4 with hK
  set s := ∑ t ∈ Finset.range m, |v t| * |(x t).val| with hs
  have hs0 : 0 ≤ s := Finset.sum_nonneg (fun t _ => mul_nonneg (abs_nonneg _) (abs_nonneg _))
  have hg := gap_nonneg h0 h1 K
  obtain ⟨θ, g1, g2⟩ := dotAt_rounded hA hn hm hlm hlen hv hz x
  have key : ∀ t, |(reflectWith β rows values x t).val - reflect m b v (fun t => (x t).val) t| ≤
      |(gap u K * |(x t).val| + gap u K * (|b| * s) * |v t|)| := by
    intro t
    refine le_trans ?_ (le_abs_self _)
    by_cases ht : t ∈ rows
    · rw [reflectWith, if_pos ht, reflect]
      obtain ⟨β', k1, k2⟩ := hβ
      obtain ⟨ρ, k3, k4⟩ := hv t ht
      obtain ⟨σ, k5, k6⟩ := fl_mul_near hA (x := dotAt rows values x) (y := β)
      obtain ⟨τ, k7, k8⟩ := fl_mul_near hA (x := valueAt rows values t) (y := dotAt rows values x * β)
      obtain ⟨ω, k9, k10⟩ := hA.near ((x t).val - (valueAt rows values t * (dotAt rows values x * β)).val)
      have e : (x t - valueAt rows values t * (dotAt rows values x * β)).val =
          ω * ((x t).val - (valueAt rows values t * (dotAt rows values x * β)).val) := k10
      rw [e, k8, k6, k4, k2, g2]
      have e2 : ω * ((x t).val - τ * (ρ * v t * (σ * ((∑ t ∈ Finset.range m, θ t * (v t * (x t).val)) * (β' * b))))) -
          ((x t).val - v t * ((∑ s ∈ Finset.range m, v s * (x s).val) * b)) =
          (ω - 1) * (x t).val - v t * (b * ∑ s ∈ Finset.range m, (ω * τ * ρ * σ * β' * θ s - 1) * (v s * (x s).val)) := by
        have : ∑ s ∈ Finset.range m, (ω * τ * ρ * σ * β' * θ s - 1) * (v s * (x s).val) =
            (ω * τ * ρ * σ * β') * (∑ t ∈ Finset.range m, θ t * (v t * (x t).val)) - ∑ s ∈ Finset.range m, v s * (x s).val := by
          rw [Finset.mul_sum, ← Finset.sum_sub_distrib]
          exact Finset.sum_congr rfl (fun s _ => by ring)
        rw [this]
        ring
      rw [e2]
      have hR : ∀ s, |ω * τ * ρ * σ * β' * θ s - 1| ≤ gap u K := by
        intro s
        exact ((((((k9.mul h0 h1 k7).mul h0 h1 k3).mul h0 h1 k5).mul h0 h1 k1).mul h0 h1 (g1 s)).mono h0 h1 (by omega)).abs h0 h1
      have hsum : |∑ s ∈ Finset.range m, (ω * τ * ρ * σ * β' * θ s - 1) * (v s * (x s).val)| ≤ gap u K * s := by
        refine (Finset.abs_sum_le_sum_abs _ _).trans ?_
        rw [hs, Finset.mul_sum]
        refine Finset.sum_le_sum (fun s _ => ?_)
        rw [abs_mul, abs_mul]
        exact mul_le_mul_of_nonneg_right (hR s) (mul_nonneg (abs_nonneg _) (abs_nonneg _))
      refine (abs_sub _ _).trans ?_
      rw [abs_mul, abs_mul, abs_mul]
      have e3 := mul_le_mul_of_nonneg_right ((k9.mono h0 h1 (show 1 ≤ K by omega)).abs h0 h1) (abs_nonneg (x t).val)
      have e4 := mul_le_mul_of_nonneg_left (mul_le_mul_of_nonneg_left hsum (abs_nonneg b)) (abs_nonneg (v t))
      linarith
    · rw [reflectWith, if_neg ht, reflect, hz t ht]
      simp only [zero_mul, sub_zero, sub_self, abs_zero]
      positivity
  refine (nrm_mono (fun t _ => key t)).trans ?_
  refine (nrm_add _ _).trans ?_
  rw [nrm_smul, nrm_smul, nrm_abs, nrm_abs, abs_of_nonneg hg, abs_of_nonneg (by positivity)]
  have e5 : s ≤ nrm m v * nrm m (fun t => (x t).val) := nrm_inner_abs _ _
  have e6 := ho.bound
  have e7 : |b| * s * nrm m v ≤ 2 * nrm m (fun t => (x t).val) := by
    calc |b| * s * nrm m v ≤ |b| * (nrm m v * nrm m (fun t => (x t).val)) * nrm m v :=
          mul_le_mul_of_nonneg_right (mul_le_mul_of_nonneg_left e5 (abs_nonneg b)) (nrm_nonneg _)
      _ = (|b| * (nrm m v * nrm m v)) * nrm m (fun t => (x t).val) := by ring
      _ ≤ _ := mul_le_mul_of_nonneg_right e6 (nrm_nonneg _)
  have e8 := mul_le_mul_of_nonneg_left e7 hg
  linarith

/-! ## Computing a reflector -/

theorem squares_rounded (l : List (Fl A)) : ∀ (k : Nat) (s : Fl A) (s₀ : ℝ), Near u (k + 1) s.val s₀ → 0 ≤ s₀ →
    Near u (k + 1 + l.length) (l.foldl (fun (s : Fl A) value => s + value * value) s).val
      ((l.map Fl.val).foldl (fun (s : ℝ) value => s + value * value) s₀) := by
  have h0 := hA.pos
  have h1 := hA.lt_one
  induction l with
  | nil => exact fun k s s₀ h _ => h
  | cons a l ih =>
    intro k s s₀ h hs
    rw [List.map_cons, List.foldl_cons, List.foldl_cons, List.length_cons, show k + 1 + (l.length + 1) = (k + 1) + 1 + l.length by omega]
    apply ih
    · exact Near.rnd hA (h.add h0 h1 ((fl_mul_near hA).mono h0 h1 (by omega)) hs (mul_self_nonneg a.val))
    · exact add_nonneg hs (mul_self_nonneg _)

/-- `calculate_householder`. -/
theorem calculateHouseholder_rounded (v0 : Fl A) (rest : List (Fl A)) :
    ∃ norm β v' norm₀ β₀ v₀', calculateHouseholder (v0 :: rest) = .ok (norm, β, v' :: rest) ∧
      calculateHouseholder (v0.val :: rest.map Fl.val) = .ok (norm₀, β₀, v₀' :: rest.map Fl.val) ∧
      Near u (rest.length + 3) norm.val norm₀ ∧ Near u (3 * rest.length + 11) β.val β₀ ∧ Near u (2 * rest.length + 6) v'.val v₀' := by
  have h0 := hA.pos
  have h1 := hA.lt_one
  have hσ := squares_rounded hA rest 0 0 0 ⟨1, Ratio.one h0 h1 _, by rw [fl_zero]; ring⟩ le_rfl
  have hσ0 : 0 ≤ (rest.map Fl.val).foldl (fun (s : ℝ) value => s + value * value) 0 := by
    rw [foldl_squares, zero_add]
    exact sum_squares_nonneg _
  rw [calculateHouseholder, calculateHouseholder]
  simp only
  revert hσ hσ0
  generalize rest.foldl (fun (s : Fl A) value => s + value * value) 0 = σ
  generalize (rest.map Fl.val).foldl (fun (s : ℝ) value => s + value * value) 0 = σ₀
  intro hσ hσ0
  rw [zero_add, Nat.add_comm] at hσ
  set r := rest.length with hr
  have hle : ∀ x y : Fl A, leB x y = leB x.val y.val := by
    intro x y
    rfl
  have hs : FloatOps.eqB σ 0 = FloatOps.eqB σ₀ 0 := by
    show decide (σ.val = (0 : Fl A).val) = decide (σ₀ = 0)
    rw [fl_zero, decide_eq_decide]
    exact hσ.eq_zero_iff h0 h1
  rw [hs]
  by_cases hz : FloatOps.eqB σ₀ 0 = true
  · rw [if_pos hz, if_pos hz]
    refine ⟨FloatOps.abs v0, _, 1, FloatOps.abs v0.val, _, 1, rfl, rfl, ⟨1, Ratio.one h0 h1 _, (one_mul _).symm⟩, ?_,
      ⟨1, Ratio.one h0 h1 _, (one_mul _).symm⟩⟩
    rw [hle]
    show Near u _ (if leB 0 v0.val = true then (0 : Fl A) else 1 + 1).val _
    split
    · exact ⟨1, Ratio.one h0 h1 _, (one_mul _).symm⟩
    · exact (fl_add_near hA (x := 1) (y := 1)).mono h0 h1 (by omega)
  · rw [if_neg hz, if_neg hz]
    set N : Fl A := FloatOps.sqrt (σ + v0 * v0) with hN
    set N₀ : ℝ := FloatOps.sqrt (σ₀ + v0.val * v0.val) with hN₀
    have hnn : 0 ≤ N₀ := Real.sqrt_nonneg _
    have hn : Near u (r + 3) N.val N₀ := by
      have e1 : Near u (r + 1) (σ.val + (v0 * v0).val) (σ₀ + v0.val * v0.val) :=
        hσ.add h0 h1 ((fl_mul_near hA).mono h0 h1 (by omega)) hσ0 (mul_self_nonneg _)
      exact Near.rnd hA ((Near.rnd hA e1).sqrt h0 h1)
    have hv : Near u (2 * r + 6) (if leB v0 0 = true then v0 - N else -σ / (v0 + N)).val
        (if leB v0.val 0 = true then v0.val - N₀ else -σ₀ / (v0.val + N₀)) := by
      rw [hle]
      show Near u _ (if leB v0.val 0 = true then v0 - N else -σ / (v0 + N)).val _
      by_cases hv0 : leB v0.val 0 = true
      · rw [if_pos hv0, if_pos hv0]
        have hv0' : v0.val ≤ 0 := by
          simp only [leB, FloatOps.ltB, FloatOps.eqB, Bool.or_eq_true, decide_eq_true_eq] at hv0
          rcases hv0 with h | h <;> linarith
        have e1 : Near u (r + 3) (-v0.val + N.val) (-v0.val + N₀) :=
          Near.add h0 h1 ⟨1, Ratio.one h0 h1 _, (one_mul _).symm⟩ hn (by linarith) hnn
        have e2 := e1.neg h0 h1
        rw [show -(-v0.val + N.val) = v0.val - N.val by ring, show -(-v0.val + N₀) = v0.val - N₀ by ring] at e2
        exact (Near.rnd hA e2).mono h0 h1 (by omega)
      · rw [if_neg hv0, if_neg hv0]
        have hv0' : 0 ≤ v0.val := by
          simp only [leB, FloatOps.ltB, FloatOps.eqB, Bool.or_eq_true, decide_eq_true_eq, not_or, not_lt] at hv0
          exact hv0.1
        have e1 : Near u (r + 3) (v0.val + N.val) (v0.val + N₀) :=
          Near.add h0 h1 ⟨1, Ratio.one h0 h1 _, (one_mul _).symm⟩ hn hv0' hnn
        have e2 := (hσ.neg h0 h1).div h0 h1 (Near.rnd hA e1)
        exact (Near.rnd hA e2).mono h0 h1 (by omega)
    refine ⟨N, _, _, N₀, _, _, rfl, rfl, hn, ?_, hv⟩
    have e1 : Near u 0 (1 : ℝ) 1 := Near.refl h0 h1 1
    have e2 := Near.rnd hA (hn.mul h0 h1 hv)
    exact ((Near.rnd hA (e1.div h0 h1 e2)).neg h0 h1).mono h0 h1 (by omega)

end

end Fiksi
