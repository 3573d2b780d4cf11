import Verif.Proofs.AffineLm
import Mathlib.Analysis.InnerProductSpace.PiL2
import Mathlib.Analysis.InnerProductSpace.Projection.Basic
/-!
# The Levenberg–Marquardt method for affine residuals that have no common zero
-/
namespace Fiksi.Spec
open Finset

namespace Fitting
variable {P Q : Fitting} {A : Nat → Nat → ℝ} {κ B F : ℝ}

/-- The costs of two problems differ by a constant, which is not negative, and their steps are the same. -/
structure Offset (P Q : Fitting) (F : ℝ) : Prop where
  n : P.n = Q.n
  nonneg : 0 ≤ F
  cost : ∀ x, x.length = Q.n → P.cost x = Q.cost x + F
  step : ∀ x lam δ, x.length = Q.n → P.IsStep x lam δ → Q.IsStep x lam δ

theorem Offset.search (o : Offset P Q F) (h : Q.Affine A κ B) {x δ : List ℝ} {lam μ : ℝ} (hl : 0 < lam) (hx : x.length = Q.n) (hs : P.Search x lam μ δ) :
    μ = lam ∧ Q.IsStep x lam δ := by
  cases hs with
  | found h1 _ => exact ⟨rfl, o.step _ _ _ hx h1⟩
  | @doubled _ δ' _ _ h1 h2 h3 _ =>
    exfalso
    have h1' := o.step _ _ _ hx h1
    rw [o.cost _ hx, o.cost _ (add_length hx h1'.1)] at h3
    obtain ⟨h4, -⟩ := h.isStep hx h1'
    have h5 : 0 ≤ ∑ r ∈ range Q.m, (∑ c ∈ range Q.n, A r c * δ'.getD c 0) ^ 2 := Finset.sum_nonneg fun r _ => sq_nonneg _
    have h6 := mul_pos hl (lt_of_lt_of_le (by norm_num) h2)
    linarith

/-- A step that hardly decreases the cost ends close to the least cost. -/
theorem Offset.stalled (o : Offset P Q F) (h : Q.Affine A κ B) (hκ : 0 < κ) {x δ : List ℝ} {lam : ℝ} (hl : 0 < lam) (hl' : lam ≤ 1 / 2) (hx : x.length = Q.n)
    (hs : Q.IsStep x lam δ) (hd : P.cost x - P.cost (add x δ) ≤ P.cost x / 10 ^ 6) : Q.cost (add x δ) ≤ P.cost (add x δ) / (3 * κ * 10 ^ 6) := by
  have h1 := h.factor hl hx hs
  have h2 := o.cost _ hx
  have h3 := o.cost _ (add_length hx hs.1)
  have h4 := cost_nonneg (P := P) (add x δ)
  have h5 := cost_nonneg (P := P) x
  rw [le_div_iff₀ (by positivity)]
  have h6 : 2 * κ * Q.cost (add x δ) ≤ lam * (P.cost x / 10 ^ 6) := by
    have : lam * (Q.cost x - Q.cost (add x δ)) ≤ lam * (P.cost x / 10 ^ 6) := mul_le_mul_of_nonneg_left (by linarith) hl.le
    linarith
  have h7 : lam * (P.cost x / 10 ^ 6) ≤ 1 / 2 * (P.cost x / 10 ^ 6) := mul_le_mul_of_nonneg_right hl' (by positivity)
  linarith

/-- How a run ends. -/
def Near (P Q : Fitting) (κ B : ℝ) (z : List ℝ) : Prop := Q.cost z < 1 / 10 ^ 8 ∨ Q.cost z ≤ tinyCost κ B ∨ Q.cost z ≤ P.cost z / (3 * κ * 10 ^ 6)

theorem Offset.near_solved (o : Offset P Q F) {z : List ℝ} (hz : z.length = Q.n) (h : P.cost z < 1 / 10 ^ 8) : Near P Q κ B z :=
  .inl (by have := o.cost z hz; have := o.nonneg; linarith)

theorem Offset.run_fast (o : Offset P Q F) (h : Q.Affine A κ B) (hκ : 1 / 10 ^ 6 ≤ κ) (hB : 0 ≤ B) : ∀ (K : Nat) (x z : List ℝ) (lam : ℝ), x.length = Q.n → 0 < lam → lam ≤ κ / 10 ^ 6 → lam ≤ 1 / 2 →
    P.Run K x lam z → z.length = Q.n ∧ (Near P Q κ B z ∨ Q.cost z * (10 ^ 6) ^ K ≤ Q.cost x) := by
  have hκ0 : 0 < κ := lt_of_lt_of_le (by norm_num) hκ
  intro K
  induction K with
  | zero =>
    intro x z lam hx hl _ _ hr
    cases hr
    exact ⟨hx, .inr (by simp)⟩
  | succ K ih =>
    intro x z lam hx hl hl1 hl2 hr
    cases hr with
    | solved h1 => exact ⟨hx, .inl (o.near_solved hx h1)⟩
    | tiny h1 h2 h3 =>
      obtain ⟨rfl, h4⟩ := o.search h hl hx h2
      exact ⟨hx, .inl (.inr (.inl (h.tiny hκ0 hB hl hl2 hx h4 h3)))⟩
    | stalled h1 h2 h3 h4 =>
      obtain ⟨rfl, h5⟩ := o.search h hl hx h2
      exact ⟨add_length hx h5.1, .inl (.inr (.inr (o.stalled h hκ0 hl hl2 hx h5 h4)))⟩
    | @step _ _ _ μ δ _ h1 h2 h3 h4 h5 =>
      obtain ⟨rfl, h6⟩ := o.search h hl hx h2
      have h7 := h.factor hl hx h6
      have hx' := add_length hx h6.1
      have h50 : (1 : ℝ) / 10 ^ 50 ≤ κ / 10 ^ 6 := by
        have : (1 : ℝ) / 10 ^ 50 ≤ (1 / 10 ^ 6) / 10 ^ 6 := by norm_num
        exact this.trans (by gcongr)
      obtain ⟨h8, h9⟩ := ih (add x δ) z _ hx' (lt_of_lt_of_le (by norm_num) (le_max_right _ _)) (max_le (by linarith) h50) (max_le (by linarith) (by norm_num)) h5
      refine ⟨h8, h9.imp_right fun h9 => ?_⟩
      have h10 : Q.cost (add x δ) * 10 ^ 6 ≤ Q.cost x := by
        have h11 : Q.cost (add x δ) * (2 * κ) ≤ Q.cost x * (κ / 10 ^ 6) := by
          have := cost_nonneg (P := Q) (add x δ)
          have := cost_nonneg (P := Q) x
          nlinarith
        have h12 : κ * (Q.cost (add x δ) * 10 ^ 6) ≤ κ * Q.cost x := by
          have := mul_nonneg hκ0.le (cost_nonneg (P := Q) x)
          linarith
        exact le_of_mul_le_mul_left h12 hκ0
      rw [pow_succ, ← mul_assoc]
      nlinarith

theorem Offset.run_slow (o : Offset P Q F) (h : Q.Affine A κ B) (hκ : 1 / 10 ^ 6 ≤ κ) (hB : 0 ≤ B) (K : Nat) : ∀ (j : Nat) (x z : List ℝ) (lam : ℝ), x.length = Q.n → 0 < lam →
    lam ≤ κ / 10 ^ 6 * 8 ^ j → lam ≤ 1 / 2 → P.Run (K + j) x lam z → z.length = Q.n ∧ (Near P Q κ B z ∨ Q.cost z * (10 ^ 6) ^ K ≤ Q.cost x) := by
  have hκ0 : 0 < κ := lt_of_lt_of_le (by norm_num) hκ
  intro j
  induction j with
  | zero =>
    intro x z lam hx hl h1 h2 hr
    exact o.run_fast h hκ hB K x z lam hx hl (by simpa using h1) h2 hr
  | succ j ih =>
    intro x z lam hx hl hl1 hl2 hr
    rw [← add_assoc] at hr
    cases hr with
    | solved h1 => exact ⟨hx, .inl (o.near_solved hx h1)⟩
    | tiny h1 h2 h3 =>
      obtain ⟨rfl, h4⟩ := o.search h hl hx h2
      exact ⟨hx, .inl (.inr (.inl (h.tiny hκ0 hB hl hl2 hx h4 h3)))⟩
    | stalled h1 h2 h3 h4 =>
      obtain ⟨rfl, h5⟩ := o.search h hl hx h2
      exact ⟨add_length hx h5.1, .inl (.inr (.inr (o.stalled h hκ0 hl hl2 hx h5 h4)))⟩
    | @step _ _ _ μ δ _ h1 h2 h3 h4 h5 =>
      obtain ⟨rfl, h6⟩ := o.search h hl hx h2
      have h7 := h.factor hl hx h6
      have hx' := add_length hx h6.1
      have h50 : (1 : ℝ) / 10 ^ 50 ≤ κ / 10 ^ 6 * 8 ^ j := by
        have h8 : (1 : ℝ) / 10 ^ 50 ≤ (1 / 10 ^ 6) / 10 ^ 6 := by norm_num
        have h9 : κ / 10 ^ 6 ≤ κ / 10 ^ 6 * 8 ^ j := le_mul_of_one_le_right (by positivity) (one_le_pow₀ (by norm_num))
        exact h8.trans (le_trans (by gcongr) h9)
      have h8 : μ / 8 ≤ κ / 10 ^ 6 * 8 ^ j := by
        rw [pow_succ (8 : ℝ) j] at hl1
        linarith
      obtain ⟨h10, h9⟩ := ih (add x δ) z _ hx' (lt_of_lt_of_le (by norm_num) (le_max_right _ _)) (max_le h8 h50) (max_le (by linarith) (by norm_num)) h5
      refine ⟨h10, h9.imp_right fun h9 => h9.trans ?_⟩
      have := cost_nonneg (P := Q) (add x δ)
      nlinarith

/-- The method ends close to the least cost, from any start that is not extremely far away. -/
theorem Offset.run (o : Offset P Q F) (h : Q.Affine A κ B) (hκ : 1 / 10 ^ 6 ≤ κ) (hB : 0 ≤ B) {x z : List ℝ} (hx : x.length = Q.n) (h0 : P.cost x ≤ 10 ^ 500) (hr : P.Run 100 x (1 / 2) z) :
    z.length = Q.n ∧ P.cost z ≤ F + max (1 / 10 ^ 8) (tinyCost κ B) + P.cost z / (3 * κ * 10 ^ 6) := by
  have hκ0 : 0 < κ := lt_of_lt_of_le (by norm_num) hκ
  obtain ⟨h1, h2⟩ := o.run_slow h hκ hB 86 14 x z (1 / 2) hx (by norm_num) (by
    have : (1 : ℝ) / 2 ≤ 1 / 10 ^ 6 / 10 ^ 6 * 8 ^ 14 := by norm_num
    exact this.trans (by gcongr)) le_rfl hr
  refine ⟨h1, ?_⟩
  have hc := o.cost z h1
  have hp : 0 ≤ P.cost z / (3 * κ * 10 ^ 6) := div_nonneg (cost_nonneg _) (by positivity)
  have hm1 : (1 : ℝ) / 10 ^ 8 ≤ max (1 / 10 ^ 8) (tinyCost κ B) := le_max_left _ _
  have hm2 : tinyCost κ B ≤ max (1 / 10 ^ 8) (tinyCost κ B) := le_max_right _ _
  have hm0 : (0 : ℝ) < 1 / 10 ^ 8 := by norm_num
  rcases h2 with (h2 | h2 | h2) | h2
  · linarith
  · linarith
  · linarith
  · have h3 : Q.cost z * (10 ^ 6) ^ 86 ≤ 10 ^ 500 := h2.trans (le_trans (by rw [o.cost _ hx]; linarith [o.nonneg]) h0)
    have h4 : ((10 : ℝ) ^ 6) ^ 86 = 10 ^ 500 * 10 ^ 16 := by rw [← pow_mul, ← pow_add]
    rw [h4, ← mul_assoc, mul_comm, ← mul_assoc] at h3
    have h5 : (0 : ℝ) < 10 ^ 500 := by positivity
    have h6 : 10 ^ 16 * Q.cost z ≤ 1 := by
      refine le_of_mul_le_mul_right ?_ h5
      rw [one_mul]
      exact h3
    have h8 : Q.cost z ≤ 1 / 10 ^ 8 := by
      clear h2 h3 h4 h5 h0
      rw [le_div_iff₀ (by norm_num)]
      have := cost_nonneg (P := Q) z
      norm_num at h6 ⊢
      linarith
    clear h0 h2 h3 h4 h5 h6
    linarith

/-- The normal equations have a solution. -/
theorem exists_normal (m n : Nat) (A : Nat → Nat → ℝ) (d : Nat → ℝ) : ∃ x : List ℝ, x.length = n ∧
    ∀ c < n, ∑ r ∈ range m, A r c * ((∑ c' ∈ range n, A r c' * x.getD c' 0) + d r) = 0 := by
  let T : (Fin n → ℝ) →ₗ[ℝ] EuclideanSpace ℝ (Fin m) :=
    { toFun := fun x => WithLp.toLp 2 fun r => ∑ c : Fin n, A r c * x c
      map_add' := fun x y => by
        ext r
        simp [mul_add, Finset.sum_add_distrib]
      map_smul' := fun k x => by
        ext r
        simp only [Pi.smul_apply, smul_eq_mul, RingHom.id_apply, PiLp.smul_apply, Finset.mul_sum]
        exact Finset.sum_congr rfl fun c _ => by ring }
  let b : EuclideanSpace ℝ (Fin m) := WithLp.toLp 2 fun r => d r
  obtain ⟨u, hu, w, hw, huw⟩ := (LinearMap.range T).exists_add_mem_mem_orthogonal b
  obtain ⟨x, rfl⟩ := hu
  have hlen : (List.ofFn fun c => - x c).length = n := List.length_ofFn
  refine ⟨List.ofFn fun c => - x c, hlen, fun c hc => ?_⟩
  have h1 : ∀ r : Fin m, (∑ c' ∈ range n, A r c' * (List.ofFn fun c => - x c).getD c' 0) + d r = w r := by
    intro r
    have h2 : d r = (∑ c : Fin n, A r c * x c) + w r := congrArg (fun v : EuclideanSpace ℝ (Fin m) => v r) huw
    rw [← Fin.sum_univ_eq_sum_range (fun c' => A r c' * (List.ofFn fun c => - x c).getD c' 0), h2, ← add_assoc, ← Finset.sum_add_distrib]
    rw [Finset.sum_eq_zero, zero_add]
    intro c _
    rw [List.getD_eq_getElem?_getD, List.getElem?_ofFn]
    simp
  rw [← Fin.sum_univ_eq_sum_range (fun r => A r c * ((∑ c' ∈ range n, A r c' * (List.ofFn fun c => - x c).getD c' 0) + d r))]
  simp only [h1]
  have h3 := (Submodule.mem_orthogonal _ _).1 hw (T (Pi.single ⟨c, hc⟩ 1)) ⟨_, rfl⟩
  rw [PiLp.inner_apply] at h3
  rw [← h3]
  refine Finset.sum_congr rfl fun r _ => ?_
  have h4 : T (Pi.single ⟨c, hc⟩ 1) r = A r c := by
    show ∑ c' : Fin n, A r c' * (Pi.single ⟨c, hc⟩ 1 : Fin n → ℝ) c' = _
    rw [Finset.sum_eq_single ⟨c, hc⟩]
    · simp
    · intro c' _ hne
      simp [hne]
    · simp
  simp [h4, mul_comm]

theorem add_at {x δ : List ℝ} {n c : Nat} (hx : x.length = n) (hδ : δ.length = n) (hc : c < n) : (add x δ).getD c 0 = x.getD c 0 + δ.getD c 0 := by
  have h1 : c < x.length := by omega
  have h2 : c < δ.length := by omega
  simp only [add, List.getD_eq_getElem?_getD, List.getElem?_zipWith, List.getElem?_eq_getElem h1, List.getElem?_eq_getElem h2, Option.getD_some]

theorem ext_at {x y : List ℝ} {n : Nat} (hx : x.length = n) (hy : y.length = n) (h : ∀ c < n, x.getD c 0 = y.getD c 0) : x = y := by
  refine List.ext_getElem (hx.trans hy.symm) fun i h1 h2 => ?_
  have := h i (by omega)
  simpa [List.getD_eq_getElem?_getD, h1, h2] using this

/-- A problem whose residuals are those of an affine problem that vanishes somewhere, up to constants, differs from some affine problem by its least cost. -/
theorem Affine.offset {P₀ : Fitting} (h : P₀.Affine A κ B) (hm : P.m = P₀.m) (hn : P.n = P₀.n) (hjac : P.jac = P₀.jac) {d : Nat → ℝ}
    (hlen : ∀ x, x.length = P₀.n → (P.res x).length = P₀.m)
    (hres : ∀ x, x.length = P₀.n → ∀ r < P₀.m, (P.res x).getD r 0 = (P₀.res x).getD r 0 + d r)
    (hz : ∀ r < P₀.m, (P₀.res (List.replicate P₀.n 0)).getD r 0 = 0) :
    ∃ (Q : Fitting) (F : ℝ), Offset P Q F ∧ Q.Affine A κ B ∧ Q.n = P.n ∧ ∀ x, x.length = P.n → F ≤ P.cost x := by
  obtain ⟨m, n, res, jac⟩ := P
  obtain ⟨m₀, n₀, res₀, jac₀⟩ := P₀
  simp only at hm hn hjac hlen hres hz
  subst hm hn hjac
  obtain ⟨best, hb, hnormal⟩ := exists_normal m n A d
  let nb : List ℝ := best.map (- ·)
  have hnb : nb.length = n := by simp [nb, hb]
  have hnbD : ∀ c < n, nb.getD c 0 = - best.getD c 0 := by
    intro c hc
    have h1 : c < best.length := by omega
    simp [nb, List.getD_eq_getElem?_getD, List.getElem?_map, List.getElem?_eq_getElem h1]
  -- the linear part
  have hlin : ∀ x, x.length = n → ∀ r < m, (res₀ x).getD r 0 = ∑ c ∈ range n, A r c * x.getD c 0 := by
    intro x hx r hr
    have h1 : add (List.replicate n 0) x = x := ext_at (add_length (by simp) hx) hx fun c hc => by
      rw [add_at (n := n) (by simp) hx hc, List.getD_eq_getElem?_getD, List.getElem?_replicate, if_pos hc]
      simp
    have h2 := h.step (List.replicate n 0) x (by simp) hx r hr
    rw [h1] at h2
    rw [h2]
    have := hz r hr
    simp only at this ⊢
    rw [this, zero_add]
  let q : Nat → ℝ := fun r => (∑ c ∈ range n, A r c * best.getD c 0) + d r
  have hq : ∀ x, x.length = n → ∀ r < m, (res x).getD r 0 = (res₀ (add x nb)).getD r 0 + q r := by
    intro x hx r hr
    rw [hres x hx r hr, hlin x hx r hr, hlin _ (add_length hx hnb) r hr]
    simp only [q]
    rw [← add_assoc, ← Finset.sum_add_distrib]
    congr 1
    refine Finset.sum_congr rfl fun c hc => ?_
    rw [add_at hx hnb (mem_range.1 hc), hnbD c (mem_range.1 hc)]
    ring
  have horth : ∀ c < n, ∑ r ∈ range m, A r c * q r = 0 := hnormal
  have hcost : ∀ x, x.length = n → Fitting.cost ⟨m, n, res, jac⟩ x = Fitting.cost ⟨m, n, fun x => res₀ (add x nb), jac⟩ x + ∑ r ∈ range m, q r ^ 2 := by
    intro x hx
    have hl2 : (res₀ (add x nb)).length = m := h.len _ (add_length hx hnb)
    simp only [Fitting.cost, squares_eq_sum, hlen x hx, hl2]
    have h1 : ∀ r ∈ range m, (res x).getD r 0 ^ 2 = (res₀ (add x nb)).getD r 0 ^ 2 + q r ^ 2 + 2 * ((res₀ (add x nb)).getD r 0 * q r) := by
      intro r hr
      rw [hq x hx r (mem_range.1 hr)]
      ring
    rw [Finset.sum_congr rfl h1, Finset.sum_add_distrib, Finset.sum_add_distrib, ← Finset.mul_sum]
    have h2 : ∑ r ∈ range m, (res₀ (add x nb)).getD r 0 * q r = 0 := by
      have h3 : ∀ r ∈ range m, (res₀ (add x nb)).getD r 0 * q r = ∑ c ∈ range n, (A r c * q r) * (add x nb).getD c 0 := by
        intro r hr
        rw [hlin _ (add_length hx hnb) r (mem_range.1 hr), Finset.sum_mul]
        exact Finset.sum_congr rfl fun c _ => by ring
      rw [Finset.sum_congr rfl h3, Finset.sum_comm]
      refine Finset.sum_eq_zero fun c hc => ?_
      rw [← Finset.sum_mul, horth c (mem_range.1 hc), zero_mul]
    rw [h2]
    ring
  refine ⟨⟨m, n, fun x => res₀ (add x nb), jac⟩, ∑ r ∈ range m, q r ^ 2, ⟨rfl, Finset.sum_nonneg fun _ _ => sq_nonneg _, hcost, fun x lam δ hx hs => ?_⟩,
    ⟨fun x hx => h.len _ (add_length hx hnb), h.jac, fun x δ hx hδ r hr => ?_, fun x hx => h.steep _ (add_length hx hnb), h.norm⟩, rfl, fun x hx => ?_⟩
  · obtain ⟨hδ, hs⟩ := hs
    refine ⟨hδ, fun c hc => ?_⟩
    have h0 := hs c hc
    simp only at hx hc h0 ⊢
    have h1 : ∀ r ∈ range m, jac x r c * ((∑ c' ∈ range n, jac x r c' * δ.getD c' 0) + (res x).getD r 0) =
        jac x r c * ((∑ c' ∈ range n, jac x r c' * δ.getD c' 0) + (res₀ (add x nb)).getD r 0) + A r c * q r := by
      intro r hr
      have hr := mem_range.1 hr
      rw [hq x hx r hr, show jac x r c = A r c from h.jac x hx r hr c hc]
      ring
    rw [Finset.sum_congr rfl h1, Finset.sum_add_distrib, horth c hc, add_zero] at h0
    exact h0
  · have hx : x.length = n := hx
    have hδ : δ.length = n := hδ
    have h1 : add (add x δ) nb = add (add x nb) δ := ext_at (add_length (add_length hx hδ) hnb) (add_length (add_length hx hnb) hδ) fun c hc => by
      rw [add_at (add_length hx hδ) hnb hc, add_at (add_length hx hnb) hδ hc, add_at hx hδ hc, add_at hx hnb hc]
      ring
    simp only
    rw [h1]
    exact h.step _ δ (add_length hx hnb) hδ r hr
  · rw [hcost x hx]
    linarith [cost_nonneg (P := ⟨m, n, fun x => res₀ (add x nb), jac⟩) x]

end Fitting
end Fiksi.Spec
