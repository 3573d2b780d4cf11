import Verif.Proofs.RoundedLm
import Verif.Props.AnyNumbers
import Verif.Proofs.WolfeLine
/-!
# Levenberg–Marquardt in rounded arithmetic (C52, C82)

A format without limits on the exponent: results are rounded, but nothing overflows or underflows.
-/
namespace Fiksi

open Spec

/-- The number of roundings in the bound for `m` residuals and `n` variables: that of C82 for the `m + n` rows of the damped matrix. -/
def Spec.stepRoundings (m n : Nat) : Nat := 24 * (m + n) * n + 61 * n

/-- A linear solver whose results are those of a damped least-squares problem near the given one, up to `δ = 2 K u` in each column and in the right-hand side;
it gives up only if a matrix that near has dependent columns. -/
def LeastSquares.NearlyExact {R : Arith} (S : Nat → Nat → Nat → Prop) (u : ℝ) (ls : LeastSquares (Fl R)) : Prop :=
  ∀ m n ts₀, Spec.Augmented m n ts₀ → S m n ts₀.length → stepRoundings m n * u ≤ 1 / 2 → ∃ sym, ls.build m n ts₀ = .ok sym ∧
    ∀ ts, Spec.Augmented m n ts → Spec.positions ts = Spec.positions ts₀ → ∃ J, AssembledFrom ts m J ∧ ∀ μ b, b.length = m →
      ∃ o, ls.solve sym m n ts μ (b ++ List.replicate n 0) = .ok o ∧
        (∀ x, o = some x → x.length = m + n ∧ ∃ (A' : Nat → Nat → ℝ) (b' : List ℝ),
          CloseColumns (2 * stepRoundings m n * u) A' (damped (fun i j => (J i j).val) m μ.val) (m + n) n ∧
          CloseVector (2 * stepRoundings m n * u) b' ((b ++ List.replicate n 0).map Fl.val) (m + n) ∧
          IndependentColumns A' (m + n) n ∧ OnlyMinimiser A' (m + n) n b' (x.map Fl.val)) ∧
        (o = none → ∃ A' : Nat → Nat → ℝ, CloseColumns (2 * stepRoundings m n * u) A' (damped (fun i j => (J i j).val) m μ.val) (m + n) n ∧
          ¬ IndependentColumns A' (m + n) n)

/-- C82 for the use Levenberg–Marquardt makes of the linear solver: each step is the exact minimiser of a damped problem near the one assembled from the
triplets. -/
theorem C82_damped_step {R : Arith} {u : ℝ} (hR : R.Accurate u) {sort : SortByKey} (hsort : Sorts sort) {order : SparseStructure → Fiksi.R (List Nat)}
    {S : Nat → Nat → Nat → Prop}
    (horder : ∀ a m n k, WellFormed a → a.nrows = m + n → a.ncols = n → a.rowIndices.length ≤ k → S m n k → OrdersColumns order a) :
    (qrLeastSquares sort order : LeastSquares (Fl R)).NearlyExact S u := by
  intro m n ts₀ h0 hS hu
  obtain ⟨a₀, k1, k2, k3, k4, k5⟩ := compressed_any hsort h0
  have hfull : FullRank a₀.structure' := by
    refine ⟨fun c => m + c, fun c hc => (k5 _ _).2 (h0.damping (by omega)), fun c c' _ _ he => by simpa using he⟩
  obtain ⟨s, pa, S, b1, o, sh⟩ := build_spec (horder _ m n _ k2.1 k3 k4 (entries_le k2.1 k5) hS) k2.1 hfull .colamd
  refine ⟨s, ?_, ?_⟩
  · show (do let a ← SparseColMat.fromTripletMat sort (tripletsOf m n ts₀); SymbolicQr.build order a.structure' .colamd) = _
    rw [k1, ok_bind, b1]
    rfl
  · intro ts h hpos
    obtain ⟨a, J, g1, hJ, hdamp⟩ := damped_any hsort h
    refine ⟨J, hJ, ?_⟩
    intro μ b hb
    obtain ⟨a', g2, g4, g6, g7, g8, U, g9, g10⟩ := hdamp μ
    have hst : a'.structure' = a₀.structure' := wellFormed_ext g4.1 k2.1 (by rw [g6, k3]) (by rw [g7, k4]) (fun i j => by rw [g8, k5, hpos])
    obtain ⟨q, f1, -, f2⟩ := factorize_solve_rounded hR g4 g9 (by rw [hst]; exact o) sh (q := s.numeric (Fl R)) (s := s)
      ⟨rfl, rfl, by simp [SymbolicQr.numeric], by simp [SymbolicQr.numeric], by simp [SymbolicQr.numeric, sh.hCols],
        by simp [SymbolicQr.numeric, sh.hRows]⟩ g6 g7
    obtain ⟨flag, x, f3, f4, f5, f6⟩ := f2 (b ++ List.replicate n 0) (by simp [hb])
    have hK : solveRoundings (m + n) n = stepRoundings m n := rfl
    rw [hK] at f5 f6
    have hg := gap_le hR.pos hR.lt_one hu
    have hsq := pow_le_pow_left₀ (gap_nonneg hR.pos hR.lt_one (stepRoundings m n)) hg 2
    have hUd : ∀ i c, c < n → (U i c).val = damped (fun i j => (J i j).val) m μ.val i c := by
      intro i c hc
      rw [g10 i c hc, damped, damped]
      split
      · rfl
      · split <;> rfl
    have hcols : ∀ A', CloseColumns (gap u (stepRoundings m n)) A' (fun i c => (U i c).val) (m + n) n →
        CloseColumns (2 * stepRoundings m n * u) A' (damped (fun i j => (J i j).val) m μ.val) (m + n) n := by
      intro A' hA c hc
      have := (hA c hc).trans (mul_le_mul_of_nonneg_right hsq (Finset.sum_nonneg (fun _ _ => sq_nonneg _)))
      simpa only [hUd _ c hc] using this
    refine ⟨if flag then some x else none, ?_, ?_, ?_⟩
    · show (do
        let a ← SparseColMat.fromTripletMat sort (tripletsOf m n ts)
        let a ← (List.range n).foldlM (setDamping μ) a
        let q ← (s.numeric (Fl R)).factorize a
        let (solved, b) ← q.solve (b ++ List.replicate n 0)
        pure (if solved then some b else none)) = _
      rw [g1, ok_bind, g2, ok_bind, f1, ok_bind, f3, ok_bind]
      rfl
    · intro x' hx'
      split at hx'
      · rename_i hf
        cases hx'
        obtain ⟨A', b', e1, -, e3, e4, e5⟩ := f5 hf
        exact ⟨by rw [f4]; simp [hb], A', b', hcols A' e1, e3.trans (mul_le_mul_of_nonneg_right hsq (Finset.sum_nonneg (fun _ _ => sq_nonneg _))), e4, e5⟩
      · cases hx'
    · intro ho
      split at ho
      · cases ho
      · rename_i hf
        obtain ⟨A', e1, e2⟩ := f6 (by simpa using hf)
        exact ⟨A', hcols A' e1, e2⟩

/-! ## Large damping ends the inner loop -/

section
variable {R : Arith} {u : ℝ} (hR : R.Accurate u)
include hR

theorem rnd_pos {x : ℝ} (hx : 0 < x) : 0 < R.rnd x :=
  (mul_pos (by linarith [hR.lt_one]) hx).trans_le (rnd_bounds hR hx.le).1

theorem ratio_pos {a b : Nat} (ha : 0 < a) (hb : 0 < b) : 0 < (ratio a b : Fl R).val :=
  rnd_pos hR (div_pos (rnd_pos hR (by exact_mod_cast ha)) (rnd_pos hR (by exact_mod_cast hb)))

theorem lmRelax_pos {lambda : Fl R} (h : 0 < lambda.val) : 0 < (lmRelax lambda).val := by
  rw [lmRelax]
  split
  · exact ratio_pos hR (by norm_num) (by norm_num)
  · exact rnd_pos hR (mul_pos h (ratio_pos hR (by norm_num) (by norm_num)))

theorem grow {lambda : Fl R} (h : 0 < lambda.val) {k : Nat} (hk : 2 ≤ k) : 3 / 2 * lambda.val ≤ (lambda * FloatOps.ofNat k).val := by
  have hu : u ≤ 1 / 10 ^ 6 := hR.small
  have hk' : (2 : ℝ) ≤ k := by exact_mod_cast hk
  have h1 : (1 - u) * (k : ℝ) ≤ R.rnd k := (rnd_bounds hR (by positivity)).1
  have h2 : 0 < R.rnd k := rnd_pos hR (by linarith)
  have h3 := (rnd_bounds hR (mul_pos h h2).le).1
  show 3 / 2 * lambda.val ≤ R.rnd (lambda.val * R.rnd k)
  refine le_trans ?_ h3
  have h4 : (1.9 : ℝ) ≤ R.rnd k := by
    refine le_trans ?_ h1
    have : (1 - 1 / 10 ^ 6) * (2 : ℝ) ≤ (1 - u) * k := mul_le_mul (by linarith) hk' (by norm_num) (by norm_num at hu ⊢; linarith)
    refine le_trans ?_ this
    norm_num
  have h5 : lambda.val * 1.9 ≤ lambda.val * R.rnd k := mul_le_mul_of_nonneg_left h4 h.le
  have h6 : (1 - 1 / 10 ^ 6 : ℝ) * (lambda.val * R.rnd k) ≤ (1 - u) * (lambda.val * R.rnd k) :=
    mul_le_mul_of_nonneg_right (by linarith) (mul_pos h h2).le
  refine le_trans ?_ h6
  have h7 : (1 - 1 / 10 ^ 6 : ℝ) * (lambda.val * 1.9) ≤ (1 - 1 / 10 ^ 6) * (lambda.val * R.rnd k) := mul_le_mul_of_nonneg_left h5 (by norm_num)
  refine le_trans ?_ h7
  have : (3 / 2 : ℝ) ≤ (1 - 1 / 10 ^ 6) * 1.9 := by norm_num
  nlinarith

/-- The rounded sum of squares. -/
theorem normSquared_le (v : List (Fl R)) : (normSquared v).val ≤ (1 + u) ^ (v.length + 1) * (v.map (fun x => x.val * x.val)).sum := by
  have h := (foldl_rounded_squares hR v 0 le_rfl).2
  rw [show (0 : Fl R).val = 0 from rfl, mul_zero, zero_add] at h
  rw [normSquared, List.foldl_map]
  exact h

/-- With a large damping the linear solver returns a step that is below the limit. -/
theorem large_damping {m n : Nat} (J : Nat → Nat → ℝ) (b : List (Fl R)) (hb : b.length = m) {δ : ℝ} (hδ : 0 ≤ δ) (hδ1 : δ ≤ 1) (hδn : δ ^ 2 * n ≤ 1 / 8) {ε : ℝ} (hε : 0 < ε) :
    ∃ L, 0 < L ∧ ∀ (μ : ℝ), L ≤ μ → ∀ A' : Nat → Nat → ℝ, CloseColumns δ A' (damped J m μ) (m + n) n → IndependentColumns A' (m + n) n ∧
      ∀ (b' : List ℝ) (x : List (Fl R)), CloseVector δ b' ((b ++ List.replicate n 0).map Fl.val) (m + n) → OnlyMinimiser A' (m + n) n b' (x.map Fl.val) →
        x.length = m + n → (normSquared (x.take n)).val < ε := by
  set D := ∑ c ∈ Finset.range n, ∑ i ∈ Finset.range m, J i c ^ 2 with hD
  have hD0 : 0 ≤ D := Finset.sum_nonneg (fun _ _ => Finset.sum_nonneg (fun _ _ => sq_nonneg _))
  set B := nrm (m + n) (fun i => ((b ++ List.replicate n 0).map Fl.val).getD i 0) with hB
  have hB0 : 0 ≤ B := nrm_nonneg _
  set w := (1 + u) ^ (n + 1) with hw
  have hw0 : 0 < w := pow_pos (by linarith [hR.pos]) _
  refine ⟨1 + 8 * D + w * (8 * B) ^ 2 / ε, by positivity, ?_⟩
  intro μ hL A' hA
  have hq : 0 ≤ w * (8 * B) ^ 2 / ε := by positivity
  have hμ1 : 1 ≤ μ := by linarith
  have hμ2 : μ ≤ μ ^ 2 := by nlinarith
  have hsmall : δ ^ 2 * (D + n * μ ^ 2) ≤ (μ / 2) ^ 2 := by
    have h1 : δ ^ 2 * D ≤ D := by
      have : δ ^ 2 ≤ 1 := pow_le_one₀ hδ hδ1
      nlinarith
    have h2 : δ ^ 2 * n * μ ^ 2 ≤ 1 / 8 * μ ^ 2 := mul_le_mul_of_nonneg_right hδn (sq_nonneg _)
    nlinarith
  have hlow := damped_lower hδ (by linarith) hA hsmall
  refine ⟨?_, ?_⟩
  · intro z hz c hc
    have h1 := hlow z
    have h2 : nrm (m + n) (fun i => ∑ c ∈ Finset.range n, A' i c * z c) = 0 := by
      rw [nrm, Finset.sum_eq_zero, Real.sqrt_zero]
      intro i hi
      rw [hz i (Finset.mem_range.1 hi), mul_zero]
    rw [h2] at h1
    have h3 : nrm n z ≤ 0 := by
      by_contra hcon
      have := mul_pos (show 0 < μ / 2 by linarith) (not_le.1 hcon)
      linarith
    have h4 := nrm_entry (m := n) (x := z) hc
    exact abs_nonpos_iff.1 (h4.trans h3)
  · intro b' x hb' hx hlen
    have h1 := hlow (fun c => (x.map Fl.val).getD c 0)
    have h2 := minimiser_image hx
    have h3 : nrm (m + n) (fun i => b'.getD i 0) ≤ 2 * B := by
      have e : (fun i => b'.getD i 0 - ((b ++ List.replicate n 0).map Fl.val).getD i 0 + ((b ++ List.replicate n 0).map Fl.val).getD i 0) = fun i => b'.getD i 0 :=
        funext (fun i => by ring)
      have h4 := nrm_add (m := m + n) (fun i => b'.getD i 0 - ((b ++ List.replicate n 0).map Fl.val).getD i 0) (fun i => ((b ++ List.replicate n 0).map Fl.val).getD i 0)
      rw [e] at h4
      have h5 : nrm (m + n) (fun i => b'.getD i 0 - ((b ++ List.replicate n 0).map Fl.val).getD i 0) ≤ B := by
        apply Real.sqrt_le_sqrt
        refine le_trans (le_of_eq ?_) (hb'.trans ((mul_le_of_le_one_left (Finset.sum_nonneg (fun _ _ => sq_nonneg _)) (pow_le_one₀ hδ hδ1)).trans (le_of_eq ?_)))
        · exact Finset.sum_congr rfl (fun i _ => by ring)
        · exact Finset.sum_congr rfl (fun i _ => by ring)
      linarith
    have h6 : μ * nrm n (fun c => (x.map Fl.val).getD c 0) ≤ 8 * B := by linarith
    have h7 := normSquared_le hR (x.take n)
    have hl : (x.take n).length = n := by rw [List.length_take]; omega
    have h8 : ((x.take n).map (fun x => x.val * x.val)).sum = nrm n (fun c => (x.map Fl.val).getD c 0) * nrm n (fun c => (x.map Fl.val).getD c 0) := by
      have e : (x.take n).map (fun x => x.val * x.val) = ((x.take n).map Fl.val).map (fun v => v * v) := by rw [List.map_map]; rfl
      rw [e, sum_map_getD, List.length_map, hl, nrm_mul_self]
      refine Finset.sum_congr rfl (fun i hi => ?_)
      have hi := Finset.mem_range.1 hi
      rw [List.map_take, List.getD_eq_getElem?_getD, List.getElem?_take_of_lt hi, ← List.getD_eq_getElem?_getD]
    rw [hl, h8] at h7
    refine lt_of_le_of_lt h7 ?_
    set N := nrm n (fun c => (x.map Fl.val).getD c 0) with hN
    have hN0 : 0 ≤ N := nrm_nonneg _
    have h9 : μ ^ 2 * (N * N) ≤ (8 * B) ^ 2 := by
      have := mul_le_mul h6 h6 (mul_nonneg (by linarith) hN0) (by linarith)
      nlinarith
    have h10 : w * (8 * B) ^ 2 < ε * μ ^ 2 := by
      have : w * (8 * B) ^ 2 / ε < μ ^ 2 := by linarith
      rw [div_lt_iff₀ hε] at this
      linarith
    have h11 : 0 < μ ^ 2 := by nlinarith
    have h12 : w * (N * N) * μ ^ 2 < ε * μ ^ 2 := by
      have := mul_le_mul_of_nonneg_left h9 hw0.le
      nlinarith
    exact lt_of_mul_lt_mul_right h12 h11.le

end

/-! ## The loops -/

theorem Keeps.settles_ok {α : Type} {f : Nat → R α} (hf : Keeps f) {n : Nat} {a : α} (h : f n = .ok a) : Settles f (.ok a) := by
  obtain ⟨r, hr⟩ := hf.settles
  rw [← hr.ok_of hf h]
  exact hr

section
variable {R : Arith} {u : ℝ} (hR : R.Accurate u) {p : Problem (Fl R)} {pattern : List (Nat × Nat)} (hp : p.Total pattern)
include hR hp

/-- The inner loop returns: each round either ends it or increases the damping. -/
theorem lmInner_rounded (hn : (2 * stepRoundings p.numResiduals p.numVariables * u) ^ 2 * p.numVariables ≤ 1 / 8)
    (hK : stepRoundings p.numResiduals p.numVariables * u ≤ 1 / 2) {ls : LeastSquares (Fl R)} {sym : ls.Symbolic}
    (hsym : ∀ ts, Spec.Augmented p.numResiduals p.numVariables ts →
      Spec.positions ts = pattern ++ (List.range p.numVariables).map (fun i => (p.numResiduals + i, i)) → ∃ J, AssembledFrom ts p.numResiduals J ∧ ∀ μ b, b.length = p.numResiduals →
      ∃ o, ls.solve sym p.numResiduals p.numVariables ts μ (b ++ List.replicate p.numVariables 0) = .ok o ∧
        (∀ x, o = some x → x.length = p.numResiduals + p.numVariables ∧ ∃ (A' : Nat → Nat → ℝ) (b' : List ℝ),
          CloseColumns (2 * stepRoundings p.numResiduals p.numVariables * u) A' (damped (fun i j => (J i j).val) p.numResiduals μ.val) (p.numResiduals + p.numVariables) p.numVariables ∧
          CloseVector (2 * stepRoundings p.numResiduals p.numVariables * u) b' ((b ++ List.replicate p.numVariables 0).map Fl.val) (p.numResiduals + p.numVariables) ∧
          IndependentColumns A' (p.numResiduals + p.numVariables) p.numVariables ∧
          OnlyMinimiser A' (p.numResiduals + p.numVariables) p.numVariables b' (x.map Fl.val)) ∧
        (o = none → ∃ A' : Nat → Nat → ℝ,
          CloseColumns (2 * stepRoundings p.numResiduals p.numVariables * u) A' (damped (fun i j => (J i j).val) p.numResiduals μ.val) (p.numResiduals + p.numVariables) p.numVariables ∧
          ¬ IndependentColumns A' (p.numResiduals + p.numVariables) p.numVariables))
    (st : LmState (Fl R)) (hst : st.Sized p pattern) (hlam : 0 < st.lambda.val) :
    Returns (fun r => r.2.vars.length = p.numVariables ∧ (r.1 = false → r.2.Sized p pattern ∧ 0 < r.2.lambda.val)) (fun fuel => lmInner p ls sym fuel st) := by
  have hu0 := hR.pos
  have hK0 : (0 : ℝ) ≤ stepRoundings p.numResiduals p.numVariables * u := mul_nonneg (Nat.cast_nonneg _) hu0
  obtain ⟨J, -, hJ⟩ := hsym st.triplets hst.augmented hst.positions
  obtain ⟨L, hL0, hL⟩ := large_damping hR (m := p.numResiduals) (n := p.numVariables) (fun i j => (J i j).val) st.residuals hst.residuals
    (δ := 2 * stepRoundings p.numResiduals p.numVariables * u) (by linarith) (by linarith) hn (ratio_pos hR (a := 1) (b := 10 ^ 12) (by norm_num) (by norm_num))
  have hmu : ∀ lambda : Fl R, 4 * L ^ 2 ≤ lambda.val → L ≤ (FloatOps.sqrt lambda).val := by
    intro lambda h
    have h1 : 2 * L ≤ √lambda.val := by
      apply Real.le_sqrt_of_sq_le
      linarith
    have h2 : (1 - u) * √lambda.val ≤ R.rnd √lambda.val := (rnd_bounds hR (Real.sqrt_nonneg _)).1
    have h3 : u ≤ 1 / 2 := hR.small.trans (by norm_num)
    show L ≤ R.rnd √lambda.val
    nlinarith
  have key : ∀ (k : Nat) (st' : LmState (Fl R)), st'.Sized p pattern → st'.triplets = st.triplets → st'.residuals = st.residuals → 0 < st'.lambda.val →
      4 * L ^ 2 ≤ st'.lambda.val * (3 / 2) ^ k → ∃ r, lmInner p ls sym (k + 1) st' = .ok r ∧
        (r.2.vars.length = p.numVariables ∧ (r.1 = false → r.2.Sized p pattern ∧ 0 < r.2.lambda.val)) := by
    intro k
    induction k with
    | zero =>
      intro st' hs ht hr h0 hk
      rw [pow_zero, mul_one] at hk
      obtain ⟨o, o1, o2, o3⟩ := hJ (FloatOps.sqrt st'.lambda) st.residuals hst.residuals
      rw [lmInner, ht, hr, o1, ok_bind]
      cases o with
      | none =>
        obtain ⟨A', e1, e2⟩ := o3 rfl
        exact absurd (hL _ (hmu _ hk) A' e1).1 e2
      | some x =>
        obtain ⟨e0, A', b', e1, e2, e3, e4⟩ := o2 x rfl
        have := (hL _ (hmu _ hk) A' e1).2 b' x e2 e4 e0
        simp only
        rw [if_pos (by show decide _ = true; exact decide_eq_true this)]
        exact ⟨_, rfl, hs.vars, by simp⟩
    | succ k ih =>
      intro st' hs ht hr h0 hk
      obtain ⟨o, o1, o2, o3⟩ := hJ (FloatOps.sqrt st'.lambda) st.residuals hst.residuals
      rw [lmInner, ht, hr, o1, ok_bind]
      have hpow : (0 : ℝ) < (3 / 2) ^ k := by positivity
      have hnext : ∀ j : Nat, 2 ≤ j → 0 < (st'.lambda * FloatOps.ofNat j).val ∧ 4 * L ^ 2 ≤ (st'.lambda * FloatOps.ofNat j).val * (3 / 2) ^ k := by
        intro j hj
        have h1 := grow hR h0 hj
        refine ⟨by linarith, hk.trans ?_⟩
        rw [pow_succ]
        have := mul_le_mul_of_nonneg_right h1 hpow.le
        linarith
      cases o with
      | none =>
        obtain ⟨n1, n2⟩ := hnext 8 (by norm_num)
        have := ih { st' with lambda := st'.lambda * FloatOps.ofNat 8 } ⟨hs.vars, hs.scratch, hs.residuals, hs.augmented, hs.positions⟩ ht hr n1 n2
        simpa only [ht, hr] using this
      | some x =>
        obtain ⟨e0, -⟩ := o2 x rfl
        simp only
        split
        · exact ⟨_, rfl, hs.vars, by simp⟩
        · obtain ⟨scratch, h6, h7⟩ := lmTrial_ok hs.vars (delta := x.take p.numVariables)
            (by rw [List.length_take]; omega) st'.scratch hs.scratch
          obtain ⟨r, h8, h9⟩ := hp.residuals scratch h7
          rw [h6, ok_bind, h8, ok_bind]
          split
          · rw [lmAccept]
            simp only
            split
            · exact ⟨_, rfl, h7, by simp⟩
            · obtain ⟨rt, q1, q2, -, q5, q6⟩ := lmJacobian_any hp h7 hs.residuals
              rw [q1, ok_bind]
              exact ⟨_, rfl, h7, fun _ => ⟨⟨h7, h7, q2, q5, q6⟩, lmRelax_pos hR h0⟩⟩
          · obtain ⟨n1, n2⟩ := hnext 2 le_rfl
            have := ih { st' with scratch := scratch, lambda := st'.lambda * FloatOps.ofNat 2 }
              ⟨hs.vars, h7, hs.residuals, hs.augmented, hs.positions⟩ ht hr n1 n2
            simpa only [ht, hr] using this
  obtain ⟨k, hk⟩ := pow_unbounded_of_one_lt (4 * L ^ 2 / st.lambda.val) (by norm_num : (1 : ℝ) < 3 / 2)
  rw [div_lt_iff₀ hlam] at hk
  obtain ⟨r, h1, h2⟩ := key k st hst rfl rfl hlam (by linarith)
  exact ⟨r, h2, (lmInner_keeps p ls sym st).settles_ok h1⟩

/-- C52 in rounded arithmetic: Levenberg–Marquardt returns on every problem, with any start, if the number of roundings in a linear solve is small compared
with the precision. Nothing is assumed of the residuals and derivatives, which may be rounded in any way. -/
theorem C52_rounded_lm_returns_partial {S : Nat → Nat → Nat → Prop} {ls : LeastSquares (Fl R)} (hls : ls.NearlyExact S u)
    (hS : S p.numResiduals p.numVariables (pattern.length + p.numVariables))
    (hn : (2 * stepRoundings p.numResiduals p.numVariables * u) ^ 2 * p.numVariables ≤ 1 / 8)
    (hK : stepRoundings p.numResiduals p.numVariables * u ≤ 1 / 2) {x : List (Fl R)} (hx : x.length = p.numVariables) :
    Returns (fun x' => x'.length = p.numVariables) (fun fuel => levenbergMarquardt p ls fuel x) := by
  obtain ⟨rt, q1, q2, -, q5, q6⟩ := lmJacobian_any hp hx (rs := List.replicate p.numResiduals 0) (by simp)
  obtain ⟨sym, h1, h2⟩ := hls p.numResiduals p.numVariables rt.2 q5 (lmJacobian_size q6 ▸ hS) hK
  have houter : ∀ (k : Nat) (st : LmState (Fl R)), st.Sized p pattern → 0 < st.lambda.val →
      Returns (fun st' => st'.vars.length = p.numVariables) (fun fuel => lmOuter p ls sym fuel k st) := by
    intro k
    induction k with
    | zero => intro st h _; exact Returns.of h.vars
    | succ k ih =>
      intro st hst hlam
      simp only [lmOuter]
      split
      · exact Returns.of hst.vars
      · refine (lmInner_rounded hR hp hn hK (sym := sym) (fun ts a1 a2 => h2 ts a1 (a2.trans q6.symm)) st hst hlam).bind ?_
        rintro ⟨stop, st'⟩ ⟨e1, e2⟩
        cases stop with
        | true => exact Returns.of e1
        | false => exact ih st' (e2 rfl).1 (e2 rfl).2
  simp only [levenbergMarquardt, lmRun, lmStart, q1, ok_bind, h1, pure_eq_ok]
  refine (houter 100 _ ⟨hx, hx, q2, q5, q6⟩ ?_).bind (fun st' h => Returns.of h)
  exact ratio_pos hR (by norm_num) (by norm_num)

end

/-! ## `solve` -/

/-- The linear solver of the crate, with the column ordering of `colamd_rs`. -/
theorem qrColamd_nearlyExact {R : Arith} {u : ℝ} (hR : R.Accurate u) (cast : Fl R → Int) {sort : SortByKey} (hsort : Sorts sort) :
    (qrLeastSquares sort (colamdOfStructure cast) : LeastSquares (Fl R)).NearlyExact FitsWorkspace u :=
  C82_damped_step hR hsort (fun a m n k ha h1 h2 h3 hS => colamdOfStructure_orders cast ha (by
    rw [h1, h2]
    unfold FitsWorkspace workspace at *
    omega))

/-- The two conditions on the precision, for matrices of bounded size. -/
theorem precise_enough {u : ℝ} (h0 : 0 ≤ u) (hu : u ≤ 1 / 2 ^ 53) {m n : Nat} (hm : m ≤ 2 ^ 17) (hn : n ≤ 2 ^ 17) :
    (2 * stepRoundings m n * u) ^ 2 * n ≤ 1 / 8 ∧ stepRoundings m n * u ≤ 1 / 2 := by
  have hK : stepRoundings m n ≤ 2 ^ 40 := by
    unfold stepRoundings
    have : (m + n) * n ≤ 2 ^ 18 * 2 ^ 17 := Nat.mul_le_mul (by omega) hn
    rw [Nat.mul_assoc]
    omega
  have hK' : (stepRoundings m n : ℝ) ≤ 2 ^ 40 := by exact_mod_cast hK
  have hn' : (n : ℝ) ≤ 2 ^ 17 := by exact_mod_cast hn
  have h1 : (stepRoundings m n : ℝ) * u ≤ 2 ^ 40 * (1 / 2 ^ 53) := mul_le_mul hK' hu h0 (by positivity)
  have h2 : (0 : ℝ) ≤ stepRoundings m n * u := mul_nonneg (Nat.cast_nonneg _) h0
  refine ⟨?_, h1.trans (by norm_num)⟩
  have h3 : (2 * (stepRoundings m n : ℝ) * u) ^ 2 ≤ (2 ^ 41 * (1 / 2 ^ 53)) ^ 2 := pow_le_pow_left₀ (by linarith) (by linarith) 2
  calc _ ≤ (2 ^ 41 * (1 / 2 ^ 53)) ^ 2 * (2 : ℝ) ^ 17 := mul_le_mul h3 hn' (Nat.cast_nonneg _) (by positivity)
    _ ≤ _ := by norm_num

/-- C52 in rounded arithmetic: `solve` with Levenberg–Marquardt returns, with the decomposers `None` and `SinglePass`, after any legal history of fewer
than 2^16 calls, if results are rounded with a relative error of at most `2⁻⁵³` and nothing overflows or underflows: there is a result that the model gives
for all loop bounds from some on. (Full statement: also where the size of the system is not a number; false, `C52_nan_never_returns`. Here division by zero
gives zero, as in `C52_solve_returns_partial`.) -/
theorem C52_rounded_solve_returns_partial {R : Arith} {u : ℝ} (hR : R.Accurate u) (hu : u ≤ 1 / 2 ^ 53) (cast : Fl R → Int) {sort : SortByKey} (hsort : Sorts sort)
    {counter : Nat} {ops : List (Op (Fl R))} {c : Client (Fl R)} (h : Reaches counter ops c) (hshort : ops.length < 2 ^ 16) {ord : HashOrder} (hord : ord.Ok)
    {opts : SolvingOptions} (hd : opts.decomposer ≠ .recursiveAssembly) (ho : opts.optimizer = .levenbergMarquardt) :
    ∃ s' k, ∀ fuel, k ≤ fuel → c.sys.solve (crateOptimize (qrLeastSquares sort (colamdOfStructure cast)) fuel) ord opts = .ok s' := by
  have hkeeps := fun (p : Problem (Fl R)) x => levenbergMarquardt_keeps p (qrLeastSquares sort (colamdOfStructure cast)) x
  choose lim hlim using fun p x => (hkeeps p x).settles
  obtain ⟨z1, z2⟩ := run_size (Store.empty (Fl R)) ops h.legal
  have z3 := h.crel.rel.vars_length_le
  have z4 : (Store.empty (Fl R)).elems.length = 0 := rfl
  have z5 : (Store.empty (Fl R)).cons.length = 0 := rfl
  have z6 := h.expressions_le
  have hsafe : Optimize.Safe False c.sys.expressions.length c.sys.vars.length (fun (o : Optimizer) p x => match o with | .levenbergMarquardt => lim p x | .lBfgs => .ok x) := by
    intro o sub x hok hw hx
    cases o with
    | levenbergMarquardt =>
      have hw1 : sub.problem.numResiduals ≤ c.sys.expressions.length := hw.1
      have hw2 : sub.problem.numVariables ≤ c.sys.vars.length := hw.2
      obtain ⟨p1, p2⟩ := precise_enough hR.pos hu (m := sub.problem.numResiduals) (n := sub.problem.numVariables) (by omega) (by omega)
      obtain ⟨x', h2, k, hk⟩ := C52_rounded_lm_returns_partial hR hok.total (qrColamd_nearlyExact hR cast hsort)
        (h.fits (by omega) _ _ _ hw.1 hw.2 sub.size_le) p1 p2 hx
      exact .inl ⟨x', (hlim _ _).ok_of (hkeeps _ _) (hk k le_rfl), h2⟩
    | lBfgs => exact .inl ⟨x, rfl, hx⟩
  obtain ⟨s', h1⟩ := C53_solve_no_panic_partial h hsafe hord hd
  obtain ⟨k, hk⟩ := solve_settles (fam := crateOptimize (qrLeastSquares sort (colamdOfStructure cast))) (opts := opts)
    (lim := fun o p x => match o with | .levenbergMarquardt => lim p x | .lBfgs => .ok x)
    (by rw [ho]; exact hlim) (fun hr => absurd hr hd) ord c.sys
  exact ⟨s', k, fun fuel hf => by rw [← h1]; exact hk fuel hf⟩

/-- C52 in rounded arithmetic, for recursive assembly, once its plans exist. (Full statement: for all histories; false, see `C53_recursive_panics`,
`C49_missing_argument`.) -/
theorem C52_rounded_recursive_returns_partial {R : Arith} {u : ℝ} (hR : R.Accurate u) (hu : u ≤ 1 / 2 ^ 53) (cast : Fl R → Int) {sort : SortByKey} (hsort : Sorts sort)
    {counter : Nat} {ops : List (Op (Fl R))} {c : Client (Fl R)} (h : Reaches counter ops c) (hshort : ops.length < 2 ^ 14)
    (hn : NeverJoins ((Store.empty (Fl R)).run ops).arguments)
    {ord : HashOrder} (hord : ord.Ok) {L : Nat} (hL : L < 2 ^ 14) (hplan : c.sys.Planned ord L) {opts : SolvingOptions}
    (hd : opts.decomposer = .recursiveAssembly) :
    ∃ s' k, ∀ fuel, k ≤ fuel → c.sys.solve (crateOptimize (qrLeastSquares sort (colamdOfStructure cast)) fuel) ord opts = .ok s' := by
  have hkeeps := fun (p : Problem (Fl R)) x => levenbergMarquardt_keeps p (qrLeastSquares sort (colamdOfStructure cast)) x
  choose lim hlim using fun p x => (hkeeps p x).settles
  let limit : Optimize (Fl R) := fun o p x => match o with | .levenbergMarquardt => lim p x | .lBfgs => .ok x
  obtain ⟨z1, z2⟩ := run_size (Store.empty (Fl R)) ops h.legal
  have z3 := h.crel.rel.elements_length
  have z4 : (Store.empty (Fl R)).elems.length = 0 := rfl
  have z5 : (Store.empty (Fl R)).cons.length = 0 := rfl
  have z6 := h.expressions_le
  have hsafe : limit.SafeSteps False (c.sys.expressions.length + 2 * L) (3 * L + 2 * c.sys.elements.length) := by
    intro p pattern x hp hm hnv hpat hx
    obtain ⟨p1, p2⟩ := precise_enough hR.pos hu (m := p.numResiduals) (n := p.numVariables) (by omega) (by omega)
    obtain ⟨x', h2, k, hk⟩ := C52_rounded_lm_returns_partial hR hp (qrColamd_nearlyExact hR cast hsort)
      (h.fits_steps (by omega) (L := L) (by omega) p.numResiduals p.numVariables (pattern.length + p.numVariables) hm hnv (by omega)) p1 p2 hx
    exact .inl ⟨x', (hlim _ _).ok_of (hkeeps _ _) (hk k le_rfl), h2⟩
  obtain ⟨s', h1⟩ : ∃ s', c.sys.solve limit ord { opts with optimizer := .levenbergMarquardt } = .ok s' := by
    rcases h.solve_ends_recursive hn hord hplan hsafe (opts := { opts with optimizer := .levenbergMarquardt }) hd with ⟨s', h1, -⟩ | ⟨h1, -⟩
    · exact ⟨s', h1⟩
    · cases h1
  obtain ⟨k, hk⟩ := solve_settles (fam := crateOptimize (qrLeastSquares sort (colamdOfStructure cast))) (opts := { opts with optimizer := .levenbergMarquardt })
    (lim := limit) hlim (fun _ => hlim) ord c.sys
  refine ⟨s', k, fun fuel hf => ?_⟩
  rw [← h1, ← hk fuel hf]
  have hopt : ∀ st ck, solveComponent (crateOptimize (qrLeastSquares sort (colamdOfStructure cast)) fuel) ord opts c.sys c.sys.scale c.sys.scaledExpressions st ck =
      solveComponent (crateOptimize (qrLeastSquares sort (colamdOfStructure cast)) fuel) ord { opts with optimizer := .levenbergMarquardt } c.sys c.sys.scale
        c.sys.scaledExpressions st ck := by
    intro st ck
    simp only [solveComponent, hd]
    rfl
  have hfun : solveComponent (crateOptimize (qrLeastSquares sort (colamdOfStructure cast)) fuel) ord opts c.sys c.sys.scale c.sys.scaledExpressions =
      solveComponent (crateOptimize (qrLeastSquares sort (colamdOfStructure cast)) fuel) ord { opts with optimizer := .levenbergMarquardt } c.sys c.sys.scale
        c.sys.scaledExpressions := funext fun st => funext fun ck => hopt st ck
  simp only [System.solve, System.solveLoop, hfun]

/-- Case: binary64, and a figure that cannot be satisfied: two points at two distances. -/
example (cast : Fl binary64 → Int) {ord : HashOrder} (hord : ord.Ok) : ∃ (c : Client (Fl binary64)), Reaches 0 [.createPoint 0 0, .createPoint 1 0, .createCon (.pointPointDistance 0 1 1),
      .createCon (.pointPointDistance 0 1 (1 + 1))] c ∧
    ∃ s' k, ∀ fuel, k ≤ fuel → c.sys.solve (crateOptimize (qrLeastSquares exampleSort (colamdOfStructure cast)) fuel) ord SolvingOptions.default = .ok s' := by
  obtain ⟨c, hc⟩ : ∃ (c : Client (Fl binary64)), Reaches 0 [.createPoint 0 0, .createPoint 1 0, .createCon (.pointPointDistance 0 1 1),
      .createCon (.pointPointDistance 0 1 (1 + 1))] c := by
    apply exists_reaches
    · simp [Store.LegalRun, Store.Legal, Store.empty, Store.step, Store.IsPoint, Store.ConOk]
    · simp
  exact ⟨c, hc, C52_rounded_solve_returns_partial binary64_accurate le_rfl cast exampleSort_sorts hc (by norm_num) hord (by simp [SolvingOptions.default]) rfl⟩

end Fiksi
