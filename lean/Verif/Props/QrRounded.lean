import Verif.Proofs.RoundedSolve
import Verif.Proofs.Binary64
import Verif.Props.Qr
/-!
# Least squares in rounded arithmetic (C82)
-/
namespace Fiksi

open Spec

/-- Every column of `A'` differs from that of `A` by at most the fraction `δ` of its length. -/
def Spec.CloseColumns (δ : ℝ) (A' A : Nat → Nat → ℝ) (m n : Nat) : Prop :=
  ∀ c, c < n → ∑ i ∈ Finset.range m, (A' i c - A i c) ^ 2 ≤ δ ^ 2 * ∑ i ∈ Finset.range m, A i c ^ 2

/-- `b'` differs from `b` by at most the fraction `δ` of its length. -/
def Spec.CloseVector (δ : ℝ) (b' b : List ℝ) (m : Nat) : Prop :=
  ∑ i ∈ Finset.range m, (b'.getD i 0 - b.getD i 0) ^ 2 ≤ δ ^ 2 * ∑ i ∈ Finset.range m, b.getD i 0 ^ 2

/-- `x` is the only minimiser of `|A x - b|`. -/
def Spec.OnlyMinimiser (A : Nat → Nat → ℝ) (m n : Nat) (b x : List ℝ) : Prop :=
  ∀ z : List ℝ, residualSquared A m n b x ≤ residualSquared A m n b z ∧
    (residualSquared A m n b z = residualSquared A m n b x → ∀ c, c < n → z.getD c 0 = x.getD c 0)

theorem onlyMinimiser_of_normal {A : Nat → Nat → ℝ} {m n : Nat} {b x : List ℝ} (hi : IndependentColumns A m n)
    (h : ∀ c, c < n → ∑ i ∈ Finset.range m, A i c * ((∑ c' ∈ Finset.range n, A i c' * x.getD c' 0) - b.getD i 0) = 0) :
    OnlyMinimiser A m n b x := by
  intro z
  have hm := minimiser_of_normal h z
  have hnn : 0 ≤ ∑ i ∈ Finset.range m, (∑ c ∈ Finset.range n, A i c * (z.getD c 0 - x.getD c 0)) ^ 2 := Finset.sum_nonneg (fun i _ => sq_nonneg _)
  refine ⟨by linarith, fun heq c hc => ?_⟩
  have hz : ∑ i ∈ Finset.range m, (∑ c ∈ Finset.range n, A i c * (z.getD c 0 - x.getD c 0)) ^ 2 = 0 := by linarith
  have hz' := (Finset.sum_eq_zero_iff_of_nonneg (fun i _ => sq_nonneg _)).1 hz
  have := hi (fun c => z.getD c 0 - x.getD c 0) (fun i hi => pow_eq_zero_iff (by norm_num) |>.1 (hz' i (Finset.mem_range.2 hi))) c hc
  linarith

theorem sq_sum_of_nrm {m : Nat} {x y : Nat → ℝ} {δ : ℝ} (h : nrm m x ≤ δ * nrm m y) (hδ : 0 ≤ δ) :
    ∑ t ∈ Finset.range m, x t ^ 2 ≤ δ ^ 2 * ∑ t ∈ Finset.range m, y t ^ 2 := by
  have h1 := mul_le_mul h h (nrm_nonneg x) (mul_nonneg hδ (nrm_nonneg y))
  rw [nrm_mul_self, show δ * nrm m y * (δ * nrm m y) = δ ^ 2 * (nrm m y * nrm m y) by ring, nrm_mul_self] at h1
  simpa only [sq (x _), sq (y _)] using h1

theorem getD_map_val {A : Arith} (l : List (Fl A)) (i : Nat) : (l.map Fl.val).getD i 0 = (l.getD i 0).val := by
  rw [List.getD_eq_getElem?_getD, List.getD_eq_getElem?_getD, List.getElem?_map]
  cases l[i]? <;> rfl

/-- Factorizing and solving, for a factorisation whose buffers fit. -/
theorem factorize_solve_rounded {R : Arith} {u : ℝ} (hR : R.Accurate u) {a : SparseColMat (Fl R)} (ha : MatWellFormed a) {U : Nat → Nat → Fl R}
    (hU : Represents a U) {s : SymbolicQr} {pa : SparseStructure} {S : Nat → Nat → Nat → Prop}
    (o : Ordered a.structure' s.colPermutation s.invColPermutationSequence pa) (sh : QrShape pa s.rowPermutation s.rStructure s.hStructure S)
    {q : Qr (Fl R)} (hq : q.Fits s pa) {m n : Nat} (hm : a.structure'.nrows = m) (hn : a.structure'.ncols = n) :
    ∃ q', q.factorize a = .ok q' ∧ q'.Fits s pa ∧ ∀ b : List (Fl R), b.length = m →
      ∃ flag x, q'.solve b = .ok (flag, x) ∧ x.length = b.length ∧
        (flag = true → ∃ (A' : Nat → Nat → ℝ) (b' : List ℝ), CloseColumns (gap u (solveRoundings m n)) A' (fun i c => (U i c).val) m n ∧
          b'.length = m ∧ CloseVector (gap u (solveRoundings m n)) b' (b.map Fl.val) m ∧ IndependentColumns A' m n ∧
          OnlyMinimiser A' m n b' (x.map Fl.val)) ∧
        (flag = false → ∃ A' : Nat → Nat → ℝ, CloseColumns (gap u (solveRoundings m n)) A' (fun i c => (U i c).val) m n ∧
          ¬ IndependentColumns A' m n) := by
  subst hm hn
  have hδ := gap_nonneg hR.pos hR.lt_one (solveRoundings a.structure'.nrows a.structure'.ncols)
  set p := s.colPermutation with hp
  have hplen : p.length = a.structure'.ncols := by rw [o.perm.length_eq, List.length_range]
  have hget : ∀ k, k < a.structure'.ncols → p[k]? = some (p.getD k 0) ∧ p.getD k 0 < a.structure'.ncols := by
    intro k hk
    have : p[k]? = some (p.getD k 0) := by rw [List.getD_eq_getElem?_getD, List.getElem?_eq_getElem (by omega)]; rfl
    exact ⟨this, List.mem_range.1 (o.perm.mem_iff.1 (List.mem_of_getElem? this))⟩
  have hsurj : ∀ c, c < a.structure'.ncols → ∃ k, k < a.structure'.ncols ∧ p[k]? = some c := by
    intro c hc
    obtain ⟨k, hk⟩ := List.mem_iff_getElem?.1 (o.perm.mem_iff.2 (List.mem_range.2 hc))
    exact ⟨k, by rw [← hplen]; exact (List.getElem?_eq_some_iff.1 hk).1, hk⟩
  have hidx : ∀ k c : Nat, p[k]? = some c → p.idxOf c = k := by
    intro k c hkc
    have hlt := List.idxOf_lt_length_of_mem (List.mem_of_getElem? hkc)
    exact perm_nodup_getElem o.perm (by rw [List.getElem?_eq_getElem hlt, List.getElem_idxOf hlt]) hkc
  set B : Nat → Nat → Fl R := fun j => permutedColumn pa.nrows s.rowPermutation U (p.getD j 0) with hB
  obtain ⟨q', h1, b₀, v₀, inv⟩ := factorize_rounded hR sh ha hU o.rows.symm o.cols.symm (by
    intro j hj
    rw [o.cols] at hj
    obtain ⟨e1, e2⟩ := hget j hj
    refine ⟨_, e1, e2, ?_⟩
    intro i
    rw [o.has]
    constructor
    · rintro ⟨c, hc, h⟩
      rw [e1] at hc
      obtain rfl := Option.some.inj hc
      exact h
    · exact fun h => ⟨_, e1, h⟩) (B := B) (by
    intro j c hjc
    rw [hB]
    simp only
    rw [List.getD_eq_getElem?_getD, hjc]
    rfl) hq
  refine ⟨q', h1, inv.fits, ?_⟩
  intro b hb
  have hsum : ∀ (f : Nat → ℝ), ∑ c ∈ Finset.range a.structure'.ncols, f c = ∑ j ∈ Finset.range pa.ncols, f (p.getD j 0) := by
    intro f
    rw [o.cols]
    symm
    refine Finset.sum_nbij (fun j => p.getD j 0) ?_ ?_ ?_ ?_
    · intro j hj
      exact Finset.mem_range.2 (hget j (Finset.mem_range.1 hj)).2
    · intro j hj j' hj' heq
      simp only [Finset.coe_range, Set.mem_Iio] at hj hj'
      simp only at heq
      have h3 := (hget j hj).1
      rw [heq] at h3
      exact perm_nodup_getElem o.perm h3 (hget j' hj').1
    · intro c hc
      simp only [Finset.coe_range, Set.mem_Iio] at hc
      obtain ⟨k, hk, hkc⟩ := hsurj c hc
      refine ⟨k, by simpa using hk, ?_⟩
      simp only
      rw [List.getD_eq_getElem?_getD, hkc]
      rfl
    · intro j _
      rfl
  obtain ⟨y, flag, z, rest, k1, k2, k3, k4, k5, k6⟩ := solveTop_rounded hR sh inv (c := b) (by rw [hb, o.rows])
  obtain ⟨x, g1, g2, g3⟩ := o.inverse (z ++ rest) (by rw [List.length_append]; have := o.cols; omega)
  have hsolve : q'.solve b = .ok (flag, x) := by
    rw [Qr.solve]
    cases e1 : q'.qTrMul b with
    | error e => rw [e1] at k1; simp [bind, Except.bind] at k1
    | ok b1 =>
      rw [e1, ok_bind] at k1
      rw [ok_bind]
      cases e2 : sliceIdx b1 0 q'.r.nrows with
      | error e => rw [e2] at k1; simp [bind, Except.bind] at k1
      | ok top =>
        rw [e2, ok_bind] at k1
        rw [ok_bind]
        cases e3 : q'.r.solveUpperTriangular top with
        | error e => rw [e3] at k1; simp [bind, Except.bind] at k1
        | ok r =>
          obtain ⟨f, z1⟩ := r
          rw [e3, ok_bind] at k1
          rw [ok_bind]
          simp only [pure_eq_ok, Except.ok.injEq, Prod.mk.injEq] at k1
          obtain ⟨rfl, rfl, rfl⟩ := k1
          simp only
          rw [inv.fits.sym, g1, ok_bind]
          rfl
  have hx : ∀ j, j < pa.ncols → x.getD (p.getD j 0) 0 = z.getD j 0 := by
    intro j hj
    have e := g3 j _ (hget j (by rw [← o.cols]; exact hj)).1
    rw [List.getD_eq_getElem?_getD (l := x), e, List.getElem?_append_left (by omega), List.getD_eq_getElem?_getD]
  have hBt : ∀ (j i t : Nat), i < pa.nrows → s.rowPermutation[i]? = some (some t) → B j t = U i (p.getD j 0) := by
    intro j i t hi hit
    exact permutedColumn_eq sh.inj hi hit
  -- back to the order of the rows and columns of `a`
  set tgt : Nat → Nat := fun i => (s.rowPermutation[i]?.getD none).getD 0 with htgt
  have htgt' : ∀ i t : Nat, s.rowPermutation[i]? = some (some t) → tgt i = t := by
    intro i t hit
    rw [htgt]
    simp only [hit, Option.getD_some]
  have hclose : ∀ B' : Nat → Nat → ℝ, (∀ j, j < pa.ncols → nrm pa.nrows (fun t => B' j t - (B j t).val) ≤
      gap u (solveRoundings pa.nrows pa.ncols) * nrm pa.nrows (fun t => (B j t).val)) →
      CloseColumns (gap u (solveRoundings a.structure'.nrows a.structure'.ncols)) (fun i c => B' (p.idxOf c) (tgt i)) (fun i c => (U i c).val)
        a.structure'.nrows a.structure'.ncols := by
    intro B' h c hc
    obtain ⟨k, hk, hkc⟩ := hsurj c hc
    have hkp : p.getD k 0 = c := by rw [List.getD_eq_getElem?_getD, hkc]; rfl
    have h2 := h k (by rw [o.cols]; exact hk)
    rw [o.rows, o.cols] at h2
    have h3 := sq_sum_of_nrm h2 hδ
    rw [← o.rows] at h3 ⊢
    rw [sum_permuted sh.inj sh.real sh.onto (fun i => (B' (p.idxOf c) (tgt i) - (U i c).val) ^ 2) (fun t => (B' k t - (B k t).val) ^ 2) (by
      intro i t hi hit
      beta_reduce
      rw [htgt' i t hit, hidx k c hkc, hBt k i t hi hit, hkp]),
      sum_permuted sh.inj sh.real sh.onto (fun i => (U i c).val ^ 2) (fun t => (B k t).val ^ 2) (by
      intro i t hi hit
      beta_reduce
      rw [hBt k i t hi hit, hkp])] at h3
    exact h3
  have hind : ∀ (B' : Nat → Nat → ℝ) (w : Nat → ℝ), (∀ i, i < a.structure'.nrows → ∑ c ∈ Finset.range a.structure'.ncols, B' (p.idxOf c) (tgt i) * w c = 0) ↔
      ∀ t, t < pa.nrows → ∑ j ∈ Finset.range pa.ncols, w (p.getD j 0) * B' j t = 0 := by
    intro B' w
    have e : ∀ i t : Nat, s.rowPermutation[i]? = some (some t) → ∑ c ∈ Finset.range a.structure'.ncols, B' (p.idxOf c) (tgt i) * w c =
        ∑ j ∈ Finset.range pa.ncols, w (p.getD j 0) * B' j t := by
      intro i t hit
      rw [hsum]
      refine Finset.sum_congr rfl (fun j hj => ?_)
      rw [htgt' i t hit, hidx j _ (hget j (by rw [← o.cols]; exact Finset.mem_range.1 hj)).1, mul_comm]
    constructor
    · intro h t ht
      obtain ⟨i, hi, hit⟩ := sh.onto t ht
      rw [← e i t hit]
      exact h i (by rw [← o.rows]; exact hi)
    · intro h i hi
      obtain ⟨t, hit, ht⟩ := sh.real i (by rw [o.rows]; exact hi)
      rw [e i t hit]
      exact h t ht
  refine ⟨flag, x, hsolve, by rw [g2, List.length_append, k3, hb, o.rows], ?_, ?_⟩
  · intro hf
    obtain ⟨B', y', e1, e2, e3, e4⟩ := k5 hf
    have hb' : ∀ i, i < a.structure'.nrows → ((List.range a.structure'.nrows).map (fun i => y' (tgt i))).getD i 0 = y' (tgt i) := by
      intro i hi
      rw [List.getD_eq_getElem?_getD, List.getElem?_map, List.getElem?_range hi]
      rfl
    have hI : IndependentColumns (fun i c => B' (p.idxOf c) (tgt i)) a.structure'.nrows a.structure'.ncols := by
      intro w hw c hc
      rw [hind] at hw
      obtain ⟨k, hk, hkc⟩ := hsurj c hc
      have := e3 (fun j => w (p.getD j 0)) hw k (by rw [o.cols]; exact hk)
      rw [List.getD_eq_getElem?_getD, hkc] at this
      exact this
    refine ⟨fun i c => B' (p.idxOf c) (tgt i), (List.range a.structure'.nrows).map (fun i => y' (tgt i)), hclose B' e1, by simp, ?_, hI, ?_⟩
    · rw [o.rows, o.cols] at e2
      have h3 := sq_sum_of_nrm e2 hδ
      rw [CloseVector]
      rw [← o.rows] at h3
      rw [sum_permuted sh.inj sh.real sh.onto (fun i => (y' (tgt i) - (b.getD i 0).val) ^ 2) (fun t => (y' t - y t) ^ 2) (by
        intro i t hi hit
        beta_reduce
        rw [htgt' i t hit, k4 i t hi hit]),
        sum_permuted sh.inj sh.real sh.onto (fun i => (b.getD i 0).val ^ 2) (fun t => y t ^ 2) (by
        intro i t hi hit
        beta_reduce
        rw [k4 i t hi hit])] at h3
      simp only [getD_map_val]
      rw [o.rows] at h3
      refine le_trans (le_of_eq ?_) h3
      refine Finset.sum_congr rfl (fun i hi => ?_)
      rw [hb' i (Finset.mem_range.1 hi)]
    · apply onlyMinimiser_of_normal hI
      intro c hc
      obtain ⟨k, hk, hkc⟩ := hsurj c hc
      have h3 := e4 k (by rw [o.cols]; exact hk)
      refine Eq.trans ?_ h3
      have hrw : ∀ f : Nat → ℝ, ∑ i ∈ Finset.range a.structure'.nrows, f i = ∑ i ∈ Finset.range pa.nrows, f i := fun f => by rw [o.rows]
      rw [hrw]
      symm
      apply sum_permuted sh.inj sh.real sh.onto
      intro i t hi hit
      rw [hb' i (by rw [← o.rows]; exact hi), htgt' i t hit, hidx k c hkc, hsum]
      congr 2
      refine Finset.sum_congr rfl (fun j hj => ?_)
      have hj' := Finset.mem_range.1 hj
      rw [hidx j _ (hget j (by rw [← o.cols]; exact hj')).1, getD_map_val, hx j hj', mul_comm]
  · intro hf
    obtain ⟨B', e1, w, ⟨j, hj, hne⟩, e2⟩ := k6 hf
    refine ⟨fun i c => B' (p.idxOf c) (tgt i), hclose B' e1, ?_⟩
    intro hI
    have hj' : j < a.structure'.ncols := by rw [← o.cols]; exact hj
    have := hI (fun c => w (p.idxOf c)) ((hind B' _).2 (by
      intro t ht
      rw [← e2 t ht]
      refine Finset.sum_congr rfl (fun j hj => ?_)
      rw [hidx j _ (hget j (by rw [← o.cols]; exact Finset.mem_range.1 hj)).1])) (p.getD j 0) (hget j hj').2
    beta_reduce at this
    rw [hidx j _ (hget j hj').1] at this
    exact hne this

/-- C82: let the structure of the `m × n` matrix have full structural column rank, and let the column ordering return a permutation. In any
arithmetic that rounds with a relative error of at most `u`, with `K u ≤ 1/2` for `K = 24 m n + 61 n`: building the symbolic factorisation,
factorizing any sequence of matrices with that structure, and solving with the last one do not panic. If the result is `true`, the first entries
of `b` are the only minimiser of `|A' x - b'|` for some `A'` with independent columns and some `b'` that differ from `A`, column by column, and
from `b` by at most the fraction `2 K u` of their lengths. If it is `false`, some `A'` as close to `A` has dependent columns. -/
theorem C82_backward_stable {R : Arith} {u : ℝ} (hR : R.Accurate u) {order : SparseStructure → Fiksi.R (List Nat)} (ordering : QrOrdering)
    (st : SparseStructure) (horder : OrdersColumns order st) (hst : WellFormed st) (hr : FullRank st) (earlier : List (SparseColMat (Fl R)))
    (hearlier : ∀ a ∈ earlier, a.structure' = st ∧ MatWellFormed a) (a : SparseColMat (Fl R)) (ha : MatWellFormed a) (hast : a.structure' = st)
    (A : Nat → Nat → Fl R) (hA : Represents a A) (b : List (Fl R)) (hb : b.length = st.nrows) (K : Nat)
    (hK : K = 24 * st.nrows * st.ncols + 61 * st.ncols) (hu : K * u ≤ 1 / 2) :
    ∃ s q flag x, SymbolicQr.build order st ordering = .ok s ∧
      (earlier ++ [a]).foldlM (fun (q : Qr (Fl R)) a => q.factorize a) (s.numeric (Fl R)) = .ok q ∧ q.solve b = .ok (flag, x) ∧ x.length = b.length ∧
      (flag = true → ∃ (A' : Nat → Nat → ℝ) (b' : List ℝ), CloseColumns (2 * K * u) A' (fun i c => (A i c).val) st.nrows st.ncols ∧
        b'.length = st.nrows ∧ CloseVector (2 * K * u) b' (b.map Fl.val) st.nrows ∧ IndependentColumns A' st.nrows st.ncols ∧
        OnlyMinimiser A' st.nrows st.ncols b' (x.map Fl.val)) ∧
      (flag = false → ∃ A' : Nat → Nat → ℝ, CloseColumns (2 * K * u) A' (fun i c => (A i c).val) st.nrows st.ncols ∧
        ¬ IndependentColumns A' st.nrows st.ncols) := by
  have hK' : K = solveRoundings st.nrows st.ncols := hK
  have hg := gap_le hR.pos hR.lt_one hu
  have hg0 := gap_nonneg hR.pos hR.lt_one K
  have hsq := pow_le_pow_left₀ hg0 hg 2
  obtain ⟨s, pa, S, h1, o, sh⟩ := build_spec horder hst hr ordering
  obtain ⟨q₀, h2, h3⟩ := foldlM_ok (fun (q : Qr (Fl R)) => q.Fits s pa) (fun (q : Qr (Fl R)) a => q.factorize a) earlier (s.numeric (Fl R))
    ⟨rfl, rfl, by simp [SymbolicQr.numeric], by simp [SymbolicQr.numeric], by simp [SymbolicQr.numeric, sh.hCols],
      by simp [SymbolicQr.numeric, sh.hRows]⟩ (by
    intro q a' ha' hq
    obtain ⟨e1, e2⟩ := hearlier a' ha'
    exact factorize_any sh e2 (by rw [e1]; exact o) hq)
  obtain ⟨q, h4, -, h5⟩ := factorize_solve_rounded hR ha hA (by rw [hast]; exact o) sh h3 (m := st.nrows) (n := st.ncols) (by rw [hast]) (by rw [hast])
  obtain ⟨flag, x, h6, h7, h8, h9⟩ := h5 b hb
  rw [← hK'] at h8 h9
  have hcols : ∀ A', CloseColumns (gap u K) A' (fun i c => (A i c).val) st.nrows st.ncols →
      CloseColumns (2 * K * u) A' (fun i c => (A i c).val) st.nrows st.ncols := by
    intro A' h c hc
    exact (h c hc).trans (mul_le_mul_of_nonneg_right hsq (Finset.sum_nonneg (fun _ _ => sq_nonneg _)))
  refine ⟨s, q, flag, x, h1, ?_, h6, h7, ?_, ?_⟩
  · rw [List.foldlM_append, h2, ok_bind, List.foldlM_cons, h4, ok_bind]
    rfl
  · intro hf
    obtain ⟨A', b', e1, e2, e3, e4, e5⟩ := h8 hf
    exact ⟨A', b', hcols A' e1, e2, e3.trans (mul_le_mul_of_nonneg_right hsq (Finset.sum_nonneg (fun _ _ => sq_nonneg _))), e4, e5⟩
  · intro hf
    obtain ⟨A', e1, e2⟩ := h9 hf
    exact ⟨A', hcols A' e1, e2⟩

/-- The hypotheses of C82 are met in binary64, also by a `3 × 2` matrix and an ordering that reverses the columns: `K u` is below `2 ^ (-43)`. -/
example (x y z : Fl binary64) (b : List (Fl binary64)) (hb : b.length = 3) :
    ∃ s q flag x', SymbolicQr.build (fun a => .ok (List.range a.ncols).reverse) qrExample.structure' .colamd = .ok s ∧
      (s.numeric (Fl binary64)).factorize ⟨qrExample.structure', [x, y, z]⟩ = .ok q ∧ q.solve b = .ok (flag, x') ∧
      ((24 * 3 * 2 + 61 * 2 : Nat) : ℝ) * (1 / 2 ^ 53) ≤ 1 / 2 ^ 43 := by
  have hfull : FullRank qrExample.structure' := by
    refine ⟨fun c => if c = 0 then 0 else 2, ?_, ?_⟩
    · intro c hc
      have hc' : c < 2 := hc
      rcases (by omega : c = 0 ∨ c = 1) with rfl | rfl
      · exact ⟨0, 0, 2, rfl, rfl, by omega, by omega, rfl⟩
      · exact ⟨2, 2, 3, rfl, rfl, by omega, by omega, rfl⟩
    · intro c c' hc hc' h
      have h1 : c < 2 := hc
      have h2 : c' < 2 := hc'
      rcases (by omega : c = 0 ∨ c = 1) with rfl | rfl <;> rcases (by omega : c' = 0 ∨ c' = 1) with rfl | rfl <;> simp at h ⊢
  have hord : OrdersColumns (fun a => .ok (List.range a.ncols).reverse) qrExample.structure' := ⟨_, rfl, List.reverse_perm _⟩
  obtain ⟨hm, hrep⟩ := entryAt_represents (T := Fl binary64) qrExample_ok.1 (rv := [x, y, z]) rfl
  obtain ⟨s, q, flag, x', h1, h2, h3, -⟩ := C82_backward_stable binary64_accurate .colamd qrExample.structure' hord qrExample_ok.1 hfull [] (by simp)
    ⟨qrExample.structure', [x, y, z]⟩ hm rfl _ hrep b hb 266 rfl (by norm_num)
  refine ⟨s, q, flag, x', h1, ?_, h3, by norm_num⟩
  rw [List.nil_append, List.foldlM_cons] at h2
  cases hq : (s.numeric (Fl binary64)).factorize ⟨qrExample.structure', [x, y, z]⟩ with
  | error e => rw [hq] at h2; simp [bind, Except.bind] at h2
  | ok q' =>
    rw [hq, ok_bind] at h2
    exact h2

end Fiksi
