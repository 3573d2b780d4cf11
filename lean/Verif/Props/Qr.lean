import Verif.Proofs.QrBuild
import Verif.Props.Sparse
/-!
# The QR factorisation (C40, C41)
-/
namespace Fiksi

open Spec

/-! ## C40: reflectors -/

/-- The square of the Euclidean length. -/
def Spec.lengthSquared (v : List ℝ) : ℝ := (v.map (fun x => x * x)).sum

theorem lengthSquared_range (l : List ℝ) : lengthSquared l = ∑ i ∈ Finset.range l.length, l.getD i 0 * l.getD i 0 := by
  induction l with
  | nil => simp [lengthSquared]
  | cons a l ih =>
    rw [lengthSquared] at ih ⊢
    rw [List.map_cons, List.sum_cons, List.length_cons, Finset.sum_range_succ', ih]
    simp [add_comm]

theorem sparseAt_range (v : List ℝ) : sparseAt (List.range v.length) v = fun t => v.getD t 0 := by
  apply sparseAt_ext List.nodup_range (by simp)
  · intro i r hir
    have hi := (List.getElem?_eq_some_iff.1 hir).1
    rw [List.length_range] at hi
    rw [List.getElem?_range hi] at hir
    obtain rfl := Option.some.inj hir
    exact getElem?_of_getD hi
  · intro t ht
    rw [List.mem_range, not_lt] at ht
    rw [List.getD_eq_getElem?_getD, List.getElem?_eq_none ht]
    rfl

theorem list_ext_getD {l l' : List ℝ} (hlen : l.length = l'.length) (h : ∀ t, l.getD t 0 = l'.getD t 0) : l = l' := by
  apply List.ext_getElem hlen
  intro i h1 h2
  have := h i
  simpa [List.getD_eq_getElem?_getD, h1, h2] using this

/-- C40: for every non-empty vector the reflector is computed without panic; the returned norm is the length of the vector, the reflector maps the
vector to `(norm, 0, …, 0)`, and applying it, at any distinct rows of any vector, does not panic and preserves the length. -/
theorem C40_reflector (v : List ℝ) (hv : v ≠ []) :
    ∃ norm β v', calculateHouseholder v = .ok (norm, β, v') ∧ norm = Real.sqrt (lengthSquared v) ∧ v'.length = v.length ∧
      applyHouseholder v β (List.range v.length) v' = .ok (norm :: List.replicate (v.length - 1) 0) ∧
      ∀ (x : List ℝ) (rows : List Nat), rows.Nodup → rows.length = v.length → (∀ r ∈ rows, r < x.length) →
        ∃ y, applyHouseholder x β rows v' = .ok y ∧ y.length = x.length ∧ lengthSquared y = lengthSquared x := by
  have hpos : 0 < v.length := List.length_pos_iff.2 hv
  have hhead : (List.range v.length).head? = some 0 := by
    rw [List.head?_range, if_neg (by omega)]
  obtain ⟨norm, β, v', h1, h2, h3, h4, h5⟩ := householder_vector hhead List.nodup_range (m := v.length) (fun r hr => List.mem_range.1 hr)
    (v := v) (by simp)
  refine ⟨norm, β, v', h1, ?_, h2, ?_, ?_⟩
  · rw [h4, lengthSquared_range, sparseAt_range]
  · obtain ⟨y, g1, g2, g3⟩ := applyHouseholder_spec (x := v) (β := β) (rows := List.range v.length) (values := v') (by simpa using h2)
      (fun r hr => List.mem_range.1 hr)
    rw [g1]
    congr 1
    apply list_ext_getD
    · rw [g2]
      simp
      omega
    · intro t
      rw [g3, ← sparseAt_range, h5]
      cases t with
      | zero => simp
      | succ t =>
        simp only [Nat.add_eq_zero_iff, one_ne_zero, and_false, if_false]
        rw [List.getD_eq_getElem?_getD, List.getElem?_cons_succ, List.getElem?_replicate]
        split <;> rfl
  · intro x rows hn hlen hx
    cases v with
    | nil => simp at hpos
    | cons v0 rest =>
      cases rows with
      | nil => simp at hlen
      | cons r rows =>
        obtain ⟨norm', β', v'', k1, k2, k3, -, -⟩ := householder_vector (rows := r :: rows) (r := r) rfl hn (m := x.length) hx (v := v0 :: rest)
          (by rw [hlen])
        rw [h1] at k1
        simp only [Except.ok.injEq, Prod.mk.injEq] at k1
        obtain ⟨rfl, rfl, rfl⟩ := k1
        obtain ⟨y, g1, g2, g3⟩ := applyHouseholder_spec (x := x) (β := β) (rows := r :: rows) (values := v') (by rw [h2, hlen]) hx
        refine ⟨y, g1, g2, ?_⟩
        rw [lengthSquared_range, lengthSquared_range, g2, ← reflect_inner k3 (fun t => x.getD t 0) (fun t => x.getD t 0)]
        exact Finset.sum_congr rfl (fun t _ => by rw [g3])

/-- C40: the empty vector panics. -/
theorem C40_empty : calculateHouseholder ([] : List ℝ) = .error .indexOutOfBounds := rfl

/-- C40, a case: the reflector for `(3, 4)`. -/
theorem C40_case : calculateHouseholder ([3, 4] : List ℝ) = .ok (5, 1 / 10, [-2, 4]) := by
  have h5 : FloatOps.sqrt ((0 : ℝ) + 4 * 4 + 3 * 3) = 5 := by
    show Real.sqrt _ = 5
    rw [show (0 : ℝ) + 4 * 4 + 3 * 3 = 5 ^ 2 by norm_num]
    exact Real.sqrt_sq (by norm_num)
  have hs : FloatOps.eqB ((0 : ℝ) + 4 * 4) 0 = false := by
    simp [FloatOps.eqB]
  have hl : leB (3 : ℝ) 0 = false := by
    simp [leB, FloatOps.ltB, FloatOps.eqB]
  simp only [calculateHouseholder, List.foldl_cons, List.foldl_nil, hs, hl, h5, Bool.false_eq_true, if_false, pure_eq_ok]
  norm_num

/-! ## C41: factorizing and solving -/

/-- The square of the length of `A x - b` for the `m × n` matrix `A`. -/
def Spec.residualSquared (A : Nat → Nat → ℝ) (m n : Nat) (b x : List ℝ) : ℝ :=
  ∑ i ∈ Finset.range m, ((∑ c ∈ Finset.range n, A i c * x.getD c 0) - b.getD i 0) ^ 2

/-- The columns of the `m × n` matrix `A` are linearly independent. -/
def Spec.IndependentColumns (A : Nat → Nat → ℝ) (m n : Nat) : Prop :=
  ∀ z : Nat → ℝ, (∀ i, i < m → ∑ c ∈ Finset.range n, A i c * z c = 0) → ∀ c, c < n → z c = 0

/-- The normal equations give a minimiser, and the only one if the columns are independent. -/
theorem minimiser_of_normal {A : Nat → Nat → ℝ} {m n : Nat} {b x : List ℝ}
    (h : ∀ c, c < n → ∑ i ∈ Finset.range m, A i c * ((∑ c' ∈ Finset.range n, A i c' * x.getD c' 0) - b.getD i 0) = 0) (x' : List ℝ) :
    residualSquared A m n b x' = residualSquared A m n b x +
      ∑ i ∈ Finset.range m, (∑ c ∈ Finset.range n, A i c * (x'.getD c 0 - x.getD c 0)) ^ 2 := by
  set ρ : Nat → ℝ := fun i => (∑ c' ∈ Finset.range n, A i c' * x.getD c' 0) - b.getD i 0 with hρ
  have hcross : ∑ i ∈ Finset.range m, (∑ c ∈ Finset.range n, A i c * (x'.getD c 0 - x.getD c 0)) * ρ i = 0 := by
    simp only [Finset.sum_mul]
    rw [Finset.sum_comm]
    apply Finset.sum_eq_zero
    intro c hc
    have := h c (Finset.mem_range.1 hc)
    rw [show ∑ i ∈ Finset.range m, A i c * (x'.getD c 0 - x.getD c 0) * ρ i = (x'.getD c 0 - x.getD c 0) * ∑ i ∈ Finset.range m, A i c * ρ i by
      rw [Finset.mul_sum]
      exact Finset.sum_congr rfl (fun i _ => by ring), this, mul_zero]
  have hdiff : ∀ i, (∑ c ∈ Finset.range n, A i c * x'.getD c 0) - b.getD i 0 =
      ρ i + ∑ c ∈ Finset.range n, A i c * (x'.getD c 0 - x.getD c 0) := by
    intro i
    rw [hρ]
    simp only [mul_sub, Finset.sum_sub_distrib]
    ring
  rw [residualSquared, residualSquared]
  simp only [hdiff]
  rw [← Finset.sum_add_distrib, ← sub_eq_zero, ← Finset.sum_sub_distrib]
  have : ∑ i ∈ Finset.range m, ((ρ i + ∑ c ∈ Finset.range n, A i c * (x'.getD c 0 - x.getD c 0)) ^ 2 -
      (((∑ c ∈ Finset.range n, A i c * x.getD c 0) - b.getD i 0) ^ 2 + (∑ c ∈ Finset.range n, A i c * (x'.getD c 0 - x.getD c 0)) ^ 2)) =
      2 * ∑ i ∈ Finset.range m, (∑ c ∈ Finset.range n, A i c * (x'.getD c 0 - x.getD c 0)) * ρ i := by
    rw [Finset.mul_sum]
    refine Finset.sum_congr rfl (fun i _ => ?_)
    rw [hρ]
    ring
  rw [this, hcross, mul_zero]

/-- C41: let the structure have full structural column rank, and let the column ordering return a permutation. After building the symbolic
factorisation, factorizing any sequence of matrices with that structure, with the same buffers, does not panic. Solving with the last one, for any
right-hand side, does not panic either; it returns `true` exactly if the columns of that matrix are linearly independent, and then the first entries
of `b` are the only minimiser of `|A x - b|`. -/
theorem C41_solve {order : SparseStructure → R (List Nat)} (ordering : QrOrdering) (st : SparseStructure) (horder : OrdersColumns order st)
    (hst : WellFormed st) (hr : FullRank st) (earlier : List (SparseColMat ℝ))
    (hearlier : ∀ a ∈ earlier, a.structure' = st ∧ MatWellFormed a) (a : SparseColMat ℝ) (ha : MatWellFormed a) (hast : a.structure' = st)
    (A : Nat → Nat → ℝ) (hA : Represents a A) (b : List ℝ) (hb : b.length = st.nrows) :
    ∃ s q flag b', SymbolicQr.build order st ordering = .ok s ∧
      (earlier ++ [a]).foldlM (fun (q : Qr ℝ) a => q.factorize a) (s.numeric ℝ) = .ok q ∧ q.solve b = .ok (flag, b') ∧ b'.length = b.length ∧
      (flag = true ↔ IndependentColumns A st.nrows st.ncols) ∧
      (flag = true → ∀ x : List ℝ, residualSquared A st.nrows st.ncols b b' ≤ residualSquared A st.nrows st.ncols b x ∧
        (residualSquared A st.nrows st.ncols b x = residualSquared A st.nrows st.ncols b b' → ∀ c, c < st.ncols → x.getD c 0 = b'.getD c 0)) := by
  obtain ⟨s, pa, S, h1, o, sh⟩ := build_spec horder hst hr ordering
  obtain ⟨q₀, h2, h3⟩ := foldlM_ok (fun (q : Qr ℝ) => q.Fits s pa) (fun (q : Qr ℝ) a => q.factorize a) earlier (s.numeric ℝ)
    ⟨rfl, rfl, by simp [SymbolicQr.numeric], by simp [SymbolicQr.numeric], by simp [SymbolicQr.numeric, sh.hCols],
      by simp [SymbolicQr.numeric, sh.hRows]⟩ (by
    intro q a' ha' hq
    obtain ⟨e1, e2⟩ := hearlier a' ha'
    obtain ⟨q', f1, f2, -⟩ := factorize_solve e2 (rEntry_represents e2.1 e2.2).2 (by rw [e1]; exact o) sh hq
    exact ⟨q', f1, f2⟩)
  obtain ⟨q, h4, -, h5⟩ := factorize_solve ha hA (by rw [hast]; exact o) sh h3
  obtain ⟨flag, b', h6, h7, h8, h9⟩ := h5 b (by rw [hast]; exact hb)
  rw [hast] at h8 h9
  refine ⟨s, q, flag, b', h1, ?_, h6, h7, h8, ?_⟩
  · rw [List.foldlM_append, h2, ok_bind, List.foldlM_cons, h4, ok_bind]
    rfl
  · intro hf x
    have hm := minimiser_of_normal (h9 hf) x
    have hnn : 0 ≤ ∑ i ∈ Finset.range st.nrows, (∑ c ∈ Finset.range st.ncols, A i c * (x.getD c 0 - b'.getD c 0)) ^ 2 :=
      Finset.sum_nonneg (fun i _ => sq_nonneg _)
    refine ⟨by linarith, fun heq c hc => ?_⟩
    have hz : ∑ i ∈ Finset.range st.nrows, (∑ c ∈ Finset.range st.ncols, A i c * (x.getD c 0 - b'.getD c 0)) ^ 2 = 0 := by linarith
    have hz' := (Finset.sum_eq_zero_iff_of_nonneg (fun i _ => sq_nonneg _)).1 hz
    have := h8.1 hf (fun c => x.getD c 0 - b'.getD c 0) (fun i hi => by
      have := hz' i (Finset.mem_range.2 hi)
      exact pow_eq_zero_iff (by norm_num) |>.1 this) c hc
    linarith

/-! ## A case -/

/-- The structure of `[[3, 0], [4, 0], [0, 2]]`. -/
def qrExample : SparseColMat ℝ := ⟨⟨3, 2, [0, 1, 2], [0, 2, 3]⟩, [3, 4, 2]⟩

theorem qrExample_ok : MatWellFormed qrExample := ⟨(C32_accepted_iff 3 2 [0, 1, 2] [0, 2, 3] _).1 (by decide +kernel) |>.2, rfl⟩

/-- A structure of full structural rank meets the hypotheses of C41, also with an ordering that reverses the columns. -/
theorem C41_case : ∃ s q b', SymbolicQr.build (fun a => .ok (List.range a.ncols).reverse) qrExample.structure' .colamd = .ok s ∧
    (s.numeric ℝ).factorize qrExample = .ok q ∧ q.solve [5, 0, 6] = .ok (true, b') ∧ b'.getD 0 0 = 3 / 5 ∧ b'.getD 1 0 = 3 := by
  have hfull : FullRank qrExample.structure' := by
    refine ⟨fun c => if c = 0 then 0 else 2, ?_, ?_⟩
    · intro c hc
      have hc' : c < 2 := hc
      rcases (by omega : c = 0 ∨ c = 1) with rfl | rfl
      · exact ⟨0, 0, 2, rfl, rfl, by omega, by omega, rfl⟩
      · exact ⟨2, 2, 3, rfl, rfl, by omega, by omega, rfl⟩
    · intro c c' hc hc' h
      have h1 : c < 2 := hc
      have h2 : c' < 2 := hc'
      rcases (by omega : c = 0 ∨ c = 1) with rfl | rfl <;> rcases (by omega : c' = 0 ∨ c' = 1) with rfl | rfl <;> simp at h ⊢
  have hord : OrdersColumns (fun a => .ok (List.range a.ncols).reverse) qrExample.structure' := ⟨_, rfl, List.reverse_perm _⟩
  have hrep := (rEntry_represents qrExample_ok.1 qrExample_ok.2).2
  have e : ∀ t j, rEntry qrExample.structure' qrExample.values t j =
      if j = 0 then (if t = 0 then 3 else if t = 1 then 4 else 0) else if j = 1 then (if t = 2 then 2 else 0) else 0 := by
    intro t j
    rcases Nat.lt_or_ge j 2 with hj | hj
    · rcases (by omega : j = 0 ∨ j = 1) with rfl | rfl
      · simp [rEntry, sparseAt, qrExample, columnRows, colVals]
        rcases (by omega : t = 0 ∨ t = 1 ∨ (t ≠ 0 ∧ t ≠ 1)) with rfl | rfl | ⟨h1, h2⟩
        · simp
        · simp
        · simp [h1, h2, Ne.symm h1, Ne.symm h2]
      · simp [rEntry, sparseAt, qrExample, columnRows, colVals, eq_comm]
    · rw [rEntry, columnRows_out qrExample_ok.1 hj, sparseAt_nil, if_neg (by omega), if_neg (by omega)]
  obtain ⟨s, q, flag, b', h1, h2, h3, h4, h5, h6⟩ := C41_solve .colamd qrExample.structure' hord qrExample_ok.1 hfull [] (by simp) qrExample
    qrExample_ok rfl _ hrep [5, 0, 6] rfl
  have hflag : flag = true := by
    rw [h5]
    intro z hz c hc
    have hz0 := hz 0 (by decide)
    have hz2 := hz 2 (by decide)
    have hn : qrExample.structure'.ncols = 2 := rfl
    rw [hn] at hz0 hz2
    simp only [Finset.sum_range_succ, Finset.sum_range_zero, e] at hz0 hz2
    norm_num at hz0 hz2
    have hc' : c < 2 := hc
    rcases (by omega : c = 0 ∨ c = 1) with rfl | rfl
    · exact hz0
    · exact hz2
  subst hflag
  have hmin := h6 rfl [3 / 5, 3]
  have hres : residualSquared (rEntry qrExample.structure' qrExample.values) 3 2 [5, 0, 6] [3 / 5, 3] ≤
      residualSquared (rEntry qrExample.structure' qrExample.values) 3 2 [5, 0, 6] b' := by
    simp only [residualSquared, Finset.sum_range_succ, Finset.sum_range_zero, e]
    generalize b'.getD 0 0 = y
    generalize b'.getD 1 0 = w
    norm_num
    nlinarith [sq_nonneg (5 * y - 3), sq_nonneg (2 * w - 6)]
  have hsame := hmin.2 (le_antisymm hres hmin.1)
  refine ⟨s, q, b', h1, ?_, h3, ?_, ?_⟩
  · rw [List.nil_append, List.foldlM_cons] at h2
    cases hq : (s.numeric ℝ).factorize qrExample with
    | error e => rw [hq] at h2; simp [bind, Except.bind] at h2
    | ok q' =>
      rw [hq, ok_bind] at h2
      exact h2
  · rw [← hsame 0 (by decide)]
    rfl
  · rw [← hsame 1 (by decide)]
    rfl

/-! ## Without full structural rank -/

/-- C41 needs the structural rank. For the `2 × 2` structure whose second row is empty the symbolic factorisation succeeds, but solving panics for
all values and all right-hand sides: the second row is given the number 2. (It does not return `false`, as it does for a
matrix that is singular because of its values.) -/
theorem C41_deficient_panics : ∃ s, SymbolicQr.build (fun a => .ok (List.range a.ncols)) ⟨2, 2, [0, 0], [0, 1, 2]⟩ .natural = .ok s ∧
    ∀ (q : Qr ℝ), q.sym = s → ∀ b : List ℝ, b.length = 2 → q.solve b = .error .indexOutOfBounds := by
  have hs : ∃ s, SymbolicQr.build (fun a => .ok (List.range a.ncols)) ⟨2, 2, [0, 0], [0, 1, 2]⟩ .natural = .ok s ∧
      s.rowPermutation = [some 0, some 2, some 1, none] ∧ s.hStructure.nrows = 2 := by
    refine ⟨_, rfl, ?_, ?_⟩ <;> decide +kernel
  obtain ⟨s, h1, h2, h3⟩ := hs
  refine ⟨s, h1, ?_⟩
  rintro q rfl b hb
  match b, hb with
  | [b0, b1], _ =>
    have h4 : q.qTrMul [b0, b1] = .error .indexOutOfBounds := by
      rw [Qr.qTrMul, if_neg (by simp [h3]), h3, h2]
      rfl
    rw [Qr.solve, h4]
    rfl

end Fiksi
