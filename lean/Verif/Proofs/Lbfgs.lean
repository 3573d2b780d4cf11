import Verif.Model.Lbfgs
import Verif.Spec.Bfgs
import Verif.Props.Jacobian
import Verif.Props.Lm
import Verif.Proofs.Solve
/-!
# Lists as vectors, the two-loop recursion and the ring buffer of L-BFGS
-/
namespace Fiksi

set_option linter.unusedSectionVars false
variable {F : Type} [Add F] [Sub F] [Mul F] [Div F] [Neg F] [Zero F] [One F] [FloatOps F]

open Spec FloatOps Matrix

/-- The vector with the entries of a list. -/
def vec (n : Nat) (l : List ℝ) : Fin n → ℝ := fun i => l.getD i 0

/-- A slot of the ring buffer as a correction. -/
def Correction.pair (n : Nat) (c : Correction ℝ) : Pair n := ⟨vec n c.s, vec n c.y, c.rho⟩

/-- The vectors of the slot have `n` entries. -/
def Correction.Sized (n : Nat) (c : Correction F) : Prop := c.s.length = n ∧ c.y.length = n

theorem foldl_add_eq_sum (l : List ℝ) (a : ℝ) : l.foldl (· + ·) a = a + l.sum := by
  induction l generalizing a with
  | nil => simp
  | cons x l ih => rw [List.foldl_cons, ih, List.sum_cons]; ring

theorem dot_eq {n : Nat} {a b : List ℝ} (ha : a.length = n) (hb : b.length = n) : dot a b = vec n a ⬝ᵥ vec n b := by
  rw [dot, foldl_add_eq_sum, zero_add, dotProduct]
  have : List.zipWith (· * ·) a b = List.ofFn (fun i : Fin n => vec n a i * vec n b i) := by
    apply List.ext_getElem
    · simp [ha, hb]
    · intro i h1 h2
      simp at h1
      simp [vec, List.getElem?_eq_getElem h1.1, List.getElem?_eq_getElem h1.2]
  rw [this, List.sum_ofFn]

theorem vec_zipWith {n : Nat} {a b : List ℝ} (ha : a.length = n) (hb : b.length = n) (f : ℝ → ℝ → ℝ) (i : Fin n) :
    vec n (List.zipWith f a b) i = f (vec n a i) (vec n b i) := by
  have h1 : (i : Nat) < a.length := by omega
  have h2 : (i : Nat) < b.length := by omega
  simp [vec, List.getElem?_zipWith, List.getElem?_eq_getElem h1, List.getElem?_eq_getElem h2]

theorem vec_map {n : Nat} {a : List ℝ} (ha : a.length = n) (f : ℝ → ℝ) (i : Fin n) : vec n (a.map f) i = f (vec n a i) := by
  have h1 : (i : Nat) < a.length := by omega
  simp [vec, List.getElem?_eq_getElem h1]

theorem vec_replicate (n : Nat) : vec n (List.replicate n 0) = 0 := by
  funext i
  simp [vec, List.getElem?_replicate]

theorem bfgsUpdate_mulVec {n : Nat} (H : Matrix (Fin n) (Fin n) ℝ) (c : Pair n) (v : Fin n → ℝ) :
    (bfgsUpdate H c) *ᵥ v =
      H *ᵥ (v - (c.rho * (c.s ⬝ᵥ v)) • c.y) + (c.rho * (c.s ⬝ᵥ v) - c.rho * (c.y ⬝ᵥ H *ᵥ (v - (c.rho * (c.s ⬝ᵥ v)) • c.y))) • c.s := by
  have h1 : (1 - c.rho • vecMulVec c.y c.s) *ᵥ v = v - (c.rho * (c.s ⬝ᵥ v)) • c.y := by
    rw [sub_mulVec, one_mulVec, smul_mulVec, vecMulVec_mulVec]
    ext i
    simp
    ring
  rw [bfgsUpdate, add_mulVec, ← mulVec_mulVec, ← mulVec_mulVec, h1, sub_mulVec, one_mulVec, smul_mulVec, smul_mulVec,
    vecMulVec_mulVec, vecMulVec_mulVec]
  ext i
  simp
  ring

theorem bfgsMatrix_append {n : Nat} (γ : ℝ) (cs : List (Pair n)) (c : Pair n) :
    bfgsMatrix γ (cs ++ [c]) = bfgsUpdate (bfgsMatrix γ cs) c := by
  simp [bfgsMatrix]

theorem scaleDirection_spec {n k : Nat} {history : List (Correction ℝ)} (hh : history.length = 5)
    (hs : ∀ c ∈ history, c.Sized n) :
    ∃ γ, (∀ d, scaleDirection history k d = .ok (d.map (fun x => x * γ))) ∧
      γ = bfgsScale (if k = 0 then none else (history[(k - 1) % 5]?).map (Correction.pair n)) := by
  unfold scaleDirection
  by_cases hk : k = 0
  · subst hk
    exact ⟨1, fun d => by simp, by simp [bfgsScale]⟩
  · have hlt : (k - 1) % 5 < history.length := by omega
    have hget := List.getElem?_eq_getElem hlt
    have hsz := hs _ (List.getElem_mem hlt)
    have hk' : 0 < k := Nat.pos_of_ne_zero hk
    rw [if_neg hk]
    refine ⟨_, fun d => ?_, rfl⟩
    rw [if_pos hk', idx_of hget, ok_bind, hget, Option.map_some, bfgsScale]
    rw [dot_eq hsz.2 hsz.2, dot_eq hsz.1 hsz.2]
    simp only [Correction.pair, ltB, decide_eq_true_eq]
    by_cases hy : 0 < vec n history[(k - 1) % 5].y ⬝ᵥ vec n history[(k - 1) % 5].y <;> simp [hy]

/-- The two loops around the scaling are the BFGS matrix of the slots read. -/
theorem twoLoop_spec {n k : Nat} {history : List (Correction ℝ)} (hh : history.length = 5) (hs : ∀ c ∈ history, c.Sized n) (γ : ℝ) :
    ∀ m, m ≤ 5 → ∀ (d alpha : List ℝ), d.length = n → alpha.length = 5 → ∃ d1 alpha1,
      (List.range m).reverse.foldlM (firstLoop history k) (d, alpha) = .ok (d1, alpha1) ∧ d1.length = n ∧ alpha1.length = 5 ∧
      (∀ j, m ≤ j → alpha1[j]? = alpha[j]?) ∧ ∃ d2, (List.range m).foldlM (secondLoop history k alpha1) (d1.map (fun x => x * γ)) = .ok d2 ∧
        d2.length = n ∧
        vec n d2 = (bfgsMatrix γ ((List.range m).filterMap (fun i => (history[(k + i) % 5]?).map (Correction.pair n)))) *ᵥ vec n d := by
  intro m
  induction m with
  | zero =>
    intro _ d alpha hd ha
    refine ⟨d, alpha, rfl, hd, ha, fun _ _ => rfl, _, rfl, by simpa using hd, ?_⟩
    ext i
    rw [vec_map hd]
    simp [bfgsMatrix, smul_mulVec, mul_comm]
  | succ m ih =>
    intro hm d alpha hd ha
    have hlt : (k + m) % 5 < history.length := by omega
    have hget := List.getElem?_eq_getElem hlt
    have hsz := hs _ (List.getElem_mem hlt)
    set h := history[(k + m) % 5]'hlt with hdef
    have ha' : m < alpha.length := by omega
    have hl : (List.zipWith (fun x y => x - h.rho * dot h.s d * y) d h.y).length = n := by simp [hd, hsz.2]
    obtain ⟨d1, alpha1, h1, h2, h3, h4, d2, h5, h6, h7⟩ := ih (by omega) (List.zipWith (fun x y => x - h.rho * dot h.s d * y) d h.y)
      (alpha.set m (h.rho * dot h.s d)) hl (by simpa using ha)
    have hfirst : firstLoop history k (d, alpha) m =
        .ok (List.zipWith (fun x y => x - h.rho * dot h.s d * y) d h.y, alpha.set m (h.rho * dot h.s d)) := by
      rw [firstLoop, idx_of hget, ok_bind]
      simp only
      rw [setIdx_of _ ha', ok_bind]
      rfl
    have halpha : alpha1[m]? = some (h.rho * dot h.s d) := by
      rw [h4 m le_rfl, List.getElem?_set_self ha']
    refine ⟨d1, alpha1, ?_, h2, h3, fun j hj => ?_, List.zipWith (fun x s => x + s * (h.rho * dot h.s d - h.rho * dot h.y d2)) d2 h.s, ?_, ?_, ?_⟩
    · rw [List.range_succ, List.reverse_append, List.reverse_singleton, List.singleton_append, List.foldlM_cons, hfirst, ok_bind, h1]
    · rw [h4 j (by omega), List.getElem?_set_ne (by omega)]
    · rw [List.range_succ, List.foldlM_append, h5, ok_bind, List.foldlM_cons, secondLoop, idx_of hget, ok_bind]
      simp only
      rw [idx_of halpha, ok_bind]
      rfl
    · simp [h6, hsz.1]
    · rw [List.range_succ, List.filterMap_append, List.filterMap_cons, hget]
      simp only [Option.map_some, List.filterMap_nil]
      rw [bfgsMatrix_append, bfgsUpdate_mulVec]
      have e1 : vec n (List.zipWith (fun x y => x - h.rho * dot h.s d * y) d h.y) =
          vec n d - ((h.pair n).rho * ((h.pair n).s ⬝ᵥ vec n d)) • (h.pair n).y := by
        ext i
        rw [vec_zipWith hd hsz.2, dot_eq hsz.1 hd]
        simp [Correction.pair]
      rw [e1] at h7
      rw [← h7]
      ext i
      rw [vec_zipWith h6 hsz.1, dot_eq hsz.1 hd, dot_eq hsz.2 h6]
      simp [Correction.pair, mul_comm]

/-- The direction of iteration `k` in terms of the ring buffer. -/
theorem lbfgsDirection_slots {n k : Nat} {history : List (Correction ℝ)} (hh : history.length = 5) (hs : ∀ c ∈ history, c.Sized n)
    {g : List ℝ} (hg : g.length = n) : ∃ d, lbfgsDirection history k g = .ok d ∧ d.length = n ∧
      vec n d = -((bfgsMatrix (bfgsScale (if k = 0 then none else (history[(k - 1) % 5]?).map (Correction.pair n)))
        ((List.range (min k 5)).filterMap (fun i => (history[(k + i) % 5]?).map (Correction.pair n)))) *ᵥ vec n g) := by
  obtain ⟨γ, h1, h2⟩ := scaleDirection_spec (k := k) hh hs
  rw [← h2]
  obtain ⟨d1, alpha1, h3, h4, h5, -, d2, h6, h7, h8⟩ := twoLoop_spec (k := k) hh hs γ (min k 5) (by omega) g (List.replicate 5 0) hg (by simp)
  refine ⟨d2.map (fun x => x * -1), ?_, by simpa using h7, ?_⟩
  · rw [lbfgsDirection]
    simp only
    rw [h3, ok_bind]
    simp only
    rw [h1, ok_bind, h6, ok_bind]
    rfl
  · rw [← h8]
    ext i
    rw [vec_map h7]
    simp

/-! ## The ring buffer -/

/-- The corrections whose slots iteration `k` reads: the last five from iteration 5 on; before, of the `k` corrections there are, the
first `2k - 5`. -/
def usedCorrections (k : Nat) (corrections : List (Correction ℝ)) : List (Correction ℝ) :=
  if k < 5 then corrections.take (2 * k - 5) else corrections.drop (k - 5)

/-- The ring buffer after `k` iterations. -/
structure RingOk (n k : Nat) (history corrections : List (Correction ℝ)) : Prop where
  length : history.length = 5
  count : corrections.length = k
  slots : ∀ j, j < k → k ≤ j + 5 → history[j % 5]? = corrections[j]?
  empty : ∀ j, k ≤ j → j < 5 → history[j]? = some ⟨List.replicate n 0, List.replicate n 0, 0⟩
  sized : ∀ c ∈ history, c.Sized n

theorem RingOk.start (n : Nat) : RingOk n 0 (List.replicate 5 ⟨List.replicate n 0, List.replicate n 0, 0⟩) [] := by
  refine ⟨by simp, rfl, by simp, fun j _ hj => by rw [List.getElem?_replicate, if_pos hj], fun c hc => ?_⟩
  rw [List.eq_of_mem_replicate hc]
  simp [Correction.Sized]

theorem RingOk.push {n k : Nat} {history corrections : List (Correction ℝ)} (h : RingOk n k history corrections) {c : Correction ℝ}
    (hc : c.Sized n) : RingOk n (k + 1) (history.set (k % 5) c) (corrections ++ [c]) := by
  have hl := h.length
  have hcl := h.count
  refine ⟨by simpa using hl, by simp [hcl], fun j hj hj' => ?_, fun j hj hj' => ?_, fun d hd => ?_⟩
  · by_cases hjk : j = k
    · subst hjk
      rw [List.getElem?_set_self (by omega), List.getElem?_append_right (by omega), hcl]
      simp
    · rw [List.getElem?_set_ne (by omega), h.slots j (by omega) (by omega), List.getElem?_append_left (by omega)]
  · rw [List.getElem?_set_ne (by omega)]
    exact h.empty j (by omega) hj'
  · rcases List.mem_or_eq_of_mem_set hd with h1 | rfl
    · exact h.sized d h1
    · exact hc

theorem bfgsUpdate_zero {n : Nat} (H : Matrix (Fin n) (Fin n) ℝ) :
    bfgsUpdate H (Correction.pair n ⟨List.replicate n 0, List.replicate n 0, 0⟩) = H := by
  simp [bfgsUpdate, Correction.pair]

theorem range_filterMap_getElem {α β : Type} (l : List α) (f : α → β) (a m : Nat) (h : a + m = l.length) :
    (List.range m).filterMap (fun i => (l[a + i]?).map f) = (l.drop a).map f := by
  induction m generalizing a with
  | zero => simp [List.drop_eq_nil_of_le (show l.length ≤ a by omega)]
  | succ m ih =>
    have hlt : a < l.length := by omega
    rw [List.range_succ_eq_map, List.filterMap_cons, List.drop_eq_getElem_cons hlt]
    simp only [Nat.add_zero, List.getElem?_eq_getElem hlt, Option.map_some, List.map_cons, List.filterMap_map]
    congr 1
    rw [← ih (a + 1) (by omega)]
    apply List.filterMap_congr
    intro i _
    simp [Nat.add_assoc, Nat.add_comm 1 i]

/-- The matrix of the slots read is the matrix of `usedCorrections`. -/
theorem RingOk.matrix {n k : Nat} {history corrections : List (Correction ℝ)} (h : RingOk n k history corrections) (γ : ℝ) :
    bfgsMatrix γ ((List.range (min k 5)).filterMap (fun i => (history[(k + i) % 5]?).map (Correction.pair n))) =
      bfgsMatrix γ ((usedCorrections k corrections).map (Correction.pair n)) := by
  have hcl := h.count
  by_cases hk : k < 5
  · rw [usedCorrections, if_pos hk]
    have z := fun j hj hj' => h.empty j hj hj'
    have sl := fun j hj hj' => h.slots j hj hj'
    match k, hk with
    | 0, _ => simp
    | 1, _ =>
      simp [List.range_succ, z 1 (by omega) (by omega), bfgsMatrix, bfgsUpdate_zero]
    | 2, _ =>
      simp [List.range_succ, z 2 (by omega) (by omega), z 3 (by omega) (by omega), bfgsMatrix, bfgsUpdate_zero]
    | 3, _ =>
      have := sl 0 (by omega) (by omega)
      match corrections, hcl with
      | [c0, c1, c2], _ =>
        simp at this
        simp [List.range_succ, z 3 (by omega) (by omega), z 4 (by omega) (by omega), this, bfgsMatrix, bfgsUpdate_zero]
    | 4, _ =>
      have t0 := sl 0 (by omega) (by omega)
      have t1 := sl 1 (by omega) (by omega)
      have t2 := sl 2 (by omega) (by omega)
      match corrections, hcl with
      | [c0, c1, c2, c3], _ =>
        simp at t0 t1 t2
        simp [List.range_succ, z 4 (by omega) (by omega), t0, t1, t2, bfgsMatrix, bfgsUpdate_zero]
  · rw [usedCorrections, if_neg hk, ← range_filterMap_getElem _ _ (k - 5) 5 (by omega), Nat.min_eq_right (by omega)]
    congr 1
    apply List.filterMap_congr
    intro i hi
    rw [List.mem_range] at hi
    rw [← h.slots (k - 5 + i) (by omega) (by omega)]
    have e : (k + i) % 5 = (k - 5 + i) % 5 := by omega
    rw [e]

theorem RingOk.newest {n k : Nat} {history corrections : List (Correction ℝ)} (h : RingOk n k history corrections) :
    (if k = 0 then none else (history[(k - 1) % 5]?).map (Correction.pair n)) = corrections.getLast?.map (Correction.pair n) := by
  have hcl := h.count
  by_cases hk : k = 0
  · subst hk
    rw [if_pos rfl, List.length_eq_zero_iff.1 hcl]
    rfl
  · rw [if_neg hk, h.slots (k - 1) (by omega) (by omega), List.getLast?_eq_getElem?, hcl]

/-! ## Sizes -/

theorem computeGradient_length {jacobian residuals g : List F} {n : Nat} (h : computeGradient jacobian residuals n = .ok g) :
    g.length = n := by
  have := (mapM_forall h).length_eq
  simpa using this.symm

theorem calculatePhi_length {p : Problem F} {vars direction : List F} {st : EvalState F} {t : F} {r : Param F × EvalState F}
    (h : calculatePhi p vars direction st t = .ok r) : r.2.gradient.length = st.gradient.length ∧ r.2.scratch.length = st.scratch.length := by
  rw [calculatePhi, bind_eq_ok] at h
  obtain ⟨sc, h0, h⟩ := h
  rw [bind_eq_ok] at h
  obtain ⟨rj, -, h⟩ := h
  rw [bind_eq_ok] at h
  obtain ⟨g, h1, h⟩ := h
  cases h
  refine ⟨computeGradient_length h1, ?_⟩
  refine foldlM_inv (fun s : List F => s.length = st.scratch.length) _ _ _ _ rfl (fun s i s' _ hs h2 => ?_) h0
  simp only [bind_eq_ok, setIdx_eq_ok] at h2
  obtain ⟨_, -, _, -, -, rfl⟩ := h2
  simpa using hs

end Fiksi
