import Verif.Proofs.Lbfgs
import Verif.Proofs.LineSearch
import Verif.Proofs.Settles
import Verif.Spec.Line
/-!
# The line search as a search on a function of one variable
-/
namespace Fiksi

open Spec FloatOps Matrix

/-! ## The objective along a line -/

/-- The contents the Jacobian buffer can have: zeros, or what an evaluation left. -/
inductive Problem.Buffer (p : Problem ℝ) : List ℝ → Prop
  | zero : Buffer p (List.replicate (p.numResiduals * p.numVariables) 0)
  | next {x rs jac r j : List ℝ} : Buffer p jac → x.length = p.numVariables → rs.length = p.numResiduals →
      p.denseJacobian x rs jac = .ok (r, j) → Buffer p j

/-- Along the line from `x` in the direction `d` the sum of the squared residuals is `φ`, and `Σ r_c · (J d)_c` is `ψ`. -/
def Problem.Line (p : Problem ℝ) (x d : List ℝ) (φ ψ : ℝ → ℝ) : Prop :=
  ∀ t rs jac, rs.length = p.numResiduals → jac.length = p.numResiduals * p.numVariables → p.Buffer jac →
    ∃ r j, p.denseJacobian (along x d t) rs jac = .ok (r, j) ∧ p.residuals (along x d t) = .ok r ∧ r.length = p.numResiduals ∧
      j.length = p.numResiduals * p.numVariables ∧ ∑ c ∈ Finset.range p.numResiduals, r.getD c 0 ^ 2 = φ t ∧
      ∑ c ∈ Finset.range p.numResiduals, r.getD c 0 * ∑ k ∈ Finset.range p.numVariables, j.getD (c * p.numVariables + k) 0 * d.getD k 0 = ψ t

/-- The buffers of an evaluation. -/
structure EvalState.Fresh (p : Problem ℝ) (st : EvalState ℝ) : Prop where
  sized : st.Sized p
  buffer : p.Buffer st.jacobian

/-- The buffers hold the values at `x`. -/
structure EvalState.Starts (p : Problem ℝ) (x : List ℝ) (st : EvalState ℝ) : Prop where
  sized : st.Sized p
  jacobian : ∃ rs jac, rs.length = p.numResiduals ∧ jac.length = p.numResiduals * p.numVariables ∧ p.Buffer jac ∧
    p.denseJacobian x rs jac = .ok (st.residuals, st.jacobian)
  gradient : computeGradient st.jacobian st.residuals p.numVariables = .ok st.gradient

theorem EvalState.Starts.fresh {p : Problem ℝ} {x : List ℝ} {st : EvalState ℝ} (hx : x.length = p.numVariables) (h : st.Starts p x) : st.Fresh p := by
  obtain ⟨rs, jac, h1, -, h3, h4⟩ := h.jacobian
  exact ⟨h.sized, h3.next hx h1 h4⟩

/-- A point of the line. -/
def pt (φ ψ : ℝ → ℝ) (t : ℝ) : Param ℝ := ⟨t, φ t, ψ t⟩

theorem sumSquares_range (r : List ℝ) : sumSquares r = ∑ c ∈ Finset.range r.length, r.getD c 0 ^ 2 := by
  rw [sumSquares_real]
  induction r with
  | nil => rfl
  | cons a r ih =>
    rw [List.map_cons, List.sum_cons, ih, List.length_cons, Finset.sum_range_succ']
    simp [add_comm]

theorem computeGradient_entries {jacobian residuals g : List ℝ} {n : Nat} (h : jacobian.length = residuals.length * n)
    (hg : computeGradient jacobian residuals n = .ok g) :
    ∀ i < n, g.getD i 0 = ∑ c ∈ Finset.range residuals.length, jacobian.getD (c * n + i) 0 * residuals.getD c 0 := by
  have hfold : ∀ i < n, ∀ m ≤ residuals.length, ∀ a : ℝ, (List.range m).foldlM (fun (acc : ℝ) c => do
      let j ← idx jacobian (c * n + i)
      let r ← idx residuals c
      pure (acc + j * r)) a = (.ok (a + ∑ c ∈ Finset.range m, jacobian.getD (c * n + i) 0 * residuals.getD c 0) : R ℝ) := by
    intro i hi m
    induction m with
    | zero => intro _ a; simp
    | succ m ih =>
      intro hm a
      have hlt : m * n + i < jacobian.length := by
        rw [h]
        calc m * n + i < (m + 1) * n := by rw [Nat.add_mul]; omega
          _ ≤ _ := Nat.mul_le_mul_right _ hm
      have hm' : m < residuals.length := hm
      rw [List.range_succ, List.foldlM_append, ih (by omega) a, ok_bind, List.foldlM_cons, idx_of (List.getElem?_eq_getElem hlt), ok_bind,
        idx_of (List.getElem?_eq_getElem hm'), ok_bind, Finset.sum_range_succ]
      show Except.ok _ = Except.ok _
      congr 1
      rw [List.getD_eq_getElem?_getD, List.getD_eq_getElem?_getD, List.getElem?_eq_getElem hlt, List.getElem?_eq_getElem hm']
      simp only [Option.getD_some]
      ring
  have hm : computeGradient jacobian residuals n = .ok ((List.range n).map (fun i =>
      ∑ c ∈ Finset.range residuals.length, jacobian.getD (c * n + i) 0 * residuals.getD c 0)) := by
    rw [computeGradient]
    refine mapM_ok_of _ _ _ (fun i hi => ?_)
    rw [hfold i (List.mem_range.1 hi) _ le_rfl 0, zero_add]
  rw [hm, Except.ok.injEq] at hg
  subst hg
  intro i hi
  simp [List.getD_eq_getElem?_getD, List.getElem?_map, List.getElem?_range hi]

theorem dot_range {a b : List ℝ} {n : Nat} (ha : a.length = n) (hb : b.length = n) :
    dot a b = ∑ i ∈ Finset.range n, a.getD i 0 * b.getD i 0 := by
  rw [dot_eq ha hb, Finset.sum_range]
  rfl

theorem dot_gradient {jacobian residuals g d : List ℝ} {n : Nat} (h : jacobian.length = residuals.length * n)
    (hg : computeGradient jacobian residuals n = .ok g) (hd : d.length = n) :
    dot g d = ∑ c ∈ Finset.range residuals.length, residuals.getD c 0 * ∑ k ∈ Finset.range n, jacobian.getD (c * n + k) 0 * d.getD k 0 := by
  rw [dot_range (computeGradient_length hg) hd]
  calc _ = ∑ i ∈ Finset.range n, ∑ c ∈ Finset.range residuals.length, residuals.getD c 0 * (jacobian.getD (c * n + i) 0 * d.getD i 0) := by
        refine Finset.sum_congr rfl (fun i hi => ?_)
        rw [computeGradient_entries h hg i (Finset.mem_range.1 hi), Finset.sum_mul]
        exact Finset.sum_congr rfl (fun c _ => by ring)
    _ = _ := by
        rw [Finset.sum_comm]
        exact Finset.sum_congr rfl (fun c _ => by rw [Finset.mul_sum])

theorem Problem.Line.eval_starts {p : Problem ℝ} {x d : List ℝ} {φ ψ : ℝ → ℝ} (h : p.Line x d φ ψ) (hx : x.length = p.numVariables)
    (hd : d.length = p.numVariables) {st : EvalState ℝ} (hst : st.Fresh p) (t : ℝ) :
    ∃ st', calculatePhi p x d st t = .ok (pt φ ψ t, st') ∧ st'.Starts p (along x d t) := by
  have hl : (along x d t).length = p.numVariables := by simp [along, hx, hd]
  have h1 := scratch_fold (t := t) hx hd p.numVariables le_rfl st.scratch hst.sized.scratch
  rw [List.take_of_length_le (by omega), List.drop_eq_nil_of_le (by rw [hst.sized.scratch]), List.append_nil] at h1
  obtain ⟨r, j, h2, h3, h4, h5, h6, h7⟩ := h t st.residuals st.jacobian hst.sized.residuals hst.sized.jacobian hst.buffer
  have hj : j.length = r.length * p.numVariables := by rw [h4, h5]
  obtain ⟨g, h8, h9⟩ := computeGradient_ok hj
  refine ⟨⟨along x d t, j, r, g⟩, ?_, ⟨hl, h5, h4, h9⟩, ⟨_, _, hst.sized.residuals, hst.sized.jacobian, hst.buffer, h2⟩, h8⟩
  rw [calculatePhi, hx, h1, ok_bind, h2, ok_bind, hst.sized.gradient, h8]
  show Except.ok _ = Except.ok _
  have e1 : sumSquares r = φ t := by rw [sumSquares_range, h4, h6]
  have e2 : dot g d = ψ t := by rw [dot_gradient hj h8 hd, h4, h7]
  rw [e1, e2]
  rfl

theorem Problem.Line.eval {p : Problem ℝ} {x d : List ℝ} {φ ψ : ℝ → ℝ} (h : p.Line x d φ ψ) (hx : x.length = p.numVariables)
    (hd : d.length = p.numVariables) {st : EvalState ℝ} (hst : st.Fresh p) (t : ℝ) :
    ∃ st', calculatePhi p x d st t = .ok (pt φ ψ t, st') ∧ st'.Fresh p := by
  obtain ⟨st', h1, h2⟩ := h.eval_starts hx hd hst t
  exact ⟨st', h1, h2.fresh (by simp [along, hx, hd])⟩

/-! ## Comparisons and constants in exact arithmetic -/

theorem leB_iff {a b : ℝ} : leB a b = true ↔ a ≤ b := by
  constructor
  · intro h
    simp only [leB, ltB, eqB, Bool.or_eq_true, decide_eq_true_eq] at h
    rcases h with h | h
    · exact le_of_lt h
    · exact le_of_eq h
  · intro h
    rcases h.lt_or_eq with h | h <;> simp [leB, ltB, eqB, h]

theorem ltB_iff {a b : ℝ} : ltB a b = true ↔ a < b := by simp [ltB]

theorem eqB_real {a b : ℝ} : eqB a b = true ↔ a = b := by simp [eqB]

theorem ratio_real (a b : Nat) : (ratio a b : ℝ) = a / b := by simp [ratio, FloatOps.ofNat]

theorem ofNat_real (a : Nat) : (FloatOps.ofNat a : ℝ) = a := by simp [FloatOps.ofNat]

/-- The step is accepted: `ψ` is half the derivative of `φ`. -/
def Accepted (φ ψ : ℝ → ℝ) (t : ℝ) : Prop :=
  Wolfe φ (fun s => 2 * ψ s) (1 / 20000) (9 / 10) t ∨ ApproxWolfe φ (fun s => 2 * ψ s) (1 / 10000) (9 / 10) (1 / 10 ^ 6) t

theorem satisfiesWolfe_iff {φ ψ : ℝ → ℝ} {t : ℝ} : satisfiesWolfe (φ 0) (ψ 0) (pt φ ψ t) = true ↔ Accepted φ ψ t := by
  simp only [satisfiesWolfe, Bool.or_eq_true, Bool.and_eq_true, leB_iff, pt, ratio_real, ofNat_real, Accepted, Wolfe, ApproxWolfe]
  push_cast
  constructor
  · rintro (⟨h1, h2⟩ | ⟨⟨h1, h2⟩, h3⟩)
    · exact .inl ⟨by linarith, by linarith⟩
    · exact .inr ⟨by linarith, by linarith, by linarith⟩
  · rintro (⟨h1, h2⟩ | ⟨h1, h2, h3⟩)
    · exact .inl ⟨by linarith, by linarith⟩
    · exact .inr ⟨⟨by linarith, by linarith⟩, by linarith⟩

/-! ## Results for every large enough loop bound -/

/-- From some loop bound on the result is one with `P`. -/
def Returns {α : Type} (P : α → Prop) (f : Nat → R α) : Prop := ∃ r, P r ∧ Settles f (.ok r)

theorem Returns.of {α : Type} {P : α → Prop} {r : α} (h : P r) : Returns P (fun _ => .ok r) := ⟨r, h, .const _⟩

theorem Returns.bind {α β : Type} {P : α → Prop} {Q : β → Prop} {f : Nat → R α} {g : Nat → α → R β} (hf : Returns P f)
    (hg : ∀ a, P a → Returns Q (fun n => g n a)) : Returns Q (fun n => f n >>= g n) := by
  obtain ⟨a, ha, k, hk⟩ := hf
  obtain ⟨b, hb, k', hk'⟩ := hg a ha
  refine ⟨b, hb, max k k', fun n hn => ?_⟩
  simp only [hk n (by omega), ok_bind]
  exact hk' n (by omega)

theorem Returns.mono {α : Type} {P Q : α → Prop} {f : Nat → R α} (hf : Returns P f) (h : ∀ a, P a → Q a) : Returns Q f := by
  obtain ⟨a, ha, hk⟩ := hf
  exact ⟨a, h a ha, hk⟩

/-! ## The bisection of `update` -/

/-- A round of the bisection. -/
noncomputable def halve (φ : ℝ → ℝ) (l : ℝ) (s : ℝ × ℝ) : ℝ × ℝ :=
  if φ ((s.1 + s.2) / 2) ≤ l then ((s.1 + s.2) / 2, s.2) else (s.1, (s.1 + s.2) / 2)

/-- The interval after `n` rounds. -/
noncomputable def halves (φ : ℝ → ℝ) (l : ℝ) (s : ℝ × ℝ) : Nat → ℝ × ℝ
  | 0 => s
  | n + 1 => halve φ l (halves φ l s n)

theorem halves_succ' (φ : ℝ → ℝ) (l : ℝ) (s : ℝ × ℝ) (n : Nat) : halves φ l s (n + 1) = halves φ l (halve φ l s) n := by
  induction n with
  | zero => rfl
  | succ n ih => rw [halves, ih]; rfl

theorem halves_spec {φ : ℝ → ℝ} {l : ℝ} {s : ℝ × ℝ} (h1 : s.1 ≤ s.2) (h2 : φ s.1 ≤ l) (h3 : l < φ s.2) (n : Nat) :
    (halves φ l s n).1 ≤ (halves φ l s n).2 ∧ φ (halves φ l s n).1 ≤ l ∧ l < φ (halves φ l s n).2 ∧
    (halves φ l s n).2 - (halves φ l s n).1 = (s.2 - s.1) / 2 ^ n ∧
    (halves φ l s n).1 ≤ (halves φ l s (n + 1)).1 ∧ (halves φ l s (n + 1)).2 ≤ (halves φ l s n).2 := by
  have step : ∀ q : ℝ × ℝ, q.1 ≤ q.2 → q.1 ≤ (halve φ l q).1 ∧ (halve φ l q).2 ≤ q.2 := by
    intro q hq
    unfold halve
    split
    · exact ⟨by simp only; linarith, le_rfl⟩
    · exact ⟨le_rfl, by simp only; linarith⟩
  induction n with
  | zero => exact ⟨h1, h2, h3, by simp [halves], step s h1⟩
  | succ n ih =>
    obtain ⟨i1, i2, i3, i4, -⟩ := ih
    have key : (halve φ l (halves φ l s n)).1 ≤ (halve φ l (halves φ l s n)).2 ∧ φ (halve φ l (halves φ l s n)).1 ≤ l ∧
        l < φ (halve φ l (halves φ l s n)).2 ∧
        (halve φ l (halves φ l s n)).2 - (halve φ l (halves φ l s n)).1 = (s.2 - s.1) / 2 ^ (n + 1) := by
      have e : (s.2 - s.1) / 2 ^ (n + 1) = ((halves φ l s n).2 - (halves φ l s n).1) / 2 := by rw [i4, pow_succ]; field_simp
      rw [e]
      unfold halve
      split
      case isTrue hc => exact ⟨by simp only; linarith, hc, i3, by simp only; ring⟩
      case isFalse hc => exact ⟨by simp only; linarith, i2, not_le.1 hc, by simp only; ring⟩
    exact ⟨key.1, key.2.1, key.2.2.1, key.2.2.2, step _ key.1⟩

/-- On a tame line the bisection meets a slope that is not negative. -/
theorem halves_stop {φ ψ : ℝ → ℝ} {l a b : ℝ} (hab : a ≤ b) (ht : Tame φ ψ a b) (ha : φ a ≤ l) (hb : l < φ b) (hs : ψ b < 0) :
    ∃ n, 0 ≤ ψ (((halves φ l (a, b) n).1 + (halves φ l (a, b) n).2) / 2) := by
  by_contra hno
  push Not at hno
  have hspec := halves_spec (s := (a, b)) hab ha hb
  set A := fun n => (halves φ l (a, b) n).1 with hA
  set B := fun n => (halves φ l (a, b) n).2 with hB
  have hmono : Monotone A := monotone_nat_of_le_succ (fun n => (hspec n).2.2.2.2.1)
  have hanti : Antitone B := antitone_nat_of_succ_le (fun n => (hspec n).2.2.2.2.2)
  have hAB : ∀ m n, A m ≤ B n := fun m n =>
    (hmono (le_max_left m n)).trans ((hspec (max m n)).1.trans (hanti (le_max_right m n)))
  have hsB : ∀ n, ψ (B n) < 0 := by
    intro n
    induction n with
    | zero => exact hs
    | succ n ih =>
      show ψ (halve φ l (halves φ l (a, b) n)).2 < 0
      unfold halve
      split
      · exact ih
      · exact hno n
  have hbdd : BddAbove (Set.range A) := ⟨b, by rintro _ ⟨n, rfl⟩; exact hAB n 0⟩
  have htend : Filter.Tendsto A Filter.atTop (nhds (⨆ n, A n)) := tendsto_atTop_ciSup hmono hbdd
  set t := ⨆ n, A n with htd
  have hAt : ∀ n, A n ≤ t := fun n => le_ciSup hbdd n
  have htB : ∀ n, t ≤ B n := fun n => ciSup_le (fun m => hAB m n)
  have hin : t ∈ Set.Icc a b := ⟨hAt 0, htB 0⟩
  have hφt : φ t ≤ l := by
    have h1 : Filter.Tendsto A Filter.atTop (nhdsWithin t (Set.Icc a b)) :=
      tendsto_nhdsWithin_iff.2 ⟨htend, Filter.Eventually.of_forall (fun n => ⟨hmono (Nat.zero_le n), hAB n 0⟩)⟩
    exact le_of_tendsto ((ht.cont t hin).tendsto.comp h1) (Filter.Eventually.of_forall (fun n => (hspec n).2.1))
  have htB' : ∀ n, t < B n := by
    intro n
    refine lt_of_le_of_ne (htB n) (fun he => ?_)
    have := (hspec n).2.2.1
    rw [show (halves φ l (a, b) n).2 = t from he.symm] at this
    linarith
  obtain ⟨s, hst, hside⟩ := ht.side t ⟨hin.1, htB' 0⟩
  obtain ⟨n, hn⟩ := exists_pow_lt_of_lt_one (show 0 < (s - t) / (b - a + 1) by
    apply div_pos <;> linarith) (show (1 / 2 : ℝ) < 1 by norm_num)
  have hlt : B n < s := by
    have h1 : B n - A n = (b - a) / 2 ^ n := (hspec n).2.2.2.1
    have h2 := hAt n
    have h3 : (b - a) / 2 ^ n < s - t := by
      rw [lt_div_iff₀ (by linarith)] at hn
      have h4 : (b - a) / 2 ^ n = (1 / 2) ^ n * (b - a) := by rw [one_div, inv_pow]; ring
      have h5 : (0 : ℝ) < (1 / 2) ^ n := by positivity
      rw [h4]
      nlinarith
    linarith
  rcases hside with h | h
  · exact absurd (h (B n) ⟨htB' n, hlt⟩) (not_le.2 (hsB n))
  · have := h (B n) ⟨htB' n, hlt⟩
    have := (hspec n).2.2.1
    exact absurd this (not_lt.2 (by linarith))

/-! ## The search -/

section
variable {p : Problem ℝ} {x d : List ℝ} {φ ψ : ℝ → ℝ} (hline : p.Line x d φ ψ) (hx : x.length = p.numVariables)
  (hd : d.length = p.numVariables)
include hline hx hd

/-- What `update` returns: a part of the interval, whose left end is not above the start. -/
def Bracketed (p : Problem ℝ) (φ ψ : ℝ → ℝ) (a b : ℝ) (r : (Param ℝ × Param ℝ) × EvalState ℝ) : Prop :=
  ∃ a' b', r.1 = (pt φ ψ a', pt φ ψ b') ∧ r.2.Fresh p ∧ a ≤ a' ∧ a' ≤ b' ∧ b' ≤ b ∧ φ a' ≤ φ 0 + 1 / 10 ^ 6

theorem updateLoop_returns : ∀ (n : Nat) {st : EvalState ℝ}, st.Fresh p → ∀ {a b : ℝ}, a ≤ b → φ a ≤ φ 0 + 1 / 10 ^ 6 →
    0 ≤ ψ (((halves φ (φ 0 + 1 / 10 ^ 6) (a, b) n).1 + (halves φ (φ 0 + 1 / 10 ^ 6) (a, b) n).2) / 2) →
    Returns (Bracketed p φ ψ a b) (fun fuel => updateLoop p x d (φ 0) fuel st (pt φ ψ a) (pt φ ψ b)) := by
  have hmid : ∀ a b : ℝ, (1 - ratio 5 10) * (pt φ ψ a).p + ratio 5 10 * (pt φ ψ b).p = (a + b) / 2 := by
    intro a b
    rw [ratio_real, pt, pt]
    push_cast
    ring
  have hε : (ratio 1 (10 ^ 6) : ℝ) = 1 / 10 ^ 6 := by rw [ratio_real]; norm_num
  have hsucc : ∀ {st : EvalState ℝ}, st.Fresh p → ∀ a b : ℝ, ∃ st', st'.Fresh p ∧ ∀ fuel,
      updateLoop p x d (φ 0) (fuel + 1) st (pt φ ψ a) (pt φ ψ b) =
      if 0 ≤ ψ ((a + b) / 2) then .ok ((pt φ ψ a, pt φ ψ ((a + b) / 2)), st')
      else if φ ((a + b) / 2) ≤ φ 0 + 1 / 10 ^ 6 then updateLoop p x d (φ 0) fuel st' (pt φ ψ ((a + b) / 2)) (pt φ ψ b)
      else updateLoop p x d (φ 0) fuel st' (pt φ ψ a) (pt φ ψ ((a + b) / 2)) := by
    intro st hst a b
    obtain ⟨st', h1, h2⟩ := hline.eval hx hd hst ((a + b) / 2)
    refine ⟨st', h2, fun fuel => ?_⟩
    rw [updateLoop, hmid, h1, ok_bind]
    simp only [leB_iff, hε]
    rfl
  intro n
  induction n with
  | zero =>
    intro st hst a b hab ha hstop
    obtain ⟨st', h2, h⟩ := hsucc hst a b
    refine ⟨((pt φ ψ a, pt φ ψ ((a + b) / 2)), st'), ⟨a, (a + b) / 2, rfl, h2, le_rfl, by linarith, by linarith, ha⟩, 1, fun n hn => ?_⟩
    obtain ⟨m, rfl⟩ := Nat.exists_eq_add_of_le' hn
    simp only
    rw [h m, if_pos (show 0 ≤ ψ ((a + b) / 2) from hstop)]
  | succ n ih =>
    intro st hst a b hab ha hstop
    obtain ⟨st', h2, h⟩ := hsucc hst a b
    by_cases hm : 0 ≤ ψ ((a + b) / 2)
    · refine ⟨((pt φ ψ a, pt φ ψ ((a + b) / 2)), st'), ⟨a, (a + b) / 2, rfl, h2, le_rfl, by linarith, by linarith, ha⟩, 1, fun n hn => ?_⟩
      obtain ⟨m, rfl⟩ := Nat.exists_eq_add_of_le' hn
      simp only
      rw [h m, if_pos hm]
    · rw [halves_succ', halve] at hstop
      by_cases hl : φ ((a + b) / 2) ≤ φ 0 + 1 / 10 ^ 6
      · rw [if_pos hl] at hstop
        obtain ⟨r, ⟨a', b', e1, e2, e3, e4, e5, e6⟩, k, hk⟩ := ih h2 (a := (a + b) / 2) (b := b) (by linarith) hl hstop
        refine ⟨r, ⟨a', b', e1, e2, by linarith, e4, e5, e6⟩, k + 1, fun n hn => ?_⟩
        obtain ⟨m, rfl⟩ := Nat.exists_eq_add_of_le' (show 1 ≤ n by omega)
        simp only
        rw [h m, if_neg hm, if_pos hl]
        exact hk m (by omega)
      · rw [if_neg hl] at hstop
        obtain ⟨r, ⟨a', b', e1, e2, e3, e4, e5, e6⟩, k, hk⟩ := ih h2 (a := a) (b := (a + b) / 2) (by linarith) ha hstop
        refine ⟨r, ⟨a', b', e1, e2, e3, e4, by linarith, e6⟩, k + 1, fun n hn => ?_⟩
        obtain ⟨m, rfl⟩ := Nat.exists_eq_add_of_le' (show 1 ≤ n by omega)
        simp only
        rw [h m, if_neg hm, if_neg hl]
        exact hk m (by omega)

omit hline hx hd in
theorem Spec.Tame.mono {φ ψ : ℝ → ℝ} {a b a' b' : ℝ} (h : Tame φ ψ a b) (ha : a ≤ a') (hb : b' ≤ b) : Tame φ ψ a' b' :=
  ⟨h.cont.mono (Set.Icc_subset_Icc ha hb), fun t ht => h.side t ⟨ha.trans ht.1, ht.2.trans_le hb⟩⟩

omit hline hx hd in
theorem update_eq (fuel : Nat) (st : EvalState ℝ) (a b c : ℝ) :
    update p x d (φ 0) fuel st (pt φ ψ a) (pt φ ψ b) (pt φ ψ c) =
      if c < a ∨ b < c then .ok ((pt φ ψ a, pt φ ψ b), st)
      else if 0 ≤ ψ c then .ok ((pt φ ψ a, pt φ ψ c), st)
      else if φ c ≤ φ 0 + 1 / 10 ^ 6 then .ok ((pt φ ψ c, pt φ ψ b), st)
      else updateLoop p x d (φ 0) fuel st (pt φ ψ a) (pt φ ψ c) := by
  have hε : (ratio 1 (10 ^ 6) : ℝ) = 1 / 10 ^ 6 := by rw [ratio_real]; norm_num
  rw [update]
  simp only [Bool.or_eq_true, ltB_iff, leB_iff, hε]
  rfl

theorem update_returns {st : EvalState ℝ} (hst : st.Fresh p) {a b : ℝ} (c : ℝ) (hab : a ≤ b) (ha : φ a ≤ φ 0 + 1 / 10 ^ 6)
    (ht : Tame φ ψ a b) :
    Returns (Bracketed p φ ψ a b) (fun fuel => update p x d (φ 0) fuel st (pt φ ψ a) (pt φ ψ b) (pt φ ψ c)) := by
  simp only [update_eq]
  by_cases h1 : c < a ∨ b < c
  · simp only [if_pos h1]
    exact .of ⟨a, b, rfl, hst, le_rfl, hab, le_rfl, ha⟩
  · simp only [if_neg h1]
    push Not at h1
    by_cases h2 : 0 ≤ ψ c
    · simp only [if_pos h2]
      exact .of ⟨a, c, rfl, hst, le_rfl, h1.1, h1.2, ha⟩
    · simp only [if_neg h2]
      by_cases h3 : φ c ≤ φ 0 + 1 / 10 ^ 6
      · simp only [if_pos h3]
        exact .of ⟨c, b, rfl, hst, h1.1, h1.2, le_rfl, h3⟩
      · simp only [if_neg h3]
        obtain ⟨n, hn⟩ := halves_stop h1.1 (ht.mono le_rfl h1.2) ha (not_le.1 h3) (not_le.1 h2)
        exact (updateLoop_returns hline hx hd n hst h1.1 ha hn).mono (fun r ⟨a', b', e1, e2, e3, e4, e5, e6⟩ =>
          ⟨a', b', e1, e2, e3, e4, by linarith [h1.2], e6⟩)

/-- What `secant2` returns. -/
def Bracketed2 (p : Problem ℝ) (x d : List ℝ) (φ ψ : ℝ → ℝ) (a b : ℝ) (r : HzResult ℝ (Param ℝ × Param ℝ) × EvalState ℝ) : Prop :=
  match r.1 with
  | .satisfied c => ∃ t, c = pt φ ψ t ∧ r.2.Starts p (along x d t) ∧ Accepted φ ψ t
  | .unsatisfied ab => Bracketed p φ ψ a b (ab, r.2)

theorem secondSecant_returns {st : EvalState ℝ} (hst : st.Fresh p) {a b : ℝ} (t : ℝ) (hab : a ≤ b) (ha : φ a ≤ φ 0 + 1 / 10 ^ 6)
    (ht : Tame φ ψ a b) :
    Returns (Bracketed2 p x d φ ψ a b) (fun fuel => secondSecant p x d (φ 0) (ψ 0) fuel st (pt φ ψ a) (pt φ ψ b) t) := by
  obtain ⟨st', h1, h2⟩ := hline.eval_starts hx hd hst t
  simp only [secondSecant, h1, ok_bind]
  by_cases hw : satisfiesWolfe (φ 0) (ψ 0) (pt φ ψ t) = true
  · simp only [if_pos hw]
    exact .of ⟨t, rfl, h2, satisfiesWolfe_iff.1 hw⟩
  · simp only [if_neg hw]
    exact (update_returns hline hx hd (h2.fresh (by simp [along, hx, hd])) t hab ha ht).bind (fun r hr => .of hr)

theorem secant2_returns {st : EvalState ℝ} (hst : st.Fresh p) {a b : ℝ} (hab : a ≤ b) (ha : φ a ≤ φ 0 + 1 / 10 ^ 6)
    (ht : Tame φ ψ a b) :
    Returns (Bracketed2 p x d φ ψ a b) (fun fuel => secant2 p x d (φ 0) (ψ 0) fuel st (pt φ ψ a) (pt φ ψ b)) := by
  obtain ⟨st', h1, h2⟩ := hline.eval_starts hx hd hst (secant (pt φ ψ a) (pt φ ψ b))
  simp only [secant2, h1, ok_bind]
  by_cases hw : satisfiesWolfe (φ 0) (ψ 0) (pt φ ψ (secant (pt φ ψ a) (pt φ ψ b))) = true
  · simp only [if_pos hw]
    exact .of ⟨_, rfl, h2, satisfiesWolfe_iff.1 hw⟩
  · simp only [if_neg hw]
    refine (update_returns hline hx hd (h2.fresh (by simp [along, hx, hd])) _ hab ha ht).bind (fun r hr => ?_)
    obtain ⟨⟨a_, b_⟩, st2⟩ := r
    obtain ⟨a', b', e1, e2, e3, e4, e5, e6⟩ := hr
    simp only [Prod.mk.injEq] at e1
    obtain ⟨rfl, rfl⟩ := e1
    have hwide : ∀ r, Bracketed2 p x d φ ψ a' b' r → Bracketed2 p x d φ ψ a b r := by
      rintro ⟨r1, r2⟩ hr
      cases r1 with
      | satisfied c => exact hr
      | unsatisfied ab =>
        obtain ⟨a'', b'', f1, f2, f3, f4, f5, f6⟩ := hr
        exact ⟨a'', b'', f1, f2, by linarith, f4, by linarith, f6⟩
    simp only
    split
    · exact (secondSecant_returns hline hx hd e2 _ e4 e6 (ht.mono e3 e5)).mono hwide
    · split
      · exact (secondSecant_returns hline hx hd e2 _ e4 e6 (ht.mono e3 e5)).mono hwide
      · exact .of ⟨a', b', rfl, e2, e3, e4, e5, e6⟩

theorem search_returns : ∀ (n : Nat) {st : EvalState ℝ}, st.Fresh p → ∀ {a b c : ℝ}, a ≤ b → φ a ≤ φ 0 + 1 / 10 ^ 6 → Tame φ ψ a b →
    Returns (fun r => ∃ t, r.1 = pt φ ψ t ∧ r.2.Starts p (along x d t))
      (fun fuel => search p x d (φ 0) (ψ 0) fuel n st (pt φ ψ a) (pt φ ψ b) (pt φ ψ c)) := by
  intro n
  induction n with
  | zero =>
    intro st hst a b c hab ha ht
    obtain ⟨st', h1, h2⟩ := hline.eval_starts hx hd hst (pt φ ψ c).p
    simp only [search, h1, ok_bind]
    exact .of ⟨c, rfl, h2⟩
  | succ n ih =>
    intro st hst a b c hab ha ht
    simp only [search]
    refine (secant2_returns hline hx hd hst hab ha ht).bind (fun r hr => ?_)
    obtain ⟨r1, st1⟩ := r
    cases r1 with
    | satisfied c1 =>
      obtain ⟨t, rfl, h1, -⟩ := hr
      exact .of ⟨t, rfl, h1⟩
    | unsatisfied ab =>
      obtain ⟨a', b', e1, e2, e3, e4, e5, e6⟩ := hr
      simp only at e1 e2
      subst e1
      simp only
      split
      · obtain ⟨st', h1, h2⟩ := hline.eval_starts hx hd e2 (ratio 5 10 * ((pt φ ψ a).p + (pt φ ψ b).p))
        simp only [h1, ok_bind]
        split
        · exact .of ⟨_, rfl, h2⟩
        · refine (update_returns hline hx hd (h2.fresh (by simp [along, hx, hd])) _ hab ha ht).bind (fun r hr => ?_)
          obtain ⟨ab, st2⟩ := r
          obtain ⟨a'', b'', f1, f2, f3, f4, f5, f6⟩ := hr
          simp only at f1 f2
          subst f1
          exact ih f2 f4 f6 (ht.mono f3 f5)
      · exact ih e2 e4 e6 (ht.mono e3 e5)

theorem lineSearch_returns {st : EvalState ℝ} (hst : st.Fresh p) (hg : dot st.gradient d = ψ 0) (ht : Tame φ ψ 0 5) :
    Returns (fun r => ∃ t, r.1 = pt φ ψ t ∧ r.2.Starts p (along x d t)) (fun fuel => lineSearch p x d (φ 0) fuel st) := by
  obtain ⟨st', h1, h2⟩ := hline.eval_starts hx hd hst 1
  obtain ⟨st2, h3, h4⟩ := hline.eval hx hd (h2.fresh (by simp [along, hx, hd])) (FloatOps.ofNat 5)
  simp only [lineSearch, lineSearchRun, h1, ok_bind, hg]
  split
  · exact .of ⟨1, rfl, h2⟩
  · simp only [h3, ok_bind]
    refine search_returns hline hx hd 100 h4 (a := 0) ?_ (by norm_num) ?_
    · rw [ofNat_real]; norm_num
    · rw [ofNat_real]; exact ht

/-! ## Convex lines -/

/-- An interval whose left end has a slope that is too steep, and whose right end has one that is not negative. -/
structure Straddles (ψ : ℝ → ℝ) (a b : ℝ) : Prop where
  lower : 0 ≤ a
  upper : b ≤ 5
  le : a ≤ b
  left : ψ a < 9 / 10 * ψ 0
  right : 0 ≤ ψ b

omit hline hx hd in
theorem update_convex (hdown : ∀ t, 0 ≤ t → t ≤ 5 → ψ t ≤ 0 → φ t ≤ φ 0) (h0 : ψ 0 < 0) {a b c : ℝ} (hab : Straddles ψ a b)
    (hc : ¬ Accepted φ ψ c) (fuel : Nat) (st : EvalState ℝ) :
    ∃ a' b', update p x d (φ 0) fuel st (pt φ ψ a) (pt φ ψ b) (pt φ ψ c) = .ok ((pt φ ψ a', pt φ ψ b'), st) ∧ Straddles ψ a' b' ∧
      a ≤ a' ∧ b' ≤ b ∧ (a ≤ c → c ≤ b → a' = c ∨ b' = c) := by
  rw [update_eq]
  by_cases h1 : c < a ∨ b < c
  · rw [if_pos h1]
    refine ⟨a, b, rfl, hab, le_rfl, le_rfl, fun h2 h3 => ?_⟩
    rcases h1 with h1 | h1 <;> linarith
  · rw [if_neg h1]
    push Not at h1
    by_cases h2 : 0 ≤ ψ c
    · rw [if_pos h2]
      exact ⟨a, c, rfl, ⟨hab.lower, h1.2.trans hab.upper, h1.1, hab.left, h2⟩, le_rfl, h1.2, fun _ _ => .inr rfl⟩
    · have h3 : φ c ≤ φ 0 := hdown c (hab.lower.trans h1.1) (h1.2.trans hab.upper) (not_le.1 h2).le
      rw [if_neg h2, if_pos (by have : (0 : ℝ) ≤ 1 / 10 ^ 6 := by positivity
                                linarith)]
      refine ⟨c, b, rfl, ⟨hab.lower.trans h1.1, hab.upper, h1.2, ?_, hab.right⟩, h1.1, le_rfl, fun _ _ => .inl rfl⟩
      by_contra h4
      refine hc (.inr ⟨?_, ?_, ?_⟩)
      · have : (0 : ℝ) ≤ 1 / 10 ^ 6 := by positivity
        linarith
      · push Not at h2
        simp only
        nlinarith
      · push Not at h4
        simp only
        linarith

theorem secant2_convex (hdown : ∀ t, 0 ≤ t → t ≤ 5 → ψ t ≤ 0 → φ t ≤ φ 0) (h0 : ψ 0 < 0) {a b : ℝ} (hab : Straddles ψ a b)
    (fuel : Nat) {st : EvalState ℝ} (hst : st.Fresh p) :
    ∃ r st', secant2 p x d (φ 0) (ψ 0) fuel st (pt φ ψ a) (pt φ ψ b) = .ok (r, st') ∧ st'.Fresh p ∧
      ((∃ t, r = .satisfied (pt φ ψ t) ∧ Accepted φ ψ t) ∨
        ∃ a' b', r = .unsatisfied (pt φ ψ a', pt φ ψ b') ∧ Straddles ψ a' b' ∧ a ≤ a' ∧ b' ≤ b) := by
  obtain ⟨st', h1, h2⟩ := hline.eval hx hd hst (secant (pt φ ψ a) (pt φ ψ b))
  rw [secant2, h1, ok_bind]
  simp only
  by_cases hw : satisfiesWolfe (φ 0) (ψ 0) (pt φ ψ (secant (pt φ ψ a) (pt φ ψ b))) = true
  · rw [if_pos hw]
    exact ⟨_, st', rfl, h2, .inl ⟨_, rfl, satisfiesWolfe_iff.1 hw⟩⟩
  · rw [if_neg hw]
    obtain ⟨a', b', h3, h4, h5, h6, -⟩ := update_convex (p := p) (x := x) (d := d) hdown h0 hab (fun h => hw (satisfiesWolfe_iff.2 h)) fuel st'
    rw [h3, ok_bind]
    simp only
    have hsecond : ∀ t, ∃ r st'', secondSecant p x d (φ 0) (ψ 0) fuel st' (pt φ ψ a') (pt φ ψ b') t = .ok (r, st'') ∧ st''.Fresh p ∧
        ((∃ t, r = .satisfied (pt φ ψ t) ∧ Accepted φ ψ t) ∨
          ∃ a' b', r = .unsatisfied (pt φ ψ a', pt φ ψ b') ∧ Straddles ψ a' b' ∧ a ≤ a' ∧ b' ≤ b) := by
      intro t
      obtain ⟨st2, g1, g2⟩ := hline.eval hx hd h2 t
      rw [secondSecant, g1, ok_bind]
      simp only
      by_cases hw : satisfiesWolfe (φ 0) (ψ 0) (pt φ ψ t) = true
      · rw [if_pos hw]
        exact ⟨_, st2, rfl, g2, .inl ⟨_, rfl, satisfiesWolfe_iff.1 hw⟩⟩
      · rw [if_neg hw]
        obtain ⟨a2, b2, q3, q4, q5, q6, -⟩ := update_convex (p := p) (x := x) (d := d) hdown h0 h4 (fun h => hw (satisfiesWolfe_iff.2 h)) fuel st2
        rw [q3, ok_bind]
        exact ⟨_, st2, rfl, g2, .inr ⟨a2, b2, rfl, q4, h5.trans q5, q6.trans h6⟩⟩
    split
    · exact hsecond _
    · split
      · exact hsecond _
      · exact ⟨_, st', rfl, h2, .inr ⟨a', b', rfl, h4, h5, h6⟩⟩

theorem search_convex (hdown : ∀ t, 0 ≤ t → t ≤ 5 → ψ t ≤ 0 → φ t ≤ φ 0) (h0 : ψ 0 < 0) {K : ℝ} (hK : 0 ≤ K)
    (hlip : ∀ s t, 0 ≤ s → s ≤ t → t ≤ 5 → ψ t - ψ s ≤ K * (t - s)) (fuel : Nat) :
    ∀ (n : Nat) {st : EvalState ℝ}, st.Fresh p → ∀ {a b c : ℝ}, Straddles ψ a b → K * ((66 / 100) ^ n * (b - a)) ≤ 9 / 10 * -ψ 0 →
    ∃ t st', search p x d (φ 0) (ψ 0) fuel n st (pt φ ψ a) (pt φ ψ b) (pt φ ψ c) = .ok (pt φ ψ t, st') ∧ Accepted φ ψ t := by
  intro n
  induction n with
  | zero =>
    intro st hst a b c hab hn
    have h1 := hlip a b hab.lower hab.le hab.upper
    have h2 := hab.left
    have h3 := hab.right
    simp only [pow_zero, one_mul] at hn
    linarith
  | succ n ih =>
    intro st hst a b c hab hn
    have hpow : (0 : ℝ) ≤ (66 / 100) ^ n := by positivity
    obtain ⟨r, st', h1, h2, h3⟩ := secant2_convex hline hx hd hdown h0 hab fuel hst
    rw [search, h1, ok_bind]
    rcases h3 with ⟨t, rfl, ht⟩ | ⟨a', b', rfl, h4, h5, h6⟩
    · exact ⟨t, st', rfl, ht⟩
    · simp only [ltB_iff]
      by_cases hshort : ratio 66 100 * ((pt φ ψ b).p - (pt φ ψ a).p) < (pt φ ψ b').p - (pt φ ψ a').p
      · rw [if_pos hshort]
        have hmid : (ratio 5 10 * ((pt φ ψ a).p + (pt φ ψ b).p) : ℝ) = (a + b) / 2 := by
          rw [ratio_real, pt, pt]; push_cast; ring
        obtain ⟨st2, g1, g2⟩ := hline.eval hx hd h2 ((a + b) / 2)
        rw [hmid, g1, ok_bind]
        simp only
        by_cases hw : satisfiesWolfe (φ 0) (ψ 0) (pt φ ψ ((a + b) / 2)) = true
        · rw [if_pos hw]
          exact ⟨_, st2, rfl, satisfiesWolfe_iff.1 hw⟩
        · rw [if_neg hw]
          obtain ⟨a2, b2, q3, q4, q5, q6, q7⟩ :=
            update_convex (p := p) (x := x) (d := d) hdown h0 hab (fun h => hw (satisfiesWolfe_iff.2 h)) fuel st2
          rw [q3, ok_bind]
          have hle := hab.le
          refine ih g2 q4 (le_trans (mul_le_mul_of_nonneg_left ?_ hK) hn)
          rw [pow_succ, mul_assoc]
          refine mul_le_mul_of_nonneg_left ?_ hpow
          rcases q7 (by linarith) (by linarith) with e | e <;> rw [e] <;> linarith
      · rw [if_neg hshort]
        refine ih h2 h4 (le_trans (mul_le_mul_of_nonneg_left ?_ hK) hn)
        rw [pow_succ, mul_assoc]
        refine mul_le_mul_of_nonneg_left ?_ hpow
        have e : (ratio 66 100 : ℝ) = 66 / 100 := by rw [ratio_real]; norm_num
        rw [e] at hshort
        exact not_lt.1 hshort

theorem lineSearch_convex (hdown : ∀ t, 0 ≤ t → t ≤ 5 → ψ t ≤ 0 → φ t ≤ φ 0) (h0 : ψ 0 < 0) (h5 : 0 ≤ ψ 5) {K : ℝ} (hK : 0 ≤ K)
    (hlip : ∀ s t, 0 ≤ s → s ≤ t → t ≤ 5 → ψ t - ψ s ≤ K * (t - s)) (hn : K * ((66 / 100) ^ 100 * 5) ≤ 9 / 10 * -ψ 0)
    (fuel : Nat) {st : EvalState ℝ} (hst : st.Fresh p) (hg : dot st.gradient d = ψ 0) :
    ∃ t st', lineSearch p x d (φ 0) fuel st = .ok (pt φ ψ t, st') ∧ Accepted φ ψ t := by
  obtain ⟨st', h1, h2⟩ := hline.eval hx hd hst 1
  obtain ⟨st2, h3, h4⟩ := hline.eval hx hd h2 5
  have e : (FloatOps.ofNat 5 : ℝ) = 5 := by rw [ofNat_real]; norm_num
  rw [lineSearch, lineSearchRun, h1, ok_bind, hg, e]
  simp only
  by_cases hw : satisfiesWolfe (φ 0) (ψ 0) (pt φ ψ 1) = true
  · rw [if_pos hw]
    exact ⟨_, st', rfl, satisfiesWolfe_iff.1 hw⟩
  · rw [if_neg hw, h3, ok_bind]
    refine search_convex hline hx hd hdown h0 hK hlip fuel 100 h4 (a := 0) (b := 5) ⟨le_rfl, le_rfl, by norm_num, by linarith, h5⟩ ?_
    simpa using hn

/-- Quadratic lines with a minimum. -/
theorem lineSearch_quadratic {A B C : ℝ} (hA : 0 < A) (hB : B < 0) (hφ : ∀ t, φ t = C + 2 * B * t + A * t ^ 2) (hψ : ∀ t, ψ t = B + A * t)
    (fuel : Nat) {st : EvalState ℝ} (hst : st.Fresh p) (hg : dot st.gradient d = ψ 0) :
    ∃ st', lineSearch p x d (φ 0) fuel st = .ok (pt φ ψ (if satisfiesWolfe (φ 0) (ψ 0) (pt φ ψ 1) then 1 else -B / A), st') := by
  obtain ⟨st', h1, h2⟩ := hline.eval hx hd hst 1
  obtain ⟨st2, h3, h4⟩ := hline.eval hx hd h2 5
  have e : (FloatOps.ofNat 5 : ℝ) = 5 := by rw [ofNat_real]; norm_num
  rw [lineSearch, lineSearchRun, h1, ok_bind, hg, e]
  simp only
  by_cases hw : satisfiesWolfe (φ 0) (ψ 0) (pt φ ψ 1) = true
  · simp only [if_pos hw]
    exact ⟨st', rfl⟩
  · simp only [if_neg hw]
    have hsec : secant (⟨0, φ 0, ψ 0⟩ : Param ℝ) (pt φ ψ 5) = -B / A := by
      simp only [secant, pt, hψ]
      field_simp
      ring
    obtain ⟨st3, g1, g2⟩ := hline.eval hx hd h4 (-B / A)
    have hacc : satisfiesWolfe (φ 0) (ψ 0) (pt φ ψ (-B / A)) = true := by
      rw [satisfiesWolfe_iff]
      refine .inl ⟨?_, ?_⟩
      · simp only [hφ, hψ]
        have : 0 ≤ B ^ 2 / A := by positivity
        have e1 : A * (-B / A) ^ 2 = B ^ 2 / A := by field_simp
        have e2 : 2 * B * (-B / A) = -2 * (B ^ 2 / A) := by field_simp
        have e3 : -B / A * (1 / 20000 * (2 * (B + A * 0))) = -(1 / 10000) * (B ^ 2 / A) := by field_simp; ring
        rw [e1, e2, e3]
        linarith
      · simp only [hψ]
        have e1 : A * (-B / A) = -B := by field_simp
        rw [e1]
        linarith
    rw [h3, ok_bind]
    simp only
    rw [search, secant2, hsec, g1, ok_bind]
    simp only
    rw [if_pos hacc]
    exact ⟨st3, rfl⟩

end

end Fiksi
