import Verif.Proofs.HagerZhang
import Verif.Props.LbfgsReturns
import Verif.Props.LmMachine
/-!
# C67: L-BFGS is the method of the specification, and why it stops
-/
namespace Fiksi

open Spec FloatOps Matrix
open Spec.HagerZhang (Good Bisect Update Outcome Try DoubleSecant Search Step)

/-- The problem `p` computes the objective `P`. -/
structure Problem.Evaluates (p : Problem ℝ) (P : Objective p.numVariables) : Prop where
  dense : p.DenseOk
  values : ∀ u rs jac, u.length = p.numVariables → rs.length = p.numResiduals → jac.length = p.numResiduals * p.numVariables → p.Buffer jac →
    ∃ r j, p.denseJacobian u rs jac = .ok (r, j) ∧ p.residuals u = .ok r ∧ r.length = p.numResiduals ∧ j.length = p.numResiduals * p.numVariables ∧
      ∑ c ∈ Finset.range p.numResiduals, r.getD c 0 ^ 2 = P.cost (vec p.numVariables u) ∧
      ∀ k : Fin p.numVariables, ∑ c ∈ Finset.range p.numResiduals, j.getD (c * p.numVariables + k) 0 * r.getD c 0 = P.grad (vec p.numVariables u) k

theorem vec_along {n : Nat} {x d : List ℝ} (hx : x.length = n) (hd : d.length = n) (t : ℝ) : vec n (along x d t) = vec n x + t • vec n d := by
  ext i
  rw [along, vec_zipWith hx hd]
  simp

section
variable {p : Problem ℝ} {P : Objective p.numVariables} (hp : p.Evaluates P)
include hp

theorem Problem.Evaluates.line {x d : List ℝ} (hx : x.length = p.numVariables) (hd : d.length = p.numVariables) :
    p.Line x d (fun t => P.cost (vec p.numVariables x + t • vec p.numVariables d))
      (fun t => P.grad (vec p.numVariables x + t • vec p.numVariables d) ⬝ᵥ vec p.numVariables d) := by
  intro t rs jac h1 h2 h3
  obtain ⟨r, j, h4, h5, h6, h7, h8, h9⟩ := hp.values (along x d t) rs jac (by simp [along, hx, hd]) h1 h2 h3
  rw [vec_along hx hd] at h8 h9
  refine ⟨r, j, h4, h5, h6, h7, h8, ?_⟩
  simp only [dotProduct, ← h9, Finset.sum_mul, Finset.mul_sum]
  rw [Finset.sum_comm, Finset.sum_range]
  refine Finset.sum_congr rfl fun k _ => Finset.sum_congr rfl fun c _ => ?_
  rw [vec]
  ring

theorem Problem.Evaluates.at {x : List ℝ} (hx : x.length = p.numVariables) {st : EvalState ℝ} (h : st.Starts p x) :
    sumSquares st.residuals = P.cost (vec p.numVariables x) ∧ vec p.numVariables st.gradient = P.grad (vec p.numVariables x) := by
  obtain ⟨rs, jac, h1, h2, h3, h4⟩ := h.jacobian
  obtain ⟨r, j, g1, g2, g3, g4, g5, g6⟩ := hp.values x rs jac hx h1 h2 h3
  rw [h4, Except.ok.injEq, Prod.mk.injEq] at g1
  obtain ⟨rfl, rfl⟩ := g1
  refine ⟨by rw [sumSquares_range, g3, g5], funext fun k => ?_⟩
  rw [← g6 k, vec, computeGradient_entries (by rw [g4, g3]) h.gradient k k.2, g3]

end

/-- The state of L-BFGS before iteration `k`. -/
structure LbfgsState.Runs (p : Problem ℝ) (P : Objective p.numVariables) (k : Nat) (cs : List (Pair p.numVariables)) (x : Fin p.numVariables → ℝ) (st : LbfgsState ℝ) : Prop where
  starts : st.buffers.Starts p st.vars
  length : st.vars.length = p.numVariables
  here : vec p.numVariables st.vars = x
  ssr : st.ssr = P.cost x
  ring : RingOk p.numVariables k st.history st.corrections
  corrections : st.corrections.map (Correction.pair p.numVariables) = cs

section
variable {p : Problem ℝ} {P : Objective p.numVariables} (hp : p.Evaluates P) {k : Nat} {cs : List (Pair p.numVariables)} {x : Fin p.numVariables → ℝ} {st : LbfgsState ℝ}
  (hst : st.Runs p P k cs x)
include hp hst

theorem LbfgsState.Runs.direction : ∃ d, lbfgsDirection st.history k st.gradient = .ok d ∧ d.length = p.numVariables ∧ vec p.numVariables d = P.direction cs x := by
  have hg : st.gradient.length = p.numVariables := hst.starts.sized.gradient
  obtain ⟨d, h1, h2, h3⟩ := lbfgsDirection_ok hst.ring hg
  refine ⟨d, h1, h2, ?_⟩
  have h4 : vec p.numVariables st.gradient = P.grad x := by
    rw [← hst.here]
    exact (hp.at hst.length hst.starts).2
  have hlen : cs.length = k := by rw [← hst.corrections, List.length_map, hst.ring.count]
  have h5 : (usedCorrections k st.corrections).map (Correction.pair p.numVariables) = Objective.counting cs := by
    rw [Objective.counting, usedCorrections, ← hst.corrections, List.length_map, hst.ring.count]
    split <;> simp
  rw [h3, h4, usedMatrix, h5, Objective.direction, ← hst.corrections, List.getLast?_map]

/-- What an iteration leads to, from the step `t`. -/
theorem lbfgsStep_after {fuel : Nat} {d : List ℝ} {t : ℝ} {c : Param ℝ} {ev : EvalState ℝ} (h1 : lbfgsDirection st.history k st.gradient = .ok d) (h2 : d.length = p.numVariables)
    (h3 : vec p.numVariables d = P.direction cs x) (hs : lineSearch p st.vars d st.ssr fuel st.buffers = .ok (c, ev)) (hc : c.p = t)
    (hphi : c.phi = P.cost (x + t • P.direction cs x)) (hev : ev.Starts p (along st.vars d t)) (hsc : ev.scratch = along st.vars d t) :
    ∃ stop st', lbfgsStep p fuel k st = .ok (stop, st') ∧ vec p.numVariables st'.vars = x + t • P.direction cs x ∧
      (stop = true ↔ P.Ends x (x + t • P.direction cs x)) ∧
      (stop = false → st'.Runs p P (k + 1) (cs ++ [P.correction x (x + t • P.direction cs x)]) (x + t • P.direction cs x)) := by
  have hlen : (along st.vars d t).length = p.numVariables := by simp [along, hst.length, h2]
  have hvec : vec p.numVariables (along st.vars d t) = x + t • P.direction cs x := by rw [vec_along hst.length h2, hst.here, h3]
  obtain ⟨e1, e2⟩ := hp.at hlen hev
  rw [hvec] at e1 e2
  have h4 : vec p.numVariables st.gradient = P.grad x := by
    rw [← hst.here]
    exact (hp.at hst.length hst.starts).2
  have hg : st.gradient.length = p.numVariables := hst.starts.sized.gradient
  have hsz := newCorrection_sized (step := c.p) h2 hg hev.sized.gradient
  have hx' : vec p.numVariables ev.scratch = x + t • P.direction cs x := by rw [hsc, hvec]
  have hpair : Correction.pair p.numVariables (newCorrection c.p d st.gradient ev.gradient) = P.correction x (x + t • P.direction cs x) := by
    have s1 : vec p.numVariables (newCorrection c.p d st.gradient ev.gradient).s = x + t • P.direction cs x - x := by
      rw [add_sub_cancel_left, ← h3]
      ext i
      simp only [newCorrection]
      rw [vec_map h2, hc]
      simp
    have s2 : vec p.numVariables (newCorrection c.p d st.gradient ev.gradient).y = P.grad (x + t • P.direction cs x) - P.grad x := by
      rw [← e2, ← h4]
      ext i
      simp only [newCorrection]
      rw [vec_zipWith hev.sized.gradient hg]
      simp
    have s3 : (newCorrection c.p d st.gradient ev.gradient).rho = 1 / ((x + t • P.direction cs x - x) ⬝ᵥ (P.grad (x + t • P.direction cs x) - P.grad x)) := by
      rw [← s1, ← s2, ← dot_eq hsz.1 hsz.2]
      rfl
    rw [Correction.pair, Objective.correction, s1, s2, s3]
  have hs' : lineSearch p st.vars d st.ssr fuel ⟨st.vars, st.jacobian, st.residuals, st.gradient⟩ = .ok (c, ev) := hs
  rw [lbfgsStep, h1, ok_bind, hs', ok_bind]
  simp only
  rw [setIdx_of _ (by rw [hst.ring.length]; omega), ok_bind]
  have hstop : (ltB (FloatOps.abs (st.ssr - c.phi)) (ratio 1 (10 ^ 10)) || ltB c.phi (ratio 1 (10 ^ 6))) = true ↔ P.Ends x (x + t • P.direction cs x) := by
    rw [Bool.or_eq_true, ltB_iff, ltB_iff, hst.ssr, hphi, ratio_real, ratio_real, Objective.Ends]
    norm_num [FloatOps.abs]
  refine ⟨_, _, rfl, hx', hstop, fun hns => ?_⟩
  simp only [hns, Bool.false_eq_true, if_false]
  refine ⟨?_, by rw [hsc, hlen], hx', hphi, hst.ring.push hsz, by rw [List.map_append, hst.corrections, List.map_singleton, hpair]⟩
  have : ev.Starts p ev.scratch := by rw [hsc]; exact hev
  exact this

theorem lbfgsStep_sound {fuel : Nat} {stop : Bool} {st' : LbfgsState ℝ} (h : lbfgsStep p fuel k st = .ok (stop, st')) :
    ∃ t, P.IsStep x (P.direction cs x) t ∧ vec p.numVariables st'.vars = x + t • P.direction cs x ∧ (stop = true ↔ P.Ends x (x + t • P.direction cs x)) ∧
      (stop = false → st'.Runs p P (k + 1) (cs ++ [P.correction x (x + t • P.direction cs x)]) (x + t • P.direction cs x)) := by
  obtain ⟨d, h1, h2, h3⟩ := hst.direction hp
  have hl := hp.line hst.length h2
  obtain ⟨hf, v1, v2⟩ := hst.starts.values hst.length h2 hl
  have h0 := h
  rw [lbfgsStep, h1, ok_bind, bind_eq_ok] at h
  obtain ⟨⟨c, ev⟩, h4, -⟩ := h
  have hssr : st.ssr = P.cost (vec p.numVariables st.vars + (0 : ℝ) • vec p.numVariables d) := by rw [zero_smul, add_zero, hst.here, hst.ssr]
  have h4' := h4
  rw [hssr] at h4'
  obtain ⟨t, e1, e2, e3⟩ := lineSearch_sound hl hst.length h2 (st := st.buffers) hf v2 h4'
  simp only at e1 e2
  rw [hst.here, h3] at e3
  have hsc := (C54_buffers_at_step hp.dense hst.length h2 hst.starts.sized h4).1
  have hcp : c.p = t := by rw [e1]; rfl
  rw [hcp] at hsc
  obtain ⟨stop', st'', g1, g2, g3, g4⟩ := lbfgsStep_after hp hst h1 h2 h3 (c := c) (ev := ev) h4 hcp (by rw [e1]; simp only [pt]; rw [hst.here, h3]) e2 hsc
  rw [h0, Except.ok.injEq, Prod.mk.injEq] at g1
  obtain ⟨rfl, rfl⟩ := g1
  exact ⟨t, e3, g2, g3, g4⟩

theorem lbfgsStep_complete {t : ℝ} (h : P.IsStep x (P.direction cs x) t) :
    Returns (fun r => vec p.numVariables r.2.vars = x + t • P.direction cs x ∧ (r.1 = true ↔ P.Ends x (x + t • P.direction cs x)) ∧
      (r.1 = false → r.2.Runs p P (k + 1) (cs ++ [P.correction x (x + t • P.direction cs x)]) (x + t • P.direction cs x))) (fun fuel => lbfgsStep p fuel k st) := by
  obtain ⟨d, h1, h2, h3⟩ := hst.direction hp
  have hl := hp.line hst.length h2
  obtain ⟨hf, v1, v2⟩ := hst.starts.values hst.length h2 hl
  have hssr : st.ssr = P.cost (vec p.numVariables st.vars + (0 : ℝ) • vec p.numVariables d) := by rw [zero_smul, add_zero, hst.here, hst.ssr]
  rw [Objective.IsStep, ← h3, ← hst.here] at h
  obtain ⟨⟨c, ev⟩, ⟨e1, e2⟩, m, hm⟩ := lineSearch_complete hl hst.length h2 h hf v2
  simp only at e1 e2
  simp only [← hssr] at hm
  have hcp : c.p = t := by rw [e1]; rfl
  have hsc := (C54_buffers_at_step hp.dense hst.length h2 hst.starts.sized (hm m le_rfl)).1
  rw [hcp] at hsc
  have key := fun fuel (hf : m ≤ fuel) => lbfgsStep_after hp hst h1 h2 h3 (c := c) (ev := ev) (hm fuel hf) hcp (by rw [e1]; simp only [pt]; rw [hst.here, h3]) e2 hsc
  have hstep : ∀ n, m ≤ n → lbfgsStep p n k st = lbfgsStep p m k st := by
    intro n hn
    have : ∀ n, m ≤ n → lineSearch p st.vars d st.ssr n ⟨st.vars, st.jacobian, st.residuals, st.gradient⟩ = .ok (c, ev) := fun n hn => hm n hn
    rw [lbfgsStep, lbfgsStep, h1, ok_bind, ok_bind, this n hn, this m le_rfl]
  obtain ⟨stop, st', g1, g2⟩ := key m le_rfl
  exact ⟨(stop, st'), g2, m, fun n hn => (hstep n hn).trans g1⟩

end

section
variable {p : Problem ℝ} {P : Objective p.numVariables} (hp : p.Evaluates P)
include hp

theorem lbfgsLoop_sound {fuel : Nat} : ∀ (n k : Nat) {cs : List (Pair p.numVariables)} {x : Fin p.numVariables → ℝ} {st st' : LbfgsState ℝ}, st.Runs p P k cs x →
    lbfgsLoop p fuel n k st = .ok st' → P.Steps n cs x (vec p.numVariables st'.vars) := by
  intro n
  induction n with
  | zero =>
    intro k cs x st st' hst h
    cases h
    rw [hst.here]
    exact .spent
  | succ n ih =>
    intro k cs x st st' hst h
    rw [lbfgsLoop, bind_eq_ok] at h
    obtain ⟨⟨stop, st1⟩, h1, h2⟩ := h
    obtain ⟨t, e1, e2, e3, e4⟩ := lbfgsStep_sound hp hst h1
    cases stop with
    | true =>
      cases h2
      rw [e2]
      exact .last e1 (e3.1 rfl)
    | false => exact .step e1 (fun h => Bool.false_ne_true (e3.2 h)) (ih (k + 1) (e4 rfl) h2)

theorem lbfgsLoop_complete {n : Nat} {cs : List (Pair p.numVariables)} {x z : Fin p.numVariables → ℝ} (h : P.Steps n cs x z) : ∀ {k : Nat} {st : LbfgsState ℝ}, st.Runs p P k cs x →
    Returns (fun st' => vec p.numVariables st'.vars = z) (fun fuel => lbfgsLoop p fuel n k st) := by
  induction h with
  | spent => intro k st hst; exact .of hst.here
  | last h1 h2 =>
    intro k st hst
    simp only [lbfgsLoop]
    refine (lbfgsStep_complete hp hst h1).bind (fun r hr => ?_)
    obtain ⟨stop, st1⟩ := r
    obtain ⟨g1, g2, -⟩ := hr
    simp only at g1 g2
    rw [g2.2 h2]
    exact .of g1
  | step h1 h2 _ ih =>
    intro k st hst
    simp only [lbfgsLoop]
    refine (lbfgsStep_complete hp hst h1).bind (fun r hr => ?_)
    obtain ⟨stop, st1⟩ := r
    obtain ⟨g1, g2, g3⟩ := hr
    simp only at g1 g2 g3
    have : stop = false := by
      cases stop with
      | false => rfl
      | true => exact absurd (g2.1 rfl) h2
    subst this
    exact ih (g3 rfl)

theorem lbfgsStart_runs {x : List ℝ} (hx : x.length = p.numVariables) :
    (P.cost (vec p.numVariables x) < 1 / 10 ^ 4 ∧ lbfgsStart p x = .ok none) ∨
    (1 / 10 ^ 4 ≤ P.cost (vec p.numVariables x) ∧ ∃ st, lbfgsStart p x = .ok (some st) ∧ st.Runs p P 0 [] (vec p.numVariables x)) := by
  obtain ⟨r, j, h1, h2, h3, h4, h5, h6⟩ := hp.values x (List.replicate p.numResiduals 0) (List.replicate (p.numResiduals * p.numVariables) 0) hx
    (by simp) (by simp) .zero
  obtain ⟨g, h7, h8⟩ := computeGradient_ok (jacobian := j) (residuals := r) (n := p.numVariables) (by rw [h3, h4])
  rw [lbfgsStart, h1, ok_bind]
  have hss : sumSquares r = P.cost (vec p.numVariables x) := by rw [sumSquares_range, h3, h5]
  have hr : (ratio 1 10000 : ℝ) = 1 / 10 ^ 4 := by rw [ratio_real]; norm_num
  simp only [ltB_iff, hss, hr]
  by_cases hc : P.cost (vec p.numVariables x) < 1 / 10 ^ 4
  · exact .inl ⟨hc, by rw [if_pos hc]; rfl⟩
  · refine .inr ⟨not_lt.1 hc, ?_⟩
    rw [if_neg hc, h7, ok_bind]
    refine ⟨_, rfl, ⟨⟨hx, h4, h3, h8⟩, ⟨_, _, by simp, by simp, .zero, h1⟩, h7⟩, hx, rfl, rfl, RingOk.start _, rfl⟩

end

/-- C67: in exact arithmetic, what `lbfgs` returns is what the method of the specification ends with. -/
theorem C67_lbfgs_is_method {p : Problem ℝ} {P : Objective p.numVariables} (hp : p.Evaluates P) {x x' : List ℝ} (hx : x.length = p.numVariables) {fuel : Nat}
    (h : lbfgs p fuel x = .ok x') : x'.length = p.numVariables ∧ P.Lbfgs (vec p.numVariables x) (vec p.numVariables x') := by
  refine ⟨(lbfgs_ends hp.dense hx).get h, ?_⟩
  rw [lbfgs] at h
  rcases lbfgsStart_runs hp hx with ⟨h1, h2⟩ | ⟨h1, st, h2, h3⟩
  · rw [h2, ok_bind] at h
    cases h
    exact .small h1
  · rw [h2, ok_bind] at h
    simp only at h
    rw [bind_eq_ok] at h
    obtain ⟨st', h4, h5⟩ := h
    cases h5
    exact .steps h1 (lbfgsLoop_sound hp 100 0 h3 h4)

/-- C67: and what the method ends with is what `lbfgs` returns, for every loop bound of the model from some on. -/
theorem C67_method_is_lbfgs {p : Problem ℝ} {P : Objective p.numVariables} (hp : p.Evaluates P) {x : List ℝ} (hx : x.length = p.numVariables) {z : Fin p.numVariables → ℝ}
    (h : P.Lbfgs (vec p.numVariables x) z) : ∃ k, ∀ fuel, k ≤ fuel → lbfgs p fuel x = .ok (List.ofFn z) := by
  have key : Returns (fun x' => vec p.numVariables x' = z) (fun fuel => lbfgs p fuel x) := by
    cases h with
    | small h =>
      rcases lbfgsStart_runs hp hx with ⟨h1, h2⟩ | ⟨h1, st, h2, h3⟩
      · simp only [lbfgs, h2, ok_bind]
        exact .of rfl
      · linarith
    | steps h hs =>
      rcases lbfgsStart_runs hp hx with ⟨h1, h2⟩ | ⟨h1, st, h2, h3⟩
      · linarith
      · simp only [lbfgs, h2, ok_bind]
        exact (lbfgsLoop_complete hp hs h3).bind (fun st' h => .of h)
  obtain ⟨x', h1, k, hk⟩ := key
  have hlen := (lbfgs_ends hp.dense hx).get (hk k le_rfl)
  have : List.ofFn z = x' := by
    rw [← h1]
    refine List.ext_getElem (by simp [hlen]) fun i hi hi' => ?_
    simp [vec, List.getElem?_eq_getElem hi']
  exact ⟨k, fun fuel hf => by rw [this]; exact hk fuel hf⟩

/-- C67: the method leaves no choice. -/
theorem C67_method_deterministic {p : Problem ℝ} {P : Objective p.numVariables} (hp : p.Evaluates P) {x y z : Fin p.numVariables → ℝ} (h1 : P.Lbfgs x y) (h2 : P.Lbfgs x z) :
    y = z := by
  have hx : vec p.numVariables (List.ofFn x) = x := by
    ext i
    simp [vec]
  obtain ⟨k, hk⟩ := C67_method_is_lbfgs hp (x := List.ofFn x) (by simp) (hx.symm ▸ h1)
  obtain ⟨m, hm⟩ := C67_method_is_lbfgs hp (x := List.ofFn x) (by simp) (hx.symm ▸ h2)
  have := (hk (max k m) (by omega)).symm.trans (hm (max k m) (by omega))
  exact List.ofFn_injective (Except.ok.inj this)

/-! ## Why it stops -/

theorem Spec.Objective.Steps.reason {n : Nat} {P : Objective n} {k : Nat} {cs : List (Pair n)} {x z : Fin n → ℝ} (h : P.Steps k cs x z) :
    (∃ cs' y t, P.IsStep y (P.direction cs' y) t ∧ z = y + t • P.direction cs' y ∧ (P.cost z < 1 / 10 ^ 6 ∨ |P.cost y - P.cost z| < 1 / 10 ^ 10)) ∨
    ∃ f : Nat → Fin n → ℝ, f 0 = x ∧ f k = z ∧ ∀ i < k, 1 / 10 ^ 10 ≤ |P.cost (f i) - P.cost (f (i + 1))| ∧ 1 / 10 ^ 6 ≤ P.cost (f (i + 1)) := by
  induction h with
  | spent => exact .inr ⟨fun _ => _, rfl, rfl, fun i hi => absurd hi (Nat.not_lt_zero i)⟩
  | last h1 h2 => exact .inl ⟨_, _, _, h1, rfl, h2.symm⟩
  | @step k cs x z t h1 h2 _ ih =>
    rw [Objective.Ends] at h2
    push Not at h2
    rcases ih with h | ⟨f, h3, h4, h5⟩
    · exact .inl h
    · refine .inr ⟨fun i => match i with
        | 0 => x
        | i + 1 => f i, rfl, h4, fun i hi => ?_⟩
      cases i with
      | zero => simp only [h3]; exact h2
      | succ i => exact h5 i (by omega)

/-- C67: why L-BFGS stopped. The sum of squares was below 1e-4 at the start, and nothing was done; or it is below 1e-6 after the last step, or the last step hardly changed it;
or a hundred steps were taken, each of which changed it. -/
theorem C67_reasons {p : Problem ℝ} {P : Objective p.numVariables} (hp : p.Evaluates P) {x x' : List ℝ} (hx : x.length = p.numVariables) {fuel : Nat}
    (h : lbfgs p fuel x = .ok x') :
    (P.cost (vec p.numVariables x) < 1 / 10 ^ 4 ∧ x' = x) ∨
    (∃ cs y t, P.IsStep y (P.direction cs y) t ∧ vec p.numVariables x' = y + t • P.direction cs y ∧
      (P.cost (vec p.numVariables x') < 1 / 10 ^ 6 ∨ |P.cost y - P.cost (vec p.numVariables x')| < 1 / 10 ^ 10)) ∨
    ∃ f : Nat → Fin p.numVariables → ℝ, f 0 = vec p.numVariables x ∧ f 100 = vec p.numVariables x' ∧
      ∀ i < 100, 1 / 10 ^ 10 ≤ |P.cost (f i) - P.cost (f (i + 1))| ∧ 1 / 10 ^ 6 ≤ P.cost (f (i + 1)) := by
  obtain ⟨hl, hm⟩ := C67_lbfgs_is_method hp hx h
  generalize hz : vec p.numVariables x' = z at hm
  cases hm with
  | small h1 =>
    refine .inl ⟨h1, List.ext_getElem (by rw [hl, hx]) fun i hi hi' => ?_⟩
    have := congrFun hz ⟨i, by omega⟩
    simpa [vec, List.getElem?_eq_getElem hi, List.getElem?_eq_getElem hi'] using this
  | steps h1 h2 => exact .inr (hz ▸ h2.reason)

/-! ## The subproblems of `solve` -/

theorem vec_ofFn {n : Nat} (v : Fin n → ℝ) : vec n (List.ofFn v) = v := by
  ext i
  simp [vec]

theorem ofFn_vec {n : Nat} {x : List ℝ} (hx : x.length = n) : List.ofFn (vec n x) = x := by
  refine List.ext_getElem (by simp [hx]) fun i hi hi' => ?_
  simp [vec, List.getElem?_eq_getElem hi']

theorem basis_dot {n : Nat} (k : Fin n) (f : Nat → ℝ) : ∑ i ∈ Finset.range n, f i * (List.ofFn (Pi.single k 1 : Fin n → ℝ)).getD i 0 = f k := by
  have h : ∀ i ∈ Finset.range n, f i * (List.ofFn (Pi.single k 1 : Fin n → ℝ)).getD i 0 = if i = k then f k else 0 := by
    intro i hi
    rw [Finset.mem_range] at hi
    have h1 : (List.ofFn (Pi.single k 1 : Fin n → ℝ)).getD i 0 = (Pi.single k 1 : Fin n → ℝ) ⟨i, hi⟩ := congrFun (vec_ofFn (Pi.single k 1 : Fin n → ℝ)) ⟨i, hi⟩
    rw [h1, Pi.single_apply]
    by_cases hik : i = k
    · rw [if_pos hik, if_pos (Fin.ext hik), mul_one, hik]
    · rw [if_neg hik, if_neg (fun he => hik (congrArg Fin.val he)), mul_zero]
  rw [Finset.sum_congr rfl h, Finset.sum_ite_eq' , if_pos (Finset.mem_range.2 k.2)]

/-- C67: the subproblems of `Decomposer::None` and `SinglePass` pose the minimisation of the sum of their squared residuals, and the gradient L-BFGS works with is half the
gradient of that; if no expression uses a variable twice. -/
theorem C67_subproblems_partial {sub : Subsystem ℝ} (hok : sub.Ok) (hpl : sub.Plain) : ∃ P : Objective sub.problem.numVariables, sub.problem.Evaluates P ∧
    (∀ x, x.length = sub.freeVariables.length → ∃ r, sub.calculateResiduals x = .ok r ∧ P.cost (vec sub.problem.numVariables x) = (r.map (fun t => t ^ 2)).sum) ∧
    ∀ x, x.length = sub.freeVariables.length → (∀ id ∈ sub.expressions, ∀ e, sub.allExpressions[id]? = some e → SmoothAt e (e.variableIndices.map (sub.valueOf x))) →
      ∀ k : Fin sub.problem.numVariables, HasDerivAt (fun s => P.cost (Function.update (vec sub.problem.numVariables x) k s)) (2 * P.grad (vec sub.problem.numVariables x) k) (x.getD k 0) := by
  obtain ⟨Q, h1, h2, h3⟩ := hok.fitting
  have hm : sub.expressions.length = Q.m := h1.rows
  have hn : sub.freeVariables.length = Q.n := h1.columns
  let P : Objective sub.problem.numVariables := ⟨fun v => ∑ c ∈ Finset.range Q.m, (Q.res (List.ofFn v)).getD c 0 ^ 2,
    fun v k => ∑ c ∈ Finset.range Q.m, Q.jac (List.ofFn v) c k * (Q.res (List.ofFn v)).getD c 0⟩
  have hN : sub.problem.numVariables = sub.freeVariables.length := rfl
  have hentry : ∀ u rs jac r j, u.length = sub.freeVariables.length → rs.length = sub.expressions.length → sub.problem.Buffer jac →
      sub.problem.denseJacobian u rs jac = .ok (r, j) → ∀ c < Q.m, ∀ k : Fin sub.problem.numVariables, j.getD (c * sub.problem.numVariables + k) 0 = Q.jac u c k := by
    intro u rs jac r j hu hrs hb hd c hc k
    obtain ⟨id, e, g1, g2, -⟩ := Subsystem.exprAt_of hok (c := c) (by rw [hm]; exact hc)
    obtain ⟨rs', ts, j', s1, s2, s3, s4⟩ := C29_dense_eq_sparse_partial hok hu hpl rs hrs
    have a1 := (Subsystem.dense_dot hok hpl hu hrs hb hd (d := List.ofFn (Pi.single k 1 : Fin sub.problem.numVariables → ℝ)) g1 g2).2
    have a2 := (Subsystem.dense_dot hok hpl hu hrs .zero s2 (d := List.ofFn (Pi.single k 1 : Fin sub.problem.numVariables → ℝ)) g1 g2).2
    rw [← hN, basis_dot k (fun i => j.getD (c * sub.problem.numVariables + i) 0)] at a1
    rw [← hN, basis_dot k (fun i => j'.getD (c * sub.problem.numVariables + i) 0)] at a2
    rw [a1, ← a2, List.getD_eq_getElem?_getD]
    have a3 := s4 c (by rw [hm]; exact hc) k k.2
    have a3' : j'[c * sub.problem.numVariables + k]? = some (entrySum ts c k) := a3
    rw [a3', Option.getD_some]
    obtain ⟨ts', b1, -, -, b4⟩ := h1.sparse u rs (hu.trans hn) (hrs.trans hm)
    have b1' : sub.sparseJacobian u rs [] = .ok (Q.res u, ts') := b1
    rw [s1, Except.ok.injEq, Prod.mk.injEq] at b1'
    rw [b1'.2]
    exact b4 c hc k (by rw [← hn]; exact k.2)
  refine ⟨P, ⟨hok.denseOk, fun u rs jac hu hrs hj hb => ?_⟩, fun x hx => ⟨_, h2 x hx, ?_⟩, fun x hx hs k => ?_⟩
  · obtain ⟨r, j, a1, a2, a3, a4⟩ := hok.denseOk u rs jac hu hrs hj
    have hr : r = Q.res u := by
      have := (h1.residuals u (hu.trans hn)).1
      rw [a2, Except.ok.injEq] at this
      exact this
    refine ⟨r, j, a1, a2, a3, a4, ?_, fun k => ?_⟩
    · show ∑ c ∈ Finset.range sub.expressions.length, _ = ∑ c ∈ Finset.range Q.m, _
      rw [hm, ofFn_vec hu, hr]
    · show ∑ c ∈ Finset.range sub.expressions.length, _ = ∑ c ∈ Finset.range Q.m, _
      rw [hm, ofFn_vec hu, hr]
      refine Finset.sum_congr rfl fun c hc => ?_
      rw [hentry u rs jac r j hu hrs hb a1 c (Finset.mem_range.1 hc) k]
  · show ∑ c ∈ Finset.range Q.m, _ = _
    rw [ofFn_vec (show x.length = sub.problem.numVariables from hx), sum_map_getD, (h1.residuals x (hx.trans hn)).2]
  · have hupd : ∀ s, List.ofFn (Function.update (vec sub.problem.numVariables x) k s) = x.set k s := by
      intro s
      refine List.ext_getElem (by simp [hx, hN]) fun i hi hi' => ?_
      have hi2 : i < x.length := by simpa using hi'
      rw [List.getElem_ofFn, List.getElem_set]
      by_cases hik : (k : Nat) = i
      · subst hik
        simp
      · rw [if_neg hik, Function.update_of_ne (fun he => hik (congrArg Fin.val he).symm)]
        simp [vec, List.getElem?_eq_getElem hi2]
    have hset : x.set k (x.getD k 0) = x := by
      refine List.ext_getElem (by simp) fun i hi hi' => ?_
      rw [List.getElem_set]
      split
      · rename_i hki
        subst hki
        rw [List.getD_eq_getElem?_getD, List.getElem?_eq_getElem hi', Option.getD_some]
      · rfl
    have key : HasDerivAt (fun s => ∑ c ∈ Finset.range Q.m, (Q.res (x.set k s)).getD c 0 ^ 2)
        (∑ c ∈ Finset.range Q.m, 2 * (Q.jac x c k * (Q.res x).getD c 0)) (x.getD k 0) := by
      refine HasDerivAt.fun_sum fun c hc => ?_
      have := (h3 x hx hs c (Finset.mem_range.1 hc) k (by rw [← hn]; exact k.2)).pow 2
      refine this.congr_deriv ?_
      rw [hset]
      norm_num
      ring
    show HasDerivAt (fun s => ∑ c ∈ Finset.range Q.m, (Q.res (List.ofFn (Function.update (vec sub.problem.numVariables x) k s))).getD c 0 ^ 2)
      (2 * ∑ c ∈ Finset.range Q.m, Q.jac (List.ofFn (vec sub.problem.numVariables x)) c k * (Q.res (List.ofFn (vec sub.problem.numVariables x))).getD c 0) _
    simp only [hupd]
    rw [ofFn_vec (show x.length = sub.problem.numVariables from hx), Finset.mul_sum]
    exact key

/-- The distance of two points, of which the first may move: the hypotheses of `C67_subproblems_partial` and, through it, of the theorems before are met. -/
example : ∃ P : Objective 2, ∃ sub : Subsystem ℝ, sub.freeVariables = [0, 1] ∧ sub.Ok ∧ sub.Plain ∧ ∃ h : sub.problem.numVariables = 2, sub.problem.Evaluates (h ▸ P) := by
  let sub : Subsystem ℝ := ⟨[0, 0, 3, 4], [.pointPointDistance 0 2 1], [0], [0, 1]⟩
  have hok : sub.Ok := by
    intro id hid
    simp only [sub, List.mem_singleton] at hid
    subst hid
    exact ⟨_, rfl, by simp [Expr.variableIndices, sub]⟩
  have hpl : sub.Plain := by
    intro id hid e he
    simp only [sub, List.mem_singleton] at hid
    subst hid
    cases he
    simp [Expr.variableIndices]
  obtain ⟨P, hP, -⟩ := C67_subproblems_partial hok hpl
  exact ⟨P, sub, rfl, hok, hpl, rfl, hP⟩

end Fiksi
