import Verif.Spec.HagerZhang
import Verif.Proofs.WolfeLine
/-!
# The line search is that of the specification
-/
namespace Fiksi

open Spec FloatOps
open Spec.HagerZhang (Good Bisect Update Outcome Try DoubleSecant Search Step)

theorem satisfiesWolfe_good {φ ψ : ℝ → ℝ} {t : ℝ} : satisfiesWolfe (φ 0) (ψ 0) (pt φ ψ t) = true ↔ Good φ ψ t := by
  simp only [satisfiesWolfe, Bool.or_eq_true, Bool.and_eq_true, leB_iff, pt, ratio_real, ofNat_real, Good, Wolfe, ApproxWolfe]
  push_cast
  rw [and_assoc, show (10 ^ 6 : ℝ) = 1000000 by norm_num]

theorem secant_eq (φ ψ : ℝ → ℝ) (a b : ℝ) : secant (pt φ ψ a) (pt φ ψ b) = HagerZhang.secant ψ a b := rfl

section
variable {p : Problem ℝ} {x d : List ℝ} {φ ψ : ℝ → ℝ} (hline : p.Line x d φ ψ) (hx : x.length = p.numVariables)
  (hd : d.length = p.numVariables)
include hline hx hd

/-! ## What the code returns is what the specification allows -/

theorem updateLoop_succ {st : EvalState ℝ} (hst : st.Fresh p) (a b : ℝ) : ∃ st', st'.Fresh p ∧ ∀ fuel,
    updateLoop p x d (φ 0) (fuel + 1) st (pt φ ψ a) (pt φ ψ b) =
    if 0 ≤ ψ ((a + b) / 2) then .ok ((pt φ ψ a, pt φ ψ ((a + b) / 2)), st')
    else if φ ((a + b) / 2) ≤ φ 0 + 1 / 10 ^ 6 then updateLoop p x d (φ 0) fuel st' (pt φ ψ ((a + b) / 2)) (pt φ ψ b)
    else updateLoop p x d (φ 0) fuel st' (pt φ ψ a) (pt φ ψ ((a + b) / 2)) := by
  have hmid : (1 - ratio 5 10) * (pt φ ψ a).p + ratio 5 10 * (pt φ ψ b).p = (a + b) / 2 := by
    rw [ratio_real, pt, pt]
    push_cast
    ring
  have hε : (ratio 1 (10 ^ 6) : ℝ) = 1 / 10 ^ 6 := by rw [ratio_real]; norm_num
  obtain ⟨st', h1, h2⟩ := hline.eval hx hd hst ((a + b) / 2)
  refine ⟨st', h2, fun fuel => ?_⟩
  rw [updateLoop, hmid, h1, ok_bind]
  simp only [leB_iff, hε]
  rfl

theorem updateLoop_sound : ∀ (fuel : Nat) {st : EvalState ℝ} {a b : ℝ} {r : (Param ℝ × Param ℝ) × EvalState ℝ}, st.Fresh p →
    updateLoop p x d (φ 0) fuel st (pt φ ψ a) (pt φ ψ b) = .ok r →
    ∃ a' b' st', r = ((pt φ ψ a', pt φ ψ b'), st') ∧ st'.Fresh p ∧ Bisect φ ψ a b a' b' := by
  intro fuel
  induction fuel with
  | zero => intro st a b r _ h; cases h
  | succ fuel ih =>
    intro st a b r hst h
    obtain ⟨st', h1, h2⟩ := updateLoop_succ hline hx hd hst a b
    rw [h2] at h
    split at h
    · rename_i hs
      rw [Except.ok.injEq] at h
      exact ⟨_, _, _, h.symm, h1, .done hs⟩
    · rename_i hs
      split at h
      · rename_i hl
        obtain ⟨a', b', st2, e1, e2, e3⟩ := ih h1 h
        exact ⟨a', b', st2, e1, e2, .right (not_le.1 hs) hl e3⟩
      · rename_i hl
        obtain ⟨a', b', st2, e1, e2, e3⟩ := ih h1 h
        exact ⟨a', b', st2, e1, e2, .left (not_le.1 hs) (not_le.1 hl) e3⟩

theorem update_sound {fuel : Nat} {st : EvalState ℝ} {a b c : ℝ} {r : (Param ℝ × Param ℝ) × EvalState ℝ} (hst : st.Fresh p)
    (h : update p x d (φ 0) fuel st (pt φ ψ a) (pt φ ψ b) (pt φ ψ c) = .ok r) :
    ∃ a' b' st', r = ((pt φ ψ a', pt φ ψ b'), st') ∧ st'.Fresh p ∧ Update φ ψ a b c a' b' := by
  rw [update_eq] at h
  split at h
  · rename_i h1
    rw [Except.ok.injEq] at h
    exact ⟨_, _, _, h.symm, hst, .outside h1⟩
  · rename_i h1
    push Not at h1
    split at h
    · rename_i h2
      rw [Except.ok.injEq] at h
      exact ⟨_, _, _, h.symm, hst, .right h1.1 h1.2 h2⟩
    · rename_i h2
      split at h
      · rename_i h3
        rw [Except.ok.injEq] at h
        exact ⟨_, _, _, h.symm, hst, .left h1.1 h1.2 (not_le.1 h2) h3⟩
      · rename_i h3
        obtain ⟨a', b', st', e1, e2, e3⟩ := updateLoop_sound hline hx hd fuel hst h
        exact ⟨a', b', st', e1, e2, .bisect h1.1 h1.2 (not_le.1 h2) (not_le.1 h3) e3⟩

/-- The result of the code for an outcome. -/
def Outcome.Shown (p : Problem ℝ) (x d : List ℝ) (φ ψ : ℝ → ℝ) (o : Outcome) (r : HzResult ℝ (Param ℝ × Param ℝ) × EvalState ℝ) : Prop :=
  match o with
  | .step t => r.1 = .satisfied (pt φ ψ t) ∧ r.2.Starts p (along x d t)
  | .bracket a b => r.1 = .unsatisfied (pt φ ψ a, pt φ ψ b) ∧ r.2.Fresh p

theorem secondSecant_sound {fuel : Nat} {st : EvalState ℝ} (hst : st.Fresh p) {a b t : ℝ} {r : HzResult ℝ (Param ℝ × Param ℝ) × EvalState ℝ}
    (h : secondSecant p x d (φ 0) (ψ 0) fuel st (pt φ ψ a) (pt φ ψ b) t = .ok r) : ∃ o, Outcome.Shown p x d φ ψ o r ∧ Try φ ψ a b t o := by
  obtain ⟨st', h1, h2⟩ := hline.eval_starts hx hd hst t
  rw [secondSecant, h1, ok_bind] at h
  simp only at h
  split at h
  · rename_i hw
    cases h
    exact ⟨.step t, ⟨rfl, h2⟩, .good (satisfiesWolfe_good.1 hw)⟩
  · rename_i hw
    rw [bind_eq_ok] at h
    obtain ⟨r', h3, h4⟩ := h
    obtain ⟨a', b', st2, rfl, e2, e3⟩ := update_sound hline hx hd (h2.fresh (by simp [along, hx, hd])) h3
    cases h4
    exact ⟨.bracket a' b', ⟨rfl, e2⟩, .bad (fun hg => hw (satisfiesWolfe_good.2 hg)) e3⟩

theorem secant2_sound {fuel : Nat} {st : EvalState ℝ} (hst : st.Fresh p) {a b : ℝ} {r : HzResult ℝ (Param ℝ × Param ℝ) × EvalState ℝ}
    (h : secant2 p x d (φ 0) (ψ 0) fuel st (pt φ ψ a) (pt φ ψ b) = .ok r) : ∃ o, Outcome.Shown p x d φ ψ o r ∧ DoubleSecant φ ψ a b o := by
  rw [secant2, secant_eq] at h
  obtain ⟨st', h1, h2⟩ := hline.eval_starts hx hd hst (HagerZhang.secant ψ a b)
  rw [h1, ok_bind] at h
  simp only at h
  split at h
  · rename_i hw
    cases h
    exact ⟨.step _, ⟨rfl, h2⟩, .good (.good (satisfiesWolfe_good.1 hw))⟩
  · rename_i hw
    have hw : ¬ Good φ ψ (HagerZhang.secant ψ a b) := fun hg => hw (satisfiesWolfe_good.2 hg)
    rw [bind_eq_ok] at h
    obtain ⟨r', h3, h4⟩ := h
    obtain ⟨a', b', st2, rfl, e2, e3⟩ := update_sound hline hx hd (h2.fresh (by simp [along, hx, hd])) h3
    simp only [eqB_real, secant_eq] at h4
    split at h4
    · rename_i hb
      obtain ⟨o, h5, h6⟩ := secondSecant_sound hline hx hd e2 h4
      exact ⟨o, h5, .upper (.bad hw e3) hb h6⟩
    · rename_i hb
      split at h4
      · rename_i ha
        obtain ⟨o, h5, h6⟩ := secondSecant_sound hline hx hd e2 h4
        exact ⟨o, h5, .lower (.bad hw e3) hb ha h6⟩
      · rename_i ha
        cases h4
        exact ⟨.bracket a' b', ⟨rfl, e2⟩, .neither (.bad hw e3) hb ha⟩

omit hline hx hd in
theorem middle_eq (a b : ℝ) : (ratio 5 10 : ℝ) * ((pt φ ψ a).p + (pt φ ψ b).p) = (a + b) / 2 := by
  rw [ratio_real, pt, pt]
  push_cast
  ring

theorem search_sound {fuel : Nat} : ∀ (k : Nat) {st : EvalState ℝ} {a b c : ℝ} {r : Param ℝ × EvalState ℝ}, st.Fresh p →
    search p x d (φ 0) (ψ 0) fuel k st (pt φ ψ a) (pt φ ψ b) (pt φ ψ c) = .ok r →
    ∃ t, r.1 = pt φ ψ t ∧ r.2.Starts p (along x d t) ∧ Search φ ψ k a b c t := by
  intro k
  induction k with
  | zero =>
    intro st a b c r hst h
    obtain ⟨st', h1, h2⟩ := hline.eval_starts hx hd hst c
    rw [search, show (pt φ ψ c).p = c from rfl, h1, ok_bind] at h
    cases h
    exact ⟨c, rfl, h2, .spent⟩
  | succ k ih =>
    intro st a b c r hst h
    rw [search, bind_eq_ok] at h
    obtain ⟨r', h1, h2⟩ := h
    obtain ⟨o, h3, h4⟩ := secant2_sound hline hx hd hst h1
    obtain ⟨r1, st1⟩ := r'
    cases o with
    | step t =>
      obtain ⟨h5, h6⟩ := h3
      simp only at h5
      subst h5
      cases h2
      exact ⟨t, rfl, h6, .found h4⟩
    | bracket a' b' =>
      obtain ⟨h5, h6⟩ := h3
      simp only at h5 h6
      subst h5
      simp only [ltB_iff, ratio_real, show ∀ s, (pt φ ψ s).p = s from fun _ => rfl] at h2
      push_cast at h2
      split at h2
      · rename_i hw
        rw [show (5 / 10 : ℝ) * (a + b) = (a + b) / 2 by ring] at h2
        obtain ⟨st2, h7, h8⟩ := hline.eval_starts hx hd h6 ((a + b) / 2)
        rw [h7, ok_bind] at h2
        simp only at h2
        split at h2
        · rename_i hg
          cases h2
          exact ⟨_, rfl, h8, .middle h4 hw (.good (satisfiesWolfe_good.1 hg))⟩
        · rename_i hg
          rw [bind_eq_ok] at h2
          obtain ⟨r2, h9, h10⟩ := h2
          obtain ⟨a'', b'', st3, rfl, e2, e3⟩ := update_sound hline hx hd (h8.fresh (by simp [along, hx, hd])) h9
          obtain ⟨t, f1, f2, f3⟩ := ih e2 h10
          exact ⟨t, f1, f2, .halved h4 hw (.bad (fun h => hg (satisfiesWolfe_good.2 h)) e3) f3⟩
      · rename_i hw
        obtain ⟨t, f1, f2, f3⟩ := ih h6 h2
        exact ⟨t, f1, f2, .shrunk h4 (not_lt.1 hw) f3⟩

theorem lineSearch_sound {fuel : Nat} {st : EvalState ℝ} (hst : st.Fresh p) (hg : dot st.gradient d = ψ 0) {r : Param ℝ × EvalState ℝ}
    (h : lineSearch p x d (φ 0) fuel st = .ok r) : ∃ t, r.1 = pt φ ψ t ∧ r.2.Starts p (along x d t) ∧ Step φ ψ t := by
  obtain ⟨st', h1, h2⟩ := hline.eval_starts hx hd hst 1
  rw [lineSearch, hg, lineSearchRun, h1, ok_bind] at h
  simp only at h
  split at h
  · rename_i hw
    cases h
    exact ⟨1, rfl, h2, .one (satisfiesWolfe_good.1 hw)⟩
  · rename_i hw
    obtain ⟨st2, h3, h4⟩ := hline.eval hx hd (h2.fresh (by simp [along, hx, hd])) 5
    have e : (FloatOps.ofNat 5 : ℝ) = 5 := by rw [ofNat_real]; norm_num
    rw [e, h3, ok_bind] at h
    obtain ⟨t, f1, f2, f3⟩ := search_sound hline hx hd 100 (a := 0) h4 h
    exact ⟨t, f1, f2, .search (fun h => hw (satisfiesWolfe_good.2 h)) f3⟩

/-! ## What the specification allows is what the code returns -/

theorem updateLoop_complete {a b a' b' : ℝ} (h : Bisect φ ψ a b a' b') : ∀ {st : EvalState ℝ}, st.Fresh p →
    Returns (fun r => r.1 = (pt φ ψ a', pt φ ψ b') ∧ r.2.Fresh p) (fun fuel => updateLoop p x d (φ 0) fuel st (pt φ ψ a) (pt φ ψ b)) := by
  induction h with
  | @done a b hs =>
    intro st hst
    obtain ⟨st', h1, h2⟩ := updateLoop_succ hline hx hd hst a b
    refine ⟨((pt φ ψ a, pt φ ψ ((a + b) / 2)), st'), ⟨rfl, h1⟩, 1, fun n hn => ?_⟩
    obtain ⟨m, rfl⟩ := Nat.exists_eq_add_of_le' hn
    simp only
    rw [h2 m, if_pos hs]
  | @right a b a' b' hs hl _ ih =>
    intro st hst
    obtain ⟨st', h1, h2⟩ := updateLoop_succ hline hx hd hst a b
    obtain ⟨r, h3, k, hk⟩ := ih h1
    refine ⟨r, h3, k + 1, fun n hn => ?_⟩
    obtain ⟨m, rfl⟩ := Nat.exists_eq_add_of_le' (show 1 ≤ n by omega)
    simp only
    rw [h2 m, if_neg (not_le.2 hs), if_pos hl]
    exact hk m (by omega)
  | @left a b a' b' hs hl _ ih =>
    intro st hst
    obtain ⟨st', h1, h2⟩ := updateLoop_succ hline hx hd hst a b
    obtain ⟨r, h3, k, hk⟩ := ih h1
    refine ⟨r, h3, k + 1, fun n hn => ?_⟩
    obtain ⟨m, rfl⟩ := Nat.exists_eq_add_of_le' (show 1 ≤ n by omega)
    simp only
    rw [h2 m, if_neg (not_le.2 hs), if_neg (not_le.2 hl)]
    exact hk m (by omega)

theorem update_complete {a b c a' b' : ℝ} (h : Update φ ψ a b c a' b') {st : EvalState ℝ} (hst : st.Fresh p) :
    Returns (fun r => r.1 = (pt φ ψ a', pt φ ψ b') ∧ r.2.Fresh p) (fun fuel => update p x d (φ 0) fuel st (pt φ ψ a) (pt φ ψ b) (pt φ ψ c)) := by
  simp only [update_eq]
  cases h with
  | outside h1 =>
    simp only [if_pos h1]
    exact .of ⟨rfl, hst⟩
  | right h1 h2 h3 =>
    simp only [if_neg (show ¬ (c < a ∨ b < c) by push Not; exact ⟨h1, h2⟩), if_pos h3]
    exact .of ⟨rfl, hst⟩
  | left h1 h2 h3 h4 =>
    simp only [if_neg (show ¬ (c < a ∨ b < c) by push Not; exact ⟨h1, h2⟩), if_neg (not_le.2 h3), if_pos h4]
    exact .of ⟨rfl, hst⟩
  | bisect h1 h2 h3 h4 h5 =>
    simp only [if_neg (show ¬ (c < a ∨ b < c) by push Not; exact ⟨h1, h2⟩), if_neg (not_le.2 h3), if_neg (not_le.2 h4)]
    exact updateLoop_complete hline hx hd h5 hst

theorem secondSecant_complete {a b t : ℝ} {o : Outcome} (h : Try φ ψ a b t o) {st : EvalState ℝ} (hst : st.Fresh p) :
    Returns (Outcome.Shown p x d φ ψ o) (fun fuel => secondSecant p x d (φ 0) (ψ 0) fuel st (pt φ ψ a) (pt φ ψ b) t) := by
  obtain ⟨st', h1, h2⟩ := hline.eval_starts hx hd hst t
  simp only [secondSecant, h1, ok_bind]
  cases h with
  | good hg =>
    simp only [if_pos (satisfiesWolfe_good.2 hg)]
    exact .of ⟨rfl, h2⟩
  | bad hg hu =>
    simp only [if_neg (fun h => hg (satisfiesWolfe_good.1 h))]
    refine (update_complete hline hx hd hu (h2.fresh (by simp [along, hx, hd]))).bind (fun r hr => ?_)
    obtain ⟨r1, r2⟩ := r
    obtain ⟨rfl, hr⟩ := hr
    exact .of ⟨rfl, hr⟩

theorem secant2_complete {a b : ℝ} {o : Outcome} (h : DoubleSecant φ ψ a b o) {st : EvalState ℝ} (hst : st.Fresh p) :
    Returns (Outcome.Shown p x d φ ψ o) (fun fuel => secant2 p x d (φ 0) (ψ 0) fuel st (pt φ ψ a) (pt φ ψ b)) := by
  obtain ⟨st', h1, h2⟩ := hline.eval_starts hx hd hst (HagerZhang.secant ψ a b)
  simp only [secant2, secant_eq, h1, ok_bind]
  have h2' := h2.fresh (by simp [along, hx, hd])
  cases h with
  | good h =>
    cases h with
    | good hg =>
      simp only [if_pos (satisfiesWolfe_good.2 hg)]
      exact .of ⟨rfl, h2⟩
  | upper h hb ht =>
    cases h with
    | bad hg hu =>
      simp only [if_neg (fun h => hg (satisfiesWolfe_good.1 h))]
      refine (update_complete hline hx hd hu h2').bind (fun r hr => ?_)
      obtain ⟨r1, r2⟩ := r
      obtain ⟨rfl, hr⟩ := hr
      simp only [eqB_real, secant_eq, show ∀ s, (pt φ ψ s).p = s from fun _ => rfl, if_pos hb]
      exact secondSecant_complete hline hx hd ht hr
  | lower h hb ha ht =>
    cases h with
    | bad hg hu =>
      simp only [if_neg (fun h => hg (satisfiesWolfe_good.1 h))]
      refine (update_complete hline hx hd hu h2').bind (fun r hr => ?_)
      obtain ⟨r1, r2⟩ := r
      obtain ⟨rfl, hr⟩ := hr
      simp only [eqB_real, secant_eq, show ∀ s, (pt φ ψ s).p = s from fun _ => rfl, if_neg hb, if_pos ha]
      exact secondSecant_complete hline hx hd ht hr
  | neither h hb ha =>
    cases h with
    | bad hg hu =>
      simp only [if_neg (fun h => hg (satisfiesWolfe_good.1 h))]
      refine (update_complete hline hx hd hu h2').bind (fun r hr => ?_)
      obtain ⟨r1, r2⟩ := r
      obtain ⟨rfl, hr⟩ := hr
      simp only [eqB_real, show ∀ s, (pt φ ψ s).p = s from fun _ => rfl, if_neg hb, if_neg ha]
      exact .of ⟨rfl, hr⟩

theorem search_complete {k : Nat} {a b c t : ℝ} (h : Search φ ψ k a b c t) : ∀ {st : EvalState ℝ}, st.Fresh p →
    Returns (fun r => r.1 = pt φ ψ t ∧ r.2.Starts p (along x d t)) (fun fuel => search p x d (φ 0) (ψ 0) fuel k st (pt φ ψ a) (pt φ ψ b) (pt φ ψ c)) := by
  have h510 : ∀ a b : ℝ, ((5 : ℕ) / (10 : ℕ) : ℝ) * (a + b) = (a + b) / 2 := by intro a b; push_cast; ring
  have h66 : ∀ s : ℝ, ((66 : ℕ) / (100 : ℕ) : ℝ) * s = 66 / 100 * s := by intro s; push_cast; rfl
  have hpt : ∀ s, (pt φ ψ s).p = s := fun _ => rfl
  induction h with
  | @spent a b c =>
    intro st hst
    obtain ⟨st', h1, h2⟩ := hline.eval_starts hx hd hst c
    simp only [search, hpt, h1, ok_bind]
    exact .of ⟨rfl, h2⟩
  | found h1 =>
    intro st hst
    simp only [search]
    refine (secant2_complete hline hx hd h1 hst).bind (fun r hr => ?_)
    obtain ⟨r1, r2⟩ := r
    obtain ⟨h3, h4⟩ := hr
    simp only at h3
    subst h3
    exact .of ⟨rfl, h4⟩
  | shrunk h1 h2 _ ih =>
    intro st hst
    simp only [search]
    refine (secant2_complete hline hx hd h1 hst).bind (fun r hr => ?_)
    obtain ⟨r1, r2⟩ := r
    obtain ⟨h3, h4⟩ := hr
    simp only at h3 h4
    subst h3
    simp only [ltB_iff, ratio_real, hpt, h66, if_neg (not_lt.2 h2)]
    exact ih h4
  | @middle k a b c a' b' t h1 h2 h3 =>
    intro st hst
    simp only [search]
    refine (secant2_complete hline hx hd h1 hst).bind (fun r hr => ?_)
    obtain ⟨r1, r2⟩ := r
    obtain ⟨h4, h5⟩ := hr
    simp only at h4 h5
    subst h4
    obtain ⟨st2, h7, h8⟩ := hline.eval_starts hx hd h5 ((a + b) / 2)
    cases h3 with
    | good hg =>
      simp only [ltB_iff, ratio_real, hpt, h66, h510, if_pos h2, h7, ok_bind, if_pos (satisfiesWolfe_good.2 hg)]
      exact .of ⟨rfl, h8⟩
  | @halved k a b c a' b' a'' b'' t h1 h2 h3 _ ih =>
    intro st hst
    simp only [search]
    refine (secant2_complete hline hx hd h1 hst).bind (fun r hr => ?_)
    obtain ⟨r1, r2⟩ := r
    obtain ⟨h4, h5⟩ := hr
    simp only at h4 h5
    subst h4
    obtain ⟨st2, h7, h8⟩ := hline.eval_starts hx hd h5 ((a + b) / 2)
    cases h3 with
    | bad hg hu =>
      simp only [ltB_iff, ratio_real, hpt, h66, h510, if_pos h2, h7, ok_bind, if_neg (fun h => hg (satisfiesWolfe_good.1 h))]
      refine (update_complete hline hx hd hu (h8.fresh (by simp [along, hx, hd]))).bind (fun r hr => ?_)
      obtain ⟨r1, r2⟩ := r
      obtain ⟨rfl, hr⟩ := hr
      exact ih hr

theorem lineSearch_complete {t : ℝ} (h : Step φ ψ t) {st : EvalState ℝ} (hst : st.Fresh p) (hg : dot st.gradient d = ψ 0) :
    Returns (fun r => r.1 = pt φ ψ t ∧ r.2.Starts p (along x d t)) (fun fuel => lineSearch p x d (φ 0) fuel st) := by
  obtain ⟨st', h1, h2⟩ := hline.eval_starts hx hd hst 1
  simp only [lineSearch, hg, lineSearchRun, h1, ok_bind]
  cases h with
  | one hg =>
    simp only [if_pos (satisfiesWolfe_good.2 hg)]
    exact .of ⟨rfl, h2⟩
  | search hg hs =>
    obtain ⟨st2, h3, h4⟩ := hline.eval hx hd (h2.fresh (by simp [along, hx, hd])) 5
    have e : (FloatOps.ofNat 5 : ℝ) = 5 := by rw [ofNat_real]; norm_num
    simp only [if_neg (fun h => hg (satisfiesWolfe_good.1 h)), e, h3, ok_bind]
    exact search_complete hline hx hd hs h4

end

end Fiksi
