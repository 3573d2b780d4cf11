import Verif.Model.Lm
import Verif.Proofs.Basic
/-!
# Results that do not depend on the loop bound of the model, if it is large enough
-/
namespace Fiksi

variable {α β σ : Type}

/-- From some bound on the result is `r`. -/
def Settles (f : Nat → R α) (r : R α) : Prop := ∃ k, ∀ n, k ≤ n → f n = r

/-- A result other than giving up is kept when the bound grows. -/
def Keeps (f : Nat → R α) : Prop := ∀ n r, f n = r → r ≠ .error .outOfFuel → f (n + 1) = r

theorem Settles.const (r : R α) : Settles (fun _ => r) r := ⟨0, fun _ _ => rfl⟩

theorem Settles.bind {f : Nat → R α} {r : R α} {g : Nat → α → R β} {g' : α → R β} (hf : Settles f r) (hg : ∀ a, Settles (fun n => g n a) (g' a)) :
    Settles (fun n => f n >>= g n) (r >>= g') := by
  obtain ⟨k, hk⟩ := hf
  cases r with
  | error e => exact ⟨k, fun n hn => by simp only [hk n hn]; rfl⟩
  | ok a =>
    obtain ⟨k', hk'⟩ := hg a
    refine ⟨max k k', fun n hn => ?_⟩
    simp only [hk n (by omega), ok_bind]
    exact hk' n (by omega)

theorem Settles.foldlM {f : Nat → σ → α → R σ} {f' : σ → α → R σ} (h : ∀ s a, Settles (fun n => f n s a) (f' s a)) (l : List α) :
    ∀ s, Settles (fun n => l.foldlM (f n) s) (l.foldlM f' s) := by
  induction l with
  | nil => intro s; exact .const _
  | cons a l ih => intro s; exact (h s a).bind ih

theorem Keeps.const (r : R α) : Keeps (fun _ => r) := fun _ _ h _ => h

theorem Keeps.bind {f : Nat → R α} {g : Nat → α → R β} (hf : Keeps f) (hg : ∀ a, Keeps (fun n => g n a)) : Keeps (fun n => f n >>= g n) := by
  intro n r h hr
  cases hfn : f n with
  | error e =>
    have : r = .error e := by rw [← h]; simp only [hfn]; rfl
    have he : (.error e : R α) ≠ .error .outOfFuel := by
      rintro he
      cases he
      exact hr this
    simp only [hf n _ hfn he]
    rw [this]
    rfl
  | ok a =>
    simp only [hfn, ok_bind] at h
    simp only [hf n _ hfn (by simp), ok_bind]
    exact hg a n r h hr

theorem Keeps.settles {f : Nat → R α} (hf : Keeps f) : ∃ r, Settles f r := by
  by_cases h : ∃ n, f n ≠ .error .outOfFuel
  · obtain ⟨k, hk⟩ := h
    refine ⟨f k, k, fun n hn => ?_⟩
    obtain ⟨d, rfl⟩ := Nat.exists_eq_add_of_le hn
    clear hn
    induction d with
    | zero => rfl
    | succ d ih => exact hf _ _ ih hk
  · push Not at h
    exact ⟨_, 0, fun n _ => h n⟩

theorem Settles.ok_of {f : Nat → R α} {r : R α} (hf : Settles f r) (hk : Keeps f) {n : Nat} {a : α} (h : f n = .ok a) : r = .ok a := by
  obtain ⟨k, hk'⟩ := hf
  have key : ∀ d, f (n + d) = .ok a := by
    intro d
    induction d with
    | zero => exact h
    | succ d ih => exact hk _ _ ih (by simp)
  rw [← hk' (n + k) (by omega), key k]

/-! ## Levenberg–Marquardt -/

section
variable {F : Type} [Add F] [Sub F] [Mul F] [Div F] [Neg F] [Zero F] [One F] [FloatOps F]

theorem lmInner_keeps (p : Problem F) (ls : LeastSquares F) (sym : ls.Symbolic) (st : LmState F) : Keeps (fun n => lmInner p ls sym n st) := by
  intro n
  induction n generalizing st with
  | zero =>
    intro r h hr
    exact absurd h.symm hr
  | succ n ih =>
    intro r h hr
    simp only at h ⊢
    rw [lmInner] at h ⊢
    cases hs : ls.solve sym p.numResiduals p.numVariables st.triplets (FloatOps.sqrt st.lambda)
        (st.residuals ++ List.replicate p.numVariables (0 : F)) with
    | error e =>
      rw [hs] at h
      exact h
    | ok o =>
      rw [hs, ok_bind] at h
      rw [ok_bind]
      cases o with
      | none => exact ih _ r h hr
      | some b =>
        simp only at h ⊢
        split at h
        · rename_i hc
          rw [if_pos hc]
          exact h
        · rename_i hc
          rw [if_neg hc]
          cases ht : (List.range p.numVariables).foldlM (lmTrial st.vars (b.take p.numVariables)) st.scratch with
          | error e =>
            rw [ht] at h
            exact h
          | ok scratch =>
            rw [ht, ok_bind] at h
            rw [ok_bind]
            cases hp : p.residuals scratch with
            | error e =>
              rw [hp] at h
              exact h
            | ok rs =>
              rw [hp, ok_bind] at h
              rw [ok_bind]
              split at h
              · rename_i hc
                rw [if_pos hc]
                exact h
              · rename_i hc
                rw [if_neg hc]
                exact ih _ r h hr

theorem lmOuter_keeps (p : Problem F) (ls : LeastSquares F) (sym : ls.Symbolic) : ∀ (k : Nat) (st : LmState F),
    Keeps (fun n => lmOuter p ls sym n k st) := by
  intro k
  induction k with
  | zero => intro st; exact .const _
  | succ k ih =>
    intro st
    simp only [lmOuter]
    split
    · exact .const _
    · refine Keeps.bind (lmInner_keeps p ls sym st) (fun a => ?_)
      obtain ⟨stop, st⟩ := a
      simp only
      split
      · exact .const _
      · exact ih st

theorem levenbergMarquardt_keeps (p : Problem F) (ls : LeastSquares F) (x : List F) : Keeps (fun n => levenbergMarquardt p ls n x) := by
  simp only [levenbergMarquardt, lmRun]
  exact Keeps.bind (Keeps.bind (.const _) (fun start => lmOuter_keeps p ls _ 100 _)) (fun _ => .const _)

/-! ## `solve` -/

variable {fam : Nat → Optimize F} {lim : Optimize F} {opts : SolvingOptions}

theorem solve_settles (h : ∀ p x, Settles (fun n => fam n opts.optimizer p x) (lim opts.optimizer p x))
    (hlm : opts.decomposer = .recursiveAssembly → ∀ p x, Settles (fun n => fam n .levenbergMarquardt p x) (lim .levenbergMarquardt p x))
    (ord : HashOrder) (s : System F) : Settles (fun n => s.solve (fam n) ord opts) (s.solve lim ord opts) := by
  have hblock : ∀ scale exprs freeList expressions st,
      Settles (fun n => solveBlock (fam n) opts scale exprs freeList expressions st) (solveBlock lim opts scale exprs freeList expressions st) := by
    intro scale exprs freeList expressions st
    exact (Settles.const _).bind (fun values => (h _ values).bind (fun _ => .const _))
  have hcomp : ∀ st ck, Settles (fun n => solveComponent (fam n) ord opts s s.scale s.scaledExpressions st ck)
      (solveComponent lim ord opts s s.scale s.scaledExpressions st ck) := by
    intro st ck
    simp only [solveComponent]
    split
    · exact .const _
    · refine (Settles.const _).bind (fun free => (Settles.const _).bind (fun st => ?_))
      cases hd : opts.decomposer with
      | none =>
        exact (Settles.const _).bind (fun values => (Settles.const _).bind (fun es => (h _ values).bind (fun _ => .const _)))
      | singlePass =>
        exact (Settles.const _).bind (fun blocks => Settles.foldlM (fun st bi => hblock _ _ _ _ st) _ st)
      | recursiveAssembly =>
        refine (Settles.const _).bind (fun steps => Settles.foldlM (fun st step => ?_) _ st)
        exact (Settles.const _).bind (fun a => (hlm hd _ a.2).bind (fun _ => .const _))
  exact (Settles.foldlM hcomp _ _).bind (fun _ => .const _)

end

end Fiksi
