import Verif.Model.Basic
import Mathlib.Data.List.Basic
/-! # Lemmas about the panic monad and checked indexing -/
namespace Fiksi

variable {α β σ : Type}

@[simp] theorem ok_bind (a : α) (f : α → R β) : ((Except.ok a : R α) >>= f) = f a := rfl
@[simp] theorem error_bind (p : Panic) (f : α → R β) : ((Except.error p : R α) >>= f) = Except.error p := rfl
@[simp] theorem pure_eq_ok (a : α) : (pure a : R α) = Except.ok a := rfl

theorem bind_eq_ok {x : R α} {f : α → R β} {b : β} :
    (x >>= f) = .ok b ↔ ∃ a, x = .ok a ∧ f a = .ok b := by
  cases x with
  | error p => simp
  | ok a => simp

theorem idx_eq_ok {l : List α} {i : Nat} {a : α} : idx l i = .ok a ↔ l[i]? = some a := by
  unfold idx
  cases h : l[i]? <;> simp

theorem idx_of {l : List α} {i : Nat} {a : α} (h : l[i]? = some a) : idx l i = .ok a := idx_eq_ok.2 h

theorem setIdx_of {l : List α} {i : Nat} (a : α) (h : i < l.length) : setIdx l i a = .ok (l.set i a) := by
  simp [setIdx, h]

theorem setIdx_eq_ok {l l' : List α} {i : Nat} {a : α} :
    setIdx l i a = .ok l' ↔ i < l.length ∧ l.set i a = l' := by
  unfold setIdx
  by_cases h : i < l.length <;> simp [h]

theorem toU32_of {n : Nat} (h : n < 2 ^ 32) : toU32 n = .ok n := by
  simp [toU32, h]

theorem toU32_eq_ok {n m : Nat} : toU32 n = .ok m ↔ n < 2 ^ 32 ∧ n = m := by
  unfold toU32
  by_cases h : n < 2 ^ 32
  · rw [if_pos h]; simp only [Except.ok.injEq, h, true_and]
  · rw [if_neg h]; simp only [reduceCtorEq, h, false_and]

theorem unwrap_eq_ok {o : Option α} {a : α} : unwrap o = .ok a ↔ o = some a := by
  cases o <;> simp [unwrap]

/-- A loop whose body never panics under an invariant it preserves, does not panic and preserves the invariant. -/
theorem foldlM_ok (P : σ → Prop) (f : σ → α → R σ) (l : List α) (s : σ) (hP : P s)
    (h : ∀ s a, a ∈ l → P s → ∃ s', f s a = .ok s' ∧ P s') :
    ∃ s', l.foldlM f s = .ok s' ∧ P s' := by
  induction l generalizing s with
  | nil => exact ⟨s, rfl, hP⟩
  | cons a l ih =>
    obtain ⟨s', h1, h2⟩ := h s a (by simp) hP
    obtain ⟨s'', h3, h4⟩ := ih s' h2 (fun s a ha => h s a (by simp [ha]))
    exact ⟨s'', by simp [h1, h3], h4⟩

/-- Partial-correctness version of `foldlM_ok`. -/
theorem foldlM_inv (P : σ → Prop) (f : σ → α → R σ) (l : List α) (s s' : σ) (hP : P s)
    (h : ∀ s a s', a ∈ l → P s → f s a = .ok s' → P s') (hs : l.foldlM f s = .ok s') : P s' := by
  induction l generalizing s with
  | nil => simp only [List.foldlM_nil, pure_eq_ok, Except.ok.injEq] at hs; exact hs ▸ hP
  | cons a l ih =>
    rw [List.foldlM_cons, bind_eq_ok] at hs
    obtain ⟨s1, h1, h2⟩ := hs
    exact ih s1 (h s a s1 (by simp) hP h1) (fun s a s' ha => h s a s' (by simp [ha])) h2

theorem mapM_ok_of (f : α → R β) (g : α → β) (l : List α) (h : ∀ a ∈ l, f a = .ok (g a)) :
    l.mapM f = .ok (l.map g) := by
  induction l with
  | nil => rfl
  | cons a l ih =>
    rw [List.mapM_cons, h a (by simp), ih (fun a ha => h a (by simp [ha]))]
    rfl

/-! ## Offsets into a `flatMap` -/

theorem flatMap_getElem? (f : α → List β) (l : List α) (i j : Nat) (a : α) (h : l[i]? = some a)
    (hj : j < (f a).length) :
    (l.flatMap f)[((l.take i).flatMap f).length + j]? = (f a)[j]? := by
  induction l generalizing i with
  | nil => simp at h
  | cons b l ih =>
    cases i with
    | zero =>
      simp only [List.getElem?_cons_zero, Option.some.injEq] at h
      subst h
      simp [List.flatMap_cons, hj, List.getElem?_append_left]
    | succ i =>
      simp only [List.getElem?_cons_succ] at h
      have := ih i h
      simp only [List.flatMap_cons, List.take_succ_cons, List.length_append]
      rw [List.getElem?_append_right (by omega)]
      rw [← this]
      congr 1
      omega

theorem flatMap_set (f : α → List β) (l : List α) (i j : Nat) (a b : α) (v : β) (h : l[i]? = some a)
    (hj : j < (f a).length) (hb : f b = (f a).set j v) :
    (l.flatMap f).set (((l.take i).flatMap f).length + j) v = (l.set i b).flatMap f := by
  induction l generalizing i with
  | nil => simp at h
  | cons c l ih =>
    cases i with
    | zero =>
      simp only [List.getElem?_cons_zero, Option.some.injEq] at h
      subst h
      simp [List.flatMap_cons, hj, hb]
    | succ i =>
      simp only [List.getElem?_cons_succ] at h
      have := ih i h
      simp only [List.flatMap_cons, List.take_succ_cons, List.length_append, List.set_cons_succ]
      rw [← this, List.set_append_right _ _ (by omega)]
      congr 2
      omega

end Fiksi
