import Verif.Model.Memory
import Verif.Model.Colamd
import Verif.Proofs.Basic
import Mathlib.Tactic.Linarith
/-! # Lemmas about memory and loops over spans -/
namespace Fiksi

theorem i32_of {x : Int} (h0 : -(2 ^ 31) ≤ x) (h1 : x < 2 ^ 31) : i32 x = .ok x := if_pos ⟨h0, h1⟩

namespace Mem
variable {α : Type}

theorem read_of {m : Mem α} {i : Int} (h0 : 0 ≤ i) (h1 : i < m.size) : m.read i = .ok (m.get i) := by
  simp [read, h0, h1]

theorem read_eq_ok {m : Mem α} {i : Int} {v : α} : m.read i = .ok v ↔ (0 ≤ i ∧ i < m.size) ∧ m.get i = v := by
  unfold read
  by_cases h : 0 ≤ i ∧ i < m.size
  · rw [if_pos h]; simp [h]
  · rw [if_neg h]; simp [h]

/-- The memory after an assignment. -/
def put (m : Mem α) (i : Int) (v : α) : Mem α := ⟨m.size, fun j => if j = i then v else m.get j⟩

@[simp] theorem put_size (m : Mem α) (i : Int) (v : α) : (m.put i v).size = m.size := rfl
theorem put_get (m : Mem α) (i : Int) (v : α) (j : Int) : (m.put i v).get j = if j = i then v else m.get j := rfl
@[simp] theorem put_get_self (m : Mem α) (i : Int) (v : α) : (m.put i v).get i = v := by simp [put_get]
theorem put_get_ne (m : Mem α) {i j : Int} (v : α) (h : j ≠ i) : (m.put i v).get j = m.get j := by simp [put_get, h]

theorem write_of {m : Mem α} {i : Int} (v : α) (h0 : 0 ≤ i) (h1 : i < m.size) : m.write i v = .ok (m.put i v) := by
  simp [write, h0, h1, put]

theorem write_eq_ok {m m' : Mem α} {i : Int} {v : α} : m.write i v = .ok m' ↔ (0 ≤ i ∧ i < m.size) ∧ m.put i v = m' := by
  unfold write
  by_cases h : 0 ≤ i ∧ i < m.size
  · rw [if_pos h]; simp [h, put]
  · rw [if_neg h]; simp [h]

theorem modify_of {m : Mem α} {i : Int} (f : α → α) (h0 : 0 ≤ i) (h1 : i < m.size) : m.modify i f = .ok (m.put i (f (m.get i))) := by
  simp [modify, read_of h0 h1, write_of _ h0 h1]

theorem modify_eq_ok {m m' : Mem α} {i : Int} {f : α → α} :
    m.modify i f = .ok m' ↔ (0 ≤ i ∧ i < m.size) ∧ m.put i (f (m.get i)) = m' := by
  unfold modify
  rw [bind_eq_ok]
  constructor
  · rintro ⟨v, h1, h2⟩
    rw [read_eq_ok] at h1
    rw [write_eq_ok] at h2
    obtain ⟨h1, rfl⟩ := h1
    exact h2
  · rintro ⟨h, rfl⟩
    exact ⟨_, read_of h.1 h.2, write_of _ h.1 h.2⟩

@[simp] theorem ofList_size (l : List α) (d : α) : (ofList l d).size = l.length := rfl

theorem ofList_get (l : List α) (d : α) (i : Nat) : (ofList l d).get i = l.getD i d := by simp [ofList]

theorem slice_of {m : Mem α} {start stop : Int} (h0 : 0 ≤ start) (h1 : start ≤ stop) (h2 : stop ≤ m.size) :
    m.slice start stop = .ok ((List.range (stop - start).toNat).map (fun i : Nat => m.get (start + i))) := by
  simp [slice, h0, h1, h2]

end Mem

theorem mem_span {start x : Int} {n : Nat} : x ∈ span start n ↔ start ≤ x ∧ x < start + n := by
  unfold span
  simp only [List.mem_map, List.mem_range]
  constructor
  · rintro ⟨i, hi, rfl⟩; omega
  · rintro ⟨h1, h2⟩; exact ⟨(x - start).toNat, by omega, by omega⟩

theorem span_zero (start : Int) : span start 0 = [] := rfl

theorem span_succ (start : Int) (n : Nat) : span start (n + 1) = span start n ++ [start + n] := by
  simp [span, List.range_succ]

theorem span_cons (start : Int) (n : Nat) : span start (n + 1) = start :: span (start + 1) n := by
  simp only [span, List.range_succ_eq_map, List.map_cons, List.map_map, List.cons.injEq]
  refine ⟨by simp, List.map_congr_left fun i _ => ?_⟩
  simp only [Function.comp_apply, Nat.cast_succ]
  omega

theorem span_length (start : Int) (n : Nat) : (span start n).length = n := by simp [span]

variable {σ : Type}

/-- A loop over `start..stop` whose body never fails under an invariant. -/
theorem foldlM_span (P : Int → σ → Prop) (f : σ → Int → R σ) (start stop : Int) (n : Nat) (hn : (n : Int) = stop - start) (s : σ)
    (h0 : P start s) (hstep : ∀ x, start ≤ x → x < stop → ∀ s, P x s → ∃ s', f s x = .ok s' ∧ P (x + 1) s') :
    ∃ s', (span start n).foldlM f s = .ok s' ∧ P stop s' := by
  induction n generalizing start s with
  | zero => exact ⟨s, rfl, by rwa [show stop = start by omega]⟩
  | succ n ih =>
    obtain ⟨s1, h1, h2⟩ := hstep start (le_refl _) (by omega) s h0
    obtain ⟨s2, h3, h4⟩ := ih (start + 1) (by omega) s1 h2 (fun x hx hx' => hstep x (by omega) hx')
    exact ⟨s2, by rw [span_cons, List.foldlM_cons, h1, ok_bind, h3], h4⟩

/-- A loop downwards over `0..n`. -/
theorem foldlM_span_reverse (P : Int → σ → Prop) (f : σ → Int → R σ) (n : Nat) (s : σ) (h0 : P n s)
    (hstep : ∀ x, 0 ≤ x → x < n → ∀ s, P (x + 1) s → ∃ s', f s x = .ok s' ∧ P x s') :
    ∃ s', (span 0 n).reverse.foldlM f s = .ok s' ∧ P 0 s' := by
  induction n generalizing s with
  | zero => exact ⟨s, rfl, h0⟩
  | succ n ih =>
    obtain ⟨s1, h1, h2⟩ := hstep n (by omega) (by push_cast; omega) s (by push_cast at h0; exact h0)
    obtain ⟨s2, h3, h4⟩ := ih s1 h2 (fun x hx hx' => hstep x hx (by push_cast; omega))
    refine ⟨s2, ?_, h4⟩
    rw [span_succ, List.reverse_append, List.reverse_singleton, List.singleton_append, List.foldlM_cons]
    simp only [zero_add, h1, ok_bind, h3]

/-- A loop that may leave with an error status. -/
theorem foldC_span (P : Int → σ → Prop) (E : ColamdStats → Prop) (f : σ → Int → R (Except ColamdStats σ)) (start stop : Int) (n : Nat)
    (hn : (n : Int) = stop - start) (s : σ) (h0 : P start s)
    (hstep : ∀ x, start ≤ x → x < stop → ∀ s, P x s → (∃ s', f s x = .ok (.ok s') ∧ P (x + 1) s') ∨ ∃ e, f s x = .ok (.error e) ∧ E e) :
    (∃ s', foldC f (span start n) s = .ok (.ok s') ∧ P stop s') ∨ ∃ e, foldC f (span start n) s = .ok (.error e) ∧ E e := by
  induction n generalizing start s with
  | zero => exact Or.inl ⟨s, rfl, by rwa [show stop = start by omega]⟩
  | succ n ih =>
    rw [span_cons, foldC]
    rcases hstep start (le_refl _) (by omega) s h0 with ⟨s1, h1, h2⟩ | ⟨e, h1, h2⟩
    · rcases ih (start + 1) (by omega) s1 h2 (fun x hx hx' => hstep x (by omega) hx') with h | h
      · obtain ⟨s2, h3, h4⟩ := h
        exact Or.inl ⟨s2, by rw [h1, ok_bind]; exact h3, h4⟩
      · obtain ⟨e, h3, h4⟩ := h
        exact Or.inr ⟨e, by rw [h1, ok_bind]; exact h3, h4⟩
    · exact Or.inr ⟨e, by rw [h1, ok_bind]; rfl, h2⟩

end Fiksi
