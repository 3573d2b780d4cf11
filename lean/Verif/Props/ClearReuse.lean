import Verif.Proofs.LmQr
/-!
# C31: a triplet matrix that is cleared and filled again

`levenberg_marquardt` keeps one `TripletMat`, made with the shape of the Jacobian, and clears it after each accepted step
(`lm.rs:173-184`). `clear` also forgets the shape; the model of the linear solver starts from the shape of the Jacobian each time
(`tripletsOf`). The theorem shows that this is the same.
-/
namespace Fiksi
open Spec

section
variable {T : Type}

theorem pushes_eq (l : List (Nat × Nat × T)) (a : TripletMat T) : l.foldl (fun a t => a.push t.1 t.2.1 t.2.2) a =
    ⟨l.foldl (fun k t => max k (t.1 + 1)) a.nrows, l.foldl (fun k t => max k (t.2.1 + 1)) a.ncols, a.rowIndices ++ l.map (·.1), a.colIndices ++ l.map (·.2.1), a.values ++ l.map (·.2.2)⟩ := by
  induction l generalizing a with
  | nil => simp
  | cons t l ih => rw [List.foldl_cons, ih]; simp [TripletMat.push]

theorem foldl_max_start {α : Type} (f : α → Nat) (l : List α) (k : Nat) : l.foldl (fun k t => max k (f t)) k = max k (l.foldl (fun k t => max k (f t)) 0) := by
  induction l generalizing k with
  | nil => simp
  | cons t l ih => rw [List.foldl_cons, List.foldl_cons, ih, ih (max 0 (f t))]; omega

theorem le_foldl_max {α : Type} (f : α → Nat) {l : List α} {t : α} (ht : t ∈ l) (k : Nat) : f t ≤ l.foldl (fun k t => max k (f t)) k := by
  induction l generalizing k with
  | nil => simp at ht
  | cons s l ih =>
    rw [List.foldl_cons]
    rcases List.mem_cons.1 ht with rfl | ht
    · rw [foldl_max_start]; omega
    · exact ih ht _

/-- C31: whatever a triplet matrix held and whatever its shape was, after `clear` its shape is 0 × 0 and it has no triplets; filling it afterwards gives the same as filling a new one of shape 0 × 0. -/
theorem C31_cleared (a : TripletMat T) (l : List (Nat × Nat × T)) : a.clear.nrows = 0 ∧ a.clear.ncols = 0 ∧ a.clear.triplets = [] ∧
    l.foldl (fun a t => a.push t.1 t.2.1 t.2.2) a.clear = TripletMat.fromIter l := ⟨rfl, rfl, rfl, rfl⟩

/-- C31: Levenberg–Marquardt may keep one triplet matrix. Whatever it held before, clearing it and pushing the derivatives of `m` residuals with respect to `n > 0` variables, followed by the entries for
the damping, gives the same matrix, shape included, as pushing them to a new matrix of the shape of the Jacobian. (Without variables the code never comes to clear the matrix: its step is empty and ends
the search.) -/
theorem C31_reused [Zero T] (a : TripletMat T) {m n : Nat} (hn : 0 < n) {ts : List (Nat × Nat × T)} (h : Spec.Augmented m n ts) :
    ts.foldl (fun a t => a.push t.1 t.2.1 t.2.2) a.clear = ts.foldl (fun a t => a.push t.1 t.2.1 t.2.2) (TripletMat.new m n) := by
  obtain ⟨top, htop, rfl⟩ := h
  have hlast : (m + (n - 1), n - 1, (0 : T)) ∈ top ++ (List.range n).map (fun i => (m + i, i, (0 : T))) :=
    List.mem_append.2 (.inr (List.mem_map.2 ⟨n - 1, by simp; omega, rfl⟩))
  rw [pushes_eq, pushes_eq]
  have h1 := le_foldl_max (fun t : Nat × Nat × T => t.1 + 1) hlast 0
  have h2 := le_foldl_max (fun t : Nat × Nat × T => t.2.1 + 1) hlast 0
  have h3 := foldl_max_start (fun t : Nat × Nat × T => t.1 + 1) (top ++ (List.range n).map (fun i => (m + i, i, (0 : T)))) m
  have h4 := foldl_max_start (fun t : Nat × Nat × T => t.2.1 + 1) (top ++ (List.range n).map (fun i => (m + i, i, (0 : T)))) n
  simp only at h1 h2 h3 h4
  congr 1
  · show List.foldl _ 0 _ = List.foldl _ m _
    omega
  · show List.foldl _ 0 _ = List.foldl _ n _
    omega

/-- A case for `C31_reused`: one residual, two variables, the second without a derivative, and a matrix that was larger before. -/
example : Spec.Augmented 1 2 [(0, 0, (7 : Int)), (1, 0, 0), (2, 1, 0)] ∧
    ([(0, 0, 7), (1, 0, 0), (2, 1, 0)].foldl (fun a t => a.push t.1 t.2.1 t.2.2) ((TripletMat.new 9 9).push 4 4 (1 : Int)).clear).nrows = 3 :=
  ⟨⟨[(0, 0, 7)], by simp, rfl⟩, by decide⟩

end

end Fiksi
