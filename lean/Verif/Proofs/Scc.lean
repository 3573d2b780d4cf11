import Verif.Model.Scc
import Verif.Spec.Scc
import Verif.Proofs.Matching
import Mathlib.Data.List.Perm.Basic
import Mathlib.Data.List.Perm.Subperm
/-! # Pearce's algorithm computes the strongly connected components in reverse topological order -/
namespace Fiksi

open Relation (ReflTransGen)

/-- Edges of a graph. -/
def VertexGraph.Edge (g : VertexGraph) (x y : Nat) : Prop := ∃ l, g.neighbors x = some l ∧ y ∈ l

/-- What `tarjan_pearce` needs of its input. -/
structure VertexGraph.Ok (g : VertexGraph) : Prop where
  nodup : g.vertices.Nodup
  neighbors : ∀ x ∈ g.vertices, ∃ l, g.neighbors x = some l
  closed : ∀ x ∈ g.vertices, ∀ y, g.Edge x y → y ∈ g.vertices
  small : g.vertices.length + 1 < 2 ^ 32

/-- Visiting number of an active vertex. -/
def num (A : List Nat) (x : Nat) : Nat := A.idxOf x + 1

theorem num_append_left {A B : List Nat} {x : Nat} (h : x ∈ A) : num (A ++ B) x = num A x := by
  unfold num; rw [List.idxOf_append_of_mem h]

theorem num_append_self {A B : List Nat} {v : Nat} (h : v ∉ A) : num (A ++ v :: B) v = A.length + 1 := by
  unfold num; rw [List.idxOf_append_of_notMem h]; simp

theorem num_append_right {A B : List Nat} {x : Nat} (h : x ∉ A) : num (A ++ B) x = A.length + num B x := by
  unfold num; rw [List.idxOf_append_of_notMem h]; omega

theorem num_le {A : List Nat} {x : Nat} (h : x ∈ A) : num A x ≤ A.length := by
  unfold num
  exact List.idxOf_lt_length_of_mem h

theorem mem_left_of_num {A B : List Nat} {x : Nat} (hx : x ∈ A ++ B) (h : num (A ++ B) x ≤ A.length) : x ∈ A := by
  by_contra hn
  rw [num_append_right hn] at h
  unfold num at h
  omega

/-- Invariant. `P` are the vertices being visited (innermost first), `A` the active vertices in the order of their first visit:
those being visited and those on the stack. -/
structure SInv (g : VertexGraph) (P A : List Nat) (st : SccState) : Prop where
  nodupA : A.Nodup
  subP : ∀ p ∈ P, p ∈ A
  sortP : P.Pairwise (fun p q => num A q < num A p)
  seen : ∀ x, x ∈ st.rootIndex.keys ↔ x ∈ A ∨ x ∈ st.sccs.flatten
  disj : ∀ x ∈ A, x ∉ st.sccs.flatten
  nodupD : st.sccs.flatten.Nodup
  verts : ∀ x, x ∈ A ∨ x ∈ st.sccs.flatten → x ∈ g.vertices
  index : st.index = A.length + 1
  c : st.sccs.length < g.vertices.length → st.c = g.vertices.length - 1 - st.sccs.length
  nodupS : st.stack.Nodup
  stack : ∀ x, x ∈ st.stack ↔ x ∈ A ∧ x ∉ P
  low : ∀ x ∈ A, ∃ r y, st.rootIndex.get? x = some r ∧ r ≤ num A x ∧ y ∈ A ∧ num A y = r ∧ ReflTransGen g.Edge x y
  fin : ∀ x ∈ A, x ∉ P → ∃ r, st.rootIndex.get? x = some r ∧ r < num A x ∧
    ∀ y, g.Edge x y → y ∈ st.sccs.flatten ∨ (y ∈ A ∧ r ≤ num A y)
  down : ∀ p ∈ P, ∀ x ∈ A, num A p ≤ num A x → ReflTransGen g.Edge p x
  up : ∀ x ∈ A, x ∉ P → ∃ p ∈ P, num A p ≤ num A x ∧ (∀ q ∈ P, num A q ≤ num A x → num A q ≤ num A p) ∧
    ReflTransGen g.Edge x p
  doneIdx : ∀ x ∈ st.sccs.flatten, ∃ r, st.rootIndex.get? x = some r ∧ g.vertices.length - st.sccs.length ≤ r
  nonempty : ∀ s ∈ st.sccs, s ≠ []
  exact : ∀ s ∈ st.sccs, ∀ x ∈ s, ∀ y, y ∈ s ↔ Spec.StronglyConnected g.Edge x y
  order : ∀ (i : Nat) (s : List Nat), st.sccs[i]? = some s → ∀ x ∈ s, ∀ y, g.Edge x y →
    ∃ (j : Nat) (t : List Nat), j ≤ i ∧ st.sccs[j]? = some t ∧ y ∈ t

theorem length_le_flatten (ss : List (List Nat)) (h : ∀ s ∈ ss, s ≠ []) : ss.length ≤ ss.flatten.length := by
  induction ss with
  | nil => simp
  | cons s ss ih =>
    have h1 := ih (fun t ht => h t (by simp [ht]))
    have h2 : s.length ≠ 0 := by
      have := h s (by simp)
      simpa using this
    simp only [List.length_cons, List.flatten_cons, List.length_append]
    omega

theorem SInv.count {g : VertexGraph} {P A : List Nat} {st : SccState} (h : SInv g P A st) :
    A.length + st.sccs.flatten.length ≤ g.vertices.length := by
  have hn : (A ++ st.sccs.flatten).Nodup :=
    List.Nodup.append h.nodupA h.nodupD (fun x hx => h.disj x hx)
  have hs : (A ++ st.sccs.flatten) ⊆ g.vertices := by
    intro x hx
    exact h.verts x (List.mem_append.1 hx)
  have := (List.Nodup.subperm hn hs).length_le
  simpa using this

theorem SInv.count_lt {g : VertexGraph} {P A : List Nat} {st : SccState} (h : SInv g P A st) {v : Nat} (hv : v ∈ g.vertices)
    (hu : st.rootIndex.get? v = none) : A.length + st.sccs.flatten.length + 1 ≤ g.vertices.length := by
  have hnk := (IMap.get?_eq_none_iff _ _).1 hu
  rw [h.seen] at hnk
  have hnk' : v ∉ A ∧ v ∉ st.sccs.flatten := by simpa using hnk
  have hn : (v :: (A ++ st.sccs.flatten)).Nodup := by
    rw [List.nodup_cons]
    refine ⟨?_, List.Nodup.append h.nodupA h.nodupD (fun x hx => h.disj x hx)⟩
    simp only [List.mem_append, not_or]
    exact hnk'
  have hs : (v :: (A ++ st.sccs.flatten)) ⊆ g.vertices := by
    intro x hx
    rcases List.mem_cons.1 hx with hx | hx
    · exact hx ▸ hv
    · exact h.verts x (List.mem_append.1 hx)
  have := (List.Nodup.subperm hn hs).length_le
  simpa using this

/-- Vertices in finished components keep an index that no active vertex can exceed. -/
theorem SInv.done_ge {g : VertexGraph} {P A : List Nat} {st : SccState} (h : SInv g P A st) {x : Nat}
    (hx : x ∈ st.sccs.flatten) {r : Nat} (hr : st.rootIndex.get? x = some r) {v : Nat} (hv : v ∈ A) : num A v ≤ r := by
  obtain ⟨r', h1, h2⟩ := h.doneIdx x hx
  rw [hr] at h1
  cases h1
  have h3 := h.count
  have h4 := length_le_flatten _ h.nonempty
  have h5 := num_le hv
  omega

/-- Starting the visit of `v`. -/
theorem SInv.enter {g : VertexGraph} {P A : List Nat} {st : SccState} (h : SInv g P A st) {v : Nat} (hv : v ∈ g.vertices)
    (hu : st.rootIndex.get? v = none) (hpath : ∀ p ∈ P, ReflTransGen g.Edge p v) :
    SInv g (v :: P) (A ++ [v]) { st with rootIndex := st.rootIndex.insert v st.index, index := st.index + 1 } := by
  have hnk := (IMap.get?_eq_none_iff _ _).1 hu
  rw [h.seen] at hnk
  have hvA : v ∉ A := fun h' => hnk (Or.inl h')
  have hvD : v ∉ st.sccs.flatten := fun h' => hnk (Or.inr h')
  have hnumA : ∀ x ∈ A, num (A ++ [v]) x = num A x := fun x hx => num_append_left hx
  have hnumv : num (A ++ [v]) v = A.length + 1 := num_append_self hvA
  have hneA : ∀ x ∈ A, x ≠ v := fun x hx he => hvA (he ▸ hx)
  have hneD : ∀ x ∈ st.sccs.flatten, x ≠ v := fun x hx he => hvD (he ▸ hx)
  have hPA := h.subP
  have hcases : ∀ x, x ∈ A ++ [v] → x ∈ A ∨ x = v := by
    intro x hx; simpa using hx
  refine ⟨?_, ?_, ?_, ?_, ?_, h.nodupD, ?_, ?_, h.c, h.nodupS, ?_, ?_, ?_, ?_, ?_, ?_, h.nonempty, h.exact, h.order⟩
  · exact List.Nodup.append h.nodupA (by simp) (by simpa using hvA)
  · intro p hp
    rcases List.mem_cons.1 hp with hp | hp
    · simp [hp]
    · simp [hPA p hp]
  · rw [List.pairwise_cons]
    refine ⟨?_, ?_⟩
    · intro q hq
      rw [hnumv, hnumA q (hPA q hq)]
      have := num_le (hPA q hq)
      omega
    · refine h.sortP.imp_of_mem ?_
      intro p q hp hq hpq
      rw [hnumA q (hPA q hq), hnumA p (hPA p hp)]
      exact hpq
  · intro x
    rw [IMap.mem_keys_insert, h.seen]
    simp only [List.mem_append, List.mem_singleton]
    tauto
  · intro x hx
    rcases hcases x hx with hx | hx
    · exact h.disj x hx
    · exact hx ▸ hvD
  · intro x hx
    rcases hx with hx | hx
    · rcases hcases x hx with hx | hx
      · exact h.verts x (Or.inl hx)
      · exact hx ▸ hv
    · exact h.verts x (Or.inr hx)
  · simp [h.index]
  · intro x
    show x ∈ st.stack ↔ _
    rw [h.stack]
    simp only [List.mem_append, List.mem_cons, List.not_mem_nil, or_false, not_or]
    constructor
    · rintro ⟨h1, h2⟩
      exact ⟨Or.inl h1, hneA x h1, h2⟩
    · rintro ⟨h1 | h1, h2, h3⟩
      · exact ⟨h1, h3⟩
      · exact absurd h1 h2
  · intro x hx
    show ∃ r y, (st.rootIndex.insert v st.index).get? x = some r ∧ _
    rcases hcases x hx with hx | hx
    · obtain ⟨r, y, h1, h2, h3, h4, h5⟩ := h.low x hx
      refine ⟨r, y, ?_, by rw [hnumA x hx]; exact h2, by simp [h3], by rw [hnumA y h3]; exact h4, h5⟩
      rw [IMap.get?_insert_ne _ _ (hneA x hx)]; exact h1
    · subst hx
      refine ⟨st.index, x, IMap.get?_insert_self _ _ _, ?_, by simp, ?_, ReflTransGen.refl⟩
      · rw [hnumv, h.index]
      · rw [hnumv, h.index]
  · intro x hx hxP
    have hxP' : x ≠ v ∧ x ∉ P := by simpa using hxP
    have hxA : x ∈ A := (hcases x hx).resolve_right hxP'.1
    obtain ⟨r, h1, h2, h3⟩ := h.fin x hxA hxP'.2
    refine ⟨r, ?_, by rw [hnumA x hxA]; exact h2, ?_⟩
    · show (st.rootIndex.insert v st.index).get? x = some r
      rw [IMap.get?_insert_ne _ _ hxP'.1]; exact h1
    · intro y hy
      rcases h3 y hy with h4 | ⟨h4, h5⟩
      · exact Or.inl h4
      · exact Or.inr ⟨by simp [h4], by rw [hnumA y h4]; exact h5⟩
  · intro p hp x hx hpx
    rcases List.mem_cons.1 hp with hp | hp
    · subst hp
      rcases hcases x hx with hx | hx
      · rw [hnumv, hnumA x hx] at hpx
        have := num_le hx
        omega
      · rw [hx]
    · rcases hcases x hx with hx | hx
      · rw [hnumA p (hPA p hp), hnumA x hx] at hpx
        exact h.down p hp x hx hpx
      · rw [hx]; exact hpath p hp
  · intro x hx hxP
    have hxP' : x ≠ v ∧ x ∉ P := by simpa using hxP
    have hxA : x ∈ A := (hcases x hx).resolve_right hxP'.1
    obtain ⟨p, h1, h2, h3, h4⟩ := h.up x hxA hxP'.2
    refine ⟨p, by simp [h1], by rw [hnumA p (hPA p h1), hnumA x hxA]; exact h2, ?_, h4⟩
    intro q hq hqx
    rcases List.mem_cons.1 hq with hq | hq
    · subst hq
      rw [hnumv, hnumA x hxA] at hqx
      have := num_le hxA
      omega
    · rw [hnumA q (hPA q hq), hnumA x hxA] at hqx
      rw [hnumA q (hPA q hq), hnumA p (hPA p h1)]
      exact h3 q hq hqx
  · intro x hx
    obtain ⟨r, h1, h2⟩ := h.doneIdx x hx
    refine ⟨r, ?_, h2⟩
    show (st.rootIndex.insert v st.index).get? x = some r
    rw [IMap.get?_insert_ne _ _ (hneD x hx)]; exact h1

/-- Lowering the index of the innermost vertex. -/
theorem SInv.lower {g : VertexGraph} {P A : List Nat} {st : SccState} {v : Nat} (h : SInv g (v :: P) A st) {w r : Nat}
    (hw : w ∈ A) (hr : st.rootIndex.get? w = some r) (hlt : r ≤ num A v) (hedge : g.Edge v w) :
    SInv g (v :: P) A { st with rootIndex := st.rootIndex.insert v r } := by
  have hvA : v ∈ A := h.subP v (by simp)
  have hvD : v ∉ st.sccs.flatten := h.disj v hvA
  have hvk : v ∈ st.rootIndex.keys := (h.seen v).2 (Or.inl hvA)
  refine ⟨h.nodupA, h.subP, h.sortP, ?_, h.disj, h.nodupD, h.verts, h.index, h.c, h.nodupS, h.stack, ?_, ?_, h.down, h.up, ?_,
    h.nonempty, h.exact, h.order⟩
  · intro x
    rw [IMap.keys_insert_of_mem _ _ hvk]
    exact h.seen x
  · intro x hx
    show ∃ r' y, (st.rootIndex.insert v r).get? x = some r' ∧ _
    by_cases hxv : x = v
    · subst hxv
      obtain ⟨r', y, h1, h2, h3, h4, h5⟩ := h.low w hw
      rw [hr] at h1
      cases h1
      exact ⟨r, y, IMap.get?_insert_self _ _ _, hlt, h3, h4, ReflTransGen.head hedge h5⟩
    · rw [IMap.get?_insert_ne _ _ hxv]
      exact h.low x hx
  · intro x hx hxP
    have hxv : x ≠ v := fun he => hxP (by simp [he])
    obtain ⟨r', h1, h2⟩ := h.fin x hx hxP
    refine ⟨r', ?_, h2⟩
    show (st.rootIndex.insert v r).get? x = some r'
    rw [IMap.get?_insert_ne _ _ hxv]; exact h1
  · intro x hx
    obtain ⟨r', h1, h2⟩ := h.doneIdx x hx
    refine ⟨r', ?_, h2⟩
    show (st.rootIndex.insert v r).get? x = some r'
    have hxv : x ≠ v := fun he => hvD (he ▸ hx)
    rw [IMap.get?_insert_ne _ _ hxv]; exact h1

/-- The visit of `v` ends and `v` is not the root of its component: it goes on the stack. -/
theorem SInv.leave {g : VertexGraph} {P A ext : List Nat} {st : SccState} {v r : Nat} (h : SInv g (v :: P) (A ++ v :: ext) st)
    (hr : st.rootIndex.get? v = some r) (hlt : r < A.length + 1)
    (hedge : ∀ y, g.Edge v y → y ∈ st.sccs.flatten ∨ (y ∈ A ++ v :: ext ∧ r ≤ num (A ++ v :: ext) y)) :
    SInv g P (A ++ v :: ext) { st with stack := v :: st.stack } := by
  have hvB : v ∈ A ++ v :: ext := by simp
  have hvA : v ∉ A := by
    have := h.nodupA
    rw [List.nodup_append] at this
    intro hv
    exact this.2.2 v hv v (by simp) rfl
  have hnumv : num (A ++ v :: ext) v = A.length + 1 := num_append_self hvA
  have hPv : ∀ p ∈ P, num (A ++ v :: ext) p < num (A ++ v :: ext) v := (List.pairwise_cons.1 h.sortP).1
  have hvP : v ∉ P := fun hv => absurd (hPv v hv) (by omega)
  -- `v` reaches some vertex being visited, hence the innermost one
  obtain ⟨r', y, y1, y2, y3, y4, y5⟩ := h.low v hvB
  rw [hr] at y1
  cases y1
  have hyv : y ≠ v := by
    intro he; subst he; omega
  have hmax : ∃ p ∈ P, (∀ q ∈ P, num (A ++ v :: ext) q ≤ num (A ++ v :: ext) p) ∧ ReflTransGen g.Edge v p := by
    have hp0 : ∃ p0 ∈ P, ReflTransGen g.Edge v p0 := by
      by_cases hyP : y ∈ P
      · exact ⟨y, hyP, y5⟩
      · obtain ⟨p, h1, h2, _, h4⟩ := h.up y y3 (by simp [hyv, hyP])
        rcases List.mem_cons.1 h1 with h1 | h1
        · subst h1; omega
        · exact ⟨p, h1, y5.trans h4⟩
    obtain ⟨p0, hp0, hvp0⟩ := hp0
    cases hPc : P with
    | nil => rw [hPc] at hp0; simp at hp0
    | cons p1 P1 =>
      have hs := (List.pairwise_cons.1 h.sortP).2
      rw [hPc, List.pairwise_cons] at hs
      have hle : ∀ q ∈ p1 :: P1, num (A ++ v :: ext) q ≤ num (A ++ v :: ext) p1 := by
        intro q hq
        rcases List.mem_cons.1 hq with hq | hq
        · rw [hq]
        · exact Nat.le_of_lt (hs.1 q hq)
      refine ⟨p1, by simp, hle, hvp0.trans ?_⟩
      exact h.down p0 (by simp [hp0]) p1 (h.subP p1 (by simp [hPc])) (hle p0 (hPc ▸ hp0))
  obtain ⟨p, hpP, hpmax, hvp⟩ := hmax
  refine ⟨h.nodupA, fun q hq => h.subP q (by simp [hq]), (List.pairwise_cons.1 h.sortP).2, h.seen, h.disj, h.nodupD, h.verts,
    h.index, h.c, ?_, ?_, h.low, ?_, fun q hq => h.down q (by simp [hq]), ?_, h.doneIdx, h.nonempty, h.exact, h.order⟩
  · show (v :: st.stack).Nodup
    rw [List.nodup_cons]
    refine ⟨?_, h.nodupS⟩
    rw [h.stack]
    simp
  · intro x
    show x ∈ v :: st.stack ↔ _
    rw [List.mem_cons, h.stack]
    constructor
    · rintro (rfl | ⟨h1, h2⟩)
      · exact ⟨hvB, hvP⟩
      · exact ⟨h1, fun hx => h2 (by simp [hx])⟩
    · rintro ⟨h1, h2⟩
      by_cases hxv : x = v
      · exact Or.inl hxv
      · exact Or.inr ⟨h1, by simp [hxv, h2]⟩
  · intro x hx hxP
    by_cases hxv : x = v
    · subst hxv
      exact ⟨r, hr, by omega, hedge⟩
    · exact h.fin x hx (by simp [hxv, hxP])
  · intro x hx hxP
    by_cases hxv : x = v
    · subst hxv
      exact ⟨p, hpP, Nat.le_of_lt (hPv p hpP), fun q hq _ => hpmax q hq, hvp⟩
    · obtain ⟨p', h1, h2, h3, h4⟩ := h.up x hx (by simp [hxv, hxP])
      rcases List.mem_cons.1 h1 with h1 | h1
      · subst h1
        exact ⟨p, hpP, Nat.le_trans (Nat.le_of_lt (hPv p hpP)) h2, fun q hq _ => hpmax q hq, h4.trans hvp⟩
      · exact ⟨p', h1, h2, fun q hq => h3 q (by simp [hq]), h4⟩

theorem popLoop_spec (vi c : Nat) (old : List Nat) :
    ∀ (new : List Nat) (index : Nat) (ri : IMap Nat Nat) (scc : List Nat), new.Nodup → (∀ x ∈ new, x ∉ old) →
      (∀ x ∈ new, ∃ r, ri.get? x = some r ∧ vi ≤ r) → (∀ x ∈ old, ∃ r, ri.get? x = some r ∧ r < vi) → new.length ≤ index →
      ∃ ri', popLoop vi c (new ++ old) index ri scc = .ok (old, index - new.length, ri', scc ++ new) ∧
        ri'.keys = ri.keys ∧ (∀ x, ri'.get? x = if x ∈ new then some c else ri.get? x) := by
  intro new
  induction new with
  | nil =>
    intro index ri scc _ _ _ hold _
    refine ⟨ri, ?_, rfl, by simp⟩
    cases old with
    | nil => simp [popLoop]
    | cons x old =>
      obtain ⟨r, h1, h2⟩ := hold x (by simp)
      simp [popLoop, h1, unwrap, h2]
  | cons x new ih =>
    intro index ri scc hn hd hnew hold hidx
    rw [List.nodup_cons] at hn
    obtain ⟨r, h1, h2⟩ := hnew x (by simp)
    simp only [List.length_cons] at hidx
    have hne : ∀ y ∈ new, y ≠ x := fun y hy he => hn.1 (he ▸ hy)
    have hneo : ∀ y ∈ old, y ≠ x := fun y hy he => hd x (by simp) (he ▸ hy)
    obtain ⟨ri', e1, e2, e3⟩ := ih (index - 1) (ri.insert x c) (scc ++ [x]) hn.2 (fun y hy => hd y (by simp [hy]))
      (by
        intro y hy
        rw [IMap.get?_insert_ne _ _ (hne y hy)]
        exact hnew y (by simp [hy]))
      (by
        intro y hy
        rw [IMap.get?_insert_ne _ _ (hneo y hy)]
        exact hold y hy) (by omega)
    refine ⟨ri', ?_, ?_, ?_⟩
    · rw [List.cons_append]
      unfold popLoop
      have hgt : ¬ vi > r := by omega
      have hi0 : ¬ index = 0 := by omega
      simp only [h1, unwrap, ok_bind, hgt, if_false, checkedPred, hi0]
      rw [e1]
      simp only [List.length_cons, List.append_assoc, List.singleton_append]
      congr 2
      congr 1
      omega
    · rw [e2, IMap.keys_insert_of_mem]
      rw [IMap.mem_keys_iff]; exact ⟨r, h1⟩
    · intro y
      rw [e3 y, IMap.get?_insert]
      by_cases hy : y = x
      · subst hy; simp [hn.1]
      · simp [hy]

/-- The visit of `v` ends and `v` is the root of its component: the component is popped. -/
theorem SInv.pop {g : VertexGraph} {P A ext new old : List Nat} {st : SccState} {v : Nat}
    (h : SInv g (v :: P) (A ++ v :: ext) st) (hstack : st.stack = new ++ old) (hperm : new.Perm ext)
    (hext : ∀ x ∈ ext, ∃ r, st.rootIndex.get? x = some r ∧ A.length + 1 ≤ r)
    (hedge : ∀ y, g.Edge v y → y ∈ st.sccs.flatten ∨ (y ∈ A ++ v :: ext ∧ A.length + 1 ≤ num (A ++ v :: ext) y))
    {ri : IMap Nat Nat} (hkeys : ri.keys = st.rootIndex.keys)
    (hri : ∀ x, ri.get? x = if x = v ∨ x ∈ new then some st.c else st.rootIndex.get? x) :
    SInv g P A { index := A.length + 1, c := wrappingPred st.c, rootIndex := ri, stack := old, sccs := st.sccs ++ [v :: new] } := by
  have hB := h.nodupA
  rw [List.nodup_append] at hB
  have hvA : v ∉ A := fun hv => hB.2.2 v hv v (by simp) rfl
  have hextA : ∀ x ∈ ext, x ∉ A := fun x hx hA => hB.2.2 x hA x (by simp [hx]) rfl
  have hve : v ∉ ext := (List.nodup_cons.1 hB.2.1).1
  have hnumv : num (A ++ v :: ext) v = A.length + 1 := num_append_self hvA
  have hnumA : ∀ x ∈ A, num (A ++ v :: ext) x = num A x := fun x hx => num_append_left hx
  have hPv : ∀ p ∈ P, num (A ++ v :: ext) p < num (A ++ v :: ext) v := (List.pairwise_cons.1 h.sortP).1
  have hPA : ∀ p ∈ P, p ∈ A := by
    intro p hp
    refine mem_left_of_num (h.subP p (by simp [hp])) ?_
    have := hPv p hp
    omega
  have hX : ∀ x, x ∈ v :: new ↔ x = v ∨ x ∈ ext := by
    intro x; rw [List.mem_cons, hperm.mem_iff]
  have hXB : ∀ x, x ∈ v :: new → x ∈ A ++ v :: ext := by
    intro x hx
    rcases (hX x).1 hx with hx | hx <;> simp [hx]
  have hXA : ∀ x, x ∈ v :: new → x ∉ A := by
    intro x hx
    rcases (hX x).1 hx with hx | hx
    · rw [hx]; exact hvA
    · exact hextA x hx
  have hBX : ∀ x, x ∈ A ++ v :: ext → x ∈ A ∨ x ∈ v :: new := by
    intro x hx
    rcases List.mem_append.1 hx with hx | hx
    · exact Or.inl hx
    · right; rw [hX]; simpa using hx
  have hnumX : ∀ x, x ∈ v :: new → A.length + 1 ≤ num (A ++ v :: ext) x := by
    intro x hx
    rw [num_append_right (hXA x hx)]
    unfold num; omega
  have hXD : ∀ x, x ∈ v :: new → x ∉ st.sccs.flatten := fun x hx => h.disj x (hXB x hx)
  -- members of the block reach `v` and are reached from it
  have hdown : ∀ x, x ∈ v :: new → ReflTransGen g.Edge v x := fun x hx =>
    h.down v (by simp) x (hXB x hx) (by rw [hnumv]; exact hnumX x hx)
  have hup : ∀ x, x ∈ v :: new → ReflTransGen g.Edge x v := by
    intro x hx
    by_cases hxv : x = v
    · rw [hxv]
    · have hxP : x ∉ v :: P := by
        simp only [List.mem_cons, not_or]
        exact ⟨hxv, fun hp => hXA x hx (hPA x hp)⟩
      obtain ⟨p, h1, h2, h3, h4⟩ := h.up x (hXB x hx) hxP
      have h5 := h3 v (by simp) (by rw [hnumv]; exact hnumX x hx)
      rcases List.mem_cons.1 h1 with h1 | h1
      · exact h1 ▸ h4
      · have := hPv p h1
        omega
  -- edges out of the block stay in it or lead to finished components
  have hout : ∀ x, x ∈ v :: new → ∀ y, g.Edge x y → y ∈ st.sccs.flatten ∨ y ∈ v :: new := by
    intro x hx y hy
    have hkey : y ∈ st.sccs.flatten ∨ (y ∈ A ++ v :: ext ∧ A.length + 1 ≤ num (A ++ v :: ext) y) := by
      rcases (hX x).1 hx with hxv | hxe
      · subst hxv; exact hedge y hy
      · have hxP : x ∉ v :: P := by
          simp only [List.mem_cons, not_or]
          exact ⟨fun he => hve (he ▸ hxe), fun hp => hXA x hx (hPA x hp)⟩
        obtain ⟨r, h1, _, h3⟩ := h.fin x (hXB x hx) hxP
        obtain ⟨r', h4, h5⟩ := hext x hxe
        rw [h1] at h4
        cases h4
        rcases h3 y hy with h6 | ⟨h6, h7⟩
        · exact Or.inl h6
        · exact Or.inr ⟨h6, by omega⟩
    rcases hkey with h1 | ⟨h1, h2⟩
    · exact Or.inl h1
    · right
      rcases hBX y h1 with h3 | h3
      · rw [hnumA y h3] at h2
        have := num_le h3
        omega
      · exact h3
  have hDclosed : ∀ x ∈ st.sccs.flatten, ∀ y, g.Edge x y → y ∈ st.sccs.flatten := by
    intro x hx y hy
    obtain ⟨s, hs, hxs⟩ := List.mem_flatten.1 hx
    obtain ⟨i, hi⟩ := List.mem_iff_getElem?.1 hs
    obtain ⟨j, t, _, h2, h3⟩ := h.order i s hi x hxs y hy
    exact List.mem_flatten.2 ⟨t, List.mem_of_getElem? h2, h3⟩
  have hDreach : ∀ x y, ReflTransGen g.Edge x y → x ∈ st.sccs.flatten → y ∈ st.sccs.flatten := by
    intro x y hxy hx
    induction hxy with
    | refl => exact hx
    | tail _ he ih => exact hDclosed _ ih _ he
  have hXreach : ∀ x y, ReflTransGen g.Edge x y → x ∈ v :: new → y ∈ st.sccs.flatten ∨ y ∈ v :: new := by
    intro x y hxy hx
    induction hxy with
    | refl => exact Or.inr hx
    | tail _ he ih =>
      rcases ih with ih | ih
      · exact Or.inl (hDclosed _ ih _ he)
      · exact hout _ ih _ he
  have hnewnd : (v :: new).Nodup := by
    rw [List.nodup_cons]
    have hext_nd : ext.Nodup := (List.nodup_cons.1 hB.2.1).2
    exact ⟨fun hv => hve (hperm.mem_iff.1 hv), hperm.nodup_iff.2 hext_nd⟩
  have hflat : (st.sccs ++ [v :: new]).flatten = st.sccs.flatten ++ (v :: new) := by simp
  have hcount := h.count
  have hlen := length_le_flatten _ h.nonempty
  simp only [List.length_append, List.length_cons] at hcount
  have hriX : ∀ x, x ∈ v :: new → ri.get? x = some st.c := by
    intro x hx
    rw [hri, if_pos (List.mem_cons.1 hx)]
  have hriN : ∀ x, x ∉ v :: new → ri.get? x = st.rootIndex.get? x := by
    intro x hx
    rw [hri, if_neg (fun h' => hx (List.mem_cons.2 h'))]
  have hAX : ∀ x ∈ A, x ∉ v :: new := fun x hx hX' => hXA x hX' hx
  have hc := h.c (by omega)
  have hold : ∀ x, x ∈ old ↔ x ∈ A ∧ x ∉ P := by
    intro x
    have hs := h.stack x
    rw [hstack, List.mem_append] at hs
    have hnd := h.nodupS
    rw [hstack, List.nodup_append] at hnd
    constructor
    · intro hx
      obtain ⟨h1, h2⟩ := hs.1 (Or.inr hx)
      have h2' : x ≠ v ∧ x ∉ P := by simpa using h2
      refine ⟨?_, h2'.2⟩
      rcases hBX x h1 with h3 | h3
      · exact h3
      · rcases List.mem_cons.1 h3 with h3 | h3
        · exact absurd h3 h2'.1
        · exact absurd rfl (hnd.2.2 x h3 x hx)
    · rintro ⟨h1, h2⟩
      have hxv : x ≠ v := fun he => hvA (he ▸ h1)
      rcases hs.2 ⟨by simp [h1], by simp [hxv, h2]⟩ with h3 | h3
      · exact absurd (List.mem_cons_of_mem v h3) (hAX x h1)
      · exact h3
  refine ⟨hB.1, hPA, ?_, ?_, ?_, ?_, ?_, rfl, ?_, ?_, hold, ?_, ?_, ?_, ?_, ?_, ?_, ?_, ?_⟩
  · refine (List.pairwise_cons.1 h.sortP).2.imp_of_mem ?_
    intro p q hp hq hpq
    rw [hnumA q (hPA q hq), hnumA p (hPA p hp)] at hpq
    exact hpq
  · intro x
    show x ∈ ri.keys ↔ x ∈ A ∨ x ∈ (st.sccs ++ [v :: new]).flatten
    rw [hkeys, h.seen, hflat, List.mem_append (s := st.sccs.flatten)]
    constructor
    · rintro (h1 | h1)
      · rcases hBX x h1 with h2 | h2
        · exact Or.inl h2
        · exact Or.inr (Or.inr h2)
      · exact Or.inr (Or.inl h1)
    · rintro (h1 | h1 | h1)
      · left; simp [h1]
      · exact Or.inr h1
      · exact Or.inl (hXB x h1)
  · intro x hx
    show x ∉ (st.sccs ++ [v :: new]).flatten
    rw [hflat, List.mem_append]
    rintro (h1 | h1)
    · exact h.disj x (by simp [hx]) h1
    · exact hAX x hx h1
  · show (st.sccs ++ [v :: new]).flatten.Nodup
    rw [hflat]
    exact List.Nodup.append h.nodupD hnewnd (fun x hx hX' => hXD x hX' hx)
  · intro x hx
    change x ∈ A ∨ x ∈ (st.sccs ++ [v :: new]).flatten at hx
    rw [hflat, List.mem_append] at hx
    rcases hx with h1 | h1 | h1
    · exact h.verts x (Or.inl (by simp [h1]))
    · exact h.verts x (Or.inr h1)
    · exact h.verts x (Or.inl (hXB x h1))
  · intro hlt
    change wrappingPred st.c = g.vertices.length - 1 - (st.sccs ++ [v :: new]).length
    change (st.sccs ++ [v :: new]).length < g.vertices.length at hlt
    simp only [List.length_append, List.length_singleton] at hlt ⊢
    unfold wrappingPred
    rw [hc, if_neg (by omega)]
    omega
  · have hnd := h.nodupS
    rw [hstack, List.nodup_append] at hnd
    exact hnd.2.1
  · intro x hx
    obtain ⟨r, y, h1, h2, h3, h4, h5⟩ := h.low x (by simp [hx])
    rw [hnumA x hx] at h2
    have hle := num_le hx
    have hyA : y ∈ A := mem_left_of_num h3 (by omega)
    refine ⟨r, y, ?_, h2, hyA, ?_, h5⟩
    · show ri.get? x = some r
      rw [hriN x (hAX x hx)]; exact h1
    · rw [hnumA y hyA] at h4; exact h4
  · intro x hx hxP
    have hxv : x ≠ v := fun he => hvA (he ▸ hx)
    obtain ⟨r, h1, h2, h3⟩ := h.fin x (by simp [hx]) (by simp [hxv, hxP])
    rw [hnumA x hx] at h2
    refine ⟨r, ?_, h2, ?_⟩
    · show ri.get? x = some r
      rw [hriN x (hAX x hx)]; exact h1
    · intro y hy
      show y ∈ (st.sccs ++ [v :: new]).flatten ∨ _
      rw [hflat, List.mem_append]
      rcases h3 y hy with h4 | ⟨h4, h5⟩
      · exact Or.inl (Or.inl h4)
      · rcases hBX y h4 with h6 | h6
        · rw [hnumA y h6] at h5; exact Or.inr ⟨h6, h5⟩
        · exact Or.inl (Or.inr h6)
  · intro p hp x hx hpx
    refine h.down p (by simp [hp]) x (by simp [hx]) ?_
    rw [hnumA p (hPA p hp), hnumA x hx]; exact hpx
  · intro x hx hxP
    have hxv : x ≠ v := fun he => hvA (he ▸ hx)
    obtain ⟨p, h1, h2, h3, h4⟩ := h.up x (by simp [hx]) (by simp [hxv, hxP])
    have hle := num_le hx
    rw [hnumA x hx] at h2
    have hpP : p ∈ P := by
      rcases List.mem_cons.1 h1 with h1 | h1
      · subst h1; omega
      · exact h1
    refine ⟨p, hpP, by rw [hnumA p (hPA p hpP)] at h2; exact h2, ?_, h4⟩
    intro q hq hqx
    have := h3 q (by simp [hq]) (by rw [hnumA q (hPA q hq), hnumA x hx]; exact hqx)
    rw [hnumA q (hPA q hq), hnumA p (hPA p hpP)] at this
    exact this
  · intro x hx
    change x ∈ (st.sccs ++ [v :: new]).flatten at hx
    rw [hflat, List.mem_append] at hx
    show ∃ r, ri.get? x = some r ∧ g.vertices.length - (st.sccs ++ [v :: new]).length ≤ r
    simp only [List.length_append, List.length_singleton]
    rcases hx with hx | hx
    · obtain ⟨r, h1, h2⟩ := h.doneIdx x hx
      refine ⟨r, ?_, by omega⟩
      rw [hriN x (fun h' => hXD x h' hx)]; exact h1
    · refine ⟨st.c, hriX x hx, ?_⟩
      rw [hc]; omega
  · intro s hs
    change s ∈ st.sccs ++ [v :: new] at hs
    rcases List.mem_append.1 hs with hs | hs
    · exact h.nonempty s hs
    · rw [List.mem_singleton.1 hs]; simp
  · intro s hs x hx y
    change s ∈ st.sccs ++ [v :: new] at hs
    rcases List.mem_append.1 hs with hs | hs
    · exact h.exact s hs x hx y
    · rw [List.mem_singleton.1 hs] at hx ⊢
      constructor
      · intro hy
        exact ⟨(hup x hx).trans (hdown y hy), (hup y hy).trans (hdown x hx)⟩
      · rintro ⟨h1, h2⟩
        rcases hXreach x y h1 hx with h3 | h3
        · exact absurd (hDreach y x h2 h3) (hXD x hx)
        · exact h3
  · intro i s hi x hx y hy
    change (st.sccs ++ [v :: new])[i]? = some s at hi
    show ∃ (j : Nat) (t : List Nat), j ≤ i ∧ (st.sccs ++ [v :: new])[j]? = some t ∧ y ∈ t
    by_cases hlt : i < st.sccs.length
    · rw [List.getElem?_append_left hlt] at hi
      obtain ⟨j, t, h1, h2, h3⟩ := h.order i s hi x hx y hy
      refine ⟨j, t, h1, ?_, h3⟩
      rw [List.getElem?_append_left (by omega)]; exact h2
    · have hi' : i = st.sccs.length ∧ s = v :: new := by
        rw [List.getElem?_append_right (by omega)] at hi
        have : i - st.sccs.length = 0 := by
          by_contra hne
          have : (([v :: new] : List (List Nat)))[i - st.sccs.length]? = none := by
            apply List.getElem?_eq_none
            simp only [List.length_singleton]
            omega
          rw [this] at hi
          exact absurd hi (by simp)
        rw [this] at hi
        simp only [List.getElem?_cons_zero, Option.some.injEq] at hi
        exact ⟨by omega, hi.symm⟩
      obtain ⟨hi1, hs⟩ := hi'
      rw [hs] at hx
      rcases hout x hx y hy with h1 | h1
      · obtain ⟨t, ht, hyt⟩ := List.mem_flatten.1 h1
        obtain ⟨j, hj⟩ := List.mem_iff_getElem?.1 ht
        have hjl : j < st.sccs.length := by
          by_contra hge
          rw [List.getElem?_eq_none (by omega)] at hj
          exact absurd hj (by simp)
        exact ⟨j, t, by omega, by rw [List.getElem?_append_left hjl]; exact hj, hyt⟩
      · refine ⟨i, v :: new, Nat.le_refl _, ?_, h1⟩
        rw [hi1, List.getElem?_append_right (Nat.le_refl _)]
        simp

/-- What a call `visit v` does to a state with active vertices `A`. -/
structure VisitPost (g : VertexGraph) (P A : List Nat) (st : SccState) (v : Nat) (st' : SccState) : Prop where
  inv : ∃ ext, SInv g P (A ++ ext) st' ∧ (∀ x ∈ ext, ∃ r s, st'.rootIndex.get? v = some r ∧ st'.rootIndex.get? x = some s ∧ r ≤ s) ∧
    ∃ new, st'.stack = new ++ st.stack ∧ new.Perm ext
  same : ∀ x ∈ A, st'.rootIndex.get? x = st.rootIndex.get? x
  done : ∀ x ∈ st.sccs.flatten, x ∈ st'.sccs.flatten
  seen : v ∈ st'.rootIndex.keys

/-- Loop invariant inside `visit v`: `A` was active before, `ext` became active since, `pre` are the neighbours processed. -/
structure LoopInv (g : VertexGraph) (P A : List Nat) (st0 : SccState) (v : Nat) (pre ext : List Nat) (root : Bool) (vi : Nat)
    (st : SccState) : Prop where
  inv : SInv g (v :: P) (A ++ v :: ext) st
  idx : st.rootIndex.get? v = some vi
  isRoot : root = true ↔ vi = A.length + 1
  le : vi ≤ A.length + 1
  later : ∀ x ∈ ext, ∃ s, st.rootIndex.get? x = some s ∧ vi ≤ s
  processed : ∀ y ∈ pre, y ∈ st.sccs.flatten ∨ (y ∈ A ++ v :: ext ∧ vi ≤ num (A ++ v :: ext) y)
  same : ∀ x ∈ A, st.rootIndex.get? x = st0.rootIndex.get? x
  done : ∀ x ∈ st0.sccs.flatten, x ∈ st.sccs.flatten
  stack : ∃ new, st.stack = new ++ st0.stack ∧ new.Perm ext

theorem visitLoop_spec {g : VertexGraph} (hg : g.Ok) {P A : List Nat} {st0 : SccState} {v : Nat} {nb : List Nat}
    (hv : v ∈ g.vertices) (hnb : g.neighbors v = some nb) (fuel : Nat) (recurse : Nat → SccState → R SccState)
    (hrec : ∀ w P' A' st, w ∈ g.vertices → SInv g P' A' st → st.rootIndex.get? w = none → (∀ p ∈ P', ReflTransGen g.Edge p w) →
      g.vertices.length < fuel + A'.length + st.sccs.flatten.length → ∃ st', recurse w st = .ok st' ∧ VisitPost g P' A' st w st') :
    ∀ (ws pre ext : List Nat) (root : Bool) (vi : Nat) (st : SccState), nb = pre ++ ws → LoopInv g P A st0 v pre ext root vi st →
      g.vertices.length < fuel + (A ++ v :: ext).length + st.sccs.flatten.length →
      ∃ ext' root' vi' st', visitLoop recurse v ws (root, vi) st = .ok ((root', vi'), st') ∧
        LoopInv g P A st0 v nb ext' root' vi' st' := by
  intro ws
  induction ws with
  | nil =>
    intro pre ext root vi st hpre h _
    refine ⟨ext, root, vi, st, rfl, ?_⟩
    have : nb = pre := by simpa using hpre
    rw [this]; exact h
  | cons w ws ih =>
    intro pre ext root vi st hpre h hfuel
    have hwnb : w ∈ nb := by rw [hpre]; simp
    have hedge : g.Edge v w := ⟨nb, hnb, hwnb⟩
    have hwv : w ∈ g.vertices := hg.closed v hv w hedge
    have hvA : v ∉ A := by
      have := h.inv.nodupA
      rw [List.nodup_append] at this
      intro hx
      exact this.2.2 v hx v (by simp) rfl
    -- after making sure that `w` has been visited
    have hvisited : ∃ st1 ext1, ensureVisited recurse w st = .ok st1 ∧
        SInv g (v :: P) (A ++ v :: (ext ++ ext1)) st1 ∧
        (∀ x ∈ ext1, ∃ r s, st1.rootIndex.get? w = some r ∧ st1.rootIndex.get? x = some s ∧ r ≤ s) ∧
        (∃ new, st1.stack = new ++ st.stack ∧ new.Perm ext1) ∧
        (∀ x ∈ A ++ v :: ext, st1.rootIndex.get? x = st.rootIndex.get? x) ∧
        (∀ x ∈ st.sccs.flatten, x ∈ st1.sccs.flatten) ∧ w ∈ st1.rootIndex.keys := by
      unfold ensureVisited
      cases hw : st.rootIndex.get? w with
      | some r =>
        refine ⟨st, [], rfl, by simpa using h.inv, by simp, ⟨[], by simp⟩, fun _ _ => rfl, fun _ hx => hx, ?_⟩
        rw [IMap.mem_keys_iff]; exact ⟨r, hw⟩
      | none =>
        obtain ⟨st1, e1, post⟩ := hrec w (v :: P) (A ++ v :: ext) st hwv h.inv hw (by
          intro p hp
          have hvp : ReflTransGen g.Edge p v := by
            refine h.inv.down p hp v (by simp) ?_
            rcases List.mem_cons.1 hp with hp | hp
            · rw [hp]
            · exact Nat.le_of_lt ((List.pairwise_cons.1 h.inv.sortP).1 p hp)
          exact hvp.tail hedge) hfuel
        obtain ⟨ext1, p1, p2, p3⟩ := post.inv
        refine ⟨st1, ext1, e1, ?_, p2, p3, post.same, post.done, post.seen⟩
        have : A ++ v :: (ext ++ ext1) = A ++ v :: ext ++ ext1 := by simp
        rw [this]; exact p1
    obtain ⟨st1, ext1, e1, hinv, hext1, ⟨new1, hst1, hperm1⟩, hsame, hdone, hwk⟩ := hvisited
    obtain ⟨r, hr⟩ := (IMap.mem_keys_iff _ _).1 hwk
    have hAs : A ++ v :: (ext ++ ext1) = (A ++ v :: ext) ++ ext1 := by simp
    have hvi : st1.rootIndex.get? v = some vi := by rw [hsame v (by simp)]; exact h.idx
    have hnumv : num (A ++ v :: (ext ++ ext1)) v = A.length + 1 := num_append_self hvA
    have hprocessed : ∀ y ∈ pre, y ∈ st1.sccs.flatten ∨ (y ∈ A ++ v :: (ext ++ ext1) ∧ vi ≤ num (A ++ v :: (ext ++ ext1)) y) := by
      intro y hy
      rcases h.processed y hy with h1 | ⟨h1, h2⟩
      · exact Or.inl (hdone y h1)
      · right
        rw [hAs, num_append_left h1]
        exact ⟨List.mem_append_left _ h1, h2⟩
    have hlater : ∀ x ∈ ext, ∃ s, st1.rootIndex.get? x = some s ∧ vi ≤ s := by
      intro x hx
      rw [hsame x (by simp [hx])]
      exact h.later x hx
    have hsameA : ∀ x ∈ A, st1.rootIndex.get? x = st0.rootIndex.get? x := by
      intro x hx
      rw [hsame x (by simp [hx])]
      exact h.same x hx
    have hstk : ∃ new, st1.stack = new ++ st0.stack ∧ new.Perm (ext ++ ext1) := by
      obtain ⟨new, h1, h2⟩ := h.stack
      refine ⟨new1 ++ new, by rw [hst1, h1]; simp, ?_⟩
      exact List.perm_append_comm.trans (h2.append hperm1)
    have hfuel1 : g.vertices.length < fuel + (A ++ v :: (ext ++ ext1)).length + st1.sccs.flatten.length := by
      have h1 : st.sccs.flatten.length ≤ st1.sccs.flatten.length := (List.Nodup.subperm h.inv.nodupD hdone).length_le
      rw [hAs, List.length_append]
      omega
    have hwcase := (hinv.seen w).1 hwk
    have hwlow : w ∈ A ++ v :: (ext ++ ext1) → r ≤ num (A ++ v :: (ext ++ ext1)) w := by
      intro hwA
      obtain ⟨r', y, h1, h2, _⟩ := hinv.low w hwA
      rw [hr] at h1
      cases h1
      exact h2
    unfold visitLoop
    rw [e1]
    simp only [ok_bind, hr, unwrap]
    by_cases hlt : r < vi
    · rw [if_pos hlt]
      have hwA : w ∈ A ++ v :: (ext ++ ext1) := by
        rcases hwcase with hw | hw
        · exact hw
        · have h1 := hinv.done_ge hw hr (v := v) (by simp)
          have h2 := h.le
          omega
      have hinv' := hinv.lower hwA hr (by have := h.le; omega) hedge
      have hne : ∀ x ∈ ext ++ ext1, x ≠ v := by
        intro x hx he
        have := hinv.nodupA
        rw [List.nodup_append] at this
        exact (List.nodup_cons.1 this.2.1).1 (he ▸ hx)
      refine ih (pre ++ [w]) (ext ++ ext1) false r _ (by rw [hpre]; simp) ?_ hfuel1
      refine ⟨hinv', IMap.get?_insert_self _ _ _, ?_, ?_, ?_, ?_, ?_, ?_, hstk⟩
      · have := h.le
        constructor
        · intro hf; exact absurd hf (by simp)
        · intro hf; omega
      · have := h.le
        omega
      · intro x hx
        show ∃ s, (st1.rootIndex.insert v r).get? x = some s ∧ r ≤ s
        rw [IMap.get?_insert_ne _ _ (hne x hx)]
        rcases List.mem_append.1 hx with hx | hx
        · obtain ⟨s, h1, h2⟩ := hlater x hx
          exact ⟨s, h1, by omega⟩
        · obtain ⟨r', s, h1, h2, h3⟩ := hext1 x hx
          rw [hr] at h1
          cases h1
          exact ⟨s, h2, h3⟩
      · intro y hy
        rcases List.mem_append.1 hy with hy | hy
        · rcases hprocessed y hy with h1 | ⟨h1, h2⟩
          · exact Or.inl h1
          · exact Or.inr ⟨h1, by omega⟩
        · rw [List.mem_singleton.1 hy]
          exact Or.inr ⟨hwA, hwlow hwA⟩
      · intro x hx
        show (st1.rootIndex.insert v r).get? x = _
        rw [IMap.get?_insert_ne _ _ (fun he : x = v => hvA (he ▸ hx))]
        exact hsameA x hx
      · intro x hx
        exact hdone x (h.done x hx)
    · rw [if_neg hlt]
      refine ih (pre ++ [w]) (ext ++ ext1) root vi st1 (by rw [hpre]; simp) ?_ hfuel1
      refine ⟨hinv, hvi, h.isRoot, h.le, ?_, ?_, hsameA, fun x hx => hdone x (h.done x hx), hstk⟩
      · intro x hx
        rcases List.mem_append.1 hx with hx | hx
        · exact hlater x hx
        · obtain ⟨r', s, h1, h2, h3⟩ := hext1 x hx
          rw [hr] at h1
          cases h1
          exact ⟨s, h2, by omega⟩
      · intro y hy
        rcases List.mem_append.1 hy with hy | hy
        · exact hprocessed y hy
        · rw [List.mem_singleton.1 hy]
          rcases hwcase with hw | hw
          · have := hwlow hw
            exact Or.inr ⟨hw, by omega⟩
          · exact Or.inl hw

theorem visit_spec {g : VertexGraph} (hg : g.Ok) : ∀ (fuel v : Nat) (P A : List Nat) (st : SccState), v ∈ g.vertices →
    SInv g P A st → st.rootIndex.get? v = none → (∀ p ∈ P, ReflTransGen g.Edge p v) →
    g.vertices.length < fuel + A.length + st.sccs.flatten.length →
    ∃ st', visit g fuel v st = .ok st' ∧ VisitPost g P A st v st' := by
  intro fuel
  induction fuel with
  | zero =>
    intro v P A st hv h hu _ hf
    have := h.count
    omega
  | succ fuel ih =>
    intro v P A st hv h hu hpath hf
    obtain ⟨nb, hnb⟩ := hg.neighbors v hv
    have hsmall := hg.small
    have hcnt := h.count_lt hv hu
    have hnk := (IMap.get?_eq_none_iff _ _).1 hu
    rw [h.seen] at hnk
    have hvA : v ∉ A := fun h' => hnk (Or.inl h')
    have hto : toU32 (st.index + 1) = .ok (st.index + 1) := toU32_of (by rw [h.index]; omega)
    have hstart : LoopInv g P A st v [] [] true st.index
        { st with rootIndex := st.rootIndex.insert v st.index, index := st.index + 1 } := by
      refine ⟨h.enter hv hu hpath, IMap.get?_insert_self _ _ _, by simp [h.index], by rw [h.index], by simp, by simp, ?_,
        fun _ hx => hx, ⟨[], by simp⟩⟩
      intro x hx
      show (st.rootIndex.insert v st.index).get? x = _
      rw [IMap.get?_insert_ne _ _ (fun he : x = v => hvA (he ▸ hx))]
    obtain ⟨ext, root, vi, st1, e1, hl⟩ := visitLoop_spec hg hv hnb fuel (visit g fuel) (fun w P' A' st' => ih w P' A' st')
      nb [] [] true st.index _ (by simp) hstart (by
        show _ < fuel + (A ++ [v]).length + st.sccs.flatten.length
        simp only [List.length_append, List.length_singleton]
        omega)
    unfold visit
    simp only [hto, ok_bind, hnb, unwrap, e1]
    obtain ⟨new, hs1, hs2⟩ := hl.stack
    have hB := hl.inv.nodupA
    rw [List.nodup_append] at hB
    have hedges : ∀ y, g.Edge v y → y ∈ st1.sccs.flatten ∨ (y ∈ A ++ v :: ext ∧ vi ≤ num (A ++ v :: ext) y) := by
      rintro y ⟨l, h1, h2⟩
      rw [hnb] at h1
      cases h1
      exact hl.processed y h2
    cases hroot : root with
    | true =>
      have hvi := hl.isRoot.1 hroot
      have hidx : st1.index = A.length + ext.length + 1 + 1 := by
        rw [hl.inv.index, List.length_append, List.length_cons]; omega
      have hnd := hl.inv.nodupS
      rw [hs1, List.nodup_append] at hnd
      obtain ⟨ri', q1, q2, q3⟩ := popLoop_spec vi st1.c st.stack new (A.length + ext.length + 1) st1.rootIndex [v] hnd.1
        (fun x hx hx' => hnd.2.2 x hx x hx' rfl)
        (fun x hx => hl.later x (hs2.mem_iff.1 hx))
        (by
          intro x hx
          have hxA := ((h.stack x).1 hx).1
          obtain ⟨r, y, r1, r2, _⟩ := h.low x hxA
          refine ⟨r, by rw [hl.same x hxA]; exact r1, ?_⟩
          have := num_le hxA
          omega)
        (by have := hs2.length_eq; omega)
      have hcp : checkedPred st1.index = .ok (A.length + ext.length + 1) := by
        unfold checkedPred
        rw [hidx, if_neg (by omega)]
        rfl
      simp only [if_true, hcp, ok_bind, hs1, q1]
      have hlen := hs2.length_eq
      have hix : A.length + ext.length + 1 - new.length = A.length + 1 := by omega
      rw [hix]
      have hvk : v ∈ ri'.keys := by rw [q2]; exact (hl.inv.seen v).2 (Or.inl (by simp))
      have hinv := hl.inv.pop hs1 hs2 (by rw [← hvi]; exact hl.later) (by rw [← hvi]; exact hedges) (ri := ri'.insert v st1.c)
        (by rw [IMap.keys_insert_of_mem _ _ hvk, q2])
        (by
          intro x
          rw [IMap.get?_insert, q3 x]
          by_cases hxv : x = v
          · simp [hxv]
          · simp [hxv])
      refine ⟨_, rfl, ⟨[], by simpa using hinv, by simp, [], by simp, by simp⟩, ?_, ?_, ?_⟩
      · intro x hx
        show (ri'.insert v st1.c).get? x = _
        rw [IMap.get?_insert_ne _ _ (fun he : x = v => hvA (he ▸ hx)), q3 x]
        have hxn : x ∉ new := by
          intro hxn
          exact hB.2.2 x hx x (by simp [hs2.mem_iff.1 hxn]) rfl
        rw [if_neg hxn]
        exact hl.same x hx
      · intro x hx
        show x ∈ (st1.sccs ++ [[v] ++ new]).flatten
        simp only [List.flatten_append, List.mem_append]
        exact Or.inl (hl.done x hx)
      · exact (hinv.seen v).2 (Or.inr (by simp))
    | false =>
      have hvi : vi < A.length + 1 := by
        have h1 := hl.le
        have h2 : vi ≠ A.length + 1 := fun he => by
          have := hl.isRoot.2 he
          rw [hroot] at this
          exact absurd this (by simp)
        omega
      have hinv := hl.inv.leave hl.idx hvi hedges
      refine ⟨_, rfl, ⟨v :: ext, hinv, ?_, v :: new, by simp [hs1], hs2.cons v⟩, hl.same, hl.done,
        (hl.inv.seen v).2 (Or.inl (by simp))⟩
      intro x hx
      rcases List.mem_cons.1 hx with hx | hx
      · subst hx
        exact ⟨vi, vi, hl.idx, hl.idx, Nat.le_refl _⟩
      · obtain ⟨s, h1, h2⟩ := hl.later x hx
        exact ⟨vi, s, hl.idx, h1, h2⟩

/-- Without a vertex being visited nothing is active. -/
theorem SInv.active_nil {g : VertexGraph} {A : List Nat} {st : SccState} (h : SInv g [] A st) : A = [] := by
  cases A with
  | nil => rfl
  | cons x A =>
    obtain ⟨p, hp, _⟩ := h.up x (by simp) (by simp)
    exact absurd hp (by simp)

theorem tarjanPearce_loop {g : VertexGraph} (hg : g.Ok) : ∀ (vs : List Nat) (st : SccState), (∀ v ∈ vs, v ∈ g.vertices) →
    SInv g [] [] st → ∃ st', vs.foldlM (visitUnseen g) st = .ok st' ∧ SInv g [] [] st' ∧ (∀ v ∈ vs, v ∈ st'.sccs.flatten) ∧
      (∀ v ∈ st.sccs.flatten, v ∈ st'.sccs.flatten) := by
  intro vs
  induction vs with
  | nil => intro st _ h; exact ⟨st, rfl, h, by simp, fun _ hv => hv⟩
  | cons v vs ih =>
    intro st hvs h
    have hstep : ∃ st1, visitUnseen g st v = .ok st1 ∧ SInv g [] [] st1 ∧ v ∈ st1.sccs.flatten ∧
        (∀ v ∈ st.sccs.flatten, v ∈ st1.sccs.flatten) := by
      unfold visitUnseen ensureVisited
      cases hv : st.rootIndex.get? v with
      | some r =>
        refine ⟨st, rfl, h, ?_, fun _ hx => hx⟩
        have := (h.seen v).1 ((IMap.mem_keys_iff _ _).2 ⟨r, hv⟩)
        simpa using this
      | none =>
        obtain ⟨st1, e1, post⟩ := visit_spec hg (g.vertices.length + 1) v [] [] st (hvs v (by simp)) h hv (by simp) (by omega)
        obtain ⟨ext, hinv, _⟩ := post.inv
        have hnil := hinv.active_nil
        rw [hnil] at hinv
        refine ⟨st1, e1, hinv, ?_, post.done⟩
        have := (hinv.seen v).1 post.seen
        simpa using this
    obtain ⟨st1, e1, h1, hv1, hd1⟩ := hstep
    obtain ⟨st2, e2, h2, hv2, hd2⟩ := ih st1 (fun w hw => hvs w (by simp [hw])) h1
    refine ⟨st2, ?_, h2, ?_, fun w hw => hd2 w (hd1 w hw)⟩
    · rw [List.foldlM_cons, e1]; exact e2
    · intro w hw
      rcases List.mem_cons.1 hw with hw | hw
      · rw [hw]; exact hd2 v hv1
      · exact hv2 w hw

theorem tarjanPearce_spec {g : VertexGraph} (hg : g.Ok) :
    ∃ sccs, tarjanPearce g = .ok sccs ∧ Spec.IsSccOrder g.vertices g.Edge sccs := by
  have hsmall := hg.small
  have hto : toU32 g.vertices.length = .ok g.vertices.length := toU32_of (by omega)
  obtain ⟨st, e, h, hall, _⟩ := tarjanPearce_loop hg g.vertices
    { index := 1, c := wrappingPred g.vertices.length, rootIndex := [], stack := [], sccs := [] } (fun _ hv => hv) (by
      constructor <;> simp [IMap.keys]
      intro hpos
      unfold wrappingPred
      rw [if_neg (by omega)])
  refine ⟨st.sccs, ?_, ?_⟩
  · unfold tarjanPearce
    simp only [hto, ok_bind, e]
    rfl
  · refine ⟨?_, h.nonempty, h.exact, h.order⟩
    refine (List.perm_ext_iff_of_nodup h.nodupD hg.nodup).2 ?_
    intro x
    exact ⟨fun hx => h.verts x (Or.inr hx), hall x⟩

end Fiksi
