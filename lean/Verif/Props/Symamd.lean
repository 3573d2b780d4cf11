import Verif.Proofs.Symamd
/-!
# C47: the matrix that `symamd` orders
-/
namespace Fiksi
open Spec

/-- For a matrix `A` that passes the checks, sorted or not, `symamd` builds a matrix `M` with one row for each distinct strictly lower
entry of `A`, in the two columns of the entry, so that `M^T M` has exactly the off-diagonal pattern of `A`. The columns of `M` are sorted
and without duplicates, so that `colamd` never sees an unsorted matrix, and its buffer has the recommended length. -/
theorem C47_matrix {n nnz : Int} {l q perm : List Int} (h : ColumnForm (Mem.ofList l 0).get (Mem.ofList q 0).get n n)
    (hn : n + 1 < 2 ^ 31) (hq : q.length = n.toNat + 1) (hperm : perm.length = n.toNat + 1) (hnnz : (Mem.ofList q 0).get n = nnz)
    (hlen : nnz ≤ l.length) (hi32 : nnz < 2 ^ 30) :
    ∃ (pairs : List (Int × Int)) (m pointers : List Int), symamdMatrix n l q perm = .ok (.ok (pairs.length, m, pointers)) ∧
      pairs.Nodup ∧ (∀ i j, (i, j) ∈ pairs ↔ (0 ≤ j ∧ j < n) ∧ j < i ∧ Entry (Mem.ofList l 0).get (Mem.ofList q 0).get i j) ∧
      ColumnForm (Mem.ofList m 0).get (Mem.ofList pointers 0).get pairs.length n ∧
      SortedColumns (Mem.ofList m 0).get (Mem.ofList pointers 0).get n ∧
      (∀ c k, 0 ≤ c → c < n → (Entry (Mem.ofList m 0).get (Mem.ofList pointers 0).get k c ↔
        ∃ i j, 0 ≤ k ∧ pairs[k.toNat]? = some (i, j) ∧ (c = i ∨ c = j))) ∧
      (∀ c d, 0 ≤ c → c < d → d < n →
        ((∃ k, Entry (Mem.ofList m 0).get (Mem.ofList pointers 0).get k c ∧ Entry (Mem.ofList m 0).get (Mem.ofList pointers 0).get k d) ↔
          Entry (Mem.ofList l 0).get (Mem.ofList q 0).get d c)) ∧
      pointers.length = n.toNat + 1 ∧ (Mem.ofList pointers 0).get n = 2 * pairs.length ∧
      colamdRecommended (2 * (pairs.length : Int)) pairs.length n = some m.length := by
  have hL := allLower_length h
  obtain ⟨m, perm', h1, h2, h3, h4, h5, -⟩ := symamdMatrix_of h hn hq hperm hnnz hlen (by omega) (by omega)
  generalize hLe : allLower (Mem.ofList l 0).get (Mem.ofList q 0).get n = L at *
  have hmem : ∀ i j, (i, j) ∈ L ↔ (0 ≤ j ∧ j < n) ∧ j < i ∧ Entry (Mem.ofList l 0).get (Mem.ofList q 0).get i j := by
    intro i j
    rw [← hLe]
    exact mem_allLower
  generalize (Mem.ofList l 0).get = a at *
  generalize (Mem.ofList q 0).get = p at *
  have n0 := h.cols
  have hL' : ∀ e ∈ L, (0 ≤ e.2 ∧ e.2 < e.1) ∧ e.1 < n := by
    rintro ⟨i, j⟩ he
    rw [hmem] at he
    obtain ⟨hj, hij, x, x1, x2, x3⟩ := he
    have := (h.entry hj.1 hj.2 x1 x2).2
    rw [x3] at this
    exact ⟨⟨hj.1, hij⟩, this.2⟩
  have hpg : ∀ y, 0 ≤ y → y ≤ n → (Mem.ofList perm'.toList 0).get y = symStart L y := by
    intro y y0 yn
    rw [toList_get y0 (by omega), h4 y y0 yn]
  have htotal : symStart L n = 2 * (L.length : Int) := by
    unfold symStart
    have := touchCount_total (n := n) hL' (le_refl L.length)
    exact_mod_cast this
  have hsize : 2 * (L.length : Int) ≤ m.size := by
    rw [colamdRecommended_of (by omega) (by omega) (by omega) (by omega) n0 (by omega)] at h2
    have := Option.some.inj h2
    omega
  have hfit : ∀ y, 0 ≤ y → y < n → 0 ≤ symStart L y ∧ symStart L y + touchCount L y L.length ≤ m.size := by
    intro y y0 yn
    have e1 := symStart_disjoint L y0 yn
    have e2 := symStart_mono L y0
    rw [symStart_zero] at e2
    omega
  have hmg : ∀ y k, 0 ≤ y → y < n → touches L y k → (Mem.ofList m.toList 0).get (symStart L y + Nat.count (fun x => touches L y x) k) = k := by
    intro y k y0 yn ht
    have e1 := symSlot_lt ht
    have e2 := hfit y y0 yn
    unfold symSlot touchCount at e1
    unfold touchCount at e2
    rw [toList_get (by omega) (by omega)]
    exact h5 y k y0 ht
  have hlists : ∀ c, 0 ≤ c → c < n → Lists (Mem.ofList m.toList 0).get (symStart L c) (touchCount L c L.length)
      (fun k => ∃ l : Nat, l < L.length ∧ touches L c l ∧ k = l) :=
    fun c c0 cn => lists_of_count (P := touches L c) (fun k _ ht => hmg c k c0 cn ht)
  have hentry : ∀ c k, 0 ≤ c → c < n → (Entry (Mem.ofList m.toList 0).get (Mem.ofList perm'.toList 0).get k c ↔
        ∃ i j, 0 ≤ k ∧ L[k.toNat]? = some (i, j) ∧ (c = i ∨ c = j)) := by
    intro c k c0 cn
    have := (hlists c c0 cn).2.2 k
    unfold Entry
    rw [hpg c c0 (by omega), hpg (c + 1) (by omega) (by omega), symStart_succ L c0, ← this]
    constructor
    · rintro ⟨l, _, ht, rfl⟩
      obtain ⟨i, j, e1, e2⟩ := touches_iff.1 ht
      exact ⟨i, j, by omega, by simpa using e1, e2⟩
    · rintro ⟨i, j, k0, e1, e2⟩
      have ht : touches L c k.toNat := touches_iff.2 ⟨i, j, e1, e2⟩
      exact ⟨k.toNat, touches_lt ht, ht, by omega⟩
  refine ⟨L, m.toList, perm'.toList, h1, hLe ▸ allLower_nodup, hmem, ⟨by omega, n0, ?_, ?_, ?_⟩, ?_, hentry, ?_, by rw [toList_length, h3], ?_,
    by rw [h2, toList_length]⟩
  · rw [hpg 0 (le_refl 0) n0, symStart_zero]
  · intro c c0 cn
    rw [hpg c c0 (by omega), hpg (c + 1) (by omega) (by omega)]
    exact symStart_mono L (by omega)
  · intro i i0 hi
    rw [hpg n n0 (le_refl n)] at hi
    -- the column of the position
    have key : ∀ k : Nat, (k : Int) ≤ n → i < symStart L k → ∃ c, 0 ≤ c ∧ c < n ∧ symStart L c ≤ i ∧ i < symStart L (c + 1) := by
      intro k
      induction k with
      | zero => intro _ hk; rw [Nat.cast_zero, symStart_zero] at hk; omega
      | succ k ih =>
        intro hk hik
        push_cast at hk hik
        by_cases hlt : i < symStart L k
        · exact ih (by omega) hlt
        · exact ⟨k, by omega, by omega, by omega, hik⟩
    obtain ⟨c, c0, cn, e1, e2⟩ := key n.toNat (by omega) (by rwa [show ((n.toNat : Nat) : Int) = n by omega])
    rw [symStart_succ L c0] at e2
    obtain ⟨l, e3, _, e4⟩ := ((hlists c c0 cn).2.2 _).2 ⟨i, e1, e2, rfl⟩
    rw [e4]
    omega
  · intro c c0 cn i j hi hij hj
    rw [hpg c c0 (by omega)] at hi
    rw [hpg (c + 1) (by omega) (by omega), symStart_succ L c0] at hj
    exact (hlists c c0 cn).2.1 i j hi hij hj
  · intro c d c0 cd dn
    constructor
    · rintro ⟨k, e1, e2⟩
      obtain ⟨i, j, k0, e3, e4⟩ := (hentry c k c0 (by omega)).1 e1
      obtain ⟨i', j', _, e5, e6⟩ := (hentry d k (by omega) dn).1 e2
      rw [e3] at e5
      cases e5
      have hin := List.mem_of_getElem? e3
      have := hL' _ hin
      simp only at this
      have h1 : c = j := by omega
      have h2 : d = i := by omega
      subst h1 h2
      exact ((hmem _ _).1 hin).2.2
    · intro he
      have hin := (hmem d c).2 ⟨by omega, cd, he⟩
      obtain ⟨k, hk, e1⟩ := List.mem_iff_getElem.1 hin
      have e2 : L[k]? = some (d, c) := by rw [List.getElem?_eq_getElem hk, e1]
      refine ⟨k, (hentry c k c0 (by omega)).2 ⟨d, c, by omega, by simpa using e2, Or.inr rfl⟩,
        (hentry d k (by omega) dn).2 ⟨d, c, by omega, by simpa using e2, Or.inl rfl⟩⟩
  · rw [hpg n n0 (le_refl n), htotal]

/-- An unsorted matrix with a diagonal entry, an upper entry and a duplicate: `[2, 0, 2]`, `[1]`, `[1, 0]`. -/
example : ColumnForm (Mem.ofList [2, 0, 2, 1, 1, 0] 0).get (Mem.ofList [0, 3, 4, 6] 0).get 3 3 := by
  refine ⟨by omega, by omega, rfl, fun c c0 cn => ?_, fun i i0 hi => ?_⟩
  · have : c = 0 ∨ c = 1 ∨ c = 2 := by omega
    rcases this with rfl | rfl | rfl <;> decide
  · have hi : i < 6 := hi
    have : i = 0 ∨ i = 1 ∨ i = 2 ∨ i = 3 ∨ i = 4 ∨ i = 5 := by omega
    rcases this with rfl | rfl | rfl | rfl | rfl | rfl <;> decide

/-- Its matrix `M` has one row, in the columns `0` and `2`. -/
example : (symamdMatrix 3 [2, 0, 2, 1, 1, 0] [0, 3, 4, 6] [0, 0, 0, 0]).map (fun
    | .ok (k, m, p) => some (k, m.take 2, p)
    | .error _ => none) = .ok (some (1, [0, 0], [0, 1, 1, 2])) := by decide +kernel

end Fiksi
