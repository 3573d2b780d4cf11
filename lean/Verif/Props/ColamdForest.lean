import Verif.Props.ColamdFirst
import Mathlib.Combinatorics.SimpleGraph.Acyclic
/-!
# C85: `colamd` and `symamd` order forests without fill
-/
namespace Fiksi
open Spec Classical

section Congr
variable {a p : Int → Int} {n : Int} {DR DC DR' DC' : Int → Prop}

theorem joined_congr (hn : 0 ≤ n) (hc : ∀ c, 0 ≤ c → c < n → (DC (p (c + 1) - p c) ↔ DC' (p (c + 1) - p c))) (hr : ∀ k, 0 ≤ k → k ≤ n → (DR k ↔ DR' k)) (c d : Int) :
    Joined a p n DR DC c d ↔ Joined a p n DR' DC' c d := by
  unfold Spec.Joined
  simp only [rowIgnored_congr hn hc hr]

theorem oneShared_congr (hn : 0 ≤ n) (hc : ∀ c, 0 ≤ c → c < n → (DC (p (c + 1) - p c) ↔ DC' (p (c + 1) - p c))) (hr : ∀ k, 0 ≤ k → k ≤ n → (DR k ↔ DR' k)) :
    OneShared a p n DR DC ↔ OneShared a p n DR' DC' := by
  unfold OneShared
  simp only [rowIgnored_congr hn hc hr, ordered_congr hn hc hr]

end Congr

/-- C85: if the columns that take part share at most one row each and form a forest, then in the permutation of `colamd` every one of them has at most one
neighbour after it. -/
theorem C85_colamd_forest (options : ColamdOptions ℝ) (hrow : 0 ≤ options.denseRowControl) (hcol : 0 ≤ options.denseColControl) {nRow nCol nnz : Int} {a p : List Int}
    (h : ColumnForm (Mem.ofList a 0).get (Mem.ofList p 0).get nRow nCol) (hs : SortedColumns (Mem.ofList a 0).get (Mem.ofList p 0).get nCol)
    (hp : (p.length : Int) = nCol + 1) (hnnz : (Mem.ofList p 0).get nCol = nnz) (hr : nRow < 2 ^ 31) (hc : nCol + 1 < 2 ^ 31) (hz : 2 * nnz < 2 ^ 31)
    (hlen : 2 * nnz + nCol + 6 * (nCol + 1) + 4 * (nRow + 1) ≤ a.length) (hfit : a.length < 2 ^ 31) {DenseRow DenseCol : Int → Prop}
    (hDR : ∀ k, DenseRow k ↔ max 16 (options.denseRowControl * √(nCol.toNat : ℝ)) < (k : ℝ))
    (hDC : ∀ k, DenseCol k ↔ max 16 (options.denseColControl * √((min nRow nCol).toNat : ℝ)) < (k : ℝ))
    (hshared : OneShared (Mem.ofList a 0).get (Mem.ofList p 0).get nCol DenseRow DenseCol)
    (hforest : ForestOrdered (Ordered (Mem.ofList a 0).get (Mem.ofList p 0).get nCol DenseRow DenseCol) (Joined (Mem.ofList a 0).get (Mem.ofList p 0).get nCol DenseRow DenseCol)) :
    ∃ (stats : ColamdStatistics) (perm : List Int), colamd truncI32 options nRow nCol a p = .ok (.ok stats, some (perm ++ [-1])) ∧ perm.Perm (span 0 nCol.toNat) ∧
      OneLater (Ordered (Mem.ofList a 0).get (Mem.ofList p 0).get nCol DenseRow DenseCol) (Joined (Mem.ofList a 0).get (Mem.ofList p 0).get nCol DenseRow DenseCol)
        (fun c => perm.idxOf c) := by
  obtain ⟨stats, perm, e, hst, hperm, -, -, -, -, htree⟩ := colamdMain_of truncI32 options h hs hp hnnz hr hc hz hlen hfit
  have q1 : ∀ c, 0 ≤ c → c < nCol → (denseColCount truncI32 options nRow nCol < (Mem.ofList p 0).get (c + 1) - (Mem.ofList p 0).get c ↔
      DenseCol ((Mem.ofList p 0).get (c + 1) - (Mem.ofList p 0).get c)) := fun c c0 cn => by
    rw [denseColCount_lt hcol (colCount_lt h hnnz hz c0 cn), hDC]
  have q2 : ∀ k, 0 ≤ k → k ≤ nCol → (denseRowCount truncI32 options nCol < k ↔ DenseRow k) := fun k k0 k1 => by
    rw [denseRowCount_lt hrow (by omega), hDR]
  have o : Ordered (Mem.ofList a 0).get (Mem.ofList p 0).get nCol (denseRowCount truncI32 options nCol < ·) (denseColCount truncI32 options nRow nCol < ·) =
      Ordered (Mem.ofList a 0).get (Mem.ofList p 0).get nCol DenseRow DenseCol := funext fun c => propext (ordered_congr h.cols q1 q2 c)
  have j : Joined (Mem.ofList a 0).get (Mem.ofList p 0).get nCol (denseRowCount truncI32 options nCol < ·) (denseColCount truncI32 options nRow nCol < ·) =
      Joined (Mem.ofList a 0).get (Mem.ofList p 0).get nCol DenseRow DenseCol := funext fun c => funext fun d => propext (joined_congr h.cols q1 q2 c d)
  rw [o, j, oneShared_congr h.cols q1 q2] at htree
  refine ⟨⟨.ok, stats.denseRow, stats.denseCol, stats.defrag⟩, perm, ?_, hperm, htree hshared hforest⟩
  unfold colamd
  rw [assertPointers_of h.cols hc hp, ok_bind, e, ok_bind]
  simp only
  unfold statsToResult
  rw [if_pos hst]
  rfl

section
variable {a p m q : Int → Int} {n : Int} {pairs : List (Int × Int)}

/-- The rows that columns `c` and `d` of `M` share are the pair of `c` and `d`. -/
theorem symShared (h : ColumnForm a p n n) (hnd : pairs.Nodup) (hmem : ∀ i j, (i, j) ∈ pairs ↔ (0 ≤ j ∧ j < n) ∧ j < i ∧ Entry a p i j)
    (he : ∀ c k, 0 ≤ c → c < n → (Entry m q k c ↔ ∃ i j, 0 ≤ k ∧ pairs[k.toNat]? = some (i, j) ∧ (c = i ∨ c = j))) {c d : Int} (c0 : 0 ≤ c) (cn : c < n) (d0 : 0 ≤ d) (dn : d < n)
    (hne : c ≠ d) :
    ((∃ k, Entry m q k c ∧ Entry m q k d) ↔ Neighbour a p c d) ∧ ∀ k k', Entry m q k c → Entry m q k d → Entry m q k' c → Entry m q k' d → k = k' := by
  have hpair : ∀ {k : Nat} {i j : Int}, pairs[k]? = some (i, j) → j < i ∧ Entry a p i j := fun {k i j} hk => ((hmem i j).1 (List.mem_of_getElem? hk)).2
  have hrow : ∀ k, Entry m q k c → Entry m q k d → ∃ i j, 0 ≤ k ∧ pairs[k.toNat]? = some (i, j) ∧ ((i = c ∧ j = d) ∨ (i = d ∧ j = c)) := fun k h1 h2 => by
    obtain ⟨i, j, y0, y1, y2⟩ := (he c k c0 cn).1 h1
    obtain ⟨i', j', _, z1, z2⟩ := (he d k d0 dn).1 h2
    rw [y1] at z1
    cases z1
    exact ⟨i, j, y0, y1, by omega⟩
  refine ⟨⟨?_, fun hnb => ?_⟩, fun k k' h1 h2 h3 h4 => ?_⟩
  · rintro ⟨k, h1, h2⟩
    obtain ⟨i, j, y0, y1, y2⟩ := hrow k h1 h2
    obtain ⟨w1, w2⟩ := hpair y1
    rcases y2 with ⟨rfl, rfl⟩ | ⟨rfl, rfl⟩
    · exact Or.inr ⟨w1, w2⟩
    · exact Or.inl ⟨w1, w2⟩
  · have hex : ∃ i j, (i, j) ∈ pairs ∧ ((i = c ∧ j = d) ∨ (i = d ∧ j = c)) := by
      rcases hnb with ⟨hlt, hd'⟩ | ⟨hlt, hd'⟩
      · exact ⟨d, c, (hmem d c).2 ⟨⟨c0, cn⟩, hlt, hd'⟩, Or.inr ⟨rfl, rfl⟩⟩
      · exact ⟨c, d, (hmem c d).2 ⟨⟨d0, dn⟩, hlt, hd'⟩, Or.inl ⟨rfl, rfl⟩⟩
    obtain ⟨i, j, hin, hij⟩ := hex
    obtain ⟨k, hk⟩ := List.getElem?_of_mem hin
    exact ⟨k, (he c k c0 cn).2 ⟨i, j, by omega, by rw [Int.toNat_natCast]; exact hk, by omega⟩, (he d k d0 dn).2 ⟨i, j, by omega, by rw [Int.toNat_natCast]; exact hk, by omega⟩⟩
  · obtain ⟨i, j, y0, y1, y2⟩ := hrow k h1 h2
    obtain ⟨i', j', z0, z1, z2⟩ := hrow k' h3 h4
    have w1 := (hpair y1).1
    have w2 := (hpair z1).1
    have heq : pairs[k.toNat]? = pairs[k'.toNat]? := by
      rw [y1, z1]
      congr 2 <;> omega
    have := (List.getElem?_inj (List.getElem?_eq_some_iff.1 y1).1 hnd).1 heq
    omega

end

/-- C85: if the columns of a symmetric matrix that take part form a forest, then in the permutation of `symamd` every one of them has at most one neighbour
after it, so that the elimination in this order joins none of them that were not neighbours. -/
theorem C85_symamd_forest (options : ColamdOptions ℝ) (hctl : 0 ≤ options.denseRowControl) {n nnz : Int} {l q perm : List Int}
    (h : ColumnForm (Mem.ofList l 0).get (Mem.ofList q 0).get n n) (h3 : 3 ≤ n)
    (hn : n < 2 ^ 27) (hq : q.length = n.toNat + 1) (hperm : perm.length = n.toNat + 1) (hnnz : (Mem.ofList q 0).get n = nnz)
    (hlen : nnz ≤ l.length) (hi32 : nnz < 2 ^ 27) {Dense : Int → Prop}
    (hD : ∀ k, Dense k ↔ max 16 (options.denseRowControl * √((min (edges (Mem.ofList l 0).get (Mem.ofList q 0).get n) n).toNat : ℝ)) < (k : ℝ))
    {Kept : Int → Prop} (hK : ∀ d, Kept d ↔ 0 ≤ d ∧ d < n ∧ valency (Mem.ofList l 0).get (Mem.ofList q 0).get n d ≠ 0 ∧ ¬ Dense (valency (Mem.ofList l 0).get (Mem.ofList q 0).get n d))
    (hforest : ForestOrdered Kept (Neighbour (Mem.ofList l 0).get (Mem.ofList q 0).get)) :
    ∃ (stats : ColamdStatistics) (perm' : List Int), symamd truncI32 options n l q perm = .ok (.ok stats, some (perm' ++ [-1])) ∧ perm'.Perm (span 0 n.toNat) ∧
      OneLater Kept (Neighbour (Mem.ofList l 0).get (Mem.ofList q 0).get) (fun c => perm'.idxOf c) := by
  have n0 := h.cols
  obtain ⟨pairs, m, pointers, e1, g1, g2, g3, g4, g5, g6, g7, g8, g9⟩ := C47_matrix h (by omega) hq hperm hnnz hlen (by omega)
  have hpairs : (pairs.length : Int) ≤ nnz := by
    have h1 := allLower_length h
    have h2 : pairs.length ≤ (allLower (Mem.ofList l 0).get (Mem.ofList q 0).get n).length :=
      (List.subperm_of_subset g1 fun x hx => mem_allLower.2 ((g2 x.1 x.2).1 hx)).length_le
    omega
  obtain ⟨k1, k2, k3, k4⟩ := colamdRecommended_eq g9
  obtain ⟨stats, perm', e2, hst, hperm', -, -, -, -, htree⟩ := colamdMain_of truncI32 { options with denseColControl := options.denseRowControl, denseRowControl := -1 } g3 g4 (by omega) g8
    (by omega) (by omega) (by omega) (by omega) (by omega)
  have hcount := fun c (c0 : 0 ≤ c) (cn : c < n) => symCount_eq h g1 g2 g3 g4 g5 c0 cn
  have hrow : denseRowCount truncI32 { options with denseColControl := options.denseRowControl, denseRowControl := -1 } n = n - 1 := by
    unfold denseRowCount
    rw [if_pos (by simp [FloatOps.ltB])]
  rw [hrow] at htree
  have q1 : ∀ c, 0 ≤ c → c < n → (denseColCount truncI32 { options with denseColControl := options.denseRowControl, denseRowControl := -1 } pairs.length n <
      (Mem.ofList pointers 0).get (c + 1) - (Mem.ofList pointers 0).get c ↔ Dense ((Mem.ofList pointers 0).get (c + 1) - (Mem.ofList pointers 0).get c)) := fun c c0 cn => by
    rw [denseColCount_lt (options := { options with denseColControl := options.denseRowControl, denseRowControl := -1 }) hctl (colCount_lt g3 g8 (by omega) c0 cn), hD, edges_eq h g1 g2]
  have q2 : ∀ k, 0 ≤ k → k ≤ n → (n - 1 < k ↔ n - 1 < k) := fun _ _ _ => Iff.rfl
  have hord : ∀ c, Ordered (Mem.ofList m 0).get (Mem.ofList pointers 0).get n (n - 1 < ·)
      (denseColCount truncI32 { options with denseColControl := options.denseRowControl, denseRowControl := -1 } pairs.length n < ·) c ↔ Kept c := fun c => by
    rw [ordered_congr (DR := (n - 1 < ·)) (DR' := (n - 1 < ·)) h.cols q1 q2 c, hK]
    exact symOrdered_iff h3 g3 g5 hcount c
  have hjoin : ∀ c d, Kept c → Kept d → (Joined (Mem.ofList m 0).get (Mem.ofList pointers 0).get n (n - 1 < ·)
      (denseColCount truncI32 { options with denseColControl := options.denseRowControl, denseRowControl := -1 } pairs.length n < ·) c d ↔
        Neighbour (Mem.ofList l 0).get (Mem.ofList q 0).get c d) := fun c d hc hd => by
    rw [joined_congr (DR := (n - 1 < ·)) (DR' := (n - 1 < ·)) h.cols q1 q2 c d]
    obtain ⟨c0, cn, c1, c2⟩ := (hK c).1 hc
    obtain ⟨d0, dn, d1, d2⟩ := (hK d).1 hd
    unfold Spec.Joined
    constructor
    · rintro ⟨hne, r, x1, x2, x3⟩
      exact (symShared h g1 g2 g5 c0 cn d0 dn hne).1.1 ⟨r, x2, x3⟩
    · intro hnb
      have hne : c ≠ d := by
        rcases hnb with ⟨x, _⟩ | ⟨x, _⟩ <;> omega
      obtain ⟨r, x2, x3⟩ := (symShared h g1 g2 g5 c0 cn d0 dn hne).1.2 hnb
      exact ⟨hne, r, symRow_kept h3 g5 c0 cn x2 (by rw [hcount c c0 cn]; exact c2), x2, x3⟩
  have hlater := htree (fun c d r r' hc hd hne _ _ x1 x2 x3 x4 => (symShared h g1 g2 g5 hc.1 hc.2.1 hd.1 hd.2.1 hne).2 r r' x1 x2 x3 x4)
    (by
      obtain ⟨pos, p1, p2⟩ := hforest
      refine ⟨pos, fun c d hc hd => p1 c d ((hord c).1 hc) ((hord d).1 hd), fun c d e hc hd he x1 x2 => ?_⟩
      rw [hord] at hc hd he
      exact p2 c d e hc hd he ((hjoin c d hc hd).1 x1) ((hjoin c e hc he).1 x2))
  refine ⟨⟨.ok, stats.denseCol, stats.denseCol, stats.defrag⟩, perm', ?_, hperm', fun c d e hc hd he x1 x2 => ?_⟩
  rotate_left
  · exact hlater c d e ((hord c).2 hc) ((hord d).2 hd) ((hord e).2 he) ((hjoin c d hc hd).2 x1) ((hjoin c e hc he).2 x2)
  · unfold symamd
    rw [assertPointers_of n0 (by omega) (by omega), ok_bind, if_neg (by omega)]
    unfold symamdMain
    rw [e1, ok_bind]
    simp only
    rw [e2, ok_bind]
    simp only
    unfold statsToResult
    rw [pure_eq_ok, ok_bind]
    simp only
    rw [if_pos hst]
    rfl

/-- C85: a graph without cycles is a forest in the sense of the two theorems above. -/
theorem C85_acyclic {K : Int → Prop} {Nb : Int → Int → Prop} {n : Int} (hK : ∀ c, K c → 0 ≤ c ∧ c < n) (G : SimpleGraph Int) (hG : G.IsAcyclic)
    (hNb : ∀ c d, K c → K d → Nb c d → G.Adj c d) : ForestOrdered K Nb := by
  set root : Int → Int := fun c => (G.connectedComponentMk c).out with hroot
  have hreach : ∀ c, G.Reachable (root c) c := fun c => SimpleGraph.ConnectedComponent.exact (Quot.out_eq _)
  have hsame : ∀ c d, G.Adj c d → root d = root c := fun c d h => by
    rw [hroot]
    simp only
    rw [SimpleGraph.ConnectedComponent.sound h.reachable.symm]
  set depth : Int → Nat := fun c => G.dist (root c) c with hdepth
  refine ⟨fun c => c - n * depth c, fun c d hc hd hcd => ?_, fun c d e hc hd he h1 h2 h3 h4 => ?_⟩
  · obtain ⟨c0, cn⟩ := hK c hc
    obtain ⟨d0, dn⟩ := hK d hd
    simp only at hcd
    have h1 : c % n = d % n := by
      have : (c - n * depth c) % n = (d - n * depth d) % n := by rw [hcd]
      rwa [Int.sub_mul_emod_self_left, Int.sub_mul_emod_self_left] at this
    rwa [Int.emod_eq_of_lt c0 cn, Int.emod_eq_of_lt d0 dn] at h1
  · obtain ⟨p, hp, hp'⟩ := (hreach c).exists_path_of_dist
    have hpar : ∀ d, K d → Nb c d → c - n * depth c < d - n * depth d → d = p.penultimate := fun d hd hnb hlt => by
      have hadj := hNb c d hc hd hnb
      obtain ⟨c0, cn⟩ := hK c hc
      obtain ⟨d0, dn⟩ := hK d hd
      have hr := hsame c d hadj
      have hdd : G.dist (root c) c = G.dist (root c) d + 1 ∨ G.dist (root c) d = G.dist (root c) c + 1 := hG.dist_eq_dist_add_one_of_adj_of_reachable (root c) hadj (hreach c)
      have hdc : depth c = G.dist (root c) c := rfl
      have hde : depth d = G.dist (root c) d := by rw [hdepth]; simp only; rw [hr]
      have hup : G.dist (root c) c = G.dist (root c) d + 1 := by
        refine hdd.resolve_right fun q => ?_
        have : (depth d : Int) = depth c + 1 := by omega
        rw [this] at hlt
        ring_nf at hlt
        omega
      obtain ⟨q, hq, hq'⟩ := ((hreach c).trans hadj.reachable).exists_path_of_dist
      refine hG.eq_penultimate_of_adj_end hp hadj (hG.mem_support_of_ne_mem_support_of_adj_of_isPath hp hq hadj fun hv => ?_)
      have := congrArg SimpleGraph.Walk.length (hG.path_concat hp hq hadj hv)
      rw [SimpleGraph.Walk.length_concat] at this
      omega
    rw [hpar d hd h1 h3, hpar e he h2 h4]

/-! ## Concrete cases -/

/-- Three columns in a row: rows 0 and 1 join column 1 with columns 0 and 2. -/
def pathRows : List Int := [0, 0, 1, 1] ++ List.replicate 60 0
def pathPointers : List Int := [0, 1, 3, 4]

theorem path_form : ColumnForm (Mem.ofList pathRows 0).get (Mem.ofList pathPointers 0).get 2 3 where
  rows := by decide
  cols := by decide
  first := rfl
  mono := by intro c h0 h1; interval_cases c <;> decide +kernel
  bound := by
    intro i h0 h1
    have : (Mem.ofList pathPointers 0).get 3 = 4 := by decide +kernel
    rw [this] at h1
    interval_cases i <;> decide +kernel

theorem path_sorted : SortedColumns (Mem.ofList pathRows 0).get (Mem.ofList pathPointers 0).get 3 := by
  intro c h0 h1 i j h2 h3 h4
  have e0 : (Mem.ofList pathPointers 0).get 0 = 0 := rfl
  have e1 : (Mem.ofList pathPointers 0).get 1 = 1 := rfl
  have e2 : (Mem.ofList pathPointers 0).get 2 = 3 := rfl
  have e3 : (Mem.ofList pathPointers 0).get 3 = 4 := rfl
  have h5 := lt_trans h3 h4
  interval_cases c <;> norm_num only [e0, e1, e2, e3] at h2 h4 h5 <;> interval_cases i <;> interval_cases j <;> decide +kernel

theorem path_entry {r c : Int} (c0 : 0 ≤ c) (cn : c < 3) (h : Entry (Mem.ofList pathRows 0).get (Mem.ofList pathPointers 0).get r c) : (r = c ∧ c < 2) ∨ (r = c - 1 ∧ 0 < c) := by
  obtain ⟨i, i1, i2, rfl⟩ := h
  have e0 : (Mem.ofList pathPointers 0).get 0 = 0 := rfl
  have e1 : (Mem.ofList pathPointers 0).get 1 = 1 := rfl
  have e2 : (Mem.ofList pathPointers 0).get 2 = 3 := rfl
  have e3 : (Mem.ofList pathPointers 0).get 3 = 4 := rfl
  interval_cases c <;> norm_num only [e0, e1, e2, e3] at i1 i2 <;> interval_cases i <;> decide +kernel

/-- In the permutation of `colamd` for three columns in a row every column has at most one neighbour after it. -/
theorem C85_colamd_case : ∃ (stats : ColamdStatistics) (perm : List Int), colamd truncI32 ⟨0, 0, true⟩ 2 3 pathRows pathPointers = .ok (.ok stats, some (perm ++ [-1])) ∧
    OneLater (Ordered (Mem.ofList pathRows 0).get (Mem.ofList pathPointers 0).get 3 (16 < ·) (16 < ·)) (Joined (Mem.ofList pathRows 0).get (Mem.ofList pathPointers 0).get 3 (16 < ·) (16 < ·))
      (fun c => perm.idxOf c) := by
  have hdense : ∀ (x : ℝ) (k : Int), (16 < k ↔ max 16 ((0 : ℝ) * x) < (k : ℝ)) := fun x k => by
    rw [zero_mul, max_eq_left (by norm_num)]
    exact_mod_cast Iff.rfl
  obtain ⟨stats, perm, h1, -, h2⟩ := C85_colamd_forest ⟨0, 0, true⟩ (le_refl _) (le_refl _) (DenseRow := (16 < ·)) (DenseCol := (16 < ·)) path_form path_sorted (by decide +kernel)
    (show (Mem.ofList pathPointers 0).get 3 = 4 from rfl) (by omega) (by omega) (by omega) (by decide +kernel) (by decide +kernel) (fun k => hdense _ k) (fun k => hdense _ k)
    (fun c d r r' hc hd hne _ _ x1 x2 x3 x4 => by
      have y1 := path_entry hc.1 hc.2.1 x1
      have y2 := path_entry hd.1 hd.2.1 x2
      have y3 := path_entry hc.1 hc.2.1 x3
      have y4 := path_entry hd.1 hd.2.1 x4
      omega)
    ⟨id, fun _ _ _ _ q => q, fun c d e hc hd he x1 x2 x3 x4 => by
      obtain ⟨_, r, _, y1, y2⟩ := x1
      obtain ⟨_, r', _, y3, y4⟩ := x2
      have z1 := path_entry hc.1 hc.2.1 y1
      have z2 := path_entry hd.1 hd.2.1 y2
      have z3 := path_entry hc.1 hc.2.1 y3
      have z4 := path_entry he.1 he.2.1 y4
      simp only [id] at x3 x4
      omega⟩
  exact ⟨stats, perm, h1, h2⟩

/-- All three columns of that matrix take part, and columns 0 and 1 are neighbours. -/
theorem path_joined : Ordered (Mem.ofList pathRows 0).get (Mem.ofList pathPointers 0).get 3 (16 < ·) (16 < ·) 0 ∧
    Joined (Mem.ofList pathRows 0).get (Mem.ofList pathPointers 0).get 3 (16 < ·) (16 < ·) 0 1 := by
  have h0 : Entry (Mem.ofList pathRows 0).get (Mem.ofList pathPointers 0).get 0 0 := ⟨0, by decide +kernel, by decide +kernel, rfl⟩
  have h1 : Entry (Mem.ofList pathRows 0).get (Mem.ofList pathPointers 0).get 0 1 := ⟨1, by decide +kernel, by decide +kernel, rfl⟩
  have e0 : (Mem.ofList pathPointers 0).get (0 + 1) - (Mem.ofList pathPointers 0).get 0 = 1 := rfl
  have hr : ¬ RowIgnored (Mem.ofList pathRows 0).get (Mem.ofList pathPointers 0).get 3 (16 < ·) (16 < ·) 0 := fun q => by
    have h2 := (rowCount_range (a := (Mem.ofList pathRows 0).get) (p := (Mem.ofList pathPointers 0).get) (DC := (16 < ·)) (n := 3) (by omega) 0).2
    have h3 : 0 < rowCount (Mem.ofList pathRows 0).get (Mem.ofList pathPointers 0).get 3 (16 < ·) 0 := rowCount_pos (le_refl _) (by omega) h0 (by rw [e0]; omega)
    unfold RowIgnored at q
    omega
  exact ⟨Amd.ordered_of_entry (le_refl _) (by omega) h0 (by rw [e0]; omega) hr, by omega, 0, hr, h0, h1⟩

/-- The star of 17 columns, in which all columns are neighbours of column 0: at most one column comes after column 0. -/
theorem C85_symamd_case : ∃ (stats : ColamdStatistics) (perm' : List Int), symamd truncI32 ⟨0, 0, true⟩ 17 crossRows crossPointers (List.replicate 18 0) =
    .ok (.ok stats, some (perm' ++ [-1])) ∧ ∀ d e, 1 ≤ d → d < 17 → 1 ≤ e → e < 17 → perm'.idxOf 0 < perm'.idxOf d → perm'.idxOf 0 < perm'.idxOf e → d = e := by
  have hnb : ∀ c e, 0 ≤ c → c < 17 → 0 ≤ e → e < 17 → (Neighbour (Mem.ofList crossRows 0).get (Mem.ofList crossPointers 0).get c e ↔ (c = 0 ∧ 1 ≤ e) ∨ (e = 0 ∧ 1 ≤ c)) := fun c e c0 cn e0 en => by
    unfold Neighbour
    rw [cross_entry c0 cn, cross_entry e0 en]
    omega
  have hval : ∀ d, 0 ≤ d → d < 17 → valency (Mem.ofList crossRows 0).get (Mem.ofList crossPointers 0).get 17 d ≠ 0 ∧ valency (Mem.ofList crossRows 0).get (Mem.ofList crossPointers 0).get 17 d ≤ 16 := fun d d0 dn => by
    unfold valency
    constructor
    · refine Nat.cast_ne_zero.2 (Finset.card_ne_zero.2 ⟨if d = 0 then 1 else 0, Finset.mem_filter.2 ⟨?_, ?_⟩⟩)
      · split <;> decide
      · split
        · exact (hnb d 1 d0 dn (by omega) (by omega)).2 (by omega)
        · exact (hnb d 0 d0 dn (by omega) (by omega)).2 (by omega)
    · have : (Finset.Ico 0 17).filter (Neighbour (Mem.ofList crossRows 0).get (Mem.ofList crossPointers 0).get d) ⊆ (Finset.Ico 0 17).erase d := fun e he => by
        rw [Finset.mem_filter, Finset.mem_Ico] at he
        have := (hnb d e d0 dn he.1.1 he.1.2).1 he.2
        exact Finset.mem_erase.2 ⟨by omega, Finset.mem_Ico.2 he.1⟩
      have h1 := Finset.card_le_card this
      rw [Finset.card_erase_of_mem (Finset.mem_Ico.2 ⟨d0, dn⟩), Int.card_Ico] at h1
      omega
  set Dense : Int → Prop := fun k => max 16 ((0 : ℝ) * √((min (edges (Mem.ofList crossRows 0).get (Mem.ofList crossPointers 0).get 17) 17).toNat : ℝ)) < (k : ℝ) with hDense
  obtain ⟨Kept, hKept⟩ : ∃ Kept : Int → Prop, ∀ d, Kept d ↔ 0 ≤ d ∧ d < 17 ∧ valency (Mem.ofList crossRows 0).get (Mem.ofList crossPointers 0).get 17 d ≠ 0 ∧
    ¬ Dense (valency (Mem.ofList crossRows 0).get (Mem.ofList crossPointers 0).get 17 d) := ⟨_, fun _ => Iff.rfl⟩
  have hkept : ∀ d, 0 ≤ d → d < 17 → Kept d := fun d d0 dn => by
    refine (hKept d).2 ⟨by omega, dn, (hval d d0 dn).1, ?_⟩
    rw [hDense]
    simp only [zero_mul]
    rw [not_lt, max_eq_left (by norm_num)]
    exact_mod_cast (hval d d0 dn).2
  obtain ⟨stats, perm', h1, -, h2⟩ := C85_symamd_forest ⟨0, 0, true⟩ (le_refl _) (Dense := Dense) (Kept := Kept) cross_form (by omega) (by omega) (by decide +kernel)
    (by decide +kernel) (cross_pointer.2 17 (by omega) (by omega)) (by decide +kernel) (by omega) (perm := List.replicate 18 0) (fun _ => Iff.rfl) hKept
    ⟨fun c => -c, fun c d _ _ q => by simp only at q; omega, fun c d e hc hd he x1 x2 x3 x4 => by
      rw [hKept] at hc hd he
      rw [hnb c d hc.1 hc.2.1 hd.1 hd.2.1] at x1
      rw [hnb c e hc.1 hc.2.1 he.1 he.2.1] at x2
      simp only at x3 x4
      omega⟩
  refine ⟨stats, perm', h1, fun d e d1 dn e1 en x1 x2 => ?_⟩
  exact h2 0 d e (hkept 0 (by omega) (by omega)) (hkept d (by omega) dn) (hkept e (by omega) en) ((hnb 0 d (by omega) (by omega) (by omega) dn).2 (by omega))
    ((hnb 0 e (by omega) (by omega) (by omega) en).2 (by omega)) (by simp only; omega) (by simp only; omega)

end Fiksi
