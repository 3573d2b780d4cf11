import Verif.Props.ColamdForest
import Verif.Props.Cholesky
import Verif.Proofs.QrColamd
import Mathlib.Combinatorics.SimpleGraph.Star
/-!
# C85: the factor `R` of a matrix whose columns form a forest has no fill
-/
namespace Fiksi
open Spec Classical

/-- The graph of the columns of a matrix: columns that share a row are neighbours. -/
def Spec.columnGraph (a : SparseStructure) : SimpleGraph Int where
  Adj c d := c ≠ d ∧ 0 ≤ c ∧ 0 ≤ d ∧ ∃ i, Has a i c.toNat ∧ Has a i d.toNat
  symm := ⟨fun _ _ h => ⟨h.1.symm, h.2.2.1, h.2.1, h.2.2.2.imp fun _ x => ⟨x.2, x.1⟩⟩⟩
  loopless := ⟨fun _ h => h.1 rfl⟩

/-- The way from a vertex to `k` along later neighbours. -/
inductive Climbs (meet : Nat → Nat → Prop) (k : Nat) : Nat → Prop where
  | here : Climbs meet k k
  | up {x y : Nat} : x < y → y ≤ k → meet x y → Climbs meet k y → Climbs meet k x

/-- If every vertex has at most one later neighbour, elimination joins no two vertices that are not neighbours. -/
theorem C85_no_fill {meet : Nat → Nat → Prop} (hsymm : ∀ x y, meet x y → meet y x)
    (hone : ∀ k x y, meet k x → meet k y → k < x → k < y → x = y) {k j : Nat} (h : Fill meet k j) : k = j ∨ (k < j ∧ meet k j) := by
  rcases h with h | ⟨hkj, x, hr, hm⟩
  · exact Or.inl h
  · right
    have key : ∀ {u v : Nat}, Reach meet k u v → Climbs meet k u → Climbs meet k v := by
      intro u v h
      induction h with
      | refl _ => exact id
      | @step u y z hu hm hr ih =>
        intro hc
        refine ih ?_
        have hy : y ≤ k := by
          cases hr <;> assumption
        rcases Nat.lt_trichotomy u y with hlt | rfl | hlt
        · cases hc with
          | here => omega
          | @up _ w q1 q2 q3 q4 =>
            rw [hone u y w hm q3 hlt q1]
            exact q4
        · exact hc
        · exact .up hlt hu (hsymm _ _ hm) hc
    have hc := key hr .here
    cases hc with
    | here => exact ⟨hkj, hm⟩
    | @up _ w q1 q2 q3 q4 =>
      have := hone x w j q3 hm q1 (by omega)
      omega

/-- The converse: neighbours are joined. -/
theorem fill_of_meet {meet : Nat → Nat → Prop} {k j : Nat} (h : k = j ∨ (k < j ∧ meet k j)) : Fill meet k j := by
  rcases h with h | ⟨h1, h2⟩
  · exact Or.inl h
  · exact Or.inr ⟨h1, k, .refl (le_refl _), h2⟩

section
variable {a : SparseStructure} {A P : Int → Int}

theorem entry_iff (ha : WellFormed a) (hA : ∀ i : Nat, i < a.rowIndices.length → A i = ((a.rowIndices.getD i 0 : Nat) : Int))
    (hP : ∀ i : Nat, i ≤ a.ncols → P i = ((a.columnPointers.getD i 0 : Nat) : Int)) {c : Nat} (hc : c < a.ncols) (r : Int) :
    Entry A P r c ↔ ∃ i : Nat, r = i ∧ Has a i c := by
  have k1 := ha.pointer (j := c) (by omega)
  have k2 := ha.pointer (j := c + 1) (by omega)
  have k3 := ha.pointer_le (j := c + 1) (by omega)
  have e1 := hP c (by omega)
  have e2 := hP (c + 1) (by omega)
  rw [Nat.cast_add, Nat.cast_one] at e2
  constructor
  · rintro ⟨i, h1, h2, h3⟩
    rw [e1] at h1
    rw [e2] at h2
    have hi : i.toNat < a.rowIndices.length := by omega
    have e3 := hA i.toNat hi
    rw [show ((i.toNat : Nat) : Int) = i by omega, h3] at e3
    exact ⟨_, e3, i.toNat, _, _, k1, k2, by omega, by omega, by rw [List.getD_eq_getElem?_getD, List.getElem?_eq_getElem hi]; rfl⟩
  · rintro ⟨i, rfl, q, start, stop, h1, h2, h3, h4, h5⟩
    rw [k1] at h1
    rw [k2] at h2
    obtain rfl := Option.some.inj h1
    obtain rfl := Option.some.inj h2
    refine ⟨q, by omega, by omega, ?_⟩
    rw [hA q (by omega), List.getD_eq_getElem?_getD, h5]
    rfl

end

/-- No three different columns share a row if the columns form a forest. -/
theorem rowCount_le {A P : Int → Int} {n : Int} {DenseCol : Int → Prop}
    (hforest : ForestOrdered (fun c => 0 ≤ c ∧ c < n) (fun c d => c ≠ d ∧ ∃ r, Entry A P r c ∧ Entry A P r d)) (r : Int) : rowCount A P n DenseCol r ≤ 2 := by
  by_contra hgt
  have h2 : 2 < ((Finset.Ico 0 n).filter (fun c => Entry A P r c ∧ ¬ DenseCol (P (c + 1) - P c))).card := by
    unfold rowCount at hgt
    omega
  obtain ⟨c, hc, d, hd, e, he, n1, n2, n3⟩ := Finset.two_lt_card.1 h2
  simp only [Finset.mem_filter, Finset.mem_Ico] at hc hd he
  obtain ⟨pos, hinj, hlater⟩ := hforest
  have p1 := fun h => n1 (hinj c d hc.1 hd.1 h)
  have p2 := fun h => n2 (hinj c e hc.1 he.1 h)
  have p3 := fun h => n3 (hinj d e hd.1 he.1 h)
  rcases lt_or_gt_of_ne p1 with q1 | q1
  · rcases lt_or_gt_of_ne p2 with q2 | q2
    · exact n3 (hlater c d e hc.1 hd.1 he.1 ⟨n1, r, hc.2.1, hd.2.1⟩ ⟨n2, r, hc.2.1, he.2.1⟩ q1 q2)
    · exact n1 (hlater e c d he.1 hc.1 hd.1 ⟨n2.symm, r, he.2.1, hc.2.1⟩ ⟨n3.symm, r, he.2.1, hd.2.1⟩ q2 (q2.trans q1))
  · rcases lt_or_gt_of_ne p3 with q2 | q2
    · exact n2 (hlater d c e hd.1 hc.1 he.1 ⟨n1.symm, r, hd.2.1, hc.2.1⟩ ⟨n3, r, hd.2.1, he.2.1⟩ q1 q2)
    · exact n1 (hlater e c d he.1 hc.1 hd.1 ⟨n2.symm, r, he.2.1, hc.2.1⟩ ⟨n3.symm, r, he.2.1, hd.2.1⟩ (q2.trans q1) q2)

/-- C85: if the columns of a matrix form a forest, no two of them share two rows and none is dense, then in the symbolic sparse QR with the default ordering
the factor `R` has exactly the entries of the upper triangle of the permuted `A^T A` (and the diagonal), and each of its rows has at most one entry beside
the diagonal. -/
theorem C85_qr_forest {a : SparseStructure} (ha : WellFormed a) (hfit : workspace a.nrows a.ncols a.rowIndices.length < 2 ^ 31)
    (hforest : (columnGraph a).IsAcyclic) (hshared : ∀ c d i i', c ≠ d → Has a i c → Has a i d → Has a i' c → Has a i' d → i = i')
    (hdense : ∀ c start stop : Nat, a.columnPointers[c]? = some start → a.columnPointers[c + 1]? = some stop →
      ((stop - start : Nat) : ℝ) ≤ max 16 (10 * √((min a.nrows a.ncols : Nat) : ℝ))) :
    ∃ s, SymbolicQr.build (colamdOfStructure truncI32) a .colamd = .ok s ∧ s.colPermutation.Perm (List.range a.ncols) ∧
      (∀ k j, Has s.rStructure k j ↔ ∃ c d, s.colPermutation[k]? = some c ∧ s.colPermutation[j]? = some d ∧ (k = j ∨ (k < j ∧ ∃ i, Has a i c ∧ Has a i d))) ∧
      ∀ k j j', Has s.rStructure k j → Has s.rStructure k j' → k < j → k < j' → j = j' := by
  have hlen : workspace a.nrows a.ncols a.rowIndices.length = 2 * a.rowIndices.length + 6 * (a.ncols + 1) + 4 * (a.nrows + 1) + a.ncols + a.rowIndices.length / 5 := rfl
  obtain ⟨A, P, hA, hP, h1, h2, h3, h4, h5, h6⟩ := colamdOfStructure_data truncI32 ha (by omega) (by omega) (by omega)
  have hentry := fun {c : Nat} hc r => entry_iff ha hA hP (c := c) hc r
  have hentry' : ∀ {c : Int}, 0 ≤ c → c < a.ncols → ∀ r, Entry (Mem.ofList A 0).get (Mem.ofList P 0).get r c ↔ ∃ i : Nat, r = i ∧ Has a i c.toNat := fun {c} c0 cn r => by
    have := hentry (c := c.toNat) (by omega) r
    rwa [show ((c.toNat : Nat) : Int) = c by omega] at this
  have hall : ForestOrdered (fun c => 0 ≤ c ∧ c < (a.ncols : Int)) (fun c d => c ≠ d ∧ ∃ r, Entry (Mem.ofList A 0).get (Mem.ofList P 0).get r c ∧ Entry (Mem.ofList A 0).get (Mem.ofList P 0).get r d) :=
    C85_acyclic (fun c h => h) (columnGraph a) hforest fun c d hc hd hnb => by
      obtain ⟨hne, r, q1, q2⟩ := hnb
      obtain ⟨i, rfl, q3⟩ := (hentry' hc.1 hc.2 r).1 q1
      obtain ⟨i', q4, q5⟩ := (hentry' hd.1 hd.2 _).1 q2
      obtain rfl : i = i' := by omega
      exact ⟨hne, hc.1, hd.1, i, q3, q5⟩
  obtain ⟨DR, hDR⟩ : ∃ DR : Int → Prop, ∀ k, DR k ↔ max 16 ((ColamdOptions.default : ColamdOptions ℝ).denseRowControl * √(((a.ncols : Int)).toNat : ℝ)) < (k : ℝ) := ⟨_, fun _ => Iff.rfl⟩
  obtain ⟨DC, hDC⟩ : ∃ DC : Int → Prop, ∀ k, DC k ↔ max 16 ((ColamdOptions.default : ColamdOptions ℝ).denseColControl * √((min (a.nrows : Int) a.ncols).toNat : ℝ)) < (k : ℝ) :=
    ⟨_, fun _ => Iff.rfl⟩
  have h10 : (ColamdOptions.default : ColamdOptions ℝ).denseRowControl = 10 ∧ (ColamdOptions.default : ColamdOptions ℝ).denseColControl = 10 := by
    constructor <;> (show ((10 : ℕ) : ℝ) = 10; norm_num)
  have hrow : ∀ r, ¬ DR (rowCount (Mem.ofList A 0).get (Mem.ofList P 0).get a.ncols DC r) := fun r h => by
    rw [hDR] at h
    have q := rowCount_le (DenseCol := DC) hall r
    have q1 := lt_of_le_of_lt (le_max_left _ _) h
    have q2 : ((rowCount (Mem.ofList A 0).get (Mem.ofList P 0).get a.ncols DC r : Int) : ℝ) ≤ ((2 : Int) : ℝ) := Int.cast_le.2 q
    push_cast at q2
    linarith
  have hcol : ∀ c : Int, 0 ≤ c → c < a.ncols → ¬ DC ((Mem.ofList P 0).get (c + 1) - (Mem.ofList P 0).get c) := fun c c0 cn h => by
    rw [hDC, h10.2] at h
    have k1 := ha.pointer (j := c.toNat) (by omega)
    have k2 := ha.pointer (j := c.toNat + 1) (by omega)
    have k3 := ha.pointer_mono (i := c.toNat) (j := c.toNat + 1) (by omega) (by omega)
    have q := hdense c.toNat _ _ k1 k2
    have e1 := hP c.toNat (by omega)
    have e2 := hP (c.toNat + 1) (by omega)
    rw [show ((c.toNat : Nat) : Int) = c by omega] at e1
    rw [Nat.cast_add, Nat.cast_one, show ((c.toNat : Nat) : Int) = c by omega] at e2
    rw [e1, e2, show (min (a.nrows : Int) a.ncols).toNat = min a.nrows a.ncols by omega] at h
    rw [show ((a.columnPointers.getD (c.toNat + 1) 0 : Nat) : Int) - ((a.columnPointers.getD c.toNat 0 : Nat) : Int) = ((a.columnPointers.getD (c.toNat + 1) 0 - a.columnPointers.getD c.toNat 0 : Nat) : Int) by omega,
      Int.cast_natCast] at h
    exact absurd q (not_le.2 h)
  have hkept : ∀ c : Int, 0 ≤ c → c < a.ncols → ∀ r, Entry (Mem.ofList A 0).get (Mem.ofList P 0).get r c →
      ¬ RowIgnored (Mem.ofList A 0).get (Mem.ofList P 0).get a.ncols DR DC r := fun c c0 cn r he h => by
    rcases h with h | h
    · exact hrow r h
    · unfold rowCount at h
      have : c ∈ (Finset.Ico 0 (a.ncols : Int)).filter (fun c => Entry (Mem.ofList A 0).get (Mem.ofList P 0).get r c ∧ ¬ DC ((Mem.ofList P 0).get (c + 1) - (Mem.ofList P 0).get c)) :=
        Finset.mem_filter.2 ⟨Finset.mem_Ico.2 ⟨c0, cn⟩, he, hcol c c0 cn⟩
      have := Finset.card_pos.2 ⟨c, this⟩
      omega
  have hordered : ∀ c : Int, 0 ≤ c → c < a.ncols → ∀ r, Entry (Mem.ofList A 0).get (Mem.ofList P 0).get r c →
      Spec.Ordered (Mem.ofList A 0).get (Mem.ofList P 0).get a.ncols DR DC c := fun c c0 cn r he => by
    refine ⟨c0, cn, fun h => ?_⟩
    unfold lastColumns at h
    rw [List.mem_append, List.mem_append, List.mem_filter, List.mem_filter, List.mem_filter] at h
    simp only [decide_eq_true_eq] at h
    obtain ⟨i, i1, i2, i3⟩ := he
    rcases h with h | h | h
    · exact hkept c c0 cn r ⟨i, i1, i2, i3⟩ (h.2.2.2 r ⟨i, i1, i2, i3⟩)
    · exact hcol c c0 cn h.2.2
    · omega
  obtain ⟨stats, perm, e, hperm, hlater⟩ := C85_colamd_forest (nnz := (a.rowIndices.length : Int)) (ColamdOptions.default : ColamdOptions ℝ) (by rw [h10.1]; norm_num) (by rw [h10.2]; norm_num) h3 h4 (by omega) h5
    (by omega) (by omega) (by omega) (by omega) (by omega) hDR hDC
    (fun c d r r' hc hd hne _ _ x1 x2 x3 x4 => by
      obtain ⟨i, rfl, y1⟩ := (hentry' hc.1 hc.2.1 r).1 x1
      obtain ⟨i2, y0, y2⟩ := (hentry' hd.1 hd.2.1 _).1 x2
      obtain ⟨i', rfl, y3⟩ := (hentry' hc.1 hc.2.1 r').1 x3
      obtain ⟨i4, y5, y4⟩ := (hentry' hd.1 hd.2.1 _).1 x4
      obtain rfl : i = i2 := by omega
      obtain rfl : i' = i4 := by omega
      have hc' := hc.1
      have hd' := hd.1
      rw [hshared c.toNat d.toNat i i' (by omega) y1 y2 y3 y4])
    (by
      obtain ⟨pos, q1, q2⟩ := hall
      refine ⟨pos, fun c d hc hd => q1 c d ⟨hc.1, hc.2.1⟩ ⟨hd.1, hd.2.1⟩, fun c d e hc hd he x1 x2 => ?_⟩
      exact q2 c d e ⟨hc.1, hc.2.1⟩ ⟨hd.1, hd.2.1⟩ ⟨he.1, he.2.1⟩ ⟨x1.1, x1.2.imp fun r x => x.2⟩ ⟨x2.1, x2.2.imp fun r x => x.2⟩)
  have hl : perm.length = a.ncols := by rw [hperm.length_eq]; simp [span]
  have hnd : perm.Nodup := hperm.nodup_iff.2 (Amd.span_nodup _)
  obtain ⟨p, hp⟩ : ∃ p, ((perm ++ [-1]).map usizeAs).take a.ncols = p := ⟨_, rfl⟩
  have hpp : p.Perm (List.range a.ncols) := by
    rw [← hp]
    exact usizeAs_take hl (by omega) hperm
  have hpget : ∀ {k c : Nat}, p[k]? = some c → k < a.ncols ∧ c < a.ncols ∧ perm[k]? = some (c : Int) := fun {k c} h => by
    have hc : c < a.ncols := List.mem_range.1 (hpp.mem_iff.1 (List.mem_of_getElem? h))
    have hk : k < a.ncols := by
      have := (List.getElem?_eq_some_iff.1 h).1
      rwa [hpp.length_eq, List.length_range] at this
    refine ⟨hk, hc, ?_⟩
    rw [← hp, List.getElem?_take_of_lt hk, List.getElem?_map, List.getElem?_append_left (by omega), List.getElem?_eq_getElem (by omega), Option.map_some] at h
    have hx := hperm.mem_iff.1 (List.getElem_mem (l := perm) (n := k) (by omega))
    rw [mem_span] at hx
    have h' := Option.some.inj h
    rw [List.getElem?_eq_getElem (by omega)]
    have e : perm[k]'(by omega) = (((perm[k]'(by omega)).toNat : Nat) : Int) := by omega
    rw [e, usizeAs_natCast (by omega)] at h'
    rw [e, h']
  have hcall : colamdOfStructure truncI32 a = .ok p := by
    rw [h6, e, ok_bind, ← hp]
    rfl
  obtain ⟨p', seq, pa, g1, o⟩ := orderColumns_spec ⟨p, hcall, hpp⟩ ha .colamd
  obtain rfl : p = p' := by
    have g := g1
    rw [orderColumns, hcall, ok_bind] at g
    obtain ⟨_, -, g⟩ := bind_eq_ok.1 g
    obtain ⟨_, -, g⟩ := bind_eq_ok.1 g
    obtain ⟨_, -, g⟩ := bind_eq_ok.1 g
    exact congrArg Prod.fst (Except.ok.inj g)
  obtain ⟨parents, post, counts, cs, k1, k2, k3, k4, -, k5, k6, k7⟩ := C48_structure pa o.wf
  have hmeet : ∀ x y, Meet false pa x y ↔ ∃ c d, p[x]? = some c ∧ p[y]? = some d ∧ ∃ i, Has a i c ∧ Has a i d := fun x y => by
    show (∃ i, Has pa i x ∧ Has pa i y) ↔ _
    constructor
    · rintro ⟨i, q1, q2⟩
      obtain ⟨c, q3, q4⟩ := (o.has i x).1 q1
      obtain ⟨d, q5, q6⟩ := (o.has i y).1 q2
      exact ⟨c, d, q3, q5, i, q4, q6⟩
    · rintro ⟨c, d, q3, q5, i, q4, q6⟩
      exact ⟨i, (o.has i x).2 ⟨c, q3, q4⟩, (o.has i y).2 ⟨d, q5, q6⟩⟩
  have hone : ∀ k x y, Meet false pa k x → Meet false pa k y → k < x → k < y → x = y := fun k x y m1 m2 hx hy => by
    obtain ⟨c, d, q1, q2, i, q3, q4⟩ := (hmeet k x).1 m1
    obtain ⟨c', e', r1, r2, i', r3, r4⟩ := (hmeet k y).1 m2
    rw [q1] at r1
    obtain rfl := Option.some.inj r1
    obtain ⟨_, cn, v1⟩ := hpget q1
    obtain ⟨_, dn, v2⟩ := hpget q2
    obtain ⟨_, en, v3⟩ := hpget r2
    have pos : ∀ {k : Nat} {c : Int}, perm[k]? = some c → perm.idxOf c = k := fun {k c} h => by
      obtain ⟨hk, h⟩ := List.getElem?_eq_some_iff.1 h
      rw [← h, hnd.idxOf_getElem k hk]
    have ent : ∀ {i c : Nat}, c < a.ncols → Has a i c → Entry (Mem.ofList A 0).get (Mem.ofList P 0).get i c := fun {i c} hc h => (hentry hc _).2 ⟨i, rfl, h⟩
    have ne : ∀ {k x c d : Nat}, p[k]? = some c → p[x]? = some d → k < x → (c : Int) ≠ d := fun {k x c d} h1 h2 hlt heq => by
      have := perm_nodup_getElem hpp h1 ((Nat.cast_inj.1 heq) ▸ h2)
      omega
    have hd := hlater c d e' (hordered c (by omega) (by omega) i (ent cn q3)) (hordered d (by omega) (by omega) i (ent dn q4)) (hordered e' (by omega) (by omega) i' (ent en r4))
      ⟨ne q1 q2 hx, i, hkept c (by omega) (by omega) i (ent cn q3), ent cn q3, ent dn q4⟩
      ⟨ne q1 r2 hy, i', hkept c (by omega) (by omega) i' (ent cn r3), ent cn r3, ent en r4⟩
      (by simp only; rw [pos v1, pos v2]; omega) (by simp only; rw [pos v1, pos v3]; omega)
    obtain rfl : d = e' := by omega
    exact perm_nodup_getElem hpp q2 r2
  have hsymm : ∀ x y, Meet false pa x y → Meet false pa y x := fun x y ⟨i, q1, q2⟩ => ⟨i, q2, q1⟩
  have hR : ∀ k j, Has cs.lStructure k j ↔ ∃ c d, p[k]? = some c ∧ p[j]? = some d ∧ (k = j ∨ (k < j ∧ ∃ i, Has a i c ∧ Has a i d)) := fun k j => by
    constructor
    · intro h
      have hj := (h.lt k6).2
      rw [k5] at hj
      have hjn : j < p.length := by rw [hpp.length_eq, List.length_range, ← o.cols]; exact hj
      rcases C85_no_fill hsymm hone ((k7 k j hj).1 h) with rfl | ⟨q1, q2⟩
      · exact ⟨_, _, List.getElem?_eq_getElem hjn, List.getElem?_eq_getElem hjn, Or.inl rfl⟩
      · obtain ⟨c, d, q3, q4, q5⟩ := (hmeet k j).1 q2
        exact ⟨c, d, q3, q4, Or.inr ⟨q1, q5⟩⟩
    · rintro ⟨c, d, q1, q2, q3⟩
      refine (k7 k j (by rw [o.cols]; exact (hpget q2).1)).2 (fill_of_meet ?_)
      rcases q3 with q3 | ⟨q3, q4⟩
      · exact Or.inl q3
      · exact Or.inr ⟨q3, (hmeet k j).2 ⟨c, d, q1, q2, q4⟩⟩
  refine ⟨⟨cs.rowPermutation, cs.lStructure, cs.hStructure, p, seq⟩, ?_, hpp, hR, fun k j j' q1 q2 l1 l2 => ?_⟩
  · rw [SymbolicQr.build, g1, ok_bind]
    simp only
    rw [k1, ok_bind, k2, ok_bind, k3, ok_bind, k4, ok_bind]
    rfl
  · obtain ⟨c, d, u1, u2, u3⟩ := (hR k j).1 q1
    obtain ⟨c', d', w1, w2, w3⟩ := (hR k j').1 q2
    refine hone k j j' ((hmeet k j).2 ⟨c, d, u1, u2, ?_⟩) ((hmeet k j').2 ⟨c', d', w1, w2, ?_⟩) l1 l2
    · exact (u3.resolve_left (by omega)).2
    · exact (w3.resolve_left (by omega)).2

/-- Column 0 shares a row with each of the columns 1, 2 and 3. -/
def starStructure : SparseStructure := ⟨4, 4, [0, 1, 2, 3, 0, 1, 2], [0, 4, 5, 6, 7]⟩

theorem star_has {i c : Nat} (h : Has starStructure i c) : c = 0 ∨ c = i + 1 := by
  obtain ⟨p, start, stop, h1, h2, h3, h4, h5⟩ := h
  have hc : c < 4 := by
    have := (List.getElem?_eq_some_iff.1 h2).1
    simp only [starStructure, List.length_cons, List.length_nil] at this
    omega
  have hp : p < 7 := (List.getElem?_eq_some_iff.1 h5).1
  interval_cases c <;> simp [starStructure] at h1 h2 <;> subst h1 h2 <;> interval_cases p <;> simp [starStructure] at h5 <;> omega

theorem star_wellFormed : WellFormed starStructure :=
  ofColumns_wellFormed (nrows := 4) (cols := [[0, 1, 2, 3], [0], [1], [2]]) (by simp) (by simp)

theorem star_natural (f : SparseStructure → R (List Nat)) :
    (SymbolicQr.build f starStructure .natural).map (fun s => s.rStructure) = .ok ⟨4, 4, [0, 0, 1, 0, 1, 2, 0, 1, 2, 3], [0, 1, 3, 6, 10]⟩ := by
  rfl

/-- Case for `C85_qr_forest`: a star. In the given order, the centre first, elimination joins the columns 1 and 2. -/
theorem C85_qr_case : (∃ s, SymbolicQr.build (colamdOfStructure truncI32) starStructure .colamd = .ok s ∧ s.colPermutation.Perm (List.range 4) ∧
      ∀ k j j', Has s.rStructure k j → Has s.rStructure k j' → k < j → k < j' → j = j') ∧
    ∃ s, SymbolicQr.build (colamdOfStructure truncI32) starStructure .natural = .ok s ∧ Has s.rStructure 1 2 ∧ Has s.rStructure 1 3 := by
  constructor
  · obtain ⟨s, h1, h2, -, h3⟩ := C85_qr_forest (a := starStructure) star_wellFormed (by decide)
      ((SimpleGraph.isAcyclic_starGraph (0 : Int)).anti fun c d h => by
        obtain ⟨hne, c0, d0, i, q1, q2⟩ := h
        have k1 := star_has q1
        have k2 := star_has q2
        rw [SimpleGraph.starGraph_adj]
        refine ⟨hne, ?_⟩
        omega)
      (fun c d i i' hne q1 q2 q3 q4 => by
        have k1 := star_has q1
        have k2 := star_has q2
        have k3 := star_has q3
        have k4 := star_has q4
        omega)
      (fun c start stop q1 q2 => by
        have : stop - start ≤ 16 := by
          have hc : c < 4 := by
            have := (List.getElem?_eq_some_iff.1 q2).1
            simp only [starStructure, List.length_cons, List.length_nil] at this
            omega
          interval_cases c <;> simp [starStructure] at q1 q2 <;> omega
        have h16 : ((stop - start : Nat) : ℝ) ≤ ((16 : Nat) : ℝ) := Nat.cast_le.2 this
        exact le_max_of_le_left (by exact_mod_cast h16))
    exact ⟨s, h1, h2, h3⟩
  · have h := star_natural (colamdOfStructure truncI32)
    cases hs : SymbolicQr.build (colamdOfStructure truncI32) starStructure .natural with
    | error e =>
      rw [hs] at h
      cases h
    | ok s =>
      rw [hs] at h
      have h' : s.rStructure = _ := Except.ok.inj h
      refine ⟨s, rfl, ?_, ?_⟩
      · rw [h']
        exact ⟨4, 3, 6, rfl, rfl, by omega, by omega, rfl⟩
      · rw [h']
        exact ⟨7, 6, 10, rfl, rfl, by omega, by omega, rfl⟩

end Fiksi
