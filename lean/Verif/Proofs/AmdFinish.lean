import Verif.Proofs.AmdSuper
/-!
# The new scores
-/
namespace Fiksi.Amd
open Classical

/-- The new score of column `c`. -/
def newScore (n k degree : Int) (D : Int → ColamdCol) (c : Int) : Int :=
  min (n - k - (D c).thickness) ((D c).score + degree - (D c).thickness)

/-- After the columns of `S`; `D` and `a0` are the columns and the array at the beginning. -/
structure FinishInv (n k degree pivotRow pfree : Int) (L : Int → Prop) (D : Int → ColamdCol) (a0 : Mem Int) (m0 : Int) (csize hsize : Nat) (S : Finset Int)
    (s : FinishState) : Prop where
  csize : s.cols.size = csize
  asize : s.a.size = a0.size
  hsize : s.head.size = hsize
  newRp : s.newRp = pfree + (S.filter (fun d => 0 ≤ (D d).start)).card
  row : Holds s.a.get pfree (S.filter (fun d => 0 ≤ (D d).start)).card (S.filter (fun d => 0 ≤ (D d).start))
  rest : ∀ i, s.newRp ≤ i → s.a.get i = a0.get i
  afar : ∀ i, i < pfree → (∀ d ∈ S, 0 ≤ (D d).start → i ≠ (D d).start + (D d).length) → s.a.get i = a0.get i
  ends : ∀ d ∈ S, 0 ≤ (D d).start → s.a.get ((D d).start + (D d).length) = pivotRow
  same : ∀ c, c ∉ S ∨ (D c).start < 0 → s.cols.get c = { D c with prev := (s.cols.get c).prev, next := (s.cols.get c).next }
  kept : ∀ d ∈ S, 0 ≤ (D d).start → s.cols.get d = { D d with
    length := (D d).length + 1
    score := newScore n k degree D d
    prev := (s.cols.get d).prev
    next := (s.cols.get d).next }
  lists : DegLists n (fun c => L c ∨ c ∈ S ∧ 0 ≤ (D c).start) s.head.get (fun c => (s.cols.get c).score) (fun c => (s.cols.get c).prev) (fun c => (s.cols.get c).next)
  min0 : 0 ≤ s.minScore
  minLe : s.minScore ≤ m0
  minS : ∀ d ∈ S, 0 ≤ (D d).start → s.minScore ≤ newScore n k degree D d

theorem finishColumns_of {n k degree pivotRow pfree top : Int} {L : Int → Prop} {D : Int → ColamdCol} (a0 : Mem Int) {m0 : Int} {csize hsize : Nat} {Q : Finset Int}
    (hn : n ≤ csize) (hh : n < hsize) (htop : top ≤ pfree) (hk : 0 ≤ k) (hQ : ∀ d ∈ Q, 0 ≤ d ∧ d < n ∧ ¬ L d)
    (harea : ∀ d ∈ Q, 0 ≤ (D d).start → 0 ≤ (D d).length ∧ (D d).start + (D d).length < top)
    (hdisj : ∀ d ∈ Q, ∀ e ∈ Q, 0 ≤ (D d).start → 0 ≤ (D e).start → d ≠ e → (D d).start + (D d).length ≠ (D e).start + (D e).length)
    (hscore : ∀ d ∈ Q, 0 ≤ (D d).start → 0 ≤ (D d).score ∧ (D d).thickness ≤ degree ∧ (D d).thickness ≤ n - k ∧ 1 ≤ (D d).thickness)
    (hsm : 4 * n + 8 < 2 ^ 31 ∧ pfree < 2 ^ 31 ∧ degree ≤ n) (hscn : ∀ d ∈ Q, 0 ≤ (D d).start → (D d).score ≤ n)
    {len : Int} (hp0 : 0 ≤ pfree) (ha : pfree + len ≤ a0.size) (hrow : Holds a0.get pfree len Q) (s : FinishState)
    (inv : FinishInv n k degree pivotRow pfree L D a0 m0 csize hsize ∅ s) :
    ∃ s', (span pfree len.toNat).foldlM (finishColumn n k pivotRow degree) s = .ok s' ∧ FinishInv n k degree pivotRow pfree L D a0 m0 csize hsize Q s' := by
  have hl := hrow.2.1
  obtain ⟨s', e, ⟨hs', _⟩⟩ := foldlM_holds (fun x S s => FinishInv n k degree pivotRow pfree L D a0 m0 csize hsize S s ∧ s.newRp ≤ x)
    (finishColumn n k pivotRow degree) hrow s ⟨inv, by rw [inv.newRp]; simp⟩ (by
    rintro x S s hx1 hx2 hSQ hxQ hxS ⟨⟨i1, i2, i3, i4, i5, i6, i7, i8, i9, i10, i11, i12, i13, i14⟩, hrx⟩
    set d := a0.get x with hdx
    obtain ⟨hd0, hdn, hdL⟩ := hQ d hxQ
    have hcd := i9 d (Or.inl hxS)
    have c1 : (s.cols.get d).start = (D d).start := by rw [hcd]
    have c2 : (s.cols.get d).length = (D d).length := by rw [hcd]
    have c3 : (s.cols.get d).score = (D d).score := by rw [hcd]
    have c4 : (s.cols.get d).thickness = (D d).thickness := by rw [hcd]
    unfold finishColumn
    rw [Mem.read_of (by omega) (by omega), ok_bind, i6 x hrx, ← hdx, Mem.read_of hd0 (by omega), ok_bind, c1, c2, c3, c4]
    by_cases hdead : (D d).start < 0
    · rw [if_pos hdead]
      have hset : (insert d S).filter (fun d => 0 ≤ (D d).start) = S.filter (fun d => 0 ≤ (D d).start) := by
        rw [Finset.filter_insert, if_neg (by omega)]
      have hin : ∀ {c}, c ∈ insert d S → 0 ≤ (D c).start → c ∈ S := fun {c} hc h0 => by
        rcases Finset.mem_insert.1 hc with rfl | hc
        · omega
        · exact hc
      refine ⟨s, rfl, ⟨i1, i2, i3, by rw [hset]; exact i4, by rw [hset]; exact i5, i6, fun i hi hfar => i7 i hi (fun e he h0 => hfar e (Finset.mem_insert_of_mem he) h0),
        fun e he h0 => i8 e (hin he h0) h0, fun c hc => i9 c ?_, fun e he h0 => i10 e (hin he h0) h0, ?_, i12, i13, fun e he h0 => i14 e (hin he h0) h0⟩, by omega⟩
      · rcases hc with hc | hc
        · exact Or.inl (fun q => hc (Finset.mem_insert_of_mem q))
        · exact Or.inr hc
      · refine i11.congr (fun c => ?_) (fun _ _ _ => rfl) (fun _ _ => rfl) (fun _ _ => rfl) (fun _ _ => rfl)
        constructor
        · rintro (q | ⟨q, q0⟩)
          · exact Or.inl q
          · exact Or.inr ⟨hin q q0, q0⟩
        · rintro (q | ⟨q, q0⟩)
          · exact Or.inl q
          · exact Or.inr ⟨Finset.mem_insert_of_mem q, q0⟩
    · rw [if_neg hdead]
      have hst : 0 ≤ (D d).start := by omega
      obtain ⟨ar1, ar2⟩ := harea d hxQ hst
      obtain ⟨sc1, sc2, sc3, sc4⟩ := hscore d hxQ hst
      have hset : (insert d S).filter (fun d => 0 ≤ (D d).start) = insert d (S.filter (fun d => 0 ≤ (D d).start)) := by
        rw [Finset.filter_insert, if_pos hst]
      have hdS : d ∉ S.filter (fun d => 0 ≤ (D d).start) := fun q => hxS (Finset.mem_filter.1 q).1
      have hcard : ((insert d S).filter (fun d => 0 ≤ (D d).start)).card = (S.filter (fun d => 0 ≤ (D d).start)).card + 1 := by
        rw [hset, Finset.card_insert_of_notMem hdS]
      have hscd := hscn d hxQ hst
      obtain ⟨hsn, hsf, hsd⟩ := hsm
      rw [Mem.write_of _ (by omega) (by omega), ok_bind, i32_of (by omega) (by omega), ok_bind, Mem.write_of _ (by omega) (by rw [Mem.put_size]; omega), ok_bind,
        i32_of (by omega) (by omega), ok_bind, i32_of (by omega) (by omega), ok_bind, i32_of (by omega) (by omega), ok_bind, i32_of (by omega) (by omega), ok_bind,
        i32_of (by omega) (by omega), ok_bind]
      simp only
      set sc := (if (D d).score + degree - (D d).thickness < n - k - (D d).thickness then (D d).score + degree - (D d).thickness else n - k - (D d).thickness) with hsc
      have hscn : sc = newScore n k degree D d := by
        unfold newScore
        rw [hsc]
        by_cases hlt : (D d).score + degree - (D d).thickness < n - k - (D d).thickness
        · rw [if_pos hlt]; omega
        · rw [if_neg hlt]; omega
      have hs0 : 0 ≤ sc ∧ sc ≤ n := by rw [hscn]; unfold newScore; omega
      have hnl : ¬ (L d ∨ d ∈ S ∧ 0 ≤ (D d).start) := by
        rintro (q | q)
        · exact hdL q
        · exact hxS q.1
      rw [Mem.write_of _ hd0 (by omega), ok_bind]
      set cols1 := s.cols.put d { s.cols.get d with start := (D d).start, length := (D d).length + 1, thickness := (D d).thickness, score := sc } with hcols1
      obtain ⟨cols', head', f1, f2, f3, f4, f5⟩ := pushDegree_of cols1 s.head i11 hnl hd0 hdn hs0.1 hs0.2 (by rw [hcols1, Mem.put_size]; omega) (by omega)
      rw [f1, ok_bind]
      have g1 : cols1.get d = { s.cols.get d with start := (D d).start, length := (D d).length + 1, thickness := (D d).thickness, score := sc } := Mem.put_get_self _ _ _
      have g2 : ∀ c, c ≠ d → cols1.get c = s.cols.get c := fun c hc => Mem.put_get_ne _ _ hc
      have g3 : ∀ c, cols'.get c = { cols1.get c with prev := (cols'.get c).prev, next := (cols'.get c).next } := fun c => by
        rw [f5 c]
        by_cases e1 : c = d
        · rw [if_pos e1, e1]
        · rw [if_neg e1]
          by_cases e2 : c = s.head.get sc ∧ s.head.get sc ≠ -1
          · rw [if_pos e2]
          · rw [if_neg e2]
      have g4 : cols'.get d = { cols1.get d with prev := -1, next := s.head.get sc } := by rw [f5 d, if_pos rfl]
      have hlist' : ∀ c, c ≠ d → (cols'.get c).next = (s.cols.get c).next ∧ (cols'.get c).prev = if c = s.head.get sc ∧ s.head.get sc ≠ -1 then d else (s.cols.get c).prev := by
        intro c hc
        rw [f5 c, if_neg hc, g2 c hc]
        by_cases e2 : c = s.head.get sc ∧ s.head.get sc ≠ -1
        · rw [if_pos e2, if_pos e2]; exact ⟨rfl, rfl⟩
        · rw [if_neg e2, if_neg e2]; exact ⟨rfl, rfl⟩
      refine ⟨_, rfl, ⟨by rw [← i1]; exact f2, i2, by rw [← i3]; exact f3, ?_, ?_, fun i hi => ?_, fun i hi hfar => ?_, fun e he h0 => ?_, fun c hc => ?_, fun e he h0 => ?_, ?_, ?_, ?_,
        fun e he h0 => ?_⟩, by simp only; omega⟩
      · simp only
        rw [hcard, i4]; push_cast; ring
      · rw [hcard, hset]
        push_cast
        refine i5.push hdS (fun i h1 h2 => ?_) ?_
        · rw [Mem.put_get_ne _ _ (by omega), Mem.put_get_ne _ _ (by omega)]
        · rw [← i4, Mem.put_get_ne _ _ (by omega), Mem.put_get_self]
      · simp only at hi ⊢
        rw [Mem.put_get_ne _ _ (by omega), Mem.put_get_ne _ _ (by omega)]
        exact i6 i (by omega)
      · simp only
        rw [Mem.put_get_ne _ _ (hfar d (Finset.mem_insert_self _ _) hst), Mem.put_get_ne _ _ (by omega)]
        exact i7 i hi (fun e he h0 => hfar e (Finset.mem_insert_of_mem he) h0)
      · simp only
        rcases eq_or_ne e d with rfl | hne
        · rw [Mem.put_get_self]
        · have heS := (Finset.mem_insert.1 he).resolve_left hne
          have := harea e (hSQ heS) h0
          rw [Mem.put_get_ne _ _ (hdisj e (hSQ heS) d hxQ h0 hst hne), Mem.put_get_ne _ _ (by omega)]
          exact i8 e heS h0
      · simp only
        have hne : c ≠ d := by
          rintro rfl
          rcases hc with q | q
          · exact q (Finset.mem_insert_self _ _)
          · omega
        rw [g3 c, g2 c hne, i9 c (hc.imp_left fun q q' => q (Finset.mem_insert_of_mem q'))]
      · simp only
        rcases eq_or_ne e d with rfl | hne
        · rw [g3 d, g1, hscn]
        · have heS := (Finset.mem_insert.1 he).resolve_left hne
          rw [g3 e, g2 e hne, i10 e heS h0]
      · simp only
        refine i11.push (c := d) (s := sc) hnl hd0 hdn hs0.1 hs0.2 (fun c => ?_) (fun i hi => ?_) ?_ ?_ (fun c hc => ?_) ?_ (fun c hc => ?_) ?_ (fun c hc => ?_)
        · constructor
          · rintro (q | ⟨q, q0⟩)
            · exact Or.inl (Or.inl q)
            · rcases Finset.mem_insert.1 q with rfl | q
              · exact Or.inr rfl
              · exact Or.inl (Or.inr ⟨q, q0⟩)
          · rintro ((q | ⟨q, q0⟩) | rfl)
            · exact Or.inl q
            · exact Or.inr ⟨Finset.mem_insert_of_mem q, q0⟩
            · exact Or.inr ⟨Finset.mem_insert_self _ _, hst⟩
        · rw [f4 i, if_neg hi]
        · rw [f4 sc, if_pos rfl]
        · rw [g4, g1]
        · have hne : c ≠ d := fun q => hnl (q ▸ hc)
          rw [g3 c, g2 c hne]
        · rw [g4]
        · have hne : c ≠ d := fun q => hnl (q ▸ hc)
          have hc0 := (i11.range c hc).1
          rw [(hlist' c hne).2]
          congr 1
          refine propext ⟨fun q => q.1, fun q => ⟨q, by omega⟩⟩
        · rw [g4]
        · have hne : c ≠ d := fun q => hnl (q ▸ hc)
          exact (hlist' c hne).1
      · simp only
        by_cases hlt : s.minScore < sc
        · rw [if_pos hlt]; exact i12
        · rw [if_neg hlt]; exact hs0.1
      · simp only
        by_cases hlt : s.minScore < sc
        · rw [if_pos hlt]; exact i13
        · rw [if_neg hlt]; omega
      · simp only
        rcases eq_or_ne e d with rfl | hne
        · rw [← hscn]
          by_cases hlt : s.minScore < sc
          · rw [if_pos hlt]; omega
          · rw [if_neg hlt]
        · have := i14 e ((Finset.mem_insert.1 he).resolve_left hne) h0
          by_cases hlt : s.minScore < sc
          · rw [if_pos hlt]; exact this
          · rw [if_neg hlt]; omega)
  exact ⟨s', e, hs'⟩

end Fiksi.Amd
