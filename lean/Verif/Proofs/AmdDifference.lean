import Verif.Proofs.AmdPivot
import Verif.Proofs.AmdLists
/-!
# The set differences
-/
namespace Fiksi.Amd
open Classical

/-- A loop over the columns of a row. -/
theorem foldlM_holds {σ : Type} (I : Int → Finset Int → σ → Prop) (f : σ → Int → R σ) {A : Int → Int} {start len : Int} {Q : Finset Int} (h : Holds A start len Q)
    (s : σ) (h0 : I start ∅ s) (hstep : ∀ x S s, start ≤ x → x < start + len → S ⊆ Q → A x ∈ Q → A x ∉ S → I x S s →
      ∃ s', f s x = .ok s' ∧ I (x + 1) (insert (A x) S) s') :
    ∃ s', (span start len.toNat).foldlM f s = .ok s' ∧ I (start + len) Q s' := by
  have hl := h.2.1
  obtain ⟨s', e, he⟩ := foldlM_span (fun x s => I x ((Finset.Ico start x).image A) s) f start (start + len) len.toNat (by omega) s (by simpa using h0) (by
    intro x hx1 hx2 s hs
    obtain ⟨s', e, he⟩ := hstep x ((Finset.Ico start x).image A) s hx1 hx2 (fun y hy => by
      simp only [Finset.mem_image, Finset.mem_Ico] at hy
      obtain ⟨i, hi, rfl⟩ := hy
      exact h.mem hi.1 (by omega)) (h.mem hx1 hx2) (fun hy => by
      simp only [Finset.mem_image, Finset.mem_Ico] at hy
      obtain ⟨i, hi, he⟩ := hy
      exact h.1 i x hi.1 hi.2 hx2 he) hs
    refine ⟨s', e, ?_⟩
    have : Finset.Ico start (x + 1) = insert x (Finset.Ico start x) := by
      ext i; simp only [Finset.mem_Ico, Finset.mem_insert]; omega
    simp only [this, Finset.image_insert]
    exact he)
  refine ⟨s', e, ?_⟩
  have : (Finset.Ico start (start + len)).image A = Q := by
    ext x
    rw [← h.2.2 x]
    simp only [Has, Finset.mem_image, Finset.mem_Ico, and_assoc]
  simp only [this] at he
  exact he

section
variable {m n top pfree : Int} {R R1 : Int → ColamdRow} {C : Int → ColamdCol} {A : Int → Int} {P : Int}

/-- The columns of `S` that contain row `r`. -/
noncomputable def touching (C : Int → ColamdCol) (A : Int → Int) (S : Finset Int) (r : Int) : Finset Int := S.filter (fun d => InCol C A d r)

/-- The thickness of a set of columns. -/
def weight (C : Int → ColamdCol) (S : Finset Int) : Int := ∑ d ∈ S, (C d).thickness

/-- The mark of row `r` after the columns of `S`. -/
noncomputable def markAfter (aggressive : Bool) (tag : Int) (R1 : Int → ColamdRow) (C : Int → ColamdCol) (A : Int → Int) (S : Finset Int) (r : Int) : Int :=
  if (R1 r).mark < 0 ∨ touching C A S r = ∅ then (R1 r).mark
  else if (R1 r).degree - weight C (touching C A S r) = 0 ∧ aggressive then -1 else (R1 r).degree - weight C (touching C A S r) + tag

theorem touching_insert {S : Finset Int} {d r : Int} : touching C A (insert d S) r = if InCol C A d r then insert d (touching C A S r) else touching C A S r := by
  unfold touching
  rw [Finset.filter_insert]

theorem weight_insert {S : Finset Int} {d : Int} (h : d ∉ S) : weight C (insert d S) = (C d).thickness + weight C S := Finset.sum_insert h

theorem weight_mono {S T : Finset Int} (h : S ⊆ T) (hp : ∀ d ∈ T, 0 ≤ (C d).thickness) : weight C S ≤ weight C T :=
  Finset.sum_le_sum_of_subset_of_nonneg h (fun d hd _ => hp d hd)

/-- What the set differences need: rows have the weight of their columns as degree, and their marks are below `tag`. -/
structure Weights (m n tag : Int) (R : Int → ColamdRow) (C : Int → ColamdCol) (A : Int → Int) : Prop where
  thick : ∀ c, AliveCol n C c → 1 ≤ (C c).thickness
  degree : ∀ r, AliveRow m R r → (R r).degree = weight C (colsOf n C A r)
  marks : ∀ r, AliveRow m R r → (R r).mark < tag
  total : weight C (alive n C) ≤ n
  tagSmall : tag + n + 1 < 2 ^ 31

theorem Weights.le {tag : Int} (h : Weights m n tag R C A) {S : Finset Int} (hS : ∀ d ∈ S, AliveCol n C d) : 0 ≤ weight C S ∧ weight C S ≤ n := by
  refine ⟨Finset.sum_nonneg fun d hd => ?_, (weight_mono (fun d hd => mem_alive.2 (hS d hd)) fun d hd => ?_).trans h.total⟩
  · have := h.thick d (hS d hd)
    omega
  · have := h.thick d (mem_alive.1 hd)
    omega

theorem Weights.one {tag : Int} (h : Weights m n tag R C A) {d : Int} (hd : AliveCol n C d) : 1 ≤ (C d).thickness ∧ (C d).thickness ≤ n := by
  have := h.le (S := {d}) (fun e he => by rw [Finset.mem_singleton] at he; exact he ▸ hd)
  simp only [weight, Finset.sum_singleton] at this
  exact ⟨h.thick d hd, this.2⟩

/-- The entries of one column. -/
theorem differenceEntries_of (h : Pattern m n top pfree R C A) (aggressive : Bool) {tag : Int} (htag : 1 ≤ tag) (hw : Weights m n tag R C A)
    (hR1 : ∀ r, (R1 r).degree = (R r).degree ∧ ((R1 r).mark = (R r).mark ∨ (R1 r).mark < 0)) {S : Finset Int} (hS : ∀ d ∈ S, AliveCol n C d)
    {d : Int} (hd : AliveCol n C d) (hdS : d ∉ S) (a : Mem Int) (ha : pfree ≤ a.size) (hA : ∀ i, i < pfree → a.get i = A i) (rows : Mem ColamdRow)
    (hm : m ≤ rows.size) (hrows : ∀ r, rows.get r = { R1 r with mark := markAfter aggressive tag R1 C A S r }) :
    ∃ rows', (span (C d).start (C d).length.toNat).foldlM (differenceEntry aggressive tag (C d).thickness a) rows = .ok rows' ∧
      rows'.size = rows.size ∧ ∀ r, rows'.get r = { R1 r with mark := markAfter aggressive tag R1 C A (insert d S) r } := by
  obtain ⟨l0, lt⟩ := h.colLen d hd
  have htf := h.topFree
  have hd0 := hd.2.2
  obtain ⟨rows', e, hs, hr⟩ := foldlM_span (fun x (rs : Mem ColamdRow) => rs.size = rows.size ∧
      ∀ r, rs.get r = { R1 r with
        mark := if (∃ j, (C d).start ≤ j ∧ j < x ∧ A j = r) then markAfter aggressive tag R1 C A (insert d S) r else markAfter aggressive tag R1 C A S r })
    (differenceEntry aggressive tag (C d).thickness a) (C d).start ((C d).start + (C d).length) (C d).length.toNat (by omega) rows ⟨rfl, fun r => by
      rw [if_neg (by rintro ⟨j, h1, h2, _⟩; omega), hrows]⟩ (by
    rintro x hx1 hx2 rs ⟨hs, hr⟩
    have hra := h.entryRow hd hx1 hx2
    have hin : InCol C A d (A x) := ⟨x, hx1, hx2, rfl⟩
    have hnew : ¬ ∃ j, (C d).start ≤ j ∧ j < x ∧ A j = A x := by
      rintro ⟨j, h1, h2, h3⟩
      exact h.colInj d hd j x h1 h2 hx2 h3
    have hext : ∀ r, r ≠ A x → ((∃ j, (C d).start ≤ j ∧ j < x + 1 ∧ A j = r) ↔ ∃ j, (C d).start ≤ j ∧ j < x ∧ A j = r) := by
      intro r hne
      refine exists_congr fun j => ?_
      constructor
      · rintro ⟨h1, h2, h3⟩
        refine ⟨h1, ?_, h3⟩
        have : j ≠ x := fun he => hne (by rw [← h3, he])
        omega
      · rintro ⟨h1, h2, h3⟩; exact ⟨h1, by omega, h3⟩
    -- the entry that is read
    have hcur : rs.get (A x) = { R1 (A x) with mark := markAfter aggressive tag R1 C A S (A x) } := by rw [hr, if_neg hnew]
    have hdeg : (R1 (A x)).degree = weight C (colsOf n C A (A x)) := by rw [(hR1 _).1, hw.degree _ hra]
    have hT : touching C A (insert d S) (A x) = insert d (touching C A S (A x)) := by rw [touching_insert, if_pos hin]
    have hTne : touching C A (insert d S) (A x) ≠ ∅ := by rw [hT]; exact Finset.insert_ne_empty _ _
    have hdT : d ∉ touching C A S (A x) := fun hm => hdS (Finset.mem_filter.1 hm).1
    have hsub : insert d (touching C A S (A x)) ⊆ colsOf n C A (A x) := by
      intro c hc
      rw [Finset.mem_insert] at hc
      rw [mem_colsOf]
      rcases hc with rfl | hc
      · exact ⟨hd, hin⟩
      · rw [touching, Finset.mem_filter] at hc
        exact ⟨hS c hc.1, hc.2⟩
    have hle : weight C (insert d (touching C A S (A x))) ≤ weight C (colsOf n C A (A x)) := weight_mono hsub (fun c hc => by
      have := hw.thick c (mem_colsOf.1 hc).1
      omega)
    rw [weight_insert hdT] at hle
    have hpos := hw.thick d hd
    unfold differenceEntry
    rw [Mem.read_of (by omega) (by omega), ok_bind, hA x (by omega), Mem.read_of hra.1 (by have := hra.2.1; omega), ok_bind, hcur]
    simp only
    by_cases hneg : markAfter aggressive tag R1 C A S (A x) < 0
    · rw [if_pos hneg]
      have hdead : (R1 (A x)).mark < 0 := by
        by_contra hcon
        unfold markAfter at hneg
        by_cases hemp : touching C A S (A x) = ∅
        · rw [if_pos (Or.inr hemp)] at hneg
          exact hcon hneg
        · rw [if_neg (by simp only [hemp, or_false]; exact hcon)] at hneg
          by_cases hz : (R1 (A x)).degree - weight C (touching C A S (A x)) = 0 ∧ aggressive
          · omega
          · rw [if_neg hz] at hneg
            omega
      refine ⟨rs, rfl, hs, fun r => ?_⟩
      rw [hr]
      rcases eq_or_ne r (A x) with rfl | hne
      · rw [if_neg hnew, if_pos ⟨x, hx1, by omega, rfl⟩]
        simp only [markAfter, hdead, true_or, if_true]
      · simp only [hext r hne]
    · rw [if_neg hneg]
      have hlive : ¬ (R1 (A x)).mark < 0 := by
        intro hdead
        apply hneg
        simp only [markAfter, hdead, true_or, if_true]
      have hcw := hw.le (S := colsOf n C A (A x)) fun c hc => (mem_colsOf.1 hc).1
      have htw := hw.le (S := touching C A S (A x)) fun c hc => hS c (Finset.mem_filter.1 hc).1
      have hts := hw.tagSmall
      have hn0 := h.cols0
      have hsn := h.small
      have hbefore : markAfter aggressive tag R1 C A S (A x) ≤ n + tag := by
        unfold markAfter
        split
        · have : (R1 (A x)).mark < tag := by
            rcases (hR1 (A x)).2 with q | q
            · rw [q]; exact hw.marks _ hra
            · omega
          omega
        · split <;> omega
      have hdiff : (if markAfter aggressive tag R1 C A S (A x) - tag < 0 then (R1 (A x)).degree else markAfter aggressive tag R1 C A S (A x) - tag) -
            (C d).thickness = (R1 (A x)).degree - weight C (insert d (touching C A S (A x))) := by
          rw [weight_insert hdT]
          by_cases hemp : touching C A S (A x) = ∅
          · have hm0 : markAfter aggressive tag R1 C A S (A x) = (R1 (A x)).mark := by
              unfold markAfter
              rw [if_pos (Or.inr hemp)]
            have : (R1 (A x)).mark < tag := by
              rcases (hR1 (A x)).2 with q | q
              · rw [q]; exact hw.marks _ hra
              · omega
            rw [hm0, if_pos (by omega), hemp]
            simp [weight]
          · have hm0 : markAfter aggressive tag R1 C A S (A x) = (R1 (A x)).degree - weight C (touching C A S (A x)) + tag := by
              have hz : ¬ ((R1 (A x)).degree - weight C (touching C A S (A x)) = 0 ∧ aggressive) := by omega
              unfold markAfter
              rw [if_neg (by simp only [hemp, or_false]; exact hlive), if_neg hz]
            rw [hm0, if_neg (by omega)]
            ring
      have hwi := weight_insert (C := C) hdT
      rw [i32_of (by omega) (by omega), ok_bind, hdiff, i32_of (by omega) (by omega), ok_bind]
      have hcode : (if (R1 (A x)).degree - weight C (insert d (touching C A S (A x))) = 0 ∧ aggressive = true then
            rs.write (A x) { R1 (A x) with mark := -1 }
          else i32 ((R1 (A x)).degree - weight C (insert d (touching C A S (A x))) + tag) >>= fun mark => rs.write (A x) { R1 (A x) with mark := mark }) =
          .ok (rs.put (A x) { R1 (A x) with
            mark := if (R1 (A x)).degree - weight C (insert d (touching C A S (A x))) = 0 ∧ aggressive = true then -1
              else (R1 (A x)).degree - weight C (insert d (touching C A S (A x))) + tag }) := by
        split
        · rw [Mem.write_of _ hra.1 (by have := hra.2.1; omega)]
        · rw [i32_of (by omega) (by omega), ok_bind, Mem.write_of _ hra.1 (by have := hra.2.1; omega)]
      refine ⟨_, hcode, hs, fun r => ?_⟩
      rcases eq_or_ne r (A x) with rfl | hne
      · have hex : ∃ j, (C d).start ≤ j ∧ j < x + 1 ∧ A j = A x := ⟨x, hx1, by omega, rfl⟩
        rw [Mem.put_get_self]
        simp only [hex, if_true]
        unfold markAfter
        rw [hT]
        rw [if_neg (show ¬ ((R1 (A x)).mark < 0 ∨ insert d (touching C A S (A x)) = ∅) by
          simp only [Finset.insert_ne_empty, or_false]; exact hlive)]
      · rw [Mem.put_get_ne _ _ hne, hr]
        simp only [hext r hne])
  refine ⟨rows', e, hs, fun r => ?_⟩
  rw [hr]
  by_cases hin : InCol C A d r
  · have hin' : ∃ j, (C d).start ≤ j ∧ j < (C d).start + (C d).length ∧ A j = r := hin
    simp only [hin', if_true]
  · have hin' : ¬ ∃ j, (C d).start ≤ j ∧ j < (C d).start + (C d).length ∧ A j = r := hin
    simp only [hin', if_false, markAfter, touching_insert, hin]

/-- After the columns of `S`. -/
structure DiffInv (n tag : Int) (aggressive : Bool) (R1 : Int → ColamdRow) (C : Int → ColamdCol) (A : Int → Int) (L : Int → Prop)
    (rsize csize hsize : Nat) (a : Mem Int) (Q S : Finset Int) (b : ColamdBuffers) : Prop where
  rsize : b.rows.size = rsize
  csize : b.cols.size = csize
  hsize : b.head.size = hsize
  a : b.a = a
  rows : ∀ r, b.rows.get r = { R1 r with mark := markAfter aggressive tag R1 C A S r }
  cols : ∀ d, b.cols.get d = { C d with
    thickness := if d ∈ Q ∧ d ∉ S then -(C d).thickness else (C d).thickness
    prev := (b.cols.get d).prev
    next := (b.cols.get d).next }
  lists : DegLists n (fun d => L d ∧ d ∉ S) b.head.get (fun d => (C d).score) (fun d => (b.cols.get d).prev) (fun d => (b.cols.get d).next)

theorem differences_of (h : Pattern m n top pfree R C A) (aggressive : Bool) {tag : Int} (htag : 1 ≤ tag) (hw : Weights m n tag R C A)
    (hR1 : ∀ r, (R1 r).degree = (R r).degree ∧ ((R1 r).mark = (R r).mark ∨ (R1 r).mark < 0)) {L : Int → Prop} {Q : Finset Int} (hQ : ∀ d ∈ Q, AliveCol n C d ∧ L d)
    {rsize csize hsize : Nat} (hm : m ≤ rsize) (hn : n ≤ csize) (hh : n < hsize) (a : Mem Int) {len : Int} (ha : pfree + len ≤ a.size)
    (hA : ∀ i, i < pfree → a.get i = A i) (hrow : Holds a.get pfree len Q) (b : ColamdBuffers)
    (inv : DiffInv n tag aggressive R1 C A L rsize csize hsize a Q ∅ b) :
    ∃ b', (span pfree len.toNat).foldlM (differenceColumn aggressive tag) b = .ok b' ∧ DiffInv n tag aggressive R1 C A L rsize csize hsize a Q Q b' := by
  have hl := hrow.2.1
  have ht0 := h.top0
  have htf := h.topFree
  refine foldlM_holds (fun _ S b => DiffInv n tag aggressive R1 C A L rsize csize hsize a Q S b) _ hrow b inv ?_
  rintro x S b hx1 hx2 hSQ hxQ hxS ⟨i1, i2, i3, i4, i5, i6, i7⟩
  set d := a.get x with hdx
  obtain ⟨hd, hdL⟩ := hQ d hxQ
  have hd0 := hd.1
  have hdn := hd.2.1
  have hcd := i6 d
  rw [if_pos ⟨hxQ, hxS⟩] at hcd
  have hcs : (b.cols.get d).score = (C d).score := by rw [hcd]
  have hct : (b.cols.get d).thickness = -(C d).thickness := by rw [hcd]
  have hcst : (b.cols.get d).start = (C d).start := by rw [hcd]
  have hcl : (b.cols.get d).length = (C d).length := by rw [hcd]
  obtain ⟨cols', head', e1, e2, e3, e4, e5⟩ := unlinkColumn_of (b.cols.put d { b.cols.get d with thickness := -(b.cols.get d).thickness }) b.head i7 (c := d)
    (b.cols.get d) ⟨hdL, hxS⟩ hcs rfl rfl (by rw [Mem.put_size]; omega) (by omega)
  have hprevne : (b.cols.get d).prev ≠ d := by
    obtain ⟨rank, hr⟩ := i7.acyclic
    intro he
    have := hr d ⟨hdL, hxS⟩ (by simp only [he]; omega)
    simp only [he] at this
    omega
  have hnextne : (b.cols.get d).next ≠ d := by
    intro he
    rcases i7.nextOf d ⟨hdL, hxS⟩ with q | ⟨_, _, q⟩
    · omega
    · simp only [he] at q; exact hprevne q
  have hself : cols'.get d = { C d with prev := (b.cols.get d).prev, next := (b.cols.get d).next } := by
    rw [e5 d]
    simp only [Mem.put_get_self]
    rw [if_neg (fun hc => hnextne hc.1.symm), if_neg (fun hc => hprevne hc.1.symm), hct, hcst, hcl, hcs]
    simp
  obtain ⟨rows', f1, f2, f3⟩ := differenceEntries_of h aggressive htag hw hR1 (S := S) (fun c hc => (hQ c (hSQ hc)).1) hd hxS a (by omega) hA b.rows (by omega) i5
  refine ⟨⟨rows', cols', a, head'⟩, ?_, by rw [← i1]; exact f2, by rw [← i2]; exact e2, by rw [← i3]; exact e3, rfl, f3, fun c => ?_, ?_⟩
  · unfold differenceColumn
    have hone := hw.one hd
    have hts := hw.tagSmall
    rw [i4, Mem.read_of (by omega) (by omega), ok_bind, ← hdx, Mem.read_of hd0 (by omega), ok_bind, i32_of (by omega) (by omega), ok_bind, Mem.write_of _ hd0 (by omega), ok_bind, e1, ok_bind]
    simp only
    rw [Mem.read_of hd0 (by rw [e2, Mem.put_size]; omega), ok_bind, hself]
    simp only
    rw [f1, ok_bind]
    rfl
  · simp only
    rcases eq_or_ne c d with rfl | hne
    · simp [hself]
    · rw [e5 c, Mem.put_get_ne _ _ hne, i6 c]
      have : (c ∈ Q ∧ c ∉ insert d S) ↔ (c ∈ Q ∧ c ∉ S) := by
        simp only [Finset.mem_insert, hne, false_or]
      simp only [this]
  · simp only
    have hother : ∀ c, c ≠ d → (cols'.get c).prev = (if c = (b.cols.get d).next ∧ (b.cols.get d).next ≠ -1 then (b.cols.get d).prev else (b.cols.get c).prev) ∧
        (cols'.get c).next = (if c = (b.cols.get d).prev ∧ (b.cols.get d).prev ≠ -1 then (b.cols.get d).next else (b.cols.get c).next) := by
      intro c hne
      rw [e5 c, Mem.put_get_ne _ _ hne]
      exact ⟨rfl, rfl⟩
    have hmem : ∀ c, (L c ∧ c ∉ insert d S) ↔ (L c ∧ c ∉ S) ∧ c ≠ d := by
      intro c
      simp only [Finset.mem_insert, not_or]
      tauto
    refine i7.unlink (c := d) ⟨hdL, hxS⟩ hmem e4 (fun c _ => rfl) (fun c hc => ?_) (fun c hc => ?_)
    · have hc' := (hmem c).1 hc
      have hc0 := (i7.range c hc'.1).1
      rw [(hother c hc'.2).1]
      congr 1
      refine propext ⟨fun q => q.1, fun q => ⟨q, by omega⟩⟩
    · have hc' := (hmem c).1 hc
      have hc0 := (i7.range c hc'.1).1
      rw [(hother c hc'.2).2]
      congr 1
      refine propext ⟨fun q => q.1, fun q => ⟨q, by omega⟩⟩

end
end Fiksi.Amd
