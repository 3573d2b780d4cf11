import Verif.Proofs.AmdHash
/-!
# Absorption of equal columns
-/
namespace Fiksi.Amd
open Classical

/-- Two columns hold the same rows in the same order. -/
def SameCells (C : Int → ColamdCol) (A : Int → Int) (c d : Int) : Prop :=
  (C c).length = (C d).length ∧ ∀ i, 0 ≤ i → i < (C c).length → A ((C c).start + i) = A ((C d).start + i)

theorem SameCells.inCol {C : Int → ColamdCol} {A : Int → Int} {c d : Int} (h : SameCells C A c d) (r : Int) : InCol C A c r ↔ InCol C A d r := by
  unfold InCol
  rw [← h.1]
  exact has_shift h.2

/-- `D` are the columns of `C` after some columns of `M` have absorbed others. -/
structure Merged (n : Int) (M : Int → Prop) (C : Int → ColamdCol) (A : Int → Int) (D : Int → ColamdCol) : Prop where
  other : ∀ c, ¬ M c → D c = { C c with prev := (D c).prev, next := (D c).next }
  kept : ∀ c, M c → 0 ≤ (D c).start → (D c).start = (C c).start ∧ (D c).length = (C c).length ∧ (D c).score = (C c).score
  absorbed : ∀ c, M c → (D c).start < 0 → (D c).start = -2
  groups : ∃ root, Groups n D root
  sum : ∀ X : Int → Prop, (∀ c d, M c → M d → SameCells C A c d → (X c ↔ X d)) →
    ∑ c ∈ alive n D, (if X c then (D c).thickness else 0) = ∑ c ∈ alive n C, (if X c then (C c).thickness else 0)

theorem Merged.refl {n : Int} {M : Int → Prop} {C : Int → ColamdCol} {A : Int → Int} {root : Int → Int} (h : Groups n C root) (hM : ∀ c, M c → 0 ≤ (C c).start) :
    Merged n M C A C :=
  ⟨fun _ _ => rfl, fun _ _ _ => ⟨rfl, rfl, rfl⟩, fun c hc h0 => absurd (hM c hc) (by omega), ⟨root, h⟩, fun _ _ => rfl⟩

section
variable {n : Int} {M : Int → Prop} {C : Int → ColamdCol} {A : Int → Int} {D D' : Int → ColamdCol}

/-- The links may change. -/
theorem Merged.congr (h : Merged n M C A D) (hD : ∀ c, D' c = { D c with prev := (D' c).prev, next := (D' c).next }) : Merged n M C A D' := by
  have e1 : ∀ c, (D' c).start = (D c).start := fun c => by rw [hD]
  have e2 : ∀ c, (D' c).length = (D c).length := fun c => by rw [hD]
  have e3 : ∀ c, (D' c).thickness = (D c).thickness := fun c => by rw [hD]
  have e4 : ∀ c, (D' c).score = (D c).score := fun c => by rw [hD]
  obtain ⟨h1, h2, h3, ⟨root, h4⟩, h5⟩ := h
  refine ⟨fun c hc => ?_, fun c hc h0 => ?_, fun c hc h0 => ?_, ⟨root, ?_⟩, fun X hX => ?_⟩
  · rw [hD c, h1 c hc]
  · rw [e1, e2, e4]
    rw [e1] at h0
    exact h2 c hc h0
  · rw [e1] at h0 ⊢
    exact h3 c hc h0
  · refine h4.congr (fun c c0 cn => ?_) (fun c _ _ => by rw [e1]) (fun c _ _ => e3 c) (fun c _ _ _ => e4 c)
    rw [e1]; exact h4.kind c c0 cn
  · rw [← h5 X hX]
    have : alive n D' = alive n D := by
      ext c
      simp only [mem_alive, AliveCol, e1]
    rw [this]
    exact Finset.sum_congr rfl fun c _ => by rw [e3]

/-- Column `c` is absorbed by column `s`. -/
theorem Merged.absorb (h : Merged n M C A D) {c s : Int} (hc : AliveCol n D c) (hs : AliveCol n D s) (hne : c ≠ s) (hMc : M c) (hMs : M s)
    (hsame : SameCells C A c s)
    (h1 : D' c = { D c with thickness := s, start := -2, score := -1, next := (D' c).next, prev := (D' c).prev })
    (h2 : D' s = { D s with thickness := (D s).thickness + (D c).thickness, next := (D' s).next, prev := (D' s).prev })
    (h3 : ∀ d, d ≠ c → d ≠ s → D' d = { D d with next := (D' d).next, prev := (D' d).prev }) : Merged n M C A D' := by
  obtain ⟨g1, g2, g3, ⟨root, g4⟩, g5⟩ := h
  have hcs : (D' c).start = -2 := by rw [h1]
  have hst : ∀ d, d ≠ c → (D' d).start = (D d).start ∧ (D' d).length = (D d).length ∧ (D' d).score = (D d).score := fun d hd => by
    rcases eq_or_ne d s with rfl | hds
    · rw [h2]; exact ⟨rfl, rfl, rfl⟩
    · rw [h3 d hd hds]; exact ⟨rfl, rfl, rfl⟩
  refine ⟨fun d hd => ?_, fun d hd h0 => ?_, fun d hd h0 => ?_, ⟨_, g4.absorb hc hs hne h1 ?_ ?_⟩, fun X hX => ?_⟩
  · have e1 : d ≠ c := fun q => hd (q ▸ hMc)
    have e2 : d ≠ s := fun q => hd (q ▸ hMs)
    rw [h3 d e1 e2, g1 d hd]
  · have e1 : d ≠ c := fun q => by rw [q] at h0; omega
    obtain ⟨q1, q2, q3⟩ := hst d e1
    rw [q1] at h0
    rw [q1, q2, q3]
    exact g2 d hd h0
  · rcases eq_or_ne d c with rfl | e1
    · exact hcs
    · rw [(hst d e1).1] at h0 ⊢
      exact g3 d hd h0
  · rw [h2]; exact ⟨rfl, rfl, rfl⟩
  · intro d e1 e2
    rw [h3 d e1 e2]; exact ⟨rfl, rfl, rfl⟩
  · rw [← g5 X hX]
    have hal : alive n D' = (alive n D).erase c := by
      ext d
      simp only [Finset.mem_erase, mem_alive, AliveCol]
      rcases eq_or_ne d c with rfl | e1
      · simp only [ne_eq, not_true, false_and, iff_false]
        rw [hcs]; omega
      · rw [(hst d e1).1]
        simp only [ne_eq, e1, not_false_iff, true_and]
    have hsm : s ∈ (alive n D).erase c := Finset.mem_erase.2 ⟨hne.symm, mem_alive.2 hs⟩
    rw [hal, ← Finset.add_sum_erase (alive n D) _ (mem_alive.2 hc), ← Finset.add_sum_erase _ _ hsm, ← Finset.add_sum_erase ((alive n D).erase c) _ hsm, ← add_assoc]
    congr 1
    · have : (D' s).thickness = (D s).thickness + (D c).thickness := by rw [h2]
      rw [this]
      by_cases hx : X s
      · rw [if_pos hx, if_pos hx, if_pos ((hX c s hMc hMs hsame).2 hx)]; ring
      · rw [if_neg hx, if_neg hx, if_neg (fun q => hx ((hX c s hMc hMs hsame).1 q))]; rfl
    · refine Finset.sum_congr rfl fun d hd => ?_
      simp only [Finset.mem_erase] at hd
      have : (D' d).thickness = (D d).thickness := by rw [h3 d hd.2.1 hd.1]
      rw [this]

end

theorem sameColumn_of (a : Mem Int) (s1 s2 : Int) (l : List Int) (h : ∀ i ∈ l, (0 ≤ s1 + i ∧ s1 + i < a.size) ∧ 0 ≤ s2 + i ∧ s2 + i < a.size) :
    ∃ b, sameColumn a s1 s2 l = .ok b ∧ (b = true → ∀ i ∈ l, a.get (s1 + i) = a.get (s2 + i)) := by
  induction l with
  | nil => exact ⟨true, rfl, fun _ i hi => absurd hi (by simp)⟩
  | cons i l ih =>
    obtain ⟨⟨p1, p2⟩, p3, p4⟩ := h i (by simp)
    unfold sameColumn
    rw [Mem.read_of p1 p2, ok_bind, Mem.read_of p3 p4, ok_bind]
    by_cases hne : a.get (s1 + i) ≠ a.get (s2 + i)
    · rw [if_pos hne]
      exact ⟨false, rfl, fun q => absurd q (by simp)⟩
    · rw [if_neg hne]
      obtain ⟨b, e, hb⟩ := ih (fun j hj => h j (by simp [hj]))
      refine ⟨b, e, fun q j hj => ?_⟩
      rcases List.mem_cons.1 hj with rfl | hj
      · exact not_not.1 hne
      · exact hb q j hj

section
variable {n : Int} {M : Int → Prop} {C : Int → ColamdCol}

/-- The columns that are compared lie inside the array. -/
def Inside (n : Int) (M : Int → Prop) (C : Int → ColamdCol) (a : Mem Int) : Prop :=
  ∀ c, M c → 0 ≤ c ∧ c < n ∧ 0 ≤ (C c).start ∧ 0 ≤ (C c).length ∧ (C c).start + (C c).length ≤ a.size

theorem absorbLoop_of (a : Mem Int) (hsn : 4 * n + 8 < 2 ^ 31) (hM : Inside n M C a) {superC : Int} (hsM : M superC) (fuel : Nat) (l : List Int) (hf : l.length < fuel) (cols : Mem ColamdCol)
    (hn : n ≤ cols.size) (hm : Merged n M C a.get cols.get) {prevC : Int} (hnd : l.Nodup) (hlM : ∀ c ∈ l, M c ∧ 0 ≤ (cols.get c).start)
    (hs : 0 ≤ (cols.get superC).start) (hsl : superC ∉ l) (hpM : M prevC) (hpl : prevC ∉ l) (hlk : LinkedBy (fun c => (cols.get c).next) l)
    (hp : (cols.get prevC).next = firstOf l) :
    ∃ cols' l', absorbLoop a superC fuel cols prevC (firstOf l) = .ok cols' ∧ cols'.size = cols.size ∧ Merged n M C a.get cols'.get ∧
      l'.Sublist l ∧ (∀ c ∈ l', 0 ≤ (cols'.get c).start) ∧ LinkedBy (fun c => (cols'.get c).next) l' ∧ (cols'.get prevC).next = firstOf l' ∧
      (∀ c, (cols'.get c).prev = (cols.get c).prev) ∧ (∀ c, c ∉ l → (cols'.get c).start = (cols.get c).start) ∧
      (∀ c, c ∉ l → c ≠ prevC → (cols'.get c).next = (cols.get c).next) := by
  induction fuel generalizing l cols prevC with
  | zero => omega
  | succ fuel ih =>
    unfold absorbLoop
    cases l with
    | nil =>
      simp only [firstOf, if_true]
      exact ⟨cols, [], rfl, rfl, hm, List.Sublist.refl _, fun c hc => absurd hc (by simp), trivial, hp, fun _ => rfl, fun _ _ => rfl, fun _ _ _ => rfl⟩
    | cons c t =>
      obtain ⟨hMc, hc0⟩ := hlM c (by simp)
      obtain ⟨c1, c2, c3, c4, c5⟩ := hM c hMc
      obtain ⟨s1, s2, s3, s4, s5⟩ := hM superC hsM
      obtain ⟨p1, p2, _⟩ := hM prevC hpM
      rw [List.nodup_cons] at hnd
      obtain ⟨hct, hnd⟩ := hnd
      rw [List.mem_cons, not_or] at hsl hpl
      rw [List.length_cons] at hf
      obtain ⟨hlk1, hlk2⟩ := hlk
      simp only at hlk1
      have hc1 : ¬ c = -1 := by omega
      simp only [firstOf] at hp ⊢
      simp only [hc1, if_false]
      rw [Mem.read_of s1 (by omega), ok_bind, Mem.read_of c1 (by omega), ok_bind, hlk1]
      have hskip : ∃ cols' l', absorbLoop a superC fuel cols c (firstOf t) = .ok cols' ∧ cols'.size = cols.size ∧ Merged n M C a.get cols'.get ∧
          l'.Sublist (c :: t) ∧ (∀ c ∈ l', 0 ≤ (cols'.get c).start) ∧ LinkedBy (fun c => (cols'.get c).next) l' ∧ (cols'.get prevC).next = firstOf l' ∧
          (∀ c, (cols'.get c).prev = (cols.get c).prev) ∧ (∀ d, d ∉ c :: t → (cols'.get d).start = (cols.get d).start) ∧
          (∀ d, d ∉ c :: t → d ≠ prevC → (cols'.get d).next = (cols.get d).next) := by
        obtain ⟨cols', l', e1, e2, e3, e4, e5, e6, e7, e8, e9, e10⟩ := ih t (by omega) cols hn hm hnd (fun d hd => hlM d (by simp [hd])) hs hsl.2 hMc hct hlk2 hlk1
        refine ⟨cols', c :: l', e1, e2, e3, e4.cons_cons c, fun d hd => ?_, ⟨e7, e6⟩, ?_, e8, fun d hd => ?_, fun d hd hdp => ?_⟩
        · rcases List.mem_cons.1 hd with rfl | hd
          · rw [e9 d hct]; exact hc0
          · exact e5 d hd
        · rw [e10 prevC hpl.2 hpl.1]; exact hp
        · rw [List.mem_cons, not_or] at hd
          exact e9 d hd.2
        · rw [List.mem_cons, not_or] at hd
          exact e10 d hd.2 hd.1
      by_cases hcmp : (cols.get c).length ≠ (cols.get superC).length ∨ (cols.get c).score ≠ (cols.get superC).score
      · rw [if_pos hcmp]
        exact hskip
      · rw [if_neg hcmp]
        rw [not_or, not_not, not_not] at hcmp
        obtain ⟨kc1, kc2, kc3⟩ := hm.kept c hMc hc0
        obtain ⟨ks1, ks2, ks3⟩ := hm.kept superC hsM hs
        obtain ⟨b, eb, hb⟩ := sameColumn_of a (cols.get superC).start (cols.get c).start (span 0 (cols.get superC).length.toNat) (by
          intro i hi
          rw [mem_span] at hi
          rw [ks1, kc1]
          have : (C superC).length = (C c).length := by rw [← ks2, ← kc2, hcmp.1]
          rw [ks2] at hi
          omega)
        rw [eb, ok_bind]
        cases b with
        | false => exact hskip
        | true =>
          simp only [if_true]
          obtain ⟨root, hg⟩ := hm.groups
          have t1 := hg.pos s1 s2 (by omega)
          have t2 := hg.le s1 s2 (by omega)
          have t3 := hg.pos c1 c2 (by omega)
          have t4 := hg.le c1 c2 (by omega)
          rw [i32_of (by omega) (by omega), ok_bind, Mem.write_of _ s1 (by omega), ok_bind, Mem.modify_of _ c1 (by rw [Mem.put_size]; omega), ok_bind, Mem.modify_of _ p1 (by rw [Mem.put_size, Mem.put_size]; omega),
            ok_bind]
          have hcs : c ≠ superC := fun q => hsl.1 q.symm
          have hcp : c ≠ prevC := fun q => hpl.1 q.symm
          set cols1 := cols.put superC { cols.get superC with thickness := (cols.get superC).thickness + (cols.get c).thickness } with hcols1
          have hx : cols1.get c = cols.get c := Mem.put_get_ne _ _ hcs
          rw [hx]
          set cols2 := cols1.put c { cols.get c with thickness := superC, start := -2, score := -1 } with hcols2
          set cols3 := cols2.put prevC { cols2.get prevC with next := firstOf t } with hcols3
          have q1 : ∀ d, d ≠ c → d ≠ superC → cols3.get d = { cols.get d with next := (cols3.get d).next } ∧ (d ≠ prevC → (cols3.get d).next = (cols.get d).next) := by
            intro d d1 d2
            have e : cols2.get d = cols.get d := by rw [hcols2, Mem.put_get_ne _ _ d1, hcols1, Mem.put_get_ne _ _ d2]
            rcases eq_or_ne d prevC with rfl | d3
            · rw [hcols3, Mem.put_get_self, e]
              exact ⟨rfl, fun q => absurd rfl q⟩
            · rw [hcols3, Mem.put_get_ne _ _ d3, e]
              exact ⟨rfl, fun _ => rfl⟩
          have q2 : cols3.get c = { cols.get c with thickness := superC, start := -2, score := -1 } := by
            rw [hcols3, Mem.put_get_ne _ _ hcp, hcols2, Mem.put_get_self]
          have q3 : cols3.get superC = { cols.get superC with thickness := (cols.get superC).thickness + (cols.get c).thickness, next := (cols3.get superC).next } ∧
              (superC ≠ prevC → (cols3.get superC).next = (cols.get superC).next) := by
            have e : cols2.get superC = { cols.get superC with thickness := (cols.get superC).thickness + (cols.get c).thickness } := by
              rw [hcols2, Mem.put_get_ne _ _ hcs.symm, hcols1, Mem.put_get_self]
            by_cases d3 : superC = prevC
            · rw [hcols3, ← d3, Mem.put_get_self, e]
              exact ⟨rfl, fun q => absurd rfl q⟩
            · rw [hcols3, Mem.put_get_ne _ _ d3, e]
              exact ⟨rfl, fun _ => rfl⟩
          have q4 : (cols3.get prevC).next = firstOf t := by rw [hcols3, Mem.put_get_self]
          have qn : ∀ d, d ≠ prevC → (cols3.get d).next = (cols.get d).next := fun d hd => by
            rcases eq_or_ne d c with rfl | d1
            · rw [q2]
            · rcases eq_or_ne d superC with rfl | d2
              · exact q3.2 hd
              · exact (q1 d d1 d2).2 hd
          have qs : ∀ d, d ≠ c → (cols3.get d).start = (cols.get d).start ∧ (cols3.get d).prev = (cols.get d).prev := fun d d1 => by
            rcases eq_or_ne d superC with rfl | d2
            · rw [q3.1]; exact ⟨rfl, rfl⟩
            · rw [(q1 d d1 d2).1]; exact ⟨rfl, rfl⟩
          have hm3 : Merged n M C a.get cols3.get := by
            refine hm.absorb (c := c) (s := superC) ⟨c1, c2, hc0⟩ ⟨s1, s2, hs⟩ hcs hMc hsM ⟨?_, fun i i0 i1 => ?_⟩ ?_ ?_ ?_
            · rw [← ks2, ← kc2, hcmp.1]
            · rw [← ks1, ← kc1]
              refine (hb rfl i ?_).symm
              rw [mem_span, ← hcmp.1, kc2]
              omega
            · rw [q2]
            · rw [q3.1]
            · intro d d1 d2
              rw [(q1 d d1 d2).1]
          obtain ⟨cols', l', e1, e2, e3, e4, e5, e6, e7, e8, e9, e10⟩ := ih t (by omega) cols3 (by exact hn) hm3 hnd (fun d hd => by
              obtain ⟨w1, w2⟩ := hlM d (by simp [hd])
              have d1 : d ≠ c := fun q => hct (q ▸ hd)
              rw [(qs d d1).1]
              exact ⟨w1, w2⟩) (by rw [(qs superC hcs.symm).1]; exact hs) hsl.2 hpM hpl.2 (hlk2.congr (fun d hd => by
              have d1 : d ≠ prevC := fun q => hpl.2 (q ▸ hd)
              exact qn d d1)) q4
          refine ⟨cols', l', e1, e2, e3, e4.trans (List.sublist_cons_self c t), e5, e6, e7, fun d => ?_, fun d hd => ?_, fun d hd hdp => ?_⟩
          · rw [e8]
            rcases eq_or_ne d c with rfl | d1
            · rw [q2]
            · exact (qs d d1).2
          · rw [List.mem_cons, not_or] at hd
            rw [e9 d hd.2, (qs d hd.1).1]
          · rw [List.mem_cons, not_or] at hd
            rw [e10 d hd.2 hdp, qn d hdp]

theorem length_le_of_nodup {l : List Int} {n : Int} (h0 : 0 ≤ n) (hnd : l.Nodup) (h : ∀ c ∈ l, 0 ≤ c ∧ c < n) : (l.length : Int) ≤ n := by
  have hsub : l.toFinset ⊆ Finset.Ico 0 n := by
    intro c hc
    rw [List.mem_toFinset] at hc
    rw [Finset.mem_Ico]
    exact h c hc
  have := Finset.card_le_card hsub
  rw [List.toFinset_card_of_nodup hnd, Int.card_Ico] at this
  omega

theorem bucketLoop_of (a : Mem Int) (hsn : 4 * n + 8 < 2 ^ 31) (hM : Inside n M C a) (hn0 : 0 ≤ n) (fuel : Nat) (l : List Int) (hf : l.length < fuel) (cols : Mem ColamdCol) (hn : n ≤ cols.size)
    (hm : Merged n M C a.get cols.get) (hnd : l.Nodup) (hlM : ∀ c ∈ l, M c ∧ 0 ≤ (cols.get c).start) (hlk : LinkedBy (fun c => (cols.get c).next) l) :
    ∃ cols', bucketLoop a fuel cols (firstOf l) = .ok cols' ∧ cols'.size = cols.size ∧ Merged n M C a.get cols'.get ∧
      (∀ c, (cols'.get c).prev = (cols.get c).prev) ∧ (∀ c, c ∉ l → (cols'.get c).start = (cols.get c).start ∧ (cols'.get c).next = (cols.get c).next) := by
  induction fuel generalizing l cols with
  | zero => omega
  | succ fuel ih =>
    unfold bucketLoop
    cases l with
    | nil =>
      simp only [firstOf, if_true]
      exact ⟨cols, rfl, rfl, hm, fun _ => rfl, fun _ _ => ⟨rfl, rfl⟩⟩
    | cons s t =>
      obtain ⟨hMs, hs0⟩ := hlM s (by simp)
      obtain ⟨s1, s2, _⟩ := hM s hMs
      rw [List.nodup_cons] at hnd
      obtain ⟨hst, hnd⟩ := hnd
      rw [List.length_cons] at hf
      obtain ⟨hlk1, hlk2⟩ := hlk
      simp only at hlk1
      have hs1 : ¬ s = -1 := by omega
      simp only [firstOf]
      have hlen := length_le_of_nodup hn0 hnd (fun c hc => ⟨(hM c (hlM c (by simp [hc])).1).1, (hM c (hlM c (by simp [hc])).1).2.1⟩)
      obtain ⟨cols1, l1, e1, e2, e3, e4, e5, e6, e7, e8, e9, e10⟩ := absorbLoop_of a hsn hM hMs (cols.size + 1) t (by omega) cols hn hm hnd
        (fun d hd => hlM d (by simp [hd])) hs0 hst hMs hst hlk2 hlk1
      simp only [hs1, if_false]
      rw [Mem.read_of s1 (by omega), ok_bind, hlk1, e1, ok_bind, Mem.read_of s1 (by omega), ok_bind, e7]
      have hl1 := e4.length_le
      obtain ⟨cols', f1, f2, f3, f4, f5⟩ := ih l1 (by omega) cols1 (by omega) e3 (e4.nodup hnd) (fun d hd => ⟨(hlM d (by simp [e4.subset hd])).1, e5 d hd⟩) e6
      refine ⟨cols', f1, by omega, f3, fun c => by rw [f4, e8], fun c hc => ?_⟩
      rw [List.mem_cons, not_or] at hc
      have hc1 : c ∉ l1 := fun q => hc.2 (e4.subset q)
      rw [(f5 c hc1).1, (f5 c hc1).2, e9 c hc.2, e10 c hc.2 hc.1]
      exact ⟨rfl, rfl⟩

/-- After the columns of `S`: every bucket is still as it was, or has been emptied. -/
structure SuperInv (n : Int) (M L : Int → Prop) (C : Int → ColamdCol) (a : Mem Int) (H0 : Int → Int) (hashOf : Int → Int) (csize hsize : Nat) (S : Finset Int)
    (s : Mem ColamdCol × Mem Int) : Prop where
  csize : s.1.size = csize
  hsize : s.2.size = hsize
  merged : Merged n M C a.get s.1.get
  buckets : ∃ bucket, Buckets n H0 L (fun c => M c ∧ 0 ≤ (s.1.get c).start) bucket s.2.get s.1.get ∧
    (∀ d, M d → d ∈ bucket (hashOf d) ∨ bucket (hashOf d) = []) ∧ ∀ d ∈ S, M d → bucket (hashOf d) = []
  hash : ∀ d, M d → (s.1.get d).prev = hashOf d
  next : ∀ c, L c → (s.1.get c).next = (C c).next
  prev : ∀ c, L c → (∀ i, 0 ≤ i → i ≤ n → H0 i ≠ c) → (s.1.get c).prev = (C c).prev

theorem superColumns_of {L : Int → Prop} (a : Mem Int) (hsn : 4 * n + 8 < 2 ^ 31) (hM : Inside n M C a) (hn0 : 0 ≤ n) {H0 score0 prev0 next0 hashOf : Int → Int} (hlist : DegLists n L H0 score0 prev0 next0)
    (hL : ∀ c, L c → ¬ M c) (hhash : ∀ d, M d → 0 ≤ hashOf d ∧ hashOf d ≤ n) {csize hsize : Nat} (hn : n ≤ csize) (hh : n < hsize) {Q : Finset Int} (hQ : ∀ d ∈ Q, 0 ≤ d ∧ d < n ∧ (M d ∨ (C d).start < 0))
    {pfree len : Int} (hp0 : 0 ≤ pfree) (ha : pfree + len ≤ a.size) (hrow : Holds a.get pfree len Q) (s : Mem ColamdCol × Mem Int)
    (inv : SuperInv n M L C a H0 hashOf csize hsize ∅ s) :
    ∃ s', (span pfree len.toNat).foldlM (superColumn a) s = .ok s' ∧ SuperInv n M L C a H0 hashOf csize hsize Q s' := by
  have hl := hrow.2.1
  refine foldlM_holds (fun _ S s => SuperInv n M L C a H0 hashOf csize hsize S s) _ hrow s inv ?_
  rintro x S ⟨cols, head⟩ hx1 hx2 hSQ hxQ hxS ⟨i1, i2, i3, ⟨bucket, i4, i5, i6⟩, i7, i8, i9⟩
  simp only at i1 i2 i3 i4 i7 i8 i9
  set d := a.get x with hdx
  obtain ⟨hd0, hdn, hdM⟩ := hQ d hxQ
  unfold superColumn
  simp only
  rw [Mem.read_of (by omega) (by omega), ok_bind, ← hdx, Mem.read_of hd0 (by omega), ok_bind]
  by_cases hdead : (cols.get d).start < 0
  · rw [if_pos hdead]
    refine ⟨_, rfl, i1, i2, i3, ⟨bucket, i4, i5, fun c hc hMc => ?_⟩, i7, i8, i9⟩
    rcases Finset.mem_insert.1 hc with rfl | hc
    · refine (i5 d hMc).resolve_left fun hin => ?_
      have := (i4.member _ _ hin).1.2
      omega
    · exact i6 c hc hMc
  · rw [if_neg hdead]
    have hMd : M d := hdM.resolve_right fun q => by
      by_contra hcon
      have := i3.other d (fun hm => by
        have := (hM d hm).2.2.1
        omega)
      rw [this] at hdead
      exact hdead q
    obtain ⟨hh0, hhn⟩ := hhash d hMd
    set h := hashOf d with hhd
    obtain ⟨b1, b2, b3, b4, b5, b6, b7⟩ := i4
    have hlen : ((bucket h).length : Int) ≤ n := length_le_of_nodup hn0 (b5 h) (fun c hc => (b7 h c hc).2.2)
    obtain ⟨cols1, e1, e2, e3, e4, e5⟩ := bucketLoop_of a hsn hM hn0 (cols.size + 1) (bucket h) (by omega) cols (by omega) i3 (b5 h) (fun c hc => (b7 h c hc).1) (b3 h)
    rw [i7 d hMd, Mem.read_of hh0 (by omega), ok_bind, b1 h hh0 hhn]
    -- the other buckets are not touched
    have hother : ∀ i, i ≠ h → ∀ c ∈ bucket i, c ∉ bucket h := fun i hi c hc hc' => hi (by rw [← b4 i c hc, b4 h c hc'])
    have hheadL : ∀ i, 0 ≤ i → i ≤ n → H0 i ≠ -1 → L (H0 i) ∧ score0 (H0 i) = i := fun i i0 i1 hi => by
      rcases hlist.headOf i i0 i1 with q | q
      · exact absurd q hi
      · exact ⟨q.1, q.2.1⟩
    have hLb : ∀ c, L c → ∀ i, c ∉ bucket i := fun c hc i hi => (b7 i c hi).2.1 hc
    have hfirst : -1 ≤ firstOf (bucket h) ∧ firstOf (bucket h) < n := by
      cases hbk : bucket h with
      | nil => simp only [firstOf]; omega
      | cons c l =>
        have := (b7 h c (by rw [hbk]; simp)).2.2
        simp only [firstOf]; omega
    by_cases hH : H0 h = -1
    · simp only [hH, if_true]
      rw [if_neg (by
        cases hb : bucket h with
        | nil => simp [firstOf]
        | cons c t =>
          have := (b7 h c (by rw [hb]; simp)).2.2.1
          simp only [firstOf]; omega), i32_of (by omega) (by omega), ok_bind, i32_of (by omega) (by omega), ok_bind, show -(-firstOf (bucket h) - 2 + 2) = firstOf (bucket h) by ring, e1, ok_bind, Mem.write_of _ hh0 (by omega), ok_bind]
      refine ⟨_, rfl, by rw [← i1]; exact e2, i2, e3, ⟨fun i => if i = h then [] else bucket i, ⟨fun i i0 i1 => ?_, fun i i0 i1 hi => ?_, fun i => ?_, fun i c hc => ?_, fun i => ?_,
        fun i c hc => ?_, fun i c hc => ?_⟩, fun c hc => ?_, fun c hc hMc => ?_⟩, fun c hc => ?_, fun c hc => ?_, fun c hc hcH => ?_⟩
      · simp only
        rcases eq_or_ne i h with rfl | hne
        · rw [Mem.put_get_self, if_pos hH]; simp [firstOf]
        · rw [Mem.put_get_ne _ _ hne, b1 i i0 i1]
          simp only [hne, if_false]
      · have hne : i ≠ h := fun q => hi (q ▸ hH)
        simp only [hne, if_false]
        rw [e4]
        exact b2 i i0 i1 hi
      · by_cases hi : i = h
        · simp only [hi, if_true]; trivial
        · simp only [hi, if_false]
          exact (b3 i).congr (fun c hc => (e5 c (hother i hi c hc)).2)
      · by_cases hi : i = h
        · simp [hi] at hc
        · simp only [hi, if_false] at hc
          simp only
          rw [e4]; exact b4 i c hc
      · by_cases hi : i = h
        · simp [hi]
        · simp only [hi, if_false]; exact b5 i
      · by_cases hi : i = h
        · simp [hi] at hc
        · simp only [hi, if_false] at hc
          exact b6 i c hc
      · by_cases hi : i = h
        · simp [hi] at hc
        · simp only [hi, if_false] at hc
          simp only
          rw [(e5 c (hother i hi c hc)).1]
          exact b7 i c hc
      · by_cases hi : hashOf c = h
        · right; simp [hi]
        · simp only [hi, if_false]; exact i5 c hc
      · by_cases hi : hashOf c = h
        · simp [hi]
        · simp only [hi, if_false]
          rcases Finset.mem_insert.1 hc with rfl | hc
          · exact absurd rfl hi
          · exact i6 c hc hMc
      · simp only; rw [e4]; exact i7 c hc
      · simp only; rw [(e5 c (hLb c hc h)).2]; exact i8 c hc
      · simp only; rw [e4]; exact i9 c hc hcH
    · obtain ⟨hHL, hHs⟩ := hheadL h hh0 hhn hH
      have hr := hlist.range _ hHL
      simp only [hH, if_false]
      rw [if_pos (by omega), Mem.read_of hr.1 (by omega), ok_bind, b2 h hh0 hhn hH, e1, ok_bind, Mem.modify_of _ hr.1 (by omega), ok_bind]
      set cols2 := cols1.put (H0 h) { cols1.get (H0 h) with prev := -1 } with hcols2
      have g1 : ∀ c, cols2.get c = { cols1.get c with prev := (cols2.get c).prev } := fun c => by
        rcases eq_or_ne c (H0 h) with rfl | hne
        · rw [hcols2, Mem.put_get_self]
        · rw [hcols2, Mem.put_get_ne _ _ hne]
      have g2 : ∀ c, c ≠ H0 h → (cols2.get c).prev = (cols1.get c).prev := fun c hne => by rw [hcols2, Mem.put_get_ne _ _ hne]
      have g3 : (cols2.get (H0 h)).prev = -1 := by rw [hcols2, Mem.put_get_self]
      have gn : ∀ c, (cols2.get c).next = (cols1.get c).next := fun c => by rw [g1]
      have gs : ∀ c, (cols2.get c).start = (cols1.get c).start := fun c => by rw [g1]
      have hMH : ∀ c, M c → c ≠ H0 h := fun c hc q => hL _ hHL (q ▸ hc)
      refine ⟨_, rfl, by rw [← i1, ← e2]; rfl, i2, e3.congr (fun c => by simp only; rw [g1]), ⟨fun i => if i = h then [] else bucket i, ⟨fun i i0 i1 => ?_, fun i i0 i1 hi => ?_,
        fun i => ?_, fun i c hc => ?_, fun i => ?_, fun i c hc => ?_, fun i c hc => ?_⟩, fun c hc => ?_, fun c hc hMc => ?_⟩, fun c hc => ?_, fun c hc => ?_, fun c hc hcH => ?_⟩
      · simp only
        rcases eq_or_ne i h with rfl | hne
        · rw [b1 _ i0 i1, if_neg hH, if_neg hH]
        · rw [b1 i i0 i1]
          simp only [hne, if_false]
      · by_cases hne : i = h
        · simp only [hne, if_true, firstOf]
          exact g3
        · simp only [hne, if_false]
          have : H0 i ≠ H0 h := fun q => hne (by rw [← (hheadL i i0 i1 hi).2, q, hHs])
          rw [g2 _ this, e4]
          exact b2 i i0 i1 hi
      · by_cases hi : i = h
        · simp only [hi, if_true]; trivial
        · simp only [hi, if_false]
          exact (b3 i).congr (fun c hc => by rw [gn]; exact (e5 c (hother i hi c hc)).2)
      · by_cases hi : i = h
        · simp [hi] at hc
        · simp only [hi, if_false] at hc
          simp only
          rw [g2 c (hMH c (b7 i c hc).1.1), e4]; exact b4 i c hc
      · by_cases hi : i = h
        · simp [hi]
        · simp only [hi, if_false]; exact b5 i
      · by_cases hi : i = h
        · simp [hi] at hc
        · simp only [hi, if_false] at hc
          exact b6 i c hc
      · by_cases hi : i = h
        · simp [hi] at hc
        · simp only [hi, if_false] at hc
          simp only
          rw [gs, (e5 c (hother i hi c hc)).1]
          exact b7 i c hc
      · by_cases hi : hashOf c = h
        · right; simp [hi]
        · simp only [hi, if_false]; exact i5 c hc
      · by_cases hi : hashOf c = h
        · simp [hi]
        · simp only [hi, if_false]
          rcases Finset.mem_insert.1 hc with rfl | hc
          · exact absurd rfl hi
          · exact i6 c hc hMc
      · simp only; rw [g2 c (hMH c hc), e4]; exact i7 c hc
      · simp only; rw [gn, (e5 c (hLb c hc h)).2]; exact i8 c hc
      · simp only; rw [g2 c (fun q => hcH h hh0 hhn q.symm), e4]; exact i9 c hc hcH

/-- At the end the degree lists are back. -/
theorem SuperInv.lists {L : Int → Prop} {a : Mem Int} {H0 hashOf score0 prev0 next0 : Int → Int} {csize hsize : Nat} {Q : Finset Int} {s : Mem ColamdCol × Mem Int}
    (h : SuperInv n M L C a H0 hashOf csize hsize Q s) (hlist : DegLists n L H0 score0 prev0 next0) (hL : ∀ c, L c → ¬ M c) (hMQ : ∀ c, M c → c ∈ Q)
    (hn : ∀ c, L c → (C c).next = next0 c) (hp : ∀ c, L c → (∀ i, 0 ≤ i → i ≤ n → H0 i ≠ c) → (C c).prev = prev0 c) (hs : ∀ c, L c → (C c).score = score0 c) :
    DegLists n L s.2.get (fun c => (s.1.get c).score) (fun c => (s.1.get c).prev) (fun c => (s.1.get c).next) := by
  obtain ⟨_, _, h3, ⟨bucket, h4, h5, h6⟩, h7, h8, h9⟩ := h
  have hempty : ∀ i, bucket i = [] := fun i => by
    cases hb : bucket i with
    | nil => rfl
    | cons c t =>
      have hc : c ∈ bucket i := by rw [hb]; simp
      have hMc := (h4.member i c hc).1.1
      have := h6 c (hMQ c hMc) hMc
      rw [← h7 c hMc, h4.prev i c hc, hb] at this
      exact absurd this (by simp)
  refine hlist.congr (fun _ => Iff.rfl) (fun i i0 i1 => ?_) (fun c hc => ?_) (fun c hc => ?_) (fun c hc => ?_)
  · rw [h4.head i i0 i1, hempty]
    by_cases hH : H0 i = -1
    · rw [if_pos hH, hH]; simp [firstOf]
    · rw [if_neg hH]
  · rw [h3.other c (hL c hc)]
    exact hs c hc
  · by_cases hH : ∃ i, 0 ≤ i ∧ i ≤ n ∧ H0 i = c
    · obtain ⟨i, i0, i1, rfl⟩ := hH
      have hne : H0 i ≠ -1 := fun q => by
        have := (hlist.range _ hc).1
        omega
      rw [h4.headPrev i i0 i1 hne, hempty]
      rcases hlist.headOf i i0 i1 with q | ⟨_, _, q⟩
      · exact absurd q hne
      · rw [q]; rfl
    · have hH' : ∀ i, 0 ≤ i → i ≤ n → H0 i ≠ c := fun i i0 i1 q => hH ⟨i, i0, i1, q⟩
      rw [h9 c hc hH', hp c hc hH']
  · rw [h8 c hc, hn c hc]

end
end Fiksi.Amd
