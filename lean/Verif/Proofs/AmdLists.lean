import Verif.Proofs.AmdBase
/-!
# The degree lists

The lists are described by the functions `head`, `score`, `prev` and `next`, and the columns on them by `listed`.
-/
namespace Fiksi.Amd
open Classical

/-- Doubly linked lists of the columns in `listed`, one for each score up to `n`. -/
structure DegLists (n : Int) (listed : Int → Prop) (head score prev next : Int → Int) : Prop where
  range : ∀ c, listed c → 0 ≤ c ∧ c < n ∧ 0 ≤ score c ∧ score c ≤ n
  prevOf : ∀ c, listed c → (prev c = -1 ∧ head (score c) = c) ∨ (listed (prev c) ∧ score (prev c) = score c ∧ next (prev c) = c)
  nextOf : ∀ c, listed c → next c = -1 ∨ (listed (next c) ∧ score (next c) = score c ∧ prev (next c) = c)
  headOf : ∀ h, 0 ≤ h → h ≤ n → head h = -1 ∨ (listed (head h) ∧ score (head h) = h ∧ prev (head h) = -1)
  acyclic : ∃ rank : Int → Int, ∀ c, listed c → prev c ≠ -1 → rank (prev c) < rank c

namespace DegLists
variable {n : Int} {listed listed' : Int → Prop} {head score prev next head' score' prev' next' : Int → Int}

theorem congr (h : DegLists n listed head score prev next) (hl : ∀ c, listed' c ↔ listed c) (hh : ∀ i, 0 ≤ i → i ≤ n → head' i = head i)
    (hs : ∀ c, listed c → score' c = score c) (hp : ∀ c, listed c → prev' c = prev c) (hn : ∀ c, listed c → next' c = next c) :
    DegLists n listed' head' score' prev' next' := by
  obtain ⟨h1, h2, h3, h4, rank, h5⟩ := h
  refine ⟨fun c hc => ?_, fun c hc => ?_, fun c hc => ?_, fun i h0 h1 => ?_, rank, fun c hc hne => ?_⟩
  · rw [hl] at hc
    rw [hs c hc]
    exact h1 c hc
  · rw [hl] at hc
    rw [hp c hc, hs c hc, hl]
    obtain ⟨_, _, r1, r2⟩ := h1 c hc
    rw [hh _ r1 r2]
    rcases h2 c hc with q | ⟨q1, q2, q3⟩
    · exact Or.inl q
    · refine Or.inr ⟨q1, ?_, ?_⟩
      · rw [hs _ q1]; exact q2
      · rw [hn _ q1]; exact q3
  · rw [hl] at hc
    rw [hn c hc, hs c hc, hl]
    rcases h3 c hc with q | ⟨q1, q2, q3⟩
    · exact Or.inl q
    · refine Or.inr ⟨q1, ?_, ?_⟩
      · rw [hs _ q1]; exact q2
      · rw [hp _ q1]; exact q3
  · rw [hh i h0 h1, hl]
    rcases h4 i h0 h1 with q | ⟨q1, q2, q3⟩
    · exact Or.inl q
    · refine Or.inr ⟨q1, ?_, ?_⟩
      · rw [hs _ q1]; exact q2
      · rw [hp _ q1]; exact q3
  · rw [hl] at hc
    rw [hp c hc] at hne ⊢
    exact h5 c hc hne

/-- A list that contains a column has a head. -/
theorem head_ne (h : DegLists n listed head score prev next) {c : Int} (hc : listed c) : head (score c) ≠ -1 := by
  obtain ⟨h1, h2, h3, h4, rank, h5⟩ := h
  obtain ⟨d, hd, hmin⟩ := Finset.exists_min_image ((Finset.Ico 0 n).filter (fun d => listed d ∧ score d = score c)) rank
    ⟨c, by
      have := h1 c hc
      simp only [Finset.mem_filter, Finset.mem_Ico, and_true]
      exact ⟨⟨this.1, this.2.1⟩, hc⟩⟩
  simp only [Finset.mem_filter, Finset.mem_Ico] at hd hmin
  obtain ⟨hd0, hd1, hd2⟩ := hd
  have hr := h1 d hd1
  rcases h2 d hd1 with q | ⟨q1, q2, q3⟩
  · rw [← hd2, q.2]
    omega
  · exfalso
    have q0 := h1 _ q1
    have hlt := h5 d hd1 (by omega)
    have := hmin (prev d) ⟨⟨q0.1, q0.2.1⟩, q1, by rw [q2, hd2]⟩
    omega

/-- A column is put at the front of a list. -/
theorem push (h : DegLists n listed head score prev next) {c s : Int} (hc : ¬ listed c) (hc0 : 0 ≤ c) (hcn : c < n) (hs0 : 0 ≤ s) (hsn : s ≤ n)
    (hl : ∀ d, listed' d ↔ listed d ∨ d = c) (hh1 : ∀ i, i ≠ s → head' i = head i) (hh2 : head' s = c)
    (hsc : score' c = s) (hsd : ∀ d, listed d → score' d = score d)
    (hpc : prev' c = -1) (hpd : ∀ d, listed d → prev' d = if d = head s then c else prev d)
    (hnc : next' c = head s) (hnd : ∀ d, listed d → next' d = next d) : DegLists n listed' head' score' prev' next' := by
  obtain ⟨h1, h2, h3, h4, rank, h5⟩ := h
  have hne : ∀ d, listed d → d ≠ c := fun d hd he => hc (he ▸ hd)
  refine ⟨fun d hd => ?_, fun d hd => ?_, fun d hd => ?_, fun i i0 i1 => ?_, fun d => if d = c then rank (head s) - 1 else rank d, fun d hd hne' => ?_⟩
  · rcases (hl d).1 hd with hd | rfl
    · rw [hsd d hd]; exact h1 d hd
    · rw [hsc]; exact ⟨hc0, hcn, hs0, hsn⟩
  · rcases (hl d).1 hd with hd | rfl
    · rw [hpd d hd, hsd d hd]
      by_cases hdh : d = head s
      · rw [if_pos hdh]
        right
        rcases h4 s hs0 hsn with q | ⟨q1, q2, q3⟩
        · have := (h1 d hd).1; omega
        · refine ⟨(hl c).2 (Or.inr rfl), ?_, ?_⟩
          · rw [hsc, hdh, q2]
          · rw [hnc, hdh]
      · rw [if_neg hdh]
        rcases h2 d hd with ⟨q1, q2⟩ | ⟨q1, q2, q3⟩
        · left
          refine ⟨q1, ?_⟩
          rw [hh1 _ (fun he => hdh (by rw [← he, q2])), q2]
        · right
          refine ⟨(hl _).2 (Or.inl q1), ?_, ?_⟩
          · rw [hsd _ q1, q2]
          · rw [hnd _ q1, q3]
    · left
      rw [hpc, hsc, hh2]
      simp
  · rcases (hl d).1 hd with hd | rfl
    · rw [hnd d hd, hsd d hd]
      rcases h3 d hd with q | ⟨q1, q2, q3⟩
      · exact Or.inl q
      · right
        refine ⟨(hl _).2 (Or.inl q1), by rw [hsd _ q1, q2], ?_⟩
        rw [hpd _ q1, if_neg, q3]
        intro he
        rcases h4 s hs0 hsn with p | ⟨p1, p2, p3⟩
        · have := (h1 _ q1).1; omega
        · rw [← he, q3] at p3
          have := (h1 d hd).1
          omega
    · rw [hnc, hsc]
      rcases h4 s hs0 hsn with q | ⟨q1, q2, q3⟩
      · exact Or.inl q
      · right
        refine ⟨(hl _).2 (Or.inl q1), by rw [hsd _ q1, q2], ?_⟩
        rw [hpd _ q1, if_pos rfl]
  · by_cases his : i = s
    · subst his
      right
      rw [hh2, hsc, hpc]
      exact ⟨(hl c).2 (Or.inr rfl), rfl, rfl⟩
    · rw [hh1 i his]
      rcases h4 i i0 i1 with q | ⟨q1, q2, q3⟩
      · exact Or.inl q
      · right
        refine ⟨(hl _).2 (Or.inl q1), by rw [hsd _ q1, q2], ?_⟩
        rw [hpd _ q1, if_neg, q3]
        intro he
        rcases h4 s hs0 hsn with p | ⟨p1, p2, p3⟩
        · have := (h1 _ q1).1; omega
        · rw [he] at q2
          omega
  · rcases (hl d).1 hd with hd | rfl
    · simp only [hne d hd, if_false]
      rw [hpd d hd] at hne' ⊢
      by_cases hdh : d = head s
      · simp only [hdh, if_true]
        omega
      · rw [if_neg hdh] at hne' ⊢
        have q := h5 d hd hne'
        rcases h2 d hd with ⟨q1, _⟩ | ⟨q1, _, _⟩
        · exact absurd q1 hne'
        · rw [if_neg (hne _ q1)]
          exact q
    · exact absurd hpc hne'

/-- A column is taken out of its list. -/
theorem unlink (h : DegLists n listed head score prev next) {c : Int} (hc : listed c) (hl : ∀ d, listed' d ↔ listed d ∧ d ≠ c)
    (hh : ∀ i, head' i = if prev c = -1 ∧ i = score c then next c else head i) (hsd : ∀ d, listed' d → score' d = score d)
    (hpd : ∀ d, listed' d → prev' d = if d = next c then prev c else prev d)
    (hnd : ∀ d, listed' d → next' d = if d = prev c then next c else next d) : DegLists n listed' head' score' prev' next' := by
  have hhead : ∀ i, 0 ≤ i → i ≤ n → head i = c → i = score c ∧ prev c = -1 := fun i h0 h1 he => by
    rcases h.headOf i h0 h1 with q | ⟨q1, q2, q3⟩
    · have := (h.range c hc).1; omega
    · rw [he] at q2 q3; exact ⟨q2.symm, q3⟩
  obtain ⟨h1, h2, h3, h4, rank, h5⟩ := h
  have hc0 := h1 c hc
  have hnextne : next c ≠ c := by
    intro he
    rcases h3 c hc with q | ⟨q1, q2, q3⟩
    · omega
    · rw [he] at q3
      have := h5 c hc (by omega)
      rw [q3] at this
      omega
  have hprevne : prev c ≠ c := by
    intro he
    have := h5 c hc (by omega)
    rw [he] at this
    omega
  refine ⟨fun d hd => ?_, fun d hd => ?_, fun d hd => ?_, fun i i0 i1 => ?_, rank, fun d hd hne' => ?_⟩
  · rw [hsd d hd]; exact h1 d ((hl d).1 hd).1
  · rw [hpd d hd, hsd d hd]
    obtain ⟨hd1, hd2⟩ := (hl d).1 hd
    by_cases hdn : d = next c
    · rw [if_pos hdn]
      rcases h3 c hc with q | ⟨q1, q2, q3⟩
      · have := (h1 d hd1).1; omega
      · rw [← hdn] at q1 q2 q3
        rcases h2 c hc with ⟨p1, p2⟩ | ⟨p1, p2, p3⟩
        · left
          rw [hh, if_pos ⟨p1, q2⟩]
          exact ⟨p1, hdn.symm⟩
        · right
          have hp := (hl (prev c)).2 ⟨p1, hprevne⟩
          rw [hsd _ hp, hnd _ hp, if_pos rfl]
          exact ⟨hp, by omega, hdn.symm⟩
    · rw [if_neg hdn]
      rcases h2 d hd1 with ⟨p1, p2⟩ | ⟨p1, p2, p3⟩
      · left
        refine ⟨p1, ?_⟩
        rw [hh, if_neg, p2]
        rintro ⟨e1, e2⟩
        rcases h2 c hc with ⟨q1, q2⟩ | ⟨q1, q2, q3⟩
        · rw [e2, q2] at p2; exact hd2 p2.symm
        · have := (h1 _ q1).1; omega
      · right
        have hpc : prev d ≠ c := fun he => hdn (by rw [← p3, he])
        have hp := (hl (prev d)).2 ⟨p1, hpc⟩
        rw [hsd _ hp, hnd _ hp, if_neg]
        · exact ⟨hp, p2, p3⟩
        · intro he
          rcases h2 c hc with ⟨q1, q2⟩ | ⟨q1, q2, q3⟩
          · have := (h1 _ p1).1; omega
          · rw [he, q3] at p3; exact hd2 p3.symm
  · rw [hnd d hd, hsd d hd]
    obtain ⟨hd1, hd2⟩ := (hl d).1 hd
    by_cases hdp : d = prev c
    · rw [if_pos hdp]
      rcases h2 c hc with ⟨p1, p2⟩ | ⟨p1, p2, p3⟩
      · have := (h1 d hd1).1; omega
      · rw [← hdp] at p1 p2 p3
        rcases h3 c hc with q | ⟨q1, q2, q3⟩
        · exact Or.inl q
        · right
          have hp := (hl (next c)).2 ⟨q1, hnextne⟩
          rw [hsd _ hp, hpd _ hp, if_pos rfl]
          exact ⟨hp, by omega, hdp.symm⟩
    · rw [if_neg hdp]
      rcases h3 d hd1 with q | ⟨q1, q2, q3⟩
      · exact Or.inl q
      · right
        have hnc : next d ≠ c := fun he => hdp (by rw [← q3, he])
        have hp := (hl (next d)).2 ⟨q1, hnc⟩
        rw [hsd _ hp, hpd _ hp, if_neg]
        · exact ⟨hp, q2, q3⟩
        · intro he
          rcases h3 c hc with p | ⟨p1, p2, p3⟩
          · have := (h1 _ q1).1; omega
          · rw [he, p3] at q3; exact hd2 q3.symm
  · rw [hh]
    by_cases hi : prev c = -1 ∧ i = score c
    · rw [if_pos hi]
      rcases h3 c hc with q | ⟨q1, q2, q3⟩
      · exact Or.inl q
      · right
        have hp := (hl (next c)).2 ⟨q1, hnextne⟩
        rw [hsd _ hp, hpd _ hp, if_pos rfl]
        exact ⟨hp, by omega, hi.1⟩
    · rw [if_neg hi]
      rcases h4 i i0 i1 with q | ⟨q1, q2, q3⟩
      · exact Or.inl q
      · right
        have hne : head i ≠ c := fun he => hi (by have := hhead i i0 i1 he; exact ⟨this.2, this.1⟩)
        have hp := (hl (head i)).2 ⟨q1, hne⟩
        rw [hsd _ hp, hpd _ hp, if_neg]
        · exact ⟨hp, q2, q3⟩
        · intro he
          rcases h3 c hc with p | ⟨p1, p2, p3⟩
          · have := (h1 _ q1).1; omega
          · rw [he, p3] at q3; omega
  · rw [hpd d hd] at hne' ⊢
    obtain ⟨hd1, hd2⟩ := (hl d).1 hd
    by_cases hdn : d = next c
    · rw [if_pos hdn] at hne' ⊢
      rcases h3 c hc with q | ⟨q1, q2, q3⟩
      · have := (h1 d hd1).1; omega
      · have e1 := h5 c hc hne'
        have e2 := h5 d hd1 (by rw [hdn, q3]; omega)
        rw [hdn, q3] at e2
        rw [hdn]
        omega
    · rw [if_neg hdn] at hne' ⊢
      exact h5 d hd1 hne'

end DegLists

/-- `pushDegree` on lists. -/
theorem pushDegree_of {n : Int} {listed : Int → Prop} {score prev next : Int → Int} (cols : Mem ColamdCol) (head : Mem Int)
    (h : DegLists n listed head.get score prev next) {c s : Int} (hc : ¬ listed c) (hc0 : 0 ≤ c) (hcn : c < n) (hs0 : 0 ≤ s) (hsn : s ≤ n)
    (hn : n ≤ cols.size) (hh : n < head.size) :
    ∃ cols' head', pushDegree cols head c s = .ok (cols', head') ∧ cols'.size = cols.size ∧ head'.size = head.size ∧
      (∀ i, head'.get i = if i = s then c else head.get i) ∧
      (∀ d, cols'.get d = if d = c then { cols.get c with prev := -1, next := head.get s }
        else if d = head.get s ∧ head.get s ≠ -1 then { cols.get d with prev := c } else cols.get d) := by
  unfold pushDegree
  rw [Mem.read_of hs0 (by omega), ok_bind, Mem.modify_of _ hc0 (by omega), ok_bind]
  by_cases hne : head.get s = -1
  · rw [if_neg (by simp [hne])]
    simp only [pure_eq_ok, ok_bind]
    rw [Mem.write_of _ hs0 (by omega), ok_bind]
    refine ⟨_, _, rfl, rfl, rfl, fun i => by rw [Mem.put_get], fun d => ?_⟩
    rw [Mem.put_get]
    simp [hne]
  · rw [if_pos hne]
    rcases h.headOf s hs0 hsn with q | ⟨q1, q2, q3⟩
    · exact absurd q hne
    · have hr := h.range _ q1
      rw [Mem.modify_of _ hr.1 (by simp only [Mem.put_size]; omega)]
      simp only [ok_bind]
      rw [Mem.write_of _ hs0 (by omega), ok_bind]
      refine ⟨_, _, rfl, rfl, rfl, fun i => by rw [Mem.put_get], fun d => ?_⟩
      have hne' : head.get s ≠ c := fun he => hc (he ▸ q1)
      rw [Mem.put_get]
      by_cases h1 : d = head.get s
      · have hdc : d ≠ c := by rw [h1]; exact hne'
        rw [if_pos h1, if_neg hdc, if_pos ⟨h1, hne⟩, Mem.put_get_ne _ _ hne', h1]
      · rw [if_neg h1, Mem.put_get]
        simp [h1]

/-- `unlinkColumn` on lists. -/
theorem unlinkColumn_of {n : Int} {listed : Int → Prop} {score prev next : Int → Int} (cols : Mem ColamdCol) (head : Mem Int)
    (h : DegLists n listed head.get score prev next) {c : Int} (x : ColamdCol) (hc : listed c) (hx1 : x.score = score c) (hx2 : x.prev = prev c)
    (hx3 : x.next = next c) (hn : n ≤ cols.size) (hh : n < head.size) :
    ∃ cols' head', unlinkColumn cols head x = .ok (cols', head') ∧ cols'.size = cols.size ∧ head'.size = head.size ∧
      (∀ i, head'.get i = if prev c = -1 ∧ i = score c then next c else head.get i) ∧
      (∀ d, cols'.get d = { cols.get d with
        prev := if d = next c ∧ next c ≠ -1 then prev c else (cols.get d).prev,
        next := if d = prev c ∧ prev c ≠ -1 then next c else (cols.get d).next }) := by
  have hc0 := h.range c hc
  have hnn : next c ≠ -1 → 0 ≤ next c ∧ next c < n := fun hne => by
    rcases h.nextOf c hc with q | ⟨q, _⟩
    · exact absurd q hne
    · have := h.range _ q; exact ⟨this.1, this.2.1⟩
  unfold unlinkColumn
  rw [hx1, hx2, hx3]
  by_cases hp : prev c = -1
  · rw [if_pos hp, Mem.write_of _ hc0.2.2.1 (by omega), ok_bind]
    by_cases hne : next c = -1
    · rw [if_neg (by simp [hne])]
      simp only [pure_eq_ok, ok_bind]
      refine ⟨_, _, rfl, rfl, rfl, fun i => by rw [Mem.put_get]; simp [hp], fun d => by simp [hp, hne]⟩
    · rw [if_pos hne, Mem.modify_of _ (hnn hne).1 (by have := (hnn hne).2; omega), ok_bind]
      refine ⟨_, _, rfl, rfl, rfl, fun i => by rw [Mem.put_get]; simp [hp], fun d => ?_⟩
      rw [Mem.put_get]
      by_cases h1 : d = next c
      · simp [h1, hne, hp]
      · simp [h1, hp]
  · rw [if_neg hp]
    have hpr : 0 ≤ prev c ∧ prev c < n := by
      rcases h.prevOf c hc with q | ⟨q, _⟩
      · exact absurd q.1 hp
      · have := h.range _ q; exact ⟨this.1, this.2.1⟩
    rw [Mem.modify_of _ hpr.1 (by omega), ok_bind]
    by_cases hne : next c = -1
    · rw [if_neg (by simp [hne])]
      simp only [pure_eq_ok, ok_bind]
      refine ⟨_, _, rfl, rfl, rfl, fun i => by simp [hp], fun d => ?_⟩
      rw [Mem.put_get]
      by_cases h1 : d = prev c
      · simp [h1, hne, hp]
      · simp [h1, hne]
    · rw [if_pos hne, Mem.modify_of _ (hnn hne).1 (by simp only [Mem.put_size]; have := (hnn hne).2; omega), ok_bind]
      refine ⟨_, _, rfl, rfl, rfl, fun i => by simp [hp], fun d => ?_⟩
      simp only [Mem.put_get]
      by_cases h1 : d = next c
      · subst h1
        by_cases h2 : next c = prev c
        · rw [if_pos rfl, if_pos h2]; simp [h2, hp]
        · simp [h2, hne]
      · by_cases h2 : d = prev c
        · subst h2; simp [h1, hp]
        · simp [h1, h2]

/-- The search for the first non-empty list. -/
theorem findScore_of {n : Int} {listed : Int → Prop} {score prev next : Int → Int} (head : Mem Int)
    (h : DegLists n listed head.get score prev next) (hh : n < head.size) (hsn : n < 2 ^ 31) {c : Int} (hc : listed c) (fuel : Nat) (m : Int) (hm0 : 0 ≤ m)
    (hm : ∀ d, listed d → m ≤ score d) (hf : n - m < fuel) :
    ∃ m', findScore n head fuel m = .ok m' ∧ m ≤ m' ∧ m' ≤ n ∧ (∀ d, listed d → m' ≤ score d) ∧ listed (head.get m') ∧
      score (head.get m') = m' ∧ prev (head.get m') = -1 := by
  induction fuel generalizing m with
  | zero =>
    have := hm c hc
    have := (h.range c hc).2.2.2
    omega
  | succ fuel ih =>
    have h1 := hm c hc
    have h2 := (h.range c hc).2.2.2
    unfold findScore
    rw [Mem.read_of hm0 (by omega), ok_bind]
    by_cases hcond : head.get m = -1 ∧ m < n
    · rw [if_pos hcond, i32_of (by omega) (by omega), ok_bind]
      obtain ⟨m', e1, e2, e3⟩ := ih (m + 1) (by omega) (fun d hd => by
        have := hm d hd
        rcases eq_or_ne (score d) m with he | hne
        · exact absurd (he ▸ hcond.1) (h.head_ne hd)
        · omega) (by omega)
      exact ⟨m', e1, by omega, e3⟩
    · rw [if_neg hcond]
      refine ⟨m, rfl, le_refl _, by omega, hm, ?_⟩
      rcases h.headOf m hm0 (by omega) with q | q
      · exfalso
        have : m = n := by omega
        have he : score c = m := by omega
        exact h.head_ne hc (he ▸ q)
      · exact q

end Fiksi.Amd
