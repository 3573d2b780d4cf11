import Verif.Proofs.AmdDifference
import Verif.Proofs.AmdGroups
/-!
# The scores and the hash buckets
-/
namespace Fiksi.Amd
open Classical

section
variable {m n top pfree : Int} {R : Int → ColamdRow} {C : Int → ColamdCol} {A : Int → Int} {P : Int}

/-- The rows of column `d` that are still in use. -/
noncomputable def keptRows (R : Int → ColamdRow) (C : Int → ColamdCol) (A : Int → Int) (d : Int) : Finset Int :=
  ((Finset.Ico (C d).start ((C d).start + (C d).length)).image A).filter (fun r => 0 ≤ (R r).mark)

theorem mem_keptRows {d r : Int} : r ∈ keptRows R C A d ↔ InCol C A d r ∧ 0 ≤ (R r).mark := by
  simp only [keptRows, Finset.mem_filter, Finset.mem_image, Finset.mem_Ico, InCol, Has, and_assoc]

/-- The new score of column `d` before the pivot row is counted. -/
noncomputable def keptScore (n tag : Int) (R : Int → ColamdRow) (C : Int → ColamdCol) (A : Int → Int) (d : Int) : Int :=
  min n (∑ r ∈ keptRows R C A d, ((R r).mark - tag))

/-- The entries of one column. -/
theorem hashEntries_of {rows : Mem ColamdRow} (hm : m ≤ rows.size) (tag : Int) (hn : 0 ≤ n) (a : Mem Int) {d : Int} (hl : 0 ≤ (C d).length) (h0 : 0 ≤ (C d).start)
    (hs : (C d).start + (C d).length ≤ a.size) (he : ∀ i, (C d).start ≤ i → i < (C d).start + (C d).length → 0 ≤ a.get i ∧ a.get i < m)
    (hd : Distinct a.get (C d).start (C d).length) (ht : ∀ r ∈ keptRows rows.get C a.get d, tag ≤ (rows.get r).mark ∧ (rows.get r).mark ≤ tag + n) (hsm : 2 * n < 2 ^ 31) :
    ∃ a' p' hash, (span (C d).start (C d).length.toNat).foldlM (hashEntry n tag rows) (a, (C d).start, 0, 0) =
      .ok (a', p', hash, keptScore n tag rows.get C a.get d) ∧ a'.size = a.size ∧ p' ≤ (C d).start + (C d).length ∧
      Holds a'.get (C d).start (p' - (C d).start) (keptRows rows.get C a.get d) ∧
      ∀ i, i < (C d).start ∨ p' ≤ i → a'.get i = a.get i := by
  set start := (C d).start with hstart
  set len := (C d).length with hlen
  let K : Int → Finset Int := fun x => ((Finset.Ico start x).image a.get).filter (fun r => 0 ≤ (rows.get r).mark)
  have hK : K (start + len) = keptRows rows.get C a.get d := rfl
  have hKsub : ∀ x, x ≤ start + len → K x ⊆ K (start + len) := fun x hx =>
    Finset.filter_subset_filter _ (Finset.image_subset_image (Finset.Ico_subset_Ico_right hx))
  obtain ⟨⟨a', p', hash, sc⟩, h1, h2⟩ := foldlM_span (fun x (s : Mem Int × Int × Nat × Int) => s.1.size = a.size ∧ s.2.1 ≤ x ∧
      Holds s.1.get start (s.2.1 - start) (K x) ∧ s.2.2.2 = min n (∑ r ∈ K x, ((rows.get r).mark - tag)) ∧
      ∀ i, i < start ∨ s.2.1 ≤ i → s.1.get i = a.get i)
    (hashEntry n tag rows) start (start + len) len.toNat (by omega) (a, start, 0, 0) ⟨rfl, le_refl _, by
      simp only [K, Finset.Ico_self, Finset.image_empty, Finset.filter_empty, sub_self]
      exact Holds.empty _ _, by
      simp only [K, Finset.Ico_self, Finset.image_empty, Finset.filter_empty, Finset.sum_empty]
      omega, fun _ _ => rfl⟩ (by
    rintro x hx1 hx2 ⟨b, p, hash, sc⟩ ⟨hb, hpx, hc, hsc, hk⟩
    simp only at hb hpx hc hk hsc
    have e : b.get x = a.get x := hk x (Or.inr hpx)
    obtain ⟨hr1, hr2⟩ := he x hx1 hx2
    have hp0 := hc.2.1
    have hI : Finset.Ico start (x + 1) = insert x (Finset.Ico start x) := by
      ext i; simp only [Finset.mem_Ico, Finset.mem_insert]; omega
    unfold hashEntry
    simp only
    rw [Mem.read_of (by omega) (by omega), ok_bind, e, Mem.read_of hr1 (by omega), ok_bind]
    by_cases hlive : (rows.get (a.get x)).mark < 0
    · rw [if_pos hlive]
      have hset : K (x + 1) = K x := by
        simp only [K, hI, Finset.image_insert, Finset.filter_insert, if_neg (not_le.2 hlive)]
      refine ⟨_, rfl, hb, by simp only; omega, ?_, ?_, fun i hi => hk i hi⟩
      · rw [hset]; exact hc
      · rw [hset]; exact hsc
    · rw [if_neg hlive, Mem.write_of _ (by omega) (by omega), ok_bind]
      have hsum0 : 0 ≤ ∑ r ∈ K x, ((rows.get r).mark - tag) := Finset.sum_nonneg fun r hr => by
        have := ht r (by rw [← hK]; exact hKsub x (by omega) hr)
        omega
      have hset : K (x + 1) = insert (a.get x) (K x) := by
        simp only [K, hI, Finset.image_insert, Finset.filter_insert, if_pos (not_lt.1 hlive)]
      have hnot : a.get x ∉ K x := by
        simp only [K, Finset.mem_filter, Finset.mem_image, Finset.mem_Ico, not_and, forall_exists_index, and_imp]
        intro i hi1 hi2 hi3
        exact absurd hi3 (hd i x hi1 hi2 hx2)
      obtain ⟨htag, htag'⟩ := ht (a.get x) (by
        rw [← hK]
        exact hKsub (x + 1) (by omega) (by rw [hset]; exact Finset.mem_insert_self _ _))
      rw [i32_of (by omega) (by omega), ok_bind, i32_of (by omega) (by omega), ok_bind]
      refine ⟨_, rfl, hb, by simp only; omega, ?_, ?_, fun i hi => ?_⟩
      · rw [hset]
        simp only
        rw [show p + 1 - start = (p - start) + 1 by omega]
        refine hc.push hnot (fun i h1 h2 => ?_) ?_
        · rw [Mem.put_get_ne _ _ (by omega)]
        · rw [show start + (p - start) = p by omega, Mem.put_get_self]
      · rw [hset, Finset.sum_insert hnot]
        simp only
        rw [hsc]
        by_cases hlt : min n (∑ r ∈ K x, ((rows.get r).mark - tag)) + ((rows.get (a.get x)).mark - tag) < n
        · rw [if_pos hlt]; omega
        · rw [if_neg hlt]; omega
      · simp only
        simp only at hi
        rw [Mem.put_get_ne _ _ (by omega)]
        exact hk i (by omega))
  simp only at h2
  obtain ⟨g1, g2, g3, g4, g5⟩ := h2
  refine ⟨a', p', hash, ?_, g1, g2, g3, g5⟩
  rw [h1, g4]
  rfl

/-- The first column of a bucket. -/
def firstOf : List Int → Int
  | [] => -1
  | c :: _ => c

/-- The columns of a bucket are linked by `next`. -/
def LinkedBy (next : Int → Int) : List Int → Prop
  | [] => True
  | c :: l => next c = firstOf l ∧ LinkedBy next l

theorem LinkedBy.congr {next next' : Int → Int} {l : List Int} (h : LinkedBy next l) (he : ∀ c ∈ l, next' c = next c) : LinkedBy next' l := by
  induction l with
  | nil => trivial
  | cons c l ih => exact ⟨by rw [he c (by simp)]; exact h.1, ih h.2 (fun d hd => he d (by simp [hd]))⟩

/-- The hash buckets are held by the heads of the degree lists. -/
structure Buckets (n : Int) (H0 : Int → Int) (L : Int → Prop) (M : Int → Prop) (bucket : Int → List Int) (head : Int → Int) (C : Int → ColamdCol) : Prop where
  head : ∀ h, 0 ≤ h → h ≤ n → head h = if H0 h = -1 then -(firstOf (bucket h)) - 2 else H0 h
  headPrev : ∀ h, 0 ≤ h → h ≤ n → H0 h ≠ -1 → (C (H0 h)).prev = firstOf (bucket h)
  linked : ∀ h, LinkedBy (fun c => (C c).next) (bucket h)
  prev : ∀ h c, c ∈ bucket h → (C c).prev = h
  nodup : ∀ h, (bucket h).Nodup
  hash : ∀ h c, c ∈ bucket h → 0 ≤ h ∧ h ≤ n
  member : ∀ h c, c ∈ bucket h → M c ∧ ¬ L c ∧ 0 ≤ c ∧ c < n

theorem pushHash_of {H0 prev0 next0 score0 : Int → Int} {L M M' : Int → Prop} (hlist : DegLists n L H0 score0 prev0 next0) {bucket : Int → List Int} (cols : Mem ColamdCol) (head : Mem Int)
    (hb : Buckets n H0 L M bucket head.get cols.get) (hn : n ≤ cols.size) (hh : n < head.size) {d h : Int} (hd0 : 0 ≤ d) (hdn : d < n) (hdL : ¬ L d) (hdM : ¬ M d)
    (hM : ∀ c, M' c ↔ M c ∨ c = d) (h0 : 0 ≤ h) (hhn : h ≤ n) (hsn : 4 * n + 8 < 2 ^ 31) :
    ∃ cols' head', pushHash cols head d h = .ok (cols', head') ∧ cols'.size = cols.size ∧ head'.size = head.size ∧
      Buckets n H0 L M' (fun i => if i = h then d :: bucket h else bucket i) head'.get cols'.get ∧
      (∀ c, cols'.get c = { cols.get c with prev := (cols'.get c).prev, next := (cols'.get c).next }) ∧
      (∀ c, c ≠ d → (cols'.get c).next = (cols.get c).next) ∧
      (∀ c, c ≠ d → (∀ i, 0 ≤ i → i ≤ n → H0 i ≠ c) → (cols'.get c).prev = (cols.get c).prev) := by
  obtain ⟨b1, b2, b3, b4, b5, b6, b7⟩ := hb
  have hdb : ∀ i, d ∉ bucket i := fun i hi => hdM (b7 i d hi).1
  have hHd : ∀ i, 0 ≤ i → i ≤ n → H0 i ≠ d := fun i i0 i1 he => by
    rcases hlist.headOf i i0 i1 with q | ⟨q, _⟩
    · omega
    · exact hdL (he ▸ q)
  have hHinj : ∀ i, 0 ≤ i → i ≤ n → H0 i ≠ -1 → H0 i = H0 h → i = h := fun i i0 i1 hne he => by
    rcases hlist.headOf i i0 i1 with q | ⟨_, q, _⟩
    · exact absurd q hne
    · rcases hlist.headOf h h0 hhn with p | ⟨_, p, _⟩
      · rw [he] at hne; exact absurd p hne
      · rw [he, p] at q; exact q.symm
  have hHb : ∀ i, 0 ≤ i → i ≤ n → ∀ j, H0 i ∉ bucket j := fun i i0 i1 j hj => by
    rcases hlist.headOf i i0 i1 with q | ⟨q, _⟩
    · rw [q] at hj
      have := (b7 j _ hj).2.2.1
      omega
    · exact (b7 j _ hj).2.1 q
  have hfirst' : firstOf (bucket h) < n := by
    cases hbk : bucket h with
    | nil => simp only [firstOf]; omega
    | cons c l => exact (b7 h c (by rw [hbk]; simp)).2.2.2
  have hfirst : -1 ≤ firstOf (bucket h) := by
    cases hbk : bucket h with
    | nil => simp [firstOf]
    | cons c l =>
      have := (b7 h c (by rw [hbk]; simp)).2.2.1
      simp only [firstOf]
      omega
  -- what the new buckets need
  have key : ∀ (C' : Int → ColamdCol) (head' : Int → Int), C' d = { cols.get d with next := firstOf (bucket h), prev := h } →
      (∀ c, c ≠ d → C' c = { cols.get c with prev := (C' c).prev }) →
      (∀ c, c ≠ d → (∀ i, 0 ≤ i → i ≤ n → H0 i ≠ c) → (C' c).prev = (cols.get c).prev) →
      (∀ i, 0 ≤ i → i ≤ n → H0 i ≠ -1 → i ≠ h → (C' (H0 i)).prev = (cols.get (H0 i)).prev) → (H0 h ≠ -1 → (C' (H0 h)).prev = d) →
      (∀ i, i ≠ h → head' i = head.get i) → (head' h = if H0 h = -1 then -d - 2 else H0 h) →
      Buckets n H0 L M' (fun i => if i = h then d :: bucket h else bucket i) head' C' := by
    intro C' head' k1 k2 k3 k4 k5 k6 k7
    have hnext : ∀ c, c ≠ d → (C' c).next = (cols.get c).next := fun c hc => by rw [k2 c hc]
    have hmem : ∀ i c, c ∈ bucket i → c ≠ d := fun i c hc he => hdb i (he ▸ hc)
    have hlk : ∀ i, LinkedBy (fun c => (C' c).next) (bucket i) := fun i => (b3 i).congr (fun c hc => hnext c (hmem i c hc))
    refine ⟨fun i i0 i1 => ?_, fun i i0 i1 hne => ?_, fun i => ?_, fun i c hc => ?_, fun i => ?_, fun i c hc => ?_, fun i c hc => ?_⟩
    · by_cases hi : i = h
      · subst hi
        rw [k7]
        simp [firstOf]
      · rw [k6 i hi, b1 i i0 i1]
        simp only [hi, if_false]
    · by_cases hi : i = h
      · subst hi
        rw [k5 hne]
        simp [firstOf]
      · rw [k4 i i0 i1 hne hi, b2 i i0 i1 hne]
        simp only [hi, if_false]
    · by_cases hi : i = h
      · simp only [hi, if_true]
        exact ⟨by simp only [k1], hlk h⟩
      · simp only [hi, if_false]
        exact hlk i
    · have hold : ∀ i c, c ∈ bucket i → (C' c).prev = i := fun i c hc => by
        rw [k3 c (hmem i c hc) (fun j j0 j1 he => hHb j j0 j1 i (he ▸ hc))]
        exact b4 i c hc
      by_cases hi : i = h
      · simp only [hi, if_true, List.mem_cons] at hc
        rcases hc with rfl | hc
        · rw [k1, hi]
        · rw [hi]; exact hold h c hc
      · simp only [hi, if_false] at hc
        exact hold i c hc
    · by_cases hi : i = h
      · simp only [hi, if_true, List.nodup_cons]
        exact ⟨hdb h, b5 h⟩
      · simp only [hi, if_false]
        exact b5 i
    · by_cases hi : i = h
      · rw [hi]; exact ⟨h0, hhn⟩
      · simp only [hi, if_false] at hc
        exact b6 i c hc
    · have hold : ∀ i c, c ∈ bucket i → M' c ∧ ¬ L c ∧ 0 ≤ c ∧ c < n := fun i c hc => by
        obtain ⟨q1, q2⟩ := b7 i c hc
        exact ⟨(hM c).2 (Or.inl q1), q2⟩
      by_cases hi : i = h
      · simp only [hi, if_true, List.mem_cons] at hc
        rcases hc with rfl | hc
        · exact ⟨(hM c).2 (Or.inr rfl), hdL, hd0, hdn⟩
        · exact hold h c hc
      · simp only [hi, if_false] at hc
        exact hold i c hc
  unfold pushHash
  rw [Mem.read_of h0 (by omega), ok_bind, b1 h h0 hhn]
  by_cases hne : H0 h = -1
  · rw [if_pos hne, if_neg (by omega), i32_of (by omega) (by omega), ok_bind, i32_of (by omega) (by omega), ok_bind, i32_of (by omega) (by omega), ok_bind,
      i32_of (by omega) (by omega), ok_bind, Mem.write_of _ h0 (by omega), ok_bind, Mem.modify_of _ hd0 (by omega), ok_bind]
    have hc1 : ∀ c, c ≠ d → (cols.put d { cols.get d with next := -(-(firstOf (bucket h)) - 2 + 2), prev := h }).get c = cols.get c := fun c hc => Mem.put_get_ne _ _ hc
    have hc2 : (cols.put d { cols.get d with next := -(-(firstOf (bucket h)) - 2 + 2), prev := h }).get d = { cols.get d with next := firstOf (bucket h), prev := h } := by
      rw [Mem.put_get_self, show -(-(firstOf (bucket h)) - 2 + 2) = firstOf (bucket h) by omega]
    refine ⟨_, _, rfl, rfl, rfl, key _ _ hc2 (fun c hc => by rw [hc1 c hc]) (fun c hc _ => by rw [hc1 c hc]) (fun i i0 i1 _ _ => by rw [hc1 _ (hHd i i0 i1)])
      (fun hq => absurd hne hq) (fun i hi => Mem.put_get_ne _ _ hi) ?_, fun c => ?_, fun c hc => by rw [hc1 c hc], fun c hc _ => by rw [hc1 c hc]⟩
    · rw [Mem.put_get_self, if_pos hne]; ring
    · rcases eq_or_ne c d with rfl | hcd
      · rw [hc2]
      · rw [hc1 c hcd]
  · rw [if_neg hne]
    obtain ⟨q1, q2, q3⟩ := (hlist.headOf h h0 hhn).resolve_left hne
    obtain ⟨r1, r2, _⟩ := hlist.range _ q1
    rw [if_pos (by omega), Mem.read_of r1 (by omega), ok_bind, Mem.write_of _ r1 (by omega), ok_bind, Mem.modify_of _ hd0 (by rw [Mem.put_size]; omega), ok_bind]
    have hdh := hHd h h0 hhn
    rw [Mem.put_get_ne _ _ (Ne.symm hdh), b2 h h0 hhn hne]
    set cols1 := cols.put (H0 h) { cols.get (H0 h) with prev := d } with hcols1
    have hc1 : ∀ c, c ≠ d → (cols1.put d { cols.get d with next := firstOf (bucket h), prev := h }).get c =
        if c = H0 h then { cols.get c with prev := d } else cols.get c := fun c hc => by
      rw [Mem.put_get_ne _ _ hc, hcols1, Mem.put_get]
      by_cases hq : c = H0 h
      · rw [if_pos hq, if_pos hq, hq]
      · rw [if_neg hq, if_neg hq]
    have hc2 : (cols1.put d { cols.get d with next := firstOf (bucket h), prev := h }).get d = { cols.get d with next := firstOf (bucket h), prev := h } := Mem.put_get_self _ _ _
    have hc3 : ∀ c, c ≠ d → (∀ i, 0 ≤ i → i ≤ n → H0 i ≠ c) → (cols1.put d { cols.get d with next := firstOf (bucket h), prev := h }).get c = cols.get c := fun c hc hq => by
      rw [hc1 c hc, if_neg (Ne.symm (hq h h0 hhn))]
    have hc4 : ∀ c, c ≠ d → (cols1.put d { cols.get d with next := firstOf (bucket h), prev := h }).get c =
        { cols.get c with prev := ((cols1.put d { cols.get d with next := firstOf (bucket h), prev := h }).get c).prev } := fun c hc => by
      rw [hc1 c hc]
      by_cases hq : c = H0 h
      · rw [if_pos hq]
      · rw [if_neg hq]
    refine ⟨_, _, rfl, rfl, rfl, key _ _ hc2 hc4 (fun c hc hq => by rw [hc3 c hc hq]) (fun i i0 i1 hi1 hi2 => ?_) (fun _ => by rw [hc1 _ hdh, if_pos rfl])
      (fun i hi => rfl) ?_, fun c => ?_, fun c hc => ?_, fun c hc hq => by rw [hc3 c hc hq]⟩
    · rw [hc1 _ (hHd i i0 i1), if_neg (fun he => hi2 (hHinj i i0 i1 hi1 he))]
    · rw [b1 h h0 hhn, if_neg hne, if_neg hne]
    · rcases eq_or_ne c d with rfl | hcd
      · rw [hc2]
      · rw [hc4 c hcd]
    · rw [hc4 c hc]

theorem keptRows_congr {A' : Int → Int} {d : Int} (h : ∀ i, (C d).start ≤ i → i < (C d).start + (C d).length → A' i = A i) :
    keptRows R C A' d = keptRows R C A d := by
  ext r
  rw [mem_keptRows, mem_keptRows]
  exact and_congr_left fun _ => has_congr h

/-- After the columns of `S`. `C` are the columns, `a0` the array, `H0` the heads at the beginning; `rows` does not change. -/
structure HashInv (n k0 deg0 n2 tag : Int) (R : Int → ColamdRow) (C : Int → ColamdCol) (A : Int → Int) (P : Int) (L : Int → Prop) (H0 : Int → Int)
    (csize hsize : Nat) (a0 : Mem Int) (S : Finset Int) (s : HashState) : Prop where
  csize : s.cols.size = csize
  asize : s.a.size = a0.size
  hsize : s.head.size = hsize
  afar : ∀ i, (∀ d ∈ S, i < (C d).start ∨ (C d).start + (keptRows R C A d).card ≤ i) → s.a.get i = a0.get i
  held : ∀ d ∈ S, Holds s.a.get (C d).start (keptRows R C A d).card (keptRows R C A d)
  k : s.k = k0 + weight C (S.filter (fun d => keptRows R C A d = ∅))
  degree : s.degree = deg0 - weight C (S.filter (fun d => keptRows R C A d = ∅))
  same : ∀ c, c ∉ S → s.cols.get c = { C c with prev := (s.cols.get c).prev, next := (s.cols.get c).next }
  dead : ∀ d ∈ S, keptRows R C A d = ∅ → (s.cols.get d).start = -1 ∧ (s.cols.get d).thickness = (C d).thickness
  kept : ∀ d ∈ S, keptRows R C A d ≠ ∅ → s.cols.get d = { C d with
    length := (keptRows R C A d).card
    score := keptScore n tag R C A d
    prev := (s.cols.get d).prev
    next := (s.cols.get d).next }
  buckets : ∃ bucket, Buckets n H0 L (fun c => c ∈ S ∧ keptRows R C A c ≠ ∅) bucket s.head.get s.cols.get ∧
    ∀ d ∈ S, keptRows R C A d ≠ ∅ → ∃ h, d ∈ bucket h
  next : ∀ c, L c → (s.cols.get c).next = (C c).next
  prev : ∀ c, L c → (∀ i, 0 ≤ i → i ≤ n → H0 i ≠ c) → (s.cols.get c).prev = (C c).prev
  placed : Placed n s.k n2 (fun c => 0 ≤ c ∧ c < n ∧ ((s.cols.get c).start = -1 ∨ c = P)) s.cols.get

theorem hashColumns_of {R0 : Int → ColamdRow} (h : Pattern m n top pfree R0 C A) {rows : Mem ColamdRow} (hm : m ≤ rows.size) {k0 deg0 n2 tag : Int} {P : Int}
    {L : Int → Prop} {H0 : Int → Int} (hlist : DegLists n L H0 (fun c => (C c).score) (fun c => (C c).prev) (fun c => (C c).next))
    {csize hsize : Nat} (hn : n ≤ csize) (hh : n < hsize) {Q : Finset Int} (hQ : ∀ d ∈ Q, AliveCol n C d ∧ ¬ L d ∧ d ≠ P ∧ 0 ≤ (C d).thickness)
    (hk0 : 0 ≤ k0) (hbud : k0 + weight C Q ≤ n2) (hmark : ∀ d ∈ Q, ∀ r ∈ keptRows rows.get C A d, tag ≤ (rows.get r).mark ∧ (rows.get r).mark ≤ tag + n)
    (hn2 : n2 ≤ n) (hdeg : weight C Q ≤ deg0 ∧ deg0 ≤ n)
    (a0 : Mem Int) {len : Int} (ha : pfree + len ≤ a0.size) (hA : ∀ i, i < pfree → a0.get i = A i) (hrow : Holds a0.get pfree len Q) (s : HashState)
    (inv : HashInv n k0 deg0 n2 tag rows.get C A P L H0 csize hsize a0 ∅ s) :
    ∃ s', (span pfree len.toNat).foldlM (hashColumn n tag rows) s = .ok s' ∧ HashInv n k0 deg0 n2 tag rows.get C A P L H0 csize hsize a0 Q s' := by
  have hl := hrow.2.1
  have ht0 := h.top0
  have htf := h.topFree
  have hn0 := h.cols0
  refine foldlM_holds (fun _ S s => HashInv n k0 deg0 n2 tag rows.get C A P L H0 csize hsize a0 S s) _ hrow s inv ?_
  rintro x S s hx1 hx2 hSQ hxQ hxS ⟨i1, i2, i3, i4, i5, i6, i7, i8, i9, i10, ⟨bucket, i11, i12⟩, i13, i14, i15⟩
  set d := a0.get x with hdx
  obtain ⟨hd, hdL, hdP, hdt⟩ := hQ d hxQ
  have hd0 := hd.1
  have hdn := hd.2.1
  have hds := hd.2.2
  obtain ⟨hl0, hlt⟩ := h.colLen d hd
  have hcd := i8 d hxS
  have hcst : (s.cols.get d).start = (C d).start := by rw [hcd]
  have hcl : (s.cols.get d).length = (C d).length := by rw [hcd]
  have hct : (s.cols.get d).thickness = (C d).thickness := by rw [hcd]
  have hlen : ∀ e ∈ Q, ((keptRows rows.get C A e).card : Int) ≤ (C e).length := fun e he => by
    have hsub : keptRows rows.get C A e ⊆ (Finset.Ico (C e).start ((C e).start + (C e).length)).image A := Finset.filter_subset _ _
    have h1 := Finset.card_le_card hsub
    have h2 := Finset.card_image_le (s := Finset.Ico (C e).start ((C e).start + (C e).length)) (f := A)
    have h3 := (h.colLen e (hQ e he).1).1
    rw [Int.card_Ico] at h2
    omega
  have hax : s.a.get x = d := by
    rw [i4 x]
    intro e he
    have := (h.colLen e (hQ e (hSQ he)).1).2
    have := hlen e (hSQ he)
    right; omega
  have harea : ∀ i, (C d).start ≤ i → i < (C d).start + (C d).length → s.a.get i = A i := by
    intro i h1 h2
    rw [i4 i, hA i (by omega)]
    intro e he
    have hne : e ≠ d := fun q => hxS (q ▸ he)
    have := h.colDisj (hQ e (hSQ he)).1 hd hne
    have := hlen e (hSQ he)
    omega
  have hK := keptRows_congr (R := rows.get) harea
  obtain ⟨a', p', hash, e1, e2, e3, e4, e5⟩ := hashEntries_of (n := n) (C := C) (d := d) hm tag hn0 s.a hl0 hds (by omega)
    (fun i h1 h2 => by
      rw [harea i h1 h2]
      have := h.entryRow hd h1 h2
      exact ⟨this.1, this.2.1⟩) ((h.colInj d hd).congr harea) (by rw [hK]; exact hmark d hxQ) (by have := h.small; omega)
  have hscore : keptScore n tag rows.get C s.a.get d = keptScore n tag rows.get C A d := by unfold keptScore; rw [hK]
  rw [hK] at e4
  rw [hscore] at e1
  have hcard := e4.card
  have hne' : ∀ e ∈ S, e ≠ d := fun e he q => hxS (q ▸ he)
  have hafar : ∀ i, (∀ e ∈ insert d S, i < (C e).start ∨ (C e).start + (keptRows rows.get C A e).card ≤ i) → a'.get i = a0.get i := by
    intro i hi
    rw [e5 i (by have := hi d (Finset.mem_insert_self _ _); omega)]
    exact i4 i (fun e he => hi e (Finset.mem_insert_of_mem he))
  have hheld : ∀ e ∈ insert d S, Holds a'.get (C e).start (keptRows rows.get C A e).card (keptRows rows.get C A e) := by
    intro e he
    rw [Finset.mem_insert] at he
    rcases he with rfl | he
    · rw [← hcard]; exact e4
    · have he0 := i5 e he
      have := hlen e (hSQ he)
      refine he0.congr (fun i h1 h2 => e5 i ?_)
      have := h.colDisj (hQ e (hSQ he)).1 hd (hne' e he)
      omega
  unfold hashColumn
  rw [Mem.read_of (by omega) (by omega), ok_bind, hax, Mem.read_of hd0 (by omega), ok_bind, hcst, hcl, e1, ok_bind]
  have hw0 : 0 ≤ weight C (S.filter (fun d => keptRows rows.get C A d = ∅)) :=
    Finset.sum_nonneg fun e he => (hQ e (hSQ (Finset.mem_filter.1 he).1)).2.2.2
  obtain ⟨_, hsn, hsf⟩ := h.small
  have hlend := hlen d hxQ
  simp only
  rw [i32_of (by omega) (by omega), ok_bind]
  by_cases hemp : keptRows rows.get C A d = ∅
  · have hp0 : p' - (C d).start = 0 := by rw [hcard, hemp]; rfl
    have hfil : (insert d S).filter (fun d => keptRows rows.get C A d = ∅) = insert d (S.filter (fun d => keptRows rows.get C A d = ∅)) := by
      rw [Finset.filter_insert, if_pos hemp]
    have hw : weight C ((insert d S).filter (fun d => keptRows rows.get C A d = ∅)) = (C d).thickness + weight C (S.filter (fun d => keptRows rows.get C A d = ∅)) := by
      rw [hfil]
      exact weight_insert (fun q => hxS (Finset.mem_filter.1 q).1)
    have hle : weight C ((insert d S).filter (fun d => keptRows rows.get C A d = ∅)) ≤ weight C Q :=
      weight_mono ((Finset.filter_subset _ _).trans (Finset.insert_subset hxQ hSQ)) (fun e he => (hQ e he).2.2.2)
    rw [if_pos hp0, hct, i32_of (by omega) (by omega), ok_bind, Mem.write_of _ hd0 (by omega), ok_bind, i32_of (by omega) (by omega), ok_bind]
    set cols' := s.cols.put d { s.cols.get d with length := 0, start := -1, score := s.k, thickness := (C d).thickness } with hcols'
    have hc1 : cols'.get d = { s.cols.get d with length := 0, start := -1, score := s.k, thickness := (C d).thickness } := Mem.put_get_self _ _ _
    have hc2 : ∀ c, c ≠ d → cols'.get c = s.cols.get c := fun c hc => Mem.put_get_ne _ _ hc
    have hLd : ∀ c, L c → c ≠ d := fun c hc q => hdL (q ▸ hc)
    have hHd : ∀ i, 0 ≤ i → i ≤ n → H0 i ≠ d := fun i i0 i1 he => by
      rcases hlist.headOf i i0 i1 with q | ⟨q, _⟩
      · omega
      · exact hdL (he ▸ q)
    have hweight0 : 0 ≤ weight C (S.filter (fun d => keptRows rows.get C A d = ∅)) :=
      Finset.sum_nonneg fun e he => (hQ e (hSQ (Finset.mem_filter.1 he).1)).2.2.2
    refine ⟨_, rfl, i1, by rw [← i2]; exact e2, i3, hafar, hheld, ?_, ?_, fun c hc => ?_, fun c hc hcK => ?_, fun c hc hcK => ?_, ⟨bucket, ?_, fun c hc hcK => ?_⟩,
      fun c hc => ?_, fun c hc hcH => ?_, ?_⟩
    · simp only; rw [hw, i6]; ring
    · simp only; rw [hw, i7]; ring
    · rw [Finset.mem_insert, not_or] at hc
      simp only
      rw [hc2 c hc.1]
      exact i8 c hc.2
    · rw [Finset.mem_insert] at hc
      simp only
      rcases eq_or_ne c d with rfl | hne
      · rw [hc1]
        exact ⟨rfl, rfl⟩
      · rw [hc2 c hne]
        exact i9 c (hc.resolve_left hne) hcK
    · rw [Finset.mem_insert] at hc
      have hne : c ≠ d := fun q => hcK (q ▸ hemp)
      simp only
      rw [hc2 c hne]
      exact i10 c (hc.resolve_left hne) hcK
    · obtain ⟨b1, b2, b3, b4, b5, b6, b7⟩ := i11
      have hmd : ∀ i c, c ∈ bucket i → c ≠ d := fun i c hc q => hxS (q ▸ (b7 i c hc).1.1)
      refine ⟨b1, fun i i0 i1 hi => ?_, fun i => ?_, fun i c hc => ?_, b5, b6, fun i c hc => ?_⟩
      · simp only; rw [hc2 _ (hHd i i0 i1)]; exact b2 i i0 i1 hi
      · refine (b3 i).congr (fun c hc => ?_)
        simp only
        rw [hc2 _ (hmd i c hc)]
      · simp only
        rw [hc2 _ (hmd i c hc)]
        exact b4 i c hc
      · obtain ⟨q1, q2⟩ := b7 i c hc
        exact ⟨⟨Finset.mem_insert_of_mem q1.1, q1.2⟩, q2⟩
    · rw [Finset.mem_insert] at hc
      have hne : c ≠ d := fun q => hcK (q ▸ hemp)
      exact i12 c (hc.resolve_left hne) hcK
    · simp only
      rw [hc2 c (hLd c hc)]
      exact i13 c hc
    · simp only
      rw [hc2 c (hLd c hc)]
      exact i14 c hc hcH
    · simp only
      refine i15.push (c := d) (by rw [i6]; omega) (by rw [hc1]) (by rw [hc1]; exact hdt) (by rw [i6]; omega)
        (by rw [hc1]) (fun c hc => ?_) (fun c _ hne => by rw [hc2 c hne]; exact ⟨rfl, rfl⟩)
      rcases eq_or_ne c d with rfl | hne
      · exact Or.inr rfl
      · left
        rw [hc2 c hne] at hc
        exact hc
  · have hp0 : ¬ p' - (C d).start = 0 := by
      rw [hcard]
      have := Finset.card_pos.2 (Finset.nonempty_iff_ne_empty.2 hemp)
      omega
    have hfil : (insert d S).filter (fun d => keptRows rows.get C A d = ∅) = S.filter (fun d => keptRows rows.get C A d = ∅) := by
      rw [Finset.filter_insert, if_neg hemp]
    have hHd : ∀ i, 0 ≤ i → i ≤ n → H0 i ≠ d := fun i i0 i1 he => by
      rcases hlist.headOf i i0 i1 with q | ⟨q, _⟩
      · omega
      · exact hdL (he ▸ q)
    have hLd : ∀ c, L c → c ≠ d := fun c hc q => hdL (q ▸ hc)
    rw [if_neg hp0, Mem.write_of _ hd0 (by omega), ok_bind, i32_of (by omega) (by omega), ok_bind, hcard]
    set cols1 := s.cols.put d { s.cols.get d with start := (C d).start, length := ((keptRows rows.get C A d).card : Int), score := keptScore n tag rows.get C A d } with hcols1
    have hc1 : cols1.get d = { s.cols.get d with start := (C d).start, length := ((keptRows rows.get C A d).card : Int), score := keptScore n tag rows.get C A d } := Mem.put_get_self _ _ _
    have hc2 : ∀ c, c ≠ d → cols1.get c = s.cols.get c := fun c hc => Mem.put_get_ne _ _ hc
    have hb1 : Buckets n H0 L (fun c => c ∈ S ∧ keptRows rows.get C A c ≠ ∅) bucket s.head.get cols1.get := by
      obtain ⟨b1, b2, b3, b4, b5, b6, b7⟩ := i11
      have hmd : ∀ i c, c ∈ bucket i → c ≠ d := fun i c hc q => hxS (q ▸ (b7 i c hc).1.1)
      refine ⟨b1, fun i i0 i1 hi => ?_, fun i => ?_, fun i c hc => ?_, b5, b6, b7⟩
      · rw [hc2 _ (hHd i i0 i1)]; exact b2 i i0 i1 hi
      · refine (b3 i).congr (fun c hc => ?_)
        rw [hc2 _ (hmd i c hc)]
      · rw [hc2 _ (hmd i c hc)]
        exact b4 i c hc
    have hmod : hash % (n + 1).toNat < (n + 1).toNat := Nat.mod_lt _ (by omega)
    obtain ⟨cols', head', f1, f2, f3, f4, f5, f6, f7⟩ := pushHash_of (M' := fun c => c ∈ insert d S ∧ keptRows rows.get C A c ≠ ∅) hlist cols1 s.head hb1
      (by rw [hcols1, Mem.put_size]; omega) (by omega) (d := d) (h := ((hash % (n + 1).toNat : Nat) : Int)) hd0 hdn hdL (fun q => hxS q.1)
      (fun c => by
        simp only [Finset.mem_insert]
        constructor
        · rintro ⟨rfl | q, q'⟩
          · exact Or.inr rfl
          · exact Or.inl ⟨q, q'⟩
        · rintro (⟨q, q'⟩ | rfl)
          · exact ⟨Or.inr q, q'⟩
          · exact ⟨Or.inl rfl, hemp⟩) (by omega) (by omega) hsn
    rw [f1, ok_bind]
    have hstart : ∀ c, (cols'.get c).start = (s.cols.get c).start := fun c => by
      rw [f5 c]
      simp only
      rcases eq_or_ne c d with rfl | hne
      · rw [hc1, hcst]
      · rw [hc2 c hne]
    refine ⟨_, rfl, by rw [← i1]; exact f2, by rw [← i2]; exact e2, by rw [← i3]; exact f3, hafar, hheld, ?_, ?_, fun c hc => ?_, fun c hc hcK => ?_, fun c hc hcK => ?_,
      ⟨_, f4, fun c hc hcK => ?_⟩, fun c hc => ?_, fun c hc hcH => ?_, ?_⟩
    · simp only; rw [hfil, i6]
    · simp only; rw [hfil, i7]
    · rw [Finset.mem_insert, not_or] at hc
      simp only
      rw [f5 c, hc2 c hc.1, i8 c hc.2]
    · rw [Finset.mem_insert] at hc
      have hne : c ≠ d := fun q => hemp (q ▸ hcK)
      simp only
      rw [f5 c, hc2 c hne]
      exact i9 c (hc.resolve_left hne) hcK
    · rw [Finset.mem_insert] at hc
      simp only
      rcases eq_or_ne c d with rfl | hne
      · rw [f5 d, hc1, hcd]
      · rw [f5 c, hc2 c hne, i10 c (hc.resolve_left hne) hcK]
    · rw [Finset.mem_insert] at hc
      rcases eq_or_ne c d with rfl | hne
      · exact ⟨((hash % (n + 1).toNat : Nat) : Int), by simp⟩
      · obtain ⟨i, hi⟩ := i12 c (hc.resolve_left hne) hcK
        refine ⟨i, ?_⟩
        by_cases hq : i = ((hash % (n + 1).toNat : Nat) : Int)
        · rw [if_pos hq, ← hq]; exact List.mem_cons_of_mem _ hi
        · rw [if_neg hq]; exact hi
    · simp only
      rw [f6 c (hLd c hc), hc2 c (hLd c hc)]
      exact i13 c hc
    · simp only
      rw [f7 c (hLd c hc) hcH, hc2 c (hLd c hc)]
      exact i14 c hc hcH
    · simp only
      refine i15.congr (fun c hc => ?_) (fun c hc => ?_)
      · rw [hstart c] at hc
        exact hc
      · rw [hstart c] at hc
        have hne : c ≠ d := by
          rintro rfl
          rcases hc.2.2 with q | q
          · omega
          · exact hdP q
        rw [f5 c, hc2 c hne]
        exact ⟨rfl, rfl⟩

end
end Fiksi.Amd
