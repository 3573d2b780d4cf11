import Verif.Proofs.ColCounts
import Mathlib.Tactic.Ring
import Mathlib.Data.Int.Cast.Lemmas
/-!
# The assignment of rows to columns
-/
namespace Fiksi

open Spec

/-- Following `next` from `o` gives the list. -/
def Linked (next : List (Option Nat)) : Option Nat → List Nat → Prop
  | o, [] => o = none
  | o, x :: l => o = some x ∧ ∃ o', next[x]? = some o' ∧ Linked next o' l

theorem Linked.set {next : List (Option Nat)} {t : Nat} {v : Option Nat} : ∀ {l : List Nat} {o : Option Nat}, Linked next o l → t ∉ l →
    Linked (next.set t v) o l
  | [], _, h, _ => h
  | x :: l, _, ⟨h1, o', h2, h3⟩, ht => by
      rw [List.mem_cons, not_or] at ht
      exact ⟨h1, o', by rw [List.getElem?_set_ne ht.1]; exact h2, h3.set ht.2⟩

theorem Linked.append {next : List (Option Nat)} {t : Nat} {v : Option Nat} {l' : List Nat} (hv : Linked next v l') (ht : t ∉ l') :
    ∀ {l : List Nat} {o : Option Nat}, Linked next o l → l.Nodup → l.getLast? = some t → Linked (next.set t v) o (l ++ l')
  | [], _, _, _, hl => by simp at hl
  | [x], o, ⟨h1, o', h2, h3⟩, _, hl => by
      simp only [List.getLast?_singleton, Option.some.injEq] at hl
      subst hl
      exact ⟨h1, v, List.getElem?_set_self (List.getElem?_eq_some_iff.1 h2).1, hv.set ht⟩
  | x :: y :: l, o, ⟨h1, o', h2, h3⟩, hn, hl => by
      rw [List.getLast?_cons_cons] at hl
      rw [List.nodup_cons] at hn
      have hx : t ≠ x := fun h => hn.1 (by rw [← h]; exact List.mem_of_getLast? hl)
      exact ⟨h1, o', by rw [List.getElem?_set_ne hx]; exact h2, Linked.append hv ht h3 hn.2 hl⟩

theorem Linked.head {next : List (Option Nat)} : ∀ {l : List Nat} {o : Option Nat}, Linked next o l → o = l.head?
  | [], _, h => h
  | _ :: _, _, h => h.1

/-- The queues of the columns from `k` on. -/
structure Queues (m n k : Nat) (Q : Nat → List Nat) (st : QueueState) : Prop where
  lenNext : st.next.length = m
  lenHead : st.head.length = n
  lenTail : st.tail.length = n
  lenCount : st.nqueue.length = n
  nodup : ∀ c, k ≤ c → (Q c).Nodup
  disj : ∀ c c' i, k ≤ c → k ≤ c' → i ∈ Q c → i ∈ Q c' → c = c'
  bound : ∀ c, k ≤ c → ∀ i ∈ Q c, i < m
  chain : ∀ c, k ≤ c → c < n → ∃ o, st.head[c]? = some o ∧ Linked st.next o (Q c)
  count : ∀ c, k ≤ c → c < n → st.nqueue[c]? = some ((Q c).length : Int)
  last : ∀ c, k ≤ c → c < n → Q c ≠ [] → st.tail[c]? = some (Q c).getLast?

theorem addAt_of {l : List Int} {i : Nat} {v : Int} (d : Int) (h : l[i]? = some v) : addAt l i d = .ok (l.set i (v + d)) := by
  rw [addAt, idx_of h, ok_bind]
  exact setIdx_of _ (List.getElem?_eq_some_iff.1 h).1

theorem Queues.queueRow {m n : Nat} {Q : Nat → List Nat} {st : QueueState} (h : Queues m n 0 Q st) {i k : Nat} (hk : k < n) (hi : i < m)
    (hfresh : ∀ c, i ∉ Q c) :
    ∃ st', queueRow st i k = .ok st' ∧ Queues m n 0 (fun c => if c = k then i :: Q k else Q c) st' ∧ st'.rowPermutation = st.rowPermutation ∧
      st'.mFictitious = st.mFictitious := by
  obtain ⟨o, ho, hc⟩ := h.chain k (Nat.zero_le _) hk
  have hcount := h.count k (Nat.zero_le _) hk
  have htail : ∃ tail, setTailIfEmpty st.tail st.nqueue k (some i) = .ok tail ∧ tail.length = n ∧
      tail[k]? = some (i :: Q k).getLast? ∧ ∀ c, c ≠ k → tail[c]? = st.tail[c]? := by
    rw [setTailIfEmpty, idx_of hcount, ok_bind]
    by_cases hq : Q k = []
    · rw [hq]
      simp only [List.length_nil, Nat.cast_zero, if_true]
      refine ⟨st.tail.set k (some i), setIdx_of _ (by rw [h.lenTail]; exact hk), by simp [h.lenTail], ?_, ?_⟩
      · rw [List.getElem?_set_self (by rw [h.lenTail]; exact hk)]; rfl
      · intro c hck
        exact List.getElem?_set_ne (Ne.symm hck)
    · have : ¬ ((Q k).length : Int) = 0 := by
        simpa using hq
      rw [if_neg this]
      refine ⟨st.tail, rfl, h.lenTail, ?_, fun _ _ => rfl⟩
      rw [h.last k (Nat.zero_le _) hk hq]
      cases hQ : Q k with
      | nil => exact absurd hQ hq
      | cons x l => rw [List.getLast?_cons_cons]
  obtain ⟨tail, e1, e2, e3, e4⟩ := htail
  rw [Fiksi.queueRow, e1, ok_bind, addAt_of _ hcount, ok_bind, idx_of ho, ok_bind, setIdx_of _ (by rw [h.lenNext]; exact hi), ok_bind,
    setIdx_of _ (by rw [h.lenHead]; exact hk), ok_bind]
  refine ⟨_, rfl, ⟨by simp [h.lenNext], by simp [h.lenHead], e2, by simp [h.lenCount], ?_, ?_, ?_, ?_, ?_, ?_⟩, rfl, rfl⟩
  · intro c _
    by_cases hck : c = k
    · rw [if_pos hck, List.nodup_cons]
      exact ⟨hfresh k, h.nodup k (Nat.zero_le _)⟩
    · rw [if_neg hck]
      exact h.nodup c (Nat.zero_le _)
  · intro c c' x _ _ hx hx'
    by_cases hck : c = k <;> by_cases hck' : c' = k
    · rw [hck, hck']
    · rw [if_pos hck] at hx
      rw [if_neg hck'] at hx'
      rcases List.mem_cons.1 hx with rfl | hx
      · exact absurd hx' (hfresh c')
      · rw [hck]
        exact h.disj k c' x (Nat.zero_le _) (Nat.zero_le _) hx hx'
    · rw [if_neg hck] at hx
      rw [if_pos hck'] at hx'
      rcases List.mem_cons.1 hx' with rfl | hx'
      · exact absurd hx (hfresh c)
      · rw [hck']
        exact h.disj c k x (Nat.zero_le _) (Nat.zero_le _) hx hx'
    · rw [if_neg hck] at hx
      rw [if_neg hck'] at hx'
      exact h.disj c c' x (Nat.zero_le _) (Nat.zero_le _) hx hx'
  · intro c _ x hx
    by_cases hck : c = k
    · rw [if_pos hck] at hx
      rcases List.mem_cons.1 hx with rfl | hx
      · exact hi
      · exact h.bound k (Nat.zero_le _) x hx
    · rw [if_neg hck] at hx
      exact h.bound c (Nat.zero_le _) x hx
  · intro c _ hc'
    by_cases hck : c = k
    · subst hck
      rw [if_pos rfl]
      exact ⟨some i, List.getElem?_set_self (by rw [h.lenHead]; exact hk), rfl, o, List.getElem?_set_self (by rw [h.lenNext]; exact hi),
        hc.set (hfresh c)⟩
    · rw [if_neg hck]
      obtain ⟨o', h1, h2⟩ := h.chain c (Nat.zero_le _) hc'
      exact ⟨o', by rw [List.getElem?_set_ne (Ne.symm hck)]; exact h1, h2.set (hfresh c)⟩
  · intro c _ hc'
    by_cases hck : c = k
    · subst hck
      rw [if_pos rfl, List.getElem?_set_self (by rw [h.lenCount]; exact hk)]
      simp
    · rw [if_neg hck, List.getElem?_set_ne (Ne.symm hck)]
      exact h.count c (Nat.zero_le _) hc'
  · intro c _ hc' hne
    by_cases hck : c = k
    · subst hck
      rw [if_pos rfl]
      exact e3
    · rw [if_neg hck] at hne ⊢
      rw [e4 c hck]
      exact h.last c (Nat.zero_le _) hc' hne

/-- All the rows are put into queues. -/
theorem enqueue_spec {a : SparseStructure} (hwf : WellFormed a) {fc : List (Option Nat)} (hfc : FirstColumns a fc) :
    ∃ Q st, (List.range a.nrows).reverse.foldlM (enqueue fc)
        ⟨a.nrows, List.replicate (a.nrows + a.ncols) none, List.replicate a.nrows (some 0), List.replicate a.ncols none,
          List.replicate a.ncols none, List.replicate a.ncols 0⟩ = .ok st ∧ Queues a.nrows a.ncols 0 Q st ∧
      st.rowPermutation = List.replicate (a.nrows + a.ncols) none ∧ st.mFictitious = a.nrows ∧ ∀ c i, i ∈ Q c ↔ FirstCol a i c := by
  obtain ⟨st, h1, Q, h2, h3, h4, h5⟩ := foldlM_prefix (fun (pre : List Nat) (st : QueueState) => ∃ Q, Queues a.nrows a.ncols 0 Q st ∧
      st.rowPermutation = List.replicate (a.nrows + a.ncols) none ∧ st.mFictitious = a.nrows ∧ ∀ c i, i ∈ Q c ↔ (i ∈ pre ∧ FirstCol a i c))
    (enqueue fc) (List.range a.nrows).reverse
    ⟨a.nrows, List.replicate (a.nrows + a.ncols) none, List.replicate a.nrows (some 0), List.replicate a.ncols none,
          List.replicate a.ncols none, List.replicate a.ncols 0⟩
    ⟨fun _ => [], ⟨by simp, by simp, by simp, by simp, by simp, by simp, by simp, by
      intro c _ hc
      exact ⟨none, by simp [List.getElem?_replicate, hc], rfl⟩, by
      intro c _ hc
      simp [List.getElem?_replicate, hc], by simp⟩, rfl, rfl, by simp⟩ (by
    rintro pre i rest st hl ⟨Q, h1, h2, h3, h4⟩
    have hi : i < a.nrows := by
      have : i ∈ (List.range a.nrows).reverse := by rw [hl]; simp
      simpa using this
    have hnd : (pre ++ i :: rest).Nodup := by
      rw [← hl, List.nodup_reverse]
      exact List.nodup_range
    have hipre : i ∉ pre := by
      rw [List.nodup_append] at hnd
      intro hc
      exact hnd.2.2 i hc i (by simp) rfl
    obtain ⟨o, ho1, ho2⟩ := hfc.2 i hi
    rw [enqueue, idx_of ho1, ok_bind]
    cases o with
    | none =>
      refine ⟨st, rfl, Q, h1, h2, h3, ?_⟩
      intro c x
      rw [h4, List.mem_append, List.mem_singleton]
      constructor
      · rintro ⟨q1, q2⟩
        exact ⟨Or.inl q1, q2⟩
      · rintro ⟨q1 | rfl, q2⟩
        · exact ⟨q1, q2⟩
        · exact absurd ((ho2 c).2 q2) (by simp)
    | some k =>
      have hk := (ho2 k).1 rfl
      obtain ⟨st', e1, e2, e3, e4⟩ := h1.queueRow (hk.1.lt hwf).2 hi (fun c hc => hipre ((h4 c i).1 hc).1)
      refine ⟨st', e1, _, e2, by rw [e3, h2], by rw [e4, h3], ?_⟩
      intro c x
      by_cases hck : c = k
      · rw [if_pos hck, List.mem_cons, h4, List.mem_append, List.mem_singleton, hck]
        constructor
        · rintro (rfl | ⟨q1, q2⟩)
          · exact ⟨Or.inr rfl, hk⟩
          · exact ⟨Or.inl q1, q2⟩
        · rintro ⟨q1 | q1, q2⟩
          · exact Or.inr ⟨q1, q2⟩
          · exact Or.inl q1
      · rw [if_neg hck, h4, List.mem_append, List.mem_singleton]
        constructor
        · rintro ⟨q1, q2⟩
          exact ⟨Or.inl q1, q2⟩
        · rintro ⟨q1 | rfl, q2⟩
          · exact ⟨q1, q2⟩
          · exact absurd (FirstCol_unique q2 hk) hck)
  refine ⟨Q, st, h1, h2, h3, h4, ?_⟩
  intro c i
  rw [h5, List.mem_reverse, List.mem_range]
  exact ⟨fun h => h.2, fun h => ⟨(h.1.lt hwf).1, h⟩⟩

/-! ## The columns -/

/-- What `assignColumn` does to the queues. -/
theorem Queues.assignColumn {parents : List (Option Nat)} {m n k : Nat} {Q : Nat → List Nat} {st : QueueState} (hlen : parents.length = n)
    (hup : ∀ p, parents[k]? = some (some p) → k < p ∧ p < n)
    (h : Queues m n k Q st) (hk : k < n) (hrp : st.rowPermutation.length = m + n) (hmf : st.mFictitious < m + n) :
    ∃ st', assignColumn parents st k = .ok st' ∧
      Queues m n (k + 1) (fun c => if parents[k]? = some (some c) then (Q k).tail ++ Q c else Q c) st' ∧
      st'.rowPermutation = st.rowPermutation.set ((Q k).head?.getD st.mFictitious) (some k) ∧
      st'.mFictitious = if Q k = [] then st.mFictitious + 1 else st.mFictitious := by
  obtain ⟨o, ho, hc⟩ := h.chain k le_rfl hk
  have hcount := h.count k le_rfl hk
  have hhead := hc.head
  have hi : (Q k).head?.getD st.mFictitious < m + n := by
    cases hQ : Q k with
    | nil => exact hmf
    | cons x l =>
      have := h.bound k le_rfl x (by rw [hQ]; simp)
      simp only [List.head?_cons, Option.getD_some]
      omega
  have hmf' : (if o = none then st.mFictitious + 1 else st.mFictitious) = if Q k = [] then st.mFictitious + 1 else st.mFictitious := by
    rw [hhead]
    simp [List.head?_eq_none_iff]
  obtain ⟨op, hop⟩ : ∃ op, parents[k]? = some op := ⟨_, List.getElem?_eq_getElem (by rw [hlen]; exact hk)⟩
  rw [Fiksi.assignColumn, idx_of ho, ok_bind]
  simp only
  rw [hhead] at *
  rw [setIdx_of _ (by rw [hrp]; exact hi), ok_bind, addAt_of _ hcount, ok_bind]
  rw [idx_of (List.getElem?_set_self (by rw [h.lenCount]; exact hk)), ok_bind]
  have hset : ∀ c, k + 1 ≤ c → c < n → (st.nqueue.set k (((Q k).length : Int) + -1))[c]? = some ((Q c).length : Int) := by
    intro c hkc hcn
    rw [List.getElem?_set_ne (by omega)]
    exact h.count c (by omega) hcn
  by_cases hle : ((Q k).length : Int) + -1 ≤ 0
  · rw [if_pos hle]
    have htl : (Q k).tail = [] := by
      cases hQ : Q k with
      | nil => rfl
      | cons x l =>
        rw [hQ] at hle
        simp only [List.length_cons] at hle
        have : l.length = 0 := by omega
        simpa using this
    have hQeq : (fun c => if parents[k]? = some (some c) then (Q k).tail ++ Q c else Q c) = Q := by
      funext c
      rw [htl, List.nil_append, ite_self]
    rw [hQeq]
    refine ⟨_, rfl, ⟨h.lenNext, h.lenHead, h.lenTail, by simp [h.lenCount], fun c hkc => h.nodup c (by omega),
      fun c c' i hkc hkc' => h.disj c c' i (by omega) (by omega), fun c hkc => h.bound c (by omega), fun c hkc => h.chain c (by omega),
      hset, fun c hkc => h.last c (by omega)⟩, rfl, hmf'⟩
  · rw [if_neg hle, idx_of hop, ok_bind]
    cases hQ : Q k with
    | nil => rw [hQ] at hle; simp at hle
    | cons i rest =>
      rw [hQ] at hle hmf' hc
      simp only [List.length_cons, Nat.cast_add, Nat.cast_one] at hle
      have hrest : rest ≠ [] := by
        rintro rfl
        simp at hle
      cases op with
      | none =>
        have hQeq : (fun c => if parents[k]? = some (some c) then (i :: rest).tail ++ Q c else Q c) = Q := by
          funext c
          rw [hop]
          simp
        rw [hQeq]
        rw [hQ] at hset
        refine ⟨_, rfl, ⟨h.lenNext, h.lenHead, h.lenTail, by simp [h.lenCount], fun c hkc => h.nodup c (by omega),
          fun c c' i hkc hkc' => h.disj c c' i (by omega) (by omega), fun c hkc => h.bound c (by omega), fun c hkc => h.chain c (by omega),
          hset, fun c hkc => h.last c (by omega)⟩, rfl, hmf'⟩
      | some p =>
        obtain ⟨hkp, hpn⟩ := hup p hop
        rw [hQ] at hset
        obtain ⟨t, ht⟩ : ∃ t, rest.getLast? = some t := by
          cases hr : rest.getLast? with
          | none => exact absurd (List.getLast?_eq_none_iff.1 hr) hrest
          | some t => exact ⟨t, rfl⟩
        have htrest : t ∈ rest := List.mem_of_getLast? ht
        have hlast : st.tail[k]? = some (some t) := by
          rw [h.last k le_rfl hk (by rw [hQ]; simp), hQ]
          cases rest with
          | nil => exact absurd rfl hrest
          | cons y l => rw [List.getLast?_cons_cons, ht]
        have hnd : (i :: rest).Nodup := by rw [← hQ]; exact h.nodup k le_rfl
        rw [List.nodup_cons] at hnd
        have hti : t ≠ i := fun he => hnd.1 (he ▸ htrest)
        have htm : t < m := h.bound k le_rfl t (by rw [hQ]; simp [htrest])
        have hnotin : ∀ c, k + 1 ≤ c → ∀ x ∈ rest, x ∉ Q c := by
          intro c hkc x hx hxc
          have := h.disj k c x le_rfl (by omega) (by rw [hQ]; simp [hx]) hxc
          omega
        obtain ⟨op', hop1, hop2⟩ := h.chain p (by omega) hpn
        obtain ⟨-, o', ho', hchain⟩ := hc
        have htail : ∃ tail, setTailIfEmpty st.tail (st.nqueue.set k (((i :: rest).length : Int) + -1)) p (some t) = .ok tail ∧ tail.length = n ∧
            tail[k]? = some (some t) ∧ tail[p]? = some (rest ++ Q p).getLast? ∧ ∀ c, c ≠ p → tail[c]? = st.tail[c]? := by
          rw [setTailIfEmpty, idx_of (hset p (by omega) hpn), ok_bind]
          by_cases hq : Q p = []
          · rw [hq]
            simp only [List.length_nil, Nat.cast_zero, if_true]
            refine ⟨st.tail.set p (some t), setIdx_of _ (by rw [h.lenTail]; exact hpn), by simp [h.lenTail], ?_, ?_, ?_⟩
            · rw [List.getElem?_set_ne (by omega)]; exact hlast
            · rw [List.getElem?_set_self (by rw [h.lenTail]; exact hpn), List.append_nil, ht]
            · intro c hcp
              exact List.getElem?_set_ne (Ne.symm hcp)
          · have hne : ¬ ((Q p).length : Int) = 0 := by simpa using hq
            rw [if_neg hne]
            refine ⟨st.tail, rfl, h.lenTail, hlast, ?_, fun _ _ => rfl⟩
            rw [h.last p (by omega) hpn hq, List.getLast?_append_of_ne_nil _ hq]
        obtain ⟨tail, e1, e2, e3, e4, e5⟩ := htail
        rw [moveQueue]
        simp only
        rw [idx_of hlast, ok_bind, e1, ok_bind, idx_of e3, ok_bind]
        simp only
        rw [idx_of hop1, ok_bind, setIdx_of _ (by rw [h.lenNext]; exact htm), ok_bind]
        rw [show (List.head? (i :: rest)).getD st.mFictitious = i from rfl]
        rw [idx_of (by rw [List.getElem?_set_ne hti]; exact ho'), ok_bind, setIdx_of _ (by rw [h.lenHead]; exact hpn), ok_bind,
          idx_of (List.getElem?_set_self (by rw [h.lenCount]; exact hk)), ok_bind, addAt_of _ (hset p (by omega) hpn), ok_bind]
        have hQp : ∀ c, (if parents[k]? = some (some c) then (i :: rest).tail ++ Q c else Q c) = if c = p then rest ++ Q p else Q c := by
          intro c
          rw [hop]
          simp only [Option.some.injEq, List.tail_cons]
          by_cases hcp : c = p
          · subst hcp; simp
          · rw [if_neg hcp, if_neg (fun hh => hcp hh.symm)]
        refine ⟨_, rfl, ⟨by simp [h.lenNext], by simp [h.lenHead], e2, by simp [h.lenCount], ?_, ?_, ?_, ?_, ?_, ?_⟩, rfl, hmf'⟩
        · intro c hkc
          rw [hQp]
          by_cases hcp : c = p
          · rw [if_pos hcp, List.nodup_append]
            refine ⟨hnd.2, h.nodup p (by omega), ?_⟩
            rintro x hx y hy rfl
            exact hnotin p (by omega) x hx hy
          · rw [if_neg hcp]
            exact h.nodup c (by omega)
        · intro c c' x hkc hkc' hx hx'
          rw [hQp] at hx hx'
          by_cases hcp : c = p <;> by_cases hcp' : c' = p
          · rw [hcp, hcp']
          · rw [if_pos hcp, List.mem_append] at hx
            rw [if_neg hcp'] at hx'
            rcases hx with hx | hx
            · exact absurd hx' (hnotin c' hkc' x hx)
            · rw [hcp]; exact h.disj p c' x (by omega) (by omega) hx hx'
          · rw [if_neg hcp] at hx
            rw [if_pos hcp', List.mem_append] at hx'
            rcases hx' with hx' | hx'
            · exact absurd hx (hnotin c hkc x hx')
            · rw [hcp']; exact h.disj c p x (by omega) (by omega) hx hx'
          · rw [if_neg hcp] at hx
            rw [if_neg hcp'] at hx'
            exact h.disj c c' x (by omega) (by omega) hx hx'
        · intro c hkc x hx
          rw [hQp] at hx
          by_cases hcp : c = p
          · rw [if_pos hcp, List.mem_append] at hx
            rcases hx with hx | hx
            · exact h.bound k le_rfl x (by rw [hQ]; simp [hx])
            · exact h.bound p (by omega) x hx
          · rw [if_neg hcp] at hx
            exact h.bound c (by omega) x hx
        · intro c hkc hcn
          rw [hQp]
          by_cases hcp : c = p
          · subst hcp
            rw [if_pos rfl]
            exact ⟨o', List.getElem?_set_self (by rw [h.lenHead]; exact hpn), Linked.append hop2 (hnotin c (by omega) t htrest) hchain hnd.2 ht⟩
          · rw [if_neg hcp]
            obtain ⟨o1, r1, r2⟩ := h.chain c (by omega) hcn
            exact ⟨o1, by rw [List.getElem?_set_ne (Ne.symm hcp)]; exact r1, r2.set (hnotin c hkc t htrest)⟩
        · intro c hkc hcn
          rw [hQp]
          by_cases hcp : c = p
          · subst hcp
            rw [if_pos rfl, List.getElem?_set_self (by simp [h.lenCount]; exact hpn)]
            congr 1
            simp only [List.length_append, List.length_cons]
            push_cast
            ring
          · rw [if_neg hcp, List.getElem?_set_ne (Ne.symm hcp)]
            exact hset c hkc hcn
        · intro c hkc hcn hne
          rw [hQp] at hne ⊢
          by_cases hcp : c = p
          · subst hcp
            rw [if_pos rfl]
            exact e4
          · rw [if_neg hcp] at hne ⊢
            rw [e5 c hcp]
            exact h.last c (by omega) hcn hne

end Fiksi
