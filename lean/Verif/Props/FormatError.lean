import Verif.Props.Qr
/-!
# What a format error says (C83), and lengths that are checked (C36, C41)
-/
namespace Fiksi

/-- The data up to position `i` of column `c` is in order: its entries are rows of the matrix, and they increase. -/
def Spec.InOrderUpTo (nrows : Nat) (rows ptrs : List Nat) (c i : Nat) : Prop :=
  ∃ start, ptrs[c]? = some start ∧ ∀ q, start ≤ q → q < i → ∀ r, rows[q]? = some r → r < nrows ∧
    (start < q → ∀ r', rows[q - 1]? = some r' → r' < r)

/-- Column `c` is in order. -/
def Spec.ColumnInOrder (nrows : Nat) (rows ptrs : List Nat) (c : Nat) : Prop :=
  ∃ start stop, ptrs[c]? = some start ∧ ptrs[c + 1]? = some stop ∧ start ≤ stop ∧ Spec.InOrderUpTo nrows rows ptrs c stop

/-- What each error says about the data. -/
def Spec.Describes (nrows ncols : Nat) (rows ptrs : List Nat) : SparseFormatError → Prop
  | .badNumberOfPointers expected got => expected = ncols + 1 ∧ got = ptrs.length ∧ got ≠ expected
  | .badStartPointer got => ptrs.head? = some got ∧ got ≠ 0
  | .badEndPointer expected got => expected = rows.length ∧ ptrs.getLast? = some got ∧ got ≠ expected
  | .unorderedPointer c start stop => c < ncols ∧ ptrs[c]? = some start ∧ ptrs[c + 1]? = some stop ∧ stop < start
  | .unorderedIndex c i prev got => c < ncols ∧ (∃ start stop, ptrs[c]? = some start ∧ ptrs[c + 1]? = some stop ∧ start < i ∧ i < stop) ∧
      rows[i - 1]? = some prev ∧ rows[i]? = some got ∧ got ≤ prev ∧ InOrderUpTo nrows rows ptrs c i
  | .indexOutOfBounds c i value bound => c < ncols ∧ (∃ start stop, ptrs[c]? = some start ∧ ptrs[c + 1]? = some stop ∧ start ≤ i ∧ i < stop) ∧
      rows[i]? = some value ∧ bound = nrows ∧ bound ≤ value ∧ InOrderUpTo nrows rows ptrs c i

/-- The column an error is about. -/
def Spec.slice : SparseFormatError → Option Nat
  | .unorderedPointer c _ _ => some c
  | .unorderedIndex c _ _ _ => some c
  | .indexOutOfBounds c _ _ _ => some c
  | _ => none

open Spec

variable {nrows ncols : Nat} {rows ptrs : List Nat}

/-- The entries of a column from its second on, with their positions. -/
theorem checkRows_describes {c start stop : Nat} (h1 : ptrs[c]? = some start) (h2 : ptrs[c + 1]? = some stop) (hc : c < ncols) :
    ∀ (l : List (Nat × Nat)) (k prev : Nat), start < k → rows[k - 1]? = some prev → InOrderUpTo nrows rows ptrs c k →
      (∀ t p, l[t]? = some p → p.2 = k + t ∧ rows[k + t]? = some p.1 ∧ k + t < stop) →
      (k + l.length < stop → rows.length ≤ k + l.length) →
      (∀ e, checkRows nrows c prev l = some e → slice e = some c ∧ Describes nrows ncols rows ptrs e) ∧
      (checkRows nrows c prev l = none → ColumnInOrder nrows rows ptrs c ∨ stop < k) := by
  intro l
  induction l with
  | nil =>
    intro k prev hk hprev hin _ hend
    refine ⟨fun e he => by simp [checkRows] at he, fun _ => ?_⟩
    by_cases hks : stop < k
    · exact .inr hks
    · refine .inl ⟨start, stop, h1, h2, by omega, ?_⟩
      obtain ⟨s', e1, e2⟩ := hin
      refine ⟨s', e1, fun q hq1 hq2 r hr => ?_⟩
      by_cases hqk : q < k
      · exact e2 q hq1 hqk r hr
      · have := (List.getElem?_eq_some_iff.1 hr).1
        simp only [List.length_nil, Nat.add_zero] at hend
        have := hend (by omega)
        omega
  | cons p l ih =>
    intro k prev hk hprev hin hl hend
    obtain ⟨row, i⟩ := p
    obtain ⟨q1, q2, q3⟩ := hl 0 _ rfl
    simp only [Nat.add_zero] at q1 q2 q3
    subst q1
    rw [checkRows]
    by_cases ha : nrows ≤ row
    · rw [if_pos ha]
      refine ⟨fun e he => ?_, fun he => by simp at he⟩
      cases he
      exact ⟨rfl, hc, ⟨start, stop, h1, h2, by omega, q3⟩, q2, rfl, ha, hin⟩
    · rw [if_neg ha]
      by_cases hb : row ≤ prev
      · rw [if_pos hb]
        refine ⟨fun e he => ?_, fun he => by simp at he⟩
        cases he
        exact ⟨rfl, hc, ⟨start, stop, h1, h2, hk, q3⟩, hprev, q2, hb, hin⟩
      · rw [if_neg hb]
        obtain ⟨g1, g2⟩ := ih (i + 1) row (by omega) (by simpa using q2) (by
          obtain ⟨s', e1, e2⟩ := hin
          refine ⟨s', e1, fun q hq1 hq2 r hr => ?_⟩
          by_cases hqi : q < i
          · exact e2 q hq1 hqi r hr
          · obtain rfl : q = i := by omega
            rw [q2] at hr
            obtain rfl := Option.some.inj hr
            refine ⟨by omega, fun _ r' hr' => ?_⟩
            rw [hprev] at hr'
            obtain rfl := Option.some.inj hr'
            omega) (by
          intro t p hp
          have := hl (t + 1) p (by simpa using hp)
          rw [show i + (t + 1) = i + 1 + t by omega] at this
          exact this) (by
          intro h
          have := hend (by simp only [List.length_cons]; omega)
          simp only [List.length_cons] at this
          omega)
        exact ⟨g1, fun he => (g2 he).imp id (fun h => by omega)⟩

/-- One column. -/
theorem checkColumn_describes {c : Nat} (hc : c < ncols) {o : Option SparseFormatError} (h : checkColumn nrows rows ptrs c = .ok o) :
    (∀ e, o = some e → slice e = some c ∧ Describes nrows ncols rows ptrs e) ∧ (o = none → ColumnInOrder nrows rows ptrs c) := by
  rw [checkColumn, bind_eq_ok] at h
  obtain ⟨start, h1, h⟩ := h
  rw [bind_eq_ok] at h
  obtain ⟨stop, h2, h⟩ := h
  rw [idx_eq_ok] at h1 h2
  split at h
  · rename_i hlt
    cases h
    refine ⟨fun e he => ?_, fun he => by simp at he⟩
    cases he
    exact ⟨rfl, hc, h1, h2, hlt⟩
  · rename_i hle
    split at h
    · rename_i hlt
      rw [bind_eq_ok] at h
      obtain ⟨prev, h3, h⟩ := h
      rw [idx_eq_ok] at h3
      have hempty : InOrderUpTo nrows rows ptrs c start := ⟨start, h1, fun q hq1 hq2 => by omega⟩
      split at h
      · rename_i hb
        cases h
        refine ⟨fun e he => ?_, fun he => by simp at he⟩
        cases he
        exact ⟨rfl, hc, ⟨start, stop, h1, h2, le_rfl, hlt⟩, h3, rfl, hb, hempty⟩
      · rename_i hb
        cases h
        have hs := (List.getElem?_eq_some_iff.1 h3).1
        obtain ⟨g1, g2⟩ := checkRows_describes (rows := rows) (nrows := nrows) h1 h2 hc ((rows.zipIdx.take stop).drop (start + 1)) (start + 1) prev (by omega)
          (by simpa using h3) ⟨start, h1, fun q hq1 hq2 r hr => by
            obtain rfl : q = start := by omega
            rw [h3] at hr
            obtain rfl := Option.some.inj hr
            exact ⟨by omega, fun h => by omega⟩⟩ (by
          intro t p hp
          rw [List.getElem?_drop] at hp
          have hlt' : start + 1 + t < stop := by
            have := (List.getElem?_eq_some_iff.1 hp).1
            rw [List.length_take] at this
            omega
          rw [List.getElem?_take_of_lt hlt', List.getElem?_zipIdx] at hp
          rw [Option.map_eq_some_iff] at hp
          obtain ⟨r, hr, rfl⟩ := hp
          exact ⟨by simp, hr, hlt'⟩) (by
          intro h
          rw [List.length_drop, List.length_take, List.length_zipIdx] at h ⊢
          omega)
        refine ⟨g1, fun he => (g2 he).resolve_right (by omega)⟩
    · cases h
      refine ⟨fun e he => by simp at he, fun _ => ⟨start, stop, h1, h2, by omega, start, h1, fun q hq1 hq2 => by omega⟩⟩

theorem checkColumns_describes : ∀ (k c : Nat), c + k = ncols → (∀ c', c' < c → ColumnInOrder nrows rows ptrs c') → ∀ {e : SparseFormatError},
    checkColumns nrows rows ptrs (List.range' c k) = .ok (some e) →
      ∃ c', slice e = some c' ∧ Describes nrows ncols rows ptrs e ∧ ∀ c'', c'' < c' → ColumnInOrder nrows rows ptrs c'' := by
  intro k
  induction k with
  | zero => intro c _ _ e h; simp [checkColumns] at h
  | succ k ih =>
    intro c hc hbefore e h
    rw [List.range'_succ, checkColumns, bind_eq_ok] at h
    obtain ⟨o, h1, h⟩ := h
    obtain ⟨g1, g2⟩ := checkColumn_describes (ncols := ncols) (by omega) h1
    cases o with
    | some e' =>
      cases h
      obtain ⟨g3, g4⟩ := g1 _ rfl
      exact ⟨c, g3, g4, hbefore⟩
    | none =>
      refine ih (c + 1) (by omega) (fun c' hc' => ?_) h
      by_cases hlt : c' < c
      · exact hbefore c' hlt
      · obtain rfl : c' = c := by omega
        exact g2 rfl

/-- C83: an error of `try_from_data` is true of the data, with all the numbers it reports. If it is about a column, all columns before it are in order, and
so is the column before the reported position: it is the first defect. -/
theorem C83_error_describes {e : SparseFormatError} (h : SparseStructure.tryFromData nrows ncols rows ptrs = .ok (.error e)) :
    Describes nrows ncols rows ptrs e ∧ ∀ c, slice e = some c → ptrs.length = ncols + 1 ∧ ptrs.head? = some 0 ∧ ptrs.getLast? = some rows.length ∧
      ∀ c', c' < c → ColumnInOrder nrows rows ptrs c' := by
  rw [SparseStructure.tryFromData] at h
  split at h
  · rename_i hne
    cases h
    exact ⟨⟨rfl, rfl, hne⟩, fun c hc => by simp [slice] at hc⟩
  · rename_i hlen
    have hlen : ptrs.length = ncols + 1 := not_not.1 hlen
    rw [bind_eq_ok] at h
    obtain ⟨first, h1, h⟩ := h
    rw [idx_eq_ok] at h1
    have hhead : ptrs.head? = some first := by rw [List.head?_eq_getElem?]; exact h1
    split at h
    · rename_i hne
      cases h
      exact ⟨⟨hhead, hne⟩, fun c hc => by simp [slice] at hc⟩
    · rename_i h0
      have h0 : first = 0 := not_not.1 h0
      rw [bind_eq_ok] at h
      obtain ⟨last, h2, h⟩ := h
      rw [idx_eq_ok] at h2
      have hlast : ptrs.getLast? = some last := by rw [List.getLast?_eq_getElem?, hlen]; exact h2
      split at h
      · rename_i hne
        cases h
        exact ⟨⟨rfl, hlast, hne⟩, fun c hc => by simp [slice] at hc⟩
      · rename_i hend
        have hend : last = rows.length := not_not.1 hend
        rw [bind_eq_ok] at h
        obtain ⟨o, h3, h⟩ := h
        cases o with
        | none => cases h
        | some e' =>
          cases h
          rw [List.range_eq_range'] at h3
          obtain ⟨c, g1, g2, g3⟩ := checkColumns_describes (ncols := ncols) ncols 0 (by omega) (fun c' hc' => absurd hc' (Nat.not_lt_zero c')) h3
          refine ⟨g2, fun c' hc' => ?_⟩
          rw [g1] at hc'
          obtain rfl := Option.some.inj hc'
          exact ⟨hlen, by rw [hhead, h0], by rw [hlast, hend], g3⟩

/-- Case: errors of every kind. -/
theorem C83_case : SparseStructure.tryFromData 3 2 [0, 2, 1] [0, 3] = .ok (.error (.badNumberOfPointers 3 2)) ∧
    SparseStructure.tryFromData 3 2 [0, 2, 1] [1, 2, 3] = .ok (.error (.badStartPointer 1)) ∧
    SparseStructure.tryFromData 3 2 [0, 2, 1] [0, 2, 2] = .ok (.error (.badEndPointer 3 2)) ∧
    SparseStructure.tryFromData 3 3 [0, 1, 2] [0, 2, 1, 3] = .ok (.error (.unorderedPointer 1 2 1)) ∧
    SparseStructure.tryFromData 3 2 [1, 0, 1, 1] [0, 1, 4] = .ok (.error (.unorderedIndex 1 3 1 1)) ∧
    SparseStructure.tryFromData 3 2 [1, 0, 3, 1] [0, 1, 4] = .ok (.error (.indexOutOfBounds 1 2 3 3)) := by decide +kernel

section
variable {T : Type} [Add T] [Sub T] [Mul T] [Div T] [Neg T] [Zero T] [One T] [FloatOps T]

omit [Add T] [Neg T] [One T] in
/-- C36: a right-hand side with too many or too few entries is a panic. -/
theorem C36_length_checked (a : SparseColMat T) {b : List T} (h : b.length ≠ a.structure'.nrows) : a.solveUpperTriangular b = .error .assertion := by
  rw [SparseColMat.solveUpperTriangular, if_pos (fun he => h he.symm)]

omit [Neg T] [One T] in
/-- C41: a right-hand side with too many or too few entries is a panic. -/
theorem C41_length_checked (q : Qr T) {b : List T} (h : b.length ≠ q.sym.hStructure.nrows) : q.solve b = .error .assertion := by
  rw [Qr.solve, Qr.qTrMul, if_pos h]
  rfl

end

end Fiksi
