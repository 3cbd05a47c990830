import Verif.Proofs.TablePos
/-! reset, clear and new tables. -/
set_option linter.unusedSimpArgs false
namespace Verif.Tbl
open Verif Verif.Forest Verif.Cells Verif.TSpec

/-- A table that consists of `w` empty column infos followed by `n` rows of `w` empty cells. -/
structure EmptyTable (n w : Nat) (s : TState) : Prop where
  inv : Inv s
  kids : s.kids.toList = colsOf s ++ rowsOf s
  nrows : (rowsOf s).length = n
  ncols : (colsOf s).length = w
  rows : ∀ t ∈ rowsOf s, EmptyRow w t
  cols : ∀ t ∈ colsOf s, EmptyColumn t

theorem position_rows {l : List Tree} (h : ∀ t ∈ l, t.1.tag = rowTag) :
    Org.insertPositionAfter (fun t : Tree => t.1.tag) Tags.TABLE_PRELUDE l none = .ok 0 := by
  have hb : Org.blockLen (fun t : Tree => t.1.tag) Tags.TABLE_PRELUDE l = 0 := by
    cases l with
    | nil => decide
    | cons t l =>
      have ht := h t (by simp)
      unfold Org.blockLen
      simp only [Tags.TABLE_PRELUDE]
      simp [Org.countLoop, ht, rowTag]
  unfold Org.insertPositionAfter
  have h1 : Tags.TABLE_PRELUDE.getLast? = some "table:shapes" := rfl
  have h2 : ¬ (¬ "table:shapes" ∈ Tags.TABLE_PRELUDE) := by decide
  simp only [hb, h1, if_neg h2]
  rfl

theorem core_reset {s : TState} (hk : s.kids = .nil) {n w : Int} (hn : 1 ≤ n) (hw : 1 ≤ w) :
    ∃ s', (do cellsReset (n, w); colsReset w : Py TState Unit) s = (s', .ok ()) ∧
      EmptyTable n.toNat w.toNat s' ∧ s'.node = s.node ∧ s.fresh ≤ s'.fresh := by
  obtain ⟨r1, r2, r3⟩ := sel_newRows s.fresh w.toNat n.toNat
  obtain ⟨r4, r5⟩ := newRows_toList s.fresh w.toNat n.toNat
  have ri := ids_newRows s.fresh w.toNat n.toNat
  obtain ⟨c1, c2, c3, c4, c5, c6, c7, c8⟩ := newColsRev_spec (s.fresh + n.toNat * (w.toNat + 1)) w.toNat
  have hrm : removeTags Tags.TABLE_ROWS s.kids = .nil := by rw [hk]; rfl
  have e1 : cellsReset (n, w) s = (updateRows { s with kids := newRows s.fresh w.toNat n.toNat, fresh := s.fresh + n.toNat * (w.toNat + 1) }, .ok ()) := by
    unfold cellsReset
    simp only [hrm, if_neg (show ¬ n < 1 by omega), if_neg (show ¬ w < 1 by omega), nil_append]
  rw [Py.bind_ok e1]
  have hrt : ∀ t ∈ (newRows s.fresh w.toNat n.toNat).toList, t.1.tag = rowTag := fun t ht => (r5 t ht).1
  have hrm2 : removeTags Tags.TABLE_COLUMNS (newRows s.fresh w.toNat n.toNat) =
      newRows s.fresh w.toNat n.toNat := by
    apply removeTags_none
    intro t ht
    rw [hrt t ht]; decide
  have hpos := position_rows hrt
  have e2 : ∃ s', colsReset w (updateRows { s with kids := newRows s.fresh w.toNat n.toNat, fresh := s.fresh + n.toNat * (w.toNat + 1) }) = (s', .ok ()) ∧ s' = updateCols { s with kids := newColsRev (s.fresh + n.toNat * (w.toNat + 1)) w.toNat ++ newRows s.fresh w.toNat n.toNat, rows := (sel isRow (newRows s.fresh w.toNat n.toNat)).map (fun t => t.1.id), fresh := s.fresh + n.toNat * (w.toNat + 1) + w.toNat } := by
    refine ⟨_, ?_, rfl⟩
    unfold colsReset
    simp only [if_neg (show ¬ w < 1 by omega), updateRows, hrm2, hpos, resetColumn_repeat]
  obtain ⟨s', e2, hs'⟩ := e2
  refine ⟨s', e2, ?_, by rw [hs']; rfl, by rw [hs']; simp only [updateCols]; omega⟩
  rw [hs']
  · have hrows : sel isRow (newColsRev (s.fresh + n.toNat * (w.toNat + 1)) w.toNat ++
        newRows s.fresh w.toNat n.toNat) = (newRows s.fresh w.toNat n.toNat).toList := by
      rw [sel_append, c5, r2]; rfl
    have hcols : sel isCol (newColsRev (s.fresh + n.toNat * (w.toNat + 1)) w.toNat ++
        newRows s.fresh w.toNat n.toNat) =
        (newColsRev (s.fresh + n.toNat * (w.toNat + 1)) w.toNat).toList := by
      rw [sel_append, c4, r3]; simp
    refine ⟨⟨⟨?_, ?_, ?_⟩, ?_, ?_⟩, ?_, ?_, ?_, ?_, ?_⟩
    · simp only [updateCols, ids_append, ri]
      rw [List.nodup_append]
      refine ⟨c2, List.nodup_range', ?_⟩
      rintro x hx y hy rfl
      rw [c1] at hx
      rw [List.mem_range'_1] at hy
      omega
    · simp only [updateCols, ids_append, ri]
      intro x hx
      rcases List.mem_append.mp hx with hx | hx
      · rw [c1] at hx; omega
      · rw [List.mem_range'_1] at hx; omega
    · simp only [updateCols, sel_append, c3, r1]
      intro t ht
      rcases List.mem_append.mp ht with ht | ht
      · rw [(c7 t ht).2.2.2.2]; rfl
      · have := (r5 t ht).2.2.2.2.2
        rw [sel_toList]
        rw [List.flatMap_eq_nil_iff]
        intro c hc
        obtain ⟨q1, q2, q3, _, q4⟩ := this c hc
        simp [single, sel, q4, cellTag_not_rc _ q1]
    · simp only [updateCols, rowsOf, hrows, r2]
    · simp only [updateCols, colsOf]
    · simp only [updateCols, rowsOf, colsOf, hrows, hcols, toList_append]
    · simp only [updateCols, rowsOf, hrows, r4]
    · simp only [updateCols, colsOf, hcols, c6]
    · simp only [updateCols, rowsOf, hrows]; exact r5
    · simp only [updateCols, colsOf, hcols]; exact c7

/-- `reset` raises unless the table has a usable name and the size is positive. -/
theorem reset_ok_iff {s : TState} {n w : Int} : (reset (n, w) s).2 = .ok () ↔
    (∃ nm, name s = some nm ∧ normalizeName nm ≠ []) ∧ 1 ≤ n ∧ 1 ≤ w := by
  unfold reset
  cases hn : name s with
  | none =>
    simp only [clearNode, setName, Py.bind_def]
    simp
  | some nm =>
    by_cases he : normalizeName nm = []
    · simp only [clearNode, setName, Py.bind_def]
      simp [he]
    · by_cases h1 : 1 ≤ n
      · by_cases h2 : 1 ≤ w
        · have e1 : clearNode s = ({ s with node := { id := s.node.id, tag := s.node.tag }, kids := .nil }, .ok ()) := rfl
          rw [Py.bind_ok e1]
          have e2 : setName (some nm) { s with node := { id := s.node.id, tag := s.node.tag }, kids := .nil } = ({ s with node := Elem.set { id := s.node.id, tag := s.node.tag } "table:name" (normalizeName nm), kids := .nil }, .ok ()) := by
            unfold setName
            simp [he]
          rw [Py.bind_ok e2]
          obtain ⟨s', e, _⟩ := core_reset (s := { s with node := Elem.set { id := s.node.id, tag := s.node.tag } "table:name" (normalizeName nm), kids := .nil }) rfl h1 h2
          simp only at e ⊢
          rw [e]
          simp [he, h1, h2]
        · simp only [clearNode, setName, Py.bind_def, cellsReset]
          simp [he, h1, h2]
          rw [if_neg (by omega), if_pos (by omega)]
          simp
      · simp only [clearNode, setName, Py.bind_def, cellsReset]
        simp [he, h1]
        rw [if_pos (by omega)]
        simp

theorem reset_spec {s : TState} {n w : Int} {nm : Str} (hn : name s = some nm)
    (he : normalizeName nm ≠ []) (h1 : 1 ≤ n) (h2 : 1 ≤ w) :
    ∃ s', reset (n, w) s = (s', .ok ()) ∧ EmptyTable n.toNat w.toNat s' ∧
      s'.node = { id := s.node.id, tag := s.node.tag, attrs := [("table:name", normalizeName nm)] } ∧
      s.fresh ≤ s'.fresh := by
  have e1 : clearNode s = ({ s with node := { id := s.node.id, tag := s.node.tag }, kids := .nil }, .ok ()) := rfl
  have e2 : setName (some nm) { s with node := { id := s.node.id, tag := s.node.tag }, kids := .nil } = ({ s with node := Elem.set { id := s.node.id, tag := s.node.tag } "table:name" (normalizeName nm), kids := .nil }, .ok ()) := by
    unfold setName
    simp [he]
  obtain ⟨s', e, h3, h4, h5⟩ := core_reset (s := { s with node := Elem.set { id := s.node.id, tag := s.node.tag } "table:name" (normalizeName nm), kids := .nil }) rfl h1 h2
  refine ⟨s', ?_, h3, h4, h5⟩
  unfold reset
  rw [hn, Py.bind_ok e1, Py.bind_ok e2]
  exact e

theorem newTable_spec (id : Nat) {nm : Str} (he : normalizeName nm ≠ []) {n w : Int} (h1 : 1 ≤ n)
    (h2 : 1 ≤ w) :
    ∃ s', newTable id nm (n, w) = (s', .ok ()) ∧ EmptyTable n.toNat w.toNat s' ∧
      s'.node = { id := id, tag := "table:table", attrs := [("table:name", normalizeName nm)] } := by
  obtain ⟨s', e, h3, h4, h5⟩ := core_reset (s := { node := Elem.set { id := id, tag := "table:table" } "table:name" (normalizeName nm), kids := .nil, rows := [], cols := [], fresh := id + 1 }) rfl h1 h2
  refine ⟨s', ?_, h3, h4⟩
  unfold newTable
  rw [Py.bind_ok (s' := { node := Elem.set { id := id, tag := "table:table" } "table:name" (normalizeName nm), kids := .nil, rows := [], cols := [], fresh := id + 1 }) (a := ())]
  · exact e
  · unfold setName
    simp [he]

theorem EmptyTable.rect {n w : Nat} {s : TState} (h : EmptyTable n w s) : Rect w (rowsOf s) :=
  fun t ht => emptyRow_length (h.rows t ht)

end Verif.Tbl
