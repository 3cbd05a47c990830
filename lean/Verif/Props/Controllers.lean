import Verif.Model.Controllers
import Verif.Props.Copy
import Verif.Props.Organizer
import Verif.Proofs.TableReset
/-!
# Property C74: the row and column controllers on tables with any children
-/
set_option linter.unusedSimpArgs false
namespace Verif.Tbl
open Verif Verif.Forest Verif.Cells Verif.TSpec Verif.Block

theorem resetColumn_repeat_at (A : Forest) (n : Nat) : ∀ (B : Forest) (s : TState), s.kids = A ++ B →
    repeatPy n (resetColumn (A.length : Nat)) s =
      ({ s with kids := A ++ (newColsRev s.fresh n ++ B), fresh := s.fresh + n }, .ok ()) := by
  induction n with
  | zero =>
    intro B s h
    simp only [repeatPy, newColsRev, nil_append, Nat.add_zero, ← h]
    rfl
  | succ n ih =>
    intro B s h
    have e : resetColumn (A.length : Nat) s = 
        ({ s with kids := A ++ (single (newColumn s.fresh) ++ B), fresh := s.fresh + 1 }, .ok ()) := by
      unfold resetColumn insertAt
      rw [Org.lxmlInsert_nat s.kids.toList A.length (by rw [h]; simp) (newColumn s.fresh)]
      congr 2
      apply toList_injective
      rw [toList_ofList, h]
      simp only [toList_append]
      rw [List.take_left' (by simp), List.drop_left' (by simp)]
      simp [single]
    simp only [repeatPy]
    rw [Py.bind_ok e, ih (single (newColumn s.fresh) ++ B) _ rfl]
    simp only [newColsRev]
    congr 2
    · apply toList_injective
      simp
    · omega

/-- **C74** (reset of the rows): on any table, with any children, the elements for rows are removed
and rows of empty cells are appended as last children; everything else stays in its order, and the row list is the
rows of the tree. -/
theorem C74_reset_rows (s : TState) {n w : Int} (hn : 1 ≤ n) (hw : 1 ≤ w) :
    ∃ s' rs, cellsReset (n, w) s = (s', .ok ()) ∧
      s'.kids.toList = (s.kids.toList.filter fun t => t.1.tag ∉ ["table:table-row-group",
        "table:table-rows", "table:table-row", "table:table-header-rows", "text:soft-page-break"]) ++ rs ∧
      (rs.length : Int) = n ∧ (∀ r ∈ rs, EmptyRow w.toNat r) ∧
      s'.node = s.node ∧ s'.cols = s.cols ∧ s'.rows = (docRows s'.kids).map fun t => t.1.id := by
  obtain ⟨r4, r5⟩ := newRows_toList s.fresh w.toNat n.toNat
  refine ⟨updateRows { s with kids := removeTags Tags.TABLE_ROWS s.kids ++ newRows s.fresh w.toNat n.toNat, fresh := s.fresh + n.toNat * (w.toNat + 1) },
    (newRows s.fresh w.toNat n.toNat).toList, ?_, ?_, ?_, r5, rfl, rfl, ?_⟩
  · unfold cellsReset
    simp only [if_neg (show ¬ n < 1 by omega), if_neg (show ¬ w < 1 by omega)]
  · simp [updateRows, removeTags, Tags.TABLE_ROWS]
  · rw [r4]; omega
  · simp only [updateRows]
    rw [← sel_nodes']
where sel_nodes' {F : Forest} : sel isRow F = docRows F := rowsOf_doc ⟨s.node, F, [], [], 0⟩

/-- **C74** (refused reset of the rows, false for the claim "without effect"): with a size below one
the controller raises ValueError, but the rows of every table are gone by then. -/
theorem C74_reset_rows_refuted (s : TState) {n w : Int} (h : n < 1 ∨ w < 1) :
    ∃ s', cellsReset (n, w) s = (s', .error .ValueError) ∧ s'.rows = s.rows ∧
      ∀ t ∈ s'.kids.toList, t.1.tag ≠ "table:table-row" := by
  refine ⟨{ s with kids := removeTags Tags.TABLE_ROWS s.kids }, ?_, rfl, ?_⟩
  · unfold cellsReset
    by_cases h1 : n < 1
    · simp [h1]
    · simp [h1, show w < 1 by omega]
  · intro t ht
    simp only [removeTags, toList_ofList, List.mem_filter, Tags.TABLE_ROWS] at ht
    rintro h
    have := ht.2
    simp [h] at this

/-- **C74** (reset of the columns): on any table the elements for columns are removed and empty
columns inserted directly after the longest prelude (table source, DDE source, scenario, forms,
shapes, in this order); everything else stays in its order. -/
theorem C74_reset_columns (s : TState) {n : Int} (hn : 1 ≤ n) :
    ∃ s' pre post cs, colsReset n s = (s', .ok ()) ∧
      (s.kids.toList.filter fun t => t.1.tag ∉ ["table:table-column-group", "table:table-columns",
        "table:table-column", "table:table-header-columns"]) = pre ++ post ∧
      s'.kids.toList = pre ++ cs ++ post ∧
      (cs.length : Int) = n ∧ (∀ c ∈ cs, EmptyColumn c) ∧
      OrderedBlock (fun t : Tree => t.1.tag) ["table:table-source", "office:dde-source",
        "table:scenario", "office:forms", "table:shapes"] pre ∧
      (∀ x post', post = x :: post' → ¬ OrderedBlock (fun t : Tree => t.1.tag) ["table:table-source",
        "office:dde-source", "table:scenario", "office:forms", "table:shapes"] (pre ++ [x])) ∧
      s'.node = s.node ∧ s'.rows = s.rows ∧ s'.cols = (docCols s'.kids).map fun t => t.1.id := by
  obtain ⟨p, hp, hple, hb⟩ := (Org.C34_borders (fun t : Tree => t.1.tag) (tags := Tags.TABLE_PRELUDE)
    (by decide) (by decide) (removeTags Tags.TABLE_COLUMNS s.kids).toList).1
  obtain ⟨c1, c2, c3, c4, c5, c6, c7, c8⟩ := newColsRev_spec s.fresh n.toNat
  let K := (removeTags Tags.TABLE_COLUMNS s.kids).toList
  have hA : (ofList (K.take p)).length = p := by
    rw [← length_toList, toList_ofList, List.length_take]; exact Nat.min_eq_left hple
  have hsplit : removeTags Tags.TABLE_COLUMNS s.kids = ofList (K.take p) ++ ofList (K.drop p) := by
    apply toList_injective
    simp [K]
  refine ⟨updateCols { s with kids := ofList (K.take p) ++ (newColsRev s.fresh n.toNat ++ ofList (K.drop p)), fresh := s.fresh + n.toNat },
    K.take p, K.drop p, (newColsRev s.fresh n.toNat).toList, ?_, ?_, ?_, ?_, c7, ?_, ?_, rfl, rfl, ?_⟩
  · have := resetColumn_repeat_at (ofList (K.take p)) n.toNat (ofList (K.drop p))
      { s with kids := removeTags Tags.TABLE_COLUMNS s.kids } hsplit
    rw [hA] at this
    unfold colsReset
    simp only [if_neg (show ¬ n < 1 by omega), hp, this]
  · rw [List.take_append_drop]
    simp [K, removeTags, Tags.TABLE_COLUMNS]
  · simp [updateCols]
  · rw [c6]; omega
  · exact (hb p hple).mpr (Nat.le_refl _)
  · intro x post' hx hblock
    have hlt : p < K.length := by
      have := congrArg List.length hx
      simp at this
      omega
    have := (hb (p + 1) hlt).mp (by
      have e : K.take (p + 1) = K.take p ++ [x] := by
        rw [List.take_add_one]
        have : K[p]? = some x := by
          have := congrArg (·[0]?) hx
          simpa using this
        rw [this]; rfl
      show OrderedBlock _ _ (K.take (p + 1))
      rw [e]
      exact hblock)
    omega
  · simp only [updateCols]
    rw [← sel_nodes']
where sel_nodes' {F : Forest} : sel isCol F = docCols F := colsOf_doc ⟨s.node, F, [], [], 0⟩

/-- **C74** (refused reset of the columns): a number below one raises ValueError without effect. -/
theorem C74_reset_columns_refused (s : TState) {n : Int} (hn : n < 1) :
    colsReset n s = (s, .error .ValueError) := by
  unfold colsReset
  simp [hn]

/-- **C74** (length and reading): the number of columns and the column at an index. -/
theorem C74_column_get {s : TState} (h : Inv s) :
    colsLen s = (docCols s.kids).length ∧
    (∀ i p t, Denotes (docCols s.kids).length i p → (docCols s.kids)[p]? = some t → colsGet s i = .ok t) ∧
    ∀ i, (¬ ∃ p, Denotes (docCols s.kids).length i p) → colsGet s i = .error .IndexError := by
  rw [← colsOf_doc]
  refine ⟨by simp [colsLen, h.cols], ?_, ?_⟩
  · intro i p t hp ht
    unfold colsGet columnInfo
    rw [colId_eq h, pyIdx_denotes.mpr hp]
    simp only [ht]
    rw [find_col h (List.mem_of_getElem? ht)]
  · intro i hi
    unfold colsGet columnInfo
    rw [colId_eq h, pyIdx_none.mpr hi]

/-- **C74** (exchanging a column): the column at the index is exchanged for a copy of the given one;
the other columns, the rows and everything else stay, and the column list is that of the tree.
The given element contains no rows or columns. -/
theorem C74_column_set {s : TState} (h : Inv s) {i : Int} {p : Nat}
    (hp : Denotes (docCols s.kids).length i p) {t : Tree} (ht : t.1.tag = "table:table-column")
    (hin : docRows t.2 = [] ∧ docCols t.2 = []) :
    ∃ s' t', colsSet i t s = (s', .ok ()) ∧ Inv s' ∧
      SameContent (single t) (single t') ∧ t'.1.id ∉ ids s.kids ∧
      docCols s'.kids = (docCols s.kids).set p t' ∧ docRows s'.kids = docRows s.kids ∧
      others s'.kids = others s.kids ∧ s'.node = s.node := by
  have hrc : sel isRC t.2 = [] := by
    have a : sel isRow t.2 = [] := by rw [show sel isRow t.2 = docRows t.2 from rowsOf_doc ⟨s.node, t.2, [], [], 0⟩]; exact hin.1
    have b : sel isCol t.2 = [] := by rw [show sel isCol t.2 = docCols t.2 from colsOf_doc ⟨s.node, t.2, [], [], 0⟩]; exact hin.2
    rw [List.eq_nil_iff_forall_not_mem]
    intro u hu
    have hru := (mem_sel_ids hu).1
    unfold isRC at hru
    rcases Bool.or_eq_true _ _ |>.mp hru with h1 | h1
    · have : u ∈ sel isRow t.2 := by rw [sel_filter isRow_isRC]; exact List.mem_filter.mpr ⟨hu, h1⟩
      rw [a] at this; cases this
    · have : u ∈ sel isCol t.2 := by rw [sel_filter isCol_isRC]; exact List.mem_filter.mpr ⟨hu, h1⟩
      rw [b] at this; cases this
  rw [← colsOf_doc] at hp
  obtain ⟨q1, q2, q3, q4⟩ := clone_spec (single t) s.fresh
  let k' := (clone (s.fresh + 1) t.2).1
  let t' : Tree := ({ t.1 with id := s.fresh }, k')
  have hc1 : (clone s.fresh (single t)).1 = single t' := by simp [single, clone, t', k']
  rw [hc1] at q2 q3 q4
  have hk' : sel isRC t'.2 = [] := by
    have : erase t'.2 = erase t.2 := by
      simp [single, erase] at q2
      exact q2.2
    exact sel_nil_of_erase isRC_id this hrc
  have hcol : isCol t'.1 = true := by simp [t', isCol, colTag, ht]
  have hrow : isRow t'.1 = false := by simp [t', isRow, rowTag, ht]
  have hrc' : isRC t'.1 = true := by simp [isRC, hcol]
  have hr1 := sel_rc_nil hk'
  have hlt := hp.1
  have hsp := split_getElem (l := colsOf s) hlt
  have hselC : sel isCol (single t') = [t'] := by simp [single, sel, hcol, hr1.2]
  have step := colStep h hsp (fun _ _ => single t') (s.cols.set p s.fresh) (clone s.fresh (single t)).2 q1 q3
    (fun i hi => ⟨(q4 i hi).2, .inr (fresh_not_mem h.wf (q4 i hi).1)⟩)
    (by
      intro u hu
      have : sel isRC (single t') = [t'] := by simp [single, sel, hrc', hk']
      rw [this] at hu
      rw [List.mem_singleton.mp hu]
      exact hk')
    (by simp [single, sel, hrow, hr1.1]) (skel_single_rc hrc')
    (by
      rw [hselC, h.cols, List.set_eq_take_append_cons_drop, if_pos (by simpa using hlt)]
      simp [t', List.map_take, List.map_drop])
  obtain ⟨s1, s2, s3, s4⟩ := step
  refine ⟨_, t', ?_, s1, sameContent_of_erase q2.symm, fresh_not_mem h.wf (Nat.le_refl _), ?_, ?_, ?_, s4.node⟩
  · unfold colsSet
    have e1 : pyIdx s.cols.length i = some p := by
      rw [h.cols, List.length_map]; exact pyIdx_denotes.mpr hp
    have e2 : s.cols[p]? = some ((colsOf s)[p]).1.id := by
      rw [h.cols, List.getElem?_map, List.getElem?_eq_getElem hlt]; rfl
    rw [if_neg (by simp [ht, colTag])]
    simp only [e1, e2, hc1]
  · rw [← colsOf_doc, s2, hselC, colsOf_doc, ← colsOf_doc, List.set_eq_take_append_cons_drop, if_pos hlt]; rfl
  · rw [← rowsOf_doc, s3, rowsOf_doc]
  · rw [← skel_others, s4.skel, skel_others]

/-- **C74** (refused): another element than a column is refused with TypeError, an index outside
with IndexError; nothing changes. -/
theorem C74_column_set_refused {s : TState} (h : Inv s) (i : Int) (t : Tree) :
    (t.1.tag ≠ "table:table-column" → colsSet i t s = (s, .error .TypeError)) ∧
    (t.1.tag = "table:table-column" → (¬ ∃ p, Denotes (docCols s.kids).length i p) →
      colsSet i t s = (s, .error .IndexError)) := by
  constructor
  · intro ht
    unfold colsSet
    rw [if_pos (by simpa [colTag] using ht)]
  · intro ht hi
    unfold colsSet
    rw [if_neg (by simp [ht, colTag])]
    have e1 : pyIdx s.cols.length i = none := by
      rw [h.cols, List.length_map, colsOf_doc]; exact pyIdx_none.mpr hi
    simp only [e1]

/-! ## A concrete table: a title, a header column, a row group and a row -/

/-- A table with forms, a group of columns, a soft page break, a row and a row group. -/
def mixed : TState :=
  { node := { id := 0, tag := "table:table" }
    kids := ofList [({ id := 1, tag := "table:title" }, .nil),
      ({ id := 2, tag := "table:table-header-columns" }, ofList [({ id := 3, tag := "table:table-column" }, .nil)]),
      ({ id := 4, tag := "text:soft-page-break" }, .nil),
      ({ id := 5, tag := "table:table-row" }, ofList [({ id := 6, tag := "table:table-cell" }, .nil)]),
      ({ id := 7, tag := "table:table-row-group" }, .nil)]
    rows := [5], cols := [3], fresh := 8 }

theorem mixed_inv : Inv mixed := by
  refine ⟨⟨by decide +kernel, ?_, ?_⟩, by decide +kernel, by decide +kernel⟩
  · show ∀ i ∈ ids mixed.kids, i < 8
    decide +kernel
  · decide +kernel

example : ((cellsReset (2, 1) mixed).1.kids.toList.map fun t => t.1.tag) =
      ["table:title", "table:table-header-columns", "table:table-row", "table:table-row"] ∧
    (cellsReset (2, 1) mixed).1.rows = [8, 10] ∧
    ((cellsReset (0, 1) mixed).1.kids.toList.map fun t => t.1.tag) =
      ["table:title", "table:table-header-columns"] ∧
    ((colsReset 2 mixed).1.kids.toList.map fun t => t.1.tag) =
      ["table:table-column", "table:table-column", "table:title", "text:soft-page-break",
        "table:table-row", "table:table-row-group"] := by decide +kernel

example : ∃ s' t', colsSet (-1) ({ id := 40, tag := "table:table-column", attrs := [("table:style-name", "co1".toList)] }, .nil) mixed = (s', .ok ()) ∧
    docCols s'.kids = [t'] ∧ t'.1.get "table:style-name" = some "co1".toList := by
  obtain ⟨s', t', h1, _, h3, _, h5, _⟩ := C74_column_set mixed_inv (i := -1) (p := 0) (by constructor <;> decide +kernel)
    (t := ({ id := 40, tag := "table:table-column", attrs := [("table:style-name", "co1".toList)] }, .nil)) rfl ⟨rfl, rfl⟩
  refine ⟨s', t', h1, ?_, ?_⟩
  · rw [h5]; rfl
  · cases h3 with
    | cons he _ _ =>
      unfold Elem.get
      rw [he.2.1]; decide +kernel

end Verif.Tbl
