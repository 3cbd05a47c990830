import Verif.Props.Keys
import Verif.Props.Copy
import Verif.Props.TableMove
/-!
# Cases for the properties of tables

The theorems of `Props/Table.lean`, `Props/TableMore.lean`, `Props/Keys.lean` and `Props/Copy.lean` with all their
hypotheses met, for the table with 3 rows and 2 columns.
-/
set_option linter.unusedSimpArgs false
namespace Verif.Tbl
open Verif Verif.Forest Verif.Cells Verif.TSpec

theorem t32_inv : Inv t32 := (created_inStep 0 t32_created).inv

theorem t32_rect : ∀ t ∈ docRows t32.kids, (cells t).length = ncols t32 := by decide +kernel

/-- A cell that is not in a table -/
def loose : Tree := ({ id := 1000, tag := "table:table-cell", text := some "x".toList }, .nil)

theorem loose_detached : Detached t32 loose :=
  ⟨by decide, by decide +kernel, by decide +kernel⟩

/-- C09 and C19, for a history in which rows and columns are added and removed -/
example : ∃ s', OkHist t32 s' ∧ (∀ t ∈ docRows s'.kids, (cells t).length = ncols s') ∧ (docCols s'.kids).length = ncols s' ∧
    nrows s' = 4 ∧ ncols s' = 3 := by
  have h1 : OkHist t32 _ := .call (.insertColumns (-1) 2) trivial (by decide +kernel) (.refl t32)
  have h2 := OkHist.call (.appendRows 3) trivial (by decide +kernel) h1
  have h3 := OkHist.call (.deleteRows 1 2) trivial (by decide +kernel) h2
  have h4 := OkHist.call (.deleteColumns 0 1) trivial (by decide +kernel) h3
  exact ⟨_, h4, (C09_rectangular t32_inv (fun a ha b hb => (t32_rect a ha).trans (t32_rect b hb).symm) h4).1,
    (C19_column_infos 0 t32_created h4).1, by decide +kernel, by decide +kernel⟩

/-- C12: the last cell of the second row is exchanged; the cell before it is as it was. -/
example : ∃ s', tableSetCell (1, -1) loose t32 = (s', .ok ()) ∧ docCell s'.kids 1 1 = some loose ∧
    docCell s'.kids 1 0 = docCell t32.kids 1 0 := by
  obtain ⟨s', h1, -, h2, -⟩ := C12_set_cell t32_inv t32_rect (pos := (1, -1)) (i := 1) (j := 1) (c := loose)
    ⟨by decide +kernel, .inl rfl⟩ ⟨by decide +kernel, .inr (by decide +kernel)⟩ (.inl rfl) loose_detached
  exact ⟨s', h1, by rw [h2]; rfl, by rw [h2]; rfl⟩

/-- C13: indices from the end -/
example : row t32 (-2) = row t32 1 ∧ column t32 (-2) = column t32 0 ∧ columnInfo t32 (-1) = columnInfo t32 1 ∧
    getCell t32 (-3, -1) = getCell t32 (0, 1) ∧ deleteRows (-1) 1 t32 = deleteRows 2 1 t32 ∧
    insertColumns (-2) 3 t32 = insertColumns 0 3 t32 ∧ deleteColumns (-1) 1 t32 = deleteColumns 1 1 t32 := by
  have e3 : nrows t32 = 3 := by decide +kernel
  have e2 : ncols t32 = 2 := by decide +kernel
  have ec : t32.cols.length = 2 := by decide +kernel
  have h1 := (C13_row t32 (i := -2) (by rw [e3]; decide) (by decide)).1
  have h2 := C13_column t32_inv t32_rect (j := -2) (by rw [e2]; decide) (by decide)
  have h3 := C13_column_info t32 (j := -1) (by rw [ec]; decide) (by decide)
  have h4 := (C13_cell t32 (pos := (-3, -1)) (by rw [e3]; decide) (by rw [e2]; decide) loose).1
  have h5 := C13_delete_rows t32 (i := -1) (n := 1) (by rw [e3]; decide) (by decide)
  have h6 := C13_insert_columns t32_inv (by rw [ec, e2]) (i := -2) (n := 3) (by rw [e2]; decide) (by decide)
  have h7 := C13_delete_columns t32_inv (by rw [ec, e2]) (i := -1) (n := 1) (by rw [e2]; decide) (by decide)
  rw [e3] at h1 h5
  rw [e2] at h2 h6 h7
  rw [ec] at h3
  have h8 : fromEnd t32 (-3, -1) = (0, 1) := by decide +kernel
  rw [h8] at h4
  exact ⟨h1, h2, h3, h4, h5, h6, h7⟩

/-- C18: the cell (2, 1) through the cell, row and column accesses, with an index from the end -/
example : ∃ c r col, docCell t32.kids 2 1 = some c ∧ getCell t32 (-1, 1) = .ok c ∧ row t32 (-1) = .ok r ∧ r[1]? = some c ∧
    column t32 1 = .ok col ∧ col[2]? = some c := by
  obtain ⟨c, r, col, h1, h2, h3, -, h4, h5, -, h6⟩ := C18_views t32_inv t32_rect (i := -1) (j := 1) (p := 2) (q := 1)
    ⟨by decide +kernel, .inr (by decide +kernel)⟩ ⟨by decide +kernel, .inl rfl⟩
  exact ⟨c, r, col, h1, h2, h3, h4, h5, h6⟩

/-- C20: `reset` of a table that was changed -/
example : ∃ t, reset (1, 4) (appendRows 2 t32).1 = (t, .ok ()) ∧ nrows t = 1 ∧ ncols t = 4 := by
  obtain ⟨t, h1, h2, -⟩ := C20_created 0 t32_created (Hist.call (.appendRows 2) trivial (.refl t32)) (n := 1) (w := 4) (by decide)
    (by decide)
  exact ⟨t, h1, h2.nrows, h2.ncols⟩

/-- C77: a cell of the table is assigned to another place. -/
example : ∃ s' t, docCell t32.kids 0 1 = some t ∧ assignCell (2, 0) (0, -1) t32 = (s', .ok ()) ∧
    (docRows s'.kids).map (fun r => (cells r).length) = [1, 2, 2] := by
  have hd : (docCell t32.kids 0 1).isSome = true := by decide +kernel
  obtain ⟨t, ht⟩ := Option.isSome_iff_exists.mp hd
  have htag : ∀ u, docCell t32.kids 0 1 = some u → u.1.tag = "table:table-cell" := by
    have : (docCell t32.kids 0 1).all (fun u => decide (u.1.tag = "table:table-cell")) = true := by decide +kernel
    intro u hu
    rw [hu] at this
    exact of_decide_eq_true this
  obtain ⟨s', h1, -⟩ := C77_move t32_inv t32_rect (pos := (2, 0)) (source := (0, -1)) (ip := 0) (jp := 1) (iq := 2) (jq := 0)
    ⟨by decide +kernel, .inl rfl⟩ ⟨by decide +kernel, .inr (by decide +kernel)⟩ ⟨by decide +kernel, .inl rfl⟩
    ⟨by decide +kernel, .inl rfl⟩ (by decide) ht (.inl (htag t ht))
  refine ⟨s', t, ht, h1, ?_⟩
  have : (docRows (assignCell (2, 0) (0, -1) t32).1.kids).map (fun r => (cells r).length) = [1, 2, 2] := by decide +kernel
  rw [h1] at this
  exact this

/-- C71: a cell is assigned under an address, as under the position. -/
example : ∃ s', setItem (.address "b2".toList) loose t32 = (s', .ok ()) ∧ setItem (.tuple (1, 1)) loose t32 = (s', .ok ()) ∧
    docCell s'.kids 1 1 = some loose ∧ docCell s'.kids 2 1 = docCell t32.kids 2 1 := by
  obtain ⟨s', h1, h2, -, h3, -⟩ := C71_set_cell t32_inv t32_rect (a := "b2".toList) (r := 1) (c := 1) (t := loose)
    ⟨"b".toList, 0, by decide +kernel, by decide +kernel⟩ (by decide +kernel) (by decide +kernel) (.inl rfl) loose_detached
  exact ⟨s', h1, h2, by rw [h3]; rfl, by rw [h3]; rfl⟩

/-- C71: an address outside of the table -/
example : getItem t32 (.address "C1".toList) = .error .IndexError ∧ rowAt t32 (.address "A4".toList) = .error .IndexError := by
  refine ⟨((C71_outside t32_inv t32_rect (a := "C1".toList) (r := 0) (c := 2)
    ⟨"C".toList, 0, by decide +kernel, by decide +kernel⟩ loose (.inl rfl)).1 (.inr (by decide +kernel))).1,
    ((C71_outside t32_inv t32_rect (a := "A4".toList) (r := 3) (c := 0)
    ⟨"A".toList, 0, by decide +kernel, by decide +kernel⟩ loose (.inl rfl)).2.1 (by decide +kernel)).1⟩

/-- C21: a copy under a new name, of a table that was changed -/
example : ∃ c, copyTable "all" (32, 32) (some "u".toList) (appendRows 1 t32).1 = .ok c ∧ name c = some "u".toList ∧
    SameContent (appendRows 1 t32).1.kids c.kids := by
  obtain ⟨h1, h2, h3⟩ := C21_created t32_created (CleanHist.call (.appendRows 1) trivial (by decide +kernel) trivial (.refl t32))
  obtain ⟨c, g1, g2, -, -, -, g3, -⟩ := C21_same (strategy := "all") (mx := (32, 32)) (by decide) (by decide)
    (by decide +kernel : (appendRows 1 t32).1.node.tag = "table:table") h1 h3 h2 (newname := some "u".toList)
    (.inl ⟨_, rfl, by decide +kernel⟩)
  refine ⟨c, g1, ?_, g2⟩
  rw [g3]
  decide +kernel

end Verif.Tbl
