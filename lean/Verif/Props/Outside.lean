import Verif.Props.TableMore
/-!
# Property C75: indices outside the table
-/
set_option linter.unusedSimpArgs false
namespace Verif.Tbl
open Verif Verif.Forest Verif.Cells Verif.TSpec

/-- The index denotes nothing in a list of `n` elements. -/
def Outside (n : Nat) (i : Int) : Prop := i ≥ n ∨ i < -(n : Int)

/-- The index is too large or below `-2 * n`. -/
def FarOutside (n : Nat) (i : Int) : Prop := i ≥ n ∨ i < -2 * (n : Int)

theorem outside_iff {n : Nat} {i : Int} : Outside n i ↔ ¬ ∃ p, Denotes n i p := by
  unfold Outside Denotes
  constructor
  · rintro h ⟨p, h1, h2⟩; omega
  · intro h
    by_contra hc
    rcases (show i < 0 ∨ 0 ≤ i by omega) with h0 | h0
    · exact h ⟨(i + n).toNat, by omega, by omega⟩
    · exact h ⟨i.toNat, by omega, by omega⟩

theorem pyIdx_outside {n : Nat} {i : Int} (h : Outside n i) : pyIdx n i = none :=
  pyIdx_none.mpr (outside_iff.mp h)

theorem far_adjusted {n : Nat} {i : Int} (h : FarOutside n i) :
    pyIdx n (if i < 0 then i + n else i) = none := by
  apply pyIdx_outside
  unfold FarOutside at h
  unfold Outside
  split <;> omega

/-- A negative index counted from the end once more. -/
theorem wrap_pyIdx {n : Nat} {i : Int} (h1 : -(n : Int) ≤ i) (h2 : i < 0) :
    pyIdx n (if i - n < 0 then i - n + n else i - n) = pyIdx n (if i < 0 then i + n else i) := by
  rw [if_pos (by omega), if_pos h2, show i - n + n = i by omega]
  have := (pyIdx_denotes (n := n) (i := i) (p := (i + n).toNat)).mpr ⟨by omega, by omega⟩
  rw [this, (pyIdx_denotes (n := n) (i := i + n) (p := (i + n).toNat)).mpr ⟨by omega, by omega⟩]

/-- **C75** (rows and column infos): an index outside is refused with IndexError; `insert_rows`
changes nothing. -/
theorem C75_rows {s : TState} (h : Inv s) {i : Int} (hi : Outside (docRows s.kids).length i) (n : Int)
    (hn : 1 ≤ n) :
    row s i = .error .IndexError ∧ rowElem s i = .error .IndexError ∧
    insertRows i n s = (s, .error .IndexError) := by
  have e : rowId s i = .error .IndexError := by
    rw [rowId_eq h, rowsOf_doc, pyIdx_outside hi]
  refine ⟨by unfold row; rw [e], by unfold rowElem; rw [e], ?_⟩
  have e1 : insertRow i s = (s, .error .IndexError) := by unfold insertRow; rw [e]
  unfold insertRows
  rw [if_neg (by omega)]
  obtain ⟨k, hk⟩ : ∃ k, n.toNat = k + 1 := ⟨n.toNat - 1, by omega⟩
  rw [hk, repeatPy_succ_error e1]

/-- **C75** (columns): in a table with rows of equal length. -/
theorem C75_columns {s : TState} (h : Inv s) (hne : docRows s.kids ≠ [])
    (hrect : ∀ t ∈ docRows s.kids, (cells t).length = ncols s) {j : Int} :
    (Outside (ncols s) j → column s j = .error .IndexError) ∧
    (Outside (docCols s.kids).length j → columnInfo s j = .error .IndexError) := by
  constructor
  · intro hj
    rw [← rowsOf_doc] at hne hrect
    cases hr : rowsOf s with
    | nil => exact absurd hr hne
    | cons t ts =>
      have hm : t ∈ rowsOf s := by rw [hr]; simp
      have hl := hrect t hm
      simp only [cells, length_toList] at hl
      unfold column
      rw [h.rows, hr, List.map_cons]
      simp only [columnLoop, kidsOf_row h hm, childAt, hl, pyIdx_outside hj]
  · intro hj
    unfold columnInfo
    rw [colId_eq h, colsOf_doc, pyIdx_outside hj]

theorem locate_far {s : TState} (h : Inv s)
    (hrect : ∀ t ∈ docRows s.kids, (cells t).length = ncols s) {pos : Int × Int}
    (hp : FarOutside (docRows s.kids).length pos.1 ∨ FarOutside (ncols s) pos.2) :
    locate s pos = .error .IndexError := by
  unfold locate
  simp only [adjust]
  have hr := rowId_eq h (if pos.1 < 0 then pos.1 + nrows s else pos.1)
  rw [nrows_eq h] at hr ⊢
  cases hx : pyIdx (rowsOf s).length (if pos.1 < 0 then pos.1 + (rowsOf s).length else pos.1) with
  | none => rw [hx] at hr; rw [hr]
  | some n =>
    have hlt := pyIdx_lt hx
    simp only [hx, List.getElem?_eq_getElem hlt] at hr
    have hm := List.getElem_mem hlt
    have hl := hrect _ (by rw [← rowsOf_doc]; exact hm)
    simp only [cells, length_toList] at hl
    rcases hp with hp | hp
    · rw [← rowsOf_doc] at hp
      rw [far_adjusted hp] at hx; cases hx
    · rw [hr]
      simp only [kidsOf_row h hm, childAt, hl, far_adjusted hp]

/-- **C75** (cells), partial: `get_cell` and `set_cell` refuse an index that is too large or below
minus twice the size.  What is missing is false, see `C75_cell_refuted`. -/
theorem C75_cell_partial {s : TState} (h : Inv s)
    (hrect : ∀ t ∈ docRows s.kids, (cells t).length = ncols s) {pos : Int × Int}
    (hp : FarOutside (docRows s.kids).length pos.1 ∨ FarOutside (ncols s) pos.2) (c : Tree)
    (hc : c.1.tag = "table:table-cell" ∨ c.1.tag = "table:covered-table-cell") :
    getCell s pos = .error .IndexError ∧ tableSetCell pos c s = (s, .error .IndexError) := by
  have e := locate_far h hrect hp
  refine ⟨by unfold getCell; rw [e], ?_⟩
  have e2 : setCell pos (.detached c) s = (s, .error .IndexError) := by unfold setCell; rw [e]
  exact (if_pos hc).trans e2

/-- **C75** is false for cells: in every table the index `-k - size` (1 ≤ k ≤ size), which is
outside, is taken for `-k`. -/
theorem C75_cell_refuted (s : TState) {i : Int} (h1 : -(nrows s : Int) ≤ i) (h2 : i < 0) (j : Int) (c : Tree) :
    Outside (nrows s) (i - nrows s) ∧ getCell s (i - nrows s, j) = getCell s (i, j) ∧
    tableSetCell (i - nrows s, j) c s = tableSetCell (i, j) c s := by
  have e : locate s (i - nrows s, j) = locate s (i, j) := by
    unfold locate
    simp only [adjust]
    have : rowId s (if i - nrows s < 0 then i - nrows s + nrows s else i - nrows s) =
        rowId s (if i < 0 then i + nrows s else i) := by
      have hz : pyIdx s.rows.length (if i - nrows s < 0 then i - nrows s + nrows s else i - nrows s) =
          pyIdx s.rows.length (if i < 0 then i + nrows s else i) := wrap_pyIdx h1 h2
      unfold rowId
      rw [hz]
    rw [this]
  refine ⟨by unfold Outside; omega, by unfold getCell; rw [e], by unfold tableSetCell setCell; rw [e]⟩

/-- **C75** is false for the columns of cells, too. -/
theorem C75_cell_column_refuted {s : TState} (h : Inv s)
    (hrect : ∀ t ∈ docRows s.kids, (cells t).length = ncols s) (i : Int) {j : Int}
    (h1 : -(ncols s : Int) ≤ j) (h2 : j < 0) (c : Tree) :
    Outside (ncols s) (j - ncols s) ∧ getCell s (i, j - ncols s) = getCell s (i, j) ∧
    tableSetCell (i, j - ncols s) c s = tableSetCell (i, j) c s := by
  have e : locate s (i, j - ncols s) = locate s (i, j) := by
    unfold locate
    simp only [adjust]
    have hr := rowId_eq h (if i < 0 then i + nrows s else i)
    have hw := wrap_pyIdx h1 h2
    cases hx : pyIdx (rowsOf s).length (if i < 0 then i + nrows s else i) with
    | none => rw [hx] at hr; rw [hr]
    | some n =>
      have hlt := pyIdx_lt hx
      simp only [hx, List.getElem?_eq_getElem hlt] at hr
      have hm := List.getElem_mem hlt
      have hl := hrect _ (by rw [← rowsOf_doc]; exact hm)
      simp only [cells, length_toList] at hl
      rw [hr]
      simp only [kidsOf_row h hm, childAt, hl, hw]
  refine ⟨by unfold Outside; omega, by unfold getCell; rw [e], by unfold tableSetCell setCell; rw [e]⟩

/-- **C75** (deleting), partial: with a permitted number of rows or columns, an index that is too
large or below minus twice the size is refused with IndexError and nothing is deleted.  What is missing is false,
see `C75_delete_rows_refuted`. -/
theorem C75_delete_partial {s : TState} (h : Inv s)
    (hrect : ∀ t ∈ docRows s.kids, (cells t).length = ncols s) {i n : Int} (hn : 1 ≤ n) :
    (n < nrows s → FarOutside (docRows s.kids).length i → deleteRows i n s = (s, .error .IndexError)) ∧
    (n < ncols s → FarOutside (ncols s) i → deleteColumns i n s = (s, .error .IndexError)) := by
  obtain ⟨k, hk⟩ : ∃ k, n.toNat = k + 1 := ⟨n.toNat - 1, by omega⟩
  constructor
  · intro hlt hi
    rw [← (shows_of_inv h).nrows] at hi
    have e1 : deleteRow (if i < 0 then i + nrows s else i) s = (s, .error .IndexError) := by
      have hz : pyIdx s.rows.length (if i < 0 then i + nrows s else i) = none := far_adjusted hi
      unfold deleteRow
      rw [hz]
    unfold deleteRows
    rw [if_neg (by omega), hk, repeatPy_succ_error e1]
  · intro hlt hi
    cases hr : rowsOf s with
    | nil => rw [ncols_eq h, hr] at hlt; simp only at hlt; omega
    | cons t ts =>
      have hm : t ∈ rowsOf s := by rw [hr]; simp
      have hl := hrect t (by rw [← rowsOf_doc]; exact hm)
      simp only [cells, length_toList] at hl
      have e1 : deleteCell (if i < 0 then i + ncols s else i) t.1.id s = (s, .error .IndexError) := by
        unfold deleteCell
        rw [kidsOf_row h hm, hl, far_adjusted hi]
      have e2 : cellsDeleteColumns i n s = (s, .error .IndexError) := by
        unfold cellsDeleteColumns
        rw [if_neg (by omega)]
        simp only
        rw [h.rows, hr, List.map_cons, hk]
        exact forPy_cons_error (repeatPy_succ_error e1)
      unfold deleteColumns
      rw [Py.bind_error e2]

/-- **C75** is false for `delete_rows`: in every table with at least two rows the index
`-k - size`, which is outside, deletes the row `-k`. -/
theorem C75_delete_rows_refuted {s : TState} (h : Inv s) (h2 : 2 ≤ nrows s) {k : Nat} (hk : 1 ≤ k ∧ k ≤ nrows s) :
    ∃ s', Outside (nrows s) (-(k : Int) - nrows s) ∧ deleteRows (-(k : Int) - nrows s) 1 s = (s', .ok ()) ∧
      docRows s'.kids = (docRows s.kids).eraseIdx (nrows s - k) := by
  have hn := (shows_of_inv h).nrows
  obtain ⟨s', e, hd, -⟩ := C10_delete_rows h (i := -(k : Int)) (n := 1) (p := nrows s - k)
    ⟨by omega, by omega⟩ (by omega) (by omega) (by omega)
  refine ⟨s', by unfold Outside; omega, ?_, ?_⟩
  · rw [← e]
    unfold deleteRows
    have : deleteRow (if (-(k : Int) - nrows s) < 0 then (-(k : Int) - nrows s) + nrows s else (-(k : Int) - nrows s)) s =
        deleteRow (if (-(k : Int)) < 0 then (-(k : Int)) + nrows s else (-(k : Int))) s := by
      have hz : pyIdx s.rows.length (if (-(k : Int) - nrows s) < 0 then (-(k : Int) - nrows s) + nrows s else (-(k : Int) - nrows s)) =
          pyIdx s.rows.length (if (-(k : Int)) < 0 then (-(k : Int)) + nrows s else (-(k : Int))) :=
        wrap_pyIdx (n := nrows s) (i := -(k : Int)) (by omega) (by omega)
      unfold deleteRow
      rw [hz]
    have hc : ¬ ((1 : Int) < 1 ∨ (1 : Int) ≥ nrows s) := by omega
    rw [if_neg hc, if_neg hc]
    show repeatPy 1 _ s = repeatPy 1 _ s
    simp only [repeatPy, Py.bind_def, this]
  · rw [hd]
    rw [List.eraseIdx_eq_take_drop_succ]
    congr 1

example : ∃ s, newTable 0 "t".toList (3, 2) = (s, .ok ()) ∧ Inv s ∧ (deleteRows (-4) 1 s).2 = .ok () ∧
    nrows (deleteRows (-4) 1 s).1 = 2 ∧ (getCell s (-6, -4)) = getCell s (0, 0) ∧
    getCell s (-7, 0) = .error .IndexError ∧ FarOutside 3 (-7) ∧
    deleteColumns 2 1 s = (s, .error .IndexError) := by
  have e : newTable 0 "t".toList (3, 2) = ((newTable 0 "t".toList (3, 2)).1, .ok ()) := by decide +kernel
  exact ⟨_, e, (created_inStep 0 e).inv, by decide +kernel, by decide +kernel, by decide +kernel,
    by decide +kernel, by unfold FarOutside; omega, by decide +kernel⟩

end Verif.Tbl
