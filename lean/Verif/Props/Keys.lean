import Verif.Model.Keys
import Verif.Props.Address
import Verif.Props.Spans
/-! # C71: tables by address; C08: `is_consistent`; C10: `TableRow` -/
set_option linter.unusedSimpArgs false
namespace Verif.Tbl
open Verif Verif.Forest Verif.Cells Verif.TSpec Verif.TU Verif.Address

/-- The string `a` names the cell in row `r` and column `c` (counted from 0): the name of the column in
any letter case, then the number of the row, possibly with leading zeros. -/
def NamesCell (a : Str) (r c : Nat) : Prop :=
  ∃ L z, a = L ++ List.replicate z '0' ++ natStr (r + 1) ∧ L.map Char.toUpper = colName c

theorem toUpper_eq (c : Char) : c.toUpper = upperChar c := by
  have h97 : ('a' : Char).toNat = 97 := rfl
  have h122 : ('z' : Char).toNat = 122 := rfl
  have e : (c.val ≥ 'a'.val ∧ c.val ≤ 'z'.val) ↔ (97 ≤ c.toNat ∧ c.toNat ≤ 122) := by
    rw [ge_iff_le, UInt32.le_iff_toNat_le, UInt32.le_iff_toNat_le]; rfl
  unfold Char.toUpper upperChar
  by_cases h : 97 ≤ c.toNat ∧ c.toNat ≤ 122
  · rw [dif_pos (e.mpr h), if_pos h]
    apply Char.ext
    apply UInt32.toNat_inj.mp
    have hv : (Char.ofNat (c.toNat - 32)).toNat = c.toNat - 32 := by
      exact char_toNat_ofNat (by omega)
    have : (Char.ofNat (c.toNat - 32)).val.toNat = c.toNat - 32 := hv
    rw [this]
    show (c.val + ('A'.val - 'a'.val)).toNat = c.val.toNat - 32
    have hn : c.val.toNat = c.toNat := rfl
    rw [UInt32.toNat_add]
    have h2 : ('A'.val - 'a'.val).toNat = 4294967264 := by decide
    rw [h2]; omega
  · rw [dif_neg (fun g => h (e.mp g)), if_neg h]

theorem names_index {a : Str} {r c : Nat} (h : NamesCell a r c) :
    addressToIndex a = .ok ((r : Int), (c : Int)) := by
  obtain ⟨L, z, rfl, hL⟩ := h
  apply C06_value L r c
  rw [← hL]; unfold upper
  exact List.map_congr_left fun x _ => (toUpper_eq x).symm

/-- Every canonical address names its cell. -/
theorem names_address (r c : Nat) : NamesCell (address r c) r c :=
  ⟨colName c, 0, by simp [address], by
    have : ∀ x ∈ colName c, x.toUpper = x := fun x hx => by
      rw [toUpper_eq]; exact upperChar_isAZ (colName_isAZ c x hx)
    conv => rhs; rw [← List.map_id (colName c)]
    exact List.map_congr_left this⟩

/-- **C71** `table[address]` and `table[(row, column)]` are the cell of that row and column. -/
theorem C71_cell {s : TState} (h : Inv s)
    (hrect : ∀ t ∈ docRows s.kids, (cells t).length = ncols s) {a : Str} {r c : Nat} (ha : NamesCell a r c)
    (hr : r < (docRows s.kids).length) (hc : c < ncols s) :
    ∃ t, docCell s.kids r c = some t ∧ getItem s (.address a) = .ok t ∧
      getItem s (.tuple (r, c)) = .ok t := by
  obtain ⟨t, h1, h2⟩ := getCell_doc h hrect (pos := ((r : Int), (c : Int))) ⟨hr, .inl rfl⟩ ⟨hc, .inl rfl⟩
  refine ⟨t, h1, ?_, ?_⟩
  · simp only [getItem, Key.ref, getCellIndex, names_index ha, h2]
  · simp only [getItem, Key.ref, getCellIndex, h2]

/-- **C71** `table[address] = cell` puts the cell there and changes no other cell. -/
theorem C71_set_cell {s : TState} (h : Inv s)
    (hrect : ∀ t ∈ docRows s.kids, (cells t).length = ncols s) {a : Str} {r c : Nat} (ha : NamesCell a r c)
    (hr : r < (docRows s.kids).length) (hc : c < ncols s) {t : Tree}
    (ht : t.1.tag = "table:table-cell" ∨ t.1.tag = "table:covered-table-cell") (hd : Detached s t) :
    ∃ s', setItem (.address a) t s = (s', .ok ()) ∧ setItem (.tuple (r, c)) t s = (s', .ok ()) ∧
      getItem s' (.address a) = .ok t ∧
      (∀ i j, docCell s'.kids i j = if i = r ∧ j = c then some t else docCell s.kids i j) ∧
      docCols s'.kids = docCols s.kids ∧ others s'.kids = others s.kids ∧ s'.node = s.node ∧ Inv s' := by
  obtain ⟨s', e, g, d, _, k, o, n, i⟩ := C12_set_cell h hrect (pos := ((r : Int), (c : Int)))
    ⟨hr, .inl rfl⟩ ⟨hc, .inl rfl⟩ ht hd
  refine ⟨s', ?_, ?_, ?_, d, k, o, n, i⟩
  · simp only [setItem, Key.ref, getCellIndex, names_index ha, e]
  · simp only [setItem, Key.ref, getCellIndex, e]
  · simp only [getItem, Key.ref, getCellIndex, names_index ha, g]

/-- **C71** what is not a cell is refused, for every key but an integer that is accepted. -/
theorem C71_set_cell_refused (s : TState) {a : Str} {r c : Nat} (ha : NamesCell a r c) {t : Tree}
    (ht : t.1.tag ≠ "table:table-cell") (ht' : t.1.tag ≠ "table:covered-table-cell") :
    setItem (.address a) t s = (s, .error .TypeError) ∧
    setItem (.tuple (r, c)) t s = (s, .error .TypeError) := by
  have : tableSetCell ((r : Int), (c : Int)) t s = (s, .error .TypeError) := by
    unfold tableSetCell; rw [if_neg (by rintro (g | g); exacts [ht g, ht' g])]
  constructor
  · simp only [setItem, Key.ref, getCellIndex, names_index ha, this]
  · simp only [setItem, Key.ref, getCellIndex, this]

/-- **C71** `row(address)` and `row_info(address)`: the row of the address; the column does not matter and
need not exist. -/
theorem C71_row {s : TState} (h : Inv s) {a : Str} {r c : Nat} (ha : NamesCell a r c)
    (hr : r < (docRows s.kids).length) :
    ∃ u, (docRows s.kids)[r]? = some u ∧ rowAt s (.address a) = .ok (cells u) ∧
      rowInfoAt s (.address a) = .ok u ∧ rowAt s (.int r) = .ok (cells u) ∧ rowInfoAt s (.int r) = .ok u := by
  have hu := List.getElem?_eq_getElem hr
  obtain ⟨g1, g2⟩ := (shows_of_inv h).row r _ hu
  refine ⟨_, hu, ?_, ?_, ?_, ?_⟩
  · simp only [rowAt, Line.row, names_index ha, g2]
  · simp only [rowInfoAt, Line.row, names_index ha, g1]
  · simp only [rowAt, Line.row, g2]
  · simp only [rowInfoAt, Line.row, g1]

/-- **C71** `column(address)`: the cells of the column of the address from top to bottom; the row does not
matter and need not exist. -/
theorem C71_column {s : TState} (h : Inv s)
    (hrect : ∀ t ∈ docRows s.kids, (cells t).length = ncols s) {a : Str} {r c : Nat} (ha : NamesCell a r c)
    (hc : c < ncols s) :
    ∃ l, columnAt s (.address a) = .ok l ∧ columnAt s (.int c) = .ok l ∧
      l.length = (docRows s.kids).length ∧ ∀ i, l[i]? = docCell s.kids i c := by
  obtain ⟨l, g1, g2, g3⟩ := columnLoop_ok h (rowsOf s) (j := (c : Int)) (q := c) (by
    intro t ht
    refine ⟨ht, ?_⟩
    have := hrect t (by rw [← rowsOf_doc]; exact ht)
    simp only [cells, length_toList] at this
    rw [this]; exact ⟨hc, .inl rfl⟩)
  rw [← h.rows] at g1
  have g4 : column s (c : Int) = .ok l := g1
  refine ⟨l, ?_, ?_, by rw [g2, rowsOf_doc], fun i => by rw [g3, rowsOf_doc]; rfl⟩
  · simp only [columnAt, Line.column, names_index ha, g4]
  · simp only [columnAt, Line.column, g4]

/-- **C71** `column_info(address)`: the column element of the column of the address. -/
theorem C71_column_info {s : TState} (h : Inv s) {a : Str} {r c : Nat} (ha : NamesCell a r c)
    (hc : c < (docCols s.kids).length) :
    ∃ u, (docCols s.kids)[c]? = some u ∧ columnInfoAt s (.address a) = .ok u ∧
      columnInfoAt s (.int c) = .ok u := by
  have hu := List.getElem?_eq_getElem hc
  have g := (shows_of_inv h).col c _ hu
  exact ⟨_, hu, by simp only [columnInfoAt, Line.column, names_index ha, g],
    by simp only [columnInfoAt, Line.column, g]⟩

/-- **C71** addresses outside the table raise IndexError; assigning there has no effect. -/
theorem C71_outside {s : TState} (h : Inv s)
    (hrect : ∀ t ∈ docRows s.kids, (cells t).length = ncols s) {a : Str} {r c : Nat} (ha : NamesCell a r c)
    (t : Tree) (ht : t.1.tag = "table:table-cell" ∨ t.1.tag = "table:covered-table-cell") :
    ((docRows s.kids).length ≤ r ∨ ncols s ≤ c →
      getItem s (.address a) = .error .IndexError ∧ setItem (.address a) t s = (s, .error .IndexError)) ∧
    ((docRows s.kids).length ≤ r → rowAt s (.address a) = .error .IndexError ∧
      rowInfoAt s (.address a) = .error .IndexError) ∧
    ((docRows s.kids) ≠ [] → ncols s ≤ c → columnAt s (.address a) = .error .IndexError) ∧
    ((docCols s.kids).length ≤ c → columnInfoAt s (.address a) = .error .IndexError) := by
  have hrow : (docRows s.kids).length ≤ r → rowId s (r : Int) = .error .IndexError := by
    intro hr
    rw [rowId_eq h, rowsOf_doc, pyIdx_nat_none hr]
  refine ⟨?_, ?_, ?_, ?_⟩
  · intro hb
    have hl : locate s ((r : Int), (c : Int)) = .error .IndexError := by
      have hadj : adjust s ((r : Int), (c : Int)) = ((r : Int), (c : Int)) := by
        unfold adjust
        rw [if_neg (by simp only; omega), if_neg (by simp only; omega)]
      unfold locate
      simp only [hadj]
      by_cases hr : (docRows s.kids).length ≤ r
      · simp only [hrow hr]
      · have hr' : r < (rowsOf s).length := by rw [rowsOf_doc]; omega
        obtain ⟨u, h1, h2⟩ := rowId_of h (pyIdx_nat hr')
        have hm := List.mem_of_getElem? h1
        have hw := hrect u (by rw [← rowsOf_doc]; exact hm)
        simp only [cells, length_toList] at hw
        simp only [h2, kidsOf_row h hm]
        rw [childAt_none (pyIdx_nat_none (by rw [hw]; exact hb.resolve_left hr))]
    constructor
    · simp only [getItem, Key.ref, getCellIndex, names_index ha, getCell, hl]
    · simp only [setItem, Key.ref, getCellIndex, names_index ha, tableSetCell, setCell, hl]
      exact if_pos ht
  · intro hr
    constructor
    · simp only [rowAt, Line.row, names_index ha, row, hrow hr]
    · simp only [rowInfoAt, Line.row, names_index ha, rowElem, hrow hr]
  · intro hne hc
    simp only [columnAt, Line.column, names_index ha, column, h.rows]
    rw [← rowsOf_doc] at hne
    cases hl : rowsOf s with
    | nil => exact absurd hl hne
    | cons u us =>
      have hm : u ∈ rowsOf s := by rw [hl]; simp
      have hw := hrect u (by rw [← rowsOf_doc]; exact hm)
      simp only [cells, length_toList] at hw
      simp only [List.map_cons, columnLoop, kidsOf_row h hm]
      rw [childAt_none (pyIdx_nat_none (by rw [hw]; exact hc))]
  · intro hc
    simp only [columnInfoAt, Line.column, names_index ha, columnInfo]
    rw [colId_eq h, colsOf_doc, pyIdx_nat_none hc]

/-- **C71** strings that are no addresses raise ValueError everywhere, with no effect. -/
theorem C71_malformed (s : TState) {a : Str} (ha : Ascii a) (h1 : ¬ WellFormed a)
    (h2 : ¬ ∃ u, WellFormed u ∧ a = u ++ ['\n']) (t : Tree) (size : Int × Int) :
    getItem s (.address a) = .error .ValueError ∧ setItem (.address a) t s = (s, .error .ValueError) ∧
    rowAt s (.address a) = .error .ValueError ∧ columnAt s (.address a) = .error .ValueError ∧
    rowInfoAt s (.address a) = .error .ValueError ∧ columnInfoAt s (.address a) = .error .ValueError ∧
    setCellSpanAt (.address a) size s = (s, .error .ValueError) ∧
    removeCellSpanAt (.address a) s = (s, .error .ValueError) := by
  obtain ⟨g1, g2⟩ := C06_accepted a ha
  have e : addressToIndex a = .error .ValueError := g2 fun g => (g1.mp g).elim h1 h2
  refine ⟨?_, ?_, ?_, ?_, ?_, ?_, ?_, ?_⟩ <;>
    simp only [getItem, setItem, rowAt, columnAt, rowInfoAt, columnInfoAt, setCellSpanAt, removeCellSpanAt,
      Key.ref, Line.row, Line.column, getCellIndex, e]

/-- **C71** other objects as keys raise NameError (the code means TypeError), with no effect. -/
theorem C71_other (s : TState) (t : Tree) (size : Int × Int) :
    getItem s .other = .error .NameError ∧ setItem .other t s = (s, .error .NameError) ∧
    setCellSpanAt .other size s = (s, .error .NameError) ∧
    removeCellSpanAt .other s = (s, .error .NameError) := ⟨rfl, rfl, rfl, rfl⟩

/-- **C71** a successful `set_cell_span(address, size)` spans the cell of that address and covers exactly the
others of the rectangle that begins there. -/
theorem C71_set_span {s s' : TState} (h : Inv s) {a : Str} {r c : Nat} (ha : NamesCell a r c) {size : Int × Int}
    (hs : setCellSpanAt (.address a) size s = (s', .ok ())) :
    (∃ t t' : Tree, docCell s.kids r c = some t ∧ docCell s'.kids r c = some t' ∧ span t'.1 = .ok size ∧
      ¬ IsCovered t' ∧ Kept ["table:number-rows-spanned", "table:number-columns-spanned"] t t') ∧
    (∀ i j : Nat, InRect ((r : Int), (c : Int)) size i j → (i, j) ≠ (r, c) →
      ∃ t', docCell s'.kids i j = some t' ∧ IsCovered t') ∧
    (∀ i j : Nat, ¬ InRect ((r : Int), (c : Int)) size i j → docCell s'.kids i j = docCell s.kids i j) := by
  simp only [setCellSpanAt, getCellIndex, names_index ha] at hs
  obtain ⟨⟨i, j, t, t', hp, g⟩, g2, g3, _⟩ := C22_set_span h hs
  simp only [Prod.mk.injEq, Int.natCast_inj] at hp
  obtain ⟨rfl, rfl⟩ := hp
  refine ⟨⟨t, t', g⟩, ?_, g3⟩
  intro i j hR hne
  obtain ⟨_, u, _, k1, k2, _⟩ := g2 i j hR (fun hh => hne (by
    simp only [Prod.mk.injEq, Int.natCast_inj] at hh; rw [hh.1, hh.2]))
  exact ⟨u, k1, k2⟩

/-- **C71** addresses and index pairs are the same to both span calls. -/
theorem C71_span_calls (s : TState) {a : Str} {r c : Nat} (ha : NamesCell a r c) (size : Int × Int) :
    setCellSpanAt (.address a) size s = setCellSpanAt (.tuple (r, c)) size s ∧
    removeCellSpanAt (.address a) s = removeCellSpanAt (.tuple (r, c)) s ∧
    setCellSpanAt (.tuple (r, c)) size s = setCellSpan (r, c) size s ∧
    removeCellSpanAt (.tuple (r, c)) s = removeCellSpan (r, c) s := by
  refine ⟨?_, ?_, rfl, rfl⟩
  · simp only [setCellSpanAt, getCellIndex, names_index ha]
  · simp only [removeCellSpanAt, getCellIndex, names_index ha]

/-- **C71** is false for the row number 0, which is no row of a spreadsheet: the address is accepted and
denotes the last row (all rectangular tables). -/
theorem C71_row_zero_refuted {s : TState} (h : Inv s)
    (hrect : ∀ t ∈ docRows s.kids, (cells t).length = ncols s) (hne : docRows s.kids ≠ []) (hc : 0 < ncols s) :
    ∃ t, docCell s.kids ((docRows s.kids).length - 1) 0 = some t ∧
      getItem s (.address "A0".toList) = .ok t := by
  have hl : 0 < (docRows s.kids).length := List.length_pos_of_ne_nil hne
  obtain ⟨t, h1, h2⟩ := getCell_doc h hrect (pos := ((-1 : Int), (0 : Int)))
    (i := (docRows s.kids).length - 1) (j := 0) ⟨by omega, .inr (by simp only; omega)⟩ ⟨hc, .inl rfl⟩
  refine ⟨t, h1, ?_⟩
  simp only [getItem, Key.ref, getCellIndex, C06_row_zero_refuted.1, h2]

/-- **C71** an integer key is a position among the children of the table element. -/
theorem C71_child (s : TState) (i : Int) :
    (∀ p, Denotes s.kids.toList.length i p → ∃ t, s.kids.toList[p]? = some t ∧ getItem s (.int i) = .ok t) ∧
    ((¬ ∃ p, Denotes s.kids.toList.length i p) → getItem s (.int i) = .error .IndexError ∧
      ∀ t, setItem (.int i) t s = (s, .error .IndexError)) := by
  rw [length_toList]
  constructor
  · intro p hp
    obtain ⟨t, h1, h2⟩ := childAt_of (pyIdx_denotes.mpr hp)
    exact ⟨t, h1, by simp only [getItem, getChild, h2]⟩
  · intro hn
    have := childAt_none (pyIdx_none.mpr hn)
    exact ⟨by simp only [getItem, getChild, this], fun t => by simp only [setItem, setChild, this]⟩

/-- **C71** assigning to an integer key replaces that child. -/
theorem C71_set_child (s : TState) {i : Int} {p : Nat} (hp : Denotes s.kids.toList.length i p) (t : Tree) :
    ∃ s', setItem (.int i) t s = (s', .ok ()) ∧ s'.kids.toList = s.kids.toList.set p t ∧
      s'.node = s.node ∧ getItem s' (.int i) = .ok t := by
  rw [length_toList] at hp
  obtain ⟨u, h1, h2⟩ := childAt_of (pyIdx_denotes.mpr hp)
  have hk : (s.kids.setAt p t).toList = s.kids.toList.set p t := by rw [setAt, toList_ofList]
  refine ⟨{ s with kids := s.kids.setAt p t, fresh := max s.fresh (maxId t + 1) },
    by simp only [setItem, setChild, h2], hk, rfl, ?_⟩
  have hlen : (s.kids.setAt p t).length = s.kids.length := by
    rw [← length_toList, hk, List.length_set, length_toList]
  obtain ⟨v, g1, g2⟩ := childAt_of (k := s.kids.setAt p t) (i := i) (n := p)
    (by rw [hlen]; exact pyIdx_denotes.mpr hp)
  have hpl : p < s.kids.toList.length := by rw [length_toList]; exact hp.1
  rw [hk, List.getElem?_set_self hpl] at g1
  cases g1
  simp only [getItem, getChild, g2]

/-! ## Examples -/

/-- A created table with 3 rows and 2 columns meets the hypotheses; `'b03'` names the last row's second cell. -/
example : NamesCell "b03".toList 2 1 := ⟨"b".toList, 1, by decide +kernel, by decide +kernel⟩

example : (∃ t, docCell t32.kids 2 1 = some t ∧ getItem t32 (.address "b03".toList) = .ok t) ∧
    rowAt t32 (.address "ZZ1".toList) = rowAt t32 (.int 0) ∧
    columnAt t32 (.address "B99".toList) = columnAt t32 (.int 1) := by
  refine ⟨?_, ?_, ?_⟩
  · have hE := created_inStep 0 t32_created
    have h19 := C19_column_infos 0 t32_created (.refl t32)
    obtain ⟨t, g1, g2, _⟩ := C71_cell (a := "b03".toList) (r := 2) (c := 1) hE.inv (by
      intro t ht
      exact (by decide +kernel : ∀ t ∈ docRows t32.kids, (cells t).length = ncols t32) t ht)
      ⟨"b".toList, 1, by decide +kernel, by decide +kernel⟩ (by decide +kernel) (by decide +kernel)
    exact ⟨t, g1, g2⟩
  · decide +kernel
  · decide +kernel

example : Ascii "1A".toList ∧ ¬ WellFormed "1A".toList ∧ ¬ ∃ u, WellFormed u ∧ "1A".toList = u ++ ['\n'] := by
  have key : ∀ u R : Str, WellFormed u → "1A".toList = u ++ R → False := by
    rintro u R ⟨L, D, rfl, hL, h1, _⟩ h
    cases L with
    | nil => exact hL rfl
    | cons a l =>
      simp only [List.cons_append, show "1A".toList = '1' :: ['A'] from rfl, List.cons.injEq] at h
      have := h1 a (by simp)
      rw [← h.1] at this
      exact absurd this (by decide)
  refine ⟨by unfold Ascii; decide, fun h => key _ [] h (by simp), ?_⟩
  rintro ⟨u, hu, h⟩
  exact key u _ hu h

example : (setCellSpanAt (.address "A2".toList) (2, 2) t32).2 = .ok () := by decide +kernel

/-! ## C08: `is_consistent` -/

theorem sameLoop_iff : ∀ a b : List Nat, a.length = b.length → (sameLoop a b = true ↔ a = b)
  | [], [], _ => by simp [sameLoop]
  | [], _ :: _, h => by simp at h
  | _ :: _, [], h => by simp at h
  | a :: as, b :: bs, h => by
    have ih := sameLoop_iff as bs (by simpa using h)
    unfold sameLoop
    by_cases hab : a = b
    · rw [if_neg (by simpa using hab), ih, hab]; simp
    · rw [if_pos hab]; simp [hab]

/-- **C08** the self test of the row list says exactly that it is the list of row elements of the tree. -/
theorem C08_is_consistent (s : TState) :
    (rowsConsistent s = true ↔ s.rows = (docRows s.kids).map fun t => t.1.id) ∧
    (colsConsistent s = true ↔ s.cols = (docCols s.kids).map fun t => t.1.id) := by
  have key : ∀ a b : List Nat, (if a.length ≠ b.length then false else sameLoop b a) = true ↔ b = a := by
    intro a b
    by_cases h : a.length = b.length
    · rw [if_neg (by simpa using h)]; exact sameLoop_iff b a h.symm
    · rw [if_pos h]
      constructor
      · intro g; cases g
      · intro g; exact absurd (congrArg List.length g).symm h
  have hr : s.kids.sel isRow = docRows s.kids := rowsOf_doc s
  have hc : s.kids.sel isCol = docCols s.kids := colsOf_doc s
  unfold rowsConsistent colsConsistent
  rw [hr, hc]
  exact ⟨key _ _, key _ _⟩

/-- **C08** and it is true after every history. -/
theorem C08_consistent_history {s s' : TState} (h : Inv s) (hist : Hist s s') :
    rowsConsistent s' = true ∧ colsConsistent s' = true := by
  have hi := hist_inv h hist
  obtain ⟨a, b⟩ := C08_is_consistent s'
  exact ⟨a.mpr (by rw [hi.rows, rowsOf_doc]), b.mpr (by rw [hi.cols, colsOf_doc])⟩

/-- Outside the quantifier of **C08**: a row put into the table by an integer key is not noticed; the table
goes on showing (and changing) the row that is no longer part of the document. -/
theorem C08_set_child_refuted :
    let s' := (setItem (.int 1) (newTableRow 1000 2) t32).1
    Inv t32 ∧ (setItem (.int 1) (newTableRow 1000 2) t32).2 = .ok () ∧ rowsConsistent s' = false ∧
      rowInfoAt s' (.int 0) ≠ (match (docRows s'.kids)[0]? with | some t => .ok t | none => .error .IndexError) := by
  refine ⟨(created_inStep 0 t32_created).inv, ?_⟩
  decide +kernel

/-! ## C10: new rows -/

theorem newCells_toList (id n : Nat) : (newCells id n).toList.length = n ∧
    ∀ c ∈ (newCells id n).toList, EmptyCell c := by
  induction n generalizing id with
  | zero => simp [newCells, toList]
  | succ n ih =>
    obtain ⟨h1, h2⟩ := ih (id + 1)
    simp only [newCells, toList]
    refine ⟨by simp [h1], ?_⟩
    intro c hc
    rcases List.mem_cons.mp hc with rfl | hc
    · exact ⟨rfl, rfl, rfl, rfl, rfl⟩
    · exact h2 c hc

/-- **C10** `TableRow(n)`: a row of `n` empty cells (none for a negative `n`). -/
theorem C10_table_row (id : Nat) (n : Int) : EmptyRow (max n 0).toNat (newTableRow id n) := by
  obtain ⟨h1, h2⟩ := newCells_toList (id + 1) n.toNat
  refine ⟨rfl, rfl, rfl, rfl, ?_, h2⟩
  show (newCells (id + 1) n.toNat).toList.length = _
  rw [h1]; omega

end Verif.Tbl
