import Verif.Props.TableMore
import Verif.Props.CellsExact
import Verif.Proofs.TableWrite
/-!
# Property C76: writing through the cells, rows and columns of a table
-/
set_option linter.unusedSimpArgs false
namespace Verif.Tbl
open Verif Verif.Forest Verif.Cells Verif.TSpec

variable {L : FloatLib}

theorem sim_content {t u : Tree} (h : Sim t u) : SameContent (single t) (single u) :=
  .cons ⟨h.tag.symm, h.attrs.symm, h.text.symm, h.tail.symm⟩ (sameContent_of_erase h.2) .nil

theorem shape_map {s s' : TState} (b : SameShape s s') :
    (rowsOf s').map (fun t => (t.1, (cells t).length)) = (rowsOf s).map (fun t => (t.1, (cells t).length)) := by
  unfold SameShape RowsRel at b
  generalize rowsOf s = x at b
  generalize rowsOf s' = y at b
  induction b with
  | nil => rfl
  | cons hx _ ih =>
    rw [List.map_cons, List.map_cons, ih]; congr 1
    rw [hx.1, cells, cells, length_toList, length_toList]; exact congrArg _ hx.2

/-- **C76** A method of the cell `table[pos]` does to that cell what it does to a cell outside of a table, with the same
result or exception; every other cell, all row and column elements, the other children and the table element stay as
they were. -/
theorem C76_cell {s : TState} (h : Inv s)
    (hrect : ∀ t ∈ docRows s.kids, (cells t).length = ncols s) {pos : Int × Int} {i j : Nat}
    (hi : Denotes (docRows s.kids).length pos.1 i) (hj : Denotes (ncols s) pos.2 j) (c : CellCall L) (hc : c.NoTable) :
    ∃ s' t t', docCell s.kids i j = some t ∧ getCell s pos = .ok t ∧ onCell pos c.run s = (s', (c.run t).2) ∧
      getCell s' pos = .ok t' ∧ SameContent (single (c.run t).1) (single t') ∧ t'.1.id = t.1.id ∧
      (∀ i' j', docCell s'.kids i' j' = if i' = i ∧ j' = j then some t' else docCell s.kids i' j') ∧
      (docRows s'.kids).map (fun t => (t.1, (cells t).length)) =
        (docRows s.kids).map (fun t => (t.1, (cells t).length)) ∧
      docCols s'.kids = docCols s.kids ∧ others s'.kids = others s.kids ∧ s'.node = s.node ∧ Inv s' := by
  obtain ⟨u, t, h1, h2, h3⟩ := locate_denotes h hrect hi hj
  obtain ⟨s', t', e, a, b, hs, hid, d, cc, sr, _⟩ := onCell_spec h (c.inPlace hc) h1 h2 h3
  have hcell : ∀ i' j', docCell s'.kids i' j' = if i' = i ∧ j' = j then some t' else docCell s.kids i' j' := by
    intro i' j'
    rw [← cellAt_doc, ← cellAt_doc, d]
    simp only [Prod.mk.injEq]
  have hn : ncols s' = ncols s := b.ncols h a
  have hmap := shape_map b
  have hrect' : ∀ t ∈ docRows s'.kids, (cells t).length = ncols s' := by
    intro t ht
    rw [← rowsOf_doc] at ht hrect
    have : (t.1, (cells t).length) ∈ (rowsOf s).map (fun t => (t.1, (cells t).length)) := by
      rw [← hmap]; exact List.mem_map_of_mem ht
    obtain ⟨v, hv, hve⟩ := List.mem_map.mp this
    have := hrect v hv
    simp only [Prod.mk.injEq] at hve
    rw [hn, ← hve.2, this]
  refine ⟨s', t, t', ?_, by unfold getCell; rw [h3], e, ?_, sim_content hs, hid, hcell, ?_, ?_, ?_, sr.node, a⟩
  · rw [← cellAt_doc]; unfold cellAt; simp only [h1, Option.bind_some, h2]
  · have hlen : (docRows s'.kids).length = (docRows s.kids).length := by
      rw [← rowsOf_doc, ← rowsOf_doc, b.length]
    obtain ⟨t'', g1, g2⟩ := getCell_doc a hrect' (pos := pos) (i := i) (j := j)
      (by rw [hlen]; exact hi) (by rw [hn]; exact hj)
    rw [hcell, if_pos ⟨rfl, rfl⟩] at g1
    cases g1
    exact g2
  · rw [← rowsOf_doc, ← rowsOf_doc]; exact hmap
  · rw [← colsOf_doc, ← colsOf_doc, cc]
  · rw [← skel_others, ← skel_others, sr.skel]

theorem erase_of_same {F G : Forest} (h : SameContent F G) : erase F = erase G := by
  induction h with
  | nil => rfl
  | cons he _ _ h1 h2 =>
    simp only [erase, h1, h2]
    rename_i e e' _ _ _ _ _ _
    have : ({ e with id := 0 } : Elem) = { e' with id := 0 } := by
      obtain ⟨_, _, _, _, _⟩ := e
      obtain ⟨_, _, _, _, _⟩ := e'
      simp only at he
      obtain ⟨rfl, rfl, rfl, rfl⟩ := he
      rfl
    rw [this]

/-- Cells with the same content read the same. -/
theorem reads_same {t u : Tree} (h : SameContent (single t) (single u)) :
    value L t = value L u ∧ valueType t = valueType u ∧ currency t = currency u ∧
    plaintext t = plaintext u ∧ span t.1 = span u.1 := by
  have hs : Sim t u := by
    cases h with
    | cons he hk _ =>
      refine sim_mk he.1.symm he.2.1.symm he.2.2.1.symm he.2.2.2.symm ?_
      exact erase_of_same hk
  refine ⟨hs.value, hs.valueType, hs.get _, hs.plaintext, ?_⟩
  unfold span spanAttr
  rw [hs.get, hs.get]

/-- **C76** with `set_value`: `table[pos].value`, `value_type`, `currency` and `plaintext()` afterwards are those of a
single cell after the same call (C26 says which these are); all other cells are the same elements as before, and so
read the same. -/
theorem C76_value {s : TState} (h : Inv s)
    (hrect : ∀ t ∈ docRows s.kids, (cells t).length = ncols s) {pos : Int × Int} {i j : Nat}
    (hi : Denotes (docRows s.kids).length pos.1 i) (hj : Denotes (ncols s) pos.2 j)
    (c : CellCall L) (hc : c.NoTable) {t : Tree} (hg : getCell s pos = .ok t) {t1 : Tree} {r : Except Exc Unit}
    (hv : c.run t = (t1, r)) :
    (onCell pos c.run s).2 = r ∧
    (∃ t', getCell (onCell pos c.run s).1 pos = .ok t' ∧ value L t' = value L t1 ∧ valueType t' = valueType t1 ∧
      currency t' = currency t1 ∧ plaintext t' = plaintext t1 ∧ span t'.1 = span t1.1) ∧
    ∀ pos' i' j', Denotes (docRows s.kids).length pos'.1 i' → Denotes (ncols s) pos'.2 j' → (i', j') ≠ (i, j) →
      getCell (onCell pos c.run s).1 pos' = getCell s pos' := by
  obtain ⟨s', u, u', h1, h2, h3, h4, h5, h6, h7, h8, _, _, _, hI⟩ := C76_cell h hrect hi hj c hc
  rw [h2] at hg; cases hg
  rw [hv] at h3 h5
  rw [h3]
  refine ⟨rfl, ⟨u', h4, ?_⟩, ?_⟩
  · obtain ⟨a, b, c, d, e⟩ := reads_same (L := L) h5
    exact ⟨a.symm, b.symm, c.symm, d.symm, e.symm⟩
  · intro pos' i' j' hi' hj' hne
    have hlen : (docRows s'.kids).length = (docRows s.kids).length := by
      have := congrArg List.length h8; simpa using this
    have hn : ncols s' = ncols s := by
      have := C76_cell h hrect hi hj c hc
      obtain ⟨x, t, ht, hl⟩ := locate_denotes h hrect hi hj
      obtain ⟨q, _, e, a, b, _⟩ := onCell_spec h (c.inPlace hc) ht hl.1 hl.2
      have : q = s' := by rw [h3] at e; exact (congrArg Prod.fst e).symm
      subst this
      exact b.ncols h a
    have hrect' : ∀ t ∈ docRows s'.kids, (cells t).length = ncols s' := by
      intro t ht
      have : (t.1, (cells t).length) ∈ (docRows s.kids).map (fun t => (t.1, (cells t).length)) := by
        rw [← h8]; exact List.mem_map_of_mem ht
      obtain ⟨v, hv, hve⟩ := List.mem_map.mp this
      have := hrect v hv
      simp only [Prod.mk.injEq] at hve
      rw [hn, ← hve.2, this]
    obtain ⟨a, g1, g2⟩ := getCell_doc h hrect hi' hj'
    obtain ⟨b, g3, g4⟩ := getCell_doc hI hrect' (pos := pos') (by rw [hlen]; exact hi') (by rw [hn]; exact hj')
    rw [h7, if_neg (by rintro ⟨rfl, rfl⟩; exact hne rfl), g1] at g3
    cases g3
    show getCell s' pos' = _
    rw [g2, g4]

/-! ## Histories of writes -/

/-- A row or column index given to `table[...]` and the position it addresses in a table of `n` lines: `p`, or counted
from the end, which works twice (C75). -/
def addresses (n : Nat) (i : Int) (p : Nat) : Bool := i = p ∨ i = (p : Int) - n ∨ i = (p : Int) - 2 * n

/-- The calls on the cell in row `i` and column `j` of a table with `n` rows and `m` columns, in order. -/
def callsOn (n m i j : Nat) (ws : List ((Int × Int) × CellCall L)) : List (CellCall L) :=
  (ws.filter fun w => addresses n w.1.1 i && addresses m w.1.2 j).map Prod.snd

/-- Calls on a cell one after the other, whether they raise or not. -/
def callAll (cs : List (CellCall L)) (t : Tree) : Tree := cs.foldl (fun t c => (c.run t).1) t

/-- Calls `table[pos].method(...)` one after the other, whether they raise or not. -/
def writes (ws : List ((Int × Int) × CellCall L)) (s : TState) : TState :=
  ws.foldl (fun s w => (onCell w.1 w.2.run s).1) s

theorem addresses_iff {n : Nat} {i : Int} {p : Nat} (hp : p < n) :
    addresses n i p = true ↔ pyIdx n (if i < 0 then i + n else i) = some p := by
  rw [pyIdx_denotes]
  unfold addresses Denotes
  simp only [decide_eq_true_eq]
  split <;> omega

theorem callAll_sim (cs : List (CellCall L)) {t u : Tree} (h : Sim t u) : Sim (callAll cs t) (callAll cs u) := by
  induction cs generalizing t u with
  | nil => exact h
  | cons c cs ih => exact ih (c.natural t u h).2

/-- One write, at any position. -/
theorem write_step {s : TState} (h : Inv s) (hrect : ∀ t ∈ rowsOf s, t.2.length = ncols s)
    (w : (Int × Int) × CellCall L) (hw : w.2.NoTable) :
    Inv (onCell w.1 w.2.run s).1 ∧ SameShape s (onCell w.1 w.2.run s).1 ∧
    colsOf (onCell w.1 w.2.run s).1 = colsOf s ∧ SameRest s (onCell w.1 w.2.run s).1 ∧
    ∀ i j t, cellAt s (i, j) = some t → ∃ t', cellAt (onCell w.1 w.2.run s).1 (i, j) = some t' ∧ t'.1.id = t.1.id ∧
      Sim (callAll (callsOn (rowsOf s).length (ncols s) i j [w]) t) t' := by
  obtain ⟨pos, c⟩ := w
  have hbound : ∀ {i j t}, cellAt s (i, j) = some t → i < (rowsOf s).length ∧ j < ncols s := by
    intro i j t hc
    unfold cellAt at hc
    cases hu : (rowsOf s)[i]? with
    | none => simp only [hu] at hc; cases hc
    | some u =>
      simp only [hu, Option.bind_some] at hc
      have := (List.getElem?_eq_some_iff.mp hc).1
      refine ⟨(List.getElem?_eq_some_iff.mp hu).1, ?_⟩
      rw [← hrect u (List.mem_of_getElem? hu), ← length_toList]; exact this
  cases hl : locate s pos with
  | error e =>
    have hg : getCell s pos = .error e := by unfold getCell; rw [hl]
    have he : onCell pos c.run s = (s, .error e) := by unfold onCell; rw [hg]
    simp only [he]
    refine ⟨h, .refl s, trivial, .refl s, fun i j t hc => ⟨t, hc, rfl, ?_⟩⟩
    obtain ⟨b1, b2⟩ := hbound hc
    have : callsOn (rowsOf s).length (ncols s) i j [(pos, c)] = [] := by
      unfold callsOn
      rw [List.filter_cons_of_neg]
      · rfl
      · simp only [Bool.and_eq_true, not_and]
        intro h1 h2
        rw [addresses_iff b1] at h1
        rw [addresses_iff b2] at h2
        obtain ⟨u, k1, k2⟩ := rowId_of h h1
        have hm := List.mem_of_getElem? k1
        obtain ⟨t', _, k4⟩ := childAt_of (k := u.2) (by rw [hrect u hm]; exact h2)
        unfold locate at hl
        simp only [adjust, nrows_eq h, k2, kidsOf_row h hm, k4] at hl
        cases hl
    rw [this]; exact .refl t
  | ok q =>
    obtain ⟨r, n, t0⟩ := q
    obtain ⟨i0, u, h1, h2, h3, h4, h5⟩ := locate_ok h hl
    subst h2
    obtain ⟨s', t', e, a, b, hs, hid, d, cc, sr, _⟩ := onCell_spec h (c.inPlace hw) h1 h3 hl
    simp only [e]
    refine ⟨a, b, cc, sr, fun i j t hc => ?_⟩
    obtain ⟨b1, b2⟩ := hbound hc
    have hu : u.2.length = ncols s := hrect u (List.mem_of_getElem? h1)
    rw [hu] at h5
    have hadj : (adjust s pos).1 = if pos.1 < 0 then pos.1 + ((rowsOf s).length : Int) else pos.1 := by
      simp only [adjust, nrows_eq h]
    rw [hadj] at h4
    rw [d]
    by_cases hp : (i, j) = (i0, n)
    · simp only [Prod.mk.injEq] at hp
      obtain ⟨rfl, rfl⟩ := hp
      have ht : t = t0 := by
        unfold cellAt at hc
        simp only [h1, Option.bind_some, h3] at hc
        exact (Option.some.inj hc).symm
      subst ht
      refine ⟨t', if_pos rfl, hid, ?_⟩
      have : callsOn (rowsOf s).length (ncols s) i j [(pos, c)] = [c] := by
        unfold callsOn
        rw [List.filter_cons_of_pos]
        · rfl
        · simp only [Bool.and_eq_true]
          exact ⟨(addresses_iff b1).mpr h4, (addresses_iff b2).mpr h5⟩
      rw [this]; exact hs
    · rw [if_neg hp]
      refine ⟨t, hc, rfl, ?_⟩
      have : callsOn (rowsOf s).length (ncols s) i j [(pos, c)] = [] := by
        unfold callsOn
        rw [List.filter_cons_of_neg]
        · rfl
        · simp only [Bool.and_eq_true, not_and]
          intro g1 g2
          rw [addresses_iff b1] at g1
          rw [addresses_iff b2] at g2
          rw [g1] at h4
          have g3 : pyIdx (ncols s) (adjust s pos).2 = some j := g2
          rw [g3] at h5
          cases h4; cases h5
          exact hp rfl
      rw [this]; exact .refl t

theorem callsOn_cons (n m i j : Nat) (w : (Int × Int) × CellCall L) (ws : List ((Int × Int) × CellCall L)) :
    callsOn n m i j (w :: ws) = callsOn n m i j [w] ++ callsOn n m i j ws := by
  unfold callsOn
  rw [← List.map_append, ← List.filter_append]; rfl

/-- **C76** for histories: after any sequence of calls on cells, at any positions (also outside of the table), whether
they raise or not, every cell is the same element with the content of a single cell after the calls that address it, in
their order.  Writes to different cells do not affect each other.  Rows, columns and everything else are as before. -/
theorem C76_history {s : TState} (h : Inv s) (hrect : ∀ t ∈ docRows s.kids, (cells t).length = ncols s)
    (ws : List ((Int × Int) × CellCall L)) (hws : ∀ w ∈ ws, w.2.NoTable) :
    Inv (writes ws s) ∧
    (docRows (writes ws s).kids).map (fun t => (t.1, (cells t).length)) =
      (docRows s.kids).map (fun t => (t.1, (cells t).length)) ∧
    docCols (writes ws s).kids = docCols s.kids ∧ others (writes ws s).kids = others s.kids ∧
    (writes ws s).node = s.node ∧
    ∀ i j t, docCell s.kids i j = some t → ∃ t', docCell (writes ws s).kids i j = some t' ∧ t'.1.id = t.1.id ∧
      SameContent (single (callAll (callsOn (docRows s.kids).length (ncols s) i j ws) t)) (single t') := by
  have hrect' : ∀ t ∈ rowsOf s, t.2.length = ncols s := by
    intro t ht; rw [rowsOf_doc] at ht; rw [← length_toList]; exact hrect t ht
  suffices H : Inv (writes ws s) ∧ SameShape s (writes ws s) ∧ colsOf (writes ws s) = colsOf s ∧
      SameRest s (writes ws s) ∧ ∀ i j t, cellAt s (i, j) = some t → ∃ t', cellAt (writes ws s) (i, j) = some t' ∧
        t'.1.id = t.1.id ∧ Sim (callAll (callsOn (rowsOf s).length (ncols s) i j ws) t) t' by
    obtain ⟨a, b, c, d, e⟩ := H
    refine ⟨a, ?_, ?_, ?_, d.node, ?_⟩
    · rw [← rowsOf_doc, ← rowsOf_doc]; exact shape_map b
    · rw [← colsOf_doc, ← colsOf_doc, c]
    · rw [← skel_others, ← skel_others, d.skel]
    · intro i j t ht
      rw [← cellAt_doc] at ht
      obtain ⟨t', g1, g2, g3⟩ := e i j t ht
      rw [rowsOf_doc] at g3
      exact ⟨t', by rw [← cellAt_doc]; exact g1, g2, sim_content g3⟩
  clear hrect
  induction ws generalizing s with
  | nil => exact ⟨h, .refl s, rfl, .refl s, fun i j t ht => ⟨t, ht, rfl, .refl t⟩⟩
  | cons w ws ih =>
    obtain ⟨a, b, c, d, e⟩ := write_step h hrect' w (hws w (by simp))
    have hn : ncols (onCell w.1 w.2.run s).1 = ncols s := b.ncols h a
    obtain ⟨a', b', c', d', e'⟩ := ih a (fun v hv => hws v (by simp [hv]))
      (by rw [hn]; exact b.rect (fun t ht => hrect' t ht))
    refine ⟨a', b.trans b', c'.trans c, d.trans d', ?_⟩
    intro i j t ht
    obtain ⟨t1, g1, g2, g3⟩ := e i j t ht
    obtain ⟨t2, g4, g5, g6⟩ := e' i j t1 g1
    refine ⟨t2, g4, g5.trans g2, ?_⟩
    rw [callsOn_cons]
    unfold callAll at g3 ⊢
    rw [List.foldl_append]
    rw [b.length, hn] at g6
    exact (callAll_sim _ g3).trans g6

/-- **C76**: a call on a cell is one of the calls in the histories of C08, C09, C11, C19, C62 and others. -/
theorem C76_hist {s s' : TState} (h : Inv s) (hist : OkHist s s') {pos : Int × Int} (c : CellCall L) (hc : c.NoTable) :
    OkHist s (onCell pos c.run s').1 := by
  cases hg : getCell s' pos with
  | error e =>
    have : (onCell pos c.run s').1 = s' := by unfold onCell; rw [hg]
    rw [this]; exact hist
  | ok t =>
    obtain ⟨a, x, k, h1, h2, h3⟩ := onCell_run (hist_inv h hist.hist) (c.inPlace hc) hg
    rw [h2]
    exact .call (.editCell pos a x k) h1 h3 hist

/-! ## Rows and columns -/

/-- **C76** for rows: assigning or deleting a property of `row_info(i)` changes the attributes of that row element as it
changes those of a single element, with the same result; its cells and everything else stay as they were. -/
theorem C76_row {s : TState} (h : Inv s) {i : Int} {p : Nat} (hi : Denotes (docRows s.kids).length i p)
    (c : LineCall) :
    ∃ s' t, (docRows s.kids)[p]? = some t ∧ onRow i c.run s = (s', (c.run t.1).2) ∧
      docRows s'.kids = (docRows s.kids).set p ((c.run t.1).1, t.2) ∧ rowElem s' i = .ok ((c.run t.1).1, t.2) ∧
      docCols s'.kids = docCols s.kids ∧ others s'.kids = others s.kids ∧ s'.node = s.node ∧ Inv s' := by
  rw [← rowsOf_doc] at hi ⊢
  have hp := pyIdx_denotes.mpr hi
  obtain ⟨t, ht, hid⟩ := rowId_of h hp
  have hm := List.mem_of_getElem? ht
  have hre : rowElem s i = .ok t := by unfold rowElem; rw [hid]; simp only [find_row h hm]
  obtain ⟨s', e, a, b, cc, d⟩ := editRow_spec (a := (c.run t.1).1.attrs) h hp ht
  obtain ⟨g1, g2, g3, g4⟩ := c.attrChange.head t.1
  have hel : ({ t.1 with attrs := (c.run t.1).1.attrs } : Elem) = (c.run t.1).1 := by
    generalize c.run t.1 = r at g1 g2 g3 g4
    obtain ⟨⟨_, _, _, _, _⟩, _⟩ := r
    simp only at g1 g2 g3 g4
    simp only [g1, g2, g3, g4]
  rw [hel] at b
  refine ⟨s', t, ht, ?_, by rw [← rowsOf_doc]; exact b, ?_, ?_, ?_, d.node, a⟩
  · unfold onRow; rw [hre]; simp only [e]
  · have hlt : p < (rowsOf s).length := hi.1
    have hp' : pyIdx (rowsOf s').length i = some p := by rw [b, List.length_set]; exact hp
    obtain ⟨u, k1, k2⟩ := rowId_of a hp'
    have k3 := List.mem_of_getElem? k1
    rw [b, List.getElem?_set_self hlt] at k1
    cases k1
    unfold rowElem; rw [k2]; simp only [find_row a k3]
  · rw [← colsOf_doc, ← colsOf_doc, cc]
  · rw [← skel_others, ← skel_others, d.skel]

/-- **C76** for columns: likewise `column_info(j)`; in particular the row elements and cells stay as they were. -/
theorem C76_column {s : TState} (h : Inv s) {j : Int} {p : Nat} (hj : Denotes (docCols s.kids).length j p)
    (c : LineCall) :
    ∃ s' t, (docCols s.kids)[p]? = some t ∧ onColumn j c.run s = (s', (c.run t.1).2) ∧
      docCols s'.kids = (docCols s.kids).set p ((c.run t.1).1, t.2) ∧ columnInfo s' j = .ok ((c.run t.1).1, t.2) ∧
      docRows s'.kids = docRows s.kids ∧ others s'.kids = others s.kids ∧ s'.node = s.node ∧ Inv s' := by
  rw [← colsOf_doc] at hj ⊢
  have hp := pyIdx_denotes.mpr hj
  have hinfo : ∀ {q : TState} {u : Tree}, Inv q → pyIdx (colsOf q).length j = some p → (colsOf q)[p]? = some u →
      columnInfo q j = .ok u := by
    intro q u hq h1 h2
    have hm := List.mem_of_getElem? h2
    have hid : colId q j = .ok u.1.id := by rw [colId_eq hq, h1]; simp only [h2]
    unfold columnInfo; rw [hid]; simp only [find_col hq hm]
  have ht := List.getElem?_eq_getElem hj.1
  generalize (colsOf s)[p]'hj.1 = t at ht
  have hre := hinfo h hp ht
  obtain ⟨s', e, a, b, cc, d⟩ := editColumn_spec (a := (c.run t.1).1.attrs) h hp ht
  obtain ⟨g1, g2, g3, g4⟩ := c.attrChange.head t.1
  have hel : ({ t.1 with attrs := (c.run t.1).1.attrs } : Elem) = (c.run t.1).1 := by
    generalize c.run t.1 = r at g1 g2 g3 g4
    obtain ⟨⟨_, _, _, _, _⟩, _⟩ := r
    simp only at g1 g2 g3 g4
    simp only [g1, g2, g3, g4]
  rw [hel] at b
  refine ⟨s', t, ht, ?_, by rw [← colsOf_doc]; exact b, ?_, ?_, ?_, d.node, a⟩
  · unfold onColumn; rw [hre]; simp only [e]
  · refine hinfo a (by rw [b, List.length_set]; exact hp) ?_
    rw [b, List.getElem?_set_self hj.1]
  · rw [← rowsOf_doc, ← rowsOf_doc, cc]
  · rw [← skel_others, ← skel_others, d.skel]

/-! ## Concrete cases -/

def sheet22 : TState := (newTable 0 "t".toList (2, 2)).1

-- the assumptions hold of a created table, for positions counted from either end
example : Inv sheet22 ∧ (∀ t ∈ docRows sheet22.kids, (cells t).length = ncols sheet22) ∧
    Denotes (docRows sheet22.kids).length (-1) 1 ∧ Denotes (ncols sheet22) 0 0 ∧
    Denotes (docCols sheet22.kids).length (-2) 0 := by
  obtain ⟨s, e, hE, _⟩ := newTable_spec 0 (nm := "t".toList) (n := 2) (w := 2) (by decide) (by decide) (by decide)
  have : sheet22 = s := by unfold sheet22; rw [e]
  refine ⟨by rw [this]; exact hE.inv, by decide +kernel, by unfold Denotes; decide +kernel,
    by unfold Denotes; decide +kernel, by unfold Denotes; decide +kernel⟩

/-- Writes at positions counted from the end, twice at the same cell, one refused and one outside. -/
def someWrites : List ((Int × Int) × CellCall intLib) :=
  [((0, 0), .setValue (.int 5) none none), ((-1, -1), .setValue (.str "a".toList) none none),
   ((1, 1), .appendText "b".toList), ((0, 0), .appendText "refused".toList), ((7, 0), .setValue (.int 1) none none),
   ((-4, -1), .assign (.string "table:style-name") (by decide) (.str "ce1".toList)),
   ((0, 0), .setDisplayForm "five".toList)]

example : (∀ w ∈ someWrites, w.2.NoTable) ∧
    (callsOn 2 2 1 1 someWrites).length = 2 ∧ (callsOn 2 2 0 1 someWrites).length = 1 ∧
    (callsOn 2 2 0 0 someWrites).length = 3 ∧ (callsOn 2 2 1 0 someWrites).length = 0 := by
  refine ⟨?_, by decide +kernel, by decide +kernel, by decide +kernel, by decide +kernel⟩
  intro w hw
  simp only [someWrites, List.mem_cons, List.mem_nil_iff, or_false] at hw
  rcases hw with rfl | rfl | rfl | rfl | rfl | rfl | rfl <;> simp [CellCall.NoTable]

example : (getCell (writes someWrites sheet22) (0, 0)).toOption.bind plaintext = some "five".toList ∧
    (getCell (writes someWrites sheet22) (1, 1)).toOption.bind plaintext = some "ab".toList ∧
    (getCell (writes someWrites sheet22) (0, 1)).toOption.bind (fun t => t.1.get "table:style-name") =
      some "ce1".toList ∧
    (getCell (writes someWrites sheet22) (1, 0)).toOption.map (fun t => (t.1.attrs, t.2)) = some ([], .nil) := by
  decide +kernel

-- a property of a row and of a column, and a refused value
example : (onRow (-1) (LineCall.assign .visibility (by decide) (.str "collapse".toList)).run sheet22).2 = .ok () ∧
    (onColumn 0 (LineCall.assign .visibility (by decide) (.str "hidden".toList)).run sheet22).2 =
      .error .ValueError ∧
    (onColumn 0 (LineCall.delete (.string "table:style-name") (by decide)).run sheet22).2 = .error .KeyError ∧
    (rowElem (onRow (-1) (LineCall.assign .visibility (by decide) (.str "collapse".toList)).run sheet22).1 1).toOption.map
      (fun t => t.1.attrs) = some [("table:visibility", "collapse".toList)] := by
  decide +kernel

end Verif.Tbl
