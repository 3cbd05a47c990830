import Verif.Props.TableWrite
import Verif.Proofs.TableMove
/-!
# Property C77: assigning a cell of the table to another place
-/
set_option linter.unusedSimpArgs false
namespace Verif.Tbl
open Verif Verif.Forest Verif.TSpec

/-- The row number `i` with cells `c`, after the cell `t` was put in place of the cell `(iq, jq)` and taken out of its
own place `(ip, jp)`. -/
def afterMove (ip jp iq jq : Nat) (t : Tree) (i : Nat) (c : List Tree) : List Tree :=
  let c := if i = iq then c.set jq t else c
  if i = ip then c.eraseIdx jp else c

/-- **C77** `table[pos] = table[source]` moves the cell: it takes the place of the cell at `pos` and leaves its row,
where the later cells move one place to the left.  Other rows, the row elements, the columns, the other children and the
table element are as before, and the list of rows is that of the tree. -/
theorem C77_move {s : TState} (h : Inv s)
    (hrect : ∀ t ∈ docRows s.kids, (cells t).length = ncols s) {pos source : Int × Int} {ip jp iq jq : Nat}
    (hi : Denotes (docRows s.kids).length source.1 ip) (hj : Denotes (ncols s) source.2 jp)
    (hi' : Denotes (docRows s.kids).length pos.1 iq) (hj' : Denotes (ncols s) pos.2 jq) (hne : (ip, jp) ≠ (iq, jq))
    {t : Tree} (ht : docCell s.kids ip jp = some t)
    (htag : t.1.tag = "table:table-cell" ∨ t.1.tag = "table:covered-table-cell") :
    ∃ s', assignCell pos source s = (s', .ok ()) ∧
      (docRows s'.kids).map (fun r => (r.1, cells r)) =
        (docRows s.kids).mapIdx (fun i r => (r.1, afterMove ip jp iq jq t i (cells r))) ∧
      docCols s'.kids = docCols s.kids ∧ others s'.kids = others s.kids ∧ s'.node = s.node ∧ Inv s' := by
  obtain ⟨u, t', h1, h2, h3⟩ := locate_denotes h hrect hi hj
  obtain ⟨v, old, g1, g2, g3⟩ := locate_denotes h hrect hi' hj'
  have : t' = t := by
    rw [← cellAt_doc] at ht
    unfold cellAt at ht
    simp only [h1, Option.bind_some, h2, Option.some.injEq] at ht
    exact ht
  subst this
  obtain ⟨s', e, a, b, c, d, _⟩ := setCell_existing h h1 h2 g1 g2 hne g3
  refine ⟨s', ?_, ?_, ?_, ?_, d.node, a⟩
  · unfold assignCell getCell
    rw [h3]
    exact (if_pos htag).trans e
  · rw [← rowsOf_doc, ← rowsOf_doc, b]
    apply List.ext_getElem?
    intro n
    simp only [List.getElem?_map, List.getElem?_mapIdx, Option.map_map]
    cases (rowsOf s)[n]? with
    | none => rfl
    | some r =>
      simp only [Option.map_some, Function.comp_apply, cells, toList_ofList]
      rfl
  · rw [← colsOf_doc, ← colsOf_doc, c]
  · rw [← skel_others, ← skel_others, d.skel]

/-- Afterwards the cell is at its new place, and every row except its old one has the cells it had at all other
places. -/
theorem C77_cells {ip jp iq jq : Nat} {t : Tree} {c : List Tree} (hlt : jq < c.length) (hlt' : jp < c.length) :
    (iq ≠ ip → (afterMove ip jp iq jq t iq c)[jq]? = some t) ∧
    (ip = iq → jp ≠ jq → (afterMove ip jp iq jq t iq c)[if jp < jq then jq - 1 else jq]? = some t) ∧
    (∀ i j, i ≠ ip → (i, j) ≠ (iq, jq) → (afterMove ip jp iq jq t i c)[j]? = c[j]?) ∧
    (∀ j, ip ≠ iq → (afterMove ip jp iq jq t ip c)[j]? = if j < jp then c[j]? else c[j + 1]?) ∧
    (afterMove ip jp iq jq t ip c).length = c.length - 1 ∧
    (∀ i, i ≠ ip → (afterMove ip jp iq jq t i c).length = c.length) := by
  refine ⟨?_, ?_, ?_, ?_, ?_, ?_⟩
  · intro hn
    simp only [afterMove, if_true, if_neg hn, List.getElem?_set_self hlt]
  · rintro rfl hn
    simp only [afterMove, if_true, List.getElem?_eraseIdx, List.getElem?_set]
    by_cases hl : jp < jq
    · simp only [if_pos hl, if_neg (show ¬ jq - 1 < jp by omega),
        show jq - 1 + 1 = jq by omega, if_true, if_pos hlt]
    · simp only [if_neg hl, if_pos (show jq < jp by omega), if_true, if_pos hlt]
  · intro i j hn hp
    simp only [afterMove, if_neg hn]
    by_cases h : i = iq
    · subst h
      rw [if_pos rfl, List.getElem?_set_ne (fun h => hp (by rw [h]))]
    · rw [if_neg h]
  · intro j hn
    simp only [afterMove, if_neg hn, if_true, List.getElem?_eraseIdx]
  · simp only [afterMove, if_true]
    split <;> simp only [List.length_eraseIdx, List.length_set, if_pos hlt']
  · intro i hn
    simp only [afterMove, if_neg hn]
    split <;> simp only [List.length_set]

/-- Assigning a cell to its own place changes nothing. -/
theorem C77_same {s : TState} (h : Inv s)
    (hrect : ∀ t ∈ docRows s.kids, (cells t).length = ncols s) {pos source : Int × Int} {i j : Nat}
    (hi : Denotes (docRows s.kids).length source.1 i) (hj : Denotes (ncols s) source.2 j)
    (hi' : Denotes (docRows s.kids).length pos.1 i) (hj' : Denotes (ncols s) pos.2 j)
    {t : Tree} (ht : docCell s.kids i j = some t)
    (htag : t.1.tag = "table:table-cell" ∨ t.1.tag = "table:covered-table-cell") :
    assignCell pos source s = (s, .ok ()) := by
  obtain ⟨u, t', h1, h2, h3⟩ := locate_denotes h hrect hi hj
  obtain ⟨v, old, g1, g2, g3⟩ := locate_denotes h hrect hi' hj'
  rw [h1] at g1; cases g1
  rw [h2] at g2; cases g2
  rw [← cellAt_doc] at ht
  unfold cellAt at ht
  simp only [h1, Option.bind_some, h2, Option.some.injEq] at ht
  subst ht
  unfold assignCell getCell setCell
  rw [h3]
  simp only [Cells.cellTag, Cells.coveredTag, g3, if_true]
  rw [if_pos htag]

/-- A table with more than one row does not stay rectangular when a cell moves, whatever the places: the row that the
cell came from is one shorter than the others.  So calls of this kind are not among those of C09. -/
theorem C77_rectangular_refuted {s : TState} (h : Inv s)
    (hrect : ∀ t ∈ docRows s.kids, (cells t).length = ncols s) {pos source : Int × Int} {ip jp iq jq : Nat}
    (hi : Denotes (docRows s.kids).length source.1 ip) (hj : Denotes (ncols s) source.2 jp)
    (hi' : Denotes (docRows s.kids).length pos.1 iq) (hj' : Denotes (ncols s) pos.2 jq) (hne : (ip, jp) ≠ (iq, jq))
    {t : Tree} (ht : docCell s.kids ip jp = some t)
    (htag : t.1.tag = "table:table-cell" ∨ t.1.tag = "table:covered-table-cell") (h2 : 2 ≤ (docRows s.kids).length) :
    ¬ ∃ w, ∀ r ∈ docRows (assignCell pos source s).1.kids, (cells r).length = w := by
  obtain ⟨s', e, hr, _⟩ := C77_move h hrect hi hj hi' hj' hne ht htag
  rintro ⟨w, hw⟩
  rw [e] at hw
  have hlen : ∀ (k : Nat) (r : Tree), (docRows s.kids)[k]? = some r →
      (afterMove ip jp iq jq t k (cells r)).length = w := by
    intro k r hk
    have := congrArg (fun l => l[k]?) hr
    simp only [List.getElem?_map, List.getElem?_mapIdx, hk, Option.map_some] at this
    cases hk' : (docRows s'.kids)[k]? with
    | none => rw [hk'] at this; cases this
    | some r' =>
      rw [hk'] at this
      simp only [Option.map_some, Option.some.injEq, Prod.mk.injEq] at this
      rw [← this.2]
      exact hw r' (List.mem_of_getElem? hk')
  have hip := hi.1
  obtain ⟨k, hk, hkp⟩ : ∃ k, k < (docRows s.kids).length ∧ k ≠ ip := by
    by_cases h0 : ip = 0
    · exact ⟨1, by omega, by omega⟩
    · exact ⟨0, by omega, by omega⟩
  have a := hlen ip _ (List.getElem?_eq_getElem hip)
  have b := hlen k _ (List.getElem?_eq_getElem hk)
  have ca := hrect _ (List.getElem_mem hip)
  have cb := hrect _ (List.getElem_mem hk)
  have hjp := hj.1
  have hjq := hj'.1
  rw [(C77_cells (iq := iq) (ip := ip) (t := t) (by rw [ca]; exact hjq) (by rw [ca]; exact hjp)).2.2.2.2.1] at a
  rw [(C77_cells (iq := iq) (ip := ip) (t := t) (by rw [cb]; exact hjq) (by rw [cb]; exact hjp)).2.2.2.2.2 k hkp] at b
  omega

/-- Another element in a row (no cell) is refused, without effect. -/
theorem C77_type {s : TState} {pos source : Int × Int} {t : Tree} (hg : getCell s source = .ok t)
    (htag : ¬ (t.1.tag = "table:table-cell" ∨ t.1.tag = "table:covered-table-cell")) :
    assignCell pos source s = (s, .error .TypeError) := by
  unfold assignCell
  rw [hg]
  exact if_neg htag

/-! ## Examples -/

/-- A table of two rows and two columns with text in the first row. -/
def moveSheet : TState :=
  writes (L := Cells.intLib) [((0, 0), .setValue (.str "a".toList) none none), ((0, 1), .setValue (.str "b".toList) none none)] sheet22

/-- The texts of the cells. -/
def texts (s : TState) : List (List (Option Str)) := (docRows s.kids).map fun r => (cells r).map Cells.plaintext

example : texts moveSheet = [[some "a".toList, some "b".toList], [some [], some []]] ∧
    texts (assignCell (1, 1) (0, 0) moveSheet).1 = [[some "b".toList], [some [], some "a".toList]] ∧
    texts (assignCell (0, 1) (0, 0) moveSheet).1 = [[some "a".toList], [some [], some []]] ∧
    texts (assignCell (0, 0) (-1, -1) moveSheet).1 = [[some [], some "b".toList], [some []]] ∧
    texts (assignCell (0, 0) (-2, 0) moveSheet).1 = texts moveSheet ∧
    (assignCell (0, 0) (2, 0) moveSheet).2 = .error .IndexError := by
  decide +kernel

example : Inv sheet22 ∧ (∀ t ∈ docRows sheet22.kids, (cells t).length = ncols sheet22) ∧
    Denotes (docRows sheet22.kids).length (-1) 1 ∧ Denotes (ncols sheet22) 0 0 ∧
    (docCell sheet22.kids 1 0).map (fun t => t.1.tag) = some "table:table-cell" ∧
    2 ≤ (docRows sheet22.kids).length := by
  obtain ⟨s, e, hE, _⟩ := newTable_spec 0 (nm := "t".toList) (n := 2) (w := 2) (by decide) (by decide) (by decide)
  have : sheet22 = s := by unfold sheet22; rw [e]
  refine ⟨by rw [this]; exact hE.inv, by decide +kernel, by unfold Denotes; decide +kernel,
    by unfold Denotes; decide +kernel, by decide +kernel, by decide +kernel⟩

end Verif.Tbl
