import Verif.Props.Spans
import Verif.Props.Outside
/-!
# Property C14, continued: what a refused call leaves behind

`C14` is false (see the refutations in `TableMore.lean`).  The theorems here say for every table exactly
what is left after the refused calls that change it.
-/
set_option linter.unusedSimpArgs false
namespace Verif.Tbl
open Verif Verif.Forest Verif.Cells Verif.TSpec

/-! ## Rows -/

/-- **C14** is false for every `delete_rows` that starts inside and ends outside of the table: all rows from
the index on are gone when IndexError is raised. -/
theorem C14_delete_rows_damage {s : TState} (h : Inv s) {i n : Int} {p : Nat}
    (hp : Denotes (docRows s.kids).length i p) (hall : n < (docRows s.kids).length)
    (hend : (docRows s.kids).length < p + n) :
    ∃ s', deleteRows i n s = (s', .error .IndexError) ∧ docRows s'.kids = (docRows s.kids).take p ∧
      docRows s'.kids ≠ docRows s.kids ∧ RowsOnly s s' := by
  rw [← rowsOf_doc] at hp hall hend
  have hlt := hp.1
  obtain ⟨s', e, i', r, c, sr⟩ := deleteRow_repeat_fail n.toNat h (n := p) (by omega) (by omega) (by omega)
  refine ⟨s', ?_, by rw [← rowsOf_doc, r, rowsOf_doc], ?_, rowsOnly i' c sr⟩
  · unfold deleteRows
    rw [nrows_eq h, if_neg (by omega), adjust_denotes hp, e]
  · rw [← rowsOf_doc, ← rowsOf_doc, r]
    intro he
    have := congrArg List.length he
    rw [List.length_take] at this
    omega

/-! ## Columns -/

theorem deleteCells_row_fail : ∀ (n : Nat) {s : TState} (_ : Inv s) {L R : List Tree} {t : Tree}
    (_ : rowsOf s = L ++ t :: R) {j : Nat} (_ : j ≤ t.2.length) (_ : t.2.length < j + n) (_ : 0 < n),
    ∃ s' k', repeatPy n (deleteCell j t.1.id) s = (s', .error .IndexError) ∧ Inv s' ∧
      k'.toList = t.2.toList.take j ∧
      rowsOf s' = L ++ (t.1, k') :: R ∧ colsOf s' = colsOf s ∧ SameRest s s' := by
  intro n
  induction n with
  | zero => intro s h L R t hr j _ _ h0; omega
  | succ n ih =>
    intro s h L R t hr j hj hn _
    by_cases hlt : j < t.2.length
    · obtain ⟨s1, k1, e1, i1, q1, r1, c1, sr1⟩ := deleteCell_spec h hr (j := j) hlt
      have hl1 : k1.length = t.2.length - 1 := by
        rw [← length_toList, q1]; simp; omega
      obtain ⟨s2, k2, e2, i2, q2, r2, c2, sr2⟩ := ih i1 r1 (j := j) (by simp only; omega) (by simp only; omega)
        (by omega)
      refine ⟨s2, k2, by rw [repeatPy_succ e1]; exact e2, i2, ?_, r2, by rw [c2, c1], sr1.trans sr2⟩
      have hl : (t.2.toList.take j).length = j := by simp; omega
      rw [q2]
      simp only [q1]
      rw [List.take_append, hl]
      simp [List.take_take]
    · have htm : t ∈ rowsOf s := by rw [hr]; simp
      refine ⟨s, t.2, repeatPy_succ_error ?_, h, ?_, hr, rfl, .refl s⟩
      · unfold deleteCell
        rw [kidsOf_row h htm, pyIdx_nat_none (by omega)]
      · rw [List.take_of_length_le]; rw [length_toList]; omega

/-- **C14** is false for every `delete_columns` that starts inside and ends outside of the table: the first
row loses all its cells from the index on, all other rows and the column infos stay, and the table is no longer
rectangular if there are two rows. -/
theorem C14_delete_columns_damage {s : TState} (h : Inv s) {i n : Int} {p : Nat} {t : Tree} {ts : List Tree}
    (hrows : docRows s.kids = t :: ts) (hp : Denotes (cells t).length i p) (hall : n < (cells t).length)
    (hend : (cells t).length < p + n) :
    ∃ s' t', deleteColumns i n s = (s', .error .IndexError) ∧ docRows s'.kids = t' :: ts ∧ t'.1 = t.1 ∧
      cells t' = (cells t).take p ∧ (cells t').length < (cells t).length ∧
      docCols s'.kids = docCols s.kids ∧ others s'.kids = others s.kids ∧ s'.node = s.node ∧ Inv s' := by
  have hr : rowsOf s = [] ++ t :: ts := by rw [rowsOf_doc]; exact hrows
  have hn : ncols s = (cells t).length := by rw [ncols_eq h, hr]; simp [cells]
  have hlt := hp.1
  have hl : (cells t).length = t.2.length := by simp [cells]
  obtain ⟨s', k', e, i', q, r, c, sr⟩ := deleteCells_row_fail n.toNat h hr (j := p) (by omega) (by omega) (by omega)
  have e2 : cellsDeleteColumns i n s = (s', .error .IndexError) := by
    unfold cellsDeleteColumns
    rw [if_neg (by omega)]
    simp only
    rw [hn, adjust_denotes hp, h.rows, hr, List.nil_append, List.map_cons]
    exact forPy_cons_error e
  refine ⟨s', (t.1, k'), ?_, by rw [← rowsOf_doc, r]; rfl, rfl, q, ?_, ?_, ?_, sr.node, i'⟩
  · unfold deleteColumns; rw [Py.bind_error e2]
  · show k'.toList.length < _
    rw [q, List.length_take]; unfold cells at hlt; simp only [cells]; omega
  · rw [← colsOf_doc, ← colsOf_doc, c]
  · rw [← skel_others, ← skel_others, sr.skel]

/-- Inserting behind the last cell appends, also when the row has become longer. -/
theorem insertCells_behind (n : Nat) {s : TState} (h : Inv s) {L R : List Tree} {t : Tree}
    (hr : rowsOf s = L ++ t :: R) {j : Nat} (hj : t.2.length ≤ j) :
    ∃ s' k', repeatPy n (insertCell j t.1.id) s = (s', .ok ()) ∧ Inv s' ∧ AppendedCells n t.2 k' ∧
      rowsOf s' = L ++ (t.1, k') :: R ∧ colsOf s' = colsOf s ∧ SameRest s s' := by
  have := repeatRow (m := insertCell j t.1.id) (id := t.1.id)
    (fun n k k' => k.length ≤ j → AppendedCells n k k')
    (fun k hk => ⟨[], rfl, by simp, by simp⟩) ?_ n s h L t R rfl hr
  · obtain ⟨s', k', e, i, q, rest⟩ := this
    exact ⟨s', k', e, i, q hj, rest⟩
  intro n s h L u R hid hr k0 hq
  obtain ⟨n1, n2, n3⟩ := newCell_ok h
  obtain ⟨m, hm, hl⟩ : ∃ m, m ≤ u.2.length ∧ (k0.length ≤ j → AppendedCells n k0 u.2 → k0.length ≤ m) ∧
      (u.2.insertAt j (newCell s.fresh)).toList =
      u.2.toList.take m ++ ([newCell s.fresh] ++ u.2.toList.drop m) := by
    by_cases hju : j < u.2.length
    · refine ⟨j, by omega, fun h _ => h, ?_⟩
      unfold insertAt
      rw [toList_ofList, Org.lxmlInsert_nat _ _ (by simp; omega)]; rfl
    · refine ⟨u.2.length, Nat.le_refl _, ?_, ?_⟩
      · rintro _ ⟨news, _, _, h3⟩
        rw [← length_toList u.2, h3, List.length_append, length_toList]; omega
      · unfold insertAt Org.lxmlInsert
        rw [toList_ofList, length_toList, pyIdx_nat_none (by omega)]
        rw [← length_toList, List.take_length, List.drop_length]; rfl
  have step := cellStep h hr (fun k => k.insertAt j (newCell s.fresh)) (A := u.2.toList.take m)
    (O := []) (N := [newCell s.fresh]) (B := u.2.toList.drop m) (by simp) hl.2
    (s.fresh + 1) (by omega) n1 n2 n3
  rw [← hid]
  refine ⟨_, _, rfl, step.1, fun hk0 => ?_, step.2⟩
  have hqq := hq hk0
  have hkm := hl.1 hk0 hqq
  obtain ⟨news, h1, h2, h3⟩ := hqq
  refine ⟨news.take (m - k0.length) ++ ([newCell s.fresh] ++ news.drop (m - k0.length)), ?_, ?_, ?_⟩
  · have : m ≤ k0.length + news.length := by
      rw [← length_toList u.2, h3, List.length_append, length_toList] at hm; exact hm
    simp; omega
  · intro x hx
    simp only [List.mem_append, List.mem_singleton] at hx
    rcases hx with hx | rfl | hx
    · exact h2 x (List.mem_of_mem_take hx)
    · exact ⟨rfl, rfl, rfl, rfl, rfl⟩
    · exact h2 x (List.mem_of_mem_drop hx)
  · rw [hl.2, h3, List.take_append, List.drop_append, length_toList]
    rw [List.take_of_length_le (by rw [length_toList]; exact hkm), List.drop_of_length_le (by rw [length_toList]; exact hkm)]
    simp

/-- **C14** is false for every `insert_columns` behind the last column: `n` empty cells are appended to
every row, and IndexError is raised without new column infos. -/
theorem C14_insert_columns_damage {s : TState} (h : Inv s)
    (hrect : ∀ t ∈ docRows s.kids, (cells t).length = ncols s) (hstep : (docCols s.kids).length = ncols s)
    {i n : Int} (hn : 1 ≤ n) (hi : (ncols s : Int) ≤ i) :
    ∃ s', insertColumns i n s = (s', .error .IndexError) ∧
      List.Forall₂ (fun t t' => t'.1 = t.1 ∧ ∃ nc : List Tree, (nc.length : Int) = n ∧
        (∀ c ∈ nc, EmptyCell c) ∧ cells t' = cells t ++ nc) (docRows s.kids) (docRows s'.kids) ∧
      docCols s'.kids = docCols s.kids ∧ others s'.kids = others s.kids ∧ s'.node = s.node ∧ Inv s' := by
  obtain ⟨j, rfl⟩ : ∃ j : Nat, i = j := ⟨i.toNat, by omega⟩
  obtain ⟨s', R', e, i', q, r, c, sr⟩ := forRows (m := fun r => repeatPy n.toNat (insertCell j r))
    (C := fun k => k.length ≤ j) (Q := AppendedCells n.toNat)
    (fun s h L t R hr hC => insertCells_behind _ h hr hC) (rowsOf s) s [] h rfl (by
      intro t ht
      have := hrect t (by rw [← rowsOf_doc]; exact ht)
      simp only [cells, length_toList] at this
      omega)
  have e1 : cellsInsertColumns j n s = (s', .ok ()) := by
    unfold cellsInsertColumns
    rw [if_neg (by omega)]
    simp only
    rw [if_neg (by omega), h.rows, e]
  have hcl : s'.cols.length = ncols s := by
    rw [i'.cols, List.length_map, c, colsOf_doc, hstep]
  have e2 : colsInsert j n s' = (s', .error .IndexError) := by
    unfold colsInsert
    rw [if_neg (by omega), if_neg (by omega)]
    obtain ⟨k, hk⟩ : ∃ k, n.toNat = k + 1 := ⟨n.toNat - 1, by omega⟩
    rw [hk]
    apply repeatPy_succ_error
    have hz : pyIdx s'.cols.length (j : Int) = none := pyIdx_nat_none (by omega)
    unfold insertCol colId
    rw [hz]
  refine ⟨s', ?_, ?_, by rw [← colsOf_doc, ← colsOf_doc, c], by rw [← skel_others, ← skel_others, sr.skel],
    sr.node, i'⟩
  · unfold insertColumns; rw [Py.bind_ok e1, e2]
  · rw [← rowsOf_doc, ← rowsOf_doc, r]
    refine List.Forall₂.imp ?_ q
    rintro t t' ⟨h1, nc, h2, h3, h4⟩
    exact ⟨h1, nc, by omega, h3, h4⟩

/-- **C14** is false for every `append_columns` on a table without column infos: the cells are appended and
IndexError is raised. -/
theorem C14_append_columns_damage {s : TState} (h : Inv s) (hc : docCols s.kids = []) {n : Int} (hn : 1 ≤ n) :
    ∃ s', appendColumns n s = (s', .error .IndexError) ∧
      List.Forall₂ (fun t t' => t'.1 = t.1 ∧ ∃ nc : List Tree, (nc.length : Int) = n ∧
        (∀ c ∈ nc, EmptyCell c) ∧ cells t' = cells t ++ nc) (docRows s.kids) (docRows s'.kids) ∧
      docCols s'.kids = [] ∧ others s'.kids = others s.kids ∧ s'.node = s.node ∧ Inv s' := by
  obtain ⟨s1, e1, i1, q1, c1, sr1⟩ := cellsAppendColumns_spec h hn
  have hc1 : s1.cols = [] := by rw [i1.cols, c1, colsOf_doc, hc]; rfl
  refine ⟨s1, ?_, ?_, by rw [← colsOf_doc, c1, colsOf_doc, hc], by rw [← skel_others, ← skel_others, sr1.skel],
    sr1.node, i1⟩
  · unfold appendColumns
    rw [Py.bind_ok e1]
    unfold colsAppend
    rw [if_neg (by omega)]
    obtain ⟨k, hk⟩ : ∃ k, n.toNat = k + 1 := ⟨n.toNat - 1, by omega⟩
    rw [hk]
    apply repeatPy_succ_error
    unfold appendCol; rw [hc1]; rfl
  · rw [← rowsOf_doc, ← rowsOf_doc]
    refine List.Forall₂.imp ?_ q1
    rintro t t' ⟨h1, nc, h2, h3, h4⟩
    exact ⟨h1, nc, by omega, h3, h4⟩

/-! ## Reset -/

/-- **C14** is false for every refused `reset`: the table element has lost all its children and all its
attributes but the name, while `nrows()` still shows the old number of rows.  It is refused with AttributeError
without a name, and with ValueError for a name of quotes and white space or a size below one. -/
theorem C14_reset_damage (s : TState) (n w : Int) {e : Exc} (he : (reset (n, w) s).2 = .error e) :
    ∃ s', reset (n, w) s = (s', .error e) ∧ s'.kids = .nil ∧ docRows s'.kids = [] ∧ nrows s' = nrows s ∧
      (name s = none → e = .AttributeError ∧ s'.node.attrs = []) ∧
      (∀ nm, name s = some nm → (∀ c ∈ nm, badChar c ∨ isPySpace c = true) → e = .ValueError ∧ s'.node.attrs = []) ∧
      (∀ nm, name s = some nm → (∃ c ∈ nm, ¬ badChar c ∧ isPySpace c = false) →
        e = .ValueError ∧ (n < 1 ∨ w < 1) ∧ s'.node.attrs = [("table:name", normalizeName nm)]) := by
  have e1 : clearNode s = ({ s with node := { id := s.node.id, tag := s.node.tag }, kids := .nil }, .ok ()) := rfl
  cases hn : name s with
  | none =>
    have er : reset (n, w) s = ({ s with node := { id := s.node.id, tag := s.node.tag }, kids := .nil }, .error .AttributeError) := by
      unfold reset; rw [Py.bind_ok e1, hn]; rfl
    rw [er] at he; cases he
    exact ⟨_, er, rfl, rfl, rfl, fun _ => ⟨rfl, rfl⟩, fun _ h => by simp at h, fun _ h => by simp at h⟩
  | some nm =>
    by_cases hb : normalizeName nm = []
    · have er : reset (n, w) s = ({ s with node := { id := s.node.id, tag := s.node.tag }, kids := .nil }, .error .ValueError) := by
        unfold reset
        rw [Py.bind_ok e1, hn]
        apply Py.bind_error
        unfold setName; simp [hb]
      rw [er] at he; cases he
      refine ⟨_, er, rfl, rfl, rfl, fun h => by simp at h, fun _ _ _ => ⟨rfl, rfl⟩, ?_⟩
      rintro nm' h ⟨c, hc, h1, h2⟩
      cases h
      rcases normalizeName_nil.mp hb c hc with h | h
      · exact absurd h h1
      · rw [h2] at h; cases h
    · have e2 : setName (some nm) { s with node := { id := s.node.id, tag := s.node.tag }, kids := .nil } = ({ s with node := Elem.set { id := s.node.id, tag := s.node.tag } "table:name" (normalizeName nm), kids := .nil }, .ok ()) := by
        unfold setName
        simp [hb]
      have hsz : n < 1 ∨ w < 1 := by
        by_contra hc
        have : (reset (n, w) s).2 = .ok () := reset_ok_iff.mpr ⟨⟨nm, hn, hb⟩, by omega, by omega⟩
        rw [this] at he; cases he
      have er : reset (n, w) s = ({ s with node := Elem.set { id := s.node.id, tag := s.node.tag } "table:name" (normalizeName nm), kids := .nil }, .error .ValueError) := by
        unfold reset
        rw [Py.bind_ok e1, hn, Py.bind_ok e2]
        apply Py.bind_error
        unfold cellsReset
        by_cases h1 : n < 1
        · simp only; rw [if_pos h1]; rfl
        · simp only; rw [if_neg h1, if_pos (by omega)]; rfl
      rw [er] at he; cases he
      refine ⟨_, er, rfl, rfl, rfl, fun h => by simp at h, ?_, ?_⟩
      · intro nm' h h0
        cases h
        exact absurd (normalizeName_nil.mpr h0) hb
      · intro nm' h _
        cases h
        exact ⟨rfl, hsz, rfl⟩

/-- The hypotheses are met: a table of three rows and two columns. -/
example : ∃ s, newTable 0 "t".toList (3, 2) = (s, .ok ()) ∧ Inv s ∧ Denotes (docRows s.kids).length (-1) 2 ∧
    (deleteRows (-1) 2 s).2 = .error .IndexError ∧ nrows (deleteRows (-1) 2 s).1 = 2 ∧
    (deleteColumns 1 1 s).2 = .ok () ∧ (insertColumns 7 2 s).2 = .error .IndexError ∧
    ncols (insertColumns 7 2 s).1 = 4 ∧ (reset (0, 1) s).2 = .error .ValueError ∧ nrows (reset (0, 1) s).1 = 3 := by
  have e : newTable 0 "t".toList (3, 2) = ((newTable 0 "t".toList (3, 2)).1, .ok ()) := by decide +kernel
  refine ⟨_, e, (created_inStep 0 e).inv, ?_, ?_⟩
  · have : (docRows (newTable 0 "t".toList (3, 2)).1.kids).length = 3 := by decide +kernel
    rw [this]; exact ⟨by decide, .inr (by decide)⟩
  · decide +kernel

/-- `delete_columns` that ends outside: three columns, index 2, two columns. -/
example : ∃ s t ts, newTable 0 "t".toList (2, 3) = (s, .ok ()) ∧ docRows s.kids = t :: ts ∧
    (cells t).length = 3 ∧ Denotes 3 2 2 ∧ (2 : Int) < 3 ∧ (3 : Int) < 2 + 2 :=
  ⟨(newTable 0 "t".toList (2, 3)).1, (docRows (newTable 0 "t".toList (2, 3)).1.kids).head (by decide +kernel),
    (docRows (newTable 0 "t".toList (2, 3)).1.kids).tail, by decide +kernel, by decide +kernel, by decide +kernel,
    ⟨by decide, .inl rfl⟩, by decide, by decide⟩

/-- A table of one row with two cells and no column infos, as read from a file. -/
def tNoCols : TState where
  node := { id := 0, tag := "table:table" }
  kids := .cons { id := 1, tag := "table:table-row" }
    (.cons { id := 2, tag := "table:table-cell" } .nil (.cons { id := 3, tag := "table:table-cell" } .nil .nil)) .nil
  rows := [1]
  cols := []
  fresh := 4

/-- `append_columns` on a table without column infos. -/
example : Inv tNoCols ∧ docCols tNoCols.kids = [] ∧ (appendColumns 2 tNoCols).2 = .error .IndexError ∧
    (docRows (appendColumns 2 tNoCols).1.kids).map (fun t => (cells t).length) = [4] := by
  refine ⟨⟨⟨by decide +kernel, by decide +kernel, by decide +kernel⟩, by decide +kernel, by decide +kernel⟩, ?_⟩
  decide +kernel

end Verif.Tbl
