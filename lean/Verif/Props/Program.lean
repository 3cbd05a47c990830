import Verif.Proofs.ProgAct
import Verif.Props.TableWrite
import Verif.Props.WholeDemo
/-!
# C78 a spreadsheet made by a program is the same after saving and opening

Programs make tables, write into them, put them into the document, change, move and delete sheets, save, and open
the file again.  `OK` says what holds at all times; it holds of every document that has been made anew, and of every
document that has been opened if its sheets can be read (`Legible`).
-/
namespace Verif.Program
open Verif Verif.Lxml Forest Verif.Whole Verif.Tbl Verif.Document Verif.TSpec
set_option linter.unusedSimpArgs false

/-- The names of the strategies for repetitions, conf.py:13-34, and sensible limits -/
def Config (strategy : String) (mx : Int × Int) : Prop :=
  strategy ∈ ["all", "all_but_last", "all_less_maxcount"] ∧ 1 < mx.1 ∧ 1 < mx.2

/-! ## What each statement does -/

theorem created_grow {id : Nat} {nm : Str} {size : Int × Int} {T : TState} (h : newTable id nm size = (T, .ok ())) :
    T.node.id = id ∧ ∀ i ∈ ids T.kids, id < i := by
  have hg : Grow [] _ (newTable id nm size).1 :=
    growP_bind (setName_grow [] _) (fun _ => growP_bind (cellsReset_grow [] size) fun _ => colsReset_grow [] size.2)
      { node := { id := id, tag := "table:table" }, kids := .nil, rows := [], cols := [], fresh := id + 1 }
  rw [h] at hg
  refine ⟨hg.node, fun i hi => ?_⟩
  rcases hg.ids i hi with h1 | h1 | h1
  · simp [ids] at h1
  · exact h1.1
  · simp at h1

theorem created_args {id : Nat} {nm : Str} {size : Int × Int} {T : TState} (hc : newTable id nm size = (T, .ok ())) :
    normalizeName nm ≠ [] ∧ 1 ≤ size.1 ∧ 1 ≤ size.2 := by
  obtain ⟨n, w⟩ := size
  by_cases he : normalizeName nm = []
  · exfalso
    simp [newTable, setName, he, Py.bind_def] at hc
  · refine ⟨he, ?_⟩
    by_contra h1
    simp [newTable, setName, he, Py.bind_def, cellsReset] at hc
    by_cases h2 : n < 1
    · rw [if_pos h2] at hc; simp at hc
    · rw [if_neg h2, if_pos (by simp only at h1; omega)] at hc; simp at hc

theorem stateOf_view (p : Prog) (i : Nat) : stateOf p i =
    (view p i).map fun v => { node := v.1.1, kids := v.1.2, rows := v.2.1, cols := v.2.2, fresh := Parts.newId p.world } := by
  unfold stateOf view
  cases p.tables[i]? with
  | none => rfl
  | some o =>
    show (Forest.find o.node p.world).map _ = ((Forest.find o.node p.world).map _).map _
    cases Forest.find o.node p.world <;> rfl

theorem view_state {p : Prog} {i : Nat} {T : TState} (h : view p i = some ((T.node, T.kids), T.rows, T.cols)) :
    stateOf p i = some { T with fresh := Parts.newId p.world } := by
  rw [stateOf_view, h]; rfl

/-- **C78**, `Table(name, size)`: the call succeeds for names that are not empty and positive sizes only.  The new table
is the last object; it has the name and the size, and is no sheet; nothing else changes. -/
theorem C78_create {L : XLib} {p : Prog} (h : OK L p) (nm : Str) (size : Int × Int) :
    (∃ e, create nm size p = (p, .error e) ∧ ¬ (normalizeName nm ≠ [] ∧ 1 ≤ size.1 ∧ 1 ≤ size.2)) ∨
    ∃ p' T, create nm size p = (p', .ok p.tables.length) ∧ OK L p' ∧ stateOf p' p.tables.length = some T ∧
      (normalizeName nm ≠ [] ∧ 1 ≤ size.1 ∧ 1 ≤ size.2) ∧
      name T = some (normalizeName nm) ∧ IsEmptyTable size.1.toNat size.2.toNat T ∧
      (∀ j, j < p.tables.length → view p' j = view p j) ∧ sheetsOf p'.session = sheetsOf p.session ∧
      p'.tables.length = p.tables.length + 1 ∧ p'.session = { p.session with world := p'.world } := by
  by_cases hc : normalizeName nm ≠ [] ∧ 1 ≤ size.1 ∧ 1 ≤ size.2
  · right
    obtain ⟨T, e, hE, hn⟩ := newTable_spec (Parts.newId p.world) hc.1 hc.2.1 hc.2.2
    obtain ⟨g1, g2⟩ := created_grow e
    have hs := (Life.created e).sound'
    obtain ⟨a1, a2, a3, a4⟩ := ok_create h hs g1 g2
    have e : newTable (Parts.newId p.world) nm size = (T, .ok ()) := e
    have hcr : create nm size p = ({ p.setWorld (p.world ++ Forest.single (T.node, T.kids)) with
        tables := p.tables ++ [⟨T.node.id, T.rows, T.cols⟩] }, .ok p.tables.length) := by
      unfold create
      rw [e]
    have hst := view_state a2
    have hsd : Sound { T with fresh := Parts.newId (p.world ++ Forest.single (T.node, T.kids)) } :=
      hs.fresh fun i hi => lt_newId (by simp [ids_append, hi])
    have hI := isEmptyTable (by have := hc.2.1; omega) hE
    exact ⟨_, _, hcr, a1, hst, hc, by unfold name; rw [hn]; rfl, ⟨hI.tree, hI.rows, hI.cols, hI.emptyRows, hI.emptyCols, hI.nrows, hI.ncols, hI.infos, hsd.inv⟩,
      a3, a4, by simp, rfl⟩
  · left
    unfold create
    rcases he : newTable (Parts.newId p.world) nm size with ⟨T, r⟩
    cases r with
    | error e => exact ⟨e, rfl, hc⟩
    | ok u => exact absurd (created_args he) hc

/-- Calls of methods of the table object with a number, or on a cell, row or column of its table -/
def method {F : Cells.FloatLib} : Act F → Option (Nat × Py TState Unit)
  | .call i op => some (i, Tbl.run op)
  | .write i pos c => some (i, onCell pos c.run)
  | .writeRow i index c => some (i, onRow index c.run)
  | .writeColumn i index c => some (i, onColumn index c.run)
  | _ => none

theorem method_sound_of {F : Cells.FloatLib} {p : Prog} {a : Act F} (ha : Allowed p a) {i : Nat}
    {m : Py TState Unit} (hm : method a = some (i, m)) {T : TState} (hT : stateOf p i = some T) (hs : Sound T) :
    Sound (m T).1 ∧ ∃ X, Grow X T (m T).1 ∧ ∀ x ∈ X, x ∉ ids p.world := by
  cases a with
  | call j op =>
    cases hm
    obtain ⟨a1, a2, a3, a4⟩ := ha T hT
    refine ⟨?_, _, run_grow op T, a4⟩
    rcases a2 with a2 | a2
    · exact hs.call op a1 a2 a3
    · rw [a2]; exact hs
  | write j pos c => cases hm; exact ⟨hs.write pos c ha.1 ha.2, [], onCell_grow pos c.run T, by simp⟩
  | writeRow j k c => cases hm; exact ⟨hs.row k c, [], onRow_grow k c.run T, by simp⟩
  | writeColumn j k c => cases hm; exact ⟨hs.column k c, [], onColumn_grow k c.run T, by simp⟩
  | _ => cases hm

theorem method_sound {F : Cells.FloatLib} {L : XLib} {p : Prog} (h : OK L p) {a : Act F} (ha : Allowed p a) {i : Nat}
    {m : Py TState Unit} (hm : method a = some (i, m)) {T : TState} (hT : stateOf p i = some T) :
    Sound (m T).1 ∧ ∃ X, Grow X T (m T).1 ∧ ∀ x ∈ X, x ∉ ids p.world := by
  refine method_sound_of ha hm hT ?_
  unfold stateOf at hT
  cases ho : p.tables[i]? with
  | none => rw [ho] at hT; cases hT
  | some o =>
    obtain ⟨t, -, h1, h2⟩ := h.state ho
    have : stateOf p i = some T := by unfold stateOf; exact hT
    rw [this] at h1; cases h1; exact h2

theorem exec_method {F : Cells.FloatLib} {strategy : String} {mx : Int × Int} {a : Act F} {i : Nat}
    {m : Py TState Unit} (hm : method a = some (i, m)) : exec strategy mx a = onTable i m := by
  cases a with
  | call | write | writeRow | writeColumn => cases hm; rfl
  | _ => cases hm

/-- **C78**, calls on a table, its cells, rows and columns: the result and the table are those of the call on the table
by itself (C08 to C21, C76); the other tables, the sheets and their order do not change. -/
theorem C78_method {F : Cells.FloatLib} {L : XLib} {p : Prog} (h : OK L p) {a : Act F} (ha : Allowed p a) {i : Nat}
    {m : Py TState Unit} (hm : method a = some (i, m)) (strategy : String) (mx : Int × Int) :
    match stateOf p i with
    | none => exec strategy mx a p = (p, .error .NameError)
    | some T => ∃ p', exec strategy mx a p = (p', (m T).2) ∧ OK L p' ∧
      stateOf p' i = some { (m T).1 with fresh := Parts.newId p'.world } ∧
      (∀ j, j ≠ i → view p' j = view p j) ∧ order p' = order p ∧
      p'.tables.map TableObj.node = p.tables.map TableObj.node ∧ p'.session = { p.session with world := p'.world } := by
  rw [exec_method hm]
  cases hT : stateOf p i with
  | none =>
    cases ho : p.tables[i]? with
    | none => unfold onTable; rw [ho]
    | some o =>
      obtain ⟨t, -, h1, -⟩ := h.state ho
      rw [hT] at h1; cases h1
  | some T =>
    obtain ⟨s1, X, s2, s3⟩ := method_sound h ha hm hT
    obtain ⟨p', a1, a2, a3, a4, a5, -, -, a8, a9, -⟩ := onTable_ok h hT s1 s2 s3
    exact ⟨p', a1, a2, view_state a3, a4, a5, a8, a9⟩

/-- The node of a table object -/
def nodeAt (p : Prog) (i : Nat) : Option Nat := p.tables[i]?.map TableObj.node

theorem nodeAt_some {p : Prog} {i n : Nat} (h : nodeAt p i = some n) : ∃ o, p.tables[i]? = some o ∧ o.node = n :=
  Option.map_eq_some_iff.mp h

/-- **C78**, `doc.sheets.append(table)`: the table becomes the last sheet, also when it has been a sheet before; no table
changes. -/
theorem C78_append {L : XLib} {p : Prog} (h : OK L p) {i n b : Nat} (hn : nodeAt p i = some n)
    (hb : p.session.tree.sheets = some b) :
    ∃ p', append i p = (p', .ok ()) ∧ OK L p' ∧ (∀ j, view p' j = view p j) ∧ p'.tables = p.tables ∧
      p'.session = { p.session with world := p'.world } ∧ order p' = (order p).filter (fun x => x ≠ n) ++ [n] := by
  obtain ⟨o, ho, rfl⟩ := nodeAt_some hn
  obtain ⟨W', e, a1, a2, a3⟩ := append_ok h ho hb
  exact ⟨_, e, a1, a2, rfl, rfl, a3⟩

/-- **C78**, `doc.sheets.insert(index, table)`: the table stands before the child of the body with the index; it is not
moved when it is itself that child, and becomes the last one when there is no such child.  No table changes. -/
theorem C78_insert {L : XLib} {p : Prog} (h : OK L p) {i n b : Nat} (hn : nodeAt p i = some n)
    (hb : p.session.tree.sheets = some b) (index : Int) :
    ∃ p' l l', insert index i p = (p', .ok ()) ∧ OK L p' ∧ (∀ j, view p' j = view p j) ∧ p'.tables = p.tables ∧
      p'.session = { p.session with world := p'.world } ∧
      children p.world b = some l ∧ children p'.world b = some l' ∧
      order p = l.filter (fun x => Parts.tagAt p.world x = some "table:table") ∧
      order p' = l'.filter (fun x => Parts.tagAt p'.world x = some "table:table") ∧
      ((∀ q, ¬ Denotes l.length index q) → l' = l.filter (fun x => x ≠ n) ++ [n]) ∧
      ∀ q s, Denotes l.length index q → l[q]? = some s → (s = n → l' = l) ∧
        (s ≠ n → l' = (l.filter fun x => x ≠ n).flatMap fun x => if x = s then [n, s] else [x]) := by
  obtain ⟨o, ho, rfl⟩ := nodeAt_some hn
  obtain ⟨W', l, l', e, a1, a2, a3, a4, a5⟩ := insert_ok h ho hb index
  have hbn := h.sheets hb
  subst hbn
  obtain ⟨tag, -, hf⟩ := h.frame
  obtain ⟨tag', -, hf'⟩ := a1.frame
  refine ⟨_, l, l', e, a1, a2, rfl, rfl, a3, a4, ?_, order_kids hf'.once a4, ?_, ?_⟩
  · have := order_kids (p := p) hf.once a3
    rw [setWorld_self] at this; exact this
  · intro hq
    cases hp : pyIdx l.length index with
    | none => rw [hp] at a5; exact a5
    | some q => exact absurd (pyIdx_denotes.mp hp) (hq q)
  · intro q s hq hs
    rw [pyIdx_denotes.mpr hq] at a5
    obtain ⟨s', hs', a6, a7⟩ := a5
    rw [hs] at hs'; cases hs'
    exact ⟨a6, a7⟩

/-- The sheet that a key means: by its place, from the end for negative numbers, or the first one of a name. -/
def Means (key : Pages.Key) (l : List Tree) (t : Tree) : Prop :=
  match key with
  | .int i => ∃ q, Denotes l.length i q ∧ l[q]? = some t
  | .str s => ∃ A B, l = A ++ t :: B ∧ t.1.get "table:name" = some s ∧ ∀ u ∈ A, u.1.get "table:name" ≠ some s
  | .other => False

theorem findSheet_means (key : Pages.Key) (l : List Tree) (t : Tree) : findSheet key l = .ok t ↔ Means key l t := by
  unfold findSheet Means
  cases key with
  | int i =>
    simp only
    cases hp : pyIdx l.length i with
    | none =>
      simp only [reduceCtorEq, false_iff, not_exists, not_and]
      intro q hq
      rw [pyIdx_denotes.mpr hq] at hp; cases hp
    | some n =>
      simp only
      have hd := pyIdx_denotes.mp hp
      constructor
      · intro h
        split at h
        · cases h
        · rename_i u hu
          cases h; exact ⟨n, hd, hu⟩
      · rintro ⟨q, hq, hl⟩
        have := pyIdx_denotes.mpr hq
        rw [hp] at this; cases this
        rw [hl]
  | str s =>
    simp only
    constructor
    · intro h
      split at h
      · cases h
      · rename_i u hu
        cases h
        obtain ⟨h1, A, B, h2, h3⟩ := List.find?_eq_some_iff_append.mp hu
        exact ⟨A, B, h2, by simpa using h1, fun v hv => by simpa using h3 v hv⟩
    · rintro ⟨A, B, rfl, h1, h2⟩
      rw [List.find?_eq_some_iff_append.mpr ⟨by simpa using h1, A, B, rfl, fun v hv => by simpa using h2 v hv⟩]
  | other => simp

/-- Names and places decide. -/
theorem findSheet_names {key : Pages.Key} {l l' : List Tree} {t : Tree}
    (h : l'.map (fun u => (u.1.id, u.1.get "table:name")) = l.map fun u => (u.1.id, u.1.get "table:name"))
    (ht : findSheet key l = .ok t) : ∃ t', findSheet key l' = .ok t' ∧ t'.1.id = t.1.id := by
  have hlen : l'.length = l.length := by simpa using congrArg List.length h
  have hget : ∀ {q : Nat} {u : Tree}, l[q]? = some u → ∃ u', l'[q]? = some u' ∧ u'.1.id = u.1.id := by
    intro q u hu
    have := congrArg (fun x => x[q]?) h
    simp only [List.getElem?_map, hu, Option.map_some, Option.map_eq_some_iff] at this
    obtain ⟨u', h1, h2⟩ := this
    exact ⟨u', h1, congrArg Prod.fst h2⟩
  rw [findSheet_means] at ht
  unfold Means at ht
  cases key with
  | int i =>
    obtain ⟨q, hq, hl⟩ := ht
    obtain ⟨u', h1, h2⟩ := hget hl
    exact ⟨u', (findSheet_means _ _ _).mpr ⟨q, by rw [hlen]; exact hq, h1⟩, h2⟩
  | str s =>
    obtain ⟨A, B, rfl, h1, h2⟩ := ht
    rw [List.map_append, List.map_cons] at h
    obtain ⟨A', B', rfl, h3, h4⟩ := List.map_eq_append_iff.mp h
    obtain ⟨t', B'', rfl, h5, h6⟩ := List.map_eq_cons_iff.mp h4
    refine ⟨t', (findSheet_means _ _ _).mpr ⟨A', B'', rfl, ?_, ?_⟩, congrArg Prod.fst h5⟩
    · rw [← h1]; exact congrArg Prod.snd h5
    · intro u hu
      have : (u.1.id, u.1.get "table:name") ∈ A.map fun u => (u.1.id, u.1.get "table:name") := by
        rw [← h3]; exact List.mem_map_of_mem (f := fun u : Tree => (u.1.id, u.1.get "table:name")) hu
      obtain ⟨v, hv, he⟩ := List.mem_map.mp this
      have he : v.1.get "table:name" = u.1.get "table:name" := congrArg Prod.snd he
      rw [← he]
      exact h2 v hv
  | other => cases ht

theorem sheetElem_find {L : XLib} {p : Prog} (h : OK L p) {b : Nat} (hb : p.session.tree.sheets = some b) (key : Pages.Key) :
    sheetElem key p = (p, findSheet key (sheetsOf p.session)) := by
  obtain ⟨tag, -, hf⟩ := h.frame
  obtain ⟨bt, hbt⟩ := hf.body
  have hbn := h.sheets hb
  subst hbn
  unfold sheetElem sheetsOf
  rw [hb]
  have : Forest.find p.session.tree.body.node p.session.world = some bt := hbt
  simp only [this, hbt]
  rfl

/-- **C78**, `doc.sheets[key]`: the object of the sheet, always the same one.  The first time a sheet is used its
repetitions are expanded; it stays where it is, and the other tables do not change. -/
theorem C78_access {L : XLib} {p : Prog} (h : OK L p) {strategy : String} {mx : Int × Int} (hc : Config strategy mx)
    {b : Nat} (hb : p.session.tree.sheets = some b) {key : Pages.Key} {t : Tree} (ht : Means key (sheetsOf p.session) t) :
    ∃ p' i, access strategy mx key p = (p', .ok i) ∧ OK L p' ∧ nodeAt p' i = some t.1.id ∧
      (∀ j, j < p.tables.length → view p' j = view p j) ∧ order p' = order p ∧
      p'.session = { p.session with world := p'.world } ∧
      access strategy mx key p' = (p', .ok i) ∧
      (∀ j, nodeAt p j = some t.1.id → j = i ∧ p' = p) ∧
      ((∀ j, nodeAt p j ≠ some t.1.id) → i = p.tables.length ∧
        ∃ T, load strategy mx (stored t.1 t.2 (Parts.newId p.world)) = (T, .ok ()) ∧
          stateOf p' i = some { T with fresh := Parts.newId p'.world }) := by
  have ht' := (findSheet_means _ _ _).mpr ht
  obtain ⟨p', i, e, hA⟩ := access_ok h hc.1 hc.2 (key := key) (t := t) (by rw [sheetElem_find h hb, ht'])
  obtain ⟨o, ho, hon⟩ := hA.obj
  have hn : nodeAt p' i = some t.1.id := by unfold nodeAt; rw [ho, ← hon]; rfl
  have uniq : ∀ {j}, nodeAt p' j = some t.1.id → j = i := by
    intro j hj
    obtain ⟨o', ho', hon'⟩ := nodeAt_some hj
    obtain ⟨x1, x2⟩ := List.getElem?_eq_some_iff.mp ho
    obtain ⟨y1, y2⟩ := List.getElem?_eq_some_iff.mp ho'
    refine (hA.ok.distinct.getElem_inj_iff (i := j) (j := i) (hi := by simpa using y1) (hj := by simpa using x1)).mp ?_
    simp only [List.getElem_map, x2, y2, hon, hon']
  refine ⟨p', i, e, hA.ok, hn, hA.views, hA.order, hA.session, ?_, ?_, ?_⟩
  · have hb' : p'.session.tree.sheets = some b := by rw [hA.session]; exact hb
    obtain ⟨t', f1, f2⟩ := findSheet_names hA.names ht'
    obtain ⟨p2, i2, e2, hA2⟩ := access_ok hA.ok hc.1 hc.2 (key := key) (t := t') (by rw [sheetElem_find hA.ok hb', f1])
    have := hA2.old ⟨o, List.mem_of_getElem? ho, by rw [hon, f2]⟩
    subst this
    obtain ⟨o2, ho2, hon2⟩ := hA2.obj
    rw [e2, uniq (j := i2) (by unfold nodeAt; rw [ho2, ← f2, ← hon2]; rfl)]
  · intro j hj
    obtain ⟨o', ho', hon'⟩ := nodeAt_some hj
    have := hA.old ⟨o', List.mem_of_getElem? ho', hon'⟩
    subst this
    exact ⟨uniq hj, rfl⟩
  · intro hno
    obtain ⟨a, T, b, c⟩ := hA.new (by
      intro o' ho' e'
      obtain ⟨j, hj⟩ := List.mem_iff_getElem?.mp ho'
      exact hno j (by unfold nodeAt; rw [hj, ← e']; rfl))
    exact ⟨a, T, b, view_state c⟩

/-- **C78**, `del doc.sheets[key]`: the sheet is gone; the tables and the order of the other sheets do not change. -/
theorem C78_delete {L : XLib} {p : Prog} (h : OK L p) {strategy : String} {mx : Int × Int} (hc : Config strategy mx)
    {b : Nat} (hb : p.session.tree.sheets = some b) {key : Pages.Key} {t : Tree} (ht : Means key (sheetsOf p.session) t) :
    ∃ p', delete strategy mx key p = (p', .ok ()) ∧ OK L p' ∧ (∀ j, j < p.tables.length → view p' j = view p j) ∧
      order p' = (order p).filter fun x => x ≠ t.1.id :=
  delete_ok h hc.1 hc.2 (by rw [sheetElem_find h hb, (findSheet_means _ _ _).mpr ht])

/-- **C78**, `doc.sheets[key] = table`: the table takes the place of the sheet (and leaves its former place); the tables
do not change. -/
theorem C78_replace {L : XLib} {p : Prog} (h : OK L p) {strategy : String} {mx : Int × Int} (hc : Config strategy mx)
    {b : Nat} (hb : p.session.tree.sheets = some b) {key : Pages.Key} {t : Tree} (ht : Means key (sheetsOf p.session) t)
    {i n : Nat} (hn : nodeAt p i = some n) :
    ∃ p', replace strategy mx key i p = (p', .ok ()) ∧ OK L p' ∧ (∀ j, j < p.tables.length → view p' j = view p j) ∧
      (t.1.id = n → order p' = order p) ∧
      (t.1.id ≠ n → order p' = ((order p).filter fun x => x ≠ n).map fun x => if x = t.1.id then n else x) := by
  obtain ⟨o, ho, rfl⟩ := nodeAt_some hn
  obtain ⟨p', e, a1, a2, a3⟩ := replace_ok h hc.1 hc.2 (key := key) (t := t)
    (by rw [sheetElem_find h hb, (findSheet_means _ _ _).mpr ht]) ho
  refine ⟨p', e, a1, a2, fun hn => ?_, fun hn => ?_⟩
  · rw [a3, if_pos hn]
  · rw [a3, if_neg hn]
    unfold Lxml.splice without
    rw [List.map_eq_flatMap]
    refine List.flatMap_congr fun x _ => ?_
    split <;> rfl

/-- **C78**, calls on sheets that cannot be done: only spreadsheets have sheets, and keys have to mean a sheet; nothing
changes. -/
theorem C78_errors {L : XLib} {p : Prog} (h : OK L p) (strategy : String) (mx : Int × Int) :
    (∀ i, nodeAt p i = none → append i p = (p, .error .NameError) ∧
      (∀ x, insert x i p = (p, .error .NameError)) ∧ ∀ key, replace strategy mx key i p = (p, .error .NameError)) ∧
    (p.session.tree.sheets = none → (∀ key, access strategy mx key p = (p, .error .AttributeError) ∧
      delete strategy mx key p = (p, .error .AttributeError)) ∧
      ∀ i n, nodeAt p i = some n → append i p = (p, .error .AttributeError) ∧
        (∀ x, insert x i p = (p, .error .AttributeError)) ∧
        ∀ key, replace strategy mx key i p = (p, .error .AttributeError)) ∧
    ∀ b, p.session.tree.sheets = some b → ∀ key, (∀ t, ¬ Means key (sheetsOf p.session) t) →
      let e := match key with | .int _ => Exc.IndexError | .str _ => .KeyError | .other => .TypeError
      access strategy mx key p = (p, .error e) ∧ delete strategy mx key p = (p, .error e) ∧
      ∀ i n, nodeAt p i = some n → replace strategy mx key i p = (p, .error e) := by
  have hnode : ∀ {i}, nodeAt p i = none → nodeOf i p = (p, .error .NameError) := by
    intro i hi
    rw [nodeOf_eq]
    have : p.tables[i]? = none := Option.map_eq_none_iff.mp hi
    rw [this]
  have hnode' : ∀ {i n}, nodeAt p i = some n → nodeOf i p = (p, .ok n) := by
    intro i n hi
    obtain ⟨o, ho, rfl⟩ := nodeAt_some hi
    rw [nodeOf_eq, ho]
  have hacc : ∀ {key e}, sheetElem key p = (p, .error e) → access strategy mx key p = (p, .error e) ∧
      delete strategy mx key p = (p, .error e) ∧
      ∀ i n, nodeAt p i = some n → replace strategy mx key i p = (p, .error e) := by
    intro key e he
    have ha : access strategy mx key p = (p, .error e) := access_err (by rw [he])
    refine ⟨ha, ?_, fun i n hi => ?_⟩
    · unfold delete; rw [Py.bind_error ha]
    · unfold replace; rw [Py.bind_ok (hnode' hi), Py.bind_error ha]
  refine ⟨fun i hi => ⟨?_, fun x => ?_, fun key => ?_⟩, fun hs => ?_, fun b hb key hk => ?_⟩
  · unfold append; rw [Py.bind_error (hnode hi)]
  · unfold insert; rw [Py.bind_error (hnode hi)]
  · unfold replace; rw [Py.bind_error (hnode hi)]
  · have he : ∀ key, sheetElem key p = (p, .error .AttributeError) := by
      intro key; unfold sheetElem; rw [hs]
    refine ⟨fun key => ⟨(hacc (he key)).1, (hacc (he key)).2.1⟩, fun i n hi => ⟨?_, fun x => ?_, fun key => (hacc (he key)).2.2 i n hi⟩⟩
    · unfold append; rw [Py.bind_ok (hnode' hi)]; unfold onSheets; rw [hs]
    · unfold insert; rw [Py.bind_ok (hnode' hi)]; unfold onSheets; rw [hs]
  · refine hacc ?_
    rw [sheetElem_find h hb]
    congr 1
    have hk' : ∀ t, findSheet key (sheetsOf p.session) ≠ .ok t := fun t ht => hk t ((findSheet_means _ _ _).mp ht)
    revert hk'
    unfold findSheet
    cases key with
    | int i =>
      simp only
      cases pyIdx (sheetsOf p.session).length i with
      | none => simp
      | some n => simp only; cases (sheetsOf p.session)[n]? <;> simp
    | str s =>
      simp only
      cases (sheetsOf p.session).find? _ <;> simp
    | other => simp

/-! ## Programs -/

/-- **C78**: every statement, whether it raises or not, keeps the document and all tables in order. -/
theorem C78_step {F : Cells.FloatLib} {L : XLib} {p : Prog} (h : OK L p) {strategy : String} {mx : Int × Int}
    (hc : Config strategy mx) {a : Act F} (ha : Allowed p a) : OK L (exec strategy mx a p).1 := by
  have hmeth : ∀ {i m}, method a = some (i, m) → OK L (exec strategy mx a p).1 := by
    intro i m hm
    have := C78_method h ha hm strategy mx
    cases hT : stateOf p i with
    | none => rw [hT] at this; simp only at this; rw [this]; exact h
    | some T =>
      rw [hT] at this
      obtain ⟨p', e, a1, -⟩ := this
      rw [e]; exact a1
  obtain ⟨e1, e2, e3⟩ := C78_errors h strategy mx
  have hmean : ∀ key, (∃ t, Means key (sheetsOf p.session) t) ∨ ∀ t, ¬ Means key (sheetsOf p.session) t := by
    intro key
    by_cases hx : ∃ t, Means key (sheetsOf p.session) t
    · exact .inl hx
    · exact .inr fun t ht => hx ⟨t, ht⟩
  cases a with
  | call | write | writeRow | writeColumn => exact hmeth rfl
  | create nm size =>
    show OK L ((create nm size >>= fun _ => pure ()) p).1
    rcases C78_create h nm size with ⟨e, he, -⟩ | ⟨p', T, he, a1, -⟩
    · rw [Py.bind_error he]; exact h
    · rw [Py.bind_ok he]; exact a1
  | append i =>
    show OK L (append i p).1
    cases hn : nodeAt p i with
    | none => rw [(e1 i hn).1]; exact h
    | some n => cases hb : p.session.tree.sheets with
      | none => rw [((e2 hb).2 i n hn).1]; exact h
      | some b => obtain ⟨p', e, a1, -⟩ := C78_append h hn hb; rw [e]; exact a1
  | insert x i =>
    show OK L (insert x i p).1
    cases hn : nodeAt p i with
    | none => rw [(e1 i hn).2.1 x]; exact h
    | some n => cases hb : p.session.tree.sheets with
      | none => rw [((e2 hb).2 i n hn).2.1 x]; exact h
      | some b => obtain ⟨p', _, _, e, a1, -⟩ := C78_insert h hn hb x; rw [e]; exact a1
  | access key =>
    show OK L ((access strategy mx key >>= fun _ => pure ()) p).1
    cases hb : p.session.tree.sheets with
    | none => rw [Py.bind_error ((e2 hb).1 key).1]; exact h
    | some b =>
      rcases hmean key with ⟨t, ht⟩ | hk
      · obtain ⟨p', _, e, a1, -⟩ := C78_access h hc hb ht
        rw [Py.bind_ok e]; exact a1
      · rw [Py.bind_error (e3 b hb key hk).1]; exact h
  | delete key =>
    show OK L (delete strategy mx key p).1
    cases hb : p.session.tree.sheets with
    | none => rw [((e2 hb).1 key).2]; exact h
    | some b =>
      rcases hmean key with ⟨t, ht⟩ | hk
      · obtain ⟨p', e, a1, -⟩ := C78_delete h hc hb ht
        rw [e]; exact a1
      · rw [(e3 b hb key hk).2.1]; exact h
  | replace key i =>
    show OK L (replace strategy mx key i p).1
    cases hn : nodeAt p i with
    | none => rw [(e1 i hn).2.2 key]; exact h
    | some n => cases hb : p.session.tree.sheets with
      | none => rw [((e2 hb).2 i n hn).2.2 key]; exact h
      | some b =>
        rcases hmean key with ⟨t, ht⟩ | hk
        · obtain ⟨p', e, a1, -⟩ := C78_replace h hc hb ht hn
          rw [e]; exact a1
        · rw [(e3 b hb key hk).2.2 i n hn]; exact h

/-- Programs with a document: statements on sheets and tables, changes of the meta data, other files of the package,
its name, saving under this name or another one, with changing configuration. -/
inductive Runs (F : Cells.FloatLib) (L : XLib) : Prog → Prog → Prop
  | done (p : Prog) : Runs F L p p
  | act {p p' : Prog} {strategy : String} {mx : Int × Int} (hc : Config strategy mx) (a : Act F) (ha : Allowed p a)
      (h : Runs F L (exec strategy mx a p).1 p') : Runs F L p p'
  | name {p p' : Prog} (name : Option Package.Path)
      (h : Runs F L { p with session := { p.session with docname := name } } p') : Runs F L p p'
  | data {p p' : Prog} (o : List Meta.Op)
      (h : Runs F L { p with session := { p.session with meta_ := { p.session.meta_ with m := Meta.run p.session.meta_.m o } } } p') :
      Runs F L p p'
  | file {p p' : Prog} (n : Str) (x : Package.Element) (t : Str) (now : Nat)
      (hn : n ∉ [Package.MIMETYPE, MANIFEST, ROOT, META, STYLES, CONTENT])
      (h : Runs F L { p with session := { p.session with w := { p.session.w with fm := Package.register n x t now p.session.w.fm } } } p') :
      Runs F L p p'
  | save {p p' : Prog} (env : Package.Env) (k : Clock) (backup : Bool) (h : Runs F L (save L env k backup p).1 p') : Runs F L p p'
  | saveas {p p' : Prog} (env : Package.Env) (k : Clock) (backup : Bool) (f : Package.Path)
      (h : Runs F L (saveas L env k backup f p).1 p') : Runs F L p p'

theorem OK.session {L : XLib} {p : Prog} (h : OK L p) {s : Session} (hl : Lives L s) (hw : s.world = p.session.world)
    (ht : s.tree = p.session.tree) (hm : s.mimetype = p.session.mimetype) : OK L { p with session := s } := by
  have hW : ({ p with session := s } : Prog).world = p.world := hw
  refine ⟨hl, ?_, h.distinct, ?_, ?_, ?_⟩
  · obtain ⟨tag, h1, h2⟩ := h.frame
    exact ⟨tag, by dsimp only; rw [hm]; exact h1, by rw [hW]; dsimp only; rw [ht]; exact h2⟩
  · intro o ho; rw [hW]; dsimp only; rw [ht]; exact h.placed o ho
  · intro o ho t hf; rw [hW] at hf ⊢; exact h.sound o ho t hf
  · intro t hts
    have : sheetsOf ({ p with session := s } : Prog).session = sheetsOf p.session := by
      unfold sheetsOf; dsimp only; rw [hw, ht]
    rw [this] at hts
    exact h.others t hts

/-- Saving changes no table. -/
theorem save_ok {L : XLib} {p : Prog} (h : OK L p) (env : Package.Env) (k : Clock) (backup : Bool) :
    OK L (save L env k backup p).1 := by
  obtain ⟨f1, f2, -, f4, -⟩ := C69_frame L env k backup (s := p.session) (s' := (saveWhole L env k backup p.session).1)
    (r := (saveWhole L env k backup p.session).2) rfl
  exact h.session (.saved h.lives env k backup) f1 f2 f4

theorem saveas_ok {L : XLib} {p : Prog} (h : OK L p) (env : Package.Env) (k : Clock) (backup : Bool) (f : Package.Path) :
    OK L (saveas L env k backup f p).1 := by
  obtain ⟨f1, f2, -, f4, -⟩ := C69_frame L env k backup (s := { p.session with docname := some f })
    (s' := (saveWhole L env k backup { p.session with docname := some f }).1)
    (r := (saveWhole L env k backup { p.session with docname := some f }).2) rfl
  exact h.session (.savedAs h.lives env k backup f) f1 f2 f4

/-- **C78** for whole programs: the document and all tables are in order at all times. -/
theorem C78_runs {F : Cells.FloatLib} {L : XLib} {p p' : Prog} (h : OK L p) (hr : Runs F L p p') : OK L p' := by
  induction hr with
  | done p => exact h
  | act hc a ha _ ih => exact ih (C78_step h hc ha)
  | name n _ ih => exact ih (h.session (.named h.lives n) rfl rfl rfl)
  | data o _ ih => exact ih (h.session (.data h.lives o) rfl rfl rfl)
  | file n x t now hn _ ih => exact ih (h.session (.file h.lives n x t now hn) rfl rfl rfl)
  | save env k backup _ ih => exact ih (save_ok h env k backup)
  | saveas env k backup f _ ih => exact ih (saveas_ok h env k backup f)

/-- **C78**, new documents: all is in order; there are no sheets; spreadsheets and their templates have sheets. -/
theorem C78_new {L : XLib} (hl : L.Lawful) (fs : Package.FS) (k : Clock) {mt : Str} (hmt : mt ∈ MIMETYPE_BODYTAG_MAP.keys) :
    ∃ s, newWhole L fs k mt = .ok s ∧ OK L ⟨s, []⟩ ∧ s.mimetype = mt ∧ s.w.fs = fs ∧ sheetsOf s = [] ∧
      (s.tree.sheets.isSome ↔ MIMETYPE_BODYTAG_MAP.get mt = some "office:spreadsheet") := by
  obtain ⟨s, h1, h2, h3, h4, -, -, -, h8, -⟩ := new_ok (L := L) fs k hmt
  have hc : (match Parts.packagedTree mt none none .nil with
      | (_, .error _) => false
      | (W, .ok d) => (match Forest.find d.body.node W with
          | none => true
          | some b => (tables b).isEmpty) &&
        decide (d.sheets.isSome = true ↔ MIMETYPE_BODYTAG_MAP.get mt = some "office:spreadsheet")) = true := by
    have : ∀ mt ∈ MIMETYPE_BODYTAG_MAP.keys, (match Parts.packagedTree mt none none .nil with
      | (_, .error _) => false
      | (W, .ok d) => (match Forest.find d.body.node W with
          | none => true
          | some b => (tables b).isEmpty) &&
        decide (d.sheets.isSome = true ↔ MIMETYPE_BODYTAG_MAP.get mt = some "office:spreadsheet")) = true := by decide +kernel
    exact this mt hmt
  rw [h8] at hc
  simp only [Bool.and_eq_true, decide_eq_true_eq] at hc
  have hsh : sheetsOf s = [] := by
    unfold sheetsOf
    have := hc.1
    split at this
    · rename_i hf; rw [hf]
    · rename_i b hf; rw [hf]; simpa using this
  have hf : ∃ tag, MIMETYPE_BODYTAG_MAP.get s.mimetype = some tag ∧ Framed s.world tag s.tree := by
    have h := h1
    unfold newWhole at h
    split at h
    · cases h
    · rename_i fm ho
      exact made_framed hl (by simp [ids]) ho h
  exact ⟨s, h1, ok_start (h2 s.docname) hf (by rw [hsh]; simp), h4, h3, hsh, hc.2⟩

/-- **C78**, opened documents: all is in order if the sheets can be read. -/
theorem C78_open {L : XLib} (hl : L.Lawful) {fs : Package.FS} {k : Clock} {src : Package.Source} {W : World} {s : Session}
    (hn : (ids W).Nodup) (h : openWhole L fs k src W = .ok s) (ht : ∀ t ∈ sheetsOf s, Legible t) : OK L ⟨s, []⟩ := by
  refine ok_start ?_ (open_framed hl hn h) ht
  unfold openWhole at h
  split at h
  · cases h
  · rename_i fm ho
    split at h
    · cases h
    · exact Lives.made s.docname hn ho h

/-! ## Saving and opening again -/

/-- The two cells read the same. -/
def Reads (F : Cells.FloatLib) (t t' : Tree) : Prop :=
  Cells.value F t' = Cells.value F t ∧ Cells.valueType t' = Cells.valueType t ∧ Cells.currency t' = Cells.currency t ∧
  Cells.plaintext t' = Cells.plaintext t ∧ Cells.span t'.1 = Cells.span t.1

/-- The table `T'` shows what `T` shows: the size, the name, and in each cell what a file tells of it. -/
structure Copied (F : Cells.FloatLib) (T T' : TState) : Prop where
  shows_ : Shows T'
  nrows : nrows T' = nrows T
  ncols : ncols T' = ncols T
  infos : T'.cols.length = T.cols.length
  name : name T' = name T
  cells : ∀ (pos : Int × Int) i j, Denotes (Tbl.nrows T) pos.1 i → Denotes (Tbl.ncols T) pos.2 j →
    ∃ u u', getCell T pos = .ok u ∧ getCell T' pos = .ok u' ∧ Whole.data u' = Whole.shape u ∧ Reads F u u'

theorem reopen_ok {F : Cells.FloatLib} {L : XLib} {p : Prog} (h : OK L p) {s : Session}
    (hp : s.world = p.session.world ∧ s.tree = p.session.tree ∧ s.mimetype = p.session.mimetype) {s'' : Session} (hr : Reopened L s s'')
    (hok : ∃ tag, MIMETYPE_BODYTAG_MAP.get s''.mimetype = some tag ∧ Framed s''.world tag s''.tree) :
    OK L ⟨s'', []⟩ ∧ (sheetsOf s'').length = (sheetsOf p.session).length ∧
    ((sheetsOf s'').map fun t => t.1.get "table:name") = (sheetsOf p.session).map (fun t => t.1.get "table:name") ∧
    (∀ b, p.session.tree.sheets = some b → ∃ b', s''.tree.sheets = some b') ∧
    ∀ (q i n : Nat) (T : TState), (order p)[q]? = some n → nodeAt p i = some n → stateOf p i = some T →
      ∀ b, p.session.tree.sheets = some b → ∀ strategy mx, Config strategy mx → ∃ p'' T',
        access strategy mx (.int q) ⟨s'', []⟩ = (p'', .ok 0) ∧ OK L p'' ∧ stateOf p'' 0 = some T' ∧ Copied F T T' := by
  have hsh : sheetsOf s = sheetsOf p.session := by unfold sheetsOf; rw [hp.1, hp.2.1]
  have hsheets := C69_sheets hr
  have hnames := C69_sheetnames hr
  rw [hsh] at hsheets hnames
  have hget : ∀ {q : Nat} {t : Tree}, (sheetsOf p.session)[q]? = some t → ∃ t', (sheetsOf s'')[q]? = some t' ∧
      Whole.data t' = Whole.shape t := by
    intro q t ht
    have hi := congrArg (fun l => l[q]?) hsheets
    simp only [List.getElem?_map, ht, Option.map_some, Option.map_eq_some_iff] at hi
    exact hi
  have hOK : OK L ⟨s'', []⟩ := by
    refine ok_start hr.lives hok fun t' ht' => ?_
    have : Whole.data t' ∈ (sheetsOf p.session).map Whole.shape := by
      rw [← hsheets]; exact List.mem_map_of_mem ht'
    obtain ⟨t, ht, he⟩ := List.mem_map.mp this
    exact (legible_file he.symm).mpr (h.legible t ht)
  have hbs : ∀ b, p.session.tree.sheets = some b → ∃ b', s''.tree.sheets = some b' := by
    intro b hb
    obtain ⟨tag, g1, g2⟩ := h.frame
    obtain ⟨tag', g3, g4⟩ := hok
    rw [hr.mimetype, hp.2.2, g1] at g3
    cases g3
    have e1 := g2.refs.sheets
    rw [hb, g2.refs.body.sheets] at e1
    split at e1
    · rename_i ht
      exact ⟨s''.tree.body.node, by rw [g4.refs.sheets, g4.refs.body.sheets, if_pos ht]⟩
    · cases e1
  refine ⟨hOK, by simpa using congrArg List.length hsheets, hnames, hbs, ?_⟩
  intro q i n T hq hi hT b hb strategy mx hc
  obtain ⟨o, ho, hon⟩ := nodeAt_some hi
  obtain ⟨t, hft, hst, hsound⟩ := h.state ho
  rw [hT] at hst
  have hqt : (sheetsOf p.session)[q]? = some t := by
    unfold order at hq
    rw [List.getElem?_map, Option.map_eq_some_iff] at hq
    obtain ⟨u, hu, hun⟩ := hq
    have := (h.sheet (List.mem_of_getElem? hu)).1
    rw [hun, ← hon, hft] at this
    cases this; exact hu
  obtain ⟨t', ht', hd⟩ := hget hqt
  obtain ⟨b', hb'⟩ := hbs b hb
  obtain ⟨p'', j, e1, e2, e3, -, -, -, -, -, e9⟩ := C78_access hOK hc (key := .int q) hb' (t := t')
    ⟨q, ⟨(List.getElem?_eq_some_iff.mp ht').1, .inl rfl⟩, ht'⟩
  obtain ⟨rfl, T', e10, e11⟩ := e9 (by intro j; simp [nodeAt])
  have hmem := List.mem_of_getElem? ht'
  have hft' := (hOK.sheet hmem).1
  obtain ⟨tag, -, hfr⟩ := hok
  have hnd := nodup_tree hfr.once hft'
  simp only [ids_single, List.nodup_cons] at hnd
  cases hst
  obtain ⟨c, c1, c2, c3, c4, c5, c6, c7, c8, c9⟩ := reread_file hsound hc.1 hc.2 (t := t')
    (n := Parts.newId s''.world) hd hnd.2 (fun i hi => lt_newId ((find_sub hft').subset (by simp [hi])))
  rw [show (⟨s'', []⟩ : Prog).world = s''.world from rfl, c1] at e10
  cases e10
  refine ⟨p'', _, e1, e2, e11, ⟨⟨c4.nrows, c4.row, c4.ncols, c4.col⟩, c5, c6, c7, c8, ?_⟩⟩
  intro pos i j hi hj
  obtain ⟨u, u', g1, g2, g3⟩ := c9 pos i j hi hj
  exact ⟨u, u', g1, g2, g3, reads_file g3⟩

/-- **C78**, saving and opening again.  The file that has been written can be opened; there are the same sheets with the
same names in the same order; each of them can be used, and a sheet that the program had an object of shows the size, the
name and the cells of the table of that object. -/
theorem C78_reopen (F : Cells.FloatLib) {L : XLib} (hl : L.Lawful) {p p' : Prog} (h : OK L p) {env : Package.Env} {k : Clock}
    {backup : Bool} (hs : save L env k backup p = (p', .ok ())) (hw : Writable p'.session) (k' : Clock) {W0 : World}
    (h0 : (ids W0).Nodup) :
    ∃ f s'', p.session.docname = some f ∧ openWhole L p'.session.w.fs k' (.file (some f)) W0 = .ok s'' ∧
      OK L ⟨s'', []⟩ ∧ (sheetsOf s'').length = (sheetsOf p.session).length ∧
      ((sheetsOf s'').map fun t => t.1.get "table:name") = (sheetsOf p.session).map (fun t => t.1.get "table:name") ∧
      (∀ b, p.session.tree.sheets = some b → ∃ b', s''.tree.sheets = some b') ∧
      ∀ (q i n : Nat) (T : TState), (order p)[q]? = some n → nodeAt p i = some n → stateOf p i = some T →
        ∀ b, p.session.tree.sheets = some b → ∀ strategy mx, Config strategy mx → ∃ p'' T',
          access strategy mx (.int q) ⟨s'', []⟩ = (p'', .ok 0) ∧ OK L p'' ∧ stateOf p'' 0 = some T' ∧ Copied F T T' := by
  have hs1 : saveWhole L env k backup p.session = (p'.session, .ok ()) := by
    unfold save at hs
    simp only [Prod.mk.injEq] at hs
    rw [← hs.1]
    exact Prod.ext rfl hs.2
  obtain ⟨f1, f2, f3, f4, -⟩ := C69_frame L env k backup hs1
  obtain ⟨f, s'', e1, e2, e3, -⟩ := C69_reopen hl h.lives hs1 hw k' h0
  rw [f3] at e1
  exact ⟨f, s'', e1, e2, reopen_ok h ⟨f1, f2, f4⟩ e3 (open_framed hl h0 e2)⟩

/-- **C78** for `saveas` -/
theorem C78_reopen_as (F : Cells.FloatLib) {L : XLib} (hl : L.Lawful) {p p' : Prog} (h : OK L p) {env : Package.Env}
    {k : Clock} {backup : Bool} {f : Package.Path} (hs : saveas L env k backup f p = (p', .ok ())) (hw : Writable p'.session)
    (k' : Clock) {W0 : World} (h0 : (ids W0).Nodup) :
    ∃ s'', openWhole L p'.session.w.fs k' (.file (some f)) W0 = .ok s'' ∧
      OK L ⟨s'', []⟩ ∧ (sheetsOf s'').length = (sheetsOf p.session).length ∧
      ((sheetsOf s'').map fun t => t.1.get "table:name") = (sheetsOf p.session).map (fun t => t.1.get "table:name") ∧
      (∀ b, p.session.tree.sheets = some b → ∃ b', s''.tree.sheets = some b') ∧
      ∀ (q i n : Nat) (T : TState), (order p)[q]? = some n → nodeAt p i = some n → stateOf p i = some T →
        ∀ b, p.session.tree.sheets = some b → ∀ strategy mx, Config strategy mx → ∃ p'' T',
          access strategy mx (.int q) ⟨s'', []⟩ = (p'', .ok 0) ∧ OK L p'' ∧ stateOf p'' 0 = some T' ∧ Copied F T T' := by
  have hs1 : saveWhole L env k backup { p.session with docname := some f } = (p'.session, .ok ()) := by
    unfold saveas saveasWhole at hs
    simp only [Prod.mk.injEq] at hs
    rw [← hs.1]
    exact Prod.ext rfl hs.2
  have hlv : Lives L { p.session with docname := some f } := h.lives.named (some f)
  obtain ⟨f1, f2, f3, f4, -⟩ := C69_frame L env k backup hs1
  obtain ⟨f', s'', e1, e2, e3, -⟩ := C69_reopen hl hlv hs1 hw k' h0
  rw [f3] at e1
  cases e1
  exact ⟨s'', e2, reopen_ok h ⟨f1, f2, f4⟩ e3 (open_framed hl h0 e2)⟩

/-! ## Values -/

/-- Statements one after the other, whether they raise or not -/
def runActs {F : Cells.FloatLib} (strategy : String) (mx : Int × Int) (l : List (Act F)) (p : Prog) : Prog :=
  l.foldl (fun p a => (exec strategy mx a p).1) p

theorem sound_rect {T : TState} (h : Sound T) : ∀ t ∈ rowsOf T, t.2.length = ncols T := by
  intro t ht
  rw [ncols_eq h.inv]
  cases hr : rowsOf T with
  | nil => rw [hr] at ht; simp at ht
  | cons a l =>
    simp only
    have h1 : a ∈ docRows T.kids := by rw [← rowsOf_doc, hr]; simp
    have h2 : t ∈ docRows T.kids := by rw [← rowsOf_doc]; exact ht
    have := h.expanded.rect t h2 a h1
    rw [← Forest.length_toList, ← Forest.length_toList]; exact this

theorem writes_prog {F : Cells.FloatLib} {L : XLib} {strategy : String} {mx : Int × Int} {i : Nat}
    (ws : List ((Int × Int) × CellCall F)) (hws : ∀ w ∈ ws, w.2.NoTable ∧ w.2.NoRepeat) : ∀ {p : Prog} {T : TState},
    OK L p → stateOf p i = some T →
    ∃ T', OK L (runActs strategy mx (ws.map fun w => .write i w.1 w.2) p) ∧
      stateOf (runActs strategy mx (ws.map fun w => .write i w.1 w.2) p) i = some T' ∧
      (∀ j, j ≠ i → view (runActs strategy mx (ws.map fun w => .write i w.1 w.2) p) j = view p j) ∧
      order (runActs strategy mx (ws.map fun w => .write i w.1 w.2) p) = order p ∧
      (runActs strategy mx (ws.map fun w => .write i w.1 w.2) p).tables.map TableObj.node = p.tables.map TableObj.node ∧
      (runActs strategy mx (ws.map fun w => .write i w.1 w.2) p).session =
        { p.session with world := (runActs strategy mx (ws.map fun w => .write i w.1 w.2) p).world } ∧
      nrows T' = nrows T ∧ ncols T' = ncols T ∧ T'.node = T.node ∧
      ∀ r c t, docCell T.kids r c = some t → ∃ t', docCell T'.kids r c = some t' ∧
        Sim (callAll (callsOn (nrows T) (ncols T) r c ws) t) t' := by
  induction ws with
  | nil => intro p T h hT; exact ⟨T, h, hT, fun _ _ => rfl, rfl, rfl, rfl, rfl, rfl, rfl, fun r c t ht => ⟨t, ht, .refl t⟩⟩
  | cons w ws ih =>
    intro p T h hT
    have hw := hws w (by simp)
    have := C78_method (a := .write i w.1 w.2) h hw rfl strategy mx
    rw [hT] at this
    obtain ⟨p1, e, a1, a2, a3, a4, a5, a6⟩ := this
    have hsT : Sound T := by
      cases ho : p.tables[i]? with
      | none => unfold stateOf at hT; rw [ho] at hT; cases hT
      | some o =>
        obtain ⟨t, -, h1, h2⟩ := h.state ho
        rw [hT] at h1; cases h1; exact h2
    have hrect := sound_rect hsT
    obtain ⟨b1, b2, b3, b4, b5⟩ := write_step hsT.inv hrect w hw.1
    have hn := b2.ncols hsT.inv b1
    obtain ⟨T', c1, c2, c3, c4, c5, c6, c7, c8, c9, c10⟩ := ih (fun v hv => hws v (by simp [hv])) a1 a2
    have hrun : runActs strategy mx ((w :: ws).map fun w => Act.write i w.1 w.2) p =
        runActs strategy mx (ws.map fun w => .write i w.1 w.2) p1 := by
      show runActs strategy mx _ (exec strategy mx (.write i w.1 w.2) p).1 = _
      rw [e]
    have hr1 : nrows (onCell w.1 w.2.run T).1 = nrows T := by
      rw [nrows_eq hsT.inv, nrows_eq b1, b2.length]
    rw [hrun]
    refine ⟨T', c1, c2, fun j hj => (c3 j hj).trans (a3 j hj), c4.trans a4, c5.trans a5, c6.trans (by rw [a6]), c7.trans hr1, c8.trans hn, c9.trans b4.node, ?_⟩
    intro r c t ht
    rw [← cellAt_doc] at ht
    obtain ⟨t1, g1, g2, g3⟩ := b5 r c t ht
    rw [cellAt_doc] at g1
    obtain ⟨t2, g4, g5⟩ := c10 r c t1 g1
    refine ⟨t2, g4, ?_⟩
    rw [callsOn_cons]
    unfold callAll at g3 ⊢
    rw [List.foldl_append]
    have hr2 : nrows { (onCell w.1 w.2.run T).1 with fresh := Parts.newId p1.world } = nrows T := hr1
    have hn2 : ncols { (onCell w.1 w.2.run T).1 with fresh := Parts.newId p1.world } = ncols T := hn
    rw [hr2, hn2] at g5
    rw [← nrows_eq hsT.inv] at g3
    exact (callAll_sim _ g3).trans g5

/-- An empty cell -/
def blank : Tree := ({ id := 0, tag := "table:table-cell" }, .nil)

/-- **C78**, values: a program makes a new spreadsheet and a table of `n` rows and `m` columns, writes into its cells in
any order, any number of times, and at any positions, puts the table into the document, and saves it.  Opened again, the
first sheet has the name and the size, and each cell reads as a single cell does after the calls that address it. -/
theorem C78_values {F : Cells.FloatLib} {L : XLib} (hl : L.Lawful) (fs : Package.FS) (k k1 k2 : Clock) {nm : Str}
    (hnm : normalizeName nm ≠ []) {n m : Nat} (hn : 0 < n) (hm : 0 < m) (ws : List ((Int × Int) × CellCall F))
    (hws : ∀ w ∈ ws, w.2.NoTable ∧ w.2.NoRepeat) {strategy : String} {mx : Int × Int} (hc : Config strategy mx)
    (f : Package.Path) (env : Package.Env) (backup : Bool) (hsink : ∀ m, env.sink m = none) {tmp : Package.Path}
    (htmp : Package.tmpfilename env.names f fs = some tmp) (hne : tmp ≠ f) :
    ∃ s p', newWhole L fs k Parts.spreadsheet = .ok s ∧
      saveas L env k1 backup f (runActs strategy mx
        (.create nm (n, m) :: (ws.map fun w => .write 0 w.1 w.2) ++ [.append 0]) ⟨s, []⟩) = (p', .ok ()) ∧
      (Writable p'.session → ∃ s'' p'' T, openWhole L p'.session.w.fs k2 (.file (some f)) .nil = .ok s'' ∧
        (sheetsOf s'').length = 1 ∧ access strategy mx (.int 0) ⟨s'', []⟩ = (p'', .ok 0) ∧ stateOf p'' 0 = some T ∧
        nrows T = n ∧ ncols T = m ∧ name T = some (normalizeName nm) ∧
        ∀ r c : Nat, r < n → c < m → ∃ u, getCell T (r, c) = .ok u ∧ Reads F (callAll (callsOn n m r c ws) blank) u) := by
  obtain ⟨s, h1, h2, h3, h4, h5, h6⟩ := C78_new hl fs k (mt := Parts.spreadsheet) (by decide +kernel)
  have hsome : s.tree.sheets.isSome := h6.mpr (by decide +kernel)
  obtain ⟨b, hb⟩ := Option.isSome_iff_exists.mp hsome
  rcases C78_create h2 nm ((n : Int), (m : Int)) with ⟨e, -, hbad⟩ | ⟨p1, T1, c1, c2, c3, -, c5, c6, -, c8, c9, c10⟩
  · exact absurd ⟨hnm, by simp only; omega, by simp only; omega⟩ hbad
  have c3 : stateOf p1 0 = some T1 := c3
  have c6 : IsEmptyTable n m T1 := by simpa using c6
  obtain ⟨T2, d1, d2, -, d4, d5, d6, d7, d8, d9, d10⟩ := writes_prog (strategy := strategy) (mx := mx) ws hws c2 c3
  generalize hp2 : runActs strategy mx (ws.map fun w => .write 0 w.1 w.2) p1 = p2 at d1 d2 d4 d5 d6
  have hs2 : p2.session = { s with world := p2.world } := by rw [d6, c10]
  have hb2 : p2.session.tree.sheets = some b := by rw [hs2]; exact hb
  have hnode : ∃ x, nodeAt p2 0 = some x := by
    have hlen : p2.tables.length = 1 := by
      have := congrArg List.length d5
      simp only [List.length_map] at this
      rw [this, c9]; rfl
    exact ⟨_, by unfold nodeAt; rw [List.getElem?_eq_getElem (by omega : 0 < p2.tables.length)]; rfl⟩
  obtain ⟨x, hx⟩ := hnode
  obtain ⟨p3, a1, a2, a3, a4, a5, a6⟩ := C78_append d1 hx hb2
  have ho3 : order p3 = [x] := by
    rw [a6, d4]
    have : order p1 = [] := by unfold order; rw [c8, h5]; rfl
    rw [this]; rfl
  have hrun : runActs strategy mx (Act.create nm ((n : Int), (m : Int)) ::
      (ws.map fun w => .write 0 w.1 w.2) ++ [.append 0]) ⟨s, []⟩ = p3 := by
    unfold runActs
    rw [List.cons_append, List.foldl_cons, List.foldl_append]
    have e1 : (exec strategy mx (Act.create (L := F) nm ((n : Int), (m : Int))) ⟨s, []⟩).1 = p1 := by
      show ((create nm _ >>= fun _ => pure ()) (⟨s, []⟩ : Prog)).1 = _
      rw [Py.bind_ok c1]; rfl
    rw [e1]
    unfold runActs at hp2
    rw [hp2]
    show (append 0 p2).1 = _
    rw [a1]
  have hs3 : p3.session = { s with world := p3.world } := by rw [a5, hs2]
  have hT3 : stateOf p3 0 = some { T2 with fresh := Parts.newId p3.world } := by
    rw [stateOf_view, a3 0]
    rw [stateOf_view] at d2
    obtain ⟨v, v1, v2⟩ := Option.map_eq_some_iff.mp d2
    rw [v1, ← v2]; rfl
  have hx3 : nodeAt p3 0 = some x := by unfold nodeAt; rw [a4]; exact hx
  obtain ⟨s0, n1, -, n3, -, n5, n6, n7, -, -⟩ := new_ok (L := L) fs k (mt := Parts.spreadsheet) (by decide +kernel)
  rw [h1] at n1
  cases n1
  obtain ⟨s', hs'⟩ := C69_saves hl (s := { p3.session with docname := some f }) (a2.lives.named (some f)) (f := f) rfl env k1 backup
    (by
      rw [hs3]
      dsimp only
      rw [n5]
      show (Meta.abs (Meta.new k.time k.time2 k.generator)).tag "editing-cycles" ≠ _
      have : (Meta.abs (Meta.new k.time k.time2 k.generator)).tag "editing-cycles" = none := by
        rw [new_eq]
        rfl
      rw [this]; simp) (by rw [hs3]; exact n6) (by rw [hs3]; exact n7) hsink
    (by rw [hs3]; dsimp only; rw [n3]; exact htmp) hne
  refine ⟨s, { p3 with session := s' }, h1, ?_, fun hw => ?_⟩
  · rw [hrun]
    show (({ p3 with session := (saveWhole L env k1 backup { p3.session with docname := some f }).1 } : Prog), (saveWhole L env k1 backup { p3.session with docname := some f }).2) = _
    rw [hs']
  · obtain ⟨s'', r1, r2, r3, -, -, r6⟩ := C78_reopen_as F hl a2 (f := f) (p' := { p3 with session := s' }) (by
      show (({ p3 with session := (saveWhole L env k1 backup { p3.session with docname := some f }).1 } : Prog), (saveWhole L env k1 backup { p3.session with docname := some f }).2) = _
      rw [hs']) hw k2 (W0 := .nil) (by simp [ids])
    obtain ⟨p'', T, t1, -, t3, t4⟩ := r6 0 0 x _ (by rw [ho3]; rfl) hx3 hT3 b (by rw [hs3]; exact hb) strategy mx hc
    refine ⟨s'', p'', T, r1, ?_, t1, t3, ?_, ?_, ?_, ?_⟩
    · rw [r3]
      have := congrArg List.length ho3
      unfold order at this
      simpa using this
    · rw [t4.nrows]; exact d7.trans c6.nrows
    · rw [t4.ncols]; exact d8.trans c6.ncols
    · rw [t4.name]
      show name T2 = _
      unfold name at c5 ⊢
      rw [d9]; exact c5
    · intro r c hr hcc
      have hs2 : Sound { T2 with fresh := Parts.newId p3.world } := by
        obtain ⟨o, ho, -⟩ := nodeAt_some hx3
        obtain ⟨t, -, y1, y2⟩ := a2.state ho
        rw [hT3] at y1
        rw [Option.some.inj y1]; exact y2
      have hn2 : nrows { T2 with fresh := Parts.newId p3.world } = n := d7.trans c6.nrows
      have hm2 : ncols { T2 with fresh := Parts.newId p3.world } = m := d8.trans c6.ncols
      have dr : Denotes n (r : Int) r := ⟨hr, .inl rfl⟩
      have dc : Denotes m (c : Int) c := ⟨hcc, .inl rfl⟩
      obtain ⟨u, u', g1, g2, -, g4⟩ := t4.cells ((r : Int), (c : Int)) r c (by rw [hn2]; exact dr) (by rw [hm2]; exact dc)
      have rect1 : ∀ t ∈ docRows T1.kids, (cells t).length = ncols T1 := by
        intro t ht
        rw [c6.ncols]; exact (c6.emptyRows t ht).2.2.2.2.1
      obtain ⟨t0, w1, -⟩ := getCell_doc c6.inv rect1 (pos := ((r : Int), (c : Int))) (i := r) (j := c)
        (by rw [c6.rows]; exact dr) (by rw [c6.ncols]; exact dc)
      obtain ⟨t, w2, w3⟩ := d10 r c t0 w1
      obtain ⟨t', w4, w5⟩ := getCell_doc hs2.inv (fun t ht => by
          rw [← rowsOf_doc] at ht
          have := sound_rect hs2 t ht
          rw [← Forest.length_toList] at this; exact this) (pos := ((r : Int), (c : Int))) (i := r) (j := c)
        (by rw [← rowsOf_doc, ← nrows_eq hs2.inv, hn2]; exact dr) (by rw [hm2]; exact dc)
      have w4 : docCell T2.kids r c = some t' := w4
      rw [w2] at w4
      cases w4
      rw [w5] at g1
      cases g1
      have he : Sim t0 blank := by
        unfold docCell at w1
        cases hrow : (docRows T1.kids)[r]? with
        | none => rw [hrow] at w1; cases w1
        | some row =>
          rw [hrow] at w1
          have hmem := List.mem_of_getElem? (show (cells row)[c]? = some t0 from w1)
          obtain ⟨q1, q2, q3, q4, q5⟩ := (c6.emptyRows row (List.mem_of_getElem? hrow)).2.2.2.2.2 t0 hmem
          exact sim_mk q1 q2 q3 q4 (by rw [q5]; rfl)
      rw [c6.nrows, c6.ncols] at w3
      have hsim := (callAll_sim (callsOn n m r c ws) he).symm.trans w3
      refine ⟨u', g2, ?_⟩
      obtain ⟨z1, z2, z3, z4, z5⟩ := g4
      refine ⟨z1.trans hsim.value.symm, z2.trans hsim.valueType.symm, z3.trans (hsim.get _).symm, z4.trans hsim.plaintext.symm, z5.trans ?_⟩
      unfold Cells.span Cells.spanAttr
      rw [hsim.get, hsim.get]

end Verif.Program
