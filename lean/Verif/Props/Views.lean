import Verif.Props.MixValues
/-!
# C89: several objects of one table

`get_child` and iteration make a new object each time (`wrap`, xmlns.py:87-94; only sheets are remembered, C32), so a
program can have several objects of one table.  Each has its own lists of rows and columns.
-/
namespace Verif.Views
open Verif Verif.Lxml Forest Verif.Whole Verif.Tbl Verif.Program
open Verif.TSpec (docRows docCols docCell cells Denotes)
set_option linter.unusedSimpArgs false

/-! ## Calls that keep the lists -/

/-- The lists of rows and columns stay. -/
def Lists {α : Type} (m : Py TState α) : Prop := ∀ s, (m s).1.rows = s.rows ∧ (m s).1.cols = s.cols

theorem Lists.bind {α β : Type} {m : Py TState α} {f : α → Py TState β} (h : Lists m) (hf : ∀ a, Lists (f a)) :
    Lists (m >>= f) := by
  intro s
  cases hm : m s with
  | mk q r =>
    have h1 := h s
    rw [hm] at h1
    cases r with
    | error e => rw [Py.bind_error hm]; exact h1
    | ok a => rw [Py.bind_ok hm]; exact ⟨(hf a q).1.trans h1.1, (hf a q).2.trans h1.2⟩

theorem lists_forPy {α : Type} {m : α → Py TState Unit} (h : ∀ a, Lists (m a)) (l : List α) : Lists (forPy m l) := by
  induction l with
  | nil => exact fun s => ⟨rfl, rfl⟩
  | cons a l ih =>
    have : forPy m (a :: l) = (m a >>= fun _ => forPy m l) := rfl
    rw [this]
    exact (h a).bind fun _ => ih

theorem lists_withCell (pos : Int × Int) (m : Py Elem Unit) : Lists (withCell pos m) := by
  intro s; unfold withCell; split <;> exact ⟨rfl, rfl⟩

theorem lists_editCell (pos : Int × Int) (a : List (String × Str)) (x : Option Str) (k : Forest) : Lists (Tbl.editCell pos a x k) := by
  intro s; unfold Tbl.editCell; split <;> exact ⟨rfl, rfl⟩

theorem lists_editRow (i : Int) (a : List (String × Str)) : Lists (Tbl.editRow i a) := by
  intro s; unfold Tbl.editRow; split <;> exact ⟨rfl, rfl⟩

theorem lists_editColumn (i : Int) (a : List (String × Str)) : Lists (Tbl.editColumn i a) := by
  intro s; unfold Tbl.editColumn; split <;> exact ⟨rfl, rfl⟩

theorem lists_setCellSpan (pos size : Int × Int) : Lists (setCellSpan pos size) := by
  intro s
  unfold setCellSpan
  repeat' split
  all_goals first
    | exact ⟨rfl, rfl⟩
    | exact ((lists_forPy (fun p => lists_withCell p _) _).bind fun _ => (lists_withCell _ _).bind fun _ => lists_withCell _ _) s

theorem lists_removeCellSpan (pos : Int × Int) : Lists (removeCellSpan pos) := by
  intro s
  unfold removeCellSpan
  repeat' split
  all_goals first
    | exact ⟨rfl, rfl⟩
    | exact ((lists_forPy (fun p => lists_withCell p _) _).bind fun _ => (lists_withCell _ _).bind fun _ => lists_withCell _ _) s

theorem lists_tableSetCell (pos : Int × Int) (t : Tree) : Lists (tableSetCell pos t) := by
  intro s
  unfold tableSetCell
  split
  · unfold setCell
    repeat' split
    all_goals exact ⟨rfl, rfl⟩
  · exact ⟨rfl, rfl⟩

theorem lists_setName (n : Option Str) : Lists (Tbl.setName n) := by
  intro s
  unfold Tbl.setName
  split
  · exact ⟨rfl, rfl⟩
  · dsimp only
    split <;> exact ⟨rfl, rfl⟩

theorem lists_onCell (pos : Int × Int) (m : Py Tree Unit) : Lists (onCell pos m) := by
  intro s; unfold onCell; split
  · exact ⟨rfl, rfl⟩
  · exact lists_editCell _ _ _ _ s

theorem lists_onRow (i : Int) (m : Py Elem Unit) : Lists (onRow i m) := by
  intro s; unfold onRow; split
  · exact ⟨rfl, rfl⟩
  · exact lists_editRow _ _ s

theorem lists_onColumn (i : Int) (m : Py Elem Unit) : Lists (onColumn i m) := by
  intro s; unfold onColumn; split
  · exact ⟨rfl, rfl⟩
  · exact lists_editColumn _ _ s

variable {FL : Cells.FloatLib} {L : XLib}

/-- Calls on cells, their spans, the infos of rows and columns, and the name -/
def Gentle : Program.Act FL → Prop
  | .write .. | .writeRow .. | .writeColumn .. => True
  | .call _ (.setCell ..) | .call _ (.setSpan ..) | .call _ (.removeSpan ..) | .call _ (.setName ..) => True
  | _ => False

theorem lists_gentle {a : Program.Act FL} (h : Gentle a) {i : Nat} {m : Py TState Unit} (hm : method a = some (i, m)) :
    Lists m := by
  cases a with
  | write => cases hm; exact lists_onCell _ _
  | writeRow => cases hm; exact lists_onRow _ _
  | writeColumn => cases hm; exact lists_onColumn _ _
  | call i op =>
    cases op with
    | setCell => cases hm; exact lists_tableSetCell _ _
    | setSpan => cases hm; exact lists_setCellSpan _ _
    | removeSpan => cases hm; exact lists_removeCellSpan _
    | setName => cases hm; exact lists_setName _
    | _ => exact absurd h id
  | _ => exact absurd h id

/-! ## What the other objects show -/

/-- All objects of the table with the element `o.node` have the same lists, which are those of the table. -/
structure Shared (p : Prog) (o : TableObj) : Prop where
  once : (ids p.world).Nodup
  table : ∃ t, find o.node p.world = some t ∧ Sound (tableState p.world o t)
  same : ∀ o' ∈ p.tables, o'.node = o.node → o' = o

/-- In the programs of C88 each table has one object only. -/
theorem shared_start {p : Mix.Prog} (h : Mix.OK L p) {o : TableObj} (ho : o ∈ p.tables) : Shared p.sheets o := by
  obtain ⟨F, R, T, tag, h⟩ := h
  obtain ⟨t, ht⟩ := h.found ho
  refine ⟨h.cover.once, ⟨t, ht, h.sound o ho t ht⟩, fun o' ho' he => ?_⟩
  exact List.inj_on_of_nodup_map h.distinct ho' ho he

theorem Shared.state {p : Prog} {o : TableObj} (h : Shared p o) : ∃ S, Sound S ∧
    ∀ (j : Nat) o', p.tables[j]? = some o' → o'.node = o.node → stateOf p j = some S := by
  obtain ⟨t, ht, hs⟩ := h.table
  refine ⟨_, hs, fun j o' hj he => ?_⟩
  have := h.same o' (List.mem_of_getElem? hj) he
  subst this
  unfold stateOf
  rw [hj]
  show (Forest.find o'.node p.world).map _ = _
  rw [ht]; rfl

/-- **C89**, exactly what the other objects of a table show after a call on one of them: the table as the call has left it,
but with the rows and columns of before.  So they show the same as the object of the call if and only if the call leaves
the same row elements and the same column elements in the table, in the same order. -/
theorem C89_call {p : Prog} {o : TableObj} (h : Shared p o) {i j : Nat} (hi : p.tables[i]? = some o)
    (hj : p.tables[j]? = some o) (hij : i ≠ j) {a : Program.Act FL} (ha : Program.Allowed p a) {m : Py TState Unit}
    (hm : method a = some (i, m)) (strategy : String) (mx : Int × Int) :
    ∃ q S, stateOf p i = some S ∧ stateOf p j = some S ∧ Program.exec strategy mx a p = (q, (m S).2) ∧
      stateOf q i = some { (m S).1 with fresh := Parts.newId q.world } ∧
      stateOf q j = some { (m S).1 with rows := S.rows, cols := S.cols, fresh := Parts.newId q.world } ∧
      (stateOf q j = stateOf q i ↔
        (docRows (m S).1.kids).map (fun t => t.1.id) = (docRows S.kids).map (fun t => t.1.id) ∧
        (docCols (m S).1.kids).map (fun t => t.1.id) = (docCols S.kids).map fun t => t.1.id) := by
  obtain ⟨t, ht, hs⟩ := h.table
  have hst : ∀ k, p.tables[k]? = some o → stateOf p k = some (tableState p.world o t) := by
    intro k hk
    unfold stateOf
    rw [hk]
    show (Forest.find o.node p.world).map _ = _
    rw [ht]; rfl
  obtain ⟨s1, X, s2, s3⟩ := method_sound_of ha hm (hst i hi) hs
  have P := Mix.put_ids h.once ht (s := tableState p.world o t) rfl rfl rfl s1 s2 s3
  generalize hS : tableState p.world o t = S at *
  let q : Prog := { p.setWorld (putTable o.node (m S).1 p.world) with tables := p.tables.set i ⟨o.node, (m S).1.rows, (m S).1.cols⟩ }
  have hq : find o.node q.world = some ((m S).1.node, (m S).1.kids) := P.self
  have hlt : i < p.tables.length := (List.getElem?_eq_some_iff.mp hi).1
  have e1 : stateOf q i = some { (m S).1 with fresh := Parts.newId q.world } := by
    unfold stateOf
    have : q.tables[i]? = some ⟨o.node, (m S).1.rows, (m S).1.cols⟩ := by
      show (p.tables.set i _)[i]? = _
      rw [List.getElem?_set]; simp [hlt]
    rw [this]
    show (Forest.find o.node q.world).map _ = _
    rw [hq]; rfl
  have e2 : stateOf q j = some { (m S).1 with rows := S.rows, cols := S.cols, fresh := Parts.newId q.world } := by
    unfold stateOf
    have : q.tables[j]? = some o := by
      show (p.tables.set i _)[j]? = _
      rw [List.getElem?_set, if_neg hij]; exact hj
    rw [this]
    show (Forest.find o.node q.world).map _ = _
    rw [hq, ← hS]; rfl
  refine ⟨q, S, hst i hi, hst j hj, ?_, e1, e2, ?_⟩
  · rw [exec_method hm]
    unfold onTable
    rw [hi]
    have ht : p.world.find o.node = some t := ht
    simp only [ht, hS]
    rfl
  · rw [e1, e2, ← rowsOf_doc, ← rowsOf_doc, ← colsOf_doc, ← colsOf_doc, ← s1.inv.rows, ← s1.inv.cols, ← hs.inv.rows, ← hs.inv.cols]
    constructor
    · intro he
      have he := Option.some.inj he
      exact ⟨(congrArg TState.rows he).symm, (congrArg TState.cols he).symm⟩
    · rintro ⟨r1, r2⟩
      rw [← r1, ← r2]

/-- **C89**, another object of a table that has objects already: nothing is changed, and the new object shows the same. -/
theorem C89_again {p : Prog} {o : TableObj} (h : Shared p o) {t : Tree} (ht : find o.node p.world = some t)
    {strategy : String} {mx : Int × Int} (hc : Config strategy mx) :
    Mix.wrapTable strategy mx t p = ({ p with tables := p.tables ++ [o] }, .ok ()) ∧
      Shared { p with tables := p.tables ++ [o] } o := by
  obtain ⟨t', ht', hs⟩ := h.table
  rw [ht] at ht'
  cases ht'
  have hid := (find_mem_ids ht).1
  have hload := (reload hc.1 hc.2 hs.inv hs.expanded (node := t.1) hs.tag (G := t.2) (n := Parts.newId p.world) (sameContent_of_erase rfl)
    hs.inv.wf.nodup hs.inv.wf.lt).1
  have hw : putTable t.1.id (inTree t.1 t.2 (Parts.newId p.world)) p.world = p.world := by
    unfold putTable
    rw [hid]
    exact subst_same h.once ht _ rfl
  have hrows : (inTree t.1 t.2 (Parts.newId p.world)).rows = o.rows := hs.inv.rows.symm
  have hcols : (inTree t.1 t.2 (Parts.newId p.world)).cols = o.cols := hs.inv.cols.symm
  refine ⟨?_, h.once, ⟨t, ht, hs⟩, fun o' ho' he => ?_⟩
  · unfold Mix.wrapTable
    rw [hload]
    rw [hid] at hw
    simp only [hw, hrows, hcols, hid]
    rfl
  · rcases List.mem_append.mp ho' with ho' | ho'
    · exact h.same o' ho' he
    · simpa using ho'

/-- A call that keeps the lists, through any object of the table -/
theorem Shared.step {p : Prog} {o : TableObj} (h : Shared p o) {a : Program.Act FL} (hg : Gentle a)
    (ha : Program.Allowed p a) {i : Nat} {m : Py TState Unit} (hm : method a = some (i, m)) {o' : TableObj}
    (hi : p.tables[i]? = some o') (hno : o'.node = o.node) (strategy : String) (mx : Int × Int) {S : TState}
    (hS : stateOf p i = some S) :
    Shared (Program.exec strategy mx a p).1 o ∧ (Program.exec strategy mx a p).1.tables = p.tables ∧
      (Program.exec strategy mx a p).2 = (m S).2 ∧ Sound S ∧
      ∀ (j : Nat) o', p.tables[j]? = some o' → o'.node = o.node → stateOf (Program.exec strategy mx a p).1 j =
        some { (m S).1 with fresh := Parts.newId (Program.exec strategy mx a p).1.world } := by
  obtain rfl : o' = o := h.same o' (List.mem_of_getElem? hi) hno
  have hl := lists_gentle hg hm
  obtain ⟨t, ht, hs⟩ := h.table
  have hst : stateOf p i = some (tableState p.world o' t) := by
    unfold stateOf
    rw [hi]
    show (Forest.find o'.node p.world).map _ = _
    rw [ht]; rfl
  rw [hS] at hst
  cases hst
  obtain ⟨s1, X, s2, s3⟩ := method_sound_of ha hm hS hs
  have P := Mix.put_ids h.once ht (s := tableState p.world o' t) rfl rfl rfl s1 s2 s3
  obtain ⟨l1, l2⟩ := hl (tableState p.world o' t)
  have l1 : (m (tableState p.world o' t)).1.rows = o'.rows := l1
  have l2 : (m (tableState p.world o' t)).1.cols = o'.cols := l2
  have hset : p.tables.set i ⟨o'.node, (m (tableState p.world o' t)).1.rows, (m (tableState p.world o' t)).1.cols⟩ = p.tables := by
    rw [l1, l2]
    obtain ⟨hl, he⟩ := List.getElem?_eq_some_iff.mp hi
    subst he
    exact List.set_getElem_self hl
  have hex : Program.exec strategy mx a p =
      (p.setWorld (putTable o'.node (m (tableState p.world o' t)).1 p.world), (m (tableState p.world o' t)).2) := by
    rw [exec_method hm]
    unfold onTable
    rw [hi]
    have ht : p.world.find o'.node = some t := ht
    simp only [ht, hset]
    rfl
  have hstate : tableState (p.setWorld (putTable o'.node (m (tableState p.world o' t)).1 p.world)).world o'
      ((m (tableState p.world o' t)).1.node, (m (tableState p.world o' t)).1.kids) =
      { (m (tableState p.world o' t)).1 with fresh := Parts.newId (putTable o'.node (m (tableState p.world o' t)).1 p.world) } := by
    show ({ node := _, kids := _, rows := o'.rows, cols := o'.cols, fresh := _ } : TState) = _
    congr 1
    · exact l1.symm
    · exact l2.symm
  rw [hex]
  refine ⟨⟨P.once', ⟨_, P.self, ?_⟩, h.same⟩, rfl, rfl, hs, fun j o2 hj he => ?_⟩
  · have hf := s1.fresh (n := Parts.newId (putTable o'.node (m (tableState p.world o' t)).1 p.world))
      fun x hx => lt_newId ((find_sub P.self).subset (by simp [hx]))
    rw [hstate]; exact hf
  · obtain rfl : o2 = o' := h.same o2 (List.mem_of_getElem? hj) he
    unfold stateOf
    have : (p.setWorld (putTable o2.node (m (tableState p.world o2 t)).1 p.world)).tables[j]? = some o2 := hj
    rw [this]
    show (Forest.find o2.node (putTable o2.node (m (tableState p.world o2 t)).1 p.world)).map _ = _
    have hself : Forest.find o2.node (putTable o2.node (m (tableState p.world o2 t)).1 p.world) = _ := P.self
    rw [hself]
    exact congrArg some hstate

/-- All statements are allowed where they stand, and are calls on objects of the table. -/
def Calls (strategy : String) (mx : Int × Int) (o : TableObj) : List (Program.Act FL) → Prog → Prop
  | [], _ => True
  | a :: l, p => Program.Allowed p a ∧ (∃ i m o', method a = some (i, m) ∧ p.tables[i]? = some o' ∧ o'.node = o.node) ∧
      Calls strategy mx o l (Program.exec strategy mx a p).1

/-- **C89** for calls on cells, their spans, the infos of rows and columns, and the name, through any objects of the table in
any order: all objects show the same table at all times. -/
theorem C89_shared_partial {strategy : String} {mx : Int × Int} {o : TableObj} (l : List (Program.Act FL))
    (hg : ∀ a ∈ l, Gentle a) : ∀ {p : Prog}, Shared p o → Calls strategy mx o l p →
    ∃ S, (Program.runActs strategy mx l p).tables = p.tables ∧ Shared (Program.runActs strategy mx l p) o ∧
      ∀ (j : Nat) o', p.tables[j]? = some o' → o'.node = o.node →
        stateOf (Program.runActs strategy mx l p) j = some S := by
  induction l with
  | nil =>
    intro p h _
    obtain ⟨S, -, hS⟩ := h.state
    exact ⟨S, rfl, h, hS⟩
  | cons a l ih =>
    intro p h hcalls
    obtain ⟨ha, ⟨i, m, o', hm, hi, hno⟩, hrest⟩ := hcalls
    obtain ⟨S0, -, hS0⟩ := h.state
    obtain ⟨h1, h2, -⟩ := h.step (hg a (by simp)) ha hm hi hno strategy mx (hS0 i o' hi hno)
    obtain ⟨S, i1, i2, i3⟩ := ih (fun b hb => hg b (by simp [hb])) h1 hrest
    exact ⟨S, i1.trans h2, i2, fun j o2 hj he => i3 j o2 (by rw [h2]; exact hj) he⟩

/-- **C89**, the values: methods of cells are called through any objects of a table, in any order, any number of times and at
any positions.  Then all objects show the same table, in which each cell is what a single cell is after all calls that
address it, through whichever object they were made. -/
theorem C89_cells {strategy : String} {mx : Int × Int} {o : TableObj} (ws : List (Nat × (Int × Int) × CellCall FL)) :
    ∀ {p : Prog} {S : TState}, Shared p o →
    (∀ w ∈ ws, (w.2.2.NoTable ∧ w.2.2.NoRepeat) ∧ ∃ o', p.tables[w.1]? = some o' ∧ o'.node = o.node) →
    (∀ (j : Nat) o', p.tables[j]? = some o' → o'.node = o.node → stateOf p j = some S) →
    ∃ S', (∀ (j : Nat) o', p.tables[j]? = some o' → o'.node = o.node →
        stateOf (Program.runActs strategy mx (ws.map fun w => .write w.1 w.2.1 w.2.2) p) j = some S') ∧
      nrows S' = nrows S ∧ ncols S' = ncols S ∧ S'.node = S.node ∧
      ∀ r c t, docCell S.kids r c = some t → ∃ t', docCell S'.kids r c = some t' ∧
        Sim (callAll (callsOn (nrows S) (ncols S) r c (ws.map Prod.snd)) t) t' := by
  induction ws with
  | nil =>
    intro p S h _ hS
    exact ⟨S, hS, rfl, rfl, rfl, fun r c t ht => ⟨t, ht, .refl t⟩⟩
  | cons w ws ih =>
    intro p S h hw hS
    obtain ⟨i, pos, c⟩ := w
    obtain ⟨ha, o', hi, hno⟩ := hw (i, pos, c) (by simp)
    obtain ⟨h1, h2, -, hs, h3⟩ := h.step (a := .write i pos c) trivial ha rfl hi hno strategy mx (hS i o' hi hno)
    have hrect := Program.sound_rect hs
    obtain ⟨b1, b2, b3, b4, b5⟩ := write_step hs.inv hrect (pos, c) ha.1
    have hn := b2.ncols hs.inv b1
    have hr1 : nrows (onCell pos c.run S).1 = nrows S := by
      rw [nrows_eq hs.inv, nrows_eq b1, b2.length]
    generalize hq : (Program.exec strategy mx (Program.Act.write i pos c) p).1 = q at *
    obtain ⟨S', c1, c2, c3, c4, c5⟩ := ih h1 (fun w hw' => by rw [h2]; exact hw w (by simp [hw']))
      (fun j o2 hj he => h3 j o2 (by rw [← h2]; exact hj) he)
    have hnode : (onCell pos c.run S).1.node = S.node := b4.node
    refine ⟨S', fun j o2 hj he => ?_, c2.trans hr1, c3.trans hn, c4.trans hnode, ?_⟩
    · have := c1 j o2 (by rw [h2]; exact hj) he
      rw [← hq] at this
      exact this
    intro r cc t ht
    rw [← cellAt_doc] at ht
    obtain ⟨t1, g1, g2, g3⟩ := b5 r cc t ht
    rw [cellAt_doc] at g1
    obtain ⟨t2, g4, g5⟩ := c5 r cc t1 g1
    refine ⟨t2, g4, ?_⟩
    rw [List.map_cons, callsOn_cons]
    unfold callAll at g3 ⊢
    rw [List.foldl_append]
    have hr2 : nrows { (onCell pos c.run S).1 with fresh := Parts.newId q.world } = nrows S := hr1
    have hn2 : ncols { (onCell pos c.run S).1 with fresh := Parts.newId q.world } = ncols S := hn
    rw [hr2, hn2] at g5
    rw [← nrows_eq hs.inv] at g3
    exact (callAll_sim _ g3).trans g5

/-! ## The property does not hold in general -/

/-- A table is made and put into a new text document, the program gets another object for it, and appends a row through
the first one. -/
def staleActs : List (Mix.Act Cells.intLib) :=
  [.table (.create "T".toList (2, 1)), .text (.append none 0), .grab none 2, .table (.call 0 (.appendRows 1))]

/-- The number of rows of the table objects -/
def heights (p : Mix.Prog) : List Nat := p.tables.map fun o => o.rows.length

/-- **C89 is refuted**: a row appended through one object is not there for the other one.  The cell (2, 0), which the one
object reads, does not exist for the other (IndexError). -/
theorem C89_rows_refuted : ∃ p, Mix.demoStart = some p ∧
    let q := (Mix.runAll staleActs p).1
    (Mix.runAll staleActs p).2 = [.ok (), .ok (), .ok (), .ok ()] ∧
    q.tables.map TableObj.node = (q.tables.map TableObj.node).take 1 ++ (q.tables.map TableObj.node).take 1 ∧
    heights q = [3, 2] ∧
    (stateOf q.sheets 0).map (fun S => (getCell S (2, 0)).toOption.isSome) = some true ∧
    (stateOf q.sheets 1).map (fun S => match getCell S (2, 0) with | .error e => e | .ok _ => .NameError) = some .IndexError := by
  have h : (match Mix.demoStart with
    | none => false
    | some p => let q := (Mix.runAll staleActs p).1
      decide ((Mix.runAll staleActs p).2 = [.ok (), .ok (), .ok (), .ok ()] ∧
      q.tables.map TableObj.node = (q.tables.map TableObj.node).take 1 ++ (q.tables.map TableObj.node).take 1 ∧
      heights q = [3, 2] ∧
      (stateOf q.sheets 0).map (fun S => (getCell S (2, 0)).toOption.isSome) = some true ∧
      (stateOf q.sheets 1).map (fun S => match getCell S (2, 0) with | .error e => e | .ok _ => .NameError) = some .IndexError)) = true := by
    decide +kernel
  cases hp : Mix.demoStart with
  | none => rw [hp] at h; cases h
  | some p => rw [hp] at h; exact ⟨p, rfl, of_decide_eq_true h⟩

/-! ## An example -/

/-- In a new document of any kind, a table is made and put into the body.  The program gets a second object for it; then
the hypotheses of the theorems above hold of the two objects, for instance for writing a cell through each of them. -/
example (hl : L.Lawful) (fs : Package.FS) (k : Clock) {mt : Str} (hmt : mt ∈ Document.MIMETYPE_BODYTAG_MAP.keys) :
    ∃ (p : Mix.Prog) (o : TableObj) (t : Tree) (S : TState), Mix.OK L p ∧ p.tables = [o] ∧ find o.node p.world = some t ∧
      Mix.wrapTable "all" (32, 32) t p.sheets = ({ p.sheets with tables := [o, o] }, .ok ()) ∧
      Shared { p.sheets with tables := [o, o] } o ∧
      (∀ (j : Nat) o', [o, o][j]? = some o' → o'.node = o.node → stateOf { p.sheets with tables := [o, o] } j = some S) ∧
      ∀ w ∈ [(0, ((0, 0) : Int × Int), (CellCall.setValue (L := Cells.intLib) (.str "a".toList) none none)),
          (1, ((1, 0) : Int × Int), .setValue (.str "b".toList) none none)],
        (w.2.2.NoTable ∧ w.2.2.NoRepeat) ∧ ∃ o', [o, o][w.1]? = some o' ∧ o'.node = o.node := by
  obtain ⟨s, -, h1, -⟩ := Mix.C88_new (L := L) hl fs k hmt
  rcases Mix.C88_create (FL := Cells.intLib) h1 "all" (32, 32) "T".toList (2, 1) with ⟨e, -, hn⟩ | ⟨q, -, -, h2, -, -, -, -, -, -, hlen, -⟩
  · exact absurd ⟨by decide +kernel, by decide, by decide⟩ hn
  obtain ⟨h3, -, h4, -⟩ := Mix.C88_text (FL := Cells.intLib) (strategy := "all") (mx := (32, 32)) (a := .append none 0) h2
    ⟨trivial, fun k hk => by cases hk⟩
  generalize (Mix.exec "all" (32, 32) (Mix.Act.text (F := Cells.intLib) (.append none 0)) q).1 = p at h3 h4
  have hlen : p.tables.length = 1 := by rw [h4]; exact hlen
  obtain ⟨o, ho⟩ := List.length_eq_one_iff.mp hlen
  have hs := shared_start h3 (o := o) (by simp [ho])
  obtain ⟨t, ht, -⟩ := hs.table
  obtain ⟨g1, g2⟩ := C89_again hs ht (strategy := "all") (mx := (32, 32)) ⟨by decide, by decide⟩
  have e : p.sheets.tables ++ [o] = [o, o] := by show p.tables ++ [o] = _; rw [ho]; rfl
  rw [e] at g1 g2
  obtain ⟨S, -, hS⟩ := g2.state
  refine ⟨p, o, t, S, h3, ho, ht, g1, g2, hS, ?_⟩
  intro w hw
  simp only [List.mem_cons, List.not_mem_nil, or_false] at hw
  rcases hw with rfl | rfl
  · exact ⟨⟨(fun _ _ h => nomatch h), (fun _ _ h => nomatch h)⟩, o, rfl, rfl⟩
  · exact ⟨⟨(fun _ _ h => nomatch h), (fun _ _ h => nomatch h)⟩, o, rfl, rfl⟩

/-- What the cells of a column read through the `i`-th object -/
def column (p : Mix.Prog) (i : Nat) : Option (List (Option Str)) :=
  (stateOf p.sheets i).map fun S => [0, 1].map fun r => match getCell S (r, 0) with
    | .ok t => Cells.plaintext t
    | .error _ => none

/-- Both objects read what was written through either of them. -/
example : (Mix.demoStart.map fun p => let q := (Mix.runAll (staleActs.take 3 ++
    [.table (.write 0 (0, 0) (.setValue (.str "a".toList) none none)),
      .table (.write 1 (1, 0) (.setValue (.str "b".toList) none none))]) p).1
    (column q 0, column q 1)) =
    some (some [some "a".toList, some "b".toList], some [some "a".toList, some "b".toList]) := by decide +kernel

end Verif.Views
