import Verif.Proofs.ProgDoc
/-!
# C78 a spreadsheet made by a program is the same after saving and opening

Programs make tables, write into them, put them into the document, change, move and delete sheets, save, and open
the file again.  `OK` says what holds at all times; it holds of every document that has been opened (if its sheets can
be read) and made anew.
-/
namespace Verif.Program
open Verif Verif.Lxml Forest Verif.Whole Verif.Tbl Verif.Document Verif.TSpec
set_option linter.unusedSimpArgs false

/-- The table of the `i`-th object as its methods find it -/
def stateOf (p : Prog) (i : Nat) : Option TState :=
  p.tables[i]?.bind fun o => (p.world.find o.node).map fun t => tableState p.world o t

/-- The statements that are looked at.  A cell that is put into a table is no part of any other tree and carries no
repetition count; calls that raise leave the table as it was (C10 to C17 say which do); no table is put into a
cell. -/
def Allowed {F : Cells.FloatLib} (p : Prog) : Act F → Prop
  | .call i op => ∀ T, stateOf p i = some T → Fine op T ∧ ((run op T).2 = .ok () ∨ (run op T).1 = T) ∧
      op.Given Once ∧ ∀ x ∈ op.given, x ∉ ids p.world
  | .write _ _ c => c.NoTable ∧ c.NoRepeat
  | _ => True

/-! ## Lemmas -/

theorem OK.state {L : XLib} {p : Prog} (h : OK L p) {i : Nat} {o : TableObj} (ho : p.tables[i]? = some o) :
    ∃ t, Forest.find o.node p.world = some t ∧ stateOf p i = some (tableState p.world o t) ∧
      Sound (tableState p.world o t) := by
  have hm := List.mem_of_getElem? ho
  obtain ⟨t, ht⟩ := h.find hm
  refine ⟨t, ht, ?_, h.sound o hm t ht⟩
  unfold stateOf
  rw [ho]
  show (Forest.find o.node p.world).map _ = _
  rw [ht]; rfl

/-- A method of a table object -/
theorem onTable_ok {L : XLib} {p : Prog} (h : OK L p) {i : Nat} {T : TState} (hT : stateOf p i = some T)
    {m : Py TState Unit} (hs : Sound (m T).1) {X : List Nat} (hg : Grow X T (m T).1) (hX : ∀ x ∈ X, x ∉ ids p.world) :
    ∃ p', onTable i m p = (p', (m T).2) ∧ OK L p' ∧
      view p' i = some (((m T).1.node, (m T).1.kids), (m T).1.rows, (m T).1.cols) ∧
      (∀ j, j ≠ i → view p' j = view p j) ∧ order p' = order p ∧ p'.session.w = p.session.w ∧
      p'.tables.length = p.tables.length ∧ p'.tables.map TableObj.node = p.tables.map TableObj.node ∧
      p'.session = { p.session with world := p'.world } ∧
      ∀ n, (∀ o, p.tables[i]? = some o → o.node ≠ n) → ∀ t ∈ sheetsOf p.session, t.1.id = n → t ∈ sheetsOf p'.session := by
  cases ho : p.tables[i]? with
  | none => unfold stateOf at hT; rw [ho] at hT; cases hT
  | some o =>
    obtain ⟨t, ht, h1, -⟩ := h.state ho
    rw [hT] at h1; cases h1
    obtain ⟨a1, a2, a3, a4, a5⟩ := ok_put h ho ht hs hg hX
    refine ⟨_, ?_, a1, a2, a3, a4, rfl, by simp, ?_, rfl, ?_⟩
    · unfold onTable; rw [ho]; simp only [ht]
    · show (p.tables.set i _).map _ = _
      rw [List.map_set]
      refine List.ext_getElem? fun j => ?_
      rw [List.getElem?_set]
      split
      · rename_i hij
        subst hij
        rw [if_pos (by simpa using (List.getElem?_eq_some_iff.mp ho).1), List.getElem?_map, ho]; rfl
      · rfl
    · intro n hn u hu hue
      rw [a5]
      refine List.mem_map.mpr ⟨u, hu, ?_⟩
      rw [if_neg]
      intro e
      exact hn o rfl (e.symm.trans hue)

theorem onTable_none {p : Prog} {i : Nat} {m : Py TState Unit} (h : stateOf p i = none) : (onTable i m p).1 = p := by
  unfold stateOf at h
  unfold onTable
  cases ho : p.tables[i]? with
  | none => rfl
  | some o =>
    rw [ho] at h
    simp only
    cases ht : Forest.find o.node p.world with
    | none => rfl
    | some t =>
      have h : ((Forest.find o.node p.world).map fun t => tableState p.world o t) = none := h
      rw [ht] at h; cases h

theorem nodeOf_eq (p : Prog) (i : Nat) :
    nodeOf i p = match p.tables[i]? with | none => (p, .error .NameError) | some o => (p, .ok o.node) := by
  unfold nodeOf; cases p.tables[i]? <;> rfl

theorem OK.sheets {L : XLib} {p : Prog} (h : OK L p) {b : Nat} (hb : p.session.tree.sheets = some b) :
    b = p.session.tree.body.node := by
  obtain ⟨tag, -, hf⟩ := h.frame
  have e1 := hf.refs.sheets
  have e2 := hf.refs.body.sheets
  rw [hb] at e1
  rw [← e1] at e2
  split at e2
  · exact Option.some.inj e2
  · cases e2

theorem sheetElem_state (key : Pages.Key) (p : Prog) : (sheetElem key p).1 = p := by
  unfold sheetElem
  split
  · rfl
  · split <;> rfl

theorem findSheet_mem {key : Pages.Key} {l : List Tree} {t : Tree} (h : findSheet key l = .ok t) : t ∈ l := by
  unfold findSheet at h
  cases key with
  | int i =>
    simp only at h
    split at h
    · cases h
    · split at h
      · cases h
      · rename_i ht; cases h; exact List.mem_of_getElem? ht
  | str s =>
    simp only at h
    split at h
    · cases h
    · rename_i ht; cases h; exact List.mem_of_find?_eq_some ht
  | other => cases h

theorem sheetElem_ok {L : XLib} {p : Prog} (h : OK L p) {key : Pages.Key} {t : Tree}
    (ht : (sheetElem key p).2 = .ok t) :
    p.session.tree.sheets = some p.session.tree.body.node ∧ findSheet key (sheetsOf p.session) = .ok t ∧
    t ∈ sheetsOf p.session := by
  unfold sheetElem at ht
  split at ht
  · cases ht
  · rename_i b hb
    have hbn := h.sheets hb
    subst hbn
    split at ht
    · cases ht
    · rename_i u hu
      have : findSheet key (sheetsOf p.session) = .ok t := by
        unfold sheetsOf
        have hu' : p.session.world.find p.session.tree.body.node = some u := hu
        rw [hu']; exact ht
      exact ⟨hb, this, findSheet_mem this⟩

theorem access_err {strategy : String} {mx : Int × Int} {key : Pages.Key} {p : Prog} {e : Exc}
    (h : (sheetElem key p).2 = .error e) : access strategy mx key p = (p, .error e) := by
  unfold access
  have h1 := sheetElem_state key p
  have : sheetElem key p = (p, .error e) := Prod.ext h1 h
  rw [Py.bind_error this]

/-- What accessing a sheet does -/
structure Accessed (L : XLib) (strategy : String) (mx : Int × Int) (p : Prog) (t : Tree) (p' : Prog) (i : Nat) : Prop where
  ok : OK L p'
  obj : ∃ o, p'.tables[i]? = some o ∧ o.node = t.1.id
  objs : ∃ l, p'.tables = p.tables ++ l
  views : ∀ j, j < p.tables.length → view p' j = view p j
  order : order p' = order p
  names : (sheetsOf p'.session).map (fun u => (u.1.id, u.1.get "table:name")) =
    (sheetsOf p.session).map fun u => (u.1.id, u.1.get "table:name")
  session : p'.session = { p.session with world := p'.world }
  old : (∃ o ∈ p.tables, o.node = t.1.id) → p' = p
  new : (∀ o ∈ p.tables, o.node ≠ t.1.id) → i = p.tables.length ∧
    ∃ T, load strategy mx (stored t.1 t.2 (Parts.newId p.world)) = (T, .ok ()) ∧
      view p' i = some ((T.node, T.kids), T.rows, T.cols)

theorem access_ok {L : XLib} {p : Prog} (h : OK L p) {strategy : String}
    (hname : strategy ∈ ["all", "all_but_last", "all_less_maxcount"]) {mx : Int × Int} (hm : 1 < mx.1 ∧ 1 < mx.2)
    {key : Pages.Key} {t : Tree} (ht : (sheetElem key p).2 = .ok t) :
    ∃ p' i, access strategy mx key p = (p', .ok i) ∧ Accessed L strategy mx p t p' i := by
  obtain ⟨-, -, hts⟩ := sheetElem_ok h ht
  obtain ⟨hft, hpl⟩ := h.sheet hts
  obtain ⟨tag, -, hf⟩ := h.frame
  have he : sheetElem key p = (p, .ok t) := Prod.ext (sheetElem_state key p) ht
  unfold access
  rw [Py.bind_ok he]
  simp only
  cases hi : p.tables.findIdx? fun o => o.node = t.1.id with
  | some i =>
    obtain ⟨h1, h2, -⟩ := List.findIdx?_eq_some_iff_getElem.mp hi
    have h2 : p.tables[i].node = t.1.id := by simpa using h2
    refine ⟨p, i, rfl, h, ⟨_, List.getElem?_eq_getElem h1, h2⟩, ⟨[], by simp⟩, fun _ _ => rfl, rfl, rfl, rfl, fun _ => rfl, ?_⟩
    intro hno
    exact absurd h2 (hno _ (List.getElem_mem h1))
  | none =>
    have hno : ∀ o ∈ p.tables, o.node ≠ t.1.id := by
      intro o ho e
      have := List.findIdx?_eq_none_iff.mp hi o ho
      simp [e] at this
    have hnd := nodup_tree hf.once hft
    simp only [ids_single, List.nodup_cons] at hnd
    obtain ⟨T, l1, l2, l3, l4⟩ := (h.others t hts hno).load hname hm hnd.2
      (fun i hi => lt_newId ((find_sub hft).subset (by simp [hi])) : ∀ i ∈ ids t.2, i < Parts.newId p.world)
    obtain ⟨a1, a2, a3, a4, a5⟩ := ok_open h hts hno l2 l4
    rw [l1]
    refine ⟨_, _, rfl, a1, ⟨⟨t.1.id, T.rows, T.cols⟩, by simp, rfl⟩, ⟨_, rfl⟩, a3, a4, ?_, rfl, ?_, ?_⟩
    · rw [a5, List.map_map]
      refine List.map_congr_left fun u hu => ?_
      simp only [Function.comp]
      split
      · rename_i he
        have h1 := (h.sheet hu).1
        rw [he, hft] at h1
        cases h1
        rw [l3]
      · rfl
    · rintro ⟨o, ho, e⟩
      exact absurd e (hno o ho)
    · intro _
      exact ⟨rfl, T, l1, a2⟩

/-! ## Statements keep everything in order -/

theorem ok_tables {L : XLib} {p : Prog} (h : OK L p) {i : Nat} {o : TableObj} (ho : p.tables[i]? = some o) :
    Placed p.world p.session.tree o.node := h.placed o (List.mem_of_getElem? ho)

theorem append_ok {L : XLib} {p : Prog} (h : OK L p) {i : Nat} {o : TableObj} (ho : p.tables[i]? = some o) {b : Nat}
    (hb : p.session.tree.sheets = some b) :
    ∃ W', append i p = (p.setWorld W', .ok ()) ∧ OK L (p.setWorld W') ∧ (∀ j, view (p.setWorld W') j = view p j) ∧
      order (p.setWorld W') = without o.node (order p) ++ [o.node] := by
  obtain ⟨tag, ht, hf⟩ := h.frame
  obtain ⟨bt, hbt⟩ := hf.body
  have hbn := h.sheets hb
  subst hbn
  obtain ⟨W', e, hm⟩ := append_spec hf (ok_tables h ho) hbt
  obtain ⟨a1, a2, a3, a4, -⟩ := ok_move h ht hm (by
    intro x hx
    rcases List.mem_append.mp hx with hx | hx
    · exact .inl (List.mem_filter.mp hx).1
    · rw [List.mem_singleton.mp hx]; exact .inr ⟨o, List.mem_of_getElem? ho, rfl⟩)
  refine ⟨W', ?_, a1, a2, ?_⟩
  · unfold append
    rw [Py.bind_ok (a := o.node) (s' := p) (by rw [nodeOf_eq, ho])]
    unfold onSheets
    rw [hb]
    simp only [e]
  · rw [a4, a3, List.filter_append]
    unfold without
    rw [List.filter_filter, List.filter_filter]
    congr 1
    · exact List.filter_congr fun x _ => Bool.and_comm _ _
    · simp [(ok_tables h ho).tag]

theorem insert_ok {L : XLib} {p : Prog} (h : OK L p) {i : Nat} {o : TableObj} (ho : p.tables[i]? = some o) {b : Nat}
    (hb : p.session.tree.sheets = some b) (index : Int) :
    ∃ W' l l', insert index i p = (p.setWorld W', .ok ()) ∧ OK L (p.setWorld W') ∧
      (∀ j, view (p.setWorld W') j = view p j) ∧
      children p.world p.session.tree.body.node = some l ∧ children W' p.session.tree.body.node = some l' ∧
      match pyIdx l.length index with
      | none => l' = without o.node l ++ [o.node]
      | some n => ∃ s, l[n]? = some s ∧ (s = o.node → l' = l) ∧ (s ≠ o.node → l' = splice s [o.node, s] (without o.node l)) := by
  obtain ⟨tag, ht, hf⟩ := h.frame
  obtain ⟨bt, hbt⟩ := hf.body
  have hbn := h.sheets hb
  subst hbn
  have hpl := ok_tables h ho
  obtain ⟨t, hft⟩ := find_some_of_mem (Parts.mem_of_tagAt hpl.tag)
  have hbo := placed_out hf hpl hft _ (by simp : p.session.tree.body.node ∈ _)
  have hl : children p.world p.session.tree.body.node = some (Lxml.roots bt.2) := children_find hbt
  have hrun : ∀ {W' : World}, Lxml.insert p.session.tree.body.node index o.node p.world = (W', .ok ()) →
      insert index i p = (p.setWorld W', .ok ()) := by
    intro W' e
    unfold insert
    rw [Py.bind_ok (a := o.node) (s' := p) (by rw [nodeOf_eq, ho])]
    unfold onSheets
    rw [hb]
    simp only [e]
  have hget : ∀ n s, pyIdx (Lxml.roots bt.2).length index = some n → (Lxml.roots bt.2)[n]? = some s →
      Lxml.getitem p.session.tree.body.node index p.world = (p.world, .ok s) := by
    intro n s h1 h2
    unfold Lxml.getitem
    rw [hbt]; simp only [h1, h2]
  cases hn : pyIdx (Lxml.roots bt.2).length index with
  | none =>
    obtain ⟨W', e, hm⟩ := append_spec hf hpl hbt
    obtain ⟨a1, a2, -, -, -⟩ := ok_move h ht hm (by
      intro x hx
      rcases List.mem_append.mp hx with hx | hx
      · exact .inl (List.mem_filter.mp hx).1
      · rw [List.mem_singleton.mp hx]; exact .inr ⟨o, List.mem_of_getElem? ho, rfl⟩)
    refine ⟨W', _, _, hrun ?_, a1, a2, hl, hm.after, ?_⟩
    · have hg : Lxml.getitem p.session.tree.body.node index p.world = (p.world, .error .IndexError) := by
        unfold Lxml.getitem
        rw [hbt]; simp only [hn]
      unfold Lxml.insert
      rw [hg]; exact e
    · rw [hn]
  | some n =>
    have hlt : n < (Lxml.roots bt.2).length := by
      unfold pyIdx at hn
      split at hn
      · split at hn
        · cases hn; assumption
        · cases hn
      · split at hn
        · cases hn; omega
        · cases hn
    have hs := List.getElem?_eq_getElem hlt
    by_cases hso : (Lxml.roots bt.2)[n] = o.node
    · refine ⟨p.world, _, _, hrun ?_, h, fun _ => rfl, hl, hl, ?_⟩
      · unfold Lxml.insert
        rw [hget n _ hn hs]
        simp only [hft]
        rw [if_neg (by simpa [Lxml.inTree] using hbo), if_pos hso]
      · rw [hn]
        exact ⟨_, hs, fun _ => rfl, fun hne => absurd hso hne⟩
    · have hm := before_spec hf hpl hbt (List.getElem_mem hlt) hso hft
      obtain ⟨a1, a2, -, -, -⟩ := ok_move h ht hm (by
        intro x hx
        unfold Lxml.splice at hx
        obtain ⟨y, hy, hx⟩ := List.mem_flatMap.mp hx
        have hy := (List.mem_filter.mp hy).1
        split at hx
        · simp only [List.mem_cons, List.not_mem_nil, or_false] at hx
          rcases hx with rfl | rfl
          · exact .inr ⟨o, List.mem_of_getElem? ho, rfl⟩
          · exact .inl (List.getElem_mem hlt)
        · simp only [List.mem_singleton] at hx; subst hx; exact .inl hy)
      refine ⟨_, _, _, hrun ?_, a1, a2, hl, hm.after, ?_⟩
      · unfold Lxml.insert
        rw [hget n _ hn hs]
        simp only [hft]
        rw [if_neg (by simpa [Lxml.inTree] using hbo), if_neg hso]
      · rw [hn]
        exact ⟨_, hs, fun he => absurd he hso, fun _ => rfl⟩

theorem order_mem {L : XLib} {p : Prog} (h : OK L p) {b : Tree}
    (hb : Forest.find p.session.tree.body.node p.world = some b) {x : Nat} (hx : x ∈ order p) : x ∈ Lxml.roots b.2 := by
  obtain ⟨tag, -, hf⟩ := h.frame
  have := order_kids (p := p) hf.once (children_find hb)
  rw [setWorld_self] at this
  rw [this] at hx
  exact (List.mem_filter.mp hx).1

theorem delete_ok {L : XLib} {p : Prog} (h : OK L p) {strategy : String}
    (hname : strategy ∈ ["all", "all_but_last", "all_less_maxcount"]) {mx : Int × Int} (hm : 1 < mx.1 ∧ 1 < mx.2)
    {key : Pages.Key} {t : Tree} (ht : (sheetElem key p).2 = .ok t) :
    ∃ p', delete strategy mx key p = (p', .ok ()) ∧ OK L p' ∧ (∀ j, j < p.tables.length → view p' j = view p j) ∧
      order p' = without t.1.id (order p) := by
  obtain ⟨p1, i, e, hA⟩ := access_ok h hname hm ht
  obtain ⟨hsb, -, hts⟩ := sheetElem_ok h ht
  obtain ⟨o, ho, hon⟩ := hA.obj
  obtain ⟨tag, htag, hf⟩ := hA.ok.frame
  obtain ⟨bt, hbt⟩ := hf.body
  have hpl := ok_tables hA.ok ho
  have hin : o.node ∈ Lxml.roots bt.2 := by
    refine order_mem hA.ok hbt ?_
    rw [hA.order, hon]
    exact List.mem_map_of_mem hts
  obtain ⟨W', e2, hmv⟩ := remove_spec hf hpl hbt hin
  obtain ⟨a1, a2, a3, a4, -⟩ := ok_move hA.ok htag hmv (fun x hx => .inl (List.mem_filter.mp hx).1)
  have hsb1 : p1.session.tree.sheets = some p1.session.tree.body.node := by
    rw [hA.session]; exact hsb
  refine ⟨p1.setWorld W', ?_, a1, ?_, ?_⟩
  · unfold delete
    rw [Py.bind_ok e, Py.bind_ok (a := o.node) (s' := p1) (by rw [nodeOf_eq, ho])]
    unfold onSheets
    rw [hsb1]
    simp only [e2]
  · intro j hj
    rw [a2, hA.views j hj]
  · rw [a4, ← hA.order, a3, ← hon]
    unfold without
    rw [List.filter_filter, List.filter_filter]
    exact List.filter_congr fun x _ => Bool.and_comm _ _

theorem replace_ok {L : XLib} {p : Prog} (h : OK L p) {strategy : String}
    (hname : strategy ∈ ["all", "all_but_last", "all_less_maxcount"]) {mx : Int × Int} (hm : 1 < mx.1 ∧ 1 < mx.2)
    {key : Pages.Key} {t : Tree} (ht : (sheetElem key p).2 = .ok t) {i : Nat} {o : TableObj} (hi : p.tables[i]? = some o) :
    ∃ p', replace strategy mx key i p = (p', .ok ()) ∧ OK L p' ∧ (∀ j, j < p.tables.length → view p' j = view p j) ∧
      order p' = if t.1.id = o.node then order p else splice t.1.id [o.node] (without o.node (order p)) := by
  obtain ⟨p1, j, e, hA⟩ := access_ok h hname hm ht
  obtain ⟨hsb, -, hts⟩ := sheetElem_ok h ht
  obtain ⟨o2, ho2, hon⟩ := hA.obj
  obtain ⟨l, hl⟩ := hA.objs
  have hi1 : p1.tables[i]? = some o := by
    rw [hl, List.getElem?_append_left (List.getElem?_eq_some_iff.mp hi).1]; exact hi
  obtain ⟨tag, htag, hf⟩ := hA.ok.frame
  obtain ⟨bt, hbt⟩ := hf.body
  have hpl := ok_tables hA.ok hi1
  have hpl2 := ok_tables hA.ok ho2
  have hin : o2.node ∈ Lxml.roots bt.2 := by
    refine order_mem hA.ok hbt ?_
    rw [hA.order, hon]
    exact List.mem_map_of_mem hts
  have hsb1 : p1.session.tree.sheets = some p1.session.tree.body.node := by
    rw [hA.session]; exact hsb
  have hrun : ∀ {W' : World}, Lxml.replace p1.session.tree.body.node o2.node o.node p1.world = (W', .ok ()) →
      replace strategy mx key i p = (p1.setWorld W', .ok ()) := by
    intro W' e2
    unfold replace
    rw [Py.bind_ok (a := o.node) (s' := p) (by rw [nodeOf_eq, hi]), Py.bind_ok e,
      Py.bind_ok (a := o2.node) (s' := p1) (by rw [nodeOf_eq, ho2])]
    unfold onSheets
    rw [hsb1]
    simp only [e2]
  by_cases hne : o2.node = o.node
  · obtain ⟨u, hu⟩ := find_some_of_mem (Parts.mem_of_tagAt hpl.tag)
    refine ⟨p1, hrun ?_, hA.ok, hA.views, ?_⟩
    · have hbo := placed_out hf hpl hu _ (by simp : p1.session.tree.body.node ∈ _)
      unfold Lxml.replace
      rw [hne] at hin ⊢
      simp only [hbt, hu]
      rw [if_neg (by simpa using hin), if_neg (by simpa [Lxml.inTree] using hbo), if_pos trivial]; rfl
    · rw [if_pos (hon ▸ hne), hA.order]
  · obtain ⟨W', e2, hmv⟩ := replace_spec hf hpl hpl2 hbt hin hne
    obtain ⟨a1, a2, a3, a4, -⟩ := ok_move hA.ok htag hmv (by
      intro x hx
      unfold Lxml.splice at hx
      obtain ⟨y, hy, hx⟩ := List.mem_flatMap.mp hx
      have hy := (List.mem_filter.mp hy).1
      split at hx
      · simp only [List.mem_singleton] at hx
        exact .inr ⟨o, List.mem_of_getElem? hi1, hx.symm⟩
      · simp only [List.mem_singleton] at hx; subst hx; exact .inl hy)
    refine ⟨p1.setWorld W', hrun e2, a1, fun j hj => by rw [a2, hA.views j hj], ?_⟩
    rw [if_neg (hon ▸ hne), a4, ← hA.order, a3, ← hon]
    generalize Lxml.roots bt.2 = L'
    unfold Lxml.splice without
    rw [List.filter_flatMap]
    have : ∀ l : List Nat, (l.filter fun x => x ≠ o.node).flatMap (fun a => List.filter
        (fun x => decide (Parts.tagAt p1.world x = some "table:table")) (if a = o2.node then [o.node] else [a])) =
        ((l.filter fun x => Parts.tagAt p1.world x = some "table:table").filter fun x => x ≠ o.node).flatMap
          fun a => if a = o2.node then [o.node] else [a] := by
      intro l
      induction l with
      | nil => rfl
      | cons a l ih =>
        by_cases ha : a = o.node
        · rw [List.filter_cons_of_neg (by simp [ha]), ih]
          congr 1
          by_cases hat : Parts.tagAt p1.world a = some "table:table"
          · rw [List.filter_cons_of_pos (by simp [hat]), List.filter_cons_of_neg (by simp [ha])]
          · rw [List.filter_cons_of_neg (by simp [hat])]
        · rw [List.filter_cons_of_pos (by simp [ha]), List.flatMap_cons, ih]
          by_cases hat : Parts.tagAt p1.world a = some "table:table"
          · rw [List.filter_cons_of_pos (p := fun x => decide (Parts.tagAt p1.world x = some "table:table")) (by simp [hat]),
              List.filter_cons_of_pos (by simp [ha]), List.flatMap_cons]
            congr 1
            split
            · simp [hpl.tag]
            · simp [hat]
          · rw [List.filter_cons_of_neg (p := fun x => decide (Parts.tagAt p1.world x = some "table:table")) (l := l) (by simp [hat])]
            have hao : a ≠ o2.node := by rintro rfl; exact hat hpl2.tag
            rw [if_neg hao]
            simp [hat]
    exact this L'

end Verif.Program
