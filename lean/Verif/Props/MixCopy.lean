import Verif.Props.MixValues
import Verif.Model.MixCopy
/-!
# C90: copies of tables in programs
-/
namespace Verif.Mix
open Verif Verif.Lxml Forest Verif.Whole Verif.Tbl
open Verif.Program (TableObj tableState stateOf Config Copied method)
open Verif.TSpec (docCell docRows cells Denotes SameContent)
open Verif.TextProg (Kept Loose Step Firm Fits declTags Place at_ SameBelow)
set_option linter.unusedSimpArgs false

variable {L : XLib} {FL : Cells.FloatLib} {F R T : Nat → Prop} {tag : String} {p : Prog}

/-- The name that the copy gets, before it is normalised -/
def nameFor (newname : Option Str) (S : TState) : Option Str :=
  match newname with
  | some n => some n
  | none => (name S).map fun n => "CopyOf".toList ++ n

/-- The table `C` is a copy of `S`: all that is in it, and its own attributes, but not its name. -/
structure CopyOf (S C : TState) : Prop where
  content : SameContent S.kids C.kids
  attrs : ∀ k, k ≠ "table:name" → C.node.get k = S.node.get k
  nrows : nrows C = nrows S
  ncols : ncols C = ncols S
  infos : C.cols.length = S.cols.length
  cells : ∀ (pos : Int × Int) i j, Denotes (Tbl.nrows S) pos.1 i → Denotes (Tbl.ncols S) pos.2 j →
    ∃ u u', getCell S pos = .ok u ∧ getCell C pos = .ok u' ∧ SameContent (single u) (single u')

theorem copyOf_sound {S : TState} (hs : Sound S) {strategy : String} {mx : Int × Int} (hc : Config strategy mx)
    {newname : Option Str} {nm : Str} (hn : nameFor newname S = some nm) (hv : normalizeName nm ≠ []) :
    ∃ C, copyTable strategy mx newname S = .ok C ∧ Sound C ∧ C.node.id = S.fresh ∧ (∀ i ∈ ids C.kids, S.fresh < i) ∧
      CopyOf S C ∧ name C = some (normalizeName nm) := by
  have hn' : copyName newname S = some nm := by
    cases newname with
    | some n => exact hn
    | none =>
      unfold nameFor at hn
      cases h0 : name S with
      | none => rw [h0] at hn; cases hn
      | some m => rw [h0] at hn; simp only [copyName, h0]; exact hn
  have hcore := copy_core hc.1 hc.2 hs.tag hs.inv hs.expanded hn' hv
  obtain ⟨c1, c2, c3, c4⟩ := clone_spec S.kids (S.fresh + 1)
  have hsame : SameContent S.kids (copied S (normalizeName nm)).kids := sameContent_of_erase c2.symm
  have hinv := copied_inv hs.inv (normalizeName nm)
  obtain ⟨k1, k2, k3, k4⟩ := C21_cells hs.inv hinv hsame hs.expanded.rect
  refine ⟨_, hcore, ⟨hinv, expanded_of_same hsame hs.expanded hs.once, once_of_same hsame hs.once, hs.tag⟩, rfl, ?_,
    ⟨hsame, ?_, k1, k2, k3, k4⟩, ?_⟩
  · intro i hi
    have := (c4 i hi).1
    omega
  · intro k hk
    show ({ S.node with id := S.fresh }.set "table:name" _).get k = _
    rw [Elem.get_set, if_neg hk]; rfl
  · show ({ S.node with id := S.fresh }.set "table:name" _).get "table:name" = _
    rw [Elem.get_set, if_pos rfl]

/-- **C90**, `t.copy(newname)`.  Without a usable name it is refused (TypeError or ValueError), and nothing happens.  Otherwise
the copy is a new table object with all that is in the table, in no other element; nothing else changes. -/
theorem C90_copy (h : OK L p) {strategy : String} {mx : Int × Int} (hc : Config strategy mx) {i : Nat} {S : TState}
    (hS : stateOf p.sheets i = some S) (newname : Option Str) :
    match nameFor newname S with
    | none => copy strategy mx i newname p = (p, .error .TypeError)
    | some nm => if normalizeName nm = [] then copy strategy mx i newname p = (p, .error .ValueError) else
      ∃ q C, copy strategy mx i newname p = (q, .ok ()) ∧ OK L q ∧ stateOf q.sheets p.tables.length = some C ∧ CopyOf S C ∧
        name C = some (normalizeName nm) ∧ (∀ j, j < p.tables.length → shown q j = shown p j) ∧
        q.text.objs = p.text.objs ++ [C.node.id] ∧ q.tables.length = p.tables.length + 1 ∧
        C.node.id ∈ Lxml.roots q.world ∧ (∀ x ∈ ids (single (C.node, C.kids)), x ∉ ids p.world) ∧
        (∀ n t, find n p.world = some t → find n q.world = some t) ∧ TextProg.Frame p.text q.text := by
  obtain ⟨hs, hi⟩ := h.sound hS
  obtain ⟨F, R, T, tag, h⟩ := h
  obtain ⟨o, ho⟩ : ∃ o, p.tables[i]? = some o := ⟨_, List.getElem?_eq_getElem hi⟩
  obtain ⟨t, ht, hst, -⟩ := h.state ho
  rw [hst] at hS
  cases hS
  have hrun : copy strategy mx i newname p = match copyTable strategy mx newname (tableState p.world o t) with
      | .error e => (p, .error e)
      | .ok c => (withTable p c, .ok ()) := by
    unfold copy
    have ht : p.world.find o.node = some t := ht
    simp only [ho, ht]
    cases copyTable strategy mx newname (tableState p.world o t) <;> rfl
  have hload : ∃ c, load strategy mx (cloneTable (tableState p.world o t)) = (c, .ok ()) := by
    obtain ⟨c1, c2, c3, c4⟩ := clone_spec t.2 (Parts.newId p.world + 1)
    have hcore := copy_core (newname := some "x".toList) hc.1 hc.2 hs.tag hs.inv hs.expanded rfl (by decide +kernel)
    unfold copyTable at hcore
    rcases hl : load strategy mx (cloneTable (tableState p.world o t)) with ⟨c, r⟩
    rw [hl] at hcore
    cases r with
    | error e => cases hcore
    | ok u => exact ⟨c, rfl⟩
  obtain ⟨c, hload⟩ := hload
  cases hn : nameFor newname (tableState p.world o t) with
  | none =>
    show copy strategy mx i newname p = _
    cases newname with
    | some n => cases hn
    | none =>
      unfold nameFor at hn
      have h0 : name (tableState p.world o t) = none := by
        cases h0 : name (tableState p.world o t) with
        | none => rfl
        | some m => rw [h0] at hn; cases hn
      have : copyTable strategy mx none (tableState p.world o t) = .error .TypeError := by
        unfold copyTable
        simp only [hload, h0]
      rw [hrun, this]
  | some nm =>
    show ite _ _ _
    split
    · rename_i hv
      have hset : setName (some nm) c = (c, .error .ValueError) := by
        unfold setName
        simp only [hv, List.isEmpty_nil, ↓reduceIte]
      have : copyTable strategy mx newname (tableState p.world o t) = .error .ValueError := by
        unfold copyTable
        cases newname with
        | some n => cases hn; simp only [hload, hset]
        | none =>
          unfold nameFor at hn
          cases h0 : name (tableState p.world o t) with
          | none => rw [h0] at hn; cases hn
          | some m => rw [h0] at hn; cases hn; simp only [hload, hset]
      rw [hrun, this]
    · rename_i hv
      obtain ⟨C, e1, e2, e3, e4, e5, e6⟩ := copyOf_sound hs hc hn hv
      obtain ⟨a1, a2, a3, a4⟩ := h.made (S := C) e2 e3 e4
      obtain ⟨R', T', hr⟩ := a1.ready
      refine ⟨withTable p C, { C with fresh := Parts.newId (withTable p C).world }, by rw [hrun, e1],
        ⟨F, R', T', tag, hr⟩, ?_, ⟨e5.content, e5.attrs, e5.nrows, e5.ncols, e5.infos, e5.cells⟩, e6, a4, rfl,
        by simp [withTable], ?_, ?_, a3, a1.frame⟩
      · unfold stateOf
        have h1 : (withTable p C).sheets.tables[p.tables.length]? = some ⟨C.node.id, C.rows, C.cols⟩ := by
          show (p.tables ++ [_])[p.tables.length]? = _
          simp
        rw [h1]
        show (Forest.find C.node.id (made p C).world).map _ = _
        rw [a2]; rfl
      · show C.node.id ∈ Lxml.roots (p.world ++ single (C.node, C.kids))
        simp [Lxml.roots, single, toList]
      · intro x hx hw
        have hlt := lt_newId hw
        have : Parts.newId p.world ≤ x := by
          simp only [ids_single, List.mem_cons] at hx
          rcases hx with rfl | hx
          · exact Nat.le_of_eq e3.symm
          · exact Nat.le_of_lt (e4 x hx)
        omega

/-! ## Programs -/

theorem After.refl (h : OK L p) (c : Option Nat) : After L c p p :=
  ⟨h, .refl _, List.prefix_refl _, List.prefix_refl _, fun _ _ _ => rfl⟩

/-- The table object that a statement is a call on; a copy changes no table. -/
def calleeOf : CopyAct FL → Option Nat
  | .act a => callee a
  | .copy .. => none

def AllowedC (p : Prog) : CopyAct FL → Prop
  | .act a => Allowed p a
  | .copy .. => True

/-- **C90**, one statement of a program that also copies tables, whether it raises or not: the program is in order, the frame
of the document is unchanged, the objects of the program remain, and all tables but the one that is called are as they
were. -/
theorem C90_step (h : OK L p) {strategy : String} {mx : Int × Int} (hc : Config strategy mx) {a : CopyAct FL}
    (ha : AllowedC p a) : After L (calleeOf a) p (execCopy strategy mx a p).1 := by
  cases a with
  | act a => exact C88_step h hc ha
  | copy i newname =>
    show After L none p (copy strategy mx i newname p).1
    cases hS : stateOf p.sheets i with
    | none =>
      have : copy strategy mx i newname p = (p, .error .NameError) := by
        unfold copy
        unfold stateOf at hS
        cases ho : p.tables[i]? with
        | none => rfl
        | some o =>
          have ho' : p.sheets.tables[i]? = some o := ho
          rw [ho'] at hS
          have : find o.node p.world = none := by
            cases ht : find o.node p.world with
            | none => rfl
            | some t =>
              have ht : p.sheets.world.find o.node = some t := ht
              simp [ht] at hS
          simp only [this]
      rw [this]
      exact .refl h none
    | some S =>
      have hcp := C90_copy h hc hS newname
      cases hn : nameFor newname S with
      | none => rw [hn] at hcp; simp only at hcp; rw [hcp]; exact .refl h none
      | some nm =>
        rw [hn] at hcp
        simp only at hcp
        split at hcp
        · rw [hcp]; exact .refl h none
        · obtain ⟨q, C, e1, e2, -, -, -, e6, e7, -, -, -, -, e12⟩ := hcp
          rw [e1]
          refine ⟨e2, e12, by rw [e7]; exact List.prefix_append _ _, ?_, fun j hj _ => e6 j hj⟩
          obtain ⟨T, hT⟩ : ∃ T, q.tables = p.tables ++ T := by
            have hq : (copy strategy mx i newname p).1.tables = q.tables := by rw [e1]
            rw [← hq]
            unfold copy
            split
            · exact ⟨[], by simp⟩
            · split
              · exact ⟨[], by simp⟩
              · split
                · exact ⟨[], by simp⟩
                · exact ⟨_, rfl⟩
          rw [hT, List.map_append]
          exact List.prefix_append _ _

/-- A program as a list of statements -/
def runCopies (strategy : String) (mx : Int × Int) (l : List (CopyAct FL)) (p : Prog) : Prog :=
  l.foldl (fun p a => (execCopy strategy mx a p).1) p

/-- All statements are allowed where they stand. -/
def AllAllowedC (strategy : String) (mx : Int × Int) : List (CopyAct FL) → Prog → Prop
  | [], _ => True
  | a :: l, p => AllowedC p a ∧ AllAllowedC strategy mx l (execCopy strategy mx a p).1

/-- **C90**, programs: after any program that also copies tables, the document and the objects are in order, nothing but the
content of the body has changed, and each table that no statement calls is as it was. -/
theorem C90_program {strategy : String} {mx : Int × Int} (hc : Config strategy mx) (acts : List (CopyAct FL)) :
    ∀ {p : Prog}, OK L p → AllAllowedC strategy mx acts p →
      let q := runCopies strategy mx acts p
      OK L q ∧ TextProg.Frame p.text q.text ∧ p.text.objs <+: q.text.objs ∧
      p.tables.map TableObj.node <+: q.tables.map TableObj.node ∧
      ∀ i, i < p.tables.length → (∀ a ∈ acts, calleeOf a ≠ some i) → shown q i = shown p i := by
  induction acts with
  | nil => intro p h _; exact ⟨h, .refl _, List.prefix_refl _, List.prefix_refl _, fun _ _ _ => rfl⟩
  | cons a l ih =>
    intro p h ha
    have h1 := C90_step h hc ha.1
    obtain ⟨b1, b2, b3, b4, b5⟩ := ih h1.ok ha.2
    refine ⟨b1, h1.frame.trans b2, h1.objs.trans b3, h1.tables.trans b4, fun i hi hn => ?_⟩
    have hl : i < (execCopy strategy mx a p).1.tables.length := by
      have := h1.tables.length_le
      simp only [List.length_map] at this
      omega
    exact (b5 i hl fun b hb => hn b (by simp [hb])).trans (h1.others i hi (hn a (by simp)))

/-- The calls on cells of the `i`-th table, in their order -/
def writesOf (i : Nat) : List (CopyAct FL) → List ((Int × Int) × CellCall FL)
  | [] => []
  | .act a :: l => writesTo i [a] ++ writesOf i l
  | .copy .. :: l => writesOf i l

/-- The statement calls no method of the `i`-th table but those of its cells. -/
def OnlyCells (i : Nat) : CopyAct FL → Prop
  | .act a => OnlyWrites i a
  | .copy .. => True

theorem callsOn_append (n m r c : Nat) (v w : List ((Int × Int) × CellCall FL)) :
    callsOn n m r c (v ++ w) = callsOn n m r c v ++ callsOn n m r c w := by
  unfold callsOn
  rw [List.filter_append, List.map_append]

/-- **C90**, the cells of a table after a program that also copies tables (this one, too): each is what a single cell is after
the calls that address it in this table. -/
theorem C90_cells {strategy : String} {mx : Int × Int} (hc : Config strategy mx) {i : Nat} (acts : List (CopyAct FL))
    (hw : ∀ a ∈ acts, OnlyCells i a) : ∀ {p : Prog} {S : TState}, OK L p → AllAllowedC strategy mx acts p →
    stateOf p.sheets i = some S → ∃ S', OK L (runCopies strategy mx acts p) ∧
      stateOf (runCopies strategy mx acts p).sheets i = some S' ∧ nrows S' = nrows S ∧ ncols S' = ncols S ∧
      S'.node.attrs = S.node.attrs ∧ S'.node.id = S.node.id ∧
      ∀ r c t, docCell S.kids r c = some t → ∃ t', docCell S'.kids r c = some t' ∧
        Sim (callAll (callsOn (nrows S) (ncols S) r c (writesOf i acts)) t) t' := by
  induction acts with
  | nil => intro p S h _ hS; exact ⟨S, h, hS, rfl, rfl, rfl, rfl, fun r c t ht => ⟨t, ht, .refl t⟩⟩
  | cons a l ih =>
    intro p S h ha hS
    have ih := @ih fun b hb => hw b (by simp [hb])
    obtain ⟨hs, hi⟩ := h.sound hS
    cases a with
    | act a =>
      have hwa : ∀ b ∈ [a], OnlyWrites i b := by
        intro b hb
        rw [List.mem_singleton] at hb
        subst hb
        exact hw (.act b) (by simp)
      obtain ⟨S1, -, b2, b3, b4, b5, b6, b7⟩ := C88_cells hc [a] hwa h ⟨ha.1, trivial⟩ hS
      obtain ⟨S', c1, c2, c3, c4, c5, c6, c7⟩ := ih (C90_step h hc ha.1).ok ha.2 b2
      refine ⟨S', c1, c2, c3.trans b3, c4.trans b4, c5.trans b5, c6.trans b6, fun r c t ht => ?_⟩
      obtain ⟨t1, d1, d2⟩ := b7 r c t ht
      obtain ⟨t2, d3, d4⟩ := c7 r c t1 d1
      refine ⟨t2, d3, ?_⟩
      show Sim (callAll (callsOn (nrows S) (ncols S) r c (writesTo i [a] ++ writesOf i l)) t) t2
      rw [b3, b4] at d4
      rw [callsOn_append]
      unfold callAll at d2 ⊢
      rw [List.foldl_append]
      exact (callAll_sim _ d2).trans d4
    | copy k nm =>
      have hst := C90_step (a := .copy (F := FL) k nm) h hc trivial
      obtain ⟨S1, s1, s2, s3, s4, s5, s6⟩ := shown_state (hst.others i hi (by simp [calleeOf])) hS
      obtain ⟨S', c1, c2, c3, c4, c5, c6, c7⟩ := ih hst.ok ha.2 s1
      have hr1 : nrows S1 = nrows S := by unfold nrows; rw [s3]
      have hn1 : ncols S1 = ncols S := by unfold ncols kidsOf; rw [s2, s3]
      refine ⟨S', c1, c2, c3.trans hr1, c4.trans hn1, c5.trans s5, c6.trans s6, ?_⟩
      rw [s2, hr1, hn1] at c7
      exact c7

theorem docCell_same {A B : Forest} (h : SameContent A B) {r c : Nat} {t : Tree} (ht : docCell A r c = some t) :
    ∃ u, docCell B r c = some u ∧ Sim t u := by
  have hr : (docRows A).map Tbl.content = (docRows B).map Tbl.content := sameContent_filter h _
  unfold docCell at ht ⊢
  obtain ⟨a, ha, ht⟩ := Option.bind_eq_some_iff.mp ht
  have h1 := congrArg (fun l => l[r]?) hr
  simp only [List.getElem?_map, ha, Option.map_some] at h1
  obtain ⟨b, hb, hab⟩ := Option.map_eq_some_iff.mp h1.symm
  have h2 : (cells a).map Tbl.content = (cells b).map Tbl.content := by
    have h2 : erase b.2 = erase a.2 := congrArg Prod.snd hab
    rw [cells, cells, ← erase_toList, ← erase_toList, h2]
  have h3 := congrArg (fun l => l[c]?) h2
  simp only [List.getElem?_map, ht, Option.map_some] at h3
  obtain ⟨u, hu, hut⟩ := Option.map_eq_some_iff.mp h3.symm
  exact ⟨u, by rw [hb]; exact hu, (congrArg Prod.fst hut).symm, (congrArg Prod.snd hut).symm⟩

/-- **C90**, a table and its copy are independent.  A table is copied, and then a program writes into the cells of both, and
does anything else with the rest of the document.  Each cell of the table, and each cell of the copy, is what the cell of
the table would be after the calls on the one and on the other. -/
theorem C90_apart (h : OK L p) {strategy : String} {mx : Int × Int} (hc : Config strategy mx) {i : Nat} {S : TState}
    (hS : stateOf p.sheets i = some S) {newname : Option Str} {nm : Str} (hn : nameFor newname S = some nm)
    (hv : normalizeName nm ≠ []) {acts : List (CopyAct FL)} (hi : ∀ a ∈ acts, OnlyCells i a)
    (hk : ∀ a ∈ acts, OnlyCells p.tables.length a)
    (ha : AllAllowedC strategy mx acts (copy strategy mx i newname p).1) :
    let q := runCopies strategy mx acts (copy strategy mx i newname p).1
    ∃ A B, OK L q ∧ stateOf q.sheets i = some A ∧ stateOf q.sheets p.tables.length = some B ∧ A.node.id ≠ B.node.id ∧
      name A = name S ∧ name B = some (normalizeName nm) ∧
      nrows A = nrows S ∧ ncols A = ncols S ∧ nrows B = nrows S ∧ ncols B = ncols S ∧
      ∀ r c t, docCell S.kids r c = some t → ∃ u v, docCell A.kids r c = some u ∧ docCell B.kids r c = some v ∧
        Sim (callAll (callsOn (nrows S) (ncols S) r c (writesOf i acts)) t) u ∧
        Sim (callAll (callsOn (nrows S) (ncols S) r c (writesOf p.tables.length acts)) t) v := by
  have hcp := C90_copy h hc hS newname
  rw [hn] at hcp
  simp only [if_neg hv] at hcp
  obtain ⟨q, C, e1, e2, e3, e4, e5, e6, -, -, -, e10, -, -⟩ := hcp
  obtain ⟨hs, hlt⟩ := h.sound hS
  rw [e1] at ha ⊢
  obtain ⟨S1, s1, s2, s3, -, s5, s6⟩ := shown_state (e6 i hlt) hS
  have hr1 : nrows S1 = nrows S := by unfold nrows; rw [s3]
  have hn1 : ncols S1 = ncols S := by unfold ncols kidsOf; rw [s2, s3]
  obtain ⟨A, a1, a2, a3, a4, a5, a6, a7⟩ := C90_cells hc acts hi e2 ha s1
  obtain ⟨B, -, b2, b3, b4, b5, b6, b7⟩ := C90_cells hc acts hk e2 ha e3
  refine ⟨A, B, a1, a2, b2, ?_, ?_, ?_, a3.trans hr1, a4.trans hn1, b3.trans e4.nrows, b4.trans e4.ncols, ?_⟩
  · rw [a6, b6, s6]
    intro he
    refine e10 C.node.id (by simp [ids_single]) ?_
    rw [← he]
    unfold stateOf at hS
    obtain ⟨o, ho, hS⟩ := Option.bind_eq_some_iff.mp hS
    obtain ⟨t, ht, rfl⟩ := Option.map_eq_some_iff.mp hS
    have ht : find o.node p.world = some t := ht
    show t.1.id ∈ ids p.world
    rw [(find_mem_ids ht).1]
    exact (find_mem_ids ht).2
  · unfold name Elem.get; rw [a5, s5]
  · rw [← e5]; unfold name Elem.get; rw [b5]
  · intro r c t ht
    rw [s2, hr1, hn1] at a7
    obtain ⟨u, u1, u2⟩ := a7 r c t ht
    obtain ⟨t', t1, t2⟩ := docCell_same e4.content ht
    obtain ⟨v, v1, v2⟩ := b7 r c t' t1
    rw [e4.nrows, e4.ncols] at v2
    exact ⟨u, v, u1, v1, u2, (callAll_sim _ t2).trans v2⟩

/-! ## An example -/

/-- The program of `Props/Mix.lean` (a table in a section, with a text in a cell); then the table is copied, the copy is put
into the body, the other cell of the table and the same cell of the copy are written, and the copy is copied under a
given name. -/
def copyActs : List (CopyAct Cells.intLib) :=
  demoActs.map .act ++ [.copy 0 none, .act (.text (.append none 3)),
    .act (.table (.write 0 (0, 0) (.setValue (.str "y".toList) none none))),
    .act (.table (.write 1 (0, 1) (.setValue (.str "z".toList) none none))), .copy 1 (some "U".toList)]

/-- The names of the tables and what their cells read -/
def demoTables (p : Prog) : List (Option Str × List (Option Str)) :=
  (List.range p.tables.length).filterMap fun i => (stateOf p.sheets i).map fun S =>
    (name S, (S.kids.toList.filter fun t => t.1.tag = "table:table-row").flatMap fun r => r.2.toList.map fun c => Cells.plaintext c)

example : (demoStart.map fun p => demoTables (runCopies "all" (32, 32) copyActs p)) =
    some [(some "T".toList, [some "y".toList, some "x".toList]), (some "CopyOfT".toList, [some [], some "z".toList]),
      (some "U".toList, [some [], some "z".toList])] := by decide +kernel

/-- A copy with a name of white space and quotes only is refused. -/
example : (demoStart.map fun p => (copy "all" (32, 32) 0 (some "' ".toList) (runAll demoActs p).1).2.toOption.isNone) = some true := by
  decide +kernel

theorem allAllowedC_act {strategy : String} {mx : Int × Int} (l : List (Act FL)) (m : List (CopyAct FL)) : ∀ {p : Prog},
    AllAllowed strategy mx l p → AllAllowedC strategy mx m (runActs strategy mx l p) →
    AllAllowedC strategy mx (l.map .act ++ m) p := by
  induction l with
  | nil => intro p _ h; exact h
  | cons a l ih => intro p h g; exact ⟨h.1, ih h.2 g⟩

/-- The hypotheses of `C90_program` hold of this program. -/
example : ∀ p, demoStart = some p → AllAllowedC "all" (32, 32) copyActs p := by
  intro p hp
  refine allAllowedC_act _ _ (allPlain_allowed _ ?_ ?_) ?_
  · intro a ha
    simp only [demoActs, List.mem_cons, List.not_mem_nil, or_false] at ha
    rcases ha with rfl | rfl | rfl | rfl | rfl | rfl | rfl
    all_goals intro p; first | trivial | exact ⟨(fun _ _ h => nomatch h), (fun _ _ h => nomatch h)⟩
  · have : demoStart.map (allPlain demoActs) = some true := by decide +kernel
    rw [hp] at this
    exact Option.some.inj this
  · refine ⟨trivial, ⟨trivial, fun k hk => by simp [edits] at hk⟩, ?_, ?_, trivial, trivial⟩
    all_goals exact ⟨(fun _ _ h => nomatch h), (fun _ _ h => nomatch h)⟩

/-- And those of `C90_apart` -/
example : (demoStart.map fun p => (stateOf (runAll demoActs p).1.sheets 0).map fun S => nameFor none S) =
    some (some (some "CopyOfT".toList)) := by decide +kernel

example : normalizeName "CopyOfT".toList ≠ [] := by decide +kernel

example : ∀ i, ∀ a ∈ copyActs.drop 8, OnlyCells i a := by
  intro i a ha
  simp only [copyActs, demoActs, List.map_cons, List.map_nil, List.cons_append, List.nil_append, List.drop_succ_cons,
    List.drop_zero, List.mem_cons, List.not_mem_nil, or_false] at ha
  rcases ha with rfl | rfl | rfl | rfl
  · intro h; cases h
  · intro h; obtain rfl := Option.some.inj h; exact ⟨_, _, rfl⟩
  · intro h; obtain rfl := Option.some.inj h; exact ⟨_, _, rfl⟩
  · trivial

end Verif.Mix
