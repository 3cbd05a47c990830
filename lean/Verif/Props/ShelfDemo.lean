import Verif.Props.ShelfAgain
import Verif.Props.BooksDemo
/-! # C92: concrete cases -/
namespace Verif.Shelf
open Verif Verif.Lxml Forest Verif.Whole Verif.Document Verif.Mix
open Verif.Program (stateOf Config)
open Verif.Books (textType noLib)
set_option linter.unusedSimpArgs false

variable {L : XLib}

def sheetType : Str := "application/vnd.oasis.opendocument.spreadsheet".toList

/-- A new spreadsheet and a new text; a table is made. -/
theorem demo_shelf (hl : L.Lawful) : ∃ S s d A, OK L S ∧ S.docs = [s, d] ∧ s.tree.sheets.isSome ∧
    MIMETYPE_BODYTAG_MAP.get d.mimetype = some "office:text" ∧ (∃ n, S.objs = [n]) ∧ (∃ o, S.tables = [o]) ∧
    state S 0 = some A ∧ Tbl.name A = some "T".toList ∧ Tbl.IsEmptyTable 1 2 A := by
  have hc : Config "all" (32, 32) := by unfold Config; decide
  obtain ⟨S1, s, -, a2, -, a4, a5, a6, -, -, a9, -, -⟩ := C92_new (FL := Cells.intLib) hl hc (C92_start L fun _ => none) demoClock
    (mt := sheetType) (by decide +kernel)
  obtain ⟨S2, d, -, b2, -, b4, b5, b6, b7, -, -, -, -⟩ := C92_new (FL := Cells.intLib) hl hc a2 demoClock (mt := textType) (by decide +kernel)
  have hd : S2.docs = [s, d] := by rw [b6, a6]; rfl
  have h0 : S2.docs[0]? = some s := by rw [hd]; rfl
  have hob : S2.objs = [] := b4.trans a4
  have htb : S2.tables = [] := b5.trans a5
  have g := C92_step (strategy := "all") (mx := (32, 32)) hl hc b2
    (a := .act 0 (.act (.table (.create (L := Cells.intLib) "T".toList (1, 2))))) fun p _ => trivial
  obtain ⟨s', f1, f2, f3, -⟩ := g.frames 0 s h0
  have f4 := g.others 1 d (by rw [hd]; rfl) (by simp [Act.doc])
  rcases C88_create (FL := Cells.intLib) (C92_sound b2 h0) "all" (32, 32) "T".toList (1, 2) with ⟨e, -, hno⟩ | hyes
  · exact absurd (by decide +kernel) hno
  · obtain ⟨p, A, d1, -, d3, -, d5, d6, -, d8, d9, -⟩ := hyes
    have hex : exec L "all" (32, 32) (.act 0 (.act (.table (.create (L := Cells.intLib) "T".toList (1, 2))))) S2 =
        (⟨p.text.session.world, p.text.session.w.fs, S2.docs.set 0 p.text.session, p.text.objs, p.tables⟩, .ok ()) := by
      show onDoc 0 (Mix.exec "all" (32, 32) (.table (.create (L := Cells.intLib) "T".toList (1, 2)))) S2 = _
      rw [onDoc_some h0, d1]
    rw [hex] at g f1 f4
    have e8 : p.text.objs = S2.objs ++ [A.node.id] := d8
    have e9 : p.tables.length = S2.tables.length + 1 := d9
    rw [htb] at e9
    refine ⟨_, p.text.session, d, A, g.ok, by rw [hd]; rfl, ?_, by rw [b7]; decide +kernel, ⟨_, by rw [e8, hob]; rfl⟩,
      List.length_eq_one_iff.mp e9, ?_, by rw [d5]; decide +kernel, d6⟩
    · have : s' = p.text.session := by
        have f1 : (S2.docs.set 0 p.text.session)[0]? = some s' := f1
        rw [hd] at f1
        exact (Option.some.inj f1).symm
      rw [← this, f2]
      exact a9.mpr (by decide +kernel)
    · have : (seen S2 s).tables.length = 0 := by show S2.tables.length = 0; rw [htb]; rfl
      rw [this] at d3
      exact d3

/-- The table is put into the spreadsheet; a cell is written; it is moved to the text; another cell is written. -/
def movedActs : List (Act Cells.intLib) :=
  [.act 0 (.act (.table (.append 0))),
    .act 0 (.act (.table (.write 0 (0, 0) (.setValue (.str "y".toList) none none)))),
    .act 1 (.act (.text (.append none 0))),
    .act 1 (.act (.table (.write 0 (0, 1) (.setValue (.str "z".toList) none none))))]

/-- The hypotheses of C92 are met: there are libraries as assumed, two documents, a table, and a program that moves it as
`C92_cells`, `C92_sheet` and `C92_moved` ask for. -/
example : ∃ L : XLib, L.Lawful ∧ ∃ S s d A, OK L S ∧ S.docs[0]? = some s ∧ S.docs[1]? = some d ∧ (∃ b, s.tree.sheets = some b) ∧
    MIMETYPE_BODYTAG_MAP.get d.mimetype = some "office:text" ∧ (∃ n, S.objs[0]? = some n) ∧ (∃ o, S.tables[0]? = some o) ∧
    state S 0 = some A ∧ (∀ a ∈ movedActs, OnlyCells S.docs.length 0 a) ∧ AllAllowed L "all" (32, 32) movedActs S ∧
    writesIn 0 movedActs = [((0, 0), .setValue (.str "y".toList) none none), ((0, 1), .setValue (.str "z".toList) none none)] := by
  obtain ⟨L, hl⟩ := xlib_exists
  obtain ⟨S, s, d, A, h1, h2, h3, h4, ⟨n, h5⟩, ⟨o, h6⟩, h7, -, -⟩ := demo_shelf hl
  refine ⟨L, hl, S, s, d, A, h1, by rw [h2]; rfl, by rw [h2]; rfl, Option.isSome_iff_exists.mp h3, h4, ⟨n, by rw [h5]; rfl⟩,
    ⟨o, by rw [h6]; rfl⟩, h7, ?_, ⟨?_, ?_, ?_, ?_, trivial⟩, rfl⟩
  · rw [h2]
    intro a ha
    simp only [movedActs, List.mem_cons, List.not_mem_nil, or_false] at ha
    rcases ha with rfl | rfl | rfl | rfl
    · exact ⟨by simp, fun h => nomatch h⟩
    · exact ⟨by simp, fun _ => ⟨_, _, rfl⟩⟩
    · exact ⟨by simp, fun h => nomatch h⟩
    · exact ⟨by simp, fun _ => ⟨_, _, rfl⟩⟩
  · exact fun p _ => trivial
  · exact fun p _ => ⟨(fun _ _ h => nomatch h), (fun _ _ h => nomatch h)⟩
  · exact fun p _ => ⟨trivial, fun k hk => by simp [edits] at hk⟩
  · exact fun p _ => ⟨(fun _ _ h => nomatch h), (fun _ _ h => nomatch h)⟩

/-- The same as a whole program; then the table is copied, and the copy is put into the spreadsheet. -/
def shelfActs : List (Act Cells.intLib) :=
  [.new demoClock sheetType, .new demoClock textType, .act 0 (.act (.table (.create "T".toList (1, 2))))] ++ movedActs ++
    [.act 1 (.copy 0 none), .act 0 (.act (.table (.append 1))),
      .act 0 (.act (.table (.write 1 (0, 0) (.setValue (.str "x".toList) none none))))]

/-- The bodies before the table is moved, after it, and at the end -/
def shelfTags (n : Nat) : List (List String) :=
  let S := run noLib "all" (32, 32) (shelfActs.take n) ⟨.nil, fun _ => none, [], [], []⟩
  S.docs.map fun s => demoTags (seen S s)

example : shelfTags 5 =
    [["text:variable-decls", "text:user-field-decls", "table:table", "table:table-column", "table:table-column",
      "table:table-row", "table:table-cell", "text:p", "table:table-cell"],
     ["text:variable-decls", "text:user-field-decls"]] := by decide +kernel

example : shelfTags 6 =
    [["text:variable-decls", "text:user-field-decls"],
     ["text:variable-decls", "text:user-field-decls", "table:table", "table:table-column", "table:table-column",
      "table:table-row", "table:table-cell", "text:p", "table:table-cell"]] := by decide +kernel

example : shelfTags 10 =
    [["text:variable-decls", "text:user-field-decls", "table:table", "table:table-column", "table:table-column",
      "table:table-row", "table:table-cell", "text:p", "table:table-cell", "text:p"],
     ["text:variable-decls", "text:user-field-decls", "table:table", "table:table-column", "table:table-column",
      "table:table-row", "table:table-cell", "text:p", "table:table-cell", "text:p"]] := by decide +kernel

/-- The tables at the end: each write is in its own table. -/
example : (let S := run noLib "all" (32, 32) shelfActs ⟨.nil, fun _ => none, [], [], []⟩
      S.docs[0]?.map fun s => demoTables (seen S s)) =
    some [(some "T".toList, [some "y".toList, some "z".toList]), (some "CopyOfT".toList, [some "x".toList, some "z".toList])] := by
  decide +kernel

/-- The hypotheses of `C92_reopen` are met: a new document that has been given a name can be saved. -/
example : ∃ L : XLib, L.Lawful ∧ ∃ S s S1 s1, OK L S ∧ S.docs[0]? = some s ∧
    exec L "all" (32, 32) (.save (F := Cells.intLib) 0 demoEnv demoClock false) S = (S1, .ok ()) ∧ S1.docs[0]? = some s1 ∧
    Writable (put S1 s1) := by
  obtain ⟨L, hl⟩ := xlib_exists
  have hc : Config "all" (32, 32) := by unfold Config; decide
  have hmt : sheetType ∈ MIMETYPE_BODYTAG_MAP.keys := by decide +kernel
  obtain ⟨s, h1, h2, h3, h4, h5, h6, h7, h8, -⟩ := new_ok (L := L) (fun _ => none) demoClock hmt
  have g1 := C92_step (FL := Cells.intLib) (strategy := "all") (mx := (32, 32)) hl hc (C92_start L fun _ => none)
    (a := .new demoClock sheetType) trivial
  have e1 : exec L "all" (32, 32) (.new (F := Cells.intLib) demoClock sheetType) ⟨.nil, fun _ => none, [], [], []⟩ =
      (⟨s.world, s.w.fs, [s], [], []⟩, .ok ()) := by
    show add (Desk.newIn L (fun _ => none) demoClock sheetType .nil) _ = _
    have h1 : Desk.newIn L (fun _ => none) demoClock sheetType .nil = .ok s := h1
    rw [h1]
    rfl
  rw [e1] at g1
  have g2 := C92_step (FL := Cells.intLib) (strategy := "all") (mx := (32, 32)) hl hc g1.ok (a := .name 0 (some demoFile)) trivial
  have e2 : exec L "all" (32, 32) (.name (F := Cells.intLib) 0 (some demoFile)) ⟨s.world, s.w.fs, [s], [], []⟩ =
      (⟨s.world, s.w.fs, [{ s with docname := some demoFile }], [], []⟩, .ok ()) := rfl
  rw [e2] at g2
  obtain ⟨s', hs'⟩ := C69_saves hl (h2 (some demoFile)) (f := demoFile) rfl demoEnv demoClock false (by
    dsimp only
    rw [h5]
    show (Meta.abs (Meta.new demoClock.time demoClock.time2 demoClock.generator)).tag "editing-cycles" ≠ _
    rw [new_eq]
    decide +kernel) h6 h7 (fun _ => rfl) (tmp := "x.tmp".toList) (by dsimp only; rw [h3]; decide +kernel) (by decide +kernel)
  have hleg : (match Parts.packagedTree sheetType none none .nil with
      | (_, .error _) => false
      | (W, .ok d) => [d.styles.root, d.content.root].all fun r => match find r W with
        | none => false
        | some t => legal (single t) && t.1.tail.isNone) = true := by decide +kernel
  rw [h8] at hleg
  simp only [List.all_eq_true] at hleg
  have hw : Writable s' := by
    refine writable_save hs' (by decide +kernel) (by decide +kernel) ⟨?_, fun r hr t ht => ?_⟩
    · dsimp only
      rw [h5]
      have hb : (legal (single (metaInit demoClock none).tree) && (metaInit demoClock none).tree.1.tail.isNone) = true := by
        decide +kernel
      simpa using hb
    · have := hleg r hr
      have ht : find r s.world = some t := ht
      rw [ht] at this
      simpa using this
  have hput : put ⟨s.world, s.w.fs, [{ s with docname := some demoFile }], [], []⟩ { s with docname := some demoFile } =
      { s with docname := some demoFile } := rfl
  have e3 : exec L "all" (32, 32) (.save (F := Cells.intLib) 0 demoEnv demoClock false)
      ⟨s.world, s.w.fs, [{ s with docname := some demoFile }], [], []⟩ = (⟨s'.world, s'.w.fs, [s'], [], []⟩, .ok ()) := by
    have e : ∀ S, exec L "all" (32, 32) (.save (F := Cells.intLib) 0 demoEnv demoClock false) S =
      onDoc 0 (Mix.save L demoEnv demoClock false) S := fun _ => rfl
    rw [e, onDoc_some (s := { s with docname := some demoFile }) rfl]
    have e4 : Mix.save L demoEnv demoClock false (seen ⟨s.world, s.w.fs, [{ s with docname := some demoFile }], [], []⟩
        { s with docname := some demoFile }) = (⟨⟨s', []⟩, []⟩, .ok ()) := by
      unfold Mix.save onText TextProg.save seen
      rw [hput]
      dsimp only
      rw [hs']
    rw [e4]
    rfl
  exact ⟨L, hl, _, _, _, s', g2.ok, rfl, e3, rfl, hw⟩

end Verif.Shelf
