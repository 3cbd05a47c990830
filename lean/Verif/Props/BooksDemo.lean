import Verif.Props.Books
import Verif.Props.WholeDemo
/-! # C91: concrete cases -/
namespace Verif.Books
open Verif Verif.Lxml Forest Verif.Whole Verif.Document Verif.Mix
open Verif.Program (stateOf Config)
set_option linter.unusedSimpArgs false

variable {L : XLib} {FL : Cells.FloatLib}

def textType : Str := "application/vnd.oasis.opendocument.text".toList

/-- Two new documents are made; the first has a table. -/
theorem demo_books (hl : L.Lawful) : ∃ B p q S, OK L B ∧ view B 0 = some p ∧ view B 1 = some q ∧
    stateOf p.sheets 0 = some S ∧ q.tables = [] ∧ q.text.objs = [] ∧ Tbl.name S = some "T".toList ∧ Tbl.IsEmptyTable 1 2 S := by
  have hmt : textType ∈ MIMETYPE_BODYTAG_MAP.keys := by decide +kernel
  have hc : Config "all" (32, 32) := by unfold Config; decide
  obtain ⟨B1, p0, -, a2, -, a4, a5, -, -, -, a9, -⟩ := C91_new (FL := Cells.intLib) hl hc (C91_start L fun _ => none) demoClock hmt
  obtain ⟨B2, q, -, b2, -, b4, b5, -, -, b8, b9, -, b11⟩ := C91_new (FL := Cells.intLib) hl hc a2 demoClock hmt
  have hd : B1.docs = [p0] := a4
  have hp0 : B1.docs[0]? = some p0 := by rw [hd]; rfl
  obtain ⟨c1, -⟩ := b11 0 p0 hp0
  have hv : view B2 0 = some (seen B2 p0) := by unfold view; rw [c1]; rfl
  have hq : view B2 1 = some q := by rw [hd] at b5; exact b5
  have hq2 : B2.docs[1]? = some q := by rw [b4, hd]; rfl
  rcases C88_create (FL := Cells.intLib) (C91_sound b2 hv) "all" (32, 32) "T".toList (1, 2) with ⟨e, -, hno⟩ | hyes
  · exact absurd (by decide +kernel) hno
  · obtain ⟨p, S, d1, -, d3, -, d5, d6, -⟩ := hyes
    have hsw := C91_step (strategy := "all") (mx := (32, 32)) hl hc b2 (a := .act 0 (.act (.table (.create (L := Cells.intLib) "T".toList (1, 2)))))
      (fun p _ => trivial)
    have hex : exec L "all" (32, 32) (.act 0 (.act (.table (.create (L := Cells.intLib) "T".toList (1, 2))))) B2 =
        (⟨p.text.session.world, p.text.session.w.fs, B2.docs.set 0 p⟩, .ok ()) := by
      show onDoc 0 (Mix.exec "all" (32, 32) (.table (.create (L := Cells.intLib) "T".toList (1, 2)))) B2 = _
      rw [onDoc_some c1, d1]
    rw [hex] at hsw
    obtain ⟨k1, k2⟩ := hsw.others 1 q hq2 (by simp [Act.doc])
    refine ⟨_, p, _, S, hsw.ok, view_eq (p := p) ?_, view_eq k1, ?_, b9, b8, by rw [d5]; decide +kernel, d6⟩
    · show (B2.docs.set 0 p)[0]? = _
      rw [List.getElem?_set_self (List.getElem?_eq_some_iff.mp c1).1]
    · have : (seen B2 p0).tables.length = 0 := by show p0.tables.length = 0; rw [a9]; rfl
      rw [this] at d3
      exact d3

/-- The program that copies the table for the second document, puts the copy there into the body, and writes a cell of each -/
def apartActs : List (Act Cells.intLib) :=
  [.act 1 (.act (.text (.append none 0))),
    .act 0 (.act (.table (.write 0 (0, 0) (.setValue (.str "y".toList) none none)))),
    .act 1 (.act (.table (.write 0 (0, 1) (.setValue (.str "z".toList) none none))))]

/-- The hypotheses of C91 are met: there are libraries as assumed, two documents, a table of the first one that can be copied,
and a program with both as `C91_apart` asks for. -/
example : ∃ L : XLib, L.Lawful ∧ ∃ B p q S, OK L B ∧ view B 0 = some p ∧ view B 1 = some q ∧ stateOf p.sheets 0 = some S ∧
    (∃ nm, nameFor none S = some nm ∧ Tbl.normalizeName nm ≠ []) ∧
    (∀ a ∈ apartActs, OnlyCells 0 0 a) ∧ (∀ a ∈ apartActs, OnlyCells 1 q.tables.length a) ∧
    AllAllowed L "all" (32, 32) apartActs (exec L "all" (32, 32) (.copyTo (F := Cells.intLib) 0 0 none 1) B).1 ∧
    writesIn 0 0 apartActs = [((0, 0), .setValue (.str "y".toList) none none)] ∧
    writesIn 1 0 apartActs = [((0, 1), .setValue (.str "z".toList) none none)] := by
  obtain ⟨L, hl⟩ := xlib_exists
  obtain ⟨B, p, q, S, h1, h2, h3, h4, h5, -, h7, -⟩ := demo_books hl
  refine ⟨L, hl, B, p, q, S, h1, h2, h3, h4, ⟨"CopyOfT".toList, ?_, by decide +kernel⟩, ?_, ?_, ⟨?_, ?_, ?_, trivial⟩, rfl, rfl⟩
  · unfold nameFor
    rw [h7]
    decide +kernel
  · intro a ha
    simp only [apartActs, List.mem_cons, List.not_mem_nil, or_false] at ha
    rcases ha with rfl | rfl | rfl
    · intro h; cases h
    · intro _ _; exact ⟨_, _, rfl⟩
    · intro h; cases h
  · rw [h5]
    intro a ha
    simp only [apartActs, List.mem_cons, List.not_mem_nil, or_false] at ha
    rcases ha with rfl | rfl | rfl
    · intro _ h; cases h
    · intro h; cases h
    · intro _ _; exact ⟨_, _, rfl⟩
  · exact fun p _ => ⟨trivial, fun k hk => by simp [edits] at hk⟩
  · exact fun p _ => ⟨(fun _ _ h => nomatch h), (fun _ _ h => nomatch h)⟩
  · exact fun p _ => ⟨(fun _ _ h => nomatch h), (fun _ _ h => nomatch h)⟩

/-- Libraries for running a program with new documents only: nothing is read and nothing is written. -/
def noLib : XLib where
  pkg := { tostring := fun _ => [], parse := fun _ => none, header := fun _ => [], deflate := fun _ => [], directory := fun _ => [] }
  decode := fun _ => .error .ValueError
  xml := fun _ _ => none
  tostring := fun _ => []

/-- Two new documents; a table in a section in the first one, as in `Props/Mix.lean`; it is copied for the second one and put
into its body; a cell of each is written; the copy is copied for the first document under another name. -/
def bookActs : List (Act Cells.intLib) :=
  [.new demoClock textType, .new demoClock textType] ++ (Mix.demoActs.map fun a => .act 0 (.act a)) ++
    .copyTo 0 0 none 1 :: apartActs ++ [.copyTo 1 0 (some "U".toList) 0]

/-- The tables of all documents -/
def bookTables (B : Books) : List (List (Option Str × List (Option Str))) :=
  (List.range B.docs.length).filterMap fun i => (view B i).map demoTables

example : bookTables (run noLib "all" (32, 32) bookActs ⟨.nil, fun _ => none, []⟩) =
    [[(some "T".toList, [some "y".toList, some "x".toList]), (some "U".toList, [some [], some "z".toList])],
      [(some "CopyOfT".toList, [some [], some "z".toList])]] := by decide +kernel

/-- The elements in the bodies -/
example : ((List.range 2).filterMap fun i => (view (run noLib "all" (32, 32) bookActs ⟨.nil, fun _ => none, []⟩) i).map demoTags) =
    [["text:variable-decls", "text:user-field-decls", "text:section", "table:table", "table:table-column",
      "table:table-column", "table:table-row", "table:table-cell", "text:p", "table:table-cell", "text:p", "text:p"],
     ["text:variable-decls", "text:user-field-decls", "table:table", "table:table-column", "table:table-column",
      "table:table-row", "table:table-cell", "table:table-cell", "text:p"]] := by decide +kernel

end Verif.Books
