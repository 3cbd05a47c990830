import Verif.Props.Program
/-! # C78: concrete cases -/
namespace Verif.Program
open Verif Verif.Lxml Forest Verif.Whole Verif.Tbl Verif.Document Verif.TSpec
set_option linter.unusedSimpArgs false

/-- The same trees and objects -/
def SameTrees (p q : Prog) : Prop := q.world = p.world ∧ q.session.tree = p.session.tree ∧ q.tables = p.tables

/-- The action looks at the trees and objects only, and changes nothing else of the document. -/
def Local {α : Type} (m : Py Prog α) : Prop := ∀ p q, SameTrees p q →
  SameTrees (m p).1 (m q).1 ∧ (m q).2 = (m p).2 ∧ (m p).1.session = { p.session with world := (m p).1.world }

theorem Local.bind {α β : Type} {m : Py Prog α} {f : α → Py Prog β} (hm : Local m) (hf : ∀ a, Local (f a)) :
    Local (m >>= f) := by
  intro p q h
  obtain ⟨a1, a2, a3⟩ := hm p q h
  rw [Py.bind_def, Py.bind_def]
  rcases hp : m p with ⟨p', r⟩
  rcases hq : m q with ⟨q', r'⟩
  rw [hp, hq] at a1 a2
  rw [hp] at a3
  simp only at a1 a2 a3
  subst a2
  cases r' with
  | error e => exact ⟨a1, rfl, a3⟩
  | ok a =>
    obtain ⟨b1, b2, b3⟩ := hf a p' q' a1
    refine ⟨b1, b2, ?_⟩
    simp only
    rw [b3, a3]

theorem local_pure {α : Type} (a : α) : Local (pure a : Py Prog α) := fun _ _ h => ⟨h, rfl, rfl⟩

theorem local_nodeOf (i : Nat) : Local (nodeOf i) := by
  intro p q h
  rw [nodeOf_eq, nodeOf_eq, h.2.2]
  cases p.tables[i]? <;> exact ⟨h, rfl, rfl⟩

theorem local_onSheets {α : Type} (m : Nat → Py World α) : Local (onSheets m) := by
  intro p q h
  unfold onSheets
  rw [h.2.1, h.1]
  cases p.session.tree.sheets with
  | none => exact ⟨h, rfl, rfl⟩
  | some b => exact ⟨⟨rfl, h.2.1, h.2.2⟩, rfl, rfl⟩

theorem local_onTable (i : Nat) (m : Py TState Unit) : Local (onTable i m) := by
  intro p q h
  unfold onTable
  rw [h.1, h.2.2]
  cases p.tables[i]? with
  | none => exact ⟨h, rfl, rfl⟩
  | some o =>
    simp only
    cases Forest.find o.node p.world with
    | none => exact ⟨h, rfl, rfl⟩
    | some t => exact ⟨⟨rfl, h.2.1, rfl⟩, rfl, rfl⟩

theorem local_create (nm : Str) (size : Int × Int) : Local (create nm size) := by
  intro p q h
  unfold create
  rw [h.1, h.2.2]
  rcases newTable (Parts.newId p.world) nm size with ⟨T, r⟩
  cases r with
  | error e => exact ⟨h, rfl, rfl⟩
  | ok u => exact ⟨⟨rfl, h.2.1, rfl⟩, rfl, rfl⟩

theorem local_access (strategy : String) (mx : Int × Int) (key : Pages.Key) : Local (access strategy mx key) := by
  refine Local.bind ?_ fun t => ?_
  · intro p q h
    unfold sheetElem
    rw [h.2.1, h.1]
    cases p.session.tree.sheets with
    | none => exact ⟨h, rfl, rfl⟩
    | some b => simp only; cases Forest.find b p.world <;> exact ⟨h, rfl, rfl⟩
  · intro p q h
    simp only [h.1, h.2.2]
    cases p.tables.findIdx? _ with
    | some i => exact ⟨h, rfl, rfl⟩
    | none =>
      simp only
      rcases load strategy mx _ with ⟨T, r⟩
      cases r with
      | error e => exact ⟨⟨rfl, h.2.1, h.2.2⟩, rfl, rfl⟩
      | ok u => exact ⟨⟨rfl, h.2.1, rfl⟩, rfl, rfl⟩

/-- **C78**: what a statement does with the sheets and tables, and its result, depend on the trees and the objects only
and not on the meta data, the name or the files; these do not change. -/
theorem C78_local {F : Cells.FloatLib} (strategy : String) (mx : Int × Int) (a : Act F) : Local (exec strategy mx a) := by
  cases a with
  | create nm size => exact (local_create nm size).bind fun _ => local_pure _
  | call | write | writeRow | writeColumn => exact local_onTable _ _
  | append i => exact (local_nodeOf i).bind fun _ => local_onSheets _
  | insert x i => exact (local_nodeOf i).bind fun _ => local_onSheets _
  | access key => exact (local_access strategy mx key).bind fun _ => local_pure _
  | delete key => exact (local_access strategy mx key).bind fun i => (local_nodeOf i).bind fun _ => local_onSheets _
  | replace key i =>
    exact (local_nodeOf i).bind fun _ => (local_access strategy mx key).bind fun j => (local_nodeOf j).bind fun _ =>
      local_onSheets _

theorem runActs_local {F : Cells.FloatLib} (strategy : String) (mx : Int × Int) (l : List (Act F)) : ∀ {p q : Prog},
    SameTrees p q → SameTrees (runActs strategy mx l p) (runActs strategy mx l q) ∧
      (runActs strategy mx l p).session = { p.session with world := (runActs strategy mx l p).world } := by
  induction l with
  | nil => intro p q h; exact ⟨h, rfl⟩
  | cons a l ih =>
    intro p q h
    obtain ⟨a1, -, a3⟩ := C78_local strategy mx a p q h
    obtain ⟨b1, b2⟩ := ih a1
    have e : ∀ p, runActs strategy mx (a :: l) p = runActs strategy mx l (exec strategy mx a p).1 := fun _ => rfl
    rw [e, e]
    refine ⟨b1, ?_⟩
    rw [b2, a3]

/-! ## A program -/

/-- A document with the given trees -/
def progOf (W : World) (d : Parts.DocTree) : Prog :=
  ⟨{ w := ⟨⟨[], ⟨[], 0⟩, .file none⟩, fun _ => none, []⟩, world := W, docname := none, mimetype := [], doctype := [],
     meta_ := metaInit demoClock none, tree := d }, []⟩

/-- The statements, run on a new spreadsheet, leave trees that can be written. -/
def legalAfter (l : List (Act Cells.intLib)) : Bool :=
  match Parts.packagedTree Parts.spreadsheet none none .nil with
  | (_, .error _) => false
  | (W, .ok d) =>
    let p := runActs "all" (32, 32) l (progOf W d)
    [d.styles.root, d.content.root].all fun r => match find r p.world with
      | none => false
      | some t => legal (single t) && t.1.tail.isNone

theorem writable_acts {L : XLib} (fs : Package.FS) {s : Session} {l : List (Act Cells.intLib)}
    (hs : newWhole L fs demoClock Parts.spreadsheet = .ok s) (h : legalAfter l = true) :
    Writable (runActs "all" (32, 32) l ⟨s, []⟩).session := by
  obtain ⟨s', h1, -, -, -, h5, -, -, h8, -⟩ := new_ok (L := L) fs demoClock (mt := Parts.spreadsheet) (by decide +kernel)
  rw [hs] at h1
  cases h1
  unfold legalAfter at h
  rw [h8] at h
  obtain ⟨a, b⟩ := runActs_local "all" (32, 32) l (p := ⟨s, []⟩) (q := progOf s.world s.tree) ⟨rfl, rfl, rfl⟩
  simp only [a.1, List.all_eq_true] at h
  refine ⟨?_, ?_⟩
  · rw [b]
    dsimp only
    rw [h5]
    have hb : (legal (single (metaInit demoClock none).tree) && (metaInit demoClock none).tree.1.tail.isNone) = true := by
      decide +kernel
    simpa using hb
  · intro r hr t ht
    have hr' : r ∈ [s.tree.styles.root, s.tree.content.root] := by rw [b] at hr; exact hr
    have := h r hr'
    have ht' : find r (runActs "all" (32, 32) l ⟨s, []⟩).world = some t := ht
    rw [ht'] at this
    simpa using this

theorem writable_saveas {L : XLib} {env : Package.Env} {k : Clock} {backup : Bool} {f : Package.Path} {p p' : Prog}
    {r : Except Exc Unit} (h : saveas L env k backup f p = (p', r)) (h1 : legalStr k.time = true)
    (h2 : legalStr k.generator = true) (hw : Writable p.session) : Writable p'.session := by
  have e : saveWhole L env k backup { p.session with docname := some f } = (p'.session, r) := by
    unfold saveas at h
    dsimp only at h
    obtain ⟨rfl, rfl⟩ := Prod.mk.inj h
    rfl
  exact writable_save e h1 h2 ⟨hw.meta_, hw.roots⟩

/-- The statements of the demonstration -/
def demoActs : List (Act Cells.intLib) :=
  .create "t".toList ((2 : Nat), (2 : Nat)) :: (someWrites.map fun w => .write 0 w.1 w.2) ++ [.append 0]

/-- A spreadsheet with a table of two rows and columns and some values is made, saved and opened: all assumptions are met
and the values are there. -/
example : ∃ L : XLib, L.Lawful ∧ ∃ s p' s'' p'' T, newWhole L (fun _ => none) demoClock Parts.spreadsheet = .ok s ∧
    saveas L demoEnv demoClock false demoFile (runActs "all" (32, 32) demoActs ⟨s, []⟩) = (p', .ok ()) ∧
    Writable p'.session ∧ openWhole L p'.session.w.fs demoClock (.file (some demoFile)) .nil = .ok s'' ∧
    access "all" (32, 32) (.int 0) ⟨s'', []⟩ = (p'', .ok 0) ∧ stateOf p'' 0 = some T ∧
    nrows T = 2 ∧ ncols T = 2 ∧ name T = some "t".toList ∧
    (getCell T (0, 0)).toOption.bind Cells.plaintext = some "five".toList ∧
    (getCell T (1, 1)).toOption.bind Cells.plaintext = some "ab".toList := by
  obtain ⟨L, hl⟩ := xlib_exists
  have hcfg : Config "all" (32, 32) := by unfold Config; decide
  have hws : ∀ w ∈ someWrites, w.2.NoTable ∧ w.2.NoRepeat := by
    intro w hw
    simp only [someWrites, List.mem_cons, List.mem_nil_iff, or_false] at hw
    rcases hw with rfl | rfl | rfl | rfl | rfl | rfl | rfl <;> simp [CellCall.NoTable, CellCall.NoRepeat]
  obtain ⟨s, p', h1, h2, h3⟩ := C78_values hl (fun _ => none) demoClock demoClock demoClock (nm := "t".toList)
    (by decide +kernel) (n := 2) (m := 2) (by decide) (by decide) someWrites hws hcfg demoFile demoEnv false
    (fun _ => rfl) (tmp := "x.tmp".toList) (by decide +kernel) (by decide +kernel)
  have hw : Writable p'.session := by
    have hw0 := writable_acts (fun _ => none) h1 (l := demoActs) (by decide +kernel)
    exact writable_saveas h2 (by decide +kernel) (by decide +kernel) hw0
  obtain ⟨s'', p'', T, a1, -, a3, a4, a5, a6, a7, a8⟩ := h3 hw
  refine ⟨L, hl, s, p', s'', p'', T, h1, h2, hw, a1, a3, a4, a5, a6, a7, ?_, ?_⟩
  · obtain ⟨u, e1, e2⟩ := a8 0 0 (by decide) (by decide)
    have e2 := e2.2.2.2.1
    have e1 : getCell T (0, 0) = .ok u := e1
    rw [e1]
    show Cells.plaintext u = _
    rw [e2]; decide +kernel
  · obtain ⟨u, e1, e2⟩ := a8 1 1 (by decide) (by decide)
    have e2 := e2.2.2.2.1
    have e1 : getCell T (1, 1) = .ok u := e1
    rw [e1]
    show Cells.plaintext u = _
    rw [e2]; decide +kernel

/-- The results of statements, and the names of the sheets in the end -/
def play : List (Act Cells.intLib) → Prog → List (Except Exc Unit) × List (Option Str)
  | [], p => ([], (sheetsOf p.session).map fun t => t.1.get "table:name")
  | a :: l, p => match exec "all" (32, 32) a p with
    | (p', r) => match play l p' with
      | (rs, names) => (r :: rs, names)

/-- The same of a new spreadsheet -/
def played (l : List (Act Cells.intLib)) : List (Except Exc Unit) × List (Option Str) :=
  match Parts.packagedTree Parts.spreadsheet none none .nil with
  | (_, .error _) => ([], [])
  | (W, .ok d) => play l (progOf W d)

-- sheets are appended, inserted, moved, replaced and deleted
example : played [.create "a".toList (1, 1), .create "b".toList (1, 1), .create "c".toList (1, 1),
      .append 0, .insert 0 1, .append 1, .replace (.str "a".toList) 2, .delete (.int (-1)),
      .replace (.str "c".toList) 2] =
    ([.ok (), .ok (), .ok (), .ok (), .ok (), .ok (), .ok (), .ok (), .ok ()], [some "c".toList]) := by
  decide +kernel

-- wrong sizes, objects and keys are refused
example : played [.create "a".toList (1, 1), .create "d".toList (0, 1), .append 0, .access (.int 2),
      .access (.str "d".toList), .access .other, .append 3, .replace (.int 1) 0] =
    ([.ok (), .error .ValueError, .ok (), .error .IndexError, .error .KeyError, .error .TypeError, .error .NameError,
      .error .IndexError], [some "a".toList]) := by
  decide +kernel

end Verif.Program
