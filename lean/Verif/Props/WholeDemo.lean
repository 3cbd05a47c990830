import Verif.Props.WholeLib
/-! # C69: empty strings, and concrete cases -/
namespace Verif.Whole
open Verif Verif.Lxml Forest Verif.Package Verif.Document
open Verif.Tbl (Life TState newTable)
set_option linter.unusedSimpArgs false

/-- A spreadsheet with the given body -/
def demo (text : Option Str) (kids : Forest) : World :=
  .cons { id := 1, tag := "office:document-styles" } .nil
    (.cons { id := 2, tag := "office:document-content" }
      (.cons { id := 3, tag := "office:body" }
        (.cons { id := 4, tag := "office:spreadsheet", text := text } kids .nil) .nil) .nil)

def demoEnv : Env := { names := ["x".toList], pieces := [], sink := fun _ => none }
def demoClock : Clock := { now := 0, time := "2026-01-01".toList, time2 := "2026-01-01".toList, generator := "g".toList }
def demoFile : Path := "a.ods".toList

/-- The trees of a spreadsheet can be exchanged for others; it can be saved and opened. -/
theorem demo_life {L : XLib} (hl : L.Lawful) {W W' : World} {d : Parts.DocTree} {rs rc : Nat} (hn : (ids W).Nodup)
    (h : Parts.packagedTree Parts.spreadsheet (some rs) (some rc) W = (W', .ok d))
    (hw : ∀ r ∈ [d.styles.root, d.content.root], ∀ t, find r W' = some t →
      legal (single t) = true ∧ t.1.tail = none) :
    ∃ s s' s'', Lives L s ∧ saveWhole L demoEnv demoClock false s = (s', .ok ()) ∧ s'.world = W' ∧ s'.tree = d ∧
      Writable s' ∧ openWhole L s'.w.fs demoClock (.file (some demoFile)) .nil = .ok s'' ∧ Reopened L s' s'' := by
  have hmt : Parts.spreadsheet ∈ MIMETYPE_BODYTAG_MAP.keys := by decide +kernel
  obtain ⟨s, h1, h2, h3, h4, h5, h6, h7, -, -⟩ := new_ok (L := L) (fun _ => none) demoClock hmt
  obtain ⟨tag, t1, t2, t3⟩ := tree_refs hn h
  have hlive := (h2 (some demoFile)).trees (W := W') (tag := tag) (d := d) t3 (by dsimp only; rw [h4]; exact t1) t2
  have htmp : tmpfilename demoEnv.names demoFile (fun _ => none) = some "x.tmp".toList := by decide +kernel
  obtain ⟨s', hs'⟩ := C69_saves hl hlive (f := demoFile) rfl demoEnv demoClock false (by
    dsimp only
    rw [h5]
    show (Meta.abs (Meta.new demoClock.time demoClock.time2 demoClock.generator)).tag "editing-cycles" ≠ _
    rw [new_eq]
    decide +kernel) h6 h7 (fun _ => rfl) (tmp := "x.tmp".toList) (by dsimp only; rw [h3]; exact htmp) (by decide +kernel)
  have hfr := C69_frame L demoEnv demoClock false hs'
  have hw' : Writable s' := by
    refine writable_save hs' (by decide +kernel) (by decide +kernel) ⟨?_, hw⟩
    dsimp only
    rw [h5]
    have hb : (legal (single (metaInit demoClock none).tree) && (metaInit demoClock none).tree.1.tail.isNone) = true := by
      decide +kernel
    simpa using hb
  obtain ⟨f', s'', e1, e2, e3, -⟩ := C69_reopen hl hlive hs' hw' demoClock (W0 := .nil) (by simp [ids])
  have : f' = demoFile := by
    rw [hfr.2.2.1] at e1
    exact (Option.some.inj e1).symm
  subst this
  exact ⟨_, s', s'', hlive, hs', hfr.1, hfr.2.1, hw', e2, e3⟩

/-- The checks of `demo_life`, by computation -/
def demoOk (W : World) (P : World → Parts.DocTree → Bool) : Bool :=
  match Parts.packagedTree Parts.spreadsheet (some 1) (some 2) W with
  | (_, .error _) => false
  | (W', .ok d) => P W' d && [d.styles.root, d.content.root].all fun r => match find r W' with
    | none => false
    | some t => legal (single t) && t.1.tail.isNone

theorem demo_run {L : XLib} (hl : L.Lawful) {W : World} (hn : (ids W).Nodup) {P : World → Parts.DocTree → Bool}
    (h : demoOk W P = true) :
    ∃ s s' s'', Lives L s ∧ saveWhole L demoEnv demoClock false s = (s', .ok ()) ∧ P s'.world s'.tree = true ∧
      Writable s' ∧ openWhole L s'.w.fs demoClock (.file (some demoFile)) .nil = .ok s'' ∧ Reopened L s' s'' := by
  unfold demoOk at h
  rcases hp : Parts.packagedTree Parts.spreadsheet (some 1) (some 2) W with ⟨W', r⟩
  rw [hp] at h
  cases r with
  | error e => cases h
  | ok d =>
    simp only [Bool.and_eq_true, List.all_eq_true] at h
    obtain ⟨s, s', s'', a, b, c, e, g, i, j⟩ := demo_life hl hn hp (fun r hr t ht => by
      have := h.2 r hr
      rw [ht] at this
      simpa using this)
    exact ⟨s, s', s'', a, b, by rw [c, e]; exact h.1, g, i, j⟩

/-- C69 with the trees themselves in place of what a file says of them is false: an empty text is read as no
text.  (With any lawful libraries; there are such, `xlib_exists`.) -/
theorem C69_empty_refuted {L : XLib} (hl : L.Lawful) : ∃ s s' s'' b b', Lives L s ∧
    saveWhole L demoEnv demoClock false s = (s', .ok ()) ∧ Writable s' ∧
    openWhole L s'.w.fs demoClock (.file (some demoFile)) .nil = .ok s'' ∧
    find s'.tree.body.node s'.world = some b ∧ find s''.tree.body.node s''.world = some b' ∧
    b.1.text = some [] ∧ b'.1.text = none := by
  obtain ⟨s, s', s'', h1, h2, h3, h4, h5, h6⟩ := demo_run hl (W := demo (some []) .nil) (by decide)
    (P := fun W d => match find d.body.node W with
      | none => false
      | some b => decide (b.1.text = some [])) (by decide +kernel)
  obtain ⟨b, b', e1, e2, e3⟩ := h6.body
  rw [e1] at h3
  have h3 : b.1.text = some [] := by simpa using h3
  refine ⟨s, s', s'', b, b', h1, h2, h4, h5, e1, e2, h3, ?_⟩
  rw [data_text e3, h3]
  rfl

/-! ## Concrete cases -/

/-- A table of two rows and three columns -/
def demoTable : TState := (newTable 10 "Sheet1".toList (2, 3)).1

theorem demoTable_life : Life demoTable := .created (id := 10) (nm := "Sheet1".toList) (size := (2, 3)) (by decide +kernel)

/-- A spreadsheet with this table is saved and opened: the hypotheses of all theorems are met, and the table read
shows two rows and three columns. -/
example : ∃ L : XLib, L.Lawful ∧ ∃ s s' s'' t' c, Lives L s ∧
    saveWhole L demoEnv demoClock false s = (s', .ok ()) ∧ Writable s' ∧
    openWhole L s'.w.fs demoClock (.file (some demoFile)) .nil = .ok s'' ∧ Reopened L s' s'' ∧
    (sheetsOf s'')[0]? = some t' ∧ Tbl.load "all" (32, 32) (Tbl.stored t'.1 t'.2 (Parts.newId s''.world)) = (c, .ok ()) ∧
    Tbl.nrows c = 2 ∧ Tbl.ncols c = 3 := by
  obtain ⟨L, hl⟩ := xlib_exists
  obtain ⟨s, s', s'', h1, h2, h3, h4, h5, h6⟩ := demo_run hl
    (W := demo none (single (demoTable.node, demoTable.kids))) (by decide +kernel)
    (P := fun W d => match find d.body.node W with
      | none => false
      | some b => match (tables b)[0]? with
        | none => false
        | some t => decide (data t = data (demoTable.node, demoTable.kids)) && decide (shape t = data t))
    (by decide +kernel)
  have hsh : ∃ t, (sheetsOf s')[0]? = some t ∧ data t = data (demoTable.node, demoTable.kids) ∧ shape t = data t := by
    unfold sheetsOf
    split at h3
    · cases h3
    · rename_i b hb
      rw [hb]
      dsimp only
      split at h3
      · cases h3
      · rename_i t ht
        simp only [Bool.and_eq_true, decide_eq_true_eq] at h3
        exact ⟨t, ht, h3⟩
  obtain ⟨t, k1, k2, k3⟩ := hsh
  obtain ⟨t', c, c1, c2, -, -, -, c3, c4, -⟩ := C69_grid hl h6 demoTable_life k1 k2 k3 (strategy := "all") (by simp)
    (mx := (32, 32)) (by decide)
  refine ⟨L, hl, s, s', s'', t', c, h1, h2, h4, h5, h6, c1, c2, ?_, ?_⟩
  · rw [c3]; decide +kernel
  · rw [c4]; decide +kernel

end Verif.Whole
