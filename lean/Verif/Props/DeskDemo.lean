import Verif.Props.DeskFiles
import Verif.Props.DocTypes
import Verif.Props.PageProgram
/-! # C86: the condition on files is needed; a concrete case -/
namespace Verif.Desk
open Verif Verif.Lxml Forest Verif.Whole Verif.Document Verif.Package
set_option linter.unusedSimpArgs false

variable {L : XLib} {pick : Nat → List Nat → Nat}

/-- The parts of a document that has been opened or made -/
theorem made_parts {fs : FS} {k : Clock} {src : Source} {fm : FM} {mt : Option Str} {W : World} {s : Session}
    (ho : open_ L.pkg fs src k.now = .ok fm) (h : packagedWhole L fs k fm mt W = .ok s) :
    s.w.fm.source = src ∧ MIMETYPE ∈ s.w.fm.dir.keys ∧
      (∀ n g, n ∉ [META, STYLES, CONTENT] → s.w.fm.dir.get n = some g →
        (currentBytes L.pkg s.w.fm.manifest.kids g.element).isSome) ∧
      ∀ n, n ∉ [MIMETYPE, MANIFEST, META, STYLES, CONTENT] → n ∉ s.w.fm.dir.keys := by
  obtain ⟨doc, so, co, W1, W2, W3, tree, hd, -, -, -, rfl⟩ := packagedWhole_inv h
  obtain ⟨-, -, -, m, st, c, hfm⟩ := packaged_ok hd
  obtain ⟨hsrc, hdir, -⟩ := open_ok ho
  have hget : ∀ n, doc.fm.dir.get n = if CONTENT = n then some { element := c, mediaType := XML, stored := false, info := k.now } else
      if STYLES = n then some { element := st, mediaType := XML, stored := false, info := k.now } else
      if META = n then some { element := m, mediaType := XML, stored := false, info := k.now } else
      if MIMETYPE = n then some { element := .text doc.mimetype, mediaType := [], stored := false, info := k.now } else
      fm.dir.get n := by
    intro n
    rw [hfm]
    show ((((fm.dir.set MIMETYPE _).set META _).set STYLES _).set CONTENT _ |>.get n) = _
    simp only [Dict.get_set]
  refine ⟨by dsimp only; rw [hfm]; exact hsrc, ?_, ?_, ?_⟩
  · dsimp only
    rw [← Dict.get_isSome, hget]
    repeat' split
    all_goals first | rfl | contradiction
  · intro n g hn hg
    simp only [List.mem_cons, List.not_mem_nil, or_false, not_or] at hn
    rw [hget] at hg
    rw [if_neg (Ne.symm hn.2.2), if_neg (Ne.symm hn.2.1), if_neg (Ne.symm hn.1)] at hg
    split at hg
    · cases hg; rfl
    · rw [hdir, Dict.get_cons] at hg
      split at hg
      · cases hg; rfl
      · simp [Dict.get] at hg
  · intro n hn hk
    simp only [List.mem_cons, List.not_mem_nil, or_false, not_or] at hn
    rw [← Dict.get_isSome] at hk
    dsimp only at hk
    rw [hget, if_neg (Ne.symm hn.2.2.2.2), if_neg (Ne.symm hn.2.2.2.1), if_neg (Ne.symm hn.2.2.1), if_neg (Ne.symm hn.1), hdir,
      Dict.get_cons, if_neg (Ne.symm hn.2.1)] at hk
    simp [Dict.get] at hk

def textType : Str := "application/vnd.oasis.opendocument.text".toList
def picture : Str := "Pictures/p".toList

/-- A text document with a picture and nothing else -/
def demoZip : Zip := [{ name := MIMETYPE, data := utf8 textType, stored := true, info := 0, extra := [] },
  { name := picture, data := [1], stored := false, info := 0, extra := [] }]

def demoFs : FS := fun q => if q = demoFile then some (.zip demoZip) else none

/-- The memory with a new text document, and with a second one -/
def world1 : World := (Parts.packagedTree textType none none .nil).1

theorem second_tree : ∃ W t, Parts.packagedTree textType none none world1 = (W, .ok t) := by
  have h : (match Parts.packagedTree textType none none world1 with
      | (_, .ok _) => true
      | (_, .error _) => false) = true := by decide +kernel
  rcases hp : Parts.packagedTree textType none none world1 with ⟨W, r⟩
  rw [hp] at h
  cases r with
  | error e => cases h
  | ok t => exact ⟨W, t, rfl⟩

/-- The text document is opened beside the new one. -/
theorem demo_open (hl : L.Lawful) : ∃ fm s, open_ L.pkg demoFs (.file (some demoFile)) demoClock.now = .ok fm ∧
    packagedWhole L demoFs demoClock fm (some textType) world1 = .ok s ∧
    openWhole L demoFs demoClock (.file (some demoFile)) world1 = .ok s := by
  have hfile : demoFs demoFile = some (.zip demoZip) := if_pos rfl
  have hread : ∀ n, n ∉ [MIMETYPE, picture] → demoZip.read n = none := by
    intro n hn
    simp only [List.mem_cons, List.not_mem_nil, or_false, not_or] at hn
    unfold Zip.read demoZip
    simp [hn, Ne.symm hn.1, Ne.symm hn.2]
  have hman : demoZip.read MANIFEST = none := hread _ (by decide +kernel)
  have ho : ∃ fm, open_ L.pkg demoFs (.file (some demoFile)) demoClock.now = .ok fm := by
    unfold open_ getBytes srcZip
    dsimp only
    rw [hfile]
    dsimp only
    rw [show demoZip.read "META-INF/manifest.xml".toList = none from hman]
    exact ⟨_, rfl⟩
  obtain ⟨fm, ho⟩ := ho
  obtain ⟨hsrc, -, -⟩ := open_ok ho
  have hop : Opened demoFs fm demoZip := by
    unfold Opened
    rw [hsrc]
    exact .inl hfile
  have hr : ∀ n t, n ∉ [MIMETYPE, picture] → Readable (dlib L) demoZip n t := fun n t hn b hb => by
    rw [hread n hn] at hb; cases hb
  obtain ⟨doc, o1, o2, o3, d1, d2, -, -⟩ := packaged_succ (d := dlib L) (now := demoClock.now) hop (mt := textType)
    (by decide +kernel) (hr META _ (by decide +kernel)) (hr STYLES _ (by decide +kernel)) (hr CONTENT _ (by decide +kernel))
  have hst : ∀ n, n ∉ [MIMETYPE, picture] → storedBytes demoFs fm n = none := by
    intro n hn
    unfold storedBytes
    rw [getBytes_opened hop, hread n hn]
  obtain ⟨W, t, ht⟩ := second_tree
  have hw := packagedWhole_fwd (L := L) (k := demoClock) (W := world1) (W1 := world1) (W2 := world1) (so := none) (co := none) d1
    (by rw [hst STYLES (by decide +kernel)]; rfl) (by rw [hst CONTENT (by decide +kernel)]; rfl) (by rw [d2]; exact ht)
  refine ⟨fm, _, ho, hw, ?_⟩
  unfold openWhole
  rw [ho]
  have hdet : detect (dlib L) demoFs fm = .ok (some textType) := by
    unfold detect
    rw [getBytes_opened hop, show demoZip.read MIMETYPE = some (utf8 textType) by decide +kernel]
    dsimp only
    rw [show (dlib L).decode (utf8 textType) = .ok textType from hl.decode_utf8 textType]
  dsimp only
  rw [hdet]
  exact hw

/-- A new text document and the opened one -/
theorem demo_desk (hl : L.Lawful) : ∃ s0 s : Session, OK L { world := s.world, heap := {}, fs := demoFs, docs := [⟨s0, []⟩, ⟨s, []⟩] } ∧
    s0.meta_ = metaInit demoClock none ∧
    (s0.w.fm.source = .file none ∧ MIMETYPE ∈ s0.w.fm.dir.keys ∧
      (∀ n g, n ∉ [META, STYLES, CONTENT] → s0.w.fm.dir.get n = some g →
        (currentBytes L.pkg s0.w.fm.manifest.kids g.element).isSome) ∧
      ∀ n, n ∉ [MIMETYPE, MANIFEST, META, STYLES, CONTENT] → n ∉ s0.w.fm.dir.keys) ∧
    (s.w.fm.source = .file (some demoFile) ∧ MIMETYPE ∈ s.w.fm.dir.keys ∧
      (∀ n g, n ∉ [META, STYLES, CONTENT] → s.w.fm.dir.get n = some g →
        (currentBytes L.pkg s.w.fm.manifest.kids g.element).isSome) ∧
      ∀ n, n ∉ [MIMETYPE, MANIFEST, META, STYLES, CONTENT] → n ∉ s.w.fm.dir.keys) := by
  have hmt : textType ∈ MIMETYPE_BODYTAG_MAP.keys := by decide +kernel
  obtain ⟨s0, h1, -, h3, h4, h5, -, -, h8, -⟩ := new_ok (L := L) demoFs demoClock hmt
  have hW : s0.world = world1 := by unfold world1; rw [h8]
  unfold newWhole at h1
  obtain ⟨fm0, ho0⟩ : ∃ fm, open_ L.pkg demoFs (.file none) demoClock.now = .ok fm := ⟨_, rfl⟩
  rw [ho0] at h1
  dsimp only at h1
  obtain ⟨fm, s, hop, hpk, hwh⟩ := demo_open (L := L) hl
  have hfs : s.w.fs = demoFs := packaged_fs hpk
  refine ⟨s0, s, ?_, h5, made_parts ho0 h1, made_parts hop hpk⟩
  have a1 := add_step hl (C86_start L demoFs) (k := demoClock) ho0 h1
  have a2 := add_step hl a1.1 (k := demoClock) (src := .file (some demoFile)) (fm := fm) (mt := some textType) (s := s)
    (by dsimp only; rw [h3]; exact hop) (by dsimp only; rw [h3, hW]; exact hpk)
  have a2 := a2.1
  dsimp only at a2
  rw [hfs] at a2
  exact a2

/-- The condition of C86 on the files is needed: a new document is saved to the file that another document was opened from,
and the picture of this one is gone from what it writes.  (With any lawful libraries; there are such, `xlib_exists`.) -/
theorem C86_overwritten_refuted (hl : L.Lawful) : ∃ D a D' p, OK L D ∧ Allowed D a ∧
    D.docs[1]? = some p ∧ a.doc ≠ some 1 ∧ exec L pick a D = (D', .ok ()) ∧
    (∃ z, (tobytesWhole L (fun _ => none) (seen D p).session).2 = .ok z ∧ ∃ m ∈ z, m.name = picture) ∧
    ∀ z, (tobytesWhole L (fun _ => none) (seen D' p).session).2 = .ok z → ∀ m ∈ z, m.name ≠ picture := by
  obtain ⟨s0, s, hD, h5, ⟨p1, p2, p3, p4⟩, q1, q2, q3, q4⟩ := demo_desk hl
  have hpic : picture ∉ [MIMETYPE, MANIFEST, META, STYLES, CONTENT] := by decide +kernel
  let D : Desk := { world := s.world, heap := {}, fs := demoFs, docs := [⟨s0, []⟩, ⟨s, []⟩] }
  have hD : OK L D := hD
  have hl0 := lives_of hD (i := 0) (p := ⟨s0, []⟩) rfl
  obtain ⟨s', hs'⟩ := C69_saves hl (hl0.named (some demoFile)) (f := demoFile) rfl demoEnv demoClock false (by
    dsimp only [seen]
    rw [h5]
    show (Meta.abs (Meta.new demoClock.time demoClock.time2 demoClock.generator)).tag "editing-cycles" ≠ _
    rw [new_eq]
    decide +kernel) p2 p3 (fun _ => rfl) (tmp := "x.tmp".toList) (by
      show tmpfilename demoEnv.names demoFile demoFs = _
      decide +kernel) (by decide +kernel)
  obtain ⟨f, r1, -, -, -, -, -, -, r8⟩ := saveWhole_ok hs'
  obtain rfl : f = demoFile := by
    simp only [Option.some.injEq] at r1
    exact r1.symm
  obtain ⟨z, fm', b1, b2, -⟩ := saveDoc_after r8
  have hz : ∀ m ∈ z, m.name ≠ picture := by
    intro m hm hn
    have b1' : tobytes L.pkg demoEnv.sink
        (sync { s0.w with fs := demoFs } (syncOps L s.world s'.meta_ s0.tree)).fs
        (sync { s0.w with fs := demoFs } (syncOps L s.world s'.meta_ s0.tree)).fm = (fm', .ok z) := b1
    obtain ⟨e1, e2, -, e4, -⟩ := sync_frame (syncOps L s.world s'.meta_ s0.tree) { s0.w with fs := demoFs }
    have hc := C39_rest _ _ _ _ _ _ [] (by
      unfold Opened
      rw [e2]
      dsimp only
      rw [p1]) b1'
    rw [e4] at hc
    have hin : m ∈ z.filter (fun m => m.name ∉ s0.w.fm.dir.keys) :=
      List.mem_filter.mpr ⟨hm, by rw [hn]; simpa using p4 picture hpic⟩
    have hc' : z.filter (fun m => m.name ∉ s0.w.fm.dir.keys) = [] := hc
    rw [hc'] at hin
    cases hin
  have hexec : exec L pick (.saveas 0 demoEnv demoClock false demoFile) D =
      ({ world := s'.world, heap := {}, fs := s'.w.fs, docs := [⟨s', []⟩, ⟨s, []⟩] }, .ok ()) := by
    have key : ∀ r : Session × Except Exc Unit, r = (s', .ok ()) →
        (({ world := r.1.world, heap := {}, fs := r.1.w.fs, docs := [⟨r.1, []⟩, ⟨s, []⟩] }, r.2) : Desk × Except Exc Unit) =
          ({ world := s'.world, heap := {}, fs := s'.w.fs, docs := [⟨s', []⟩, ⟨s, []⟩] }, .ok ()) := by
      rintro r rfl; rfl
    exact key (saveasWhole L demoEnv demoClock false demoFile (seen D ⟨s0, []⟩).session) hs'
  have hrest : ∀ (fs : FS) (W : World) (orig : Zip), fs demoFile = some (.zip orig) → ∀ z',
      (tobytesWhole L (fun _ => none) { s with world := W, w := { s.w with fs := fs } }).2 = .ok z' →
      z'.filter (fun m => m.name ∉ s.w.fm.dir.keys) = (orig.filter fun m => m.name ∉ s.w.fm.dir.keys).map
        fun m => { m with data := (orig.read m.name).getD [] } := by
    intro fs W orig hf z' hz'
    obtain ⟨fm1, g1, -⟩ := tobytesWhole_ok (Prod.ext rfl hz' : tobytesWhole L (fun _ => none)
      { s with world := W, w := { s.w with fs := fs } } = (_, .ok z'))
    dsimp only at g1
    obtain ⟨e1, e2, -, e4, -⟩ := sync_frame (syncOps L W s.meta_ s.tree) { s.w with fs := fs }
    have hc := C39_rest _ _ _ _ _ _ orig (by
      unfold Opened
      rw [e2, e1]
      dsimp only
      rw [q1]
      exact .inl hf) g1
    rw [e4] at hc
    exact hc
  refine ⟨D, .saveas 0 demoEnv demoClock false demoFile, _, ⟨s, []⟩, hD, trivial, rfl, by simp [Act.doc], hexec, ?_, ?_⟩
  · have hl1 := lives_of hD (i := 1) (p := ⟨s, []⟩) rfl
    obtain ⟨s2, z2, hz2⟩ := C79_succeeds hl hl1 q2 q3 (sink := fun _ => none) fun _ => rfl
    have hz2' : (tobytesWhole L (fun _ => none) (seen D ⟨s, []⟩).session).2 = .ok z2 := by rw [hz2]
    refine ⟨z2, hz2', ?_⟩
    have hr := hrest demoFs s.world demoZip (if_pos rfl) z2 hz2'
    have hm : ({ name := picture, data := (demoZip.read picture).getD [], stored := false, info := 0, extra := [] } : Member) ∈
        z2.filter (fun m => m.name ∉ s.w.fm.dir.keys) := by
      rw [hr]
      refine List.mem_map.mpr ⟨{ name := picture, data := [1], stored := false, info := 0, extra := [] }, ?_, rfl⟩
      exact List.mem_filter.mpr ⟨by simp [demoZip], by simpa using q4 picture hpic⟩
    exact ⟨_, (List.mem_filter.mp hm).1, rfl⟩
  · intro z' hz' m hm hn
    have hr := hrest s'.w.fs s'.world z b2 z' hz'
    have : m ∈ z'.filter (fun m => m.name ∉ s.w.fm.dir.keys) :=
      List.mem_filter.mpr ⟨hm, by rw [hn]; simpa using q4 picture hpic⟩
    rw [hr] at this
    obtain ⟨m', h1, rfl⟩ := List.mem_map.mp this
    exact hz m' (List.mem_filter.mp h1).1 hn

/-- A program writes a paragraph into the new document and saves it to another file: the hypotheses of C86 are met, and the
opened document writes what it would have written before. -/
example : ∃ L : XLib, L.Lawful ∧ ∃ D as D' p, OK L D ∧ Runs L Pages.exPick D as D' ∧ as.length = 3 ∧
    D.docs[1]? = some p ∧ (∀ a ∈ as, a.doc ≠ some 1) ∧
    (∀ q, p.session.w.fm.source = .file (some q) → D.fs q ≠ none ∧ Spares L Pages.exPick q D as) ∧
    (∃ z, (tobytesWhole L (fun _ => none) (seen D p).session).2 = .ok z ∧
      (tobytesWhole L (fun _ => none) (seen D' p).session).2 = .ok z) := by
  obtain ⟨L, hl⟩ := xlib_exists
  obtain ⟨s0, s, hD, h5, -, q1, q2, q3, q4⟩ := demo_desk hl
  let as : List Act := [.act 0 (.text (.paragraph "hello".toList [])), .act 0 (.text (.append none 0)),
    .saveas 0 demoEnv demoClock true "b.odt".toList]
  have hr : Runs L Pages.exPick { world := s.world, heap := {}, fs := demoFs, docs := [⟨s0, []⟩, ⟨s, []⟩] } as _ :=
    .act _ (fun _ _ => trivial) (.act _ (fun _ _ => trivial) (.act _ trivial (.done _)))
  have hno : ∀ a ∈ as, a.doc ≠ some 1 := by
    intro a ha
    simp only [as, List.mem_cons, List.not_mem_nil, or_false] at ha
    rcases ha with rfl | rfl | rfl <;> simp [Act.doc]
  have hsrc : ∀ q, s.w.fm.source = .file (some q) → demoFs q ≠ none ∧ Spares L Pages.exPick q
      { world := s.world, heap := {}, fs := demoFs, docs := [⟨s0, []⟩, ⟨s, []⟩] } as := by
    intro q hq
    rw [q1] at hq
    simp only [Source.file.injEq, Option.some.injEq] at hq
    subst hq
    refine ⟨by decide +kernel, ?_⟩
    unfold as Spares Spares Spares
    refine ⟨fun f hf => (by simp [Act.target] at hf), fun f hf => (by simp [Act.target] at hf), fun f hf => ?_, trivial⟩
    unfold Act.target at hf
    obtain ⟨x, -, rfl⟩ := Option.map_eq_some_iff.mp hf
    decide +kernel
  have hl1 := lives_of hD (i := 1) (p := ⟨s, []⟩) rfl
  obtain ⟨s2, z2, hz2⟩ := C79_succeeds hl hl1 q2 q3 (sink := fun _ => none) fun _ => rfl
  have hz : (tobytesWhole L (fun _ => none) 
      (seen { world := s.world, heap := {}, fs := demoFs, docs := [⟨s0, []⟩, ⟨s, []⟩] } ⟨s, []⟩).session).2 = .ok z2 := by rw [hz2]
  exact ⟨L, hl, _, as, _, ⟨s, []⟩, hD, hr, rfl, rfl, hno, hsrc, z2, hz,
    (C86_alone hl Pages.exPick_ok hD hr (j := 1) rfl hno hsrc _).trans hz⟩

end Verif.Desk
