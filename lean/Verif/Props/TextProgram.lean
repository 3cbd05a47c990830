import Verif.Proofs.ContentBlocks
import Verif.Props.WholeDemo
/-!
# C81: documents that are made by programs with text objects

A program opens a document or makes a new one, makes paragraphs, headings, lists, sections and so on, changes them and
puts them into the document or into each other, and saves the document.
-/
namespace Verif.TextProg
open Verif Verif.Lxml Forest Verif.Whole Verif.Tbl Verif.Document
set_option linter.unusedSimpArgs false

/-- A program between two statements: the document is one that lives, the objects of the program are elements that do not
belong to its frame, and the body does not lie in the styles. -/
structure OK (L : XLib) (p : Prog) : Prop where
  lives : Lives L p.session
  fits : ∃ F tag, MIMETYPE_BODYTAG_MAP.get p.session.mimetype = some tag ∧ Fits F tag p
  apart : ∀ t, find p.session.tree.styles.root p.world = some t → p.session.tree.body.node ∉ ids (single t)

/-- What no program changes: the references of the document, all of the styles, all of the content but for the content
of the body, and the containers of declarations in the body. -/
structure Frame (p p' : Prog) : Prop where
  tree : p'.session.tree = p.session.tree
  mimetype : p'.session.mimetype = p.session.mimetype
  styles : find p.session.tree.styles.root p'.world = find p.session.tree.styles.root p.world
  content : (find p.session.tree.content.root p'.world).map (fun t => hole p.session.tree.body.node (single t)) =
    (find p.session.tree.content.root p.world).map fun t => hole p.session.tree.body.node (single t)
  decls : decls p'.world p.session.tree.body.node = decls p.world p.session.tree.body.node

theorem Frame.refl (p : Prog) : Frame p p := ⟨rfl, rfl, rfl, rfl, rfl⟩

theorem Frame.trans {p q r : Prog} (h : Frame p q) (g : Frame q r) : Frame p r := by
  have g1 := g.styles
  have g2 := g.content
  have g3 := g.decls
  rw [h.tree] at g1 g2 g3
  exact ⟨g.tree.trans h.tree, g.mimetype.trans h.mimetype, g1.trans h.styles, g2.trans h.content, g3.trans h.decls⟩

theorem hole_mem {b : Nat} {G : Forest} : b ∈ ids (hole b G) ↔ b ∈ ids G := by
  unfold hole
  induction G with
  | nil => rfl
  | cons e k r ihk ihr =>
    by_cases he : e.id = b
    · simp only [subst, he, if_true]
      show b ∈ ids (.cons e .nil r) ↔ _
      simp [ids, he]
    · simp only [subst, he, if_false, ids, List.mem_cons, List.mem_append, ihk, ihr]

/-- **C81**, one statement: whether it raises or not, the program is in order, the frame of the document is unchanged and
the objects of the program remain. -/
theorem C81_step {L : XLib} {p : Prog} (h : OK L p) {a : Act} (ha : Allowed p a) :
    OK L (exec a p).1 ∧ Frame p (exec a p).1 ∧ p.objs <+: (exec a p).1.objs := by
  obtain ⟨F, tag, htag, hfit⟩ := h.fits
  have hacts := exec_acts hfit ha
  have hfit' := hacts.fits
  obtain ⟨h1, h2, h3, h4, -⟩ := hacts
  have hd : (exec a p).1.session.tree = p.session.tree := by rw [h1]
  have hm : (exec a p).1.session.mimetype = p.session.mimetype := by rw [h1]
  have hst : find p.session.tree.styles.root (exec a p).1.world = find p.session.tree.styles.root p.world := by
    have hF := hfit.kept.frame p.session.tree.styles.root (by simp)
    obtain ⟨t, ht⟩ := find_some_of_mem (hfit.kept.mem _ hF)
    rw [ht]
    exact Step.tree hfit.kept h2 hF ht (h.apart t ht)
  refine ⟨⟨?_, ⟨F, tag, by rw [hm]; exact htag, hfit'⟩, ?_⟩, ⟨hd, hm, hst, ?_, Step.decls hfit.kept h2⟩, h4⟩
  · rw [h1]
    have := h2.kept
    exact h.lives.trees this.once htag this.refs
  · rw [hd, hst]; exact h.apart
  · have hF := hfit.kept.frame p.session.tree.content.root (by simp)
    obtain ⟨t, ht⟩ := find_some_of_mem (hfit.kept.mem _ hF)
    obtain ⟨t', e1, e2⟩ := Step.content hfit.kept h2 hF ht
    rw [ht, e1]
    simp only [Option.map_some]
    rw [e2]

/-- Programs with a document: statements with text objects, changes of the meta data, other files of the package, its
name, saving under this name or another one. -/
inductive Runs (L : XLib) : Prog → Prog → Prop
  | done (p : Prog) : Runs L p p
  | act {p p' : Prog} (a : Act) (ha : Allowed p a) (h : Runs L (exec a p).1 p') : Runs L p p'
  | name {p p' : Prog} (name : Option Package.Path)
      (h : Runs L { p with session := { p.session with docname := name } } p') : Runs L p p'
  | data {p p' : Prog} (o : List Meta.Op)
      (h : Runs L { p with session := { p.session with meta_ := { p.session.meta_ with m := Meta.run p.session.meta_.m o } } } p') :
      Runs L p p'
  | file {p p' : Prog} (n : Str) (x : Package.Element) (t : Str) (now : Nat)
      (hn : n ∉ [Package.MIMETYPE, MANIFEST, ROOT, META, STYLES, CONTENT])
      (h : Runs L { p with session := { p.session with w := { p.session.w with fm := Package.register n x t now p.session.w.fm } } } p') :
      Runs L p p'
  | save {p p' : Prog} (env : Package.Env) (k : Clock) (backup : Bool) (h : Runs L (save L env k backup p).1 p') : Runs L p p'
  | saveas {p p' : Prog} (env : Package.Env) (k : Clock) (backup : Bool) (f : Package.Path)
      (h : Runs L (saveas L env k backup f p).1 p') : Runs L p p'

theorem OK.session {L : XLib} {p : Prog} (h : OK L p) {s : Session} (hl : Lives L s) (hw : s.world = p.session.world)
    (ht : s.tree = p.session.tree) (hm : s.mimetype = p.session.mimetype) :
    OK L { p with session := s } ∧ Frame p { p with session := s } := by
  have hW : ({ p with session := s } : Prog).world = p.world := hw
  refine ⟨⟨hl, ?_, ?_⟩, ⟨ht, hm, by rw [hW], by rw [hW], by rw [hW]⟩⟩
  · obtain ⟨F, tag, h1, h2, h3⟩ := h.fits
    exact ⟨F, tag, by dsimp only; rw [hm]; exact h1, by rw [hW]; dsimp only; rw [ht]; exact h2,
      fun n hn => by rw [hW]; exact h3 n hn⟩
  · rw [hW]; dsimp only; rw [ht]; exact h.apart

theorem save_ok {L : XLib} {p : Prog} (h : OK L p) (env : Package.Env) (k : Clock) (backup : Bool) :
    OK L (save L env k backup p).1 ∧ Frame p (save L env k backup p).1 := by
  obtain ⟨f1, f2, -, f4, -⟩ := C69_frame L env k backup (s := p.session) (s' := (saveWhole L env k backup p.session).1)
    (r := (saveWhole L env k backup p.session).2) rfl
  exact h.session (.saved h.lives env k backup) f1 f2 f4

theorem saveas_ok {L : XLib} {p : Prog} (h : OK L p) (env : Package.Env) (k : Clock) (backup : Bool) (f : Package.Path) :
    OK L (saveas L env k backup f p).1 ∧ Frame p (saveas L env k backup f p).1 := by
  obtain ⟨f1, f2, -, f4, -⟩ := C69_frame L env k backup (s := { p.session with docname := some f })
    (s' := (saveWhole L env k backup { p.session with docname := some f }).1)
    (r := (saveWhole L env k backup { p.session with docname := some f }).2) rfl
  exact h.session (.savedAs h.lives env k backup f) f1 f2 f4

/-- **C81**, whole programs: after any program that has been in order it is in order, and nothing but the content of the
body and the objects of the program has been changed in the trees of the document. -/
theorem C81_runs {L : XLib} {p p' : Prog} (h : OK L p) (hr : Runs L p p') : OK L p' ∧ Frame p p' := by
  induction hr with
  | done p => exact ⟨h, .refl p⟩
  | act a ha _ ih =>
    obtain ⟨h1, h2, -⟩ := C81_step h ha
    exact ⟨(ih h1).1, h2.trans (ih h1).2⟩
  | name n _ ih =>
    obtain ⟨h1, h2⟩ := h.session (.named h.lives n) rfl rfl rfl
    exact ⟨(ih h1).1, h2.trans (ih h1).2⟩
  | data o _ ih =>
    obtain ⟨h1, h2⟩ := h.session (.data h.lives o) rfl rfl rfl
    exact ⟨(ih h1).1, h2.trans (ih h1).2⟩
  | file n x t now hn _ ih =>
    obtain ⟨h1, h2⟩ := h.session (.file h.lives n x t now hn) rfl rfl rfl
    exact ⟨(ih h1).1, h2.trans (ih h1).2⟩
  | save env k backup _ ih =>
    obtain ⟨h1, h2⟩ := save_ok h env k backup
    exact ⟨(ih h1).1, h2.trans (ih h1).2⟩
  | saveas env k backup f _ ih =>
    obtain ⟨h1, h2⟩ := saveas_ok h env k backup f
    exact ⟨(ih h1).1, h2.trans (ih h1).2⟩

theorem ok_start {L : XLib} {s : Session} (hl : Lives L s)
    (h : ∃ tag, MIMETYPE_BODYTAG_MAP.get s.mimetype = some tag ∧ Program.Framed s.world tag s.tree) : OK L ⟨s, []⟩ := by
  obtain ⟨tag, h1, h2⟩ := h
  refine ⟨hl, ⟨outer s.world s.tree, tag, h1, start_kept h2, fun n hn => by simp at hn⟩, ?_⟩
  intro t ht hb
  have hn := h2.once
  obtain ⟨x, hx, hxb⟩ := Program.ref_child h2.refs.body.node
  obtain ⟨y, hy, hyb⟩ := Program.ref_child h2.refs.content.body
  have hid : t.1.id = s.tree.styles.root := (find_mem_ids ht).1
  have ht' : find t.1.id s.world = some t := by rw [hid]; exact ht
  have hroot : ∀ {q : Nat} {u : Tree} {z : Nat}, find q s.world = some u → z ∈ roots u.2 → z ≠ t.1.id := by
    intro q u z h3 h4 h5
    exact child_not_root hn h3 (roots_sub h4) (by rw [h5, hid]; exact h2.styles)
  have h3 := parent_in hn hx hxb ht' hb (hroot hx hxb)
  have h4 := parent_in hn hy hyb ht' h3 (hroot hy hyb)
  have h5 : s.tree.content.root ≠ t.1.id := by
    intro he
    have h6 := h2.refs.contentRoot
    rw [he, hid, h2.refs.stylesRoot] at h6
    exact absurd h6 (by decide)
  have h6 : s.tree.content.root ∈ ids t.2 := by
    simp only [ids_single, List.mem_cons] at h4
    exact h4.resolve_left h5
  exact child_not_root hn ht h6 h2.content

/-- **C81**, new documents -/
theorem C81_new {L : XLib} (hl : L.Lawful) (fs : Package.FS) (k : Clock) {mt : Str} (hmt : mt ∈ MIMETYPE_BODYTAG_MAP.keys) :
    ∃ s, newWhole L fs k mt = .ok s ∧ OK L ⟨s, []⟩ ∧ s.mimetype = mt ∧ s.w.fs = fs := by
  obtain ⟨s, h1, h2, h3, h4, -⟩ := new_ok (L := L) fs k hmt
  refine ⟨s, h1, ok_start (h2 s.docname) ?_, h4, h3⟩
  have h := h1
  unfold newWhole at h
  split at h
  · cases h
  · rename_i fm ho
    exact Program.made_framed hl (by simp [ids]) ho h

/-- **C81**, opened documents, all of them -/
theorem C81_open {L : XLib} (hl : L.Lawful) {fs : Package.FS} {k : Clock} {src : Package.Source} {W : World} {s : Session}
    (hn : (ids W).Nodup) (h : openWhole L fs k src W = .ok s) : OK L ⟨s, []⟩ := by
  refine ok_start ?_ (Program.open_framed hl hn h)
  unfold openWhole at h
  split at h
  · cases h
  · rename_i fm ho
    split at h
    · cases h
    · exact Lives.made s.docname hn ho h

/-! ## Saving and opening again -/

/-- The elements below `b` and those below `b'` are at the same places, have the same tags and attributes and read the
same. -/
def SameBelow (b b' : Tree) : Prop := ∀ path : List Nat,
  (at_ b path = none → at_ b' path = none) ∧ ∀ u, at_ b path = some u → ∃ u', at_ b' path = some u' ∧ Same u u'

theorem same_below {b b' : Tree} (h : data b' = shape b) : SameBelow b b' := by
  intro path
  obtain ⟨h1, h2⟩ := at_file h path
  refine ⟨h1, fun u hu => ?_⟩
  obtain ⟨u', e1, e2⟩ := h2 u hu
  exact ⟨u', e1, same_file e2⟩

/-- **C81**, saving and opening again.  The file that has been written can be opened; the body has the same elements at the
same places with the same tags, attributes and texts. -/
theorem C81_reopen {L : XLib} (hl : L.Lawful) {p p' : Prog} (h : OK L p) {env : Package.Env} {k : Clock}
    {backup : Bool} (hs : save L env k backup p = (p', .ok ())) (hw : Writable p'.session) (k' : Clock) {W0 : World}
    (h0 : (ids W0).Nodup) :
    ∃ f s'' b b'', p.session.docname = some f ∧ openWhole L p'.session.w.fs k' (.file (some f)) W0 = .ok s'' ∧
      OK L ⟨s'', []⟩ ∧ s''.mimetype = p.session.mimetype ∧
      find p.session.tree.body.node p.world = some b ∧ find s''.tree.body.node s''.world = some b'' ∧
      data b'' = shape b ∧ SameBelow b b'' := by
  have hs1 : saveWhole L env k backup p.session = (p'.session, .ok ()) := by
    unfold save at hs
    simp only [Prod.mk.injEq] at hs
    rw [← hs.1]
    exact Prod.ext rfl hs.2
  obtain ⟨f1, f2, f3, f4, -⟩ := C69_frame L env k backup hs1
  obtain ⟨f, s'', e1, e2, e3, -⟩ := C69_reopen hl h.lives hs1 hw k' h0
  rw [f3] at e1
  obtain ⟨b, b'', g1, g2, g3⟩ := e3.body
  rw [f1, f2] at g1
  exact ⟨f, s'', b, b'', e1, e2, C81_open hl h0 e2, e3.mimetype.trans f4, g1, g2, g3, same_below g3⟩

/-- **C81** for `saveas` -/
theorem C81_reopen_as {L : XLib} (hl : L.Lawful) {p p' : Prog} (h : OK L p) {env : Package.Env}
    {k : Clock} {backup : Bool} {f : Package.Path} (hs : saveas L env k backup f p = (p', .ok ())) (hw : Writable p'.session)
    (k' : Clock) {W0 : World} (h0 : (ids W0).Nodup) :
    ∃ s'' b b'', openWhole L p'.session.w.fs k' (.file (some f)) W0 = .ok s'' ∧
      OK L ⟨s'', []⟩ ∧ s''.mimetype = p.session.mimetype ∧
      find p.session.tree.body.node p.world = some b ∧ find s''.tree.body.node s''.world = some b'' ∧
      data b'' = shape b ∧ SameBelow b b'' := by
  have hs1 : saveWhole L env k backup { p.session with docname := some f } = (p'.session, .ok ()) := by
    unfold saveas saveasWhole at hs
    simp only [Prod.mk.injEq] at hs
    rw [← hs.1]
    exact Prod.ext rfl hs.2
  have hlv : Lives L { p.session with docname := some f } := h.lives.named (some f)
  obtain ⟨f1, f2, f3, f4, -⟩ := C69_frame L env k backup hs1
  obtain ⟨f', s'', e1, e2, e3, -⟩ := C69_reopen hl hlv hs1 hw k' h0
  rw [f3] at e1
  cases e1
  obtain ⟨b, b'', g1, g2, g3⟩ := e3.body
  rw [f1, f2] at g1
  exact ⟨s'', b, b'', e2, C81_open hl h0 e2, e3.mimetype.trans f4, g1, g2, g3, same_below g3⟩

/-! ## Texts -/

/-- **C81**, `append_text` of an object, wherever it is: the text is appended to its plain text; its tag, its attributes
and all elements outside of it are unchanged, and it stays where it is. -/
theorem C81_append_text {L : XLib} {p : Prog} (h : OK L p) {i n : Nat} (hi : p.objs[i]? = some n) (s : Str) :
    ∃ t, find n p.world = some t ∧ (Txt.SpanTag t.1.tag → ∃ p' t', exec (.appendText i s) p = (p', .ok ()) ∧
      find n p'.world = some t' ∧ t'.1.tag = t.1.tag ∧ t'.1.attrs = t.1.attrs ∧
      Txt.plaintext t' = (Txt.plaintext t).map (· ++ s) ∧ p'.objs = p.objs ∧
      p'.world = p.world.subst n fun _ _ => single t') := by
  obtain ⟨F, tag, -, hfit⟩ := h.fits
  have hn := hfit.kept.once
  obtain ⟨t, ht⟩ := find_some_of_mem (hfit.objs n (List.mem_of_getElem? hi)).mem
  refine ⟨t, ht, fun hk => ?_⟩
  obtain ⟨W', t', e1, e2, e3⟩ := appendText_put hn ht s
  obtain ⟨-, f2, -⟩ := e2.find hn ht
  have hs := same_data e3
  obtain ⟨a1, a2⟩ := appendText_elem t s
  refine ⟨{ p with session := { p.session with world := W' } }, t', ?_, f2, hs.tag.trans a1, hs.attrs.trans a2, ?_, rfl, e2.world⟩
  · show (do let n ← obj i; let e ← onWorld (Vars.elem n)
             if Txt.kind e.tag = .span then onWorld (appendText n s) else .raise .AttributeError : Py Prog Unit) p = _
    have g1 : obj i p = (p, .ok n) := by unfold obj; rw [hi]
    have g2 : onWorld (Vars.elem n) p = (p, .ok t.1) := by
      unfold onWorld
      have : Vars.elem n p.session.world = (p.session.world, .ok t.1) := by
        unfold Vars.elem
        have ht : find n p.session.world = some t := ht
        rw [ht]
      simp only [this]
    rw [Py.bind_ok g1, Py.bind_ok g2, if_pos hk.kind]
    unfold onWorld
    have : appendText n s p.session.world = (W', .ok ()) := e1
    simp only [this]
  · rw [hs.plaintext, Txt.C03_append_text _ hk]

/-! ## Text documents -/

theorem runs_program {L : XLib} (l : List Block) (n : Nat) {p p' : Prog}
    (h : forEach exec (program n l) p = (p', .ok ())) : Runs L p p' := by
  have key : ∀ (acts : List Act) (p : Prog), (∀ a ∈ acts, ∀ q, Allowed q a) → forEach exec acts p = (p', .ok ()) → Runs L p p' := by
    intro acts
    induction acts with
    | nil => intro p _ h; cases h; exact .done _
    | cons a acts ih =>
      intro p hal h
      have h : (do exec a; forEach exec acts : Py Prog Unit) p = (p', .ok ()) := h
      cases ha : exec a p with
      | mk q r =>
        cases r with
        | error e => rw [Py.bind_error ha] at h; cases h
        | ok u =>
          rw [Py.bind_ok ha] at h
          refine .act a (hal a (by simp) p) ?_
          rw [ha]
          exact ih q (fun b hb => hal b (by simp [hb])) h
  refine key _ p ?_ h
  clear h
  induction l generalizing n with
  | nil => intro a ha; cases ha
  | cons b l ih =>
    intro a ha q
    simp only [program, List.mem_cons] at ha
    rcases ha with rfl | rfl | ha
    · cases b <;> trivial
    · trivial
    · exact ih _ a ha q

/-- **C81**, blocks for a text document: `doc.body.append(Paragraph(…))`, `doc.body.append(Heading(…))` and
`doc.body.append(ezlist(…))`, as many as there are.  No statement raises.  The new elements are in the body in the order
of the statements, after all that was there but for the elements at the end that the format wants there; they show the
texts, levels and style names that were given. -/
theorem C81_blocks {L : XLib} {p : Prog} (h : OK L p)
    (hb : MIMETYPE_BODYTAG_MAP.get p.session.mimetype = some "office:text") (l : List Block) :
    ∃ p' t t' before new after, forEach exec (program p.objs.length l) p = (p', .ok ()) ∧ OK L p' ∧ Frame p p' ∧
      find p.session.tree.body.node p.world = some t ∧ find p.session.tree.body.node p'.world = some t' ∧
      t'.1 = t.1 ∧ t.2.toList = before ++ after ∧ t'.2.toList = before ++ new ++ after ∧
      List.Forall₂ Shows l new ∧ p'.objs = p.objs ++ new.map (·.1.id) ∧
      p'.session = { p.session with world := p'.world } ∧
      Block.OrderedBlock (fun u : Tree => u.1.tag) Tags.TEXT_EPILOGUE after ∧
      (∀ a b, t.2.toList = a ++ b → Block.OrderedBlock (fun u : Tree => u.1.tag) Tags.TEXT_EPILOGUE b →
        b.length ≤ after.length) ∧
      (legal p.world = true → (∀ b ∈ l, b.Legal) → legal p'.world = true) := by
  obtain ⟨F, tag, htag, hfit⟩ := h.fits
  rw [hb] at htag
  cases htag
  have hn := hfit.kept.once
  obtain ⟨t, ht⟩ := find_some_of_mem (hfit.kept.mem _ (hfit.kept.frame p.session.tree.body.node (by simp)))
  have htt : t.1.tag = "office:text" := by
    obtain ⟨A, B, -, h2, -⟩ := hfit.kept.refs.body.node
    rw [tagAt_find ht] at h2
    exact Option.some.inj h2
  obtain ⟨p', k, us, e1, e2, e3, e4, e5, e6, e7⟩ := blocks_put l hn ht htt
  obtain ⟨-, f2, -⟩ := e2.find hn ht
  obtain ⟨o1, o2⟩ := C81_runs h (runs_program l _ e1)
  have htags : ∀ u ∈ us, u.1.tag ∉ Tags.TEXT_EPILOGUE := by
    intro u hu
    have key : ∀ (l : List Block) (us : List Tree), List.Forall₂ (fun b u => data u = data b.tree) l us → u ∈ us →
        ∃ b, data u = data (Block.tree b) := by
      intro l us h
      induction h with
      | nil => intro h; cases h
      | cons h1 _ ih =>
        intro h
        rcases List.mem_cons.mp h with rfl | h
        · exact ⟨_, h1⟩
        · exact ih h
    obtain ⟨b, hb⟩ := key l us e4 hu
    have h1 : u.1.tag = b.tree.1.tag := (same_data hb).tag
    have h2 := tree_tag b
    rw [← h1] at h2
    have : ∀ x ∈ ["text:p", "text:h", "text:list"], x ∉ Tags.TEXT_EPILOGUE := by decide +kernel
    exact this _ h2
  obtain ⟨body, tail, c1, c2, c3, c4⟩ := Org.C35_append_history (fun u : Tree => u.1.tag) Org.C33_text_tables.2.1
    (show Tags.TEXT_EPILOGUE ≠ [] by decide) t.2.toList us htags
  refine ⟨p', t, (t.1, k), body, us, tail, e1, o1, o2, ht, f2, rfl, c1, e3.trans c2, ?_, e6, e5, c3, c4, e7⟩
  exact e4.imp fun b u hd => (shows_data hd).mpr (tree_shows b)

theorem new_meta {k : Clock} (hk : legalStr k.time = true ∧ legalStr k.time2 = true ∧ legalStr k.generator = true) :
    legal (single (metaInit k none).tree) = true ∧ (metaInit k none).tree.1.tail = none := by
  refine ⟨?_, rfl⟩
  rw [legal_meta]
  have e0 : legal (Forest.ofList (metaInit k none).m.kids) = true := by
    show legal (Forest.ofList (Meta.new k.time k.time2 k.generator).kids) = true
    rw [new_eq]
    have n1 : legalName "meta:creation-date" = true := by decide +kernel
    have n2 : legalName "dc:date" = true := by decide +kernel
    have n3 : legalName "meta:generator" = true := by decide +kernel
    have n4 : legalName "meta:document-statistic" = true := by decide +kernel
    simp [Forest.ofList, legal, legalElem, legalOpt, hk.1, hk.2.1, hk.2.2, n1, n2, n3, n4]
  have n5 : legalElem (grddl { id := 0, tag := "office:document-meta" }) = true := by decide +kernel
  have n6 : legalElem { id := 0, tag := "office:meta" } = true := by decide +kernel
  refine ⟨n5, rfl, ?_, e0, rfl⟩
  show legalElem (Meta.new k.time k.time2 k.generator).node = true
  rw [new_eq]
  exact n6

/-- New text documents: all that is in them can be written, and the body has the two containers of declarations. -/
theorem new_text : ∀ q ∈ MIMETYPE_BODYTAG_MAP, q.2 = "office:text" → ∀ W d, Parts.packagedTree q.1 none none .nil = (W, .ok d) →
    legal W = true ∧ ∀ t, find d.body.node W = some t → t.2.toList.map (fun u => (u.1.tag, u.2.toList.length)) =
      [("text:variable-decls", 0), ("text:user-field-decls", 0)] := by
  have hb : (MIMETYPE_BODYTAG_MAP.all fun q => q.2 != "office:text" || match Parts.packagedTree q.1 none none .nil with
      | (_, .error _) => false
      | (W, .ok d) => legal W && match find d.body.node W with
        | none => true
        | some t => t.2.toList.map (fun u => (u.1.tag, u.2.toList.length)) ==
            [("text:variable-decls", 0), ("text:user-field-decls", 0)]) = true := by decide +kernel
  intro q hq hm W d hW
  have := List.all_eq_true.mp hb q hq
  rw [hW] at this
  simp only [hm, bne_self_eq_false, Bool.false_or, Bool.and_eq_true] at this
  refine ⟨this.1, fun t ht => ?_⟩
  have h2 := this.2
  rw [ht] at h2
  simpa using h2

theorem kids_file {t t' : Tree} (h : data t' = shape t) :
    List.Forall₂ (fun x x' => data x' = shape x) t.2.toList t'.2.toList := by
  have hm : t'.2.toList.map (mapT anon) = t.2.toList.map shape := by
    rw [data_anon] at h
    have h2 := congrArg (fun x : Tree => x.2.toList) h
    have h3 : (t'.2.map anon).toList = (t.2.map written).toList := h2
    rw [toList_shape, toList_map] at h3
    exact h3
  generalize t.2.toList = xs at hm
  generalize t'.2.toList = ys at hm
  induction xs generalizing ys with
  | nil => simp only [List.map_nil, List.map_eq_nil_iff] at hm; subst hm; exact .nil
  | cons x xs ih =>
    cases ys with
    | nil => cases hm
    | cons y ys =>
      simp only [List.map_cons, List.cons.injEq] at hm
      exact .cons (by rw [data_anon]; exact hm.1) (ih ys hm.2)

/-- A new document whose trees have been changed by a program, but so that XML can hold them, can be saved and opened. -/
theorem fresh_saved {L : XLib} (hl : L.Lawful) {fs : Package.FS} {k k1 : Clock} (k2 : Clock)
    (hk : legalStr k.time = true ∧ legalStr k.time2 = true ∧ legalStr k.generator = true)
    (hk1 : legalStr k1.time = true ∧ legalStr k1.generator = true) {mt : Str} (hmem : mt ∈ MIMETYPE_BODYTAG_MAP.keys)
    {s : Session} (h1 : newWhole L fs k mt = .ok s) {p1 : Prog} (e2 : OK L p1) (e3 : Frame ⟨s, []⟩ p1)
    (e10 : p1.session = { s with world := p1.world }) (hlegal1 : legal p1.world = true)
    (f : Package.Path) (env : Package.Env) (backup : Bool) (hsink : ∀ m, env.sink m = none) {tmp : Package.Path}
    (htmp : Package.tmpfilename env.names f fs = some tmp) (hne : tmp ≠ f) :
    ∃ p' s'' b t'', saveas L env k1 backup f p1 = (p', .ok ()) ∧
      openWhole L p'.session.w.fs k2 (.file (some f)) .nil = .ok s'' ∧ OK L ⟨s'', []⟩ ∧ s''.mimetype = mt ∧
      find s.tree.body.node p1.world = some b ∧ find s''.tree.body.node s''.world = some t'' ∧ data t'' = shape b := by
  obtain ⟨s0, h1', h2, h3, h4, h5, h6, h7, h8, h9⟩ := new_ok (L := L) fs k hmem
  rw [h1] at h1'
  cases h1'
  obtain ⟨s0, g1, g2, -, -⟩ := C81_new hl fs k hmem
  rw [h1] at g1
  cases g1
  obtain ⟨s', hs'⟩ := C69_saves hl (s := { p1.session with docname := some f }) (e2.lives.named (some f)) (f := f) rfl env k1 backup
    (by
      rw [e10]
      dsimp only
      rw [h5]
      show (Meta.abs (Meta.new k.time k.time2 k.generator)).tag "editing-cycles" ≠ _
      have : (Meta.abs (Meta.new k.time k.time2 k.generator)).tag "editing-cycles" = none := by
        rw [new_eq]
        rfl
      rw [this]; simp) (by rw [e10]; exact h6) (by rw [e10]; exact h7) hsink
    (by rw [e10]; dsimp only; rw [h3]; exact htmp) hne
  have hsave : saveas L env k1 backup f p1 = ({ p1 with session := s' }, .ok ()) := by
    show (({ p1 with session := (saveWhole L env k1 backup { p1.session with docname := some f }).1 } : Prog),
      (saveWhole L env k1 backup { p1.session with docname := some f }).2) = _
    rw [hs']
  have hw : Writable { p1.session with docname := some f } := by
    refine ⟨?_, fun r hr x hx => ⟨legal_find hlegal1 hx, ?_⟩⟩
    · rw [e10]; dsimp only; rw [h5]; exact new_meta hk
    · have hr : r ∈ [s.tree.styles.root, s.tree.content.root] := by
        have h := e3.tree
        dsimp only at hr h
        rw [h] at hr; exact hr
      simp only [List.mem_cons, List.not_mem_nil, or_false] at hr
      rcases hr with rfl | rfl
      · have h := e3.styles
        have hx : find s.tree.styles.root p1.world = some x := hx
        dsimp only at h
        rw [hx] at h
        exact (h9 _ (by simp) x h.symm).2
      · have h := e3.content
        have hx : find s.tree.content.root p1.world = some x := hx
        dsimp only at h
        rw [hx, Option.map_some] at h
        obtain ⟨y, y1, y2⟩ := Option.map_eq_some_iff.mp h.symm
        have hy := (h9 _ (by simp) y y1).2
        obtain ⟨F, tag, -, hfit⟩ := g2.fits
        have hap := hfit.kept.apart s.tree.content.root (by simp)
        have e0 : ∀ z : Tree, z.1.id = s.tree.content.root →
            hole s.tree.body.node (single z) = .cons z.1 (hole s.tree.body.node z.2) .nil := by
          intro z hz
          unfold hole
          show subst _ _ (.cons z.1 z.2 .nil) = _
          rw [subst, if_neg (by rw [hz]; exact hap)]; rfl
        rw [e0 x (find_mem_ids hx).1, e0 y (find_mem_ids y1).1] at y2
        have := (Forest.cons.inj y2).1
        rw [← this]; exact hy
  have hw' : Writable s' := writable_save hs' hk1.1 hk1.2 hw
  obtain ⟨s'', b, t'', r1, r2, r3, r4, r5, r6, -⟩ := C81_reopen_as hl e2 hsave hw' k2 (W0 := .nil) (by simp [ids])
  rw [show p1.session.tree = s.tree from e3.tree] at r4
  exact ⟨_, s'', b, t'', hsave, r1, r2, by rw [r3, e3.mimetype]; exact h4, r4, r5, r6⟩

/-- **C81**, whole text documents.  A new text document, any paragraphs, headings and lists appended to its body, saved
under a name and opened again: the body has the two containers of declarations, which are empty, and then elements that
show the blocks, in the same order, with the same texts, levels, items, headers and style names.  The strings must be
ones that XML can hold (`C69_texts` tells which). -/
theorem C81_document {L : XLib} (hl : L.Lawful) (fs : Package.FS) {k k1 : Clock} (k2 : Clock)
    (hk : legalStr k.time = true ∧ legalStr k.time2 = true ∧ legalStr k.generator = true)
    (hk1 : legalStr k1.time = true ∧ legalStr k1.generator = true) {mt : Str}
    (hmt : MIMETYPE_BODYTAG_MAP.get mt = some "office:text") {l : List Block} (hlegal : ∀ b ∈ l, b.Legal)
    (f : Package.Path) (env : Package.Env) (backup : Bool) (hsink : ∀ m, env.sink m = none) {tmp : Package.Path}
    (htmp : Package.tmpfilename env.names f fs = some tmp) (hne : tmp ≠ f) :
    ∃ s p1 p' s'' t'' v u new, newWhole L fs k mt = .ok s ∧ forEach exec (program 0 l) ⟨s, []⟩ = (p1, .ok ()) ∧
      saveas L env k1 backup f p1 = (p', .ok ()) ∧
      openWhole L p'.session.w.fs k2 (.file (some f)) .nil = .ok s'' ∧ s''.mimetype = mt ∧ OK L ⟨s'', []⟩ ∧
      find s''.tree.body.node s''.world = some t'' ∧ t''.1.tag = "office:text" ∧ t''.2.toList = v :: u :: new ∧
      v.1.tag = "text:variable-decls" ∧ v.2 = .nil ∧ u.1.tag = "text:user-field-decls" ∧ u.2 = .nil ∧
      List.Forall₂ Shows l new := by
  have hmem : mt ∈ MIMETYPE_BODYTAG_MAP.keys := by
    rw [← Dict.get_isSome, hmt]; rfl
  obtain ⟨s, h1, h2, h3, h4, h5, h6, h7, h8, h9⟩ := new_ok (L := L) fs k hmem
  obtain ⟨s0, g1, g2, -, -⟩ := C81_new hl fs k hmem
  rw [h1] at g1
  cases g1
  obtain ⟨w1, w2⟩ := new_text (mt, "office:text") (Dict.get_mem hmt) rfl s.world s.tree h8
  obtain ⟨p1, t, t', before, new, after, e1, e2, e3, e4, e5, e6, e7, e8, e9, -, e10, e11, -, e13⟩ :=
    C81_blocks g2 (by rw [h4]; exact hmt) l
  have hkids := w2 t e4
  have hafter : after = [] := by
    cases after with
    | nil => rfl
    | cons a r =>
      have h12 : a.1.tag ∈ Tags.TEXT_EPILOGUE := e11.1 a (by simp)
      have h13 : (a.1.tag, a.2.toList.length) ∈ [("text:variable-decls", 0), ("text:user-field-decls", 0)] := by
        rw [← hkids, e7]
        exact List.mem_map.mpr ⟨a, by simp, rfl⟩
      simp only [List.mem_cons, List.not_mem_nil, or_false, Prod.mk.injEq] at h13
      have h14 : "text:variable-decls" ∉ Tags.TEXT_EPILOGUE ∧ "text:user-field-decls" ∉ Tags.TEXT_EPILOGUE := by decide +kernel
      rcases h13 with ⟨h13, -⟩ | ⟨h13, -⟩
      · rw [h13] at h12; exact absurd h12 h14.1
      · rw [h13] at h12; exact absurd h12 h14.2
  subst hafter
  simp only [List.append_nil] at e7 e8
  rw [e7] at hkids
  obtain ⟨v0, u0, hbefore, hv1, hv2, hu1, hu2⟩ : ∃ v u, before = [v, u] ∧ v.1.tag = "text:variable-decls" ∧ v.2.toList = [] ∧
      u.1.tag = "text:user-field-decls" ∧ u.2.toList = [] := by
    rcases before with _ | ⟨v, _ | ⟨u, _ | ⟨w, r⟩⟩⟩
    · simp at hkids
    · simp at hkids
    · simp only [List.map_cons, List.map_nil, List.cons.injEq, Prod.mk.injEq, List.length_eq_zero_iff, and_true] at hkids
      exact ⟨v, u, rfl, hkids.1.1, hkids.1.2, hkids.2.1, hkids.2.2⟩
    · simp at hkids
  obtain ⟨p', s'', b, t'', hsave, r1, r2, r3, r4, r5, r6⟩ := fresh_saved hl k2 hk hk1 hmem h1 e2 e3 e10 (e13 w1 hlegal)
    f env backup hsink htmp hne
  rw [e5] at r4
  obtain rfl : t' = b := Option.some.inj r4
  have hm := kids_file r6
  rw [e8, hbefore] at hm
  have ht2 : t'.1.tag = "office:text" := by
    obtain ⟨F, tag, htag, hfit⟩ := g2.fits
    dsimp only at htag
    rw [h4, hmt] at htag
    cases htag
    obtain ⟨A, B, -, h12, -⟩ := hfit.kept.refs.body.node
    rw [tagAt_find e4] at h12
    rw [e6]; exact Option.some.inj h12
  have hnil : ∀ {x x' : Tree}, data x' = shape x → x.2.toList = [] → x'.2 = .nil := by
    intro x x' hx hx2
    have := kids_file hx
    rw [hx2] at this
    have hx' : x'.2.toList = [] := by
      generalize x'.2.toList = z at this
      cases this; rfl
    exact toList_injective hx'
  generalize hk'' : t''.2.toList = ks at hm
  match ks, hm with
  | v :: u :: new'', .cons a1 (.cons a2 a3) =>
    refine ⟨s, p1, _, s'', t'', v, u, new'', h1, e1, hsave, r1, ?_, r2, r5, ?_, hk'', ?_, hnil a1 hv2, ?_, hnil a2 hu2, ?_⟩
    · exact r3
    · rw [(same_file r6).tag]; exact ht2
    · rw [(same_file a1).tag]; exact hv1
    · rw [(same_file a2).tag]; exact hu1
    · have key : ∀ {l : List Block} {xs ys : List Tree}, List.Forall₂ Shows l xs →
          List.Forall₂ (fun x x' => data x' = shape x) xs ys → List.Forall₂ Shows l ys := by
        intro l xs ys h
        induction h generalizing ys with
        | nil => intro h; cases h; exact .nil
        | cons c1 _ ih =>
          intro h
          cases h with
          | cons d1 d2 => exact .cons ((shows_file d1).mpr c1) (ih d2)
      exact key e9 a3

/-! ## Concrete cases -/

def textType : Str := "application/vnd.oasis.opendocument.text".toList

/-- A heading, a paragraph with a tabulator and two blanks, a list with a header and two items, one of them empty -/
def demoBlocks : List Block :=
  [.heading "Title".toList 2 [], .paragraph "a\t b  c".toList "S".toList, .list ["one".toList, []] "Head".toList []]

example : ∃ L : XLib, L.Lawful ∧ ∃ s p1 p' s'' t'' v u a b c,
    newWhole L (fun _ => none) demoClock textType = .ok s ∧
    forEach exec (program 0 demoBlocks) ⟨s, []⟩ = (p1, .ok ()) ∧
    saveas L demoEnv demoClock false demoFile p1 = (p', .ok ()) ∧
    openWhole L p'.session.w.fs demoClock (.file (some demoFile)) .nil = .ok s'' ∧
    find s''.tree.body.node s''.world = some t'' ∧ t''.2.toList = [v, u, a, b, c] ∧
    a.1.tag = "text:h" ∧ a.1.get "text:outline-level" = some "2".toList ∧ Txt.plaintext a = some "Title".toList ∧
    Txt.plaintext b = some "a\t b  c".toList ∧ b.1.get "text:style-name" = some "S".toList ∧
    (Txt.listItems c).map Txt.plaintext = [some "one".toList, some []] ∧
    (Txt.getHeader c).map Txt.plaintext = some (some "Head".toList) := by
  obtain ⟨L, hl⟩ := xlib_exists
  obtain ⟨s, p1, p', s'', t'', v, u, new, a1, a2, a3, a4, -, -, a7, -, a9, -, -, -, -, a14⟩ :=
    C81_document hl (fun _ => none) (k := demoClock) (k1 := demoClock) demoClock (by decide +kernel) (by decide +kernel)
    (mt := textType) (by decide +kernel) (l := demoBlocks) (by
      intro b hb
      simp only [demoBlocks, List.mem_cons, List.not_mem_nil, or_false] at hb
      rcases hb with rfl | rfl | rfl <;> simp only [Block.Legal] <;> decide +kernel)
    demoFile demoEnv false (fun _ => rfl) (tmp := "x.tmp".toList) (by decide +kernel) (by decide +kernel)
  unfold demoBlocks at a14
  obtain ⟨a, r1, b1, c14, rfl⟩ := List.forall₂_cons_left_iff.mp a14
  obtain ⟨b, r2, b2, d14, rfl⟩ := List.forall₂_cons_left_iff.mp c14
  obtain ⟨c, r3, b3, e14, rfl⟩ := List.forall₂_cons_left_iff.mp d14
  obtain rfl := List.forall₂_nil_left_iff.mp e14
  exact ⟨L, hl, s, p1, p', s'', t'', v, u, a, b, c, a1, a2, a3, a4, a7, a9, b1.1, b1.2.2.2, b1.2.2.1, b2.2.2, b2.2.1,
      b3.2.2.1, b3.2.2.2⟩

/-- A program with a new text document: the trees -/
def progOf (W : World) (d : Parts.DocTree) : Prog :=
  ⟨{ w := ⟨⟨[], ⟨[], 0⟩, .file none⟩, fun _ => none, []⟩, world := W, docname := none, mimetype := textType, doctype := [],
     meta_ := metaInit demoClock none, tree := d }, []⟩

/-- What the statements leave in the body: tags and plain texts of its children, and the plain texts of their children;
with the results of the statements -/
def bodyAfter (l : List Act) : Option (List (Except Exc Unit) × List (String × Option Str × List (Option Str))) :=
  match Parts.packagedTree textType none none .nil with
  | (_, .error _) => none
  | (W, .ok d) =>
    let r := l.foldl (fun r a => ((exec a r.1).1, r.2 ++ [(exec a r.1).2])) (progOf W d, [])
    (find d.body.node r.1.world).map fun t => (r.2, t.2.toList.map fun u => (u.1.tag, Txt.plaintext u, u.2.toList.map Txt.plaintext))

set_option synthInstance.maxSize 512 in
/-- A paragraph in the body gets more text; a second one is put before it; a section takes the first; a wrong call raises
and changes nothing. -/
example : bodyAfter [.paragraph "a".toList [], .append none 0, .appendText 0 "  b".toList, .paragraph "c".toList [],
      .insertBefore none 0 1, .section_ "n".toList [], .append none 2, .append (some 2) 0, .appendText 2 "x".toList,
      .remove none 0] =
    some ([.ok (), .ok (), .ok (), .ok (), .ok (), .ok (), .ok (), .ok (), .error .AttributeError, .error .ValueError],
      [("text:variable-decls", some [], []), ("text:user-field-decls", some [], []), ("text:p", some "c".toList, []),
        ("text:section", some [], [some "a  b".toList])]) := by decide +kernel

end Verif.TextProg
