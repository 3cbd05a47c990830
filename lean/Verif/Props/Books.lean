import Verif.Proofs.Books
import Verif.Props.NewTree
/-!
# C91: documents with tables that are open at the same time

A program opens documents and makes new ones, works with the text, the sheets and the tables of any of them in any order,
copies tables of one document for another one, and saves them.
-/
namespace Verif.Books
open Verif Verif.Lxml Forest Verif.Whole Verif.Document Verif.Mix
open Verif.Desk (Quiet Held Apart Beside later quiet_firm held_firm apart_step apart_quiet apart_beside quiet_beside made_beside)
open Verif.Program (TableObj tableState stateOf Config)
open Verif.TSpec (docCell)
open Verif.Tbl (CellCall Sim callsOn callAll callAll_sim)
set_option linter.unusedSimpArgs false

variable {L : XLib} {FL : Cells.FloatLib} {strategy : String} {mx : Int × Int}

/-! ## The programs -/

/-- One document: it is in order, its trees are trees of the memory, and the nodes that are not `F` are its own. -/
def Holds (L : XLib) (F : Nat → Prop) (B : Books) (p : Mix.Prog) : Prop :=
  ∃ R T tag, Ready L F R T tag (seen B p) ∧ Held F B.world tag p.text.session.tree

/-- The documents are in order, and no two of them have a node in common. -/
structure OK (L : XLib) (B : Books) : Prop where
  once : (ids B.world).Nodup
  docs : ∃ F : Nat → Nat → Prop, (∀ i p, B.docs[i]? = some p → Holds L (F i) B p) ∧
    ∀ i j p q, i ≠ j → B.docs[i]? = some p → B.docs[j]? = some q →
      Apart (F i) (F j) B.world p.text.session.tree q.text.session.tree

/-- The document that a statement works with: for a copy the one that it is made for.  Opening a document and making one
have none. -/
def Act.doc : Act FL → Option Nat
  | .act i _ | .data i _ | .file i .. | .name i _ | .save i .. | .saveas i .. => some i
  | .copyTo _ _ _ j => some j
  | .open_ .. | .new .. => none

/-- The table that a statement is a call on, in the document that it works with -/
def Act.callee : Act FL → Option Nat
  | .act _ a => calleeOf a
  | _ => none

/-- The statements of a program: those of C88 and C90 as there; other files do not have the names of the parts of the
document; the tables in the body of a document that is opened can be read. -/
def Allowed (L : XLib) (B : Books) : Act FL → Prop
  | .act i a => ∀ p, view B i = some p → AllowedC p a
  | .file _ n _ _ _ => n ∉ [Package.MIMETYPE, MANIFEST, ROOT, META, STYLES, CONTENT]
  | .open_ k src => ∀ s, openWhole L B.fs k src B.world = .ok s → Readable s
  | _ => True

/-- A program as a list of statements; a statement that raises is passed over. -/
def run (L : XLib) (strategy : String) (mx : Int × Int) (l : List (Act FL)) (B : Books) : Books :=
  l.foldl (fun B a => (exec L strategy mx a B).1) B

/-- All statements are allowed where they stand. -/
def AllAllowed (L : XLib) (strategy : String) (mx : Int × Int) : List (Act FL) → Books → Prop
  | [], _ => True
  | a :: l, B => Allowed L B a ∧ AllAllowed L strategy mx l (exec L strategy mx a B).1

/-- Nothing of the document has changed: neither its trees and its body nor the trees of the objects that the program uses with it nor
what its tables show. -/
structure Same (B B' : Books) (p : Mix.Prog) : Prop where
  trees : ∀ r ∈ [p.text.session.tree.styles.root, p.text.session.tree.content.root], find r B'.world = find r B.world
  body : find p.text.session.tree.body.node B'.world = find p.text.session.tree.body.node B.world
  objs : ∀ n ∈ p.text.objs, find n B'.world = find n B.world
  tables : ∀ k, shown (seen B' p) k = shown (seen B p) k

theorem Same.refl (B : Books) (p : Mix.Prog) : Same B B p := ⟨fun _ _ => rfl, rfl, fun _ _ => rfl, fun _ => rfl⟩

theorem Same.trans {B B' B'' : Books} {p : Mix.Prog} (h : Same B B' p) (g : Same B' B'' p) : Same B B'' p :=
  ⟨fun r hr => (g.trees r hr).trans (h.trees r hr), g.body.trans h.body, fun n hn => (g.objs n hn).trans (h.objs n hn),
    fun k => (g.tables k).trans (h.tables k)⟩

/-- The frame of the document has not changed. -/
theorem Same.frame {B B' : Books} {p : Mix.Prog} (h : Same B B' p) : TextProg.Frame (seen B p).text (seen B' p).text := by
  refine ⟨rfl, rfl, h.trees p.text.session.tree.styles.root (by simp), ?_, ?_⟩
  · show (find p.text.session.tree.content.root B'.world).map _ = (find p.text.session.tree.content.root B.world).map _
    rw [h.trees p.text.session.tree.content.root (by simp)]
  · show TextProg.decls B'.world p.text.session.tree.body.node = TextProg.decls B.world p.text.session.tree.body.node
    unfold TextProg.decls
    rw [h.body]

theorem quiet_same {B B' : Books} {F : Nat → Prop} {p : Mix.Prog} (h : Holds L F B p)
    (hq : Quiet F B.world B'.world p.text.session.tree) : Same B B' p := by
  obtain ⟨R, T, tag, hr, hh⟩ := h
  have htree : ∀ r ∈ [p.text.session.tree.styles.root, p.text.session.tree.content.root], find r B'.world = find r B.world :=
    fun r hr => hq.tree hh.kept.once hr (roots_sub (hh.roots r hr))
  have hbody : find p.text.session.tree.body.node B'.world = find p.text.session.tree.body.node B.world := by
    obtain ⟨c, hc⟩ := find_some_of_mem (hh.kept.mem _ (hh.kept.frame p.text.session.tree.content.root (by simp)))
    have hb := Desk.body_in hh.kept hc
    have hc' := htree p.text.session.tree.content.root (by simp)
    rw [hc] at hc'
    rw [find_in hh.kept.once hc hb, find_in hq.once hc' hb]
  exact ⟨htree, hbody, fun n hn => hq.below hh.kept (hr.fits.objs n hn).mem (hr.fits.objs n hn).free,
    fun k => shown_quiet (p := seen B p) hr hh hq B'.fs k⟩

theorem quiet_holds {B B' : Books} {F : Nat → Prop} {p : Mix.Prog} (h : Holds L F B p)
    (hq : Quiet F B.world B'.world p.text.session.tree) : Holds L (later F B.world B'.world) B' p := by
  obtain ⟨R, T, tag, hr, hh⟩ := h
  obtain ⟨R', T', hr'⟩ := ready_quiet (p := seen B p) hr hh hq B'.fs
  exact ⟨R', T', tag, hr', hq.held hh⟩

/-- A statement with the document number `i` -/
theorem doc_step {B : Books} (h : OK L B) {i : Nat} {p q : Mix.Prog} (hp : B.docs[i]? = some p) {c : Option Nat}
    (hs : ∀ F R T tag, Ready L F R T tag (seen B p) → Moves L F tag c (seen B p) q) :
    OK L ⟨q.text.session.world, q.text.session.w.fs, B.docs.set i q⟩ ∧ After L c (seen B p) q ∧
      ∀ j r, B.docs[j]? = some r → j ≠ i → Same B ⟨q.text.session.world, q.text.session.w.fs, B.docs.set i q⟩ r := by
  obtain ⟨F, hF, hA⟩ := h.docs
  obtain ⟨R, T, tag, h1, h2⟩ := hF i p hp
  obtain ⟨⟨R', T', m1⟩, m2, m3, m4, m5, m6⟩ := hs _ _ _ _ h1
  have ht : q.text.session.tree = p.text.session.tree := m2.tree
  have m3 : TextProg.Firm (F i) B.world q.world tag p.text.session.tree := m3
  have hq : ∀ j r, B.docs[j]? = some r → j ≠ i → Quiet (F j) B.world q.text.session.world r.text.session.tree := by
    intro j r hr hj
    obtain ⟨_, _, tag', -, g2⟩ := hF j r hr
    exact quiet_firm h2 g2 (hA i j p r (Ne.symm hj) hp hr) m3
  have hset : ∀ j r, (B.docs.set i q)[j]? = some r → (j = i ∧ r = q) ∨ (j ≠ i ∧ B.docs[j]? = some r) := by
    intro j r hr
    by_cases hj : j = i
    · subst hj
      rw [List.getElem?_set_self (List.getElem?_eq_some_iff.mp hp).1] at hr
      exact .inl ⟨rfl, (Option.some.inj hr).symm⟩
    · rw [List.getElem?_set_ne (Ne.symm hj)] at hr
      exact .inr ⟨hj, hr⟩
  have hd' : Held (F i) q.text.session.world tag p.text.session.tree := held_firm h2 m3
  refine ⟨⟨m3.kept.once, fun j => if j = i then F i else later (F j) B.world q.text.session.world, ?_, ?_⟩,
    ⟨⟨F i, R', T', tag, m1⟩, m2, m4, m5, m6⟩, ?_⟩
  · intro j r hr
    rcases hset j r hr with ⟨rfl, rfl⟩ | ⟨hj, hr'⟩
    · simp only [↓reduceIte]
      exact ⟨R', T', tag, m1, by rw [ht]; exact hd'⟩
    · simp only [if_neg hj]
      exact quiet_holds (B' := ⟨q.text.session.world, q.text.session.w.fs, B.docs.set i q⟩) (hF j r hr') (hq j r hr' hj)
  · intro j k a b hjk ha hb
    rcases hset j a ha with ⟨rfl, rfl⟩ | ⟨hj, ha'⟩ <;> rcases hset k b hb with ⟨rfl, rfl⟩ | ⟨hk, hb'⟩
    · exact absurd rfl hjk
    · simp only [↓reduceIte, if_neg hk, ht]
      exact apart_step (hA j k p b hjk hp hb') hd'
    · simp only [↓reduceIte, if_neg hj, ht]
      exact (apart_step (hA k j p a (Ne.symm hjk) hp ha') hd').symm
    · simp only [if_neg hj, if_neg hk]
      obtain ⟨_, _, ta, -, ga⟩ := hF j a ha'
      obtain ⟨_, _, tb, -, gb⟩ := hF k b hb'
      exact apart_quiet (hA j k a b hjk ha' hb') (hq j a ha' hj) (hq k b hb' hk) ga gb
  · intro j r hr hj
    exact quiet_same (B' := ⟨q.text.session.world, q.text.session.w.fs, B.docs.set i q⟩) (hF j r hr) (hq j r hr hj)

/-- Another document -/
theorem add_step (hlaw : L.Lawful) {B : Books} (h : OK L B) {k : Clock} {src : Package.Source} {fm : Package.FM}
    {mt : Option Str} {s : Session} (ho : Package.open_ L.pkg B.fs src k.now = .ok fm)
    (hs : packagedWhole L B.fs k fm mt B.world = .ok s) (hread : Readable s) :
    OK L ⟨s.world, s.w.fs, B.docs ++ [⟨⟨s, []⟩, []⟩]⟩ ∧
      ∀ (j : Nat) r, B.docs[j]? = some r → Same B ⟨s.world, s.w.fs, B.docs ++ [⟨⟨s, []⟩, []⟩]⟩ r := by
  obtain ⟨F, hF, hA⟩ := h.docs
  obtain ⟨b, n1, n2⟩ := made_beside hlaw h.once hs
  obtain ⟨tag, htag, hfr⟩ := Program.made_framed hlaw h.once ho hs
  have hq : ∀ j r, B.docs[j]? = some r → Quiet (F j) B.world s.world r.text.session.tree := by
    intro j r hr
    obtain ⟨_, _, tag', -, g2⟩ := hF j r hr
    exact quiet_beside g2 b
  have hset : ∀ j r, (B.docs ++ [(⟨⟨s, []⟩, []⟩ : Mix.Prog)])[j]? = some r →
      (j = B.docs.length ∧ r = ⟨⟨s, []⟩, []⟩) ∨ (j ≠ B.docs.length ∧ B.docs[j]? = some r) := by
    intro j r hr
    rcases lt_trichotomy j B.docs.length with hj | hj | hj
    · rw [List.getElem?_append_left hj] at hr
      exact .inr ⟨by omega, hr⟩
    · subst hj
      simp at hr
      exact .inl ⟨rfl, hr.symm⟩
    · rw [List.getElem?_eq_none (by simp; omega)] at hr
      cases hr
  have hnew : Held (TextProg.outer s.world s.tree) s.world tag s.tree :=
    ⟨TextProg.start_kept hfr, by
      intro r hr
      simp only [List.mem_cons, List.not_mem_nil, or_false] at hr
      rcases hr with rfl | rfl
      · exact hfr.styles
      · exact hfr.content⟩
  have hready := start_ready (Lives.made s.docname h.once ho hs) htag hfr hread
  refine ⟨⟨b.once, fun j => if j = B.docs.length then TextProg.outer s.world s.tree else
    later (F j) B.world s.world, ?_, ?_⟩, ?_⟩
  · intro j r hr
    rcases hset j r hr with ⟨rfl, rfl⟩ | ⟨hj, hr'⟩
    · simp only [↓reduceIte]
      exact ⟨_, _, tag, hready, hnew⟩
    · simp only [if_neg hj]
      exact quiet_holds (B' := ⟨s.world, s.w.fs, B.docs ++ [⟨⟨s, []⟩, []⟩]⟩) (hF j r hr') (hq j r hr')
  · intro j k a c hjk ha hc
    rcases hset j a ha with ⟨rfl, rfl⟩ | ⟨hj, ha'⟩ <;> rcases hset k c hc with ⟨hk, rfl⟩ | ⟨hk, hc'⟩
    · exact absurd hk.symm hjk
    · obtain ⟨_, _, tc, -, gc⟩ := hF k c hc'
      simp only [↓reduceIte, if_neg hk]
      exact apart_beside gc b hfr n1 n2
    · subst hk
      obtain ⟨_, _, ta, -, ga⟩ := hF j a ha'
      simp only [↓reduceIte, if_neg hj]
      exact (apart_beside ga b hfr n1 n2).symm
    · simp only [if_neg hj, if_neg hk]
      obtain ⟨_, _, ta, -, ga⟩ := hF j a ha'
      obtain ⟨_, _, tc, -, gc⟩ := hF k c hc'
      exact apart_quiet (hA j k a c hjk ha' hc') (hq j a ha') (hq k c hc') ga gc
  · intro j r hr
    exact quiet_same (B' := ⟨s.world, s.w.fs, B.docs ++ [⟨⟨s, []⟩, []⟩]⟩) (hF j r hr) (hq j r hr)

/-- What a statement with the document `i` does -/
theorem onDoc_some {B : Books} {i : Nat} {p : Mix.Prog} (hp : B.docs[i]? = some p) (m : Py Mix.Prog Unit) :
    onDoc i m B = (⟨(m (seen B p)).1.text.session.world, (m (seen B p)).1.text.session.w.fs, B.docs.set i (m (seen B p)).1⟩,
      (m (seen B p)).2) := by
  unfold onDoc view
  rw [hp]; rfl

theorem onDoc_none {B : Books} {i : Nat} (hp : B.docs[i]? = none) (m : Py Mix.Prog Unit) :
    onDoc i m B = (B, .error .NameError) := by
  unfold onDoc view
  rw [hp]; rfl

theorem view_eq {B : Books} {i : Nat} {p : Mix.Prog} (hp : B.docs[i]? = some p) : view B i = some (seen B p) := by
  unfold view; rw [hp]; rfl

/-- A table object of a document is in order. -/
theorem table_sound {B : Books} (h : OK L B) {i k : Nat} {p : Mix.Prog} (hp : B.docs[i]? = some p) {o : TableObj}
    (ho : p.tables[k]? = some o) {t : Tree} (ht : find o.node B.world = some t) : Tbl.Sound (tableState B.world o t) := by
  obtain ⟨F, hF, -⟩ := h.docs
  obtain ⟨R, T, tag, h1, -⟩ := hF i p hp
  exact h1.sound o (List.mem_of_getElem? ho) t ht

/-- What a statement leaves of the documents -/
structure Step (L : XLib) (d : Option Nat) (c : Option Nat) (B B' : Books) : Prop where
  ok : OK L B'
  /-- The others: neither their attributes, names, meta data and lists of parts (`docs[j]`) nor their trees, objects and
  tables have changed. -/
  others : ∀ j p, B.docs[j]? = some p → d ≠ some j → B'.docs[j]? = some p ∧ Same B B' p
  /-- The document itself: as C88 and C90 say -/
  self : ∀ j p, view B j = some p → d = some j → ∃ q, view B' j = some q ∧ After L c p q

theorem Step.refl {B : Books} (h : OK L B) (d c : Option Nat) (hd : ∀ j p, view B j = some p → d = some j → Mix.OK L p) :
    Step L d c B B :=
  ⟨h, fun _ p hj _ => ⟨hj, .refl B p⟩, fun j p hj he => ⟨p, hj, After.refl (hd j p hj he) c⟩⟩

/-- **C91**: each document is as if it were alone, so all that C88, C89 and C90 say of a document is true of it. -/
theorem C91_sound {B : Books} (h : OK L B) {i : Nat} {p : Mix.Prog} (hp : view B i = some p) : Mix.OK L p := by
  obtain ⟨F, hF, -⟩ := h.docs
  obtain ⟨p0, hp0, rfl⟩ := Option.map_eq_some_iff.mp hp
  obtain ⟨R, T, tag, h1, -⟩ := hF i p0 hp0
  exact ⟨F i, R, T, tag, h1⟩

/-- **C91**, one statement: whether it raises or not, all documents are in order after it, nothing has changed of the
documents that it does not work with, and in its own document no table but the one that is called. -/
theorem C91_step (hlaw : L.Lawful) (hc : Config strategy mx) {B : Books} (h : OK L B) {a : Act FL} (ha : Allowed L B a) :
    Step L a.doc a.callee B (exec L strategy mx a B).1 := by
  have hrefl : ∀ d c, Step L d c B B := fun d c => .refl h d c fun j p hj _ => C91_sound h hj
  have hdoc : ∀ {i : Nat} {m : Py Mix.Prog Unit} {c : Option Nat}, (∀ p, B.docs[i]? = some p → ∀ F R T tag,
      Ready L F R T tag (seen B p) → Moves L F tag c (seen B p) (m (seen B p)).1) → Step L (some i) c B (onDoc i m B).1 := by
    intro i m c hm
    cases hp : B.docs[i]? with
    | none => rw [onDoc_none hp]; exact hrefl _ _
    | some p =>
      rw [onDoc_some hp]
      obtain ⟨g1, g2, g3⟩ := doc_step h hp (hm p hp)
      refine ⟨g1, fun j r hr hj => ⟨?_, g3 j r hr fun e => hj (by rw [e])⟩, fun j r hr hj => ?_⟩
      · show (B.docs.set i _)[j]? = _
        rw [List.getElem?_set_ne fun e => hj (by rw [e])]
        exact hr
      · obtain rfl := Option.some.inj hj
        rw [view_eq hp] at hr
        cases hr
        refine ⟨_, view_eq (p := (m (seen B p)).1) ?_, g2⟩
        show (B.docs.set i _)[i]? = _
        rw [List.getElem?_set_self (List.getElem?_eq_some_iff.mp hp).1]
  have hadd : ∀ {k : Clock} {src : Package.Source} {fm : Package.FM} {mt : Option Str} {s : Session},
      Package.open_ L.pkg B.fs src k.now = .ok fm → packagedWhole L B.fs k fm mt B.world = .ok s → Readable s →
      Step L none none B (add (.ok s) B).1 := by
    intro k src fm mt s ho hs hr
    obtain ⟨g1, g2⟩ := add_step hlaw h ho hs hr
    refine ⟨g1, fun j p hj _ => ⟨?_, g2 j p hj⟩, fun _ _ _ he => by cases he⟩
    show (B.docs ++ [_])[j]? = _
    rw [List.getElem?_append_left (List.getElem?_eq_some_iff.mp hj).1]
    exact hj
  cases a with
  | act i a => exact hdoc fun p hp F R T tag hr => ready_copy hr hc (ha (seen B p) (view_eq hp))
  | copyTo i k newname j =>
    show Step L (some j) none B (copyTo strategy mx i k newname j B).1
    unfold copyTo
    split
    · exact hrefl _ _
    · rename_i p hp
      split
      · exact hrefl _ _
      · rename_i o ho
        split
        · exact hrefl _ _
        · rename_i t ht
          split
          · exact hrefl _ _
          · rename_i C hC
            refine hdoc (m := fun q => (withTable q C, .ok ())) fun q hq F R T tag hr => ?_
            exact ready_copied hr (table_sound h hp ho ht) rfl hc hC none
  | data i o => exact hdoc fun p hp F R T tag hr => ready_session hr (.data hr.lives o) rfl rfl rfl _
  | file i n x t now => exact hdoc fun p hp F R T tag hr => ready_session hr (.file hr.lives n x t now ha) rfl rfl rfl _
  | name i f => exact hdoc fun p hp F R T tag hr => ready_session hr (.named hr.lives f) rfl rfl rfl _
  | save i env k backup =>
    refine hdoc fun p hp F R T tag hr => ?_
    obtain ⟨f1, f2, -, f4, -⟩ := C69_frame L env k backup (s := (seen B p).text.session)
      (s' := (saveWhole L env k backup (seen B p).text.session).1) (r := (saveWhole L env k backup (seen B p).text.session).2) rfl
    exact ready_session hr (.saved hr.lives env k backup) f1 f2 f4 _
  | saveas i env k backup f =>
    refine hdoc fun p hp F R T tag hr => ?_
    obtain ⟨f1, f2, -, f4, -⟩ := C69_frame L env k backup (s := { (seen B p).text.session with docname := some f })
      (s' := (saveWhole L env k backup { (seen B p).text.session with docname := some f }).1)
      (r := (saveWhole L env k backup { (seen B p).text.session with docname := some f }).2) rfl
    exact ready_session hr (.savedAs hr.lives env k backup f) f1 f2 f4 _
  | open_ k src =>
    show Step L none none B (add (openWhole L B.fs k src B.world) B).1
    cases hs : openWhole L B.fs k src B.world with
    | error e => exact hrefl _ _
    | ok s =>
      have hr : Readable s := ha s hs
      unfold openWhole at hs
      cases ho : Package.open_ L.pkg B.fs src k.now with
      | error e => rw [ho] at hs; cases hs
      | ok fm =>
        rw [ho] at hs
        dsimp only at hs
        cases hd : detect (dlib L) B.fs fm with
        | error e => rw [hd] at hs; cases hs
        | ok mt =>
          rw [hd] at hs
          exact hadd ho hs hr
  | new k mt =>
    show Step L none none B (add (Desk.newIn L B.fs k mt B.world) B).1
    cases hs : Desk.newIn L B.fs k mt B.world with
    | error e => exact hrefl _ _
    | ok s =>
      have hr := new_readable hlaw h.once hs
      unfold Desk.newIn at hs
      cases ho : Package.open_ L.pkg B.fs (.file none) k.now with
      | error e => rw [ho] at hs; cases hs
      | ok fm =>
        rw [ho] at hs
        exact hadd ho hs hr

/-- **C91**, whole programs: a program that has no statement with a document leaves all of it as it was, whatever it does
with other documents; and a table of a document that no statement calls shows what it showed. -/
theorem C91_runs (hlaw : L.Lawful) (hc : Config strategy mx) (acts : List (Act FL)) : ∀ {B : Books}, OK L B →
    AllAllowed L strategy mx acts B → let B' := run L strategy mx acts B
    OK L B' ∧ (∀ j p, B.docs[j]? = some p → (∀ a ∈ acts, a.doc ≠ some j) → B'.docs[j]? = some p ∧ Same B B' p) ∧
    ∀ j p, view B j = some p → ∃ q, view B' j = some q ∧ TextProg.Frame p.text q.text ∧ p.text.objs <+: q.text.objs ∧
      p.tables.map TableObj.node <+: q.tables.map TableObj.node ∧
      ∀ k, k < p.tables.length → (∀ a ∈ acts, a.doc = some j → a.callee ≠ some k) → shown q k = shown p k := by
  induction acts with
  | nil =>
    intro B h _
    exact ⟨h, fun _ p hj _ => ⟨hj, .refl B p⟩, fun j p hj => ⟨p, hj, .refl _, List.prefix_refl _, List.prefix_refl _, fun _ _ _ => rfl⟩⟩
  | cons a l ih =>
    intro B h ha
    have g := C91_step (strategy := strategy) (mx := mx) hlaw hc h ha.1
    obtain ⟨i1, i2, i3⟩ := ih g.ok ha.2
    refine ⟨i1, fun j p hj hno => ?_, fun j p hj => ?_⟩
    · obtain ⟨k1, k2⟩ := g.others j p hj (hno a (by simp))
      obtain ⟨l1, l2⟩ := i2 j p k1 fun b hb => hno b (by simp [hb])
      exact ⟨l1, k2.trans l2⟩
    · by_cases hd : a.doc = some j
      · obtain ⟨q, q1, q2⟩ := g.self j p hj hd
        obtain ⟨r, r1, r2, r3, r4, r5⟩ := i3 j q q1
        refine ⟨r, r1, q2.frame.trans r2, q2.objs.trans r3, q2.tables.trans r4, fun k hk hno => ?_⟩
        have hl := q2.tables.length_le
        simp only [List.length_map] at hl
        exact (r5 k (by omega) fun b hb => hno b (by simp [hb])).trans (q2.others k hk (hno a (by simp) hd))
      · obtain ⟨p0, hp0, rfl⟩ := Option.map_eq_some_iff.mp hj
        obtain ⟨k1, k2⟩ := g.others j p0 hp0 hd
        obtain ⟨r, r1, r2, r3, r4, r5⟩ := i3 j _ (view_eq k1)
        refine ⟨r, r1, k2.frame.trans r2, r3, r4, fun k hk hno => ?_⟩
        exact (r5 k hk fun b hb => hno b (by simp [hb])).trans (k2.tables k)

/-- A program starts without documents. -/
theorem C91_start (L : XLib) (fs : Package.FS) : OK L ⟨.nil, fs, []⟩ :=
  ⟨by simp [ids], fun _ _ => False, fun i p hp => by simp at hp, fun i j p q _ hp => by simp at hp⟩

/-- **C91**, `newdoc(...)` while other documents are open: it always succeeds for the types that the library knows.  The
document is one more, without objects; its body has nothing but the two empty containers of declarations; all other documents
are the same. -/
theorem C91_new (hlaw : L.Lawful) (hc : Config strategy mx) {B : Books} (h : OK L B) (k : Clock) {mt : Str}
    (hmt : mt ∈ MIMETYPE_BODYTAG_MAP.keys) :
    ∃ B' p, exec L strategy mx (.new (F := FL) k mt) B = (B', .ok ()) ∧ OK L B' ∧ B'.fs = B.fs ∧
      B'.docs = B.docs ++ [p] ∧ view B' B.docs.length = some p ∧ p.text.session.mimetype = mt ∧
      p.text.session.docname = none ∧ p.text.objs = [] ∧ p.tables = [] ∧ Parts.Blank B'.world p.text.session.tree.body ∧
      ∀ (i : Nat) q, B.docs[i]? = some q → B'.docs[i]? = some q ∧ Same B B' q := by
  obtain ⟨s, e1, e2, e3, e4, -, e6⟩ := newIn_ok (L := L) B.fs k hmt h.once
  obtain ⟨t1, t2, t3⟩ := new_tables mt hmt
  obtain ⟨tag, ht⟩ := Option.isSome_iff_exists.mp t2
  obtain ⟨W, d, n1, -, -, -, -, n6, -⟩ := Parts.C63_new h.once ht t3
  rw [e6] at n1
  simp only [Prod.mk.injEq, Except.ok.injEq] at n1
  obtain ⟨rfl, rfl⟩ := n1
  have hex : exec L strategy mx (.new (F := FL) k mt) B = (⟨s.world, s.w.fs, B.docs ++ [⟨⟨s, []⟩, []⟩]⟩, .ok ()) := by
    show add (Desk.newIn L B.fs k mt B.world) B = _
    rw [e1]; rfl
  have g := C91_step (strategy := strategy) (mx := mx) hlaw hc h (a := .new (F := FL) k mt) trivial
  rw [hex] at g
  refine ⟨_, ⟨⟨s, []⟩, []⟩, hex, g.ok, e3, rfl, ?_, e2, e4, rfl, rfl, n6, fun i q hq => g.others i q hq (by simp [Act.doc])⟩
  exact view_eq (p := ⟨⟨s, []⟩, []⟩) (by simp)

/-! ## Copies for other documents -/

theorem state_inv {B : Books} {i k : Nat} {p : Mix.Prog} {S : Tbl.TState} (hp : view B i = some p)
    (hS : stateOf p.sheets k = some S) : ∃ p0 o t, B.docs[i]? = some p0 ∧ p0.tables[k]? = some o ∧ find o.node B.world = some t ∧
      S = tableState B.world o t := by
  obtain ⟨p0, hp0, rfl⟩ := Option.map_eq_some_iff.mp hp
  unfold stateOf at hS
  obtain ⟨o, ho, hS⟩ := Option.bind_eq_some_iff.mp hS
  obtain ⟨t, ht, rfl⟩ := Option.map_eq_some_iff.mp hS
  exact ⟨p0, o, t, hp0, ho, ht, rfl⟩

theorem copyTo_eq {B : Books} {i k : Nat} {p : Mix.Prog} {S : Tbl.TState} (hp : view B i = some p)
    (hS : stateOf p.sheets k = some S) (newname : Option Str) (j : Nat) :
    exec L strategy mx (.copyTo (F := FL) i k newname j) B = match Tbl.copyTable strategy mx newname S with
      | .error e => (B, .error e)
      | .ok c => onDoc j (fun q => (withTable q c, .ok ())) B := by
  obtain ⟨p0, o, t, hp0, ho, ht, rfl⟩ := state_inv hp hS
  show copyTo strategy mx i k newname j B = _
  unfold copyTo
  simp only [hp0, ho, ht]
  cases Tbl.copyTable strategy mx newname (tableState B.world o t) <;> rfl

/-- **C91**, `t.copy(newname)` for another document.  Without a usable name it is refused (TypeError or ValueError), and nothing
happens.  Otherwise the copy is a new table object of the other document with all that is in the table, in no other
element; nothing else changes. -/
theorem C91_copyTo {B : Books} (h : OK L B) (hc : Config strategy mx) {i k j : Nat} {p q : Mix.Prog} {S : Tbl.TState}
    (hp : view B i = some p) (hS : stateOf p.sheets k = some S) (hq : view B j = some q) (newname : Option Str) :
    match nameFor newname S with
    | none => exec L strategy mx (.copyTo (F := FL) i k newname j) B = (B, .error .TypeError)
    | some nm => if Tbl.normalizeName nm = [] then
        exec L strategy mx (.copyTo (F := FL) i k newname j) B = (B, .error .ValueError) else
      ∃ B' q' C, exec L strategy mx (.copyTo (F := FL) i k newname j) B = (B', .ok ()) ∧ view B' j = some q' ∧
        stateOf q'.sheets q.tables.length = some C ∧ CopyOf S C ∧ Tbl.name C = some (Tbl.normalizeName nm) ∧
        (∀ l, l < q.tables.length → shown q' l = shown q l) ∧
        q'.text.objs = q.text.objs ++ [C.node.id] ∧ q'.tables.length = q.tables.length + 1 ∧
        C.node.id ∈ Lxml.roots B'.world ∧ (∀ x ∈ ids (single (C.node, C.kids)), x ∉ ids B.world) ∧
        (∀ n t, find n B.world = some t → find n B'.world = some t) := by
  have hex := copyTo_eq (L := L) (FL := FL) (strategy := strategy) (mx := mx) hp hS newname j
  obtain ⟨p0, o, t, hp0, ho, ht, rfl⟩ := state_inv hp hS
  have hs := table_sound h hp0 ho ht
  have href := copyTable_refused hs hc newname
  cases hn : nameFor newname (tableState B.world o t) with
  | none =>
    rw [hn] at href
    simp only at href ⊢
    rw [hex, href]
  | some nm =>
    rw [hn] at href
    simp only at href ⊢
    split
    · rename_i hv
      rw [hex, href hv]
    · rename_i hv
      obtain ⟨C, e1, e2, e3, e4, e5, e6⟩ := copyOf_sound hs hc hn hv
      obtain ⟨q0, hq0, rfl⟩ := Option.map_eq_some_iff.mp hq
      obtain ⟨F, hF, -⟩ := h.docs
      obtain ⟨R, T, tag, hr, -⟩ := hF j q0 hq0
      obtain ⟨-, a2, a3, a4⟩ := hr.made (S := C) e2 e3 e4
      rw [hex, e1]
      simp only [onDoc_some hq0]
      refine ⟨_, withTable (seen B q0) C, { C with fresh := Parts.newId (withTable (seen B q0) C).world }, rfl,
        view_eq (p := withTable (seen B q0) C) ?_, ?_, ⟨e5.content, e5.attrs, e5.nrows, e5.ncols, e5.infos, e5.cells⟩, e6, a4,
        rfl, by simp [withTable], ?_, ?_, a3⟩
      · show (B.docs.set j _)[j]? = _
        rw [List.getElem?_set_self (List.getElem?_eq_some_iff.mp hq0).1]
      · unfold stateOf
        have h1 : (withTable (seen B q0) C).sheets.tables[(seen B q0).tables.length]? = some ⟨C.node.id, C.rows, C.cols⟩ := by
          show ((seen B q0).tables ++ [_])[(seen B q0).tables.length]? = _
          simp
        rw [h1]
        show (Forest.find C.node.id (made (seen B q0) C).world).map _ = _
        rw [a2]; rfl
      · show C.node.id ∈ Lxml.roots (B.world ++ single (C.node, C.kids))
        simp [Lxml.roots, single, toList]
      · intro x hx hw
        have hlt := lt_newId hw
        have : Parts.newId B.world ≤ x := by
          simp only [ids_single, List.mem_cons] at hx
          rcases hx with rfl | hx
          · exact Nat.le_of_eq e3.symm
          · exact Nat.le_of_lt (e4 x hx)
        omega

/-! ## What the cells read -/

/-- The calls on cells of the `k`-th table of the document `i`, in their order -/
def writesIn (i k : Nat) : List (Act FL) → List ((Int × Int) × CellCall FL)
  | [] => []
  | .act i' a :: l => (if i' = i then writesOf k [a] else []) ++ writesIn i k l
  | _ :: l => writesIn i k l

/-- The statement calls no method of the `k`-th table of the document `i` but those of its cells. -/
def OnlyCells (i k : Nat) : Act FL → Prop
  | .act i' a => i' = i → Mix.OnlyCells k a
  | _ => True

/-- **C91**, the cells of a table of a document after a program with any number of documents: each is what a single cell is
after the calls that address it in this table of this document. -/
theorem C91_cells (hlaw : L.Lawful) (hc : Config strategy mx) {i k : Nat} (acts : List (Act FL))
    (hw : ∀ a ∈ acts, OnlyCells i k a) : ∀ {B : Books} {p : Mix.Prog} {S : Tbl.TState}, OK L B →
    AllAllowed L strategy mx acts B → view B i = some p → stateOf p.sheets k = some S →
    ∃ p' S', OK L (run L strategy mx acts B) ∧ view (run L strategy mx acts B) i = some p' ∧
      stateOf p'.sheets k = some S' ∧ Tbl.nrows S' = Tbl.nrows S ∧ Tbl.ncols S' = Tbl.ncols S ∧
      S'.node.attrs = S.node.attrs ∧ S'.node.id = S.node.id ∧
      ∀ r c t, docCell S.kids r c = some t → ∃ t', docCell S'.kids r c = some t' ∧
        Sim (callAll (callsOn (Tbl.nrows S) (Tbl.ncols S) r c (writesIn i k acts)) t) t' := by
  induction acts with
  | nil => intro B p S h _ hp hS; exact ⟨p, S, h, hp, hS, rfl, rfl, rfl, rfl, fun r c t ht => ⟨t, ht, .refl t⟩⟩
  | cons a l ih =>
    intro B p S h ha hp hS
    have ih := @ih fun b hb => hw b (by simp [hb])
    have g := C91_step (strategy := strategy) (mx := mx) hlaw hc h ha.1
    -- a statement that is no call on the table
    have quiet : ∀ {q : Mix.Prog}, view (exec L strategy mx a B).1 i = some q → shown q k = shown p k →
        writesIn i k (a :: l) = writesIn i k l → ∃ p' S', OK L (run L strategy mx (a :: l) B) ∧
        view (run L strategy mx (a :: l) B) i = some p' ∧
        stateOf p'.sheets k = some S' ∧ Tbl.nrows S' = Tbl.nrows S ∧ Tbl.ncols S' = Tbl.ncols S ∧
        S'.node.attrs = S.node.attrs ∧ S'.node.id = S.node.id ∧
        ∀ r c t, docCell S.kids r c = some t → ∃ t', docCell S'.kids r c = some t' ∧
          Sim (callAll (callsOn (Tbl.nrows S) (Tbl.ncols S) r c (writesIn i k (a :: l))) t) t' := by
      intro q hq hsh hwr
      obtain ⟨S1, s1, s2, s3, s4, s5, s6⟩ := shown_state hsh hS
      obtain ⟨p', S', c0, c1, c2, c3, c4, c5, c6, c7⟩ := ih g.ok ha.2 hq s1
      have hr1 : Tbl.nrows S1 = Tbl.nrows S := by unfold Tbl.nrows; rw [s3]
      have hn1 : Tbl.ncols S1 = Tbl.ncols S := by unfold Tbl.ncols Tbl.kidsOf; rw [s2, s3]
      refine ⟨p', S', c0, c1, c2, c3.trans hr1, c4.trans hn1, c5.trans s5, c6.trans s6, ?_⟩
      rw [s2, hr1, hn1, ← hwr] at c7
      exact c7
    have hk : k < p.tables.length := ((C91_sound h hp).sound hS).2
    by_cases hd : a.doc = some i
    · obtain ⟨q, q1, q2⟩ := g.self i p hp hd
      by_cases hact : ∃ b, a = .act i b
      · obtain ⟨b, rfl⟩ := hact
        have hb : ∀ x ∈ [b], Mix.OnlyCells k x := by
          intro x hx
          rw [List.mem_singleton] at hx
          subst hx
          exact hw (.act i x) (by simp) rfl
        obtain ⟨p0, hp0, rfl⟩ := Option.map_eq_some_iff.mp hp
        obtain ⟨S1, -, b2, b3, b4, b5, b6, b7⟩ := C90_cells (L := L) hc [b] hb (C91_sound h hp)
          ⟨ha.1 (seen B p0) hp, trivial⟩ hS
        have hq : q = (execCopy strategy mx b (seen B p0)).1 := by
          have e : exec L strategy mx (.act i b) B = onDoc i (execCopy strategy mx b) B := rfl
          rw [e, onDoc_some hp0, view_eq (p := (execCopy strategy mx b (seen B p0)).1) (by
            show (B.docs.set i _)[i]? = _
            rw [List.getElem?_set_self (List.getElem?_eq_some_iff.mp hp0).1])] at q1
          exact (Option.some.inj q1).symm
        subst hq
        obtain ⟨p', S', c0, c1, c2, c3, c4, c5, c6, c7⟩ := ih g.ok ha.2 q1 b2
        refine ⟨p', S', c0, c1, c2, c3.trans b3, c4.trans b4, c5.trans b5, c6.trans b6, fun r c t ht => ?_⟩
        obtain ⟨t1, d1, d2⟩ := b7 r c t ht
        obtain ⟨t2, d3, d4⟩ := c7 r c t1 d1
        refine ⟨t2, d3, ?_⟩
        have hwr : writesIn i k (.act i b :: l) = writesOf k [b] ++ writesIn i k l := by simp [writesIn]
        rw [hwr]
        rw [b3, b4] at d4
        rw [callsOn_append]
        unfold callAll at d2 ⊢
        rw [List.foldl_append]
        exact (callAll_sim _ d2).trans d4
      · refine quiet q1 (q2.others k hk ?_) ?_
        · cases a with
          | act i' b => cases hd; exact absurd ⟨b, rfl⟩ hact
          | _ => simp [Act.callee]
        · cases a with
          | act i' b => cases hd; exact absurd ⟨b, rfl⟩ hact
          | _ => rfl
    · obtain ⟨p0, hp0, rfl⟩ := Option.map_eq_some_iff.mp hp
      obtain ⟨k1, k2⟩ := g.others i p0 hp0 hd
      refine quiet (view_eq k1) (k2.tables k) ?_
      cases a with
      | act i' b =>
        have : i' ≠ i := fun e => hd (by rw [e]; rfl)
        simp [writesIn, this]
      | _ => rfl

/-- **C91**, a table and its copy in another document are independent.  A table of the document `i` is copied for the document
`j`, and then a program writes into the cells of both, and does anything else with all documents.  Each cell of the table,
and each cell of the copy, is what the cell of the table would be after the calls on the one and on the other. -/
theorem C91_apart (hlaw : L.Lawful) (hc : Config strategy mx) {B : Books} (h : OK L B) {i k j : Nat} {p q : Mix.Prog}
    {S : Tbl.TState} (hp : view B i = some p) (hS : stateOf p.sheets k = some S) (hq : view B j = some q)
    {newname : Option Str} {nm : Str} (hn : nameFor newname S = some nm) (hv : Tbl.normalizeName nm ≠ [])
    {acts : List (Act FL)} (hi : ∀ a ∈ acts, OnlyCells i k a) (hj : ∀ a ∈ acts, OnlyCells j q.tables.length a)
    (ha : AllAllowed L strategy mx acts (exec L strategy mx (.copyTo (F := FL) i k newname j) B).1) :
    let B' := run L strategy mx (.copyTo i k newname j :: acts) B
    ∃ p' q' X Y, OK L B' ∧ view B' i = some p' ∧ view B' j = some q' ∧ stateOf p'.sheets k = some X ∧
      stateOf q'.sheets q.tables.length = some Y ∧ X.node.id ≠ Y.node.id ∧ Tbl.name X = Tbl.name S ∧
      Tbl.name Y = some (Tbl.normalizeName nm) ∧ Tbl.nrows X = Tbl.nrows S ∧ Tbl.ncols X = Tbl.ncols S ∧
      Tbl.nrows Y = Tbl.nrows S ∧ Tbl.ncols Y = Tbl.ncols S ∧
      ∀ r c t, docCell S.kids r c = some t → ∃ u v, docCell X.kids r c = some u ∧ docCell Y.kids r c = some v ∧
        Sim (callAll (callsOn (Tbl.nrows S) (Tbl.ncols S) r c (writesIn i k acts)) t) u ∧
        Sim (callAll (callsOn (Tbl.nrows S) (Tbl.ncols S) r c (writesIn j q.tables.length acts)) t) v := by
  intro B'
  have hcp := C91_copyTo (L := L) (FL := FL) h hc hp hS hq newname
  rw [hn] at hcp
  simp only [if_neg hv] at hcp
  obtain ⟨B1, q1, C, e1, e2, e3, e4, e5, e6, -, -, -, e10, -⟩ := hcp
  have hal : AllAllowed L strategy mx (.copyTo (F := FL) i k newname j :: acts) B := ⟨trivial, ha⟩
  have hone := C91_step (strategy := strategy) (mx := mx) hlaw hc h (a := .copyTo (F := FL) i k newname j) trivial
  obtain ⟨p', X, x0, x1, x2, x3, x4, x5, x6, x7⟩ := C91_cells hlaw hc (i := i) (k := k) (.copyTo i k newname j :: acts)
    (fun a ha' => by
      rcases List.mem_cons.mp ha' with rfl | g
      · trivial
      · exact hi a g) h hal hp hS
  rw [e1] at ha hone
  obtain ⟨q', Y, -, y1, y2, y3, y4, y5, y6, y7⟩ := C91_cells hlaw hc acts hj hone.ok ha e2 e3
  have hB : B' = run L strategy mx acts B1 := by
    show run L strategy mx acts (exec L strategy mx (.copyTo (F := FL) i k newname j) B).1 = _
    rw [e1]
  rw [← hB] at y1
  refine ⟨p', q', X, Y, x0, x1, y1, x2, y2, ?_, ?_, ?_, x3, x4, y3.trans e4.nrows, y4.trans e4.ncols, fun r c t ht => ?_⟩
  · rw [x6, y6]
    intro he
    refine e10 C.node.id (by simp [ids_single]) ?_
    rw [← he]
    obtain ⟨p0, o, t, -, -, ht, rfl⟩ := state_inv hp hS
    show t.1.id ∈ ids B.world
    rw [(find_mem_ids ht).1]
    exact (find_mem_ids ht).2
  · unfold Tbl.name Elem.get; rw [x5]
  · rw [← e5]; unfold Tbl.name Elem.get; rw [y5]
  · obtain ⟨u, u1, u2⟩ := x7 r c t ht
    obtain ⟨t', t1, t2⟩ := docCell_same e4.content ht
    obtain ⟨v, v1, v2⟩ := y7 r c t' t1
    rw [e4.nrows, e4.ncols] at v2
    exact ⟨u, v, u1, v1, u2, (callAll_sim _ t2).trans v2⟩

/-! ## Saving and opening again -/

/-- **C91**, `doc.save()` and then opening the file while all documents are still open: the opened document is one more
document; its body has the same elements at the same places, and each table in it that the program had an object of shows
the size, the name and the cells of the table of that object. -/
theorem C91_reopen (FL : Cells.FloatLib) (hlaw : L.Lawful) (hc : Config strategy mx) {B : Books} (h : OK L B) {i : Nat}
    {p : Mix.Prog} (hp : view B i = some p) {env : Package.Env} {k : Clock} {backup : Bool} {B1 : Books} {p1 : Mix.Prog}
    (hs : exec L strategy mx (.save (F := FL) i env k backup) B = (B1, .ok ())) (hp1 : view B1 i = some p1)
    (hw : Writable p1.text.session) (k' : Clock) :
    ∃ f B2 r b b'', p.text.session.docname = some f ∧
      exec L strategy mx (.open_ (F := FL) k' (.file (some f))) B1 = (B2, .ok ()) ∧ OK L B2 ∧
      B2.docs.length = B1.docs.length + 1 ∧ view B2 B1.docs.length = some r ∧
      r.text.session.mimetype = p.text.session.mimetype ∧
      find p.text.session.tree.body.node B.world = some b ∧ find r.text.session.tree.body.node B2.world = some b'' ∧
      TextProg.SameBelow b b'' ∧ TablesAgain FL L p b r.text.session b'' := by
  obtain ⟨p0, hp0, rfl⟩ := Option.map_eq_some_iff.mp hp
  have g := C91_step (strategy := strategy) (mx := mx) hlaw hc h (a := .save (F := FL) i env k backup) trivial
  have hs' : onDoc i (Mix.save L env k backup) B = (B1, .ok ()) := hs
  rw [onDoc_some hp0] at hs'
  simp only [Prod.mk.injEq] at hs'
  obtain ⟨rfl, hs2⟩ := hs'
  have hp1' : p1 = (Mix.save L env k backup (seen B p0)).1 := by
    rw [view_eq (p := (Mix.save L env k backup (seen B p0)).1) (by
      show (B.docs.set i _)[i]? = _
      rw [List.getElem?_set_self (List.getElem?_eq_some_iff.mp hp0).1])] at hp1
    exact (Option.some.inj hp1).symm
  subst hp1'
  rw [hs] at g
  obtain ⟨f, s'', b, b'', e1, e2, e3, e4, e5, e6, e7, e8⟩ := C88_reopen FL hlaw (C91_sound h hp)
    (p' := (Mix.save L env k backup (seen B p0)).1) (Prod.ext rfl hs2) hw k' (W0 := (Mix.save L env k backup (seen B p0)).1.text.session.world)
    g.ok.once
  have hopen := C91_step (strategy := strategy) (mx := mx) hlaw hc g.ok (a := .open_ (F := FL) k' (.file (some f)))
    (fun s hs => by
      have hs : openWhole L _ k' _ _ = .ok s := hs
      rw [e2] at hs
      cases hs
      exact e3.readable)
  have hex : exec L strategy mx (.open_ (F := FL) k' (.file (some f)))
      ⟨(Mix.save L env k backup (seen B p0)).1.text.session.world, (Mix.save L env k backup (seen B p0)).1.text.session.w.fs,
        B.docs.set i (Mix.save L env k backup (seen B p0)).1⟩ = (⟨s''.world, s''.w.fs, B.docs.set i
        (Mix.save L env k backup (seen B p0)).1 ++ [⟨⟨s'', []⟩, []⟩]⟩, .ok ()) := by
    show add (openWhole L _ k' _ _) _ = _
    rw [e2]; rfl
  rw [hex] at hopen
  refine ⟨f, _, ⟨⟨s'', []⟩, []⟩, b, b'', e1, hex, hopen.ok, by simp, view_eq (p := ⟨⟨s'', []⟩, []⟩) ?_, e4, e5, e6, e7, e8⟩
  show (B.docs.set i _ ++ [_])[(B.docs.set i _).length]? = _
  simp

end Verif.Books
