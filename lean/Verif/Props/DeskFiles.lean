import Verif.Props.Desk
import Verif.Props.WholeBytes
/-! # C86: the files of documents that are open at the same time -/
namespace Verif.Desk
open Verif Verif.Lxml Forest Verif.Whole Verif.Document Verif.Package
open Verif.TextProg (Kept Loose Step Fits)
set_option linter.unusedSimpArgs false

variable {L : XLib} {pick : Nat → List Nat → Nat}

/-! ## Files that saving leaves as they are -/

/-- The file `q` is left as it is. -/
def Leaves {α : Type} (q : Path) (m : Py Package.W α) : Prop := ∀ w, (m w).1.fs q = w.fs q

theorem Leaves.at {α : Type} {q : Path} {m : Py Package.W α} (h : Leaves q m) (w : Package.W) : (m w).1.fs q = w.fs q := h w

theorem Leaves.bind {α β : Type} {q : Path} {m : Py Package.W α} {g : α → Py Package.W β} (hm : Leaves q m)
    (hg : ∀ a, Leaves q (g a)) : Leaves q (m >>= g) := by
  intro w
  rw [Py.bind_def]
  have h1 := hm w
  generalize m w = r at h1
  obtain ⟨w1, r⟩ := r
  cases r with
  | error e => exact h1
  | ok a => exact (hg a w1).trans h1

theorem Leaves.remove {p q : Path} (h : q ≠ p) : Leaves q (osRemove p) := by
  intro w
  unfold osRemove
  split
  · rfl
  · exact if_neg h

theorem Leaves.rename {a b q : Path} (ha : q ≠ a) (hb : q ≠ b) : Leaves q (osRename a b) := by
  intro w
  unfold osRename
  split
  · rfl
  · show (if q = b then _ else if q = a then _ else _) = _
    rw [if_neg hb, if_neg ha]

theorem Leaves.pure {α : Type} (q : Path) (a : α) : Leaves q (Pure.pure a : Py Package.W α) := fun _ => rfl

theorem Leaves.ite {q : Path} {c : Prop} [Decidable c] {m g : Py Package.W Unit} (hm : Leaves q m) (hg : Leaves q g) :
    Leaves q (if c then m else g) := by
  split
  · exact hm
  · exact hg

theorem pieces_leave {p q : Path} (h : q ≠ p) (bs : List Bytes) (w : Package.W) : (writePieces p bs w).fs q = w.fs q := by
  induction bs generalizing w with
  | nil => rfl
  | cons b r ih =>
    show (writePieces p r (w.change _)).fs q = _
    rw [ih]
    exact if_neg h

/-- Saving changes no existing file but the file saved to and its backup, whether it raises or not. -/
theorem save_leaves (lib : Lib) (env : Env) {f q : Path} (backup : Bool) {w : Package.W} (hq : w.fs q ≠ none) (hf : q ≠ f)
    (hb : q ≠ f ++ ".bak".toList) : (Package.save lib env f backup w).1.fs q = w.fs q := by
  unfold Package.save
  cases ht : tmpfilename env.names f w.fs with
  | none => rfl
  | some tmp =>
    dsimp only
    have hqt : q ≠ tmp := by
      rintro rfl
      exact hq (tmp_spec ht).1
    rcases hz : tozip lib env.sink (writePieces tmp ([] :: env.pieces) w).fs (w.fm, []) with ⟨⟨fm, z⟩, r⟩
    have h0 := pieces_leave hqt ([] :: env.pieces) w
    cases r with
    | error e => exact h0
    | ok u =>
      dsimp only
      have hmod : ∀ g : Package.W → Package.W, (∀ w, (g w).fs = w.fs) → Leaves q (Py.modify g) := fun g hg w => by
        show (g w).fs q = _
        rw [hg]
      have hend : Leaves q (do
          osRename tmp f
          Py.modify fun w => { w with fm := { w.fm with source := .file (some f) } } : Py Package.W Unit) :=
        .bind (.rename hqt hf) fun _ => hmod _ fun _ => rfl
      refine Eq.trans (Leaves.at (m := ite _ _ _) ?_ _) ?_
      · refine .ite (.ite (.ite (.bind (.remove hb) fun _ => .bind (.rename hf hb) fun _ => hend)
          (.bind (.rename hf hb) fun _ => hend)) (.bind (.remove hf) fun _ => hend)) hend
      · show (if q = tmp then _ else _) = _
        rw [if_neg hqt, h0]

theorem stream_leaves (lib : Lib) (env : Env) {f q : Path} {w : Package.W} (hf : q ≠ f) :
    (streamSave lib env f w).1.fs q = w.fs q := by
  unfold streamSave
  dsimp only
  rcases hz : Package.tobytes lib env.sink (writePieces f [[]] w).fs (writePieces f [[]] w).fm with ⟨fm, r⟩
  cases r with
  | error e => exact pieces_leave hf [[]] w
  | ok z =>
    show (if q = f then _ else _) = _
    rw [if_neg hf, pieces_leave hf, ← pieces_leave hf [[]] w]

theorem whole_leaves (L : XLib) (env : Env) (k : Clock) (backup : Bool) {s : Session} {q : Path} (hq : s.w.fs q ≠ none)
    (h : ∀ f, s.docname = some f → q ≠ f ∧ q ≠ f ++ ".bak".toList) :
    (saveWhole L env k backup s).1.w.fs q = s.w.fs q := by
  unfold saveWhole
  cases hd : s.docname with
  | none => rfl
  | some f =>
    dsimp only
    rw [touch_inc]
    obtain ⟨h1, h2⟩ := h f hd
    rcases hm : Meta.save k.time k.generator (.ok ()) s.meta_.m with ⟨m, r⟩
    cases r with
    | error e => rfl
    | ok u =>
      dsimp only
      obtain ⟨e1, e2, -⟩ := sync_frame (syncOps L s.world { s.meta_ with m := m } s.tree) s.w
      unfold routine
      split
      · rw [save_leaves L.pkg env backup (by rw [e1]; exact hq) h1 h2, e1]
      · rw [stream_leaves L.pkg env h1, e1]

/-- The file that a statement saves a document to -/
def Act.target (D : Desk) : Act → Option Path
  | .save i .. => (view D i).bind fun p => p.session.docname
  | .saveas i _ _ _ f => (view D i).map fun _ => f
  | _ => none

theorem packaged_fs {fs : FS} {k : Clock} {fm : FM} {mt : Option Str} {W : World} {s : Session}
    (h : packagedWhole L fs k fm mt W = .ok s) : s.w.fs = fs := by
  obtain ⟨doc, so, co, W1, W2, W3, tree, -, -, -, -, rfl⟩ := packagedWhole_inv h
  rfl

/-- **C86**, files: a statement changes no existing file but the one that it saves a document to, and its backup. -/
theorem C86_files (hpick : ∀ k l, pick k l ∉ l) {D : Desk} (h : OK L D) {a : Act} (ha : Allowed D a) {q : Path}
    (hq : D.fs q ≠ none) (ht : ∀ f, a.target D = some f → q ≠ f ∧ q ≠ f ++ ".bak".toList) :
    (exec L pick a D).1.fs q = D.fs q := by
  have hdoc : ∀ {i : Nat} {m : Py PageProg.Prog Unit},
      (∀ p, D.docs[i]? = some p → (m ⟨seen D p, D.heap⟩).1.text.session.w.fs q = D.fs q) → (onDoc i m D).1.fs q = D.fs q := by
    intro i m hm
    cases hp : D.docs[i]? with
    | none => rw [onDoc_none hp]
    | some p => rw [onDoc_some hp]; exact hm p hp
  have hview : ∀ {i : Nat} {p : TextProg.Prog}, D.docs[i]? = some p → view D i = some (seen D p) := fun hp => by
    unfold view; rw [hp]; rfl
  cases a with
  | act i a =>
    refine hdoc fun p hp => ?_
    have ha' : PageProg.Allowed ⟨seen D p, D.heap⟩ a := ha (seen D p) (hview hp)
    obtain ⟨F, hF, -⟩ := h.docs
    obtain ⟨tag, h1, h2, h3⟩ := hF i p hp
    have hk := PageProg.exec_keeps hpick (p := ⟨seen D p, D.heap⟩) (F := F i) (tag := tag) ⟨h2.kept, h3⟩ h.inv ha'
    rw [hk.acts.session]; rfl
  | data i o => exact hdoc fun p hp => rfl
  | file i n x t now => exact hdoc fun p hp => rfl
  | name i f => exact hdoc fun p hp => rfl
  | save i env k backup =>
    refine hdoc fun p hp => ?_
    exact whole_leaves L env k backup (s := (seen D p).session) hq fun f hf => ht f (by
      show (view D i).bind _ = _
      rw [hview hp]; exact hf)
  | saveas i env k backup f =>
    refine hdoc fun p hp => ?_
    refine whole_leaves L env k backup (s := { (seen D p).session with docname := some f }) hq fun g hg => ht g ?_
    show (view D i).map _ = _
    rw [hview hp]; exact hg
  | open_ k src =>
    show (add (openWhole L D.fs k src D.world) D).1.fs q = _
    cases hs : openWhole L D.fs k src D.world with
    | error e => rfl
    | ok s =>
      show s.w.fs q = _
      unfold openWhole at hs
      split at hs
      · cases hs
      · split at hs
        · cases hs
        · rw [packaged_fs hs]
  | new k mt =>
    show (add (newIn L D.fs k mt D.world) D).1.fs q = _
    cases hs : newIn L D.fs k mt D.world with
    | error e => rfl
    | ok s =>
      show s.w.fs q = _
      unfold newIn at hs
      split at hs
      · cases hs
      · rw [packaged_fs hs]

/-- No statement of the program saves a document to this file or to a file whose backup this is. -/
def Spares (L : XLib) (pick : Nat → List Nat → Nat) (q : Path) : Desk → List Act → Prop
  | _, [] => True
  | D, a :: as => (∀ f, a.target D = some f → q ≠ f ∧ q ≠ f ++ ".bak".toList) ∧ Spares L pick q (exec L pick a D).1 as

theorem files_runs (hlaw : L.Lawful) (hpick : ∀ k l, pick k l ∉ l) {D D' : Desk} {as : List Act} (h : OK L D)
    (hr : Runs L pick D as D') {q : Path} (hq : D.fs q ≠ none) (hs : Spares L pick q D as) : D'.fs q = D.fs q := by
  induction hr with
  | done D => rfl
  | act a ha _ ih =>
    have h1 := C86_files hpick h ha hq hs.1
    rw [ih (C86_step hlaw hpick h ha).1 (by rw [h1]; exact hq) hs.2, h1]

/-! ## What a document writes -/

/-- What is written depends on the files by the members of the source only. -/
theorem tozip_at {fs fs' : FS} {fm : FM} (h : srcZip fs' fm = srcZip fs fm) (lib : Lib) (sink : Member → Option Exc) (z : Zip) :
    tozip lib sink fs' (fm, z) = tozip lib sink fs (fm, z) := by
  unfold tozip
  cases hf : fm.dir.get MIMETYPE with
  | none => rfl
  | some f =>
    dsimp only
    rw [Py.bind_def, Py.bind_def]
    have hf1 := writePart_fm (lib := lib) (sink := sink) MIMETYPE { f with stored := true }
      (({ fm with dir := fm.dir.del MIMETYPE }, z) : FM × Zip)
    generalize writePart lib sink MIMETYPE { f with stored := true }
      (({ fm with dir := fm.dir.del MIMETYPE }, z) : FM × Zip) = r1 at hf1
    obtain ⟨s1, o1⟩ := r1
    cases o1 with
    | error e => rfl
    | ok u =>
      dsimp only at hf1 ⊢
      rw [Py.bind_def, Py.bind_def]
      have hf2 := writeParts_fm (lib := lib) (sink := sink) (fm.dir.del MIMETYPE) s1
      generalize writeParts lib sink (fm.dir.del MIMETYPE) s1 = r2 at hf2
      obtain ⟨s2, o2⟩ := r2
      cases o2 with
      | error e => rfl
      | ok u =>
        dsimp only at hf2 ⊢
        rw [Py.bind_def, Py.bind_def]
        simp only [Py.modify]
        unfold copyZipTo
        have hsrc : s2.1.source = fm.source := by rw [hf2, hf1]
        have hc : ∀ g : FS, srcZip g { s2.1 with dir := s2.1.dir.set MIMETYPE { f with stored := true } } = srcZip g fm :=
          fun g => Package.srcZip_congr g hsrc
        simp only [hc, h]

/-- What a document writes depends on its trees and, of the files, on the members of the source. -/
theorem bytes_same {s : Session} {W W' : World} {fs fs' : FS}
    (ht : ∀ r ∈ [s.tree.styles.root, s.tree.content.root], find r W' = find r W)
    (hsrc : srcZip fs' s.w.fm = srcZip fs s.w.fm) (sink : Member → Option Exc) :
    (tobytesWhole L sink { s with world := W', w := { s.w with fs := fs' } }).2 =
      (tobytesWhole L sink { s with world := W, w := { s.w with fs := fs } }).2 := by
  have hops : syncOps L W' s.meta_ s.tree = syncOps L W s.meta_ s.tree := by
    unfold syncOps treeBytes
    rw [ht s.tree.styles.root (by simp), ht s.tree.content.root (by simp)]
  have hsync : ∀ (ops : List (Str × Element)) (w : Package.W) (fs : FS),
      sync { w with fs := fs } ops = { sync w ops with fs := fs } := by
    intro ops
    induction ops with
    | nil => intro w fs; rfl
    | cons o r ih =>
      intro w fs
      obtain ⟨n, x⟩ := o
      unfold sync
      dsimp only
      cases w.fm.dir.get n with
      | none => exact ih _ _
      | some g => exact ih { w with fm := { w.fm with dir := w.fm.dir.set n { g with element := x } } } fs
  have hfm := sync_frame (syncOps L W s.meta_ s.tree) s.w
  unfold tobytesWhole
  dsimp only
  rw [hops, hsync _ s.w fs', hsync _ s.w fs]
  dsimp only
  unfold Package.tobytes
  rw [tozip_at (fs := fs) (fs' := fs')]
  rw [Package.srcZip_congr _ hfm.2.1, Package.srcZip_congr _ hfm.2.1, hsrc]

/-- A file that is left as it is gives the same members. -/
theorem source_same {fs fs' : FS} {fm : FM} (h : ∀ q, fm.source = .file (some q) → fs' q = fs q) :
    srcZip fs' fm = srcZip fs fm := by
  unfold srcZip
  cases hs : fm.source with
  | stream c => cases c with
    | none => rfl
    | some c => cases c <;> rfl
  | file o =>
    cases o with
    | none => rfl
    | some q =>
      dsimp only
      rw [h q hs]

/-- **C86**, what a document writes: a program that has no statement with a document and does not change the members of the
package that it was opened from does not change what `tobytes` of the document gives (which is what `save` writes, C79,
with the meta data of the moment). -/
theorem C86_bytes (hlaw : L.Lawful) (hpick : ∀ k l, pick k l ∉ l) {D D' : Desk} {as : List Act} (h : OK L D)
    (hr : Runs L pick D as D') {j : Nat} {p : TextProg.Prog} (hp : D.docs[j]? = some p) (hno : ∀ a ∈ as, a.doc ≠ some j)
    (hsrc : srcZip D'.fs p.session.w.fm = srcZip D.fs p.session.w.fm) (sink : Member → Option Exc) :
    (tobytesWhole L sink (seen D' p).session).2 = (tobytesWhole L sink (seen D p).session).2 := by
  obtain ⟨-, h2⟩ := C86_runs hlaw hpick h hr
  obtain ⟨-, hsame⟩ := h2 j p hp hno
  exact bytes_same hsame.trees hsrc sink

/-- **C86**: a document is written as if the program had done nothing with other documents, if none of these is saved to the
file that it was opened from (or to a file whose backup this is). -/
theorem C86_alone (hlaw : L.Lawful) (hpick : ∀ k l, pick k l ∉ l) {D D' : Desk} {as : List Act} (h : OK L D)
    (hr : Runs L pick D as D') {j : Nat} {p : TextProg.Prog} (hp : D.docs[j]? = some p) (hno : ∀ a ∈ as, a.doc ≠ some j)
    (hsrc : ∀ q, p.session.w.fm.source = .file (some q) → D.fs q ≠ none ∧ Spares L pick q D as)
    (sink : Member → Option Exc) :
    (tobytesWhole L sink (seen D' p).session).2 = (tobytesWhole L sink (seen D p).session).2 := by
  refine C86_bytes hlaw hpick h hr hp hno (source_same fun q hq => ?_) sink
  obtain ⟨h1, h2⟩ := hsrc q hq
  exact files_runs hlaw hpick h hr h1 h2

/-- **C86**, saving: the document that is opened from the file that has been saved to is the one that was there before the
program worked with other documents, as far as a file can tell. -/
theorem C86_reopen (hlaw : L.Lawful) (hpick : ∀ k l, pick k l ∉ l) {D D' : Desk} {as : List Act} (h : OK L D)
    (hr : Runs L pick D as D') {j : Nat} {p : TextProg.Prog} (hp : D.docs[j]? = some p) (hno : ∀ a ∈ as, a.doc ≠ some j)
    {env : Env} {k : Clock} {backup : Bool} {s' : Session}
    (hsave : saveWhole L env k backup (seen D' p).session = (s', .ok ())) (hw : Writable s') (k' : Clock) :
    ∃ f s'', s'.docname = some f ∧ openWhole L s'.w.fs k' (.file (some f)) D'.world = .ok s'' ∧ Reopened L s' s'' ∧
      Told (seen D p).session p.session.tree.styles.root s'' s''.tree.styles.root ∧
      Told (seen D p).session p.session.tree.content.root s'' s''.tree.content.root := by
  obtain ⟨h1, h2⟩ := C86_runs hlaw hpick h hr
  obtain ⟨hp', hsame⟩ := h2 j p hp hno
  obtain ⟨f, s'', e1, e2, e3, -⟩ := C69_reopen hlaw (lives_of h1 hp') hsave hw k' (W0 := D'.world) h1.once
  obtain ⟨f1, f2, -⟩ := C69_frame L env k backup hsave
  have f1 : s'.world = D'.world := f1
  have f2 : s'.tree = p.session.tree := f2
  refine ⟨f, s'', e1, e2, e3, ?_, ?_⟩
  · obtain ⟨t, t', a, b, c⟩ := e3.styles
    rw [f1, f2, hsame.trees _ (by simp)] at a
    exact ⟨t, t', a, b, c⟩
  · obtain ⟨t, t', a, b, c⟩ := e3.content
    rw [f1, f2, hsame.trees _ (by simp)] at a
    exact ⟨t, t', a, b, c⟩

end Verif.Desk
