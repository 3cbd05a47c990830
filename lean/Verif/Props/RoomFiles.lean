import Verif.Props.RoomMoved
/-! # C87: the files of a program that moves objects between documents -/
namespace Verif.Room
open Verif Verif.Lxml Forest Verif.Whole Verif.Document Verif.Package
open Verif.Desk (Act newIn whole_leaves packaged_fs bytes_same source_same)
set_option linter.unusedSimpArgs false

variable {L : XLib} {pick : Nat → List Nat → Nat}

/-- The file that a statement saves a document to -/
def target (R : Room) : Act → Option Path
  | .save i .. => R.docs[i]?.bind fun s => s.docname
  | .saveas i _ _ _ f => R.docs[i]?.map fun _ => f
  | _ => none

/-- **C87**, files: a statement changes no existing file but the one that it saves a document to, and its backup. -/
theorem C87_files (hpick : ∀ k l, pick k l ∉ l) {R : Room} (h : OK L R) {a : Act} (ha : Allowed R a) {q : Path}
    (hq : R.fs q ≠ none) (ht : ∀ f, target R a = some f → q ≠ f ∧ q ≠ f ++ ".bak".toList) :
    (exec L pick a R).1.fs q = R.fs q := by
  have hdoc : ∀ {i : Nat} {m : Py PageProg.Prog Unit},
      (∀ s, R.docs[i]? = some s → (m (seen R s)).1.text.session.w.fs q = R.fs q) → (onDoc i m R).1.fs q = R.fs q := by
    intro i m hm
    cases hi : R.docs[i]? with
    | none => rw [onDoc_none hi]
    | some s => rw [onDoc_some hi]; exact hm s hi
  cases a with
  | act i a =>
    refine hdoc fun s hi => ?_
    obtain ⟨F, hF, -⟩ := h.docs
    obtain ⟨tag, h1, h2, h3⟩ := hF i s hi
    have hk := PageProg.exec_keeps hpick (p := seen R s) (F := F i) (tag := tag) ⟨h2.kept, h3⟩ h.inv (ha s hi)
    rw [hk.acts.session]; rfl
  | data i o => exact hdoc fun s hi => rfl
  | file i n x t now => exact hdoc fun s hi => rfl
  | name i f => exact hdoc fun s hi => rfl
  | save i env k backup =>
    refine hdoc fun s hi => ?_
    exact whole_leaves L env k backup (s := put R s) hq fun f hf => ht f (by
      show R.docs[i]?.bind _ = _
      rw [hi]; exact hf)
  | saveas i env k backup f =>
    refine hdoc fun s hi => ?_
    refine whole_leaves L env k backup (s := { put R s with docname := some f }) hq fun g hg => ht g ?_
    show R.docs[i]?.map _ = _
    rw [hi]; exact hg
  | open_ k src =>
    show (add (openWhole L R.fs k src R.world) R).1.fs q = _
    cases hs : openWhole L R.fs k src R.world with
    | error e => rfl
    | ok s =>
      show s.w.fs q = _
      unfold openWhole at hs
      split at hs
      · cases hs
      · split at hs
        · cases hs
        · rw [packaged_fs hs]
  | new k mt =>
    show (add (newIn L R.fs k mt R.world) R).1.fs q = _
    cases hs : newIn L R.fs k mt R.world with
    | error e => rfl
    | ok s =>
      show s.w.fs q = _
      unfold newIn at hs
      split at hs
      · cases hs
      · rw [packaged_fs hs]

/-- No statement of the program saves a document to this file or to a file whose backup this is. -/
def Spares (L : XLib) (pick : Nat → List Nat → Nat) (q : Path) : Room → List Act → Prop
  | _, [] => True
  | R, a :: as => (∀ f, target R a = some f → q ≠ f ∧ q ≠ f ++ ".bak".toList) ∧ Spares L pick q (exec L pick a R).1 as

theorem files_runs (hlaw : L.Lawful) (hpick : ∀ k l, pick k l ∉ l) {R R' : Room} {as : List Act} (h : OK L R)
    (hr : Runs L pick R as R') {q : Path} (hq : R.fs q ≠ none) (hs : Spares L pick q R as) : R'.fs q = R.fs q := by
  induction hr with
  | done R => rfl
  | act a ha _ ih =>
    have h1 := C87_files hpick h ha hq hs.1
    rw [ih (C87_step hlaw hpick h ha).1 (by rw [h1]; exact hq) hs.2, h1]

/-- No statement of the program is one with the document number `j`, and none uses an object that is in a tree of this
document at that time. -/
def Misses (L : XLib) (pick : Nat → List Nat → Nat) (j : Nat) (d : Parts.DocTree) : Room → List Act → Prop
  | _, [] => True
  | R, a :: as => (a.doc ≠ some j ∧ ∀ k ∈ objsOf a, ∀ n, R.objs[k]? = some n → ∀ r ∈ [d.styles.root, d.content.root],
      ∀ t, find r R.world = some t → n ∉ ids (single t)) ∧ Misses L pick j d (exec L pick a R).1 as

/-- **C87**, whole programs: a program that has no statement with a document and does not use an object that is in it leaves
all of the document as it was. -/
theorem C87_misses (hlaw : L.Lawful) (hpick : ∀ k l, pick k l ∉ l) {R R' : Room} {as : List Act} (h : OK L R)
    (hr : Runs L pick R as R') {j : Nat} {s : Session} (hj : R.docs[j]? = some s) (hm : Misses L pick j s.tree R as) :
    R'.docs[j]? = some s ∧ ∀ r ∈ [s.tree.styles.root, s.tree.content.root], find r R'.world = find r R.world := by
  induction hr with
  | done R => exact ⟨hj, fun _ _ => rfl⟩
  | @act R R' as a ha _ ih =>
    obtain ⟨⟨h1, h2⟩, h3⟩ := hm
    obtain ⟨g1, g2, -⟩ := C87_step hlaw hpick h ha
    obtain ⟨i1, i2⟩ := ih g1 (g2 j s hj h1) h3
    refine ⟨i1, fun r hrr => (i2 r hrr).trans ?_⟩
    obtain ⟨F, hF, hA⟩ := h.docs
    obtain ⟨tag, -, k2, -⟩ := hF j s hj
    refine (C87_away hlaw hpick h ha (k2.roots r hrr) ⟨fun i t hi hti => ?_, fun k hk n hn t ht => h2 k hk n hn r hrr t ht⟩).1
    exact (hA j i s t (fun e => h1 (by rw [hi, e])) hj hti).2 r hrr

/-- **C87**: such a program does not change what the document writes, if no document is saved to the file that it was opened
from (or to a file whose backup this is). -/
theorem C87_alone (hlaw : L.Lawful) (hpick : ∀ k l, pick k l ∉ l) {R R' : Room} {as : List Act} (h : OK L R)
    (hr : Runs L pick R as R') {j : Nat} {s : Session} (hj : R.docs[j]? = some s) (hm : Misses L pick j s.tree R as)
    (hsrc : ∀ q, s.w.fm.source = .file (some q) → R.fs q ≠ none ∧ Spares L pick q R as) (sink : Member → Option Exc) :
    (tobytesWhole L sink (put R' s)).2 = (tobytesWhole L sink (put R s)).2 := by
  refine bytes_same (C87_misses hlaw hpick h hr hj hm).2 (source_same fun q hq => ?_) sink
  obtain ⟨h1, h2⟩ := hsrc q hq
  exact files_runs hlaw hpick h hr h1 h2

/-- **C87**, saving: wherever its objects come from, a document that has been saved and is opened again is the one that was
saved, as far as a file can tell. -/
theorem C87_reopen (hlaw : L.Lawful) (hpick : ∀ k l, pick k l ∉ l) {R R' : Room} {as : List Act} (h : OK L R)
    (hr : Runs L pick R as R') {j : Nat} {s : Session} (hj : R'.docs[j]? = some s) {env : Env} {k : Clock} {backup : Bool}
    {s' : Session} (hsave : saveWhole L env k backup (put R' s) = (s', .ok ())) (hw : Writable s') (k' : Clock) :
    ∃ f s'', s'.docname = some f ∧ openWhole L s'.w.fs k' (.file (some f)) R'.world = .ok s'' ∧ Reopened L s' s'' ∧
      Told (put R' s) s.tree.styles.root s'' s''.tree.styles.root ∧
      Told (put R' s) s.tree.content.root s'' s''.tree.content.root := by
  obtain ⟨h1, -⟩ := C87_runs hlaw hpick h hr
  obtain ⟨f, s'', e1, e2, e3, -⟩ := C69_reopen hlaw (h1.lives j s hj) hsave hw k' (W0 := R'.world) h1.once
  obtain ⟨f1, f2, -⟩ := C69_frame L env k backup hsave
  have f1 : s'.world = R'.world := f1
  have f2 : s'.tree = s.tree := f2
  refine ⟨f, s'', e1, e2, e3, ?_, ?_⟩
  · obtain ⟨t, t', a, b, c⟩ := e3.styles
    rw [f1, f2] at a
    exact ⟨t, t', a, b, c⟩
  · obtain ⟨t, t', a, b, c⟩ := e3.content
    rw [f1, f2] at a
    exact ⟨t, t', a, b, c⟩

end Verif.Room
