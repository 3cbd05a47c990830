import Verif.Proofs.Desk
import Verif.Props.WholeDemo
/-!
# C86: documents that are open at the same time

A program opens documents and makes new ones, works with any of them in any order, and saves them.
-/
namespace Verif.Desk
open Verif Verif.Lxml Forest Verif.Whole Verif.Document
open Verif.TextProg (Kept Loose Step Fits)
set_option linter.unusedSimpArgs false

variable {L : XLib} {pick : Nat → List Nat → Nat}

/-! ## The programs -/

/-- One document of the desk: its trees are trees of the memory, and the nodes that are not `F` are its own. -/
def Holds (F : Nat → Prop) (W : World) (p : TextProg.Prog) : Prop :=
  ∃ tag, MIMETYPE_BODYTAG_MAP.get p.session.mimetype = some tag ∧ Held F W tag p.session.tree ∧ ∀ n ∈ p.objs, Loose F W n

/-- The documents are in order, and no two of them have a node in common. -/
structure OK (L : XLib) (D : Desk) : Prop where
  once : (ids D.world).Nodup
  inv : WrapCache.Inv D.heap
  lives : ∀ i p, view D i = some p → Lives L p.session
  docs : ∃ F : Nat → Nat → Prop, (∀ i p, D.docs[i]? = some p → Holds (F i) D.world p) ∧
    ∀ i j p q, i ≠ j → D.docs[i]? = some p → D.docs[j]? = some q →
      Apart (F i) (F j) D.world p.session.tree q.session.tree

/-- The document of a statement; opening a document and making one have none. -/
def Act.doc : Act → Option Nat
  | .act i _ | .data i _ | .file i .. | .name i _ | .save i .. | .saveas i .. => some i
  | .open_ .. | .new .. => none

/-- The statements of a program: those of C83 as there; other files do not have the names of the parts of the document. -/
def Allowed (D : Desk) : Act → Prop
  | .act i a => ∀ p, view D i = some p → PageProg.Allowed ⟨p, D.heap⟩ a
  | .file _ n _ _ _ => n ∉ [Package.MIMETYPE, MANIFEST, ROOT, META, STYLES, CONTENT]
  | _ => True

/-- A program, statement by statement; a statement that raises is passed over. -/
inductive Runs (L : XLib) (pick : Nat → List Nat → Nat) : Desk → List Act → Desk → Prop
  | done (D : Desk) : Runs L pick D [] D
  | act {D D' : Desk} {as : List Act} (a : Act) (ha : Allowed D a) (h : Runs L pick (exec L pick a D).1 as D') :
      Runs L pick D (a :: as) D'

/-- Nothing of the document has changed: neither its trees nor the trees of the objects that the program uses with it. -/
structure Same (D D' : Desk) (p : TextProg.Prog) : Prop where
  trees : ∀ r ∈ [p.session.tree.styles.root, p.session.tree.content.root], find r D'.world = find r D.world
  objs : ∀ n ∈ p.objs, find n D'.world = find n D.world

theorem Same.trans {D D' D'' : Desk} {p : TextProg.Prog} (h : Same D D' p) (g : Same D' D'' p) : Same D D'' p :=
  ⟨fun r hr => (g.trees r hr).trans (h.trees r hr), fun n hn => (g.objs n hn).trans (h.objs n hn)⟩

theorem quiet_same {D D' : Desk} {F : Nat → Prop} {p : TextProg.Prog} (h : Holds F D.world p)
    (hq : Quiet F D.world D'.world p.session.tree) : Same D D' p := by
  obtain ⟨tag, -, hh, ho⟩ := h
  exact ⟨fun r hr => hq.tree hh.kept.once hr (roots_sub (hh.roots r hr)),
    fun n hn => hq.below hh.kept (ho n hn).mem (ho n hn).free⟩

theorem quiet_holds {W W' : World} {F : Nat → Prop} {p : TextProg.Prog} (h : Holds F W p)
    (hq : Quiet F W W' p.session.tree) : Holds (later F W W') W' p := by
  obtain ⟨tag, ht, hh, ho⟩ := h
  exact ⟨tag, ht, hq.held hh, fun n hn => hq.loose (ho n hn)⟩

theorem quiet_lives {D D' : Desk} {F : Nat → Prop} {p : TextProg.Prog} (h : Holds F D.world p)
    (hl : Lives L (seen D p).session) (hq : Quiet F D.world D'.world p.session.tree) : Lives L (seen D' p).session := by
  obtain ⟨tag, ht, hh, ho⟩ := h
  exact (hl.trees (W := D'.world) (d := p.session.tree) hq.once ht (hq.refs hh.kept)).disk D'.fs

theorem lives_of {D : Desk} (h : OK L D) {i : Nat} {p : TextProg.Prog} (hp : D.docs[i]? = some p) :
    Lives L (seen D p).session := h.lives i _ (by unfold view; rw [hp]; rfl)

/-- A statement with the document number `i` -/
theorem doc_step {D : Desk} (h : OK L D) {i : Nat} {p q : TextProg.Prog} (hp : D.docs[i]? = some p)
    (hl : Lives L q.session) (ht : q.session.tree = p.session.tree) (hm : q.session.mimetype = p.session.mimetype)
    (hs : ∀ F tag, Fits F tag (seen D p) → Step F D.world q.session.world tag p.session.tree ∧
      ∀ n ∈ q.objs, Loose F q.session.world n) {H : WrapCache.Heap} (hi : WrapCache.Inv H) :
    OK L { world := q.session.world, heap := H, fs := q.session.w.fs, docs := D.docs.set i q } ∧
      ∀ j r, D.docs[j]? = some r → j ≠ i → Same D ⟨q.session.world, H, q.session.w.fs, D.docs.set i q⟩ r := by
  obtain ⟨F, hF, hA⟩ := h.docs
  obtain ⟨tag, h1, h2, h3⟩ := hF i p hp
  obtain ⟨s1, s2⟩ := hs (F i) tag ⟨h2.kept, h3⟩
  have hq : ∀ j r, D.docs[j]? = some r → j ≠ i → Quiet (F j) D.world q.session.world r.session.tree := by
    intro j r hr hj
    obtain ⟨tag', -, g2, -⟩ := hF j r hr
    exact quiet_step h2 g2 (hA i j p r (Ne.symm hj) hp hr) s1
  have hset : ∀ j r, (D.docs.set i q)[j]? = some r → (j = i ∧ r = q) ∨ (j ≠ i ∧ D.docs[j]? = some r) := by
    intro j r hr
    by_cases hj : j = i
    · subst hj
      rw [List.getElem?_set_self (List.getElem?_eq_some_iff.mp hp).1] at hr
      exact .inl ⟨rfl, (Option.some.inj hr).symm⟩
    · rw [List.getElem?_set_ne (Ne.symm hj)] at hr
      exact .inr ⟨hj, hr⟩
  have hd' : Held (F i) q.session.world tag p.session.tree := held_step h2 s1
  refine ⟨⟨s1.kept.once, hi, ?_, fun j => if j = i then F i else later (F j) D.world q.session.world, ?_, ?_⟩, ?_⟩
  · intro j r hr
    obtain ⟨r0, hr0, rfl⟩ := Option.map_eq_some_iff.mp hr
    rcases hset j r0 hr0 with ⟨-, rfl⟩ | ⟨hj, hr'⟩
    · exact hl
    · exact quiet_lives (D' := ⟨q.session.world, H, q.session.w.fs, D.docs.set i q⟩) (hF j r0 hr') (lives_of h hr')
        (hq j r0 hr' hj)
  · intro j r hr
    rcases hset j r hr with ⟨rfl, rfl⟩ | ⟨hj, hr'⟩
    · simp only [↓reduceIte]
      exact ⟨tag, by rw [hm]; exact h1, by rw [ht]; exact hd', s2⟩
    · simp only [if_neg hj]
      exact quiet_holds (hF j r hr') (hq j r hr' hj)
  · intro j k a b hjk ha hb
    rcases hset j a ha with ⟨rfl, rfl⟩ | ⟨hj, ha'⟩ <;> rcases hset k b hb with ⟨rfl, rfl⟩ | ⟨hk, hb'⟩
    · exact absurd rfl hjk
    · simp only [↓reduceIte, if_neg hk, ht]
      exact apart_step (hA j k p b hjk hp hb') hd'
    · simp only [↓reduceIte, if_neg hj, ht]
      exact (apart_step (hA k j p a (Ne.symm hjk) hp ha') hd').symm
    · simp only [if_neg hj, if_neg hk]
      obtain ⟨ta, -, ga, -⟩ := hF j a ha'
      obtain ⟨tb, -, gb, -⟩ := hF k b hb'
      exact apart_quiet (hA j k a b hjk ha' hb') (hq j a ha' hj) (hq k b hb' hk) ga gb
  · intro j r hr hj
    exact quiet_same (D' := ⟨q.session.world, H, q.session.w.fs, D.docs.set i q⟩) (hF j r hr) (hq j r hr hj)

/-- Another document -/
theorem add_step (hlaw : L.Lawful) {D : Desk} (h : OK L D) {k : Clock} {src : Package.Source} {fm : Package.FM}
    {mt : Option Str} {s : Session} (ho : Package.open_ L.pkg D.fs src k.now = .ok fm)
    (hs : packagedWhole L D.fs k fm mt D.world = .ok s) :
    OK L { D with world := s.world, fs := s.w.fs, docs := D.docs ++ [⟨s, []⟩] } ∧
      ∀ (j : Nat) r, D.docs[j]? = some r → Same D { D with world := s.world, fs := s.w.fs, docs := D.docs ++ [⟨s, []⟩] } r := by
  obtain ⟨F, hF, hA⟩ := h.docs
  obtain ⟨b, n1, n2⟩ := made_beside hlaw h.once hs
  obtain ⟨tag, htag, hfr⟩ := Program.made_framed hlaw h.once ho hs
  have hq : ∀ j r, D.docs[j]? = some r → Quiet (F j) D.world s.world r.session.tree := by
    intro j r hr
    obtain ⟨tag', -, g2, -⟩ := hF j r hr
    exact quiet_beside g2 b
  have hset : ∀ j r, (D.docs ++ [(⟨s, []⟩ : TextProg.Prog)])[j]? = some r →
      (j = D.docs.length ∧ r = ⟨s, []⟩) ∨ (j ≠ D.docs.length ∧ D.docs[j]? = some r) := by
    intro j r hr
    rcases lt_trichotomy j D.docs.length with hj | hj | hj
    · rw [List.getElem?_append_left hj] at hr
      exact .inr ⟨by omega, hr⟩
    · subst hj
      simp at hr
      exact .inl ⟨rfl, hr.symm⟩
    · rw [List.getElem?_eq_none (by simp; omega)] at hr
      cases hr
  have hnew : Held (TextProg.outer s.world s.tree) s.world tag s.tree :=
    ⟨TextProg.start_kept hfr, by
      intro r hr
      simp only [List.mem_cons, List.not_mem_nil, or_false] at hr
      rcases hr with rfl | rfl
      · exact hfr.styles
      · exact hfr.content⟩
  refine ⟨⟨b.once, h.inv, ?_, fun j => if j = D.docs.length then TextProg.outer s.world s.tree else
    later (F j) D.world s.world, ?_, ?_⟩, ?_⟩
  · intro j r hr
    obtain ⟨r0, hr0, rfl⟩ := Option.map_eq_some_iff.mp hr
    rcases hset j r0 hr0 with ⟨-, rfl⟩ | ⟨hj, hr'⟩
    · exact Lives.made s.docname h.once ho hs
    · exact quiet_lives (D' := { D with world := s.world, fs := s.w.fs, docs := D.docs ++ [⟨s, []⟩] }) (hF j r0 hr')
        (lives_of h hr') (hq j r0 hr')
  · intro j r hr
    rcases hset j r hr with ⟨rfl, rfl⟩ | ⟨hj, hr'⟩
    · simp only [↓reduceIte]
      exact ⟨tag, htag, hnew, fun n hn => by simp at hn⟩
    · simp only [if_neg hj]
      exact quiet_holds (hF j r hr') (hq j r hr')
  · intro j k a c hjk ha hc
    rcases hset j a ha with ⟨rfl, rfl⟩ | ⟨hj, ha'⟩ <;> rcases hset k c hc with ⟨hk, rfl⟩ | ⟨hk, hc'⟩
    · exact absurd hk.symm hjk
    · obtain ⟨tc, -, gc, -⟩ := hF k c hc'
      simp only [↓reduceIte, if_neg hk]
      exact apart_beside gc b hfr n1 n2
    · subst hk
      obtain ⟨ta, -, ga, -⟩ := hF j a ha'
      simp only [↓reduceIte, if_neg hj]
      exact (apart_beside ga b hfr n1 n2).symm
    · simp only [if_neg hj, if_neg hk]
      obtain ⟨ta, -, ga, -⟩ := hF j a ha'
      obtain ⟨tc, -, gc, -⟩ := hF k c hc'
      exact apart_quiet (hA j k a c hjk ha' hc') (hq j a ha') (hq k c hc') ga gc
  · intro j r hr
    exact quiet_same (D' := { D with world := s.world, fs := s.w.fs, docs := D.docs ++ [⟨s, []⟩] }) (hF j r hr) (hq j r hr)

/-- What a statement with the document `i` does -/
theorem onDoc_some {α : Type} {D : Desk} {i : Nat} {p : TextProg.Prog} (hp : D.docs[i]? = some p) (m : Py PageProg.Prog α) :
    (onDoc i m D).1 = { world := (m ⟨seen D p, D.heap⟩).1.text.session.world, heap := (m ⟨seen D p, D.heap⟩).1.heap,
                        fs := (m ⟨seen D p, D.heap⟩).1.text.session.w.fs,
                        docs := D.docs.set i (m ⟨seen D p, D.heap⟩).1.text } := by
  unfold onDoc view
  rw [hp]; rfl

theorem onDoc_none {α : Type} {D : Desk} {i : Nat} (hp : D.docs[i]? = none) (m : Py PageProg.Prog α) :
    (onDoc i m D).1 = D := by
  unfold onDoc view
  rw [hp]; rfl

/-- A statement that changes nothing of the trees -/
theorem still {D : Desk} {p q : TextProg.Prog} (hw : q.session.world = D.world) (ho : q.objs = p.objs) :
    ∀ F tag, Fits F tag (seen D p) → Step F D.world q.session.world tag p.session.tree ∧
      ∀ n ∈ q.objs, Loose F q.session.world n := by
  intro F tag hf
  rw [hw, ho]
  exact ⟨.refl hf.kept, hf.objs⟩

/-- **C86**, one statement: whether it raises or not, all documents are in order after it, and nothing has changed of the
documents that it is not about: neither their attributes, names, meta data and lists of parts (`docs[j]`) nor their trees
nor the objects of them. -/
theorem C86_step (hlaw : L.Lawful) (hpick : ∀ k l, pick k l ∉ l) {D : Desk} (h : OK L D) {a : Act} (ha : Allowed D a) :
    OK L (exec L pick a D).1 ∧ ∀ j p, D.docs[j]? = some p → a.doc ≠ some j →
      (exec L pick a D).1.docs[j]? = some p ∧ Same D (exec L pick a D).1 p := by
  have hdoc : ∀ {i : Nat} {m : Py PageProg.Prog Unit}, (∀ p, D.docs[i]? = some p →
        Lives L (m ⟨seen D p, D.heap⟩).1.text.session ∧
        (m ⟨seen D p, D.heap⟩).1.text.session.tree = p.session.tree ∧
        (m ⟨seen D p, D.heap⟩).1.text.session.mimetype = p.session.mimetype ∧
        WrapCache.Inv (m ⟨seen D p, D.heap⟩).1.heap ∧
        ∀ F tag, Fits F tag (seen D p) →
          Step F D.world (m ⟨seen D p, D.heap⟩).1.text.session.world tag p.session.tree ∧
          ∀ n ∈ (m ⟨seen D p, D.heap⟩).1.text.objs, Loose F (m ⟨seen D p, D.heap⟩).1.text.session.world n) →
      OK L (onDoc i m D).1 ∧ ∀ j p, D.docs[j]? = some p → some i ≠ some j →
        (onDoc i m D).1.docs[j]? = some p ∧ Same D (onDoc i m D).1 p := by
    intro i m hm
    cases hp : D.docs[i]? with
    | none =>
      rw [onDoc_none hp]
      exact ⟨h, fun j p hj _ => ⟨hj, ⟨fun _ _ => rfl, fun _ _ => rfl⟩⟩⟩
    | some p =>
      rw [onDoc_some hp]
      obtain ⟨m1, m2, m3, m4, m5⟩ := hm p hp
      obtain ⟨g1, g2⟩ := doc_step h hp m1 m2 m3 m5 m4
      refine ⟨g1, fun j r hr hj => ⟨?_, g2 j r hr fun e => hj (by rw [e])⟩⟩
      show (D.docs.set i _)[j]? = _
      rw [List.getElem?_set_ne fun e => hj (by rw [e])]
      exact hr
  cases a with
  | act i a =>
    refine hdoc fun p hp => ?_
    have ha' : PageProg.Allowed ⟨seen D p, D.heap⟩ a := ha (seen D p) (by unfold view; rw [hp]; rfl)
    obtain ⟨F, hF, -⟩ := h.docs
    obtain ⟨tag, h1, h2, h3⟩ := hF i p hp
    have hk := PageProg.exec_keeps hpick (p := ⟨seen D p, D.heap⟩) (F := F i) (tag := tag) ⟨h2.kept, h3⟩ h.inv ha'
    have hses := hk.acts.session
    refine ⟨?_, by rw [hses]; rfl, by rw [hses]; rfl, hk.inv, fun F' tag' hf' => ?_⟩
    · rw [hses]
      exact (lives_of h hp).trees (W := (PageProg.exec pick a ⟨seen D p, D.heap⟩).1.text.world)
        (d := p.session.tree) hk.acts.step.kept.once h1 hk.acts.step.kept.refs
    · have hk' := PageProg.exec_keeps hpick (p := ⟨seen D p, D.heap⟩) (F := F') (tag := tag') hf' h.inv ha'
      exact ⟨hk'.acts.step, hk'.acts.objs⟩
  | data i o => exact hdoc fun p hp => ⟨(lives_of h hp).data o, rfl, rfl, h.inv, still rfl rfl⟩
  | file i n x t now => exact hdoc fun p hp => ⟨(lives_of h hp).file n x t now ha, rfl, rfl, h.inv, still rfl rfl⟩
  | name i f => exact hdoc fun p hp => ⟨(lives_of h hp).named f, rfl, rfl, h.inv, still rfl rfl⟩
  | save i env k backup =>
    refine hdoc fun p hp => ?_
    have hf := C69_frame L env k backup (s := (seen D p).session) rfl
    exact ⟨(lives_of h hp).saved env k backup, hf.2.1, hf.2.2.2.1, h.inv, still hf.1 rfl⟩
  | saveas i env k backup f =>
    refine hdoc fun p hp => ?_
    have hf := C69_frame L env k backup (s := { (seen D p).session with docname := some f }) rfl
    exact ⟨(lives_of h hp).savedAs env k backup f, hf.2.1, hf.2.2.2.1, h.inv, still hf.1 rfl⟩
  | open_ k src =>
    show OK L (add (openWhole L D.fs k src D.world) D).1 ∧ _
    cases hs : openWhole L D.fs k src D.world with
    | error e =>
      simp only [exec, hs]
      exact ⟨h, fun j p hj _ => ⟨hj, ⟨fun _ _ => rfl, fun _ _ => rfl⟩⟩⟩
    | ok s =>
      have hs' := hs
      unfold openWhole at hs
      cases ho : Package.open_ L.pkg D.fs src k.now with
      | error e => rw [ho] at hs; cases hs
      | ok fm =>
        rw [ho] at hs
        dsimp only at hs
        cases hd : detect (dlib L) D.fs fm with
        | error e => rw [hd] at hs; cases hs
        | ok mt =>
          rw [hd] at hs
          obtain ⟨g1, g2⟩ := add_step hlaw h ho hs
          refine ⟨g1, fun j p hj _ => ?_⟩
          simp only [exec, hs']
          refine ⟨?_, g2 j p hj⟩
          show (D.docs ++ [_])[j]? = _
          rw [List.getElem?_append_left (List.getElem?_eq_some_iff.mp hj).1]
          exact hj
  | new k mt =>
    show OK L (add (newIn L D.fs k mt D.world) D).1 ∧ _
    cases hs : newIn L D.fs k mt D.world with
    | error e =>
      simp only [exec, hs]
      exact ⟨h, fun j p hj _ => ⟨hj, ⟨fun _ _ => rfl, fun _ _ => rfl⟩⟩⟩
    | ok s =>
      have hs' := hs
      unfold newIn at hs
      cases ho : Package.open_ L.pkg D.fs (.file none) k.now with
      | error e => rw [ho] at hs; cases hs
      | ok fm =>
        rw [ho] at hs
        obtain ⟨g1, g2⟩ := add_step hlaw h ho hs
        refine ⟨g1, fun j p hj _ => ?_⟩
        simp only [exec, hs']
        refine ⟨?_, g2 j p hj⟩
        show (D.docs ++ [_])[j]? = _
        rw [List.getElem?_append_left (List.getElem?_eq_some_iff.mp hj).1]
        exact hj

/-- **C86**, whole programs: a program that has no statement with a document leaves all of it as it was, whatever it does
with other documents. -/
theorem C86_runs (hlaw : L.Lawful) (hpick : ∀ k l, pick k l ∉ l) {D D' : Desk} {as : List Act} (h : OK L D)
    (hr : Runs L pick D as D') :
    OK L D' ∧ ∀ j p, D.docs[j]? = some p → (∀ a ∈ as, a.doc ≠ some j) → D'.docs[j]? = some p ∧ Same D D' p := by
  induction hr with
  | done D => exact ⟨h, fun j p hj _ => ⟨hj, ⟨fun _ _ => rfl, fun _ _ => rfl⟩⟩⟩
  | act a ha _ ih =>
    obtain ⟨g1, g2⟩ := C86_step hlaw hpick h ha
    obtain ⟨i1, i2⟩ := ih g1
    refine ⟨i1, fun j p hj hno => ?_⟩
    obtain ⟨k1, k2⟩ := g2 j p hj (hno a (by simp))
    obtain ⟨l1, l2⟩ := i2 j p k1 fun b hb => hno b (by simp [hb])
    exact ⟨l1, k2.trans l2⟩

/-- A program starts without documents. -/
theorem C86_start (L : XLib) (fs : Package.FS) : OK L ⟨.nil, {}, fs, []⟩ :=
  ⟨by simp [ids], .empty, fun i p hp => by simp [view] at hp, fun _ _ => False, fun i p hp => by simp at hp,
    fun i j p q _ hp => by simp at hp⟩

/-- **C86**: each document is as if it were alone, so all that C69, C79, C81, C83 and C85 say of a document is true of it. -/
theorem C86_sound {D : Desk} (h : OK L D) {i : Nat} {p : TextProg.Prog} (hp : view D i = some p) :
    PageProg.Sound L ⟨p, D.heap⟩ := by
  obtain ⟨F, hF, -⟩ := h.docs
  have hl := h.lives i p hp
  obtain ⟨p0, hp0, rfl⟩ := Option.map_eq_some_iff.mp hp
  obtain ⟨tag, h1, h2, h3⟩ := hF i p0 hp0
  refine ⟨⟨hl, ⟨F i, tag, h1, ⟨h2.kept, h3⟩⟩, fun t ht hb => ?_⟩, h.inv⟩
  obtain ⟨c, hc⟩ := find_some_of_mem (h2.kept.mem _ (h2.kept.frame p0.session.tree.content.root (by simp)))
  refine roots_apart h2.kept.once (h2.roots p0.session.tree.styles.root (by simp))
    (h2.roots p0.session.tree.content.root (by simp)) ?_ ht hc hb (body_in h2.kept hc)
  intro e
  have a1 := h2.kept.refs.stylesRoot
  have a2 := h2.kept.refs.contentRoot
  rw [e, a2] at a1
  simp at a1

end Verif.Desk
