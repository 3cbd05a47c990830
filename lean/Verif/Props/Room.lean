import Verif.Proofs.Room
import Verif.Props.DeskFiles
/-!
# C87: objects that are moved between documents

A program opens documents and makes new ones, and puts its objects into any of them, also objects that are in another
document.
-/
namespace Verif.Room
open Verif Verif.Lxml Forest Verif.Whole Verif.Document
open Verif.TextProg (Kept Loose Step Fits Place hole decls)
open Verif.Desk (Act Held Beside newIn change roots_apart body_in held_step made_beside)
set_option linter.unusedSimpArgs false

variable {L : XLib} {pick : Nat → List Nat → Nat}

/-! ## The programs -/

/-- One document of the room: `F` are the nodes that belong to the frame of the document, and no object of the program is
one of them. -/
def Holds (F : Nat → Prop) (R : Room) (s : Session) : Prop :=
  ∃ tag, MIMETYPE_BODYTAG_MAP.get s.mimetype = some tag ∧ Held F R.world tag s.tree ∧ ∀ n ∈ R.objs, Loose F R.world n

/-- The documents are in order; each of them has trees of its own, and no frame has the body of another document. -/
structure OK (L : XLib) (R : Room) : Prop where
  once : (ids R.world).Nodup
  inv : WrapCache.Inv R.heap
  objs : ∀ n ∈ R.objs, Loose (fun _ => False) R.world n
  lives : ∀ (i : Nat) s, R.docs[i]? = some s → Lives L (put R s)
  docs : ∃ F : Nat → Nat → Prop, (∀ (i : Nat) s, R.docs[i]? = some s → Holds (F i) R s) ∧
    ∀ (i j : Nat) s t, i ≠ j → R.docs[i]? = some s → R.docs[j]? = some t → Loose (F i) R.world t.tree.body.node ∧
      ∀ r ∈ [s.tree.styles.root, s.tree.content.root], r ∉ [t.tree.styles.root, t.tree.content.root]

/-- The statements of a program: those of C83 as there; other files do not have the names of the parts of the document. -/
def Allowed (R : Room) : Act → Prop
  | .act i a => ∀ s, R.docs[i]? = some s → PageProg.Allowed (seen R s) a
  | .file _ n _ _ _ => n ∉ [Package.MIMETYPE, MANIFEST, ROOT, META, STYLES, CONTENT]
  | _ => True

/-- A program, statement by statement; a statement that raises is passed over. -/
inductive Runs (L : XLib) (pick : Nat → List Nat → Nat) : Room → List Act → Room → Prop
  | done (R : Room) : Runs L pick R [] R
  | act {R R' : Room} {as : List Act} (a : Act) (ha : Allowed R a) (h : Runs L pick (exec L pick a R).1 as R') :
      Runs L pick R (a :: as) R'

/-- The styles of the document, its content outside of the body, and the declarations of variables and fields in the body are
the same. -/
structure Frame (W W' : World) (d : Parts.DocTree) : Prop where
  styles : find d.styles.root W' = find d.styles.root W
  content : (find d.content.root W').map (fun t => hole d.body.node (single t)) =
    (find d.content.root W).map fun t => hole d.body.node (single t)
  decls : decls W' d.body.node = decls W d.body.node

theorem Frame.refl (W : World) (d : Parts.DocTree) : Frame W W d := ⟨rfl, rfl, rfl⟩

theorem Frame.trans {W W' W'' : World} {d : Parts.DocTree} (h : Frame W W' d) (g : Frame W' W'' d) : Frame W W'' d :=
  ⟨g.1.trans h.1, g.2.trans h.2, g.3.trans h.3⟩

/-- A statement with the document number `i` -/
theorem doc_step {R : Room} (h : OK L R) {i : Nat} {s : Session} {q : PageProg.Prog} (hi : R.docs[i]? = some s)
    (hl : Lives L q.text.session) (ht : q.text.session.tree = s.tree) (hm : q.text.session.mimetype = s.mimetype)
    (hinv : WrapCache.Inv q.heap)
    (hs : ∀ F tag (j : Nat) t, R.docs[j]? = some t → Held F R.world tag t.tree → (∀ n ∈ R.objs, Loose F R.world n) →
      Place F R.world t.tree s.tree.body.node → View.Sent F tag t.tree (seen R s).text q.text) :
    OK L ⟨q.text.session.world, q.heap, q.text.session.w.fs, R.docs.set i q.text.session, q.text.objs⟩ ∧
      ∀ (j : Nat) t, R.docs[j]? = some t → Frame R.world q.text.session.world t.tree := by
  obtain ⟨F, hF, hA⟩ := h.docs
  have hplace : ∀ (j : Nat) t, R.docs[j]? = some t → Place (F j) R.world t.tree s.tree.body.node := by
    intro j t hj
    by_cases e : j = i
    · subst e
      rw [hi] at hj
      cases hj
      exact .inl rfl
    · exact .inr (hA j i t s e hj hi).1
  have hstep : ∀ (j : Nat) t, R.docs[j]? = some t → ∃ tag, MIMETYPE_BODYTAG_MAP.get t.mimetype = some tag ∧
      Held (F j) R.world tag t.tree ∧ Step (F j) R.world q.text.session.world tag t.tree ∧
      ∀ n ∈ q.text.objs, Loose (F j) q.text.session.world n := by
    intro j t hj
    obtain ⟨tag, h1, h2, h3⟩ := hF j t hj
    have hsent := hs (F j) tag j t hj h2 h3 (hplace j t hj)
    refine ⟨tag, h1, h2, hsent.step, fun n hn => ?_⟩
    rcases hsent.objs n hn with hn | hn
    · exact hsent.step.loose n (h3 n hn)
    · exact hn
  have hset : ∀ (j : Nat) t, (R.docs.set i q.text.session)[j]? = some t →
      ∃ t0, R.docs[j]? = some t0 ∧ t.tree = t0.tree ∧ t.mimetype = t0.mimetype ∧ (t = t0 ∨ t = q.text.session) := by
    intro j t hj
    by_cases e : j = i
    · subst e
      rw [List.getElem?_set_self (List.getElem?_eq_some_iff.mp hi).1] at hj
      cases hj
      exact ⟨s, hi, ht, hm, .inr rfl⟩
    · rw [List.getElem?_set_ne (Ne.symm e)] at hj
      exact ⟨t, hj, rfl, rfl, .inl rfl⟩
  refine ⟨⟨?_, hinv, ?_, ?_, F, ?_, ?_⟩, ?_⟩
  · obtain ⟨tag, -, -, h3, -⟩ := hstep i s hi
    exact h3.kept.once
  · intro n hn
    obtain ⟨tag, -, -, -, h4⟩ := hstep i s hi
    exact ⟨(h4 n hn).mem, id, (h4 n hn).tag⟩
  · intro j t hj
    obtain ⟨t0, h0, -, -, rfl | rfl⟩ := hset j t hj
    · obtain ⟨tag, g1, g2, g3, -⟩ := hstep j t h0
      exact ((h.lives j t h0).trees (W := q.text.session.world) (d := t.tree) g3.kept.once g1 g3.kept.refs).disk
        q.text.session.w.fs
    · exact hl
  · intro j t hj
    obtain ⟨t0, h0, e1, e2, -⟩ := hset j t hj
    obtain ⟨tag, g1, g2, g3, g4⟩ := hstep j t0 h0
    refine ⟨tag, by rw [e2]; exact g1, ?_, g4⟩
    rw [e1]
    exact held_step g2 g3
  · intro j k a b hjk ha hb
    obtain ⟨a0, ha0, e1, -, -⟩ := hset j a ha
    obtain ⟨b0, hb0, e2, -, -⟩ := hset k b hb
    obtain ⟨tag, -, -, g3, -⟩ := hstep j a0 ha0
    obtain ⟨k1, k2⟩ := hA j k a0 b0 hjk ha0 hb0
    rw [e1, e2]
    exact ⟨g3.loose _ k1, k2⟩
  · intro j t hj
    obtain ⟨tag, -, g2, g3, -⟩ := hstep j t hj
    obtain ⟨f1, f2, f3⟩ := step_frame g2 g3
    exact ⟨f1, f2, f3⟩

/-- Another document -/
theorem add_step (hlaw : L.Lawful) {R : Room} (h : OK L R) {k : Clock} {src : Package.Source} {fm : Package.FM}
    {mt : Option Str} {s : Session} (ho : Package.open_ L.pkg R.fs src k.now = .ok fm)
    (hs : packagedWhole L R.fs k fm mt R.world = .ok s) :
    OK L { R with world := s.world, fs := s.w.fs, docs := R.docs ++ [s] } ∧
      ∀ (j : Nat) t, R.docs[j]? = some t → Frame R.world s.world t.tree := by
  obtain ⟨F, hF, hA⟩ := h.docs
  obtain ⟨b, n1, n2⟩ := made_beside hlaw h.once hs
  obtain ⟨tag, htag, hfr⟩ := Program.made_framed hlaw h.once ho hs
  have hset : ∀ (j : Nat) r, (R.docs ++ [s])[j]? = some r →
      (j = R.docs.length ∧ r = s) ∨ (j ≠ R.docs.length ∧ R.docs[j]? = some r) := by
    intro j r hr
    rcases lt_trichotomy j R.docs.length with hj | hj | hj
    · rw [List.getElem?_append_left hj] at hr
      exact .inr ⟨by omega, hr⟩
    · subst hj
      simp at hr
      exact .inl ⟨rfl, hr.symm⟩
    · rw [List.getElem?_eq_none (by simp; omega)] at hr
      cases hr
  have hfresh := fresh_kept h.once b hfr n1 n2
  have hroots : ∀ r ∈ [s.tree.styles.root, s.tree.content.root], r ∈ Lxml.roots s.world ∧ r ∉ ids R.world := by
    intro r hr
    simp only [List.mem_cons, List.not_mem_nil, or_false] at hr
    rcases hr with rfl | rfl
    · exact ⟨hfr.styles, n1⟩
    · exact ⟨hfr.content, n2⟩
  have hnew : ∀ n, Loose (fun _ => False) R.world n → Loose (fresh R.world s.world s.tree) s.world n := by
    intro n hn
    have hsame := b.same n hn.mem
    exact ⟨Desk.node_ids hsame hn.mem, fun hf => hf.2 hn.mem, fun t ht => by rw [node_tag hsame]; exact hn.tag t ht⟩
  have hbody : ∀ (j : Nat) t, R.docs[j]? = some t → Loose (fun _ => False) R.world t.tree.body.node := by
    intro j t hj
    obtain ⟨tg, g1, g2, -⟩ := hF j t hj
    refine ⟨g2.kept.mem _ (g2.kept.frame _ (by simp)), id, fun u hu => ?_⟩
    rw [body_is g2.kept]
    rintro ⟨⟩
    exact body_tag g1 hu
  have hbnew : ∀ (j : Nat) t, R.docs[j]? = some t → Loose (F j) s.world s.tree.body.node := by
    intro j t hj
    obtain ⟨tg, g1, g2, -⟩ := hF j t hj
    have hbf := hfresh.frame s.tree.body.node (by simp)
    refine ⟨hfresh.mem _ hbf, fun hf => hbf.2 (g2.kept.mem _ hf), fun u hu => ?_⟩
    rw [body_is hfresh]
    rintro ⟨⟩
    exact body_tag htag hu
  have hsteps : ∀ (j : Nat) t, R.docs[j]? = some t → ∃ tg, MIMETYPE_BODYTAG_MAP.get t.mimetype = some tg ∧
      Held (F j) R.world tg t.tree ∧ Step (F j) R.world s.world tg t.tree ∧ ∀ n ∈ R.objs, Loose (F j) s.world n := by
    intro j t hj
    obtain ⟨tg, g1, g2, g3⟩ := hF j t hj
    have hst := beside_step g2.kept b
    exact ⟨tg, g1, g2, hst, fun n hn => hst.loose n (g3 n hn)⟩
  have hdiff : ∀ (j : Nat) t, R.docs[j]? = some t → ∀ r ∈ [t.tree.styles.root, t.tree.content.root],
      r ∉ [s.tree.styles.root, s.tree.content.root] := by
    intro j t hj r hr hr'
    obtain ⟨tg, -, g2, -⟩ := hF j t hj
    exact (hroots r hr').2 (roots_sub (g2.roots r hr))
  refine ⟨⟨b.once, h.inv, ?_, ?_, fun j => if j = R.docs.length then fresh R.world s.world s.tree else F j, ?_, ?_⟩, ?_⟩
  · intro n hn
    have := hnew n (h.objs n hn)
    exact ⟨this.mem, id, this.tag⟩
  · intro j t hj
    rcases hset j t hj with ⟨-, rfl⟩ | ⟨-, hj'⟩
    · exact Lives.made t.docname h.once ho hs
    · obtain ⟨tg, g1, g2, g3, -⟩ := hsteps j t hj'
      exact ((h.lives j t hj').trees (W := s.world) (d := t.tree) g3.kept.once g1 g3.kept.refs).disk s.w.fs
  · intro j t hj
    rcases hset j t hj with ⟨rfl, rfl⟩ | ⟨hne, hj'⟩
    · simp only [↓reduceIte]
      exact ⟨tag, htag, ⟨hfresh, fun r hr => (hroots r hr).1⟩, fun n hn => hnew n (h.objs n hn)⟩
    · simp only [if_neg hne]
      obtain ⟨tg, g1, g2, g3, g4⟩ := hsteps j t hj'
      exact ⟨tg, g1, held_step g2 g3, g4⟩
  · intro j k u v hjk hu hv
    rcases hset j u hu with ⟨rfl, rfl⟩ | ⟨hj, hu'⟩ <;> rcases hset k v hv with ⟨hk, rfl⟩ | ⟨hk, hv'⟩
    · exact absurd hk.symm hjk
    · simp only [↓reduceIte]
      exact ⟨hnew _ (hbody k v hv'), fun r hr hr' => hdiff k v hv' r hr' hr⟩
    · simp only [if_neg hj]
      exact ⟨hbnew j u hu', hdiff j u hu'⟩
    · simp only [if_neg hj]
      obtain ⟨tg, -, -, g3, -⟩ := hsteps j u hu'
      obtain ⟨k1, k2⟩ := hA j k u v hjk hu' hv'
      exact ⟨g3.loose _ k1, k2⟩
  · intro j t hj
    obtain ⟨tg, -, g2, g3, -⟩ := hsteps j t hj
    obtain ⟨f1, f2, f3⟩ := step_frame g2 g3
    exact ⟨f1, f2, f3⟩

/-- What a statement with the document `i` does -/
theorem onDoc_some {α : Type} {R : Room} {i : Nat} {s : Session} (hi : R.docs[i]? = some s) (m : Py PageProg.Prog α) :
    (onDoc i m R).1 = { world := (m (seen R s)).1.text.session.world, heap := (m (seen R s)).1.heap,
                        fs := (m (seen R s)).1.text.session.w.fs, docs := R.docs.set i (m (seen R s)).1.text.session,
                        objs := (m (seen R s)).1.text.objs } := by
  unfold onDoc
  rw [hi]

theorem onDoc_none {α : Type} {R : Room} {i : Nat} (hi : R.docs[i]? = none) (m : Py PageProg.Prog α) :
    (onDoc i m R).1 = R := by
  unfold onDoc
  rw [hi]

/-- A statement that changes nothing of the trees -/
theorem still {R : Room} {s : Session} {q : PageProg.Prog} (hw : q.text.session.world = R.world) (ho : q.text.objs = R.objs)
    (F : Nat → Prop) (tag : String) (t : Session) (h : Held F R.world tag t.tree) :
    View.Sent F tag t.tree (seen R s).text q.text := by
  refine ⟨?_, fun n hn => ?_⟩
  · show Step F R.world q.text.session.world tag t.tree
    rw [hw]
    exact .refl h.kept
  · rw [ho] at hn
    exact .inl hn

/-- **C87**, one statement: whether it raises or not, all documents are in order after it.  Of the documents that it is not
about, the attributes, names, meta data and lists of parts are as they were (`docs[j]`); and of no document anything but the
contents of the body has changed. -/
theorem C87_step (hlaw : L.Lawful) (hpick : ∀ k l, pick k l ∉ l) {R : Room} (h : OK L R) {a : Act} (ha : Allowed R a) :
    OK L (exec L pick a R).1 ∧ (∀ (j : Nat) s, R.docs[j]? = some s → a.doc ≠ some j → (exec L pick a R).1.docs[j]? = some s) ∧
    ∀ (j : Nat) s, R.docs[j]? = some s → ∃ s', (exec L pick a R).1.docs[j]? = some s' ∧ s'.tree = s.tree ∧
      s'.mimetype = s.mimetype ∧ Frame R.world (exec L pick a R).1.world s.tree := by
  have hsame : ∀ {R' : Room}, R'.world = R.world → R'.docs = R.docs → ∀ (j : Nat) s, R.docs[j]? = some s →
      ∃ s', R'.docs[j]? = some s' ∧ s'.tree = s.tree ∧ s'.mimetype = s.mimetype ∧ Frame R.world R'.world s.tree := by
    intro R' e1 e2 j s hj
    exact ⟨s, by rw [e2]; exact hj, rfl, rfl, by rw [e1]; exact .refl _ _⟩
  have hdoc : ∀ {i : Nat} {m : Py PageProg.Prog Unit}, (∀ s, R.docs[i]? = some s →
        Lives L (m (seen R s)).1.text.session ∧ (m (seen R s)).1.text.session.tree = s.tree ∧
        (m (seen R s)).1.text.session.mimetype = s.mimetype ∧ WrapCache.Inv (m (seen R s)).1.heap ∧
        ∀ F tag (j : Nat) t, R.docs[j]? = some t → Held F R.world tag t.tree → (∀ n ∈ R.objs, Loose F R.world n) →
          Place F R.world t.tree s.tree.body.node → View.Sent F tag t.tree (seen R s).text (m (seen R s)).1.text) →
      OK L (onDoc i m R).1 ∧ (∀ (j : Nat) s, R.docs[j]? = some s → some i ≠ some j → (onDoc i m R).1.docs[j]? = some s) ∧
      ∀ (j : Nat) s, R.docs[j]? = some s → ∃ s', (onDoc i m R).1.docs[j]? = some s' ∧ s'.tree = s.tree ∧
        s'.mimetype = s.mimetype ∧ Frame R.world (onDoc i m R).1.world s.tree := by
    intro i m hm
    cases hi : R.docs[i]? with
    | none =>
      rw [onDoc_none hi]
      exact ⟨h, fun j s hj _ => hj, hsame rfl rfl⟩
    | some s =>
      rw [onDoc_some hi]
      obtain ⟨m1, m2, m3, m4, m5⟩ := hm s hi
      obtain ⟨g1, g2⟩ := doc_step h hi m1 m2 m3 m4 m5
      refine ⟨g1, fun j t hj hne => ?_, fun j t hj => ?_⟩
      · show (R.docs.set i _)[j]? = _
        rw [List.getElem?_set_ne fun e => hne (by rw [e])]
        exact hj
      · by_cases e : j = i
        · subst e
          rw [hi] at hj
          cases hj
          exact ⟨_, List.getElem?_set_self (List.getElem?_eq_some_iff.mp hi).1, m2, m3, g2 j s hi⟩
        · exact ⟨t, by
            show (R.docs.set i _)[j]? = _
            rw [List.getElem?_set_ne (Ne.symm e)]; exact hj, rfl, rfl, g2 j t hj⟩
  have hadd : ∀ {k : Clock} {src : Package.Source} {fm : Package.FM} {mt : Option Str} {s : Session},
      Package.open_ L.pkg R.fs src k.now = .ok fm → packagedWhole L R.fs k fm mt R.world = .ok s →
      OK L (add (.ok s) R).1 ∧ (∀ (j : Nat) t, R.docs[j]? = some t → (none : Option Nat) ≠ some j →
        (add (.ok s) R).1.docs[j]? = some t) ∧
      ∀ (j : Nat) t, R.docs[j]? = some t → ∃ t', (add (.ok s) R).1.docs[j]? = some t' ∧ t'.tree = t.tree ∧
        t'.mimetype = t.mimetype ∧ Frame R.world (add (.ok s) R).1.world t.tree := by
    intro k src fm mt s ho hs
    obtain ⟨g1, g2⟩ := add_step hlaw h ho hs
    have hj' : ∀ (j : Nat) t, R.docs[j]? = some t → (add (.ok s) R).1.docs[j]? = some t := by
      intro j t hj
      show (R.docs ++ [_])[j]? = _
      rw [List.getElem?_append_left (List.getElem?_eq_some_iff.mp hj).1]
      exact hj
    exact ⟨g1, fun j t hj _ => hj' j t hj, fun j t hj => ⟨t, hj' j t hj, rfl, rfl, g2 j t hj⟩⟩
  cases a with
  | act i a =>
    refine hdoc fun s hi => ?_
    have ha' := ha s hi
    obtain ⟨F, hF, -⟩ := h.docs
    obtain ⟨tag, h1, h2, h3⟩ := hF i s hi
    have hfit : Fits (F i) tag (seen R s).text := ⟨h2.kept, h3⟩
    have hk := PageProg.exec_keeps hpick (p := seen R s) hfit h.inv ha'
    have hses := hk.acts.session
    refine ⟨?_, by rw [hses]; rfl, by rw [hses]; rfl, hk.inv, fun F' tag' j t hj g2 g3 g4 => ?_⟩
    · rw [hses]
      exact (h.lives i s hi).trees (W := (PageProg.exec pick a (seen R s)).1.text.world) (d := s.tree)
        hk.acts.step.kept.once h1 hk.acts.step.kept.refs
    · refine View.page_sent hpick ⟨g2.kept, fun k _ n hn => g3 n (List.mem_of_getElem? hn), g4⟩ h.inv
        (fun b hb => PageProg.pages_body hfit hb) ha'
  | data i o => exact hdoc fun s hi => ⟨(h.lives i s hi).data o, rfl, rfl, h.inv, fun F tag j t _ g _ _ => still rfl rfl F tag t g⟩
  | file i n x ty now =>
    exact hdoc fun s hi => ⟨(h.lives i s hi).file n x ty now ha, rfl, rfl, h.inv, fun F tag j t _ g _ _ => still rfl rfl F tag t g⟩
  | name i f => exact hdoc fun s hi => ⟨(h.lives i s hi).named f, rfl, rfl, h.inv, fun F tag j t _ g _ _ => still rfl rfl F tag t g⟩
  | save i env k backup =>
    refine hdoc fun s hi => ?_
    have hf := C69_frame L env k backup (s := put R s) rfl
    exact ⟨(h.lives i s hi).saved env k backup, hf.2.1, hf.2.2.2.1, h.inv, fun F tag j t _ g _ _ => still hf.1 rfl F tag t g⟩
  | saveas i env k backup f =>
    refine hdoc fun s hi => ?_
    have hf := C69_frame L env k backup (s := { put R s with docname := some f }) rfl
    exact ⟨(h.lives i s hi).savedAs env k backup f, hf.2.1, hf.2.2.2.1, h.inv, fun F tag j t _ g _ _ => still hf.1 rfl F tag t g⟩
  | open_ k src =>
    simp only [exec]
    cases hs : openWhole L R.fs k src R.world with
    | error e => exact ⟨h, fun j s hj _ => hj, hsame rfl rfl⟩
    | ok s =>
      unfold openWhole at hs
      cases ho : Package.open_ L.pkg R.fs src k.now with
      | error e => rw [ho] at hs; cases hs
      | ok fm =>
        rw [ho] at hs
        dsimp only at hs
        cases hd : detect (dlib L) R.fs fm with
        | error e => rw [hd] at hs; cases hs
        | ok mt =>
          rw [hd] at hs
          exact hadd ho hs
  | new k mt =>
    simp only [exec]
    cases hs : newIn L R.fs k mt R.world with
    | error e => exact ⟨h, fun j s hj _ => hj, hsame rfl rfl⟩
    | ok s =>
      unfold newIn at hs
      cases ho : Package.open_ L.pkg R.fs (.file none) k.now with
      | error e => rw [ho] at hs; cases hs
      | ok fm =>
        rw [ho] at hs
        exact hadd ho hs

/-- **C87**, whole programs: whatever objects are moved from document to document, all documents stay in order, and of no
document anything but the contents of the body changes. -/
theorem C87_runs (hlaw : L.Lawful) (hpick : ∀ k l, pick k l ∉ l) {R R' : Room} {as : List Act} (h : OK L R)
    (hr : Runs L pick R as R') : OK L R' ∧
    (∀ (j : Nat) s, R.docs[j]? = some s → (∀ a ∈ as, a.doc ≠ some j) → R'.docs[j]? = some s) ∧
    ∀ (j : Nat) s, R.docs[j]? = some s → ∃ s', R'.docs[j]? = some s' ∧ s'.tree = s.tree ∧ s'.mimetype = s.mimetype ∧
      Frame R.world R'.world s.tree := by
  induction hr with
  | done R => exact ⟨h, fun j s hj _ => hj, fun j s hj => ⟨s, hj, rfl, rfl, .refl _ _⟩⟩
  | act a ha _ ih =>
    obtain ⟨g1, g2, g3⟩ := C87_step hlaw hpick h ha
    obtain ⟨i1, i2, i3⟩ := ih g1
    refine ⟨i1, fun j s hj hno => i2 j s (g2 j s hj (hno a (by simp))) fun b hb => hno b (by simp [hb]), fun j s hj => ?_⟩
    obtain ⟨s1, a1, a2, a3, a4⟩ := g3 j s hj
    obtain ⟨s2, b1, b2, b3, b4⟩ := i3 j s1 a1
    rw [a2] at b4
    exact ⟨s2, b1, b2.trans a2, b3.trans a3, a4.trans b4⟩

/-- A program starts without documents and objects. -/
theorem C87_start (L : XLib) (fs : Package.FS) : OK L ⟨.nil, {}, fs, [], []⟩ :=
  ⟨by simp [ids], .empty, fun n hn => by simp at hn, fun i s hs => by simp at hs, fun _ _ => False, fun i s hs => by simp at hs,
    fun i j s t _ hs => by simp at hs⟩

/-- **C87**: each document with all objects of the program is a program of C83, so all that C69, C79, C81, C83 and C85 say of
a document and of statements with its body and objects is true of it, also when an object is in another document. -/
theorem C87_sound {R : Room} (h : OK L R) {i : Nat} {s : Session} (hi : R.docs[i]? = some s) :
    PageProg.Sound L (seen R s) := by
  obtain ⟨F, hF, -⟩ := h.docs
  obtain ⟨tag, h1, h2, h3⟩ := hF i s hi
  refine ⟨⟨h.lives i s hi, ⟨F i, tag, h1, ⟨h2.kept, h3⟩⟩, fun t ht hb => ?_⟩, h.inv⟩
  obtain ⟨c, hc⟩ := find_some_of_mem (h2.kept.mem _ (h2.kept.frame s.tree.content.root (by simp)))
  refine roots_apart h2.kept.once (h2.roots s.tree.styles.root (by simp)) (h2.roots s.tree.content.root (by simp)) ?_ ht hc hb
    (body_in h2.kept hc)
  intro e
  have a1 := h2.kept.refs.stylesRoot
  have a2 := h2.kept.refs.contentRoot
  rw [e, a2] at a1
  simp at a1

end Verif.Room
