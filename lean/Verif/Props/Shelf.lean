import Verif.Proofs.Shelf
import Verif.Props.RoomMoved
import Verif.Props.Books
/-!
# C92: tables that are moved between documents

A program opens documents and makes new ones, works with their texts, sheets and tables, copies tables, and puts its objects,
also tables, into any of them, wherever they are.
-/
namespace Verif.Shelf
open Verif Verif.Lxml Forest Verif.Whole Verif.Document Verif.Mix
open Verif.Program (TableObj tableState stateOf Config)
open Verif.TextProg (Kept Loose Firm)
open Verif.Desk (Held Beside roots_apart body_in held_firm made_beside newIn)
open Verif.Tbl (Legible)
open Verif.Room (Frame fresh fresh_kept beside_step body_is body_tag)
open Verif.Books (glue glue_in glue_out glue_cover)
set_option linter.unusedSimpArgs false

variable {L : XLib} {FL : Cells.FloatLib} {strategy : String} {mx : Int × Int}

/-! ## The programs -/

/-- The objects of the program, with the tables `R` that are not inside of others and the nodes `T` inside of tables: the
objects of tables are in order, the tables without objects can be read, and no object is inside of a table. -/
structure Stock (R T : Nat → Prop) (S : Shelf) : Prop where
  cover : Cover R T S.world
  loose : ∀ n ∈ S.objs, Loose (fun _ => False) S.world n
  objs : ∀ n ∈ S.objs, (∃ o ∈ S.tables, o.node = n) ∨ Out R T n
  roots : ∀ o ∈ S.tables, R o.node ∧ o.node ∈ S.objs
  distinct : (S.tables.map TableObj.node).Nodup
  sound : ∀ o ∈ S.tables, ∀ t, find o.node S.world = some t → Tbl.Sound (tableState S.world o t)
  legible : ∀ n, R n → (∀ o ∈ S.tables, o.node ≠ n) → ∀ t, find n S.world = some t → Legible t

/-- One document: `F` are the nodes that belong to its frame, and no object of the program is one of them. -/
structure Doc (L : XLib) (F R T : Nat → Prop) (tag : String) (S : Shelf) (s : Session) : Prop where
  lives : Lives L (put S s)
  known : MIMETYPE_BODYTAG_MAP.get s.mimetype = some tag
  held : Held F S.world tag s.tree
  free : ∀ n ∈ S.objs, ¬ F n
  body : Out R T s.tree.body.node
  styles : Out R T s.tree.styles.root

/-- The documents and the objects are in order; each document has trees of its own, and no frame has the body of another
document. -/
def OK (L : XLib) (S : Shelf) : Prop :=
  ∃ (F : Nat → Nat → Prop) (R T : Nat → Prop), Stock R T S ∧
    (∀ (i : Nat) s, S.docs[i]? = some s → ∃ tag, Doc L (F i) R T tag S s) ∧
    ∀ (i j : Nat) s t, i ≠ j → S.docs[i]? = some s → S.docs[j]? = some t →
      ¬ F i t.tree.body.node ∧ ∀ r ∈ [s.tree.styles.root, s.tree.content.root], r ∉ [t.tree.styles.root, t.tree.content.root]

/-- The document that a statement is about -/
def Act.doc : Act FL → Option Nat
  | .act i _ | .data i _ | .file i .. | .name i _ | .save i .. | .saveas i .. => some i
  | .open_ .. | .new .. => none

/-- The table that a statement is a call on -/
def Act.callee : Act FL → Option Nat
  | .act _ a => calleeOf a
  | _ => none

/-- The statements of a program: those of C88 and C90 as there; other files do not have the names of the parts of the
document; the tables of a document that is opened can be read. -/
def Allowed (L : XLib) (S : Shelf) : Act FL → Prop
  | .act i a => ∀ s, S.docs[i]? = some s → AllowedC (seen S s) a
  | .file _ n _ _ _ => n ∉ [Package.MIMETYPE, MANIFEST, ROOT, META, STYLES, CONTENT]
  | .open_ k src => ∀ s, openWhole L S.fs k src S.world = .ok s → ∀ t ∈ topTables s.world, t.1.id ∉ ids S.world → Legible t
  | _ => True

/-- A program as a list of statements; a statement that raises is passed over. -/
def run (L : XLib) (strategy : String) (mx : Int × Int) (l : List (Act FL)) (S : Shelf) : Shelf :=
  l.foldl (fun S a => (exec L strategy mx a S).1) S

/-- All statements are allowed where they stand. -/
def AllAllowed (L : XLib) (strategy : String) (mx : Int × Int) : List (Act FL) → Shelf → Prop
  | [], _ => True
  | a :: l, S => Allowed L S a ∧ AllAllowed L strategy mx l (exec L strategy mx a S).1

/-- What the table object number `k` is like, wherever it is: its element without the text that follows it, all that is in
it, and the lists of its controllers -/
def look (S : Shelf) (k : Nat) : Option (Elem × Forest × List Nat × List Nat) :=
  S.tables[k]?.bind fun o => (S.world.find o.node).map fun t => ({ t.1 with tail := none }, t.2, o.rows, o.cols)

/-! ## One document -/

/-- What C88 and C90 want of a document -/
theorem ready {F R T : Nat → Prop} {tag : String} {S : Shelf} {s : Session} (h : Stock R T S) (d : Doc L F R T tag S s) :
    Ready L F R T tag (seen S s) := by
  have hk := d.held.kept
  refine ⟨d.lives, ?_, d.known, ⟨hk, fun n hn => ⟨(h.loose n hn).mem, d.free n hn, (h.loose n hn).tag⟩⟩, h.cover, d.body, h.objs,
    h.roots, h.distinct, h.sound, fun n hR _ hno t ht => h.legible n hR hno t ht⟩
  intro t ht hb
  have ht : find s.tree.styles.root S.world = some t := ht
  obtain ⟨c, hc⟩ := find_some_of_mem (hk.mem _ (hk.frame s.tree.content.root (by simp)))
  refine roots_apart hk.once (d.held.roots s.tree.styles.root (by simp)) (d.held.roots s.tree.content.root (by simp)) ?_ ht hc hb
    (body_in hk hc)
  intro e
  have a1 := hk.refs.stylesRoot
  have a2 := hk.refs.contentRoot
  rw [e, a2] at a1
  simp at a1

theorem firm_same {F : Nat → Prop} {W V : World} {tag : String} {d : Parts.DocTree} (hd : Held F W tag d) (hs : Firm F W V tag d) :
    Frame W V d := by
  have hS := hd.kept.frame d.styles.root (by simp)
  have hC := hd.kept.frame d.content.root (by simp)
  obtain ⟨s, hs'⟩ := find_some_of_mem (hd.kept.mem _ hS)
  obtain ⟨c, hc⟩ := find_some_of_mem (hd.kept.mem _ hC)
  refine ⟨?_, ?_, TextProg.Firm.decls hd.kept hs⟩
  · rw [hs']
    refine TextProg.Firm.tree hd.kept hs hS hs' fun hb => ?_
    refine roots_apart hd.kept.once (hd.roots d.styles.root (by simp)) (hd.roots d.content.root (by simp)) ?_ hs' hc hb
      (body_in hd.kept hc)
    intro e
    have a1 := hd.kept.refs.stylesRoot
    have a2 := hd.kept.refs.contentRoot
    rw [e, a2] at a1
    simp at a1
  · obtain ⟨t', e1, e2⟩ := TextProg.Firm.content hd.kept hs hC hc
    rw [hc, e1]
    simp only [Option.map_some]
    rw [e2]

/-- A change of a document that leaves its trees alone -/
theorem over_session {F R T : Nat → Prop} {tag : String} {p : Mix.Prog} (h : Ready L F R T tag p) {s : Session} (hl : Lives L s)
    (hw : s.world = p.text.session.world) (ht : s.tree = p.text.session.tree) (hm : s.mimetype = p.text.session.mimetype) :
    Over L F R T R T tag p { p with text := { p.text with session := s } } := by
  have hW : ({ p with text := { p.text with session := s } } : Mix.Prog).world = p.world := hw
  have hW' : ({ p.text with session := s } : TextProg.Prog).world = p.text.world := hw
  refine ⟨⟨hl, ?_, ?_, ⟨?_, ?_⟩, ?_, ?_, h.objs, h.roots, h.distinct, ?_, ?_⟩, ht, ?_, fun x hx => .inl hx,
    fun o ho => ⟨o, ho, rfl⟩, fun G tg d g => ⟨?_, g.objs⟩⟩
  · rw [hW]; dsimp only; rw [ht]; exact h.apart
  · dsimp only; rw [hm]; exact h.known
  · rw [hW']; dsimp only; rw [ht]; exact h.fits.kept
  · rw [hW']; exact h.fits.objs
  · rw [hW]; exact h.cover
  · dsimp only; rw [ht]; exact h.body
  · rw [hW]; exact h.sound
  · rw [hW]; exact h.others
  · rw [hW]; exact fun x hx ho => ⟨hx, ho⟩
  · rw [hW]; exact ⟨g.kept, fun _ _ _ => rfl, rfl⟩

/-- A statement with the document number `i` -/
theorem doc_step {S : Shelf} (h : OK L S) {i : Nat} {s : Session} {q : Mix.Prog} (hi : S.docs[i]? = some s)
    (hs : ∀ F R T tag, Ready L F R T tag (seen S s) → ∃ R' T', Over L F R T R' T' tag (seen S s) q) :
    OK L ⟨q.text.session.world, q.text.session.w.fs, S.docs.set i q.text.session, q.text.objs, q.tables⟩ ∧
      ∀ (j : Nat) t, S.docs[j]? = some t → Frame S.world q.text.session.world t.tree := by
  obtain ⟨F, R, T, hst, hF, hA⟩ := h
  obtain ⟨tag, hd⟩ := hF i s hi
  have hr := ready hst hd
  obtain ⟨R', T', ov⟩ := hs _ _ _ _ hr
  have htree : q.text.session.tree = s.tree := ov.tree
  have hleft : ∀ (j : Nat) t tg, S.docs[j]? = some t → Doc L (F j) R T tg S t → Left (F j) tg t.tree (seen S s) q := by
    intro j t tg hj dj
    refine ov.guest _ _ _ ⟨dj.held.kept, dj.free, ?_⟩
    by_cases e : j = i
    · subst e
      rw [hi] at hj
      cases hj
      exact .inl rfl
    · exact .inr (hA j i t s e hj hi).1
  have hset : ∀ (j : Nat) t, (S.docs.set i q.text.session)[j]? = some t →
      (j = i ∧ t = q.text.session) ∨ (j ≠ i ∧ S.docs[j]? = some t) := by
    intro j t hj
    by_cases e : j = i
    · subst e
      rw [List.getElem?_set_self (List.getElem?_eq_some_iff.mp hi).1] at hj
      exact .inl ⟨rfl, (Option.some.inj hj).symm⟩
    · rw [List.getElem?_set_ne (Ne.symm e)] at hj
      exact .inr ⟨e, hj⟩
  have hold : ∀ (j : Nat) t, (S.docs.set i q.text.session)[j]? = some t → ∃ t0, S.docs[j]? = some t0 ∧ t.tree = t0.tree := by
    intro j t hj
    rcases hset j t hj with ⟨rfl, rfl⟩ | ⟨-, hj⟩
    · exact ⟨s, hi, htree⟩
    · exact ⟨t, hj, rfl⟩
  refine ⟨⟨F, R', T', ⟨ov.ready.cover, fun n hn => ?_, ov.ready.objs, ov.ready.roots, ov.ready.distinct, ov.ready.sound, ?_⟩, ?_, ?_⟩,
    fun j t hj => ?_⟩
  · have := ov.ready.fits.objs n hn
    exact ⟨this.mem, id, this.tag⟩
  · intro n hR hno t ht
    by_cases hf : F i n
    · have hRn : R n := (ov.old n hR).resolve_right fun ⟨o, ho, e⟩ => hno o ho e
      have hno' : ∀ o ∈ S.tables, o.node ≠ n := by
        intro o ho e
        obtain ⟨o', ho', e'⟩ := ov.tables o ho
        exact hno o' ho' (e'.trans e)
      obtain ⟨t0, ht0⟩ := find_some_of_mem (hst.cover.mem n (.inl hRn))
      have hb : s.tree.body.node ∉ ids (single t0) := by
        simp only [ids_single, List.mem_cons, not_or, (find_mem_ids ht0).1]
        exact ⟨fun e => hd.body.1 (by rw [e]; exact hRn), fun hin => hd.body.2 (hst.cover.below (.inl hRn) ht0 _ hin)⟩
      have hsame := TextProg.Firm.tree hd.held.kept (hleft i s tag hi hd).firm hf ht0 hb
      have ht : find n q.world = some t := ht
      rw [hsame] at ht
      rw [← Option.some.inj ht]
      exact hst.legible n hRn hno' t0 ht0
    · exact ov.ready.others n hR hf hno t ht
  · intro j t hj
    rcases hset j t hj with ⟨rfl, rfl⟩ | ⟨hne, hj'⟩
    · have hl := hleft j s tag hi hd
      refine ⟨tag, ov.ready.lives, ov.ready.known, ?_, hl.objs, ov.ready.body, ?_⟩
      · rw [htree]
        exact held_firm hd.held hl.firm
      · rw [htree]
        exact (ov.out _ (hd.held.kept.mem _ (hd.held.kept.frame _ (by simp))) hd.styles).2
    · obtain ⟨tg, dj⟩ := hF j t hj'
      have hl := hleft j t tg hj' dj
      exact ⟨tg, (dj.lives.trees (W := q.text.session.world) (d := t.tree) hl.firm.kept.once dj.known hl.firm.kept.refs).disk _,
        dj.known, held_firm dj.held hl.firm, hl.objs,
        (ov.out _ (dj.held.kept.mem _ (dj.held.kept.frame _ (by simp))) dj.body).2,
        (ov.out _ (dj.held.kept.mem _ (dj.held.kept.frame _ (by simp))) dj.styles).2⟩
  · intro j k a b hjk ha hb
    obtain ⟨a0, ha0, e1⟩ := hold j a ha
    obtain ⟨b0, hb0, e2⟩ := hold k b hb
    rw [e1, e2]
    exact hA j k a0 b0 hjk ha0 hb0
  · obtain ⟨tg, dj⟩ := hF j t hj
    exact firm_same dj.held (hleft j t tg hj dj).firm

/-- The trees of the memory are the same beside a new document. -/
theorem beside_find {W V : World} (hn : (ids W).Nodup) (b : Beside W V) {n : Nat} (h : n ∈ ids W) : find n V = find n W := by
  obtain ⟨t, ht⟩ := find_some_of_mem h
  rw [ht]
  exact tree_of_nodes hn b.once ht fun q hq => b.same q ((find_sub ht).subset hq)

/-- Another document -/
theorem add_step (hlaw : L.Lawful) {S : Shelf} (h : OK L S) {k : Clock} {src : Package.Source} {fm : Package.FM}
    {mt : Option Str} {s : Session} (ho : Package.open_ L.pkg S.fs src k.now = .ok fm)
    (hs : packagedWhole L S.fs k fm mt S.world = .ok s) (hread : ∀ t ∈ topTables s.world, t.1.id ∉ ids S.world → Legible t) :
    OK L { S with world := s.world, fs := s.w.fs, docs := S.docs ++ [s] } ∧ Beside S.world s.world ∧
      ∀ (j : Nat) t, S.docs[j]? = some t → Frame S.world s.world t.tree := by
  obtain ⟨F, R, T, hst, hF, hA⟩ := h
  have honce := hst.cover.once
  obtain ⟨b, n1, n2⟩ := made_beside hlaw honce hs
  obtain ⟨tag, htag, hfr⟩ := Program.made_framed hlaw honce ho hs
  have hset : ∀ (j : Nat) r, (S.docs ++ [s])[j]? = some r →
      (j = S.docs.length ∧ r = s) ∨ (j ≠ S.docs.length ∧ S.docs[j]? = some r) := by
    intro j r hr
    rcases lt_trichotomy j S.docs.length with hj | hj | hj
    · rw [List.getElem?_append_left hj] at hr
      exact .inr ⟨by omega, hr⟩
    · subst hj
      simp at hr
      exact .inl ⟨rfl, hr.symm⟩
    · rw [List.getElem?_eq_none (by simp; omega)] at hr
      cases hr
  have hfresh := fresh_kept honce b hfr n1 n2
  have hroots : ∀ r ∈ [s.tree.styles.root, s.tree.content.root], r ∈ Lxml.roots s.world ∧ r ∉ ids S.world := by
    intro r hr
    simp only [List.mem_cons, List.not_mem_nil, or_false] at hr
    rcases hr with rfl | rfl
    · exact ⟨hfr.styles, n1⟩
    · exact ⟨hfr.content, n2⟩
  have hmem : ∀ x ∈ ids S.world, x ∈ ids s.world := fun x hx => Desk.node_ids (b.same x hx) hx
  have hcov := glue_cover (M := (· ∈ ids S.world)) hst.cover (start_cover b.once) (fun x hx => b.same x hx) hmem
    (fun q e l x hq hx hqW => by rw [b.same q hqW] at hq; exact TextProg.node_child hq hx)
    (fun q e l x hq hx hxW => b.parent honce hq hx hxW)
  have hout : ∀ x ∈ ids S.world, Out R T x →
      Out (glue (· ∈ ids S.world) R (TopTable s.world)) (glue (· ∈ ids S.world) T (InTable s.world)) x :=
    fun x hx ho => ⟨by rw [glue_in (M := (· ∈ ids S.world)) hx]; exact ho.1, by rw [glue_in (M := (· ∈ ids S.world)) hx]; exact ho.2⟩
  have hsteps : ∀ (j : Nat) t tg, S.docs[j]? = some t → Doc L (F j) R T tg S t → Firm (F j) S.world s.world tg t.tree :=
    fun j t tg _ dj => (beside_step dj.held.kept b).firm
  have hdiff : ∀ (j : Nat) t, S.docs[j]? = some t → ∀ r ∈ [t.tree.styles.root, t.tree.content.root],
      r ∉ [s.tree.styles.root, s.tree.content.root] := by
    intro j t hj r hr hr'
    obtain ⟨tg, dj⟩ := hF j t hj
    exact (hroots r hr').2 (roots_sub (dj.held.roots r hr))
  have hbody : ∀ (j : Nat) t, S.docs[j]? = some t → t.tree.body.node ∈ ids S.world := by
    intro j t hj
    obtain ⟨tg, dj⟩ := hF j t hj
    exact dj.held.kept.mem _ (dj.held.kept.frame _ (by simp))
  have hbf := hfresh.frame s.tree.body.node (by simp)
  refine ⟨⟨fun j => if j = S.docs.length then fresh S.world s.world s.tree else F j, _, _, ⟨hcov, ?_, ?_, ?_, hst.distinct, ?_, ?_⟩,
    ?_, ?_⟩, b, ?_⟩
  · intro n hn
    have hl := hst.loose n hn
    exact ⟨hmem n hl.mem, id, fun t ht => by rw [node_tag (b.same n hl.mem)]; exact hl.tag t ht⟩
  · intro n hn
    exact (hst.objs n hn).imp_right (hout n (hst.loose n hn).mem)
  · intro o ho
    refine ⟨?_, (hst.roots o ho).2⟩
    rw [glue_in (M := (· ∈ ids S.world)) (hst.cover.mem _ (.inl (hst.roots o ho).1))]
    exact (hst.roots o ho).1
  · intro o ho t ht
    have ht : find o.node s.world = some t := ht
    have ht' := ht
    rw [beside_find honce b (hst.cover.mem _ (.inl (hst.roots o ho).1))] at ht
    exact Program.sound_fresh (hst.sound o ho t ht) ht'
  · intro n hR hno t ht
    have ht : find n s.world = some t := ht
    by_cases hn : n ∈ ids S.world
    · rw [glue_in (M := (· ∈ ids S.world)) hn] at hR
      rw [beside_find honce b hn] at ht
      exact hst.legible n hR hno t ht
    · rw [glue_out (M := (· ∈ ids S.world)) hn] at hR
      obtain ⟨t', a1, rfl⟩ := hR
      rw [top_find b.once a1] at ht
      rw [← Option.some.inj ht]
      exact hread t' a1 hn
  · intro j t hj
    rcases hset j t hj with ⟨rfl, rfl⟩ | ⟨hne, hj'⟩
    · simp only [↓reduceIte]
      refine ⟨tag, Lives.made t.docname honce ho hs, htag, ⟨hfresh, fun r hr => (hroots r hr).1⟩,
        fun n hn hf => hf.2 (hst.loose n hn).mem, ?_, ?_⟩
      on_goal 2 =>
        refine ⟨?_, ?_⟩
        · rw [glue_out (M := (· ∈ ids S.world)) n1]
          intro hR
          have a1 := (start_cover b.once).table _ hR
          have a2 : Parts.tagAt t.world t.tree.styles.root = _ := hfresh.refs.stylesRoot
          rw [a2] at a1
          simp at a1
        · rw [glue_out (M := (· ∈ ids S.world)) n1]
          rintro ⟨u, hu, hin⟩
          exact child_not_root b.once (top_find b.once hu) hin hfr.styles
      have := start_body hfr
      exact ⟨by rw [glue_out (M := (· ∈ ids S.world)) hbf.2]; exact this.1, by rw [glue_out (M := (· ∈ ids S.world)) hbf.2]; exact this.2⟩
    · simp only [if_neg hne]
      obtain ⟨tg, dj⟩ := hF j t hj'
      have hfm := hsteps j t tg hj' dj
      exact ⟨tg, (dj.lives.trees (W := s.world) (d := t.tree) hfm.kept.once dj.known hfm.kept.refs).disk s.w.fs, dj.known,
        held_firm dj.held hfm, dj.free, hout _ (hbody j t hj') dj.body,
        hout _ (dj.held.kept.mem _ (dj.held.kept.frame _ (by simp))) dj.styles⟩
  · intro j k u v hjk hu hv
    rcases hset j u hu with ⟨rfl, rfl⟩ | ⟨hj, hu'⟩ <;> rcases hset k v hv with ⟨hk, rfl⟩ | ⟨hk, hv'⟩
    · exact absurd hk.symm hjk
    · simp only [↓reduceIte]
      exact ⟨fun hf => hf.2 (hbody k v hv'), fun r hr hr' => hdiff k v hv' r hr' hr⟩
    · simp only [if_neg hj]
      obtain ⟨tg, dj⟩ := hF j u hu'
      exact ⟨fun hf => hbf.2 (dj.held.kept.mem _ hf), hdiff j u hu'⟩
    · simp only [if_neg hj]
      exact hA j k u v hjk hu' hv'
  · intro j t hj
    obtain ⟨tg, dj⟩ := hF j t hj
    exact firm_same dj.held (hsteps j t tg hj dj)

/-- What a statement with the document `i` does -/
theorem onDoc_some {S : Shelf} {i : Nat} {s : Session} (hi : S.docs[i]? = some s) (m : Py Mix.Prog Unit) :
    onDoc i m S = (⟨(m (seen S s)).1.text.session.world, (m (seen S s)).1.text.session.w.fs,
      S.docs.set i (m (seen S s)).1.text.session, (m (seen S s)).1.text.objs, (m (seen S s)).1.tables⟩, (m (seen S s)).2) := by
  unfold onDoc
  rw [hi]

theorem onDoc_none {S : Shelf} {i : Nat} (hi : S.docs[i]? = none) (m : Py Mix.Prog Unit) :
    onDoc i m S = (S, .error .NameError) := by
  unfold onDoc
  rw [hi]

/-- What a statement leaves of the documents and the objects -/
structure Step (L : XLib) (d c : Option Nat) (S S' : Shelf) : Prop where
  ok : OK L S'
  /-- The attributes, names, meta data and lists of parts of the other documents have not changed. -/
  others : ∀ (j : Nat) s, S.docs[j]? = some s → d ≠ some j → S'.docs[j]? = some s
  /-- Of no document anything but the contents of the body has changed. -/
  frames : ∀ (j : Nat) s, S.docs[j]? = some s → ∃ s', S'.docs[j]? = some s' ∧ s'.tree = s.tree ∧ s'.mimetype = s.mimetype ∧
    Frame S.world S'.world s.tree
  /-- The objects of the program remain. -/
  objs : S.objs <+: S'.objs
  tables : S.tables.map TableObj.node <+: S'.tables.map TableObj.node
  /-- No table but the one that is called has changed, in whatever document it is or is put. -/
  same : ∀ k, k < S.tables.length → c ≠ some k → look S' k = look S k

theorem Step.refl {S : Shelf} (h : OK L S) (d c : Option Nat) : Step L d c S S :=
  ⟨h, fun _ _ hj _ => hj, fun _ s hj => ⟨s, hj, rfl, rfl, .refl _ _⟩, List.prefix_refl _, List.prefix_refl _, fun _ _ _ => rfl⟩

/-- **C92**: each document with all objects of the program is as if it were alone, so what C88, C89 and C90 say of a document
is true of it. -/
theorem C92_sound {S : Shelf} (h : OK L S) {i : Nat} {s : Session} (hi : S.docs[i]? = some s) : Mix.OK L (seen S s) := by
  obtain ⟨F, R, T, hst, hF, -⟩ := h
  obtain ⟨tag, hd⟩ := hF i s hi
  exact ⟨F i, R, T, tag, ready hst hd⟩

/-- **C92**, one statement: whether it raises or not, all documents and objects are in order after it; of no document
anything but the contents of the body has changed, and no table but the one that is called. -/
theorem C92_step (hlaw : L.Lawful) (hc : Config strategy mx) {S : Shelf} (h : OK L S) {a : Act FL} (ha : Allowed L S a) :
    Step L a.doc a.callee S (exec L strategy mx a S).1 := by
  have hdoc : ∀ {i : Nat} {m : Py Mix.Prog Unit} {c : Option Nat}, (∀ s, S.docs[i]? = some s → ∀ F R T tag,
      Ready L F R T tag (seen S s) → (∃ R' T', Over L F R T R' T' tag (seen S s) (m (seen S s)).1) ∧
        Moves L F tag c (seen S s) (m (seen S s)).1) → Step L (some i) c S (onDoc i m S).1 := by
    intro i m c hm
    cases hi : S.docs[i]? with
    | none => rw [onDoc_none hi]; exact .refl h _ _
    | some s =>
      rw [onDoc_some hi]
      obtain ⟨g1, g2⟩ := doc_step h hi fun F R T tag hr => (hm s hi F R T tag hr).1
      obtain ⟨F, R, T, tag, hr⟩ := C92_sound h hi
      have mv := (hm s hi F R T tag hr).2
      refine ⟨g1, fun j t hj hne => ?_, fun j t hj => ?_, mv.objs, mv.tables, fun k hk hne => mv.others k hk hne⟩
      · show (S.docs.set i _)[j]? = _
        rw [List.getElem?_set_ne fun e => hne (by rw [e])]
        exact hj
      · by_cases e : j = i
        · subst e
          rw [hi] at hj
          cases hj
          exact ⟨_, List.getElem?_set_self (List.getElem?_eq_some_iff.mp hi).1, mv.frame.tree, mv.frame.mimetype, g2 j s hi⟩
        · exact ⟨t, by
            show (S.docs.set i _)[j]? = _
            rw [List.getElem?_set_ne (Ne.symm e)]; exact hj, rfl, rfl, g2 j t hj⟩
  have hadd : ∀ {k : Clock} {src : Package.Source} {fm : Package.FM} {mt : Option Str} {s : Session},
      Package.open_ L.pkg S.fs src k.now = .ok fm → packagedWhole L S.fs k fm mt S.world = .ok s →
      (∀ t ∈ topTables s.world, t.1.id ∉ ids S.world → Legible t) → Step L none none S (add (.ok s) S).1 := by
    intro k src fm mt s ho hs hr
    obtain ⟨g1, b, g2⟩ := add_step hlaw h ho hs hr
    have hj' : ∀ (j : Nat) t, S.docs[j]? = some t → (add (.ok s) S).1.docs[j]? = some t := by
      intro j t hj
      show (S.docs ++ [_])[j]? = _
      rw [List.getElem?_append_left (List.getElem?_eq_some_iff.mp hj).1]
      exact hj
    refine ⟨g1, fun j t hj _ => hj' j t hj, fun j t hj => ⟨t, hj' j t hj, rfl, rfl, g2 j t hj⟩, List.prefix_refl _, List.prefix_refl _,
      fun k hk _ => ?_⟩
    obtain ⟨F, R, T, hst, -, -⟩ := h
    show (S.tables[k]?.bind fun o => (s.world.find o.node).map _) = S.tables[k]?.bind fun o => (S.world.find o.node).map _
    cases hk' : S.tables[k]? with
    | none => rfl
    | some o =>
      simp only [Option.bind_some]
      rw [beside_find hst.cover.once b (hst.cover.mem _ (.inl (hst.roots o (List.mem_of_getElem? hk')).1))]
  have hses : ∀ {s s' : Session} {c : Option Nat} {F R T : Nat → Prop} {tag : String}, Ready L F R T tag (seen S s) → Lives L s' →
      s'.world = S.world → s'.tree = s.tree → s'.mimetype = s.mimetype →
      (∃ R' T', Over L F R T R' T' tag (seen S s) { (seen S s) with text := { (seen S s).text with session := s' } }) ∧
        Moves L F tag c (seen S s) { (seen S s) with text := { (seen S s).text with session := s' } } :=
    fun hr hl hw ht hm => ⟨⟨_, _, over_session hr hl hw ht hm⟩, Books.ready_session hr hl hw ht hm _⟩
  cases a with
  | act i a => exact hdoc fun s hi F R T tag hr => ⟨over_copy hr hc (ha s hi), Books.ready_copy hr hc (ha s hi)⟩
  | data i o => exact hdoc fun s hi F R T tag hr => hses hr (.data hr.lives o) rfl rfl rfl
  | file i n x t now => exact hdoc fun s hi F R T tag hr => hses hr (.file hr.lives n x t now ha) rfl rfl rfl
  | name i f => exact hdoc fun s hi F R T tag hr => hses hr (.named hr.lives f) rfl rfl rfl
  | save i env k backup =>
    refine hdoc fun s hi F R T tag hr => ?_
    obtain ⟨f1, f2, -, f4, -⟩ := C69_frame L env k backup (s := (seen S s).text.session)
      (s' := (saveWhole L env k backup (seen S s).text.session).1) (r := (saveWhole L env k backup (seen S s).text.session).2) rfl
    exact hses hr (.saved hr.lives env k backup) f1 f2 f4
  | saveas i env k backup f =>
    refine hdoc fun s hi F R T tag hr => ?_
    obtain ⟨f1, f2, -, f4, -⟩ := C69_frame L env k backup (s := { (seen S s).text.session with docname := some f })
      (s' := (saveWhole L env k backup { (seen S s).text.session with docname := some f }).1)
      (r := (saveWhole L env k backup { (seen S s).text.session with docname := some f }).2) rfl
    exact hses hr (.savedAs hr.lives env k backup f) f1 f2 f4
  | open_ k src =>
    show Step L none none S (add (openWhole L S.fs k src S.world) S).1
    cases hs : openWhole L S.fs k src S.world with
    | error e => exact .refl h _ _
    | ok s =>
      have hr := ha s hs
      unfold openWhole at hs
      cases ho : Package.open_ L.pkg S.fs src k.now with
      | error e => rw [ho] at hs; cases hs
      | ok fm =>
        rw [ho] at hs
        dsimp only at hs
        cases hd : detect (dlib L) S.fs fm with
        | error e => rw [hd] at hs; cases hs
        | ok mt =>
          rw [hd] at hs
          exact hadd ho hs hr
  | new k mt =>
    show Step L none none S (add (newIn L S.fs k mt S.world) S).1
    cases hs : newIn L S.fs k mt S.world with
    | error e => exact .refl h _ _
    | ok s =>
      obtain ⟨F, R, T, hst, -, -⟩ := id h
      have hno := new_bare hlaw hst.cover.once hs
      unfold newIn at hs
      cases ho : Package.open_ L.pkg S.fs (.file none) k.now with
      | error e => rw [ho] at hs; cases hs
      | ok fm =>
        rw [ho] at hs
        refine hadd ho hs fun t ht hn => ?_
        obtain ⟨b, -, -⟩ := made_beside hlaw hst.cover.once hs
        have hf := top_find b.once ht
        exact absurd (by rw [tagAt_find hf, (topTables_nodes ht).2]) (hno t.1.id (find_mem hf) hn)

/-- **C92**, whole programs: the documents, which may give and take tables, are all in order; their frames have not changed,
and a table that no statement calls is what it was, wherever it has been put. -/
theorem C92_runs (hlaw : L.Lawful) (hc : Config strategy mx) (acts : List (Act FL)) : ∀ {S : Shelf}, OK L S →
    AllAllowed L strategy mx acts S → let S' := run L strategy mx acts S
    OK L S' ∧ (∀ (j : Nat) s, S.docs[j]? = some s → (∀ a ∈ acts, a.doc ≠ some j) → S'.docs[j]? = some s) ∧
    (∀ (j : Nat) s, S.docs[j]? = some s → ∃ s', S'.docs[j]? = some s' ∧ s'.tree = s.tree ∧ s'.mimetype = s.mimetype ∧
      Frame S.world S'.world s.tree) ∧
    S.objs <+: S'.objs ∧ S.tables.map TableObj.node <+: S'.tables.map TableObj.node ∧
    ∀ k, k < S.tables.length → (∀ a ∈ acts, a.callee ≠ some k) → look S' k = look S k := by
  induction acts with
  | nil =>
    intro S h _
    exact ⟨h, fun _ _ hj _ => hj, fun _ s hj => ⟨s, hj, rfl, rfl, .refl _ _⟩, List.prefix_refl _, List.prefix_refl _, fun _ _ _ => rfl⟩
  | cons a l ih =>
    intro S h ha
    have g := C92_step (strategy := strategy) (mx := mx) hlaw hc h ha.1
    obtain ⟨i1, i2, i3, i4, i5, i6⟩ := ih g.ok ha.2
    refine ⟨i1, fun j s hj hno => i2 j s (g.others j s hj (hno a (by simp))) fun b hb => hno b (by simp [hb]), fun j s hj => ?_,
      g.objs.trans i4, g.tables.trans i5, fun k hk hno => ?_⟩
    · obtain ⟨s1, h1, h2, h3, h4⟩ := g.frames j s hj
      obtain ⟨s2, k1, k2, k3, k4⟩ := i3 j s1 h1
      exact ⟨s2, k1, k2.trans h2, k3.trans h3, h4.trans (by rw [← h2]; exact k4)⟩
    · have hl := g.tables.length_le
      simp only [List.length_map] at hl
      exact (i6 k (by omega) fun b hb => hno b (by simp [hb])).trans (g.same k hk (hno a (by simp)))

/-- A program starts without documents and objects. -/
theorem C92_start (L : XLib) (fs : Package.FS) : OK L ⟨.nil, fs, [], [], []⟩ := by
  refine ⟨fun _ _ => False, TopTable .nil, InTable .nil, ⟨start_cover (by simp [ids]), by simp, by simp, by simp, by simp, by simp, ?_⟩,
    fun i s hs => by simp at hs, fun i j s t _ hs => by simp at hs⟩
  rintro n ⟨t, ht, -⟩
  simp [topTables] at ht

end Verif.Shelf
