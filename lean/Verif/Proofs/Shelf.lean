import Verif.Model.Shelf
import Verif.Proofs.Books
import Verif.Proofs.Room
/-! Helper lemmas for C92: what a statement with one document does to the tables, and to the frames of other documents. -/
namespace Verif.Shelf
open Verif Verif.Lxml Forest Verif.Whole Verif.Document Verif.Mix
open Verif.Program (TableObj tableState stateOf Config method)
open Verif.TextProg (Kept Loose Step Firm Fits Place node_some node_mem node_kids node_tagAt node_child declTags)
set_option linter.unusedSimpArgs false

variable {L : XLib} {F R T R' T' G : Nat → Prop} {tag tg : String} {p q r : Mix.Prog} {d : Parts.DocTree}

/-- A document `d` beside the one that a statement works with: no object is a node of its frame `G`, nor is the body that the
statement works with, when it is not its own. -/
structure Guest (G : Nat → Prop) (tg : String) (d : Parts.DocTree) (p : Mix.Prog) : Prop where
  kept : Kept G p.world tg d
  objs : ∀ n ∈ p.text.objs, ¬ G n
  body : p.text.session.tree.body.node = d.body.node ∨ ¬ G p.text.session.tree.body.node

/-- What a statement leaves of a document -/
structure Left (G : Nat → Prop) (tg : String) (d : Parts.DocTree) (p q : Mix.Prog) : Prop where
  firm : Firm G p.world q.world tg d
  objs : ∀ n ∈ q.text.objs, ¬ G n

/-- A statement: what is outside of tables remains so, new tables that are not inside of others have objects, and all
documents are left in order. -/
structure Over (L : XLib) (F R T R' T' : Nat → Prop) (tag : String) (p q : Mix.Prog) : Prop where
  ready : Ready L F R' T' tag q
  tree : q.text.session.tree = p.text.session.tree
  out : ∀ x ∈ ids p.world, Out R T x → x ∈ ids q.world ∧ Out R' T' x
  old : ∀ x, R' x → R x ∨ ∃ o ∈ q.tables, o.node = x
  tables : ∀ o ∈ p.tables, ∃ o' ∈ q.tables, o'.node = o.node
  guest : ∀ G tg d, Guest G tg d p → Left G tg d p q

theorem Over.refl (h : Ready L F R T tag p) : Over L F R T R T tag p p :=
  ⟨h, rfl, fun _ hx ho => ⟨hx, ho⟩, fun _ hx => .inl hx, fun o ho => ⟨o, ho, rfl⟩,
    fun _ _ _ g => ⟨⟨g.kept, fun _ _ _ => rfl, rfl⟩, g.objs⟩⟩

theorem Over.trans {R1 T1 R2 T2 : Nat → Prop} (h : Over L F R T R1 T1 tag p q) (g : Over L F R1 T1 R2 T2 tag q r) :
    Over L F R T R2 T2 tag p r := by
  refine ⟨g.ready, g.tree.trans h.tree, fun x hx ho => ?_, fun x hx => ?_, fun o ho => ?_, fun G tg d k => ?_⟩
  · obtain ⟨h1, h2⟩ := h.out x hx ho
    exact g.out x h1 h2
  · rcases g.old x hx with h1 | h1
    · rcases h.old x h1 with h2 | ⟨o, ho, e⟩
      · exact .inl h2
      · obtain ⟨o', ho', e'⟩ := g.tables o ho
        exact .inr ⟨o', ho', e'.trans e⟩
    · exact .inr h1
  · obtain ⟨o', ho', e'⟩ := h.tables o ho
    obtain ⟨o2, ho2, e2⟩ := g.tables o' ho'
    exact ⟨o2, ho2, e2.trans e'⟩
  · have k1 := h.guest G tg d k
    have k2 := g.guest G tg d ⟨k1.firm.kept, k1.objs, by rw [h.tree]; exact k.body⟩
    exact ⟨k1.firm.trans k2.firm, k2.objs⟩

/-- The objects and the body, seen from another document -/
theorem Guest.loose (g : Guest G tg d p) (h : Ready L F R T tag p) {n : Nat} (hn : n ∈ p.text.objs) : Loose G p.world n :=
  ⟨(h.fits.objs n hn).mem, g.objs n hn, (h.fits.objs n hn).tag⟩

theorem Guest.place (g : Guest G tg d p) (h : Ready L F R T tag p) : Place G p.world d p.text.session.tree.body.node := by
  rcases g.body with hb | hb
  · exact .inl hb
  · refine .inr ⟨h.fits.kept.mem _ (h.fits.kept.frame _ (by simp)), hb, fun u hu => ?_⟩
    have hu' : Parts.tagAt p.text.world p.text.session.tree.body.node = some tag := Room.body_is h.fits.kept
    show Parts.tagAt p.text.world _ ≠ _
    rw [hu']
    rintro ⟨⟩
    exact Room.body_tag h.known hu

theorem Guest.tableLoose (g : Guest G tg d p) (h : Ready L F R T tag p) {o : TableObj} (ho : o ∈ p.tables) : Loose G p.world o.node :=
  g.loose h (h.roots o ho).2

/-- A statement that does not reach into tables -/
theorem over_world (h : Ready L F R T tag p) {W' : World} (st : Step F p.world W' tag p.text.session.tree)
    (ca : Calm R T p.world W') (hg : ∀ G tg d, Guest G tg d p → Step G p.world W' tg d) :
    Over L F R T R T tag p (p.setWorld W') :=
  ⟨(h.setWorld st ca).1, rfl, fun x hx ho => ⟨ca.mem x hx, ho⟩, fun _ hx => .inl hx, fun o ho => ⟨o, ho, rfl⟩,
    fun G tg d g => ⟨(hg G tg d g).firm, g.objs⟩⟩

/-- A statement with text objects -/
theorem over_text (h : Ready L F R T tag p) {a : TextProg.Act} (ha : TextProg.Allowed p.text a)
    (hu : ∀ k ∈ edits a, ∀ n, p.text.objs[k]? = some n → Parts.tagAt p.world n ≠ some "table:table") :
    Over L F R T R T tag p (onText (TextProg.exec a) p).1 := by
  have hacts := TextProg.exec_acts h.fits ha
  have hleft := exec_left (R := R) (T := T) (a := a) (p := p.text)
    ⟨h.cover, h.body, fun n hn => h.not_inside hn, fun k hk n hn => h.plain (List.mem_of_getElem? hn) (hu k hk n hn)⟩ ha
  obtain ⟨a1, a2, a3⟩ := h.calm (q := (onText (TextProg.exec a) p).1) hacts.session hacts.step hleft.calm hacts.objs
    hleft.objs hacts.more rfl
  refine ⟨a1, a2.tree, fun x hx ho => ⟨hleft.calm.mem x hx, ho⟩, fun _ hx => .inl hx, fun o ho => ⟨o, ho, rfl⟩,
    fun G tg d g => ?_⟩
  have hs := View.exec_sent (p := p.text) (a := a) (F := G) (tag := tg) (d := d)
    ⟨g.kept, fun k _ n hn => g.loose h (List.mem_of_getElem? hn), g.place h⟩ ha
  refine ⟨hs.step.firm, fun n hn => ?_⟩
  rcases hs.objs n hn with hn | hn
  · exact g.objs n hn
  · exact hn.free

/-- A change of one table -/
theorem over_put (h : Ready L F R T tag p) {T0 : Nat → Prop} (h' : Ready L F R T0 tag q) {n : Nat} (hR : R n) {t t' : Tree}
    (P : Put p.world q.world n t t') (ht : q.text.session.tree = p.text.session.tree)
    (hob : ∀ x ∈ q.text.objs, x ∈ p.text.objs ∨ x = n) (htab : ∀ o ∈ p.tables, ∃ o' ∈ q.tables, o'.node = o.node)
    (hg : ∀ G tg d, Guest G tg d p → ¬ G n) :
    Over L F R T R (inside T p.world q.world) tag p q := by
  have htag : t'.1.tag = "table:table" := by
    have := h'.cover.table n hR
    rw [tagAt_find P.self] at this
    exact Option.some.inj this
  have hcov := put_cover P h.cover hR htag
  have hout : ∀ x ∈ ids p.world, Out R T x → x ∈ ids q.world ∧ Out R (inside T p.world q.world) x := by
    intro x hx ho
    refine ⟨(P.mem x).mpr (.inl ⟨hx, h.cover.root_out P hR ho.2 fun e => ho.1 (by rw [e]; exact hR)⟩), put_out h.cover hx ho⟩
  refine ⟨⟨h'.lives, h'.apart, h'.known, h'.fits, hcov, ?_, ?_, h'.roots, h'.distinct, h'.sound, h'.others⟩, ht, hout,
    fun _ hx => .inl hx, htab, fun G tg d g => ⟨put_firm P g.kept (hg G tg d g) htag, fun x hx => ?_⟩⟩
  · rw [ht]
    exact (hout _ (h.fits.kept.mem _ (h.fits.kept.frame _ (by simp))) h.body).2
  · intro x hx
    rcases h'.objs x hx with g | g
    · exact .inl g
    · rcases hob x hx with hx' | hx'
      · rcases h.objs x hx' with ⟨o, ho, e⟩ | g'
        · obtain ⟨o', ho', e'⟩ := htab o ho
          exact .inl ⟨o', ho', e'.trans e⟩
        · exact .inr (hout x (h.fits.objs x hx').mem g').2
      · exact absurd (by rw [hx']; exact hR) g.1
  · rcases hob x hx with hx' | hx'
    · exact g.objs x hx'
    · rw [hx']; exact hg G tg d g

/-- A table that has been read as a new object -/
theorem over_opened (h : Ready L F R T tag p) {strategy : String} {mx : Int × Int} {t : Tree} {S : Tbl.TState} (hR : R t.1.id)
    (hS : Opened L F R tag strategy mx p t S) (hg : ∀ G tg d, Guest G tg d p → ¬ G t.1.id) :
    Over L F R T R (inside T p.world (opened p t S).world) tag p (opened p t S) := by
  obtain ⟨T0, h'⟩ := hS.ready
  refine over_put h h' hR hS.put rfl (fun x hx => ?_) (fun o ho => ⟨o, List.mem_append_left _ ho, rfl⟩) hg
  rcases List.mem_append.mp hx with hx | hx
  · exact .inl hx
  · exact .inr (List.mem_singleton.mp hx)

/-- A new table -/
theorem over_made (h : Ready L F R T tag p) {S : Tbl.TState} (hS : Tbl.Sound S) (hid : S.node.id = Parts.newId p.world)
    (hids : ∀ i ∈ ids S.kids, Parts.newId p.world < i) :
    Over L F R T (fun x => R x ∨ x = S.node.id) (fun x => T x ∨ x ∈ ids S.kids) tag p (made p S) := by
  have hnew : ∀ i ∈ ids (single (S.node, S.kids)), Parts.newId p.world ≤ i := by
    intro i hi
    simp only [ids_single, List.mem_cons] at hi
    rcases hi with rfl | hi
    · exact Nat.le_of_eq hid.symm
    · exact Nat.le_of_lt (hids i hi)
  have hnd : (ids (single (S.node, S.kids))).Nodup := by
    simp only [ids_single, List.nodup_cons]
    refine ⟨fun hm => ?_, hS.inv.wf.nodup⟩
    have := hids _ hm
    rw [hid] at this
    exact absurd this (Nat.lt_irrefl _)
  obtain ⟨-, a2, -⟩ := nodup_add h.cover.once hnd hnew
  have hsd : Tbl.Sound (tableState (made p S).world ⟨S.node.id, S.rows, S.cols⟩ (S.node, S.kids)) :=
    hS.fresh fun i hi => lt_newId ((find_sub a2).subset (by simp [hi]))
  obtain ⟨b1, b2, b3⟩ := h.create (q := made p S) hnd hnew hS.tag (o := ⟨S.node.id, S.rows, S.cols⟩) rfl rfl rfl rfl rfl hsd
  have hlt : ∀ x ∈ ids p.world, x ∉ ids (single (S.node, S.kids)) := fun x hx hin => by
    have := lt_newId hx
    have := hnew x hin
    omega
  refine ⟨b1, rfl, fun x hx ho => ⟨?_, ?_, ?_⟩, ?_, fun o ho => ⟨o, List.mem_append_left _ ho, rfl⟩, fun G tg d g => ?_⟩
  · show x ∈ ids (p.world ++ _)
    rw [ids_app]
    exact List.mem_append_left _ hx
  · rintro (g | g)
    · exact ho.1 g
    · exact hlt x hx (by simp [g])
  · rintro (g | g)
    · exact ho.2 g
    · exact hlt x hx (by simp [g])
  · rintro x (hx | hx)
    · exact .inl hx
    · exact .inr ⟨⟨S.node.id, S.rows, S.cols⟩, by simp [made], hx.symm⟩
  · obtain ⟨st, hl⟩ := g.kept.add hnd hnew (by rw [hS.tag]; decide)
    refine ⟨st.firm, fun n hn => ?_⟩
    rcases List.mem_append.mp hn with hn | hn
    · exact g.objs n hn
    · rw [List.mem_singleton.mp hn]; exact hl.free

/-- A table that is a child of the body is in no frame. -/
theorem Guest.sheet (g : Guest G tg d p) (h : Ready L F R T tag p) {t : Tree} (ht : t ∈ sheetsOf p.text.session) : ¬ G t.1.id := by
  obtain ⟨s1, s2, -⟩ := h.sheet ht
  obtain ⟨b, hb⟩ := find_some_of_mem (h.fits.kept.mem _ (h.fits.kept.frame p.text.session.tree.body.node (by simp)))
  unfold sheetsOf at ht
  have hb' : p.text.session.world.find p.text.session.tree.body.node = some b := hb
  rw [hb'] at ht
  have hm := List.mem_map_of_mem (f := fun u : Tree => u.1.id) (List.mem_filter.mp ht).1
  rcases g.body with e | e
  · refine (g.kept.free b.1 (roots b.2) _ (by rw [← e]; exact node_of_find hb) hm).mpr fun u hu => ?_
    rw [h.cover.table _ s2]
    intro he
    rw [← Option.some.inj he] at hu
    exact absurd hu (by decide)
  · exact fun hf => e (g.kept.up _ b.1 (roots b.2) _ (node_of_find hb) hm hf)

/-- `doc.sheets[key]` -/
theorem over_access (h : Ready L F R T tag p) {strategy : String} {mx : Int × Int} (hc : Config strategy mx) (key : Pages.Key) :
    ∃ q r, Program.access strategy mx key p.sheets = (q.sheets, r) ∧ onProgram (Program.access strategy mx key) p = (q, r) ∧
      (∃ T1, Over L F R T R T1 tag p q) ∧ p.text.objs <+: q.text.objs ∧
      match r with
      | .error _ => q = p
      | .ok i => (∃ o, q.tables[i]? = some o) ∧ p.text.session.tree.sheets = some p.text.session.tree.body.node := by
  obtain ⟨q, r, e1, e2, e3⟩ := h.access hc key
  refine ⟨q, r, e1, e2, ?_⟩
  cases r with
  | error e => simp only at e3; subst e3; exact ⟨⟨T, .refl h⟩, List.prefix_refl _, rfl⟩
  | ok i =>
    obtain ⟨-, -, f3, -, t, f4, f5, -, f6⟩ := e3
    rcases f6 with ⟨-, rfl⟩ | ⟨-, -, S, hS, rfl⟩
    · exact ⟨⟨T, .refl h⟩, List.prefix_refl _, f3, f5⟩
    · have ht := Program.findSheet_mem f4
      exact ⟨⟨_, over_opened h (h.sheet ht).2.1 hS fun G tg d g => g.sheet h ht⟩, List.prefix_append _ _, f3, f5⟩

theorem nodeOf_ok {i : Nat} {o : TableObj} (h : p.tables[i]? = some o) : Program.nodeOf i p.sheets = (p.sheets, .ok o.node) := by
  unfold Program.nodeOf
  have : p.sheets.tables[i]? = some o := h
  rw [this]

theorem nodeOf_none {i : Nat} (h : p.tables[i]? = none) : Program.nodeOf i p.sheets = (p.sheets, .error .NameError) := by
  unfold Program.nodeOf
  have : p.sheets.tables[i]? = none := h
  rw [this]

theorem onSheets_ok {b : Nat} (h : p.text.session.tree.sheets = some b) (m : Nat → Py World Unit) :
    Program.onSheets m p.sheets = (p.sheets.setWorld (m b p.world).1, (m b p.world).2) := by
  unfold Program.onSheets
  have : p.sheets.session.tree.sheets = some b := h
  rw [this]
  rfl

theorem over_delete (h : Ready L F R T tag p) {strategy : String} {mx : Int × Int} (hc : Config strategy mx) (key : Pages.Key) :
    ∃ R' T', Over L F R T R' T' tag p (onProgram (Program.delete strategy mx key) p).1 := by
  obtain ⟨q, r, e1, e2, ⟨T1, e3⟩, -, e4⟩ := over_access h hc key
  unfold Program.delete
  cases r with
  | error e =>
    simp only at e4
    subst e4
    rw [onProgram_same (r := .error e) (by rw [Py.bind_error e1])]
    exact ⟨_, _, .refl h⟩
  | ok i =>
    obtain ⟨⟨o, f3⟩, f4⟩ := e4
    have hom := List.mem_of_getElem? f3
    have f1 := e3.ready
    have key : (do let n ← Program.nodeOf i; Program.onSheets fun b => Lxml.remove b n : Py Program.Prog Unit) q.sheets =
        (q.sheets.setWorld (Lxml.remove q.text.session.tree.body.node o.node q.world).1,
          (Lxml.remove q.text.session.tree.body.node o.node q.world).2) := by
      rw [Py.bind_ok (nodeOf_ok f3), onSheets_ok (by rw [e3.tree]; exact f4)]
      rw [e3.tree]
    rw [onProgram_then e1 key, e2]
    exact ⟨_, _, e3.trans (over_world f1 (TextProg.remove_step f1.fits.kept _ (f1.tableLoose hom).free)
      (remove_calm f1.cover _ (f1.cover.apart _ (f1.roots o hom).1))
      fun G tg d g => TextProg.remove_step g.kept _ (g.tableLoose f1 hom).free)⟩

theorem over_replace (h : Ready L F R T tag p) {strategy : String} {mx : Int × Int} (hc : Config strategy mx) (key : Pages.Key)
    (i : Nat) : ∃ R' T', Over L F R T R' T' tag p (onProgram (Program.replace strategy mx key i) p).1 := by
  unfold Program.replace
  cases ho : p.tables[i]? with
  | none =>
    rw [onProgram_same (r := .error .NameError) (by rw [Py.bind_error (nodeOf_none ho)])]
    exact ⟨_, _, .refl h⟩
  | some o =>
    have hskip : ∀ {f : Nat → Py Program.Prog Unit}, onProgram (Program.nodeOf i >>= f) p = onProgram (f o.node) p := by
      intro f
      unfold onProgram
      rw [Py.bind_ok (nodeOf_ok ho)]
    rw [hskip]
    obtain ⟨q, r, e1, e2, ⟨T1, e3⟩, hpre, e4⟩ := over_access h hc key
    cases r with
    | error e =>
      simp only at e4
      subst e4
      rw [onProgram_same (r := .error e) (by rw [Py.bind_error e1])]
      exact ⟨_, _, .refl h⟩
    | ok j =>
      obtain ⟨⟨o', f3⟩, f4⟩ := e4
      have hom := List.mem_of_getElem? f3
      have f1 := e3.ready
      have key : (do let old ← Program.nodeOf j; Program.onSheets fun b => Lxml.replace b old o.node : Py Program.Prog Unit) q.sheets =
          (q.sheets.setWorld (Lxml.replace q.text.session.tree.body.node o'.node o.node q.world).1,
            (Lxml.replace q.text.session.tree.body.node o'.node o.node q.world).2) := by
        rw [Py.bind_ok (nodeOf_ok f3), onSheets_ok (by rw [e3.tree]; exact f4)]
        rw [e3.tree]
      rw [onProgram_then e1 key, e2]
      have hoq : o.node ∈ q.text.objs := hpre.subset (h.roots o (List.mem_of_getElem? ho)).2
      exact ⟨_, _, e3.trans (over_world f1 (TextProg.replace_step f1.fits.kept (.inl rfl) (f1.tableLoose hom).free (f1.fits.objs _ hoq))
        (replace_calm f1.cover f1.body (f1.not_inside hoq))
        fun G tg d g => TextProg.replace_step g.kept (g.place f1) (g.tableLoose f1 hom).free (g.loose f1 hoq))⟩

theorem over_sheets (h : Ready L F R T tag p) {i : Nat} {m : Nat → Nat → Py World Unit}
    (hst : ∀ o ∈ p.tables, Step F p.world (m p.text.session.tree.body.node o.node p.world).1 tag p.text.session.tree)
    (hca : ∀ o ∈ p.tables, Calm R T p.world (m p.text.session.tree.body.node o.node p.world).1)
    (hg : ∀ o ∈ p.tables, ∀ G tg d, Guest G tg d p → Step G p.world (m p.text.session.tree.body.node o.node p.world).1 tg d) :
    Over L F R T R T tag p
      (onProgram (do let n ← Program.nodeOf i; Program.onSheets fun b => m b n : Py Program.Prog Unit) p).1 := by
  cases ho : p.tables[i]? with
  | none =>
    rw [onProgram_same (r := .error .NameError) (by rw [Py.bind_error (nodeOf_none ho)])]
    exact .refl h
  | some o =>
    have hom := List.mem_of_getElem? ho
    cases hb : p.text.session.tree.sheets with
    | none =>
      rw [onProgram_same (r := .error .AttributeError)]
      · exact .refl h
      · rw [Py.bind_ok (nodeOf_ok ho)]
        unfold Program.onSheets
        have : p.sheets.session.tree.sheets = none := hb
        rw [this]
    | some b =>
      have hbn := h.sheetsNode hb
      subst hbn
      rw [onProgram_world (W' := (m p.text.session.tree.body.node o.node p.world).1)
        (r := (m p.text.session.tree.body.node o.node p.world).2)]
      · exact over_world h (hst o hom) (hca o hom) (hg o hom)
      · rw [Py.bind_ok (nodeOf_ok ho), onSheets_ok hb]

/-- `get_child` -/
theorem over_grab {FL : Cells.FloatLib} (h : Ready L F R T tag p) {strategy : String} {mx : Int × Int} (hc : Config strategy mx)
    {t : Option Nat} {index : Int} (ha : Mix.Allowed p (.grab (F := FL) t index)) :
    ∃ R' T', Over L F R T R' T' tag p (grab strategy mx t index p).1 := by
  by_cases hfound : ∃ c u, TextProg.Found p.text t index c ∧ find c p.world = some u
  · obtain ⟨c, u, hf, hu⟩ := hfound
    rw [grab_eq hf hu]
    split
    · rename_i htab
      obtain ⟨k1, k2, k3, k4⟩ := h.foundTable ha hf hu htab
      obtain ⟨S, hS⟩ := h.open hc k1 k2 k3 k4
      rw [(wrapTable_opened hS).2]
      refine ⟨_, _, over_opened h k2 hS fun G tg d g => ?_⟩
      rw [(find_mem_ids hu).1]
      obtain ⟨n, hn, hgc⟩ := hf
      have hpl : Place G p.world d n := by
        cases t with
        | none => cases hn; exact g.place h
        | some k =>
          have hn : (TextProg.obj k p.text).2 = .ok n := hn
          unfold TextProg.obj at hn
          cases hx : p.text.objs[k]? with
          | none => rw [hx] at hn; cases hn
          | some x => rw [hx] at hn; cases hn; exact .inr (g.loose h (List.mem_of_getElem? hx))
      exact (TextProg.found_free g.kept hpl hgc fun _ tg htg =>
        (ha.2 c ⟨n, hn, hgc⟩).1 tg (List.mem_append_left _ htg)).2
    · rename_i htab
      refine ⟨_, _, over_text h (a := .get t index) ?_ (fun k hk => ha.1 k (by
        have : edits (.get t index) = t.toList := rfl
        rw [this] at hk
        simpa using hk))⟩
      intro c' hc' tg htg
      have hcc : c' = c := by
        obtain ⟨n, e1, e2⟩ := hf
        obtain ⟨n', e3, e4⟩ := hc'
        rw [e1] at e3
        cases e3
        rw [e2] at e4
        cases e4
        rfl
      subst hcc
      obtain ⟨hc1, -⟩ := ha.2 c' hf
      rcases List.mem_append.mp htg with htg | htg
      · exact hc1 tg (List.mem_append_left _ htg)
      · rcases List.mem_cons.mp htg with rfl | htg
        · show Parts.tagAt p.world c' ≠ _
          rw [tagAt_find hu]
          exact fun he => htab (Option.some.inj he)
        · exact hc1 tg (List.mem_append_right _ htg)
  · have : (Mix.grab strategy mx t index p).1 = p := by
      unfold Mix.grab
      rw [target_get]
      cases h1 : (TextProg.target t p.text).2 with
      | error e => rfl
      | ok n =>
        cases h2 : (Lxml.getitem n index p.world).2 with
        | error e =>
          have h2 : (Lxml.getitem n index p.text.world).2 = .error e := h2
          simp only [h2]
        | ok c =>
          cases h3 : find c p.world with
          | none =>
            have h2 : (Lxml.getitem n index p.text.world).2 = .ok c := h2
            simp only [h2, h3]
          | some u => exact absurd ⟨c, u, ⟨n, h1, h2⟩, h3⟩ hfound
    rw [this]
    exact ⟨_, _, .refl h⟩

/-- All statements -/
theorem over_copy {FL : Cells.FloatLib} (h : Ready L F R T tag p) {strategy : String} {mx : Int × Int} (hc : Config strategy mx)
    {a : CopyAct FL} (ha : AllowedC p a) : ∃ R' T', Over L F R T R' T' tag p (execCopy strategy mx a p).1 := by
  cases a with
  | copy i newname =>
    show ∃ R' T', Over L F R T R' T' tag p (Mix.copy strategy mx i newname p).1
    unfold Mix.copy
    split
    · exact ⟨_, _, .refl h⟩
    · rename_i o ho
      split
      · exact ⟨_, _, .refl h⟩
      · rename_i t ht
        split
        · exact ⟨_, _, .refl h⟩
        · rename_i C hC
          obtain ⟨e2, e3, e4, -, -⟩ := Books.copyTable_ok (h.sound o (List.mem_of_getElem? ho) t ht) hc hC
          exact ⟨_, _, over_made h e2 e3 e4⟩
  | act a =>
    cases a with
    | text a => exact ⟨_, _, over_text h ha.1 ha.2⟩
    | grab t index => exact over_grab (FL := FL) h hc ha
    | table a =>
      show ∃ R' T', Over L F R T R' T' tag p (onProgram (Program.exec strategy mx a) p).1
      cases hm : method a with
      | some im =>
        obtain ⟨i, m⟩ := im
        cases ho : p.tables[i]? with
        | none =>
          have : Program.exec strategy mx a p.sheets = (p.sheets, .error .NameError) := by
            rw [Program.exec_method hm]
            unfold Program.onTable
            have : p.sheets.tables[i]? = none := ho
            rw [this]
          rw [onProgram_same this]
          exact ⟨_, _, .refl h⟩
        | some o =>
          have hom := List.mem_of_getElem? ho
          obtain ⟨t, ht⟩ := h.found hom
          obtain ⟨e1, ⟨T0, e2⟩, e3, e4, e5, e6, -⟩ := h.method ha hm strategy mx ho ht
          rw [e1]
          refine ⟨_, _, over_put h e2 (h.roots o hom).1 e4 rfl (fun x hx => .inl hx) (fun o2 ho2 => ?_)
            fun G tg d g => (g.tableLoose h hom).free⟩
          have : o2.node ∈ (called p i o (m (tableState p.world o t)).1).tables.map TableObj.node := by
            rw [e6]; exact List.mem_map_of_mem ho2
          obtain ⟨y, hy, e⟩ := List.mem_map.mp this
          exact ⟨y, hy, e⟩
      | none =>
        cases a with
        | create nm size =>
          show ∃ R' T', Over L F R T R' T' tag p (onProgram (do let _ ← Program.create nm size; pure ()) p).1
          rw [onProgram_void]
          cases hn : Tbl.newTable (Parts.newId p.world) nm size with
          | mk S r =>
            cases r with
            | error e =>
              have : Program.create nm size p.sheets = (p.sheets, .error e) := by
                unfold Program.create
                have hn : Tbl.newTable (Parts.newId p.sheets.world) nm size = (S, .error e) := hn
                rw [hn]
              rw [onProgram_same this]
              exact ⟨_, _, .refl h⟩
            | ok u =>
              rw [create_made hn]
              obtain ⟨g1, g2⟩ := Program.created_grow hn
              exact ⟨_, _, over_made h (Tbl.Life.created hn).sound' g1 g2⟩
        | append i =>
          exact ⟨_, _, over_sheets h (i := i) (m := fun b n => Lxml.append b n)
            (fun o ho => TextProg.append_step h.fits.kept (.inl rfl) (h.tableLoose ho))
            (fun o ho => append_calm h.cover h.body (h.cover.apart _ (h.roots o ho).1))
            fun o ho G tg d g => TextProg.append_step g.kept (g.place h) (g.tableLoose h ho)⟩
        | insert index i =>
          exact ⟨_, _, over_sheets h (i := i) (m := fun b n => Lxml.insert b index n)
            (fun o ho => TextProg.insert_step h.fits.kept index (.inl rfl) (h.tableLoose ho))
            (fun o ho => insert_calm h.cover index h.body (h.cover.apart _ (h.roots o ho).1))
            fun o ho G tg d g => TextProg.insert_step g.kept index (g.place h) (g.tableLoose h ho)⟩
        | access key =>
          show ∃ R' T', Over L F R T R' T' tag p (onProgram (do let _ ← Program.access strategy mx key; pure ()) p).1
          rw [onProgram_void]
          obtain ⟨q, r, -, e2, ⟨T1, e3⟩, -⟩ := over_access h hc key
          rw [e2]
          exact ⟨_, _, e3⟩
        | delete key => exact over_delete h hc key
        | replace key i => exact over_replace h hc key i
        | call => cases hm
        | write => cases hm
        | writeRow => cases hm
        | writeColumn => cases hm


/-! ## New documents -/

theorem roots_mapKids (n : Nat) (g : Forest → Forest) (W : Forest) : Lxml.roots (Forest.mapKids n g W) = Lxml.roots W := by
  unfold Forest.mapKids
  induction W with
  | nil => rfl
  | cons e k r _ ih =>
    unfold Forest.subst
    split <;> simp [ih]

/-- Nothing becomes a tree of its own. -/
def Rooted {α : Type} (m : Py World α) : Prop := ∀ W, Lxml.roots (m W).1 = Lxml.roots W

theorem Rooted.bind {α β : Type} {m : Py World α} {f : α → Py World β} (h : Rooted m) (g : ∀ a, Rooted (f a)) : Rooted (m >>= f) := by
  intro W
  cases hm : m W with
  | mk W' r =>
    have h1 := h W
    rw [hm] at h1
    cases r with
    | ok a => rw [Py.bind_ok hm, g a W']; exact h1
    | error e => rw [Py.bind_error hm]; exact h1

theorem Rooted.pure {α : Type} (a : α) : Rooted (pure a : Py World α) := fun _ => rfl

theorem sub_rooted (n : Nat) (tag : String) : Rooted (Parts.sub n tag) := by
  intro W
  unfold Parts.sub Body.subelement
  split
  · rfl
  · split
    · rfl
    · exact roots_mapKids _ _ _

theorem tagOf_rooted (n : Nat) : Rooted (Parts.tagOf n) := by
  intro W
  unfold Parts.tagOf
  split <;> rfl

theorem vars_rooted (n : Nat) : Rooted (Vars.init n) := by
  intro W
  unfold Vars.init
  split <;> rfl

theorem body_rooted (n : Nat) (tag : String) : Rooted (Parts.applicationBody n tag) := by
  unfold Parts.applicationBody Parts.bodyInit
  exact (sub_rooted _ _).bind fun _ => (tagOf_rooted _).bind fun _ => (sub_rooted _ _).bind fun _ => (vars_rooted _).bind fun _ =>
    (sub_rooted _ _).bind fun _ => (vars_rooted _).bind fun _ => .pure _

theorem styles_rooted (n : Nat) : Rooted (Parts.stylesSetup n) := by
  unfold Parts.stylesSetup
  exact (sub_rooted _ _).bind fun _ => (sub_rooted _ _).bind fun _ => (sub_rooted _ _).bind fun _ => (sub_rooted _ _).bind fun _ =>
    .pure _

theorem content_rooted (n : Nat) : Rooted (Parts.contentSetup n) := by
  unfold Parts.contentSetup
  exact (sub_rooted _ _).bind fun _ => (sub_rooted _ _).bind fun _ => (sub_rooted _ _).bind fun _ => (sub_rooted _ _).bind fun _ =>
    .pure _

theorem newRoot_roots (tag : String) (W : World) : Lxml.roots (Parts.newRoot tag W).1 = Lxml.roots W ++ [Parts.newId W] := by
  unfold Parts.newRoot
  rw [roots_append]
  simp [Forest.single]

/-- A new document has two trees. -/
theorem tree_roots {A W' : World} {mt : Str} {d : Parts.DocTree} (h : Parts.packagedTree mt none none A = (W', .ok d)) :
    ∃ a b, Lxml.roots W' = Lxml.roots A ++ [a] ++ [b] := by
  unfold Parts.packagedTree at h
  obtain ⟨W1, s, h1, h⟩ := bind_inv h
  obtain ⟨W2, c, h2, h⟩ := bind_inv h
  have e1 : ∃ a, Lxml.roots W1 = Lxml.roots A ++ [a] := by
    unfold Parts.stylesInit at h1
    dsimp only at h1
    obtain ⟨V, r, g1, g2⟩ := bind_inv h1
    have k1 := newRoot_roots "office:document-styles" A
    have k2 := styles_rooted r V
    rw [g1] at k1
    rw [g2] at k2
    exact ⟨_, k2.trans k1⟩
  have e2 : ∃ b, Lxml.roots W2 = Lxml.roots W1 ++ [b] := by
    unfold Parts.contentInit at h2
    dsimp only at h2
    split at h2
    · obtain ⟨V, r, g1, g2⟩ := bind_inv h2
      have k1 := newRoot_roots "office:document-content" W1
      have k2 := content_rooted r V
      rw [g1] at k1
      rw [g2] at k2
      exact ⟨_, k2.trans k1⟩
    · simp [Py.raise] at h2
  obtain ⟨a, e1⟩ := e1
  obtain ⟨b, e2⟩ := e2
  refine ⟨a, b, ?_⟩
  cases ht : MIMETYPE_BODYTAG_MAP.get mt with
  | none => rw [ht] at h; simp [Py.raise] at h
  | some tag =>
    rw [ht] at h
    dsimp only at h
    obtain ⟨W3, bo, h3, h⟩ := bind_inv h
    rw [Py.pure_def] at h
    simp only [Prod.mk.injEq, Except.ok.injEq] at h
    obtain ⟨rfl, -⟩ := h
    have k := body_rooted c.body tag W2
    rw [h3] at k
    rw [k, e2, e1]

/-- A new document has no table at all. -/
theorem new_bare (hlaw : L.Lawful) {fs : Package.FS} {k : Clock} {mt : Str} {A : World} {s : Session} (hn : (ids A).Nodup)
    (h : Desk.newIn L fs k mt A = .ok s) : ∀ x ∈ ids s.world, x ∉ ids A → Parts.tagAt s.world x ≠ some "table:table" := by
  unfold Desk.newIn at h
  cases ho : Package.open_ L.pkg fs (.file none) k.now with
  | error e => rw [ho] at h; cases h
  | ok fm =>
    rw [ho] at h
    dsimp only at h
    obtain ⟨hb, hsA, hcA⟩ := Desk.made_beside hlaw hn h
    obtain ⟨tag, -, hfr⟩ := Program.made_framed hlaw hn ho h
    have hk := TextProg.start_kept hfr
    obtain ⟨hsrc, -, -⟩ := open_ok ho
    have hst : ∀ n, storedBytes fs fm n = none := by
      intro n
      unfold storedBytes Package.getBytes Package.srcZip
      rw [hsrc]
    obtain ⟨doc, so, co, W1, W2, W3, tree, hdoc, h1, h2, h3, rfl⟩ := packagedWhole_inv h
    rw [hst] at h1 h2
    have e1 : W1 = A ∧ so = none := by
      have : readTree L none A = (A, .ok none) := rfl
      rw [this] at h1
      simp only [Prod.mk.injEq, Except.ok.injEq] at h1
      exact ⟨h1.1.symm, h1.2.symm⟩
    obtain ⟨rfl, rfl⟩ := e1
    have e2 : W2 = W1 ∧ co = none := by
      have : readTree L none W1 = (W1, .ok none) := rfl
      rw [this] at h2
      simp only [Prod.mk.injEq, Except.ok.injEq] at h2
      exact ⟨h2.1.symm, h2.2.symm⟩
    obtain ⟨rfl, rfl⟩ := e2
    have hno := Books.tree_noTable hn h3
    obtain ⟨a, b, hr⟩ := tree_roots h3
    intro x hx hA
    by_cases hxr : x ∈ Lxml.roots W3
    · have t1 : Parts.tagAt W3 tree.styles.root = _ := hk.refs.stylesRoot
      have t2 : Parts.tagAt W3 tree.content.root = _ := hk.refs.contentRoot
      have m1 : tree.styles.root ∈ Lxml.roots W3 := hfr.styles
      have m2 : tree.content.root ∈ Lxml.roots W3 := hfr.content
      have hne : tree.styles.root ≠ tree.content.root := by
        intro e
        rw [e, t2] at t1
        simp at t1
      have key : ∀ y ∈ Lxml.roots W3, y ∉ ids W2 → y = a ∨ y = b := by
        intro y hy hyA
        rw [hr] at hy
        simp only [List.mem_append, List.mem_singleton] at hy
        rcases hy with (hy | hy) | hy
        · exact absurd (roots_sub hy) hyA
        · exact .inl hy
        · exact .inr hy
      have hx3 : x = tree.styles.root ∨ x = tree.content.root := by
        rcases key x hxr hA with e | e <;> rcases key _ m1 hsA with e1 | e1 <;> rcases key _ m2 hcA with e2 | e2 <;>
          first
            | exact .inl (e.trans e1.symm)
            | exact .inr (e.trans e2.symm)
            | exact absurd (e1.trans e2.symm) hne
      show Parts.tagAt W3 x ≠ _
      rcases hx3 with rfl | rfl
      · rw [t1]; simp
      · rw [t2]; simp
    · exact hno x hx hA hxr

end Verif.Shelf
