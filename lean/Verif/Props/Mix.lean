import Verif.Proofs.MixStart
/-!
# C88: tables among the text of a document

Programs that put tables into the body of a document of any kind, into sections and other objects, and change them there:
the text statements do not change the tables, calls on a table change nothing but that table, and all is read again.
-/
namespace Verif.Mix
open Verif Verif.Lxml Forest Verif.Whole Verif.Tbl
open Verif.Program (TableObj tableState stateOf Config Copied method)
open Verif.TextProg (Kept Loose Step Firm Fits declTags Place at_ SameBelow)
open Verif.Document (MIMETYPE_BODYTAG_MAP MANIFEST ROOT META STYLES CONTENT)
set_option linter.unusedSimpArgs false

/-- The statements of a program.  Text statements are those of C81; they do not put things into tables, take things out of
them or set their texts and attributes (`edits`), but may move tables and put them anywhere.  Statements with sheets and
tables are those of C78.  `get_child` is not called for a table that the program has already an object of. -/
def Allowed {F : Cells.FloatLib} (p : Prog) : Act F → Prop
  | .text a => TextProg.Allowed p.text a ∧
      ∀ k ∈ edits a, ∀ n, p.text.objs[k]? = some n → Parts.tagAt p.world n ≠ some "table:table"
  | .table a => Program.Allowed p.sheets a
  | .grab t index => (∀ k, t = some k → ∀ n, p.text.objs[k]? = some n → Parts.tagAt p.world n ≠ some "table:table") ∧
      ∀ c, TextProg.Found p.text t index c →
        (∀ tg ∈ declTags ++ MIMETYPE_BODYTAG_MAP.map Prod.snd, Parts.tagAt p.world c ≠ some tg) ∧
        (Parts.tagAt p.world c = some "table:table" → ∀ o ∈ p.tables, o.node ≠ c)

variable {L : XLib} {FL : Cells.FloatLib} {F R T : Nat → Prop} {tag : String} {p : Prog}

theorem Ready.plain (h : Ready L F R T tag p) {n : Nat} (hn : n ∈ p.text.objs)
    (ht : Parts.tagAt p.world n ≠ some "table:table") : Out R T n := by
  rcases h.objs n hn with ⟨o, ho, rfl⟩ | h1
  · exact absurd (h.cover.table _ (h.roots o ho).1) ht
  · exact h1

theorem Ready.textDone (h : Ready L F R T tag p) {a : TextProg.Act} (ha : TextProg.Allowed p.text a)
    (hu : ∀ k ∈ edits a, ∀ n, p.text.objs[k]? = some n → Parts.tagAt p.world n ≠ some "table:table") :
    Done L F tag p (onText (TextProg.exec a) p).1 ∧ (onText (TextProg.exec a) p).1.tables = p.tables := by
  have hacts := TextProg.exec_acts h.fits ha
  have hleft := exec_left (R := R) (T := T) (a := a) (p := p.text)
    ⟨h.cover, h.body, fun n hn => h.not_inside hn, fun k hk n hn => h.plain (List.mem_of_getElem? hn) (hu k hk n hn)⟩ ha
  obtain ⟨a1, a2, a3⟩ := h.calm (q := (onText (TextProg.exec a) p).1) hacts.session hacts.step hleft.calm hacts.objs
    hleft.objs hacts.more rfl
  exact ⟨⟨⟨R, T, a1⟩, a2, hacts.step.firm, hacts.more, List.prefix_refl _, fun j _ => a3 j⟩, rfl⟩

/-- The `i`-th table object -/
theorem Ready.state (h : Ready L F R T tag p) {i : Nat} {o : TableObj} (ho : p.tables[i]? = some o) :
    ∃ t, find o.node p.world = some t ∧ stateOf p.sheets i = some (tableState p.world o t) ∧
      Sound (tableState p.world o t) := by
  have hm := List.mem_of_getElem? ho
  obtain ⟨t, ht⟩ := h.found hm
  refine ⟨t, ht, ?_, h.sound o hm t ht⟩
  unfold stateOf
  have : p.sheets.tables[i]? = some o := ho
  rw [this]
  show (Forest.find o.node p.world).map _ = _
  rw [ht]; rfl

/-- What a call on a table does to the program -/
theorem Ready.method (h : Ready L F R T tag p) {a : Program.Act FL} (ha : Program.Allowed p.sheets a) {i : Nat}
    {m : Py TState Unit} (hm : method a = some (i, m)) (strategy : String) (mx : Int × Int) {o : TableObj}
    (ho : p.tables[i]? = some o) {t : Tree} (ht : find o.node p.world = some t) :
    let S := (m (tableState p.world o t)).1
    let q := called p i o S
    onProgram (Program.exec strategy mx a) p = (q, (m (tableState p.world o t)).2) ∧
      (∃ T', Ready L F R T' tag q) ∧ TextProg.Frame p.text q.text ∧ Put p.world q.world o.node t (S.node, S.kids) ∧
      (∀ j, j ≠ i → shown q j = shown p j) ∧ q.tables.map TableObj.node = p.tables.map TableObj.node ∧
      stateOf q.sheets i = some { S with fresh := Parts.newId q.world } := by
  intro S q
  obtain ⟨t', ht', hst, hs⟩ := h.state ho
  rw [ht] at ht'
  cases ht'
  obtain ⟨s1, X, s2, s3⟩ := Program.method_sound_of ha hm hst hs
  obtain ⟨a1, a2, a3, a4, a5⟩ := h.call ho ht s1 s2 s3
  have hi : i < p.tables.length := (List.getElem?_eq_some_iff.mp ho).1
  refine ⟨?_, a1, a2, a3, a4, a5, ?_⟩
  · rw [Program.exec_method hm]
    have hcall : Program.onTable i m p.sheets = (q.sheets, (m (tableState p.world o t)).2) := by
      unfold Program.onTable
      have h1 : p.sheets.tables[i]? = some o := ho
      have h2 : p.sheets.world.find o.node = some t := ht
      simp only [h1, h2]
      rfl
    unfold onProgram
    rw [hcall]
    simp [q, called, Prog.sheets]
  · unfold stateOf
    have h1 : q.sheets.tables[i]? = some ⟨o.node, S.rows, S.cols⟩ := by
      show (p.tables.set i _)[i]? = _
      rw [List.getElem?_set]; simp [hi]
    rw [h1]
    show (Forest.find o.node q.world).map _ = _
    have h2 : find o.node q.world = some (S.node, S.kids) := a3.self
    rw [h2]; rfl

theorem target_get {t : Option Nat} {index : Int} {p : TextProg.Prog} :
    (TextProg.target t >>= fun n => TextProg.onWorld (Base.getChild n index)) p =
      (p, match (TextProg.target t p).2 with
        | .error e => .error e
        | .ok n => (Lxml.getitem n index p.world).2) := by
  cases ht : TextProg.target t p with
  | mk p2 r2 =>
    have e1 := TextProg.target_state t p
    rw [ht] at e1
    dsimp only at e1
    subst e1
    cases r2 with
    | error e => rw [Py.bind_error ht]
    | ok n =>
      rw [Py.bind_ok ht]
      have hs : (Base.getChild n index p2.world) = (p2.world, (Lxml.getitem n index p2.world).2) := by
        unfold Base.getChild
        cases hg : Lxml.getitem n index p2.world with
        | mk w r3 =>
          have e2 : w = p2.world := by
            rcases TextProg.getitem_spec (W := p2.world) (p := n) (i := index) with ⟨e, he⟩ | ⟨s, b, he, -, -⟩ <;>
            · rw [he] at hg; cases hg; rfl
          subst e2
          cases r3 with
          | error e => rfl
          | ok x => rfl
      unfold TextProg.onWorld
      have hs' : Base.getChild n index p2.session.world = _ := hs
      rw [hs']
      rfl

/-- The child that is found, when it is a table without an object -/
theorem Ready.foundTable (h : Ready L F R T tag p) {t : Option Nat} {index : Int} (ha : Allowed p (.grab (F := FL) t index))
    {c : Nat} (hf : TextProg.Found p.text t index c) {u : Tree} (hu : find c p.world = some u) (htab : u.1.tag = "table:table") :
    find u.1.id p.world = some u ∧ R u.1.id ∧ ¬ F u.1.id ∧ ∀ o ∈ p.tables, o.node ≠ u.1.id := by
  obtain ⟨ha1, ha2⟩ := ha
  obtain ⟨hc1, hc2⟩ := ha2 c hf
  obtain ⟨n, hn, hgc⟩ := hf
  have hid := (find_mem_ids hu).1
  have htagc : Parts.tagAt p.world c = some "table:table" := by rw [tagAt_find hu, htab]
  have hplace := (TextProg.target_acts h.fits t).5 n hn
  have hst := TextProg.target_state t p.text
  rw [hst] at hplace
  have hF := (TextProg.found_free h.fits.kept hplace hgc fun _ tg htg => hc1 tg (List.mem_append_left _ htg)).2
  have hout : Out R T n := by
    cases t with
    | none => cases hn; exact h.body
    | some k =>
      have : p.text.objs[k]? = some n := by
        have hn : (TextProg.obj k p.text).2 = .ok n := hn
        unfold TextProg.obj at hn
        cases hx : p.text.objs[k]? with
        | none => rw [hx] at hn; cases hn
        | some x => rw [hx] at hn; cases hn; rfl
      exact h.plain (List.mem_of_getElem? this) (ha1 k rfl n this)
  have hkid : ∃ b, find n p.world = some b ∧ u ∈ b.2.toList := by
    rcases TextProg.getitem_spec (W := p.world) (p := n) (i := index) with ⟨e, he⟩ | ⟨s, b, he, h1, h2⟩
    · have : (Lxml.getitem n index p.world).2 = .ok c := hgc
      rw [he] at this; cases this
    · have : (Lxml.getitem n index p.world).2 = .ok c := hgc
      rw [he] at this
      cases this
      obtain ⟨v, hv, hve⟩ := List.mem_map.mp h2
      have := child_find h.cover.once h1 hv
      rw [hve, hu] at this
      cases this
      exact ⟨b, h1, hv⟩
  obtain ⟨b, hb, hub⟩ := hkid
  obtain ⟨k1, k2⟩ := h.kid hout hb hub htab
  exact ⟨k1, k2, by rw [hid]; exact hF, by rw [hid]; exact hc2 htagc⟩

theorem grab_eq {strategy : String} {mx : Int × Int} {t : Option Nat} {index : Int} {c : Nat}
    (hf : TextProg.Found p.text t index c) {u : Tree} (hu : find c p.world = some u) :
    grab strategy mx t index p = if u.1.tag = "table:table" then onProgram (wrapTable strategy mx u) p
      else onText (TextProg.exec (.get t index)) p := by
  obtain ⟨n, h1, h2⟩ := hf
  unfold grab
  rw [target_get, h1]
  simp only [h2, hu]

/-- `get_child` -/
theorem Ready.grab (h : Ready L F R T tag p) {strategy : String} {mx : Int × Int} (hc : Config strategy mx)
    {t : Option Nat} {index : Int} (ha : Allowed p (.grab (F := FL) t index)) :
    Done L F tag p (grab strategy mx t index p).1 := by
  by_cases hfound : ∃ c u, TextProg.Found p.text t index c ∧ find c p.world = some u
  · obtain ⟨c, u, hf, hu⟩ := hfound
    rw [grab_eq hf hu]
    split
    · rename_i htab
      obtain ⟨k1, k2, k3, k4⟩ := h.foundTable ha hf hu htab
      obtain ⟨S, hS⟩ := h.open hc k1 k2 k3 k4
      rw [(wrapTable_opened hS).2]
      exact hS.done
    · rename_i htab
      refine (h.textDone (a := .get t index) ?_ (fun k hk => ha.1 k (by
        have : edits (.get t index) = t.toList := rfl
        rw [this] at hk
        simpa using hk))).1
      intro c' hc' tg htg
      have hcc : c' = c := by
        obtain ⟨n, e1, e2⟩ := hf
        obtain ⟨n', e3, e4⟩ := hc'
        rw [e1] at e3
        cases e3
        rw [e2] at e4
        cases e4
        rfl
      subst hcc
      obtain ⟨hc1, -⟩ := ha.2 c' hf
      rcases List.mem_append.mp htg with htg | htg
      · exact hc1 tg (List.mem_append_left _ htg)
      · rcases List.mem_cons.mp htg with rfl | htg
        · show Parts.tagAt p.world c' ≠ _
          rw [tagAt_find hu]
          exact fun he => htab (Option.some.inj he)
        · exact hc1 tg (List.mem_append_right _ htg)
  · have : (Mix.grab strategy mx t index p).1 = p := by
      unfold Mix.grab
      rw [target_get]
      cases h1 : (TextProg.target t p.text).2 with
      | error e => rfl
      | ok n =>
        cases h2 : (Lxml.getitem n index p.world).2 with
        | error e =>
          have h2 : (Lxml.getitem n index p.text.world).2 = .error e := h2
          simp only [h2]
        | ok c =>
          cases h3 : find c p.world with
          | none =>
            have h2 : (Lxml.getitem n index p.text.world).2 = .ok c := h2
            simp only [h2, h3]
          | some u => exact absurd ⟨c, u, ⟨n, h1, h2⟩, h3⟩ hfound
    rw [this]
    exact .refl h

/-- The number of the table object that a statement is a call on -/
def callee {FL : Cells.FloatLib} : Act FL → Option Nat
  | .table a => (method a).map Prod.fst
  | _ => none

/-- What all statements keep -/
structure After (L : XLib) (c : Option Nat) (p q : Prog) : Prop where
  ok : OK L q
  frame : TextProg.Frame p.text q.text
  objs : p.text.objs <+: q.text.objs
  tables : p.tables.map TableObj.node <+: q.tables.map TableObj.node
  others : ∀ j, j < p.tables.length → c ≠ some j → shown q j = shown p j

/-- What all statements keep, for the nodes `F` of the frame of the document -/
structure Moves (L : XLib) (F : Nat → Prop) (tag : String) (c : Option Nat) (p q : Prog) : Prop where
  ready : ∃ R T, Ready L F R T tag q
  frame : TextProg.Frame p.text q.text
  firm : Firm F p.world q.world tag p.text.session.tree
  objs : p.text.objs <+: q.text.objs
  tables : p.tables.map TableObj.node <+: q.tables.map TableObj.node
  others : ∀ j, j < p.tables.length → c ≠ some j → shown q j = shown p j

theorem Done.moves {q : Prog} (h : Done L F tag p q) (c : Option Nat) : Moves L F tag c p q :=
  ⟨h.ready, h.frame, h.firm, h.objs, h.tables, fun j hj _ => h.old j hj⟩

theorem ready_step (h : Ready L F R T tag p) {strategy : String} {mx : Int × Int} (hc : Config strategy mx) {a : Act FL}
    (ha : Allowed p a) : Moves L F tag (callee a) p (exec strategy mx a p).1 := by
  cases a with
  | text a => exact (h.textDone ha.1 ha.2).1.moves _
  | grab t index => exact (h.grab hc ha).moves _
  | table a =>
    show Moves L F tag _ p (onProgram (Program.exec strategy mx a) p).1
    cases hm : method a with
    | some im =>
      obtain ⟨i, m⟩ := im
      cases ho : p.tables[i]? with
      | none =>
        have : Program.exec strategy mx a p.sheets = (p.sheets, .error .NameError) := by
          rw [Program.exec_method hm]
          unfold Program.onTable
          have : p.sheets.tables[i]? = none := ho
          rw [this]
        rw [onProgram_same this]
        exact (Done.refl h).moves _
      | some o =>
        obtain ⟨t, ht⟩ := h.found (List.mem_of_getElem? ho)
        obtain ⟨e1, ⟨T', e2⟩, e3, e4, e5, e6, -⟩ := h.method ha hm strategy mx ho ht
        rw [e1]
        have hR := h.roots o (List.mem_of_getElem? ho)
        refine ⟨⟨R, T', e2⟩, e3, put_firm e4 h.fits.kept (h.tableLoose (List.mem_of_getElem? ho)).free ?_, List.prefix_refl _, by rw [e6], fun j _ hj => e5 j ?_⟩
        · have := e2.cover.table _ hR.1
          rw [tagAt_find e4.self] at this
          exact Option.some.inj this
        · rintro rfl
          exact hj (by simp [callee, hm])
    | none =>
      refine Done.moves (F := F) (tag := tag) ?_ _
      cases a with
      | create nm size =>
        show Done L F tag p (onProgram (do let _ ← Program.create nm size; pure ()) p).1
        rw [onProgram_void]
        cases hn : newTable (Parts.newId p.world) nm size with
        | mk S r =>
          cases r with
          | error e =>
            have : Program.create nm size p.sheets = (p.sheets, .error e) := by
              unfold Program.create
              have hn : newTable (Parts.newId p.sheets.world) nm size = (S, .error e) := hn
              rw [hn]
            rw [onProgram_same this]
            exact .refl h
          | ok u =>
            rw [create_made hn]
            obtain ⟨g1, g2⟩ := Program.created_grow hn
            exact (h.made (Life.created hn).sound' g1 g2).1
      | append i =>
        exact (h.sheetsOp (i := i) (m := fun b n => Lxml.append b n)
          (fun o ho => TextProg.append_step h.fits.kept (.inl rfl) (h.tableLoose ho))
          (fun o ho => append_calm h.cover h.body (h.cover.apart _ (h.roots o ho).1))).1
      | insert index i =>
        exact (h.sheetsOp (i := i) (m := fun b n => Lxml.insert b index n)
          (fun o ho => TextProg.insert_step h.fits.kept index (.inl rfl) (h.tableLoose ho))
          (fun o ho => insert_calm h.cover index h.body (h.cover.apart _ (h.roots o ho).1))).1
      | access key =>
        show Done L F tag p (onProgram (do let _ ← Program.access strategy mx key; pure ()) p).1
        rw [onProgram_void]
        obtain ⟨q, r, -, e2, e3⟩ := h.access hc key
        rw [e2]
        cases r with
        | error e => simp only at e3; subst e3; exact .refl h
        | ok i => exact e3.2.1
      | delete key => exact h.delete hc key
      | replace key i => exact h.replace hc key i
      | call => cases hm
      | write => cases hm
      | writeRow => cases hm
      | writeColumn => cases hm

/-- **C88**, one statement, whether it raises or not: the program is in order, the frame of the document is unchanged, the
objects of the program remain, and all tables but the one that is called are as they were. -/
theorem C88_step (h : OK L p) {strategy : String} {mx : Int × Int} (hc : Config strategy mx) {a : Act FL} (ha : Allowed p a) :
    After L (callee a) p (exec strategy mx a p).1 := by
  obtain ⟨F, R, T, tag, h⟩ := h
  obtain ⟨⟨R', T', hr⟩, g2, -, g4, g5, g6⟩ := ready_step h hc ha
  exact ⟨⟨F, R', T', tag, hr⟩, g2, g4, g5, g6⟩

/-- Programs with a document: statements with text objects, sheets and tables, changes of the meta data, other files of
the package, its name, saving under this name or another one. -/
inductive Runs (FL : Cells.FloatLib) (L : XLib) (strategy : String) (mx : Int × Int) : Prog → Prog → Prop
  | done (p : Prog) : Runs FL L strategy mx p p
  | act {p p' : Prog} (a : Act FL) (ha : Allowed p a) (h : Runs FL L strategy mx (exec strategy mx a p).1 p') :
      Runs FL L strategy mx p p'
  | name {p p' : Prog} (name : Option Package.Path)
      (h : Runs FL L strategy mx { p with text := { p.text with session := { p.text.session with docname := name } } } p') :
      Runs FL L strategy mx p p'
  | data {p p' : Prog} (o : List Meta.Op)
      (h : Runs FL L strategy mx { p with text := { p.text with session := { p.text.session with
        meta_ := { p.text.session.meta_ with m := Meta.run p.text.session.meta_.m o } } } } p') : Runs FL L strategy mx p p'
  | file {p p' : Prog} (n : Str) (x : Package.Element) (t : Str) (now : Nat)
      (hn : n ∉ [Package.MIMETYPE, MANIFEST, ROOT, META, STYLES, CONTENT])
      (h : Runs FL L strategy mx { p with text := { p.text with session := { p.text.session with
        w := { p.text.session.w with fm := Package.register n x t now p.text.session.w.fm } } } } p') :
      Runs FL L strategy mx p p'
  | save {p p' : Prog} (env : Package.Env) (k : Clock) (backup : Bool)
      (h : Runs FL L strategy mx (save L env k backup p).1 p') : Runs FL L strategy mx p p'
  | saveas {p p' : Prog} (env : Package.Env) (k : Clock) (backup : Bool) (f : Package.Path)
      (h : Runs FL L strategy mx (saveas L env k backup f p).1 p') : Runs FL L strategy mx p p'

/-- A change of the document that leaves its trees alone -/
theorem OK.session (h : OK L p) {s : Session} (hl : Lives L s) (hw : s.world = p.text.session.world)
    (ht : s.tree = p.text.session.tree) (hm : s.mimetype = p.text.session.mimetype) :
    OK L { p with text := { p.text with session := s } } ∧
    TextProg.Frame p.text { p.text with session := s } ∧ ∀ j, shown { p with text := { p.text with session := s } } j = shown p j := by
  have hf := (h.text.session hl hw ht hm).2
  obtain ⟨F, R, T, tag, h⟩ := h
  have hW : ({ p with text := { p.text with session := s } } : Prog).world = p.world := hw
  have hW' : ({ p.text with session := s } : TextProg.Prog).world = p.text.world := hw
  refine ⟨⟨F, R, T, tag, ⟨hl, ?_, ?_, ⟨?_, ?_⟩, ?_, ?_, h.objs, h.roots, h.distinct, ?_, ?_⟩⟩, hf, fun j => ?_⟩
  · rw [hW]; dsimp only; rw [ht]; exact h.apart
  · dsimp only; rw [hm]; exact h.known
  · rw [hW']; dsimp only; rw [ht]; exact h.fits.kept
  · rw [hW']; exact h.fits.objs
  · rw [hW]; exact h.cover
  · dsimp only; rw [ht]; exact h.body
  · rw [hW]; exact h.sound
  · rw [hW]; exact h.others
  · unfold shown; rw [hW]

theorem save_ok (h : OK L p) (env : Package.Env) (k : Clock) (backup : Bool) :
    After L none p (save L env k backup p).1 := by
  obtain ⟨f1, f2, -, f4, -⟩ := C69_frame L env k backup (s := p.text.session) (s' := (saveWhole L env k backup p.text.session).1)
    (r := (saveWhole L env k backup p.text.session).2) rfl
  obtain ⟨a1, a2, a3⟩ := h.session (.saved h.text.lives env k backup) f1 f2 f4
  exact ⟨a1, a2, List.prefix_refl _, List.prefix_refl _, fun j _ _ => a3 j⟩

theorem saveas_ok (h : OK L p) (env : Package.Env) (k : Clock) (backup : Bool) (f : Package.Path) :
    After L none p (saveas L env k backup f p).1 := by
  obtain ⟨f1, f2, -, f4, -⟩ := C69_frame L env k backup (s := { p.text.session with docname := some f })
    (s' := (saveWhole L env k backup { p.text.session with docname := some f }).1)
    (r := (saveWhole L env k backup { p.text.session with docname := some f }).2) rfl
  obtain ⟨a1, a2, a3⟩ := h.session (.savedAs h.text.lives env k backup f) f1 f2 f4
  exact ⟨a1, a2, List.prefix_refl _, List.prefix_refl _, fun j _ _ => a3 j⟩

/-- **C88**, whole programs: after any program that has been in order it is in order, nothing but the content of the body
and the objects of the program has been changed in the trees of the document, and the objects of the program remain. -/
theorem C88_runs {strategy : String} {mx : Int × Int} (hc : Config strategy mx) {p p' : Prog} (h : OK L p)
    (hr : Runs FL L strategy mx p p') :
    OK L p' ∧ TextProg.Frame p.text p'.text ∧ p.text.objs <+: p'.text.objs ∧
      p.tables.map TableObj.node <+: p'.tables.map TableObj.node := by
  have key : ∀ {c : Option Nat} {p q p' : Prog}, After L c p q → (OK L q → OK L p' ∧ TextProg.Frame q.text p'.text ∧
      q.text.objs <+: p'.text.objs ∧ q.tables.map TableObj.node <+: p'.tables.map TableObj.node) →
      OK L p' ∧ TextProg.Frame p.text p'.text ∧ p.text.objs <+: p'.text.objs ∧
      p.tables.map TableObj.node <+: p'.tables.map TableObj.node := by
    intro c p q p' ha ih
    obtain ⟨b1, b2, b3, b4⟩ := ih ha.ok
    exact ⟨b1, ha.frame.trans b2, ha.objs.trans b3, ha.tables.trans b4⟩
  have keyS : ∀ {p : Prog} {s : Session}, OK L p → Lives L s → s.world = p.text.session.world →
      s.tree = p.text.session.tree → s.mimetype = p.text.session.mimetype →
      After L none p { p with text := { p.text with session := s } } := by
    intro p s h hl hw ht hm
    obtain ⟨a1, a2, a3⟩ := h.session hl hw ht hm
    exact ⟨a1, a2, List.prefix_refl _, List.prefix_refl _, fun j _ _ => a3 j⟩
  induction hr with
  | done p => exact ⟨h, .refl _, List.prefix_refl _, List.prefix_refl _⟩
  | act a ha _ ih => exact key (C88_step h hc ha) ih
  | name n _ ih => exact key (keyS h (.named h.text.lives n) rfl rfl rfl) ih
  | data o _ ih => exact key (keyS h (.data h.text.lives o) rfl rfl rfl) ih
  | file n x t now hn _ ih => exact key (keyS h (.file h.text.lives n x t now hn) rfl rfl rfl) ih
  | save env k backup _ ih => exact key (save_ok h env k backup) ih
  | saveas env k backup f _ ih => exact key (saveas_ok h env k backup f) ih

/-- **C88**, text statements: no table changes. -/
theorem C88_text (h : OK L p) {strategy : String} {mx : Int × Int} {a : TextProg.Act} (ha : Allowed p (.text (F := FL) a)) :
    let q := (exec strategy mx (.text (F := FL) a) p).1
    OK L q ∧ q.text = (TextProg.exec a p.text).1 ∧ q.tables = p.tables ∧ ∀ j, shown q j = shown p j := by
  intro q
  obtain ⟨F, R, T, tag, h⟩ := h
  obtain ⟨a1, a2⟩ := h.textDone ha.1 ha.2
  obtain ⟨R', T', hr⟩ := a1.ready
  refine ⟨⟨F, R', T', tag, hr⟩, rfl, a2, fun j => ?_⟩
  by_cases hj : j < p.tables.length
  · exact a1.old j hj
  · unfold shown
    rw [show q.tables = p.tables from rfl, List.getElem?_eq_none (by omega)]
    rfl

/-- **C88**, calls on a table, its cells, rows and columns, wherever the table is: the result and the table are those of
the call on the table by itself (C08 to C21, C76); all nodes outside of the table and all other tables are as they were. -/
theorem C88_method (h : OK L p) {a : Program.Act FL} (ha : Program.Allowed p.sheets a) {i : Nat} {m : Py TState Unit}
    (hm : method a = some (i, m)) (strategy : String) (mx : Int × Int) :
    match stateOf p.sheets i with
    | none => exec strategy mx (.table a) p = (p, .error .NameError)
    | some S => ∃ q t, exec strategy mx (.table a) p = (q, (m S).2) ∧ OK L q ∧
      stateOf q.sheets i = some { (m S).1 with fresh := Parts.newId q.world } ∧
      (∀ j, j ≠ i → shown q j = shown p j) ∧ q.tables.map TableObj.node = p.tables.map TableObj.node ∧
      q.text.objs = p.text.objs ∧ q.text.session = { p.text.session with world := q.world } ∧
      find S.node.id p.world = some t ∧ t = (S.node, S.kids) ∧
      ∀ x ∈ ids p.world, x ∉ ids (single t) → node q.world x = node p.world x := by
  obtain ⟨F, R, T, tag, h⟩ := h
  cases ho : p.tables[i]? with
  | none =>
    have h1 : p.sheets.tables[i]? = none := ho
    have h2 : stateOf p.sheets i = none := by unfold stateOf; rw [h1]; rfl
    rw [h2]
    show onProgram (Program.exec strategy mx a) p = _
    refine onProgram_same ?_
    rw [Program.exec_method hm]
    unfold Program.onTable
    rw [h1]
  | some o =>
    obtain ⟨t, ht, hst, -⟩ := h.state ho
    rw [hst]
    obtain ⟨e1, ⟨T', e2⟩, -, e4, e5, e6, e7⟩ := h.method ha hm strategy mx ho ht
    refine ⟨_, t, e1, ⟨F, R, T', tag, e2⟩, e7, e5, e6, rfl, rfl, ?_, rfl, fun x hx hx' => e4.node_same hx hx'⟩
    show find t.1.id p.world = _
    rw [(find_mem_ids ht).1]; exact ht

/-- **C88**, `Table(name, size)`: the new object is the last one; it has the name and the size and is in no document;
nothing else changes. -/
theorem C88_create (h : OK L p) (strategy : String) (mx : Int × Int) (nm : Str) (size : Int × Int) :
    (∃ e, exec strategy mx (.table (.create (L := FL) nm size)) p = (p, .error e) ∧
      ¬ (normalizeName nm ≠ [] ∧ 1 ≤ size.1 ∧ 1 ≤ size.2)) ∨
    ∃ q S, exec strategy mx (.table (.create (L := FL) nm size)) p = (q, .ok ()) ∧ OK L q ∧
      stateOf q.sheets p.tables.length = some S ∧ (normalizeName nm ≠ [] ∧ 1 ≤ size.1 ∧ 1 ≤ size.2) ∧
      name S = some (normalizeName nm) ∧ IsEmptyTable size.1.toNat size.2.toNat S ∧
      (∀ j, j < p.tables.length → shown q j = shown p j) ∧
      q.text.objs = p.text.objs ++ [S.node.id] ∧ q.tables.length = p.tables.length + 1 ∧
      S.node.id ∈ Lxml.roots q.world ∧ ∀ n t, find n p.world = some t → find n q.world = some t := by
  obtain ⟨F, R, T, tag, h⟩ := h
  by_cases hc : normalizeName nm ≠ [] ∧ 1 ≤ size.1 ∧ 1 ≤ size.2
  · right
    obtain ⟨S, e, hE, hn⟩ := newTable_spec (Parts.newId p.world) hc.1 hc.2.1 hc.2.2
    obtain ⟨g1, g2⟩ := Program.created_grow e
    have hs := (Life.created e).sound'
    obtain ⟨a1, a2, a3, a4⟩ := h.made hs g1 g2
    obtain ⟨R', T', hr⟩ := a1.ready
    have e : newTable (Parts.newId p.world) nm size = (S, .ok ()) := e
    have hcr : Program.create nm size p.sheets = ((made p S).sheets, .ok p.tables.length) := by
      unfold Program.create
      have e : newTable (Parts.newId p.sheets.world) nm size = (S, .ok ()) := e
      rw [e]; rfl
    have hex : exec strategy mx (.table (.create (L := FL) nm size)) p = (made p S, .ok ()) := by
      show onProgram (do let _ ← Program.create nm size; pure ()) p = _
      unfold onProgram
      rw [Py.bind_ok hcr]
      show _ = (made p S, Except.ok ())
      simp [made, Prog.sheets]
    have hsd : Sound { S with fresh := Parts.newId (made p S).world } :=
      hs.fresh fun i hi => lt_newId ((find_sub a2).subset (by simp [hi]))
    have hI := isEmptyTable (by have := hc.2.1; omega) hE
    refine ⟨_, { S with fresh := Parts.newId (made p S).world }, hex, ⟨F, R', T', tag, hr⟩, ?_, hc,
      by unfold name; rw [show ({ S with fresh := Parts.newId (made p S).world } : TState).node = S.node from rfl, hn]; rfl,
      ⟨hI.tree, hI.rows, hI.cols, hI.emptyRows, hI.emptyCols, hI.nrows, hI.ncols, hI.infos, hsd.inv⟩, a4, rfl, by simp [made], ?_, a3⟩
    · unfold stateOf
      have h1 : (made p S).sheets.tables[p.tables.length]? = some ⟨S.node.id, S.rows, S.cols⟩ := by
        show (p.tables ++ [_])[p.tables.length]? = _
        simp
      rw [h1]
      show (Forest.find S.node.id (made p S).world).map _ = _
      rw [a2]; rfl
    · show S.node.id ∈ Lxml.roots (p.world ++ single (S.node, S.kids))
      simp [Lxml.roots, single, toList]
  · left
    rcases he : newTable (Parts.newId p.world) nm size with ⟨S, r⟩
    cases r with
    | error e =>
      have : Program.create nm size p.sheets = (p.sheets, .error e) := by
        unfold Program.create
        have he : newTable (Parts.newId p.sheets.world) nm size = (S, .error e) := he
        rw [he]
      refine ⟨e, ?_, hc⟩
      show onProgram (do let _ ← Program.create nm size; pure ()) p = _
      exact onProgram_same (by rw [Py.bind_error this])
    | ok u => exact absurd (Program.created_args he) hc

theorem Opened.state {strategy : String} {mx : Int × Int} {t : Tree} {S : TState} (h : Opened L F R tag strategy mx p t S) :
    stateOf (opened p t S).sheets p.tables.length = some { S with fresh := Parts.newId (opened p t S).world } := by
  unfold stateOf
  have h1 : (opened p t S).sheets.tables[p.tables.length]? = some ⟨t.1.id, S.rows, S.cols⟩ := by
    show (p.tables ++ [_])[p.tables.length]? = _
    simp
  rw [h1]
  show (Forest.find t.1.id (opened p t S).world).map _ = _
  rw [h.self]; rfl

/-- **C88**, `get_child` for a table of the body or of an object: the table is read, and the new object is the last one;
all nodes outside of the table and all other tables are as they were. -/
theorem C88_grab (h : OK L p) {strategy : String} {mx : Int × Int} (hc : Config strategy mx) {t : Option Nat} {index : Int}
    (ha : Allowed p (.grab (F := FL) t index)) {c : Nat} (hf : TextProg.Found p.text t index c) {u : Tree}
    (hu : find c p.world = some u) (htab : u.1.tag = "table:table") :
    ∃ q S, exec strategy mx (.grab (F := FL) t index) p = (q, .ok ()) ∧ OK L q ∧
      Tbl.load strategy mx (stored u.1 u.2 (Parts.newId p.world)) = (S, .ok ()) ∧
      stateOf q.sheets p.tables.length = some { S with fresh := Parts.newId q.world } ∧
      (∀ j, j < p.tables.length → shown q j = shown p j) ∧ q.text.objs = p.text.objs ++ [c] ∧
      ∀ x ∈ ids p.world, x ∉ ids (single u) → node q.world x = node p.world x := by
  obtain ⟨F, R, T, tag, h⟩ := h
  obtain ⟨k1, k2, k3, k4⟩ := h.foundTable ha hf hu htab
  obtain ⟨S, hS⟩ := h.open hc k1 k2 k3 k4
  obtain ⟨T', hr⟩ := hS.ready
  refine ⟨opened p u S, S, ?_, ⟨F, R, T', tag, hr⟩, hS.load, hS.state, hS.old, ?_, fun x hx hx' => hS.put.node_same hx hx'⟩
  · show Mix.grab strategy mx t index p = _
    rw [grab_eq hf hu, if_pos htab]
    exact (wrapTable_opened hS).2
  · show p.text.objs ++ [u.1.id] = _
    rw [(find_mem_ids hu).1]

/-! ## New documents, opened documents, documents opened again -/

/-- **C88**, new documents -/
theorem C88_new (hl : L.Lawful) (fs : Package.FS) (k : Clock) {mt : Str} (hmt : mt ∈ MIMETYPE_BODYTAG_MAP.keys) :
    ∃ s, newWhole L fs k mt = .ok s ∧ OK L ⟨⟨s, []⟩, []⟩ ∧ s.mimetype = mt ∧ s.w.fs = fs := by
  obtain ⟨s, h1, h2, h3, h4, -, -, -, h8, -⟩ := new_ok (L := L) fs k hmt
  have hc : (match Parts.packagedTree mt none none .nil with
      | (_, .error _) => false
      | (W, .ok d) => match Forest.find d.body.node W with
          | none => true
          | some b => (bodyTables b).isEmpty) = true := by
    have : ∀ mt ∈ MIMETYPE_BODYTAG_MAP.keys, (match Parts.packagedTree mt none none .nil with
      | (_, .error _) => false
      | (W, .ok d) => match Forest.find d.body.node W with
          | none => true
          | some b => (bodyTables b).isEmpty) = true := by decide +kernel
    exact this mt hmt
  rw [h8] at hc
  have hf : ∃ tag, MIMETYPE_BODYTAG_MAP.get s.mimetype = some tag ∧ Program.Framed s.world tag s.tree := by
    have h := h1
    unfold newWhole at h
    split at h
    · cases h
    · rename_i fm ho
      exact Program.made_framed hl (by simp [ids]) ho h
  refine ⟨s, h1, ready_start (h2 s.docname) hf ?_, h4, h3⟩
  intro b hb t ht
  simp only [hb, List.isEmpty_iff] at hc
  rw [hc] at ht
  cases ht

/-- **C88**, opened documents, if the tables in the body can be read -/
theorem C88_open (hl : L.Lawful) {fs : Package.FS} {k : Clock} {src : Package.Source} {W : World} {s : Session}
    (hn : (ids W).Nodup) (h : openWhole L fs k src W = .ok s) (ht : Readable s) : OK L ⟨⟨s, []⟩, []⟩ := by
  refine ready_start ?_ (Program.open_framed hl hn h) ht
  unfold openWhole at h
  split at h
  · cases h
  · rename_i fm ho
    split at h
    · cases h
    · exact Lives.made s.docname hn ho h

/-- The tables at their places in the body of `p` are read again from the body `b''` of the document `s''`. -/
def TablesAgain (FL : Cells.FloatLib) (L : XLib) (p : Prog) (b : Tree) (s'' : Session) (b'' : Tree) : Prop :=
  ∀ (i : Nat) (S : TState) (path : List Nat) (t : Tree), stateOf p.sheets i = some S → at_ b path = some t →
    t.1.id = S.node.id → ∀ strategy mx, Config strategy mx → ∃ t'' q S', at_ b'' path = some t'' ∧
      onProgram (wrapTable strategy mx t'') ⟨⟨s'', []⟩, []⟩ = (q, .ok ()) ∧ OK L q ∧ stateOf q.sheets 0 = some S' ∧
      Copied FL S S'

theorem tables_again (FL : Cells.FloatLib) (h : OK L p) {s'' : Session} (h'' : OK L ⟨⟨s'', []⟩, []⟩) {b b'' : Tree}
    (hb : find p.text.session.tree.body.node p.world = some b) (hb'' : find s''.tree.body.node s''.world = some b'')
    (hd : data b'' = shape b) : TablesAgain FL L p b s'' b'' := by
  intro i S path t hS hat hid strategy mx hc
  obtain ⟨F, R, T, tag, h⟩ := h
  obtain ⟨F'', R'', T'', tag'', h''⟩ := h''
  obtain ⟨o, ho⟩ : ∃ o, p.tables[i]? = some o := by
    cases ho : p.tables[i]? with
    | none =>
      unfold stateOf at hS
      have : p.sheets.tables[i]? = none := ho
      rw [this] at hS; cases hS
    | some o => exact ⟨o, rfl⟩
  obtain ⟨u, hu, hst, hsound⟩ := h.state ho
  rw [hst] at hS
  cases hS
  have hom := List.mem_of_getElem? ho
  have hoid : t.1.id = o.node := hid.trans (find_mem_ids hu).1
  obtain ⟨w1, w2, w3⟩ := h.way hb hat (by rw [hoid]; exact (h.roots o hom).1) (by rw [hoid]; exact (h.tableLoose hom).free)
  have htu : t = u := by
    have hbid := (find_mem_ids hb).1
    have htag : t.1.tag = "table:table" := by
      have hmem : t.1.id ∈ ids (single b) := (at_mem hat).1
      have h1 := h.cover.table _ (h.roots o hom).1
      have h2 : ∀ {path : List Nat} {b : Tree}, find b.1.id p.world = some b → at_ b path = some t → find t.1.id p.world = some t := by
        intro path
        induction path with
        | nil => intro b h3 h4; cases h4; exact h3
        | cons k path ih =>
          intro b h3 h4
          unfold at_ at h4
          obtain ⟨v, hv, h4⟩ := Option.bind_eq_some_iff.mp h4
          exact ih (child_find h.cover.once h3 (List.mem_of_getElem? hv)) h4
      have h3 := h2 (by rw [hbid]; exact hb) hat
      rw [← hoid, tagAt_find h3] at h1
      exact Option.some.inj h1
    have := (h.place hb hat w1 w2 w3 htag).2.2
    rw [hoid, hu] at this
    exact (Option.some.inj this).symm
  subst htu
  obtain ⟨t'', g1, g2⟩ := (TextProg.at_file hd path).2 t hat
  have htag'' : t''.1.tag = "table:table" := by
    have h1 : t''.1.tag = t.1.tag := by
      have := congrArg (fun x : Tree => x.1.tag) g2
      exact this
    rw [h1]
    have := h.cover.table _ (h.roots o hom).1
    rw [tagAt_find hu] at this
    exact Option.some.inj this
  obtain ⟨r1, r2, r3⟩ := h''.place hb'' g1 w1 (clear_file hd w2) (by
    intro v hv
    have hk := TextProg.kids_file hd
    have hlen := hk.length_eq
    have h1 := (List.getElem?_eq_some_iff.mp hv).1
    have h2 : path.headD 0 < b.2.toList.length := by omega
    have h3 := hk.get h2 h1
    simp only [List.get_eq_getElem] at h3
    rw [(List.getElem?_eq_some_iff.mp hv).2] at h3
    have h4 : v.1.tag = (b.2.toList[path.headD 0]).1.tag := by
      have := congrArg (fun x : Tree => x.1.tag) h3
      exact this
    rw [h4]
    exact w3 _ (List.getElem?_eq_getElem h2)) htag''
  obtain ⟨S', hS'⟩ := h''.open hc r3 r1 r2 (by simp)
  obtain ⟨T', hr⟩ := hS'.ready
  have hnd := nodup_tree h''.cover.once r3
  simp only [ids_single, List.nodup_cons] at hnd
  obtain ⟨c, c1, c2, c3, c4, c5, c6, c7, c8, c9⟩ := reread_file hsound hc.1 hc.2 (t := t'')
    (n := Parts.newId s''.world) g2 hnd.2 (fun i hi => lt_newId ((find_sub r3).subset (by simp [hi])))
  have hl := hS'.load
  rw [show Prog.world ⟨⟨s'', []⟩, []⟩ = s''.world from rfl, c1] at hl
  cases hl
  refine ⟨t'', _, _, g1, (wrapTable_opened hS').2, ⟨F'', R'', T', tag'', hr⟩, hS'.state,
    ⟨⟨c4.nrows, c4.row, c4.ncols, c4.col⟩, c5, c6, c7, c8, ?_⟩⟩
  intro pos i j hi hj
  obtain ⟨v, v', e1, e2, e3⟩ := c9 pos i j hi hj
  exact ⟨v, v', e1, e2, e3, reads_file e3⟩

theorem reopen_mix (FL : Cells.FloatLib) (hl : L.Lawful) (h : OK L p) {fs : Package.FS} {k' : Clock} {src : Package.Source}
    {W0 : World} (h0 : (ids W0).Nodup) {s'' : Session} (ho : openWhole L fs k' src W0 = .ok s'') {b b'' : Tree}
    (hb : find p.text.session.tree.body.node p.world = some b) (hb'' : find s''.tree.body.node s''.world = some b'')
    (hd : data b'' = shape b) : OK L ⟨⟨s'', []⟩, []⟩ ∧ TablesAgain FL L p b s'' b'' := by
  have h1 : OK L ⟨⟨s'', []⟩, []⟩ := by
    refine C88_open hl h0 ho fun b2 hb2 => ?_
    have hb2 : find s''.tree.body.node s''.world = some b2 := hb2
    rw [hb''] at hb2
    cases hb2
    exact legible_body hd fun t ht => h.readable b hb t ht
  exact ⟨h1, tables_again FL h h1 hb hb'' hd⟩

/-- **C88**, saving and opening again.  The file that has been written can be opened; the body has the same elements at the
same places with the same tags, attributes and texts; each table in it can be read, and one that the program had an object
of shows the size, the name and the cells of the table of that object. -/
theorem C88_reopen (FL : Cells.FloatLib) (hl : L.Lawful) {p p' : Prog} (h : OK L p) {env : Package.Env} {k : Clock}
    {backup : Bool} (hs : save L env k backup p = (p', .ok ())) (hw : Writable p'.text.session) (k' : Clock) {W0 : World}
    (h0 : (ids W0).Nodup) :
    ∃ f s'' b b'', p.text.session.docname = some f ∧ openWhole L p'.text.session.w.fs k' (.file (some f)) W0 = .ok s'' ∧
      OK L ⟨⟨s'', []⟩, []⟩ ∧ s''.mimetype = p.text.session.mimetype ∧
      find p.text.session.tree.body.node p.world = some b ∧ find s''.tree.body.node s''.world = some b'' ∧
      SameBelow b b'' ∧ TablesAgain FL L p b s'' b'' := by
  have hs1 : TextProg.save L env k backup p.text = (p'.text, .ok ()) := by
    unfold save onText at hs
    simp only [Prod.mk.injEq] at hs
    rw [← hs.1]
    exact Prod.ext rfl hs.2
  obtain ⟨f, s'', b, b'', e1, e2, -, e4, e5, e6, e7, e8⟩ := TextProg.C81_reopen hl h.text hs1 hw k' h0
  obtain ⟨a1, a2⟩ := reopen_mix FL hl h h0 e2 e5 e6 e7
  exact ⟨f, s'', b, b'', e1, e2, a1, e4, e5, e6, e8, a2⟩

/-- **C88** for `saveas` -/
theorem C88_reopen_as (FL : Cells.FloatLib) (hl : L.Lawful) {p p' : Prog} (h : OK L p) {env : Package.Env} {k : Clock}
    {backup : Bool} {f : Package.Path} (hs : saveas L env k backup f p = (p', .ok ())) (hw : Writable p'.text.session)
    (k' : Clock) {W0 : World} (h0 : (ids W0).Nodup) :
    ∃ s'' b b'', openWhole L p'.text.session.w.fs k' (.file (some f)) W0 = .ok s'' ∧
      OK L ⟨⟨s'', []⟩, []⟩ ∧ s''.mimetype = p.text.session.mimetype ∧
      find p.text.session.tree.body.node p.world = some b ∧ find s''.tree.body.node s''.world = some b'' ∧
      SameBelow b b'' ∧ TablesAgain FL L p b s'' b'' := by
  have hs1 : TextProg.saveas L env k backup f p.text = (p'.text, .ok ()) := by
    unfold saveas onText at hs
    simp only [Prod.mk.injEq] at hs
    rw [← hs.1]
    exact Prod.ext rfl hs.2
  obtain ⟨s'', b, b'', e2, -, e4, e5, e6, e7, e8⟩ := TextProg.C81_reopen_as hl h.text hs1 hw k' h0
  obtain ⟨a1, a2⟩ := reopen_mix FL hl h h0 e2 e5 e6 e7
  exact ⟨s'', b, b'', e2, a1, e4, e5, e6, e8, a2⟩

/-! ## An example -/

/-- A new text document -/
def demoStart : Option Prog :=
  match Parts.packagedTree TextProg.textType none none .nil with
  | (_, .error _) => none
  | (W, .ok d) => some ⟨TextProg.progOf W d, []⟩

/-- The program after the statements, and their results -/
def runAll {FL : Cells.FloatLib} (l : List (Act FL)) (p : Prog) : Prog × List (Except Exc Unit) :=
  l.foldl (fun r a => ((exec "all" (32, 32) a r.1).1, r.2 ++ [(exec "all" (32, 32) a r.1).2])) (p, [])

/-- A table, a section and a paragraph are made; the section with the table in it is put into the body, the paragraph
after the table into the section; then a cell of the table is written. -/
def demoActs : List (Act Cells.intLib) :=
  [.table (.create "T".toList (1, 2)), .text (.section_ "s".toList []), .text (.paragraph "a".toList []),
    .text (.append (some 1) 0), .text (.append none 1), .text (.append (some 1) 2),
    .table (.write 0 (0, 1) (.setValue (.str "x".toList) none none))]

/-- The tags of the elements in the body, in their order -/
def demoTags (p : Prog) : List String :=
  match p.world.find p.text.session.tree.body.node with
  | none => []
  | some b => (TSpec.nodes b.2).map fun t => t.1.tag

/-- What the cells of the table object read -/
def demoCells (p : Prog) : List (Option Str) :=
  match stateOf p.sheets 0 with
  | none => []
  | some S => (S.kids.toList.filter fun t => t.1.tag = "table:table-row").flatMap fun r => r.2.toList.map fun c => Cells.plaintext c

example : (demoStart.map fun p => (runAll demoActs p).2) =
    some [.ok (), .ok (), .ok (), .ok (), .ok (), .ok (), .ok ()] := by decide +kernel

example : (demoStart.map fun p => demoTags (runAll demoActs p).1) =
    some ["text:variable-decls", "text:user-field-decls", "text:section", "table:table", "table:table-column",
      "table:table-column", "table:table-row", "table:table-cell", "table:table-cell", "text:p", "text:p"] := by decide +kernel

example : (demoStart.map fun p => demoCells (runAll demoActs p).1) = some [some [], some "x".toList] := by decide +kernel

/-- The hypotheses of `C88_step` for the statement that puts the paragraph into the section that has the table, and for
getting the table again after opening -/
example : ∀ p, demoStart = some p → let q := (runAll (demoActs.take 5) p).1
    Allowed q (.text (F := Cells.intLib) (.append (some 1) 2)) ∧ shown q 0 ≠ none := by
  intro p hp q
  have h1 : (demoStart.map fun p => ((runAll (demoActs.take 5) p).1.text.objs.map fun n =>
      Parts.tagAt (runAll (demoActs.take 5) p).1.world n)) =
      some [some "table:table", some "text:section", some "text:p"] := by decide +kernel
  have h2 : (demoStart.map fun p => (shown (runAll (demoActs.take 5) p).1 0).isSome) = some true := by decide +kernel
  rw [hp] at h1 h2
  simp only [Option.map_some, Option.some.injEq] at h1 h2
  refine ⟨⟨trivial, ?_⟩, fun hn => by rw [show shown (runAll (demoActs.take 5) p).1 0 = none from hn] at h2; cases h2⟩
  intro k hk n hn
  have hk : k = 1 := by simpa [edits] using hk
  subst hk
  have h3 := congrArg (fun l => l[1]?) h1
  simp only [List.getElem?_map] at h3
  have hn : (runAll (demoActs.take 5) p).1.text.objs[1]? = some n := hn
  rw [hn] at h3
  simp only [Option.map_some, List.getElem?_cons_succ, List.getElem?_cons_zero, Option.some.injEq] at h3
  show Parts.tagAt (runAll (demoActs.take 5) p).1.world n ≠ _
  rw [h3]
  decide

end Verif.Mix
