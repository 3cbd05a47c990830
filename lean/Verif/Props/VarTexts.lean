import Verif.Props.VarProgram
import Verif.Props.TextProgram
/-! # C82: variables and user fields in programs with text objects -/
namespace Verif.VarProg
open Verif Verif.Lxml Forest Verif.Whole Verif.Vars Verif.Document
open Verif.TextProg (Prog Act exec Allowed OK Kept Loose Step Firm Fits declTags exec_acts C81_step)
set_option linter.unusedSimpArgs false

variable {F : Cells.FloatLib}

/-- A program with text objects (C81) whose document is one of C82. -/
structure Both (L : XLib) (p : Prog) : Prop where
  ok : OK L p
  sound : Sound L p.session

/-! ## Text objects -/

theorem root_firm {G : Nat → Prop} {W W' : World} {tag : String} {d : Parts.DocTree} (h : Kept G W tag d)
    (hs : Firm G W W' tag d) {r : Nat} (hr : r ∈ [d.styles.root, d.content.root]) (hroot : r ∈ roots W) : r ∈ roots W' := by
  have hF : G r := h.frame r (by simp at hr ⊢; tauto)
  by_contra hno
  obtain ⟨q, u, hu, hm⟩ := exists_parent hs.kept.once (hs.kept.mem r hF) hno
  have hnode : node W' q = some (u.1, roots u.2) := by unfold node; rw [hu]; rfl
  have hq : G q := hs.kept.up _ _ _ _ hnode hm hF
  by_cases hb : q = d.body.node
  · subst hb
    have := (hs.kept.free _ _ _ hnode hm).mpr.mt (fun h => h hF)
    apply this
    intro t ht htag
    have : Parts.tagAt W' r = some "office:document-styles" ∨ Parts.tagAt W' r = some "office:document-content" := by
      simp only [List.mem_cons, List.not_mem_nil, or_false] at hr
      rcases hr with rfl | rfl
      · exact .inl hs.kept.refs.stylesRoot
      · exact .inr hs.kept.refs.contentRoot
    rw [htag] at this
    simp only [declTags, List.mem_cons, List.not_mem_nil, or_false] at ht
    rcases ht with rfl | rfl <;> revert this <;> decide
  · rw [hs.same q hq hb] at hnode
    unfold node at hnode
    cases hf : find q W with
    | none => rw [hf] at hnode; cases hnode
    | some u0 =>
      rw [hf] at hnode
      simp only [Option.map_some, Option.some.injEq, Prod.mk.injEq] at hnode
      exact child_not_root h.once hf (roots_sub (hnode.2 ▸ hm)) hroot

theorem root_step {G : Nat → Prop} {W W' : World} {tag : String} {d : Parts.DocTree} (h : Kept G W tag d)
    (hs : Step G W W' tag d) {r : Nat} (hr : r ∈ [d.styles.root, d.content.root]) (hroot : r ∈ roots W) : r ∈ roots W' :=
  root_firm h hs.firm hr hroot

/-- The declarations belong to the frame. -/
theorem decl_kept {G : Nat → Prop} {W : World} {tag : String} {d : Parts.DocTree} (h : Kept G W tag d)
    (hf : Program.Framed W tag d) {w : Which} {k : Str} {v : Variable} (hv : (w.dict d.body).get (some k) = some v) :
    G v.node ∧ v.node ≠ d.body.node := by
  obtain ⟨t, b, u, a1, a2, a3, a4, a5, a6, a7⟩ := trees_of hf w
  obtain ⟨t', b', u', y, c1, c2, c3, c4, c5, c6, rfl, c8⟩ := entry hf hv
  rw [a2] at c2; cases c2
  rw [a3] at c3; cases c3
  have hroots : ∀ (G : Forest) (z : Tree), z ∈ G.toList → z.1.id ∈ roots G := by
    intro G z hz
    induction G with
    | nil => cases hz
    | cons e k r _ ih =>
      simp only [Forest.toList, List.mem_cons] at hz
      rcases hz with rfl | hz
      · simp
      · simp [ih hz]
  have hub : u ∈ b.2.toList ∧ u.1.tag = w.tag := by
    unfold kid at a3
    have := List.find?_some a3
    exact ⟨List.mem_of_find?_eq_some a3, by simpa using this⟩
  have hyu : y ∈ u.2.toList := by
    have hg := collect_get a7 (some k)
    unfold pick at c4
    cases hl : (u.2.toList.filter fun x => x.1.get "text:name" = some k).getLast? with
    | none => rw [hl, hv] at hg; cases hg
    | some z =>
      rw [hl] at c4
      cases c4
      exact (List.mem_filter.mp (List.mem_of_getLast? hl)).1
  have hnb : node W d.body.node = some (b.1, roots b.2) := by unfold node; rw [a2]; rfl
  have hnu : node W u.1.id = some (u.1, roots u.2) := by unfold node; rw [a4]; rfl
  have hGu : G u.1.id := by
    by_contra hno
    have := (h.free _ _ _ hnb (hroots _ _ hub.1)).mp hno w.tag (by cases w <;> decide)
    apply this
    unfold Parts.tagAt Lxml.content
    rw [a4]
    simp [hub.2]
  have hnt := nodup_tree h.once a2
  have hbid : b.1.id = d.body.node := (find_mem_ids a2).1
  have hnb' : d.body.node ∉ ids b.2 := by
    simp [hbid] at hnt; exact hnt.1
  have hsub := TextProg.tree_sub hub.1
  refine ⟨h.down _ _ _ _ hnu (hroots _ _ hyu) hGu ?_, ?_⟩
  · intro he
    exact hnb' (he ▸ hsub (by simp))
  · intro he
    exact hnb' (he ▸ hsub (by simp [roots_sub (hroots _ _ hyu)]))

/-- **C82**, a statement with text objects, whether it raises or not: the document stays in order, and all user fields are
read as before. -/
theorem C82_texts {L : XLib} {p : Prog} (h : Both L p) {a : Act} (ha : Allowed p a) : Both L (exec a p).1 ∧
    ∀ w k, Field p.session w k → Field (exec a p).1.session w k ∧
      (read F w k (exec a p).1.session).2 = (read F w k p.session).2 := by
  obtain ⟨tag, ht, hf⟩ := h.sound.frame
  obtain ⟨G, tag', ht', hfit⟩ := h.ok.fits
  rw [ht] at ht'
  cases ht'
  have hacts := exec_acts hfit ha
  have hok := (C81_step h.ok ha).1
  obtain ⟨h1, h2, -, -, -⟩ := hacts
  have hd : (exec a p).1.session.tree = p.session.tree := by rw [h1]
  have hm : (exec a p).1.session.mimetype = p.session.mimetype := by rw [h1]
  have hf' : Program.Framed (exec a p).1.session.world tag (exec a p).1.session.tree := by
    rw [hd]
    exact ⟨h2.kept.once, hf.noTable, h2.kept.refs, root_step hfit.kept h2 (by simp) hf.styles,
      root_step hfit.kept h2 (by simp) hf.content⟩
  refine ⟨⟨hok, hok.lives, tag, by rw [hm]; exact ht, hf'⟩, fun w k hk => ?_⟩
  obtain ⟨v, hv, htag⟩ := hk
  obtain ⟨hG, hne⟩ := decl_kept hfit.kept hf hv
  have hnode := h2.same _ hG hne
  have hc : Lxml.content (exec a p).1.session.world v.node = Lxml.content p.session.world v.node := by
    have := congrArg (Option.map Prod.fst) hnode
    unfold node at this
    rw [Option.map_map, Option.map_map] at this
    exact this
  have hv' : (w.dict (exec a p).1.session.tree.body).get (some k) = some v := by rw [hd]; exact hv
  have htag' : Parts.tagAt (exec a p).1.session.world v.node = some "text:user-field-decl" := by
    rw [← htag]; unfold Parts.tagAt; rw [hc]
  refine ⟨⟨v, hv', htag'⟩, ?_⟩
  have key : ∀ {s : Session} {tag}, Program.Framed s.world tag s.tree → (w.dict s.tree.body).get (some k) = some v →
      Parts.tagAt s.world v.node = some "text:user-field-decl" → ∀ {e}, Lxml.content s.world v.node = some e →
      (read F w k s).2 = declared F e := by
    intro s tag hf hv ht e he
    have : isField s.world v = true := by
      unfold isField
      unfold Lxml.content at he
      cases hfi : find v.node s.world with
      | none => rw [hfi] at he; cases he
      | some t =>
        simp [Parts.tagAt, Lxml.content, hfi] at ht
        simp [ht]
    rw [read_entry hf hv (r := declared F e)]
    unfold valueOf
    simp only [this, if_true]
    exact fieldValue_eq he
  cases he : Lxml.content p.session.world v.node with
  | none => simp [Parts.tagAt, he] at htag
  | some e => rw [key hf hv htag he, key hf' hv' htag' (hc.trans he)]

/-! ## Assignments -/

theorem node_map {g : Elem → Elem} (hg : Keeps g) (W : World) (q : Nat) :
    node (W.map g) q = (node W q).map fun u => (g u.1, u.2) := by
  have hid := fun e => (hg e).1
  unfold node
  rw [find_map hid, Option.map_map, Option.map_map]
  congr 1
  funext t
  simp [roots_map hid]

theorem kept_map {g : Elem → Elem} (hg : Keeps g) {G : Nat → Prop} {W : World} {tag : String} {d : Parts.DocTree}
    (h : Kept G W tag d) (hr : Parts.DocRefs (W.map g) tag d) : Kept G (W.map g) tag d := by
  have hid := fun e => (hg e).1
  have hnode : ∀ {q e l}, node (W.map g) q = some (e, l) → ∃ e0, node W q = some (e0, l) := by
    intro q e l hq
    rw [node_map hg] at hq
    cases hn : node W q with
    | none => rw [hn] at hq; cases hq
    | some u => rw [hn] at hq; cases hq; exact ⟨_, rfl⟩
  refine ⟨by rw [ids_map hid]; exact h.once, hr, fun x hx => by rw [ids_map hid]; exact h.mem x hx, ?_, ?_, h.frame, h.apart, ?_⟩
  · intro q e l x hq hx hF
    obtain ⟨e0, he⟩ := hnode hq
    exact h.up q e0 l x he hx hF
  · intro q e l x hq hx hF
    obtain ⟨e0, he⟩ := hnode hq
    exact h.down q e0 l x he hx hF
  · intro e l x hq hx
    obtain ⟨e0, he⟩ := hnode hq
    rw [h.free e0 l x he hx]
    simp only [tagAt_map hg]

theorem ids_single_map {g : Elem → Elem} (hg : ∀ e, (g e).id = e.id) (t : Tree) :
    ids (single (Tbl.mapT g t)) = ids (single t) := by
  have := ids_map hg (single t)
  exact this

/-- **C82**, an assignment in a program with text objects, whether it raises or not: the program stays in order. -/
theorem C82_assign {L : XLib} {p : Prog} (h : Both L p) (w : Which) (k : Str) (x : Val F) :
    Both L { p with session := (assign w k x p.session).1 } := by
  obtain ⟨o1, o2, -, -⟩ := C82_others h.sound w k x
  refine ⟨?_, o1⟩
  cases hv : (w.dict p.session.tree.body).get (some k) with
  | none =>
    obtain ⟨e, he⟩ := C82_unknown h.sound hv x
    rw [he]
    exact h.ok
  | some v =>
    obtain ⟨tag, ht, hf⟩ := h.sound.frame
    obtain ⟨g, r, hg, e1, -, -, -⟩ := assign_change hf hv x
    obtain ⟨G, tag', ht', hfit⟩ := h.ok.fits
    rw [ht] at ht'
    cases ht'
    rw [e1] at o1 ⊢
    have hid := fun e => (hg e).1
    refine ⟨o1.lives, ⟨G, tag, ht, kept_map hg hfit.kept (framed_map hg hf).refs, fun n hn => ?_⟩, fun t htt => ?_⟩
    · obtain ⟨m1, m2, m3⟩ := hfit.objs n hn
      refine ⟨?_, m2, fun t ht => ?_⟩
      · show n ∈ ids (p.session.world.map g)
        rw [ids_map hid]; exact m1
      · show Parts.tagAt (p.session.world.map g) n ≠ _
        rw [tagAt_map hg]; exact m3 t ht
    · have htt : find p.session.tree.styles.root (p.session.world.map g) = some t := htt
      rw [find_map hid] at htt
      cases hs : find p.session.tree.styles.root p.session.world with
      | none => rw [hs] at htt; cases htt
      | some t0 =>
        rw [hs] at htt
        cases htt
        have := h.ok.apart t0 hs
        have e := ids_single_map hid t0
        unfold Tbl.mapT at e
        show p.session.tree.body.node ∉ _
        rw [e]; exact this

/-! ## Programs -/

/-- A program with text objects that assigns to names of `names` only; every statement may raise. -/
inductive RunsV (L : XLib) (F : Cells.FloatLib) (names : List Str) : Prog → Prog → Prop
  | done (p : Prog) : RunsV L F names p p
  | act {p p' : Prog} (a : Act) (ha : Allowed p a) (h : RunsV L F names (exec a p).1 p') : RunsV L F names p p'
  | assign {p p' : Prog} (w : Which) (k : Str) (hk : k ∈ names) (x : Val F)
      (h : RunsV L F names { p with session := (assign w k x p.session).1 } p') : RunsV L F names p p'
  | name {p p' : Prog} (name : Option Package.Path)
      (h : RunsV L F names { p with session := { p.session with docname := name } } p') : RunsV L F names p p'
  | save {p p' : Prog} (env : Package.Env) (c : Clock) (backup : Bool)
      (h : RunsV L F names (TextProg.save L env c backup p).1 p') : RunsV L F names p p'

/-- The user field is there and read in the same way. -/
def FieldSame (F : Cells.FloatLib) (s s' : Session) (w : Which) (k : Str) : Prop :=
  Field s w k → Field s' w k ∧ (read F w k s').2 = (read F w k s).2

theorem field_of {s s' : Session} (hw : s'.world = s.world) (ht : s'.tree = s.tree) (w : Which) (k : Str) :
    FieldSame F s s' w k := by
  intro h
  unfold Field at h ⊢
  unfold read
  rw [hw, ht]
  exact ⟨h, rfl⟩

/-- **C82**, all programs with text objects, assignments and saves: the document stays in order, and all user fields to
whose names nothing was assigned are read as before. -/
theorem C82_program {L : XLib} {names : List Str} {p p' : Prog} (h : Both L p) (hr : RunsV L F names p p') :
    Both L p' ∧ ∀ w k, k ∉ names → FieldSame F p.session p'.session w k := by
  have glue : ∀ {p q p' : Prog}, (∀ w k, k ∉ names → FieldSame F p.session q.session w k) →
      (Both L p' ∧ ∀ w k, k ∉ names → FieldSame F q.session p'.session w k) →
      Both L p' ∧ ∀ w k, k ∉ names → FieldSame F p.session p'.session w k := by
    intro p q p' h1 h2
    refine ⟨h2.1, fun w k hk hf => ?_⟩
    obtain ⟨a1, a2⟩ := h1 w k hk hf
    obtain ⟨b1, b2⟩ := h2.2 w k hk a1
    exact ⟨b1, b2.trans a2⟩
  induction hr with
  | done p => exact ⟨h, fun _ _ _ hf => ⟨hf, rfl⟩⟩
  | act a ha _ ih =>
    obtain ⟨h1, h2⟩ := C82_texts (F := F) h ha
    exact glue (fun w k _ => h2 w k) (ih h1)
  | @assign p p' w k hk x _ ih =>
    refine glue (fun w' k' hk' hf => ?_) (ih (C82_assign h w k x))
    obtain ⟨o1, o2, o3, o4⟩ := C82_others h.sound w k x
    have hne : k' ≠ k := fun e => hk' (e ▸ hk)
    obtain ⟨v', hv', ht'⟩ := hf
    have hfr : Field (TextProg.Prog.session { p with session := (VarProg.assign w k x p.session).1 }) w' k' := by
      refine ⟨v', ?_, ?_⟩
      · show (w'.dict (VarProg.assign w k x p.session).1.tree.body).get _ = _
        rw [o2]; exact hv'
      · cases hv : (w.dict p.session.tree.body).get (some k) with
        | none =>
          obtain ⟨e, he⟩ := C82_unknown h.sound hv x
          show Parts.tagAt (VarProg.assign w k x p.session).1.world _ = _
          rw [he]; exact ht'
        | some v =>
          obtain ⟨tag, ht, hf⟩ := h.sound.frame
          obtain ⟨g, r, hg, e1, -, -, -⟩ := assign_change hf hv x
          show Parts.tagAt (VarProg.assign w k x p.session).1.world _ = _
          rw [e1]
          exact (tagAt_map hg _ _).trans ht'
    exact ⟨hfr, o4 w' k' hne (by rw [hv']; rfl)⟩
  | @name p p' n _ ih =>
    refine glue (fun w k _ => field_of rfl rfl w k) (ih ⟨(h.ok.session (.named h.ok.lives n) rfl rfl rfl).1, ?_⟩)
    obtain ⟨tag, ht, hf⟩ := h.sound.frame
    exact ⟨.named h.ok.lives n, tag, ht, hf⟩
  | @save p p' env c backup _ ih =>
    obtain ⟨f1, f2, -, f4, -⟩ := C69_frame L env c backup (s := p.session) (s' := (saveWhole L env c backup p.session).1)
      (r := (saveWhole L env c backup p.session).2) rfl
    obtain ⟨tag, ht, hf⟩ := h.sound.frame
    refine glue (q := (TextProg.save L env c backup p).1) (fun w k _ => field_of f1 f2 w k)
      (ih ⟨(TextProg.save_ok h.ok env c backup).1, .saved h.ok.lives env c backup, tag, ?_, ?_⟩)
    · show MIMETYPE_BODYTAG_MAP.get (saveWhole L env c backup p.session).1.mimetype = _
      rw [f4]; exact ht
    · show Program.Framed (saveWhole L env c backup p.session).1.world tag (saveWhole L env c backup p.session).1.tree
      rw [f1, f2]; exact hf

/-- **C82**, from the assignment to the file: a value is assigned to a user field, then any program with text objects,
saves and assignments to other names follows; when the document is saved and opened, the value is read. -/
theorem C82_program_document {L : XLib} (hl : L.Lawful) (H : F.Lawful) (hp : F.parse [] = none) {p : Prog} (h : Both L p)
    {w : Which} {k : Str} (hk : Field p.session w k) (hq : '\'' ∉ k) {x : Val F} (hx : x.isBool = true ∨ truth x = true)
    {names : List Str} (hn : k ∉ names) {p' : Prog}
    (hr : RunsV L F names { p with session := (assign w k x p.session).1 } p') {env : Package.Env} {c : Clock} {backup : Bool}
    {s' : Session} (hs : saveWhole L env c backup p'.session = (s', .ok ())) (hw : Writable s') (c' : Clock) {W0 : World}
    (h0 : (ids W0).Nodup) : ∃ f s'', p'.session.docname = some f ∧ openWhole L s'.w.fs c' (.file (some f)) W0 = .ok s'' ∧
      Both L ⟨s'', []⟩ ∧ Field s'' w k ∧ (read F w k s'').2 = .ok (back H x) := by
  obtain ⟨s1, a1, -, a3, a4⟩ := C82_field H h.sound hk hq hx
  have hb := C82_assign h w k x
  rw [a1] at hr hb
  obtain ⟨b1, b2⟩ := C82_program hb hr
  obtain ⟨b3, b4⟩ := b2 w k hn a4
  obtain ⟨f, s'', e1, e2, -, e4, -, e6⟩ := C82_reopen (F := F) hl hp b1.sound hs hw c' h0
  obtain ⟨g1, g2⟩ := (e6 w k).2.2.1 b3
  refine ⟨f, s'', e1, e2, ⟨TextProg.C81_open hl h0 e2, e4⟩, g1, ?_⟩
  rw [g2, b4, a3]

/-- **C82**, the start of programs: all documents of C82 -/
theorem C82_start {L : XLib} {s : Session} (h : Sound L s) : Both L ⟨s, []⟩ := ⟨TextProg.ok_start h.lives h.frame, h⟩

/-! ## Concrete cases -/

theorem varDemo_field {s : Session} (h : Starts s.world s.tree) : Field s .userfields "f".toList := by
  have hc : (match Parts.packagedTree Parts.spreadsheet (some 1) (some 2) varDemo with
      | (_, .error _) => false
      | (W, .ok d) => decide (d.body.fields.get (some "f".toList) = some ⟨9, some "f".toList⟩) &&
        decide (Parts.tagAt W 9 = some "text:user-field-decl")) = true := by decide +kernel
  unfold Starts at h
  rw [h] at hc
  simp only [Bool.and_eq_true, decide_eq_true_eq] at hc
  exact ⟨_, hc.1, hc.2⟩

/-- A user field is set, a list header is made and appended, a variable is set: the user field is read as it was set. -/
example : ∃ L : XLib, L.Lawful ∧ ∃ s s1 p', Sound L s ∧
    assign .userfields "f".toList (.str "new".toList : Val Cells.intLib) s = (s1, .ok ()) ∧
    RunsV L Cells.intLib ["a".toList] ⟨s1, []⟩ p' ∧
    (read Cells.intLib .userfields "f".toList p'.session).2 = .ok (.str "new".toList) := by
  obtain ⟨L, hl⟩ := xlib_exists
  obtain ⟨s, h1, -, -, h4, -⟩ := varDemo_ok (L := L)
  obtain ⟨s1, a1, a2, a3, a4⟩ := C82_field Cells.intLawful h1 (varDemo_field h4) (by decide)
    (x := (.str "new".toList : Val Cells.intLib)) (.inr rfl)
  refine ⟨L, hl, s, s1, _, h1, a1, .act (.header "T".toList) trivial (.act (.append none 0) trivial
    (.assign .variables "a".toList (by simp) (.int 7) (.done _))), ?_⟩
  have := (C82_program (F := Cells.intLib) (C82_start a2) (.act (.header "T".toList) trivial (.act (.append none 0) trivial
    (.assign .variables "a".toList (names := ["a".toList]) (by simp) (.int 7) (.done _))))).2 .userfields "f".toList (by decide) a4
  rw [this.2, a3]
  rfl

/-- A user field is set, then a variable; the document is saved and opened: the user field is read as it was set. -/
example : ∃ L : XLib, L.Lawful ∧ ∃ s p' s' s'', Sound L s ∧
    RunsV L Cells.intLib ["a".toList] ⟨(assign .userfields "f".toList (.str "new".toList : Val Cells.intLib) s).1, []⟩ p' ∧
    saveWhole L demoEnv demoClock false p'.session = (s', .ok ()) ∧
    openWhole L s'.w.fs demoClock (.file (some demoFile)) .nil = .ok s'' ∧
    (read Cells.intLib .userfields "f".toList s'').2 = .ok (.str "new".toList) := by
  obtain ⟨L, hl⟩ := xlib_exists
  obtain ⟨s, h1, h2, h3, h4, h5, h6, h7, h8⟩ := varDemo_ok (L := L)
  obtain ⟨o1, o2, -, -⟩ := C82_others h1 .userfields "f".toList (.str "new".toList : Val Cells.intLib)
  have hw := C82_writable h1 h2 .userfields "f".toList (x := (.str "new".toList : Val Cells.intLib)) (by decide +kernel)
  obtain ⟨s', r1, r2⟩ := varDemo_run hl o1 hw (by rw [o2]; exact h3) (by rw [o2]; exact h5) (by rw [o2]; exact h6)
    (by rw [o2]; exact h7) (by rw [o2]; exact h8) (w := .variables) (k := "a".toList) (x := (.int 7 : Val Cells.intLib))
    (by decide +kernel)
  have hr : RunsV L Cells.intLib ["a".toList]
      ⟨(assign .userfields "f".toList (.str "new".toList : Val Cells.intLib) s).1, []⟩ _ :=
    .assign .variables "a".toList (by simp) (.int 7) (.done _)
  obtain ⟨f, s'', e1, e2, -, -, e5⟩ := C82_program_document hl Cells.intLawful (by decide +kernel) (C82_start h1) (varDemo_field h4)
    (by decide) (x := (.str "new".toList : Val Cells.intLib)) (.inr rfl) (names := ["a".toList]) (by decide) hr r1 r2 demoClock
    (W0 := .nil) (by simp [ids])
  have hd : f = demoFile := by
    have q := (C82_others o1 .variables "a".toList (.int 7 : Val Cells.intLib)).2.1
    have q := congrArg (fun s : Session => s.docname) q
    have e1 : (assign .variables "a".toList (.int 7 : Val Cells.intLib)
      (assign .userfields "f".toList (.str "new".toList : Val Cells.intLib) s).1).1.docname = some f := e1
    rw [q] at e1
    have e1 : (assign .userfields "f".toList (.str "new".toList : Val Cells.intLib) s).1.docname = some f := e1
    rw [o2] at e1
    have e1 : s.docname = some f := e1
    rw [h3] at e1
    cases e1; rfl
  subst hd
  exact ⟨L, hl, s, _, s', s'', h1, hr, r1, e2, e5⟩

end Verif.VarProg
