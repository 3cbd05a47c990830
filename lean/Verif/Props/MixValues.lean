import Verif.Props.Mix
/-!
# C88: the values in a table among text

What the cells of a table read after a program that writes into them and does anything else with the rest of the document,
and after saving and opening again.
-/
namespace Verif.Mix
open Verif Verif.Lxml Forest Verif.Whole Verif.Tbl
open Verif.Program (TableObj tableState stateOf Config Copied method blank Reads)
open Verif.TSpec (docCell docRows cells Denotes)
open Verif.TextProg (Kept Loose Step Firm Fits declTags Place at_ SameBelow)
open Verif.Document (MIMETYPE_BODYTAG_MAP MANIFEST ROOT META STYLES CONTENT)
set_option linter.unusedSimpArgs false

variable {L : XLib} {FL : Cells.FloatLib} {F R T : Nat → Prop} {tag : String} {p : Prog}

/-- A program as a list of statements -/
def runActs (strategy : String) (mx : Int × Int) (l : List (Act FL)) (p : Prog) : Prog :=
  l.foldl (fun p a => (exec strategy mx a p).1) p

/-- All statements are allowed where they stand. -/
def AllAllowed (strategy : String) (mx : Int × Int) : List (Act FL) → Prog → Prop
  | [], _ => True
  | a :: l, p => Allowed p a ∧ AllAllowed strategy mx l (exec strategy mx a p).1

/-- A statement that calls no method of the `i`-th table but those of its cells -/
def OnlyWrites (i : Nat) (a : Act FL) : Prop := callee a = some i → ∃ pos c, a = .table (.write i pos c)

/-- The calls on cells of the `i`-th table, in their order -/
def writesTo (i : Nat) : List (Act FL) → List ((Int × Int) × CellCall FL)
  | [] => []
  | .table (.write j pos c) :: l => if j = i then (pos, c) :: writesTo i l else writesTo i l
  | _ :: l => writesTo i l

theorem writesTo_other {i : Nat} {a : Act FL} (h : callee a ≠ some i) (l : List (Act FL)) :
    writesTo i (a :: l) = writesTo i l := by
  cases a with
  | text a => rfl
  | grab t k => rfl
  | table a =>
    cases a <;> try rfl
    rename_i j pos c
    have : j ≠ i := fun e => h (by rw [e]; rfl)
    show (if j = i then _ else _) = _
    rw [if_neg this]

theorem OK.sound (h : OK L p) {i : Nat} {S : TState} (hS : stateOf p.sheets i = some S) : Sound S ∧ i < p.tables.length := by
  obtain ⟨F, R, T, tag, h⟩ := h
  cases ho : p.tables[i]? with
  | none =>
    unfold stateOf at hS
    have : p.sheets.tables[i]? = none := ho
    rw [this] at hS; cases hS
  | some o =>
    obtain ⟨t, -, h1, h2⟩ := h.state ho
    rw [hS] at h1
    cases h1
    exact ⟨h2, (List.getElem?_eq_some_iff.mp ho).1⟩

/-- What is shown of a table determines its state but for the text after it. -/
theorem shown_state {p q : Prog} {i : Nat} (h : shown q i = shown p i) {S : TState} (hS : stateOf p.sheets i = some S) :
    ∃ S', stateOf q.sheets i = some S' ∧ S'.kids = S.kids ∧ S'.rows = S.rows ∧ S'.cols = S.cols ∧
      S'.node.attrs = S.node.attrs ∧ S'.node.id = S.node.id := by
  unfold stateOf at hS
  obtain ⟨o, ho, hS⟩ := Option.bind_eq_some_iff.mp hS
  obtain ⟨t, ht, rfl⟩ := Option.map_eq_some_iff.mp hS
  have ho : p.tables[i]? = some o := ho
  have ht : find o.node p.world = some t := ht
  unfold shown at h
  rw [ho] at h
  simp only [Option.bind_some, ht, Option.map_some] at h
  obtain ⟨o', ho', h⟩ := Option.bind_eq_some_iff.mp h
  obtain ⟨t', ht', h⟩ := Option.map_eq_some_iff.mp h
  simp only [Prod.mk.injEq] at h
  obtain ⟨h1, h2, h3, h4⟩ := h
  refine ⟨tableState q.world o' t', ?_, h2, h3, h4, ?_, ?_⟩
  · unfold stateOf
    have e1 : q.sheets.tables[i]? = some o' := ho'
    rw [e1]
    show (Forest.find o'.node q.world).map _ = _
    rw [ht']; rfl
  · have e := congrArg Elem.attrs h1; exact e
  · have e := congrArg Elem.id h1; exact e

/-- **C88**, the values in a table.  A program calls methods of the cells of a table, in any order, any number of times,
and at any positions, and does anything else with the rest of the document in between; it may move the table or put it
somewhere.  Then the table has its name and its size, and each cell is what a single cell is after the calls that address
it. -/
theorem C88_cells {strategy : String} {mx : Int × Int} (hc : Config strategy mx) {i : Nat} (acts : List (Act FL))
    (hw : ∀ a ∈ acts, OnlyWrites i a) : ∀ {p : Prog} {S : TState}, OK L p → AllAllowed strategy mx acts p →
    stateOf p.sheets i = some S → ∃ S', OK L (runActs strategy mx acts p) ∧
      stateOf (runActs strategy mx acts p).sheets i = some S' ∧ nrows S' = nrows S ∧ ncols S' = ncols S ∧
      S'.node.attrs = S.node.attrs ∧ S'.node.id = S.node.id ∧
      ∀ r c t, docCell S.kids r c = some t → ∃ t', docCell S'.kids r c = some t' ∧
        Sim (callAll (callsOn (nrows S) (ncols S) r c (writesTo i acts)) t) t' := by
  induction acts with
  | nil => intro p S h _ hS; exact ⟨S, h, hS, rfl, rfl, rfl, rfl, fun r c t ht => ⟨t, ht, .refl t⟩⟩
  | cons a l ih =>
    intro p S h ha hS
    obtain ⟨hs, hi⟩ := h.sound hS
    have ih := @ih fun b hb => hw b (by simp [hb])
    by_cases hcal : callee a = some i
    · obtain ⟨pos, c, rfl⟩ := hw a (by simp) hcal
      have hm := C88_method (a := .write i pos c) h ha.1 (i := i) rfl strategy mx
      rw [hS] at hm
      obtain ⟨q, t, e1, e2, e3, -⟩ := hm
      have hrect := Program.sound_rect hs
      obtain ⟨b1, b2, b3, b4, b5⟩ := write_step hs.inv hrect (pos, c) ha.1.1
      have hn := b2.ncols hs.inv b1
      have hr1 : nrows (onCell pos c.run S).1 = nrows S := by
        rw [nrows_eq hs.inv, nrows_eq b1, b2.length]
      have ha2 := ha.2
      rw [e1] at ha2
      obtain ⟨S', c1, c2, c3, c4, c5, c6, c7⟩ := ih e2 ha2 e3
      have hrun : runActs strategy mx (.table (.write i pos c) :: l) p = runActs strategy mx l q := by
        show runActs strategy mx l (exec strategy mx _ p).1 = _
        rw [e1]
      rw [hrun]
      have hnode : (onCell pos c.run S).1.node = S.node := b4.node
      refine ⟨S', c1, c2, c3.trans hr1, c4.trans hn, c5.trans (by rw [hnode]), c6.trans (by rw [hnode]), ?_⟩
      intro r cc t ht
      rw [← cellAt_doc] at ht
      obtain ⟨t1, g1, g2, g3⟩ := b5 r cc t ht
      rw [cellAt_doc] at g1
      obtain ⟨t2, g4, g5⟩ := c7 r cc t1 g1
      refine ⟨t2, g4, ?_⟩
      have hwt : writesTo i (.table (.write i pos c) :: l) = (pos, c) :: writesTo i l := by
        show (if i = i then _ else _) = _
        rw [if_pos rfl]
      rw [hwt, callsOn_cons]
      unfold callAll at g3 ⊢
      rw [List.foldl_append]
      have hr2 : nrows { (onCell pos c.run S).1 with fresh := Parts.newId q.world } = nrows S := hr1
      have hn2 : ncols { (onCell pos c.run S).1 with fresh := Parts.newId q.world } = ncols S := hn
      rw [hr2, hn2] at g5
      rw [← nrows_eq hs.inv] at g3
      exact (callAll_sim _ g3).trans g5
    · have hst := C88_step h hc ha.1
      obtain ⟨S1, s1, s2, s3, s4, s5, s6⟩ := shown_state (hst.others i hi hcal) hS
      obtain ⟨S', c1, c2, c3, c4, c5, c6, c7⟩ := ih hst.ok ha.2 s1
      have hr1 : nrows S1 = nrows S := by unfold nrows; rw [s3]
      have hn1 : ncols S1 = ncols S := by unfold ncols kidsOf; rw [s2, s3]
      rw [writesTo_other hcal]
      refine ⟨S', c1, c2, c3.trans hr1, c4.trans hn1, c5.trans s5, c6.trans s6, ?_⟩
      rw [s2, hr1, hn1] at c7
      exact c7

/-! ## Whole documents -/

/-- Nothing but the trees of the document is changed. -/
def Stays {α : Type} (m : Py Program.Prog α) : Prop := ∀ p, (m p).1.session = { p.session with world := (m p).1.world }

theorem Stays.bind {α β : Type} {m : Py Program.Prog α} {f : α → Py Program.Prog β} (h : Stays m) (hf : ∀ a, Stays (f a)) :
    Stays (m >>= f) := by
  intro p
  cases hm : m p with
  | mk q r =>
    have h1 := h p
    rw [hm] at h1
    cases r with
    | error e => rw [Py.bind_error hm]; exact h1
    | ok a => rw [Py.bind_ok hm, hf a q, h1]

theorem stays_pure {α : Type} (a : α) : Stays (pure a) := fun _ => rfl

theorem stays_nodeOf (i : Nat) : Stays (Program.nodeOf i) := by
  intro p; unfold Program.nodeOf; split <;> rfl

theorem stays_onSheets {α : Type} (m : Nat → Py World α) : Stays (Program.onSheets m) := by
  intro p; unfold Program.onSheets; split <;> rfl

theorem stays_access (strategy : String) (mx : Int × Int) (key : Pages.Key) : Stays (Program.access strategy mx key) := by
  refine Stays.bind ?_ fun t p => ?_
  · intro p; unfold Program.sheetElem; split
    · rfl
    · split <;> rfl
  · dsimp only
    split
    · rfl
    · split <;> rfl

theorem stays_onTable (i : Nat) (m : Py TState Unit) : Stays (Program.onTable i m) := by
  intro p
  unfold Program.onTable
  split
  · rfl
  · split <;> rfl

theorem stays_exec (strategy : String) (mx : Int × Int) (a : Program.Act FL) : Stays (Program.exec strategy mx a) := by
  cases a with
  | create nm size =>
    refine Stays.bind (fun p => ?_) fun _ => stays_pure _
    unfold Program.create
    split <;> rfl
  | call i op => exact stays_onTable _ _
  | write i pos c => exact stays_onTable _ _
  | writeRow i k c => exact stays_onTable _ _
  | writeColumn i k c => exact stays_onTable _ _
  | append i => exact (stays_nodeOf i).bind fun _ => stays_onSheets _
  | insert k i => exact (stays_nodeOf i).bind fun _ => stays_onSheets _
  | access key => exact (stays_access _ _ _).bind fun _ => stays_pure _
  | delete key => exact (stays_access _ _ _).bind fun _ => (stays_nodeOf _).bind fun _ => stays_onSheets _
  | replace key i =>
    exact (stays_nodeOf i).bind fun _ => (stays_access _ _ _).bind fun _ => (stays_nodeOf _).bind fun _ => stays_onSheets _

theorem get_session (t : Option Nat) (index : Int) (p : TextProg.Prog) : (TextProg.exec (.get t index) p).1.session =
    { p.session with world := (TextProg.exec (.get t index) p).1.world } := by
  show ((TextProg.target t >>= fun n => TextProg.keep (Base.getChild n index) >>= fun _ => pure ()) p).1.session =
    { p.session with world := ((TextProg.target t >>= fun n => TextProg.keep (Base.getChild n index) >>= fun _ => pure ()) p).1.world }
  cases ht : TextProg.target t p with
  | mk q r =>
    have h1 := TextProg.target_state t p
    rw [ht] at h1
    dsimp only at h1
    subst h1
    cases r with
    | error e => rw [Py.bind_error ht]; rfl
    | ok n =>
      rw [Py.bind_ok ht]
      cases hg : TextProg.onWorld (Base.getChild n index) q with
      | mk q' r =>
        have h2 : q'.session = { q.session with world := q'.world } := by
          have e : (TextProg.onWorld (Base.getChild n index) q).1 = q' := congrArg Prod.fst hg
          rw [← e]; rfl
        cases r with
        | error e =>
          have hk : TextProg.keep (Base.getChild n index) q = (q', .error e) := by
            unfold TextProg.keep; rw [Py.bind_error hg]
          rw [Py.bind_error hk]; exact h2
        | ok c =>
          obtain ⟨q'', k, hk, hs⟩ : ∃ q'' k, TextProg.keep (Base.getChild n index) q = (q'', .ok k) ∧ q''.session = q'.session := by
            unfold TextProg.keep; rw [Py.bind_ok hg]; exact ⟨_, _, rfl, rfl⟩
          rw [Py.bind_ok hk]
          show q''.session = { q.session with world := q''.session.world }
          rw [hs]; exact h2

theorem exec_session (h : OK L p) {strategy : String} {mx : Int × Int} {a : Act FL} (ha : Allowed p a) :
    (exec strategy mx a p).1.text.session = { p.text.session with world := (exec strategy mx a p).1.world } := by
  have hprog : ∀ {m : Py Program.Prog Unit}, Stays m →
      (onProgram m p).1.text.session = { p.text.session with world := (onProgram m p).1.world } := fun hm => hm p.sheets
  cases a with
  | text a =>
    obtain ⟨F, R, T, tag, h⟩ := h
    exact (TextProg.exec_acts h.fits ha.1).session
  | table a => exact hprog (stays_exec strategy mx a)
  | grab t index =>
    show (grab strategy mx t index p).1.text.session = { p.text.session with world := (grab strategy mx t index p).1.world }
    unfold grab
    split
    · rfl
    · split
      · rfl
      · split
        · refine hprog fun q => ?_
          unfold wrapTable
          split <;> rfl
        · exact get_session t index p.text

theorem acts_session {strategy : String} {mx : Int × Int} (hc : Config strategy mx) (acts : List (Act FL)) :
    ∀ {p : Prog}, OK L p → AllAllowed strategy mx acts p → OK L (runActs strategy mx acts p) ∧
      TextProg.Frame p.text (runActs strategy mx acts p).text ∧
      (runActs strategy mx acts p).text.session = { p.text.session with world := (runActs strategy mx acts p).world } := by
  induction acts with
  | nil => intro p h _; exact ⟨h, .refl _, rfl⟩
  | cons a l ih =>
    intro p h ha
    have hst := C88_step h hc ha.1
    obtain ⟨i1, i2, i3⟩ := ih hst.ok ha.2
    refine ⟨i1, hst.frame.trans i2, ?_⟩
    have e := exec_session (strategy := strategy) (mx := mx) h ha.1
    show (runActs strategy mx l (exec strategy mx a p).1).text.session = _
    rw [i3, e]; rfl

/-- A table that was written cell by cell and copied: what its cells read -/
theorem written_read {n m : Nat} {S1 S2 S3 : TState} (c6 : IsEmptyTable n m S1) (hs2 : Sound S2) (hn2 : nrows S2 = nrows S1)
    (hm2 : ncols S2 = ncols S1) {ws : List ((Int × Int) × CellCall FL)}
    (d : ∀ r c t, docCell S1.kids r c = some t → ∃ t', docCell S2.kids r c = some t' ∧
      Sim (callAll (callsOn (nrows S1) (ncols S1) r c ws) t) t') (t4 : Copied FL S2 S3) {r c : Nat} (hr : r < n) (hcc : c < m) :
    ∃ u, getCell S3 (r, c) = .ok u ∧ Reads FL (callAll (callsOn n m r c ws) blank) u := by
  have hn2 : nrows S2 = n := hn2.trans c6.nrows
  have hm2 : ncols S2 = m := hm2.trans c6.ncols
  have dr : Denotes n (r : Int) r := ⟨hr, .inl rfl⟩
  have dc : Denotes m (c : Int) c := ⟨hcc, .inl rfl⟩
  obtain ⟨u, u', g1, g2, -, g4⟩ := t4.cells ((r : Int), (c : Int)) r c (by rw [hn2]; exact dr) (by rw [hm2]; exact dc)
  have rect1 : ∀ t ∈ docRows S1.kids, (cells t).length = ncols S1 := by
    intro t ht
    rw [c6.ncols]; exact (c6.emptyRows t ht).2.2.2.2.1
  obtain ⟨t0, w1, -⟩ := getCell_doc c6.inv rect1 (pos := ((r : Int), (c : Int))) (i := r) (j := c)
    (by rw [c6.rows]; exact dr) (by rw [c6.ncols]; exact dc)
  obtain ⟨t, w2, w3⟩ := d r c t0 w1
  obtain ⟨t', w4, w5⟩ := getCell_doc hs2.inv (fun t ht => by
      rw [← rowsOf_doc] at ht
      have := Program.sound_rect hs2 t ht
      rw [← Forest.length_toList] at this; exact this) (pos := ((r : Int), (c : Int))) (i := r) (j := c)
    (by rw [← rowsOf_doc, ← nrows_eq hs2.inv, hn2]; exact dr) (by rw [hm2]; exact dc)
  have w4 : docCell S2.kids r c = some t' := w4
  rw [w2] at w4
  cases w4
  rw [w5] at g1
  cases g1
  have he : Sim t0 blank := by
    unfold docCell at w1
    cases hrow : (docRows S1.kids)[r]? with
    | none => rw [hrow] at w1; cases w1
    | some row =>
      rw [hrow] at w1
      have hmem := List.mem_of_getElem? (show (cells row)[c]? = some t0 from w1)
      obtain ⟨q1, q2, q3, q4, q5⟩ := (c6.emptyRows row (List.mem_of_getElem? hrow)).2.2.2.2.2 t0 hmem
      exact sim_mk q1 q2 q3 q4 (by rw [q5]; rfl)
  rw [c6.nrows, c6.ncols] at w3
  have hsim := (callAll_sim (callsOn n m r c ws) he).symm.trans w3
  refine ⟨u', g2, ?_⟩
  obtain ⟨z1, z2, z3, z4, z5⟩ := g4
  refine ⟨z1.trans hsim.value.symm, z2.trans hsim.valueType.symm, z3.trans (hsim.get _).symm, z4.trans hsim.plaintext.symm, z5.trans ?_⟩
  unfold Cells.span Cells.spanAttr
  rw [hsim.get, hsim.get]

/-- **C88**, values in whole documents.  A program makes a new document of any kind and a table of `n` rows and `m` columns;
then it calls methods of the cells of the table, and does anything else with the rest of the document in between; then it
saves the document.  If the file is opened again and the table was put into the body, at any depth, then there is a table
at the same place; it has the name and the size, and each cell reads as a single cell does after the calls that address
it. -/
theorem C88_values (hl : L.Lawful) (fs : Package.FS) (k k1 k2 : Clock) {mt : Str} (hmt : mt ∈ MIMETYPE_BODYTAG_MAP.keys)
    {nm : Str} (hnm : normalizeName nm ≠ []) {n m : Nat} (hn : 0 < n) (hm : 0 < m) {strategy : String} {mx : Int × Int}
    (hc : Config strategy mx) {acts : List (Act FL)} (hw : ∀ a ∈ acts, OnlyWrites 0 a)
    (hall : ∀ s, newWhole L fs k mt = .ok s →
      AllAllowed strategy mx (.table (.create nm (n, m)) :: acts) ⟨⟨s, []⟩, []⟩)
    (f : Package.Path) (env : Package.Env) (backup : Bool) (hsink : ∀ m, env.sink m = none) {tmp : Package.Path}
    (htmp : Package.tmpfilename env.names f fs = some tmp) (hne : tmp ≠ f) :
    ∃ s p1 p' o, newWhole L fs k mt = .ok s ∧
      runActs strategy mx (.table (.create nm (n, m)) :: acts) ⟨⟨s, []⟩, []⟩ = p1 ∧ p1.tables[0]? = some o ∧
      saveas L env k1 backup f p1 = (p', .ok ()) ∧
      (Writable p'.text.session → ∃ s'' b b'', openWhole L p'.text.session.w.fs k2 (.file (some f)) .nil = .ok s'' ∧
        find p1.text.session.tree.body.node p1.world = some b ∧ find s''.tree.body.node s''.world = some b'' ∧
        SameBelow b b'' ∧ ∀ path t, at_ b path = some t → t.1.id = o.node →
          ∃ t'' q T, at_ b'' path = some t'' ∧
            onProgram (wrapTable strategy mx t'') ⟨⟨s'', []⟩, []⟩ = (q, .ok ()) ∧ stateOf q.sheets 0 = some T ∧
            nrows T = n ∧ ncols T = m ∧ name T = some (normalizeName nm) ∧
            ∀ r c : Nat, r < n → c < m →
              ∃ u, getCell T (r, c) = .ok u ∧ Reads FL (callAll (callsOn n m r c (writesTo 0 acts)) blank) u) := by
  obtain ⟨s, h1, h2, h3, h4⟩ := C88_new hl fs k hmt
  have ha := hall s h1
  rcases C88_create (FL := FL) h2 strategy mx nm ((n : Int), (m : Int)) with ⟨e, -, hbad⟩ | ⟨p0, S1, c1, c2, c3, -, c5, c6, -⟩
  · exact absurd ⟨hnm, by simp only; omega, by simp only; omega⟩ hbad
  have c3 : stateOf p0.sheets 0 = some S1 := c3
  have c6 : IsEmptyTable n m S1 := by simpa using c6
  have ha2 := ha.2
  rw [c1] at ha2
  obtain ⟨S2, d1, d2, d3, d4, d5, d6, d7⟩ := C88_cells hc acts hw c2 ha2 c3
  obtain ⟨a1, a2, a3⟩ := acts_session hc _ h2 ha
  have hrun : runActs strategy mx (.table (.create nm ((n : Int), (m : Int))) :: acts) ⟨⟨s, []⟩, []⟩ = runActs strategy mx acts p0 := by
    show runActs strategy mx acts (exec strategy mx _ _).1 = _
    rw [c1]
  rw [hrun] at a1 a2 a3
  generalize hp1 : runActs strategy mx acts p0 = p1 at *
  obtain ⟨hs2, hi⟩ := d1.sound d2
  obtain ⟨s0, n1, -, n3, -, n5, n6, n7, -, -⟩ := new_ok (L := L) fs k hmt
  rw [h1] at n1
  cases n1
  obtain ⟨s', hs'⟩ := C69_saves hl (s := { p1.text.session with docname := some f }) (a1.text.lives.named (some f)) (f := f) rfl env k1 backup
    (by
      rw [a3]
      dsimp only
      rw [n5]
      show (Meta.abs (Meta.new k.time k.time2 k.generator)).tag "editing-cycles" ≠ _
      have : (Meta.abs (Meta.new k.time k.time2 k.generator)).tag "editing-cycles" = none := by
        rw [new_eq]
        rfl
      rw [this]; simp) (by rw [a3]; exact n6) (by rw [a3]; exact n7) hsink
    (by rw [a3]; dsimp only; rw [n3]; exact htmp) hne
  obtain ⟨o, ho⟩ : ∃ o, p1.tables[0]? = some o := ⟨_, List.getElem?_eq_getElem hi⟩
  have hsave : saveas L env k1 backup f p1 = ({ p1 with text := { p1.text with session := s' } }, .ok ()) := by
    show (({ p1 with text := { p1.text with session := (saveWhole L env k1 backup { p1.text.session with docname := some f }).1 } } : Prog),
      (saveWhole L env k1 backup { p1.text.session with docname := some f }).2) = _
    rw [hs']
  refine ⟨s, p1, _, o, h1, hrun, ho, hsave, fun hwr => ?_⟩
  obtain ⟨s'', b, b'', r1, -, -, r4, r5, r6, r7⟩ := C88_reopen_as FL hl a1 hsave hwr k2 (W0 := .nil) (by simp [ids])
  refine ⟨s'', b, b'', r1, r4, r5, r6, fun path t hat hid => ?_⟩
  have hid2 : o.node = S2.node.id := by
    obtain ⟨F, R, T, tag, h⟩ := a1
    obtain ⟨t, ht, hst, -⟩ := h.state ho
    rw [d2] at hst
    cases hst
    exact (find_mem_ids ht).1.symm
  obtain ⟨t'', q, S3, q1, q2, -, q4, q5⟩ := r7 0 S2 path t d2 hat (hid.trans hid2) strategy mx hc
  refine ⟨t'', q, S3, q1, q2, q4, ?_, ?_, ?_, fun r c hr hcc => written_read c6 hs2 d3 d4 d7 q5 hr hcc⟩
  · rw [q5.nrows]; exact d3.trans c6.nrows
  · rw [q5.ncols]; exact d4.trans c6.ncols
  · rw [q5.name]
    unfold name Elem.get at c5 ⊢
    rw [d5]; exact c5

/-! ## An example -/

/-- The statement edits no object that is a table, as far as the program `p` goes. -/
def plainEdits (p : Prog) : Act FL → Bool
  | .text a => (edits a).all fun k => match p.text.objs[k]? with
    | none => true
    | some n => decide (Parts.tagAt p.world n ≠ some "table:table")
  | _ => true

def allPlain : List (Act FL) → Prog → Bool
  | [], _ => true
  | a :: l, p => plainEdits p a && allPlain l (exec "all" (32, 32) a p).1

/-- Statements with no conditions but those on edits -/
def Easy : Act FL → Prop
  | .text a => ∀ p, TextProg.Allowed p a
  | .table a => ∀ p, Program.Allowed p a
  | .grab .. => False

theorem allPlain_allowed (l : List (Act FL)) (he : ∀ a ∈ l, Easy a) : ∀ {p : Prog}, allPlain l p = true →
    AllAllowed "all" (32, 32) l p := by
  induction l with
  | nil => intro p _; trivial
  | cons a l ih =>
    intro p h
    unfold allPlain at h
    rw [Bool.and_eq_true] at h
    refine ⟨?_, ih (fun b hb => he b (by simp [hb])) h.2⟩
    have h0 := he a (by simp)
    cases a with
    | text a =>
      refine ⟨h0 _, fun k hk n hn => ?_⟩
      have := List.all_eq_true.mp h.1 k hk
      simp only [hn] at this
      exact of_decide_eq_true this
    | table a => exact h0 _
    | grab t i => exact h0.elim

/-- The hypotheses of `C88_cells` and `C88_values` hold of the program `demoActs`, which puts a table into a section. -/
example : ∀ p, demoStart = some p → AllAllowed "all" (32, 32) demoActs p := by
  intro p hp
  refine allPlain_allowed _ ?_ ?_
  · intro a ha
    simp only [demoActs, List.mem_cons, List.not_mem_nil, or_false] at ha
    rcases ha with rfl | rfl | rfl | rfl | rfl | rfl | rfl
    all_goals intro p; first | trivial | exact ⟨(fun _ _ h => nomatch h), (fun _ _ h => nomatch h)⟩
  · have : demoStart.map (allPlain demoActs) = some true := by decide +kernel
    rw [hp] at this
    exact Option.some.inj this

example : ∀ a ∈ demoActs.tail, OnlyWrites 0 a := by
  intro a ha
  simp only [demoActs, List.tail_cons, List.mem_cons, List.not_mem_nil, or_false] at ha
  rcases ha with rfl | rfl | rfl | rfl | rfl | rfl
  all_goals intro h; first | exact ⟨_, _, rfl⟩ | cases h

example : writesTo 0 demoActs = [((0, 1), .setValue (.str "x".toList) none none)] := by rfl

/-- The place of the table is in the section. -/
example : demoStart.bind (fun p => let q := (runAll demoActs p).1
    (q.world.find q.text.session.tree.body.node).bind fun b => (at_ b [2, 0]).map fun t =>
      (q.tables[0]?.map TableObj.node == some t.1.id, t.1.tag)) = some (true, "table:table") := by decide +kernel

end Verif.Mix
