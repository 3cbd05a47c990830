import Verif.Props.Shelf
/-! # C92: the table that is moved, and what is written into tables that are moved about -/
namespace Verif.Shelf
open Verif Verif.Lxml Forest Verif.Whole Verif.Document Verif.Mix
open Verif.Program (TableObj tableState stateOf Config)
open Verif.TSpec (docCell)
open Verif.Tbl (CellCall Sim callsOn callAll callAll_sim)
open Verif.Desk (roots_apart body_in newIn)
open Verif.Room (Taken moved_cut moved_self Frame)
set_option linter.unusedSimpArgs false

variable {L : XLib} {FL : Cells.FloatLib} {strategy : String} {mx : Int × Int}

/-- **C92**, `newdoc(...)` while other documents are open: it always succeeds for the types that the library knows.  The
document is one more; its body has nothing but the two empty containers of declarations. -/
theorem C92_new (hlaw : L.Lawful) (hc : Config strategy mx) {S : Shelf} (h : OK L S) (k : Clock) {mt : Str}
    (hmt : mt ∈ MIMETYPE_BODYTAG_MAP.keys) :
    ∃ S' s, exec L strategy mx (.new (F := FL) k mt) S = (S', .ok ()) ∧ OK L S' ∧ S'.fs = S.fs ∧ S'.objs = S.objs ∧
      S'.tables = S.tables ∧ S'.docs = S.docs ++ [s] ∧ s.mimetype = mt ∧ s.docname = none ∧
      (s.tree.sheets.isSome ↔ MIMETYPE_BODYTAG_MAP.get mt = some "office:spreadsheet") ∧
      Parts.Blank S'.world s.tree.body ∧ ∀ k, look S' k = look S k := by
  obtain ⟨F, R, T, hst, -, -⟩ := id h
  obtain ⟨s, e1, e2, e3, e4, -, e6⟩ := newIn_ok (L := L) S.fs k hmt hst.cover.once
  obtain ⟨t1, t2, t3⟩ := new_tables mt hmt
  obtain ⟨tag, ht⟩ := Option.isSome_iff_exists.mp t2
  obtain ⟨W, d, n1, -, -, -, -, n6, -⟩ := Parts.C63_new hst.cover.once ht t3
  rw [e6] at n1
  simp only [Prod.mk.injEq, Except.ok.injEq] at n1
  obtain ⟨rfl, rfl⟩ := n1
  have hex : exec L strategy mx (.new (F := FL) k mt) S =
      ({ S with world := s.world, fs := s.w.fs, docs := S.docs ++ [s] }, .ok ()) := by
    show add (newIn L S.fs k mt S.world) S = _
    rw [e1]; rfl
  have g := C92_step (strategy := strategy) (mx := mx) hlaw hc h (a := .new (F := FL) k mt) trivial
  rw [hex] at g
  refine ⟨_, s, hex, g.ok, e3, rfl, rfl, rfl, e2, e4, ?_, n6, fun k => ?_⟩
  · obtain ⟨F', R', T', tg, hr⟩ := C92_sound g.ok (i := S.docs.length) (s := s) (by simp)
    have r1 : s.tree.sheets = s.tree.body.sheets := hr.fits.kept.refs.sheets
    have r2 : s.tree.body.sheets = _ := hr.fits.kept.refs.body.sheets
    have r3 : MIMETYPE_BODYTAG_MAP.get s.mimetype = some tg := hr.known
    rw [e2] at r3
    rw [r1, r2, r3]
    by_cases htg : tg = "office:spreadsheet" <;> simp [htg]
  · by_cases hk : k < S.tables.length
    · exact g.same k hk (by simp [Act.callee])
    · have : S.tables[k]? = none := List.getElem?_eq_none (by omega)
      unfold look
      simp only [this, Option.bind_none]

/-! ## Moving -/

theorem moved_taken {S : Shelf} (h : OK L S) {i : Nat} {s : Session} (hi : S.docs[i]? = some s) {n : Nat} (ho : n ∈ S.objs)
    {W' : World} {l : List Nat} (hm : Moved S.world W' n s.tree.body.node l) : Taken S.world W' n s.tree := by
  obtain ⟨F, R, T, hst, hF, -⟩ := h
  obtain ⟨tag, d⟩ := hF i s hi
  have hk := d.held.kept
  have hl := hst.loose n ho
  obtain ⟨u, hu⟩ := find_some_of_mem hl.mem
  have hid := (find_mem_ids hu).1
  refine ⟨?_, fun r hr hne hnc => ?_⟩
  · rw [hu]
    exact moved_self hk.once hm hu fun hin => hk.outside (d.free n ho) hu _ hin (hk.frame _ (by simp))
  · obtain ⟨t, ht⟩ := find_some_of_mem (roots_sub hr)
    rw [ht]
    refine moved_cut hk.once hm hu ht ?_ fun hin => ?_
    · simp only [ids_single, List.mem_cons, not_or]
      exact ⟨by rw [hid]; exact hne, fun hin => child_not_root hk.once hu hin hr⟩
    · obtain ⟨c, hc⟩ := find_some_of_mem (hk.mem _ (hk.frame s.tree.content.root (by simp)))
      exact roots_apart hk.once (d.held.roots s.tree.content.root (by simp)) hr (Ne.symm hnc) hc ht (body_in hk hc) hin

/-- **C92**, `docs[i].sheets.append(table)` with any table object of the program, which may be a sheet of another document or
inside of its text: it becomes the last child of the body, with all that is in it; it is gone from where it was, and
all other trees are as they were. -/
theorem C92_sheet {S : Shelf} (h : OK L S) {i : Nat} {s : Session} (hi : S.docs[i]? = some s) {b : Nat}
    (hb : s.tree.sheets = some b) {k : Nat} {o : TableObj} (hk : S.tables[k]? = some o) {l : List Nat}
    (hl : children S.world b = some l) : ∃ W',
      exec L strategy mx (.act i (.act (.table (.append (L := FL) k)))) S =
        ({ S with world := W', docs := S.docs.set i (put { S with world := W' } s) }, .ok ()) ∧
      children W' b = some (less o.node l ++ [o.node]) ∧ Taken S.world W' o.node s.tree := by
  obtain ⟨F, R, T, tag, hr⟩ := C92_sound h hi
  obtain ⟨F', R', T', hst, -, -⟩ := id h
  have ho := List.mem_of_getElem? hk
  have hbn : b = s.tree.body.node := hr.sheetsNode hb
  subst hbn
  have hobj := (hst.roots o ho).2
  obtain ⟨pt, h1, h2⟩ := children_find hl
  obtain ⟨t, ht⟩ := find_some_of_mem (hst.loose _ hobj).mem
  have hno := TextProg.object_body hr.fits (show o.node ∈ (seen S s).text.objs from hobj)
  obtain ⟨W', a1, a2, a3, a4⟩ := append_all hst.cover.once h1 ht fun hin => hno ((below_iff hst.cover.once ht).mp hin)
  have hm : Moved S.world W' o.node s.tree.body.node (less o.node l ++ [o.node]) := by
    refine Moved.of hst.cover.once a2 (fun q m => if q = s.tree.body.node then less o.node m ++ [o.node] else less o.node m) a4 ?_ ?_ a3
    · rw [hl]; simp
    · intro q hq m _; simp [hq]
  refine ⟨W', ?_, hm.there, moved_taken h hi hobj hm⟩
  have e8 : Mix.exec strategy mx (.table (.append (L := FL) k)) (seen S s) = ((seen S s).setWorld W', .ok ()) := by
    show onProgram (do let n ← Program.nodeOf k; Program.onSheets fun b => Lxml.append b n : Py Program.Prog Unit) (seen S s) = _
    refine onProgram_world ?_
    rw [Py.bind_ok (nodeOf_ok (p := seen S s) hk), onSheets_ok (p := seen S s) hb]
    have a1 : Lxml.append s.tree.body.node o.node (seen S s).world = (W', .ok ()) := a1
    rw [a1]
  show onDoc i (Mix.exec strategy mx (.table (.append (L := FL) k))) S = _
  rw [onDoc_some hi, e8]
  rfl

/-- **C92**, `docs[i].body.append(object)` of a text with any object of the program, which may be a table of a spreadsheet or
inside of another document: the object, with all that is in it, is put into the body before the elements at its end, and
it is gone from where it was; all other trees are as they were. -/
theorem C92_moved {S : Shelf} (h : OK L S) {i : Nat} {s : Session} (hi : S.docs[i]? = some s)
    (hb : MIMETYPE_BODYTAG_MAP.get s.mimetype = some "office:text") {k n : Nat} (hk : S.objs[k]? = some n) {l : List Nat}
    (hl : children S.world s.tree.body.node = some l) : ∃ W' before after,
      exec L strategy mx (.act i (.act (.text (F := FL) (.append none k)))) S =
        ({ S with world := W', docs := S.docs.set i (put { S with world := W' } s) }, .ok ()) ∧
      l = before ++ after ∧ children W' s.tree.body.node = some (less n before ++ n :: less n after) ∧
      Block.OrderedBlock (fun x => (Parts.tagAt S.world x).getD "") Tags.TEXT_EPILOGUE after ∧
      (∀ a b, l = a ++ b → Block.OrderedBlock (fun x => (Parts.tagAt S.world x).getD "") Tags.TEXT_EPILOGUE b →
        b.length ≤ after.length) ∧
      Taken S.world W' n s.tree := by
  obtain ⟨p', before, after, e1, e2, e3, e4, e5, e6, e7⟩ :=
    TextProg.C81_body_append (p := (seen S s).text) (C92_sound h hi).text hb hk hl
  refine ⟨p'.world, before, after, ?_, e2, e3.there, e4, e5, moved_taken h hi (List.mem_of_getElem? hk) e3⟩
  have e8 : Mix.exec strategy mx (.text (F := FL) (.append none k)) (seen S s) = (⟨p', S.tables⟩, .ok ()) := by
    show onText _ _ = _
    unfold onText
    rw [e1]; rfl
  show onDoc i (Mix.exec strategy mx (.text (F := FL) (.append none k))) S = _
  rw [onDoc_some hi, e8]
  dsimp only
  rw [e7, e6]
  rfl

/-! ## What the cells read -/

/-- The calls on cells of the table number `k`, in their order, whatever document the statements name -/
def writesIn (k : Nat) : List (Act FL) → List ((Int × Int) × CellCall FL)
  | [] => []
  | .act _ a :: l => writesOf k [a] ++ writesIn k l
  | _ :: l => writesIn k l

/-- The statement calls no method of the table number `k` but those of its cells, and the document that it names is one of
the first `n`. -/
def OnlyCells (n k : Nat) : Act FL → Prop
  | .act i a => i < n ∧ Mix.OnlyCells k a
  | _ => True

/-- The table object number `k` with its element -/
def state (S : Shelf) (k : Nat) : Option Tbl.TState :=
  S.tables[k]?.bind fun o => (S.world.find o.node).map (tableState S.world o)

theorem state_seen (S : Shelf) (s : Session) (k : Nat) : stateOf (seen S s).sheets k = state S k := rfl

theorem writes_nil {k : Nat} {a : Act FL} {l : List (Act FL)} (h : ∀ i b, a ≠ .act i b) : writesIn k (a :: l) = writesIn k l := by
  cases a <;> first | rfl | exact absurd rfl (h _ _)

/-- **C92**, the cells of a table after a program that may move it from document to document: each is what a single cell is
after the calls that address it in this table. -/
theorem C92_cells (hlaw : L.Lawful) (hc : Config strategy mx) {k : Nat} (acts : List (Act FL)) : ∀ {S : Shelf} {A : Tbl.TState},
    OK L S → S.docs ≠ [] → (∀ a ∈ acts, OnlyCells S.docs.length k a) → AllAllowed L strategy mx acts S → state S k = some A →
    ∃ A', state (run L strategy mx acts S) k = some A' ∧ Tbl.nrows A' = Tbl.nrows A ∧ Tbl.ncols A' = Tbl.ncols A ∧
      A'.node.attrs = A.node.attrs ∧ A'.node.id = A.node.id ∧
      ∀ r c t, docCell A.kids r c = some t → ∃ t', docCell A'.kids r c = some t' ∧
        Sim (callAll (callsOn (Tbl.nrows A) (Tbl.ncols A) r c (writesIn k acts)) t) t' := by
  induction acts with
  | nil => intro S A _ _ _ _ hS; exact ⟨A, hS, rfl, rfl, rfl, rfl, fun r c t ht => ⟨t, ht, .refl t⟩⟩
  | cons a l ih =>
    intro S A h hne hw ha hA
    have g := C92_step (strategy := strategy) (mx := mx) hlaw hc h ha.1
    have hlen : S.docs.length ≤ (exec L strategy mx a S).1.docs.length := by
      by_contra hlt
      obtain ⟨s, hs⟩ : ∃ s, S.docs[S.docs.length - 1]? = some s := by
        have : S.docs.length ≠ 0 := fun e => hne (List.length_eq_zero_iff.mp e)
        exact ⟨_, List.getElem?_eq_getElem (by omega)⟩
      obtain ⟨s', h1, -⟩ := g.frames _ s hs
      have := (List.getElem?_eq_some_iff.mp h1).1
      omega
    have hne' : (exec L strategy mx a S).1.docs ≠ [] := by
      intro e
      rw [e] at hlen
      exact hne (List.length_eq_zero_iff.mp (Nat.le_zero.mp hlen))
    have hw' : ∀ b ∈ l, OnlyCells (exec L strategy mx a S).1.docs.length k b := by
      intro b hb
      have := hw b (by simp [hb])
      cases b with
      | act i b => exact ⟨Nat.lt_of_lt_of_le this.1 hlen, this.2⟩
      | _ => trivial
    have hk : k < S.tables.length := by
      obtain ⟨o, ho, -⟩ := Option.bind_eq_some_iff.mp hA
      exact (List.getElem?_eq_some_iff.mp ho).1
    by_cases hact : ∃ i b, a = .act i b
    · obtain ⟨i, b, rfl⟩ := hact
      obtain ⟨hi, hb⟩ := hw (.act i b) (by simp)
      have hs : S.docs[i]? = some S.docs[i] := List.getElem?_eq_getElem hi
      have hb' : ∀ x ∈ [b], Mix.OnlyCells k x := by
        intro x hx
        rw [List.mem_singleton] at hx
        subst hx
        exact hb
      obtain ⟨A1, -, b2, b3, b4, b5, b6, b7⟩ := C90_cells (L := L) hc [b] hb' (C92_sound h hs) ⟨ha.1 _ hs, trivial⟩
        ((state_seen S S.docs[i] k).trans hA)
      have b2' : state (exec L strategy mx (.act i b) S).1 k = some A1 := by
        have e : exec L strategy mx (.act i b) S = onDoc i (execCopy strategy mx b) S := rfl
        rw [e, onDoc_some hs]
        exact b2
      obtain ⟨A', c2, c3, c4, c5, c6, c7⟩ := ih g.ok hne' hw' ha.2 b2'
      refine ⟨A', c2, c3.trans b3, c4.trans b4, c5.trans b5, c6.trans b6, fun r c t ht => ?_⟩
      obtain ⟨t1, d1, d2⟩ := b7 r c t ht
      obtain ⟨t2, d3, d4⟩ := c7 r c t1 d1
      refine ⟨t2, d3, ?_⟩
      show Sim (callAll (callsOn _ _ r c (writesOf k [b] ++ writesIn k l)) t) t2
      rw [b3, b4] at d4
      rw [callsOn_append]
      unfold callAll at d2 ⊢
      rw [List.foldl_append]
      exact (callAll_sim _ d2).trans d4
    · have hcal : a.callee = none := by
        cases a with
        | act i b => exact absurd ⟨i, b, rfl⟩ hact
        | _ => rfl
      obtain ⟨s, hs⟩ : ∃ s, S.docs[0]? = some s := ⟨_, List.getElem?_eq_getElem (List.length_pos_iff.mpr hne)⟩
      obtain ⟨S1, s1, s2, s3, s4, s5, s6⟩ := shown_state (p := seen S s) (q := seen (exec L strategy mx a S).1 s) (i := k)
        (g.same k hk (by rw [hcal]; simp)) ((state_seen S s k).trans hA)
      obtain ⟨A', c2, c3, c4, c5, c6, c7⟩ := ih g.ok hne' hw' ha.2 s1
      have hr1 : Tbl.nrows S1 = Tbl.nrows A := by unfold Tbl.nrows; rw [s3]
      have hn1 : Tbl.ncols S1 = Tbl.ncols A := by unfold Tbl.ncols Tbl.kidsOf; rw [s2, s3]
      refine ⟨A', c2, c3.trans hr1, c4.trans hn1, c5.trans s5, c6.trans s6, ?_⟩
      rw [s2, hr1, hn1, ← writes_nil (a := a) fun i b e => hact ⟨i, b, e⟩] at c7
      exact c7

end Verif.Shelf
