import Verif.Proofs.MixOK
/-! Helper lemmas for C88: the statements keep a program in order. -/
namespace Verif.Mix
open Verif Verif.Lxml Forest Verif.Whole Verif.Tbl
open Verif.Program (TableObj tableState stateOf Config)
open Verif.TextProg (Kept Loose Step Firm Fits node_some node_mem node_kids node_tagAt node_child declTags Place)
open Verif.Document (MIMETYPE_BODYTAG_MAP)
set_option linter.unusedSimpArgs false

variable {L : XLib} {F R T : Nat → Prop} {tag : String} {p q : Prog} {α β : Type}

theorem onProgram_world {m : Py Program.Prog α} {W' : World} {r : Except Exc α}
    (h : m p.sheets = (p.sheets.setWorld W', r)) : onProgram m p = (p.setWorld W', r) := by
  unfold onProgram
  rw [h]
  simp [Program.Prog.setWorld, Prog.sheets, Prog.setWorld]

theorem onProgram_same {m : Py Program.Prog α} {r : Except Exc α} (h : m p.sheets = (p.sheets, r)) :
    onProgram m p = (p, r) := by
  unfold onProgram
  rw [h]
  simp [Prog.sheets]

theorem onProgram_then {m : Py Program.Prog α} {f : α → Py Program.Prog β} {s1 : Program.Prog} {a : α} {W' : World}
    {r : Except Exc β} (h : m p.sheets = (s1, .ok a)) (g : f a s1 = (s1.setWorld W', r)) :
    onProgram (m >>= f) p = ((onProgram m p).1.setWorld W', r) := by
  unfold onProgram
  rw [Py.bind_ok h, g, h]
  simp [Program.Prog.setWorld, Prog.setWorld]

theorem onProgram_void {m : Py Program.Prog α} :
    (onProgram (do let _ ← m; pure () : Py Program.Prog Unit) p).1 = (onProgram m p).1 := by
  unfold onProgram
  cases hm : m p.sheets with
  | mk s r =>
    cases r with
    | error e => rw [Py.bind_error hm]
    | ok a => rw [Py.bind_ok hm]; rfl

theorem Ready.sheetsNode (h : Ready L F R T tag p) {b : Nat} (hb : p.text.session.tree.sheets = some b) :
    b = p.text.session.tree.body.node := by
  have e1 := h.fits.kept.refs.sheets
  have e2 := h.fits.kept.refs.body.sheets
  rw [hb] at e1
  rw [← e1] at e2
  split at e2
  · exact Option.some.inj e2
  · cases e2

/-- A statement with the sheets that does not change the tables -/
theorem Ready.setWorld (h : Ready L F R T tag p) {W' : World} (st : Step F p.world W' tag p.text.session.tree)
    (ca : Calm R T p.world W') : Ready L F R T tag (p.setWorld W') ∧ TextProg.Frame p.text (p.setWorld W').text ∧
      ∀ i, shown (p.setWorld W') i = shown p i :=
  h.calm (q := p.setWorld W') rfl st ca (fun n hn => st.loose n (h.fits.objs n hn)) (fun _ hn => .inl hn)
    (List.prefix_refl _) rfl

theorem Ready.tableLoose (h : Ready L F R T tag p) {o : TableObj} (ho : o ∈ p.tables) : Loose F p.world o.node :=
  h.fits.objs _ (h.roots o ho).2

/-- A table that is a child of something outside of tables -/
theorem Ready.kid (h : Ready L F R T tag p) {n : Nat} (hn : Out R T n) {b t : Tree} (hb : find n p.world = some b)
    (ht : t ∈ b.2.toList) (htag : t.1.tag = "table:table") : find t.1.id p.world = some t ∧ R t.1.id := by
  have h1 := child_find h.cover.once hb ht
  refine ⟨h1, (h.cover.tables t.1.id (by rw [tagAt_find h1, htag])).resolve_right ?_⟩
  exact h.cover.top n _ _ _ (node_of_find hb) (List.mem_map_of_mem ht) hn.1 hn.2

theorem Ready.sheet (h : Ready L F R T tag p) {t : Tree} (ht : t ∈ sheetsOf p.text.session) :
    find t.1.id p.world = some t ∧ R t.1.id ∧ ¬ F t.1.id := by
  obtain ⟨b, hb⟩ := find_some_of_mem (h.fits.kept.mem _ (h.fits.kept.frame p.text.session.tree.body.node (by simp)))
  unfold sheetsOf at ht
  have hb' : p.text.session.world.find p.text.session.tree.body.node = some b := hb
  rw [hb'] at ht
  obtain ⟨h1, h2⟩ := List.mem_filter.mp ht
  have h2 : t.1.tag = "table:table" := by simpa using h2
  obtain ⟨h3, h4⟩ := h.kid h.body hb h1 h2
  refine ⟨h3, h4, (h.fits.kept.free _ _ _ (node_of_find hb) (List.mem_map_of_mem h1)).mpr fun tg htg => ?_⟩
  rw [h.cover.table _ h4]
  intro he
  rw [← Option.some.inj he] at htg
  exact absurd htg (by decide)

theorem shown_eq {i j : Nat} (h : q.tables[j]? = p.tables[i]?)
    (hf : ∀ o, p.tables[i]? = some o → find o.node q.world = find o.node p.world) : shown q j = shown p i := by
  unfold shown
  rw [h]
  cases hi : p.tables[i]? with
  | none => rfl
  | some o =>
    simp only [Option.bind_some]
    rw [hf o hi]

theorem put_ids {W : World} (hn : (ids W).Nodup) {n : Nat} {t : Tree} (ht : find n W = some t) {s S : TState}
    (hs1 : s.node = t.1) (hs2 : s.kids = t.2) (hs3 : s.fresh = Parts.newId W) (hS : Sound S) {X : List Nat} (hg : Grow X s S)
    (hX : ∀ x ∈ X, x ∉ ids W) : Put W (Program.putTable n S W) n t (S.node, S.kids) := by
  refine put_put hn ht ?_ hS.inv.wf.nodup ?_
  · show S.node.id = n
    rw [hg.node, hs1]; exact (find_mem_ids ht).1
  · intro x hx
    rcases hg.ids x hx with h2 | h2 | h2
    · left; rw [← hs2]; exact h2
    · right
      intro h3
      have := lt_newId h3
      omega
    · exact .inr (hX x h2.1)

/-- The program after a new object for the table `t`, read as `S` -/
def opened (p : Prog) (t : Tree) (S : TState) : Prog :=
  { text := ⟨{ p.text.session with world := Program.putTable t.1.id S p.world }, p.text.objs ++ [t.1.id]⟩,
    tables := p.tables ++ [⟨t.1.id, S.rows, S.cols⟩] }

/-- What reading a table as a new object does -/
structure Opened (L : XLib) (F R : Nat → Prop) (tag : String) (strategy : String) (mx : Int × Int) (p : Prog) (t : Tree)
    (S : TState) : Prop where
  load : Tbl.load strategy mx (stored t.1 t.2 (Parts.newId p.world)) = (S, .ok ())
  ready : ∃ T', Ready L F R T' tag (opened p t S)
  frame : TextProg.Frame p.text (opened p t S).text
  self : find t.1.id (opened p t S).world = some (S.node, S.kids)
  node : S.node = t.1
  old : ∀ j, j < p.tables.length → shown (opened p t S) j = shown p j
  put : Put p.world (opened p t S).world t.1.id t (S.node, S.kids)
  firm : Firm F p.world (opened p t S).world tag p.text.session.tree

theorem Ready.open (h : Ready L F R T tag p) {strategy : String} {mx : Int × Int} (hc : Config strategy mx) {t : Tree}
    (ht : find t.1.id p.world = some t) (hR : R t.1.id) (hF : ¬ F t.1.id) (hno : ∀ o ∈ p.tables, o.node ≠ t.1.id) :
    ∃ S, Opened L F R tag strategy mx p t S := by
  have hnd := nodup_tree h.cover.once ht
  simp only [ids_single, List.nodup_cons] at hnd
  obtain ⟨S, l1, l2, l3, l4⟩ := (h.others _ hR hF hno t ht).load hc.1 hc.2 hnd.2
    (fun i hi => lt_newId ((find_sub ht).subset (by simp [hi])) : ∀ i ∈ ids t.2, i < Parts.newId p.world)
  have P := put_ids h.cover.once ht (s := stored t.1 t.2 (Parts.newId p.world)) rfl rfl rfl l2 l4 (by simp)
  have hsd : Sound (tableState (opened p t S).world ⟨t.1.id, S.rows, S.cols⟩ (S.node, S.kids)) :=
    l2.fresh fun i hi => lt_newId ((find_sub P.self).subset (by simp [hi]))
  obtain ⟨a1, a2, a3⟩ := h.put (q := opened p t S) hR hF P l2.tag rfl (o := ⟨t.1.id, S.rows, S.cols⟩) rfl
    (by simp [opened]) (by
      intro x hx
      rcases List.mem_append.mp hx with hx | hx
      · exact .inr ⟨hx, hno x hx⟩
      · exact .inl (List.mem_singleton.mp hx))
    (fun x hx => ⟨x, List.mem_append_left _ hx, rfl⟩) (by
      show ((p.tables ++ [_]).map TableObj.node).Nodup
      rw [List.map_append, List.nodup_append]
      refine ⟨h.distinct, by simp, ?_⟩
      intro a ha b hb e
      simp only [List.map_cons, List.map_nil, List.mem_singleton] at hb
      obtain ⟨o, ho, rfl⟩ := List.mem_map.mp ha
      exact hno o ho (e.trans hb))
    (List.prefix_append _ _) (by
      intro x hx
      rcases List.mem_append.mp hx with hx | hx
      · exact .inl hx
      · exact .inr (List.mem_singleton.mp hx)) (by simp [opened]) hsd
  refine ⟨S, l1, ⟨_, a1⟩, a2, P.self, l3, fun j hj => ?_, P, put_firm P h.fits.kept hF l2.tag⟩
  refine shown_eq (by simp [opened, List.getElem?_append_left hj]) fun o ho => ?_
  have hm := List.mem_of_getElem? ho
  exact a3 o hm (hno o hm)

/-- The program after a method has left the table of the `i`-th object `o` as `S` -/
def called (p : Prog) (i : Nat) (o : TableObj) (S : TState) : Prog :=
  { text := ⟨{ p.text.session with world := Program.putTable o.node S p.world }, p.text.objs⟩,
    tables := p.tables.set i ⟨o.node, S.rows, S.cols⟩ }

theorem Ready.call (h : Ready L F R T tag p) {i : Nat} {o : TableObj} (ho : p.tables[i]? = some o) {t : Tree}
    (ht : find o.node p.world = some t) {S : TState} (hS : Sound S) {X : List Nat}
    (hg : Grow X (tableState p.world o t) S) (hX : ∀ x ∈ X, x ∉ ids p.world) :
    (∃ T', Ready L F R T' tag (called p i o S)) ∧ TextProg.Frame p.text (called p i o S).text ∧
      Put p.world (called p i o S).world o.node t (S.node, S.kids) ∧
      (∀ j, j ≠ i → shown (called p i o S) j = shown p j) ∧
      (called p i o S).tables.map TableObj.node = p.tables.map TableObj.node := by
  have hom := List.mem_of_getElem? ho
  have hi : i < p.tables.length := (List.getElem?_eq_some_iff.mp ho).1
  have hio : p.tables[i] = o := (List.getElem?_eq_some_iff.mp ho).2
  have P := put_ids h.cover.once ht (s := tableState p.world o t) rfl rfl rfl hS hg hX
  have hne : ∀ {j : Nat} {o2 : TableObj}, p.tables[j]? = some o2 → j ≠ i → o2.node ≠ o.node := by
    intro j o2 hj hji e
    refine hji ?_
    obtain ⟨hj1, hj2⟩ := List.getElem?_eq_some_iff.mp hj
    refine (h.distinct.getElem_inj_iff (i := j) (j := i) (hi := by simpa using hj1) (hj := by simpa using hi)).mp ?_
    simp only [List.getElem_map, hj2, hio, e]
  have hset : ∀ o2 ∈ p.tables.set i ⟨o.node, S.rows, S.cols⟩, o2 = ⟨o.node, S.rows, S.cols⟩ ∨ (o2 ∈ p.tables ∧ o2.node ≠ o.node) := by
    intro o2 hm
    obtain ⟨j, hj⟩ := List.mem_iff_getElem?.mp hm
    rw [List.getElem?_set] at hj
    split at hj
    · exact .inl (Option.some.inj hj).symm
    · rename_i hij
      exact .inr ⟨List.mem_of_getElem? hj, hne hj (fun e => hij e.symm)⟩
  have hnodes : (p.tables.set i ⟨o.node, S.rows, S.cols⟩).map TableObj.node = p.tables.map TableObj.node := by
    rw [List.map_set]
    refine List.ext_getElem? fun j => ?_
    rw [List.getElem?_set]
    split
    · rename_i hij
      subst hij
      rw [if_pos (by simpa using hi), List.getElem?_map, ho]; rfl
    · rfl
  have hself : (⟨o.node, S.rows, S.cols⟩ : TableObj) ∈ p.tables.set i ⟨o.node, S.rows, S.cols⟩ := by
    refine List.mem_of_getElem? (i := i) ?_
    rw [List.getElem?_set]; simp [hi]
  have hsd : Sound (tableState (called p i o S).world ⟨o.node, S.rows, S.cols⟩ (S.node, S.kids)) :=
    hS.fresh fun i hi => lt_newId ((find_sub P.self).subset (by simp [hi]))
  obtain ⟨a1, a2, a3⟩ := h.put (q := called p i o S) (h.roots o hom).1 (h.tableLoose hom).free P hS.tag rfl
    (o := ⟨o.node, S.rows, S.cols⟩) rfl hself hset (by
      intro x hx
      have : x.node ∈ (p.tables.set i ⟨o.node, S.rows, S.cols⟩).map TableObj.node := by
        rw [hnodes]; exact List.mem_map_of_mem hx
      obtain ⟨y, hy, e⟩ := List.mem_map.mp this
      exact ⟨y, hy, e⟩)
    (by show ((p.tables.set i _).map TableObj.node).Nodup; rw [hnodes]; exact h.distinct)
    (List.prefix_refl _) (fun x hx => .inl hx) (h.roots o hom).2 hsd
  refine ⟨⟨_, a1⟩, a2, P, fun j hj => ?_, hnodes⟩
  refine shown_eq ?_ fun o2 ho2 => a3 o2 (List.mem_of_getElem? ho2) (hne ho2 hj)
  show (p.tables.set i _)[j]? = _
  rw [List.getElem?_set, if_neg (fun e => hj e.symm)]

/-! ## Statements -/

theorem _root_.Verif.TextProg.Firm.trans {W W' W'' : World} {d : Parts.DocTree} (h : Firm F W W' tag d) (g : Firm F W' W'' tag d) :
    Firm F W W'' tag d :=
  ⟨g.kept, fun q hq hb => (g.same q hq hb).trans (h.same q hq hb), g.body.trans h.body⟩

/-- What all statements keep that are no calls on a table -/
structure Done (L : XLib) (F : Nat → Prop) (tag : String) (p q : Prog) : Prop where
  ready : ∃ R T, Ready L F R T tag q
  frame : TextProg.Frame p.text q.text
  firm : Firm F p.world q.world tag p.text.session.tree
  objs : p.text.objs <+: q.text.objs
  tables : p.tables.map TableObj.node <+: q.tables.map TableObj.node
  old : ∀ j, j < p.tables.length → shown q j = shown p j

theorem Done.refl (h : Ready L F R T tag p) : Done L F tag p p :=
  ⟨⟨R, T, h⟩, .refl _, ⟨h.fits.kept, fun _ _ _ => rfl, rfl⟩, List.prefix_refl _, List.prefix_refl _, fun _ _ => rfl⟩

theorem Done.trans {p q r : Prog} (h : Done L F tag p q) (g : Done L F tag q r) : Done L F tag p r := by
  refine ⟨g.ready, h.frame.trans g.frame, h.firm.trans (h.frame.tree ▸ g.firm), h.objs.trans g.objs, h.tables.trans g.tables, fun j hj => ?_⟩
  have := h.tables.length_le
  simp only [List.length_map] at this
  exact (g.old j (by omega)).trans (h.old j hj)

theorem Ready.world_done (h : Ready L F R T tag p) {W' : World} (st : Step F p.world W' tag p.text.session.tree)
    (ca : Calm R T p.world W') : Done L F tag p (p.setWorld W') := by
  obtain ⟨a1, a2, a3⟩ := h.setWorld st ca
  exact ⟨⟨R, T, a1⟩, a2, st.firm, List.prefix_refl _, List.prefix_refl _, fun j _ => a3 j⟩

theorem Opened.done {strategy : String} {mx : Int × Int} {t : Tree} {S : TState}
    (h : Opened L F R tag strategy mx p t S) : Done L F tag p (opened p t S) := by
  obtain ⟨T', h1⟩ := h.ready
  refine ⟨⟨R, T', h1⟩, h.frame, h.firm, List.prefix_append _ _, ?_, h.old⟩
  show p.tables.map _ <+: (p.tables ++ _).map _
  rw [List.map_append]; exact List.prefix_append _ _

theorem wrapTable_opened {strategy : String} {mx : Int × Int} {t : Tree} {S : TState}
    (h : Opened L F R tag strategy mx p t S) : wrapTable strategy mx t p.sheets = ((opened p t S).sheets, .ok ()) ∧
      onProgram (wrapTable strategy mx t) p = (opened p t S, .ok ()) := by
  have h1 : wrapTable strategy mx t p.sheets = ((opened p t S).sheets, .ok ()) := by
    unfold wrapTable
    have hl : Tbl.load strategy mx (stored t.1 t.2 (Parts.newId p.sheets.world)) = (S, .ok ()) := h.load
    rw [hl]
    rfl
  refine ⟨h1, ?_⟩
  unfold onProgram
  rw [h1]
  simp [opened, Prog.sheets]

/-- `doc.sheets[key]` -/
theorem Ready.access (h : Ready L F R T tag p) {strategy : String} {mx : Int × Int} (hc : Config strategy mx)
    (key : Pages.Key) : ∃ q r, Program.access strategy mx key p.sheets = (q.sheets, r) ∧
      onProgram (Program.access strategy mx key) p = (q, r) ∧
      match r with
      | .error _ => q = p
      | .ok i => (∃ T', Ready L F R T' tag q) ∧ Done L F tag p q ∧ (∃ o, q.tables[i]? = some o) ∧
          (∀ j, j < p.tables.length → shown q j = shown p j) ∧
          ∃ t, Program.findSheet key (sheetsOf p.text.session) = .ok t ∧ p.text.session.tree.sheets = some p.text.session.tree.body.node ∧
            (∀ o, q.tables[i]? = some o → o.node = t.1.id) ∧
            (((∃ o ∈ p.tables, o.node = t.1.id) ∧ q = p) ∨ (i = p.tables.length ∧ (∀ o ∈ p.tables, o.node ≠ t.1.id) ∧
              ∃ S, Opened L F R tag strategy mx p t S ∧ q = opened p t S)) := by
  cases hr : (Program.sheetElem key p.sheets).2 with
  | error e =>
    have := Program.access_err (strategy := strategy) (mx := mx) hr
    exact ⟨p, .error e, this, onProgram_same this, rfl⟩
  | ok t =>
    have hs : Program.sheetElem key p.sheets = (p.sheets, .ok t) := Prod.ext (Program.sheetElem_state key _) hr
    have hsh : p.text.session.tree.sheets = some p.text.session.tree.body.node ∧
        Program.findSheet key (sheetsOf p.text.session) = .ok t := by
      unfold Program.sheetElem at hr
      split at hr
      · cases hr
      · rename_i b hb
        have hb : p.text.session.tree.sheets = some b := hb
        have hbn := h.sheetsNode hb
        subst hbn
        refine ⟨hb, ?_⟩
        split at hr
        · cases hr
        · rename_i u hu
          unfold sheetsOf
          have hu : p.text.session.world.find p.text.session.tree.body.node = some u := hu
          rw [hu]; exact hr
    obtain ⟨hsb, hf⟩ := hsh
    obtain ⟨s1, s2, s3⟩ := h.sheet (Program.findSheet_mem hf)
    cases hi : p.tables.findIdx? fun o => o.node = t.1.id with
    | some i =>
      obtain ⟨h1, h2, -⟩ := List.findIdx?_eq_some_iff_getElem.mp hi
      have h2 : p.tables[i].node = t.1.id := by simpa using h2
      have ha : Program.access strategy mx key p.sheets = (p.sheets, .ok i) := by
        unfold Program.access
        rw [Py.bind_ok hs]
        have hi : p.sheets.tables.findIdx? (fun o => o.node = t.1.id) = some i := hi
        simp only [hi]
      refine ⟨p, .ok i, ha, onProgram_same ha, ⟨T, h⟩, .refl h, ⟨_, List.getElem?_eq_getElem h1⟩, fun _ _ => rfl, t, hf, hsb, ?_, ?_⟩
      · intro o ho
        rw [List.getElem?_eq_getElem h1] at ho
        cases ho
        exact h2
      · exact .inl ⟨⟨_, List.getElem_mem h1, h2⟩, rfl⟩
    | none =>
      have hno : ∀ o ∈ p.tables, o.node ≠ t.1.id := by
        intro o ho e
        have := List.findIdx?_eq_none_iff.mp hi o ho
        simp [e] at this
      obtain ⟨S, hS⟩ := h.open hc s1 s2 s3 hno
      have ha : Program.access strategy mx key p.sheets = ((opened p t S).sheets, .ok p.tables.length) := by
        unfold Program.access
        rw [Py.bind_ok hs]
        have hi : p.sheets.tables.findIdx? (fun o => o.node = t.1.id) = none := hi
        have hl : Tbl.load strategy mx (stored t.1 t.2 (Parts.newId p.sheets.world)) = (S, .ok ()) := hS.load
        simp only [hi, hl]
        rfl
      refine ⟨opened p t S, .ok p.tables.length, ha, ?_, hS.ready, hS.done, ⟨⟨t.1.id, S.rows, S.cols⟩, by simp [opened]⟩,
        hS.old, t, hf, hsb, ?_, .inr ⟨rfl, hno, S, hS, rfl⟩⟩
      · unfold onProgram
        rw [ha]
        simp [opened, Prog.sheets]
      · intro o ho
        simp only [opened, List.getElem?_append_right (Nat.le_refl _), Nat.sub_self, List.getElem?_cons_zero, Option.some.injEq] at ho
        rw [← ho]

theorem Ready.delete (h : Ready L F R T tag p) {strategy : String} {mx : Int × Int} (hc : Config strategy mx)
    (key : Pages.Key) : Done L F tag p (onProgram (Program.delete strategy mx key) p).1 := by
  obtain ⟨q, r, e1, e2, e3⟩ := h.access hc key
  unfold Program.delete
  cases r with
  | error e =>
    simp only at e3
    subst e3
    rw [onProgram_same (r := .error e) (by rw [Py.bind_error e1])]
    exact .refl h
  | ok i =>
    obtain ⟨⟨T', f1⟩, f2, ⟨o, f3⟩, -, -, -, f4, -, -⟩ := e3
    have hom := List.mem_of_getElem? f3
    have hq : q.text.session.tree.sheets = some q.text.session.tree.body.node := by rw [f2.frame.tree]; exact f4
    have key : (do let n ← Program.nodeOf i; Program.onSheets fun b => Lxml.remove b n : Py Program.Prog Unit) q.sheets =
        (q.sheets.setWorld (Lxml.remove q.text.session.tree.body.node o.node q.world).1,
          (Lxml.remove q.text.session.tree.body.node o.node q.world).2) := by
      have hn : Program.nodeOf i q.sheets = (q.sheets, .ok o.node) := by
        unfold Program.nodeOf
        have : q.sheets.tables[i]? = some o := f3
        rw [this]
      rw [Py.bind_ok hn]
      unfold Program.onSheets
      have : q.sheets.session.tree.sheets = some q.text.session.tree.body.node := hq
      rw [this]
      rfl
    rw [onProgram_then e1 key, e2]
    exact f2.trans (f1.world_done (TextProg.remove_step f1.fits.kept _ (f1.tableLoose hom).free)
      (remove_calm f1.cover _ (f1.cover.apart _ (f1.roots o hom).1)))

theorem Ready.replace (h : Ready L F R T tag p) {strategy : String} {mx : Int × Int} (hc : Config strategy mx)
    (key : Pages.Key) (i : Nat) : Done L F tag p (onProgram (Program.replace strategy mx key i) p).1 := by
  unfold Program.replace
  cases ho : p.tables[i]? with
  | none =>
    have hn : Program.nodeOf i p.sheets = (p.sheets, .error .NameError) := by
      unfold Program.nodeOf
      have : p.sheets.tables[i]? = none := ho
      rw [this]
    rw [onProgram_same (r := .error .NameError) (by rw [Py.bind_error hn])]
    exact .refl h
  | some o =>
    have hn : Program.nodeOf i p.sheets = (p.sheets, .ok o.node) := by
      unfold Program.nodeOf
      have : p.sheets.tables[i]? = some o := ho
      rw [this]
    have hskip : ∀ {f : Nat → Py Program.Prog Unit}, onProgram (Program.nodeOf i >>= f) p = onProgram (f o.node) p := by
      intro f
      unfold onProgram
      rw [Py.bind_ok hn]
    rw [hskip]
    obtain ⟨q, r, e1, e2, e3⟩ := h.access hc key
    cases r with
    | error e =>
      simp only at e3
      subst e3
      rw [onProgram_same (r := .error e) (by rw [Py.bind_error e1])]
      exact .refl h
    | ok j =>
      obtain ⟨⟨T', f1⟩, f2, ⟨o', f3⟩, -, -, -, f4, -, -⟩ := e3
      have hom := List.mem_of_getElem? f3
      have hq : q.text.session.tree.sheets = some q.text.session.tree.body.node := by rw [f2.frame.tree]; exact f4
      have key : (do let old ← Program.nodeOf j; Program.onSheets fun b => Lxml.replace b old o.node : Py Program.Prog Unit) q.sheets =
          (q.sheets.setWorld (Lxml.replace q.text.session.tree.body.node o'.node o.node q.world).1,
            (Lxml.replace q.text.session.tree.body.node o'.node o.node q.world).2) := by
        have hn : Program.nodeOf j q.sheets = (q.sheets, .ok o'.node) := by
          unfold Program.nodeOf
          have : q.sheets.tables[j]? = some o' := f3
          rw [this]
        rw [Py.bind_ok hn]
        unfold Program.onSheets
        have : q.sheets.session.tree.sheets = some q.text.session.tree.body.node := hq
        rw [this]
        rfl
      rw [onProgram_then e1 key, e2]
      have hoq : o.node ∈ q.text.objs := f2.objs.subset (h.roots o (List.mem_of_getElem? ho)).2
      exact f2.trans (f1.world_done (TextProg.replace_step f1.fits.kept (.inl rfl) (f1.tableLoose hom).free (f1.fits.objs _ hoq))
        (replace_calm f1.cover f1.body (f1.not_inside hoq)))

/-- `doc.sheets.append(table)` and `doc.sheets.insert(index, table)` -/
theorem Ready.sheetsOp (h : Ready L F R T tag p) {i : Nat} {m : Nat → Nat → Py World Unit}
    (hst : ∀ o ∈ p.tables, Step F p.world (m p.text.session.tree.body.node o.node p.world).1 tag p.text.session.tree)
    (hca : ∀ o ∈ p.tables, Calm R T p.world (m p.text.session.tree.body.node o.node p.world).1) :
    let q := (onProgram (do let n ← Program.nodeOf i; Program.onSheets fun b => m b n : Py Program.Prog Unit) p).1
    Done L F tag p q ∧ ∀ j, shown q j = shown p j := by
  intro q
  cases ho : p.tables[i]? with
  | none =>
    have hn : Program.nodeOf i p.sheets = (p.sheets, .error .NameError) := by
      unfold Program.nodeOf
      have : p.sheets.tables[i]? = none := ho
      rw [this]
    have : q = p := by
      show (onProgram _ p).1 = p
      rw [onProgram_same (r := .error .NameError) (by rw [Py.bind_error hn])]
    rw [this]
    exact ⟨.refl h, fun _ => rfl⟩
  | some o =>
    have hom := List.mem_of_getElem? ho
    have hn : Program.nodeOf i p.sheets = (p.sheets, .ok o.node) := by
      unfold Program.nodeOf
      have : p.sheets.tables[i]? = some o := ho
      rw [this]
    cases hb : p.text.session.tree.sheets with
    | none =>
      have : q = p := by
        show (onProgram _ p).1 = p
        rw [onProgram_same (r := .error .AttributeError)]
        rw [Py.bind_ok hn]
        unfold Program.onSheets
        have : p.sheets.session.tree.sheets = none := hb
        rw [this]
      rw [this]
      exact ⟨.refl h, fun _ => rfl⟩
    | some b =>
      have hbn := h.sheetsNode hb
      subst hbn
      have : q = p.setWorld (m p.text.session.tree.body.node o.node p.world).1 := by
        show (onProgram _ p).1 = _
        rw [onProgram_world (W' := (m p.text.session.tree.body.node o.node p.world).1)
          (r := (m p.text.session.tree.body.node o.node p.world).2)]
        rw [Py.bind_ok hn]
        unfold Program.onSheets
        have : p.sheets.session.tree.sheets = some p.text.session.tree.body.node := hb
        rw [this]
        rfl
      rw [this]
      exact ⟨h.world_done (hst o hom) (hca o hom), (h.setWorld (hst o hom) (hca o hom)).2.2⟩

/-- The program after a new table `S` has been made -/
def made (p : Prog) (S : TState) : Prog :=
  { text := ⟨{ p.text.session with world := p.world ++ Forest.single (S.node, S.kids) }, p.text.objs ++ [S.node.id]⟩,
    tables := p.tables ++ [⟨S.node.id, S.rows, S.cols⟩] }

theorem Ready.made (h : Ready L F R T tag p) {S : TState} (hS : Sound S) (hid : S.node.id = Parts.newId p.world)
    (hids : ∀ i ∈ ids S.kids, Parts.newId p.world < i) :
    Done L F tag p (made p S) ∧ find S.node.id (made p S).world = some (S.node, S.kids) ∧
      (∀ n u, find n p.world = some u → find n (made p S).world = some u) ∧
      ∀ j, j < p.tables.length → shown (made p S) j = shown p j := by
  have hnew : ∀ i ∈ ids (single (S.node, S.kids)), Parts.newId p.world ≤ i := by
    intro i hi
    simp only [ids_single, List.mem_cons] at hi
    rcases hi with rfl | hi
    · exact Nat.le_of_eq hid.symm
    · exact Nat.le_of_lt (hids i hi)
  have hnd : (ids (single (S.node, S.kids))).Nodup := by
    simp only [ids_single, List.nodup_cons]
    refine ⟨fun hm => ?_, hS.inv.wf.nodup⟩
    have := hids _ hm
    rw [hid] at this
    exact absurd this (Nat.lt_irrefl _)
  obtain ⟨-, a2, -⟩ := nodup_add h.cover.once hnd hnew
  have hsd : Sound (tableState (Mix.made p S).world ⟨S.node.id, S.rows, S.cols⟩ (S.node, S.kids)) :=
    hS.fresh fun i hi => lt_newId ((find_sub a2).subset (by simp [hi]))
  obtain ⟨b1, b2, b3⟩ := h.create (q := Mix.made p S) hnd hnew hS.tag (o := ⟨S.node.id, S.rows, S.cols⟩) rfl rfl rfl rfl rfl hsd
  have hold : ∀ j, j < p.tables.length → shown (Mix.made p S) j = shown p j := by
    intro j hj
    refine shown_eq (by simp [Mix.made, List.getElem?_append_left hj]) fun o ho => ?_
    obtain ⟨u, hu⟩ := h.found (List.mem_of_getElem? ho)
    rw [hu]
    exact b3 _ _ hu
  refine ⟨⟨⟨_, _, b1⟩, b2, (h.fits.kept.add hnd hnew (by rw [hS.tag]; decide)).1.firm, List.prefix_append _ _, ?_, hold⟩, a2, b3, hold⟩
  show p.tables.map _ <+: (p.tables ++ _).map _
  rw [List.map_append]; exact List.prefix_append _ _

theorem create_made {nm : Str} {size : Int × Int} {S : TState}
    (hc : newTable (Parts.newId p.world) nm size = (S, .ok ())) :
    onProgram (Program.create nm size) p = (made p S, .ok p.tables.length) := by
  have h1 : Program.create nm size p.sheets = ((made p S).sheets, .ok p.tables.length) := by
    unfold Program.create
    have hc : newTable (Parts.newId p.sheets.world) nm size = (S, .ok ()) := hc
    rw [hc]
    rfl
  unfold onProgram
  rw [h1]
  simp [made, Prog.sheets]

end Verif.Mix
