import Verif.Proofs.Program
import Verif.Proofs.ProgText
/-! Helper lemmas for C78: what the statements of a program keep. -/
namespace Verif.Program
open Verif Verif.Lxml Forest Verif.Whole Verif.Tbl Verif.Document
set_option linter.unusedSimpArgs false

/-- What holds of a document and the tables of a program at all times.  The frame of the document is in place, each
table is a sheet or outside of all trees and has one object, all tables are in order, and the sheets that have no
object can be read. -/
structure OK (L : XLib) (p : Prog) : Prop where
  lives : Lives L p.session
  frame : ∃ tag, MIMETYPE_BODYTAG_MAP.get p.session.mimetype = some tag ∧ Framed p.world tag p.session.tree
  distinct : (p.tables.map TableObj.node).Nodup
  placed : ∀ o ∈ p.tables, Placed p.world p.session.tree o.node
  sound : ∀ o ∈ p.tables, ∀ t, find o.node p.world = some t → Sound (tableState p.world o t)
  others : ∀ t ∈ sheetsOf p.session, (∀ o ∈ p.tables, o.node ≠ t.1.id) → Legible t

/-- The table of the `i`-th object: its tree and the lists of its controllers -/
def view (p : Prog) (i : Nat) : Option (Tree × List Nat × List Nat) :=
  p.tables[i]?.bind fun o => (p.world.find o.node).map fun t => (t, o.rows, o.cols)

/-- The identities of the sheets in their order -/
def order (p : Prog) : List Nat := (sheetsOf p.session).map fun t => t.1.id

theorem OK.find {L : XLib} {p : Prog} (h : OK L p) {o : TableObj} (ho : o ∈ p.tables) :
    ∃ t, Forest.find o.node p.world = some t := find_some_of_mem (Parts.mem_of_tagAt (h.placed o ho).tag)

theorem OK.sheet {L : XLib} {p : Prog} (h : OK L p) {t : Tree} (ht : t ∈ sheetsOf p.session) :
    Forest.find t.1.id p.world = some t ∧ Placed p.world p.session.tree t.1.id := by
  obtain ⟨tag, -, hf⟩ := h.frame
  obtain ⟨b, hb⟩ := hf.body
  unfold sheetsOf at ht
  have hb' : p.session.world.find p.session.tree.body.node = some b := hb
  rw [hb'] at ht
  obtain ⟨h1, h2⟩ := List.mem_filter.mp ht
  have h3 := child_find hf.once hb h1
  refine ⟨h3, ?_, .inr ⟨b, hb, List.mem_map_of_mem h1⟩⟩
  rw [tagAt_find h3]
  simpa using h2

theorem sound_fresh {W W' : World} {o : TableObj} {t : Tree} (h : Sound (tableState W o t))
    (hf : Forest.find o.node W' = some t) : Sound (tableState W' o t) :=
  h.fresh fun i hi => lt_newId ((find_sub hf).subset (by simp [show i ∈ ids t.2 from hi]))

theorem put_table {L : XLib} {p : Prog} (h : OK L p) {n : Nat} (hp : Placed p.world p.session.tree n) {t : Tree}
    (ht : Forest.find n p.world = some t) {s T : TState} (hs1 : s.node = t.1) (hs2 : s.kids = t.2)
    (hs3 : s.fresh = Parts.newId p.world) (hT : Sound T) {X : List Nat} (hg : Grow X s T)
    (hX : ∀ x ∈ X, x ∉ ids p.world) :
    ∃ tag, MIMETYPE_BODYTAG_MAP.get p.session.mimetype = some tag ∧
      PutSpec p.world (putTable n T p.world) tag p.session.tree n t (T.node, T.kids) := by
  obtain ⟨tag, h1, hf⟩ := h.frame
  refine ⟨tag, h1, put_spec hf hp ht ?_ hT.tag hT.inv.wf.nodup ?_⟩
  · show T.node.id = n
    rw [hg.node, hs1]; exact (find_mem_ids ht).1
  · intro x hx
    rcases hg.ids x hx with h2 | h2 | h2
    · left; rw [← hs2]; exact h2
    · right
      intro h3
      have := lt_newId h3
      omega
    · exact .inr (hX x h2.1)

theorem lives_world {L : XLib} {p : Prog} (h : Lives L p.session) {tag : String}
    (ht : MIMETYPE_BODYTAG_MAP.get p.session.mimetype = some tag) {W : World} (hf : Framed W tag p.session.tree) :
    Lives L (p.setWorld W).session := Lives.trees h hf.once ht hf.refs

theorem sheets_put {p : Prog} {W' : World} {tag : String} {n : Nat} {t t' : Tree} (htag : t'.1.tag = t.1.tag)
    (ht : Forest.find n p.world = some t) (hn : (ids p.world).Nodup)
    (h : PutSpec p.world W' tag p.session.tree n t t') :
    sheetsOf (p.setWorld W').session = (sheetsOf p.session).map fun u => if u.1.id = n then t' else u := by
  obtain ⟨b, b', h1, h2, -, h4⟩ := h.body
  unfold sheetsOf
  have h1' : p.session.world.find p.session.tree.body.node = some b := h1
  have h2' : (p.setWorld W').session.world.find (p.setWorld W').session.tree.body.node = some b' := h2
  rw [h1', h2']
  simp only [tables]
  rw [h4, List.filter_map]
  congr 1
  refine List.filter_congr fun u hu => ?_
  simp only [Function.comp]
  split
  · rename_i hid
    have := child_find hn h1 hu
    rw [hid, ht] at this
    cases this
    rw [htag]
  · rfl

/-- A change of the table of one object -/
theorem ok_put {L : XLib} {p : Prog} (h : OK L p) {i : Nat} {o : TableObj} (ho : p.tables[i]? = some o) {t : Tree}
    (ht : Forest.find o.node p.world = some t) {T : TState} (hT : Sound T) {X : List Nat}
    (hg : Grow X (tableState p.world o t) T) (hX : ∀ x ∈ X, x ∉ ids p.world) :
    let p' : Prog := { p.setWorld (putTable o.node T p.world) with tables := p.tables.set i ⟨o.node, T.rows, T.cols⟩ }
    OK L p' ∧ view p' i = some ((T.node, T.kids), T.rows, T.cols) ∧ (∀ j, j ≠ i → view p' j = view p j) ∧
    order p' = order p ∧
    sheetsOf p'.session = (sheetsOf p.session).map fun u => if u.1.id = o.node then (T.node, T.kids) else u := by
  intro p'
  have hom := List.mem_of_getElem? ho
  obtain ⟨tag, h1, hput⟩ := put_table h (h.placed o hom) ht (s := tableState p.world o t) rfl rfl rfl hT hg hX
  obtain ⟨_, _, hf⟩ := h.frame
  have hi : i < p.tables.length := (List.getElem?_eq_some_iff.mp ho).1
  have hio : p.tables[i] = o := (List.getElem?_eq_some_iff.mp ho).2
  have htt : t.1.tag = "table:table" := (h.sound o hom t ht).tag
  have hsh : sheetsOf p'.session = (sheetsOf p.session).map fun u => if u.1.id = o.node then (T.node, T.kids) else u :=
    sheets_put (by rw [htt]; exact hT.tag) ht hf.once hput
  have hid : T.node.id = o.node := by rw [hg.node]; exact (find_mem_ids ht).1
  have hne : ∀ {j : Nat} {o2 : TableObj}, p.tables[j]? = some o2 → j ≠ i → o2.node ≠ o.node := by
    intro j o2 hj hji e
    refine hji ?_
    obtain ⟨hj1, hj2⟩ := List.getElem?_eq_some_iff.mp hj
    refine (h.distinct.getElem_inj_iff (i := j) (j := i) (hi := by simpa using hj1) (hj := by simpa using hi)).mp ?_
    simp only [List.getElem_map, hj2, hio, e]
  have hset : ∀ o2 ∈ p'.tables, o2 = ⟨o.node, T.rows, T.cols⟩ ∨ (o2 ∈ p.tables ∧ o2.node ≠ o.node) := by
    intro o2 hm
    obtain ⟨j, hj⟩ := List.mem_iff_getElem?.mp hm
    have hj : (p.tables.set i ⟨o.node, T.rows, T.cols⟩)[j]? = some o2 := hj
    rw [List.getElem?_set] at hj
    split at hj
    · exact .inl (Option.some.inj hj).symm
    · rename_i hij
      exact .inr ⟨List.mem_of_getElem? hj, hne hj (fun e => hij e.symm)⟩
  have hnodes : p'.tables.map TableObj.node = p.tables.map TableObj.node := by
    show (p.tables.set i _).map _ = _
    rw [List.map_set]
    refine List.ext_getElem? fun j => ?_
    rw [List.getElem?_set]
    split
    · rename_i hij
      subst hij
      rw [if_pos (by simpa using hi), List.getElem?_map, ho]; rfl
    · rfl
  refine ⟨⟨?_, ⟨tag, h1, hput.framed⟩, ?_, ?_, ?_, ?_⟩, ?_, ?_, ?_, hsh⟩
  · exact lives_world h.lives h1 hput.framed
  · rw [hnodes]; exact h.distinct
  · intro o2 hm
    rcases hset o2 hm with rfl | ⟨hm, _⟩
    · exact hput.placed _ (h.placed o hom)
    · exact hput.placed _ (h.placed o2 hm)
  · intro o2 hm t2 ht2
    have ht2 : Forest.find o2.node (putTable o.node T p.world) = some t2 := ht2
    rcases hset o2 hm with rfl | ⟨hm, hno⟩
    · have hs := hput.self
      have ht2 : Forest.find o.node (putTable o.node T p.world) = some t2 := ht2
      rw [ht2] at hs; cases hs
      exact hT.fresh fun i hi => lt_newId ((find_sub ht2).subset (by simp [hi]))
    · have := hput.others _ hno (h.placed o2 hm)
      have ht3 := ht2
      rw [this] at ht3
      exact sound_fresh (h.sound o2 hm t2 ht3) ht2
  · intro u hu hno
    rw [hsh] at hu
    obtain ⟨v, hv, hvu⟩ := List.mem_map.mp hu
    have hmem : (⟨o.node, T.rows, T.cols⟩ : TableObj) ∈ p'.tables :=
      List.mem_iff_getElem?.mpr ⟨i, by show (p.tables.set i _)[i]? = _; rw [List.getElem?_set]; simp [hi]⟩
    have hno' := hno _ hmem
    split at hvu
    · subst hvu; exact absurd hid.symm hno'
    · subst hvu
      refine h.others v hv fun o2 ho2 => ?_
      have : o2.node ∈ p'.tables.map TableObj.node := by rw [hnodes]; exact List.mem_map_of_mem ho2
      obtain ⟨o3, ho3, he⟩ := List.mem_map.mp this
      rw [← he]; exact hno o3 ho3
  · unfold view
    have : p'.tables[i]? = some ⟨o.node, T.rows, T.cols⟩ := by
      show (p.tables.set i _)[i]? = _; rw [List.getElem?_set]; simp [hi]
    rw [this]
    show ((Forest.find o.node (putTable o.node T p.world)).map _) = _
    rw [hput.self]; rfl
  · intro j hj
    unfold view
    have : p'.tables[j]? = p.tables[j]? := by
      show (p.tables.set i _)[j]? = _; rw [List.getElem?_set, if_neg (fun e => hj e.symm)]
    rw [this]
    cases hpj : p.tables[j]? with
    | none => rfl
    | some o2 =>
      show ((Forest.find o2.node (putTable o.node T p.world)).map _) = _
      rw [hput.others _ (hne hpj hj) (h.placed o2 (List.mem_of_getElem? hpj))]
      rfl
  · unfold order
    rw [hsh, List.map_map]
    refine List.map_congr_left fun u _ => ?_
    simp only [Function.comp]
    split
    · rename_i e; rw [e]; exact hid
    · rfl

/-- A new object for a sheet -/
theorem ok_open {L : XLib} {p : Prog} (h : OK L p) {t : Tree} (htm : t ∈ sheetsOf p.session)
    (hno : ∀ o ∈ p.tables, o.node ≠ t.1.id) {T : TState} (hT : Sound T)
    (hg : Grow [] (stored t.1 t.2 (Parts.newId p.world)) T) :
    let p' : Prog := { p.setWorld (putTable t.1.id T p.world) with tables := p.tables ++ [⟨t.1.id, T.rows, T.cols⟩] }
    OK L p' ∧ view p' p.tables.length = some ((T.node, T.kids), T.rows, T.cols) ∧
    (∀ j, j < p.tables.length → view p' j = view p j) ∧ order p' = order p ∧
    sheetsOf p'.session = (sheetsOf p.session).map fun u => if u.1.id = t.1.id then (T.node, T.kids) else u := by
  intro p'
  obtain ⟨hft, hpl⟩ := h.sheet htm
  obtain ⟨tag, h1, hput⟩ := put_table h hpl hft (s := stored t.1 t.2 (Parts.newId p.world)) rfl rfl rfl hT hg (by simp)
  obtain ⟨_, _, hf⟩ := h.frame
  have htt : t.1.tag = "table:table" := (h.others t htm hno).tag
  have hsh : sheetsOf p'.session = (sheetsOf p.session).map fun u => if u.1.id = t.1.id then (T.node, T.kids) else u :=
    sheets_put (by rw [htt]; exact hT.tag) hft hf.once hput
  have hid : T.node.id = t.1.id := hg.node
  refine ⟨⟨?_, ⟨tag, h1, hput.framed⟩, ?_, ?_, ?_, ?_⟩, ?_, ?_, ?_, hsh⟩
  · exact lives_world h.lives h1 hput.framed
  · show ((p.tables ++ [_]).map TableObj.node).Nodup
    rw [List.map_append, List.nodup_append]
    refine ⟨h.distinct, by simp, ?_⟩
    intro a ha b hb e
    simp only [List.map_cons, List.map_nil, List.mem_singleton] at hb
    obtain ⟨o, ho, rfl⟩ := List.mem_map.mp ha
    exact hno o ho (e.trans hb)
  · intro o hm
    rcases List.mem_append.mp hm with hm | hm
    · exact hput.placed _ (h.placed o hm)
    · rw [List.mem_singleton.mp hm]; exact hput.placed _ hpl
  · intro o hm u hu
    have hu : Forest.find o.node (putTable t.1.id T p.world) = some u := hu
    rcases List.mem_append.mp hm with hm | hm
    · have := hput.others _ (hno o hm) (h.placed o hm)
      have hu3 := hu
      rw [this] at hu3
      exact sound_fresh (h.sound o hm u hu3) hu
    · have hm := List.mem_singleton.mp hm
      subst hm
      have hs := hput.self
      have hu : Forest.find t.1.id (putTable t.1.id T p.world) = some u := hu
      rw [hu] at hs; cases hs
      exact hT.fresh fun i hi => lt_newId ((find_sub hu).subset (by simp [hi]))
  · intro u hu hno'
    rw [hsh] at hu
    obtain ⟨v, hv, hvu⟩ := List.mem_map.mp hu
    split at hvu
    · subst hvu
      exact absurd hid.symm (hno' ⟨t.1.id, T.rows, T.cols⟩ (List.mem_append.mpr (.inr (by simp))))
    · subst hvu
      exact h.others v hv fun o2 ho2 => hno' o2 (List.mem_append.mpr (.inl ho2))
  · unfold view
    have : p'.tables[p.tables.length]? = some ⟨t.1.id, T.rows, T.cols⟩ := by
      show (p.tables ++ [_])[p.tables.length]? = _; simp
    rw [this]
    show ((Forest.find t.1.id (putTable t.1.id T p.world)).map _) = _
    rw [hput.self]; rfl
  · intro j hj
    unfold view
    have : p'.tables[j]? = p.tables[j]? := by
      show (p.tables ++ [_])[j]? = _; rw [List.getElem?_append_left hj]
    rw [this]
    cases hpj : p.tables[j]? with
    | none => rfl
    | some o2 =>
      have hm := List.mem_of_getElem? hpj
      show ((Forest.find o2.node (putTable t.1.id T p.world)).map _) = _
      rw [hput.others _ (hno o2 hm) (h.placed o2 hm)]
      rfl
  · unfold order
    rw [hsh, List.map_map]
    refine List.map_congr_left fun u _ => ?_
    simp only [Function.comp]
    split
    · rename_i e; rw [e]; exact hid
    · rfl

/-- A new table outside of the document -/
theorem ok_create {L : XLib} {p : Prog} (h : OK L p) {T : TState} (hT : Sound T) (hid : T.node.id = Parts.newId p.world)
    (hids : ∀ i ∈ ids T.kids, Parts.newId p.world < i) :
    let p' : Prog := { p.setWorld (p.world ++ Forest.single (T.node, T.kids)) with
      tables := p.tables ++ [⟨T.node.id, T.rows, T.cols⟩] }
    OK L p' ∧ view p' p.tables.length = some ((T.node, T.kids), T.rows, T.cols) ∧
    (∀ j, j < p.tables.length → view p' j = view p j) ∧ sheetsOf p'.session = sheetsOf p.session := by
  intro p'
  obtain ⟨tag, h1, hf⟩ := h.frame
  have hnew : ∀ i ∈ ids (single (T.node, T.kids)), Parts.newId p.world ≤ i := by
    intro i hi
    simp only [ids_single, List.mem_cons] at hi
    rcases hi with rfl | hi
    · rw [hid]; exact Nat.le_refl _
    · exact Nat.le_of_lt (hids i hi)
  have hnd : (ids (single (T.node, T.kids))).Nodup := by
    simp only [ids_single, List.nodup_cons]
    refine ⟨fun hm => ?_, hT.inv.wf.nodup⟩
    have := hids _ hm
    rw [hid] at this
    exact absurd this (Nat.lt_irrefl _)
  obtain ⟨a1, a2, a3, a4, a5⟩ := add_spec hf (t := (T.node, T.kids)) hnd hnew hT.tag
  have hne : ∀ o ∈ p.tables, o.node ≠ T.node.id := by
    intro o ho e
    have := lt_newId (Parts.mem_of_tagAt (h.placed o ho).tag)
    rw [e, hid] at this
    exact absurd this (Nat.lt_irrefl _)
  obtain ⟨b, hb⟩ := hf.body
  have hsh : sheetsOf p'.session = sheetsOf p.session := by
    unfold sheetsOf
    have hb1 : p.session.world.find p.session.tree.body.node = some b := hb
    have hb2 : p'.session.world.find p'.session.tree.body.node = some b := a5 _ _ hb
    rw [hb1, hb2]
  refine ⟨⟨?_, ⟨tag, h1, a1⟩, ?_, ?_, ?_, ?_⟩, ?_, ?_, hsh⟩
  · exact lives_world h.lives h1 a1
  · show ((p.tables ++ [_]).map TableObj.node).Nodup
    rw [List.map_append, List.nodup_append]
    refine ⟨h.distinct, by simp, ?_⟩
    intro a ha b hb e
    simp only [List.map_cons, List.map_nil, List.mem_singleton] at hb
    obtain ⟨o, ho, rfl⟩ := List.mem_map.mp ha
    exact hne o ho (e.trans hb)
  · intro o hm
    rcases List.mem_append.mp hm with hm | hm
    · exact a4 _ (h.placed o hm)
    · rw [List.mem_singleton.mp hm]; exact a2
  · intro o hm u hu
    have hu : Forest.find o.node (p.world ++ Forest.single (T.node, T.kids)) = some u := hu
    rcases List.mem_append.mp hm with hm | hm
    · obtain ⟨v, hv⟩ := h.find hm
      have := a5 _ _ hv
      rw [hu] at this; cases this
      exact sound_fresh (h.sound o hm u hv) hu
    · have hm := List.mem_singleton.mp hm
      subst hm
      have hu : Forest.find T.node.id (p.world ++ Forest.single (T.node, T.kids)) = some u := hu
      have h3 := a3
      simp only at h3
      rw [hu] at h3; cases h3
      exact hT.fresh fun i hi => lt_newId ((find_sub hu).subset (by simp [hi]))
  · intro u hu hno'
    rw [hsh] at hu
    exact h.others u hu fun o2 ho2 => hno' o2 (List.mem_append.mpr (.inl ho2))
  · unfold view
    have : p'.tables[p.tables.length]? = some ⟨T.node.id, T.rows, T.cols⟩ := by
      show (p.tables ++ [_])[p.tables.length]? = _; simp
    rw [this]
    show ((Forest.find T.node.id (p.world ++ _)).map _) = _
    have h3 := a3
    simp only at h3
    rw [h3]; rfl
  · intro j hj
    unfold view
    have : p'.tables[j]? = p.tables[j]? := by
      show (p.tables ++ [_])[j]? = _; rw [List.getElem?_append_left hj]
    rw [this]
    cases hpj : p.tables[j]? with
    | none => rfl
    | some o2 =>
      obtain ⟨v, hv⟩ := h.find (List.mem_of_getElem? hpj)
      show ((Forest.find o2.node (p.world ++ _)).map _) = _
      rw [a5 _ _ hv]
      show _ = (Forest.find o2.node p.world).map _
      rw [hv]

/-- The sheets by the children of the body -/
theorem order_kids {p : Prog} {W : World} (hn : (ids W).Nodup) {l : List Nat}
    (hl : children W p.session.tree.body.node = some l) :
    order (p.setWorld W) = l.filter fun x => Parts.tagAt W x = some "table:table" := by
  unfold children at hl
  cases hb : Forest.find p.session.tree.body.node W with
  | none => rw [hb] at hl; cases hl
  | some b =>
    rw [hb] at hl
    have hl : roots b.2 = l := Option.some.inj hl
    unfold order sheetsOf
    have hb' : (p.setWorld W).session.world.find (p.setWorld W).session.tree.body.node = some b := hb
    rw [hb', ← hl]
    simp only [tables, Lxml.roots]
    rw [List.filter_map]
    congr 1
    refine List.filter_congr fun u hu => ?_
    simp only [Function.comp]
    rw [tagAt_find (child_find hn hb hu)]
    simp

theorem setWorld_self (p : Prog) : p.setWorld p.world = p := rfl

/-- Moving tables -/
theorem ok_move {L : XLib} {p : Prog} (h : OK L p) {W' : World} {tag : String} {l l' : List Nat}
    (ht : MIMETYPE_BODYTAG_MAP.get p.session.mimetype = some tag) (hm : MoveSpec p.world W' tag p.session.tree l l')
    (hl : ∀ x ∈ l', x ∈ l ∨ ∃ o ∈ p.tables, o.node = x) :
    OK L (p.setWorld W') ∧ (∀ j, view (p.setWorld W') j = view p j) ∧
    order p = l.filter (fun x => Parts.tagAt p.world x = some "table:table") ∧
    order (p.setWorld W') = l'.filter (fun x => Parts.tagAt p.world x = some "table:table") ∧
    (∀ x, Placed p.world p.session.tree x → Forest.find x W' = Forest.find x p.world) := by
  obtain ⟨tag', ht', hf⟩ := h.frame
  have o1 := order_kids (p := p) hf.once hm.before
  rw [setWorld_self] at o1
  have o2 := order_kids (p := p) hm.framed.once hm.after
  have htags : ∀ x, Parts.tagAt W' x = Parts.tagAt p.world x := by
    intro x
    by_cases hx : x = p.session.tree.body.node
    · obtain ⟨b, b', e1, e2, e3⟩ := hm.body
      rw [hx, tagAt_find e1, tagAt_find e2, e3]
    · exact node_tag (hm.nodes x hx)
  have o3 : order (p.setWorld W') = l'.filter (fun x => Parts.tagAt p.world x = some "table:table") := by
    rw [o2]; exact List.filter_congr fun x _ => by rw [htags]
  refine ⟨⟨?_, ⟨tag, ht, hm.framed⟩, h.distinct, ?_, ?_, ?_⟩, ?_, o1, o3, hm.trees⟩
  · exact lives_world h.lives ht hm.framed
  · intro o ho
    exact hm.placed _ (h.placed o ho)
  · intro o ho t hft
    have hft : Forest.find o.node W' = some t := hft
    have h3 := hft
    rw [hm.trees _ (h.placed o ho)] at h3
    exact sound_fresh (h.sound o ho t h3) hft
  · intro t hts hno
    have hno : ∀ o ∈ p.tables, o.node ≠ t.1.id := hno
    have hxo : t.1.id ∈ order (p.setWorld W') := List.mem_map_of_mem hts
    rw [o3] at hxo
    obtain ⟨hx1, hx2⟩ := List.mem_filter.mp hxo
    rcases hl _ hx1 with hx | ⟨o, ho, he⟩
    · have hx3 : t.1.id ∈ order p := by rw [o1]; exact List.mem_filter.mpr ⟨hx, hx2⟩
      obtain ⟨u, hu, hue⟩ := List.mem_map.mp hx3
      obtain ⟨hu1, hu2⟩ := h.sheet hu
      have hut : u = t := by
        -- both are the tree at the identity
        obtain ⟨b, b', -, e2, -⟩ := hm.body
        have hb' : (p.setWorld W').session.world.find (p.setWorld W').session.tree.body.node = some b' := e2
        unfold sheetsOf at hts
        rw [hb'] at hts
        have h4 := child_find hm.framed.once e2 (List.mem_filter.mp hts).1
        rw [← hue, hm.trees _ hu2, hu1] at h4
        exact Option.some.inj h4
      subst hut
      exact h.others u hu hno
    · exact absurd he (hno o ho)
  · intro j
    unfold view
    show (p.tables[j]?).bind _ = _
    cases hpj : p.tables[j]? with
    | none => rfl
    | some o =>
      show (Forest.find o.node W').map _ = (Forest.find o.node p.world).map _
      rw [hm.trees _ (h.placed o (List.mem_of_getElem? hpj))]

end Verif.Program
