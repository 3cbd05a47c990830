import Verif.Props.Copy
/-!
# Property C62: a table that is written and read again

Writing and reading a file makes a new tree with the same content (`SameContent`); the new elements
are distinct from each other.  What the reading program (any of the three strategies) makes of it is
`load` of that tree.
-/
set_option linter.unusedSimpArgs false
namespace Verif.Tbl
open Verif Verif.Forest Verif.Cells Verif.TSpec

theorem wf_same {F G : Forest} {n : Nat} (hflat : ∀ t ∈ sel isRC F, sel isRC t.2 = [])
    (h : erase F = erase G) (hnd : (ids G).Nodup) (hlt : ∀ i ∈ ids G, i < n) : WF G n := by
  refine ⟨hnd, hlt, fun t ht => ?_⟩
  have h5 := sel_erase isRC isRC_id G
  rw [← h, sel_erase isRC isRC_id] at h5
  have : content t ∈ (sel isRC G).map content := List.mem_map_of_mem ht
  rw [← h5] at this
  obtain ⟨u, hu, he⟩ := List.mem_map.mp this
  have he2 : erase u.2 = erase t.2 := congrArg Prod.snd he
  exact sel_nil_of_erase isRC_id he2.symm (hflat u hu)

/-- The state of a table in the tree `G`. -/
def inTree (node : Elem) (G : Forest) (n : Nat) : TState :=
  { node := node, kids := G, rows := (sel isRow G).map fun t => t.1.id,
    cols := (sel isCol G).map fun t => t.1.id, fresh := n }

theorem reload {strategy : String} (hname : strategy ∈ ["all", "all_but_last", "all_less_maxcount"])
    {mx : Int × Int} (hm : 1 < mx.1 ∧ 1 < mx.2) {s : TState} (hi : Inv s) (he : Expanded s)
    {node : Elem} (ht : node.tag = "table:table") {G : Forest} {n : Nat}
    (hs : SameContent s.kids G) (hnd : (ids G).Nodup) (hlt : ∀ i ∈ ids G, i < n) :
    load strategy mx (stored node G n) = (inTree node G n, .ok ()) ∧ Inv (inTree node G n) := by
  obtain ⟨st, hst⟩ : ∃ st, strategyOf strategy = some st := by
    simp only [List.mem_cons, List.not_mem_nil, or_false] at hname
    rcases hname with rfl | rfl | rfl
    · exact ⟨.all, rfl⟩
    · exact ⟨.allButLast, rfl⟩
    · exact ⟨.lessMax, rfl⟩
  have c2 : erase s.kids = erase G := erase_of_sameContent hs
  have hci : Inv (inTree node G n) := ⟨wf_same hi.wf.flat c2 hnd hlt, rfl, rfl⟩
  refine ⟨?_, hci⟩
  have rowsE : (rowsOf (inTree node G n)).map content = (rowsOf s).map content := by
    unfold rowsOf
    rw [← sel_erase isRow isRow_id, ← sel_erase isRow isRow_id, c2]; rfl
  have colsE : (colsOf (inTree node G n)).map content = (colsOf s).map content := by
    unfold colsOf
    rw [← sel_erase isCol isCol_id, ← sel_erase isCol isCol_id, c2]; rfl
  have hsr := he.rows
  have hsc := he.cols
  have hrect := he.rect
  rw [← rowsOf_doc] at hsr hrect
  rw [← colsOf_doc] at hsc
  have back : ∀ t ∈ rowsOf (inTree node G n), ∃ u ∈ rowsOf s, content u = content t := by
    intro t ht
    have : content t ∈ (rowsOf (inTree node G n)).map content := List.mem_map_of_mem ht
    rw [rowsE] at this
    exact List.mem_map.mp this
  have kidsEq : ∀ {t u : Tree}, content u = content t → t.2.toList.map content = u.2.toList.map content := by
    intro t u h
    have h2 : erase u.2 = erase t.2 := congrArg Prod.snd h
    rw [← erase_toList, ← erase_toList, h2]
  have hs1 : Single (inTree node G n) := by
    refine ⟨fun t ht => ?_, fun t ht => ?_⟩
    · obtain ⟨u, hu, hut⟩ := back t ht
      obtain ⟨a, b⟩ := hsr u hu
      refine ⟨?_, fun x hx => ?_⟩
      · rw [← repeatCount_content, ← hut, repeatCount_content]
        exact one_of_stored a
      · have h2 : content x ∈ t.2.toList.map content := List.mem_map_of_mem hx
        rw [kidsEq hut] at h2
        obtain ⟨y, hy, hyx⟩ := List.mem_map.mp h2
        rw [← repeatCount_content, ← hyx, repeatCount_content]
        exact one_of_stored (b y hy)
    · have : content t ∈ (colsOf (inTree node G n)).map content := List.mem_map_of_mem ht
      rw [colsE] at this
      obtain ⟨u, hu, hut⟩ := List.mem_map.mp this
      rw [← repeatCount_content, ← hut, repeatCount_content]
      exact one_of_stored (hsc u hu)
  have hr : ∃ w, Rect w (rowsOf (inTree node G n)) := by
    have lens : ∀ t ∈ rowsOf (inTree node G n), ∃ u ∈ rowsOf s, t.2.length = (cells u).length := by
      intro t ht
      obtain ⟨u, hu, hut⟩ := back t ht
      refine ⟨u, hu, ?_⟩
      have := congrArg List.length (kidsEq hut)
      simpa [cells] using this
    cases hrs : rowsOf s with
    | nil =>
      refine ⟨0, fun t ht => ?_⟩
      obtain ⟨u, hu, _⟩ := lens t ht
      rw [hrs] at hu; simp at hu
    | cons a l =>
      refine ⟨(cells a).length, fun t ht => ?_⟩
      obtain ⟨u, hu, h⟩ := lens t ht
      rw [h]
      exact hrect u hu a (by rw [hrs]; simp)
  obtain ⟨w, hw⟩ := hr
  exact load_again hst hm (s := inTree node G n) ht hci hs1 hw [] []

/-! ## Opened tables carry no repetition counts -/

theorem allE_split {P : Elem → Prop} {F : Forest} (h1 : AllE P (skel F))
    (h2 : ∀ t ∈ sel isRC F, P t.1 ∧ AllE P t.2) : AllE P F := by
  induction F with
  | nil => trivial
  | cons e k r ihk ihr =>
    have hr := ihr
    by_cases he : isRC e = true
    · simp only [skel, he, if_true] at h1
      obtain ⟨a, b⟩ := h2 (e, k) (by simp [sel, he])
      exact ⟨a, b, ihr h1 fun t ht => h2 t (by simp [sel, ht])⟩
    · simp only [skel, if_neg he] at h1
      obtain ⟨a, b, c⟩ := h1
      exact ⟨a, ihk b fun t ht => h2 t (by simp [sel, ht]), ihr c fun t ht => h2 t (by simp [sel, ht])⟩

theorem allE_nodes {P : Elem → Prop} {F : Forest} : AllE P F ↔ ∀ t ∈ nodes F, P t.1 := by
  induction F with
  | nil => simp [AllE, nodes]
  | cons e k r ihk ihr =>
    simp only [AllE, nodes, ihk, ihr, List.mem_cons, List.mem_append]
    constructor
    · rintro ⟨a, b, c⟩ t (rfl | h | h)
      · exact a
      · exact b t h
      · exact c t h
    · intro h
      exact ⟨h (e, k) (.inl rfl), fun t ht => h t (.inr (.inl ht)), fun t ht => h t (.inr (.inr ht))⟩

theorem allE_erase {P : Elem → Prop} (hP : ∀ e : Elem, P { e with id := 0 } ↔ P e) {F : Forest} :
    AllE P (erase F) ↔ AllE P F := by
  induction F with
  | nil => simp [AllE, erase]
  | cons e k r ihk ihr => simp only [AllE, erase, ihk, ihr, hP]

theorem once_id (e : Elem) : Once { e with id := 0 } ↔ Once e := Iff.rfl

/-- The element is there once: it carries no repetition count, or the count 1. -/
def Alone (e : Elem) : Prop :=
  Stored "table:number-rows-repeated" e 1 ∧ Stored "table:number-columns-repeated" e 1

/-- Repetition counts above 1 stand only where they belong: counts of rows at rows, counts of columns at
cells and columns, and none inside of cells and columns or anywhere else. -/
structure Tidy (F : Forest) : Prop where
  others : ∀ t ∈ nodes (others F), Alone t.1
  rows : ∀ r ∈ docRows F, Stored "table:number-columns-repeated" r.1 1 ∧
    ∀ c ∈ cells r, Stored "table:number-rows-repeated" c.1 1 ∧ ∀ t ∈ nodes c.2, Alone t.1
  cols : ∀ c ∈ docCols F, Stored "table:number-rows-repeated" c.1 1 ∧ ∀ t ∈ nodes c.2, Alone t.1

theorem Alone.once {e : Elem} (h : Alone e) : Once e := ⟨one_of_stored h.1, one_of_stored h.2⟩

theorem Alone.of_once {e : Elem} (h : Once e) : Alone e := ⟨stored_of_one h.1, stored_of_one h.2⟩

theorem count_congr {key : String} {e e' : Elem} (h : e.get key = e'.get key) :
    repeatCount key e = repeatCount key e' := by
  unfold repeatCount; rw [h]

theorem stored_none {key : String} {e : Elem} (h : e.get key = none) : Stored key e 1 :=
  ⟨Nat.le_refl _, .inl ⟨h, rfl⟩⟩

theorem one_of_none {key : String} {e : Elem} (h : e.get key = none) : repeatCount key e = .ok 1 := by
  unfold repeatCount; rw [h]

theorem bare_get {key k : String} (h : k ≠ key) (e : Elem) : (bare key e).get k = e.get k := by
  have := Elem.get_del e key k
  rw [if_neg h] at this
  exact this

/-- What is shown of a node determines the other attributes and its content. -/
theorem once_of_shown {key k : String} (hk : k ≠ key) {t u : Tree} (h : shown key t = shown key u) :
    t.1.get k = u.1.get k ∧ (AllE Once u.2 → AllE Once t.2) := by
  have h1 : bare key t.1 = bare key u.1 := congrArg Prod.fst h
  have h2 : erase t.2 = erase u.2 := congrArg Prod.snd h
  refine ⟨?_, fun h3 => ?_⟩
  · rw [← bare_get hk t.1, h1, bare_get hk]
  · rw [← allE_erase once_id, h2, allE_erase once_id]; exact h3

theorem mem_padded {rows : List (Elem × List Tree)} {r : Elem × List Tree} (h : r ∈ padded rows) :
    ∃ r' ∈ rows, r'.1 = r.1 ∧ ∀ c ∈ r.2, c ∈ r'.2 ∨ c = emptyShown := by
  obtain ⟨r', h1, h2⟩ := List.mem_map.mp h
  subst h2
  refine ⟨r', h1, rfl, fun c hc => ?_⟩
  rcases List.mem_append.mp hc with hc | hc
  · exact .inl hc
  · exact .inr (List.eq_of_mem_replicate hc)

theorem mem_sel_iff {p : Elem → Bool} {F : Forest} {t : Tree} :
    t ∈ sel p F ↔ t ∈ nodes F ∧ p t.1 = true := by
  induction F with
  | nil => simp [sel, nodes]
  | cons e k r ihk ihr =>
    simp only [sel, nodes, List.mem_append, List.mem_cons, ihk, ihr]
    constructor
    · rintro (h | h | h)
      · split at h
        · rename_i hp
          simp only [List.mem_singleton] at h
          subst h; exact ⟨.inl rfl, hp⟩
        · simp at h
      · exact ⟨.inr (.inl h.1), h.2⟩
      · exact ⟨.inr (.inr h.1), h.2⟩
    · rintro ⟨rfl | h | h, hp⟩
      · exact .inl (by simp only at hp; simp [hp])
      · exact .inr (.inl ⟨h, hp⟩)
      · exact .inr (.inr ⟨h, hp⟩)

theorem opened_once {strategy : String}
    (hname : strategy ∈ ["all", "all_but_last", "all_less_maxcount"])
    {mx : Int × Int} (hm : 1 < mx.1 ∧ 1 < mx.2) {s : TState} {nr nc : Elem → Nat}
    (h : StoredTable s nr nc) (ht : Tidy s.kids) :
    ∃ s', load strategy mx s = (s', .ok ()) ∧ Inv s' ∧ Expanded s' ∧ AllE Once s'.kids := by
  obtain ⟨s', h1, h2, h3⟩ := C21_opened hname hm h
  obtain ⟨st, hst⟩ : ∃ st, strategyOf strategy = some st := by
    simp only [List.mem_cons, List.not_mem_nil, or_false] at hname
    rcases hname with rfl | rfl | rfl
    · exact ⟨.all, rfl⟩
    · exact ⟨.allButLast, rfl⟩
    · exact ⟨.lessMax, rfl⟩
  obtain ⟨s'', e1, e2, _, e4⟩ := load_core hst hm h
  have : s'' = s' := by rw [h1] at e1; exact (congrArg Prod.fst e1).symm
  subst this
  refine ⟨s'', h1, h2, h3, allE_split ?_ ?_⟩
  · rw [skel_others, e2.others, allE_nodes]
    exact fun t ht' => (ht.others t ht').once
  · intro t htm
    have rc : isRow t.1 = true ∨ isCol t.1 = true := by
      have := (mem_sel_iff.mp htm).2
      simpa [isRC] using this
    rcases rc with rc | rc
    · have hrow : t ∈ docRows s''.kids := by
        rw [← rowsOf_doc]; exact mem_sel_iff.mpr ⟨(mem_sel_iff.mp htm).1, rc⟩
      have hone := e4.1 t (mem_sel_iff.mpr ⟨(mem_sel_iff.mp htm).1, rc⟩)
      have hg : rowShown t ∈ shownRows s'' := List.mem_map_of_mem hrow
      rw [e2.rows] at hg
      obtain ⟨r', hr', hr1, hr2⟩ := mem_padded hg
      obtain ⟨n, hr'⟩ := mem_rle hr'
      obtain ⟨n2, hr'⟩ := mem_eff hr'
      obtain ⟨q, hq, hqe⟩ := List.mem_map.mp hr'
      obtain ⟨o, ho, hoe⟩ := List.mem_map.mp hq
      subst hoe
      simp only [Prod.mk.injEq] at hqe
      obtain ⟨_, hqe⟩ := hqe
      subst hqe
      obtain ⟨o1, o2⟩ := ht.rows o ho
      refine ⟨⟨hone.1, ?_⟩, allE_toList.mpr fun c hc => ?_⟩
      · have hb : bare "table:number-rows-repeated" o.1 = bare "table:number-rows-repeated" t.1 := hr1
        refine (count_congr ?_).trans (one_of_stored o1)
        show t.1.get "table:number-columns-repeated" = _
        rw [← bare_get (key := "table:number-rows-repeated") (by decide) t.1, ← hb, bare_get (by decide)]
        rfl
      · have hc' : shown "table:number-columns-repeated" c ∈ (rowShown t).2 := List.mem_map_of_mem hc
        rcases hr2 _ hc' with hc' | hc'
        · obtain ⟨m, hc'⟩ := mem_rle hc'
          obtain ⟨m2, hc'⟩ := mem_eff hc'
          obtain ⟨d, hd, hde⟩ := List.mem_map.mp hc'
          obtain ⟨w1, w2⟩ := once_of_shown (k := "table:number-rows-repeated") (by decide) (Prod.mk.inj hde).2.symm
          obtain ⟨d1, d2⟩ := o2 d hd
          exact ⟨⟨(count_congr w1).trans (one_of_stored d1), hone.2 c hc⟩,
            w2 (allE_nodes.mpr fun t ht' => (d2 t ht').once)⟩
        · have hc' : shown "table:number-columns-repeated" c = shown "table:number-columns-repeated" emptyShown := hc'
          obtain ⟨w1, w2⟩ := once_of_shown (k := "table:number-rows-repeated") (by decide) hc'
          exact ⟨⟨one_of_none (w1.trans rfl), hone.2 c hc⟩, w2 trivial⟩
    · have hcol : t ∈ docCols s''.kids := by
        rw [← colsOf_doc]; exact mem_sel_iff.mpr ⟨(mem_sel_iff.mp htm).1, rc⟩
      have hone := e4.2 t (mem_sel_iff.mpr ⟨(mem_sel_iff.mp htm).1, rc⟩)
      have hg : shown "table:number-columns-repeated" t ∈ shownCols s'' := List.mem_map_of_mem hcol
      rw [e2.cols] at hg
      obtain ⟨m, hc'⟩ := mem_rle hg
      obtain ⟨m2, hc'⟩ := mem_eff hc'
      obtain ⟨d, hd, hde⟩ := List.mem_map.mp hc'
      obtain ⟨w1, w2⟩ := once_of_shown (k := "table:number-rows-repeated") (by decide) (Prod.mk.inj hde).2.symm
      obtain ⟨d1, d2⟩ := ht.cols d hd
      exact ⟨⟨(count_congr w1).trans (one_of_stored d1), hone⟩, w2 (allE_nodes.mpr fun t ht' => (d2 t ht').once)⟩

/-- **C21**, **C62** (opened tables with histories): a table opened with any of the strategies and then
changed by any history of successful calls (no cell with a repetition count put in) carries no
repetition count and has rows of equal length. -/
theorem C62_opened {strategy : String}
    (hname : strategy ∈ ["all", "all_but_last", "all_less_maxcount"])
    {mx : Int × Int} (hm : 1 < mx.1 ∧ 1 < mx.2) {s : TState} {nr nc : Elem → Nat}
    (h : StoredTable s nr nc) (ht : Tidy s.kids) :
    ∃ s', load strategy mx s = (s', .ok ()) ∧ ∀ s'', CleanHist s' s'' → Inv s'' ∧ Expanded s'' := by
  obtain ⟨s', h1, h2, h3, h4⟩ := opened_once hname hm h ht
  exact ⟨s', h1, fun s'' hh => ⟨hist_inv h2 hh.ok.hist, expanded_of_once h2 h4 h3.rect hh⟩⟩

/-! ## Lives of tables -/

/-- The element read from a file for a written element: everything is the same but its identity. -/
def SameElem (e e' : Elem) : Prop :=
  e'.tag = e.tag ∧ e'.attrs = e.attrs ∧ e'.text = e.text ∧ e'.tail = e.tail

/-- Tables that are created or opened, changed by successful calls (no cell with a repetition count
put in), written, read again with any strategy, changed again, and so on. -/
inductive Life : TState → Prop
  | created {id : Nat} {nm : Str} {size : Int × Int} {s : TState}
      (h : newTable id nm size = (s, .ok ())) : Life s
  | opened {strategy : String} {mx : Int × Int} {s s' : TState} {nr nc : Elem → Nat}
      (hname : strategy ∈ ["all", "all_but_last", "all_less_maxcount"]) (hm : 1 < mx.1 ∧ 1 < mx.2)
      (hst : StoredTable s nr nc) (ht : Tidy s.kids) (h : load strategy mx s = (s', .ok ())) : Life s'
  | call {s : TState} (op : Op) (h : Life s) (hf : Fine op s) (hok : (run op s).2 = .ok ())
      (hg : op.Given Once) : Life (run op s).1
  | again {strategy : String} {mx : Int × Int} {s s' : TState} {node : Elem} {G : Forest} {n : Nat}
      (h : Life s) (hname : strategy ∈ ["all", "all_but_last", "all_less_maxcount"])
      (hm : 1 < mx.1 ∧ 1 < mx.2) (hn : SameElem s.node node) (hs : SameContent s.kids G)
      (hnd : (ids G).Nodup) (hlt : ∀ i ∈ ids G, i < n)
      (hl : load strategy mx (stored node G n) = (s', .ok ())) : Life s'

theorem load_node {strategy : String} (hname : strategy ∈ ["all", "all_but_last", "all_less_maxcount"])
    {mx : Int × Int} (hm : 1 < mx.1 ∧ 1 < mx.2) {s s' : TState} {nr nc : Elem → Nat}
    (h : StoredTable s nr nc) (hl : load strategy mx s = (s', .ok ())) : s'.node = s.node := by
  obtain ⟨st, hst⟩ : ∃ st, strategyOf strategy = some st := by
    simp only [List.mem_cons, List.not_mem_nil, or_false] at hname
    rcases hname with rfl | rfl | rfl
    · exact ⟨.all, rfl⟩
    · exact ⟨.allButLast, rfl⟩
    · exact ⟨.lessMax, rfl⟩
  obtain ⟨s'', e1, e2, _⟩ := load_core hst hm h
  have : s'' = s' := by rw [hl] at e1; exact (congrArg Prod.fst e1).symm
  subst this
  exact e2.node

theorem once_of_same {F G : Forest} (h : SameContent F G) (ho : AllE Once F) : AllE Once G := by
  rw [← allE_erase once_id, ← erase_of_sameContent h, allE_erase once_id]; exact ho

theorem expanded_of_same {s c : TState} (h : SameContent s.kids c.kids) (he : Expanded s)
    (ho : AllE Once s.kids) : Expanded c := by
  have hs := single_of_once (s := c) (once_of_same h ho)
  refine ⟨fun r hr => ?_, fun c hc => ?_, ?_⟩
  · rw [← rowsOf_doc] at hr
    obtain ⟨a, b⟩ := hs.1 r hr
    exact ⟨stored_of_one a, fun c hc => stored_of_one (b c hc)⟩
  · rw [← colsOf_doc] at hc
    exact stored_of_one (hs.2 c hc)
  · have rowsE : (docRows s.kids).map content = (docRows c.kids).map content := sameContent_filter h _
    have back : ∀ t ∈ docRows c.kids, ∃ u ∈ docRows s.kids, (cells t).length = (cells u).length := by
      intro t ht
      have : content t ∈ (docRows c.kids).map content := List.mem_map_of_mem ht
      rw [← rowsE] at this
      obtain ⟨u, hu, hut⟩ := List.mem_map.mp this
      have h2 : erase u.2 = erase t.2 := congrArg Prod.snd hut
      refine ⟨u, hu, ?_⟩
      have := congrArg (fun F => (Forest.toList F).length) h2
      simp only [erase_toList, List.length_map] at this
      exact this.symm
    intro a ha b hb
    obtain ⟨u, hu, e1⟩ := back a ha
    obtain ⟨v, hv, e2⟩ := back b hb
    rw [e1, e2]; exact he.rect u hu v hv

/-- What holds of all tables of a program: the bookkeeping is in order, nothing is repeated, the rows have equal
length. -/
structure Sound (s : TState) : Prop where
  inv : Inv s
  expanded : Expanded s
  once : AllE Once s.kids
  tag : s.node.tag = "table:table"

theorem Life.sound {s : TState} (h : Life s) :
    Inv s ∧ Expanded s ∧ AllE Once s.kids ∧ s.node.tag = "table:table" := by
  induction h with
  | @created id nm size s h =>
    obtain ⟨h1, h2, _⟩ := C21_created h (.refl _)
    let s0 : TState := { node := { id := id, tag := "table:table" }, kids := .nil, rows := [], cols := [], fresh := id + 1 }
    have hm : KeepP Once (do setName (some nm); cellsReset size; colsReset size.2 : Py TState Unit) :=
      keepP_bind (setName_keep _) fun _ => keepP_bind (cellsReset_keep once_cellProp _)
        fun _ => colsReset_keep once_cellProp _
    have hg : GrowP [] (do setName (some nm); cellsReset size; colsReset size.2 : Py TState Unit) :=
      growP_bind (setName_grow _ _) fun _ => growP_bind (cellsReset_grow _ _)
        fun _ => colsReset_grow _ _
    have hs : s = (newTable id nm size).1 := by rw [h]
    have hgr : Grow [] s0 s := by rw [hs]; exact hg s0
    exact ⟨h1, h2, by rw [hs]; exact hm s0 trivial, hgr.tag⟩
  | opened hname hm hst ht h =>
    obtain ⟨s', h1, h2, h3, h4⟩ := opened_once hname hm hst ht
    rw [h] at h1
    have := congrArg Prod.fst h1
    simp only at this
    subst this
    exact ⟨h2, h3, h4, by rw [load_node hname hm hst h]; exact hst.tag⟩
  | @call s op _ hf hok hg ih =>
    obtain ⟨h1, h2, h3, h4⟩ := ih
    have hh : CleanHist s (run op s).1 := .call op hf hok hg (.refl _)
    exact ⟨hist_inv h1 hh.ok.hist, expanded_of_once h1 h3 h2.rect hh, hh.once h3,
      (run_grow op s).tag.trans h4⟩
  | again _ hname hm hn hs hnd hlt hl ih =>
    obtain ⟨h1, h2, h3, h4⟩ := ih
    obtain ⟨e1, e2⟩ := reload hname hm h1 h2 (hn.1.trans h4) hs hnd hlt
    rw [hl] at e1
    have := congrArg Prod.fst e1
    simp only at this
    subst this
    exact ⟨e2, expanded_of_same hs h2 h3, once_of_same hs h3, hn.1.trans h4⟩

theorem reread {s : TState} (h : Sound s) {strategy : String}
    (hname : strategy ∈ ["all", "all_but_last", "all_less_maxcount"])
    {mx : Int × Int} (hm : 1 < mx.1 ∧ 1 < mx.2) {node : Elem} {G : Forest} {n : Nat}
    (hn : SameElem s.node node) (hs : SameContent s.kids G) (hnd : (ids G).Nodup)
    (hlt : ∀ i ∈ ids G, i < n) :
    ∃ c, load strategy mx (stored node G n) = (c, .ok ()) ∧ c.node = node ∧ c.kids = G ∧ Shows c ∧
      nrows c = nrows s ∧ ncols c = ncols s ∧ c.cols.length = s.cols.length ∧ name c = name s ∧
      ∀ pos i j, Denotes (nrows s) pos.1 i → Denotes (ncols s) pos.2 j →
        ∃ t t', getCell s pos = .ok t ∧ getCell c pos = .ok t' ∧
          SameContent (.cons t.1 t.2 .nil) (.cons t'.1 t'.2 .nil) := by
  obtain ⟨h1, h2, h3, h4⟩ := h
  obtain ⟨e1, e2⟩ := reload hname hm h1 h2 (hn.1.trans h4) hs hnd hlt
  obtain ⟨k1, k2, k3, k4⟩ := C21_cells h1 e2 hs h2.rect
  refine ⟨_, e1, rfl, rfl, shows_of_inv e2, k1, k2, k3, ?_, k4⟩
  show node.get "table:name" = s.node.get "table:name"
  unfold Elem.get
  rw [hn.2.1]

/-- **C62**: a table written at any point of its life and read again with any strategy shows the same
grid: reading succeeds and changes nothing in the read tree, the numbers of rows, columns and column
infos and the name are the same, and every cell has the same content.  The bookkeeping of the table
read is in order (`Shows`). -/
theorem C62_reread {s : TState} (h : Life s) {strategy : String}
    (hname : strategy ∈ ["all", "all_but_last", "all_less_maxcount"])
    {mx : Int × Int} (hm : 1 < mx.1 ∧ 1 < mx.2) {node : Elem} {G : Forest} {n : Nat}
    (hn : SameElem s.node node) (hs : SameContent s.kids G) (hnd : (ids G).Nodup)
    (hlt : ∀ i ∈ ids G, i < n) :
    ∃ c, load strategy mx (stored node G n) = (c, .ok ()) ∧ c.node = node ∧ c.kids = G ∧ Shows c ∧
      nrows c = nrows s ∧ ncols c = ncols s ∧ c.cols.length = s.cols.length ∧ name c = name s ∧
      ∀ pos i j, Denotes (nrows s) pos.1 i → Denotes (ncols s) pos.2 j →
        ∃ t t', getCell s pos = .ok t ∧ getCell c pos = .ok t' ∧
          SameContent (.cons t.1 t.2 .nil) (.cons t'.1 t'.2 .nil) :=
  reread ⟨h.sound.1, h.sound.2.1, h.sound.2.2.1, h.sound.2.2.2⟩ hname hm hn hs hnd hlt

/-- **C62** fails for a cell with a repetition count put into a table: the table read has more columns. -/
theorem C62_repeated_refuted : ∃ s s' c : TState, newTable 0 "t".toList (1, 1) = (s, .ok ()) ∧
    tableSetCell (0, 0) doubled s = (s', .ok ()) ∧
    load "all" (32, 32) (stored s'.node s'.kids s'.fresh) = (c, .ok ()) ∧ ncols s' = 1 ∧ ncols c = 2 := by
  refine ⟨(newTable 0 "t".toList (1, 1)).1, (tableSetCell (0, 0) doubled (newTable 0 "t".toList (1, 1)).1).1,
    (load "all" (32, 32) (stored (tableSetCell (0, 0) doubled (newTable 0 "t".toList (1, 1)).1).1.node
      (tableSetCell (0, 0) doubled (newTable 0 "t".toList (1, 1)).1).1.kids
      (tableSetCell (0, 0) doubled (newTable 0 "t".toList (1, 1)).1).1.fresh)).1, ?_, ?_, ?_, ?_, ?_⟩
  all_goals decide +kernel

/-! ## A table that is opened, changed, written and read -/

theorem sample_tidy : Tidy sample.kids := by
  have alone : ∀ {e : Elem}, e.get "table:number-rows-repeated" = none ∧
      e.get "table:number-columns-repeated" = none → Alone e := fun h => ⟨stored_none h.1, stored_none h.2⟩
  have h1 : ∀ t ∈ nodes (others sample.kids), t.1.get "table:number-rows-repeated" = none ∧
      t.1.get "table:number-columns-repeated" = none := by decide +kernel
  have h2 : ∀ r ∈ docRows sample.kids, r.1.get "table:number-columns-repeated" = none ∧
      ∀ c ∈ cells r, c.1.get "table:number-rows-repeated" = none ∧ ∀ t ∈ nodes c.2,
        t.1.get "table:number-rows-repeated" = none ∧ t.1.get "table:number-columns-repeated" = none := by
    decide +kernel
  have h3 : ∀ c ∈ docCols sample.kids, c.1.get "table:number-rows-repeated" = none ∧ ∀ t ∈ nodes c.2,
      t.1.get "table:number-rows-repeated" = none ∧ t.1.get "table:number-columns-repeated" = none := by
    decide +kernel
  exact ⟨fun t ht => alone (h1 t ht), fun r hr => ⟨stored_none (h2 r hr).1, fun c hc =>
    ⟨stored_none ((h2 r hr).2 c hc).1, fun t ht => alone (((h2 r hr).2 c hc).2 t ht)⟩⟩,
    fun c hc => ⟨stored_none (h3 c hc).1, fun t ht => alone ((h3 c hc).2 t ht)⟩⟩

/-- The table `sample`, opened with `all`, with a row inserted. -/
def lived : TState := (run (.insertRows 1 1) (load "all" (32, 32) sample).1).1

theorem sameElem_id (e : Elem) (i : Nat) : SameElem e { e with id := i } := ⟨rfl, rfl, rfl, rfl⟩

theorem lived_life : Life lived :=
  .call (.insertRows 1 1) (.opened (strategy := "all") (mx := (32, 32)) (by simp) (by decide) sample_stored
    sample_tidy (by decide +kernel)) trivial (by decide +kernel) trivial

/-- Written and read with another strategy: still 4 rows and 3 columns.  (The first file shows 3
rows and 2 columns with that strategy.) -/
example : ∃ c, load "all_but_last" (32, 32) (stored { lived.node with id := 100 } lived.kids lived.fresh) = (c, .ok ()) ∧
    nrows c = 4 ∧ ncols c = 3 ∧ Life c := by
  have hi := lived_life.sound.1
  have hn := sameElem_id lived.node 100
  have hk : SameContent lived.kids lived.kids := sameContent_of_erase rfl
  obtain ⟨c, h1, _, _, _, h2, h3, _⟩ := C62_reread lived_life (strategy := "all_but_last") (by simp)
    (mx := (32, 32)) (by decide) hn hk hi.wf.nodup hi.wf.lt
  refine ⟨c, h1, ?_, ?_, .again lived_life (by simp) (by decide) hn hk hi.wf.nodup hi.wf.lt h1⟩
  · rw [h2]; decide +kernel
  · rw [h3]; decide +kernel

end Verif.Tbl
