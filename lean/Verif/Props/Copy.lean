import Verif.Proofs.Plain
import Verif.Props.Normalizer
/-!
# Property C21: copies of tables
-/
set_option linter.unusedSimpArgs false
namespace Verif.Tbl
open Verif Verif.Forest Verif.Cells Verif.TSpec

theorem sameContent_of_erase : ∀ {F G : Forest}, erase F = erase G → SameContent F G := by
  intro F
  induction F with
  | nil =>
    intro G h
    cases G with
    | nil => exact .nil
    | cons e k r => simp [erase] at h
  | cons e k r ihk ihr =>
    intro G h
    cases G with
    | nil => simp [erase] at h
    | cons e' k' r' =>
      simp only [erase, Forest.cons.injEq] at h
      refine .cons ?_ (ihk h.2.1) (ihr h.2.2)
      have h1 := h.1
      have a := congrArg Elem.tag h1
      have b := congrArg Elem.attrs h1
      have c := congrArg Elem.text h1
      have d := congrArg Elem.tail h1
      exact ⟨a.symm, b.symm, c.symm, d.symm⟩

theorem erase_of_sameContent {F G : Forest} (h : SameContent F G) : erase F = erase G := by
  induction h with
  | nil => rfl
  | @cons e e' k k' r r' he _ _ ihk ihr =>
    obtain ⟨i, t, a, x, y⟩ := e
    obtain ⟨i', t', a', x', y'⟩ := e'
    simp only at he
    obtain ⟨rfl, rfl, rfl, rfl⟩ := he
    simp [erase, ihk, ihr]

/-- No row, cell or column of the table is stored with a repetition, all rows have the same
number of cells. -/
structure Expanded (s : TState) : Prop where
  rows : ∀ r ∈ docRows s.kids, Stored "table:number-rows-repeated" r.1 1 ∧
    ∀ c ∈ cells r, Stored "table:number-columns-repeated" c.1 1
  cols : ∀ c ∈ docCols s.kids, Stored "table:number-columns-repeated" c.1 1
  rect : ∀ a ∈ docRows s.kids, ∀ b ∈ docRows s.kids, (cells a).length = (cells b).length

/-- All elements of a table, the table element itself included. -/
def allIds (s : TState) : List Nat := s.node.id :: ids s.kids

/-- No common element. -/
def Apart (a b : TState) : Prop := ∀ i ∈ allIds a, i ∉ allIds b

theorem isRow_id (e : Elem) : isRow { e with id := 0 } = isRow e := rfl
theorem isCol_id (e : Elem) : isCol { e with id := 0 } = isCol e := rfl

theorem wf_clone {F : Forest} {n : Nat} (hflat : ∀ t ∈ sel isRC F, sel isRC t.2 = []) :
    WF (clone n F).1 (clone n F).2 := by
  obtain ⟨_, h2, h3, h4⟩ := clone_spec F n
  refine ⟨h3, fun i hi => (h4 i hi).2, fun t ht => ?_⟩
  have h5 := sel_erase isRC isRC_id (clone n F).1
  rw [h2, sel_erase isRC isRC_id] at h5
  have : content t ∈ (sel isRC (clone n F).1).map content := List.mem_map_of_mem ht
  rw [← h5] at this
  obtain ⟨u, hu, he⟩ := List.mem_map.mp this
  have he2 : erase u.2 = erase t.2 := congrArg Prod.snd he
  exact sel_nil_of_erase isRC_id he2.symm (hflat u hu)

theorem one_of_stored {key : String} {e : Elem} (h : Stored key e 1) : repeatCount key e = .ok 1 := by
  have := stored_count h
  simpa using this

theorem stored_of_one {key : String} {e : Elem} (he : repeatCount key e = .ok 1) : Stored key e 1 := by
  unfold repeatCount at he
  cases hg : e.get key with
  | none => exact ⟨Nat.le_refl _, .inl ⟨hg, rfl⟩⟩
  | some v =>
    rw [hg] at he
    simp only at he
    cases hp : pyInt v with
    | none => rw [hp] at he; cases he
    | some k =>
      rw [hp] at he
      simp only at he
      injection he with he
      subst he
      exact ⟨Nat.le_refl _, .inr ⟨v, hg, hp⟩⟩

theorem strip_head {s : Str} {c : Char} {r : Str} (h : s = c :: r) (hc : isPySpace c = false) :
    pyStrip s ≠ [] := by
  subst h
  intro h
  unfold pyStrip at h
  simp [hc] at h
  have h1 : ∀ (l : Str), List.dropWhile isPySpace (l ++ [c]) ≠ [] := by
    intro l
    induction l with
    | nil => simp [hc]
    | cons x l ih =>
      simp only [List.cons_append, List.dropWhile_cons]
      split
      · exact ih
      · simp
  exact h1 _ h

theorem copyOf_valid (m : Str) : normalizeName ("CopyOf".toList ++ m) ≠ [] := by
  unfold normalizeName
  refine strip_head (c := 'C') (r := ?_) ?_ (by decide)
  · exact ("opyOf".toList ++ m).map fun c => if c = '\t' ∨ c = '\r' ∨ c = '\'' ∨ c = '"' then ' ' else c
  · simp

/-- The name a copy gets. -/
def copyName (newname : Option Str) (s : TState) : Option Str :=
  match newname with
  | some n => some n
  | none => (name s).map ("CopyOf".toList ++ ·)

/-- The copy as a state: same content, all elements new. -/
def copied (s : TState) (nm : Str) : TState :=
  { node := { s.node with id := s.fresh }.set "table:name" nm, kids := (clone (s.fresh + 1) s.kids).1,
    rows := (sel isRow (clone (s.fresh + 1) s.kids).1).map fun t => t.1.id,
    cols := (sel isCol (clone (s.fresh + 1) s.kids).1).map fun t => t.1.id,
    fresh := (clone (s.fresh + 1) s.kids).2 }

theorem copy_core {strategy : String} (hname : strategy ∈ ["all", "all_but_last", "all_less_maxcount"])
    {mx : Int × Int} (hm : 1 < mx.1 ∧ 1 < mx.2) {s : TState} (ht : s.node.tag = "table:table")
    (hi : Inv s) (he : Expanded s) {newname : Option Str} {nm : Str}
    (hn : copyName newname s = some nm) (hv : normalizeName nm ≠ []) :
    copyTable strategy mx newname s = .ok (copied s (normalizeName nm)) := by
  obtain ⟨st, hst⟩ : ∃ st, strategyOf strategy = some st := by
    simp only [List.mem_cons, List.not_mem_nil, or_false] at hname
    rcases hname with rfl | rfl | rfl
    · exact ⟨.all, rfl⟩
    · exact ⟨.allButLast, rfl⟩
    · exact ⟨.lessMax, rfl⟩
  obtain ⟨c1, c2, c3, c4⟩ := clone_spec s.kids (s.fresh + 1)
  let c : TState :=
  { node := ⟨s.fresh, s.node.tag, s.node.attrs, s.node.text, s.node.tail⟩, kids := (clone (s.fresh + 1) s.kids).1,
    rows := (sel isRow (clone (s.fresh + 1) s.kids).1).map fun t => t.1.id,
    cols := (sel isCol (clone (s.fresh + 1) s.kids).1).map fun t => t.1.id,
    fresh := (clone (s.fresh + 1) s.kids).2 }
  have hci : Inv c := ⟨wf_clone hi.wf.flat, rfl, rfl⟩
  have rowsE : (rowsOf c).map content = (rowsOf s).map content := by
    unfold rowsOf
    rw [← sel_erase isRow isRow_id, ← sel_erase isRow isRow_id, c2]
  have colsE : (colsOf c).map content = (colsOf s).map content := by
    unfold colsOf
    rw [← sel_erase isCol isCol_id, ← sel_erase isCol isCol_id, c2]
  have hsr := he.rows
  have hsc := he.cols
  have hrect := he.rect
  rw [← rowsOf_doc] at hsr hrect
  rw [← colsOf_doc] at hsc
  have back : ∀ t ∈ rowsOf c, ∃ u ∈ rowsOf s, content u = content t := by
    intro t ht
    have : content t ∈ (rowsOf c).map content := List.mem_map_of_mem ht
    rw [rowsE] at this
    exact List.mem_map.mp this
  have kidsEq : ∀ {t u : Tree}, content u = content t → t.2.toList.map content = u.2.toList.map content := by
    intro t u h
    have h2 : erase u.2 = erase t.2 := congrArg Prod.snd h
    rw [← erase_toList, ← erase_toList, h2]
  have hs1 : Single c := by
    refine ⟨fun t ht => ?_, fun t ht => ?_⟩
    · obtain ⟨u, hu, hut⟩ := back t ht
      obtain ⟨a, b⟩ := hsr u hu
      refine ⟨?_, fun x hx => ?_⟩
      · rw [← repeatCount_content, ← hut, repeatCount_content]
        exact one_of_stored a
      · have h2 : content x ∈ t.2.toList.map content := List.mem_map_of_mem hx
        rw [kidsEq hut] at h2
        obtain ⟨y, hy, hyx⟩ := List.mem_map.mp h2
        rw [← repeatCount_content, ← hyx, repeatCount_content]
        exact one_of_stored (b y hy)
    · have : content t ∈ (colsOf c).map content := List.mem_map_of_mem ht
      rw [colsE] at this
      obtain ⟨u, hu, hut⟩ := List.mem_map.mp this
      rw [← repeatCount_content, ← hut, repeatCount_content]
      exact one_of_stored (hsc u hu)
  have hr : ∃ w, Rect w (rowsOf c) := by
    have lens : ∀ t ∈ rowsOf c, ∃ u ∈ rowsOf s, t.2.length = (cells u).length := by
      intro t ht
      obtain ⟨u, hu, hut⟩ := back t ht
      refine ⟨u, hu, ?_⟩
      have := congrArg List.length (kidsEq hut)
      simpa [cells] using this
    cases hrs : rowsOf s with
    | nil =>
      refine ⟨0, fun t ht => ?_⟩
      obtain ⟨u, hu, _⟩ := lens t ht
      rw [hrs] at hu; simp at hu
    | cons a l =>
      refine ⟨(cells a).length, fun t ht => ?_⟩
      obtain ⟨u, hu, h⟩ := lens t ht
      rw [h]
      exact hrect u hu a (by rw [hrs]; simp)
  obtain ⟨w, hw⟩ := hr
  have hcl : cloneTable s = { c with rows := [], cols := [] } := rfl
  have hload : load strategy mx (cloneTable s) = (c, .ok ()) := by
    rw [hcl]
    exact load_again hst hm (s := c) ht hci hs1 hw [] []
  unfold copyTable
  rw [hload]
  simp only
  have hset : setName (some nm) c = (copied s (normalizeName nm), .ok ()) := by
    unfold setName
    simp only
    rw [if_neg (by simpa using hv)]
    rfl
  unfold copyName at hn
  cases newname with
  | some n =>
    cases hn
    simp only [hset]
  | none =>
    simp only at hn
    cases hnm : name s with
    | none => rw [hnm] at hn; cases hn
    | some m =>
      rw [hnm] at hn
      cases hn
      simp only [hset]

theorem copied_inv {s : TState} (hi : Inv s) (nm : Str) : Inv (copied s nm) :=
  ⟨wf_clone hi.wf.flat, rfl, rfl⟩

theorem copied_apart {s : TState} (hi : Inv s) (hid : s.node.id < s.fresh) (nm : Str) :
    Apart s (copied s nm) := by
  obtain ⟨_, _, _, c4⟩ := clone_spec s.kids (s.fresh + 1)
  intro i h1 h2
  have a : i < s.fresh := by
    rcases List.mem_cons.mp h1 with rfl | h
    · exact hid
    · exact hi.wf.lt i h
  rcases List.mem_cons.mp h2 with h | h
  · have : i = s.fresh := h
    omega
  · have := (c4 i h).1
    omega

/-- **C21** (equal): the copy of a table without stored repetitions is a table with the same elements,
attributes and texts (all but its name), whose bookkeeping is in order and which shares no element
with the original.  `newname` is a valid name or left out for a table with a name. -/
theorem C21_same {strategy : String} (hname : strategy ∈ ["all", "all_but_last", "all_less_maxcount"])
    {mx : Int × Int} (hm : 1 < mx.1 ∧ 1 < mx.2) {s : TState} (ht : s.node.tag = "table:table")
    (hi : Inv s) (hid : s.node.id < s.fresh) (he : Expanded s) {newname : Option Str}
    (hn : (∃ n, newname = some n ∧ normalizeName n ≠ []) ∨ (newname = none ∧ name s ≠ none)) :
    ∃ c, copyTable strategy mx newname s = .ok c ∧ SameContent s.kids c.kids ∧
      c.node.tag = s.node.tag ∧ c.node.text = s.node.text ∧
      (∀ k, k ≠ "table:name" → c.node.get k = s.node.get k) ∧
      name c = (copyName newname s).map normalizeName ∧
      Shows c ∧ Apart s c ∧ (Inv c ∧ s.fresh ≤ c.fresh ∧ ∀ i ∈ allIds c, s.fresh ≤ i ∧ i < c.fresh) := by
  obtain ⟨nm, h1, h2⟩ : ∃ nm, copyName newname s = some nm ∧ normalizeName nm ≠ [] := by
    rcases hn with ⟨n, rfl, hv⟩ | ⟨rfl, hv⟩
    · exact ⟨n, rfl, hv⟩
    · cases hnm : name s with
      | none => exact absurd hnm hv
      | some m => exact ⟨"CopyOf".toList ++ m, by simp [copyName, hnm], copyOf_valid m⟩
  obtain ⟨c1, c2, c3, c4⟩ := clone_spec s.kids (s.fresh + 1)
  refine ⟨_, copy_core hname hm ht hi he h1 h2, sameContent_of_erase c2.symm, rfl, rfl, ?_, ?_,
    shows_of_inv (copied_inv hi _), copied_apart hi hid _, copied_inv hi _, ?_, ?_⟩
  · intro k hk
    show ({ s.node with id := s.fresh }.set "table:name" _).get k = _
    rw [Elem.get_set, if_neg hk]; rfl
  · show ({ s.node with id := s.fresh }.set "table:name" _).get "table:name" = _
    rw [Elem.get_set, if_pos rfl, h1]; rfl
  · show s.fresh ≤ (clone (s.fresh + 1) s.kids).2
    omega
  · intro i h
    show s.fresh ≤ i ∧ i < (clone (s.fresh + 1) s.kids).2
    rcases List.mem_cons.mp h with h | h
    · have : i = s.fresh := h
      omega
    · have := c4 i h
      omega

theorem sameContent_nodes {F G : Forest} (h : SameContent F G) :
    (nodes F).map content = (nodes G).map content := by
  induction h with
  | nil => rfl
  | @cons e e' k k' r r' he hk hr ihk ihr =>
    simp only [nodes, List.map_cons, List.map_append, ihk, ihr, content, erase_of_sameContent hk]
    obtain ⟨i, t, a, x, y⟩ := e
    obtain ⟨i', t', a', x', y'⟩ := e'
    simp only at he
    obtain ⟨rfl, rfl, rfl, rfl⟩ := he
    rfl

theorem sameContent_filter {F G : Forest} (h : SameContent F G) (tag : String) :
    ((nodes F).filter fun t => t.1.tag = tag).map content =
      ((nodes G).filter fun t => t.1.tag = tag).map content := by
  have h1 := congrArg (List.filter fun t => decide (t.1.tag = tag)) (sameContent_nodes h)
  rw [List.filter_map, List.filter_map] at h1
  exact h1

/-- **C21** (equal, through the API): `nrows`, `ncols` and the number of columns are the same, and
`get_cell` gives cells with the same content at every position, negative indices included. -/
theorem C21_cells {s c : TState} (hi : Inv s) (hc : Inv c) (hs : SameContent s.kids c.kids)
    (hrect : ∀ a ∈ docRows s.kids, ∀ b ∈ docRows s.kids, (cells a).length = (cells b).length) :
    nrows c = nrows s ∧ ncols c = ncols s ∧ c.cols.length = s.cols.length ∧
    ∀ pos i j, Denotes (nrows s) pos.1 i → Denotes (ncols s) pos.2 j →
      ∃ t t', getCell s pos = .ok t ∧ getCell c pos = .ok t' ∧
        SameContent (.cons t.1 t.2 .nil) (.cons t'.1 t'.2 .nil) := by
  have rowsE : (docRows s.kids).map content = (docRows c.kids).map content :=
    sameContent_filter hs _
  have colsE : (docCols s.kids).map content = (docCols c.kids).map content :=
    sameContent_filter hs _
  have lenR : (docRows c.kids).length = (docRows s.kids).length := by
    have := congrArg List.length rowsE
    simpa using this.symm
  have hn : nrows c = nrows s := by
    rw [(shows_of_inv hi).nrows, (shows_of_inv hc).nrows, lenR]
  have lens : ∀ {t u : Tree}, content t = content u → (cells t).map content = (cells u).map content := by
    intro t u h
    have h2 : erase t.2 = erase u.2 := congrArg Prod.snd h
    rw [cells, cells, ← erase_toList, ← erase_toList, h2]
  have rs := C09_rectangular hi hrect (.refl s)
  have rc0 : ∀ a ∈ docRows c.kids, ∀ b ∈ docRows c.kids, (cells a).length = (cells b).length := by
    have back : ∀ t ∈ docRows c.kids, ∃ u ∈ docRows s.kids, (cells t).length = (cells u).length := by
      intro t ht
      have : content t ∈ (docRows c.kids).map content := List.mem_map_of_mem ht
      rw [← rowsE] at this
      obtain ⟨u, hu, hut⟩ := List.mem_map.mp this
      have := congrArg List.length (lens hut)
      simp only [List.length_map] at this
      exact ⟨u, hu, this.symm⟩
    intro a ha b hb
    obtain ⟨u, hu, h1⟩ := back a ha
    obtain ⟨v, hv, h2⟩ := back b hb
    rw [h1, h2]; exact hrect u hu v hv
  have rc := C09_rectangular hc rc0 (.refl c)
  have hnc : ncols c = ncols s := by
    cases hr : docRows s.kids with
    | nil =>
      have h1 : s.rows = [] := by
        rw [hi.rows]
        have := rowsOf_doc s
        rw [hr] at this; rw [this]; rfl
      have h2 : c.rows = [] := by
        rw [hc.rows, rowsOf_doc c]
        rw [hr] at lenR
        rw [List.eq_nil_of_length_eq_zero lenR]; rfl
      unfold ncols
      rw [h1, h2]
    | cons a l =>
      rw [hr] at rowsE
      cases hrc : docRows c.kids with
      | nil => rw [hrc] at rowsE; simp at rowsE
      | cons b m =>
        rw [hrc] at rowsE
        simp only [List.map_cons, List.cons.injEq] at rowsE
        have h1 := congrArg List.length (lens rowsE.1)
        simp only [List.length_map] at h1
        rw [← rs.1 a (by rw [hr]; simp), ← rc.1 b (by rw [hrc]; simp), h1]
  refine ⟨hn, hnc, ?_, ?_⟩
  · rw [(shows_of_inv hi).ncols, (shows_of_inv hc).ncols]
    have := congrArg List.length colsE
    simpa using this.symm
  · intro pos i j h1 h2
    obtain ⟨t, a1, a2⟩ := getCell_doc hi rs.1 (by rw [← rs.2]; exact h1) h2
    obtain ⟨t', b1, b2⟩ := getCell_doc hc rc.1 (by rw [← rc.2, hn]; exact h1) (by rw [hnc]; exact h2)
    refine ⟨t, t', a2, b2, ?_⟩
    unfold docCell at a1 b1
    obtain ⟨r, r1, r2⟩ := Option.bind_eq_some_iff.mp a1
    obtain ⟨q, q1, q2⟩ := Option.bind_eq_some_iff.mp b1
    have e1 := congrArg (fun l => l[i]?) rowsE
    simp only [List.getElem?_map, r1, q1, Option.map_some, Option.some.injEq] at e1
    have e2 := congrArg (fun l => l[j]?) (lens e1)
    simp only [List.getElem?_map, r2, q2, Option.map_some, Option.some.injEq] at e2
    apply sameContent_of_erase
    simp only [erase, Forest.cons.injEq]
    exact ⟨congrArg Prod.fst e2, congrArg Prod.snd e2, trivial⟩

/-! ## Independence -/

/-- Histories of two tables that draw new elements from one supply: a call on one of them (with a cell
that is in neither table), or an in-place change of an element of one of them (a cell value, an
attribute, content added through a wrapper) that brings in new elements only. -/
inductive Both : TState × TState → TState × TState → Prop
  | refl (p) : Both p p
  | left {p a b} (op : Op) (h : Both p (a, b)) (hg : ∀ i ∈ op.given, i ∉ allIds b) :
      Both p ((run op a).1, { b with fresh := max b.fresh (run op a).1.fresh })
  | right {p a b} (op : Op) (h : Both p (a, b)) (hg : ∀ i ∈ op.given, i ∉ allIds a) :
      Both p ({ a with fresh := max a.fresh (run op b).1.fresh }, (run op b).1)
  | editLeft {p a b} (j : Nat) (f : Elem → Forest → Forest) (n : Nat) (h : Both p (a, b))
      (hf : ∀ e k, ∀ i ∈ ids (f e k), i ∈ e.id :: ids k ∨ a.fresh ≤ i ∧ i < n) :
      Both p ({ a with kids := subst j f a.kids, fresh := max a.fresh n },
        { b with fresh := max b.fresh n })
  | editRight {p a b} (j : Nat) (f : Elem → Forest → Forest) (n : Nat) (h : Both p (a, b))
      (hf : ∀ e k, ∀ i ∈ ids (f e k), i ∈ e.id :: ids k ∨ b.fresh ≤ i ∧ i < n) :
      Both p ({ a with fresh := max a.fresh n },
        { b with kids := subst j f b.kids, fresh := max b.fresh n })

/-- The supply is past every element of both tables. -/
structure Supply (a b : TState) : Prop where
  same : a.fresh = b.fresh
  left : ∀ i ∈ allIds a, i < a.fresh
  right : ∀ i ∈ allIds b, i < a.fresh

theorem Apart.symm {a b : TState} (h : Apart a b) : Apart b a := fun i h1 h2 => h i h2 h1

/-- One side changes, the other only gets the new supply. -/
theorem step_apart {a b a' : TState} {X : List Nat} (hs : Supply a b) (ha : Apart a b)
    (hg : Grow X a a') (hX : ∀ i ∈ X, i ∉ allIds b) (n : Nat) (hn : n = a'.fresh) :
    Supply a' { b with fresh := max b.fresh n } ∧ Apart a' { b with fresh := max b.fresh n } := by
  have h1 := hg.le
  have h2 := hs.same
  have key : ∀ i ∈ allIds a', i < a'.fresh ∧ i ∉ allIds b := by
    intro i hi
    rcases List.mem_cons.mp hi with h | h
    · rw [hg.node] at h
      have h3 := hs.left i (by simp [allIds, h])
      exact ⟨by omega, ha i (by simp [allIds, h])⟩
    · rcases hg.ids i h with h3 | h3 | h3
      · have h4 := hs.left i (by simp [allIds, h3])
        exact ⟨by omega, ha i (by simp [allIds, h3])⟩
      · refine ⟨h3.2, fun h5 => ?_⟩
        have := hs.right i h5
        omega
      · exact ⟨h3.2, hX i h3.1⟩
  refine ⟨⟨?_, fun i hi => (key i hi).1, fun i hi => ?_⟩, fun i hi => (key i hi).2⟩
  · show a'.fresh = max b.fresh n
    omega
  · have := hs.right i hi
    omega

theorem edit_grow {a : TState} {j : Nat} {f : Elem → Forest → Forest} {n : Nat}
    (hf : ∀ e k, ∀ i ∈ ids (f e k), i ∈ e.id :: ids k ∨ a.fresh ≤ i ∧ i < n) :
    Grow [] a { a with kids := subst j f a.kids, fresh := max a.fresh n } := by
  refine grow_subst rfl (Nat.le_max_left _ _) rfl ?_
  intro e k i hi
  rcases hf e k i hi with h | h
  · exact .inl h
  · refine .inr (.inl ⟨h.1, ?_⟩)
    show i < max a.fresh n
    omega

theorem Supply.symm {a b : TState} (h : Supply a b) : Supply b a :=
  ⟨h.same.symm, fun i hi => by rw [← h.same]; exact h.right i hi,
    fun i hi => by rw [← h.same]; exact h.left i hi⟩

theorem both_apart {p q : TState × TState} (h : Both p q) (hs : Supply p.1 p.2) (ha : Apart p.1 p.2) :
    Supply q.1 q.2 ∧ Apart q.1 q.2 := by
  induction h with
  | refl => exact ⟨hs, ha⟩
  | @left a b op _ hg ih =>
    obtain ⟨h1, h2⟩ := ih
    exact step_apart h1 h2 (run_grow op a) hg _ rfl
  | @right a b op _ hg ih =>
    obtain ⟨h1, h2⟩ := ih
    obtain ⟨h3, h4⟩ := step_apart h1.symm h2.symm (run_grow op b) hg _ rfl
    exact ⟨h3.symm, h4.symm⟩
  | @editLeft a b j f n _ hf ih =>
    obtain ⟨h1, h2⟩ := ih
    have h3 := step_apart h1 h2 (edit_grow (j := j) hf) (by simp) _ rfl
    have : max b.fresh (max a.fresh n) = max b.fresh n := by
      have := h1.same; simp only at this; omega
    simpa only [this] using h3
  | @editRight a b j f n _ hf ih =>
    obtain ⟨h1, h2⟩ := ih
    have h3 := step_apart h1.symm h2.symm (edit_grow (j := j) hf) (by simp) _ rfl
    have : max a.fresh (max b.fresh n) = max a.fresh n := by
      have := h1.same; simp only at this; omega
    simp only [this] at h3
    exact ⟨h3.1.symm, h3.2.symm⟩

/-- **C21** (independent): after copying, through all interleaved histories of calls and in-place changes
of both tables, the two never share an element: whatever is done to an element of one of them,
the other stays as it is. -/
theorem C21_independent {strategy : String}
    (hname : strategy ∈ ["all", "all_but_last", "all_less_maxcount"])
    {mx : Int × Int} (hm : 1 < mx.1 ∧ 1 < mx.2) {s c : TState} (ht : s.node.tag = "table:table")
    (hi : Inv s) (hid : s.node.id < s.fresh) (he : Expanded s) {newname : Option Str}
    (hn : (∃ n, newname = some n ∧ normalizeName n ≠ []) ∨ (newname = none ∧ name s ≠ none))
    (hc : copyTable strategy mx newname s = .ok c) {a b : TState}
    (hist : Both ({ s with fresh := c.fresh }, c) (a, b)) :
    Apart a b ∧
    (∀ i ∈ allIds a, ∀ f, subst i f b.kids = b.kids ∧ b.node.id ≠ i) ∧
    (∀ i ∈ allIds b, ∀ f, subst i f a.kids = a.kids ∧ a.node.id ≠ i) := by
  obtain ⟨c', h1, _, _, _, _, _, _, h2, _, h3, h4⟩ := C21_same hname hm ht hi hid he hn
  rw [hc] at h1
  have : c = c' := by injection h1
  subst this
  have hsup : Supply { s with fresh := c.fresh } c := by
    refine ⟨rfl, fun i hi' => ?_, fun i hi' => (h4 i hi').2⟩
    have : i < s.fresh := by
      rcases List.mem_cons.mp hi' with h | h
      · rw [h]; exact hid
      · exact hi.wf.lt i h
    show i < c.fresh
    omega
  obtain ⟨_, h6⟩ := both_apart hist hsup h2
  refine ⟨h6, fun i hi' f => ?_, fun i hi' f => ?_⟩
  · have := h6 i hi'
    simp only [allIds, List.mem_cons, not_or] at this
    exact ⟨subst_not_mem f this.2, fun h => this.1 h.symm⟩
  · have := h6.symm i hi'
    simp only [allIds, List.mem_cons, not_or] at this
    exact ⟨subst_not_mem f this.2, fun h => this.1 h.symm⟩

/-! ## Tables that are reached -/

/-- Histories of successful calls in which no given cell carries a repetition count. -/
inductive CleanHist : TState → TState → Prop
  | refl (s) : CleanHist s s
  | call {s s'} (op : Op) (hf : Fine op s') (hok : (run op s').2 = .ok ()) (hg : op.Given Once)
      (h : CleanHist s s') : CleanHist s (run op s').1

theorem CleanHist.ok {s s' : TState} (h : CleanHist s s') : OkHist s s' := by
  induction h with
  | refl => exact .refl _
  | call op hf hok _ _ ih => exact .call op hf hok ih

theorem CleanHist.once {s s' : TState} (h : CleanHist s s') (hs : AllE Once s.kids) :
    AllE Once s'.kids := by
  induction h with
  | refl => exact hs
  | call op _ _ hg _ ih => exact run_keep once_cellProp op hg _ ih

theorem CleanHist.node {s s' : TState} (h : CleanHist s s') :
    s'.node.id = s.node.id ∧ s.fresh ≤ s'.fresh := by
  induction h with
  | refl => exact ⟨rfl, Nat.le_refl _⟩
  | @call s' op _ _ _ _ ih =>
    have := run_grow op s'
    exact ⟨this.node.trans ih.1, Nat.le_trans ih.2 this.le⟩

theorem expanded_of_once {s s' : TState} (hi : Inv s) (ho : AllE Once s.kids)
    (hr : ∀ a ∈ docRows s.kids, ∀ b ∈ docRows s.kids, (cells a).length = (cells b).length)
    (h : CleanHist s s') : Expanded s' := by
  have h1 := single_of_once (h.once ho)
  have h2 := (C09_rectangular hi hr h.ok).1
  refine ⟨fun r hr => ?_, fun c hc => ?_, fun a ha b hb => by rw [h2 a ha, h2 b hb]⟩
  · rw [← rowsOf_doc] at hr
    obtain ⟨a, b⟩ := h1.1 r hr
    exact ⟨stored_of_one a, fun c hc => stored_of_one (b c hc)⟩
  · rw [← colsOf_doc] at hc
    exact stored_of_one (h1.2 c hc)

/-- **C21** (reached tables): a table made with `Table(name, size)` satisfies the conditions of `C21_same`
after every history of successful calls, as long as no cell with a repetition count is put in. -/
theorem C21_created {id : Nat} {nm : Str} {size : Int × Int} {s s' : TState}
    (hc : newTable id nm size = (s, .ok ())) (h : CleanHist s s') :
    Inv s' ∧ Expanded s' ∧ s'.node.id < s'.fresh := by
  have hin := created_inStep id hc
  let s0 : TState := { node := { id := id, tag := "table:table" }, kids := .nil, rows := [], cols := [], fresh := id + 1 }
  have hm : KeepP Once (do setName (some nm); cellsReset size; colsReset size.2 : Py TState Unit) :=
    keepP_bind (setName_keep _) fun _ => keepP_bind (cellsReset_keep once_cellProp _)
      fun _ => colsReset_keep once_cellProp _
  have hg : GrowP [] (do setName (some nm); cellsReset size; colsReset size.2 : Py TState Unit) :=
    growP_bind (setName_grow _ _) fun _ => growP_bind (cellsReset_grow _ _)
      fun _ => colsReset_grow _ _
  have hs : s = (newTable id nm size).1 := by rw [hc]
  have ho : AllE Once s.kids := by rw [hs]; exact hm s0 trivial
  have hgr : Grow [] s0 s := by rw [hs]; exact hg s0
  refine ⟨hist_inv hin.inv h.ok.hist, expanded_of_once hin.inv ho ?_ h, ?_⟩
  · intro a ha b hb
    rw [← rowsOf_doc] at ha hb
    simp only [cells, length_toList]
    rw [hin.rect a ha, hin.rect b hb]
  · obtain ⟨h1, h2⟩ := h.node
    have h3 := hgr.node
    have h4 := hgr.le
    have h5 : s0.node.id = id := rfl
    have h6 : s0.fresh = id + 1 := rfl
    omega

/-- **C21** (opened tables): a table fresh from opening satisfies the conditions of `C21_same`. -/
theorem C21_opened {name : String} (hname : name ∈ ["all", "all_but_last", "all_less_maxcount"])
    {mx : Int × Int} (hm : 1 < mx.1 ∧ 1 < mx.2) {s : TState} {nr nc : Elem → Nat}
    (h : StoredTable s nr nc) :
    ∃ s', load name mx s = (s', .ok ()) ∧ Inv s' ∧ Expanded s' := by
  obtain ⟨s', h1, h2, h3, h4, _⟩ := C17_idempotent hname hm h
  obtain ⟨st, hst⟩ : ∃ st, strategyOf name = some st := by
    simp only [List.mem_cons, List.not_mem_nil, or_false] at hname
    rcases hname with rfl | rfl | rfl
    · exact ⟨.all, rfl⟩
    · exact ⟨.allButLast, rfl⟩
    · exact ⟨.lessMax, rfl⟩
  obtain ⟨s'', e1, e2, _⟩ := load_core hst hm h
  have : s'' = s' := by rw [h1] at e1; exact (congrArg Prod.fst e1).symm
  subst this
  exact ⟨s'', h1, e2.inv, h2, h3, h4⟩

/-! ## Limits -/

/-- A cell that counts twice. -/
def doubled : Tree := ({ id := 50, tag := "table:table-cell", attrs := [("table:number-columns-repeated", "2".toList)] }, .nil)

/-- **C21** fails for tables into which a cell with a repetition count has been put: the copy is a
different table. -/
theorem C21_repeated_refuted : ∃ s s' c : TState, newTable 0 "t".toList (1, 1) = (s, .ok ()) ∧
    tableSetCell (0, 0) doubled s = (s', .ok ()) ∧
    copyTable "all" (32, 32) none s' = .ok c ∧ ncols s' = 1 ∧ ncols c = 2 := by
  refine ⟨(newTable 0 "t".toList (1, 1)).1, (tableSetCell (0, 0) doubled (newTable 0 "t".toList (1, 1)).1).1,
    (setName (some "CopyOft".toList) (load "all" (32, 32) (cloneTable
      (tableSetCell (0, 0) doubled (newTable 0 "t".toList (1, 1)).1).1)).1).1, ?_, ?_, ?_, ?_, ?_⟩
  all_goals decide +kernel

/-- **C21** fails for a table without a name: `copy()` raises a TypeError. -/
theorem C21_nameless_refuted : ∃ s : TState, Inv s ∧ Expanded s ∧ s.node.id < s.fresh ∧
    s.node.tag = "table:table" ∧
    copyTable "all" (32, 32) none s = .error .TypeError := by
  refine ⟨{ (newTable 0 "t".toList (1, 1)).1 with node := { id := 0, tag := "table:table" } }, ?_⟩
  have e : newTable 0 "t".toList (1, 1) = ((newTable 0 "t".toList (1, 1)).1, .ok ()) := by decide +kernel
  obtain ⟨h1, h2, h3⟩ := C21_created e (.refl _)
  exact ⟨⟨h1.wf, h1.rows, h1.cols⟩, ⟨h2.rows, h2.cols, h2.rect⟩, by decide +kernel, rfl, by decide +kernel⟩

/-! ## A copied table -/

/-- A 3 × 2 table with a changed cell, a span and an inserted column. -/
def copySource : TState :=
  (run (.insertColumns 1 1) (run (.setSpan (0, 0) (2, 2)) (run (.setCell (2, 1)
    ({ id := 50, tag := "table:table-cell", attrs := [("office:value", "7".toList)] },
      .cons { id := 51, tag := "text:p", text := some "7".toList } .nil .nil))
    (newTable 0 "t".toList (3, 2)).1).1).1).1

theorem copySource_reached : ∃ s, newTable 0 "t".toList (3, 2) = (s, .ok ()) ∧ CleanHist s copySource := by
  refine ⟨(newTable 0 "t".toList (3, 2)).1, by decide +kernel,
    .call (.insertColumns 1 1) trivial (by decide +kernel) trivial
    (.call (.setSpan (0, 0) (2, 2)) trivial (by decide +kernel) trivial
    (.call (.setCell (2, 1) _) ?_ (by decide +kernel) ?_ (.refl _)))⟩
  · exact ⟨by decide +kernel, by decide +kernel, by decide +kernel⟩
  · refine ⟨⟨rfl, rfl⟩, ⟨rfl, rfl⟩, trivial, trivial⟩

example : ∃ c, copyTable "all_less_maxcount" (32, 32) none copySource = .ok c ∧
    SameContent copySource.kids c.kids ∧ Apart copySource c ∧ name c = some "CopyOft".toList ∧
    nrows c = 3 ∧ ncols c = 3 := by
  obtain ⟨s, h1, h2⟩ := copySource_reached
  obtain ⟨i1, i2, i3⟩ := C21_created h1 h2
  obtain ⟨c, h3, h4, _, _, _, h5, _, h6, h7, _⟩ := C21_same (strategy := "all_less_maxcount") (by simp)
    (mx := (32, 32)) (by decide) (s := copySource) (by decide +kernel) i1 i3 i2 (newname := none)
    (.inr ⟨rfl, by decide +kernel⟩)
  obtain ⟨k1, k2, _⟩ := C21_cells i1 h7 h4 i2.rect
  refine ⟨c, h3, h4, h6, ?_, ?_, ?_⟩
  · rw [h5]; decide +kernel
  · rw [k1]; decide +kernel
  · rw [k2]; decide +kernel

/-- Rows are appended to the copy, the original is reset. -/
example : ∃ c a b, copyTable "all" (32, 32) (some "u".toList) copySource = .ok c ∧
    Both ({ copySource with fresh := c.fresh }, c) (a, b) ∧ nrows a = 1 ∧ nrows b = 5 ∧ Apart a b := by
  obtain ⟨s, h1, h2⟩ := copySource_reached
  obtain ⟨i1, i2, i3⟩ := C21_created h1 h2
  have hn : (∃ n, some "u".toList = some n ∧ normalizeName n ≠ []) ∨
      ((some "u".toList : Option Str) = none ∧ name copySource ≠ none) :=
    .inl ⟨_, rfl, by decide +kernel⟩
  have hc : copyTable "all" (32, 32) (some "u".toList) copySource =
      .ok (copied copySource "u".toList) :=
    copy_core (by simp) (by decide) (by decide +kernel) i1 i2 (newname := some "u".toList) rfl
      (by decide +kernel)
  have hist : Both ({ copySource with fresh := (copied copySource "u".toList).fresh },
      copied copySource "u".toList) _ :=
    .left (.reset (1, 1)) (.right (.appendRows 2) (.refl _) (by simp [Op.given])) (by simp [Op.given])
  refine ⟨_, _, _, hc, hist, by decide +kernel, by decide +kernel, ?_⟩
  exact (C21_independent (by simp) (by decide) (by decide +kernel) i1 i3 i2 hn hc hist).1

end Verif.Tbl
