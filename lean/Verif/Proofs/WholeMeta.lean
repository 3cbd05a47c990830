import Verif.Proofs.Whole
import Verif.Proofs.MetaAbs
/-! Helper lemmas for C69: the meta data. -/
namespace Verif.Whole
open Verif Verif.Lxml Forest
set_option linter.unusedSimpArgs false

/-! ## Trees as read -/

theorem noEmpty_idem (x : Option Str) : noEmpty (noEmpty x) = noEmpty x := by
  cases x with
  | none => rfl
  | some s => cases s <;> rfl

theorem erase_eq_map (F : Forest) : F.erase = F.map fun e => { e with id := 0 } := by
  induction F with
  | nil => rfl
  | cons e k r ihk ihr => simp [erase, map, ihk, ihr]

theorem map_map' (f g : Elem → Elem) (F : Forest) : (F.map f).map g = F.map fun e => g (f e) := by
  induction F with
  | nil => rfl
  | cons e k r ihk ihr => simp [map, ihk, ihr]

theorem shape_data (t : Tree) : shape (data t) = shape t := by
  unfold shape data
  rw [erase_eq_map, map_map']
  rfl

theorem shape_shape (t : Tree) : shape (shape t) = shape t := by
  unfold shape
  rw [map_map']
  have : (fun e => written (written e)) = written := by
    funext e; simp only [written, noEmpty_idem]
  rw [this]
  simp only [written, noEmpty_idem]

/-- A tree as read has the written form of the tree written. -/
theorem shape_of_data {t t' : Tree} (h : data t' = shape t) : shape t' = shape t := by
  rw [← shape_data t', h, shape_shape]

theorem data_kids {t : Tree} : (data t).2.toList = t.2.toList.map data := by
  unfold data
  rw [erase_eq_map, toList_map]
  simp only [erase_eq_map]

/-- Children of a tree as read. -/
theorem data_shape_kids {t t' : Tree} (h : data t' = shape t) :
    t'.2.toList.map data = t.2.toList.map shape := by
  have := congrArg (fun x : Tree => x.2.toList) h
  rw [data_kids] at this
  rw [this]
  exact toList_shape t.2

end Verif.Whole

namespace Verif.Meta
open Verif
set_option linter.unusedSimpArgs false

/-! ## The statistic element stays the first of its kind -/

/-- The identities of the statistic elements -/
def statIds (m : Meta) : List Nat := ids (findall "meta:document-statistic" m.kids)

/-- `count` refers to the first statistic element. -/
def First (m : Meta) : Prop := (statIds m).head? = some m.stats

/-- The name of the element and the statistic elements stay. -/
structure Same (m m' : Meta) : Prop where
  tag : m'.node.tag = m.node.tag
  stats : m'.stats = m.stats
  ids : statIds m' = statIds m

theorem Same.refl (m : Meta) : Same m m := ⟨rfl, rfl, rfl⟩
theorem Same.trans {a b c : Meta} (h : Same a b) (g : Same b c) : Same a c :=
  ⟨g.tag.trans h.tag, g.stats.trans h.stats, g.ids.trans h.ids⟩
theorem Same.first {m m' : Meta} (h : Same m m') (hf : First m) : First m' := by
  unfold First; rw [h.ids, h.stats]; exact hf

theorem same_frame {tag : String} {m m' : Meta} (h : Frame tag m m') (ht : tag ≠ "meta:document-statistic")
    (hn : m'.node.tag = m.node.tag) : Same m m' :=
  ⟨hn, h.stats, by unfold statIds; rw [h.other _ (Ne.symm ht)]⟩

theorem setitem_node (k : String) (v : Option Str) (m : Meta) : (setitem k v m).1.node = m.node := by
  unfold setitem
  split
  · rfl
  · split <;> rfl

theorem same_setitem {m : Meta} (h : WF m) (k : String) (v : Option Str) : Same m (setitem k v m).1 := by
  cases hk : TAGS.get k with
  | none => rw [setitem_unknown hk]; exact Same.refl m
  | some tag =>
    exact same_frame (frame_setitem h hk v) (TAGS_ne' hk).2.2 (by rw [setitem_node])

theorem wf_setitem {m : Meta} (h : WF m) (k : String) (v : Option Str) : WF (setitem k v m).1 :=
  (abs_set h k v).1

theorem same_touch {m : Meta} (h : WF m) (now gen : Str) :
    Same m (touch now gen m).1 ∧ WF (touch now gen m).1 := by
  rw [touch_eq]
  exact ⟨(same_setitem h _ _).trans (same_setitem (wf_setitem h _ _) _ _), wf_setitem (wf_setitem h _ _) _ _⟩

theorem same_save {m : Meta} (h : WF m) (now gen : Str) (r : Except Exc Unit) :
    Same m (save now gen r m).1 := by
  rw [save_eq]
  obtain ⟨h1, h2⟩ := same_touch h now gen
  dsimp only
  split
  · exact h1
  · rename_i hne
    rw [inc_eq, if_neg hne]
    exact h1.trans (same_setitem h2 _ _)

theorem same_edit (m : Meta) (i : Nat) {f : Tree → Tree} (hf : Keeps f) :
    Same m { m with kids := editNode i f m.kids } := by
  refine ⟨rfl, rfl, ?_⟩
  unfold statIds
  rw [findall_editNode hf, ids_editNode hf]

theorem userSet_node (n v : Str) (ty : Option Str) (m : Meta) : (userSet n v ty m).node = m.node := by
  unfold userSet
  split <;> rfl

theorem userUpdate_node (d : Dict Str Str) : ∀ m : Meta, (userUpdate d m).node = m.node := by
  induction d with
  | nil => intro m; rfl
  | cons p d ih =>
    intro m
    show (userUpdate d (userSet p.1 p.2 none m)).node = _
    rw [ih, userSet_node]

theorem same_statSet (k : String) (n : Int) (m : Meta) : Same m (statSet k n m).1 := by
  unfold statSet
  split
  · exact same_edit m _ (keeps_setAttr _ _)
  · exact Same.refl m

theorem same_statUpdate (d : Dict String Int) : ∀ m : Meta, Same m (statUpdate d m).1 := by
  induction d with
  | nil => intro m; exact Same.refl m
  | cons p d ih =>
    intro m
    obtain ⟨k, n⟩ := p
    unfold statUpdate
    have := same_statSet k n m
    split
    · rename_i he; rw [he] at this; exact this.trans (ih _)
    · rename_i he; rw [he] at this; exact this

theorem first_clear (m : Meta) : First (clear m) := by
  simp [First, statIds, clear, findall, ids]

/-- Every operation keeps the name of the element and the first statistic element. -/
theorem step_first {m : Meta} (h : WF m) (hf : First m) (o : Op) :
    First (step m o) ∧ (step m o).node.tag = m.node.tag := by
  have key : ∀ {m'}, Same m m' → First m' ∧ m'.node.tag = m.node.tag := fun s => ⟨s.first hf, s.tag⟩
  cases o with
  | set k v => exact key (same_setitem h k v)
  | clear => exact ⟨first_clear m, rfl⟩
  | save now gen r => exact key (same_save h now gen r)
  | kwAdd k =>
    refine key (same_frame (kwAdd_spec h k).1 (by decide) ?_)
    show (kwAdd k m).node.tag = _
    unfold kwAdd; split <;> rfl
  | kwRemove k =>
    refine key (same_frame (kwRemove_spec h k).1 (by decide) ?_)
    show (kwRemove k m).node.tag = _
    unfold kwRemove; split <;> rfl
  | kwClear => exact key (same_frame (kwClear_spec h).1 (by decide) rfl)
  | userSet n v ty => exact key (same_frame (userSet_spec h n v ty).1 (by decide) (congrArg Elem.tag (userSet_node n v ty m)))
  | userDel n =>
    refine key (same_frame (userDel_spec h n).1 (by decide) ?_)
    show (userDel n m).1.node.tag = _
    unfold userDel; split <;> rfl
  | userUpdate d => exact key (same_frame (userUpdate_spec h d).1 (by decide) (congrArg Elem.tag (userUpdate_node d m)))
  | userClear => exact key (same_frame (userClear_spec h).1 (by decide) rfl)
  | statSet k n => exact key (same_statSet k n m)
  | statUpdate d => exact key (same_statUpdate d m)
  | statClear => exact key (same_edit m _ fun _ => ⟨rfl, rfl⟩)

theorem run_first {m : Meta} (h : WF m) (hf : First m) (l : List Op) :
    First (run m l) ∧ (run m l).node.tag = m.node.tag := by
  induction l generalizing m with
  | nil => exact ⟨hf, rfl⟩
  | cons o l ih =>
    obtain ⟨h1, h2⟩ := step_first h hf o
    obtain ⟨h3, h4⟩ := ih (abs_step h o).1 h1
    exact ⟨h3, h4.trans h2⟩

theorem load_first (node : Elem) (kids : List Tree) (fresh : Nat) : First (load node kids fresh) := by
  unfold load
  cases hf : kids.find? fun t => decide (t.1.tag = "meta:document-statistic") with
  | some t =>
    dsimp only
    unfold First statIds
    rw [find_findall] at hf
    simp only [ids, List.head?_map, hf, Option.map_some]
  | none =>
    dsimp only
    unfold First statIds
    rw [find_findall, List.head?_eq_none_iff] at hf
    rw [findall_append]
    simp only [hf, ids]
    simp [append]

theorem load_node (node : Elem) (kids : List Tree) (fresh : Nat) : (load node kids fresh).node = node := by
  unfold load
  split <;> rfl


theorem wf_new (now now2 gen : Str) : WF (new now now2 gen) ∧ First (new now now2 gen) ∧
    (new now now2 gen).node.tag = "office:meta" := by
  unfold new
  refine ⟨load_wf _ _ _ ?_ ?_, load_first _ _ _, ?_⟩
  · rw [touch_eq]
    simp [setitem, TAGS, Dict.get, append, ids]
  · rw [touch_eq]
    simp [setitem, TAGS, Dict.get, append, ids]
  · rw [load_node, touch_eq]
    dsimp only
    rw [setitem_node, setitem_node, setitem_node]

end Verif.Meta

namespace Verif.Whole
open Verif Verif.Lxml Forest Verif.Meta
set_option linter.unusedSimpArgs false

/-! ## What the meta data say after reading -/

/-- What a file says of the meta data -/
def writtenAbs (a : Abs) : Abs where
  tag k := (a.tag k).map noEmpty
  keywords := a.keywords.map noEmpty
  user := a.user.map fun p => (p.1, noEmpty p.2.1, p.2.2)
  count := a.count

theorem data_text {t u : Tree} (h : data t = shape u) : t.1.text = noEmpty u.1.text := by
  have := congrArg (fun x : Tree => x.1.text) h; exact this
theorem data_tag {t u : Tree} (h : data t = shape u) : t.1.tag = u.1.tag := by
  have := congrArg (fun x : Tree => x.1.tag) h; exact this
theorem data_attrs {t u : Tree} (h : data t = shape u) : t.1.attrs = u.1.attrs := by
  have := congrArg (fun x : Tree => x.1.attrs) h; exact this

theorem findall_data (tag : String) : ∀ {l l' : List Tree}, l'.map data = l.map shape →
    (findall tag l').map data = (findall tag l).map shape
  | [], [], _ => rfl
  | [], _ :: _, h => by simp at h
  | _ :: _, [], h => by simp at h
  | a :: l, b :: l', h => by
    simp only [List.map_cons, List.cons.injEq] at h
    have ih := findall_data tag h.2
    have ht : b.1.tag = a.1.tag := data_tag h.1
    unfold Meta.findall at ih ⊢
    by_cases hb : a.1.tag = tag
    · rw [List.filter_cons_of_pos (by simpa [ht] using hb), List.filter_cons_of_pos (by simpa using hb),
        List.map_cons, List.map_cons, ih, h.1]
    · rw [List.filter_cons_of_neg (by simpa [ht] using hb), List.filter_cons_of_neg (by simpa using hb), ih]

theorem data_get {t u : Tree} (h : data t = shape u) (k : String) : t.1.get k = u.1.get k := by
  unfold Elem.get; rw [data_attrs h]

theorem map_data {β : Type} {f g : Tree → β} (hfg : ∀ t u, data t = shape u → f t = g u) :
    ∀ {l l' : List Tree}, l'.map data = l.map shape → l'.map f = l.map g
  | [], [], _ => rfl
  | [], _ :: _, h => by simp at h
  | _ :: _, [], h => by simp at h
  | a :: l, b :: l', h => by
    simp only [List.map_cons, List.cons.injEq] at h
    rw [List.map_cons, List.map_cons, hfg b a h.1, map_data hfg h.2]

theorem head_first {m : Meta} (h : WF m) (hf : First m) :
    (findall "meta:document-statistic" m.kids).head?.map (fun t => t.1.attrs) = some (statAttrs m) := by
  unfold First statIds Meta.ids at hf
  rw [List.head?_map] at hf
  cases hh : (findall "meta:document-statistic" m.kids).head? with
  | none => rw [hh] at hf; cases hf
  | some t =>
    rw [hh] at hf
    have hm := mem_findall.1 (List.mem_of_head? hh)
    rw [statAttrs_of h hm.1 (Option.some.inj hf)]
    rfl

/-- Meta data with the same written form say the same, an empty text being no text. -/
theorem abs_data {m m' : Meta} (h : m'.kids.map data = m.kids.map shape) (hm : WF m) (hf : First m)
    (hm' : WF m') (hf' : First m') : abs m' = writtenAbs (abs m) := by
  refine Abs.ext (fun k => ?_) ?_ ?_ (fun k => ?_)
  · simp only [abs, writtenAbs]
    rw [Meta.getitem_eq, Meta.getitem_eq]
    cases TAGS.get k with
    | none => rfl
    | some tag =>
      have h1 := map_data (f := fun t => t.1.text) (g := fun t => noEmpty t.1.text)
        (fun t u e => data_text e) (findall_data tag h)
      dsimp only
      generalize Meta.findall tag m'.kids = a at h1 ⊢
      generalize Meta.findall tag m.kids = b at h1 ⊢
      cases a with
      | nil => cases b with
        | nil => rfl
        | cons _ _ => simp at h1
      | cons x _ => cases b with
        | nil => simp at h1
        | cons y _ =>
          simp only [List.map_cons, List.cons.injEq] at h1
          simp [h1.1]
  · show keywords m' = (keywords m).map noEmpty
    unfold keywords
    rw [List.map_map]
    exact map_data (fun t u e => data_text e) (findall_data _ h)
  · show entries m' = (entries m).map _
    unfold entries
    rw [List.map_map]
    refine map_data (fun t u e => ?_) (findall_data _ h)
    simp only [entry, Function.comp, data_get e, data_text e]
  · have h1 := head_first hm hf
    have h2 := head_first hm' hf'
    have h3 := map_data (f := fun t => t.1.attrs) (g := fun t => t.1.attrs)
      (fun t u e => data_attrs e) (findall_data "meta:document-statistic" h)
    rw [← List.head?_map] at h1 h2
    rw [h3, h1] at h2
    exact count_congr (Option.some.inj h2).symm k

/-! ## meta.xml -/

/-- A sound meta part -/
structure MetaPart.OK (p : MetaPart) : Prop where
  root : p.root.tag = "office:document-meta"
  before : ∀ t ∈ p.before, t.1.tag ≠ "office:meta"
  node : p.m.node.tag = "office:meta"
  wf : WF p.m
  first : First p.m

theorem ids_child {F : Forest} {u : Tree} (h : u ∈ F.toList) : ∀ i ∈ Forest.ids (single u), i ∈ Forest.ids F := by
  induction F with
  | nil => cases h
  | cons e k r _ ih =>
    intro i hi
    rcases List.mem_cons.mp h with rfl | h
    · simp at hi; simp [Forest.ids]; rcases hi with hi | hi <;> simp [hi]
    · simp [Forest.ids, ih h i hi]

theorem nodup_kids {F : Forest} (h : (Forest.ids F).Nodup) : (Meta.ids F.toList).Nodup := by
  induction F with
  | nil => simp [Meta.ids]
  | cons e k r _ ih =>
    simp only [Forest.ids, List.nodup_cons, List.nodup_append, List.mem_append, not_or] at h
    simp only [toList, Meta.ids, List.map_cons, List.nodup_cons, List.mem_map, not_exists, not_and]
    refine ⟨fun t ht e' => h.1.2 ?_, ih h.2.2.1⟩
    rw [← e']
    exact ids_child ht _ (by simp)

theorem nodup_child {F : Forest} (h : (Forest.ids F).Nodup) {u : Tree} (hu : u ∈ F.toList) :
    (Forest.ids (single u)).Nodup := by
  induction F with
  | nil => cases hu
  | cons e k r _ ih =>
    simp only [Forest.ids, List.nodup_cons, List.nodup_append, List.mem_append, not_or] at h
    rcases List.mem_cons.mp hu with rfl | hu
    · simp [h.1.1, h.2.1]
    · exact ih h.2.2.1 hu

theorem load_ok {t u : Tree} (hn : (Forest.ids (single t)).Nodup) (hu : u ∈ t.2.toList) :
    WF (load u.1 u.2.toList (Parts.newId (single t))) := by
  have hk : (Forest.ids t.2).Nodup := by simp at hn; exact hn.2
  have h1 := nodup_child hk hu
  refine load_wf _ _ _ (nodup_kids (by simp at h1; exact h1.2)) fun x hx => lt_newId ?_
  have h2 : x.1.id ∈ Forest.ids (single u) := by
    simp; right; exact ids_child hx _ (by simp)
  simp; right
  exact ids_child hu _ h2

/-- The part that the constructor makes -/
theorem metaInit_ok (k : Clock) {o : Option Tree} (ht : ∀ t, o = some t → t.1.tag = "office:document-meta")
    (hn : ∀ t, o = some t → (Forest.ids (single t)).Nodup) : (metaInit k o).OK := by
  obtain ⟨n1, n2, n3⟩ := wf_new k.time k.time2 k.generator
  unfold metaInit
  cases o with
  | none => exact ⟨rfl, by simp, n3, n1, n2⟩
  | some t =>
    dsimp only
    have hb : ∀ u ∈ t.2.toList.takeWhile fun u => decide (u.1.tag ≠ "office:meta"), u.1.tag ≠ "office:meta" := by
      intro u hu
      have := List.all_takeWhile (p := fun u : Tree => decide (u.1.tag ≠ "office:meta")) (l := t.2.toList)
      rw [List.all_eq_true] at this
      simpa using this u hu
    have happ : (t.2.toList.takeWhile fun u => decide (u.1.tag ≠ "office:meta")) ++
        (t.2.toList.dropWhile fun u => decide (u.1.tag ≠ "office:meta")) = t.2.toList :=
      List.takeWhile_append_dropWhile
    have hh : ∀ u, (t.2.toList.dropWhile fun u => decide (u.1.tag ≠ "office:meta")).head? = some u →
        u.1.tag = "office:meta" := by
      intro u hu
      have h := List.head?_dropWhile_not (p := fun u : Tree => decide (u.1.tag ≠ "office:meta")) t.2.toList
      rw [hu] at h
      simpa using h
    split
    · rename_i u after heq
      rw [heq] at happ hh
      refine ⟨ht t rfl, hb, ?_, load_ok (hn t rfl) ?_, load_first _ _ _⟩
      · rw [load_node]; exact hh u rfl
      · rw [← happ]; simp
    · rename_i heq
      refine ⟨?_, hb, n3, n1, n2⟩
      show (grddl t.1).tag = _
      rw [← ht t rfl]; rfl

theorem toList_tree (p : MetaPart) :
    p.tree.2.toList = p.before ++ (p.m.node, Forest.ofList p.m.kids) :: p.after := by
  unfold MetaPart.tree; simp

/-- Reading what a sound part has written. -/
theorem metaInit_reread (k : Clock) {p : MetaPart} (hp : p.OK) {t : Tree} (h : data t = shape p.tree)
    (hn : (Forest.ids (single t)).Nodup) :
    (metaInit k (some t)).OK ∧ (metaInit k (some t)).tree = t ∧
      abs (metaInit k (some t)).m = writtenAbs (abs p.m) := by
  have htag : t.1.tag = "office:document-meta" := by
    have : t.1.tag = p.root.tag := congrArg (fun x : Tree => x.1.tag) h
    rw [this, hp.root]
  have hok := metaInit_ok k (o := some t) (fun _ e => by cases e; exact htag) (fun _ e => by cases e; exact hn)
  refine ⟨hok, ?_⟩
  have hk := data_shape_kids h
  rw [toList_tree, List.map_append, List.map_cons] at hk
  obtain ⟨l1, l2, e1, e2, e3⟩ := List.map_eq_append_iff.mp hk
  obtain ⟨u, l3, e4, e5, e6⟩ := List.map_eq_cons_iff.mp e3
  subst e4
  have hb : ∀ x ∈ l1, x.1.tag ≠ "office:meta" := by
    have h1 := map_data (f := fun t => t.1.tag) (g := fun t => t.1.tag)
      (fun t u e => data_tag e) e2
    intro x hx hxt
    have : x.1.tag ∈ p.before.map fun t => t.1.tag := by rw [← h1]; exact List.mem_map_of_mem hx
    obtain ⟨y, hy, hyt⟩ := List.mem_map.mp this
    exact hp.before y hy (hyt.trans hxt)
  have hut : u.1.tag = "office:meta" := by
    have : u.1.tag = p.m.node.tag := congrArg (fun x : Tree => x.1.tag) e5
    rw [this, hp.node]
  have hspan : (t.2.toList.takeWhile fun u => decide (u.1.tag ≠ "office:meta")) = l1 := by
    rw [e1, List.takeWhile_append_of_pos (by simpa using hb)]
    simp [List.takeWhile, hut]
  have hspan' : (t.2.toList.dropWhile fun u => decide (u.1.tag ≠ "office:meta")) = u :: l3 := by
    rw [e1, List.dropWhile_append_of_pos (by simpa using hb)]
    simp [List.dropWhile, hut]
  have hkids : u.2.toList.map data = p.m.kids.map shape := by
    have := data_shape_kids e5
    simpa using this
  -- there is a statistic element
  have hst : ∃ x, (u.2.toList.find? fun t => decide (t.1.tag = "meta:document-statistic")) = some x := by
    rw [find_findall]
    have h1 := head_first hp.wf hp.first
    have h2 := map_data (f := fun t => t.1.attrs) (g := fun t => t.1.attrs)
      (fun t u e => data_attrs e) (findall_data "meta:document-statistic" hkids)
    rw [← List.head?_map, ← h2, List.head?_map] at h1
    obtain ⟨x, hx, -⟩ := Option.map_eq_some_iff.mp h1
    exact ⟨x, hx⟩
  obtain ⟨x, hx⟩ := hst
  have hload : load u.1 u.2.toList (Parts.newId (single t)) =
      { node := u.1, kids := u.2.toList, stats := x.1.id, fresh := Parts.newId (single t) } := by
    unfold load; rw [hx]
  have heq : metaInit k (some t) = ⟨t.1, l1, load u.1 u.2.toList (Parts.newId (single t)), l3⟩ := by
    unfold metaInit
    simp only [hspan, hspan']
  refine ⟨?_, ?_⟩
  · rw [heq]
    unfold MetaPart.tree
    simp only [hload, ofList_toList]
    have hu : ((u.1, u.2) : Tree) = u := rfl
    rw [hu, ← e1, ofList_toList]
  · refine abs_data ?_ hp.wf hp.first hok.wf hok.first
    rw [heq]
    simp only [hload]
    exact hkids

end Verif.Whole
