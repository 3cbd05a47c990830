import Verif.Model.Meta
import Verif.Proofs.Xml
import Verif.Proofs.Dict
import Verif.Proofs.Py
/-! Lemmas about the children of the meta element. -/
namespace Verif.Meta
open Verif
set_option linter.unusedSimpArgs false

def ids (l : List Tree) : List Nat := l.map fun t => t.1.id

/-- Node identities are unique and below the supply, and `count` refers to a statistic element. -/
structure WF (m : Meta) : Prop where
  nodup : (ids m.kids).Nodup
  bound : ∀ t ∈ m.kids, t.1.id < m.fresh
  stat : ∃ t ∈ m.kids, t.1.id = m.stats ∧ t.1.tag = "meta:document-statistic"

/-- Functions that keep identity and tag of a node. -/
def Keeps (f : Tree → Tree) : Prop := ∀ t, (f t).1.id = t.1.id ∧ (f t).1.tag = t.1.tag

theorem keeps_setText (v : Option Str) : Keeps (setText v) := fun _ => ⟨rfl, rfl⟩
theorem keeps_setAttr (k : String) (v : Str) : Keeps (setAttr k v) := fun _ => ⟨rfl, rfl⟩
theorem keeps_userStore (v : Str) (ty : Option Str) : Keeps (userStore v ty) := by
  intro t; cases ty <;> exact ⟨rfl, rfl⟩

theorem eq_of_id {l : List Tree} (h : (ids l).Nodup) {a b : Tree} (ha : a ∈ l) (hb : b ∈ l)
    (hab : a.1.id = b.1.id) : a = b := by
  induction l with
  | nil => cases ha
  | cons e l ih =>
    simp only [ids, List.map_cons, List.nodup_cons] at h
    rcases List.mem_cons.1 ha with h1 | h1 <;> rcases List.mem_cons.1 hb with h2 | h2
    · rw [h1, h2]
    · exact absurd (List.mem_map.2 ⟨_, h2, by rw [← hab, h1]⟩) h.1
    · exact absurd (List.mem_map.2 ⟨_, h1, by rw [hab, h2]⟩) h.1
    · exact ih h.2 h1 h2

theorem ids_editNode {i : Nat} {f : Tree → Tree} (hf : Keeps f) (l : List Tree) :
    ids (editNode i f l) = ids l := by
  unfold ids editNode
  rw [List.map_map]
  apply List.map_congr_left
  intro t _
  simp only [Function.comp]
  split
  · exact (hf t).1
  · rfl

theorem findall_editNode {i : Nat} {f : Tree → Tree} (hf : Keeps f) (tag : String) (l : List Tree) :
    findall tag (editNode i f l) = editNode i f (findall tag l) := by
  unfold findall editNode
  rw [List.filter_map]
  congr 1
  apply List.filter_congr
  intro t _
  simp only [Function.comp]
  by_cases h : t.1.id = i <;> simp [h, (hf t).2]

theorem editNode_absent {i : Nat} {f : Tree → Tree} {l : List Tree} (h : ∀ t ∈ l, t.1.id ≠ i) :
    editNode i f l = l := by
  unfold editNode
  conv => rhs; rw [← List.map_id l]
  apply List.map_congr_left
  intro t ht
  simp [h t ht]

theorem removeNode_eq {i : Nat} {l : List Tree} (h : (ids l).Nodup) :
    removeNode i l = l.filter fun t => t.1.id ≠ i := by
  induction l with
  | nil => rfl
  | cons t l ih =>
    simp only [ids, List.map_cons, List.nodup_cons] at h
    unfold removeNode
    by_cases hi : t.1.id = i
    · rw [List.eraseP_cons_of_pos (by simpa using hi), List.filter_cons_of_neg (by simpa using hi)]
      symm; rw [List.filter_eq_self]
      intro a ha
      simp
      intro e; exact h.1 (List.mem_map.2 ⟨a, ha, by rw [e, hi]⟩)
    · rw [List.eraseP_cons_of_neg (by simpa using hi), List.filter_cons_of_pos (by simpa using hi)]
      congr 1
      exact ih h.2

theorem nodup_filter {l : List Tree} (p : Tree → Bool) (h : (ids l).Nodup) :
    (ids (l.filter p)).Nodup :=
  List.Nodup.sublist (List.Sublist.map _ List.filter_sublist) h

theorem foldl_removeNode (L l : List Tree) (h : (ids l).Nodup) :
    L.foldl (fun l t => removeNode t.1.id l) l = l.filter fun t => t.1.id ∉ ids L := by
  induction L generalizing l with
  | nil => symm; rw [List.foldl_nil, List.filter_eq_self]; intro a _; simp [ids]
  | cons t L ih =>
    rw [List.foldl_cons, ih _ (by rw [removeNode_eq h]; exact nodup_filter _ h), removeNode_eq h,
      List.filter_filter]
    apply List.filter_congr
    intro a _
    have : a.1.id ∈ ids (t :: L) ↔ a.1.id = t.1.id ∨ a.1.id ∈ ids L := by
      show a.1.id ∈ t.1.id :: ids L ↔ _
      exact List.mem_cons
    rw [Bool.eq_iff_iff]
    simp only [Bool.and_eq_true, decide_eq_true_eq, this, not_or, ne_eq]
    exact And.comm

theorem clearTag (tag : String) (l : List Tree) (h : (ids l).Nodup) :
    (findall tag l).foldl (fun l t => removeNode t.1.id l) l = l.filter fun t => t.1.tag ≠ tag := by
  rw [foldl_removeNode _ _ h]
  apply List.filter_congr
  intro a ha
  have : a.1.id ∈ ids (findall tag l) ↔ a.1.tag = tag := by
    constructor
    · intro hm
      obtain ⟨b, hb, hab⟩ := List.mem_map.1 hm
      have hb' := List.mem_filter.1 hb
      rw [eq_of_id h ha hb'.1 hab.symm]
      simpa using hb'.2
    · intro ht
      exact List.mem_map.2 ⟨a, List.mem_filter.2 ⟨ha, by simpa using ht⟩, rfl⟩
  simp [this]

theorem find_findall (tag : String) (l : List Tree) :
    (l.find? fun t => decide (t.1.tag = tag)) = (findall tag l).head? := by
  unfold findall; rw [List.head?_filter]

theorem mem_findall {tag : String} {l : List Tree} {t : Tree} :
    t ∈ findall tag l ↔ t ∈ l ∧ t.1.tag = tag := by
  unfold findall; simp

theorem findall_filter_ne (tag tag' : String) (l : List Tree) :
    findall tag (l.filter fun t => t.1.tag ≠ tag') = if tag = tag' then [] else findall tag l := by
  unfold findall
  rw [List.filter_filter]
  by_cases h : tag = tag'
  · subst h; simp
  · simp only [h, if_false]
    apply List.filter_congr
    intro a _
    by_cases h1 : a.1.tag = tag <;> simp [h1, h]

theorem findall_append (tag tag' : String) (a : Attrs) (v : Option Str) (m : Meta) :
    findall tag (append tag' a v m).kids = findall tag m.kids ++
      (if tag' = tag then [({ id := m.fresh, tag := tag', attrs := a, text := v }, Forest.nil)] else []) := by
  unfold findall append
  rw [List.filter_append]
  by_cases h : tag' = tag <;> simp [h]

/-! ## Operations on one node -/

/-- Editing a node of one tag leaves the nodes of the other tags alone. -/
theorem edit_other {m : Meta} (h : WF m) {t : Tree} (ht : t ∈ m.kids) {f : Tree → Tree}
    (hf : Keeps f) {tag : String} (hne : t.1.tag ≠ tag) :
    findall tag (editNode t.1.id f m.kids) = findall tag m.kids := by
  rw [findall_editNode hf]
  apply editNode_absent
  intro a ha hid
  have ha' := mem_findall.1 ha
  rw [eq_of_id h.nodup ha'.1 ht hid] at ha'
  exact hne ha'.2

theorem remove_other {m : Meta} (h : WF m) {t : Tree} (ht : t ∈ m.kids)
    {tag : String} (hne : t.1.tag ≠ tag) :
    findall tag (removeNode t.1.id m.kids) = findall tag m.kids := by
  rw [removeNode_eq h.nodup]
  unfold findall
  rw [List.filter_filter]
  apply List.filter_congr
  intro a ha
  by_cases h1 : a.1.tag = tag
  · have : a.1.id ≠ t.1.id := by
      intro hid; rw [eq_of_id h.nodup ha ht hid] at h1; exact hne h1
    simp [h1, this]
  · simp [h1]

theorem findall_removeNode {m : Meta} (h : WF m) (i : Nat) (tag : String) :
    findall tag (removeNode i m.kids) = removeNode i (findall tag m.kids) := by
  rw [removeNode_eq h.nodup, removeNode_eq (l := findall tag m.kids) (nodup_filter _ h.nodup)]
  unfold findall
  rw [List.filter_filter, List.filter_filter]
  apply List.filter_congr
  intro a _
  exact Bool.and_comm _ _

/-! ## Preservation -/

theorem wf_edit {m : Meta} (h : WF m) (i : Nat) {f : Tree → Tree} (hf : Keeps f) :
    WF { m with kids := editNode i f m.kids } := by
  have hmem : ∀ t ∈ m.kids, ∃ t' ∈ editNode i f m.kids, t'.1.id = t.1.id ∧ t'.1.tag = t.1.tag := by
    intro t ht
    refine ⟨_, List.mem_map.2 ⟨t, ht, rfl⟩, ?_⟩
    by_cases hi : t.1.id = i
    · simp only [if_pos hi]; exact hf t
    · rw [if_neg hi]; exact ⟨rfl, rfl⟩
  refine ⟨?_, ?_, ?_⟩
  · show (ids (editNode i f m.kids)).Nodup
    rw [ids_editNode hf]; exact h.nodup
  · intro t ht
    have : t.1.id ∈ ids (editNode i f m.kids) := List.mem_map.2 ⟨t, ht, rfl⟩
    rw [ids_editNode hf] at this
    obtain ⟨a, ha, e⟩ := List.mem_map.1 this
    rw [← e]; exact h.bound a ha
  · obtain ⟨t, ht, h1, h2⟩ := h.stat
    obtain ⟨t', ht', h3, h4⟩ := hmem t ht
    exact ⟨t', ht', by rw [h3, h1], by rw [h4, h2]⟩

theorem wf_append {m : Meta} (h : WF m) (tag : String) (a : Attrs) (v : Option Str) :
    WF (append tag a v m) := by
  refine ⟨?_, ?_, ?_⟩
  · unfold ids append
    rw [List.map_append, List.nodup_append]
    refine ⟨h.nodup, by simp, ?_⟩
    intro x hx y hy
    obtain ⟨t, ht, rfl⟩ := List.mem_map.1 hx
    simp at hy
    have := h.bound t ht
    omega
  · intro t ht
    unfold append at ht ⊢
    rcases List.mem_append.1 ht with h1 | h1
    · have := h.bound t h1; simp; omega
    · simp at h1; subst h1; simp
  · obtain ⟨t, ht, h1⟩ := h.stat
    exact ⟨t, List.mem_append_left _ ht, h1⟩

theorem wf_filter {m : Meta} (h : WF m) (p : Tree → Bool)
    (hp : ∀ t, t.1.tag = "meta:document-statistic" → p t = true) :
    WF { m with kids := m.kids.filter p } := by
  refine ⟨nodup_filter _ h.nodup, fun t ht => h.bound t (List.mem_filter.1 ht).1, ?_⟩
  obtain ⟨t, ht, h1, h2⟩ := h.stat
  exact ⟨t, List.mem_filter.2 ⟨ht, hp t h2⟩, h1, h2⟩

theorem wf_remove {m : Meta} (h : WF m) {t : Tree} (ht : t ∈ m.kids)
    (htag : t.1.tag ≠ "meta:document-statistic") :
    WF { m with kids := removeNode t.1.id m.kids } := by
  refine ⟨?_, ?_, ?_⟩
  · show (ids (removeNode t.1.id m.kids)).Nodup
    rw [removeNode_eq h.nodup]; exact nodup_filter _ h.nodup
  · intro a ha
    exact h.bound a (List.mem_of_mem_eraseP ha)
  · obtain ⟨s, hs, h1, h2⟩ := h.stat
    refine ⟨s, ?_, h1, h2⟩
    show s ∈ removeNode t.1.id m.kids
    rw [removeNode_eq h.nodup]
    refine List.mem_filter.2 ⟨hs, ?_⟩
    simp
    intro e
    rw [eq_of_id h.nodup hs ht e] at h2
    exact htag h2

/-! ## Metatags -/

theorem TAGS_ne : ∀ p ∈ TAGS, p.2 ≠ "meta:keyword" ∧ p.2 ≠ "meta:user-defined" ∧
    p.2 ≠ "meta:document-statistic" := by decide +kernel

theorem TAGS_inj : ∀ p ∈ TAGS, ∀ q ∈ TAGS, p.2 = q.2 → p.1 = q.1 := by decide +kernel

theorem TAGS_ne' {key tag : String} (h : TAGS.get key = some tag) : tag ≠ "meta:keyword" ∧
    tag ≠ "meta:user-defined" ∧ tag ≠ "meta:document-statistic" := TAGS_ne _ (Dict.get_mem h)

theorem TAGS_inj' {key key' tag : String} (h : TAGS.get key = some tag)
    (h' : TAGS.get key' = some tag) : key = key' :=
  TAGS_inj _ (Dict.get_mem h) _ (Dict.get_mem h') rfl

/-- The complete effect of `__setitem__` on the nodes by tag. -/
theorem setitem_spec {m : Meta} (h : WF m) {key tag : String} (hk : TAGS.get key = some tag)
    (v : Option Str) :
    (setitem key v m).2 = .ok () ∧ WF (setitem key v m).1 ∧
    (setitem key v m).1.stats = m.stats ∧
    (∀ tag', tag' ≠ tag → findall tag' (setitem key v m).1.kids = findall tag' m.kids) ∧
    ∃ t r, findall tag (setitem key v m).1.kids = t :: r ∧ t.1.text = v := by
  unfold setitem
  rw [hk]
  simp only
  rw [find_findall]
  cases hf : findall tag m.kids with
  | nil =>
    simp only [List.head?_nil]
    refine ⟨trivial, wf_append h _ _ _, rfl, ?_, ?_⟩
    · intro tag' hne
      rw [findall_append, if_neg (Ne.symm hne), List.append_nil]
    · rw [findall_append, hf, if_pos rfl]
      exact ⟨({ id := m.fresh, tag := tag, attrs := [], text := v }, .nil), [], rfl, rfl⟩
  | cons t r =>
    simp only [List.head?_cons]
    have ht : t ∈ m.kids ∧ t.1.tag = tag := mem_findall.1 (by rw [hf]; exact List.mem_cons_self)
    refine ⟨trivial, wf_edit h _ (keeps_setText v), trivial, ?_, ?_⟩
    · intro tag' hne
      exact edit_other h ht.1 (keeps_setText v) (by rw [ht.2]; exact Ne.symm hne)
    · rw [findall_editNode (keeps_setText v), hf]
      refine ⟨setText v t, editNode t.1.id (setText v) r, ?_, rfl⟩
      simp [editNode]

theorem getitem_eq (key : String) (m : Meta) :
    getitem key m = match TAGS.get key with
      | none => .error .KeyError
      | some tag => match (findall tag m.kids).head? with
        | none => .error .KeyError
        | some t => .ok t.1.text := by
  unfold getitem
  cases TAGS.get key with
  | none => rfl
  | some tag => simp only [find_findall]; rfl

theorem getitem_congr {m m' : Meta} {key tag : String} (hk : TAGS.get key = some tag)
    (h : findall tag m.kids = findall tag m'.kids) : getitem key m = getitem key m' := by
  rw [getitem_eq, getitem_eq, hk]; simp only [h]

theorem getitem_none {key : String} (hk : TAGS.get key = none) (m : Meta) :
    getitem key m = .error .KeyError := by
  rw [getitem_eq, hk]

/-! ## Statistics -/

theorem find_stats {m : Meta} :
    (m.kids.find? fun t => decide (t.1.id = m.stats)) =
      (m.kids.filter fun t => t.1.id = m.stats).head? := by rw [List.head?_filter]

theorem statAttrs_of {m : Meta} (h : WF m) {t : Tree} (ht : t ∈ m.kids) (hid : t.1.id = m.stats) :
    statAttrs m = t.1.attrs := by
  unfold statAttrs
  cases hf : m.kids.find? fun t => decide (t.1.id = m.stats) with
  | none =>
    have := List.find?_eq_none.1 hf t ht
    simp [hid] at this
  | some a =>
    have h1 := List.mem_of_find?_eq_some hf
    have h2 := List.find?_some hf
    simp at h2
    rw [eq_of_id h.nodup h1 ht (by rw [h2, hid])]

/-- Statistics only depend on the statistic elements. -/
theorem statAttrs_congr {m m' : Meta} (h : WF m) (h' : WF m') (hs : m.stats = m'.stats)
    (hf : findall "meta:document-statistic" m.kids = findall "meta:document-statistic" m'.kids) :
    statAttrs m = statAttrs m' := by
  obtain ⟨t, ht, h1, h2⟩ := h.stat
  rw [statAttrs_of h ht h1]
  have : t ∈ findall "meta:document-statistic" m'.kids := by
    rw [← hf]; exact mem_findall.2 ⟨ht, h2⟩
  rw [statAttrs_of h' (mem_findall.1 this).1 (by rw [h1, hs])]

theorem statAttrs_edit {m : Meta} (h : WF m) {f : Tree → Tree} (hf : Keeps f) (g : Attrs → Attrs)
    (hg : ∀ t, (f t).1.attrs = g t.1.attrs) :
    statAttrs { m with kids := editNode m.stats f m.kids } = g (statAttrs m) := by
  obtain ⟨t, ht, h1, h2⟩ := h.stat
  rw [statAttrs_of h ht h1, ← hg]
  refine statAttrs_of (wf_edit h m.stats hf) (t := f t) ?_ ?_
  · exact List.mem_map.2 ⟨t, ht, by simp [h1]⟩
  · rw [(hf t).1, h1]

theorem edit_stats_other {m : Meta} (h : WF m) {f : Tree → Tree} (hf : Keeps f) {tag : String}
    (hne : tag ≠ "meta:document-statistic") :
    findall tag (editNode m.stats f m.kids) = findall tag m.kids := by
  obtain ⟨t, ht, h1, h2⟩ := h.stat
  rw [← h1]
  exact edit_other h ht hf (by rw [h2]; exact Ne.symm hne)

/-! ## The first node with a property -/

theorem eraseP_first {l : List Tree} (h : (ids l).Nodup) {p : Tree → Bool} {t : Tree}
    (hf : l.find? p = some t) : removeNode t.1.id l = l.eraseP p := by
  induction l with
  | nil => cases hf
  | cons a l ih =>
    simp only [ids, List.map_cons, List.nodup_cons] at h
    unfold removeNode
    cases hp : p a with
    | true =>
      rw [List.find?_cons_of_pos hp] at hf
      have : a = t := Option.some.inj hf
      subst this
      rw [List.eraseP_cons_of_pos (by simp), List.eraseP_cons_of_pos hp]
    | false =>
      have hp' : ¬ p a = true := by simp [hp]
      rw [List.find?_cons_of_neg hp'] at hf
      have hmem := List.mem_of_find?_eq_some hf
      have hne : a.1.id ≠ t.1.id := by
        intro e; exact h.1 (List.mem_map.2 ⟨t, hmem, e.symm⟩)
      rw [List.eraseP_cons_of_neg (by simpa using hne), List.eraseP_cons_of_neg hp']
      congr 1
      exact ih h.2 hf

end Verif.Meta
