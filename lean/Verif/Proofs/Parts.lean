import Verif.Model.Parts
import Verif.Proofs.Base
/-! Specification of documents set up around existing trees and helper lemmas for C63. -/
namespace Verif.Parts
open Verif Verif.Lxml Forest
set_option linter.unusedSimpArgs false

/-! ## Specification -/

/-- The tag of a node. -/
def tagAt (W : World) (i : Nat) : Option String := (content W i).map fun e => e.tag

/-- The children of a node, none for an unknown node. -/
def kidsOf (W : World) (i : Nat) : List Nat := (children W i).getD []

/-- The tags of the children of a node in order. -/
def kidTags (W : World) (i : Nat) : List (Option String) := (kidsOf W i).map (tagAt W)

/-- An element with nothing but a tag. -/
def bare (i : Nat) (tag : String) : Elem := ⟨i, tag, [], none, none⟩

/-- `W'` is `W` with new bare elements: every old node is in its old place with its old content, and
the children of every node are the old ones in the old order, followed by new elements with the tags
`add q`. -/
structure Ext (W W' : World) (add : Nat → List String) : Prop where
  once : (ids W').Nodup
  keep : ∀ i ∈ ids W, content W' i = content W i
  fresh : ∀ i ∈ ids W', i ∉ ids W → ∃ tag, content W' i = some (bare i tag)
  kids : ∀ q ∈ ids W', ∃ m, children W' q = some (kidsOf W q ++ m) ∧ (∀ x ∈ m, x ∉ ids W) ∧
    m.map (tagAt W') = (add q).map some
  free : ∃ m, tops W' = tops W ++ m ∧ ∀ x ∈ m, x ∉ ids W

/-- The tags of `T` that no child of `p` has. -/
def missing (W : World) (p : Nat) (T : List String) : List String :=
  T.filter fun t => some t ∉ kidTags W p

/-- Missing elements are added to `p` only. -/
def only (W : World) (p : Nat) (T : List String) (q : Nat) : List String :=
  if q = p then missing W p T else []

/-- `c` is the first child of `p` with the tag. -/
def Ref (W : World) (p : Nat) (tag : String) (c : Nat) : Prop :=
  ∃ A B, children W p = some (A ++ c :: B) ∧ tagAt W c = some tag ∧ ∀ a ∈ A, tagAt W a ≠ some tag

/-! ## Lemmas -/

theorem le_foldr_max {l : List Nat} {x : Nat} (h : x ∈ l) : x ≤ l.foldr max 0 := by
  induction l with
  | nil => cases h
  | cons a l ih =>
    simp only [List.foldr_cons]
    rcases List.mem_cons.mp h with h | h
    · omega
    · have := ih h; omega

theorem newId_not (W : World) : newId W ∉ ids W := fun h => by
  have := le_foldr_max h
  unfold newId at this
  omega

theorem mem_of_children {W : World} {p : Nat} {l : List Nat} (h : children W p = some l) :
    p ∈ ids W := by
  obtain ⟨t, h1, _⟩ := children_find h
  exact find_mem h1

theorem kidsOf_some {W : World} {p : Nat} {l : List Nat} (h : children W p = some l) :
    kidsOf W p = l := by simp [kidsOf, h]

theorem kidsOf_none {W : World} {p : Nat} (h : p ∉ ids W) : kidsOf W p = [] := by
  have : find p W = none := find_none.mpr h
  simp [kidsOf, children, this]

theorem kidsOf_mem {W : World} {p x : Nat} (h : x ∈ kidsOf W p) : x ∈ ids W := by
  unfold kidsOf at h
  cases hc : children W p with
  | none => simp [hc] at h
  | some l => simp [hc] at h; exact child_mem hc h

theorem content_some {W : World} {i : Nat} (h : i ∈ ids W) : ∃ e, content W i = some e := by
  obtain ⟨t, ht⟩ := find_some_of_mem h
  exact ⟨t.1, by simp [content, ht]⟩

theorem mem_of_tagAt {W : World} {i : Nat} {t : String} (h : tagAt W i = some t) : i ∈ ids W := by
  unfold tagAt content at h
  cases hf : find i W with
  | none => simp [hf] at h
  | some u => exact find_mem hf

theorem Ext.mem {W W' : World} {a} (h : Ext W W' a) {i : Nat} (hi : i ∈ ids W) : i ∈ ids W' := by
  obtain ⟨e, he⟩ := content_some hi
  have := h.keep i hi
  rw [he] at this
  unfold content at this
  cases hf : find i W' with
  | none => simp [hf] at this
  | some u => exact find_mem hf

theorem Ext.tag {W W' : World} {a} (h : Ext W W' a) {i : Nat} (hi : i ∈ ids W) :
    tagAt W' i = tagAt W i := by simp [tagAt, h.keep i hi]

theorem Ext.kidsOf {W W' : World} {a} (h : Ext W W' a) {q : Nat} (hq : q ∈ ids W') :
    ∃ m, Parts.kidsOf W' q = Parts.kidsOf W q ++ m ∧ (∀ x ∈ m, x ∉ ids W) ∧
      m.map (tagAt W') = (a q).map some := by
  obtain ⟨m, h1, h2, h3⟩ := h.kids q hq
  exact ⟨m, kidsOf_some h1, h2, h3⟩

/-- The tags of the children after the extension. -/
theorem Ext.kidTags {W W' : World} {a} (h : Ext W W' a) {q : Nat} (hq : q ∈ ids W') :
    Parts.kidTags W' q = Parts.kidTags W q ++ (a q).map some := by
  obtain ⟨m, h1, h2, h3⟩ := h.kidsOf hq
  unfold Parts.kidTags
  rw [h1, List.map_append, h3]
  congr 1
  exact List.map_congr_left fun x hx => h.tag (kidsOf_mem hx)

theorem Ext.refl {W : World} (hn : (ids W).Nodup) : Ext W W fun _ => [] := by
  refine ⟨hn, fun _ _ => rfl, fun i h h' => absurd h h', ?_, [], by simp⟩
  intro q hq
  obtain ⟨l, hl⟩ := children_some hq
  exact ⟨[], by simp [kidsOf_some hl, hl], by simp, rfl⟩

theorem Ext.trans {W W1 W2 : World} {a b} (h : Ext W W1 a) (g : Ext W1 W2 b)
    (ha : ∀ q, q ∉ ids W1 → a q = []) :
    Ext W W2 fun q => a q ++ b q := by
  refine ⟨g.once, fun i hi => by rw [g.keep i (h.mem hi), h.keep i hi], ?_, ?_, ?_⟩
  · intro i hi hn
    by_cases h1 : i ∈ ids W1
    · obtain ⟨tag, ht⟩ := h.fresh i h1 hn
      exact ⟨tag, by rw [g.keep i h1, ht]⟩
    · exact g.fresh i hi h1
  · intro q hq
    obtain ⟨m, h1, h2, h3⟩ := g.kids q hq
    by_cases hq1 : q ∈ ids W1
    · obtain ⟨m', k1, k2, k3⟩ := h.kidsOf hq1
      refine ⟨m' ++ m, by rw [h1, k1, List.append_assoc], ?_, ?_⟩
      · intro x hx
        rcases List.mem_append.mp hx with hx | hx
        · exact k2 x hx
        · exact fun hw => h2 x hx (h.mem hw)
      · rw [List.map_append, List.map_append, h3, ← k3]
        congr 1
        refine List.map_congr_left fun x hx => g.tag ?_
        exact kidsOf_mem (p := q) (by rw [k1]; simp [hx])
    · have hqw : q ∉ ids W := fun hw => hq1 (h.mem hw)
      refine ⟨m, by rw [h1, kidsOf_none hq1, kidsOf_none hqw], ?_, by rw [ha q hq1, h3]; rfl⟩
      exact fun x hx hw => h2 x hx (h.mem hw)
  · obtain ⟨m, h1, h2⟩ := h.free
    obtain ⟨m', g1, g2⟩ := g.free
    refine ⟨m ++ m', by rw [g1, h1, List.append_assoc], ?_⟩
    intro x hx
    rcases List.mem_append.mp hx with hx | hx
    · exact h2 x hx
    · exact fun hw => g2 x hx (h.mem hw)

theorem Ext.congr {W W' : World} {a b} (h : Ext W W' a) (hab : ∀ q ∈ ids W', a q = b q) :
    Ext W W' b :=
  ⟨h.once, h.keep, h.fresh, fun q hq => by
    obtain ⟨m, h1, h2, h3⟩ := h.kids q hq
    exact ⟨m, h1, h2, by rw [h3, hab q hq]⟩, h.free⟩

theorem Ref.mem {W : World} {p c : Nat} {tag : String} (h : Ref W p tag c) : c ∈ ids W := by
  obtain ⟨A, B, h1, _⟩ := h
  exact child_mem h1 (by simp)

theorem Ref.ext {W W' : World} {a} (h : Ext W W' a) {p c : Nat} {tag : String} (hr : Ref W p tag c) :
    Ref W' p tag c := by
  obtain ⟨A, B, h1, h2, h3⟩ := hr
  have hp := mem_of_children h1
  obtain ⟨m, k1, _⟩ := h.kids p (h.mem hp)
  rw [kidsOf_some h1] at k1
  refine ⟨A, B ++ m, by rw [k1]; simp, ?_, ?_⟩
  · rw [h.tag (child_mem h1 (by simp)), h2]
  · intro a ha
    rw [h.tag (child_mem h1 (by simp [ha]))]; exact h3 a ha

theorem Ref.unique {W : World} {p c d : Nat} {tag : String} (h : Ref W p tag c) (g : Ref W p tag d) :
    c = d := by
  obtain ⟨A, B, h1, h2, h3⟩ := h
  obtain ⟨C, D, g1, g2, g3⟩ := g
  rw [h1] at g1
  have := Option.some.inj g1
  rcases List.append_eq_append_iff.mp this with ⟨X, x1, x2⟩ | ⟨X, x1, x2⟩
  · cases X with
    | nil => simp at x2; exact x2.1
    | cons y X =>
      simp at x2
      exact absurd h2 (x2.1 ▸ g3 y (by rw [x1]; simp))
  · cases X with
    | nil => simp at x2; exact x2.1.symm
    | cons y X =>
      simp at x2
      exact absurd g2 (x2.1 ▸ h3 y (by rw [x1]; simp))

/-- Children of a node are in the world as the tree shows them. -/
theorem child_content {W : World} (hn : (ids W).Nodup) {p : Nat} {t : Tree} (hp : find p W = some t)
    {u : Tree} (hu : u ∈ t.2.toList) : content W u.1.id = some u.1 := by
  have h1 := nodup_tree hn hp
  have hin : find u.1.id t.2 = some u := by
    have hk : (ids t.2).Nodup := by simp at h1; exact h1.2
    clear hp h1
    generalize t.2 = F at hu hk
    induction F with
    | nil => cases hu
    | cons e k r _ ih =>
      simp only [ids, List.nodup_cons, List.nodup_append, List.mem_append, not_or] at hk
      rcases List.mem_cons.mp hu with hu | hu
      · rw [hu]; simp [find]
      · have hmem := find_mem (ih hu hk.2.2.1)
        have hne : e.id ≠ u.1.id := fun h => hk.1.2 (h ▸ hmem)
        rw [find_cons_ne hne, find_none.mpr (fun h => hk.2.2.2 _ h _ hmem rfl)]
        exact ih hu hk.2.2.1
  have hmem : u.1.id ∈ ids (single t) := by simp [find_mem hin]
  have hne : t.1.id ≠ u.1.id := fun h => by
    simp at h1; exact h1.1 (h ▸ find_mem hin)
  have := find_in hn hp hmem
  rw [find_single_ne hne, hin] at this
  simp [content, this]

theorem child_data {W : World} (hn : (ids W).Nodup) {p : Nat} {t : Tree} (hp : find p W = some t)
    {u : Tree} (hu : u ∈ t.2.toList) : tagAt W u.1.id = some u.1.tag := by
  simp [tagAt, child_content hn hp hu]

theorem kidTags_find {W : World} (hn : (ids W).Nodup) {p : Nat} {t : Tree} (hp : find p W = some t) :
    kidTags W p = t.2.toList.map fun u => some u.1.tag := by
  unfold kidTags kidsOf children
  rw [hp]
  simp only [Option.map_some, Option.getD_some, List.map_map]
  exact List.map_congr_left fun u hu => child_data hn hp hu

/-- Addition of a new last child. -/
theorem addLast {W : World} (hn : (ids W).Nodup) {p : Nat} {t : Tree} (hp : find p W = some t)
    {n : Nat} (hnew : n ∉ ids W) (tag : String) (W' : World)
    (hW : W' = Forest.mapKids p (· ++ Forest.single (⟨n, tag, [], none, none⟩, .nil)) W) :
    (ids W').Nodup ∧ (∀ q, q ∈ ids W' ↔ q = n ∨ q ∈ ids W) ∧
    (∀ q ∈ ids W, content W' q = content W q) ∧
    (∀ q ∈ ids W, q ≠ p → children W' q = children W q) ∧
    children W' p = some (kidsOf W p ++ [n]) ∧
    content W' n = some (bare n tag) ∧ children W' n = some [] ∧ tops W' = tops W := by
  obtain ⟨L, R, h1, h2, h3, h4, h5⟩ :=
    subst_all hn hp (fun e k => cons e (k ++ single (⟨n, tag, [], none, none⟩, .nil)) nil)
  have hpi := (find_mem_ids hp).1
  have hW' : subst p (fun e k => cons e (k ++ single (⟨n, tag, [], none, none⟩, .nil)) nil) W = W' := by
    rw [hW]; rfl
  rw [hW'] at h2 h3 h4 h5
  generalize hG : (cons t.1 (t.2 ++ single (⟨n, tag, [], none, none⟩, .nil)) nil : Forest) = G
    at h2 h3 h4 h5
  have hGi : ids G = ids (single t) ++ [n] := by
    rw [← hG]; simp [ids]
  have hperm : (ids W').Perm (n :: ids W) := by
    rw [h2, h1, hGi]
    have h : (L ++ (ids (single t) ++ [n] ++ R)).Perm (L ++ (n :: (ids (single t) ++ R))) := by
      refine List.Perm.append_left L ?_
      rw [List.append_assoc]
      exact List.perm_middle
    exact h.trans List.perm_middle
  have hmem : ∀ q, q ∈ ids W' ↔ q = n ∨ q ∈ ids W := fun q => by rw [hperm.mem_iff]; simp
  have hnot : ∀ q ∈ ids G, q ∉ L ++ R := by
    have hd : (ids W').Nodup := hperm.nodup_iff.mpr (List.nodup_cons.mpr ⟨hnew, hn⟩)
    rw [h2] at hd
    intro q hq hq'
    simp only [List.nodup_append, List.mem_append] at hd
    rcases List.mem_append.mp hq' with h | h
    · exact hd.2.2 q h q (Or.inl hq) rfl
    · exact hd.2.1.2.2 q hq q h rfl
  have hroots : roots G = [p] := by rw [← hG]; simp [hpi]
  have hnt : n ∉ ids (single t) := fun h => hnew (by rw [h1]; exact List.mem_append_right _ (List.mem_append_left _ h))
  have hne : n ≠ p := fun h => hnt (by simp [h, hpi])
  have htn := nodup_tree hn hp
  -- nodes outside of the tree
  have hout : ∀ q, q ∉ ids G → node W' q = node W q := by
    intro q hq
    rw [h4 q hq (fun h => hq (by rw [hGi]; exact List.mem_append_left _ h)), hroots]
    cases node W q with
    | none => rfl
    | some u => simp [splice_self]
  have hfp : find p W' = some (t.1, t.2 ++ single (⟨n, tag, [], none, none⟩, .nil)) := by
    have hm : p ∈ ids G := by rw [hGi]; simp [hpi]
    rw [h5 p hm (hnot p hm), ← hG, ← hpi]; simp [find]
  have hfk : ∀ q ∈ ids t.2, find q W' = find q W := by
    intro q hq
    have hm : q ∈ ids G := by rw [hGi]; simp [hq]
    have hqe : t.1.id ≠ q := fun h => by simp at htn; exact htn.1 (h ▸ hq)
    obtain ⟨u, hu⟩ := find_some_of_mem hq
    rw [h5 q hm (hnot q hm), ← hG, find_cons_ne hqe, find_append, hu,
      find_in hn hp (q := q) (by simp [hq]), find_single_ne hqe, hu]
    rfl
  have hfn : find n W' = some (⟨n, tag, [], none, none⟩, .nil) := by
    have hm : n ∈ ids G := by rw [hGi]; simp
    have hnk : n ∉ ids t.2 := fun h => hnt (by simp [h])
    have : find n (single ((⟨n, tag, [], none, none⟩ : Elem), Forest.nil)) = some (⟨n, tag, [], none, none⟩, .nil) :=
      find_single_self (⟨n, tag, [], none, none⟩, .nil)
    rw [h5 n hm (hnot n hm), ← hG, find_cons_ne (hpi ▸ hne.symm), find_append, find_none.mpr hnk]
    rw [this]
    rfl
  have hcases : ∀ q ∈ ids W, q = p ∨ q ∈ ids t.2 ∨ q ∉ ids G := by
    intro q hq
    by_cases h : q ∈ ids G
    · rw [hGi] at h
      simp only [ids_single, hpi, List.mem_append, List.mem_cons, List.mem_singleton,
        List.not_mem_nil, or_false] at h
      rcases h with (h | h) | h
      · exact Or.inl h
      · exact Or.inr (Or.inl h)
      · exact absurd (h ▸ hq) hnew
    · exact Or.inr (Or.inr h)
  refine ⟨hperm.nodup_iff.mpr (List.nodup_cons.mpr ⟨hnew, hn⟩), hmem, ?_, ?_, ?_, ?_, ?_, ?_⟩
  · intro q hq
    rcases hcases q hq with h | h | h
    · rw [h]; simp [content, hfp, hp]
    · simp [content, hfk q h]
    · rw [content_node, content_node, hout q h]
  · intro q hq hqp
    rcases hcases q hq with h | h | h
    · exact absurd h hqp
    · simp [children, hfk q h]
    · rw [children_node, children_node, hout q h]
  · have : kidsOf W p = roots t.2 := by simp [kidsOf, children, hp, roots]
    rw [this]
    have h6 := roots_append t.2 (single ((⟨n, tag, [], none, none⟩ : Elem), Forest.nil))
    simp only [roots_single] at h6
    rw [← h6]
    simp [children, hfp, roots]
  · simp [content, hfn, bare]
  · simp [children, hfn, Forest.toList]
  · have h6 : roots W' = roots W := by rw [h3, hroots, splice_self]
    exact h6

/-- `subelement`: the first child with the tag, or a new last child. -/
theorem sub_spec {W : World} (hn : (ids W).Nodup) {p : Nat} (hp : p ∈ ids W) (tag : String) :
    ∃ W' c, sub p tag W = (W', .ok c) ∧ Ext W W' (only W p [tag]) ∧ Ref W' p tag c ∧
      (c ∉ ids W → children W' c = some []) := by
  obtain ⟨t, ht⟩ := find_some_of_mem hp
  have hk := kidTags_find hn ht
  unfold sub Body.subelement
  simp only [ht]
  cases hf : t.2.toList.find? (fun u => u.1.tag = tag) with
  | some u =>
    have hu := List.mem_of_find?_eq_some hf
    have htag : u.1.tag = tag := by simpa using List.find?_some hf
    refine ⟨W, u.1.id, rfl, ?_, ?_, ?_⟩
    · refine (Ext.refl hn).congr fun q _ => ?_
      unfold only missing
      split
      · have hx : some tag ∈ kidTags W p := by
          rw [hk]; exact List.mem_map.mpr ⟨u, hu, by rw [htag]⟩
        simp [List.filter, hx]
      · rfl
    · obtain ⟨_, A, B, hAB, hA⟩ := List.find?_eq_some_iff_append.mp hf
      refine ⟨A.map fun u => u.1.id, B.map fun u => u.1.id, ?_, ?_, ?_⟩
      · simp [children, ht, hAB]
      · rw [child_data hn ht hu, htag]
      · intro a ha
        obtain ⟨v, hv, rfl⟩ := List.mem_map.mp ha
        rw [child_data hn ht (by rw [hAB]; simp [hv])]
        have := hA v hv
        simpa using this
    · intro h
      exact absurd (mem_of_tagAt (child_data hn ht hu)) h
  | none =>
    obtain ⟨h1, h2, h3, h4, h5, h6, h7, h8⟩ := addLast hn ht (newId_not W) tag _ rfl
    have hnone : some tag ∉ kidTags W p := by
      rw [hk]
      intro h
      obtain ⟨u, hu, he⟩ := List.mem_map.mp h
      have := List.find?_eq_none.mp hf u hu
      simp at this he
      exact this he
    have hnp : newId W ≠ p := fun h => newId_not W (h ▸ hp)
    generalize hW' : mapKids p (fun x => x ++ single (⟨newId W, tag, [], none, none⟩, nil)) W = W'
      at h1 h2 h3 h4 h5 h6 h7 h8
    have htn : tagAt W' (newId W) = some tag := by
      unfold tagAt
      rw [h6]; rfl
    refine ⟨W', newId W, rfl, ⟨h1, h3, ?_, ?_, [], by simp [h8]⟩, ?_, fun _ => h7⟩
    · intro i hi hni
      rcases (h2 i).mp hi with h | h
      · exact ⟨tag, by rw [h]; exact h6⟩
      · exact absurd h hni
    · intro q hq
      unfold only missing
      by_cases hqp : q = p
      · subst hqp
        refine ⟨[newId W], h5, by simpa using newId_not W, ?_⟩
        simp [List.filter, hnone, htn]
      · refine ⟨[], ?_, by simp, by simp [hqp]⟩
        rcases (h2 q).mp hq with h | h
        · rw [h, h7, kidsOf_none (newId_not W)]; rfl
        · obtain ⟨l, hl⟩ := children_some h
          rw [h4 q h hqp, kidsOf_some hl, hl]; simp
    · refine ⟨kidsOf W p, [], h5, htn, ?_⟩
      intro a ha
      have hmem := kidsOf_mem ha
      have : tagAt W' a = tagAt W a := by
        unfold tagAt
        rw [h3 a hmem]
      rw [this]
      intro he
      exact hnone (List.mem_map.mpr ⟨a, ha, he⟩)

/-- An existing element is found and nothing changes. -/
theorem sub_ref {W : World} (hn : (ids W).Nodup) {p c : Nat} {tag : String} (h : Ref W p tag c) :
    sub p tag W = (W, .ok c) := by
  have hr := h
  obtain ⟨A, B, h1, h2, h3⟩ := h
  obtain ⟨t, ht, _⟩ := children_find h1
  obtain ⟨W', d, e1, e2, e3, _⟩ := sub_spec hn (mem_of_children h1) tag
  have hk := kidTags_find hn ht
  have hx : some tag ∈ kidTags W p := by
    unfold kidTags
    rw [kidsOf_some h1]
    exact List.mem_map.mpr ⟨c, by simp, h2⟩
  have hW : W' = W := by
    unfold sub Body.subelement at e1
    simp only [ht] at e1
    cases hf : t.2.toList.find? (fun u => u.1.tag = tag) with
    | some u => rw [hf] at e1; exact (Prod.mk.inj e1).1.symm
    | none =>
      rw [hk] at hx
      obtain ⟨u, hu, he⟩ := List.mem_map.mp hx
      have := List.find?_eq_none.mp hf u hu
      simp at this he
      exact absurd he this
  subst hW
  rw [e1, hr.unique e3]

theorem only_absent {W : World} {p q : Nat} {T : List String} (h : q ≠ p) : only W p T q = [] := by
  simp [only, h]

/-- Several elements of one parent. -/
theorem only_cons {W W1 : World} {p : Nat} {t : String} {T : List String} (hp : p ∈ ids W1)
    (h : Ext W W1 (only W p [t])) (ht : t ∉ T) (q : Nat) :
    only W p [t] q ++ only W1 p T q = only W p (t :: T) q := by
  unfold only
  split
  · have hk := h.kidTags hp
    unfold missing
    rw [show t :: T = [t] ++ T from rfl, List.filter_append]
    congr 1
    refine List.filter_congr fun x hx => ?_
    rw [hk]
    simp only [only, if_true, missing, List.mem_append, List.mem_map, Option.some.injEq,
      exists_eq_right, List.mem_filter, List.mem_singleton]
    have : x ≠ t := fun e => ht (e ▸ hx)
    simp [this]
  · rfl

/-- A step of a setup. -/
theorem sub_step {W W1 : World} {p : Nat} {t : String} {T : List String} (hp : p ∈ ids W)
    {add} (h : Ext W W1 (only W p [t])) (g : Ext W1 add (only W1 p T)) (ht : t ∉ T) :
    Ext W add (only W p (t :: T)) :=
  (h.trans g fun _ hq => only_absent fun e => hq (e ▸ h.mem hp)).congr fun q _ =>
    only_cons (h.mem hp) h ht q

end Verif.Parts
