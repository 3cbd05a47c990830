import Verif.Model.TextProgram
import Verif.Proofs.Frame
import Verif.Proofs.Variables
import Verif.Proofs.Program
/-! Helper lemmas for C81: the nodes of a document that a program does not change, and the free nodes. -/
namespace Verif.TextProg
open Verif Verif.Lxml Forest Verif.Whole
set_option linter.unusedSimpArgs false
open Classical

/-- The tags of the containers of declarations in a body -/
abbrev declTags : List String := ["text:variable-decls", "text:user-field-decls"]

/-- The nodes `F` of a document are in their places: with a node its parent, except for the body with a node its
children; of the children of the body they are the containers of declarations. -/
structure Kept (F : Nat → Prop) (W : World) (tag : String) (d : Parts.DocTree) : Prop where
  once : (ids W).Nodup
  refs : Parts.DocRefs W tag d
  mem : ∀ x, F x → x ∈ ids W
  up : ∀ q e l x, node W q = some (e, l) → x ∈ l → F x → F q
  down : ∀ q e l x, node W q = some (e, l) → x ∈ l → F q → q ≠ d.body.node → F x
  frame : ∀ p ∈ [d.styles.root, d.content.root, d.content.body, d.body.node], F p
  apart : ∀ p ∈ [d.styles.root, d.content.root, d.content.body], p ≠ d.body.node
  free : ∀ e l x, node W d.body.node = some (e, l) → x ∈ l → (¬ F x ↔ ∀ t ∈ declTags, Parts.tagAt W x ≠ some t)

/-- A node that is not one of them and is no container of declarations -/
structure Loose (F : Nat → Prop) (W : World) (n : Nat) : Prop where
  mem : n ∈ ids W
  free : ¬ F n
  tag : ∀ t ∈ declTags, Parts.tagAt W n ≠ some t

theorem node_some {W : World} {q : Nat} (h : q ∈ ids W) : ∃ e l, node W q = some (e, l) := by
  obtain ⟨t, ht⟩ := find_some_of_mem h
  exact ⟨t.1, roots t.2, node_of_find ht⟩

theorem node_mem {W : World} {q : Nat} {e : Elem} {l : List Nat} (h : node W q = some (e, l)) : q ∈ ids W := by
  obtain ⟨k, hk, -⟩ := find_of_node h
  exact find_mem hk

theorem node_kids {W : World} {q : Nat} {e : Elem} {l : List Nat} (h : node W q = some (e, l)) :
    children W q = some l := by
  obtain ⟨k, hk, rfl⟩ := find_of_node h
  exact Whole.children_find hk

theorem node_tagAt {W : World} {q : Nat} {e : Elem} {l : List Nat} (h : node W q = some (e, l)) :
    Parts.tagAt W q = some e.tag := by
  obtain ⟨k, hk, rfl⟩ := find_of_node h
  exact tagAt_find hk

theorem node_child {W : World} {q x : Nat} {e : Elem} {l : List Nat} (h : node W q = some (e, l)) (hx : x ∈ l) :
    x ∈ ids W := by
  obtain ⟨k, hk, rfl⟩ := find_of_node h
  exact (find_sub hk).subset (by simp [roots_sub hx])

/-- What holds of a node and with a node of its children holds of all nodes below. -/
theorem closed_tree {P : Nat → Prop} {W : World} (hn : (ids W).Nodup) :
    ∀ (k : Forest), (∀ u ∈ k.toList, find u.1.id W = some u) →
    (∀ q ∈ ids k, ∀ e l x, node W q = some (e, l) → x ∈ l → P q → P x) → (∀ x ∈ roots k, P x) → ∀ x ∈ ids k, P x
  | .nil, _, _, _, x, hx => by simp [ids] at hx
  | .cons e k r, hf, hd, hp, x, hx => by
    have f1 : find e.id W = some (e, k) := hf (e, k) (by simp)
    simp only [ids, List.mem_cons, List.mem_append] at hx
    rcases hx with rfl | hx | hx
    · exact hp _ (by simp)
    · refine closed_tree hn k (fun u hu => child_find hn f1 hu) (fun q hq => hd q (by simp [ids, hq])) (fun y hy => ?_) x hx
      exact hd e.id (by simp [ids]) e (roots k) y (node_of_find f1) hy (hp _ (by simp))
    · exact closed_tree hn r (fun u hu => hf u (by simp [hu])) (fun q hq => hd q (by simp [ids, hq]))
        (fun y hy => hp y (by simp [hy])) x hx

variable {F : Nat → Prop} {W W' : World} {tag : String} {d : Parts.DocTree}

/-- Where nothing in `F` is touched, the document is in order. -/
theorem Kept.step (h : Kept F W tag d) (hn' : (ids W').Nodup)
    (hsame : ∀ q, F q → q ≠ d.body.node → node W' q = node W q)
    (hbody : ∃ e l l', node W d.body.node = some (e, l) ∧ node W' d.body.node = some (e, l') ∧
      l'.filter (fun x => decide (F x)) = l.filter (fun x => decide (F x)) ∧
      ∀ x ∈ l', ¬ F x → ∀ t ∈ declTags, Parts.tagAt W' x ≠ some t)
    (hout : ∀ q e l x, node W' q = some (e, l) → ¬ F q → x ∈ l → ¬ F x) : Kept F W' tag d := by
  obtain ⟨e, l, l', b1, b2, b3, b4⟩ := hbody
  have htag : ∀ q, F q → Parts.tagAt W' q = Parts.tagAt W q := by
    intro q hq
    by_cases hb : q = d.body.node
    · rw [hb, node_tagAt b1, node_tagAt b2]
    · exact node_tag (hsame q hq hb)
  have hF := h.frame
  -- the references from a node of the frame that is not the body
  have href : ∀ p, F p → p ≠ d.body.node → ∀ t c, Parts.Ref W p t c → Parts.Ref W' p t c := by
    intro p hp hpb t c hr
    obtain ⟨A, B, r1, r2, r3⟩ := hr
    obtain ⟨e0, l0, hl0⟩ := node_some (h.mem p hp)
    have hk := node_kids hl0
    rw [r1] at hk
    cases hk
    have hfx : ∀ x ∈ A ++ c :: B, F x := fun x hx => h.down p e0 _ x hl0 hx hp hpb
    refine ⟨A, B, ?_, ?_, ?_⟩
    · rw [Whole.node_children (hsame p hp hpb)]; exact r1
    · rw [htag c (hfx c (by simp))]; exact r2
    · intro a ha
      rw [htag a (hfx a (by simp [ha]))]; exact r3 a ha
  have hd' : ∀ t ∈ declTags, ∀ v, Parts.Ref W d.body.node t v → F v ∧ Parts.Ref W' d.body.node t v ∧
      find v W' = find v W := by
    intro t ht v hr
    have hr0 := hr
    obtain ⟨A, B, r1, r2, r3⟩ := hr
    have hk := node_kids b1
    rw [r1] at hk
    cases hk
    have hv : F v := by
      by_contra hv
      exact (h.free _ _ v b1 (by simp)).mp hv t ht r2
    have hvb : v ≠ d.body.node := by
      intro he
      obtain ⟨tb, htb, hm⟩ := Program.ref_child hr0
      have h6 : (ids (single tb)).Nodup := nodup_tree h.once htb
      simp only [ids_single, List.nodup_cons, (find_mem_ids htb).1] at h6
      exact h6.1 (roots_sub (he ▸ hm))
    refine ⟨hv, ?_, ?_⟩
    · rw [ref_iff] at hr0 ⊢
      obtain ⟨l0, k1, k2⟩ := hr0
      rw [r1] at k1
      cases k1
      refine ⟨l', node_kids b2, ?_⟩
      have key : ∀ (V : World) (m : List Nat), (∀ x ∈ m, ¬ F x → Parts.tagAt V x ≠ some t) →
          m.find? (fun x => decide (Parts.tagAt V x = some t)) =
            (m.filter fun x => decide (F x)).find? fun x => decide (Parts.tagAt V x = some t) := by
        intro V m hm
        rw [List.find?_filter]
        refine find_congr' fun x hx => ?_
        by_cases hf : F x
        · simp [hf]
        · simp [hf, hm x hx hf]
      rw [key W' l' (fun x hx hf => b4 x hx hf t ht), b3]
      rw [key W _ (fun x hx hf => (h.free _ _ x b1 hx).mp hf t ht)] at k2
      rw [← k2]
      refine find_congr' fun x hx => ?_
      rw [htag x (by simpa using (List.mem_filter.mp hx).2)]
    · obtain ⟨tv, htv⟩ := find_some_of_mem (h.mem v hv)
      rw [htv]
      obtain ⟨tb, htb, hm⟩ := Program.ref_child hr0
      have hbody : d.body.node ∉ ids (single tv) := by
        intro hin
        have := both_in h.once htb htv hin (by simp [roots_sub hm])
        exact hvb this.symm
      refine tree_of_nodes h.once hn' htv fun q hq => ?_
      have hidv := (find_mem_ids htv).1
      have hqF : F q := by
        refine closed_tree h.once (single tv) ?_ ?_ ?_ q hq
        · intro u hu
          simp only [Forest.single, Forest.toList_cons, Forest.toList_nil, List.mem_singleton] at hu
          subst hu
          rw [hidv]; exact htv
        · intro q' hq' e' l' x hn0 hx hP
          exact h.down q' e' l' x hn0 hx hP fun hqb => hbody (hqb ▸ hq')
        · intro x hx
          simp at hx
          rw [hx, hidv]; exact hv
      exact hsame q hqF fun hqb => hbody (hqb ▸ hq)
  have ps := h.apart d.styles.root (by simp)
  have pc := h.apart d.content.root (by simp)
  have pb := h.apart d.content.body (by simp)
  have fs := hF d.styles.root (by simp)
  have fc := hF d.content.root (by simp)
  have fb := hF d.content.body (by simp)
  have hvars : ∀ t ∈ declTags, ∀ {D}, (∃ v, Parts.Ref W d.body.node t v ∧ Vars.init v W = (W, .ok D)) →
      ∃ v, Parts.Ref W' d.body.node t v ∧ Vars.init v W' = (W', .ok D) := by
    rintro t ht D ⟨v, r, i⟩
    obtain ⟨-, g2, g3⟩ := hd' t ht v r
    refine ⟨v, g2, ?_⟩
    unfold Vars.init at i ⊢
    rw [g3]
    cases hf : find v W with
    | none => rw [hf] at i; simp at i
    | some t =>
      rw [hf] at i
      simp only [Prod.mk.injEq, true_and] at i ⊢
      exact i
  refine ⟨hn', ⟨(htag _ fs).trans h.refs.stylesRoot, (htag _ fc).trans h.refs.contentRoot,
    ⟨href _ fs ps _ _ h.refs.styles.fonts, href _ fs ps _ _ h.refs.styles.styles,
     href _ fs ps _ _ h.refs.styles.automatic, href _ fs ps _ _ h.refs.styles.master⟩,
    ⟨href _ fc pc _ _ h.refs.content.scripts, href _ fc pc _ _ h.refs.content.fonts,
     href _ fc pc _ _ h.refs.content.automatic, href _ fc pc _ _ h.refs.content.body⟩,
    ⟨href _ fb pb _ _ h.refs.body.node, hvars _ (by simp) h.refs.body.vars, hvars _ (by simp) h.refs.body.fields,
     h.refs.body.sheets, h.refs.body.pages⟩, h.refs.sheets, h.refs.pages⟩, ?_, ?_, ?_, h.frame, h.apart, ?_⟩
  · intro x hx
    by_cases hb : x = d.body.node
    · rw [hb]; exact node_mem b2
    · obtain ⟨e0, l0, h0⟩ := node_some (h.mem x hx)
      rw [← hsame x hx hb] at h0
      exact node_mem h0
  · intro q e0 l0 x h0 hx hf
    by_contra hq
    exact hout q e0 l0 x h0 hq hx hf
  · intro q e0 l0 x h0 hx hq hb
    rw [hsame q hq hb] at h0
    exact h.down q e0 l0 x h0 hx hq hb
  · intro e0 l0 x h0 hx
    rw [b2] at h0
    cases h0
    refine ⟨b4 x hx, fun hx' hf => ?_⟩
    have hm : x ∈ l'.filter (fun x => decide (F x)) := List.mem_filter.mpr ⟨hx, by simpa using hf⟩
    rw [b3] at hm
    exact (h.free e l x b1 (List.mem_filter.mp hm).1).mpr (fun t ht => by rw [← htag x hf]; exact hx' t ht) hf

/-- What a call leaves in order -/
structure Step (F : Nat → Prop) (W W' : World) (tag : String) (d : Parts.DocTree) : Prop where
  kept : Kept F W' tag d
  loose : ∀ m, Loose F W m → Loose F W' m
  same : ∀ q, F q → q ≠ d.body.node → node W' q = node W q
  body : (node W' d.body.node).map (fun u => (u.1, u.2.filter fun x => decide (F x))) =
    (node W d.body.node).map fun u => (u.1, u.2.filter fun x => decide (F x))

theorem Step.refl (h : Kept F W tag d) : Step F W W tag d := ⟨h, fun _ h => h, fun _ _ _ => rfl, rfl⟩

theorem Step.trans {W1 W2 W3 : World} (h : Step F W1 W2 tag d) (g : Step F W2 W3 tag d) : Step F W1 W3 tag d :=
  ⟨g.1, fun m hm => g.2 m (h.2 m hm), fun q h1 h2 => (g.3 q h1 h2).trans (h.3 q h1 h2), g.4.trans h.4⟩

/-- Moving a free node `c` to a node `p` that is free or the body, or taking it away, or changing free nodes -/
theorem Kept.move (h : Kept F W tag d) (hn' : (ids W').Nodup) {E : Nat → Elem → Elem} {g : Nat → List Nat → List Nat}
    {p c : Nat} (hp : p = d.body.node ∨ ¬ F p) (hc : ¬ F c)
    (hct : p = d.body.node → ∀ t ∈ declTags, Parts.tagAt W c ≠ some t)
    (hnode : ∀ q, node W' q = (node W q).map fun u => (E q u.1, g q u.2))
    (hE : ∀ q e, F q → E q e = e) (htag : ∀ q e, (E q e).tag = e.tag)
    (hF : ∀ q e l, node W q = some (e, l) → (g q l).filter (fun x => decide (F x)) = l.filter (fun x => decide (F x)))
    (hin : ∀ q e l x, node W q = some (e, l) → x ∈ g q l → x ∈ l ∨ (q = p ∧ x = c)) :
    Step F W W' tag d := by
  have htags : ∀ x, Parts.tagAt W' x = Parts.tagAt W x := by
    intro x
    unfold Parts.tagAt Lxml.content
    have := congrArg (Option.map fun u : Elem × List Nat => u.1.tag) (hnode x)
    simp only [node, Option.map_map] at this
    simp only [Option.map_map]
    rw [show ((fun e : Elem => e.tag) ∘ fun t : Tree => t.1) = ((fun u : Elem × List Nat => u.1.tag) ∘ fun u : Tree => (u.1, roots u.2)) from rfl,
      this]
    congr 1
    funext t
    simp [htag]
  have hmem : ∀ {x}, x ∈ ids W → x ∈ ids W' := by
    intro x hx
    obtain ⟨e, l, hl⟩ := node_some hx
    have := hnode x
    rw [hl] at this
    exact node_mem this
  have hsame : ∀ q, F q → q ≠ d.body.node → node W' q = node W q := by
    intro q hq hqb
    obtain ⟨e, l, hl⟩ := node_some (h.mem q hq)
    rw [hnode q, hl]
    have hall : ∀ x ∈ l, F x := fun x hx => h.down q e l x hl hx hq hqb
    have hqp : q ≠ p := by
      rintro rfl
      rcases hp with hp | hp
      · exact hqb hp
      · exact hp hq
    have hg : ∀ x ∈ g q l, F x := fun x hx => by
      rcases hin q e l x hl hx with h1 | h1
      · exact hall x h1
      · exact absurd h1.1 hqp
    have h1 := hF q e l hl
    rw [List.filter_eq_self.mpr (fun x hx => by simpa using hg x hx),
      List.filter_eq_self.mpr (fun x hx => by simpa using hall x hx)] at h1
    simp [hE q e hq, h1]
  refine ⟨h.step hn' hsame ?_ ?_, fun m hm => ⟨hmem hm.mem, hm.free, fun t ht => by rw [htags]; exact hm.tag t ht⟩,
    hsame, ?_⟩
  · have hb := h.frame d.body.node (by simp)
    obtain ⟨e, l, hl⟩ := node_some (h.mem _ hb)
    refine ⟨e, l, g d.body.node l, hl, ?_, hF _ e l hl, ?_⟩
    · rw [hnode, hl]; simp [hE _ e hb]
    · intro x hx hfx t ht
      rw [htags]
      rcases hin _ e l x hl hx with h1 | h1
      · exact (h.free e l x hl h1).mp hfx t ht
      · rw [h1.2]; exact hct h1.1.symm t ht
  · intro q e l x hq hfq hx hfx
    rw [hnode] at hq
    obtain ⟨⟨e0, l0⟩, h0, h1⟩ := Option.map_eq_some_iff.mp hq
    cases h1
    rcases hin q e0 l0 x h0 hx with h2 | h2
    · exact hfq (h.up q e0 l0 x h0 h2 hfx)
    · rw [h2.2] at hfx; exact hc hfx
  · rw [hnode]
    cases hu : node W d.body.node with
    | none => rfl
    | some u => simp [hE _ u.1 (h.frame d.body.node (by simp)), hF _ u.1 u.2 hu]

/-- A new tree beside the others -/
theorem Kept.add (h : Kept F W tag d) {t : Tree} (h1 : (ids (single t)).Nodup)
    (h2 : ∀ i ∈ ids (single t), Parts.newId W ≤ i) (htag : t.1.tag ∉ declTags) :
    Step F W (W ++ single t) tag d ∧ Loose F (W ++ single t) t.1.id := by
  obtain ⟨a1, a2, a3⟩ := nodup_add h.once h1 h2
  have hnew : ∀ x, F x → x ∉ ids (single t) := fun x hx hin => by
    have := lt_newId (h.mem x hx)
    have := h2 x hin
    omega
  have hold : ∀ {q e l}, node W q = some (e, l) → node (W ++ single t) q = some (e, l) := by
    intro q e l hl
    obtain ⟨k, hk, rfl⟩ := find_of_node hl
    exact node_of_find (a3 _ _ hk)
  have htags : ∀ {x}, x ∈ ids W → Parts.tagAt (W ++ single t) x = Parts.tagAt W x := by
    intro x hx
    obtain ⟨u, hu⟩ := find_some_of_mem hx
    rw [tagAt_find hu, tagAt_find (a3 x u hu)]
  have hsame : ∀ q, F q → q ≠ d.body.node → node (W ++ single t) q = node W q := by
    intro q hq _
    obtain ⟨e, l, hl⟩ := node_some (h.mem q hq)
    rw [hl, hold hl]
  have hloose : ∀ m, Loose F W m → Loose F (W ++ single t) m := by
    intro m hm
    refine ⟨?_, hm.free, fun tg htg => ?_⟩
    · rw [ids_app]; exact List.mem_append_left _ hm.mem
    · rw [htags hm.mem]; exact hm.tag tg htg
  refine ⟨⟨h.step a1 hsame ?_ ?_, hloose, hsame, ?_⟩, ⟨find_mem a2, fun hf => hnew _ hf (by simp), fun tg htg => ?_⟩⟩
  · obtain ⟨e, l, hl⟩ := node_some (h.mem _ (h.frame d.body.node (by simp)))
    exact ⟨e, l, l, hl, hold hl, rfl, fun x hx hfx tg htg => by
      rw [htags (node_child hl hx)]; exact (h.free e l x hl hx).mp hfx tg htg⟩
  · intro q e l x hq hfq hx hfx
    by_cases hm : q ∈ ids W
    · obtain ⟨e0, l0, h0⟩ := node_some hm
      rw [hold h0] at hq
      cases hq
      exact hfq (h.up q e l x h0 hx hfx)
    · have hin : q ∈ ids (single t) := by
        have := node_mem hq
        rw [ids_app] at this
        exact (List.mem_append.mp this).resolve_left hm
      obtain ⟨k, hk, rfl⟩ := find_of_node hq
      rw [find_in a1 a2 hin] at hk
      exact hnew x hfx ((find_sub hk).subset (by simp [roots_sub hx]))
  · obtain ⟨e, l, hl⟩ := node_some (h.mem _ (h.frame d.body.node (by simp)))
    rw [hl, hold hl]
  · rw [tagAt_find a2]
    intro he
    cases he
    exact htag htg

/-! ## The operations of lxml -/

theorem filter_without_free {c : Nat} (hc : ¬ F c) (l : List Nat) :
    (without c l).filter (fun x => decide (F x)) = l.filter (fun x => decide (F x)) := by
  unfold without
  rw [List.filter_filter]
  refine List.filter_congr fun x _ => ?_
  by_cases hx : F x
  · have : x ≠ c := fun e => hc (e ▸ hx)
    simp [hx, this]
  · simp [hx]

theorem filter_splice_free {s : Nat} {g : List Nat}
    (hg : g.filter (fun x => decide (F x)) = [s].filter (fun x => decide (F x))) (l : List Nat) :
    (splice s g l).filter (fun x => decide (F x)) = l.filter (fun x => decide (F x)) := by
  induction l with
  | nil => rfl
  | cons a l ih =>
    unfold splice at ih ⊢
    rw [List.flatMap_cons, List.filter_append, ih]
    by_cases h : a = s
    · subst h
      rw [if_pos rfl, hg]
      by_cases hf : F a <;> simp [hf]
    · rw [if_neg h]
      by_cases hf : F a <;> simp [hf]

theorem mem_of_without {c x : Nat} {l : List Nat} (h : x ∈ without c l) : x ∈ l := (List.mem_filter.mp h).1

theorem mem_of_splice {s x : Nat} {g l : List Nat} (h : x ∈ splice s g l) : x ∈ l ∨ (s ∈ l ∧ x ∈ g) := by
  unfold splice at h
  obtain ⟨a, ha, hx⟩ := List.mem_flatMap.mp h
  by_cases he : a = s
  · rw [if_pos he] at hx; exact .inr ⟨he ▸ ha, hx⟩
  · rw [if_neg he] at hx
    simp at hx
    rw [hx]; exact .inl ha

/-- No node of the document is below a free node. -/
theorem Kept.outside (h : Kept F W tag d) {c : Nat} (hc : ¬ F c) {t : Tree} (ht : find c W = some t) :
    ∀ x ∈ ids (single t), ¬ F x := by
  have hid := (find_mem_ids ht).1
  refine closed_tree h.once (single t) ?_ ?_ ?_
  · intro u hu
    simp only [Forest.single, Forest.toList_cons, Forest.toList_nil, List.mem_singleton] at hu
    subst hu
    rw [hid]; exact ht
  · intro q _ e l x hn hx hq hfx
    exact hq (h.up q e l x hn hx hfx)
  · intro x hx
    simp at hx
    rw [hx, hid]; exact hc

theorem append_step (h : Kept F W tag d) {p c : Nat} (hp : p = d.body.node ∨ Loose F W p) (hc : Loose F W c) :
    Step F W (Lxml.append p c W).1 tag d := by
  have hpm : p ∈ ids W := by
    rcases hp with rfl | hp
    · exact h.mem _ (h.frame _ (by simp))
    · exact hp.mem
  obtain ⟨pt, hpt⟩ := find_some_of_mem hpm
  obtain ⟨t, ht⟩ := find_some_of_mem hc.mem
  by_cases hin : inTree t p = true
  · have : (Lxml.append p c W).1 = W := by unfold Lxml.append; rw [hpt, ht]; simp [hin]
    rw [this]; exact .refl h
  · have hno : p ∉ ids (single t) := by
      intro hm; apply hin; unfold inTree; simpa using hm
    obtain ⟨W', e, a1, a2, a3⟩ := append_all h.once hpt ht hno
    rw [e]
    refine h.move (a1.nodup_iff.mpr h.once) (E := fun _ e => e)
      (g := fun q l => if q = p then without c l ++ [c] else without c l) (p := p) (c := c)
      (hp.imp_right Loose.free) hc.free (fun _ => hc.tag) a3 (fun _ _ _ => rfl) (fun _ _ => rfl) ?_ ?_
    · intro q e l _
      split
      · rw [List.filter_append, filter_without_free hc.free]; simp [hc.free]
      · exact filter_without_free hc.free l
    · intro q e l x _ hx
      split at hx
      · rename_i hq
        rcases List.mem_append.mp hx with h1 | h1
        · exact .inl (mem_of_without h1)
        · exact .inr ⟨hq, by simpa using h1⟩
      · exact .inl (mem_of_without hx)

theorem getitem_spec {p : Nat} {i : Int} : (∃ e, Lxml.getitem p i W = (W, .error e)) ∨
    ∃ s t, Lxml.getitem p i W = (W, .ok s) ∧ find p W = some t ∧ s ∈ roots t.2 := by
  unfold Lxml.getitem
  cases hf : find p W with
  | none => exact .inl ⟨_, rfl⟩
  | some t =>
    dsimp only
    cases hi : pyIdx (roots t.2).length i with
    | none => exact .inl ⟨_, rfl⟩
    | some n =>
      dsimp only
      cases hs : (roots t.2)[n]? with
      | none => exact .inl ⟨_, rfl⟩
      | some s => exact .inr ⟨s, t, rfl, rfl, List.mem_of_getElem? hs⟩

theorem before_step (h : Kept F W tag d) {p c s : Nat} (hp : p = d.body.node ∨ Loose F W p) (hc : Loose F W c)
    {pt t : Tree} (hpt : find p W = some pt) (hs : s ∈ roots pt.2) (ht : find c W = some t) (hno : p ∉ ids (single t))
    (hne : s ≠ c) : Step F W ((detach c W).subst s fun e k => single t ++ single (e, k)) tag d := by
  obtain ⟨st, hst⟩ := find_some_of_mem ((find_sub hpt).subset (by simp [roots_sub hs]) : s ∈ ids W)
  obtain ⟨a1, a2, a3⟩ := before_all h.once ht hst (child_out h.once hpt ht hno hs hne)
  refine h.move (a1.nodup_iff.mpr h.once) (E := fun _ e => e)
    (g := fun q l => splice s [c, s] (without c l)) (p := p) (c := c)
    (hp.imp_right Loose.free) hc.free (fun _ => hc.tag) a3 (fun _ _ _ => rfl) (fun _ _ => rfl) ?_ ?_
  · intro q e l _
    rw [filter_splice_free, filter_without_free hc.free]
    by_cases hf : F s <;> simp [hc.free, hf]
  · intro q e l x hl hx
    rcases mem_of_splice hx with h1 | ⟨h1, h2⟩
    · exact .inl (mem_of_without h1)
    · obtain ⟨k, hk, rfl⟩ := find_of_node hl
      have := parent_unique h.once hk hpt (mem_of_without h1) hs
      simp only [List.mem_cons, List.not_mem_nil, or_false] at h2
      rcases h2 with rfl | rfl
      · exact .inr ⟨this, rfl⟩
      · exact .inl (mem_of_without h1)

theorem insert_step (h : Kept F W tag d) {p c : Nat} (i : Int) (hp : p = d.body.node ∨ Loose F W p)
    (hc : Loose F W c) : Step F W (Lxml.insert p i c W).1 tag d := by
  obtain ⟨t, ht⟩ := find_some_of_mem hc.mem
  unfold Lxml.insert
  rcases getitem_spec (W := W) (p := p) (i := i) with ⟨e, he⟩ | ⟨s, pt, he, hpt, hs⟩
  · rw [he]
    cases e <;> first | exact append_step h hp hc | exact .refl h
  · rw [he]
    dsimp only
    rw [ht]
    dsimp only
    split
    · exact .refl h
    · rename_i hin
      have hno : p ∉ ids (single t) := by
        intro hm; apply hin; unfold inTree; simpa using hm
      split
      · exact .refl h
      · rename_i hne
        exact before_step h hp hc hpt hs ht hno hne

/-- Taking a free node out of its place -/
theorem out_step (h : Kept F W tag d) {c : Nat} (hc : ¬ F c) {t : Tree} (ht : find c W = some t) (e : Elem)
    (he : e.id = t.1.id) (htag : e.tag = t.1.tag) : Step F W (detach c W ++ single (e, t.2)) tag d := by
  obtain ⟨a1, a2, a3⟩ := remove_all h.once ht e he
  have hcid := (find_mem_ids ht).1
  have a3' : ∀ q, node (detach c W ++ single (e, t.2)) q =
      (node W q).map fun u => ((fun q u => if q = c ∧ u.tag = e.tag then e else u) q u.1, (fun _ l => without c l) q u.2) := by
    intro q
    rw [a3 q]
    by_cases hq : q = c
    · subst hq
      rw [node_of_find ht]
      simp [htag]
    · simp [hq]
  refine h.move (a1.nodup_iff.mpr h.once) (E := fun q u => if q = c ∧ u.tag = e.tag then e else u)
    (g := fun _ l => without c l) (p := c) (c := c) (.inr hc) hc (fun e => absurd (h.frame c (by simp [e])) hc) a3' ?_ ?_ ?_ ?_
  · intro q u hq
    have : q ≠ c := fun h => hc (h ▸ hq)
    simp [this]
  · intro q u
    split
    · rename_i h; exact h.2.symm
    · rfl
  · intro q u l _; exact filter_without_free hc l
  · intro q u l x _ hx; exact .inl (mem_of_without hx)

theorem remove_step (h : Kept F W tag d) (p : Nat) {c : Nat} (hc : ¬ F c) :
    Step F W (Lxml.remove p c W).1 tag d := by
  unfold Lxml.remove
  cases ht : find c W with
  | none => cases find p W <;> exact .refl h
  | some t =>
    cases find p W with
    | none => exact .refl h
    | some pt =>
      dsimp only
      split
      · exact out_step h hc ht t.1 rfl rfl
      · exact .refl h

theorem delitem_step (h : Kept F W tag d) {p : Nat} {i : Int}
    (hs : ∀ s, Lxml.getitem p i W = (W, .ok s) → ¬ F s) : Step F W (Lxml.delitem p i W).1 tag d := by
  unfold Lxml.delitem
  rcases getitem_spec (W := W) (p := p) (i := i) with ⟨e, he⟩ | ⟨s, pt, he, hpt, hsp⟩
  · rw [he]; exact .refl h
  · rw [he]
    dsimp only
    have hc := hs s he
    obtain ⟨t, ht⟩ := find_some_of_mem ((find_sub hpt).subset (by simp [roots_sub hsp]) : s ∈ ids W)
    rw [ht]
    exact out_step h hc ht { t.1 with tail := none } rfl rfl

theorem replace_step (h : Kept F W tag d) {p old c : Nat} (hp : p = d.body.node ∨ Loose F W p) (ho : ¬ F old)
    (hc : Loose F W c) : Step F W (Lxml.replace p old c W).1 tag d := by
  obtain ⟨t, ht⟩ := find_some_of_mem hc.mem
  unfold Lxml.replace
  rw [ht]
  cases hpt : find p W with
  | none => cases find old W <;> exact .refl h
  | some pt =>
    cases hot : find old W with
    | none => exact .refl h
    | some ot =>
      dsimp only
      split
      · exact .refl h
      · rename_i hch
        have hch : old ∈ roots pt.2 := by simpa using hch
        split
        · exact .refl h
        · rename_i hin
          have hno : p ∉ ids (single t) := by
            intro hm; apply hin; unfold inTree; simpa using hm
          split
          · exact .refl h
          · rename_i hne
            obtain ⟨o, b1, a1, a2, a3⟩ := replace_all h.once ht hot (child_out h.once hpt ht hno hch hne)
            rw [b1]
            dsimp only
            refine h.move (a1.nodup_iff.mpr h.once) (E := fun _ e => e)
              (g := fun q l => splice old [c] (without c l)) (p := p) (c := c)
              (hp.imp_right Loose.free) hc.free (fun _ => hc.tag) a3 (fun _ _ _ => rfl) (fun _ _ => rfl) ?_ ?_
            · intro q e l _
              rw [filter_splice_free, filter_without_free hc.free]
              simp [hc.free, ho]
            · intro q e l x hl hx
              rcases mem_of_splice hx with h1 | ⟨h1, h2⟩
              · exact .inl (mem_of_without h1)
              · obtain ⟨k, hk, rfl⟩ := find_of_node hl
                have := parent_unique h.once hk hpt (mem_of_without h1) hch
                exact .inr ⟨this, by simpa using h2⟩

theorem subst_congr {F : Forest} (hn : (ids F).Nodup) {i : Nat} {t : Tree} (h : find i F = some t)
    (f g : Elem → Forest → Forest) (hf : f t.1 t.2 = g t.1 t.2) : subst i f F = subst i g F := by
  obtain ⟨c, h1, h2⟩ := ctx_exists hn h
  rw [h2, h2, hf]

theorem clear_step (h : Kept F W tag d) {c : Nat} (hc : ¬ F c) : Step F W (Lxml.clear c W).1 tag d := by
  unfold Lxml.clear
  cases ht : find c W with
  | none => exact .refl h
  | some t =>
    dsimp only
    obtain ⟨a1, a2, a3⟩ := clear_all h.once ht { t.1 with attrs := [], text := none, tail := none } rfl
    have hsub : (W.subst c fun e _ => single ({ e with attrs := [], text := none, tail := none }, .nil)) =
        W.subst c fun _ _ => single ({ t.1 with attrs := [], text := none, tail := none }, .nil) := by
      exact subst_congr h.once ht _ _ rfl
    rw [hsub]
    refine h.move (a1.nodup_iff.mpr h.once)
      (E := fun q u => if q = c then { u with attrs := [], text := none, tail := none } else u)
      (g := fun q l => if q = c then [] else l) (p := c) (c := c) (.inr hc) hc (fun e => absurd (h.frame c (by simp [e])) hc) ?_ ?_ ?_ ?_ ?_
    · intro q
      rw [a3 q]
      by_cases hq : q = c
      · subst hq
        rw [node_of_find ht]
        simp
      · simp [hq]
    · intro q u hq
      have : q ≠ c := fun h => hc (h ▸ hq)
      simp [this]
    · intro q u; split <;> rfl
    · intro q u l hl
      split
      · rename_i hq
        subst hq
        rw [List.filter_nil]
        symm
        rw [List.filter_eq_nil_iff]
        intro x hx
        simpa using fun hf => hc (h.up q u l x hl hx hf)
      · rfl
    · intro q u l x _ hx
      split at hx
      · simp at hx
      · exact .inl hx

theorem amend_step (h : Kept F W tag d) {c : Nat} (hc : ¬ F c) {f : Elem → Elem} (hid : ∀ e, (f e).id = e.id)
    (htag : ∀ e, (f e).tag = e.tag) : Step F W (Vars.amend c f W).1 tag d := by
  unfold Vars.amend
  dsimp only
  have hg : ∀ e : Elem, (if e.id = c then f e else e).id = e.id := fun e => by split <;> simp [hid]
  refine h.move (by rw [Forest.ids_map hg]; exact h.once) (E := fun q u => if q = c then f u else u)
    (g := fun _ l => l) (p := c) (c := c) (.inr hc) hc (fun e => absurd (h.frame c (by simp [e])) hc) ?_ ?_ ?_ (fun _ _ _ _ => rfl) (fun _ _ _ _ _ hx => .inl hx)
  · intro q
    unfold node
    rw [Forest.find_map hg]
    cases hq : find q W with
    | none => rfl
    | some u =>
      have := (find_mem_ids hq).1
      simp [Lxml.roots_map hg, this]
  · intro q u hq
    have : q ≠ c := fun h => hc (h ▸ hq)
    simp [this]
  · intro q u; split <;> simp [htag]

theorem newNode_step (h : Kept F W tag d) (e : Elem) (ht : e.tag ∉ declTags) :
    Step F W (newNode e W).1 tag d ∧ (newNode e W).2 = .ok (Parts.newId W) ∧ Loose F (newNode e W).1 (Parts.newId W) := by
  obtain ⟨h1, h2⟩ := h.add (t := ({ e with id := Parts.newId W }, .nil)) (by simp [ids]) (by simp [ids]) ht
  exact ⟨h1, rfl, h2⟩

end Verif.TextProg
