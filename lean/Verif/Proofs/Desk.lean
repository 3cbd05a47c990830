import Verif.Model.Desk
import Verif.Props.PageProgram
import Verif.Props.VarTexts
/-! Helper lemmas for C86: what a statement with one document leaves of the others. -/
namespace Verif.Desk
open Verif Verif.Lxml Forest Verif.Whole Verif.Document
open Verif.TextProg (Kept Loose Step Firm Fits node_some node_mem node_kids node_tagAt node_child declTags closed_tree)
set_option linter.unusedSimpArgs false

variable {F G : Nat → Prop} {W W' : World} {tag : String} {d : Parts.DocTree}

/-- The new nodes belong to the others. -/
def later (F : Nat → Prop) (W W' : World) (x : Nat) : Prop := x ∈ ids W' ∧ ¬ (x ∈ ids W ∧ ¬ F x)

/-- A change that does not touch the trees and the free nodes of the document. -/
structure Quiet (F : Nat → Prop) (W W' : World) (d : Parts.DocTree) : Prop where
  once : (ids W').Nodup
  free : ∀ q ∈ ids W, ¬ F q → node W' q = node W q
  trees : ∀ r ∈ [d.styles.root, d.content.root], ∀ t, find r W = some t → ∀ q ∈ ids (single t), node W' q = node W q
  up : ∀ q e l x, node W' q = some (e, l) → x ∈ l → x ∈ ids W → ¬ F x → ∃ e0 l0, node W q = some (e0, l0) ∧ x ∈ l0
  roots : ∀ r ∈ [d.styles.root, d.content.root], r ∈ Lxml.roots W → r ∈ Lxml.roots W'

theorem Quiet.tree (h : Quiet F W W' d) (hn : (ids W).Nodup) {r : Nat} (hr : r ∈ [d.styles.root, d.content.root])
    (hm : r ∈ ids W) : find r W' = find r W := by
  obtain ⟨t, ht⟩ := find_some_of_mem hm
  rw [ht]
  exact tree_of_nodes hn h.once ht (h.trees r hr t ht)

/-- The free trees are unchanged. -/
theorem Quiet.below (h : Quiet F W W' d) (hk : Kept F W tag d) {n : Nat} (hm : n ∈ ids W) (hf : ¬ F n) :
    Forest.find n W' = Forest.find n W := by
  obtain ⟨t, ht⟩ := find_some_of_mem hm
  rw [ht]
  refine tree_of_nodes hk.once h.once ht fun q hq => h.free q ((find_sub ht).subset hq) (hk.outside hf ht q hq)

theorem ref_same {p : Nat} {t : String} {c : Nat} (h : Parts.Ref W p t c) (hp : node W' p = node W p)
    (hk : ∀ e l x, node W p = some (e, l) → x ∈ l → node W' x = node W x) : Parts.Ref W' p t c := by
  obtain ⟨A, B, r1, r2, r3⟩ := h
  obtain ⟨e, l, hl⟩ := node_some (Parts.mem_of_children r1)
  have h1 := node_kids hl
  rw [r1] at h1
  cases h1
  refine ⟨A, B, ?_, ?_, fun a ha => ?_⟩
  · rw [Whole.node_children hp]; exact r1
  · rw [node_tag (hk e _ c hl (by simp))]; exact r2
  · rw [node_tag (hk e _ a hl (by simp [ha]))]; exact r3 a ha

/-- In the tree of `r` there are with a node its children. -/
theorem kids_in (hn : (ids W).Nodup) {r q x : Nat} {t : Tree} (ht : find r W = some t) (hq : q ∈ ids (single t))
    {e : Elem} {l : List Nat} (hl : node W q = some (e, l)) (hx : x ∈ l) : x ∈ ids (single t) := by
  obtain ⟨k, hk, rfl⟩ := find_of_node hl
  rw [find_in hn ht hq] at hk
  exact (find_sub hk).subset (by simp [roots_sub hx])

theorem ref_in (hn : (ids W).Nodup) {r p c : Nat} {tg : String} {t : Tree} (ht : find r W = some t) (hp : p ∈ ids (single t))
    (h : Parts.Ref W p tg c) : c ∈ ids (single t) := by
  obtain ⟨u, hu, hc⟩ := Program.ref_child h
  exact kids_in hn ht hp (node_of_find hu) hc

/-- The references of the document are the same in the new memory. -/
theorem Quiet.refs (h : Quiet F W W' d) (hk : Kept F W tag d) : Parts.DocRefs W' tag d := by
  have hn := hk.once
  obtain ⟨s, hs⟩ := find_some_of_mem (hk.mem _ (hk.frame d.styles.root (by simp)))
  obtain ⟨c, hc⟩ := find_some_of_mem (hk.mem _ (hk.frame d.content.root (by simp)))
  have hS := h.trees d.styles.root (by simp) s hs
  have hC := h.trees d.content.root (by simp) c hc
  have s0 : d.styles.root ∈ ids (single s) := by simp [(find_mem_ids hs).1]
  have c0 : d.content.root ∈ ids (single c) := by simp [(find_mem_ids hc).1]
  have R := hk.refs
  have c1 := ref_in hn hc c0 R.content.body
  have c2 := ref_in hn hc c1 R.body.node
  have keyS : ∀ {p t x}, p ∈ ids (single s) → Parts.Ref W p t x → Parts.Ref W' p t x := fun hp hr =>
    ref_same hr (hS _ hp) fun e l x hl hx => hS x (kids_in hn hs hp hl hx)
  have keyC : ∀ {p t x}, p ∈ ids (single c) → Parts.Ref W p t x → Parts.Ref W' p t x := fun hp hr =>
    ref_same hr (hC _ hp) fun e l x hl hx => hC x (kids_in hn hc hp hl hx)
  have hvars : ∀ t {D}, (∃ v, Parts.Ref W d.body.node t v ∧ Vars.init v W = (W, .ok D)) →
      ∃ v, Parts.Ref W' d.body.node t v ∧ Vars.init v W' = (W', .ok D) := by
    rintro t D ⟨v, r, i⟩
    refine ⟨v, keyC c2 r, ?_⟩
    have hv := ref_in hn hc c2 r
    obtain ⟨tv, htv⟩ := find_some_of_mem ((find_sub hc).subset hv)
    have : find v W' = some tv := by
      refine tree_of_nodes hn h.once htv fun q hq => hC q ?_
      rw [find_in hn hc hv] at htv
      exact (find_sub htv).subset hq
    unfold Vars.init at i ⊢
    rw [this]
    rw [htv] at i
    simp only [Prod.mk.injEq, true_and] at i ⊢
    exact i
  exact ⟨(node_tag (hS _ s0)).trans R.stylesRoot, (node_tag (hC _ c0)).trans R.contentRoot,
    ⟨keyS s0 R.styles.fonts, keyS s0 R.styles.styles, keyS s0 R.styles.automatic, keyS s0 R.styles.master⟩,
    ⟨keyC c0 R.content.scripts, keyC c0 R.content.fonts, keyC c0 R.content.automatic, keyC c0 R.content.body⟩,
    ⟨keyC c1 R.body.node, hvars _ R.body.vars, hvars _ R.body.fields, R.body.sheets, R.body.pages⟩, R.sheets, R.pages⟩

theorem node_ids (h : node W' q = node W q) (hq : q ∈ ids W) : q ∈ ids W' := by
  obtain ⟨e, l, hl⟩ := node_some hq
  rw [← h] at hl
  exact node_mem hl

/-- The document is in order in the new memory. -/
theorem Quiet.kept (h : Quiet F W W' d) (hk : Kept F W tag d) : Kept (later F W W') W' tag d := by
  have hn := hk.once
  obtain ⟨s, hs⟩ := find_some_of_mem (hk.mem _ (hk.frame d.styles.root (by simp)))
  obtain ⟨c, hc⟩ := find_some_of_mem (hk.mem _ (hk.frame d.content.root (by simp)))
  have hS := h.trees d.styles.root (by simp) s hs
  have hC := h.trees d.content.root (by simp) c hc
  have s0 : d.styles.root ∈ ids (single s) := by simp [(find_mem_ids hs).1]
  have c0 : d.content.root ∈ ids (single c) := by simp [(find_mem_ids hc).1]
  have c1 := ref_in hn hc c0 hk.refs.content.body
  have c2 := ref_in hn hc c1 hk.refs.body.node
  refine ⟨h.once, h.refs hk, fun x hx => hx.1, ?_, ?_, ?_, hk.apart, ?_⟩
  · intro q e l x hq hx hf
    refine ⟨node_mem hq, fun ⟨h1, h2⟩ => ?_⟩
    rw [h.free q h1 h2] at hq
    exact hf.2 ⟨node_child hq hx, fun hFx => h2 (hk.up q e l x hq hx hFx)⟩
  · intro q e l x hq hx hf hb
    refine ⟨node_child hq hx, fun ⟨h1, h2⟩ => ?_⟩
    obtain ⟨e0, l0, h3, h4⟩ := h.up q e l x hq hx h1 h2
    refine hf.2 ⟨node_mem h3, fun hFq => h2 (hk.down q e0 l0 x h3 h4 hFq hb)⟩
  · intro p hp
    have hF := hk.frame p hp
    have hin : p ∈ ids W' := by
      simp only [List.mem_cons, List.not_mem_nil, or_false] at hp
      rcases hp with rfl | rfl | rfl | rfl
      · exact node_ids (hS _ s0) (hk.mem _ hF)
      · exact node_ids (hC _ c0) (hk.mem _ hF)
      · exact node_ids (hC _ c1) (hk.mem _ hF)
      · exact node_ids (hC _ c2) (hk.mem _ hF)
    exact ⟨hin, fun hx => hx.2 hF⟩
  · intro e l x hl hx
    have hx' := node_child hl hx
    rw [hC _ c2] at hl
    have hxW := node_child hl hx
    have htag : Parts.tagAt W' x = Parts.tagAt W x := node_tag (hC x (kids_in hn hc c2 hl hx))
    rw [htag, ← hk.free e l x hl hx]
    constructor
    · intro hno hF
      exact hno ⟨hx', fun h => h.2 hF⟩
    · intro hno hF
      exact hF.2 ⟨hxW, hno⟩

theorem Quiet.loose (h : Quiet F W W' d) {n : Nat} (hl : Loose F W n) : Loose (later F W W') W' n := by
  have hs := h.free n hl.mem hl.free
  exact ⟨node_ids hs hl.mem, fun hf => hf.2 ⟨hl.mem, hl.free⟩, fun t ht => by rw [node_tag hs]; exact hl.tag t ht⟩

/-! ## A statement with another document -/

/-- The trees of two documents and their free nodes are apart. -/
structure Apart (F G : Nat → Prop) (W : World) (d e : Parts.DocTree) : Prop where
  free : ∀ x ∈ ids W, F x ∨ G x
  left : ∀ r ∈ [d.styles.root, d.content.root], G r
  right : ∀ r ∈ [e.styles.root, e.content.root], F r
  roots : ∀ r ∈ [d.styles.root, d.content.root], r ∉ [e.styles.root, e.content.root]

theorem Apart.symm {e : Parts.DocTree} (h : Apart F G W d e) : Apart G F W e d :=
  ⟨fun x hx => (h.free x hx).symm, h.right, h.left, fun r hr hr' => h.roots r hr' hr⟩

/-- A document whose two roots are roots of the memory -/
structure Held (F : Nat → Prop) (W : World) (tag : String) (d : Parts.DocTree) : Prop where
  kept : Kept F W tag d
  roots : ∀ r ∈ [d.styles.root, d.content.root], r ∈ Lxml.roots W

/-- Trees of different roots have no common node. -/
theorem roots_apart (hn : (ids W).Nodup) {a b : Nat} (ha : a ∈ Lxml.roots W) (hb : b ∈ Lxml.roots W) (hne : a ≠ b)
    {A B : Tree} (hA : find a W = some A) (hB : find b W = some B) {x : Nat} (h1 : x ∈ ids (single A))
    (h2 : x ∈ ids (single B)) : False := by
  have top : ∀ {a b : Nat} {A B : Tree}, find a W = some A → find b W = some B → a ∈ Lxml.roots W → a ≠ b →
      a ∈ ids (single B) → False := by
    intro a b A B hA hB ha hne hin
    simp only [ids_single, List.mem_cons, (find_mem_ids hB).1] at hin
    exact child_not_root hn hB (hin.resolve_left hne) ha
  rcases laminar hn hA hB h1 h2 with h | h
  · exact top hA hB ha hne h
  · exact top hB hA hb hne.symm h

theorem body_in (hk : Kept F W tag d) {c : Tree} (hc : find d.content.root W = some c) : d.body.node ∈ ids (single c) := by
  have c0 : d.content.root ∈ ids (single c) := by simp [(find_mem_ids hc).1]
  exact ref_in hk.once hc (ref_in hk.once hc c0 hk.refs.content.body) hk.refs.body.node

/-- The body of a document is in no tree of another one. -/
theorem body_out {e : Parts.DocTree} {tag' : String} (hd : Held F W tag d) (he : Held G W tag' e) (ha : Apart F G W d e)
    {r : Nat} (hr : r ∈ [e.styles.root, e.content.root]) {t : Tree} (ht : find r W = some t) :
    d.body.node ∉ ids (single t) := by
  intro hin
  obtain ⟨c, hc⟩ := find_some_of_mem (hd.kept.mem _ (hd.kept.frame d.content.root (by simp)))
  refine roots_apart hd.kept.once (hd.roots d.content.root (by simp)) (he.roots r hr) ?_ hc ht (body_in hd.kept hc) hin
  rintro rfl
  exact ha.roots d.content.root (by simp) hr

/-- All nodes of the trees of the one document are no free nodes of the other. -/
theorem trees_right {e : Parts.DocTree} {tag' : String} (hd : Held F W tag d) (he : Held G W tag' e)
    (ha : Apart F G W d e) {r : Nat} (hr : r ∈ [e.styles.root, e.content.root]) {t : Tree} (ht : find r W = some t) :
    ∀ x ∈ ids (single t), F x := by
  have hb := body_out hd he ha hr ht
  refine closed_tree hd.kept.once (single t) ?_ ?_ ?_
  · intro u hu
    obtain rfl : u = t := by simpa [single] using hu
    rw [(find_mem_ids ht).1]; exact ht
  · intro q hq e' l x hl hx hF
    exact hd.kept.down q e' l x hl hx hF fun he' => hb (he' ▸ hq)
  · intro x hx
    obtain rfl : x = r := by simpa [single, (find_mem_ids ht).1] using hx
    exact ha.right _ hr

/-- A statement with `d` is quiet for `e`. -/
theorem quiet_firm {e : Parts.DocTree} {tag' : String} (hd : Held F W tag d) (he : Held G W tag' e) (ha : Apart F G W d e)
    (hs : Firm F W W' tag d) : Quiet G W W' e := by
  have hbG : G d.body.node := by
    obtain ⟨c, hc⟩ := find_some_of_mem (hd.kept.mem _ (hd.kept.frame d.content.root (by simp)))
    exact trees_right he hd ha.symm (r := d.content.root) (by simp) hc _ (body_in hd.kept hc)
  have htree : ∀ r ∈ [e.styles.root, e.content.root], ∀ t, find r W = some t → ∀ q ∈ ids (single t), node W' q = node W q := by
    intro r hr t ht q hq
    exact hs.same q (trees_right hd he ha hr ht q hq) fun h => body_out hd he ha hr ht (h ▸ hq)
  have hup : ∀ q e0 l x, node W' q = some (e0, l) → x ∈ l → x ∈ ids W → F x → ∃ e1 l1, node W q = some (e1, l1) ∧ x ∈ l1 := by
    intro q e0 l x hq hx hxW hFx
    have hFq : F q := hs.kept.up q e0 l x hq hx hFx
    by_cases hb : q = d.body.node
    · subst hb
      have h1 := hs.body
      rw [hq] at h1
      cases hq0 : node W d.body.node with
      | none => rw [hq0] at h1; cases h1
      | some u =>
        rw [hq0] at h1
        simp only [Option.map_some, Option.some.injEq, Prod.mk.injEq] at h1
        have hm : x ∈ l.filter (fun x => @decide (F x) (Classical.propDecidable _)) :=
          List.mem_filter.mpr ⟨hx, by simpa using hFx⟩
        rw [h1.2] at hm
        exact ⟨u.1, u.2, rfl, (List.mem_filter.mp hm).1⟩
    · rw [hs.same q hFq hb] at hq
      exact ⟨e0, l, hq, hx⟩
  refine ⟨hs.kept.once, ?_, htree, ?_, ?_⟩
  · intro q hq hG
    have hF := (ha.free q hq).resolve_right hG
    exact hs.same q hF fun h => hG (h ▸ hbG)
  · intro q e0 l x hq hx hxW hG
    exact hup q e0 l x hq hx hxW ((ha.free x hxW).resolve_right hG)
  · intro r hr hroot
    have hFr := ha.right r hr
    by_contra hno
    obtain ⟨q, u, hu, hm⟩ := exists_parent hs.kept.once (hs.kept.mem r hFr) hno
    obtain ⟨e1, l1, h1, h2⟩ := hup q _ _ r (node_of_find hu) hm (roots_sub hroot) hFr
    obtain ⟨k, hk, rfl⟩ := find_of_node h1
    exact child_not_root hd.kept.once hk (roots_sub h2) hroot

theorem Quiet.held (h : Quiet F W W' d) (hd : Held F W tag d) : Held (later F W W') W' tag d :=
  ⟨h.kept hd.kept, fun r hr => h.roots r hr (hd.roots r hr)⟩

theorem quiet_step {e : Parts.DocTree} {tag' : String} (hd : Held F W tag d) (he : Held G W tag' e) (ha : Apart F G W d e)
    (hs : Step F W W' tag d) : Quiet G W W' e := quiet_firm hd he ha hs.firm

theorem held_firm (hd : Held F W tag d) (hs : Firm F W W' tag d) : Held F W' tag d :=
  ⟨hs.kept, fun r hr => VarProg.root_firm hd.kept hs hr (hd.roots r hr)⟩

theorem held_step (hd : Held F W tag d) (hs : Step F W W' tag d) : Held F W' tag d := held_firm hd hs.firm

/-- Both quiet -/
theorem apart_quiet {e : Parts.DocTree} (ha : Apart F G W d e) (hq : Quiet F W W' d) (hq' : Quiet G W W' e)
    {tag tag' : String} (hd : Held F W tag d) (he : Held G W tag' e) :
    Apart (later F W W') (later G W W') W' d e := by
  refine ⟨fun x hx => ?_, fun r hr => ?_, fun r hr => ?_, ha.roots⟩
  · by_cases hW : x ∈ ids W
    · rcases ha.free x hW with h | h
      · exact .inl ⟨hx, fun g => g.2 h⟩
      · exact .inr ⟨hx, fun g => g.2 h⟩
    · exact .inl ⟨hx, fun g => hW g.1⟩
  · exact ⟨roots_sub (hq.roots r hr (hd.roots r hr)), fun g => g.2 (ha.left r hr)⟩
  · exact ⟨roots_sub (hq'.roots r hr (he.roots r hr)), fun g => g.2 (ha.right r hr)⟩

/-- The one acts, the other is quiet. -/
theorem apart_step {e : Parts.DocTree} (ha : Apart F G W d e) {tag : String} (hd : Held F W' tag d) :
    Apart F (later G W W') W' d e := by
  refine ⟨fun x hx => ?_, fun r hr => ?_, fun r hr => ha.right r hr, ha.roots⟩
  · by_cases hW : x ∈ ids W
    · rcases ha.free x hW with h | h
      · exact .inl h
      · exact .inr ⟨hx, fun g => g.2 h⟩
    · exact .inr ⟨hx, fun g => hW g.1⟩
  · exact ⟨roots_sub (hd.roots r hr), fun g => g.2 (ha.left r hr)⟩

/-! ## Opening another document -/

/-- The memory `V` has all of `A`, unchanged. -/
structure Beside (A V : World) : Prop where
  once : (ids V).Nodup
  same : ∀ q ∈ ids A, node V q = node A q
  roots : ∀ r ∈ Lxml.roots A, r ∈ Lxml.roots V

theorem Beside.parent {A V : World} (h : Beside A V) (hn : (ids A).Nodup) {p c : Nat} {e : Elem} {l : List Nat}
    (hp : node V p = some (e, l)) (hc : c ∈ l) (hcA : c ∈ ids A) : p ∈ ids A := by
  by_cases hr : c ∈ Lxml.roots A
  · obtain ⟨k, hk, rfl⟩ := find_of_node hp
    exact absurd (h.roots c hr) (child_not_root h.once hk (roots_sub hc))
  · obtain ⟨q, u, hu, hm⟩ := exists_parent hn hcA hr
    have hq := find_mem hu
    have h1 := h.same q hq
    rw [node_of_find hu] at h1
    obtain ⟨k, hk, hk2⟩ := find_of_node h1
    obtain ⟨k', hk', rfl⟩ := find_of_node hp
    rw [parent_unique h.once hk' hk hc (by rw [hk2]; exact hm)]
    exact hq

theorem Beside.ref {A V : World} (h : Beside A V) (hn : (ids A).Nodup) {p c : Nat} {t : String} (hr : Parts.Ref V p t c)
    (hp : p ∉ ids A) : c ∉ ids A := by
  obtain ⟨u, hu, hc⟩ := Program.ref_child hr
  exact fun hcA => hp (h.parent hn (node_of_find hu) hc hcA)

theorem Beside.refl {A : World} (hn : (ids A).Nodup) : Beside A A := ⟨hn, fun _ _ => rfl, fun _ h => h⟩

theorem ext_node {V V' : World} {a : Nat → List String} (x : Parts.Ext V V' a) {q : Nat} (hq : q ∈ ids V) (h0 : a q = []) :
    node V' q = node V q := by
  obtain ⟨t, ht⟩ := find_some_of_mem hq
  obtain ⟨m, h1, -, h3⟩ := x.kids q (x.mem hq)
  rw [h0] at h3
  have hm : m = [] := by simpa using h3
  subst hm
  have hk : Parts.kidsOf V q = Lxml.roots t.2 := by
    unfold Parts.kidsOf
    rw [Whole.children_find ht]; rfl
  obtain ⟨t', ht'⟩ := find_some_of_mem (x.mem hq)
  rw [Whole.children_find ht', hk] at h1
  have hc := x.keep q hq
  unfold content at hc
  rw [ht, ht'] at hc
  rw [node_of_find ht, node_of_find ht']
  simp only [List.append_nil, Option.some.injEq, Option.map_some] at h1 hc
  rw [h1, hc]

theorem Beside.ext {A V V' : World} (h : Beside A V) {p : Nat} {T : List String} (x : Parts.Ext V V' (Parts.only V p T))
    (hp : p ∉ ids A) : Beside A V' := by
  refine ⟨x.once, fun q hq => ?_, fun r hr => ?_⟩
  · have hqV : q ∈ ids V := node_ids (h.same q hq) hq
    rw [ext_node x hqV (Parts.only_absent fun e => hp (e ▸ hq)), h.same q hq]
  · obtain ⟨m, hm, -⟩ := x.free
    have hm : Lxml.roots V' = Lxml.roots V ++ m := hm
    rw [hm]
    exact List.mem_append_left _ (h.roots r hr)

/-- The trees that a document is made of are beside the others. -/
theorem tree_beside {A W W' : World} (hA : (ids A).Nodup) (hb : Beside A W) {so co : Option Nat} {mt : Str}
    {d : Parts.DocTree} (h : Parts.packagedTree mt so co W = (W', .ok d)) (hso' : ∀ r, so = some r → r ∉ ids A)
    (hco' : ∀ r, co = some r → r ∉ ids A) :
    Beside A W' ∧ d.styles.root ∉ ids A ∧ d.content.root ∉ ids A := by
  have hn := hb.once
  unfold Parts.packagedTree at h
  obtain ⟨W1, s, h1, h⟩ := bind_inv h
  obtain ⟨W2, c, h2, h⟩ := bind_inv h
  have hso : ∀ r, so = some r → Parts.tagAt W r = some "office:document-styles" := by
    rintro r rfl
    unfold Parts.stylesInit at h1
    dsimp only at h1
    obtain ⟨V, t, h3, h4⟩ := bind_inv h1
    obtain ⟨rfl, h5⟩ := tagOf_inv h3
    by_cases ht : t = "office:document-styles"
    · rw [← ht]; exact h5
    · rw [if_neg ht] at h4; simp [Py.raise] at h4
  obtain ⟨V1, s', g1, o1, x1, r1⟩ := Parts.C63_styles hn hso
  rw [g1] at h1
  simp only [Prod.mk.injEq, Except.ok.injEq] at h1
  obtain ⟨rfl, rfl⟩ := h1
  have hsA : s'.root ∉ ids A := by
    cases so with
    | none => exact fun hm => o1.2.1 (node_ids (hb.same _ hm) hm)
    | some g => rw [o1.2]; exact hso' _ rfl
  have b1 := hb.ext x1 hsA
  have hco : ∀ r, co = some r → Parts.tagAt V1 r = some "office:document-content" := by
    rintro r rfl
    unfold Parts.contentInit at h2
    dsimp only at h2
    obtain ⟨V, t, h3, h4⟩ := bind_inv h2
    obtain ⟨rfl, h5⟩ := tagOf_inv h3
    by_cases ht : t = "office:document-content"
    · rw [← ht]; exact h5
    · rw [if_neg ht] at h4; simp [Py.raise] at h4
  have hm : co = none → mt ∈ MIMETYPE_NSMAP := by
    rintro rfl
    unfold Parts.contentInit at h2
    by_cases hm : mt ∈ MIMETYPE_NSMAP
    · exact hm
    · simp [if_neg hm, Py.raise] at h2
  obtain ⟨V2, c', g2, o2, x2, r2⟩ := Parts.C63_content x1.once hm hco
  rw [g2] at h2
  simp only [Prod.mk.injEq, Except.ok.injEq] at h2
  obtain ⟨rfl, rfl⟩ := h2
  have hcA : c'.root ∉ ids A := by
    cases co with
    | none => exact fun hm => o2.2.1 (node_ids (b1.same _ hm) hm)
    | some g => rw [o2.2]; exact hco' _ rfl
  have b2 := b1.ext x2 hcA
  have hbA : c'.body ∉ ids A := b2.ref hA r2.body hcA
  cases ht : MIMETYPE_BODYTAG_MAP.get mt with
  | none => rw [ht] at h; simp [Py.raise] at h
  | some tag =>
    rw [ht] at h
    dsimp only at h
    obtain ⟨W3, b, h3, h⟩ := bind_inv h
    rw [Py.pure_def] at h
    simp only [Prod.mk.injEq, Except.ok.injEq] at h
    obtain ⟨rfl, rfl⟩ := h
    refine ⟨?_, hsA, hcA⟩
    obtain ⟨U1, n, e1, y1, q1, _⟩ := Parts.sub_spec b2.once r2.body.mem tag
    have c1 := b2.ext y1 hbA
    have hnA : n ∉ ids A := c1.ref hA q1 hbA
    have hnt : Parts.tagAt U1 n = some tag := by
      obtain ⟨_, _, _, h, _⟩ := q1
      exact h
    obtain ⟨U2, v, e2, y2, q2, _⟩ := Parts.sub_spec y1.once q1.mem "text:variable-decls"
    have c2 := c1.ext y2 hnA
    obtain ⟨U3, u, e3, y3, q3, _⟩ := Parts.sub_spec y2.once (y2.mem q1.mem) "text:user-field-decls"
    have c3 := c2.ext y3 hnA
    unfold Parts.applicationBody Parts.bodyInit at h3
    rw [Py.bind_ok e1, Py.bind_ok (Parts.tagOf_eq hnt), Py.bind_ok e2] at h3
    rcases Parts.init_cases q2.mem with ⟨dv, hdv⟩ | hdv
    · rw [Py.bind_ok hdv, Py.bind_ok e3] at h3
      rcases Parts.init_cases q3.mem with ⟨du, hdu⟩ | hdu
      · rw [Py.bind_ok hdu, Py.pure_def] at h3
        simp only [Prod.mk.injEq, Except.ok.injEq] at h3
        obtain ⟨rfl, -⟩ := h3
        exact c3
      · rw [Py.bind_error hdu] at h3; simp at h3
    · rw [Py.bind_error hdv] at h3; simp at h3

theorem read_beside {L : XLib} (hl : L.Lawful) {A W W' : World} (hb : Beside A W) {b : Option Package.Bytes} {o : Option Nat}
    (h : readTree L b W = (W', .ok o)) : Beside A W' ∧ ∀ r, o = some r → r ∉ ids A := by
  unfold readTree at h
  cases b with
  | none =>
    dsimp only at h
    rw [Py.pure_def] at h
    simp only [Prod.mk.injEq, Except.ok.injEq] at h
    obtain ⟨rfl, rfl⟩ := h
    exact ⟨hb, by simp⟩
  | some b =>
    dsimp only at h
    cases ht : L.xml (Parts.newId W) b with
    | none => rw [ht] at h; simp at h
    | some t =>
      rw [ht] at h
      simp only [Prod.mk.injEq, Except.ok.injEq] at h
      obtain ⟨rfl, rfl⟩ := h
      obtain ⟨f1, f2⟩ := hl.fresh _ _ _ ht
      obtain ⟨a1, -, a3⟩ := nodup_add hb.once f1 f2
      refine ⟨⟨a1, fun q hq => ?_, fun r hr => by simp [hb.roots r hr]⟩, ?_⟩
      · obtain ⟨u, hu⟩ := find_some_of_mem (node_ids (hb.same q hq) hq)
        rw [← hb.same q hq, node_of_find hu, node_of_find (a3 _ _ hu)]
      · rintro r hr hA
        cases hr
        have h1 := f2 t.1.id (by simp)
        have h2 := lt_newId (node_ids (hb.same _ hA) hA)
        omega

/-- Opening or making a document leaves the memory as it is; the trees of the document are new. -/
theorem made_beside {L : XLib} (hl : L.Lawful) {fs : Package.FS} {k : Clock} {fm : Package.FM} {mt : Option Str} {W : World}
    {s : Session} (hn : (ids W).Nodup) (h : packagedWhole L fs k fm mt W = .ok s) :
    Beside W s.world ∧ s.tree.styles.root ∉ ids W ∧ s.tree.content.root ∉ ids W := by
  obtain ⟨doc, so, co, W1, W2, W3, tree, hdoc, h1, h2, h3, rfl⟩ := packagedWhole_inv h
  obtain ⟨a1, a2⟩ := read_beside hl (.refl hn) h1
  obtain ⟨b1, b2⟩ := read_beside hl a1 h2
  exact tree_beside hn b1 h3 a2 b2

/-- Opening another document is quiet. -/
theorem quiet_beside {G : Nat → Prop} {A V : World} {tag : String} {e : Parts.DocTree} (he : Held G A tag e)
    (h : Beside A V) : Quiet G A V e := by
  refine ⟨h.once, fun q hq _ => h.same q hq, fun r _ t ht q hq => h.same q ((find_sub ht).subset hq), ?_,
    fun r _ hr' => h.roots r hr'⟩
  intro q e0 l x hq hx hxA _
  have hqA := h.parent he.kept.once hq hx hxA
  rw [h.same q hqA] at hq
  exact ⟨e0, l, hq, hx⟩

/-- The new document and another one -/
theorem apart_beside {G : Nat → Prop} {A V : World} {tag tag' : String} {d e : Parts.DocTree} (he : Held G A tag e)
    (h : Beside A V) (hf : Program.Framed V tag' d) (h1 : d.styles.root ∉ ids A) (h2 : d.content.root ∉ ids A) :
    Apart (TextProg.outer V d) (later G A V) V d e := by
  have hk := TextProg.start_kept hf
  -- the nodes of the new document are new
  have hnew : ∀ r ∈ [d.styles.root, d.content.root], ∀ t, find r V = some t → ∀ x ∈ ids (single t), x ∉ ids A := by
    intro r hr t ht
    refine closed_tree h.once (single t) ?_ ?_ ?_
    · intro u hu
      obtain rfl : u = t := by simpa [single] using hu
      rw [(find_mem_ids ht).1]; exact ht
    · intro q hq e' l x hl hx hqA hxA
      exact hqA (h.parent he.kept.once hl hx hxA)
    · intro x hx
      obtain rfl : x = r := by simpa [single, (find_mem_ids ht).1] using hx
      simp only [List.mem_cons, List.not_mem_nil, or_false] at hr
      rcases hr with rfl | rfl
      · exact h1
      · exact h2
  have hold : ∀ x ∈ ids A, TextProg.outer V d x := by
    intro x hx
    refine ⟨node_ids (h.same x hx) hx, fun b t hb ht _ hin => ?_⟩
    obtain ⟨c, hc⟩ := find_some_of_mem (hk.mem _ (hk.frame d.content.root (by simp)))
    have hbc := body_in hk hc
    refine hnew d.content.root (by simp) c hc x ?_ hx
    rw [find_in h.once hc hbc] at hb
    have := (find_sub hb).subset
    exact this (by simp [TextProg.tree_sub ht hin])
  have hr0 : ∀ r ∈ [d.styles.root, d.content.root], r ∉ ids A := by
    intro r hr
    simp only [List.mem_cons, List.not_mem_nil, or_false] at hr
    rcases hr with rfl | rfl
    · exact h1
    · exact h2
  refine ⟨fun x hx => ?_, fun r hr => ?_, fun r hr => ?_, fun r hr hr' => ?_⟩
  · by_cases hA : x ∈ ids A
    · exact .inl (hold x hA)
    · exact .inr ⟨hx, fun g => hA g.1⟩
  · refine ⟨?_, fun g => hr0 r hr g.1⟩
    exact hk.mem _ (hk.frame r (by simp at hr ⊢; tauto))
  · exact hold r (roots_sub (he.roots r hr))
  · exact hr0 r hr (roots_sub (he.roots r hr'))

end Verif.Desk
