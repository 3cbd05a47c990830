import Verif.Model.Room
import Verif.Proofs.View
import Verif.Props.Desk
/-! Helper lemmas for C87: documents whose frames are apart, in one memory. -/
namespace Verif.Room
open Verif Verif.Lxml Forest Verif.Whole Verif.Document
open Verif.TextProg (Kept Loose Step Fits node_some node_mem node_kids node_tagAt node_child declTags closed_tree Place)
open Verif.Desk (Held Beside kids_in node_ids roots_apart body_in held_step)
set_option linter.unusedSimpArgs false

variable {F : Nat → Prop} {W V : World} {tag : String} {d : Parts.DocTree}

/-- A memory with more trees: the document is in order there. -/
theorem beside_step (hk : Kept F W tag d) (hb : Beside W V) : Step F W V tag d := by
  have hsame : ∀ q, F q → node V q = node W q := fun q hq => hb.same q (hk.mem q hq)
  have htag : ∀ x ∈ ids W, Parts.tagAt V x = Parts.tagAt W x := fun x hx => node_tag (hb.same x hx)
  have hbF := hk.frame d.body.node (by simp)
  refine ⟨hk.step hb.once (fun q hq _ => hsame q hq) ?_ ?_, ?_, fun q hq _ => hsame q hq, by rw [hsame _ hbF]⟩
  · obtain ⟨e, l, hl⟩ := node_some (hk.mem _ hbF)
    refine ⟨e, l, l, hl, by rw [hsame _ hbF, hl], rfl, fun x hx hf t ht => ?_⟩
    rw [htag x (node_child hl hx)]
    exact (hk.free e l x hl hx).mp hf t ht
  · intro q e l x hq hnf hx hf
    have hqW := hb.parent hk.once hq hx (hk.mem x hf)
    rw [hb.same q hqW] at hq
    exact hnf (hk.up q e l x hq hx hf)
  · intro m hm
    exact ⟨node_ids (hb.same m hm.mem) hm.mem, hm.free, fun t ht => by rw [htag m hm.mem]; exact hm.tag t ht⟩

/-- The frame without what belongs to others: a set of nodes that has with a node its parent and its children. -/
theorem kept_inter (hk : Kept F W tag d) {T : Nat → Prop}
    (hup : ∀ q e l x, node W q = some (e, l) → x ∈ l → T x → T q)
    (hdown : ∀ q e l x, node W q = some (e, l) → x ∈ l → T q → T x)
    (hT : ∀ p ∈ [d.styles.root, d.content.root, d.content.body, d.body.node], T p) :
    Kept (fun x => F x ∧ T x) W tag d := by
  refine ⟨hk.once, hk.refs, fun x hx => hk.mem x hx.1, fun q e l x hq hx hf => ⟨hk.up q e l x hq hx hf.1, hup q e l x hq hx hf.2⟩,
    fun q e l x hq hx hf hne => ⟨hk.down q e l x hq hx hf.1 hne, hdown q e l x hq hx hf.2⟩,
    fun p hp => ⟨hk.frame p hp, hT p hp⟩, hk.apart, fun e l x hl hx => ?_⟩
  rw [← hk.free e l x hl hx]
  have hTx := hdown _ e l x hl hx (hT d.body.node (by simp))
  tauto

/-- The frame and what belongs to others -/
theorem kept_union (hk : Kept F W tag d) {T : Nat → Prop} (hmem : ∀ x, T x → x ∈ ids W)
    (hup : ∀ q e l x, node W q = some (e, l) → x ∈ l → T x → T q)
    (hdown : ∀ q e l x, node W q = some (e, l) → x ∈ l → T q → T x) (hT : ¬ T d.body.node) :
    Kept (fun x => F x ∨ T x) W tag d := by
  refine ⟨hk.once, hk.refs, fun x hx => hx.elim (hk.mem x) (hmem x), ?_, ?_, fun p hp => .inl (hk.frame p hp), hk.apart, ?_⟩
  · intro q e l x hq hx hf
    exact hf.imp (hk.up q e l x hq hx) (hup q e l x hq hx)
  · intro q e l x hq hx hf hne
    exact hf.imp (fun h => hk.down q e l x hq hx h hne) (hdown q e l x hq hx)
  · intro e l x hl hx
    rw [← hk.free e l x hl hx]
    have hTx : ¬ T x := fun h => hT (hup _ e l x hl hx h)
    tauto

/-- The nodes of the trees of a document -/
def within (W : World) (d : Parts.DocTree) (x : Nat) : Prop :=
  ∃ r ∈ [d.styles.root, d.content.root], ∃ t, find r W = some t ∧ x ∈ ids (single t)

theorem within_mem {x : Nat} (h : within W d x) : x ∈ ids W := by
  obtain ⟨r, -, t, ht, hx⟩ := h
  exact (find_sub ht).subset hx

theorem within_down (hn : (ids W).Nodup) {q x : Nat} {e : Elem} {l : List Nat} (hq : node W q = some (e, l)) (hx : x ∈ l)
    (h : within W d q) : within W d x := by
  obtain ⟨r, hr, t, ht, hqt⟩ := h
  exact ⟨r, hr, t, ht, kids_in hn ht hqt hq hx⟩

theorem within_up (hn : (ids W).Nodup) (hroots : ∀ r ∈ [d.styles.root, d.content.root], r ∈ Lxml.roots W) {q x : Nat}
    {e : Elem} {l : List Nat} (hq : node W q = some (e, l)) (hx : x ∈ l) (h : within W d x) : within W d q := by
  obtain ⟨r, hr, t, ht, hxt⟩ := h
  obtain ⟨k, hk, rfl⟩ := find_of_node hq
  have hid := (find_mem_ids ht).1
  refine ⟨r, hr, t, ht, TextProg.parent_in hn hk hx (by rw [hid]; exact ht) hxt ?_⟩
  rw [hid]
  rintro rfl
  exact child_not_root hn hk (roots_sub hx) (hroots _ hr)

/-- Documents with different roots have no common node. -/
theorem within_apart (hn : (ids W).Nodup) {e : Parts.DocTree} (hd : ∀ r ∈ [d.styles.root, d.content.root], r ∈ Lxml.roots W)
    (he : ∀ r ∈ [e.styles.root, e.content.root], r ∈ Lxml.roots W)
    (hne : ∀ r ∈ [d.styles.root, d.content.root], r ∉ [e.styles.root, e.content.root]) {x : Nat} (h1 : within W d x)
    (h2 : within W e x) : False := by
  obtain ⟨r, hr, t, ht, hx⟩ := h1
  obtain ⟨r', hr', t', ht', hx'⟩ := h2
  refine roots_apart hn (hd r hr) (he r' hr') ?_ ht ht' hx hx'
  rintro rfl
  exact hne r hr hr'

theorem body_within (hk : Kept F W tag d) : within W d d.body.node := by
  obtain ⟨c, hc⟩ := find_some_of_mem (hk.mem _ (hk.frame d.content.root (by simp)))
  exact ⟨_, by simp, c, hc, body_in hk hc⟩

/-- The tag of a body is not the one of a container of declarations. -/
theorem body_tag {tags : Str} (ht : MIMETYPE_BODYTAG_MAP.get tags = some tag) : tag ∉ declTags := by
  have h : ∀ u ∈ MIMETYPE_BODYTAG_MAP, u.2 ∉ declTags := by decide +kernel
  exact h (tags, tag) (Dict.get_mem ht)

theorem body_is (hk : Kept F W tag d) : Parts.tagAt W d.body.node = some tag := by
  obtain ⟨_, _, _, h, _⟩ := hk.refs.body.node
  exact h

/-- The frame of a document that has just been opened beside the trees of `W` -/
def fresh (W V : World) (d : Parts.DocTree) (x : Nat) : Prop := TextProg.outer V d x ∧ x ∉ ids W

theorem fresh_kept (hn : (ids W).Nodup) (hb : Beside W V) (hf : Program.Framed V tag d) (h1 : d.styles.root ∉ ids W)
    (h2 : d.content.root ∉ ids W) : Kept (fresh W V d) V tag d := by
  have hk := TextProg.start_kept hf
  have c1 := hb.ref hn hk.refs.content.body h2
  have c2 := hb.ref hn hk.refs.body.node c1
  refine kept_inter hk (T := fun x => x ∉ ids W) ?_ ?_ ?_
  · intro q e l x hq hx hxW hqW
    rw [hb.same q hqW] at hq
    exact hxW (node_child hq hx)
  · intro q e l x hq hx hqW hxW
    exact hqW (hb.parent hn hq hx hxW)
  · intro p hp
    simp only [List.mem_cons, List.not_mem_nil, or_false] at hp
    rcases hp with rfl | rfl | rfl | rfl
    · exact h1
    · exact h2
    · exact c1
    · exact c2

/-- What a step leaves of a document -/
theorem step_frame (hd : Held F W tag d) (hs : Step F W V tag d) :
    find d.styles.root V = find d.styles.root W ∧
    (find d.content.root V).map (fun t => TextProg.hole d.body.node (single t)) =
      (find d.content.root W).map (fun t => TextProg.hole d.body.node (single t)) ∧
    TextProg.decls V d.body.node = TextProg.decls W d.body.node := by
  have hS := hd.kept.frame d.styles.root (by simp)
  have hC := hd.kept.frame d.content.root (by simp)
  obtain ⟨s, hs'⟩ := find_some_of_mem (hd.kept.mem _ hS)
  obtain ⟨c, hc⟩ := find_some_of_mem (hd.kept.mem _ hC)
  refine ⟨?_, ?_, TextProg.Step.decls hd.kept hs⟩
  · rw [hs']
    refine TextProg.Step.tree hd.kept hs hS hs' fun hb => ?_
    refine roots_apart hd.kept.once (hd.roots d.styles.root (by simp)) (hd.roots d.content.root (by simp)) ?_ hs' hc hb
      (body_in hd.kept hc)
    intro e
    have a1 := hd.kept.refs.stylesRoot
    have a2 := hd.kept.refs.contentRoot
    rw [e, a2] at a1
    simp at a1
  · obtain ⟨t', e1, e2⟩ := TextProg.Step.content hd.kept hs hC hc
    rw [hc, e1]
    simp only [Option.map_some]
    rw [e2]

end Verif.Room
