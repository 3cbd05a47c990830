import Verif.Props.TextProgram
import Verif.Props.Base
/-! # C81: what the constructors make, where the body and lists put objects -/
namespace Verif.TextProg
open Verif Verif.Lxml Forest Verif.Whole Verif.Tbl Verif.Document
set_option linter.unusedSimpArgs false

variable {n : Nat} {t u : Tree} {W W' : World}

/-- An attribute that is there if a string is given -/
def Given (t : Tree) (k : String) (s : Str) : Prop := t.1.get k = if s = [] then none else some s

/-- What the constructor makes -/
def IsNew : Act → Tree → Prop
  | .paragraph text style, t => t.1.tag = "text:p" ∧ Given t "text:style-name" style ∧ Txt.plaintext t = some text
  | .span text style, t => t.1.tag = "text:span" ∧ Given t "text:style-name" style ∧ Txt.plaintext t = some text
  | .heading text level style, t => t.1.tag = "text:h" ∧ Given t "text:style-name" style ∧ Txt.plaintext t = some text ∧
      t.1.get "text:outline-level" = some (intStr (if 1 ≤ level then level else 1))
  | .link href text style, t => t.1.tag = "text:a" ∧ Given t "text:style-name" style ∧ Txt.plaintext t = some text ∧
      Given t "xlink:href" href ∧ t.1.get "office:target-frame-name" = some "_blank".toList ∧
      t.1.get "xlink:show" = some "new".toList
  | .list style, t => t.1.tag = "text:list" ∧ Given t "text:style-name" style ∧ t.2 = .nil
  | .item text, t => t.1.tag = "text:list-item" ∧ Txt.plaintext t = some text
  | .header text, t => t.1.tag = "text:list-header" ∧ Txt.plaintext t = some text
  | .section_ name style, t => t.1.tag = "text:section" ∧ Given t "text:style-name" style ∧ Given t "text:name" name ∧
      t.2 = .nil
  | .ezlist items header style, t => t.1.tag = "text:list" ∧ Given t "text:style-name" style ∧
      (Txt.listItems t).map Txt.plaintext = items.map some ∧
      (Txt.getHeader t).map Txt.plaintext = if header = [] then none else some (some header)
  | _, _ => False

/-- The statement makes an object. -/
def Constructor : Act → Prop
  | .paragraph .. | .span .. | .heading .. | .link .. | .list .. | .item .. | .header .. | .section_ .. | .ezlist .. => True
  | _ => False

theorem given_mapT {g : Elem → Elem} (hg : Mild g) (t : Tree) (k : String) (s : Str) : Given (mapT g t) k s ↔ Given t k s := by
  unfold Given Elem.get mapT
  rw [hg.attrs]

theorem new_mapT {g : Elem → Elem} (hg : Mild g) (a : Act) (t : Tree) : IsNew a (mapT g t) ↔ IsNew a t := by
  have h1 : (mapT g t).1.tag = t.1.tag := hg.tag _
  have h2 : ∀ k, (mapT g t).1.get k = t.1.get k := fun k => by unfold Elem.get mapT; rw [hg.attrs]
  have h3 := hg.plaintext t
  have h4 : (mapT g t).2 = .nil ↔ t.2 = .nil := by
    unfold mapT; cases t.2 <;> simp [Forest.map]
  have h5 : (Txt.listItems (mapT g t)).map Txt.plaintext = (Txt.listItems t).map Txt.plaintext := by
    unfold Txt.listItems
    show (Txt.findallChild _ (t.2.map g)).map _ = _
    rw [findall_mapT hg.tag, List.map_map]
    have : Txt.plaintext ∘ mapT g = Txt.plaintext := funext hg.plaintext
    rw [this]
  have h6 : (Txt.getHeader (mapT g t)).map Txt.plaintext = (Txt.getHeader t).map Txt.plaintext := by
    unfold Txt.getHeader
    show (Txt.findChild _ (t.2.map g)).map _ = _
    rw [findChild_mapT hg.tag, Option.map_map]
    have : Txt.plaintext ∘ mapT g = Txt.plaintext := funext hg.plaintext
    rw [this]
  cases a <;> simp only [IsNew, given_mapT hg, h1, h2, h3, h4, h5, h6]

theorem new_data {a : Act} {t t' : Tree} (h : data t' = data t) : IsNew a t' ↔ IsNew a t := by
  rw [← new_mapT mild_anon a t', ← data_anon, h, data_anon, new_mapT mild_anon]

theorem newLink_makes (hn : (ids W).Nodup) (href text style : Str) : Makes W (newLink href text style)
    (((giveAttr "xlink:href" href (Txt.appendText (styled "text:a" style, .nil) text).1).set "office:target-frame-name"
      "_blank".toList).set "xlink:show" "new".toList, (Txt.appendText (styled "text:a" style, .nil) text).2) := by
  unfold newLink
  refine .bind hn (newSpan_makes hn _ _ _) fun W1 t m1 n1 f1 d1 => ?_
  obtain ⟨W2, t2, e2, p2, d2⟩ := give_put n1 f1 "xlink:href" href d1
  obtain ⟨n2, f2, -⟩ := p2.find n1 f1
  obtain ⟨W3, e3, p3⟩ := amend_root n2 f2 (f := fun e => e.set "office:target-frame-name" "_blank".toList) fun _ => rfl
  have d3 := data_root d2 (f := fun e => e.set "office:target-frame-name" "_blank".toList) (set_anon _ _)
  obtain ⟨n3, f3, -⟩ := p3.find n2 f2
  obtain ⟨W4, e4, p4⟩ := amend_root n3 f3 (f := fun e => e.set "xlink:show" "new".toList) fun _ => rfl
  have d4 := data_root d3 (f := fun e => e.set "xlink:show" "new".toList) (set_anon _ _)
  refine ⟨W4, _, ?_, (p2.trans n1 f1 p3).trans n1 f1 p4, d4⟩
  rw [Py.bind_ok e2]
  unfold setAttr setString
  rw [if_neg (by decide), Py.bind_ok e3, if_neg (by decide), Py.bind_ok e4]; rfl

theorem newSection_makes (hn : (ids W).Nodup) (name style : Str) :
    Makes W (newSection name style) (giveAttr "text:name" name (styled "text:section" style), .nil) := by
  unfold newSection
  refine .bind hn (newNode_makes _ W) fun W1 t m1 n1 f1 d1 => ?_
  obtain ⟨W2, t2, e2, p2, d2⟩ := give_put n1 f1 "text:style-name" style d1
  obtain ⟨n2, f2, -⟩ := p2.find n1 f1
  obtain ⟨W3, t3, e3, p3, d3⟩ := give_put n2 f2 "text:name" name d2
  exact ⟨W3, t3, by rw [Py.bind_ok e2, Py.bind_ok e3]; rfl, p2.trans n1 f1 p3, d3⟩

theorem giveAttr_get (k : String) (s : Str) (e : Elem) (k' : String) :
    (giveAttr k s e).get k' = if k' = k ∧ s ≠ [] then some s else e.get k' := by
  unfold giveAttr
  by_cases hs : s = []
  · subst hs; simp
  · rw [if_neg (by simpa using hs), Elem.get_set]
    by_cases hk : k' = k <;> simp [hk, hs]

theorem span_new {tag : String} (ht : Txt.SpanTag tag) (text style : Str) :
    let v := Txt.appendText (styled tag style, .nil) text
    v.1.tag = tag ∧ Given v "text:style-name" style ∧ Txt.plaintext v = some text ∧
      ∀ k, k ≠ "text:style-name" → v.1.get k = none := by
  obtain ⟨h1, h2⟩ := appendText_elem (styled tag style, .nil) text
  have h3 : ∀ k, (Txt.appendText (styled tag style, .nil) text).1.get k = (styled tag style).get k := by
    intro k; unfold Elem.get; rw [h2]
  refine ⟨h1.trans (styled_tag _ _), ?_, span_text (by rw [styled_tag]; exact ht) (styled_text _ _) text, fun k hk => ?_⟩
  · unfold Given; rw [h3]; exact styled_get _ _
  · rw [h3]
    unfold styled
    rw [giveAttr_get, if_neg (fun h => hk h.1)]; rfl

theorem plaintext_elem {t t' : Tree} (h1 : t'.1.tag = t.1.tag) (h2 : t'.2 = t.2) (h3 : t'.1.text = t.1.text)
    (h4 : Txt.kind t.1.tag = .span) : Txt.plaintext t' = Txt.plaintext t := by
  unfold Txt.plaintext Txt.elemText
  rw [h1, h2, h4]
  simp only [h3]

/-- **C81**, constructors.  None of them raises.  The new object is in no tree; it has the tag of its class, the texts and
attributes that were given and no others of these; nothing else changes. -/
theorem C81_made {L : XLib} {p : Prog} (h : OK L p) {a : Act} (ha : Constructor a) : ∃ p' t,
    exec a p = (p', .ok ()) ∧ p'.world = p.world ++ single t ∧ (∀ i ∈ ids (single t), i ∉ ids p.world) ∧
      p'.objs = p.objs ++ [t.1.id] ∧ p'.session = { p.session with world := p'.world } ∧ IsNew a t := by
  obtain ⟨F, tag, -, hfit⟩ := h.fits
  have hn := hfit.kept.once
  have key : ∀ {m : Py World Nat} {e : Tree}, Makes p.world m e → IsNew a e → (exec a = do let _ ← keep m) →
      ∃ p' t, exec a p = (p', .ok ()) ∧ p'.world = p.world ++ single t ∧ (∀ i ∈ ids (single t), i ∉ ids p.world) ∧
      p'.objs = p.objs ++ [t.1.id] ∧ p'.session = { p.session with world := p'.world } ∧ IsNew a t := by
    intro m e ⟨W1, t, e1, m1, d1⟩ hnew hex
    refine ⟨⟨{ p.session with world := W1 }, p.objs ++ [t.1.id]⟩, t, ?_, m1.world, fun i hi => new_not (m1.new i hi), rfl, rfl,
      (new_data d1).mpr hnew⟩
    have h1 : onWorld m p = ({ p with session := { p.session with world := W1 } }, .ok t.1.id) := by
      unfold onWorld
      have : m p.session.world = (W1, .ok t.1.id) := e1
      simp only [this]
    rw [hex]
    unfold keep
    rw [Py.bind_def, Py.bind_ok h1]; rfl
  cases a with
  | paragraph text style =>
    obtain ⟨s1, s2, s3, -⟩ := span_new (tag := "text:p") (by simp [Txt.SpanTag]) text style
    exact key (newSpan_makes hn _ text style) ⟨s1, s2, s3⟩ rfl
  | span text style =>
    obtain ⟨s1, s2, s3, -⟩ := span_new (tag := "text:span") (by simp [Txt.SpanTag]) text style
    exact key (newSpan_makes hn _ text style) ⟨s1, s2, s3⟩ rfl
  | heading text level style =>
    have hs := tree_shows (.heading text level style)
    refine key (newHeading_makes hn text level style) ⟨hs.1, hs.2.1, hs.2.2.1, ?_⟩ rfl
    have := hs.2.2.2
    have he : max 1 level = if 1 ≤ level then level else 1 := by omega
    rw [he] at this; exact this
  | link href text style =>
    obtain ⟨s1, s2, s3, s4⟩ := span_new (tag := "text:a") (by simp [Txt.SpanTag]) text style
    refine key (newLink_makes hn href text style) ⟨?_, ?_, ?_, ?_, ?_, ?_⟩ rfl
    · show (giveAttr _ _ _).tag = _
      unfold giveAttr; split <;> exact s1
    · show ((giveAttr _ _ _ |>.set _ _).set _ _).get _ = _
      rw [Elem.get_set, if_neg (by decide), Elem.get_set, if_neg (by decide), giveAttr_get, if_neg (by simp)]
      exact s2
    · rw [← s3]
      refine plaintext_elem ?_ rfl ?_ (by rw [s1]; decide)
      · show (giveAttr _ _ _).tag = _
        unfold giveAttr; split <;> rfl
      · show (giveAttr _ _ _).text = _
        unfold giveAttr; split <;> rfl
    · show ((giveAttr _ _ _ |>.set _ _).set _ _).get _ = _
      rw [Elem.get_set, if_neg (by decide), Elem.get_set, if_neg (by decide), giveAttr_get]
      by_cases hh : href = []
      · rw [if_neg (by simp [hh]), if_pos hh]; exact s4 _ (by decide)
      · rw [if_pos ⟨rfl, hh⟩, if_neg hh]
    · show ((giveAttr _ _ _ |>.set _ _).set _ _).get _ = _
      rw [Elem.get_set, if_neg (by decide), Elem.get_set_self]
    · exact Elem.get_set_self _ _ _
  | list style => exact key (newList_makes hn style) ⟨styled_tag _ _, styled_get _ _, rfl⟩ rfl
  | item text =>
    have := Txt.plaintext_newLister (tag := "text:list-item") (by decide) text
    rw [← lister_eq] at this
    exact key (newLister_makes hn _ text) ⟨this.2, this.1⟩ rfl
  | header text =>
    have := Txt.plaintext_newLister (tag := "text:list-header") (by decide) text
    rw [← lister_eq] at this
    exact key (newLister_makes hn _ text) ⟨this.2, this.1⟩ rfl
  | section_ name style =>
    refine key (newSection_makes hn name style) ⟨?_, ?_, ?_, rfl⟩ rfl
    · show (giveAttr _ _ _).tag = _
      unfold giveAttr; split <;> exact styled_tag _ _
    · show (giveAttr _ _ _).get _ = _
      rw [giveAttr_get, if_neg (by simp)]; exact styled_get _ _
    · show (giveAttr _ _ _).get _ = _
      rw [giveAttr_get]
      by_cases hh : name = []
      · rw [if_neg (by simp [hh]), if_pos hh]
        unfold styled
        rw [giveAttr_get, if_neg (by simp)]; rfl
      · rw [if_pos ⟨rfl, hh⟩, if_neg hh]
  | ezlist items header style =>
    have hs := tree_shows (.list items header style)
    exact key (ezlist_makes hn items header style) ⟨hs.1, hs.2.1, hs.2.2.1, hs.2.2.2⟩ rfl
  | _ => exact ha.elim

/-! ## Where objects are put -/

theorem onWorld_ok {α : Type} {p : Prog} {m : Py World α} {W' : World} {r : Except Exc α} (h : m p.world = (W', r)) :
    onWorld m p = ({ p with session := { p.session with world := W' } }, r) := by
  unfold onWorld
  have : m p.session.world = (W', r) := h
  simp only [this]

theorem obj_ok {p : Prog} {i c : Nat} (h : p.objs[i]? = some c) : obj i p = (p, .ok c) := by unfold obj; rw [h]

theorem ordered_map {α τ : Type} [DecidableEq τ] {f : Nat → τ} {g : α → τ} {k : α → Nat} {tags : List τ} {l : List α}
    (h : ∀ x ∈ l, f (k x) = g x) : Block.OrderedBlock f tags (l.map k) ↔ Block.OrderedBlock g tags l := by
  unfold Block.OrderedBlock
  rw [List.pairwise_map, List.forall_mem_map]
  refine and_congr (forall₂_congr fun x hx => by rw [h x hx]) ?_
  constructor <;> intro hp <;> refine List.Pairwise.imp_of_mem ?_ hp <;> intro a b ha hb hab
  · rwa [h a ha, h b hb] at hab
  · rwa [h a ha, h b hb]

/-- No object of a program is an ancestor of the body. -/
theorem object_body {F : Nat → Prop} {tag : String} {p : Prog} (h : Fits F tag p) {c : Nat} (hc : c ∈ p.objs) :
    ¬ Below p.world c p.session.tree.body.node := by
  intro hb
  have key : ∀ d, Below p.world c d → F d → F c := by
    intro d hd
    induction hd with
    | self => exact id
    | step h1 h2 h3 ih =>
      intro hF
      rw [children_node] at h2
      obtain ⟨⟨e, l'⟩, hnode, rfl⟩ := Option.map_eq_some_iff.mp h2
      exact ih (h.kept.up _ _ _ _ hnode h3 hF)
  exact (h.objs c hc).free (key _ hb (h.kept.frame _ (by simp)))

/-- **C81**, `append` of a text body with any object, also one that is in the document already (it is moved): it is put after
all that was in the body but for the longest end of the children that is in the order of the elements at the end of a text
document. -/
theorem C81_body_append {L : XLib} {p : Prog} (h : OK L p)
    (hb : MIMETYPE_BODYTAG_MAP.get p.session.mimetype = some "office:text") {i c : Nat} (hi : p.objs[i]? = some c)
    {l : List Nat} (hl : children p.world p.session.tree.body.node = some l) : ∃ p' before after,
      exec (.append none i) p = (p', .ok ()) ∧ l = before ++ after ∧
      Moved p.world p'.world c p.session.tree.body.node (less c before ++ c :: less c after) ∧
      Block.OrderedBlock (fun x => (Parts.tagAt p.world x).getD "") Tags.TEXT_EPILOGUE after ∧
      (∀ a b, l = a ++ b → Block.OrderedBlock (fun x => (Parts.tagAt p.world x).getD "") Tags.TEXT_EPILOGUE b →
        b.length ≤ after.length) ∧ p'.objs = p.objs ∧ p'.session = { p.session with world := p'.world } := by
  obtain ⟨F, tag, htag, hfit⟩ := h.fits
  rw [hb] at htag
  cases htag
  have hn := hfit.kept.once
  have hc := (hfit.objs c (List.mem_of_getElem? hi)).mem
  have hno := object_body hfit (List.mem_of_getElem? hi)
  obtain ⟨t, ht, hlt⟩ := children_find hl
  have htt : t.1.tag = "office:text" := by
    obtain ⟨A, B, -, h2, -⟩ := hfit.kept.refs.body.node
    rw [tagAt_find ht] at h2
    exact Option.some.inj h2
  obtain ⟨k, hk, hkl, hborder⟩ := (Org.C34_borders (fun u : Tree => u.1.tag) Org.C33_text_tables.2.1
    (show Tags.TEXT_EPILOGUE ≠ [] by decide) t.2.toList).2
  have hl' : l = t.2.toList.map fun u => u.1.id := by
    unfold children at hl
    rw [ht] at hl
    exact (Option.some.inj hl).symm
  have hlen : t.2.toList.length = l.length := by rw [hl']; simp
  have hord : ∀ m, Block.OrderedBlock (fun x => (Parts.tagAt p.world x).getD "") Tags.TEXT_EPILOGUE (l.drop m) ↔
      Block.OrderedBlock (fun u : Tree => u.1.tag) Tags.TEXT_EPILOGUE (t.2.toList.drop m) := by
    intro m
    rw [hl', ← List.map_drop]
    refine ordered_map fun x hx => ?_
    have : find x.1.id p.world = some x := child_find hn ht (List.mem_of_mem_drop hx)
    rw [tagAt_find this]; rfl
  obtain ⟨W', e, m⟩ := Base.insert_lemma hn hl hc hno (i := (k : Int))
  have hm : Moved p.world W' c p.session.tree.body.node (less c (l.take k) ++ c :: less c (l.drop k)) := by
    have hpy : pyIdx l.length (k : Int) = if k < l.length then some k else none := by
      unfold pyIdx; simp
    rw [hpy] at m
    by_cases hkk : k < l.length
    · simpa [hkk] using m
    · have : k = l.length := by omega
      subst this
      simpa [less] using m
  refine ⟨{ p with session := { p.session with world := W' } }, l.take k, l.drop k, ?_, (List.take_append_drop k l).symm, hm,
    (hord k).mpr ((hborder k hkl).mpr le_rfl), ?_, rfl, rfl⟩
  · show (do let t ← target none; let n ← obj i; let _ ← onWorld (appendTo none t n) : Py Prog Unit) p = _
    have h1 : target none p = (p, .ok p.session.tree.body.node) := rfl
    have g1 : Vars.elem p.session.tree.body.node p.world = (p.world, .ok t.1) := by unfold Vars.elem; rw [ht]
    have g2 : epiloguePosition p.session.tree.body.node p.world = (p.world, .ok (k : Int)) := by
      unfold epiloguePosition
      rw [ht]
      simp only [hk]
    have h3 : appendTo none p.session.tree.body.node c p.world = (W', .ok c) := by
      show bodyAppend _ _ _ = _
      unfold bodyAppend
      rw [Py.bind_ok g1, if_pos htt, Py.bind_ok g2]
      unfold Base.insert
      rw [Py.bind_def, Py.bind_ok e]; rfl
    rw [Py.bind_ok h1, Py.bind_ok (obj_ok hi), Py.bind_ok (onWorld_ok h3)]; rfl
  · intro a b hab ho
    have hdrop : b = l.drop a.length := by rw [hab]; simp
    rw [hdrop, hord, hborder _ (by rw [hlen, hab]; simp)] at ho
    rw [hdrop, List.length_drop, List.length_drop]; omega

/-! ## Headers of lists -/

/-- **C81**, the `header` setter of a list: the first header of the list leaves it and the new one is the first of its
children, wherever it was before; all else stays as it is. -/
theorem C81_set_header {L : XLib} {p : Prog} (h : OK L p) {i j n c : Nat} (hi : p.objs[i]? = some n)
    (hj : p.objs[j]? = some c) (hlist : Parts.tagAt p.world n = some "text:list")
    (hhead : Parts.tagAt p.world c = some "text:list-header") {l : List Nat} (hl : children p.world n = some l)
    (hno : ¬ Below p.world c n) : ∃ p',
      exec (.setHeader i j) p = (p', .ok ()) ∧ Lxml.Same p.world p'.world ∧
      children p'.world n = some (c :: less c (l.eraseP fun x => Parts.tagAt p.world x = some "text:list-header")) ∧
      (∀ q, q ≠ n → children p'.world q = (children p.world q).map (less c)) ∧
      p'.objs = p.objs ∧ p'.session = { p.session with world := p'.world } := by
  obtain ⟨F, tag, -, hfit⟩ := h.fits
  have hn := hfit.kept.once
  have hc := (hfit.objs c (List.mem_of_getElem? hj)).mem
  obtain ⟨t, ht, -⟩ := children_find hl
  obtain ⟨u, hu⟩ := find_some_of_mem hc
  have hl' : l = t.2.toList.map fun u => u.1.id := by
    unfold children at hl
    rw [ht] at hl
    exact (Option.some.inj hl).symm
  have hln := children_nodup hn hl
  have htt : t.1.tag = "text:list" := by rw [tagAt_find ht] at hlist; exact Option.some.inj hlist
  have hut : u.1.tag = "text:list-header" := by rw [tagAt_find hu] at hhead; exact Option.some.inj hhead
  have hfind : Base.find n "text:list-header" p.world =
      (p.world, .ok ((l.filter fun x => Parts.tagAt p.world x = some "text:list-header").head?)) := by
    unfold Base.find Lxml.findall
    rw [Py.bind_def]
    simp only [ht]
    rw [hl', List.filter_map]
    refine congrArg (fun z : List Tree => (p.world, Except.ok (z.map fun u => u.1.id).head?)) ?_
    refine List.filter_congr fun x hx => ?_
    have : find x.1.id p.world = some x := child_find hn ht hx
    simp only [Function.comp, tagAt_find this, Option.some.injEq]
  suffices hs : ∃ W', setHeader n c p.world = (W', .ok ()) ∧ Lxml.Same p.world W' ∧
      children W' n = some (c :: less c (l.eraseP fun x => Parts.tagAt p.world x = some "text:list-header")) ∧
      (∀ q, q ≠ n → children W' q = (children p.world q).map (less c)) by
    obtain ⟨W', e, h1, h2, h3⟩ := hs
    refine ⟨{ p with session := { p.session with world := W' } }, ?_, h1, h2, h3, rfl, rfl⟩
    show (do
      let n ← obj i; let h ← obj j; let e ← onWorld (Vars.elem n)
      if e.tag = "text:list" then onWorld (setHeader n h) else .raise .AttributeError : Py Prog Unit) p = _
    have g1 : Vars.elem n p.world = (p.world, .ok t.1) := by unfold Vars.elem; rw [ht]
    rw [Py.bind_ok (obj_ok hi), Py.bind_ok (obj_ok hj), Py.bind_ok (onWorld_ok g1), if_pos htt]
    exact onWorld_ok e
  have g2 : Vars.elem c p.world = (p.world, .ok u.1) := by unfold Vars.elem; rw [hu]
  unfold setHeader
  rw [Py.bind_ok g2, if_neg (by simp [hut]), Py.bind_ok hfind]
  have hins : ∀ {W : World} {k : List Nat}, (ids W).Nodup → children W n = some k → c ∈ ids W → ¬ Below W c n →
      ∃ W', (do let _ ← Base.insert n 0 c : Py World Unit) W = (W', .ok ()) ∧ Moved W W' c n (c :: less c k) := by
    intro W k hW hk hcW hb
    obtain ⟨W', e, m⟩ := Base.insert_lemma hW hk hcW hb (i := 0)
    refine ⟨W', ?_, ?_⟩
    · unfold Base.insert
      rw [Py.bind_def, Py.bind_def, e]; rfl
    · cases k with
      | nil => simpa [pyIdx, less] using m
      | cons a k => simpa [pyIdx, less] using m
  cases hold : (l.filter fun x => Parts.tagAt p.world x = some "text:list-header").head? with
  | none =>
    have hnone : ∀ x ∈ l, ¬ (Parts.tagAt p.world x = some "text:list-header") := by
      rw [List.head?_eq_none_iff, List.filter_eq_nil_iff] at hold
      intro x hx
      simpa using hold x hx
    obtain ⟨W', e, m⟩ := hins hn hl hc hno
    refine ⟨W', ?_, m.toSame, ?_, m.others⟩
    · rw [Option.elim_none]
      exact e
    · rw [m.there, List.eraseP_of_forall_not (by simpa using hnone)]
  | some old =>
    have hmem : old ∈ l := List.mem_of_mem_filter (List.mem_of_head? hold)
    have holdW : old ∈ ids p.world := by
      obtain ⟨x, hx, rfl⟩ := List.mem_map.mp (hl' ▸ hmem)
      exact find_mem (child_find hn ht hx)
    obtain ⟨W1, e1, r1, d1⟩ := (Base.C57_remove hn hl holdW).1 hmem
    have hl1 : children W1 n = some (less old l) := by rw [r1.others n, hl]; rfl
    have herase : less old l = l.eraseP fun x => Parts.tagAt p.world x = some "text:list-header" := by
      clear hl hl' hl1 hmem e1 hfind
      induction l with
      | nil => simp at hold
      | cons a l ih =>
        rw [List.nodup_cons] at hln
        by_cases ha : Parts.tagAt p.world a = some "text:list-header"
        · have hao : a = old := by simpa [ha] using hold
          subst hao
          rw [List.eraseP_cons_of_pos (by simpa using ha)]
          unfold less
          rw [List.filter_cons_of_neg (by simp)]
          exact List.filter_eq_self.mpr fun x hx => by
            simpa using fun hxe : x = a => hln.1 (hxe ▸ hx)
        · rw [List.filter_cons_of_neg (by simpa using ha)] at hold
          have hne : a ≠ old := fun hao => hln.1 (hao ▸ List.mem_of_mem_filter (List.mem_of_head? hold))
          rw [List.eraseP_cons_of_neg (by simpa using ha), ← ih hln.2 hold]
          unfold less
          rw [List.filter_cons_of_pos (by simpa using hne)]
    have hb1 : ¬ Below W1 c n := by
      intro hb
      refine hno ?_
      clear hl1 hl hl' ht hlist e1 hfind hins hi hold hmem hno
      induction hb with
      | self => exact .self
      | step h1 h2 h3 ih =>
        rw [r1.others, Option.map_eq_some_iff] at h2
        obtain ⟨l0, h4, rfl⟩ := h2
        exact .step ih h4 (List.mem_of_mem_filter h3)
    obtain ⟨W', e, m⟩ := hins r1.once hl1 ((r1.all c).mpr hc) hb1
    refine ⟨W', ?_, ⟨m.once, fun i => (m.all i).trans (r1.all i), fun i => (m.data i).trans (d1 i)⟩, ?_, ?_⟩
    · rw [Option.elim_some]
      have e1' : Lxml.remove n old p.world = (W1, .ok ()) := e1
      rw [Py.bind_ok e1']
      exact e
    · rw [m.there, herase]
    · intro q hq
      rw [m.others q hq, r1.others q, Option.map_map]
      cases hk : children p.world q with
      | none => rfl
      | some k =>
        have : old ∉ k := by
          intro hok
          obtain ⟨v, hv, hvk⟩ := children_find hk
          obtain ⟨t', ht', htl⟩ := children_find hl
          exact hq (parent_unique hn hv ht' (hvk ▸ hok) (htl ▸ hmem))
        rw [Option.map_some, Option.map_some, Function.comp]
        refine congrArg (fun z => some (less c z)) (List.filter_eq_self.mpr fun x hx => ?_)
        simpa using fun hxe : x = old => this (hxe ▸ hx)

/-! ## Cases -/

theorem made_find {p p' : Prog} {t : Tree} (hw : p'.world = p.world ++ single t)
    (hd : ∀ i ∈ ids (single t), i ∉ ids p.world) : find t.1.id p'.world = some t := by
  have hx : t.1.id ∈ ids (single t) := by simp [ids]
  rw [hw, find_append]
  cases hf : find t.1.id p.world with
  | some v => exact absurd (find_mem hf) (hd _ hx)
  | none => simp [find, single]

/-- A new object is no ancestor of an older node. -/
theorem made_below {W : World} {t : Tree} (hn : (ids (W ++ single t)).Nodup) (hd : ∀ i ∈ ids (single t), i ∉ ids W) {n : Nat}
    (h : n ∈ ids W) : ¬ Below (W ++ single t) t.1.id n := by
  have hx : t.1.id ∈ ids (single t) := by simp [ids]
  have hf : find t.1.id (W ++ single t) = some t := by
    rw [find_append]
    cases hf : find t.1.id W with
    | some v => exact absurd (find_mem hf) (hd _ hx)
    | none => simp [find, single]
  intro hb
  exact hd n ((below_iff hn hf).mpr hb) h

/-- In a new text document a list gets a header and then another one: only the second is in it.  The list is appended to
the body and then appended again: it is there once. -/
example : ∃ L : XLib, L.Lawful ∧ ∃ p p1 q p2 p3 p4 n a b l, OK L p ∧ p.objs = [n, a] ∧
    exec (.setHeader 0 1) p = (p1, .ok ()) ∧ children p1.world n = some [a] ∧
    exec (.header "B".toList) p1 = (q, .ok ()) ∧ q.objs = [n, a, b] ∧
    exec (.setHeader 0 2) q = (p2, .ok ()) ∧ children p2.world n = some [b] ∧
    exec (.append none 0) p2 = (p3, .ok ()) ∧ exec (.append none 0) p3 = (p4, .ok ()) ∧
    children p4.world p2.session.tree.body.node = some l ∧ l.count n = 1 := by
  obtain ⟨L, hl⟩ := xlib_exists
  obtain ⟨s, -, ok0, hmt, -⟩ := C81_new hl (fun _ => none) demoClock (mt := textType) (by decide +kernel)
  have step : ∀ {p p' : Prog} {a : Act}, OK L p → exec a p = (p', .ok ()) → Allowed p a → OK L p' := by
    intro p p' a h he ha
    have := (C81_step h ha).1
    rwa [he] at this
  have once : ∀ {p : Prog}, OK L p → (ids p.world).Nodup := fun h => by
    obtain ⟨F, tag, -, hf⟩ := h.fits
    exact hf.kept.once
  obtain ⟨q1, t1, e1, w1, d1, o1, s1, n1⟩ := C81_made ok0 (a := .list []) trivial
  have ok1 := step ok0 e1 trivial
  obtain ⟨q2, t2, e2, w2, d2, o2, s2, n2⟩ := C81_made ok1 (a := .header "A".toList) trivial
  have ok2 := step ok1 e2 trivial
  have f1 := made_find w1 d1
  have f2 := made_find w2 d2
  have f1' : find t1.1.id q2.world = some t1 := by rw [w2, find_append, f1]; rfl
  have c1 : children q2.world t1.1.id = some [] := by unfold children; rw [f1', Option.map_some, n1.2.2]; rfl
  have oq2 : q2.objs = [t1.1.id, t2.1.id] := by rw [o2, o1]; rfl
  obtain ⟨p1, e3, m3, h3, -, o3, s3⟩ := C81_set_header ok2 (i := 0) (j := 1) (n := t1.1.id) (c := t2.1.id) (by rw [oq2]; rfl)
    (by rw [oq2]; rfl) (by rw [tagAt_find f1', n1.1]) (by rw [tagAt_find f2, n2.1]) c1 (by
      have := once ok2
      rw [w2] at this ⊢
      exact made_below this d2 (find_mem f1))
  have ok3 := step ok2 e3 trivial
  obtain ⟨q, t3, e4, w4, d4, o4, s4, n4⟩ := C81_made ok3 (a := .header "B".toList) trivial
  have ok4 := step ok3 e4 trivial
  have f3 := made_find w4 d4
  have t1' : Parts.tagAt p1.world t1.1.id = some "text:list" := by
    unfold Parts.tagAt
    rw [m3.data]
    exact (tagAt_find f1').trans (by rw [n1.1])
  have t2' : Parts.tagAt p1.world t2.1.id = some "text:list-header" := by
    unfold Parts.tagAt
    rw [m3.data]
    exact (tagAt_find f2).trans (by rw [n2.1])
  have up : ∀ {x : Nat} {k : String}, Parts.tagAt p1.world x = some k → Parts.tagAt q.world x = some k := by
    intro x k hx
    unfold Parts.tagAt Lxml.content at hx ⊢
    rw [w4, find_append]
    cases hf : find x p1.world with
    | none => rw [hf] at hx; simp at hx
    | some v => rw [hf] at hx; exact hx
  have c4 : children q.world t1.1.id = some [t2.1.id] := by
    have h3' : children p1.world t1.1.id = some [t2.1.id] := h3
    unfold children at h3' ⊢
    rw [w4, find_append]
    cases hf : find t1.1.id p1.world with
    | none => rw [hf] at h3'; simp at h3'
    | some v => rw [hf] at h3'; exact h3'
  have oq : q.objs = [t1.1.id, t2.1.id, t3.1.id] := by rw [o4, o3, oq2]; rfl
  have in1 : t1.1.id ∈ ids p1.world := (m3.all _).mpr (find_mem f1')
  have hne : t2.1.id ≠ t3.1.id := by
    intro he
    refine d4 t3.1.id (by simp [ids]) ?_
    rw [← he]
    exact (m3.all _).mpr (find_mem f2)
  obtain ⟨p2, e5, m5, h5, -, o5, s5⟩ := C81_set_header ok4 (i := 0) (j := 2) (n := t1.1.id) (c := t3.1.id) (by rw [oq]; rfl)
    (by rw [oq]; rfl) (up t1') (by rw [tagAt_find f3, n4.1]) c4 (by
      have := once ok4
      rw [w4] at this ⊢
      exact made_below this d4 in1)
  rw [List.eraseP_cons_of_pos (by simpa using up t2')] at h5
  have ok5 := step ok4 e5 trivial
  have mt5 : MIMETYPE_BODYTAG_MAP.get p2.session.mimetype = some "office:text" := by
    have : p2.session.mimetype = s.mimetype := by rw [s5, s4, s3, s2, s1]
    rw [this, hmt]; decide +kernel
  have body : ∀ {p : Prog}, OK L p → p.session.tree.body.node ∈ ids p.world := fun h => by
    obtain ⟨F, tag, -, hf⟩ := h.fits
    exact hf.kept.mem _ (hf.kept.frame _ (by simp))
  obtain ⟨l5, hl5⟩ := children_some (body ok5)
  obtain ⟨p3, b3, a3, e6, -, m6, -, -, o6, s6⟩ := C81_body_append ok5 mt5 (i := 0) (c := t1.1.id) (by rw [o5, oq]; rfl) hl5
  have ok6 := step ok5 e6 trivial
  have tr : p3.session.tree = p2.session.tree := by rw [s6]
  obtain ⟨p4, b4, a4, e7, -, m7, -⟩ := C81_body_append ok6 (by rw [s6]; exact mt5) (i := 0) (c := t1.1.id)
    (by rw [o6, o5, oq]; rfl) (by rw [tr]; exact m6.there)
  refine ⟨L, hl, q2, p1, q, p2, p3, p4, t1.1.id, t2.1.id, t3.1.id, _, ok2, oq2, e3, h3, e4, oq, e5, h5, e6, e7,
    by rw [← tr]; exact m7.there, ?_⟩
  have h0 : ∀ l : List Nat, (less t1.1.id l).count t1.1.id = 0 := fun l => by simp [less, List.count_eq_zero]
  rw [List.count_append, List.count_cons, h0, h0]; simp

set_option synthInstance.maxSize 512 in
/-- The new header is an ancestor of the list: the call raises, but the old header has already left the list
(text.py:165-168). -/
example : bodyAfter [.ezlist ["x".toList] "H".toList [], .append none 0, .header [], .append none 1, .append (some 1) 0,
      .setHeader 0 1, .append none 0] =
    some ([.ok (), .ok (), .ok (), .ok (), .ok (), .error .ValueError, .ok ()],
      [("text:variable-decls", some [], []), ("text:user-field-decls", some [], []), ("text:list-header", some [], []),
        ("text:list", some [], [some "x".toList])]) := by decide +kernel

end Verif.TextProg
