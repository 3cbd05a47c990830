import Verif.Model.Program
import Verif.Proofs.Frame
import Verif.Props.WholeMore
/-! Helper lemmas for C78: the tables of a document in its tree. -/
namespace Verif.Program
open Verif Verif.Lxml Forest Verif.Whole Verif.Tbl
set_option linter.unusedSimpArgs false

/-! ## Writing a table back -/

/-- Exchanging the tree at a node for another one with that root; new nodes are not in the world. -/
theorem put_all {W : World} (hn : (ids W).Nodup) {n : Nat} {t t' : Tree} (hb : find n W = some t)
    (hid : t'.1.id = n) (hk : (ids t'.2).Nodup) (hnew : ∀ x ∈ ids t'.2, x ∈ ids t.2 ∨ x ∉ ids W) :
    let W' := W.subst n fun _ _ => single t'
    (ids W').Nodup ∧ roots W' = roots W ∧ find n W' = some t' ∧
    (∀ q, q ∉ ids (single t) → q ∉ ids (single t') → node W' q = node W q) ∧
    (∀ x ∈ ids W', x ∈ ids W ∨ x ∈ ids t'.2) ∧
    (∀ x ∈ ids W, x ∉ ids (single t) → x ∈ ids W') := by
  intro W'
  have hidt := (find_mem_ids hb).1
  obtain ⟨L, R, h1, h2, h3, h4, h5⟩ := subst_all hn hb (fun _ _ => single t')
  have hn1 := hn
  rw [h1] at hn1
  simp only [ids_single, List.nodup_append, List.nodup_cons, List.mem_append, List.mem_cons, List.cons_append] at hn1
  have hW : ∀ x, x ∈ ids W ↔ x ∈ L ∨ x = t.1.id ∨ x ∈ ids t.2 ∨ x ∈ R := by
    intro x
    rw [h1]
    simp only [ids_single, List.mem_append, List.mem_cons, List.cons_append]
  have hLR : ∀ x ∈ ids t'.2, x ∉ L ∧ x ≠ t.1.id ∧ x ∉ R := by
    intro x hx
    rcases hnew x hx with h | h
    · refine ⟨fun hl => hn1.2.2 x hl x (.inr (.inl h)) rfl, fun he => hn1.2.1.1 (.inl (he ▸ h)), fun hr => hn1.2.1.2.2.2 x h x hr rfl⟩
    · exact ⟨fun hl => h ((hW x).mpr (.inl hl)), fun he => h ((hW x).mpr (.inr (.inl he))),
        fun hr => h ((hW x).mpr (.inr (.inr (.inr hr))))⟩
  have hee : t'.1.id = t.1.id := hid.trans hidt.symm
  simp only [ids_single, hee] at h2
  refine ⟨?_, ?_, ?_, ?_, ?_, ?_⟩
  · show (ids W').Nodup
    rw [h2]
    simp only [List.nodup_append, List.nodup_cons, List.mem_append, List.mem_cons, List.cons_append]
    refine ⟨hn1.1, ⟨?_, hk, hn1.2.1.2.2.1, fun a ha c hc e => (hLR a ha).2.2 (e ▸ hc)⟩, ?_⟩
    · rintro (h | h)
      · exact (hLR _ h).2.1 rfl
      · exact hn1.2.1.1 (.inr h)
    · rintro a ha c (rfl | h | h) e
      · exact hn1.2.2 a ha _ (.inl rfl) e
      · exact (hLR c h).1 (e ▸ ha)
      · exact hn1.2.2 a ha c (.inr (.inr h)) e
  · show roots W' = _
    rw [h3]
    simp only [roots_single, hid, splice_self]
  · have := h5 n (by simp [hid]) (by
      intro h
      rcases List.mem_append.mp h with h | h
      · exact hn1.2.2 _ h _ (.inl rfl) hidt.symm
      · exact hn1.2.1.1 (.inr (hidt ▸ h)))
    show find n W' = _
    rw [this, ← hid, find_single_self]
  · intro q hq hq'
    show node W' q = _
    rw [h4 q hq' hq]
    simp only [roots_single, hid, splice_self]
    cases node W q <;> rfl
  · intro x hx
    have hx : x ∈ ids (W.subst n fun _ _ => single t') := hx
    rw [h2] at hx
    simp only [List.mem_append, List.mem_cons, List.cons_append] at hx
    rw [hW]
    rcases hx with h | h | h | h
    · exact .inl (.inl h)
    · exact .inl (.inr (.inl h))
    · exact .inr h
    · exact .inl (.inr (.inr (.inr h)))
  · intro x hx hx'
    show x ∈ ids W'
    rw [h2]
    simp only [List.mem_append, List.mem_cons, List.cons_append]
    simp only [ids_single, List.mem_cons, not_or] at hx'
    rcases (hW x).mp hx with h | h | h | h
    · exact .inl h
    · exact .inr (.inl h)
    · exact absurd h hx'.2
    · exact .inr (.inr (.inr h))

/-! ## Where the tables are -/

/-- A table element that is a sheet of the document or stands outside of all trees. -/
structure Placed (W : World) (d : Parts.DocTree) (n : Nat) : Prop where
  tag : Parts.tagAt W n = some "table:table"
  at_ : n ∈ roots W ∨ ∃ b, find d.body.node W = some b ∧ n ∈ roots b.2

/-- The frame of a document in the world. -/
structure Framed (W : World) (tag : String) (d : Parts.DocTree) : Prop where
  once : (ids W).Nodup
  noTable : tag ≠ "table:table"
  refs : Parts.DocRefs W tag d
  styles : d.styles.root ∈ roots W
  content : d.content.root ∈ roots W

theorem ref_child {W : World} {p c : Nat} {tag : String} (h : Parts.Ref W p tag c) :
    ∃ t, find p W = some t ∧ c ∈ roots t.2 := by
  obtain ⟨A, B, h1, -, -⟩ := h
  unfold children at h1
  cases hf : find p W with
  | none => rw [hf] at h1; cases h1
  | some t =>
    rw [hf] at h1
    refine ⟨t, rfl, ?_⟩
    have : roots t.2 = A ++ c :: B := by simpa [roots] using h1
    rw [this]; simp

theorem ref_tag {W : World} {p c : Nat} {tag : String} (h : Parts.Ref W p tag c) : Parts.tagAt W c = some tag := by
  obtain ⟨A, B, -, h2, -⟩ := h
  exact h2

theorem Framed.body {W : World} {tag : String} {d : Parts.DocTree} (h : Framed W tag d) :
    ∃ b, find d.body.node W = some b := find_some_of_mem (Parts.mem_of_tagAt (ref_tag h.refs.body.node))

/-- The elements of the frame are not in a table. -/
theorem placed_out {W : World} {tag : String} {d : Parts.DocTree} (h : Framed W tag d) {n : Nat}
    (hp : Placed W d n) {t : Tree} (ht : find n W = some t) :
    ∀ p ∈ [d.styles.root, d.content.root, d.content.body, d.body.node], p ∉ ids (single t) := by
  have hid := (find_mem_ids ht).1
  have hroot : ∀ r, r ∈ roots W → Parts.tagAt W r ≠ some "table:table" → r ∉ ids (single t) := by
    intro r hr htag hm
    simp only [ids_single, List.mem_cons] at hm
    rcases hm with hm | hm
    · rw [hm, hid] at htag; exact htag hp.tag
    · exact child_not_root h.once ht hm hr
  have ps := hroot _ h.styles (by rw [h.refs.stylesRoot]; decide)
  have pc := hroot _ h.content (by rw [h.refs.contentRoot]; decide)
  -- a child of a node outside of the table that is not the table itself is outside
  have down : ∀ {p c : Nat} {tg : String}, Parts.Ref W p tg c → tg ≠ "table:table" → p ∉ ids (single t) →
      c ∉ ids (single t) := by
    intro p c tg hr htg hpo
    obtain ⟨u, hu, hc⟩ := ref_child hr
    refine child_out h.once hu ht hpo hc fun e => ?_
    have := ref_tag hr
    rw [e, hp.tag] at this
    exact htg (Option.some.inj this).symm
  have pb := down h.refs.content.body (by decide) pc
  have pn := down h.refs.body.node h.noTable pb
  intro p hp'
  simp only [List.mem_cons, List.not_mem_nil, or_false] at hp'
  rcases hp' with rfl | rfl | rfl | rfl
  · exact ps
  · exact pc
  · exact pb
  · exact pn

/-- Two tables have no node in common. -/
theorem placed_apart {W : World} {tag : String} {d : Parts.DocTree} (h : Framed W tag d) {n m : Nat}
    (hp : Placed W d n) (hq : Placed W d m) (hne : n ≠ m) {t u : Tree} (ht : find n W = some t)
    (hu : find m W = some u) : ∀ x ∈ ids (single t), x ∉ ids (single u) := by
  have key : ∀ {n m : Nat}, Placed W d n → Placed W d m → n ≠ m → ∀ {t : Tree}, find n W = some t →
      m ∉ ids (single t) := by
    intro n m hp hq hne t ht
    rcases hq.at_ with hr | ⟨b, hb, hm⟩
    · intro hm
      simp only [ids_single, List.mem_cons] at hm
      rcases hm with hm | hm
      · exact hne ((find_mem_ids ht).1 ▸ hm.symm)
      · exact child_not_root h.once ht hm hr
    · exact child_out h.once hb ht (placed_out h hp ht _ (by simp)) hm fun e => hne e.symm
  intro x hx hx'
  rcases laminar h.once ht hu hx hx' with h1 | h1
  · exact key hq hp (fun e => hne e.symm) hu h1
  · exact key hp hq hne ht h1

/-- A child of the body that is no table has no node in common with a table. -/
theorem other_apart {W : World} {tag : String} {d : Parts.DocTree} (h : Framed W tag d) {n : Nat}
    (hp : Placed W d n) {t u b : Tree} (ht : find n W = some t) (hb : find d.body.node W = some b)
    (hu : u ∈ b.2.toList) (hne : u.1.id ≠ n) : ∀ x ∈ ids (single t), x ∉ ids (single u) := by
  have hfu := child_find h.once hb hu
  have hmu : u.1.id ∈ roots b.2 := List.mem_map_of_mem hu
  have hbt := placed_out h hp ht _ (by simp : d.body.node ∈ _)
  intro x hx hx'
  rcases laminar h.once ht hfu hx hx' with h1 | h1
  · rcases hp.at_ with hr | ⟨b', hb', hm⟩
    · simp only [ids_single, List.mem_cons] at h1
      rcases h1 with h1 | h1
      · exact hne h1.symm
      · exact child_not_root h.once hfu h1 hr
    · rw [hb] at hb'; cases hb'
      have hbu : d.body.node ∉ ids (single u) := by
        intro hm'
        have := nodup_tree h.once hb
        simp only [ids_single, List.nodup_cons] at this
        rw [(find_mem_ids hb).1] at this
        refine this.1 ?_
        rw [Tbl.ids_toList]
        exact List.mem_flatMap.mpr ⟨u, hu, by simpa using hm'⟩
      exact child_out h.once hb hfu hbu hm (fun e => hne e.symm) h1
  · exact child_out h.once hb ht hbt hmu hne h1

/-! ## A change inside of a table -/

theorem filter_same {l : List Nat} {p q : Nat → Bool} (h : ∀ x ∈ l, p x = q x) : l.filter p = l.filter q :=
  List.filter_congr h

theorem mem_old {W : World} {t t' : Tree} {n : Nat} (ht : find n W = some t) (hid : t'.1.id = n)
    (hnew : ∀ x ∈ ids t'.2, x ∈ ids t.2 ∨ x ∉ ids W) {x : Nat} (hx : x ∈ ids W) (h : x ∉ ids (single t)) :
    x ∉ ids (single t') := by
  intro h'
  simp only [ids_single, List.mem_cons] at h'
  rcases h' with h' | h'
  · exact h (by simp [h', hid, (find_mem_ids ht).1])
  · rcases hnew x h' with h1 | h1
    · exact h (by simp [h1])
    · exact h1 hx

/-- What a change inside of the table at `n` leaves alone. -/
structure PutSpec (W W' : World) (tag : String) (d : Parts.DocTree) (n : Nat) (t t' : Tree) : Prop where
  framed : Framed W' tag d
  roots : roots W' = roots W
  self : find n W' = some t'
  placed : ∀ m, Placed W d m → Placed W' d m
  others : ∀ m, m ≠ n → Placed W d m → find m W' = find m W
  body : ∃ b b', find d.body.node W = some b ∧ find d.body.node W' = some b' ∧ b'.1 = b.1 ∧
    b'.2.toList = b.2.toList.map fun u => if u.1.id = n then t' else u
  nodes : ∀ q ∈ ids W, q ∉ ids (single t) → node W' q = node W q
  ids : ∀ x ∈ ids W', x ∈ ids W ∨ x ∈ ids t'.2

theorem put_spec {W : World} {tag : String} {d : Parts.DocTree} (h : Framed W tag d) {n : Nat}
    (hp : Placed W d n) {t t' : Tree} (ht : find n W = some t) (hid : t'.1.id = n) (htag : t'.1.tag = "table:table")
    (hk : (ids t'.2).Nodup) (hnew : ∀ x ∈ ids t'.2, x ∈ ids t.2 ∨ x ∉ ids W) :
    PutSpec W (W.subst n fun _ _ => single t') tag d n t t' := by
  obtain ⟨a1, a2, a3, a4, a5, a6⟩ := put_all h.once ht hid hk hnew
  generalize (W.subst n fun _ _ => single t') = W' at a1 a2 a3 a4 a5 a6 ⊢
  have hnodes : ∀ q ∈ ids W, q ∉ ids (single t) → node W' q = node W q := fun q hq ho =>
    a4 q ho (mem_old ht hid hnew hq ho)
  have hout := placed_out h hp ht
  have hmem : ∀ p ∈ [d.styles.root, d.content.root, d.content.body, d.body.node], p ∈ ids W := by
    intro p hp'
    simp only [List.mem_cons, List.not_mem_nil, or_false] at hp'
    rcases hp' with rfl | rfl | rfl | rfl
    · exact roots_sub h.styles
    · exact roots_sub h.content
    · exact Parts.mem_of_tagAt (ref_tag h.refs.content.body)
    · exact Parts.mem_of_tagAt (ref_tag h.refs.body.node)
  have hfr : ∀ p ∈ [d.styles.root, d.content.root, d.content.body, d.body.node], node W' p = node W p :=
    fun p hp' => hnodes p (hmem p hp') (hout p hp')
  have htn : t.1.tag = "table:table" := by
    have := hp.tag
    rw [tagAt_find ht] at this
    exact Option.some.inj this
  obtain ⟨b, hb⟩ := h.body
  have hbk : children W' d.body.node = children W d.body.node := node_children (hfr _ (by simp))
  -- children of the frame
  have hkid : ∀ p ∈ [d.styles.root, d.content.root, d.content.body, d.body.node], ∀ u, find p W = some u →
      ∀ x ∈ roots u.2, Parts.tagAt W' x = Parts.tagAt W x := by
    intro p hp' u hu x hx
    by_cases hxn : x = n
    · rw [hxn, tagAt_find a3, hp.tag, htag]
    · have hxo := child_out h.once hu ht (hout p hp') hx hxn
      refine node_tag (hnodes x ((find_sub hu).subset ?_) hxo)
      simp [roots_sub hx]
  have hkeep : ∀ p ∈ [d.styles.root, d.content.root, d.content.body, d.body.node], Keep W W' p := by
    intro p hp'
    obtain ⟨u, hu⟩ := find_some_of_mem (hmem p hp')
    refine ⟨Lxml.roots u.2, Lxml.roots u.2, children_find hu, ?_, ?_, fun x hx _ => hkid p hp' u hu x hx⟩
    · rw [node_children (hfr p hp'), children_find hu]
    · refine filter_same fun x hx => ?_
      rw [hkid p hp' u hu x hx]
  -- other children of the body
  have hsame : ∀ u ∈ b.2.toList, u.1.id ≠ n → find u.1.id W' = some u := by
    intro u hu hne
    have hfu := child_find h.once hb hu
    refine tree_of_nodes h.once a1 hfu fun q hq => hnodes q ((find_sub hfu).subset hq) fun hq' => ?_
    exact other_apart h hp ht hb hu hne q hq' hq
  have hdr : Parts.DocRefs W' tag d := by
    refine docrefs_keep h.noTable h.refs ?_ ?_ hkeep ?_
    · exact node_tag (hfr _ (by simp))
    · exact node_tag (hfr _ (by simp))
    · intro v tg htg hr
      obtain ⟨u, hu, hv⟩ := ref_child hr
      rw [hb] at hu; cases hu
      obtain ⟨x, hx, rfl⟩ := List.mem_map.mp hv
      rw [child_find h.once hb hx]
      refine hsame x hx fun e => ?_
      have := ref_tag hr
      rw [e, hp.tag] at this
      exact htg (Option.some.inj this).symm
  have hbody : ∃ b', find d.body.node W' = some b' ∧ b'.1 = b.1 ∧ Lxml.roots b'.2 = Lxml.roots b.2 := by
    have := hfr d.body.node (by simp)
    rw [node_of_find hb] at this
    obtain ⟨k, hk1, hk2⟩ := find_of_node this
    exact ⟨_, hk1, rfl, hk2⟩
  obtain ⟨b', hb1, hb2, hb3⟩ := hbody
  refine ⟨⟨a1, h.noTable, hdr, a2 ▸ h.styles, a2 ▸ h.content⟩, a2, a3, ?_, ?_, ⟨b, b', hb, hb1, hb2, ?_⟩, hnodes, a5⟩
  · intro m hm
    have hmt : Parts.tagAt W' m = some "table:table" := by
      by_cases hmn : m = n
      · rw [hmn, tagAt_find a3, htag]
      · have hmW := Parts.mem_of_tagAt hm.tag
        obtain ⟨u, hu⟩ := find_some_of_mem hmW
        rw [node_tag (hnodes m hmW fun hx => placed_apart h hp hm (fun e => hmn e.symm) ht hu m hx
          (by simp [(find_mem_ids hu).1])), hm.tag]
    refine ⟨hmt, ?_⟩
    rcases hm.at_ with hr | ⟨c, hc, hr⟩
    · left; rw [a2]; exact hr
    · right
      rw [hb] at hc; cases hc
      exact ⟨b', hb1, by rw [hb3]; exact hr⟩
  · intro m hmn hm
    obtain ⟨u, hu⟩ := find_some_of_mem (Parts.mem_of_tagAt hm.tag)
    rw [hu]
    refine tree_of_nodes h.once a1 hu fun q hq => hnodes q ((find_sub hu).subset hq) fun hq' => ?_
    exact placed_apart h hp hm (fun e => hmn e.symm) ht hu q hq' hq
  · have hl : b'.2.toList.length = b.2.toList.length := by
      have := congrArg List.length hb3
      simpa using this
    refine List.ext_getElem (by rw [List.length_map, hl]) fun i h1 h2 => ?_
    have hi : i < b.2.toList.length := by simpa using h2
    rw [List.getElem_map]
    have hid' : (b'.2.toList[i]).1.id = (b.2.toList[i]).1.id := by
      have := congrArg (fun l => l[i]?) hb3
      simp only [Lxml.roots, List.getElem?_map, List.getElem?_eq_getElem h1, List.getElem?_eq_getElem hi,
        Option.map_some, Option.some.injEq] at this
      exact this
    have hf' := child_find a1 hb1 (List.getElem_mem h1)
    rw [hid'] at hf'
    by_cases hin : (b.2.toList[i]).1.id = n
    · rw [if_pos hin]
      rw [hin, a3] at hf'
      exact (Option.some.inj hf').symm
    · rw [if_neg hin]
      rw [hsame _ (List.getElem_mem hi) hin] at hf'
      exact (Option.some.inj hf').symm

/-! ## Moving a table -/

/-- What moving the table `c` among the children of the body, or in and out, leaves alone. -/
structure MoveSpec (W W' : World) (tag : String) (d : Parts.DocTree) (l l' : List Nat) : Prop where
  framed : Framed W' tag d
  before : children W d.body.node = some l
  after : children W' d.body.node = some l'
  body : ∃ b b', find d.body.node W = some b ∧ find d.body.node W' = some b' ∧ b'.1 = b.1
  placed : ∀ m, Placed W d m → Placed W' d m
  trees : ∀ m, Placed W d m → find m W' = find m W
  nodes : ∀ q, q ≠ d.body.node → node W' q = node W q
  ids : (ids W').Perm (ids W)

theorem move_spec {W W' : World} {tag : String} {d : Parts.DocTree} (h : Framed W tag d)
    (hperm : (ids W').Perm (ids W)) {b : Tree} (hb : find d.body.node W = some b) {l' : List Nat}
    (hbody : node W' d.body.node = some (b.1, l'))
    (hnode : ∀ q, q ≠ d.body.node → node W' q = node W q)
    (hs : d.styles.root ∈ roots W') (hc : d.content.root ∈ roots W')
    (hl : l'.filter (fun x => Parts.tagAt W x ≠ some "table:table") =
      (roots b.2).filter (fun x => Parts.tagAt W x ≠ some "table:table"))
    (hplace : ∀ m, Placed W d m → m ∈ roots W' ∨ m ∈ l') :
    MoveSpec W W' tag d (roots b.2) l' := by
  have hn' : (ids W').Nodup := hperm.nodup_iff.mpr h.once
  obtain ⟨k, hk1, hk2⟩ := find_of_node hbody
  have htags : ∀ x, Parts.tagAt W' x = Parts.tagAt W x := by
    intro x
    by_cases hx : x = d.body.node
    · rw [hx, tagAt_find hk1, tagAt_find hb]
    · exact node_tag (hnode x hx)
  have hck : children W' d.body.node = some l' := by rw [children_find hk1, hk2]
  have hmem : ∀ p ∈ [d.styles.root, d.content.root, d.content.body, d.body.node], p ∈ ids W := by
    intro p hp'
    simp only [List.mem_cons, List.not_mem_nil, or_false] at hp'
    rcases hp' with rfl | rfl | rfl | rfl
    · exact roots_sub h.styles
    · exact roots_sub h.content
    · exact Parts.mem_of_tagAt (ref_tag h.refs.content.body)
    · exact find_mem hb
  have hkeep : ∀ p ∈ [d.styles.root, d.content.root, d.content.body, d.body.node], Keep W W' p := by
    intro p hp'
    obtain ⟨u, hu⟩ := find_some_of_mem (hmem p hp')
    by_cases hpb : p = d.body.node
    · subst hpb
      refine ⟨Lxml.roots b.2, l', children_find hb, hck, ?_, fun x _ _ => htags x⟩
      rw [← hl]
      exact filter_same fun x _ => by rw [htags]
    · refine ⟨Lxml.roots u.2, Lxml.roots u.2, children_find hu, ?_, filter_same fun x _ => by rw [htags], fun x _ _ => htags x⟩
      rw [node_children (hnode p hpb), children_find hu]
  have hbn : ∀ {m : Nat} {u : Tree}, find m W = some u → d.body.node ∉ ids (single u) → find m W' = some u :=
    fun hu ho => tree_of_nodes h.once hn' hu fun q hq => hnode q fun e => ho (e ▸ hq)
  have hdr : Parts.DocRefs W' tag d := by
    refine docrefs_keep h.noTable h.refs (htags _) (htags _) hkeep ?_
    intro v tg htg hr
    obtain ⟨u, hu, hv⟩ := ref_child hr
    rw [hb] at hu; cases hu
    obtain ⟨x, hx, rfl⟩ := List.mem_map.mp hv
    have hfx := child_find h.once hb hx
    rw [hfx]
    refine hbn hfx fun hm => ?_
    have := nodup_tree h.once hb
    simp only [ids_single, List.nodup_cons] at this
    rw [(find_mem_ids hb).1] at this
    refine this.1 ?_
    rw [Tbl.ids_toList]
    exact List.mem_flatMap.mpr ⟨x, hx, by simpa using hm⟩
  refine ⟨⟨hn', h.noTable, hdr, hs, hc⟩, children_find hb, hck, ⟨b, _, hb, hk1, rfl⟩, ?_, ?_, hnode, hperm⟩
  · intro m hm
    refine ⟨by rw [htags, hm.tag], ?_⟩
    rcases hplace m hm with h1 | h1
    · exact .inl h1
    · exact .inr ⟨_, hk1, by rw [hk2]; exact h1⟩
  · intro m hm
    obtain ⟨u, hu⟩ := find_some_of_mem (Parts.mem_of_tagAt hm.tag)
    rw [hu]
    exact hbn hu (placed_out h hm hu _ (by simp))

/-- Being a table or not, by the tag in the world -/
def noTable (W : World) (x : Nat) : Bool := Parts.tagAt W x ≠ some "table:table"

theorem filter_without {W : World} {c : Nat} (hc : Parts.tagAt W c = some "table:table") (l : List Nat) :
    (without c l).filter (noTable W) = l.filter (noTable W) := by
  unfold without
  rw [List.filter_filter]
  refine List.filter_congr fun x _ => ?_
  by_cases hx : x = c
  · subst hx; simp [noTable, hc]
  · simp [hx]

theorem filter_splice {W : World} {s : Nat} {g : List Nat} (hg : g.filter (noTable W) = [s].filter (noTable W))
    (l : List Nat) : (splice s g l).filter (noTable W) = l.filter (noTable W) := by
  induction l with
  | nil => rfl
  | cons x l ih =>
    by_cases hx : x = s
    · subst hx
      rw [splice_cons_self, List.filter_append, hg, ih, ← List.filter_append]; rfl
    · rw [splice_cons_ne _ _ hx, List.filter_cons, List.filter_cons, ih]

/-- A child of the body or a root is a child of no other node. -/
theorem only_body {W : World} (hn : (ids W).Nodup) {n : Nat} {b : Tree} (hb : find n W = some b) {x : Nat}
    (hx : x ∈ roots W ∨ x ∈ roots b.2) {q : Nat} (hq : q ≠ n) {e : Elem} {m : List Nat}
    (h : node W q = some (e, m)) : x ∉ m := by
  intro hm
  obtain ⟨k, hk1, hk2⟩ := find_of_node h
  rw [← hk2] at hm
  rcases hx with hx | hx
  · exact child_not_root hn hk1 (roots_sub hm) hx
  · exact hq (parent_unique hn hk1 hb hm hx)

theorem mem_splice {s x : Nat} {g l : List Nat} (hx : x ∈ l) (h : x ≠ s ∨ x ∈ g) : x ∈ splice s g l := by
  unfold Lxml.splice
  refine List.mem_flatMap.mpr ⟨x, hx, ?_⟩
  by_cases hxs : x = s
  · rw [if_pos hxs]
    rcases h with h | h
    · exact absurd hxs h
    · exact h
  · rw [if_neg hxs]; simp

theorem mem_splice_of {s x : Nat} {g l : List Nat} (hs : s ∈ l) (h : x ∈ g) : x ∈ splice s g l := by
  unfold Lxml.splice
  exact List.mem_flatMap.mpr ⟨s, hs, by rw [if_pos rfl]; exact h⟩

theorem mem_without {c x : Nat} {l : List Nat} (hx : x ∈ l) (h : x ≠ c) : x ∈ without c l := by
  unfold without
  exact List.mem_filter.mpr ⟨hx, by simpa using h⟩

theorem Framed.root_ne {W : World} {tag : String} {d : Parts.DocTree} (h : Framed W tag d) {c : Nat}
    (hc : Parts.tagAt W c = some "table:table") : ∀ r ∈ [d.styles.root, d.content.root], r ≠ c := by
  intro r hr e
  simp only [List.mem_cons, List.not_mem_nil, or_false] at hr
  rcases hr with rfl | rfl
  · have := h.refs.stylesRoot; rw [e, hc] at this; exact absurd (Option.some.inj this) (by decide)
  · have := h.refs.contentRoot; rw [e, hc] at this; exact absurd (Option.some.inj this) (by decide)

theorem Framed.root_mem {W : World} {tag : String} {d : Parts.DocTree} (h : Framed W tag d) :
    ∀ r ∈ [d.styles.root, d.content.root], r ∈ roots W := by
  intro r hr
  simp only [List.mem_cons, List.not_mem_nil, or_false] at hr
  rcases hr with rfl | rfl
  · exact h.styles
  · exact h.content

theorem Placed.cases {W : World} {d : Parts.DocTree} {n : Nat} (hp : Placed W d n) {b : Tree}
    (hb : find d.body.node W = some b) : n ∈ roots W ∨ n ∈ roots b.2 := by
  rcases hp.at_ with h | ⟨b', h1, h2⟩
  · exact .inl h
  · rw [hb] at h1; cases h1; exact .inr h2

theorem append_spec {W : World} {tag : String} {d : Parts.DocTree} (h : Framed W tag d) {c : Nat}
    (hp : Placed W d c) {b : Tree} (hb : find d.body.node W = some b) :
    ∃ W', Lxml.append d.body.node c W = (W', .ok ()) ∧
      MoveSpec W W' tag d (roots b.2) (without c (roots b.2) ++ [c]) := by
  obtain ⟨t, ht⟩ := find_some_of_mem (Parts.mem_of_tagAt hp.tag)
  obtain ⟨W', e, a1, a2, a3⟩ := append_all h.once hb ht (placed_out h hp ht _ (by simp))
  have hroot : ∀ r ∈ [d.styles.root, d.content.root], r ∈ roots W' := fun r hr => by
    rw [a2]; exact mem_without (h.root_mem r hr) (h.root_ne hp.tag r hr)
  refine ⟨W', e, move_spec h a1 hb ?_ ?_ (hroot _ (by simp)) (hroot _ (by simp)) ?_ ?_⟩
  · rw [a3, node_of_find hb]; simp
  · intro q hq
    rw [a3]
    cases hnq : node W q with
    | none => rfl
    | some u =>
      obtain ⟨e, m⟩ := u
      have := only_body h.once hb (hp.cases hb) hq hnq
      simp [hq, without_not_mem this]
  · show List.filter (noTable W) _ = List.filter (noTable W) _
    rw [List.filter_append, filter_without hp.tag]
    simp [noTable, hp.tag]
  · intro m hm
    by_cases hmc : m = c
    · right; simp [hmc]
    · rcases hm.cases hb with h1 | h1
      · left; rw [a2]; exact mem_without h1 hmc
      · right; simp [mem_without h1 hmc]

theorem before_spec {W : World} {tag : String} {d : Parts.DocTree} (h : Framed W tag d) {c s : Nat}
    (hp : Placed W d c) {b : Tree} (hb : find d.body.node W = some b) (hs : s ∈ roots b.2) (hne : s ≠ c) {t : Tree}
    (ht : find c W = some t) :
    MoveSpec W ((detach c W).subst s fun e k => single t ++ single (e, k)) tag d (roots b.2)
      (splice s [c, s] (without c (roots b.2))) := by
  have hbo := placed_out h hp ht _ (by simp : d.body.node ∈ _)
  obtain ⟨st, hst⟩ := find_some_of_mem ((find_sub hb).subset (by simp [roots_sub hs]) : s ∈ ids W)
  obtain ⟨a1, a2, a3⟩ := before_all h.once ht hst (child_out h.once hb ht hbo hs hne)
  generalize ((detach c W).subst s fun e k => single t ++ single (e, k)) = W' at a1 a2 a3 ⊢
  have hroot : ∀ r ∈ [d.styles.root, d.content.root], r ∈ roots W' := fun r hr => by
    rw [a2]
    refine mem_splice (mem_without (h.root_mem r hr) (h.root_ne hp.tag r hr)) (.inl fun e => ?_)
    exact child_not_root h.once hb (roots_sub hs) (e ▸ h.root_mem r hr)
  refine move_spec h a1 hb ?_ ?_ (hroot _ (by simp)) (hroot _ (by simp)) ?_ ?_
  · rw [a3, node_of_find hb]; simp
  · intro q hq
    rw [a3]
    cases hnq : node W q with
    | none => rfl
    | some u =>
      obtain ⟨e, m⟩ := u
      have h1 := only_body h.once hb (hp.cases hb) hq hnq
      have h2 := only_body h.once hb (.inr hs) hq hnq
      simp [without_not_mem h1, splice_not_mem _ h2]
  · show List.filter (noTable W) _ = List.filter (noTable W) _
    rw [filter_splice, filter_without hp.tag]
    rw [List.filter_cons]
    simp [noTable, hp.tag]
  · intro m hm
    by_cases hmc : m = c
    · right; rw [hmc]; exact mem_splice_of (mem_without hs hne) (by simp)
    · rcases hm.cases hb with h1 | h1
      · left; rw [a2]
        refine mem_splice (mem_without h1 hmc) ?_
        by_cases hms : m = s
        · right; simp [hms]
        · exact .inl hms
      · right
        refine mem_splice (mem_without h1 hmc) ?_
        by_cases hms : m = s
        · right; simp [hms]
        · exact .inl hms

theorem remove_spec {W : World} {tag : String} {d : Parts.DocTree} (h : Framed W tag d) {c : Nat}
    (hp : Placed W d c) {b : Tree} (hb : find d.body.node W = some b) (hc : c ∈ roots b.2) :
    ∃ W', Lxml.remove d.body.node c W = (W', .ok ()) ∧ MoveSpec W W' tag d (roots b.2) (without c (roots b.2)) := by
  obtain ⟨t, ht⟩ := find_some_of_mem (Parts.mem_of_tagAt hp.tag)
  obtain ⟨a1, a2, a3⟩ := remove_all h.once ht t.1 rfl
  refine ⟨detach c W ++ single t, ?_, ?_⟩
  · unfold Lxml.remove
    simp only [hb, ht]
    rw [if_pos hc]
  have a3 : ∀ q, node (detach c W ++ single t) q = (node W q).map fun u => (u.1, without c u.2) := by
    intro q
    refine (a3 q).trans ?_
    cases hnq : node W q with
    | none => rfl
    | some u =>
      by_cases hqc : q = c
      · rw [hqc, node_of_find ht] at hnq
        cases hnq
        simp
      · simp [hqc]
  have a1 : (ids (detach c W ++ single t)).Perm (ids W) := a1
  have a2 : roots (detach c W ++ single t) = without c (roots W) ++ [c] := a2
  generalize (detach c W ++ single t) = W' at a1 a2 a3 ⊢
  have hroot : ∀ r ∈ [d.styles.root, d.content.root], r ∈ roots W' := fun r hr => by
    rw [a2]; simp [mem_without (h.root_mem r hr) (h.root_ne hp.tag r hr)]
  refine move_spec h a1 hb ?_ ?_ (hroot _ (by simp)) (hroot _ (by simp)) ?_ ?_
  · rw [a3, node_of_find hb]; simp
  · intro q hq
    rw [a3]
    cases hnq : node W q with
    | none => rfl
    | some u =>
      obtain ⟨e, m⟩ := u
      have h1 := only_body h.once hb (hp.cases hb) hq hnq
      simp [without_not_mem h1]
  · exact filter_without hp.tag _
  · intro m hm
    by_cases hmc : m = c
    · left; rw [a2]; simp [hmc]
    · rcases hm.cases hb with h1 | h1
      · left; rw [a2]; simp [mem_without h1 hmc]
      · right; exact mem_without h1 hmc

theorem replace_spec {W : World} {tag : String} {d : Parts.DocTree} (h : Framed W tag d) {c s : Nat}
    (hp : Placed W d c) (hq : Placed W d s) {b : Tree} (hb : find d.body.node W = some b) (hs : s ∈ roots b.2)
    (hne : s ≠ c) :
    ∃ W', Lxml.replace d.body.node s c W = (W', .ok ()) ∧
      MoveSpec W W' tag d (roots b.2) (splice s [c] (without c (roots b.2))) := by
  obtain ⟨t, ht⟩ := find_some_of_mem (Parts.mem_of_tagAt hp.tag)
  obtain ⟨st, hst⟩ := find_some_of_mem (Parts.mem_of_tagAt hq.tag)
  have hbo := placed_out h hp ht _ (by simp : d.body.node ∈ _)
  obtain ⟨o, ho, a1, a2, a3⟩ := replace_all h.once ht hst (child_out h.once hb ht hbo hs hne)
  refine ⟨(detach c W).subst s (fun _ _ => single t) ++ single o, ?_, ?_⟩
  · unfold Lxml.replace
    simp only [hb, ht, hst]
    rw [if_neg (by simpa using hs), if_neg (by simpa [Lxml.inTree] using hbo), if_neg hne]
    rw [ho]
  generalize ((detach c W).subst s (fun _ _ => single t) ++ single o) = W' at a1 a2 a3 ⊢
  have hroot : ∀ r ∈ [d.styles.root, d.content.root], r ∈ roots W' := fun r hr => by
    rw [a2]
    refine List.mem_append_left _ (mem_splice (mem_without (h.root_mem r hr) (h.root_ne hp.tag r hr)) (.inl fun e => ?_))
    exact child_not_root h.once hb (roots_sub hs) (e ▸ h.root_mem r hr)
  refine move_spec h a1 hb ?_ ?_ (hroot _ (by simp)) (hroot _ (by simp)) ?_ ?_
  · rw [a3, node_of_find hb]; simp
  · intro q hq
    rw [a3]
    cases hnq : node W q with
    | none => rfl
    | some u =>
      obtain ⟨e, m⟩ := u
      have h1 := only_body h.once hb (hp.cases hb) hq hnq
      have h2 := only_body h.once hb (.inr hs) hq hnq
      simp [without_not_mem h1, splice_not_mem _ h2]
  · show List.filter (noTable W) _ = List.filter (noTable W) _
    rw [filter_splice, filter_without hp.tag]
    simp [noTable, hp.tag, hq.tag]
  · intro m hm
    by_cases hmc : m = c
    · right; rw [hmc]; exact mem_splice_of (mem_without hs hne) (by simp)
    · by_cases hms : m = s
      · left; rw [a2]; simp [hms]
      · rcases hm.cases hb with h1 | h1
        · left; rw [a2]
          exact List.mem_append_left _ (mem_splice (mem_without h1 hmc) (.inl hms))
        · right
          exact mem_splice (mem_without h1 hmc) (.inl hms)

/-! ## A new table outside of the document -/

theorem add_spec {W : World} {tag : String} {d : Parts.DocTree} (h : Framed W tag d) {t : Tree}
    (h1 : (ids (single t)).Nodup) (h2 : ∀ i ∈ ids (single t), Parts.newId W ≤ i) (htag : t.1.tag = "table:table") :
    Framed (W ++ single t) tag d ∧ Placed (W ++ single t) d t.1.id ∧ find t.1.id (W ++ single t) = some t ∧
    (∀ m, Placed W d m → Placed (W ++ single t) d m) ∧ ∀ i u, find i W = some u → find i (W ++ single t) = some u := by
  obtain ⟨a1, a2, a3⟩ := nodup_add h.once h1 h2
  have htags : ∀ {x}, x ∈ ids W → Parts.tagAt (W ++ single t) x = Parts.tagAt W x := by
    intro x hx
    obtain ⟨u, hu⟩ := find_some_of_mem hx
    rw [tagAt_find hu, tagAt_find (a3 x u hu)]
  have hr : roots (W ++ single t) = roots W ++ [t.1.id] := by simp
  refine ⟨⟨a1, h.noTable, docrefs_keep h.noTable h.refs ?_ ?_ ?_ ?_, ?_, ?_⟩, ⟨?_, ?_⟩, a2, ?_, a3⟩
  · exact htags (roots_sub h.styles)
  · exact htags (roots_sub h.content)
  · intro p hp'
    have hmem : p ∈ ids W := by
      simp only [List.mem_cons, List.not_mem_nil, or_false] at hp'
      rcases hp' with rfl | rfl | rfl | rfl
      · exact roots_sub h.styles
      · exact roots_sub h.content
      · exact Parts.mem_of_tagAt (ref_tag h.refs.content.body)
      · exact Parts.mem_of_tagAt (ref_tag h.refs.body.node)
    obtain ⟨u, hu⟩ := find_some_of_mem hmem
    have ht : ∀ x ∈ roots u.2, Parts.tagAt (W ++ single t) x = Parts.tagAt W x := fun x hx =>
      htags ((find_sub hu).subset (by simp [roots_sub hx]))
    refine ⟨roots u.2, roots u.2, Whole.children_find hu, Whole.children_find (a3 p u hu), ?_, fun x hx _ => ht x hx⟩
    exact filter_same fun x hx => by rw [ht x hx]
  · intro v tg _ hv
    obtain ⟨u, hu⟩ := find_some_of_mem (Parts.mem_of_tagAt (ref_tag hv))
    rw [hu, a3 v u hu]
  · rw [hr]; simp [h.styles]
  · rw [hr]; simp [h.content]
  · rw [tagAt_find a2, htag]
  · left; rw [hr]; simp
  · intro m hm
    refine ⟨by rw [htags (Parts.mem_of_tagAt hm.tag), hm.tag], ?_⟩
    rcases hm.at_ with h3 | ⟨b, h3, h4⟩
    · left; rw [hr]; simp [h3]
    · exact .inr ⟨b, a3 _ _ h3, h4⟩

end Verif.Program
