import Verif.Proofs.Content
import Verif.Proofs.ProgDoc
/-! Helper lemmas for C81: the objects of `text.py` leave the document in order. -/
namespace Verif.TextProg
open Verif Verif.Lxml Forest Verif.Whole
set_option linter.unusedSimpArgs false

variable {F : Nat → Prop} {W W' : World} {tag : String} {d : Parts.DocTree} {α β : Type}

/-- A call leaves the document in order, and its result is as told. -/
def Does (F : Nat → Prop) (tag : String) (d : Parts.DocTree) (W : World) (r : World × Except Exc α)
    (Q : World → α → Prop) : Prop :=
  Step F W r.1 tag d ∧ ∀ a, r.2 = .ok a → Q r.1 a

theorem Does.bind {m : Py World α} {f : α → Py World β} {Q : World → α → Prop} {R : World → β → Prop}
    (h : Does F tag d W (m W) Q) (hf : ∀ W' a, Step F W W' tag d → Q W' a → Does F tag d W' (f a W') R) :
    Does F tag d W ((m >>= f) W) R := by
  obtain ⟨h1, h2⟩ := h
  cases hm : m W with
  | mk W' r =>
    rw [hm] at h1 h2
    cases r with
    | error e =>
      rw [Py.bind_error hm]
      exact ⟨h1, fun a ha => by simp at ha⟩
    | ok a =>
      rw [Py.bind_ok hm]
      obtain ⟨g1, g2⟩ := hf W' a h1 (h2 a rfl)
      exact ⟨h1.trans g1, g2⟩

theorem Does.pure (h : Kept F W tag d) {a : α} {Q : World → α → Prop} (hq : Q W a) :
    Does F tag d W ((pure a : Py World α) W) Q :=
  ⟨.refl h, fun b hb => by cases hb; exact hq⟩

theorem Does.raise (h : Kept F W tag d) {e : Exc} {Q : World → α → Prop} :
    Does F tag d W ((Py.raise e : Py World α) W) Q :=
  ⟨.refl h, fun b hb => by cases hb⟩

theorem Does.of {r : World × Except Exc α} (h : Step F W r.1 tag d) : Does F tag d W r fun _ _ => True :=
  ⟨h, fun _ _ => trivial⟩

theorem Does.imp {r : World × Except Exc α} {Q R : World → α → Prop} (h : Does F tag d W r Q)
    (hq : ∀ W a, Q W a → R W a) : Does F tag d W r R := ⟨h.1, fun a ha => hq _ a (h.2 a ha)⟩

/-- A call that only reads -/
theorem Does.read (h : Kept F W tag d) {r : World × Except Exc α} (hr : r.1 = W) {Q : World → α → Prop}
    (hq : ∀ a, r.2 = .ok a → Q W a) : Does F tag d W r Q := by
  refine ⟨by rw [hr]; exact .refl h, fun a ha => by rw [hr]; exact hq a ha⟩

theorem len_read (n : Nat) : (Base.len n W).1 = W := by unfold Base.len; split <;> rfl
theorem elem_read (n : Nat) : (Vars.elem n W).1 = W := by unfold Vars.elem; split <;> rfl
theorem getitem_read (n : Nat) (i : Int) : (Lxml.getitem n i W).1 = W := by
  rcases getitem_spec (W := W) (p := n) (i := i) with ⟨e, he⟩ | ⟨s, t, he, -⟩ <;> rw [he]
theorem findall_read (n : Nat) (t : String) : (Lxml.findall n t W).1 = W := by unfold Lxml.findall; split <;> rfl
theorem index_read (n c : Nat) : (Lxml.index n c W).1 = W := by
  unfold Lxml.index; split
  · rfl
  · split <;> rfl

theorem getChild_does (h : Kept F W tag d) (n : Nat) (i : Int) : Does F tag d W (Base.getChild n i W)
    fun W s => ∃ t, find n W = some t ∧ s ∈ roots t.2 := by
  unfold Base.getChild
  refine .read h (getitem_read n i) fun s hs => ?_
  rcases getitem_spec (W := W) (p := n) (i := i) with ⟨e, he⟩ | ⟨s', t, he, h1, h2⟩
  · rw [he] at hs; cases hs
  · rw [he] at hs; cases hs; exact ⟨t, h1, h2⟩

theorem Kept.child (h : Kept F W tag d) {n s : Nat} (hn : ¬ F n) {t : Tree} (ht : find n W = some t)
    (hs : s ∈ roots t.2) : ¬ F s :=
  fun hf => hn (h.up n _ _ s (node_of_find ht) hs hf)

theorem setText_does (h : Kept F W tag d) {n : Nat} (hn : ¬ F n) (s : Option Str) :
    Does F tag d W (setText n s W) fun _ _ => True := .of (amend_step h hn (fun _ => rfl) (fun _ => rfl))
theorem setTail_does (h : Kept F W tag d) {n : Nat} (hn : ¬ F n) (s : Option Str) :
    Does F tag d W (setTail n s W) fun _ _ => True := .of (amend_step h hn (fun _ => rfl) (fun _ => rfl))
theorem setString_does (h : Kept F W tag d) {n : Nat} (hn : ¬ F n) (k : String) (s : Str) :
    Does F tag d W (setString n k s W) fun _ _ => True := .of (amend_step h hn (fun _ => rfl) (fun _ => rfl))
theorem setAttr_does (h : Kept F W tag d) {n : Nat} (hn : ¬ F n) (k : String) (s : Str) :
    Does F tag d W (setAttr n k s W) fun _ _ => True := by
  unfold setAttr
  split
  · exact .raise h
  · exact setString_does h hn k s
theorem setLevel_does (h : Kept F W tag d) {n : Nat} (hn : ¬ F n) (l : Int) :
    Does F tag d W (setLevel n l W) fun _ _ => True := setString_does h hn _ _

theorem newNode_does (h : Kept F W tag d) (e : Elem) (ht : e.tag ∉ declTags) :
    Does F tag d W (newNode e W) (Loose F) := by
  obtain ⟨h1, h2, h3⟩ := newNode_step h e ht
  refine ⟨h1, fun a ha => ?_⟩
  rw [h2] at ha; cases ha
  exact h3

/-- `append`, `insert` to an object or the body -/
def Place (F : Nat → Prop) (W : World) (d : Parts.DocTree) (p : Nat) : Prop := p = d.body.node ∨ Loose F W p

theorem Step.place {p : Nat} (h : Step F W W' tag d) (hp : Place F W d p) : Place F W' d p := hp.imp_right (h.2 p)

theorem append_does (h : Kept F W tag d) {p c : Nat} (hp : Place F W d p) (hc : Loose F W c) :
    Does F tag d W (Base.append p c W) (fun W r => r = c ∧ Loose F W c) := by
  refine .bind (.of (append_step h hp hc)) ?_
  intro W' _ h1 _
  exact .pure h1.1 ⟨rfl, h1.2 c hc⟩

theorem insert_does (h : Kept F W tag d) {p c : Nat} (i : Int) (hp : Place F W d p) (hc : Loose F W c) :
    Does F tag d W (Base.insert p i c W) (fun W r => r = c ∧ Loose F W c) := by
  refine .bind (.of (insert_step h i hp hc)) ?_
  intro W' _ h1 _
  exact .pure h1.1 ⟨rfl, h1.2 c hc⟩

theorem forEach_does {γ : Type} {f : γ → Py World Unit} (l : List γ) (P : World → Prop)
    (hP : ∀ {W W'}, P W → Step F W W' tag d → P W') (hf : ∀ W x, x ∈ l → Kept F W tag d → P W →
      Does F tag d W (f x W) fun _ _ => True) (h : Kept F W tag d) (h0 : P W) :
    Does F tag d W (forEach f l W) fun _ _ => True := by
  induction l generalizing W with
  | nil => exact .pure h trivial
  | cons x l ih =>
    unfold forEach
    refine .bind (hf W x (by simp) h h0) ?_
    intro W' _ h1 _
    exact ih (fun W x hx => hf W x (by simp [hx])) h1.1 (hP h0 h1)

theorem appendPiece_does (h : Kept F W tag d) {n : Nat} (hn : Loose F W n) (x : Ws.Item)
    (hx : ∀ e, x = .elem e → e.tag ∉ declTags) : Does F tag d W (appendPiece n x W) fun _ _ => True := by
  cases x with
  | text s =>
    unfold appendPiece
    refine .bind (.read h (len_read n) (Q := fun _ _ => True) fun _ _ => trivial) ?_
    intro W1 len h1 _
    split
    · refine .bind (getChild_does h1.1 n (-1)) ?_
      intro W2 c h2 hc
      obtain ⟨t, ht, hc⟩ := hc
      have hcf := h2.1.child hn.free ht hc
      refine .bind (.read h2.1 (elem_read c) (Q := fun _ _ => True) fun _ _ => trivial) ?_
      intro W3 e h3 _
      exact setTail_does h3.1 hcf _
    · refine .bind (.read h1.1 (elem_read n) (Q := fun _ _ => True) fun _ _ => trivial) ?_
      intro W3 e h3 _
      exact setText_does h3.1 hn.free _
  | elem e =>
    unfold appendPiece
    refine .bind (newNode_does h e (hx e rfl)) ?_
    intro W1 c h1 hc
    refine .bind (append_does h1.1 (.inr (h1.2 n hn)) hc) ?_
    intro W2 _ h2 _
    exact .pure h2.1 trivial

theorem appendText_does (h : Kept F W tag d) {n : Nat} (hn : Loose F W n) (s : Str) :
    Does F tag d W (appendText n s W) fun _ _ => True := by
  unfold appendText
  refine forEach_does _ (fun W => Loose F W n) (fun hl hs => hs.2 n hl) ?_ h hn
  intro W1 x hx h1 hn1
  refine appendPiece_does h1 hn1 x ?_
  rintro e rfl
  rcases (Ws.encode_shape s).elems e hx with rfl | rfl | ⟨k, -, rfl⟩
  · decide
  · decide
  · have : (Ws.spaces k).tag = "text:s" := by unfold Ws.spaces; split <;> rfl
    rw [this]; decide

/-! ## Constructors -/

theorem given_does (h : Kept F W tag d) {s : Str} {m : Py World Unit}
    (hm : Does F tag d W (m W) fun _ _ => True) : Does F tag d W (given s m W) fun _ _ => True := by
  unfold given
  split
  · exact .pure h trivial
  · exact hm

theorem newSpan_does (h : Kept F W tag d) {t : String} (ht : t ∉ declTags) (text style : Str) :
    Does F tag d W (newSpan t text style W) (Loose F) := by
  unfold newSpan
  refine .bind (newNode_does h _ ht) fun W1 n h1 hn => ?_
  refine .bind (given_does h1.1 <| setString_does h1.1 hn.free _ _) fun W2 _ h2 _ => ?_
  refine .bind (given_does h2.1 <| appendText_does h2.1 (h2.2 n hn) text) fun W3 _ h3 _ => ?_
  exact .pure h3.1 (h3.2 n (h2.2 n hn))

theorem newHeading_does (h : Kept F W tag d) (text : Str) (level : Int) (style : Str) :
    Does F tag d W (newHeading text level style W) (Loose F) := by
  unfold newHeading
  refine .bind (newSpan_does h (by decide) text style) fun W1 n h1 hn => ?_
  refine .bind (setLevel_does h1.1 hn.free level) fun W2 _ h2 _ => ?_
  exact .pure h2.1 (h2.2 n hn)

theorem newLink_does (h : Kept F W tag d) (href text style : Str) :
    Does F tag d W (newLink href text style W) (Loose F) := by
  unfold newLink
  refine .bind (newSpan_does h (by decide) text style) fun W1 n h1 hn => ?_
  refine .bind (given_does h1.1 <| setString_does h1.1 hn.free _ _) fun W2 _ h2 _ => ?_
  refine .bind (setAttr_does h2.1 hn.free _ _) fun W3 _ h3 _ => ?_
  refine .bind (setAttr_does h3.1 hn.free _ _) fun W4 _ h4 _ => ?_
  exact .pure h4.1 (h4.2 n (h3.2 n (h2.2 n hn)))

theorem newLister_does (h : Kept F W tag d) {t : String} (ht : t ∉ declTags) (text : Str) :
    Does F tag d W (newLister t text W) (Loose F) := by
  unfold newLister
  refine .bind (newNode_does h _ ht) fun W1 n h1 hn => ?_
  refine .bind (given_does h1.1 <| ?_) fun W2 _ h2 _ => ?_
  · refine .bind (newSpan_does h1.1 (by decide) text []) fun W2 p h2 hp => ?_
    refine .bind (append_does h2.1 (.inr (h2.2 n hn)) hp) fun W3 _ h3 _ => ?_
    exact .pure h3.1 trivial
  exact .pure h2.1 (h2.2 n hn)

theorem newList_does (h : Kept F W tag d) (style : Str) : Does F tag d W (newList style W) (Loose F) := by
  unfold newList
  refine .bind (newNode_does h _ (by decide)) fun W1 n h1 hn => ?_
  refine .bind (given_does h1.1 <| setString_does h1.1 hn.free _ _) fun W2 _ h2 _ => ?_
  exact .pure h2.1 (h2.2 n hn)

theorem newSection_does (h : Kept F W tag d) (name style : Str) :
    Does F tag d W (newSection name style W) (Loose F) := by
  unfold newSection
  refine .bind (newNode_does h _ (by decide)) fun W1 n h1 hn => ?_
  refine .bind (given_does h1.1 <| setString_does h1.1 hn.free _ _) fun W2 _ h2 _ => ?_
  refine .bind (given_does h2.1 <| setString_does h2.1 hn.free _ _) fun W3 _ h3 _ => ?_
  exact .pure h3.1 (h3.2 n (h2.2 n hn))

theorem newNumbered_does (h : Kept F W tag d) {c : Nat} (hc : Loose F W c) :
    Does F tag d W (newNumbered c W) (Loose F) := by
  unfold newNumbered
  refine .bind (newNode_does h _ (by decide)) fun W1 n h1 hn => ?_
  refine .bind (append_does h1.1 (.inr hn) (h1.2 c hc)) fun W2 _ h2 _ => ?_
  exact .pure h2.1 (h2.2 n hn)

theorem find_does (h : Kept F W tag d) (n : Nat) (t : String) : Does F tag d W (Base.find n t W)
    fun W r => ∀ s, r = some s → ∃ u, find n W = some u ∧ s ∈ roots u.2 := by
  unfold Base.find
  refine .bind (Q := fun W r => ∀ s ∈ r, ∃ u, find n W = some u ∧ s ∈ roots u.2) (.read h (findall_read n t) ?_) ?_
  · intro l hl s hs
    unfold Lxml.findall at hl
    cases hf : find n W with
    | none => rw [hf] at hl; cases hl
    | some u =>
      rw [hf] at hl
      dsimp only at hl
      cases hl
      obtain ⟨u', hu', rfl⟩ := List.mem_map.mp hs
      exact ⟨u, rfl, List.mem_map.mpr ⟨u', (List.mem_filter.mp hu').1, rfl⟩⟩
  · intro W' s h1 h2
    refine .pure h1.1 fun x hx => h2 x ?_
    exact List.mem_of_head? hx

theorem setHeader_does (h : Kept F W tag d) {l c : Nat} (hl : Loose F W l) (hc : Loose F W c) :
    Does F tag d W (setHeader l c W) fun _ _ => True := by
  unfold setHeader
  refine .bind (.read h (elem_read c) (Q := fun _ _ => True) fun _ _ => trivial) fun W1 e h1 _ => ?_
  split
  · exact .raise h1.1
  · refine .bind (find_does h1.1 l _) fun W2 o h2 ho => ?_
    have hl2 := h2.2 l (h1.2 l hl)
    have hc2 := h2.2 c (h1.2 c hc)
    refine .bind (Q := fun _ _ => True) ?_ fun W3 _ h3 _ => ?_
    · cases o with
      | none => exact .pure h2.1 trivial
      | some o =>
        obtain ⟨u, hu, ho⟩ := ho o rfl
        exact .of (remove_step h2.1 l (h2.1.child hl2.free hu ho))
    · refine .bind (insert_does h3.1 0 (.inr (h3.2 l hl2)) (h3.2 c hc2)) fun W4 _ h4 _ => ?_
      exact .pure h4.1 trivial

theorem ezlist_does (h : Kept F W tag d) (items : List Str) (header style : Str) :
    Does F tag d W (ezlist items header style W) (Loose F) := by
  unfold ezlist
  refine .bind (newList_does h style) fun W1 n h1 hn => ?_
  refine .bind (given_does h1.1 <| ?_) fun W2 _ h2 _ => ?_
  · refine .bind (newLister_does h1.1 (by decide) header) fun W2 c h2 hc => ?_
    exact setHeader_does h2.1 (h2.2 n hn) hc
  refine .bind (forEach_does items (fun W => Loose F W n) (fun hl hs => hs.2 n hl) ?_ h2.1 (h2.2 n hn)) fun W3 _ h3 _ => ?_
  · intro W' x _ h' hn'
    refine .bind (newLister_does h' (by decide) x) fun W2 c h2 hc => ?_
    refine .bind (append_does h2.1 (.inr (h2.2 n hn')) hc) fun W3 _ h3 _ => ?_
    exact .pure h3.1 trivial
  exact .pure h3.1 (h3.2 n (h2.2 n hn))

theorem bodyAppend_does (h : Kept F W tag d) {p c : Nat} (hp : Place F W d p) (hc : Loose F W c) :
    Does F tag d W (bodyAppend p c W) fun _ _ => True := by
  unfold bodyAppend
  refine .bind (.read h (elem_read p) (Q := fun _ _ => True) fun _ _ => trivial) fun W1 e h1 _ => ?_
  split
  · refine .bind (Q := fun _ _ => True) (.read h1.1 ?_ fun _ _ => trivial) fun W2 i h2 _ => ?_
    · unfold epiloguePosition; split <;> rfl
    refine .bind (insert_does h2.1 i (h2.place (h1.place hp)) (h2.2 c (h1.2 c hc))) fun W3 _ h3 _ => ?_
    exact .pure h3.1 trivial
  · exact (append_does h1.1 (h1.place hp) (h1.2 c hc)).imp fun _ _ _ => trivial

/-! ## Documents that have just been opened or made -/

/-- All nodes but those in children of the body that are no containers of declarations -/
def outer (W : World) (d : Parts.DocTree) (x : Nat) : Prop :=
  x ∈ ids W ∧ ∀ b t, find d.body.node W = some b → t ∈ b.2.toList → t.1.tag ∉ declTags → x ∉ ids (single t)

theorem tree_sub {G : Forest} {t : Tree} (h : t ∈ G.toList) : ids (single t) ⊆ ids G := by
  induction G with
  | nil => simp at h
  | cons e k r _ ih =>
    simp only [Forest.toList_cons, List.mem_cons] at h
    rcases h with rfl | h
    · intro x hx; simp only [ids_single, List.mem_cons] at hx; simp only [ids, List.mem_cons, List.mem_append]; tauto
    · intro x hx; have := ih h hx; simp [ids, this]

/-- A node above another is not below it. -/
theorem no_loop (hn : (ids W).Nodup) {p : Nat} {b t : Tree} (hb : find p W = some b) (ht : t ∈ b.2.toList) :
    p ∉ ids (single t) := by
  intro hm
  have h6 := nodup_tree hn hb
  simp only [ids_single, List.nodup_cons, (find_mem_ids hb).1] at h6
  exact h6.1 (tree_sub ht hm)

/-- With a node below `t` its parent is in `t`. -/
theorem parent_in (hn : (ids W).Nodup) {q x : Nat} {u t : Tree} (hu : find q W = some u) (hx : x ∈ roots u.2)
    (ht : find t.1.id W = some t) (hxt : x ∈ ids (single t)) (hne : x ≠ t.1.id) : q ∈ ids (single t) := by
  obtain ⟨q', u', h1, h2⟩ := exists_parent (nodup_tree hn ht) hxt (by simpa using hne)
  have hq' := find_mem h1
  have h3 := find_in hn ht hq'
  rw [h1] at h3
  rw [parent_unique hn hu h3 hx h2]
  exact hq'

theorem child_in (hn : (ids W).Nodup) {q x : Nat} {u t : Tree} (hu : find q W = some u) (hx : x ∈ roots u.2)
    (ht : find t.1.id W = some t) (hq : q ∈ ids (single t)) : x ∈ ids (single t) := by
  rw [find_in hn ht hq] at hu
  exact (find_sub hu).subset (by simp [roots_sub hx])

theorem start_kept (h : Program.Framed W tag d) : Kept (outer W d) W tag d := by
  have hn := h.once
  obtain ⟨cb, hcb, hbm⟩ := Program.ref_child h.refs.body.node
  obtain ⟨cr, hcr, hcm⟩ := Program.ref_child h.refs.content.body
  have hbW : d.body.node ∈ ids W := (find_sub hcb).subset (by simp [roots_sub hbm])
  obtain ⟨b, hb⟩ := find_some_of_mem hbW
  have kid : ∀ {t}, t ∈ b.2.toList → find t.1.id W = some t := fun ht => child_find hn hb ht
  have notRoot : ∀ x ∈ roots W, ∀ t ∈ b.2.toList, x ∉ ids (single t) := by
    intro x hx t ht hm
    exact child_not_root hn hb (tree_sub ht hm) hx
  have hnb : ∀ t ∈ b.2.toList, d.body.node ∉ ids (single t) := fun t ht => no_loop hn hb ht
  have hnc : ∀ t ∈ b.2.toList, d.content.body ∉ ids (single t) := fun t ht hm =>
    hnb t ht (child_in hn hcb hbm (kid ht) hm)
  have hout : ∀ x, x ∈ ids W → (∀ t ∈ b.2.toList, x ∉ ids (single t)) → outer W d x := by
    intro x hx hx'
    refine ⟨hx, fun b' t hb' ht _ => ?_⟩
    rw [hb] at hb'; cases hb'
    exact hx' t ht
  have hself : ∀ {p c : Nat} {t : Tree}, find p W = some t → c ∈ roots t.2 → c ∉ roots W := by
    intro p c t ht hc
    exact child_not_root hn ht (roots_sub hc)
  refine ⟨hn, h.refs, fun x hx => hx.1, ?_, ?_, ?_, ?_, ?_⟩
  · intro q e l x hq hx hf
    obtain ⟨k, hk, rfl⟩ := find_of_node hq
    refine ⟨find_mem hk, fun b' t hb' ht htag hm => ?_⟩
    rw [hb] at hb'; cases hb'
    exact hf.2 b t hb ht htag (child_in hn hk hx (kid ht) hm)
  · intro q e l x hq hx hf hqb
    obtain ⟨k, hk, rfl⟩ := find_of_node hq
    refine ⟨node_child hq hx, fun b' t hb' ht htag hm => ?_⟩
    rw [hb] at hb'; cases hb'
    by_cases he : x = t.1.id
    · exact hqb (parent_unique hn hk hb hx (List.mem_map.mpr ⟨t, ht, he.symm⟩))
    · exact hf.2 b t hb ht htag (parent_in hn hk hx (kid ht) hm he)
  · intro p hp
    simp only [List.mem_cons, List.not_mem_nil, or_false] at hp
    rcases hp with rfl | rfl | rfl | rfl
    · exact hout _ (roots_sub h.styles) (notRoot _ h.styles)
    · exact hout _ (roots_sub h.content) (notRoot _ h.content)
    · exact hout _ (find_mem hcb) hnc
    · exact hout _ hbW hnb
  · intro p hp he
    simp only [List.mem_cons, List.not_mem_nil, or_false] at hp
    rcases hp with rfl | rfl | rfl
    · exact hself hcb hbm (he ▸ h.styles)
    · exact hself hcb hbm (he ▸ h.content)
    · rw [he] at hcb
      obtain ⟨t, ht, hid⟩ := List.mem_map.mp hbm
      exact no_loop hn hcb ht (by simp [hid])
  · intro e l x hl hx
    rw [node_of_find hb] at hl
    cases hl
    obtain ⟨t, ht, rfl⟩ := List.mem_map.mp hx
    constructor
    · intro hf
      have : ∃ t' ∈ b.2.toList, t'.1.tag ∉ declTags ∧ t.1.id ∈ ids (single t') := by
        by_contra hno
        push Not at hno
        refine hf ⟨node_child (node_of_find hb) hx, fun b' t' hb' ht' htag' => ?_⟩
        rw [hb] at hb'; cases hb'
        exact hno t' ht' htag'
      obtain ⟨t', h1, h2, h3⟩ := this
      have he : t.1.id = t'.1.id := by
        by_contra hne
        exact hnb t' h1 (parent_in hn hb hx (kid h1) h3 hne)
      intro tg htg
      rw [he, tagAt_find (kid h1)]
      rintro ⟨⟩
      exact h2 htg
    · intro htag hf
      refine hf.2 b t hb ht (fun hm => ?_) (by simp)
      exact htag _ hm (tagAt_find (kid ht))

end Verif.TextProg
