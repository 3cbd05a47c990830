import Verif.Proofs.ContentRead
import Verif.Proofs.ContentMake
import Verif.Props.Organizer
import Verif.Props.Text
import Verif.Props.WholeLib
/-! Helper lemmas for C81: paragraphs, headings and lists that are appended to the body of a text document. -/
namespace Verif.TextProg
open Verif Verif.Lxml Forest Verif.Whole Verif.Tbl
set_option linter.unusedSimpArgs false

/-- A paragraph, heading or list for a text document -/
inductive Block
  | paragraph (text style : Str)
  | heading (text : Str) (level : Int) (style : Str)
  | list (items : List Str) (header style : Str)

/-- The statement that makes it -/
def Block.make : Block → Act
  | .paragraph text style => .paragraph text style
  | .heading text level style => .heading text level style
  | .list items header style => .ezlist items header style

/-- `doc.body.append(…)` for each of the blocks; the program has `n` objects before. -/
def program (n : Nat) : List Block → List Act
  | [] => []
  | b :: l => b.make :: .append none n :: program (n + 1) l

/-- The style name of an element: none for the empty name -/
def HasStyle (style : Str) (t : Tree) : Prop :=
  t.1.get "text:style-name" = if style = [] then none else some style

/-- The element shows the block. -/
def Shows : Block → Tree → Prop
  | .paragraph text style, t => t.1.tag = "text:p" ∧ HasStyle style t ∧ Txt.plaintext t = some text
  | .heading text level style, t => t.1.tag = "text:h" ∧ HasStyle style t ∧ Txt.plaintext t = some text ∧
      t.1.get "text:outline-level" = some (intStr (max 1 level))
  | .list items header style, t => t.1.tag = "text:list" ∧ HasStyle style t ∧
      (Txt.listItems t).map Txt.plaintext = items.map some ∧
      (Txt.getHeader t).map Txt.plaintext = if header = [] then none else some (some header)

/-! ## What shows does not depend on identities and empty texts -/

theorem findall_mapT {g : Elem → Elem} (hg : ∀ e, (g e).tag = e.tag) (tag : String) (F : Forest) :
    Txt.findallChild tag (F.map g) = (Txt.findallChild tag F).map (mapT g) := by
  induction F with
  | nil => rfl
  | cons e k r _ ih =>
    simp only [Forest.map, Txt.findallChild, hg]
    split
    · rw [List.map_cons, ih]; rfl
    · exact ih

theorem findChild_mapT {g : Elem → Elem} (hg : ∀ e, (g e).tag = e.tag) (tag : String) (F : Forest) :
    Txt.findChild tag (F.map g) = (Txt.findChild tag F).map (mapT g) := by
  induction F with
  | nil => rfl
  | cons e k r _ ih =>
    simp only [Forest.map, Txt.findChild, hg]
    split
    · rfl
    · exact ih

theorem shows_mapT {g : Elem → Elem} (hg : Mild g) (b : Block) (t : Tree) : Shows b (mapT g t) ↔ Shows b t := by
  have h1 : (mapT g t).1.tag = t.1.tag := hg.tag _
  have h2 : ∀ k, (mapT g t).1.get k = t.1.get k := fun k => by unfold Elem.get mapT; rw [hg.attrs]
  have h3 := hg.plaintext t
  cases b with
  | paragraph text style => simp only [Shows, HasStyle, h1, h2, h3]
  | heading text level style => simp only [Shows, HasStyle, h1, h2, h3]
  | list items header style =>
    simp only [Shows, HasStyle, h1, h2]
    unfold Txt.listItems Txt.getHeader
    show _ ∧ _ ∧ (Txt.findallChild _ (t.2.map g)).map _ = _ ∧ (Txt.findChild _ (t.2.map g)).map _ = _ ↔ _
    rw [findall_mapT hg.tag, findChild_mapT hg.tag, List.map_map, Option.map_map]
    have : Txt.plaintext ∘ mapT g = Txt.plaintext := funext hg.plaintext
    rw [this]

theorem shows_data {b : Block} {t t' : Tree} (h : data t' = data t) : Shows b t' ↔ Shows b t := by
  rw [← shows_mapT mild_anon b t', ← data_anon, h, data_anon, shows_mapT mild_anon]

theorem shows_file {b : Block} {t t' : Tree} (h : data t' = shape t) : Shows b t' ↔ Shows b t := by
  rw [← shows_mapT mild_anon b t', ← data_anon, h]
  exact shows_mapT mild_written b t

/-! ## The trees of the blocks -/

def Block.tree : Block → Tree
  | .paragraph text style => Txt.appendText (styled "text:p" style, .nil) text
  | .heading text level style => ((Txt.appendText (styled "text:h" style, .nil) text).1.set "text:outline-level"
      (intStr (max 1 level)), (Txt.appendText (styled "text:h" style, .nil) text).2)
  | .list items header style => listOf items header style

theorem appendItem_elem (t : Tree) (i : Ws.Item) : (Txt.appendItem t i).1.tag = t.1.tag ∧
    (Txt.appendItem t i).1.attrs = t.1.attrs := by
  cases i with
  | text s =>
    obtain ⟨e, k⟩ := t
    cases k <;> exact ⟨rfl, rfl⟩
  | elem e => exact ⟨rfl, rfl⟩

theorem appendText_elem (t : Tree) (s : Str) : (Txt.appendText t s).1.tag = t.1.tag ∧
    (Txt.appendText t s).1.attrs = t.1.attrs := by
  have : ∀ (l : List Ws.Item) (t : Tree), (l.foldl Txt.appendItem t).1.tag = t.1.tag ∧
      (l.foldl Txt.appendItem t).1.attrs = t.1.attrs := by
    intro l
    induction l with
    | nil => intro t; exact ⟨rfl, rfl⟩
    | cons x l ih =>
      intro t
      obtain ⟨h1, h2⟩ := ih (Txt.appendItem t x)
      obtain ⟨h3, h4⟩ := appendItem_elem t x
      exact ⟨h1.trans h3, h2.trans h4⟩
  exact this _ t

theorem styled_tag (tag : String) (style : Str) : (styled tag style).tag = tag := by
  unfold styled giveAttr; split <;> rfl

theorem styled_get (tag : String) (style : Str) :
    (styled tag style).get "text:style-name" = if style = [] then none else some style := by
  unfold styled giveAttr
  by_cases hs : style = []
  · subst hs; rfl
  · rw [if_neg (by simpa using hs), if_neg hs]
    exact Elem.get_set_self _ _ _

theorem span_text {e : Elem} (ht : Txt.SpanTag e.tag) (h0 : e.text = none) (s : Str) :
    Txt.plaintext (Txt.appendText (e, .nil) s) = some s := by
  rw [Txt.C03_append_text _ ht]
  have : Txt.plaintext (e, .nil) = some [] := by
    simp [Txt.plaintext, Txt.elemText, ht.kind, Txt.parts, Txt.spanText, Txt.ostr, h0]
  rw [this]; rfl

theorem lister_eq (tag : String) (text : Str) : lister tag text = Txt.newLister tag text := by
  unfold lister Txt.newLister
  by_cases h : text.isEmpty
  · simp [h]
  · simp only [h, if_false]
    unfold Txt.newSpan
    simp only [h, if_false]
    rfl

theorem styled_text (tag : String) (style : Str) : (styled tag style).text = none := by
  unfold styled giveAttr; split <;> rfl

theorem findall_items (items : List Str) :
    Txt.findallChild "text:list-item" (Forest.ofList (items.map (Txt.newLister "text:list-item"))) =
      items.map (Txt.newLister "text:list-item") ∧
    Txt.findChild "text:list-header" (Forest.ofList (items.map (Txt.newLister "text:list-item"))) = none := by
  induction items with
  | nil => exact ⟨rfl, rfl⟩
  | cons s l ih =>
    have ht : (Txt.newLister "text:list-item" s).1.tag = "text:list-item" := by unfold Txt.newLister; split <;> rfl
    simp only [List.map_cons, Forest.ofList, Txt.findallChild, Txt.findChild, ht, ih]
    simp

theorem tree_shows (b : Block) : Shows b b.tree := by
  cases b with
  | paragraph text style =>
    obtain ⟨h1, h2⟩ := appendText_elem (styled "text:p" style, .nil) text
    refine ⟨h1.trans (styled_tag _ _), ?_, ?_⟩
    · show (Txt.appendText (styled "text:p" style, .nil) text).1.get _ = _
      unfold Elem.get; rw [h2]; exact styled_get _ _
    · exact span_text (by rw [styled_tag]; simp [Txt.SpanTag]) (styled_text _ _) text
  | heading text level style =>
    obtain ⟨h1, h2⟩ := appendText_elem (styled "text:h" style, .nil) text
    refine ⟨h1.trans (styled_tag _ _), ?_, ?_, ?_⟩
    · show ((Txt.appendText (styled "text:h" style, .nil) text).1.set "text:outline-level" _).get _ = _
      rw [← styled_get "text:h" style, Elem.get_set, if_neg (by decide)]
      unfold Elem.get
      rw [h2]
    · have := span_text (e := styled "text:h" style) (by rw [styled_tag]; simp [Txt.SpanTag]) (styled_text _ _) text
      rw [← this]
      unfold Txt.plaintext Txt.elemText Block.tree
      simp only [Elem.set]
      have hk : Txt.kind (Txt.appendText (styled "text:h" style, .nil) text).1.tag = .span := by
        rw [h1, styled_tag]; decide
      rw [hk]
    · show ((Txt.appendText (styled "text:h" style, .nil) text).1.set "text:outline-level" _).get _ = _
      exact Elem.get_set_self _ _ _
  | list items header style =>
    obtain ⟨k1, k2⟩ := findall_items items
    have hl := fun i => (Txt.plaintext_newLister (tag := "text:list-item") (by decide) i).1
    obtain ⟨hh, ht⟩ := Txt.plaintext_newLister (tag := "text:list-header") (by decide) header
    have he : items.map (lister "text:list-item") = items.map (Txt.newLister "text:list-item") :=
      List.map_congr_left fun _ _ => lister_eq _ _
    refine ⟨styled_tag _ _, styled_get _ _, ?_, ?_⟩
    · unfold Txt.listItems Block.tree listOf
      simp only [he, lister_eq]
      by_cases h : header = []
      · subst h
        show (Txt.findallChild _ (Forest.ofList _)).map _ = _
        rw [k1, List.map_map]
        exact List.map_congr_left fun i _ => hl i
      · rw [if_neg (by simpa using h)]
        show (Txt.findallChild _ (.cons _ _ (Forest.ofList _))).map _ = _
        simp only [Txt.findallChild, ht, k1]
        rw [if_neg (by decide), List.map_map]
        exact List.map_congr_left fun i _ => hl i
    · unfold Txt.getHeader Block.tree listOf
      simp only [he, lister_eq]
      by_cases h : header = []
      · subst h
        show (Txt.findChild _ (Forest.ofList _)).map _ = _
        rw [k2]; rfl
      · rw [if_neg (by simpa using h), if_neg h]
        show (Txt.findChild _ (.cons _ _ (Forest.ofList _))).map _ = _
        simp only [Txt.findChild, ht, if_true, Option.map_some]
        rw [← hh]

theorem tree_tag (b : Block) : b.tree.1.tag ∈ ["text:p", "text:h", "text:list"] := by
  have := tree_shows b
  cases b with
  | paragraph text style => rw [this.1]; simp
  | heading text level style => rw [this.1]; simp
  | list items header style => rw [this.1]; simp

/-! ## Legal characters -/

theorem legal_single (t : Tree) : legal (single t) = (legalElem t.1 && legal t.2) := by
  unfold single; simp [legal]

theorem legal_anon (G : Forest) : legal (G.map anon) = legal G := by
  induction G with
  | nil => rfl
  | cons e k r ihk ihr => simp only [Forest.map, legal, ihk, ihr]; rfl

theorem legal_data {t t' : Tree} (h : data t = data t') (hl : legal (single t') = true) : legal (single t) = true := by
  have key : ∀ t : Tree, legal (single t) = legal (single (data t)) := by
    intro t
    rw [data_anon]
    unfold mapT
    rw [legal_single, legal_single, legal_anon]; rfl
  rw [key, h, ← key]; exact hl

theorem legal_subst {n : Nat} {t : Tree} (ht : legal (single t) = true) (G : Forest) (hG : legal G = true) :
    legal (G.subst n fun _ _ => single t) = true := by
  induction G with
  | nil => rfl
  | cons e k r ihk ihr =>
    simp only [legal, Bool.and_eq_true] at hG
    rw [subst]
    split
    · rw [legal_append, ht, hG.2]; rfl
    · simp only [legal, hG.1.1, ihk hG.1.2, ihr hG.2, Bool.and_self]

theorem legal_find {n : Nat} {t : Tree} {G : Forest} (hG : legal G = true) (h : find n G = some t) :
    legal (single t) = true := by
  induction G with
  | nil => simp [find] at h
  | cons e k r ihk ihr =>
    simp only [legal, Bool.and_eq_true] at hG
    rw [find] at h
    split at h
    · cases h
      rw [legal_single, hG.1.1, hG.1.2]; rfl
    · cases hk : find n k with
      | some u => rw [hk] at h; cases h; exact ihk hG.1.2 hk
      | none => rw [hk] at h; exact ihr hG.2 h

theorem legal_list (G : Forest) : legal G = true ↔ ∀ u ∈ G.toList, legal (single u) = true := by
  have := legal_ofList G.toList
  rw [ofList_toList] at this
  rw [this, List.all_eq_true]

theorem attrs_set_mem {a : Attrs} {k : String} {s : Str} {p : String × Str} (h : p ∈ Attrs.set a k s) :
    p ∈ a ∨ p = (k, s) := by
  induction a with
  | nil => simpa [Attrs.set] using h
  | cons q a ih =>
    unfold Attrs.set at h
    split at h
    · simp only [List.mem_cons] at h ⊢
      rcases h with h | h
      · exact .inr h
      · exact .inl (.inr h)
    · simp only [List.mem_cons] at h ⊢
      rcases h with h | h
      · exact .inl (.inl h)
      · exact (ih h).imp_left .inr

theorem attrs_set_nodup {a : Attrs} (h : (a.map Prod.fst).Nodup) (k : String) (s : Str) :
    ((Attrs.set a k s).map Prod.fst).Nodup := by
  induction a with
  | nil => simp [Attrs.set]
  | cons q a ih =>
    simp only [List.map_cons, List.nodup_cons] at h
    unfold Attrs.set
    split
    · rename_i hk
      simp only [List.map_cons, List.nodup_cons]
      exact ⟨hk ▸ h.1, h.2⟩
    · rename_i hk
      simp only [List.map_cons, List.nodup_cons]
      refine ⟨fun hm => ?_, ih h.2⟩
      obtain ⟨p, hp, he⟩ := List.mem_map.mp hm
      rcases attrs_set_mem hp with h1 | h1
      · exact h.1 (List.mem_map.mpr ⟨p, h1, he⟩)
      · rw [h1] at he; exact hk he.symm

theorem legal_set {e : Elem} (he : legalElem e = true) {k : String} (hk : legalName k = true) {s : Str}
    (hs : legalStr s = true) : legalElem (e.set k s) = true := by
  unfold legalElem at *
  simp only [Bool.and_eq_true, List.all_eq_true, decide_eq_true_eq] at he ⊢
  obtain ⟨⟨⟨⟨h1, h2⟩, h3⟩, h4⟩, h5⟩ := he
  refine ⟨⟨⟨⟨h1, fun p hp => ?_⟩, attrs_set_nodup h3 _ _⟩, h4⟩, h5⟩
  rcases attrs_set_mem hp with h | h
  · exact h2 p h
  · rw [h]; exact ⟨hk, hs⟩

theorem legalStr_append (s t : Str) : legalStr (s ++ t) = (legalStr s && legalStr t) := by
  unfold legalStr; rw [List.all_append]

/-! ### Pieces of a text -/

/-- The piece can be written. -/
def LegalItem : Ws.Item → Prop
  | .text s => legalStr s = true
  | .elem e => legalElem e = true

/-- The pieces that have been made and the characters that are kept can be written. -/
def LegalEnc (s : Ws.Enc) : Prop := (∀ x ∈ s.result, LegalItem x) ∧ legalStr s.stack = true

theorem spaces_legal (n : Nat) : legalElem (Ws.spaces n) = true := by
  unfold Ws.spaces
  split
  · have : legalStr (natStr n) = true := legalStr_intStr (Int.ofNat n)
    simp [legalElem, this, show legalName "text:s" = true by decide +kernel, show legalName "text:c" = true by decide +kernel, legalOpt]
  · decide +kernel

theorem LegalEnc.snoc {s : Ws.Enc} (h : LegalEnc s) {x : Ws.Item} (hx : LegalItem x) {st : Str} (hs : legalStr st = true) (c : Nat) :
    LegalEnc ⟨s.result ++ [x], st, c⟩ := by
  refine ⟨fun y hy => ?_, hs⟩
  simp only [List.mem_append, List.mem_singleton] at hy
  rcases hy with hy | rfl
  · exact h.1 y hy
  · exact hx

theorem LegalEnc.appendStack {s : Ws.Enc} (h : LegalEnc s) : LegalEnc s.appendStack := by
  unfold Ws.Enc.appendStack
  split
  · exact h
  · exact h.snoc (x := .text s.stack) h.2 rfl _

theorem legalStr_sub {s t : Str} (h : ∀ c ∈ s, c ∈ t) (ht : legalStr t = true) : legalStr s = true := by
  unfold legalStr at *
  rw [List.all_eq_true] at *
  exact fun c hc => ht c (h c hc)

theorem LegalEnc.appendSpace {s : Ws.Enc} (h : LegalEnc s) : LegalEnc s.appendSpace := by
  unfold Ws.Enc.appendSpace
  have h1 : LegalEnc { s with stack := s.stack.take (s.stack.length - (s.spaceCounter - 1)) } :=
    ⟨h.1, legalStr_sub (fun c hc => List.mem_of_mem_take hc) h.2⟩
  exact h1.appendStack.snoc (x := .elem _) (spaces_legal _) h1.appendStack.2 _

theorem LegalEnc.flush {s : Ws.Enc} (h : LegalEnc s) : LegalEnc s.flush := by
  unfold Ws.Enc.flush
  split
  · exact h.appendSpace
  · exact h.appendStack

theorem LegalEnc.addChar {s : Ws.Enc} (h : LegalEnc s) {c : Char} (hc : xmlChar c = true) : LegalEnc (s.addChar c) := by
  unfold Ws.Enc.addChar
  have key : ∀ s : Ws.Enc, LegalEnc s → LegalEnc { s with stack := s.stack ++ [c] } := by
    intro s h
    refine ⟨h.1, ?_⟩
    show legalStr (s.stack ++ [c]) = true
    rw [legalStr_append, h.2]
    simp [legalStr, hc]
  split
  · split
    · exact key _ h.appendSpace
    · exact key _ ⟨h.1, h.2⟩
  · exact key _ h

theorem LegalEnc.step {s : Ws.Enc} (h : LegalEnc s) {c : Char} (hc : xmlChar c = true) : LegalEnc (s.step c) := by
  unfold Ws.Enc.step
  split
  · exact h.flush.snoc (x := .elem _) (by show legalElem Ws.lineBreak = true; decide +kernel) h.flush.2 _
  · split
    · exact h.flush.snoc (x := .elem _) (by show legalElem Ws.tabulator = true; decide +kernel) h.flush.2 _
    · split
      · have := h.addChar (c := ' ') (by decide)
        exact ⟨this.1, this.2⟩
      · exact h.addChar hc

theorem encode_legal {s : Str} (hs : legalStr s = true) : ∀ x ∈ Ws.encode s, LegalItem x := by
  unfold legalStr at hs
  rw [List.all_eq_true] at hs
  have : ∀ (l : Str) (e : Ws.Enc), LegalEnc e → (∀ c ∈ l, xmlChar c = true) → LegalEnc (l.foldl Ws.Enc.step e) := by
    intro l
    induction l with
    | nil => intro e h _; exact h
    | cons c l ih =>
      intro e h hc
      exact ih _ (h.step (hc c (by simp))) fun c' h' => hc c' (by simp [h'])
  exact (this s {} ⟨by simp, rfl⟩ hs).flush.1

theorem appendStr_legal {o : Option Str} (ho : legalOpt o = true) {s : Str} (hs : legalStr s = true) :
    legalOpt (Txt.appendStr o s) = true := by
  unfold Txt.appendStr
  cases o with
  | none => exact hs
  | some a =>
    split
    · show legalStr (a ++ s) = true
      rw [legalStr_append]
      simp only [legalOpt] at ho
      rw [ho, hs]; rfl
    · exact hs

theorem lastTail_legal {k : Forest} (hk : legal k = true) {s : Str} (hs : legalStr s = true) :
    legal (Txt.appendLastTail k s) = true := by
  induction k with
  | nil => rfl
  | cons e k r _ ih =>
    simp only [legal, Bool.and_eq_true] at hk
    cases r with
    | nil =>
      simp only [Txt.appendLastTail, legal, Bool.and_eq_true]
      refine ⟨⟨?_, hk.1.2⟩, trivial⟩
      have := hk.1.1
      simp only [legalElem, Bool.and_eq_true] at this ⊢
      exact ⟨this.1, appendStr_legal this.2 hs⟩
    | cons e' k' r' =>
      simp only [Txt.appendLastTail, legal, Bool.and_eq_true] at ih ⊢
      refine ⟨⟨hk.1.1, hk.1.2⟩, ?_⟩
      have := ih (by simpa only [legal, Bool.and_eq_true] using hk.2)
      exact this

theorem appendItem_legal {t : Tree} (ht : legal (single t) = true) {x : Ws.Item} (hx : LegalItem x) :
    legal (single (Txt.appendItem t x)) = true := by
  rw [legal_single, Bool.and_eq_true] at *
  cases x with
  | text s =>
    obtain ⟨e, k⟩ := t
    cases k with
    | nil =>
      refine ⟨?_, rfl⟩
      have := ht.1
      simp only [Txt.appendItem, legalElem, Bool.and_eq_true] at this ⊢
      exact ⟨⟨this.1.1, appendStr_legal this.1.2 hx⟩, this.2⟩
    | cons e' k' r' => exact ⟨ht.1, lastTail_legal ht.2 hx⟩
  | elem e =>
    refine ⟨ht.1, ?_⟩
    show legal (t.2 ++ .cons e .nil .nil) = true
    rw [legal_append, ht.2]
    have : legalElem e = true := hx
    simp [legal, this]

theorem appendText_legal {t : Tree} (ht : legal (single t) = true) {s : Str} (hs : legalStr s = true) :
    legal (single (Txt.appendText t s)) = true := by
  have : ∀ (l : List Ws.Item) (t : Tree), legal (single t) = true → (∀ x ∈ l, LegalItem x) →
      legal (single (l.foldl Txt.appendItem t)) = true := by
    intro l
    induction l with
    | nil => intro t h _; exact h
    | cons x l ih =>
      intro t h hx
      exact ih _ (appendItem_legal h (hx x (by simp))) fun y hy => hx y (by simp [hy])
  exact this _ t ht (encode_legal hs)

/-! ### Blocks -/

/-- The strings of the block can be written into an XML file. -/
def Block.Legal : Block → Prop
  | .paragraph text style => legalStr text = true ∧ legalStr style = true
  | .heading text _ style => legalStr text = true ∧ legalStr style = true
  | .list items header style => (∀ s ∈ items, legalStr s = true) ∧ legalStr header = true ∧ legalStr style = true

theorem styled_legal {tag : String} (ht : legalName tag = true) {style : Str} (hs : legalStr style = true) :
    legalElem (styled tag style) = true := by
  have h0 : legalElem { id := 0, tag := tag } = true := by simp [legalElem, ht, legalOpt]
  unfold styled giveAttr
  split
  · exact h0
  · exact legal_set h0 (by decide +kernel) hs

theorem lister_legal {tag : String} (ht : legalName tag = true) {s : Str} (hs : legalStr s = true) :
    legal (single (lister tag s)) = true := by
  rw [legal_single]
  have h0 : legalElem (lister tag s).1 = true := by simp [lister, legalElem, ht, legalOpt]
  rw [h0]
  unfold lister
  dsimp only
  split
  · rfl
  · rw [appendText_legal (by decide +kernel) hs]; rfl

theorem tree_legal {b : Block} (h : b.Legal) : legal (single b.tree) = true := by
  have hs : ∀ {tag style}, legalName tag = true → legalStr style = true → legal (single (styled tag style, .nil)) = true := by
    intro tag style h1 h2
    rw [legal_single, styled_legal h1 h2]; rfl
  cases b with
  | paragraph text style => exact appendText_legal (hs (by decide +kernel) h.2) h.1
  | heading text level style =>
    have := appendText_legal (hs (tag := "text:h") (by decide +kernel) h.2) h.1
    rw [legal_single, Bool.and_eq_true] at this ⊢
    exact ⟨legal_set this.1 (by decide +kernel) (legalStr_intStr _), this.2⟩
  | list items header style =>
    obtain ⟨h1, h2, h3⟩ := h
    rw [legal_single, Bool.and_eq_true]
    refine ⟨styled_legal (by decide +kernel) h3, ?_⟩
    show legal ((if header.isEmpty then .nil else single (lister "text:list-header" header)) ++ _) = true
    rw [legal_append, Bool.and_eq_true]
    constructor
    · split
      · rfl
      · exact lister_legal (by decide +kernel) h2
    · rw [legal_ofList, List.all_eq_true]
      intro u hu
      obtain ⟨s, hs, rfl⟩ := List.mem_map.mp hu
      exact lister_legal (by decide +kernel) (h1 s hs)

/-! ## Making and appending -/

variable {n : Nat} {t u : Tree} {W W' : World}

/-- What the statement that makes the block does -/
def Block.new : Block → Py World Nat
  | .paragraph text style => newSpan "text:p" text style
  | .heading text level style => newHeading text level style
  | .list items header style => ezlist items header style

theorem exec_make (b : Block) : exec b.make = (do let _ ← keep b.new : Py Prog Unit) := by
  cases b <;> rfl

theorem block_makes (hn : (ids W).Nodup) (b : Block) : Makes W b.new b.tree := by
  cases b with
  | paragraph text style => exact newSpan_makes hn _ _ _
  | heading text level style => exact newHeading_makes hn _ _ _
  | list items header style => exact ezlist_makes hn _ _ _

theorem body_put (hn : (ids W).Nodup) (h : find n W = some t) (ht : t.1.tag = "office:text") (h1 : (ids (single u)).Nodup)
    (h2 : ∀ i ∈ ids (single u), Parts.newId W ≤ i) : ∃ W' k,
      bodyAppend n u.1.id (W ++ single u) = (W', .ok u.1.id) ∧ Put n t (t.1, k) W W' ∧
      k.toList = (Org.textBodyAppend (fun u : Tree => u.1.tag) Tags.TEXT_EPILOGUE t.2.toList u).1 := by
  obtain ⟨a1, a2, a3⟩ := nodup_add hn h1 h2
  obtain ⟨p, hp, -⟩ := (Org.C34_borders (fun u : Tree => u.1.tag) Org.C33_text_tables.2.1 (by decide) t.2.toList).2
  obtain ⟨W', k, e1, e2, e3⟩ := insert_put hn h h1 h2 p
  refine ⟨W', k, ?_, e2, ?_⟩
  · unfold bodyAppend
    have g1 : Vars.elem n (W ++ single u) = (W ++ single u, .ok t.1) := by unfold Vars.elem; rw [a3 n t h]
    have g2 : epiloguePosition n (W ++ single u) = (W ++ single u, .ok (p : Int)) := by
      unfold epiloguePosition
      rw [a3 n t h]
      simp only [hp]
    rw [Py.bind_ok g1, if_pos ht, Py.bind_ok g2]
    unfold Base.insert
    rw [Py.bind_def, Py.bind_ok e1]; rfl
  · unfold Org.textBodyAppend
    rw [hp]; exact e3

theorem put_legal {W W' : World} {t t' : Tree} (hp : Put n t t' W W') (hW : legal W = true)
    (ht : legal (single t') = true) : legal W' = true := by
  rw [hp.world]; exact legal_subst ht W hW

/-- A block is made and appended to the body. -/
theorem block_put {p : Prog} (hn : (ids p.world).Nodup) (h : find p.session.tree.body.node p.world = some t)
    (ht : t.1.tag = "office:text") (b : Block) : ∃ p' k u,
      forEach exec [b.make, .append none p.objs.length] p = (p', .ok ()) ∧
      Put p.session.tree.body.node t (t.1, k) p.world p'.world ∧
      k.toList = (Org.textBodyAppend (fun u : Tree => u.1.tag) Tags.TEXT_EPILOGUE t.2.toList u).1 ∧
      data u = data b.tree ∧ p'.session = { p.session with world := p'.world } ∧ p'.objs = p.objs ++ [u.1.id] ∧
      (legal p.world = true → b.Legal → legal p'.world = true) := by
  obtain ⟨W1, u, e1, m1, d1⟩ := block_makes hn b
  obtain ⟨W2, k, e2, p2, k2⟩ := body_put hn h ht m1.once m1.new
  rw [← m1.world] at e2
  let q : Prog := { session := { p.session with world := W1 }, objs := p.objs ++ [u.1.id] }
  let r : Prog := { session := { p.session with world := W2 }, objs := p.objs ++ [u.1.id] }
  have g1 : exec b.make p = (q, .ok ()) := by
    rw [exec_make]
    have h1 : onWorld b.new p = ({ p with session := { p.session with world := W1 } }, .ok u.1.id) := by
      unfold onWorld
      have : b.new p.session.world = (W1, .ok u.1.id) := e1
      simp only [this]
    have h2 : keep b.new p = (q, .ok p.objs.length) := by
      unfold keep
      rw [Py.bind_ok h1]
    rw [Py.bind_ok h2]; rfl
  have g2 : exec (.append none p.objs.length) q = (r, .ok ()) := by
    show (do let t ← target none; let n ← obj p.objs.length; let _ ← onWorld (appendTo none t n) : Py Prog Unit) q = _
    have h1 : target none q = (q, .ok p.session.tree.body.node) := rfl
    have h2 : obj p.objs.length q = (q, .ok u.1.id) := by
      unfold obj
      have : q.objs[p.objs.length]? = some u.1.id := by simp [q]
      rw [this]
    have h3 : onWorld (appendTo none p.session.tree.body.node u.1.id) q = (r, .ok u.1.id) := by
      unfold onWorld appendTo
      have : bodyAppend p.session.tree.body.node u.1.id q.session.world = (W2, .ok u.1.id) := e2
      simp only [this]
      rfl
    rw [Py.bind_ok h1, Py.bind_ok h2, Py.bind_ok h3]; rfl
  refine ⟨r, k, u, ?_, p2, k2, d1, rfl, rfl, fun hl hb => put_legal p2 hl ?_⟩
  · unfold forEach
    rw [Py.bind_ok g1]
    unfold forEach
    rw [Py.bind_ok g2]; rfl
  · have := legal_find hl h
    rw [legal_single, Bool.and_eq_true] at this ⊢
    refine ⟨this.1, (legal_list k).mpr fun v hv => ?_⟩
    rw [k2] at hv
    have hperm : (Org.textBodyAppend (fun u : Tree => u.1.tag) Tags.TEXT_EPILOGUE t.2.toList u).1.Perm (u :: t.2.toList) := by
      obtain ⟨body, tail, c1, c2, -⟩ := Org.C35_append (fun u : Tree => u.1.tag) Org.C33_text_tables.2.1
        (show Tags.TEXT_EPILOGUE ≠ [] by decide) t.2.toList u
      rw [c2, c1]
      exact List.perm_middle
    have hv := hperm.mem_iff.mp hv
    simp only [List.mem_cons] at hv
    rcases hv with rfl | hv
    · exact legal_data d1 (tree_legal hb)
    · exact (legal_list t.2).mp this.2 v hv

theorem forEach_append {σ α : Type} (f : α → Py σ Unit) (l l' : List α) (s : σ) :
    forEach f (l ++ l') s = (do forEach f l; forEach f l' : Py σ Unit) s := by
  induction l generalizing s with
  | nil => rfl
  | cons x l ih =>
    show (do f x; forEach f (l ++ l') : Py σ Unit) s = _
    cases hx : f x s with
    | mk s' r =>
      cases r with
      | error e =>
        rw [Py.bind_error hx]
        have : forEach f (x :: l) s = (s', .error e) := by unfold forEach; rw [Py.bind_error hx]
        rw [Py.bind_error this]
      | ok y =>
        rw [Py.bind_ok hx, ih]
        have h2 : forEach f (x :: l) s = forEach f l s' := by
          show (do f x; forEach f l : Py σ Unit) s = _
          rw [Py.bind_ok hx]
        cases hl : forEach f l s' with
        | mk s2 r2 =>
          rw [hl] at h2
          cases r2 with
          | ok z => rw [Py.bind_ok hl, Py.bind_ok h2]
          | error e => rw [Py.bind_error hl, Py.bind_error h2]

/-- Blocks are made and appended to the body, one after the other. -/
theorem blocks_put (l : List Block) {p : Prog} (hn : (ids p.world).Nodup)
    (h : find p.session.tree.body.node p.world = some t) (ht : t.1.tag = "office:text") : ∃ p' k us,
      forEach exec (program p.objs.length l) p = (p', .ok ()) ∧
      Put p.session.tree.body.node t (t.1, k) p.world p'.world ∧
      k.toList = Org.appends (fun u : Tree => u.1.tag) Tags.TEXT_EPILOGUE t.2.toList us ∧
      List.Forall₂ (fun b u => data u = data b.tree) l us ∧ p'.session = { p.session with world := p'.world } ∧
      p'.objs = p.objs ++ us.map (·.1.id) ∧
      (legal p.world = true → (∀ b ∈ l, b.Legal) → legal p'.world = true) := by
  induction l generalizing p t with
  | nil => exact ⟨p, t.2, [], rfl, .refl hn h, rfl, .nil, rfl, by simp, fun h _ => h⟩
  | cons b l ih =>
    obtain ⟨p1, k1, u, e1, q1, l1, d1, s1, o1, g1⟩ := block_put hn h ht b
    obtain ⟨n1, f1, -⟩ := q1.find hn h
    have hd : p1.session.tree = p.session.tree := by rw [s1]
    have f1' : find p1.session.tree.body.node p1.world = some (t.1, k1) := by rw [hd]; exact f1
    obtain ⟨p2, k2, us, e2, q2, l2, d2, s2, o2, g2⟩ := ih n1 f1' ht
    rw [hd] at q2
    refine ⟨p2, k2, u :: us, ?_, q1.trans hn h q2, ?_, .cons d1 d2, ?_, ?_, ?_⟩
    · have : program p.objs.length (b :: l) = [b.make, .append none p.objs.length] ++ program p1.objs.length l := by
        rw [o1]; simp [program]
      rw [this, forEach_append, Py.bind_ok e1]
      exact e2
    · rw [l2, l1]; rfl
    · rw [s2, s1]
    · rw [o2, o1]; simp
    · intro hl hb
      exact g2 (g1 hl (hb b (by simp))) fun b' h' => hb b' (by simp [h'])

end Verif.TextProg
