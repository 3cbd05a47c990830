import Verif.Model.Text
import Verif.Proofs.Xml
import Verif.Props.Whitespace
/-! Helper lemmas for text content. -/
set_option linter.unusedSimpArgs false
namespace Verif.Txt
open Verif Verif.Ws

@[simp] theorem ostr_appendStr (t : Option Str) (s : Str) : ostr (appendStr t s) = ostr t ++ s := by
  cases t with
  | none => simp [appendStr, truthy, ostr]
  | some t => cases t <;> simp [appendStr, truthy, ostr]

theorem spanText_append (a b : List Part) :
    spanText (a ++ b) = match spanText a, spanText b with
      | some x, some y => some (x ++ y)
      | _, _ => none := by
  induction a with
  | nil => simp [spanText]; cases spanText b <;> rfl
  | cons p a ih =>
    simp only [List.cons_append, spanText, ih]
    cases p.text <;> cases spanText a <;> cases spanText b <;> simp

@[simp] theorem parts_append (f g : Forest) : parts (f ++ g) = parts f ++ parts g := by
  induction f with
  | nil => simp [parts]
  | cons e k r _ ih => simp [parts, ih]

theorem spanText_appendLastTail {k : Forest} (hk : k ≠ .nil) (s : Str) :
    spanText (parts (appendLastTail k s)) = (spanText (parts k)).map (· ++ s) := by
  induction k with
  | nil => exact absurd rfl hk
  | cons e k r _ ih =>
    cases r with
    | nil =>
      simp only [appendLastTail, parts, spanText, ostr_appendStr]
      have : elemText { e with tail := appendStr e.tail s } (parts k) = elemText e (parts k) := rfl
      rw [this]
      cases elemText e (parts k) <;> simp
    | cons e2 k2 r2 =>
      have := ih (by simp)
      rw [appendLastTail]
      · simp only [parts] at this ⊢
        rw [show ∀ p ps, spanText (p :: ps) = match p.text, spanText ps with
          | some a, some b => some (a ++ p.tail ++ b)
          | _, _ => none from fun _ _ => rfl, this]
        simp only [spanText]
        cases elemText e (parts k) <;> simp
        cases elemText e2 (parts k2) <;> cases spanText (parts r2) <;> simp
      · simp

/-- White-space elements have the text computed by the encoder's decoder. -/
theorem elemText_item {e : Elem}
    (he : e = tabulator ∨ e = lineBreak ∨ ∃ n, 1 ≤ n ∧ e = Ws.spaces n) (ps : List Part) :
    elemText e ps = Ws.plaintext e ∧ e.tail = none := by
  rcases he with h | h | ⟨n, _, h⟩
  · subst h; exact ⟨rfl, rfl⟩
  · subst h; exact ⟨rfl, rfl⟩
  · subst h
    unfold Ws.spaces
    split
    · refine ⟨?_, rfl⟩
      unfold elemText
      rw [show kind "text:s" = .spaces by decide]
    · refine ⟨?_, rfl⟩
      unfold elemText
      rw [show kind "text:s" = .spaces by decide]

theorem appendItem_tag (t : Tree) (i : Item) : (appendItem t i).1.tag = t.1.tag := by
  cases i with
  | text s => unfold appendItem; simp only; split <;> simp
  | elem e => rfl

theorem plaintext_appendItem {t : Tree} (ht : kind t.1.tag = .span) {i : Item}
    (hi : ∀ e, i = .elem e → e = tabulator ∨ e = lineBreak ∨ ∃ n, 1 ≤ n ∧ e = Ws.spaces n) {p s : Str}
    (hp : plaintext t = some p) (hs : itemStr i = some s) :
    plaintext (appendItem t i) = some (p ++ s) := by
  have ht' := appendItem_tag t i
  obtain ⟨e, k⟩ := t
  unfold plaintext elemText at hp ⊢
  rw [ht', ht]
  rw [ht] at hp
  simp only at hp ⊢
  cases i with
  | text w =>
    simp [itemStr] at hs; subst hs
    cases k with
    | nil =>
      simp only [appendItem, parts, spanText, Option.map_some, Option.some.injEq] at hp ⊢
      simp at hp ⊢; simp [← hp]
    | cons e1 k1 r1 =>
      simp only [appendItem]
      rw [spanText_appendLastTail (by simp)]
      cases h : spanText (parts (.cons e1 k1 r1)) with
      | none => simp [h] at hp
      | some q => simp [h] at hp; simp [← hp]
  | elem w =>
    obtain ⟨h1, h2⟩ := elemText_item (hi w rfl) (parts .nil)
    simp only [appendItem, parts_append, spanText_append]
    simp only [itemStr] at hs
    rw [show parts (.cons w .nil .nil) = [⟨w.tag, elemText w (parts .nil), ostr w.tail⟩] from rfl]
    simp only [spanText, h1, hs, h2]
    cases h : spanText (parts k) with
    | none => simp [h] at hp
    | some q => simp [h] at hp; simp [ostr, ← hp]

theorem plaintext_foldl {t : Tree} (ht : kind t.1.tag = .span) (is : List Item)
    (hi : ∀ e, Item.elem e ∈ is → e = tabulator ∨ e = lineBreak ∨ ∃ n, 1 ≤ n ∧ e = Ws.spaces n)
    {p s : Str} (hp : plaintext t = some p) (hs : decode is = some s) :
    plaintext (is.foldl appendItem t) = some (p ++ s) := by
  induction is generalizing t p s with
  | nil => simp [decode] at hs; simp [hs, hp]
  | cons i is ih =>
    simp only [decode] at hs
    cases h1 : itemStr i with
    | none => simp [h1] at hs
    | some a =>
      cases h2 : decode is with
      | none => simp [h1, h2] at hs
      | some b =>
        simp [h1, h2] at hs
        have := plaintext_appendItem ht (fun e he => hi e (by simp [he])) hp h1
        have := ih (by rw [appendItem_tag]; exact ht) (fun e he => hi e (by simp [he])) this h2
        simpa [← hs] using this

/-- If the existing content has no plain text (malformed blank counts) neither has the extended. -/
theorem spanText_appendItem_none {t : Tree} (h : spanText (parts t.2) = none) (i : Item) :
    spanText (parts (appendItem t i).2) = none := by
  obtain ⟨e, k⟩ := t
  cases i with
  | text w =>
    cases k with
    | nil => simp [parts, spanText] at h
    | cons e1 k1 r1 =>
      simp only [appendItem]
      rw [spanText_appendLastTail (by simp), h]; rfl
  | elem w =>
    simp only [appendItem, parts_append, spanText_append]
    simp only at h
    rw [h]

/-! ### frame -/

/-- `t'` extends `t`: same element except that text may be appended (to the element's text if it
has no children, else to the tail of the last child), and new children may follow. -/
def Extends (t t' : Tree) : Prop :=
  (t.2 = .nil ∧ (∃ x, t'.1 = { t.1 with text := x } ∧ ∃ s, ostr x = ostr t.1.text ++ s)) ∨
  (t'.1 = t.1 ∧ ∃ (init : List Tree) (last : Tree) (x : Option Str) (added : List Tree),
    t.2.toList = init ++ [last] ∧
    t'.2.toList = init ++ ({ last.1 with tail := x }, last.2) :: added ∧
    ∃ s, ostr x = ostr last.1.tail ++ s)

theorem appendLastTail_toList {k : Forest} (s : Str) {init : List Tree} {last : Tree}
    (h : k.toList = init ++ [last]) :
    (appendLastTail k s).toList = init ++ [({ last.1 with tail := appendStr last.1.tail s }, last.2)] := by
  induction k generalizing init with
  | nil => simp at h
  | cons e k r _ ih =>
    cases r with
    | nil =>
      cases init with
      | nil =>
        simp at h; subst h; rfl
      | cons a init => simp at h
    | cons e2 k2 r2 =>
      cases init with
      | nil => simp at h
      | cons a init =>
        simp only [Forest.toList_cons, List.cons_append, List.cons.injEq] at h
        rw [appendLastTail]
        · simp only [Forest.toList_cons, List.cons_append, h.1]
          rw [ih (by simpa using h.2)]
        · simp

theorem Extends.refl (t : Tree) : Extends t t := by
  obtain ⟨e, k⟩ := t
  rcases List.eq_nil_or_concat k.toList with h | ⟨l, a, h⟩
  · left
    refine ⟨?_, e.text, rfl, [], by simp⟩
    cases k with
    | nil => rfl
    | cons _ _ _ => simp at h
  · right
    exact ⟨rfl, l, a, a.1.tail, [], by simpa using h, by simpa using h, [], by simp⟩

theorem Extends.trans {a b c : Tree} (h1 : Extends a b) (h2 : Extends b c) : Extends a c := by
  rcases h1 with ⟨hn, x, hx, s, hs⟩ | ⟨he, init, last, x, added, ha, hb, s, hs⟩
  · left
    refine ⟨hn, ?_⟩
    rcases h2 with ⟨_, y, hy, u, hu⟩ | ⟨he2, _⟩
    · refine ⟨y, by rw [hy, hx], s ++ u, ?_⟩
      rw [hu, hx]; simp [hs]
    · exact ⟨x, by rw [he2, hx], s, hs⟩
  · rcases h2 with ⟨hn, _⟩ | ⟨he2, init2, last2, y, added2, hb2, hc, u, hu⟩
    · rw [hn] at hb; simp at hb
    · right
      refine ⟨by rw [he2, he], init, last, ?_⟩
      rw [hb] at hb2
      rcases List.eq_nil_or_concat added with hl | ⟨l, z, hl⟩
      · subst hl
        obtain ⟨e1, e2⟩ := List.append_inj' (show init ++ [_] = init2 ++ [last2] from hb2) rfl
        simp at e2
        subst e1; subst e2
        exact ⟨y, added2, ha, hc, s ++ u, by simp at hu; simp [hu, hs]⟩
      · subst hl
        have hb3 : (init ++ ({ last.1 with tail := x }, last.2) :: l) ++ [z] = init2 ++ [last2] := by
          simpa using hb2
        obtain ⟨e1, e2⟩ := List.append_inj' hb3 rfl
        subst e1
        exact ⟨x, l ++ ({ last2.1 with tail := y }, last2.2) :: added2, ha, by simpa using hc, s, hs⟩

theorem appendItem_extends (t : Tree) (i : Item) : Extends t (appendItem t i) := by
  obtain ⟨e, k⟩ := t
  rcases List.eq_nil_or_concat k.toList with h | ⟨l, a, h⟩
  · have hk : k = .nil := by
      cases k with
      | nil => rfl
      | cons _ _ _ => simp at h
    subst hk
    cases i with
    | text w => exact Or.inl ⟨rfl, _, rfl, w, by simp⟩
    | elem w => exact Or.inl ⟨rfl, e.text, rfl, [], by simp⟩
  · have hk : k ≠ .nil := by intro h'; subst h'; simp at h
    have h' : k.toList = l ++ [a] := by simpa using h
    right
    cases i with
    | text w =>
      cases k with
      | nil => exact absurd rfl hk
      | cons e1 k1 r1 =>
        exact ⟨rfl, l, a, _, [], h', appendLastTail_toList w h', w, by simp⟩
    | elem w =>
      exact ⟨rfl, l, a, a.1.tail, [(w, .nil)], h', by simp [appendItem, h'], [], by simp⟩

theorem foldl_extends (is : List Item) (t : Tree) : Extends t (is.foldl appendItem t) := by
  induction is generalizing t with
  | nil => exact Extends.refl t
  | cons i is ih => exact (appendItem_extends t i).trans (ih _)

/-! ### textlen -/

/-- Content for which `textlen` and `plaintext` are meant to agree: through nested spans, no list
items or cells, and no negative blank counts. -/
def Clean : Forest → Prop
  | .nil => True
  | .cons e k r =>
    (kind e.tag = .span → Clean k) ∧ kind e.tag ≠ .lister ∧ kind e.tag ≠ .cell ∧
    (kind e.tag = .spaces → ∀ n, spacesCount e = some n → 0 ≤ n) ∧ Clean r

/-- Agreement of an optional length with an optional text. -/
def Agree (l : Option Int) (s : Option Str) : Prop :=
  l = s.map fun s => (s.length : Int)

theorem kind_tab {t : String} (h : kind t = .tab) : t = "text:tab" := by
  unfold kind at h; repeat' split at h
  all_goals first | assumption | simp at h
theorem kind_brk {t : String} (h : kind t = .brk) : t = "text:line-break" := by
  unfold kind at h; repeat' split at h
  all_goals first | assumption | simp at h
theorem kind_spaces {t : String} (h : kind t = .spaces) : t = "text:s" := by
  unfold kind at h; repeat' split at h
  all_goals first | assumption | simp at h
theorem kind_softbreak {t : String} (h : kind t = .softbreak) : t = "text:soft-page-break" := by
  unfold kind at h; repeat' split at h
  all_goals first | assumption | simp at h

theorem spanLen_agree {k : Forest} (hk : Clean k) :
    Agree (spanLen (lparts k)) (spanText (parts k)) := by
  induction k with
  | nil => simp [lparts, parts, spanLen, spanText, Agree]
  | cons e k r ihk ihr =>
    obtain ⟨h1, h2, h3, h4, h5⟩ := hk
    have hr := ihr h5
    have he : Agree (elemLen e (lparts k)) (elemText e (parts k)) := by
      unfold elemLen elemText
      cases hkd : kind e.tag with
      | span =>
        have := ihk (h1 hkd)
        simp only [Agree] at this ⊢
        rw [this]
        cases spanText (parts k) <;> simp [safelen]
      | lister => exact absurd hkd h2
      | cell => exact absurd hkd h3
      | tab => simp [Agree, Ws.plaintext, kind_tab hkd]
      | brk => simp [Agree, Ws.plaintext, kind_brk hkd]
      | spaces =>
        have h4' := h4 hkd
        simp only [Agree, Ws.plaintext, kind_spaces hkd]
        cases hc : spacesCount e with
        | none => simp [hc]
        | some n =>
          have := h4' n hc
          simp [hc]; omega
      | softbreak => simp [Agree, Ws.plaintext, kind_softbreak hkd]
      | generic => simp [Agree, safelen]
    simp only [lparts, parts, spanLen, spanText, Agree] at hr he ⊢
    rw [hr, he]
    cases elemText e (parts k) <;> cases spanText (parts r) <;> simp [safelen]
    omega

/-! ### lists -/

theorem findallChild_append (tag : String) (f g : Forest) :
    findallChild tag (f ++ g) = findallChild tag f ++ findallChild tag g := by
  induction f with
  | nil => rfl
  | cons e k r _ ih => simp only [Forest.cons_append, findallChild, ih]; split <;> simp

theorem findChild_eq_head (tag : String) (f : Forest) :
    findChild tag f = (findallChild tag f).head? := by
  induction f with
  | nil => rfl
  | cons e k r _ ih => simp only [findChild, findallChild, ih]; split <;> simp

theorem findallChild_removeFirst_ne {tag tag' : String} (h : tag' ≠ tag) (f : Forest) :
    findallChild tag' (removeFirst tag f) = findallChild tag' f := by
  induction f with
  | nil => rfl
  | cons e k r _ ih =>
    simp only [removeFirst, findallChild]
    by_cases h1 : e.tag = tag
    · simp [h1, Ne.symm h]
    · simp only [h1, if_false, findallChild, ih]

theorem plaintext_newSpan {tag : String} (ht : kind tag = .span) (s : Str) :
    plaintext (newSpan tag s) = some s := by
  have h0 : plaintext (({ id := 0, tag := tag }, .nil) : Tree) = some [] := by
    simp [plaintext, elemText, ht, parts, spanText, ostr]
  unfold newSpan
  by_cases hs : s = []
  · subst hs; exact h0
  · simp only [List.isEmpty_iff, hs, if_false]
    have := plaintext_foldl (t := ({ id := 0, tag := tag }, .nil)) ht (encode s)
      (encode_shape s).elems h0 (C01_decode_encode s)
    simpa [appendText] using this

theorem newSpan_tag (tag : String) (s : Str) : (newSpan tag s).1.tag = tag := by
  unfold newSpan
  simp only
  split
  · rfl
  · unfold appendText
    have : ∀ (is : List Item) (t : Tree), (is.foldl appendItem t).1.tag = t.1.tag := by
      intro is
      induction is with
      | nil => intro t; rfl
      | cons i is ih => intro t; rw [List.foldl_cons, ih, appendItem_tag]
    rw [this]

theorem plaintext_newLister {tag : String} (ht : kind tag = .lister) (s : Str) :
    plaintext (newLister tag s) = some s ∧ (newLister tag s).1.tag = tag := by
  unfold newLister
  by_cases hs : s = []
  · subst hs
    simp [plaintext, elemText, ht, parts, lines, joinLines]
  · simp only [List.isEmpty_iff, hs, if_false, and_true]
    have := plaintext_newSpan (tag := "text:p") (by decide) s
    unfold plaintext at this
    have hl : ∀ (e : Elem) ps, e.tag = tag → elemText e ps = (lines ps).map joinLines := by
      intro e ps he; unfold elemText; rw [he, ht]
    unfold plaintext
    rw [hl _ _ rfl]
    simp only [parts, lines, this, Option.map_some, joinLines]

end Verif.Txt
