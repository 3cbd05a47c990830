import Verif.Proofs.Text
/-! # C03, C04, C58: text content -/
set_option linter.unusedSimpArgs false
namespace Verif.Txt
open Verif Verif.Ws

/-- The tags wrapped by Span, Paragraph, Heading and Hyperlink. -/
def SpanTag (tag : String) : Prop :=
  tag = "text:span" ∨ tag = "text:p" ∨ tag = "text:h" ∨ tag = "text:a"

theorem SpanTag.kind {tag : String} (h : SpanTag tag) : kind tag = .span := by
  rcases h with h | h | h | h <;> subst h <;> decide

/-- **C03.** `append_text(s)` appends `s` to the plain text, whatever the element contains
(also when the existing text is unreadable: then it stays unreadable). -/
theorem C03_append_text (t : Tree) (ht : SpanTag t.1.tag) (s : Str) :
    plaintext (appendText t s) = (plaintext t).map (· ++ s) := by
  have hk := ht.kind
  cases hp : plaintext t with
  | some p =>
    exact plaintext_foldl hk (encode s) (encode_shape s).elems hp (C01_decode_encode s)
  | none =>
    have h0 : spanText (parts t.2) = none := by
      unfold plaintext elemText at hp
      rw [hk] at hp
      simpa using hp
    have : ∀ (is : List Item) (u : Tree), u.1.tag = t.1.tag → spanText (parts u.2) = none →
        spanText (parts (is.foldl appendItem u).2) = none ∧
          (is.foldl appendItem u).1.tag = t.1.tag := by
      intro is
      induction is with
      | nil => intro u h1 h2; exact ⟨h2, h1⟩
      | cons i is ih =>
        intro u h1 h2
        exact ih _ (by rw [appendItem_tag, h1]) (spanText_appendItem_none h2 i)
    obtain ⟨h1, h2⟩ := this (encode s) t rfl h0
    unfold appendText
    unfold plaintext elemText
    rw [h2, hk]
    simp [h1]

/-- **C03** (frame). `append_text` changes nothing that is already there: existing children stay
as they are and where they are, only the text directly before the insertion point grows. -/
theorem C03_append_text_frame (t : Tree) (s : Str) : Extends t (appendText t s) :=
  foldl_extends _ _

/-- **C03** (histories). A Span, Paragraph, Heading or Hyperlink built from a text and extended by
any sequence of `append_text` calls has the concatenation as plain text. -/
theorem C03_append_text_history (tag : String) (ht : SpanTag tag) (s : Str) (ts : List Str) :
    plaintext (ts.foldl appendText (newSpan tag s)) = some (s ++ ts.flatten) := by
  suffices H : ∀ (ts : List Str) (u : Tree) (p : Str), SpanTag u.1.tag → plaintext u = some p →
      plaintext (ts.foldl appendText u) = some (p ++ ts.flatten) by
    exact H ts _ _ (by rw [newSpan_tag]; exact ht) (plaintext_newSpan ht.kind s)
  intro ts
  induction ts with
  | nil => intro u p _ hp; simpa using hp
  | cons x ts ih =>
    intro u p hu hp
    have h1 := C03_append_text u hu x
    rw [hp] at h1
    have h2 : (appendText u x).1.tag = u.1.tag := by
      have : ∀ (is : List Item) (t : Tree), (is.foldl appendItem t).1.tag = t.1.tag := by
        intro is
        induction is with
        | nil => intro t; rfl
        | cons i is ih => intro t; rw [List.foldl_cons, ih, appendItem_tag]
      exact this _ _
    have := ih (appendText u x) (p ++ x) (by rw [h2]; exact hu) h1
    simpa using this

example : plaintext (["b  c".toList, "\td".toList].foldl appendText (newSpan "text:p" "a ".toList)) =
    some "a b  c\td".toList := C03_append_text_history _ (by simp [SpanTag]) _ _

/-- A nested element with a child element, used as a concrete case. -/
def sample : Tree :=
  ({ id := 1, tag := "text:p", text := some "x".toList },
   .cons { id := 2, tag := "text:span", text := some "y".toList, tail := some "z".toList }
     (.cons { id := 3, tag := "text:s", attrs := [("text:c", "3".toList)] } .nil .nil) .nil)

example : plaintext (appendText sample "  q".toList) = some "xy   z  q".toList := by decide +kernel

/-- **C04.** For Span, Paragraph, Heading and Hyperlink with any nested text-level content,
`textlen` is the length of `plaintext()` (and one raises exactly if the other does). -/
theorem C04_textlen (t : Tree) (ht : SpanTag t.1.tag) (hc : Clean t.2) :
    textlen t = (plaintext t).map fun s => (s.length : Int) := by
  have h := spanLen_agree hc
  unfold Agree at h
  unfold textlen plaintext elemLen elemText
  rw [ht.kind]
  simp only [h]
  cases spanText (parts t.2) <;> simp [safelen]

example : Clean sample.2 ∧ SpanTag sample.1.tag ∧ textlen sample = some 6 := by
  have h1 : spacesCount { id := 3, tag := "text:s", attrs := [("text:c", ['3'])] } = some 3 := by
    decide +kernel
  have k1 : kind "text:span" = .span := by decide
  have k2 : kind "text:s" = .spaces := by decide
  refine ⟨?_, by simp [SpanTag, sample], by decide +kernel⟩
  simp only [sample, Clean, k1, k2]
  simp [h1]

/-- Appending text never leaves the domain of `C04_textlen`. -/
theorem C04_clean_append_text (t : Tree) (s : Str) (hc : Clean t.2) :
    Clean (appendText t s).2 := by
  have happ : ∀ (f : Forest) (e : Elem), Clean f →
      (e = tabulator ∨ e = lineBreak ∨ ∃ n, 1 ≤ n ∧ e = Ws.spaces n) →
      Clean (f ++ .cons e .nil .nil) := by
    intro f e hf he
    induction f with
    | nil =>
      have : Clean (.cons e .nil .nil) := by
        rcases he with h | h | ⟨n, hn, h⟩
        · subst h
          simp [Clean, tabulator, show kind "text:tab" = .tab by decide]
        · subst h
          simp [Clean, lineBreak, show kind "text:line-break" = .brk by decide]
        · have ht : e.tag = "text:s" := by rw [h]; unfold Ws.spaces; split <;> rfl
          have hp := plaintext_spaces n hn
          simp only [Clean, ht, show kind "text:s" = .spaces by decide]
          simp
          intro m hm
          rw [h] at hm
          unfold Ws.spaces at hm
          split at hm
          · simp [spacesCount, Elem.get, Attrs.get, pyInt_natStr] at hm; omega
          · simp [spacesCount, Elem.get, Attrs.get] at hm; omega
      exact this
    | cons e1 k1 r1 _ ih =>
      obtain ⟨h1, h2, h3, h4, h5⟩ := hf
      exact ⟨h1, h2, h3, h4, ih h5⟩
  have htail : ∀ (f : Forest) (w : Str), Clean f → Clean (appendLastTail f w) := by
    intro f w hf
    induction f with
    | nil => exact hf
    | cons e1 k1 r1 _ ih =>
      obtain ⟨h1, h2, h3, h4, h5⟩ := hf
      cases r1 with
      | nil => exact ⟨h1, h2, h3, h4, h5⟩
      | cons e2 k2 r2 =>
        rw [appendLastTail]
        · exact ⟨h1, h2, h3, h4, ih h5⟩
        · simp
  unfold appendText
  have key : ∀ (is : List Item) (u : Tree), Clean u.2 →
      (∀ e, Item.elem e ∈ is → e = tabulator ∨ e = lineBreak ∨ ∃ n, 1 ≤ n ∧ e = Ws.spaces n) →
      Clean (is.foldl appendItem u).2 := by
    intro is
    induction is with
    | nil => intro u hu _; exact hu
    | cons i is ih =>
      intro u hu hi
      apply ih
      · obtain ⟨e, k⟩ := u
        cases i with
        | text w =>
          cases k with
          | nil => exact trivial
          | cons e1 k1 r1 => exact htail _ w hu
        | elem w => exact happ k w hu (hi w (by simp))
      · exact fun e he => hi e (by simp [he])
  exact key _ t hc (encode_shape s).elems

/-- Outside the ODF schema (`text:c` must not be negative) the two disagree. -/
theorem C04_negative_count_refuted : ∃ t : Tree, SpanTag t.1.tag ∧
    plaintext t = some [] ∧ textlen t = some (-2) :=
  ⟨({ id := 1, tag := "text:p" },
    .cons { id := 2, tag := "text:s", attrs := [("text:c", "-2".toList)] } .nil .nil),
   by simp [SpanTag], by decide +kernel, by decide +kernel⟩

/-- List items do not override `textlen`: it ignores their paragraphs. -/
theorem C04_list_item_refuted :
    plaintext (newLister "text:list-item" "abc".toList) = some "abc".toList ∧
    textlen (newLister "text:list-item" "abc".toList) = some 0 := by decide +kernel

/-! ## C58 -/

theorem foldl_items (items : List Str) (l : Tree) :
    items.foldl (fun (l : Tree) item =>
      (l.1, l.2 ++ .cons (newLister "text:list-item" item).1 (newLister "text:list-item" item).2 .nil)) l =
    (l.1, l.2 ++ Forest.ofList (items.map (newLister "text:list-item"))) := by
  induction items generalizing l with
  | nil => simp [Forest.ofList]
  | cons i items ih =>
    simp only [List.foldl_cons, ih, List.map_cons, Forest.ofList, Forest.append_assoc,
      Forest.cons_append, Forest.nil_append]

/-- **C58.** `ezlist(items, header)` has the header (if given) as first child and then one list
item per text, with exactly the given texts in order. -/
theorem C58_ezlist (items : List Str) (header : Str) :
    (listItems (ezlist items header)).map plaintext = items.map some ∧
    (ezlist items header).1.tag = "text:list" ∧
    (header ≠ [] → ∃ h, (ezlist items header).2.toList.head? = some h ∧
      getHeader (ezlist items header) = some h ∧ plaintext h = some header) ∧
    (header = [] → getHeader (ezlist items header) = none) ∧
    (ezlist items header).2.length = items.length + (if header = [] then 0 else 1) := by
  have key : ∀ items : List Str,
      findallChild "text:list-item" (Forest.ofList (items.map (newLister "text:list-item"))) =
        items.map (newLister "text:list-item") ∧
      findallChild "text:list-header" (Forest.ofList (items.map (newLister "text:list-item"))) = [] := by
    intro items
    induction items with
    | nil => simp [Forest.ofList, findallChild]
    | cons i items ih =>
      have ht := (plaintext_newLister (tag := "text:list-item") (by decide) i).2
      simp only [List.map_cons, Forest.ofList, findallChild, ht, ih]
      simp
  have hl := fun i => (plaintext_newLister (tag := "text:list-item") (by decide) i).1
  have hh := plaintext_newLister (tag := "text:list-header") (by decide) header
  unfold ezlist
  simp only [foldl_items]
  by_cases h : header = []
  · subst h
    simp [listItems, getHeader, key, hl, findChild_eq_head, Function.comp_def,
      ← Forest.length_toList]
  · simp only [List.isEmpty_iff, h, if_false, setHeader, hh.2, ne_eq, not_true_eq_false]
    simp [listItems, getHeader, key, hl, findallChild, findChild, hh, removeFirst, Function.comp_def,
      ← Forest.length_toList]

/-- **C58** (header). Assigning a header to a list with at most one header makes it the first
child and the header that is read back; the items are unchanged; a non-header is rejected without
effect. -/
theorem C58_set_header (l h : Tree) (ht : h.1.tag = "text:list-header") :
    (setHeader h l).2 = .ok () ∧
    getHeader (setHeader h l).1 = some h ∧
    (setHeader h l).1.2.toList.head? = some h ∧
    listItems (setHeader h l).1 = listItems l ∧
    ((findallChild "text:list-header" l.2).length ≤ 1 →
      findallChild "text:list-header" (setHeader h l).1.2 = [h]) := by
  have h1 : findallChild "text:list-item" (removeFirst "text:list-header" l.2) =
      findallChild "text:list-item" l.2 := findallChild_removeFirst_ne (by decide) _
  have h2 : ∀ f : Forest, findallChild "text:list-header" (removeFirst "text:list-header" f) =
      (findallChild "text:list-header" f).tail := by
    intro f
    induction f with
    | nil => rfl
    | cons e k r _ ih =>
      simp only [removeFirst, findallChild]
      by_cases he : e.tag = "text:list-header"
      · simp [he]
      · simp [he, findallChild, ih]
  unfold setHeader
  simp only [ht, ne_eq, not_true_eq_false, if_false]
  refine ⟨trivial, ?_, rfl, ?_, ?_⟩
  · simp [getHeader, findChild, ht]
  · simp [listItems, findallChild, ht, h1]
  · intro hlen
    simp only [findallChild, ht, if_true, h2]
    rcases hf : findallChild "text:list-header" l.2 with _ | ⟨a, _ | ⟨b, r⟩⟩ <;>
      simp [hf] at hlen ⊢

theorem C58_set_header_rejects (l h : Tree) (ht : h.1.tag ≠ "text:list-header") :
    setHeader h l = (l, .error .TypeError) := by simp [setHeader, ht]

example : (listItems (ezlist ["a".toList, "".toList, "b  c".toList] "H".toList)).map plaintext =
    [some "a".toList, some "".toList, some "b  c".toList] := by decide +kernel

end Verif.Txt
