import Verif.Props.Sheets
import Verif.Props.Organizer
/-! # More about C30 (sheets and pages by their names in the format), C32 (emptying the cache), C33 and C36
(the tag tables by their names) and C57 (`find`, `findall`) -/
set_option linter.unusedSimpArgs false

namespace Verif.Base
open Verif Verif.Lxml Forest

/-- `findall` gives the children with the tag in order, `find` the first of them or `None`; neither changes
anything, and neither looks deeper than the children. -/
theorem C57_find {W : World} (hn : (ids W).Nodup) {p : Nat} {l : List Nat} (hp : children W p = some l)
    (tag : String) :
    findall p tag W = (W, .ok (l.filter fun i => (content W i).map (fun e => e.tag) = some tag)) ∧
    find p tag W = (W, .ok (l.find? fun i => (content W i).map (fun e => e.tag) = some tag)) := by
  obtain ⟨t, h1, h2⟩ := children_find hp
  have h3 := Pages.chosen_eq hn h1 tag
  unfold Pages.chosen at h3
  rw [hp, Option.getD_some] at h3
  have h4 : findall p tag W = (W, .ok (l.filter fun i => (content W i).map (fun e => e.tag) = some tag)) := by
    unfold findall Lxml.findall
    rw [h1]
    exact Prod.ext rfl (congrArg Except.ok h3.symm)
  refine ⟨h4, ?_⟩
  unfold find
  unfold findall at h4
  rw [Py.bind_ok h4, List.head?_filter]
  rfl

example : (findall 0 "text:s" exWorld).2 = .ok [4] ∧ (find 0 "text:s" exWorld).2 = .ok (some 4) ∧
    (find 0 "text:p" exWorld).2 = .ok none := by decide

end Verif.Base

namespace Verif.Pages
open Verif Verif.Lxml Verif.WrapCache Forest

/-- The children of `b` with a tag, in order. -/
def tagged (W : World) (b : Nat) (tag : String) : List Nat :=
  ((children W b).getD []).filter fun i => (content W i).map (fun e => e.tag) = some tag

/-- The sheets of a document are the `table:table` children of its body, named by `table:name`. -/
theorem C30_sheets {pick : Nat → List Nat → Nat} (hpick : ∀ k l, pick k l ∉ l) {b : Nat} {s : S}
    (h : Good (sheets b) s) (key : Key) :
    let l := tagged s.world b "table:table"
    let name := fun i => (content s.world i).bind fun e => e.get "table:name"
    len (sheets b) s = (s, .ok l.length) ∧ names (sheets b) s = (s, .ok (l.map name)) ∧
    (getitem pick (sheets b) key s).2.map (fun o => o.node) = lookup l name key ∧
    ∃ s' os, iter pick (sheets b) s = (s', .ok os) ∧ os.map (fun o => o.node) = l := by
  obtain ⟨s', os, h1, -, -, h2⟩ := C30_iter hpick h
  exact ⟨(C30_len h).1, (C30_len h).2, (C30_get hpick h key).1, s', os, h1, h2⟩

/-- The pages of a document are the `draw:page` children of its body, named by `draw:name`. -/
theorem C30_pages {pick : Nat → List Nat → Nat} (hpick : ∀ k l, pick k l ∉ l) {b : Nat} {s : S}
    (h : Good (pages b) s) (key : Key) :
    let l := tagged s.world b "draw:page"
    let name := fun i => (content s.world i).bind fun e => e.get "draw:name"
    len (pages b) s = (s, .ok l.length) ∧ names (pages b) s = (s, .ok (l.map name)) ∧
    (getitem pick (pages b) key s).2.map (fun o => o.node) = lookup l name key ∧
    ∃ s' os, iter pick (pages b) s = (s', .ok os) ∧ os.map (fun o => o.node) = l := by
  obtain ⟨s', os, h1, -, -, h2⟩ := C30_iter hpick h
  exact ⟨(C30_len h).1, (C30_len h).2, (C30_get hpick h key).1, s', os, h1, h2⟩

def exPages : S :=
  ⟨.cons ⟨0, "office:drawing", [], none, none⟩
    (.cons ⟨1, "draw:page", [("draw:name", "A".toList)], none, none⟩ .nil
    (.cons ⟨2, "table:table", [("table:name", "A".toList)], none, none⟩ .nil
    (.cons ⟨3, "draw:page", [("draw:name", "B".toList)], none, none⟩ .nil .nil))) .nil, {}⟩

example : Good (pages 0) exPages := ⟨by decide, Inv.empty, by decide⟩
example : tagged exPages.world 0 "draw:page" = [1, 3] := by decide +kernel
example : (getitem exPick (pages 0) (.str "B".toList) exPages).2.map (fun o => o.node) = .ok 3 := by decide +kernel

/-! ## C32: emptying the cache -/

variable {pick : Nat → List Nat → Nat}

theorem wrap_miss {h : Heap} (hi : Inv h) (t : Bool) {n : Nat} (hno : ∀ o, ¬ Holds h n o)
    (hpick : ∀ k l, pick k l ∉ l) : (WrapCache.wrap pick t n h).2.id = h.objects := by
  obtain ⟨h1, h2, h3, h4, h5⟩ := touch_ok hpick hi n
  unfold WrapCache.wrap
  cases ht : touch pick n h with
  | mk g a =>
    rw [ht] at h1 h2 h3 h4 h5
    simp only
    have hc : g.cache.get a = none := by
      cases hg : g.cache.get a with
      | none => rfl
      | some o =>
        exfalso
        unfold touch at ht
        cases hp : h.proxies.get n with
        | some b =>
          simp only [hp, Prod.mk.injEq] at ht
          obtain ⟨rfl, rfl⟩ := ht
          exact hno o ⟨b, hp, hg⟩
        | none =>
          simp only [hp, Prod.mk.injEq] at ht
          obtain ⟨rfl, rfl⟩ := ht
          have := (hi.self _ _ hg).2
          exact hpick _ _ (value_mem this)
    simp only [hc]
    obtain ⟨-, -, -, k4, -⟩ := touch_ok hpick h1 n
    unfold uncachedWrap
    cases ht2 : touch pick n g with
    | mk g2 a2 =>
      rw [ht2] at k4
      simp only at k4 h4 ⊢
      rw [k4, h4]

/-- `wrapcache.clear()` separates the past from the future: every later access to a node makes a new object,
other than all objects handed out before; it is then kept like every object.  So C32 holds only between two
calls of `clear` (the library itself never calls it). -/
theorem C32_clear (hpick : ∀ k l, pick k l ∉ l) {h : Heap} (hi : Inv h) (t : Bool) (n : Nat) :
    Inv (WrapCache.clear h) ∧ (∀ m o, ¬ Holds (WrapCache.clear h) m o) ∧
    (∀ m o, Holds h m o → (WrapCache.wrap pick t n (WrapCache.clear h)).2.id ≠ o.id) ∧
    Holds (WrapCache.wrap pick t n (WrapCache.clear h)).1 n (WrapCache.wrap pick t n (WrapCache.clear h)).2 := by
  have hi' : Inv (WrapCache.clear h) := ⟨hi.inj, by simp [WrapCache.clear], by simp [WrapCache.clear], by simp [WrapCache.clear]⟩
  have hno : ∀ m o, ¬ Holds (WrapCache.clear h) m o := by
    rintro m o ⟨a, -, h2⟩
    simp [WrapCache.clear] at h2
  refine ⟨hi', hno, ?_, (wrap_ok hpick hi' t n).2.1⟩
  rintro m o ⟨a, -, h2⟩
  rw [wrap_miss hi' t (hno n) hpick]
  have := hi.old a o h2
  simp only [WrapCache.clear]
  omega

/-- `wrapcache.remove(o)` forgets the object of one sheet: the next access makes a new one, all others stay.
A second `remove` raises `KeyError` without effect. -/
theorem C32_remove (hpick : ∀ k l, pick k l ∉ l) {h : Heap} (hi : Inv h) {n : Nat} {o : Obj}
    (ho : Holds h n o) (t : Bool) :
    ∃ h', WrapCache.remove o h = (h', .ok ()) ∧ Inv h' ∧ (∀ m o', m ≠ n → (Holds h' m o' ↔ Holds h m o')) ∧
      (∀ m o', Holds h m o' → (WrapCache.wrap pick t n h').2.id ≠ o'.id) ∧
      WrapCache.remove o h' = (h', .error .KeyError) := by
  obtain ⟨a, h1, h2⟩ := ho
  have ha := (hi.self a o h2).1
  have hd : ∀ b, (h.cache.del a).get b = if b = a then none else h.cache.get b := by
    intro b
    rw [Dict.get_del]
    by_cases hb : b = a
    · subst hb; simp
    · simp [hb, Ne.symm hb]
  have hsub : ∀ b o', (h.cache.del a).get b = some o' → b ≠ a ∧ h.cache.get b = some o' := by
    intro b o' hb
    rw [hd] at hb
    split at hb
    · simp at hb
    · rename_i hne; exact ⟨hne, hb⟩
  have hi' : Inv { h with cache := h.cache.del a } :=
    ⟨hi.inj, fun b o' hb => hi.self b o' (hsub b o' hb).2, fun b o' hb => hi.old b o' (hsub b o' hb).2,
      fun b c o' o'' hb hc => hi.ids b c o' o'' (hsub b o' hb).2 (hsub c o'' hc).2⟩
  have hno : ∀ o', ¬ Holds { h with cache := h.cache.del a } n o' := by
    rintro o' ⟨b, b1, b2⟩
    simp only at b1 b2
    rw [h1] at b1
    exact (hsub b o' b2).1 (Option.some.inj b1).symm
  refine ⟨{ h with cache := h.cache.del a }, ?_, hi', ?_, ?_, ?_⟩
  · unfold WrapCache.remove; rw [ha, h2]
  · intro m o' hm
    constructor
    · rintro ⟨b, b1, b2⟩
      exact ⟨b, b1, (hsub b o' b2).2⟩
    · rintro ⟨b, b1, b2⟩
      refine ⟨b, b1, ?_⟩
      simp only
      rw [hd, if_neg]
      · exact b2
      · intro hb
        subst hb
        exact hm (hi.inj m n b b1 h1)
  · rintro m o' ⟨b, -, b2⟩
    rw [wrap_miss hi' t hno hpick]
    have := hi.old b o' b2
    simp only
    omega
  · unfold WrapCache.remove
    simp only [ha, hd, if_true]

example : Holds (WrapCache.wrap exPick true 2 {}).1 2 ⟨0, 2, 1⟩ := ⟨1, by decide, by decide⟩

end Verif.Pages

namespace Verif.Org
open Verif Verif.Block

/-! ## C33, C36: the tables by their names -/

/-- What ODF allows at the start of the body of a text document, in order -/
def odfTextPrelude : List String :=
  ["office:forms", "table:tracked-changes", "text:variable-decls", "text:sequence-decls",
    "text:user-field-decls", "text:dde-connection-decls", "text:alphabetical-index-auto-mark-file",
    "table:calculation-settings", "table:content-validations", "table:label-ranges"]

/-- what ODF allows at its end, in order -/
def odfEpilogue : List String :=
  ["table:named-expressions", "table:database-ranges", "table:data-pilot-tables", "table:consolidation",
    "table:dde-links"]

def odfShapes : List String :=
  ["draw:rect", "draw:line", "draw:polyline", "draw:polygon", "draw:regular-polygon", "draw:path", "draw:circle",
    "draw:ellipse", "draw:g", "draw:page-thumbnail", "draw:frame", "draw:measure", "draw:caption",
    "draw:connector", "draw:control", "dr3d:scene", "draw:custom-shape"]

/-- what ODF allows between them in a text made of paragraphs -/
def odfTextContent : List String :=
  ["text:h", "text:p", "text:list", "text:numbered-paragraph", "table:table", "draw:a", "text:section",
    "text:soft-page-break", "text:table-of-content", "text:illustration-index", "text:table-index",
    "text:object-index", "text:user-index", "text:alphabetical-index", "text:bibliography",
    "text:change", "text:change-start", "text:change-end"] ++ odfShapes

/-- and in a text made of pages -/
def odfPagedContent : List String := ["text:page-sequence", "draw:a"] ++ odfShapes

/-- A body as ODF describes it -/
def OdfBody (mid : List String) (l : List (String × Nat)) : Prop :=
  ∃ p m e, l = p ++ m ++ e ∧ OrderedBlock (fun x : String × Nat => x.1) odfTextPrelude p ∧ (∀ x ∈ m, x.1 ∈ mid) ∧
    OrderedBlock (fun x : String × Nat => x.1) odfEpilogue e

theorem mem_stream : ∀ t, t ∈ Tags.TEXT_CONTENT_STREAM ↔ t ∈ odfTextContent := by
  have h1 : ∀ t ∈ Tags.TEXT_CONTENT_STREAM, t ∈ odfTextContent := by decide +kernel
  have h2 : ∀ t ∈ odfTextContent, t ∈ Tags.TEXT_CONTENT_STREAM := by decide +kernel
  exact fun t => ⟨h1 t, h2 t⟩

/-- `StreamTextBodyChecker` accepts exactly the bodies that ODF describes for texts made of paragraphs. -/
theorem C36_stream (l : List (String × Nat)) :
    ∃ b, isValid (fun x : String × Nat => x.1) Tags.TEXT_PRELUDE Tags.TEXT_CONTENT_STREAM Tags.TEXT_EPILOGUE l = .ok b ∧
      (b = true ↔ OdfBody odfTextContent l) := by
  obtain ⟨b, h1, h2⟩ := C36_text_body l
  refine ⟨b, h1, h2.trans ?_⟩
  unfold OdfBody
  rw [show Tags.TEXT_PRELUDE = odfTextPrelude by decide +kernel, show Tags.TEXT_EPILOGUE = odfEpilogue by decide +kernel]
  simp only [mem_stream]

/-- `PagedTextBodyChecker` accepts exactly the bodies that ODF describes for texts made of pages. -/
theorem C36_paged (l : List (String × Nat)) :
    ∃ b, isValid (fun x : String × Nat => x.1) Tags.TEXT_PRELUDE Tags.TEXT_CONTENT_PAGED Tags.TEXT_EPILOGUE l = .ok b ∧
      (b = true ↔ OdfBody odfPagedContent l) := by
  obtain ⟨b, h1, h2⟩ := C36_is_valid (fun x : String × Nat => x.1) (pre := Tags.TEXT_PRELUDE)
    (mid := Tags.TEXT_CONTENT_PAGED) (epi := Tags.TEXT_EPILOGUE)
    (by decide +kernel) (by decide +kernel) (by decide +kernel) (by decide +kernel) l
  refine ⟨b, h1, h2.trans ?_⟩
  unfold OdfBody
  rw [show Tags.TEXT_PRELUDE = odfTextPrelude by decide +kernel, show Tags.TEXT_EPILOGUE = odfEpilogue by decide +kernel,
    show Tags.TEXT_CONTENT_PAGED = odfPagedContent by decide +kernel]

example : isValid (fun x : String => x) Tags.TEXT_PRELUDE Tags.TEXT_CONTENT_PAGED Tags.TEXT_EPILOGUE
    ["text:variable-decls", "text:page-sequence", "draw:frame"] = .ok true ∧
    isValid (fun x : String => x) Tags.TEXT_PRELUDE Tags.TEXT_CONTENT_PAGED Tags.TEXT_EPILOGUE
    ["text:variable-decls", "text:p"] = .ok false := by decide +kernel

/-- Reordering the body of a spreadsheet with the tables of the library: tracked changes, declarations, then
the sheets and everything else in their old order, then the functions. -/
theorem C33_spreadsheet {l : List (String × Nat)} (hl : l.Nodup) :
    let r := reorder (fun x : String × Nat => x.1) Tags.SPREADSHEET_PRELUDE Tags.SPREADSHEET_EPILOGUE l
    r.Perm l ∧ reorder (fun x : String × Nat => x.1) Tags.SPREADSHEET_PRELUDE Tags.SPREADSHEET_EPILOGUE r = r ∧
    r.filter (fun x => x.1 = "table:table") = l.filter (fun x => x.1 = "table:table") ∧
    r.Pairwise (fun x y => rank (odfTextPrelude.drop 1) odfEpilogue x.1 ≤ rank (odfTextPrelude.drop 1) odfEpilogue y.1) := by
  obtain ⟨h1, h2, h3, h4, h5⟩ := C33_reorder (fun x : String × Nat => x.1) (pre := Tags.SPREADSHEET_PRELUDE)
    (epi := Tags.SPREADSHEET_EPILOGUE) (by decide +kernel) (by decide +kernel) (by decide +kernel) hl
  refine ⟨h1, h5, h3 "table:table", ?_⟩
  rw [show odfTextPrelude.drop 1 = Tags.SPREADSHEET_PRELUDE by decide +kernel,
    show odfEpilogue = Tags.SPREADSHEET_EPILOGUE by decide +kernel]
  exact h2

/-- No sheet is part of the prelude or the epilogue. -/
theorem C33_spreadsheet_content : ∀ t ∈ Tags.SPREADSHEET_CONTENT,
    t = "table:table" ∧ t ∉ Tags.SPREADSHEET_PRELUDE ∧ t ∉ Tags.SPREADSHEET_EPILOGUE := by decide +kernel

end Verif.Org
