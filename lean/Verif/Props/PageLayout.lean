import Verif.Model.PageLayout
import Verif.Proofs.Parts
/-!
# C84: page layouts

The object that is made around a `style:page-layout` element gives the properties of headers and footers.  OpenDocument has
them in `style:header-footer-properties` elements (part 1, 17.3), which the code does not look for.
-/
namespace Verif.Styles
open Verif Verif.Lxml Forest Verif.Parts
set_option linter.unusedSimpArgs false

variable {W W' : World} {n : Nat}

/-- The header or footer style `a` of the layout `n` and its properties `p`, as the code has them -/
def Holds (W : World) (n : Nat) (key : String) (a p : Nat) : Prop := Ref W n key a ∧ Ref W a (key ++ "-properties") p

/-- What is added to the layout: the styles that are missing; what is added to a style: its properties if they are missing. -/
def added (W : World) (n a b : Nat) (q : Nat) : List String :=
  if q = n then missing W n ["style:header-style", "style:footer-style"]
  else if q = a then missing W a ["style:header-style-properties"]
  else if q = b then missing W b ["style:footer-style-properties"]
  else []

theorem sub_new (p : Nat) (tag : String) (W : World) : subelement p tag true W =
    ((sub p tag W).1, (sub p tag W).2.map some) := by
  unfold subelement sub Body.subelement
  cases W.find p with
  | none => rfl
  | some t =>
    dsimp only
    cases t.2.toList.find? fun u => u.1.tag = tag <;> rfl

theorem properties_spec (hn : (ids W).Nodup) (h : n ∈ ids W) (key : String) : ∃ W1 W' a p, sub n key W = (W1, .ok a) ∧
    sub a (key ++ "-properties") W1 = (W', .ok p) ∧ properties n key true W = (W', .ok p) ∧
    Ext W W1 (only W n [key]) ∧ Ext W1 W' (only W1 a [key ++ "-properties"]) ∧ Holds W' n key a p := by
  obtain ⟨W1, a, e1, x1, r1, -⟩ := sub_spec hn h key
  obtain ⟨W', p, e2, x2, r2, -⟩ := sub_spec x1.once r1.mem (key ++ "-properties")
  refine ⟨W1, W', a, p, e1, e2, ?_, x1, x2, r1.ext x2, r2⟩
  unfold properties
  have s1 : subelement n key true W = (W1, .ok (some a)) := by rw [sub_new, e1]; rfl
  have s2 : subelement a (key ++ "-properties") true W1 = (W', .ok (some p)) := by rw [sub_new, e2]; rfl
  rw [Py.bind_ok s1]
  dsimp only
  rw [Py.bind_ok s2]; rfl

theorem properties_ref (hn : (ids W).Nodup) {key : String} {a p : Nat} (h : Holds W n key a p) (new : Bool) :
    properties n key new W = (W, .ok p) := by
  have e1 := sub_ref hn h.1
  have e2 := sub_ref hn h.2
  have s1 : subelement n key new W = (W, .ok (some a)) := by
    have : subelement n key true W = (W, .ok (some a)) := by rw [sub_new, e1]; rfl
    cases new with
    | true => exact this
    | false =>
      obtain ⟨A, B, h1, h2, h3⟩ := h.1
      obtain ⟨t, ht, hl⟩ := children_find h1
      unfold subelement at this ⊢
      rw [ht] at this ⊢
      dsimp only at this ⊢
      cases hf : t.2.toList.find? fun u => u.1.tag = key with
      | some u => rw [hf] at this; exact this
      | none =>
        exfalso
        have hk := kidTags_find hn ht
        have hx : some key ∈ kidTags W n := by
          unfold kidTags
          rw [kidsOf_some h1]
          exact List.mem_map.mpr ⟨a, by simp, h2⟩
        rw [hk] at hx
        obtain ⟨u, hu, he⟩ := List.mem_map.mp hx
        have := List.find?_eq_none.mp hf u hu
        simp at this he
        exact this he
  have s2 : subelement a (key ++ "-properties") true W = (W, .ok (some p)) := by rw [sub_new, e2]; rfl
  unfold properties
  rw [Py.bind_ok s1]
  dsimp only
  rw [Py.bind_ok s2]; rfl

theorem same_tags {add : Nat → List String} (h : Ext W W' add) {q : Nat} (hq : add q = []) : kidTags W' q = kidTags W q := by
  by_cases hm : q ∈ ids W'
  · rw [h.kidTags hm, hq]; simp
  · unfold kidTags
    rw [kidsOf_none hm, kidsOf_none fun hw => hm (h.mem hw)]; rfl

theorem ref_ne (hn : (ids W).Nodup) {key : String} {a : Nat} (h : Ref W n key a) : a ≠ n := by
  obtain ⟨A, B, h1, -⟩ := h
  obtain ⟨t, ht, hl⟩ := children_find h1
  rintro rfl
  have hs := nodup_tree hn ht
  have hm : a ∈ roots t.2 := by rw [hl]; simp
  simp only [ids_single, List.nodup_cons] at hs
  rw [(find_mem_ids ht).1] at hs
  exact hs.1 (roots_sub hm)

theorem _root_.Verif.Parts.Ref.tag {p c : Nat} {tag : String} (h : Ref W p tag c) : tagAt W c = some tag := h.choose_spec.choose_spec.2.1

/-- **C84**, making the object: header and footer denote the first properties of the first style; what is missing is added
as the last child, and nothing else changes.  Partial: the elements are not those of OpenDocument (`C84_odf_refuted`). -/
theorem C84_make_partial (hn : (ids W).Nodup) (h : n ∈ ids W) : ∃ W' l a b, pageLayout n W = (W', .ok l) ∧ l.xmlnode = n ∧
    Holds W' n "style:header-style" a l.header ∧ Holds W' n "style:footer-style" b l.footer ∧ Ext W W' (added W n a b) := by
  obtain ⟨W1, W2, a, p, e1, e2, e3, x1, x2, h1⟩ := properties_spec hn h "style:header-style"
  have h2 := x2.mem (x1.mem h)
  obtain ⟨W3, W4, b, q, f1, f2, f3, y1, y2, g1⟩ := properties_spec x2.once h2 "style:footer-style"
  have y := y1.trans y2 fun q hq => only_absent fun e => hq (e ▸ y1.mem h2)
  have hh : Holds W4 n "style:header-style" a p := ⟨h1.1.ext y, h1.2.ext y⟩
  have han : a ≠ n := ref_ne y.once hh.1
  have hbn : b ≠ n := ref_ne y.once g1.1
  have hab : b ≠ a := by
    rintro rfl
    have := hh.1.tag.symm.trans g1.1.tag
    exact absurd (Option.some.inj this) (by decide)
  refine ⟨W4, ⟨n, p, q⟩, a, b, ?_, rfl, hh, g1, ?_⟩
  · unfold pageLayout
    rw [Py.bind_ok e3, Py.bind_ok f3]; rfl
  · have hx1 : ∀ r ∉ ids W1, only W n ["style:header-style"] r = [] := fun r hr => only_absent fun e => hr (e ▸ x1.mem h)
    have ham : a ∈ ids W1 := by
      obtain ⟨W', c, k1, k2, k3, -⟩ := sub_spec hn h "style:header-style"
      rw [e1] at k1
      cases k1
      exact k3.mem
    have hx2 : ∀ r ∉ ids W2, only W1 a ["style:header-style" ++ "-properties"] r = [] :=
      fun r hr => only_absent fun e => hr (e ▸ x2.mem ham)
    have x := x1.trans x2 hx1
    have hx : ∀ r ∉ ids W2, only W n ["style:header-style"] r ++ only W1 a ["style:header-style" ++ "-properties"] r = [] := by
      intro r hr
      rw [hx2 r hr, hx1 r fun hm => hr (x2.mem hm)]; rfl
    refine (x.trans y hx).congr fun r _ => ?_
    have t1 : kidTags W1 a = kidTags W a := same_tags x1 (only_absent han)
    have t2 : kidTags W2 n = kidTags W n ++ (missing W n ["style:header-style"]).map some := by
      rw [same_tags x2 (only_absent han.symm), x1.kidTags (x1.mem h)]
      simp [only]
    have t3 : kidTags W3 b = kidTags W b := by
      rw [same_tags y1 (only_absent hbn), same_tags x2 (only_absent hab), same_tags x1 (only_absent hbn)]
    have t4 : missing W2 n ["style:footer-style"] = missing W n ["style:footer-style"] := by
      unfold missing
      refine List.filter_congr fun u hu => ?_
      rw [t2]
      simp only [List.mem_cons, List.not_mem_nil, or_false] at hu
      subst hu
      have : some "style:footer-style" ∉ (missing W n ["style:header-style"]).map some := by
        unfold missing
        simp [List.mem_filter]
      simp [this]
    have t5 : missing W n ["style:header-style"] ++ missing W n ["style:footer-style"] =
        missing W n ["style:header-style", "style:footer-style"] := by
      unfold missing
      rw [← List.filter_append]; rfl
    unfold added
    by_cases c1 : r = n
    · subst c1
      simp only [only, if_pos, if_neg han.symm, if_neg hbn.symm, List.append_nil, t4, t5]
    · by_cases c2 : r = a
      · subst c2
        simp only [only, if_neg c1, if_pos, if_neg hab.symm, List.nil_append, List.append_nil]
        unfold missing
        rw [t1]; rfl
      · by_cases c3 : r = b
        · subst c3
          simp only [only, if_neg c1, if_neg c2, if_pos, List.nil_append, List.append_nil]
          unfold missing
          rw [t3]; rfl
        · simp only [only, if_neg c1, if_neg c2, if_neg c3, List.nil_append]

/-- **C84**: making the object again gives the same object and changes nothing.  Partial as `C84_make_partial`. -/
theorem C84_again_partial (hn : (ids W).Nodup) (h : n ∈ ids W) {l : PageLayout} (hm : pageLayout n W = (W', .ok l)) :
    pageLayout n W' = (W', .ok l) := by
  obtain ⟨W1, l1, a, b, e1, e2, e3, e4, e5⟩ := C84_make_partial hn h
  rw [hm] at e1
  cases e1
  unfold pageLayout
  rw [Py.bind_ok (properties_ref e5.once e3 true), Py.bind_ok (properties_ref e5.once e4 true)]
  cases l
  cases e2
  rfl

/-- **C84**, `_properties(…, new=False)`: without a style of this kind a KeyError, and nothing changes.  Partial as
`C84_make_partial`. -/
theorem C84_old_partial (hn : (ids W).Nodup) (h : n ∈ ids W) (key : String) :
    (some key ∉ kidTags W n → properties n key false W = (W, .error .KeyError)) ∧
    (some key ∈ kidTags W n → ∃ W' a p, properties n key false W = (W', .ok p) ∧ Ref W n key a ∧ Holds W' n key a p ∧
      Ext W W' (only W a [key ++ "-properties"])) := by
  obtain ⟨t, ht⟩ := find_some_of_mem h
  have hk := kidTags_find hn ht
  have hfalse : subelement n key false W = (W, .ok ((t.2.toList.find? fun u => u.1.tag = key).map fun u => u.1.id)) := by
    unfold subelement
    rw [ht]
    dsimp only
    cases t.2.toList.find? fun u => u.1.tag = key <;> rfl
  constructor
  · intro hno
    have hf : t.2.toList.find? (fun u => u.1.tag = key) = none := by
      rw [List.find?_eq_none]
      intro u hu he
      exact hno (by rw [hk]; exact List.mem_map.mpr ⟨u, hu, by simpa using he⟩)
    unfold properties
    rw [hf] at hfalse
    rw [Py.bind_ok hfalse]; rfl
  · intro hyes
    obtain ⟨u, hu⟩ : ∃ u, t.2.toList.find? (fun u => u.1.tag = key) = some u := by
      rw [← Option.isSome_iff_exists, List.find?_isSome]
      rw [hk] at hyes
      obtain ⟨u, hu, he⟩ := List.mem_map.mp hyes
      exact ⟨u, hu, by simpa using he⟩
    have hsub : sub n key W = (W, .ok u.1.id) := by
      unfold sub Body.subelement
      rw [ht]
      simp only [hu]
    obtain ⟨W1, W', a, p, e1, e2, e3, x1, x2, r⟩ := properties_spec hn h key
    rw [hsub] at e1
    cases e1
    obtain ⟨W2, c, k1, -, k3, -⟩ := sub_spec hn h key
    rw [hsub] at k1
    cases k1
    refine ⟨W', u.1.id, p, ?_, k3, r, x2⟩
    unfold properties
    rw [hu] at hfalse
    have s2 : subelement u.1.id (key ++ "-properties") true W = (W', .ok (some p)) := by rw [sub_new, e2]; rfl
    rw [Py.bind_ok hfalse]
    dsimp only [Option.map_some]
    rw [Py.bind_ok s2]; rfl

/-- **C84** is false: whatever the document has, the header and the footer that the object gives are no elements of
OpenDocument, not the `style:header-footer-properties` in particular. -/
theorem C84_odf_refuted (hn : (ids W).Nodup) (h : n ∈ ids W) : ∃ W' l, pageLayout n W = (W', .ok l) ∧
    tagAt W' l.header ≠ some "style:header-footer-properties" ∧ tagAt W' l.footer ≠ some "style:header-footer-properties" := by
  obtain ⟨W1, l, a, b, e1, -, e3, e4, -⟩ := C84_make_partial hn h
  refine ⟨W1, l, e1, ?_, ?_⟩
  · rw [e3.2.tag]; decide
  · rw [e4.2.tag]; decide

/-- A layout that has its header and its footer style, with the properties as OpenDocument has them and no others -/
def Complete (W : World) (n : Nat) : Prop := ∀ key ∈ ["style:header-style", "style:footer-style"],
  ∃ a, Ref W n key a ∧ kidTags W a = [some "style:header-footer-properties"]

/-- **C84** is false: making the object changes every layout that is as OpenDocument has it; both styles get a child that
OpenDocument does not know. -/
theorem C84_change_refuted (hn : (ids W).Nodup) (h : n ∈ ids W) (hc : Complete W n) : ∃ W' l a b, pageLayout n W = (W', .ok l) ∧
    Ref W n "style:header-style" a ∧ Ref W n "style:footer-style" b ∧ W' ≠ W ∧
    kidTags W' a = [some "style:header-footer-properties", some "style:header-style-properties"] ∧
    kidTags W' b = [some "style:header-footer-properties", some "style:footer-style-properties"] := by
  obtain ⟨W1, l, a, b, e1, -, e3, e4, e5⟩ := C84_make_partial hn h
  obtain ⟨a', h1, h2⟩ := hc "style:header-style" (by simp)
  obtain ⟨b', g1, g2⟩ := hc "style:footer-style" (by simp)
  obtain rfl := (h1.ext e5).unique e3.1
  obtain rfl := (g1.ext e5).unique e4.1
  have han := ref_ne hn h1
  have hbn := ref_ne hn g1
  have hab : b' ≠ a' := by
    rintro rfl
    have := h1.tag.symm.trans g1.tag
    exact absurd (Option.some.inj this) (by decide)
  have k1 : kidTags W1 a' = [some "style:header-footer-properties", some "style:header-style-properties"] := by
    rw [e5.kidTags (e5.mem h1.mem), h2]
    simp only [added, if_neg han, if_pos, missing, h2]
    decide
  have k2 : kidTags W1 b' = [some "style:header-footer-properties", some "style:footer-style-properties"] := by
    rw [e5.kidTags (e5.mem g1.mem), g2]
    simp only [added, if_neg hbn, if_neg hab, if_pos, missing, g2]
    decide
  refine ⟨W1, l, a', b', e1, h1, g1, ?_, k1, k2⟩
  rintro rfl
  rw [h2] at k1
  exact absurd k1 (by decide)

/-- **C84** is false: no attribute of the header or the footer can be read (`Properties.ATTRIBUTEMAP`, styles.py:112-114, is
empty). -/
theorem C84_read_refuted (l : PageLayout) (key : String) (W : World) :
    attr baseMap l.header key W = (W, .error .KeyError) ∧ attr baseMap l.footer key W = (W, .error .KeyError) := ⟨rfl, rfl⟩

/-! ## Cases -/

/-- A layout with a header style as OpenDocument has it, and without footer -/
def exLayout : World :=
  .cons { id := 1, tag := "style:page-layout", attrs := [("style:name", "L".toList)] }
    (.cons { id := 2, tag := "style:page-layout-properties" } .nil
      (.cons { id := 3, tag := "style:header-style" }
        (.cons { id := 4, tag := "style:header-footer-properties", attrs := [("fo:min-height", "1cm".toList)] } .nil .nil) .nil)) .nil

example : pageLayout 1 exLayout =
    (.cons { id := 1, tag := "style:page-layout", attrs := [("style:name", "L".toList)] }
      (.cons { id := 2, tag := "style:page-layout-properties" } .nil
        (.cons { id := 3, tag := "style:header-style" }
          (.cons { id := 4, tag := "style:header-footer-properties", attrs := [("fo:min-height", "1cm".toList)] } .nil
            (.cons { id := 5, tag := "style:header-style-properties" } .nil .nil))
          (.cons { id := 6, tag := "style:footer-style" }
            (.cons { id := 7, tag := "style:footer-style-properties" } .nil .nil) .nil))) .nil,
      .ok ⟨1, 5, 7⟩) := by decide +kernel

example : properties 1 "style:footer-style" false exLayout = (exLayout, .error .KeyError) := by decide +kernel

/-- A complete layout exists. -/
def exComplete : World :=
  .cons { id := 1, tag := "style:page-layout" }
    (.cons { id := 3, tag := "style:header-style" } (.cons { id := 4, tag := "style:header-footer-properties" } .nil .nil)
      (.cons { id := 5, tag := "style:footer-style" } (.cons { id := 6, tag := "style:header-footer-properties" } .nil .nil)
        .nil)) .nil

example : (ids exComplete).Nodup ∧ 1 ∈ ids exComplete ∧ Complete exComplete 1 := by
  refine ⟨by decide, by decide, fun key hk => ?_⟩
  simp only [List.mem_cons, List.not_mem_nil, or_false] at hk
  rcases hk with rfl | rfl
  · exact ⟨3, ⟨[], [5], by decide +kernel, by decide +kernel, by simp⟩, by decide +kernel⟩
  · exact ⟨5, ⟨[3], [], by decide +kernel, by decide +kernel, by decide +kernel⟩, by decide +kernel⟩

end Verif.Styles
