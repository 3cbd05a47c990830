import Verif.Props.Parts
import Verif.Props.Styles
/-!
# C65: inject_style makes a style available under its name
-/
namespace Verif.Parts
open Verif Verif.Lxml Forest
set_option linter.unusedSimpArgs false

/-! ## Specification -/

/-- The tree `t` has been added as the last child of `c`; every other node is as it was. -/
structure Injected (W W' : World) (c : Nat) (t : Tree) : Prop where
  once : (ids W').Nodup
  keep : ∀ i ∈ ids W, content W' i = content W i
  kids : ∀ q ∈ ids W, q ≠ c → children W' q = children W q
  there : children W' c = some (kidsOf W c ++ [t.1.id])
  tree : ∀ x ∈ ids (single t), content W' x = content (single t) x ∧
    children W' x = children (single t) x
  free : ∃ m, tops W' = tops W ++ m ∧ ∀ x ∈ m, x ∉ ids W

/-! ## Lemmas -/

theorem le_newId {W : World} {x : Nat} (h : x ∈ ids W) : x < newId W := by
  have := le_foldr_max h
  unfold newId
  omega

theorem find_first {F : Forest} {t : Tree} {ts : List Tree} (h : F.toList = t :: ts) :
    find t.1.id F = some t ∧ ∃ r, ids F = ids (single t) ++ r := by
  cases F with
  | nil => cases h
  | cons e k r =>
    simp only [Forest.toList, List.cons.injEq] at h
    rw [← h.1]
    exact ⟨by simp [find], ids r, by simp [ids]⟩

/-- The world with the parsed string. -/
theorem parsed {W : World} {F : Forest} (hn : (ids W).Nodup) (hF : (ids F).Nodup)
    (hdis : ∀ x ∈ ids F, x ∉ ids W) (r : Elem) (hr : r.id = max (newId W) (newId F)) (W1 : World)
    (hW1 : W1 = W ++ single (r, F)) :
    (ids W1).Nodup ∧ (∀ x ∈ ids W, find x W1 = find x W) ∧ (∀ x ∈ ids F, find x W1 = find x F) ∧
      ids W1 = ids W ++ r.id :: ids F ∧ roots W1 = roots W ++ [r.id] := by
  have hrW : r.id ∉ ids W := fun h => by have := le_newId h; omega
  have hrF : r.id ∉ ids F := fun h => by have := le_newId h; omega
  have hids : ids W1 = ids W ++ r.id :: ids F := by rw [hW1, ids_append]; simp
  refine ⟨?_, ?_, ?_, hids, by rw [hW1, roots_append]; rfl⟩
  · rw [hids, List.nodup_append]
    refine ⟨hn, List.nodup_cons.mpr ⟨hrF, hF⟩, ?_⟩
    intro a ha b hb e
    subst e
    rcases List.mem_cons.mp hb with hb | hb
    · exact hrW (hb ▸ ha)
    · exact hdis _ hb ha
  · intro x hx
    obtain ⟨u, hu⟩ := find_some_of_mem hx
    rw [hW1, find_append, hu]; rfl
  · intro x hx
    rw [hW1, find_append, find_none.mpr (hdis x hx), find_single_ne (show r.id ≠ x from fun e => hrF (e ▸ hx))]
    rfl

theorem node_eq {F G : Forest} {x : Nat} (h : find x F = find x G) : node F x = node G x := by
  simp [node, h]

/-! ## The theorems -/

/-- The style is added as the last child of office:styles with its whole tree, and every other node
of all documents is as it was. -/
theorem C65_added {W : World} {F : Forest} {c : Nat} {t : Tree} {ts : List Tree} (hn : (ids W).Nodup)
    (hF : (ids F).Nodup) (hdis : ∀ x ∈ ids F, x ∉ ids W) (hc : c ∈ ids W) (ht : F.toList = t :: ts)
    (htag : t.1.tag ≠ "style:page-layout") :
    ∃ W', injectStyle (some c) F W = (W', .ok ()) ∧ Injected W W' c t := by
  obtain ⟨hf1, rest, hf2⟩ := find_first ht
  have htF : ∀ x ∈ ids (single t), x ∈ ids F := fun x hx => by
    rw [hf2]; exact List.mem_append_left _ hx
  have hti : t.1.id ∈ ids (single t) := by simp
  generalize hW1 : W ++ single (⟨max (newId W) (newId F), "root", [], some ['\n'], none⟩, F) = W1
  obtain ⟨p1, p2, p3, p4, p5⟩ := parsed hn hF hdis _ rfl W1 hW1.symm
  have hft : find t.1.id W1 = some t := by rw [p3 _ (htF _ hti), hf1]
  obtain ⟨ct, hct⟩ := find_some_of_mem hc
  have hcn : c ∉ ids (single t) := fun h => hdis c (htF c h) hc
  obtain ⟨W', a1, a2, a3, a4⟩ := append_all p1 (by rw [p2 c hc, hct]) hft hcn
  have hfake : fakeElement F W = (W1, .ok t.1.id) := by
    unfold fakeElement
    rw [ht]
    simp only [hW1, if_neg htag]
  have hch : ∀ q ∈ ids W, node W' q = (node W q).map fun u =>
      (u.1, if q = c then u.2 ++ [t.1.id] else u.2) := by
    intro q hq
    rw [a4 q, node_eq (p2 q hq)]
    obtain ⟨u, hu⟩ := find_some_of_mem hq
    have hcq : children W q = some (roots u.2) := by simp [children, hu, roots]
    have hnot : t.1.id ∉ roots u.2 := fun h => hdis _ (htF _ hti) (child_mem hcq h)
    rw [node_of_find hu]
    simp only [Option.map_some, Option.some.injEq, Prod.mk.injEq, true_and]
    rw [without_not_mem hnot]
  refine ⟨W', ?_, a2.nodup_iff.mpr p1, ?_, ?_, ?_, ?_, ?_⟩
  · unfold injectStyle
    rw [Py.bind_ok hfake]
    exact a1
  · intro q hq
    rw [content_node, content_node, hch q hq]
    cases node W q <;> rfl
  · intro q hq hqc
    rw [children_node, children_node, hch q hq]
    cases node W q with
    | none => rfl
    | some u => simp [hqc]
  · rw [children_node, hch c hc, node_of_find hct]
    simp [kidsOf, children, hct, roots]
  · intro x hx
    have hxF := htF x hx
    have hnx : node W1 x = node (single t) x := by
      rw [node_eq (p3 x hxF)]
      exact node_eq (find_in hF hf1 hx)
    have hxc : x ≠ c := fun e => hcn (e ▸ hx)
    have hn' : node W' x = node (single t) x := by
      rw [a4 x, hnx]
      obtain ⟨u, hu⟩ := find_some_of_mem hx
      have htn := nodup_tree hF hf1
      have hnot : t.1.id ∉ roots u.2 := fun h => by
        have := child_not_root htn hu (roots_sub h)
        simp at this
      rw [node_of_find hu]
      simp only [Option.map_some, if_neg hxc, without_not_mem hnot]
    exact ⟨by rw [content_node, content_node, hn'], by rw [children_node, children_node, hn']⟩
  · refine ⟨[max (newId W) (newId F)], ?_, ?_⟩
    · have h1 : tops W' = without t.1.id (roots W1) := a3
      rw [h1, p5]
      refine without_not_mem ?_
      intro h
      rcases List.mem_append.mp h with h | h
      · exact hdis _ (htF _ hti) (roots_sub h)
      · have h2 : t.1.id = max (newId W) (newId F) := by simpa using h
        have := le_newId (htF _ hti)
        omega
    · intro x hx
      simp only [List.mem_singleton] at hx
      intro h
      have := le_newId h
      omega

/-- The same for an opened document: its frame elements stay what they are. -/
theorem C65_document {W : World} {F : Forest} {d : DocTree} {t : Tree} {ts : List Tree}
    (hd : StylesRefs W d.styles) (hn : (ids W).Nodup) (hF : (ids F).Nodup)
    (hdis : ∀ x ∈ ids F, x ∉ ids W) (ht : F.toList = t :: ts) (htag : t.1.tag ≠ "style:page-layout") :
    ∃ W', d.inject F W = (W', .ok ()) ∧ Injected W W' d.styles.styles t ∧ StylesRefs W' d.styles := by
  obtain ⟨W', e, h⟩ := C65_added hn hF hdis hd.styles.mem ht htag
  have hroot : d.styles.root ≠ d.styles.styles := (hd.styles.ne hn).symm
  have keep : ∀ {g : String} {x : Nat}, Ref W d.styles.root g x → Ref W' d.styles.root g x := by
    intro g x ⟨A, B, k1, k2, k3⟩
    refine ⟨A, B, by rw [h.kids _ (mem_of_children k1) hroot, k1], ?_, ?_⟩
    · rw [← k2]; simp [tagAt, h.keep x (child_mem k1 (by simp))]
    · intro a ha
      have := k3 a ha
      rw [tagAt, h.keep a (child_mem k1 (by simp [ha]))]
      exact this
  exact ⟨W', e, h, keep hd.fonts, keep hd.styles, keep hd.automatic, keep hd.master⟩

/-- What the names of the container mean afterwards: the first style of the name that was there
before, or else the injected style. -/
theorem Injected.first {W W' : World} {c : Nat} {t : Tree} (h : Injected W W' c t) (k : Str) :
    Styles.first W' c k = (Styles.first W c k).or
      (if t.1.get "style:name" = some k then some t.1.id else none) := by
  have hname : Styles.nameOf W' t.1.id = t.1.get "style:name" := by
    unfold Styles.nameOf
    rw [(h.tree t.1.id (by simp)).1]
    simp [content, find_single_self]
  unfold Styles.first Styles.named
  rw [h.there]
  change ((kidsOf W c ++ [t.1.id]).filter _).head? = (((kidsOf W c)).filter _).head?.or _
  rw [List.filter_append, List.head?_append]
  have h1 : (kidsOf W c).filter (fun i => Styles.nameOf W' i = some k) =
      (kidsOf W c).filter (fun i => Styles.nameOf W i = some k) := by
    refine List.filter_congr fun i hi => ?_
    unfold Styles.nameOf
    rw [h.keep i (kidsOf_mem hi)]
  rw [h1]
  congr 1
  simp only [List.filter_cons, List.filter_nil, hname]
  by_cases hk : t.1.get "style:name" = some k
  · simp [hk]
  · simp [hk]

/-- C65, partial: an injected style can be read by its name, if the container has no style of that
name and the name has not been assigned through the container.  Every other name means what it meant.
Missing: names that are in use (`C65_taken_refuted`), page layouts (`C65_layout_refuted`) and flat
documents (`C65_flat_refuted`). -/
theorem C65_read_partial {s : Styles.S} {c : Nat} (h : Styles.Agrees s c) {F : Forest} {t : Tree}
    {ts : List Tree} (hF : (ids F).Nodup) (hdis : ∀ x ∈ ids F, x ∉ ids s.world)
    (ht : F.toList = t :: ts) (htag : t.1.tag ≠ "style:page-layout") {k : Str}
    (hk : t.1.get "style:name" = some k) (hnew : Styles.named s.world c k = [])
    (hass : ¬ Styles.Assigned s k) :
    ∃ s', Styles.onWorld (injectStyle (some c) F) s = (s', .ok ()) ∧
      (Styles.getitem c k s').2 = .ok t.1.id ∧ Styles.Agrees s' c ∧
      ∀ k', k' ≠ k → Styles.first s'.world c k' = Styles.first s.world c k' := by
  obtain ⟨W', e, hi⟩ := C65_added h.once hF hdis h.cont ht htag
  have hf : Styles.first s.world c k = none := by simp [Styles.first, hnew]
  have hag : Styles.Agrees ⟨W', s.cache⟩ c := by
    refine ⟨hi.once, mem_of_children hi.there, ?_⟩
    intro k' n hn
    have := h.elems k' n hn
    show Styles.first W' c k' = _
    rw [hi.first, this]
    rfl
  refine ⟨⟨W', s.cache⟩, by simp only [Styles.onWorld, e], ?_, hag, ?_⟩
  · rw [(Styles.C56_get_partial hag hass).1]
    have h1 : Styles.first W' c k = some t.1.id := by
      rw [hi.first, hf, if_pos hk]
      rfl
    simp only [h1]
    rw [(hi.tree t.1.id (by simp)).1]
    simp [content, find_single_self, htag]
  · intro k' hne
    have hkk : ¬ some k = some k' := fun e => hne (Option.some.inj e).symm
    show Styles.first W' c k' = _
    rw [hi.first, hk, if_neg hkk, Option.or_none]

/-- C65 is false for names that are in use: the name still means the old style after every successful
injection. -/
theorem C65_taken_refuted {s s' : Styles.S} {c : Nat} (h : Styles.Agrees s c) {F : Forest} {t : Tree}
    {ts : List Tree} (hF : (ids F).Nodup) (hdis : ∀ x ∈ ids F, x ∉ ids s.world)
    (ht : F.toList = t :: ts) {k : Str} {old : Nat} (hold : Styles.first s.world c k = some old)
    (he : Styles.onWorld (injectStyle (some c) F) s = (s', .ok ())) :
    Styles.first s'.world c k = some old ∧ old ≠ t.1.id := by
  obtain ⟨hf1, _⟩ := find_first ht
  have holdm : old ∈ ids s.world := by
    have : old ∈ Styles.named s.world c k := List.mem_of_head? hold
    exact kidsOf_mem (List.mem_filter.mp this).1
  refine ⟨?_, fun e => hdis _ (find_mem hf1) (e ▸ holdm)⟩
  by_cases htag : t.1.tag = "style:page-layout"
  · simp only [Styles.onWorld, injectStyle, fakeElement, Py.bind_def, ht, htag, if_true] at he
    simp at he
  · obtain ⟨W', e, hi⟩ := C65_added h.once hF hdis h.cont ht htag
    simp only [Styles.onWorld, e, Prod.mk.injEq, and_true] at he
    rw [← he, hi.first, hold]
    rfl

/-- C65 is false for page layouts: they cannot be injected at all.  Only the parsed string is new. -/
theorem C65_layout_refuted {W : World} {F : Forest} {t : Tree} {ts : List Tree}
    (ht : F.toList = t :: ts) (htag : t.1.tag = "style:page-layout") (c : Option Nat) :
    (injectStyle c F W).2 = .error .TypeError := by
  simp [injectStyle, fakeElement, Py.bind_def, ht, htag]

/-- A string without an element raises `IndexError`. -/
theorem C65_empty {W : World} {F : Forest} (h : F.toList = []) (c : Option Nat) :
    (injectStyle c F W).2 = .error .IndexError := by
  simp [injectStyle, fakeElement, Py.bind_def, h]

/-- C65 is false for flat documents: no style can be injected. -/
theorem C65_flat_refuted (d : FlatDoc) (F : Forest) (W : World) : ∃ e,
    (d.inject F W).2 = .error e := by
  unfold FlatDoc.inject injectStyle fakeElement
  simp only [Py.bind_def]
  cases F.toList with
  | nil => exact ⟨_, rfl⟩
  | cons t ts =>
    dsimp only
    by_cases h : t.1.tag = "style:page-layout"
    · simp only [if_pos h]; exact ⟨_, rfl⟩
    · simp only [if_neg h]; exact ⟨_, rfl⟩

/-! ### Concrete cases -/

/-- A container with one style. -/
def withStyle : World :=
  .cons ⟨0, "office:document-styles", [], none, none⟩
    (.cons ⟨1, "office:styles", [], none, none⟩
      (.cons ⟨2, "style:style", [("style:name", ['A'])], none, none⟩ .nil .nil) .nil) .nil

/-- `<style:style style:name="N"><style:text-properties/></style:style>` with a line end. -/
def parsedStyle (name : Str) (tag : String) : Forest :=
  .cons ⟨7, tag, [("style:name", name)], none, some ['\n']⟩
    (.cons ⟨8, "style:text-properties", [], none, none⟩ .nil .nil) .nil

theorem withStyle_agrees : Styles.Agrees ⟨withStyle, []⟩ 1 := ⟨by decide, by decide, by simp⟩

example : ∃ s', Styles.onWorld (injectStyle (some 1) (parsedStyle ['B'] "style:style"))
      ⟨withStyle, []⟩ = (s', .ok ()) ∧ (Styles.getitem 1 ['B'] s').2 = .ok 7 ∧
    Styles.first s'.world 1 ['A'] = some 2 := by
  obtain ⟨s', h1, h2, _, h4⟩ := C65_read_partial withStyle_agrees (F := parsedStyle ['B'] "style:style")
    (by decide) (by decide) (t := (_, _)) (ts := []) rfl (by decide) (k := ['B']) (by decide)
    (by decide +kernel) (by rintro ⟨n, hn⟩; cases hn)
  exact ⟨s', h1, h2, by rw [h4 ['A'] (by decide)]; decide +kernel⟩

/-- The style `A` is not replaced. -/
example : (Styles.onWorld (injectStyle (some 1) (parsedStyle ['A'] "style:style"))
      ⟨withStyle, []⟩).2.toOption = some () ∧
    kidsOf (injectStyle (some 1) (parsedStyle ['A'] "style:style") withStyle).1 1 = [2, 7] ∧
    Styles.first (injectStyle (some 1) (parsedStyle ['A'] "style:style") withStyle).1 1 ['A'] = some 2 := by
  decide +kernel

end Verif.Parts
