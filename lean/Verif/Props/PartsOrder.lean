import Verif.Props.Parts
/-! # C64: exactly when the frame elements are in order -/
namespace Verif.Parts
open Verif Verif.Lxml Forest
set_option linter.unusedSimpArgs false

/-- The frame elements among the children of `r`, in their order -/
def stored_frame (W : World) (r : Nat) (T : List String) : List (Option String) :=
  (kidTags W r).filter fun t => t ∈ T.map some

theorem ordered_iff {W W' : World} {r : Nat} {T : List String} (hT : T.Nodup)
    (h : kidTags W' r = kidTags W r ++ (missing W r T).map some) :
    Ordered W' r T ↔ stored_frame W r T <+: T.map some := by
  have hm : ((missing W r T).map some).filter (fun t => t ∈ T.map some) = (missing W r T).map some := by
    rw [List.filter_eq_self]
    intro t ht
    obtain ⟨b, hb, rfl⟩ := List.mem_map.mp ht
    simp [(List.mem_filter.mp hb).1]
  have hTn : (T.map some).Nodup := hT.map (fun _ _ h => Option.some.inj h)
  have hall : T.map some ⊆ stored_frame W r T ++ (missing W r T).map some := by
    intro x hx
    obtain ⟨t, ht, rfl⟩ := List.mem_map.mp hx
    by_cases hk : some t ∈ kidTags W r
    · exact List.mem_append_left _ (List.mem_filter.mpr ⟨hk, by simpa using ht⟩)
    · exact List.mem_append_right _ (List.mem_map.mpr ⟨t, List.mem_filter.mpr ⟨ht, by simpa using hk⟩, rfl⟩)
  unfold Ordered
  rw [h, List.filter_append, hm]
  constructor
  · intro g
    have : stored_frame W r T ++ (missing W r T).map some = T.map some :=
      g.eq_of_length_le (List.Nodup.length_le_of_subset hTn hall)
    exact ⟨_, this⟩
  · rintro ⟨B, hB⟩
    have hn : (stored_frame W r T ++ B).Nodup := by rw [hB]; exact hTn
    have hd := (List.nodup_append.mp hn).2.2
    have e : (missing W r T).map some = B := by
      have e1 : (missing W r T).map some = (T.map some).filter fun t => t ∉ kidTags W r := by
        unfold missing
        rw [List.filter_map]
        rfl
      rw [e1, ← hB, List.filter_append]
      have a1 : (stored_frame W r T).filter (fun t => t ∉ kidTags W r) = [] := by
        rw [List.filter_eq_nil_iff]
        intro t ht
        simp [(List.mem_filter.mp ht).1]
      have a2 : B.filter (fun t => t ∉ kidTags W r) = B := by
        rw [List.filter_eq_self]
        intro t ht
        have ht' : t ∈ T.map some := by rw [← hB]; simp [ht]
        have : t ∉ kidTags W r := fun g => hd t (List.mem_filter.mpr ⟨g, by simpa using ht'⟩) t ht rfl
        simpa using this
      rw [a1, a2, List.nil_append]
    rw [e]
    show (stored_frame W r T ++ B).Sublist _
    rw [hB]

/-- **C64**, exactly: after a document has been set up, from stored parts or new ones, the frame elements of styles.xml, of
content.xml and of the body element are in the order of the schema if and only if those that were there before are the
first of the frame, without a gap or a repetition. -/
theorem C64_exact {W : World} (hn : (ids W).Nodup) {so co : Option Nat} {mt : Str} {tag : String}
    (hmt : Document.MIMETYPE_BODYTAG_MAP.get mt = some tag)
    (hso : ∀ r, so = some r → tagAt W r = some "office:document-styles")
    (hco : ∀ r, co = some r → tagAt W r = some "office:document-content")
    (hm : co = none → mt ∈ Document.MIMETYPE_NSMAP) (hd : Declared W) :
    ∃ W' d, packagedTree mt so co W = (W', .ok d) ∧ RootOf W W' "office:document-styles" so d.styles.root ∧
      RootOf W W' "office:document-content" co d.content.root ∧
      (Ordered W' d.styles.root stylesFrame ↔ stored_frame W d.styles.root stylesFrame <+: stylesFrame.map some) ∧
      (Ordered W' d.content.root contentFrame ↔ stored_frame W d.content.root contentFrame <+: contentFrame.map some) ∧
      (Ordered W' d.body.node bodyFrame ↔ stored_frame W d.body.node bodyFrame <+: bodyFrame.map some) := by
  obtain ⟨W', d, h1, h2, h3, h4, h5⟩ := C63_document hn hmt hso hco hm hd
  have hb := bodytag_mem hmt
  have hbt : tagAt W' d.content.body = some "office:body" := by
    obtain ⟨_, _, _, h, _⟩ := h2.content.body
    exact h
  have hnt : tagAt W' d.body.node = some tag := by
    obtain ⟨_, _, _, h, _⟩ := h2.body.node
    exact h
  have hne : ∀ {x y : Nat} {a b : String}, tagAt W' x = some a → tagAt W' y = some b → a ≠ b → x ≠ y :=
    fun hx hy h e => h (Option.some.inj (by rw [← hx, ← hy, e]))
  have tagne : ∀ a ∈ ["office:document-styles", "office:document-content", "office:body"], tag ≠ a := by
    intro a ha e
    subst e
    simp only [List.mem_cons, List.not_mem_nil, or_false] at ha hb
    rcases ha with rfl | rfl | rfl <;> simp at hb
  have hs := h2.stylesRoot
  have hc := h2.contentRoot
  have k12 := hne hs hc (by decide)
  have k13 := hne hs hbt (by decide)
  have k23 := hne hc hbt (by decide)
  have k14 := hne hs hnt (tagne _ (by simp)).symm
  have k24 := hne hc hnt (tagne _ (by simp)).symm
  have k34 := hne hbt hnt (tagne _ (by simp)).symm
  refine ⟨W', d, h1, h3, h4, ordered_iff (by decide) ?_, ordered_iff (by decide) ?_, ordered_iff (by decide) ?_⟩
  · rw [h5.kidTags (mem_of_tagAt hs)]
    simp [only, k12, k13, k14]
  · rw [h5.kidTags (mem_of_tagAt hc)]
    simp [only, k12.symm, k23, k24]
  · rw [h5.kidTags (mem_of_tagAt hnt)]
    simp [only, k14.symm, k24.symm, k34.symm]

/-- Scripts and font declarations before the set-up: in order.  A body alone: not in order. -/
example : stored_frame (.cons ⟨0, "office:document-content", [], none, none⟩
      (.cons ⟨1, "office:scripts", [], none, none⟩ .nil (.cons ⟨2, "x:other", [], none, none⟩ .nil
        (.cons ⟨3, "office:font-face-decls", [], none, none⟩ .nil .nil))) .nil) 0 contentFrame <+: contentFrame.map some ∧
    ¬ stored_frame stored 0 contentFrame <+: contentFrame.map some := by decide +kernel

example : ∃ W' d, packagedTree spreadsheet none (some 0) stored = (W', .ok d) ∧
    Ordered W' d.styles.root stylesFrame ∧ d.content.root = 0 ∧ ¬ Ordered W' 0 contentFrame := by
  obtain ⟨W', d, h1, hs, hc, k1, k2, -⟩ := C64_exact (W := stored) (by decide) (so := none) (co := some 0) (mt := spreadsheet)
    (tag := "office:spreadsheet") (by decide +kernel) (by simp) (fun r h => by rw [← Option.some.inj h]; decide +kernel)
    (by simp) (by unfold Declared; decide +kernel)
  have hr : d.content.root = 0 := hc.2
  rw [hr] at k2
  refine ⟨W', d, h1, k1.mpr ?_, hr, fun g => absurd (k2.mp g) (by decide +kernel)⟩
  unfold stored_frame kidTags
  rw [kidsOf_none hs.2.1]
  exact List.nil_prefix

end Verif.Parts
