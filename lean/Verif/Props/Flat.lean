import Verif.Props.Parts
/-!
# C66: flat documents can be created, opened and opened again
-/
namespace Verif.Parts
open Verif Verif.Lxml Forest
set_option linter.unusedSimpArgs false

/-! ## Specification -/

/-- The frame elements of a flat document in the order of the constructor. -/
def flatFrame : List String :=
  ["office:document-meta", "office:settings", "office:scripts", "office:font-face-decls",
   "office:styles", "office:automatic-styles", "office:master-styles", "office:body"]

/-- The attributes of the document denote the frame elements, and the body is in the first
office:body. -/
structure FlatRefs (W : World) (tag : String) (d : FlatDoc) : Prop where
  root : tagAt W d.root = some "office:document"
  info : Ref W d.root "office:document-meta" d.meta_
  settings : ∃ x, Ref W d.root "office:settings" x
  scripts : Ref W d.root "office:scripts" d.scripts
  fonts : Ref W d.root "office:font-face-decls" d.fonts
  styles : Ref W d.root "office:styles" d.styles
  automatic : Ref W d.root "office:automatic-styles" d.automatic
  master : Ref W d.root "office:master-styles" d.master
  body : ∃ f, Ref W d.root "office:body" f ∧ BodyRefs W f tag d.body
  sheets : d.sheets = d.body.sheets
  pages : d.pages = d.body.pages

/-! ## Lemmas -/

theorem refTag {W : World} {p c : Nat} {tag : String} (h : Ref W p tag c) : tagAt W c = some tag := by
  obtain ⟨_, _, _, h, _⟩ := h
  exact h

/-- The setup of a flat document. -/
theorem flat_setup {V : World} (hV : (ids V).Nodup) {r : Nat}
    (hr : tagAt V r = some "office:document") {mt : Str} {tag : String}
    (hmt : Document.MIMETYPE_BODYTAG_MAP.get mt = some tag) (hd : Declared V) :
    ∃ V' d f, flatSetup r mt V = (V', .ok d) ∧ d.root = r ∧ d.mimetype = mt ∧ FlatRefs V' tag d ∧
      Ref V' r "office:body" f ∧
      Ext V V' fun q => only V r flatFrame q ++ only V f [tag] q ++ only V d.body.node bodyFrame q := by
  have hb := bodytag_mem hmt
  have h0 := mem_of_tagAt hr
  obtain ⟨W1, a1, e1, x1, r1, _⟩ := sub_spec hV h0 "office:document-meta"
  have h1 := x1.mem h0
  obtain ⟨W2, a2, e2, x2, r2, _⟩ := sub_spec x1.once h1 "office:settings"
  have h2 := x2.mem h1
  obtain ⟨W3, a3, e3, x3, r3, _⟩ := sub_spec x2.once h2 "office:scripts"
  have h3 := x3.mem h2
  obtain ⟨W4, a4, e4, x4, r4, _⟩ := sub_spec x3.once h3 "office:font-face-decls"
  have h4 := x4.mem h3
  obtain ⟨W5, a5, e5, x5, r5, _⟩ := sub_spec x4.once h4 "office:styles"
  have h5 := x5.mem h4
  obtain ⟨W6, a6, e6, x6, r6, _⟩ := sub_spec x5.once h5 "office:automatic-styles"
  have h6 := x6.mem h5
  obtain ⟨W7, a7, e7, x7, r7, _⟩ := sub_spec x6.once h6 "office:master-styles"
  have h7 := x7.mem h6
  obtain ⟨W8, f, e8, x8, r8, _⟩ := sub_spec x7.once h7 "office:body"
  have h8 := x8.mem h7
  have x : Ext V W8 (only V r flatFrame) :=
    sub_step h0 x1 (sub_step h1 x2 (sub_step h2 x3 (sub_step h3 x4 (sub_step h4 x5 (sub_step h5 x6
      (sub_step h6 x7 x8 (by decide)) (by decide)) (by decide)) (by decide)) (by decide)) (by decide))
      (by decide)
  have hr8 : tagAt W8 r = some "office:document" := by rw [x.tag h0, hr]
  have hft := refTag r8
  have hd8 : Declared W8 := hd.ext x fun v _ ha t ht => by
    rw [only_ne ha, hr8]
    intro e
    have := Option.some.inj e
    subst this
    simp [bodyFrame] at ht
  obtain ⟨W9, b, e9, r9, x9⟩ := C63_body x8.once r8.mem (tag := tag)
    (fun h => by
      simp only [bodyFrame, List.mem_cons, List.not_mem_nil, or_false] at h hb
      rcases h with rfl | rfl <;> simp at hb)
    (fun t ht e => by
      rw [hft] at e
      have := Option.some.inj e
      subst this
      simp [bodyFrame] at ht) hd8
  have hnt := refTag r9.node
  have hr9 : tagAt W9 r = some "office:document" := by rw [x9.tag h8, hr8]
  have hfr : f ≠ r := r8.ne x8.once
  have hnr : b.node ≠ r := fun e => by
    rw [e, hr9] at hnt
    have := Option.some.inj hnt
    subst this
    simp at hb
  refine ⟨W9, ⟨r, mt, a1, a5, a3, a4, a6, a7, b, b.sheets, b.pages⟩, f, ?_, rfl, rfl, ?_,
    r8.ext x9, ?_⟩
  · unfold flatSetup
    rw [Py.bind_ok e1, Py.bind_ok e2, Py.bind_ok e3, Py.bind_ok e4, Py.bind_ok e5, Py.bind_ok e6,
      Py.bind_ok e7]
    simp only [hmt]
    rw [Py.bind_ok e8, Py.bind_ok e9, Py.pure_def]
  · refine ⟨hr9, ?_, ⟨a2, ?_⟩, ?_, ?_, ?_, ?_, ?_, ⟨f, r8.ext x9, r9⟩, rfl, rfl⟩
    · exact (((((((r1.ext x2).ext x3).ext x4).ext x5).ext x6).ext x7).ext x8).ext x9
    · exact ((((((r2.ext x3).ext x4).ext x5).ext x6).ext x7).ext x8).ext x9
    · exact (((((r3.ext x4).ext x5).ext x6).ext x7).ext x8).ext x9
    · exact ((((r4.ext x5).ext x6).ext x7).ext x8).ext x9
    · exact (((r5.ext x6).ext x7).ext x8).ext x9
    · exact ((r6.ext x7).ext x8).ext x9
    · exact (r7.ext x8).ext x9
  · refine (x.trans x9 fun q hq => only_absent fun e => hq (e ▸ h8)).congr fun q _ => ?_
    dsimp only
    rw [only_congr (x.untouched (p := f) (only_absent hfr)),
      only_congr (x.untouched (p := b.node) (only_absent hnr)), List.append_assoc]

/-! ## The theorems -/

/-- C66, partial: a new flat document of a type with a body tag is built: a new root with the frame
elements in this order, and all other trees as they were.  Missing: the types without a body tag
(`C66_types_refuted`). -/
theorem C66_new_partial {W : World} (hn : (ids W).Nodup) {ft mt : Str} {tag : String}
    (hft : Document.MIMETYPES.get ft = some mt)
    (hmt : Document.MIMETYPE_BODYTAG_MAP.get mt = some tag) (hd : Declared W) :
    ∃ W' d, flatInit ft none W = (W', .ok d) ∧ d.mimetype = mt ∧ FlatRefs W' tag d ∧
      d.root ∉ ids W ∧ kidTags W' d.root = flatFrame.map some ∧
      (∃ add, Ext W W' add ∧ ∀ q ∈ ids W, add q = []) := by
  obtain ⟨W1, r, e1, x1, f1, f2, f3, f4, f5⟩ := newRoot_spec hn "office:document"
  have hd1 : Declared W1 := hd.ext x1 (by simp)
  obtain ⟨W', d, f, e2, g1, g2, g3, g4, g5⟩ := flat_setup x1.once f3 hmt hd1
  subst g1
  have hmem : mt ∈ Document.MIMETYPES.map Prod.snd := List.mem_map_of_mem (Dict.get_mem hft)
  have old : ∀ {p : Nat}, p ∉ ids W → kidTags W1 p = [] := fun h => by
    rw [x1.untouched (p := _) rfl]; simp [kidTags, kidsOf_none h]
  -- the new nodes are not in the old world
  have newer : ∀ {p c : Nat} {t : String}, Ref W' p t c → p ∉ ids W → kidsOf W1 p = [] → c ∉ ids W := by
    intro p c t ⟨A, B, k1, _⟩ hp hk
    obtain ⟨m, k2, k3, _⟩ := g5.kids p (mem_of_children k1)
    rw [hk, List.nil_append, k1] at k2
    exact fun h => k3 c (by rw [← Option.some.inj k2]; simp) (x1.mem h)
  have hk1 : ∀ {p : Nat}, p ∉ ids W → kidsOf W1 p = [] := fun {p} h => by
    have := old h
    unfold kidTags at this
    simpa using this
  have nf := newer g4 f1 (hk1 f1)
  obtain ⟨f', hf', hbody⟩ := g3.body
  have hff : f' = f := hf'.unique g4
  subst hff
  have nb := newer hbody.node nf (hk1 nf)
  have hne1 : d.root ≠ f' := (g4.ne g5.once).symm
  have hne2 : d.root ≠ d.body.node := fun e => by
    have h1 := g3.root
    rw [e, refTag hbody.node] at h1
    have h2 := bodytag_mem hmt
    rw [Option.some.inj h1] at h2
    simp at h2
  refine ⟨W', d, ?_, g2, g3, f1, ?_, _, x1.trans g5 fun _ _ => rfl, ?_⟩
  · unfold flatInit
    simp only [hft]
    rw [Py.bind_ok e1]
    unfold flatCheck
    simp only [if_pos hmem, e2]
  · rw [g5.kidTags (mem_of_tagAt g3.root), old f1]
    have hk : kidTags W1 d.root = [] := old f1
    have hm : missing W1 d.root flatFrame = flatFrame := by simp [missing, hk]
    simp [only, hne1, hne2, hm]
  · intro q hq
    have q1 : q ≠ d.root := fun e => f1 (e ▸ hq)
    have q2 : q ≠ f' := fun e => nf (e ▸ hq)
    have q3 : q ≠ d.body.node := fun e => nb (e ▸ hq)
    simp [only, q1, q2, q3]

/-- C66, partial: a stored flat document with a type that has a body tag is opened; exactly the missing
frame elements are added. -/
theorem C66_open_partial {W : World} (hn : (ids W).Nodup) {ft : Str} (hft : ft ∈ Document.MIMETYPES.keys)
    {r : Nat} {e : Elem} (hr : content W r = some e) (htag : e.tag = "office:document") {mt : Str}
    (hm : e.get "office:mimetype" = some mt) {tag : String}
    (hmt : Document.MIMETYPE_BODYTAG_MAP.get mt = some tag) (hd : Declared W) :
    ∃ W' d f, flatInit ft (some r) W = (W', .ok d) ∧ d.root = r ∧ d.mimetype = mt ∧
      FlatRefs W' tag d ∧ Ref W' r "office:body" f ∧
      Ext W W' fun q => only W r flatFrame q ++ only W f [tag] q ++ only W d.body.node bodyFrame q := by
  have hrt : tagAt W r = some "office:document" := by simp [tagAt, hr, htag]
  obtain ⟨W', d, f, e2, g1, g2, g3, g4, g5⟩ := flat_setup hn hrt hmt hd
  refine ⟨W', d, f, ?_, g1, g2, g3, g4, g5⟩
  obtain ⟨v, hv⟩ := Option.isSome_iff_exists.mp (Dict.get_isSome.mpr hft)
  obtain ⟨t, ht⟩ := find_some_of_mem (mem_of_tagAt hrt)
  have hte : t.1 = e := by
    simp only [content, ht, Option.map_some, Option.some.injEq] at hr
    exact hr
  have hmem : mt ∈ Document.MIMETYPES.map Prod.snd := by
    have h1 : mt ∈ Document.MIMETYPE_BODYTAG_MAP.map Prod.fst :=
      List.mem_map_of_mem (f := Prod.fst) (Dict.get_mem hmt)
    have h2 : ∀ m ∈ Document.MIMETYPE_BODYTAG_MAP.map Prod.fst,
        m ∈ Document.MIMETYPES.map Prod.snd := by decide +kernel
    exact h2 mt h1
  unfold flatInit
  simp only [hv, ht, hte, htag, hm, if_true, flatCheck, if_pos hmem, e2]

/-- C66 is false: a new flat document cannot be opened again, whatever type it has and whatever type
is given then, because its root does not get the mimetype. -/
theorem C66_reread_refuted {W W' : World} (hn : (ids W).Nodup) (hd : Declared W) {ft : Str} {d : FlatDoc}
    (h : flatInit ft none W = (W', .ok d)) {ft' : Str} (hft' : ft' ∈ Document.MIMETYPES.keys) :
    flatInit ft' (some d.root) W' = (W', .error .TypeError) := by
  obtain ⟨v, hv⟩ := Option.isSome_iff_exists.mp (Dict.get_isSome.mpr hft')
  cases hft : Document.MIMETYPES.get ft with
  | none => simp [flatInit, hft, Py.raise] at h
  | some mt =>
    cases hmt : Document.MIMETYPE_BODYTAG_MAP.get mt with
    | none =>
      exfalso
      obtain ⟨W1, r, e1, x1, f1, f2, f3, f4, f5⟩ := newRoot_spec hn "office:document"
      obtain ⟨V1, a1, y1, z1, _⟩ := sub_spec x1.once f2 "office:document-meta"
      obtain ⟨V2, a2, y2, z2, _⟩ := sub_spec z1.once (z1.mem f2) "office:settings"
      have m2 := z2.mem (z1.mem f2)
      obtain ⟨V3, a3, y3, z3, _⟩ := sub_spec z2.once m2 "office:scripts"
      have m3 := z3.mem m2
      obtain ⟨V4, a4, y4, z4, _⟩ := sub_spec z3.once m3 "office:font-face-decls"
      have m4 := z4.mem m3
      obtain ⟨V5, a5, y5, z5, _⟩ := sub_spec z4.once m4 "office:styles"
      have m5 := z5.mem m4
      obtain ⟨V6, a6, y6, z6, _⟩ := sub_spec z5.once m5 "office:automatic-styles"
      have m6 := z6.mem m5
      obtain ⟨V7, a7, y7, z7, _⟩ := sub_spec z6.once m6 "office:master-styles"
      have hmem : mt ∈ Document.MIMETYPES.map Prod.snd := List.mem_map_of_mem (Dict.get_mem hft)
      unfold flatInit at h
      simp only [hft] at h
      rw [Py.bind_ok e1] at h
      unfold flatCheck at h
      simp only [if_pos hmem] at h
      unfold flatSetup at h
      rw [Py.bind_ok y1, Py.bind_ok y2, Py.bind_ok y3, Py.bind_ok y4, Py.bind_ok y5, Py.bind_ok y6,
        Py.bind_ok y7] at h
      simp [hmt, Py.raise] at h
    | some tag =>
      obtain ⟨W2, d2, e, _, g3, g4, _, add, g5, _⟩ := C66_new_partial hn hft hmt hd
      rw [e] at h
      simp only [Prod.mk.injEq, Except.ok.injEq] at h
      obtain ⟨rfl, rfl⟩ := h
      have hm := mem_of_tagAt g3.root
      obtain ⟨tg, htg⟩ := g5.fresh d2.root hm g4
      obtain ⟨t, ht⟩ := find_some_of_mem hm
      have hte : t.1 = bare d2.root tg := by
        simp only [content, ht, Option.map_some, Option.some.injEq] at htg
        exact htg
      have htag : tg = "office:document" := by
        have := g3.root
        simp only [tagAt, content, ht, Option.map_some, hte, bare, Option.some.injEq] at this
        exact this
      unfold flatInit
      simp [hv, ht, hte, bare, htag, Elem.get, Attrs.get, flatCheck, Py.raise]

/-- C66 is false: a root with another tag raises `AttributeError`, not `ValueError`. -/
theorem C66_root_refuted {W : World} {ft : Str} (hft : ft ∈ Document.MIMETYPES.keys) {r : Nat}
    {t : String} (hr : tagAt W r = some t) (ht : t ≠ "office:document") :
    flatInit ft (some r) W = (W, .error .AttributeError) := by
  obtain ⟨v, hv⟩ := Option.isSome_iff_exists.mp (Dict.get_isSome.mpr hft)
  obtain ⟨u, hu⟩ := find_some_of_mem (mem_of_tagAt hr)
  have : u.1.tag = t := by
    simp only [tagAt, content, hu, Option.map_some, Option.some.injEq] at hr
    exact hr
  unfold flatInit
  simp [hv, hu, this, ht]

/-- C66 is false: formulas, chart templates and some others are in the table of types and cannot be
created. -/
theorem C66_types_refuted : ¬ ∀ ft ∈ Document.MIMETYPES.keys, ∃ d,
    (flatInit ft none .nil).2.toOption = some d := by
  intro h
  obtain ⟨d, hd⟩ := h "odf".toList (by decide +kernel)
  have h2 : (flatInit "odf".toList none .nil).2.toOption.isNone = true := by decide +kernel
  rw [hd] at h2
  cases h2

/-- Opening a complete flat document changes nothing. -/
theorem C66_complete {W : World} (hn : (ids W).Nodup) {ft : Str} (hft : ft ∈ Document.MIMETYPES.keys)
    {d : FlatDoc} {e : Elem} (hr : content W d.root = some e)
    (hm : e.get "office:mimetype" = some d.mimetype) {tag : String}
    (hmt : Document.MIMETYPE_BODYTAG_MAP.get d.mimetype = some tag) (h : FlatRefs W tag d) :
    flatInit ft (some d.root) W = (W, .ok d) := by
  obtain ⟨r, mt, mm, st, sc, fo, au, ma, b, sh, pg⟩ := d
  obtain ⟨k1, k2, ⟨x, k3⟩, k4, k5, k6, k7, k8, ⟨f, k9, k10⟩, k11, k12⟩ := h
  dsimp only at *
  obtain ⟨v, hv⟩ := Option.isSome_iff_exists.mp (Dict.get_isSome.mpr hft)
  obtain ⟨t, ht⟩ := find_some_of_mem (mem_of_tagAt k1)
  have hte : t.1 = e := by
    simp only [content, ht, Option.map_some, Option.some.injEq] at hr
    exact hr
  have htag : e.tag = "office:document" := by simpa [tagAt, hr] using k1
  have hmem : mt ∈ Document.MIMETYPES.map Prod.snd := by
    have h1 : mt ∈ Document.MIMETYPE_BODYTAG_MAP.map Prod.fst :=
      List.mem_map_of_mem (f := Prod.fst) (Dict.get_mem hmt)
    have h2 : ∀ m ∈ Document.MIMETYPE_BODYTAG_MAP.map Prod.fst,
        m ∈ Document.MIMETYPES.map Prod.snd := by decide +kernel
    exact h2 mt h1
  obtain ⟨va, hv1, hv2⟩ := k10.vars
  obtain ⟨u, hu1, hu2⟩ := k10.fields
  have hb : applicationBody f tag W = (W, .ok b) := by
    unfold applicationBody bodyInit
    rw [Py.bind_ok (sub_ref hn k10.node), Py.bind_ok (tagOf_eq (refTag k10.node)),
      Py.bind_ok (sub_ref hn hv1), Py.bind_ok hv2, Py.bind_ok (sub_ref hn hu1), Py.bind_ok hu2,
      Py.pure_def]
    have e1 := k10.sheets
    have e2 := k10.pages
    simp only [List.mem_cons, List.not_mem_nil, or_false] at e2
    rw [← e1, ← e2]
  unfold flatInit
  simp only [hv, ht, hte, htag, hm, if_true, flatCheck, if_pos hmem]
  unfold flatSetup
  rw [Py.bind_ok (sub_ref hn k2), Py.bind_ok (sub_ref hn k3), Py.bind_ok (sub_ref hn k4),
    Py.bind_ok (sub_ref hn k5), Py.bind_ok (sub_ref hn k6), Py.bind_ok (sub_ref hn k7),
    Py.bind_ok (sub_ref hn k8)]
  simp only [hmt]
  rw [Py.bind_ok (sub_ref hn k9), Py.bind_ok hb, Py.pure_def, k11, k12]

/-! ### Concrete cases -/

/-- A stored flat spreadsheet. -/
def flatStored : World :=
  .cons ⟨0, "office:document", [("office:mimetype", spreadsheet)], none, none⟩
    (.cons ⟨1, "office:body", [], none, none⟩
      (.cons ⟨2, "office:spreadsheet", [], none, none⟩
        (.cons ⟨3, "table:table", [("table:name", ['A'])], none, none⟩ .nil .nil) .nil) .nil) .nil

theorem flatStored_declared : Declared flatStored := by
  intro v hv t ht h
  have : ∀ v ∈ ids flatStored, ∀ t ∈ bodyFrame, tagAt flatStored v ≠ some t := by decide +kernel
  exact absurd h (this v hv t ht)

example : ∃ W' d, flatInit "ods".toList none .nil = (W', .ok d) ∧
    kidTags W' d.root = flatFrame.map some ∧
    flatInit "ods".toList (some d.root) W' = (W', .error .TypeError) := by
  obtain ⟨W', d, h1, _, _, _, h2, _⟩ := C66_new_partial (W := .nil) (by decide) (ft := "ods".toList)
    (mt := spreadsheet) (tag := "office:spreadsheet") (by decide +kernel) (by decide +kernel)
    (by intro v hv; cases hv)
  exact ⟨W', d, h1, h2, C66_reread_refuted (W := .nil) (by decide) (by intro v hv; cases hv) h1
    (by decide +kernel)⟩

example : ∃ W' d, flatInit "odt".toList (some 0) flatStored = (W', .ok d) ∧ d.mimetype = spreadsheet ∧
    FlatRefs W' "office:spreadsheet" d := by
  obtain ⟨W', d, f, h1, _, h2, h3, _⟩ := C66_open_partial (W := flatStored) (by decide)
    (ft := "odt".toList) (by decide +kernel) (r := 0) (e := ⟨0, "office:document",
      [("office:mimetype", spreadsheet)], none, none⟩) (by rfl) rfl (mt := spreadsheet) (by decide +kernel)
    (tag := "office:spreadsheet") (by decide +kernel) flatStored_declared
  exact ⟨W', d, h1, h2, h3⟩

end Verif.Parts
