import Verif.Proofs.WholeMeta
/-! Helper lemmas for C69: opening. -/
namespace Verif.Whole
open Verif Verif.Lxml Forest Verif.Package Verif.Document
set_option linter.unusedSimpArgs false

/-! ## The trees -/

theorem tagOf_inv {W W' : World} {r : Nat} {t : String} (h : Parts.tagOf r W = (W', .ok t)) :
    W' = W ∧ Parts.tagAt W r = some t := by
  unfold Parts.tagOf at h
  cases hf : find r W with
  | none => rw [hf] at h; simp at h
  | some u =>
    rw [hf] at h
    simp only [Prod.mk.injEq, Except.ok.injEq] at h
    obtain ⟨rfl, rfl⟩ := h
    exact ⟨rfl, tagAt_find hf⟩

theorem bind_inv {σ α β : Type} {m : Py σ α} {f : α → Py σ β} {s s' : σ} {b : β}
    (h : (m >>= f) s = (s', .ok b)) : ∃ s1 a, m s = (s1, .ok a) ∧ f a s1 = (s', .ok b) := by
  rw [Py.bind_def] at h
  cases hm : m s with
  | mk s1 r =>
    rw [hm] at h
    cases r with
    | error e => simp at h
    | ok a => exact ⟨s1, a, rfl, h⟩

theorem body_inv {W W' : World} (hn : (ids W).Nodup) {f : Nat} (hf : f ∈ ids W) {tag : String}
    {b : Parts.BodyObj} (h : Parts.applicationBody f tag W = (W', .ok b)) :
    Parts.BodyRefs W' f tag b ∧ ∃ a, Parts.Ext W W' a := by
  obtain ⟨W1, n, e1, x1, r1, _⟩ := Parts.sub_spec hn hf tag
  have hnt : Parts.tagAt W1 n = some tag := by
    obtain ⟨_, _, _, h, _⟩ := r1
    exact h
  obtain ⟨W2, v, e2, x2, r2, _⟩ := Parts.sub_spec x1.once r1.mem "text:variable-decls"
  obtain ⟨W3, u, e3, x3, r3, _⟩ := Parts.sub_spec x2.once (x2.mem r1.mem) "text:user-field-decls"
  have hvn : v ≠ n := r2.ne x2.once
  unfold Parts.applicationBody Parts.bodyInit at h
  rw [Py.bind_ok e1, Py.bind_ok (Parts.tagOf_eq hnt), Py.bind_ok e2] at h
  rcases Parts.init_cases r2.mem with ⟨dv, hdv⟩ | hdv
  · rw [Py.bind_ok hdv, Py.bind_ok e3] at h
    rcases Parts.init_cases r3.mem with ⟨du, hdu⟩ | hdu
    · rw [Py.bind_ok hdu, Py.pure_def] at h
      simp only [Prod.mk.injEq, Except.ok.injEq] at h
      obtain ⟨rfl, rfl⟩ := h
      have hv3 : Vars.init v W3 = (W3, .ok dv) := Parts.init_ext x2.once x3 r2.mem (Parts.only_absent hvn) hdv
      refine ⟨⟨(r1.ext x2).ext x3, ⟨v, r2.ext x3, hv3⟩, ⟨u, r3, hdu⟩, rfl, by simp⟩, ?_⟩
      have x23 := Parts.sub_step r1.mem x2 x3 (by decide)
      exact ⟨_, x1.trans x23 fun q hq => Parts.only_absent fun e => hq (e ▸ x1.mem hf)⟩
    · rw [Py.bind_error hdu] at h; simp at h
  · rw [Py.bind_error hdv] at h; simp at h

/-- Whatever trees a document has been made from, its attributes are sound. -/
theorem tree_refs {W W' : World} (hn : (ids W).Nodup) {so co : Option Nat} {mt : Str} {d : Parts.DocTree}
    (h : Parts.packagedTree mt so co W = (W', .ok d)) :
    ∃ tag, MIMETYPE_BODYTAG_MAP.get mt = some tag ∧ Parts.DocRefs W' tag d ∧ (ids W').Nodup := by
  unfold Parts.packagedTree at h
  obtain ⟨W1, s, h1, h⟩ := bind_inv h
  obtain ⟨W2, c, h2, h⟩ := bind_inv h
  have hso : ∀ r, so = some r → Parts.tagAt W r = some "office:document-styles" := by
    rintro r rfl
    unfold Parts.stylesInit at h1
    dsimp only at h1
    obtain ⟨V, t, h3, h4⟩ := bind_inv h1
    obtain ⟨rfl, h5⟩ := tagOf_inv h3
    by_cases ht : t = "office:document-styles"
    · rw [← ht]; exact h5
    · rw [if_neg ht] at h4; simp [Py.raise] at h4
  obtain ⟨V1, s', g1, o1, x1, r1⟩ := Parts.C63_styles hn hso
  rw [g1] at h1
  simp only [Prod.mk.injEq, Except.ok.injEq] at h1
  obtain ⟨rfl, rfl⟩ := h1
  have hco : ∀ r, co = some r → Parts.tagAt V1 r = some "office:document-content" := by
    rintro r rfl
    unfold Parts.contentInit at h2
    dsimp only at h2
    obtain ⟨V, t, h3, h4⟩ := bind_inv h2
    obtain ⟨rfl, h5⟩ := tagOf_inv h3
    by_cases ht : t = "office:document-content"
    · rw [← ht]; exact h5
    · rw [if_neg ht] at h4; simp [Py.raise] at h4
  have hm : co = none → mt ∈ MIMETYPE_NSMAP := by
    rintro rfl
    unfold Parts.contentInit at h2
    by_cases hm : mt ∈ MIMETYPE_NSMAP
    · exact hm
    · simp [if_neg hm, Py.raise] at h2
  obtain ⟨V2, c', g2, o2, x2, r2⟩ := Parts.C63_content x1.once hm hco
  rw [g2] at h2
  simp only [Prod.mk.injEq, Except.ok.injEq] at h2
  obtain ⟨rfl, rfl⟩ := h2
  cases ht : MIMETYPE_BODYTAG_MAP.get mt with
  | none => rw [ht] at h; simp [Py.raise] at h
  | some tag =>
    rw [ht] at h
    dsimp only at h
    obtain ⟨W3, b, h3, h⟩ := bind_inv h
    rw [Py.pure_def] at h
    simp only [Prod.mk.injEq, Except.ok.injEq] at h
    obtain ⟨rfl, rfl⟩ := h
    obtain ⟨r3, a, x3⟩ := body_inv x2.once r2.body.mem h3
    refine ⟨tag, rfl, ⟨?_, ?_, (r1.ext x2).ext x3, r2.ext x3, r3, rfl, rfl⟩, x3.once⟩
    · rw [x3.tag (x2.mem (Parts.mem_of_tagAt o1.1)), x2.tag (Parts.mem_of_tagAt o1.1), o1.1]
    · rw [x3.tag (Parts.mem_of_tagAt o2.1), o2.1]

/-! ## Reading trees -/

theorem readTree_nodup {L : XLib} (hl : L.Lawful) {W W' : World} (hn : (ids W).Nodup) {b : Option Bytes}
    {o : Option Nat} (h : readTree L b W = (W', .ok o)) : (ids W').Nodup := by
  unfold readTree at h
  cases b with
  | none =>
    dsimp only at h
    rw [Py.pure_def] at h
    simp only [Prod.mk.injEq] at h
    rw [← h.1]; exact hn
  | some b =>
    dsimp only at h
    cases ht : L.xml (Parts.newId W) b with
    | none => rw [ht] at h; simp at h
    | some t =>
      rw [ht] at h
      simp only [Prod.mk.injEq] at h
      obtain ⟨f1, f2⟩ := hl.fresh _ _ _ ht
      rw [← h.1]
      exact (nodup_add hn f1 f2).1

/-! ## The package -/

theorem srcZip_congr {fs : FS} {fm fm' : FM} (h : fm'.source = fm.source) : srcZip fs fm' = srcZip fs fm := by
  unfold srcZip; rw [h]

theorem getBytes_congr {fs : FS} {fm fm' : FM} (h : fm'.source = fm.source) (n : Str) :
    getBytes fs fm' n = getBytes fs fm n := by
  unfold getBytes; rw [srcZip_congr h]

theorem getXml_congr {d : DLib} {fs : FS} {fm fm' : FM} (h : fm'.source = fm.source) (n : Str) :
    getXml d fs fm' n = getXml d fs fm n := by
  unfold getXml; rw [getBytes_congr h]

theorem register_source (n : Str) (x : Element) (t : Str) (now : Nat) (fm : FM) :
    (register n x t now fm).source = fm.source := rfl

/-- The roots of stored files have been checked. -/
theorem packaged_meta {d : DLib} {fs : FS} {now : Nat} {fm : FM} {mt : Option Str} {doc : Doc}
    (h : packaged d fs now fm mt = .ok doc) {t : String} {b : Bytes}
    (hm : getXml d fs fm META = .ok (some (t, b))) : t = "office:document-meta" := by
  unfold packaged at h
  cases mt with
  | none => cases h
  | some mt =>
    dsimp only at h
    split at h
    · cases h
    · split at h
      · cases h
      · rename_i hx
        unfold xmlPart at hx
        rw [getXml_congr (fm := fm) (fm' := register MIMETYPE _ _ _ { fm with manifest := Manifest.add ROOT mt none fm.manifest }) rfl,
          hm] at hx
        dsimp only at hx
        split at hx
        · assumption
        · cases hx

theorem packaged_zipname {d : DLib} {fs : FS} {now : Nat} {fm : FM} {mt : Option Str} {doc : Doc}
    (h : packaged d fs now fm mt = .ok doc) : doc.docname = zipname fm := by
  unfold packaged at h
  cases mt with
  | none => cases h
  | some mt =>
    dsimp only at h
    split at h
    · cases h
    split at h
    · cases h
    split at h
    · cases h
    split at h
    · cases h
    split at h
    · cases h
    simp only [Except.ok.injEq] at h
    rw [← h]; rfl

/-- A package with the three parts is accepted. -/
theorem packaged_fwd {d : DLib} {fs : FS} (now : Nat) {fm : FM} {mt ext : Str} {tag : String}
    (he : FILE_EXT_FOR_MIMETYPE.get mt = some ext) (ht : MIMETYPE_BODYTAG_MAP.get mt = some tag)
    {bm bs bc : Bytes} (hm : getXml d fs fm META = .ok (some ("office:document-meta", bm)))
    (hs : getXml d fs fm STYLES = .ok (some ("office:document-styles", bs)))
    (hc : getXml d fs fm CONTENT = .ok (some ("office:document-content", bc))) :
    ∃ doc, packaged d fs now fm (some mt) = .ok doc ∧ doc.mimetype = mt ∧ doc.doctype = ext ∧
      doc.docname = zipname fm := by
  have hp : ∀ (fm' : FM) (_ : fm'.source = fm.source) (n : Str) (t : String) (b : Bytes) (e : Exc) (new)
      (_ : getXml d fs fm n = .ok (some (t, b))), xmlPart d fs fm' mt n t e new =
      .ok (.object (d.partBytes n mt (some b))) := by
    intro fm' h n t b e new hx
    unfold xmlPart
    rw [getXml_congr h, hx]
    dsimp only
    rw [if_pos rfl]
  unfold packaged
  dsimp only
  rw [he]
  dsimp only
  rw [hp (register MIMETYPE _ _ _ { fm with manifest := Manifest.add ROOT mt none fm.manifest }) rfl META _ _ _ _ hm]
  dsimp only
  rw [hp (register META _ _ _ (register MIMETYPE _ _ _ { fm with manifest := Manifest.add ROOT mt none fm.manifest })) rfl STYLES _ _ _ _ hs]
  dsimp only
  rw [hp (register STYLES _ _ _ (register META _ _ _ (register MIMETYPE _ _ _ { fm with manifest := Manifest.add ROOT mt none fm.manifest }))) rfl CONTENT _ _ _ _ hc]
  dsimp only
  rw [ht]
  exact ⟨_, rfl, rfl, rfl, rfl⟩

theorem storedBytes_of {fs : FS} {fm : FM} {n : Str} {b : Bytes} (h : getBytes fs fm n = .ok (some b)) (hb : b ≠ []) :
    storedBytes fs fm n = some b := by
  unfold storedBytes; rw [h]; simp [hb]

end Verif.Whole
