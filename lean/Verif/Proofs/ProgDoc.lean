import Verif.Proofs.ProgStep
/-! Helper lemmas for C78: documents that have just been made. -/
namespace Verif.Program
open Verif Verif.Lxml Forest Verif.Whole Verif.Tbl Verif.Document
set_option linter.unusedSimpArgs false

/-- The roots of the parts are roots. -/
theorem tree_roots {W W' : World} (hn : (ids W).Nodup) {so co : Option Nat} {mt : Str} {d : Parts.DocTree}
    (h : Parts.packagedTree mt so co W = (W', .ok d)) (hso' : ∀ r, so = some r → r ∈ Lxml.roots W)
    (hco' : ∀ r, co = some r → r ∈ Lxml.roots W) : d.styles.root ∈ Lxml.roots W' ∧ d.content.root ∈ Lxml.roots W' := by
  unfold Parts.packagedTree at h
  obtain ⟨W1, s, h1, h⟩ := bind_inv h
  obtain ⟨W2, c, h2, h⟩ := bind_inv h
  have hso : ∀ r, so = some r → Parts.tagAt W r = some "office:document-styles" := by
    rintro r rfl
    unfold Parts.stylesInit at h1
    dsimp only at h1
    obtain ⟨V, t, h3, h4⟩ := bind_inv h1
    obtain ⟨rfl, h5⟩ := tagOf_inv h3
    by_cases ht : t = "office:document-styles"
    · rw [← ht]; exact h5
    · rw [if_neg ht] at h4; simp [Py.raise] at h4
  obtain ⟨V1, s', g1, o1, x1, r1⟩ := Parts.C63_styles hn hso
  rw [g1] at h1
  simp only [Prod.mk.injEq, Except.ok.injEq] at h1
  obtain ⟨rfl, rfl⟩ := h1
  have hco : ∀ r, co = some r → Parts.tagAt V1 r = some "office:document-content" := by
    rintro r rfl
    unfold Parts.contentInit at h2
    dsimp only at h2
    obtain ⟨V, t, h3, h4⟩ := bind_inv h2
    obtain ⟨rfl, h5⟩ := tagOf_inv h3
    by_cases ht : t = "office:document-content"
    · rw [← ht]; exact h5
    · rw [if_neg ht] at h4; simp [Py.raise] at h4
  have hm : co = none → mt ∈ MIMETYPE_NSMAP := by
    rintro rfl
    unfold Parts.contentInit at h2
    by_cases hm : mt ∈ MIMETYPE_NSMAP
    · exact hm
    · simp [if_neg hm, Py.raise] at h2
  obtain ⟨V2, c', g2, o2, x2, r2⟩ := Parts.C63_content x1.once hm hco
  rw [g2] at h2
  simp only [Prod.mk.injEq, Except.ok.injEq] at h2
  obtain ⟨rfl, rfl⟩ := h2
  have up : ∀ {V V' : World} {a}, Parts.Ext V V' a → ∀ x ∈ Lxml.roots V, x ∈ Lxml.roots V' := by
    intro V V' a e x hx
    obtain ⟨m, hm, _⟩ := e.free
    have hm : Lxml.roots V' = Lxml.roots V ++ m := hm
    rw [hm]; simp [hx]
  have hs1 : s'.root ∈ Lxml.roots V1 := by
    cases so with
    | none => exact o1.2.2
    | some g => rw [o1.2]; exact up x1 _ (hso' _ rfl)
  have hc2 : c'.root ∈ Lxml.roots V2 := by
    cases co with
    | none => exact o2.2.2
    | some g => rw [o2.2]; exact up x2 _ (up x1 _ (hco' _ rfl))
  cases ht : MIMETYPE_BODYTAG_MAP.get mt with
  | none => rw [ht] at h; simp [Py.raise] at h
  | some tag =>
    rw [ht] at h
    dsimp only at h
    obtain ⟨W3, b, h3, h⟩ := bind_inv h
    rw [Py.pure_def] at h
    simp only [Prod.mk.injEq, Except.ok.injEq] at h
    obtain ⟨rfl, rfl⟩ := h
    obtain ⟨r3, a, x3⟩ := body_inv x2.once r2.body.mem h3
    exact ⟨up x3 _ (up x2 _ hs1), up x3 _ hc2⟩

theorem readTree_roots {L : XLib} {W W' : World} {b : Option Package.Bytes} {o : Option Nat}
    (h : readTree L b W = (W', .ok o)) :
    (∀ r, o = some r → r ∈ Lxml.roots W') ∧ ∀ r ∈ Lxml.roots W, r ∈ Lxml.roots W' := by
  unfold readTree at h
  cases b with
  | none =>
    dsimp only at h
    rw [Py.pure_def] at h
    simp only [Prod.mk.injEq, Except.ok.injEq] at h
    obtain ⟨rfl, rfl⟩ := h
    exact ⟨by simp, fun r hr => hr⟩
  | some b =>
    dsimp only at h
    cases ht : L.xml (Parts.newId W) b with
    | none => rw [ht] at h; simp at h
    | some t =>
      rw [ht] at h
      simp only [Prod.mk.injEq, Except.ok.injEq] at h
      obtain ⟨rfl, rfl⟩ := h
      refine ⟨?_, fun r hr => by simp [hr]⟩
      rintro r hr
      cases hr
      simp

theorem bodytag_table : ∀ {mt : Str} {tag : String}, MIMETYPE_BODYTAG_MAP.get mt = some tag → tag ≠ "table:table" := by
  intro mt tag h e
  subst e
  have hm := Dict.get_mem h
  revert hm
  have : ∀ x ∈ MIMETYPE_BODYTAG_MAP, x.2 ≠ "table:table" := by decide +kernel
  exact fun hm => this _ hm rfl

/-- A document that has just been opened or made: the frame is in place. -/
theorem made_framed {L : XLib} (hl : L.Lawful) {fs : Package.FS} {k : Clock} {src : Package.Source} {fm : Package.FM}
    {mt : Option Str} {W : World} {s : Session} (hn : (ids W).Nodup) (ho : Package.open_ L.pkg fs src k.now = .ok fm)
    (h : packagedWhole L fs k fm mt W = .ok s) :
    ∃ tag, MIMETYPE_BODYTAG_MAP.get s.mimetype = some tag ∧ Framed s.world tag s.tree := by
  have hg := good_made hl hn ho h
  obtain ⟨tag, ht, hd⟩ := hg.refs
  obtain ⟨doc, so, co, W1, W2, W3, tree, hdoc, h1, h2, h3, rfl⟩ := packagedWhole_inv h
  have n1 := readTree_nodup hl hn h1
  have n2 := readTree_nodup hl n1 h2
  obtain ⟨a1, a2⟩ := readTree_roots h1
  obtain ⟨b1, b2⟩ := readTree_roots h2
  obtain ⟨c1, c2⟩ := tree_roots n2 h3 (fun r hr => b2 r (a1 r hr)) b1
  exact ⟨tag, ht, ⟨hg.once, bodytag_table ht, hd, c1, c2⟩⟩

theorem open_framed {L : XLib} (hl : L.Lawful) {fs : Package.FS} {k : Clock} {src : Package.Source}
    {W : World} {s : Session} (hn : (ids W).Nodup) (h : openWhole L fs k src W = .ok s) :
    ∃ tag, MIMETYPE_BODYTAG_MAP.get s.mimetype = some tag ∧ Framed s.world tag s.tree := by
  unfold openWhole at h
  split at h
  · cases h
  · rename_i fm ho
    split at h
    · cases h
    · exact made_framed hl hn ho h

/-- Without table objects only the stored sheets matter. -/
theorem ok_start {L : XLib} {s : Session} (h : Lives L s)
    (hf : ∃ tag, MIMETYPE_BODYTAG_MAP.get s.mimetype = some tag ∧ Framed s.world tag s.tree)
    (ht : ∀ t ∈ sheetsOf s, Legible t) : OK L ⟨s, []⟩ :=
  ⟨h, hf, by simp, by simp, by simp, fun t hm _ => ht t hm⟩

theorem OK.legible {L : XLib} {p : Prog} (h : OK L p) : ∀ t ∈ sheetsOf p.session, Legible t := by
  intro t ht
  by_cases ho : ∃ o ∈ p.tables, o.node = t.1.id
  · obtain ⟨o, hm, he⟩ := ho
    have := (h.sheet ht).1
    rw [← he] at this
    exact (h.sound o hm t this).legible
  · exact h.others t ht fun o hm he => ho ⟨o, hm, he⟩

end Verif.Program
