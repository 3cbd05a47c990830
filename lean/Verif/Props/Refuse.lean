import Verif.Props.DocTypes
import Verif.Props.Organizer
/-! # C72: what is no document is refused; C37: unknown tags -/
set_option linter.unusedSimpArgs false
namespace Verif.Document
open Verif Verif.Package

/-- The mimetype that a package states: that of the member, else that of the root entry of the manifest. -/
def States (d : DLib) (z : Zip) (kids : List Elem) (m : Str) : Prop :=
  (∃ b, z.read MIMETYPE = some b ∧ d.decode b = .ok m) ∨
  (z.read MIMETYPE = none ∧ ∃ e, kids.find? (fun e => e.get "manifest:full-path" = some ROOT) = some e ∧
    e.get "manifest:media-type" = some m)

/-- A part that is no XML file at all. -/
def Broken (d : DLib) (z : Zip) (name : Str) : Prop := ∃ b, z.read name = some b ∧ b ≠ [] ∧ d.root b = none

/-- A part whose root is another element. -/
def Foreign (d : DLib) (z : Zip) (name : Str) (tag : String) : Prop :=
  ∃ b t, z.read name = some b ∧ b ≠ [] ∧ d.root b = some t ∧ t ≠ tag

theorem states_detect {d : DLib} {fs : FS} {fm : FM} {z : Zip} {kids : List Elem} {m : Str}
    (ho : Opened fs fm z) (hk : fm.manifest.kids = kids) (hm : States d z kids m) :
    detect d fs fm = .ok (some m) := by
  unfold detect
  rw [getBytes_opened ho]
  rcases hm with ⟨b, hb, hm⟩ | ⟨hn, e, he, hm⟩
  · rw [hb]; simp only [hm]
  · rw [hn]
    simp only
    have : Manifest.find ROOT fm.manifest = some e := by rw [← he, ← hk]; rfl
    rw [this]
    simp only [hm]

theorem xmlPart_broken {d : DLib} {fs : FS} {fm : FM} {z : Zip} (ho : Opened fs fm z) {mt name : Str}
    {tag : String} {bad : Exc} {new : Except Exc Unit} (h : Broken d z name) :
    xmlPart d fs fm mt name tag bad new = .error .XMLSyntaxError := by
  obtain ⟨b, h1, h2, h3⟩ := h
  unfold xmlPart getXml
  rw [getBytes_opened ho, h1]
  simp only [h2, h3, if_false]

theorem xmlPart_foreign {d : DLib} {fs : FS} {fm : FM} {z : Zip} (ho : Opened fs fm z) {mt name : Str}
    {tag : String} {bad : Exc} {new : Except Exc Unit} (h : Foreign d z name tag) :
    xmlPart d fs fm mt name tag bad new = .error bad := by
  obtain ⟨b, t, h1, h2, h3, h4⟩ := h
  unfold xmlPart getXml
  rw [getBytes_opened ho, h1]
  simp only [h2, h3, h4, if_false]

/-- What the constructor raises for a package with a bad part or type; the parts before it are good. -/
theorem packaged_refuses {d : DLib} {fs : FS} {now : Nat} {fm : FM} {z : Zip} (ho : Opened fs fm z) (mt : Str) :
    (FILE_EXT_FOR_MIMETYPE.get mt = none → packaged d fs now fm (some mt) = .error .KeyError) ∧
    ((FILE_EXT_FOR_MIMETYPE.get mt).isSome →
      (Broken d z META → packaged d fs now fm (some mt) = .error .XMLSyntaxError) ∧
      (Foreign d z META "office:document-meta" → packaged d fs now fm (some mt) = .error .ValueError) ∧
      (Readable d z META "office:document-meta" →
        (Broken d z STYLES → packaged d fs now fm (some mt) = .error .XMLSyntaxError) ∧
        (Foreign d z STYLES "office:document-styles" → packaged d fs now fm (some mt) = .error .NameError) ∧
        (Readable d z STYLES "office:document-styles" →
          (Broken d z CONTENT → packaged d fs now fm (some mt) = .error .XMLSyntaxError) ∧
          (Foreign d z CONTENT "office:document-content" →
            packaged d fs now fm (some mt) = .error .ValueError) ∧
          (Readable d z CONTENT "office:document-content" → MIMETYPE_BODYTAG_MAP.get mt = none →
            packaged d fs now fm (some mt) = .error .KeyError)))) := by
  have ho' : ∀ n e t i (fm' : FM), Opened fs fm' z → Opened fs (register n e t i fm') z :=
    fun n e t i fm' h => opened_congr (fs := fs) (fm := fm') rfl (fun _ _ => rfl) h
  have ho0 : Opened fs ({ fm with manifest := Manifest.add ROOT mt none fm.manifest } : FM) z :=
    opened_congr (fs := fs) (fm := fm) rfl (fun _ _ => rfl) ho
  have ho1 := ho' MIMETYPE (.text mt) [] now _ ho0
  constructor
  · intro h; unfold packaged; simp only [h]
  intro hx
  obtain ⟨ext, hext⟩ := Option.isSome_iff_exists.1 hx
  refine ⟨fun h => ?_, fun h => ?_, fun g1 => ?_⟩
  · unfold packaged; simp only [hext, xmlPart_broken ho1 h]
  · unfold packaged; simp only [hext, xmlPart_foreign ho1 h]
  obtain ⟨m, hm, o1, rfl⟩ := xmlPart_ok (mt := mt) (bad := .ValueError) ho1 g1 rfl
  have ho2 := ho' META (.object (d.partBytes META mt o1)) XML now _ ho1
  refine ⟨fun h => ?_, fun h => ?_, fun g2 => ?_⟩
  · unfold packaged; simp only [hext, hm, xmlPart_broken ho2 h]
  · unfold packaged; simp only [hext, hm, xmlPart_foreign ho2 h]
  obtain ⟨s, hs, o2, rfl⟩ := xmlPart_ok (mt := mt) (bad := .NameError) ho2 g2 rfl
  have ho3 := ho' STYLES (.object (d.partBytes STYLES mt o2)) XML now _ ho2
  refine ⟨fun h => ?_, fun h => ?_, fun g3 hb => ?_⟩
  · unfold packaged; simp only [hext, hm, hs, xmlPart_broken ho3 h]
  · unfold packaged; simp only [hext, hm, hs, xmlPart_foreign ho3 h]
  · unfold packaged
    simp only [hext, hm, hs, hb]
    by_cases hns : mt ∈ MIMETYPE_NSMAP
    · obtain ⟨c, hc, o3, rfl⟩ := xmlPart_ok (mt := mt) (bad := .ValueError)
        (new := if mt ∈ MIMETYPE_NSMAP then .ok () else .error .KeyError) ho3 g3 (if_pos hns)
      simp only [hc]
    · rw [if_neg hns]
      unfold xmlPart getXml
      rw [getBytes_opened ho3]
      cases hr : z.read CONTENT with
      | none => rfl
      | some b =>
        simp only
        by_cases hb0 : b = []
        · rw [if_pos hb0]
        · rw [if_neg hb0, (g3 b hr).resolve_left hb0]
          simp only [if_true]

/-- **C72** a mimetype that is not in the table: KeyError (all packages, whatever else they contain). -/
theorem C72_unknown_mimetype (d : DLib) (fs : FS) (now : Nat) (src : Source) (z : Zip) (hz : Holds fs src z)
    (kids : List Elem) (hk : manifestOf d z = some kids) (m : Str) (hm : States d z kids m)
    (hu : ∀ t, MIMETYPES.get t ≠ some m) : opendoc d fs now src = .error .KeyError := by
  obtain ⟨fm, hfm, ho, hk2, hs⟩ := holds_open (d := d) hz now hk
  have hf : FILE_EXT_FOR_MIMETYPE.get m = none := by
    cases h : FILE_EXT_FOR_MIMETYPE.get m with
    | none => rfl
    | some t => exact absurd ((C49_tables t m).mpr h) (hu t)
  unfold opendoc
  simp only [hfm, states_detect ho hk2 hm, (packaged_refuses ho m).1 hf]

/-- **C72** a document type without a body (as `odf`): KeyError. -/
theorem C72_no_body (d : DLib) (fs : FS) (now : Nat) (src : Source) (z : Zip) (hz : Holds fs src z)
    (kids : List Elem) (hk : manifestOf d z = some kids) (m : Str) (hm : States d z kids m)
    (hb : MIMETYPE_BODYTAG_MAP.get m = none)
    (h1 : Readable d z META "office:document-meta") (h2 : Readable d z STYLES "office:document-styles")
    (h3 : Readable d z CONTENT "office:document-content") : opendoc d fs now src = .error .KeyError := by
  obtain ⟨fm, hfm, ho, hk2, hs⟩ := holds_open (d := d) hz now hk
  unfold opendoc
  simp only [hfm, states_detect ho hk2 hm]
  cases h : FILE_EXT_FOR_MIMETYPE.get m with
  | none => exact (packaged_refuses ho m).1 h
  | some t =>
    exact (((((packaged_refuses ho m).2 (by rw [h]; rfl)).2.2 h1).2.2 h2).2.2 h3 hb)

/-- **C72** (partial: not for a foreign root of styles.xml, see `C72_foreign_styles_refuted`): a part that is
no XML raises XMLSyntaxError, one with another root ValueError; the parts are looked at in this order. -/
theorem C72_bad_part_partial (d : DLib) (fs : FS) (now : Nat) (src : Source) (z : Zip) (hz : Holds fs src z)
    (kids : List Elem) (hk : manifestOf d z = some kids) (m : Str) (hm : States d z kids m)
    (hx : ∃ t, MIMETYPES.get t = some m) :
    (Broken d z META → opendoc d fs now src = .error .XMLSyntaxError) ∧
    (Foreign d z META "office:document-meta" → opendoc d fs now src = .error .ValueError) ∧
    (Readable d z META "office:document-meta" →
      (Broken d z STYLES → opendoc d fs now src = .error .XMLSyntaxError) ∧
      (Readable d z STYLES "office:document-styles" →
        (Broken d z CONTENT → opendoc d fs now src = .error .XMLSyntaxError) ∧
        (Foreign d z CONTENT "office:document-content" → opendoc d fs now src = .error .ValueError))) := by
  obtain ⟨fm, hfm, ho, hk2, hs⟩ := holds_open (d := d) hz now hk
  obtain ⟨t, ht⟩ := hx
  have h := (packaged_refuses (d := d) (now := now) ho m).2 (by rw [(C49_tables t m).mp ht]; rfl)
  have e : opendoc d fs now src = packaged d fs now fm (some m) := by
    unfold opendoc; simp only [hfm, states_detect ho hk2 hm]
  rw [e]
  exact ⟨h.1, h.2.1, fun g1 => ⟨(h.2.2 g1).1, fun g2 => ⟨((h.2.2 g1).2.2 g2).1, ((h.2.2 g1).2.2 g2).2.1⟩⟩⟩

/-- **C72** is false for a foreign root of styles.xml: the message of the ValueError uses an undefined name
(every package). -/
theorem C72_foreign_styles_refuted (d : DLib) (fs : FS) (now : Nat) (src : Source) (z : Zip)
    (hz : Holds fs src z) (kids : List Elem) (hk : manifestOf d z = some kids) (m : Str)
    (hm : States d z kids m) (hx : ∃ t, MIMETYPES.get t = some m)
    (h1 : Readable d z META "office:document-meta") (h2 : Foreign d z STYLES "office:document-styles") :
    opendoc d fs now src = .error .NameError := by
  obtain ⟨fm, hfm, ho, hk2, hs⟩ := holds_open (d := d) hz now hk
  obtain ⟨t, ht⟩ := hx
  have h := (packaged_refuses (d := d) (now := now) ho m).2 (by rw [(C49_tables t m).mp ht]; rfl)
  unfold opendoc
  simp only [hfm, states_detect ho hk2 hm]
  exact (h.2.2 h1).2.1 h2

/-- **C72** a manifest that is no XML: XMLSyntaxError. -/
theorem C72_bad_manifest (d : DLib) (fs : FS) (now : Nat) (src : Source) (z : Zip) (hz : Holds fs src z)
    (hk : manifestOf d z = none) : opendoc d fs now src = .error .XMLSyntaxError := by
  have hg : getBytes fs { dir := [], manifest := Manifest.new, source := src } MANIFEST = .ok (z.read MANIFEST) := by
    apply getBytes_opened
    unfold Holds at hz
    unfold Opened
    split at hz
    · exact .inl hz
    · exact hz
    · exact hz.elim
  have h : open_ d.pkg fs src now = .error .XMLSyntaxError := by
    unfold manifestOf at hk
    unfold open_
    simp only
    rw [show "META-INF/manifest.xml".toList = MANIFEST from rfl, hg]
    cases hr : z.read MANIFEST with
    | none => rw [hr] at hk; cases hk
    | some b =>
      rw [hr] at hk
      simp only at hk ⊢
      rw [hk]
  unfold opendoc
  rw [h]

/-- **C72** is false for files: one that does not exist, or is no zip file, is not reported as IOError; the
error is the KeyError of looking up the extension, for every name and content. -/
theorem C72_no_zip_refuted (d : DLib) (fs : FS) (now : Nat) (p : Path) (h : ∀ z, fs p ≠ some (.zip z)) :
    opendoc d fs now (.file (some p)) = .error .KeyError := by
  have hsrc : ∀ fm : FM, fm.source = .file (some p) → srcZip fs fm = .ok none := by
    intro fm hs
    unfold srcZip
    rw [hs]
    cases hp : fs p with
    | none => simp only [hp]
    | some c => cases c with
      | zip z => exact absurd hp (h z)
      | raw b => simp only [hp]
  have hget : ∀ (fm : FM) n, fm.source = .file (some p) → getBytes fs fm n = .ok none := by
    intro fm n hs
    unfold getBytes
    rw [hsrc fm hs]
  unfold opendoc open_
  simp only [hget { dir := [], manifest := Manifest.new, source := .file (some p) } _ rfl]
  unfold detect
  rw [hget _ _ rfl]
  simp only
  have hfind : Manifest.find ROOT (register "META-INF/manifest.xml".toList .manifest "text/xml".toList now
      { dir := [], manifest := Manifest.new, source := .file (some p) }).manifest = none := rfl
  rw [hfind]
  simp only [register, zipname, splitext_no]

/-- **C72** a stream with a package without mimetype member and root entry states no type; the
error is the TypeError of splitting the name that a stream does not have. -/
theorem C72_stream_no_type (d : DLib) (fs : FS) (now : Nat) (z : Zip) (hn : z.read MIMETYPE = none)
    (kids : List Elem) (hk : manifestOf d z = some kids)
    (hr : ∀ e ∈ kids, e.get "manifest:full-path" ≠ some ROOT) :
    opendoc d fs now (.stream (some (.zip z))) = .error .TypeError := by
  obtain ⟨fm, hfm, ho, hk2, hs⟩ := holds_open (d := d) (src := .stream (some (.zip z))) rfl now hk
  have hfind : Manifest.find ROOT fm.manifest = none := by
    unfold Manifest.find
    rw [hk2, List.find?_eq_none]
    intro e he hx
    unfold Manifest.hasPath at hx
    exact hr e he (of_decide_eq_true hx)
  have hzn : zipname fm = none := by unfold zipname; rw [hs]
  have hdet : detect d fs fm = .error .TypeError := by
    unfold detect
    rw [getBytes_opened ho, hn]
    simp only [hfind, hzn]
  unfold opendoc
  simp only [hfm, hdet]

/-- **C72** a stream that is no zip file: BadZipfile. -/
theorem C72_bad_stream (d : DLib) (fs : FS) (now : Nat) (b : Bytes) :
    opendoc d fs now (.stream (some (.raw b))) = .error .BadZip := rfl

/-- **C72** templates: no zip file (or no file) is an IOError, a stream without a zip file BadZipfile. -/
theorem C72_template_no_zip (d : DLib) (fs : FS) (now : Nat) (t : Str) (filename : Path) (b : Bytes) (p : Path) :
    newdoc d fs now t filename (some (.bytes (.raw b))) = .error .IOError ∧
    newdoc d fs now t filename (some (.stream (.raw b))) = .error .BadZip ∧
    ((∀ z, fs p ≠ some (.zip z)) → newdoc d fs now t filename (some (.path p)) = .error .IOError) := by
  refine ⟨rfl, rfl, fun h => ?_⟩
  unfold newdoc newFromTemplate templateManager
  cases hp : fs p with
  | none => simp only [hp]
  | some c => cases c with
    | zip z => exact absurd hp (h z)
    | raw b => simp only [hp]

/-- **C72** templates with a mimetype that no document type has: InvalidFiletypeError (a TypeError); without
mimetype member AttributeError. -/
theorem C72_template_mimetype (d : DLib) (fs : FS) (now : Nat) (t : Str) (filename : Path) (tm : Template) (z : Zip)
    (hz : Holds fs tm.source z) (kids : List Elem) (hk : manifestOf d z = some kids) :
    (z.read MIMETYPE = none → newdoc d fs now t filename (some tm) = .error .AttributeError) ∧
    (∀ b m k, z.read MIMETYPE = some b → d.decode b = .ok m →
      (m = k ++ "-template".toList ∨ (m = k ∧ ∀ j, m ≠ j ++ "-template".toList)) →
      (∀ u, MIMETYPES.get u ≠ some k) → newdoc d fs now t filename (some tm) = .error .TypeError) := by
  obtain ⟨fm, hfm, ho, -⟩ := holds_open (d := d) hz now hk
  have htm : templateManager d fs now tm = .ok fm := by
    cases tm with
    | stream c => exact hfm
    | bytes c => cases c with
      | zip z => exact hfm
      | raw b => cases hz
    | path p =>
      have : fs p = some (.zip z) := hz
      unfold templateManager
      simp only [this]
      exact hfm
  constructor
  · intro hn
    unfold newdoc newFromTemplate
    simp only [htm, getBytes_opened ho, hn]
  · intro b m k hb hd hmk hu
    have hst : stripTemplate m = k := by
      rcases hmk with rfl | ⟨rfl, hno⟩
      · exact strip_suffix k
      · exact strip_other m hno
    have hf : FILE_EXT_FOR_MIMETYPE.get k = none := by
      cases h : FILE_EXT_FOR_MIMETYPE.get k with
      | none => rfl
      | some u => exact absurd ((C49_tables u k).mpr h) (hu u)
    unfold newdoc newFromTemplate
    simp only [htm, getBytes_opened ho, hb, hd, hst, (packaged_refuses ho k).1 hf]

/-- **C72** `newdoc` of an unknown document type: KeyError. -/
theorem C72_unknown_doctype (d : DLib) (fs : FS) (now : Nat) (t : Str) (filename : Path)
    (h : MIMETYPES.get t = none) : newdoc d fs now t filename none = .error .KeyError := by
  unfold newdoc; simp only [h]

/-- Instances: a package with an unknown mimetype, and one with a foreign styles.xml. -/
example {d : DLib} (hd : d.Lawful) (kids : List Elem) (hp : d.pkg.parse (d.pkg.tostring kids) = some kids)
    (fs : FS) (now : Nat) :
    opendoc d fs now (.stream (some (.zip (pack (utf8 "text/plain".toList) (d.pkg.tostring kids))))) =
      .error .KeyError := by
  obtain ⟨r1, r2, _⟩ := pack_read (utf8 "text/plain".toList) (d.pkg.tostring kids)
  refine C72_unknown_mimetype d fs now _ _ rfl kids (by unfold manifestOf; rw [r2]; exact hp) "text/plain".toList
    (.inl ⟨_, r1, hd.decode_utf8 _⟩) ?_
  intro t ht
  have key : ∀ p ∈ MIMETYPES, p.2 ≠ "text/plain".toList := by decide +kernel
  exact key _ (Dict.get_mem ht) rfl

example : ∃ (d : DLib) (z : Zip), d.Lawful ∧ Foreign d z STYLES "office:document-styles" ∧
    Readable d z META "office:document-meta" ∧ Broken d z CONTENT := by
  obtain ⟨d, hd, hroot, -, -⟩ := lawful_exists (fun b => if b = [1] then some "x" else none) (fun _ _ _ => .ok [])
  refine ⟨d, [{ name := STYLES, stored := true, info := 0, extra := [], data := [1] },
    { name := CONTENT, stored := true, info := 0, extra := [], data := [2] }], hd,
    ⟨[1], "x", by decide +kernel, by decide, ?_, by decide⟩, ?_, ⟨[2], by decide +kernel, by decide, ?_⟩⟩
  · rw [hroot]; rfl
  · intro b hb
    exact absurd hb (by
      have : Zip.read [{ name := STYLES, stored := true, info := 0, extra := [], data := [1] },
        { name := CONTENT, stored := true, info := 0, extra := [], data := [2] }] META = none := by decide +kernel
      rw [this]; simp)
  · rw [hroot]; rfl

end Verif.Document

namespace Verif.Org
open Verif Verif.Block
variable {α τ : Type} [DecidableEq τ] (tag : α → τ)

/-- **C37** a tag that is not in the list of the block raises ValueError everywhere. -/
theorem C37_unknown_tag (tags : List τ) (l : List α) {t : τ} (ht : t ∉ tags) :
    tagInfo tag tags l t = .error .ValueError ∧ insertPositionBefore tag tags l t = .error .ValueError ∧
    insertPositionAfter tag tags l (some t) = .error .ValueError ∧
    epilogueTagInfo tag tags l t = .error .ValueError ∧
    epilogueInsertPositionBefore tag tags l (some t) = .error .ValueError ∧
    epilogueInsertPositionAfter tag tags l t = .error .ValueError := by
  have hr : t ∉ tags.reverse := by simpa using ht
  refine ⟨?_, ?_, ?_, ?_, ?_, ?_⟩
  · unfold tagInfo; rw [if_pos ht]
  · unfold insertPositionBefore; rw [if_pos ht]
  · unfold insertPositionAfter; simp only; rw [if_pos ht]
  · unfold epilogueTagInfo tagInfo; rw [if_pos hr]
  · unfold epilogueInsertPositionBefore; simp only; rw [if_pos hr]
  · unfold epilogueInsertPositionAfter; rw [if_pos hr]

/-- **C34** blocks are made exactly for tag lists that are not empty and have no repetition; others raise
ValueError. -/
theorem C34_tags (tags : List τ) :
    (checkTags tags = .ok () ↔ tags ≠ [] ∧ tags.Nodup) ∧
    (¬ (tags ≠ [] ∧ tags.Nodup) → checkTags tags = .error .ValueError) := by
  unfold checkTags
  cases tags with
  | nil => simp
  | cons a l =>
    by_cases h : (a :: l).Nodup <;> simp [h]

example : (3 : Nat) ∉ [1, 2] := by decide

end Verif.Org
