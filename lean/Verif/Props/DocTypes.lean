import Verif.Props.DocumentLib
/-! # C49: document types and mimetypes -/
namespace Verif.Document
open Verif Verif.Package Verif.Manifest
set_option linter.unusedSimpArgs false

/-! ## Tables -/

theorem mimetypes_nodup : MIMETYPES.keys.Nodup ∧ (MIMETYPES.map fun p => p.2).Nodup := by decide +kernel

/-- C49: document type and mimetype determine each other. -/
theorem C49_tables (t m : Str) : MIMETYPES.get t = some m ↔ FILE_EXT_FOR_MIMETYPE.get m = some t := by
  have h2 : ((MIMETYPES.map fun p => (p.2, p.1)).map Prod.fst).Nodup := by
    rw [List.map_map]; exact mimetypes_nodup.2
  have h3 := Dict.mem_get_nodup (l := MIMETYPES.map fun p => (p.2, p.1)) h2 (k := m) (v := t)
  unfold FILE_EXT_FOR_MIMETYPE
  rw [h3]
  constructor
  · intro h; exact List.mem_map.2 ⟨_, Dict.get_mem h, rfl⟩
  · intro h
    obtain ⟨⟨t', m'⟩, h4, h5⟩ := List.mem_map.1 h
    simp only [Prod.mk.injEq] at h5
    obtain ⟨rfl, rfl⟩ := h5
    exact Dict.mem_get mimetypes_nodup.1 h4

/-- The types for which documents can be made. -/
def creatable : List Str :=
  ["odt".toList, "ott".toList, "odg".toList, "otg".toList, "odp".toList, "otp".toList, "ods".toList,
   "ots".toList, "odc".toList, "odi".toList]

theorem bodytag_iff (t m : Str) (h : MIMETYPES.get t = some m) :
    (MIMETYPE_BODYTAG_MAP.get m).isSome ↔ t ∈ creatable := by
  have key : ∀ p ∈ MIMETYPES, (MIMETYPE_BODYTAG_MAP.get p.2).isSome = decide (p.1 ∈ creatable) := by decide +kernel
  have := key (t, m) (Dict.get_mem h)
  simp only at this
  rw [this]; simp

theorem bodytag_nsmap (m : Str) (h : (MIMETYPE_BODYTAG_MAP.get m).isSome) :
    m ∈ MIMETYPE_NSMAP ∧ (FILE_EXT_FOR_MIMETYPE.get m).isSome := by
  have key : ∀ k ∈ MIMETYPE_BODYTAG_MAP.keys, k ∈ MIMETYPE_NSMAP ∧ (FILE_EXT_FOR_MIMETYPE.get k).isSome := by
    decide +kernel
  exact key m (Dict.get_isSome.1 h)

/-! ## The constructor -/

/-- The package in a source. -/
def Holds (fs : FS) (src : Source) (z : Zip) : Prop :=
  match src with
  | .file (some p) => fs p = some (.zip z)
  | .stream (some c) => c = .zip z
  | _ => False

/-- A part that the constructors accept: missing, empty, or with the right root. -/
def Readable (d : DLib) (z : Zip) (name : Str) (tag : String) : Prop :=
  ∀ b, z.read name = some b → b = [] ∨ d.root b = some tag

/-- The manifest entries of a package. -/
def manifestOf (d : DLib) (z : Zip) : Option (List Elem) :=
  match z.read MANIFEST with
  | none => some []
  | some b => d.pkg.parse b

theorem getBytes_opened {fs : FS} {fm : FM} {z : Zip} (h : Opened fs fm z) (n : Str) :
    getBytes fs fm n = .ok (z.read n) := by
  unfold Opened at h
  unfold getBytes srcZip
  cases hs : fm.source with
  | file p =>
    rw [hs] at h
    cases p with
    | none => simp only at h; subst h; rfl
    | some p =>
      simp only at h ⊢
      rcases h with h | ⟨h, rfl⟩
      · rw [h]
      · cases hf : fs p with
        | none => rfl
        | some c => cases c with
          | zip z => exact absurd hf (h z)
          | raw b => rfl
  | stream c =>
    rw [hs] at h
    cases c with
    | none => simp only at h; subst h; rfl
    | some c => simp only at h; subst h; rfl

theorem xmlPart_ok {d : DLib} {fs : FS} {fm : FM} {z : Zip} (ho : Opened fs fm z) {mt name : Str} {tag : String}
    {bad : Exc} {new : Except Exc Unit} (hr : Readable d z name tag) (hn : new = .ok ()) :
    ∃ e, xmlPart d fs fm mt name tag bad new = .ok e ∧ ∃ o, e = .object (d.partBytes name mt o) := by
  unfold xmlPart getXml
  rw [getBytes_opened ho, hn]
  cases h : z.read name with
  | none => exact ⟨_, rfl, _, rfl⟩
  | some b =>
    simp only
    by_cases hb : b = []
    · rw [if_pos hb]; exact ⟨_, rfl, _, rfl⟩
    · rw [if_neg hb, (hr b h).resolve_left hb]
      simp only
      rw [if_pos trivial]; exact ⟨_, rfl, _, rfl⟩

theorem packaged_succ {d : DLib} {fs : FS} {now : Nat} {fm : FM} {z : Zip} (ho : Opened fs fm z) {mt : Str}
    (hb : (MIMETYPE_BODYTAG_MAP.get mt).isSome)
    (h1 : Readable d z META "office:document-meta") (h2 : Readable d z STYLES "office:document-styles")
    (h3 : Readable d z CONTENT "office:document-content") :
    ∃ doc o1 o2 o3, packaged d fs now fm (some mt) = .ok doc ∧ doc.mimetype = mt ∧
      doc.docname = zipname fm ∧
      doc.fm = filled now mt (.object (d.partBytes META mt o1)) (.object (d.partBytes STYLES mt o2))
        (.object (d.partBytes CONTENT mt o3)) fm := by
  obtain ⟨hns, hext⟩ := bodytag_nsmap mt hb
  obtain ⟨ext, hext⟩ := Option.isSome_iff_exists.1 hext
  obtain ⟨tag, hb⟩ := Option.isSome_iff_exists.1 hb
  have ho' : ∀ n e t i (fm' : FM), Opened fs fm' z → Opened fs (register n e t i fm') z :=
    fun n e t i fm' h => opened_congr (fs := fs) (fm := fm') rfl (fun _ _ => rfl) h
  have ho0 : Opened fs ({ fm with manifest := Manifest.add ROOT mt none fm.manifest } : FM) z :=
    opened_congr (fs := fs) (fm := fm) rfl (fun _ _ => rfl) ho
  unfold packaged
  simp only [hext]
  obtain ⟨m, hm, o1, rfl⟩ := xmlPart_ok (mt := mt) (bad := .ValueError) (ho' MIMETYPE (.text mt) [] now _ ho0) h1 rfl
  simp only [hm]
  obtain ⟨s, hs, o2, rfl⟩ := xmlPart_ok (mt := mt) (bad := .NameError)
    (ho' META (.object (d.partBytes META mt o1)) XML now _ (ho' MIMETYPE (.text mt) [] now _ ho0)) h2 rfl
  simp only [hs]
  obtain ⟨c, hc, o3, rfl⟩ := xmlPart_ok (mt := mt) (bad := .ValueError)
    (new := if mt ∈ MIMETYPE_NSMAP then .ok () else .error .KeyError)
    (ho' STYLES (.object (d.partBytes STYLES mt o2)) XML now _
      (ho' META (.object (d.partBytes META mt o1)) XML now _ (ho' MIMETYPE (.text mt) [] now _ ho0))) h3 (if_pos hns)
  simp only [hc, hb]
  exact ⟨_, o1, o2, o3, rfl, rfl, rfl, rfl⟩

/-! ## New documents -/

theorem new_open (lib : Lib) (fs : FS) (now : Nat) :
    ∃ fm, open_ lib fs (.file none) now = .ok fm ∧ Opened fs fm [] ∧ fm.manifest = Manifest.new := ⟨_, rfl, rfl, rfl⟩

/-- C49: a new document has the type asked for, its mimetype and the file name. -/
theorem C49_new (d : DLib) (fs : FS) (now : Nat) (t : Str) (filename : Path) (doc : Doc)
    (h : newdoc d fs now t filename none = .ok doc) :
    doc.doctype = t ∧ MIMETYPES.get t = some doc.mimetype ∧ doc.docname = some filename ∧
    doc.fm.dir.get MIMETYPE = some { element := .text doc.mimetype, mediaType := [], stored := false, info := now } := by
  unfold newdoc at h
  simp only at h
  split at h
  · cases h
  · rename_i mt hmt
    split at h
    · cases h
    · rename_i fm hfm
      split at h
      · cases h
      · rename_i doc0 hd
        cases h
        obtain ⟨h1, h2, -, m, s, c, h3⟩ := packaged_ok hd
        cases h1
        have h4 := (C49_tables _ _).1 hmt
        rw [h4] at h2
        cases h2
        refine ⟨rfl, hmt, rfl, ?_⟩
        simp only
        rw [h3]
        obtain ⟨-, -, -, k1, k2, k3⟩ := ne_parts
        show ((((fm.dir.set MIMETYPE _).set META _).set STYLES _).set CONTENT _).get MIMETYPE = _
        simp only [Dict.get_set, k1, k2, k3, if_false, if_true]

/-- C49: exactly these types can be created. -/
theorem C49_creatable (d : DLib) (fs : FS) (now : Nat) (t : Str) (filename : Path) :
    (∃ doc, newdoc d fs now t filename none = .ok doc) ↔ t ∈ creatable := by
  constructor
  · rintro ⟨doc, h⟩
    obtain ⟨-, h2, -⟩ := C49_new d fs now t filename doc h
    rw [← bodytag_iff t _ h2]
    unfold newdoc at h
    simp only [h2] at h
    split at h
    · cases h
    · split at h
      · cases h
      · rename_i doc0 hd
        cases h
        exact (packaged_ok hd).2.2.1
  · intro h
    have key : ∀ t ∈ creatable, (MIMETYPES.get t).isSome := by decide +kernel
    obtain ⟨m, hm⟩ := Option.isSome_iff_exists.1 (key t h)
    obtain ⟨fm, hfm, ho, -⟩ := new_open d.pkg fs now
    obtain ⟨doc, _, _, _, hd, -⟩ := packaged_succ (d := d) (now := now) ho ((bodytag_iff t m hm).2 h)
      (fun b hb => by cases hb) (fun b hb => by cases hb) (fun b hb => by cases hb)
    unfold newdoc
    simp only [hm, hfm, hd]
    exact ⟨_, rfl⟩

/-- C49 does not hold for six of the documented types: they cannot be created. -/
theorem C49_create_refuted (d : DLib) (fs : FS) (now : Nat) (t : Str) (filename : Path)
    (ht : t ∈ ["odf".toList, "otf".toList, "odm".toList, "oth".toList, "otc".toList, "oti".toList]) :
    (MIMETYPES.get t).isSome ∧ newdoc d fs now t filename none = .error .KeyError := by
  have key : ∀ t ∈ ["odf".toList, "otf".toList, "odm".toList, "oth".toList, "otc".toList, "oti".toList],
      ∃ m ∈ (MIMETYPES.get t), MIMETYPE_BODYTAG_MAP.get m = none ∧ (FILE_EXT_FOR_MIMETYPE.get m).isSome := by
    decide +kernel
  obtain ⟨m, hm, hb, hx⟩ := key t ht
  have hm : MIMETYPES.get t = some m := hm
  refine ⟨by rw [hm]; rfl, ?_⟩
  obtain ⟨fm, hfm, ho, -⟩ := new_open d.pkg fs now
  obtain ⟨ext, hext⟩ := Option.isSome_iff_exists.1 hx
  have hd : packaged d fs now fm (some m) = .error .KeyError := by
    have ho' : ∀ n e t i (fm' : FM), Opened fs fm' [] → Opened fs (register n e t i fm') [] :=
      fun n e t i fm' h => opened_congr (fs := fs) (fm := fm') rfl (fun _ _ => rfl) h
    have ho0 : Opened fs ({ fm with manifest := Manifest.add ROOT m none fm.manifest } : FM) [] :=
      opened_congr (fs := fs) (fm := fm) rfl (fun _ _ => rfl) ho
    have hx : ∀ (fm' : FM) name tag bad new, Opened fs fm' [] → xmlPart d fs fm' m name tag bad new =
        match new with
        | .error e => .error e
        | .ok _ => .ok (.object (d.partBytes name m none)) := by
      intro fm' name tag bad new h
      unfold xmlPart getXml
      rw [getBytes_opened h]; rfl
    unfold packaged
    simp only [hext]
    rw [hx _ _ _ _ _ (ho' _ _ _ _ _ ho0)]
    simp only
    rw [hx _ _ _ _ _ (ho' _ _ _ _ _ (ho' _ _ _ _ _ ho0))]
    simp only
    rw [hx _ _ _ _ _ (ho' _ _ _ _ _ (ho' _ _ _ _ _ (ho' _ _ _ _ _ ho0)))]
    by_cases hns : m ∈ MIMETYPE_NSMAP
    · rw [if_pos hns]; simp only [hb]
    · rw [if_neg hns]
  unfold newdoc
  simp only [hm, hfm, hd]

/-! ## Opened documents -/

/-- No file extension is a key of `MIMETYPES`, because it starts with a dot. -/
theorem splitext_no (p : Path) : MIMETYPES.get (splitext p) = none := by
  have h0 : MIMETYPES.get [] = none := by decide +kernel
  have h1 : ∀ s, MIMETYPES.get ('.' :: s) = none := by
    intro s
    cases h : MIMETYPES.get ('.' :: s) with
    | none => rfl
    | some m =>
      have key : ∀ p ∈ MIMETYPES, p.1.head? ≠ some '.' := by decide +kernel
      exact absurd rfl (key _ (Dict.get_mem h))
  unfold splitext
  simp only
  split
  · exact h1 _
  · exact h0

theorem holds_open {d : DLib} {fs : FS} {src : Source} {z : Zip} (hz : Holds fs src z) (now : Nat)
    {kids : List Elem} (hk : manifestOf d z = some kids) :
    ∃ fm, open_ d.pkg fs src now = .ok fm ∧ Opened fs fm z ∧ fm.manifest.kids = kids ∧ fm.source = src := by
  have hg : getBytes fs { dir := [], manifest := Manifest.new, source := src } MANIFEST = .ok (z.read MANIFEST) := by
    apply getBytes_opened
    unfold Holds at hz
    unfold Opened
    split at hz
    · exact .inl hz
    · exact hz
    · exact hz.elim
  have ho : ∀ fm : FM, fm.source = src → Opened fs fm z := by
    intro fm hs
    unfold Holds at hz
    unfold Opened
    rw [hs]
    split at hz
    · exact .inl hz
    · exact hz
    · exact hz.elim
  unfold manifestOf at hk
  unfold open_
  simp only
  rw [show "META-INF/manifest.xml".toList = MANIFEST from rfl, hg]
  cases hr : z.read MANIFEST with
  | none =>
    rw [hr] at hk
    simp only [Option.some.injEq] at hk
    subst hk
    exact ⟨_, rfl, ho _ rfl, rfl, rfl⟩
  | some b =>
    rw [hr] at hk
    simp only at hk
    simp only [hk]
    exact ⟨_, rfl, ho _ rfl, rfl, rfl⟩

theorem open_holds {d : DLib} {fs : FS} {src : Source} {z : Zip} (hz : Holds fs src z) {now : Nat} {fm : FM}
    (h : open_ d.pkg fs src now = .ok fm) :
    ∃ kids, manifestOf d z = some kids ∧ Opened fs fm z ∧ fm.manifest.kids = kids ∧ fm.source = src := by
  cases hk : manifestOf d z with
  | some kids =>
    obtain ⟨fm', h1, h2⟩ := holds_open (d := d) hz now hk
    rw [h] at h1; cases h1
    exact ⟨kids, rfl, h2⟩
  | none =>
    exfalso
    have hg : getBytes fs { dir := [], manifest := Manifest.new, source := src } MANIFEST = .ok (z.read MANIFEST) := by
      apply getBytes_opened
      unfold Holds at hz
      unfold Opened
      split at hz
      · exact .inl hz
      · exact hz
      · exact hz.elim
    unfold manifestOf at hk
    unfold open_ at h
    simp only at h
    rw [show "META-INF/manifest.xml".toList = MANIFEST from rfl, hg] at h
    cases hr : z.read MANIFEST with
    | none => rw [hr] at hk; cases hk
    | some b =>
      rw [hr] at hk h
      simp only at hk h
      rw [hk] at h
      cases h

/-- C49: the mimetype of an opened document is that of the mimetype member, else that of the root
entry of the manifest; the type belongs to it. -/
theorem C49_open (d : DLib) (fs : FS) (now : Nat) (src : Source) (z : Zip) (hz : Holds fs src z) (doc : Doc)
    (h : opendoc d fs now src = .ok doc) :
    (∀ b, z.read MIMETYPE = some b → d.decode b = .ok doc.mimetype) ∧
    (z.read MIMETYPE = none → ∃ kids e, manifestOf d z = some kids ∧
      kids.find? (fun e => e.get "manifest:full-path" = some ROOT) = some e ∧
      e.get "manifest:media-type" = some doc.mimetype) ∧
    MIMETYPES.get doc.doctype = some doc.mimetype := by
  unfold opendoc at h
  split at h
  · cases h
  · rename_i fm hfm
    obtain ⟨kids, hk, ho, hk2, hs⟩ := open_holds hz hfm
    split at h
    · cases h
    · rename_i mt hdet
      obtain ⟨h1, h2, -⟩ := packaged_ok h
      subst h1
      unfold detect at hdet
      rw [getBytes_opened ho] at hdet
      refine ⟨?_, ?_, (C49_tables _ _).2 h2⟩
      · intro b hb
        rw [hb] at hdet
        simp only at hdet
        split at hdet
        · cases hdet
        · rename_i m hm
          cases hdet
          exact hm
      · intro hn
        rw [hn] at hdet
        simp only at hdet
        split at hdet
        · rename_i e he
          have hdet := Except.ok.inj hdet
          refine ⟨kids, e, hk, ?_, hdet⟩
          rw [← hk2]
          exact he
        · split at hdet
          · cases hdet
          · rw [splitext_no] at hdet; cases hdet

/-- C49: what is needed to open a package. -/
theorem C49_opens (d : DLib) (fs : FS) (now : Nat) (src : Source) (z : Zip) (hz : Holds fs src z)
    (kids : List Elem) (hk : manifestOf d z = some kids) (m : Str)
    (hm : (∃ b, z.read MIMETYPE = some b ∧ d.decode b = .ok m) ∨
      (z.read MIMETYPE = none ∧ ∃ e, kids.find? (fun e => e.get "manifest:full-path" = some ROOT) = some e ∧
        e.get "manifest:media-type" = some m))
    (hb : (MIMETYPE_BODYTAG_MAP.get m).isSome)
    (h1 : Readable d z META "office:document-meta") (h2 : Readable d z STYLES "office:document-styles")
    (h3 : Readable d z CONTENT "office:document-content") :
    ∃ doc, opendoc d fs now src = .ok doc ∧ doc.mimetype = m := by
  obtain ⟨fm, hfm, ho, hk2, hs⟩ := holds_open (d := d) hz now hk
  obtain ⟨doc, _, _, _, hd, hmt, -⟩ := packaged_succ (d := d) (now := now) ho hb h1 h2 h3
  have hdet : detect d fs fm = .ok (some m) := by
    unfold detect
    rw [getBytes_opened ho]
    rcases hm with ⟨b, hb, hm⟩ | ⟨hn, e, he, hm⟩
    · rw [hb]; simp only [hm]
    · rw [hn]
      simp only
      have : Manifest.find ROOT fm.manifest = some e := by rw [← he, ← hk2]; rfl
      rw [this]
      simp only [hm]
  unfold opendoc
  simp only [hfm, hdet]
  exact ⟨doc, hd, hmt⟩

/-- C49 does not hold for the file extension: it is never used. -/
theorem C49_extension_refuted (d : DLib) (fs : FS) (now : Nat) (p : Path) (z : Zip)
    (hz : fs p = some (.zip z)) (hn : z.read MIMETYPE = none) (kids : List Elem)
    (hk : manifestOf d z = some kids)
    (hr : ∀ e ∈ kids, e.get "manifest:full-path" ≠ some ROOT) :
    opendoc d fs now (.file (some p)) = .error .KeyError := by
  obtain ⟨fm, hfm, ho, hk2, hs⟩ := holds_open (d := d) (src := .file (some p)) hz now hk
  have hfind : Manifest.find ROOT fm.manifest = none := by
    unfold Manifest.find
    rw [hk2, List.find?_eq_none]
    intro e he hx
    unfold hasPath at hx
    exact hr e he (of_decide_eq_true hx)
  have hzn : zipname fm = some p := by unfold zipname; rw [hs]
  have hdet : detect d fs fm = .error .KeyError := by
    unfold detect
    rw [getBytes_opened ho, hn]
    simp only [hfind, hzn, splitext_no]
  unfold opendoc
  simp only [hfm, hdet]

/-! ## Templates -/

/-- The source of a template. -/
def Template.source : Template → Source
  | .stream c => .stream (some c)
  | .bytes c => .stream (some c)
  | .path p => .file (some p)

theorem strip_suffix (k : Str) : stripTemplate (k ++ "-template".toList) = k := by
  unfold stripTemplate
  rw [if_pos (by rw [List.isSuffixOf_iff_suffix]; exact List.suffix_append _ _), List.length_append]
  have : ("-template".toList).length = 9 := by decide
  rw [this, Nat.add_sub_cancel]
  exact List.take_left' rfl

theorem strip_other (m : Str) (h : ∀ k, m ≠ k ++ "-template".toList) : stripTemplate m = m := by
  unfold stripTemplate
  rw [if_neg]
  intro hs
  rw [List.isSuffixOf_iff_suffix] at hs
  obtain ⟨k, hk⟩ := hs
  exact h k hk.symm

/-- C49: a document from a template has the type of the template without the suffix, and the file name. -/
theorem C49_template (d : DLib) (fs : FS) (now : Nat) (t : Str) (filename : Path) (tm : Template) (z : Zip)
    (hz : Holds fs tm.source z) (doc : Doc) (h : newdoc d fs now t filename (some tm) = .ok doc) :
    ∃ b m, z.read MIMETYPE = some b ∧ d.decode b = .ok m ∧
      (∀ k, m = k ++ "-template".toList → doc.mimetype = k) ∧
      ((∀ k, m ≠ k ++ "-template".toList) → doc.mimetype = m) ∧
      MIMETYPES.get doc.doctype = some doc.mimetype ∧ doc.docname = some filename := by
  unfold newdoc newFromTemplate at h
  simp only at h
  split at h
  · cases h
  · rename_i fm hfm
    have hop : open_ d.pkg fs tm.source now = .ok fm := by
      cases tm with
      | stream c => exact hfm
      | bytes c => cases c with
        | zip z => exact hfm
        | raw b => cases hfm
      | path p =>
        unfold templateManager at hfm
        simp only at hfm
        split at hfm
        · exact hfm
        · cases hfm
    obtain ⟨kids, -, ho, -⟩ := open_holds hz hop
    rw [getBytes_opened ho] at h
    cases hr : z.read MIMETYPE with
    | none => rw [hr] at h; cases h
    | some b =>
      rw [hr] at h
      simp only at h
      split at h
      · cases h
      · rename_i m hm
        split at h
        · cases h
        · cases h
        · rename_i doc0 hd
          cases h
          obtain ⟨h1, h2, -⟩ := packaged_ok hd
          simp only [Option.some.injEq] at h1
          refine ⟨b, m, rfl, hm, ?_, ?_, (C49_tables _ _).2 h2, rfl⟩
          · rintro k rfl
            simp only
            rw [← h1, strip_suffix]
          · intro hno
            simp only
            rw [← h1, strip_other m hno]

/-- C49: templates of all types that can be created are accepted. -/
theorem C49_template_opens (d : DLib) (fs : FS) (now : Nat) (t : Str) (filename : Path) (tm : Template) (z : Zip)
    (hz : Holds fs tm.source z) (kids : List Elem) (hk : manifestOf d z = some kids) (b : Bytes) (m : Str)
    (hm : z.read MIMETYPE = some b) (hd : d.decode b = .ok m) (hb : (MIMETYPE_BODYTAG_MAP.get m).isSome)
    (h1 : Readable d z META "office:document-meta") (h2 : Readable d z STYLES "office:document-styles")
    (h3 : Readable d z CONTENT "office:document-content") :
    ∃ doc, newdoc d fs now t filename (some tm) = .ok doc := by
  obtain ⟨fm, hfm, ho, -⟩ := holds_open (d := d) hz now hk
  have htm : templateManager d fs now tm = .ok fm := by
    cases tm with
    | stream c => exact hfm
    | bytes c => cases c with
      | zip z => exact hfm
      | raw b => cases hz
    | path p =>
      have : fs p = some (.zip z) := hz
      unfold templateManager
      simp only [this]
      exact hfm
  have hb' : (MIMETYPE_BODYTAG_MAP.get (stripTemplate m)).isSome := by
    have key : ∀ k ∈ MIMETYPE_BODYTAG_MAP.keys, (MIMETYPE_BODYTAG_MAP.get (stripTemplate k)).isSome := by decide +kernel
    exact key m (Dict.get_isSome.1 hb)
  obtain ⟨doc, _, _, _, hdoc, -⟩ := packaged_succ (d := d) (now := now) ho hb' h1 h2 h3
  unfold newdoc newFromTemplate
  simp only [htm, getBytes_opened ho, hm, hd, hdoc]
  exact ⟨_, rfl⟩

/-! ## Examples, and a package for which C60 fails -/

def entry (path type : Str) : Elem :=
  { id := 0, tag := "manifest:file-entry",
    attrs := [("manifest:full-path", path), ("manifest:media-type", type)] }

def ODT : Str := "application/vnd.oasis.opendocument.text".toList
def ODS : Str := "application/vnd.oasis.opendocument.spreadsheet".toList

/-- A package with mimetype and a manifest. -/
def pack (mime manifest : Bytes) : Zip :=
  [{ name := MIMETYPE, stored := true, info := 0, extra := [], data := mime },
   { name := MANIFEST, stored := false, info := 0, extra := [], data := manifest }]

theorem pack_read (a b : Bytes) : (pack a b).read MIMETYPE = some a ∧ (pack a b).read MANIFEST = some b ∧
    (pack a b).read META = none ∧ (pack a b).read STYLES = none ∧ (pack a b).read CONTENT = none := by
  have h : MANIFEST ≠ MIMETYPE ∧ MIMETYPE ≠ META ∧ MIMETYPE ≠ STYLES ∧ MIMETYPE ≠ CONTENT ∧
      MANIFEST ≠ META ∧ MANIFEST ≠ STYLES ∧ MANIFEST ≠ CONTENT := by decide +kernel
  obtain ⟨h1, h2, h3, h4, h5, h6, h7⟩ := h
  unfold Zip.read pack
  simp [h1, h2, h3, h4, h5, h6, h7]

/-- Opening such a package. -/
theorem pack_open {d : DLib} (hd : d.Lawful) (kids : List Elem)
    (hp : d.pkg.parse (d.pkg.tostring kids) = some kids) (fs : FS) (now : Nat) :
    ∃ doc fm, opendoc d fs now (.stream (some (.zip (pack (utf8 ODT) (d.pkg.tostring kids))))) = .ok doc ∧
      doc.mimetype = ODT ∧
      open_ d.pkg fs (.stream (some (.zip (pack (utf8 ODT) (d.pkg.tostring kids))))) now = .ok fm ∧
      fm.manifest.kids = kids ∧ Made d fs now fm.manifest doc := by
  obtain ⟨r1, r2, r3, r4, r5⟩ := pack_read (utf8 ODT) (d.pkg.tostring kids)
  have hk : manifestOf d (pack (utf8 ODT) (d.pkg.tostring kids)) = some kids := by
    unfold manifestOf; rw [r2]; exact hp
  have hz : Holds fs (.stream (some (.zip (pack (utf8 ODT) (d.pkg.tostring kids)))))
    (pack (utf8 ODT) (d.pkg.tostring kids)) := rfl
  obtain ⟨doc, hdoc, hm⟩ := C49_opens d fs now _ _ hz kids hk ODT (.inl ⟨_, r1, hd.decode_utf8 _⟩)
    (by decide +kernel) (fun b hb => by rw [r3] at hb; cases hb) (fun b hb => by rw [r4] at hb; cases hb)
    (fun b hb => by rw [r5] at hb; cases hb)
  obtain ⟨fm, h1, h2⟩ := made_open hdoc
  obtain ⟨kids', h3, -, h4, -⟩ := open_holds hz h1
  rw [hk] at h3
  cases h3
  exact ⟨doc, fm, hdoc, hm, h1, h4, h2⟩

/-- Documents can be written if their parts can. -/
theorem made_writes {d : DLib} (hp : ∀ n m o, ∃ b, d.partBytes n m o = .ok b) {fs : FS} {now : Nat} {m0 : Manifest.M}
    {doc : Doc} (hm : Made d fs now m0 doc) (hpl : Plain m0) {z : Zip} (hz : ∃ fm, Opened fs fm z ∧ fm.source = doc.fm.source)
    (he : ∃ o1 o2 o3 fm, fm.dir = [(MANIFEST, { element := .manifest, mediaType := XML, stored := false, info := now })] ∧
      doc.fm = filled now doc.mimetype (.object (d.partBytes META doc.mimetype o1))
        (.object (d.partBytes STYLES doc.mimetype o2)) (.object (d.partBytes CONTENT doc.mimetype o3)) fm) :
    ∃ z', (tobytes d.pkg (fun _ => none) fs doc.fm).2 = .ok z' := by
  obtain ⟨h1, -, -, orig, ho⟩ := made_ready hm hpl
  obtain ⟨o1, o2, o3, fm, hdir, hf⟩ := he
  have hd : doc.fm.dir = ((((fm.dir.set MIMETYPE
      { element := .text doc.mimetype, mediaType := [], stored := false, info := now }).set META
      { element := .object (d.partBytes META doc.mimetype o1), mediaType := XML, stored := false, info := now }).set STYLES
      { element := .object (d.partBytes STYLES doc.mimetype o2), mediaType := XML, stored := false, info := now }).set CONTENT
      { element := .object (d.partBytes CONTENT doc.mimetype o3), mediaType := XML, stored := false, info := now }) := by
    conv => lhs; rw [hf]
    rfl
  have hob : ∀ n m o kids, (currentBytes d.pkg kids (.object (d.partBytes n m o))).isSome := by
    intro n m o kids
    obtain ⟨b, hb⟩ := hp n m o
    rw [hb]; rfl
  obtain ⟨fm', z', h2, -⟩ := C39_succeeds d.pkg fs doc.fm orig h1.nodup ho
    (by
      rw [← Dict.get_isSome, hd]
      obtain ⟨-, -, -, k1, k2, k3⟩ := ne_parts
      simp only [Dict.get_set, k1, k2, k3, if_false, if_true]; rfl)
    (by
      intro n g hg
      rw [hd, hdir] at hg
      simp only [Dict.get_set] at hg
      split at hg
      · cases hg; exact hob _ _ _ _
      · split at hg
        · cases hg; exact hob _ _ _ _
        · split at hg
          · cases hg; exact hob _ _ _ _
          · split at hg
            · cases hg; rfl
            · rw [Dict.get_cons] at hg
              split at hg
              · cases hg; rfl
              · cases hg)
    (fun _ => none) (fun _ => rfl)
  exact ⟨z', by rw [h2]⟩

/-- C60 does not hold for every package: this one has two entries for the root. -/
theorem C60_refuted : ∃ (d : DLib) (fs : FS) (src : Source) (doc : Doc) (z : Zip), d.Lawful ∧
    opendoc d fs 0 src = .ok doc ∧ (tobytes d.pkg (fun _ => none) fs doc.fm).2 = .ok z ∧
    check d (some (.zip z)) (utf8 doc.mimetype) = .ok false := by
  obtain ⟨d, hd, -, hpart, hparse⟩ := lawful_exists (fun _ => none) (fun _ _ _ => .ok [])
  let kids := [entry ROOT ODT, entry ROOT ODS]
  obtain ⟨doc, fm, h1, h2, h3, h4, h5⟩ := pack_open hd kids (hparse kids) (fun _ => none) 0
  have hpl : Plain fm.manifest := by
    intro e he n _ _
    rw [h4] at he
    simp only [kids, List.mem_cons, List.not_mem_nil, or_false] at he
    rcases he with rfl | rfl <;> rfl
  have hroots : roots fm.manifest = entry ROOT ODT :: [] ++ [entry ROOT ODS] := by
    unfold roots; rw [h4]; decide +kernel
  have hw : ∃ z', (tobytes d.pkg (fun _ => none) (fun _ => none) doc.fm).2 = .ok z' := by
    have hop := open_ok h3
    obtain ⟨r1, r2, r3, r4, r5⟩ := pack_read (utf8 ODT) (d.pkg.tostring kids)
    have hz : Holds (fun _ => none) (.stream (some (.zip (pack (utf8 ODT) (d.pkg.tostring kids)))))
      (pack (utf8 ODT) (d.pkg.tostring kids)) := rfl
    obtain ⟨_, _, ho, -, hs⟩ := open_holds hz h3
    obtain ⟨doc', o1, o2, o3, g1, g2, -, g3⟩ := packaged_succ (d := d) (now := 0) (mt := ODT) ho (by decide +kernel)
      (fun b hb => by rw [r3] at hb; cases hb) (fun b hb => by rw [r4] at hb; cases hb)
      (fun b hb => by rw [r5] at hb; cases hb)
    have hdd : doc' = doc := by
      unfold opendoc at h1
      simp only [h3] at h1
      have hdet : detect d (fun _ => none) fm = .ok (some ODT) := by
        unfold detect
        rw [getBytes_opened ho, r1]
        simp only [hd.decode_utf8]
      simp only [hdet] at h1
      rw [g1] at h1
      exact Except.ok.inj h1
    subst hdd
    refine made_writes (by intro n m o; rw [hpart]; exact ⟨[], rfl⟩) h5 hpl ⟨fm, ho, ?_⟩
      ⟨o1, o2, o3, fm, hop.2.1, by rw [g2]; exact g3⟩
    rw [g3]; rfl
  obtain ⟨z, hz⟩ := hw
  refine ⟨d, fun _ => none, _, doc, z, hd, h1, hz, ?_⟩
  refine C60_twice d hd (fun _ => none) 0 fm.manifest doc h5 hpl _ _ _ hroots ?_ [] (by simp) (fun _ => none) z hz
  rw [h2]; decide +kernel

/-- The same package with one root entry (of another type) meets the conditions of `C60_saved`. -/
example : ∃ (d : DLib) (m0 : Manifest.M) (doc : Doc), d.Lawful ∧ Made d (fun _ => none) 0 m0 doc ∧ Plain m0 ∧
    (roots m0).length ≤ 1 ∧ doc.mimetype = ODT := by
  obtain ⟨d, hd, -, -, hparse⟩ := lawful_exists (fun _ => none) (fun _ _ _ => .ok [])
  obtain ⟨doc, fm, h1, h2, h3, h4, h5⟩ := pack_open hd [entry ROOT ODS, entry CONTENT XML] (hparse _) (fun _ => none) 0
  refine ⟨d, fm.manifest, doc, hd, h5, ?_, ?_, h2⟩
  · intro e he n _ _
    rw [h4] at he
    simp only [List.mem_cons, List.not_mem_nil, or_false] at he
    rcases he with rfl | rfl <;> rfl
  · unfold roots; rw [h4]; decide +kernel

/-- An allowed history: an image, a change of the content, two saves. -/
example : ∀ o ∈ [Package.Op.register "Pictures/a.png".toList (.bytes [1]) "image/png".toList 0,
    .edit CONTENT (.object (.ok [2])), .save env0 "/d/f".toList true, .tobytes fun _ => none], Allowed o := by
  intro o ho
  simp only [List.mem_cons, List.not_mem_nil, or_false] at ho
  rcases ho with rfl | rfl | rfl | rfl
  · show _ ∉ _; decide +kernel
  · show _ ∉ _; decide +kernel
  · trivial
  · trivial

example : MIMETYPES.get "ods".toList = some ODS ∧ FILE_EXT_FOR_MIMETYPE.get ODS = some "ods".toList := by decide +kernel

example : splitext "/home/x.y/my.file.odt".toList = ".odt".toList ∧ splitext "/home/x.y/.odt".toList = [] ∧
    splitext "/home/x.y/odt".toList = [] := by decide +kernel

example : stripTemplate "application/vnd.oasis.opendocument.text-template".toList = ODT := by decide +kernel

end Verif.Document
