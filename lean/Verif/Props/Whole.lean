import Verif.Proofs.WholeOpen
import Verif.Props.Reopen
/-! # C69 saving and opening gives the same document -/
namespace Verif.Whole
open Verif Verif.Lxml Forest Verif.Package Verif.Document
set_option linter.unusedSimpArgs false

/-! ## The life of a document -/

/-- The packaged documents of a program.  They are opened or made anew (any package, any mimetype; the name can
be set).  The program may change the trees in any way that leaves the frame elements and their references in
place (`trees`), change the meta data, register further files, save, also without success, set the name, and write the
document to memory.  Others may write, change and remove any files meanwhile (`disk`), also the one that was opened. -/
inductive Lives (L : XLib) : Session → Prop
  | made {fs : FS} {k : Clock} {src : Source} {fm : FM} {mt : Option Str} {W : World} {s : Session}
      (name : Option Path) (hn : (ids W).Nodup) (ho : open_ L.pkg fs src k.now = .ok fm)
      (h : packagedWhole L fs k fm mt W = .ok s) : Lives L { s with docname := name }
  | trees {s : Session} (h : Lives L s) {W : World} {tag : String} {d : Parts.DocTree} (hn : (ids W).Nodup)
      (ht : MIMETYPE_BODYTAG_MAP.get s.mimetype = some tag) (hd : Parts.DocRefs W tag d) :
      Lives L { s with world := W, tree := d }
  | data {s : Session} (h : Lives L s) (o : List Meta.Op) :
      Lives L { s with meta_ := { s.meta_ with m := Meta.run s.meta_.m o } }
  | file {s : Session} (h : Lives L s) (n : Str) (x : Element) (t : Str) (now : Nat)
      (hn : n ∉ [MIMETYPE, MANIFEST, ROOT, META, STYLES, CONTENT]) :
      Lives L { s with w := { s.w with fm := register n x t now s.w.fm } }
  | saved {s : Session} (h : Lives L s) (env : Env) (k : Clock) (backup : Bool) :
      Lives L (saveWhole L env k backup s).1
  | savedAs {s : Session} (h : Lives L s) (env : Env) (k : Clock) (backup : Bool) (f : Path) :
      Lives L (saveasWhole L env k backup f s).1
  | named {s : Session} (h : Lives L s) (name : Option Path) : Lives L { s with docname := name }
  | bytes {s : Session} (h : Lives L s) (sink : Member → Option Exc) : Lives L (tobytesWhole L sink s).1
  | streamed {s : Session} (h : Lives L s) (env : Env) (k : Clock) : Lives L (saveStreamWhole L env k s).1
  | disk {s : Session} (h : Lives L s) (fs : FS) : Lives L { s with w := { s.w with fs := fs } }

/-- What holds of all of them. -/
structure Good (s : Session) : Prop where
  pack : Pack s.mimetype s.w
  ext : FILE_EXT_FOR_MIMETYPE.get s.mimetype = some s.doctype
  once : (ids s.world).Nodup
  refs : ∃ tag, MIMETYPE_BODYTAG_MAP.get s.mimetype = some tag ∧ Parts.DocRefs s.world tag s.tree
  meta_ : s.meta_.OK

theorem packagedWhole_inv {L : XLib} {fs : FS} {k : Clock} {fm : FM} {mt : Option Str} {W : World} {s : Session}
    (h : packagedWhole L fs k fm mt W = .ok s) :
    ∃ doc so co W1 W2 W3 tree, packaged (dlib L) fs k.now fm mt = .ok doc ∧
      readTree L (storedBytes fs fm STYLES) W = (W1, .ok so) ∧
      readTree L (storedBytes fs fm CONTENT) W1 = (W2, .ok co) ∧
      Parts.packagedTree doc.mimetype so co W2 = (W3, .ok tree) ∧
      s = { w := { fm := doc.fm, fs := fs, log := [] }, world := W3, docname := doc.docname,
            mimetype := doc.mimetype, doctype := doc.doctype,
            meta_ := metaInit k ((storedBytes fs fm META).bind (L.xml 0)), tree := tree } := by
  unfold packagedWhole at h
  split at h
  · cases h
  · rename_i doc hd
    dsimp only at h
    split at h
    · cases h
    · rename_i W' tree hx
      obtain ⟨W1, so, h1, hx⟩ := bind_inv hx
      obtain ⟨W2, co, h2, hx⟩ := bind_inv hx
      simp only [Except.ok.injEq] at h
      exact ⟨doc, so, co, W1, W2, W', tree, hd, h1, h2, hx, h.symm⟩

theorem packagedWhole_fwd {L : XLib} {fs : FS} {k : Clock} {fm : FM} {mt : Option Str} {W : World} {doc : Doc}
    {so co : Option Nat} {W1 W2 W3 : World} {tree : Parts.DocTree}
    (hd : packaged (dlib L) fs k.now fm mt = .ok doc)
    (h1 : readTree L (storedBytes fs fm STYLES) W = (W1, .ok so))
    (h2 : readTree L (storedBytes fs fm CONTENT) W1 = (W2, .ok co))
    (h3 : Parts.packagedTree doc.mimetype so co W2 = (W3, .ok tree)) :
    packagedWhole L fs k fm mt W = .ok
      { w := { fm := doc.fm, fs := fs, log := [] }, world := W3, docname := doc.docname,
        mimetype := doc.mimetype, doctype := doc.doctype,
        meta_ := metaInit k ((storedBytes fs fm META).bind (L.xml 0)), tree := tree } := by
  unfold packagedWhole
  rw [hd]
  dsimp only
  rw [Py.bind_ok h1, Py.bind_ok h2, h3]

theorem stored_meta {L : XLib} {fs : FS} {k : Clock} {fm : FM} {mt : Option Str} {doc : Doc}
    (h : packaged (dlib L) fs k.now fm mt = .ok doc) {t : Tree}
    (ht : (storedBytes fs fm META).bind (L.xml 0) = some t) : t.1.tag = "office:document-meta" := by
  obtain ⟨b, hb, hx⟩ := Option.bind_eq_some_iff.mp ht
  unfold storedBytes at hb
  split at hb
  · rename_i b' hg
    split at hb
    · cases hb
    · rename_i hne
      cases hb
      refine packaged_meta h (t := t.1.tag) (b := b) ?_
      unfold getXml
      rw [hg]
      simp [hne, dlib, hx]
  · cases hb

theorem good_made {L : XLib} (hl : L.Lawful) {fs : FS} {k : Clock} {src : Source} {fm : FM} {mt : Option Str}
    {W : World} {s : Session} (hn : (ids W).Nodup) (ho : open_ L.pkg fs src k.now = .ok fm)
    (h : packagedWhole L fs k fm mt W = .ok s) : Good s := by
  obtain ⟨doc, so, co, W1, W2, W3, tree, hd, h1, h2, h3, rfl⟩ := packagedWhole_inv h
  have n1 := readTree_nodup hl hn h1
  have n2 := readTree_nodup hl n1 h2
  obtain ⟨tag, t1, t2, t3⟩ := tree_refs n2 h3
  obtain ⟨p1, p2, p3, -⟩ := packaged_ok hd
  refine ⟨?_, p2, t3, ⟨tag, t1, t2⟩, ?_⟩
  · exact pack_made (d := dlib L) (now := k.now) (m0 := fm.manifest) (doc := doc) ⟨src, fm, mt, doc, ho, rfl, hd, rfl, rfl⟩
  · refine metaInit_ok k (fun t ht => stored_meta hd ht) fun t ht => ?_
    obtain ⟨b, -, hx⟩ := Option.bind_eq_some_iff.mp ht
    exact (hl.fresh _ _ _ hx).1

/-! ## Saving -/

/-- The steps before writing are those of `save` in the model of the meta data. -/
theorem touch_inc (k : Clock) (m : Meta.Meta) :
    (do Meta.touch k.time k.generator; Meta.incEditingCycles : Py Meta.Meta Unit) m =
      Meta.save k.time k.generator (.ok ()) m := by
  show _ = (do Meta.touch k.time k.generator; Meta.incEditingCycles; fun m => (m, .ok ()) : Py Meta.Meta Unit) m
  rw [Py.bind_def, Py.bind_def]
  rcases Meta.touch k.time k.generator m with ⟨m1, r1⟩
  cases r1 with
  | error e => rfl
  | ok u =>
    dsimp only
    rw [Py.bind_def]
    rcases Meta.incEditingCycles m1 with ⟨m2, r2⟩
    cases r2 <;> rfl

/-- What saving does: the meta data are updated, then the package is written with the current trees. -/
theorem saveWhole_eq {L : XLib} {env : Env} {k : Clock} {backup : Bool} {s s' : Session} {r : Except Exc Unit}
    (h : saveWhole L env k backup s = (s', r)) :
    s' = s ∨ ∃ m, s'.world = s.world ∧ s'.tree = s.tree ∧ s'.docname = s.docname ∧ s'.mimetype = s.mimetype ∧
      s'.doctype = s.doctype ∧ s'.meta_ = { s.meta_ with m := m } ∧
      m = (Meta.save k.time k.generator (.ok ()) s.meta_.m).1 ∧
      (s'.w = s.w ∨ ∃ f, s.docname = some f ∧
        saveDoc L.pkg env f backup (sync s.w (syncOps L s.world s'.meta_ s.tree)) = (s'.w, r)) := by
  unfold saveWhole at h
  cases hd : s.docname with
  | none =>
    rw [hd] at h
    simp only [Prod.mk.injEq] at h
    exact .inl h.1.symm
  | some f =>
    rw [hd] at h
    dsimp only at h
    rw [touch_inc] at h
    right
    refine ⟨(Meta.save k.time k.generator (.ok ()) s.meta_.m).1, ?_⟩
    rcases hm : Meta.save k.time k.generator (.ok ()) s.meta_.m with ⟨m, q⟩
    rw [hm] at h
    cases q with
    | error e =>
      simp only [Prod.mk.injEq] at h
      rw [← h.1]
      exact ⟨rfl, rfl, rfl, rfl, rfl, rfl, rfl, .inl rfl⟩
    | ok u =>
      dsimp only at h
      simp only [Prod.mk.injEq] at h
      rw [← h.1, ← h.2]
      exact ⟨rfl, rfl, rfl, rfl, rfl, rfl, rfl, .inr ⟨f, rfl, rfl⟩⟩

/-- A successful save has written the file. -/
theorem saveWhole_ok {L : XLib} {env : Env} {k : Clock} {backup : Bool} {s s' : Session}
    (h : saveWhole L env k backup s = (s', .ok ())) :
    ∃ f, s.docname = some f ∧ s'.world = s.world ∧ s'.tree = s.tree ∧ s'.docname = s.docname ∧
      s'.mimetype = s.mimetype ∧ s'.doctype = s.doctype ∧
      s'.meta_ = { s.meta_ with m := (Meta.save k.time k.generator (.ok ()) s.meta_.m).1 } ∧
      saveDoc L.pkg env f backup (sync s.w (syncOps L s.world s'.meta_ s.tree)) = (s'.w, .ok ()) := by
  unfold saveWhole at h
  cases hd : s.docname with
  | none =>
    rw [hd] at h
    simp at h
  | some f =>
    rw [hd] at h
    dsimp only at h
    rw [touch_inc] at h
    rcases hm : Meta.save k.time k.generator (.ok ()) s.meta_.m with ⟨m, q⟩
    rw [hm] at h
    cases q with
    | error e => simp at h
    | ok u =>
      dsimp only at h
      simp only [Prod.mk.injEq] at h
      obtain ⟨h1, h2⟩ := h
      rw [← h1]
      refine ⟨f, rfl, rfl, rfl, rfl, rfl, rfl, rfl, ?_⟩
      rw [← h2]
      rfl

theorem pack_sync {L : XLib} {mt : Str} {w : Package.W} (hp : Pack mt w) (W : World) (m : MetaPart) (d : Parts.DocTree) :
    Pack mt (sync w (syncOps L W m d)) := (sync_get hp _ _ _).1

theorem good_save {L : XLib} {env : Env} {k : Clock} {backup : Bool} {s : Session} (hg : Good s) :
    Good (saveWhole L env k backup s).1 := by
  rcases saveWhole_eq (r := (saveWhole L env k backup s).2) (s' := (saveWhole L env k backup s).1) (L := L) (env := env)
    (k := k) (backup := backup) (s := s) rfl with h | ⟨m, h1, h2, h3, h4, h5, h6, h7, h8⟩
  · rw [h]; exact hg
  · refine ⟨?_, ?_, ?_, ?_, ?_⟩
    · rw [h4]
      rcases h8 with h8 | ⟨f, -, h8⟩
      · rw [h8]; exact hg.pack
      · have := pack_run (lib := L.pkg) (pack_sync (L := L) hg.pack s.world (saveWhole L env k backup s).1.meta_ s.tree)
          [.save env f backup] (fun o ho => by simp at ho; subst ho; trivial)
        have e : run L.pkg (sync s.w (syncOps L s.world (saveWhole L env k backup s).1.meta_ s.tree))
            [.save env f backup] = (saveWhole L env k backup s).1.w := by
          show (saveDoc L.pkg env f backup _).1 = _
          rw [h8]
        rw [e] at this
        exact this
    · rw [h4, h5]; exact hg.ext
    · rw [h1]; exact hg.once
    · rw [h4, h1, h2]; exact hg.refs
    · rw [h6, h7]
      obtain ⟨a, b, c, d, e⟩ := hg.meta_
      have hs := Meta.step_first d e (.save k.time k.generator (.ok ()))
      exact ⟨a, b, hs.2.trans c, (Meta.abs_step d (.save k.time k.generator (.ok ()))).1, hs.1⟩

theorem saveStreamWhole_eq {L : XLib} {env : Env} {k : Clock} (s : Session) :
    saveStreamWhole L env k s = match Meta.save k.time k.generator (.ok ()) s.meta_.m with
      | (m, .error e) => ({ s with meta_ := { s.meta_ with m := m } }, .error e)
      | (m, .ok _) =>
        let p : MetaPart := { s.meta_ with m := m }
        let r := saveStream L.pkg env (sync s.w (syncOps L s.world p s.tree))
        ({ s with meta_ := p, w := r.1 }, r.2) := by
  unfold saveStreamWhole
  rw [touch_inc]
  rcases Meta.save k.time k.generator (.ok ()) s.meta_.m with ⟨m, r⟩
  cases r <;> rfl

theorem good_stream {L : XLib} {env : Env} {k : Clock} {s : Session} (hg : Good s) :
    Good (saveStreamWhole L env k s).1 := by
  rw [saveStreamWhole_eq]
  have hmeta : ∀ m r, Meta.save k.time k.generator (.ok ()) s.meta_.m = (m, r) →
      MetaPart.OK { s.meta_ with m := m } := by
    intro m r hm
    obtain ⟨a, b, c, d, e⟩ := hg.meta_
    have hs := Meta.step_first d e (.save k.time k.generator (.ok ()))
    have hw := (Meta.abs_step d (.save k.time k.generator (.ok ()))).1
    have e1 : Meta.step s.meta_.m (.save k.time k.generator (.ok ())) = m := by
      show (Meta.save k.time k.generator (.ok ()) s.meta_.m).1 = m
      rw [hm]
    rw [e1] at hs hw
    exact ⟨a, b, hs.2.trans c, hw, hs.1⟩
  rcases hm : Meta.save k.time k.generator (.ok ()) s.meta_.m with ⟨m, r⟩
  cases r with
  | error e => exact ⟨hg.pack, hg.ext, hg.once, hg.refs, hmeta _ _ hm⟩
  | ok u =>
    refine ⟨?_, hg.ext, hg.once, hg.refs, hmeta _ _ hm⟩
    exact pack_run (lib := L.pkg) (pack_sync (L := L) hg.pack _ _ _) [.saveStream env]
      (fun o ho => by simp at ho; subst ho; trivial)

/-- The package stays in order whatever becomes of the files. -/
theorem pack_disk {mt : Str} {w : Package.W} (h : Pack mt w) (fs : FS) : Pack mt { w with fs := fs } := by
  obtain ⟨orig, hk⟩ := h.keeps
  refine ⟨h.regs, members fs w.fm, hk.nodup, ?_, rfl⟩
  unfold Opened
  dsimp only
  obtain ⟨z, hz⟩ := hk.open_
  unfold Opened at hz
  split
  · exact ⟨[], rfl⟩
  · rename_i p _
    by_cases hp : ∃ z, fs p = some (.zip z)
    · obtain ⟨z, hz⟩ := hp
      exact ⟨z, .inl hz⟩
    · exact ⟨[], .inr ⟨fun z hz => hp ⟨z, hz⟩, rfl⟩⟩
  · exact ⟨[], rfl⟩
  · rename_i c hc
    rw [hc] at hz
    exact ⟨z, hz⟩

theorem Lives.good {L : XLib} (hl : L.Lawful) {s : Session} (h : Lives L s) : Good s := by
  induction h with
  | made name hn ho h =>
    obtain ⟨a, b, c, d, e⟩ := good_made hl hn ho h
    exact ⟨a, b, c, d, e⟩
  | trees h hn ht hd ih => exact ⟨ih.pack, ih.ext, hn, ⟨_, ht, hd⟩, ih.meta_⟩
  | data h o ih =>
    obtain ⟨a, b, c, d, e⟩ := ih.meta_
    have hs := Meta.run_first d e o
    exact ⟨ih.pack, ih.ext, ih.once, ih.refs, a, b, hs.2.trans c, Meta.run_wf d o, hs.1⟩
  | file h n x t now hn ih =>
    refine ⟨?_, ih.ext, ih.once, ih.refs, ih.meta_⟩
    refine pack_run (lib := L.pkg) ih.pack [.register n x t now] fun o ho => ?_
    simp only [List.mem_cons, List.not_mem_nil, or_false] at ho
    subst ho
    show n ∉ [MIMETYPE, MANIFEST, ROOT]
    simp only [List.mem_cons, List.not_mem_nil, or_false, not_or] at hn ⊢
    exact ⟨hn.1, hn.2.1, hn.2.2.1⟩
  | saved h env k backup ih => exact good_save ih
  | savedAs h env k backup f ih =>
    unfold saveasWhole
    refine good_save ?_
    exact ⟨ih.pack, ih.ext, ih.once, ih.refs, ih.meta_⟩
  | named h name ih => exact ⟨ih.pack, ih.ext, ih.once, ih.refs, ih.meta_⟩
  | bytes h sink ih =>
    refine ⟨?_, ih.ext, ih.once, ih.refs, ih.meta_⟩
    exact pack_run (lib := L.pkg) (pack_sync (L := L) ih.pack _ _ _) [.tobytes sink] (fun o ho => by simp at ho; subst ho; trivial)
  | streamed h env k ih => exact good_stream ih
  | disk h fs ih => exact ⟨pack_disk ih.pack fs, ih.ext, ih.once, ih.refs, ih.meta_⟩

/-! ## Opening again -/

/-- The three trees can be written: legal names and characters (lxml keeps no others), no text after the root. -/
structure Writable (s : Session) : Prop where
  meta_ : legal (single s.meta_.tree) = true ∧ s.meta_.tree.1.tail = none
  roots : ∀ r ∈ [s.tree.styles.root, s.tree.content.root], ∀ t, find r s.world = some t →
    legal (single t) = true ∧ t.1.tail = none

/-- The tree at a node of the one document is that of a node of the other, as a file tells it. -/
def Told (s : Session) (i : Nat) (s' : Session) (j : Nat) : Prop :=
  ∃ t t', find i s.world = some t ∧ find j s'.world = some t' ∧ data t' = shape t

/-- The source is the package: a file with it, or its bytes. -/
def Opens (fs : FS) (src : Source) (z : Zip) : Prop :=
  (∃ f, src = .file (some f) ∧ fs f = some (.zip z)) ∨ src = .stream (some (.zip z))

/-- The name of a document that was opened from there -/
def nameOf : Source → Option Path
  | .file p => p
  | .stream _ => none

theorem getBytes_src {fs : FS} {src : Source} {z : Zip} (hz : Opens fs src z) {fm : FM}
    (hs : fm.source = src) (n : Str) : getBytes fs fm n = .ok (z.read n) := by
  unfold getBytes srcZip
  rw [hs]
  rcases hz with ⟨f, rfl, hf⟩ | rfl
  · simp [hf]
  · rfl

/-- Everything about opening a file with the five parts. -/
theorem open_saved {L : XLib} (hl : L.Lawful) {fs : FS} {src : Source} {z : Zip} (hz : Opens fs src z)
    {kids : List Elem} (zman : z.read MANIFEST = some (L.pkg.tostring kids)) {mt ext : Str} {tag : String}
    (zmime : z.read MIMETYPE = some (utf8 mt)) (he : FILE_EXT_FOR_MIMETYPE.get mt = some ext)
    (ht : MIMETYPE_BODYTAG_MAP.get mt = some tag)
    {p : MetaPart} (hp : p.OK) (lm : legal (single p.tree) = true) (tm : p.tree.1.tail = none)
    (zm : z.read META = some (L.tostring p.tree))
    {W : World} (hn : (ids W).Nodup) {d : Parts.DocTree} (hd : Parts.DocRefs W tag d) {ts tc : Tree}
    (fs_ : find d.styles.root W = some ts) (ls : legal (single ts) = true) (tls : ts.1.tail = none)
    (zs : z.read STYLES = some (L.tostring ts))
    (fc : find d.content.root W = some tc) (lc : legal (single tc) = true) (tlc : tc.1.tail = none)
    (zc : z.read CONTENT = some (L.tostring tc)) (k : Clock) {W0 : World} (h0 : (ids W0).Nodup) :
    ∃ s fm, open_ L.pkg fs src k.now = .ok fm ∧ packagedWhole L fs k fm (some mt) W0 = .ok s ∧
      openWhole L fs k src W0 = .ok s ∧
      s.docname = nameOf src ∧ s.mimetype = mt ∧ s.doctype = ext ∧ s.meta_.OK ∧ data s.meta_.tree = shape p.tree ∧
      Meta.abs s.meta_.m = writtenAbs (Meta.abs p.m) ∧
      (∃ ts', find s.tree.styles.root s.world = some ts' ∧ data ts' = shape ts) ∧
      (∃ tc', find s.tree.content.root s.world = some tc' ∧ data tc' = shape tc) ∧
      s.tree.body.vars.map Prod.fst = d.body.vars.map Prod.fst ∧
      s.tree.body.fields.map Prod.fst = d.body.fields.map Prod.fst ∧
      (∃ b b', find d.body.node W = some b ∧ find s.tree.body.node s.world = some b' ∧ data b' = shape b) ∧
      ∀ i u, find i W0 = some u → find i s.world = some u := by
  obtain ⟨kids', hk1, -⟩ := hl.pkg.parse_tostring kids
  -- the package
  have hopen : ∃ fm, open_ L.pkg fs src k.now = .ok fm ∧ fm.source = src := by
    have h1 : getBytes fs { dir := [], manifest := Manifest.new, source := src } MANIFEST =
        .ok (some (L.pkg.tostring kids)) := by
      rw [getBytes_src hz rfl, zman]
    have : ∃ fm, open_ L.pkg fs src k.now = .ok fm := by
      unfold open_
      dsimp only
      rw [show "META-INF/manifest.xml".toList = MANIFEST from rfl, h1]
      dsimp only
      rw [hk1]
      exact ⟨_, rfl⟩
    obtain ⟨fm, hfm⟩ := this
    exact ⟨fm, hfm, (open_ok hfm).1⟩
  obtain ⟨fm, hfm, hsrc⟩ := hopen
  have hget := fun n => getBytes_src hz hsrc n
  have hdet : detect (dlib L) fs fm = .ok (some mt) := by
    unfold detect
    rw [hget, zmime]
    dsimp only
    rw [show (dlib L).decode (utf8 mt) = .ok mt from hl.decode_utf8 mt]
  -- the trees in the files
  have hne : ∀ t : Tree, legal (single t) = true → t.1.tail = none → L.tostring t ≠ [] := by
    intro t h1 h2 e
    obtain ⟨t', h3, -⟩ := hl.reread 0 t h1 h2
    rw [e, hl.empty] at h3
    cases h3
  have hx : ∀ (n : Str) (t : Tree), legal (single t) = true → t.1.tail = none →
      z.read n = some (L.tostring t) → getXml (dlib L) fs fm n = .ok (some (t.1.tag, L.tostring t)) := by
    intro n t h1 h2 h3
    obtain ⟨t', h4, h5⟩ := hl.reread 0 t h1 h2
    unfold getXml
    rw [hget, h3]
    simp only [hne t h1 h2, if_false]
    have : (dlib L).root (L.tostring t) = some t.1.tag := by
      show (L.xml 0 (L.tostring t)).map _ = _
      rw [h4, Option.map_some, data_tag h5]
    rw [this]
  have hst : ∀ (n : Str) (t : Tree), legal (single t) = true → t.1.tail = none →
      z.read n = some (L.tostring t) → storedBytes fs fm n = some (L.tostring t) := by
    intro n t h1 h2 h3
    exact storedBytes_of (by rw [hget, h3]) (hne t h1 h2)
  have gts : ts.1.tag = "office:document-styles" := by
    have := hd.stylesRoot
    rw [tagAt_find fs_] at this
    exact Option.some.inj this
  have gtc : tc.1.tag = "office:document-content" := by
    have := hd.contentRoot
    rw [tagAt_find fc] at this
    exact Option.some.inj this
  obtain ⟨doc, hdoc, hmt, hext, hname⟩ := packaged_fwd (d := dlib L) (fs := fs) k.now (fm := fm) he ht
    (by rw [hx _ _ lm tm zm]; show Except.ok (some (p.root.tag, _)) = _; rw [hp.root])
    (by rw [hx _ _ ls tls zs, gts]) (by rw [hx _ _ lc tlc zc, gtc])
  -- reading styles.xml
  obtain ⟨ts', s1, s2⟩ := hl.reread (Parts.newId W0) ts ls tls
  obtain ⟨f1, f2⟩ := hl.fresh _ _ _ s1
  obtain ⟨n1, g1, k1⟩ := nodup_add h0 f1 f2
  have r1 : readTree L (storedBytes fs fm STYLES) W0 = (W0 ++ single ts', .ok (some ts'.1.id)) := by
    rw [hst _ _ ls tls zs]
    simp [readTree, s1]
  -- reading content.xml
  obtain ⟨tc', c1, c2⟩ := hl.reread (Parts.newId (W0 ++ single ts')) tc lc tlc
  obtain ⟨f3, f4⟩ := hl.fresh _ _ _ c1
  obtain ⟨n2, g2, k2⟩ := nodup_add n1 f3 f4
  have r2 : readTree L (storedBytes fs fm CONTENT) (W0 ++ single ts') =
      (W0 ++ single ts' ++ single tc', .ok (some tc'.1.id)) := by
    rw [hst _ _ lc tlc zc]
    simp [readTree, c1]
  have g1' := k2 _ _ g1
  -- the attributes
  obtain ⟨d', b, b', e1, e2, e3, e4, e5, e6, e7, e8⟩ := docrefs_shape hn n2 hd fs_ g1' (shape_of_data s2).symm fc g2
    (shape_of_data c2).symm
  have h3 : Parts.packagedTree doc.mimetype (some ts'.1.id) (some tc'.1.id) (W0 ++ single ts' ++ single tc') =
      (W0 ++ single ts' ++ single tc', .ok d') := by
    rw [← e2, ← e3]
    exact Parts.C63_complete n2 (by rw [hmt]; exact ht) e1
  have hpk := packagedWhole_fwd (k := k) hdoc r1 r2 h3
  -- the meta data
  obtain ⟨tm', m1, m2⟩ := hl.reread 0 p.tree lm tm
  have hmeta : (storedBytes fs fm META).bind (L.xml 0) = some tm' := by
    rw [hst _ _ lm tm zm]; exact m1
  obtain ⟨q1, q2, q3⟩ := metaInit_reread k hp m2 (hl.fresh _ _ _ m1).1
  -- the body as read
  have hb' : data b' = shape b := by
    have hplain : ∀ {t u : Tree}, shape t = data t → u ∈ t.2.toList → shape u = data u := by
      intro t u h hu
      have h1 : t.2.toList.map shape = t.2.toList.map data := by
        rw [← toList_shape, ← data_kids]
        have := congrArg (fun x : Tree => x.2.toList) h
        exact this
      exact List.map_inj_left.mp h1 u hu
    have hp0 : shape tc' = data tc' := by rw [shape_of_data c2, c2]
    obtain ⟨u, hu1, hu2⟩ := ref_kid n2 (e3 ▸ e1.content.body) g2
    obtain ⟨v, hv1, hv2⟩ := ref_kid n2 e1.body.node hu2
    rw [e7] at hv2
    cases hv2
    have := hplain (hplain hp0 (List.mem_of_find?_eq_some hu1)) (List.mem_of_find?_eq_some hv1)
    rw [← this, ← e8]
  refine ⟨_, fm, hfm, hpk, ?_, ?_, hmt, hext, ?_, ?_, ?_, ⟨ts', ?_, s2⟩, ⟨tc', ?_, c2⟩, e4, e5,
    ⟨b, b', e6, e7, hb'⟩, ?_⟩
  · unfold openWhole
    rw [hfm]
    dsimp only
    rw [hdet]
    exact hpk
  · show doc.docname = _
    rw [hname]; unfold zipname; rw [hsrc]; rfl
  · dsimp only; rw [hmeta]; exact q1
  · dsimp only; rw [hmeta, q2]; exact m2
  · dsimp only; rw [hmeta]; exact q3
  · dsimp only; rw [e2]; exact g1'
  · dsimp only; rw [e3]; exact g2
  · intro i u hu
    exact k2 _ _ (k1 _ _ hu)

/-- What reading a saved file gives, compared with the document that was saved. -/
structure Reopened (L : XLib) (s' s'' : Session) : Prop where
  lives : Lives L s''
  docname : s''.docname = s'.docname
  mimetype : s''.mimetype = s'.mimetype
  doctype : s''.doctype = s'.doctype
  metaTree : Whole.data s''.meta_.tree = shape s'.meta_.tree
  metaData : Meta.abs s''.meta_.m = writtenAbs (Meta.abs s'.meta_.m)
  styles : Told s' s'.tree.styles.root s'' s''.tree.styles.root
  content : Told s' s'.tree.content.root s'' s''.tree.content.root
  body : Told s' s'.tree.body.node s'' s''.tree.body.node
  vars : s''.tree.body.vars.map Prod.fst = s'.tree.body.vars.map Prod.fst
  fields : s''.tree.body.fields.map Prod.fst = s'.tree.body.fields.map Prod.fst

/-- The file that has been written -/
theorem saved_zip {L : XLib} (hl : L.Lawful) {s s' : Session} (hs : Lives L s) {env : Env} {k : Clock} {backup : Bool}
    (h : saveWhole L env k backup s = (s', .ok ())) :
    ∃ f z ts tc kids, s'.docname = some f ∧ s'.w.fs f = some (.zip z) ∧
      find s'.tree.styles.root s'.world = some ts ∧ find s'.tree.content.root s'.world = some tc ∧
      z.read MIMETYPE = some (utf8 s'.mimetype) ∧ z.read MANIFEST = some (L.pkg.tostring kids) ∧
      z.read META = some (L.tostring s'.meta_.tree) ∧ z.read STYLES = some (L.tostring ts) ∧
      z.read CONTENT = some (L.tostring tc) := by
  have hg := hs.good hl
  have hg' : Good s' := by
    have := good_save (L := L) (env := env) (k := k) (backup := backup) hg
    rw [h] at this
    exact this
  obtain ⟨f, h1, h2, h3, h4, h5, h6, h7, h8⟩ := saveWhole_ok h
  obtain ⟨tag, -, hd⟩ := hg'.refs
  obtain ⟨ts, fts⟩ := find_some_of_mem (Parts.mem_of_tagAt hd.stylesRoot)
  obtain ⟨tc, ftc⟩ := find_some_of_mem (Parts.mem_of_tagAt hd.contentRoot)
  obtain ⟨p1, p2, p3, p4⟩ := sync_get hg.pack (.object (.ok (L.tostring s'.meta_.tree)))
    (.object (treeBytes L s.world s.tree.styles.root)) (.object (treeBytes L s.world s.tree.content.root))
  have hok : (saveDoc L.pkg env f backup (sync s.w (syncOps L s.world s'.meta_ s.tree))).2 = .ok () := by rw [h8]
  obtain ⟨z, z1, z2, z3, z4⟩ := saved_parts p1 hok
  have z1' : (saveDoc L.pkg env f backup (sync s.w (syncOps L s.world s'.meta_ s.tree))).1.fs f = some (.zip z) := z1
  rw [h8] at z1'
  refine ⟨f, z, ts, tc, _, by rw [h4, h1], z1', fts, ftc, by rw [h5]; exact z2, z3, z4 _ _ p2, ?_, ?_⟩
  · refine z4 _ _ ?_
    rw [p3]
    unfold treeBytes
    rw [← h2, ← h3, fts]
  · refine z4 _ _ ?_
    rw [p4]
    unfold treeBytes
    rw [← h2, ← h3, ftc]

/-- **C69**: a document that has been saved at any point of its life can be opened again, in any world, and is
the same document, as far as a file can tell: the type, the whole trees of the meta data, the styles and the
content, what the meta data say, and the declared variables and user fields. -/
theorem C69_reopen {L : XLib} (hl : L.Lawful) {s s' : Session} (hs : Lives L s) {env : Env} {k : Clock}
    {backup : Bool} (h : saveWhole L env k backup s = (s', .ok ())) (hw : Writable s') (k' : Clock) {W0 : World}
    (h0 : (ids W0).Nodup) :
    ∃ f s'', s'.docname = some f ∧ openWhole L s'.w.fs k' (.file (some f)) W0 = .ok s'' ∧ Reopened L s' s'' ∧
      ∀ i u, find i W0 = some u → find i s''.world = some u := by
  have hg' : Good s' := by
    have := good_save (L := L) (env := env) (k := k) (backup := backup) (hs.good hl)
    rw [h] at this
    exact this
  obtain ⟨f, z, ts, tc, kids, h1, h2, h3, h4, h5, h6, h7, h8, h9⟩ := saved_zip hl hs h
  obtain ⟨tag, ht, hd⟩ := hg'.refs
  obtain ⟨l1, l2⟩ := hw.meta_
  obtain ⟨l3, l4⟩ := hw.roots _ (by simp) _ h3
  obtain ⟨l5, l6⟩ := hw.roots s'.tree.content.root (by simp) _ h4
  obtain ⟨s'', fm, o1, o2, o3, o4, o5, o6, o7, o8, o9, ⟨ts', a1, a2⟩, ⟨tc', b1, b2⟩, c1, c2, ⟨b, b', d1, d2, d3⟩, e⟩ :=
    open_saved hl (.inl ⟨f, rfl, h2⟩) h6 h5 hg'.ext ht hg'.meta_ l1 l2 h7 hg'.once hd h3 l3 l4 h8 h4 l5 l6 h9 k' h0
  refine ⟨f, s'', h1, o3, ?_, e⟩
  exact ⟨Lives.made s''.docname h0 o1 o2, by rw [o4, h1]; rfl, o5, o6, o8, o9, ⟨ts, ts', h3, a1, a2⟩,
    ⟨tc, tc', h4, b1, b2⟩, ⟨b, b', d1, d2, d3⟩, c1, c2⟩

end Verif.Whole
