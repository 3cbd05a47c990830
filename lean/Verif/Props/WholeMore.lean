import Verif.Props.Whole
import Verif.Props.Meta
/-! # C69: the rest of the package, the tables, and that saving succeeds -/
namespace Verif.Whole
open Verif Verif.Lxml Forest Verif.Package Verif.Document
open Verif.Tbl (SameElem Life TState Shows nrows ncols getCell stored)
open Verif.TSpec (SameContent Denotes)
set_option linter.unusedSimpArgs false

/-! ## What saving leaves alone -/

theorem sync_frame : ∀ (l : List (Str × Element)) (w : Package.W),
    (sync w l).fs = w.fs ∧ (sync w l).fm.source = w.fm.source ∧ (sync w l).fm.manifest = w.fm.manifest ∧
      (sync w l).fm.dir.keys = w.fm.dir.keys ∧
      ∀ n, n ∉ l.map Prod.fst → (sync w l).fm.dir.get n = w.fm.dir.get n
  | [], w => ⟨rfl, rfl, rfl, rfl, fun _ _ => rfl⟩
  | (n, x) :: r, w => by
    cases hg : w.fm.dir.get n with
    | none =>
      have e : sync w ((n, x) :: r) = sync w r := by simp only [sync, hg]
      rw [e]
      obtain ⟨a, b, c, d, f⟩ := sync_frame r w
      exact ⟨a, b, c, d, fun m hm => f m (fun h => hm (by simp [h]))⟩
    | some g =>
      have e : sync w ((n, x) :: r) =
          sync { w with fm := { w.fm with dir := w.fm.dir.set n { g with element := x } } } r := by
        simp only [sync, hg]
      rw [e]
      obtain ⟨a, b, c, d, f⟩ := sync_frame r { w with fm := { w.fm with dir := w.fm.dir.set n { g with element := x } } }
      refine ⟨a, b, c, ?_, fun m hm => ?_⟩
      · rw [d]
        dsimp only
        rw [Dict.keys_set, if_pos (Dict.get_isSome.mp (by rw [hg]; rfl))]
      · rw [f m (fun h => hm (by simp [h]))]
        dsimp only
        rw [Dict.get_set, if_neg]
        intro h
        exact hm (by simp [h])

/-- **C69**, what saving leaves alone: a call of `save`, with or without success, leaves the trees of the
styles and the content, the name and the type alone; the meta data are those of the model of `save`. -/
theorem C69_frame (L : XLib) (env : Env) (k : Clock) (backup : Bool) {s s' : Session} {r : Except Exc Unit}
    (h : saveWhole L env k backup s = (s', r)) :
    s'.world = s.world ∧ s'.tree = s.tree ∧ s'.docname = s.docname ∧ s'.mimetype = s.mimetype ∧
      s'.doctype = s.doctype ∧ s'.meta_.root = s.meta_.root ∧ s'.meta_.before = s.meta_.before ∧
      s'.meta_.after = s.meta_.after := by
  rcases saveWhole_eq h with rfl | ⟨m, h1, h2, h3, h4, h5, h6, -⟩
  · exact ⟨rfl, rfl, rfl, rfl, rfl, rfl, rfl, rfl⟩
  · exact ⟨h1, h2, h3, h4, h5, by rw [h6], by rw [h6], by rw [h6]⟩

/-- **C69**, the meta data after a successful save: one editing cycle more, the moment and the generator. -/
theorem C69_metaData {L : XLib} (hl : L.Lawful) {env : Env} {k : Clock} {backup : Bool} {s s' : Session}
    (hs : Lives L s) (h : saveWhole L env k backup s = (s', .ok ())) :
    Meta.abs s'.meta_.m = Meta.specStep (Meta.abs s.meta_.m) (.save k.time k.generator (.ok ())) := by
  obtain ⟨f, -, -, -, -, -, -, h7, -⟩ := saveWhole_ok h
  rw [h7]
  exact (Meta.abs_step (hs.good hl).meta_.wf (.save k.time k.generator (.ok ()))).2

/-- **C69**, the other files of the package: what is not registered has the bytes it had in the package that
was open. -/
theorem C69_members {L : XLib} (hl : L.Lawful) {env : Env} {k : Clock} {backup : Bool} {s s' : Session}
    (hs : Lives L s) (h : saveWhole L env k backup s = (s', .ok ())) :
    ∃ f z, s'.docname = some f ∧ s'.w.fs f = some (.zip z) ∧
      ∀ n, n ∉ s.w.fm.dir.keys → z.read n = (members s.w.fs s.w.fm).read n := by
  obtain ⟨f, h1, -, -, h4, -, -, -, h8⟩ := saveWhole_ok h
  have hp := pack_sync (L := L) (hs.good hl).pack s.world s'.meta_ s.tree
  obtain ⟨e1, e2, e3, e4, e5⟩ := sync_frame (syncOps L s.world s'.meta_ s.tree) s.w
  obtain ⟨orig, hk⟩ := hp.keeps
  obtain ⟨o, ho⟩ := hk.open_
  obtain ⟨z, fm', htb, hfs⟩ := (keeps_saveDoc (env := env) (f := f) (backup := backup) (lib := L.pkg) hk).2
    (by rw [h8])
  rw [h8] at hfs
  refine ⟨f, z, by rw [h4, h1], hfs, fun n hn => ?_⟩
  have hrest := C39_rest L.pkg env.sink _ _ fm' z o ho htb
  have hm : members s.w.fs s.w.fm = o := by
    rw [← members_eq ho]
    unfold members srcZip
    rw [e1, e2]
  rw [hm]
  have hfil : z.filter (fun m => decide (m.name = n)) = (norm o).filter (fun m => decide (m.name = n)) := by
    refine filter_mono (U := fun x => decide (x ∉ (sync s.w (syncOps L s.world s'.meta_ s.tree)).fm.dir.keys))
      (V := fun x => decide (x = n)) ?_ ?_
    · intro m hm
      simp only [decide_eq_true_eq] at hm ⊢
      rw [hm, e4]
      exact hn
    · rw [hrest]
      unfold norm
      rw [List.filter_map]
      rfl
  rw [← read_norm o, read_eq, read_eq, hfil]

/-! ## Tables -/

/-- The tables of a body -/
def tables (b : Tree) : List Tree := b.2.toList.filter fun t => t.1.tag = "table:table"

/-- The sheets of a document: the tables of its body. -/
def sheetsOf (s : Session) : List Tree :=
  match find s.tree.body.node s.world with
  | none => []
  | some b => tables b

/-- **C69**, sheets: there are the same sheets in the same order. -/
theorem C69_sheets {L : XLib} {s' s'' : Session} (h : Reopened L s' s'') :
    (sheetsOf s'').map data = (sheetsOf s').map shape := by
  obtain ⟨b, b', h1, h2, h3⟩ := h.body
  unfold sheetsOf
  rw [h1, h2]
  exact findall_data "table:table" (data_shape_kids h3)

/-- **C69**, names of sheets -/
theorem C69_sheetnames {L : XLib} {s' s'' : Session} (h : Reopened L s' s'') :
    (sheetsOf s'').map (fun t => t.1.get "table:name") = (sheetsOf s').map fun t => t.1.get "table:name" :=
  map_data (fun _ _ e => data_get e _) (C69_sheets h)

theorem erase_of_data {t u : Tree} (h : data t = data u) : t.2.erase = u.2.erase := by
  have := congrArg Prod.snd h
  exact this

theorem sameElem_of_data {t u : Tree} (h : data t = data u) : SameElem u.1 t.1 := by
  have h1 := congrArg (fun x : Tree => x.1.tag) h
  have h2 := congrArg (fun x : Tree => x.1.attrs) h
  have h3 := congrArg (fun x : Tree => x.1.text) h
  have h4 := congrArg (fun x : Tree => x.1.tail) h
  exact ⟨h1, h2, h3, h4⟩

/-- **C69**, tables: let a sheet of the saved document be a table after any history of calls (`Life`), without
an empty string as text.  The sheet of the opened document at the same place, read with any strategy, shows the
same grid. -/
theorem C69_grid {L : XLib} (hl : L.Lawful) {s' s'' : Session} (h : Reopened L s' s'') {i : Nat} {T : TState}
    (hT : Life T) {t : Tree} (ht : (sheetsOf s')[i]? = some t) (hd : data t = data (T.node, T.kids))
    (hne : shape t = data t) {strategy : String}
    (hname : strategy ∈ ["all", "all_but_last", "all_less_maxcount"])
    {mx : Int × Int} (hm : 1 < mx.1 ∧ 1 < mx.2) :
    ∃ t' c, (sheetsOf s'')[i]? = some t' ∧ Tbl.load strategy mx (stored t'.1 t'.2 (Parts.newId s''.world)) = (c, .ok ()) ∧
      c.node = t'.1 ∧ c.kids = t'.2 ∧ Shows c ∧ nrows c = nrows T ∧ ncols c = ncols T ∧ Tbl.name c = Tbl.name T ∧
      ∀ pos i j, Denotes (nrows T) pos.1 i → Denotes (ncols T) pos.2 j →
        ∃ u u', getCell T pos = .ok u ∧ getCell c pos = .ok u' ∧
          SameContent (.cons u.1 u.2 .nil) (.cons u'.1 u'.2 .nil) := by
  have hs := C69_sheets h
  have hi := congrArg (fun l => l[i]?) hs
  simp only [List.getElem?_map, ht, Option.map_some, Option.map_eq_some_iff] at hi
  obtain ⟨t', ht', hdt⟩ := hi
  rw [hne, hd] at hdt
  have hg := h.lives.good hl
  obtain ⟨b, b', -, h2, -⟩ := h.body
  have hb : t' ∈ b'.2.toList := by
    have hm := List.mem_of_getElem? ht'
    unfold sheetsOf at hm
    rw [h2] at hm
    exact (List.mem_filter.mp hm).1
  have hf := child_find hg.once h2 hb
  have hids : ∀ j ∈ ids t'.2, j ∈ ids s''.world := fun j hj => (find_sub hf).subset (by simp [hj])
  have hnd : (ids t'.2).Nodup := by
    have := nodup_tree hg.once hf
    simp at this
    exact this.2
  obtain ⟨c, c1, c2, c3, c4, c5, c6, -, c8, c9⟩ := Tbl.C62_reread hT hname hm (node := t'.1) (G := t'.2)
    (n := Parts.newId s''.world) (sameElem_of_data hdt) (Tbl.sameContent_of_erase (erase_of_data hdt).symm) hnd
    (fun j hj => lt_newId (hids j hj))
  exact ⟨t', c, ht', c1, c2, c3, c4, c5, c6, c8, c9⟩

/-! ## Saving succeeds -/

/-- The last steps of saving succeed when the temporary file has another name. -/
theorem tail_succeeds {f tmp : Path} (backup : Bool) {w : Package.W} {n : Content} (hne : tmp ≠ f)
    (hnb : tmp ≠ f ++ ".bak".toList) (ht : w.fs tmp = some n) : (saveTail f tmp backup w).2 = .ok () := by
  cases hf : w.fs f with
  | none => rw [tail_free hf ht]
  | some c =>
    cases backup with
    | false => rw [tail_remove hne hf ht]
    | true =>
      cases hb : w.fs (f ++ ".bak".toList) with
      | none => rw [tail_backup rfl hne hnb hf ht hb]
      | some o => rw [tail_replace rfl hne hnb hf ht hb]

/-- The current parts can be written. -/
theorem bytes_ok {L : XLib} {s : Session} (hg : Good s) (p : MetaPart) (hmime : MIMETYPE ∈ s.w.fm.dir.keys)
    (hb : ∀ n g, n ∉ [META, STYLES, CONTENT] → s.w.fm.dir.get n = some g →
      (currentBytes L.pkg s.w.fm.manifest.kids g.element).isSome) :
    let w := sync s.w (syncOps L s.world p s.tree)
    (MIMETYPE ∈ w.fm.dir.keys) ∧ (∀ n g, w.fm.dir.get n = some g →
      (currentBytes L.pkg w.fm.manifest.kids g.element).isSome) ∧
    ∀ sink : Member → Option Exc, (∀ m, sink m = none) → ∃ fm' z, tobytes L.pkg sink w.fs w.fm = (fm', .ok z) := by
  intro w
  obtain ⟨tag, -, hdr⟩ := hg.refs
  obtain ⟨ts, fts⟩ := find_some_of_mem (Parts.mem_of_tagAt hdr.stylesRoot)
  obtain ⟨tc, ftc⟩ := find_some_of_mem (Parts.mem_of_tagAt hdr.contentRoot)
  have hp := pack_sync (L := L) hg.pack s.world p s.tree
  obtain ⟨p1, p2, p3, p4⟩ := sync_get hg.pack (.object (.ok (L.tostring p.tree)))
    (.object (treeBytes L s.world s.tree.styles.root)) (.object (treeBytes L s.world s.tree.content.root))
  obtain ⟨e1, e2, e3, e4, e5⟩ := sync_frame (syncOps L s.world p s.tree) s.w
  obtain ⟨orig, hk⟩ := hp.keeps
  obtain ⟨o, ho⟩ := hk.open_
  have hbytes : ∀ n g, (sync s.w (syncOps L s.world p s.tree)).fm.dir.get n = some g →
      (currentBytes L.pkg (sync s.w (syncOps L s.world p s.tree)).fm.manifest.kids g.element).isSome := by
    intro n g hgn
    by_cases hn : n ∈ [META, STYLES, CONTENT]
    · have hel : ∃ b, g.element = .object (.ok b) := by
        simp only [List.mem_cons, List.not_mem_nil, or_false] at hn
        have hx : (sync s.w (syncOps L s.world p s.tree)).fm.dir.get n = some g := hgn
        rcases hn with rfl | rfl | rfl
        · have : ((sync s.w (syncOps L s.world p s.tree)).fm.dir.get META).map FileObject.element = _ := p2
          rw [hx] at this
          exact ⟨_, Option.some.inj this⟩
        · have : ((sync s.w (syncOps L s.world p s.tree)).fm.dir.get STYLES).map FileObject.element = _ := p3
          rw [hx] at this
          unfold treeBytes at this
          rw [fts] at this
          exact ⟨_, Option.some.inj this⟩
        · have : ((sync s.w (syncOps L s.world p s.tree)).fm.dir.get CONTENT).map FileObject.element = _ := p4
          rw [hx] at this
          unfold treeBytes at this
          rw [ftc] at this
          exact ⟨_, Option.some.inj this⟩
      obtain ⟨b, hb'⟩ := hel
      rw [hb']
      rfl
    · rw [e3]
      exact hb n g hn (by rw [← e5 n hn]; exact hgn)
  have hm : MIMETYPE ∈ w.fm.dir.keys := by show MIMETYPE ∈ (sync s.w (syncOps L s.world p s.tree)).fm.dir.keys; rw [e4]; exact hmime
  refine ⟨hm, hbytes, fun sink hsink => ?_⟩
  obtain ⟨fm', z, hz, -⟩ := C39_succeeds L.pkg _ _ o hk.nodup ho hm hbytes sink hsink
  exact ⟨fm', z, hz⟩

/-- **C69**, saving succeeds: every part that was registered besides the three can be written, the mimetype is
registered, the number of editing cycles is not an element without text, a temporary file can be made under another name, and the disk takes
the file. -/
theorem C69_saves {L : XLib} (hl : L.Lawful) {s : Session} (hs : Lives L s) {f : Path} (hd : s.docname = some f)
    (env : Env) (k : Clock) (backup : Bool)
    (hcycles : (Meta.abs s.meta_.m).tag "editing-cycles" ≠ some none) (hmime : MIMETYPE ∈ s.w.fm.dir.keys)
    (hb : ∀ n g, n ∉ [META, STYLES, CONTENT] → s.w.fm.dir.get n = some g →
      (currentBytes L.pkg s.w.fm.manifest.kids g.element).isSome)
    (hsink : ∀ m, env.sink m = none) {tmp : Path} (htmp : tmpfilename env.names f s.w.fs = some tmp)
    (hne : tmp ≠ f) :
    ∃ s', saveWhole L env k backup s = (s', .ok ()) := by
  have hg := hs.good hl
  have hm : (Meta.save k.time k.generator (.ok ()) s.meta_.m).2 = .ok () := by
    rw [Meta.save_ok_iff hg.meta_.wf, if_neg hcycles]
  rcases hms : Meta.save k.time k.generator (.ok ()) s.meta_.m with ⟨m, q⟩
  rw [hms] at hm
  cases hm
  let p : MetaPart := { s.meta_ with m := m }
  have hp := pack_sync (L := L) hg.pack s.world p s.tree
  obtain ⟨e1, -⟩ := sync_frame (syncOps L s.world p s.tree) s.w
  obtain ⟨orig, hk⟩ := hp.keeps
  obtain ⟨o, ho⟩ := hk.open_
  obtain ⟨hmm, hbytes, hall⟩ := bytes_ok (L := L) hg p hmime hb
  obtain ⟨fm', z, hz⟩ := hall env.sink hsink
  have hsave : (saveDoc L.pkg env f backup (sync s.w (syncOps L s.world p s.tree))).2 = .ok () := by
    have htz : ∃ fm z, tozip L.pkg env.sink (sync s.w (syncOps L s.world p s.tree)).fs
        ((sync s.w (syncOps L s.world p s.tree)).fm, []) = ((fm, z), .ok ()) := by
      unfold tobytes at hz
      split at hz
      · rename_i st u hst
        exact ⟨st.1, st.2, hst⟩
      · simp at hz
    unfold saveDoc
    cases hsr : (sync s.w (syncOps L s.world p s.tree)).fm.source with
    | file q =>
      dsimp only
      obtain ⟨b, -, hse⟩ := save_eq (lib := L.pkg) (env := env) (backup := backup)
        (w := sync s.w (syncOps L s.world p s.tree)) (by rw [e1]; exact htmp)
      rw [hse]
      obtain ⟨fm1, z1, hz1⟩ := htz
      rw [hz1]
      dsimp only
      exact tail_succeeds backup hne (tmp_ne_bak htmp) (write_same _ _ _)
    | stream c =>
      dsimp only
      unfold streamSave
      dsimp only
      obtain ⟨w1, -⟩ := writePieces_eq f [[]] (sync s.w (syncOps L s.world p s.tree))
      have ho' : Opened (writePieces f [[]] (sync s.w (syncOps L s.world p s.tree))).fs
          (sync s.w (syncOps L s.world p s.tree)).fm o := by
        unfold Opened at ho ⊢
        rw [hsr] at ho ⊢
        cases c <;> exact ho
      obtain ⟨fm1, z1, hz1, -⟩ := C39_succeeds L.pkg _ _ o hk.nodup ho' hmm hbytes env.sink hsink
      rw [w1, hz1]
  refine ⟨{ s with meta_ := p, w := (routine L.pkg env f backup (sync s.w (syncOps L s.world p s.tree))).1 }, ?_⟩
  unfold saveWhole
  rw [hd]
  dsimp only
  rw [touch_inc, hms]
  dsimp only
  have : (routine L.pkg env f backup (sync s.w (syncOps L s.world p s.tree))).2 = .ok () := hsave
  rw [← this]

/-- **C69**, the name of a document: that of the file it was opened from; a document from a stream has none, and
its `save` is refused with IOError before anything is changed. -/
theorem C69_name {L : XLib} {fs : FS} {k : Clock} {src : Source} {W : World} {s : Session}
    (h : openWhole L fs k src W = .ok s) :
    (∀ p, src = .file p → s.docname = p) ∧
    ∀ c, src = .stream c → s.docname = none ∧
      ∀ env k' backup, saveWhole L env k' backup s = (s, .error .IOError) := by
  have hd : ∀ fm mt, openWhole L fs k src W = packagedWhole L fs k fm mt W → s.docname = zipname fm := by
    intro fm mt e
    rw [h] at e
    obtain ⟨doc, _, _, _, _, _, _, h1, _, _, _, rfl⟩ := packagedWhole_inv e.symm
    show doc.docname = _
    unfold packaged at h1
    cases mt with
    | none => cases h1
    | some mt =>
      simp only at h1
      repeat' (split at h1; · cases h1)
      cases h1
      rfl
  unfold openWhole at h hd
  split at h
  · cases h
  · rename_i fm ho
    simp only [ho] at hd
    split at h
    · cases h
    · rename_i mt hdt
      simp only [hdt] at hd
      have hn := hd fm mt rfl
      have hs := (open_ok ho).1
      refine ⟨?_, ?_⟩
      · rintro p rfl
        rw [hn, zipname, hs]
      · rintro c rfl
        have hnone : s.docname = none := by rw [hn, zipname, hs]
        refine ⟨hnone, fun env k' backup => ?_⟩
        unfold saveWhole
        rw [hnone]

end Verif.Whole
