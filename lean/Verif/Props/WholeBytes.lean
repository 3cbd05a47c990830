import Verif.Props.WholeDemo
/-! # C79 documents in memory: `tobytes`, saving to a stream, and opening a stream -/
namespace Verif.Whole
open Verif Verif.Lxml Forest Verif.Package Verif.Document
set_option linter.unusedSimpArgs false

/-! ## Packages -/

/-- Setting the current elements again changes nothing. -/
theorem set_same {κ α : Type} [DecidableEq κ] {d : Dict κ α} {n : κ} {g : α} (h : d.get n = some g) : d.set n g = d := by
  induction d with
  | nil => cases h
  | cons p r ih =>
    obtain ⟨k, v⟩ := p
    rw [Dict.get_cons] at h
    unfold Dict.set
    by_cases e : k = n
    · rw [if_pos e] at h
      cases h
      simp [e]
    · rw [if_neg e] at h
      simp only [e, if_false]
      rw [ih h]

theorem sync_same : ∀ (l : List (Str × Element)) (w : Package.W),
    (∀ p ∈ l, (w.fm.dir.get p.1).map FileObject.element = some p.2) → sync w l = w
  | [], _, _ => rfl
  | (n, x) :: r, w, h => by
    have h1 := h (n, x) (by simp)
    cases hg : w.fm.dir.get n with
    | none => rw [hg] at h1; cases h1
    | some g =>
      rw [hg] at h1
      simp only [Option.map_some, Option.some.injEq] at h1
      have e : sync w ((n, x) :: r) = sync w r := by
        simp only [sync, hg]
        have : ({ g with element := x } : FileObject) = g := by rw [← h1]
        rw [this, set_same hg]
      rw [e]
      exact sync_same r w fun p hp => h p (List.mem_cons_of_mem _ hp)

/-- The members of a written package: the parts, then the others. -/
theorem written_split {lib : Lib} {sink : Member → Option Exc} {fs : FS} {fm fm' : FM} {z : Zip}
    (h : tobytes lib sink fs fm = (fm', .ok z)) : ∃ f, fm.dir.get MIMETYPE = some f ∧ fm' = putBack fm f ∧
      z = (partMember lib fm (MIMETYPE, { f with stored := true }) :: (others fm).map (partMember lib fm)) ++
        z.filter (fun m => m.name ∉ fm.dir.keys) := by
  obtain ⟨f, hf, hfm, hz, -⟩ := tobytes_ok h
  refine ⟨f, hf, hfm, ?_⟩
  have hk : ∀ m ∈ (partMember lib fm (MIMETYPE, { f with stored := true }) :: (others fm).map (partMember lib fm)),
      m.name ∈ fm.dir.keys := by
    intro m hm
    rcases List.mem_cons.1 hm with rfl | hm
    · exact (Dict.get_isSome (k := MIMETYPE)).1 (by rw [hf]; rfl)
    · obtain ⟨p, hp, rfl⟩ := List.mem_map.1 hm
      exact ((keys_others fm _).1 (List.mem_map.2 ⟨p, hp, rfl⟩)).1
  have hc : ∀ m ∈ copied (members fs fm) (MIMETYPE :: (others fm).keys) (members fs fm), m.name ∉ fm.dir.keys := by
    intro m hm
    unfold copied at hm
    obtain ⟨m', hm', rfl⟩ := List.mem_map.1 hm
    have := (List.mem_filter.1 hm').2
    exact fun e => of_decide_eq_true this ((ignore_iff hf _).mpr e)
  rw [hz]
  unfold Package.written
  rw [← List.cons_append, List.filter_append]
  rw [List.filter_eq_nil_iff.mpr (fun m hm => by simpa using hk m hm), List.nil_append]
  rw [List.filter_eq_self.mpr (fun m hm => by simpa using hc m hm)]

theorem del_set_del {κ α : Type} [DecidableEq κ] (d : Dict κ α) (n : κ) (v : α) :
    ((d.del n).set n v).del n = d.del n := by
  have h : ∀ d : Dict κ α, (d.set n v).del n = d.del n := by
    intro d
    induction d with
    | nil => simp [Dict.set, Dict.del]
    | cons p r ih =>
      obtain ⟨k, w⟩ := p
      unfold Dict.set
      by_cases e : k = n
      · subst e
        simp [Dict.del]
      · simp only [e, if_false]
        unfold Dict.del at ih ⊢
        rw [List.filter_cons, List.filter_cons, ih]
  rw [h]
  unfold Dict.del
  rw [List.filter_filter]
  simp

/-- The other members of a written package have the content that reading gives. -/
theorem read_extra {lib : Lib} {sink : Member → Option Exc} {fs : FS} {fm fm' : FM} {z orig : Zip}
    (ho : Opened fs fm orig) (h : tobytes lib sink fs fm = (fm', .ok z)) {m : Member}
    (hm : m ∈ z.filter (fun m => m.name ∉ fm.dir.keys)) : z.read m.name = some m.data := by
  have hr := C39_rest lib sink fs fm fm' z orig ho h
  have hd : ∀ u ∈ z.filter (fun m => m.name ∉ fm.dir.keys), u.data = (orig.read u.name).getD [] := by
    intro u hu
    rw [hr] at hu
    obtain ⟨v, -, rfl⟩ := List.mem_map.1 hu
    rfl
  rw [read_eq]
  obtain ⟨h1, h2⟩ := List.mem_filter.1 hm
  have hne : z.filter (fun u => u.name = m.name) ≠ [] := by
    intro e
    have := List.filter_eq_nil_iff.1 e m h1
    simp at this
  obtain ⟨u, hu⟩ := Option.isSome_iff_exists.1 (by rw [List.getLast?_isSome]; exact hne :
    (z.filter (fun u => u.name = m.name)).getLast?.isSome)
  rw [hu, Option.map_some]
  obtain ⟨h3, h4⟩ := List.mem_filter.1 (List.mem_of_getLast? hu)
  have h4 : u.name = m.name := of_decide_eq_true h4
  rw [hd m hm, hd u (List.mem_filter.2 ⟨h3, by rw [h4]; exact h2⟩), h4]

/-- A package that is written again, from the same source or from what was written first, is the same. -/
theorem bytes_again {lib : Lib} {sink sink' : Member → Option Exc} {fs fs' : FS} {fm fm' fm1 fm1' : FM} {z z' orig orig' : Zip}
    (ho : Opened fs fm orig) (h : tobytes lib sink fs fm = (fm', .ok z)) (hdir : fm1.dir = fm'.dir)
    (hman : fm1.manifest = fm'.manifest) (ho' : Opened fs' fm1 orig') (hor : orig' = orig ∨ orig' = z)
    (h' : tobytes lib sink' fs' fm1 = (fm1', .ok z')) : z' = z := by
  obtain ⟨f, hf, hfm, hz⟩ := written_split h
  obtain ⟨f1, hf1, -, hz'⟩ := written_split h'
  have hget : ∀ n, fm1.dir.get n = if MIMETYPE = n then some { f with stored := true } else fm.dir.get n := by
    intro n
    rw [hdir, hfm]
    unfold putBack
    rw [Dict.get_set]
    split
    · rfl
    · rename_i hn
      rw [Dict.get_del, if_neg hn]
  have hkey : ∀ n, n ∈ fm1.dir.keys ↔ n ∈ fm.dir.keys := by
    intro n
    rw [← Dict.get_isSome, ← Dict.get_isSome, hget]
    split
    · rename_i hn
      rw [← hn, hf]; simp
    · exact Iff.rfl
  have ef : f1 = { f with stored := true } := by
    rw [hget, if_pos rfl] at hf1
    exact (Option.some.inj hf1).symm
  have hman' : fm1.manifest = fm.manifest := by rw [hman, hfm]; rfl
  have hoth : others fm1 = others fm := by
    unfold others
    rw [hdir, hfm]
    unfold putBack
    exact del_set_del _ _ _
  have hP : (partMember lib fm1 (MIMETYPE, { f1 with stored := true }) :: (others fm1).map (partMember lib fm1)) =
      (partMember lib fm (MIMETYPE, { f with stored := true }) :: (others fm).map (partMember lib fm)) := by
    rw [partMember_manifest lib hman', hoth, ef]
  have hfil : ∀ l : Zip, l.filter (fun m => m.name ∉ fm1.dir.keys) = l.filter (fun m => m.name ∉ fm.dir.keys) := by
    intro l
    refine List.filter_congr fun m _ => ?_
    simp only [hkey]
  have hrest : z'.filter (fun m => m.name ∉ fm1.dir.keys) = z.filter (fun m => m.name ∉ fm.dir.keys) := by
    rw [C39_rest lib sink' fs' fm1 fm1' z' orig' ho' h', hfil]
    rcases hor with rfl | rfl
    · rw [C39_rest lib sink fs fm fm' z orig' ho h]
    · conv => rhs; rw [← List.map_id (orig'.filter _)]
      refine List.map_congr_left fun m hm => ?_
      rw [read_extra ho h hm]
      rfl
  rw [hz', hP, hrest, ← hz]

/-- The manager after a save: the parts are those after `tobytes`; the source is the file, or still the stream. -/
theorem saveDoc_after {lib : Lib} {env : Env} {f : Path} {backup : Bool} {w w' : W}
    (h : saveDoc lib env f backup w = (w', .ok ())) :
    ∃ z fm', tobytes lib env.sink w.fs w.fm = (fm', .ok z) ∧ w'.fs f = some (.zip z) ∧ w'.fm.dir = fm'.dir ∧
      w'.fm.manifest = fm'.manifest ∧ (w'.fm.source = .file (some f) ∨
        ∃ c, w.fm.source = .stream c ∧ w'.fm.source = .stream c) := by
  unfold saveDoc at h
  cases hsrc : w.fm.source with
  | file p =>
    rw [hsrc] at h
    dsimp only at h
    cases ht : tmpfilename env.names f w.fs with
    | none =>
      have e : save lib env f backup w = (w, .error .IOError) := by unfold save; rw [ht]
      rw [e] at h
      simp at h
    | some tmp =>
      obtain ⟨b, -, hs⟩ := save_eq (lib := lib) (backup := backup) ht
      have hnb := tmp_ne_bak ht
      rw [hs] at h
      cases hz : tozip lib env.sink w.fs (w.fm, []) with
      | mk s o =>
        obtain ⟨fm', z⟩ := s
        rw [hz] at h
        cases o with
        | error e => simp at h
        | ok u =>
          refine ⟨z, fm', tozip_tobytes hz, ?_⟩
          dsimp only at h
          have hN : (w.fs.write tmp (some (Content.zip z))) tmp = some (.zip z) := write_same _ _ _
          have hres : w'.fm = moved fm' f ∧ w'.fs f = some (.zip z) := by
            by_cases hne : tmp = f
            · subst hne
              cases backup with
              | false => rw [tail_clash hN] at h; simp at h
              | true => rw [tail_clash_backup rfl hN] at h; simp at h
            · cases hf : w.fs f with
              | none =>
                rw [tail_free (n := .zip z) (by show w.fs.write _ _ _ = _; rw [write_ne _ (Ne.symm hne), hf]) hN] at h
                rw [← (Prod.mk.inj h).1]
                exact ⟨rfl, write_same _ _ _⟩
              | some c =>
                have hfc : (w.fs.write tmp (some (Content.zip z))) f = some c := by
                  rw [write_ne _ (Ne.symm hne), hf]
                cases backup with
                | false =>
                  rw [tail_remove hne hfc hN] at h
                  rw [← (Prod.mk.inj h).1]
                  exact ⟨rfl, write_same _ _ _⟩
                | true =>
                  cases hbak : (w.fs.write tmp (some (Content.zip z))) (f ++ ".bak".toList) with
                  | none =>
                    rw [tail_backup rfl hne hnb hfc hN hbak] at h
                    rw [← (Prod.mk.inj h).1]
                    exact ⟨rfl, write_same _ _ _⟩
                  | some o =>
                    rw [tail_replace rfl hne hnb hfc hN hbak] at h
                    rw [← (Prod.mk.inj h).1]
                    exact ⟨rfl, write_same _ _ _⟩
          exact ⟨hres.2, by rw [hres.1]; rfl, by rw [hres.1]; rfl, .inl (by rw [hres.1]; rfl)⟩
  | stream c =>
    rw [hsrc] at h
    dsimp only at h
    have hfs : ∀ fs', tobytes lib env.sink fs' w.fm = tobytes lib env.sink w.fs w.fm := by
      intro fs'
      unfold tobytes
      rw [tozip_stream hsrc w.fs]
    have hp := (writePieces_eq f [[]] w).1
    unfold streamSave at h
    simp only at h
    rw [hp, hfs] at h
    have hfr := tozip_frame (lib := lib) (sink := env.sink) (fs := w.fs) (w.fm, [])
    have hfm := tobytes_fm (lib := lib) (sink := env.sink) (fs := w.fs) w.fm
    cases hb : tobytes lib env.sink w.fs w.fm with
    | mk fm' o =>
      rw [hb] at hfm h
      simp only at hfm
      rw [← hfm] at hfr
      cases o with
      | error e => simp at h
      | ok z =>
        simp only at h
        have hp2 := (writePieces_eq f env.pieces ({ writePieces f [[]] w with fm := fm' } : W)).1
        have e := (Prod.mk.inj h).1
        have e2 : w'.fm = fm' := by rw [← e]; exact hp2
        refine ⟨z, fm', rfl, ?_, by rw [e2], by rw [e2], .inr ⟨c, rfl, ?_⟩⟩
        · rw [← e]; exact write_same _ _ _
        · rw [e2, hfr.2]; exact hsrc

/-! ## Documents -/

/-- The package that is written holds the document. -/
structure Holds (L : XLib) (z : Zip) (s : Session) : Prop where
  mime : z.read MIMETYPE = some (utf8 s.mimetype)
  manifest : ∃ kids, z.read MANIFEST = some (L.pkg.tostring kids)
  meta_ : z.read META = some (L.tostring s.meta_.tree)
  styles : ∃ t, find s.tree.styles.root s.world = some t ∧ z.read STYLES = some (L.tostring t)
  content : ∃ t, find s.tree.content.root s.world = some t ∧ z.read CONTENT = some (L.tostring t)

theorem reopen_src {L : XLib} (hl : L.Lawful) {s : Session} (hg : Good s) {z : Zip} (hz : Holds L z s) (hw : Writable s)
    {fs : FS} {src : Source} (ho : Opens fs src z) (k : Clock) {W0 : World} (h0 : (ids W0).Nodup) :
    ∃ s'', openWhole L fs k src W0 = .ok s'' ∧ Reopened L { s with docname := nameOf src } s'' ∧
      ∀ i u, find i W0 = some u → find i s''.world = some u := by
  obtain ⟨tag, ht, hd⟩ := hg.refs
  obtain ⟨h5, ⟨kids, h6⟩, h7, ⟨ts, h3, h8⟩, ⟨tc, h4, h9⟩⟩ := hz
  obtain ⟨l1, l2⟩ := hw.meta_
  obtain ⟨l3, l4⟩ := hw.roots _ (by simp) _ h3
  obtain ⟨l5, l6⟩ := hw.roots s.tree.content.root (by simp) _ h4
  obtain ⟨s'', fm, o1, o2, o3, o4, o5, o6, o7, o8, o9, ⟨ts', a1, a2⟩, ⟨tc', b1, b2⟩, c1, c2, ⟨b, b', d1, d2, d3⟩, e⟩ :=
    open_saved hl ho h6 h5 hg.ext ht hg.meta_ l1 l2 h7 hg.once hd h3 l3 l4 h8 h4 l5 l6 h9 k h0
  exact ⟨s'', o3, ⟨Lives.made s''.docname h0 o1 o2, o4, o5, o6, o8, o9, ⟨ts, ts', h3, a1, a2⟩,
    ⟨tc, tc', h4, b1, b2⟩, ⟨b, b', d1, d2, d3⟩, c1, c2⟩, e⟩

/-- Writing the current parts gives a package that holds the document. -/
theorem holds_bytes {L : XLib} {s : Session} (hg : Good s) {p : MetaPart} {sink : Member → Option Exc} {fm' : FM} {z : Zip}
    (h : tobytes L.pkg sink (sync s.w (syncOps L s.world p s.tree)).fs (sync s.w (syncOps L s.world p s.tree)).fm =
      (fm', .ok z)) {w : Package.W} : Holds L z { s with meta_ := p, w := w } := by
  obtain ⟨tag, -, hd⟩ := hg.refs
  obtain ⟨ts, fts⟩ := find_some_of_mem (Parts.mem_of_tagAt hd.stylesRoot)
  obtain ⟨tc, ftc⟩ := find_some_of_mem (Parts.mem_of_tagAt hd.contentRoot)
  obtain ⟨p1, p2, p3, p4⟩ := sync_get hg.pack (.object (.ok (L.tostring p.tree)))
    (.object (treeBytes L s.world s.tree.styles.root)) (.object (treeBytes L s.world s.tree.content.root))
  obtain ⟨z2, z3, z4⟩ := bytes_parts (pack_sync (L := L) hg.pack s.world p s.tree) h
  refine ⟨z2, ⟨_, z3⟩, z4 _ _ p2, ⟨ts, fts, z4 _ _ ?_⟩, ⟨tc, ftc, z4 _ _ ?_⟩⟩
  · refine p3.trans ?_
    unfold treeBytes
    rw [fts]
  · refine p4.trans ?_
    unfold treeBytes
    rw [ftc]

theorem tobytesWhole_ok {L : XLib} {sink : Member → Option Exc} {s s' : Session} {r : Except Exc Zip}
    (h : tobytesWhole L sink s = (s', r)) :
    ∃ fm', tobytes L.pkg sink (sync s.w (syncOps L s.world s.meta_ s.tree)).fs
        (sync s.w (syncOps L s.world s.meta_ s.tree)).fm = (fm', r) ∧
      s' = { s with w := { sync s.w (syncOps L s.world s.meta_ s.tree) with fm := fm' } } := by
  unfold tobytesWhole at h
  dsimp only at h
  obtain ⟨h1, h2⟩ := Prod.mk.inj h
  exact ⟨_, Prod.ext rfl h2, h1.symm⟩

/-- **C79**: `tobytes` changes nothing of the document (the trees, the meta data, the name, the files), whether it raises
or not. -/
theorem C79_frame (L : XLib) (sink : Member → Option Exc) {s s' : Session} {r : Except Exc Zip}
    (h : tobytesWhole L sink s = (s', r)) :
    s'.world = s.world ∧ s'.tree = s.tree ∧ s'.meta_ = s.meta_ ∧ s'.docname = s.docname ∧ s'.mimetype = s.mimetype ∧
      s'.doctype = s.doctype ∧ s'.w.fs = s.w.fs ∧ s'.w.fm.source = s.w.fm.source := by
  obtain ⟨fm', h1, rfl⟩ := tobytesWhole_ok h
  obtain ⟨e1, e2, -⟩ := sync_frame (syncOps L s.world s.meta_ s.tree) s.w
  refine ⟨rfl, rfl, rfl, rfl, rfl, rfl, e1, ?_⟩
  have e3 := tobytes_fm (lib := L.pkg) (sink := sink) (fs := (sync s.w (syncOps L s.world s.meta_ s.tree)).fs)
    (sync s.w (syncOps L s.world s.meta_ s.tree)).fm
  rw [h1] at e3
  dsimp only at e3
  rw [e3, (tozip_frame _).2]
  exact e2

/-- **C79**: the bytes of a document, at any point of its life, can be opened, in any world, and give the same document,
as far as a file can tell; it has no name. -/
theorem C79_bytes {L : XLib} (hl : L.Lawful) {s s' : Session} (hs : Lives L s) {sink : Member → Option Exc} {z : Zip}
    (h : tobytesWhole L sink s = (s', .ok z)) (hw : Writable s) (fs : FS) (k : Clock) {W0 : World} (h0 : (ids W0).Nodup) :
    ∃ s'', openWhole L fs k (.stream (some (.zip z))) W0 = .ok s'' ∧ Reopened L { s with docname := none } s'' ∧
      ∀ i u, find i W0 = some u → find i s''.world = some u := by
  obtain ⟨fm', h1, rfl⟩ := tobytesWhole_ok h
  exact reopen_src hl (hs.good hl) (holds_bytes (w := s.w) (hs.good hl) h1) hw (.inr rfl) k h0

/-- After a write with the current elements of the parts, the elements are the current ones. -/
theorem sync_again {L : XLib} {s : Session} (hg : Good s) {p : MetaPart} {fm' : FM} {z : Zip} {sink : Member → Option Exc}
    (h : tobytes L.pkg sink (sync s.w (syncOps L s.world p s.tree)).fs (sync s.w (syncOps L s.world p s.tree)).fm =
      (fm', .ok z)) {w : Package.W} (hw : w.fm.dir = fm'.dir) : sync w (syncOps L s.world p s.tree) = w := by
  obtain ⟨p1, p2, p3, p4⟩ := sync_get hg.pack (.object (.ok (L.tostring p.tree)))
    (.object (treeBytes L s.world s.tree.styles.root)) (.object (treeBytes L s.world s.tree.content.root))
  obtain ⟨f, hf, hfm, -⟩ := written_split h
  have hget : ∀ n, MIMETYPE ≠ n → w.fm.dir.get n = (sync s.w (syncOps L s.world p s.tree)).fm.dir.get n := by
    intro n hn
    rw [hw, hfm]
    unfold putBack
    rw [Dict.get_set, if_neg hn, Dict.get_del, if_neg hn]
  refine sync_same _ _ fun q hq => ?_
  simp only [syncOps, List.mem_cons, List.not_mem_nil, or_false] at hq
  rcases hq with rfl | rfl | rfl
  · dsimp only
    rw [hget META (by decide +kernel)]
    exact p2
  · dsimp only
    rw [hget STYLES (by decide +kernel)]
    exact p3
  · dsimp only
    rw [hget CONTENT (by decide +kernel)]
    exact p4

/-- **C79**: writing the document to memory a second time gives the same package. -/
theorem C79_again {L : XLib} (hl : L.Lawful) {s s' s'' : Session} (hs : Lives L s) {sink sink' : Member → Option Exc} {z z' : Zip}
    (h : tobytesWhole L sink s = (s', .ok z)) (h' : tobytesWhole L sink' s' = (s'', .ok z')) : z' = z := by
  have hg := hs.good hl
  obtain ⟨fm', h1, rfl⟩ := tobytesWhole_ok h
  obtain ⟨fm1', h2, -⟩ := tobytesWhole_ok h'
  dsimp only at h2
  rw [sync_again hg h1 (w := { sync s.w (syncOps L s.world s.meta_ s.tree) with fm := fm' }) rfl] at h2
  dsimp only at h2
  obtain ⟨orig, hk⟩ := (pack_sync (L := L) hg.pack s.world s.meta_ s.tree).keeps
  obtain ⟨o, ho⟩ := hk.open_
  refine bytes_again ho h1 rfl rfl (opened_congr ?_ (fun _ _ => rfl) ho) (.inl rfl) h2
  have e3 := tobytes_fm (lib := L.pkg) (sink := sink) (fs := (sync s.w (syncOps L s.world s.meta_ s.tree)).fs)
    (sync s.w (syncOps L s.world s.meta_ s.tree)).fm
  rw [h1] at e3
  dsimp only at e3
  rw [e3, (tozip_frame _).2]

/-- **C79**: after a save, the document written to memory is the package in the file. -/
theorem C79_file {L : XLib} (hl : L.Lawful) {s s' s'' : Session} (hs : Lives L s) {env : Env} {k : Clock} {backup : Bool}
    {sink : Member → Option Exc} {z : Zip}
    (h : saveWhole L env k backup s = (s', .ok ())) (h' : tobytesWhole L sink s' = (s'', .ok z)) :
    ∃ f, s'.docname = some f ∧ s'.w.fs f = some (.zip z) := by
  have hg := hs.good hl
  obtain ⟨f, q1, q2, q3, q4, q5, q6, q7, q8⟩ := saveWhole_ok h
  obtain ⟨z0, fm', b1, b2, b3, b4, b5⟩ := saveDoc_after q8
  obtain ⟨fm1', h2, -⟩ := tobytesWhole_ok h'
  rw [q2, q3, sync_again hg b1 b3] at h2
  obtain ⟨orig, hk⟩ := (pack_sync (L := L) hg.pack s.world s'.meta_ s.tree).keeps
  obtain ⟨o, ho⟩ := hk.open_
  have : z = z0 := by
    rcases b5 with b5 | ⟨c, c1, c2⟩
    · refine bytes_again (orig' := z0) ho b1 b3 b4 ?_ (.inr rfl) h2
      unfold Opened
      rw [b5]
      exact .inl b2
    · refine bytes_again ho b1 b3 b4 (opened_congr (c2.trans c1.symm) (fun p hp => ?_) ho) (.inl rfl) h2
      rw [c1] at hp
      cases hp
  exact ⟨f, by rw [q4, q1], by rw [b2, this]⟩

/-- **C79**, writing to memory succeeds: every part that was registered besides the three can be written, and the mimetype
is registered. -/
theorem C79_succeeds {L : XLib} (hl : L.Lawful) {s : Session} (hs : Lives L s) (hmime : MIMETYPE ∈ s.w.fm.dir.keys)
    (hb : ∀ n g, n ∉ [META, STYLES, CONTENT] → s.w.fm.dir.get n = some g →
      (currentBytes L.pkg s.w.fm.manifest.kids g.element).isSome)
    {sink : Member → Option Exc} (hsink : ∀ m, sink m = none) : ∃ s' z, tobytesWhole L sink s = (s', .ok z) := by
  obtain ⟨-, -, h⟩ := bytes_ok (L := L) (hs.good hl) s.meta_ hmime hb
  obtain ⟨fm', z, hz⟩ := h sink hsink
  refine ⟨(tobytesWhole L sink s).1, z, Prod.ext rfl ?_⟩
  show (tobytes L.pkg sink _ _).2 = _
  rw [hz]

theorem saveStreamWhole_ok {L : XLib} {env : Env} {k : Clock} {s s' : Session} {z : Zip}
    (h : saveStreamWhole L env k s = (s', .ok z)) :
    ∃ m fm', Meta.save k.time k.generator (.ok ()) s.meta_.m = (m, .ok ()) ∧
      tobytes L.pkg env.sink (sync s.w (syncOps L s.world { s.meta_ with m := m } s.tree)).fs
        (sync s.w (syncOps L s.world { s.meta_ with m := m } s.tree)).fm = (fm', .ok z) ∧
      s' = { s with
        meta_ := { s.meta_ with m := m }
        w := { sync s.w (syncOps L s.world { s.meta_ with m := m } s.tree) with fm := fm' } } := by
  rw [saveStreamWhole_eq] at h
  rcases hm : Meta.save k.time k.generator (.ok ()) s.meta_.m with ⟨m, r⟩
  rw [hm] at h
  cases r with
  | error e => simp at h
  | ok u =>
    dsimp only at h
    unfold saveStream at h
    split at h
    · simp at h
    · rename_i st u' hst
      obtain ⟨h1, h2⟩ := Prod.mk.inj h
      cases h2
      exact ⟨m, st.1, rfl, tozip_tobytes hst, h1.symm⟩

/-- **C79**: what is written to a stream can be opened and gives the same document, as far as a file can tell; the document
is not changed, apart from the date, the generator and the number of editing cycles in its meta data; no file is changed. -/
theorem C79_stream {L : XLib} (hl : L.Lawful) {s s' : Session} (hs : Lives L s) {env : Env} {k : Clock} {z : Zip}
    (h : saveStreamWhole L env k s = (s', .ok z)) (hw : Writable s') (fs : FS) (k' : Clock) {W0 : World}
    (h0 : (ids W0).Nodup) :
    (∃ s'', openWhole L fs k' (.stream (some (.zip z))) W0 = .ok s'' ∧ Reopened L { s' with docname := none } s'' ∧
      ∀ i u, find i W0 = some u → find i s''.world = some u) ∧
    s'.world = s.world ∧ s'.tree = s.tree ∧ s'.docname = s.docname ∧ s'.mimetype = s.mimetype ∧ s'.doctype = s.doctype ∧
    s'.w.fs = s.w.fs ∧
    Meta.abs s'.meta_.m = Meta.specStep (Meta.abs s.meta_.m) (.save k.time k.generator (.ok ())) := by
  obtain ⟨m, fm', h1, h2, rfl⟩ := saveStreamWhole_ok h
  have hg' := (hs.streamed env k).good hl
  rw [h] at hg'
  refine ⟨reopen_src hl hg' (holds_bytes (hs.good hl) h2) hw (.inr rfl) k' h0, rfl, rfl, rfl, rfl, rfl,
    (sync_frame _ _).1, ?_⟩
  have e := (Meta.abs_step (hs.good hl).meta_.wf (.save k.time k.generator (.ok ()))).2
  rw [← e]
  show Meta.abs m = Meta.abs (Meta.save k.time k.generator (.ok ()) s.meta_.m).1
  rw [h1]

/-- **C79**: what is written to a stream is what `tobytes` gives afterwards. -/
theorem C79_stream_bytes {L : XLib} (hl : L.Lawful) {s s' s'' : Session} (hs : Lives L s) {env : Env} {k : Clock} {z z' : Zip}
    {sink : Member → Option Exc} (h : saveStreamWhole L env k s = (s', .ok z)) (h' : tobytesWhole L sink s' = (s'', .ok z')) :
    z' = z := by
  have hg := hs.good hl
  obtain ⟨m, fm', h1, h2, rfl⟩ := saveStreamWhole_ok h
  obtain ⟨fm1', h3, -⟩ := tobytesWhole_ok h'
  dsimp only at h3
  rw [sync_again hg h2 (w := { sync s.w (syncOps L s.world { s.meta_ with m := m } s.tree) with fm := fm' }) rfl] at h3
  dsimp only at h3
  obtain ⟨orig, hk⟩ := (pack_sync (L := L) hg.pack s.world { s.meta_ with m := m } s.tree).keeps
  obtain ⟨o, ho⟩ := hk.open_
  refine bytes_again ho h2 rfl rfl (opened_congr ?_ (fun _ _ => rfl) ho) (.inl rfl) h3
  have e3 := tobytes_fm (lib := L.pkg) (sink := env.sink)
    (fs := (sync s.w (syncOps L s.world { s.meta_ with m := m } s.tree)).fs)
    (sync s.w (syncOps L s.world { s.meta_ with m := m } s.tree)).fm
  rw [h2] at e3
  dsimp only at e3
  rw [e3, (tozip_frame _).2]

/-- **C79**, saving to a stream succeeds: as for `tobytes`, and the number of editing cycles is not an element without
text. -/
theorem C79_stream_succeeds {L : XLib} (hl : L.Lawful) {s : Session} (hs : Lives L s) {env : Env} {k : Clock}
    (hcycles : (Meta.abs s.meta_.m).tag "editing-cycles" ≠ some none) (hmime : MIMETYPE ∈ s.w.fm.dir.keys)
    (hb : ∀ n g, n ∉ [META, STYLES, CONTENT] → s.w.fm.dir.get n = some g →
      (currentBytes L.pkg s.w.fm.manifest.kids g.element).isSome)
    (hsink : ∀ m, env.sink m = none) : ∃ s' z, saveStreamWhole L env k s = (s', .ok z) := by
  have hg := hs.good hl
  have hm : (Meta.save k.time k.generator (.ok ()) s.meta_.m).2 = .ok () := by
    rw [Meta.save_ok_iff hg.meta_.wf, if_neg hcycles]
  rcases hms : Meta.save k.time k.generator (.ok ()) s.meta_.m with ⟨m, q⟩
  rw [hms] at hm
  cases hm
  obtain ⟨-, -, h⟩ := bytes_ok (L := L) hg { s.meta_ with m := m } hmime hb
  obtain ⟨fm', z, hz⟩ := h env.sink hsink
  refine ⟨(saveStreamWhole L env k s).1, z, Prod.ext rfl ?_⟩
  rw [saveStreamWhole_eq, hms]
  dsimp only
  unfold tobytes at hz
  unfold saveStream
  split at hz
  · rename_i st u hst
    rw [hst]
    exact (Prod.mk.inj hz).2
  · simp at hz

/-! ## A concrete case -/

/-- A new spreadsheet with a table is written to memory; it is opened from there. -/
example : ∃ L : XLib, L.Lawful ∧ ∃ s s' s'' z, Lives L s ∧ Writable s ∧ (sheetsOf s).length = 1 ∧
    tobytesWhole L (fun _ => none) s = (s', .ok z) ∧
    openWhole L (fun _ => none) demoClock (.stream (some (.zip z))) .nil = .ok s'' ∧
    Reopened L { s with docname := none } s'' ∧ ∃ s1 z1, saveStreamWhole L demoEnv demoClock s = (s1, .ok z1) := by
  obtain ⟨L, hl⟩ := xlib_exists
  have hmt : Parts.spreadsheet ∈ MIMETYPE_BODYTAG_MAP.keys := by decide +kernel
  obtain ⟨s, h1, h2, h3, h4, h5, h6, h7, -, -⟩ := new_ok (L := L) (fun _ => none) demoClock hmt
  have hd : demoOk (demo none (single (demoTable.node, demoTable.kids))) (fun W d => match find d.body.node W with
      | none => false
      | some b => decide ((tables b).length = 1)) = true := by decide +kernel
  have hn : (ids (demo none (single (demoTable.node, demoTable.kids)))).Nodup := by decide +kernel
  unfold demoOk at hd
  rcases hp : Parts.packagedTree Parts.spreadsheet (some 1) (some 2)
    (demo none (single (demoTable.node, demoTable.kids))) with ⟨W', r⟩
  rw [hp] at hd
  cases r with
  | error e => cases hd
  | ok d =>
    simp only [Bool.and_eq_true, List.all_eq_true] at hd
    obtain ⟨tag, t1, t2, t3⟩ := tree_refs hn hp
    have hlive := (h2 (some demoFile)).trees (W := W') (tag := tag) (d := d) t3 (by dsimp only; rw [h4]; exact t1) t2
    have hw : Writable { s with docname := some demoFile, world := W', tree := d } := by
      refine ⟨?_, fun r hr t ht => ?_⟩
      · dsimp only
        rw [h5]
        have hb : (legal (single (metaInit demoClock none).tree) && (metaInit demoClock none).tree.1.tail.isNone) = true := by
          decide +kernel
        simpa using hb
      · have := hd.2 r hr
        rw [ht] at this
        simpa using this
    obtain ⟨s', z, hz⟩ := C79_succeeds hl hlive h6 h7 (sink := fun _ => none) (fun _ => rfl)
    obtain ⟨s'', e1, e2, -⟩ := C79_bytes hl hlive hz hw (fun _ => none) demoClock (W0 := .nil) (by simp [ids])
    refine ⟨L, hl, _, s', s'', z, hlive, hw, ?_, hz, e1, e2, C79_stream_succeeds hl hlive ?_ h6 h7 (fun _ => rfl)⟩
    · have := hd.1
      unfold sheetsOf
      dsimp only
      split at this
      · cases this
      · rename_i b hb
        rw [hb]
        simpa using this
    · dsimp only
      rw [h5]
      show (Meta.abs (Meta.new demoClock.time demoClock.time2 demoClock.generator)).tag "editing-cycles" ≠ _
      rw [new_eq]
      decide +kernel

end Verif.Whole
