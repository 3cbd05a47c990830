import Verif.Props.Save
/-! # C41: repeated saves preserve the package -/
namespace Verif.Package
open Verif
set_option linter.unusedSimpArgs false

/-- `PackagedDocument._saving_routine`, document.py:231-232: the manager's own `save`. -/
def saveDoc (lib : Lib) (env : Env) (f : Path) (backup : Bool) : Py W Unit := fun w =>
  match w.fm.source with
  | .file _ => save lib env f backup w
  | .stream _ => streamSave lib env f w

/-- What can be done with an opened package: registering a part, editing a registered part (its
`tobytes` has another outcome), editing the manifest, saving, saving to a stream, `tobytes`. -/
inductive Op where
  | register (name : Str) (element : Element) (mediaType : Str) (info : Nat)
  | edit (name : Str) (element : Element)
  | manifest (m : Manifest.M)
  | save (env : Env) (f : Path) (backup : Bool)
  | saveStream (env : Env)
  | tobytes (sink : Member → Option Exc)

def step (lib : Lib) (w : W) : Op → W
  | .register n e t i => { w with fm := register n e t i w.fm }
  | .edit n e => match w.fm.dir.get n with
    | none => w
    | some g => { w with fm := { w.fm with dir := w.fm.dir.set n { g with element := e } } }
  | .manifest m => { w with fm := { w.fm with manifest := m } }
  | .save env f b => (saveDoc lib env f b w).1
  | .saveStream env => (saveStream lib env w).1
  | .tobytes sink => { w with fm := (tobytes lib sink w.fs w.fm).1 }

def run (lib : Lib) (w : W) (h : List Op) : W := h.foldl (step lib) w

/-- A package in which every member has the content that reading its name gives. -/
def norm (z : Zip) : Zip := z.map fun m => { m with data := (z.read m.name).getD [] }

theorem read_eq (z : Zip) (n : Str) : z.read n = ((z.filter fun m => m.name = n).getLast?).map Member.data := by
  unfold Zip.read
  rw [← List.head?_filter, List.filter_reverse, List.head?_reverse]

theorem norm_unique {z : Zip} (h : (z.map Member.name).Nodup) : norm z = z := by
  unfold norm
  conv => rhs; rw [← List.map_id z]
  apply List.map_congr_left
  intro m hm
  rw [read_unique h hm]; rfl

theorem read_norm (z : Zip) (n : Str) : (norm z).read n = z.read n := by
  rw [read_eq (norm z)]
  unfold norm
  rw [List.filter_map, List.getLast?_map]
  have : (fun m : Member => decide (m.name = n)) ∘ (fun m : Member => { m with data := (z.read m.name).getD [] }) =
      fun m : Member => decide (m.name = n) := rfl
  rw [this]
  cases h : (z.filter fun m => decide (m.name = n)).getLast? with
  | none => rw [read_eq, h]; rfl
  | some m =>
    have hm : m.name = n := by
      have := List.mem_of_getLast? h
      simpa using (List.mem_filter.1 this).2
    simp only [Option.map_some, hm]
    rw [read_eq, h]; rfl

theorem norm_data {z : Zip} {m : Member} (h : m ∈ norm z) : m.data = (z.read m.name).getD [] := by
  unfold norm at h
  obtain ⟨m', -, rfl⟩ := List.mem_map.1 h
  rfl

theorem norm_filter {U : Str → Bool} {z y : Zip}
    (h : z.filter (fun m => U m.name) = (norm y).filter (fun m => U m.name)) :
    (norm z).filter (fun m => U m.name) = (norm y).filter (fun m => U m.name) := by
  have hread : ∀ n, U n = true → z.read n = y.read n := by
    intro n hn
    rw [← read_norm y, read_eq, read_eq]
    have h2 : ∀ l : Zip, l.filter (fun m => decide (m.name = n)) =
        (l.filter (fun m => U m.name)).filter (fun m => decide (m.name = n)) := by
      intro l
      rw [List.filter_filter]
      apply List.filter_congr
      intro m _
      by_cases he : m.name = n
      · simp [he, hn]
      · simp [he]
    rw [h2 z, h2 (norm y), h]
  have h1 : (norm z).filter (fun m => U m.name) =
      (z.filter (fun m => U m.name)).map fun m => { m with data := (z.read m.name).getD [] } := by
    unfold norm; rw [List.filter_map]; rfl
  rw [h1, h]
  conv => rhs; rw [← List.map_id ((norm y).filter _)]
  apply List.map_congr_left
  intro m hm
  obtain ⟨hm1, hm2⟩ := List.mem_filter.1 hm
  rw [hread _ hm2, ← norm_data hm1]; rfl

/-- The names that are not registered (the mimetype counts as registered). -/
def extra (fm : FM) (n : Str) : Bool := decide (n ∉ fm.dir.keys ∧ n ≠ MIMETYPE)

/-- The invariant: the extra members of the current source are those of the opened package. -/
structure Keeps (orig : Zip) (w : W) : Prop where
  nodup : w.fm.dir.keys.Nodup
  open_ : ∃ z, Opened w.fs w.fm z
  same : (norm (members w.fs w.fm)).filter (fun m => extra w.fm m.name) =
    (norm orig).filter (fun m => extra w.fm m.name)

theorem filter_mono {U V : Str → Bool} (h : ∀ n, V n = true → U n = true) {a b : Zip}
    (hab : a.filter (fun m => U m.name) = b.filter (fun m => U m.name)) :
    a.filter (fun m => V m.name) = b.filter (fun m => V m.name) := by
  have h2 : ∀ l : Zip, l.filter (fun m => V m.name) =
      (l.filter (fun m => U m.name)).filter (fun m => V m.name) := by
    intro l
    rw [List.filter_filter]
    apply List.filter_congr
    intro m _
    cases hv : V m.name
    · rfl
    · simp [h _ hv]
  rw [h2 a, h2 b, hab]

/-- The three possible directories after `_tozip`. -/
theorem tozip_dir {lib sink fs} (s : FM × Zip) :
    (tozip lib sink fs s).1.1.dir = s.1.dir ∨
    (tozip lib sink fs s).1.1.dir = s.1.dir.del MIMETYPE ∨
    ∃ f, s.1.dir.get MIMETYPE = some f ∧ (tozip lib sink fs s).1.1.dir = (putBack s.1 f).dir := by
  unfold tozip
  split
  · exact .inl rfl
  · rename_i f hf
    simp only
    rw [Py.bind_def]
    have hf1 := writePart_fm (lib := lib) (sink := sink) MIMETYPE { f with stored := true }
      (({ s.1 with dir := s.1.dir.del MIMETYPE }, s.2) : FM × Zip)
    generalize writePart lib sink MIMETYPE { f with stored := true }
      (({ s.1 with dir := s.1.dir.del MIMETYPE }, s.2) : FM × Zip) = r1 at hf1
    obtain ⟨s1, o1⟩ := r1
    simp only at hf1
    cases o1 with
    | error e => simp only; rw [hf1]; exact .inr (.inl rfl)
    | ok u =>
      simp only
      rw [Py.bind_def]
      have hf2 := writeParts_fm (lib := lib) (sink := sink) (s.1.dir.del MIMETYPE) s1
      generalize writeParts lib sink (s.1.dir.del MIMETYPE) s1 = r2 at hf2
      obtain ⟨s2, o2⟩ := r2
      simp only at hf2
      cases o2 with
      | error e => simp only; rw [hf2, hf1]; exact .inr (.inl rfl)
      | ok u =>
        simp only
        rw [Py.bind_def]
        simp only [Py.modify]
        rw [copyZipTo_fm]
        simp only
        rw [hf2, hf1]; exact .inr (.inr ⟨f, hf, rfl⟩)

theorem tozip_keys {lib sink fs} (s : FM × Zip) (hd : s.1.dir.keys.Nodup) :
    (tozip lib sink fs s).1.1.dir.keys.Nodup ∧
    extra (tozip lib sink fs s).1.1 = extra s.1 ∧
    ∀ n, n ≠ MIMETYPE → (tozip lib sink fs s).1.1.dir.get n = s.1.dir.get n := by
  have key : ∀ d : Dict Str FileObject, d.keys.Nodup → (∀ n, n ≠ MIMETYPE → d.get n = s.1.dir.get n) →
      ∀ fm : FM, fm.dir = d → fm.dir.keys.Nodup ∧ extra fm = extra s.1 ∧
        ∀ n, n ≠ MIMETYPE → fm.dir.get n = s.1.dir.get n := by
    rintro d h1 h2 fm rfl
    refine ⟨h1, ?_, h2⟩
    funext n
    unfold extra
    rw [Bool.eq_iff_iff]
    simp only [decide_eq_true_eq]
    by_cases hn : n = MIMETYPE
    · simp [hn]
    · have := h2 n hn
      rw [← Dict.get_isSome, ← Dict.get_isSome, this]
  rcases tozip_dir (lib := lib) (sink := sink) (fs := fs) s with h | h | ⟨f, hf, h⟩
  · exact key _ hd (fun _ _ => rfl) _ h
  · exact key _ (Dict.nodup_del hd _) (fun n hn => by rw [Dict.get_del, if_neg (Ne.symm hn)]) _ h
  · refine key _ (Dict.nodup_set (Dict.nodup_del hd _) _ _) (fun n hn => ?_) _ h
    rw [Dict.get_set, if_neg (Ne.symm hn), Dict.get_del, if_neg (Ne.symm hn)]

/-- A written package has the extra members of the source. -/
theorem written_extra {lib sink} {fs : FS} {fm fm' : FM} {z orig : Zip}
    (ho : Opened fs fm orig) (h : tobytes lib sink fs fm = (fm', .ok z)) :
    z.filter (fun m => extra fm m.name) = (norm orig).filter (fun m => extra fm m.name) := by
  have hr := C39_rest lib sink fs fm fm' z orig ho h
  obtain ⟨f, hf, -⟩ := tobytes_ok h
  have hk : MIMETYPE ∈ fm.dir.keys := Dict.get_isSome.1 (by rw [hf]; rfl)
  have he : ∀ n, extra fm n = decide (n ∉ fm.dir.keys) := by
    intro n
    unfold extra
    rw [Bool.eq_iff_iff]
    simp only [decide_eq_true_eq]
    exact ⟨fun h => h.1, fun h => ⟨h, fun e => h (e ▸ hk)⟩⟩
  simp only [he]
  rw [hr]
  unfold norm
  rw [List.filter_map]; rfl

theorem opened_members {fs : FS} {fm : FM} (h : ∃ z, Opened fs fm z) : Opened fs fm (members fs fm) := by
  obtain ⟨z, h⟩ := h; rw [members_eq h]; exact h

theorem opened_congr {fs fs' : FS} {fm fm' : FM} {z : Zip} (hs : fm'.source = fm.source)
    (hf : ∀ p, fm.source = .file (some p) → fs' p = fs p) (h : Opened fs fm z) : Opened fs' fm' z := by
  unfold Opened at *
  rw [hs]
  cases hsrc : fm.source with
  | stream c => rw [hsrc] at h; cases c <;> exact h
  | file p =>
    rw [hsrc] at h
    cases p with
    | none => exact h
    | some p => simp only at h ⊢; rw [hf p hsrc]; exact h

/-- Keeping the source. -/
theorem keeps_source {orig : Zip} {w w' : W} (hk : Keeps orig w) (hn : w'.fm.dir.keys.Nodup)
    (hU : ∀ n, extra w'.fm n = true → extra w.fm n = true)
    (hz : ∃ z, Opened w'.fs w'.fm z ∧ (z = members w.fs w.fm ∨
      z.filter (fun m => extra w.fm m.name) = (norm (members w.fs w.fm)).filter (fun m => extra w.fm m.name))) :
    Keeps orig w' := by
  obtain ⟨z, ho, h⟩ := hz
  refine ⟨hn, ⟨z, ho⟩, ?_⟩
  rw [members_eq ho]
  apply filter_mono hU
  rcases h with rfl | h
  · exact hk.same
  · rw [norm_filter h]; exact hk.same

theorem keeps_same {orig : Zip} {w w' : W} (hk : Keeps orig w) (hn : w'.fm.dir.keys.Nodup)
    (hU : ∀ n, extra w'.fm n = true → extra w.fm n = true) (hs : w'.fm.source = w.fm.source)
    (hf : ∀ p, w.fm.source = .file (some p) → w'.fs p = w.fs p) : Keeps orig w' :=
  keeps_source hk hn hU ⟨_, opened_congr hs hf (opened_members hk.open_), .inl rfl⟩

theorem tobytes_fm {lib sink fs} (fm : FM) :
    (tobytes lib sink fs fm).1 = (tozip lib sink fs (fm, [])).1.1 := by
  unfold tobytes
  cases h : tozip lib sink fs (fm, []) with
  | mk s o => cases o <;> rfl

/-- One save to a file: whatever the outcome, the source keeps its extra members. -/
theorem keeps_save {lib : Lib} {env : Env} {f : Path} {backup : Bool} {orig : Zip} {w : W}
    (hk : Keeps orig w) (hsrc : ∃ p, w.fm.source = .file p) :
    Keeps orig (save lib env f backup w).1 ∧
    ((save lib env f backup w).2 = .ok () → ∃ z fm', tobytes lib env.sink w.fs w.fm = (fm', .ok z) ∧
      (save lib env f backup w).1.fs f = some (.zip z)) := by
  have ho := opened_members hk.open_
  cases ht : tmpfilename env.names f w.fs with
  | none =>
    have : save lib env f backup w = (w, .error .IOError) := by unfold save; rw [ht]
    rw [this]; exact ⟨hk, fun h => by cases h⟩
  | some tmp =>
    have htmp := (tmp_spec ht).1
    have hnb := tmp_ne_bak ht
    have hbf := bak_ne f
    obtain ⟨b, hb, hs⟩ := save_eq (lib := lib) (backup := backup) ht
    have hkeys := tozip_keys (lib := lib) (sink := env.sink) (fs := w.fs) (w.fm, []) hk.nodup
    have hfr := tozip_frame (lib := lib) (sink := env.sink) (fs := w.fs) (w.fm, [])
    rw [hs]
    cases hz : tozip lib env.sink w.fs (w.fm, []) with
    | mk s o =>
      obtain ⟨fm', z⟩ := s
      rw [hz] at hkeys hfr
      simp only at hkeys hfr
      cases o with
      | error e =>
        refine ⟨?_, fun h => by cases h⟩
        refine keeps_source hk hkeys.1 (fun n h => by rw [← hkeys.2.1]; exact h)
          ⟨members w.fs w.fm, ?_, .inl rfl⟩
        -- the temporary file is no zip file, and did not exist
        unfold Opened at ho ⊢
        simp only
        rw [hfr.2]
        cases hsrc' : w.fm.source with
        | stream c => rw [hsrc'] at ho; cases c <;> exact ho
        | file p =>
          rw [hsrc'] at ho
          cases p with
          | none => exact ho
          | some p =>
            simp only at ho ⊢
            by_cases hp : p = tmp
            · subst hp
              rw [htmp] at ho
              rcases ho with h | ⟨-, h⟩
              · cases h
              · right; rw [write_same]; exact ⟨fun z h => (by cases h), h⟩
            · rw [write_ne _ hp]; exact ho
      | ok u =>
        have htb := tozip_tobytes hz
        have hwe := written_extra ho htb
        -- the complete new document is as good as the source
        have hdone : ∀ w' : W, w'.fm = moved fm' f → w'.fs f = some (.zip z) → Keeps orig w' := by
          intro w' h1 h2
          refine keeps_source hk (by rw [h1]; exact hkeys.1)
            (fun n h => by rw [← hkeys.2.1]; rw [h1] at h; exact h) ⟨z, ?_, .inr hwe⟩
          unfold Opened; rw [h1]; simp only [moved]; exact .inl h2
        have hN : (w.fs.write tmp (some (Content.zip z))) tmp = some (.zip z) := write_same _ _ _
        by_cases hne : tmp = f
        · subst hne
          -- clash of names
          have hclash : ∀ w' : W, w'.fm = fm' → (∀ p, p ≠ tmp → w'.fs p = w.fs p ∨
              (w'.fs p = some (.zip z))) → w'.fs tmp = none → Keeps orig w' := by
            intro w' h1 h2 h3
            obtain ⟨p, hp⟩ := hsrc
            have hsrc' : w'.fm.source = w.fm.source := by rw [h1, hfr.2]
            by_cases hsame : ∀ p, w.fm.source = .file (some p) → w'.fs p = w.fs p
            · exact keeps_same hk (by rw [h1]; exact hkeys.1)
                (fun n h => by rw [← hkeys.2.1]; rw [h1] at h; exact h) hsrc' hsame
            · have : ∃ p, w.fm.source = .file (some p) ∧ w'.fs p ≠ w.fs p :=
                Classical.byContradiction fun hn => hsame fun p hp =>
                  Classical.byContradiction fun hq => hn ⟨p, hp, hq⟩
              obtain ⟨p, hp, hq⟩ := this
              have hpt : p ≠ tmp := by rintro rfl; exact hq (by rw [h3, htmp])
              have hzp : w'.fs p = some (.zip z) := (h2 p hpt).resolve_left hq
              refine keeps_source hk (by rw [h1]; exact hkeys.1)
                (fun n h => by rw [← hkeys.2.1]; rw [h1] at h; exact h) ⟨z, ?_, .inr hwe⟩
              unfold Opened; rw [hsrc', hp]; exact .inl hzp
          cases backup with
          | false =>
            simp only
            rw [tail_clash hN]
            refine ⟨hclash _ rfl ?_ (write_same _ _ _), fun h => by cases h⟩
            intro p hp
            left; simp only; rw [write_write, write_ne _ hp]
          | true =>
            simp only
            rw [tail_clash_backup rfl hN]
            refine ⟨?_, fun h => by cases h⟩
            split
            · refine hclash _ rfl ?_ ?_
              · intro p hp
                simp only
                by_cases hpb : p = tmp ++ ".bak".toList
                · right; rw [hpb, write_same]
                · left; rw [write_ne _ hpb, write_ne _ hp, write_ne _ hpb, write_ne _ hp]
              · simp only; rw [write_ne _ hnb, write_same]
            · refine hclash _ rfl ?_ ?_
              · intro p hp
                simp only
                by_cases hpb : p = tmp ++ ".bak".toList
                · right; rw [hpb, write_same]
                · left; rw [write_ne _ hpb, write_ne _ hp, write_ne _ hp]
              · simp only; rw [write_ne _ hnb, write_same]
        · have hres : ∀ r : W × Except Exc Unit, r.1.fm = moved fm' f → r.1.fs f = some (.zip z) →
              Keeps orig r.1 ∧ (r.2 = .ok () → ∃ z fm', tobytes lib env.sink w.fs w.fm = (fm', .ok z) ∧
                r.1.fs f = some (.zip z)) := fun r h1 h2 => ⟨hdone _ h1 h2, fun _ => ⟨z, fm', htb, h2⟩⟩
          simp only
          cases hf : w.fs f with
          | none =>
            rw [tail_free (n := .zip z) (by show w.fs.write _ _ _ = _; rw [write_ne _ (Ne.symm hne), hf]) hN]
            exact hres _ rfl (write_same _ _ _)
          | some c =>
            have hfc : (w.fs.write tmp (some (Content.zip z))) f = some c := by
              rw [write_ne _ (Ne.symm hne), hf]
            cases backup with
            | false => rw [tail_remove hne hfc hN]; exact hres _ rfl (write_same _ _ _)
            | true =>
              cases hbak : (w.fs.write tmp (some (Content.zip z))) (f ++ ".bak".toList) with
              | none =>
                rw [tail_backup rfl hne hnb hfc hN hbak]; exact hres _ rfl (write_same _ _ _)
              | some o =>
                rw [tail_replace rfl hne hnb hfc hN hbak]; exact hres _ rfl (write_same _ _ _)

/-- If the source is a stream, the files do not matter. -/
theorem tozip_stream {lib : Lib} {sink : Member → Option Exc} {fm : FM} {c : Option Content}
    (hsrc : fm.source = .stream c) (fs fs' : FS) : tozip lib sink fs' (fm, []) = tozip lib sink fs (fm, []) := by
  -- only the source matters, and it is a stream
  unfold tozip
  split
  · rfl
  · rename_i f hf
    simp only
    rw [Py.bind_def, Py.bind_def]
    have hf1 := writePart_fm (lib := lib) (sink := sink) MIMETYPE { f with stored := true }
      (({ fm with dir := fm.dir.del MIMETYPE }, []) : FM × Zip)
    generalize writePart lib sink MIMETYPE { f with stored := true }
      (({ fm with dir := fm.dir.del MIMETYPE }, []) : FM × Zip) = r1 at hf1
    obtain ⟨s1, o1⟩ := r1
    cases o1 with
    | error e => rfl
    | ok u =>
      simp only at hf1 ⊢
      rw [Py.bind_def, Py.bind_def]
      have hf2 := writeParts_fm (lib := lib) (sink := sink) (fm.dir.del MIMETYPE) s1
      generalize writeParts lib sink (fm.dir.del MIMETYPE) s1 = r2 at hf2
      obtain ⟨s2, o2⟩ := r2
      cases o2 with
      | error e => rfl
      | ok u =>
        simp only at hf2 ⊢
        rw [Py.bind_def, Py.bind_def]
        simp only [Py.modify]
        unfold copyZipTo srcZip
        simp only [hf2, hf1, hsrc]
        cases c with
        | none => rfl
        | some c => cases c <;> rfl

theorem keeps_streamSave {lib : Lib} {env : Env} {f : Path} {orig : Zip} {w : W} (hk : Keeps orig w)
    {c : Option Content} (hsrc : w.fm.source = .stream c) :
    Keeps orig (streamSave lib env f w).1 ∧
    ((streamSave lib env f w).2 = .ok () → ∃ z fm', tobytes lib env.sink w.fs w.fm = (fm', .ok z) ∧
      (streamSave lib env f w).1.fs f = some (.zip z)) := by
  have hkeys := tozip_keys (lib := lib) (sink := env.sink) (fs := w.fs) (w.fm, []) hk.nodup
  have hfr := tozip_frame (lib := lib) (sink := env.sink) (fs := w.fs) (w.fm, [])
  have hfs : ∀ fs', tozip lib env.sink fs' (w.fm, []) = tozip lib env.sink w.fs (w.fm, []) :=
    tozip_stream hsrc w.fs
  have htb : ∀ fs', tobytes lib env.sink fs' w.fm = tobytes lib env.sink w.fs w.fm := by
    intro fs'; unfold tobytes; rw [hfs]
  have hp := (writePieces_eq f [[]] w).1
  unfold streamSave
  simp only
  rw [hp, htb]
  have hfm := tobytes_fm (lib := lib) (sink := env.sink) (fs := w.fs) w.fm
  cases h : tobytes lib env.sink w.fs w.fm with
  | mk fm' o =>
    rw [h] at hfm
    simp only at hfm
    rw [← hfm] at hkeys hfr
    cases o with
    | error e =>
      refine ⟨?_, fun h => by cases h⟩
      exact keeps_same hk hkeys.1 (fun n h => by rw [← hkeys.2.1]; exact h) hfr.2
        (fun p hp => by rw [hsrc] at hp; cases hp)
    | ok z =>
      simp only
      refine ⟨?_, fun _ => ⟨z, fm', rfl, write_same _ _ _⟩⟩
      have hp2 := (writePieces_eq f env.pieces ({ writePieces f [[]] w with fm := fm' } : W)).1
      refine keeps_same hk ?_ ?_ ?_ (fun p hp => by rw [hsrc] at hp; cases hp)
      · show (writePieces f env.pieces _).fm.dir.keys.Nodup; rw [hp2]; exact hkeys.1
      · intro n h
        rw [← hkeys.2.1]
        have h : extra (writePieces f env.pieces ({ writePieces f [[]] w with fm := fm' } : W)).fm n = true := h
        rw [hp2] at h; exact h
      · show (writePieces f env.pieces _).fm.source = _; rw [hp2]; exact hfr.2

theorem keeps_saveDoc {lib : Lib} {env : Env} {f : Path} {backup : Bool} {orig : Zip} {w : W}
    (hk : Keeps orig w) :
    Keeps orig (saveDoc lib env f backup w).1 ∧
    ((saveDoc lib env f backup w).2 = .ok () → ∃ z fm', tobytes lib env.sink w.fs w.fm = (fm', .ok z) ∧
      (saveDoc lib env f backup w).1.fs f = some (.zip z)) := by
  unfold saveDoc
  cases h : w.fm.source with
  | file p => exact keeps_save hk ⟨p, h⟩
  | stream c => exact keeps_streamSave hk h

theorem keeps_step {lib : Lib} {orig : Zip} {w : W} (hk : Keeps orig w) (o : Op) : Keeps orig (step lib w o) := by
  have hgrow : ∀ (n : Str) (g : FileObject) (m : Str), decide (m ∉ (w.fm.dir.set n g).keys ∧ m ≠ MIMETYPE) = true →
      extra w.fm m = true := by
    intro n g m h
    unfold extra
    simp only [decide_eq_true_eq] at h ⊢
    refine ⟨fun hm => h.1 ?_, h.2⟩
    rw [Dict.keys_set]
    split
    · exact hm
    · exact List.mem_append_left _ hm
  cases o with
  | register n e t i =>
    exact keeps_same hk (Dict.nodup_set hk.nodup _ _) (fun m h => hgrow _ _ m h) rfl (fun _ _ => rfl)
  | edit n e =>
    have hs : step lib w (.edit n e) = match w.fm.dir.get n with
      | none => w
      | some g => { w with fm := { w.fm with dir := w.fm.dir.set n { g with element := e } } } := rfl
    rw [hs]
    cases hg : w.fm.dir.get n with
    | none => exact hk
    | some g =>
      exact keeps_same hk (Dict.nodup_set hk.nodup _ _) (fun m h => hgrow _ _ m h) rfl (fun _ _ => rfl)
  | manifest m => exact keeps_same hk hk.nodup (fun _ h => h) rfl (fun _ _ => rfl)
  | save env f b => exact (keeps_saveDoc hk).1
  | saveStream env =>
    have hkeys := tozip_keys (lib := lib) (sink := env.sink) (fs := w.fs) (w.fm, []) hk.nodup
    have hfr := tozip_frame (lib := lib) (sink := env.sink) (fs := w.fs) (w.fm, [])
    have hs : (step lib w (.saveStream env)) = { w with fm := (tozip lib env.sink w.fs (w.fm, [])).1.1 } := by
      show (saveStream lib env w).1 = _
      unfold saveStream
      cases h : tozip lib env.sink w.fs (w.fm, []) with
      | mk s o => cases o <;> rfl
    rw [hs]
    exact keeps_same hk hkeys.1 (fun n h => by rw [← hkeys.2.1]; exact h) hfr.2 (fun _ _ => rfl)
  | tobytes sink =>
    have hkeys := tozip_keys (lib := lib) (sink := sink) (fs := w.fs) (w.fm, []) hk.nodup
    have hfr := tozip_frame (lib := lib) (sink := sink) (fs := w.fs) (w.fm, [])
    have hs : (step lib w (.tobytes sink)) = { w with fm := (tozip lib sink w.fs (w.fm, [])).1.1 } := by
      show ({ w with fm := (tobytes lib sink w.fs w.fm).1 } : W) = _; rw [tobytes_fm]
    rw [hs]
    exact keeps_same hk hkeys.1 (fun n h => by rw [← hkeys.2.1]; exact h) hfr.2 (fun _ _ => rfl)

/-- A successful save, if the source has the extra members of the opened package. -/
theorem keeps_saved {lib : Lib} {orig : Zip} {w1 : W} (hk : Keeps orig w1) {env : Env} {f : Path} {backup : Bool}
    (hok : (saveDoc lib env f backup w1).2 = .ok ()) :
    ∃ z, (saveDoc lib env f backup w1).1.fs f = some (.zip z) ∧
      (∀ n g, w1.fm.dir.get n = some g → ∃ m, z.filter (fun m => m.name = n) = [m] ∧
        currentBytes lib w1.fm.manifest.kids g.element = some m.data) ∧
      z.filter (fun m => m.name ∉ w1.fm.dir.keys) =
        (norm orig).filter (fun m => m.name ∉ w1.fm.dir.keys) := by
  obtain ⟨z, fm', htb, hz⟩ := (keeps_saveDoc hk).2 hok
  refine ⟨z, hz, ?_, ?_⟩
  · intro n g hg
    obtain ⟨m, h1, h2, -⟩ := C39_parts lib env.sink w1.fs w1.fm fm' z hk.nodup htb n g hg
    exact ⟨m, h1, h2⟩
  · obtain ⟨f, hf, -⟩ := tobytes_ok htb
    have hkk : MIMETYPE ∈ w1.fm.dir.keys := Dict.get_isSome.1 (by rw [hf]; rfl)
    have hU : ∀ n, extra w1.fm n = decide (n ∉ w1.fm.dir.keys) := by
      intro n
      unfold extra
      rw [Bool.eq_iff_iff]
      simp only [decide_eq_true_eq]
      exact ⟨fun h => h.1, fun h => ⟨h, fun e => h (e ▸ hkk)⟩⟩
    have h1 := written_extra (opened_members hk.open_) htb
    have h2 := hk.same
    simp only [hU] at h1 h2
    rw [h1, h2]

/-- C41: after any history of registrations, edits and saves (to any names, also failing ones), a
successful save writes a file with every registered part exactly once and with its current content,
and with all other members of the originally opened package, unchanged and in their order. -/
theorem C41_saves (lib : Lib) (w : W) (orig : Zip) (hd : w.fm.dir.keys.Nodup)
    (ho : Opened w.fs w.fm orig) (h : List Op) (env : Env) (f : Path) (backup : Bool) :
    let w1 := run lib w h
    (saveDoc lib env f backup w1).2 = .ok () →
    ∃ z, (saveDoc lib env f backup w1).1.fs f = some (.zip z) ∧
      (∀ n g, w1.fm.dir.get n = some g → ∃ m, z.filter (fun m => m.name = n) = [m] ∧
        currentBytes lib w1.fm.manifest.kids g.element = some m.data) ∧
      z.filter (fun m => m.name ∉ w1.fm.dir.keys) =
        (norm orig).filter (fun m => m.name ∉ w1.fm.dir.keys) := by
  intro w1 hok
  have hk : Keeps orig w1 := by
    have h0 : Keeps orig w := ⟨hd, ⟨orig, ho⟩, by rw [members_eq ho]⟩
    show Keeps orig (run lib w h)
    clear hok w1 hd ho
    induction h generalizing w with
    | nil => exact h0
    | cons o h ih => exact ih (step lib w o) (keeps_step h0 o)
  exact keeps_saved hk hok

/-- With unique names in the opened package this means: the very same members. -/
theorem C41_unique (z : Zip) (h : (z.map Member.name).Nodup) : norm z = z := norm_unique h

/-! ## The parts after a history -/

/-- What a history leaves registered under `n`: the latest registration or edit. -/
def partAfter (n : Str) : Option Element → List Op → Option Element
  | e, [] => e
  | e, .register k x _ _ :: h => partAfter n (if k = n then some x else e) h
  | e, .edit k x :: h => partAfter n (if k = n then e.map fun _ => x else e) h
  | e, _ :: h => partAfter n e h

def Dirs (d d' : Dict Str FileObject) : Prop :=
  ∀ n, (d'.get n).map FileObject.element = (d.get n).map FileObject.element ∨ (n = MIMETYPE ∧ d'.get n = none)

theorem dirs_tozip {lib sink fs} (s : FM × Zip) : Dirs s.1.dir (tozip lib sink fs s).1.1.dir := by
  intro n
  rcases tozip_dir (lib := lib) (sink := sink) (fs := fs) s with h | h | ⟨f, hf, h⟩
  · rw [h]; exact .inl rfl
  · rw [h, Dict.get_del]
    split
    · rename_i e; exact .inr ⟨e.symm, rfl⟩
    · exact .inl rfl
  · rw [h, putBack, Dict.get_set, Dict.get_del]
    left
    split
    · rename_i e; subst e; rw [hf]; rfl
    · rfl

theorem saveTail_dir {f tmp : Path} {backup : Bool} (w : W) : (saveTail f tmp backup w).1.fm.dir = w.fm.dir := by
  have hr : ∀ p (w : W), (osRemove p w).1.fm = w.fm := by
    intro p w; unfold osRemove; split <;> rfl
  have hn : ∀ p q (w : W), (osRename p q w).1.fm = w.fm := by
    intro p q w; unfold osRename; split <;> rfl
  have hb : ∀ {α β} (a : Py W α) (k : α → Py W β) (w : W), (a w).1.fm.dir = w.fm.dir →
      (∀ x w', (k x w').1.fm.dir = w'.fm.dir) → ((a >>= k) w).1.fm.dir = w.fm.dir := by
    intro α β a k w h1 h2
    rw [Py.bind_def]
    cases h : a w with
    | mk w' o =>
      rw [h] at h1
      cases o with
      | error e => exact h1
      | ok x => simp only; rw [h2]; exact h1
  unfold saveTail
  have hend : ∀ w', ((do
      osRename tmp f
      Py.modify fun w => { w with fm := { w.fm with source := .file (some f) } } : Py W Unit) w').1.fm.dir =
        w'.fm.dir := fun w' => hb _ _ _ (by rw [hn]) (fun _ _ => rfl)
  split
  · split
    · simp only
      split
      · exact hb _ _ _ (by rw [hr]) (fun _ w => hb _ _ _ (by rw [hn]) (fun _ w => hend w))
      · exact hb _ _ _ (by rw [hn]) (fun _ w => hend w)
    · exact hb _ _ _ (by rw [hr]) (fun _ w => hend w)
  · exact hend w

theorem dirs_saveDoc {lib : Lib} {env : Env} {f : Path} {backup : Bool} {w : W} :
    Dirs w.fm.dir (saveDoc lib env f backup w).1.fm.dir := by
  unfold saveDoc
  split
  · cases ht : tmpfilename env.names f w.fs with
    | none =>
      have : save lib env f backup w = (w, .error .IOError) := by unfold save; rw [ht]
      rw [this]; exact fun n => .inl rfl
    | some tmp =>
      obtain ⟨b, -, hs⟩ := save_eq (lib := lib) (backup := backup) ht
      have := dirs_tozip (lib := lib) (sink := env.sink) (fs := w.fs) (w.fm, [])
      rw [hs]
      cases hz : tozip lib env.sink w.fs (w.fm, []) with
      | mk s o =>
        rw [hz] at this
        cases o with
        | error e => exact this
        | ok u => simp only; rw [saveTail_dir]; exact this
  · unfold streamSave
    have hp := (writePieces_eq f [[]] w).1
    simp only
    rw [hp]
    have := dirs_tozip (lib := lib) (sink := env.sink) (fs := (writePieces f [[]] w).fs) (w.fm, [])
    have hfm := tobytes_fm (lib := lib) (sink := env.sink) (fs := (writePieces f [[]] w).fs) w.fm
    rw [← hfm] at this
    cases h : tobytes lib env.sink (writePieces f [[]] w).fs w.fm with
    | mk fm' o =>
      rw [h] at this
      cases o with
      | error e => exact this
      | ok z =>
        have hp2 := (writePieces_eq f env.pieces ({ writePieces f [[]] w with fm := fm' } : W)).1
        show Dirs _ (writePieces f env.pieces _).fm.dir
        rw [hp2]; exact this

/-- The parts that are registered after a history are those of `partAfter`; only the mimetype may have
got lost (by a failing save, `C42_lost`). -/
theorem partAfter_run {lib : Lib} (n : Str) (h : List Op) : ∀ w : W, ∀ e : Option Element,
    ((w.fm.dir.get n).map FileObject.element = e ∨ (n = MIMETYPE ∧ w.fm.dir.get n = none)) →
    (((run lib w h).fm.dir.get n).map FileObject.element = partAfter n e h ∨
      (n = MIMETYPE ∧ (run lib w h).fm.dir.get n = none)) := by
  induction h with
  | nil => exact fun w e h => h
  | cons o h ih =>
    intro w e hw
    have hdirs : ∀ w' : W, Dirs w.fm.dir w'.fm.dir →
        ((w'.fm.dir.get n).map FileObject.element = e ∨ (n = MIMETYPE ∧ w'.fm.dir.get n = none)) := by
      intro w' hd
      rcases hd n with h1 | h1
      · rcases hw with h2 | ⟨h2, h3⟩
        · exact .inl (h1.trans h2)
        · refine .inr ⟨h2, ?_⟩
          rw [h3] at h1
          cases hg : w'.fm.dir.get n with
          | none => rfl
          | some x => rw [hg] at h1; cases h1
      · exact .inr h1
    cases o with
    | register k x t i =>
      refine ih _ _ ?_
      show (((w.fm.dir.set k _).get n).map _ = _ ∨ (n = MIMETYPE ∧ (w.fm.dir.set k _).get n = none))
      rw [Dict.get_set]
      split
      · exact .inl rfl
      · exact hw
    | edit k x =>
      refine ih _ _ ?_
      have hs : step lib w (.edit k x) = match w.fm.dir.get k with
        | none => w
        | some g => { w with fm := { w.fm with dir := w.fm.dir.set k { g with element := x } } } := rfl
      rw [hs]
      cases hg : w.fm.dir.get k with
      | none =>
        show ((w.fm.dir.get n).map _ = _ ∨ (n = MIMETYPE ∧ w.fm.dir.get n = none))
        split
        · rename_i e'; subst e'
          rcases hw with h2 | h2
          · rw [hg] at h2; subst h2; left; rw [hg]; rfl
          · exact .inr h2
        · exact hw
      | some g =>
        simp only
        rw [Dict.get_set]
        split
        · rename_i e'; subst e'
          rcases hw with h2 | ⟨h2, h3⟩
          · rw [hg] at h2; subst h2; exact .inl rfl
          · rw [h3] at hg; cases hg
        · exact hw
    | manifest m => exact ih _ _ (hdirs _ (fun _ => .inl rfl))
    | save env f b => exact ih _ _ (hdirs _ dirs_saveDoc)
    | saveStream env =>
      refine ih _ _ (hdirs _ ?_)
      have := dirs_tozip (lib := lib) (sink := env.sink) (fs := w.fs) (w.fm, [])
      show Dirs _ (saveStream lib env w).1.fm.dir
      unfold saveStream
      cases hz : tozip lib env.sink w.fs (w.fm, []) with
      | mk s o => rw [hz] at this; cases o <;> exact this
    | tobytes sink =>
      refine ih _ _ (hdirs _ ?_)
      have := dirs_tozip (lib := lib) (sink := sink) (fs := w.fs) (w.fm, [])
      show Dirs _ (tobytes lib sink w.fs w.fm).1.dir
      rw [tobytes_fm]; exact this

/-- C41, the parts: the written file has, exactly once, what was registered or edited last. -/
theorem C41_current (lib : Lib) (w : W) (orig : Zip) (hd : w.fm.dir.keys.Nodup)
    (ho : Opened w.fs w.fm orig) (h : List Op) (env : Env) (f : Path) (backup : Bool)
    (hok : (saveDoc lib env f backup (run lib w h)).2 = .ok ()) (n : Str) (x : Element)
    (hx : partAfter n ((w.fm.dir.get n).map FileObject.element) h = some x) :
    ∃ z m, (saveDoc lib env f backup (run lib w h)).1.fs f = some (.zip z) ∧
      z.filter (fun m => m.name = n) = [m] ∧
      currentBytes lib (run lib w h).fm.manifest.kids x = some m.data := by
  have hpa := partAfter_run (lib := lib) n h w _ (.inl rfl)
  have hsome : ∃ g, (run lib w h).fm.dir.get n = some g ∧ g.element = x := by
    rcases hpa with h1 | ⟨h1, h2⟩
    · rw [hx] at h1
      cases hg : (run lib w h).fm.dir.get n with
      | none => rw [hg] at h1; cases h1
      | some g => rw [hg] at h1; simp only [Option.map_some, Option.some.injEq] at h1; exact ⟨g, rfl, h1⟩
    · exfalso
      subst h1
      have hk : Keeps orig (run lib w h) := by
        have h0 : Keeps orig w := ⟨hd, ⟨orig, ho⟩, by rw [members_eq ho]⟩
        clear hok h2 hx hd ho
        induction h generalizing w with
        | nil => exact h0
        | cons o h ih => exact ih (step lib w o) (keeps_step h0 o)
      obtain ⟨z, fm', htb, -⟩ := (keeps_saveDoc hk).2 hok
      obtain ⟨f, hf, -⟩ := tobytes_ok htb
      rw [h2] at hf; cases hf
  obtain ⟨g, hg, rfl⟩ := hsome
  obtain ⟨z, hz, hp, -⟩ := C41_saves lib w orig hd ho h env f backup hok
  obtain ⟨m, h1, h2⟩ := hp n g hg
  exact ⟨z, m, hz, h1, h2⟩

/-! ## Examples -/

def pic : Member := { name := "Pictures/a.png".toList, stored := false, info := 7, extra := [], data := [1, 2] }

/-- An opened package with a picture, and a history with two saves and an edit. -/
def exW : W :=
  { fm := tiny (.file (some "/d/f".toList))
    fs := files [("/d/f".toList, .zip [{ pic with name := MIMETYPE }, pic])], log := [] }

def exH : List Op := [.save env0 "/d/f".toList true, .edit MIMETYPE (.text "x".toList), .tobytes (fun _ => none)]

example : Opened exW.fs exW.fm [{ pic with name := MIMETYPE }, pic] := .inl (by decide +kernel)

example : exW.fm.dir.keys.Nodup := by decide +kernel

example : (saveDoc lib0 env0 "/d/g".toList false (run lib0 exW exH)).2 = .ok () := by decide +kernel

example : (saveDoc lib0 env0 "/d/g".toList false (run lib0 exW exH)).1.fs "/d/g".toList =
    some (.zip [{ name := MIMETYPE, stored := true, info := 0, extra := [], data := [120] }, pic]) := by
  decide +kernel

example : partAfter MIMETYPE ((exW.fm.dir.get MIMETYPE).map FileObject.element) exH = some (.text "x".toList) := by
  decide +kernel

/-- Saving over an existing file with a previous backup. -/
example : ((save lib0 env0 "/d/f".toList true
    { exW with fs := files [("/d/f".toList, .zip [pic]), ("/d/f.bak".toList, .raw [])] }).1.log).length = 5 := by
  decide +kernel

example : env0.Valid := by
  intro n hn c hc
  simp only [env0, List.mem_singleton] at hn
  subst hn
  revert c
  decide +kernel

/-- Members that occur twice: both get the content that is read. -/
example : norm [pic, { pic with data := [3] }] = [{ pic with data := [3] }, { pic with data := [3] }] := by
  decide +kernel

end Verif.Package
