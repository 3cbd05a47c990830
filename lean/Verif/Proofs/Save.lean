import Verif.Props.Package
/-! Lemmas about saving to files. -/
namespace Verif.Package
open Verif
set_option linter.unusedSimpArgs false

theorem write_write (fs : FS) (p : Path) (a b : Option Content) :
    (fs.write p a).write p b = fs.write p b := by
  funext q; unfold FS.write; split <;> rfl

theorem write_same (fs : FS) (p : Path) (a : Option Content) : fs.write p a p = a := by
  unfold FS.write; rw [if_pos rfl]

theorem write_ne (fs : FS) {p q : Path} (h : q ≠ p) (a : Option Content) : fs.write p a q = fs q := by
  unfold FS.write; rw [if_neg h]

theorem writePieces_eq (p : Path) (bs : List Bytes) (w : W) :
    (writePieces p bs w).fm = w.fm ∧
    (writePieces p bs w).log = w.log ++ bs.map (fun b => w.fs.write p (some (.raw b))) ∧
    (bs = [] → (writePieces p bs w).fs = w.fs) ∧
    (bs ≠ [] → ∃ b ∈ bs, (writePieces p bs w).fs = w.fs.write p (some (.raw b))) := by
  induction bs generalizing w with
  | nil => exact ⟨rfl, by simp [writePieces], fun _ => rfl, fun h => absurd rfl h⟩
  | cons b r ih =>
    obtain ⟨h1, h2, h3, h4⟩ := ih (w.change (w.fs.write p (some (.raw b))))
    refine ⟨h1, ?_, fun h => absurd h (by simp), fun _ => ?_⟩
    · unfold writePieces
      rw [h2]
      simp [W.change, write_write]
    · by_cases hr : r = []
      · subst hr
        exact ⟨b, by simp, h3 rfl⟩
      · obtain ⟨b', hb', he⟩ := h4 hr
        refine ⟨b', List.mem_cons_of_mem _ hb', ?_⟩
        unfold writePieces
        rw [he]
        simp [W.change, write_write]

theorem tmp_spec {names : List Str} {f tmp : Path} {fs : FS} (h : tmpfilename names f fs = some tmp) :
    fs tmp = none ∧ ∃ n ∈ names, tmp = folder f ++ n ++ ".tmp".toList := by
  unfold tmpfilename at h
  have h1 := List.find?_some h
  have h2 := List.mem_of_find?_eq_some h
  obtain ⟨n, hn, rfl⟩ := List.mem_map.1 h2
  exact ⟨by simpa using h1, n, hn, rfl⟩

theorem bak_ne_tmp (f n : Str) (d : Path) : f ++ ".bak".toList ≠ d ++ n ++ ".tmp".toList := by
  intro h
  have h1 := congrArg (fun l => l.getLast?) h
  simp at h1

theorem bak_ne (f : Path) : f ++ ".bak".toList ≠ f := by
  intro h
  have := congrArg List.length h
  simp at this

theorem srcZip_write {fs : FS} {tmp : Path} (h : fs tmp = none) (b : Bytes) :
    srcZip (fs.write tmp (some (.raw b))) = srcZip fs := by
  funext fm
  unfold srcZip
  cases hs : fm.source with
  | stream c => cases c with
    | none => rfl
    | some c => cases c <;> rfl
  | file p =>
    cases p with
    | none => rfl
    | some p =>
      simp only
      by_cases hp : p = tmp
      · subst hp; rw [write_same, h]
      · rw [write_ne _ hp]

theorem tozip_fs {fs fs' : FS} (h : srcZip fs' = srcZip fs) (lib : Lib) (sink : Member → Option Exc) :
    tozip lib sink fs' = tozip lib sink fs := by
  have : ∀ i, copyZipTo sink fs' i = copyZipTo sink fs i := fun i => by
    unfold copyZipTo; rw [h]
  unfold tozip
  simp only [this]

theorem written_fs {fs fs' : FS} (h : srcZip fs' = srcZip fs) (lib : Lib) (fm : FM) (f : FileObject) :
    written lib fs' fm f = written lib fs fm f := by
  have : members fs' fm = members fs fm := by unfold members; rw [h]
  unfold written; rw [this]

theorem osRemove_some {p : Path} {w : W} {c : Content} (h : w.fs p = some c) :
    osRemove p w = (w.change (w.fs.write p none), .ok ()) := by
  unfold osRemove; rw [h]

theorem osRename_some {p q : Path} {w : W} {c : Content} (h : w.fs p = some c) :
    osRename p q w = (w.change ((w.fs.write p none).write q (some c)), .ok ()) := by
  unfold osRename; rw [h]

theorem osRename_none {p q : Path} {w : W} (h : w.fs p = none) : osRename p q w = (w, .error .IOError) := by
  unfold osRename; rw [h]

/-- The part of `save` after the new zip file is complete. -/
def saveTail (f tmp : Path) (backup : Bool) : Py W Unit := fun w1 =>
  (do
    if (w1.fs f).isSome then
      if backup then
        let bak := f ++ ".bak".toList
        if (w1.fs bak).isSome then osRemove bak
        osRename f bak
      else osRemove f
    osRename tmp f
    Py.modify fun w => { w with fm := { w.fm with source := .file (some f) } } : Py W Unit) w1

/-- The manager after a complete `save`. -/
def moved (fm : FM) (f : Path) : FM := { fm with source := .file (some f) }

/-- The name was free. -/
theorem tail_free {f tmp : Path} {backup : Bool} {w : W} {n : Content} (hf : w.fs f = none)
    (ht : w.fs tmp = some n) :
    saveTail f tmp backup w =
      (let F := (w.fs.write tmp none).write f (some n)
       { fm := moved w.fm f, fs := F, log := w.log ++ [F] }, .ok ()) := by
  unfold saveTail
  simp only [hf, Option.isSome_none, Bool.false_eq_true, if_false]
  simp only [Py.bind_def, pure, Py.pure, osRename_some ht]
  rfl

/-- Without backup. -/
theorem tail_remove {f tmp : Path} {w : W} {c n : Content} (hne : tmp ≠ f) (hf : w.fs f = some c)
    (ht : w.fs tmp = some n) :
    saveTail f tmp false w =
      (let F1 := w.fs.write f none
       let F := (F1.write tmp none).write f (some n)
       { fm := moved w.fm f, fs := F, log := w.log ++ [F1, F] }, .ok ()) := by
  unfold saveTail
  simp only [hf, Option.isSome_some, if_true, Bool.false_eq_true, if_false]
  rw [Py.bind_def, osRemove_some hf]
  simp only
  rw [Py.bind_def, osRename_some (c := n) (by simp only [W.change]; rw [write_ne _ hne, ht])]
  simp [W.change, Py.modify, moved]

/-- With backup, no previous backup. -/
theorem tail_backup {f tmp bak : Path} (hb : bak = f ++ ".bak".toList) {w : W} {c n : Content} (hne : tmp ≠ f)
    (hne' : tmp ≠ bak) (hf : w.fs f = some c) (ht : w.fs tmp = some n) (hbak : w.fs bak = none) :
    saveTail f tmp true w =
      (let F1 := (w.fs.write f none).write bak (some c)
       let F := (F1.write tmp none).write f (some n)
       { fm := moved w.fm f, fs := F, log := w.log ++ [F1, F] }, .ok ()) := by
  unfold saveTail
  simp only [← hb, hf, hbak, Option.isSome_some, Option.isSome_none, if_true, Bool.false_eq_true, if_false]
  simp only [Py.bind_def, pure, Py.pure, osRename_some hf]
  rw [osRename_some (c := n) (by simp only [W.change]; rw [write_ne _ hne', write_ne _ hne, ht])]
  simp [W.change, Py.modify, moved]

/-- With backup, replacing a previous backup. -/
theorem tail_replace {f tmp bak : Path} (hb : bak = f ++ ".bak".toList) {w : W} {c n o : Content} (hne : tmp ≠ f)
    (hne' : tmp ≠ bak) (hf : w.fs f = some c) (ht : w.fs tmp = some n) (hbak : w.fs bak = some o) :
    saveTail f tmp true w =
      (let F1 := w.fs.write bak none
       let F2 := (F1.write f none).write bak (some c)
       let F := (F2.write tmp none).write f (some n)
       { fm := moved w.fm f, fs := F, log := w.log ++ [F1, F2, F] }, .ok ()) := by
  have hbf : f ≠ bak := by rw [hb]; exact fun e => bak_ne f e.symm
  unfold saveTail
  simp only [← hb, hf, hbak, Option.isSome_some, if_true]
  rw [Py.bind_def, osRemove_some hbak]
  simp only
  rw [Py.bind_def, osRename_some (c := c) (by simp only [W.change]; rw [write_ne _ hbf, hf])]
  simp only
  rw [Py.bind_def, osRename_some (c := n) (by
    simp only [W.change]; rw [write_ne _ hne', write_ne _ hne, write_ne _ hne', ht])]
  simp [W.change, Py.modify, moved]

/-- The name of the temporary file is the name of the document (which did not exist). -/
theorem tail_clash_backup {f bak : Path} (hb : bak = f ++ ".bak".toList) {w : W} {n : Content}
    (hf : w.fs f = some n) :
    saveTail f f true w =
      ((if (w.fs bak).isSome then
        let F1 := w.fs.write bak none
        let F2 := (F1.write f none).write bak (some n)
        { fm := w.fm, fs := F2, log := w.log ++ [F1, F2] }
      else
        let F2 := (w.fs.write f none).write bak (some n)
        { fm := w.fm, fs := F2, log := w.log ++ [F2] }), .error .IOError) := by
  have hbf : f ≠ bak := by rw [hb]; exact fun e => bak_ne f e.symm
  unfold saveTail
  simp only [← hb, hf, Option.isSome_some, if_true]
  cases hbak : w.fs bak with
  | none =>
    simp only [Option.isSome_none, Bool.false_eq_true, if_false]
    simp only [Py.bind_def, pure, Py.pure, osRename_some hf]
    rw [osRename_none (by simp only [W.change]; rw [write_ne _ hbf, write_same])]
    rfl
  | some o =>
    simp only [Option.isSome_some, if_true]
    rw [Py.bind_def, osRemove_some hbak]
    simp only
    rw [Py.bind_def, osRename_some (c := n) (by simp only [W.change]; rw [write_ne _ hbf, hf])]
    simp only
    rw [Py.bind_def, osRename_none (by simp only [W.change]; rw [write_ne _ hbf, write_same])]
    simp [W.change]

theorem tail_clash {f : Path} {w : W} {n : Content} (hf : w.fs f = some n) :
    saveTail f f false w =
      (let F := w.fs.write f none
       { fm := w.fm, fs := F, log := w.log ++ [F] }, .error .IOError) := by
  unfold saveTail
  simp only [hf, Option.isSome_some, if_true, Bool.false_eq_true, if_false]
  rw [Py.bind_def, osRemove_some hf]
  simp only
  rw [Py.bind_def, osRename_none (by simp only [W.change]; rw [write_same])]
  rfl

/-- `save`, with its temporary file `tmp` and the state `w0` in which the new zip file is written. -/
theorem save_eq {lib : Lib} {env : Env} {f : Path} {backup : Bool} {w : W} {tmp : Path}
    (h : tmpfilename env.names f w.fs = some tmp) :
    ∃ b ∈ ([] :: env.pieces),
      save lib env f backup w =
        match tozip lib env.sink w.fs (w.fm, []) with
        | ((fm, _), .error e) =>
          ({ fm := fm, fs := w.fs.write tmp (some (.raw b)),
             log := w.log ++ ([] :: env.pieces).map (fun b => w.fs.write tmp (some (.raw b))) }, .error e)
        | ((fm, z), .ok _) =>
          saveTail f tmp backup
            { fm := fm, fs := w.fs.write tmp (some (.zip z)),
              log := w.log ++ ([] :: env.pieces).map (fun b => w.fs.write tmp (some (.raw b))) ++
                [w.fs.write tmp (some (.zip z))] } := by
  obtain ⟨h1, h2, -, h4⟩ := writePieces_eq tmp ([] :: env.pieces) w
  obtain ⟨b, hb, he⟩ := h4 (by simp)
  refine ⟨b, hb, ?_⟩
  have htmp := (tmp_spec h).1
  unfold save
  simp only [h]
  rw [show (writePieces tmp ([] :: env.pieces) w).fs = _ from he]
  rw [tozip_fs (srcZip_write htmp b)]
  cases ht : tozip lib env.sink w.fs (w.fm, []) with
  | mk s o =>
    obtain ⟨fm, z⟩ := s
    cases o with
    | error e =>
      simp only [h2]
    | ok u =>
      simp only [W.change, h2, he, write_write]
      rfl

end Verif.Package
