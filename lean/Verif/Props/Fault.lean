import Verif.Proofs.Fault
/-! # C80: saving when the operating system refuses calls -/
namespace Verif.Package
open Verif
set_option linter.unusedSimpArgs false

/-- The states of the files that can be seen from the call on: each change, and what is there in the end. -/
def Seen (w : W) (r : W × Except Exc Unit) (s : FS) : Prop := s ∈ r.1.log ∨ s = r.1.fs ∨ s = w.fs

theorem seen_less {a b : Py W Unit} (h : Less a b) (hb : Steps b) {w : W} {s : FS} (hs : Seen w (a w) s) :
    s ∈ (b w).1.log ∨ s = w.fs := by
  have key : (a w).1.log <+: (b w).1.log ∧ ((a w).1.fs = w.fs ∨ (a w).1.fs ∈ (a w).1.log) := by
    rcases h w with e | ⟨e, -, -, h3, h4⟩
    · rw [e]; exact ⟨List.prefix_rfl, (hb w).2⟩
    · exact ⟨h3, h4⟩
  obtain ⟨k1, k2⟩ := key
  rcases hs with hs | rfl | rfl
  · exact .inl (k1.subset hs)
  · rcases k2 with k2 | k2
    · exact .inr k2
    · exact .inl (k1.subset k2)
  · exact .inr rfl

theorem steps_save (lib : Lib) (env : Env) (f : Path) (backup : Bool) : Steps (save lib env f backup) := by
  intro w
  rw [save_def]
  cases tmpfilename env.names f w.fs with
  | none => exact ⟨List.prefix_rfl, .inl rfl⟩
  | some tmp =>
    dsimp only
    obtain ⟨p1, p2⟩ := steps_pieces tmp ([] :: env.pieces) w
    rcases tozip lib env.sink (writePieces tmp ([] :: env.pieces) w).fs (w.fm, []) with ⟨⟨fm, z⟩, r⟩
    cases r with
    | error e => exact ⟨p1, p2⟩
    | ok u =>
      dsimp only
      generalize hw1 : (({ writePieces tmp ([] :: env.pieces) w with fm := fm } : W).change
        ((writePieces tmp ([] :: env.pieces) w).fs.write tmp (some (.zip z)))) = w1
      have q1 : (writePieces tmp ([] :: env.pieces) w).log <+: w1.log := by
        rw [← hw1]; exact List.prefix_append _ _
      have q2 : w1.fs ∈ w1.log := by rw [← hw1]; simp [W.change]
      obtain ⟨q3, q4⟩ := steps_tail f tmp backup w1
      refine ⟨p1.trans (q1.trans q3), ?_⟩
      rcases q4 with q4 | q4
      · rw [q4]; exact .inr (q3.subset q2)
      · exact .inr q4

/-- C80: whichever calls are refused, at every point and in the end the complete old or the complete new document is
in the folder. -/
theorem C80_crash (lib : Lib) (env : Env) (hv : env.Valid) (deny : Deny) (f : Path) (backup : Bool) (w : W)
    (hl : w.log = []) (old : Content) (hold : w.fs f = some old) :
    ∀ s, Seen w (saveF lib env deny f backup w) s → Here f s old ∨
      ∃ z fm', tobytes lib env.sink w.fs w.fm = (fm', .ok z) ∧ Here f s (.zip z) := by
  intro s hs
  rcases seen_less (less_save lib env deny f backup) (steps_save lib env f backup) hs with h | rfl
  · exact C40_crash lib env hv f backup w hl old hold s h
  · exact .inl ⟨f, rfl, hold⟩

/-- C80: with backup, the old document is there under its own name or as `.bak`. -/
theorem C80_backup (lib : Lib) (env : Env) (deny : Deny) (f : Path) (w : W) (hl : w.log = []) (old : Content)
    (hold : w.fs f = some old) :
    ∀ s, Seen w (saveF lib env deny f true w) s → s f = some old ∨ s (f ++ ".bak".toList) = some old := by
  intro s hs
  rcases seen_less (less_save lib env deny f true) (steps_save lib env f true) hs with h | rfl
  · exact C40_backup lib env f w hl old hold s h
  · exact .inl hold

/-- C80: no other file changes; only a new temporary file appears (which stays there after a failure). -/
theorem C80_others (lib : Lib) (env : Env) (deny : Deny) (f : Path) (backup : Bool) (w : W)
    (hl : w.log = []) (old : Content) (hold : w.fs f = some old) :
    ∃ tmp, (w.fs tmp = none ∨ (save lib env f backup w).1.log = []) ∧
      ∀ s, Seen w (saveF lib env deny f backup w) s → ∀ q, q ≠ f → q ≠ tmp →
        (backup = true → q ≠ f ++ ".bak".toList) → s q = w.fs q := by
  obtain ⟨tmp, h1, h2⟩ := C40_others lib env f backup w hl old hold
  refine ⟨tmp, h1, fun s hs q h3 h4 h5 => ?_⟩
  rcases seen_less (less_save lib env deny f backup) (steps_save lib env f backup) hs with h | rfl
  · exact h2 s h q h3 h4 h5
  · rfl

/-- C80: a call that returns has done all of `save` (`C40_done` and `C40_free` say what that is); a call that is
stopped raises. -/
theorem C80_report (lib : Lib) (env : Env) (deny : Deny) (f : Path) (backup : Bool) (w : W)
    (h : (saveF lib env deny f backup w).2 = .ok ()) : saveF lib env deny f backup w = save lib env f backup w := by
  rcases less_save lib env deny f backup w with e | ⟨e, h1, -⟩
  · exact e
  · rw [h1] at h; cases h

/-- C80: if no call is refused, `saveF` is `save`. -/
theorem C80_none (lib : Lib) (env : Env) (deny : Deny) (f : Path) (backup : Bool) (w : W)
    (hd : ∀ c s, deny c s = false) : saveF lib env deny f backup w = save lib env f backup w := by
  have hg : ∀ c a, guarded deny c a = a := by
    intro c a
    funext w
    unfold guarded
    rw [hd]; rfl
  rw [saveF_eq, save_def]
  have ht : ∀ tmp, saveTailF deny f tmp backup = saveTail f tmp backup := by
    intro tmp
    funext w
    unfold saveTailF saveTail
    simp only [hg]
  simp only [hd, Bool.false_eq_true, if_false, ht]

/-- C80, flat XML documents with backup. -/
theorem C80_flat_backup (deny : Deny) (pieces : List Bytes) (f : Path) (new : Except Exc Bytes) (w : W)
    (hl : w.log = []) (old : Content) (hold : w.fs f = some old) :
    (∀ s, Seen w (flatSaveF deny pieces f true new w) s →
      (s f = some old ∨ s (f ++ ".bak".toList) = some old) ∧
      ∀ q, q ≠ f → q ≠ f ++ ".bak".toList → s q = w.fs q) ∧
    ((flatSaveF deny pieces f true new w).2 = .ok () → ∃ b, new = .ok b ∧
      (flatSaveF deny pieces f true new w).1.fs f = some (.raw b) ∧
      (flatSaveF deny pieces f true new w).1.fs (f ++ ".bak".toList) = some old) := by
  obtain ⟨h1, h2⟩ := C40_flat_backup pieces f new w hl old hold
  constructor
  · intro s hs
    rcases seen_less (less_flat deny pieces f true new) (steps_flat pieces f true new) hs with h | rfl
    · exact h1 s h
    · exact ⟨.inl hold, fun _ _ _ => rfl⟩
  · intro hok
    rcases less_flat deny pieces f true new w with e | ⟨e, h, -⟩
    · rw [e] at hok ⊢
      obtain ⟨b, hb⟩ := flat_ok hok
      exact ⟨b, hb, h2 b hb⟩
    · rw [h] at hok; cases hok

/-! ## Later saves -/

/-- The failing call leaves the manager as `_tozip` left it (or as it was). -/
theorem saveF_fm {lib : Lib} {env : Env} {deny : Deny} {f : Path} {backup : Bool} {w : W} {e : Exc}
    (h : (saveF lib env deny f backup w).2 = .error e) :
    (saveF lib env deny f backup w).1.fm = w.fm ∨
    (saveF lib env deny f backup w).1.fm = (tozip lib env.sink w.fs (w.fm, [])).1.1 := by
  have hrm : ∀ p (w : W), (osRemove p w).1.fm = w.fm := by
    intro p w; unfold osRemove; split <;> rfl
  have hrn : ∀ p q (w : W), (osRename p q w).1.fm = w.fm := by
    intro p q w; unfold osRename; split <;> rfl
  have hg : ∀ c (a : Py W Unit), (∀ w, (a w).1.fm = w.fm) → ∀ w, (guarded deny c a w).1.fm = w.fm := by
    intro c a ha w
    unfold guarded
    split
    · rfl
    · exact ha w
  have hb : ∀ (a : Py W Unit) (k : Unit → Py W Unit), (∀ w, (a w).1.fm = w.fm) →
      (∀ w e, (k () w).2 = .error e → (k () w).1.fm = w.fm) →
      ∀ w e, ((a >>= k) w).2 = .error e → ((a >>= k) w).1.fm = w.fm := by
    intro a k ha hk w e h
    rw [Py.bind_def] at h ⊢
    have := ha w
    rcases haw : a w with ⟨w', r⟩
    rw [haw] at h this
    cases r with
    | error e' => exact this
    | ok x =>
      dsimp only at h ⊢
      rw [hk w' e h, this]
  have hend : ∀ tmp (w : W) e, ((do
      guarded deny (.rename tmp f) (osRename tmp f)
      Py.modify fun w => { w with fm := { w.fm with source := .file (some f) } } : Py W Unit) w).2 = .error e →
      ((do
      guarded deny (.rename tmp f) (osRename tmp f)
      Py.modify fun w => { w with fm := { w.fm with source := .file (some f) } } : Py W Unit) w).1.fm = w.fm := by
    intro tmp
    refine hb _ _ (hg _ _ (hrn _ _)) (fun w e h => ?_)
    cases h
  have htail : ∀ tmp (w : W) e, (saveTailF deny f tmp backup w).2 = .error e →
      (saveTailF deny f tmp backup w).1.fm = w.fm := by
    intro tmp w e h
    unfold saveTailF at h ⊢
    split at h
    · rename_i h1
      rw [if_pos h1]
      split at h
      · rename_i h2
        rw [if_pos h2]
        dsimp only at h ⊢
        split at h
        · rename_i h3
          rw [if_pos h3]
          exact hb _ _ (hg _ _ (hrm _)) (hb _ _ (hg _ _ (hrn _ _)) (hend tmp)) w e h
        · rename_i h3
          rw [if_neg h3]
          exact hb _ _ (hg _ _ (hrn _ _)) (hend tmp) w e h
      · rename_i h2
        rw [if_neg h2]
        exact hb _ _ (hg _ _ (hrm _)) (hend tmp) w e h
    · rename_i h1
      rw [if_neg h1]
      exact hend tmp w e h
  rw [saveF_eq] at h ⊢
  cases ht : tmpfilename env.names f w.fs with
  | none => exact .inl rfl
  | some tmp =>
    rw [ht] at h
    dsimp only at h ⊢
    obtain ⟨b, -, he⟩ := (writePieces_eq tmp ([] :: env.pieces) w).2.2.2 (by simp)
    have hz : tozip lib env.sink (writePieces tmp ([] :: env.pieces) w).fs (w.fm, []) =
        tozip lib env.sink w.fs (w.fm, []) := by
      rw [he, tozip_fs (srcZip_write (tmp_spec ht).1 b)]
    rw [hz] at h ⊢
    split at h
    · rename_i h1
      rw [if_pos h1]
      exact .inl rfl
    · rename_i h1
      rw [if_neg h1]
      right
      rcases hzz : tozip lib env.sink w.fs (w.fm, []) with ⟨⟨fm, z⟩, r⟩
      rw [hzz] at h
      cases r with
      | error e' => rfl
      | ok u =>
        dsimp only at h ⊢
        split at h
        · rename_i h2
          rw [if_pos h2]
        · rename_i h2
          rw [if_neg h2]
          rw [htail _ _ _ h]
          rfl

/-- One save with refused calls: the source keeps its extra members, if the call returns or the file the document is
opened from is as before. -/
theorem keeps_saveF {lib : Lib} {env : Env} {deny : Deny} {f : Path} {backup : Bool} {orig : Zip} {w : W}
    (hk : Keeps orig w) (hsrc : ∃ p, w.fm.source = .file p)
    (h : (saveF lib env deny f backup w).2 = .ok () ∨
      ∀ p, w.fm.source = .file (some p) → (saveF lib env deny f backup w).1.fs p = w.fs p) :
    Keeps orig (saveF lib env deny f backup w).1 := by
  by_cases hok : (saveF lib env deny f backup w).2 = .ok ()
  · rw [C80_report _ _ _ _ _ _ hok]
    exact (keeps_save hk hsrc).1
  · have h := h.resolve_left hok
    rcases hr : (saveF lib env deny f backup w).2 with e | u
    · have hkeys := tozip_keys (lib := lib) (sink := env.sink) (fs := w.fs) (w.fm, []) hk.nodup
      have hfr := tozip_frame (lib := lib) (sink := env.sink) (fs := w.fs) (w.fm, [])
      rcases saveF_fm hr with e1 | e1
      · exact keeps_same hk (by rw [e1]; exact hk.nodup) (fun n hn => by rw [e1] at hn; exact hn) (by rw [e1]) h
      · exact keeps_same hk (by rw [e1]; exact hkeys.1) (fun n hn => by rw [e1, hkeys.2.1] at hn; exact hn)
          (by rw [e1]; exact hfr.2) h
    · exact absurd hr hok

/-- What can be done with an opened package, with saves in which calls are refused. -/
inductive FOp where
  | op (o : Op)
  | refused (env : Env) (deny : Deny) (f : Path) (backup : Bool)

/-- `PackagedDocument._saving_routine` with refused calls, for documents of files; a refused `open` of a document of a
stream changes nothing. -/
def stepF (lib : Lib) (w : W) : FOp → W
  | .op o => step lib w o
  | .refused env deny f b => match w.fm.source with
    | .file _ => (saveF lib env deny f b w).1
    | .stream _ => w

/-- Each refused save leaves the file the document is opened from as it was (or comes to its end). -/
def Intact (lib : Lib) : W → List FOp → Prop
  | _, [] => True
  | w, o :: h => (match o with
      | .op _ => True
      | .refused env deny f b => (saveF lib env deny f b w).2 = .ok () ∨
        ∀ p, w.fm.source = .file (some p) → (saveF lib env deny f b w).1.fs p = w.fs p) ∧ Intact lib (stepF lib w o) h

/-- C80: after any history with refused calls, a later save writes every registered part exactly once with its current
content, and all other members of the opened package.  Restricted to histories that are `Intact`; without this it is
false (`C80_later_refuted`). -/
theorem C80_later_partial (lib : Lib) (w : W) (orig : Zip) (hd : w.fm.dir.keys.Nodup) (ho : Opened w.fs w.fm orig)
    (h : List FOp) (hi : Intact lib w h) (env : Env) (f : Path) (backup : Bool) :
    let w1 := h.foldl (stepF lib) w
    (saveDoc lib env f backup w1).2 = .ok () →
    ∃ z, (saveDoc lib env f backup w1).1.fs f = some (.zip z) ∧
      (∀ n g, w1.fm.dir.get n = some g → ∃ m, z.filter (fun m => m.name = n) = [m] ∧
        currentBytes lib w1.fm.manifest.kids g.element = some m.data) ∧
      z.filter (fun m => m.name ∉ w1.fm.dir.keys) = (norm orig).filter (fun m => m.name ∉ w1.fm.dir.keys) := by
  intro w1 hok
  refine keeps_saved ?_ hok
  have h0 : Keeps orig w := ⟨hd, ⟨orig, ho⟩, by rw [members_eq ho]⟩
  show Keeps orig (h.foldl (stepF lib) w)
  clear hok w1 hd ho
  induction h generalizing w with
  | nil => exact h0
  | cons o h ih =>
    refine ih (stepF lib w o) hi.2 ?_
    cases o with
    | op o => exact keeps_step h0 o
    | refused env deny f b =>
      have e : stepF lib w (.refused env deny f b) = match w.fm.source with
        | .file _ => (saveF lib env deny f b w).1
        | .stream _ => w := rfl
      rw [e]
      cases hs : w.fm.source with
      | file p => exact keeps_saveF h0 ⟨p, hs⟩ hi.1
      | stream c => exact h0

/-- A save under another name leaves the file the document is opened from as it was. -/
theorem C80_elsewhere (lib : Lib) (env : Env) (deny : Deny) (f : Path) (backup : Bool) (w : W) (hl : w.log = []) (old : Content)
    (hold : w.fs f = some old) {p : Path} (hp : (w.fs p).isSome) (h1 : p ≠ f) (h2 : p ≠ f ++ ".bak".toList) :
    (saveF lib env deny f backup w).1.fs p = w.fs p := by
  obtain ⟨tmp, h3, h4⟩ := C80_others lib env deny f backup w hl old hold
  rcases h3 with h3 | h3
  · exact h4 _ (.inr (.inl rfl)) p h1 (by rintro rfl; rw [h3] at hp; cases hp) (fun _ => h2)
  · rcases seen_less (s := (saveF lib env deny f backup w).1.fs) (less_save lib env deny f backup) (steps_save lib env f backup)
      (.inr (.inl rfl)) with h | h
    · rw [h3] at h; cases h
    · rw [h]

/-- `os.rename` of the temporary file to the name is refused. -/
def noRename (f : Path) : Deny := fun c _ => match c with
  | .rename _ q => decide (q = f)
  | _ => false

/-- C80 without the restriction is false: the last `os.rename` is refused (the file is gone or is the backup by then, and
the new package is in the temporary file, but the manager still names the file as its source); the next save, under another
name, succeeds and has lost the members of the package that are not registered, here a picture. -/
theorem C80_later_refuted : ∀ backup : Bool,
    let r := saveF lib0 env0 (noRename "/d/f".toList) "/d/f".toList backup exW
    let env1 : Env := { env0 with names := ["STUVWXYZ".toList] }
    exW.fm.dir.keys.Nodup ∧ Opened exW.fs exW.fm [{ pic with name := MIMETYPE }, pic] ∧ r.2 = .error .IOError ∧
    r.1.fs "/d/ABCDEFGH.tmp".toList =
      some (.zip [{ name := MIMETYPE, stored := true, info := 0, extra := [], data := [109] }, pic]) ∧
    (saveDoc lib0 env1 "/d/g".toList true r.1).2 = .ok () ∧
    (saveDoc lib0 env1 "/d/g".toList true r.1).1.fs "/d/g".toList =
      some (.zip [{ name := MIMETYPE, stored := true, info := 0, extra := [], data := [109] }]) := by
  intro backup
  cases backup <;> exact ⟨by decide +kernel, .inl (by decide +kernel), by decide +kernel, by decide +kernel,
    by decide +kernel, by decide +kernel⟩

/-! ## Documents without a name -/

/-- C80: `newdoc` without a file name gives the document the name `''` (document.py:71-75), which no file can have: no file
can be renamed to it.  Saving such a document raises, and leaves the complete document in the temporary file; no other
file changes. -/
theorem C80_unnamed (lib : Lib) (env : Env) (deny : Deny) (backup : Bool) (w : W) (hno : w.fs [] = none)
    (hd : ∀ p s, deny (.rename p []) s = true) (hc : ∀ p s, deny (.create p) s = false ∧ deny (.close p) s = false)
    {tmp : Path} (ht : tmpfilename env.names [] w.fs = some tmp) {fm' : FM} {z : Zip}
    (hz : tobytes lib env.sink w.fs w.fm = (fm', .ok z)) :
    (saveF lib env deny [] backup w).2 = .error .IOError ∧ (saveF lib env deny [] backup w).1.fs = w.fs.write tmp (some (.zip z)) ∧
      (saveF lib env deny [] backup w).1.fm = fm' := by
  obtain ⟨b, -, he⟩ := (writePieces_eq tmp ([] :: env.pieces) w).2.2.2 (by simp)
  have hzz : tozip lib env.sink (writePieces tmp ([] :: env.pieces) w).fs (w.fm, []) = ((fm', z), .ok ()) := by
    rw [he, tozip_fs (srcZip_write (tmp_spec ht).1 b)]
    unfold tobytes at hz
    split at hz
    · rename_i st u hst
      rw [hst]
      simp only [Prod.mk.injEq, Except.ok.injEq] at hz
      rw [← hz.1, ← hz.2]
    · simp at hz
  have hne : tmp ≠ [] := by
    obtain ⟨-, n, -, rfl⟩ := tmp_spec ht
    simp
  rw [saveF_eq, ht]
  dsimp only
  rw [hzz]
  simp only [(hc _ _).1, (hc _ _).2, Bool.false_eq_true, if_false]
  unfold saveTailF
  have hf : ((({ writePieces tmp ([] :: env.pieces) w with fm := fm' } : W).change
      ((writePieces tmp ([] :: env.pieces) w).fs.write tmp (some (.zip z)))).fs []).isSome = false := by
    show (FS.write _ _ _ _).isSome = false
    rw [write_ne _ (Ne.symm hne), he, write_ne _ (Ne.symm hne), hno]
    rfl
  simp only [hf, Bool.false_eq_true, if_false]
  simp only [Py.bind_def, guarded, hd, if_true]
  refine ⟨trivial, ?_, rfl⟩
  show FS.write _ _ _ = _
  rw [he, write_write]

/-! ## Examples -/

/-- Refused calls at each place: the file is not created, not closed, the backup is not removed, the document is not
renamed, the temporary file is not renamed. -/
def refusals : List Deny :=
  [fun c _ => c matches .create _, fun c _ => c matches .close _, fun c _ => c matches .remove _,
    noRename "/d/f.bak".toList, noRename "/d/f".toList]

def exB : W := { exW with fs := files [("/d/f".toList, .zip [pic]), ("/d/f.bak".toList, .raw [])] }

/-- The number of changes that are made before, and the document afterwards. -/
example : refusals.map (fun d => (saveF lib0 env0 d "/d/f".toList true exB).1.log.length) = [0, 1, 2, 3, 4] ∧
    refusals.map (fun d => (saveF lib0 env0 d "/d/f".toList true exB).2) = List.replicate 5 (.error .IOError) ∧
    refusals.map (fun d => (saveF lib0 env0 d "/d/f".toList true exB).1.fs "/d/f".toList) =
      List.replicate 4 (some (.zip [pic])) ++ [none] := by decide +kernel

/-- The hypotheses of `C80_later_partial`: a save under another name is refused, then one is done. -/
example : Intact lib0 exW [.refused env0 (noRename "/d/g".toList) "/d/g".toList true] :=
  ⟨.inr (fun p hp => by
    have e : exW.fm.source = .file (some "/d/f".toList) := rfl
    rw [e] at hp
    cases hp
    decide +kernel), trivial⟩

/-- The hypotheses of `C80_unnamed` -/
example : (saveF lib0 env0 (noRename []) [] true exW).2 = .error .IOError ∧
    exW.fs [] = none ∧ tmpfilename env0.names [] exW.fs = some "ABCDEFGH.tmp".toList ∧
    ((saveF lib0 env0 (noRename []) [] true exW).1.fs "ABCDEFGH.tmp".toList).isSome := by decide +kernel

/-- Flat XML: the file cannot be opened for writing. -/
example : (flatSaveF (fun c _ => c matches .create _) [[1]] "/d/f".toList true (.ok [1, 2])
    { fm := tiny (.file none), log := [], fs := files [("/d/f".toList, .raw [1])] }).2 = .error .IOError ∧
    (flatSaveF (fun c _ => c matches .create _) [[1]] "/d/f".toList true (.ok [1, 2])
    { fm := tiny (.file none), log := [], fs := files [("/d/f".toList, .raw [1])] }).1.fs "/d/f.bak".toList =
      some (.raw [1]) := by decide +kernel

end Verif.Package
