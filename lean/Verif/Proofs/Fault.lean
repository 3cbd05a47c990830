import Verif.Model.Fault
import Verif.Props.SaveHistory
/-! # Saving when the operating system refuses calls: lemmas -/
namespace Verif.Package
open Verif
set_option linter.unusedSimpArgs false

/-- Every state of the files is in the log. -/
def Steps {α : Type} (a : Py W α) : Prop :=
  ∀ w, w.log <+: (a w).1.log ∧ ((a w).1.fs = w.fs ∨ (a w).1.fs ∈ (a w).1.log)

/-- `a` does what `b` does, or stops earlier with an exception. -/
def Less {α : Type} (a b : Py W α) : Prop :=
  ∀ w, a w = b w ∨ ∃ e, (a w).2 = .error e ∧ w.log <+: (a w).1.log ∧ (a w).1.log <+: (b w).1.log ∧
    ((a w).1.fs = w.fs ∨ (a w).1.fs ∈ (a w).1.log)

theorem Less.refl {α : Type} (a : Py W α) : Less a a := fun _ => .inl rfl

theorem steps_bind {α β : Type} {a : Py W α} {k : α → Py W β} (ha : Steps a) (hk : ∀ x, Steps (k x)) : Steps (a >>= k) := by
  intro w
  obtain ⟨h1, h2⟩ := ha w
  rw [Py.bind_def]
  rcases h : a w with ⟨w', r⟩
  rw [h] at h1 h2
  cases r with
  | error e => exact ⟨h1, h2⟩
  | ok x =>
    obtain ⟨h3, h4⟩ := hk x w'
    refine ⟨h1.trans h3, ?_⟩
    dsimp only
    rcases h4 with h4 | h4
    · rw [h4]
      rcases h2 with h2 | h2
      · exact .inl h2
      · exact .inr (h3.subset h2)
    · exact .inr h4

theorem less_bind {α β : Type} {a b : Py W α} {k l : α → Py W β} (ha : Less a b) (hb : Steps b) (hk : ∀ x, Less (k x) (l x))
    (hl : ∀ x, Steps (l x)) : Less (a >>= k) (b >>= l) := by
  intro w
  rw [Py.bind_def, Py.bind_def]
  rcases ha w with h | ⟨e, h1, h2, h3, h4⟩
  · rw [h]
    obtain ⟨h1, h2⟩ := hb w
    rcases hbw : b w with ⟨w', r⟩
    rw [hbw] at h1 h2
    cases r with
    | error e => exact .inl rfl
    | ok x =>
      dsimp only
      rcases hk x w' with h | ⟨e, h3, h4, h5, h6⟩
      · exact .inl h
      · refine .inr ⟨e, h3, h1.trans h4, h5, ?_⟩
        rcases h6 with h6 | h6
        · rw [h6]
          rcases h2 with h2 | h2
          · exact .inl h2
          · exact .inr (h4.subset h2)
        · exact .inr h6
  · rcases haw : a w with ⟨w', r⟩
    rw [haw] at h1 h2 h3 h4
    cases h1
    refine .inr ⟨e, rfl, h2, ?_, h4⟩
    have hst := steps_bind (a := b) (k := l) hb hl w
    rw [Py.bind_def] at hst
    rcases hbw : b w with ⟨w1, r⟩
    rw [hbw] at h3
    cases r with
    | error e' => exact h3
    | ok x => exact h3.trans (hl x w1).1

theorem steps_pure {α : Type} (x : α) : Steps (pure x : Py W α) := fun _ => ⟨List.prefix_rfl, .inl rfl⟩

theorem steps_change (w : W) (fs : FS) : w.log <+: (w.change fs).log ∧ (w.change fs).fs ∈ (w.change fs).log :=
  ⟨List.prefix_append _ _, by simp [W.change]⟩

theorem steps_remove (p : Path) : Steps (osRemove p) := by
  intro w
  unfold osRemove
  cases w.fs p with
  | none => exact ⟨List.prefix_rfl, .inl rfl⟩
  | some c => exact ⟨(steps_change w _).1, .inr (steps_change w _).2⟩

theorem steps_rename (p q : Path) : Steps (osRename p q) := by
  intro w
  unfold osRename
  cases w.fs p with
  | none => exact ⟨List.prefix_rfl, .inl rfl⟩
  | some c => exact ⟨(steps_change w _).1, .inr (steps_change w _).2⟩

theorem steps_fm (f : FM → FM) : Steps (Py.modify fun w : W => { w with fm := f w.fm }) :=
  fun _ => ⟨List.prefix_rfl, .inl rfl⟩

theorem less_guarded {deny : Deny} {c : Call} {a : Py W Unit} (ha : Steps a) : Less (guarded deny c a) a := by
  intro w
  unfold guarded
  split
  · exact .inr ⟨_, rfl, List.prefix_rfl, (ha w).1, .inl rfl⟩
  · exact .inl rfl

theorem steps_pieces (p : Path) (bs : List Bytes) (w : W) : w.log <+: (writePieces p bs w).log ∧
    ((writePieces p bs w).fs = w.fs ∨ (writePieces p bs w).fs ∈ (writePieces p bs w).log) := by
  obtain ⟨-, h2, h3, h4⟩ := writePieces_eq p bs w
  refine ⟨by rw [h2]; exact List.prefix_append _ _, ?_⟩
  by_cases hb : bs = []
  · exact .inl (h3 hb)
  · obtain ⟨b, hb, he⟩ := h4 hb
    right
    rw [he, h2]
    exact List.mem_append_right _ (List.mem_map.2 ⟨b, hb, rfl⟩)

/-- The part of `saveF` after the new zip file is complete. -/
def saveTailF (deny : Deny) (f tmp : Path) (backup : Bool) : Py W Unit := fun w1 =>
  (do
    if (w1.fs f).isSome then
      if backup then
        let bak := f ++ ".bak".toList
        if (w1.fs bak).isSome then guarded deny (.remove bak) (osRemove bak)
        guarded deny (.rename f bak) (osRename f bak)
      else guarded deny (.remove f) (osRemove f)
    guarded deny (.rename tmp f) (osRename tmp f)
    Py.modify fun w => { w with fm := { w.fm with source := .file (some f) } } : Py W Unit) w1

theorem less_at {α : Type} {a b : Py W α} (w : W) (h : Less a b) :
    a w = b w ∨ ∃ e, (a w).2 = .error e ∧ w.log <+: (a w).1.log ∧ (a w).1.log <+: (b w).1.log ∧
    ((a w).1.fs = w.fs ∨ (a w).1.fs ∈ (a w).1.log) := h w

theorem end_steps (f tmp : Path) : Steps (do
    osRename tmp f
    Py.modify fun w => { w with fm := { w.fm with source := .file (some f) } } : Py W Unit) :=
  steps_bind (steps_rename _ _) fun _ => steps_fm fun m => { m with source := .file (some f) }

theorem end_less (deny : Deny) (f tmp : Path) : Less (do
    guarded deny (.rename tmp f) (osRename tmp f)
    Py.modify fun w => { w with fm := { w.fm with source := .file (some f) } } : Py W Unit) (do
    osRename tmp f
    Py.modify fun w => { w with fm := { w.fm with source := .file (some f) } } : Py W Unit) :=
  less_bind (less_guarded (steps_rename _ _)) (steps_rename _ _) (fun _ => Less.refl _)
    fun _ => steps_fm fun m => { m with source := .file (some f) }

theorem less_tail (deny : Deny) (f tmp : Path) (backup : Bool) : Less (saveTailF deny f tmp backup) (saveTail f tmp backup) := by
  intro w
  unfold saveTailF saveTail
  split
  · split
    · dsimp only
      split
      · exact less_bind (less_guarded (steps_remove _)) (steps_remove _)
          (fun _ => less_bind (less_guarded (steps_rename _ _)) (steps_rename _ _) (fun _ => end_less deny f tmp)
            fun _ => end_steps f tmp)
          (fun _ => steps_bind (steps_rename _ _) fun _ => end_steps f tmp) w
      · exact less_bind (less_guarded (steps_rename _ _)) (steps_rename _ _) (fun _ => end_less deny f tmp)
          (fun _ => end_steps f tmp) w
    · exact less_bind (less_guarded (steps_remove _)) (steps_remove _) (fun _ => end_less deny f tmp)
        (fun _ => end_steps f tmp) w
  · exact end_less deny f tmp w

theorem steps_tail (f tmp : Path) (backup : Bool) : Steps (saveTail f tmp backup) := by
  intro w
  unfold saveTail
  split
  · split
    · dsimp only
      split
      · exact steps_bind (steps_remove _) (fun _ => steps_bind (steps_rename _ _) fun _ => end_steps f tmp) w
      · exact steps_bind (steps_rename _ _) (fun _ => end_steps f tmp) w
    · exact steps_bind (steps_remove _) (fun _ => end_steps f tmp) w
  · exact end_steps f tmp w

theorem saveF_eq (lib : Lib) (env : Env) (deny : Deny) (f : Path) (backup : Bool) (w : W) :
    saveF lib env deny f backup w = match tmpfilename env.names f w.fs with
      | none => (w, .error .IOError)
      | some tmp =>
        if deny (.create tmp) w.fs then (w, .error .IOError) else
        let w0 := writePieces tmp ([] :: env.pieces) w
        match tozip lib env.sink w0.fs (w.fm, []) with
        | ((fm, _), .error e) => ({ w0 with fm := fm }, .error e)
        | ((fm, z), .ok _) =>
          if deny (.close tmp) w0.fs then ({ w0 with fm := fm }, .error .IOError) else
          saveTailF deny f tmp backup (({ w0 with fm := fm }).change (w0.fs.write tmp (some (.zip z)))) := rfl

theorem save_def (lib : Lib) (env : Env) (f : Path) (backup : Bool) (w : W) :
    save lib env f backup w = match tmpfilename env.names f w.fs with
      | none => (w, .error .IOError)
      | some tmp =>
        let w0 := writePieces tmp ([] :: env.pieces) w
        match tozip lib env.sink w0.fs (w.fm, []) with
        | ((fm, _), .error e) => ({ w0 with fm := fm }, .error e)
        | ((fm, z), .ok _) =>
          saveTail f tmp backup (({ w0 with fm := fm }).change (w0.fs.write tmp (some (.zip z)))) := rfl

theorem less_save (lib : Lib) (env : Env) (deny : Deny) (f : Path) (backup : Bool) :
    Less (saveF lib env deny f backup) (save lib env f backup) := by
  intro w
  rw [saveF_eq, save_def]
  cases tmpfilename env.names f w.fs with
  | none => exact .inl rfl
  | some tmp =>
    dsimp only
    obtain ⟨p1, p2⟩ := steps_pieces tmp ([] :: env.pieces) w
    rcases hz : tozip lib env.sink (writePieces tmp ([] :: env.pieces) w).fs (w.fm, []) with ⟨⟨fm, z⟩, r⟩
    cases r with
    | error e =>
      dsimp only
      split
      · exact .inr ⟨_, rfl, List.prefix_rfl, p1, .inl rfl⟩
      · exact .inl rfl
    | ok u =>
      dsimp only
      generalize hw1 : (({ writePieces tmp ([] :: env.pieces) w with fm := fm } : W).change
        ((writePieces tmp ([] :: env.pieces) w).fs.write tmp (some (.zip z)))) = w1
      have q1 : (writePieces tmp ([] :: env.pieces) w).log <+: w1.log := by
        rw [← hw1]; exact List.prefix_append _ _
      have q2 : w1.fs ∈ w1.log := by rw [← hw1]; simp [W.change]
      have q3 := (steps_tail f tmp backup w1).1
      split
      · exact .inr ⟨_, rfl, List.prefix_rfl, p1.trans (q1.trans q3), .inl rfl⟩
      · split
        · exact .inr ⟨_, rfl, p1, q1.trans q3, p2⟩
        · rcases less_tail deny f tmp backup w1 with h | ⟨e, h1, h2, h3, h4⟩
          · exact .inl h
          · refine .inr ⟨e, h1, p1.trans (q1.trans h2), h3, ?_⟩
            rcases h4 with h4 | h4
            · rw [h4]; exact .inr (h2.subset q2)
            · exact .inr h4

/-- The end of `flatSave`. -/
def flatEnd (pieces : List Bytes) (f : Path) (new : Except Exc Bytes) : Py W Unit := fun w =>
  let w0 := writePieces f [[]] w
  match new with
  | .error e => (w0, .error e)
  | .ok b =>
    let w1 := writePieces f pieces w0
    (w1.change (w1.fs.write f (some (.raw b))), .ok ())

/-- The end of `flatSaveF`. -/
def flatEndF (deny : Deny) (pieces : List Bytes) (f : Path) (new : Except Exc Bytes) : Py W Unit :=
  guarded deny (.create f) fun w =>
    let w0 := writePieces f [[]] w
    match new with
    | .error e => (w0, .error e)
    | .ok b =>
      let w1 := writePieces f pieces w0
      if deny (.close f) w1.fs then (w1, .error .IOError) else
      (w1.change (w1.fs.write f (some (.raw b))), .ok ())

theorem flatSave_eq (pieces : List Bytes) (f : Path) (backup : Bool) (new : Except Exc Bytes) :
    flatSave pieces f backup new = (do
      let w ← Py.get
      if (w.fs f).isSome && backup then
        let bak := f ++ ".bak".toList
        if (w.fs bak).isSome then osRemove bak
        osRename f bak
      flatEnd pieces f new) := rfl

theorem flatSaveF_eq (deny : Deny) (pieces : List Bytes) (f : Path) (backup : Bool) (new : Except Exc Bytes) :
    flatSaveF deny pieces f backup new = (do
      let w ← Py.get
      if (w.fs f).isSome && backup then
        let bak := f ++ ".bak".toList
        if (w.fs bak).isSome then guarded deny (.remove bak) (osRemove bak)
        guarded deny (.rename f bak) (osRename f bak)
      flatEndF deny pieces f new) := rfl

theorem steps_flatEnd (pieces : List Bytes) (f : Path) (new : Except Exc Bytes) : Steps (flatEnd pieces f new) := by
  intro w
  unfold flatEnd
  dsimp only
  obtain ⟨p1, p2⟩ := steps_pieces f [[]] w
  cases new with
  | error e => exact ⟨p1, p2⟩
  | ok b =>
    obtain ⟨p3, p4⟩ := steps_pieces f pieces (writePieces f [[]] w)
    obtain ⟨p5, p6⟩ := steps_change (writePieces f pieces (writePieces f [[]] w))
      ((writePieces f pieces (writePieces f [[]] w)).fs.write f (some (.raw b)))
    exact ⟨p1.trans (p3.trans p5), .inr p6⟩

theorem less_flatEnd (deny : Deny) (pieces : List Bytes) (f : Path) (new : Except Exc Bytes) :
    Less (flatEndF deny pieces f new) (flatEnd pieces f new) := by
  intro w
  unfold flatEndF guarded
  split
  · exact .inr ⟨_, rfl, List.prefix_rfl, (steps_flatEnd pieces f new w).1, .inl rfl⟩
  · unfold flatEnd
    cases new with
    | error e => exact .inl rfl
    | ok b =>
      dsimp only
      split
      · obtain ⟨p1, p2⟩ := steps_pieces f [[]] w
        obtain ⟨p3, p4⟩ := steps_pieces f pieces (writePieces f [[]] w)
        obtain ⟨p5, p6⟩ := steps_change (writePieces f pieces (writePieces f [[]] w))
          ((writePieces f pieces (writePieces f [[]] w)).fs.write f (some (.raw b)))
        refine .inr ⟨_, rfl, p1.trans p3, p5, ?_⟩
        rcases p4 with p4 | p4
        · rw [p4]
          rcases p2 with p2 | p2
          · exact .inl p2
          · exact .inr (p3.subset p2)
        · exact .inr p4
      · exact .inl rfl

theorem steps_flat (pieces : List Bytes) (f : Path) (backup : Bool) (new : Except Exc Bytes) :
    Steps (flatSave pieces f backup new) := by
  rw [flatSave_eq]
  refine steps_bind (fun w => ⟨List.prefix_rfl, .inl rfl⟩) fun w => ?_
  split
  · dsimp only
    split
    · exact steps_bind (steps_remove _) fun _ => steps_bind (steps_rename _ _) fun _ => steps_flatEnd pieces f new
    · exact steps_bind (steps_rename _ _) fun _ => steps_flatEnd pieces f new
  · exact steps_flatEnd pieces f new

theorem bind_ends {α β : Type} {a : Py W α} {k : α → Py W β} {w : W} {y : β} (h : ((a >>= k) w).2 = .ok y) :
    ∃ x w', (k x w').2 = .ok y := by
  rw [Py.bind_def] at h
  rcases haw : a w with ⟨w', r⟩
  rw [haw] at h
  cases r with
  | error e => cases h
  | ok x => exact ⟨x, w', h⟩

/-- Flat XML that cannot be written is not saved. -/
theorem flat_ok {pieces : List Bytes} {f : Path} {backup : Bool} {new : Except Exc Bytes} {w : W}
    (h : (flatSave pieces f backup new w).2 = .ok ()) : ∃ b, new = .ok b := by
  have hend : ∀ w', (flatEnd pieces f new w').2 = .ok () → ∃ b, new = .ok b := by
    intro w' h
    cases new with
    | error e => cases h
    | ok b => exact ⟨b, rfl⟩
  rw [flatSave_eq] at h
  obtain ⟨w1, w', h⟩ := bind_ends h
  split at h
  · dsimp only at h
    split at h
    · obtain ⟨-, w2, h⟩ := bind_ends h
      obtain ⟨-, w3, h⟩ := bind_ends h
      exact hend _ h
    · obtain ⟨-, w3, h⟩ := bind_ends h
      exact hend _ h
  · exact hend _ h

theorem less_flat (deny : Deny) (pieces : List Bytes) (f : Path) (backup : Bool) (new : Except Exc Bytes) :
    Less (flatSaveF deny pieces f backup new) (flatSave pieces f backup new) := by
  rw [flatSave_eq, flatSaveF_eq]
  refine less_bind (Less.refl _) (fun w => ⟨List.prefix_rfl, .inl rfl⟩) (fun w => ?_) (fun w => ?_)
  · split
    · dsimp only
      split
      · exact less_bind (less_guarded (steps_remove _)) (steps_remove _)
          (fun _ => less_bind (less_guarded (steps_rename _ _)) (steps_rename _ _)
            (fun _ => less_flatEnd deny pieces f new) fun _ => steps_flatEnd pieces f new)
          (fun _ => steps_bind (steps_rename _ _) fun _ => steps_flatEnd pieces f new)
      · exact less_bind (less_guarded (steps_rename _ _)) (steps_rename _ _) (fun _ => less_flatEnd deny pieces f new)
          fun _ => steps_flatEnd pieces f new
    · exact less_flatEnd deny pieces f new
  · split
    · dsimp only
      split
      · exact steps_bind (steps_remove _) fun _ => steps_bind (steps_rename _ _) fun _ => steps_flatEnd pieces f new
      · exact steps_bind (steps_rename _ _) fun _ => steps_flatEnd pieces f new
    · exact steps_flatEnd pieces f new

end Verif.Package
