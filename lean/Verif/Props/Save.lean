import Verif.Proofs.Save
/-! # C40: no crash point of save loses the document -/
namespace Verif.Package
open Verif
set_option linter.unusedSimpArgs false

/-- In state `s` of the files, some file in the folder of `f` has content `c`. -/
def Here (f : Path) (s : FS) (c : Content) : Prop := ∃ p, folder p = folder f ∧ s p = some c

/-- The random names consist of the documented characters. -/
def Env.Valid (env : Env) : Prop := ∀ n ∈ env.names, ∀ c ∈ n, c ∈ FNCHARS

theorem folder_append (d n : Path) (hn : '/' ∉ n) : folder (d ++ n) = folder d := by
  unfold folder
  rw [List.reverse_append, List.dropWhile_append_of_pos]
  intro c hc
  rw [List.mem_reverse] at hc
  simp only [ne_eq, decide_not, Bool.not_eq_true', decide_eq_false_iff_not]
  rintro rfl
  exact hn hc

theorem dropWhile_idem {α} (p : α → Bool) (l : List α) : (l.dropWhile p).dropWhile p = l.dropWhile p := by
  induction l with
  | nil => rfl
  | cons a l ih =>
    rw [List.dropWhile_cons]
    split
    · exact ih
    · rename_i h; rw [List.dropWhile_cons, if_neg h]

theorem folder_idem (f : Path) : folder (folder f) = folder f := by
  unfold folder; rw [List.reverse_reverse, dropWhile_idem]

theorem slash_free (n : Str) (h : ∀ c ∈ n, c ∈ FNCHARS) : '/' ∉ n := by
  intro hm
  exact absurd (h _ hm) (by decide +kernel)

theorem folder_bak (f : Path) : folder (f ++ ".bak".toList) = folder f := folder_append _ _ (by decide)

theorem folder_tmp {env : Env} (hv : env.Valid) {f tmp : Path} {fs : FS}
    (h : tmpfilename env.names f fs = some tmp) : folder tmp = folder f := by
  obtain ⟨-, n, hn, rfl⟩ := tmp_spec h
  rw [folder_append _ _ (by decide), folder_append _ _ (slash_free n (hv n hn)), folder_idem]

theorem tmp_ne_bak {names : List Str} {f tmp : Path} {fs : FS} (h : tmpfilename names f fs = some tmp) :
    tmp ≠ f ++ ".bak".toList := by
  obtain ⟨-, n, hn, rfl⟩ := tmp_spec h
  exact fun e => bak_ne_tmp f n _ e.symm

theorem tozip_tobytes {lib sink fs} {fm fm' : FM} {z : Zip} (h : tozip lib sink fs (fm, []) = ((fm', z), .ok ())) :
    tobytes lib sink fs fm = (fm', .ok z) := by
  unfold tobytes; rw [h]

/-- All states the files go through when the document existed before. -/
theorem save_states (lib : Lib) (env : Env) (f : Path) (backup : Bool) (w : W) (hl : w.log = [])
    (old : Content) (hold : w.fs f = some old) :
    (∃ e, save lib env f backup w = (w, .error e)) ∨
    ∃ tmp, tmpfilename env.names f w.fs = some tmp ∧ tmp ≠ f ∧
      ((∃ e fm, tozip lib env.sink w.fs (w.fm, []) = (fm, .error e) ∧
          (save lib env f backup w).2 = .error e ∧
          ∀ s ∈ (save lib env f backup w).1.log, ∃ b, s = w.fs.write tmp (some (.raw b))) ∨
       ∃ z fm', tobytes lib env.sink w.fs w.fm = (fm', .ok z) ∧
          (save lib env f backup w).2 = .ok () ∧
          (save lib env f backup w).1.fm = moved fm' f ∧
          let N := some (Content.zip z)
          let bak := f ++ ".bak".toList
          let F := if backup then (((w.fs.write f none).write bak (some old)).write tmp none).write f N
            else (w.fs.write tmp none).write f N
          (save lib env f backup w).1.fs = F ∧
          ∀ s ∈ (save lib env f backup w).1.log,
            (∃ b, s = w.fs.write tmp (some (.raw b))) ∨ s = w.fs.write tmp N ∨ s = F ∨
            (backup = false ∧ s = (w.fs.write tmp N).write f none) ∨
            (backup = true ∧ s = (w.fs.write tmp N).write bak none) ∨
            (backup = true ∧ s = ((w.fs.write tmp N).write f none).write bak (some old))) := by
  cases ht : tmpfilename env.names f w.fs with
  | none => left; exact ⟨.IOError, by unfold save; rw [ht]⟩
  | some tmp =>
    right
    have htmp := (tmp_spec ht).1
    have hne : tmp ≠ f := by rintro rfl; rw [htmp] at hold; cases hold
    have hnb := tmp_ne_bak ht
    have hbf := bak_ne f
    refine ⟨tmp, rfl, hne, ?_⟩
    obtain ⟨b, hb, hs⟩ := save_eq (lib := lib) (backup := backup) ht
    rw [hs, hl]
    cases hz : tozip lib env.sink w.fs (w.fm, []) with
    | mk s o =>
      obtain ⟨fm', z⟩ := s
      cases o with
      | error e =>
        left
        refine ⟨e, _, rfl, rfl, ?_⟩
        intro s hs
        simp only [List.nil_append] at hs
        obtain ⟨b, -, rfl⟩ := List.mem_map.1 hs
        exact ⟨b, rfl⟩
      | ok u =>
        right
        refine ⟨z, fm', tozip_tobytes hz, ?_⟩
        have h1 : (w.fs.write tmp (some (Content.zip z))) f = some old := by
          rw [write_ne _ (fun e => hne e.symm), hold]
        have h2 : (w.fs.write tmp (some (Content.zip z))) tmp = some (.zip z) := write_same _ _ _
        have hcomm : ∀ (fs : FS) (a b : Option Content) (p q : Path), p ≠ q →
            (fs.write p a).write q b = (fs.write q b).write p a := by
          intro fs a b p q h
          funext x
          unfold FS.write
          by_cases hx : x = q
          · subst hx; simp [Ne.symm h]
          · simp [hx]
        have hmem : ∀ s, s ∈ ([] :: env.pieces).map (fun b => w.fs.write tmp (some (.raw b))) →
            ∃ b, s = w.fs.write tmp (some (.raw b)) := by
          intro s hs; obtain ⟨b, -, rfl⟩ := List.mem_map.1 hs; exact ⟨b, rfl⟩
        cases backup with
        | false =>
          simp only
          rw [tail_remove hne h1 h2]
          have hF : ((((w.fs.write tmp (some (Content.zip z))).write f none).write tmp none).write f
              (some (Content.zip z))) = (w.fs.write tmp none).write f (some (.zip z)) := by
            rw [hcomm _ _ _ _ _ hne, write_write, hcomm _ _ _ _ _ (Ne.symm hne), write_write]
          refine ⟨rfl, rfl, ?_, ?_⟩
          · simpa using hF
          · intro s hs
            simp only [List.nil_append, List.mem_append, List.mem_cons, List.not_mem_nil, or_false] at hs
            rcases hs with (hs | hs) | hs | hs
            · exact .inl (hmem s (by simpa using hs))
            · exact .inr (.inl hs)
            · exact .inr (.inr (.inr (.inl ⟨by trivial, hs⟩)))
            · exact .inr (.inr (.inl (by rw [hs]; simpa using hF)))
        | true =>
          have hF : (((((w.fs.write tmp (some (Content.zip z))).write f none).write (f ++ ".bak".toList)
              (some old)).write tmp none).write f (some (Content.zip z))) =
              (((w.fs.write f none).write (f ++ ".bak".toList) (some old)).write tmp none).write f
                (some (.zip z)) := by
            rw [hcomm w.fs _ _ _ _ hne, hcomm _ _ _ _ _ hnb, write_write]
          cases hbak : w.fs (f ++ ".bak".toList) with
          | none =>
            have h3 : (w.fs.write tmp (some (Content.zip z))) (f ++ ".bak".toList) = none := by
              rw [write_ne _ (fun e => hnb e.symm), hbak]
            simp only
            rw [tail_backup rfl hne hnb h1 h2 h3]
            refine ⟨rfl, rfl, ?_, ?_⟩
            · simpa using hF
            · intro s hs
              simp only [List.nil_append, List.mem_append, List.mem_cons, List.not_mem_nil, or_false] at hs
              rcases hs with (hs | hs) | hs | hs
              · exact .inl (hmem s (by simpa using hs))
              · exact .inr (.inl hs)
              · exact .inr (.inr (.inr (.inr (.inr ⟨by trivial, hs⟩))))
              · exact .inr (.inr (.inl (by rw [hs]; simpa using hF)))
          | some o =>
            have h3 : (w.fs.write tmp (some (Content.zip z))) (f ++ ".bak".toList) = some o := by
              rw [write_ne _ (fun e => hnb e.symm), hbak]
            have h4 : (((w.fs.write tmp (some (Content.zip z))).write (f ++ ".bak".toList) none).write f
                none).write (f ++ ".bak".toList) (some old) =
                ((w.fs.write tmp (some (Content.zip z))).write f none).write (f ++ ".bak".toList) (some old) := by
              rw [hcomm _ _ _ _ _ hbf, write_write]
            simp only
            rw [tail_replace rfl hne hnb h1 h2 h3]
            simp only [h4]
            refine ⟨by trivial, by trivial, ?_, ?_⟩
            · simpa using hF
            · intro s hs
              simp only [List.nil_append, List.mem_append, List.mem_cons, List.not_mem_nil, or_false] at hs
              rcases hs with (hs | hs) | hs | hs | hs
              · exact .inl (hmem s (by simpa using hs))
              · exact .inr (.inl hs)
              · exact .inr (.inr (.inr (.inr (.inl ⟨by trivial, hs⟩))))
              · exact .inr (.inr (.inr (.inr (.inr ⟨by trivial, hs⟩))))
              · exact .inr (.inr (.inl (by rw [hs]; simpa using hF)))

/-- C40, packages: at every point of a save the complete old or the complete new document is in the
folder; this covers interruptions and failures. -/
theorem C40_crash (lib : Lib) (env : Env) (hv : env.Valid) (f : Path) (backup : Bool) (w : W)
    (hl : w.log = []) (old : Content) (hold : w.fs f = some old) :
    ∀ s ∈ (save lib env f backup w).1.log, Here f s old ∨
      ∃ z fm', tobytes lib env.sink w.fs w.fm = (fm', .ok z) ∧ Here f s (.zip z) := by
  rcases save_states lib env f backup w hl old hold with ⟨e, h⟩ | ⟨tmp, ht, hne, h⟩
  · rw [h, hl]; intro s hs; cases hs
  · have hft := folder_tmp hv ht
    have hnb := tmp_ne_bak ht
    rcases h with ⟨e, fm, -, -, h⟩ | ⟨z, fm', hz, -, -, -, h⟩
    · intro s hs
      obtain ⟨b, rfl⟩ := h s hs
      exact .inl ⟨f, rfl, by rw [write_ne _ (Ne.symm hne), hold]⟩
    · intro s hs
      rcases h s hs with ⟨b, rfl⟩ | rfl | rfl | ⟨-, rfl⟩ | ⟨-, rfl⟩ | ⟨-, rfl⟩
      · exact .inl ⟨f, rfl, by rw [write_ne _ (Ne.symm hne), hold]⟩
      · exact .inl ⟨f, rfl, by rw [write_ne _ (Ne.symm hne), hold]⟩
      · exact .inr ⟨z, fm', hz, f, rfl, by split <;> rw [write_same]⟩
      · exact .inr ⟨z, fm', hz, tmp, hft, by rw [write_ne _ hne, write_same]⟩
      · exact .inl ⟨f, rfl, by rw [write_ne _ (bak_ne f).symm, write_ne _ (Ne.symm hne), hold]⟩
      · exact .inl ⟨f ++ ".bak".toList, folder_bak f, write_same _ _ _⟩

/-- C40, packages: with backup the old document is there under its own name or as `.bak`, always. -/
theorem C40_backup (lib : Lib) (env : Env) (f : Path) (w : W) (hl : w.log = []) (old : Content)
    (hold : w.fs f = some old) :
    ∀ s ∈ (save lib env f true w).1.log, s f = some old ∨ s (f ++ ".bak".toList) = some old := by
  rcases save_states lib env f true w hl old hold with ⟨e, h⟩ | ⟨tmp, ht, hne, h⟩
  · rw [h, hl]; intro s hs; cases hs
  · have hnb := tmp_ne_bak ht
    have hbf := bak_ne f
    rcases h with ⟨e, fm, -, -, h⟩ | ⟨z, fm', hz, -, -, -, h⟩
    · intro s hs
      obtain ⟨b, rfl⟩ := h s hs
      exact .inl (by rw [write_ne _ (Ne.symm hne), hold])
    · intro s hs
      rcases h s hs with ⟨b, rfl⟩ | rfl | rfl | ⟨h, -⟩ | ⟨-, rfl⟩ | ⟨-, rfl⟩
      · exact .inl (by rw [write_ne _ (Ne.symm hne), hold])
      · exact .inl (by rw [write_ne _ (Ne.symm hne), hold])
      · right
        rw [if_pos rfl, write_ne _ hbf, write_ne _ (Ne.symm hnb), write_same]
      · cases h
      · exact .inl (by rw [write_ne _ (bak_ne f).symm, write_ne _ (Ne.symm hne), hold])
      · exact .inr (write_same _ _ _)

/-- C40, packages: no other file changes at any point; only a new temporary file appears. -/
theorem C40_others (lib : Lib) (env : Env) (f : Path) (backup : Bool) (w : W)
    (hl : w.log = []) (old : Content) (hold : w.fs f = some old) :
    ∃ tmp, (w.fs tmp = none ∨ (save lib env f backup w).1.log = []) ∧
      ∀ s ∈ (save lib env f backup w).1.log, ∀ q, q ≠ f → q ≠ tmp →
        (backup = true → q ≠ f ++ ".bak".toList) → s q = w.fs q := by
  rcases save_states lib env f backup w hl old hold with ⟨e, h⟩ | ⟨tmp, ht, hne, h⟩
  · rw [h, hl]; exact ⟨f, .inr rfl, fun s hs => by cases hs⟩
  · refine ⟨tmp, .inl (tmp_spec ht).1, ?_⟩
    rcases h with ⟨e, fm, -, -, h⟩ | ⟨z, fm', hz, -, -, -, h⟩
    · intro s hs q hq hq' _
      obtain ⟨b, rfl⟩ := h s hs
      rw [write_ne _ hq']
    · intro s hs q hq hq' hb
      rcases h s hs with ⟨b, rfl⟩ | rfl | rfl | ⟨-, rfl⟩ | ⟨h, rfl⟩ | ⟨h, rfl⟩
      · rw [write_ne _ hq']
      · rw [write_ne _ hq']
      · split
        · rename_i h; rw [write_ne _ hq, write_ne _ hq', write_ne _ (hb h), write_ne _ hq]
        · rw [write_ne _ hq, write_ne _ hq']
      · rw [write_ne _ hq, write_ne _ hq']
      · rw [write_ne _ (hb h), write_ne _ hq']
      · rw [write_ne _ (hb h), write_ne _ hq, write_ne _ hq']

/-- C40, packages: after completion the name holds the new document and, with backup, `.bak` the
previous one; every other file is as before, also the temporary file is gone. -/
theorem C40_done (lib : Lib) (env : Env) (f : Path) (backup : Bool) (w : W) (hl : w.log = [])
    (old : Content) (hold : w.fs f = some old) (hok : (save lib env f backup w).2 = .ok ()) :
    ∃ z fm', tobytes lib env.sink w.fs w.fm = (fm', .ok z) ∧
      ∀ q, (save lib env f backup w).1.fs q =
        if q = f then some (.zip z)
        else if backup = true ∧ q = f ++ ".bak".toList then some old else w.fs q := by
  rcases save_states lib env f backup w hl old hold with ⟨e, h⟩ | ⟨tmp, ht, hne, h⟩
  · rw [h] at hok; cases hok
  · have htmp := (tmp_spec ht).1
    have hnb := tmp_ne_bak ht
    rcases h with ⟨e, fm, -, h, -⟩ | ⟨z, fm', hz, -, -, h, -⟩
    · rw [h] at hok; cases hok
    · refine ⟨z, fm', hz, fun q => ?_⟩
      rw [h]
      by_cases hq : q = f
      · rw [if_pos hq, hq]; split <;> rw [write_same]
      · rw [if_neg hq]
        cases backup with
        | false =>
          simp only [Bool.false_eq_true, if_false, false_and]
          rw [write_ne _ hq]
          by_cases hq' : q = tmp
          · rw [hq', write_same, htmp]
          · rw [write_ne _ hq']
        | true =>
          simp only [if_true, true_and]
          rw [write_ne _ hq]
          by_cases hq' : q = tmp
          · rw [hq', write_same, if_neg hnb, htmp]
          · rw [write_ne _ hq']
            by_cases hb : q = f ++ ".bak".toList
            · rw [if_pos hb, hb, write_same]
            · rw [if_neg hb, write_ne _ hb, write_ne _ hq]

/-- C40, packages: saving under a free name. -/
theorem C40_free (lib : Lib) (env : Env) (f : Path) (backup : Bool) (w : W)
    (hfree : w.fs f = none) (hok : (save lib env f backup w).2 = .ok ()) :
    ∃ z fm', tobytes lib env.sink w.fs w.fm = (fm', .ok z) ∧
      (save lib env f backup w).1.fm = moved fm' f ∧
      ∀ q, (save lib env f backup w).1.fs q = if q = f then some (.zip z) else w.fs q := by
  cases ht : tmpfilename env.names f w.fs with
  | none => exfalso; unfold save at hok; rw [ht] at hok; cases hok
  | some tmp =>
    have htmp := (tmp_spec ht).1
    obtain ⟨b, hb, hs⟩ := save_eq (lib := lib) (backup := backup) ht
    rw [hs] at hok ⊢
    cases hz : tozip lib env.sink w.fs (w.fm, []) with
    | mk s o =>
      obtain ⟨fm', z⟩ := s
      rw [hz] at hok
      cases o with
      | error e => cases hok
      | ok u =>
        refine ⟨z, fm', tozip_tobytes hz, ?_⟩
        simp only at hok ⊢
        by_cases hne : tmp = f
        · exfalso
          subst hne
          cases backup with
          | false => rw [tail_clash (n := .zip z) (write_same _ _ _)] at hok; cases hok
          | true => rw [tail_clash_backup rfl (n := .zip z) (write_same _ _ _)] at hok; cases hok
        · rw [tail_free (n := .zip z) (by show w.fs.write _ _ _ = _; rw [write_ne _ (Ne.symm hne), hfree])
            (write_same _ _ _)]
          refine ⟨rfl, fun q => ?_⟩
          simp only
          by_cases hq : q = f
          · rw [if_pos hq, hq, write_same]
          · rw [if_neg hq, write_ne _ hq]
            by_cases hq' : q = tmp
            · rw [hq', write_same, htmp]
            · rw [write_ne _ hq', write_ne _ hq']

/-! ### What does not hold -/

def files (l : List (Path × Content)) : FS := fun p => (l.find? fun x => x.1 = p).map Prod.snd

theorem files_ne {p q : Path} {c : Content} (h : q ≠ p) : files [(p, c)] q = none := by
  unfold files
  rw [List.find?_cons]
  have : decide (p = q) = false := decide_eq_false (Ne.symm h)
  rw [show decide ((p, c).1 = q) = false from this]; rfl

/-- A manager with a `mimetype` part only. -/
def tiny (src : Source) : FM :=
  register MIMETYPE (.text "m".toList) [] 0 { dir := [], manifest := Manifest.new, source := src }

def env0 : Env := { names := ["ABCDEFGH".toList], pieces := [], sink := fun _ => none }

theorem here_no (f : Path) (p : Path) (c c' : Content) (s : FS) (hs : ∀ q, q ≠ p → s q = none) (hp : s p = some c')
    (h : c ≠ c') : ¬ Here f s c := by
  rintro ⟨q, -, hq⟩
  by_cases e : q = p
  · subst e; rw [hp] at hq; exact h (Option.some.inj hq).symm
  · rw [hs q e] at hq; cases hq

/-- C40 does not hold for documents opened from a stream: saving to a file name empties the file
first; if it is interrupted there, or if a part cannot be written, the old document is lost and the
new one is not there. -/
theorem C40_stream_refuted :
    ∃ (fm : FM) (f : Path) (old : Content),
      let w : W := { fm := fm, fs := files [(f, old)], log := [] }
      ∃ s ∈ (streamSave lib0 env0 f w).1.log, (streamSave lib0 env0 f w).2 = .ok () ∧
        ¬ Here f s old ∧
        ∀ z fm', tobytes lib0 env0.sink w.fs w.fm = (fm', .ok z) → ¬ Here f s (.zip z) := by
  refine ⟨tiny (.stream none), "/d/f".toList, .raw [1], ?_⟩
  refine ⟨(files [("/d/f".toList, .raw [1])]).write "/d/f".toList (some (.raw [])), ?_, rfl, ?_, ?_⟩
  · exact List.mem_cons_self
  · refine here_no _ "/d/f".toList _ (.raw []) _ ?_ (write_same _ _ _) (by decide)
    intro q hq
    rw [write_ne _ hq]
    exact files_ne hq
  · intro z fm' _
    refine here_no _ "/d/f".toList _ (.raw []) _ ?_ (write_same _ _ _) (by intro h; cases h)
    intro q hq
    rw [write_ne _ hq]
    exact files_ne hq

/-- The same for flat XML documents without backup. -/
theorem C40_flat_refuted :
    ∃ (f : Path) (old : Content) (new : Bytes),
      let w : W := { fm := tiny (.file none), fs := files [(f, old)], log := [] }
      ∃ s ∈ (flatSave [] f false (.ok new) w).1.log, (flatSave [] f false (.ok new) w).2 = .ok () ∧
        ¬ Here f s old ∧ ¬ Here f s (.raw new) := by
  refine ⟨"/d/f".toList, .raw [1], [2], ?_⟩
  refine ⟨(files [("/d/f".toList, .raw [1])]).write "/d/f".toList (some (.raw [])), ?_, rfl, ?_, ?_⟩
  · exact List.mem_cons_self
  · refine here_no _ "/d/f".toList _ (.raw []) _ ?_ (write_same _ _ _) (by decide)
    intro q hq
    rw [write_ne _ hq]
    exact files_ne hq
  · refine here_no _ "/d/f".toList _ (.raw []) _ ?_ (write_same _ _ _) (by decide)
    intro q hq
    rw [write_ne _ hq]
    exact files_ne hq

/-- Under a free name that is also chosen for the temporary file the new document is written,
removed again, and the call fails. -/
theorem C40_clash_refuted :
    ∃ (env : Env) (f : Path) (w : W), env.Valid ∧ w.fs f = none ∧
      (∃ fm z, tobytes lib0 env.sink w.fs w.fm = (fm, .ok z)) ∧
      (save lib0 env f false w).2 = .error .IOError ∧ (save lib0 env f false w).1.fs f = none := by
  refine ⟨env0, "/d/ABCDEFGH.tmp".toList, { fm := tiny (.file none), fs := fun _ => none, log := [] },
    ?_, rfl, ⟨_, _, rfl⟩, by decide +kernel, by decide +kernel⟩
  intro n hn c hc
  simp only [env0, List.mem_singleton] at hn
  subst hn
  revert c
  decide +kernel

/-- C40 for flat XML documents with backup: the old document is there at every point. -/
theorem C40_flat_backup (pieces : List Bytes) (f : Path) (new : Except Exc Bytes) (w : W)
    (hl : w.log = []) (old : Content) (hold : w.fs f = some old) :
    (∀ s ∈ (flatSave pieces f true new w).1.log,
      (s f = some old ∨ s (f ++ ".bak".toList) = some old) ∧
      ∀ q, q ≠ f → q ≠ f ++ ".bak".toList → s q = w.fs q) ∧
    ∀ b, new = .ok b → (flatSave pieces f true new w).1.fs f = some (.raw b) ∧
      (flatSave pieces f true new w).1.fs (f ++ ".bak".toList) = some old := by
  have hbf := bak_ne f
  have key : ∀ w1 : W, (∀ s ∈ w1.log, (s f = some old ∨ s (f ++ ".bak".toList) = some old) ∧
        ∀ q, q ≠ f → q ≠ f ++ ".bak".toList → s q = w.fs q) →
      w1.fs (f ++ ".bak".toList) = some old →
      (∀ q, q ≠ f → q ≠ f ++ ".bak".toList → w1.fs q = w.fs q) →
      ∀ r : W × Except Exc Unit, (∀ e, new = .error e → r = (writePieces f [[]] w1, .error e)) →
        (∀ b, new = .ok b → r = ((writePieces f pieces (writePieces f [[]] w1)).change
            ((writePieces f pieces (writePieces f [[]] w1)).fs.write f (some (.raw b))), .ok ())) →
      (∀ s ∈ r.1.log, (s f = some old ∨ s (f ++ ".bak".toList) = some old) ∧
        ∀ q, q ≠ f → q ≠ f ++ ".bak".toList → s q = w.fs q) ∧
      ∀ b, new = .ok b → r.1.fs f = some (.raw b) ∧ r.1.fs (f ++ ".bak".toList) = some old := by
    intro w1 h1 h2 h3 r hr hr'
    have hgood : ∀ (v : W) (bs : List Bytes),
        ((∀ s ∈ v.log, (s f = some old ∨ s (f ++ ".bak".toList) = some old) ∧
          ∀ q, q ≠ f → q ≠ f ++ ".bak".toList → s q = w.fs q) ∧
        v.fs (f ++ ".bak".toList) = some old ∧
        (∀ q, q ≠ f → q ≠ f ++ ".bak".toList → v.fs q = w.fs q)) →
        ((∀ s ∈ (writePieces f bs v).log, (s f = some old ∨ s (f ++ ".bak".toList) = some old) ∧
          ∀ q, q ≠ f → q ≠ f ++ ".bak".toList → s q = w.fs q) ∧
        (writePieces f bs v).fs (f ++ ".bak".toList) = some old ∧
        (∀ q, q ≠ f → q ≠ f ++ ".bak".toList → (writePieces f bs v).fs q = w.fs q)) := by
      intro v bs
      induction bs generalizing v with
      | nil => exact id
      | cons b bs ih =>
        rintro ⟨g1, g2, g3⟩
        refine ih _ ⟨?_, ?_, ?_⟩
        · intro s hs
          rcases List.mem_append.1 hs with hs | hs
          · exact g1 s hs
          · simp only [List.mem_singleton] at hs
            subst hs
            exact ⟨.inr (by rw [write_ne _ hbf, g2]), fun q hq hq' => by rw [write_ne _ hq, g3 q hq hq']⟩
        · show FS.write _ _ _ _ = _; rw [write_ne _ hbf, g2]
        · intro q hq hq'; show FS.write _ _ _ _ = _; rw [write_ne _ hq, g3 q hq hq']
    have g1 := hgood w1 [[]] ⟨h1, h2, h3⟩
    cases new with
    | error e => rw [hr e rfl]; exact ⟨g1.1, fun b hb => by cases hb⟩
    | ok b =>
      rw [hr' b rfl]
      have g2 := hgood _ pieces g1
      refine ⟨?_, ?_⟩
      · intro s hs
        rcases List.mem_append.1 hs with hs | hs
        · exact g2.1 s hs
        · simp only [List.mem_singleton] at hs
          subst hs
          exact ⟨.inr (by rw [write_ne _ hbf, g2.2.1]), fun q hq hq' => by rw [write_ne _ hq, g2.2.2 q hq hq']⟩
      · intro b' hb'
        cases hb'
        exact ⟨write_same _ _ _, by show FS.write _ _ _ _ = _; rw [write_ne _ hbf, g2.2.1]⟩
  unfold flatSave
  simp only [Py.bind_def, Py.get, hold, Option.isSome_some, Bool.and_self, if_true]
  cases hbak : w.fs (f ++ ".bak".toList) with
  | none =>
    simp only [Option.isSome_none, Bool.false_eq_true, if_false]
    simp only [Py.bind_def, pure, Py.pure, osRename_some hold]
    refine key _ ?_ ?_ ?_ _ (fun e he => by rw [he]) (fun b hb => by rw [hb])
    · intro s hs
      simp only [W.change, hl, List.nil_append, List.mem_singleton] at hs
      subst hs
      exact ⟨.inr (write_same _ _ _), fun q hq hq' => by rw [write_ne _ hq', write_ne _ hq]⟩
    · exact write_same _ _ _
    · intro q hq hq'; simp only [W.change]; rw [write_ne _ hq', write_ne _ hq]
  | some o =>
    simp only [Option.isSome_some, if_true]
    simp only [Py.bind_def, pure, Py.pure, osRemove_some hbak]
    have h1 : (w.change (w.fs.write (f ++ ".bak".toList) none)).fs f = some old := by
      simp only [W.change]; rw [write_ne _ hbf.symm, hold]
    simp only [osRename_some h1]
    refine key _ ?_ ?_ ?_ _ (fun e he => by rw [he]) (fun b hb => by rw [hb])
    · intro s hs
      simp only [W.change, hl, List.nil_append, List.mem_append, List.mem_singleton] at hs
      rcases hs with rfl | rfl
      · exact ⟨.inl (by rw [write_ne _ hbf.symm, hold]), fun q hq hq' => by rw [write_ne _ hq']⟩
      · exact ⟨.inr (write_same _ _ _), fun q hq hq' => by
          rw [write_ne _ hq', write_ne _ hq, write_ne _ hq']⟩
    · exact write_same _ _ _
    · intro q hq hq'; simp only [W.change]; rw [write_ne _ hq', write_ne _ hq, write_ne _ hq']

/-! ## Examples: cases that meet the hypotheses -/

example : env0.Valid := by
  intro n hn c hc
  simp only [env0, List.mem_singleton] at hn
  subst hn
  revert c
  decide +kernel

/-- Saving over an old document with an older backup: seven states of the disc. -/
example : let w : W := { fm := tiny (.file none), log := []
                         fs := files [("/d/f".toList, .raw [1]), ("/d/f.bak".toList, .raw [2])] }
    (save lib0 { env0 with pieces := [[7], [7, 8]] } "/d/f".toList true w).2 = .ok () ∧
    ((save lib0 { env0 with pieces := [[7], [7, 8]] } "/d/f".toList true w).1.log).length = 7 ∧
    (save lib0 { env0 with pieces := [[7], [7, 8]] } "/d/f".toList true w).1.fs "/d/f.bak".toList = some (.raw [1]) := by
  decide +kernel

example : (flatSave [[1]] "/d/f".toList true (.ok [1, 2])
    { fm := tiny (.file none), log := [], fs := files [("/d/f".toList, .raw [1])] }).1.fs "/d/f.bak".toList =
    some (.raw [1]) := by decide +kernel

end Verif.Package
