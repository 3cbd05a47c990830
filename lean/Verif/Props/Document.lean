import Verif.Proofs.Document
/-! # C60: a saved package passes the package check -/
namespace Verif.Document
open Verif Verif.Package Verif.Manifest
set_option linter.unusedSimpArgs false

/-- The manifest of an opened package lists the four paths that the check looks for by
`manifest:file-entry` elements. -/
def Plain (m : Manifest.M) : Prop :=
  ∀ e ∈ m.kids, ∀ n ∈ [CONTENT, META, STYLES, ROOT],
    e.get "manifest:full-path" = some n → e.tag = "manifest:file-entry"

/-- The entries for the root of the package. -/
def roots (m : Manifest.M) : List Elem := m.kids.filter fun e => e.get "manifest:full-path" = some ROOT

theorem plain_entries {m : Manifest.M} (hm : Plain m) {n : Str} (hn : n ∈ [CONTENT, META, STYLES, ROOT]) :
    entriesOf n m.kids = m.kids.filter (hasPath n) := by
  unfold entriesOf hasPath
  apply List.filter_congr
  intro e he
  by_cases h : e.get "manifest:full-path" = some n
  · simp [h, hm e he n hn h]
  · simp [h]

theorem mem_editFirst {p : Str} {f : Elem → Elem} {l : List Elem} {e : Elem} (h : e ∈ editFirst p f l) :
    e ∈ l ∨ ∃ e' ∈ l, e = f e' := by
  induction l with
  | nil => cases h
  | cons a r ih =>
    unfold editFirst at h
    split at h
    · rcases List.mem_cons.1 h with rfl | h
      · exact .inr ⟨a, by simp, rfl⟩
      · exact .inl (List.mem_cons_of_mem _ h)
    · rcases List.mem_cons.1 h with rfl | h
      · exact .inl (by simp)
      · rcases ih h with h | ⟨e', h, he⟩
        · exact .inl (List.mem_cons_of_mem _ h)
        · exact .inr ⟨e', List.mem_cons_of_mem _ h, he⟩

theorem tag_setTypeVersion (t : Str) (v : Option Str) (e : Elem) : (setTypeVersion t v e).tag = e.tag := by
  unfold setTypeVersion; cases v <;> rfl

theorem path_setTypeVersion (t : Str) (v : Option Str) (e : Elem) :
    (setTypeVersion t v e).get "manifest:full-path" = e.get "manifest:full-path" := by
  unfold setTypeVersion; cases v <;> simp [Elem.get_set]

theorem plain_add {m : Manifest.M} (hm : Plain m) (p t : Str) (v : Option Str) : Plain (add p t v m) := by
  intro e he n hn hp
  unfold add at he
  split at he
  · exact hm e he n hn hp
  · split at he
    · rcases List.mem_append.1 he with he | he
      · exact hm e he n hn hp
      · simp only [List.mem_singleton] at he
        rw [he, tag_setTypeVersion]; rfl
    · rcases mem_editFirst he with he | ⟨e', he', rfl⟩
      · exact hm e he n hn hp
      · rw [tag_setTypeVersion]
        rw [path_setTypeVersion] at hp
        exact hm e' he' n hn hp

theorem add_path_ne {m : Manifest.M} {p t : Str} {v : Option Str} {q : Str} (h : p ≠ q) :
    (add p t v m).kids.filter (hasPath q) = m.kids.filter (hasPath q) :=
  add_other p t v m _ fun e he => hasPath_ne h he

theorem add_listed {m : Manifest.M} {p t : Str} {v : Option Str} {q : Str}
    (h : m.kids.filter (hasPath q) ≠ [] ∨ (p = q ∧ p ∉ IGNORE_LIST)) :
    (add p t v m).kids.filter (hasPath q) ≠ [] := by
  by_cases hp : p = q
  · subst hp
    by_cases hi : p ∈ IGNORE_LIST
    · rcases h with h | h
      · rw [show add p t v m = m by unfold add; rw [if_pos hi]]; exact h
      · exact absurd hi h.2
    · rw [add_same _ _ _ _ hi]
      split <;> simp
  · rw [add_path_ne hp]
    rcases h with h | h
    · exact h
    · exact absurd h.1 hp

/-! ## Documents -/

theorem open_ok {lib : Lib} {fs : FS} {src : Source} {now : Nat} {fm : FM} (h : open_ lib fs src now = .ok fm) :
    fm.source = src ∧ fm.dir = [(MANIFEST, { element := .manifest, mediaType := XML, stored := false, info := now })] ∧
      ∃ orig, Opened fs fm orig := by
  have ho : ∀ fm : FM, fm.source = src →
      (∀ e, getBytes fs { dir := [], manifest := Manifest.new, source := src } MANIFEST ≠ .error e) →
      ∃ orig, Opened fs fm orig := by
    intro fm hs hg
    unfold Opened
    rw [hs]
    cases src with
    | file p =>
      cases p with
      | none => exact ⟨[], rfl⟩
      | some p =>
        by_cases hp : ∃ z, fs p = some (.zip z)
        · obtain ⟨z, hz⟩ := hp; exact ⟨z, .inl hz⟩
        · exact ⟨[], .inr ⟨fun z hz => hp ⟨z, hz⟩, rfl⟩⟩
    | stream c =>
      cases c with
      | none => exact ⟨[], rfl⟩
      | some c =>
        cases c with
        | zip z => exact ⟨z, rfl⟩
        | raw b => exact absurd rfl (hg .BadZip)
  unfold open_ at h
  simp only at h
  split at h
  · cases h
  · rename_i hg
    cases h
    exact ⟨rfl, rfl, ho _ rfl (fun e he => by rw [show MANIFEST = "META-INF/manifest.xml".toList from rfl, hg] at he; cases he)⟩
  · rename_i hg
    split at h
    · cases h
    · cases h
      exact ⟨rfl, rfl, ho _ rfl (fun e he => by rw [show MANIFEST = "META-INF/manifest.xml".toList from rfl, hg] at he; cases he)⟩

/-- The manager after the constructor. -/
def filled (now : Nat) (mt : Str) (m s c : Element) (fm : FM) : FM :=
  register CONTENT c XML now (register STYLES s XML now (register META m XML now
    (register MIMETYPE (.text mt) [] now { fm with manifest := Manifest.add ROOT mt none fm.manifest })))

theorem packaged_ok {d : DLib} {fs : FS} {now : Nat} {fm : FM} {mimetype : Option Str} {doc : Doc}
    (h : packaged d fs now fm mimetype = .ok doc) :
    mimetype = some doc.mimetype ∧ FILE_EXT_FOR_MIMETYPE.get doc.mimetype = some doc.doctype ∧
    (MIMETYPE_BODYTAG_MAP.get doc.mimetype).isSome ∧
    ∃ m s c, doc.fm = filled now doc.mimetype m s c fm := by
  unfold packaged at h
  cases mimetype with
  | none => cases h
  | some mt =>
    simp only at h
    split at h
    · cases h
    · rename_i ext hext
      split at h
      · cases h
      · rename_i m _
        split at h
        · cases h
        · rename_i s _
          split at h
          · cases h
          · rename_i c _
            split at h
            · cases h
            · rename_i b hb
              cases h
              exact ⟨rfl, hext, by rw [hb]; rfl, m, s, c, rfl⟩

/-- Documents that come from the constructor, with the manifest the package was opened with. -/
def Made (d : DLib) (fs : FS) (now : Nat) (m0 : Manifest.M) (doc : Doc) : Prop :=
  ∃ src fm mt doc0, open_ d.pkg fs src now = .ok fm ∧ fm.manifest = m0 ∧
    packaged d fs now fm mt = .ok doc0 ∧ doc.fm = doc0.fm ∧ doc.mimetype = doc0.mimetype

theorem made_open {d : DLib} {fs : FS} {now : Nat} {src : Source} {doc : Doc}
    (h : opendoc d fs now src = .ok doc) :
    ∃ fm, open_ d.pkg fs src now = .ok fm ∧ Made d fs now fm.manifest doc := by
  unfold opendoc at h
  split at h
  · cases h
  · rename_i fm hfm
    split at h
    · cases h
    · rename_i mt _
      exact ⟨fm, hfm, src, fm, mt, doc, hfm, rfl, h, rfl, rfl⟩

theorem made_new {d : DLib} {fs : FS} {now : Nat} {t : Str} {filename : Path} {doc : Doc}
    (h : newdoc d fs now t filename none = .ok doc) : Made d fs now Manifest.new doc := by
  unfold newdoc at h
  simp only at h
  split at h
  · cases h
  · rename_i mt _
    split at h
    · cases h
    · rename_i fm hfm
      split at h
      · cases h
      · rename_i doc0 hd
        cases h
        refine ⟨.file none, fm, some mt, doc0, hfm, ?_, hd, rfl, rfl⟩
        cases hfm
        rfl

theorem templateManager_open {d : DLib} {fs : FS} {now : Nat} {t : Template} {fm : FM}
    (h : templateManager d fs now t = .ok fm) : ∃ src, open_ d.pkg fs src now = .ok fm := by
  cases t with
  | stream c => exact ⟨_, h⟩
  | bytes c => cases c with
    | zip z => exact ⟨_, h⟩
    | raw b => cases h
  | path p =>
    unfold templateManager at h
    simp only at h
    split at h
    · exact ⟨_, h⟩
    · cases h

theorem made_template {d : DLib} {fs : FS} {now : Nat} {t : Str} {filename : Path} {tm : Template} {doc : Doc}
    (h : newdoc d fs now t filename (some tm) = .ok doc) :
    ∃ fm, templateManager d fs now tm = .ok fm ∧ Made d fs now fm.manifest doc := by
  unfold newdoc newFromTemplate at h
  simp only at h
  split at h
  · cases h
  · rename_i fm hfm
    obtain ⟨src, hsrc⟩ := templateManager_open hfm
    split at h
    · cases h
    · cases h
    · split at h
      · cases h
      · split at h
        · cases h
        · cases h
        · rename_i doc0 hd
          cases h
          exact ⟨fm, hfm, src, fm, _, doc0, hsrc, rfl, hd, rfl, rfl⟩

theorem ne_parts : (MIMETYPE ≠ ROOT ∧ META ≠ ROOT ∧ STYLES ≠ ROOT ∧ CONTENT ≠ ROOT) ∧
    (MIMETYPE ∉ IGNORE_LIST ∧ META ∉ IGNORE_LIST ∧ STYLES ∉ IGNORE_LIST ∧ CONTENT ∉ IGNORE_LIST ∧ ROOT ∉ IGNORE_LIST) ∧
    (MANIFEST ≠ MIMETYPE ∧ MANIFEST ≠ META ∧ MANIFEST ≠ STYLES ∧ MANIFEST ≠ CONTENT) ∧
    (META ≠ MIMETYPE ∧ STYLES ≠ MIMETYPE ∧ CONTENT ≠ MIMETYPE) := by decide +kernel

theorem made_ready {d : DLib} {fs : FS} {now : Nat} {m0 : Manifest.M} {doc : Doc}
    (h : Made d fs now m0 doc) (hp : Plain m0) :
    Ready doc.mimetype doc.fm ∧ Plain doc.fm.manifest ∧
    roots doc.fm.manifest = (match roots m0 with
      | [] => [setTypeVersion doc.mimetype none (newEntry m0.fresh ROOT)]
      | e :: r => setTypeVersion doc.mimetype none e :: r) ∧
    ∃ orig, Opened fs doc.fm orig := by
  obtain ⟨src, fm, mt, doc0, h1, rfl, h2, h3, h4⟩ := h
  obtain ⟨-, -, -, m, s, c, h5⟩ := packaged_ok h2
  obtain ⟨g1, g2, orig, g3⟩ := open_ok h1
  rw [← h4] at h5
  obtain ⟨⟨r1, r2, r3, r4⟩, ⟨i1, i2, i3, i4, i5⟩, ⟨n1, n2, n3, n4⟩, ⟨k1, k2, k3⟩⟩ := ne_parts
  rw [h3, h5]
  generalize doc.mimetype = mt
  have hman : (filled now mt m s c fm).manifest = add CONTENT XML none (add STYLES XML none (add META XML none
      (add MIMETYPE [] none (add ROOT mt none fm.manifest)))) := rfl
  have hpl : Plain (filled now mt m s c fm).manifest := by
    rw [hman]
    exact plain_add (plain_add (plain_add (plain_add (plain_add hp _ _ _) _ _ _) _ _ _) _ _ _) _ _ _
  have hdir : (filled now mt m s c fm).dir = ((((fm.dir.set MIMETYPE _).set META _).set STYLES _).set CONTENT _) := rfl
  refine ⟨⟨?_, ?_, ?_, ?_, ?_⟩, hpl, ?_, orig, ?_⟩
  · rw [hdir]
    refine Dict.nodup_set (Dict.nodup_set (Dict.nodup_set (Dict.nodup_set ?_ _ _) _ _) _ _) _ _
    rw [g2]; simp [Dict.keys]
  · intro f hf
    rw [hdir] at hf
    simp only [Dict.get_set, k1, k2, k3, if_false, if_true] at hf
    cases hf; rfl
  · rw [hdir]
    simp only [Dict.get_set, n1.symm, n2.symm, n3.symm, n4.symm, if_false]
    rw [g2]
    exact ⟨_, by rw [Dict.get_cons, if_pos rfl], rfl⟩
  · intro n hn
    rw [← Dict.get_isSome, hdir]
    simp only [Dict.get_set]
    simp only [List.mem_cons, List.not_mem_nil, or_false] at hn
    split
    · rfl
    · split
      · rfl
      · split
        · rfl
        · rename_i a b c
          rcases hn with rfl | rfl | rfl
          · exact absurd rfl a
          · exact absurd rfl c
          · exact absurd rfl b
  · intro n hn
    rw [plain_entries hpl hn, hman]
    simp only [List.mem_cons, List.not_mem_nil, or_false] at hn
    rcases hn with rfl | rfl | rfl | rfl
    · exact add_listed (.inr ⟨rfl, i4⟩)
    · exact add_listed (.inl (add_listed (.inl (add_listed (.inr ⟨rfl, i2⟩)))))
    · exact add_listed (.inl (add_listed (.inr ⟨rfl, i3⟩)))
    · exact add_listed (.inl (add_listed (.inl (add_listed (.inl (add_listed (.inl (add_listed (.inr ⟨rfl, i5⟩)))))))))
  · have : ∀ m, roots m = m.kids.filter (hasPath ROOT) := fun _ => rfl
    rw [this, this, hman, add_path_ne r4, add_path_ne r3, add_path_ne r2, add_path_ne r1, add_same _ _ _ _ i5]
    rfl
  · exact opened_congr (fs := fs) (fm := fm) rfl (fun _ _ => rfl) g3

/-! ## Histories -/

/-- Uses of the document that do not replace what the package layer itself registers. -/
def Allowed : Package.Op → Prop
  | .register n _ _ _ => n ∉ [MIMETYPE, MANIFEST, ROOT]
  | .edit n _ => n ∉ [MIMETYPE, MANIFEST]
  | .manifest _ => False
  | _ => True

theorem saveTail_manifest {f tmp : Path} {backup : Bool} (w : W) :
    (saveTail f tmp backup w).1.fm.manifest = w.fm.manifest := by
  have hr : ∀ p (w : W), (osRemove p w).1.fm = w.fm := by
    intro p w; unfold osRemove; split <;> rfl
  have hn : ∀ p q (w : W), (osRename p q w).1.fm = w.fm := by
    intro p q w; unfold osRename; split <;> rfl
  have hb : ∀ {α β} (a : Py W α) (k : α → Py W β) (w : W), (a w).1.fm.manifest = w.fm.manifest →
      (∀ x w', (k x w').1.fm.manifest = w'.fm.manifest) → ((a >>= k) w).1.fm.manifest = w.fm.manifest := by
    intro α β a k w h1 h2
    rw [Py.bind_def]
    cases h : a w with
    | mk w' o =>
      rw [h] at h1
      cases o with
      | error e => exact h1
      | ok x => simp only; rw [h2]; exact h1
  unfold saveTail
  have hend : ∀ w', ((do
      osRename tmp f
      Py.modify fun w => { w with fm := { w.fm with source := .file (some f) } } : Py W Unit) w').1.fm.manifest =
        w'.fm.manifest := fun w' => hb _ _ _ (by rw [hn]) (fun _ _ => rfl)
  split
  · split
    · simp only
      split
      · exact hb _ _ _ (by rw [hr]) (fun _ w => hb _ _ _ (by rw [hn]) (fun _ w => hend w))
      · exact hb _ _ _ (by rw [hn]) (fun _ w => hend w)
    · exact hb _ _ _ (by rw [hr]) (fun _ w => hend w)
  · exact hend w

theorem saveDoc_manifest {lib : Lib} {env : Env} {f : Path} {backup : Bool} (w : W) :
    (saveDoc lib env f backup w).1.fm.manifest = w.fm.manifest := by
  unfold saveDoc
  split
  · cases ht : tmpfilename env.names f w.fs with
    | none =>
      have : save lib env f backup w = (w, .error .IOError) := by unfold save; rw [ht]
      rw [this]
    | some tmp =>
      obtain ⟨b, -, hs⟩ := save_eq (lib := lib) (backup := backup) ht
      have := (tozip_frame (lib := lib) (sink := env.sink) (fs := w.fs) (w.fm, [])).1
      rw [hs]
      cases hz : tozip lib env.sink w.fs (w.fm, []) with
      | mk s o =>
        rw [hz] at this
        cases o with
        | error e => exact this
        | ok u => simp only; rw [saveTail_manifest]; exact this
  · unfold streamSave
    have hp := (writePieces_eq f [[]] w).1
    simp only
    rw [hp]
    have := (tozip_frame (lib := lib) (sink := env.sink) (fs := (writePieces f [[]] w).fs) (w.fm, [])).1
    have hfm := tobytes_fm (lib := lib) (sink := env.sink) (fs := (writePieces f [[]] w).fs) w.fm
    rw [← hfm] at this
    cases h : tobytes lib env.sink (writePieces f [[]] w).fs w.fm with
    | mk fm' o =>
      rw [h] at this
      cases o with
      | error e => exact this
      | ok z =>
        have hp2 := (writePieces_eq f env.pieces ({ writePieces f [[]] w with fm := fm' } : W)).1
        show (writePieces f env.pieces _).fm.manifest = _
        rw [hp2]; exact this

theorem run_manifest {lib : Lib} (h : List Package.Op) (ha : ∀ o ∈ h, Allowed o) : ∀ w : W,
    Plain w.fm.manifest →
    (∀ n ∈ [CONTENT, META, STYLES, ROOT], w.fm.manifest.kids.filter (hasPath n) ≠ []) →
    Plain (run lib w h).fm.manifest ∧
    (∀ n ∈ [CONTENT, META, STYLES, ROOT], (run lib w h).fm.manifest.kids.filter (hasPath n) ≠ []) ∧
    roots (run lib w h).fm.manifest = roots w.fm.manifest := by
  induction h with
  | nil => exact fun w h1 h2 => ⟨h1, h2, rfl⟩
  | cons o h ih =>
    intro w h1 h2
    have ih := ih (fun o ho => ha o (List.mem_cons_of_mem _ ho)) (step lib w o)
    have hsame : (step lib w o).fm.manifest = w.fm.manifest →
        Plain (run lib w (o :: h)).fm.manifest ∧
        (∀ n ∈ [CONTENT, META, STYLES, ROOT], (run lib w (o :: h)).fm.manifest.kids.filter (hasPath n) ≠ []) ∧
        roots (run lib w (o :: h)).fm.manifest = roots w.fm.manifest := by
      intro hs
      rw [hs] at ih
      exact ih h1 h2
    have hz : ∀ sink, (tozip lib sink w.fs (w.fm, [])).1.1.manifest = w.fm.manifest := fun sink =>
      (tozip_frame (lib := lib) (sink := sink) (fs := w.fs) (w.fm, [])).1
    cases o with
    | register n e t i =>
      have hn : n ∉ [MIMETYPE, MANIFEST, ROOT] := ha (.register n e t i) (List.mem_cons_self ..)
      have hm : (step lib w (.register n e t i)).fm.manifest = add n t none w.fm.manifest := rfl
      rw [hm] at ih
      obtain ⟨g1, g2, g3⟩ := ih (plain_add h1 _ _ _) (fun k hk => add_listed (.inl (h2 k hk)))
      refine ⟨g1, g2, g3.trans ?_⟩
      exact add_path_ne (fun e => hn (by rw [e]; simp))
    | edit n e =>
      apply hsame
      show (match w.fm.dir.get n with
        | none => w
        | some g => { w with fm := { w.fm with dir := w.fm.dir.set n { g with element := e } } } : W).fm.manifest = _
      cases w.fm.dir.get n <;> rfl
    | manifest m => exact (ha (.manifest m) (List.mem_cons_self ..)).elim
    | save env f b => exact hsame (saveDoc_manifest w)
    | saveStream env =>
      apply hsame
      have := hz env.sink
      show (saveStream lib env w).1.fm.manifest = _
      unfold saveStream
      cases h : tozip lib env.sink w.fs (w.fm, []) with
      | mk s o => rw [h] at this; cases o <;> exact this
    | tobytes sink =>
      apply hsame
      show (tobytes lib sink w.fs w.fm).1.manifest = _
      rw [tobytes_fm]; exact hz sink

theorem partAfter_isSome {n : Str} (h : List Package.Op) : ∀ e, (e : Option Element).isSome → (partAfter n e h).isSome := by
  induction h with
  | nil => exact fun e he => he
  | cons o h ih =>
    intro e he
    cases o with
    | register k x _ _ => refine ih _ ?_; split <;> simp [he]
    | edit k x => refine ih _ ?_; split <;> simp [he]
    | manifest _ => exact ih _ he
    | save _ _ _ => exact ih _ he
    | saveStream _ => exact ih _ he
    | tobytes _ => exact ih _ he

theorem partAfter_same {n : Str} (hn : n ∈ [MIMETYPE, MANIFEST]) (h : List Package.Op) (ha : ∀ o ∈ h, Allowed o) :
    ∀ e, partAfter n e h = e := by
  induction h with
  | nil => exact fun e => rfl
  | cons o h ih =>
    intro e
    have ih := ih (fun o ho => ha o (List.mem_cons_of_mem _ ho))
    have ho := ha o (by simp)
    simp only [List.mem_cons, List.not_mem_nil, or_false] at hn
    cases o with
    | register k x _ _ =>
      have : k ≠ n := by
        rintro rfl
        refine ho ?_
        rcases hn with rfl | rfl <;> simp
      show partAfter n (if k = n then some x else e) h = e
      rw [if_neg this]; exact ih e
    | edit k x =>
      have : k ≠ n := by
        rintro rfl
        refine ho ?_
        rcases hn with rfl | rfl <;> simp
      show partAfter n (if k = n then e.map fun _ => x else e) h = e
      rw [if_neg this]; exact ih e
    | manifest _ => exact ih _
    | save _ _ _ => exact ih _
    | saveStream _ => exact ih _
    | tobytes _ => exact ih _

theorem run_keeps {lib : Lib} {orig : Zip} (h : List Package.Op) : ∀ {w : W}, Keeps orig w → Keeps orig (run lib w h) := by
  induction h with
  | nil => exact fun h => h
  | cons o h ih => exact fun hw => ih (keeps_step hw o)

theorem run_ready {lib : Lib} {mt : Str} {w : W} (hr : Ready mt w.fm) (hp : Plain w.fm.manifest)
    (ho : ∃ orig, Opened w.fs w.fm orig) (h : List Package.Op) (ha : ∀ o ∈ h, Allowed o) :
    Ready mt (run lib w h).fm ∧ rootType (run lib w h).fm.manifest.kids =
      (roots w.fm.manifest).getLast?.bind (fun e => e.get "manifest:media-type") ∧
      ∃ orig, Keeps orig (run lib w h) := by
  obtain ⟨orig, ho⟩ := ho
  have hk : Keeps orig (run lib w h) := run_keeps h ⟨hr.nodup, ⟨orig, ho⟩, by rw [members_eq ho]⟩
  obtain ⟨m1, m2, m3⟩ := run_manifest (lib := lib) h ha w hp
    (fun n hn => by rw [← plain_entries hp hn]; exact hr.listed n hn)
  have hpa := fun n => partAfter_run (lib := lib) n h w _ (.inl rfl)
  refine ⟨⟨hk.nodup, ?_, ?_, ?_, ?_⟩, ?_, orig, hk⟩
  · intro f hf
    rcases hpa MIMETYPE with h1 | ⟨-, h1⟩
    · rw [partAfter_same (by simp) h ha, hf] at h1
      cases hg : w.fm.dir.get MIMETYPE with
      | none => rw [hg] at h1; cases h1
      | some g =>
        rw [hg] at h1
        simp only [Option.map_some, Option.some.injEq] at h1
        rw [h1]; exact hr.mime g hg
    · rw [h1] at hf; cases hf
  · obtain ⟨f, hf, hfe⟩ := hr.manifest
    rcases hpa MANIFEST with h1 | ⟨h1, -⟩
    · rw [partAfter_same (by simp) h ha, hf] at h1
      cases hg : (run lib w h).fm.dir.get MANIFEST with
      | none => rw [hg] at h1; cases h1
      | some g =>
        rw [hg] at h1
        simp only [Option.map_some, Option.some.injEq] at h1
        exact ⟨g, rfl, h1.trans hfe⟩
    · exact absurd h1 ne_parts.2.2.1.1
  · intro n hn
    have hne : n ≠ MIMETYPE := by
      obtain ⟨-, -, -, k1, k2, k3⟩ := ne_parts
      simp only [List.mem_cons, List.not_mem_nil, or_false] at hn
      rcases hn with rfl | rfl | rfl
      · exact k3
      · exact k1
      · exact k2
    rcases hpa n with h1 | ⟨h1, -⟩
    · rw [← Dict.get_isSome]
      have := partAfter_isSome (n := n) h ((w.fm.dir.get n).map FileObject.element)
        (by rw [Option.isSome_map]; exact Dict.get_isSome.2 (hr.parts n hn))
      rw [← h1, Option.isSome_map] at this
      exact this
    · exact absurd h1 hne
  · intro n hn
    rw [plain_entries m1 hn]; exact m2 n hn
  · unfold rootType
    rw [plain_entries m1 (by simp), show (run lib w h).fm.manifest.kids.filter (hasPath ROOT) = roots (run lib w h).fm.manifest from rfl, m3]

/-- The start of a history of a document. -/
def start (fs : FS) (doc : Doc) : W := { fm := doc.fm, fs := fs, log := [] }

/-- The result of the check for every saved package. -/
theorem saved_check {d : DLib} (hd : d.Lawful) {fs : FS} {now : Nat} {m0 : Manifest.M} {doc : Doc}
    (hm : Made d fs now m0 doc) (hp : Plain m0) (h : List Package.Op) (ha : ∀ o ∈ h, Allowed o)
    (env : Env) (f : Path) (backup : Bool) :
    let w := run d.pkg (start fs doc) h
    let r := decide ((roots doc.fm.manifest).getLast?.bind (fun e => e.get "manifest:media-type") = some doc.mimetype)
    ((saveDoc d.pkg env f backup w).2 = .ok () →
      check d ((saveDoc d.pkg env f backup w).1.fs f) (utf8 doc.mimetype) = .ok r) ∧
    (∀ sink z, (tobytes d.pkg sink w.fs w.fm).2 = .ok z →
      check d (some (.zip z)) (utf8 doc.mimetype) = .ok r) := by
  intro w r
  obtain ⟨h1, h2, -, h4⟩ := made_ready hm hp
  obtain ⟨g1, g2, orig, g3⟩ := run_ready (lib := d.pkg) (w := start fs doc) h1 h2 h4 h ha
  have g2 : rootType w.fm.manifest.kids =
    (roots doc.fm.manifest).getLast?.bind (fun e => e.get "manifest:media-type") := g2
  constructor
  · intro hok
    obtain ⟨z, fm', hz, hf⟩ := (keeps_saveDoc g3).2 hok
    rw [hf, check_written hd g1 hz, g2]
  · intro sink z hz
    have : tobytes d.pkg sink w.fs w.fm = ((tobytes d.pkg sink w.fs w.fm).1, .ok z) := by rw [← hz]
    rw [check_written hd g1 this, g2]

theorem root_once {m0 : Manifest.M} {doc : Doc} {d : DLib} {fs : FS} {now : Nat}
    (hm : Made d fs now m0 doc) (hp : Plain m0) (h1 : (roots m0).length ≤ 1) :
    (roots doc.fm.manifest).getLast?.bind (fun e => e.get "manifest:media-type") = some doc.mimetype := by
  obtain ⟨-, -, h3, -⟩ := made_ready hm hp
  rw [h3]
  match hr : roots m0 with
  | [] => simp only [List.getLast?_singleton, Option.bind_some]; exact (get_setTypeVersion _ _ _).1
  | [e] => simp only [List.getLast?_singleton, Option.bind_some]; exact (get_setTypeVersion _ _ _).1
  | a :: b :: r => rw [hr] at h1; simp at h1

/-- C60: every package that is written for a document — opened, created anew or from a template — by
`save`, after any history, passes the check.  The manifest of the opened package must not list the
root twice (see `C60_twice`). -/
theorem C60_saved (d : DLib) (hd : d.Lawful) (fs : FS) (now : Nat) (m0 : Manifest.M) (doc : Doc)
    (hm : Made d fs now m0 doc) (hp : Plain m0) (h1 : (roots m0).length ≤ 1)
    (h : List Package.Op) (ha : ∀ o ∈ h, Allowed o) (env : Env) (f : Path) (backup : Bool)
    (hok : (saveDoc d.pkg env f backup (run d.pkg (start fs doc) h)).2 = .ok ()) :
    check d ((saveDoc d.pkg env f backup (run d.pkg (start fs doc) h)).1.fs f) (utf8 doc.mimetype) = .ok true := by
  rw [(saved_check hd hm hp h ha env f backup).1 hok, root_once hm hp h1]
  simp

/-- C60 for the bytes given by `tobytes`. -/
theorem C60_bytes (d : DLib) (hd : d.Lawful) (fs : FS) (now : Nat) (m0 : Manifest.M) (doc : Doc)
    (hm : Made d fs now m0 doc) (hp : Plain m0) (h1 : (roots m0).length ≤ 1)
    (h : List Package.Op) (ha : ∀ o ∈ h, Allowed o) (sink : Member → Option Exc) (z : Zip)
    (hok : (tobytes d.pkg sink (run d.pkg (start fs doc) h).fs (run d.pkg (start fs doc) h).fm).2 = .ok z) :
    check d (some (.zip z)) (utf8 doc.mimetype) = .ok true := by
  rw [(saved_check hd hm hp h ha ⟨[], [], sink⟩ [] false).2 sink z hok, root_once hm hp h1]
  simp

/-- C60 for documents created with `newdoc`: no condition is left. -/
theorem C60_new (d : DLib) (hd : d.Lawful) (fs : FS) (now : Nat) (t : Str) (filename : Path) (doc : Doc)
    (hn : newdoc d fs now t filename none = .ok doc)
    (h : List Package.Op) (ha : ∀ o ∈ h, Allowed o) (env : Env) (f : Path) (backup : Bool)
    (hok : (saveDoc d.pkg env f backup (run d.pkg (start fs doc) h)).2 = .ok ()) :
    check d ((saveDoc d.pkg env f backup (run d.pkg (start fs doc) h)).1.fs f) (utf8 doc.mimetype) = .ok true :=
  C60_saved d hd fs now _ doc (made_new hn) (fun e he => by cases he) (by decide +kernel) h ha env f backup hok

/-- C60 does not hold if the opened manifest lists the root twice, the last time with another type:
only the first entry is updated, the check reads the last one. -/
theorem C60_twice (d : DLib) (hd : d.Lawful) (fs : FS) (now : Nat) (m0 : Manifest.M) (doc : Doc)
    (hm : Made d fs now m0 doc) (hp : Plain m0) (e1 e2 : Elem) (r : List Elem)
    (h2 : roots m0 = e1 :: r ++ [e2]) (h3 : e2.get "manifest:media-type" ≠ some doc.mimetype)
    (h : List Package.Op) (ha : ∀ o ∈ h, Allowed o) (sink : Member → Option Exc) (z : Zip)
    (hok : (tobytes d.pkg sink (run d.pkg (start fs doc) h).fs (run d.pkg (start fs doc) h).fm).2 = .ok z) :
    check d (some (.zip z)) (utf8 doc.mimetype) = .ok false := by
  rw [(saved_check hd hm hp h ha ⟨[], [], sink⟩ [] false).2 sink z hok]
  obtain ⟨-, -, g3, -⟩ := made_ready hm hp
  rw [g3, h2]
  have : (setTypeVersion doc.mimetype none e1 :: (r ++ [e2])).getLast? = some e2 := by
    rw [← List.cons_append, List.getLast?_append]; rfl
  rw [List.cons_append, this]
  simp [h3]

end Verif.Document
