import Verif.Proofs.Package
/-! # C39: saving keeps every package member, C42: a failed save -/
namespace Verif.Package
open Verif
set_option linter.unusedSimpArgs false

/-! ## C39 -/

/-- The current content of an object given to `register`, stated apart from the model. -/
def currentBytes (lib : Lib) (manifest : List Elem) : Element → Option Bytes
  | .text s => some (s.flatMap String.utf8EncodeChar)
  | .bytes b => some b
  | .manifest => some (lib.tostring manifest)
  | .object (.ok b) => some b
  | _ => none

theorem currentBytes_eq {lib : Lib} {fm : FM} {f : FileObject} {b : Bytes} :
    f.tobytes lib fm = .ok b ↔ currentBytes lib fm.manifest.kids f.element = some b := by
  unfold FileObject.tobytes currentBytes
  cases f.element with
  | object r => cases r <;> simp
  | _ => simp [utf8]

/-- The package a document was opened from: its members, none for a new document. -/
def Opened (fs : FS) (fm : FM) (orig : Zip) : Prop :=
  match fm.source with
  | .file none => orig = []
  | .file (some p) => fs p = some (.zip orig) ∨ ((∀ z, fs p ≠ some (.zip z)) ∧ orig = [])
  | .stream none => orig = []
  | .stream (some c) => c = .zip orig

theorem members_eq {fs : FS} {fm : FM} {orig : Zip} (h : Opened fs fm orig) : members fs fm = orig := by
  unfold Opened at h
  unfold members srcZip
  cases hs : fm.source with
  | file p =>
    rw [hs] at h
    cases p with
    | none => simp only at h ⊢; exact h.symm
    | some p =>
      simp only at h ⊢
      rcases h with h | ⟨h, rfl⟩
      · simp only [h]
      · cases hp : fs p with
        | none => rfl
        | some c =>
          cases c with
          | zip z => exact absurd hp (h z)
          | raw b => rfl
  | stream c =>
    rw [hs] at h
    cases c with
    | none => simp only at h ⊢; exact h.symm
    | some c => simp only at h; subst h; rfl

theorem mem_others {fm : FM} (hd : fm.dir.keys.Nodup) {n : Str} {g : FileObject} :
    (n, g) ∈ others fm ↔ n ≠ MIMETYPE ∧ fm.dir.get n = some g := by
  unfold others
  constructor
  · intro h
    have := Dict.mem_get (Dict.nodup_del hd _) h
    rw [Dict.get_del] at this
    split at this
    · cases this
    · rename_i hne; exact ⟨fun e => hne e.symm, this⟩
  · rintro ⟨h1, h2⟩
    apply Dict.get_mem
    rw [Dict.get_del, if_neg (fun e => h1 e.symm), h2]

theorem keys_others (fm : FM) (n : Str) :
    n ∈ (others fm).keys ↔ n ∈ fm.dir.keys ∧ n ≠ MIMETYPE := by
  unfold others; rw [Dict.keys_del]; simp

theorem ignore_iff {fm : FM} {f : FileObject} (hf : fm.dir.get MIMETYPE = some f) (n : Str) :
    n ∈ MIMETYPE :: (others fm).keys ↔ n ∈ fm.dir.keys := by
  have hk : MIMETYPE ∈ fm.dir.keys := Dict.get_isSome.1 (by rw [hf]; rfl)
  rw [List.mem_cons, keys_others]
  constructor
  · rintro (rfl | h)
    · exact hk
    · exact h.1
  · intro h
    by_cases hn : n = MIMETYPE
    · exact .inl hn
    · exact .inr ⟨h, hn⟩

/-- What `tobytes` returns, all in one. -/
theorem tobytes_ok {lib sink fs} {fm fm' : FM} {z : Zip} (h : tobytes lib sink fs fm = (fm', .ok z)) :
    ∃ f, fm.dir.get MIMETYPE = some f ∧ fm' = putBack fm f ∧ z = written lib fs fm f ∧
      (∃ b, f.tobytes lib fm = .ok b) ∧ ∀ p ∈ others fm, ∃ b, p.2.tobytes lib fm = .ok b := by
  unfold tobytes at h
  cases ht : tozip lib sink fs (fm, []) with
  | mk s o =>
    rw [ht] at h
    cases o with
    | error e => simp at h
    | ok u =>
      simp only [Prod.mk.injEq, Except.ok.injEq] at h
      obtain ⟨f, h1, h2, h3⟩ := tozip_ok ht
      refine ⟨f, h1, ?_, ?_, h3⟩
      · rw [← h.1, h2]
      · rw [← h.2, h2]; simp

/-- C39: the zip file starts with the uncompressed `mimetype` member without extra field. -/
theorem C39_first (lib : Lib) (sink : Member → Option Exc) (fs : FS) (fm fm' : FM) (z : Zip)
    (h : tobytes lib sink fs fm = (fm', .ok z)) :
    ∃ m r, z = m :: r ∧ m.name = MIMETYPE ∧ m.stored = true ∧ m.extra = [] := by
  obtain ⟨f, -, -, hz, -⟩ := tobytes_ok h
  exact ⟨_, _, hz, rfl, rfl, rfl⟩

theorem written_filter {lib fs} {fm : FM} {f : FileObject} (hf : fm.dir.get MIMETYPE = some f)
    (hd : fm.dir.keys.Nodup) {n : Str} {g : FileObject} (hg : fm.dir.get n = some g) :
    (written lib fs fm f).filter (fun m => m.name = n) =
      [partMember lib fm (n, if n = MIMETYPE then { g with stored := true } else g)] := by
  have hcop : (copied (members fs fm) (MIMETYPE :: (others fm).keys) (members fs fm)).filter
      (fun m => m.name = n) = [] := by
    rw [List.filter_eq_nil_iff]
    intro m hm
    unfold copied at hm
    obtain ⟨m', hm', rfl⟩ := List.mem_map.1 hm
    have := (List.mem_filter.1 hm').2
    simp only [decide_eq_true_eq] at this ⊢
    rw [ignore_iff hf] at this
    rintro rfl
    exact this (Dict.get_isSome.1 (by rw [hg]; rfl))
  have hoth : ((others fm).map (partMember lib fm)).filter (fun m => m.name = n) =
      ((others fm).filter (fun p => p.1 = n)).map (partMember lib fm) := by
    rw [List.filter_map]; rfl
  unfold written
  rw [List.filter_cons, List.filter_append, hcop, hoth]
  unfold others
  rw [Dict.filter_key (Dict.nodup_del hd _), Dict.get_del]
  by_cases hn : n = MIMETYPE
  · subst hn
    rw [hf] at hg
    cases hg
    simp only [if_true]
    have : decide ((partMember lib fm (MIMETYPE, { f with stored := true })).name =
      MIMETYPE) = true := by simp [partMember]
    rw [if_pos this]; simp
  · have : ¬ decide ((partMember lib fm (MIMETYPE, { f with stored := true })).name = n) = true := by
      exact fun e => hn (of_decide_eq_true e).symm
    rw [if_neg this, if_neg (fun e => hn e.symm), if_neg hn, hg]
    simp

/-- C39: every registered part is there exactly once, with its current content. -/
theorem C39_parts (lib : Lib) (sink : Member → Option Exc) (fs : FS) (fm fm' : FM) (z : Zip)
    (hd : fm.dir.keys.Nodup) (h : tobytes lib sink fs fm = (fm', .ok z)) (n : Str) (g : FileObject)
    (hg : fm.dir.get n = some g) :
    ∃ m, z.filter (fun m => m.name = n) = [m] ∧
      currentBytes lib fm.manifest.kids g.element = some m.data ∧ z.read n = some m.data := by
  obtain ⟨f, hf, -, hz, hb, hbs⟩ := tobytes_ok h
  have hfil := written_filter (lib := lib) (fs := fs) hf hd hg
  rw [← hz] at hfil
  refine ⟨_, hfil, ?_, ?_⟩
  · have hb' : ∃ b, g.tobytes lib fm = .ok b := by
      by_cases hn : n = MIMETYPE
      · subst hn; rw [hf] at hg; cases hg; exact hb
      · exact hbs (n, g) ((mem_others hd).2 ⟨hn, hg⟩)
    obtain ⟨b, hb'⟩ := hb'
    rw [currentBytes_eq.1 hb']
    unfold partMember
    have : (if n = MIMETYPE then { g with stored := true } else g).tobytes lib fm = .ok b := by
      split
      · exact hb'
      · exact hb'
    simp only [this]
  · unfold Zip.read
    have : (z.reverse.find? fun m => m.name = n) = ((z.filter fun m => m.name = n).reverse).head? := by
      rw [← List.head?_filter, List.filter_reverse]
    rw [this, hfil]; rfl

/-- C39: members that are not registered parts are kept in their order with their content (of
members with the same name, the content the library reads), and there is nothing else. -/
theorem C39_rest (lib : Lib) (sink : Member → Option Exc) (fs : FS) (fm fm' : FM) (z orig : Zip)
    (ho : Opened fs fm orig) (h : tobytes lib sink fs fm = (fm', .ok z)) :
    z.filter (fun m => m.name ∉ fm.dir.keys) =
      (orig.filter fun m => m.name ∉ fm.dir.keys).map
        fun m => { m with data := (orig.read m.name).getD [] } := by
  obtain ⟨f, hf, -, hz, -⟩ := tobytes_ok h
  subst hz
  have hmem := members_eq ho
  unfold written
  rw [List.filter_cons, List.filter_append, hmem]
  have h0 : ((others fm).map (partMember lib fm)).filter (fun m => m.name ∉ fm.dir.keys) = [] := by
    rw [List.filter_eq_nil_iff]
    intro m hm
    obtain ⟨p, hp, rfl⟩ := List.mem_map.1 hm
    have : p.1 ∈ (others fm).keys := List.mem_map.2 ⟨p, hp, rfl⟩
    exact fun e => of_decide_eq_true e ((keys_others fm _).1 this).1
  have h1 : ¬ decide ((partMember lib fm (MIMETYPE, { f with stored := true })).name ∉
      fm.dir.keys) = true := by
    exact fun e => of_decide_eq_true e ((Dict.get_isSome (k := MIMETYPE)).1 (by rw [hf]; rfl))
  rw [if_neg h1, h0, List.nil_append]
  unfold copied
  rw [List.filter_map, List.filter_filter]
  congr 1
  apply List.filter_congr
  intro m _
  have := ignore_iff hf m.name
  simp only [Function.comp, this, Bool.and_self]

theorem read_unique {z : Zip} (hu : (z.map Member.name).Nodup) {m : Member} (h : m ∈ z) :
    z.read m.name = some m.data := by
  unfold Zip.read
  have hr : (z.reverse.map Member.name).Nodup := by
    rw [List.map_reverse]; unfold List.Nodup at *; rw [List.pairwise_reverse]; exact hu.imp Ne.symm
  have hm : m ∈ z.reverse := List.mem_reverse.2 h
  generalize z.reverse = l at hr hm
  induction l with
  | nil => cases hm
  | cons a l ih =>
    simp only [List.map_cons, List.nodup_cons] at hr
    rw [List.find?_cons]
    rcases List.mem_cons.1 hm with rfl | hm
    · simp
    · have : ¬ a.name = m.name := fun e => hr.1 (List.mem_map.2 ⟨m, hm, e.symm⟩)
      simp only [this, decide_false]
      exact ih hr.2 hm

/-- C39: if the names in the opened package are unique, the other members are kept exactly, and the
names in the written package are unique. -/
theorem C39_unique (lib : Lib) (sink : Member → Option Exc) (fs : FS) (fm fm' : FM) (z orig : Zip)
    (hd : fm.dir.keys.Nodup) (ho : Opened fs fm orig) (hu : (orig.map Member.name).Nodup)
    (h : tobytes lib sink fs fm = (fm', .ok z)) :
    z.filter (fun m => m.name ∉ fm.dir.keys) = orig.filter (fun m => m.name ∉ fm.dir.keys) ∧
    (z.map Member.name).Nodup := by
  have hr := C39_rest lib sink fs fm fm' z orig ho h
  have h1 : z.filter (fun m => m.name ∉ fm.dir.keys) = orig.filter (fun m => m.name ∉ fm.dir.keys) := by
    rw [hr]
    conv => rhs; rw [← List.map_id (orig.filter _)]
    apply List.map_congr_left
    intro m hm
    rw [read_unique hu (List.mem_filter.1 hm).1]; rfl
  refine ⟨h1, ?_⟩
  rw [List.nodup_iff_count]
  intro n
  have hcount : (z.map Member.name).count n = (z.filter fun m => m.name = n).length := by
    rw [List.count, List.countP_map, List.countP_eq_length_filter]
    congr 1
    apply List.filter_congr
    intro m _; rw [Bool.eq_iff_iff]; simp [Function.comp, beq_iff_eq]
  rw [hcount]
  by_cases hn : n ∈ fm.dir.keys
  · obtain ⟨g, hg⟩ := Option.isSome_iff_exists.1 (Dict.get_isSome.2 hn)
    obtain ⟨m, hm, -⟩ := C39_parts lib sink fs fm fm' z hd h n g hg
    rw [hm]; exact Nat.le_refl 1
  · have : z.filter (fun m => m.name = n) = orig.filter (fun m => m.name = n) := by
      have h2 : ∀ l : Zip, l.filter (fun m => m.name = n) =
          (l.filter (fun m => m.name ∉ fm.dir.keys)).filter (fun m => m.name = n) := by
        intro l
        rw [List.filter_filter]
        apply List.filter_congr
        intro m _
        by_cases he : m.name = n
        · simp [he, hn]
        · simp [he]
      rw [h2 z, h2 orig, h1]
    rw [this]
    have hcount' : (orig.map Member.name).count n = (orig.filter fun m => m.name = n).length := by
      rw [List.count, List.countP_map, List.countP_eq_length_filter]
      congr 1
      apply List.filter_congr
      intro m _; rw [Bool.eq_iff_iff]; simp [Function.comp, beq_iff_eq]
    rw [← hcount']
    exact List.nodup_iff_count.1 hu n

/-- C39: writing succeeds if every part can be converted and written; the manager then holds the
same parts as before. -/
theorem C39_succeeds (lib : Lib) (fs : FS) (fm : FM) (orig : Zip) (hd : fm.dir.keys.Nodup)
    (ho : Opened fs fm orig) (hm : MIMETYPE ∈ fm.dir.keys)
    (hb : ∀ n g, fm.dir.get n = some g → (currentBytes lib fm.manifest.kids g.element).isSome)
    (sink : Member → Option Exc) (hs : ∀ m, sink m = none) :
    ∃ fm' z, tobytes lib sink fs fm = (fm', .ok z) ∧ fm'.manifest = fm.manifest ∧
      fm'.source = fm.source ∧ fm'.dir.keys.Nodup ∧
      ∀ n, (fm'.dir.get n).map FileObject.element = (fm.dir.get n).map FileObject.element := by
  obtain ⟨f, hf⟩ := Option.isSome_iff_exists.1 (Dict.get_isSome.2 hm)
  have hz : ∃ o, srcZip fs fm = .ok o := by
    unfold Opened at ho
    unfold srcZip
    split
    · exact ⟨_, rfl⟩
    · split <;> exact ⟨_, rfl⟩
    · exact ⟨_, rfl⟩
    · exact ⟨_, rfl⟩
    · rename_i hs; rw [hs] at ho; cases ho
  have := tozip_succ (lib := lib) (sink := sink) (z0 := []) hf
    (fun n g hg => by
      obtain ⟨b, hb⟩ := Option.isSome_iff_exists.1 (hb n g hg)
      exact ⟨b, currentBytes_eq.2 hb⟩) hd hs hz
  unfold tobytes
  cases ht : tozip lib sink fs (fm, []) with
  | mk s o =>
    rw [ht] at this
    simp only at this
    subst this
    obtain ⟨f', h1, h2, -⟩ := tozip_ok ht
    refine ⟨s.1, s.2, rfl, ?_⟩
    rw [h2]
    refine ⟨rfl, rfl, Dict.nodup_set (Dict.nodup_del hd _) _ _, fun n => ?_⟩
    show (Dict.get (Dict.set _ _ _) n).map _ = _
    rw [Dict.get_set, Dict.get_del]
    split
    · rename_i e; subst e; rw [h1]; rfl
    · rfl

/-! ## C42 -/

/-- C42 does not hold: whenever converting or writing a part fails, the manager loses its mimetype,
so that every later save fails, whatever is done to the parts, until mimetype is registered anew. -/
theorem C42_lost (lib : Lib) (sink : Member → Option Exc) (fs : FS) (fm : FM) (n : Str) (g : FileObject)
    (hg : fm.dir.get n = some g) (hd : fm.dir.keys.Nodup)
    (hbad : currentBytes lib fm.manifest.kids g.element = none) :
    (∃ e, (tobytes lib sink fs fm).2 = .error e) ∧
    (tobytes lib sink fs fm).1.dir.get MIMETYPE = none := by
  have hne : ∀ fm' z, tobytes lib sink fs fm ≠ (fm', .ok z) := by
    intro fm' z h
    obtain ⟨m, -, h2, -⟩ := C39_parts lib sink fs fm fm' z hd h n g hg
    rw [hbad] at h2; cases h2
  have hbad' : ∀ b, g.tobytes lib fm ≠ .ok b := by
    intro b h; rw [currentBytes_eq.1 h] at hbad; cases hbad
  constructor
  · cases h : tobytes lib sink fs fm with
    | mk fm' o =>
      cases o with
      | ok z => exact absurd h (hne fm' z)
      | error e => exact ⟨e, rfl⟩
  · have key : (tozip lib sink fs (fm, [])).1.1.dir.get MIMETYPE = none := by
      unfold tozip
      cases hf : fm.dir.get MIMETYPE with
      | none => exact hf
      | some f =>
        simp only
        rw [Py.bind_def]
        have hf1 := writePart_fm (lib := lib) (sink := sink) MIMETYPE { f with stored := true }
          (({ fm with dir := fm.dir.del MIMETYPE }, []) : FM × Zip)
        have hdel : (fm.dir.del MIMETYPE).get MIMETYPE = none := by
          rw [Dict.get_del, if_pos rfl]
        cases hw : writePart lib sink MIMETYPE { f with stored := true }
          (({ fm with dir := fm.dir.del MIMETYPE }, []) : FM × Zip) with
        | mk s1 o1 =>
          rw [hw] at hf1
          simp only at hf1
          cases o1 with
          | error e => simp only; rw [hf1]; exact hdel
          | ok u =>
            simp only
            rw [Py.bind_def]
            have hf2 := writeParts_fm (lib := lib) (sink := sink) (fm.dir.del MIMETYPE) s1
            cases hw2 : writeParts lib sink (fm.dir.del MIMETYPE) s1 with
            | mk s2 o2 =>
              rw [hw2] at hf2
              simp only at hf2
              cases o2 with
              | error e => simp only; rw [hf2, hf1]; exact hdel
              | ok u =>
                exfalso
                by_cases hn : n = MIMETYPE
                · subst hn
                  rw [hf] at hg; cases hg
                  obtain ⟨-, b, hb⟩ := writePart_ok hw
                  exact hbad' b hb
                · obtain ⟨-, hb⟩ := writeParts_ok hw2
                  obtain ⟨b, hb⟩ := hb (n, g) ((mem_others hd).2 ⟨hn, hg⟩)
                  rw [hf1] at hb
                  exact hbad' b hb
    unfold tobytes
    cases ht : tozip lib sink fs (fm, []) with
    | mk s o => rw [ht] at key; cases o <;> exact key

theorem C42_later (lib : Lib) (sink : Member → Option Exc) (fs : FS) (fm : FM)
    (h : fm.dir.get MIMETYPE = none) : tobytes lib sink fs fm = (fm, .error .KeyError) := by
  unfold tobytes tozip
  simp only [h]

/-- A document whose `content.xml` cannot be written. -/
def broken (r : Except Exc Bytes) : FM :=
  register "content.xml".toList (.object r) "text/xml".toList 0
    (register MIMETYPE (.text "m".toList) [] 0
      { dir := [], manifest := Manifest.new, source := .file none })

def lib0 : Lib := ⟨fun _ => [], fun _ => some [], fun _ => [], id, fun _ => []⟩

/-- C42 does not hold: the cause is removed after the first failure, and the save fails again. -/
theorem C42_refuted :
    ∃ (fm : FM) (e : Exc), (tobytes lib0 (fun _ => none) (fun _ => none) fm).2 = .error e ∧
      let fm1 := (tobytes lib0 (fun _ => none) (fun _ => none) fm).1
      let fm2 := register "content.xml".toList (.object (.ok [])) "text/xml".toList 0 fm1
      (tobytes lib0 (fun _ => none) (fun _ => none) fm2).2 = .error .KeyError ∧
      ∃ z, (tobytes lib0 (fun _ => none) (fun _ => none)
        (register "content.xml".toList (.object (.ok [])) "text/xml".toList 0 fm)).2 = .ok z := by
  exact ⟨broken (.error .ValueError), .ValueError, by decide +kernel, by decide +kernel, by
    refine ⟨_, rfl⟩⟩

/-- C42, the part that holds: if the parts can be written, a failure (of copying the other members)
leaves the parts as they are.  Missing: failures of parts, see `C42_lost`. -/
theorem C42_copy_partial (lib : Lib) (sink : Member → Option Exc) (fs : FS) (fm : FM) (hd : fm.dir.keys.Nodup)
    (hm : MIMETYPE ∈ fm.dir.keys)
    (hb : ∀ n g, fm.dir.get n = some g → (currentBytes lib fm.manifest.kids g.element).isSome)
    (hs : ∀ m : Member, m.name ∈ fm.dir.keys → sink m = none) (n : Str) :
    ((tobytes lib sink fs fm).1.dir.get n).map FileObject.element =
        (fm.dir.get n).map FileObject.element ∧
    (tobytes lib sink fs fm).1.manifest = fm.manifest ∧ (tobytes lib sink fs fm).1.source = fm.source := by
  have hfr := tozip_frame (lib := lib) (sink := sink) (fs := fs) (fm, [])
  have ht : (tobytes lib sink fs fm).1 = (tozip lib sink fs (fm, [])).1.1 := by
    unfold tobytes
    cases h : tozip lib sink fs (fm, []) with
    | mk s o => cases o <;> rfl
  rw [ht]
  refine ⟨?_, hfr⟩
  obtain ⟨f, hf⟩ := Option.isSome_iff_exists.1 (Dict.get_isSome.2 hm)
  unfold tozip
  rw [hf]
  simp only
  rw [Py.bind_def]
  have hb' : ∀ n g, fm.dir.get n = some g → ∃ b, g.tobytes lib fm = .ok b := fun n g hg => by
    obtain ⟨b, hb⟩ := Option.isSome_iff_exists.1 (hb n g hg)
    exact ⟨b, currentBytes_eq.2 hb⟩
  obtain ⟨b, hb0⟩ := hb' _ _ hf
  have h1 : (writePart lib sink MIMETYPE { f with stored := true }
      (({ fm with dir := fm.dir.del MIMETYPE }, []) : FM × Zip)).2 = .ok () :=
    writePart_succ (b := b) hb0 (fun m h => hs m (h ▸ hm))
  have hf1 := writePart_fm (lib := lib) (sink := sink) MIMETYPE { f with stored := true }
      (({ fm with dir := fm.dir.del MIMETYPE }, []) : FM × Zip)
  generalize writePart lib sink MIMETYPE { f with stored := true }
      (({ fm with dir := fm.dir.del MIMETYPE }, []) : FM × Zip) = r1 at h1 hf1
  obtain ⟨s1, o1⟩ := r1
  simp only at h1 hf1
  subst h1
  simp only
  rw [Py.bind_def]
  have h2 : (writeParts lib sink (fm.dir.del MIMETYPE) s1).2 = .ok () := by
    refine writeParts_succ ?_ (fun m h => hs m ((keys_others fm _).1 h).1)
    rintro ⟨n, g⟩ hp
    obtain ⟨b, hb⟩ := hb' n g ((mem_others hd).1 hp).2
    exact ⟨b, by rw [← hb, hf1]; exact tobytes_manifest lib rfl g⟩
  have hf2 := writeParts_fm (lib := lib) (sink := sink) (fm.dir.del MIMETYPE) s1
  generalize writeParts lib sink (fm.dir.del MIMETYPE) s1 = r2 at h2 hf2
  obtain ⟨s2, o2⟩ := r2
  simp only at h2 hf2
  subst h2
  simp only
  rw [Py.bind_def]
  simp only [Py.modify]
  rw [copyZipTo_fm]
  simp only
  rw [hf2, hf1, Dict.get_set, Dict.get_del]
  split
  · rename_i e; subst e; rw [hf]; rfl
  · rfl

/-! ## Examples: cases that meet the hypotheses -/

/-- An opened package with a picture and an old content. -/
def opened : Zip :=
  [{ name := MIMETYPE, stored := true, info := 1, extra := [], data := [1] },
   { name := "Pictures/a.png".toList, stored := false, info := 2, extra := [], data := [5, 6] },
   { name := "content.xml".toList, stored := false, info := 3, extra := [], data := [2] }]

def exFM : FM := { broken (.ok [9]) with source := .stream (some (.zip opened)) }

example : Opened (fun _ => none) exFM opened := rfl

example : exFM.dir.keys.Nodup ∧ MIMETYPE ∈ exFM.dir.keys ∧ (opened.map Member.name).Nodup := by decide +kernel

example : (tobytes lib0 (fun _ => none) (fun _ => none) exFM).2.map (fun z => z.map fun m => (m.name, m.stored, m.data)) =
    .ok [(MIMETYPE, true, [109]), ("content.xml".toList, false, [9]), ("Pictures/a.png".toList, false, [5, 6])] := by
  decide +kernel

example : currentBytes lib0 Manifest.new.kids (.object (.error .ValueError)) = none := rfl

/-- A sink that fails for the copied member only. -/
example : (tobytes lib0 (fun m => if m.name = "Pictures/a.png".toList then some .IOError else none)
    (fun _ => none) exFM).2 = .error .IOError := by decide +kernel

end Verif.Package
