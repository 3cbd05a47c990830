import Verif.Model.Package
import Verif.Proofs.Dict
/-! Lemmas about writing packages. -/
namespace Verif.Dict
variable {κ α : Type} [DecidableEq κ]

theorem keys_set (d : Dict κ α) (k : κ) (v : α) :
    (d.set k v).keys = if k ∈ d.keys then d.keys else d.keys ++ [k] := by
  induction d with
  | nil => rfl
  | cons p r ih =>
    obtain ⟨k', v'⟩ := p
    unfold set
    by_cases h : k' = k
    · simp [h, keys]
    · rw [if_neg h]
      show k' :: (set r k v).keys = _
      rw [ih]
      have : k ∈ keys ((k', v') :: r) ↔ k ∈ keys r := by simp [keys, Ne.symm h]
      by_cases h1 : k ∈ keys r
      · rw [if_pos h1, if_pos (this.2 h1)]; rfl
      · rw [if_neg h1, if_neg (fun h => h1 (this.1 h))]; rfl

theorem nodup_set {d : Dict κ α} (h : d.keys.Nodup) (k : κ) (v : α) : (d.set k v).keys.Nodup := by
  rw [keys_set]
  split
  · exact h
  · rename_i h1
    rw [List.nodup_append]
    refine ⟨h, by simp, ?_⟩
    intro a ha b hb
    simp only [List.mem_singleton] at hb
    rintro rfl
    exact h1 (hb ▸ ha)

theorem keys_del (d : Dict κ α) (k : κ) : (d.del k).keys = d.keys.filter (· ≠ k) := by
  unfold del keys
  rw [List.filter_map]; rfl

theorem nodup_del {d : Dict κ α} (h : d.keys.Nodup) (k : κ) : (d.del k).keys.Nodup := by
  rw [keys_del]; exact h.filter _

theorem mem_get {d : Dict κ α} (hd : d.keys.Nodup) {k : κ} {v : α} (h : (k, v) ∈ d) : d.get k = some v := by
  induction d with
  | nil => cases h
  | cons p r ih =>
    obtain ⟨k0, v0⟩ := p
    simp only [keys, List.map_cons, List.nodup_cons] at hd
    rw [get_cons]
    rcases List.mem_cons.1 h with h | h
    · have := Prod.mk.inj h; simp [this]
    · have : k0 ≠ k := by rintro rfl; exact hd.1 (List.mem_map.2 ⟨_, h, rfl⟩)
      rw [if_neg this]; exact ih hd.2 h

/-- The entries with a given key. -/
theorem filter_key {d : Dict κ α} (hd : d.keys.Nodup) (k : κ) :
    d.filter (fun p => p.1 = k) = match d.get k with | none => [] | some v => [(k, v)] := by
  induction d with
  | nil => rfl
  | cons p r ih =>
    obtain ⟨k0, v0⟩ := p
    simp only [keys, List.map_cons, List.nodup_cons] at hd
    rw [get_cons, List.filter_cons]
    by_cases h : k0 = k
    · subst h
      simp only [decide_true, if_true]
      rw [List.filter_eq_nil_iff.2]
      rintro ⟨a, b⟩ hab h
      simp only [decide_eq_true_eq] at h
      subst h
      exact hd.1 (List.mem_map.2 ⟨_, hab, rfl⟩)
    · simp only [h, decide_false, if_false]
      exact ih hd.2

end Verif.Dict

namespace Verif.Package
open Verif
set_option linter.unusedSimpArgs false

/-- The member written for a part. -/
def partMember (lib : Lib) (fm : FM) (p : Str × FileObject) : Member :=
  { name := p.1, stored := p.2.stored, info := p.2.info, extra := [],
    data := match p.2.tobytes lib fm with | .ok b => b | .error _ => [] }

theorem tobytes_manifest (lib : Lib) {fm fm' : FM} (h : fm'.manifest = fm.manifest) (f : FileObject) :
    f.tobytes lib fm' = f.tobytes lib fm := by
  unfold FileObject.tobytes; rw [h]

theorem partMember_manifest (lib : Lib) {fm fm' : FM} (h : fm'.manifest = fm.manifest) :
    partMember lib fm' = partMember lib fm := by
  funext p; unfold partMember; rw [tobytes_manifest lib h]

theorem writePart_ok {lib sink} {n : Str} {f : FileObject} {s s' : FM × Zip}
    (h : writePart lib sink n f s = (s', .ok ())) :
    s' = (s.1, s.2 ++ [partMember lib s.1 (n, f)]) ∧ ∃ b, f.tobytes lib s.1 = .ok b := by
  unfold writePart at h
  cases hb : f.tobytes lib s.1 with
  | error e => rw [hb] at h; simp at h
  | ok b =>
    rw [hb] at h
    simp only at h
    unfold writestr at h
    split at h
    · simp at h
    · refine ⟨?_, b, rfl⟩
      simp only [Prod.mk.injEq, and_true] at h
      rw [← h]; unfold partMember; simp only [hb]

theorem writePart_fm {lib sink} (n : Str) (f : FileObject) (s : FM × Zip) :
    (writePart lib sink n f s).1.1 = s.1 := by
  unfold writePart writestr
  split
  · rfl
  · split <;> rfl

theorem writePart_succ {lib} {sink : Member → Option Exc} {n : Str} {f : FileObject} {s : FM × Zip} {b : Bytes}
    (hb : f.tobytes lib s.1 = .ok b) (hs : ∀ m, m.name = n → sink m = none) :
    (writePart lib sink n f s).2 = .ok () := by
  unfold writePart writestr
  simp only [hb]
  rw [hs _ rfl]

theorem writeParts_fm {lib sink} (d : Dict Str FileObject) (s : FM × Zip) :
    (writeParts lib sink d s).1.1 = s.1 := by
  induction d generalizing s with
  | nil => rfl
  | cons p r ih =>
    obtain ⟨n, f⟩ := p
    unfold writeParts
    rw [Py.bind_def]
    have := writePart_fm (lib := lib) (sink := sink) n f s
    cases h : writePart lib sink n f s with
    | mk s' o =>
      rw [h] at this
      cases o with
      | ok u => simp only; rw [ih]; exact this
      | error e => exact this

theorem writeParts_ok {lib sink} {d : Dict Str FileObject} {s s' : FM × Zip}
    (h : writeParts lib sink d s = (s', .ok ())) :
    s' = (s.1, s.2 ++ d.map (partMember lib s.1)) ∧ ∀ p ∈ d, ∃ b, p.2.tobytes lib s.1 = .ok b := by
  induction d generalizing s with
  | nil =>
    have h1 : s = s' := (Prod.mk.inj h).1
    refine ⟨by rw [← h1]; simp, by simp⟩
  | cons p r ih =>
    obtain ⟨n, f⟩ := p
    unfold writeParts at h
    rw [Py.bind_def] at h
    cases hw : writePart lib sink n f s with
    | mk s1 o =>
      rw [hw] at h
      cases o with
      | error e => simp at h
      | ok u =>
        simp only at h
        obtain ⟨h1, b, hb⟩ := writePart_ok hw
        obtain ⟨h2, h3⟩ := ih h
        subst h1
        refine ⟨by rw [h2]; simp, ?_⟩
        intro p hp
        rcases List.mem_cons.1 hp with rfl | hp
        · exact ⟨b, hb⟩
        · exact h3 p hp

theorem writeParts_succ {lib} {sink : Member → Option Exc} {d : Dict Str FileObject} {s : FM × Zip}
    (hb : ∀ p ∈ d, ∃ b, p.2.tobytes lib s.1 = .ok b) (hs : ∀ m, m.name ∈ d.keys → sink m = none) :
    (writeParts lib sink d s).2 = .ok () := by
  induction d generalizing s with
  | nil => rfl
  | cons p r ih =>
    obtain ⟨n, f⟩ := p
    unfold writeParts
    rw [Py.bind_def]
    obtain ⟨b, hb0⟩ := hb (n, f) List.mem_cons_self
    have h1 := writePart_succ (n := n) hb0 (fun m hm => hs m (by simp [Dict.keys, hm]))
    have hf := writePart_fm (lib := lib) (sink := sink) n f s
    cases hw : writePart lib sink n f s with
    | mk s1 o =>
      rw [hw] at h1 hf
      simp only at h1 hf
      rw [h1]
      exact ih (by rw [hf]; exact fun p hp => hb p (List.mem_cons_of_mem _ hp))
        (fun m hm => hs m (by unfold Dict.keys at *; simp [hm]))

/-- The members copied from the opened package. -/
def copied (all : Zip) (ignore : List Str) (z : Zip) : Zip :=
  (z.filter fun m => m.name ∉ ignore).map fun m => { m with data := (all.read m.name).getD [] }

theorem copyMembers_fm {sink all ignore} (z : Zip) (s : FM × Zip) :
    (copyMembers sink all ignore z s).1.1 = s.1 := by
  induction z generalizing s with
  | nil => rfl
  | cons m r ih =>
    unfold copyMembers
    split
    · exact ih s
    · cases all.read m.name with
      | none => rfl
      | some b =>
        show (Py.bind _ _ s).1.1 = _
        unfold Py.bind writestr
        cases sink { m with data := b } with
        | none => simp only; rw [ih]
        | some e => rfl

theorem copyMembers_ok {sink all ignore} {z : Zip} {s s' : FM × Zip}
    (h : copyMembers sink all ignore z s = (s', .ok ())) :
    s' = (s.1, s.2 ++ copied all ignore z) := by
  induction z generalizing s with
  | nil =>
    have h1 : s = s' := (Prod.mk.inj h).1
    rw [← h1]; simp [copied]
  | cons m r ih =>
    unfold copyMembers at h
    split at h
    · rename_i hm
      rw [ih h]; simp [copied, List.filter_cons, hm]
    · rename_i hm
      cases hb : all.read m.name with
      | none => rw [hb] at h; simp [Py.raise] at h
      | some b =>
        rw [hb] at h
        have h : Py.bind (writestr sink { m with data := b }) (fun _ => copyMembers sink all ignore r) s =
          (s', .ok ()) := h
        unfold Py.bind writestr at h
        cases hs : sink { m with data := b } with
        | some e => rw [hs] at h; simp at h
        | none =>
          rw [hs] at h
          simp only at h
          rw [ih h]
          simp [copied, List.filter_cons, hm, hb]

theorem read_isSome {z : Zip} {m : Member} (h : m ∈ z) : (z.read m.name).isSome := by
  unfold Zip.read
  rw [Option.isSome_map, List.find?_isSome]
  exact ⟨m, List.mem_reverse.2 h, by simp⟩

theorem copyMembers_succ {sink : Member → Option Exc} {all ignore} {z : Zip} {s : FM × Zip}
    (hz : ∀ m ∈ z, m ∈ all) (hs : ∀ m, m.name ∉ ignore → sink m = none) :
    (copyMembers sink all ignore z s).2 = .ok () := by
  induction z generalizing s with
  | nil => rfl
  | cons m r ih =>
    have ih' : ∀ s, (copyMembers sink all ignore r s).2 = .ok () :=
      fun s => ih fun m hm => hz m (List.mem_cons_of_mem _ hm)
    unfold copyMembers
    split
    · exact ih' s
    · rename_i hm
      have := read_isSome (hz m List.mem_cons_self)
      cases hb : all.read m.name with
      | none => rw [hb] at this; cases this
      | some b =>
        show (Py.bind (writestr sink { m with data := b }) (fun _ => copyMembers sink all ignore r) s).2 = _
        unfold Py.bind writestr
        rw [hs { m with data := b } hm]
        exact ih' _

/-- The members of the opened package. -/
def members (fs : FS) (fm : FM) : Zip :=
  match srcZip fs fm with
  | .ok (some z) => z
  | _ => []

theorem copyZipTo_fm {sink fs ignore} (s : FM × Zip) : (copyZipTo sink fs ignore s).1.1 = s.1 := by
  unfold copyZipTo
  split
  · rfl
  · rfl
  · exact copyMembers_fm _ _

theorem copyZipTo_ok {sink fs ignore} {s s' : FM × Zip} (h : copyZipTo sink fs ignore s = (s', .ok ())) :
    s' = (s.1, s.2 ++ copied (members fs s.1) ignore (members fs s.1)) := by
  unfold copyZipTo at h
  unfold members
  split at h
  · simp at h
  · rename_i hs
    simp only [hs]
    rw [← (Prod.mk.inj h).1]; simp [copied]
  · rename_i z hs
    simp only [hs]
    exact copyMembers_ok h

/-- The directory after `_tozip`. -/
def putBack (fm : FM) (f : FileObject) : FM :=
  { fm with dir := (fm.dir.del MIMETYPE).set MIMETYPE { f with stored := true } }

/-- The ordinary parts. -/
def others (fm : FM) : Dict Str FileObject := fm.dir.del MIMETYPE

/-- What a successful `_tozip` writes. -/
def written (lib : Lib) (fs : FS) (fm : FM) (f : FileObject) : Zip :=
  partMember lib fm (MIMETYPE, { f with stored := true }) ::
    ((others fm).map (partMember lib fm) ++
      copied (members fs fm) (MIMETYPE :: (others fm).keys) (members fs fm))

theorem srcZip_congr (fs : FS) {fm fm' : FM} (h : fm'.source = fm.source) : srcZip fs fm' = srcZip fs fm := by
  unfold srcZip; rw [h]

theorem tozip_ok {lib sink fs} {fm : FM} {z0 : Zip} {s' : FM × Zip}
    (h : tozip lib sink fs (fm, z0) = (s', .ok ())) :
    ∃ f, fm.dir.get MIMETYPE = some f ∧ s' = (putBack fm f, z0 ++ written lib fs fm f) ∧
      (∃ b, f.tobytes lib fm = .ok b) ∧ ∀ p ∈ others fm, ∃ b, p.2.tobytes lib fm = .ok b := by
  unfold tozip at h
  split at h
  · simp at h
  · rename_i f hf
    refine ⟨f, hf, ?_⟩
    simp only at h
    rw [Py.bind_def] at h
    split at h
    · rename_i s1 u h1
      obtain ⟨e1, b, hb⟩ := writePart_ok h1
      rw [Py.bind_def] at h
      split at h
      · rename_i s2 u h2
        obtain ⟨e2, hbs⟩ := writeParts_ok h2
        rw [Py.bind_def] at h
        simp only [Py.modify] at h
        have e3 := copyZipTo_ok h
        have hm : ∀ d, partMember lib { fm with dir := d } = partMember lib fm := fun d =>
          partMember_manifest lib rfl
        have hmem : ∀ d, members fs { fm with dir := d } = members fs fm := fun d => by
          unfold members; rw [srcZip_congr fs (fm := fm) (fm' := { fm with dir := d }) rfl]
        refine ⟨?_, ⟨b, ?_⟩, ?_⟩
        · rw [e3, e2, e1]
          simp only [hm, hmem]
          unfold putBack written others
          simp
        · rw [← hb]; rfl
        · intro p hp
          obtain ⟨b, hb⟩ := hbs p hp
          refine ⟨b, ?_⟩
          rw [← hb, e1]
          exact (tobytes_manifest lib rfl p.2).symm
      · simp at h
    · simp at h

theorem tozip_succ {lib} {sink : Member → Option Exc} {fs} {fm : FM} {z0 : Zip} {f : FileObject}
    (hf : fm.dir.get MIMETYPE = some f)
    (hb : ∀ n g, fm.dir.get n = some g → ∃ b, g.tobytes lib fm = .ok b)
    (hd : fm.dir.keys.Nodup)
    (hs : ∀ m, sink m = none) (hz : ∃ o, srcZip fs fm = .ok o) :
    (tozip lib sink fs (fm, z0)).2 = .ok () := by
  unfold tozip
  rw [hf]
  simp only
  rw [Py.bind_def]
  obtain ⟨b, hb0⟩ := hb _ _ hf
  have h1 : (writePart lib sink MIMETYPE { f with stored := true }
      (({ fm with dir := fm.dir.del MIMETYPE }, z0) : FM × Zip)).2 = .ok () :=
    writePart_succ (b := b) hb0 (fun m _ => hs m)
  have hf1 := writePart_fm (lib := lib) (sink := sink) MIMETYPE { f with stored := true }
      (({ fm with dir := fm.dir.del MIMETYPE }, z0) : FM × Zip)
  generalize writePart lib sink MIMETYPE { f with stored := true }
      (({ fm with dir := fm.dir.del MIMETYPE }, z0) : FM × Zip) = r1 at h1 hf1
  obtain ⟨s1, o1⟩ := r1
  simp only at h1 hf1
  subst h1
  simp only
  rw [Py.bind_def]
  have h2 : (writeParts lib sink (fm.dir.del MIMETYPE) s1).2 = .ok () := by
    refine writeParts_succ ?_ (fun m _ => hs m)
    intro p hp
    obtain ⟨n, g⟩ := p
    have hg : (fm.dir.del MIMETYPE).get n = some g := Dict.mem_get (Dict.nodup_del hd _) hp
    rw [Dict.get_del] at hg
    split at hg
    · cases hg
    · obtain ⟨b, hb⟩ := hb n g hg
      refine ⟨b, ?_⟩
      rw [← hb, hf1]
      exact tobytes_manifest lib rfl g
  have hf2 := writeParts_fm (lib := lib) (sink := sink) (fm.dir.del MIMETYPE) s1
  generalize writeParts lib sink (fm.dir.del MIMETYPE) s1 = r2 at h2 hf2
  obtain ⟨s2, o2⟩ := r2
  simp only at h2 hf2
  subst h2
  simp only
  rw [Py.bind_def]
  simp only [Py.modify]
  obtain ⟨o, ho⟩ := hz
  unfold copyZipTo
  have hc : ∀ fm' : FM, fm'.source = fm.source → srcZip fs fm' = .ok o := fun fm' h => by
    rw [← ho]; exact srcZip_congr fs h
  simp only [hc { s2.1 with dir := s2.1.dir.set MIMETYPE { f with stored := true } }
    (show s2.1.source = fm.source by rw [hf2, hf1])]
  cases o with
  | none => rfl
  | some z => exact copyMembers_succ (fun m hm => hm) (fun m _ => hs m)

/-- Whatever happens, the manifest and the source stay. -/
theorem tozip_frame {lib sink fs} (s : FM × Zip) :
    (tozip lib sink fs s).1.1.manifest = s.1.manifest ∧ (tozip lib sink fs s).1.1.source = s.1.source := by
  unfold tozip
  split
  · exact ⟨rfl, rfl⟩
  · rename_i f hf
    simp only
    rw [Py.bind_def]
    have hf1 := writePart_fm (lib := lib) (sink := sink) MIMETYPE { f with stored := true }
      (({ s.1 with dir := s.1.dir.del MIMETYPE }, s.2) : FM × Zip)
    generalize writePart lib sink MIMETYPE { f with stored := true }
      (({ s.1 with dir := s.1.dir.del MIMETYPE }, s.2) : FM × Zip) = r1 at hf1
    obtain ⟨s1, o1⟩ := r1
    simp only at hf1
    cases o1 with
    | error e => simp only; rw [hf1]; exact ⟨rfl, rfl⟩
    | ok u =>
      simp only
      rw [Py.bind_def]
      have hf2 := writeParts_fm (lib := lib) (sink := sink) (s.1.dir.del MIMETYPE) s1
      generalize writeParts lib sink (s.1.dir.del MIMETYPE) s1 = r2 at hf2
      obtain ⟨s2, o2⟩ := r2
      simp only at hf2
      cases o2 with
      | error e => simp only; rw [hf2, hf1]; exact ⟨rfl, rfl⟩
      | ok u =>
        simp only
        rw [Py.bind_def]
        simp only [Py.modify]
        rw [copyZipTo_fm]
        simp only
        rw [hf2, hf1]; exact ⟨rfl, rfl⟩

end Verif.Package
