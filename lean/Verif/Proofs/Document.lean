import Verif.Model.Document
import Verif.Props.SaveHistory
import Verif.Proofs.Manifest
/-! # Lemmas about `Model/Document.lean` -/
namespace Verif
set_option linter.unusedSimpArgs false

namespace Dict
variable {κ α : Type} [DecidableEq κ]

theorem get_update (l : List (κ × α)) : ∀ (d : Dict κ α) (k : κ),
    (update d l).get k = ((l.reverse.find? fun p => p.1 = k).map Prod.snd).or (d.get k) := by
  induction l with
  | nil => intro d k; rfl
  | cons p l ih =>
    intro d k
    show (update (set d p.1 p.2) l).get k = _
    rw [ih, List.reverse_cons, List.find?_append, get_set]
    cases h : l.reverse.find? (fun p => decide (p.1 = k)) with
    | some q => simp
    | none =>
      by_cases hp : p.1 = k
      · simp [List.find?_cons, hp]
      · simp [List.find?_cons, hp]

theorem get_ofPairs (l : List (κ × α)) (k : κ) :
    (ofPairs l).get k = (l.reverse.find? fun p => p.1 = k).map Prod.snd := by
  unfold ofPairs; rw [get_update]; simp

theorem mem_get_nodup {l : List (κ × α)} (hl : (l.map Prod.fst).Nodup) {k : κ} {v : α} :
    (ofPairs l).get k = some v ↔ (k, v) ∈ l := by
  rw [get_ofPairs]
  constructor
  · intro h
    obtain ⟨⟨k', v'⟩, h1, h2⟩ := Option.map_eq_some_iff.1 h
    have hm := List.mem_of_find?_eq_some h1
    have hk := List.find?_some h1
    simp only [decide_eq_true_eq] at hk
    simp only at h2
    rw [List.mem_reverse, hk, h2] at hm
    exact hm
  · intro h
    cases hf : l.reverse.find? (fun p => decide (p.1 = k)) with
    | none =>
      rw [List.find?_eq_none] at hf
      exact absurd (decide_eq_true rfl) (hf (k, v) (List.mem_reverse.2 h))
    | some p =>
      have hm := List.mem_reverse.1 (List.mem_of_find?_eq_some hf)
      have hk := List.find?_some hf
      simp only [decide_eq_true_eq] at hk
      obtain ⟨k', v'⟩ := p
      simp only at hk
      subst hk
      have : v' = v := by
        clear hf
        induction l with
        | nil => cases h
        | cons a l ih =>
          simp only [List.map_cons, List.nodup_cons] at hl
          rcases List.mem_cons.1 hm with e1 | h1 <;> rcases List.mem_cons.1 h with e2 | h2
          · rw [← e1] at e2; cases e2; rfl
          · exact absurd (List.mem_map.2 ⟨_, h2, by rw [← e1]⟩) hl.1
          · exact absurd (List.mem_map.2 ⟨_, h1, by rw [← e2]⟩) hl.1
          · exact ih hl.2 h1 h2
      rw [Option.map_some, this]

end Dict

namespace Document
open Verif Verif.Package

/-- The entries of the manifest with this path, as the check sees them. -/
def entriesOf (k : Str) (kids : List Elem) : List Elem :=
  kids.filter fun e => e.tag = "manifest:file-entry" ∧ e.get "manifest:full-path" = some k

theorem entries_get (kids : List Elem) (k : Str) :
    (entries kids).get (some k) = (entriesOf k kids).getLast? := by
  unfold entries entriesOf
  rw [Dict.get_ofPairs, ← List.head?_filter, List.filter_reverse, List.head?_reverse, List.filter_map,
    List.getLast?_map, List.filter_filter]
  have : (kids.filter fun a => ((fun p : Option Str × Elem => decide (p.1 = some k)) ∘
        fun e : Elem => (e.get "manifest:full-path", e)) a && decide (a.tag = "manifest:file-entry")) =
      kids.filter fun e => e.tag = "manifest:file-entry" ∧ e.get "manifest:full-path" = some k := by
    apply List.filter_congr
    intro e _
    simp only [Function.comp, Bool.decide_and]
    exact Bool.and_comm _ _
  rw [this]
  cases (kids.filter fun e => decide (e.tag = "manifest:file-entry" ∧ e.get "manifest:full-path" = some k)).getLast? <;> rfl

theorem entries_mem (kids : List Elem) (k : Str) : some k ∈ (entries kids).keys ↔ entriesOf k kids ≠ [] := by
  rw [← Dict.get_isSome, entries_get]
  simp [List.getLast?_isSome]

/-- What the check looks at. -/
def view (e : Elem) : String × List (String × Str) := (e.tag, e.attrs)

theorem get_view {e e' : Elem} (h : view e = view e') (k : String) : e.get k = e'.get k := by
  unfold view at h
  simp only [Prod.mk.injEq] at h
  unfold Elem.get
  rw [h.2]

theorem entriesOf_view {l l' : List Elem} (h : l'.map view = l.map view) (k : Str) :
    (entriesOf k l').map view = (entriesOf k l).map view := by
  let mk (v : String × List (String × Str)) : Elem := { id := 0, tag := v.1, attrs := v.2 }
  let p (v : String × List (String × Str)) : Bool :=
    decide (v.1 = "manifest:file-entry" ∧ (mk v).get "manifest:full-path" = some k)
  have key : ∀ l : List Elem, (entriesOf k l).map view = (l.map view).filter p := by
    intro l
    rw [List.filter_map]
    rfl
  rw [key, key, h]

/-- The media type that the check finds for the root. -/
def rootType (kids : List Elem) : Option Str :=
  (entriesOf ROOT kids).getLast?.bind fun e => e.get "manifest:media-type"

theorem rootType_view {l l' : List Elem} (h : l'.map view = l.map view) : rootType l' = rootType l := by
  have := congrArg List.getLast? (entriesOf_view h ROOT)
  rw [List.getLast?_map, List.getLast?_map] at this
  unfold rootType
  cases h1 : (entriesOf ROOT l').getLast? <;> cases h2 : (entriesOf ROOT l).getLast? <;>
    rw [h1, h2] at this <;> simp at this
  case some.some => simp only [Option.bind_some]; exact get_view this _

/-- All the parts are listed. -/
def Listed (kids : List Elem) : Prop := ∀ n ∈ [CONTENT, META, STYLES, ROOT], entriesOf n kids ≠ []

theorem listed_view {l l' : List Elem} (h : l'.map view = l.map view) (hl : Listed l) : Listed l' := by
  intro n hn he
  apply hl n hn
  have := entriesOf_view h n
  rw [he] at this
  simpa using this.symm

theorem checkManifest_listed {d : DLib} (hd : d.Lawful) {kids : List Elem} (hl : Listed kids) (mt : Str) :
    checkManifest d (utf8 mt) (d.pkg.tostring kids) = .ok (decide (rootType kids = some mt)) := by
  obtain ⟨kids', h1, h2⟩ := hd.pkg.parse_tostring kids
  have h2 : kids'.map view = kids.map view := h2
  have hl' := listed_view h2 hl
  unfold checkManifest
  rw [h1]
  simp only
  have hany : ¬ ([CONTENT, META, STYLES, ROOT].any fun n => decide (some n ∉ (entries kids').keys)) = true := by
    rw [List.any_eq_true]
    rintro ⟨n, hn, h⟩
    exact of_decide_eq_true h ((entries_mem _ _).2 (hl' n hn))
  rw [if_neg hany, hd.decode_utf8]
  simp only
  have hroot : entriesOf ROOT kids' ≠ [] := hl' ROOT (by simp)
  rw [entries_get]
  rw [← rootType_view h2]
  unfold rootType
  cases hg : (entriesOf ROOT kids').getLast? with
  | none => rw [List.getLast?_eq_none_iff] at hg; exact absurd hg hroot
  | some e =>
    simp only [Option.bind_some]
    congr 2
    exact propext ⟨fun h => h.symm, fun h => h.symm⟩

/-- What the check needs of the manager. -/
structure Ready (mt : Str) (fm : FM) : Prop where
  nodup : fm.dir.keys.Nodup
  mime : ∀ f, fm.dir.get MIMETYPE = some f → f.element = .text mt
  manifest : ∃ f, fm.dir.get MANIFEST = some f ∧ f.element = .manifest
  parts : ∀ n ∈ [CONTENT, META, STYLES], n ∈ fm.dir.keys
  listed : Listed fm.manifest.kids

theorem check_written {d : DLib} (hd : d.Lawful) {sink fs} {mt : Str} {fm fm' : FM} {z : Zip}
    (hr : Ready mt fm) (h : tobytes d.pkg sink fs fm = (fm', .ok z)) :
    check d (some (.zip z)) (utf8 mt) = .ok (decide (rootType fm.manifest.kids = some mt)) := by
  obtain ⟨m0, r, hz, hn, hs, he⟩ := C39_first d.pkg sink fs fm fm' z h
  obtain ⟨f, hf, -⟩ := tobytes_ok h
  obtain ⟨m1, g1, g2, -⟩ := C39_parts d.pkg sink fs fm fm' z hr.nodup h MIMETYPE f hf
  have hm : m0 = m1 := by
    rw [hz, List.filter_cons, if_pos (decide_eq_true hn)] at g1
    exact (List.cons.inj g1).1
  subst hm
  have hdata : m0.data = utf8 mt := by
    rw [hr.mime f hf] at g2
    simp only [currentBytes, Option.some.injEq] at g2
    exact g2.symm
  obtain ⟨fM, hM, hMe⟩ := hr.manifest
  obtain ⟨mM, k1, k2, k3⟩ := C39_parts d.pkg sink fs fm fm' z hr.nodup h MANIFEST fM hM
  have hMd : mM.data = d.pkg.tostring fm.manifest.kids := by
    rw [hMe] at k2
    simp only [currentBytes, Option.some.injEq] at k2
    exact k2.symm
  have hmem : ∀ n ∈ fm.dir.keys, n ∈ z.map Member.name := by
    intro n hn
    obtain ⟨g, hg⟩ := Option.isSome_iff_exists.1 (Dict.get_isSome.2 hn)
    obtain ⟨m, h1, -⟩ := C39_parts d.pkg sink fs fm fm' z hr.nodup h n g hg
    have : m ∈ z.filter fun m => decide (m.name = n) := by rw [h1]; simp
    obtain ⟨h2, h3⟩ := List.mem_filter.1 this
    exact List.mem_map.2 ⟨m, h2, of_decide_eq_true h3⟩
  unfold check
  simp only
  have hbuf : ((d.pkg.bytes z).take (38 + (utf8 mt).length)).drop 30 = utf8 MIMETYPE ++ utf8 mt := by
    have hl := hd.pkg.header_length m0
    have hu : (utf8 MIMETYPE).length = 8 := by decide +kernel
    have hb : ∃ rest, d.pkg.bytes z = d.pkg.header m0 ++ (utf8 MIMETYPE ++ utf8 mt ++ rest) := by
      unfold Lib.bytes
      rw [hz, List.flatMap_cons, hs, he, hn, hdata]
      exact ⟨_, by simp only [if_true, List.append_nil, List.append_assoc]; rfl⟩
    obtain ⟨rest, hb⟩ := hb
    rw [hb, List.drop_take, List.drop_append_of_le_length (by omega), List.drop_of_length_le (by omega)]
    rw [List.nil_append]
    have : 38 + (utf8 mt).length - 30 = (utf8 MIMETYPE ++ utf8 mt).length := by
      rw [List.length_append, hu]; omega
    rw [this, List.take_left']
    rfl
  rw [if_neg (by rw [hbuf]; simp)]
  rw [if_pos (hmem _ (Dict.get_isSome.1 (by rw [hM]; rfl))), k3]
  simp only
  have hany : ¬ ([CONTENT, META, STYLES, MIMETYPE].any fun n => decide (n ∉ z.map Member.name)) = true := by
    rw [List.any_eq_true]
    rintro ⟨n, hn, hx⟩
    refine of_decide_eq_true hx (hmem n ?_)
    simp only [List.mem_cons, List.not_mem_nil, or_false] at hn
    rcases hn with rfl | rfl | rfl | rfl
    · exact hr.parts _ (by simp)
    · exact hr.parts _ (by simp)
    · exact hr.parts _ (by simp)
    · exact Dict.get_isSome.1 (by rw [hf]; rfl)
  rw [if_neg hany, hMd]
  exact checkManifest_listed hd hr.listed mt

end Document
end Verif
