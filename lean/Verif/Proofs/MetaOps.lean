import Verif.Proofs.Meta
import Verif.Spec.Meta
/-! The effect of every operation on the meta data. -/
namespace Verif.Meta
open Verif
set_option linter.unusedSimpArgs false

/-- Nothing changes but nodes of one tag. -/
structure Frame (tag : String) (m m' : Meta) : Prop where
  wf : WF m'
  stats : m'.stats = m.stats
  other : ∀ tag', tag' ≠ tag → findall tag' m'.kids = findall tag' m.kids

theorem Frame.refl {m : Meta} (h : WF m) (tag : String) : Frame tag m m :=
  ⟨h, rfl, fun _ _ => rfl⟩

theorem Frame.trans {tag : String} {a b c : Meta} (h : Frame tag a b) (h' : Frame tag b c) :
    Frame tag a c :=
  ⟨h'.wf, h'.stats.trans h.stats, fun t ht => (h'.other t ht).trans (h.other t ht)⟩

theorem frame_append {m : Meta} (h : WF m) (tag : String) (a : Attrs) (v : Option Str) :
    Frame tag m (append tag a v m) := by
  refine ⟨wf_append h _ _ _, rfl, fun tag' hne => ?_⟩
  rw [findall_append, if_neg (Ne.symm hne), List.append_nil]

theorem frame_edit {m : Meta} (h : WF m) {t : Tree} (ht : t ∈ m.kids) {f : Tree → Tree}
    (hf : Keeps f) : Frame t.1.tag m { m with kids := editNode t.1.id f m.kids } :=
  ⟨wf_edit h _ hf, rfl, fun _ hne => edit_other h ht hf (Ne.symm hne)⟩

theorem frame_remove {m : Meta} (h : WF m) {t : Tree} (ht : t ∈ m.kids)
    (htag : t.1.tag ≠ "meta:document-statistic") :
    Frame t.1.tag m { m with kids := removeNode t.1.id m.kids } :=
  ⟨wf_remove h ht htag, rfl, fun _ hne => remove_other h ht (Ne.symm hne)⟩

theorem frame_clearTag {m : Meta} (h : WF m) (tag : String) (htag : tag ≠ "meta:document-statistic") :
    Frame tag m { m with kids := (findall tag m.kids).foldl (fun l t => removeNode t.1.id l) m.kids } ∧
    findall tag ((findall tag m.kids).foldl (fun l t => removeNode t.1.id l) m.kids) = [] := by
  rw [clearTag tag _ h.nodup]
  refine ⟨⟨?_, rfl, fun tag' hne => ?_⟩, ?_⟩
  · exact wf_filter h _ fun t ht => by simp [ht, Ne.symm htag]
  · show findall tag' (m.kids.filter fun t => t.1.tag ≠ tag) = _
    rw [findall_filter_ne, if_neg hne]
  · rw [findall_filter_ne, if_pos rfl]

theorem frame_setitem {m : Meta} (h : WF m) {key tag : String} (hk : TAGS.get key = some tag)
    (v : Option Str) : Frame tag m (setitem key v m).1 :=
  let s := setitem_spec h hk v
  ⟨s.2.1, s.2.2.1, s.2.2.2.1⟩

/-! ## Keywords -/

theorem kwFind_mem {k : Str} {m : Meta} {t : Tree} (h : kwFind k m = some t) :
    t ∈ m.kids ∧ t.1.tag = "meta:keyword" :=
  mem_findall.1 (List.mem_of_find?_eq_some h)

theorem kwFind_isSome (k : Str) (m : Meta) : (kwFind k m).isSome ↔ some k ∈ keywords m := by
  unfold kwFind keywords
  rw [List.find?_isSome]
  simp only [List.mem_map, decide_eq_true_eq]
  constructor
  · rintro ⟨t, ht, e⟩; exact ⟨t, ht, e.symm⟩
  · rintro ⟨t, ht, e⟩; exact ⟨t, ht, e.symm⟩

theorem kwAdd_spec {m : Meta} (h : WF m) (k : Str) :
    Frame "meta:keyword" m (kwAdd k m) ∧
    keywords (kwAdd k m) = if some k ∈ keywords m then keywords m else keywords m ++ [some k] := by
  have hi := kwFind_isSome k m
  unfold kwAdd
  cases hf : kwFind k m with
  | none =>
    rw [hf] at hi
    rw [if_neg (fun hc => by simpa using hi.2 hc)]
    refine ⟨frame_append h _ _ _, ?_⟩
    simp only [keywords]
    rw [findall_append]
    simp
  | some t =>
    rw [hf] at hi
    rw [if_pos (hi.1 rfl)]
    exact ⟨Frame.refl h _, rfl⟩

theorem kwRemove_spec {m : Meta} (h : WF m) (k : Str) :
    Frame "meta:keyword" m (kwRemove k m) ∧
    keywords (kwRemove k m) = (keywords m).erase (some k) := by
  have hi := kwFind_isSome k m
  unfold kwRemove
  cases hf : kwFind k m with
  | none =>
    rw [hf] at hi
    refine ⟨Frame.refl h _, ?_⟩
    rw [List.erase_of_not_mem (fun hc => by simpa using hi.2 hc)]
  | some t =>
    have ht := kwFind_mem hf
    refine ⟨?_, ?_⟩
    · have := frame_remove h ht.1 (by rw [ht.2]; decide)
      rw [ht.2] at this; exact this
    · simp only [keywords]
      rw [findall_removeNode h]
      rw [eraseP_first (l := findall "meta:keyword" m.kids) (nodup_filter _ h.nodup) hf,
        List.erase_eq_eraseP, List.eraseP_map]
      congr 1
      congr 1
      funext t
      simp only [Function.comp]
      rw [Bool.eq_iff_iff]; simp only [beq_iff_eq, decide_eq_true_eq]

theorem kwClear_spec {m : Meta} (h : WF m) :
    Frame "meta:keyword" m (kwClear m) ∧ keywords (kwClear m) = [] := by
  have := frame_clearTag h "meta:keyword" (by decide)
  refine ⟨this.1, ?_⟩
  unfold keywords kwClear
  simp only [this.2, List.map_nil]

/-! ## User tags -/

/-- Name, value and declared type of a user tag -/
def entry (t : Tree) : Option Str × Option Str × Option Str :=
  (t.1.get "meta:name", t.1.text, t.1.get "meta:value-type")

def entries (m : Meta) : List (Option Str × Option Str × Option Str) :=
  (findall "meta:user-defined" m.kids).map entry

theorem userFind_mem {n : Str} {m : Meta} {t : Tree} (h : userFind n m = some t) :
    t ∈ m.kids ∧ t.1.tag = "meta:user-defined" :=
  mem_findall.1 (List.mem_of_find?_eq_some h)

theorem userFind_entry (n : Str) (m : Meta) :
    (userFind n m).map entry = (entries m).find? fun e => some n = e.1 := by
  unfold userFind entries
  rw [List.find?_map]
  rfl

theorem entry_store (v : Str) (ty : Option Str) (t : Tree) :
    entry (userStore v ty t) = (t.1.get "meta:name", some v, ty.or (t.1.get "meta:value-type")) := by
  cases ty with
  | none => rfl
  | some y => simp [entry, userStore, setAttr, setText, Elem.get_set, Elem.get]
              simp [Elem.set, Attrs.get_set]

theorem upsert_absent {n v : Str} {ty : Option Str} {l : List (Option Str × Option Str × Option Str)}
    (h : ∀ e ∈ l, e.1 ≠ some n) : upsert n v ty l = l ++ [(some n, some v, ty)] := by
  induction l with
  | nil => rfl
  | cons e r ih =>
    unfold upsert
    rw [if_neg (h e List.mem_cons_self), ih fun e he => h e (List.mem_cons_of_mem _ he)]
    rfl

theorem edit_first {l : List Tree} (h : (ids l).Nodup) {n v : Str} {ty : Option Str} {t : Tree}
    (hf : (l.find? fun t => decide (some n = t.1.get "meta:name")) = some t) :
    (editNode t.1.id (userStore v ty) l).map entry = upsert n v ty (l.map entry) := by
  induction l with
  | nil => cases hf
  | cons a l ih =>
    simp only [ids, List.map_cons, List.nodup_cons] at h
    by_cases hp : some n = a.1.get "meta:name"
    · rw [List.find?_cons_of_pos (by simpa using hp)] at hf
      have : a = t := Option.some.inj hf
      subst this
      have hrest : editNode a.1.id (userStore v ty) l = l :=
        editNode_absent fun b hb e => h.1 (List.mem_map.2 ⟨b, hb, e⟩)
      have : editNode a.1.id (userStore v ty) (a :: l) = userStore v ty a :: l := by
        show (if a.1.id = a.1.id then _ else _) :: editNode a.1.id (userStore v ty) l = _
        rw [hrest, if_pos rfl]
      rw [this, List.map_cons, List.map_cons, upsert, if_pos (by exact hp.symm), entry_store, ← hp]
      rfl
    · rw [List.find?_cons_of_neg (by simpa using hp)] at hf
      have hmem := List.mem_of_find?_eq_some hf
      have hne : a.1.id ≠ t.1.id := fun e => h.1 (List.mem_map.2 ⟨t, hmem, e.symm⟩)
      have : editNode t.1.id (userStore v ty) (a :: l) = a :: editNode t.1.id (userStore v ty) l := by
        show (if a.1.id = t.1.id then _ else _) :: editNode t.1.id (userStore v ty) l = _
        rw [if_neg hne]
      rw [this, List.map_cons, List.map_cons, upsert, if_neg (fun e => hp e.symm), ih h.2 hf]

theorem userSet_spec {m : Meta} (h : WF m) (n v : Str) (ty : Option Str) :
    Frame "meta:user-defined" m (userSet n v ty m) ∧
    entries (userSet n v ty m) = upsert n v ty (entries m) := by
  unfold userSet
  cases hf : userFind n m with
  | none =>
    simp only
    have hfr := frame_append h "meta:user-defined" [("meta:name", n)] none
    have hmem : ({ id := m.fresh, tag := "meta:user-defined", attrs := [("meta:name", n)], text := none },
        Forest.nil) ∈ (append "meta:user-defined" [("meta:name", n)] none m).kids := by
      unfold append; simp
    have hed := frame_edit hfr.wf hmem (keeps_userStore v ty)
    refine ⟨hfr.trans hed, ?_⟩
    unfold entries
    simp only
    rw [findall_editNode (keeps_userStore v ty), findall_append, if_pos rfl]
    have h1 : ∀ e ∈ (findall "meta:user-defined" m.kids).map entry, e.1 ≠ some n := by
      intro e he hn
      obtain ⟨t, ht, rfl⟩ := List.mem_map.1 he
      have := List.find?_eq_none.1 hf t ht
      simp at this
      exact this hn.symm
    rw [upsert_absent h1]
    have h2 : editNode m.fresh (userStore v ty) (findall "meta:user-defined" m.kids) =
        findall "meta:user-defined" m.kids :=
      editNode_absent fun t ht e => by have := h.bound t (mem_findall.1 ht).1; omega
    unfold editNode at h2 ⊢
    rw [List.map_append, h2, List.map_append]
    congr 1
    simp only [List.map_cons, List.map_nil, if_true, entry_store]
    cases ty <;> rfl
  | some t =>
    have ht := userFind_mem hf
    have := frame_edit h ht.1 (keeps_userStore v ty)
    rw [ht.2] at this
    refine ⟨this, ?_⟩
    unfold entries
    simp only
    rw [findall_editNode (keeps_userStore v ty)]
    exact edit_first (nodup_filter _ h.nodup) hf

theorem userDel_spec {m : Meta} (h : WF m) (n : Str) :
    Frame "meta:user-defined" m (userDel n m).1 ∧
    entries (userDel n m).1 = (entries m).eraseP (fun e => some n = e.1) ∧
    (userDel n m).2 = if ∃ e ∈ entries m, e.1 = some n then .ok () else .error .KeyError := by
  have he := userFind_entry n m
  unfold userDel
  cases hf : userFind n m with
  | none =>
    rw [hf] at he
    have hn := List.find?_eq_none.1 he.symm
    refine ⟨Frame.refl h _, ?_, ?_⟩
    · exact (List.eraseP_of_forall_not hn).symm
    · rw [if_neg]
      rintro ⟨e, h1, h2⟩
      exact hn e h1 (by simpa using h2.symm)
  | some t =>
    have ht := userFind_mem hf
    have hr := frame_remove h ht.1 (by rw [ht.2]; decide)
    rw [ht.2] at hr
    refine ⟨hr, ?_, ?_⟩
    · unfold entries
      simp only
      rw [findall_removeNode h, eraseP_first (l := findall "meta:user-defined" m.kids) (nodup_filter _ h.nodup) hf,
        List.eraseP_map]
      rfl
    · rw [hf] at he
      have h1 := List.mem_of_find?_eq_some he.symm
      have h2 := List.find?_some he.symm
      rw [if_pos]
      exact ⟨_, h1, by simp at h2; exact h2.symm⟩

theorem userUpdate_spec {m : Meta} (h : WF m) (d : Dict Str Str) :
    Frame "meta:user-defined" m (userUpdate d m) ∧
    entries (userUpdate d m) = d.foldl (fun l p => upsert p.1 p.2 none l) (entries m) := by
  induction d generalizing m with
  | nil => exact ⟨Frame.refl h _, rfl⟩
  | cons p d ih =>
    have h1 := userSet_spec h p.1 p.2 none
    have h2 := ih h1.1.wf
    refine ⟨h1.1.trans h2.1, ?_⟩
    show entries (userUpdate d (userSet p.1 p.2 none m)) = _
    rw [h2.2, h1.2]; rfl

theorem userClear_spec {m : Meta} (h : WF m) :
    Frame "meta:user-defined" m (userClear m) ∧ entries (userClear m) = [] := by
  have := frame_clearTag h "meta:user-defined" (by decide)
  refine ⟨this.1, ?_⟩
  unfold entries userClear
  simp only [this.2, List.map_nil]

/-! ## Statistics -/

theorem frame_stats {m : Meta} (h : WF m) {f : Tree → Tree} (hf : Keeps f) :
    Frame "meta:document-statistic" m { m with kids := editNode m.stats f m.kids } :=
  ⟨wf_edit h _ hf, rfl, fun _ hne => edit_stats_other h hf hne⟩

theorem statSet_spec {m : Meta} (h : WF m) {k : String} (hk : k ∈ TYPES) (n : Int) :
    Frame "meta:document-statistic" m (statSet k n m).1 ∧
    statAttrs (statSet k n m).1 = Attrs.set (statAttrs m) (statKey k) (intStr n) ∧
    (statSet k n m).2 = .ok () := by
  unfold statSet
  rw [if_pos hk]
  exact ⟨frame_stats h (keeps_setAttr _ _), statAttrs_edit h (keeps_setAttr _ _)
    (fun a => Attrs.set a (statKey k) (intStr n)) (fun _ => rfl), rfl⟩

theorem statSet_unknown {m : Meta} {k : String} (hk : k ∉ TYPES) (n : Int) :
    statSet k n m = (m, .error .KeyError) := by
  unfold statSet; rw [if_neg hk]

theorem statClear_spec {m : Meta} (h : WF m) :
    Frame "meta:document-statistic" m (statClear m) ∧ statAttrs (statClear m) = [] := by
  have hk : Keeps fun t => ({ id := t.1.id, tag := t.1.tag }, Forest.nil) := fun _ => ⟨rfl, rfl⟩
  exact ⟨frame_stats h hk, statAttrs_edit h hk (fun _ => []) (fun _ => rfl)⟩

theorem TYPES_eq : TYPES = COUNTS := rfl

theorem statKey_inj : ∀ a ∈ TYPES, ∀ b ∈ TYPES, statKey a = statKey b → a = b := by
  decide +kernel

/-! ## Construction -/

theorem load_wf (node : Elem) (kids : List Tree) (fresh : Nat) (hn : (ids kids).Nodup)
    (hb : ∀ t ∈ kids, t.1.id < fresh) : WF (load node kids fresh) := by
  unfold load
  cases hf : kids.find? fun t => decide (t.1.tag = "meta:document-statistic") with
  | some t =>
    exact ⟨hn, hb, t, List.mem_of_find?_eq_some hf, rfl, by simpa using List.find?_some hf⟩
  | none =>
    refine ⟨?_, ?_, ?_⟩
    · simp only [ids, append]
      rw [List.map_append, List.nodup_append]
      refine ⟨hn, by simp, ?_⟩
      intro x hx y hy
      obtain ⟨t, ht, rfl⟩ := List.mem_map.1 hx
      simp at hy
      have := hb t ht
      omega
    · intro t ht
      simp only [append] at ht ⊢
      rcases List.mem_append.1 ht with h1 | h1
      · have := hb t h1; omega
      · simp at h1; subst h1; simp
    · exact ⟨({ id := fresh, tag := "meta:document-statistic", attrs := [], text := none }, .nil),
        List.mem_append_right _ (by simp), rfl, rfl⟩

theorem load_other (node : Elem) (kids : List Tree) (fresh : Nat) (tag : String)
    (h : tag ≠ "meta:document-statistic") :
    findall tag (load node kids fresh).kids = findall tag kids := by
  unfold load
  split
  · rfl
  · rw [findall_append, if_neg (Ne.symm h), List.append_nil]

theorem clear_wf (m : Meta) : WF (clear m) := by
  refine ⟨by simp [clear, ids], ?_, ?_⟩
  · intro t ht; simp [clear] at ht ⊢; subst ht; simp
  · exact ⟨_, List.mem_cons_self, rfl, rfl⟩

end Verif.Meta
