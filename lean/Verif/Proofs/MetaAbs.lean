import Verif.Proofs.MetaOps
/-! The meta data simulate their specification. -/
namespace Verif.Meta
open Verif
set_option linter.unusedSimpArgs false

/-! ## What the program sees -/

def step (m : Meta) : Op → Meta
  | .set k v => (setitem k v m).1
  | .clear => clear m
  | .save now gen r => (save now gen r m).1
  | .kwAdd k => kwAdd k m
  | .kwRemove k => kwRemove k m
  | .kwClear => kwClear m
  | .userSet n v ty => userSet n v ty m
  | .userDel n => (userDel n m).1
  | .userUpdate d => userUpdate d m
  | .userClear => userClear m
  | .statSet k n => (statSet k n m).1
  | .statUpdate d => (statUpdate d m).1
  | .statClear => statClear m

def run (m : Meta) (h : List Op) : Meta := h.foldl step m

/-- Everything that can be read through the interface, except the iteration of statistics. -/
def abs (m : Meta) : Abs where
  tag k := match getitem k m with | .ok v => some v | .error _ => none
  keywords := keywords m
  user := entries m
  count k := match statGet k m with | .ok n => n | .error _ => 0

/-! ## Simulation -/

theorem Abs.ext {a b : Abs} (h1 : ∀ k, a.tag k = b.tag k) (h2 : a.keywords = b.keywords)
    (h3 : a.user = b.user) (h4 : ∀ k, a.count k = b.count k) : a = b := by
  cases a; cases b; simp at h1 h2 h3 h4 ⊢
  exact ⟨funext h1, h2, h3, funext h4⟩

theorem mem_KEYS (k : String) : k ∈ KEYS ↔ (TAGS.get k).isSome = true := by
  rw [Dict.get_isSome]
  have : TAGS.keys = KEYS := by decide +kernel
  rw [this]

theorem statGet_congr {m m' : Meta} (h : statAttrs m = statAttrs m') (k : String) :
    statGet k m = statGet k m' := by
  unfold statGet; rw [h]

theorem tag_frame {tag : String} {m m' : Meta} (h : Frame tag m m') (k : String)
    (hk : TAGS.get k ≠ some tag) : (abs m').tag k = (abs m).tag k := by
  simp only [abs]
  cases hg : TAGS.get k with
  | none => rw [getitem_none hg, getitem_none hg]
  | some t =>
    rw [getitem_congr hg (h.other t fun e => hk (by rw [hg, e]))]

theorem kw_frame {tag : String} {m m' : Meta} (h : Frame tag m m') (ht : "meta:keyword" ≠ tag) :
    keywords m' = keywords m := by
  unfold keywords; rw [h.other _ ht]

theorem user_frame {tag : String} {m m' : Meta} (h : Frame tag m m')
    (ht : "meta:user-defined" ≠ tag) : entries m' = entries m := by
  unfold entries; rw [h.other _ ht]

theorem stat_frame {tag : String} {m m' : Meta} (hm : WF m) (h : Frame tag m m')
    (ht : "meta:document-statistic" ≠ tag) : statAttrs m' = statAttrs m :=
  statAttrs_congr h.wf hm h.stats (h.other _ ht)

theorem tag_ne_special (k : String) : TAGS.get k ≠ some "meta:keyword" ∧
    TAGS.get k ≠ some "meta:user-defined" ∧ TAGS.get k ≠ some "meta:document-statistic" := by
  refine ⟨fun h => (TAGS_ne' h).1 rfl, fun h => (TAGS_ne' h).2.1 rfl, fun h => (TAGS_ne' h).2.2 rfl⟩

theorem count_congr {m m' : Meta} (h : statAttrs m' = statAttrs m) (k : String) :
    (abs m').count k = (abs m).count k := by
  simp only [abs]; rw [statGet_congr h]

theorem setitem_unknown {k : String} (h : TAGS.get k = none) (v : Option Str) (m : Meta) :
    setitem k v m = (m, .error .KeyError) := by
  unfold setitem; rw [h]

theorem abs_set {m : Meta} (hm : WF m) (k : String) (v : Option Str) :
    WF (setitem k v m).1 ∧ abs (setitem k v m).1 = setTag k v (abs m) := by
  cases hk : TAGS.get k with
  | none =>
    rw [setitem_unknown hk]
    refine ⟨hm, ?_⟩
    have : k ∉ KEYS := by rw [mem_KEYS, hk]; simp
    refine Abs.ext (fun k' => ?_) rfl rfl fun _ => rfl
    simp [setTag, this]
  | some tag =>
    have hs := setitem_spec hm hk v
    have hf := frame_setitem hm hk v
    have hne := TAGS_ne' hk
    refine ⟨hf.wf, Abs.ext (fun k' => ?_) (kw_frame hf (Ne.symm hne.1))
      (user_frame hf (Ne.symm hne.2.1)) (count_congr (stat_frame hm hf (Ne.symm hne.2.2)))⟩
    have hK : k ∈ KEYS := by rw [mem_KEYS, hk]; rfl
    by_cases he : k' = k
    · subst he
      obtain ⟨t, r, h1, h2⟩ := hs.2.2.2.2
      simp only [setTag, hK, and_self, if_true, abs]
      rw [getitem_eq, hk]
      simp only [h1, List.head?_cons, h2]
    · rw [tag_frame hf k' fun h => he (TAGS_inj' h hk)]
      simp [setTag, he]

theorem abs_clear (m : Meta) : abs (clear m) =
    { tag := fun _ => none, keywords := [], user := [], count := fun _ => 0 } := by
  have hfa : ∀ tag, tag ≠ "meta:document-statistic" → findall tag (clear m).kids = [] := by
    intro tag h
    simp [findall, clear, Ne.symm h]
  refine Abs.ext (fun k => ?_) ?_ ?_ fun k => ?_
  · simp only [abs]
    rw [getitem_eq]
    cases hg : TAGS.get k with
    | none => rfl
    | some tag => simp only [hfa tag (TAGS_ne' hg).2.2]; rfl
  · show keywords (clear m) = []
    unfold keywords; rw [hfa _ (by decide)]; rfl
  · show entries (clear m) = []
    unfold entries; rw [hfa _ (by decide)]; rfl
  · simp only [abs]
    have : statAttrs (clear m) = [] := by simp [statAttrs, clear]
    unfold statGet
    rw [this]
    by_cases h : k ∈ TYPES
    · rw [if_pos h]; rfl
    · rw [if_neg h]

theorem touch_eq (now gen : Str) (m : Meta) : touch now gen m =
    ((setitem "generator" (some gen) (setitem "date" (some now) m).1).1, .ok ()) := by
  have h1 : ∀ m, (setitem "date" (some now) m).2 = .ok () := by
    intro m; unfold setitem
    have : TAGS.get "date" = some "dc:date" := by decide +kernel
    rw [this]; simp only; split <;> rfl
  have h2 : ∀ m, (setitem "generator" (some gen) m).2 = .ok () := by
    intro m; unfold setitem
    have : TAGS.get "generator" = some "meta:generator" := by decide +kernel
    rw [this]; simp only; split <;> rfl
  show Py.bind _ _ m = _
  unfold Py.bind
  have e1 := h1 m
  generalize hs : setitem "date" (some now) m = s at e1 ⊢
  obtain ⟨m1, r1⟩ := s
  simp only at e1
  subst e1
  simp only
  exact Prod.ext rfl (h2 m1)

theorem inc_eq (m : Meta) : incEditingCycles m =
    if (abs m).tag "editing-cycles" = some none then (m, .error .TypeError)
    else setitem "editing-cycles"
      (some (intStr (cyclesOf ((abs m).tag "editing-cycles") + 1))) m := by
  unfold incEditingCycles
  cases h : getitem "editing-cycles" m with
  | error e =>
    have : e = .KeyError := by
      rw [getitem_eq] at h
      split at h
      · injection h with h; exact h.symm
      · split at h
        · injection h with h; exact h.symm
        · cases h
    subst this
    have ht : (abs m).tag "editing-cycles" = none := by simp only [abs, h]
    simp [ht, cyclesOf]
  | ok v =>
    have ht : (abs m).tag "editing-cycles" = some v := by simp only [abs, h]
    cases v with
    | none => simp [ht]
    | some s =>
      simp only [ht, cyclesOf]
      cases pyInt s with
      | none => simp
      | some n => simp

theorem setitem_cycles_ok (v : Option Str) (m : Meta) :
    (setitem "editing-cycles" v m).2 = .ok () := by
  unfold setitem
  have : TAGS.get "editing-cycles" = some "meta:editing-cycles" := by decide +kernel
  rw [this]; simp only; split <;> rfl

theorem save_eq (now gen : Str) (r : Except Exc Unit) (m : Meta) : save now gen r m =
    let m1 := (touch now gen m).1
    if (abs m1).tag "editing-cycles" = some none then (m1, .error .TypeError)
    else ((incEditingCycles m1).1, r) := by
  show Py.bind _ _ m = _
  unfold Py.bind
  rw [touch_eq]
  simp only
  show Py.bind _ _ _ = _
  unfold Py.bind
  by_cases hc : (abs (setitem "generator" (some gen) (setitem "date" (some now) m).1).1).tag
      "editing-cycles" = some none
  · rw [inc_eq, if_pos hc, if_pos hc]
  · rw [inc_eq, if_neg hc, if_neg hc]
    generalize hv : some (intStr _) = v
    have := setitem_cycles_ok v (setitem "generator" (some gen) (setitem "date" (some now) m).1).1
    generalize setitem "editing-cycles" v _ = s at this ⊢
    obtain ⟨m1, r1⟩ := s
    simp only at this
    subst this
    rfl

theorem abs_save {m : Meta} (hm : WF m) (now gen : Str) (r : Except Exc Unit) :
    WF (save now gen r m).1 ∧ abs (save now gen r m).1 = specStep (abs m) (.save now gen r) := by
  have h1 := abs_set hm "date" (some now)
  have h2 := abs_set h1.1 "generator" (some gen)
  have ht : abs (touch now gen m).1 =
      setTag "generator" (some gen) (setTag "date" (some now) (abs m)) := by
    rw [touch_eq]; simp only; rw [h2.2, h1.2]
  have hw : WF (touch now gen m).1 := by rw [touch_eq]; exact h2.1
  rw [save_eq]
  simp only [specStep]
  rw [← ht]
  split
  · exact ⟨hw, rfl⟩
  · rename_i hne
    rw [inc_eq, if_neg hne]
    exact abs_set hw _ _

theorem abs_statSet {m : Meta} (hm : WF m) (k : String) (n : Int) :
    WF (statSet k n m).1 ∧
    abs (statSet k n m).1 = if k ∈ TYPES then setCount k n (abs m) else abs m := by
  by_cases hk : k ∈ TYPES
  · have hs := statSet_spec hm hk n
    rw [if_pos hk]
    refine ⟨hs.1.wf, Abs.ext (fun k' => tag_frame hs.1 k' (tag_ne_special k').2.2)
      (kw_frame hs.1 (by decide)) (user_frame hs.1 (by decide)) fun k' => ?_⟩
    simp only [abs, setCount]
    unfold statGet
    rw [hs.2.1]
    by_cases hk' : k' ∈ TYPES
    · simp only [if_pos hk']
      rw [Attrs.get_set]
      by_cases he : k' = k
      · subst he
        simp [pyInt_intStr]
      · have : statKey k' ≠ statKey k := fun h => he (statKey_inj _ hk' _ hk h)
        simp only [this, he, if_false]
    · have : k' ≠ k := fun e => hk' (e ▸ hk)
      simp [hk', this]
  · rw [statSet_unknown hk, if_neg hk]; exact ⟨hm, rfl⟩

theorem abs_statUpdate {m : Meta} (hm : WF m) (d : Dict String Int) :
    WF (statUpdate d m).1 ∧ abs (statUpdate d m).1 = updateCounts d (abs m) := by
  induction d generalizing m with
  | nil => exact ⟨hm, rfl⟩
  | cons p d ih =>
    obtain ⟨k, n⟩ := p
    have hs := abs_statSet hm k n
    by_cases hk : k ∈ TYPES
    · have h3 := (statSet_spec hm hk n).2.2
      rw [if_pos hk] at hs
      have : statUpdate ((k, n) :: d) m = statUpdate d (statSet k n m).1 := by
        conv => lhs; unfold statUpdate
        split
        · rename_i he; rw [he]
        · rename_i he; rw [he] at h3; cases h3
      rw [this, updateCounts, if_pos (show k ∈ COUNTS from hk), ← hs.2]
      exact ih hs.1
    · have : statUpdate ((k, n) :: d) m = (m, .error .KeyError) := by
        unfold statUpdate; rw [statSet_unknown hk]
      rw [this, updateCounts, if_neg (show k ∉ COUNTS from hk)]
      exact ⟨hm, rfl⟩

theorem abs_step {m : Meta} (hm : WF m) (o : Op) :
    WF (step m o) ∧ abs (step m o) = specStep (abs m) o := by
  have kw : ∀ {m'}, Frame "meta:keyword" m m' →
      abs m' = { abs m with keywords := keywords m' } := fun hf =>
    Abs.ext (fun k => tag_frame hf k (tag_ne_special k).1) rfl (user_frame hf (by decide))
      (count_congr (stat_frame hm hf (by decide)))
  have us : ∀ {m'}, Frame "meta:user-defined" m m' →
      abs m' = { abs m with user := entries m' } := fun hf =>
    Abs.ext (fun k => tag_frame hf k (tag_ne_special k).2.1) (kw_frame hf (by decide)) rfl
      (count_congr (stat_frame hm hf (by decide)))
  cases o with
  | set k v => exact abs_set hm k v
  | clear => exact ⟨clear_wf m, abs_clear m⟩
  | save now gen r => exact abs_save hm now gen r
  | kwAdd k =>
    have h := kwAdd_spec hm k
    refine ⟨h.1.wf, (kw h.1).trans ?_⟩
    rw [h.2]
    simp only [specStep]
    show _ = if some k ∈ keywords m then _ else _
    split <;> rfl
  | kwRemove k =>
    have h := kwRemove_spec hm k
    exact ⟨h.1.wf, (kw h.1).trans (by rw [h.2]; rfl)⟩
  | kwClear =>
    have h := kwClear_spec hm
    exact ⟨h.1.wf, (kw h.1).trans (by rw [h.2]; rfl)⟩
  | userSet n v ty =>
    have h := userSet_spec hm n v ty
    exact ⟨h.1.wf, (us h.1).trans (by rw [h.2]; rfl)⟩
  | userDel n =>
    have h := userDel_spec hm n
    exact ⟨h.1.wf, (us h.1).trans (by rw [h.2.1]; rfl)⟩
  | userUpdate d =>
    have h := userUpdate_spec hm d
    exact ⟨h.1.wf, (us h.1).trans (by rw [h.2]; rfl)⟩
  | userClear =>
    have h := userClear_spec hm
    exact ⟨h.1.wf, (us h.1).trans (by rw [h.2]; rfl)⟩
  | statSet k n => exact abs_statSet hm k n
  | statUpdate d => exact abs_statUpdate hm d
  | statClear =>
    have h := statClear_spec hm
    refine ⟨h.1.wf, Abs.ext (fun k => tag_frame h.1 k (tag_ne_special k).2.2)
      (kw_frame h.1 (by decide)) (user_frame h.1 (by decide)) fun k => ?_⟩
    show (match statGet k (statClear m) with | .ok n => n | .error _ => 0) = 0
    unfold statGet
    rw [h.2]
    by_cases hk : k ∈ TYPES
    · rw [if_pos hk]; rfl
    · rw [if_neg hk]

theorem run_wf {m : Meta} (hm : WF m) (h : List Op) : WF (run m h) := by
  induction h generalizing m with
  | nil => exact hm
  | cons o h ih => exact ih (abs_step hm o).1

/-- All reads after any history of operations on the meta data are those of the four independent
variables. -/
theorem abs_run {m : Meta} (hm : WF m) (h : List Op) : abs (run m h) = spec (abs m) h := by
  induction h generalizing m with
  | nil => rfl
  | cons o h ih =>
    show abs (run (step m o) h) = spec (specStep (abs m) o) h
    rw [ih (abs_step hm o).1, (abs_step hm o).2]

end Verif.Meta
