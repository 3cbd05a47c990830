import Verif.Proofs.Manifest
/-! # C38: the manifest is a map from path to media type -/
namespace Verif.Manifest
open Verif

inductive Op where
  | add (path mediaType : Str) (version : Option Str)
  | remove (path : Str)

def Op.path : Op → Str
  | .add p _ _ => p
  | .remove p => p

def step (m : M) : Op → M
  | .add p t v => add p t v m
  | .remove p => remove p m

def run (m : M) (h : List Op) : M := h.foldl step m

/-- How often a path is listed, counted over all children. -/
def listed (p : Str) (m : M) : Nat := m.kids.countP fun e => e.get "manifest:full-path" = some p

def NoDup (m : M) : Prop := ∀ p, listed p m ≤ 1

/-- Specification: an entry of the abstract map -/
structure Entry where
  mediaType : Option Str
  version : Option Str
  deriving DecidableEq

/-- What `find` reports for a path. -/
def report (p : Str) (m : M) : Option Entry :=
  (find p m).map fun e => { mediaType := e.get "manifest:media-type", version := e.get "manifest:version" }

/-- Specification: the abstract map.  The manifest does not list itself; a version stays when
none is given. -/
def specStep (f : Str → Option Entry) : Op → (Str → Option Entry)
  | .add p t v => fun q =>
    if q = p ∧ p ≠ "META-INF/manifest.xml".toList then
      some { mediaType := some t, version := v.or ((f p).bind Entry.version) }
    else f q
  | .remove p => fun q => if q = p then none else f q

def spec (f : Str → Option Entry) (h : List Op) : Str → Option Entry := h.foldl specStep f

theorem listed_eq (p : Str) (m : M) : listed p m = (m.kids.filter (hasPath p)).length := by
  unfold listed hasPath
  rw [List.countP_eq_length_filter]

theorem mem_ignore (p : Str) : p ∈ IGNORE_LIST ↔ p = "META-INF/manifest.xml".toList := by
  simp [IGNORE_LIST]

theorem step_filter_ne (o : Op) (m : M) (q : Str) (h : o.path ≠ q) :
    (step m o).kids.filter (hasPath q) = m.kids.filter (hasPath q) := by
  cases o with
  | add p t v => exact add_other p t v m _ fun e he => hasPath_ne h he
  | remove p => exact remove_other p m _ fun e he => hasPath_ne h he

/-- C38: no operation lists a path twice. -/
theorem C38_once (m : M) (hm : NoDup m) (h : List Op) : NoDup (run m h) := by
  induction h generalizing m with
  | nil => exact hm
  | cons o h ih =>
    refine ih (step m o) fun q => ?_
    have hq := hm q
    rw [listed_eq] at hq ⊢
    by_cases hp : o.path = q
    · subst hp
      cases o with
      | remove p =>
        show ((remove p m).kids.filter (hasPath p)).length ≤ 1
        rw [remove_same]; simp; simp [Op.path] at hq; omega
      | add p t v =>
        show ((add p t v m).kids.filter (hasPath p)).length ≤ 1
        by_cases hi : p ∈ IGNORE_LIST
        · rw [show add p t v m = m by unfold add; rw [if_pos hi]]; exact hq
        · rw [add_same _ _ _ _ hi]
          simp only [Op.path] at hq
          cases hf : m.kids.filter (hasPath p) with
          | nil => simp
          | cons e r => rw [hf] at hq; simpa using hq
    · rw [step_filter_ne o m q hp]; exact hq

theorem report_congr {p : Str} {m m' : M}
    (h : m.kids.filter (hasPath p) = m'.kids.filter (hasPath p)) : report p m = report p m' := by
  unfold report; rw [find_eq, find_eq, h]

theorem report_step (m : M) (hm : NoDup m) (o : Op) (q : Str) :
    report q (step m o) = specStep (fun p => report p m) o q := by
  by_cases hp : o.path = q
  · subst hp
    cases o with
    | remove p =>
      simp only [Op.path, specStep, if_true]
      have := hm p
      rw [listed_eq] at this
      unfold report
      rw [find_eq]
      show Option.map _ ((remove p m).kids.filter (hasPath p)).head? = none
      rw [remove_same]
      cases hf : m.kids.filter (hasPath p) with
      | nil => rfl
      | cons e r =>
        rw [hf] at this
        cases r with
        | nil => rfl
        | cons _ _ => simp at this
    | add p t v =>
      simp only [Op.path, specStep, true_and]
      by_cases hi : p ∈ IGNORE_LIST
      · have hi' := (mem_ignore p).1 hi
        rw [if_neg (by simp [hi'])]
        show report p (add p t v m) = _
        rw [show add p t v m = m by unfold add; rw [if_pos hi]]
      · have hi' : p ≠ _ := fun h => hi ((mem_ignore p).2 h)
        rw [if_pos hi']
        unfold report
        rw [find_eq, find_eq]
        show Option.map _ ((add p t v m).kids.filter (hasPath p)).head? = _
        rw [add_same _ _ _ _ hi]
        cases hf : m.kids.filter (hasPath p) with
        | nil =>
          have := get_setTypeVersion t v (newEntry m.fresh p)
          have hv : (newEntry m.fresh p).get "manifest:version" = none := by
            unfold newEntry; rw [Elem.get_set]; rfl
          simp [this.1, this.2, hv]
        | cons e r =>
          have := get_setTypeVersion t v e
          simp [this.1, this.2]
  · rw [report_congr (step_filter_ne o m q hp)]
    have hp' : ¬ q = o.path := fun h => hp h.symm
    cases o <;> simp_all [specStep, Op.path]

/-- C38: after any history `find` reports what the abstract map holds. -/
theorem C38_map (m : M) (hm : NoDup m) (h : List Op) (q : Str) :
    report q (run m h) = spec (fun p => report p m) h q := by
  induction h generalizing m with
  | nil => rfl
  | cons o h ih =>
    show report q (run (step m o) h) = spec (specStep (fun p => report p m) o) h q
    rw [ih (step m o) (C38_once m hm [o])]
    congr 1
    funext p
    exact report_step m hm o p

theorem report_run_other (m : M) (h : List Op) (q : Str) (hq : ∀ o ∈ h, o.path ≠ q) :
    (run m h).kids.filter (hasPath q) = m.kids.filter (hasPath q) := by
  induction h generalizing m with
  | nil => rfl
  | cons o h ih =>
    show (run (step m o) h).kids.filter (hasPath q) = _
    rw [ih (step m o) fun o' ho' => hq o' (List.mem_cons_of_mem _ ho')]
    exact step_filter_ne o m q (hq o List.mem_cons_self)

/-- C38: `find` reports the media type of the last `add`, when no `remove` of that path follows. -/
theorem C38_last_add (m : M) (h h' : List Op) (p t : Str) (v : Option Str)
    (hp : p ≠ "META-INF/manifest.xml".toList) (hl : ∀ o ∈ h', o.path ≠ p) :
    (report p (run m (h ++ .add p t v :: h'))).map Entry.mediaType = some (some t) := by
  have : run m (h ++ .add p t v :: h') = run (add p t v (run m h)) h' := by
    simp [run, List.foldl_append, step]
  rw [this, report_congr (report_run_other _ _ _ hl)]
  unfold report
  rw [find_eq, add_same _ _ _ _ fun hi => hp ((mem_ignore p).1 hi)]
  split <;> simp [get_setTypeVersion]

/-- C38: after the last operation on a path was a `remove`, the path is not listed. -/
theorem C38_last_remove (m : M) (hm : NoDup m) (h h' : List Op) (p : Str)
    (hl : ∀ o ∈ h', o.path ≠ p) :
    listed p (run m (h ++ .remove p :: h')) = 0 := by
  have : run m (h ++ .remove p :: h') = run (remove p (run m h)) h' := by
    simp [run, List.foldl_append, step]
  rw [this, listed_eq, report_run_other _ _ _ hl, remove_same]
  have := C38_once m hm h p
  rw [listed_eq] at this
  simp; omega

/-- C38: the operations on one path leave all other children as they are and in their order. -/
theorem C38_others (m : M) (p : Str) (h : List Op) (hp : ∀ o ∈ h, o.path = p) :
    (run m h).kids.filter (fun e => e.get "manifest:full-path" ≠ some p) =
      m.kids.filter (fun e => e.get "manifest:full-path" ≠ some p) := by
  induction h generalizing m with
  | nil => rfl
  | cons o h ih =>
    show (run (step m o) h).kids.filter _ = _
    rw [ih (step m o) fun o' ho' => hp o' (List.mem_cons_of_mem _ ho')]
    have ho := hp o List.mem_cons_self
    have hg : ∀ e, hasPath p e = true →
        (decide (e.get "manifest:full-path" ≠ some p)) = false := by
      intro e he; unfold hasPath at he; simpa using he
    cases o with
    | add p' t v => simp only [Op.path] at ho; subst ho; exact add_other _ t v m _ hg
    | remove p' => simp only [Op.path] at ho; subst ho; exact remove_other _ m _ hg

/-- C38: `add` never lists the manifest itself. -/
theorem C38_itself (m : M) (h : List Op) (hm : listed "META-INF/manifest.xml".toList m = 0) :
    listed "META-INF/manifest.xml".toList (run m h) = 0 := by
  induction h generalizing m with
  | nil => exact hm
  | cons o h ih =>
    refine ih (step m o) ?_
    rw [listed_eq] at hm ⊢
    by_cases hp : o.path = "META-INF/manifest.xml".toList
    · cases o with
      | add p t v =>
        simp only [Op.path] at hp
        show ((add p t v m).kids.filter _).length = 0
        rw [show add p t v m = m by unfold add; rw [if_pos ((mem_ignore p).2 hp)]]; exact hm
      | remove p =>
        simp only [Op.path] at hp
        show ((remove p m).kids.filter _).length = 0
        rw [← hp] at hm ⊢
        rw [remove_same]; simp; omega
    · rw [step_filter_ne o m _ hp]; exact hm

/-! ## Examples -/

/-- A stored manifest with a version, and an unrelated child. -/
def stored : M :=
  { kids := [{ id := 0, tag := "manifest:file-entry",
               attrs := [("manifest:full-path", "/".toList), ("manifest:media-type", "a".toList),
                 ("manifest:version", "1.2".toList)] },
      { id := 1, tag := "x:other" }]
    fresh := 2 }

theorem nodup_of_decide (m : M)
    (h : (m.kids.filterMap fun e => e.get "manifest:full-path").Nodup) : NoDup m := by
  intro p
  obtain ⟨l, n⟩ := m
  unfold listed
  simp only at h ⊢
  induction l with
  | nil => simp
  | cons e r ih =>
    rw [List.countP_cons]
    cases hg : e.get "manifest:full-path" with
    | none =>
      have h : (r.filterMap fun e => e.get "manifest:full-path").Nodup := by
        rw [List.filterMap_cons, hg] at h; exact h
      simpa using ih h
    | some q =>
      rw [List.filterMap_cons, hg] at h
      by_cases hq : q = p
      · subst hq
        have : r.countP (fun e => decide (e.get "manifest:full-path" = some q)) = 0 := by
          rw [List.countP_eq_zero]
          intro e' he' hc
          simp at hc
          exact (List.nodup_cons.1 h).1 (List.mem_filterMap.2 ⟨e', he', hc⟩)
        simp [this]
      · simpa [hq] using ih (List.nodup_cons.1 h).2

example : NoDup stored := nodup_of_decide _ (by decide +kernel)

example : let h := [Op.add "b".toList "t1".toList none, .add "/".toList "t2".toList none, .remove "c".toList,
      .add "META-INF/manifest.xml".toList "t3".toList none, .add "b".toList "t4".toList (some "7".toList)]
    report "/".toList (run stored h) = some { mediaType := some "t2".toList, version := some "1.2".toList } ∧
    report "b".toList (run stored h) = some { mediaType := some "t4".toList, version := some "7".toList } ∧
    report "META-INF/manifest.xml".toList (run stored h) = none ∧
    ((run stored h).kids.map Elem.id) = [0, 1, 2] := by decide +kernel

example : listed "META-INF/manifest.xml".toList stored = 0 ∧ listed "/".toList stored = 1 := by
  decide +kernel

end Verif.Manifest
