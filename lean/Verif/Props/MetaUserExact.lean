import Verif.Props.MetaUser
/-! # C46: exactly when the user tags are a dictionary; C47: exactly when the statistics can be iterated -/
namespace Verif.Meta
open Verif
set_option linter.unusedSimpArgs false

theorem cnt_erase (n : Str) (l : List UEntry) : cnt n (l.eraseP fun e => some n = e.1) = cnt n l - 1 := by
  unfold cnt
  induction l with
  | nil => rfl
  | cons e r ih =>
    by_cases he : some n = e.1
    · rw [List.eraseP_cons_of_pos (by simpa using he), List.countP_cons, if_pos (by simpa using he.symm)]
      omega
    · have he' : ¬ e.1 = some n := fun h => he h.symm
      rw [List.eraseP_cons_of_neg (by simpa using he), List.countP_cons, List.countP_cons, ih]
      simp [he']

theorem look_some {l : List UEntry} {n : Str} (h : cnt n l ≠ 0) : look l n ≠ none := by
  intro hl
  apply h
  unfold look at hl
  rw [Option.map_eq_none_iff, List.find?_eq_none] at hl
  unfold cnt
  rw [List.countP_eq_zero]
  intro e he hc
  exact hl e he (by simpa using (of_decide_eq_true hc).symm)

/-- **C46**, deletion in any document: the number of entries with the name goes down by one, so the name is gone exactly if
it was stored at most once. -/
theorem C46_delete (m : Meta) (hm : WF m) (n : Str) :
    (userIter (run m [.userDel n])).countP (fun e => e.1 = some n) = (userIter m).countP (fun e => e.1 = some n) - 1 ∧
    (reads (run m [.userDel n]) n = none ↔ (userIter m).countP (fun e => e.1 = some n) ≤ 1) := by
  have ha : entries (run m [.userDel n]) = (entries m).eraseP fun e => some n = e.1 :=
    congrArg Abs.user (abs_run hm [.userDel n])
  rw [cnt_eq, cnt_eq, reads_eq, ha, cnt_erase]
  refine ⟨rfl, fun h => ?_, fun h => look_none (by rw [cnt_erase]; omega)⟩
  refine Classical.byContradiction fun hc => ?_
  exact look_some (by rw [cnt_erase]; omega) h

/-- **C46**, exactly: the user tags of a document behave as a dictionary in all histories if and only if the document stores
no name twice. -/
theorem C46_exact (m : Meta) (hm : WF m) :
    (∀ h, reads (run m h) = h.foldl uSpec (reads m)) ↔ NoDupNames m := by
  refine ⟨fun g n => (C46_delete m hm n).2.mp ?_, fun hn h => (C46_history_partial m hm hn h).1⟩
  rw [g [.userDel n]]
  simp [uSpec]

/-- A document that stores the name `a` twice and `b` once: deleting `b` works, deleting `a` leaves one. -/
def twiceStored : Meta := load { id := 0, tag := "office:meta" }
  [({ id := 1, tag := "meta:user-defined", attrs := [("meta:name", "a".toList)], text := some "x".toList }, .nil),
   ({ id := 2, tag := "meta:user-defined", attrs := [("meta:name", "a".toList)], text := some "y".toList }, .nil),
   ({ id := 3, tag := "meta:user-defined", attrs := [("meta:name", "b".toList)], text := some "z".toList }, .nil)] 4

example : WF twiceStored ∧ reads (run twiceStored [.userDel "b".toList]) "b".toList = none ∧
    ¬ ∀ h, reads (run twiceStored h) = h.foldl uSpec (reads twiceStored) := by
  have hw : WF twiceStored := load_wf _ _ _ (by decide) (by decide)
  refine ⟨hw, (C46_delete _ hw _).2.mpr (by decide +kernel), fun g => ?_⟩
  exact absurd ((C46_exact _ hw).mp g "a".toList) (by decide +kernel)

/-- **C47**, iteration in any document: it yields the stored entries, one for one and in their order, exactly if all stored
values are numbers, and raises ValueError otherwise. -/
theorem C47_iter_exact (m : Meta) :
    ((∃ l, statIter m = .ok l) ↔ ∀ p ∈ statAttrs m, pyInt p.2 ≠ none) ∧
    (∀ e, statIter m = .error e → e = .ValueError) ∧
    ∀ l, statIter m = .ok l → l.map (fun q => some q.2) = (statAttrs m).map fun p => pyInt p.2 := by
  unfold statIter
  generalize statAttrs m = a
  induction a with
  | nil => exact ⟨⟨fun _ p hp => (nomatch hp), fun _ => ⟨[], rfl⟩⟩, fun e h => (nomatch h), fun l h => by cases h; rfl⟩
  | cons p a ih =>
    obtain ⟨i1, i2, i3⟩ := ih
    rw [List.mapM_cons]
    cases hp : pyInt p.2 with
    | none =>
      refine ⟨⟨fun ⟨l, h⟩ => (nomatch h), fun h => absurd hp (h p (by simp))⟩, fun e h => ?_, fun l h => (nomatch h)⟩
      cases h; rfl
    | some n =>
      cases hm : a.mapM (fun p => match pyInt p.2 with
          | none => (.error .ValueError : Except Exc (Str × Int))
          | some n => .ok (statName p.1, n)) with
      | error e =>
        refine ⟨⟨fun ⟨l, h⟩ => (nomatch h), fun h => ?_⟩, fun e' h => ?_, fun l h => (nomatch h)⟩
        · obtain ⟨l, hl⟩ := i1.mpr fun q hq => h q (by simp [hq])
          exact absurd (hl.symm.trans hm) (by simp)
        · cases h; exact i2 e hm
      | ok r =>
        refine ⟨⟨fun _ q hq => ?_, fun _ => ⟨_, rfl⟩⟩, fun e h => (nomatch h), fun l h => ?_⟩
        · rcases List.mem_cons.mp hq with rfl | hq
          · rw [hp]; simp
          · exact i1.mp ⟨r, hm⟩ q hq
        · cases h
          simp [i3 r hm, hp]

/-- A document with stored statistics -/
def counted (a : Attrs) : Meta := load { id := 0, tag := "office:meta" }
  [({ id := 1, tag := "meta:document-statistic", attrs := a }, .nil)] 2

/-- A page count alone, and beside a count that is no number. -/
example : statIter (counted [("meta:page-count", "3".toList)]) = .ok [("page".toList, 3)] ∧
    statIter (counted [("meta:page-count", "3".toList), ("meta:cell-count", "x".toList)]) = .error .ValueError := by
  decide +kernel

end Verif.Meta
