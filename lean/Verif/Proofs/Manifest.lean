import Verif.Model.Manifest
import Verif.Proofs.Xml
/-! Lemmas about the manifest. -/
namespace Verif.Manifest
open Verif
set_option linter.unusedSimpArgs false

theorem find_eq (p : Str) (m : M) : find p m = (m.kids.filter (hasPath p)).head? := by
  unfold find; rw [List.head?_filter]

theorem hasPath_ne {p q : Str} (h : p ≠ q) {e : Elem} (he : hasPath p e = true) :
    hasPath q e = false := by
  unfold hasPath at *
  simp at he ⊢
  rw [he]; intro h'; exact h (Option.some.inj h')

theorem hasPath_set (p t : Str) (v : Option Str) (e : Elem) :
    hasPath p (setTypeVersion t v e) = hasPath p e := by
  unfold hasPath setTypeVersion
  cases v <;> simp [Elem.get_set]

theorem hasPath_new (p q : Str) (i : Nat) : hasPath p (newEntry i q) = decide (q = p) := by
  unfold hasPath newEntry
  simp [Elem.get_set]

theorem editFirst_same (p : Str) (f : Elem → Elem) (l : List Elem)
    (hf : ∀ e, hasPath p (f e) = hasPath p e) :
    (editFirst p f l).filter (hasPath p) =
      match l.filter (hasPath p) with
      | [] => []
      | e :: r => f e :: r := by
  induction l with
  | nil => rfl
  | cons e r ih =>
    unfold editFirst
    cases h : hasPath p e
    · simp [h, List.filter_cons, ih]
    · simp [List.filter_cons, hf, h]

theorem removeFirst_same (p : Str) (l : List Elem) :
    (removeFirst p l).filter (hasPath p) = (l.filter (hasPath p)).tail := by
  induction l with
  | nil => rfl
  | cons e r ih =>
    unfold removeFirst
    cases h : hasPath p e
    · simp [h, List.filter_cons, ih]
    · simp [List.filter_cons, h]

/-- Anything that does not select entries with the path sees no change. -/
theorem editFirst_other (p : Str) (f : Elem → Elem) (l : List Elem) (g : Elem → Bool)
    (hg : ∀ e, hasPath p e = true → g e = false ∧ g (f e) = false) :
    (editFirst p f l).filter g = l.filter g := by
  induction l with
  | nil => rfl
  | cons e r ih =>
    unfold editFirst
    cases h : hasPath p e
    · simp [List.filter_cons, ih]
    · simp [List.filter_cons, hg e h]

theorem removeFirst_other (p : Str) (l : List Elem) (g : Elem → Bool)
    (hg : ∀ e, hasPath p e = true → g e = false) :
    (removeFirst p l).filter g = l.filter g := by
  induction l with
  | nil => rfl
  | cons e r ih =>
    unfold removeFirst
    cases h : hasPath p e
    · simp [List.filter_cons, ih]
    · simp [List.filter_cons, hg e h]

theorem add_other (p t : Str) (v : Option Str) (m : M) (g : Elem → Bool)
    (hg : ∀ e, hasPath p e = true → g e = false) :
    (add p t v m).kids.filter g = m.kids.filter g := by
  unfold add
  split
  · rfl
  · split
    · have : g (setTypeVersion t v (newEntry m.fresh p)) = false :=
        hg _ (by rw [hasPath_set, hasPath_new]; simp)
      simp [this]
    · exact editFirst_other _ _ _ _ fun e he => ⟨hg e he, hg _ (by rw [hasPath_set, he])⟩

theorem remove_other (p : Str) (m : M) (g : Elem → Bool)
    (hg : ∀ e, hasPath p e = true → g e = false) :
    (remove p m).kids.filter g = m.kids.filter g := by
  unfold remove
  split
  · rfl
  · exact removeFirst_other _ _ _ hg

theorem add_same (p t : Str) (v : Option Str) (m : M) (h : p ∉ IGNORE_LIST) :
    (add p t v m).kids.filter (hasPath p) =
      match m.kids.filter (hasPath p) with
      | [] => [setTypeVersion t v (newEntry m.fresh p)]
      | e :: r => setTypeVersion t v e :: r := by
  unfold add
  rw [if_neg h, find_eq]
  cases hf : m.kids.filter (hasPath p) with
  | nil => simp [hf, hasPath_set, hasPath_new, List.filter_cons]
  | cons e r =>
    simp only [List.head?_cons]
    rw [editFirst_same _ _ _ (hasPath_set p t v), hf]

theorem remove_same (p : Str) (m : M) :
    (remove p m).kids.filter (hasPath p) = (m.kids.filter (hasPath p)).tail := by
  unfold remove
  rw [find_eq]
  cases hf : m.kids.filter (hasPath p) with
  | nil => simp [hf]
  | cons e r =>
    simp only [List.head?_cons]
    rw [removeFirst_same, hf]

theorem get_setTypeVersion (t : Str) (v : Option Str) (e : Elem) :
    (setTypeVersion t v e).get "manifest:media-type" = some t ∧
    (setTypeVersion t v e).get "manifest:version" = v.or (e.get "manifest:version") := by
  unfold setTypeVersion
  cases v <;> simp [Elem.get_set]

end Verif.Manifest
