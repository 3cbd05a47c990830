import Verif.Props.Base
/-! # C57: exactly when `insert` is the insert of lists -/
namespace Verif.Base
open Verif Verif.Lxml Forest
set_option linter.unusedSimpArgs false

/-- **C57**, every index before the start of the list: the element becomes the last child. -/
theorem C57_insert_left {W : World} (hn : (ids W).Nodup) {p c : Nat} {l : List Nat} {i : Int}
    (hp : children W p = some l) (hc : c ∈ ids W) (hno : ¬ Below W c p) (hi : i < -(l.length : Int)) :
    ∃ W', insert p i c W = (W', .ok c) ∧ Moved W W' c p (less c l ++ [c]) := by
  obtain ⟨W', h1, h2⟩ := insert_lemma (i := i) hn hp hc hno
  refine ⟨W', by unfold insert; rw [Py.bind_ok h1]; rfl, ?_⟩
  have : pyIdx l.length i = none := by
    unfold pyIdx
    rw [if_neg (by omega), if_neg (by omega)]
  rw [this] at h2
  exact h2

/-- **C57**, exactly: inserting an element that is not among the children gives the list that `insert` of Python lists gives
if and only if the index is not before the start, or there are no children. -/
theorem C57_insert_exact {W : World} (hn : (ids W).Nodup) {p c : Nat} {l : List Nat} {i : Int}
    (hp : children W p = some l) (hc : c ∈ ids W) (hno : ¬ Below W c p) (hl : c ∉ l) :
    children (insert p i c W).1 p = some (l.insertIdx (pyInsertPos l.length i) c) ↔ -(l.length : Int) ≤ i ∨ l = [] := by
  by_cases hi : -(l.length : Int) ≤ i
  · obtain ⟨W', h1, h2⟩ := C57_insert_partial hn hp hc hno hl hi
    rw [h1]
    exact ⟨fun _ => .inl hi, fun _ => h2.there⟩
  · obtain ⟨W', h1, h2⟩ := C57_insert_left hn hp hc hno (i := i) (by omega)
    have hx : pyInsertPos l.length i = 0 := by
      unfold pyInsertPos
      rw [if_neg (by omega)]
      omega
    have hless : less c l = l := without_not_mem hl
    rw [h1, hx]
    show children W' p = _ ↔ _
    rw [h2.there, hless]
    constructor
    · intro g
      right
      have g := Option.some.inj g
      cases l with
      | nil => rfl
      | cons a l =>
        have : a = c := by simpa using congrArg List.head? g
        exact absurd (by simp [this]) hl
    · rintro (g | rfl)
      · exact absurd g hi
      · rfl

/-- Both cases occur: a paragraph with one child and one without children. -/
example : children (insert 0 (-2) 2 (.cons ⟨0, "text:p", [], none, none⟩ (.cons ⟨1, "text:s", [], none, none⟩ .nil .nil)
      (.cons ⟨2, "text:tab", [], none, none⟩ .nil .nil))).1 0 = some [1, 2] ∧
    children (insert 0 (-2) 2 (.cons ⟨0, "text:p", [], none, none⟩ .nil
      (.cons ⟨2, "text:tab", [], none, none⟩ .nil .nil))).1 0 = some [2] := by decide

end Verif.Base
