import Verif.Proofs.TableHist
/-! Connection of the model's selections with the specification vocabulary. -/
set_option linter.unusedSimpArgs false
namespace Verif.Tbl
open Verif Verif.Forest Verif.Cells Verif.TSpec

theorem sel_nodes (p : Elem → Bool) (F : Forest) : sel p F = (nodes F).filter fun t => p t.1 := by
  induction F with
  | nil => rfl
  | cons e k r ihk ihr =>
    simp only [sel, nodes, List.filter_cons, List.filter_append, ihk, ihr]
    split <;> rfl

theorem rowsOf_doc (s : TState) : rowsOf s = docRows s.kids := sel_nodes _ _
theorem colsOf_doc (s : TState) : colsOf s = docCols s.kids := sel_nodes _ _

theorem skel_others (F : Forest) : skel F = others F := by
  induction F with
  | nil => rfl
  | cons e k r ihk ihr =>
    have : isRC e = true ↔ (e.tag = "table:table-row" ∨ e.tag = "table:table-column") := by
      unfold isRC isRow isCol rowTag colTag
      rw [Bool.or_eq_true, decide_eq_true_eq, decide_eq_true_eq]
    simp only [skel, others, ihk, ihr]
    by_cases h : isRC e = true
    · rw [if_pos h, if_pos (this.mp h)]
    · rw [if_neg h, if_neg (fun g => h (this.mpr g))]

theorem pyIdx_denotes {n : Nat} {i : Int} {p : Nat} : pyIdx n i = some p ↔ Denotes n i p := by
  unfold pyIdx Denotes
  constructor
  · intro h
    split at h <;> split at h <;> simp at h <;> omega
  · rintro ⟨h1, h2 | h2⟩
    · subst h2; rw [if_pos (by omega), if_pos (by simpa using h1)]; simp
    · rw [if_neg (by omega), if_pos (by omega)]; congr 1; omega

theorem pyIdx_none {n : Nat} {i : Int} : pyIdx n i = none ↔ ¬ ∃ p, Denotes n i p := by
  rw [← not_iff_not]
  simp only [not_not, ← pyIdx_denotes]
  constructor
  · intro h; cases hp : pyIdx n i with
    | none => exact absurd hp h
    | some p => exact ⟨p, rfl⟩
  · rintro ⟨p, hp⟩; rw [hp]; simp

theorem adjust_denotes {n : Nat} {i : Int} {p : Nat} (h : Denotes n i p) :
    (if i < 0 then i + n else i) = (p : Int) := by
  obtain ⟨h1, h2 | h2⟩ := h
  · rw [if_neg (by omega), h2]
  · rw [if_pos (by omega)]; omega

theorem denotes_iff_range {n : Nat} {i : Int} : (∃ p, Denotes n i p) ↔ -(n : Int) ≤ i ∧ i < n := by
  constructor
  · rintro ⟨p, h1, h2 | h2⟩ <;> omega
  · intro h
    by_cases h0 : 0 ≤ i
    · exact ⟨i.toNat, by omega, .inl (by omega)⟩
    · exact ⟨(i + n).toNat, by omega, .inr (by omega)⟩

end Verif.Tbl
