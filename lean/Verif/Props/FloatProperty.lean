import Verif.Model.FloatProperty
import Verif.Props.Cells
/-! # C55: float properties -/
namespace Verif.Mixins
open Verif

variable {L : Cells.FloatLib}

/-- **C55**: a float or integer written to a float property reads back as the float; a text reads back as the number that it
denotes, and reading raises ValueError if it denotes none; no other attribute and nothing else of the element changes.  After
deletion the property reads None and the rest of the element is as before, and deleting a property that is not there is a
KeyError without effect. -/
theorem C55_float (hL : L.Lawful) (name : String) (v : Cells.Val L) (e : Elem) :
    (∀ x, v = .float x → floatGet L name (floatSet L name v e) = .ok (some x)) ∧
    (∀ i, v = .int i → floatGet L name (floatSet L name v e) = .ok (some (hL.ofInt i))) ∧
    (∀ s, v = .str s → floatGet L name (floatSet L name v e) =
      match L.parse s with
      | some x => .ok (some x)
      | none => .error .ValueError) ∧
    (∀ k, k ≠ name → (floatSet L name v e).get k = e.get k) ∧
    ({ floatSet L name v e with attrs := e.attrs } : Elem) = e ∧
    floatGet L name (floatDel name e).1 = .ok none ∧
    ((floatDel name e).2 = if e.get name = none then .error .KeyError else .ok ()) ∧
    (∀ k, k ≠ name → (floatDel name e).1.get k = e.get k) ∧
    ({ (floatDel name e).1 with attrs := e.attrs } : Elem) = e ∧ (e.get name = none → (floatDel name e).1 = e) := by
  have hself : (floatSet L name v e).get name = some (Cells.tostr L v) := Elem.get_set_self e name _
  refine ⟨?_, ?_, ?_, fun k hk => by unfold floatSet; rw [Elem.get_set, if_neg hk], rfl, ?_, ?_, ?_, ?_, ?_⟩
  · rintro x rfl
    unfold floatGet
    rw [hself]
    simp only [Cells.tostr, hL.parse_repr]
  · rintro i rfl
    unfold floatGet
    rw [hself]
    simp only [Cells.tostr, hL.parse_int]
  · rintro s rfl
    unfold floatGet
    rw [hself]
    simp only [Cells.tostr]
    cases L.parse s <;> rfl
  · unfold floatDel
    cases h : e.get name with
    | none => dsimp only; unfold floatGet; rw [h]
    | some s => dsimp only; unfold floatGet; rw [Elem.get_del, if_pos rfl]
  · unfold floatDel
    cases e.get name <;> rfl
  · intro k hk
    unfold floatDel
    cases h : e.get name with
    | none => rfl
    | some s => dsimp only; rw [Elem.get_del, if_neg hk]
  · unfold floatDel
    cases e.get name <;> rfl
  · intro h
    unfold floatDel
    rw [h]

example : floatGet Cells.intLib "a" (floatSet Cells.intLib "a" (.int 7) ⟨0, "t", [("b", [])], none, none⟩) = .ok (some (7 : Int)) := by
  rfl

end Verif.Mixins
