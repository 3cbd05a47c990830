import Verif.Spec.Table
/-! # Specification vocabulary for cell spans -/
namespace Verif.TSpec
open Verif

/-- Row `i`, column `j` lies in the rectangle of `size` with upper left corner `pos`. -/
def InRect (pos size : Int × Int) (i j : Nat) : Prop :=
  (pos.1 ≤ i ∧ (i : Int) < pos.1 + size.1) ∧ (pos.2 ≤ j ∧ (j : Int) < pos.2 + size.2)

instance (pos size i j) : Decidable (InRect pos size i j) := by unfold InRect; infer_instance

/-- The cell is a covered cell. -/
def IsCovered (t : Tree) : Prop := t.1.tag = "table:covered-table-cell"

instance (t) : Decidable (IsCovered t) := by unfold IsCovered; infer_instance

/-- Attributes a covered cell must not have. -/
def spanAttrs : List String := ["table:number-rows-spanned", "table:number-columns-spanned",
  "table:number-matrix-columns-spanned", "table:number-matrix-rows-spanned"]

/-- Same element with the same content and attributes, up to its tag and the attributes `ks`. -/
structure Kept (ks : List String) (t t' : Tree) : Prop where
  id : t'.1.id = t.1.id
  text : t'.1.text = t.1.text
  tail : t'.1.tail = t.1.tail
  kids : t'.2 = t.2
  attrs : ∀ k, k ∉ ks → t'.1.get k = t.1.get k

end Verif.TSpec
