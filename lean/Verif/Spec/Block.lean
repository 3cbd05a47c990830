/-!
# Specification: ordered blocks of children

`OrderedBlock tags xs`: all elements have a tag from the list, in non-decreasing declared order.
-/
namespace Verif.Block
variable {α τ : Type} [DecidableEq τ]

def OrderedBlock (tag : α → τ) (tags : List τ) (xs : List α) : Prop :=
  (∀ x ∈ xs, tag x ∈ tags) ∧
  xs.Pairwise fun x y => tags.idxOf (tag x) ≤ tags.idxOf (tag y)

end Verif.Block
