import Verif.Model.Py
/-! # Python dictionaries

Association lists in insertion order; part of the trusted base like `Model/Py.lean`. -/
namespace Verif

abbrev Dict (κ α : Type) := List (κ × α)

namespace Dict
variable {κ α : Type} [DecidableEq κ]

/-- `d[k]`, `none` for a KeyError -/
def get (d : Dict κ α) (k : κ) : Option α :=
  match d with
  | [] => none
  | (k', v) :: r => if k' = k then some v else get r k

/-- `d[k] = v`: an existing key keeps its place. -/
def set (d : Dict κ α) (k : κ) (v : α) : Dict κ α :=
  match d with
  | [] => [(k, v)]
  | (k', v') :: r => if k' = k then (k, v) :: r else (k', v') :: set r k v

/-- `del d[k]` of an existing key -/
def del (d : Dict κ α) (k : κ) : Dict κ α := d.filter fun p => p.1 ≠ k

/-- `d.update(e)` -/
def update (d e : Dict κ α) : Dict κ α := e.foldl (fun d p => set d p.1 p.2) d

/-- `dict(l)` for a list of pairs -/
def ofPairs (l : List (κ × α)) : Dict κ α := update [] l

def keys (d : Dict κ α) : List κ := d.map Prod.fst
def values (d : Dict κ α) : List α := d.map Prod.snd

end Dict
end Verif
