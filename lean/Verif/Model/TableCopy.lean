import Verif.Model.Normalizer
/-! # Model of `Table.copy` -/
namespace Verif.Tbl
open Verif Verif.Cells

/-- `copy.deepcopy(self.xmlnode)`, table.py:102: same content, identities from the supply. -/
def cloneTable (s : TState) : TState :=
  let c := Forest.clone (s.fresh + 1) s.kids
  stored { s.node with id := s.fresh } c.1 c.2

/-- `Table.copy(newname)`, table.py:101-106, with the configured expand strategy: the state of the
new table object.  `'CopyOf' + None` is a TypeError. -/
def copyTable (strategy : String) (maxcount : Int × Int) (newname : Option Str) (s : TState) :
    Except Exc TState :=
  match load strategy maxcount (cloneTable s) with
  | (_, .error e) => .error e
  | (c, .ok _) =>
    let n : Except Exc Str := match newname with
      | some n => .ok n
      | none => match name s with
        | some n => .ok ("CopyOf".toList ++ n)
        | none => .error .TypeError
    match n with
    | .error e => .error e
    | .ok n => match setName (some n) c with
      | (_, .error e) => .error e
      | (c', .ok _) => .ok c'

end Verif.Tbl
