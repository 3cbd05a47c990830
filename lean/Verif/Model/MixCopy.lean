import Verif.Model.Mix
import Verif.Model.TableCopy
/-!
# Copies of tables in programs

`Table.copy` for the programs of `Model/Mix.lean`.
-/
namespace Verif.Mix
open Verif Verif.Lxml Verif.Whole Verif.Tbl
open Verif.Program (TableObj tableState)

/-- The program after a table object with the state `S` has been made, whose element is in no other one -/
def withTable (p : Prog) (S : TState) : Prog :=
  { text := ⟨{ p.text.session with world := p.world ++ Forest.single (S.node, S.kids) }, p.text.objs ++ [S.node.id]⟩,
    tables := p.tables ++ [⟨S.node.id, S.rows, S.cols⟩] }

/-- `t.copy(newname)`, table.py:101-106, for the `i`-th table object: the copy is a new object.  A program has no other
objects than those that were made (NameError). -/
def copy (strategy : String) (mx : Int × Int) (i : Nat) (newname : Option Str) : Py Prog Unit := fun p =>
  match p.tables[i]? with
  | none => (p, .error .NameError)
  | some o => match p.world.find o.node with
    | none => (p, .error .NameError)
    | some t => match copyTable strategy mx newname (tableState p.world o t) with
      | .error e => (p, .error e)
      | .ok c => (withTable p c, .ok ())

/-- Statements of a program that also copies tables -/
inductive CopyAct (F : Cells.FloatLib)
  | act (a : Act F)
  | copy (i : Nat) (newname : Option Str)

/-- A statement, with its result given up -/
def execCopy {F : Cells.FloatLib} (strategy : String) (mx : Int × Int) : CopyAct F → Py Prog Unit
  | .act a => exec strategy mx a
  | .copy i newname => copy strategy mx i newname

end Verif.Mix
