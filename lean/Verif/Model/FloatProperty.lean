import Verif.Model.Cells
/-! # Model of `FloatProperty` in `propertymixins.py`

The factory is part of the module; no class of the library uses it. -/
namespace Verif.Mixins
open Verif

/-- `FloatProperty` getter, propertymixins.py:34-39; `none` is None -/
def floatGet (L : Cells.FloatLib) (name : String) (e : Elem) : Except Exc (Option L.Fl) :=
  match e.get name with
  | none => .ok none
  | some s => match L.parse s with
    | none => .error .ValueError
    | some x => .ok (some x)

/-- `FloatProperty` setter, propertymixins.py:40-41: any value is accepted and written as text. -/
def floatSet (L : Cells.FloatLib) (name : String) (v : Cells.Val L) (e : Elem) : Elem := e.set name (Cells.tostr L v)

/-- `FloatProperty` deleter, propertymixins.py:42-43 -/
def floatDel (name : String) : Py Elem Unit := fun e =>
  match e.get name with
  | none => (e, .error .KeyError)
  | some _ => (e.del name, .ok ())

end Verif.Mixins
