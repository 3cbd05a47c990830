import Verif.Model.Whole
/-!
# Variables and user fields of a document

This joins the model of `variables.py` (`Model/Variables.lean`) with that of whole documents (`Model/Whole.lean`): the
containers `doc.body.variables` and `doc.body.userfields`.
-/
namespace Verif.VarProg
open Verif Verif.Lxml Verif.Whole Verif.Vars

/-- The two containers of a body, body.py:21-24 -/
inductive Which
  | variables
  | userfields
  deriving DecidableEq

/-- `SimpleVariables.TAG` and `UserFields.TAG`, variables.py:44, 49 -/
def Which.tag : Which → String
  | .variables => "text:variable-decls"
  | .userfields => "text:user-field-decls"

/-- The dictionary that the container has made, variables.py:20-22 -/
def Which.dict : Which → Parts.BodyObj → Dict (Option Str) Variable
  | .variables => fun b => b.vars
  | .userfields => fun b => b.fields

/-- The class of the object of a declaration: found by its tag, xmlns.py:84-95 with variables.py:88-90, 119-121 -/
def isField (W : World) (v : Variable) : Bool :=
  match W.find v.node with
  | some t => t.1.tag = "text:user-field-decl"
  | none => false

/-- The node of the container: the first child of the body with the tag (`subelement`, body.py:21-24).  The body always has
one, so that the exception does not occur. -/
def container (w : Which) (b : Parts.BodyObj) : Py World Nat := do
  let c ← Base.find b.node w.tag
  match c with
  | some c => return c
  | none => .raise .AttributeError

variable {F : Cells.FloatLib}

/-- `doc.body.variables[k] = x` and `doc.body.userfields[k] = x`, variables.py:34-38 -/
def assign (w : Which) (k : Str) (x : Val F) : Py Session Unit := fun s =>
  let r := (do
    let c ← container w s.tree.body
    setitem c (w.dict s.tree.body) (isField s.world) k x : Py World Unit) s.world
  ({ s with world := r.1 }, r.2)

/-- The `value` of an object, by its class, variables.py:93-99, 123-134 -/
def valueOf (F : Cells.FloatLib) (v : Variable) : Py World (Out F) := fun W =>
  if isField W v then fieldValue F v W else simpleValue F v W

/-- `doc.body.variables[k].value` and `doc.body.userfields[k].value`, variables.py:28-32.  A key without variable goes to
`get_child`; the object made for the child reads its name, variables.py:55-57. -/
def read (F : Cells.FloatLib) (w : Which) (k : Str) : Py Session (Out F) := fun s =>
  let r := (do
    match (w.dict s.tree.body).get (some k) with
    | some v => valueOf F v
    | none => do
      let c ← container w s.tree.body
      let n ← getitem c (w.dict s.tree.body) (.str k)
      let e ← elem n
      valueOf F ⟨n, e.get "text:name"⟩ : Py World (Out F)) s.world
  ({ s with world := r.1 }, r.2)

end Verif.VarProg
