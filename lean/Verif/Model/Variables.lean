import Verif.Model.Base
import Verif.Model.Cells
import Verif.Model.Dict
/-!
# Model of `ezodf/variables.py`

Nodes are changed in place (`amend`).  Strings given as text or attribute values are XML text.
-/
namespace Verif.Forest

/-- All elements changed by `g`, structure kept. -/
def map (g : Elem → Elem) : Forest → Forest
  | nil => nil
  | cons e k r => cons (g e) (map g k) (map g r)

end Verif.Forest
namespace Verif.Vars
open Verif Verif.Lxml Verif.Cells

variable (L : FloatLib)

/-- Values that are assigned. -/
inductive Val
  | bool (b : Bool)
  | int (i : Int)
  | float (x : L.Fl)
  | str (s : Str)

/-- Values that are read; `none` is `None`. -/
inductive Out
  | none
  | float (x : L.Fl)
  | bool (b : Bool)
  | str (s : Str)

variable {L}

/-- `tostr(v)` is `str(v)`, compatibility.py:20. -/
def tostr : Val L → Str
  | .bool true => "True".toList
  | .bool false => "False".toList
  | .int i => intStr i
  | .float x => L.repr x
  | .str s => s

/-- `bool(v)` -/
def truth : Val L → Bool
  | .bool b => b
  | .int i => i ≠ 0
  | .float x => L.truth x
  | .str s => !s.isEmpty

/-- The type names chosen by the `if` chains variables.py:111-116, 146-154, 181-186. -/
def typeName : Val L → Str
  | .bool _ => "boolean".toList
  | .int _ => "float".toList
  | .float _ => "float".toList
  | .str _ => "string".toList

/-- The element of a node. -/
def elem (n : Nat) : Py World Elem := fun W =>
  match W.find n with
  | none => (W, .error .TypeError)
  | some t => (W, .ok t.1)

/-- A node is changed in place. -/
def amend (n : Nat) (f : Elem → Elem) : Py World Unit := fun W =>
  (W.map fun e => if e.id = n then f e else e, .ok ())

/-- `GenericWrapper.get_attr(key, default)`, base.py:106-111 -/
def getAttr (n : Nat) (k : String) (default : Option Str) : Py World (Option Str) := do
  let e ← elem n
  match e.get k with
  | none => return default
  | some v => return some v

/-- `GenericWrapper.get_bool_attr`, base.py:113-118 -/
def getBoolAttr (n : Nat) (k : String) : Py World Bool := do
  let e ← elem n
  match e.get k with
  | none => return false
  | some v => return (if v.isEmpty then false else v = "true".toList)

/-- `GenericWrapper.set_attr(key, value)`, base.py:120-125 -/
def setAttr (n : Nat) (k : String) (v : Val L) : Py World Unit :=
  if truth v then amend n fun e => e.set k (tostr v) else .raise .ValueError

/-- `GenericWrapper.set_bool_attr(key, value)`, base.py:127-128 -/
def setBoolAttr (n : Nat) (k : String) (b : Bool) : Py World Unit :=
  amend n fun e => e.set k (if b then "true".toList else "false".toList)

/-! ## Instances -/

/-- `float(text)`; `float(None)` is a TypeError. -/
def pyFloat (L : FloatLib) : Option Str → Py World (Out L)
  | none => .raise .TypeError
  | some s =>
    match L.parse s with
    | some x => pure (.float x)
    | none => .raise .ValueError

/-- `text` as a value -/
def outText : Option Str → Out L
  | none => .none
  | some s => .str s

/-- `SimpleVariableInstance.type`, variables.py:159-161, 188-191.  The class `UserFieldInstance`, variables.py:214-250, has the
same code as `SimpleVariableInstance` and is used by no other class. -/
def instType (n : Nat) : Py World (Option Str) := getAttr n "office:value-type" (some "string".toList)

/-- `SimpleVariableInstance.value`, variables.py:163-173 -/
def instValue (L : FloatLib) (n : Nat) : Py World (Out L) := do
  let ty ← instType n
  let e ← elem n
  if ty = some "string".toList then return outText e.text
  else if ty = some "boolean".toList then return .bool (e.text = some "true".toList)
  else if ty = some "float".toList then pyFloat L e.text
  else return outText e.text

/-- `SimpleVariableInstance.type` setter, variables.py:193-196 -/
def instSetType (n : Nat) (t : Str) : Py World Unit :=
  setAttr n "office:value-type" (.str t : Val ⟨Unit, fun _ => [], fun _ => none, fun _ => true⟩)

/-- `SimpleVariableInstance.value` setter, variables.py:175-186 -/
def instSetValue (n : Nat) (v : Val L) : Py World Unit := do
  amend n fun e => { e with text := some (tostr v) }
  instSetType n (typeName v)

/-! ## Variables -/

/-- `Variable`, variables.py:52-57: the name is read once, when the object is made. -/
structure Variable where
  node : Nat
  name : Option Str
  deriving DecidableEq

/-- `findall(".//tag[@text:name='name']")`: the descendants of a node, in document order. -/
def findInst (root : Nat) (tag : String) (name : Str) : Py World (List Nat) := fun W =>
  match W.find root with
  | none => (W, .error .TypeError)
  | some t =>
    (W, .ok ((t.2.sel fun e => e.tag = tag ∧ e.get "text:name" = some name).map fun u => u.1.id))

/-- `Variable.instances`, variables.py:59-73.  A name with an apostrophe makes another path, in most
cases an invalid one (SyntaxError); the model raises in all of these cases. -/
def instances (v : Variable) : Py World (List Nat) := do
  let name := v.name.getD "None".toList
  if name.contains '\'' then .raise .XMLSyntaxError
  else do
    let root ← Base.getXmlroot v.node
    let vs ← findInst root "text:variable-set" name
    let vg ← findInst root "text:variable-get" name
    let vi ← findInst root "text:variable-input" name
    return vs ++ vg ++ vi

/-- `for instance in …` -/
def each (f : Nat → Py World Unit) : List Nat → Py World Unit
  | [] => pure ()
  | n :: ns => do
    f n
    each f ns

/-- `Variable.type`, variables.py:75-78 -/
def type (v : Variable) : Py World (Option Str) :=
  getAttr v.node "office:value-type" (some "string".toList)

/-- `Variable.type` setter, variables.py:80-85 -/
def setType (v : Variable) (t : Str) : Py World Unit := do
  instSetType v.node t
  let is ← instances v
  each (fun n => instSetType n t) is

/-- `SimpleVariable.value`, variables.py:93-99 -/
def simpleValue (L : FloatLib) (v : Variable) : Py World (Out L) := do
  let is ← instances v
  match is with
  | [] => .raise .IndexError
  | n :: _ => instValue L n

/-- `SimpleVariable.value` setter, variables.py:101-116 -/
def simpleSet (v : Variable) (x : Val L) : Py World Unit := do
  let is ← instances v
  each (fun n => instSetValue n x) is
  setType v (typeName x)

/-- `UserField.value`, variables.py:123-134 -/
def fieldValue (L : FloatLib) (v : Variable) : Py World (Out L) := do
  let ty ← type v
  if ty = some "boolean".toList then do
    let b ← getBoolAttr v.node "office:boolean-value"
    return .bool b
  else if ty = some "string".toList then do
    let s ← getAttr v.node "office:string-value" none
    return outText s
  else do
    let s ← getAttr v.node "office:value" none
    pyFloat L s

/-- `UserField.value` setter, variables.py:136-154 -/
def fieldSet (v : Variable) (x : Val L) : Py World Unit := do
  let is ← instances v
  each (fun n => instSetValue n x) is
  match x with
  | .bool b => do
    setType v "boolean".toList
    setBoolAttr v.node "office:boolean-value" b
  | .int _ => do
    setAttr v.node "office:value" x
    setType v "float".toList
  | .float _ => do
    setAttr v.node "office:value" x
    setType v "float".toList
  | .str _ => do
    setAttr v.node "office:string-value" x
    setType v "string".toList

/-! ## The containers -/

/-- The loop of `Variables.__init__`, variables.py:21-22.  Other elements are treated as
wrapped into GenericWrapper, which has no attribute `name`; elements of other registered classes with a name
(for example text:variable-set), which the OpenDocument schema does not allow there, are not modelled. -/
def collect : List Tree → Except Exc (Dict (Option Str) Variable)
  | [] => .ok []
  | t :: ts =>
    if t.1.tag = "text:variable-decl" ∨ t.1.tag = "text:user-field-decl" then
      match collect ts with
      | .error e => .error e
      | .ok d =>
        -- a later declaration of the name overwrites an earlier one
        let name := t.1.get "text:name"
        .ok (match d.get name with
          | some _ => d
          | none => (name, ⟨t.1.id, name⟩) :: d)
    else .error .AttributeError

/-- `Variables.__init__`, variables.py:17-22 -/
def init (c : Nat) : Py World (Dict (Option Str) Variable) := fun W =>
  match W.find c with
  | none => (W, .error .TypeError)
  | some t => (W, collect t.2.toList)

/-- A key of a container. -/
inductive Key
  | int (i : Int)
  | str (s : Str)

/-- `Variables.__contains__`, variables.py:24-26 -/
def contains (d : Dict (Option Str) Variable) : Key → Bool
  | .int _ => false
  | .str s => (d.get (some s)).isSome

/-- `Variables.__getitem__`, variables.py:28-32: the node of the wrapped element; `get_child` calls
`int(index)`, base.py:81-84. -/
def getitem (c : Nat) (d : Dict (Option Str) Variable) : Key → Py World Nat
  | .int i => Base.getChild c i
  | .str s =>
    match d.get (some s) with
    | some v => pure v.node
    | none =>
      match pyInt s with
      | some i => Base.getChild c i
      | none => .raise .ValueError

/-- `Variables.__setitem__` with a name and a value that is no element, variables.py:34-38; the class
of the object decides which setter is called.  Keys without variable go to `set_child`, base.py:86-89,
where the value has no attribute `xmlnode`. -/
def setitem (c : Nat) (d : Dict (Option Str) Variable) (isField : Variable → Bool) (s : Str)
    (x : Val L) : Py World Unit :=
  match d.get (some s) with
  | some v => if isField v then fieldSet v x else simpleSet v x
  | none =>
    match pyInt s with
    | some i => do
      let _ ← Lxml.getitem c i
      .raise .AttributeError
    | none => .raise .ValueError

end Verif.Vars
