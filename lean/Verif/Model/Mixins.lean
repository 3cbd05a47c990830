import Verif.Model.Xml
/-! # Model of `propertymixins.py` and of the properties of the classes that use it -/
namespace Verif.Mixins
open Verif

/-- A wrapped element: its own data, its children, and the supply of node identities. -/
structure W where
  e : Elem
  kids : List Tree
  fresh : Nat
  deriving DecidableEq

/-- What a property reads or is given.  `bool` stands for any value by its truth value
(propertymixins.py:27), `int n` for any value with `int(value) = n` (propertymixins.py:67, 80). -/
inductive Val where
  | none
  | str (s : Str)
  | bool (b : Bool)
  | int (n : Int)
  deriving DecidableEq

/-- The kinds of properties; `FloatProperty` has no users; see `Model/FloatProperty.lean`. -/
inductive D where
  /-- `StringProperty(name)`, propertymixins.py:14-21 -/
  | string (name : String)
  /-- `BooleanProperty(name)`, propertymixins.py:23-31 -/
  | boolean (name : String)
  /-- `IntegerProperty(name)`, propertymixins.py:46-57 (no class uses it) -/
  | integer (name : String)
  /-- `IntegerWithLowerLimitProperty(name, lower_limit)`, propertymixins.py:59-71 -/
  | lower (name : String) (limit : Int)
  /-- `TextNumberingMixin.start_value`, propertymixins.py:74-81 -/
  | start
  /-- `TextNumberingMixin.formatted_number`, propertymixins.py:83-90 -/
  | number
  /-- `TableVisibilityMixin.visibility`, propertymixins.py:92-104 -/
  | visibility
  deriving DecidableEq

/-- `StringProperty` getter, propertymixins.py:15-16 -/
def stringGet (name : String) (w : W) : Except Exc Val :=
  .ok (match w.e.get name with | none => .none | some s => .str s)

/-- `StringProperty` setter, propertymixins.py:17-18 -/
def stringSet (name : String) (s : Str) : Py W Unit := fun w =>
  ({ w with e := w.e.set name s }, .ok ())

/-- The deleters, propertymixins.py:19-20, 29-30, 55-56 and 69-70: deleting a missing attribute is a KeyError. -/
def attrDel (name : String) : Py W Unit := fun w =>
  match w.e.get name with
  | none => (w, .error .KeyError)
  | some _ => ({ w with e := w.e.del name }, .ok ())

/-- `BooleanProperty` getter, propertymixins.py:24-25 -/
def booleanGet (name : String) (w : W) : Except Exc Val :=
  .ok (.bool (w.e.get name == some "true".toList))

/-- `BooleanProperty` setter, propertymixins.py:26-28 -/
def booleanSet (name : String) (b : Bool) : Py W Unit := fun w =>
  ({ w with e := w.e.set name (if b then "true".toList else "false".toList) }, .ok ())

/-- `IntegerProperty` getter, propertymixins.py:47-52 -/
def integerGet (name : String) (w : W) : Except Exc Val :=
  match w.e.get name with
  | none => .ok .none
  | some s => match pyInt s with
    | none => .error .ValueError
    | some n => .ok (.int n)

/-- `IntegerProperty` setter, propertymixins.py:53-54, for an integer -/
def integerSet (name : String) (n : Int) : Py W Unit := fun w =>
  ({ w with e := w.e.set name (intStr n) }, .ok ())

/-- `IntegerWithLowerLimitProperty` getter, propertymixins.py:60-65 -/
def lowerGet (name : String) (limit : Int) (w : W) : Except Exc Val :=
  match w.e.get name with
  | none => .ok (.int limit)
  | some s => match pyInt s with
    | none => .error .ValueError
    | some n => .ok (.int (max limit n))

/-- `IntegerWithLowerLimitProperty` setter, propertymixins.py:66-68 -/
def lowerSet (name : String) (limit n : Int) : Py W Unit := fun w =>
  ({ w with e := w.e.set name (intStr (max limit n)) }, .ok ())

/-- `start_value` getter, propertymixins.py:74-77 -/
def startGet (w : W) : Except Exc Val :=
  match w.e.get "text:start-value" with
  | none => .ok .none
  | some s => match pyInt s with
    | none => .error .ValueError
    | some n => .ok (.int n)

/-- `start_value` setter, propertymixins.py:78-81 (the string is not empty, so `set_attr`,
base.py:120-125, sets it) -/
def startSet (n : Int) : Py W Unit := fun w =>
  ({ w with e := w.e.set "text:start-value" (intStr (max n 1)) }, .ok ())

/-- `formatted_number` getter, propertymixins.py:83-86 -/
def numberGet (w : W) : Except Exc Val :=
  .ok (match w.kids.find? fun t => t.1.tag = "text:number" with
    | none => .none
    | some t => match t.1.text with | none => .none | some s => .str s)

/-- Sets the text of the first child with a tag. -/
def setTextOf (tag : String) (s : Str) : List Tree → List Tree
  | [] => []
  | t :: r => if t.1.tag = tag then ({ t.1 with text := some s }, t.2) :: r else t :: setTextOf tag s r

/-- `formatted_number` setter, propertymixins.py:87-90 with `subelement`, xmlns.py:14-20 -/
def numberSet (s : Str) : Py W Unit := fun w =>
  match w.kids.find? fun t => t.1.tag = "text:number" with
  | none => ({ w with kids := w.kids ++ [({ id := w.fresh, tag := "text:number", text := some s }, .nil)],
                      fresh := w.fresh + 1 }, .ok ())
  | some _ => ({ w with kids := setTextOf "text:number" s w.kids }, .ok ())

/-- `VALID_VISIBILITY_STATES`, propertymixins.py:93 -/
def VALID_VISIBILITY_STATES : List Str := ["visible".toList, "collapse".toList, "filter".toList]

/-- `visibility` getter, propertymixins.py:94-99 -/
def visibilityGet (w : W) : Except Exc Val :=
  .ok (.str (match w.e.get "table:visibility" with
    | none => "visible".toList
    | some s => s))

/-- `visibility` setter, propertymixins.py:100-104 -/
def visibilitySet (s : Str) : Py W Unit := fun w =>
  if s ∉ VALID_VISIBILITY_STATES then (w, .error .ValueError)
  else ({ w with e := w.e.set "table:visibility" s }, .ok ())

/-- Reading a property of any kind. -/
def read : D → W → Except Exc Val
  | .string n => stringGet n
  | .boolean n => booleanGet n
  | .integer n => integerGet n
  | .lower n l => lowerGet n l
  | .start => startGet
  | .number => numberGet
  | .visibility => visibilityGet

/-- Assigning to a property of any kind; values of a type the property is not meant for are
rejected here with a TypeError (lxml and `int` do so for most, the others are not modelled). -/
def write : D → Val → Py W Unit
  | .string n, .str s => stringSet n s
  | .boolean n, .bool b => booleanSet n b
  | .integer n, .int i => integerSet n i
  | .lower n l, .int i => lowerSet n l i
  | .start, .int i => startSet i
  | .number, .str s => numberSet s
  | .visibility, .str s => visibilitySet s
  | _, _ => fun w => (w, .error .TypeError)

/-- `del obj.property`; the last three have no deleter. -/
def delete : D → Py W Unit
  | .string n => attrDel n
  | .boolean n => attrDel n
  | .integer n => attrDel n
  | .lower n _ => attrDel n
  | .start => fun w => (w, .error .AttributeError)
  | .number => fun w => (w, .error .AttributeError)
  | .visibility => fun w => (w, .error .AttributeError)

/-- The properties of `Span`, text.py:22 -/
def span : List D := [.string "text:style-name"]

/-- The properties of `Paragraph`, text.py:22, 68-69 -/
def paragraph : List D := [.string "text:style-name", .string "text:cond-style-name", .string "text:id"]

/-- The properties of `Hyperlink`, text.py:22, 107-108 (`target_frame` is not one of these kinds) -/
def hyperlink : List D := [.string "text:style-name", .string "office:name", .string "xlink:href"]

/-- The properties of `Section`, text.py:177-178 -/
def section_ : List D := [.string "text:style-name", .string "text:name"]

/-- The properties of `Heading`, text.py:22, 93-97 and propertymixins.py:73-90 -/
def heading : List D := [.string "text:style-name", .lower "text:outline-level" 1,
  .boolean "text:restart-numbering", .boolean "text:is-list-header", .start, .number]

/-- The properties of `NumberedParagraph`, text.py:72-74 -/
def numberedParagraph : List D := [.lower "text:level" 1, .start, .number]

/-- The properties of `ListItem`, text.py:141-142 -/
def listItem : List D := [.start, .number]

/-- The properties of `List`, text.py:148-149 -/
def list : List D := [.string "text:style-name", .boolean "text:continue-numbering"]

/-- The properties of `Cell`, cells.py:42-45 -/
def cell : List D := [.string "table:style-name", .string "table:formula", .boolean "table:protect",
  .string "table:content-validation-name"]

/-- The properties of `Table`, table.py:27-28 -/
def table : List D := [.string "table:style-name", .boolean "table:print"]

/-- The properties of `TableColumn` and `TableRow`, table.py:184-191 -/
def column : List D := [.string "table:style-name", .string "table:default-cell-style-name", .visibility]

/-- The classes with such properties -/
def classes : List (List D) := [span, paragraph, hyperlink, section_, heading, numberedParagraph, listItem, list,
  cell, table, column]

end Verif.Mixins
