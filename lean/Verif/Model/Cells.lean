import Verif.Model.Text
import Verif.Model.XmlTree
/-!
# Model of `ezodf/cells.py`

A cell is its XML tree.  Floating point numbers are a parameter: `FloatLib` gives `str(x)`,
`float(text)` and truthiness; what the theorems need of it is stated in `FloatLib.Lawful`.
-/
namespace Verif.Cells
open Verif

/-- Python floats as far as the code uses them. -/
structure FloatLib where
  Fl : Type
  /-- `str(x)` -/
  repr : Fl → Str
  /-- `float(text)`; `none` is ValueError -/
  parse : Str → Option Fl
  /-- `bool(x)` -/
  truth : Fl → Bool

variable (L : FloatLib)

/-- Values given to `set_value`.  `wrapper kind t` is an instance of GenericWrapper with class name
`kind` around the detached tree `t`. -/
inductive Val
  | none
  | bool (b : Bool)
  | int (i : Int)
  | float (x : L.Fl)
  | str (s : Str)
  | wrapper (kind : String) (t : Tree)

/-- Values returned by `value`. -/
inductive Out
  | none
  | float (x : L.Fl)
  | bool (b : Bool)
  | str (s : Str)

/-- cells.py:16-17 -/
def VALID_VALUE_TYPES : List String :=
  ["float", "percentage", "currency", "date", "time", "boolean", "string"]
/-- cells.py:18 -/
def NUMERIC_TYPES : List String := ["float", "percentage", "currency"]

/-- `TYPE_VALUE_MAP`, cells.py:20-28; `none` is KeyError. -/
def typeValueMap (t : String) : Option String :=
  if t = "string" then some "office:string-value"
  else if t = "float" ∨ t = "percentage" ∨ t = "currency" then some "office:value"
  else if t = "date" then some "office:date-value"
  else if t = "time" then some "office:time-value"
  else if t = "boolean" then some "office:boolean-value"
  else none

/-- cells.py:32 -/
def SUPPORTED_CELL_CONTENT : List String := ["Paragraph", "Heading"]

/-- `kind` of the wrapper of a node as far as it matters here: class name by tag. -/
def isParaTag (tag : String) : Bool := tag = "text:p" ∨ tag = "text:h"

/-- `GenericWrapper.get_attr(key)`, base.py:106-111. -/
def getAttr (e : Elem) (k : String) : Option Str := e.get k

/-- `GenericWrapper.set_attr(key, value)` for a string, base.py:120-125. -/
def setAttr (k : String) (v : Str) : Py Tree Unit := fun t =>
  if v.isEmpty then (t, .error .ValueError) else ((t.1.set k v, t.2), .ok ())

/-- `value_type`, cells.py:57-59. -/
def valueType (t : Tree) : Option Str := getAttr t.1 "office:value-type"

/-- `plaintext`, cells.py:173-175 (and the getter `display_form`, cells.py:158-160): paragraphs and headings among the children; `none` is the
ValueError of an unreadable `text:c`. -/
def plaintext (t : Tree) : Option Str :=
  (Txt.lines ((Txt.parts t.2).filter fun p => p.tag = "text:p" ∨ p.tag = "text:h")).map Txt.joinLines

/-- `value`, cells.py:61-79. -/
def value (t : Tree) : Except Exc (Out L) :=
  match valueType t with
  | none => .ok .none
  | some ty =>
    let ty := String.ofList ty
    if ty = "string" then
      match plaintext t with
      | some s => .ok (.str s)
      | none => .error .ValueError
    else match typeValueMap ty with
      | none => .error .KeyError
      | some key => match t.1.get key with
        | none => .ok .none
        | some v =>
          if ty ∈ NUMERIC_TYPES then
            match L.parse v with
            | some x => .ok (.float x)
            | none => .error .ValueError
          else if ty = "boolean" then .ok (.bool (v = "true".toList))
          else .ok (.str v)

/-- `is_valid_value`, cells.py:83-90. -/
def isValidValue : Val L → Bool
  | .none => false
  | .wrapper k _ => k ∈ SUPPORTED_CELL_CONTENT
  | _ => true

/-- `determine_value_type`, cells.py:95-102. -/
def determineValueType : Val L → String
  | .bool _ => "boolean"
  | .float _ | .int _ => "float"
  | _ => "string"

/-- `tostr(value)` (`str`) of a non-wrapper value. -/
def tostr : Val L → Str
  | .none => "None".toList
  | .bool true => "True".toList
  | .bool false => "False".toList
  | .int i => intStr i
  | .float x => L.repr x
  | .str s => s
  | .wrapper _ _ => []

/-- Truthiness of a non-wrapper value. -/
def truth : Val L → Bool
  | .none => false
  | .bool b => b
  | .int i => i ≠ 0
  | .float x => L.truth x
  | .str s => !s.isEmpty
  | .wrapper _ _ => true

/-- Result of `convert`, cells.py:104-113: a content element or an attribute value. -/
inductive Conv
  | content (t : Tree)
  | attr (s : Str)

/-- `convert`, cells.py:104-113. -/
def convert (v : Val L) (ty : String) : Conv :=
  match v with
  | .wrapper _ t => .content t
  | v =>
    if ty = "string" then .content (Txt.newSpan "text:p" (tostr L v))
    else if ty = "boolean" then .attr (if truth L v then "true".toList else "false".toList)
    else .attr (tostr L v)

/-- `_clear_value_attribute`, cells.py:151-156: KeyError is swallowed. -/
def clearValueAttribute (ty : Option Str) (t : Tree) : Tree :=
  match ty with
  | none => t
  | some ty => match typeValueMap (String.ofList ty) with
    | none => t
    | some key => (t.1.del key, t.2)

/-- `_clear_content`, cells.py:146-149: deletes all children; `text` stays. -/
def clearContent (t : Tree) : Tree := (t.1, .nil)

/-- `_clear_old_value`, cells.py:142-144. -/
def clearOldValue (t : Tree) : Tree := clearContent (clearValueAttribute (valueType t) t)

/-- `_set_new_value`, cells.py:128-137, with `_set_value_type`, cells.py:139-140.  `typeValueMap` is defined for every valid type. -/
def setNewValue (c : Conv) (ty : String) (currency : Option Str) : Py Tree Unit := do
  let ty ← (match c with
    | .content p => fun t => ((t.1, t.2 ++ Forest.single p), .ok "string")
    | .attr s => match typeValueMap ty with
      | some key => do setAttr key s; pure ty
      | none => Py.raise .KeyError : Py Tree String)
  setAttr "office:value-type" ty.toList
  match currency with
  | some c => if !c.isEmpty && ty = "currency" then setAttr "office:currency" c else pure ()
  | none => pure ()

/-- `set_value`, cells.py:81-126.  `currency` is `None` or a string. -/
def setValue (v : Val L) (vt : Option String) (currency : Option Str) : Py Tree Unit := fun t =>
  if !isValidValue L v then (t, .error .ValueError)
  else
    let vt := if currency.isSome then some "currency" else vt
    let ty := match vt with | none => determineValueType L v | some ty => ty
    if ty ∉ VALID_VALUE_TYPES then (t, .error .TypeError)
    else setNewValue (convert L v ty) ty currency (clearOldValue t)

/-- `Cell(value, value_type, currency)`, cells.py:47-55, without `style_name`; `Val.none` is
`value=None`.  The `id` of the new node is 0 here. -/
def create (v : Val L) (vt : Option String) (currency : Option Str) : Except Exc Tree :=
  let t : Tree := ({ id := 0, tag := "table:table-cell" }, .nil)
  let r : Tree × Except Exc Unit := match v with
    | .none => (match vt with
      | none => (t, .ok ())
      | some ty => setAttr "office:value-type" ty.toList t)
    | v => setValue L v vt currency t
  r.2.map fun _ => r.1

/-- Replacement of the node found by `find(tag)`. -/
def replaceFirst (tag : String) (p : Tree) : Forest → Forest
  | .nil => .nil
  | .cons e k r => if e.tag = tag then .cons p.1 p.2 r else .cons e k (replaceFirst tag p r)

/-- `display_form` setter, cells.py:161-171. -/
def setDisplayForm (text : Str) : Py Tree Unit := fun t =>
  match valueType t with
  | none => (t, .error .TypeError)
  | some ty =>
    if ty = "string".toList then (t, .error .TypeError)
    else
      let p := Txt.newSpan "text:p" text
      match Txt.findChild "text:p" t.2 with
      | none => ((t.1, t.2 ++ Forest.single p), .ok ())
      | some _ => ((t.1, replaceFirst "text:p" p t.2), .ok ())

/-- Change of the last child in place. -/
def mapLast (g : Elem → Forest → Tree) : Forest → Forest
  | .nil => .nil
  | .cons e k .nil => Forest.single (g e k)
  | .cons e k r => .cons e k (mapLast g r)

/-- `get_child(-1)` -/
def lastChild : Forest → Option Tree
  | .nil => none
  | .cons e k .nil => some (e, k)
  | .cons _ _ r => lastChild r

/-- `append_text`, cells.py:177-187 (without the style name). -/
def appendText (text : Str) : Py Tree Unit := fun t =>
  if valueType t ≠ some "string".toList then (t, .error .TypeError)
  else match lastChild t.2 with
    | some (e, _) =>
      if isParaTag e.tag then
        ((t.1, mapLast (fun e k => (e, k ++ Forest.single (Txt.newSpan "text:span" text))) t.2), .ok ())
      else ((t.1, t.2 ++ Forest.single (Txt.newSpan "text:p" text)), .ok ())
    | none => ((t.1, t.2 ++ Forest.single (Txt.newSpan "text:p" text)), .ok ())

/-- `currency`, cells.py:189-191. -/
def currency (t : Tree) : Option Str := t.1.get "office:currency"

/-! ## Spans -/

def rowsSpanned := "table:number-rows-spanned"
def colsSpanned := "table:number-columns-spanned"
def cellTag := "table:table-cell"
def coveredTag := "table:covered-table-cell"

/-- cells.py:36-39 -/
def CELL_ONLY_ATTRIBS : List String := [rowsSpanned, colsSpanned,
  "table:number-matrix-columns-spanned", "table:number-matrix-rows-spanned"]

/-- One component of `span`, cells.py:197-198. -/
def spanAttr (e : Elem) (k : String) : Except Exc Int :=
  match e.get k with
  | none => .ok 1
  | some s => match pyInt s with
    | some n => .ok (max 1 n)
    | none => .error .ValueError

/-- `span`, cells.py:193-199. -/
def span (e : Elem) : Except Exc (Int × Int) :=
  match spanAttr e rowsSpanned with
  | .error x => .error x
  | .ok rows => match spanAttr e colsSpanned with
    | .error x => .error x
    | .ok cols => .ok (rows, cols)

/-- `del attrib[key]` -/
def delAttr (k : String) : Py Elem Unit := fun e =>
  match e.get k with
  | none => (e, .error .KeyError)
  | some _ => (e.del k, .ok ())

/-- `_del_span_attributes`, cells.py:210-212. -/
def delSpanAttributes : Py Elem Unit := do
  delAttr rowsSpanned
  delAttr colsSpanned

/-- `_set_span`, cells.py:201-208, 214-216. -/
def setSpan (size : Int × Int) : Py Elem Unit :=
  let rows := max 1 size.1
  let cols := max 1 size.2
  if rows = 1 ∧ cols = 1 then delSpanAttributes
  else fun e => ((e.set rowsSpanned (intStr rows)).set colsSpanned (intStr cols), .ok ())

/-- `covered`, cells.py:218-220. -/
def covered (e : Elem) : Bool := e.tag = coveredTag

/-- `_set_covered`, cells.py:222-234. -/
def setCovered (b : Bool) (e : Elem) : Elem :=
  if b then CELL_ONLY_ATTRIBS.foldl (fun e k => e.del k) { e with tag := coveredTag }
  else { e with tag := cellTag }

end Verif.Cells
