import Verif.Model.Xml
/-! # Model of `protection.py`, of `Table.protected` and `Section.protected`, and of `drawingpage.py` -/
namespace Verif.Protection
open Verif

/-- `FNCHARS`, protection.py:12 -/
def FNCHARS : Str := "ABCDEFGHIJKLMNOPQRSTUVWXYZabcdefghijklmnopqrstuvwxyz0123456789".toList

/-- What `set_attr` is given: a string, the list of one-character strings that `random.sample` returns, an
integer, a truth value or `None`.  Simplification: floats and other objects are left out. -/
inductive Val where
  | str (s : Str)
  | list (l : List Char)
  | int (i : Int)
  | bool (b : Bool)
  | none
  deriving DecidableEq

/-- `random_protection_key(count=12)`, protection.py:14-15.  `random.sample` returns *a list* of `count`
different members of the population; which ones is the parameter `s`, see `Sample`. -/
def randomProtectionKey (s : List Char) : Val := .list s

/-- The possible results of `random.sample(FNCHARS, 12)`. -/
structure Sample (s : List Char) : Prop where
  len : s.length = 12
  nodup : s.Nodup
  chars : ∀ c ∈ s, c ∈ FNCHARS

/-- `repr(c)` for a one-character string of a letter or a digit (Python 3) -/
def reprChar (c : Char) : Str := ['\'', c, '\'']

/-- the inner part of `str([...])` for a list of one-character strings -/
def reprItems : List Char → Str
  | [] => []
  | [c] => reprChar c
  | c :: d :: r => reprChar c ++ ", ".toList ++ reprItems (d :: r)

/-- `tostr(value)`, compatibility.py:20: `str` -/
def tostr : Val → Str
  | .str s => s
  | .list l => '[' :: reprItems l ++ [']']
  | .int i => intStr i
  | .bool true => "True".toList
  | .bool false => "False".toList
  | .none => "None".toList

/-- the truth value Python gives to a value -/
def truth : Val → Bool
  | .str s => !s.isEmpty
  | .list l => !l.isEmpty
  | .int i => i ≠ 0
  | .bool b => b
  | .none => false

/-- `GenericWrapper.get_attr(key, default=None)`, base.py:106-111 -/
def getAttrOr (k : String) (default : Option Str) (e : Elem) : Option Str :=
  match e.get k with
  | none => default
  | some v => some v

/-- `GenericWrapper.get_attr(key)`, base.py:106-111 -/
def getAttr (k : String) (e : Elem) : Option Str := getAttrOr k none e

/-- `GenericWrapper.get_bool_attr(key)`, base.py:113-118 -/
def getBoolAttr (k : String) (e : Elem) : Bool :=
  match e.get k with
  | none => false
  | some v => if v.isEmpty then false else v = "true".toList

/-- `GenericWrapper.set_attr(key, value)`, base.py:120-125 -/
def setAttr (k : String) (v : Val) : Py Elem Unit := fun e =>
  if truth v then (e.set k (tostr v), .ok ()) else (e, .error .ValueError)

/-- `GenericWrapper.set_bool_attr(key, value)`, base.py:127-128 -/
def setBoolAttr (k : String) (b : Bool) : Py Elem Unit := fun e =>
  (e.set k (if b then "true".toList else "false".toList), .ok ())

/-- `GenericWrapper.text`, base.py:32-34 -/
def getText (e : Elem) : Option Str := e.text

/-- `GenericWrapper.text` setter, base.py:35-37 -/
def setText (v : Option Str) (e : Elem) : Elem := { e with text := v }

/-- `GenericWrapper.tail`, base.py:39-41 -/
def getTail (e : Elem) : Option Str := e.tail

/-- `GenericWrapper.tail` setter, base.py:42-44 -/
def setTail (v : Option Str) (e : Elem) : Elem := { e with tail := v }

/-- `safelen(text)`, base.py:13-14 -/
def safelen (text : Option Str) : Nat :=
  match text with
  | none => 0
  | some t => if t.isEmpty then 0 else t.length

/-- `GenericWrapper.textlen`, base.py:156-159 -/
def textlen (e : Elem) : Nat := safelen e.text

/-- `GenericWrapper.plaintext()`, base.py:161-164 -/
def plaintext (e : Elem) : Str :=
  match e.text with
  | none => []
  | some t => if t.isEmpty then [] else t

/-- The two attribute names a class uses. -/
structure Names where
  flag : String
  key : String

/-- table.py:74, 77, 79 -/
def ofTable : Names := ⟨"table:protected", "table:protection-key"⟩

/-- text.py:190, 193, 195 -/
def ofSection : Names := ⟨"text:protected", "text:protection-key"⟩

/-- `Table.protected` table.py:72-74 and `Section.protected` text.py:188-190 -/
def getProtected (N : Names) (e : Elem) : Bool := getBoolAttr N.flag e

/-- The setters, table.py:75-79 and text.py:191-195; the value only matters by its truth value. -/
def setProtected (N : Names) (s : List Char) (b : Bool) : Py Elem Unit := do
  setBoolAttr N.flag b
  let p ← (fun e => (e, .ok (getProtected N e)) : Py Elem Bool)
  if p then setAttr N.key (randomProtectionKey s) else return ()

/-! ## Sections -/

/-- `Section.__init__(name, style_name)` for a new section, text.py:180-186 (the `StringProperty` setter is
propertymixins.py:17-18) -/
def newSection (id : Nat) (name style : Str) : Elem :=
  let e : Elem := { id := id, tag := "text:section" }
  let e := if style.isEmpty then e else e.set "text:style-name" style
  if name.isEmpty then e else e.set "text:name" name

/-! ## Drawing pages -/

/-- `DrawingPage.name`, drawingpage.py:26-28 -/
def pageName (e : Elem) : Option Str := getAttr "draw:name" e

/-- `DrawingPage.name` setter, drawingpage.py:29-31 -/
def setPageName (name : Str) : Py Elem Unit := setAttr "draw:name" (.str name)

/-- `DrawingPage.__init__(name)` for a new page, drawingpage.py:17-21; `_setup_new_page` does nothing
(drawingpage.py:23-24 and presentationpage.py:13-14).  An exception leaves no page. -/
def newPage (id : Nat) (name : Str) : Except Exc Elem :=
  match setPageName name { id := id, tag := "draw:page" } with
  | (e, .ok ()) => .ok e
  | (_, .error x) => .error x

end Verif.Protection
