import Verif.Model.Whitespace
/-!
# Model of `ezodf/text.py` (and the text part of `base.py`, `whitespaces.py`, `cells.py`)

`wrap` (xmlns.py:87-93) picks the wrapper class by the tag; `kind` below is that class as far as
`textlen`/`plaintext` are concerned.
-/
namespace Verif.Txt
open Verif Verif.Ws

/-- Wrapper classes that differ in `plaintext`/`textlen`. -/
inductive Kind
  | span      -- Span, Paragraph, Heading, Hyperlink  (text.py:19-123)
  | lister    -- ListHeader, ListItem                 (text.py:126-142)
  | cell      -- Cell, CoveredCell                    (cells.py:34, 236)
  | tab | brk | spaces | softbreak                    -- whitespaces.py
  | generic   -- GenericWrapper and every class that does not override the two methods
  deriving DecidableEq, Repr

/-- Class lookup by tag, xmlns.py:87-93. -/
def kind (tag : String) : Kind :=
  if tag = "text:span" ∨ tag = "text:p" ∨ tag = "text:h" ∨ tag = "text:a" then .span
  else if tag = "text:list-header" ∨ tag = "text:list-item" then .lister
  else if tag = "table:table-cell" ∨ tag = "table:covered-table-cell" then .cell
  else if tag = "text:tab" then .tab
  else if tag = "text:line-break" then .brk
  else if tag = "text:s" then .spaces
  else if tag = "text:soft-page-break" then .softbreak
  else .generic

/-- `"".join(filter(None, ...))` treats a missing text like an empty one. -/
def ostr : Option Str → Str
  | none => []
  | some s => s

/-- `'\n'.join(lines)` -/
def joinLines : List Str → Str
  | [] => []
  | [l] => l
  | l :: ls => l ++ '\n' :: joinLines ls

/-- Plain text of one child, seen from its parent: tag, the child's `plaintext()`
(`none` = it raises ValueError), tail. -/
structure Part where
  tag : String
  text : Option Str
  tail : Str

/-- Loop of `Span.plaintext`, text.py:45-47. -/
def spanText : List Part → Option Str
  | [] => some []
  | p :: ps => match p.text, spanText ps with
    | some a, some b => some (a ++ p.tail ++ b)
    | _, _ => none

/-- List comprehension of `ListHeader.plaintext`, text.py:137. -/
def lines : List Part → Option (List Str)
  | [] => some []
  | p :: ps => match p.text, lines ps with
    | some a, some b => some (a :: b)
    | _, _ => none

/-- `plaintext()` of an element from those of its children: text.py:41-48, 136-137,
cells.py:173-175, whitespaces.py:25-26, 32-33, 56-57, 66-67, base.py:161-164.
Exceptions of children are only raised by the classes that look at them. -/
def elemText (e : Elem) (kids : List Part) : Option Str :=
  match kind e.tag with
  | .span => (spanText kids).map (ostr e.text ++ ·)
  | .lister => (lines kids).map joinLines
  | .cell => (lines (kids.filter fun p => p.tag = "text:p" ∨ p.tag = "text:h")).map joinLines
  | .tab | .brk | .spaces | .softbreak => Ws.plaintext e
  | .generic => some (ostr e.text)

/-- Parts of all children of a forest, recursively. -/
def parts : Forest → List Part
  | .nil => []
  | .cons e k r => ⟨e.tag, elemText e (parts k), ostr e.tail⟩ :: parts r

/-- `wrap(node).plaintext()` -/
def plaintext (t : Tree) : Option Str := elemText t.1 (parts t.2)

/-- `safelen`, base.py:13-14. -/
def safelen (s : Option Str) : Int := (ostr s).length

/-- Length of one child and its tail, seen from the parent. -/
abbrev LPart := Option Int × Int

/-- Loop of `Span.textlen`, text.py:37-38. -/
def spanLen : List LPart → Option Int
  | [] => some 0
  | p :: ps => match p.1, spanLen ps with
    | some a, some b => some (a + p.2 + b)
    | _, _ => none

/-- `textlen` of an element: text.py:33-39, whitespaces.py:21-23, 52-54, 62-64,
base.py:156-159 (also used by ListHeader, ListItem and Cell). -/
def elemLen (e : Elem) (kids : List LPart) : Option Int :=
  match kind e.tag with
  | .span => (spanLen kids).map (safelen e.text + ·)
  | .tab | .brk => some 1
  | .spaces => Ws.spacesCount e
  | .softbreak => some 0
  | .lister | .cell | .generic => some (safelen e.text)

def lparts : Forest → List LPart
  | .nil => []
  | .cons e k r => (elemLen e (lparts k), safelen e.tail) :: lparts r

/-- `wrap(node).textlen` -/
def textlen (t : Tree) : Option Int := elemLen t.1 (lparts t.2)

/-! ## `Span.append_text` -/

/-- local function `append`, text.py:51-52 -/
def appendStr (text : Option Str) (new : Str) : Option Str :=
  if truthy text then some (ostr text ++ new) else some new

/-- `lastchild.tail = append(lastchild.tail, tag)`, text.py:57-58 -/
def appendLastTail : Forest → Str → Forest
  | .nil, _ => .nil
  | .cons e k .nil, s => .cons { e with tail := appendStr e.tail s } k .nil
  | .cons e k r, s => .cons e k (appendLastTail r s)

/-- Loop body of `append_text`, text.py:54-62. -/
def appendItem (t : Tree) : Item → Tree
  | .text s =>
    match t.2 with
    | .nil => ({ t.1 with text := appendStr t.1.text s }, .nil)
    | k => (t.1, appendLastTail k s)
  | .elem e => (t.1, t.2 ++ .cons e .nil .nil)

/-- `Span.append_text`, text.py:50-62. -/
def appendText (t : Tree) (s : Str) : Tree := (encode s).foldl appendItem t

/-- `Span(text)`, `Paragraph(text)`, ... : text.py:24-30.  The `style_name` and numbering
attributes of the constructors are not part of this model. -/
def newSpan (tag : String) (text : Str) : Tree :=
  let t : Tree := ({ id := 0, tag := tag }, .nil)
  if text.isEmpty then t else appendText t text

/-! ## Lists -/

/-- `ListHeader(text)` / `ListItem(text)`, text.py:130-134. -/
def newLister (tag : String) (text : Str) : Tree :=
  let e : Elem := { id := 0, tag := tag }
  if text.isEmpty then (e, .nil)
  else
    let p := newSpan "text:p" text
    (e, .cons p.1 p.2 .nil)

/-- `node.find(tag)` among direct children. -/
def findChild (tag : String) : Forest → Option Tree
  | .nil => none
  | .cons e k r => if e.tag = tag then some (e, k) else findChild tag r

/-- `node.findall(tag)` among direct children. -/
def findallChild (tag : String) : Forest → List Tree
  | .nil => []
  | .cons e k r => if e.tag = tag then (e, k) :: findallChild tag r else findallChild tag r

/-- Removal of the node found by `find(tag)`. -/
def removeFirst (tag : String) : Forest → Forest
  | .nil => .nil
  | .cons e k r => if e.tag = tag then r else .cons e k (removeFirst tag r)

/-- `List.header` getter, text.py:157-160. -/
def getHeader (l : Tree) : Option Tree := findChild "text:list-header" l.2

/-- `List.header` setter, text.py:161-168.  `h` is a detached element; `kind` is compared by class
name, i.e. by tag. -/
def setHeader (h : Tree) : Py Tree Unit := fun l =>
  if h.1.tag ≠ "text:list-header" then (l, .error .TypeError)
  else ((l.1, .cons h.1 h.2 (removeFirst "text:list-header" l.2)), .ok ())

/-- `List.iteritems`, text.py:170-171. -/
def listItems (l : Tree) : List Tree := findallChild "text:list-item" l.2

/-- `ezlist(items, header)`, __init__.py:40-53 (without the style name). -/
def ezlist (items : List Str) (header : Str) : Tree :=
  let l0 : Tree := ({ id := 0, tag := "text:list" }, .nil)
  let l1 := if header.isEmpty then l0 else (setHeader (newLister "text:list-header" header) l0).1
  items.foldl (fun l item =>
    let li := newLister "text:list-item" item
    (l.1, l.2 ++ .cons li.1 li.2 .nil)) l1

end Verif.Txt
