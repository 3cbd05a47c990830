import Verif.Model.Lxml
import Verif.Model.Dict
/-!
# Model of `ezodf/styles.py`

Keys are strings.  Style objects are their `xmlnode`; `wrap` gives a new object around a node, so only
the node is recorded.
-/
namespace Verif.Styles
open Verif Verif.Lxml

/-- What `_cache` holds: an element (put there by `_find`, styles.py:65) or a style object (put there
by `__setitem__`, styles.py:56). -/
inductive Stored
  | element (n : Nat)
  | object (xmlnode : Nat)
  deriving DecidableEq

/-- The trees and the `_cache` of one container, styles.py:37-41. -/
structure S where
  world : World
  cache : Dict Str Stored
  deriving DecidableEq

/-- Loop of `_find`, styles.py:62-66 -/
def scan (name : Str) : List Tree → Option Nat
  | [] => none
  | t :: ts => if t.1.get "style:name" = some name then some t.1.id else scan name ts

/-- `_find`, styles.py:58-67; `c` is the element of the container. -/
def find (c : Nat) (name : Str) : Py S (Option Stored) := fun s =>
  match s.cache.get name with
  | some x => (s, .ok (some x))
  | none =>
    match s.world.find c with
    | none => (s, .error .TypeError)
    | some t =>
      match scan name t.2.toList with
      | some n => ({ s with cache := s.cache.set name (.element n) }, .ok (some (.element n)))
      | none => (s, .ok none)

/-- `wrap`, xmlns.py:87-93, of a child of a style container.  A style object has no attribute `tag`.
`PageLayout.__init__` (styles.py:149) has no parameter `xmlnode`.  The other classes of styles.py, and
GenericWrapper, take the element. -/
def wrap : Stored → Py S Nat
  | .object _ => .raise .AttributeError
  | .element n => fun s =>
    match s.world.find n with
    | none => (s, .error .TypeError)
    | some t => if t.1.tag = "style:page-layout" then (s, .error .TypeError) else (s, .ok n)

/-- `__getitem__`, styles.py:43-48; the result is the node of the style object. -/
def getitem (c : Nat) (key : Str) : Py S Nat := do
  let style ← find c key
  match style with
  | some x => wrap x
  | none => .raise .KeyError

/-- An operation on the trees. -/
def onWorld (m : Py World Unit) : Py S Unit := fun s =>
  let (W, r) := m s.world
  ({ s with world := W }, r)

/-- `__setitem__`, styles.py:50-56; lxml `replace` accepts elements only. -/
def setitem (c : Nat) (key : Str) (value : Nat) : Py S Unit := do
  let style ← find c key
  match style with
  | none => onWorld (Lxml.append c value)
  | some (.element n) => onWorld (Lxml.replace c n value)
  | some (.object _) => .raise .TypeError
  Py.modify fun s => { s with cache := s.cache.set key (.object value) }

/-! ## Style objects -/

/-- `Style.ATTRIBUTEMAP`, styles.py:121-133 -/
def styleMap : Dict String String :=
  [("name", "style:name"), ("display-name", "style:display-name"), ("family", "style:family"),
   ("parent-style-name", "style:parent-style-name"), ("next-style-name", "style:next-style-name"),
   ("list-style-name", "style:list-style-name"), ("master-page-name", "style:master-page-name"),
   ("auto-update", "style:auto-update"), ("data-style-name", "style:data-style-name"),
   ("class", "style:class"), ("default-outline-level", "style:default-outline-level")]

/-- `DefaultStyle.ATTRIBUTEMAP`, styles.py:138-140 -/
def defaultStyleMap : Dict String String := [("family", "style:family")]

/-- `PageLayout.ATTRIBUTEMAP`, styles.py:144-147 -/
def pageLayoutMap : Dict String String := [("name", "style:name"), ("page-usage", "style:page-usage")]

/-- `FontFace`, styles.py:154-156, and `Properties`, styles.py:112-114, have the empty map of
`BaseStyle`, styles.py:89. -/
def baseMap : Dict String String := []

/-- `BaseStyle.__getitem__`, styles.py:94-96 -/
def attr (map : Dict String String) (n : Nat) (key : String) : Py World (Option Str) := fun W =>
  match map.get key with
  | none => (W, .error .KeyError)
  | some k =>
    match W.find n with
    | none => (W, .error .TypeError)
    | some t => (W, .ok (t.1.get k))

/-- `BaseStyle.__setitem__`, styles.py:98-99: the body is a comment. -/
def setAttr (_map : Dict String String) (_n : Nat) (_key : String) (_value : Str) : Py World Unit :=
  pure ()

end Verif.Styles
