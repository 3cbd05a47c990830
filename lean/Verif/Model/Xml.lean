import Verif.Model.Py
/-!
# XML trees

`Forest` is the first-child / next-sibling representation of libxml2.  The `id` of an element
is the identity of the node (what `is` compares on lxml proxies).  `text` is the text before
the first child, `tail` the text after the element; as in lxml the tail travels with its
element.  Tags and attribute keys are written with prefixes.
-/
namespace Verif

structure Elem where
  id : Nat
  tag : String
  attrs : List (String × Str) := []
  text : Option Str := none
  tail : Option Str := none
  deriving DecidableEq, Repr

inductive Forest
  | nil
  | cons (e : Elem) (kids : Forest) (rest : Forest)
  deriving DecidableEq, Repr

/-- An element together with its children. -/
abbrev Tree := Elem × Forest

namespace Forest

def toList : Forest → List Tree
  | nil => []
  | cons e k r => (e, k) :: r.toList

def ofList : List Tree → Forest
  | [] => nil
  | (e, k) :: ts => cons e k (ofList ts)

def append : Forest → Forest → Forest
  | nil, g => g
  | cons e k r, g => cons e k (r.append g)

instance : Append Forest := ⟨append⟩

def length : Forest → Nat
  | nil => 0
  | cons _ _ r => r.length + 1

end Forest

/-! ## Attributes (`node.get`, `node.set`, `del node.attrib[key]`) -/

abbrev Attrs := List (String × Str)

def Attrs.get (a : Attrs) (k : String) : Option Str :=
  match a with
  | [] => none
  | (k', v) :: r => if k' = k then some v else Attrs.get r k

/-- Setting keeps the position of an existing attribute. -/
def Attrs.set (a : Attrs) (k : String) (v : Str) : Attrs :=
  match a with
  | [] => [(k, v)]
  | (k', v') :: r => if k' = k then (k, v) :: r else (k', v') :: Attrs.set r k v

def Attrs.del (a : Attrs) (k : String) : Attrs := a.filter fun p => p.1 ≠ k

def Elem.get (e : Elem) (k : String) : Option Str := Attrs.get e.attrs k
def Elem.set (e : Elem) (k : String) (v : Str) : Elem := { e with attrs := Attrs.set e.attrs k v }
def Elem.del (e : Elem) (k : String) : Elem := { e with attrs := Attrs.del e.attrs k }

end Verif
