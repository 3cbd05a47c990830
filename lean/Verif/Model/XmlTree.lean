import Verif.Model.Xml
import Verif.Model.Organizer
/-!
# Tree access by node identity

lxml proxies denote nodes; operations through a proxy change the tree at that node.  `subst i f F`
replaces the node with identity `i` by the forest `f e kids`; it expresses `addnext`,
`addprevious`, `remove`, `replace` and changes of a node in place.
-/
namespace Verif.Forest

/-- All identities in document order. -/
def ids : Forest → List Nat
  | nil => []
  | cons e k r => e.id :: (ids k ++ ids r)

/-- Descendants satisfying `p` in document order: lxml `findall('.//tag')`. -/
def sel (p : Elem → Bool) : Forest → List Tree
  | nil => []
  | cons e k r => (if p e then [(e, k)] else []) ++ (sel p k ++ sel p r)

/-- The node with identity `i`. -/
def find (i : Nat) : Forest → Option Tree
  | nil => none
  | cons e k r => if e.id = i then some (e, k) else
    match find i k with
    | some t => some t
    | none => find i r

/-- Replace node `i` by `f e kids`. -/
def subst (i : Nat) (f : Elem → Forest → Forest) : Forest → Forest
  | nil => nil
  | cons e k r => if e.id = i then f e k ++ r else cons e (subst i f k) (subst i f r)

/-- A single tree as a forest. -/
def single (t : Tree) : Forest := cons t.1 t.2 nil

/-- Change of the children in place. -/
def mapKids (i : Nat) (g : Forest → Forest) (F : Forest) : Forest :=
  subst i (fun e k => cons e (g k) nil) F

/-- lxml `node.insert(index, child)`. -/
def insertAt (k : Forest) (i : Int) (t : Tree) : Forest := ofList (Org.lxmlInsert k.toList i t)

/-- Removal of the child at a position. -/
def eraseAt (k : Forest) (n : Nat) : Forest := ofList (k.toList.eraseIdx n)

/-- Replacement of the child at a position. -/
def setAt (k : Forest) (n : Nat) (t : Tree) : Forest := ofList (k.toList.set n t)

/-- `copy.deepcopy`: same tags, attributes, texts and structure, new identities from `n` on. -/
def clone : Nat → Forest → Forest × Nat
  | n, nil => (nil, n)
  | n, cons e k r =>
    let (k', n1) := clone (n + 1) k
    let (r', n2) := clone n1 r
    (cons { e with id := n } k' r', n2)

/-- Content without identities. -/
def erase : Forest → Forest
  | nil => nil
  | cons e k r => cons { e with id := 0 } (erase k) (erase r)

end Verif.Forest
