import Verif.Model.Parts
import Verif.Model.Styles
/-! # Model of `BaseStyle._properties` and `PageLayout`, styles.py -/
namespace Verif.Styles
open Verif Verif.Lxml

/-- `subelement(parent, tag, new)`, xmlns.py:14-20 -/
def subelement (parent : Nat) (tag : String) (new : Bool) : Py World (Option Nat) := fun W =>
  match W.find parent with
  | none => (W, .error .TypeError)
  | some t =>
    match t.2.toList.find? (fun u => u.1.tag = tag) with
    | some u => (W, .ok (some u.1.id))
    | none =>
      if new then
        let c := Parts.newId W
        (Forest.mapKids parent (· ++ Forest.single ({ id := c, tag := tag }, .nil)) W, .ok (some c))
      else (W, .ok none)

/-- `BaseStyle._properties`, styles.py:101-110.  A properties object (styles.py:112-116) is its node. -/
def properties (n : Nat) (key : String) (new : Bool := true) : Py World Nat := do
  let element ← subelement n key new
  match element with
  | none => .raise .KeyError
  | some e => do
    let p ← subelement e (key ++ "-properties") true
    match p with
    | none => .raise .TypeError
    | some p => return p

/-- A `PageLayout` object, styles.py:142-152 -/
structure PageLayout where
  xmlnode : Nat
  header : Nat
  footer : Nat
  deriving DecidableEq

/-- `PageLayout.__init__`, styles.py:149-152 with `BaseStyle.__init__`, styles.py:91-92 -/
def pageLayout (n : Nat) : Py World PageLayout := do
  let header ← properties n "style:header-style"
  let footer ← properties n "style:footer-style"
  return ⟨n, header, footer⟩

end Verif.Styles
