import Verif.Model.Xml
/-! # Model of `manifest.py`

The children of an entry are not looked at by any method and are left out.  Strings that XML
cannot hold (lxml refuses them) are not modelled. -/
namespace Verif.Manifest
open Verif

/-- The children of the manifest element, and the supply of node identities. -/
structure M where
  kids : List Elem
  fresh : Nat
  deriving DecidableEq

/-- `IGNORE_LIST`, manifest.py:13 -/
def IGNORE_LIST : List Str := ["META-INF/manifest.xml".toList]

/-- The test of `find`, manifest.py:49 -/
def hasPath (path : Str) (e : Elem) : Bool := e.get "manifest:full-path" = some path

/-- `find`, manifest.py:47-51 -/
def find (path : Str) (m : M) : Option Elem := m.kids.find? (hasPath path)

/-- `set_media_type_and_version`, manifest.py:32-35 -/
def setTypeVersion (mediaType : Str) (version : Option Str) (e : Elem) : Elem :=
  match version with
  | some v => (e.set "manifest:media-type" mediaType).set "manifest:version" v
  | none => e.set "manifest:media-type" mediaType

/-- Edits the node that `find` returns, in place. -/
def editFirst (path : Str) (f : Elem → Elem) : List Elem → List Elem
  | [] => []
  | e :: r => if hasPath path e then f e :: r else e :: editFirst path f r

/-- `create_new_file_entry`, manifest.py:23-26 -/
def newEntry (id : Nat) (path : Str) : Elem :=
  Elem.set { id := id, tag := "manifest:file-entry" } "manifest:full-path" path

/-- `add`, manifest.py:22-40 -/
def add (path mediaType : Str) (version : Option Str) (m : M) : M :=
  if path ∈ IGNORE_LIST then m
  else match find path m with
    | none => { kids := m.kids ++ [setTypeVersion mediaType version (newEntry m.fresh path)],
                fresh := m.fresh + 1 }
    | some _ => { m with kids := editFirst path (setTypeVersion mediaType version) m.kids }

/-- Removes the node that `find` returns. -/
def removeFirst (path : Str) : List Elem → List Elem
  | [] => []
  | e :: r => if hasPath path e then r else e :: removeFirst path r

/-- `remove`, manifest.py:42-45 -/
def remove (path : Str) (m : M) : M :=
  match find path m with
  | none => m
  | some _ => { m with kids := removeFirst path m.kids }

/-- `Manifest()` without content, manifest.py:16-20 -/
def new : M := { kids := [], fresh := 0 }

end Verif.Manifest
