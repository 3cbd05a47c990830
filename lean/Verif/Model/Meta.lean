import Verif.Model.Xml
import Verif.Model.Xmlns
/-! # Model of `meta.py` -/
namespace Verif.Meta
open Verif

/-- `OfficeDocumentMeta`, meta.py:30-49: the `office:meta` element with its children, the node that
`self.count` refers to, and the supply of node identities.  `Keywords` and `Usertags` only hold a
reference to the `office:meta` element (meta.py:92-93, 130-131, 209-210). -/
structure Meta where
  node : Elem
  kids : List Tree
  stats : Nat
  fresh : Nat
  deriving DecidableEq

/-- `TAGS`, meta.py:16-27 -/
def TAGS : Dict String String := [
  ("generator", "meta:generator"),
  ("title", "dc:title"),
  ("description", "dc:description"),
  ("subject", "dc:subject"),
  ("initial-creator", "meta:initial-creator"),
  ("creator", "dc:creator"),
  ("creation-date", "meta:creation-date"),
  ("date", "dc:date"),
  ("editing-cycles", "meta:editing-cycles"),
  ("language", "dc:language")]

/-! ## Nodes -/

/-- `meta.findall(tag)` -/
def findall (tag : String) (kids : List Tree) : List Tree := kids.filter fun t => t.1.tag = tag

/-- Changes the node `i`. -/
def editNode (i : Nat) (f : Tree → Tree) (kids : List Tree) : List Tree :=
  kids.map fun t => if t.1.id = i then f t else t

/-- `meta.remove(node)` -/
def removeNode (i : Nat) (kids : List Tree) : List Tree := kids.eraseP fun t => t.1.id = i

/-- `etree.SubElement(self.meta, tag)`, already with its attributes and text -/
def append (tag : String) (attrs : Attrs) (text : Option Str) (m : Meta) : Meta :=
  { m with
    kids := m.kids ++ [({ id := m.fresh, tag := tag, attrs := attrs, text := text }, .nil)]
    fresh := m.fresh + 1 }

/-- `node.text = value` -/
def setText (v : Option Str) (t : Tree) : Tree := ({ t.1 with text := v }, t.2)

/-- `node.set(key, value)` -/
def setAttr (k : String) (v : Str) (t : Tree) : Tree := (t.1.set k v, t.2)

/-! ## Metatags -/

/-- `__setitem__`, meta.py:68-71 with `subelement`, xmlns.py:14-20 -/
def setitem (key : String) (value : Option Str) : Py Meta Unit := fun m =>
  match TAGS.get key with
  | none => (m, .error .KeyError)
  | some tag => match m.kids.find? fun t => t.1.tag = tag with
    | none => (append tag [] value m, .ok ())
    | some t => ({ m with kids := editNode t.1.id (setText value) m.kids }, .ok ())

/-- `__getitem__`, meta.py:73-78 -/
def getitem (key : String) (m : Meta) : Except Exc (Option Str) :=
  match TAGS.get key with
  | none => .error .KeyError
  | some tag => match m.kids.find? fun t => t.1.tag = tag with
    | none => .error .KeyError
    | some t => .ok t.1.text

/-- `clear`, meta.py:59-62; `Element.clear()` also takes attributes, text and tail. -/
def clear (m : Meta) : Meta :=
  { node := { id := m.node.id, tag := m.node.tag }
    kids := [({ id := m.fresh, tag := "meta:document-statistic" }, .nil)]
    stats := m.fresh
    fresh := m.fresh + 1 }

/-- `touch`, meta.py:64-66; the time is given as a string. -/
def touch (now generator : Str) : Py Meta Unit := do
  setitem "date" (some now)
  setitem "generator" (some generator)

/-- `inc_editing_cycles`, meta.py:80-89: `int(None)` is a TypeError, which is not caught. -/
def incEditingCycles : Py Meta Unit := fun m =>
  match getitem "editing-cycles" m with
  | .error .KeyError => setitem "editing-cycles" (some (intStr 1)) m
  | .error e => (m, .error e)
  | .ok none => (m, .error .TypeError)
  | .ok (some s) => match pyInt s with
    | none => setitem "editing-cycles" (some (intStr 1)) m
    | some n => setitem "editing-cycles" (some (intStr (n + 1))) m

/-- `_BaseDocument.save`, document.py:118-125, as far as it concerns the meta data: the outcome of
the saving routine is given, the broadcasts are left out. -/
def save (now generator : Str) (routine : Except Exc Unit) : Py Meta Unit := do
  touch now generator
  incEditingCycles
  fun m => (m, routine)

/-! ## Keywords -/

/-- `Keywords.__iter__`, meta.py:95-98 -/
def keywords (m : Meta) : List (Option Str) := (findall "meta:keyword" m.kids).map fun t => t.1.text

/-- `Keywords._find`, meta.py:122-127 -/
def kwFind (k : Str) (m : Meta) : Option Tree :=
  (findall "meta:keyword" m.kids).find? fun t => some k = t.1.text

/-- `Keywords.__contains__`, meta.py:100-102 -/
def kwContains (k : Str) (m : Meta) : Bool := (kwFind k m).isSome

/-- `Keywords.add`, meta.py:104-109 -/
def kwAdd (k : Str) (m : Meta) : Meta :=
  match kwFind k m with
  | none => append "meta:keyword" [] (some k) m
  | some _ => m

/-- `Keywords.remove`, meta.py:111-115 -/
def kwRemove (k : Str) (m : Meta) : Meta :=
  match kwFind k m with
  | none => m
  | some t => { m with kids := removeNode t.1.id m.kids }

/-- `Keywords.clear`, meta.py:117-120 -/
def kwClear (m : Meta) : Meta :=
  { m with kids := (findall "meta:keyword" m.kids).foldl (fun l t => removeNode t.1.id l) m.kids }

/-! ## User tags -/

/-- `Usertags.__iter__`, meta.py:133-139 -/
def userIter (m : Meta) : List (Option Str × Option Str) :=
  (findall "meta:user-defined" m.kids).map fun t => (t.1.get "meta:name", t.1.text)

/-- `Usertags._find`, meta.py:196-200 -/
def userFind (name : Str) (m : Meta) : Option Tree :=
  (findall "meta:user-defined" m.kids).find? fun t => some name = t.1.get "meta:name"

/-- `Usertags.__contains__`, meta.py:141-142 -/
def userContains (name : Str) (m : Meta) : Bool := (userFind name m).isSome

/-- meta.py:151-153 on the node found or made -/
def userStore (value : Str) (ty : Option Str) (t : Tree) : Tree :=
  match ty with
  | none => setText (some value) t
  | some y => setAttr "meta:value-type" y (setText (some value) t)

/-- `Usertags.set`, meta.py:144-153, and `__setitem__` (without a type), meta.py:155-156; the value is given as the string `tostr(value)`. -/
def userSet (name value : Str) (ty : Option Str) (m : Meta) : Meta :=
  match userFind name m with
  | none =>
    let m' := append "meta:user-defined" [("meta:name", name)] none m
    { m' with kids := editNode m.fresh (userStore value ty) m'.kids }
  | some t => { m with kids := editNode t.1.id (userStore value ty) m.kids }

/-- `Usertags.__getitem__`, meta.py:158-166 -/
def userGet (name : Str) (m : Meta) : Except Exc (Option Str) :=
  match userFind name m with
  | some t => .ok t.1.text
  | none => .error .KeyError

/-- `Usertags.__delitem__`, meta.py:168-177 -/
def userDel (name : Str) : Py Meta Unit := fun m =>
  match userFind name m with
  | some t => ({ m with kids := removeNode t.1.id m.kids }, .ok ())
  | none => (m, .error .KeyError)

/-- `Usertags.typeof`, meta.py:179-184 -/
def userTypeof (name : Str) (m : Meta) : Except Exc Str :=
  match userFind name m with
  | some t => .ok ((t.1.get "meta:value-type").getD "string".toList)
  | none => .error .KeyError

/-- `Usertags.update`, meta.py:186-189 -/
def userUpdate (d : Dict Str Str) (m : Meta) : Meta :=
  d.foldl (fun m p => userSet p.1 p.2 none m) m

/-- `Usertags.clear`, meta.py:191-194 -/
def userClear (m : Meta) : Meta :=
  { m with kids := (findall "meta:user-defined" m.kids).foldl (fun l t => removeNode t.1.id l) m.kids }

/-! ## Statistics -/

/-- `Statistic.TYPES`, meta.py:203-206 -/
def TYPES : List String := ["page", "table", "draw", "image", "object", "ole-object", "paragraph",
  "word", "character", "row", "frame", "sentence", "syllable", "non-whitespace-character", "cell"]

/-- `Statistic.NS % key`, meta.py:207, in prefix notation -/
def statKey (key : String) : String := "meta:" ++ key ++ "-count"

/-- The attributes of `self.stats`. -/
def statAttrs (m : Meta) : Attrs :=
  match m.kids.find? fun t => t.1.id = m.stats with
  | none => []
  | some t => t.1.attrs

/-- `Statistic.__getitem__`, meta.py:212-224 -/
def statGet (key : String) (m : Meta) : Except Exc Int :=
  if key ∈ TYPES then
    match Attrs.get (statAttrs m) (statKey key) with
    | none => .ok 0
    | some s => match pyInt s with
      | none => .ok 0
      | some n => .ok n
  else .error .KeyError

/-- `Statistic.__setitem__`, meta.py:226-230, for an integer -/
def statSet (key : String) (n : Int) : Py Meta Unit := fun m =>
  if key ∈ TYPES then
    ({ m with kids := editNode m.stats (setAttr (statKey key) (intStr n)) m.kids }, .ok ())
  else (m, .error .KeyError)

/-- The Clark notation of an attribute name; names without colon have no namespace.  Prefixes
unknown to const.py are not modelled. -/
def clarkKey (k : String) : Str :=
  match Xmlns.prefix2clark Xmlns.XML k.toList with
  | .ok c => c
  | .error _ => k.toList

/-- `key[prefix:-6]`, meta.py:237-239 -/
def statName (k : String) : Str :=
  ((clarkKey k).take ((clarkKey k).length - 6)).drop (Xmlns.META_NS.length + 2)

/-- `list(Statistic.__iter__())`, meta.py:232-239 -/
def statIter (m : Meta) : Except Exc (List (Str × Int)) :=
  (statAttrs m).mapM fun p => match pyInt p.2 with
    | none => .error .ValueError
    | some n => .ok (statName p.1, n)

/-- `Statistic.update`, meta.py:241-244 -/
def statUpdate (d : Dict String Int) : Py Meta Unit := fun m =>
  match d with
  | [] => (m, .ok ())
  | (k, n) :: r => match statSet k n m with
    | (m', .ok _) => statUpdate r m'
    | (m', .error e) => (m', .error e)

/-- `Statistic.clear`, meta.py:246-248 -/
def statClear (m : Meta) : Meta :=
  { m with kids := editNode m.stats (fun t => ({ id := t.1.id, tag := t.1.tag }, .nil)) m.kids }

/-! ## Construction -/

/-- `OfficeDocumentMeta(xmlnode)` for a stored `office:meta` element, meta.py:34-49: the first
statistic element is used, or a new one appended. -/
def load (node : Elem) (kids : List Tree) (fresh : Nat) : Meta :=
  match kids.find? fun t => t.1.tag = "meta:document-statistic" with
  | some t => { node := node, kids := kids, stats := t.1.id, fresh := fresh }
  | none => append "meta:document-statistic" [] none
      { node := node, kids := kids, stats := fresh, fresh := fresh }

/-- A new document, meta.py:51-57 and 46-49.  `_setup` runs before the statistic element exists. -/
def new (now now2 generator : Str) : Meta :=
  let m : Meta := { node := { id := 0, tag := "office:meta" }, kids := [], stats := 0, fresh := 1 }
  let m := (setitem "creation-date" (some now) m).1
  let m := (touch now2 generator m).1
  load m.node m.kids m.fresh

end Verif.Meta
