import Verif.Model.PageContainer
import Verif.Model.Document
import Verif.Model.Variables
/-!
# Model of the trees of documents: `content.py`, `styles.py` (OfficeDocumentStyles), `body.py`,
`document.py` (the tree part of PackagedDocument, FlatXMLDocument, inject_style)

A new node gets an identity that no node of the world has.  The trees of `meta.xml` are modelled in
`Model/Meta.lean` and left out here, also the meta element of a flat document.  Namespace maps of new
roots are in `Model/Xmlns.lean`.
-/
namespace Verif.Parts
open Verif Verif.Lxml

/-- An identity that is not in use. -/
def newId (W : World) : Nat := (Forest.ids W).foldr max 0 + 1

/-- `subelement(parent, tag)`, xmlns.py:14-20 -/
def sub (parent : Nat) (tag : String) : Py World Nat := fun W =>
  Body.subelement (newId W) parent tag W

/-- `etree.Element(tag)` -/
def newRoot (tag : String) : Py World Nat := fun W =>
  (W ++ Forest.single (⟨newId W, tag, [], none, none⟩, .nil), .ok (newId W))

/-- `xmlnode.tag` -/
def tagOf (n : Nat) : Py World String := fun W =>
  match W.find n with
  | none => (W, .error .TypeError)
  | some t => (W, .ok t.1.tag)

/-! ## styles.xml -/

/-- The attributes of `OfficeDocumentStyles` -/
structure StylesPart where
  root : Nat
  fonts : Nat
  styles : Nat
  automatic : Nat
  master : Nat
  deriving DecidableEq

/-- `OfficeDocumentStyles._setup`, styles.py:29-33.  The containers (`Container.__init__`,
styles.py:38-41) do not change the tree. -/
def stylesSetup (root : Nat) : Py World StylesPart := do
  let fonts ← sub root "office:font-face-decls"
  let styles ← sub root "office:styles"
  let automatic ← sub root "office:automatic-styles"
  let master ← sub root "office:master-styles"
  return ⟨root, fonts, styles, automatic, master⟩

/-- `OfficeDocumentStyles.__init__`, styles.py:20-27; the message for a wrong root uses an undefined
name. -/
def stylesInit : Option Nat → Py World StylesPart
  | none => do
    let root ← newRoot "office:document-styles"
    stylesSetup root
  | some root => do
    let t ← tagOf root
    if t = "office:document-styles" then stylesSetup root else .raise .NameError

/-! ## content.xml -/

/-- The attributes of `OfficeDocumentContent` -/
structure ContentPart where
  root : Nat
  scripts : Nat
  fonts : Nat
  automatic : Nat
  body : Nat
  deriving DecidableEq

/-- `_setup_references`, content.py:29-35 -/
def contentSetup (root : Nat) : Py World ContentPart := do
  let scripts ← sub root "office:scripts"
  let fonts ← sub root "office:font-face-decls"
  let automatic ← sub root "office:automatic-styles"
  let body ← sub root "office:body"
  return ⟨root, scripts, fonts, automatic, body⟩

/-- `OfficeDocumentContent.__init__`, content.py:19-27 -/
def contentInit (mimetype : Str) : Option Nat → Py World ContentPart
  | none =>
    if mimetype ∈ Document.MIMETYPE_NSMAP then do
      let root ← newRoot "office:document-content"
      contentSetup root
    else .raise .KeyError
  | some root => do
    let t ← tagOf root
    if t = "office:document-content" then contentSetup root else .raise .ValueError

/-! ## Bodies -/

/-- A body object: its node, the dictionaries of declarations, and the attributes `sheets` and `pages`
of the classes that have them. -/
structure BodyObj where
  node : Nat
  vars : Dict (Option Str) Vars.Variable
  fields : Dict (Option Str) Vars.Variable
  sheets : Option Nat
  pages : Option Nat

/-- `GenericBody.__init__`, body.py:18-24, and the constructors of the classes, body.py:27-62.
`sheets` and `pages` are containers of the same node.  The epilogue block of a text body is made of
a constant list of tags. -/
def bodyInit (n : Nat) (tag : String) : Py World BodyObj := do
  let v ← sub n "text:variable-decls"
  let variables ← Vars.init v
  let u ← sub n "text:user-field-decls"
  let userfields ← Vars.init u
  return ⟨n, variables, userfields, if tag = "office:spreadsheet" then some n else none,
    if tag = "office:drawing" ∨ tag = "office:presentation" then some n else none⟩

/-- `get_application_body`, content.py:37-40 and document.py:127-129, 176-181; `wrap` finds the class by the tag.
`frame` is the node of office:body. -/
def applicationBody (frame : Nat) (bodytag : String) : Py World BodyObj := do
  let n ← sub frame bodytag
  let t ← tagOf n
  bodyInit n t

/-! ## Packaged documents -/

/-- The tree part of a `PackagedDocument`. -/
structure DocTree where
  styles : StylesPart
  content : ContentPart
  body : BodyObj
  sheets : Option Nat
  pages : Option Nat

/-- `PackagedDocument.__init__`, document.py:207-228, with the stored roots of `styles.xml` and
`content.xml` (none: no such file); `_create_shortcuts`, document.py:131-135. -/
def packagedTree (mimetype : Str) (stylesRoot contentRoot : Option Nat) : Py World DocTree := do
  let s ← stylesInit stylesRoot
  let c ← contentInit mimetype contentRoot
  match Document.MIMETYPE_BODYTAG_MAP.get mimetype with
  | none => .raise .KeyError
  | some tag =>
    let b ← applicationBody c.body tag
    return ⟨s, c, b, b.sheets, b.pages⟩

/-! ## Flat documents -/

/-- The attributes of a `FlatXMLDocument` -/
structure FlatDoc where
  root : Nat
  mimetype : Str
  meta_ : Nat
  styles : Nat
  scripts : Nat
  fonts : Nat
  automatic : Nat
  master : Nat
  body : BodyObj
  sheets : Option Nat
  pages : Option Nat

/-- `FlatXMLDocument._setup`, document.py:166-174, and `_create_shortcuts`.  `self.styles` is assigned
twice, the second value stays. -/
def flatSetup (root : Nat) (mimetype : Str) : Py World FlatDoc := do
  let m ← sub root "office:document-meta"
  let _ ← sub root "office:settings"
  let scripts ← sub root "office:scripts"
  let fonts ← sub root "office:font-face-decls"
  let styles ← sub root "office:styles"
  let automatic ← sub root "office:automatic-styles"
  let master ← sub root "office:master-styles"
  match Document.MIMETYPE_BODYTAG_MAP.get mimetype with
  | none => .raise .KeyError
  | some tag =>
    let frame ← sub root "office:body"
    let b ← applicationBody frame tag
    return ⟨root, mimetype, m, styles, scripts, fonts, automatic, master, b, b.sheets, b.pages⟩

/-- `mimetype not in frozenset(MIMETYPES.values())`, document.py:159-160 -/
def flatCheck (root : Nat) (mimetype : Option Str) : Py World FlatDoc :=
  match mimetype with
  | none => .raise .TypeError
  | some m => if m ∈ Document.MIMETYPES.map Prod.snd then flatSetup root m else .raise .TypeError

/-- `FlatXMLDocument.__init__`, document.py:145-163.  The message for a wrong root tag uses
`self.xmlnode`, which is not set yet. -/
def flatInit (filetype : Str) (xmlnode : Option Nat) : Py World FlatDoc :=
  match Document.MIMETYPES.get filetype with
  | none => .raise .KeyError
  | some mt =>
    match xmlnode with
    | none => do
      let root ← newRoot "office:document"
      flatCheck root (some mt)
    | some root => fun W =>
      match W.find root with
      | none => (W, .error .TypeError)
      | some t =>
        if t.1.tag = "office:document" then flatCheck root (t.1.get "office:mimetype") W
        else (W, .error .AttributeError)

/-! ## inject_style -/

/-- `fake_element`, xmlns.py:109-111, for a string that is parsed to the nodes `F` (new identities)
inside of the root element.  `wrap` as in `Styles.wrap`: the class of page layouts cannot be built;
the other classes of styles and GenericWrapper do not change the tree.  Elements of other classes
(tables, bodies) are not modelled. -/
def fakeElement (F : Forest) : Py World Nat := fun W =>
  let W1 := W ++ Forest.single (⟨max (newId W) (newId F), "root", [], some ['\n'], none⟩, F)
  match F.toList with
  | [] => (W1, .error .IndexError)
  | t :: _ => if t.1.tag = "style:page-layout" then (W1, .error .TypeError) else (W1, .ok t.1.id)

/-- `inject_style`, document.py:137-139; `styles` is the node of `self.styles.styles`, if
`self.styles` has that attribute. -/
def injectStyle (styles : Option Nat) (F : Forest) : Py World Unit := do
  let style ← fakeElement F
  match styles with
  | none => .raise .AttributeError
  | some c => Lxml.append c style

/-- `inject_style` of a packaged document -/
def DocTree.inject (d : DocTree) (F : Forest) : Py World Unit := injectStyle (some d.styles.styles) F

/-- `inject_style` of a flat document: `self.styles` is a `Container` (styles.py:37-67), which has no
attribute `styles`. -/
def FlatDoc.inject (_d : FlatDoc) (F : Forest) : Py World Unit := injectStyle none F

end Verif.Parts
