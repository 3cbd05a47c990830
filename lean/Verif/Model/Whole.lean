import Verif.Model.Parts
import Verif.Model.Meta
/-!
# Model of whole packaged documents: opening, the trees of the parts, saving

This joins the models of `document.py` and the package (`Model/Document.lean`, `Model/Package.lean`), of the
trees of `styles.xml` and `content.xml` (`Model/Parts.lean`) and of `meta.xml` (`Model/Meta.lean`).  Namespace
declarations are not part of the trees.
-/
namespace Verif.Whole
open Verif Verif.Lxml Verif.Package Verif.Document

/-- The characters that an XML file can contain (XML 1.0, production 2); lxml refuses strings with other
characters. -/
def xmlChar (c : Char) : Bool :=
  c = '\t' || c = '\n' || c = '\r' || (0x20 ≤ c.toNat && c.toNat ≤ 0xD7FF) ||
    (0xE000 ≤ c.toNat && c.toNat ≤ 0xFFFD) || (0x10000 ≤ c.toNat && c.toNat ≤ 0x10FFFF)

def legalStr (s : Str) : Bool := s.all xmlChar

def legalOpt : Option Str → Bool
  | none => true
  | some s => legalStr s

/-- A name without a colon (a letter, then letters, digits, `-`, `_`, `.`; ASCII only). -/
def legalPart (s : Str) : Bool :=
  s.all (fun c => c.isAlphanum || c = '-' || c = '_' || c = '.') && s.head?.any fun c => c.isAlpha

/-- A name in prefix notation that can be written; `xmlns` is no name of an attribute or prefix. -/
def legalName (s : String) : Bool :=
  let p := s.toList.takeWhile (· ≠ ':')
  let r := s.toList.dropWhile (· ≠ ':')
  legalPart p && decide (p ≠ "xmlns".toList) && (r.isEmpty || legalPart r.tail)

/-- An element that can be written: names, distinct attributes, characters. -/
def legalElem (e : Elem) : Bool :=
  legalName e.tag && e.attrs.all (fun p => legalName p.1 && legalStr p.2) && decide (e.attrs.map Prod.fst).Nodup &&
    legalOpt e.text && legalOpt e.tail

/-- All elements of a forest can be written. -/
def legal : Forest → Bool
  | .nil => true
  | .cons e k r => legalElem e && legal k && legal r

/-- An empty text is not written: `<a></a>` and `<a/>` are read in the same way. -/
def noEmpty : Option Str → Option Str
  | some [] => none
  | x => x

/-- What a file says of an element: no identity, no difference between no text and an empty text. -/
def written (e : Elem) : Elem := { e with id := 0, text := noEmpty e.text, tail := noEmpty e.tail }

/-- What a file says of a tree. -/
def shape (t : Tree) : Tree := (written t.1, t.2.map written)

/-- A tree without the identities of its nodes. -/
def data (t : Tree) : Tree := ({ t.1 with id := 0 }, t.2.erase)

/-- Libraries: those of the package, UTF-8 decoding, `etree.XML(bytes)` (the identities of the new nodes begin
with the given number), `etree.tostring(root)`. -/
structure XLib where
  pkg : Lib
  decode : Bytes → Except Exc Str
  xml : Nat → Bytes → Option Tree
  tostring : Tree → Bytes

/-- What is assumed of the libraries: the new nodes have new identities, a root has no tail, the identities are
the only choice, no file is empty, and a written tree is read again with what the file says of it. -/
structure XLib.Lawful (L : XLib) : Prop where
  pkg : L.pkg.Lawful
  decode_utf8 : ∀ s, L.decode (utf8 s) = .ok s
  fresh : ∀ n b t, L.xml n b = some t →
    (Forest.ids (Forest.single t)).Nodup ∧ ∀ i ∈ Forest.ids (Forest.single t), n ≤ i
  tail : ∀ n b t, L.xml n b = some t → t.1.tail = none
  same : ∀ n m b, (L.xml n b).map data = (L.xml m b).map data
  empty : ∀ n, L.xml n [] = none
  reread : ∀ n t, legal (Forest.single t) = true → t.1.tail = none →
    ∃ t', L.xml n (L.tostring t) = some t' ∧ data t' = shape t

/-- The library of the package model.  The bytes of the three parts are put in by `sync` before they are
written. -/
def dlib (L : XLib) : DLib where
  pkg := L.pkg
  decode := L.decode
  root b := (L.xml 0 b).map fun t => t.1.tag
  partBytes _ _ _ := .ok []

/-! ## meta.xml -/

/-- The tree of `OfficeDocumentMeta`: the root, its children before `office:meta`, that element, and the
children after it. -/
structure MetaPart where
  root : Elem
  before : List Tree
  m : Meta.Meta
  after : List Tree

/-- The tree of the part -/
def MetaPart.tree (p : MetaPart) : Tree :=
  (p.root, Forest.ofList (p.before ++ (p.m.node, Forest.ofList p.m.kids) :: p.after))

/-- The moment and the generator name -/
structure Clock where
  now : Nat
  time : Str
  time2 : Str
  generator : Str

/-- `self.xmlnode.set(CN('grddl:transformation'), …)`, meta.py:55 -/
def grddl (e : Elem) : Elem :=
  e.set "grddl:transformation" "http://docs.oasis-open.org/office/1.2/xslt/odf2rdf.xsl".toList

/-- `OfficeDocumentMeta.__init__` and `_setup`, meta.py:34-57, for a root with the right tag or no file: the
first `office:meta` is used, or a new one is appended and filled. -/
def metaInit (k : Clock) : Option Tree → MetaPart
  | none => ⟨grddl { id := 0, tag := "office:document-meta" }, [], Meta.new k.time k.time2 k.generator, []⟩
  | some t =>
    let before := t.2.toList.takeWhile fun u => u.1.tag ≠ "office:meta"
    match t.2.toList.dropWhile fun u => u.1.tag ≠ "office:meta" with
    | u :: after => ⟨t.1, before, Meta.load u.1 u.2.toList (Parts.newId (Forest.single t)), after⟩
    | [] => ⟨grddl t.1, before, Meta.new k.time k.time2 k.generator, []⟩

/-! ## Opening -/

/-- A packaged document with its trees: the package and the files (`w`), all lxml nodes (`world`), the
attributes of the document. -/
structure Session where
  w : Package.W
  world : World
  docname : Option Path
  mimetype : Str
  doctype : Str
  meta_ : MetaPart
  tree : Parts.DocTree

/-- `get_xml_element`, filemanager.py:133-138, of a package that could be read -/
def storedBytes (fs : FS) (fm : FM) (name : Str) : Option Bytes :=
  match getBytes fs fm name with
  | .ok (some b) => if b = [] then none else some b
  | _ => none

/-- `etree.XML(bytes)`: a new tree in the world -/
def readTree (L : XLib) : Option Bytes → Py World (Option Nat)
  | none => pure none
  | some b => fun W => match L.xml (Parts.newId W) b with
    | none => (W, .error .XMLSyntaxError)
    | some t => (W ++ Forest.single t, .ok (some t.1.id))

/-- `PackagedDocument.__init__`, document.py:203-229.  First the package with the checks of the roots
(`Document.packaged`), then the trees.  In the code the steps for the parts alternate; each only depends on
its own file. -/
def packagedWhole (L : XLib) (fs : FS) (k : Clock) (fm : FM) (mimetype : Option Str) (W : World) :
    Except Exc Session :=
  match packaged (dlib L) fs k.now fm mimetype with
  | .error e => .error e
  | .ok doc =>
    let m := metaInit k ((storedBytes fs fm META).bind (L.xml 0))
    match (do
      let so ← readTree L (storedBytes fs fm STYLES)
      let co ← readTree L (storedBytes fs fm CONTENT)
      Parts.packagedTree doc.mimetype so co : Py World Parts.DocTree) W with
    | (_, .error e) => .error e
    | (W', .ok tree) => .ok
      { w := { fm := doc.fm, fs := fs, log := [] }, world := W', docname := doc.docname,
        mimetype := doc.mimetype, doctype := doc.doctype, meta_ := m, tree := tree }

/-- `opendoc`, document.py:39-53 -/
def openWhole (L : XLib) (fs : FS) (k : Clock) (src : Source) (W : World) : Except Exc Session :=
  match open_ L.pkg fs src k.now with
  | .error e => .error e
  | .ok fm => match detect (dlib L) fs fm with
    | .error e => .error e
    | .ok mt => packagedWhole L fs k fm mt W

/-! ## Saving -/

/-- `XMLMixin.tobytes`, xmlns.py:68-76: the bytes of the tree of a node -/
def treeBytes (L : XLib) (W : World) (n : Nat) : Except Exc Bytes :=
  match W.find n with
  | none => .error .TypeError
  | some t => .ok (L.tostring t)

/-- The registered parts are the objects themselves (document.py:220, 223, 226), so `tobytes` gives the trees
as they are now. -/
def syncOps (L : XLib) (W : World) (m : MetaPart) (tree : Parts.DocTree) : List (Str × Element) :=
  [(META, .object (.ok (L.tostring m.tree))),
   (STYLES, .object (treeBytes L W tree.styles.root)),
   (CONTENT, .object (treeBytes L W tree.content.root))]

/-- The current bytes of the registered parts. -/
def sync (w : Package.W) : List (Str × Element) → Package.W
  | [] => w
  | (n, x) :: r => sync (match w.fm.dir.get n with
    | none => w
    | some g => { w with fm := { w.fm with dir := w.fm.dir.set n { g with element := x } } }) r

/-- `PackagedDocument._saving_routine`, document.py:231-232: the manager's own `save`. -/
def routine (lib : Lib) (env : Env) (f : Path) (backup : Bool) : Py Package.W Unit := fun w =>
  match w.fm.source with
  | .file _ => save lib env f backup w
  | .stream _ => streamSave lib env f w

/-- `_BaseDocument.save`, document.py:118-125, of a packaged document; the broadcasts are left out. -/
def saveWhole (L : XLib) (env : Env) (k : Clock) (backup : Bool) : Py Session Unit := fun s =>
  match s.docname with
  | none => (s, .error .IOError)
  | some f =>
    match (do Meta.touch k.time k.generator; Meta.incEditingCycles : Py Meta.Meta Unit) s.meta_.m with
    | (m, .error e) => ({ s with meta_ := { s.meta_ with m := m } }, .error e)
    | (m, .ok _) =>
      let p : MetaPart := { s.meta_ with m := m }
      let (w, r) := routine L.pkg env f backup (sync s.w (syncOps L s.world p s.tree))
      ({ s with meta_ := p, w := w }, r)

/-- `_BaseDocument.saveas`, document.py:114-116 -/
def saveasWhole (L : XLib) (env : Env) (k : Clock) (backup : Bool) (f : Path) : Py Session Unit := fun s =>
  saveWhole L env k backup { s with docname := some f }

/-! ## Documents in memory -/

/-- `PackagedDocument.tobytes`, document.py:234-235, with `FileManager.tobytes`, filemanager.py:178-185; `sink` says
which members cannot be written.  The meta data are not touched. -/
def tobytesWhole (L : XLib) (sink : Member → Option Exc) : Py Session Zip := fun s =>
  let w := sync s.w (syncOps L s.world s.meta_ s.tree)
  let r := Package.tobytes L.pkg sink w.fs w.fm
  ({ s with w := { w with fm := r.1 } }, r.2)

/-- `doc.saveas(stream)`, document.py:114-125, 231-232, filemanager.py:78-93, bytestreammanager.py:23-25, with an empty
stream: what is written to it.  The stream becomes the name of the document; here the name stays as it was, so a
program of the model gives another name before it saves again. -/
def saveStreamWhole (L : XLib) (env : Env) (k : Clock) : Py Session Zip := fun s =>
  match (do Meta.touch k.time k.generator; Meta.incEditingCycles : Py Meta.Meta Unit) s.meta_.m with
  | (m, .error e) => ({ s with meta_ := { s.meta_ with m := m } }, .error e)
  | (m, .ok _) =>
    let p : MetaPart := { s.meta_ with m := m }
    let r := saveStream L.pkg env (sync s.w (syncOps L s.world p s.tree))
    ({ s with meta_ := p, w := r.1 }, r.2)

end Verif.Whole
