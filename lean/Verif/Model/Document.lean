import Verif.Model.Package
/-! # Model of `document.py` (packaged documents), the mimetype tables of `const.py`, and
`check_zipfile_for_oasis_validity`

The XML of `meta.xml`, `styles.xml` and `content.xml` is not modelled here: only the tag of the root
and the bytes that the object gives later matter for the package.  The wrapper objects of the body are
not modelled here. -/
namespace Verif.Document
open Verif Verif.Package

/-! ## Tables -/

/-- `MIMETYPES`, const.py:15-32 -/
def MIMETYPES : Dict Str Str :=
  [("odt".toList, "application/vnd.oasis.opendocument.text".toList),
   ("ott".toList, "application/vnd.oasis.opendocument.text-template".toList),
   ("odg".toList, "application/vnd.oasis.opendocument.graphics".toList),
   ("otg".toList, "application/vnd.oasis.opendocument.graphics-template".toList),
   ("odp".toList, "application/vnd.oasis.opendocument.presentation".toList),
   ("otp".toList, "application/vnd.oasis.opendocument.presentation-template".toList),
   ("ods".toList, "application/vnd.oasis.opendocument.spreadsheet".toList),
   ("ots".toList, "application/vnd.oasis.opendocument.spreadsheet-template".toList),
   ("odc".toList, "application/vnd.oasis.opendocument.chart".toList),
   ("otc".toList, "application/vnd.oasis.opendocument.chart-template".toList),
   ("odi".toList, "application/vnd.oasis.opendocument.image".toList),
   ("oti".toList, "application/vnd.oasis.opendocument.image-template".toList),
   ("odf".toList, "application/vnd.oasis.opendocument.formula".toList),
   ("otf".toList, "application/vnd.oasis.opendocument.formula-template".toList),
   ("odm".toList, "application/vnd.oasis.opendocument.text-master".toList),
   ("oth".toList, "application/vnd.oasis.opendocument.text-web".toList)]

/-- `FILE_EXT_FOR_MIMETYPE`, const.py:34 -/
def FILE_EXT_FOR_MIMETYPE : Dict Str Str := Dict.ofPairs (MIMETYPES.map fun p => (p.2, p.1))

/-- The keys of `MIMETYPE_NSMAP`, const.py:188-200; the namespaces themselves are in `Model/Xmlns.lean`. -/
def MIMETYPE_NSMAP : List Str :=
  ["application/vnd.oasis.opendocument.text".toList,
   "application/vnd.oasis.opendocument.text-template".toList,
   "application/vnd.oasis.opendocument.graphics".toList,
   "application/vnd.oasis.opendocument.graphics-template".toList,
   "application/vnd.oasis.opendocument.presentation".toList,
   "application/vnd.oasis.opendocument.presentation-template".toList,
   "application/vnd.oasis.opendocument.spreadsheet".toList,
   "application/vnd.oasis.opendocument.spreadsheet-template".toList,
   "application/vnd.oasis.opendocument.chart".toList,
   "application/vnd.oasis.opendocument.image".toList,
   "application/vnd.oasis.opendocument.formula".toList]

/-- `MIMETYPE_BODYTAG_MAP`, const.py:202-213 -/
def MIMETYPE_BODYTAG_MAP : Dict Str String :=
  [("application/vnd.oasis.opendocument.text".toList, "office:text"),
   ("application/vnd.oasis.opendocument.text-template".toList, "office:text"),
   ("application/vnd.oasis.opendocument.graphics".toList, "office:drawing"),
   ("application/vnd.oasis.opendocument.graphics-template".toList, "office:drawing"),
   ("application/vnd.oasis.opendocument.presentation".toList, "office:presentation"),
   ("application/vnd.oasis.opendocument.presentation-template".toList, "office:presentation"),
   ("application/vnd.oasis.opendocument.spreadsheet".toList, "office:spreadsheet"),
   ("application/vnd.oasis.opendocument.spreadsheet-template".toList, "office:spreadsheet"),
   ("application/vnd.oasis.opendocument.chart".toList, "office:chart"),
   ("application/vnd.oasis.opendocument.image".toList, "office:image")]

/-! ## Names of parts -/

def CONTENT : Str := "content.xml".toList
def META : Str := "meta.xml".toList
def STYLES : Str := "styles.xml".toList
def MANIFEST : Str := "META-INF/manifest.xml".toList
def ROOT : Str := "/".toList
def XML : Str := "text/xml".toList

/-- Libraries: those of the package, UTF-8 decoding, the tag of the root of an XML file, and the bytes
of the part `name` of a document with this mimetype that was made from the stored file (or anew). -/
structure DLib where
  pkg : Lib
  decode : Bytes → Except Exc Str
  root : Bytes → Option String
  partBytes : Str → Str → Option Bytes → Except Exc Bytes

/-- What is assumed of the libraries. -/
structure DLib.Lawful (d : DLib) : Prop where
  pkg : d.pkg.Lawful
  decode_utf8 : ∀ s, d.decode (utf8 s) = .ok s

/-! ## Documents -/

/-- `PackagedDocument`, document.py:200-229 -/
structure Doc where
  fm : FM
  docname : Option Path
  mimetype : Str
  doctype : Str
  deriving DecidableEq

/-- `get_xml_element`, filemanager.py:133-138: root tag and bytes; an empty file counts as missing. -/
def getXml (d : DLib) (fs : FS) (fm : FM) (name : Str) : Except Exc (Option (String × Bytes)) :=
  match getBytes fs fm name with
  | .error e => .error e
  | .ok none => .ok none
  | .ok (some b) =>
    if b = [] then .ok none
    else match d.root b with
      | none => .error .XMLSyntaxError
      | some t => .ok (some (t, b))

/-- The constructor of a part, meta.py:34-40, styles.py:20-27, content.py:20-28: a stored root must have
the expected tag.  `bad` is the exception otherwise, `new` what happens for a missing file. -/
def xmlPart (d : DLib) (fs : FS) (fm : FM) (mimetype name : Str) (tag : String) (bad : Exc)
    (new : Except Exc Unit) : Except Exc Element :=
  match getXml d fs fm name with
  | .error e => .error e
  | .ok none => match new with
    | .error e => .error e
    | .ok _ => .ok (.object (d.partBytes name mimetype none))
  | .ok (some (t, b)) =>
    if t = tag then .ok (.object (d.partBytes name mimetype (some b))) else .error bad

/-- `zipname`, filemanager.py:48; a stream has none. -/
def zipname (fm : FM) : Option Path :=
  match fm.source with
  | .file p => p
  | .stream _ => none

/-- `PackagedDocument.__init__`, document.py:203-229.  The mimetype `None` is refused by lxml in
`manifest.add`.  The message of styles.py:26 uses an undefined name. -/
def packaged (d : DLib) (fs : FS) (now : Nat) (fm : FM) (mimetype : Option Str) : Except Exc Doc :=
  match mimetype with
  | none => .error .TypeError
  | some mt =>
    let fm0 : FM := { fm with manifest := Manifest.add ROOT mt none fm.manifest }
    match FILE_EXT_FOR_MIMETYPE.get mt with
    | none => .error .KeyError
    | some ext =>
      let fm1 := register MIMETYPE (.text mt) [] now fm0
      match xmlPart d fs fm1 mt META "office:document-meta" .ValueError (.ok ()) with
      | .error e => .error e
      | .ok m =>
        let fm2 := register META m XML now fm1
        match xmlPart d fs fm2 mt STYLES "office:document-styles" .NameError (.ok ()) with
        | .error e => .error e
        | .ok s =>
          let fm3 := register STYLES s XML now fm2
          match xmlPart d fs fm3 mt CONTENT "office:document-content" .ValueError
              (if mt ∈ MIMETYPE_NSMAP then .ok () else .error .KeyError) with
          | .error e => .error e
          | .ok c =>
            let fm4 := register CONTENT c XML now fm3
            match MIMETYPE_BODYTAG_MAP.get mt with
            | none => .error .KeyError
            | some _ => .ok { fm := fm4, docname := zipname fm4, mimetype := mt, doctype := ext }

/-- `os.path.splitext(p)[1]`: from the last dot of the last component, unless only dots precede it. -/
def splitext (p : Path) : Str :=
  let base := (p.reverse.takeWhile (· ≠ '/')).reverse
  let suffix := (base.reverse.takeWhile (· ≠ '.')).reverse
  if '.' ∈ base ∧ (base.take (base.length - suffix.length - 1)).any (· ≠ '.') then '.' :: suffix else []

/-- `__detect_mime_type`, document.py:56-68, with `get_text`, filemanager.py:125-131 -/
def detect (d : DLib) (fs : FS) (fm : FM) : Except Exc (Option Str) :=
  match getBytes fs fm MIMETYPE with
  | .error e => .error e
  | .ok (some b) => match d.decode b with
    | .error e => .error e
    | .ok m => .ok (some m)
  | .ok none => match Manifest.find ROOT fm.manifest with
    | some e => .ok (e.get "manifest:media-type")
    | none => match zipname fm with
      | none => .error .TypeError
      | some p => match MIMETYPES.get (splitext p) with
        | none => .error .KeyError
        | some m => .ok (some m)

/-- `opendoc`, document.py:39-53, of a file name or a stream; the branch for flat XML is reached for
`None` only. -/
def opendoc (d : DLib) (fs : FS) (now : Nat) (src : Source) : Except Exc Doc :=
  match open_ d.pkg fs src now with
  | .error e => .error e
  | .ok fm => match detect d fs fm with
    | .error e => .error e
    | .ok mt => packaged d fs now fm mt

/-- What can be given as template: a stream, bytes, a file name. -/
inductive Template where
  | stream (c : Content)
  | bytes (c : Content)
  | path (p : Path)

/-- `get_filemanager`, document.py:83-91, with `is_valid_stream`, document.py:28-36 -/
def templateManager (d : DLib) (fs : FS) (now : Nat) : Template → Except Exc FM
  | .stream c => open_ d.pkg fs (.stream (some c)) now
  | .bytes (.zip z) => open_ d.pkg fs (.stream (some (.zip z))) now
  | .bytes (.raw _) => .error .IOError
  | .path p => match fs p with
    | some (.zip _) => open_ d.pkg fs (.file (some p)) now
    | _ => .error .IOError

/-- document.py:95-96 -/
def stripTemplate (m : Str) : Str :=
  if "-template".toList.isSuffixOf m then m.take (m.length - 9) else m

/-- `_new_doc_from_template`, document.py:81-102; `InvalidFiletypeError` is a TypeError. -/
def newFromTemplate (d : DLib) (fs : FS) (now : Nat) (filename : Path) (t : Template) : Except Exc Doc :=
  match templateManager d fs now t with
  | .error e => .error e
  | .ok fm => match getBytes fs fm MIMETYPE with
    | .error e => .error e
    | .ok none => .error .AttributeError
    | .ok (some b) => match d.decode b with
      | .error e => .error e
      | .ok m => match packaged d fs now fm (some (stripTemplate m)) with
        | .error .KeyError => .error .TypeError
        | .error e => .error e
        | .ok doc => .ok { doc with docname := some filename }

/-- `newdoc`, document.py:71-78 -/
def newdoc (d : DLib) (fs : FS) (now : Nat) (doctype : Str) (filename : Path) (template : Option Template) :
    Except Exc Doc :=
  match template with
  | some t => newFromTemplate d fs now filename t
  | none => match MIMETYPES.get doctype with
    | none => .error .KeyError
    | some mt => match open_ d.pkg fs (.file none) now with
      | .error e => .error e
      | .ok fm => match packaged d fs now fm (some mt) with
        | .error e => .error e
        | .ok doc => .ok { doc with docname := some filename }

/-! ## The check of a package -/

/-- The dictionary of `check_manifest`, filemanager.py:193 -/
def entries (kids : List Elem) : Dict (Option Str) Elem :=
  Dict.ofPairs ((kids.filter fun e => e.tag = "manifest:file-entry").map
    fun e => (e.get "manifest:full-path", e))

/-- `check_manifest`, filemanager.py:191-199 -/
def checkManifest (d : DLib) (mimetype stream : Bytes) : Except Exc Bool :=
  match d.pkg.parse stream with
  | none => .error .XMLSyntaxError
  | some kids =>
    let directory := entries kids
    if [CONTENT, META, STYLES, ROOT].any (fun n => some n ∉ directory.keys) then .ok false
    else match d.decode mimetype with
      | .error e => .error e
      | .ok m => match directory.get (some ROOT) with
        | none => .error .KeyError
        | some e => .ok (decide (some m = e.get "manifest:media-type"))

/-- `check_zipfile_for_oasis_validity`, filemanager.py:187-228, for the file with this content -/
def check (d : DLib) (file : Option Content) (mimetype : Bytes) : Except Exc Bool :=
  match file with
  | some (.zip z) =>
    let buffer := (d.pkg.bytes z).take (38 + mimetype.length)
    if buffer.drop 30 ≠ utf8 MIMETYPE ++ mimetype then .ok false
    else
      let names := z.map Member.name
      match if MANIFEST ∈ names then z.read MANIFEST else none with
      | none => .ok false
      | some manifest =>
        if [CONTENT, META, STYLES, MIMETYPE].any (· ∉ names) then .ok false
        else checkManifest d mimetype manifest
  | _ => .ok false

end Verif.Document
