import Verif.Model.Manifest
import Verif.Model.Dict
/-! # Model of `filemanager.py` and `bytestreammanager.py`

Python's `zipfile`, `lxml` and the file system are libraries: a zip file is its list of members in
order, and the library reads what it wrote.  Every member of a zip file can be read (no CRC errors,
no encryption).  Member names contain no NUL (`ZipInfo` cuts them there).  Paths are absolute and
normalised, so `os.path.abspath` does nothing. -/
namespace Verif.Package
open Verif

abbrev Bytes := List UInt8
abbrev Path := Str

/-- `str.encode('utf-8')`, compatibility.py:28-29 -/
def utf8 (s : Str) : Bytes := s.flatMap String.utf8EncodeChar

/-- `'mimetype'`, filemanager.py:142 -/
def MIMETYPE : Str := "mimetype".toList

/-! ## Zip files -/

/-- A member of a zip file: `ZipInfo` with the data.  `info` stands for date and attributes. -/
structure Member where
  name : Str
  stored : Bool
  info : Nat
  extra : Bytes
  data : Bytes
  deriving DecidableEq

abbrev Zip := List Member

/-- `ZipFile.read(name)`: of members with the same name the last one; `none` is a KeyError. -/
def Zip.read (z : Zip) (name : Str) : Option Bytes :=
  (z.reverse.find? fun m => m.name = name).map Member.data

/-- What a file contains. -/
inductive Content where
  | zip (z : Zip)
  | raw (b : Bytes)
  deriving DecidableEq

/-- Libraries: serialisation of the manifest element, the 30 bytes before the name of a member, the
compression, and the bytes after the last member. -/
structure Lib where
  tostring : List Elem → Bytes
  parse : Bytes → Option (List Elem)
  header : Member → Bytes
  deflate : Bytes → Bytes
  directory : Zip → Bytes

/-- What is assumed of the libraries. -/
structure Lib.Lawful (lib : Lib) : Prop where
  parse_tostring : ∀ l, ∃ l', lib.parse (lib.tostring l) = some l' ∧
    l'.map (fun e => (e.tag, e.attrs)) = l.map fun e => (e.tag, e.attrs)
  header_length : ∀ m, (lib.header m).length = 30

/-- The bytes of a zip file. -/
def Lib.bytes (lib : Lib) (z : Zip) : Bytes :=
  z.flatMap (fun m => lib.header m ++ utf8 m.name ++ m.extra ++
    (if m.stored then m.data else lib.deflate m.data)) ++ lib.directory z

/-! ## Registered parts -/

/-- The objects given to `register`: text, bytes, the manifest object, any other object with a
`tobytes` method (its current outcome), anything else. -/
inductive Element where
  | text (s : Str)
  | bytes (b : Bytes)
  | manifest
  | object (outcome : Except Exc Bytes)
  | other
  deriving DecidableEq

/-- `FileObject`, filemanager.py:22-30; the name is the key of the directory. -/
structure FileObject where
  element : Element
  mediaType : Str
  stored : Bool
  info : Nat
  deriving DecidableEq

/-- Where the document was opened from: a file name (`FileManager`, filemanager.py:46-48) or bytes
(`ByteStreamManager`, bytestreammanager.py:16-21). -/
inductive Source where
  | file (zipname : Option Path)
  | stream (bytes : Option Content)
  deriving DecidableEq

/-- `FileManager`, filemanager.py:45-50 -/
structure FM where
  dir : Dict Str FileObject
  manifest : Manifest.M
  source : Source
  deriving DecidableEq

/-- The files that exist. -/
abbrev FS := Path → Option Content

/-- `register`, filemanager.py:70-76 -/
def register (name : Str) (element : Element) (mediaType : Str) (info : Nat) (fm : FM) : FM :=
  { fm with
    dir := fm.dir.set name { element := element, mediaType := mediaType, stored := false, info := info }
    manifest := Manifest.add name mediaType none fm.manifest }

/-- `FileObject.tobytes`, filemanager.py:32-39, compatibility.py:27-33 -/
def FileObject.tobytes (lib : Lib) (fm : FM) (f : FileObject) : Except Exc Bytes :=
  match f.element with
  | .text s => .ok (utf8 s)
  | .bytes b => .ok b
  | .manifest => .ok (lib.tostring fm.manifest.kids)
  | .object r => r
  | .other => .error .TypeError

/-- `has_zip` and `_open_bytestream`, filemanager.py:52-58, bytestreammanager.py:30-34: the zip file
to read from.  A stream is not checked by `has_zip`; one that is no zip file makes `ZipFile` raise. -/
def srcZip (fs : FS) (fm : FM) : Except Exc (Option Zip) :=
  match fm.source with
  | .file none => .ok none
  | .file (some p) => match fs p with
    | some (.zip z) => .ok (some z)
    | _ => .ok none
  | .stream none => .ok none
  | .stream (some (.zip z)) => .ok (some z)
  | .stream (some (.raw _)) => .error .BadZip

/-- `get_bytes`, filemanager.py:111-123 -/
def getBytes (fs : FS) (fm : FM) (name : Str) : Except Exc (Option Bytes) :=
  match srcZip fs fm with
  | .error e => .error e
  | .ok none => .ok none
  | .ok (some z) => .ok (z.read name)

/-- `FileManager.__init__`, filemanager.py:46-50 with `Manifest.__init__`, manifest.py:16-20 -/
def open_ (lib : Lib) (fs : FS) (source : Source) (now : Nat) : Except Exc FM :=
  let fm : FM := { dir := [], manifest := Manifest.new, source := source }
  match getBytes fs fm "META-INF/manifest.xml".toList with
  | .error e => .error e
  | .ok none => .ok (register "META-INF/manifest.xml".toList .manifest "text/xml".toList now fm)
  | .ok (some b) => match lib.parse b with
    | none => .error .XMLSyntaxError
    | some kids => .ok (register "META-INF/manifest.xml".toList .manifest "text/xml".toList now
        { fm with manifest := { kids := kids, fresh := kids.length } })

/-! ## Writing -/

/-- `zippo.writestr(zipinfo, data)`; `sink` says which members cannot be written. -/
def writestr (sink : Member → Option Exc) (m : Member) : Py (FM × Zip) Unit := fun s =>
  match sink m with
  | some e => (s, .error e)
  | none => ((s.1, s.2 ++ [m]), .ok ())

/-- filemanager.py:144 and 148: the part is converted, then written. -/
def writePart (lib : Lib) (sink : Member → Option Exc) (name : Str) (f : FileObject) :
    Py (FM × Zip) Unit := fun s =>
  match f.tobytes lib s.1 with
  | .error e => (s, .error e)
  | .ok b => writestr sink { name := name, stored := f.stored, info := f.info, extra := [], data := b } s

/-- The loop filemanager.py:147-149 -/
def writeParts (lib : Lib) (sink : Member → Option Exc) : Dict Str FileObject → Py (FM × Zip) Unit
  | [] => pure ()
  | (name, f) :: r => do
    writePart lib sink name f
    writeParts lib sink r

/-- `_copy_from_zip_to_zip`, filemanager.py:172-176; `all` is the whole `filelist`. -/
def copyMembers (sink : Member → Option Exc) (all : Zip) (ignore : List Str) : Zip → Py (FM × Zip) Unit
  | [] => pure ()
  | m :: r =>
    if m.name ∈ ignore then copyMembers sink all ignore r
    else match all.read m.name with
      | none => Py.raise .KeyError
      | some b => do
        writestr sink { m with data := b }
        copyMembers sink all ignore r

/-- `_copy_zip_to`, filemanager.py:155-170 -/
def copyZipTo (sink : Member → Option Exc) (fs : FS) (ignore : List Str) : Py (FM × Zip) Unit := fun s =>
  match srcZip fs s.1 with
  | .error e => (s, .error e)
  | .ok none => (s, .ok ())
  | .ok (some z) => copyMembers sink z ignore z s

/-- `_tozip`, filemanager.py:140-153 -/
def tozip (lib : Lib) (sink : Member → Option Exc) (fs : FS) : Py (FM × Zip) Unit := fun s =>
  match s.1.dir.get MIMETYPE with
  | none => (s, .error .KeyError)
  | some f =>
    let mt := { f with stored := true }
    let s1 : FM × Zip := ({ s.1 with dir := s.1.dir.del MIMETYPE }, s.2)
    (do
      writePart lib sink MIMETYPE mt
      writeParts lib sink s1.1.dir
      Py.modify fun s => ({ s.1 with dir := s.1.dir.set MIMETYPE mt }, s.2)
      copyZipTo sink fs (MIMETYPE :: s1.1.dir.keys)) s1

/-- `tobytes`, filemanager.py:178-185, the zip file in memory -/
def tobytes (lib : Lib) (sink : Member → Option Exc) (fs : FS) (fm : FM) : FM × Except Exc Zip :=
  match tozip lib sink fs (fm, []) with
  | (s, .ok _) => (s.1, .ok s.2)
  | (s, .error e) => (s.1, .error e)

/-! ## Files -/

/-- The state while saving: the manager, the files, and all states of the file system so far (the
first one is the oldest). -/
structure W where
  fm : FM
  fs : FS
  log : List FS

/-- Any change of the file system is visible at once. -/
def W.change (w : W) (fs : FS) : W := { w with fs := fs, log := w.log ++ [fs] }

def FS.write (fs : FS) (p : Path) (c : Option Content) : FS := fun q => if q = p then c else fs q

/-- `os.remove(p)` -/
def osRemove (p : Path) : Py W Unit := fun w =>
  match w.fs p with
  | none => (w, .error .IOError)
  | some _ => (w.change (w.fs.write p none), .ok ())

/-- `os.rename(p, q)`, one step; an existing `q` is replaced. -/
def osRename (p q : Path) : Py W Unit := fun w =>
  match w.fs p with
  | none => (w, .error .IOError)
  | some c => (w.change ((w.fs.write p none).write q (some c)), .ok ())

/-- Creates the file and writes it in pieces. -/
def writePieces (p : Path) : List Bytes → W → W
  | [], w => w
  | b :: r, w => writePieces p r (w.change (w.fs.write p (some (.raw b))))

/-- The folder of a path, with its slash; `os.path.dirname`, filemanager.py:64 -/
def folder (p : Path) : Path := (p.reverse.dropWhile (· ≠ '/')).reverse

/-- `FNCHARS`, filemanager.py:20 -/
def FNCHARS : List Char :=
  "ABCDEFGHIJKLMNOPQRSTUVWXYZabcdefghijklmnopqrstuvwxyz0123456789".toList

/-- `tmpfilename`, filemanager.py:60-68.  `names` are the results of `randomname`, which
consist of `FNCHARS`. -/
def tmpfilename (names : List Str) (basefile : Path) (fs : FS) : Option Path :=
  (names.map fun n => folder basefile ++ n ++ ".tmp".toList).find? fun p => (fs p).isNone

/-- The environment of one call: random names, contents of the unfinished file that can be seen,
members that cannot be written. -/
structure Env where
  names : List Str
  pieces : List Bytes
  sink : Member → Option Exc

/-- `save` to a file name, filemanager.py:78-109.  If `names` runs out, the loop of `tmpfilename`
has not ended; this is put down as an error. -/
def save (lib : Lib) (env : Env) (filename : Path) (backup : Bool) : Py W Unit := fun w =>
  match tmpfilename env.names filename w.fs with
  | none => (w, .error .IOError)
  | some tmp =>
    let w0 := writePieces tmp ([] :: env.pieces) w
    match tozip lib env.sink w0.fs (w.fm, []) with
    | ((fm, _), .error e) => ({ w0 with fm := fm }, .error e)
    | ((fm, z), .ok _) =>
      let w1 := ({ w0 with fm := fm }).change (w0.fs.write tmp (some (.zip z)))
      (do
        if (w1.fs filename).isSome then
          if backup then
            let bak := filename ++ ".bak".toList
            if (w1.fs bak).isSome then osRemove bak
            osRename filename bak
          else osRemove filename
        osRename tmp filename
        Py.modify fun w => { w with fm := { w.fm with source := .file (some filename) } }) w1

/-- `save` to a stream, filemanager.py:81-93: the members written to it. -/
def saveStream (lib : Lib) (env : Env) : Py W Zip := fun w =>
  match tozip lib env.sink w.fs (w.fm, []) with
  | (s, .error e) => ({ w with fm := s.1 }, .error e)
  | (s, .ok _) => ({ w with fm := s.1 }, .ok s.2)

/-- `ByteStreamManager.save` to a file name, bytestreammanager.py:23-28: `open(…, 'wb')` empties the
file before `tobytes` runs. -/
def streamSave (lib : Lib) (env : Env) (filename : Path) : Py W Unit := fun w =>
  let w0 := writePieces filename [[]] w
  match tobytes lib env.sink w0.fs w0.fm with
  | (fm, .error e) => ({ w0 with fm := fm }, .error e)
  | (fm, .ok z) =>
    let w1 := writePieces filename env.pieces { w0 with fm := fm }
    (w1.change (w1.fs.write filename (some (.zip z))), .ok ())

/-- `FlatXMLDocument._saving_routine`, document.py:183-197; `new` is the outcome of `tobytes`. -/
def flatSave (pieces : List Bytes) (filename : Path) (backup : Bool) (new : Except Exc Bytes) : Py W Unit := do
  let w ← Py.get
  if (w.fs filename).isSome && backup then
    let bak := filename ++ ".bak".toList
    if (w.fs bak).isSome then osRemove bak
    osRename filename bak
  fun w =>
    let w0 := writePieces filename [[]] w
    match new with
    | .error e => (w0, .error e)
    | .ok b =>
      let w1 := writePieces filename pieces w0
      (w1.change (w1.fs.write filename (some (.raw b))), .ok ())

end Verif.Package
