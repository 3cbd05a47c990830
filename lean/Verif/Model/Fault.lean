import Verif.Model.Package
/-! # Saving when the operating system refuses calls -/
namespace Verif.Package
open Verif

/-- The calls on files that can be refused: opening a file for writing, writing what is still in the buffer when
it is closed, `os.remove`, `os.rename`. -/
inductive Call where
  | create (p : Path)
  | close (p : Path)
  | remove (p : Path)
  | rename (p q : Path)
deriving DecidableEq

/-- Which calls are refused, in which state of the files.  (Members that cannot be written are in `Env.sink`.) -/
abbrev Deny := Call → FS → Bool

/-- A call that may be refused; it raises `OSError` (the same class as `IOError`) and changes nothing. -/
def guarded (deny : Deny) (c : Call) (a : Py W Unit) : Py W Unit := fun w =>
  if deny c w.fs then (w, .error .IOError) else a w

/-- `FileManager.save` to a file name, filemanager.py:78-109, with refused calls. -/
def saveF (lib : Lib) (env : Env) (deny : Deny) (filename : Path) (backup : Bool) : Py W Unit := fun w =>
  match tmpfilename env.names filename w.fs with
  | none => (w, .error .IOError)
  | some tmp =>
    if deny (.create tmp) w.fs then (w, .error .IOError) else
    let w0 := writePieces tmp ([] :: env.pieces) w
    match tozip lib env.sink w0.fs (w.fm, []) with
    | ((fm, _), .error e) => ({ w0 with fm := fm }, .error e)
    | ((fm, z), .ok _) =>
      if deny (.close tmp) w0.fs then ({ w0 with fm := fm }, .error .IOError) else
      let w1 := ({ w0 with fm := fm }).change (w0.fs.write tmp (some (.zip z)))
      (do
        if (w1.fs filename).isSome then
          if backup then
            let bak := filename ++ ".bak".toList
            if (w1.fs bak).isSome then guarded deny (.remove bak) (osRemove bak)
            guarded deny (.rename filename bak) (osRename filename bak)
          else guarded deny (.remove filename) (osRemove filename)
        guarded deny (.rename tmp filename) (osRename tmp filename)
        Py.modify fun w => { w with fm := { w.fm with source := .file (some filename) } }) w1

/-- `FlatXMLDocument._saving_routine`, document.py:183-197, with refused calls. -/
def flatSaveF (deny : Deny) (pieces : List Bytes) (filename : Path) (backup : Bool) (new : Except Exc Bytes) :
    Py W Unit := do
  let w ← Py.get
  if (w.fs filename).isSome && backup then
    let bak := filename ++ ".bak".toList
    if (w.fs bak).isSome then guarded deny (.remove bak) (osRemove bak)
    guarded deny (.rename filename bak) (osRename filename bak)
  guarded deny (.create filename) fun w =>
    let w0 := writePieces filename [[]] w
    match new with
    | .error e => (w0, .error e)
    | .ok b =>
      let w1 := writePieces filename pieces w0
      if deny (.close filename) w1.fs then (w1, .error .IOError) else
      (w1.change (w1.fs.write filename (some (.raw b))), .ok ())

end Verif.Package
