import Verif.Model.Dict
/-! # Specification of the meta data

The meta data as four independent variables: tags by key, the keywords in order, the user tags in
order as (name, value, declared type), and the counts by key. -/

namespace Verif.Meta
open Verif

structure Abs where
  tag : String → Option (Option Str)
  keywords : List (Option Str)
  user : List (Option Str × Option Str × Option Str)
  count : String → Int

/-- The keys of the metatags -/
def KEYS : List String := ["generator", "title", "description", "subject", "initial-creator",
  "creator", "creation-date", "date", "editing-cycles", "language"]

/-- The supported statistics -/
def COUNTS : List String := ["page", "table", "draw", "image", "object", "ole-object", "paragraph",
  "word", "character", "row", "frame", "sentence", "syllable", "non-whitespace-character", "cell"]

inductive Op where
  | set (key : String) (value : Option Str)
  | clear
  | save (now generator : Str) (routine : Except Exc Unit)
  | kwAdd (k : Str)
  | kwRemove (k : Str)
  | kwClear
  | userSet (name value : Str) (ty : Option Str)
  | userDel (name : Str)
  | userUpdate (d : Dict Str Str)
  | userClear
  | statSet (key : String) (n : Int)
  | statUpdate (d : Dict String Int)
  | statClear

def setTag (key : String) (v : Option Str) (a : Abs) : Abs :=
  { a with tag := fun k => if k = key ∧ key ∈ KEYS then some v else a.tag k }

def setCount (key : String) (n : Int) (a : Abs) : Abs :=
  { a with count := fun k => if k = key then n else a.count k }

/-- The number of editing cycles: a missing or non-numeric entry counts as 0. -/
def cyclesOf : Option (Option Str) → Int
  | some (some s) => (pyInt s).getD 0
  | _ => 0

def updateCounts : Dict String Int → Abs → Abs
  | [], a => a
  | (k, n) :: r, a => if k ∈ COUNTS then updateCounts r (setCount k n a) else a

/-- Specification of `set` on the list of entries -/
def upsert (n v : Str) (ty : Option Str) : List (Option Str × Option Str × Option Str) →
    List (Option Str × Option Str × Option Str)
  | [] => [(some n, some v, ty)]
  | e :: r => if e.1 = some n then (some n, some v, ty.or e.2.2) :: r else e :: upsert n v ty r

def specStep (a : Abs) : Op → Abs
  | .set k v => setTag k v a
  | .clear => { tag := fun _ => none, keywords := [], user := [], count := fun _ => 0 }
  | .save now gen _ =>
    let b := setTag "generator" (some gen) (setTag "date" (some now) a)
    -- an empty entry stops the save
    if b.tag "editing-cycles" = some none then b
    else setTag "editing-cycles" (some (intStr (cyclesOf (b.tag "editing-cycles") + 1))) b
  | .kwAdd k => if some k ∈ a.keywords then a else { a with keywords := a.keywords ++ [some k] }
  | .kwRemove k => { a with keywords := a.keywords.erase (some k) }
  | .kwClear => { a with keywords := [] }
  | .userSet n v ty => { a with user := upsert n v ty a.user }
  | .userDel n => { a with user := a.user.eraseP fun e => some n = e.1 }
  | .userUpdate d => { a with user := d.foldl (fun l p => upsert p.1 p.2 none l) a.user }
  | .userClear => { a with user := [] }
  | .statSet k n => if k ∈ COUNTS then setCount k n a else a
  | .statUpdate d => updateCounts d a
  | .statClear => { a with count := fun _ => 0 }

def spec (a : Abs) (h : List Op) : Abs := h.foldl specStep a

end Verif.Meta
