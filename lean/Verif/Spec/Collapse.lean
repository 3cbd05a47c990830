import Verif.Model.Whitespace
/-!
# Specification: how an ODF consumer reads paragraph content

Written from `docs/whitespaces.rst` (which quotes the ODF standard), independently of the
encoder.  White-space characters (tab, CR, LF, blank) in text become one blank; a white-space
character is ignored after another one and at the start of the paragraph; white space at the
end of the paragraph is ignored.  The elements `text:s`, `text:tab` and `text:line-break` stand
for their characters and are not white-space characters themselves.
-/
namespace Verif.Collapse
open Verif

/-- What precedes the current position. -/
inductive Prev
  | start   -- start of the paragraph
  | raw     -- a white-space character in text
  | other   -- any other character, or an element
  deriving DecidableEq

def isWs (c : Char) : Bool := c == '\t' || c == '\r' || c == '\n' || c == ' '

def readChar (st : Str × Prev) (c : Char) : Str × Prev :=
  if isWs c then
    match st.2 with
    | .other => (st.1 ++ [' '], .raw)
    | _ => st
  else (st.1 ++ [c], .other)

def readText (st : Str × Prev) (w : Str) : Str × Prev := w.foldl readChar st

/-- Characters denoted by a white-space element. -/
def elemText (e : Elem) : Str :=
  if e.tag = "text:tab" then ['\t']
  else if e.tag = "text:line-break" then ['\n']
  else if e.tag = "text:s" then
    match e.get "text:c" with
    | none => [' ']
    | some c => match digitsVal 0 c with
      | some n => List.replicate n ' '
      | none => []
  else []

def readItem (st : Str × Prev) : Ws.Item → Str × Prev
  | .text w => readText st w
  | .elem e => (st.1 ++ elemText e, .other)

/-- The text a consumer sees. -/
def read (items : List Ws.Item) : Str :=
  let st := items.foldl readItem ([], .start)
  if st.2 = .raw then st.1.dropLast else st.1

/-- The text ends with a blank that does not follow another blank. -/
def EndsSingle (t : Str) : Prop := ∃ u : Str, t = u ++ [' '] ∧ u.getLast? ≠ some ' '

end Verif.Collapse
