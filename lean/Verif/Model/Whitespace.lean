import Verif.Model.Xml
/-!
# Model of `ezodf/whitespaces.py`
-/
namespace Verif.Ws
open Verif

/-- An item of the list returned by `encode_whitespaces`: a string or a whitespace element.
Elements are modelled by their XML (tag and attributes). -/
inductive Item
  | text (s : Str)
  | elem (e : Elem)
  deriving DecidableEq, Repr

/-- `Tabulator()`, whitespaces.py:14-16 with base.py:20-24 (a new element).
The identity of the new element is not used in this file. -/
def tabulator : Elem := { id := 0, tag := "text:tab" }
/-- `LineBreak()`, whitespaces.py:28-30. -/
def lineBreak : Elem := { id := 0, tag := "text:line-break" }
/-- `Spaces(count)`, whitespaces.py:38-50: the setter stores `text:c` only for counts above 1
(`set_attr`, base.py:120-125, never sees an empty string here). -/
def spaces (count : Nat) : Elem :=
  if 1 < count then { id := 0, tag := "text:s", attrs := [("text:c", natStr count)] }
  else { id := 0, tag := "text:s" }

/-- `Spaces.count`, whitespaces.py:43-46. `none` is the `ValueError` of `int()`. -/
def spacesCount (e : Elem) : Option Int :=
  match e.get "text:c" with
  | some c => pyInt c
  | none => some 1

/-- Plain text of a whitespace element: whitespaces.py:25-26 (tab), 32-33 (line break),
56-57 (`' ' * count`, empty for negative counts), 66-67 (soft page break).  Other elements do
not occur in encoder output; they use `GenericWrapper.plaintext` (base.py:161-164). -/
def plaintext (e : Elem) : Option Str :=
  if e.tag = "text:tab" then some ['\t']
  else if e.tag = "text:line-break" then some ['\n']
  else if e.tag = "text:s" then (spacesCount e).map fun n => List.replicate n.toNat ' '
  else if e.tag = "text:soft-page-break" then some []
  else some (e.text.getD [])

/-- State of `_WhitespaceEncoder` (whitespaces.py:70-72); `stack` in string order. -/
structure Enc where
  result : List Item := []
  stack : Str := []
  spaceCounter : Nat := 0
  deriving Repr

/-- `append_stack`, whitespaces.py:97-102. -/
def Enc.appendStack (s : Enc) : Enc :=
  if s.stack.isEmpty then s
  else { s with stack := [], result := s.result ++ [.text s.stack] }

/-- `append_space`, whitespaces.py:104-110.  `stack[:-spaces]` drops the last `spaces`
entries; callers guarantee `space_counter > 1`, so `spaces ≥ 1`. -/
def Enc.appendSpace (s : Enc) : Enc :=
  let n := s.spaceCounter - 1
  let s1 : Enc := { s with stack := s.stack.take (s.stack.length - n) }
  let s2 := s1.appendStack
  { s2 with result := s2.result ++ [.elem (spaces n)], spaceCounter := 0 }

/-- The common start of `add_brk`, `add_tab` and of the end of `encode`:
whitespaces.py:87-90, 113-117, 121-125. -/
def Enc.flush (s : Enc) : Enc :=
  if 1 < s.spaceCounter then s.appendSpace else s.appendStack

/-- `add_brk`, whitespaces.py:112-118. -/
def Enc.addBrk (s : Enc) : Enc :=
  let s := s.flush
  { s with spaceCounter := 0, result := s.result ++ [.elem lineBreak] }

/-- `add_tab`, whitespaces.py:120-126. -/
def Enc.addTab (s : Enc) : Enc :=
  let s := s.flush
  { s with spaceCounter := 0, result := s.result ++ [.elem tabulator] }

/-- `add_char`, whitespaces.py:132-138. -/
def Enc.addChar (s : Enc) (c : Char) : Enc :=
  let s := if c ≠ ' ' then
      (if 1 < s.spaceCounter then s.appendSpace else { s with spaceCounter := 0 })
    else s
  { s with stack := s.stack ++ [c] }

/-- `add_spc`, whitespaces.py:128-130. -/
def Enc.addSpc (s : Enc) : Enc :=
  let s := s.addChar ' '
  { s with spaceCounter := s.spaceCounter + 1 }

/-- Loop body of `encode`, whitespaces.py:79-86. -/
def Enc.step (s : Enc) (c : Char) : Enc :=
  if c = '\n' then s.addBrk
  else if c = '\t' then s.addTab
  else if c = ' ' then s.addSpc
  else s.addChar c

/-- `encode_whitespaces`, whitespaces.py:74-91 and 143-144. -/
def encode (t : Str) : List Item := ((t.foldl Enc.step {}).flush).result

/-- `tostr(tag)` for an item: a string is itself, an element is its plain text
(whitespaces.py:18-19). -/
def itemStr : Item → Option Str
  | .text s => some s
  | .elem e => plaintext e

/-- `decode_whitespaces`, whitespaces.py:93-95 and 146-147. -/
def decode : List Item → Option Str
  | [] => some []
  | i :: is => match itemStr i, decode is with
    | some a, some b => some (a ++ b)
    | _, _ => none

end Verif.Ws
