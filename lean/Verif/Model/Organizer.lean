import Verif.Model.Py
/-!
# Model of `ezodf/nodeorganizer.py`, `nodestructurechecker.py` and `body.py` (TextBody.append)

The children of a node are a list of nodes `α` (identities) with a `tag`.  lxml's
`insert`/`remove`/`extend` on children are the list operations; nodes given to `insert` and
`extend` here are detached (they have just been removed) or new.
-/
namespace Verif.Org
open Verif

variable {α τ : Type} [DecidableEq τ] (tag : α → τ)

/-- `_extract_nodes` without the removal, nodeorganizer.py:38-42: for each tag, the children with
that tag in document order. -/
def collect (tags : List τ) (l : List α) : List α :=
  tags.flatMap fun t => l.filter fun x => tag x = t

/-- `_remove_children_from_node`, nodeorganizer.py:45-48: `remove` deletes the identical node. -/
def removeAll [DecidableEq α] (l : List α) (children : List α) : List α :=
  children.foldl (fun l c => l.erase c) l

/-- `PreludeEpilogueOrganizer.reorder`, nodeorganizer.py:18-35.
`insert_prelude_nodes` inserts the reversed nodes one by one at position 0. -/
def reorder [DecidableEq α] (preludeTags epilogueTags : List τ) (l : List α) : List α :=
  if l.length < 2 then l
  else
    let preludeNodes := collect tag preludeTags l
    let l := removeAll l preludeNodes
    let epilogueNodes := collect tag epilogueTags l
    let l := removeAll l epilogueNodes
    let l := preludeNodes.reverse.foldl (fun l n => n :: l) l
    l ++ epilogueNodes

/-- Constructor check of the tag blocks, nodeorganizer.py:52-60. -/
def checkTags (tags : List τ) : Except Exc Unit :=
  if tags.length = 0 then .error .ValueError
  else if ¬ tags.Nodup then .error .ValueError
  else .ok ()

/-- Loop of `_count_tags_in_block`, nodeorganizer.py:75-86.  `tags` is the remaining tag tuple;
`tags[tags.index(child.tag):]` drops the tags before the child's tag. -/
def countLoop : List τ → List α → Nat
  | _, [] => 0
  | tags, c :: cs =>
    if tags.head? = some (tag c) then countLoop tags cs + 1
    else if tag c ∈ tags then countLoop (tags.dropWhile (fun t => t ≠ tag c)) cs + 1
    else 0

/-- `_count_tags_in_block` = `len(block)`, nodeorganizer.py:62-86. -/
def blockLen (tags : List τ) (l : List α) : Nat :=
  if l.length = 0 ∨ tags.length = 0 then 0 else countLoop tag tags l

/-- `get_pos_and_count`, nodeorganizer.py:91-101; `pos` counts the elements seen so far. -/
def posAndCount (t : τ) : List α → Nat → Int → Nat → Int × Nat
  | [], _, last, count => if 0 < count then (last - count + 1, count) else (-1, 0)
  | x :: xs, pos, last, count =>
    if tag x = t then posAndCount t xs (pos + 1) pos (count + 1)
    else posAndCount t xs (pos + 1) last count

/-- `PreludeTagBlock.tag_info`, nodeorganizer.py:88-105, with `_check_for_valid_tag`, nodeorganizer.py:107-109. -/
def tagInfo (tags : List τ) (l : List α) (t : τ) : Except Exc (Int × Nat) :=
  if t ∉ tags then .error .ValueError
  else .ok (posAndCount tag t (l.take (blockLen tag tags l)) 0 (-1) 0)

/-- Loop of `insert_position_before`, nodeorganizer.py:118-122. -/
def firstPresent (tags : List τ) (l : List α) : List τ → Except Exc Int
  | [] => .ok 0
  | t :: ts => match tagInfo tag tags l t with
    | .error e => .error e
    | .ok (pos, count) => if 0 < count then .ok pos else firstPresent tags l ts

/-- `_get_tag_and_successors`, nodeorganizer.py:111-113. -/
def tagAndSuccessors (tags : List τ) (t : τ) : List τ := tags.dropWhile fun u => u ≠ t

/-- `PreludeTagBlock.insert_position_before`, nodeorganizer.py:115-122. -/
def insertPositionBefore (tags : List τ) (l : List α) (t : τ) : Except Exc Int :=
  if t ∉ tags then .error .ValueError
  else firstPresent tag tags l (tagAndSuccessors tags t)

/-- `_successor_tag`, nodeorganizer.py:124-126; `none` is IndexError. -/
def successorTag (tags : List τ) (t : τ) : Option τ := (tagAndSuccessors tags t)[1]?

/-- `PreludeTagBlock.insert_position_after`, nodeorganizer.py:128-137. -/
def insertPositionAfter (tags : List τ) (l : List α) (t : Option τ) : Except Exc Int :=
  match (match t with | none => tags.getLast? | some t => some t) with
  | none => .error .IndexError
  | some t =>
    if t ∉ tags then .error .ValueError
    else if tags.getLast? = some t then .ok (blockLen tag tags l : Int)
    else match successorTag tags t with
      | none => .error .IndexError
      | some s => insertPositionBefore tag tags l s

/-- `len(EpilogueTagBlock)`, nodeorganizer.py:139-147: reversed tags over reversed children. -/
def epilogueLen (tags : List τ) (l : List α) : Nat := blockLen tag tags.reverse l.reverse

/-- `EpilogueTagBlock.tag_info`, nodeorganizer.py:149-153. -/
def epilogueTagInfo (tags : List τ) (l : List α) (t : τ) : Except Exc (Int × Nat) :=
  match tagInfo tag tags.reverse l.reverse t with
  | .error e => .error e
  | .ok (pos, count) => .ok (if 0 < count then (l.length : Int) - pos - count else pos, count)

/-- Loop of `EpilogueTagBlock.insert_position_after`, nodeorganizer.py:172-176; `tags` reversed. -/
def epilogueFirstPresent (rtags : List τ) (l : List α) : List τ → Except Exc Int
  | [] => .ok l.length
  | t :: ts => match tagInfo tag rtags l.reverse t with
    | .error e => .error e
    | .ok (pos, count) =>
      if 0 < count then .ok ((l.length : Int) - pos) else epilogueFirstPresent rtags l ts

/-- `EpilogueTagBlock.insert_position_after`, nodeorganizer.py:166-176. -/
def epilogueInsertPositionAfter (tags : List τ) (l : List α) (t : τ) : Except Exc Int :=
  if t ∉ tags.reverse then .error .ValueError
  else epilogueFirstPresent tag tags.reverse l (tagAndSuccessors tags.reverse t)

/-- `EpilogueTagBlock.insert_position_before`, nodeorganizer.py:155-164. -/
def epilogueInsertPositionBefore (tags : List τ) (l : List α) (t : Option τ) : Except Exc Int :=
  match (match t with | none => tags.reverse.getLast? | some t => some t) with
  | none => .error .IndexError
  | some t =>
    if t ∉ tags.reverse then .error .ValueError
    else if tags.reverse.getLast? = some t then .ok ((l.length : Int) - epilogueLen tag tags l)
    else match successorTag tags.reverse t with
      | none => .error .IndexError
      | some s => epilogueInsertPositionAfter tag tags l s

/-- lxml `insert(index, child)` of a detached child: out-of-range indices append. -/
def lxmlInsert (l : List α) (i : Int) (x : α) : List α :=
  match pyIdx l.length i with
  | some n => l.take n ++ x :: l.drop n
  | none => l ++ [x]

/-- `NodeStructureChecker.is_valid`, nodestructurechecker.py:22-40.  The slice
`children[p:-e]` with `e > 0` stops at `len - e` (at 0 if that is negative). -/
def isValid (pre mid epi : List τ) (l : List α) : Except Exc Bool :=
  match checkTags pre, checkTags epi with
  | .ok _, .ok _ =>
    let p := blockLen tag pre l
    let e := epilogueLen tag epi l
    let m := if e ≠ 0 then (l.take (l.length - e)).drop p else l.drop p
    .ok (m.all fun x => tag x ∈ mid)
  | .error e, _ => .error e
  | _, .error e => .error e

/-- `TextBody.append` of a new element, body.py:34-36. -/
def textBodyAppend (epi : List τ) (l : List α) (x : α) : List α × Except Exc Unit :=
  match epilogueInsertPositionBefore tag epi l none with
  | .ok p => (lxmlInsert l p x, .ok ())
  | .error e => (l, .error e)

/-- `subelement(parent, tag)` on the children list, xmlns.py:14-20: an absent child is appended
at the end; `mk` builds the new element. -/
def subelement (mk : τ → α) (t : τ) (l : List α) : List α :=
  if l.any (fun x => tag x = t) then l else l ++ [mk t]

/-- `GenericBody.__init__`, body.py:18-24; `v` and `u` are the tags `text:variable-decls` and
`text:user-field-decls`. -/
def openBody (mk : τ → α) (v u : τ) (l : List α) : List α :=
  subelement tag mk u (subelement tag mk v l)

end Verif.Org
