import Verif.Model.Whole
import Verif.Model.Text
import Verif.Model.Organizer
import Verif.Model.Tags
/-!
# Programs with the text objects of a document

This joins the model of whole documents (`Model/Whole.lean`) with those of `base.py` (`Model/Base.lean`), `text.py`
(`Model/Text.lean`) and `body.py` (`Model/Organizer.lean`): the objects work on nodes in the tree of the document or on
nodes that are not in a document, and the tree of the document is what is saved.
-/
namespace Verif.TextProg
open Verif Verif.Lxml Verif.Whole Verif.Package Verif.Txt Verif.Ws

/-! ## Nodes -/

/-- `for x in …` -/
def forEach {σ α : Type} (f : α → Py σ Unit) : List α → Py σ Unit
  | [] => pure ()
  | x :: xs => do
    f x
    forEach f xs

/-- `if s: …` with a string `s` -/
def given (s : Str) (m : Py World Unit) : Py World Unit := if s.isEmpty then pure () else m

/-- A new element that is in no tree, base.py:20-24 and the constructors of `whitespaces.py` -/
def newNode (e : Elem) : Py World Nat := fun W =>
  (W ++ Forest.single ({ e with id := Parts.newId W }, .nil), .ok (Parts.newId W))

/-- `text` setter, base.py:35-37 -/
def setText (n : Nat) (s : Option Str) : Py World Unit := Vars.amend n fun e => { e with text := s }

/-- `tail` setter, base.py:42-44 -/
def setTail (n : Nat) (s : Option Str) : Py World Unit := Vars.amend n fun e => { e with tail := s }

/-- `StringProperty` setter, propertymixins.py:17-18; `style_name`, `name`, `href` and others -/
def setString (n : Nat) (k : String) (s : Str) : Py World Unit := Vars.amend n fun e => e.set k s

/-- `set_attr` with a string, base.py:120-125 -/
def setAttr (n : Nat) (k : String) (s : Str) : Py World Unit :=
  if s.isEmpty then .raise .ValueError else setString n k s

/-- `outline_level` setter, text.py:94 with propertymixins.py:66-68 -/
def setLevel (n : Nat) (level : Int) : Py World Unit :=
  setString n "text:outline-level" (intStr (max 1 level))

/-- Loop body of `Span.append_text`, text.py:54-62 -/
def appendPiece (n : Nat) : Item → Py World Unit
  | .text s => do
    let len ← Base.len n
    if 0 < len then do
      let lastchild ← Base.getChild n (-1)
      let e ← Vars.elem lastchild
      setTail lastchild (appendStr e.tail s)
    else do
      let e ← Vars.elem n
      setText n (appendStr e.text s)
  | .elem e => do
    let tag ← newNode e
    let _ ← Base.append n tag

/-- `Span.append_text`, text.py:50-62 -/
def appendText (n : Nat) (s : Str) : Py World Unit := forEach (appendPiece n) (encode s)

/-! ## Constructors -/

/-- `Span.__init__`, text.py:24-30, also of `Paragraph` -/
def newSpan (tag : String) (text style : Str) : Py World Nat := do
  let n ← newNode { id := 0, tag := tag }
  given style (setString n "text:style-name" style)
  given text (appendText n text)
  return n

/-- `Heading.__init__`, text.py:98-101 -/
def newHeading (text : Str) (level : Int) (style : Str) : Py World Nat := do
  let n ← newSpan "text:h" text style
  setLevel n level
  return n

/-- `Hyperlink.__init__`, text.py:110-114, with the setter of `target_frame`, text.py:119-123, for `'_blank'` -/
def newLink (href text style : Str) : Py World Nat := do
  let n ← newSpan "text:a" text style
  given href (setString n "xlink:href" href)
  setAttr n "office:target-frame-name" "_blank".toList
  setAttr n "xlink:show" "new".toList
  return n

/-- `ListHeader.__init__` and `ListItem.__init__`, text.py:130-134 -/
def newLister (tag : String) (text : Str) : Py World Nat := do
  let n ← newNode { id := 0, tag := tag }
  given text do
    let p ← newSpan "text:p" text []
    let _ ← Base.append n p
  return n

/-- `List.__init__`, text.py:151-155 -/
def newList (style : Str) : Py World Nat := do
  let n ← newNode { id := 0, tag := "text:list" }
  given style (setString n "text:style-name" style)
  return n

/-- `Section.__init__`, text.py:180-186 -/
def newSection (name style : Str) : Py World Nat := do
  let n ← newNode { id := 0, tag := "text:section" }
  given style (setString n "text:style-name" style)
  given name (setString n "text:name" name)
  return n

/-- `NumberedParagraph.__init__`, text.py:76-83, with an object as content -/
def newNumbered (c : Nat) : Py World Nat := do
  let n ← newNode { id := 0, tag := "text:numbered-paragraph" }
  let _ ← Base.append n c
  return n

/-- `List.header` setter, text.py:161-168; the class of the header is known by its tag. -/
def setHeader (l h : Nat) : Py World Unit := do
  let e ← Vars.elem h
  if e.tag ≠ "text:list-header" then .raise .TypeError
  else do
    let old ← Base.find l "text:list-header"
    old.elim (pure ()) (Lxml.remove l)
    let _ ← Base.insert l 0 h

/-- `ezlist`, __init__.py:40-53 -/
def ezlist (items : List Str) (header style : Str) : Py World Nat := do
  let l ← newList style
  given header do
    let h ← newLister "text:list-header" header
    setHeader l h
  forEach (fun item => do
    let li ← newLister "text:list-item" item
    let _ ← Base.append l li) items
  return l

/-! ## The body -/

/-- `EpilogueTagBlock.insert_position_before()` of a body, nodeorganizer.py:155-164 -/
def epiloguePosition (b : Nat) : Py World Int := fun W =>
  match W.find b with
  | none => (W, .error .TypeError)
  | some t => (W, Org.epilogueInsertPositionBefore (fun u : Tree => u.1.tag) Tags.TEXT_EPILOGUE t.2.toList none)

/-- `append` of a body: of a text body, body.py:34-36, of the others base.py:132-135 -/
def bodyAppend (b child : Nat) : Py World Nat := do
  let e ← Vars.elem b
  if e.tag = "office:text" then do
    let i ← epiloguePosition b
    let _ ← Base.insert b i child
    return child
  else Base.append b child

/-! ## Programs -/

/-- The document and the nodes of the objects of the program, in the order in which they were made. -/
structure Prog where
  session : Session
  objs : List Nat

def Prog.world (p : Prog) : World := p.session.world

/-- What a program does with nodes; the body is known by the document. -/
def onWorld {α : Type} (m : Py World α) : Py Prog α := fun p =>
  let r := m p.session.world
  ({ p with session := { p.session with world := r.1 } }, r.2)

/-- A new object of the program; the result is its number. -/
def keep (m : Py World Nat) : Py Prog Nat := do
  let n ← onWorld m
  fun p => ({ p with objs := p.objs ++ [n] }, .ok p.objs.length)

/-- The node of the `i`-th object; a program has no other objects (NameError). -/
def obj (i : Nat) : Py Prog Nat := fun p =>
  match p.objs[i]? with
  | none => (p, .error .NameError)
  | some n => (p, .ok n)

/-- The body of the document (`none`) or an object -/
def target : Option Nat → Py Prog Nat
  | none => fun p => (p, .ok p.session.tree.body.node)
  | some i => obj i

/-- `doc.save()`, document.py:118-125 -/
def save (L : XLib) (env : Env) (k : Clock) (backup : Bool) : Py Prog Unit := fun p =>
  let r := saveWhole L env k backup p.session
  ({ p with session := r.1 }, r.2)

/-- `doc.saveas(filename)`, document.py:114-116 -/
def saveas (L : XLib) (env : Env) (k : Clock) (backup : Bool) (f : Path) : Py Prog Unit := fun p =>
  let r := saveasWhole L env k backup f p.session
  ({ p with session := r.1 }, r.2)

/-- Statements of a program.  The first argument of a method is the object; for `Option` arguments `none` is
`doc.body`. -/
inductive Act
  | paragraph (text style : Str)
  | span (text style : Str)
  | heading (text : Str) (level : Int) (style : Str)
  | link (href text style : Str)
  | list (style : Str)
  | item (text : Str)
  | header (text : Str)
  | section_ (name style : Str)
  | numbered (i : Nat)
  | ezlist (items : List Str) (header style : Str)
  | appendText (i : Nat) (s : Str)
  | setHeader (i j : Nat)
  | setText (i : Nat) (s : Option Str)
  | setTail (i : Nat) (s : Option Str)
  | setString (i : Nat) (k : String) (s : Str)
  | setAttr (i : Nat) (k : String) (s : Str)
  | append (p : Option Nat) (i : Nat)
  | insert (p : Option Nat) (index : Int) (i : Nat)
  | insertBefore (p : Option Nat) (j i : Nat)
  | remove (p : Option Nat) (i : Nat)
  | replace (p : Option Nat) (i j : Nat)
  | get (p : Option Nat) (index : Int)
  | set (p : Option Nat) (index : Int) (i : Nat)
  | delete (p : Option Nat) (index : Int)
  | clear (i : Nat)

/-- `append` of an object or of the body -/
def appendTo : Option Nat → Nat → Nat → Py World Nat
  | none, p, c => bodyAppend p c
  | some _, p, c => Base.append p c

/-- A statement, with its result given up.  `append_text` is a method of `Span` and its subclasses only, and `header` of
`List`; a program does not call them on objects of other classes (AttributeError; in Python an assignment to `header` of
another object would only make a new attribute). -/
def exec : Act → Py Prog Unit
  | .paragraph text style => do let _ ← keep (newSpan "text:p" text style)
  | .span text style => do let _ ← keep (newSpan "text:span" text style)
  | .heading text level style => do let _ ← keep (newHeading text level style)
  | .link href text style => do let _ ← keep (newLink href text style)
  | .list style => do let _ ← keep (newList style)
  | .item text => do let _ ← keep (newLister "text:list-item" text)
  | .header text => do let _ ← keep (newLister "text:list-header" text)
  | .section_ name style => do let _ ← keep (newSection name style)
  | .numbered i => do
    let c ← obj i
    let _ ← keep (newNumbered c)
  | .ezlist items header style => do let _ ← keep (ezlist items header style)
  | .appendText i s => do
    let n ← obj i
    let e ← onWorld (Vars.elem n)
    if kind e.tag = .span then onWorld (appendText n s) else .raise .AttributeError
  | .setHeader i j => do
    let n ← obj i
    let h ← obj j
    let e ← onWorld (Vars.elem n)
    if e.tag = "text:list" then onWorld (setHeader n h) else .raise .AttributeError
  | .setText i s => do
    let n ← obj i
    onWorld (setText n s)
  | .setTail i s => do
    let n ← obj i
    onWorld (setTail n s)
  | .setString i k s => do
    let n ← obj i
    onWorld (setString n k s)
  | .setAttr i k s => do
    let n ← obj i
    onWorld (setAttr n k s)
  | .append p i => do
    let t ← target p
    let n ← obj i
    let _ ← onWorld (appendTo p t n)
  | .insert p index i => do
    let t ← target p
    let n ← obj i
    let _ ← onWorld (Base.insert t index n)
  | .insertBefore p j i => do
    let t ← target p
    let m ← obj j
    let n ← obj i
    let _ ← onWorld (Base.insertBefore t m n)
  | .remove p i => do
    let t ← target p
    let n ← obj i
    onWorld (Base.remove t n)
  | .replace p i j => do
    let t ← target p
    let n ← obj i
    let m ← obj j
    onWorld (Base.replace t n m)
  | .get p index => do
    let t ← target p
    let _ ← keep (Base.getChild t index)
  | .set p index i => do
    let t ← target p
    let n ← obj i
    onWorld (Base.setChild t index n)
  | .delete p index => do
    let t ← target p
    onWorld (Base.delChild t index)
  | .clear i => do
    let n ← obj i
    onWorld (Base.clear n)

end Verif.TextProg
