/-!
# Python primitives

Strings are lists of characters, exceptions are values.  These definitions are part of the
trusted base: they write down documented behaviour of Python built-ins.
-/
namespace Verif

/-- Python text strings (also XML text and attribute values). -/
abbrev Str := List Char

/-- The exception classes raised by the modelled code. -/
inductive Exc
  | ValueError | KeyError | IndexError | TypeError | AttributeError | NameError
  | IOError | BadZip | XMLSyntaxError | OverflowError
  deriving DecidableEq, Repr

instance {ε α : Type} [DecidableEq ε] [DecidableEq α] : DecidableEq (Except ε α)
  | .ok a, .ok b => if h : a = b then isTrue (h ▸ rfl) else isFalse (fun h' => by cases h'; exact h rfl)
  | .error a, .error b =>
    if h : a = b then isTrue (h ▸ rfl) else isFalse (fun h' => by cases h'; exact h rfl)
  | .ok _, .error _ => isFalse (fun h => by cases h)
  | .error _, .ok _ => isFalse (fun h => by cases h)

/-- A computation on a mutable state that may raise: the state is kept also when an
exception is raised, because Python does not roll back. -/
abbrev Py (σ α : Type) := σ → σ × Except Exc α

namespace Py
variable {σ α β : Type}

def pure (a : α) : Py σ α := fun s => (s, .ok a)
def raise (e : Exc) : Py σ α := fun s => (s, .error e)
def bind (m : Py σ α) (f : α → Py σ β) : Py σ β := fun s =>
  match m s with
  | (s', .ok a) => f a s'
  | (s', .error e) => (s', .error e)
def get : Py σ σ := fun s => (s, .ok s)
def set (s : σ) : Py σ Unit := fun _ => (s, .ok ())
def modify (f : σ → σ) : Py σ Unit := fun s => (f s, .ok ())

instance : Monad (Py σ) where
  pure := Py.pure
  bind := Py.bind

@[simp] theorem bind_ok {m : Py σ α} {f : α → Py σ β} {s s' : σ} {a : α}
    (h : m s = (s', .ok a)) : (m >>= f) s = f a s' := by
  show Py.bind m f s = _
  simp [Py.bind, h]

@[simp] theorem bind_error {m : Py σ α} {f : α → Py σ β} {s s' : σ} {e : Exc}
    (h : m s = (s', .error e)) : (m >>= f) s = (s', .error e) := by
  show Py.bind m f s = _
  simp [Py.bind, h]

theorem bind_def (m : Py σ α) (f : α → Py σ β) (s : σ) :
    (m >>= f) s = match m s with
      | (s', .ok a) => f a s'
      | (s', .error e) => (s', .error e) := rfl

@[simp] theorem pure_def (a : α) (s : σ) : (Pure.pure a : Py σ α) s = (s, .ok a) := rfl
@[simp] theorem raise_def (e : Exc) (s : σ) : (raise e : Py σ α) s = (s, .error e) := rfl
@[simp] theorem get_def (s : σ) : (get : Py σ σ) s = (s, .ok s) := rfl
@[simp] theorem set_def (s t : σ) : (set t : Py σ Unit) s = (t, .ok ()) := rfl
@[simp] theorem modify_def (f : σ → σ) (s : σ) : (modify f : Py σ Unit) s = (f s, .ok ()) := rfl

end Py

/-! ## Decimal numbers -/

/-- The decimal digit character of `n < 10`. -/
def digitChar (n : Nat) : Char := Char.ofNat (48 + n)

/-- Value of an ASCII digit.  Simplification: Python also accepts the other Unicode decimal
digits (category Nd); the model treats those as non-digits. -/
def digitVal (c : Char) : Option Nat :=
  if 48 ≤ c.toNat ∧ c.toNat ≤ 57 then some (c.toNat - 48) else none

def isDigit (c : Char) : Bool := (digitVal c).isSome

/-- `fuel`-bounded decimal printer; `natStr` supplies enough fuel. -/
def natStrF : Nat → Nat → Str
  | 0, _ => []
  | f + 1, n => if n < 10 then [digitChar n] else natStrF f (n / 10) ++ [digitChar (n % 10)]

/-- `str(n)` for a non-negative integer. -/
def natStr (n : Nat) : Str := natStrF (n + 1) n

/-- `str(i)` for an integer. -/
def intStr : Int → Str
  | .ofNat n => natStr n
  | .negSucc n => '-' :: natStr (n + 1)

/-- Value of a digit string, most significant digit first. -/
def digitsVal (acc : Nat) : Str → Option Nat
  | [] => some acc
  | c :: cs => match digitVal c with
    | some d => digitsVal (acc * 10 + d) cs
    | none => none

/-- Python's `str.isspace` characters, stripped by `str.strip()` and by `int()`/`float()`. -/
def isPySpace (c : Char) : Bool :=
  let n := c.toNat
  (9 ≤ n && n ≤ 13) || (28 ≤ n && n ≤ 32) || n == 0x85 || n == 0xa0 || n == 0x1680 ||
  (0x2000 ≤ n && n ≤ 0x200a) || n == 0x2028 || n == 0x2029 || n == 0x202f || n == 0x205f ||
  n == 0x3000

/-- `str.strip()` -/
def pyStrip (s : Str) : Str :=
  ((s.dropWhile isPySpace).reverse.dropWhile isPySpace).reverse

/-- Digits with single underscores between digits (PEP 515), value accumulated in `acc`.
`prev` says whether the previous character was a digit. -/
def digitsUnderscore (acc : Nat) (prev : Bool) : Str → Option Nat
  | [] => if prev then some acc else none
  | c :: cs =>
    if c = '_' then (if prev then digitsUnderscore acc false cs else none)
    else match digitVal c with
      | some d => digitsUnderscore (acc * 10 + d) true cs
      | none => none

/-- Python's `int(text)`; `none` is `ValueError`. -/
def pyInt (s : Str) : Option Int :=
  match pyStrip s with
  | '-' :: ds => (digitsUnderscore 0 false ds).map fun n : Nat => -(n : Int)
  | '+' :: ds => (digitsUnderscore 0 false ds).map fun n : Nat => (n : Int)
  | ds => (digitsUnderscore 0 false ds).map fun n : Nat => (n : Int)

/-! ## Python list indexing -/

/-- Index normalisation of `lst[i]`: negative indices count from the end;
`none` is `IndexError`. -/
def pyIdx (len : Nat) (i : Int) : Option Nat :=
  if 0 ≤ i then (if i.toNat < len then some i.toNat else none)
  else (if 0 ≤ i + len then some (i + len).toNat else none)

/-- `lst.insert(i, x)` position: clamped to the list. -/
def pyInsertPos (len : Nat) (i : Int) : Nat :=
  if 0 ≤ i then min i.toNat len else (i + len).toNat

/-- Truthiness of an optional string (`None` and `''` are false). -/
def truthy : Option Str → Bool
  | none => false
  | some s => !s.isEmpty

end Verif
