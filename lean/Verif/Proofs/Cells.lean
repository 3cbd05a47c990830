import Verif.Model.Cells
import Verif.Proofs.Text
import Verif.Proofs.Xml
import Verif.Proofs.Py
/-!
# Lemmas about cell values
-/
set_option linter.unusedSimpArgs false
namespace Verif.Cells
open Verif

variable (L : FloatLib)

/-- What is used of Python's floats: `float(str(x))` is `x`, `str(x)` is not empty and
`float(str(i))` exists for every integer. -/
structure FloatLib.Lawful (L : FloatLib) where
  ofInt : Int → L.Fl
  parse_repr : ∀ x, L.parse (L.repr x) = some x
  repr_ne : ∀ x, L.repr x ≠ []
  parse_int : ∀ i, L.parse (intStr i) = some (ofInt i)

/-- The type `set_value` works with. -/
def resolve (v : Val L) (vt : Option String) (currency : Option Str) : String :=
  match (if currency.isSome then some "currency" else vt) with
  | none => determineValueType L v
  | some ty => ty

def withCurrency (ty : String) (cur : Option Str) (e : Elem) : Elem :=
  match cur with
  | some c => if c ≠ [] ∧ ty = "currency" then e.set "office:currency" c else e
  | none => e

theorem typeValueMap_some {ty : String} (h : ty ∈ VALID_VALUE_TYPES) :
    ∃ key, typeValueMap ty = some key := by
  simp only [VALID_VALUE_TYPES, List.mem_cons, List.mem_nil_iff, or_false] at h
  rcases h with h | h | h | h | h | h | h <;> subst h <;> exact ⟨_, rfl⟩

theorem valid_ne {ty : String} (h : ty ∈ VALID_VALUE_TYPES) : ty.toList ≠ [] := by
  simp only [VALID_VALUE_TYPES, List.mem_cons, List.mem_nil_iff, or_false] at h
  rcases h with h | h | h | h | h | h | h <;> subst h <;> decide

theorem setNewValue_content (p : Tree) (ty : String) (cur : Option Str) (t : Tree) :
    setNewValue (.content p) ty cur t
      = ((t.1.set "office:value-type" "string".toList, t.2 ++ Forest.single p), .ok ()) := by
  have h1 : ("string" = "currency") = False := by simp
  cases cur <;>
    simp [setNewValue, setAttr, Py.bind_def, Py.pure_def, h1, -String.reduceToList]

theorem setNewValue_attr {ty key : String} (hty : ty ∈ VALID_VALUE_TYPES)
    (hk : typeValueMap ty = some key) (s : Str) (cur : Option Str) (t : Tree) :
    setNewValue (.attr s) ty cur t
      = if s = [] then (t, .error .ValueError)
        else ((withCurrency ty cur ((t.1.set key s).set "office:value-type" ty.toList), t.2), .ok ()) := by
  have hne := valid_ne hty
  by_cases hs : s = []
  · simp [setNewValue, hk, setAttr, Py.bind_def, hs]
  · cases cur with
    | none => simp [setNewValue, hk, setAttr, Py.bind_def, Py.pure_def, hs, hne, withCurrency]
    | some c =>
      by_cases hc : c = []
      · simp [setNewValue, hk, setAttr, Py.bind_def, Py.pure_def, hs, hne, withCurrency, hc]
      · by_cases ht : ty = "currency"
        · subst ht
          simp [setNewValue, hk, setAttr, Py.bind_def, Py.pure_def, hs, hne, withCurrency, hc]
        · simp [setNewValue, hk, setAttr, Py.bind_def, Py.pure_def, hs, hne, withCurrency, hc, ht]

theorem setValue_invalid {v : Val L} (h : isValidValue L v = false) (vt : Option String)
    (cur : Option Str) (t : Tree) : setValue L v vt cur t = (t, .error .ValueError) := by
  simp [setValue, h]

theorem setValue_badtype {v : Val L} (h : isValidValue L v = true) {vt : Option String}
    {cur : Option Str} (hty : resolve L v vt cur ∉ VALID_VALUE_TYPES) (t : Tree) :
    setValue L v vt cur t = (t, .error .TypeError) := by
  unfold resolve at hty
  simp only [setValue, h, Bool.not_true, Bool.false_eq_true, if_false]
  exact if_pos hty

theorem setValue_good {v : Val L} (h : isValidValue L v = true) {vt : Option String}
    {cur : Option Str} {ty : String} (hr : resolve L v vt cur = ty) (hty : ty ∈ VALID_VALUE_TYPES)
    (t : Tree) :
    setValue L v vt cur t = setNewValue (convert L v ty) ty cur (clearOldValue t) := by
  subst hr
  unfold resolve at hty ⊢
  simp only [setValue, h, Bool.not_true, Bool.false_eq_true, if_false]
  exact if_neg (not_not_intro hty)

/-! ### Attributes after `_clear_old_value` -/

theorem clear_get_ne (t : Tree) {k : String}
    (hk : ∀ ty, valueType t = some ty → typeValueMap (String.ofList ty) ≠ some k) :
    (clearOldValue t).1.get k = t.1.get k := by
  unfold clearOldValue clearContent clearValueAttribute
  cases hv : valueType t with
  | none => rfl
  | some ty =>
    cases hm : typeValueMap (String.ofList ty) with
    | none => simp [hm]
    | some key =>
      have : k ≠ key := fun h => hk ty hv (h ▸ hm)
      simp [hm, Elem.get_del, this]

theorem clear_get_eq (t : Tree) {k : String} {ty : Str} (hv : valueType t = some ty)
    (hk : typeValueMap (String.ofList ty) = some k) : (clearOldValue t).1.get k = none := by
  simp [clearOldValue, clearContent, clearValueAttribute, hv, hk, Elem.get_del]

theorem clear_kids (t : Tree) : (clearOldValue t).2 = .nil := rfl

/-- Everything but the attributes. -/
def SameHead (a b : Elem) : Prop := a.id = b.id ∧ a.tag = b.tag ∧ a.text = b.text ∧ a.tail = b.tail

theorem SameHead.refl (a : Elem) : SameHead a a := ⟨rfl, rfl, rfl, rfl⟩

theorem clear_head (t : Tree) : SameHead (clearOldValue t).1 t.1 := by
  unfold clearOldValue clearContent clearValueAttribute
  cases hv : valueType t with
  | none => exact .refl _
  | some ty =>
    cases hm : typeValueMap (String.ofList ty) with
    | none => simp [hm, SameHead.refl]
    | some key => simp [hm]; exact ⟨rfl, rfl, rfl, rfl⟩

theorem withCurrency_get (ty : String) (cur : Option Str) (e : Elem) {k : String}
    (hk : k ≠ "office:currency") : (withCurrency ty cur e).get k = e.get k := by
  unfold withCurrency
  cases cur with
  | none => rfl
  | some c => simp only; split <;> simp [Elem.get_set, hk]

theorem withCurrency_currency (ty : String) (cur : Option Str) (e : Elem) :
    (withCurrency ty cur e).get "office:currency"
      = if ty = "currency" ∧ ∃ c, cur = some c ∧ c ≠ [] then cur
        else e.get "office:currency" := by
  unfold withCurrency
  cases cur with
  | none => simp
  | some c =>
    by_cases h : c ≠ [] ∧ ty = "currency"
    · simp [h]
    · simp only [h, if_false]
      rw [if_neg]
      rintro ⟨h1, c', h2, h3⟩
      cases h2
      exact h ⟨h3, h1⟩

theorem withCurrency_head (ty : String) (cur : Option Str) (e : Elem) :
    SameHead (withCurrency ty cur e) e := by
  unfold withCurrency
  cases cur with
  | none => exact .refl _
  | some c => simp only; split <;> exact ⟨rfl, rfl, rfl, rfl⟩

/-! ### Plain text -/

def isPara (p : Txt.Part) : Bool := p.tag = "text:p" ∨ p.tag = "text:h"

theorem parts_append (f g : Forest) : Txt.parts (f ++ g) = Txt.parts f ++ Txt.parts g := by
  induction f with
  | nil => rfl
  | cons e k r _ ih => simp [Txt.parts, ih]

theorem lines_append (a b : List Txt.Part) :
    Txt.lines (a ++ b) = match Txt.lines a, Txt.lines b with
      | some x, some y => some (x ++ y)
      | _, _ => none := by
  induction a with
  | nil => simp [Txt.lines]; cases Txt.lines b <;> rfl
  | cons p ps ih =>
    simp only [List.cons_append, Txt.lines, ih]
    cases p.text <;> cases Txt.lines ps <;> cases Txt.lines b <;> simp

theorem lines_length {l : List Txt.Part} {x : List Str} (h : Txt.lines l = some x) :
    x.length = l.length := by
  induction l generalizing x with
  | nil => simp [Txt.lines] at h; subst h; rfl
  | cons p ps ih =>
    simp only [Txt.lines] at h
    cases hp : p.text <;> cases hl : Txt.lines ps <;> simp [hp, hl] at h
    subst h; simp [ih hl]

theorem joinLines_snoc (ls : List Str) (l : Str) :
    Txt.joinLines (ls ++ [l]) = if ls = [] then l else Txt.joinLines ls ++ '\n' :: l := by
  induction ls with
  | nil => rfl
  | cons a as ih =>
    cases as with
    | nil => simp [Txt.joinLines]
    | cons b bs =>
      have h1 : Txt.joinLines (a :: b :: bs ++ [l]) = a ++ '\n' :: Txt.joinLines (b :: bs ++ [l]) := rfl
      rw [h1, ih]
      simp [Txt.joinLines]

theorem joinLines_last (ls : List Str) (a b : Str) :
    Txt.joinLines (ls ++ [a ++ b]) = Txt.joinLines (ls ++ [a]) ++ b := by
  rw [joinLines_snoc, joinLines_snoc]
  split <;> simp

theorem plaintext_single {e : Elem} {p : Tree} (hp : isParaTag p.1.tag = true) :
    plaintext (e, Forest.single p) = Txt.plaintext p := by
  have : (p.1.tag = "text:p" ∨ p.1.tag = "text:h") := by simpa [isParaTag] using hp
  simp only [plaintext, Forest.single, Txt.parts, Txt.plaintext, List.filter, decide_eq_true this]
  simp only [Txt.lines]
  cases Txt.elemText p.1 (Txt.parts p.2) <;> simp [Txt.joinLines]

theorem plaintext_newP (e : Elem) (s : Str) :
    plaintext (e, Forest.single (Txt.newSpan "text:p" s)) = some s := by
  rw [plaintext_single (by rw [Txt.newSpan_tag]; rfl), Txt.plaintext_newSpan (by rfl)]

end Verif.Cells
