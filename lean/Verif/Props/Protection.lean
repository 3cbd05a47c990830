import Verif.Model.Protection
import Verif.Proofs.Xml
/-! # C67 protection of tables and sections; C68 new sections and pages -/
namespace Verif.Protection
open Verif

set_option linter.unusedSimpArgs false

/-! ## C67 -/

/-- Two different attribute names, as both classes have them. -/
theorem names_table : ofTable.flag ≠ ofTable.key := by decide
theorem names_section : ofSection.flag ≠ ofSection.key := by decide

theorem bool_get (k : String) (b : Bool) (e : Elem) :
    getBoolAttr k (e.set k (if b then "true".toList else "false".toList)) = b := by
  cases b <;> simp [getBoolAttr, Elem.get_set]

theorem set_true (N : Names) (s : List Char) (hs : s ≠ []) (e : Elem) :
    setProtected N s true e =
      ((e.set N.flag "true".toList).set N.key (tostr (.list s)), .ok ()) := by
  have hb := bool_get N.flag true e
  simp only [if_true] at hb
  have ht : truth (.list s) = true := by
    cases s with
    | nil => exact absurd rfl hs
    | cons _ _ => rfl
  simp only [setProtected, setBoolAttr, Py.bind_def, getProtected, if_true, hb]
  simp [setAttr, randomProtectionKey, ht]

theorem set_false (N : Names) (s : List Char) (e : Elem) :
    setProtected N s false e = (e.set N.flag "false".toList, .ok ()) := by
  have hb := bool_get N.flag false e
  simp only [Bool.false_eq_true, if_false] at hb
  simp only [setProtected, setBoolAttr, Py.bind_def, getProtected, Bool.false_eq_true, if_false, hb, Py.pure_def]

theorem Sample.ne (h : Sample s) : s ≠ [] := by
  intro e
  have := h.len
  simp [e] at this

/-- Setting the flag never fails, for every element and every random choice, and the flag reads back. -/
theorem C67_reads (N : Names) (h : N.flag ≠ N.key) (s : List Char) (hs : Sample s) (b : Bool) (e : Elem) :
    (setProtected N s b e).2 = .ok () ∧ getProtected N (setProtected N s b e).1 = b := by
  cases b with
  | false =>
    rw [set_false]
    exact ⟨rfl, bool_get N.flag false e⟩
  | true =>
    rw [set_true N s hs.ne]
    refine ⟨rfl, ?_⟩
    simp [getProtected, getBoolAttr, Elem.get_set, h]

/-- Nothing but the flag and the key changes; without protection not even the key. -/
theorem C67_frame (N : Names) (s : List Char) (hs : Sample s) (b : Bool) (e : Elem) :
    let e' := (setProtected N s b e).1
    e'.id = e.id ∧ e'.tag = e.tag ∧ e'.text = e.text ∧ e'.tail = e.tail ∧
    ∀ k, k ≠ N.flag → (k ≠ N.key ∨ b = false) → e'.get k = e.get k := by
  cases b with
  | false =>
    rw [set_false]
    refine ⟨rfl, rfl, rfl, rfl, fun k h1 _ => ?_⟩
    simp [Elem.get_set, h1]
  | true =>
    rw [set_true N s hs.ne]
    refine ⟨rfl, rfl, rfl, rfl, fun k h1 h2 => ?_⟩
    have h2 : k ≠ N.key := by simpa using h2
    simp [Elem.get_set, h1, h2]

theorem reprItems_inj : ∀ (a b : List Char), reprItems a = reprItems b → a = b
  | [], [], _ => rfl
  | [], [c], h => by simp [reprItems, reprChar] at h
  | [], c :: d :: r, h => by simp [reprItems, reprChar] at h
  | [c], [], h => by simp [reprItems, reprChar] at h
  | c :: d :: r, [], h => by simp [reprItems, reprChar] at h
  | [c], [c'], h => by simpa [reprItems, reprChar] using h
  | [c], c' :: d :: r, h => by simp [reprItems, reprChar] at h
  | c :: d :: r, [c'], h => by simp [reprItems, reprChar] at h
  | c :: d :: r, c' :: d' :: r', h => by
    simp only [reprItems, reprChar, List.cons_append, List.nil_append, List.cons.injEq,
      List.append_cancel_left_eq] at h
    obtain ⟨_, hc, _, h⟩ := h
    have := reprItems_inj (d :: r) (d' :: r') (by simpa using h)
    rw [hc, this]

/-- Protecting stores a key that determines the random choice: different choices give different keys.  So no
randomness is lost. -/
theorem C67_key (N : Names) (s s' : List Char) (hs : Sample s) (hs' : Sample s') (e e' : Elem)
    (h : (setProtected N s true e).1.get N.key = (setProtected N s' true e').1.get N.key) :
    (setProtected N s true e).1.get N.key ≠ none ∧ s = s' := by
  rw [set_true N s hs.ne, set_true N s' hs'.ne] at *
  refine ⟨by simp [Elem.get_set], ?_⟩
  simp only [Elem.get_set, if_true, Option.some.injEq, tostr, List.cons_append, List.cons.injEq,
    true_and, List.append_cancel_right_eq] at h
  exact reprItems_inj s s' h

theorem reprItems_length : ∀ (a : List Char), a ≠ [] → (reprItems a).length + 2 = 5 * a.length
  | [], h => absurd rfl h
  | [c], _ => by simp [reprItems, reprChar]
  | c :: d :: r, _ => by
    have ih := reprItems_length (d :: r) (by simp)
    simp only [reprItems, reprChar, List.length_append, List.length_cons, List.length_nil] at ih ⊢
    have : (", ".toList).length = 2 := by decide
    omega

/-- What the documentation calls "a random password hash": twelve letters and digits. -/
def GoodKey (v : Str) : Prop := v.length = 12 ∧ ∀ c ∈ v, c ∈ FNCHARS

/-- **Refuted**: `random.sample` returns a list and `set_attr` stores `str(list)`, so for *every* element and
*every* random choice the stored key has sixty characters, begins with a bracket, and is not a key of twelve
letters and digits. -/
theorem C67_key_refuted (N : Names) (s : List Char) (hs : Sample s) (e : Elem) :
    ∃ v, (setProtected N s true e).1.get N.key = some v ∧ v.length = 60 ∧ v.head? = some '[' ∧ ¬ GoodKey v := by
  rw [set_true N s hs.ne]
  have hl : (tostr (.list s)).length = 60 := by
    have := reprItems_length s hs.ne
    have h12 := hs.len
    simp only [tostr, List.cons_append, List.length_cons, List.length_append, List.length_nil]
    omega
  refine ⟨tostr (.list s), by simp [Elem.get_set], hl, rfl, fun h => ?_⟩
  have := h.1
  omega

/-- **Refuted**: taking the protection away leaves the key behind, for every element and every choice. -/
theorem C67_unprotect_refuted (N : Names) (h : N.flag ≠ N.key) (s s' : List Char) (hs : Sample s) (e : Elem) :
    let e' := (setProtected N s' false (setProtected N s true e).1).1
    getProtected N e' = false ∧ e'.get N.key ≠ none := by
  rw [set_true N s hs.ne]
  dsimp only
  rw [set_false]
  refine ⟨by simp [getProtected, getBoolAttr, Elem.get_set], ?_⟩
  simp [Elem.get_set, Ne.symm h]

/-- The attributes after setting the flag, by their names in the OpenDocument format. -/
def Protected (flag key : String) (s : List Char) (b : Bool) (e e' : Elem) : Prop :=
  e'.get flag = some (if b then "true".toList else "false".toList) ∧
  e'.get key = (if b then some (tostr (.list s)) else e.get key) ∧
  e'.id = e.id ∧ e'.tag = e.tag ∧ e'.text = e.text ∧ e'.tail = e.tail ∧
  ∀ k, k ≠ flag → k ≠ key → e'.get k = e.get k

theorem protected_names (N : Names) (h : N.flag ≠ N.key) (s : List Char) (hs : Sample s) (b : Bool) (e : Elem) :
    Protected N.flag N.key s b e (setProtected N s b e).1 := by
  obtain ⟨f1, f2, f3, f4, f5⟩ := C67_frame N s hs b e
  cases b with
  | false =>
    rw [set_false] at *
    exact ⟨by simp [Elem.get_set], f5 _ (Ne.symm h) (.inr rfl), f1, f2, f3, f4, fun k h1 h2 => f5 k h1 (.inl h2)⟩
  | true =>
    rw [set_true N s hs.ne] at *
    exact ⟨by simp [Elem.get_set, h], by simp [Elem.get_set], f1, f2, f3, f4, fun k h1 h2 => f5 k h1 (.inl h2)⟩

/-- C67, tables: the attributes `table:protected` and `table:protection-key` are used and no other. -/
theorem C67_table (s : List Char) (hs : Sample s) (b : Bool) (e : Elem) :
    Protected "table:protected" "table:protection-key" s b e (setProtected ofTable s b e).1 :=
  protected_names ofTable names_table s hs b e

/-- C67, sections: the attributes `text:protected` and `text:protection-key` are used and no other. -/
theorem C67_section (s : List Char) (hs : Sample s) (b : Bool) (e : Elem) :
    Protected "text:protected" "text:protection-key" s b e (setProtected ofSection s b e).1 :=
  protected_names ofSection names_section s hs b e

/-- a possible random choice -/
theorem sample_ex : Sample "Qw3rTyU1oP0a".toList := ⟨by decide, by decide, by decide⟩

example : (setProtected ofTable "Qw3rTyU1oP0a".toList true { id := 0, tag := "table:table" }).1.get
    "table:protection-key" = some "['Q', 'w', '3', 'r', 'T', 'y', 'U', '1', 'o', 'P', '0', 'a']".toList := by
  decide +kernel
example := C67_reads ofTable names_table _ sample_ex true { id := 0, tag := "table:table" }
example := C67_reads ofSection names_section _ sample_ex false
  { id := 0, tag := "text:section", attrs := [("text:protected", "true".toList)] }
example : (setProtected ofSection "Qw3rTyU1oP0a".toList true
    { id := 0, tag := "text:section", attrs := [("text:name", "a".toList)] }).1.get "text:name" = some "a".toList := by
  decide +kernel

/-! ## C68 -/

/-- A new section carries exactly the name and the style it was given, each only when it is not empty. -/
theorem C68_section (id : Nat) (name style : Str) :
    let e := newSection id name style
    e.tag = "text:section" ∧ e.text = none ∧
    e.get "text:name" = (if name = [] then none else some name) ∧
    e.get "text:style-name" = (if style = [] then none else some style) ∧
    ∀ k, k ≠ "text:name" → k ≠ "text:style-name" → e.get k = none := by
  have h0 : ∀ k, Elem.get { id := id, tag := "text:section" } k = none := fun _ => rfl
  unfold newSection
  by_cases hn : name = [] <;> by_cases hs : style = []
  all_goals simp [hn, hs, Elem.get_set, h0]
  · rfl
  · exact ⟨rfl, fun k h1 _ => h1⟩
  · exact ⟨rfl, fun k h1 h2 => by simp [h1, h2]⟩

/-- A new page with a name has that name, and no other attribute. -/
theorem C68_page_partial (id : Nat) (name : Str) (h : name ≠ []) :
    ∃ e, newPage id name = .ok e ∧ e.tag = "draw:page" ∧ pageName e = some name ∧
      ∀ k, k ≠ "draw:name" → e.get k = none := by
  have ht : truth (.str name) = true := by
    cases name with
    | nil => exact absurd rfl h
    | cons _ _ => rfl
  refine ⟨Elem.set { id := id, tag := "draw:page" } "draw:name" name, ?_, rfl, ?_, fun k hk => ?_⟩
  · simp [newPage, setPageName, setAttr, ht, tostr]
  · simp [pageName, getAttr, getAttrOr, Elem.get_set]
  · rw [Elem.get_set, if_neg hk]; rfl

/-- **Refuted**: a page cannot be made without a name: the default `name=""` of the constructor is a
ValueError. -/
theorem C68_page_refuted : ∀ id, newPage id [] = .error .ValueError := fun _ => rfl

/-- Renaming a page to a name that is not empty reads back and changes nothing else; an empty name is a
ValueError and changes nothing. -/
theorem C68_rename (name : Str) (e : Elem) :
    (name = [] → setPageName name e = (e, .error .ValueError)) ∧
    (name ≠ [] → (setPageName name e).2 = .ok () ∧ pageName (setPageName name e).1 = some name ∧
      (setPageName name e).1.tag = e.tag ∧ (setPageName name e).1.text = e.text ∧
      ∀ k, k ≠ "draw:name" → (setPageName name e).1.get k = e.get k) := by
  constructor
  · rintro rfl; rfl
  · intro h
    have ht : truth (.str name) = true := by
      cases name with
      | nil => exact absurd rfl h
      | cons _ _ => rfl
    have : setPageName name e = (e.set "draw:name" name, .ok ()) := by
      simp [setPageName, setAttr, ht, tostr]
    rw [this]
    refine ⟨rfl, by simp [pageName, getAttr, getAttrOr, Elem.get_set], rfl, rfl, fun k hk => ?_⟩
    simp [Elem.get_set, hk]

example : newPage 3 "p".toList = .ok { id := 3, tag := "draw:page", attrs := [("draw:name", "p".toList)] } := by
  decide +kernel
example : newSection 3 "n".toList [] = { id := 3, tag := "text:section", attrs := [("text:name", "n".toList)] } := by
  decide +kernel

end Verif.Protection
