import Verif.Model.Mixins
import Verif.Proofs.Xml
import Verif.Proofs.Py
/-! # C55: bounded integer, boolean and visibility properties -/
namespace Verif.Mixins
open Verif
set_option linter.unusedSimpArgs false

/-! ## Specification -/

/-- What a property shows after an assignment; `none` when the assignment is rejected. -/
def shows : D → Val → Option Val
  | .string _, .str s => some (.str s)
  | .boolean _, .bool b => some (.bool b)
  | .integer _, .int n => some (.int n)
  | .lower _ l, .int n => some (.int (if n < l then l else n))
  | .start, .int n => some (.int (if n < 1 then 1 else n))
  | .number, .str s => some (.str s)
  | .visibility, .str s =>
    if s = "visible".toList ∨ s = "collapse".toList ∨ s = "filter".toList then some (.str s) else none
  | _, _ => none

/-- What a property shows after its deletion; `none` when it cannot be deleted. -/
def default : D → Option Val
  | .string _ => some .none
  | .boolean _ => some (.bool false)
  | .integer _ => some .none
  | .lower _ l => some (.int l)
  | _ => none

inductive Op where
  | write (d : D) (v : Val)
  | delete (d : D)

def Op.prop : Op → D
  | .write d _ => d
  | .delete d => d

/-- Runs an operation; exceptions are caught by the program. -/
def step (w : W) : Op → W
  | .write d v => (write d v w).1
  | .delete d => (delete d w).1

def run (w : W) (h : List Op) : W := h.foldl step w

/-- The readings of all properties, as a map. -/
abbrev Readings := D → Except Exc Val

def specStep (f : Readings) (o : Op) : Readings := fun d =>
  if d = o.prop then
    match (match o with | .write d v => shows d v | .delete d => default d) with
    | some x => .ok x
    | none => f d
  else f d

def spec (f : Readings) (h : List Op) : Readings := h.foldl specStep f

/-! ## Proofs -/

/-- Where a property is kept. -/
def slot : D → String
  | .string n => n
  | .boolean n => n
  | .integer n => n
  | .lower n _ => n
  | .start => "text:start-value"
  | .number => "child"
  | .visibility => "table:visibility"

theorem classes_slots : ∀ c ∈ classes, (c.map slot).Nodup := by decide +kernel

theorem slot_child : ∀ c ∈ classes, ∀ d ∈ c, slot d = "child" → d = .number := by decide +kernel

theorem find_setTextOf (tag : String) (s : Str) (l : List Tree) (t : Tree)
    (h : (l.find? fun t => decide (t.1.tag = tag)) = some t) :
    ((setTextOf tag s l).find? fun t => decide (t.1.tag = tag)) =
      some ({ t.1 with text := some s }, t.2) := by
  induction l with
  | nil => cases h
  | cons t' r ih =>
    unfold setTextOf
    by_cases ht : t'.1.tag = tag
    · simp only [List.find?_cons, ht, if_true, decide_true, Option.some.injEq] at h ⊢; subst h; rw [ht]
    · simp [ht] at h ⊢; simpa using ih (by simpa using h)

theorem pyInt_max (a b : Int) : pyInt (intStr (max a b)) = some (max a b) := pyInt_intStr _

/-- An assignment makes the property show the value, or is rejected without any effect. -/
theorem read_write (d : D) (v : Val) (w : W) :
    match shows d v with
    | some x => read d (write d v w).1 = .ok x ∧ (write d v w).2 = .ok ()
    | none => (write d v w).1 = w ∧ ∃ e, (write d v w).2 = .error e := by
  cases d <;> cases v <;> simp only [shows] <;> try exact ⟨rfl, _, rfl⟩
  · simp [read, write, stringGet, stringSet, Elem.get_set]
  · rename_i b
    cases b <;> simp [read, write, booleanGet, booleanSet, Elem.get_set]
  · rename_i n
    simp only [read, write, integerGet, integerSet, Elem.get_set, if_true, pyInt_intStr]
    exact ⟨trivial, trivial⟩
  · rename_i l n
    simp only [read, write, lowerGet, lowerSet, Elem.get_set, if_true, pyInt_max]
    by_cases h : n < l
    · simp [h]; omega
    · simp [h]; omega
  · rename_i n
    simp only [read, write, startGet, startSet, Elem.get_set, if_true, pyInt_max]
    by_cases h : n < 1
    · simp [h]; omega
    · simp [h]; omega
  · rename_i s
    simp only [read, write, numberGet, numberSet]
    cases h : w.kids.find? fun t => decide (t.1.tag = "text:number") with
    | none =>
      simp only [List.find?_append, h]
      simp
    | some t => simp only [find_setTextOf _ _ _ _ h]; simp
  · rename_i s
    by_cases h : s = "visible".toList ∨ s = "collapse".toList ∨ s = "filter".toList
    · rw [if_pos h]
      have : ¬ s ∉ VALID_VISIBILITY_STATES := by
        rw [Decidable.not_not]; simpa [VALID_VISIBILITY_STATES] using h
      simp only [read, write, visibilityGet, visibilitySet, if_neg this, Elem.get_set, if_true]
      simp
    · rw [if_neg h]
      have : s ∉ VALID_VISIBILITY_STATES := by simpa [VALID_VISIBILITY_STATES] using h
      have h' : write .visibility (.str s) w = (w, .error .ValueError) := by
        simp only [write, visibilitySet, if_pos this]
      exact ⟨congrArg Prod.fst h', _, congrArg Prod.snd h'⟩

theorem read_delete (d : D) (w : W) :
    match default d with
    | some x => read d (delete d w).1 = .ok x
    | none => (delete d w).1 = w := by
  cases d <;> simp only [default] <;> try rfl
  all_goals
    rename_i n
    simp only [read, delete, attrDel]
    first
    | cases h : w.e.get n with
      | none => simp [stringGet, booleanGet, integerGet, lowerGet, h]
      | some s => simp [stringGet, booleanGet, integerGet, lowerGet, Elem.get_del]
    | rename_i nm
      cases h : w.e.get nm with
      | none => simp [stringGet, booleanGet, integerGet, lowerGet, h]
      | some s => simp [stringGet, booleanGet, integerGet, lowerGet, Elem.get_del]

theorem numberSet_e (s : Str) (w : W) : (numberSet s w).1.e = w.e := by
  unfold numberSet; split <;> rfl

theorem read_attr {d : D} (hd : d ≠ .number) {w w' : W} (h : w.e.get (slot d) = w'.e.get (slot d)) :
    read d w = read d w' := by
  cases d <;> simp only [slot] at h <;>
    simp_all [read, stringGet, booleanGet, integerGet, lowerGet, startGet, visibilityGet]

theorem write_slot (d : D) (v : Val) (w : W) (k : String) (hk : slot d ≠ k) :
    (write d v w).1.e.get k = w.e.get k := by
  cases d <;> cases v <;> try rfl
  all_goals
    simp only [slot] at hk
    simp only [write, stringSet, booleanSet, integerSet, lowerSet, startSet, visibilitySet, numberSet_e]
    try split
    all_goals simp [Elem.get_set, Ne.symm hk]

theorem write_kids (d : D) (v : Val) (w : W) (hd : d ≠ .number) :
    (write d v w).1.kids = w.kids := by
  cases d <;> cases v <;> try rfl
  · exact absurd rfl hd
  · simp only [write, visibilitySet]; split <;> rfl

theorem delete_slot (d : D) (w : W) (k : String) (hk : slot d ≠ k) :
    (delete d w).1.e.get k = w.e.get k ∧ (delete d w).1.kids = w.kids := by
  cases d <;> try exact ⟨rfl, rfl⟩
  all_goals
    simp only [slot] at hk
    simp only [delete, attrDel]
    split
    · exact ⟨rfl, rfl⟩
    · simp [Elem.get_del, Ne.symm hk]

theorem read_other (d d' : D) (hs : slot d ≠ slot d') (hn : slot d = "child" → d = .number)
    (o : Op) (ho : o.prop = d) (w : W) : read d' (step w o) = read d' w := by
  by_cases hd' : d' = .number
  · subst hd'
    have hd : d ≠ .number := by intro e; subst e; exact hs rfl
    show numberGet _ = numberGet _
    have : (step w o).kids = w.kids := by
      cases o with
      | write e v => simp only [Op.prop] at ho; subst ho; exact write_kids _ _ _ hd
      | delete e => simp only [Op.prop] at ho; subst ho; exact (delete_slot _ _ _ hs).2
    unfold numberGet; rw [this]
  · refine read_attr hd' ?_
    cases o with
    | write e v => simp only [Op.prop] at ho; subst ho; exact write_slot _ _ _ _ hs
    | delete e => simp only [Op.prop] at ho; subst ho; exact (delete_slot _ _ _ hs).1

theorem nodup_slot {c : List D} (h : (c.map slot).Nodup) {a b : D} (ha : a ∈ c) (hb : b ∈ c)
    (hab : a ≠ b) : slot a ≠ slot b := by
  induction c with
  | nil => cases ha
  | cons e c ih =>
    simp only [List.map_cons, List.nodup_cons] at h
    rcases List.mem_cons.1 ha with h1 | h1 <;> rcases List.mem_cons.1 hb with h2 | h2
    · exact absurd (h1.trans h2.symm) hab
    · intro hs; exact h.1 (List.mem_map.2 ⟨_, h2, by rw [← hs, h1]⟩)
    · intro hs; exact h.1 (List.mem_map.2 ⟨_, h1, by rw [hs, h2]⟩)
    · exact ih h.2 h1 h2

/-! ## Properties -/

/-- C55: a property with a lower limit never reports a value below it, whatever is stored. -/
theorem C55_limit (name : String) (limit n : Int) (w : W)
    (h : read (.lower name limit) w = .ok (.int n)) : limit ≤ n := by
  simp only [read, lowerGet] at h
  split at h
  · simp at h; omega
  · split at h
    · cases h
    · simp at h; omega

/-- C55: after writing `n` a property with a lower limit reads the larger of the two. -/
theorem C55_integer (name : String) (limit n : Int) (w : W) :
    (write (.lower name limit) (.int n) w).2 = .ok () ∧
    read (.lower name limit) (write (.lower name limit) (.int n) w).1 =
      .ok (.int (if n < limit then limit else n)) := by
  have := read_write (.lower name limit) (.int n) w
  simp only [shows] at this
  exact ⟨this.2, this.1⟩

/-- C55: the start value of a numbering likewise, with limit 1. -/
theorem C55_start_value (n : Int) (w : W) :
    (write .start (.int n) w).2 = .ok () ∧
    read .start (write .start (.int n) w).1 = .ok (.int (if n < 1 then 1 else n)) := by
  have := read_write .start (.int n) w
  simp only [shows] at this
  exact ⟨this.2, this.1⟩

/-- C55: boolean properties read back the truth value written. -/
theorem C55_boolean (name : String) (b : Bool) (w : W) :
    (write (.boolean name) (.bool b) w).2 = .ok () ∧
    read (.boolean name) (write (.boolean name) (.bool b) w).1 = .ok (.bool b) := by
  have := read_write (.boolean name) (.bool b) w
  simp only [shows] at this
  exact ⟨this.2, this.1⟩

/-- C55: visibility takes the three allowed values and rejects all others without effect. -/
theorem C55_visibility (s : Str) (w : W) :
    if s = "visible".toList ∨ s = "collapse".toList ∨ s = "filter".toList then
      (write .visibility (.str s) w).2 = .ok () ∧
      read .visibility (write .visibility (.str s) w).1 = .ok (.str s)
    else (write .visibility (.str s) w) = (w, .error .ValueError) := by
  have := read_write .visibility (.str s) w
  simp only [shows] at this
  split
  · rename_i h; rw [if_pos h] at this; exact ⟨this.2, this.1⟩
  · rename_i h
    have h' : s ∉ VALID_VISIBILITY_STATES := by simpa [VALID_VISIBILITY_STATES] using h
    simp only [write, visibilitySet, if_pos h']

/-- C55: on the elements of every class, assigning to or deleting one property leaves what the
others show unchanged. -/
theorem C55_independent (c : List D) (hc : c ∈ classes) (d d' : D) (hd : d ∈ c) (hd' : d' ∈ c)
    (hne : d ≠ d') (w : W) (v : Val) :
    read d' (write d v w).1 = read d' w ∧ read d' (delete d w).1 = read d' w :=
  ⟨read_other d d' (nodup_slot (classes_slots c hc) hd hd' hne) (slot_child c hc d hd)
      (.write d v) rfl w,
    read_other d d' (nodup_slot (classes_slots c hc) hd hd' hne) (slot_child c hc d hd)
      (.delete d) rfl w⟩

/-- C55: after any history of assignments and deletions every property of the class shows what
was last successfully assigned to it, or what it showed at first. -/
theorem C55_history (c : List D) (hc : c ∈ classes) (h : List Op) (hh : ∀ o ∈ h, o.prop ∈ c)
    (w : W) (d : D) (hd : d ∈ c) :
    read d (run w h) = spec (fun d => read d w) h d := by
  suffices H : ∀ (f : Readings) (w : W), (∀ d ∈ c, read d w = f d) →
      read d (run w h) = spec f h d from H _ w fun _ _ => rfl
  induction h with
  | nil => intro f w hf; exact hf d hd
  | cons o h ih =>
    intro f w hf
    refine ih (fun o' ho' => hh o' (List.mem_cons_of_mem _ ho')) (specStep f o) (step w o) ?_
    intro e he
    unfold specStep
    have ho := hh o List.mem_cons_self
    by_cases heq : e = o.prop
    · rw [if_pos heq]
      subst heq
      cases o with
      | write e v =>
        have := read_write e v w
        simp only [Op.prop] at *
        cases hs : shows e v with
        | none => rw [hs] at this; show read e (write e v w).1 = _; rw [this.1]; exact hf e ho
        | some x => rw [hs] at this; exact this.1
      | delete e =>
        have := read_delete e w
        simp only [Op.prop] at *
        cases hs : default e with
        | none => rw [hs] at this; show read e (delete e w).1 = _; rw [this]; exact hf e ho
        | some x => rw [hs] at this; exact this
    · rw [if_neg heq, ← hf e he]
      exact read_other o.prop e
        (nodup_slot (classes_slots c hc) ho he fun h => heq h.symm)
        (slot_child c hc _ ho) o rfl w

theorem eraseP_setTextOf (tag : String) (s : Str) (l : List Tree) :
    (setTextOf tag s l).eraseP (fun t => t.1.tag = tag) = l.eraseP (fun t => t.1.tag = tag) := by
  induction l with
  | nil => rfl
  | cons t r ih =>
    unfold setTextOf
    by_cases ht : t.1.tag = tag
    · rw [if_pos ht, List.eraseP_cons_of_pos (by simpa using ht), List.eraseP_cons_of_pos (by simpa using ht)]
    · rw [if_neg ht, List.eraseP_cons_of_neg (by simpa using ht), List.eraseP_cons_of_neg (by simpa using ht), ih]

/-- C55: setting the formatted number changes at most the first number element; all other children
stay as they are. -/
theorem C55_number_frame (s : Str) (w : W) :
    (write .number (.str s) w).1.kids.eraseP (fun t => t.1.tag = "text:number") =
      w.kids.eraseP (fun t => t.1.tag = "text:number") ∧
    (write .number (.str s) w).1.e = w.e := by
  refine ⟨?_, numberSet_e s w⟩
  show (numberSet s w).1.kids.eraseP _ = _
  unfold numberSet
  cases h : w.kids.find? fun t => decide (t.1.tag = "text:number") with
  | none =>
    have hn : ∀ t ∈ w.kids, ¬ decide (t.1.tag = "text:number") = true := List.find?_eq_none.1 h
    simp only
    rw [List.eraseP_append_right _ hn, List.eraseP_of_forall_not hn]
    simp
  | some t => exact eraseP_setTextOf _ _ _

/-- C55 does not hold of a stored `start_value`: assignments are bounded at 1, but a document may
hold a smaller number, which is reported as it is. -/
theorem C55_start_value_refuted :
    ∃ (w : W) (n : Int), n < 1 ∧ read .start w = .ok (.int n) :=
  ⟨{ e := { id := 0, tag := "text:h", attrs := [("text:start-value", "0".toList)] }, kids := [], fresh := 1 },
    0, by decide, rfl⟩

/-! ## What is stored -/

/-- How a value is written into an attribute. -/
def text : D → Val → Option Str
  | .string _, .str s => some s
  | .boolean _, .bool true => some "true".toList
  | .boolean _, .bool false => some "false".toList
  | .integer _, .int n => some (intStr n)
  | .lower _ l, .int n => some (intStr (if n < l then l else n))
  | .start, .int n => some (intStr (if n < 1 then 1 else n))
  | .visibility, .str s =>
    if s = "visible".toList ∨ s = "collapse".toList ∨ s = "filter".toList then some s else none
  | _, _ => none

/-- How other values are refused. -/
def refusal : D → Val → Exc
  | .visibility, .str _ => .ValueError
  | _, _ => .TypeError

/-- C55: an accepted assignment to a property kept in an attribute stores the text of the value in that
attribute, whose name is the property's, and changes nothing else. -/
theorem C55_stored (d : D) (hd : d ≠ .number) (v : Val) (w : W) :
    write d v w = match text d v with
      | some s => ({ w with e := w.e.set (slot d) s }, .ok ())
      | none => (w, .error (refusal d v)) := by
  cases d <;> cases v <;> simp only [text] <;> try rfl
  · rename_i b; cases b <;> rfl
  · rename_i l n
    show lowerSet _ _ _ w = _
    unfold lowerSet slot
    have : max l n = if n < l then l else n := by split <;> omega
    rw [this]
  · rename_i n
    show startSet _ w = _
    unfold startSet slot
    have : max n 1 = if n < 1 then 1 else n := by split <;> omega
    rw [this]
  · exact absurd rfl hd
  · rename_i s
    have := C55_visibility s w
    by_cases h : s = "visible".toList ∨ s = "collapse".toList ∨ s = "filter".toList
    · rw [if_pos h] at this
      rw [if_pos h]
      have h' : ¬ s ∉ VALID_VISIBILITY_STATES := by
        rw [Decidable.not_not]; simpa [VALID_VISIBILITY_STATES] using h
      simp only [write, visibilitySet, if_neg h', slot]
    · rw [if_neg h] at this
      rw [if_neg h, this]
      rfl

/-- C55: what the properties show of any stored attribute, and which are unreadable. -/
theorem C55_read (d : D) (hd : d ≠ .number) (w : W) :
    read d w = match d, w.e.get (slot d) with
      | .string _, none => .ok .none
      | .string _, some s => .ok (.str s)
      | .boolean _, v => .ok (.bool (v = some "true".toList))
      | .lower _ l, none => .ok (.int l)
      | .lower _ l, some s => match pyInt s with
        | some n => .ok (.int (if n < l then l else n))
        | none => .error .ValueError
      | .visibility, none => .ok (.str "visible".toList)
      | .visibility, some s => .ok (.str s)
      | _, none => .ok .none
      | _, some s => match pyInt s with
        | some n => .ok (.int n)
        | none => .error .ValueError := by
  cases d <;> simp only [slot, read, stringGet, booleanGet, integerGet, lowerGet, startGet, visibilityGet]
  · cases h : w.e.get _ <;> rfl
  · rename_i n
    congr 2
    exact Bool.beq_eq_decide_eq _ _
  · rename_i n
    cases h : w.e.get n with
    | none => rfl
    | some s => simp only; cases pyInt s <;> rfl
  · rename_i n l
    cases h : w.e.get n with
    | none => rfl
    | some s =>
      simp only
      cases pyInt s with
      | none => rfl
      | some k => simp only; congr 2; split <;> omega
  · cases h : w.e.get "text:start-value" with
    | none => rfl
    | some s => simp only; cases pyInt s <;> rfl
  · exact absurd rfl hd
  · cases h : w.e.get "table:visibility" <;> rfl

/-- C55: the outline level of a heading and the level of a numbered paragraph are the properties with a
limit, and it is 1. -/
theorem C55_limits : ∀ c ∈ classes, ∀ d ∈ c, ∀ n l, d = .lower n l →
    l = 1 ∧ (c = heading ∧ n = "text:outline-level" ∨ c = numberedParagraph ∧ n = "text:level") := by
  have h : ∀ c ∈ classes, ∀ d ∈ c, (match d with
      | .lower n l => decide (l = 1 ∧ (c = heading ∧ n = "text:outline-level" ∨
          c = numberedParagraph ∧ n = "text:level"))
      | _ => true) = true := by decide +kernel
  intro c hc d hd n l e
  have := h c hc d hd
  rw [e] at this
  exact of_decide_eq_true this

/-! ## Examples -/

example : text (.boolean "table:print") (.bool false) = some "false".toList ∧
    text (.lower "text:level" 1) (.int (-4)) = some "1".toList ∧
    .lower "text:level" 1 ∈ numberedParagraph ∧ .integer "a" ≠ D.number := by decide +kernel

example : read .start ⟨⟨0, "text:h", [("text:start-value", "x".toList)], none, none⟩, [], 1⟩ = .error .ValueError := by decide +kernel

/-- A heading with a stored level below the limit -/
def stored : W :=
  { e := { id := 0, tag := "text:h", attrs := [("text:outline-level", "-3".toList)] }
    kids := [({ id := 1, tag := "text:s" }, .nil)]
    fresh := 2 }

example : read (.lower "text:outline-level" 1) stored = .ok (.int 1) := rfl

example : (∀ o ∈ [Op.write .start (.int 0), .write (.boolean "text:is-list-header") (.bool true),
      .write .number (.str "a".toList), .delete (.lower "text:outline-level" 1)], o.prop ∈ heading) ∧
    heading ∈ classes ∧ column ∈ classes ∧ cell ∈ classes ∧ table ∈ classes := by
  decide +kernel

example : read .number (run stored [.write .start (.int 0), .write .number (.str "a".toList),
    .write .number (.str "b".toList)]) = .ok (.str "b".toList) := rfl

example : (write .visibility (.str "hidden".toList) stored).2 = .error .ValueError := rfl

end Verif.Mixins
