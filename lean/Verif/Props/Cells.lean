import Verif.Proofs.Cells
/-!
# C26–C29: values of cells

A cell is an arbitrary XML tree.  `L : FloatLib` are Python's floats; where a theorem depends on
how they are printed and read, it assumes `FloatLib.Lawful` (satisfied by `intLib` below).
-/
set_option linter.unusedSimpArgs false
namespace Verif.Cells
open Verif

variable {L : FloatLib}

/-- Attribute in which ODF 1.2 (part 1, 19.385) stores a value of a type; strings are stored as
content. -/
def odfAttr : List (String × String) :=
  [("float", "office:value"), ("percentage", "office:value"), ("currency", "office:value"),
   ("date", "office:date-value"), ("time", "office:time-value"),
   ("boolean", "office:boolean-value"), ("string", "office:string-value")]

theorem typeValueMap_odf {ty key : String} : typeValueMap ty = some key ↔ (ty, key) ∈ odfAttr := by
  constructor
  · intro h
    unfold typeValueMap at h
    split at h
    · simp_all [odfAttr]
    split at h
    · rename_i h2; rcases h2 with h2 | h2 | h2 <;> simp_all [odfAttr]
    split at h
    · simp_all [odfAttr]
    split at h
    · simp_all [odfAttr]
    split at h
    · simp_all [odfAttr]
    cases h
  · intro h
    simp only [odfAttr, List.mem_cons, Prod.mk.injEq, List.mem_nil_iff, or_false] at h
    rcases h with h | h | h | h | h | h | h <;> rw [h.1, h.2] <;> rfl

/-- A number: a float, or an int standing for its float. -/
def IsNumber (hL : L.Lawful) (v : Val L) (x : L.Fl) : Prop :=
  v = .float x ∨ ∃ i, v = .int i ∧ x = hL.ofInt i

/-- Test instance: "floats" that are integers. -/
def intLib : FloatLib := ⟨Int, intStr, pyInt, fun x => x ≠ 0⟩
def intLawful : intLib.Lawful := ⟨id, pyInt_intStr, intStr_ne_nil, pyInt_intStr⟩

/-- A used cell: currency, with formula, style and content. -/
def euro : Tree :=
  ({ id := 7, tag := "table:table-cell",
     attrs := [("table:style-name", "ce1".toList), ("office:value-type", "currency".toList),
       ("office:value", "5".toList), ("office:currency", "EUR".toList)] },
   .cons { id := 8, tag := "text:p", text := some "5 EUR".toList } .nil .nil)

/-! ## C26 -/

/-- What a successful attribute-valued `set_value` leaves. -/
theorem attr_core {v : Val L} {vt : Option String} {cur : Option Str} {ty key : String} {s : Str}
    (hv : isValidValue L v = true) (hr : resolve L v vt cur = ty) (hty : ty ∈ VALID_VALUE_TYPES)
    (hc : convert L v ty = .attr s) (hs : s ≠ []) (hk : (ty, key) ∈ odfAttr) (t : Tree) :
    ∃ t', setValue L v vt cur t = (t', .ok ()) ∧ valueType t' = some ty.toList ∧
      t'.1.get key = some s ∧
      t'.1.get "office:currency"
        = (if ty = "currency" ∧ ∃ c, cur = some c ∧ c ≠ [] then cur else currency t) := by
  have hk' := typeValueMap_odf.2 hk
  have hk1 : key ≠ "office:value-type" ∧ key ≠ "office:currency" := by
    simp only [odfAttr, List.mem_cons, Prod.mk.injEq, List.mem_nil_iff, or_false] at hk
    rcases hk with h | h | h | h | h | h | h <;> rw [h.2] <;> decide
  refine ⟨_, by rw [setValue_good L hv hr hty, hc, setNewValue_attr hty hk', if_neg hs], ?_, ?_, ?_⟩
  · simp only [valueType, getAttr]
    rw [withCurrency_get _ _ _ (by decide), Elem.get_set_self]
  · simp only
    rw [withCurrency_get _ _ _ hk1.2, Elem.get_set, if_neg hk1.1, Elem.get_set_self]
  · simp only
    have h5 : ("office:currency" = "office:value-type") = False := by simp
    rw [withCurrency_currency, Elem.get_set, Elem.get_set, clear_get_ne t]
    · simp only [h5, if_false, if_neg (Ne.symm hk1.2)]; rfl
    · intro ty _ h
      have := typeValueMap_odf.1 h
      simp only [odfAttr, List.mem_cons, Prod.mk.injEq, List.mem_nil_iff, or_false] at this
      rcases this with h | h | h | h | h | h | h <;> exact absurd h.2 (by decide)

theorem content_core {v : Val L} {vt : Option String} {cur : Option Str} {ty : String} {p : Tree}
    (hv : isValidValue L v = true) (hr : resolve L v vt cur = ty) (hty : ty ∈ VALID_VALUE_TYPES)
    (hc : convert L v ty = .content p) (t : Tree) :
    ∃ t', setValue L v vt cur t = (t', .ok ()) ∧ valueType t' = some "string".toList ∧
      t'.2 = Forest.single p := by
  refine ⟨_, by rw [setValue_good L hv hr hty, hc, setNewValue_content], ?_, ?_⟩
  · simp only [valueType, getAttr]; rw [Elem.get_set_self]
  · simp [clear_kids]

theorem value_string {t : Tree} (h : valueType t = some "string".toList) {s : Str}
    (hp : plaintext t = some s) : value L t = .ok (.str s) := by
  simp only [value, h, String.ofList_toList, if_true, hp]

theorem value_numeric {t : Tree} {ty : String} (h : valueType t = some ty.toList)
    (hty : ty ∈ NUMERIC_TYPES) {s : Str} (hg : t.1.get "office:value" = some s) :
    value L t = match L.parse s with | some x => .ok (.float x) | none => .error .ValueError := by
  have h1 : typeValueMap ty = some "office:value" ∧ ty ≠ "string" := by
    simp only [NUMERIC_TYPES, List.mem_cons, List.mem_nil_iff, or_false] at hty
    rcases hty with h | h | h <;> subst h <;> exact ⟨rfl, by decide⟩
  simp only [value, h, String.ofList_toList, if_neg h1.2, h1.1, hg, if_pos hty]
  rfl

/-- **C26** (text). A text becomes a string cell and reads back as the same text, whatever the
cell contained. -/
theorem C26_text (s : Str) (vt : Option String) (hvt : vt = none ∨ vt = some "string") (t : Tree) :
    ∃ t', setValue L (.str s) vt none t = (t', .ok ()) ∧
      valueType t' = some "string".toList ∧ value L t' = .ok (.str s) := by
  obtain ⟨t', h1, h2, h3⟩ := content_core (L := L) (v := .str s) (vt := vt) (cur := none)
    (ty := "string") (p := Txt.newSpan "text:p" s) rfl
    (by rcases hvt with h | h <;> subst h <;> rfl) (by decide) (by simp [convert, tostr]) t
  refine ⟨t', h1, h2, value_string h2 ?_⟩
  have : t' = (t'.1, Forest.single (Txt.newSpan "text:p" s)) := Prod.ext rfl h3
  rw [this]; exact plaintext_newP _ _

/-- **C26** (values stored as text). With type 'string' every value that is no element is stored as
its `str()`. -/
theorem C26_as_text (v : Val L) (hv : isValidValue L v = true) (hw : ∀ k p, v ≠ .wrapper k p)
    (t : Tree) :
    ∃ t', setValue L v (some "string") none t = (t', .ok ()) ∧
      valueType t' = some "string".toList ∧ value L t' = .ok (.str (tostr L v)) := by
  obtain ⟨t', h1, h2, h3⟩ := content_core (L := L) (v := v) (vt := some "string") (cur := none)
    (ty := "string") (p := Txt.newSpan "text:p" (tostr L v)) hv rfl (by decide)
    (by cases v with
        | wrapper k p => exact absurd rfl (hw k p)
        | _ => simp [convert]) t
  refine ⟨t', h1, h2, value_string h2 ?_⟩
  have : t' = (t'.1, Forest.single (Txt.newSpan "text:p" (tostr L v))) := Prod.ext rfl h3
  rw [this]; exact plaintext_newP _ _

/-- **C26** (elements). A Paragraph or Heading becomes the content of a string cell, whose value is
its plain text. -/
theorem C26_element (k : String) (p : Tree)
    (hk : (k = "Paragraph" ∧ p.1.tag = "text:p") ∨ (k = "Heading" ∧ p.1.tag = "text:h"))
    (vt : Option String) (hvt : ∀ ty, vt = some ty → ty ∈ VALID_VALUE_TYPES) (cur : Option Str)
    {s : Str} (hs : Txt.plaintext p = some s) (t : Tree) :
    ∃ t', setValue L (.wrapper k p) vt cur t = (t', .ok ()) ∧
      valueType t' = some "string".toList ∧ value L t' = .ok (.str s) ∧
      t'.2 = Forest.single p := by
  have hr : resolve L (.wrapper k p) vt cur ∈ VALID_VALUE_TYPES := by
    unfold resolve
    cases cur with
    | some c => simp [VALID_VALUE_TYPES]
    | none => cases vt with
      | none => simp [VALID_VALUE_TYPES, determineValueType]
      | some ty => exact hvt ty rfl
  obtain ⟨t', h1, h2, h3⟩ := content_core (L := L) (v := .wrapper k p) (vt := vt) (cur := cur)
    (p := p) (by rcases hk with h | h <;> simp [isValidValue, SUPPORTED_CELL_CONTENT, h.1]) rfl hr rfl t
  refine ⟨t', h1, h2, value_string h2 ?_, h3⟩
  have : t' = (t'.1, Forest.single p) := Prod.ext rfl h3
  rw [this, plaintext_single (by rcases hk with h | h <;> simp [isParaTag, h.2]), hs]

/-- **C26** (numbers). Ints and floats, as float, percentage or currency, read back as the float;
the number is stored where ODF has it and a given currency is stored too. -/
theorem C26_number (hL : L.Lawful) {v : Val L} {x : L.Fl} (hv : IsNumber hL v x)
    {vt : Option String} {cur : Option Str} {ty : String}
    (hq : (vt = none ∧ cur = none ∧ ty = "float") ∨
      (vt = some ty ∧ cur = none ∧ (ty = "float" ∨ ty = "percentage" ∨ ty = "currency")) ∨
      (cur ≠ none ∧ ty = "currency")) (t : Tree) :
    ∃ t', setValue L v vt cur t = (t', .ok ()) ∧ valueType t' = some ty.toList ∧
      value L t' = .ok (.float x) ∧
      (∃ s, t'.1.get "office:value" = some s ∧ L.parse s = some x) ∧
      (∀ c, cur = some c → c ≠ [] → currency t' = some c) := by
  have hparse : L.parse (tostr L v) = some x ∧ tostr L v ≠ [] := by
    rcases hv with h | ⟨i, h, hx⟩
    · subst h; exact ⟨hL.parse_repr x, hL.repr_ne x⟩
    · subst h; subst hx; exact ⟨hL.parse_int i, intStr_ne_nil i⟩
  have hnum : ty ∈ NUMERIC_TYPES := by
    rcases hq with ⟨_, _, h⟩ | ⟨_, _, h | h | h⟩ | ⟨_, h⟩ <;> subst h <;> decide
  have hr : resolve L v vt cur = ty := by
    rcases hq with ⟨h1, h2, h⟩ | ⟨h1, h2, _⟩ | ⟨h1, h⟩
    · subst h1; subst h2; subst h
      rcases hv with h | ⟨i, h, hx⟩ <;> subst h <;> rfl
    · subst h1; subst h2; rfl
    · subst h
      cases cur with
      | none => exact absurd rfl h1
      | some c => rfl
  have hmem : ty ∈ VALID_VALUE_TYPES ∧ (ty, "office:value") ∈ odfAttr := by
    simp only [NUMERIC_TYPES, List.mem_cons, List.mem_nil_iff, or_false] at hnum
    rcases hnum with h | h | h <;> subst h <;> decide
  have hconv : convert L v ty = .attr (tostr L v) := by
    have h1 : ty ≠ "string" ∧ ty ≠ "boolean" := by
      simp only [NUMERIC_TYPES, List.mem_cons, List.mem_nil_iff, or_false] at hnum
      rcases hnum with h | h | h <;> subst h <;> decide
    rcases hv with h | ⟨i, h, hx⟩ <;> subst h <;> simp [convert, h1.1, h1.2]
  have hval : isValidValue L v = true := by
    rcases hv with h | ⟨i, h, hx⟩ <;> subst h <;> rfl
  obtain ⟨t', h1, h2, h3, h4⟩ := attr_core hval hr hmem.1 hconv hparse.2 hmem.2 t
  refine ⟨t', h1, h2, ?_, ⟨_, h3, hparse.1⟩, ?_⟩
  · rw [value_numeric h2 hnum h3, hparse.1]
  · intro c hc hne
    unfold currency
    have h5 : ty = "currency" := by
     rcases hq with ⟨_, h, _⟩ | ⟨_, h, _⟩ | ⟨_, h⟩
     · rw [hc] at h; cases h
     · rw [hc] at h; cases h
     · exact h
    rw [h4, if_pos ⟨h5, c, hc, hne⟩, hc]

/-- **C26** (booleans). -/
theorem C26_boolean (b : Bool) (vt : Option String) (hvt : vt = none ∨ vt = some "boolean")
    (t : Tree) :
    ∃ t', setValue L (.bool b) vt none t = (t', .ok ()) ∧
      valueType t' = some "boolean".toList ∧ value L t' = .ok (.bool b) ∧
      t'.1.get "office:boolean-value" = some (if b then "true".toList else "false".toList) := by
  obtain ⟨t', h1, h2, h3, _⟩ := attr_core (L := L) (v := .bool b) (vt := vt) (cur := none)
    (ty := "boolean") (key := "office:boolean-value")
    (s := if b then "true".toList else "false".toList) rfl
    (by rcases hvt with h | h <;> subst h <;> rfl) (by decide)
    (by cases b <;> simp [convert, truth]) (by cases b <;> decide) (by decide) t
  refine ⟨t', h1, h2, ?_, h3⟩
  have h0 : typeValueMap "boolean" = some "office:boolean-value" := rfl
  simp only [value, h2, String.ofList_toList, h0, h3]
  cases b <;> rfl

/-- **C26** (stored booleans). A boolean cell found in a document, whatever its stored text, reads as
`True` exactly when that text is 'true'. -/
theorem C26_boolean_read {t : Tree} {s : Str} (ht : valueType t = some "boolean".toList)
    (hs : t.1.get "office:boolean-value" = some s) :
    ∃ b, value L t = .ok (.bool b) ∧ (b = true ↔ s = "true".toList) := by
  have h0 : typeValueMap "boolean" = some "office:boolean-value" := rfl
  refine ⟨decide (s = "true".toList), ?_, by simp⟩
  simp only [value, ht, String.ofList_toList, h0, hs]; rfl

example : value intLib (({ id := 0, tag := "table:table-cell", attrs :=
    [("office:value-type", "boolean".toList), ("office:boolean-value", "yes".toList)] } : Elem),
    Forest.nil) = .ok (.bool false) := rfl

/-- **C26** (dates and times). Every non-empty date or time text is stored and read unchanged. -/
theorem C26_date_time (s : Str) (hs : s ≠ []) (ty key : String)
    (hty : (ty = "date" ∧ key = "office:date-value") ∨ (ty = "time" ∧ key = "office:time-value"))
    (t : Tree) :
    ∃ t', setValue L (.str s) (some ty) none t = (t', .ok ()) ∧
      valueType t' = some ty.toList ∧ value L t' = .ok (.str s) ∧ t'.1.get key = some s := by
  rcases hty with ⟨rfl, rfl⟩ | ⟨rfl, rfl⟩
  · obtain ⟨t', h1, h2, h3, _⟩ := attr_core (L := L) (v := .str s) (vt := some "date") (cur := none)
      (ty := "date") (key := "office:date-value") (s := s) rfl rfl (by decide)
      (by simp [convert, tostr]) hs (by decide) t
    have h0 : typeValueMap "date" = some "office:date-value" := rfl
    refine ⟨t', h1, h2, ?_, h3⟩
    simp only [value, h2, String.ofList_toList, h0, h3, NUMERIC_TYPES]; rfl
  · obtain ⟨t', h1, h2, h3, _⟩ := attr_core (L := L) (v := .str s) (vt := some "time") (cur := none)
      (ty := "time") (key := "office:time-value") (s := s) rfl rfl (by decide)
      (by simp [convert, tostr]) hs (by decide) t
    have h0 : typeValueMap "time" = some "office:time-value" := rfl
    refine ⟨t', h1, h2, ?_, h3⟩
    simp only [value, h2, String.ofList_toList, h0, h3, NUMERIC_TYPES]; rfl

/-- **C26** (constructor). A new cell is an empty cell element to which `set_value` was applied, so
all of the above holds for `Cell(value, …)` too. -/
theorem C26_constructor (v : Val L) (hv : v ≠ .none) (vt : Option String) (cur : Option Str)
    (t : Tree) :
    create L v vt cur = .ok t ↔
      setValue L v vt cur ({ id := 0, tag := "table:table-cell" }, .nil) = (t, .ok ()) := by
  have : create L v vt cur = (setValue L v vt cur ({ id := 0, tag := "table:table-cell" }, .nil)).2.map
      fun _ => (setValue L v vt cur ({ id := 0, tag := "table:table-cell" }, .nil)).1 := by
    cases v with
    | none => exact absurd rfl hv
    | _ => rfl
  rw [this]
  generalize setValue L v vt cur ({ id := 0, tag := "table:table-cell" }, .nil) = r
  obtain ⟨t', e⟩ := r
  cases e with
  | error x => simp [Except.map]
  | ok u => simp [Except.map]

/-- **C26 is refuted** for values whose kind does not fit the given type: a text that is no number
is accepted as a float, and then reading the value raises ValueError. -/
theorem C26_mismatch_refuted {s : Str} (hs : s ≠ []) (hp : L.parse s = none) (t : Tree) :
    ∃ t', setValue L (.str s) (some "float") none t = (t', .ok ()) ∧
      value L t' = .error .ValueError := by
  obtain ⟨t', h1, h2, h3, _⟩ := attr_core (L := L) (v := .str s) (vt := some "float") (cur := none)
    (ty := "float") (key := "office:value") (s := s) rfl rfl (by decide)
    (by simp [convert, tostr]) hs (by decide) t
  exact ⟨t', h1, by rw [value_numeric h2 (by decide) h3, hp]⟩

/-- **C26 is refuted** for the text 'false' given as a boolean: it reads back as True. -/
theorem C26_boolean_text_refuted (t : Tree) :
    ∃ t', setValue L (.str "false".toList) (some "boolean") none t = (t', .ok ()) ∧
      value L t' = .ok (.bool true) := by
  obtain ⟨t', h1, h2, h3, _⟩ := attr_core (L := L) (v := .str "false".toList) (vt := some "boolean")
    (cur := none) (ty := "boolean") (key := "office:boolean-value") (s := "true".toList) rfl rfl
    (by decide) (by simp [convert, truth]) (by decide) (by decide) t
  have h0 : typeValueMap "boolean" = some "office:boolean-value" := rfl
  refine ⟨t', h1, ?_⟩
  simp only [value, h2, String.ofList_toList, h0, h3]; rfl

/-- **C26** (numeric texts). A text that reads as a number is accepted for a numeric type and reads
back as that number. -/
theorem C26_numeric_text {s : Str} {x : L.Fl} (hs : s ≠ []) (hp : L.parse s = some x) {ty : String}
    (hty : ty = "float" ∨ ty = "percentage" ∨ ty = "currency") (t : Tree) :
    ∃ t', setValue L (.str s) (some ty) none t = (t', .ok ()) ∧
      valueType t' = some ty.toList ∧ value L t' = .ok (.float x) := by
  have hnum : ty ∈ NUMERIC_TYPES := by rcases hty with h | h | h <;> subst h <;> decide
  have h1 : ty ∈ VALID_VALUE_TYPES ∧ (ty, "office:value") ∈ odfAttr ∧ ty ≠ "string" ∧
      ty ≠ "boolean" := by rcases hty with h | h | h <;> subst h <;> decide
  obtain ⟨t', h2, h3, h4, _⟩ := attr_core (L := L) (v := .str s) (vt := some ty) (cur := none)
    (ty := ty) (key := "office:value") (s := s) rfl rfl h1.1
    (by simp [convert, tostr, h1.2.2.1, h1.2.2.2]) hs h1.2.1 t
  exact ⟨t', h2, h3, by rw [value_numeric h3 hnum h4, hp]⟩

example : setValue intLib (.int 12) none none euro
    = (({ id := 7, tag := "table:table-cell",
          attrs := [("table:style-name", "ce1".toList), ("office:value-type", "float".toList),
            ("office:currency", "EUR".toList), ("office:value", "12".toList)] }, .nil), .ok ()) := by
  decide +kernel
example : IsNumber intLawful (.int 12) (12 : Int) := .inr ⟨12, rfl, rfl⟩
example : intLib.parse "abc".toList = none := by decide +kernel

/-! ## C27 -/

def valueAttrs : List String :=
  ["office:value", "office:date-value", "office:time-value", "office:boolean-value",
   "office:string-value"]

/-- A cell as ODF allows it: a value attribute occurs only with its type. -/
def Conform (t : Tree) : Prop :=
  ∀ k ∈ valueAttrs, t.1.get k ≠ none →
    ∃ ty, valueType t = some ty ∧ (String.ofList ty, k) ∈ odfAttr

theorem odf_valueAttr {ty k : String} (h : (ty, k) ∈ odfAttr) : k ∈ valueAttrs := by
  simp only [odfAttr, List.mem_cons, Prod.mk.injEq, List.mem_nil_iff, or_false] at h
  rcases h with h | h | h | h | h | h | h <;> rw [h.2] <;> decide

theorem clear_none {t : Tree} (hc : Conform t) {k : String} (hk : k ∈ valueAttrs) :
    (clearOldValue t).1.get k = none := by
  cases hg : t.1.get k with
  | none =>
    by_cases h : ∀ ty, valueType t = some ty → typeValueMap (String.ofList ty) ≠ some k
    · rw [clear_get_ne t h, hg]
    · obtain ⟨ty, h⟩ := Classical.not_forall.1 h
      obtain ⟨h1, h2⟩ := Classical.not_imp.1 h
      have h2 := Classical.not_not.1 h2
      exact clear_get_eq t h1 h2
  | some v =>
    obtain ⟨ty, h1, h2⟩ := hc k hk (by simp [hg])
    exact clear_get_eq t h1 (typeValueMap_odf.2 h2)

theorem clear_unrelated (t : Tree) {k : String} (hk : k ∉ valueAttrs) :
    (clearOldValue t).1.get k = t.1.get k :=
  clear_get_ne t fun _ _ h => hk (odf_valueAttr (typeValueMap_odf.1 h))

theorem SameHead.trans {a b c : Elem} (h : SameHead a b) (h' : SameHead b c) : SameHead a c :=
  ⟨h.1.trans h'.1, h.2.1.trans h'.2.1, h.2.2.1.trans h'.2.2.1, h.2.2.2.trans h'.2.2.2⟩

/-- All ways `set_value` can end. -/
theorem setValue_cases (v : Val L) (vt : Option String) (cur : Option Str) (t : Tree) :
    (∃ e, setValue L v vt cur t = (t, .error e)) ∨
    (∃ p, (∀ u, setValue L v vt cur u = (((clearOldValue u).1.set "office:value-type"
        "string".toList, Forest.single p), .ok ()))) ∨
    (∃ ty key s, (ty, key) ∈ odfAttr ∧ (s ≠ [] ∧ ty ≠ "string") ∧ (∀ u, setValue L v vt cur u =
        ((withCurrency ty cur (((clearOldValue u).1.set key s).set "office:value-type" ty.toList),
          .nil), .ok ()))) ∨
    (∃ ty, convert L v ty = .attr [] ∧
      ∀ u, setValue L v vt cur u = (clearOldValue u, .error .ValueError)) := by
  rcases Decidable.em (isValidValue L v = true) with hv | hv
  case inr => exact .inl ⟨_, setValue_invalid L (by simpa using hv) _ _ _⟩
  rcases Decidable.em (resolve L v vt cur ∈ VALID_VALUE_TYPES) with hty | hty
  case inr => exact .inl ⟨_, setValue_badtype L hv hty _⟩
  obtain ⟨key, hk⟩ := typeValueMap_some hty
  cases hc : convert L v (resolve L v vt cur) with
  | content p =>
    refine .inr (.inl ⟨p, fun u => ?_⟩)
    rw [setValue_good L hv rfl hty, hc, setNewValue_content]; rfl
  | attr s =>
    by_cases hs : s = []
    · refine .inr (.inr (.inr ⟨_, hs ▸ hc, fun u => ?_⟩))
      rw [setValue_good L hv rfl hty, hc, setNewValue_attr hty hk, if_pos hs]
    · have hns : resolve L v vt cur ≠ "string" := fun e => by
        rw [e] at hc; cases v <;> simp [convert] at hc
      refine .inr (.inr (.inl ⟨_, key, s, typeValueMap_odf.1 hk, ⟨hs, hns⟩, fun u => ?_⟩))
      rw [setValue_good L hv rfl hty, hc, setNewValue_attr hty hk, if_neg hs]; rfl

/-- **C27** (kept). `set_value`, successful or not, keeps every attribute that is neither a value
attribute nor the value type nor the currency: style, formula, protection, validation, spans; and
the place of the cell in the document. -/
theorem C27_kept (v : Val L) (vt : Option String) (cur : Option Str) (t : Tree) {k : String}
    (h1 : k ∉ valueAttrs) (h2 : k ≠ "office:value-type") (h3 : k ≠ "office:currency") :
    (setValue L v vt cur t).1.1.get k = t.1.get k ∧
      SameHead (setValue L v vt cur t).1.1 t.1 := by
  rcases setValue_cases v vt cur t with ⟨e, h⟩ | ⟨p, h⟩ | ⟨ty, key, s, hk, _, h⟩ | ⟨ty, _, h⟩
  · rw [h]; exact ⟨rfl, .refl _⟩
  · rw [h]
    refine ⟨?_, (clear_head t)⟩
    simp only; rw [Elem.get_set, if_neg h2, clear_unrelated t h1]
  · rw [h]
    refine ⟨?_, (withCurrency_head _ _ _).trans (clear_head t)⟩
    have : k ≠ key := fun e => h1 (e ▸ odf_valueAttr hk)
    simp only; rw [withCurrency_get _ _ _ h3, Elem.get_set, if_neg h2, Elem.get_set, if_neg this,
      clear_unrelated t h1]
  · rw [h]; exact ⟨clear_unrelated t h1, clear_head t⟩

/-- **C27** (kept, spelled out). -/
theorem C27_kept_properties (v : Val L) (vt : Option String) (cur : Option Str) (t : Tree) :
    let t' := (setValue L v vt cur t).1
    t'.1.get "table:style-name" = t.1.get "table:style-name" ∧
    t'.1.get "table:formula" = t.1.get "table:formula" ∧
    t'.1.get "table:protect" = t.1.get "table:protect" ∧
    t'.1.get "table:content-validation-name" = t.1.get "table:content-validation-name" ∧
    span t'.1 = span t.1 ∧ covered t'.1 = covered t.1 := by
  have hk := fun k => C27_kept v vt cur t (k := k)
  refine ⟨(hk _ (by decide) (by decide) (by decide)).1, (hk _ (by decide) (by decide) (by decide)).1,
    (hk _ (by decide) (by decide) (by decide)).1, (hk _ (by decide) (by decide) (by decide)).1, ?_, ?_⟩
  · unfold span spanAttr
    rw [(hk rowsSpanned (by decide) (by decide) (by decide)).1,
      (hk colsSpanned (by decide) (by decide) (by decide)).1]
  · unfold covered
    rw [(hk "x" (by decide) (by decide) (by decide)).2.2.1]

/-- **C27** (no trace). Whatever two cells contained before, after the same successful `set_value`
they have the same value attributes, type and content: nothing of the old values is left. -/
theorem C27_no_trace {v : Val L} {vt : Option String} {cur : Option Str} {t u t' u' : Tree}
    (ht : Conform t) (hu : Conform u) (h1 : setValue L v vt cur t = (t', .ok ()))
    (h2 : setValue L v vt cur u = (u', .ok ())) :
    valueType t' = valueType u' ∧ t'.2 = u'.2 ∧ ∀ k ∈ valueAttrs, t'.1.get k = u'.1.get k := by
  have hne : ∀ k ∈ valueAttrs, k ≠ "office:value-type" ∧ k ≠ "office:currency" := by decide
  rcases setValue_cases v vt cur t with ⟨e, h⟩ | ⟨p, h⟩ | ⟨ty, key, s, hk, _, h⟩ | ⟨ty, _, h⟩
  · rw [h1] at h; cases congrArg Prod.snd h
  · rw [h] at h1 h2; cases h1; cases h2
    refine ⟨?_, rfl, fun k hk => ?_⟩
    · simp only [valueType, getAttr, Elem.get_set_self]
    · simp only [Elem.get_set, if_neg (hne k hk).1, clear_none ht hk, clear_none hu hk]
  · rw [h] at h1 h2; cases h1; cases h2
    refine ⟨?_, rfl, fun k hk => ?_⟩
    · simp only [valueType, getAttr]
      rw [withCurrency_get _ _ _ (by decide), withCurrency_get _ _ _ (by decide),
        Elem.get_set_self, Elem.get_set_self]
    · simp only
      rw [withCurrency_get _ _ _ (hne k hk).2, withCurrency_get _ _ _ (hne k hk).2]
      simp only [Elem.get_set, if_neg (hne k hk).1, clear_none ht hk, clear_none hu hk]
  · rw [h] at h1; cases congrArg Prod.snd h1

/-- **C27** (histories). `Conform` holds for new cells and survives every `set_value`, successful or
not; so `C27_no_trace` applies after any history of calls. -/
theorem C27_conform (v : Val L) (vt : Option String) (cur : Option Str) {t : Tree}
    (ht : Conform t) : Conform (setValue L v vt cur t).1 := by
  have hne : ∀ k ∈ valueAttrs, k ≠ "office:value-type" ∧ k ≠ "office:currency" := by decide
  rcases setValue_cases v vt cur t with ⟨e, h⟩ | ⟨p, h⟩ | ⟨ty, key, s, hk, _, h⟩ | ⟨ty, _, h⟩
  · rw [h]; exact ht
  · rw [h]
    intro k hk hg
    simp only [Elem.get_set, if_neg (hne k hk).1, clear_none ht hk] at hg
    exact absurd rfl hg
  · rw [h]
    intro k hk' hg
    refine ⟨ty.toList, ?_, ?_⟩
    · simp only [valueType, getAttr]
      rw [withCurrency_get _ _ _ (by decide), Elem.get_set_self]
    · simp only at hg
      rw [withCurrency_get _ _ _ (hne k hk').2, Elem.get_set, if_neg (hne k hk').1, Elem.get_set] at hg
      by_cases hkk : k = key
      · rw [hkk, String.ofList_toList]; exact hk
      · rw [if_neg hkk, clear_none ht hk'] at hg; exact absurd rfl hg
  · rw [h]
    intro k hk hg
    exact absurd (clear_none ht hk) hg

/-- A history of `set_value` calls, whose exceptions the caller survives. -/
def calls (L : FloatLib) (h : List (Val L × Option String × Option Str)) (t : Tree) : Tree :=
  h.foldl (fun t c => (setValue L c.1 c.2.1 c.2.2 t).1) t

theorem conform_calls (h : List (Val L × Option String × Option Str)) {t : Tree} (ht : Conform t) :
    Conform (calls L h t) := by
  induction h generalizing t with
  | nil => exact ht
  | cons c h ih => exact ih (C27_conform _ _ _ ht)

/-- **C27** (histories). After any history of calls on a new cell, a further successful `set_value`
gives the value attributes, type and content it gives on a new cell. -/
theorem C27_history {h : List (Val L × Option String × Option Str)} {v : Val L}
    {vt : Option String} {cur : Option Str} {t' u' : Tree} {n : Nat}
    (h1 : setValue L v vt cur (calls L h ({ id := n, tag := "table:table-cell" }, .nil)) = (t', .ok ()))
    (h2 : setValue L v vt cur ({ id := n, tag := "table:table-cell" }, .nil) = (u', .ok ())) :
    valueType t' = valueType u' ∧ t'.2 = u'.2 ∧ ∀ k ∈ valueAttrs, t'.1.get k = u'.1.get k :=
  have hn : Conform (({ id := n, tag := "table:table-cell" }, .nil) : Tree) :=
    fun _ _ hg => absurd rfl hg
  C27_no_trace (conform_calls h hn) hn h1 h2

/-- **C27 is refuted** in its last clause: a cell that was a currency cell reports the currency after
it has been given a plain number (or a text). -/
theorem C27_currency_refuted : ∃ (t t' : Tree), Conform t ∧
    setValue intLib (.str "x".toList) none none t = (t', .ok ()) ∧
    valueType t' = some "string".toList ∧ currency t' = some "EUR".toList := by
  refine ⟨euro, (setValue intLib (.str "x".toList) none none euro).1, ?_, Prod.ext rfl ?_, ?_, ?_⟩
  · unfold Conform; decide +kernel
  · decide +kernel
  · decide +kernel
  · decide +kernel

/-- **C27** (partial). The currency after a successful call is the one given with a currency
value, else the old one.  So if no currency was left over before, it is reported only for currency
cells.  Missing: the case refuted above, `office:currency` of an earlier value. -/
theorem C27_currency_partial {v : Val L} {vt : Option String} {cur : Option Str} {t t' : Tree}
    (h0 : currency t = none) (h1 : setValue L v vt cur t = (t', .ok ())) :
    currency t' ≠ none → valueType t' = some "currency".toList ∧ currency t' = cur := by
  intro hcur
  rcases setValue_cases v vt cur t with ⟨e, h⟩ | ⟨p, h⟩ | ⟨ty, key, s, hk, _, h⟩ | ⟨ty, _, h⟩
  · rw [h1] at h; cases congrArg Prod.snd h
  · rw [h] at h1; cases h1
    unfold currency at hcur h0
    simp only [Elem.get_set] at hcur
    rw [if_neg (by decide), clear_unrelated t (by decide), h0] at hcur
    exact absurd rfl hcur
  · rw [h] at h1; cases h1
    unfold currency at hcur h0 ⊢
    have hk2 : "office:currency" ≠ key := fun e => by
      have := odf_valueAttr hk; rw [← e] at this; revert this; decide
    simp only at hcur ⊢
    rw [withCurrency_currency] at hcur ⊢
    split at hcur
    · rename_i hc
      refine ⟨?_, if_pos hc⟩
      simp only [valueType, getAttr]
      rw [withCurrency_get _ _ _ (by decide), Elem.get_set_self, hc.1]
    · rw [Elem.get_set, if_neg (by decide), Elem.get_set, if_neg hk2,
        clear_unrelated t (by decide), h0] at hcur
      exact absurd rfl hcur
  · rw [h] at h1; cases congrArg Prod.snd h1

/-- `Conform` cannot be dropped from `C27_no_trace`: a value attribute that does not belong to the
type of the cell (not allowed by ODF) stays. -/
theorem C27_stray_refuted : ∃ (t t' : Tree),
    setValue intLib (.str "x".toList) none none t = (t', .ok ()) ∧
    t'.1.get "office:date-value" = some "2011-01-01".toList := by
  let t : Tree := ({ id := 1, tag := "table:table-cell", attrs := [("office:value-type", "float".toList),
    ("office:date-value", "2011-01-01".toList)] }, .nil)
  exact ⟨t, (setValue intLib (.str "x".toList) none none t).1,
    Prod.ext rfl (by decide +kernel), by decide +kernel⟩

example : Conform euro := by unfold Conform; decide +kernel
example : (setValue intLib (.bool true) none none euro).1.1.get "office:value" = none ∧
    (setValue intLib (.bool true) none none euro).1.1.get "table:style-name" = some "ce1".toList := by
  decide +kernel

/-! ## C28 -/

/-- Calls that `set_value` must refuse: `None`, an element of an unsupported class, a type that is
not an ODF value type. -/
def Refused (v : Val L) (vt : Option String) (cur : Option Str) : Prop :=
  v = .none ∨ (∃ k p, v = .wrapper k p ∧ k ≠ "Paragraph" ∧ k ≠ "Heading") ∨
  (cur = none ∧ ∃ ty, vt = some ty ∧ ∀ key, (ty, key) ∉ odfAttr)

theorem refused_iff (v : Val L) (vt : Option String) (cur : Option Str) :
    Refused v vt cur ↔ isValidValue L v = false ∨ resolve L v vt cur ∉ VALID_VALUE_TYPES := by
  have h1 : isValidValue L v = false ↔
      v = .none ∨ (∃ k p, v = .wrapper k p ∧ k ≠ "Paragraph" ∧ k ≠ "Heading") := by
    cases v <;> simp [isValidValue, SUPPORTED_CELL_CONTENT]
  have h2 : ∀ ty, ty ∉ VALID_VALUE_TYPES ↔ ∀ key, (ty, key) ∉ odfAttr := by
    intro ty
    constructor
    · intro h key hm
      apply h
      simp only [odfAttr, List.mem_cons, Prod.mk.injEq, List.mem_nil_iff, or_false] at hm
      rcases hm with h | h | h | h | h | h | h <;> rw [h.1] <;> decide
    · intro h hm
      obtain ⟨key, hk⟩ := typeValueMap_some hm
      exact h key (typeValueMap_odf.1 hk)
  have h3 : resolve L v vt cur ∉ VALID_VALUE_TYPES ↔
      (cur = none ∧ ∃ ty, vt = some ty ∧ ∀ key, (ty, key) ∉ odfAttr) := by
    unfold resolve
    cases cur with
    | some c => simp [VALID_VALUE_TYPES]
    | none =>
      cases vt with
      | some ty => simp [h2 ty]
      | none =>
        simp only [Option.isSome_none, Bool.false_eq_true, if_false]
        cases v <;> simp [determineValueType, VALID_VALUE_TYPES]
  unfold Refused
  rw [h1, h3, or_assoc]

/-- The one case in which `set_value` fails after it has cleared the cell: an empty text for a type
stored as attribute text. -/
def EmptyText (v : Val L) (vt : Option String) (cur : Option Str) : Prop :=
  v = .str [] ∧ ((∃ ty, vt = some ty ∧ cur = none ∧ (∃ key, (ty, key) ∈ odfAttr) ∧
    ty ≠ "string" ∧ ty ≠ "boolean") ∨ cur ≠ none)

/-- **C28** (partial). `set_value` fails exactly for refused calls and for an empty text; refused
calls leave the cell unchanged.  Missing: the empty text, refuted below. -/
theorem C28_rejected_partial (hL : L.Lawful) (v : Val L) (vt : Option String) (cur : Option Str)
    (t : Tree) :
    (Refused v vt cur → ∃ e, setValue L v vt cur t = (t, .error e)) ∧
    (¬ Refused v vt cur → ¬ EmptyText v vt cur → ∃ t', setValue L v vt cur t = (t', .ok ())) := by
  constructor
  · intro h
    by_cases hv : isValidValue L v = true
    · rcases (refused_iff v vt cur).1 h with h | h
      · rw [hv] at h; cases h
      · exact ⟨_, setValue_badtype L hv h t⟩
    · exact ⟨_, setValue_invalid L (by simpa using hv) _ _ _⟩
  · intro h hE
    rw [refused_iff, not_or, Decidable.not_not] at h
    have hv : isValidValue L v = true := by simpa using h.1
    obtain ⟨key, hk⟩ := typeValueMap_some h.2
    rw [setValue_good L hv rfl h.2]
    cases hc : convert L v (resolve L v vt cur) with
    | content p => exact ⟨_, setNewValue_content _ _ _ _⟩
    | attr s =>
      rw [setNewValue_attr h.2 hk]
      by_cases hs : s = []
      · exfalso
        subst hs
        apply hE
        have hns : resolve L v vt cur ≠ "string" := by
          intro e; rw [e] at hc
          cases v <;> simp [convert] at hc
        have hnb : resolve L v vt cur ≠ "boolean" := by
          intro e; rw [e] at hc
          cases v with
          | wrapper k p => simp [convert] at hc
          | _ => simp only [convert] at hc; revert hc; simp; split <;> simp
        have hv0 : v = .str [] := by
          cases v with
          | none => cases hv
          | wrapper k p => simp [convert] at hc
          | bool b => cases b <;> simp [convert, hns, hnb, tostr] at hc
          | int i => simp [convert, hns, hnb, tostr, intStr_ne_nil] at hc
          | float x => simp [convert, hns, hnb, tostr, hL.repr_ne] at hc
          | str s => simp [convert, hns, hnb, tostr] at hc; rw [hc]
        refine ⟨hv0, ?_⟩
        cases cur with
        | some c => exact .inr (by simp)
        | none =>
          cases vt with
          | none => subst hv0; exact absurd rfl hns
          | some ty => exact .inl ⟨ty, rfl, rfl, ⟨key, typeValueMap_odf.1 hk⟩, hns, hnb⟩
      · exact ⟨_, if_neg hs⟩

/-- **C28 is refuted.** `set_value('', 'float')` raises ValueError and yet has emptied the cell: the
old value and content are gone, the old type remains. -/
theorem C28_empty_text_refuted : ∃ (t t' : Tree), Conform t ∧
    value intLib t = .ok (.float (5 : Int)) ∧ t.2 ≠ .nil ∧
    setValue intLib (.str []) (some "date") none t = (t', .error .ValueError) ∧
    value intLib t' = .ok .none ∧ t'.2 = .nil := by
  refine ⟨euro, (setValue intLib (.str []) (some "date") none euro).1, ?_, ?_, ?_, Prod.ext rfl ?_, ?_, ?_⟩
  · unfold Conform; decide +kernel
  · rfl
  · decide +kernel
  · rfl
  · rfl
  · rfl

/-- **C28** (the refuted case in general). Whenever the text is empty, the call fails after the
old value has been removed. -/
theorem C28_empty_text {vt : Option String} {cur : Option Str}
    (h : EmptyText (L := L) (.str []) vt cur) (t : Tree) :
    setValue L (.str []) vt cur t = (clearOldValue t, .error .ValueError) := by
  have key : ∀ ty, ty ∈ VALID_VALUE_TYPES → ty ≠ "string" → ty ≠ "boolean" →
      resolve L (.str []) vt cur = ty →
      setValue L (.str []) vt cur t = (clearOldValue t, .error .ValueError) := by
    intro ty h1 h2 h3 h4
    obtain ⟨key, hk⟩ := typeValueMap_some h1
    rw [setValue_good L rfl h4 h1]
    have : convert L (.str []) ty = .attr [] := by simp [convert, h2, h3, tostr]
    rw [this, setNewValue_attr h1 hk, if_pos rfl]
  rcases h.2 with ⟨ty, h1, h2, ⟨k, h3⟩, h4, h5⟩ | h1
  · subst h1; subst h2
    refine key ty ?_ h4 h5 rfl
    simp only [odfAttr, List.mem_cons, Prod.mk.injEq, List.mem_nil_iff, or_false] at h3
    rcases h3 with h | h | h | h | h | h | h <;> rw [h.1] <;> decide
  · cases cur with
    | none => exact absurd rfl h1
    | some c => exact key "currency" (by decide) (by decide) (by decide) rfl

example : Refused (L := intLib) (.wrapper "Table" euro) none none :=
  .inr (.inl ⟨_, _, rfl, by decide, by decide⟩)
example : Refused (L := intLib) (.int 1) (some "number") none := .inr (.inr ⟨rfl, _, rfl, by
  intro key h; simp [odfAttr] at h⟩)
example : ¬ Refused (L := intLib) (.int 1) (some "date") none ∧
    ¬ EmptyText (L := intLib) (.int 1) (some "date") none := by
  constructor
  · rw [refused_iff]; decide
  · rintro ⟨h, _⟩; cases h

/-! ## C29 -/

theorem lastChild_split {f : Forest} {l : Tree} (h : lastChild f = some l) :
    ∃ init : Forest, f = init ++ Forest.single l ∧
      ∀ g, mapLast g f = init ++ Forest.single (g l.1 l.2) := by
  induction f with
  | nil => cases h
  | cons e k r _ ih =>
    cases r with
    | nil => cases h; exact ⟨.nil, rfl, fun _ => rfl⟩
    | cons e' k' r' =>
      obtain ⟨init, h1, h2⟩ := ih h
      refine ⟨.cons e k init, by rw [Forest.cons_append, ← h1], fun g => ?_⟩
      rw [Forest.cons_append, ← h2 g]; rfl

theorem lastChild_none {f : Forest} (h : lastChild f = none) : f = .nil := by
  induction f with
  | nil => rfl
  | cons e k r _ ih =>
    cases r with
    | nil => cases h
    | cons e' k' r' => cases ih h

theorem filter_single (p : Tree) (h : isParaTag p.1.tag = true) :
    (Txt.parts (Forest.single p)).filter (fun p => p.tag = "text:p" ∨ p.tag = "text:h")
      = [⟨p.1.tag, Txt.plaintext p, Txt.ostr p.1.tail⟩] := by
  have : (p.1.tag = "text:p" ∨ p.1.tag = "text:h") := by simpa [isParaTag] using h
  simp [Forest.single, Txt.parts, Txt.plaintext, this]

theorem plaintext_snoc (e : Elem) (f : Forest) (p : Tree) (h : isParaTag p.1.tag = true) {s : Str}
    (hs : plaintext (e, f) = some s) {x : Str} (hx : Txt.plaintext p = some x) :
    plaintext (e, f ++ Forest.single p)
      = some (if f.toList.any (fun c => isParaTag c.1.tag) then s ++ '\n' :: x else x) := by
  unfold plaintext at hs ⊢
  simp only [parts_append, List.filter_append, filter_single p h, lines_append]
  cases hl : Txt.lines ((Txt.parts f).filter fun p => p.tag = "text:p" ∨ p.tag = "text:h") with
  | none => simp only [hl] at hs; cases hs
  | some ls =>
    simp only [hl, Option.map_some, Option.some.injEq] at hs
    simp only [Txt.lines, hx, Option.map_some, joinLines_snoc, hs, Option.some.injEq]
    have hlen := lines_length hl
    have : ls = [] ↔ ¬ f.toList.any (fun c => isParaTag c.1.tag) = true := by
      rw [← List.length_eq_zero_iff, hlen]
      clear hl hlen hs
      induction f with
      | nil => simp [Txt.parts]
      | cons e k r _ ih =>
        by_cases ht : e.tag = "text:p" ∨ e.tag = "text:h"
        · simp [Txt.parts, isParaTag, ht]
        · simp only [Txt.parts, isParaTag, ht, List.filter, Forest.toList_cons, List.any_cons]
          simpa [isParaTag] using ih
    by_cases hn : ls = []
    · rw [if_pos hn, if_neg (this.1 hn)]
    · rw [if_neg hn, if_pos (Decidable.not_not.1 (mt this.2 hn))]

theorem plaintext_append_span (p : Tree) (hp : isParaTag p.1.tag = true) {x : Str}
    (hx : Txt.plaintext p = some x) (text : Str) :
    Txt.plaintext (p.1, p.2 ++ Forest.single (Txt.newSpan "text:span" text)) = some (x ++ text) := by
  have hk : Txt.kind p.1.tag = .span := by
    have : (p.1.tag = "text:p" ∨ p.1.tag = "text:h") := by simpa [isParaTag] using hp
    rcases this with h | h <;> rw [h] <;> rfl
  have hn := Txt.plaintext_newSpan (tag := "text:span") (by rfl) text
  have htail : Txt.ostr (Txt.newSpan "text:span" text).1.tail = [] := by
    unfold Txt.newSpan
    simp only
    split
    · rfl
    · unfold Txt.appendText
      have : ∀ (is : List Ws.Item) (t : Tree), (is.foldl Txt.appendItem t).1.tail = t.1.tail := by
        intro is
        induction is with
        | nil => intro t; rfl
        | cons i is ih =>
          intro t; rw [List.foldl_cons, ih]
          cases i with
          | elem e => rfl
          | text s =>
            obtain ⟨e, k⟩ := t
            cases k <;> rfl
      rw [this]; rfl
  unfold Txt.plaintext Txt.elemText at hx ⊢
  simp only [hk] at hx ⊢
  have hone : Txt.parts (Forest.single (Txt.newSpan "text:span" text))
      = [⟨(Txt.newSpan "text:span" text).1.tag, some text, []⟩] := by
    simp only [Forest.single, Txt.parts, htail]
    rw [← hn]; rfl
  rw [parts_append, Txt.spanText_append, hone]
  cases hs : Txt.spanText (Txt.parts p.2) with
  | none => rw [hs] at hx; cases hx
  | some y =>
    rw [hs] at hx
    simp only [Option.map_some, Option.some.injEq] at hx
    subst hx
    simp [Txt.spanText]

/-- **C29** (grow). When a string cell ends with a paragraph or heading, `append_text` appends to it:
value, and so plain text, grow by exactly the text; the cell's attributes and its other children
stay as they are. -/
theorem C29_append_grows {t : Tree} (hs : valueType t = some "string".toList) {init : Forest}
    {last : Tree} (hk : t.2 = init ++ Forest.single last)
    (hlast : last.1.tag = "text:p" ∨ last.1.tag = "text:h") {old : Str}
    (hv : value L t = .ok (.str old)) (text : Str) :
    ∃ t', appendText text t = (t', .ok ()) ∧ value L t' = .ok (.str (old ++ text)) ∧ t'.1 = t.1 ∧
      ∃ last', t'.2 = init ++ Forest.single last' ∧ last'.1 = last.1 := by
  have hp : isParaTag last.1.tag = true := by simpa [isParaTag] using hlast
  have hl : lastChild t.2 = some last ∧
      ∀ g, mapLast g t.2 = init ++ Forest.single (g last.1 last.2) := by
    have : ∀ init : Forest, lastChild (init ++ Forest.single last) = some last ∧
        ∀ g, mapLast g (init ++ Forest.single last) = init ++ Forest.single (g last.1 last.2) := by
      intro init
      induction init with
      | nil => exact ⟨rfl, fun _ => rfl⟩
      | cons e k r _ ih =>
        cases hr : r ++ Forest.single last with
        | nil => cases r <;> cases hr
        | cons e' k' r' =>
          rw [hr] at ih
          rw [Forest.cons_append, hr]
          exact ⟨ih.1, fun g => by rw [Forest.cons_append, ← ih.2 g]; rfl⟩
    rw [hk]; exact this init
  have hpl : plaintext t = some old := by
    unfold value at hv
    simp only [hs, String.ofList_toList, if_true] at hv
    cases h : plaintext t with
    | none => rw [h] at hv; cases hv
    | some s => rw [h] at hv; cases hv; rfl
  refine ⟨(t.1, init ++ Forest.single (last.1, last.2 ++ Forest.single (Txt.newSpan "text:span" text))),
    ?_, ?_, rfl, _, rfl, rfl⟩
  · unfold appendText
    rw [if_neg (by simp [hs]), hl.1]
    simp only [hp, if_true, hl.2]
  · refine value_string (L := L) ?_ ?_
    · exact hs
    have h0 : t = (t.1, init ++ Forest.single last) := Prod.ext rfl hk
    rw [h0] at hpl
    unfold plaintext at hpl ⊢
    have hp2 := filter_single (last.1, last.2 ++ Forest.single (Txt.newSpan "text:span" text)) hp
    simp only [parts_append, List.filter_append, filter_single last hp, lines_append] at hpl ⊢
    rw [hp2]
    cases hl : Txt.lines ((Txt.parts init).filter fun p => p.tag = "text:p" ∨ p.tag = "text:h") with
    | none => simp only [hl] at hpl; cases hpl
    | some ls =>
      cases hx : Txt.plaintext last with
      | none => simp only [hl, Txt.lines, hx] at hpl; cases hpl
      | some x =>
        have := plaintext_append_span last hp hx text
        simp only [hl, Txt.lines, hx, Option.map_some, Option.some.injEq] at hpl
        simp only [Txt.lines, this, Option.map_some, joinLines_last, hpl]

/-- **C29** (new paragraph). When the last child of a string cell is no paragraph or heading, or
there is no child, `append_text` adds a paragraph: the value grows by a newline and the text if there
was any paragraph or heading before, else it is the text. -/
theorem C29_append_new {t : Tree} (hs : valueType t = some "string".toList)
    (hlast : ∀ init last, t.2 = init ++ Forest.single last →
      last.1.tag ≠ "text:p" ∧ last.1.tag ≠ "text:h")
    {old : Str} (hv : value L t = .ok (.str old)) (text : Str) :
    ∃ t', appendText text t = (t', .ok ()) ∧
      value L t' = .ok (.str (if ∃ c ∈ t.2.toList, c.1.tag = "text:p" ∨ c.1.tag = "text:h"
        then old ++ '\n' :: text else text)) ∧
      t'.1 = t.1 ∧ ∃ p, t'.2 = t.2 ++ Forest.single p ∧ p.1.tag = "text:p" := by
  have hpl : plaintext t = some old := by
    unfold value at hv
    simp only [hs, String.ofList_toList, if_true] at hv
    cases h : plaintext t with
    | none => rw [h] at hv; cases hv
    | some s => rw [h] at hv; cases hv; rfl
  refine ⟨(t.1, t.2 ++ Forest.single (Txt.newSpan "text:p" text)), ?_, ?_, rfl, _, rfl,
    Txt.newSpan_tag _ _⟩
  · unfold appendText
    rw [if_neg (by simp [hs])]
    cases hl : lastChild t.2 with
    | none => rfl
    | some l =>
      obtain ⟨init, h1, _⟩ := lastChild_split hl
      have h2 := hlast init l h1
      have : isParaTag l.1.tag = false := by simp [isParaTag, h2.1, h2.2]
      simp [this]
  · refine value_string (L := L) ?_ ?_
    · exact hs
    rw [plaintext_snoc t.1 t.2 _ (by rw [Txt.newSpan_tag]; rfl) hpl
      (Txt.plaintext_newSpan (by rfl) text)]
    congr 1
    simp only [List.any_eq_true, isParaTag, decide_eq_true_eq]

/-- **C29** (other types). For every other type `append_text` raises TypeError and changes
nothing. -/
theorem C29_append_rejects {t : Tree} (h : valueType t ≠ some "string".toList) (text : Str) :
    appendText text t = (t, .error .TypeError) := if_pos h

/-- **C29** (display form). Setting the display form is refused exactly for cells without type and
string cells; it never changes value, type or any other attribute. -/
theorem C29_display_form (text : Str) (t : Tree) :
    ((setDisplayForm text t).2 = .ok () ↔
      ∃ ty, valueType t = some ty ∧ ty ≠ "string".toList) ∧
    (setDisplayForm text t).1.1 = t.1 ∧
    valueType (setDisplayForm text t).1 = valueType t ∧
    value L (setDisplayForm text t).1 = value L t ∧
    ((setDisplayForm text t).2 ≠ .ok () → setDisplayForm text t = (t, .error .TypeError)) := by
  cases hv : valueType t with
  | none =>
    have h : setDisplayForm text t = (t, .error .TypeError) := by simp [setDisplayForm, hv]
    rw [h]; simp [hv]
  | some ty =>
    by_cases hty : ty = "string".toList
    · have h : setDisplayForm text t = (t, .error .TypeError) := by simp [setDisplayForm, hv, hty]
      rw [h]; simp [hv, hty]
    · obtain ⟨f, h⟩ : ∃ f, setDisplayForm text t = ((t.1, f), .ok ()) := by
        unfold setDisplayForm
        simp only [hv, if_neg hty]
        cases Txt.findChild "text:p" t.2 <;> exact ⟨_, rfl⟩
      rw [h]
      have hne : String.ofList ty ≠ "string" := fun e => hty (by rw [← e]; simp)
      refine ⟨?_, rfl, hv, ?_, fun h => absurd rfl h⟩
      · simp; exact hty
      · have hv2 : valueType (t.1, f) = some ty := hv
        simp only [value, hv2, hv, if_neg hne]

theorem findChild_none {tag : String} {f : Forest} (h : Txt.findChild tag f = none) :
    ∀ c ∈ f.toList, c.1.tag ≠ tag := by
  induction f with
  | nil => simp
  | cons e k r _ ih =>
    simp only [Txt.findChild] at h
    split at h
    · cases h
    · rename_i hne
      intro c hc
      rcases List.mem_cons.1 hc with rfl | hc
      · exact hne
      · exact ih h c hc

theorem replaceFirst_split {tag : String} {f : Forest} {c : Tree} (h : Txt.findChild tag f = some c) :
    ∃ a b : Forest, f = a ++ Forest.single c ++ b ∧ c.1.tag = tag ∧
      ∀ p, replaceFirst tag p f = a ++ Forest.single p ++ b := by
  induction f with
  | nil => cases h
  | cons e k r _ ih =>
    simp only [Txt.findChild] at h
    by_cases he : e.tag = tag
    · rw [if_pos he] at h; cases h
      exact ⟨.nil, r, rfl, he, fun p => by simp [replaceFirst, he, Forest.single]⟩
    · rw [if_neg he] at h
      obtain ⟨a, b, h1, h2, h3⟩ := ih h
      exact ⟨.cons e k a, b, by rw [h1]; rfl, h2, fun p => by simp [replaceFirst, he, h3 p]⟩

theorem filter_none {f : Forest} (h : ∀ c ∈ f.toList, c.1.tag ≠ "text:p" ∧ c.1.tag ≠ "text:h") :
    (Txt.parts f).filter (fun p => p.tag = "text:p" ∨ p.tag = "text:h") = [] := by
  induction f with
  | nil => rfl
  | cons e k r _ ih =>
    have h1 := h (e, k) (by simp)
    simp only at h1
    simp only [Txt.parts, List.filter, h1.1, h1.2, or_self, decide_false]
    exact ih fun c hc => h c (by simp [hc])

/-- **C29** (display form reads back). If the cell has no heading and at most one paragraph, the
display form reads back as written. -/
theorem C29_display_form_reads {t : Tree} {ty : Str} (hv : valueType t = some ty)
    (hty : ty ≠ "string".toList) (hh : ∀ c ∈ t.2.toList, c.1.tag ≠ "text:h")
    (hp : (t.2.toList.filter fun c => c.1.tag = "text:p").length ≤ 1) (text : Str) :
    plaintext (setDisplayForm text t).1 = some text := by
  have hN := filter_single (Txt.newSpan "text:p" text) (by rw [Txt.newSpan_tag]; rfl)
  have hP := Txt.plaintext_newSpan (tag := "text:p") (by rfl) text
  unfold setDisplayForm
  simp only [hv, if_neg hty]
  cases hf : Txt.findChild "text:p" t.2 with
  | none =>
    have h0 := findChild_none hf
    unfold plaintext
    simp only [parts_append, List.filter_append, hN,
      filter_none fun c hc => ⟨h0 c hc, hh c hc⟩, List.nil_append, Txt.lines, hP]
    rfl
  | some c =>
    obtain ⟨a, b, h1, h2, h3⟩ := replaceFirst_split hf
    have hs : (Forest.single c).toList = [c] := rfl
    rw [h1] at hp hh
    simp only [Forest.toList_append, hs, List.filter_append, List.length_append] at hp
    have hc1 : ([c].filter fun c => c.1.tag = "text:p").length = 1 := by simp [h2]
    have ha : ∀ x ∈ a.toList, x.1.tag ≠ "text:p" := by
      intro x hx hxt
      have : 0 < (a.toList.filter fun c => c.1.tag = "text:p").length :=
        List.length_pos_of_mem (List.mem_filter.2 ⟨hx, by simpa using hxt⟩)
      omega
    have hb : ∀ x ∈ b.toList, x.1.tag ≠ "text:p" := by
      intro x hx hxt
      have : 0 < (b.toList.filter fun c => c.1.tag = "text:p").length :=
        List.length_pos_of_mem (List.mem_filter.2 ⟨hx, by simpa using hxt⟩)
      omega
    unfold plaintext
    simp only [h3, parts_append, List.filter_append, hN,
      filter_none fun c hc => ⟨ha c hc, hh c (by simp [hc])⟩,
      filter_none fun c hc => ⟨hb c hc, hh c (by simp [hc])⟩, List.nil_append, List.append_nil,
      Txt.lines, hP]
    rfl

/-- **C29** (display form, more paragraphs). With a second paragraph the display form reads more than
was written, as the property allows. -/
theorem C29_display_form_second :
    plaintext (setDisplayForm "x".toList (euro.1, euro.2 ++ euro.2)).1
      = some "x\n5 EUR".toList := by decide +kernel

/-- A string cell with two paragraphs and a trailing frame. -/
def twoLines : Tree :=
  ({ id := 1, tag := "table:table-cell", attrs := [("office:value-type", "string".toList)] },
   .cons { id := 2, tag := "text:p", text := some "a".toList } .nil
     (.cons { id := 3, tag := "text:h", text := some "b".toList } .nil .nil))

example : value intLib twoLines = .ok (.str "a\nb".toList) := rfl
example : value intLib (appendText " c".toList twoLines).1 = .ok (.str "a\nb c".toList) := rfl
example : value intLib (appendText "c".toList
      (twoLines.1, twoLines.2 ++ .cons { id := 4, tag := "draw:frame" } .nil .nil)).1
    = .ok (.str "a\nb\nc".toList) := rfl
example : plaintext (setDisplayForm "7 €".toList euro).1 = some "7 €".toList := by decide +kernel

end Verif.Cells
