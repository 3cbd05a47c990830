import Verif.Props.Cells
/-!
# Properties C26 and C27, continued: exact statements where the property is false
-/
set_option linter.unusedSimpArgs false
namespace Verif.Cells
open Verif

variable {L : FloatLib}

/-! ## C26 -/

/-- The type as which a value that is no element is written: currency if a currency is given, else the given type,
else by the kind of the value. -/
def WrittenAs (v : Val L) (vt : Option String) (cur : Option Str) (ty : String) : Prop :=
  (cur ≠ none ∧ ty = "currency") ∨ (cur = none ∧ vt = some ty) ∨
  (cur = none ∧ vt = none ∧
    ((∃ b, v = .bool b) ∧ ty = "boolean" ∨ ((∃ i, v = .int i) ∨ ∃ x, v = .float x) ∧ ty = "float" ∨
      (∃ s, v = .str s) ∧ ty = "string"))

theorem writtenAs_resolve {v : Val L} (hv : isValidValue L v = true) (hw : ∀ k p, v ≠ .wrapper k p)
    (vt : Option String) (cur : Option Str) : WrittenAs v vt cur (resolve L v vt cur) := by
  unfold WrittenAs resolve
  cases cur with
  | some c => exact .inl ⟨by simp, rfl⟩
  | none =>
    cases vt with
    | some ty => exact .inr (.inl ⟨rfl, rfl⟩)
    | none =>
      refine .inr (.inr ⟨rfl, rfl, ?_⟩)
      cases v with
      | none => cases hv
      | wrapper k p => exact absurd rfl (hw k p)
      | bool b => exact .inl ⟨⟨b, rfl⟩, rfl⟩
      | int i => exact .inr (.inl ⟨.inl ⟨i, rfl⟩, rfl⟩)
      | float x => exact .inr (.inl ⟨.inr ⟨x, rfl⟩, rfl⟩)
      | str s => exact .inr (.inr ⟨⟨s, rfl⟩, rfl⟩)

/-- **C26**, exact: what a cell reports after any successful `set_value`, whatever value, type and currency were
given.  An element is read as its plain text (unreadable with an unreadable space count); other values by the type they
are written as: a string cell reads their text, dates and times too, booleans their truth value, numbers the number
that their text denotes, and raise ValueError if it denotes none. -/
theorem C26_exact {v : Val L} {vt : Option String} {cur : Option Str} {t t' : Tree}
    (htag : ∀ k p, v = .wrapper k p → p.1.tag = "text:p" ∨ p.1.tag = "text:h")
    (h : setValue L v vt cur t = (t', .ok ())) :
    (∀ k p, v = .wrapper k p → valueType t' = some "string".toList ∧
      value L t' = match Txt.plaintext p with | some s => .ok (.str s) | none => .error .ValueError) ∧
    ((∀ k p, v ≠ .wrapper k p) → ∃ ty, WrittenAs v vt cur ty ∧ valueType t' = some ty.toList ∧
      (ty = "string" ∨ ty = "date" ∨ ty = "time" → value L t' = .ok (.str (tostr L v))) ∧
      (ty = "boolean" → value L t' = .ok (.bool (truth L v))) ∧
      (ty = "float" ∨ ty = "percentage" ∨ ty = "currency" →
        value L t' = match L.parse (tostr L v) with | some x => .ok (.float x) | none => .error .ValueError) ∧
      ty ∈ ["string", "date", "time", "boolean", "float", "percentage", "currency"]) := by
  have hv : isValidValue L v = true := by
    refine Decidable.byContradiction fun hv => ?_
    rw [setValue_invalid L (by simpa using hv)] at h
    cases congrArg Prod.snd h
  have hty : resolve L v vt cur ∈ VALID_VALUE_TYPES := by
    refine Decidable.byContradiction fun hty => ?_
    rw [setValue_badtype L hv hty] at h
    cases congrArg Prod.snd h
  constructor
  · rintro k p rfl
    obtain ⟨u, h1, h2, h3⟩ := content_core (L := L) (cur := cur) hv rfl hty (p := p) rfl t
    rw [h] at h1; cases h1
    refine ⟨h2, ?_⟩
    have hp : plaintext t' = Txt.plaintext p := by
      have : t' = (t'.1, Forest.single p) := Prod.ext rfl h3
      rw [this]
      exact plaintext_single (by rcases htag k p rfl with h | h <;> simp [isParaTag, h])
    simp only [value, h2, String.ofList_toList, if_true, hp]
    cases Txt.plaintext p <;> rfl
  · intro hw
    refine ⟨_, writtenAs_resolve hv hw vt cur, ?_⟩
    have hconv : ∀ ty, convert L v ty = if ty = "string" then .content (Txt.newSpan "text:p" (tostr L v))
        else if ty = "boolean" then .attr (if truth L v then "true".toList else "false".toList)
        else .attr (tostr L v) := by
      intro ty
      cases v with
      | wrapper k p => exact absurd rfl (hw k p)
      | _ => rfl
    generalize hr : resolve L v vt cur = ty at hty
    have hc := hconv ty
    by_cases hs : ty = "string"
    · subst hs
      rw [if_pos rfl] at hc
      obtain ⟨u, h1, h2, h3⟩ := content_core (L := L) (cur := cur) hv hr hty hc t
      rw [h] at h1; cases h1
      refine ⟨h2, fun _ => value_string h2 ?_, fun e => absurd e (by decide),
        fun e => absurd e (by decide), by decide⟩
      have : t' = (t'.1, Forest.single (Txt.newSpan "text:p" (tostr L v))) := Prod.ext rfl h3
      rw [this]; exact plaintext_newP _ _
    · rw [if_neg hs] at hc
      obtain ⟨key, hk⟩ := typeValueMap_some hty
      -- the stored text is not empty, or the call would have failed
      have hcore : ∀ s, convert L v ty = .attr s → valueType t' = some ty.toList ∧ t'.1.get key = some s := by
        intro s hcs
        have hne : s ≠ [] := by
          rintro rfl
          rw [setValue_good L hv hr hty, hcs, setNewValue_attr hty hk, if_pos rfl] at h
          cases congrArg Prod.snd h
        obtain ⟨u, h1, h2, h3, _⟩ := attr_core (L := L) (cur := cur) hv hr hty hcs hne (typeValueMap_odf.1 hk) t
        rw [h] at h1; cases h1
        exact ⟨h2, h3⟩
      by_cases hb : ty = "boolean"
      · subst hb
        rw [if_pos rfl] at hc
        obtain ⟨h2, h3⟩ := hcore _ hc
        have hk' : typeValueMap "boolean" = some "office:boolean-value" := rfl
        rw [hk] at hk'; cases hk'
        refine ⟨h2, fun e => absurd e (by decide), fun _ => ?_, fun e => absurd e (by decide), by decide⟩
        simp only [value, h2, String.ofList_toList, hk, h3]
        cases truth L v <;> rfl
      · rw [if_neg hb] at hc
        obtain ⟨h2, h3⟩ := hcore _ hc
        refine ⟨h2, ?_, fun e => absurd e hb, ?_, ?_⟩
        · rintro (rfl | rfl | rfl)
          · exact absurd rfl hs
          · simp only [value, h2, String.ofList_toList, hk, h3, NUMERIC_TYPES]; rfl
          · simp only [value, h2, String.ofList_toList, hk, h3, NUMERIC_TYPES]; rfl
        · intro he
          have hnum : ty ∈ NUMERIC_TYPES := by rcases he with h | h | h <;> subst h <;> decide
          have hk' : typeValueMap ty = some "office:value" := by rcases he with h | h | h <;> subst h <;> rfl
          rw [hk] at hk'; cases hk'
          exact value_numeric h2 hnum h3
        · revert hty
          simp only [VALID_VALUE_TYPES, List.mem_cons, List.mem_nil_iff, or_false]
          rintro (h | h | h | h | h | h | h) <;> simp [h]

-- a text that is no number, written as percentage: accepted, then unreadable
example : (setValue intLib (.str "abc".toList) (some "percentage") none euro).2 = .ok () ∧
    value intLib (setValue intLib (.str "abc".toList) (some "percentage") none euro).1 = .error .ValueError ∧
    WrittenAs (L := intLib) (.str "abc".toList) (some "percentage") none "percentage" :=
  ⟨by decide +kernel, by rfl, .inr (.inl ⟨rfl, rfl⟩)⟩
-- a number written as date
example : (setValue intLib (.int 12) (some "date") none euro).2 = .ok () ∧
    value intLib (setValue intLib (.int 12) (some "date") none euro).1 = .ok (.str "12".toList) :=
  ⟨by decide +kernel, by rfl⟩

/-! ## C27 -/

/-- **C27**, exact: the currency after a successful call is the given one if the cell is a currency cell now and it is
not empty, else the one from before. -/
theorem C27_currency_exact {v : Val L} {vt : Option String} {cur : Option Str} {t t' : Tree}
    (h : setValue L v vt cur t = (t', .ok ())) :
    (valueType t' = some "currency".toList → ∀ c, cur = some c → c ≠ [] → currency t' = some c) ∧
    ((valueType t' ≠ some "currency".toList ∨ cur = none ∨ cur = some []) → currency t' = currency t) := by
  rcases setValue_cases v vt cur t with ⟨e, h1⟩ | ⟨p, h1⟩ | ⟨ty, key, s, hk, _, h1⟩ | ⟨ty, _, h1⟩
  · rw [h1] at h; cases congrArg Prod.snd h
  · rw [h1] at h; cases h
    have hty : valueType (((clearOldValue t).1.set "office:value-type" "string".toList, Forest.single p) : Tree) =
        some "string".toList := by simp only [valueType, getAttr, Elem.get_set_self]
    refine ⟨fun h2 => ?_, fun _ => ?_⟩
    · rw [hty] at h2; exact absurd (Option.some.inj h2) (by decide)
    · unfold currency
      simp only
      rw [Elem.get_set, if_neg (by decide), clear_unrelated t (by decide)]
  · rw [h1] at h; cases h
    have hk2 : "office:currency" ≠ key := fun e => by
      have := odf_valueAttr hk; rw [← e] at this; revert this; decide
    have hty : valueType ((withCurrency ty cur (((clearOldValue t).1.set key s).set "office:value-type" ty.toList),
        .nil) : Tree) = some ty.toList := by
      simp only [valueType, getAttr]
      rw [withCurrency_get _ _ _ (by decide), Elem.get_set_self]
    have hcur : currency ((withCurrency ty cur (((clearOldValue t).1.set key s).set "office:value-type" ty.toList),
        .nil) : Tree) = if ty = "currency" ∧ ∃ c, cur = some c ∧ c ≠ [] then cur else currency t := by
      unfold currency
      simp only
      rw [withCurrency_currency]
      split
      · rfl
      · rw [Elem.get_set, if_neg (by decide), Elem.get_set, if_neg hk2, clear_unrelated t (by decide)]
    have hinj : ty.toList = "currency".toList ↔ ty = "currency" := String.toList_inj
    rw [hty, hcur]
    refine ⟨fun h2 c hc hne => ?_, fun h2 => ?_⟩
    · rw [if_pos ⟨hinj.mp (Option.some.inj h2), c, hc, hne⟩, hc]
    · rw [if_neg]
      rintro ⟨rfl, c, rfl, hne⟩
      rcases h2 with h2 | h2 | h2
      · exact h2 rfl
      · cases h2
      · exact hne (Option.some.inj h2)
  · rw [h1] at h; cases congrArg Prod.snd h

/-- **C27**: so the clause on the currency holds of a call exactly if the cell is a currency cell afterwards or had no
currency before. -/
theorem C27_currency_iff {v : Val L} {vt : Option String} {cur : Option Str} {t t' : Tree}
    (h : setValue L v vt cur t = (t', .ok ())) :
    (currency t' ≠ none → valueType t' = some "currency".toList) ↔
    (valueType t' = some "currency".toList ∨ currency t = none) := by
  obtain ⟨_, h2⟩ := C27_currency_exact h
  by_cases hty : valueType t' = some "currency".toList
  · simp [hty]
  · rw [h2 (.inl hty)]
    simp only [hty, imp_false, false_or]
    exact Decidable.not_not

/-- **C27**, exact, without assumptions on the cell: the value attributes after a successful call are the one that
belongs to the new type, and those from before that did not belong to the old type. -/
theorem C27_left {v : Val L} {vt : Option String} {cur : Option Str} {t t' : Tree}
    (h : setValue L v vt cur t = (t', .ok ())) {k : String} (hk : k ∈ valueAttrs)
    (hnew : ∀ ty, valueType t' = some ty → ty ≠ "string".toList → (String.ofList ty, k) ∉ odfAttr) :
    t'.1.get k = if ∃ ty, valueType t = some ty ∧ (String.ofList ty, k) ∈ odfAttr then none else t.1.get k := by
  have hne : ∀ k ∈ valueAttrs, k ≠ "office:value-type" ∧ k ≠ "office:currency" := by decide
  have hclear : (clearOldValue t).1.get k =
      if ∃ ty, valueType t = some ty ∧ (String.ofList ty, k) ∈ odfAttr then none else t.1.get k := by
    split
    · rename_i hh
      obtain ⟨ty, h1, h2⟩ := hh
      exact clear_get_eq t h1 (typeValueMap_odf.2 h2)
    · rename_i hh
      exact clear_get_ne t fun ty h1 h2 => hh ⟨ty, h1, typeValueMap_odf.1 h2⟩
  rcases setValue_cases v vt cur t with ⟨e, h1⟩ | ⟨p, h1⟩ | ⟨ty, key, s, hkey, ⟨_, hs⟩, h1⟩ | ⟨ty, _, h1⟩
  · rw [h1] at h; cases congrArg Prod.snd h
  · rw [h1] at h; cases h
    simp only
    rw [Elem.get_set, if_neg (hne k hk).1, hclear]
  · rw [h1] at h; cases h
    have hty : valueType ((withCurrency ty cur (((clearOldValue t).1.set key s).set "office:value-type" ty.toList),
        .nil) : Tree) = some ty.toList := by
      simp only [valueType, getAttr]
      rw [withCurrency_get _ _ _ (by decide), Elem.get_set_self]
    have hkk : k ≠ key := by
      rintro rfl
      exact hnew _ hty (fun e => hs (String.toList_inj.mp e)) (by rw [String.ofList_toList]; exact hkey)
    simp only
    rw [withCurrency_get _ _ _ (hne k hk).2, Elem.get_set, if_neg (hne k hk).1, Elem.get_set, if_neg hkk, hclear]
  · rw [h1] at h; cases congrArg Prod.snd h

/-- A cell outside ODF: a string cell with a number attribute. -/
def odd : Tree :=
  (⟨7, "table:table-cell", [("office:value-type", "string".toList), ("office:value", "5".toList)], none, none⟩, .nil)

-- the stray attribute stays beside the new one
example : (setValue intLib (.bool true) none none odd).2 = .ok () ∧
    (setValue intLib (.bool true) none none odd).1.1.get "office:value" = some "5".toList ∧
    (setValue intLib (.bool true) none none odd).1.1.get "office:boolean-value" = some "true".toList := by
  decide +kernel
-- the currency stays on a boolean cell; an empty currency makes a currency cell with the old currency
example : (setValue intLib (.bool true) none none euro).2 = .ok () ∧
    currency (setValue intLib (.bool true) none none euro).1 = some "EUR".toList ∧
    (setValue intLib (.int 3) none (some []) euro).2 = .ok () ∧
    currency (setValue intLib (.int 3) none (some []) euro).1 = some "EUR".toList ∧
    currency (setValue intLib (.int 3) none (some "USD".toList) euro).1 = some "USD".toList := by
  decide +kernel

end Verif.Cells
