import Verif.Proofs.TableEdit
import Verif.Proofs.Normalizer
import Verif.Proofs.Cells
import Verif.Model.TableWrite
/-! Methods of cells on cells of a table: they keep the element, put no rows or columns into the cell and do not
depend on the identities of elements. -/
set_option linter.unusedSimpArgs false
namespace Verif.Tbl
open Verif Verif.Forest Verif.Cells Verif.TSpec

/-- Equal trees up to identities. -/
def Sim (t u : Tree) : Prop := ({ t.1 with id := 0 } : Elem) = { u.1 with id := 0 } ∧ erase t.2 = erase u.2

theorem Sim.refl (t : Tree) : Sim t t := ⟨rfl, rfl⟩
theorem Sim.symm {t u : Tree} (h : Sim t u) : Sim u t := ⟨h.1.symm, h.2.symm⟩
theorem Sim.trans {t u v : Tree} (h : Sim t u) (g : Sim u v) : Sim t v := ⟨h.1.trans g.1, h.2.trans g.2⟩

theorem Sim.attrs {t u : Tree} (h : Sim t u) : t.1.attrs = u.1.attrs := by have := congrArg Elem.attrs h.1; exact this
theorem Sim.tag {t u : Tree} (h : Sim t u) : t.1.tag = u.1.tag := by have := congrArg Elem.tag h.1; exact this
theorem Sim.text {t u : Tree} (h : Sim t u) : t.1.text = u.1.text := by have := congrArg Elem.text h.1; exact this
theorem Sim.tail {t u : Tree} (h : Sim t u) : t.1.tail = u.1.tail := by have := congrArg Elem.tail h.1; exact this

theorem sim_mk {t u : Tree} (h1 : t.1.tag = u.1.tag) (h2 : t.1.attrs = u.1.attrs) (h3 : t.1.text = u.1.text)
    (h4 : t.1.tail = u.1.tail) (h5 : erase t.2 = erase u.2) : Sim t u := by
  obtain ⟨⟨i, a, b, c, d⟩, k⟩ := t
  obtain ⟨⟨i', a', b', c', d'⟩, k'⟩ := u
  simp only at h1 h2 h3 h4 h5
  subst h1 h2 h3 h4
  exact ⟨rfl, h5⟩

theorem Sim.get {t u : Tree} (h : Sim t u) (k : String) : t.1.get k = u.1.get k := by
  unfold Elem.get; rw [h.attrs]

theorem parts_erase (F : Forest) : Txt.parts (erase F) = Txt.parts F := by
  induction F with
  | nil => rfl
  | cons e k r ihk ihr =>
    simp only [erase, Txt.parts, ihk, ihr]
    rfl

theorem Sim.parts {t u : Tree} (h : Sim t u) : Txt.parts t.2 = Txt.parts u.2 := by
  rw [← parts_erase, h.2, parts_erase]

theorem Sim.valueType {t u : Tree} (h : Sim t u) : valueType t = valueType u := h.get _

theorem Sim.plaintext {t u : Tree} (h : Sim t u) : Cells.plaintext t = Cells.plaintext u := by
  unfold Cells.plaintext; rw [h.parts]

theorem Sim.value {L : FloatLib} {t u : Tree} (h : Sim t u) : value L t = value L u := by
  unfold Cells.value
  rw [h.valueType, h.plaintext]
  simp only [h.get]

/-- A change that does not depend on identities. -/
def Natural {α : Type} (m : Py Tree α) : Prop := ∀ t u, Sim t u → (m t).2 = (m u).2 ∧ Sim (m t).1 (m u).1

/-- A change that keeps the element and puts no rows or columns into it. -/
structure InPlace {α : Type} (m : Py Tree α) : Prop where
  head : ∀ t, (m t).1.1.id = t.1.id ∧ (m t).1.1.tag = t.1.tag ∧ (m t).1.1.tail = t.1.tail
  norow : ∀ t, sel isRC t.2 = [] → sel isRC (m t).1.2 = []

theorem natural_pure {α : Type} (a : α) : Natural (pure a) := fun _ _ h => ⟨rfl, h⟩
theorem natural_raise {α : Type} (e : Exc) : Natural (Py.raise e : Py Tree α) := fun _ _ h => ⟨rfl, h⟩

theorem natural_bind {α β : Type} {m : Py Tree α} {k : α → Py Tree β} (hm : Natural m) (hk : ∀ a, Natural (k a)) :
    Natural (m >>= k) := by
  intro t u h
  obtain ⟨h1, h2⟩ := hm t u h
  rw [Py.bind_def, Py.bind_def]
  rcases hmt : m t with ⟨t', r⟩
  rcases hmu : m u with ⟨u', r'⟩
  rw [hmt, hmu] at h1 h2
  simp only at h1 h2
  subst h1
  cases r with
  | error e => exact ⟨rfl, h2⟩
  | ok a => exact hk a t' u' h2

theorem inPlace_pure {α : Type} (a : α) : InPlace (pure a) := ⟨fun _ => ⟨rfl, rfl, rfl⟩, fun _ h => h⟩
theorem inPlace_raise {α : Type} (e : Exc) : InPlace (Py.raise e : Py Tree α) := ⟨fun _ => ⟨rfl, rfl, rfl⟩, fun _ h => h⟩

theorem inPlace_bind {α β : Type} {m : Py Tree α} {k : α → Py Tree β} (hm : InPlace m) (hk : ∀ a, InPlace (k a)) :
    InPlace (m >>= k) := by
  constructor
  · intro t
    have h1 := hm.head t
    rw [Py.bind_def]
    rcases hmt : m t with ⟨t', r⟩
    rw [hmt] at h1
    cases r with
    | error e => exact h1
    | ok a =>
      have h2 := (hk a).head t'
      exact ⟨h2.1.trans h1.1, h2.2.1.trans h1.2.1, h2.2.2.trans h1.2.2⟩
  · intro t ht
    have h1 := hm.norow t ht
    rw [Py.bind_def]
    rcases hmt : m t with ⟨t', r⟩
    rw [hmt] at h1
    cases r with
    | error e => exact h1
    | ok a => exact (hk a).norow t' h1

theorem natural_setAttr (k : String) (v : Str) : Natural (setAttr k v) := by
  intro t u h
  unfold setAttr
  by_cases hv : v.isEmpty = true
  · rw [if_pos hv, if_pos hv]; exact ⟨rfl, h⟩
  · rw [if_neg hv, if_neg hv]
    refine ⟨rfl, sim_mk h.tag ?_ h.text h.tail h.2⟩
    show Attrs.set t.1.attrs k v = Attrs.set u.1.attrs k v
    rw [h.attrs]

theorem inPlace_setAttr (k : String) (v : Str) : InPlace (setAttr k v) := by
  constructor
  · intro t; unfold setAttr; split <;> exact ⟨rfl, rfl, rfl⟩
  · intro t h; unfold setAttr; split <;> exact h

theorem sel_append (p : Elem → Bool) (F G : Forest) : sel p (F ++ G) = sel p F ++ sel p G := by
  induction F with
  | nil => rfl
  | cons e k r ihk ihr =>
    show sel p (.cons e k (r ++ G)) = _
    simp only [sel, ihr, List.append_assoc]

theorem natural_content {β : Type} (p : Tree) (b : β) :
    Natural (fun t => ((t.1, t.2 ++ Forest.single p), .ok b) : Py Tree β) := by
  intro t u h
  refine ⟨rfl, h.1, ?_⟩
  simp only [erase_append', h.2]

theorem inPlace_content {β : Type} {p : Tree} (hp : sel isRC (single p) = []) (b : β) :
    InPlace (fun t => ((t.1, t.2 ++ Forest.single p), .ok b) : Py Tree β) := by
  constructor
  · intro t; exact ⟨rfl, rfl, rfl⟩
  · intro t h
    show sel isRC (t.2 ++ single p) = []
    rw [sel_append, h, hp]; rfl

theorem natural_setNewValue (c : Conv) (ty : String) (cur : Option Str) : Natural (setNewValue c ty cur) := by
  unfold setNewValue
  refine natural_bind ?_ fun ty => natural_bind (natural_setAttr _ _) fun _ => ?_
  · cases c with
    | content p => exact natural_content p _
    | attr s =>
      simp only
      cases typeValueMap ty with
      | none => exact natural_raise _
      | some key => exact natural_bind (natural_setAttr _ _) fun _ => natural_pure _
  · cases cur with
    | none => exact natural_pure _
    | some c =>
      simp only
      split
      · exact natural_setAttr _ _
      · exact natural_pure _

theorem inPlace_setNewValue {c : Conv} (hc : ∀ p, c = .content p → sel isRC (single p) = []) (ty : String)
    (cur : Option Str) : InPlace (setNewValue c ty cur) := by
  unfold setNewValue
  refine inPlace_bind ?_ fun ty => inPlace_bind (inPlace_setAttr _ _) fun _ => ?_
  · cases c with
    | content p => exact inPlace_content (hc p rfl) _
    | attr s =>
      simp only
      cases typeValueMap ty with
      | none => exact inPlace_raise _
      | some key => exact inPlace_bind (inPlace_setAttr _ _) fun _ => inPlace_pure _
  · cases cur with
    | none => exact inPlace_pure _
    | some c =>
      simp only
      split
      · exact inPlace_setAttr _ _
      · exact inPlace_pure _

theorem sim_clear {t u : Tree} (h : Sim t u) : Sim (clearOldValue t) (clearOldValue u) := by
  unfold clearOldValue clearContent clearValueAttribute
  rw [h.valueType]
  cases Cells.valueType u with
  | none => exact ⟨h.1, rfl⟩
  | some ty =>
    simp only
    cases typeValueMap (String.ofList ty) with
    | none => exact ⟨h.1, rfl⟩
    | some key =>
      refine sim_mk h.tag ?_ h.text h.tail rfl
      show Attrs.del t.1.attrs key = Attrs.del u.1.attrs key
      rw [h.attrs]

theorem natural_setValue {L : FloatLib} (v : Val L) (vt : Option String) (cur : Option Str) :
    Natural (setValue L v vt cur) := by
  intro t u h
  by_cases h1 : isValidValue L v = true
  · by_cases h2 : resolve L v vt cur ∈ VALID_VALUE_TYPES
    · rw [setValue_good L h1 rfl h2, setValue_good L h1 rfl h2]
      exact natural_setNewValue _ _ _ _ _ (sim_clear h)
    · rw [setValue_badtype L h1 h2, setValue_badtype L h1 h2]; exact ⟨rfl, h⟩
  · rw [setValue_invalid L (by simpa using h1), setValue_invalid L (by simpa using h1)]; exact ⟨rfl, h⟩

/-- New paragraphs and spans contain no rows or columns. -/
theorem newSpan_norow {tag : String} (ht : tag = "text:p" ∨ tag = "text:span") (text : Str) :
    sel isRC (single (Txt.newSpan tag text)) = [] := by
  have hlast : ∀ (F : Forest) (w : Str), sel isRC F = [] → sel isRC (Txt.appendLastTail F w) = [] := by
    intro F w
    induction F with
    | nil => intro _; rfl
    | cons e k r _ ih =>
      intro hF
      simp only [sel, List.append_eq_nil_iff] at hF
      obtain ⟨h1, h2, h3⟩ := hF
      cases r with
      | nil =>
        have h4 : isRC e = false := by
          cases hb : isRC e with
          | false => rfl
          | true => rw [hb] at h1; simp at h1
        have h5 : isRC ({ e with tail := Txt.appendStr e.tail w } : Elem) = false := h4
        simp only [Txt.appendLastTail, sel, h2, List.append_nil, h5]
        rfl
      | cons e' k' r' =>
        simp only [Txt.appendLastTail, sel, h2, List.nil_append, List.append_eq_nil_iff]
        refine ⟨h1, ?_⟩
        simpa only [sel, List.append_eq_nil_iff] using ih h3
  have hitem : ∀ (t : Tree) (i : Ws.Item), (∀ e, i = .elem e → isRC e = false) → isRC t.1 = false →
      sel isRC t.2 = [] → isRC (Txt.appendItem t i).1 = false ∧ sel isRC (Txt.appendItem t i).2 = [] := by
    intro t i hi h1 h2
    cases i with
    | text w =>
      unfold Txt.appendItem
      obtain ⟨e, k⟩ := t
      cases k with
      | nil => exact ⟨h1, rfl⟩
      | cons e' k' r' => exact ⟨h1, hlast _ w h2⟩
    | elem e =>
      refine ⟨h1, ?_⟩
      show sel isRC (t.2 ++ .cons e .nil .nil) = []
      rw [sel_append, h2]
      simp [sel, hi e rfl]
  have hloop : ∀ (is : List Ws.Item), (∀ e, Ws.Item.elem e ∈ is → isRC e = false) → ∀ t : Tree, isRC t.1 = false →
      sel isRC t.2 = [] → isRC (is.foldl Txt.appendItem t).1 = false ∧ sel isRC (is.foldl Txt.appendItem t).2 = [] := by
    intro is
    induction is with
    | nil => intro _ t h1 h2; exact ⟨h1, h2⟩
    | cons i is ih =>
      intro hi t h1 h2
      obtain ⟨g1, g2⟩ := hitem t i (fun e he => hi e (by simp [he])) h1 h2
      exact ih (fun e he => hi e (by simp [he])) _ g1 g2
  have helem : ∀ e, Ws.Item.elem e ∈ Ws.encode text → isRC e = false := by
    intro e he
    rcases (Ws.encode_shape text).elems e he with rfl | rfl | ⟨n, _, rfl⟩
    · decide
    · decide
    · unfold Ws.spaces; split <;> rfl
  have htag : isRC ({ id := 0, tag := tag } : Elem) = false := by rcases ht with rfl | rfl <;> decide
  unfold Txt.newSpan
  simp only
  split
  · simp [single, sel, htag]
  · obtain ⟨g1, g2⟩ := hloop _ helem ({ id := 0, tag := tag }, .nil) htag rfl
    simp only [single, sel, List.append_nil]
    unfold Txt.appendText
    rw [g1, g2]; rfl

theorem convert_norow {L : FloatLib} {v : Val L} (hv : ∀ k p, v = .wrapper k p → sel isRC (single p) = [])
    (ty : String) : ∀ p, convert L v ty = .content p → sel isRC (single p) = [] := by
  intro p hp
  unfold convert at hp
  split at hp
  · cases hp; exact hv _ _ rfl
  · split at hp
    · cases hp; exact newSpan_norow (.inl rfl) _
    · split at hp <;> cases hp

theorem inPlace_setValue {L : FloatLib} {v : Val L} (hv : ∀ k p, v = .wrapper k p → sel isRC (single p) = [])
    (vt : Option String) (cur : Option Str) : InPlace (setValue L v vt cur) := by
  have hm : ∀ ty, InPlace (setNewValue (convert L v ty) ty cur) := fun ty =>
    inPlace_setNewValue (convert_norow hv ty) ty cur
  constructor
  · intro t
    by_cases h1 : isValidValue L v = true
    · by_cases h2 : resolve L v vt cur ∈ VALID_VALUE_TYPES
      · rw [setValue_good L h1 rfl h2]
        obtain ⟨a, b, c⟩ := (hm (resolve L v vt cur)).head (clearOldValue t)
        obtain ⟨a', b', _, c'⟩ := clear_head t
        exact ⟨a.trans a', b.trans b', c.trans c'⟩
      · rw [setValue_badtype L h1 h2]; exact ⟨rfl, rfl, rfl⟩
    · rw [setValue_invalid L (by simpa using h1)]; exact ⟨rfl, rfl, rfl⟩
  · intro t ht
    by_cases h1 : isValidValue L v = true
    · by_cases h2 : resolve L v vt cur ∈ VALID_VALUE_TYPES
      · rw [setValue_good L h1 rfl h2]
        exact (hm _).norow _ rfl
      · rw [setValue_badtype L h1 h2]; exact ht
    · rw [setValue_invalid L (by simpa using h1)]; exact ht

/-! ## append_text and display_form -/

theorem lastChild_erase (F : Forest) : lastChild (erase F) = (lastChild F).map fun t => ({ t.1 with id := 0 }, erase t.2) := by
  induction F with
  | nil => rfl
  | cons e k r _ ih =>
    cases r with
    | nil => rfl
    | cons e' k' r' => simpa only [erase, lastChild] using ih

theorem mapLast_erase (g : Elem → Forest → Tree) (hg : ∀ e k, erase (single (g { e with id := 0 } (erase k))) = erase (single (g e k)))
    (F : Forest) : erase (mapLast g (erase F)) = erase (mapLast g F) := by
  have hid : ∀ G : Forest, erase (erase G) = erase G := by
    intro G
    induction G with
    | nil => rfl
    | cons e k r h1 h2 => simp only [erase, h1, h2]
  induction F with
  | nil => rfl
  | cons e k r _ ih =>
    cases r with
    | nil => exact hg e k
    | cons e' k' r' =>
      simp only [erase, mapLast, hid] at ih ⊢
      rw [ih]

theorem natural_appendText (text : Str) : Natural (appendText text) := by
  intro t u h
  unfold appendText
  rw [h.valueType]
  by_cases hv : Cells.valueType u ≠ some "string".toList
  · rw [if_pos hv, if_pos hv]; exact ⟨rfl, h⟩
  · rw [if_neg hv, if_neg hv]
    have hl : (lastChild t.2).map (fun t => (({ t.1 with id := 0 }, erase t.2) : Tree)) =
        (lastChild u.2).map (fun t => (({ t.1 with id := 0 }, erase t.2) : Tree)) := by
      rw [← lastChild_erase, h.2, lastChild_erase]
    cases ht : lastChild t.2 with
    | none =>
      rw [ht] at hl
      cases hu : lastChild u.2 with
      | none => exact natural_content _ _ t u h
      | some c => rw [hu] at hl; cases hl
    | some c =>
      rw [ht] at hl
      cases hu : lastChild u.2 with
      | none => rw [hu] at hl; cases hl
      | some c' =>
        rw [hu] at hl
        have htag : c.1.tag = c'.1.tag := by
          have := congrArg (fun o => (Option.map (fun t : Tree => t.1.tag) o)) hl
          simpa using this
        simp only
        rw [htag]
        by_cases hp : isParaTag c'.1.tag = true
        · rw [if_pos hp, if_pos hp]
          refine ⟨rfl, h.1, ?_⟩
          have hg : ∀ (e : Elem) k, erase (single ((fun (e : Elem) k => ((e, k ++ Forest.single (Txt.newSpan "text:span" text)) : Tree)) { e with id := 0 } (erase k))) =
              erase (single ((fun (e : Elem) k => ((e, k ++ Forest.single (Txt.newSpan "text:span" text)) : Tree)) e k)) := by
            intro e k
            have hid : ∀ G : Forest, erase (erase G) = erase G := by
              intro G
              induction G with
              | nil => rfl
              | cons e k r h1 h2 => simp only [erase, h1, h2]
            simp only [single, erase, erase_append', hid]
          show erase (mapLast _ t.2) = erase (mapLast _ u.2)
          rw [← mapLast_erase _ hg t.2, h.2, mapLast_erase _ hg]
        · rw [if_neg hp, if_neg hp]
          exact natural_content _ _ t u h

theorem sel_mapLast {g : Elem → Forest → Tree} (hg : ∀ e k, sel isRC (single (e, k)) = [] → sel isRC (single (g e k)) = [])
    {F : Forest} (h : sel isRC F = []) : sel isRC (mapLast g F) = [] := by
  induction F with
  | nil => rfl
  | cons e k r _ ih =>
    cases r with
    | nil => exact hg e k (by simpa [single, sel] using h)
    | cons e' k' r' =>
      simp only [mapLast]
      rw [sel] at h ⊢
      simp only [List.append_eq_nil_iff] at h ⊢
      exact ⟨h.1, h.2.1, ih h.2.2⟩

theorem inPlace_appendText (text : Str) : InPlace (appendText text) := by
  have hp := newSpan_norow (tag := "text:p") (.inl rfl) text
  have hs := newSpan_norow (tag := "text:span") (.inr rfl) text
  constructor
  · intro t
    unfold appendText
    split
    · exact ⟨rfl, rfl, rfl⟩
    · split
      · split <;> exact ⟨rfl, rfl, rfl⟩
      · exact ⟨rfl, rfl, rfl⟩
  · intro t ht
    unfold appendText
    split
    · exact ht
    · split
      · split
        · refine sel_mapLast (fun e k hk => ?_) ht
          simp only [single, sel, List.append_nil, List.append_eq_nil_iff] at hk ⊢
          have h1 : isRC e = false := by
            cases hb : isRC e with
            | false => rfl
            | true => rw [hb] at hk; simp at hk
          refine ⟨by rw [h1]; rfl, ?_⟩
          show sel isRC (k ++ single _) = []
          rw [sel_append, hk.2]
          simpa [single, sel] using hs
        · exact (inPlace_content hp ()).norow t ht
      · exact (inPlace_content hp ()).norow t ht

theorem findChild_erase (tag : String) (F : Forest) :
    (Txt.findChild tag (erase F)).isSome = (Txt.findChild tag F).isSome := by
  induction F with
  | nil => rfl
  | cons e k r _ ih => simp only [erase, Txt.findChild]; split <;> simp_all

theorem replaceFirst_erase (tag : String) (p : Tree) (F : Forest) :
    erase (replaceFirst tag p (erase F)) = erase (replaceFirst tag p F) := by
  have hid : ∀ G : Forest, erase (erase G) = erase G := by
    intro G
    induction G with
    | nil => rfl
    | cons e k r h1 h2 => simp only [erase, h1, h2]
  induction F with
  | nil => rfl
  | cons e k r _ ih => simp only [erase, replaceFirst]; split <;> simp only [erase, hid, ih]

theorem natural_setDisplayForm (text : Str) : Natural (setDisplayForm text) := by
  intro t u h
  unfold setDisplayForm
  rw [h.valueType]
  cases Cells.valueType u with
  | none => exact ⟨rfl, h⟩
  | some ty =>
    simp only
    by_cases hv : ty = "string".toList
    · rw [if_pos hv, if_pos hv]; exact ⟨rfl, h⟩
    · rw [if_neg hv, if_neg hv]
      have hf : (Txt.findChild "text:p" t.2).isSome = (Txt.findChild "text:p" u.2).isSome := by
        rw [← findChild_erase, h.2, findChild_erase]
      cases ht : Txt.findChild "text:p" t.2 with
      | none =>
        rw [ht] at hf
        cases hu : Txt.findChild "text:p" u.2 with
        | none => exact natural_content _ _ t u h
        | some c => rw [hu] at hf; cases hf
      | some c =>
        rw [ht] at hf
        cases hu : Txt.findChild "text:p" u.2 with
        | none => rw [hu] at hf; cases hf
        | some c' =>
          refine ⟨rfl, h.1, ?_⟩
          show erase (replaceFirst _ _ t.2) = erase (replaceFirst _ _ u.2)
          rw [← replaceFirst_erase, h.2, replaceFirst_erase]

theorem inPlace_setDisplayForm (text : Str) : InPlace (setDisplayForm text) := by
  have hp := newSpan_norow (tag := "text:p") (.inl rfl) text
  constructor
  · intro t
    unfold setDisplayForm
    split
    · exact ⟨rfl, rfl, rfl⟩
    · split
      · exact ⟨rfl, rfl, rfl⟩
      · simp only
        split <;> exact ⟨rfl, rfl, rfl⟩
  · intro t ht
    unfold setDisplayForm
    split
    · exact ht
    · split
      · exact ht
      · simp only
        split
        · exact (inPlace_content hp ()).norow t ht
        · show sel isRC (replaceFirst "text:p" (Txt.newSpan "text:p" text) t.2) = []
          revert ht
          generalize t.2 = F
          induction F with
          | nil => exact fun h => h
          | cons e k r _ ih =>
            intro h
            simp only [sel, List.append_eq_nil_iff] at h
            simp only [replaceFirst]
            split
            · simp only [single, sel, List.append_nil, List.append_eq_nil_iff] at hp
              simp only [sel, List.append_eq_nil_iff]
              exact ⟨hp.1, hp.2, h.2.2⟩
            · simp only [sel, List.append_eq_nil_iff]
              exact ⟨h.1, h.2.1, ih h.2.2⟩

/-! ## Properties -/

/-- A change of the attributes of an element: depends on the attributes only. -/
structure AttrChange (m : Py Elem Unit) : Prop where
  head : ∀ e, (m e).1.id = e.id ∧ (m e).1.tag = e.tag ∧ (m e).1.text = e.text ∧ (m e).1.tail = e.tail
  same : ∀ e e' : Elem, e.attrs = e'.attrs → (m e).2 = (m e').2 ∧ (m e).1.attrs = (m e').1.attrs

theorem attr_write {d : Mixins.D} (hd : d ≠ .number) (v : Mixins.Val) : AttrChange (asElem (Mixins.write d v)) := by
  constructor
  · intro e
    unfold asElem Mixins.write
    cases d <;> cases v <;>
      simp [Mixins.stringSet, Mixins.booleanSet, Mixins.integerSet, Mixins.lowerSet, Mixins.startSet,
        Mixins.visibilitySet, Elem.set] at * <;> (try split) <;> simp
  · intro e e' h
    unfold asElem Mixins.write
    cases d <;> cases v <;>
      simp [Mixins.stringSet, Mixins.booleanSet, Mixins.integerSet, Mixins.lowerSet, Mixins.startSet,
        Mixins.visibilitySet, Elem.set, h] at hd ⊢ <;> (try split) <;> simp [h]

theorem attr_delete (d : Mixins.D) : AttrChange (asElem (Mixins.delete d)) := by
  have hdel : ∀ n, AttrChange (asElem (Mixins.attrDel n)) := by
    intro n
    constructor
    · intro e; unfold asElem Mixins.attrDel; simp only; split <;> exact ⟨rfl, rfl, rfl, rfl⟩
    · intro e e' h
      unfold asElem Mixins.attrDel
      simp only [Elem.get, Elem.del, h]
      split <;> simp [h]
  have hraise : ∀ x, AttrChange (asElem (fun w => (w, .error x))) := fun x =>
    ⟨fun e => ⟨rfl, rfl, rfl, rfl⟩, fun e e' h => ⟨rfl, h⟩⟩
  cases d <;> first | exact hdel _ | exact hraise _

theorem asTree_write {d : Mixins.D} (hd : d ≠ .number) (v : Mixins.Val) (t : Tree) :
    asTree (Mixins.write d v) t = (((asElem (Mixins.write d v) t.1).1, t.2), (asElem (Mixins.write d v) t.1).2) := by
  unfold asTree asElem
  cases d <;> cases v <;>
    simp [Mixins.write, Mixins.stringSet, Mixins.booleanSet, Mixins.integerSet, Mixins.lowerSet, Mixins.startSet,
      Mixins.visibilitySet, ofList_toList] at hd ⊢ <;> (try split) <;> simp [ofList_toList]

theorem asTree_delete (d : Mixins.D) (t : Tree) :
    asTree (Mixins.delete d) t = (((asElem (Mixins.delete d) t.1).1, t.2), (asElem (Mixins.delete d) t.1).2) := by
  unfold asTree asElem
  cases d <;> simp [Mixins.delete, Mixins.attrDel, ofList_toList] <;> (try split) <;> simp [ofList_toList]

theorem natural_attr {m : Py Tree Unit} {g : Py Elem Unit} (hg : AttrChange g)
    (hm : ∀ t, m t = (((g t.1).1, t.2), (g t.1).2)) : Natural m := by
  intro t u h
  rw [hm, hm]
  obtain ⟨h1, h2⟩ := hg.same t.1 u.1 h.attrs
  obtain ⟨_, a2, a3, a4⟩ := hg.head t.1
  obtain ⟨_, b2, b3, b4⟩ := hg.head u.1
  exact ⟨h1, sim_mk (a2.trans (h.tag.trans b2.symm)) h2 (a3.trans (h.text.trans b3.symm))
    (a4.trans (h.tail.trans b4.symm)) h.2⟩

theorem inPlace_attr {m : Py Tree Unit} {g : Py Elem Unit} (hg : AttrChange g)
    (hm : ∀ t, m t = (((g t.1).1, t.2), (g t.1).2)) : InPlace m := by
  constructor
  · intro t; rw [hm]; obtain ⟨a, b, _, c⟩ := hg.head t.1; exact ⟨a, b, c⟩
  · intro t h; rw [hm]; exact h

/-- An element given to a cell contains no rows or columns of a table. -/
def CellCall.NoTable {L : FloatLib} : CellCall L → Prop
  | .setValue v _ _ => ∀ k p, v = .wrapper k p →
      ∀ t ∈ nodes (single p), t.1.tag ≠ "table:table-row" ∧ t.1.tag ≠ "table:table-column"
  | _ => True

theorem cell_ne_number {d : Mixins.D} (h : d ∈ Mixins.cell) : d ≠ .number := by
  rintro rfl; revert h; decide

theorem column_ne_number {d : Mixins.D} (h : d ∈ Mixins.column) : d ≠ .number := by
  rintro rfl; revert h; decide

theorem CellCall.natural {L : FloatLib} (c : CellCall L) : Natural c.run := by
  cases c with
  | setValue v vt cur => exact natural_setValue v vt cur
  | appendText text => exact natural_appendText text
  | setDisplayForm text => exact natural_setDisplayForm text
  | assign d hd v => exact natural_attr (attr_write (cell_ne_number hd) v) (asTree_write (cell_ne_number hd) v)
  | delete d hd => exact natural_attr (attr_delete d) (asTree_delete d)

theorem CellCall.inPlace {L : FloatLib} {c : CellCall L} (h : c.NoTable) : InPlace c.run := by
  cases c with
  | setValue v vt cur =>
    refine inPlace_setValue (fun k p hv => ?_) vt cur
    rw [sel_nodes, List.filter_eq_nil_iff]
    intro t ht
    have := h k p hv t ht
    simp [isRC, isRow, isCol, rowTag, colTag, this.1, this.2]
  | appendText text => exact inPlace_appendText text
  | setDisplayForm text => exact inPlace_setDisplayForm text
  | assign d hd v => exact inPlace_attr (attr_write (cell_ne_number hd) v) (asTree_write (cell_ne_number hd) v)
  | delete d hd => exact inPlace_attr (attr_delete d) (asTree_delete d)

theorem LineCall.attrChange (c : LineCall) : AttrChange c.run := by
  cases c with
  | assign d hd v => exact attr_write (column_ne_number hd) v
  | delete d hd => exact attr_delete d

/-! ## On a cell of a table -/

theorem onCell_content {s : TState} (h : Inv s) {pos : Int × Int} {m : Py Tree Unit} (hm : InPlace m) {t : Tree}
    (hg : getCell s pos = .ok t) (hflat : sel isRC t.2 = []) :
    Content s pos ((m t).1.2.clone s.fresh).1 := by
  obtain ⟨c1, c2, c3, c4⟩ := clone_spec (m t).1.2 s.fresh
  refine ⟨c3, fun i hi => .inl fun hi' => ?_, ?_⟩
  · have := h.wf.lt i hi'; have := c4 i hi; omega
  · exact sel_nil_of_erase (fun e => rfl) c2 (hm.norow t hflat)

theorem onCell_spec {s : TState} (h : Inv s) {pos : Int × Int} {m : Py Tree Unit} (hm : InPlace m) {i j : Nat}
    {u t : Tree} (hu : (rowsOf s)[i]? = some u) (ht : u.2.toList[j]? = some t)
    (hl : locate s pos = .ok (u.1.id, j, t)) :
    ∃ s' t', onCell pos m s = (s', (m t).2) ∧ Inv s' ∧ SameShape s s' ∧ Sim (m t).1 t' ∧ t'.1.id = t.1.id ∧
      (∀ p, cellAt s' p = if p = (i, j) then some t' else cellAt s p) ∧
      colsOf s' = colsOf s ∧ SameRest s s' ∧ s'.rows = s.rows := by
  have hg : getCell s pos = .ok t := by unfold getCell; rw [hl]
  obtain ⟨c1, c2⟩ := cell_not_rc h (List.mem_of_getElem? hu) (List.mem_of_getElem? ht)
  have hc := onCell_content h hm hg c2
  obtain ⟨s', e, a, b, c, d, f, g⟩ := editCell_spec (a := (m t).1.1.attrs) (x := (m t).1.1.text) h hc hu ht hl
  refine ⟨s', _, ?_, a, b, ?_, ?_, c, d, f, g⟩
  · unfold onCell; rw [hg]; simp only [e]
  · obtain ⟨h1, h2, h3⟩ := hm.head t
    exact sim_mk h2 rfl rfl h3 (clone_spec (m t).1.2 s.fresh).2.1.symm
  · rfl

/-- On a cell of a table a call is one of the calls of a history, with content that belongs to no other cell. -/
theorem onCell_run {s : TState} (h : Inv s) {pos : Int × Int} {m : Py Tree Unit} (hm : InPlace m) {t : Tree}
    (hg : getCell s pos = .ok t) :
    ∃ a x k, Content s pos k ∧ (onCell pos m s).1 = (run (.editCell pos a x k) s).1 ∧
      (run (.editCell pos a x k) s).2 = .ok () := by
  have hg' := hg
  unfold getCell at hg'
  cases hl : locate s pos with
  | error e => rw [hl] at hg'; cases hg'
  | ok q =>
    obtain ⟨r, n, t'⟩ := q
    rw [hl] at hg'; cases hg'
    obtain ⟨i, u, h1, h2, h3, _⟩ := locate_ok h hl
    obtain ⟨_, c2⟩ := cell_not_rc h (List.mem_of_getElem? h1) (List.mem_of_getElem? h3)
    refine ⟨(m t).1.1.attrs, (m t).1.1.text, _, onCell_content h hm hg c2, ?_, ?_⟩
    · unfold onCell; rw [hg]; rfl
    · show (editCell _ _ _ _ s).2 = _
      unfold editCell; rw [hl]

end Verif.Tbl
