import Verif.Props.Protection
import Verif.Proofs.Py
/-! # C70 attributes and texts of wrapped elements

The specification: `OnlyAttr` (nothing but one attribute changes) and `stores` (what a call stores). -/
namespace Verif.Protection
open Verif
set_option linter.unusedSimpArgs false

/-- Everything but the attribute `k` is the same. -/
structure OnlyAttr (k : String) (e e' : Elem) : Prop where
  id : e'.id = e.id
  tag : e'.tag = e.tag
  text : e'.text = e.text
  tail : e'.tail = e.tail
  attrs : ∀ k', k' ≠ k → e'.get k' = e.get k'

theorem onlyAttr_set (k : String) (v : Str) (e : Elem) : OnlyAttr k e (e.set k v) :=
  ⟨rfl, rfl, rfl, rfl, fun k' h => by simp [Elem.get_set, h]⟩

/-- A non-empty text reads back, with and without a default, and nothing else changes. -/
theorem C70_text (k : String) (v : Str) (hv : v ≠ []) (d : Option Str) (e : Elem) :
    ∃ e', setAttr k (.str v) e = (e', .ok ()) ∧ getAttr k e' = some v ∧ getAttrOr k d e' = some v ∧
      OnlyAttr k e e' := by
  have ht : truth (.str v) = true := by
    cases v with
    | nil => exact absurd rfl hv
    | cons _ _ => rfl
  refine ⟨e.set k v, by simp [setAttr, ht, tostr], ?_, ?_, onlyAttr_set k v e⟩ <;>
    simp [getAttr, getAttrOr, Elem.get_set]

/-- A number other than 0 is stored as its decimal digits: `int` of the text is the number. -/
theorem C70_int_partial (k : String) (i : Int) (hi : i ≠ 0) (e : Elem) :
    ∃ e' t, setAttr k (.int i) e = (e', .ok ()) ∧ getAttr k e' = some t ∧ pyInt t = some i ∧ OnlyAttr k e e' := by
  refine ⟨e.set k (intStr i), intStr i, by simp [setAttr, truth, hi, tostr], ?_, pyInt_intStr i,
    onlyAttr_set k _ e⟩
  simp [getAttr, getAttrOr, Elem.get_set]

/-- **Refuted** for 0: no element can be given the number 0 as an attribute, although "0" can. -/
theorem C70_int_refuted (k : String) (e : Elem) :
    setAttr k (.int 0) e = (e, .error .ValueError) ∧
    ∃ e', setAttr k (.str ['0']) e = (e', .ok ()) ∧ getAttr k e' = some ['0'] :=
  ⟨by simp [setAttr, truth], by
    obtain ⟨e', h1, h2, -⟩ := C70_text k ['0'] (by simp) none e
    exact ⟨e', h1, h2⟩⟩

/-- The empty text and `None` are refused without effect. -/
theorem C70_refused (k : String) (e : Elem) :
    setAttr k (.str []) e = (e, .error .ValueError) ∧ setAttr k .none e = (e, .error .ValueError) := by
  constructor <;> simp [setAttr, truth]

/-- An absent attribute reads as the default, `None` if there is none. -/
theorem C70_default (k : String) (d : Option Str) (e : Elem) (h : ∀ p ∈ e.attrs, p.1 ≠ k) :
    getAttrOr k d e = d ∧ getAttr k e = none ∧ getBoolAttr k e = false := by
  have hn : e.get k = none := by
    unfold Elem.get
    generalize e.attrs = a at h
    induction a with
    | nil => rfl
    | cons p a ih =>
      have := h p (by simp)
      simp only [Attrs.get]
      rw [if_neg this]
      exact ih fun q hq => h q (by simp [hq])
  simp [getAttr, getAttrOr, getBoolAttr, hn]

/-- A truth value set by `set_bool_attr` reads back by `get_bool_attr`, as the texts of OpenDocument. -/
theorem C70_bool (k : String) (b : Bool) (e : Elem) :
    ∃ e', setBoolAttr k b e = (e', .ok ()) ∧ getBoolAttr k e' = b ∧
      getAttr k e' = some (if b then ['t', 'r', 'u', 'e'] else ['f', 'a', 'l', 's', 'e']) ∧ OnlyAttr k e e' := by
  refine ⟨_, rfl, bool_get k b e, ?_, onlyAttr_set k _ e⟩
  cases b <;> simp [getAttr, getAttrOr, Elem.get_set]

/-- `get_bool_attr` is true for the stored text `true` only. -/
theorem C70_bool_exact (k : String) (e : Elem) :
    getBoolAttr k e = true ↔ getAttr k e = some ['t', 'r', 'u', 'e'] := by
  unfold getBoolAttr getAttr getAttrOr
  cases e.get k with
  | none => simp
  | some v =>
    cases v with
    | nil => simp
    | cons c v => simp

/-- **Refuted**: `set_attr` with a truth value does not read back by `get_bool_attr`: `True` is stored as
"True", which reads as false, for every element and name. -/
theorem C70_set_attr_bool_refuted (k : String) (e : Elem) :
    ∃ e', setAttr k (.bool true) e = (e', .ok ()) ∧ getBoolAttr k e' = false ∧
      setAttr k (.bool false) e = (e, .error .ValueError) := by
  refine ⟨e.set k "True".toList, by simp [setAttr, truth, tostr], ?_, by simp [setAttr, truth]⟩
  simp [getBoolAttr, Elem.get_set]

/-- Text and tail read back and nothing else changes; the text decides `plaintext` and `textlen`. -/
theorem C70_texts (v : Option Str) (e : Elem) :
    getText (setText v e) = v ∧ getTail (setText v e) = getTail e ∧
    getTail (setTail v e) = v ∧ getText (setTail v e) = getText e ∧
    (setText v e).id = e.id ∧ (setText v e).tag = e.tag ∧ (∀ k, (setText v e).get k = e.get k) ∧
    (setTail v e).id = e.id ∧ (setTail v e).tag = e.tag ∧ (∀ k, (setTail v e).get k = e.get k) ∧
    plaintext (setText v e) = v.getD [] ∧ textlen (setText v e) = (v.getD []).length := by
  refine ⟨rfl, rfl, rfl, rfl, rfl, rfl, fun _ => rfl, rfl, rfl, fun _ => rfl, ?_, ?_⟩
  · cases v with
    | none => rfl
    | some t => cases t <;> rfl
  · cases v with
    | none => rfl
    | some t => cases t <;> rfl

/-- A call on an element -/
inductive Call where
  | attr (k : String) (v : Val)
  | bool (k : String) (b : Bool)
  | text (v : Option Str)
  | tail (v : Option Str)

/-- The calls one after the other; exceptions are caught by the caller. -/
def run (e : Elem) : Call → Elem
  | .attr k v => (setAttr k v e).1
  | .bool k b => (setBoolAttr k b e).1
  | .text v => setText v e
  | .tail v => setTail v e

/-- What a call stores as attribute `k` -/
def stores (k : String) : Call → Option Str
  | .attr k' (.str v) => if k' = k ∧ v ≠ [] then some v else none
  | .attr k' (.int i) => if k' = k ∧ i ≠ 0 then some (intStr i) else none
  | .attr k' (.bool true) => if k' = k then some "True".toList else none
  | .attr k' (.list l) => if k' = k ∧ l ≠ [] then some (tostr (.list l)) else none
  | .bool k' b => if k' = k then some (if b then "true".toList else "false".toList) else none
  | _ => none

theorem run_get (k : String) (e : Elem) (c : Call) :
    (run e c).get k = (stores k c).or (e.get k) := by
  have hs : ∀ (k' : String) (v : Val) (t : Str), truth v = true → tostr v = t →
      (run e (.attr k' v)).get k = (if k' = k then some t else none : Option Str).or (e.get k) := by
    intro k' v t h1 h2
    simp only [run, setAttr, h1, if_true, h2, Elem.get_set]
    by_cases h : k = k'
    · simp [h]
    · simp [h, Ne.symm h]
  have hf : ∀ (k' : String) (v : Val), truth v = false → (run e (.attr k' v)).get k = e.get k := by
    intro k' v h; simp [run, setAttr, h]
  cases c with
  | attr k' v =>
    cases v with
    | str v =>
      cases v with
      | nil => rw [hf k' _ rfl]; simp [stores]
      | cons a v => rw [hs k' _ _ rfl rfl]; simp [stores, tostr]
    | list v =>
      cases v with
      | nil => rw [hf k' _ rfl]; simp [stores]
      | cons a v => rw [hs k' _ _ rfl rfl]; simp [stores]
    | int i =>
      by_cases h : i = 0
      · subst h; rw [hf k' _ (by simp [truth])]; simp [stores]
      · rw [hs k' _ _ (by simp [truth, h]) rfl]; simp [stores, tostr, h]
    | bool b =>
      cases b with
      | false => rw [hf k' _ rfl]; simp [stores]
      | true => rw [hs k' _ _ rfl rfl]; simp [stores, tostr]
    | none => rw [hf k' _ rfl]; simp [stores]
  | bool k' b =>
    simp only [run, setBoolAttr, stores, Elem.get_set]
    by_cases h : k = k'
    · simp [h]
    · simp [h, Ne.symm h]
  | text v => simp [stores, run, setText, Elem.get]
  | tail v => simp [stores, run, setTail, Elem.get]

/-- After every history of calls an attribute has the value of the last call that stored one, else its first
value; identity and tag stay. -/
theorem C70_history (cs : List Call) (e : Elem) (k : String) :
    getAttr k (cs.foldl run e) = (cs.reverse.findSome? (stores k)).or (getAttr k e) ∧
    (cs.foldl run e).id = e.id ∧ (cs.foldl run e).tag = e.tag := by
  have hg : ∀ e, getAttr k e = e.get k := by
    intro e; unfold getAttr getAttrOr; cases e.get k <;> rfl
  have hid : ∀ (c : Call) (e : Elem), (run e c).id = e.id ∧ (run e c).tag = e.tag := by
    intro c e
    cases c with
    | attr k v => cases h : truth v <;> simp [run, setAttr, h, Elem.set]
    | bool _ _ => exact ⟨rfl, rfl⟩
    | text _ => exact ⟨rfl, rfl⟩
    | tail _ => exact ⟨rfl, rfl⟩
  induction cs generalizing e with
  | nil => exact ⟨by simp, rfl, rfl⟩
  | cons c cs ih =>
    obtain ⟨h1, h2, h3⟩ := ih (run e c)
    simp only [List.foldl_cons]
    refine ⟨?_, h2.trans (hid c e).1, h3.trans (hid c e).2⟩
    rw [h1, hg, hg, run_get, List.reverse_cons, List.findSome?_append]
    cases List.findSome? (stores k) cs.reverse <;> simp [Option.or]

example : getAttr "text:name" ([Call.attr "text:name" (.str "a".toList), .bool "text:x" true,
    .attr "text:name" (.int 0), .attr "text:name" .none].foldl run { id := 1, tag := "text:p" }) = some "a".toList := by
  decide +kernel
example : getAttr "a" ([Call.attr "a" (.str "a".toList), .attr "a" (.int (-12))].foldl run { id := 1, tag := "p" })
    = some "-12".toList := by decide +kernel
example : ∀ p ∈ ({ id := 1, tag := "p", attrs := [("b", [])] } : Elem).attrs, p.1 ≠ "a" := by decide

end Verif.Protection
