import Mathlib.Data.Countable.Basic
import Mathlib.Logic.Equiv.List
import Verif.Props.Document
/-! # The assumptions about the libraries can be met; C60 fails for a manifest with two roots -/
namespace Verif.Document
open Verif Verif.Package Verif.Manifest

instance : Countable Char := Function.Injective.countable (f := Char.toNat) fun a b h => by
  exact Char.ext (UInt32.toNat_inj.1 h)

instance : Countable String := Function.Injective.countable (f := String.toList) fun _ _ h => String.toList_inj.1 h

instance : Countable Elem := by
  refine Function.Injective.countable
    (f := fun e : Elem => (e.id, e.tag, e.attrs, e.text, e.tail)) ?_
  rintro ⟨⟩ ⟨⟩ h
  simp only [Prod.mk.injEq] at h
  obtain ⟨rfl, rfl, rfl, rfl, rfl⟩ := h
  rfl

theorem utf8_inj {s t : Str} (h : utf8 s = utf8 t) : s = t := by
  have : String.ofList s = String.ofList t := by
    apply String.toByteArray_inj.1
    simp only [String.toByteArray_ofList, List.utf8Encode]
    unfold utf8 at h
    rw [h]
  simpa using congrArg String.toList this

/-- There are libraries that satisfy the assumptions. -/
theorem lawful_exists (root : Bytes → Option String) (part : Str → Str → Option Bytes → Except Exc Bytes) :
    ∃ d : DLib, d.Lawful ∧ d.root = root ∧ d.partBytes = part ∧
      ∀ kids, d.pkg.parse (d.pkg.tostring kids) = some kids := by
  classical
  obtain ⟨f, hf⟩ := exists_injective_nat (List Elem)
  let ts (l : List Elem) : Bytes := List.replicate (f l) 0
  have hts : ∀ l l', ts l = ts l' → l = l' := fun l l' h => hf (by
    have := congrArg List.length h
    simpa [ts] using this)
  let pr (b : Bytes) : Option (List Elem) := if h : ∃ l, ts l = b then some h.choose else none
  have hpr : ∀ l, pr (ts l) = some l := by
    intro l
    have hx : ∃ l', ts l' = ts l := ⟨l, rfl⟩
    show (if h : ∃ l', ts l' = ts l then some h.choose else none) = some l
    rw [dif_pos hx]
    exact congrArg some (hts _ _ hx.choose_spec)
  let dec (b : Bytes) : Except Exc Str := if h : ∃ s, utf8 s = b then .ok h.choose else .error .ValueError
  refine ⟨⟨⟨ts, pr, fun _ => List.replicate 30 0, id, fun _ => []⟩, dec, root, part⟩,
    ⟨⟨fun l => ⟨l, hpr l, rfl⟩, fun m => by simp⟩, ?_⟩, rfl, rfl, hpr⟩
  intro s
  have hx : ∃ t, utf8 t = utf8 s := ⟨s, rfl⟩
  show (if h : ∃ t, utf8 t = utf8 s then (Except.ok h.choose : Except Exc Str) else .error .ValueError) = .ok s
  rw [dif_pos hx]
  exact congrArg Except.ok (utf8_inj hx.choose_spec)

end Verif.Document
