import Verif.Props.Sheets
/-! # C31: documents whose body starts with something else than a sheet -/
namespace Verif.Pages
open Verif Verif.Lxml Verif.WrapCache Forest
set_option linter.unusedSimpArgs false

variable {pick : Nat → List Nat → Nat} {c : Container} {s : S}

/-- **C31** is false of all documents whose body starts with an element that is no sheet, as the declarations that the
library itself puts there: the number given by `index` is the position of no sheet in them, and a sheet inserted at any
position but the first is not found there. -/
theorem C31_declared_refuted (hpick : ∀ k l, pick k l ∉ l) (h : Good c s) {d : Nat} {l : List Nat}
    (hl : children s.world c.xmlnode = some (d :: l)) (hd : tagOf s.world d ≠ some c.childtag) :
    (∀ x ∈ c.list s, ∃ k : Nat, index c x s = (s, .ok k) ∧
      (getitem pick c (.int k) s).2.map (fun o => o.node) ≠ .ok x) ∧
    ∀ x i : Nat, x ∈ ids s.world → tagOf s.world x = some c.childtag → ¬ Below s.world x c.xmlnode → 1 ≤ i →
      i ≤ (c.list s).length → ∃ s', insert c i x s = (s', .ok x) ∧
        (getitem pick c (.int i) s').2.map (fun o => o.node) ≠ .ok x := by
  constructor
  · intro x hx
    have hx : x ∈ d :: l ∧ tagOf s.world x = some c.childtag := by
      simpa [Container.list, chosen, hl] using hx
    have hxl : x ∈ l := by
      rcases List.mem_cons.mp hx.1 with rfl | g
      · exact absurd hx.2 hd
      · exact g
    obtain ⟨A, B, rfl⟩ := List.append_of_mem hxl
    obtain ⟨g1, g2⟩ := C31_index_partial (A := d :: A) (B := B) hpick h hl hx.2
    exact ⟨_, g1, fun g => hd (g2.mp g d (by simp))⟩
  · intro x i hx ht hno h1 hi
    obtain ⟨s', g1, -, -, g2⟩ := C31_insert_partial hpick h hl hx ht hno hi
    refine ⟨s', g1, fun g => ?_⟩
    obtain ⟨n, rfl⟩ : ∃ n, i = n + 1 := ⟨i - 1, by omega⟩
    exact hd (g2.mp g d (by simp)).1

/-- A new document is one of these. -/
example (pick : Nat → List Nat → Nat) : ∃ d l, children (newOds pick).world 0 = some (d :: l) ∧
    tagOf (newOds pick).world d ≠ some (sheets 0).childtag ∧ (sheets 0).list (newOds pick) = [1, 2] :=
  ⟨4, [5, 1, 2], rfl, by rw [show tagOf (newOds pick).world 4 = some "text:variable-decls" from rfl]; decide, rfl⟩

/-- The theorem applied to a stored document with an element before its two sheets. -/
example : ∃ k : Nat, index (sheets 0) 4 exDoc = (exDoc, .ok k) ∧
    (getitem exPick (sheets 0) (.int k) exDoc).2.map (fun o => o.node) ≠ .ok 4 :=
  (C31_declared_refuted exPick_ok exDoc_good (d := 1) (l := [2, 3, 4]) (by decide +kernel) (by decide +kernel)).1 4
    (by decide +kernel)

end Verif.Pages
