import Verif.Props.Copy
/-! # C21: when a table can be copied -/
set_option linter.unusedSimpArgs false
namespace Verif.Tbl
open Verif Verif.Forest Verif.TSpec

/-- **C21**, every outcome for a table without stored repetitions: the copy is made exactly if a name is given that is not
blank, or none is given and the table has one; without any name TypeError is raised, for a blank name ValueError. -/
theorem C21_outcome {strategy : String} (hname : strategy ∈ ["all", "all_but_last", "all_less_maxcount"])
    {mx : Int × Int} (hm : 1 < mx.1 ∧ 1 < mx.2) {s : TState} (ht : s.node.tag = "table:table")
    (hi : Inv s) (hid : s.node.id < s.fresh) (he : Expanded s) (newname : Option Str) :
    ((∃ c, copyTable strategy mx newname s = .ok c) ↔
      (∃ n, newname = some n ∧ normalizeName n ≠ []) ∨ (newname = none ∧ name s ≠ none)) ∧
    (newname = none → name s = none → copyTable strategy mx newname s = .error .TypeError) ∧
    ∀ n, newname = some n → normalizeName n = [] → copyTable strategy mx newname s = .error .ValueError := by
  obtain ⟨d, hd⟩ : ∃ d, load strategy mx (cloneTable s) = (d, .ok ()) := by
    obtain ⟨c, hc, -⟩ := C21_same hname hm ht hi hid he (newname := some ['x']) (.inl ⟨_, rfl, by decide⟩)
    unfold copyTable at hc
    rcases hl : load strategy mx (cloneTable s) with ⟨d, e | u⟩
    · rw [hl] at hc; cases hc
    · exact ⟨d, rfl⟩
  have h1 : newname = none → name s = none → copyTable strategy mx newname s = .error .TypeError := by
    rintro rfl hs
    unfold copyTable
    rw [hd]
    simp only [hs]
  have h2 : ∀ n, newname = some n → normalizeName n = [] → copyTable strategy mx newname s = .error .ValueError := by
    rintro n rfl hs
    unfold copyTable setName
    rw [hd]
    simp [hs]
  refine ⟨⟨?_, fun hn => ?_⟩, h1, h2⟩
  · rintro ⟨c, hc⟩
    cases hnn : newname with
    | none =>
      refine .inr ⟨rfl, fun hs => ?_⟩
      rw [h1 hnn hs] at hc
      cases hc
    | some n =>
      refine .inl ⟨n, rfl, fun hs => ?_⟩
      rw [h2 n hnn hs] at hc
      cases hc
  · obtain ⟨c, hc, -⟩ := C21_same hname hm ht hi hid he hn
    exact ⟨c, hc⟩

/-- A new table can be copied without a name, and not under a blank one. -/
example : (∃ c, copyTable "all" (32, 32) none (newTable 0 "t".toList (2, 3)).1 = .ok c) ∧
    copyTable "all" (32, 32) (some " ' ".toList) (newTable 0 "t".toList (2, 3)).1 = .error .ValueError := by
  have e : newTable 0 "t".toList (2, 3) = ((newTable 0 "t".toList (2, 3)).1, .ok ()) :=
    Prod.ext rfl (by decide +kernel)
  obtain ⟨h1, h2, h3⟩ := C21_created e (.refl _)
  have ho := C21_outcome (strategy := "all") (by simp) (mx := (32, 32)) (by decide) (by decide +kernel) h1 h3 h2
  exact ⟨(ho none).1.mpr (.inr ⟨rfl, by decide +kernel⟩), (ho _).2.2 _ rfl (by decide +kernel)⟩

end Verif.Tbl
