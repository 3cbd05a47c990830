import Verif.Model.Dict
/-! Lemmas about dictionaries. -/
namespace Verif.Dict
variable {κ α : Type} [DecidableEq κ]

@[simp] theorem get_nil (k : κ) : get ([] : Dict κ α) k = none := rfl

theorem get_cons (k' : κ) (v : α) (r : Dict κ α) (k : κ) :
    get ((k', v) :: r) k = if k' = k then some v else get r k := rfl

theorem get_set (d : Dict κ α) (k k' : κ) (v : α) :
    (d.set k v).get k' = if k = k' then some v else d.get k' := by
  induction d with
  | nil => simp [set, get_cons]
  | cons p r ih =>
    obtain ⟨k0, v0⟩ := p
    unfold set
    by_cases h : k0 = k
    · subst h; simp only [if_true, get_cons]; by_cases h : k0 = k' <;> simp [h]
    · simp only [h, if_false, get_cons, ih]
      by_cases h1 : k = k'
      · subst h1; simp [h]
      · simp [h1]

theorem get_mem {d : Dict κ α} {k : κ} {v : α} (h : d.get k = some v) : (k, v) ∈ d := by
  induction d with
  | nil => simp at h
  | cons p r ih =>
    obtain ⟨k0, v0⟩ := p
    rw [get_cons] at h
    by_cases h1 : k0 = k
    · simp [h1] at h; simp [h1, h]
    · simp [h1] at h; exact List.mem_cons_of_mem _ (ih h)

theorem get_isSome {d : Dict κ α} {k : κ} : (d.get k).isSome ↔ k ∈ d.keys := by
  induction d with
  | nil => simp [keys]
  | cons p r ih =>
    obtain ⟨k0, v0⟩ := p
    rw [get_cons]
    by_cases h : k0 = k
    · simp [h, keys]
    · simp only [h, if_false, ih, keys, List.map_cons, List.mem_cons]
      constructor
      · exact Or.inr
      · rintro (h1 | h1)
        · exact absurd h1.symm h
        · exact h1

theorem get_del (d : Dict κ α) (k k' : κ) :
    (d.del k).get k' = if k = k' then none else d.get k' := by
  induction d with
  | nil => simp [del]
  | cons p r ih =>
    obtain ⟨k0, v0⟩ := p
    have hd : del ((k0, v0) :: r) k = if k0 = k then del r k else (k0, v0) :: del r k := by
      by_cases h : k0 = k <;> simp [del, h]
    rw [hd]
    by_cases h : k0 = k
    · rw [if_pos h, ih, get_cons]
      by_cases h1 : k = k'
      · simp [h1]
      · have : k0 ≠ k' := fun e => h1 (h ▸ e)
        simp [h1, this]
    · by_cases h1 : k = k'
      · subst h1; simp [get_cons, h, ih]
      · rw [if_neg h, get_cons, get_cons, ih]; simp [h1]

end Verif.Dict
