import Verif.Model.XmlTree
import Verif.Proofs.Xml
import Mathlib.Data.List.Nodup
/-! Contexts: the position of a node in a forest. -/
set_option linter.unusedSimpArgs false
namespace Verif.Forest

/-- A forest with a hole. -/
inductive Ctx
  | hole (r : Forest)
  | down (e : Elem) (c : Ctx) (r : Forest)
  | right (e : Elem) (k : Forest) (c : Ctx)

namespace Ctx

def plug : Ctx → Forest → Forest
  | hole r, g => g ++ r
  | down e c r, g => .cons e (c.plug g) r
  | right e k c, g => .cons e k (c.plug g)

/-- Elements above the hole. -/
def anc : Ctx → List Elem
  | hole _ => []
  | down e c _ => e :: c.anc
  | right _ _ c => c.anc

def idsL : Ctx → List Nat
  | hole _ => []
  | down e c _ => e.id :: c.idsL
  | right e k c => e.id :: (ids k ++ c.idsL)

def idsR : Ctx → List Nat
  | hole r => ids r
  | down _ c r => c.idsR ++ ids r
  | right _ _ c => c.idsR

def selL (p : Elem → Bool) : Ctx → List Tree
  | hole _ => []
  | down _ c _ => c.selL p
  | right e k c => (if p e then [(e, k)] else []) ++ (sel p k ++ c.selL p)

def selR (p : Elem → Bool) : Ctx → List Tree
  | hole r => sel p r
  | down _ c r => c.selR p ++ sel p r
  | right _ _ c => c.selR p

end Ctx

@[simp] theorem ids_append (f g : Forest) : ids (f ++ g) = ids f ++ ids g := by
  induction f with
  | nil => rfl
  | cons e k r _ ih => simp [ids, ih]

@[simp] theorem sel_append (p : Elem → Bool) (f g : Forest) : sel p (f ++ g) = sel p f ++ sel p g := by
  induction f with
  | nil => rfl
  | cons e k r _ ih => simp [sel, ih]

theorem ids_plug (c : Ctx) (g : Forest) : ids (c.plug g) = c.idsL ++ (ids g ++ c.idsR) := by
  induction c with
  | hole r => simp [Ctx.plug, Ctx.idsL, Ctx.idsR]
  | down e c r ih => simp [Ctx.plug, Ctx.idsL, Ctx.idsR, ids, ih]
  | right e k c ih => simp [Ctx.plug, Ctx.idsL, Ctx.idsR, ids, ih]

theorem sel_plug (p : Elem → Bool) (c : Ctx) (g : Forest) (h : ∀ e ∈ c.anc, p e = false) :
    sel p (c.plug g) = c.selL p ++ (sel p g ++ c.selR p) := by
  induction c with
  | hole r => simp [Ctx.plug, Ctx.selL, Ctx.selR]
  | down e c r ih =>
    have he := h e (by simp [Ctx.anc])
    simp [Ctx.plug, Ctx.selL, Ctx.selR, sel, he, ih (fun x hx => h x (by simp [Ctx.anc, hx]))]
  | right e k c ih =>
    simp [Ctx.plug, Ctx.selL, Ctx.selR, sel, ih (fun x hx => h x (by simpa [Ctx.anc] using hx))]

theorem find_mem_ids {i : Nat} {F : Forest} {t : Tree} (h : find i F = some t) :
    t.1.id = i ∧ i ∈ ids F := by
  induction F with
  | nil => simp [find] at h
  | cons e k r ihk ihr =>
    rw [find] at h
    split at h
    · rename_i he; simp at h; subst h; exact ⟨he, by simp [ids, he]⟩
    · split at h
      · rename_i t' hk
        simp at h; subst h
        have := ihk hk
        exact ⟨this.1, by simp [ids, this.2]⟩
      · have := ihr h
        exact ⟨this.1, by simp [ids, this.2]⟩

theorem find_none {i : Nat} {F : Forest} : find i F = none ↔ i ∉ ids F := by
  induction F with
  | nil => simp [find, ids]
  | cons e k r ihk ihr =>
    rw [find]
    split
    · rename_i he; simp [ids, he]
    · rename_i he
      cases hk : find i k with
      | some t => simp [ids, (find_mem_ids hk).2]
      | none =>
        simp only [ids, List.mem_cons, List.mem_append, not_or]
        rw [ihr]
        exact ⟨fun h => ⟨fun h' => he h'.symm, ihk.mp hk, h⟩, fun h => h.2.2⟩

theorem subst_not_mem {i : Nat} {F : Forest} (f : Elem → Forest → Forest) (h : i ∉ ids F) :
    subst i f F = F := by
  induction F with
  | nil => rfl
  | cons e k r ihk ihr =>
    simp only [ids, List.mem_cons, List.mem_append, not_or] at h
    rw [subst, if_neg (fun h' => h.1 h'.symm), ihk h.2.1, ihr h.2.2]

/-- The context of a node. -/
theorem ctx_exists {i : Nat} {F : Forest} (hn : (ids F).Nodup) {t : Tree} (h : find i F = some t) :
    ∃ c : Ctx, F = c.plug (single t) ∧ ∀ f, subst i f F = c.plug (f t.1 t.2) := by
  induction F with
  | nil => simp [find] at h
  | cons e k r ihk ihr =>
    simp only [ids, List.nodup_cons, List.mem_append, not_or, List.nodup_append] at hn
    rw [find] at h
    split at h
    · rename_i he
      simp at h; subst h
      refine ⟨.hole r, by simp [Ctx.plug, single], ?_⟩
      intro f
      rw [subst, if_pos he]; rfl
    · rename_i he
      split at h
      · rename_i t' hk
        simp at h; subst h
        obtain ⟨c, h1, h2⟩ := ihk hn.2.1 hk
        have hir : i ∉ ids r := fun hr => hn.2.2.2 i (find_mem_ids hk).2 i hr rfl
        refine ⟨.down e c r, by simp [Ctx.plug, ← h1], ?_⟩
        intro f
        rw [subst, if_neg he, h2, subst_not_mem f hir]; rfl
      · rename_i hk
        obtain ⟨c, h1, h2⟩ := ihr hn.2.2.1 h
        have hik : i ∉ ids k := find_none.mp hk
        refine ⟨.right e k c, by simp [Ctx.plug, ← h1], ?_⟩
        intro f
        rw [subst, if_neg he, h2, subst_not_mem f hik]; rfl

theorem mem_sel_ids {p : Elem → Bool} {F : Forest} {t : Tree} (h : t ∈ sel p F) :
    p t.1 = true ∧ t.1.id ∈ ids F := by
  induction F with
  | nil => simp [sel] at h
  | cons e k r ihk ihr =>
    simp only [sel, List.mem_append] at h
    rcases h with h | h | h
    · split at h
      · rename_i he; simp at h; subst h; exact ⟨he, by simp [ids]⟩
      · simp at h
    · exact ⟨(ihk h).1, by simp [ids, (ihk h).2]⟩
    · exact ⟨(ihr h).1, by simp [ids, (ihr h).2]⟩

theorem find_of_mem_sel {p : Elem → Bool} {F : Forest} (hn : (ids F).Nodup) {t : Tree}
    (h : t ∈ sel p F) : find t.1.id F = some t := by
  induction F with
  | nil => simp [sel] at h
  | cons e k r ihk ihr =>
    simp only [ids, List.nodup_cons, List.mem_append, not_or, List.nodup_append] at hn
    simp only [sel, List.mem_append] at h
    rcases h with h | h | h
    · split at h
      · simp at h; subst h; simp [find]
      · simp at h
    · have hid := (mem_sel_ids h).2
      have hne : e.id ≠ t.1.id := fun he => hn.1.1 (he ▸ hid)
      rw [find, if_neg hne, ihk hn.2.1 h]
    · have hid := (mem_sel_ids h).2
      have hne : e.id ≠ t.1.id := fun he => hn.1.2 (he ▸ hid)
      have hk : find t.1.id k = none := find_none.mpr fun hk => hn.2.2.2 _ hk _ hid rfl
      rw [find, if_neg hne, hk]
      exact ihr hn.2.2.1 h

/-- A node satisfying `p` in the hole and an ancestor satisfying `p`: the ancestor's children
contain a node satisfying `p`. -/
theorem anc_sel (p : Elem → Bool) (c : Ctx) (g : Forest) (hg : sel p g ≠ [])
    (hflat : ∀ t ∈ sel p (c.plug g), sel p t.2 = []) : ∀ e ∈ c.anc, p e = false := by
  have hne : ∀ c : Ctx, sel p (c.plug g) ≠ [] := by
    intro c
    induction c with
    | hole r => simp [Ctx.plug, hg]
    | down e c r ih => simp [Ctx.plug, sel, ih]
    | right e k c ih => simp [Ctx.plug, sel, ih]
  induction c with
  | hole r => simp [Ctx.anc]
  | down e c r ih =>
    intro x hx
    simp only [Ctx.anc, List.mem_cons] at hx
    have hpe : p e = false := by
      cases hp : p e with
      | false => rfl
      | true =>
        have := hflat (e, c.plug g) (by simp [Ctx.plug, sel, hp])
        exact absurd this (hne c)
    rcases hx with hx | hx
    · rw [hx]; exact hpe
    · exact ih (fun t ht => hflat t (by simp [Ctx.plug, sel, ht])) x hx
  | right e k c ih =>
    intro x hx
    exact ih (fun t ht => hflat t (by simp [Ctx.plug, sel, ht])) x (by simpa [Ctx.anc] using hx)

theorem sel_filter {p q : Elem → Bool} (h : ∀ e, p e = true → q e = true) (F : Forest) :
    sel p F = (sel q F).filter fun t => p t.1 := by
  induction F with
  | nil => rfl
  | cons e k r ihk ihr =>
    simp only [sel, List.filter_append, ihk, ihr]
    congr 1
    by_cases hp : p e = true
    · simp [hp, h e hp]
    · simp only [hp, Bool.false_eq_true, if_false]
      by_cases hq : q e = true <;> simp [hq, hp]

theorem sel_ids_nodup {p : Elem → Bool} {F : Forest} (hn : (ids F).Nodup) :
    ((sel p F).map fun t => t.1.id).Nodup := by
  have : ((sel p F).map fun t => t.1.id).Sublist (ids F) := by
    clear hn
    induction F with
    | nil => simp [sel, ids]
    | cons e k r ihk ihr =>
      simp only [sel, ids, List.map_append]
      by_cases hp : p e = true
      · simp only [hp, if_true, List.map_cons, List.map_nil, List.cons_append, List.nil_append]
        exact (List.Sublist.append ihk ihr).cons_cons _
      · simp only [hp, Bool.false_eq_true, if_false, List.map_nil, List.nil_append]
        exact (List.Sublist.append ihk ihr).cons _
  exact this.nodup hn

end Verif.Forest
