import Verif.Model.Table
import Verif.Proofs.XmlTree
import Verif.Proofs.Organizer
/-! Table invariant and the effect of tree edits on rows and columns. -/
set_option linter.unusedSimpArgs false
namespace Verif.Tbl
open Verif Verif.Forest Verif.Cells

def isRC (e : Elem) : Bool := isRow e || isCol e

/-- Well-formed children: unique identities below the fresh counter; rows and columns are not
nested in each other. -/
structure WF (F : Forest) (fresh : Nat) : Prop where
  nodup : (ids F).Nodup
  lt : ∀ i ∈ ids F, i < fresh
  flat : ∀ t ∈ sel isRC F, sel isRC t.2 = []

/-- Row and column elements of the table in document order. -/
def rowsOf (s : TState) : List Tree := sel isRow s.kids
def colsOf (s : TState) : List Tree := sel isCol s.kids

structure Inv (s : TState) : Prop where
  wf : WF s.kids s.fresh
  rows : s.rows = (rowsOf s).map fun t => t.1.id
  cols : s.cols = (colsOf s).map fun t => t.1.id

/-- The children without rows and columns. -/
def skel : Forest → Forest
  | .nil => .nil
  | .cons e k r => if isRC e then skel r else .cons e (skel k) (skel r)

theorem isRow_ne_isCol (e : Elem) : isRow e = true → isCol e = false := by
  unfold isRow isCol
  intro h
  simp only [decide_eq_true_eq] at h
  rw [h]; decide

theorem isRow_isRC (e : Elem) (h : isRow e = true) : isRC e = true := by simp [isRC, h]
theorem isCol_isRC (e : Elem) (h : isCol e = true) : isRC e = true := by simp [isRC, h]

theorem skel_append (f g : Forest) : skel (f ++ g) = skel f ++ skel g := by
  induction f with
  | nil => rfl
  | cons e k r _ ih => simp only [cons_append, skel, ih]; split <;> simp

theorem skel_plug (c : Ctx) {g g' : Forest} (h : skel g = skel g') :
    skel (c.plug g) = skel (c.plug g') := by
  induction c with
  | hole r => simp [Ctx.plug, skel_append, h]
  | down e c r ih => simp [Ctx.plug, skel, ih]
  | right e k c ih => simp [Ctx.plug, skel, ih]

theorem nodup_split {β : Type} [DecidableEq β] {A B C D : List β} {t : β} (hn : (A ++ t :: B).Nodup)
    (h : A ++ t :: B = C ++ t :: D) : A = C ∧ B = D := by
  have hA : t ∉ A := fun hm => (List.nodup_append.mp hn).2.2 _ hm _ (by simp) rfl
  have hC : t ∉ C := fun hm => by
    rw [h] at hn
    exact (List.nodup_append.mp hn).2.2 _ hm _ (by simp) rfl
  have hlen : A.length = C.length := by
    have h1 := List.idxOf_append (l₁ := A) (l₂ := t :: B) (a := t)
    have h2 := List.idxOf_append (l₁ := C) (l₂ := t :: D) (a := t)
    rw [if_neg hA] at h1
    rw [if_neg hC, ← h, h1] at h2
    simpa using h2
  have := List.append_inj h hlen
  exact ⟨this.1, by simpa using this.2⟩

theorem nodup_of_ids {l : List Tree} (h : (l.map fun t => t.1.id).Nodup) : l.Nodup :=
  List.Nodup.of_map _ h

/-- Effect of replacing a row or column element. -/
theorem splice {F : Forest} {fresh : Nat} (hwf : WF F fresh) {t : Tree} (ht : t ∈ sel isRC F) :
    ∃ pre post A B, sel isRC F = pre ++ t :: post ∧ ids F = A ++ (ids (single t) ++ B) ∧
      ∀ f, sel isRC (subst t.1.id f F) = pre ++ (sel isRC (f t.1 t.2) ++ post) ∧
        ids (subst t.1.id f F) = A ++ (ids (f t.1 t.2) ++ B) ∧
        (skel (f t.1 t.2) = .nil → skel (subst t.1.id f F) = skel F) := by
  obtain ⟨c, h1, h2⟩ := ctx_exists hwf.nodup (find_of_mem_sel hwf.nodup ht)
  have hp := (mem_sel_ids ht).1
  have hflat := hwf.flat
  have hst : sel isRC (single t) = [t] := by
    simp [single, sel, hp, hflat t ht]
  rw [h1] at hflat
  have hanc := anc_sel isRC c (single t) (by rw [hst]; simp) hflat
  refine ⟨c.selL isRC, c.selR isRC, c.idsL, c.idsR, ?_, ?_, ?_⟩
  · conv => lhs; rw [h1]
    rw [sel_plug isRC c _ hanc, hst]; simp
  · conv => lhs; rw [h1]
    rw [ids_plug]
  · intro f
    rw [h2]
    refine ⟨sel_plug isRC c _ hanc, ids_plug _ _, ?_⟩
    intro hs
    conv => rhs; rw [h1]
    apply skel_plug
    rw [hs]
    simp [single, skel, hp]

/-- Row elements after replacing a row element. -/
theorem splice_row {F : Forest} {fresh : Nat} (hwf : WF F fresh) {L R : List Tree} {t : Tree}
    (hr : sel isRow F = L ++ t :: R) (f : Elem → Forest → Forest) (hcol : sel isCol (f t.1 t.2) = []) :
    sel isRow (subst t.1.id f F) = L ++ (sel isRow (f t.1 t.2) ++ R) ∧
    sel isCol (subst t.1.id f F) = sel isCol F := by
  have htr : t ∈ sel isRow F := by rw [hr]; simp
  have hrow := (mem_sel_ids htr).1
  have ht : t ∈ sel isRC F := by
    rw [sel_filter isRow_isRC] at htr; exact (List.mem_filter.mp htr).1
  obtain ⟨pre, post, A, B, h1, _, h3⟩ := splice hwf ht
  have hs := (h3 f).1
  have hnd : (sel isRow F).Nodup := nodup_of_ids (sel_ids_nodup hwf.nodup)
  rw [sel_filter isRow_isRC F, h1] at hr
  rw [sel_filter isRow_isRC F, h1] at hnd
  simp only [List.filter_append, List.filter_cons, hrow, if_true] at hr hnd
  obtain ⟨hL, hR⟩ := nodup_split hnd hr
  constructor
  · rw [sel_filter isRow_isRC, hs, List.filter_append, List.filter_append, hL, hR,
      ← sel_filter isRow_isRC]
  · rw [sel_filter isCol_isRC, hs, List.filter_append, List.filter_append, ← sel_filter isCol_isRC,
      hcol, sel_filter isCol_isRC F, h1]
    simp only [List.filter_append, List.filter_cons, isRow_ne_isCol _ hrow, Bool.false_eq_true,
      if_false, List.nil_append]

/-- Column elements after replacing a column element. -/
theorem splice_col {F : Forest} {fresh : Nat} (hwf : WF F fresh) {L R : List Tree} {t : Tree}
    (hr : sel isCol F = L ++ t :: R) (f : Elem → Forest → Forest) (hrow0 : sel isRow (f t.1 t.2) = []) :
    sel isCol (subst t.1.id f F) = L ++ (sel isCol (f t.1 t.2) ++ R) ∧
    sel isRow (subst t.1.id f F) = sel isRow F := by
  have htr : t ∈ sel isCol F := by rw [hr]; simp
  have hcol := (mem_sel_ids htr).1
  have ht : t ∈ sel isRC F := by
    rw [sel_filter isCol_isRC] at htr; exact (List.mem_filter.mp htr).1
  have hnr : isRow t.1 = false := by
    cases h : isRow t.1 with
    | false => rfl
    | true => rw [isRow_ne_isCol _ h] at hcol; exact absurd hcol (by simp)
  obtain ⟨pre, post, A, B, h1, _, h3⟩ := splice hwf ht
  have hs := (h3 f).1
  have hnd : (sel isCol F).Nodup := nodup_of_ids (sel_ids_nodup hwf.nodup)
  rw [sel_filter isCol_isRC F, h1] at hr
  rw [sel_filter isCol_isRC F, h1] at hnd
  simp only [List.filter_append, List.filter_cons, hcol, if_true] at hr hnd
  obtain ⟨hL, hR⟩ := nodup_split hnd hr
  constructor
  · rw [sel_filter isCol_isRC, hs, List.filter_append, List.filter_append, hL, hR,
      ← sel_filter isCol_isRC]
  · rw [sel_filter isRow_isRC, hs, List.filter_append, List.filter_append, ← sel_filter isRow_isRC,
      hrow0, sel_filter isRow_isRC F, h1]
    simp only [List.filter_append, List.filter_cons, hnr, Bool.false_eq_true,
      if_false, List.nil_append]

/-- Well-formedness after replacing a row or column element. -/
theorem wf_subst {F : Forest} {fresh fresh' : Nat} (hwf : WF F fresh) (hle : fresh ≤ fresh')
    {t : Tree} (ht : t ∈ sel isRC F) (f : Elem → Forest → Forest)
    (hnd : (ids (f t.1 t.2)).Nodup)
    (hids : ∀ i ∈ ids (f t.1 t.2), i < fresh' ∧ (i ∈ ids (single t) ∨ i ∉ ids F))
    (hflat : ∀ u ∈ sel isRC (f t.1 t.2), sel isRC u.2 = []) : WF (subst t.1.id f F) fresh' := by
  obtain ⟨pre, post, A, B, h1, h2, h3⟩ := splice hwf ht
  obtain ⟨hs, hi, _⟩ := h3 f
  have hn := hwf.nodup
  rw [h2] at hn
  have hAt : ∀ i, i ∈ A → i ∉ ids (single t) ∧ i ∉ B := by
    intro i hi'
    have := (List.nodup_append.mp hn).2.2 i hi'
    exact ⟨fun hx => this i (by simp [hx]) rfl, fun hx => this i (by simp [hx]) rfl⟩
  have hBt : ∀ i, i ∈ B → i ∉ ids (single t) := by
    intro i hi' hx
    exact (List.nodup_append.mp (List.nodup_append.mp hn).2.1).2.2 i hx i hi' rfl
  have hAF : ∀ i ∈ A, i ∈ ids F := fun i h => by rw [h2]; simp [h]
  have hBF : ∀ i ∈ B, i ∈ ids F := fun i h => by rw [h2]; simp [h]
  refine ⟨?_, ?_, ?_⟩
  · rw [hi]
    rw [List.nodup_append]
    refine ⟨(List.nodup_append.mp hn).1, ?_, ?_⟩
    · rw [List.nodup_append]
      refine ⟨hnd, (List.nodup_append.mp (List.nodup_append.mp hn).2.1).2.1, ?_⟩
      rintro i hi1 j hj rfl
      rcases (hids i hi1).2 with h | h
      · exact hBt i hj h
      · exact h (hBF i hj)
    · rintro i hi1 j hj rfl
      rcases List.mem_append.mp hj with h | h
      · rcases (hids i h).2 with h' | h'
        · exact (hAt i hi1).1 h'
        · exact h' (hAF i hi1)
      · exact (hAt i hi1).2 h
  · intro i hi1
    rw [hi] at hi1
    rcases List.mem_append.mp hi1 with h | h
    · exact Nat.lt_of_lt_of_le (hwf.lt i (hAF i h)) hle
    · rcases List.mem_append.mp h with h | h
      · exact (hids i h).1
      · exact Nat.lt_of_lt_of_le (hwf.lt i (hBF i h)) hle
  · intro u hu
    rw [hs] at hu
    have hold : ∀ v, v ∈ pre ∨ v ∈ post → v ∈ sel isRC F := by
      intro v hv; rw [h1]; rcases hv with h | h <;> simp [h]
    rcases List.mem_append.mp hu with h | h
    · exact hwf.flat u (hold u (.inl h))
    · rcases List.mem_append.mp h with h | h
      · exact hflat u h
      · exact hwf.flat u (hold u (.inr h))

end Verif.Tbl
