import Verif.Proofs.Grow
/-! A property of single elements that every operation keeps: no repetition counts. -/
set_option linter.unusedSimpArgs false
namespace Verif.Tbl
open Verif Verif.Forest Verif.Cells Verif.TSpec

def AllE (P : Elem → Prop) : Forest → Prop
  | .nil => True
  | .cons e k r => P e ∧ AllE P k ∧ AllE P r

theorem allE_append {P : Elem → Prop} {F G : Forest} : AllE P (F ++ G) ↔ AllE P F ∧ AllE P G := by
  induction F with
  | nil => simp [AllE]
  | cons e k r _ ih => simp [AllE, ih, and_assoc]

theorem allE_toList {P : Elem → Prop} {F : Forest} :
    AllE P F ↔ ∀ t ∈ F.toList, P t.1 ∧ AllE P t.2 := by
  induction F with
  | nil => simp [AllE]
  | cons e k r _ ih => simp [AllE, ih, and_assoc]

theorem allE_ofList {P : Elem → Prop} {l : List Tree} :
    AllE P (ofList l) ↔ ∀ t ∈ l, P t.1 ∧ AllE P t.2 := by
  rw [allE_toList]; simp

theorem allE_subst {P : Elem → Prop} {j : Nat} {f : Elem → Forest → Forest} {F : Forest}
    (h : AllE P F) (hf : ∀ e k, P e → AllE P k → AllE P (f e k)) : AllE P (subst j f F) := by
  induction F with
  | nil => trivial
  | cons e k r ihk ihr =>
    obtain ⟨h1, h2, h3⟩ := h
    rw [subst]
    split
    · exact allE_append.mpr ⟨hf e k h1 h2, h3⟩
    · exact ⟨h1, ihk h2, ihr h3⟩

theorem allE_mapKids {P : Elem → Prop} {j : Nat} {g : Forest → Forest} {F : Forest}
    (h : AllE P F) (hg : ∀ k, AllE P k → AllE P (g k)) : AllE P (mapKids j g F) :=
  allE_subst h fun _ k h1 h2 => ⟨h1, hg k h2, trivial⟩

theorem allE_find {P : Elem → Prop} {j : Nat} {F : Forest} {t : Tree} (h : AllE P F)
    (hf : find j F = some t) : P t.1 ∧ AllE P t.2 := by
  induction F with
  | nil => simp [find] at hf
  | cons e k r ihk ihr =>
    obtain ⟨h1, h2, h3⟩ := h
    rw [find] at hf
    split at hf
    · cases hf; exact ⟨h1, h2⟩
    · split at hf
      · rename_i t' ht
        cases hf
        exact ihk h2 ht
      · exact ihr h3 hf

theorem allE_sel {P : Elem → Prop} {p : Elem → Bool} {F : Forest} (h : AllE P F) :
    ∀ t ∈ sel p F, P t.1 ∧ AllE P t.2 := by
  induction F with
  | nil => simp [sel]
  | cons e k r ihk ihr =>
    obtain ⟨h1, h2, h3⟩ := h
    intro t ht
    simp only [sel, List.mem_append] at ht
    rcases ht with ht | ht | ht
    · split at ht
      · simp only [List.mem_singleton] at ht
        subst ht; exact ⟨h1, h2⟩
      · simp at ht
    · exact ihk h2 t ht
    · exact ihr h3 t ht

theorem allE_insertAt {P : Elem → Prop} {k : Forest} {p : Int} {t : Tree} (h : AllE P k)
    (ht : P t.1 ∧ AllE P t.2) : AllE P (k.insertAt p t) := by
  unfold insertAt
  rw [allE_ofList]
  intro u hu
  unfold Org.lxmlInsert at hu
  have hm : u ∈ k.toList ∨ u = t := by
    split at hu
    · simp only [List.mem_append, List.mem_cons] at hu
      rcases hu with hu | hu | hu
      · exact .inl (List.mem_of_mem_take hu)
      · exact .inr hu
      · exact .inl (List.mem_of_mem_drop hu)
    · simp only [List.mem_append, List.mem_singleton] at hu
      exact hu
  rcases hm with hm | rfl
  · exact allE_toList.mp h u hm
  · exact ht

theorem allE_eraseAt {P : Elem → Prop} {k : Forest} {n : Nat} (h : AllE P k) :
    AllE P (k.eraseAt n) := by
  unfold eraseAt
  rw [allE_ofList]
  exact fun u hu => allE_toList.mp h u (List.mem_of_mem_eraseIdx hu)

theorem allE_setAt {P : Elem → Prop} {k : Forest} {n : Nat} {t : Tree} (h : AllE P k)
    (ht : P t.1 ∧ AllE P t.2) : AllE P (k.setAt n t) := by
  unfold setAt
  rw [allE_ofList]
  intro u hu
  rcases List.mem_or_eq_of_mem_set hu with hm | rfl
  · exact allE_toList.mp h u hm
  · exact ht

theorem allE_removeTags {P : Elem → Prop} {k : Forest} {tags : List String} (h : AllE P k) :
    AllE P (removeTags tags k) := by
  unfold removeTags
  rw [allE_ofList]
  exact fun u hu => allE_toList.mp h u (List.mem_of_mem_filter hu)

/-! ### Steps -/

def KeepP {α : Type} (P : Elem → Prop) (m : Py TState α) : Prop :=
  ∀ s, AllE P s.kids → AllE P (m s).1.kids

theorem keepP_pure {α : Type} (P : Elem → Prop) (a : α) : KeepP P (pure a) := fun _ h => h

theorem keepP_bind {α β : Type} {P : Elem → Prop} {m : Py TState α} {k : α → Py TState β}
    (hm : KeepP P m) (hk : ∀ a, KeepP P (k a)) : KeepP P (m >>= k) := by
  intro s hs
  have h := hm s hs
  rw [Py.bind_def]
  cases hms : m s with
  | mk s1 r =>
    rw [hms] at h
    cases r with
    | error e => exact h
    | ok a => exact hk a s1 h

theorem keepP_repeat {P : Elem → Prop} {m : Py TState Unit} (hm : KeepP P m) (n : Nat) :
    KeepP P (repeatPy n m) := by
  induction n with
  | zero => exact keepP_pure P ()
  | succ n ih => exact keepP_bind hm fun _ => ih

theorem keepP_for {α : Type} {P : Elem → Prop} {m : α → Py TState Unit} (l : List α)
    (hm : ∀ a ∈ l, KeepP P (m a)) : KeepP P (forPy m l) := by
  induction l with
  | nil => exact keepP_pure P ()
  | cons a l ih => exact keepP_bind (hm a (by simp)) fun _ => ih fun b hb => hm b (by simp [hb])

/-- Holds for new elements and does not see the changes made to cells. -/
structure CellProp (P : Elem → Prop) : Prop where
  new : ∀ (id : Nat) (tag : String), P { id := id, tag := tag }
  tag : ∀ e (t : String), P e → P { e with tag := t }
  del : ∀ e (k : String), P e → P (e.del k)
  span : ∀ e (k : String) (v : Str), (k = rowsSpanned ∨ k = colsSpanned) → P e → P (e.set k v)

section
variable {P : Elem → Prop} (hP : CellProp P)
include hP

theorem newCell_allE (id : Nat) : P (newCell id).1 ∧ AllE P (newCell id).2 := ⟨hP.new _ _, trivial⟩

theorem newColumn_allE (id : Nat) : P (newColumn id).1 ∧ AllE P (newColumn id).2 :=
  ⟨hP.new _ _, trivial⟩

theorem newCells_allE (n id : Nat) : AllE P (newCells id n) := by
  induction n generalizing id with
  | zero => trivial
  | succ n ih => exact ⟨hP.new _ _, trivial, ih _⟩

theorem newRow_allE (id w : Nat) : P (newRow id w).1 ∧ AllE P (newRow id w).2 :=
  ⟨hP.new _ _, newCells_allE hP _ _⟩

theorem newRows_allE (w n id : Nat) : AllE P (newRows id w n) := by
  induction n generalizing id with
  | zero => trivial
  | succ n ih =>
    have h := newRow_allE hP id w
    exact ⟨h.1, h.2, ih _⟩

theorem appendRow_keep : KeepP P appendRow := by
  intro s hs
  unfold appendRow
  simp only
  split
  · exact hs
  · refine allE_subst hs fun e k h1 h2 => ?_
    have h := newRow_allE hP s.fresh (ncols s)
    exact ⟨h1, h2, h.1, h.2, trivial⟩

theorem insertRow_keep (p : Int) : KeepP P (insertRow p) := by
  intro s hs
  unfold insertRow
  simp only
  split
  · exact hs
  · refine allE_subst hs fun e k h1 h2 => ?_
    have h := newRow_allE hP s.fresh (ncols s)
    exact ⟨h.1, h.2, h1, h2, trivial⟩

omit hP in
theorem deleteRow_keep (p : Int) : KeepP P (deleteRow p) := by
  intro s hs
  unfold deleteRow
  split
  · exact hs
  · split
    · exact hs
    · exact allE_subst hs fun e k h1 h2 => trivial

theorem appendCell_keep (r : Nat) : KeepP P (appendCell r) := by
  intro s hs
  refine allE_mapKids hs fun k hk => allE_append.mpr ⟨hk, hP.new _ _, trivial, trivial⟩

theorem insertCell_keep (p : Int) (r : Nat) : KeepP P (insertCell p r) := by
  intro s hs
  exact allE_mapKids hs fun k hk => allE_insertAt hk (newCell_allE hP _)

omit hP in
theorem deleteCell_keep (p : Int) (r : Nat) : KeepP P (deleteCell p r) := by
  intro s hs
  unfold deleteCell
  split
  · exact hs
  · exact allE_mapKids hs fun k hk => allE_eraseAt hk

theorem appendCol_keep : KeepP P appendCol := by
  intro s hs
  unfold appendCol
  split
  · exact hs
  · exact allE_subst hs fun e k h1 h2 => ⟨h1, h2, hP.new _ _, trivial, trivial⟩

theorem insertCol_keep (p : Int) : KeepP P (insertCol p) := by
  intro s hs
  unfold insertCol
  split
  · exact hs
  · exact allE_subst hs fun e k h1 h2 => ⟨hP.new _ _, trivial, h1, h2, trivial⟩

omit hP in
theorem deleteCol_keep (p : Int) : KeepP P (deleteCol p) := by
  intro s hs
  unfold deleteCol
  split
  · exact hs
  · split
    · exact hs
    · exact allE_subst hs fun e k h1 h2 => trivial

theorem resetColumn_keep (p : Int) : KeepP P (resetColumn p) := by
  intro s hs
  exact allE_insertAt hs (newColumn_allE hP _)

theorem cellsReset_keep (sz : Int × Int) : KeepP P (cellsReset sz) := by
  intro s hs
  unfold cellsReset
  simp only
  split
  · exact allE_removeTags hs
  · split
    · exact allE_removeTags hs
    · exact allE_append.mpr ⟨allE_removeTags hs, newRows_allE hP _ _ _⟩

theorem colsReset_keep (n : Int) : KeepP P (colsReset n) := by
  intro s hs
  unfold colsReset
  simp only
  split
  · exact hs
  · split
    · exact allE_removeTags hs
    · rename_i p _
      have h2 := keepP_repeat (resetColumn_keep hP p) n.toNat
        { s with kids := removeTags Tags.TABLE_COLUMNS s.kids } (allE_removeTags hs)
      split
      · rename_i s2 _ he
        rw [he] at h2
        exact h2
      · rename_i s2 _ he
        rw [he] at h2
        exact h2

omit hP in
theorem setName_keep (n : Option Str) : KeepP P (setName n) := by
  intro s hs
  unfold setName
  split
  · exact hs
  · simp only
    split
    · exact hs
    · exact hs

theorem reset_keep (sz : Int × Int) : KeepP P (reset sz) := by
  intro s hs
  unfold reset
  exact keepP_bind (m := clearNode) (fun s _ => trivial)
    (fun _ => keepP_bind (setName_keep _) fun _ => keepP_bind (cellsReset_keep hP sz)
      fun _ => colsReset_keep hP _) s hs

omit hP in
theorem locate_allE {s : TState} (hs : AllE P s.kids) {pos : Int × Int} {r n : Nat} {t : Tree}
    (h : locate s pos = .ok (r, n, t)) : P t.1 ∧ AllE P t.2 := by
  unfold locate at h
  simp only at h
  split at h
  · cases h
  · rename_i r' _
    split at h
    · cases h
    · rename_i n' t' hc
      cases h
      unfold childAt at hc
      split at hc
      · cases hc
      · split at hc
        · rename_i t'' ht
          cases hc
          refine allE_toList.mp ?_ _ (List.mem_of_getElem? ht)
          unfold kidsOf
          split
          · rename_i u hu
            exact (allE_find hs hu).2
          · trivial
        · cases hc

omit hP in
theorem withCell_keep (pos : Int × Int) {m : Py Elem Unit} (hm : ∀ e, P e → P (m e).1) :
    KeepP P (withCell pos m) := by
  intro s hs
  unfold withCell
  split
  · exact hs
  · rename_i r n t hl
    have h := locate_allE hs hl
    exact allE_mapKids hs fun k hk => allE_setAt hk ⟨hm _ h.1, h.2⟩

theorem setCovered_keep (b : Bool) (e : Elem) (h : P e) : P (setCovered b e) := by
  unfold setCovered
  split
  · have : ∀ (l : List String) (e : Elem), P e → P (l.foldl (fun e k => e.del k) e) := by
      intro l
      induction l with
      | nil => intro e h; exact h
      | cons k l ih => intro e h; exact ih _ (hP.del _ _ h)
    exact this _ _ (hP.tag _ _ h)
  · exact hP.tag _ _ h

theorem coverCell_keep (p : Int × Int) : KeepP P (coverCell p) :=
  withCell_keep p fun e h => by
    show P (if covered e then e else setCovered true e)
    split
    · exact h
    · exact setCovered_keep hP _ _ h

theorem uncoverCell_keep (p : Int × Int) : KeepP P (uncoverCell p) :=
  withCell_keep p fun e h => by
    show P (if covered e then setCovered false e else e)
    split
    · exact setCovered_keep hP _ _ h
    · exact h

theorem delSpan_keep (e : Elem) (h : P e) : P (delSpanAttributes e).1 := by
  simp only [delSpanAttributes, Py.bind_def, delAttr]
  cases e.get rowsSpanned with
  | none => exact h
  | some v =>
    simp only
    split
    · exact hP.del _ _ h
    · exact hP.del _ _ (hP.del _ _ h)

theorem setSpan_keep (sz : Int × Int) (e : Elem) (h : P e) : P (setSpan sz e).1 := by
  unfold setSpan
  split
  · exact delSpan_keep hP e h
  · exact hP.span _ _ _ (.inr rfl) (hP.span _ _ _ (.inl rfl) h)

theorem setCellSpan_keep (p sz : Int × Int) : KeepP P (setCellSpan p sz) := by
  intro s hs
  unfold setCellSpan
  repeat' split
  all_goals first
    | exact hs
    | exact keepP_bind (keepP_for _ fun a _ => coverCell_keep hP a)
        (fun _ => keepP_bind (withCell_keep p (setSpan_keep hP sz)) fun _ => uncoverCell_keep hP p) s hs

theorem removeCellSpan_keep (p : Int × Int) : KeepP P (removeCellSpan p) := by
  intro s hs
  unfold removeCellSpan
  repeat' split
  all_goals first
    | exact hs
    | exact keepP_bind (keepP_for _ fun a _ => uncoverCell_keep hP a)
        (fun _ => keepP_bind (withCell_keep p (delSpan_keep hP)) fun _ => uncoverCell_keep hP p) s hs

omit hP in
theorem tableSetCell_keep (p : Int × Int) {t : Tree} (ht : P t.1 ∧ AllE P t.2) :
    KeepP P (tableSetCell p t) := by
  intro s hs
  unfold tableSetCell
  split
  · unfold setCell
    split
    · exact hs
    · exact allE_mapKids hs fun k hk => allE_setAt hk ht
  · exact hs

/-- A given cell has the property everywhere. -/
def Op.Given (P : Elem → Prop) : Op → Prop
  | .setCell _ t => P t.1 ∧ AllE P t.2
  | .editCell _ a x k => (∀ e, P e → P { e with attrs := a, text := x }) ∧ AllE P k
  | .editRow _ a | .editColumn _ a => ∀ e, P e → P { e with attrs := a }
  | _ => True

theorem run_keep (op : Op) (hg : op.Given P) : KeepP P (run op) := by
  cases op with
  | appendRows n =>
    intro s hs
    show AllE P (appendRows n s).1.kids
    unfold appendRows
    split
    · exact hs
    · exact keepP_repeat (appendRow_keep hP) _ s hs
  | insertRows i n =>
    intro s hs
    show AllE P (insertRows i n s).1.kids
    unfold insertRows
    split
    · exact hs
    · exact keepP_repeat (insertRow_keep hP i) _ s hs
  | deleteRows i n =>
    intro s hs
    show AllE P (deleteRows i n s).1.kids
    unfold deleteRows
    split
    · exact hs
    · exact keepP_repeat (deleteRow_keep _) _ s hs
  | appendColumns n =>
    refine keepP_bind (m := cellsAppendColumns n) (k := fun _ => colsAppend n) ?_ fun _ => ?_
    · intro s hs
      unfold cellsAppendColumns
      split
      · exact hs
      · exact keepP_for _ (fun r _ => keepP_repeat (appendCell_keep hP r) _) s hs
    · intro s hs
      unfold colsAppend
      split
      · exact hs
      · exact keepP_repeat (appendCol_keep hP) _ s hs
  | insertColumns i n =>
    refine keepP_bind (m := cellsInsertColumns i n) (k := fun _ => colsInsert i n) ?_ fun _ => ?_
    · intro s hs
      unfold cellsInsertColumns
      split
      · exact hs
      · exact keepP_for _ (fun r _ => keepP_repeat (insertCell_keep hP _ r) _) s hs
    · intro s hs
      unfold colsInsert
      split
      · exact hs
      · exact keepP_repeat (insertCol_keep hP _) _ s hs
  | deleteColumns i n =>
    refine keepP_bind (m := cellsDeleteColumns i n) (k := fun _ => colsDelete i n) ?_ fun _ => ?_
    · intro s hs
      unfold cellsDeleteColumns
      split
      · exact hs
      · exact keepP_for _ (fun r _ => keepP_repeat (deleteCell_keep _ r) _) s hs
    · intro s hs
      unfold colsDelete
      split
      · exact hs
      · exact keepP_repeat (deleteCol_keep _) _ s hs
  | setCell p t => exact tableSetCell_keep p hg
  | setSpan p sz => exact setCellSpan_keep hP p sz
  | removeSpan p => exact removeCellSpan_keep hP p
  | setName n => exact setName_keep _
  | reset sz => exact reset_keep hP sz
  | clear => intro s hs; exact reset_keep hP _ s hs
  | editCell p a x k =>
    intro s hs
    show AllE P (editCell p a x k s).1.kids
    unfold editCell
    split
    · exact hs
    · rename_i r n t hl
      exact allE_mapKids hs fun k' hk => allE_setAt hk ⟨hg.1 _ (locate_allE hs hl).1, hg.2⟩
  | editRow i a =>
    intro s hs
    show AllE P (editRow i a s).1.kids
    unfold editRow
    split
    · exact hs
    · exact allE_subst hs fun e k h1 h2 => ⟨hg e h1, h2, trivial⟩
  | editColumn i a =>
    intro s hs
    show AllE P (editColumn i a s).1.kids
    unfold editColumn
    split
    · exact hs
    · exact allE_subst hs fun e k h1 h2 => ⟨hg e h1, h2, trivial⟩

end

/-- No repetition count other than one. -/
def Once (e : Elem) : Prop := repeatCount rowRep e = .ok 1 ∧ repeatCount colRep e = .ok 1

theorem once_cellProp : CellProp Once := by
  have del : ∀ (key : String) (e : Elem) (k : String), repeatCount key e = .ok 1 →
      repeatCount key (e.del k) = .ok 1 := by
    intro key e k h
    unfold repeatCount at *
    by_cases hk : key = k
    · rw [Elem.get_del, if_pos hk]
    · rw [Elem.get_del, if_neg hk]; exact h
  have set : ∀ (key : String) (e : Elem) (k : String) (v : Str), key ≠ k → repeatCount key e = .ok 1 →
      repeatCount key (e.set k v) = .ok 1 := by
    intro key e k v hk h
    unfold repeatCount at *
    rw [Elem.get_set, if_neg hk]; exact h
  refine ⟨fun _ _ => ⟨rfl, rfl⟩, fun e t h => h, fun e k h => ⟨del _ _ _ h.1, del _ _ _ h.2⟩, ?_⟩
  rintro e k v (rfl | rfl) h
  · exact ⟨set _ _ _ _ (by decide) h.1, set _ _ _ _ (by decide) h.2⟩
  · exact ⟨set _ _ _ _ (by decide) h.1, set _ _ _ _ (by decide) h.2⟩

theorem single_of_once {s : TState} (h : AllE Once s.kids) : Single s := by
  refine ⟨fun t ht => ?_, fun t ht => (allE_sel h t ht).1.2⟩
  obtain ⟨h1, h2⟩ := allE_sel h t ht
  refine ⟨h1.1, ?_⟩
  unfold RowOne
  intro c hc
  exact (allE_toList.mp h2 c hc).1.2

end Verif.Tbl
