import Verif.Proofs.Load
import Verif.Proofs.TableEdit
import Verif.Model.TableCopy
/-! Identities in a table after an operation: old ones, new ones from the supply, given ones. -/
set_option linter.unusedSimpArgs false
namespace Verif.Tbl
open Verif Verif.Forest Verif.Cells Verif.TSpec

structure Grow (X : List Nat) (s s' : TState) : Prop where
  le : s.fresh ≤ s'.fresh
  who : (s'.node.id, s'.node.tag) = (s.node.id, s.node.tag)
  ids : ∀ i ∈ ids s'.kids, i ∈ ids s.kids ∨ (s.fresh ≤ i ∧ i < s'.fresh) ∨ (i ∈ X ∧ i < s'.fresh)

theorem Grow.node {X : List Nat} {s s' : TState} (h : Grow X s s') : s'.node.id = s.node.id :=
  congrArg Prod.fst h.who

theorem Grow.tag {X : List Nat} {s s' : TState} (h : Grow X s s') : s'.node.tag = s.node.tag :=
  congrArg Prod.snd h.who

theorem Grow.refl (X : List Nat) (s : TState) : Grow X s s := ⟨Nat.le_refl _, rfl, fun _ h => .inl h⟩

theorem Grow.trans {X : List Nat} {a b c : TState} (h : Grow X a b) (h' : Grow X b c) :
    Grow X a c := by
  have h1 := h.le
  have h2 := h'.le
  refine ⟨by omega, h'.who.trans h.who, fun i hi => ?_⟩
  rcases h'.ids i hi with h3 | h3 | h3
  · rcases h.ids i h3 with h4 | h4 | h4
    · exact .inl h4
    · exact .inr (.inl (by omega))
    · exact .inr (.inr ⟨h4.1, by omega⟩)
  · exact .inr (.inl (by omega))
  · exact .inr (.inr h3)

def GrowP {α : Type} (X : List Nat) (m : Py TState α) : Prop := ∀ s, Grow X s (m s).1

theorem growP_pure {α : Type} (X : List Nat) (a : α) : GrowP X (pure a) := fun s => .refl X s

theorem growP_bind {α β : Type} {X : List Nat} {m : Py TState α} {k : α → Py TState β}
    (hm : GrowP X m) (hk : ∀ a, GrowP X (k a)) : GrowP X (m >>= k) := by
  intro s
  have h := hm s
  rw [Py.bind_def]
  cases hms : m s with
  | mk s1 r =>
    rw [hms] at h
    cases r with
    | error e => exact h
    | ok a => exact h.trans (hk a s1)

theorem growP_repeat {X : List Nat} {m : Py TState Unit} (hm : GrowP X m) (n : Nat) :
    GrowP X (repeatPy n m) := by
  induction n with
  | zero => exact growP_pure X ()
  | succ n ih => exact growP_bind hm fun _ => ih

theorem growP_for {α : Type} {X : List Nat} {m : α → Py TState Unit} (l : List α)
    (hm : ∀ a ∈ l, GrowP X (m a)) : GrowP X (forPy m l) := by
  induction l with
  | nil => exact growP_pure X ()
  | cons a l ih => exact growP_bind (hm a (by simp)) fun _ => ih fun b hb => hm b (by simp [hb])

/-! ### Trees -/

theorem ids_subst {j : Nat} {f : Elem → Forest → Forest} {F : Forest} {i : Nat}
    (h : i ∈ ids (subst j f F)) : i ∈ ids F ∨
      ∃ e k, (∀ x ∈ e.id :: ids k, x ∈ ids F) ∧ i ∈ ids (f e k) := by
  induction F with
  | nil => simp [subst, ids] at h
  | cons e k r ihk ihr =>
    rw [subst] at h
    split at h
    · rw [ids_append, List.mem_append] at h
      rcases h with h | h
      · refine .inr ⟨e, k, ?_, h⟩
        intro x hx
        simp only [ids, List.mem_cons, List.mem_append] at hx ⊢
        tauto
      · left; simp [ids, h]
    · simp only [ids, List.mem_cons, List.mem_append] at h
      rcases h with h | h | h
      · left; simp [ids, h]
      · rcases ihk h with h | ⟨e', k', h1, h2⟩
        · left; simp [ids, h]
        · exact .inr ⟨e', k', fun x hx => by simp [ids, h1 x hx], h2⟩
      · rcases ihr h with h | ⟨e', k', h1, h2⟩
        · left; simp [ids, h]
        · exact .inr ⟨e', k', fun x hx => by simp [ids, h1 x hx], h2⟩

theorem find_ids {j : Nat} {F : Forest} {t : Tree} (h : find j F = some t) :
    ∀ x ∈ t.1.id :: ids t.2, x ∈ ids F := by
  induction F with
  | nil => simp [find] at h
  | cons e k r ihk ihr =>
    rw [find] at h
    split at h
    · cases h
      intro x hx
      simp only [ids, List.mem_cons, List.mem_append] at hx ⊢
      tauto
    · split at h
      · rename_i t' ht
        cases h
        intro x hx
        have := ihk ht x hx
        simp [ids, this]
      · intro x hx
        have := ihr h x hx
        simp [ids, this]

theorem mem_ids_child {F : Forest} {t : Tree} (h : t ∈ F.toList) :
    ∀ x ∈ t.1.id :: ids t.2, x ∈ ids F := by
  intro x hx
  rw [ids_toList]
  refine List.mem_flatMap.mpr ⟨t, h, ?_⟩
  simpa [single, ids] using hx

theorem ids_of_list {l : List Tree} {x : Nat} :
    x ∈ ids (ofList l) ↔ ∃ t ∈ l, x = t.1.id ∨ x ∈ ids t.2 := by
  rw [ids_toList]
  simp [single, ids]

theorem ids_insertAt {k : Forest} {p : Int} {t : Tree} {x : Nat} (h : x ∈ ids (k.insertAt p t)) :
    x ∈ ids k ∨ x = t.1.id ∨ x ∈ ids t.2 := by
  unfold insertAt at h
  obtain ⟨u, hu, hx⟩ := ids_of_list.mp h
  unfold Org.lxmlInsert at hu
  have hm : u ∈ k.toList ∨ u = t := by
    split at hu
    · simp only [List.mem_append, List.mem_cons] at hu
      rcases hu with hu | hu | hu
      · exact .inl (List.mem_of_mem_take hu)
      · exact .inr hu
      · exact .inl (List.mem_of_mem_drop hu)
    · simp only [List.mem_append, List.mem_singleton] at hu
      exact hu
  rcases hm with hm | rfl
  · left
    exact mem_ids_child hm x (by simpa using hx)
  · exact .inr hx

theorem ids_eraseAt {k : Forest} {n : Nat} {x : Nat} (h : x ∈ ids (k.eraseAt n)) : x ∈ ids k := by
  unfold eraseAt at h
  obtain ⟨u, hu, hx⟩ := ids_of_list.mp h
  exact mem_ids_child (List.mem_of_mem_eraseIdx hu) x (by simpa using hx)

theorem ids_setAt {k : Forest} {n : Nat} {t : Tree} {x : Nat} (h : x ∈ ids (k.setAt n t)) :
    x ∈ ids k ∨ x = t.1.id ∨ x ∈ ids t.2 := by
  unfold setAt at h
  obtain ⟨u, hu, hx⟩ := ids_of_list.mp h
  rcases List.mem_or_eq_of_mem_set hu with hm | rfl
  · exact .inl (mem_ids_child hm x (by simpa using hx))
  · exact .inr hx

theorem ids_removeTags {tags : List String} {k : Forest} {x : Nat}
    (h : x ∈ ids (removeTags tags k)) : x ∈ ids k := by
  unfold removeTags at h
  obtain ⟨u, hu, hx⟩ := ids_of_list.mp h
  exact mem_ids_child (List.mem_of_mem_filter hu) x (by simpa using hx)

/-! ### Steps -/

/-- A state with changed children. -/
theorem grow_kids {X : List Nat} {s s' : TState} (hn : (s'.node.id, s'.node.tag) = (s.node.id, s.node.tag))
    (hle : s.fresh ≤ s'.fresh)
    (h : ∀ i ∈ ids s'.kids, i ∈ ids s.kids ∨ (s.fresh ≤ i ∧ i < s'.fresh) ∨ (i ∈ X ∧ i < s'.fresh)) : Grow X s s' :=
  ⟨hle, hn, h⟩

theorem grow_subst {X : List Nat} {s s' : TState} (hn : (s'.node.id, s'.node.tag) = (s.node.id, s.node.tag))
    (hle : s.fresh ≤ s'.fresh) {j : Nat} {f : Elem → Forest → Forest}
    (hk : s'.kids = subst j f s.kids)
    (h : ∀ e k, ∀ i ∈ ids (f e k), i ∈ e.id :: ids k ∨ (s.fresh ≤ i ∧ i < s'.fresh) ∨ (i ∈ X ∧ i < s'.fresh)) :
    Grow X s s' := by
  refine ⟨hle, hn, fun i hi => ?_⟩
  rw [hk] at hi
  rcases ids_subst hi with h1 | ⟨e, k, h1, h2⟩
  · exact .inl h1
  · rcases h e k i h2 with h3 | h3
    · exact .inl (h1 i h3)
    · exact .inr h3

theorem grow_mapKids {X : List Nat} {s s' : TState} (hn : (s'.node.id, s'.node.tag) = (s.node.id, s.node.tag))
    (hle : s.fresh ≤ s'.fresh) {j : Nat} {g : Forest → Forest}
    (hk : s'.kids = mapKids j g s.kids)
    (h : ∀ k, ∀ i ∈ ids (g k), i ∈ ids k ∨ (i ∈ ids s.kids) ∨ (s.fresh ≤ i ∧ i < s'.fresh) ∨ (i ∈ X ∧ i < s'.fresh)) :
    Grow X s s' := by
  refine ⟨hle, hn, fun i hi => ?_⟩
  rw [hk] at hi
  unfold mapKids at hi
  rcases ids_subst hi with h1 | ⟨e, k, h1, h2⟩
  · exact .inl h1
  · simp only [ids, List.mem_cons, List.append_nil] at h2
    rcases h2 with h2 | h2
    · exact .inl (h1 i (by simp [h2]))
    · rcases h k i h2 with h3 | h3 | h3
      · exact .inl (h1 i (by simp [h3]))
      · exact .inl h3
      · exact .inr h3

theorem newRow_ids {id w i : Nat} (h : i ∈ ids (Forest.cons (newRow id w).1 (newRow id w).2 .nil)) :
    id ≤ i ∧ i < id + (w + 1) := by
  have := ids_newRow id w
  unfold single at this
  rw [this, List.mem_range'_1] at h
  exact h

theorem newRow_ids' {id w i : Nat} (h : i = (newRow id w).1.id ∨ i ∈ ids (newRow id w).2) :
    id ≤ i ∧ i < id + (w + 1) := by
  apply newRow_ids
  simpa [ids] using h

theorem appendRow_grow (X : List Nat) : GrowP X appendRow := by
  intro s
  unfold appendRow
  simp only
  split
  · exact .refl X s
  · refine grow_subst rfl (by simp) rfl ?_
    intro e k i hi
    simp only [ids, single, List.mem_cons, List.mem_append, List.append_nil] at hi
    rcases hi with h | h | h
    · exact .inl (by simp [h])
    · exact .inl (by simp [h])
    · exact .inr (.inl (newRow_ids' h))

theorem insertRow_grow (X : List Nat) (p : Int) : GrowP X (insertRow p) := by
  intro s
  unfold insertRow
  simp only
  split
  · exact .refl X s
  · refine grow_subst rfl (by simp) rfl ?_
    intro e k i hi
    simp only [ids, List.mem_cons, List.mem_append, List.append_nil] at hi
    rcases hi with h | h | h | h
    · exact .inr (.inl (newRow_ids' (.inl h)))
    · exact .inr (.inl (newRow_ids' (.inr h)))
    · exact .inl (by simp [h])
    · exact .inl (by simp [h])

theorem deleteRow_grow (X : List Nat) (p : Int) : GrowP X (deleteRow p) := by
  intro s
  unfold deleteRow
  split
  · exact .refl X s
  · split
    · exact .refl X s
    · exact grow_subst rfl (Nat.le_refl _) rfl (by simp [ids])

theorem appendCell_grow (X : List Nat) (r : Nat) : GrowP X (appendCell r) := by
  intro s
  refine grow_mapKids (s' := (appendCell r s).1) rfl (by simp [appendCell]) rfl ?_
  intro k i hi
  simp only [ids_append, single, ids, newCell, List.mem_append, List.mem_cons, List.append_nil,
    List.not_mem_nil, or_false] at hi
  rcases hi with h | h
  · exact .inl h
  · exact .inr (.inr (.inl (by simp [appendCell, h])))

theorem insertCell_grow (X : List Nat) (p : Int) (r : Nat) : GrowP X (insertCell p r) := by
  intro s
  refine grow_mapKids (s' := (insertCell p r s).1) rfl (by simp [insertCell]) rfl ?_
  intro k i hi
  rcases ids_insertAt hi with h | h | h
  · exact .inl h
  · exact .inr (.inr (.inl (by simp [insertCell, h, newCell])))
  · simp [newCell, ids] at h

theorem deleteCell_grow (X : List Nat) (p : Int) (r : Nat) : GrowP X (deleteCell p r) := by
  intro s
  unfold deleteCell
  split
  · exact .refl X s
  · exact grow_mapKids rfl (Nat.le_refl _) rfl fun k i hi => .inl (ids_eraseAt hi)

theorem appendCol_grow (X : List Nat) : GrowP X appendCol := by
  intro s
  unfold appendCol
  split
  · exact .refl X s
  · refine grow_subst rfl (by simp) rfl ?_
    intro e k i hi
    simp only [ids, single, newColumn, List.mem_cons, List.mem_append, List.append_nil,
      List.not_mem_nil, or_false] at hi
    rcases hi with h | h | h
    · exact .inl (by simp [h])
    · exact .inl (by simp [h])
    · exact .inr (.inl (by simp [h]))

theorem insertCol_grow (X : List Nat) (p : Int) : GrowP X (insertCol p) := by
  intro s
  unfold insertCol
  split
  · exact .refl X s
  · refine grow_subst rfl (by simp) rfl ?_
    intro e k i hi
    simp only [ids, newColumn, List.mem_cons, List.mem_append, List.append_nil, List.nil_append,
      List.not_mem_nil, or_false] at hi
    rcases hi with h | h | h
    · exact .inr (.inl (by simp [h]))
    · exact .inl (by simp [h])
    · exact .inl (by simp [h])

theorem deleteCol_grow (X : List Nat) (p : Int) : GrowP X (deleteCol p) := by
  intro s
  unfold deleteCol
  split
  · exact .refl X s
  · split
    · exact .refl X s
    · exact grow_subst rfl (Nat.le_refl _) rfl (by simp [ids])

theorem resetColumn_grow (X : List Nat) (p : Int) : GrowP X (resetColumn p) := by
  intro s
  refine grow_kids (s' := (resetColumn p s).1) rfl (by simp [resetColumn]) ?_
  intro i hi
  rcases ids_insertAt hi with h | h | h
  · exact .inl h
  · exact .inr (.inl (by simp [resetColumn, h, newColumn]))
  · simp [newColumn, ids] at h

theorem cellsReset_grow (X : List Nat) (sz : Int × Int) : GrowP X (cellsReset sz) := by
  intro s
  unfold cellsReset
  simp only
  split
  · exact grow_kids rfl (Nat.le_refl _) fun i hi => .inl (ids_removeTags hi)
  · split
    · exact grow_kids rfl (Nat.le_refl _) fun i hi => .inl (ids_removeTags hi)
    · refine grow_kids rfl (by simp [updateRows]) ?_
      intro i hi
      simp only [updateRows, ids_append, ids_newRows, List.mem_append, List.mem_range'_1] at hi
      rcases hi with h | h
      · exact .inl (ids_removeTags h)
      · exact .inr (.inl h)

theorem colsReset_grow (X : List Nat) (n : Int) : GrowP X (colsReset n) := by
  intro s
  unfold colsReset
  simp only
  have h1 : Grow X s { s with kids := removeTags Tags.TABLE_COLUMNS s.kids } :=
    grow_kids rfl (Nat.le_refl _) fun i hi => .inl (ids_removeTags hi)
  split
  · exact .refl X s
  · split
    · exact h1
    · rename_i p _
      have h2 := h1.trans (growP_repeat (resetColumn_grow X p) n.toNat _)
      split
      · rename_i s2 _ he
        rw [he] at h2
        exact ⟨h2.le, h2.who, h2.ids⟩
      · rename_i s2 _ he
        rw [he] at h2
        exact h2

theorem setName_grow (X : List Nat) (n : Option Str) : GrowP X (setName n) := by
  intro s
  unfold setName
  split
  · exact .refl X s
  · simp only
    split
    · exact .refl X s
    · exact ⟨Nat.le_refl _, rfl, fun _ h => .inl h⟩

theorem reset_grow (X : List Nat) (sz : Int × Int) : GrowP X (reset sz) := by
  intro s
  unfold reset
  exact growP_bind (fun s => ⟨Nat.le_refl _, rfl, fun i hi => by simp [clearNode, ids] at hi⟩)
    (fun _ => growP_bind (setName_grow X _) fun _ => growP_bind (cellsReset_grow X sz)
      fun _ => colsReset_grow X _) s

theorem locate_ids {s : TState} {pos : Int × Int} {r n : Nat} {t : Tree}
    (h : locate s pos = .ok (r, n, t)) : ∀ x ∈ t.1.id :: ids t.2, x ∈ ids s.kids := by
  unfold locate at h
  simp only at h
  split at h
  · cases h
  · rename_i r' _
    split at h
    · cases h
    · rename_i n' t' hc
      cases h
      unfold childAt at hc
      split at hc
      · cases hc
      · split at hc
        · rename_i t'' ht
          cases hc
          intro x hx
          have h1 := mem_ids_child (List.mem_of_getElem? ht) x hx
          unfold kidsOf at h1
          split at h1
          · rename_i u hu
            exact find_ids hu x (by simp [h1])
          · simp [ids] at h1
        · cases hc

theorem withCell_grow (X : List Nat) (pos : Int × Int) {m : Py Elem Unit}
    (hm : ∀ e, (m e).1.id = e.id) : GrowP X (withCell pos m) := by
  intro s
  unfold withCell
  split
  · exact .refl X s
  · rename_i r n t hl
    refine grow_mapKids rfl (Nat.le_refl _) rfl ?_
    intro k i hi
    rcases ids_setAt hi with h | h | h
    · exact .inl h
    · right; left
      simp only [hm] at h
      exact locate_ids hl i (by simp [h])
    · right; left
      exact locate_ids hl i (by simp [h])

theorem coverCell_grow (X : List Nat) (p : Int × Int) : GrowP X (coverCell p) :=
  withCell_grow X p fun e => by
    show (if covered e then e else setCovered true e).id = e.id
    split
    · rfl
    · exact setCovered_id _ _

theorem uncoverCell_grow (X : List Nat) (p : Int × Int) : GrowP X (uncoverCell p) :=
  withCell_grow X p fun e => by
    show (if covered e then setCovered false e else e).id = e.id
    split
    · exact setCovered_id _ _
    · rfl

theorem delSpan_id (e : Elem) : (delSpanAttributes e).1.id = e.id := by
  simp only [delSpanAttributes, Py.bind_def, delAttr]
  cases e.get rowsSpanned with
  | none => rfl
  | some v =>
    simp only
    split
    · rfl
    · rfl

theorem setSpan_id (sz : Int × Int) (e : Elem) : (setSpan sz e).1.id = e.id := by
  unfold setSpan
  repeat' split
  all_goals first | rfl | exact delSpan_id e

theorem setCellSpan_grow (X : List Nat) (p sz : Int × Int) : GrowP X (setCellSpan p sz) := by
  intro s
  unfold setCellSpan
  repeat' split
  all_goals first
    | exact .refl X s
    | exact growP_bind (growP_for _ fun a _ => coverCell_grow X a)
        (fun _ => growP_bind (withCell_grow X p (setSpan_id sz)) fun _ => uncoverCell_grow X p) s

theorem removeCellSpan_grow (X : List Nat) (p : Int × Int) : GrowP X (removeCellSpan p) := by
  intro s
  unfold removeCellSpan
  repeat' split
  all_goals first
    | exact .refl X s
    | exact growP_bind (growP_for _ fun a _ => uncoverCell_grow X a)
        (fun _ => growP_bind (withCell_grow X p delSpan_id) fun _ => uncoverCell_grow X p) s

theorem tableSetCell_grow {X : List Nat} (p : Int × Int) {t : Tree}
    (hX : ∀ i ∈ t.1.id :: ids t.2, i ∈ X) : GrowP X (tableSetCell p t) := by
  intro s
  unfold tableSetCell
  split
  · unfold setCell
    split
    · exact .refl X s
    · refine grow_mapKids rfl (Nat.le_max_left _ _) rfl ?_
      intro k i hi
      have hlt : i = t.1.id ∨ i ∈ ids t.2 → i < max s.fresh (maxId t + 1) := by
        intro h
        have := le_maxId t (i := i) (by simpa [single, ids] using h)
        omega
      rcases ids_setAt hi with h | h | h
      · exact .inl h
      · exact .inr (.inr (.inr ⟨hX i (by simp [h]), hlt (.inl h)⟩))
      · exact .inr (.inr (.inr ⟨hX i (by simp [h]), hlt (.inr h)⟩))
  · exact .refl X s

/-- The identities a call brings along. -/
def Op.given : Op → List Nat
  | .setCell _ t => t.1.id :: ids t.2
  | .editCell _ _ _ k => ids k
  | _ => []

theorem run_grow (op : Op) : GrowP op.given (run op) := by
  cases op with
  | appendRows n =>
    intro s
    show Grow _ s (appendRows n s).1
    unfold appendRows
    split
    · exact .refl _ s
    · exact growP_repeat (appendRow_grow _) _ s
  | insertRows i n =>
    intro s
    show Grow _ s (insertRows i n s).1
    unfold insertRows
    split
    · exact .refl _ s
    · exact growP_repeat (insertRow_grow _ i) _ s
  | deleteRows i n =>
    intro s
    show Grow _ s (deleteRows i n s).1
    unfold deleteRows
    split
    · exact .refl _ s
    · exact growP_repeat (deleteRow_grow _ _) _ s
  | appendColumns n =>
    refine growP_bind (m := cellsAppendColumns n) (k := fun _ => colsAppend n) ?_ fun _ => ?_
    · intro s
      unfold cellsAppendColumns
      split
      · exact .refl _ s
      · exact growP_for _ (fun r _ => growP_repeat (appendCell_grow _ r) _) s
    · intro s
      unfold colsAppend
      split
      · exact .refl _ s
      · exact growP_repeat (appendCol_grow _) _ s
  | insertColumns i n =>
    refine growP_bind (m := cellsInsertColumns i n) (k := fun _ => colsInsert i n) ?_ fun _ => ?_
    · intro s
      unfold cellsInsertColumns
      split
      · exact .refl _ s
      · exact growP_for _ (fun r _ => growP_repeat (insertCell_grow _ _ r) _) s
    · intro s
      unfold colsInsert
      split
      · exact .refl _ s
      · exact growP_repeat (insertCol_grow _ _) _ s
  | deleteColumns i n =>
    refine growP_bind (m := cellsDeleteColumns i n) (k := fun _ => colsDelete i n) ?_ fun _ => ?_
    · intro s
      unfold cellsDeleteColumns
      split
      · exact .refl _ s
      · exact growP_for _ (fun r _ => growP_repeat (deleteCell_grow _ _ r) _) s
    · intro s
      unfold colsDelete
      split
      · exact .refl _ s
      · exact growP_repeat (deleteCol_grow _ _) _ s
  | setCell p t => exact tableSetCell_grow p fun i hi => hi
  | setSpan p sz => exact setCellSpan_grow _ p sz
  | removeSpan p => exact removeCellSpan_grow _ p
  | setName n => exact setName_grow _ _
  | reset sz => exact reset_grow _ sz
  | clear => intro s; exact reset_grow _ _ s
  | editCell p a x k =>
    intro s
    show Grow _ s (editCell p a x k s).1
    unfold editCell
    split
    · exact .refl _ s
    · rename_i r n t hl
      refine grow_mapKids rfl (Nat.le_max_left _ _) rfl ?_
      intro k' i hi
      rcases ids_setAt hi with h | h | h
      · exact .inl h
      · right; left
        exact locate_ids hl i (List.mem_cons.mpr (.inl h))
      · right; right; right
        have := le_foldr_max (l := ids k) h
        exact ⟨h, by show i < max s.fresh ((ids k).foldr max 0 + 1); omega⟩
  | editRow i a =>
    intro s
    show Grow _ s (editRow i a s).1
    unfold editRow
    split
    · exact .refl _ s
    · refine ⟨Nat.le_refl _, rfl, fun i hi => .inl ?_⟩
      rcases ids_subst hi with h | ⟨e, k, h1, h2⟩
      · exact h
      · exact h1 i (by simpa [ids] using h2)
  | editColumn i a =>
    intro s
    show Grow _ s (editColumn i a s).1
    unfold editColumn
    split
    · exact .refl _ s
    · refine ⟨Nat.le_refl _, rfl, fun i hi => .inl ?_⟩
      rcases ids_subst hi with h | ⟨e, k, h1, h2⟩
      · exact h
      · exact h1 i (by simpa [ids] using h2)

end Verif.Tbl
