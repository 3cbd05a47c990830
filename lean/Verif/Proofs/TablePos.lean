import Verif.Proofs.TableCells
import Mathlib.Data.List.Forall2
/-! Cell positions, changes of single cells, reset. -/
set_option linter.unusedSimpArgs false
namespace Verif.Tbl
open Verif Verif.Forest Verif.Cells Verif.TSpec

/-- The cell at row `p.1`, column `p.2` of the tree. -/
def cellAt (s : TState) (p : Nat × Nat) : Option Tree := (rowsOf s)[p.1]?.bind fun t => t.2.toList[p.2]?

/-- Same row elements with the same number of cells. -/
def SameShape (s s' : TState) : Prop := RowsRel (fun k k' => k'.length = k.length) (rowsOf s) (rowsOf s')

theorem SameShape.refl (s : TState) : SameShape s s := List.forall₂_same.mpr fun _ _ => ⟨rfl, rfl⟩
theorem SameShape.trans {a b c : TState} (h : SameShape a b) (g : SameShape b c) : SameShape a c := by
  unfold SameShape RowsRel at *
  generalize rowsOf a = x at *
  generalize rowsOf b = y at *
  generalize rowsOf c = z at *
  induction h generalizing z with
  | nil => cases g; exact .nil
  | cons h1 _ ih =>
    cases g with
    | cons g1 g2 => exact .cons ⟨g1.1.trans h1.1, g1.2.trans h1.2⟩ (ih _ g2)

theorem SameShape.rect {s s' : TState} (h : SameShape s s') {w : Nat} (hr : Rect w (rowsOf s)) :
    Rect w (rowsOf s') := by
  unfold SameShape RowsRel Rect at *
  generalize rowsOf s = x at *
  generalize rowsOf s' = y at *
  induction h with
  | nil => simp
  | cons h1 _ ih =>
    intro t ht
    rcases List.mem_cons.mp ht with rfl | ht
    · rw [h1.2]; exact hr _ (by simp)
    · exact ih (fun u hu => hr u (by simp [hu])) t ht

theorem SameShape.length {s s' : TState} (h : SameShape s s') :
    (rowsOf s').length = (rowsOf s).length := (List.Forall₂.length_eq h).symm

theorem SameShape.ncols {s s' : TState} (h : SameShape s s') (i : Inv s) (i' : Inv s') :
    ncols s' = ncols s := by
  rw [ncols_eq i, ncols_eq i']
  unfold SameShape RowsRel at h
  generalize rowsOf s = x at *
  generalize rowsOf s' = y at *
  cases h with
  | nil => rfl
  | cons h1 _ => exact h1.2

theorem childAt_ok {k : Forest} {i : Int} {n : Nat} {t : Tree} (h : childAt k i = .ok (n, t)) :
    pyIdx k.length i = some n ∧ k.toList[n]? = some t := by
  unfold childAt at h
  cases hp : pyIdx k.length i with
  | none => simp [hp] at h
  | some m =>
    simp only [hp] at h
    cases hk : k.toList[m]? with
    | none => simp [hk] at h
    | some u =>
      simp only [hk, Except.ok.injEq, Prod.mk.injEq] at h
      obtain ⟨rfl, rfl⟩ := h
      exact ⟨rfl, hk⟩

theorem childAt_of {k : Forest} {i : Int} {n : Nat} (h : pyIdx k.length i = some n) :
    ∃ t, k.toList[n]? = some t ∧ childAt k i = .ok (n, t) := by
  have hl : n < k.toList.length := by simpa using pyIdx_lt h
  refine ⟨k.toList[n], List.getElem?_eq_getElem hl, ?_⟩
  unfold childAt
  rw [h]
  simp [List.getElem?_eq_getElem hl]

theorem childAt_none {k : Forest} {i : Int} (h : pyIdx k.length i = none) :
    childAt k i = .error .IndexError := by
  unfold childAt
  rw [h]

theorem rowId_ok {s : TState} (h : Inv s) {i : Int} {r : Nat} (hr : rowId s i = .ok r) :
    ∃ n u, pyIdx (rowsOf s).length i = some n ∧ (rowsOf s)[n]? = some u ∧ u.1.id = r := by
  rw [rowId_eq h] at hr
  cases hp : pyIdx (rowsOf s).length i with
  | none => simp [hp] at hr
  | some m =>
    simp only [hp] at hr
    cases hk : (rowsOf s)[m]? with
    | none => simp [hk] at hr
    | some u =>
      simp only [hk, Except.ok.injEq] at hr
      exact ⟨m, u, rfl, hk, hr⟩

theorem rowId_of {s : TState} (h : Inv s) {i : Int} {n : Nat}
    (hn : pyIdx (rowsOf s).length i = some n) :
    ∃ u, (rowsOf s)[n]? = some u ∧ rowId s i = .ok u.1.id := by
  have hl := pyIdx_lt hn
  refine ⟨(rowsOf s)[n], List.getElem?_eq_getElem hl, ?_⟩
  rw [rowId_eq h, hn]
  simp [List.getElem?_eq_getElem hl]

theorem pyIdx_nat {len n : Nat} (h : n < len) : pyIdx len (n : Int) = some n := by
  unfold pyIdx
  rw [if_pos (by omega), if_pos (by simpa using h)]; simp

theorem pyIdx_nat_none {len n : Nat} (h : len ≤ n) : pyIdx len (n : Int) = none := by
  unfold pyIdx
  rw [if_pos (by omega), if_neg (by simp; omega)]

/-- What a successful `locate` says. -/
theorem locate_ok {s : TState} (h : Inv s) {pos : Int × Int} {r n : Nat} {t : Tree}
    (hl : locate s pos = .ok (r, n, t)) :
    ∃ i u, (rowsOf s)[i]? = some u ∧ u.1.id = r ∧ u.2.toList[n]? = some t ∧
      pyIdx (rowsOf s).length (adjust s pos).1 = some i ∧ pyIdx u.2.length (adjust s pos).2 = some n := by
  unfold locate at hl
  simp only at hl
  cases hr : rowId s (adjust s pos).1 with
  | error e => simp [hr] at hl
  | ok r' =>
    simp only [hr] at hl
    obtain ⟨i, u, h1, h2, h3⟩ := rowId_ok h hr
    have hu : kidsOf s r' = u.2 := by
      rw [← h3]; exact kidsOf_row h (List.mem_of_getElem? h2)
    rw [hu] at hl
    cases hc : childAt u.2 (adjust s pos).2 with
    | error e => simp [hc] at hl
    | ok p =>
      obtain ⟨m, t'⟩ := p
      simp only [hc, Except.ok.injEq, Prod.mk.injEq] at hl
      obtain ⟨rfl, rfl, rfl⟩ := hl
      obtain ⟨c1, c2⟩ := childAt_ok hc
      exact ⟨i, u, h2, h3, c2, h1, c1⟩

theorem locate_nat {s : TState} (h : Inv s) {i j : Nat} {t : Tree} (hc : cellAt s (i, j) = some t) :
    ∃ u, (rowsOf s)[i]? = some u ∧ u.2.toList[j]? = some t ∧
      locate s ((i : Int), (j : Int)) = .ok (u.1.id, j, t) := by
  unfold cellAt at hc
  simp only at hc
  cases hu : (rowsOf s)[i]? with
  | none => simp [hu] at hc
  | some u =>
    simp only [hu, Option.bind_some] at hc
    refine ⟨u, rfl, hc, ?_⟩
    have hadj : adjust s ((i : Int), (j : Int)) = ((i : Int), (j : Int)) := by
      unfold adjust
      rw [if_neg (by simp only; omega), if_neg (by simp only; omega)]
    have hi : i < (rowsOf s).length := (List.getElem?_eq_some_iff.mp hu).1
    have hj : j < u.2.length := by
      have := (List.getElem?_eq_some_iff.mp hc).1; simpa using this
    obtain ⟨u', h1, h2⟩ := rowId_of h (pyIdx_nat hi)
    rw [hu] at h1
    cases h1
    obtain ⟨t', h3, h4⟩ := childAt_of (k := u.2) (pyIdx_nat hj)
    rw [hc] at h3
    cases h3
    unfold locate
    simp only [hadj, h2, kidsOf_row h (List.mem_of_getElem? hu), h4]

theorem split_getElem? {β : Type} {l : List β} {n : Nat} {x : β} (h : l[n]? = some x) :
    l = l.take n ++ x :: l.drop (n + 1) ∧ n < l.length := by
  obtain ⟨hl, hx⟩ := List.getElem?_eq_some_iff.mp h
  refine ⟨?_, hl⟩
  have := split_getElem hl
  rwa [hx] at this

theorem getElem?_splice {β : Type} {l : List β} {n : Nat} {y : β} (h : n < l.length) (m : Nat) :
    (l.take n ++ y :: l.drop (n + 1))[m]? = if m = n then some y else l[m]? := by
  have e : l.take n ++ y :: l.drop (n + 1) = l.set n y := by
    rw [List.set_eq_take_append_cons_drop, if_pos h]
  rw [e, List.getElem?_set]
  by_cases hm : m = n
  · subst hm; simp [h]
  · simp [hm, Ne.symm hm]

/-- A child of a row is neither a row nor a column and contains none. -/
theorem cell_not_rc {s : TState} (h : Inv s) {u t : Tree} (hu : u ∈ rowsOf s) (ht : t ∈ u.2.toList) :
    isRC t.1 = false ∧ sel isRC t.2 = [] := by
  have h3 := (flat_of_row h.wf hu).2.2
  rw [sel_toList, List.flatMap_eq_nil_iff] at h3
  have := h3 t ht
  simp only [single, sel, List.append_nil, List.append_eq_nil_iff] at this
  refine ⟨?_, this.2⟩
  cases hc : isRC t.1 with
  | false => rfl
  | true => simp [hc] at this

/-- Replacing the cell at a position. -/
theorem setAt_spec {s : TState} (h : Inv s) {i j : Nat} {u t : Tree} (hu : (rowsOf s)[i]? = some u)
    (ht : u.2.toList[j]? = some t) (new : Tree) (fresh' : Nat) (hle : s.fresh ≤ fresh')
    (hnd : (ids (single new)).Nodup)
    (hids : ∀ x ∈ ids (single new), x < fresh' ∧ (x ∈ ids (single t) ∨ x ∉ ids s.kids))
    (hsel : sel isRC (single new) = []) :
    let s' : TState := { s with kids := s.kids.mapKids u.1.id fun k => k.setAt j new, fresh := fresh' }
    Inv s' ∧ SameShape s s' ∧ (∀ p, cellAt s' p = if p = (i, j) then some new else cellAt s p) ∧
      colsOf s' = colsOf s ∧ SameRest s s' ∧ s'.rows = s.rows := by
  intro s'
  obtain ⟨hr, hi⟩ := split_getElem? hu
  obtain ⟨hk, hj⟩ := split_getElem? ht
  have hl : (u.2.setAt j new).toList = u.2.toList.take j ++ ([new] ++ u.2.toList.drop (j + 1)) := by
    unfold setAt
    rw [toList_ofList, List.set_eq_take_append_cons_drop, if_pos hj]; rfl
  have step := cellStep h hr (fun k => k.setAt j new) (A := u.2.toList.take j) (O := [t]) (N := [new])
    (B := u.2.toList.drop (j + 1)) hk hl fresh' hle (by simpa [idsOfL] using hnd)
    (by intro x hx; simp only [idsOfL, List.flatMap_cons, List.flatMap_nil, List.append_nil] at hx ⊢
        exact hids x hx)
    (by simpa [selOfL] using hsel)
  have hrow : rowsOf s' = (rowsOf s).take i ++ (u.1, u.2.setAt j new) :: (rowsOf s).drop (i + 1) :=
    step.2.1
  have hlen : (u.2.setAt j new).length = u.2.length := by
    rw [← length_toList, setAt, toList_ofList, List.length_set, length_toList]
  refine ⟨step.1, ?_, ?_, step.2.2.1, step.2.2.2, rfl⟩
  · unfold SameShape RowsRel
    rw [hrow]
    conv => arg 2; rw [hr]
    exact List.rel_append (List.forall₂_same.mpr fun _ _ => ⟨rfl, rfl⟩)
      (.cons ⟨rfl, hlen⟩ (List.forall₂_same.mpr fun _ _ => ⟨rfl, rfl⟩))
  · intro p
    unfold cellAt
    rw [hrow, getElem?_splice hi]
    by_cases hp1 : p.1 = i
    · rw [if_pos hp1]
      simp only [Option.bind_some]
      rw [show (u.2.setAt j new).toList = u.2.toList.take j ++ new :: u.2.toList.drop (j + 1) from hl,
        getElem?_splice hj]
      by_cases hp2 : p.2 = j
      · rw [if_pos hp2, if_pos (Prod.ext hp1 hp2)]
      · rw [if_neg hp2, if_neg (fun hp => hp2 (by rw [hp])), hp1, hu]; rfl
    · rw [if_neg hp1, if_neg (fun hp => hp1 (by rw [hp]))]

/-- An in-place change of a cell element that keeps identity and does not make it a row or column. -/
def CellOk (m : Py Elem Unit) : Prop :=
  ∀ e, (m e).1.id = e.id ∧ (isRC e = false → isRC (m e).1 = false)

theorem withCell_spec {s : TState} (h : Inv s) {pos : Int × Int} {m : Py Elem Unit} (hm : CellOk m)
    {i j : Nat} {u t : Tree} (hu : (rowsOf s)[i]? = some u) (ht : u.2.toList[j]? = some t)
    (hl : locate s pos = .ok (u.1.id, j, t)) :
    ∃ s', withCell pos m s = (s', (m t.1).2) ∧ Inv s' ∧ SameShape s s' ∧
      (∀ p, cellAt s' p = if p = (i, j) then some ((m t.1).1, t.2) else cellAt s p) ∧
      colsOf s' = colsOf s ∧ SameRest s s' ∧ s'.rows = s.rows := by
  have hum := List.mem_of_getElem? hu
  have htm := List.mem_of_getElem? ht
  obtain ⟨c1, c2⟩ := cell_not_rc h hum htm
  obtain ⟨f1, f2, f3⟩ := flat_of_row h.wf hum
  obtain ⟨u1, u2⟩ := ids_sub h.wf f1
  have hti : (ids (single t)).Nodup ∧ ∀ x ∈ ids (single t), x < s.fresh := by
    have e : ids (single u) = u.1.id :: idsOfL u.2.toList := by
      simp only [single, ids, List.append_nil]; rw [ids_toList]; rfl
    rw [e] at u1 u2
    obtain ⟨hk, _⟩ := split_getElem? ht
    rw [hk, idsOfL_append] at u1 u2
    have e2 : ∀ l, idsOfL (t :: l) = ids (single t) ++ idsOfL l := fun _ => rfl
    rw [e2] at u1 u2
    refine ⟨?_, fun x hx => (u2 x (by simp [hx])).2⟩
    exact (List.nodup_append.mp (List.nodup_append.mp (List.nodup_cons.mp u1).2).2.1).1
  have hids : ids (single ((m t.1).1, t.2)) = ids (single t) := by
    simp [single, ids, (hm t.1).1]
  have step := setAt_spec h hu ht ((m t.1).1, t.2) s.fresh (Nat.le_refl _)
    (by rw [hids]; exact hti.1) (by rw [hids]; exact fun x hx => ⟨hti.2 x hx, .inl hx⟩)
    (by simp [single, sel, c2, (hm t.1).2 c1])
  refine ⟨_, ?_, step⟩
  unfold withCell
  rw [hl]

/-- A tree that can be put into the table as a new cell. -/
structure Detached (s : TState) (t : Tree) : Prop where
  nodup : (ids (single t)).Nodup
  disjoint : ∀ i ∈ ids (single t), i ∉ ids s.kids
  norow : sel isRC (single t) = []

theorem le_maxId (t : Tree) {i : Nat} (h : i ∈ ids (single t)) : i ≤ maxId t := by
  unfold maxId
  generalize ids (single t) = l at h
  induction l with
  | nil => simp at h
  | cons x l ih =>
    simp only [List.foldr_cons]
    rcases List.mem_cons.mp h with rfl | h
    · omega
    · have := ih h; omega

theorem setCell_spec {s : TState} (h : Inv s) {pos : Int × Int} {new : Tree} (hd : Detached s new)
    {i j : Nat} {u t : Tree} (hu : (rowsOf s)[i]? = some u) (ht : u.2.toList[j]? = some t)
    (hl : locate s pos = .ok (u.1.id, j, t)) :
    ∃ s', setCell pos (.detached new) s = (s', .ok ()) ∧ Inv s' ∧ SameShape s s' ∧
      (∀ p, cellAt s' p = if p = (i, j) then some new else cellAt s p) ∧
      colsOf s' = colsOf s ∧ SameRest s s' ∧ s'.rows = s.rows := by
  have step := setAt_spec h hu ht new (max s.fresh (maxId new + 1)) (by omega) hd.nodup
    (fun x hx => ⟨by have := le_maxId new hx; omega, .inr (hd.disjoint x hx)⟩) hd.norow
  refine ⟨_, ?_, step⟩
  unfold setCell
  rw [hl]

/-! ### reset -/

theorem ids_newRows (id w n : Nat) : ids (newRows id w n) = List.range' id (n * (w + 1)) := by
  induction n generalizing id with
  | zero => simp [newRows, ids]
  | succ n ih =>
    have h1 := ids_newRow id w
    simp only [single, ids, List.append_nil] at h1
    simp only [newRows, ids, ih]
    rw [← List.cons_append, h1]
    rw [List.range'_append_1]
    congr 1
    rw [Nat.succ_mul]; omega

theorem sel_newRows (id w n : Nat) : sel isRC (newRows id w n) = (newRows id w n).toList ∧
    sel isRow (newRows id w n) = (newRows id w n).toList ∧ sel isCol (newRows id w n) = [] := by
  induction n generalizing id with
  | zero => simp [newRows, sel]
  | succ n ih =>
    obtain ⟨a, b, c⟩ := sel_newRow id w
    obtain ⟨x, y, z⟩ := ih (id + (w + 1))
    have e : newRows id w (n + 1) = single (newRow id w) ++ newRows (id + (w + 1)) w n := by
      simp [newRows, single]
    rw [e]
    simp only [sel_append, a, b, c, x, y, z, toList_append, List.append_nil]
    exact ⟨rfl, rfl, trivial⟩

theorem newRows_toList (id w n : Nat) : (newRows id w n).toList.length = n ∧
    ∀ t ∈ (newRows id w n).toList, EmptyRow w t := by
  induction n generalizing id with
  | zero => simp [newRows]
  | succ n ih =>
    obtain ⟨a, b⟩ := ih (id + (w + 1))
    refine ⟨by simp only [newRows, toList_cons, List.length_cons, a], ?_⟩
    intro t ht
    simp only [newRows, toList_cons, List.mem_cons] at ht
    rcases ht with rfl | ht
    · exact emptyRow_newRow _ _
    · exact b t ht

/-- `n` new columns as inserted one before the other. -/
def newColsRev (id : Nat) : Nat → Forest
  | 0 => .nil
  | n + 1 => newColsRev (id + 1) n ++ single (newColumn id)

theorem newColsRev_spec (id n : Nat) : (∀ x, x ∈ ids (newColsRev id n) ↔ id ≤ x ∧ x < id + n) ∧
    (ids (newColsRev id n)).Nodup ∧
    sel isRC (newColsRev id n) = (newColsRev id n).toList ∧
    sel isCol (newColsRev id n) = (newColsRev id n).toList ∧ sel isRow (newColsRev id n) = [] ∧
    (newColsRev id n).toList.length = n ∧ (∀ t ∈ (newColsRev id n).toList, EmptyColumn t) ∧
    skel (newColsRev id n) = .nil := by
  induction n generalizing id with
  | zero => simp [newColsRev, ids, sel, skel]
  | succ n ih =>
    obtain ⟨h1, h2, h3, h4, h5, h6, h7, h8⟩ := ih (id + 1)
    obtain ⟨a, b, c⟩ := sel_newColumn id
    have hi : ids (single (newColumn id)) = [id] := rfl
    have ht : (single (newColumn id)).toList = [newColumn id] := rfl
    have hsk : skel (single (newColumn id)) = .nil := by
      apply skel_single_rc; simp [isRC, newColumn, isCol]
    simp only [newColsRev, ids_append, sel_append, toList_append, h3, h4, h5, a, b, c, hi, ht,
      skel_append, h8, hsk]
    refine ⟨?_, ?_, trivial, trivial, rfl, by rw [List.length_append, h6]; rfl, ?_, rfl⟩
    · intro x
      rw [List.mem_append, h1]
      simp
      omega
    · rw [List.nodup_append]
      refine ⟨h2, by simp, ?_⟩
      rintro x hx y hy rfl
      rw [h1] at hx
      simp at hy
      omega
    · intro t ht
      rcases List.mem_append.mp ht with ht | ht
      · exact h7 t ht
      · simp at ht; subst ht; exact emptyColumn_newColumn _

theorem resetColumn_repeat (n : Nat) (s : TState) :
    repeatPy n (resetColumn 0) s =
      ({ s with kids := newColsRev s.fresh n ++ s.kids, fresh := s.fresh + n }, .ok ()) := by
  induction n generalizing s with
  | zero => rfl
  | succ n ih =>
    have e : resetColumn 0 s = ({ s with kids := single (newColumn s.fresh) ++ s.kids,
                                         fresh := s.fresh + 1 }, .ok ()) := by
      unfold resetColumn insertAt
      have := Org.lxmlInsert_nat s.kids.toList 0 (by omega) (newColumn s.fresh)
      simp only [List.take_zero, List.nil_append, List.drop_zero] at this
      rw [show (0 : Int) = ((0 : Nat) : Int) from rfl, this]
      congr 2
      apply toList_injective
      simp [single]
    rw [repeatPy_succ e, ih]
    simp only [newColsRev, append_assoc]
    congr 2
    omega

theorem removeTags_none {tags : List String} {k : Forest} (h : ∀ t ∈ k.toList, t.1.tag ∉ tags) :
    removeTags tags k = k := by
  unfold removeTags
  rw [List.filter_eq_self.mpr (by simpa using h), ofList_toList]

end Verif.Tbl
