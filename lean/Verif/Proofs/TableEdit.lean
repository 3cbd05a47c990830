import Verif.Proofs.TableSpec
/-! Changes of cells, rows and columns in place. -/
set_option linter.unusedSimpArgs false
namespace Verif.Tbl
open Verif Verif.Forest Verif.Cells Verif.TSpec

/-- Content that a cell can get: new elements, or elements of its old content; no row or column. -/
structure Content (s : TState) (pos : Int × Int) (k : Forest) : Prop where
  nodup : (ids k).Nodup
  own : ∀ i ∈ ids k, i ∉ ids s.kids ∨ ∃ t, getCell s pos = .ok t ∧ i ∈ ids t.2
  norow : sel isRC k = []

theorem le_foldr_max {l : List Nat} {i : Nat} (h : i ∈ l) : i ≤ l.foldr max 0 := by
  induction l with
  | nil => cases h
  | cons x l ih =>
    simp only [List.foldr_cons]
    rcases List.mem_cons.mp h with rfl | h
    · omega
    · have := ih h; omega

theorem cell_ids {s : TState} (h : Inv s) {i j : Nat} {u t : Tree} (hu : (rowsOf s)[i]? = some u)
    (ht : u.2.toList[j]? = some t) :
    (ids (single t)).Nodup ∧ ∀ x ∈ ids (single t), x < s.fresh ∧ x ∈ ids s.kids := by
  obtain ⟨f1, f2, f3⟩ := flat_of_row h.wf (List.mem_of_getElem? hu)
  obtain ⟨u1, u2⟩ := ids_sub h.wf f1
  have e : ids (single u) = u.1.id :: idsOfL u.2.toList := by
    simp only [single, ids, List.append_nil]; rw [ids_toList]; rfl
  rw [e] at u1 u2
  obtain ⟨hk, _⟩ := split_getElem? ht
  rw [hk, idsOfL_append] at u1 u2
  have e2 : ∀ l, idsOfL (t :: l) = ids (single t) ++ idsOfL l := fun _ => rfl
  rw [e2] at u1 u2
  refine ⟨?_, fun x hx => ⟨(u2 x (by simp [hx])).2, (u2 x (by simp [hx])).1⟩⟩
  exact (List.nodup_append.mp (List.nodup_append.mp (List.nodup_cons.mp u1).2).2.1).1

theorem editCell_spec {s : TState} (h : Inv s) {pos : Int × Int} {a : List (String × Str)} {x : Option Str}
    {k : Forest} (hc : Content s pos k) {i j : Nat} {u t : Tree} (hu : (rowsOf s)[i]? = some u)
    (ht : u.2.toList[j]? = some t) (hl : locate s pos = .ok (u.1.id, j, t)) :
    ∃ s', editCell pos a x k s = (s', .ok ()) ∧ Inv s' ∧ SameShape s s' ∧
      (∀ p, cellAt s' p = if p = (i, j) then some ({ t.1 with attrs := a, text := x }, k) else cellAt s p) ∧
      colsOf s' = colsOf s ∧ SameRest s s' ∧ s'.rows = s.rows := by
  obtain ⟨c1, c2⟩ := cell_not_rc h (List.mem_of_getElem? hu) (List.mem_of_getElem? ht)
  obtain ⟨d1, d2⟩ := cell_ids h hu ht
  have hg : getCell s pos = .ok t := by unfold getCell; rw [hl]
  have own : ∀ y ∈ ids k, y ∉ ids s.kids ∨ y ∈ ids t.2 := by
    intro y hy
    rcases hc.own y hy with h1 | ⟨t', h1, h2⟩
    · exact .inl h1
    · rw [hg] at h1; cases h1; exact .inr h2
  have hid : ids (single t) = t.1.id :: ids t.2 := by simp [single, ids]
  rw [hid] at d1 d2
  have e : ids (single (({ t.1 with attrs := a, text := x }, k) : Tree)) = t.1.id :: ids k := by simp [single, ids]
  have step := setAt_spec h hu ht ({ t.1 with attrs := a, text := x }, k) (max s.fresh (k.ids.foldr max 0 + 1))
    (by omega)
    (by
      rw [e, List.nodup_cons]
      refine ⟨fun hm => ?_, hc.nodup⟩
      rcases own _ hm with h1 | h1
      · exact h1 (d2 _ (by simp)).2
      · exact (List.nodup_cons.mp d1).1 h1)
    (by
      rw [e, hid]
      intro y hy
      rcases List.mem_cons.mp hy with rfl | hy
      · have := (d2 t.1.id (by simp)).1
        exact ⟨by omega, .inl (by simp)⟩
      · refine ⟨by have := le_foldr_max hy; omega, ?_⟩
        rcases own y hy with h1 | h1
        · exact .inr h1
        · exact .inl (by simp [h1]))
    (by
      have : isRC ({ t.1 with attrs := a, text := x } : Elem) = false := c1
      simp [single, sel, hc.norow, this])
  refine ⟨_, ?_, step⟩
  unfold editCell
  rw [hl]

theorem editCell_eff {s : TState} (h : Inv s) (pos : Int × Int) {a : List (String × Str)} {x : Option Str}
    {k : Forest} (hc : Content s pos k) : CellEff (editCell pos a x k) s := by
  cases hl : locate s pos with
  | error e => exact cellEff_self h (by unfold editCell; rw [hl])
  | ok p =>
    obtain ⟨r, n, t⟩ := p
    obtain ⟨i, u, h1, h2, h3, _⟩ := locate_ok h hl
    subst h2
    obtain ⟨s', e, a, b, _, c, d, f⟩ := editCell_spec (a := a) (x := x) h hc h1 h3 hl
    exact ⟨by rw [e]; exact a, by rw [e]; exact b, by rw [e]; exact c, by rw [e]; exact d,
      by rw [e]; exact f⟩

theorem skel_one {e : Elem} {k : Forest} (h : isRC e = true) : skel (.cons e k .nil) = .nil :=
  skel_single_rc (t := (e, k)) h

theorem editRow_spec {s : TState} (h : Inv s) {index : Int} {n : Nat} {t : Tree} {a : List (String × Str)}
    (hn : pyIdx (rowsOf s).length index = some n) (ht : (rowsOf s)[n]? = some t) :
    ∃ s', editRow index a s = (s', .ok ()) ∧ Inv s' ∧ rowsOf s' = (rowsOf s).set n ({ t.1 with attrs := a }, t.2) ∧
      colsOf s' = colsOf s ∧ SameRest s s' := by
  obtain ⟨hsplit, hlt⟩ := split_getElem? ht
  have htm := List.mem_of_getElem? ht
  obtain ⟨f1, f2, f3⟩ := flat_of_row h.wf htm
  obtain ⟨g1, g2⟩ := ids_sub h.wf f1
  have hrow : isRow ({ t.1 with attrs := a } : Elem) = true := f2
  have hid : rowId s index = .ok t.1.id := by
    rw [rowId_eq h, hn]; simp only [ht]
  have hs := sel_single_row h htm
  have step := rowStep h hsplit (fun e k => .cons { e with attrs := a } k .nil) s.rows s.fresh (Nat.le_refl _)
    (by simpa [single, ids] using g1)
    (by
      intro i hi
      have hi' : i ∈ ids (single t) := by simpa [single, ids] using hi
      exact ⟨(g2 i hi').2, .inl hi'⟩)
    (by
      intro u hu
      simp only [sel, isRow_isRC _ hrow, if_true, f3, List.append_nil, List.mem_singleton] at hu
      subst hu; exact f3)
    (by simp [sel, isRow_ne_isCol _ hrow, (sel_rc_nil f3).2])
    (skel_one (isRow_isRC _ hrow))
    (by
      simp only [sel, hrow, if_true, (sel_rc_nil f3).1, List.append_nil]
      rw [h.rows]
      conv => lhs; rw [hsplit]
      simp)
  refine ⟨_, ?_, step.1, ?_, step.2.2⟩
  · unfold editRow; rw [hid]
  · rw [step.2.1]
    simp only [sel, hrow, if_true, (sel_rc_nil f3).1, List.append_nil]
    rw [List.set_eq_take_append_cons_drop, if_pos hlt]; rfl

theorem editColumn_spec {s : TState} (h : Inv s) {index : Int} {n : Nat} {t : Tree} {a : List (String × Str)}
    (hn : pyIdx (colsOf s).length index = some n) (ht : (colsOf s)[n]? = some t) :
    ∃ s', editColumn index a s = (s', .ok ()) ∧ Inv s' ∧
      colsOf s' = (colsOf s).set n ({ t.1 with attrs := a }, t.2) ∧ rowsOf s' = rowsOf s ∧ SameRest s s' := by
  obtain ⟨hsplit, hlt⟩ := split_getElem? ht
  have htm := List.mem_of_getElem? ht
  obtain ⟨f1, f2, f3⟩ := flat_of_col h.wf htm
  obtain ⟨g1, g2⟩ := ids_sub h.wf f1
  have hcol : isCol ({ t.1 with attrs := a } : Elem) = true := f2
  have hnr : isRow ({ t.1 with attrs := a } : Elem) = false := by
    cases hx : isRow ({ t.1 with attrs := a } : Elem) with
    | false => rfl
    | true => rw [isRow_ne_isCol _ hx] at hcol; exact absurd hcol (by simp)
  have hid : colId s index = .ok t.1.id := by
    rw [colId_eq h, hn]; simp only [ht]
  have step := colStep h hsplit (fun e k => .cons { e with attrs := a } k .nil) s.cols s.fresh (Nat.le_refl _)
    (by simpa [single, ids] using g1)
    (by
      intro i hi
      have hi' : i ∈ ids (single t) := by simpa [single, ids] using hi
      exact ⟨(g2 i hi').2, .inl hi'⟩)
    (by
      intro u hu
      simp only [sel, isCol_isRC _ hcol, if_true, f3, List.append_nil, List.mem_singleton] at hu
      subst hu; exact f3)
    (by simp [sel, hnr, (sel_rc_nil f3).1])
    (skel_one (isCol_isRC _ hcol))
    (by
      simp only [sel, hcol, if_true, (sel_rc_nil f3).2, List.append_nil]
      rw [h.cols]
      conv => lhs; rw [hsplit]
      simp)
  refine ⟨_, ?_, step.1, ?_, step.2.2⟩
  · unfold editColumn; rw [hid]
  · rw [step.2.1]
    simp only [sel, hcol, if_true, (sel_rc_nil f3).2, List.append_nil]
    rw [List.set_eq_take_append_cons_drop, if_pos hlt]; rfl

theorem editRow_eff {s : TState} (h : Inv s) (index : Int) (a : List (String × Str)) :
    ListEff (MoreRows 0) (editRow index a) s := by
  cases hp : pyIdx (rowsOf s).length index with
  | none => exact eff_error h (e := .IndexError) (by unfold editRow; rw [rowId_eq h, hp])
  | some n =>
    have ht := List.getElem?_eq_getElem (pyIdx_lt hp)
    obtain ⟨s', e, i, r, c, d⟩ := editRow_spec (a := a) h hp ht
    refine eff_ok i d e ⟨by rw [r]; simp, c, fun w hw => ?_⟩
    rw [r]
    intro u hu
    rcases List.mem_or_eq_of_mem_set hu with hm | rfl
    · exact hw u hm
    · have := hw _ (List.mem_of_getElem? ht)
      exact this

theorem editColumn_eff {s : TState} (h : Inv s) (index : Int) (a : List (String × Str)) :
    ListEff (MoreCols 0) (editColumn index a) s := by
  cases hp : pyIdx (colsOf s).length index with
  | none => exact eff_error h (e := .IndexError) (by unfold editColumn; rw [colId_eq h, hp])
  | some n =>
    have ht := List.getElem?_eq_getElem (pyIdx_lt hp)
    obtain ⟨s', e, i, r, c, d⟩ := editColumn_spec (a := a) h hp ht
    exact eff_ok i d e ⟨by rw [r]; simp, c⟩

end Verif.Tbl
