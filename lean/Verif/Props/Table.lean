import Verif.Proofs.TableEdit
/-!
# Properties C08–C14 and C18–C20: tables

`Good s`: the children of the table element have unique identities, rows and columns are not
nested in each other, and the caches hold the row and column elements of the tree.  It is
established by `Table(name, size)` and by loading (see `Props/Normalizer.lean`), and it is kept
by every operation.
-/
set_option linter.unusedSimpArgs false
namespace Verif.Tbl
open Verif Verif.Forest Verif.Cells Verif.TSpec

/-- What the rows and columns shown by the API have to be. -/
structure Shows (s : TState) : Prop where
  nrows : nrows s = (docRows s.kids).length
  row : ∀ (i : Nat) t, (docRows s.kids)[i]? = some t → rowElem s i = .ok t ∧ row s i = .ok (cells t)
  ncols : s.cols.length = (docCols s.kids).length
  col : ∀ (j : Nat) t, (docCols s.kids)[j]? = some t → columnInfo s j = .ok t

/-- Calls of a history.  A cell given to `set_cell` is not part of the table, the content given to a cell is not part
of another cell; `reset` and `clear` have to succeed; all other calls may also raise. -/
def Fine (op : Op) (s : TState) : Prop :=
  match op with
  | .setCell _ t => Detached s t
  | .reset _ | .clear => (run op s).2 = .ok ()
  | .editCell p _ _ k => Content s p k
  | _ => True

/-- States after a history of calls. -/
inductive Hist : TState → TState → Prop
  | refl (s) : Hist s s
  | call {s s'} (op : Op) (hf : Fine op s') (h : Hist s s') : Hist s (run op s').1

/-- States after a history of successful calls. -/
inductive OkHist : TState → TState → Prop
  | refl (s) : OkHist s s
  | call {s s'} (op : Op) (hf : Fine op s') (hok : (run op s').2 = .ok ()) (h : OkHist s s') :
      OkHist s (run op s').1

theorem OkHist.hist {s s' : TState} (h : OkHist s s') : Hist s s' := by
  induction h with
  | refl => exact .refl _
  | call op hf _ _ ih => exact .call op hf ih

theorem shows_of_inv {s : TState} (h : Inv s) : Shows s := by
  refine ⟨by rw [nrows_eq h, rowsOf_doc], ?_, by rw [h.cols, colsOf_doc]; simp, ?_⟩
  · intro i t ht
    rw [← rowsOf_doc] at ht
    have hi := (List.getElem?_eq_some_iff.mp ht).1
    obtain ⟨u, h1, h2⟩ := rowId_of h (pyIdx_nat hi)
    rw [ht] at h1; cases h1
    have hm := List.mem_of_getElem? ht
    constructor
    · unfold rowElem; rw [h2]; simp only [find_row h hm]
    · unfold row; rw [h2]; simp only [kidsOf_row h hm]; rfl
  · intro j t ht
    rw [← colsOf_doc] at ht
    have hj := (List.getElem?_eq_some_iff.mp ht).1
    have hm := List.mem_of_getElem? ht
    unfold columnInfo
    rw [colId_eq h, pyIdx_nat hj]
    simp only [ht, find_col h hm]

theorem setName_inv {s : TState} (h : Inv s) (n : Option Str) :
    Inv (setName n s).1 ∧ rowsOf (setName n s).1 = rowsOf s ∧ colsOf (setName n s).1 = colsOf s := by
  unfold setName
  cases n with
  | none => exact ⟨h, rfl, rfl⟩
  | some n =>
    simp only
    split
    · exact ⟨h, rfl, rfl⟩
    · exact ⟨⟨h.wf, h.rows, h.cols⟩, rfl, rfl⟩

theorem reset_ok {s s' : TState} {size : Int × Int} (h : reset size s = (s', .ok ())) :
    EmptyTable size.1.toNat size.2.toNat s' ∧ 1 ≤ size.1 ∧ 1 ≤ size.2 := by
  obtain ⟨n, w⟩ := size
  have hok : (reset (n, w) s).2 = .ok () := by rw [h]
  obtain ⟨⟨nm, h1, h2⟩, h3, h4⟩ := reset_ok_iff.mp hok
  obtain ⟨s'', e, he, _⟩ := reset_spec h1 h2 h3 h4
  rw [h] at e
  cases e
  exact ⟨he, h3, h4⟩

theorem step_inv {s : TState} (h : Inv s) (op : Op) (hf : Fine op s) : Inv (run op s).1 := by
  cases op with
  | appendRows n => exact (appendRows_eff h n).inv
  | insertRows i n => exact (insertRows_eff h i n).inv
  | deleteRows i n => exact (deleteRows_eff h i n).inv
  | appendColumns n => exact (appendColumns_eff h n).inv
  | insertColumns i n => exact (insertColumns_eff h i n).inv
  | deleteColumns i n => exact (deleteColumns_eff h i n).inv
  | setCell p t => exact (tableSetCell_eff h p hf).inv
  | setSpan p sz => exact (setCellSpan_eff h p sz).inv
  | removeSpan p => exact (removeCellSpan_eff h p).inv
  | setName n => exact (setName_inv h _).1
  | reset sz =>
    rcases hr : reset sz s with ⟨s', r⟩
    have hf' : r = .ok () := by have : (reset sz s).2 = .ok () := hf; rw [hr] at this; exact this
    subst hf'
    show Inv (reset sz s).1
    rw [hr]; exact (reset_ok hr).1.inv
  | clear =>
    rcases hr : clear s with ⟨s', r⟩
    have hf' : r = .ok () := by have : (clear s).2 = .ok () := hf; rw [hr] at this; exact this
    subst hf'
    show Inv (clear s).1
    rw [hr]; exact (reset_ok hr).1.inv
  | editCell p a x k => exact (editCell_eff h p hf).inv
  | editRow i a => exact (editRow_eff h i a).inv
  | editColumn i a => exact (editColumn_eff h i a).inv

theorem hist_inv {s s' : TState} (h : Inv s) (hist : Hist s s') : Inv s' := by
  induction hist with
  | refl => exact h
  | call op hf _ ih => exact step_inv ih op hf

/-- **C08** (every start state, also histories with calls that raise): rows and columns shown by the
API are the row and column elements of the tree in document order. -/
theorem C08_bookkeeping {s s' : TState} (h : Inv s) (hist : Hist s s') : Shows s' :=
  shows_of_inv (hist_inv h hist)

/-- Columns in step: at least one row, all rows as wide as there are column infos. -/
structure InStep (s : TState) : Prop where
  inv : Inv s
  ne : rowsOf s ≠ []
  rect : Rect (colsOf s).length (rowsOf s)

theorem created_inStep (id : Nat) {nm : Str} {size : Int × Int} {s : TState}
    (hc : newTable id nm size = (s, .ok ())) : InStep s := by
  obtain ⟨n, w⟩ := size
  by_cases he : normalizeName nm = []
  · exfalso
    simp [newTable, setName, he, Py.bind_def] at hc
  · by_cases h1 : 1 ≤ n
    · by_cases h2 : 1 ≤ w
      · obtain ⟨s'', e, hE, _⟩ := newTable_spec id he h1 h2
        rw [hc] at e; cases e
        exact ⟨hE.inv, fun h0 => by have := hE.nrows; rw [h0] at this; simp at this; omega,
          by rw [hE.ncols]; exact hE.rect⟩
      · exfalso
        simp [newTable, setName, he, Py.bind_def, cellsReset, h1, h2] at hc
        rw [if_neg (by omega), if_pos (by omega)] at hc
        simp at hc
    · exfalso
      simp [newTable, setName, he, Py.bind_def, cellsReset, h1] at hc
      rw [if_pos (by omega)] at hc
      simp at hc

/-- **C08** for created tables. -/
theorem C08_created (id : Nat) {nm : Str} {size : Int × Int} {s s' : TState}
    (hc : newTable id nm size = (s, .ok ())) (hist : Hist s s') : Shows s' :=
  C08_bookkeeping (created_inStep id hc).inv hist

/-- Created tables exist for every usable name and size, and histories with many kinds of calls too. -/
example : ∃ s s', newTable 0 "t".toList (3, 2) = (s, .ok ()) ∧ Hist s s' ∧
    nrows s' = 4 ∧ (docRows s'.kids).length = 4 ∧ (docCols s'.kids).length = 3 := by
  refine ⟨(newTable 0 "t".toList (3, 2)).1, _, by decide +kernel, .call (.deleteRows 4 3) trivial (.call (.insertColumns (-1) 1) trivial
    (.call (.insertRows 1 3) trivial (.refl _))), ?_⟩
  decide +kernel

/-! ## C09, C19 -/

theorem rowsRel_rect {Q : Forest → Forest → Prop} {a b : List Tree} (h : RowsRel Q a b) {w w' : Nat}
    (hq : ∀ k k', Q k k' → k.length = w → k'.length = w') (hr : Rect w a) : Rect w' b := by
  unfold RowsRel Rect at *
  induction h with
  | nil => simp
  | cons h1 _ ih =>
    intro t ht
    rcases List.mem_cons.mp ht with rfl | ht
    · exact hq _ _ h1.2 (hr _ (by simp))
    · exact ih (fun u hu => hr u (by simp [hu])) t ht

/-- One successful call keeps rectangular tables rectangular. -/
theorem step_rect {s : TState} (h : Inv s) (op : Op) (hf : Fine op s) (hok : (run op s).2 = .ok ())
    {w : Nat} (hr : Rect w (rowsOf s)) : ∃ w', Rect w' (rowsOf (run op s).1) := by
  cases op with
  | appendRows n => exact ⟨w, ((appendRows_eff h n).ok hok).2.2 w hr⟩
  | insertRows i n => exact ⟨w, ((insertRows_eff h i n).ok hok).2.2 w hr⟩
  | deleteRows i n => exact ⟨w, ((deleteRows_eff h i n).ok hok).1.2.2 w hr⟩
  | appendColumns n =>
    exact ⟨w + n.toNat, rowsRel_rect ((appendColumns_eff h n).ok hok).1 (by unfold Longer; omega) hr⟩
  | insertColumns i n =>
    exact ⟨w + n.toNat, rowsRel_rect ((insertColumns_eff h i n).ok hok).1 (by unfold Longer; omega) hr⟩
  | deleteColumns i n =>
    exact ⟨w - n.toNat, rowsRel_rect ((deleteColumns_eff h i n).ok hok).1 (by unfold Shorter; omega) hr⟩
  | setCell p t => exact ⟨w, (tableSetCell_eff h p hf).shape.rect hr⟩
  | setSpan p sz => exact ⟨w, (setCellSpan_eff h p sz).shape.rect hr⟩
  | removeSpan p => exact ⟨w, (removeCellSpan_eff h p).shape.rect hr⟩
  | setName n => exact ⟨w, by show Rect w (rowsOf (setName _ s).1); rw [(setName_inv h _).2.1]; exact hr⟩
  | reset sz =>
    rcases hr' : reset sz s with ⟨s', r⟩
    have : (reset sz s).2 = .ok () := hok
    rw [hr'] at this; simp only at this; subst this
    exact ⟨sz.2.toNat, by show Rect _ (rowsOf (reset sz s).1); rw [hr']; exact (reset_ok hr').1.rect⟩
  | clear =>
    rcases hr' : clear s with ⟨s', r⟩
    have : (clear s).2 = .ok () := hok
    rw [hr'] at this; simp only at this; subst this
    exact ⟨_, by show Rect _ (rowsOf (clear s).1); rw [hr']; exact (reset_ok hr').1.rect⟩
  | editCell p a x k => exact ⟨w, (editCell_eff h p hf).shape.rect hr⟩
  | editRow i a => exact ⟨w, ((editRow_eff h i a).ok hok).2.2 w hr⟩
  | editColumn i a =>
    exact ⟨w, by show Rect w (rowsOf (editColumn i a s).1); rw [((editColumn_eff h i a).ok hok).2]; exact hr⟩

theorem hist_rect {s s' : TState} (h : Inv s) {w : Nat} (hr : Rect w (rowsOf s)) (hist : OkHist s s') :
    ∃ w', Rect w' (rowsOf s') := by
  induction hist with
  | refl => exact ⟨w, hr⟩
  | call op hf hok hist ih =>
    obtain ⟨w1, h1⟩ := ih
    exact step_rect (hist_inv h hist.hist) op hf hok h1

/-- **C09**: after any history of successful calls all rows have `ncols()` cells. -/
theorem C09_rectangular {s s' : TState} (h : Inv s)
    (hr : ∀ a ∈ docRows s.kids, ∀ b ∈ docRows s.kids, (cells a).length = (cells b).length)
    (hist : OkHist s s') :
    (∀ t ∈ docRows s'.kids, (cells t).length = ncols s') ∧ nrows s' = (docRows s'.kids).length := by
  have hrect : ∃ w, Rect w (rowsOf s) := by
    cases hs : rowsOf s with
    | nil => exact ⟨0, by simp [Rect]⟩
    | cons a l =>
      refine ⟨a.2.length, ?_⟩
      intro b hb
      rw [← hs, rowsOf_doc] at hb
      have ha : a ∈ docRows s.kids := by rw [← rowsOf_doc, hs]; simp
      have := hr b hb a ha
      simpa [cells] using this
  obtain ⟨w, hw⟩ := hrect
  obtain ⟨w', hw'⟩ := hist_rect h hw hist
  have hi := hist_inv h hist.hist
  refine ⟨?_, (shows_of_inv hi).nrows⟩
  intro t ht
  rw [← rowsOf_doc] at ht
  have hne : rowsOf s' ≠ [] := by intro h0; rw [h0] at ht; simp at ht
  rw [rect_ncols hi hw' hne, cells, length_toList]
  exact hw' t ht

theorem forall₂_ne_nil {α β : Type} {R : α → β → Prop} {a : List α} {b : List β}
    (h : List.Forall₂ R a b) (ha : a ≠ []) : b ≠ [] := by
  cases h with
  | nil => exact absurd rfl ha
  | cons _ _ => simp

theorem step_inStep {s : TState} (h : InStep s) (op : Op) (hf : Fine op s)
    (hok : (run op s).2 = .ok ()) : InStep (run op s).1 := by
  have hi := step_inv h.inv op hf
  have hpos : 0 < (rowsOf s).length := List.length_pos_iff.mpr h.ne
  cases op with
  | appendRows n =>
    obtain ⟨a, b, c⟩ := (appendRows_eff h.inv n).ok hok
    exact ⟨hi, fun h0 => by rw [show rowsOf (appendRows n s).1 = [] from h0] at a; simp at a; omega,
      by show Rect (colsOf (appendRows n s).1).length _; rw [b]; exact c _ h.rect⟩
  | insertRows i n =>
    obtain ⟨a, b, c⟩ := (insertRows_eff h.inv i n).ok hok
    exact ⟨hi, fun h0 => by rw [show rowsOf (insertRows i n s).1 = [] from h0] at a; simp at a; omega,
      by show Rect (colsOf (insertRows i n s).1).length _; rw [b]; exact c _ h.rect⟩
  | deleteRows i n =>
    obtain ⟨⟨a, b, c⟩, d, e⟩ := (deleteRows_eff h.inv i n).ok hok
    rw [nrows_eq h.inv] at e
    exact ⟨hi, fun h0 => by rw [show rowsOf (deleteRows i n s).1 = [] from h0] at a; simp at a; omega,
      by show Rect (colsOf (deleteRows i n s).1).length _; rw [b]; exact c _ h.rect⟩
  | appendColumns n =>
    obtain ⟨a, b⟩ := (appendColumns_eff h.inv n).ok hok
    exact ⟨hi, forall₂_ne_nil a h.ne, rowsRel_rect a
      (by unfold Longer; intro k k' h1 h2; show _ = (colsOf (appendColumns n s).1).length; omega) h.rect⟩
  | insertColumns i n =>
    obtain ⟨a, b⟩ := (insertColumns_eff h.inv i n).ok hok
    exact ⟨hi, forall₂_ne_nil a h.ne, rowsRel_rect a
      (by unfold Longer; intro k k' h1 h2; show _ = (colsOf (insertColumns i n s).1).length; omega) h.rect⟩
  | deleteColumns i n =>
    obtain ⟨a, b, _⟩ := (deleteColumns_eff h.inv i n).ok hok
    exact ⟨hi, forall₂_ne_nil a h.ne, rowsRel_rect a
      (by unfold Shorter; intro k k' h1 h2; show _ = (colsOf (deleteColumns i n s).1).length; omega) h.rect⟩
  | setCell p t =>
    have e := tableSetCell_eff h.inv p hf
    exact ⟨hi, forall₂_ne_nil e.shape h.ne,
      by show Rect (colsOf (tableSetCell p t s).1).length _; rw [e.cols]; exact e.shape.rect h.rect⟩
  | setSpan p sz =>
    have e := setCellSpan_eff h.inv p sz
    exact ⟨hi, forall₂_ne_nil e.shape h.ne,
      by show Rect (colsOf (setCellSpan p sz s).1).length _; rw [e.cols]; exact e.shape.rect h.rect⟩
  | removeSpan p =>
    have e := removeCellSpan_eff h.inv p
    exact ⟨hi, forall₂_ne_nil e.shape h.ne,
      by show Rect (colsOf (removeCellSpan p s).1).length _; rw [e.cols]; exact e.shape.rect h.rect⟩
  | setName n =>
    obtain ⟨_, b, c⟩ := setName_inv h.inv (some n)
    exact ⟨hi, by show rowsOf (setName (some n) s).1 ≠ []; rw [b]; exact h.ne,
      by show Rect (colsOf (setName (some n) s).1).length (rowsOf (setName (some n) s).1)
         rw [b, c]; exact h.rect⟩
  | reset sz =>
    rcases hr' : reset sz s with ⟨s', r⟩
    have : (reset sz s).2 = .ok () := hok
    rw [hr'] at this; simp only at this; subst this
    show InStep (reset sz s).1
    rw [hr']
    obtain ⟨e, h1, h2⟩ := reset_ok hr'
    exact ⟨e.inv, fun h0 => by have := e.nrows; rw [h0] at this; simp at this; omega,
      by rw [e.ncols]; exact e.rect⟩
  | clear =>
    rcases hr' : clear s with ⟨s', r⟩
    have : (clear s).2 = .ok () := hok
    rw [hr'] at this; simp only at this; subst this
    show InStep (clear s).1
    rw [hr']
    obtain ⟨e, h1, h2⟩ := reset_ok hr'
    exact ⟨e.inv, fun h0 => by have := e.nrows; rw [h0] at this; simp at this; omega,
      by rw [e.ncols]; exact e.rect⟩
  | editCell p a x k =>
    have e := editCell_eff (a := a) (x := x) h.inv p hf
    exact ⟨hi, forall₂_ne_nil e.shape h.ne,
      by show Rect (colsOf (editCell p a x k s).1).length _; rw [e.cols]; exact e.shape.rect h.rect⟩
  | editRow i a =>
    obtain ⟨b, c, d⟩ := (editRow_eff h.inv i a).ok hok
    exact ⟨hi, fun h0 => by rw [show rowsOf (editRow i a s).1 = [] from h0] at b; simp at b; omega,
      by show Rect (colsOf (editRow i a s).1).length _; rw [c]; exact d _ h.rect⟩
  | editColumn i a =>
    obtain ⟨b, c⟩ := (editColumn_eff h.inv i a).ok hok
    refine ⟨hi, ?_, ?_⟩
    · show rowsOf (editColumn i a s).1 ≠ []; rw [c]; exact h.ne
    · show Rect (colsOf (editColumn i a s).1).length (rowsOf (editColumn i a s).1)
      rw [b, c]; exact h.rect

theorem hist_inStep {s s' : TState} (h : InStep s) (hist : OkHist s s') : InStep s' := by
  induction hist with
  | refl => exact h
  | call op hf hok _ ih => exact step_inStep ih op hf hok

/-- **C19**: column infos stay in step with the columns of a created table. -/
theorem C19_column_infos (id : Nat) {nm : Str} {size : Int × Int} {s s' : TState}
    (hc : newTable id nm size = (s, .ok ())) (hist : OkHist s s') :
    (docCols s'.kids).length = ncols s' ∧
    (∀ j : Nat, j < ncols s' → ∃ t, (docCols s'.kids)[j]? = some t ∧ columnInfo s' j = .ok t) ∧
    0 < nrows s' ∧ ∀ t ∈ docRows s'.kids, (cells t).length = ncols s' := by
  have h := hist_inStep (created_inStep id hc) hist
  have hn := rect_ncols h.inv h.rect h.ne
  rw [← colsOf_doc, ← hn]
  refine ⟨rfl, ?_, ?_, ?_⟩
  · intro j hj
    rw [hn] at hj
    have : (colsOf s')[j]? = some (colsOf s')[j] := List.getElem?_eq_getElem hj
    refine ⟨_, this, (shows_of_inv h.inv).col j _ ?_⟩
    rw [← colsOf_doc]; exact this
  · rw [nrows_eq h.inv]; exact List.length_pos_iff.mpr h.ne
  · intro t ht
    rw [hn, cells, length_toList]
    exact h.rect t (by rw [rowsOf_doc]; exact ht)

/-! ## C10 -/

/-- What a row operation leaves alone. -/
structure RowsOnly (s s' : TState) : Prop where
  good : Inv s'
  cols : docCols s'.kids = docCols s.kids
  others : others s'.kids = others s.kids
  node : s'.node = s.node

theorem rowsOnly {s s' : TState} (i : Inv s') (c : colsOf s' = colsOf s) (r : SameRest s s') :
    RowsOnly s s' :=
  ⟨i, by rw [← colsOf_doc, ← colsOf_doc, c], by rw [← skel_others, ← skel_others, r.skel], r.node⟩

/-- **C10** append: `n` new empty rows of the current width at the end. -/
theorem C10_append_rows {s : TState} (h : Inv s) (hne : docRows s.kids ≠ []) {n : Int} (hn : 1 ≤ n) :
    ∃ s' news, appendRows n s = (s', .ok ()) ∧ (news.length : Int) = n ∧
      (∀ t ∈ news, EmptyRow (ncols s) t ∧ t.1.id ∉ ids s.kids) ∧
      docRows s'.kids = docRows s.kids ++ news ∧ RowsOnly s s' := by
  rw [← rowsOf_doc] at hne
  obtain ⟨s', news, e, i, l, em, r, c, sr⟩ := appendRow_repeat n.toNat h hne
  refine ⟨s', news, ?_, by rw [l]; omega, ?_, by rw [← rowsOf_doc, r, rowsOf_doc], rowsOnly i c sr⟩
  · unfold appendRows; rw [if_neg (by omega), e]
  · exact fun t ht => ⟨(em t ht).1, fresh_not_mem h.wf (em t ht).2⟩

/-- **C10** insert: `n` new empty rows directly before the row at index `i` (negative indices
count from the end). -/
theorem C10_insert_rows {s : TState} (h : Inv s) {i n : Int} {p : Nat}
    (hp : Denotes (docRows s.kids).length i p) (hn : 1 ≤ n) :
    ∃ s' news, insertRows i n s = (s', .ok ()) ∧ (news.length : Int) = n ∧
      (∀ t ∈ news, EmptyRow (ncols s) t ∧ t.1.id ∉ ids s.kids) ∧
      docRows s'.kids = (docRows s.kids).take p ++ (news ++ (docRows s.kids).drop p) ∧
      RowsOnly s s' := by
  rw [← rowsOf_doc, ← pyIdx_denotes] at hp
  obtain ⟨s', news, e, i, l, em, r, c, sr⟩ := insertRow_repeat n.toNat h hp
  refine ⟨s', news, ?_, by rw [l]; omega, ?_, by rw [← rowsOf_doc, r, rowsOf_doc], rowsOnly i c sr⟩
  · unfold insertRows; rw [if_neg (by omega), e]
  · exact fun t ht => ⟨(em t ht).1, fresh_not_mem h.wf (em t ht).2⟩

/-- **C10** delete: exactly rows `i … i+n-1` go. -/
theorem C10_delete_rows {s : TState} (h : Inv s) {i n : Int} {p : Nat}
    (hp : Denotes (docRows s.kids).length i p) (hn : 1 ≤ n) (hall : n < (docRows s.kids).length)
    (hend : p + n ≤ (docRows s.kids).length) :
    ∃ s', deleteRows i n s = (s', .ok ()) ∧
      docRows s'.kids = (docRows s.kids).take p ++ (docRows s.kids).drop (p + n.toNat) ∧
      RowsOnly s s' := by
  rw [← rowsOf_doc] at hp hall hend
  obtain ⟨s', e, i', r, c, sr⟩ := deleteRow_repeat n.toNat h (n := p) (by omega)
  refine ⟨s', ?_, by rw [← rowsOf_doc, r, rowsOf_doc], rowsOnly i' c sr⟩
  unfold deleteRows
  rw [nrows_eq h, if_neg (by omega), adjust_denotes hp, e]

/-- A table with 3 rows: hypotheses of C10 are met. -/
example : ∃ s, newTable 0 "t".toList (3, 2) = (s, .ok ()) ∧ Inv s ∧ docRows s.kids ≠ [] ∧
    Denotes (docRows s.kids).length (-2) 1 ∧ (1 : Nat) + (2 : Int) ≤ (docRows s.kids).length := by
  obtain ⟨s, e, hE, _⟩ := newTable_spec 0 (nm := "t".toList) (by decide) (n := 3) (w := 2) (by decide) (by decide)
  have hl := hE.nrows
  rw [rowsOf_doc] at hl
  refine ⟨s, e, hE.inv, ?_, ?_, ?_⟩
  · intro h0; rw [h0] at hl; simp at hl
  · rw [hl]; exact ⟨by decide, .inr (by decide)⟩
  · rw [hl]; decide

/-! ## C11 -/

/-- **C11** append columns. -/
theorem C11_append_columns {s : TState} (h : Inv s) (hne : docCols s.kids ≠ []) {n : Int} (hn : 1 ≤ n) :
    ∃ s' news, appendColumns n s = (s', .ok ()) ∧
      List.Forall₂ (fun t t' => t'.1 = t.1 ∧ ∃ nc : List Tree, (nc.length : Int) = n ∧
        (∀ c ∈ nc, EmptyCell c) ∧ cells t' = cells t ++ nc) (docRows s.kids) (docRows s'.kids) ∧
      (news.length : Int) = n ∧ (∀ t ∈ news, EmptyColumn t) ∧
      docCols s'.kids = docCols s.kids ++ news ∧ others s'.kids = others s.kids ∧ s'.node = s.node ∧
      Inv s' := by
  rw [← colsOf_doc] at hne
  obtain ⟨s1, e1, i1, q1, c1, sr1⟩ := cellsAppendColumns_spec h hn
  obtain ⟨s2, news, e2, i2, l2, em2, c2, r2, sr2⟩ := appendCol_repeat n.toNat i1 (by rw [c1]; exact hne)
  have sr := sr1.trans sr2
  refine ⟨s2, news, ?_, ?_, by omega, fun t ht => (em2 t ht).1, ?_, ?_, sr.node, i2⟩
  · unfold appendColumns
    rw [Py.bind_ok e1]
    unfold colsAppend; rw [if_neg (by omega), e2]
  · rw [← rowsOf_doc, ← rowsOf_doc, r2]
    refine List.Forall₂.imp ?_ q1
    rintro t t' ⟨h1, nc, h2, h3, h4⟩
    exact ⟨h1, nc, by omega, h3, h4⟩
  · rw [← colsOf_doc, ← colsOf_doc, c2, c1]
  · rw [← skel_others, ← skel_others, sr.skel]

/-- **C11** insert columns: `p` is the position denoted by the index among the cells, `q` among the
column infos (equal when they are in step). -/
theorem C11_insert_columns {s : TState} (h : Inv s) {i n : Int} {p q : Nat}
    (hrect : ∀ t ∈ docRows s.kids, (cells t).length = ncols s)
    (hp : Denotes (ncols s) i p) (hq : Denotes (docCols s.kids).length i q) (hn : 1 ≤ n) :
    ∃ s' news, insertColumns i n s = (s', .ok ()) ∧
      List.Forall₂ (fun t t' => t'.1 = t.1 ∧ ∃ nc : List Tree, (nc.length : Int) = n ∧
        (∀ c ∈ nc, EmptyCell c) ∧ cells t' = (cells t).take p ++ (nc ++ (cells t).drop p))
        (docRows s.kids) (docRows s'.kids) ∧
      (news.length : Int) = n ∧ (∀ t ∈ news, EmptyColumn t) ∧
      docCols s'.kids = (docCols s.kids).take q ++ (news ++ (docCols s.kids).drop q) ∧
      others s'.kids = others s.kids ∧ s'.node = s.node ∧ Inv s' := by
  rw [← colsOf_doc] at hq
  rw [← rowsOf_doc] at hrect
  obtain ⟨s1, e1, i1, q1, c1, sr1⟩ := cellsInsertColumns_spec h hn (adjust_denotes hp)
    (fun t ht => by have := hrect t ht; simp only [cells, length_toList] at this; have := hp.1; omega)
  have hq1 : pyIdx (colsOf s1).length (q : Int) = some q := pyIdx_nat (by rw [c1]; exact hq.1)
  obtain ⟨s2, news, e2, i2, l2, em2, c2, r2, sr2⟩ := insertCol_repeat n.toNat i1 hq1
  have sr := sr1.trans sr2
  refine ⟨s2, news, ?_, ?_, by omega, fun t ht => (em2 t ht).1, ?_, ?_, sr.node, i2⟩
  · unfold insertColumns
    rw [Py.bind_ok e1]
    unfold colsInsert
    have : s1.cols.length = (colsOf s).length := by rw [i1.cols, List.length_map, c1]
    rw [if_neg (by omega), this, adjust_denotes hq, e2]
  · rw [← rowsOf_doc, ← rowsOf_doc, r2]
    refine List.Forall₂.imp ?_ q1
    rintro t t' ⟨h1, nc, h2, h3, h4⟩
    exact ⟨h1, nc, by omega, h3, h4⟩
  · rw [← colsOf_doc, ← colsOf_doc, c2, c1]
  · rw [← skel_others, ← skel_others, sr.skel]

/-- **C11** delete columns. -/
theorem C11_delete_columns {s : TState} (h : Inv s) {i n : Int} {p q : Nat}
    (hrect : ∀ t ∈ docRows s.kids, (cells t).length = ncols s)
    (hp : Denotes (ncols s) i p) (hq : Denotes (docCols s.kids).length i q) (hn : 1 ≤ n)
    (hall : n < ncols s) (hend : p + n ≤ ncols s) (hendq : q + n ≤ (docCols s.kids).length) :
    ∃ s', deleteColumns i n s = (s', .ok ()) ∧
      List.Forall₂ (fun t t' => t'.1 = t.1 ∧
        cells t' = (cells t).take p ++ (cells t).drop (p + n.toNat)) (docRows s.kids) (docRows s'.kids) ∧
      docCols s'.kids = (docCols s.kids).take q ++ (docCols s.kids).drop (q + n.toNat) ∧
      others s'.kids = others s.kids ∧ s'.node = s.node ∧ Inv s' := by
  rw [← colsOf_doc] at hq hendq
  rw [← rowsOf_doc] at hrect
  obtain ⟨s1, e1, i1, q1, c1, sr1⟩ := cellsDeleteColumns_spec h hn hall (adjust_denotes hp)
    (fun t ht => by have := hrect t ht; simp only [cells, length_toList] at this; omega)
  obtain ⟨s2, e2, i2, c2, r2, sr2⟩ := deleteCol_repeat n.toNat i1 (n := q) (by rw [c1]; omega)
  have sr := sr1.trans sr2
  refine ⟨s2, ?_, ?_, ?_, ?_, sr.node, i2⟩
  · unfold deleteColumns
    rw [Py.bind_ok e1]
    unfold colsDelete
    have : s1.cols.length = (colsOf s).length := by rw [i1.cols, List.length_map, c1]
    rw [if_neg (by omega), this, adjust_denotes hq, e2]
  · rw [← rowsOf_doc, ← rowsOf_doc, r2]; exact q1
  · rw [← colsOf_doc, ← colsOf_doc, c2, c1]
  · rw [← skel_others, ← skel_others, sr.skel]

/-- Hypotheses of C11 are met by every created table that is wide enough. -/
example : ∃ s, newTable 0 "t".toList (2, 3) = (s, .ok ()) ∧ Inv s ∧ docCols s.kids ≠ [] ∧
    (∀ t ∈ docRows s.kids, (cells t).length = ncols s) ∧ Denotes (ncols s) (-3) 0 ∧
    Denotes (docCols s.kids).length (-3) 0 := by
  obtain ⟨s, e, hE, _⟩ := newTable_spec 0 (nm := "t".toList) (by decide) (n := 2) (w := 3) (by decide) (by decide)
  have h19 := C19_column_infos 0 e (.refl s)
  have hl := hE.ncols
  rw [colsOf_doc] at hl
  refine ⟨s, e, hE.inv, ?_, h19.2.2.2, ?_, ?_⟩
  · intro h0; rw [h0] at hl; simp at hl
  · rw [← h19.1, hl]; exact ⟨by decide, .inr (by decide)⟩
  · rw [hl]; exact ⟨by decide, .inr (by decide)⟩

/-! ## C12 -/

theorem cellAt_doc (s : TState) (i j : Nat) : cellAt s (i, j) = docCell s.kids i j := by
  unfold cellAt docCell; rw [rowsOf_doc]; rfl

/-- Position `(i, j)` given by possibly negative coordinates. -/
theorem locate_denotes {s : TState} (h : Inv s)
    (hrect : ∀ t ∈ docRows s.kids, (cells t).length = ncols s) {pos : Int × Int} {i j : Nat}
    (hi : Denotes (docRows s.kids).length pos.1 i) (hj : Denotes (ncols s) pos.2 j) :
    ∃ u t, (rowsOf s)[i]? = some u ∧ u.2.toList[j]? = some t ∧ locate s pos = .ok (u.1.id, j, t) := by
  rw [← rowsOf_doc] at hi hrect
  have ha : adjust s pos = ((i : Int), (j : Int)) := by
    unfold adjust
    rw [nrows_eq h, adjust_denotes hi, adjust_denotes hj]
  have hi1 := hi.1
  have hu := List.getElem?_eq_getElem hi.1
  have hl := hrect _ (List.getElem_mem hi.1)
  have hjl : j < (rowsOf s)[i].2.toList.length := by
    simp only [cells] at hl; rw [hl]; exact hj.1
  have ht := List.getElem?_eq_getElem hjl
  have hc : cellAt s (i, j) = some (rowsOf s)[i].2.toList[j] := by
    unfold cellAt; simp only [hu, Option.bind_some, ht]
  obtain ⟨u, h1, h2, h3⟩ := locate_nat h hc
  refine ⟨u, _, h1, h2, ?_⟩
  have ha' : adjust s ((i : Int), (j : Int)) = ((i : Int), (j : Int)) := by
    unfold adjust
    rw [if_neg (by simp only; omega), if_neg (by simp only; omega)]
  unfold locate at h3 ⊢
  rw [ha'] at h3
  rw [ha]; exact h3

/-- `get_cell` returns the cell of the tree at the addressed row and column. -/
theorem getCell_doc {s : TState} (h : Inv s)
    (hrect : ∀ t ∈ docRows s.kids, (cells t).length = ncols s) {pos : Int × Int} {i j : Nat}
    (hi : Denotes (docRows s.kids).length pos.1 i) (hj : Denotes (ncols s) pos.2 j) :
    ∃ t, docCell s.kids i j = some t ∧ getCell s pos = .ok t := by
  obtain ⟨u, t, h1, h2, h3⟩ := locate_denotes h hrect hi hj
  refine ⟨t, ?_, by unfold getCell; rw [h3]⟩
  rw [← cellAt_doc]; unfold cellAt; simp only [h1, Option.bind_some, h2]

/-- **C12**: assigning a cell that is not part of the table changes that cell only. -/
theorem C12_set_cell {s : TState} (h : Inv s)
    (hrect : ∀ t ∈ docRows s.kids, (cells t).length = ncols s) {pos : Int × Int} {i j : Nat}
    (hi : Denotes (docRows s.kids).length pos.1 i) (hj : Denotes (ncols s) pos.2 j)
    {c : Tree} (hc : c.1.tag = "table:table-cell" ∨ c.1.tag = "table:covered-table-cell")
    (hd : Detached s c) :
    ∃ s', tableSetCell pos c s = (s', .ok ()) ∧ getCell s' pos = .ok c ∧
      (∀ i' j', docCell s'.kids i' j' = if i' = i ∧ j' = j then some c else docCell s.kids i' j') ∧
      (docRows s'.kids).map (fun t => (t.1, (cells t).length)) =
        (docRows s.kids).map (fun t => (t.1, (cells t).length)) ∧
      docCols s'.kids = docCols s.kids ∧ others s'.kids = others s.kids ∧ s'.node = s.node ∧ Inv s' := by
  obtain ⟨u, t, h1, h2, h3⟩ := locate_denotes h hrect hi hj
  obtain ⟨s', e, a, b, d, cc, sr, _⟩ := setCell_spec h hd h1 h2 h3
  have hcell : ∀ i' j', docCell s'.kids i' j' = if i' = i ∧ j' = j then some c else docCell s.kids i' j' := by
    intro i' j'
    rw [← cellAt_doc, ← cellAt_doc, d]
    simp only [Prod.mk.injEq]
  have hmap : (rowsOf s').map (fun t => (t.1, (cells t).length)) =
      (rowsOf s).map (fun t => (t.1, (cells t).length)) := by
    unfold SameShape RowsRel at b
    generalize rowsOf s = x at b
    generalize rowsOf s' = y at b
    induction b with
    | nil => rfl
    | cons hx _ ih => rw [List.map_cons, List.map_cons, ih]; congr 1; rw [hx.1, cells, cells, length_toList, length_toList]; exact congrArg _ hx.2
  have hn : ncols s' = ncols s := b.ncols h a
  have hrect' : ∀ t ∈ docRows s'.kids, (cells t).length = ncols s' := by
    intro t ht
    rw [← rowsOf_doc] at ht hrect
    have : (t.1, (cells t).length) ∈ (rowsOf s).map (fun t => (t.1, (cells t).length)) := by
      rw [← hmap]; exact List.mem_map_of_mem ht
    obtain ⟨v, hv, hve⟩ := List.mem_map.mp this
    have := hrect v hv
    simp only [Prod.mk.injEq] at hve
    rw [hn, ← hve.2, this]
  refine ⟨s', (if_pos hc).trans e, ?_, hcell, ?_, ?_, ?_, sr.node, a⟩
  · have hlen : (docRows s'.kids).length = (docRows s.kids).length := by
      rw [← rowsOf_doc, ← rowsOf_doc, b.length]
    obtain ⟨t', g1, g2⟩ := getCell_doc a hrect' (pos := pos) (i := i) (j := j)
      (by rw [hlen]; exact hi) (by rw [hn]; exact hj)
    rw [hcell, if_pos ⟨rfl, rfl⟩] at g1
    cases g1
    exact g2
  · rw [← rowsOf_doc, ← rowsOf_doc]; exact hmap
  · rw [← colsOf_doc, ← colsOf_doc, cc]
  · rw [← skel_others, ← skel_others, sr.skel]

/-! ## C18 -/

theorem columnLoop_ok {s : TState} (h : Inv s) {j : Int} {q : Nat} (rs : List Tree)
    (hsub : ∀ t ∈ rs, t ∈ rowsOf s ∧ Denotes t.2.length j q) :
    ∃ l, columnLoop s j (rs.map fun t => t.1.id) = .ok l ∧ l.length = rs.length ∧
      ∀ i : Nat, l[i]? = rs[i]?.bind fun t => (cells t)[q]? := by
  induction rs with
  | nil => exact ⟨[], rfl, rfl, by simp⟩
  | cons t rs ih =>
    obtain ⟨l, h1, h2, h3⟩ := ih (fun u hu => hsub u (by simp [hu]))
    obtain ⟨hm, hd⟩ := hsub t (by simp)
    obtain ⟨c, g1, g2⟩ := childAt_of (pyIdx_denotes.mpr hd)
    refine ⟨c :: l, ?_, by simp [h2], ?_⟩
    · simp only [List.map_cons, columnLoop, kidsOf_row h hm, g2, h1]
    · intro i
      cases i with
      | zero => simp [cells, g1]
      | succ i => simp [h3]

/-- **C18** `row(i)`, `column(j)` and `get_cell` show the same cell (also for negative indices). -/
theorem C18_views {s : TState} (h : Inv s)
    (hrect : ∀ t ∈ docRows s.kids, (cells t).length = ncols s) {i j : Int} {p q : Nat}
    (hi : Denotes (docRows s.kids).length i p) (hj : Denotes (ncols s) j q) :
    ∃ c r col, docCell s.kids p q = some c ∧ getCell s (i, j) = .ok c ∧
      row s i = .ok r ∧ r.length = ncols s ∧ r[q]? = some c ∧
      column s j = .ok col ∧ col.length = nrows s ∧ col[p]? = some c := by
  obtain ⟨c, h1, h2⟩ := getCell_doc h hrect (pos := (i, j)) hi hj
  have hc := h1
  unfold docCell at hc
  cases hu : (docRows s.kids)[p]? with
  | none => rw [hu] at hc; simp at hc
  | some u =>
    rw [hu, Option.bind_some] at hc
    have hum : u ∈ docRows s.kids := List.mem_of_getElem? hu
    have hr : row s i = .ok (cells u) := by
      rw [← rowsOf_doc] at hi hu
      obtain ⟨v, g1, g2⟩ := rowId_of h (pyIdx_denotes.mpr hi)
      rw [hu] at g1; cases g1
      unfold row
      rw [g2]
      simp only [kidsOf_row h (List.mem_of_getElem? hu)]; rfl
    obtain ⟨l, g1, g2, g3⟩ := columnLoop_ok h (rowsOf s) (j := j) (q := q) (by
      intro t ht
      refine ⟨ht, ?_⟩
      have := hrect t (by rw [← rowsOf_doc]; exact ht)
      simp only [cells, length_toList] at this
      rw [this]; exact hj)
    rw [← h.rows] at g1
    refine ⟨c, cells u, l, h1, h2, hr, hrect u hum, hc, g1, by rw [g2, nrows_eq h], ?_⟩
    rw [g3, rowsOf_doc, hu, Option.bind_some]; exact hc

theorem collectE_ok {α : Type} {f : Nat → Except Exc α} {g : Nat → α} (l : List Nat)
    (h : ∀ i ∈ l, f i = .ok (g i)) : collectE f l = .ok (l.map g) := by
  induction l with
  | nil => rfl
  | cons i l ih =>
    simp only [collectE, h i (by simp), ih (fun j hj => h j (by simp [hj])), List.map_cons]

theorem rowsView_eq {s : TState} (h : Inv s) : rowsView s = .ok ((docRows s.kids).map cells) := by
  unfold rowsView
  have : ∀ i ∈ List.range (nrows s), row s (i : Int) = .ok (((docRows s.kids).map cells)[i]?.getD []) := by
    intro i hi
    rw [List.mem_range, nrows_eq h, rowsOf_doc] at hi
    have ht := List.getElem?_eq_getElem hi
    rw [((shows_of_inv h).row i _ ht).2]
    simp [List.getElem?_map, ht]
  rw [collectE_ok _ this]
  congr 1
  apply List.ext_getElem?
  intro i
  simp only [List.getElem?_map, List.getElem?_range]
  by_cases hi : i < (docRows s.kids).length
  · simp [nrows_eq h, rowsOf_doc, hi]
  · simp [nrows_eq h, rowsOf_doc, hi]
    

/-- **C18** `rows()`: all rows in document order. -/
theorem C18_rows {s : TState} (h : Inv s) : rowsView s = .ok ((docRows s.kids).map cells) := rowsView_eq h

/-- **C18** `columns()`: entry `(j, i)` is the cell in row `i`, column `j`. -/
theorem C18_columns {s : TState} (h : Inv s)
    (hrect : ∀ t ∈ docRows s.kids, (cells t).length = ncols s) :
    ∃ cs, columnsView s = .ok cs ∧ cs.length = ncols s ∧
      ∀ j col, cs[j]? = some col → col.length = nrows s ∧ ∀ i, col[i]? = docCell s.kids i j := by
  have key : ∀ j ∈ List.range (ncols s), ∃ l, column s (j : Int) = .ok l ∧ l.length = nrows s ∧
      ∀ i, l[i]? = docCell s.kids i j := by
    intro j hj
    rw [List.mem_range] at hj
    obtain ⟨l, g1, g2, g3⟩ := columnLoop_ok h (rowsOf s) (j := (j : Int)) (q := j) (by
      intro t ht
      refine ⟨ht, ?_⟩
      have := hrect t (by rw [← rowsOf_doc]; exact ht)
      simp only [cells, length_toList] at this
      rw [this]; exact ⟨hj, .inl rfl⟩)
    rw [← h.rows] at g1
    exact ⟨l, g1, by rw [g2, nrows_eq h], fun i => by rw [g3, rowsOf_doc]; rfl⟩
  let g : Nat → List Tree := fun j => match column s (j : Int) with | .ok l => l | .error _ => []
  have hg : ∀ j ∈ List.range (ncols s), column s (j : Int) = .ok (g j) := by
    intro j hj
    obtain ⟨l, h1, _⟩ := key j hj
    show _ = Except.ok (match column s (j : Int) with | .ok l => l | .error _ => [])
    rw [h1]
  refine ⟨_, by unfold columnsView; exact collectE_ok _ hg, by simp, ?_⟩
  intro j col hcol
  rw [List.getElem?_map] at hcol
  by_cases hj : j < ncols s
  · rw [List.getElem?_range hj] at hcol
    simp only [Option.map_some, Option.some.injEq] at hcol
    obtain ⟨l, h1, h2, h3⟩ := key j (List.mem_range.mpr hj)
    have := hg j (List.mem_range.mpr hj)
    rw [h1, hcol] at this
    cases this
    exact ⟨h2, h3⟩
  · rw [List.getElem?_eq_none (by simpa using hj)] at hcol
    simp at hcol

/-- Row-major list of positions and cells. -/
def rowMajor (rows : List (List Tree)) (start : Nat) : List ((Nat × Nat) × Tree) :=
  match rows with
  | [] => []
  | r :: rs => ((List.range r.length).zip r).map (fun (j, c) => ((start, j), c)) ++ rowMajor rs (start + 1)

theorem itercells_rowMajor (rs : List (List Tree)) (n : Nat) :
    ((rs.zipIdx n).flatMap fun (r, i) => r.zipIdx.map fun (c, j) => ((i, j), c)) = rowMajor rs n := by
  induction rs generalizing n with
  | nil => rfl
  | cons r rs ih =>
    simp only [List.zipIdx_cons, List.flatMap_cons, ih, rowMajor]
    congr 1
    apply List.ext_getElem?
    intro i
    simp only [List.zip, List.getElem?_map, List.getElem?_zipIdx, List.getElem?_zipWith]
    by_cases hi : i < r.length
    · simp [List.getElem?_eq_getElem hi, List.getElem?_range hi]
    · simp [hi]

/-- **C18** `itercells()` visits the cells in row-major order, each once with its position. -/
theorem C18_itercells {s : TState} (h : Inv s) :
    itercells s = .ok (rowMajor ((docRows s.kids).map cells) 0) := by
  unfold itercells
  rw [rowsView_eq h]
  simp only
  rw [itercells_rowMajor]

theorem rowMajor_mem (rows : List (List Tree)) (n : Nat) (i j : Nat) (c : Tree) :
    ((i, j), c) ∈ rowMajor rows n ↔ n ≤ i ∧ (rows[i - n]?.bind fun r => r[j]?) = some c := by
  induction rows generalizing n with
  | nil => simp [rowMajor]
  | cons r rs ih =>
    simp only [rowMajor, List.mem_append, ih, List.mem_map, Prod.exists, Prod.mk.injEq]
    constructor
    · rintro (⟨a, x, y, hab, ⟨rfl, rfl⟩, rfl⟩ | ⟨h1, h2⟩)
      · refine ⟨Nat.le_refl _, ?_⟩
        obtain ⟨k, hk⟩ := List.mem_iff_getElem?.mp hab
        rw [List.getElem?_zip_eq_some] at hk
        obtain ⟨hk1, hk2⟩ := hk
        have hl := (List.getElem?_eq_some_iff.mp hk1).1
        rw [List.length_range] at hl
        rw [List.getElem?_range hl] at hk1
        cases hk1
        simpa using hk2
      · refine ⟨by omega, ?_⟩
        rw [show i - n = (i - (n + 1)) + 1 by omega, List.getElem?_cons_succ]
        exact h2
    · rintro ⟨h1, h2⟩
      by_cases hi : i = n
      · left
        subst hi
        simp only [Nat.sub_self, List.getElem?_cons_zero, Option.bind_some] at h2
        refine ⟨j, c.1, c.2, ?_, ⟨rfl, rfl⟩, rfl⟩
        have hl := (List.getElem?_eq_some_iff.mp h2).1
        refine List.mem_iff_getElem?.mpr ⟨j, ?_⟩
        rw [List.getElem?_zip_eq_some]
        exact ⟨List.getElem?_range hl, h2⟩
      · right
        refine ⟨by omega, ?_⟩
        rw [show i - n = (i - (n + 1)) + 1 by omega, List.getElem?_cons_succ] at h2
        exact h2

/-- **C18** the pairs of `itercells()` are exactly the cells of the tree with their positions. -/
theorem C18_itercells_cells {s : TState} (h : Inv s) {l} (hl : itercells s = .ok l) (i j : Nat) (c : Tree) :
    ((i, j), c) ∈ l ↔ docCell s.kids i j = some c := by
  rw [C18_itercells h] at hl
  cases hl
  rw [rowMajor_mem]
  simp [docCell, List.getElem?_map, Option.bind_map, Function.comp_def]

/-! ## C13 -/

theorem adjustIdx {n : Nat} {i : Int} (h1 : -(n : Int) ≤ i) (h2 : i < 0) :
    pyIdx n i = pyIdx n (i + n) := by
  unfold pyIdx
  rw [if_neg (by omega), if_pos (by omega), if_pos (by omega), if_pos (by omega)]

theorem adjusted {n : Nat} {i : Int} (h1 : -(n : Int) ≤ i) (h2 : i < 0) :
    (if i + n < 0 then i + n + n else i + n) = (if i < 0 then i + n else i) := by
  rw [if_neg (by omega), if_pos h2]

/-- **C13** `row(-k)` -/
theorem C13_row (s : TState) {i : Int} (h1 : -(nrows s : Int) ≤ i) (h2 : i < 0) :
    row s i = row s (i + nrows s) ∧ rowElem s i = rowElem s (i + nrows s) := by
  have : rowId s i = rowId s (i + nrows s) := by
    unfold rowId; rw [show pyIdx s.rows.length i = _ from adjustIdx h1 h2]; rfl
  exact ⟨by unfold row; rw [this], by unfold rowElem; rw [this]⟩

/-- **C13** `column(-k)` -/
theorem C13_column {s : TState} (h : Inv s) (hrect : ∀ t ∈ docRows s.kids, (cells t).length = ncols s)
    {j : Int} (h1 : -(ncols s : Int) ≤ j) (h2 : j < 0) : column s j = column s (j + ncols s) := by
  unfold column
  rw [h.rows]
  have : ∀ rs : List Tree, (∀ t ∈ rs, t ∈ rowsOf s) →
      columnLoop s j (rs.map fun t => t.1.id) = columnLoop s (j + ncols s) (rs.map fun t => t.1.id) := by
    intro rs
    induction rs with
    | nil => intro _; rfl
    | cons t rs ih =>
      intro hs
      have hm := hs t (by simp)
      have hl := hrect t (by rw [← rowsOf_doc]; exact hm)
      simp only [cells, length_toList] at hl
      have hc : childAt t.2 j = childAt t.2 (j + ncols s) := by
        unfold childAt; rw [hl, adjustIdx h1 h2]
      simp only [List.map_cons, columnLoop, kidsOf_row h hm, hc, ih (fun u hu => hs u (by simp [hu]))]
  exact this _ (fun _ h => h)

/-- **C13** `column_info(-k)` -/
theorem C13_column_info (s : TState) {j : Int} (h1 : -(s.cols.length : Int) ≤ j) (h2 : j < 0) :
    columnInfo s j = columnInfo s (j + s.cols.length) := by
  unfold columnInfo colId; rw [adjustIdx h1 h2]

/-- Coordinates with negative indices replaced. -/
def fromEnd (s : TState) (pos : Int × Int) : Int × Int :=
  (if pos.1 < 0 then pos.1 + nrows s else pos.1, if pos.2 < 0 then pos.2 + ncols s else pos.2)

/-- **C13** `get_cell` and `set_cell` -/
theorem C13_cell (s : TState) {pos : Int × Int} (h1 : -(nrows s : Int) ≤ pos.1)
    (h2 : -(ncols s : Int) ≤ pos.2) (c : Tree) :
    getCell s pos = getCell s (fromEnd s pos) ∧
    tableSetCell pos c s = tableSetCell (fromEnd s pos) c s := by
  have ha : adjust s (fromEnd s pos) = adjust s pos := by
    unfold fromEnd adjust
    simp only [Prod.mk.injEq]
    constructor
    · split
      · rw [if_neg (by omega)]
      · rfl
    · split
      · rw [if_neg (by omega)]
      · rfl
  have hl : locate s (fromEnd s pos) = locate s pos := by unfold locate; rw [ha]
  constructor
  · unfold getCell; rw [hl]
  · unfold tableSetCell setCell; rw [hl]

/-- **C13** `delete_rows` -/
theorem C13_delete_rows (s : TState) {i n : Int} (h1 : -(nrows s : Int) ≤ i) (h2 : i < 0) :
    deleteRows i n s = deleteRows (i + nrows s) n s := by
  unfold deleteRows
  rw [adjusted h1 h2]

/-- **C13** `insert_columns`, column infos in step with the columns -/
theorem C13_insert_columns {s : TState} (h : Inv s) (hstep : s.cols.length = ncols s) {i n : Int}
    (h1 : -(ncols s : Int) ≤ i) (h2 : i < 0) :
    insertColumns i n s = insertColumns (i + ncols s) n s := by
  unfold insertColumns
  have e1 : cellsInsertColumns i n s = cellsInsertColumns (i + ncols s) n s := by
    unfold cellsInsertColumns; rw [adjusted h1 h2]
  rw [Py.bind_def, Py.bind_def, ← e1]
  have hc := (cellsInsertColumns_eff h i n).1
  rcases hr : cellsInsertColumns i n s with ⟨s', r⟩
  rw [hr] at e1
  unfold AllRows at hc
  rw [hr] at hc
  cases r with
  | error e => rfl
  | ok u =>
    have hl : s'.cols.length = ncols s := by
      rw [← hstep, hc.1.cols, h.cols, List.length_map, List.length_map, hc.2.1]
    show colsInsert i n s' = colsInsert (i + ncols s) n s'
    unfold colsInsert
    rw [hl, adjusted h1 h2]

/-- **C13** `delete_columns`, column infos in step with the columns -/
theorem C13_delete_columns {s : TState} (h : Inv s) (hstep : s.cols.length = ncols s) {i n : Int}
    (h1 : -(ncols s : Int) ≤ i) (h2 : i < 0) :
    deleteColumns i n s = deleteColumns (i + ncols s) n s := by
  unfold deleteColumns
  have e1 : cellsDeleteColumns i n s = cellsDeleteColumns (i + ncols s) n s := by
    unfold cellsDeleteColumns; rw [adjusted h1 h2]
  rw [Py.bind_def, Py.bind_def, ← e1]
  have hc := (cellsDeleteColumns_eff h i n).1
  rcases hr : cellsDeleteColumns i n s with ⟨s', r⟩
  rw [hr] at e1
  unfold AllRows at hc
  rw [hr] at hc
  cases r with
  | error e => rfl
  | ok u =>
    have hl : s'.cols.length = ncols s := by
      rw [← hstep, hc.1.cols, h.cols, List.length_map, List.length_map, hc.2.1]
    show colsDelete i n s' = colsDelete (i + ncols s) n s'
    unfold colsDelete
    rw [hl, adjusted h1 h2]

end Verif.Tbl
