import Verif.Proofs.Table
import Verif.Spec.Table
/-! Row and column operations on the list of rows and columns. -/
set_option linter.unusedSimpArgs false
namespace Verif.Tbl
open Verif Verif.Forest Verif.Cells Verif.TSpec

/-! ### new elements -/

@[simp] theorem length_newCells (id n : Nat) : (newCells id n).length = n := by
  induction n generalizing id with
  | zero => rfl
  | succ n ih => simp [newCells, Forest.length, ih]

theorem ids_newCells (id n : Nat) : ids (newCells id n) = List.range' id n := by
  induction n generalizing id with
  | zero => rfl
  | succ n ih => simp [newCells, ids, ih, newCell, List.range'_succ]

theorem sel_newCells (p : Elem → Bool) (hp : ∀ e : Elem, e.tag = cellTag → p e = false) (id n : Nat) :
    sel p (newCells id n) = [] := by
  induction n generalizing id with
  | zero => rfl
  | succ n ih => simp [newCells, sel, ih, newCell, hp _]

theorem cellTag_not_rc (e : Elem) (h : e.tag = cellTag) : isRC e = false := by
  unfold isRC isRow isCol; rw [h]; decide

theorem coveredTag_not_rc (e : Elem) (h : e.tag = coveredTag) : isRC e = false := by
  unfold isRC isRow isCol; rw [h]; decide

theorem ids_newRow (id w : Nat) : ids (single (newRow id w)) = List.range' id (w + 1) := by
  simp [single, newRow, ids, ids_newCells, List.range'_succ]

theorem emptyRow_newRow (id w : Nat) : EmptyRow w (newRow id w) := by
  refine ⟨rfl, rfl, rfl, rfl, by simp [newRow, TSpec.cells], ?_⟩
  have : ∀ id n, ∀ c ∈ (newCells id n).toList, EmptyCell c := by
    intro id n
    induction n generalizing id with
    | zero => simp [newCells]
    | succ n ih =>
      intro c hc
      simp only [newCells, toList_cons, List.mem_cons] at hc
      rcases hc with h | h
      · rw [h]; exact ⟨rfl, rfl, rfl, rfl, rfl⟩
      · exact ih _ c h
  exact this _ _

theorem sel_newRow (id w : Nat) : sel isRC (single (newRow id w)) = [newRow id w] ∧
    sel isRow (single (newRow id w)) = [newRow id w] ∧ sel isCol (single (newRow id w)) = [] := by
  have h1 := sel_newCells isRC cellTag_not_rc (id + 1) w
  have h2 := sel_newCells isRow (fun e h => by
    have := cellTag_not_rc e h; simp [isRC] at this; exact this.1) (id + 1) w
  have h3 := sel_newCells isCol (fun e h => by
    have := cellTag_not_rc e h; simp [isRC] at this; exact this.2) (id + 1) w
  have r : isRow { id := id, tag := rowTag } = true := by simp [isRow]
  have c : isCol { id := id, tag := rowTag } = false := by simp [isCol, rowTag, colTag]
  refine ⟨?_, ?_, ?_⟩ <;> simp [single, newRow, sel, h1, h2, h3, isRC, r, c]

theorem emptyColumn_newColumn (id : Nat) : EmptyColumn (newColumn id) := ⟨rfl, rfl, rfl, rfl, rfl⟩

theorem sel_newColumn (id : Nat) : sel isRC (single (newColumn id)) = [newColumn id] ∧
    sel isCol (single (newColumn id)) = [newColumn id] ∧ sel isRow (single (newColumn id)) = [] := by
  have r : isRow { id := id, tag := colTag } = false := by simp [isRow, rowTag, colTag]
  have c : isCol { id := id, tag := colTag } = true := by simp [isCol]
  refine ⟨?_, ?_, ?_⟩ <;> simp [single, newColumn, sel, isRC, r, c]

/-! ### frames -/

/-- What row and column operations leave alone. -/
structure SameRest (s s' : TState) : Prop where
  node : s'.node = s.node
  skel : skel s'.kids = skel s.kids
  fresh : s.fresh ≤ s'.fresh

theorem SameRest.refl (s : TState) : SameRest s s := ⟨rfl, rfl, Nat.le_refl _⟩
theorem SameRest.trans {a b c : TState} (h : SameRest a b) (g : SameRest b c) : SameRest a c :=
  ⟨g.node.trans h.node, g.skel.trans h.skel, Nat.le_trans h.fresh g.fresh⟩

theorem flat_of_row {F : Forest} {n : Nat} (hwf : WF F n) {t : Tree} (h : t ∈ sel isRow F) :
    t ∈ sel isRC F ∧ isRow t.1 = true ∧ sel isRC t.2 = [] := by
  have h1 := (mem_sel_ids h).1
  rw [sel_filter isRow_isRC] at h
  have h2 := (List.mem_filter.mp h).1
  exact ⟨h2, h1, hwf.flat t h2⟩

theorem flat_of_col {F : Forest} {n : Nat} (hwf : WF F n) {t : Tree} (h : t ∈ sel isCol F) :
    t ∈ sel isRC F ∧ isCol t.1 = true ∧ sel isRC t.2 = [] := by
  have h1 := (mem_sel_ids h).1
  rw [sel_filter isCol_isRC] at h
  have h2 := (List.mem_filter.mp h).1
  exact ⟨h2, h1, hwf.flat t h2⟩

theorem sel_rc_nil {F : Forest} (h : sel isRC F = []) : sel isRow F = [] ∧ sel isCol F = [] := by
  rw [sel_filter isRow_isRC, sel_filter isCol_isRC, h]; simp

theorem skel_single_rc {t : Tree} (h : isRC t.1 = true) : skel (single t) = .nil := by
  simp [single, skel, h]

theorem ids_sub {F : Forest} {n : Nat} (hwf : WF F n) {t : Tree} (ht : t ∈ sel isRC F) :
    (ids (single t)).Nodup ∧ ∀ i ∈ ids (single t), i ∈ ids F ∧ i < n := by
  obtain ⟨pre, post, A, B, h1, h2, h3⟩ := splice hwf ht
  have hn := hwf.nodup
  rw [h2] at hn
  refine ⟨(List.nodup_append.mp (List.nodup_append.mp hn).2.1).1, ?_⟩
  intro i hi
  have : i ∈ ids F := by rw [h2]; simp [hi]
  exact ⟨this, hwf.lt i this⟩

/-- Replacing a row by a forest of rows. -/
theorem rowStep {s : TState} (h : Inv s) {L R : List Tree} {t : Tree} (hr : rowsOf s = L ++ t :: R)
    (f : Elem → Forest → Forest) (rows' : List Nat) (fresh' : Nat) (hle : s.fresh ≤ fresh')
    (hnd : (ids (f t.1 t.2)).Nodup)
    (hids : ∀ i ∈ ids (f t.1 t.2), i < fresh' ∧ (i ∈ ids (single t) ∨ i ∉ ids s.kids))
    (hflat : ∀ u ∈ sel isRC (f t.1 t.2), sel isRC u.2 = [])
    (hcol : sel isCol (f t.1 t.2) = []) (hskel : skel (f t.1 t.2) = .nil)
    (hrows : rows' = (L ++ (sel isRow (f t.1 t.2) ++ R)).map fun t => t.1.id) :
    let s' : TState := { s with kids := s.kids.subst t.1.id f, rows := rows', fresh := fresh' }
    Inv s' ∧ rowsOf s' = L ++ (sel isRow (f t.1 t.2) ++ R) ∧ colsOf s' = colsOf s ∧ SameRest s s' := by
  intro s'
  have htr : t ∈ sel isRow s.kids := by unfold rowsOf at hr; rw [hr]; simp
  have ht := (flat_of_row h.wf htr).1
  have hs := splice_row h.wf hr f hcol
  obtain ⟨_, _, _, _, _, _, h3⟩ := splice h.wf ht
  refine ⟨⟨wf_subst h.wf hle ht f hnd hids hflat, ?_, ?_⟩, hs.1, hs.2, ⟨rfl, (h3 f).2.2 hskel, hle⟩⟩
  · show rows' = _
    rw [hrows, rowsOf, hs.1]
  · show s.cols = _
    rw [h.cols, colsOf, colsOf, hs.2]

/-- Replacing a column by a forest of columns. -/
theorem colStep {s : TState} (h : Inv s) {L R : List Tree} {t : Tree} (hr : colsOf s = L ++ t :: R)
    (f : Elem → Forest → Forest) (cols' : List Nat) (fresh' : Nat) (hle : s.fresh ≤ fresh')
    (hnd : (ids (f t.1 t.2)).Nodup)
    (hids : ∀ i ∈ ids (f t.1 t.2), i < fresh' ∧ (i ∈ ids (single t) ∨ i ∉ ids s.kids))
    (hflat : ∀ u ∈ sel isRC (f t.1 t.2), sel isRC u.2 = [])
    (hrow : sel isRow (f t.1 t.2) = []) (hskel : skel (f t.1 t.2) = .nil)
    (hcols : cols' = (L ++ (sel isCol (f t.1 t.2) ++ R)).map fun t => t.1.id) :
    let s' : TState := { s with kids := s.kids.subst t.1.id f, cols := cols', fresh := fresh' }
    Inv s' ∧ colsOf s' = L ++ (sel isCol (f t.1 t.2) ++ R) ∧ rowsOf s' = rowsOf s ∧ SameRest s s' := by
  intro s'
  have htr : t ∈ sel isCol s.kids := by unfold colsOf at hr; rw [hr]; simp
  have ht := (flat_of_col h.wf htr).1
  have hs := splice_col h.wf hr f hrow
  obtain ⟨_, _, _, _, _, _, h3⟩ := splice h.wf ht
  refine ⟨⟨wf_subst h.wf hle ht f hnd hids hflat, ?_, ?_⟩, hs.1, hs.2, ⟨rfl, (h3 f).2.2 hskel, hle⟩⟩
  · show s.rows = _
    rw [h.rows, rowsOf, rowsOf, hs.2]
  · show cols' = _
    rw [hcols, colsOf, hs.1]

/-! ### views through the caches -/

theorem find_row {s : TState} (h : Inv s) {t : Tree} (ht : t ∈ rowsOf s) :
    s.kids.find t.1.id = some t := find_of_mem_sel h.wf.nodup ht

theorem find_col {s : TState} (h : Inv s) {t : Tree} (ht : t ∈ colsOf s) :
    s.kids.find t.1.id = some t := find_of_mem_sel h.wf.nodup ht

theorem kidsOf_row {s : TState} (h : Inv s) {t : Tree} (ht : t ∈ rowsOf s) :
    kidsOf s t.1.id = t.2 := by simp [kidsOf, find_row h ht]

theorem nrows_eq {s : TState} (h : Inv s) : nrows s = (rowsOf s).length := by
  simp [nrows, h.rows]

theorem ncols_eq {s : TState} (h : Inv s) :
    ncols s = match rowsOf s with | [] => 0 | t :: _ => t.2.length := by
  unfold ncols
  rw [h.rows]
  cases hr : rowsOf s with
  | nil => rfl
  | cons t ts =>
    simp only [List.map_cons]
    rw [kidsOf_row h (by rw [hr]; simp)]

/-- `ncols` only looks at the first row. -/
theorem ncols_eq_of {s : TState} (h : Inv s) {t : Tree} {ts : List Tree} (hr : rowsOf s = t :: ts) :
    ncols s = t.2.length := by rw [ncols_eq h, hr]

theorem rowId_eq {s : TState} (h : Inv s) (i : Int) :
    rowId s i = match pyIdx (rowsOf s).length i with
      | none => .error .IndexError
      | some n => match (rowsOf s)[n]? with
        | some t => .ok t.1.id
        | none => .error .IndexError := by
  unfold rowId
  rw [h.rows]
  simp only [List.length_map, List.getElem?_map]
  cases pyIdx (rowsOf s).length i with
  | none => rfl
  | some n => cases h : (rowsOf s)[n]? <;> simp [h]

theorem pyIdx_lt {len : Nat} {i : Int} {n : Nat} (h : pyIdx len i = some n) : n < len := by
  unfold pyIdx at h
  split at h <;> split at h <;> simp at h <;> omega

theorem pyInsertPos_of_pyIdx {len : Nat} {i : Int} {n : Nat} (h : pyIdx len i = some n) :
    pyInsertPos len i = n := by
  unfold pyIdx at h
  unfold pyInsertPos
  split at h
  · rename_i h0
    rw [if_pos h0]
    split at h <;> simp at h; omega
  · rename_i h0
    rw [if_neg h0]
    split at h <;> simp at h; omega

theorem split_getElem {β : Type} {l : List β} {n : Nat} (h : n < l.length) :
    l = l.take n ++ l[n] :: l.drop (n + 1) := by
  have := (List.take_append_drop n l).symm
  rwa [List.drop_eq_getElem_cons h] at this

/-! ### one round of the row operations -/

theorem fresh_not_mem {F : Forest} {n : Nat} (hwf : WF F n) {i : Nat} (h : n ≤ i) : i ∉ ids F :=
  fun hi => by have := hwf.lt i hi; omega

/-- The forest of an old row or column element and new ones next to it. -/
theorem newNext_ok {s : TState} (h : Inv s) {t : Tree} (ht : t ∈ sel isRC s.kids) {new : Tree} {n : Nat}
    (hnew : ids (single new) = List.range' s.fresh n) (hrc : sel isRC (single new) = [new])
    (hnflat : sel isRC new.2 = []) :
    (∀ G, G = Forest.cons t.1 t.2 (single new) ∨ G = Forest.cons new.1 new.2 (single t) →
      (ids G).Nodup ∧
      (∀ i ∈ ids G, i < s.fresh + n ∧ (i ∈ ids (single t) ∨ i ∉ ids s.kids)) ∧
      (∀ u ∈ sel isRC G, sel isRC u.2 = []) ∧ skel G = .nil) := by
  obtain ⟨h1, h2⟩ := ids_sub h.wf ht
  have hp := (mem_sel_ids ht).1
  have hf := h.wf.flat t ht
  have hst : sel isRC (single t) = [t] := by simp [single, sel, hp, hf]
  have hpn : isRC new.1 = true := by
    have : new ∈ sel isRC (single new) := by rw [hrc]; simp
    exact (mem_sel_ids this).1
  have hdisj : ∀ i ∈ ids (single new), i ∉ ids s.kids ∧ i < s.fresh + n := by
    intro i hi
    rw [hnew, List.mem_range'_1] at hi
    exact ⟨fresh_not_mem h.wf hi.1, hi.2⟩
  have key : ∀ a b : Tree, ids (Forest.cons a.1 a.2 (single b)) = ids (single a) ++ ids (single b) ∧
      sel isRC (Forest.cons a.1 a.2 (single b)) = sel isRC (single a) ++ sel isRC (single b) ∧
      skel (Forest.cons a.1 a.2 (single b)) = skel (single a) ++ skel (single b) := by
    intro a b
    have : Forest.cons a.1 a.2 (single b) = single a ++ single b := by simp [single]
    rw [this]
    exact ⟨ids_append _ _, sel_append _ _ _, skel_append _ _⟩
  have hnn : (ids (single new)).Nodup := by rw [hnew]; exact List.nodup_range'
  rintro G (rfl | rfl)
  · obtain ⟨k1, k2, k3⟩ := key t new
    rw [k1, k2, k3, hst, hrc, skel_single_rc hp, skel_single_rc hpn]
    refine ⟨?_, ?_, ?_, rfl⟩
    · rw [List.nodup_append]
      refine ⟨h1, hnn, ?_⟩
      rintro i hi j hj rfl
      exact (hdisj i hj).1 (h2 i hi).1
    · intro i hi
      rcases List.mem_append.mp hi with hi | hi
      · exact ⟨by have := (h2 i hi).2; omega, .inl hi⟩
      · exact ⟨(hdisj i hi).2, .inr (hdisj i hi).1⟩
    · intro u hu
      simp at hu
      rcases hu with hu | hu <;> subst hu <;> assumption
  · obtain ⟨k1, k2, k3⟩ := key new t
    rw [k1, k2, k3, hst, hrc, skel_single_rc hp, skel_single_rc hpn]
    refine ⟨?_, ?_, ?_, rfl⟩
    · rw [List.nodup_append]
      refine ⟨hnn, h1, ?_⟩
      rintro i hi j hj rfl
      exact (hdisj i hi).1 (h2 i hj).1
    · intro i hi
      rcases List.mem_append.mp hi with hi | hi
      · exact ⟨(hdisj i hi).2, .inr (hdisj i hi).1⟩
      · exact ⟨by have := (h2 i hi).2; omega, .inl hi⟩
    · intro u hu
      simp at hu
      rcases hu with hu | hu <;> subst hu <;> assumption

theorem sel_pair (p : Elem → Bool) (a b : Tree) :
    sel p (Forest.cons a.1 a.2 (single b)) = sel p (single a) ++ sel p (single b) := by
  have : Forest.cons a.1 a.2 (single b) = single a ++ single b := by simp [single]
  rw [this, sel_append]

theorem sel_single_row {s : TState} (h : Inv s) {t : Tree} (ht : t ∈ rowsOf s) :
    sel isRow (single t) = [t] ∧ sel isCol (single t) = [] := by
  obtain ⟨_, h2, h3⟩ := flat_of_row h.wf ht
  have := sel_rc_nil h3
  simp [single, sel, h2, isRow_ne_isCol _ h2, this.1, this.2]

theorem sel_single_col {s : TState} (h : Inv s) {t : Tree} (ht : t ∈ colsOf s) :
    sel isCol (single t) = [t] ∧ sel isRow (single t) = [] := by
  obtain ⟨_, h2, h3⟩ := flat_of_col h.wf ht
  have := sel_rc_nil h3
  have hnr : isRow t.1 = false := by
    cases hx : isRow t.1 with
    | false => rfl
    | true => rw [isRow_ne_isCol _ hx] at h2; exact absurd h2 (by simp)
  simp [single, sel, h2, hnr, this.1, this.2]

theorem appendRow_spec {s : TState} (h : Inv s) {L : List Tree} {t : Tree} (hr : rowsOf s = L ++ [t]) :
    ∃ s' new, appendRow s = (s', .ok ()) ∧ Inv s' ∧ EmptyRow (ncols s) new ∧
      s.fresh ≤ new.1.id ∧
      rowsOf s' = rowsOf s ++ [new] ∧ colsOf s' = colsOf s ∧ SameRest s s' := by
  have htm : t ∈ rowsOf s := by rw [hr]; simp
  obtain ⟨n1, n2, n3⟩ := sel_newRow s.fresh (ncols s)
  obtain ⟨g1, g2, g3, g4⟩ := newNext_ok h (flat_of_row h.wf htm).1 (ids_newRow s.fresh (ncols s)) n1
    (sel_newCells isRC cellTag_not_rc _ _) _ (.inl rfl)
  have hs := sel_single_row h htm
  have hlast : s.rows.getLast? = some t.1.id := by rw [h.rows, hr]; simp
  have step := rowStep h hr (fun e k => .cons e k (single (newRow s.fresh (ncols s))))
    (s.rows ++ [s.fresh]) (s.fresh + (ncols s + 1)) (by omega) g1 g2 g3
    (by rw [sel_pair, hs.2, n3]; rfl) g4
    (by rw [sel_pair, hs.1, n2, h.rows, hr]; simp [newRow])
  refine ⟨_, newRow s.fresh (ncols s), ?_, step.1, emptyRow_newRow _ _, Nat.le_refl _, ?_, step.2.2⟩
  · unfold appendRow; rw [hlast]; rfl
  · rw [step.2.1, sel_pair, hs.1, n2, hr]; simp

theorem insertRow_spec {s : TState} (h : Inv s) {index : Int} {n : Nat}
    (hn : pyIdx (rowsOf s).length index = some n) :
    ∃ s' new, insertRow index s = (s', .ok ()) ∧ Inv s' ∧ EmptyRow (ncols s) new ∧
      s.fresh ≤ new.1.id ∧
      rowsOf s' = (rowsOf s).take n ++ new :: (rowsOf s).drop n ∧ colsOf s' = colsOf s ∧
      SameRest s s' := by
  have hlt := pyIdx_lt hn
  have hsplit := split_getElem hlt
  generalize ht : (rowsOf s)[n] = t at hsplit
  have htm : t ∈ rowsOf s := by rw [← ht]; exact List.getElem_mem hlt
  obtain ⟨n1, n2, n3⟩ := sel_newRow s.fresh (ncols s)
  obtain ⟨g1, g2, g3, g4⟩ := newNext_ok h (flat_of_row h.wf htm).1 (ids_newRow s.fresh (ncols s)) n1
    (sel_newCells isRC cellTag_not_rc _ _) _ (.inr rfl)
  have hs := sel_single_row h htm
  have hid : rowId s index = .ok t.1.id := by
    rw [rowId_eq h, hn]
    simp [List.getElem?_eq_getElem hlt, ht]
  have hpos : pyInsertPos s.rows.length index = n := by
    rw [h.rows, List.length_map]
    exact pyInsertPos_of_pyIdx hn
  have step := rowStep h hsplit
    (fun e k => .cons (newRow s.fresh (ncols s)).1 (newRow s.fresh (ncols s)).2 (.cons e k .nil))
    (pyInsert s.rows index s.fresh) (s.fresh + (ncols s + 1)) (by omega) g1 g2 g3
    (by
      have := sel_pair isCol (newRow s.fresh (ncols s)) t
      simp only [single] at this n3 hs
      rw [this, hs.2, n3]; rfl) g4
    (by
      have := sel_pair isRow (newRow s.fresh (ncols s)) t
      simp only [single] at this n2 hs
      rw [this, hs.1, n2, pyInsert, hpos, h.rows]
      simp only [List.map_append, List.map_cons, List.map_take, List.map_drop, List.cons_append,
        List.nil_append]
      rw [show (newRow s.fresh (ncols s)).1.id = s.fresh from rfl, ← List.map_drop,
        List.drop_eq_getElem_cons hlt]
      simp [ht, List.map_take])
  refine ⟨_, newRow s.fresh (ncols s), ?_, step.1, emptyRow_newRow _ _, Nat.le_refl _, ?_, step.2.2⟩
  · unfold insertRow; rw [hid]; rfl
  · rw [step.2.1]
    have := sel_pair isRow (newRow s.fresh (ncols s)) t
    simp only [single] at this n2 hs
    rw [this, hs.1, n2, List.drop_eq_getElem_cons hlt, ht]; simp

theorem deleteRow_spec {s : TState} (h : Inv s) {index : Int} {n : Nat}
    (hn : pyIdx (rowsOf s).length index = some n) :
    ∃ s', deleteRow index s = (s', .ok ()) ∧ Inv s' ∧
      rowsOf s' = (rowsOf s).take n ++ (rowsOf s).drop (n + 1) ∧ colsOf s' = colsOf s ∧
      SameRest s s' := by
  have hlt := pyIdx_lt hn
  have hsplit := split_getElem hlt
  generalize ht : (rowsOf s)[n] = t at hsplit
  have htm : t ∈ rowsOf s := by rw [← ht]; exact List.getElem_mem hlt
  have step := rowStep h hsplit (fun _ _ => .nil) (s.rows.eraseIdx n) s.fresh (Nat.le_refl _)
    (by simp [ids]) (by simp [ids]) (by simp [sel]) (by simp [sel]) rfl
    (by
      rw [h.rows, List.eraseIdx_eq_take_drop_succ]
      simp [sel, List.map_take, List.map_drop])
  refine ⟨_, ?_, step.1, by rw [step.2.1]; simp [sel], step.2.2⟩
  unfold deleteRow
  rw [h.rows, List.length_map, hn]
  simp only [List.getElem?_map, List.getElem?_eq_getElem hlt, Option.map_some, ht]

end Verif.Tbl
