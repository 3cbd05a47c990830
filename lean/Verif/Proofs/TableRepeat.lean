import Verif.Proofs.TableRows
/-! Repeated row and column operations. -/
set_option linter.unusedSimpArgs false
namespace Verif.Tbl
open Verif Verif.Forest Verif.Cells Verif.TSpec

theorem repeatPy_succ {σ : Type} {n : Nat} {m : Py σ Unit} {s s' : σ} (h : m s = (s', .ok ())) :
    repeatPy (n + 1) m s = repeatPy n m s' := by
  show (m >>= fun _ => repeatPy n m) s = _
  rw [Py.bind_ok h]

theorem repeatPy_succ_error {σ : Type} {n : Nat} {m : Py σ Unit} {s s' : σ} {e : Exc}
    (h : m s = (s', .error e)) : repeatPy (n + 1) m s = (s', .error e) := by
  show (m >>= fun _ => repeatPy n m) s = _
  rw [Py.bind_error h]

theorem forPy_cons {σ α : Type} {m : α → Py σ Unit} {x : α} {xs : List α} {s s' : σ}
    (h : m x s = (s', .ok ())) : forPy m (x :: xs) s = forPy m xs s' := by
  show (m x >>= fun _ => forPy m xs) s = _
  rw [Py.bind_ok h]

theorem forPy_cons_error {σ α : Type} {m : α → Py σ Unit} {x : α} {xs : List α} {s s' : σ} {e : Exc}
    (h : m x s = (s', .error e)) : forPy m (x :: xs) s = (s', .error e) := by
  show (m x >>= fun _ => forPy m xs) s = _
  rw [Py.bind_error h]

/-- All rows have `w` cells. -/
def Rect (w : Nat) (rows : List Tree) : Prop := ∀ t ∈ rows, t.2.length = w

theorem emptyRow_length {w : Nat} {t : Tree} (h : EmptyRow w t) : t.2.length = w := by
  have := h.2.2.2.2.1
  rwa [TSpec.cells, length_toList] at this

/-! ### list positions -/

/-- The position of the next round when one element was inserted before position `n`. -/
theorem pyIdx_succ {len : Nat} {i : Int} {n : Nat} (h : pyIdx len i = some n) :
    (0 ≤ i ∧ pyIdx (len + 1) i = some n) ∨ (i < 0 ∧ pyIdx (len + 1) i = some (n + 1)) := by
  unfold pyIdx at *
  by_cases h0 : 0 ≤ i
  · rw [if_pos h0] at h ⊢
    split at h <;> simp at h
    left
    exact ⟨h0, by rw [if_pos (by omega), h]⟩
  · rw [if_neg h0] at h ⊢
    split at h <;> simp at h
    right
    exact ⟨by omega, by rw [if_pos (by omega)]; congr 1; omega⟩

theorem insert_insert {β : Type} {R : List β} {n : Nat} (hn : n < R.length) {x : β} {m : Nat}
    (hm : m = n ∨ m = n + 1) (news : List β) :
    let R1 := R.take n ++ x :: R.drop n
    ∃ news', (news' = news ++ [x] ∨ news' = x :: news) ∧
      R1.take m ++ (news ++ R1.drop m) = R.take n ++ (news' ++ R.drop n) := by
  intro R1
  have hl : (R.take n).length = n := by simp; omega
  rcases hm with rfl | rfl
  · refine ⟨news ++ [x], .inl rfl, ?_⟩
    show (R.take m ++ x :: R.drop m).take m ++ (news ++ (R.take m ++ x :: R.drop m).drop m) = _
    rw [List.take_append, List.drop_append, hl]
    simp [List.take_take]
  · refine ⟨x :: news, .inr rfl, ?_⟩
    show (R.take n ++ x :: R.drop n).take (n+1) ++ (news ++ (R.take n ++ x :: R.drop n).drop (n+1)) = _
    rw [List.take_append, List.drop_append, hl]
    simp [List.take_take]
    have : (R.take n).drop (n+1) = [] := by simp; omega
    simp [this]
    omega

/-- `ncols` is unchanged when new rows of the same width appear. -/
theorem ncols_keep {s s' : TState} (h : Inv s) (h' : Inv s') {A : List Tree} {n : Nat}
    (hn : n < (rowsOf s).length)
    (hA : ∀ t ∈ A, EmptyRow (ncols s) t)
    (hr : rowsOf s' = (rowsOf s).take n ++ (A ++ (rowsOf s).drop n)) : ncols s' = ncols s := by
  rw [ncols_eq h', hr]
  cases n with
  | zero =>
    cases A with
    | nil =>
      simp only [List.take_zero, List.nil_append, List.drop_zero]
      rw [ncols_eq h]
    | cons a A => simp [emptyRow_length (hA a (by simp))]
  | succ n =>
    cases hR : rowsOf s with
    | nil => simp [hR] at hn
    | cons t ts =>
      simp only [List.take_succ_cons, List.cons_append]
      rw [ncols_eq_of h hR]

theorem insertRow_repeat {index : Int} : ∀ (k : Nat) {s : TState} (_ : Inv s) {n : Nat}
    (_ : pyIdx (rowsOf s).length index = some n),
    ∃ s' news, repeatPy k (insertRow index) s = (s', .ok ()) ∧ Inv s' ∧ news.length = k ∧
      (∀ t ∈ news, EmptyRow (ncols s) t ∧ s.fresh ≤ t.1.id) ∧
      rowsOf s' = (rowsOf s).take n ++ (news ++ (rowsOf s).drop n) ∧ colsOf s' = colsOf s ∧
      SameRest s s' := by
  intro k
  induction k with
  | zero =>
    intro s h n hn
    exact ⟨s, [], rfl, h, rfl, by simp, by simp, rfl, .refl s⟩
  | succ k ih =>
    intro s h n hn
    have hlt := pyIdx_lt hn
    obtain ⟨s1, new, e1, i1, em1, f1, r1, c1, sr1⟩ := insertRow_spec h hn
    have hlen : (rowsOf s1).length = (rowsOf s).length + 1 := by rw [r1]; simp; omega
    have hw : ncols s1 = ncols s :=
      ncols_keep h i1 (A := [new]) hlt (by simpa using em1) (by rw [r1]; rfl)
    obtain ⟨m, hm, hmn⟩ : ∃ m, pyIdx (rowsOf s1).length index = some m ∧ (m = n ∨ m = n + 1) := by
      rw [hlen]
      rcases pyIdx_succ hn with h | h
      · exact ⟨n, h.2, .inl rfl⟩
      · exact ⟨n + 1, h.2, .inr rfl⟩
    obtain ⟨s2, news, e2, i2, l2, em2, r2, c2, sr2⟩ := ih i1 hm
    obtain ⟨news', hnews, hl⟩ := insert_insert hlt (x := new) hmn news
    have hmem : ∀ t ∈ news', t = new ∨ t ∈ news := by
      intro t ht
      rcases hnews with rfl | rfl <;> simp at ht <;> tauto
    refine ⟨s2, news', by rw [repeatPy_succ e1, e2], i2, ?_, ?_, ?_, by rw [c2, c1], sr1.trans sr2⟩
    · rcases hnews with rfl | rfl <;> simp [l2]
    · intro t ht
      rcases hmem t ht with rfl | ht
      · exact ⟨em1, f1⟩
      · have := em2 t ht
        rw [hw] at this
        exact ⟨this.1, Nat.le_trans sr1.fresh this.2⟩
    · rw [r2, r1]; exact hl

theorem appendRow_repeat : ∀ (k : Nat) {s : TState} (_ : Inv s) (_ : rowsOf s ≠ []),
    ∃ s' news, repeatPy k appendRow s = (s', .ok ()) ∧ Inv s' ∧ news.length = k ∧
      (∀ t ∈ news, EmptyRow (ncols s) t ∧ s.fresh ≤ t.1.id) ∧
      rowsOf s' = rowsOf s ++ news ∧ colsOf s' = colsOf s ∧ SameRest s s' := by
  intro k
  induction k with
  | zero => intro s h _; exact ⟨s, [], rfl, h, rfl, by simp, by simp, rfl, .refl s⟩
  | succ k ih =>
    intro s h hne
    obtain ⟨s1, new, e1, i1, em1, f1, r1, c1, sr1⟩ :=
      appendRow_spec h (L := (rowsOf s).dropLast) (t := (rowsOf s).getLast hne)
        (List.dropLast_append_getLast hne).symm
    have hw : ncols s1 = ncols s := by
      cases hR : rowsOf s with
      | nil => exact absurd hR hne
      | cons t ts =>
        rw [ncols_eq_of h hR, ncols_eq_of i1 (t := t) (ts := ts ++ [new]) (by rw [r1, hR]; rfl)]
    obtain ⟨s2, news, e2, i2, l2, em2, r2, c2, sr2⟩ := ih i1 (by rw [r1]; simp)
    refine ⟨s2, new :: news, by rw [repeatPy_succ e1, e2], i2, by simp [l2], ?_,
      by rw [r2, r1]; simp, by rw [c2, c1], sr1.trans sr2⟩
    intro t ht
    rcases List.mem_cons.mp ht with rfl | ht
    · exact ⟨em1, f1⟩
    · have := em2 t ht
      rw [hw] at this
      exact ⟨this.1, Nat.le_trans sr1.fresh this.2⟩

/-- Deletion at a non-negative index: rounds that succeed. -/
theorem deleteRow_repeat : ∀ (k : Nat) {s : TState} (_ : Inv s) {n : Nat}
    (_ : n + k ≤ (rowsOf s).length),
    ∃ s', repeatPy k (deleteRow n) s = (s', .ok ()) ∧ Inv s' ∧
      rowsOf s' = (rowsOf s).take n ++ (rowsOf s).drop (n + k) ∧ colsOf s' = colsOf s ∧
      SameRest s s' := by
  intro k
  induction k with
  | zero => intro s h n _; exact ⟨s, rfl, h, by simp, rfl, .refl s⟩
  | succ k ih =>
    intro s h n hn
    have hi : pyIdx (rowsOf s).length (n : Int) = some n := by
      unfold pyIdx; rw [if_pos (by omega), if_pos (by simp; omega)]; simp
    obtain ⟨s1, e1, i1, r1, c1, sr1⟩ := deleteRow_spec h hi
    have hlt : (rowsOf s).length = (rowsOf s1).length + 1 := by rw [r1]; simp; omega
    obtain ⟨s2, e2, i2, r2, c2, sr2⟩ := ih i1 (n := n) (by omega)
    refine ⟨s2, by rw [repeatPy_succ e1, e2], i2, ?_, by rw [c2, c1], sr1.trans sr2⟩
    have hl : ((rowsOf s).take n).length = n := by simp; omega
    rw [r2, r1, List.take_append, List.drop_append, hl]
    have h1 : ((rowsOf s).take n).drop (n + k) = [] := by simp; omega
    rw [h1]
    simp only [List.nil_append, List.drop_drop, Nat.sub_self, List.take_zero, List.append_nil,
      List.take_take, Nat.min_self]
    congr 2
    omega

/-- Deletion at a non-negative index beyond the end: the rows from there on are gone. -/
theorem deleteRow_repeat_fail : ∀ (k : Nat) {s : TState} (_ : Inv s) {n : Nat}
    (_ : (rowsOf s).length < n + k) (_ : n ≤ (rowsOf s).length) (_ : 0 < k),
    ∃ s', repeatPy k (deleteRow n) s = (s', .error .IndexError) ∧ Inv s' ∧
      rowsOf s' = (rowsOf s).take n ∧ colsOf s' = colsOf s ∧ SameRest s s' := by
  intro k
  induction k with
  | zero => intro s h n _ _ h0; omega
  | succ k ih =>
    intro s h n hn hle _
    by_cases hlt : n < (rowsOf s).length
    · have hi : pyIdx (rowsOf s).length (n : Int) = some n := by
        unfold pyIdx; rw [if_pos (by omega), if_pos (by simp; omega)]; simp
      obtain ⟨s1, e1, i1, r1, c1, sr1⟩ := deleteRow_spec h hi
      have hl1 : (rowsOf s).length = (rowsOf s1).length + 1 := by rw [r1]; simp; omega
      obtain ⟨s2, e2, i2, r2, c2, sr2⟩ := ih i1 (n := n) (by omega) (by omega) (by omega)
      refine ⟨s2, by rw [repeatPy_succ e1, e2], i2, ?_, by rw [c2, c1], sr1.trans sr2⟩
      have hl : ((rowsOf s).take n).length = n := by simp; omega
      rw [r2, r1, List.take_append, hl]
      simp [List.take_take]
    · refine ⟨s, repeatPy_succ_error ?_, h, ?_, rfl, .refl s⟩
      · unfold deleteRow
        rw [h.rows, List.length_map]
        have : pyIdx (rowsOf s).length (n : Int) = none := by
          unfold pyIdx; rw [if_pos (by omega), if_neg (by simp; omega)]
        rw [this, ← h.rows]
      · rw [List.take_of_length_le (by omega)]

/-! ### columns -/

theorem ids_newColumn (id : Nat) : ids (single (newColumn id)) = List.range' id 1 := rfl

theorem colId_eq {s : TState} (h : Inv s) (i : Int) :
    colId s i = match pyIdx (colsOf s).length i with
      | none => .error .IndexError
      | some n => match (colsOf s)[n]? with
        | some t => .ok t.1.id
        | none => .error .IndexError := by
  unfold colId
  rw [h.cols]
  simp only [List.length_map, List.getElem?_map]
  cases pyIdx (colsOf s).length i with
  | none => rfl
  | some n => cases h : (colsOf s)[n]? <;> simp [h]

theorem appendCol_spec {s : TState} (h : Inv s) {L : List Tree} {t : Tree} (hr : colsOf s = L ++ [t]) :
    ∃ s' new, appendCol s = (s', .ok ()) ∧ Inv s' ∧ EmptyColumn new ∧ s.fresh ≤ new.1.id ∧
      colsOf s' = colsOf s ++ [new] ∧ rowsOf s' = rowsOf s ∧ SameRest s s' := by
  have htm : t ∈ colsOf s := by rw [hr]; simp
  obtain ⟨n1, n2, n3⟩ := sel_newColumn s.fresh
  obtain ⟨g1, g2, g3, g4⟩ := newNext_ok h (flat_of_col h.wf htm).1 (ids_newColumn s.fresh) n1
    rfl _ (.inl rfl)
  have hs := sel_single_col h htm
  have hlast : s.cols.getLast? = some t.1.id := by rw [h.cols, hr]; simp
  have step := colStep h hr (fun e k => .cons e k (single (newColumn s.fresh)))
    (s.cols ++ [s.fresh]) (s.fresh + 1) (by omega) g1 g2 g3
    (by rw [sel_pair, hs.2, n3]; rfl) g4
    (by rw [sel_pair, hs.1, n2, h.cols, hr]; simp [newColumn])
  refine ⟨_, newColumn s.fresh, ?_, step.1, emptyColumn_newColumn _, Nat.le_refl _, ?_, step.2.2⟩
  · unfold appendCol; rw [hlast]
  · rw [step.2.1, sel_pair, hs.1, n2, hr]; simp

theorem insertCol_spec {s : TState} (h : Inv s) {index : Int} {n : Nat}
    (hn : pyIdx (colsOf s).length index = some n) :
    ∃ s' new, insertCol index s = (s', .ok ()) ∧ Inv s' ∧ EmptyColumn new ∧
      s.fresh ≤ new.1.id ∧
      colsOf s' = (colsOf s).take n ++ new :: (colsOf s).drop n ∧ rowsOf s' = rowsOf s ∧
      SameRest s s' := by
  have hlt := pyIdx_lt hn
  have hsplit := split_getElem hlt
  generalize ht : (colsOf s)[n] = t at hsplit
  have htm : t ∈ colsOf s := by rw [← ht]; exact List.getElem_mem hlt
  obtain ⟨n1, n2, n3⟩ := sel_newColumn s.fresh
  obtain ⟨g1, g2, g3, g4⟩ := newNext_ok h (flat_of_col h.wf htm).1 (ids_newColumn s.fresh) n1
    rfl _ (.inr rfl)
  have hs := sel_single_col h htm
  have hid : colId s index = .ok t.1.id := by
    rw [colId_eq h, hn]
    simp [List.getElem?_eq_getElem hlt, ht]
  have hpos : pyInsertPos s.cols.length index = n := by
    rw [h.cols, List.length_map]
    exact pyInsertPos_of_pyIdx hn
  have step := colStep h hsplit
    (fun e k => .cons (newColumn s.fresh).1 (newColumn s.fresh).2 (.cons e k .nil))
    (pyInsert s.cols index s.fresh) (s.fresh + 1) (by omega) g1 g2 g3
    (by
      have := sel_pair isRow (newColumn s.fresh) t
      simp only [single] at this n3 hs
      rw [this, hs.2, n3]; rfl) g4
    (by
      have := sel_pair isCol (newColumn s.fresh) t
      simp only [single] at this n2 hs
      rw [this, hs.1, n2, pyInsert, hpos, h.cols]
      simp only [List.map_append, List.map_cons, List.map_take, List.map_drop, List.cons_append,
        List.nil_append]
      rw [show (newColumn s.fresh).1.id = s.fresh from rfl, ← List.map_drop,
        List.drop_eq_getElem_cons hlt]
      simp [ht, List.map_take])
  refine ⟨_, newColumn s.fresh, ?_, step.1, emptyColumn_newColumn _, Nat.le_refl _, ?_, step.2.2⟩
  · unfold insertCol; rw [hid]; rfl
  · rw [step.2.1]
    have := sel_pair isCol (newColumn s.fresh) t
    simp only [single] at this n2 hs
    rw [this, hs.1, n2, List.drop_eq_getElem_cons hlt, ht]; simp

theorem deleteCol_spec {s : TState} (h : Inv s) {index : Int} {n : Nat}
    (hn : pyIdx (colsOf s).length index = some n) :
    ∃ s', deleteCol index s = (s', .ok ()) ∧ Inv s' ∧
      colsOf s' = (colsOf s).take n ++ (colsOf s).drop (n + 1) ∧ rowsOf s' = rowsOf s ∧
      SameRest s s' := by
  have hlt := pyIdx_lt hn
  have hsplit := split_getElem hlt
  generalize ht : (colsOf s)[n] = t at hsplit
  have htm : t ∈ colsOf s := by rw [← ht]; exact List.getElem_mem hlt
  have step := colStep h hsplit (fun _ _ => .nil) (s.cols.eraseIdx n) s.fresh (Nat.le_refl _)
    (by simp [ids]) (by simp [ids]) (by simp [sel]) (by simp [sel]) rfl
    (by
      rw [h.cols, List.eraseIdx_eq_take_drop_succ]
      simp [sel, List.map_take, List.map_drop])
  refine ⟨_, ?_, step.1, by rw [step.2.1]; simp [sel], step.2.2⟩
  unfold deleteCol
  rw [h.cols, List.length_map, hn]
  simp only [List.getElem?_map, List.getElem?_eq_getElem hlt, Option.map_some, ht]

theorem insertCol_repeat {index : Int} : ∀ (k : Nat) {s : TState} (_ : Inv s) {n : Nat}
    (_ : pyIdx (colsOf s).length index = some n),
    ∃ s' news, repeatPy k (insertCol index) s = (s', .ok ()) ∧ Inv s' ∧ news.length = k ∧
      (∀ t ∈ news, EmptyColumn t ∧ s.fresh ≤ t.1.id) ∧
      colsOf s' = (colsOf s).take n ++ (news ++ (colsOf s).drop n) ∧ rowsOf s' = rowsOf s ∧
      SameRest s s' := by
  intro k
  induction k with
  | zero =>
    intro s h n hn
    exact ⟨s, [], rfl, h, rfl, by simp, by simp, rfl, .refl s⟩
  | succ k ih =>
    intro s h n hn
    have hlt := pyIdx_lt hn
    obtain ⟨s1, new, e1, i1, em1, f1, r1, c1, sr1⟩ := insertCol_spec h hn
    have hlen : (colsOf s1).length = (colsOf s).length + 1 := by rw [r1]; simp; omega
    obtain ⟨m, hm, hmn⟩ : ∃ m, pyIdx (colsOf s1).length index = some m ∧ (m = n ∨ m = n + 1) := by
      rw [hlen]
      rcases pyIdx_succ hn with h | h
      · exact ⟨n, h.2, .inl rfl⟩
      · exact ⟨n + 1, h.2, .inr rfl⟩
    obtain ⟨s2, news, e2, i2, l2, em2, r2, c2, sr2⟩ := ih i1 hm
    obtain ⟨news', hnews, hl⟩ := insert_insert hlt (x := new) hmn news
    have hmem : ∀ t ∈ news', t = new ∨ t ∈ news := by
      intro t ht
      rcases hnews with rfl | rfl <;> simp at ht <;> tauto
    refine ⟨s2, news', by rw [repeatPy_succ e1, e2], i2, ?_, ?_, ?_, by rw [c2, c1], sr1.trans sr2⟩
    · rcases hnews with rfl | rfl <;> simp [l2]
    · intro t ht
      rcases hmem t ht with rfl | ht
      · exact ⟨em1, f1⟩
      · have := em2 t ht
        exact ⟨this.1, Nat.le_trans sr1.fresh this.2⟩
    · rw [r2, r1]; exact hl

theorem appendCol_repeat : ∀ (k : Nat) {s : TState} (_ : Inv s) (_ : colsOf s ≠ []),
    ∃ s' news, repeatPy k appendCol s = (s', .ok ()) ∧ Inv s' ∧ news.length = k ∧
      (∀ t ∈ news, EmptyColumn t ∧ s.fresh ≤ t.1.id) ∧
      colsOf s' = colsOf s ++ news ∧ rowsOf s' = rowsOf s ∧ SameRest s s' := by
  intro k
  induction k with
  | zero => intro s h _; exact ⟨s, [], rfl, h, rfl, by simp, by simp, rfl, .refl s⟩
  | succ k ih =>
    intro s h hne
    obtain ⟨s1, new, e1, i1, em1, f1, r1, c1, sr1⟩ :=
      appendCol_spec h (L := (colsOf s).dropLast) (t := (colsOf s).getLast hne)
        (List.dropLast_append_getLast hne).symm
    obtain ⟨s2, news, e2, i2, l2, em2, r2, c2, sr2⟩ := ih i1 (by rw [r1]; simp)
    refine ⟨s2, new :: news, by rw [repeatPy_succ e1, e2], i2, by simp [l2], ?_,
      by rw [r2, r1]; simp, by rw [c2, c1], sr1.trans sr2⟩
    intro t ht
    rcases List.mem_cons.mp ht with rfl | ht
    · exact ⟨em1, f1⟩
    · have := em2 t ht
      exact ⟨this.1, Nat.le_trans sr1.fresh this.2⟩

theorem deleteCol_repeat : ∀ (k : Nat) {s : TState} (_ : Inv s) {n : Nat}
    (_ : n + k ≤ (colsOf s).length),
    ∃ s', repeatPy k (deleteCol n) s = (s', .ok ()) ∧ Inv s' ∧
      colsOf s' = (colsOf s).take n ++ (colsOf s).drop (n + k) ∧ rowsOf s' = rowsOf s ∧
      SameRest s s' := by
  intro k
  induction k with
  | zero => intro s h n _; exact ⟨s, rfl, h, by simp, rfl, .refl s⟩
  | succ k ih =>
    intro s h n hn
    have hi : pyIdx (colsOf s).length (n : Int) = some n := by
      unfold pyIdx; rw [if_pos (by omega), if_pos (by simp; omega)]; simp
    obtain ⟨s1, e1, i1, r1, c1, sr1⟩ := deleteCol_spec h hi
    have hlt : (colsOf s).length = (colsOf s1).length + 1 := by rw [r1]; simp; omega
    obtain ⟨s2, e2, i2, r2, c2, sr2⟩ := ih i1 (n := n) (by omega)
    refine ⟨s2, by rw [repeatPy_succ e1, e2], i2, ?_, by rw [c2, c1], sr1.trans sr2⟩
    have hl : ((colsOf s).take n).length = n := by simp; omega
    rw [r2, r1, List.take_append, List.drop_append, hl]
    have h1 : ((colsOf s).take n).drop (n + k) = [] := by simp; omega
    rw [h1]
    simp only [List.nil_append, List.drop_drop, Nat.sub_self, List.take_zero, List.append_nil,
      List.take_take, Nat.min_self]
    congr 2
    omega

end Verif.Tbl
