import Verif.Proofs.TableReset
/-! Effects of table operations whether or not they raise. -/
set_option linter.unusedSimpArgs false
namespace Verif.Tbl
open Verif Verif.Forest Verif.Cells Verif.TSpec

theorem forPy_cons_eq {σ α : Type} (m : α → Py σ Unit) (x : α) (xs : List α) (s : σ) :
    forPy m (x :: xs) s = match m x s with
      | (s', .ok _) => forPy m xs s'
      | (s', .error e) => (s', .error e) := by
  show (m x >>= fun _ => forPy m xs) s = _
  rw [Py.bind_def]
  rcases hm : m x s with ⟨_, _ | _⟩ <;> rfl

theorem repeatPy_succ_eq {σ : Type} (n : Nat) (m : Py σ Unit) (s : σ) :
    repeatPy (n + 1) m s = match m s with
      | (s', .ok _) => repeatPy n m s'
      | (s', .error e) => (s', .error e) := by
  show (m >>= fun _ => repeatPy n m) s = _
  rw [Py.bind_def]
  rcases hm : m s with ⟨_, _ | _⟩ <;> rfl

/-- A change inside one row, with a relation between old and new cells on success. -/
def RowEff (Q : Forest → Forest → Prop) (m : Py TState Unit) (s : TState) (L : List Tree) (t : Tree)
    (R : List Tree) : Prop :=
  ∃ k', Inv (m s).1 ∧ rowsOf (m s).1 = L ++ (t.1, k') :: R ∧ colsOf (m s).1 = colsOf s ∧
    SameRest s (m s).1 ∧ ((m s).2 = .ok () → Q t.2 k')

theorem repeatRow_gen {m : Py TState Unit} {id : Nat} {Q : Nat → Forest → Forest → Prop}
    (h0 : ∀ k, Q 0 k k)
    (hm : ∀ s, Inv s → ∀ L t R, t.1.id = id → rowsOf s = L ++ t :: R →
      RowEff (fun k k' => ∀ n k0, Q n k' k0 → Q (n + 1) k k0) m s L t R) :
    ∀ n s, Inv s → ∀ L t R, t.1.id = id → rowsOf s = L ++ t :: R →
      RowEff (Q n) (repeatPy n m) s L t R := by
  intro n
  induction n with
  | zero => intro s h L t R _ hr; exact ⟨t.2, h, hr, rfl, .refl s, fun _ => h0 _⟩
  | succ n ih =>
    intro s h L t R hid hr
    obtain ⟨k1, i1, r1, c1, sr1, q1⟩ := hm s h L t R hid hr
    unfold RowEff
    rw [repeatPy_succ_eq]
    rcases hms : m s with ⟨s1, r⟩
    rw [hms] at i1 r1 c1 sr1 q1
    cases r with
    | error e => exact ⟨k1, i1, r1, c1, sr1, fun h => by cases h⟩
    | ok u =>
      cases u
      obtain ⟨k2, i2, r2, c2, sr2, q2⟩ := ih s1 i1 L (t.1, k1) R hid r1
      exact ⟨k2, i2, r2, c2.trans c1, sr1.trans sr2, fun h => q1 rfl n k2 (q2 h)⟩

theorem forRows_gen {m : Nat → Py TState Unit} {Q : Forest → Forest → Prop}
    (hm : ∀ s, Inv s → ∀ L t R, rowsOf s = L ++ t :: R → RowEff Q (m t.1.id) s L t R) :
    ∀ (R : List Tree) (s : TState) (L : List Tree), Inv s → rowsOf s = L ++ R →
      ∃ R', Inv (forPy m (R.map fun t => t.1.id) s).1 ∧
        rowsOf (forPy m (R.map fun t => t.1.id) s).1 = L ++ R' ∧ R'.length = R.length ∧
        colsOf (forPy m (R.map fun t => t.1.id) s).1 = colsOf s ∧
        SameRest s (forPy m (R.map fun t => t.1.id) s).1 ∧
        ((forPy m (R.map fun t => t.1.id) s).2 = .ok () → RowsRel Q R R') := by
  intro R
  induction R with
  | nil => intro s L h hr; exact ⟨[], h, hr, rfl, rfl, .refl s, fun _ => .nil⟩
  | cons t R ih =>
    intro s L h hr
    obtain ⟨k1, i1, r1, c1, sr1, q1⟩ := hm s h L t R hr
    simp only [List.map_cons, forPy_cons_eq]
    rcases hms : m t.1.id s with ⟨s1, r⟩
    rw [hms] at i1 r1 c1 sr1 q1
    cases r with
    | error e => exact ⟨(t.1, k1) :: R, i1, r1, rfl, c1, sr1, fun h => by cases h⟩
    | ok u =>
      cases u
      obtain ⟨R', i2, r2, l2, c2, sr2, q2⟩ := ih s1 (L ++ [(t.1, k1)]) i1 (by rw [r1]; simp)
      exact ⟨(t.1, k1) :: R', i2, by rw [r2]; simp, by simp [l2], c2.trans c1, sr1.trans sr2,
        fun h => .cons ⟨rfl, q1 rfl⟩ (q2 h)⟩

def Longer (n : Nat) (k k' : Forest) : Prop := k'.length = k.length + n
def Shorter (n : Nat) (k k' : Forest) : Prop := k'.length + n = k.length

theorem insertAt_toList (k : Forest) (i : Int) (c : Tree) :
    ∃ n, n ≤ k.length ∧ (k.insertAt i c).toList = k.toList.take n ++ ([c] ++ k.toList.drop n) := by
  unfold insertAt Org.lxmlInsert
  rw [toList_ofList]
  cases hp : pyIdx k.toList.length i with
  | none => exact ⟨k.length, Nat.le_refl _, by
      rw [← length_toList, List.take_length, List.drop_length]; rfl⟩
  | some n =>
    have := pyIdx_lt hp
    rw [length_toList] at this
    exact ⟨n, by omega, rfl⟩

theorem insertCell_eff {s : TState} (h : Inv s) {L R : List Tree} {t : Tree}
    (hr : rowsOf s = L ++ t :: R) (index : Int) :
    RowEff (Longer 1) (insertCell index t.1.id) s L t R := by
  obtain ⟨n1, n2, n3⟩ := newCell_ok h
  obtain ⟨j, hj, hl⟩ := insertAt_toList t.2 index (newCell s.fresh)
  have step := cellStep h hr (fun k => k.insertAt index (newCell s.fresh)) (A := t.2.toList.take j)
    (O := []) (N := [newCell s.fresh]) (B := t.2.toList.drop j) (by simp) hl
    (s.fresh + 1) (by omega) n1 n2 n3
  refine ⟨_, step.1, step.2.1, step.2.2.1, step.2.2.2, fun _ => ?_⟩
  unfold Longer
  rw [← length_toList, hl, ← length_toList]
  simp; omega

theorem deleteCell_eff {s : TState} (h : Inv s) {L R : List Tree} {t : Tree}
    (hr : rowsOf s = L ++ t :: R) (index : Int) :
    RowEff (Shorter 1) (deleteCell index t.1.id) s L t R := by
  have htm : t ∈ rowsOf s := by rw [hr]; simp
  unfold RowEff deleteCell
  rw [kidsOf_row h htm]
  cases hp : pyIdx t.2.length index with
  | none => exact ⟨t.2, h, hr, rfl, .refl s, fun h => by cases h⟩
  | some j =>
    have hj := pyIdx_lt hp
    have hl : (t.2.eraseAt j).toList = t.2.toList.take j ++ t.2.toList.drop (j + 1) := by
      unfold eraseAt
      rw [toList_ofList, List.eraseIdx_eq_take_drop_succ]
    have hjl : j < t.2.toList.length := by simpa using hj
    have step := cellStep h hr (fun k => k.eraseAt j) (A := t.2.toList.take j)
      (O := [t.2.toList[j]]) (N := []) (B := t.2.toList.drop (j + 1))
      (by rw [List.singleton_append]; exact split_getElem hjl) hl s.fresh (Nat.le_refl _)
      (by simp [idsOfL]) (by simp [idsOfL]) rfl
    refine ⟨_, step.1, step.2.1, step.2.2.1, step.2.2.2, fun _ => ?_⟩
    unfold Shorter
    rw [← length_toList, hl, ← length_toList]
    simp; omega

theorem appendCell_eff {s : TState} (h : Inv s) {L R : List Tree} {t : Tree}
    (hr : rowsOf s = L ++ t :: R) : RowEff (Longer 1) (appendCell t.1.id) s L t R := by
  obtain ⟨s', k', e, i, ⟨c, _, hl⟩, r, cc, sr⟩ := appendCell_spec h hr
  unfold RowEff
  rw [e]
  refine ⟨k', i, r, cc, sr, fun _ => ?_⟩
  unfold Longer
  rw [← length_toList, hl, ← length_toList]; simp

/-- Effect of a loop over all rows. -/
def AllRows (Q : Forest → Forest → Prop) (m : Py TState Unit) (s : TState) : Prop :=
  Inv (m s).1 ∧ colsOf (m s).1 = colsOf s ∧ SameRest s (m s).1 ∧
    (rowsOf (m s).1).length = (rowsOf s).length ∧
    ((m s).2 = .ok () → RowsRel Q (rowsOf s) (rowsOf (m s).1))

theorem allRows_forPy {s : TState} (h : Inv s) {m : Nat → Py TState Unit} {Q : Forest → Forest → Prop}
    (hm : ∀ s, Inv s → ∀ L t R, rowsOf s = L ++ t :: R → RowEff Q (m t.1.id) s L t R) :
    AllRows Q (forPy m s.rows) s := by
  obtain ⟨R', a, b, b', c, d, e⟩ := forRows_gen hm (rowsOf s) s [] h rfl
  rw [← h.rows] at a b c d e
  refine ⟨a, c, d, by rw [b]; simpa using b', fun hh => ?_⟩
  have := e hh
  rw [b]; simpa using this

theorem longer_step : ∀ n k k' k0, Longer 1 k k' → Longer n k' k0 → Longer (n + 1) k k0 := by
  intro n k k' k0; unfold Longer; omega

theorem shorter_step : ∀ n k k' k0, Shorter 1 k k' → Shorter n k' k0 → Shorter (n + 1) k k0 := by
  intro n k k' k0; unfold Shorter; omega

theorem RowEff.mono {Q Q' : Forest → Forest → Prop} {m : Py TState Unit} {s : TState} {L R : List Tree}
    {t : Tree} (h : RowEff Q m s L t R) (hq : ∀ k k', Q k k' → Q' k k') : RowEff Q' m s L t R := by
  obtain ⟨k', a, b, c, d, e⟩ := h
  exact ⟨k', a, b, c, d, fun hh => hq _ _ (e hh)⟩

theorem cellsAppendColumns_eff {s : TState} (h : Inv s) (count : Int) :
    AllRows (Longer count.toNat) (cellsAppendColumns count) s ∧
    ((cellsAppendColumns count s).2 = .ok () → 1 ≤ count) := by
  unfold AllRows cellsAppendColumns
  by_cases hc : count < 1
  · simp only [if_pos hc]
    exact ⟨⟨h, trivial, .refl s, trivial, fun h => by cases h⟩, fun h => by cases h⟩
  · simp only [if_neg hc]
    refine ⟨allRows_forPy h ?_, fun _ => by omega⟩
    intro s h L t R hr
    refine repeatRow_gen (Q := Longer) (fun k => by simp [Longer]) ?_ count.toNat s h L t R rfl hr
    intro s h L u R hid hr
    rw [← hid]
    exact (appendCell_eff h hr).mono fun k k' hq n k0 => longer_step n k k' k0 hq

theorem cellsInsertColumns_eff {s : TState} (h : Inv s) (index count : Int) :
    AllRows (Longer count.toNat) (cellsInsertColumns index count) s ∧
    ((cellsInsertColumns index count s).2 = .ok () → 1 ≤ count) := by
  unfold AllRows cellsInsertColumns
  by_cases hc : count < 1
  · simp only [if_pos hc]
    exact ⟨⟨h, trivial, .refl s, trivial, fun h => by cases h⟩, fun h => by cases h⟩
  · simp only [if_neg hc]
    refine ⟨allRows_forPy h ?_, fun _ => by omega⟩
    intro s h L t R hr
    refine repeatRow_gen (Q := Longer) (fun k => by simp [Longer]) ?_ count.toNat s h L t R rfl hr
    intro s h L u R hid hr
    rw [← hid]
    exact (insertCell_eff h hr _).mono fun k k' hq n k0 => longer_step n k k' k0 hq

theorem cellsDeleteColumns_eff {s : TState} (h : Inv s) (index count : Int) :
    AllRows (Shorter count.toNat) (cellsDeleteColumns index count) s ∧
    ((cellsDeleteColumns index count s).2 = .ok () → 1 ≤ count ∧ count < ncols s) := by
  unfold AllRows cellsDeleteColumns
  by_cases hc : count < 1 ∨ count ≥ ncols s
  · simp only [if_pos hc]
    exact ⟨⟨h, trivial, .refl s, trivial, fun h => by cases h⟩, fun h => by cases h⟩
  · simp only [if_neg hc]
    refine ⟨allRows_forPy h ?_, fun _ => by omega⟩
    intro s h L t R hr
    refine repeatRow_gen (Q := Shorter) (fun k => by simp [Shorter]) ?_ count.toNat s h L t R rfl hr
    intro s h L u R hid hr
    rw [← hid]
    exact (deleteCell_eff h hr _).mono fun k k' hq n k0 => shorter_step n k k' k0 hq

/-! ### repeated rounds on the list of rows or columns -/

/-- Effect of one round on the number of rows and columns. -/
structure ListEff (P : TState → TState → Prop) (m : Py TState Unit) (s : TState) : Prop where
  inv : Inv (m s).1
  rest : SameRest s (m s).1
  ok : (m s).2 = .ok () → P s (m s).1

theorem repeat_eff {m : Py TState Unit} {P : Nat → TState → TState → Prop} (h0 : ∀ s, P 0 s s)
    (hP : ∀ n a b c, P 1 a b → P n b c → P (n + 1) a c)
    (hm : ∀ s, Inv s → ListEff (P 1) m s) : ∀ n s, Inv s → ListEff (P n) (repeatPy n m) s := by
  intro n
  induction n with
  | zero => intro s h; exact ⟨h, .refl s, fun _ => h0 s⟩
  | succ n ih =>
    intro s h
    obtain ⟨i1, r1, o1⟩ := hm s h
    rcases hms : m s with ⟨s1, r⟩
    rw [hms] at i1 r1 o1
    have e := repeatPy_succ_eq n m s
    rw [hms] at e
    cases r with
    | error e' =>
      simp only at e
      refine ⟨by rw [e]; exact i1, by rw [e]; exact r1, by rw [e]; intro h; cases h⟩
    | ok u =>
      cases u
      simp only at e
      obtain ⟨i2, r2, o2⟩ := ih s1 i1
      refine ⟨by rw [e]; exact i2, by rw [e]; exact r1.trans r2, ?_⟩
      rw [e]
      intro h
      exact hP n _ _ _ (o1 rfl) (o2 h)

/-- `n` more columns, same rows. -/
def MoreCols (n : Nat) (s s' : TState) : Prop :=
  (colsOf s').length = (colsOf s).length + n ∧ rowsOf s' = rowsOf s
def LessCols (n : Nat) (s s' : TState) : Prop :=
  (colsOf s').length + n = (colsOf s).length ∧ rowsOf s' = rowsOf s
/-- `n` more rows of the width of the first row. -/
def MoreRows (n : Nat) (s s' : TState) : Prop :=
  (rowsOf s').length = (rowsOf s).length + n ∧ colsOf s' = colsOf s ∧
  ∀ w, Rect w (rowsOf s) → Rect w (rowsOf s')
def LessRows (n : Nat) (s s' : TState) : Prop :=
  (rowsOf s').length + n = (rowsOf s).length ∧ colsOf s' = colsOf s ∧
  ∀ w, Rect w (rowsOf s) → Rect w (rowsOf s')

theorem eff_error {P : TState → TState → Prop} {m : Py TState Unit} {s : TState} (h : Inv s) {e : Exc}
    (he : m s = (s, .error e)) : ListEff P m s :=
  ⟨by rw [he]; exact h, by rw [he]; exact .refl s, by rw [he]; intro h; cases h⟩

theorem eff_ok {P : TState → TState → Prop} {m : Py TState Unit} {s s' : TState} (h : Inv s')
    (hr : SameRest s s') (he : m s = (s', .ok ())) (hP : P s s') : ListEff P m s :=
  ⟨by rw [he]; exact h, by rw [he]; exact hr, by rw [he]; exact fun _ => hP⟩

theorem rect_ncols {s : TState} (h : Inv s) {w : Nat} (hr : Rect w (rowsOf s)) (hne : rowsOf s ≠ []) :
    ncols s = w := by
  cases hs : rowsOf s with
  | nil => exact absurd hs hne
  | cons t ts => rw [ncols_eq_of h hs]; exact hr t (by rw [hs]; simp)

theorem appendRow_eff {s : TState} (h : Inv s) : ListEff (MoreRows 1) appendRow s := by
  by_cases hne : rowsOf s = []
  · apply eff_error h (e := .IndexError)
    unfold appendRow
    have : s.rows = [] := by rw [h.rows, hne]; rfl
    simp [this]
  · obtain ⟨s1, new, e1, i1, em1, f1, r1, c1, sr1⟩ :=
      appendRow_spec h (L := (rowsOf s).dropLast) (t := (rowsOf s).getLast hne)
        (List.dropLast_append_getLast hne).symm
    refine eff_ok i1 sr1 e1 ⟨by rw [r1]; simp, c1, ?_⟩
    intro w hw
    rw [r1]
    intro t ht
    rcases List.mem_append.mp ht with ht | ht
    · exact hw t ht
    · simp at ht; subst ht
      rw [emptyRow_length em1]; exact rect_ncols h hw hne

theorem insertRow_eff {s : TState} (h : Inv s) (index : Int) :
    ListEff (MoreRows 1) (insertRow index) s := by
  cases hp : pyIdx (rowsOf s).length index with
  | none =>
    apply eff_error h (e := .IndexError)
    unfold insertRow
    have : rowId s index = .error .IndexError := by rw [rowId_eq h, hp]
    simp only [this]
  | some n =>
    obtain ⟨s1, new, e1, i1, em1, f1, r1, c1, sr1⟩ := insertRow_spec h hp
    have hlt := pyIdx_lt hp
    refine eff_ok i1 sr1 e1 ⟨by rw [r1]; simp; omega, c1, ?_⟩
    have hne : rowsOf s ≠ [] := by intro h0; rw [h0] at hlt; simp at hlt
    intro w hw
    rw [r1]
    intro t ht
    rcases List.mem_append.mp ht with ht | ht
    · exact hw t (List.mem_of_mem_take ht)
    · rcases List.mem_cons.mp ht with rfl | ht
      · rw [emptyRow_length em1]; exact rect_ncols h hw hne
      · exact hw t (List.mem_of_mem_drop ht)

theorem deleteRow_eff {s : TState} (h : Inv s) (index : Int) :
    ListEff (LessRows 1) (deleteRow index) s := by
  cases hp : pyIdx (rowsOf s).length index with
  | none =>
    apply eff_error h (e := .IndexError)
    unfold deleteRow
    rw [h.rows, List.length_map, hp, ← h.rows]
  | some n =>
    obtain ⟨s1, e1, i1, r1, c1, sr1⟩ := deleteRow_spec h hp
    have hlt := pyIdx_lt hp
    refine eff_ok i1 sr1 e1 ⟨by rw [r1]; simp; omega, c1, ?_⟩
    intro w hw
    rw [r1]
    intro t ht
    rcases List.mem_append.mp ht with ht | ht
    · exact hw t (List.mem_of_mem_take ht)
    · exact hw t (List.mem_of_mem_drop ht)

theorem appendCol_eff {s : TState} (h : Inv s) : ListEff (MoreCols 1) appendCol s := by
  by_cases hne : colsOf s = []
  · apply eff_error h (e := .IndexError)
    unfold appendCol
    have : s.cols = [] := by rw [h.cols, hne]; rfl
    simp [this]
  · obtain ⟨s1, new, e1, i1, em1, f1, r1, c1, sr1⟩ :=
      appendCol_spec h (L := (colsOf s).dropLast) (t := (colsOf s).getLast hne)
        (List.dropLast_append_getLast hne).symm
    exact eff_ok i1 sr1 e1 ⟨by rw [r1]; simp, c1⟩

theorem insertCol_eff {s : TState} (h : Inv s) (index : Int) :
    ListEff (MoreCols 1) (insertCol index) s := by
  cases hp : pyIdx (colsOf s).length index with
  | none =>
    apply eff_error h (e := .IndexError)
    unfold insertCol
    have : colId s index = .error .IndexError := by rw [colId_eq h, hp]
    simp only [this]
  | some n =>
    obtain ⟨s1, new, e1, i1, em1, f1, r1, c1, sr1⟩ := insertCol_spec h hp
    have hlt := pyIdx_lt hp
    exact eff_ok i1 sr1 e1 ⟨by rw [r1]; simp; omega, c1⟩

theorem deleteCol_eff {s : TState} (h : Inv s) (index : Int) :
    ListEff (LessCols 1) (deleteCol index) s := by
  cases hp : pyIdx (colsOf s).length index with
  | none =>
    apply eff_error h (e := .IndexError)
    unfold deleteCol
    rw [h.cols, List.length_map, hp, ← h.cols]
  | some n =>
    obtain ⟨s1, e1, i1, r1, c1, sr1⟩ := deleteCol_spec h hp
    have hlt := pyIdx_lt hp
    exact eff_ok i1 sr1 e1 ⟨by rw [r1]; simp; omega, c1⟩

theorem moreRows_step : ∀ n a b c, MoreRows 1 a b → MoreRows n b c → MoreRows (n + 1) a c := by
  rintro n a b c ⟨h1, h2, h3⟩ ⟨g1, g2, g3⟩
  exact ⟨by omega, g2.trans h2, fun w hw => g3 w (h3 w hw)⟩

theorem lessRows_step : ∀ n a b c, LessRows 1 a b → LessRows n b c → LessRows (n + 1) a c := by
  rintro n a b c ⟨h1, h2, h3⟩ ⟨g1, g2, g3⟩
  exact ⟨by omega, g2.trans h2, fun w hw => g3 w (h3 w hw)⟩

theorem moreCols_step : ∀ n a b c, MoreCols 1 a b → MoreCols n b c → MoreCols (n + 1) a c := by
  rintro n a b c ⟨h1, h2⟩ ⟨g1, g2⟩
  exact ⟨by omega, g2.trans h2⟩

theorem lessCols_step : ∀ n a b c, LessCols 1 a b → LessCols n b c → LessCols (n + 1) a c := by
  rintro n a b c ⟨h1, h2⟩ ⟨g1, g2⟩
  exact ⟨by omega, g2.trans h2⟩

theorem appendRows_eff {s : TState} (h : Inv s) (count : Int) :
    ListEff (MoreRows count.toNat) (appendRows count) s := by
  unfold appendRows
  by_cases hc : count < 1
  · rw [if_pos hc]; exact eff_error h rfl
  · rw [if_neg hc]
    exact repeat_eff (fun s => ⟨rfl, rfl, fun _ h => h⟩) moreRows_step
      (fun s h => appendRow_eff h) _ s h

theorem insertRows_eff {s : TState} (h : Inv s) (index count : Int) :
    ListEff (MoreRows count.toNat) (insertRows index count) s := by
  unfold insertRows
  by_cases hc : count < 1
  · rw [if_pos hc]; exact eff_error h rfl
  · rw [if_neg hc]
    exact repeat_eff (fun s => ⟨rfl, rfl, fun _ h => h⟩) moreRows_step
      (fun s h => insertRow_eff h index) _ s h

theorem deleteRows_eff {s : TState} (h : Inv s) (index count : Int) :
    ListEff (fun s s' => LessRows count.toNat s s' ∧ 1 ≤ count ∧ count < nrows s)
      (deleteRows index count) s := by
  by_cases hc : count < 1 ∨ count ≥ nrows s
  · exact eff_error h (by unfold deleteRows; rw [if_pos hc])
  · have e : deleteRows index count s =
        repeatPy count.toNat (deleteRow (if index < 0 then index + nrows s else index)) s := by
      conv => lhs; unfold deleteRows
      rw [if_neg hc]
    obtain ⟨a, b, c⟩ := repeat_eff (P := LessRows) (fun s => ⟨rfl, rfl, fun _ h => h⟩) lessRows_step
      (fun s' h' => deleteRow_eff h' (if index < 0 then index + nrows s else index)) count.toNat s h
    refine ⟨by rw [e]; exact a, by rw [e]; exact b, ?_⟩
    rw [e]
    intro hh
    exact ⟨c hh, by omega, by omega⟩

theorem colsAppend_eff {s : TState} (h : Inv s) (count : Int) :
    ListEff (MoreCols count.toNat) (colsAppend count) s := by
  unfold colsAppend
  by_cases hc : count < 1
  · rw [if_pos hc]; exact eff_error h rfl
  · rw [if_neg hc]
    exact repeat_eff (fun s => ⟨rfl, rfl⟩) moreCols_step (fun s h => appendCol_eff h) _ s h

theorem colsInsert_eff {s : TState} (h : Inv s) (index count : Int) :
    ListEff (MoreCols count.toNat) (colsInsert index count) s := by
  by_cases hc : count < 1
  · exact eff_error h (by unfold colsInsert; rw [if_pos hc])
  · have e : colsInsert index count s =
        repeatPy count.toNat (insertCol (if index < 0 then index + s.cols.length else index)) s := by
      conv => lhs; unfold colsInsert
      rw [if_neg hc]
    obtain ⟨a, b, c⟩ := repeat_eff (P := MoreCols) (fun s => ⟨rfl, rfl⟩) moreCols_step
      (fun s' h' => insertCol_eff h' (if index < 0 then index + s.cols.length else index)) count.toNat s h
    exact ⟨by rw [e]; exact a, by rw [e]; exact b, by rw [e]; exact c⟩

theorem colsDelete_eff {s : TState} (h : Inv s) (index count : Int) :
    ListEff (LessCols count.toNat) (colsDelete index count) s := by
  by_cases hc : count < 1
  · exact eff_error h (by unfold colsDelete; rw [if_pos hc])
  · have e : colsDelete index count s =
        repeatPy count.toNat (deleteCol (if index < 0 then index + s.cols.length else index)) s := by
      conv => lhs; unfold colsDelete
      rw [if_neg hc]
    obtain ⟨a, b, c⟩ := repeat_eff (P := LessCols) (fun s => ⟨rfl, rfl⟩) lessCols_step
      (fun s' h' => deleteCol_eff h' (if index < 0 then index + s.cols.length else index)) count.toNat s h
    exact ⟨by rw [e]; exact a, by rw [e]; exact b, by rw [e]; exact c⟩

/-- A change of all rows and of the column infos. -/
theorem both_eff {m1 m2 : Py TState Unit} {Q : Forest → Forest → Prop}
    {P : TState → TState → Prop} {s : TState} (h1 : AllRows Q m1 s)
    (h2 : ∀ s, Inv s → ListEff P m2 s) :
    ListEff (fun s s' => ∃ s1, RowsRel Q (rowsOf s) (rowsOf s1) ∧ colsOf s1 = colsOf s ∧ P s1 s' ∧
      (m1 s).2 = .ok ())
      (m1 >>= fun _ => m2) s := by
  obtain ⟨i1, c1, sr1, _, q1⟩ := h1
  rcases hms : m1 s with ⟨s1, r⟩
  rw [hms] at i1 c1 sr1 q1
  cases r with
  | error e =>
    have e1 := Py.bind_error (f := fun _ => m2) hms
    exact ⟨by rw [e1]; exact i1, by rw [e1]; exact sr1, by rw [e1]; intro h; cases h⟩
  | ok u =>
    cases u
    have e1 := Py.bind_ok (f := fun _ => m2) hms
    obtain ⟨i2, sr2, o2⟩ := h2 s1 i1
    refine ⟨by rw [e1]; exact i2, by rw [e1]; exact sr1.trans sr2, ?_⟩
    rw [e1]
    intro hh
    exact ⟨s1, q1 rfl, c1, o2 hh, by rw [hms]⟩

theorem appendColumns_eff {s : TState} (h : Inv s) (count : Int) :
    ListEff (fun s s' => RowsRel (Longer count.toNat) (rowsOf s) (rowsOf s') ∧
      (colsOf s').length = (colsOf s).length + count.toNat) (appendColumns count) s := by
  obtain ⟨a, b, c⟩ := both_eff (cellsAppendColumns_eff h count).1 (fun s h => colsAppend_eff h count)
  refine ⟨a, b, fun hh => ?_⟩
  obtain ⟨s1, q, cc, ⟨p1, p2⟩, _⟩ := c hh
  exact ⟨(congrArg (RowsRel _ (rowsOf s)) p2).mpr q, p1.trans (by rw [cc])⟩

theorem insertColumns_eff {s : TState} (h : Inv s) (index count : Int) :
    ListEff (fun s s' => RowsRel (Longer count.toNat) (rowsOf s) (rowsOf s') ∧
      (colsOf s').length = (colsOf s).length + count.toNat) (insertColumns index count) s := by
  obtain ⟨a, b, c⟩ := both_eff (cellsInsertColumns_eff h index count).1
    (fun s h => colsInsert_eff h index count)
  refine ⟨a, b, fun hh => ?_⟩
  obtain ⟨s1, q, cc, ⟨p1, p2⟩, _⟩ := c hh
  exact ⟨(congrArg (RowsRel _ (rowsOf s)) p2).mpr q, p1.trans (by rw [cc])⟩

theorem deleteColumns_eff {s : TState} (h : Inv s) (index count : Int) :
    ListEff (fun s s' => RowsRel (Shorter count.toNat) (rowsOf s) (rowsOf s') ∧
      (colsOf s').length + count.toNat = (colsOf s).length ∧ 1 ≤ count ∧ count < ncols s)
      (deleteColumns index count) s := by
  obtain ⟨a, b, c⟩ := both_eff (cellsDeleteColumns_eff h index count).1
    (fun s h => colsDelete_eff h index count)
  refine ⟨a, b, fun hh => ?_⟩
  obtain ⟨s1, q, cc, ⟨p1, p2⟩, hm⟩ := c hh
  exact ⟨(congrArg (RowsRel _ (rowsOf s)) p2).mpr q, by rw [← cc]; exact p1, (cellsDeleteColumns_eff h index count).2 hm⟩

/-! ### cells and spans -/

/-- Effect on cells only. -/
structure CellEff (m : Py TState Unit) (s : TState) : Prop where
  inv : Inv (m s).1
  shape : SameShape s (m s).1
  cols : colsOf (m s).1 = colsOf s
  rest : SameRest s (m s).1
  rows : (m s).1.rows = s.rows

theorem cellEff_self {m : Py TState Unit} {s : TState} (h : Inv s) {e} (he : m s = (s, e)) :
    CellEff m s :=
  ⟨by rw [he]; exact h, by rw [he]; exact .refl s, by rw [he], by rw [he]; exact .refl s, by rw [he]⟩

theorem cellEff_bind {m1 m2 : Py TState Unit} {s : TState} (h1 : CellEff m1 s)
    (h2 : ∀ s, Inv s → CellEff m2 s) : CellEff (m1 >>= fun _ => m2) s := by
  obtain ⟨a, b, c, d, f⟩ := h1
  rcases hms : m1 s with ⟨s1, r⟩
  rw [hms] at a b c d f
  cases r with
  | error e =>
    have e1 := Py.bind_error (f := fun _ => m2) hms
    exact ⟨by rw [e1]; exact a, by rw [e1]; exact b, by rw [e1]; exact c, by rw [e1]; exact d,
      by rw [e1]; exact f⟩
  | ok u =>
    cases u
    have e1 := Py.bind_ok (f := fun _ => m2) hms
    obtain ⟨a', b', c', d', f'⟩ := h2 s1 a
    exact ⟨by rw [e1]; exact a', by rw [e1]; exact b.trans b', by rw [e1]; exact c'.trans c,
      by rw [e1]; exact d.trans d', by rw [e1]; exact f'.trans f⟩

theorem cellEff_forPy {α : Type} {m : α → Py TState Unit} (hm : ∀ x s, Inv s → CellEff (m x) s) :
    ∀ (xs : List α) (s : TState), Inv s → CellEff (forPy m xs) s := by
  intro xs
  induction xs with
  | nil => intro s h; exact cellEff_self h rfl
  | cons x xs ih => intro s h; exact cellEff_bind (hm x s h) ih

theorem withCell_eff {s : TState} (h : Inv s) (pos : Int × Int) {m : Py Elem Unit} (hm : CellOk m) :
    CellEff (withCell pos m) s := by
  cases hl : locate s pos with
  | error e => exact cellEff_self h (by unfold withCell; rw [hl])
  | ok p =>
    obtain ⟨r, n, t⟩ := p
    obtain ⟨i, u, h1, h2, h3, _⟩ := locate_ok h hl
    subst h2
    obtain ⟨s', e, a, b, _, c, d, f⟩ := withCell_spec h hm h1 h3 hl
    exact ⟨by rw [e]; exact a, by rw [e]; exact b, by rw [e]; exact c, by rw [e]; exact d,
      by rw [e]; exact f⟩

theorem foldl_del_id (ks : List String) (e : Elem) :
    (ks.foldl (fun e k => e.del k) e).id = e.id ∧ (ks.foldl (fun e k => e.del k) e).tag = e.tag := by
  induction ks generalizing e with
  | nil => exact ⟨rfl, rfl⟩
  | cons k ks ih => exact ⟨(ih _).1, (ih _).2⟩

theorem setCovered_id (b : Bool) (e : Elem) : (setCovered b e).id = e.id := by
  unfold setCovered
  cases b
  · rfl
  · simp [foldl_del_id]

theorem setCovered_tag (b : Bool) (e : Elem) :
    (setCovered b e).tag = if b then coveredTag else cellTag := by
  unfold setCovered
  cases b
  · rfl
  · simp [foldl_del_id]

theorem setCovered_not_rc (b : Bool) (e : Elem) : isRC (setCovered b e) = false := by
  cases b
  · exact cellTag_not_rc _ (setCovered_tag false e)
  · exact coveredTag_not_rc _ (setCovered_tag true e)

theorem cover_ok : CellOk fun e => (if covered e then e else setCovered true e, .ok ()) := by
  intro e
  simp only
  split
  · exact ⟨rfl, id⟩
  · exact ⟨setCovered_id _ _, fun _ => setCovered_not_rc _ _⟩

theorem uncover_ok : CellOk fun e => (if covered e then setCovered false e else e, .ok ()) := by
  intro e
  simp only
  split
  · exact ⟨setCovered_id _ _, fun _ => setCovered_not_rc _ _⟩
  · exact ⟨rfl, id⟩

theorem isRC_tag {e e' : Elem} (h : e'.tag = e.tag) : isRC e' = isRC e := by
  unfold isRC isRow isCol; rw [h]

theorem delSpan_ok : CellOk delSpanAttributes := by
  have h1 : ∀ k e, (delAttr k e).1.id = e.id ∧ (delAttr k e).1.tag = e.tag := by
    intro k e
    unfold delAttr
    split <;> simp
  have : ∀ e, (delSpanAttributes e).1.id = e.id ∧ (delSpanAttributes e).1.tag = e.tag := by
    intro e
    unfold delSpanAttributes
    rcases hd : delAttr rowsSpanned e with ⟨e1, r⟩
    have h2 := h1 rowsSpanned e
    rw [hd] at h2
    cases r with
    | error x => rw [Py.bind_error hd]; exact h2
    | ok u =>
      rw [Py.bind_ok hd]
      have h3 := h1 colsSpanned e1
      exact ⟨h3.1.trans h2.1, h3.2.trans h2.2⟩
  intro e
  exact ⟨(this e).1, fun h => by rw [isRC_tag (this e).2]; exact h⟩

theorem setSpan_ok (size : Int × Int) : CellOk (setSpan size) := by
  unfold setSpan
  simp only
  split
  · exact delSpan_ok
  · intro e
    exact ⟨rfl, fun h => by rw [isRC_tag (e := e)]; exact h; rfl⟩

theorem setCellSpan_eff {s : TState} (h : Inv s) (pos size : Int × Int) :
    CellEff (setCellSpan pos size) s := by
  cases hc : checkPosAndSize s pos size with
  | error e => exact cellEff_self h (by unfold setCellSpan; rw [hc])
  | ok _ =>
    cases hr : TU.iterCellRange pos size with
    | error e => exact cellEff_self h (by unfold setCellSpan; rw [hc]; simp only [hr]; rfl)
    | ok range =>
      cases hs : hasSpanned s range with
      | error e => exact cellEff_self h (by unfold setCellSpan; rw [hc]; simp only [hr, hs]; rfl)
      | ok b =>
        cases b with
        | true => exact cellEff_self h (by unfold setCellSpan; rw [hc]; simp only [hr, hs]; rfl)
        | false =>
          cases ho : TU.iterCellRangeWithoutStartPos pos size with
          | error e => exact cellEff_self h (by unfold setCellSpan; rw [hc]; simp only [hr, hs, ho]; rfl)
          | ok others =>
            have e : setCellSpan pos size s = (do
                forPy coverCell others
                withCell pos (setSpan size)
                uncoverCell pos : Py TState Unit) s := by
              conv => lhs; unfold setCellSpan
              rw [hc]; simp only [hr, hs, ho]
            have key := cellEff_bind (m2 := (do withCell pos (setSpan size); uncoverCell pos))
              (cellEff_forPy (m := coverCell) (fun x s h => withCell_eff h x cover_ok) others s h)
              (fun s h => cellEff_bind (withCell_eff h pos (setSpan_ok size))
                (fun s h => withCell_eff h pos uncover_ok))
            obtain ⟨a, b, c, d, f⟩ := key
            exact ⟨by rw [e]; exact a, by rw [e]; exact b, by rw [e]; exact c, by rw [e]; exact d,
              by rw [e]; exact f⟩

theorem removeCellSpan_eff {s : TState} (h : Inv s) (pos : Int × Int) :
    CellEff (removeCellSpan pos) s := by
  cases hc : isCellSpanning s pos with
  | error e => exact cellEff_self h (by unfold removeCellSpan; rw [hc])
  | ok b =>
    cases b with
    | false => exact cellEff_self h (by unfold removeCellSpan; rw [hc])
    | true =>
      cases hg : getCell s pos with
      | error e => exact cellEff_self h (by unfold removeCellSpan; rw [hc]; simp only [hg]; rfl)
      | ok t =>
        cases hs : span t.1 with
        | error e => exact cellEff_self h (by unfold removeCellSpan; rw [hc]; simp only [hg, hs]; rfl)
        | ok size =>
          cases hr : TU.iterCellRange pos size with
          | error e => exact cellEff_self h (by unfold removeCellSpan; rw [hc]; simp only [hg, hs, hr]; rfl)
          | ok range =>
            have e : removeCellSpan pos s = (do
                forPy uncoverCell range
                withCell pos delSpanAttributes
                uncoverCell pos : Py TState Unit) s := by
              conv => lhs; unfold removeCellSpan
              rw [hc]; simp only [hg, hs, hr]
            have key := cellEff_bind (m2 := (do withCell pos delSpanAttributes; uncoverCell pos))
              (cellEff_forPy (m := uncoverCell) (fun x s h => withCell_eff h x uncover_ok) range s h)
              (fun s h => cellEff_bind (withCell_eff h pos delSpan_ok)
                (fun s h => withCell_eff h pos uncover_ok))
            obtain ⟨a, b, c, d, f⟩ := key
            exact ⟨by rw [e]; exact a, by rw [e]; exact b, by rw [e]; exact c, by rw [e]; exact d,
              by rw [e]; exact f⟩

theorem tableSetCell_eff {s : TState} (h : Inv s) (pos : Int × Int) {t : Tree} (hd : Detached s t) :
    CellEff (tableSetCell pos t) s := by
  by_cases ht : t.1.tag = cellTag ∨ t.1.tag = coveredTag
  · have e0 : tableSetCell pos t s = setCell pos (.detached t) s := by
      unfold tableSetCell; rw [if_pos ht]
    cases hl : locate s pos with
    | error e => exact cellEff_self h (by rw [e0]; unfold setCell; rw [hl])
    | ok p =>
      obtain ⟨r, n, old⟩ := p
      obtain ⟨i, u, h1, h2, h3, _⟩ := locate_ok h hl
      subst h2
      obtain ⟨s', e, a, b, _, c, d, f⟩ := setCell_spec h hd h1 h3 hl
      rw [← e0] at e
      exact ⟨by rw [e]; exact a, by rw [e]; exact b, by rw [e]; exact c, by rw [e]; exact d,
        by rw [e]; exact f⟩
  · exact cellEff_self h (by unfold tableSetCell; rw [if_neg ht])

end Verif.Tbl
