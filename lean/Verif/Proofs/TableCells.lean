import Verif.Proofs.TableRepeat
/-! Changes inside rows. -/
set_option linter.unusedSimpArgs false
namespace Verif.Tbl
open Verif Verif.Forest Verif.Cells Verif.TSpec

theorem ids_toList (F : Forest) : ids F = F.toList.flatMap fun t => ids (single t) := by
  induction F with
  | nil => rfl
  | cons e k r _ ih => simp [ids, single, ih]

theorem sel_toList (p : Elem → Bool) (F : Forest) :
    sel p F = F.toList.flatMap fun t => sel p (single t) := by
  induction F with
  | nil => rfl
  | cons e k r _ ih => simp [sel, single, ih]

def idsOfL (l : List Tree) : List Nat := l.flatMap fun t => ids (single t)
def selOfL (p : Elem → Bool) (l : List Tree) : List Tree := l.flatMap fun t => sel p (single t)

theorem ids_ofList (l : List Tree) : ids (ofList l) = idsOfL l := by rw [ids_toList]; simp [idsOfL]
theorem sel_ofList (p : Elem → Bool) (l : List Tree) : sel p (ofList l) = selOfL p l := by
  rw [sel_toList]; simp [selOfL]

theorem idsOfL_append (a b : List Tree) : idsOfL (a ++ b) = idsOfL a ++ idsOfL b := by
  simp [idsOfL]
theorem selOfL_append (p : Elem → Bool) (a b : List Tree) :
    selOfL p (a ++ b) = selOfL p a ++ selOfL p b := by simp [selOfL]

/-- Change of the children of a row in place: the stretch `O` of children becomes `N`. -/
theorem cellStep {s : TState} (h : Inv s) {L R : List Tree} {t : Tree} (hr : rowsOf s = L ++ t :: R)
    (g : Forest → Forest) {A O N B : List Tree} (hk : t.2.toList = A ++ (O ++ B))
    (hg : (g t.2).toList = A ++ (N ++ B)) (fresh' : Nat) (hle : s.fresh ≤ fresh')
    (hnd : (idsOfL N).Nodup)
    (hids : ∀ i ∈ idsOfL N, i < fresh' ∧ (i ∈ idsOfL O ∨ i ∉ ids s.kids))
    (hsel : selOfL isRC N = []) :
    let s' : TState := { s with kids := s.kids.mapKids t.1.id g, fresh := fresh' }
    Inv s' ∧ rowsOf s' = L ++ ((t.1, g t.2) :: R) ∧ colsOf s' = colsOf s ∧ SameRest s s' := by
  intro s'
  have htm : t ∈ rowsOf s := by rw [hr]; simp
  obtain ⟨f1, f2, f3⟩ := flat_of_row h.wf htm
  obtain ⟨u1, u2⟩ := ids_sub h.wf f1
  have ht2 : ids t.2 = idsOfL A ++ (idsOfL O ++ idsOfL B) := by
    rw [ids_toList, hk, ← idsOfL_append, ← idsOfL_append]; rfl
  have hg2 : ids (g t.2) = idsOfL A ++ (idsOfL N ++ idsOfL B) := by
    rw [ids_toList, hg, ← idsOfL_append, ← idsOfL_append]; rfl
  have hst : ids (single t) = t.1.id :: (idsOfL A ++ (idsOfL O ++ idsOfL B)) := by
    simp [single, ids, ht2]
  have hgt : ids (Forest.cons t.1 (g t.2) .nil) = t.1.id :: (idsOfL A ++ (idsOfL N ++ idsOfL B)) := by
    simp [ids, hg2]
  have hsg : sel isRC (g t.2) = [] := by
    rw [sel_toList, hg]
    rw [sel_toList, hk] at f3
    have e1 : selOfL isRC (A ++ (O ++ B)) = [] := f3
    show selOfL isRC (A ++ (N ++ B)) = []
    rw [selOfL_append, selOfL_append] at *
    simp only [List.append_eq_nil_iff] at *
    exact ⟨e1.1, hsel, e1.2.2⟩
  have hs2 := sel_rc_nil hsg
  rw [hst] at u1 u2
  simp only [List.nodup_cons, List.nodup_append, List.mem_append, not_or] at u1
  obtain ⟨⟨x1, x2, x3⟩, x4, ⟨x5, x6, x7⟩, x8⟩ := u1
  have hin : ∀ i, i = t.1.id ∨ i ∈ idsOfL A ∨ i ∈ idsOfL O ∨ i ∈ idsOfL B →
      i ∈ ids s.kids ∧ i < s.fresh := by
    intro i hi
    exact u2 i (by simp only [List.mem_cons, List.mem_append]; tauto)
  have step := rowStep h hr (fun e k => .cons e (g k) .nil) s.rows fresh' hle
    (by
      rw [hgt]
      simp only [List.nodup_cons, List.nodup_append, List.mem_append, not_or]
      refine ⟨⟨x1, ?_, x3⟩, x4, ⟨hnd, x6, ?_⟩, ?_⟩
      · intro hi
        rcases (hids _ hi).2 with hO | hO
        · exact x2 hO
        · exact hO (hin _ (.inl rfl)).1
      · rintro i hi j hj rfl
        rcases (hids _ hi).2 with hO | hO
        · exact x7 i hO i hj rfl
        · exact hO (hin i (by simp [hj])).1
      · rintro i hi j hj rfl
        rcases hj with hj | hj
        · rcases (hids _ hj).2 with hO | hO
          · exact x8 i hi i (.inl hO) rfl
          · exact hO (hin i (by simp [hi])).1
        · exact x8 i hi i (.inr hj) rfl)
    (by
      intro i hi
      rw [hgt] at hi
      rw [hst]
      simp only [List.mem_cons, List.mem_append] at hi ⊢
      rcases hi with hi | hi | hi | hi
      · exact ⟨Nat.lt_of_lt_of_le (hin i (.inl hi)).2 hle, .inl (.inl hi)⟩
      · exact ⟨Nat.lt_of_lt_of_le (hin i (by simp [hi])).2 hle, .inl (by simp [hi])⟩
      · refine ⟨(hids i hi).1, ?_⟩
        rcases (hids i hi).2 with hO | hO
        · exact .inl (by simp [hO])
        · exact .inr hO
      · exact ⟨Nat.lt_of_lt_of_le (hin i (by simp [hi])).2 hle, .inl (by simp [hi])⟩)
    (by
      intro u hu
      simp only [sel, f1, hsg, isRC, f2, Bool.true_or, if_true, List.append_nil,
        List.mem_singleton, List.nil_append] at hu
      subst hu
      exact hsg)
    (by simp [sel, isRow_ne_isCol _ f2, hs2.2])
    (by simp [skel, isRow_isRC _ f2])
    (by simp [sel, f2, hs2.1, h.rows, hr])
  refine ⟨step.1, ?_, step.2.2⟩
  refine Eq.trans step.2.1 ?_
  simp [sel, f2, hs2.1]

/-- The loop `for row in self._rows` when every round changes one row in place. -/
theorem forRows {m : Nat → Py TState Unit} {C : Forest → Prop} {Q : Forest → Forest → Prop}
    (hm : ∀ s, Inv s → ∀ L t R, rowsOf s = L ++ t :: R → C t.2 →
      ∃ s' k', m t.1.id s = (s', .ok ()) ∧ Inv s' ∧ Q t.2 k' ∧ rowsOf s' = L ++ (t.1, k') :: R ∧
        colsOf s' = colsOf s ∧ SameRest s s') :
    ∀ (R : List Tree) (s : TState) (L : List Tree), Inv s → rowsOf s = L ++ R → (∀ t ∈ R, C t.2) →
      ∃ s' R', forPy m (R.map fun t => t.1.id) s = (s', .ok ()) ∧ Inv s' ∧
        List.Forall₂ (fun t t' => t'.1 = t.1 ∧ Q t.2 t'.2) R R' ∧ rowsOf s' = L ++ R' ∧
        colsOf s' = colsOf s ∧ SameRest s s' := by
  intro R
  induction R with
  | nil => intro s L h hr _; exact ⟨s, [], rfl, h, .nil, hr, rfl, .refl s⟩
  | cons t R ih =>
    intro s L h hr hC
    obtain ⟨s1, k', e1, i1, q1, r1, c1, sr1⟩ := hm s h L t R hr (hC t (by simp))
    obtain ⟨s2, R', e2, i2, q2, r2, c2, sr2⟩ := ih s1 (L ++ [(t.1, k')]) i1 (by rw [r1]; simp)
      (fun u hu => hC u (by simp [hu]))
    refine ⟨s2, (t.1, k') :: R', ?_, i2, .cons ⟨rfl, q1⟩ q2, by rw [r2]; simp, by rw [c2, c1],
      sr1.trans sr2⟩
    rw [List.map_cons, forPy_cons e1, e2]

/-- Repetition of a change of one row in place. -/
theorem repeatRow {m : Py TState Unit} {id : Nat} (Q : Nat → Forest → Forest → Prop)
    (h0 : ∀ k, Q 0 k k) (hm : ∀ n s, Inv s → ∀ L t R, t.1.id = id → rowsOf s = L ++ t :: R →
      ∀ k0, Q n k0 t.2 →
      ∃ s' k', m s = (s', .ok ()) ∧ Inv s' ∧ Q (n + 1) k0 k' ∧ rowsOf s' = L ++ (t.1, k') :: R ∧
        colsOf s' = colsOf s ∧ SameRest s s') (n : Nat) :
    ∀ s, Inv s → ∀ L t R, t.1.id = id → rowsOf s = L ++ t :: R →
      ∃ s' k', repeatPy n m s = (s', .ok ()) ∧ Inv s' ∧ Q n t.2 k' ∧ rowsOf s' = L ++ (t.1, k') :: R ∧
        colsOf s' = colsOf s ∧ SameRest s s' := by
  have key : ∀ n j s, Inv s → ∀ L t R, t.1.id = id → rowsOf s = L ++ t :: R → ∀ k0, Q j k0 t.2 →
      ∃ s' k', repeatPy n m s = (s', .ok ()) ∧ Inv s' ∧ Q (j + n) k0 k' ∧
        rowsOf s' = L ++ (t.1, k') :: R ∧ colsOf s' = colsOf s ∧ SameRest s s' := by
    intro n
    induction n with
    | zero => intro j s h L t R _ hr k0 hq; exact ⟨s, t.2, rfl, h, hq, hr, rfl, .refl s⟩
    | succ n ih =>
      intro j s h L t R hid hr k0 hq
      obtain ⟨s1, k1, e1, i1, q1, r1, c1, sr1⟩ := hm j s h L t R hid hr k0 hq
      obtain ⟨s2, k2, e2, i2, q2, r2, c2, sr2⟩ := ih (j + 1) s1 i1 L (t.1, k1) R hid r1 k0 q1
      refine ⟨s2, k2, by rw [repeatPy_succ e1, e2], i2, ?_, r2, by rw [c2, c1], sr1.trans sr2⟩
      rw [show j + (n + 1) = j + 1 + n by omega]
      exact q2
  intro s h L t R hid hr
  have := key n 0 s h L t R hid hr t.2 (h0 _)
  rwa [Nat.zero_add] at this

/-- `k'` is `k` with `n` empty cells in front of position `j`. -/
def InsertedCells (j n : Nat) (k k' : Forest) : Prop :=
  ∃ news, news.length = n ∧ (∀ c ∈ news, EmptyCell c) ∧
    k'.toList = k.toList.take j ++ (news ++ k.toList.drop j)

def AppendedCells (n : Nat) (k k' : Forest) : Prop :=
  ∃ news, news.length = n ∧ (∀ c ∈ news, EmptyCell c) ∧ k'.toList = k.toList ++ news

def DeletedCells (j n : Nat) (k k' : Forest) : Prop :=
  k'.toList = k.toList.take j ++ k.toList.drop (j + n)

theorem newCell_ok {s : TState} (h : Inv s) : (idsOfL [newCell s.fresh]).Nodup ∧
    (∀ i ∈ idsOfL [newCell s.fresh], i < s.fresh + 1 ∧ (i ∈ idsOfL [] ∨ i ∉ ids s.kids)) ∧
    selOfL isRC [newCell s.fresh] = [] := by
  have hi : idsOfL [newCell s.fresh] = [s.fresh] := by simp [idsOfL, single, newCell, ids]
  rw [hi]
  refine ⟨by simp, ?_, ?_⟩
  · intro i hi
    simp at hi; subst hi
    exact ⟨by omega, .inr (fresh_not_mem h.wf (Nat.le_refl _))⟩
  · simp [selOfL, single, newCell, sel, cellTag_not_rc]

theorem emptyCell_newCell (id : Nat) : EmptyCell (newCell id) := ⟨rfl, rfl, rfl, rfl, rfl⟩

theorem appendCell_spec {s : TState} (h : Inv s) {L R : List Tree} {t : Tree}
    (hr : rowsOf s = L ++ t :: R) :
    ∃ s' k', appendCell t.1.id s = (s', .ok ()) ∧ Inv s' ∧
      (∃ c, EmptyCell c ∧ k'.toList = t.2.toList ++ [c]) ∧ rowsOf s' = L ++ (t.1, k') :: R ∧
      colsOf s' = colsOf s ∧ SameRest s s' := by
  obtain ⟨n1, n2, n3⟩ := newCell_ok h
  have step := cellStep h hr (fun k => k ++ single (newCell s.fresh)) (A := t.2.toList) (O := [])
    (N := [newCell s.fresh]) (B := []) (by simp) (by simp [single]) (s.fresh + 1) (by omega) n1 n2 n3
  exact ⟨_, _, rfl, step.1, ⟨_, emptyCell_newCell s.fresh, by simp [single]⟩, step.2⟩

theorem insertCell_spec {s : TState} (h : Inv s) {L R : List Tree} {t : Tree}
    (hr : rowsOf s = L ++ t :: R) {j : Nat} (hj : j ≤ t.2.length) :
    ∃ s' k', insertCell j t.1.id s = (s', .ok ()) ∧ Inv s' ∧
      (∃ c, EmptyCell c ∧ k'.toList = t.2.toList.take j ++ (c :: t.2.toList.drop j)) ∧
      rowsOf s' = L ++ (t.1, k') :: R ∧ colsOf s' = colsOf s ∧ SameRest s s' := by
  obtain ⟨n1, n2, n3⟩ := newCell_ok h
  have hl : (t.2.insertAt j (newCell s.fresh)).toList =
      t.2.toList.take j ++ ([newCell s.fresh] ++ t.2.toList.drop j) := by
    unfold insertAt
    rw [toList_ofList, Org.lxmlInsert_nat _ _ (by simpa using hj)]; rfl
  have step := cellStep h hr (fun k => k.insertAt j (newCell s.fresh)) (A := t.2.toList.take j)
    (O := []) (N := [newCell s.fresh]) (B := t.2.toList.drop j) (by simp) hl
    (s.fresh + 1) (by omega) n1 n2 n3
  exact ⟨_, _, rfl, step.1, ⟨_, emptyCell_newCell s.fresh, hl⟩, step.2⟩

theorem deleteCell_spec {s : TState} (h : Inv s) {L R : List Tree} {t : Tree}
    (hr : rowsOf s = L ++ t :: R) {j : Nat} (hj : j < t.2.length) :
    ∃ s' k', deleteCell j t.1.id s = (s', .ok ()) ∧ Inv s' ∧
      k'.toList = t.2.toList.take j ++ t.2.toList.drop (j + 1) ∧
      rowsOf s' = L ++ (t.1, k') :: R ∧ colsOf s' = colsOf s ∧ SameRest s s' := by
  have htm : t ∈ rowsOf s := by rw [hr]; simp
  have hl : (t.2.eraseAt j).toList = t.2.toList.take j ++ t.2.toList.drop (j + 1) := by
    unfold eraseAt
    rw [toList_ofList, List.eraseIdx_eq_take_drop_succ]
  have hjl : j < t.2.toList.length := by simpa using hj
  have step := cellStep h hr (fun k => k.eraseAt j) (A := t.2.toList.take j)
    (O := [t.2.toList[j]]) (N := []) (B := t.2.toList.drop (j + 1))
    (by rw [List.singleton_append]; exact split_getElem hjl) hl s.fresh (Nat.le_refl _)
    (by simp [idsOfL]) (by simp [idsOfL]) rfl
  refine ⟨_, _, ?_, step.1, hl, step.2⟩
  unfold deleteCell
  rw [kidsOf_row h htm]
  have : pyIdx t.2.length (j : Int) = some j := by
    unfold pyIdx; rw [if_pos (by omega), if_pos (by simpa using hj)]; simp
  rw [this]

theorem appendCells_row (n : Nat) {s : TState} (h : Inv s) {L R : List Tree} {t : Tree}
    (hr : rowsOf s = L ++ t :: R) :
    ∃ s' k', repeatPy n (appendCell t.1.id) s = (s', .ok ()) ∧ Inv s' ∧ AppendedCells n t.2 k' ∧
      rowsOf s' = L ++ (t.1, k') :: R ∧ colsOf s' = colsOf s ∧ SameRest s s' := by
  refine repeatRow (m := appendCell t.1.id) (id := t.1.id) AppendedCells
    (fun k => ⟨[], rfl, by simp, by simp⟩) ?_ n s h L t R rfl hr
  intro n s h L u R hid hr k0 ⟨news, h1, h2, h3⟩
  obtain ⟨s1, k1, e1, i1, ⟨c, hc, q1⟩, r1, c1, sr1⟩ := appendCell_spec h hr
  rw [hid] at e1
  refine ⟨s1, k1, e1, i1, ⟨news ++ [c], by simp [h1], ?_, by rw [q1, h3]; simp⟩, r1, c1, sr1⟩
  intro x hx
  rcases List.mem_append.mp hx with hx | hx
  · exact h2 x hx
  · simp at hx; subst hx; exact hc

theorem insertCells_row (n : Nat) {s : TState} (h : Inv s) {L R : List Tree} {t : Tree}
    (hr : rowsOf s = L ++ t :: R) {j : Nat} (hj : j ≤ t.2.length) :
    ∃ s' k', repeatPy n (insertCell j t.1.id) s = (s', .ok ()) ∧ Inv s' ∧ InsertedCells j n t.2 k' ∧
      rowsOf s' = L ++ (t.1, k') :: R ∧ colsOf s' = colsOf s ∧ SameRest s s' := by
  have := repeatRow (m := insertCell j t.1.id) (id := t.1.id)
    (fun n k k' => j ≤ k.length → j ≤ k'.length ∧ InsertedCells j n k k')
    (fun k hk => ⟨hk, [], rfl, by simp, by simp⟩) ?_ n s h L t R rfl hr
  · obtain ⟨s', k', e, i, q, rest⟩ := this
    exact ⟨s', k', e, i, (q hj).2, rest⟩
  intro n s h L u R hid hr k0 hq
  by_cases hk0 : j ≤ k0.length
  · obtain ⟨hju, news, h1, h2, h3⟩ := hq hk0
    obtain ⟨s1, k1, e1, i1, ⟨c, hc, q1⟩, r1, c1, sr1⟩ := insertCell_spec h hr hju
    rw [hid] at e1
    refine ⟨s1, k1, e1, i1, fun _ => ⟨?_, c :: news, by simp [h1], ?_, ?_⟩, r1, c1, sr1⟩
    · rw [← length_toList, q1]; simp; omega
    · intro x hx
      rcases List.mem_cons.mp hx with hx | hx
      · subst hx; exact hc
      · exact h2 x hx
    · have hl : (k0.toList.take j).length = j := by simp; omega
      rw [q1, h3, List.take_append, List.drop_append, hl]
      simp [List.take_take]
  · -- unreachable start: any result will do
    obtain ⟨n1, n2, n3⟩ := newCell_ok h
    by_cases hju : j ≤ u.2.length
    · obtain ⟨s1, k1, e1, i1, _, r1, c1, sr1⟩ := insertCell_spec h hr hju
      rw [hid] at e1
      exact ⟨s1, k1, e1, i1, fun hc => absurd hc hk0, r1, c1, sr1⟩
    · have hl : (u.2.insertAt j (newCell s.fresh)).toList = u.2.toList ++ ([newCell s.fresh] ++ []) := by
        unfold insertAt Org.lxmlInsert
        have : pyIdx u.2.toList.length (j : Int) = none := by
          unfold pyIdx; rw [if_pos (by omega), if_neg (by simp; omega)]
        rw [toList_ofList, this]; simp
      have step := cellStep h hr (fun k => k.insertAt j (newCell s.fresh)) (A := u.2.toList)
        (O := []) (N := [newCell s.fresh]) (B := []) (by simp) hl
        (s.fresh + 1) (by omega) n1 n2 n3
      rw [← hid]
      exact ⟨_, _, rfl, step.1, fun hc => absurd hc hk0, step.2⟩

theorem deleteCells_row : ∀ (n : Nat) {s : TState} (_ : Inv s) {L R : List Tree} {t : Tree}
    (_ : rowsOf s = L ++ t :: R) {j : Nat} (_ : j + n ≤ t.2.length),
    ∃ s' k', repeatPy n (deleteCell j t.1.id) s = (s', .ok ()) ∧ Inv s' ∧ DeletedCells j n t.2 k' ∧
      rowsOf s' = L ++ (t.1, k') :: R ∧ colsOf s' = colsOf s ∧ SameRest s s' := by
  intro n
  induction n with
  | zero =>
    intro s h L R t hr j _
    exact ⟨s, t.2, rfl, h, by simp [DeletedCells], hr, rfl, .refl s⟩
  | succ n ih =>
    intro s h L R t hr j hj
    obtain ⟨s1, k1, e1, i1, q1, r1, c1, sr1⟩ := deleteCell_spec h hr (j := j) (by omega)
    have hl1 : k1.length = t.2.length - 1 := by
      rw [← length_toList, q1]; simp; omega
    obtain ⟨s2, k2, e2, i2, q2, r2, c2, sr2⟩ := ih i1 r1 (j := j) (by simp only; omega)
    refine ⟨s2, k2, by rw [repeatPy_succ e1]; exact e2, i2, ?_, r2, by rw [c2, c1], sr1.trans sr2⟩
    unfold DeletedCells at q2 ⊢
    have hl : (t.2.toList.take j).length = j := by simp; omega
    rw [q2]
    simp only [q1]
    rw [List.take_append, List.drop_append, hl]
    have h1 : (t.2.toList.take j).drop (j + n) = [] := by simp; omega
    rw [h1]
    simp only [List.nil_append, List.drop_drop, Nat.sub_self, List.take_zero, List.append_nil,
      List.take_take, Nat.min_self]
    congr 2
    omega

/-- Rows with the same element and children related by `Q`. -/
def RowsRel (Q : Forest → Forest → Prop) (a b : List Tree) : Prop :=
  List.Forall₂ (fun t t' => t'.1 = t.1 ∧ Q t.2 t'.2) a b

theorem cellsAppendColumns_spec {s : TState} (h : Inv s) {count : Int} (hc : 1 ≤ count) :
    ∃ s', cellsAppendColumns count s = (s', .ok ()) ∧ Inv s' ∧
      RowsRel (AppendedCells count.toNat) (rowsOf s) (rowsOf s') ∧ colsOf s' = colsOf s ∧
      SameRest s s' := by
  obtain ⟨s', R', e, i, q, r, rest⟩ := forRows (m := fun r => repeatPy count.toNat (appendCell r))
    (C := fun _ => True) (Q := AppendedCells count.toNat)
    (fun s h L t R hr _ => appendCells_row _ h hr) (rowsOf s) s [] h rfl (by simp)
  refine ⟨s', ?_, i, ?_, rest⟩
  · unfold cellsAppendColumns
    rw [if_neg (by omega), h.rows, e]
  · rw [r]; exact q

theorem cellsInsertColumns_spec {s : TState} (h : Inv s) {index count : Int} (hc : 1 ≤ count) {j : Nat}
    (hj : (if index < 0 then index + ncols s else index) = (j : Int))
    (hle : ∀ t ∈ rowsOf s, j ≤ t.2.length) :
    ∃ s', cellsInsertColumns index count s = (s', .ok ()) ∧ Inv s' ∧
      RowsRel (InsertedCells j count.toNat) (rowsOf s) (rowsOf s') ∧ colsOf s' = colsOf s ∧
      SameRest s s' := by
  obtain ⟨s', R', e, i, q, r, rest⟩ := forRows (m := fun r => repeatPy count.toNat (insertCell j r))
    (C := fun k => j ≤ k.length) (Q := InsertedCells j count.toNat)
    (fun s h L t R hr hC => insertCells_row _ h hr hC) (rowsOf s) s [] h rfl hle
  refine ⟨s', ?_, i, ?_, rest⟩
  · unfold cellsInsertColumns
    rw [if_neg (by omega), hj, h.rows, e]
  · rw [r]; exact q

theorem cellsDeleteColumns_spec {s : TState} (h : Inv s) {index count : Int} (hc : 1 ≤ count)
    (hc2 : count < ncols s) {j : Nat}
    (hj : (if index < 0 then index + ncols s else index) = (j : Int))
    (hle : ∀ t ∈ rowsOf s, j + count.toNat ≤ t.2.length) :
    ∃ s', cellsDeleteColumns index count s = (s', .ok ()) ∧ Inv s' ∧
      RowsRel (DeletedCells j count.toNat) (rowsOf s) (rowsOf s') ∧ colsOf s' = colsOf s ∧
      SameRest s s' := by
  obtain ⟨s', R', e, i, q, r, rest⟩ := forRows (m := fun r => repeatPy count.toNat (deleteCell j r))
    (C := fun k => j + count.toNat ≤ k.length) (Q := DeletedCells j count.toNat)
    (fun s h L t R hr hC => deleteCells_row _ h hr hC) (rowsOf s) s [] h rfl hle
  refine ⟨s', ?_, i, ?_, rest⟩
  · unfold cellsDeleteColumns
    rw [if_neg (by omega), hj, h.rows, e]
  · rw [r]; exact q

end Verif.Tbl
