import Verif.Props.Table
import Verif.Proofs.Strip
/-! # Properties C13 (insert_rows), C14, C20 and C59 -/
set_option linter.unusedSimpArgs false
namespace Verif.Tbl
open Verif Verif.Forest Verif.Cells Verif.TSpec

/-! ## C13: insert_rows -/

theorem subst_append_left {i : Nat} (f : Elem → Forest → Forest) (F G : Forest) (h : i ∉ ids G) :
    subst i f (F ++ G) = subst i f F ++ G := by
  induction F with
  | nil => exact subst_not_mem f h
  | cons e k r _ ih =>
    show subst i f (.cons e k (r ++ G)) = _
    rw [subst, subst]
    split
    · exact (append_assoc _ _ _).symm
    · rw [ih]; rfl

theorem subst_append_right {i : Nat} (f : Elem → Forest → Forest) (F G : Forest) (h : i ∉ ids F) :
    subst i f (F ++ G) = F ++ subst i f G := by
  induction F with
  | nil => rfl
  | cons e k r _ ih =>
    simp only [ids, List.mem_cons, List.mem_append, not_or] at h
    show subst i f (.cons e k (r ++ G)) = _
    rw [subst, if_neg (fun h' => h.1 h'.symm), subst_not_mem f h.2.1, ih h.2.2]; rfl

theorem ofList_append (A B : List Tree) : ofList (A ++ B) = ofList A ++ ofList B := by
  induction A with
  | nil => rfl
  | cons a A ih => show Forest.cons _ _ (ofList (A ++ B)) = _; rw [ih]; rfl

theorem subst_plug {i : Nat} (f : Elem → Forest → Forest) (c : Ctx) (g : Forest)
    (h1 : i ∉ c.idsL) (h2 : i ∉ c.idsR) : subst i f (c.plug g) = c.plug (subst i f g) := by
  induction c with
  | hole r =>
    simp only [Ctx.idsR] at h2
    simp only [Ctx.plug]
    rw [subst_append_left f _ _ h2]
  | down e c r ih =>
    simp only [Ctx.idsL, Ctx.idsR, List.mem_cons, List.mem_append, not_or] at h1 h2
    simp only [Ctx.plug]
    rw [subst, if_neg (fun h => h1.1 h.symm), ih h1.2 h2.1, subst_not_mem f h2.2]
  | right e k c ih =>
    simp only [Ctx.idsL, Ctx.idsR, List.mem_cons, List.mem_append, not_or] at h1 h2
    simp only [Ctx.plug]
    rw [subst, if_neg (fun h => h1.1 h.symm), ih h1.2.2 h2, subst_not_mem f h1.2.1]

theorem erase_append (F G : Forest) : erase (F ++ G) = erase F ++ erase G := by
  induction F with
  | nil => rfl
  | cons e k r _ ih =>
    show erase (.cons e k (r ++ G)) = _
    rw [erase, ih]; rfl

theorem erase_plug (c : Ctx) {g g' : Forest} (h : erase g = erase g') :
    erase (c.plug g) = erase (c.plug g') := by
  induction c with
  | hole r => simp only [Ctx.plug, erase_append, h]
  | down e c r ih => simp only [Ctx.plug, erase, ih]
  | right e k c ih => simp only [Ctx.plug, erase, ih]

theorem sameContent_of_erase : ∀ {F G : Forest}, erase F = erase G → SameContent F G := by
  intro F
  induction F with
  | nil =>
    intro G h
    cases G with
    | nil => exact .nil
    | cons e k r => simp [erase] at h
  | cons e k r ihk ihr =>
    intro G h
    cases G with
    | nil => simp [erase] at h
    | cons e' k' r' =>
      simp only [erase, Forest.cons.injEq] at h
      obtain ⟨he, hk, hr⟩ := h
      refine .cons ?_ (ihk hk) (ihr hr)
      cases e; cases e'
      simp only [Elem.mk.injEq] at he
      simp [he]

theorem erase_newCells (a b n : Nat) : erase (newCells a n) = erase (newCells b n) := by
  induction n generalizing a b with
  | zero => rfl
  | succ n ih => simp only [newCells, erase, newCell]; rw [ih]

theorem erase_newRow (a b w : Nat) : erase (single (newRow a w)) = erase (single (newRow b w)) := by
  simp only [single, newRow, erase]
  rw [erase_newCells]

theorem erase_ofNewRows {w : Nat} : ∀ {A B : List Tree}, A.length = B.length →
    (∀ a ∈ A, ∃ id, a = newRow id w) → (∀ b ∈ B, ∃ id, b = newRow id w) →
    erase (ofList A) = erase (ofList B) := by
  intro A
  induction A with
  | nil => intro B h _ _; cases B with | nil => rfl | cons _ _ => simp at h
  | cons a A ih =>
    intro B h ha hb
    cases B with
    | nil => simp at h
    | cons b B =>
      obtain ⟨x, rfl⟩ := ha a (by simp)
      obtain ⟨y, rfl⟩ := hb b (by simp)
      have h1 := erase_newRow x y w
      simp only [single, erase, Forest.cons.injEq] at h1
      simp only [ofList, erase]
      rw [ih (by simpa using h) (fun t ht => ha t (by simp [ht])) (fun t ht => hb t (by simp [ht])),
        h1.1, h1.2.1]

/-- The tree after rounds of `insert_rows`: all new rows stand directly before the old row. -/
theorem insertRow_ctx {index : Int} {c : Ctx} {t : Tree} {w : Nat} :
    ∀ (k : Nat) {s : TState} (_ : Inv s) (A : List Tree) (_ : ncols s = w)
      (_ : s.kids = c.plug (ofList A ++ single t)) (_ : ∀ a ∈ A, ∃ id, a = newRow id w)
      (_ : ∀ e ∈ c.anc, isRow e = false) (_ : t ∈ rowsOf s)
      (_ : Denotes (rowsOf s).length index (c.selL isRow).length ∧ 0 ≤ index ∨
        index = -((c.selR isRow).length + 1 : Int)),
      ∃ s' B, repeatPy k (insertRow index) s = (s', .ok ()) ∧ s'.kids = c.plug (ofList B ++ single t) ∧
        B.length = A.length + k ∧ ∀ a ∈ B, ∃ id, a = newRow id w := by
  intro k
  induction k with
  | zero => intro s _ A _ hk hA _ _ _; exact ⟨s, A, rfl, hk, rfl, hA⟩
  | succ k ih =>
    intro s h A hw hk hA hanc ht hidx
    have hselA : ∀ A : List Tree, (∀ a ∈ A, ∃ id, a = newRow id w) → sel isRow (ofList A) = A := by
      intro A hA
      induction A with
      | nil => rfl
      | cons a A ihA =>
        obtain ⟨id, rfl⟩ := hA a (by simp)
        have := (sel_newRow id w).2.1
        simp only [single, sel, List.append_nil] at this
        simp only [ofList, sel]
        rw [ihA (fun x hx => hA x (by simp [hx])), ← List.append_assoc, this]; rfl
    have hst := (sel_single_row h ht).1
    have hrows : rowsOf s = c.selL isRow ++ (A ++ t :: c.selR isRow) := by
      show sel isRow s.kids = _
      rw [hk, sel_plug isRow c _ hanc, sel_append, hselA A hA, hst]; simp
    have hnd := h.wf.nodup
    rw [hk, ids_plug, ids_append] at hnd
    -- the row before which the new row is put
    have main : ∃ A1 u A2, A ++ [t] = A1 ++ u :: A2 ∧
        pyIdx (rowsOf s).length index = some ((c.selL isRow).length + A1.length) := by
      rcases hidx with ⟨hd, h0⟩ | hneg
      · cases hA' : A ++ [t] with
        | nil => simp at hA'
        | cons u A2 =>
          refine ⟨[], u, A2, rfl, ?_⟩
          exact pyIdx_denotes.mpr hd
      · refine ⟨A, t, [], rfl, ?_⟩
        have hl : (rowsOf s).length = (c.selL isRow).length + A.length + 1 + (c.selR isRow).length := by
          rw [hrows]; simp; omega
        apply pyIdx_denotes.mpr
        exact ⟨by omega, .inr (by rw [hneg, hl]; omega)⟩
    obtain ⟨A1, u, A2, hA1, hp⟩ := main
    have hget : (rowsOf s)[(c.selL isRow).length + A1.length]? = some u := by
      have : rowsOf s = (c.selL isRow ++ A1) ++ u :: (A2 ++ c.selR isRow) := by
        have e1 : A ++ t :: c.selR isRow = (A ++ [t]) ++ c.selR isRow := by simp
        rw [hrows, e1, hA1]; simp
      rw [this, List.getElem?_append_right (by simp)]
      simp
    have hum : u ∈ rowsOf s := List.mem_of_getElem? hget
    have hrow : rowId s index = .ok u.1.id := by
      rw [rowId_eq h, hp]
      simp only [hget]
    obtain ⟨s1, new, e1, i1, em1, f1, r1, c1, sr1⟩ := insertRow_spec h hp
    have hs1 : s1 = { s with
      kids := s.kids.subst u.1.id fun e k => .cons (newRow s.fresh (ncols s)).1 (newRow s.fresh (ncols s)).2 (.cons e k .nil)
      rows := pyInsert s.rows index (newRow s.fresh (ncols s)).1.id
      fresh := s.fresh + (ncols s + 1) } := by
      unfold insertRow at e1
      rw [hrow] at e1
      simp only [Prod.mk.injEq, and_true] at e1
      exact e1.symm
    -- ids
    have hAt : ofList A ++ single t = ofList (A1 ++ u :: A2) := by
      rw [← hA1, ofList_append]; rfl
    rw [← ids_append, hAt, ofList_append, ids_append, show ofList (u :: A2) = .cons u.1 u.2 (ofList A2) from rfl, ids] at hnd
    have hidA1 : u.1.id ∉ ids (ofList A1) := by
      intro hm
      have := (List.nodup_append.mp (List.nodup_append.mp hnd).2.1).1
      exact (List.nodup_append.mp this).2.2 _ hm _ (by simp) rfl
    have hidL : u.1.id ∉ c.idsL := by
      intro hm
      exact (List.nodup_append.mp hnd).2.2 _ hm u.1.id (by simp) rfl
    have hidR : u.1.id ∉ c.idsR := by
      intro hm
      exact (List.nodup_append.mp (List.nodup_append.mp hnd).2.1).2.2 u.1.id (by simp) _ hm rfl
    have hidA2 : u.1.id ∉ ids (ofList A2) := by
      intro hm
      have h3 := (List.nodup_append.mp (List.nodup_append.mp (List.nodup_append.mp hnd).2.1).1).2.1
      simp only [List.nodup_cons, List.mem_append, not_or] at h3
      exact h3.1.2 hm
    have hkids1 : s1.kids = c.plug (ofList (A1 ++ newRow s.fresh w :: u :: A2)) := by
      rw [hs1]
      simp only
      rw [hk, subst_plug _ _ _ hidL hidR, hAt, ofList_append, subst_append_right _ _ _ hidA1,
        show ofList (u :: A2) = .cons u.1 u.2 (ofList A2) from rfl, subst, if_pos rfl,
        ofList_append, hw]
      rfl
    -- the same shape again: B ++ [t]
    obtain ⟨B, hB, hBl, hBn⟩ : ∃ B, A1 ++ newRow s.fresh w :: u :: A2 = B ++ [t] ∧
        B.length = A.length + 1 ∧ ∀ a ∈ B, ∃ id, a = newRow id w := by
      have hmemA : ∀ a ∈ A1, a ∈ A ∨ A2 = [] := by
        intro a _
        by_cases h2 : A2 = []
        · exact .inr h2
        · left
          have := congrArg List.dropLast hA1
          rw [List.dropLast_concat, List.dropLast_append_of_ne_nil (by simp)] at this
          rw [this]; simp; left; assumption
      by_cases h2 : A2 = []
      · subst h2
        have hh := List.append_inj' hA1 rfl
        refine ⟨A ++ [newRow s.fresh w], ?_, by simp, ?_⟩
        · rw [← hh.1]; have := hh.2; simp only [List.cons.injEq, and_true] at this
          rw [this]; simp
        · intro a ha
          rcases List.mem_append.mp ha with ha | ha
          · exact hA a ha
          · exact ⟨s.fresh, by simpa using ha⟩
      · have hd := congrArg List.dropLast hA1
        rw [List.dropLast_concat, List.dropLast_append_of_ne_nil (by simp),
          List.dropLast_cons_of_ne_nil h2] at hd
        have hlast := congrArg List.getLast? hA1
        rw [List.getLast?_append, List.getLast?_append] at hlast
        have h2' : A2 = A2.dropLast ++ [t] := by
          have h5 : A2.getLast? = some t := by
            have : (u :: A2).getLast? = A2.getLast? := by
              cases A2 with
              | nil => exact absurd rfl h2
              | cons x xs => rfl
            rw [this] at hlast
            cases hx : A2.getLast? with
            | none => simp at hx; exact absurd hx h2
            | some y => rw [hx] at hlast; simpa using hlast.symm
          have := List.dropLast_append_getLast? t h5
          exact this.symm
        refine ⟨A1 ++ newRow s.fresh w :: u :: A2.dropLast, ?_, ?_, ?_⟩
        · conv => lhs; rw [h2']
          simp
        · rw [hd]; simp; omega
        · intro a ha
          simp only [List.mem_append, List.mem_cons] at ha
          rcases ha with ha | rfl | ha
          · exact hA a (by rw [hd]; simp [ha])
          · exact ⟨_, rfl⟩
          · exact hA a (by rw [hd]; simp only [List.mem_append, List.mem_cons]; exact .inr ha)
    have hkids2 : s1.kids = c.plug (ofList B ++ single t) := by
      rw [hkids1, hB, ofList_append]; rfl
    have hw1 : ncols s1 = w := by
      rw [← hw]
      exact ncols_keep h i1 (A := [new]) (pyIdx_lt hp) (by simpa using em1) (by rw [r1]; rfl)
    have ht1 : t ∈ rowsOf s1 := by
      show t ∈ sel isRow s1.kids
      rw [hkids2, sel_plug isRow c _ hanc, sel_append, hst]; simp
    have hrows1 : rowsOf s1 = c.selL isRow ++ (B ++ t :: c.selR isRow) := by
      show sel isRow s1.kids = _
      rw [hkids2, sel_plug isRow c _ hanc, sel_append, hselA B hBn, hst]; simp
    obtain ⟨s', B', e', k', l', n'⟩ := ih i1 B hw1 hkids2 hBn hanc ht1 (by
      rcases hidx with ⟨hd, h0⟩ | hneg
      · left
        refine ⟨⟨by rw [hrows1]; simp; omega, ?_⟩, h0⟩
        rcases hd.2 with h | h
        · exact .inl h
        · have := hd.1; omega
      · exact .inr hneg)
    exact ⟨s', B', by rw [repeatPy_succ e1, e'], k', by omega, n'⟩

/-- **C13** `insert_rows`: the trees are equal up to the identities of the new rows. -/
theorem C13_insert_rows {s : TState} (h : Inv s) {i n : Int} (h1 : -(nrows s : Int) ≤ i) (h2 : i < 0)
    (hn : 1 ≤ n) :
    ∃ s1 s2, insertRows i n s = (s1, .ok ()) ∧ insertRows (i + nrows s) n s = (s2, .ok ()) ∧
      SameContent s1.kids s2.kids ∧ s1.node = s2.node ∧
      ∃ p news1 news2, Denotes (docRows s.kids).length i p ∧
        docRows s1.kids = (docRows s.kids).take p ++ (news1 ++ (docRows s.kids).drop p) ∧
        docRows s2.kids = (docRows s.kids).take p ++ (news2 ++ (docRows s.kids).drop p) ∧
        (news1.length : Int) = n ∧ (news2.length : Int) = n := by
  rw [nrows_eq h] at h1
  have hp1 : Denotes (rowsOf s).length i (i + (rowsOf s).length).toNat := ⟨by omega, .inr (by omega)⟩
  have hp2 : Denotes (rowsOf s).length (i + nrows s) (i + (rowsOf s).length).toNat := by
    rw [nrows_eq h]; exact ⟨by omega, .inl (by omega)⟩
  generalize hp : (i + (rowsOf s).length).toNat = p at hp1 hp2
  obtain ⟨s1, n1, e1, l1, em1, d1, o1⟩ := C10_insert_rows h (by rw [← rowsOf_doc]; exact hp1) hn
  obtain ⟨s2, n2, e2, l2, em2, d2, o2⟩ := C10_insert_rows h (by rw [← rowsOf_doc]; exact hp2) hn
  refine ⟨s1, s2, e1, e2, ?_, by rw [o1.node, o2.node], p, n1, n2, by rw [← rowsOf_doc]; exact hp1, d1, d2, l1, l2⟩
  -- contexts
  have ht := List.getElem?_eq_getElem hp1.1
  generalize htt : (rowsOf s)[p]'hp1.1 = t at ht
  have htm : t ∈ rowsOf s := List.mem_of_getElem? ht
  obtain ⟨c, hc, -⟩ := ctx_exists h.wf.nodup (find_row h htm)
  have hst := (sel_single_row h htm).1
  have hanc : ∀ e ∈ c.anc, isRow e = false := by
    refine anc_sel isRow c (single t) (by rw [hst]; simp) ?_
    rw [← hc]
    intro u hu
    exact (sel_rc_nil (flat_of_row h.wf hu).2.2).1
  have hrows : rowsOf s = c.selL isRow ++ t :: c.selR isRow := by
    show sel isRow s.kids = _
    rw [hc, sel_plug isRow c _ hanc, hst]; simp
  have hlen : (c.selL isRow).length = p := by
    have hnd : (rowsOf s).Nodup := nodup_of_ids (sel_ids_nodup h.wf.nodup)
    have hs2 := split_getElem hp1.1
    rw [htt] at hs2
    rw [hs2] at hnd
    have := (nodup_split hnd (hs2.symm.trans hrows)).1
    rw [← this, List.length_take]; have := hp1.1; omega
  have hl : (rowsOf s).length = p + 1 + (c.selR isRow).length := by rw [hrows, ← hlen]; simp; omega
  obtain ⟨t1, B1, f1, k1, b1, w1⟩ := insertRow_ctx (index := i) (c := c) (t := t) n.toNat h [] rfl hc (by simp) hanc htm
    (.inr (by rcases hp1.2 with hq | hq <;> omega))
  obtain ⟨t2, B2, f2, k2, b2, w2⟩ := insertRow_ctx (index := i + nrows s) (c := c) (t := t) n.toNat h [] rfl hc (by simp) hanc htm
    (.inl ⟨by rw [hlen]; exact hp2, by rw [nrows_eq h]; omega⟩)
  unfold insertRows at e1 e2
  rw [if_neg (by omega), f1] at e1
  rw [if_neg (by omega), f2] at e2
  cases e1; cases e2
  apply sameContent_of_erase
  rw [k1, k2]
  apply erase_plug
  rw [erase_append, erase_append, erase_ofNewRows (by rw [b1, b2]) w1 w2]

/-- Hypotheses of C13 are met: created tables have rows. -/
example : ∃ s, newTable 0 "t".toList (3, 2) = (s, .ok ()) ∧ Inv s ∧ -(nrows s : Int) ≤ -2 ∧
    -(ncols s : Int) ≤ -2 ∧ s.cols.length = ncols s := by
  have e : newTable 0 "t".toList (3, 2) = ((newTable 0 "t".toList (3, 2)).1, .ok ()) := by decide +kernel
  exact ⟨_, e, (created_inStep 0 e).inv, by decide +kernel, by decide +kernel, by decide +kernel⟩

/-- **C13** is false for `remove_cell_span`: with a negative position it raises where the position
counted from the start succeeds. -/
theorem C13_remove_span_refuted : ∃ s : TState, Inv s ∧
    (removeCellSpan (-1, -2) s).2 = .error .ValueError ∧
    (removeCellSpan (-1 + nrows s, -2 + ncols s) s).2 = .ok () := by
  have e : newTable 0 "t".toList (1, 2) = ((newTable 0 "t".toList (1, 2)).1, .ok ()) := by decide +kernel
  have h := (created_inStep 0 e).inv
  exact ⟨_, (setCellSpan_eff h (0, 0) (1, 2)).inv, by decide +kernel, by decide +kernel⟩

/-- **C13** is false for column operations when there are fewer column infos than columns: the index
is counted from the end of two different lists. -/
theorem C13_out_of_step_refuted : ∃ s : TState, Inv s ∧ ncols s = 3 ∧
    (deleteColumns (-1) 1 s).2 = .ok () ∧ (deleteColumns (-1 + ncols s) 1 s).2 = .error .IndexError := by
  have e : newTable 0 "t".toList (1, 3) = ((newTable 0 "t".toList (1, 3)).1, .ok ()) := by decide +kernel
  have h := (created_inStep 0 e).inv
  exact ⟨_, (colsDelete_eff h 0 1).inv, by decide +kernel, by decide +kernel, by decide +kernel⟩

/-! ## C14 -/

/-- **C14** is false: `delete_rows` beyond the end removes rows and then raises. -/
theorem C14_delete_rows_refuted : ∃ s s' : TState, newTable 0 "t".toList (3, 1) = (s, .ok ()) ∧
    deleteRows 2 2 s = (s', .error .IndexError) ∧ nrows s = 3 ∧ nrows s' = 2 := by
  refine ⟨(newTable 0 "t".toList (3, 1)).1, (deleteRows 2 2 (newTable 0 "t".toList (3, 1)).1).1, ?_⟩
  decide +kernel

/-- **C14** is false: `delete_columns` beyond the end removes cells of the first row and then raises;
the table is no longer rectangular. -/
theorem C14_delete_columns_refuted : ∃ s s' : TState, newTable 0 "t".toList (2, 3) = (s, .ok ()) ∧
    deleteColumns 2 2 s = (s', .error .IndexError) ∧
    (docRows s'.kids).map (fun t => (cells t).length) = [2, 3] := by
  refine ⟨(newTable 0 "t".toList (2, 3)).1, (deleteColumns 2 2 (newTable 0 "t".toList (2, 3)).1).1, ?_⟩
  decide +kernel

/-- **C14** is false: `insert_columns` at an index behind the last column adds cells and then raises,
so the column infos are out of step with the cells. -/
theorem C14_insert_columns_refuted : ∃ s s' : TState, newTable 0 "t".toList (2, 3) = (s, .ok ()) ∧
    insertColumns 3 1 s = (s', .error .IndexError) ∧ ncols s' = 4 ∧ (docCols s'.kids).length = 3 := by
  refine ⟨(newTable 0 "t".toList (2, 3)).1, (insertColumns 3 1 (newTable 0 "t".toList (2, 3)).1).1, ?_⟩
  decide +kernel

/-- **C14** is false: `reset` with a bad size raises after the table has been emptied. -/
theorem C14_reset_refuted : ∃ s s' : TState, newTable 0 "t".toList (2, 3) = (s, .ok ()) ∧
    reset (0, 3) s = (s', .error .ValueError) ∧ s'.kids = .nil := by
  refine ⟨(newTable 0 "t".toList (2, 3)).1, (reset (0, 3) (newTable 0 "t".toList (2, 3)).1).1, ?_⟩
  decide +kernel

/-- Where C14 holds.  For `delete_rows` the range has to be inside the table or to start outside
of it; for column operations the column infos have to be in step and the range inside. -/
def Safe (op : Op) (s : TState) : Prop :=
  match op with
  | .appendRows _ | .insertRows _ _ | .setCell _ _ | .setName _ | .editCell _ _ _ _ | .editRow _ _ | .editColumn _ _ => True
  | .deleteRows i n =>
    i ≥ nrows s ∨ i < -2 * (nrows s : Int) ∨ ∃ p, Denotes (nrows s) i p ∧ p + n ≤ nrows s
  | .appendColumns n => n < 1 ∨ s.cols ≠ []
  | .insertColumns i n => n < 1 ∨ (s.cols.length = ncols s ∧
      (∀ t ∈ docRows s.kids, (cells t).length = ncols s) ∧ ∃ p, Denotes (ncols s) i p)
  | .deleteColumns i n => n < 1 ∨ n ≥ ncols s ∨ (s.cols.length = ncols s ∧
      (∀ t ∈ docRows s.kids, (cells t).length = ncols s) ∧ ∃ p, Denotes (ncols s) i p ∧ p + n ≤ ncols s)
  | .setSpan pos size => pos.1 < 0 ∨ pos.2 < 0 ∨ size.1 < 1 ∨ size.2 < 1 ∨
      pos.1 + size.1 > nrows s ∨ pos.2 + size.2 > ncols s
  | .removeSpan _ | .reset _ | .clear => False

theorem ok_of {α : Type} {s s' : TState} {m : Py TState α} {a : α} (h : m s = (s', .ok a))
    (he : ∃ e, (m s).2 = .error e) : (m s).1 = s := by
  obtain ⟨e, he⟩ := he
  rw [h] at he; cases he

theorem cols_len {s : TState} (h : Inv s) : s.cols.length = (docCols s.kids).length :=
  (shows_of_inv h).ncols

/-- **C14**, partial: rejected calls leave the table unchanged under `Safe` (the row operations,
assignments and names always, the others under the stated conditions).  What is missing is false, see
the refutations above. -/
theorem C14_unchanged_partial {s : TState} (h : Inv s) (op : Op) (hs : Safe op s)
    (he : ∃ e, (run op s).2 = .error e) : (run op s).1 = s := by
  cases op with
  | appendRows n =>
    show (appendRows n s).1 = s
    by_cases hn : n < 1
    · unfold appendRows; rw [if_pos hn]; rfl
    · by_cases hne : docRows s.kids = []
      · have hr : s.rows = [] := by rw [h.rows, rowsOf_doc, hne]; rfl
        have e1 : appendRow s = (s, .error .IndexError) := by
          unfold appendRow; rw [hr]; rfl
        unfold appendRows
        rw [if_neg hn]
        obtain ⟨k, hk⟩ : ∃ k, n.toNat = k + 1 := ⟨n.toNat - 1, by omega⟩
        rw [hk, repeatPy_succ_error e1]
      · obtain ⟨s', _, e1, _⟩ := C10_append_rows h hne (n := n) (by omega)
        exact ok_of e1 he
  | insertRows i n =>
    show (insertRows i n s).1 = s
    by_cases hn : n < 1
    · unfold insertRows; rw [if_pos hn]; rfl
    · by_cases hp : ∃ p, Denotes (docRows s.kids).length i p
      · obtain ⟨p, hp⟩ := hp
        obtain ⟨s', _, e1, _⟩ := C10_insert_rows h hp (n := n) (by omega)
        exact ok_of e1 he
      · rw [← rowsOf_doc, ← pyIdx_none] at hp
        have e1 : insertRow i s = (s, .error .IndexError) := by
          unfold insertRow; rw [rowId_eq h, hp]
        unfold insertRows
        rw [if_neg hn]
        obtain ⟨k, hk⟩ : ∃ k, n.toNat = k + 1 := ⟨n.toNat - 1, by omega⟩
        rw [hk, repeatPy_succ_error e1]
  | deleteRows i n =>
    show (deleteRows i n s).1 = s
    by_cases hn : n < 1 ∨ n ≥ nrows s
    · unfold deleteRows; rw [if_pos hn]
    · have hnr := (shows_of_inv h).nrows
      have hout : i ≥ nrows s ∨ i < -2 * (nrows s : Int) → (deleteRows i n s).1 = s := by
        intro ho
        have e1 : deleteRow (if i < 0 then i + nrows s else i) s = (s, .error .IndexError) := by
          have : pyIdx s.rows.length (if i < 0 then i + nrows s else i) = none := by
            show pyIdx (nrows s) _ = none
            unfold pyIdx
            rcases ho with ho | ho
            · rw [if_neg (show ¬ i < 0 by omega), if_pos (by omega), if_neg (by omega)]
            · rw [if_pos (show i < 0 by omega), if_neg (by omega), if_neg (by omega)]
          unfold deleteRow; rw [this]
        unfold deleteRows
        rw [if_neg hn]
        obtain ⟨k, hk⟩ : ∃ k, n.toNat = k + 1 := ⟨n.toNat - 1, by omega⟩
        rw [hk, repeatPy_succ_error e1]
      rcases hs with hs | hs | ⟨p, hp, hpn⟩
      · exact hout (.inl hs)
      · exact hout (.inr hs)
      · obtain ⟨s', e1, _⟩ := C10_delete_rows h (i := i) (n := n) (p := p) (by rw [← hnr]; exact hp)
          (by omega) (by omega) (by omega)
        exact ok_of e1 he
  | appendColumns n =>
    show (appendColumns n s).1 = s
    by_cases hn : n < 1
    · unfold appendColumns cellsAppendColumns
      rw [Py.bind_def, if_pos hn]
    · have hc : docCols s.kids ≠ [] := by
        rcases hs with hs | hs
        · exact absurd hs hn
        · intro h0
          have := cols_len h
          rw [h0] at this
          exact hs (List.length_eq_zero_iff.mp this)
      obtain ⟨s', _, e1, _⟩ := C11_append_columns h hc (n := n) (by omega)
      exact ok_of e1 he
  | insertColumns i n =>
    show (insertColumns i n s).1 = s
    by_cases hn : n < 1
    · unfold insertColumns cellsInsertColumns
      rw [Py.bind_def, if_pos hn]
    · rcases hs with hs | ⟨h1, h2, p, hp⟩
      · exact absurd hs hn
      · obtain ⟨s', _, e1, _⟩ := C11_insert_columns h h2 hp (by rw [← cols_len h, h1]; exact hp) (n := n) (by omega)
        exact ok_of e1 he
  | deleteColumns i n =>
    show (deleteColumns i n s).1 = s
    by_cases hn : n < 1 ∨ n ≥ ncols s
    · unfold deleteColumns cellsDeleteColumns
      rw [Py.bind_def, if_pos hn]
    · rcases hs with hs | hs | ⟨h1, h2, p, hp, hpn⟩
      · omega
      · omega
      · obtain ⟨s', e1, _⟩ := C11_delete_columns h h2 hp (by rw [← cols_len h, h1]; exact hp) (n := n)
          (by omega) (by omega) hpn (by rw [← cols_len h, h1]; exact hpn)
        exact ok_of e1 he
  | setCell p t =>
    show (tableSetCell p t s).1 = s
    obtain ⟨e, he⟩ := he
    simp only [run] at he
    unfold tableSetCell setCell at he ⊢
    split at he
    · rename_i hc
      rw [if_pos hc]
      cases hl : locate s p with
      | error _ => rfl
      | ok v => rw [hl] at he; cases he
    · rename_i hc; rw [if_neg hc]
  | setSpan pos size =>
    show (setCellSpan pos size s).1 = s
    have : ∃ e, checkPosAndSize s pos size = .error e := by
      unfold checkPosAndSize
      by_cases h1 : pos.1 < 0 ∨ pos.2 < 0
      · exact ⟨_, if_pos h1⟩
      · rw [if_neg h1]
        by_cases h2 : size.1 < 1 ∨ size.2 < 1
        · exact ⟨_, if_pos h2⟩
        · rw [if_neg h2]
          refine ⟨_, if_pos ?_⟩
          have hs' : pos.1 < 0 ∨ pos.2 < 0 ∨ size.1 < 1 ∨ size.2 < 1 ∨
            pos.1 + size.1 > nrows s ∨ pos.2 + size.2 > ncols s := hs
          omega
    obtain ⟨e, h1⟩ := this
    unfold setCellSpan; rw [h1]
  | setName n =>
    show (setName (some n) s).1 = s
    obtain ⟨e, he⟩ := he
    simp only [run] at he
    unfold setName at he ⊢
    simp only at he ⊢
    split at he
    · rename_i hv; rw [if_pos hv]
    · cases he
  | removeSpan p => exact hs.elim
  | reset sz => exact hs.elim
  | clear => exact hs.elim
  | editCell p a x k =>
    show (editCell p a x k s).1 = s
    obtain ⟨e, he⟩ := he
    simp only [run] at he
    unfold editCell at he ⊢
    cases hl : locate s p with
    | error _ => rfl
    | ok v => rw [hl] at he; cases he
  | editRow i a =>
    show (editRow i a s).1 = s
    obtain ⟨e, he⟩ := he
    simp only [run] at he
    unfold editRow at he ⊢
    cases hl : rowId s i with
    | error _ => rfl
    | ok v => rw [hl] at he; cases he
  | editColumn i a =>
    show (editColumn i a s).1 = s
    obtain ⟨e, he⟩ := he
    simp only [run] at he
    unfold editColumn at he ⊢
    cases hl : colId s i with
    | error _ => rfl
    | ok v => rw [hl] at he; cases he

/-- Rejected calls within `Safe`. -/
example : ∃ s, newTable 0 "t".toList (2, 2) = (s, .ok ()) ∧ Inv s ∧
    (Safe (.insertRows 2 1) s ∧ ∃ e, (run (.insertRows 2 1) s).2 = .error e) ∧
    (Safe (.deleteRows 5 1) s ∧ ∃ e, (run (.deleteRows 5 1) s).2 = .error e) ∧
    (Safe (.setSpan (1, 1) (2, 2)) s ∧ ∃ e, (run (.setSpan (1, 1) (2, 2)) s).2 = .error e) := by
  have e : newTable 0 "t".toList (2, 2) = ((newTable 0 "t".toList (2, 2)).1, .ok ()) := by decide +kernel
  exact ⟨_, e, (created_inStep 0 e).inv, ⟨trivial, .IndexError, by decide +kernel⟩,
    ⟨.inl (by decide +kernel), .IndexError, by decide +kernel⟩,
    ⟨.inr (.inr (.inr (.inr (.inl (by decide +kernel))))), .ValueError, by decide +kernel⟩⟩

/-! ## C59 -/

/-- Characters that may not be in a normalised name. -/
def badChar (c : Char) : Prop := c = '\t' ∨ c = '\r' ∨ c = '\'' ∨ c = '"'

/-- A normalised name: none of the four characters, no surrounding white space. -/
def Normalised (n : Str) : Prop :=
  (∀ c ∈ n, ¬ badChar c) ∧ (∀ c t, n = c :: t → isPySpace c = false) ∧
  (∀ c t, n = t ++ [c] → isPySpace c = false)

theorem normalizeName_normalised (n : Str) : Normalised (normalizeName n) := by
  refine ⟨?_, fun c t h => pyStrip_head h, fun c t h => pyStrip_last h⟩
  intro c hc
  have hm := (pyStrip_sublist _).subset hc
  obtain ⟨d, _, hd⟩ := List.mem_map.mp hm
  unfold badChar
  by_cases hb : d = '\t' ∨ d = '\r' ∨ d = '\'' ∨ d = '"'
  · rw [if_pos hb] at hd; subst hd; decide
  · rw [if_neg hb] at hd; subst hd; exact hb

theorem normalizeName_fix {n : Str} (h : Normalised n) : normalizeName n = n := by
  unfold normalizeName
  have : (n.map fun c => if c = '\t' ∨ c = '\r' ∨ c = '\'' ∨ c = '"' then ' ' else c) = n := by
    conv => rhs; rw [← List.map_id n]
    apply List.map_congr_left
    intro c hc
    exact if_neg (h.1 c hc)
  rw [this]
  exact pyStrip_eq h.2.1 h.2.2

theorem normalizeName_idem (n : Str) : normalizeName (normalizeName n) = normalizeName n :=
  normalizeName_fix (normalizeName_normalised n)

theorem dropWhile_all {p : Char → Bool} {s : Str} : s.dropWhile p = [] ↔ ∀ c ∈ s, p c = true := by
  induction s with
  | nil => simp
  | cons a s ih =>
    rw [List.dropWhile_cons]
    split
    · rename_i h; rw [ih]; simp [h]
    · rename_i h; simp [h]

theorem pyStrip_nil {s : Str} : pyStrip s = [] ↔ ∀ c ∈ s, isPySpace c = true := by
  unfold pyStrip
  rw [List.reverse_eq_nil_iff, dropWhile_all]
  constructor
  · intro h
    have : ∀ c ∈ s.dropWhile isPySpace, isPySpace c = true := fun c hc => h c (by simpa using hc)
    cases hd : s.dropWhile isPySpace with
    | nil => exact dropWhile_all.mp hd
    | cons c t =>
      have h1 := dropWhile_head hd
      rw [this c (by rw [hd]; simp)] at h1
      cases h1
  · intro h c hc
    exact h c ((List.dropWhile_suffix isPySpace).subset (by simpa using hc))

theorem normalizeName_nil {n : Str} : normalizeName n = [] ↔ ∀ c ∈ n, badChar c ∨ isPySpace c = true := by
  unfold normalizeName
  rw [pyStrip_nil]
  constructor
  · intro h c hc
    have := h _ (List.mem_map_of_mem hc)
    by_cases hb : badChar c
    · exact .inl hb
    · exact .inr (by
        have hb' : ¬ (c = '\t' ∨ c = '\r' ∨ c = '\'' ∨ c = '"') := hb
        simp only [if_neg hb'] at this; exact this)
  · intro h d hd
    obtain ⟨c, hc, rfl⟩ := List.mem_map.mp hd
    by_cases hb : c = '\t' ∨ c = '\r' ∨ c = '\'' ∨ c = '"'
    · simp only [if_pos hb]; decide
    · simp only [if_neg hb]
      rcases h c hc with h' | h'
      · exact absurd h' hb
      · exact h'

/-- **C59** a name read back after assignment is normalised; a normalised name reads back
unchanged; nothing else is changed. -/
theorem C59_assign {n : Str} {s s' : TState} (h : setName (some n) s = (s', .ok ())) :
    ∃ m, name s' = some m ∧ m ≠ [] ∧ Normalised m ∧ (Normalised n → m = n) ∧ s'.kids = s.kids ∧
      ∀ k, k ≠ "table:name" → s'.node.get k = s.node.get k := by
  unfold setName at h
  simp only at h
  split at h
  · cases h
  · rename_i he
    cases h
    refine ⟨normalizeName n, ?_, by simpa using he, normalizeName_normalised n, normalizeName_fix, rfl, ?_⟩
    · exact Elem.get_set_self _ _ _
    · intro k hk
      exact Attrs.get_set_ne _ _ hk

/-- **C59** exactly the names that consist of quotes and white space are rejected, with
ValueError and without effect. -/
theorem C59_reject (n : Str) (s : TState) :
    (∀ c ∈ n, badChar c ∨ isPySpace c = true) ↔ setName (some n) s = (s, .error .ValueError) := by
  rw [← normalizeName_nil]
  unfold setName
  simp only
  constructor
  · intro h; rw [if_pos (by rw [h]; rfl)]
  · intro h
    split at h
    · rename_i he; simpa using he
    · have := congrArg Prod.snd h; cases this

/-- **C59** every other name is accepted. -/
theorem C59_accept {n : Str} {c : Char} (hc : c ∈ n) (h1 : ¬ badChar c) (h2 : isPySpace c = false)
    (s : TState) : ∃ s', setName (some n) s = (s', .ok ()) := by
  unfold setName
  simp only
  rw [if_neg]
  · exact ⟨_, rfl⟩
  · intro h
    have : normalizeName n = [] := by simpa using h
    rcases normalizeName_nil.mp this c hc with h | h
    · exact h1 h
    · rw [h2] at h; cases h

/-- **C59** normalisation is idempotent. -/
theorem C59_idempotent (n : Str) : normalizeName (normalizeName n) = normalizeName n := normalizeName_idem n

example : normalizeName " 'a\tb' \r".toList = "a b".toList ∧ Normalised "a b".toList ∧
    ¬ Normalised " a".toList := by
  refine ⟨by decide +kernel, ?_, ?_⟩
  · have := normalizeName_normalised " 'a\tb' \r".toList
    rwa [show normalizeName " 'a\tb' \r".toList = "a b".toList by decide +kernel] at this
  · intro h
    have := h.2.1 ' ' ['a'] rfl
    revert this; decide

/-! ## C20 -/

/-- An empty table of `n` rows and `w` columns, as seen in the tree and by the API. -/
structure IsEmptyTable (n w : Nat) (s : TState) : Prop where
  tree : s.kids.toList = docCols s.kids ++ docRows s.kids
  rows : (docRows s.kids).length = n
  cols : (docCols s.kids).length = w
  emptyRows : ∀ t ∈ docRows s.kids, EmptyRow w t
  emptyCols : ∀ t ∈ docCols s.kids, EmptyColumn t
  nrows : nrows s = n
  ncols : ncols s = w
  infos : s.cols.length = w
  inv : Inv s

theorem isEmptyTable {n w : Nat} {s : TState} (hn : 0 < n) (h : EmptyTable n w s) : IsEmptyTable n w s :=
  ⟨by rw [← rowsOf_doc, ← colsOf_doc]; exact h.kids, by rw [← rowsOf_doc]; exact h.nrows,
    by rw [← colsOf_doc]; exact h.ncols, by rw [← rowsOf_doc]; exact h.rows,
    by rw [← colsOf_doc]; exact h.cols, by rw [nrows_eq h.inv, h.nrows],
    rect_ncols h.inv h.rect (fun h0 => by have := h.nrows; rw [h0] at this; simp at this; omega),
    by rw [h.inv.cols, List.length_map, h.ncols], h.inv⟩

/-- **C20** `reset`: an empty table of the requested size under the same name, all other
attributes are dropped. -/
theorem C20_reset {s : TState} {nm : Str} (hnm : name s = some nm) (hne : nm ≠ []) (hnorm : Normalised nm)
    {n w : Int} (hn : 1 ≤ n) (hw : 1 ≤ w) :
    ∃ s', reset (n, w) s = (s', .ok ()) ∧ IsEmptyTable n.toNat w.toNat s' ∧ name s' = some nm ∧
      s'.node.attrs = [("table:name", nm)] := by
  have hf := normalizeName_fix hnorm
  obtain ⟨s', e, hE, hnode, _⟩ := reset_spec hnm (by rw [hf]; exact hne) hn hw
  rw [hf] at hnode
  exact ⟨s', e, isEmptyTable (by omega) hE, by rw [name, hnode]; rfl, by rw [hnode]⟩

/-- **C20** `clear` keeps the size. -/
theorem C20_clear {s : TState} {nm : Str} (hnm : name s = some nm) (hne : nm ≠ []) (hnorm : Normalised nm)
    (hn : 1 ≤ nrows s) (hw : 1 ≤ ncols s) :
    ∃ s', clear s = (s', .ok ()) ∧ IsEmptyTable (nrows s) (ncols s) s' ∧ name s' = some nm ∧
      s'.node.attrs = [("table:name", nm)] := by
  obtain ⟨s', e, h⟩ := C20_reset hnm hne hnorm (n := nrows s) (w := ncols s) (by omega) (by omega)
  exact ⟨s', e, h⟩

/-- **C20** is false for a table without a name: `reset` raises after the table is emptied. -/
theorem C20_unnamed_refuted : ∃ s s' : TState, Inv s ∧ nrows s = 1 ∧ name s = none ∧
    reset (1, 1) s = (s', .error .AttributeError) ∧ s'.kids = .nil := by
  have e : newTable 0 "t".toList (1, 1) = ((newTable 0 "t".toList (1, 1)).1, .ok ()) := by decide +kernel
  have h := (created_inStep 0 e).inv
  refine ⟨{ (newTable 0 "t".toList (1, 1)).1 with node := { id := 0, tag := "table:table" } },
    (reset (1, 1) { (newTable 0 "t".toList (1, 1)).1 with node := { id := 0, tag := "table:table" } }).1,
    ⟨h.wf, h.rows, h.cols⟩, ?_⟩
  decide +kernel

/-- **C20** is false for a stored name that is not normalised: `reset` changes it. -/
theorem C20_name_refuted : ∃ s s' : TState, Inv s ∧ name s = some "it's".toList ∧
    reset (1, 1) s = (s', .ok ()) ∧ name s' = some "it s".toList := by
  have e : newTable 0 "t".toList (1, 1) = ((newTable 0 "t".toList (1, 1)).1, .ok ()) := by decide +kernel
  have h := (created_inStep 0 e).inv
  refine ⟨{ (newTable 0 "t".toList (1, 1)).1 with
      node := { id := 0, tag := "table:table", attrs := [("table:name", "it's".toList)] } },
    (reset (1, 1) { (newTable 0 "t".toList (1, 1)).1 with
      node := { id := 0, tag := "table:table", attrs := [("table:name", "it's".toList)] } }).1,
    ⟨h.wf, h.rows, h.cols⟩, ?_⟩
  decide +kernel

/-- Tables with a usable name. -/
def Named (s : TState) : Prop := ∃ nm, name s = some nm ∧ nm ≠ [] ∧ Normalised nm

theorem named_of_node {s s' : TState} (h : Named s) (hn : s'.node = s.node) : Named s' := by
  obtain ⟨nm, h1, h2⟩ := h
  exact ⟨nm, by unfold name at *; rw [hn]; exact h1, h2⟩

theorem step_named {s : TState} (h : Inv s) (hn : Named s) (op : Op) (hf : Fine op s) :
    Named (run op s).1 := by
  cases op with
  | appendRows n => exact named_of_node hn (appendRows_eff h n).rest.node
  | insertRows i n => exact named_of_node hn (insertRows_eff h i n).rest.node
  | deleteRows i n => exact named_of_node hn (deleteRows_eff h i n).rest.node
  | appendColumns n => exact named_of_node hn (appendColumns_eff h n).rest.node
  | insertColumns i n => exact named_of_node hn (insertColumns_eff h i n).rest.node
  | deleteColumns i n => exact named_of_node hn (deleteColumns_eff h i n).rest.node
  | setCell p t => exact named_of_node hn (tableSetCell_eff h p hf).rest.node
  | setSpan p sz => exact named_of_node hn (setCellSpan_eff h p sz).rest.node
  | removeSpan p => exact named_of_node hn (removeCellSpan_eff h p).rest.node
  | setName n =>
    show Named (setName (some n) s).1
    rcases hr : setName (some n) s with ⟨s', r⟩
    cases r with
    | ok u =>
      obtain ⟨m, h1, h2, h3, _⟩ := C59_assign hr
      exact ⟨m, h1, h2, h3⟩
    | error e =>
      have := C14_unchanged_partial h (.setName n) trivial ⟨e, by show (setName (some n) s).2 = _; rw [hr]⟩
      have h2 : (setName (some n) s).1 = s := this
      rw [hr] at h2
      simp only at h2
      rw [h2]; exact hn
  | reset sz =>
    have hok : (reset sz s).2 = .ok () := hf
    obtain ⟨n, w⟩ := sz
    obtain ⟨_, h3, h4⟩ := reset_ok_iff.mp hok
    obtain ⟨nm, h1, h2, h5⟩ := hn
    obtain ⟨s', e, _, h6, _⟩ := C20_reset h1 h2 h5 h3 h4
    show Named (reset (n, w) s).1
    rw [e]; exact ⟨nm, h6, h2, h5⟩
  | clear =>
    have hok : (reset (nrows s, ncols s) s).2 = .ok () := hf
    obtain ⟨_, h3, h4⟩ := reset_ok_iff.mp hok
    obtain ⟨nm, h1, h2, h5⟩ := hn
    obtain ⟨s', e, _, h6, _⟩ := C20_reset h1 h2 h5 h3 h4
    show Named (reset (nrows s, ncols s) s).1
    rw [e]; exact ⟨nm, h6, h2, h5⟩
  | editCell p a x k => exact named_of_node hn (editCell_eff h p hf).rest.node
  | editRow i a => exact named_of_node hn (editRow_eff h i a).rest.node
  | editColumn i a => exact named_of_node hn (editColumn_eff h i a).rest.node

theorem hist_named {s s' : TState} (h : Inv s) (hn : Named s) (hist : Hist s s') : Named s' := by
  induction hist with
  | refl => exact hn
  | call op hf hist ih => exact step_named (hist_inv h hist) ih op hf

/-- A created table has a usable name. -/
theorem created_named (id : Nat) {nm : Str} {size : Int × Int} {s : TState}
    (hc : newTable id nm size = (s, .ok ())) : Named s := by
  obtain ⟨n, w⟩ := size
  by_cases he : normalizeName nm = []
  · exfalso
    simp [newTable, setName, he, Py.bind_def] at hc
  · by_cases h1 : 1 ≤ n ∧ 1 ≤ w
    · obtain ⟨s'', e, hE, hnode⟩ := newTable_spec id he h1.1 h1.2
      rw [hc] at e; cases e
      exact ⟨normalizeName nm, by rw [name, hnode]; rfl, he, normalizeName_normalised nm⟩
    · exfalso
      simp [newTable, setName, he, Py.bind_def, cellsReset] at hc
      by_cases h2 : n < 1
      · rw [if_pos h2] at hc; simp at hc
      · rw [if_neg h2, if_pos (by omega)] at hc; simp at hc

/-- **C20** for created tables: after any history, `reset` with a positive size succeeds, gives an empty
table of that size and keeps the name. -/
theorem C20_created (id : Nat) {nm : Str} {size : Int × Int} {s s' : TState}
    (hc : newTable id nm size = (s, .ok ())) (hist : Hist s s') {n w : Int} (hn : 1 ≤ n) (hw : 1 ≤ w) :
    ∃ t, reset (n, w) s' = (t, .ok ()) ∧ IsEmptyTable n.toNat w.toNat t ∧ name t = name s' ∧
      t.node.attrs.length = 1 := by
  obtain ⟨m, h1, h2, h3⟩ := hist_named (created_inStep id hc).inv (created_named id hc) hist
  obtain ⟨t, e, hE, h4, h5⟩ := C20_reset h1 h2 h3 hn hw
  exact ⟨t, e, hE, by rw [h4, h1], by rw [h5]; rfl⟩

end Verif.Tbl
