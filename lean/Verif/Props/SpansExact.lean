import Verif.Props.Spans
/-!
# Properties C13, C14, C20 and C23, continued: exact statements where the property is false
-/
set_option linter.unusedSimpArgs false
namespace Verif.Tbl
open Verif Verif.Forest Verif.Cells Verif.TSpec

/-! ## C13: spans at negative positions -/

/-- **C13** is false for `remove_cell_span` on every cell with a span: with a negative position it raises
ValueError and changes nothing. -/
theorem C13_remove_span_negative_refuted (s : TState) {pos : Int × Int} (hneg : pos.1 < 0 ∨ pos.2 < 0) {t : Tree}
    (hg : getCell s pos = .ok t) {size : Int × Int} (hs : span t.1 = .ok size) (hne : size ≠ (1, 1)) :
    removeCellSpan pos s = (s, .error .ValueError) := by
  have h1 : isCellSpanning s pos = .ok true := by
    unfold isCellSpanning; rw [hg]; simp only [hs]; simp [hne]
  have h2 : TU.iterCellRange pos size = .error .ValueError := by
    unfold TU.iterCellRange; rw [if_pos hneg]
  unfold removeCellSpan
  rw [h1]; simp only [hg, hs, h2]

/-! ## C14: refused changes of spans -/

/-- **C14** for `set_cell_span`: a refused call leaves the table unchanged, but for one case: for the size
(1, 1) on a cell without both span attributes, KeyError is raised and a row span attribute is gone. -/
theorem C14_set_span_damage {s : TState} (h : Inv s) {pos size : Int × Int}
    {e : Exc} (he : (setCellSpan pos size s).2 = .error e) :
    setCellSpan pos size s = (s, .error e) ∨
    ∃ p t, pos = posInt p ∧ size = (1, 1) ∧ docCell s.kids p.1 p.2 = some t ∧ e = .KeyError ∧
      (∀ i j, docCell (setCellSpan pos size s).1.kids i j = if (i, j) = p then
        some (t.1.del "table:number-rows-spanned", t.2) else docCell s.kids i j) ∧
      (t.1.get "table:number-rows-spanned" = none ∨ t.1.get "table:number-columns-spanned" = none) ∧
      SameFrame s (setCellSpan pos size s).1 := by
  rcases setCellSpan_core h pos size with ⟨e', h0⟩ | ⟨p, t, s', hp, g1, g2, _, _, hin, ht, h0, hc⟩
  · left; rw [h0] at he ⊢; cases he; rfl
  · right
    have h11 : size = (1, 1) := by
      by_contra hne
      rw [h0] at he
      unfold setSpan at he
      simp only [Int.max_eq_right g1, Int.max_eq_right g2] at he
      rw [if_neg (fun hh => hne (Prod.ext hh.1 hh.2))] at he
      cases he
    subst h11
    have hset : setSpan (1, 1) t.1 = delSpanAttributes t.1 := by
      unfold setSpan; rfl
    rw [hset] at h0 hc
    have hbad : (delSpanAttributes t.1).2 = .error e := by rw [h0] at he; exact he
    rw [if_neg (by rw [hbad]; simp)] at hc
    have hR : ∀ q, q ≠ p → ¬ InR p (1, 1) q := by
      intro q hq hR
      unfold InR at hR
      exact hq (Prod.ext (by simp only at hR; omega) (by simp only at hR; omega))
    have hval : e = .KeyError ∧ (delSpanAttributes t.1).1 = t.1.del rowsSpanned ∧
        (t.1.get rowsSpanned = none ∨ t.1.get colsSpanned = none) := by
      cases hr : t.1.get rowsSpanned with
      | none =>
        have hd : delAttr rowsSpanned t.1 = (t.1, .error .KeyError) := by unfold delAttr; rw [hr]
        unfold delSpanAttributes at hbad ⊢
        rw [Py.bind_error hd] at hbad ⊢
        cases hbad; exact ⟨rfl, (elem_del_absent hr).symm, .inl rfl⟩
      | some v =>
        have hd : delAttr rowsSpanned t.1 = (t.1.del rowsSpanned, .ok ()) := by unfold delAttr; rw [hr]
        have hcg : (t.1.del rowsSpanned).get colsSpanned = t.1.get colsSpanned := by
          rw [Elem.get_del, if_neg (by simp [rowsSpanned, colsSpanned])]
        unfold delSpanAttributes at hbad ⊢
        rw [Py.bind_ok hd] at hbad ⊢
        cases hcs : t.1.get colsSpanned with
        | none =>
          unfold delAttr at hbad ⊢
          rw [hcg, hcs] at hbad ⊢
          cases hbad; exact ⟨rfl, rfl, .inr rfl⟩
        | some w =>
          unfold delAttr at hbad
          rw [hcg, hcs] at hbad; cases hbad
    obtain ⟨v1, v2, v3⟩ := hval
    refine ⟨p, t, hp, rfl, by rw [← cellAt_doc]; exact ht, v1, ?_, v3, ?_⟩
    · intro i j
      rw [h0, ← cellAt_doc, ← cellAt_doc, hc.cell]
      unfold spanCells
      rw [v2]
      by_cases hq : (i, j) = p
      · rw [if_pos hq, if_pos hq]; rfl
      · rw [if_neg hq, if_neg hq, if_neg (hR _ hq)]
    · rw [h0]; exact hc.frame

/-- The first part of a list sorted by a strict order up to one of its members. -/
theorem split_sorted {α : Type} {R : α → α → Prop} (hirr : ∀ a, ¬ R a a) (hasym : ∀ a b, R a b → ¬ R b a)
    {l : List α} (h : l.Pairwise R) {x : α} (hx : x ∈ l) :
    ∃ A B, l = A ++ x :: B ∧ ∀ q, q ∈ A ↔ q ∈ l ∧ R q x := by
  obtain ⟨A, B, rfl⟩ := List.append_of_mem hx
  refine ⟨A, B, rfl, fun q => ?_⟩
  rw [List.pairwise_append] at h
  obtain ⟨_, h2, h3⟩ := h
  constructor
  · intro hq; exact ⟨by simp [hq], h3 q hq x (by simp)⟩
  · rintro ⟨hq, hR⟩
    simp only [List.mem_append, List.mem_cons] at hq
    rcases hq with hq | rfl | hq
    · exact hq
    · exact absurd hR (hirr _)
    · exact absurd ((List.pairwise_cons.mp h2).1 q hq) (hasym _ _ hR)

/-- Positions of a rectangular table. -/
theorem cellAt_rect {s : TState} (h : Inv s) (hrect : ∀ t ∈ docRows s.kids, (cells t).length = ncols s) (q : Nat × Nat) :
    (∃ t, cellAt s q = some t) ↔ q.1 < nrows s ∧ q.2 < ncols s := by
  unfold cellAt
  rw [nrows_eq h]
  constructor
  · rintro ⟨t, ht⟩
    cases hu : (rowsOf s)[q.1]? with
    | none => rw [hu] at ht; cases ht
    | some u =>
      rw [hu, Option.bind_some] at ht
      have h1 := (List.getElem?_eq_some_iff.mp hu).1
      have h2 := (List.getElem?_eq_some_iff.mp ht).1
      have := hrect u (by rw [← rowsOf_doc]; exact List.mem_of_getElem? hu)
      unfold cells at this
      exact ⟨h1, by omega⟩
  · rintro ⟨h1, h2⟩
    rw [List.getElem?_eq_getElem h1, Option.bind_some]
    have := hrect _ (by rw [← rowsOf_doc]; exact List.getElem_mem h1)
    unfold cells at this
    exact ⟨_, List.getElem?_eq_getElem (by omega)⟩

/-- **C14** is false for `remove_cell_span` on a span that exceeds the table: the covered cells visited before the first
position outside of the table become cells (all of the rectangle inside the table if its columns
fit, else those of the first row), IndexError is raised, and the cell keeps its span. -/
theorem C14_remove_span_damage {s : TState} (h : Inv s)
    (hrect : ∀ t ∈ docRows s.kids, (cells t).length = ncols s) {p : Nat × Nat} {t : Tree}
    (ht : docCell s.kids p.1 p.2 = some t) {size : Int × Int} (hsp : span t.1 = .ok size)
    (hout : (nrows s : Int) < p.1 + size.1 ∨ (ncols s : Int) < p.2 + size.2) :
    ∃ s', removeCellSpan (posInt p) s = (s', .error .IndexError) ∧ SameFrame s s' ∧
      ∀ i j, docCell s'.kids i j =
        if InRect (posInt p) size i j ∧ ((p.2 : Int) + size.2 ≤ ncols s ∨ i = p.1) then
          (docCell s.kids i j).map fun u => (uncoverE u.1, u.2)
        else docCell s.kids i j := by
  have ht' : cellAt s p = some t := by rw [← cellAt_doc] at ht; exact ht
  obtain ⟨hp1, hp2⟩ := (cellAt_rect h hrect p).mp ⟨t, ht'⟩
  obtain ⟨g1, g2⟩ := span_pos hsp
  have hne : size ≠ (1, 1) := by rintro rfl; simp only at hout; omega
  obtain ⟨l, a, b, c, d, e, f⟩ := Address.C07_range (posInt p) size (by simp [posInt]) (by simp [posInt]) g1 g2
  -- the first position outside
  obtain ⟨x, hx, hxo, hbefore⟩ : ∃ x : Nat × Nat, posInt x ∈ l ∧ ¬ (x.1 < nrows s ∧ x.2 < ncols s) ∧
      ∀ q : Nat × Nat, (posInt q ∈ l ∧ Address.Before (posInt q) (posInt x)) ↔
        (InR p size q ∧ ((p.2 : Int) + size.2 ≤ ncols s ∨ q.1 = p.1) ∧ (q.1 < nrows s ∧ q.2 < ncols s)) := by
    by_cases hcols : (p.2 : Int) + size.2 ≤ ncols s
    · refine ⟨(nrows s, p.2), (c _).mpr ?_, by simp, ?_⟩
      · simp only [posInt]; omega
      · intro q
        rw [c]
        unfold Address.Before InR posInt
        simp only
        omega
    · refine ⟨(p.1, ncols s), (c _).mpr ?_, by simp, ?_⟩
      · simp only [posInt]; omega
      · intro q
        rw [c]
        unfold Address.Before InR posInt
        simp only
        omega
  obtain ⟨A, B, hl, hA⟩ := split_sorted (R := Address.Before) (by intro a; unfold Address.Before; omega)
    (by intro a b; unfold Address.Before; omega) b hx
  have hAp : ∃ A' : List (Nat × Nat), A = A'.map posInt ∧ ∀ q, q ∈ A' ↔
      (InR p size q ∧ ((p.2 : Int) + size.2 ≤ ncols s ∨ q.1 = p.1) ∧ (q.1 < nrows s ∧ q.2 < ncols s)) := by
    refine ⟨A.map fun q => (q.1.toNat, q.2.toNat), ?_, ?_⟩
    · rw [List.map_map]
      conv => lhs; rw [← List.map_id A]
      apply List.map_congr_left
      intro q hq
      have := (c q).mp ((hA q).mp hq).1
      simp only [posInt] at this
      apply Prod.ext <;> simp only [Function.comp, posInt, id] <;> omega
    · intro q
      rw [← hbefore, ← hA, List.mem_map]
      constructor
      · rintro ⟨y, hy, rfl⟩
        have := (c y).mp ((hA y).mp hy).1
        simp only [posInt] at this
        have hy' : posInt (y.1.toNat, y.2.toNat) = y := by
          apply Prod.ext <;> simp only [posInt] <;> omega
        rw [hy']; exact hy
      · intro hq; exact ⟨_, hq, by simp [posInt]⟩
  obtain ⟨A', hA', hm⟩ := hAp
  obtain ⟨s1, e1, c1⟩ := forCells (f := uncoverE) uncover_ok uncoverE_idem A' s h
    (fun q hq => (cellAt_rect h hrect q).mpr ((hm q).mp hq).2.2)
  have hxn : cellAt s1 x = none := by
    rw [c1.cell, if_neg (fun hq => hxo ((hm x).mp hq).2.2)]
    cases hc : cellAt s x with
    | none => rfl
    | some u => exact absurd ((cellAt_rect h hrect x).mp ⟨u, hc⟩) hxo
  have hloc : locate s1 (posInt x) = .error .IndexError := by
    have := getCell_nat c1.inv x
    rw [hxn] at this
    unfold getCell at this
    cases hl : locate s1 (posInt x) with
    | ok y => rw [hl] at this; cases this
    | error y => rw [hl] at this; simp only at this; rw [Except.error.inj this]
  have hun : uncoverCell (posInt x) s1 = (s1, .error .IndexError) := by
    unfold uncoverCell withCell; rw [hloc]
  have hg : getCell s (posInt p) = .ok t := by rw [getCell_nat h, ht']
  have hspn : isCellSpanning s (posInt p) = .ok true := by
    unfold isCellSpanning; rw [hg]; simp only [hsp]; simp [hne]
  have hfor : forPy uncoverCell l s = (s1, .error .IndexError) := by
    rw [hl, hA']
    have : ∀ (xs ys : List (Int × Int)) (s s1 : TState), forPy uncoverCell xs s = (s1, .ok ()) →
        forPy uncoverCell (xs ++ ys) s = forPy uncoverCell ys s1 := by
      intro xs
      induction xs with
      | nil => intro ys s s1 h; cases h; rfl
      | cons y xs ih =>
        intro ys s s1 h
        rw [forPy_cons_eq] at h
        rw [List.cons_append, forPy_cons_eq]
        rcases hy : uncoverCell y s with ⟨s2, r⟩
        rw [hy] at h
        cases r with
        | error _ => simp only at h; cases h
        | ok u => exact ih ys s2 s1 h
    rw [this _ _ _ _ e1]
    exact forPy_cons_error hun
  refine ⟨s1, ?_, c1.frame, ?_⟩
  · unfold removeCellSpan
    rw [hspn]; simp only [hg, hsp, a]
    exact Py.bind_error hfor
  · intro i j
    rw [← cellAt_doc, ← cellAt_doc, c1.cell]
    by_cases hex : i < nrows s ∧ j < ncols s
    · have : (i, j) ∈ A' ↔ InRect (posInt p) size i j ∧ ((p.2 : Int) + size.2 ≤ ncols s ∨ i = p.1) := by
        rw [hm, inR_iff]
        exact ⟨fun h => ⟨h.1, h.2.1⟩, fun h => ⟨h.1, h.2, hex⟩⟩
      simp only [this]
    · have hnone : cellAt s (i, j) = none := by
        cases hc : cellAt s (i, j) with
        | none => rfl
        | some u => exact absurd ((cellAt_rect h hrect (i, j)).mp ⟨u, hc⟩) hex
      rw [hnone]; simp

/-! ## C23 -/

/-- The cell without the attributes `ks`. -/
def without (ks : List String) (t : Tree) : Tree :=
  ({ t.1 with attrs := t.1.attrs.filter fun a => a.1 ∉ ks }, t.2)

theorem foldl_del_attrs (ks : List String) (e : Elem) :
    ks.foldl (fun e k => e.del k) e = { e with attrs := e.attrs.filter fun a => a.1 ∉ ks } := by
  induction ks generalizing e with
  | nil => simp
  | cons k ks ih =>
    rw [List.foldl_cons, ih]
    unfold Elem.del Attrs.del
    simp only [List.filter_filter, List.mem_cons, not_or]
    congr 2
    funext a
    simp [Bool.and_comm]

theorem uncover_cover_without {t : Tree} (ht : t.1.tag = cellTag) :
    (uncoverE (coverE t.1), t.2) = without spanAttrs t := by
  have hnc : covered t.1 = false := by unfold covered; rw [ht]; simp [cellTag, coveredTag]
  have h1 : coverE t.1 = { t.1 with tag := coveredTag, attrs := t.1.attrs.filter fun a => a.1 ∉ spanAttrs } := by
    unfold coverE
    rw [if_neg (by simp [hnc])]
    unfold setCovered
    rw [if_pos rfl, foldl_del_attrs]
    rfl
  unfold uncoverE
  rw [if_pos (by rw [h1]; simp [covered]), h1]
  simp only [setCovered, without]
  obtain ⟨⟨a, b, c, d, e⟩, k⟩ := t
  simp only at ht
  simp [ht]

theorem set_filter (a : Attrs) (k : String) (v : Str) (f : String → Bool) (hf : f k = false) :
    (Attrs.set a k v).filter (fun x => f x.1) = a.filter fun x => f x.1 := by
  induction a with
  | nil => simp [Attrs.set, hf]
  | cons x a ih =>
    obtain ⟨k0, v0⟩ := x
    unfold Attrs.set
    split
    · rename_i hk
      subst hk
      simp [List.filter_cons, hf]
    · simp only [List.filter_cons, ih]

theorem del_two_without (t : Tree) (v w : Str) :
    ((((t.1.set rowsSpanned v).set colsSpanned w).del rowsSpanned).del colsSpanned, t.2) =
      without twoSpanAttrs t := by
  unfold without Elem.del Elem.set Attrs.del
  simp only [List.filter_filter]
  congr 2
  have := set_filter (Attrs.set t.1.attrs rowsSpanned v) colsSpanned w
    (fun k => decide (k ∉ twoSpanAttrs)) (by simp [twoSpanAttrs, colsSpanned])
  have h2 := set_filter t.1.attrs rowsSpanned v
    (fun k => decide (k ∉ twoSpanAttrs)) (by simp [twoSpanAttrs, rowsSpanned])
  rw [← h2, ← this]
  congr 1
  funext a
  simp only [twoSpanAttrs, rowsSpanned, colsSpanned, List.mem_cons, List.not_mem_nil, or_false, not_or, Bool.decide_and]
  exact Bool.and_comm _ _

/-- **C23**, exact: after `set_cell_span` on cells that are not covered, `remove_cell_span` succeeds; the cell
at the position has lost its two span attributes, the other cells of the rectangle their span and matrix
attributes, and all the rest is as before. -/
theorem C23_undo_exact {s s1 : TState} (h : Inv s) {pos size : Int × Int} (hne : size ≠ (1, 1))
    (hcell : ∀ i j t, InRect pos size i j → docCell s.kids i j = some t → t.1.tag = "table:table-cell")
    (hset : setCellSpan pos size s = (s1, .ok ())) :
    ∃ s2, removeCellSpan pos s1 = (s2, .ok ()) ∧ SameFrame s s2 ∧ Inv s2 ∧
      ∀ i j, docCell s2.kids i j =
        if pos = ((i : Int), (j : Int)) then (docCell s.kids i j).map (without twoSpanAttrs)
        else if InRect pos size i j then (docCell s.kids i j).map (without spanAttrs)
        else docCell s.kids i j := by
  rcases setCellSpan_core h pos size with ⟨e, he⟩ | ⟨p, t, s1', hp, g1, g2, _, _, hin, ht, he, hc⟩
  · rw [he] at hset; have := congrArg Prod.snd hset; cases this
  · rw [he] at hset
    simp only [Prod.mk.injEq] at hset
    obtain ⟨rfl, hok⟩ := hset
    subst hp
    rw [if_pos hok] at hc
    have hkeys : ∀ q u, InR p size q → cellAt s q = some u → u.1.tag = cellTag := by
      intro q u hq hu
      exact hcell q.1 q.2 u ((inR_iff p size q.1 q.2).mp hq) (by rw [← cellAt_doc]; exact hu)
    have hpR : InR p size p := by unfold InR; omega
    have ktag := hkeys p t hpR ht
    have hset : setSpan size t.1 =
        ((t.1.set rowsSpanned (intStr size.1)).set colsSpanned (intStr size.2), .ok ()) := by
      unfold setSpan
      simp only [Int.max_eq_right g1, Int.max_eq_right g2]
      rw [if_neg (fun hh => hne (Prod.ext hh.1 hh.2))]
    have hun : ∀ e : Elem, e.tag = cellTag → uncoverE e = e := by
      intro e he
      unfold uncoverE; rw [if_neg (by simp [covered, he, cellTag, coveredTag])]
    generalize hE : (t.1.set rowsSpanned (intStr size.1)).set colsSpanned (intStr size.2) = E at hset
    have hEt : E.tag = cellTag := by rw [← hE]; exact ktag
    rw [hset, hun E hEt] at hc
    have ht1 : cellAt s1' p = some (E, t.2) := by rw [hc.cell]; unfold spanCells; rw [if_pos rfl]
    have hsp : span E = .ok size := by rw [← hE]; exact span_set g1 g2
    obtain ⟨s2, e2, c2⟩ := removeCellSpan_core hc.inv ht1 hsp hne (by
      intro q hq
      rw [hc.cell]; unfold spanCells
      by_cases hqp : q = p
      · exact ⟨_, if_pos hqp⟩
      · obtain ⟨u, hu, _⟩ := hin q hq
        rw [if_neg hqp, if_pos hq, hu]; exact ⟨_, rfl⟩)
    simp only [hun E hEt] at e2 c2
    have hdok : (delSpanAttributes E).2 = .ok () := by
      rw [delSpan_ok_iff, ← hE]
      constructor
      · rw [Elem.get_set, if_neg (by simp [rowsSpanned, colsSpanned]), Elem.get_set_self]; rfl
      · rw [Elem.get_set_self]; rfl
    have hdv : ((delSpanAttributes E).1, t.2) = without twoSpanAttrs t := by
      rw [delSpan_val hdok, ← hE]
      exact del_two_without t _ _
    have hdt : (delSpanAttributes E).1.tag = cellTag := by rw [delSpan_tag, hEt]
    rw [hdok] at e2
    simp only [hdok, if_true, hun _ hdt, hdv] at c2
    refine ⟨s2, e2, ?_, c2.inv, ?_⟩
    · have f1 := hc.frame
      have f2 := c2.frame
      exact ⟨f2.rows.trans f1.rows, f2.cols.trans f1.cols, f2.others.trans f1.others, f2.node.trans f1.node⟩
    · intro i j
      rw [← cellAt_doc, ← cellAt_doc, c2.cell]
      by_cases hqp : (i, j) = p
      · subst hqp
        rw [if_pos rfl, ht]
        simp [posInt]
      · have hpi : ¬ posInt p = ((i : Int), (j : Int)) := by
          intro he
          apply hqp
          have h1 := congrArg Prod.fst he
          have h2 := congrArg Prod.snd he
          simp only [posInt] at h1 h2
          exact Prod.ext (by simp only; omega) (by simp only; omega)
        rw [if_neg hqp, if_neg hpi]
        by_cases hq : InR p size (i, j)
        · rw [if_pos hq, if_pos ((inR_iff p size i j).mp hq), hc.cell]; unfold spanCells
          obtain ⟨u, hu, _⟩ := hin _ hq
          rw [if_neg hqp, if_pos hq, hu]
          simp only [Option.map_some, uncover_cover_without (hkeys _ u hq hu)]
        · rw [if_neg hq, if_neg (fun hh => hq ((inR_iff p size i j).mpr hh)), hc.cell]; unfold spanCells
          rw [if_neg hqp, if_neg hq]

theorem get_filter_none {a : Attrs} {ks : List String} :
    (a.filter fun x => x.1 ∉ ks) = a ↔ ∀ k ∈ ks, Attrs.get a k = none := by
  rw [List.filter_eq_self]
  constructor
  · intro h k hk
    induction a with
    | nil => rfl
    | cons x a ih =>
      obtain ⟨k0, v0⟩ := x
      unfold Attrs.get
      have h0 := h (k0, v0) (by simp)
      simp only [decide_eq_true_eq] at h0
      rw [if_neg (by rintro rfl; exact h0 hk)]
      exact ih fun y hy => h y (by simp [hy])
  · intro h x hx
    rw [decide_eq_true_eq]
    intro hk
    have := h _ hk
    clear h
    induction a with
    | nil => simp at hx
    | cons y a ih =>
      obtain ⟨k0, v0⟩ := y
      unfold Attrs.get at this
      split at this
      · cases this
      · rename_i hne
        rcases List.mem_cons.mp hx with rfl | hx
        · exact absurd rfl hne
        · exact ih hx this

theorem without_eq {ks : List String} {t : Tree} : without ks t = t ↔ ∀ k ∈ ks, t.1.get k = none := by
  unfold Elem.get
  rw [← get_filter_none]
  unfold without
  obtain ⟨⟨a, b, c, d, e⟩, k⟩ := t
  simp

/-- **C23**: the cells are as before exactly if the cell at the position had no span attribute (explicit spans
of one row or column), and the other cells of the rectangle no span or matrix attribute. -/
theorem C23_undo_iff {s s1 s2 : TState} (h : Inv s) {pos size : Int × Int} (hne : size ≠ (1, 1))
    (hcell : ∀ i j t, InRect pos size i j → docCell s.kids i j = some t → t.1.tag = "table:table-cell")
    (hset : setCellSpan pos size s = (s1, .ok ())) (hrem : (removeCellSpan pos s1).1 = s2) :
    (∀ i j, docCell s2.kids i j = docCell s.kids i j) ↔
    ∀ i j t, InRect pos size i j → docCell s.kids i j = some t →
      ∀ k ∈ (if pos = ((i : Int), (j : Int)) then ["table:number-rows-spanned", "table:number-columns-spanned"]
        else spanAttrs), t.1.get k = none := by
  obtain ⟨s2', e, _, _, hc⟩ := C23_undo_exact h hne hcell hset
  rw [e] at hrem
  simp only at hrem
  subst hrem
  constructor
  · intro hh i j t hR hd k hk
    have h1 := hc i j
    rw [hh, hd] at h1
    simp only [Option.map_some] at h1
    by_cases hp : pos = ((i : Int), (j : Int))
    · rw [if_pos hp] at h1 hk
      exact without_eq.mp (Option.some.inj h1).symm k hk
    · rw [if_neg hp, if_pos hR] at h1
      rw [if_neg hp] at hk
      exact without_eq.mp (Option.some.inj h1).symm k hk
  · intro hh i j
    rw [hc]
    by_cases hR : InRect pos size i j
    · cases hd : docCell s.kids i j with
      | none => simp
      | some t =>
        have h1 := hh i j t hR hd
        by_cases hp : pos = ((i : Int), (j : Int))
        · rw [if_pos hp] at h1 ⊢
          rw [Option.map_some]; exact congrArg some (without_eq.mpr h1)
        · rw [if_neg hp] at h1 ⊢
          rw [if_pos hR, Option.map_some, without_eq.mpr h1]
    · have hp : pos = ((i : Int), (j : Int)) → InRect pos size i j := by
        rintro rfl
        rcases setCellSpan_core h ((i : Int), (j : Int)) size with ⟨e, he⟩ | ⟨p, t, s1', hp, g1, g2, _⟩
        · rw [he] at hset; have := congrArg Prod.snd hset; cases this
        · unfold InRect; simp only; omega
      rw [if_neg (fun h => hR (hp h)), if_neg hR]

/-! ## C20 -/

/-- **C20**, exact: with a positive size `reset` succeeds exactly for a table with a name that is not only quotes
and white space, and the name afterwards is the normalised one. -/
theorem C20_reset_exact (s : TState) {n w : Int} (hn : 1 ≤ n) (hw : 1 ≤ w) :
    ((reset (n, w) s).2 = .ok () ↔ ∃ nm, name s = some nm ∧ ∃ c ∈ nm, ¬ badChar c ∧ isPySpace c = false) ∧
    ∀ s', reset (n, w) s = (s', .ok ()) → IsEmptyTable n.toNat w.toNat s' ∧
      ∃ nm m, name s = some nm ∧ name s' = some m ∧ Normalised m ∧ m = normalizeName nm ∧
        (name s' = name s ↔ Normalised nm) := by
  have hiff : ∀ nm : Str, normalizeName nm ≠ [] ↔ ∃ c ∈ nm, ¬ badChar c ∧ isPySpace c = false := by
    intro nm
    rw [ne_eq, normalizeName_nil]
    simp only [not_forall, not_or, Bool.not_eq_true, exists_prop]
  constructor
  · rw [reset_ok_iff]
    simp only [hiff]
    exact ⟨fun h => h.1, fun h => ⟨h, hn, hw⟩⟩
  · intro s' hr
    have hok : (reset (n, w) s).2 = .ok () := by rw [hr]
    obtain ⟨⟨nm, h1, h2⟩, _, _⟩ := reset_ok_iff.mp hok
    obtain ⟨s'', e, hE, hnode, _⟩ := reset_spec h1 h2 hn hw
    rw [hr] at e; cases e
    refine ⟨isEmptyTable (by omega) hE, nm, normalizeName nm, h1, by rw [name, hnode]; rfl, normalizeName_normalised nm, rfl, ?_⟩
    have hname : name s' = some (normalizeName nm) := by rw [name, hnode]; rfl
    rw [hname, h1]
    constructor
    · intro hh; rw [← Option.some.inj hh]; exact normalizeName_normalised nm
    · intro hh; rw [normalizeName_fix hh]

/-! ## The hypotheses are met -/

/-- A span of all cells of a table, of which a row is deleted later. -/
def tCut : TState := (deleteRows 2 1 (setCellSpan (0, 0) (3, 2) t32).1).1

theorem tCut_inv : Inv tCut :=
  hist_inv (created_inStep 0 t32_created).inv
    (.call (.deleteRows 2 1) trivial (.call (.setSpan (0, 0) (3, 2)) trivial (.refl _)))

/-- `C14_remove_span_damage`: the rectangle of three rows exceeds the two rows. -/
example : ∃ t s', docCell tCut.kids 0 0 = some t ∧ span t.1 = .ok (3, 2) ∧
    removeCellSpan (0, 0) tCut = (s', .error .IndexError) ∧
    docCell s'.kids 0 0 = some t ∧ docCell s'.kids 1 1 ≠ docCell tCut.kids 1 1 := by
  have h0 : (docCell tCut.kids 0 0).any (fun t => decide (span t.1 = .ok (3, 2))) = true := by decide +kernel
  cases hd : docCell tCut.kids 0 0 with
  | none => rw [hd] at h0; cases h0
  | some t =>
    rw [hd] at h0
    have hs : span t.1 = .ok (3, 2) := of_decide_eq_true h0
    obtain ⟨s', e, _, _⟩ := C14_remove_span_damage tCut_inv (by decide +kernel) (p := (0, 0)) hd hs
      (.inl (by decide +kernel))
    have e' : s' = (removeCellSpan (0, 0) tCut).1 := by
      have := congrArg Prod.fst e; exact this.symm
    refine ⟨t, s', rfl, hs, e, ?_, ?_⟩
    · rw [e', ← hd]; decide +kernel
    · rw [e']; decide +kernel

/-- `C13_remove_span_negative_refuted`: the cell at (0, 0), denoted from the end. -/
example : removeCellSpan (-2, -2) tCut = (tCut, .error .ValueError) := by
  have h0 : (getCell tCut (-2, -2)).toOption.any (fun t => decide (span t.1 = .ok (3, 2))) = true := by decide +kernel
  cases hd : getCell tCut (-2, -2) with
  | error _ => rw [hd] at h0; cases h0
  | ok t =>
    rw [hd] at h0
    exact C13_remove_span_negative_refuted tCut (.inl (by decide)) hd (of_decide_eq_true h0) (by decide)

/-- A cell with a row span and without a column span, and one with a matrix attribute. -/
def tHalf : TState := (tableSetCell (0, 0)
  (⟨100, "table:table-cell", [("table:number-rows-spanned", "1".toList)], none, none⟩, .nil) tMatrix).1

/-- `C14_set_span_damage`: the second case. -/
example : (setCellSpan (0, 0) (1, 1) tHalf).2 = .error .KeyError ∧
    docCell (setCellSpan (0, 0) (1, 1) tHalf).1.kids 0 0 ≠ docCell tHalf.kids 0 0 ∧
    (setCellSpan (2, 0) (2, 1) tHalf) = (tHalf, .error .ValueError) := by decide +kernel

/-- `C23_undo_exact` and `C23_undo_iff`: two cells that do not get their attributes back. -/
example : (setCellSpan (0, 0) (1, 2) tHalf).2 = .ok () ∧ (∀ u ∈ docRows tHalf.kids, ∀ t ∈ cells u,
      t.1.tag = "table:table-cell") ∧
    docCell (removeCellSpan (0, 0) (setCellSpan (0, 0) (1, 2) tHalf).1).1.kids 0 0 =
      (docCell tHalf.kids 0 0).map (without twoSpanAttrs) ∧
    docCell (removeCellSpan (0, 0) (setCellSpan (0, 0) (1, 2) tHalf).1).1.kids 0 1 =
      (docCell tHalf.kids 0 1).map (without spanAttrs) ∧
    docCell (removeCellSpan (0, 0) (setCellSpan (0, 0) (1, 2) tHalf).1).1.kids 0 0 ≠ docCell tHalf.kids 0 0 := by
  decide +kernel

/-- `C20_reset_exact`: a table that keeps its name, and one of which the name is read from a file and changes. -/
example : (reset (2, 2) t32).2 = .ok () ∧ name (reset (2, 2) t32).1 = some "t".toList ∧
    (reset (2, 2) { t32 with node := t32.node.set "table:name" "it's".toList }).2 = .ok () ∧
    name (reset (2, 2) { t32 with node := t32.node.set "table:name" "it's".toList }).1 = some "it s".toList := by
  decide +kernel

end Verif.Tbl
