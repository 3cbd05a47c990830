import Verif.Props.TableMore
import Verif.Proofs.Spans
import Verif.Spec.Span
/-! # Properties C22 to C25: cell spans -/
set_option linter.unusedSimpArgs false
namespace Verif.Tbl
open Verif Verif.Forest Verif.Cells Verif.TSpec

theorem inR_iff (p : Nat × Nat) (size : Int × Int) (i j : Nat) :
    InR p size (i, j) ↔ InRect (posInt p) size i j := by
  unfold InR InRect posInt; simp only; omega

theorem covered_iff (t : Tree) : covered t.1 = true ↔ IsCovered t := by
  unfold covered IsCovered coveredTag; simp

theorem foldl_del_get (ks : List String) (e : Elem) (k : String) :
    (ks.foldl (fun e k => e.del k) e).get k = if k ∈ ks then none else e.get k := by
  induction ks generalizing e with
  | nil => simp
  | cons x ks ih =>
    rw [List.foldl_cons, ih, Elem.get_del]
    by_cases h : k ∈ ks
    · simp [h]
    · by_cases hx : k = x <;> simp [h, hx]

theorem foldl_del_rest (ks : List String) (e : Elem) :
    (ks.foldl (fun e k => e.del k) e).text = e.text ∧ (ks.foldl (fun e k => e.del k) e).tail = e.tail := by
  induction ks generalizing e with
  | nil => exact ⟨rfl, rfl⟩
  | cons k ks ih => exact ⟨(ih _).1, (ih _).2⟩

theorem kept_cover (t : Tree) : Kept spanAttrs t (coverE t.1, t.2) := by
  unfold coverE
  split
  · exact ⟨rfl, rfl, rfl, rfl, fun _ _ => rfl⟩
  · refine ⟨setCovered_id _ _, ?_, ?_, rfl, ?_⟩
    · unfold setCovered; rw [if_pos rfl]; exact (foldl_del_rest _ _).1
    · unfold setCovered; rw [if_pos rfl]; exact (foldl_del_rest _ _).2
    · intro k hk
      simp only [setCovered, if_true]
      rw [foldl_del_get, if_neg (by simpa [CELL_ONLY_ATTRIBS, spanAttrs, rowsSpanned, colsSpanned] using hk)]
      rfl

theorem kept_uncover (t : Tree) : Kept [] t (uncoverE t.1, t.2) := by
  unfold uncoverE
  split
  · exact ⟨rfl, rfl, rfl, rfl, fun _ _ => rfl⟩
  · exact ⟨rfl, rfl, rfl, rfl, fun _ _ => rfl⟩

theorem _root_.Verif.TSpec.Kept.trans {ks : List String} {a b c : Tree} (h : Kept ks a b) (g : Kept ks b c) : Kept ks a c :=
  ⟨g.id.trans h.id, g.text.trans h.text, g.tail.trans h.tail, g.kids.trans h.kids,
    fun k hk => (g.attrs k hk).trans (h.attrs k hk)⟩

theorem _root_.Verif.TSpec.Kept.mono {ks ks' : List String} {a b : Tree} (h : Kept ks a b) (hs : ∀ k ∈ ks, k ∈ ks') :
    Kept ks' a b := ⟨h.id, h.text, h.tail, h.kids, fun k hk => h.attrs k fun hm => hk (hs k hm)⟩

/-- The two attributes that hold the span. -/
def twoSpanAttrs : List String := ["table:number-rows-spanned", "table:number-columns-spanned"]

theorem delAttr_kept (k : String) (e : Elem) (f : Forest) : Kept [k] (e, f) ((delAttr k e).1, f) := by
  unfold delAttr
  split
  · exact ⟨rfl, rfl, rfl, rfl, fun _ _ => rfl⟩
  · refine ⟨rfl, rfl, rfl, rfl, fun k' hk => ?_⟩
    simp only [Elem.get_del]
    rw [if_neg (by simpa using hk)]

theorem delSpan_kept (e : Elem) (f : Forest) : Kept twoSpanAttrs (e, f) ((delSpanAttributes e).1, f) := by
  unfold delSpanAttributes
  have h1 := delAttr_kept rowsSpanned e f
  rcases hd : delAttr rowsSpanned e with ⟨e1, x | x⟩
  · rw [Py.bind_error hd]; rw [hd] at h1
    exact h1.mono (by simp [twoSpanAttrs, rowsSpanned])
  · rw [Py.bind_ok hd]; rw [hd] at h1
    exact (h1.mono (by simp [twoSpanAttrs, rowsSpanned])).trans
      ((delAttr_kept colsSpanned e1 f).mono (by simp [twoSpanAttrs, colsSpanned]))

theorem setSpan_kept (size : Int × Int) (e : Elem) (f : Forest) :
    Kept twoSpanAttrs (e, f) ((setSpan size e).1, f) := by
  unfold setSpan
  split
  · exact delSpan_kept e f
  · refine ⟨rfl, rfl, rfl, rfl, fun k hk => ?_⟩
    simp only [Elem.get_set]
    simp only [twoSpanAttrs, List.mem_cons, List.not_mem_nil, or_false, not_or] at hk
    rw [if_neg (by simpa [colsSpanned] using hk.2), if_neg (by simpa [rowsSpanned] using hk.1)]

theorem delSpan_ok_iff (e : Elem) : (delSpanAttributes e).2 = .ok () ↔
    (e.get rowsSpanned).isSome ∧ (e.get colsSpanned).isSome := by
  unfold delSpanAttributes
  cases hr : e.get rowsSpanned with
  | none =>
    have hd : delAttr rowsSpanned e = (e, .error .KeyError) := by unfold delAttr; rw [hr]
    rw [Py.bind_error hd]; simp
  | some v =>
    have hd : delAttr rowsSpanned e = (e.del rowsSpanned, .ok ()) := by unfold delAttr; rw [hr]
    rw [Py.bind_ok hd]
    have hc : (e.del rowsSpanned).get colsSpanned = e.get colsSpanned := by
      rw [Elem.get_del, if_neg (by simp [rowsSpanned, colsSpanned])]
    cases hcs : e.get colsSpanned with
    | none => unfold delAttr; rw [hc, hcs]; simp
    | some w => unfold delAttr; rw [hc, hcs]; simp

theorem delSpan_val {e : Elem} (h : (delSpanAttributes e).2 = .ok ()) :
    (delSpanAttributes e).1 = (e.del rowsSpanned).del colsSpanned := by
  obtain ⟨h1, h2⟩ := (delSpan_ok_iff e).mp h
  obtain ⟨v, hv⟩ := Option.isSome_iff_exists.mp h1
  obtain ⟨w, hw⟩ := Option.isSome_iff_exists.mp h2
  have hd : delAttr rowsSpanned e = (e.del rowsSpanned, .ok ()) := by unfold delAttr; rw [hv]
  have hc : (e.del rowsSpanned).get colsSpanned = some w := by
    rw [Elem.get_del, if_neg (by simp [rowsSpanned, colsSpanned]), hw]
  unfold delSpanAttributes
  rw [Py.bind_ok hd]
  unfold delAttr; rw [hc]

theorem span_congr {e e' : Elem} (h1 : e'.get rowsSpanned = e.get rowsSpanned)
    (h2 : e'.get colsSpanned = e.get colsSpanned) : span e' = span e := by
  unfold span spanAttr; rw [h1, h2]

theorem span_none {e : Elem} (h1 : e.get rowsSpanned = none) (h2 : e.get colsSpanned = none) :
    span e = .ok (1, 1) := by
  unfold span spanAttr; rw [h1, h2]

theorem span_set {e : Elem} {r c : Int} (h1 : 1 ≤ r) (h2 : 1 ≤ c) :
    span ((e.set rowsSpanned (intStr r)).set colsSpanned (intStr c)) = .ok (r, c) := by
  unfold span spanAttr
  rw [Elem.get_set, if_neg (by simp [rowsSpanned, colsSpanned]), Elem.get_set_self, Elem.get_set_self]
  simp only [pyInt_intStr]
  rw [Int.max_eq_right h1, Int.max_eq_right h2]

theorem span_setSpan {e : Elem} {size : Int × Int} (h1 : 1 ≤ size.1) (h2 : 1 ≤ size.2)
    (hok : (setSpan size e).2 = .ok ()) : span (setSpan size e).1 = .ok size := by
  unfold setSpan at *
  simp only [Int.max_eq_right h1, Int.max_eq_right h2] at *
  split at hok
  · rename_i h11
    rw [if_pos h11]
    have hs : size = (1, 1) := Prod.ext h11.1 h11.2
    rw [delSpan_val hok, hs]
    apply span_none
    · rw [Elem.get_del, if_neg (by simp [rowsSpanned, colsSpanned]), Elem.get_del, if_pos rfl]
    · rw [Elem.get_del, if_pos rfl]
  · rename_i h11
    rw [if_neg h11]
    exact span_set h1 h2

theorem span_uncoverE (e : Elem) : span (uncoverE e) = span e := by
  unfold uncoverE; split <;> rfl

theorem map_shape {s s' : TState} (b : SameShape s s') :
    (docRows s'.kids).map (fun t => (t.1, (cells t).length)) =
      (docRows s.kids).map (fun t => (t.1, (cells t).length)) := by
  rw [← rowsOf_doc, ← rowsOf_doc]
  unfold SameShape RowsRel at b
  generalize rowsOf s = x at b
  generalize rowsOf s' = y at b
  induction b with
  | nil => rfl
  | cons hx _ ih =>
    rw [List.map_cons, List.map_cons, ih]; congr 1
    rw [hx.1, cells, cells, length_toList, length_toList]; exact congrArg _ hx.2

/-- Rows (without their cells), columns and everything outside rows and columns are the same. -/
structure SameFrame (s s' : TState) : Prop where
  rows : (docRows s'.kids).map (fun t => (t.1, (cells t).length)) =
    (docRows s.kids).map (fun t => (t.1, (cells t).length))
  cols : docCols s'.kids = docCols s.kids
  others : others s'.kids = others s.kids
  node : s'.node = s.node

theorem Cellwise.frame {s s' : TState} {g} (h : Cellwise s s' g) : SameFrame s s' :=
  ⟨map_shape h.shape, by rw [← colsOf_doc, ← colsOf_doc, h.cols],
    by rw [← skel_others, ← skel_others, h.rest.skel], h.rest.node⟩

/-! ## C22 -/

/-- **C22**: a successful `set_cell_span` covers exactly the rectangle.  (`Kept` says that content,
text and all attributes but the listed ones stay.) -/
theorem C22_set_span {s s' : TState} (h : Inv s) {pos size : Int × Int}
    (hr : setCellSpan pos size s = (s', .ok ())) :
    (∃ (i j : Nat) (t t' : Tree), pos = ((i : Int), (j : Int)) ∧ docCell s.kids i j = some t ∧
      docCell s'.kids i j = some t' ∧ span t'.1 = .ok size ∧ ¬ IsCovered t' ∧
      Kept ["table:number-rows-spanned", "table:number-columns-spanned"] t t') ∧
    (∀ i j : Nat, InRect pos size i j → ((i : Int), (j : Int)) ≠ pos →
      ∃ t t', docCell s.kids i j = some t ∧ docCell s'.kids i j = some t' ∧ IsCovered t' ∧
        span t'.1 = .ok (1, 1) ∧ Kept spanAttrs t t') ∧
    (∀ i j : Nat, ¬ InRect pos size i j → docCell s'.kids i j = docCell s.kids i j) ∧
    SameFrame s s' ∧ Inv s' := by
  rcases setCellSpan_core h pos size with ⟨e, he⟩ | ⟨p, t, s1, hp, g1, g2, _, _, hin, ht, he, hc⟩
  · rw [he] at hr; have := congrArg Prod.snd hr; cases this
  · rw [he] at hr
    simp only [Prod.mk.injEq] at hr
    obtain ⟨rfl, hok⟩ := hr
    subst hp
    rw [if_pos hok] at hc
    obtain ⟨pi, pj⟩ := p
    refine ⟨⟨pi, pj, t, (uncoverE (setSpan size t.1).1, t.2), rfl, ?_, ?_, ?_, ?_, ?_⟩, ?_, ?_,
      hc.frame, hc.inv⟩
    · rw [← cellAt_doc]; exact ht
    · rw [← cellAt_doc, hc.cell]; unfold spanCells; rw [if_pos rfl]
    · rw [span_uncoverE]; exact span_setSpan g1 g2 hok
    · rw [← covered_iff]; simp [covered_uncoverE]
    · exact (setSpan_kept size t.1 t.2).trans ((kept_uncover ((setSpan size t.1).1, t.2)).mono (by simp))
    · intro i j hR hne
      rw [← inR_iff] at hR
      obtain ⟨u, hu, hus⟩ := hin _ hR
      refine ⟨u, (coverE u.1, u.2), by rw [← cellAt_doc]; exact hu, ?_, ?_, ?_, kept_cover u⟩
      · rw [← cellAt_doc, hc.cell]
        unfold spanCells
        rw [if_neg (fun he => hne (by rw [← he]; rfl)), if_pos hR, hu]; rfl
      · rw [← covered_iff]; exact covered_coverE _
      · unfold coverE
        split
        · exact hus
        · apply span_none
          · rw [setCovered, if_pos rfl, foldl_del_get, if_pos (by simp [CELL_ONLY_ATTRIBS])]
          · rw [setCovered, if_pos rfl, foldl_del_get, if_pos (by simp [CELL_ONLY_ATTRIBS])]
    · intro i j hR
      rw [← inR_iff] at hR
      rw [← cellAt_doc, ← cellAt_doc, hc.cell]
      unfold spanCells
      rw [if_neg (fun he => hR (by rw [he]; unfold InR; simp only; omega)), if_neg hR]

/-- **C22**: and it does succeed in a rectangular table for every rectangle of more than one cell that
lies in the table and contains no spanning cell. -/
theorem C22_succeeds {s : TState} (h : Inv s)
    (hrect : ∀ t ∈ docRows s.kids, (cells t).length = ncols s) {pos size : Int × Int}
    (h1 : 0 ≤ pos.1 ∧ 0 ≤ pos.2) (h2 : 1 ≤ size.1 ∧ 1 ≤ size.2) (h3 : size ≠ (1, 1))
    (h4 : pos.1 + size.1 ≤ (docRows s.kids).length ∧ pos.2 + size.2 ≤ ncols s)
    (h5 : ∀ i j t, InRect pos size i j → docCell s.kids i j = some t → span t.1 = .ok (1, 1)) :
    ∃ s', setCellSpan pos size s = (s', .ok ()) := by
  obtain ⟨p, rfl⟩ : ∃ p, pos = posInt p := ⟨(pos.1.toNat, pos.2.toNat), by
    apply Prod.ext <;> simp only [posInt] <;> omega⟩
  obtain ⟨l, r1, r2, r3, r4⟩ := range_nat p (size := size) h2.1 h2.2
  have hex : ∀ q, InR p size q → ∃ t, cellAt s q = some t := by
    intro q hq
    have hq1 : q.1 < (docRows s.kids).length := by unfold InR posInt at *; simp only at *; omega
    have hq2 : q.2 < ncols s := by unfold InR posInt at *; simp only at *; omega
    obtain ⟨t, ht, _⟩ := getCell_doc h hrect (pos := posInt q) (i := q.1) (j := q.2)
      ⟨hq1, .inl rfl⟩ ⟨hq2, .inl rfl⟩
    exact ⟨t, by rw [← ht, ← cellAt_doc]⟩
  have hs : hasSpanned s (l.map posInt) = .ok false := by
    apply hasSpanned_of h
    intro q hq
    have hq' := (r3 q).mp hq
    obtain ⟨t, ht⟩ := hex q hq'
    refine ⟨t, ht, h5 q.1 q.2 t ?_ ?_⟩
    · rw [← inR_iff]; exact hq'
    · rw [← cellAt_doc]; exact ht
  have hck : checkPosAndSize s (posInt p) size = .ok () := by
    unfold checkPosAndSize
    rw [if_neg (by omega), if_neg (by omega), if_neg]
    rw [nrows_eq h, rowsOf_doc]; omega
  rcases setCellSpan_core h (posInt p) size with ⟨e, he⟩ | ⟨p', t, s1, hp, _, _, _, _, _, ht, he, hc⟩
  · exfalso
    obtain ⟨t, ht⟩ := hex p (by unfold InR; omega)
    -- the error would come from one of the checks
    obtain ⟨s1, e1, c1⟩ := forCells (f := coverE) cover_ok coverE_idem l.tail s h (fun q hq =>
      hex q ((r4 q).mp hq).1)
    have ht1 : cellAt s1 p = some t := by
      rw [c1.cell, if_neg (fun hm => ((r4 p).mp hm).2 rfl)]; exact ht
    obtain ⟨s2, e2, c2⟩ := withCell_at c1.inv (setSpan_ok size) ht1
    have ht2 : cellAt s2 p = some ((setSpan size t.1).1, t.2) := by rw [c2.cell, if_pos rfl]
    obtain ⟨s3, e3, c3⟩ := withCell_at c2.inv uncover_ok ht2
    have hok : (setSpan size t.1).2 = .ok () := by
      unfold setSpan
      simp only [Int.max_eq_right h2.1, Int.max_eq_right h2.2]
      rw [if_neg (fun hh => h3 (Prod.ext hh.1 hh.2))]
    have e0 : setCellSpan (posInt p) size s = (s3, .ok ()) := by
      unfold setCellSpan
      rw [hck]; simp only [r1, r2, hs]
      have e1' : forPy coverCell (l.tail.map posInt) s = (s1, .ok ()) := e1
      rw [Py.bind_ok e1']
      rw [hok] at e2
      rw [Py.bind_ok e2]
      exact e3
    rw [e0] at he
    have := congrArg Prod.snd he; cases this
  · refine ⟨s1, ?_⟩
    rw [he]
    unfold setSpan
    simp only [Int.max_eq_right h2.1, Int.max_eq_right h2.2]
    rw [if_neg (fun hh => h3 (Prod.ext hh.1 hh.2))]

/-- A new 3 by 2 table. -/
def t32 : TState := (newTable 0 "t".toList (3, 2)).1

/-- The hypotheses of C22 are met by a new table and a 2 by 2 rectangle. -/
example : ∃ s', setCellSpan (1, 0) (2, 2) t32 = (s', .ok ()) := by
  refine ⟨(setCellSpan (1, 0) (2, 2) t32).1, ?_⟩
  have h : (setCellSpan (1, 0) (2, 2) t32).2 = .ok () := by decide +kernel
  exact Prod.ext rfl h

/-- Not stated by C22 or C24: a span of (1, 1) on an ordinary cell raises KeyError. -/
theorem C22_unit_size_keyerror : (setCellSpan (0, 0) (1, 1) t32).2 = .error .KeyError := by decide +kernel

/-! ## C23 -/

theorem set_absent {a : Attrs} {k : String} {v : Str} (h : Attrs.get a k = none) :
    Attrs.set a k v = a ++ [(k, v)] := by
  induction a with
  | nil => rfl
  | cons p a ih =>
    obtain ⟨k0, v0⟩ := p
    unfold Attrs.get at h
    split at h
    · cases h
    · rename_i hne
      rw [Attrs.set, if_neg hne, ih h]; rfl

theorem del_absent {a : Attrs} {k : String} (h : Attrs.get a k = none) : Attrs.del a k = a := by
  induction a with
  | nil => rfl
  | cons p a ih =>
    obtain ⟨k0, v0⟩ := p
    unfold Attrs.get at h
    split at h
    · cases h
    · rename_i hne
      have := ih h
      unfold Attrs.del at *
      rw [List.filter_cons, if_pos (by simpa using hne), this]

theorem elem_del_absent {e : Elem} {k : String} (h : e.get k = none) : e.del k = e := by
  unfold Elem.del; rw [del_absent h]

theorem del_two {e : Elem} (h1 : e.get rowsSpanned = none) (h2 : e.get colsSpanned = none) (v w : Str) :
    (((e.set rowsSpanned v).set colsSpanned w).del rowsSpanned).del colsSpanned = e := by
  have e1 : Attrs.set e.attrs rowsSpanned v = e.attrs ++ [(rowsSpanned, v)] := set_absent h1
  have e2 : Attrs.set (e.attrs ++ [(rowsSpanned, v)]) colsSpanned w =
      e.attrs ++ [(rowsSpanned, v)] ++ [(colsSpanned, w)] := by
    apply set_absent
    rw [← e1, Attrs.get_set, if_neg (by simp [rowsSpanned, colsSpanned])]; exact h2
  have d1 : Attrs.del e.attrs rowsSpanned = e.attrs := del_absent h1
  have d2 : Attrs.del e.attrs colsSpanned = e.attrs := del_absent h2
  unfold Elem.del Elem.set
  simp only [e1, e2]
  unfold Attrs.del at *
  simp only [List.filter_append, d1, d2]
  simp [rowsSpanned, colsSpanned]

theorem uncover_cover {e : Elem} (ht : e.tag = cellTag) (ha : ∀ k ∈ CELL_ONLY_ATTRIBS, e.get k = none) :
    uncoverE (coverE e) = e := by
  have hnc : covered e = false := by unfold covered; rw [ht]; simp [cellTag, coveredTag]
  have hd : ∀ (ks : List String) (e : Elem), (∀ k ∈ ks, e.get k = none) →
      ks.foldl (fun e k => e.del k) e = e := by
    intro ks
    induction ks with
    | nil => intro e _; rfl
    | cons k ks ih =>
      intro e he
      rw [List.foldl_cons, elem_del_absent (he k (by simp))]
      exact ih e fun k' hk' => he k' (by simp [hk'])
  have h1 : coverE e = { e with tag := coveredTag } := by
    unfold coverE
    rw [if_neg (by simp [hnc])]
    unfold setCovered
    rw [if_pos rfl]
    exact hd _ _ fun k hk => ha k hk
  unfold uncoverE
  rw [if_pos (by rw [h1]; simp [covered]), h1]
  simp only [setCovered]
  cases e
  simp only at ht
  simp [ht]

theorem rows_of_cells {s s' : TState} (hs : SameShape s s') (hc : ∀ p, cellAt s' p = cellAt s p) :
    rowsOf s' = rowsOf s := by
  apply List.ext_getElem?
  intro i
  unfold SameShape RowsRel at hs
  have hlen := List.Forall₂.length_eq hs
  cases hi : (rowsOf s)[i]? with
  | none =>
    rw [List.getElem?_eq_none_iff] at hi ⊢; omega
  | some u =>
    have hl := (List.getElem?_eq_some_iff.mp hi).1
    have hu' : (rowsOf s')[i]? = some (rowsOf s')[i] := List.getElem?_eq_getElem (by omega)
    have hrel := (List.forall₂_iff_get.mp hs).2 i hl (by omega)
    have hu : (rowsOf s)[i] = u := (List.getElem?_eq_some_iff.mp hi).2
    simp only [List.get_eq_getElem, hu] at hrel
    rw [hu']
    congr 1
    refine Prod.ext hrel.1 ?_
    apply toList_injective
    apply List.ext_getElem?
    intro j
    have := hc (i, j)
    unfold cellAt at this
    simp only [hi, hu', Option.bind_some] at this
    exact this

/-- **C23** (partial: the property allows any rectangle without covered or spanning cell; here the
cells must also have none of the attributes that only uncovered cells may have, see
`C23_matrix_refuted`). `remove_cell_span` undoes `set_cell_span`. -/
theorem C23_undo_partial {s s1 : TState} (h : Inv s) {pos size : Int × Int} (hne : size ≠ (1, 1))
    (hcell : ∀ i j t, InRect pos size i j → docCell s.kids i j = some t →
      t.1.tag = "table:table-cell" ∧ ∀ k ∈ spanAttrs, t.1.get k = none)
    (hset : setCellSpan pos size s = (s1, .ok ())) :
    ∃ s2, removeCellSpan pos s1 = (s2, .ok ()) ∧ docRows s2.kids = docRows s.kids ∧
      docCols s2.kids = docCols s.kids ∧ others s2.kids = others s.kids ∧ s2.node = s.node ∧ Inv s2 := by
  rcases setCellSpan_core h pos size with ⟨e, he⟩ | ⟨p, t, s1', hp, g1, g2, _, _, hin, ht, he, hc⟩
  · rw [he] at hset; have := congrArg Prod.snd hset; cases this
  · rw [he] at hset
    simp only [Prod.mk.injEq] at hset
    obtain ⟨rfl, hok⟩ := hset
    subst hp
    rw [if_pos hok] at hc
    have hkeys : ∀ q u, InR p size q → cellAt s q = some u → u.1.tag = cellTag ∧
        ∀ k ∈ CELL_ONLY_ATTRIBS, u.1.get k = none := by
      intro q u hq hu
      exact hcell q.1 q.2 u ((inR_iff p size q.1 q.2).mp hq) (by rw [← cellAt_doc]; exact hu)
    have hpR : InR p size p := by unfold InR; omega
    obtain ⟨ktag, katt⟩ := hkeys p t hpR ht
    have hset : setSpan size t.1 =
        ((t.1.set rowsSpanned (intStr size.1)).set colsSpanned (intStr size.2), .ok ()) := by
      unfold setSpan
      simp only [Int.max_eq_right g1, Int.max_eq_right g2]
      rw [if_neg (fun hh => hne (Prod.ext hh.1 hh.2))]
    have hun : ∀ e : Elem, e.tag = cellTag → uncoverE e = e := by
      intro e he
      unfold uncoverE; rw [if_neg (by simp [covered, he, cellTag, coveredTag])]
    generalize hE : (t.1.set rowsSpanned (intStr size.1)).set colsSpanned (intStr size.2) = E at hset
    have hEt : E.tag = cellTag := by rw [← hE]; exact ktag
    rw [hset, hun E hEt] at hc
    have ht1 : cellAt s1' p = some (E, t.2) := by rw [hc.cell]; unfold spanCells; rw [if_pos rfl]
    have hsp : span E = .ok size := by rw [← hE]; exact span_set g1 g2
    obtain ⟨s2, e2, c2⟩ := removeCellSpan_core hc.inv ht1 hsp hne (by
      intro q hq
      rw [hc.cell]; unfold spanCells
      by_cases hqp : q = p
      · exact ⟨_, if_pos hqp⟩
      · obtain ⟨u, hu, _⟩ := hin q hq
        rw [if_neg hqp, if_pos hq, hu]; exact ⟨_, rfl⟩)
    simp only [hun E hEt] at e2 c2
    have hdok : (delSpanAttributes E).2 = .ok () := by
      rw [delSpan_ok_iff, ← hE]
      constructor
      · rw [Elem.get_set, if_neg (by simp [rowsSpanned, colsSpanned]), Elem.get_set_self]; rfl
      · rw [Elem.get_set_self]; rfl
    have hdv : (delSpanAttributes E).1 = t.1 := by
      rw [delSpan_val hdok, ← hE]
      exact del_two (katt _ (by simp [CELL_ONLY_ATTRIBS])) (katt _ (by simp [CELL_ONLY_ATTRIBS])) _ _
    rw [hdok] at e2
    simp only [hdok, if_true, hdv, hun t.1 ktag] at c2
    have hcells : ∀ q, cellAt s2 q = cellAt s q := by
      intro q
      rw [c2.cell]
      by_cases hqp : q = p
      · subst hqp; rw [if_pos rfl, ht]
      · rw [if_neg hqp]
        by_cases hq : InR p size q
        · rw [if_pos hq, hc.cell]; unfold spanCells
          obtain ⟨u, hu, _⟩ := hin q hq
          rw [if_neg hqp, if_pos hq, hu]
          obtain ⟨k1, k2⟩ := hkeys q u hq hu
          simp only [Option.map_some, uncover_cover k1 k2]
        · rw [if_neg hq, hc.cell]; unfold spanCells
          rw [if_neg hqp, if_neg hq]
    have hrows := rows_of_cells (hc.shape.trans c2.shape) hcells
    refine ⟨s2, e2, ?_, ?_, ?_, ?_, c2.inv⟩
    · rw [← rowsOf_doc, ← rowsOf_doc, hrows]
    · rw [← colsOf_doc, ← colsOf_doc, c2.cols, hc.cols]
    · rw [← skel_others, ← skel_others, c2.rest.skel, hc.rest.skel]
    · rw [c2.rest.node, hc.rest.node]

/-- **C23**: `remove_cell_span` on a cell without span does nothing. -/
theorem C23_no_span {s : TState} {pos : Int × Int} {t : Tree} (hg : getCell s pos = .ok t)
    (hs : span t.1 = .ok (1, 1)) : removeCellSpan pos s = (s, .ok ()) := by
  have : isCellSpanning s pos = .ok false := by
    unfold isCellSpanning; rw [hg]; simp only [hs]; simp
  unfold removeCellSpan; rw [this]

/-- A table whose cell (0, 1) has a matrix attribute. -/
def tMatrix : TState := (tableSetCell (0, 1)
  (⟨100, "table:table-cell", [("table:number-matrix-rows-spanned", "1".toList)], none, none⟩, .nil) t32).1

/-- **C23** is false for cells with a matrix attribute: they do not get it back. -/
theorem C23_matrix_refuted :
    (∀ i j t, InRect (0, 0) (1, 2) i j → docCell tMatrix.kids i j = some t →
      ¬ IsCovered t ∧ span t.1 = .ok (1, 1)) ∧
    (setCellSpan (0, 0) (1, 2) tMatrix).2 = .ok () ∧
    (removeCellSpan (0, 0) (setCellSpan (0, 0) (1, 2) tMatrix).1).2 = .ok () ∧
    docCell (removeCellSpan (0, 0) (setCellSpan (0, 0) (1, 2) tMatrix).1).1.kids 0 1 ≠
      docCell tMatrix.kids 0 1 := by
  refine ⟨?_, by decide +kernel, by decide +kernel, by decide +kernel⟩
  intro i j t hR hd
  have hi : i = 0 := by unfold InRect at hR; simp only at hR; omega
  have hj : j = 0 ∨ j = 1 := by unfold InRect at hR; simp only at hR; omega
  subst hi
  have h : ∀ j ∈ [0, 1], ∀ t, docCell tMatrix.kids 0 j = some t → ¬ IsCovered t ∧ span t.1 = .ok (1, 1) := by
    have h0 : ∀ j ∈ [0, 1], (docCell tMatrix.kids 0 j).all
        (fun t => decide (¬ IsCovered t) && decide (span t.1 = .ok (1, 1))) = true := by decide +kernel
    intro j hj t ht
    have := h0 j hj
    rw [ht] at this
    simpa using this
  exact h j (by simpa using hj) t hd

/-! ## C24 -/

/-- **C24** is false: a negative position does not raise IndexError and a size below one does not
raise ValueError, in any table. -/
theorem C24_negative_refuted (s : TState) (pos size : Int × Int) (h : pos.1 < 0 ∨ pos.2 < 0) :
    setCellSpan pos size s = (s, .error .NameError) := by
  unfold setCellSpan checkPosAndSize; rw [if_pos h]

theorem C24_size_refuted (s : TState) (pos size : Int × Int) (h0 : 0 ≤ pos.1 ∧ 0 ≤ pos.2)
    (h : size.1 < 1 ∨ size.2 < 1) : setCellSpan pos size s = (s, .error .NameError) := by
  unfold setCellSpan checkPosAndSize; rw [if_neg (by omega), if_pos h]

/-- **C24** (partial: the exception is ValueError in the last two cases only, NameError in the first
two).  Each of the four kinds of bad arguments raises and changes nothing. -/
theorem C24_rejects_partial {s : TState} (h : Inv s)
    (hrect : ∀ t ∈ docRows s.kids, (cells t).length = ncols s) (pos size : Int × Int) :
    ((pos.1 < 0 ∨ pos.2 < 0) ∨ (size.1 < 1 ∨ size.2 < 1) → ∃ e, setCellSpan pos size s = (s, .error e)) ∧
    (0 ≤ pos.1 → 0 ≤ pos.2 → 1 ≤ size.1 → 1 ≤ size.2 →
      ((docRows s.kids).length < pos.1 + size.1 ∨ (ncols s : Int) < pos.2 + size.2) ∨
      (∃ i j t, InRect pos size i j ∧ docCell s.kids i j = some t ∧ span t.1 ≠ .ok (1, 1)) →
      setCellSpan pos size s = (s, .error .ValueError)) := by
  constructor
  · intro hb
    by_cases h1 : pos.1 < 0 ∨ pos.2 < 0
    · exact ⟨_, C24_negative_refuted s pos size h1⟩
    · exact ⟨_, C24_size_refuted s pos size (by omega) (hb.resolve_left h1)⟩
  · intro a b c d hb
    by_cases hx : (docRows s.kids).length < pos.1 + size.1 ∨ (ncols s : Int) < pos.2 + size.2
    · unfold setCellSpan checkPosAndSize
      rw [if_neg (by omega), if_neg (by omega), if_pos (by rw [nrows_eq h, rowsOf_doc]; omega)]
    · obtain ⟨i, j, t, g1, g2, g3⟩ := hb.resolve_left hx
      obtain ⟨p, rfl⟩ : ∃ p, pos = posInt p := ⟨(pos.1.toNat, pos.2.toNat), by
        apply Prod.ext <;> simp only [posInt] <;> omega⟩
      obtain ⟨l, r1, r2, r3, r4⟩ := range_nat p (size := size) c d
      have hck : checkPosAndSize s (posInt p) size = .ok () := by
        unfold checkPosAndSize
        rw [if_neg (by omega), if_neg (by omega), if_neg]
        rw [nrows_eq h, rowsOf_doc]; omega
      have hs := hasSpanned_true h l (by
        intro q hq
        have hq' := (r3 q).mp hq
        have hq1 : q.1 < (docRows s.kids).length := by unfold InR posInt at *; simp only at *; omega
        have hq2 : q.2 < ncols s := by unfold InR posInt at *; simp only at *; omega
        obtain ⟨t, ht, _⟩ := getCell_doc h hrect (pos := posInt q) (i := q.1) (j := q.2)
          ⟨hq1, .inl rfl⟩ ⟨hq2, .inl rfl⟩
        exact ⟨t, by rw [← ht, ← cellAt_doc]⟩)
        ⟨(i, j), (r3 _).mpr ((inR_iff _ _ _ _).mpr g1), t, by rw [cellAt_doc]; exact g2, g3⟩
      unfold setCellSpan
      rw [hck]
      simp only [r1]
      rcases hs with hs | hs <;> simp only [hs]

/-- Both kinds of rejection happen. -/
example : setCellSpan (2, 0) (2, 1) t32 = (t32, .error .ValueError) ∧
    (setCellSpan (0, 0) (3, 1) (setCellSpan (1, 0) (1, 2) t32).1).2 = .error .ValueError := by
  refine ⟨?_, by decide +kernel⟩
  have h1 : (setCellSpan (2, 0) (2, 1) t32).2 = .error .ValueError := by decide +kernel
  have h2 : (setCellSpan (2, 0) (2, 1) t32).1.kids = t32.kids := by decide +kernel
  have h3 : checkPosAndSize t32 (2, 0) (2, 1) = .error .ValueError := by decide +kernel
  unfold setCellSpan; rw [h3]

/-! ## C25 -/

/-- The cell at row `i`, column `j` spans `size`, more than itself. -/
def Spanning (s : TState) (i j : Nat) (size : Int × Int) : Prop :=
  ∃ t, docCell s.kids i j = some t ∧ span t.1 = .ok size ∧ size ≠ (1, 1)

/-- The statement of C25 about one table. -/
structure NoOverlap (s : TState) : Prop where
  disjoint : ∀ i j a i' j' b, Spanning s i j a → Spanning s i' j' b → (i, j) ≠ (i', j') →
    ∀ x y, ¬ (InRect (i, j) a x y ∧ InRect (i', j') b x y)
  covered : ∀ x y u, docCell s.kids x y = some u →
    (IsCovered u ↔ ∃ i j a, (i, j) ≠ (x, y) ∧ Spanning s i j a ∧ InRect (i, j) a x y)

/-- No cell is covered and no cell spans more than itself. -/
def Unspanned (s : TState) : Prop :=
  ∀ i j t, docCell s.kids i j = some t → ¬ IsCovered t ∧ span t.1 = .ok (1, 1)

/-- States after histories of span calls, successful or not, that set no span over a covered cell. -/
inductive SpanHist : TState → TState → Prop
  | refl (s) : SpanHist s s
  | set {s s'} (pos size : Int × Int)
      (hf : ∀ i j t, InRect pos size i j → docCell s'.kids i j = some t → ¬ IsCovered t)
      (h : SpanHist s s') : SpanHist s (setCellSpan pos size s').1
  | remove {s s'} (pos : Int × Int) (h : SpanHist s s') : SpanHist s (removeCellSpan pos s').1

/-- Two spans over one rectangle: rows 0-1 and then rows 1-2 of a 3 by 2 table. -/
def tOverlap : TState := (setCellSpan (1, 0) (2, 2) (setCellSpan (0, 0) (2, 2) t32).1).1

/-- **C25** is false: `set_cell_span` accepts a rectangle with covered cells. -/
theorem C25_overlap_refuted :
    (setCellSpan (0, 0) (2, 2) t32).2 = .ok () ∧
    (setCellSpan (1, 0) (2, 2) (setCellSpan (0, 0) (2, 2) t32).1).2 = .ok () ∧ ¬ NoOverlap tOverlap := by
  refine ⟨by decide +kernel, by decide +kernel, fun h => ?_⟩
  have hs : ∀ i j a, (docCell tOverlap.kids i j).map (fun t => (span t.1).toOption) = some (some a) →
      a ≠ (1, 1) → Spanning tOverlap i j a := by
    intro i j a h1 h2
    cases hd : docCell tOverlap.kids i j with
    | none => rw [hd] at h1; simp at h1
    | some t =>
      rw [hd] at h1
      simp only [Option.map_some, Option.some.injEq] at h1
      cases hsp : span t.1 with
      | error e => rw [hsp] at h1; simp [Except.toOption] at h1
      | ok b => rw [hsp] at h1; simp [Except.toOption] at h1; subst h1; exact ⟨t, hd, hsp, h2⟩
  exact h.disjoint 0 0 (2, 2) 1 0 (2, 2) (hs 0 0 (2, 2) (by decide +kernel) (by decide))
    (hs 1 0 (2, 2) (by decide +kernel) (by decide)) (by decide) 1 1 (by decide)

/-! The invariant, position by position. -/

def Sp (s : TState) (p : Nat × Nat) (a : Int × Int) : Prop :=
  ∃ t, cellAt s p = some t ∧ span t.1 = .ok a ∧ a ≠ (1, 1)
def Cov (s : TState) (p : Nat × Nat) : Prop := ∃ t, cellAt s p = some t ∧ covered t.1 = true
def Ex (s : TState) (p : Nat × Nat) : Prop := ∃ t, cellAt s p = some t

structure SpanInv (s : TState) : Prop where
  inv : Inv s
  spanOk : ∀ p t, cellAt s p = some t → ∃ a, span t.1 = .ok a
  attrs : ∀ p t a, cellAt s p = some t → span t.1 = .ok a → a ≠ (1, 1) →
    (t.1.get rowsSpanned).isSome ∧ (t.1.get colsSpanned).isSome
  inside : ∀ p a, Sp s p a → ∀ q, InR p a q → Ex s q
  disjoint : ∀ p a q b, Sp s p a → Sp s q b → p ≠ q → ∀ x, ¬ (InR p a x ∧ InR q b x)
  cov : ∀ x, Cov s x ↔ ∃ p a, p ≠ x ∧ Sp s p a ∧ InR p a x

theorem InR_self {p : Nat × Nat} {a : Int × Int} (h1 : 1 ≤ a.1) (h2 : 1 ≤ a.2) : InR p a p := by
  unfold InR; omega

theorem span_pos {e : Elem} {a : Int × Int} (h : span e = .ok a) : 1 ≤ a.1 ∧ 1 ≤ a.2 := by
  have hv : ∀ k n, spanAttr e k = .ok n → 1 ≤ n := by
    intro k n hk
    unfold spanAttr at hk
    split at hk
    · simp at hk; omega
    · split at hk
      · simp at hk; omega
      · simp at hk
  unfold span at h
  split at h
  · simp at h
  · split at h
    · simp at h
    · rename_i _ h1 _ _ h2
      simp at h; subst h
      exact ⟨hv _ _ h1, hv _ _ h2⟩

theorem spanAttr_delSpan (e : Elem) (k : String) (h : spanAttr e k = .ok 1) :
    spanAttr (delSpanAttributes e).1 k = .ok 1 := by
  have hd : ∀ k' (e : Elem), spanAttr e k = .ok 1 → spanAttr (delAttr k' e).1 k = .ok 1 := by
    intro k' e h
    unfold delAttr
    split
    · exact h
    · unfold spanAttr at *
      simp only [Elem.get_del]
      by_cases hk : k = k'
      · rw [if_pos hk]
      · rw [if_neg hk]; exact h
  unfold delSpanAttributes
  rcases hr : delAttr rowsSpanned e with ⟨e1, x | x⟩
  · rw [Py.bind_error hr]
    have := hd rowsSpanned e h
    rw [hr] at this; exact this
  · rw [Py.bind_ok hr]
    have := hd rowsSpanned e h
    rw [hr] at this; exact hd colsSpanned e1 this

theorem span_delSpan {e : Elem} (h : span e = .ok (1, 1)) : span (delSpanAttributes e).1 = .ok (1, 1) := by
  have h0 : spanAttr e rowsSpanned = .ok 1 ∧ spanAttr e colsSpanned = .ok 1 := by
    unfold span at h
    split at h
    · simp at h
    · split at h
      · simp at h
      · rename_i _ h1 _ _ h2
        simp at h
        obtain ⟨rfl, rfl⟩ := h
        exact ⟨h1, h2⟩
  unfold span
  rw [spanAttr_delSpan e _ h0.1, spanAttr_delSpan e _ h0.2]

theorem delSpan_tag (e : Elem) : (delSpanAttributes e).1.tag = e.tag := by
  have h1 : ∀ k (e : Elem), (delAttr k e).1.tag = e.tag := by
    intro k e; unfold delAttr; split <;> rfl
  unfold delSpanAttributes
  rcases hr : delAttr rowsSpanned e with ⟨e1, x | x⟩
  · rw [Py.bind_error hr]
    have := h1 rowsSpanned e
    rw [hr] at this; exact this
  · rw [Py.bind_ok hr]
    have := h1 rowsSpanned e
    rw [hr] at this
    exact (h1 colsSpanned e1).trans this

theorem span_coverE {e : Elem} (h : span e = .ok (1, 1)) : span (coverE e) = .ok (1, 1) := by
  unfold coverE
  split
  · exact h
  · apply span_none
    · rw [setCovered, if_pos rfl, foldl_del_get, if_pos (by simp [CELL_ONLY_ATTRIBS])]
    · rw [setCovered, if_pos rfl, foldl_del_get, if_pos (by simp [CELL_ONLY_ATTRIBS])]

/-- The invariant for the state after a change described on spans and covered cells. -/
theorem SpanInv.unit {s s' : TState} (h : SpanInv s) (hi : Inv s') {p : Nat × Nat} {e' : Elem}
    {t : Tree} (ht : cellAt s p = some t) (hs : span t.1 = .ok (1, 1)) (hs' : span e' = .ok (1, 1))
    (hcov : covered e' = covered t.1)
    (hc : ∀ q, cellAt s' q = if q = p then some (e', t.2) else cellAt s q) : SpanInv s' := by
  have hsp : ∀ q a, Sp s' q a ↔ Sp s q a := by
    intro q a
    unfold Sp
    rw [hc]
    by_cases hq : q = p
    · subst hq
      rw [if_pos rfl, ht]
      constructor
      · rintro ⟨u, h1, h2, h3⟩; cases h1; rw [hs'] at h2; cases h2; exact absurd rfl h3
      · rintro ⟨u, h1, h2, h3⟩; cases h1; rw [hs] at h2; cases h2; exact absurd rfl h3
    · rw [if_neg hq]
  have hcv : ∀ q, Cov s' q ↔ Cov s q := by
    intro q
    unfold Cov
    rw [hc]
    by_cases hq : q = p
    · subst hq
      rw [if_pos rfl, ht]
      constructor
      · rintro ⟨u, h1, h2⟩; cases h1; exact ⟨t, rfl, by rw [← hcov]; exact h2⟩
      · rintro ⟨u, h1, h2⟩; cases h1; exact ⟨_, rfl, by rw [hcov]; exact h2⟩
    · rw [if_neg hq]
  have hex : ∀ q, Ex s' q ↔ Ex s q := by
    intro q
    unfold Ex
    rw [hc]
    by_cases hq : q = p
    · subst hq
      rw [if_pos rfl, ht]; exact ⟨fun _ => ⟨_, rfl⟩, fun _ => ⟨_, rfl⟩⟩
    · rw [if_neg hq]
  refine ⟨hi, ?_, ?_, ?_, ?_, ?_⟩
  · intro q u hu
    rw [hc] at hu
    by_cases hq : q = p
    · rw [if_pos hq] at hu; cases hu; exact ⟨_, hs'⟩
    · rw [if_neg hq] at hu; exact h.spanOk q u hu
  · intro q u a hu ha hne
    rw [hc] at hu
    by_cases hq : q = p
    · rw [if_pos hq] at hu; cases hu; rw [hs'] at ha; cases ha; exact absurd rfl hne
    · rw [if_neg hq] at hu; exact h.attrs q u a hu ha hne
  · intro q a hq x hx; rw [hex]; exact h.inside q a ((hsp q a).mp hq) x hx
  · intro q a r b hq hr; exact h.disjoint q a r b ((hsp _ _).mp hq) ((hsp _ _).mp hr)
  · intro x; rw [hcv, h.cov]; simp only [hsp]

theorem spanInv_set {s : TState} (h : SpanInv s) (pos size : Int × Int)
    (hf : ∀ i j t, InRect pos size i j → docCell s.kids i j = some t → ¬ IsCovered t) :
    SpanInv (setCellSpan pos size s).1 := by
  rcases setCellSpan_core h.inv pos size with ⟨e, he⟩ | ⟨p, t, s', hp, g1, g2, _, _, hin, ht, he, hc⟩
  · rw [he]; exact h
  · rw [he]
    subst hp
    show SpanInv s'
    have hpR : InR p size p := InR_self g1 g2
    have hnc : ∀ q u, InR p size q → cellAt s q = some u → covered u.1 = false := by
      intro q u hq hu
      have := hf q.1 q.2 u ((inR_iff p size q.1 q.2).mp hq) (by rw [← cellAt_doc]; exact hu)
      rw [← covered_iff] at this; simpa using this
    obtain ⟨t', ht', hts⟩ := hin p hpR
    rw [ht] at ht'; cases ht'
    by_cases h11 : size = (1, 1)
    · -- nothing but the attributes of the cell itself can change
      subst h11
      have e1 : setSpan (1, 1) t.1 = delSpanAttributes t.1 := by
        unfold setSpan; rw [if_pos (by decide)]
      have hR1 : ∀ q, InR p (1, 1) q → q = p := by
        intro q hq; unfold InR at hq; simp only at hq
        exact Prod.ext (by omega) (by omega)
      refine SpanInv.unit h hc.inv ht hts (e' := if (setSpan (1, 1) t.1).2 = .ok () then
        uncoverE (setSpan (1, 1) t.1).1 else (setSpan (1, 1) t.1).1) ?_ ?_ ?_
      · rw [e1]
        split
        · rw [span_uncoverE]; exact span_delSpan hts
        · exact span_delSpan hts
      · have hc0 := hnc p t hpR ht
        have hc1 : covered (delSpanAttributes t.1).1 = covered t.1 := by
          unfold covered; rw [delSpan_tag]
        rw [e1]
        split
        · unfold uncoverE; rw [if_neg (by rw [hc1, hc0]; simp)]; exact hc1
        · exact hc1
      · intro q
        rw [hc.cell]
        unfold spanCells
        by_cases hq : q = p
        · rw [if_pos hq, if_pos hq]
        · rw [if_neg hq, if_neg hq, if_neg (fun hR => hq (hR1 q hR))]
    · have e1 : setSpan size t.1 =
          ((t.1.set rowsSpanned (intStr size.1)).set colsSpanned (intStr size.2), .ok ()) := by
        unfold setSpan
        simp only [Int.max_eq_right g1, Int.max_eq_right g2]
        rw [if_neg (fun hh => h11 (Prod.ext hh.1 hh.2))]
      have hok : (setSpan size t.1).2 = .ok () := by rw [e1]
      rw [if_pos hok] at hc
      generalize hE : uncoverE (setSpan size t.1).1 = E at hc
      have hEs : span E = .ok size := by rw [← hE, span_uncoverE]; exact span_setSpan g1 g2 hok
      have hEa : (E.get rowsSpanned).isSome ∧ (E.get colsSpanned).isSome := by
        have hu : ∀ (e : Elem) k, (uncoverE e).get k = e.get k := by
          intro e k; unfold uncoverE; split <;> rfl
        rw [← hE, hu, hu, e1, Elem.get_set, if_neg (by simp [rowsSpanned, colsSpanned]),
          Elem.get_set_self, Elem.get_set_self]
        simp
      have hEc : covered E = false := by rw [← hE]; exact covered_uncoverE _
      have hcp : cellAt s' p = some (E, t.2) := by rw [hc.cell]; unfold spanCells; rw [if_pos rfl]
      have hcR : ∀ q, q ≠ p → InR p size q →
          cellAt s' q = (cellAt s q).map fun t => (coverE t.1, t.2) := by
        intro q hq hR; rw [hc.cell]; unfold spanCells; rw [if_neg hq, if_pos hR]
      have hcO : ∀ q, ¬ InR p size q → cellAt s' q = cellAt s q := by
        intro q hR; rw [hc.cell]; unfold spanCells
        rw [if_neg (fun he => hR (by rw [he]; exact hpR)), if_neg hR]
      have hsp : ∀ q a, Sp s' q a ↔ (q = p ∧ a = size) ∨ (¬ InR p size q ∧ Sp s q a) := by
        intro q a
        unfold Sp
        by_cases hq : q = p
        · subst hq
          rw [hcp]
          constructor
          · rintro ⟨u, h1, h2, h3⟩; cases h1; rw [hEs] at h2; cases h2; exact .inl ⟨rfl, rfl⟩
          · rintro (⟨_, rfl⟩ | ⟨hn, _⟩)
            · exact ⟨_, rfl, hEs, h11⟩
            · exact absurd hpR hn
        · by_cases hR : InR p size q
          · obtain ⟨u, hu, hus⟩ := hin q hR
            rw [hcR q hq hR, hu]
            constructor
            · rintro ⟨v, h1, h2, h3⟩; cases h1; rw [span_coverE hus] at h2; cases h2
              exact absurd rfl h3
            · rintro (⟨h1, _⟩ | ⟨hn, _⟩)
              · exact absurd h1 hq
              · exact absurd hR hn
          · rw [hcO q hR]
            simp [hq, hR]
      have hspR : ∀ q a, Sp s q a → ¬ InR p size q := by
        rintro q a ⟨u, h1, h2, h3⟩ hR
        obtain ⟨v, hv, hvs⟩ := hin q hR
        rw [h1] at hv; cases hv; rw [h2] at hvs; cases hvs; exact h3 rfl
      have hcovR : ∀ q, Cov s q → ¬ InR p size q := by
        rintro q ⟨u, h1, h2⟩ hR
        rw [hnc q u hR h1] at h2; cases h2
      have hcv : ∀ q, Cov s' q ↔ Cov s q ∨ (q ≠ p ∧ InR p size q) := by
        intro q
        by_cases hq : q = p
        · subst hq
          constructor
          · rintro ⟨u, h1, h2⟩; rw [hcp] at h1; cases h1; rw [hEc] at h2; cases h2
          · rintro (hc0 | ⟨hn, _⟩)
            · exact absurd hpR (hcovR _ hc0)
            · exact absurd rfl hn
        · by_cases hR : InR p size q
          · obtain ⟨u, hu, _⟩ := hin q hR
            constructor
            · intro _; exact .inr ⟨hq, hR⟩
            · intro _; exact ⟨_, by rw [hcR q hq hR, hu]; rfl, covered_coverE _⟩
          · unfold Cov
            rw [hcO q hR]
            simp [hq, hR]
      have hex : ∀ q, Ex s q → Ex s' q := by
        rintro q ⟨u, hu⟩
        by_cases hq : q = p
        · subst hq; exact ⟨_, hcp⟩
        · by_cases hR : InR p size q
          · exact ⟨_, by rw [hcR q hq hR, hu]; rfl⟩
          · exact ⟨u, by rw [hcO q hR]; exact hu⟩
      have hdisj : ∀ q b, Sp s q b → ∀ x, ¬ (InR p size x ∧ InR q b x) := by
        rintro q b hq x ⟨hx1, hx2⟩
        by_cases hxq : x = q
        · subst hxq; exact hspR _ b hq hx1
        · exact hcovR x ((h.cov x).mpr ⟨q, b, fun he => hxq he.symm, hq, hx2⟩) hx1
      refine ⟨hc.inv, ?_, ?_, ?_, ?_, ?_⟩
      · intro q u hu
        by_cases hq : q = p
        · subst hq; rw [hcp] at hu; cases hu; exact ⟨_, hEs⟩
        · by_cases hR : InR p size q
          · obtain ⟨v, hv, hvs⟩ := hin q hR
            rw [hcR q hq hR, hv] at hu; cases hu; exact ⟨_, span_coverE hvs⟩
          · rw [hcO q hR] at hu; exact h.spanOk q u hu
      · intro q u a hu ha hne
        by_cases hq : q = p
        · subst hq; rw [hcp] at hu; cases hu; exact hEa
        · by_cases hR : InR p size q
          · obtain ⟨v, hv, hvs⟩ := hin q hR
            rw [hcR q hq hR, hv] at hu; cases hu
            rw [span_coverE hvs] at ha; cases ha; exact absurd rfl hne
          · rw [hcO q hR] at hu; exact h.attrs q u a hu ha hne
      · intro q a hq x hx
        rcases (hsp q a).mp hq with ⟨rfl, rfl⟩ | ⟨_, hq⟩
        · obtain ⟨u, hu, _⟩ := hin x hx; exact hex x ⟨u, hu⟩
        · exact hex x (h.inside q a hq x hx)
      · intro q a r b hq hr hqr x hx
        rcases (hsp q a).mp hq with ⟨rfl, rfl⟩ | ⟨_, hq⟩
        · rcases (hsp r b).mp hr with ⟨rfl, rfl⟩ | ⟨_, hr⟩
          · exact hqr rfl
          · exact hdisj r b hr x hx
        · rcases (hsp r b).mp hr with ⟨rfl, rfl⟩ | ⟨_, hr⟩
          · exact hdisj q a hq x ⟨hx.2, hx.1⟩
          · exact h.disjoint q a r b hq hr hqr x hx
      · intro x
        rw [hcv, h.cov]
        constructor
        · rintro (⟨q, a, h1, h2, h3⟩ | ⟨h1, h2⟩)
          · exact ⟨q, a, h1, (hsp q a).mpr (.inr ⟨hspR q a h2, h2⟩), h3⟩
          · exact ⟨p, size, fun he => h1 he.symm, (hsp p size).mpr (.inl ⟨rfl, rfl⟩), h2⟩
        · rintro ⟨q, a, h1, h2, h3⟩
          rcases (hsp q a).mp h2 with ⟨rfl, rfl⟩ | ⟨_, h2⟩
          · exact .inr ⟨fun he => h1 he.symm, h3⟩
          · exact .inl ⟨q, a, h1, h2, h3⟩

theorem spanInv_remove {s : TState} (h : SpanInv s) (pos : Int × Int) :
    SpanInv (removeCellSpan pos s).1 := by
  cases hc : isCellSpanning s pos with
  | error e =>
    have e0 : removeCellSpan pos s = (s, .error e) := by unfold removeCellSpan; rw [hc]
    rw [e0]; exact h
  | ok b =>
    cases b with
    | false =>
      have e0 : removeCellSpan pos s = (s, .ok ()) := by unfold removeCellSpan; rw [hc]
      rw [e0]; exact h
    | true =>
      unfold isCellSpanning at hc
      cases hg : getCell s pos with
      | error e => rw [hg] at hc; cases hc
      | ok t =>
        rw [hg] at hc
        simp only at hc
        cases hs : span t.1 with
        | error e => rw [hs] at hc; cases hc
        | ok size =>
          rw [hs] at hc
          simp at hc
          by_cases hneg : pos.1 < 0 ∨ pos.2 < 0
          · have e0 : removeCellSpan pos s = (s, .error .ValueError) := by
              unfold removeCellSpan isCellSpanning
              rw [hg]; simp only [hs]
              unfold TU.iterCellRange
              rw [if_pos hneg]; simp [hc]
            rw [e0]; exact h
          · obtain ⟨p, rfl⟩ : ∃ p, pos = posInt p := ⟨(pos.1.toNat, pos.2.toNat), by
              apply Prod.ext <;> simp only [posInt] <;> omega⟩
            have ht : cellAt s p = some t := by
              rw [getCell_nat h.inv] at hg
              cases hca : cellAt s p with
              | none => rw [hca] at hg; cases hg
              | some u => rw [hca] at hg; cases hg; rfl
            have hsp0 : Sp s p size := ⟨t, ht, hs, hc⟩
            obtain ⟨s', e2, c2⟩ := removeCellSpan_core h.inv ht hs hc (h.inside p size hsp0)
            rw [e2]
            show SpanInv s'
            have hpos := span_pos hs
            have hpR : InR p size p := InR_self hpos.1 hpos.2
            have hu : ∀ (e : Elem) k, (uncoverE e).get k = e.get k := by
              intro e k; unfold uncoverE; split <;> rfl
            have hdok : (delSpanAttributes (uncoverE t.1)).2 = .ok () := by
              rw [delSpan_ok_iff, hu, hu]; exact h.attrs p t size ht hs hc
            simp only [hdok, if_true] at c2
            generalize hE : uncoverE (delSpanAttributes (uncoverE t.1)).1 = E at c2
            have hEs : span E = .ok (1, 1) := by
              rw [← hE, span_uncoverE, delSpan_val hdok]
              apply span_none
              · rw [Elem.get_del, if_neg (by simp [rowsSpanned, colsSpanned]), Elem.get_del, if_pos rfl]
              · rw [Elem.get_del, if_pos rfl]
            have hEc : covered E = false := by rw [← hE]; exact covered_uncoverE _
            have hcp : cellAt s' p = some (E, t.2) := by rw [c2.cell, if_pos rfl]
            have hcR : ∀ q, q ≠ p → InR p size q →
                cellAt s' q = (cellAt s q).map fun t => (uncoverE t.1, t.2) := by
              intro q hq hR; rw [c2.cell, if_neg hq, if_pos hR]
            have hcO : ∀ q, ¬ InR p size q → cellAt s' q = cellAt s q := by
              intro q hR; rw [c2.cell, if_neg (fun he => hR (by rw [he]; exact hpR)), if_neg hR]
            have hspR : ∀ q a, q ≠ p → Sp s q a → ¬ InR p size q := by
              intro q a hq hS hR
              obtain ⟨u, h1, h2, h3⟩ := hS
              have := span_pos h2
              exact h.disjoint p size q a hsp0 ⟨u, h1, h2, h3⟩ (fun he => hq he.symm) q
                ⟨hR, InR_self this.1 this.2⟩
            have hsp : ∀ q a, Sp s' q a ↔ q ≠ p ∧ Sp s q a := by
              intro q a
              by_cases hq : q = p
              · subst hq
                unfold Sp
                rw [hcp]
                constructor
                · rintro ⟨u, h1, h2, h3⟩; cases h1; rw [hEs] at h2; cases h2; exact absurd rfl h3
                · rintro ⟨hn, _⟩; exact absurd rfl hn
              · by_cases hR : InR p size q
                · constructor
                  · rintro ⟨u, h1, h2, h3⟩
                    refine ⟨hq, ?_⟩
                    rw [hcR q hq hR] at h1
                    cases hca : cellAt s q with
                    | none => rw [hca] at h1; cases h1
                    | some v =>
                      rw [hca] at h1; cases h1
                      rw [span_uncoverE] at h2
                      exact ⟨v, hca, h2, h3⟩
                  · rintro ⟨_, hS⟩; exact absurd hR (hspR q a hq hS)
                · unfold Sp
                  rw [hcO q hR]
                  simp [hq]
            have hcv : ∀ q, Cov s' q ↔ Cov s q ∧ ¬ InR p size q := by
              intro q
              by_cases hq : q = p
              · subst hq
                constructor
                · rintro ⟨u, h1, h2⟩; rw [hcp] at h1; cases h1; rw [hEc] at h2; cases h2
                · rintro ⟨_, hn⟩; exact absurd hpR hn
              · by_cases hR : InR p size q
                · constructor
                  · rintro ⟨u, h1, h2⟩
                    rw [hcR q hq hR] at h1
                    cases hca : cellAt s q with
                    | none => rw [hca] at h1; cases h1
                    | some v => rw [hca] at h1; cases h1; rw [covered_uncoverE] at h2; cases h2
                  · rintro ⟨_, hn⟩; exact absurd hR hn
                · unfold Cov
                  rw [hcO q hR]
                  simp [hR]
            have hex : ∀ q, Ex s q → Ex s' q := by
              rintro q ⟨u, hu⟩
              by_cases hq : q = p
              · subst hq; exact ⟨_, hcp⟩
              · by_cases hR : InR p size q
                · exact ⟨_, by rw [hcR q hq hR, hu]; rfl⟩
                · exact ⟨u, by rw [hcO q hR]; exact hu⟩
            refine ⟨c2.inv, ?_, ?_, ?_, ?_, ?_⟩
            · intro q u hu
              by_cases hq : q = p
              · subst hq; rw [hcp] at hu; cases hu; exact ⟨_, hEs⟩
              · by_cases hR : InR p size q
                · rw [hcR q hq hR] at hu
                  cases hca : cellAt s q with
                  | none => rw [hca] at hu; cases hu
                  | some v =>
                    rw [hca] at hu; cases hu
                    rw [span_uncoverE]; exact h.spanOk q v hca
                · rw [hcO q hR] at hu; exact h.spanOk q u hu
            · intro q u a hu' ha hne
              by_cases hq : q = p
              · subst hq; rw [hcp] at hu'; cases hu'; rw [hEs] at ha; cases ha; exact absurd rfl hne
              · by_cases hR : InR p size q
                · rw [hcR q hq hR] at hu'
                  cases hca : cellAt s q with
                  | none => rw [hca] at hu'; cases hu'
                  | some v =>
                    rw [hca] at hu'; cases hu'
                    rw [span_uncoverE] at ha
                    rw [hu, hu]; exact h.attrs q v a hca ha hne
                · rw [hcO q hR] at hu'; exact h.attrs q u a hu' ha hne
            · intro q a hq x hx; exact hex x (h.inside q a ((hsp q a).mp hq).2 x hx)
            · intro q a r b hq hr; exact h.disjoint q a r b ((hsp q a).mp hq).2 ((hsp r b).mp hr).2
            · intro x
              rw [hcv, h.cov]
              constructor
              · rintro ⟨⟨q, a, h1, h2, h3⟩, h4⟩
                exact ⟨q, a, h1, (hsp q a).mpr ⟨fun he => h4 (by
                  subst he
                  obtain ⟨u, g1, g2, _⟩ := h2
                  rw [ht] at g1; cases g1; rw [hs] at g2; cases g2; exact h3), h2⟩, h3⟩
              · rintro ⟨q, a, h1, h2, h3⟩
                obtain ⟨g1, g2⟩ := (hsp q a).mp h2
                exact ⟨⟨q, a, h1, g2, h3⟩, fun hR => h.disjoint p size q a hsp0 g2 (fun he => g1 he.symm) x
                  ⟨hR, h3⟩⟩

theorem spanInv_noOverlap {s : TState} (h : SpanInv s) : NoOverlap s := by
  have hsp : ∀ i j a, Spanning s i j a ↔ Sp s (i, j) a := by
    intro i j a; unfold Spanning Sp; simp only [cellAt_doc]
  refine ⟨?_, ?_⟩
  · intro i j a i' j' b h1 h2 hne x y hx
    refine h.disjoint (i, j) a (i', j') b ((hsp _ _ _).mp h1) ((hsp _ _ _).mp h2) hne (x, y) ?_
    rw [inR_iff, inR_iff]; exact hx
  · intro x y u hu
    have hcov : IsCovered u ↔ Cov s (x, y) := by
      unfold Cov
      rw [cellAt_doc, hu, ← covered_iff]
      exact ⟨fun h => ⟨u, rfl, h⟩, fun ⟨v, h1, h2⟩ => by cases h1; exact h2⟩
    rw [hcov, h.cov]
    constructor
    · rintro ⟨⟨i, j⟩, a, h1, h2, h3⟩
      exact ⟨i, j, a, h1, (hsp _ _ _).mpr h2, (inR_iff (i, j) a x y).mp h3⟩
    · rintro ⟨i, j, a, h1, h2, h3⟩
      exact ⟨(i, j), a, h1, (hsp _ _ _).mp h2, (inR_iff (i, j) a x y).mpr h3⟩

/-- **C25** (partial: the property is about all histories of span calls; here no `set_cell_span` is
given a rectangle with a covered cell, which the code does not check).  Spans never overlap, and a cell
is covered exactly if it lies in the rectangle of another, spanning cell. -/
theorem C25_no_overlap_partial {s s' : TState} (h : Inv s) (hu : Unspanned s) (hist : SpanHist s s') :
    NoOverlap s' := by
  have h0 : SpanInv s := by
    have hun : ∀ p t, cellAt s p = some t → covered t.1 = false ∧ span t.1 = .ok (1, 1) := by
      intro p t ht
      obtain ⟨h1, h2⟩ := hu p.1 p.2 t (by rw [← cellAt_doc]; exact ht)
      rw [← covered_iff] at h1
      exact ⟨by simpa using h1, h2⟩
    have hns : ∀ p a, ¬ Sp s p a := by
      rintro p a ⟨t, h1, h2, h3⟩
      rw [(hun p t h1).2] at h2; cases h2; exact h3 rfl
    refine ⟨h, fun p t ht => ⟨_, (hun p t ht).2⟩, ?_, fun p a hp => absurd hp (hns p a),
      fun p a q b hp => absurd hp (hns p a), ?_⟩
    · intro p t a ht ha hne
      rw [(hun p t ht).2] at ha; cases ha; exact absurd rfl hne
    · intro x
      constructor
      · rintro ⟨t, h1, h2⟩; rw [(hun x t h1).1] at h2; cases h2
      · rintro ⟨p, a, _, hp, _⟩; exact absurd hp (hns p a)
  apply spanInv_noOverlap
  clear hu
  induction hist with
  | refl => exact h0
  | set pos size hf _ ih => exact spanInv_set ih pos size hf
  | remove pos _ ih => exact spanInv_remove ih pos

theorem t32_created : newTable 0 "t".toList (3, 2) = (t32, .ok ()) := by
  have h : (newTable 0 "t".toList (3, 2)).2 = .ok () := by decide +kernel
  exact Prod.ext rfl h

theorem t32_unspanned : Unspanned t32 := by
  have h0 : ∀ u ∈ docRows t32.kids, ∀ t ∈ cells u, ¬ IsCovered t ∧ span t.1 = .ok (1, 1) := by
    decide +kernel
  intro i j t ht
  unfold docCell at ht
  cases hu : (docRows t32.kids)[i]? with
  | none => rw [hu] at ht; cases ht
  | some u =>
    rw [hu, Option.bind_some] at ht
    exact h0 u (List.mem_of_getElem? hu) t (List.mem_of_getElem? ht)

/-- The hypotheses of C25 are met by a new table and a history that sets two spans, fails once and
removes one. -/
example : ∃ s', SpanHist t32 s' ∧ NoOverlap s' ∧ Spanning s' 1 0 (2, 2) := by
  have h1 := (created_inStep 0 t32_created).inv
  have g1 : SpanHist t32 (setCellSpan (1, 0) (2, 2) t32).1 :=
    .set (1, 0) (2, 2) (fun i j t _ ht => (t32_unspanned i j t ht).1) (.refl _)
  have g2 := SpanHist.remove (5, 5) g1
  refine ⟨_, g2, C25_no_overlap_partial h1 t32_unspanned g2, ?_⟩
  have h0 : (docCell (removeCellSpan (5, 5) (setCellSpan (1, 0) (2, 2) t32).1).1.kids 1 0).any
      (fun t => decide (span t.1 = .ok (2, 2))) = true := by decide +kernel
  cases hd : docCell (removeCellSpan (5, 5) (setCellSpan (1, 0) (2, 2) t32).1).1.kids 1 0 with
  | none => rw [hd] at h0; cases h0
  | some t => rw [hd] at h0; exact ⟨t, hd, of_decide_eq_true h0, by decide⟩

/-- The hypotheses of C23 are met by a new table. -/
example : ∃ s1 s2, setCellSpan (1, 0) (2, 2) t32 = (s1, .ok ()) ∧ removeCellSpan (1, 0) s1 = (s2, .ok ()) ∧
    docRows s2.kids = docRows t32.kids := by
  have h1 := (created_inStep 0 t32_created).inv
  have hok : setCellSpan (1, 0) (2, 2) t32 = ((setCellSpan (1, 0) (2, 2) t32).1, .ok ()) := by
    have h : (setCellSpan (1, 0) (2, 2) t32).2 = .ok () := by decide +kernel
    exact Prod.ext rfl h
  have h0 : ∀ u ∈ docRows t32.kids, ∀ t ∈ cells u,
      t.1.tag = "table:table-cell" ∧ ∀ k ∈ spanAttrs, t.1.get k = none := by decide +kernel
  obtain ⟨s2, e, hr, _⟩ := C23_undo_partial h1 (by decide) (fun i j t _ ht => by
    unfold docCell at ht
    cases hu : (docRows t32.kids)[i]? with
    | none => rw [hu] at ht; cases ht
    | some u =>
      rw [hu, Option.bind_some] at ht
      exact h0 u (List.mem_of_getElem? hu) t (List.mem_of_getElem? ht)) hok
  exact ⟨_, s2, hok, e, hr⟩

/-! ## C14 for spans -/

/-- **C14** for `set_cell_span`: a rejected call changes nothing (partial: not for size (1, 1), which
can delete one attribute before it raises KeyError). -/
theorem C14_set_span_partial {s : TState} (h : Inv s) {pos size : Int × Int} (hne : size ≠ (1, 1))
    (he : ∃ e, (setCellSpan pos size s).2 = .error e) : (setCellSpan pos size s).1 = s := by
  rcases setCellSpan_core h pos size with ⟨e, h0⟩ | ⟨p, t, s', hp, g1, g2, _, _, hin, ht, h0, hc⟩
  · rw [h0]
  · exfalso
    obtain ⟨e, he⟩ := he
    rw [h0] at he
    unfold setSpan at he
    simp only [Int.max_eq_right g1, Int.max_eq_right g2] at he
    rw [if_neg (fun hh => hne (Prod.ext hh.1 hh.2))] at he
    cases he

end Verif.Tbl
