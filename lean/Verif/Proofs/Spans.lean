import Verif.Proofs.TableHist
import Verif.Props.Address
/-! Cell spans: effect on every cell position. -/
set_option linter.unusedSimpArgs false
namespace Verif.Tbl
open Verif Verif.Forest Verif.Cells Verif.TSpec

/-- A position as the code sees it. -/
def posInt (p : Nat × Nat) : Int × Int := ((p.1 : Int), (p.2 : Int))

/-- Only cells change, and they change as given by `g`. -/
structure Cellwise (s s' : TState) (g : Nat × Nat → Option Tree) : Prop where
  inv : Inv s'
  shape : SameShape s s'
  cell : ∀ p, cellAt s' p = g p
  cols : colsOf s' = colsOf s
  rest : SameRest s s'
  rows : s'.rows = s.rows

/-- Changing one cell. -/
theorem withCell_at {s : TState} (h : Inv s) {m : Py Elem Unit} (hm : CellOk m) {p : Nat × Nat}
    {t : Tree} (ht : cellAt s p = some t) :
    ∃ s', withCell (posInt p) m s = (s', (m t.1).2) ∧
      Cellwise s s' fun q => if q = p then some ((m t.1).1, t.2) else cellAt s q := by
  obtain ⟨i, j⟩ := p
  obtain ⟨u, h1, h2, h3⟩ := locate_nat h ht
  obtain ⟨s', e, a, b, c, d, f, g⟩ := withCell_spec h hm h1 h2 h3
  exact ⟨s', e, a, b, c, d, f, g⟩

/-- Changing each cell of a list of positions by an idempotent function. -/
theorem forCells {f : Elem → Elem} (hf : CellOk fun e => (f e, .ok ())) (hi : ∀ e, f (f e) = f e) :
    ∀ (ps : List (Nat × Nat)) (s : TState), Inv s → (∀ p ∈ ps, ∃ t, cellAt s p = some t) →
      ∃ s', forPy (fun pos => withCell pos fun e => (f e, .ok ())) (ps.map posInt) s = (s', .ok ()) ∧
        Cellwise s s' fun q => if q ∈ ps then (cellAt s q).map (fun t => (f t.1, t.2)) else cellAt s q := by
  intro ps
  induction ps with
  | nil => intro s h _; exact ⟨s, rfl, h, .refl s, by simp, rfl, .refl s, rfl⟩
  | cons p ps ih =>
    intro s h hp
    obtain ⟨t, ht⟩ := hp p (by simp)
    obtain ⟨s1, e1, c1⟩ := withCell_at h hf ht
    have hex : ∀ q ∈ ps, ∃ t, cellAt s1 q = some t := by
      intro q hq
      rw [c1.cell]
      by_cases hqp : q = p
      · exact ⟨_, if_pos hqp⟩
      · rw [if_neg hqp]; exact hp q (by simp [hq])
    obtain ⟨s2, e2, c2⟩ := ih s1 c1.inv hex
    refine ⟨s2, ?_, c2.inv, c1.shape.trans c2.shape, ?_, c2.cols.trans c1.cols, c1.rest.trans c2.rest,
      c2.rows.trans c1.rows⟩
    · rw [List.map_cons, forPy_cons_eq, e1]; exact e2
    · intro q
      rw [c2.cell]
      simp only [c1.cell]
      by_cases hqp : q = p
      · subst hqp
        simp only [if_pos, List.mem_cons, true_or, ht, Option.map_some, hi, ite_self]
      · simp only [if_neg hqp, List.mem_cons, hqp, false_or, if_false]

/-- `q` lies in the rectangle of `size` at `p`. -/
def InR (p : Nat × Nat) (size : Int × Int) (q : Nat × Nat) : Prop :=
  p.1 ≤ q.1 ∧ (q.1 : Int) < p.1 + size.1 ∧ p.2 ≤ q.2 ∧ (q.2 : Int) < p.2 + size.2

instance (p size q) : Decidable (InR p size q) := by unfold InR; infer_instance

/-- The range of cells as a list of positions. -/
theorem range_nat (p : Nat × Nat) {size : Int × Int} (h1 : 1 ≤ size.1) (h2 : 1 ≤ size.2) :
    ∃ l : List (Nat × Nat), TU.iterCellRange (posInt p) size = .ok (l.map posInt) ∧
      TU.iterCellRangeWithoutStartPos (posInt p) size = .ok (l.tail.map posInt) ∧
      (∀ q, q ∈ l ↔ InR p size q) ∧ (∀ q, q ∈ l.tail ↔ InR p size q ∧ q ≠ p) := by
  obtain ⟨l, a, b, c, d, e, f⟩ := Address.C07_range (posInt p) size (by simp [posInt]) (by simp [posInt]) h1 h2
  have hcast : (l.map fun q : Int × Int => (q.1.toNat, q.2.toNat)).map posInt = l := by
    rw [List.map_map]
    conv => rhs; rw [← List.map_id l]
    apply List.map_congr_left
    intro q hq
    have := (c q).mp hq
    simp only [posInt] at this
    apply Prod.ext <;> simp only [Function.comp, posInt, id] <;> omega
  have hmem : ∀ q, q ∈ l.map (fun q : Int × Int => (q.1.toNat, q.2.toNat)) ↔ InR p size q := by
    intro q
    simp only [List.mem_map]
    unfold InR
    constructor
    · rintro ⟨x, hx, rfl⟩
      have := (c x).mp hx
      simp only [posInt] at this
      simp only; omega
    · intro hq
      refine ⟨posInt q, (c _).mpr ?_, ?_⟩
      · simp only [posInt]; omega
      · simp [posInt]
  refine ⟨_, by rw [hcast]; exact a, ?_, hmem, ?_⟩
  · rw [e, List.map_tail, hcast]
  · have hnd : (l.map fun q : Int × Int => (q.1.toNat, q.2.toNat)).Nodup := by
      have : (l.map fun q : Int × Int => (q.1.toNat, q.2.toNat)).map posInt = l := hcast
      have hl : l.Nodup := by
        refine b.imp ?_
        intro x y hxy he
        subst he
        unfold Address.Before at hxy
        omega
      rw [← this] at hl
      exact List.Nodup.of_map _ hl
    have hf : l.map (fun q : Int × Int => (q.1.toNat, q.2.toNat)) =
        p :: (l.map fun q : Int × Int => (q.1.toNat, q.2.toNat)).tail := by
      rw [f]; simp [posInt]
    intro q
    rw [← hmem]
    rw [hf] at hnd
    conv => rhs; rw [hf]
    simp only [List.mem_cons]
    constructor
    · intro hq; exact ⟨.inr hq, fun he => (List.nodup_cons.mp hnd).1 (he ▸ hq)⟩
    · rintro ⟨rfl | hq, hne⟩
      · exact absurd rfl hne
      · exact hq

/-! ### Reading -/

theorem getCell_nat {s : TState} (h : Inv s) (p : Nat × Nat) :
    getCell s (posInt p) = match cellAt s p with
      | some t => .ok t
      | none => .error .IndexError := by
  cases hc : cellAt s p with
  | some t =>
    obtain ⟨u, _, _, h3⟩ := locate_nat h (i := p.1) (j := p.2) hc
    unfold getCell posInt; rw [h3]
  | none =>
    unfold getCell
    cases hl : locate s (posInt p) with
    | ok x =>
      obtain ⟨r, n, t⟩ := x
      exfalso
      obtain ⟨i, u, h1, _, h3, h4, h5⟩ := locate_ok h hl
      have hadj : adjust s (posInt p) = posInt p := by
        unfold adjust posInt
        rw [if_neg (by simp only; omega), if_neg (by simp only; omega)]
      rw [hadj] at h4 h5
      have hi : i = p.1 := by
        have := pyIdx_lt h4
        unfold pyIdx posInt at h4
        simp only at h4
        split at h4
        · split at h4
          · simp at h4; exact h4.symm
          · simp at h4
        · omega
      have hn : n = p.2 := by
        unfold pyIdx posInt at h5
        simp only at h5
        split at h5
        · split at h5
          · simp at h5; exact h5.symm
          · simp at h5
        · omega
      subst hi hn
      unfold cellAt at hc
      rw [h1] at hc
      simp only [Option.bind_some] at hc
      rw [hc] at h3; cases h3
    | error e =>
      have : e = .IndexError := by
        unfold locate at hl
        simp only at hl
        cases hr : rowId s (adjust s (posInt p)).1 with
        | error x =>
          simp only [hr, Except.error.injEq] at hl
          subst hl
          rw [rowId_eq h] at hr
          split at hr
          · exact (Except.error.inj hr).symm
          · split at hr
            · cases hr
            · exact (Except.error.inj hr).symm
        | ok r =>
          simp only [hr] at hl
          cases hch : childAt (kidsOf s r) (adjust s (posInt p)).2 with
          | ok y => simp [hch] at hl
          | error x =>
            simp only [hch, Except.error.injEq] at hl
            subst hl
            unfold childAt at hch
            split at hch
            · exact (Except.error.inj hch).symm
            · split at hch
              · cases hch
              · exact (Except.error.inj hch).symm
      rw [this]

theorem hasSpanned_false {s : TState} (h : Inv s) : ∀ ps : List (Nat × Nat),
    hasSpanned s (ps.map posInt) = .ok false →
      ∀ p ∈ ps, ∃ t, cellAt s p = some t ∧ span t.1 = .ok (1, 1) := by
  intro ps
  induction ps with
  | nil => intro _ p hp; simp at hp
  | cons q ps ih =>
    intro hs p hp
    rw [List.map_cons, hasSpanned] at hs
    cases hq : isCellSpanning s (posInt q) with
    | error e => simp [hq] at hs
    | ok b =>
      cases b with
      | true => simp [hq] at hs
      | false =>
        simp only [hq] at hs
        rcases List.mem_cons.mp hp with rfl | hp
        · unfold isCellSpanning at hq
          rw [getCell_nat h] at hq
          cases hc : cellAt s p with
          | none => simp [hc] at hq
          | some t =>
            simp only [hc] at hq
            cases hsp : span t.1 with
            | error e => simp [hsp] at hq
            | ok sp =>
              simp only [hsp, Except.ok.injEq] at hq
              refine ⟨t, rfl, ?_⟩
              simp at hq
              rw [hsp, hq]
        · exact ih hs p hp

theorem hasSpanned_of {s : TState} (h : Inv s) : ∀ ps : List (Nat × Nat),
    (∀ p ∈ ps, ∃ t, cellAt s p = some t ∧ span t.1 = .ok (1, 1)) →
    hasSpanned s (ps.map posInt) = .ok false := by
  intro ps
  induction ps with
  | nil => intro _; rfl
  | cons q ps ih =>
    intro hp
    obtain ⟨t, h1, h2⟩ := hp q (by simp)
    rw [List.map_cons, hasSpanned]
    have : isCellSpanning s (posInt q) = .ok false := by
      unfold isCellSpanning
      rw [getCell_nat h, h1]; simp only [h2]; simp
    rw [this]
    exact ih fun p hp' => hp p (by simp [hp'])

/-- A spanning cell in the range makes the test fail, with ValueError if it raises. -/
theorem hasSpanned_true {s : TState} (h : Inv s) : ∀ ps : List (Nat × Nat),
    (∀ p ∈ ps, ∃ t, cellAt s p = some t) →
    (∃ p ∈ ps, ∃ t, cellAt s p = some t ∧ span t.1 ≠ .ok (1, 1)) →
    hasSpanned s (ps.map posInt) = .ok true ∨ hasSpanned s (ps.map posInt) = .error .ValueError := by
  intro ps
  induction ps with
  | nil => rintro _ ⟨p, hp, _⟩; simp at hp
  | cons q ps ih =>
    intro hex hsp
    rw [List.map_cons, hasSpanned]
    obtain ⟨t, ht⟩ := hex q (by simp)
    have hq : isCellSpanning s (posInt q) = match span t.1 with
        | .error e => .error e
        | .ok sp => .ok (sp ≠ (1, 1)) := by
      unfold isCellSpanning
      rw [getCell_nat h, ht]; rfl
    cases hs : span t.1 with
    | error e =>
      have he : e = .ValueError := by
        have hv : ∀ k e, spanAttr t.1 k = .error e → e = .ValueError := by
          intro k e hk
          unfold spanAttr at hk
          split at hk
          · simp at hk
          · split at hk <;> simp_all
        unfold span at hs
        split at hs
        · rename_i x hx; simp at hs; subst hs; exact hv _ _ hx
        · split at hs
          · rename_i x hx; simp at hs; subst hs; exact hv _ _ hx
          · simp at hs
      rw [hq, hs, he]
      exact .inr rfl
    | ok sp =>
      by_cases h1 : sp = (1, 1)
      · subst h1
        rw [hq, hs]
        simp only [ne_eq, not_true_eq_false, decide_false]
        refine ih (fun p hp => hex p (by simp [hp])) ?_
        obtain ⟨p, hp, t', h2, h3⟩ := hsp
        rcases List.mem_cons.mp hp with rfl | hp
        · rw [ht] at h2; cases h2; exact absurd hs h3
        · exact ⟨p, hp, t', h2, h3⟩
      · rw [hq, hs]
        simp only [ne_eq, h1, not_false_eq_true, decide_true]
        exact .inl trivial

/-! ### Setting -/

def coverE (e : Elem) : Elem := if covered e then e else setCovered true e
def uncoverE (e : Elem) : Elem := if covered e then setCovered false e else e

theorem covered_coverE (e : Elem) : covered (coverE e) = true := by
  unfold coverE
  split
  · assumption
  · simp [covered, setCovered_tag]

theorem covered_uncoverE (e : Elem) : covered (uncoverE e) = false := by
  unfold uncoverE
  split
  · simp [covered, setCovered_tag, cellTag, coveredTag]
  · rename_i hc; simpa using hc

theorem coverE_idem (e : Elem) : coverE (coverE e) = coverE e := by
  exact if_pos (covered_coverE e)

theorem uncoverE_idem (e : Elem) : uncoverE (uncoverE e) = uncoverE e := by
  exact if_neg (by simp [covered_uncoverE])

/-- The cells after a successful change of a span. -/
def spanCells (s : TState) (p : Nat × Nat) (size : Int × Int) (e' : Elem) (k : Forest)
    (q : Nat × Nat) : Option Tree :=
  if q = p then some (e', k)
  else if InR p size q then (cellAt s q).map (fun t => (coverE t.1, t.2)) else cellAt s q

/-- Everything `set_span` can do. -/
theorem setCellSpan_core {s : TState} (h : Inv s) (pos size : Int × Int) :
    (∃ e, setCellSpan pos size s = (s, .error e)) ∨
    ∃ p t s', pos = posInt p ∧ 1 ≤ size.1 ∧ 1 ≤ size.2 ∧
      pos.1 + size.1 ≤ nrows s ∧ pos.2 + size.2 ≤ ncols s ∧
      (∀ q, InR p size q → ∃ u, cellAt s q = some u ∧ span u.1 = .ok (1, 1)) ∧
      cellAt s p = some t ∧ setCellSpan pos size s = (s', (setSpan size t.1).2) ∧
      Cellwise s s' (spanCells s p size
        (if (setSpan size t.1).2 = .ok () then uncoverE (setSpan size t.1).1 else (setSpan size t.1).1)
        t.2) := by
  cases hc : checkPosAndSize s pos size with
  | error e => exact .inl ⟨e, by unfold setCellSpan; rw [hc]⟩
  | ok _ =>
    have hck := hc
    unfold checkPosAndSize at hck
    split at hck
    · simp at hck
    split at hck
    · simp at hck
    split at hck
    · simp at hck
    rename_i g1 g2 g3
    obtain ⟨p, rfl⟩ : ∃ p, pos = posInt p := ⟨(pos.1.toNat, pos.2.toNat), by
      apply Prod.ext <;> simp only [posInt] <;> omega⟩
    obtain ⟨l, r1, r2, r3, r4⟩ := range_nat p (size := size) (by omega) (by omega)
    cases hs : hasSpanned s (l.map posInt) with
    | error e =>
      left; refine ⟨e, ?_⟩
      unfold setCellSpan; rw [hc]; simp only [r1, hs]
    | ok b =>
      cases b with
      | true =>
        left; refine ⟨.ValueError, ?_⟩
        unfold setCellSpan; rw [hc]; simp only [r1, hs]
      | false =>
        right
        have e0 : setCellSpan (posInt p) size s = (do
            forPy coverCell (l.tail.map posInt)
            withCell (posInt p) (setSpan size)
            uncoverCell (posInt p) : Py TState Unit) s := by
          conv => lhs; unfold setCellSpan
          rw [hc]; simp only [r1, r2, hs]
        have hall := hasSpanned_false h l hs
        have hin : ∀ q, InR p size q → ∃ u, cellAt s q = some u ∧ span u.1 = .ok (1, 1) :=
          fun q hq => hall q ((r3 q).mpr hq)
        obtain ⟨s1, e1, c1⟩ := forCells (f := coverE) cover_ok coverE_idem l.tail s h (by
          intro q hq
          obtain ⟨u, hu, _⟩ := hin q ((r4 q).mp hq).1
          exact ⟨u, hu⟩)
        have hpR : InR p size p := by unfold InR; omega
        obtain ⟨t, ht, _⟩ := hin p hpR
        have hpn : p ∉ l.tail := fun hm => ((r4 p).mp hm).2 rfl
        have ht1 : cellAt s1 p = some t := by rw [c1.cell, if_neg hpn]; exact ht
        obtain ⟨s2, e2, c2⟩ := withCell_at c1.inv (setSpan_ok size) ht1
        have ht2 : cellAt s2 p = some ((setSpan size t.1).1, t.2) := by rw [c2.cell, if_pos rfl]
        have hcell2 : ∀ q, cellAt s2 q = spanCells s p size (setSpan size t.1).1 t.2 q := by
          intro q
          rw [c2.cell]
          unfold spanCells
          by_cases hq : q = p
          · rw [if_pos hq, if_pos hq]
          · rw [if_neg hq, if_neg hq, c1.cell]
            by_cases hR : InR p size q
            · rw [if_pos ((r4 q).mpr ⟨hR, hq⟩), if_pos hR]
            · rw [if_neg (fun hm => hR ((r4 q).mp hm).1), if_neg hR]
        rcases hres : (setSpan size t.1).2 with x | x
        · refine ⟨p, t, s2, rfl, by omega, by omega, by omega, by omega, hin, ht, ?_, c2.inv,
            c1.shape.trans c2.shape, ?_, c2.cols.trans c1.cols, c1.rest.trans c2.rest,
            c2.rows.trans c1.rows⟩
          · rw [e0]
            have e1' : forPy coverCell (l.tail.map posInt) s = (s1, .ok ()) := e1
            rw [Py.bind_ok e1']
            rw [hres] at e2
            rw [Py.bind_error e2, hres]
          · rw [if_neg (by simp [hres])]; exact hcell2
        · obtain ⟨s3, e3, c3⟩ := withCell_at c2.inv uncover_ok ht2
          refine ⟨p, t, s3, rfl, by omega, by omega, by omega, by omega, hin, ht, ?_, c3.inv,
            (c1.shape.trans c2.shape).trans c3.shape, ?_, c3.cols.trans (c2.cols.trans c1.cols),
            (c1.rest.trans c2.rest).trans c3.rest, c3.rows.trans (c2.rows.trans c1.rows)⟩
          · rw [e0]
            have e1' : forPy coverCell (l.tail.map posInt) s = (s1, .ok ()) := e1
            rw [Py.bind_ok e1']
            rw [hres] at e2
            rw [Py.bind_ok e2, hres]
            exact e3
          · rw [if_pos hres]
            intro q
            rw [c3.cell, hcell2]
            unfold spanCells
            by_cases hq : q = p
            · rw [if_pos hq, if_pos hq]; rfl
            · rw [if_neg hq, if_neg hq, if_neg hq]

/-- What `remove_span` does at a spanning cell whose rectangle lies in the table. -/
theorem removeCellSpan_core {s : TState} (h : Inv s) {p : Nat × Nat} {t : Tree} {size : Int × Int}
    (ht : cellAt s p = some t) (hsp : span t.1 = .ok size) (hne : size ≠ (1, 1))
    (hex : ∀ q, InR p size q → ∃ u, cellAt s q = some u) :
    ∃ s', removeCellSpan (posInt p) s = (s', (delSpanAttributes (uncoverE t.1)).2) ∧
      Cellwise s s' fun q =>
        if q = p then some ((if (delSpanAttributes (uncoverE t.1)).2 = .ok ()
            then uncoverE (delSpanAttributes (uncoverE t.1)).1
            else (delSpanAttributes (uncoverE t.1)).1), t.2)
        else if InR p size q then (cellAt s q).map (fun t => (uncoverE t.1, t.2)) else cellAt s q := by
  have hpos : 1 ≤ size.1 ∧ 1 ≤ size.2 := by
    have hv : ∀ k n, spanAttr t.1 k = .ok n → 1 ≤ n := by
      intro k n hk
      unfold spanAttr at hk
      split at hk
      · simp at hk; omega
      · split at hk
        · simp at hk; omega
        · simp at hk
    unfold span at hsp
    split at hsp
    · simp at hsp
    · split at hsp
      · simp at hsp
      · rename_i _ h1 _ _ h2
        simp at hsp; subst hsp
        exact ⟨hv _ _ h1, hv _ _ h2⟩
  obtain ⟨l, r1, r2, r3, r4⟩ := range_nat p hpos.1 hpos.2
  have hg : getCell s (posInt p) = .ok t := by rw [getCell_nat h, ht]
  have hspn : isCellSpanning s (posInt p) = .ok true := by
    unfold isCellSpanning; rw [hg]; simp only [hsp]; simp [hne]
  have e0 : removeCellSpan (posInt p) s = (do
      forPy uncoverCell (l.map posInt)
      withCell (posInt p) delSpanAttributes
      uncoverCell (posInt p) : Py TState Unit) s := by
    conv => lhs; unfold removeCellSpan
    rw [hspn]; simp only [hg, hsp, r1]
  obtain ⟨s1, e1, c1⟩ := forCells (f := uncoverE) uncover_ok uncoverE_idem l s h
    (fun q hq => hex q ((r3 q).mp hq))
  have e1' : forPy uncoverCell (l.map posInt) s = (s1, .ok ()) := e1
  have hpR : InR p size p := by unfold InR; omega
  have ht1 : cellAt s1 p = some (uncoverE t.1, t.2) := by
    rw [c1.cell, if_pos ((r3 p).mpr hpR), ht]; rfl
  obtain ⟨s2, e2, c2⟩ := withCell_at c1.inv delSpan_ok ht1
  have ht2 : cellAt s2 p = some ((delSpanAttributes (uncoverE t.1)).1, t.2) := by
    rw [c2.cell, if_pos rfl]
  have hc2 : ∀ q, q ≠ p → cellAt s2 q =
      if InR p size q then (cellAt s q).map (fun t => (uncoverE t.1, t.2)) else cellAt s q := by
    intro q hq
    rw [c2.cell, if_neg hq, c1.cell]
    simp only [r3]
  rcases hres : (delSpanAttributes (uncoverE t.1)).2 with x | x
  · refine ⟨s2, ?_, c2.inv, c1.shape.trans c2.shape, ?_, c2.cols.trans c1.cols,
      c1.rest.trans c2.rest, c2.rows.trans c1.rows⟩
    · rw [e0, Py.bind_ok e1']
      rw [hres] at e2
      rw [Py.bind_error e2]
    · intro q
      simp only [reduceCtorEq, if_false]
      by_cases hq : q = p
      · subst hq; rw [if_pos rfl]; exact ht2
      · rw [if_neg hq]; exact hc2 q hq
  · obtain ⟨s3, e3, c3⟩ := withCell_at c2.inv uncover_ok ht2
    refine ⟨s3, ?_, c3.inv, (c1.shape.trans c2.shape).trans c3.shape, ?_,
      c3.cols.trans (c2.cols.trans c1.cols),
      (c1.rest.trans c2.rest).trans c3.rest, c3.rows.trans (c2.rows.trans c1.rows)⟩
    · rw [e0, Py.bind_ok e1']
      rw [hres] at e2
      rw [Py.bind_ok e2]
      exact e3
    · intro q
      simp only [if_true]
      by_cases hq : q = p
      · subst hq; rw [if_pos rfl, c3.cell, if_pos rfl]; rfl
      · rw [if_neg hq, c3.cell, if_neg hq]; exact hc2 q hq

end Verif.Tbl
