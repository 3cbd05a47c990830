import Verif.Proofs.Load
import Verif.Props.Table
/-!
# Properties C15–C17: opening stored tables; C08, C09 for opened tables

A stored table (`StoredTable`) is a `table:table` element whose rows and columns are not nested in
each other, with readable positive repetition counts.
-/
set_option linter.unusedSimpArgs false
namespace Verif.Tbl
open Verif Verif.Forest Verif.Cells Verif.TSpec

/-- A stored table with the repetition counts `nr` of rows and `nc` of cells and columns. -/
structure StoredTable (s : TState) (nr nc : Elem → Nat) : Prop where
  tag : s.node.tag = "table:table"
  wf : WF s.kids s.fresh
  rows : ∀ r ∈ docRows s.kids, Stored "table:number-rows-repeated" r.1 (nr r.1) ∧
    ∀ c ∈ cells r, Stored "table:number-columns-repeated" c.1 (nc c.1)
  cols : ∀ c ∈ docCols s.kids, Stored "table:number-columns-repeated" c.1 (nc c.1)

/-- The stored rows: count, row element, stored cells (count, cell). -/
def storedRows (s : TState) (nr nc : Elem → Nat) : List (Nat × (Elem × List (Nat × Tree))) :=
  (docRows s.kids).map fun r => (nr r.1, (bare "table:number-rows-repeated" r.1,
    (cells r).map fun c => (nc c.1, shown "table:number-columns-repeated" c)))

/-- The stored column infos. -/
def storedCols (s : TState) (nc : Elem → Nat) : List (Nat × Tree) :=
  (docCols s.kids).map fun c => (nc c.1, shown "table:number-columns-repeated" c)

/-- The rows shown by the API of a table. -/
def shownRows (s : TState) : List (Elem × List Tree) := (docRows s.kids).map rowShown

def shownCols (s : TState) : List Tree :=
  (docCols s.kids).map (shown "table:number-columns-repeated")

/-- What a strategy with effective counts `er`, `ec` makes of stored rows. -/
def gridBy (er : List (Nat × (Elem × List Tree)) → List (Nat × (Elem × List Tree)))
    (ec : List (Nat × Tree) → List (Nat × Tree)) (l : List (Nat × (Elem × List (Nat × Tree)))) :
    List (Elem × List Tree) :=
  padded (rle (er (l.map fun r => (r.1, (r.2.1, rle (ec r.2.2))))))

/-- Result of opening: bookkeeping in order, grid and columns as given, everything else as before. -/
structure Opened (s s' : TState) (grid : List (Elem × List Tree)) (cols : List Tree) : Prop where
  inv : Inv s'
  node : s'.node = s.node
  others : others s'.kids = others s.kids
  rows : shownRows s' = grid
  cols : shownCols s' = cols

theorem load_core {name : String} {st : Strategy} (hst : strategyOf name = some st)
    {mx : Int × Int} (hm : 1 < mx.1 ∧ 1 < mx.2) {s : TState} {nr nc : Elem → Nat}
    (h : StoredTable s nr nc) :
    ∃ s', load name mx s = (s', .ok ()) ∧
      Opened s s' (gridBy (eff st mx.1) (eff st mx.2) (storedRows s nr nc))
        (rle (eff st mx.2 (storedCols s nc))) ∧
      (∃ w, Rect w (rowsOf s')) ∧ Single s' := by
  have hr := h.rows
  have hc := h.cols
  rw [← rowsOf_doc] at hr
  rw [← colsOf_doc] at hc
  obtain ⟨s', h1, h2, h3, h4, h5, h6, h7, h8⟩ := load_spec hst hm (nr := fun t => nr t.1)
    (nc := fun t => nc t.1) (fun _ _ => rfl) s h.tag h.wf hr hc
  refine ⟨s', h1, ⟨h2, h3, ?_, ?_, ?_⟩, ⟨_, h7⟩, h8⟩
  · rw [← skel_others, ← skel_others, h4]
  · unfold shownRows gridBy storedRows
    rw [← rowsOf_doc, ← rowsOf_doc, h5, gridOf, List.map_map]
    rfl
  · unfold shownCols storedCols
    rw [← colsOf_doc, ← colsOf_doc]; exact h6

theorem lookup_rle {α : Type} (l : List (Nat × α)) (i : Nat) : (rle l)[i]? = coverAt l i := by
  induction l generalizing i with
  | nil => rfl
  | cons p l ih =>
    obtain ⟨n, x⟩ := p
    rw [rle_cons, coverAt]
    by_cases h : i < n
    · rw [if_pos h, List.getElem?_append_left (by simpa using h), List.getElem?_replicate]
      simp [h]
    · rw [if_neg h, List.getElem?_append_right (by simpa using h), ih]
      simp

theorem coverAt_map (l : List (Nat × (Elem × List (Nat × Tree)))) (i : Nat) :
    coverAt (l.map fun r => (r.1, (r.2.1, rle r.2.2))) i =
      (coverAt l i).map fun r => (r.1, rle r.2) := by
  induction l generalizing i with
  | nil => rfl
  | cons a l ih =>
    obtain ⟨n, x⟩ := a
    simp only [List.map_cons, coverAt]
    by_cases hlt : i < n
    · simp [hlt]
    · simp only [hlt, if_false]; exact ih _

/-! ## C15 -/

/-- **C15**: the strategy 'all' (any maxcount) shows every stored row and cell as often as stored, in
order, rows filled up with empty cells; the column infos likewise; nothing else changes. -/
theorem C15_grid {s : TState} {nr nc : Elem → Nat} (h : StoredTable s nr nc) (mx : Int × Int) :
    ∃ s', load "all" mx s = (s', .ok ()) ∧
      Opened s s' (gridBy id id (storedRows s nr nc)) (rle (storedCols s nc)) := by
  obtain ⟨s', h1, h2, _⟩ := load_core (name := "all") (st := .all) rfl (mx := (2, 2)) (by decide) h
  exact ⟨s', h1, h2⟩

/-- The cell a stored table denotes at a position: the stored cell covering it, or an empty cell. -/
def denoted (l : List (Nat × (Elem × List (Nat × Tree)))) (i j : Nat) : Option Tree :=
  (coverAt l i).map fun r => (coverAt r.2 j).getD emptyShown

/-- Number of columns of a stored table. -/
def storedWidth (l : List (Nat × (Elem × List (Nat × Tree)))) : Nat :=
  l.foldr (fun r w => max (r.2.2.foldr (fun c n => c.1 + n) 0) w) 0

theorem rle_length {α : Type} (l : List (Nat × α)) :
    (rle l).length = l.foldr (fun c n => c.1 + n) 0 := by
  induction l with
  | nil => rfl
  | cons p l ih => rw [rle_cons, List.length_append, ih]; simp

theorem width_rle {α : Type} (l : List (Nat × (α × List Tree))) (h : ∀ r ∈ l, 1 ≤ r.1) :
    width (rle l) = l.foldr (fun r w => max r.2.2.length w) 0 := by
  have key : ∀ (n : Nat) (x : α × List Tree) (m : List (α × List Tree)), 1 ≤ n →
      width (List.replicate n x ++ m) = max x.2.length (width m) := by
    intro n x m hn
    induction n with
    | zero => omega
    | succ n ih =>
      rw [List.replicate_succ, List.cons_append]
      simp only [width, List.foldr_cons]
      by_cases h0 : n = 0
      · subst h0; simp
      · have := ih (by omega)
        simp only [width] at this
        rw [this]; omega
  induction l with
  | nil => rfl
  | cons p l ih =>
    rw [rle_cons, key _ _ _ (h p (by simp)), ih fun r hr => h r (by simp [hr])]
    rfl

theorem storedWidth_eq {s : TState} {nr nc : Elem → Nat} (h : StoredTable s nr nc) :
    width (rle ((storedRows s nr nc).map fun r => (r.1, (r.2.1, rle r.2.2)))) =
      storedWidth (storedRows s nr nc) := by
  rw [width_rle]
  · rw [List.foldr_map]
    unfold storedWidth
    simp only [rle_length]
  · intro r hr
    obtain ⟨a, ha, rfl⟩ := List.mem_map.mp hr
    obtain ⟨t, ht, rfl⟩ := List.mem_map.mp ha
    exact (h.rows t ht).1.1

/-- **C15** (through the API): the table has as many rows as the stored counts add up to and as many
columns as the widest row; `get_cell` gives at every position the stored cell that covers it, and an
empty cell behind the end of a shorter row. -/
theorem C15_cells {s : TState} {nr nc : Elem → Nat} (h : StoredTable s nr nc) (mx : Int × Int) :
    ∃ s', load "all" mx s = (s', .ok ()) ∧
      nrows s' = (storedRows s nr nc).foldr (fun r n => r.1 + n) 0 ∧
      (docRows s.kids ≠ [] → ncols s' = storedWidth (storedRows s nr nc)) ∧
      ∀ i j, i < nrows s' → j < ncols s' → ∃ t, getCell s' ((i : Nat), (j : Nat)) = .ok t ∧
        denoted (storedRows s nr nc) i j = some (shown "table:number-columns-repeated" t) := by
  obtain ⟨s', h1, h2, ⟨w, hw⟩, _⟩ :=
    load_core (name := "all") (st := .all) rfl (mx := (2, 2)) (by decide) h
  refine ⟨s', h1, ?_⟩
  have hshow := shows_of_inv h2.inv
  have hrows := h2.rows
  have hlen : (docRows s'.kids).length = (storedRows s nr nc).foldr (fun r n => r.1 + n) 0 := by
    have := congrArg List.length hrows
    simp only [shownRows, gridBy, padded, eff, List.length_map] at this
    rw [this, rle_length, List.foldr_map]
  have hgrid : shownRows s' = padded (rle ((storedRows s nr nc).map fun r =>
      (r.1, (r.2.1, rle r.2.2)))) := hrows
  have hwid : ∀ t ∈ docRows s'.kids, (cells t).length = storedWidth (storedRows s nr nc) := by
    intro t ht
    have : rowShown t ∈ shownRows s' := List.mem_map_of_mem ht
    rw [hgrid] at this
    unfold padded at this
    obtain ⟨r, hr, hrt⟩ := List.mem_map.mp this
    have hle := width_le hr
    have hl := congrArg (fun x : Elem × List Tree => x.2.length) hrt
    simp only [List.length_append, List.length_replicate, rowShown, List.length_map] at hl
    rw [← hl, ← storedWidth_eq h]
    omega
  have hrect : ∀ t ∈ docRows s'.kids, (cells t).length = ncols s' := by
    intro t ht
    rw [← rowsOf_doc] at ht
    have hne : rowsOf s' ≠ [] := by intro h0; rw [h0] at ht; simp at ht
    rw [rect_ncols h2.inv hw hne, cells, length_toList]
    exact hw t ht
  have hnc : docRows s'.kids ≠ [] → ncols s' = storedWidth (storedRows s nr nc) := by
    intro hne
    obtain ⟨t, ht⟩ := List.exists_mem_of_ne_nil _ hne
    rw [← hrect t ht, hwid t ht]
  refine ⟨by rw [hshow.nrows, hlen], ?_, ?_⟩
  · intro hne
    apply hnc
    intro h0
    rw [h0] at hlen
    obtain ⟨t, ht⟩ := List.exists_mem_of_ne_nil _ hne
    have hpos := (h.rows t ht).1.1
    have : ∀ (l : List (Nat × (Elem × List (Nat × Tree)))) r, r ∈ l → 1 ≤ r.1 →
        0 < l.foldr (fun r n => r.1 + n) 0 := by
      intro l r hr h1
      induction l with
      | nil => simp at hr
      | cons a l ih =>
        simp only [List.foldr_cons]
        rcases List.mem_cons.mp hr with rfl | hr
        · omega
        · have := ih hr; omega
    have := this (storedRows s nr nc) _ (List.mem_map_of_mem (f := fun r => (nr r.1,
      (bare "table:number-rows-repeated" r.1, (cells r).map fun c =>
        (nc c.1, shown "table:number-columns-repeated" c)))) ht) hpos
    rw [← hlen] at this
    simp at this
  · intro i j hi hj
    rw [hshow.nrows] at hi
    obtain ⟨t, ht, hg⟩ := getCell_doc h2.inv hrect (pos := ((i : Nat), (j : Nat))) (i := i) (j := j)
      ⟨hi, .inl rfl⟩ ⟨hj, .inl rfl⟩
    refine ⟨t, hg, ?_⟩
    unfold docCell at ht
    obtain ⟨r, hr, hrt⟩ := Option.bind_eq_some_iff.mp ht
    have hcol := hnc (by intro h0; rw [h0] at hr; simp at hr)
    have e1 : (shownRows s')[i]? = some (rowShown r) := by
      unfold shownRows; rw [List.getElem?_map, hr]; rfl
    rw [hgrid] at e1
    unfold padded at e1
    rw [List.getElem?_map, lookup_rle] at e1
    have e2 := coverAt_map (storedRows s nr nc) i
    rw [e2] at e1
    unfold denoted
    cases hcov : coverAt (storedRows s nr nc) i with
    | none => rw [hcov] at e1; simp at e1
    | some x =>
      rw [hcov] at e1
      simp only [Option.map_some, Option.some.injEq] at e1 ⊢
      have e3 : (rowShown r).2[j]? = some (shown "table:number-columns-repeated" t) := by
        unfold rowShown; rw [List.getElem?_map, hrt]; rfl
      rw [← e1] at e3
      simp only at e3
      by_cases hj2 : j < (rle x.2).length
      · rw [List.getElem?_append_left hj2, lookup_rle] at e3
        rw [e3]; rfl
      · have : coverAt x.2 j = none := by
          rw [← lookup_rle]; exact List.getElem?_eq_none (by omega)
        rw [this]
        rw [List.getElem?_append_right (by omega), List.getElem?_replicate] at e3
        split at e3
        · exact Option.some.inj e3
        · cases e3

/-! ## C16 -/

/-- **C16** 'all_less_maxcount': rows (cells, columns) with a count below maxcount as often as stored,
all others once; rows filled up to the widest. -/
theorem C16_less_maxcount {s : TState} {nr nc : Elem → Nat} (h : StoredTable s nr nc)
    {mx : Int × Int} (hm : 1 < mx.1 ∧ 1 < mx.2) :
    ∃ s', load "all_less_maxcount" mx s = (s', .ok ()) ∧
      Opened s s' (gridBy (lessMax mx.1) (lessMax mx.2) (storedRows s nr nc))
        (rle (lessMax mx.2 (storedCols s nc))) := by
  obtain ⟨s', h1, h2, _⟩ := load_core (name := "all_less_maxcount") (st := .lessMax) rfl hm h
  exact ⟨s', h1, h2⟩

/-- **C16** 'all_but_last' (any maxcount): everything as often as stored, but the last row, the last
cell of each row and the last column once; rows filled up to the widest. -/
theorem C16_all_but_last {s : TState} {nr nc : Elem → Nat} (h : StoredTable s nr nc)
    (mx : Int × Int) :
    ∃ s', load "all_but_last" mx s = (s', .ok ()) ∧
      Opened s s' (gridBy lastOnce lastOnce (storedRows s nr nc)) (rle (lastOnce (storedCols s nc))) := by
  obtain ⟨s', h1, h2, _⟩ :=
    load_core (name := "all_but_last") (st := .allButLast) rfl (mx := (2, 2)) (by decide) h
  exact ⟨s', h1, h2⟩

/-- **C16** (limit of the claim): with maxcount 1 every table with a cell that carries no count is
refused with a KeyError. -/
theorem C16_maxcount_one_refused :
    ∃ (s : TState) (nr nc : Elem → Nat), StoredTable s nr nc ∧
      (load "all_less_maxcount" (1, 1) s).2 = .error .KeyError := by
  refine ⟨stored { id := 0, tag := "table:table" } (.cons { id := 1, tag := "table:table-row" }
    (.cons { id := 2, tag := "table:table-cell" } .nil .nil) .nil) 3, fun _ => 1, fun _ => 1, ?_, ?_⟩
  · refine ⟨rfl, ⟨by decide +kernel, by decide +kernel, ?_⟩, ?_, ?_⟩
    · intro t ht
      have : t = ({ id := 1, tag := "table:table-row" },
        Forest.cons { id := 2, tag := "table:table-cell" } .nil .nil) := by
        simpa [stored, sel, isRC, isRow, isCol, rowTag, colTag] using ht
      subst this; decide +kernel
    · intro r hr
      have : r = ({ id := 1, tag := "table:table-row" },
        Forest.cons { id := 2, tag := "table:table-cell" } .nil .nil) := by
        simpa [stored, docRows, nodes] using hr
      subst this
      refine ⟨⟨Nat.le_refl _, .inl ⟨rfl, rfl⟩⟩, ?_⟩
      intro c hc
      simp only [cells, toList_cons, toList_nil, List.mem_singleton] at hc
      subst hc
      exact ⟨Nat.le_refl _, .inl ⟨rfl, rfl⟩⟩
    · intro c hc
      simp [stored, docCols, nodes] at hc
  · decide +kernel

/-! ## C17 -/

theorem stored_one {key : String} {e : Elem} (h : repeatCount key e = .ok 1) {n : Nat}
    (hn : Stored key e n) : n = 1 := by
  have := stored_count hn
  rw [h] at this
  injection this with this
  omega

/-- **C17**: after opening (any known strategy, maxcount above one) every row, cell and column counts
once, all rows have the same number of cells, and opening the resulting element again, under any
strategy, gives the same table: elements, attributes and identities unchanged. -/
theorem C17_idempotent {name : String} (hname : name ∈ ["all", "all_but_last", "all_less_maxcount"])
    {mx : Int × Int} (hm : 1 < mx.1 ∧ 1 < mx.2) {s : TState} {nr nc : Elem → Nat}
    (h : StoredTable s nr nc) :
    ∃ s', load name mx s = (s', .ok ()) ∧
      (∀ r ∈ docRows s'.kids, Stored "table:number-rows-repeated" r.1 1 ∧
        ∀ c ∈ cells r, Stored "table:number-columns-repeated" c.1 1) ∧
      (∀ c ∈ docCols s'.kids, Stored "table:number-columns-repeated" c.1 1) ∧
      (∀ a ∈ docRows s'.kids, ∀ b ∈ docRows s'.kids, (cells a).length = (cells b).length) ∧
      ∀ name' ∈ ["all", "all_but_last", "all_less_maxcount"], ∀ mx' : Int × Int,
        1 < mx'.1 → 1 < mx'.2 →
        load name' mx' (stored s'.node s'.kids s'.fresh) = (s', .ok ()) := by
  have known : ∀ n ∈ ["all", "all_but_last", "all_less_maxcount"], ∃ st, strategyOf n = some st := by
    intro n hn
    simp only [List.mem_cons, List.not_mem_nil, or_false] at hn
    rcases hn with rfl | rfl | rfl
    · exact ⟨.all, rfl⟩
    · exact ⟨.allButLast, rfl⟩
    · exact ⟨.lessMax, rfl⟩
  obtain ⟨st, hst⟩ := known name hname
  obtain ⟨s', h1, h2, ⟨w, hw⟩, h3⟩ := load_core hst hm h
  have one : ∀ {key : String} {e : Elem}, repeatCount key e = .ok 1 → Stored key e 1 := by
    intro key e he
    unfold repeatCount at he
    cases hg : e.get key with
    | none => exact ⟨Nat.le_refl _, .inl ⟨hg, rfl⟩⟩
    | some v =>
      rw [hg] at he
      simp only at he
      cases hp : pyInt v with
      | none => rw [hp] at he; cases he
      | some k =>
        rw [hp] at he
        simp only at he
        injection he with he
        subst he
        exact ⟨Nat.le_refl _, .inr ⟨v, hg, hp⟩⟩
  refine ⟨s', h1, ?_, ?_, ?_, ?_⟩
  · intro r hr
    rw [← rowsOf_doc] at hr
    obtain ⟨a, b⟩ := h3.1 r hr
    exact ⟨one a, fun c hc => one (b c hc)⟩
  · intro c hc
    rw [← colsOf_doc] at hc
    exact one (h3.2 c hc)
  · intro a ha b hb
    rw [← rowsOf_doc] at ha hb
    simp only [cells, length_toList]
    rw [hw a ha, hw b hb]
  · intro n hn mx' m1 m2
    obtain ⟨st', hst'⟩ := known n hn
    exact load_again hst' ⟨m1, m2⟩ (by rw [h2.node]; exact h.tag) h2.inv h3 hw [] []

/-! ## C08 and C09 for opened tables -/

/-- **C08** (opened tables): after opening and any history of calls the API shows the rows and columns
of the tree. -/
theorem C08_opened {name : String} (hname : name ∈ ["all", "all_but_last", "all_less_maxcount"])
    {mx : Int × Int} (hm : 1 < mx.1 ∧ 1 < mx.2) {s : TState} {nr nc : Elem → Nat}
    (h : StoredTable s nr nc) :
    ∃ s', load name mx s = (s', .ok ()) ∧ ∀ s'', Hist s' s'' → Shows s'' := by
  have : ∃ st, strategyOf name = some st := by
    simp only [List.mem_cons, List.not_mem_nil, or_false] at hname
    rcases hname with rfl | rfl | rfl
    · exact ⟨.all, rfl⟩
    · exact ⟨.allButLast, rfl⟩
    · exact ⟨.lessMax, rfl⟩
  obtain ⟨st, hst⟩ := this
  obtain ⟨s', h1, h2, _⟩ := load_core hst hm h
  exact ⟨s', h1, fun s'' hh => C08_bookkeeping h2.inv hh⟩

/-- **C09** (opened tables): after opening and any history of successful calls all rows have `ncols()`
cells. -/
theorem C09_opened {name : String} (hname : name ∈ ["all", "all_but_last", "all_less_maxcount"])
    {mx : Int × Int} (hm : 1 < mx.1 ∧ 1 < mx.2) {s : TState} {nr nc : Elem → Nat}
    (h : StoredTable s nr nc) :
    ∃ s', load name mx s = (s', .ok ()) ∧ ∀ s'', OkHist s' s'' →
      (∀ t ∈ docRows s''.kids, (cells t).length = ncols s'') ∧
      nrows s'' = (docRows s''.kids).length := by
  obtain ⟨s', h1, _, _, h3, _⟩ := C17_idempotent hname hm h
  obtain ⟨s1, i1, i2⟩ := C08_opened hname hm h
  have : ∃ st, strategyOf name = some st := by
    simp only [List.mem_cons, List.not_mem_nil, or_false] at hname
    rcases hname with rfl | rfl | rfl
    · exact ⟨.all, rfl⟩
    · exact ⟨.allButLast, rfl⟩
    · exact ⟨.lessMax, rfl⟩
  obtain ⟨st, hst⟩ := this
  obtain ⟨s2, j1, j2, _⟩ := load_core hst hm h
  have : s2 = s' := by rw [h1] at j1; exact (congrArg Prod.fst j1).symm
  subst this
  exact ⟨s2, h1, fun s'' hh => C09_rectangular j2.inv h3 hh⟩

/-! ## A stored table -/

/-- Two row groups: a row of three (repeated) cells, repeated twice, and a single shorter row. -/
def sample : TState := stored { id := 0, tag := "table:table" }
  (.cons { id := 1, tag := "table:table-column", attrs := [(colRep, "3".toList)] } .nil
  (.cons { id := 2, tag := "table:table-header-rows" }
    (.cons { id := 3, tag := "table:table-row", attrs := [(rowRep, "2".toList)] }
      (.cons { id := 4, tag := "table:table-cell", attrs := [("x", "a".toList)] } .nil
      (.cons { id := 5, tag := "table:table-cell", attrs := [("x", "b".toList), (colRep, "2".toList)] } .nil .nil))
      .nil)
  (.cons { id := 6, tag := "table:table-row" }
    (.cons { id := 7, tag := "table:table-cell", attrs := [("x", "c".toList)] } .nil .nil) .nil))) 8

def sampleRow (e : Elem) : Nat := if e.id = 3 then 2 else 1
def sampleCol (e : Elem) : Nat := if e.id = 1 then 3 else if e.id = 5 then 2 else 1

theorem sample_stored : StoredTable sample sampleRow sampleCol := by
  refine ⟨rfl, ⟨by decide +kernel, by decide +kernel, ?_⟩, ?_, ?_⟩
  · have : ∀ t ∈ sel isRC sample.kids, sel isRC t.2 = [] := by decide +kernel
    exact this
  · intro r hr
    have : r ∈ docRows sample.kids := hr
    simp only [sample, stored, docRows, nodes, List.nil_append, List.append_nil, List.cons_append] at this
    simp at this
    rcases this with rfl | rfl
    · refine ⟨⟨by decide, .inr ⟨_, rfl, by decide +kernel⟩⟩, ?_⟩
      intro c hc
      simp only [cells, toList_cons, toList_nil, List.mem_cons, List.not_mem_nil, or_false] at hc
      rcases hc with rfl | rfl
      · exact ⟨by decide, .inl ⟨by decide +kernel, rfl⟩⟩
      · exact ⟨by decide, .inr ⟨"2".toList, by decide +kernel, by decide +kernel⟩⟩
    · refine ⟨⟨by decide, .inl ⟨by decide +kernel, rfl⟩⟩, ?_⟩
      intro c hc
      simp only [cells, toList_cons, toList_nil, List.mem_singleton] at hc
      subst hc
      exact ⟨by decide, .inl ⟨by decide +kernel, rfl⟩⟩
  · intro c hc
    simp [sample, stored, docCols, nodes] at hc
    subst hc
    exact ⟨by decide, .inr ⟨_, rfl, by decide +kernel⟩⟩

/-- 'all' shows 3 × 3 cells, 'all_but_last' 3 × 2, 'all_less_maxcount' with maxcount 2 shows 2 × 2. -/
example :
    ((load "all" (32, 32) sample).1.rows.length, ncols (load "all" (32, 32) sample).1,
      (load "all" (32, 32) sample).1.cols.length) = (3, 3, 3) ∧
    ((load "all_but_last" (32, 32) sample).1.rows.length, ncols (load "all_but_last" (32, 32) sample).1,
      (load "all_but_last" (32, 32) sample).1.cols.length) = (3, 2, 1) ∧
    ((load "all_less_maxcount" (2, 2) sample).1.rows.length,
      ncols (load "all_less_maxcount" (2, 2) sample).1,
      (load "all_less_maxcount" (2, 2) sample).1.cols.length) = (2, 2, 1) := by
  decide +kernel

end Verif.Tbl
