import Verif.Proofs.Normalizer
import Verif.Proofs.TableRepeat
/-! Effect of loading a table. -/
set_option linter.unusedSimpArgs false
namespace Verif.Tbl
open Verif Verif.Forest Verif.Cells Verif.TSpec

/-! ### Lists -/

theorem rle_map {α β : Type} (g : α → β) (l : List (Nat × α)) :
    rle (l.map fun p => (p.1, g p.2)) = (rle l).map g := by
  induction l with
  | nil => rfl
  | cons p l ih => rw [List.map_cons, rle_cons, ih, rle_cons, List.map_append, List.map_replicate]

theorem lastOnce_map {α β : Type} (g : α → β) (l : List (Nat × α)) :
    lastOnce (l.map fun p => (p.1, g p.2)) = (lastOnce l).map fun p => (p.1, g p.2) := by
  simp [lastOnce, List.map_dropLast, List.getLast?_map, Option.map_map, Function.comp_def]
  cases l.getLast? <;> rfl

theorem flatMap_rle {α β : Type} (c : α → Nat) (g : α → β) (l : List α) :
    (l.flatMap fun t => List.replicate (c t) (g t)) = rle (l.map fun t => (c t, g t)) := by
  induction l with
  | nil => rfl
  | cons a l ih => rw [List.flatMap_cons, ih]; rfl

theorem lastOnce_concat {α : Type} (l : List (Nat × α)) (p : Nat × α) :
    lastOnce (l ++ [p]) = l ++ [(1, p.2)] := by
  simp [lastOnce]

theorem rle_append {α : Type} (l m : List (Nat × α)) : rle (l ++ m) = rle l ++ rle m := by
  simp [rle]

/-! ### Expansion loops on rows or columns -/

theorem forAll_spec {p q : Elem → Bool} (h : RowCol p q)
    (hp : ∀ e e' : Elem, e.tag = e'.tag → p e = p e') {key : String} {f : Expander} {c : Tree → Nat}
    (s : TState) (hwf : WF s.kids s.fresh) (hm : ∀ t ∈ sel p s.kids, Makes key f (c t) t) :
    ∃ s', forPy (expandNode f) ((sel p s.kids).map fun t => t.1.id) s = (s', .ok ()) ∧
      After q s s' ∧
      (sel p s'.kids).map (shown key) = rle ((sel p s.kids).map fun t => (c t, shown key t)) ∧
      ∀ u ∈ sel p s'.kids, repeatCount key u.1 = .ok 1 := by
  obtain ⟨s', Ns, h1, h2, h3, h4⟩ := forNodes (p := p) (q := q) (m := expandNode f)
    (Q := fun t => Makes key f (c t) t)
    (fun s L t R hwf hr hq => expandNode_step h hp (c := c) s L t R hwf hr hq)
    (sel p s.kids) s [] [] hwf (by simp) hm
  refine ⟨s', h1, h2, ?_, ?_⟩
  · rw [h3]
    simp only [List.nil_append, List.append_nil]
    rw [forall₂_flatten_map (g := fun t => List.replicate (c t) (shown key t))
      (fun a N hN => hN.1) h4, flatMap_rle]
  · rw [h3]
    simp only [List.nil_append, List.append_nil]
    exact forall₂_flatten_forall (fun a N hN => hN.2) h4

theorem forButLast_spec {p q : Elem → Bool} (h : RowCol p q)
    (hp : ∀ e e' : Elem, e.tag = e'.tag → p e = p e') {key : String} {f g : Expander} {c : Tree → Nat}
    (s : TState) (hwf : WF s.kids s.fresh)
    (hm : ∀ t ∈ sel p s.kids, Makes key f (c t) t ∧ Makes key g 1 t) :
    ∃ s', forButLast (expandNode f) (expandNode g) ((sel p s.kids).map fun t => t.1.id) s
        = (s', .ok ()) ∧ After q s s' ∧
      (sel p s'.kids).map (shown key) =
        rle (lastOnce ((sel p s.kids).map fun t => (c t, shown key t))) ∧
      ∀ u ∈ sel p s'.kids, repeatCount key u.1 = .ok 1 := by
  rcases List.eq_nil_or_concat (sel p s.kids) with h0 | ⟨l, x, h0⟩
  · refine ⟨s, ?_, .refl hwf, ?_, ?_⟩
    · rw [h0]; rfl
    · rw [h0]; rfl
    · rw [h0]; simp
  · rw [List.concat_eq_append] at h0
    obtain ⟨s1, Ns, h1, h2, h3, h4⟩ := forNodes (p := p) (q := q) (m := expandNode f)
      (Q := fun t => Makes key f (c t) t)
      (fun s L t R hwf hr hq => expandNode_step h hp (c := c) s L t R hwf hr hq)
      l s [] [x] hwf (by rw [h0]; simp) fun t ht => (hm t (by rw [h0]; simp [ht])).1
    obtain ⟨s2, N, i1, i2, i3, i4, i5⟩ := expandNode_step h hp (c := fun _ => 1) s1 Ns.flatten x []
      h2.wf (by rw [h3]; rfl) (hm x (by rw [h0]; simp)).2
    refine ⟨s2, ?_, h2.trans i2, ?_, ?_⟩
    · rw [h0]
      simp only [forButLast, List.map_append, List.map_cons, List.map_nil, List.dropLast_concat,
        List.getLast?_concat]
      rw [Py.bind_ok h1]; exact i1
    · rw [i3, h0]
      simp only [List.map_append, List.map_cons, List.map_nil, List.append_nil]
      rw [lastOnce_concat, rle_append, i4, forall₂_flatten_map
        (g := fun t => List.replicate (c t) (shown key t)) (fun a N hN => hN.1) h4, flatMap_rle]
      rfl
    · rw [i3]
      intro u hu
      simp only [List.append_nil, List.mem_append] at hu
      rcases hu with hu | hu
      · exact forall₂_flatten_forall (fun a N hN => hN.2) h4 u hu
      · exact i5 u hu

/-! ### Columns -/

theorem expandColumns_spec (st : Strategy) {m : Int} (hm : 1 < m) {c : Tree → Nat} (s : TState)
    (hwf : WF s.kids s.fresh) (hc : ∀ t ∈ sel isCol s.kids, Stored colRep t.1 (c t)) :
    ∃ s', expandColumns st m s = (s', .ok ()) ∧ After isRow s s' ∧
      (sel isCol s'.kids).map (shown colRep) =
        rle (eff st m ((sel isCol s.kids).map fun t => (c t, shown colRep t))) ∧
      ∀ u ∈ sel isCol s'.kids, repeatCount colRep u.1 = .ok 1 := by
  have h : RowCol isCol isRow := .inr ⟨rfl, rfl⟩
  cases st with
  | all => exact forAll_spec h cols_wf_tag s hwf fun t ht => expandAll_makes (hc t ht)
  | allButLast =>
    exact forButLast_spec h cols_wf_tag s hwf fun t ht =>
      ⟨expandAll_makes (hc t ht), expandLast_makes (hc t ht)⟩
  | lessMax =>
    obtain ⟨s', h1, h2, h3, h4⟩ := forAll_spec h cols_wf_tag
      (c := fun t => if (c t : Int) < m then c t else 1) s hwf
      fun t ht => expandLess_makes (hc t ht) hm
    refine ⟨s', h1, h2, ?_, h4⟩
    simpa [eff, lessMax, List.map_map, Function.comp_def] using h3

/-! ### Rows -/

theorem rowShown_shown (t : Tree) :
    rowShown t = ((shown rowRep t).1, (shown rowRep t).2.toList.map (shown colRep)) := by
  have := cells_shown_erase t.2
  simp only [rowShown, cells, TSpec.shown]
  rw [← show t.2.toList.map (shown "table:number-columns-repeated")
      = (erase t.2).toList.map (shown colRep) from this]
  rfl

/-- The stored counts of the rows and their cells. -/
def RowsStored (nr nc : Tree → Nat) (rows : List Tree) : Prop :=
  ∀ t ∈ rows, Stored rowRep t.1 (nr t) ∧ ∀ u ∈ t.2.toList, Stored colRep u.1 (nc u)

theorem forRows_spec (st : Strategy) {m : Int} (hm : 1 < m) {f : Expander} {nr nc cnt : Tree → Nat}
    (hf : ∀ t k', Stored rowRep t.1 (nr t) → Makes rowRep f (cnt t) (t.1, k'))
    (s : TState) (hwf : WF s.kids s.fresh) (hs : RowsStored nr nc (sel isRow s.kids)) :
    ∃ s', forPy (fun r => (do expandRowCells st m r; expandNode f r : Py TState Unit))
        ((sel isRow s.kids).map fun t => t.1.id) s = (s', .ok ()) ∧ After isCol s s' ∧
      (sel isRow s'.kids).map rowShown = rle ((sel isRow s.kids).map fun t => (cnt t,
        (bare rowRep t.1, rle (eff st m (t.2.toList.map fun u => (nc u, shown colRep u)))))) ∧
      ∀ u ∈ sel isRow s'.kids, repeatCount rowRep u.1 = .ok 1 ∧ RowOne u := by
  obtain ⟨s', Ns, h1, h2, h3, h4⟩ := forNodes (p := isRow) (q := isCol)
    (m := fun r => (do expandRowCells st m r; expandNode f r : Py TState Unit))
    (P := fun t N => N.map rowShown = List.replicate (cnt t) (bare rowRep t.1,
          rle (eff st m (t.2.toList.map fun u => (nc u, shown colRep u)))) ∧
        ∀ u ∈ N, repeatCount rowRep u.1 = .ok 1 ∧ RowOne u)
    (Q := fun t => Stored rowRep t.1 (nr t) ∧ ∀ u ∈ t.2.toList, Stored colRep u.1 (nc u))
    (fun s L t R hwf hr hq => rowBody_step st hm (f := f) (nr := nr) (nc := nc) (cnt := cnt) hf
      s L t R hwf hr hq)
    (sel isRow s.kids) s [] [] hwf (by simp) hs
  refine ⟨s', h1, h2, ?_, ?_⟩
  · rw [h3]
    simp only [List.nil_append, List.append_nil]
    rw [forall₂_flatten_map (g := fun t => List.replicate (cnt t) (bare rowRep t.1,
      rle (eff st m (t.2.toList.map fun u => (nc u, shown colRep u)))))
      (fun a N hN => hN.1) h4, flatMap_rle]
  · rw [h3]
    simp only [List.nil_append, List.append_nil]
    exact forall₂_flatten_forall (fun a N hN => hN.2) h4

theorem forall₂_singletons {α β : Type} {Q : α → β → Prop} {l : List α} {Ns : List (List β)}
    (h : List.Forall₂ (fun a N => ∃ b, N = [b] ∧ Q a b) l Ns) : List.Forall₂ Q l Ns.flatten := by
  induction h with
  | nil => exact .nil
  | cons h1 _ ih => obtain ⟨b, rfl, h1⟩ := h1; exact .cons h1 ih

theorem forall₂_map_eq {α β γ : Type} {Q : α → β → Prop} {f : α → γ} {g : β → γ}
    (hQ : ∀ a b, Q a b → g b = f a) {l : List α} {m : List β} (h : List.Forall₂ Q l m) :
    m.map g = l.map f := by
  induction h with
  | nil => rfl
  | cons h1 _ ih => rw [List.map_cons, List.map_cons, ih, hQ _ _ h1]

theorem forall₂_mem {α β : Type} {Q : α → β → Prop} {l : List α} {m : List β}
    (h : List.Forall₂ Q l m) : ∀ b ∈ m, ∃ a ∈ l, Q a b := by
  induction h with
  | nil => simp
  | cons h1 _ ih =>
    intro b hb
    rcases List.mem_cons.mp hb with rfl | hb
    · exact ⟨_, by simp, h1⟩
    · obtain ⟨a, ha, h⟩ := ih b hb; exact ⟨a, by simp [ha], h⟩

theorem normalizeRows_spec (st : Strategy) {mx : Int × Int} (hm : 1 < mx.1 ∧ 1 < mx.2)
    {nr nc : Tree → Nat} (hnr : ∀ t k', nr (t.1, k') = nr t) (s : TState) (hwf : WF s.kids s.fresh)
    (hs : RowsStored nr nc (sel isRow s.kids)) :
    ∃ s', normalizeRows st mx s = (s', .ok ()) ∧ After isCol s s' ∧
      (sel isRow s'.kids).map rowShown = gridOf st mx nr nc (sel isRow s.kids) ∧
      ∀ u ∈ sel isRow s'.kids, repeatCount rowRep u.1 = .ok 1 ∧ RowOne u := by
  cases st with
  | all =>
    exact forRows_spec .all hm.2 (f := expandAll rowRep) (cnt := nr)
      (fun t k' h => expandAll_makes h) s hwf hs
  | lessMax =>
    obtain ⟨s', h1, h2, h3, h4⟩ := forRows_spec .lessMax hm.2 (f := expandLess rowRep mx.1)
      (cnt := fun t => if (nr t : Int) < mx.1 then nr t else 1)
      (fun t k' h => expandLess_makes (t := (t.1, k')) h hm.1) s hwf hs
    refine ⟨s', h1, h2, ?_, h4⟩
    rw [h3, gridOf]
    congr 1
    simp [eff, lessMax, List.map_map, Function.comp_def]
  | allButLast =>
    obtain ⟨s1, Ns, h1, h2, h3, h4⟩ := forNodes (p := isRow) (q := isCol)
      (Q := fun t => ∀ u ∈ t.2.toList, Stored colRep u.1 (nc u))
      (fun s L t R hwf hr hq => expandRowCells_step .allButLast hm.2 (c := nc) s L t R hwf hr hq)
      (sel isRow s.kids) s [] [] hwf (by simp) (fun t ht => (hs t ht).2)
    simp only [List.nil_append, List.append_nil] at h3
    have h5 : List.Forall₂ (fun (t b : Tree) => b.1 = t.1 ∧ RowOne b ∧ b.2.toList.map (shown colRep) =
        rle (eff .allButLast mx.2 (t.2.toList.map fun u => (nc u, shown colRep u))))
        (sel isRow s.kids) Ns.flatten := by
      apply forall₂_singletons
      refine List.Forall₂.imp ?_ h4
      rintro t N ⟨k', rfl, a, b⟩
      exact ⟨(t.1, k'), rfl, rfl, a, b⟩
    rw [← h3] at h5
    obtain ⟨s2, i1, i2, i3, i4⟩ := forButLast_spec (.inl ⟨rfl, rfl⟩ : RowCol isRow isCol) rows_wf_tag
      (f := expandAll rowRep) (g := expandLast rowRep) (c := nr) (key := rowRep) s1 h2.wf (by
        intro b hb
        obtain ⟨t, ht, h6, _⟩ := forall₂_mem h5 b hb
        have hst : Stored rowRep b.1 (nr b) := by
          have := (hs t ht).1
          rw [← hnr t b.2, ← h6] at this
          exact this
        exact ⟨expandAll_makes hst, expandLast_makes hst⟩)
    have hids : (sel isRow s1.kids).map (fun t => t.1.id) = (sel isRow s.kids).map fun t => t.1.id :=
      forall₂_map_eq (fun a b h => by rw [h.1]) h5
    rw [hids] at i1
    refine ⟨s2, ?_, h2.trans i2, ?_, ?_⟩
    · have : normalizeRows .allButLast mx s = (do
        forPy (expandRowCells .allButLast mx.2) ((sel isRow s.kids).map fun t => t.1.id)
        forButLast (expandNode (expandAll rowRep)) (expandNode (expandLast rowRep))
          ((sel isRow s.kids).map fun t => t.1.id) : Py TState Unit) s := rfl
      rw [this, Py.bind_ok h1]; exact i1
    · have e1 : (sel isRow s2.kids).map rowShown =
          ((sel isRow s2.kids).map (shown rowRep)).map
            fun x => (x.1, x.2.toList.map (shown colRep)) := by
        rw [List.map_map]; apply List.map_congr_left; intro u _; exact rowShown_shown u
      have e2 := lastOnce_map (fun x : Tree => (x.1, x.2.toList.map (shown colRep)))
        ((sel isRow s1.kids).map fun t => (nr t, shown rowRep t))
      rw [e1, i3, ← rle_map, ← e2]
      simp only [gridOf, eff, List.map_map, Function.comp_def]
      congr 2
      apply forall₂_map_eq _ h5
      intro t b hb
      have := rowShown_shown b
      rw [← this]
      have hn : nr b = nr t := by
        rw [← hnr t b.2, ← hb.1]
      rw [hn]
      simp only [rowShown, cells, hb.1]
      rw [show b.2.toList.map (shown "table:number-columns-repeated") = _ from hb.2.2]
      rfl
    · intro u hu
      refine ⟨i4 u hu, ?_⟩
      have hx : shown rowRep u ∈ (sel isRow s2.kids).map (shown rowRep) := List.mem_map_of_mem hu
      rw [i3] at hx
      obtain ⟨n, hx⟩ := mem_rle hx
      obtain ⟨n', hx⟩ := mem_eff (st := .allButLast) (m := 0) hx
      obtain ⟨b, hb, hbx⟩ := List.mem_map.mp hx
      obtain ⟨t, _, h6⟩ := forall₂_mem h5 b hb
      exact (rowShown_of_shown (Prod.mk.inj hbx).2.symm).2 h6.2.1

/-! ### Alignment -/

theorem countCells_one {k : Forest} (h : ∀ c ∈ k.toList, repeatCount colRep c.1 = .ok 1) :
    countCells k = .ok (k.length : Int) := by
  induction k with
  | nil => rfl
  | cons e k r _ ih =>
    have h1 := h (e, k) (by simp)
    have h2 := ih fun c hc => h c (by simp [hc])
    simp only [countCells, h1, h2, Forest.length]
    congr 1; omega

theorem rowCounts_one {l : List Tree} (h : ∀ t ∈ l, RowOne t) :
    rowCounts l = .ok (l.map fun t => (t.2.length : Int)) := by
  induction l with
  | nil => rfl
  | cons t l ih =>
    have h1 := countCells_one (h t (by simp))
    simp only [rowCounts, h1, ih fun t ht => h t (by simp [ht])]
    rfl

theorem foldl_max_spec (l : List Int) : ∀ n : Int, n ≤ l.foldl max n ∧
    (∀ x ∈ l, x ≤ l.foldl max n) ∧ (l.foldl max n = n ∨ l.foldl max n ∈ l) := by
  induction l with
  | nil => intro n; simp
  | cons a l ih =>
    intro n
    obtain ⟨h1, h2, h3⟩ := ih (max n a)
    simp only [List.foldl_cons]
    refine ⟨by omega, ?_, ?_⟩
    · intro x hx
      rcases List.mem_cons.mp hx with rfl | hx
      · omega
      · exact h2 x hx
    · rcases h3 with h3 | h3
      · by_cases h : n ≤ a
        · right; rw [h3]; simp [Int.max_eq_right h]
        · left; rw [h3]; omega
      · right; simp [h3]

theorem foldl_min_spec (l : List Int) : ∀ n : Int, l.foldl min n ≤ n ∧
    (∀ x ∈ l, l.foldl min n ≤ x) := by
  induction l with
  | nil => intro n; simp
  | cons a l ih =>
    intro n
    obtain ⟨h1, h2⟩ := ih (min n a)
    simp only [List.foldl_cons]
    refine ⟨by omega, ?_⟩
    intro x hx
    rcases List.mem_cons.mp hx with rfl | hx
    · omega
    · exact h2 x hx

theorem width_le {α β : Type} {l : List (α × List β)} {r : α × List β} (h : r ∈ l) :
    r.2.length ≤ width l := by
  induction l with
  | nil => simp at h
  | cons a l ih =>
    simp only [width, List.foldr_cons]
    rcases List.mem_cons.mp h with rfl | h
    · omega
    · have := ih h; simp only [width] at this; omega

theorem width_mem {α β : Type} {l : List (α × List β)} (h : l ≠ []) :
    ∃ r ∈ l, r.2.length = width l := by
  induction l with
  | nil => exact absurd rfl h
  | cons a l ih =>
    by_cases hl : l = []
    · subst hl; exact ⟨a, by simp, by simp [width]⟩
    · obtain ⟨r, h1, h2⟩ := ih hl
      simp only [width, List.foldr_cons] at h2 ⊢
      by_cases hc : a.2.length ≤ r.2.length
      · exact ⟨r, by simp [h1], by omega⟩
      · exact ⟨a, by simp, by omega⟩

theorem rowShown_len (t : Tree) : (rowShown t).2.length = t.2.length := by
  simp [rowShown, cells, length_toList]

/-- Smallest and largest number of cells. -/
theorem minMax_spec {F : Forest} (h : ∀ t ∈ sel isRow F, RowOne t) :
    ∃ lo hi : Int, minMaxCount F = .ok (lo, hi) ∧
      (hi = (width ((sel isRow F).map rowShown) : Nat)) ∧
      (lo = hi → ∀ t ∈ sel isRow F, (t.2.length : Int) = hi) := by
  unfold minMaxCount
  rw [rowCounts_one h]
  cases hl : sel isRow F with
  | nil => exact ⟨0, 0, rfl, rfl, by simp⟩
  | cons t l =>
    simp only [List.map_cons]
    obtain ⟨a1, a2, a3⟩ := foldl_max_spec (l.map fun t => (t.2.length : Int)) t.2.length
    obtain ⟨b1, b2⟩ := foldl_min_spec (l.map fun t => (t.2.length : Int)) t.2.length
    refine ⟨_, _, rfl, ?_, ?_⟩
    · have hle : ∀ u ∈ t :: l, (u.2.length : Int) ≤
          (l.map fun t => (t.2.length : Int)).foldl max (t.2.length : Int) := by
        intro u hu
        rcases List.mem_cons.mp hu with rfl | hu
        · exact a1
        · exact a2 _ (List.mem_map.mpr ⟨u, hu, rfl⟩)
      have hex : ∃ u ∈ t :: l, (u.2.length : Int) =
          (l.map fun t => (t.2.length : Int)).foldl max (t.2.length : Int) := by
        rcases a3 with a3 | a3
        · exact ⟨t, by simp, a3.symm⟩
        · obtain ⟨u, hu, hux⟩ := List.mem_map.mp a3
          exact ⟨u, by simp [hu], hux⟩
      obtain ⟨u, hu, hux⟩ := hex
      have h1 := width_le (l := (t :: l).map rowShown) (r := rowShown u) (List.mem_map_of_mem hu)
      obtain ⟨r, hr, hw⟩ := width_mem (l := (t :: l).map rowShown) (by simp)
      obtain ⟨v, hv, rfl⟩ := List.mem_map.mp hr
      have h2 := hle v hv
      rw [rowShown_len] at h1 hw
      simp only [List.map_cons] at h1 hw
      omega
    · intro heq u hu
      rcases List.mem_cons.mp hu with rfl | hu
      · omega
      · have := a2 _ (List.mem_map.mpr ⟨u, hu, rfl⟩)
        have := b2 _ (List.mem_map.mpr ⟨u, hu, rfl⟩)
        omega

theorem newCells_shown (id n : Nat) :
    (newCells id n).toList.map (shown colRep) = List.replicate n emptyShown := by
  induction n generalizing id with
  | zero => rfl
  | succ n ih => simp only [newCells, toList_cons, List.map_cons, ih, List.replicate_succ]; rfl

theorem newCells_one (id n : Nat) :
    ∀ c ∈ (newCells id n).toList, repeatCount colRep c.1 = .ok 1 := by
  induction n generalizing id with
  | zero => simp [newCells]
  | succ n ih =>
    intro c hc
    simp only [newCells, toList_cons, List.mem_cons] at hc
    rcases hc with rfl | hc
    · rfl
    · exact ih _ c hc

/-- A row filled up to `w` cells. -/
def Filled (w : Nat) (t u : Tree) : Prop :=
  u.1 = t.1 ∧ RowOne u ∧ u.2.length = w ∧
  u.2.toList.map (shown colRep) =
    t.2.toList.map (shown colRep) ++ List.replicate (w - t.2.length) emptyShown

theorem alignRow_step {w : Nat} (s : TState) (L : List Tree) (t : Tree) (R : List Tree)
    (hwf : WF s.kids s.fresh) (hr : sel isRow s.kids = L ++ t :: R)
    (hq : RowOne t ∧ t.2.length ≤ w) :
    ∃ s' N, alignRow (w : Int) t.1.id s = (s', .ok ()) ∧ After isCol s s' ∧
      sel isRow s'.kids = L ++ (N ++ R) ∧ ∃ b, N = [b] ∧ Filled w t b := by
  obtain ⟨h1, _, h3, h4⟩ := find_of_split (.inl ⟨rfl, rfl⟩) hwf hr
  have hcnt := countCells_one hq.1
  by_cases hlt : t.2.length < w
  · have hm : ((w : Int) - t.2.length).toNat = w - t.2.length := by omega
    obtain ⟨i1, i2⟩ := ids_of_rc hwf h3
    have hs1 : ids (single t) = t.1.id :: ids t.2 := by simp [ids, single]
    rw [hs1] at i1 i2
    obtain ⟨j1, j2⟩ := rowKids_step hwf hr
      (fun e k => .cons e (k ++ newCells s.fresh (w - t.2.length)) .nil) rfl
      (n' := s.fresh + (w - t.2.length)) (by omega)
      (by rw [sel_append, h4, sel_newCells isRC cellTag_not_rc]; rfl)
      (by
        rw [ids_append, ids_newCells, List.nodup_append]
        refine ⟨(List.nodup_cons.mp i1).2, List.nodup_range', ?_⟩
        rintro a ha b hb rfl
        have := i2 a (by simp [ha])
        rw [List.mem_range'_1] at hb
        omega)
      (by
        intro i hi
        rw [ids_append, ids_newCells, List.mem_append, List.mem_range'_1] at hi
        exact hi.imp id id)
    refine ⟨_, _, ?_, j1, j2, _, rfl, rfl, ?_, ?_, ?_⟩
    · simp only [alignRow, h1, hcnt]
      rw [if_pos (by omega), hm]
    · intro c hc
      rw [toList_append, List.mem_append] at hc
      rcases hc with hc | hc
      · exact hq.1 c hc
      · exact newCells_one _ _ c hc
    · simp only [length_append, length_newCells]; omega
    · simp only [toList_append, List.map_append, newCells_shown]
  · refine ⟨s, [t], ?_, .refl hwf, by simpa using hr, t, rfl, rfl, hq.1, ?_, ?_⟩
    · simp only [alignRow, h1, hcnt]
      rw [if_neg (by omega)]
    · omega
    · rw [show w - t.2.length = 0 by omega]; simp

theorem alignColumns_spec (s : TState) (hwf : WF s.kids s.fresh)
    (h1 : ∀ t ∈ sel isRow s.kids, repeatCount rowRep t.1 = .ok 1 ∧ RowOne t) :
    ∃ s', alignColumns s = (s', .ok ()) ∧ After isCol s s' ∧
      (sel isRow s'.kids).map rowShown = padded ((sel isRow s.kids).map rowShown) ∧
      Rect (width ((sel isRow s.kids).map rowShown)) (sel isRow s'.kids) ∧
      ∀ u ∈ sel isRow s'.kids, repeatCount rowRep u.1 = .ok 1 ∧ RowOne u := by
  obtain ⟨lo, hi, h2, h3, h4⟩ := minMax_spec (fun t ht => (h1 t ht).2)
  unfold alignColumns
  rw [h2]
  by_cases hc : lo = hi
  · subst hc
    refine ⟨s, by simp, .refl hwf, ?_, ?_, h1⟩
    · unfold padded
      rw [List.map_map]
      apply List.map_congr_left
      intro t ht
      have := h4 rfl t ht
      simp only [Function.comp, rowShown_len]
      rw [show width ((sel isRow s.kids).map rowShown) - t.2.length = 0 by omega]
      simp
    · intro t ht
      have := h4 rfl t ht
      omega
  · obtain ⟨s', Ns, i1, i2, i3, i4⟩ := forNodes (p := isRow) (q := isCol)
      (Q := fun t => RowOne t ∧ t.2.length ≤ width ((sel isRow s.kids).map rowShown))
      (fun s L t R hwf hr hq => alignRow_step s L t R hwf hr hq)
      (sel isRow s.kids) s [] [] hwf (by simp) (fun t ht => ⟨(h1 t ht).2, by
        rw [← rowShown_len]; exact width_le (List.mem_map_of_mem ht)⟩)
    simp only [List.nil_append, List.append_nil] at i3
    have i5 := forall₂_singletons i4
    rw [← i3] at i5
    refine ⟨s', ?_, i2, ?_, ?_, ?_⟩
    · simp only [ne_eq, hc, not_false_eq_true, if_true]
      rw [h3]; exact i1
    · unfold padded
      rw [List.map_map]
      apply forall₂_map_eq _ i5
      intro t b hb
      simp only [Function.comp, rowShown_len]
      simp only [rowShown, cells, hb.1]
      rw [show b.2.toList.map (shown "table:number-columns-repeated") = _ from hb.2.2.2]
      rfl
    · intro u hu
      obtain ⟨t, _, h⟩ := forall₂_mem i5 u hu
      exact h.2.2.1
    · intro u hu
      obtain ⟨t, ht, h⟩ := forall₂_mem i5 u hu
      exact ⟨by rw [h.1]; exact (h1 t ht).1, h.2.1⟩

/-! ### Loading -/

/-- No row, cell or column carries a count other than one. -/
def Single (s : TState) : Prop :=
  (∀ t ∈ sel isRow s.kids, repeatCount rowRep t.1 = .ok 1 ∧ RowOne t) ∧
  ∀ t ∈ sel isCol s.kids, repeatCount colRep t.1 = .ok 1

theorem load_spec {name : String} {st : Strategy} (hst : strategyOf name = some st)
    {mx : Int × Int} (hm : 1 < mx.1 ∧ 1 < mx.2) {nr nc : Tree → Nat}
    (hnr : ∀ t k', nr (t.1, k') = nr t) (s : TState) (hn : s.node.tag = "table:table")
    (hwf : WF s.kids s.fresh) (hs : RowsStored nr nc (sel isRow s.kids))
    (hc : ∀ t ∈ sel isCol s.kids, Stored colRep t.1 (nc t)) :
    ∃ s', load name mx s = (s', .ok ()) ∧ Inv s' ∧ s'.node = s.node ∧ skel s'.kids = skel s.kids ∧
      (rowsOf s').map rowShown = padded (gridOf st mx nr nc (rowsOf s)) ∧
      (colsOf s').map (shown colRep) =
        rle (eff st mx.2 ((colsOf s).map fun t => (nc t, shown colRep t))) ∧
      Rect (width (gridOf st mx nr nc (rowsOf s))) (rowsOf s') ∧ Single s' := by
  obtain ⟨s1, a1, a2, a3, a4⟩ := normalizeRows_spec st hm hnr s hwf hs
  obtain ⟨s2, b1, b2, b3, b4, b5⟩ := alignColumns_spec s1 a2.wf a4
  have hc2 : sel isCol s2.kids = sel isCol s.kids := b2.other.trans a2.other
  obtain ⟨s3, c1, c2, c3, c4⟩ := expandColumns_spec st hm.2 (c := nc) (updateRows s2) b2.wf (by
    intro t ht
    exact hc t (by rw [← hc2]; exact ht))
  rw [a3] at b3 b4
  have hrows : sel isRow s3.kids = sel isRow s2.kids := c2.other
  refine ⟨updateCols s3, ?_, ⟨c2.wf, ?_, rfl⟩, ?_, ?_, ?_, ?_, ?_, ?_, ?_⟩
  · have hnt : normalizeTable st mx s = (s2, .ok ()) := by
      unfold normalizeTable; rw [Py.bind_ok a1]; exact b1
    unfold load
    rw [if_neg (by simp [hn]), hst]
    simp only [hnt, c1]
  · show s3.rows = (sel isRow s3.kids).map fun t => t.1.id
    rw [hrows, c2.rows]; rfl
  · show s3.node = s.node
    rw [c2.node, show (updateRows s2).node = s2.node from rfl, b2.node, a2.node]
  · show Tbl.skel s3.kids = _
    rw [c2.skel, show (updateRows s2).kids = s2.kids from rfl, b2.skel, a2.skel]
  · show (sel isRow s3.kids).map rowShown = _
    rw [hrows, b3]; rfl
  · show (sel isCol s3.kids).map (shown colRep) = _
    rw [c3, show (updateRows s2).kids = s2.kids from rfl, hc2]; rfl
  · show Rect _ (sel isRow s3.kids)
    rw [hrows]; exact b4
  · show ∀ t ∈ sel isRow s3.kids, _
    rw [hrows]; exact b5
  · exact c4

/-! ### Loading again -/

theorem subst_same {F : Forest} (hn : (ids F).Nodup) {i : Nat} {t : Tree} (h : find i F = some t)
    (f : Elem → Forest → Forest) (hf : f t.1 t.2 = single t) : subst i f F = F := by
  obtain ⟨c, h1, h2⟩ := ctx_exists hn h
  rw [h2, hf, ← h1]

/-- The expander leaves nodes with count one alone. -/
def Keeps (key : String) (f : Expander) : Prop :=
  ∀ n t, repeatCount key t.1 = .ok 1 → f n t = .ok (single t, n)

theorem expandAll_keeps (key : String) : Keeps key (expandAll key) := by
  intro n t h; simp [expandAll, h]

theorem expandLast_keeps (key : String) : Keeps key (expandLast key) := by
  intro n t h; simp [expandLast, h]

theorem expandLess_keeps (key : String) {m : Int} (hm : 1 < m) : Keeps key (expandLess key m) := by
  intro n t h
  simp only [expandLess, h]
  rw [if_neg (by omega), if_neg (by omega)]

theorem expandKids_keeps {f : Expander} (hf : Keeps colRep f) (k : Forest)
    (h : ∀ c ∈ k.toList, repeatCount colRep c.1 = .ok 1) (n : Nat) :
    expandKids f n k = .ok (k, n) := by
  induction k with
  | nil => rfl
  | cons e k r _ ih =>
    simp only [expandKids, hf n (e, k) (h (e, k) (by simp)), ih fun c hc => h c (by simp [hc])]
    rfl

theorem expandKidsLast_keeps {f g : Expander} (hf : Keeps colRep f) (hg : Keeps colRep g) (k : Forest)
    (h : ∀ c ∈ k.toList, repeatCount colRep c.1 = .ok 1) (n : Nat) :
    expandKidsLast f g n k = .ok (k, n) := by
  induction k with
  | nil => rfl
  | cons e k r _ ih =>
    cases r with
    | nil => simp only [expandKidsLast, hg n (e, k) (h (e, k) (by simp))]; rfl
    | cons e' k' r' =>
      have ih' := ih fun c hc => h c (by simp at hc ⊢; exact .inr hc)
      simp only [expandKidsLast, hf n (e, k) (h (e, k) (by simp)), ih']
      rfl

theorem expandCells_keeps (st : Strategy) {m : Int} (hm : 1 < m) (k : Forest)
    (h : ∀ c ∈ k.toList, repeatCount colRep c.1 = .ok 1) (n : Nat) :
    expandCells st m n k = .ok (k, n) := by
  cases st with
  | all => exact expandKids_keeps (expandAll_keeps _) k h n
  | allButLast => exact expandKidsLast_keeps (expandAll_keeps _) (expandLast_keeps _) k h n
  | lessMax => exact expandKids_keeps (expandLess_keeps _ hm) k h n

theorem expandRowCells_keeps (st : Strategy) {m : Int} (hm : 1 < m) {s : TState}
    (hn : (ids s.kids).Nodup) {t : Tree} (ht : t ∈ sel isRow s.kids) (h : RowOne t) :
    expandRowCells st m t.1.id s = (s, .ok ()) := by
  have hf := find_of_mem_sel hn ht
  simp only [expandRowCells, hf, expandCells_keeps st hm t.2 h]
  rw [subst_same hn hf]
  rfl

theorem expandNode_keeps {key : String} {f : Expander} (hf : Keeps key f) {p : Elem → Bool}
    {s : TState} (hn : (ids s.kids).Nodup) {t : Tree} (ht : t ∈ sel p s.kids)
    (h : repeatCount key t.1 = .ok 1) : expandNode f t.1.id s = (s, .ok ()) := by
  have h1 := find_of_mem_sel hn ht
  simp only [expandNode, h1, hf s.fresh t h]
  rw [subst_same hn h1]
  rfl

theorem forPy_keeps {m : Nat → Py TState Unit} {s : TState} (l : List Tree)
    (h : ∀ t ∈ l, m t.1.id s = (s, .ok ())) :
    forPy m (l.map fun t => t.1.id) s = (s, .ok ()) := by
  induction l with
  | nil => rfl
  | cons t l ih =>
    rw [List.map_cons, forPy_cons (h t (by simp))]
    exact ih fun t ht => h t (by simp [ht])

theorem forButLast_keeps {f g : Nat → Py TState Unit} {s : TState} (l : List Tree)
    (hf : ∀ t ∈ l, f t.1.id s = (s, .ok ())) (hg : ∀ t ∈ l, g t.1.id s = (s, .ok ())) :
    forButLast f g (l.map fun t => t.1.id) s = (s, .ok ()) := by
  rcases List.eq_nil_or_concat l with rfl | ⟨l, x, rfl⟩
  · rfl
  · rw [List.concat_eq_append] at hf hg ⊢
    simp only [forButLast, List.map_append, List.map_cons, List.map_nil, List.dropLast_concat,
      List.getLast?_concat]
    rw [Py.bind_ok (forPy_keeps l fun t ht => hf t (by simp [ht]))]
    exact hg x (by simp)

theorem normalizeRows_keeps (st : Strategy) {mx : Int × Int} (hm : 1 < mx.1 ∧ 1 < mx.2) {s : TState}
    (hn : (ids s.kids).Nodup)
    (h : ∀ t ∈ sel isRow s.kids, repeatCount rowRep t.1 = .ok 1 ∧ RowOne t) :
    normalizeRows st mx s = (s, .ok ()) := by
  have hcell := fun st t ht => expandRowCells_keeps st hm.2 hn (t := t) ht (h t ht).2
  cases st with
  | all =>
    refine forPy_keeps (m := fun r => (do expandRowCells .all mx.2 r; expandNode (expandAll rowRep) r
      : Py TState Unit)) (sel isRow s.kids) fun t ht => ?_
    show (_ >>= _ : Py TState Unit) s = _
    rw [Py.bind_ok (hcell .all t ht)]
    exact expandNode_keeps (expandAll_keeps _) hn ht (h t ht).1
  | lessMax =>
    refine forPy_keeps (m := fun r => (do expandRowCells .lessMax mx.2 r
                                          expandNode (expandLess rowRep mx.1) r
      : Py TState Unit)) (sel isRow s.kids) fun t ht => ?_
    show (_ >>= _ : Py TState Unit) s = _
    rw [Py.bind_ok (hcell .lessMax t ht)]
    exact expandNode_keeps (expandLess_keeps _ hm.1) hn ht (h t ht).1
  | allButLast =>
    show (_ >>= _ : Py TState Unit) s = _
    rw [Py.bind_ok (forPy_keeps (sel isRow s.kids) fun t ht => hcell .allButLast t ht)]
    exact forButLast_keeps (sel isRow s.kids)
      (fun t ht => expandNode_keeps (expandAll_keeps _) hn ht (h t ht).1)
      (fun t ht => expandNode_keeps (expandLast_keeps _) hn ht (h t ht).1)

theorem expandColumns_keeps (st : Strategy) {m : Int} (hm : 1 < m) {s : TState}
    (hn : (ids s.kids).Nodup) (h : ∀ t ∈ sel isCol s.kids, repeatCount colRep t.1 = .ok 1) :
    expandColumns st m s = (s, .ok ()) := by
  cases st with
  | all => exact forPy_keeps _ fun t ht => expandNode_keeps (expandAll_keeps _) hn ht (h t ht)
  | lessMax => exact forPy_keeps _ fun t ht => expandNode_keeps (expandLess_keeps _ hm) hn ht (h t ht)
  | allButLast =>
    exact forButLast_keeps _ (fun t ht => expandNode_keeps (expandAll_keeps _) hn ht (h t ht))
      (fun t ht => expandNode_keeps (expandLast_keeps _) hn ht (h t ht))

theorem foldl_same (l : List Int) : ∀ n : Int, (∀ x ∈ l, x = n) →
    l.foldl min n = n ∧ l.foldl max n = n := by
  induction l with
  | nil => intro n _; exact ⟨rfl, rfl⟩
  | cons a l ih =>
    intro n h
    have ha := h a (by simp)
    subst ha
    simpa using ih a fun x hx => h x (by simp [hx])

theorem alignColumns_keeps {w : Nat} {s : TState} (h : ∀ t ∈ sel isRow s.kids, RowOne t)
    (hr : Rect w (sel isRow s.kids)) : alignColumns s = (s, .ok ()) := by
  unfold alignColumns minMaxCount
  rw [rowCounts_one h]
  cases hl : sel isRow s.kids with
  | nil => rfl
  | cons t l =>
    rw [hl] at hr
    obtain ⟨h1, h2⟩ := foldl_same (l.map fun t => (t.2.length : Int)) t.2.length (by
      intro x hx
      obtain ⟨u, hu, rfl⟩ := List.mem_map.mp hx
      rw [hr u (by simp [hu]), hr t (by simp)])
    simp [h1, h2]

/-- Loading a tree without repetitions and with rows of equal length changes nothing. -/
theorem load_again {name : String} {st : Strategy} (hst : strategyOf name = some st)
    {mx : Int × Int} (hm : 1 < mx.1 ∧ 1 < mx.2) {s : TState} (hn : s.node.tag = "table:table")
    (hi : Inv s) (h : Single s) {w : Nat} (hr : Rect w (rowsOf s)) (rows cols : List Nat) :
    load name mx { s with rows := rows, cols := cols } = (s, .ok ()) := by
  have hnd := hi.wf.nodup
  unfold load
  rw [if_neg (by simp [hn]), hst]
  have h1 : normalizeTable st mx { s with rows := rows, cols := cols }
      = ({ s with rows := rows, cols := cols }, .ok ()) := by
    unfold normalizeTable
    rw [Py.bind_ok (normalizeRows_keeps st hm
      (s := { s with rows := rows, cols := cols }) hnd h.1)]
    exact alignColumns_keeps (s := { s with rows := rows, cols := cols })
      (fun t ht => (h.1 t ht).2) hr
  have h2 := expandColumns_keeps st hm.2 (s := updateRows { s with rows := rows, cols := cols })
    hnd h.2
  simp only [h1, h2]
  have h3 := hi.rows
  have h4 := hi.cols
  cases s
  simp only [rowsOf, colsOf] at h3 h4
  subst h3 h4
  rfl

end Verif.Tbl
