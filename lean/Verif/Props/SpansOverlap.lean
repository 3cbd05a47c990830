import Verif.Props.Spans
/-! # C25: exactly when spans overlap -/
set_option linter.unusedSimpArgs false
namespace Verif.Tbl
open Verif Verif.Forest Verif.Cells Verif.TSpec

/-- No cell of the rectangle is covered. -/
def FreeRect (s : TState) (pos size : Int × Int) : Prop :=
  ∀ i j t, InRect pos size i j → docCell s.kids i j = some t → ¬ IsCovered t

/-- A call of one of the two methods -/
inductive SpanOp
  | set (pos size : Int × Int)
  | remove (pos : Int × Int)
  deriving DecidableEq

/-- The table after the call, whether it succeeds or raises -/
def SpanOp.after : SpanOp → TState → TState
  | .set pos size, s => (setCellSpan pos size s).1
  | .remove pos, s => (removeCellSpan pos s).1

/-- The table after calls one after the other -/
def afterAll (ops : List SpanOp) (s : TState) : TState := ops.foldl (fun s o => o.after s) s

/-- A call that fails keeps the invariant, whatever is in its rectangle. -/
theorem spanInv_failed {s : TState} (h : SpanInv s) (pos size : Int × Int)
    (he : (setCellSpan pos size s).2 ≠ .ok ()) : SpanInv (setCellSpan pos size s).1 := by
  rcases setCellSpan_core h.inv pos size with ⟨e, h0⟩ | ⟨p, t, s', hp, g1, g2, _, _, hin, ht, h0, hc⟩
  · rw [h0]; exact h
  · rw [h0] at he ⊢
    have he : (setSpan size t.1).2 ≠ .ok () := he
    show SpanInv s'
    by_cases h11 : size = (1, 1)
    · subst h11
      have e1 : setSpan (1, 1) t.1 = delSpanAttributes t.1 := by
        unfold setSpan; rw [if_pos (by decide)]
      have hR1 : ∀ q, InR p (1, 1) q → q = p := by
        intro q hq; unfold InR at hq; simp only at hq
        exact Prod.ext (by omega) (by omega)
      obtain ⟨t', ht', hts⟩ := hin p (InR_self g1 g2)
      rw [ht] at ht'; cases ht'
      rw [if_neg he] at hc
      refine SpanInv.unit h hc.inv ht hts (e' := (setSpan (1, 1) t.1).1) ?_ ?_ ?_
      · rw [e1]; exact span_delSpan hts
      · rw [e1]; unfold covered; rw [delSpan_tag]
      · intro q
        rw [hc.cell]
        unfold spanCells
        by_cases hq : q = p
        · rw [if_pos hq, if_pos hq]
        · rw [if_neg hq, if_neg hq, if_neg (fun hR => hq (hR1 q hR))]
    · exfalso
      apply he
      unfold setSpan
      simp only [Int.max_eq_right g1, Int.max_eq_right g2]
      rw [if_neg (fun hh => h11 (Prod.ext hh.1 hh.2))]

/-- **C25**, one call: in a table without overlaps a successful `set_cell_span`, of any size, leaves none if and only if no
cell of its rectangle was covered. -/
theorem C25_step {s s' : TState} (h : Inv s) (hn : NoOverlap s) {pos size : Int × Int}
    (hr : setCellSpan pos size s = (s', .ok ())) : NoOverlap s' ↔ FreeRect s pos size := by
  obtain ⟨⟨pi, pj, t, t', rfl, ht, ht', hs', hc', -⟩, hin, hout, -, -⟩ := C22_set_span h hr
  have hone : ∀ i j u, InRect ((pi : Int), (pj : Int)) size i j → docCell s.kids i j = some u → span u.1 = .ok (1, 1) := by
    intro i j u hR hu
    rcases setCellSpan_core h ((pi : Int), (pj : Int)) size with ⟨e, he⟩ | ⟨p, _, _, hp, _, _, _, _, g, _⟩
    · rw [he] at hr; have := congrArg Prod.snd hr; cases this
    · have hp' : p = (pi, pj) := by
        unfold posInt at hp
        simp only [Prod.mk.injEq] at hp
        exact Prod.ext (by omega) (by omega)
      subst hp'
      obtain ⟨v, hv, hvs⟩ := g (i, j) ((inR_iff (pi, pj) size i j).mpr hR)
      rw [cellAt_doc, hu] at hv
      cases hv
      exact hvs
  have hpos := span_pos hs'
  have hself : InRect ((pi : Int), (pj : Int)) size pi pj := by unfold InRect; simp only; omega
  have old : ∀ i j a, Spanning s i j a → ¬ InRect ((pi : Int), (pj : Int)) size i j := by
    rintro i j a ⟨u, hu, hus, hne⟩ hR
    rw [hone i j u hR hu] at hus
    exact hne (Except.ok.inj hus).symm
  have keep : ∀ i j a, Spanning s i j a → Spanning s' i j a := by
    rintro i j a hS
    obtain ⟨u, hu, hus, hne⟩ := hS
    exact ⟨u, by rw [hout i j (old i j a ⟨u, hu, hus, hne⟩)]; exact hu, hus, hne⟩
  have mine : ∀ i j a, Spanning s' i j a → (i, j) = (pi, pj) ∧ a = size ∨ Spanning s i j a := by
    rintro i j a ⟨u, hu, hus, hne⟩
    by_cases hR : InRect ((pi : Int), (pj : Int)) size i j
    · by_cases hp : (i, j) = (pi, pj)
      · cases hp
        rw [ht'] at hu
        cases hu
        rw [hs'] at hus
        exact .inl ⟨rfl, (Except.ok.inj hus).symm⟩
      · obtain ⟨_, v, -, hv, -, hvs, -⟩ := hin i j hR (fun e => hp (by
          simp only [Prod.mk.injEq] at e ⊢; omega))
        rw [hv] at hu
        cases hu
        rw [hvs] at hus
        exact absurd (Except.ok.inj hus).symm hne
    · exact .inr ⟨u, by rw [← hout i j hR]; exact hu, hus, hne⟩
  constructor
  · intro hn' x y u hR hu hcu
    obtain ⟨i, j, a, hne, hS, hI⟩ := (hn.covered x y u hu).mp hcu
    have hij : (i, j) ≠ (pi, pj) := fun e => by cases e; exact old _ _ a hS hself
    by_cases h11 : size = (1, 1)
    · subst h11
      have hx : x = pi ∧ y = pj := by unfold InRect at hR; simp only at hR; omega
      obtain ⟨rfl, rfl⟩ := hx
      exact hc' ((hn'.covered x y t' ht').mpr ⟨i, j, a, hij, keep i j a hS, hI⟩)
    · exact hn'.disjoint i j a pi pj size (keep i j a hS) ⟨t', ht', hs', h11⟩ hij x y ⟨hI, hR⟩
  · intro hf
    -- a cell of the rectangle is in no old span
    have apart : ∀ i j a x y, Spanning s i j a → InRect ((pi : Int), (pj : Int)) size x y → ¬ InRect ((i : Int), (j : Int)) a x y := by
      intro i j a x y hS hR hI
      have hne : (i, j) ≠ (x, y) := fun e => by cases e; exact old _ _ a hS hR
      have : ∃ u, docCell s.kids x y = some u := by
        by_cases hp : ((x : Int), (y : Int)) = ((pi : Int), (pj : Int))
        · simp only [Prod.mk.injEq] at hp
          obtain ⟨rfl, rfl⟩ : x = pi ∧ y = pj := by omega
          exact ⟨t, ht⟩
        · obtain ⟨u, _, hu, -⟩ := hin x y hR hp
          exact ⟨u, hu⟩
      obtain ⟨u, hu⟩ := this
      exact hf x y u hR hu ((hn.covered x y u hu).mpr ⟨i, j, a, hne, hS, hI⟩)
    refine ⟨?_, ?_⟩
    · intro i j a i' j' b h1 h2 hne x y hx
      rcases mine i j a h1 with ⟨e, rfl⟩ | h1
      · cases e
        rcases mine i' j' b h2 with ⟨e, -⟩ | h2
        · exact hne e.symm
        · exact apart i' j' b x y h2 hx.1 hx.2
      · rcases mine i' j' b h2 with ⟨e, rfl⟩ | h2
        · cases e
          exact apart i j a x y h1 hx.2 hx.1
        · exact hn.disjoint i j a i' j' b h1 h2 hne x y hx
    · intro x y u hu
      by_cases hR : InRect ((pi : Int), (pj : Int)) size x y
      · by_cases hp : ((x : Int), (y : Int)) = ((pi : Int), (pj : Int))
        · simp only [Prod.mk.injEq] at hp
          obtain ⟨rfl, rfl⟩ : x = pi ∧ y = pj := by omega
          rw [ht'] at hu
          cases hu
          refine ⟨fun g => absurd g hc', ?_⟩
          rintro ⟨i, j, a, hne, hS, hI⟩
          rcases mine i j a hS with ⟨e, -⟩ | hS
          · exact absurd e hne
          · exact absurd hI (apart i j a x y hS hself)
        · obtain ⟨_, v, -, hv, hvc, -⟩ := hin x y hR hp
          rw [hv] at hu
          cases hu
          refine ⟨fun _ => ⟨pi, pj, size, fun e => hp (by cases e; rfl), ⟨t', ht', hs', ?_⟩, hR⟩, fun _ => hvc⟩
          rintro rfl
          apply hp
          unfold InRect at hR
          simp only at hR
          exact Prod.ext (by simp only; omega) (by simp only; omega)
      · rw [hout x y hR] at hu
        rw [hn.covered x y u hu]
        constructor
        · rintro ⟨i, j, a, hne, hS, hI⟩
          exact ⟨i, j, a, hne, keep i j a hS, hI⟩
        · rintro ⟨i, j, a, hne, hS, hI⟩
          rcases mine i j a hS with ⟨e, rfl⟩ | hS
          · cases e; exact absurd hI hR
          · exact ⟨i, j, a, hne, hS, hI⟩

theorem spanInv_unspanned {s : TState} (h : Inv s) (hu : Unspanned s) : SpanInv s := by
  have hun : ∀ p t, cellAt s p = some t → covered t.1 = false ∧ span t.1 = .ok (1, 1) := by
    intro p t ht
    obtain ⟨h1, h2⟩ := hu p.1 p.2 t (by rw [← cellAt_doc]; exact ht)
    rw [← covered_iff] at h1
    exact ⟨by simpa using h1, h2⟩
  have hns : ∀ p a, ¬ Sp s p a := by
    rintro p a ⟨t, h1, h2, h3⟩
    rw [(hun p t h1).2] at h2; cases h2; exact h3 rfl
  refine ⟨h, fun p t ht => ⟨_, (hun p t ht).2⟩, ?_, fun p a hp => absurd hp (hns p a),
    fun p a q b hp => absurd hp (hns p a), ?_⟩
  · intro p t a ht ha hne
    rw [(hun p t ht).2] at ha; cases ha; exact absurd rfl hne
  · intro x
    constructor
    · rintro ⟨t, h1, h2⟩; rw [(hun x t h1).1] at h2; cases h2
    · rintro ⟨p, a, _, hp, _⟩; exact absurd hp (hns p a)

theorem exact_from (ops : List SpanOp) : ∀ {s : TState}, SpanInv s →
    ((∀ k, NoOverlap (afterAll (ops.take k) s)) ↔
      ∀ k pos size, ops[k]? = some (.set pos size) → (setCellSpan pos size (afterAll (ops.take k) s)).2 = .ok () →
        FreeRect (afterAll (ops.take k) s) pos size) := by
  induction ops with
  | nil => intro s h; exact ⟨fun _ k pos size hk => by simp at hk, fun _ k => by simpa [afterAll] using spanInv_noOverlap h⟩
  | cons o ops ih =>
    intro s h
    have tail : SpanInv (o.after s) →
        ((∀ k, NoOverlap (afterAll ((o :: ops).take k) s)) ↔
          ∀ k pos size, ops[k]? = some (.set pos size) →
            (setCellSpan pos size (afterAll (ops.take k) (o.after s))).2 = .ok () →
            FreeRect (afterAll (ops.take k) (o.after s)) pos size) := by
      intro h'
      rw [← ih h']
      constructor
      · exact fun g k => g (k + 1)
      · rintro g (_ | k)
        · exact spanInv_noOverlap h
        · exact g k
    by_cases bad : ∃ pos size, o = .set pos size ∧ (setCellSpan pos size s).2 = .ok () ∧ ¬ FreeRect s pos size
    · obtain ⟨pos, size, rfl, hok, hf⟩ := bad
      constructor
      · intro g
        exact absurd ((C25_step h.inv (spanInv_noOverlap h) (Prod.ext rfl hok)).mp (g 1)) hf
      · intro g
        exact absurd (g 0 pos size rfl hok) hf
    · have h' : SpanInv (o.after s) := by
        cases o with
        | remove pos => exact spanInv_remove h pos
        | set pos size =>
          by_cases hok : (setCellSpan pos size s).2 = .ok ()
          · exact spanInv_set h pos size (Classical.byContradiction fun hf => bad ⟨pos, size, rfl, hok, hf⟩)
          · exact spanInv_failed h pos size hok
      rw [tail h']
      constructor
      · rintro g (_ | k) pos size hk hok
        · exact Classical.byContradiction fun hf => bad ⟨pos, size, Option.some.inj hk, hok, hf⟩
        · exact g k pos size hk hok
      · exact fun g k => g (k + 1)

/-- **C25**, exactly: in a history of span calls, successful or not, on a table without spans there is no overlap at any
time if and only if no successful `set_cell_span` was given a rectangle with a cell that was covered at that time. -/
theorem C25_exact {s : TState} (h : Inv s) (hu : Unspanned s) (ops : List SpanOp) :
    (∀ k, NoOverlap (afterAll (ops.take k) s)) ↔
      ∀ k pos size, ops[k]? = some (.set pos size) → (setCellSpan pos size (afterAll (ops.take k) s)).2 = .ok () →
        FreeRect (afterAll (ops.take k) s) pos size :=
  exact_from ops (spanInv_unspanned h hu)

/-- The calls of `C25_overlap_refuted` and a removal: there is an overlap at some time. -/
example : ¬ ∀ k, NoOverlap (afterAll ([.set (0, 0) (2, 2), .set (1, 0) (2, 2), .remove (1, 0)].take k) t32) :=
  fun g => C25_overlap_refuted.2.2 (g 2)

/-- One span, a call that fails as it would contain the spanning cell, and a removal: none. -/
example : ∀ k, NoOverlap (afterAll ([.set (1, 0) (2, 2), .set (0, 0) (3, 2), .remove (1, 0)].take k) t32) := by
  rw [C25_exact (created_inStep 0 t32_created).inv t32_unspanned]
  rintro (_ | _ | _ | k) pos size hk hok
  · exact fun i j t _ ht => (t32_unspanned i j t ht).1
  · cases hk
    exact absurd hok (by decide +kernel)
  · cases hk
  · cases hk

end Verif.Tbl
