import Verif.Proofs.ContentProg
/-!
Helper lemmas for C88: statements with text objects do not reach into tables.  `R` are the tables that are not inside of
other tables, `T` the nodes inside of tables.
-/
namespace Verif.Mix
open Verif Verif.Lxml Forest Verif.Whole Verif.TextProg
set_option linter.unusedSimpArgs false

variable {R T : Nat → Prop} {W W' : World} {α β : Type}

/-- The tables and what is inside of them -/
structure Cover (R T : Nat → Prop) (W : World) : Prop where
  once : (ids W).Nodup
  apart : ∀ x, R x → ¬ T x
  mem : ∀ x, R x ∨ T x → x ∈ ids W
  down : ∀ q e l x, node W q = some (e, l) → x ∈ l → R q ∨ T q → T x
  top : ∀ q e l x, node W q = some (e, l) → x ∈ l → ¬ R q → ¬ T q → ¬ T x
  table : ∀ x, R x → Parts.tagAt W x = some "table:table"
  tables : ∀ x, Parts.tagAt W x = some "table:table" → R x ∨ T x

/-- Neither a table nor inside of one -/
def Out (R T : Nat → Prop) (n : Nat) : Prop := ¬ R n ∧ ¬ T n

/-- Nothing inside of tables is changed, and of the tables only the text that follows them. -/
structure Calm (R T : Nat → Prop) (W W' : World) : Prop where
  cover : Cover R T W'
  mem : ∀ x ∈ ids W, x ∈ ids W'
  inner : ∀ q, T q → node W' q = node W q
  root : ∀ q e l, R q → node W q = some (e, l) → ∃ x, node W' q = some ({ e with tail := x }, l)

theorem Calm.refl (h : Cover R T W) : Calm R T W W :=
  ⟨h, fun _ hx => hx, fun _ _ => rfl, fun _ e _ _ hq => ⟨e.tail, hq⟩⟩

theorem Calm.trans {W1 W2 W3 : World} (h : Calm R T W1 W2) (g : Calm R T W2 W3) : Calm R T W1 W3 := by
  refine ⟨g.cover, fun x hx => g.mem x (h.mem x hx), fun q hq => (g.inner q hq).trans (h.inner q hq), ?_⟩
  intro q e l hq hn
  obtain ⟨x, hx⟩ := h.root q e l hq hn
  obtain ⟨y, hy⟩ := g.root q _ l hq hx
  exact ⟨y, hy⟩

/-- Changes of nodes outside of tables -/
theorem Cover.move (h : Cover R T W) (hn' : (ids W').Nodup) {E : Nat → Elem → Elem} {g : Nat → List Nat → List Nat}
    (hnode : ∀ q, node W' q = (node W q).map fun u => (E q u.1, g q u.2))
    (hT : ∀ q e, T q → E q e = e) (hR : ∀ q e, R q → ∃ x, E q e = { e with tail := x })
    (htag : ∀ q e, (E q e).tag = e.tag)
    (hin : ∀ q e l, node W q = some (e, l) → R q ∨ T q → g q l = l)
    (hout : ∀ q e l x, node W q = some (e, l) → Out R T q → x ∈ g q l → x ∈ l ∨ ¬ T x) : Calm R T W W' := by
  have htags : ∀ x, Parts.tagAt W' x = Parts.tagAt W x := by
    intro x
    cases hx : node W x with
    | none =>
      have h1 := hnode x
      rw [hx] at h1
      have hh : ∀ {V : World}, node V x = none → Parts.tagAt V x = none := by
        intro V hv
        cases ht : Parts.tagAt V x with
        | none => rfl
        | some t =>
          obtain ⟨e, l, hl⟩ := node_some (Parts.mem_of_tagAt ht)
          rw [hv] at hl; cases hl
      rw [hh hx, hh h1]
    | some u =>
      have h1 := hnode x
      rw [hx] at h1
      rw [node_tagAt (e := u.1) (l := u.2) hx, node_tagAt h1, htag]
  have hmem : ∀ x ∈ ids W, x ∈ ids W' := by
    intro x hx
    obtain ⟨e, l, hl⟩ := node_some hx
    have := hnode x
    rw [hl] at this
    exact node_mem this
  have hback : ∀ q e l, node W' q = some (e, l) → ∃ e0 l0, node W q = some (e0, l0) ∧ e = E q e0 ∧ l = g q l0 := by
    intro q e l hq
    rw [hnode] at hq
    obtain ⟨⟨e0, l0⟩, h0, h1⟩ := Option.map_eq_some_iff.mp hq
    cases h1
    exact ⟨e0, l0, h0, rfl, rfl⟩
  refine ⟨⟨hn', h.apart, fun x hx => hmem x (h.mem x hx), ?_, ?_, fun x hx => by rw [htags]; exact h.table x hx,
    fun x hx => h.tables x (by rw [← htags]; exact hx)⟩, hmem, ?_, ?_⟩
  · intro q e l x hq hx hqt
    obtain ⟨e0, l0, h0, -, rfl⟩ := hback q e l hq
    rw [hin q e0 l0 h0 hqt] at hx
    exact h.down q e0 l0 x h0 hx hqt
  · intro q e l x hq hx hqr hqt
    obtain ⟨e0, l0, h0, -, rfl⟩ := hback q e l hq
    rcases hout q e0 l0 x h0 ⟨hqr, hqt⟩ hx with h1 | h1
    · exact h.top q e0 l0 x h0 h1 hqr hqt
    · exact h1
  · intro q hq
    obtain ⟨e, l, hl⟩ := node_some (h.mem q (.inr hq))
    rw [hnode, hl]
    simp [hT q e hq, hin q e l hl (.inr hq)]
  · intro q e l hq hl
    obtain ⟨x, hx⟩ := hR q e hq
    refine ⟨x, ?_⟩
    rw [hnode, hl]
    simp [hx, hin q e l hl (.inl hq)]

theorem without_self {c : Nat} {l : List Nat} (h : c ∉ l) : without c l = l := by
  unfold without
  rw [List.filter_eq_self]
  intro x hx
  have : x ≠ c := fun e => h (e ▸ hx)
  simpa using this

theorem splice_none {s : Nat} {g l : List Nat} (h : s ∉ l) : splice s g l = l := by
  unfold splice
  induction l with
  | nil => rfl
  | cons a l ih =>
    simp only [List.mem_cons, not_or] at h
    rw [List.flatMap_cons, if_neg (fun e => h.1 e.symm), ih h.2]; rfl

/-- The children of a table and of the nodes inside of it are inside of it. -/
theorem Cover.kid (h : Cover R T W) {c : Nat} (hc : ¬ T c) {q : Nat} {e : Elem} {l : List Nat}
    (hq : node W q = some (e, l)) (hqt : R q ∨ T q) : c ∉ l := fun hx => hc (h.down q e l c hq hx hqt)

theorem append_calm (h : Cover R T W) {p c : Nat} (hp : Out R T p) (hc : ¬ T c) : Calm R T W (Lxml.append p c W).1 := by
  cases hpt : find p W with
  | none => unfold Lxml.append; rw [hpt]; cases find c W <;> exact .refl h
  | some pt =>
  cases ht : find c W with
  | none => unfold Lxml.append; rw [hpt, ht]; exact .refl h
  | some t =>
  by_cases hin : inTree t p = true
  · have : (Lxml.append p c W).1 = W := by unfold Lxml.append; rw [hpt, ht]; simp [hin]
    rw [this]; exact .refl h
  · have hno : p ∉ ids (single t) := by
      intro hm; apply hin; unfold inTree; simpa using hm
    obtain ⟨W', e, a1, a2, a3⟩ := append_all h.once hpt ht hno
    rw [e]
    refine h.move (a1.nodup_iff.mpr h.once) (E := fun _ e => e)
      (g := fun q l => if q = p then without c l ++ [c] else without c l) a3 (fun _ _ _ => rfl)
      (fun _ e _ => ⟨e.tail, rfl⟩) (fun _ _ => rfl) ?_ ?_
    · intro q e l hl hq
      have hqp : q ≠ p := by
        rintro rfl
        rcases hq with hq | hq
        · exact hp.1 hq
        · exact hp.2 hq
      rw [if_neg hqp, without_self (h.kid hc hl hq)]
    · intro q e l x hl _ hx
      split at hx
      · rcases List.mem_append.mp hx with h1 | h1
        · exact .inl (mem_of_without h1)
        · exact .inr (by rw [List.mem_singleton.mp h1]; exact hc)
      · exact .inl (mem_of_without hx)

/-- A child of a node outside of tables is no child of another node. -/
theorem Cover.only (h : Cover R T W) {p s : Nat} {pt : Tree} (hp : Out R T p) (hpt : find p W = some pt)
    (hs : s ∈ roots pt.2) {q : Nat} {e : Elem} {l : List Nat} (hl : node W q = some (e, l)) (hq : R q ∨ T q) : s ∉ l := by
  intro hx
  obtain ⟨k, hk, rfl⟩ := find_of_node hl
  have := parent_unique h.once hk hpt hx hs
  subst this
  rcases hq with hq | hq
  · exact hp.1 hq
  · exact hp.2 hq

theorem before_calm (h : Cover R T W) {p c s : Nat} (hp : Out R T p) (hc : ¬ T c)
    {pt t : Tree} (hpt : find p W = some pt) (hs : s ∈ roots pt.2) (ht : find c W = some t) (hno : p ∉ ids (single t))
    (hne : s ≠ c) : Calm R T W ((detach c W).subst s fun e k => single t ++ single (e, k)) := by
  obtain ⟨st, hst⟩ := find_some_of_mem ((find_sub hpt).subset (by simp [roots_sub hs]) : s ∈ ids W)
  obtain ⟨a1, a2, a3⟩ := before_all h.once ht hst (child_out h.once hpt ht hno hs hne)
  refine h.move (a1.nodup_iff.mpr h.once) (E := fun _ e => e)
    (g := fun q l => splice s [c, s] (without c l)) a3 (fun _ _ _ => rfl)
    (fun _ e _ => ⟨e.tail, rfl⟩) (fun _ _ => rfl) ?_ ?_
  · intro q e l hl hq
    have h1 := h.only hp hpt hs hl hq
    rw [without_self (h.kid hc hl hq), splice_none h1]
  · intro q e l x hl _ hx
    rcases mem_of_splice hx with h1 | ⟨h1, h2⟩
    · exact .inl (mem_of_without h1)
    · simp only [List.mem_cons, List.not_mem_nil, or_false] at h2
      rcases h2 with rfl | rfl
      · exact .inr hc
      · exact .inl (mem_of_without h1)

theorem insert_calm (h : Cover R T W) {p c : Nat} (i : Int) (hp : Out R T p) (hc : ¬ T c) :
    Calm R T W (Lxml.insert p i c W).1 := by
  unfold Lxml.insert
  rcases getitem_spec (W := W) (p := p) (i := i) with ⟨e, he⟩ | ⟨s, pt, he, hpt, hs⟩
  · rw [he]
    cases e <;> first | exact append_calm h hp hc | exact .refl h
  · rw [he]
    dsimp only
    cases ht : find c W with
    | none => exact .refl h
    | some t =>
    dsimp only
    split
    · exact .refl h
    · rename_i hin
      have hno : p ∉ ids (single t) := by
        intro hm; apply hin; unfold inTree; simpa using hm
      split
      · exact .refl h
      · rename_i hne
        exact before_calm h hp hc hpt hs ht hno hne

theorem out_calm (h : Cover R T W) {c : Nat} (hc : ¬ T c) {t : Tree} (ht : find c W = some t) (x : Option Str) :
    Calm R T W (detach c W ++ single ({ t.1 with tail := x }, t.2)) := by
  obtain ⟨a1, a2, a3⟩ := remove_all h.once ht { t.1 with tail := x } rfl
  refine h.move (a1.nodup_iff.mpr h.once) (E := fun q u => if q = c then { u with tail := x } else u)
    (g := fun _ l => without c l) ?_ ?_ ?_ ?_ ?_ ?_
  · intro q
    rw [a3 q]
    by_cases hq : q = c
    · subst hq
      rw [node_of_find ht]
      simp
    · simp [hq]
  · intro q e hq
    rw [if_neg]
    rintro rfl
    exact hc hq
  · intro q e _
    by_cases hq : q = c
    · exact ⟨x, by rw [if_pos hq]⟩
    · exact ⟨e.tail, by rw [if_neg hq]⟩
  · intro q e; split <;> rfl
  · intro q e l hl hq; exact without_self (h.kid hc hl hq)
  · intro q e l y _ _ hy; exact .inl (mem_of_without hy)

theorem remove_calm (h : Cover R T W) (p : Nat) {c : Nat} (hc : ¬ T c) : Calm R T W (Lxml.remove p c W).1 := by
  unfold Lxml.remove
  cases ht : find c W with
  | none => cases find p W <;> exact .refl h
  | some t =>
    cases find p W with
    | none => exact .refl h
    | some pt =>
      dsimp only
      split
      · exact out_calm h hc ht t.1.tail
      · exact .refl h

theorem delitem_calm (h : Cover R T W) {p : Nat} (hp : Out R T p) (i : Int) : Calm R T W (Lxml.delitem p i W).1 := by
  unfold Lxml.delitem
  rcases getitem_spec (W := W) (p := p) (i := i) with ⟨e, he⟩ | ⟨s, pt, he, hpt, hsp⟩
  · rw [he]; exact .refl h
  · rw [he]
    dsimp only
    have hc := h.top p _ _ s (node_of_find hpt) hsp hp.1 hp.2
    obtain ⟨t, ht⟩ := find_some_of_mem ((find_sub hpt).subset (by simp [roots_sub hsp]) : s ∈ ids W)
    rw [ht]
    exact out_calm h hc ht none

theorem replace_calm (h : Cover R T W) {p old c : Nat} (hp : Out R T p) (hc : ¬ T c) :
    Calm R T W (Lxml.replace p old c W).1 := by
  unfold Lxml.replace
  cases hpt : find p W with
  | none => exact .refl h
  | some pt =>
    cases hot : find old W with
    | none => exact .refl h
    | some ot =>
      cases ht : find c W with
      | none => exact .refl h
      | some t =>
      dsimp only
      split
      · exact .refl h
      · rename_i hch
        have hch : old ∈ roots pt.2 := by simpa using hch
        split
        · exact .refl h
        · rename_i hin
          have hno : p ∉ ids (single t) := by
            intro hm; apply hin; unfold inTree; simpa using hm
          split
          · exact .refl h
          · rename_i hne
            obtain ⟨o, b1, a1, a2, a3⟩ := replace_all h.once ht hot (child_out h.once hpt ht hno hch hne)
            rw [b1]
            dsimp only
            refine h.move (a1.nodup_iff.mpr h.once) (E := fun _ e => e)
              (g := fun q l => splice old [c] (without c l)) a3 (fun _ _ _ => rfl)
              (fun _ e _ => ⟨e.tail, rfl⟩) (fun _ _ => rfl) ?_ ?_
            · intro q e l hl hq
              rw [without_self (h.kid hc hl hq), splice_none (h.only hp hpt hch hl hq)]
            · intro q e l x hl _ hx
              rcases mem_of_splice hx with h1 | ⟨h1, h2⟩
              · exact .inl (mem_of_without h1)
              · exact .inr (by rw [List.mem_singleton.mp h2]; exact hc)

theorem clear_calm (h : Cover R T W) {c : Nat} (hc : Out R T c) : Calm R T W (Lxml.clear c W).1 := by
  unfold Lxml.clear
  cases ht : find c W with
  | none => exact .refl h
  | some t =>
    dsimp only
    obtain ⟨a1, a2, a3⟩ := clear_all h.once ht { t.1 with attrs := [], text := none, tail := none } rfl
    have hsub : (W.subst c fun e _ => single ({ e with attrs := [], text := none, tail := none }, .nil)) =
        W.subst c fun _ _ => single ({ t.1 with attrs := [], text := none, tail := none }, .nil) := by
      exact subst_congr h.once ht _ _ rfl
    rw [hsub]
    have hne : ∀ q, R q ∨ T q → q ≠ c := by
      rintro q (hq | hq) rfl
      · exact hc.1 hq
      · exact hc.2 hq
    refine h.move (a1.nodup_iff.mpr h.once)
      (E := fun q u => if q = c then { u with attrs := [], text := none, tail := none } else u)
      (g := fun q l => if q = c then [] else l) ?_ ?_ ?_ ?_ ?_ ?_
    · intro q
      rw [a3 q]
      by_cases hq : q = c
      · subst hq
        rw [node_of_find ht]
        simp
      · simp [hq]
    · intro q u hq; exact if_neg (hne q (.inr hq))
    · intro q u hq; exact ⟨u.tail, if_neg (hne q (.inl hq))⟩
    · intro q u; split <;> rfl
    · intro q u l _ hq; exact if_neg (hne q hq)
    · intro q u l x _ _ hx
      split at hx
      · simp at hx
      · exact .inl hx

theorem amend_calm (h : Cover R T W) {c : Nat} {f : Elem → Elem} (hid : ∀ e, (f e).id = e.id)
    (htag : ∀ e, (f e).tag = e.tag) (hc : Out R T c ∨ (¬ T c ∧ ∀ e, ∃ x, f e = { e with tail := x })) :
    Calm R T W (Vars.amend c f W).1 := by
  unfold Vars.amend
  dsimp only
  have hg : ∀ e : Elem, (if e.id = c then f e else e).id = e.id := fun e => by split <;> simp [hid]
  refine h.move (by rw [Forest.ids_map hg]; exact h.once) (E := fun q u => if q = c then f u else u)
    (g := fun _ l => l) ?_ ?_ ?_ ?_ (fun _ _ _ _ _ => rfl) (fun _ _ _ _ _ _ hx => .inl hx)
  · intro q
    unfold node
    rw [Forest.find_map hg]
    cases hq : find q W with
    | none => rfl
    | some u =>
      have := (find_mem_ids hq).1
      simp [Lxml.roots_map hg, this]
  · intro q u hq
    rw [if_neg]
    rintro rfl
    rcases hc with hc | hc
    · exact hc.2 hq
    · exact hc.1 hq
  · intro q u hq
    by_cases hqc : q = c
    · subst hqc
      rw [if_pos rfl]
      rcases hc with hc | hc
      · exact absurd hq hc.1
      · exact hc.2 u
    · exact ⟨u.tail, if_neg hqc⟩
  · intro q u; split <;> simp [htag]

/-- A new tree beside the others that has no tables -/
theorem add_calm (h : Cover R T W) {t : Tree} (h1 : (ids (single t)).Nodup)
    (h2 : ∀ i ∈ ids (single t), Parts.newId W ≤ i) (htag : ∀ x u, find x (single t) = some u → u.1.tag ≠ "table:table") :
    Calm R T W (W ++ single t) ∧ ∀ i ∈ ids (single t), Out R T i := by
  obtain ⟨a1, a2, a3⟩ := nodup_add h.once h1 h2
  have hnew : ∀ x, R x ∨ T x → x ∉ ids (single t) := fun x hx hin => by
    have := lt_newId (h.mem x hx)
    have := h2 x hin
    omega
  have hold : ∀ {q e l}, node W q = some (e, l) → node (W ++ single t) q = some (e, l) := by
    intro q e l hl
    obtain ⟨k, hk, rfl⟩ := find_of_node hl
    exact node_of_find (a3 _ _ hk)
  have htags : ∀ {x}, x ∈ ids W → Parts.tagAt (W ++ single t) x = Parts.tagAt W x := by
    intro x hx
    obtain ⟨u, hu⟩ := find_some_of_mem hx
    rw [tagAt_find hu, tagAt_find (a3 x u hu)]
  have hmem : ∀ x ∈ ids W, x ∈ ids (W ++ single t) := fun x hx => by rw [ids_app]; exact List.mem_append_left _ hx
  have hcase : ∀ {q e l}, node (W ++ single t) q = some (e, l) → node W q = some (e, l) ∨
      (q ∈ ids (single t) ∧ ∀ x ∈ l, x ∈ ids (single t)) := by
    intro q e l hq
    by_cases hm : q ∈ ids W
    · obtain ⟨e0, l0, h0⟩ := node_some hm
      rw [hold h0] at hq
      cases hq
      exact .inl h0
    · have hin : q ∈ ids (single t) := by
        have := node_mem hq
        rw [ids_app] at this
        exact (List.mem_append.mp this).resolve_left hm
      obtain ⟨k, hk, rfl⟩ := find_of_node hq
      rw [find_in a1 a2 hin] at hk
      exact .inr ⟨hin, fun x hx => (find_sub hk).subset (by simp [roots_sub hx])⟩
  refine ⟨⟨⟨a1, h.apart, fun x hx => hmem x (h.mem x hx), ?_, ?_, ?_, ?_⟩, hmem, ?_, ?_⟩,
    fun i hi => ⟨fun hr => hnew i (.inl hr) hi, fun hr => hnew i (.inr hr) hi⟩⟩
  · intro q e l x hq hx hqt
    rcases hcase hq with h0 | ⟨h0, -⟩
    · exact h.down q e l x h0 hx hqt
    · exact absurd h0 (hnew q hqt)
  · intro q e l x hq hx hqr hqt
    rcases hcase hq with h0 | ⟨-, h0⟩
    · exact h.top q e l x h0 hx hqr hqt
    · exact fun ht => hnew x (.inr ht) (h0 x hx)
  · intro x hx; rw [htags (h.mem x (.inl hx))]; exact h.table x hx
  · intro x hx
    by_cases hm : x ∈ ids W
    · exact h.tables x (by rw [← htags hm]; exact hx)
    · exfalso
      have hin : x ∈ ids (single t) := by
        have := Parts.mem_of_tagAt hx
        rw [ids_app] at this
        exact (List.mem_append.mp this).resolve_left hm
      obtain ⟨u, hu⟩ := find_some_of_mem hin
      have h3 := find_in a1 a2 hin
      rw [hu] at h3
      rw [tagAt_find h3] at hx
      exact htag x u hu (Option.some.inj hx)
  · intro q hq
    obtain ⟨e, l, hl⟩ := node_some (h.mem q (.inr hq))
    rw [hl, hold hl]
  · intro q e l hq hl
    exact ⟨e.tail, hold hl⟩

/-! ## The objects of `text.py` -/

/-- A call that does not reach into tables, and its result is as told. -/
def Goes (R T : Nat → Prop) (W : World) (r : World × Except Exc α) (Q : World → α → Prop) : Prop :=
  Calm R T W r.1 ∧ ∀ a, r.2 = .ok a → Q r.1 a

/-- The result is a node outside of tables. -/
abbrev New (R T : Nat → Prop) : World → Nat → Prop := fun _ n => Out R T n

abbrev Any {α : Type} : World → α → Prop := fun _ _ => True

theorem Goes.bind {m : Py World α} {f : α → Py World β} {Q : World → α → Prop} {Q' : World → β → Prop}
    (h : Goes R T W (m W) Q) (hf : ∀ W' a, Calm R T W W' → Q W' a → Goes R T W' (f a W') Q') :
    Goes R T W ((m >>= f) W) Q' := by
  obtain ⟨h1, h2⟩ := h
  cases hm : m W with
  | mk W' r =>
    rw [hm] at h1 h2
    cases r with
    | error e =>
      rw [Py.bind_error hm]
      exact ⟨h1, fun a ha => by simp at ha⟩
    | ok a =>
      rw [Py.bind_ok hm]
      obtain ⟨g1, g2⟩ := hf W' a h1 (h2 a rfl)
      exact ⟨h1.trans g1, g2⟩

theorem Goes.pure (h : Cover R T W) {a : α} {Q : World → α → Prop} (hq : Q W a) :
    Goes R T W ((pure a : Py World α) W) Q :=
  ⟨.refl h, fun b hb => by cases hb; exact hq⟩

theorem Goes.raise (h : Cover R T W) {e : Exc} {Q : World → α → Prop} :
    Goes R T W ((Py.raise e : Py World α) W) Q :=
  ⟨.refl h, fun b hb => by cases hb⟩

theorem Goes.of {r : World × Except Exc α} (h : Calm R T W r.1) : Goes R T W r Any := ⟨h, fun _ _ => trivial⟩

theorem Goes.imp {r : World × Except Exc α} {Q Q' : World → α → Prop} (h : Goes R T W r Q)
    (hq : ∀ W a, Q W a → Q' W a) : Goes R T W r Q' := ⟨h.1, fun a ha => hq _ a (h.2 a ha)⟩

theorem Goes.read (h : Cover R T W) {r : World × Except Exc α} (hr : r.1 = W) {Q : World → α → Prop}
    (hq : ∀ a, r.2 = .ok a → Q W a) : Goes R T W r Q := by
  refine ⟨by rw [hr]; exact .refl h, fun a ha => by rw [hr]; exact hq a ha⟩

theorem Goes.look (h : Cover R T W) {r : World × Except Exc α} (hr : r.1 = W) : Goes R T W r Any :=
  .read h hr fun _ _ => trivial

theorem setText_goes (h : Cover R T W) {n : Nat} (hn : Out R T n) (s : Option Str) :
    Goes R T W (setText n s W) Any := .of (amend_calm h (fun _ => rfl) (fun _ => rfl) (.inl hn))
theorem setTail_goes (h : Cover R T W) {n : Nat} (hn : ¬ T n) (s : Option Str) :
    Goes R T W (setTail n s W) Any :=
  .of (amend_calm h (fun _ => rfl) (fun _ => rfl) (.inr ⟨hn, fun _ => ⟨s, rfl⟩⟩))
theorem setString_goes (h : Cover R T W) {n : Nat} (hn : Out R T n) (k : String) (s : Str) :
    Goes R T W (setString n k s W) Any := .of (amend_calm h (fun _ => rfl) (fun _ => rfl) (.inl hn))
theorem setAttr_goes (h : Cover R T W) {n : Nat} (hn : Out R T n) (k : String) (s : Str) :
    Goes R T W (setAttr n k s W) Any := by
  unfold setAttr
  split
  · exact .raise h
  · exact setString_goes h hn k s
theorem setLevel_goes (h : Cover R T W) {n : Nat} (hn : Out R T n) (l : Int) :
    Goes R T W (setLevel n l W) Any := setString_goes h hn _ _

theorem newNode_goes (h : Cover R T W) (e : Elem) (ht : e.tag ≠ "table:table") : Goes R T W (newNode e W) (New R T) := by
  obtain ⟨h1, h2⟩ := add_calm h (t := ({ e with id := Parts.newId W }, .nil)) (by simp [ids]) (by simp [ids]) (by
    intro x u hu
    simp only [find, single] at hu
    split at hu
    · cases hu; exact ht
    · simp at hu)
  refine ⟨h1, fun a ha => ?_⟩
  have : a = Parts.newId W := by
    have : (newNode e W).2 = .ok (Parts.newId W) := rfl
    rw [this] at ha; cases ha; rfl
  rw [this]
  exact h2 _ (by simp [ids])

theorem append_goes (h : Cover R T W) {p c : Nat} (hp : Out R T p) (hc : ¬ T c) : Goes R T W (Base.append p c W) Any :=
  .bind (.of (append_calm h hp hc)) fun _ _ h1 _ => .pure h1.1 trivial

theorem insert_goes (h : Cover R T W) {p c : Nat} (i : Int) (hp : Out R T p) (hc : ¬ T c) :
    Goes R T W (Base.insert p i c W) Any :=
  .bind (.of (insert_calm h i hp hc)) fun _ _ h1 _ => .pure h1.1 trivial

theorem forEach_goes {γ : Type} {f : γ → Py World Unit} (l : List γ)
    (hf : ∀ W x, x ∈ l → Cover R T W → Goes R T W (f x W) Any) (h : Cover R T W) :
    Goes R T W (forEach f l W) Any := by
  induction l generalizing W with
  | nil => exact .pure h trivial
  | cons x l ih =>
    unfold forEach
    refine .bind (hf W x (by simp) h) ?_
    intro W' _ h1 _
    exact ih (fun W x hx => hf W x (by simp [hx])) h1.1

theorem getChild_goes (h : Cover R T W) {n : Nat} (hn : Out R T n) (i : Int) :
    Goes R T W (Base.getChild n i W) fun _ s => ¬ T s := by
  unfold Base.getChild
  refine .read h (getitem_read n i) fun s hs => ?_
  rcases getitem_spec (W := W) (p := n) (i := i) with ⟨e, he⟩ | ⟨s', t, he, h1, h2⟩
  · rw [he] at hs; cases hs
  · rw [he] at hs; cases hs; exact h.top n _ _ s (node_of_find h1) h2 hn.1 hn.2

theorem appendPiece_goes (h : Cover R T W) {n : Nat} (hn : Out R T n) (x : Ws.Item)
    (hx : ∀ e, x = .elem e → e.tag ≠ "table:table") : Goes R T W (appendPiece n x W) Any := by
  cases x with
  | text s =>
    unfold appendPiece
    refine .bind (.look h (len_read n)) ?_
    intro W1 len h1 _
    split
    · refine .bind (getChild_goes h1.1 hn (-1)) fun W2 c h2 hc => ?_
      refine .bind (.look h2.1 (elem_read c)) fun W3 e h3 _ => ?_
      exact setTail_goes h3.1 hc _
    · refine .bind (.look h1.1 (elem_read n)) fun W3 e h3 _ => ?_
      exact setText_goes h3.1 hn _
  | elem e =>
    unfold appendPiece
    refine .bind (newNode_goes h e (hx e rfl)) fun W1 c h1 hc => ?_
    refine .bind (append_goes h1.1 hn hc.2) fun W2 _ h2 _ => ?_
    exact .pure h2.1 trivial

theorem appendText_goes (h : Cover R T W) {n : Nat} (hn : Out R T n) (s : Str) : Goes R T W (appendText n s W) Any := by
  unfold appendText
  refine forEach_goes _ ?_ h
  intro W1 x hx h1
  refine appendPiece_goes h1 hn x ?_
  rintro e rfl
  rcases (Ws.encode_shape s).elems e hx with rfl | rfl | ⟨k, -, rfl⟩
  · decide
  · decide
  · have : (Ws.spaces k).tag = "text:s" := by unfold Ws.spaces; split <;> rfl
    rw [this]; decide

theorem given_goes (h : Cover R T W) {s : Str} {m : Py World Unit}
    (hm : Goes R T W (m W) Any) : Goes R T W (given s m W) Any := by
  unfold given
  split
  · exact .pure h trivial
  · exact hm

theorem newSpan_goes (h : Cover R T W) {t : String} (ht : t ≠ "table:table") (text style : Str) :
    Goes R T W (newSpan t text style W) (New R T) := by
  unfold newSpan
  refine .bind (newNode_goes h _ ht) fun W1 n h1 hn => ?_
  refine .bind (given_goes h1.1 <| setString_goes h1.1 hn _ _) fun W2 _ h2 _ => ?_
  refine .bind (given_goes h2.1 <| appendText_goes h2.1 hn text) fun W3 _ h3 _ => ?_
  exact .pure h3.1 hn

theorem newHeading_goes (h : Cover R T W) (text : Str) (level : Int) (style : Str) :
    Goes R T W (newHeading text level style W) (New R T) := by
  unfold newHeading
  refine .bind (newSpan_goes h (by decide) text style) fun W1 n h1 hn => ?_
  refine .bind (setLevel_goes h1.1 hn level) fun W2 _ h2 _ => ?_
  exact .pure h2.1 hn

theorem newLink_goes (h : Cover R T W) (href text style : Str) :
    Goes R T W (newLink href text style W) (New R T) := by
  unfold newLink
  refine .bind (newSpan_goes h (by decide) text style) fun W1 n h1 hn => ?_
  refine .bind (given_goes h1.1 <| setString_goes h1.1 hn _ _) fun W2 _ h2 _ => ?_
  refine .bind (setAttr_goes h2.1 hn _ _) fun W3 _ h3 _ => ?_
  refine .bind (setAttr_goes h3.1 hn _ _) fun W4 _ h4 _ => ?_
  exact .pure h4.1 hn

theorem newLister_goes (h : Cover R T W) {t : String} (ht : t ≠ "table:table") (text : Str) :
    Goes R T W (newLister t text W) (New R T) := by
  unfold newLister
  refine .bind (newNode_goes h _ ht) fun W1 n h1 hn => ?_
  refine .bind (given_goes h1.1 <| ?_) fun W2 _ h2 _ => ?_
  · refine .bind (newSpan_goes h1.1 (by decide) text []) fun W2 p h2 hp => ?_
    refine .bind (append_goes h2.1 hn hp.2) fun W3 _ h3 _ => ?_
    exact .pure h3.1 trivial
  exact .pure h2.1 hn

theorem newList_goes (h : Cover R T W) (style : Str) : Goes R T W (newList style W) (New R T) := by
  unfold newList
  refine .bind (newNode_goes h _ (by decide)) fun W1 n h1 hn => ?_
  refine .bind (given_goes h1.1 <| setString_goes h1.1 hn _ _) fun W2 _ h2 _ => ?_
  exact .pure h2.1 hn

theorem newSection_goes (h : Cover R T W) (name style : Str) :
    Goes R T W (newSection name style W) (New R T) := by
  unfold newSection
  refine .bind (newNode_goes h _ (by decide)) fun W1 n h1 hn => ?_
  refine .bind (given_goes h1.1 <| setString_goes h1.1 hn _ _) fun W2 _ h2 _ => ?_
  refine .bind (given_goes h2.1 <| setString_goes h2.1 hn _ _) fun W3 _ h3 _ => ?_
  exact .pure h3.1 hn

theorem newNumbered_goes (h : Cover R T W) {c : Nat} (hc : ¬ T c) : Goes R T W (newNumbered c W) (New R T) := by
  unfold newNumbered
  refine .bind (newNode_goes h _ (by decide)) fun W1 n h1 hn => ?_
  refine .bind (append_goes h1.1 hn hc) fun W2 _ h2 _ => ?_
  exact .pure h2.1 hn

theorem find_goes (h : Cover R T W) {n : Nat} (hn : Out R T n) (t : String) : Goes R T W (Base.find n t W)
    fun _ r => ∀ s, r = some s → ¬ T s := by
  unfold Base.find
  refine .bind (Q := fun _ r => ∀ s ∈ r, ¬ T s) (.read h (findall_read n t) ?_) ?_
  · intro l hl s hs
    unfold Lxml.findall at hl
    cases hf : find n W with
    | none => rw [hf] at hl; cases hl
    | some u =>
      rw [hf] at hl
      dsimp only at hl
      cases hl
      obtain ⟨u', hu', rfl⟩ := List.mem_map.mp hs
      exact h.top n _ _ _ (node_of_find hf) (List.mem_map.mpr ⟨u', (List.mem_filter.mp hu').1, rfl⟩) hn.1 hn.2
  · intro W' s h1 h2
    refine .pure h1.1 fun x hx => h2 x ?_
    exact List.mem_of_head? hx

theorem setHeader_goes (h : Cover R T W) {l c : Nat} (hl : Out R T l) (hc : ¬ T c) :
    Goes R T W (setHeader l c W) Any := by
  unfold setHeader
  refine .bind (.look h (elem_read c)) fun W1 e h1 _ => ?_
  split
  · exact .raise h1.1
  · refine .bind (find_goes h1.1 hl _) fun W2 o h2 ho => ?_
    refine .bind (Q := Any) ?_ fun W3 _ h3 _ => ?_
    · cases o with
      | none => exact .pure h2.1 trivial
      | some o => exact .of (remove_calm h2.1 l (ho o rfl))
    · refine .bind (insert_goes h3.1 0 hl hc) fun W4 _ h4 _ => ?_
      exact .pure h4.1 trivial

theorem ezlist_goes (h : Cover R T W) (items : List Str) (header style : Str) :
    Goes R T W (ezlist items header style W) (New R T) := by
  unfold ezlist
  refine .bind (newList_goes h style) fun W1 n h1 hn => ?_
  refine .bind (given_goes h1.1 <| ?_) fun W2 _ h2 _ => ?_
  · refine .bind (newLister_goes h1.1 (by decide) header) fun W2 c h2 hc => ?_
    exact setHeader_goes h2.1 hn hc.2
  refine .bind (forEach_goes items ?_ h2.1) fun W3 _ h3 _ => ?_
  · intro W' x _ h'
    refine .bind (newLister_goes h' (by decide) x) fun W2 c h2 hc => ?_
    refine .bind (append_goes h2.1 hn hc.2) fun W3 _ h3 _ => ?_
    exact .pure h3.1 trivial
  exact .pure h3.1 hn

theorem bodyAppend_goes (h : Cover R T W) {p c : Nat} (hp : Out R T p) (hc : ¬ T c) :
    Goes R T W (bodyAppend p c W) Any := by
  unfold bodyAppend
  refine .bind (.look h (elem_read p)) fun W1 e h1 _ => ?_
  split
  · refine .bind (.look h1.1 ?_) fun W2 i h2 _ => ?_
    · unfold epiloguePosition; split <;> rfl
    refine .bind (insert_goes h2.1 i hp hc) fun W3 _ h3 _ => ?_
    exact .pure h3.1 trivial
  · exact append_goes h1.1 hp hc

/-! ## Statements -/

/-- The numbers of the objects that a statement changes or puts something into or takes something out of -/
def edits : TextProg.Act → List Nat
  | .appendText i _ | .setText i _ | .setString i .. | .setAttr i .. | .clear i | .setHeader i _ => [i]
  | .append t _ | .insert t _ _ | .remove t _ | .set t _ _ | .insertBefore t _ _ | .replace t _ _ | .get t _ | .delete t _ =>
    t.toList
  | _ => []

variable {p : TextProg.Prog}

/-- The objects and the body are not inside of tables, and those of the numbers `U` are no tables either. -/
structure Views (R T : Nat → Prop) (U : List Nat) (p : TextProg.Prog) : Prop where
  cover : Cover R T p.world
  body : Out R T p.session.tree.body.node
  objs : ∀ n ∈ p.objs, ¬ T n
  used : ∀ k ∈ U, ∀ n, p.objs[k]? = some n → Out R T n

/-- After a statement -/
structure Left (R T : Nat → Prop) (p q : TextProg.Prog) : Prop where
  calm : Calm R T p.world q.world
  objs : ∀ n ∈ q.objs, n ∈ p.objs ∨ Out R T n

variable {U : List Nat}

theorem Left.refl (h : Views R T U p) : Left R T p p := ⟨.refl h.cover, fun _ hn => .inl hn⟩

theorem onWorld_left {m : Py World α} {Q : World → α → Prop} (hm : Goes R T p.world (m p.world) Q) :
    Left R T p (onWorld m p).1 := ⟨hm.1, fun _ hn => .inl hn⟩

theorem void_left {q : TextProg.Prog} {m : Py TextProg.Prog α} (h : Left R T q (m p).1) :
    Left R T q ((do let _ ← m; pure () : Py TextProg.Prog Unit) p).1 := by
  cases hm : m p with
  | mk p' r =>
    rw [hm] at h
    cases r with
    | error e => rw [Py.bind_error hm]; exact h
    | ok a => rw [Py.bind_ok hm]; exact h

theorem keep_left {m : Py World Nat} (hm : Goes R T p.world (m p.world) (New R T)) : Left R T p (keep m p).1 := by
  unfold keep
  cases hr : m p.session.world with
  | mk W r =>
    have hr' : m p.world = (W, r) := hr
    have ho : onWorld m p = ({ p with session := { p.session with world := W } }, r) := by unfold onWorld; rw [hr]
    rw [hr'] at hm
    cases r with
    | error e => rw [Py.bind_error ho]; exact ⟨hm.1, fun _ hn => .inl hn⟩
    | ok n =>
      rw [Py.bind_ok ho]
      refine ⟨hm.1, fun x hx => ?_⟩
      rcases List.mem_append.mp hx with h1 | h1
      · exact .inl h1
      · rw [List.mem_singleton.mp h1]; exact .inr (hm.2 n rfl)

theorem one_left (h : Views R T U p) {i : Nat} {f : Nat → Py TextProg.Prog α}
    (hf : ∀ c, ¬ T c → (i ∈ U → Out R T c) → Left R T p (f c p).1) : Left R T p ((obj i >>= f) p).1 := by
  cases ho : p.objs[i]? with
  | none =>
    have : obj i p = (p, .error .NameError) := by unfold obj; rw [ho]
    rw [Py.bind_error this]; exact .refl h
  | some n =>
    have : obj i p = (p, .ok n) := by unfold obj; rw [ho]
    rw [Py.bind_ok this]
    exact hf n (h.objs n (List.mem_of_getElem? ho)) fun hi => h.used i hi n ho

theorem place_left (h : Views R T U p) {t : Option Nat} (hU : t.toList ⊆ U) {f : Nat → Py TextProg.Prog α}
    (hf : ∀ n, (target t p).2 = .ok n → Out R T n → Left R T p (f n p).1) : Left R T p ((target t >>= f) p).1 := by
  cases t with
  | none =>
    have e : target none p = (p, .ok p.session.tree.body.node) := rfl
    rw [Py.bind_ok e]
    exact hf _ rfl h.body
  | some i =>
    cases ho : p.objs[i]? with
    | none =>
      have : target (some i) p = (p, .error .NameError) := by show obj i p = _; unfold obj; rw [ho]
      rw [Py.bind_error this]; exact .refl h
    | some n =>
      have e : target (some i) p = (p, .ok n) := by show obj i p = _; unfold obj; rw [ho]
      rw [Py.bind_ok e]
      exact hf n (by rw [e]) (h.used i (hU (by simp)) n ho)

theorem elem_left {c : Nat} (h : Views R T U p) {f : Elem → Py TextProg.Prog α}
    (hf : ∀ e, Left R T p (f e p).1) : Left R T p ((onWorld (Vars.elem c) >>= f) p).1 := by
  cases hr : Vars.elem c p.session.world with
  | mk W r =>
    have e := elem_read (W := p.session.world) c
    rw [hr] at e
    dsimp only at e
    subst e
    have ho : onWorld (Vars.elem c) p = (p, r) := by unfold onWorld; rw [hr]
    cases r with
    | error e => rw [Py.bind_error ho]; exact .refl h
    | ok x => rw [Py.bind_ok ho]; exact hf x

/-- A statement with text objects does not reach into tables. -/
theorem exec_left {a : TextProg.Act} (h : Views R T (edits a) p) (ha : TextProg.Allowed p a) :
    Left R T p (TextProg.exec a p).1 := by
  have hk := h.cover
  cases a with
  | paragraph text style => exact void_left (keep_left (newSpan_goes (t := "text:p") hk (by decide) text style))
  | span text style => exact void_left (keep_left (newSpan_goes (t := "text:span") hk (by decide) text style))
  | heading text level style => exact void_left (keep_left (newHeading_goes hk text level style))
  | link href text style => exact void_left (keep_left (newLink_goes hk href text style))
  | list style => exact void_left (keep_left (newList_goes hk style))
  | item text => exact void_left (keep_left (newLister_goes (t := "text:list-item") hk (by decide) text))
  | header text => exact void_left (keep_left (newLister_goes (t := "text:list-header") hk (by decide) text))
  | section_ name style => exact void_left (keep_left (newSection_goes hk name style))
  | numbered i => exact one_left h fun c hc _ => void_left (keep_left (newNumbered_goes hk hc))
  | ezlist items header style => exact void_left (keep_left (ezlist_goes hk items header style))
  | appendText i s =>
    refine one_left h fun c _ hc => elem_left h fun e => ?_
    split
    · exact onWorld_left (appendText_goes hk (hc (by simp [edits])) s)
    · exact .refl h
  | setHeader i j =>
    refine one_left h fun c _ hc => one_left h fun c' hc' _ => elem_left h fun e => ?_
    split
    · exact onWorld_left (setHeader_goes hk (hc (by simp [edits])) hc')
    · exact .refl h
  | setText i s => exact one_left h fun c _ hc => onWorld_left (setText_goes hk (hc (by simp [edits])) s)
  | setTail i s => exact one_left h fun c hc _ => onWorld_left (setTail_goes hk hc s)
  | setString i k s => exact one_left h fun c _ hc => onWorld_left (setString_goes hk (hc (by simp [edits])) k s)
  | setAttr i k s => exact one_left h fun c _ hc => onWorld_left (setAttr_goes hk (hc (by simp [edits])) k s)
  | append t i =>
    refine place_left h (by simp [edits]) fun n _ hn => one_left h fun c hc _ => void_left (onWorld_left (Q := Any) ?_)
    cases t with
    | none => exact bodyAppend_goes hk hn hc
    | some _ => exact append_goes hk hn hc
  | insert t index i =>
    exact place_left h (by simp [edits]) fun n _ hn => one_left h fun c hc _ =>
      void_left (onWorld_left (insert_goes hk index hn hc))
  | insertBefore t j i =>
    refine place_left h (by simp [edits]) fun n _ hn => one_left h fun c' hc' _ => one_left h fun c hc _ =>
      void_left (onWorld_left (Q := Any) ?_)
    unfold Base.insertBefore
    refine .bind (.look hk (index_read n c')) fun W1 k h1 _ => ?_
    refine .bind (insert_goes h1.1 k hn hc) fun W2 _ h2 _ => ?_
    exact .pure h2.1 trivial
  | remove t i =>
    exact place_left h (by simp [edits]) fun n _ hn => one_left h fun c hc _ => onWorld_left (.of (remove_calm hk n hc))
  | replace t i j =>
    exact place_left h (by simp [edits]) fun n _ hn => one_left h fun c hc _ => one_left h fun c' hc' _ =>
      onWorld_left (.of (replace_calm hk hn hc'))
  | get t index =>
    refine place_left h (by simp [edits]) fun n hn0 hn => void_left (keep_left (.read hk ?_ fun c hc => ?_))
    · exact getitem_read n index
    · have hc' : (Lxml.getitem n index p.world).2 = .ok c := hc
      have hall := ha c ⟨n, hn0, hc'⟩
      refine ⟨fun hr => hall "table:table" (by simp [wrapTags]) (hk.table c hr), ?_⟩
      exact (getChild_goes hk hn index).2 c hc
  | set t index i =>
    refine place_left h (by simp [edits]) fun n hn0 hn => one_left h fun c hc _ => onWorld_left (Q := Any) ?_
    unfold Base.setChild
    rcases getitem_spec (W := p.world) (p := n) (i := index) with ⟨e, he⟩ | ⟨s, u, he, -, -⟩
    · rw [Py.bind_error he]; exact Goes.raise (e := e) hk
    · rw [Py.bind_ok he]
      exact .of (replace_calm hk hn hc)
  | delete t index =>
    exact place_left h (by simp [edits]) fun n hn0 hn => onWorld_left (Q := Any) (.of (delitem_calm hk hn index))
  | clear i => exact one_left h fun c _ hc => onWorld_left (.of (clear_calm hk (hc (by simp [edits]))))

end Verif.Mix
