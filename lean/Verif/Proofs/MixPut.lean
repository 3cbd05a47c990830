import Verif.Model.Mix
import Verif.Proofs.MixCalm
import Verif.Proofs.ContentRead
import Verif.Proofs.ProgStep
/-! Helper lemmas for C88: the tables in the trees of a document, and what a method of one of them leaves unchanged. -/
namespace Verif.Mix
open Verif Verif.Lxml Forest Verif.Whole Verif.TextProg
set_option linter.unusedSimpArgs false

variable {F R T : Nat → Prop} {W W' : World} {tag : String} {d : Parts.DocTree}

/-- All below a table is inside of it. -/
theorem Cover.below (h : Cover R T W) {n : Nat} (hn : R n ∨ T n) {t : Tree} (ht : find n W = some t) :
    ∀ x ∈ ids t.2, T x :=
  closed_tree h.once t.2 (fun _ hu => child_find h.once ht hu)
    (fun q _ e l x hl hx hq => h.down q e l x hl hx (.inr hq))
    (fun x hx => h.down n _ _ x (node_of_find ht) hx hn)

/-- A statement that does not reach into tables leaves a table as it is, up to the text that follows it. -/
theorem calm_tree (h : Cover R T W) (g : Calm R T W W') {n : Nat} (hn : R n) {t : Tree} (ht : find n W = some t) :
    ∃ x, find n W' = some ({ t.1 with tail := x }, t.2) := by
  obtain ⟨x, hx⟩ := g.root n _ _ hn (node_of_find ht)
  obtain ⟨k, hk, hr⟩ := find_of_node hx
  have := forest_of_nodes h.once g.cover.once hr (fun u hu => child_find h.once ht hu)
    (fun u hu => child_find g.cover.once hk hu) (fun q hq => g.inner q (h.below (.inl hn) ht q hq))
  exact ⟨x, by rw [hk, this]⟩

/-- Tables are apart from each other. -/
theorem Cover.disjoint (h : Cover R T W) {n m : Nat} (hn : R n) (hm : R m) (hne : m ≠ n) {t u : Tree}
    (ht : find n W = some t) (hu : find m W = some u) : ∀ x ∈ ids (single u), x ∉ ids (single t) := by
  intro x hx hx'
  have h1 := (find_mem_ids ht).1
  have h2 := (find_mem_ids hu).1
  rcases laminar h.once ht hu hx' hx with h3 | h3
  · simp only [ids_single, List.mem_cons] at h3
    rcases h3 with h3 | h3
    · exact hne (by rw [h3, h2])
    · exact h.apart n hn (h.below (.inl hm) hu n h3)
  · simp only [ids_single, List.mem_cons] at h3
    rcases h3 with h3 | h3
    · exact hne (by rw [h3, h1])
    · exact h.apart m hm (h.below (.inl hn) ht m h3)

/-- The tree `t` of the node `n` has been exchanged for `t'`. -/
structure Put (W W' : World) (n : Nat) (t t' : Tree) : Prop where
  once : (ids W).Nodup
  before : find n W = some t
  once' : (ids W').Nodup
  self : find n W' = some t'
  same : ∀ q, q ∉ ids (single t) → q ∉ ids (single t') → node W' q = node W q
  mem : ∀ x, x ∈ ids W' ↔ (x ∈ ids W ∧ x ∉ ids (single t)) ∨ x ∈ ids (single t')
  new : ∀ x ∈ ids t'.2, x ∈ ids t.2 ∨ x ∉ ids W

theorem put_put (hn : (ids W).Nodup) {n : Nat} {t t' : Tree} (hb : find n W = some t)
    (hid : t'.1.id = n) (hk : (ids t'.2).Nodup) (hnew : ∀ x ∈ ids t'.2, x ∈ ids t.2 ∨ x ∉ ids W) :
    Put W (W.subst n fun _ _ => single t') n t t' := by
  obtain ⟨a1, -, a3, a4, -, -⟩ := Program.put_all hn hb hid hk hnew
  refine ⟨hn, hb, a1, a3, a4, fun x => ?_, hnew⟩
  obtain ⟨L, S, h1, h2, -⟩ := subst_all hn hb (fun _ _ => single t')
  have hn1 := hn
  rw [h1, List.nodup_append] at hn1
  obtain ⟨-, hn2, hn3⟩ := hn1
  rw [List.nodup_append] at hn2
  rw [h2, h1]
  simp only [List.mem_append]
  constructor
  · rintro (h | h | h)
    · exact .inl ⟨.inl h, fun hx => hn3 x h x (List.mem_append_left _ hx) rfl⟩
    · exact .inr h
    · exact .inl ⟨.inr (.inr h), fun hx => hn2.2.2 x hx x h rfl⟩
  · rintro (⟨h | h | h, h'⟩ | h)
    · exact .inl h
    · exact absurd h h'
    · exact .inr (.inr h)
    · exact .inr (.inl h)

variable {n : Nat} {t t' : Tree}

theorem Put.id (h : Put W W' n t t') : t.1.id = n := (find_mem_ids h.before).1
theorem Put.id' (h : Put W W' n t t') : t'.1.id = n := (find_mem_ids h.self).1

theorem Put.notin (h : Put W W' n t t') {x : Nat} (hx : x ∈ ids W) (hx' : x ∉ ids (single t)) : x ∉ ids (single t') := by
  intro hin
  simp only [ids_single, List.mem_cons] at hin hx'
  rcases hin with h1 | h1
  · exact hx' (.inl (h1.trans (h.id'.trans h.id.symm)))
  · rcases h.new x h1 with h2 | h2
    · exact hx' (.inr h2)
    · exact h2 hx

theorem Put.node_same (h : Put W W' n t t') {x : Nat} (hx : x ∈ ids W) (hx' : x ∉ ids (single t)) : node W' x = node W x :=
  h.same x hx' (h.notin hx hx')

theorem Put.tag_same (h : Put W W' n t t') {x : Nat} (hx : x ∈ ids W) (hx' : x ∉ ids (single t)) :
    Parts.tagAt W' x = Parts.tagAt W x := by
  obtain ⟨e, l, hl⟩ := node_some hx
  have := h.node_same hx hx'
  rw [hl] at this
  rw [node_tagAt hl, node_tagAt this]

/-- A child of a node of the new tree -/
theorem Put.kid (h : Put W W' n t t') {q x : Nat} {e : Elem} {l : List Nat} (hq : q ∈ ids (single t'))
    (hl : node W' q = some (e, l)) (hx : x ∈ l) : x ∈ ids t'.2 := by
  obtain ⟨k, hk, rfl⟩ := find_of_node hl
  rw [find_in h.once' h.self hq] at hk
  have h1 : x ∈ ids (single t') := (find_sub hk).subset (by simp [roots_sub hx])
  have h2 := child_not_root (nodup_tree h.once' h.self) hk (roots_sub hx)
  simp only [roots_single, List.mem_singleton] at h2
  simp only [ids_single, List.mem_cons] at h1
  exact h1.resolve_left h2

/-- What is inside of tables after that -/
def inside (T : Nat → Prop) (W W' : World) (x : Nat) : Prop := x ∈ ids W' ∧ (T x ∨ x ∉ ids W)

theorem Put.inner (h : Put W W' n t t') (c : Cover R T W) (hn : R n) {x : Nat} (hx : x ∈ ids t'.2) : inside T W W' x := by
  refine ⟨(h.mem x).mpr (.inr (by simp [hx])), ?_⟩
  rcases h.new x hx with h1 | h1
  · exact .inl (c.below (.inl hn) h.before x h1)
  · exact .inr h1

theorem Put.other (h : Put W W' n t t') {x : Nat} (hx : x ∈ ids W') (hx' : x ∉ ids (single t')) :
    x ∈ ids W ∧ x ∉ ids (single t) := ((h.mem x).mp hx).resolve_right hx'

theorem Cover.root_out (c : Cover R T W) (h : Put W W' n t t') (hn : R n) {x : Nat} (hx : ¬ T x) (hne : x ≠ n) :
    x ∉ ids (single t) := by
  intro hin
  simp only [ids_single, List.mem_cons] at hin
  rcases hin with h1 | h1
  · exact hne (h1.trans h.id)
  · exact hx (c.below (.inl hn) h.before x h1)

theorem put_cover (h : Put W W' n t t') (c : Cover R T W) (hn : R n) (ht : t'.1.tag = "table:table") :
    Cover R (inside T W W') W' := by
  refine ⟨h.once', ?_, ?_, ?_, ?_, ?_, ?_⟩
  · rintro x hx ⟨-, h1 | h1⟩
    · exact c.apart x hx h1
    · exact h1 (c.mem x (.inl hx))
  · rintro x (hx | hx)
    · by_cases hxn : x = n
      · rw [hxn]; exact find_mem h.self
      · exact (h.mem x).mpr (.inl ⟨c.mem x (.inl hx), c.root_out h hn (c.apart x hx) hxn⟩)
    · exact hx.1
  · intro q e l x hl hx hq
    by_cases hq' : q ∈ ids (single t')
    · exact h.inner c hn (h.kid hq' hl hx)
    · obtain ⟨o1, o2⟩ := h.other (node_mem hl) hq'
      have hm := node_child hl hx
      rw [h.node_same o1 o2] at hl
      exact ⟨hm, .inl (c.down q e l x hl hx (hq.imp_right fun g => g.2.resolve_right fun g' => g' o1))⟩
  · intro q e l x hl hx hqr hqt hxt
    by_cases hq' : q ∈ ids (single t')
    · simp only [ids_single, List.mem_cons] at hq'
      rcases hq' with h1 | h1
      · exact hqr (by rw [h1, h.id']; exact hn)
      · exact hqt (h.inner c hn h1)
    · have hm := node_mem hl
      obtain ⟨o1, o2⟩ := h.other hm hq'
      rw [h.node_same o1 o2] at hl
      rcases hxt.2 with h1 | h1
      · exact c.top q e l x hl hx hqr (fun g => hqt ⟨hm, .inl g⟩) h1
      · exact h1 (node_child hl hx)
  · intro x hx
    by_cases hxn : x = n
    · rw [hxn, tagAt_find h.self, ht]
    · rw [h.tag_same (c.mem x (.inl hx)) (c.root_out h hn (c.apart x hx) hxn)]
      exact c.table x hx
  · intro x hx
    have hm := Parts.mem_of_tagAt hx
    by_cases hx' : x ∈ ids (single t')
    · simp only [ids_single, List.mem_cons] at hx'
      rcases hx' with h1 | h1
      · exact .inl (by rw [h1, h.id']; exact hn)
      · exact .inr (h.inner c hn h1)
    · obtain ⟨o1, o2⟩ := h.other hm hx'
      rw [h.tag_same o1 o2] at hx
      exact (c.tables x hx).imp_right fun g => ⟨hm, .inl g⟩

theorem put_out (c : Cover R T W) {x : Nat} (hm : x ∈ ids W) (hx : Out R T x) : Out R (inside T W W') x :=
  ⟨hx.1, fun g => g.2.elim hx.2 fun g' => g' hm⟩

theorem put_other (h : Put W W' n t t') (c : Cover R T W) (hn : R n) {m : Nat} (hm : R m) (hne : m ≠ n) {u : Tree}
    (hu : find m W = some u) : find m W' = some u :=
  tree_of_nodes h.once h.once' hu fun q hq =>
    h.node_same ((find_sub hu).subset hq) (c.disjoint hn hm hne h.before hu q hq)

theorem put_firm (h : Put W W' n t t') (k : Kept F W tag d) (hn : ¬ F n) (ht : t'.1.tag = "table:table") :
    Firm F W W' tag d := by
  have hF := k.outside hn h.before
  have hF' : ∀ x ∈ ids (single t'), ¬ F x := by
    intro x hx
    simp only [ids_single, List.mem_cons] at hx
    rcases hx with h1 | h1
    · rw [h1, h.id']; exact hn
    · rcases h.new x h1 with h2 | h2
      · exact hF x (by simp [h2])
      · exact fun hf => h2 (k.mem x hf)
  have hsame : ∀ q, F q → node W' q = node W q := fun q hq => h.node_same (k.mem q hq) fun hin => hF q hin hq
  have hb := k.frame d.body.node (by simp)
  refine ⟨k.step h.once' (fun q hq _ => hsame q hq) ?_ ?_, fun q hq _ => hsame q hq, by rw [hsame _ hb]⟩
  · obtain ⟨e, l, hl⟩ := node_some (k.mem _ hb)
    refine ⟨e, l, l, hl, by rw [hsame _ hb]; exact hl, rfl, fun x hx hfx tg htg => ?_⟩
    by_cases hxn : x = n
    · rw [hxn, tagAt_find h.self, ht]
      intro he
      rw [← Option.some.inj he] at htg
      exact absurd htg (by decide)
    · obtain ⟨kk, hk, rfl⟩ := find_of_node hl
      have ho := child_out k.once hk h.before (fun hin => hF _ hin hb) hx hxn
      rw [h.tag_same (node_child hl hx) ho]
      exact (k.free e _ x hl hx).mp hfx tg htg
  · intro q e l x hl hq hx hfx
    by_cases hq' : q ∈ ids (single t')
    · exact hF' x (by simp [h.kid hq' hl hx]) hfx
    · obtain ⟨o1, o2⟩ := h.other (node_mem hl) hq'
      rw [h.node_same o1 o2] at hl
      exact hq (k.up q e l x hl hx hfx)

theorem put_loose (h : Put W W' n t t') (c : Cover R T W) (hn : R n) (ht : t'.1.tag = "table:table") {m : Nat}
    (hm : Loose F W m) (hmt : ¬ T m) : Loose F W' m := by
  by_cases hmn : m = n
  · refine ⟨by rw [hmn]; exact find_mem h.self, hm.free, fun tg htg => ?_⟩
    rw [hmn, tagAt_find h.self, ht]
    intro he
    rw [← Option.some.inj he] at htg
    exact absurd htg (by decide)
  · have ho := c.root_out h hn hmt hmn
    exact ⟨(h.mem m).mpr (.inl ⟨hm.mem, ho⟩), hm.free, fun tg htg => by rw [h.tag_same hm.mem ho]; exact hm.tag tg htg⟩

/-- A new table beside the other trees -/
theorem add_cover (c : Cover R T W) {t : Tree} (h1 : (ids (single t)).Nodup)
    (h2 : ∀ i ∈ ids (single t), Parts.newId W ≤ i) (ht : t.1.tag = "table:table") :
    Cover (fun x => R x ∨ x = t.1.id) (fun x => T x ∨ x ∈ ids t.2) (W ++ single t) := by
  obtain ⟨a1, a2, a3⟩ := nodup_add c.once h1 h2
  have hnew : ∀ x ∈ ids W, x ∉ ids (single t) := fun x hx hin => by
    have := lt_newId hx
    have := h2 x hin
    omega
  have hnew1 : ∀ x ∈ ids W, x ≠ t.1.id := fun x hx he => hnew x hx (by simp [he])
  have hnew2 : ∀ x ∈ ids W, x ∉ ids t.2 := fun x hx he => hnew x hx (by simp [he])
  have hold : ∀ {q e l}, node W q = some (e, l) → node (W ++ single t) q = some (e, l) := by
    intro q e l hl
    obtain ⟨k, hk, rfl⟩ := find_of_node hl
    exact node_of_find (a3 _ _ hk)
  have htags : ∀ {x}, x ∈ ids W → Parts.tagAt (W ++ single t) x = Parts.tagAt W x := by
    intro x hx
    obtain ⟨u, hu⟩ := find_some_of_mem hx
    rw [tagAt_find hu, tagAt_find (a3 x u hu)]
  have hcase : ∀ {q e l}, node (W ++ single t) q = some (e, l) → node W q = some (e, l) ∨
      (q ∈ ids (single t) ∧ ∀ x ∈ l, x ∈ ids t.2) := by
    intro q e l hq
    by_cases hm : q ∈ ids W
    · obtain ⟨e0, l0, h0⟩ := node_some hm
      rw [hold h0] at hq
      cases hq
      exact .inl h0
    · have hin : q ∈ ids (single t) := by
        have := node_mem hq
        rw [ids_app] at this
        exact (List.mem_append.mp this).resolve_left hm
      obtain ⟨k, hk, rfl⟩ := find_of_node hq
      rw [find_in a1 a2 hin] at hk
      refine .inr ⟨hin, fun x hx => ?_⟩
      have g1 : x ∈ ids (single t) := (find_sub hk).subset (by simp [roots_sub hx])
      have g2 := child_not_root h1 hk (roots_sub hx)
      simp only [roots_single, List.mem_singleton] at g2
      simp only [ids_single, List.mem_cons] at g1
      exact g1.resolve_left g2
  have hmem : ∀ x, x ∈ ids (W ++ single t) ↔ x ∈ ids W ∨ x ∈ ids (single t) := by
    intro x; rw [ids_app, List.mem_append]
  refine ⟨a1, ?_, ?_, ?_, ?_, ?_, ?_⟩
  · rintro x (hx | hx) (hx' | hx')
    · exact c.apart x hx hx'
    · exact hnew2 x (c.mem x (.inl hx)) hx'
    · exact hnew1 x (c.mem x (.inr hx')) hx
    · simp only [ids_single, List.nodup_cons] at h1
      exact h1.1 (hx ▸ hx')
  · rintro x ((hx | hx) | (hx | hx))
    · exact (hmem x).mpr (.inl (c.mem x (.inl hx)))
    · exact (hmem x).mpr (.inr (by simp [hx]))
    · exact (hmem x).mpr (.inl (c.mem x (.inr hx)))
    · exact (hmem x).mpr (.inr (by simp [hx]))
  · intro q e l x hl hx hq
    rcases hcase hl with h0 | ⟨-, h0⟩
    · have hqm := node_mem h0
      refine .inl (c.down q e l x h0 hx ?_)
      rcases hq with (hq | hq) | (hq | hq)
      · exact .inl hq
      · exact absurd hq (hnew1 q hqm)
      · exact .inr hq
      · exact absurd hq (hnew2 q hqm)
    · exact .inr (h0 x hx)
  · intro q e l x hl hx hqr hqt
    rcases hcase hl with h0 | ⟨h0, -⟩
    · rintro (hx' | hx')
      · exact c.top q e l x h0 hx (fun g => hqr (.inl g)) (fun g => hqt (.inl g)) hx'
      · exact hnew2 x (node_child h0 hx) hx'
    · simp only [ids_single, List.mem_cons] at h0
      exact (h0.elim (fun g => hqr (.inr g)) fun g => hqt (.inr g)).elim
  · rintro x (hx | hx)
    · rw [htags (c.mem x (.inl hx))]; exact c.table x hx
    · rw [hx, tagAt_find a2, ht]
  · intro x hx
    rcases (hmem x).mp (Parts.mem_of_tagAt hx) with hm | hm
    · rw [htags hm] at hx
      exact (c.tables x hx).imp .inl .inl
    · simp only [ids_single, List.mem_cons] at hm
      exact hm.imp .inr .inr

end Verif.Mix
