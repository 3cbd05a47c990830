import Verif.Proofs.MixPut
import Verif.Props.TextProgram
import Verif.Props.Program
/-! Helper lemmas for C88: what holds of a program between two statements, and what keeps it. -/
namespace Verif.Mix
open Verif Verif.Lxml Forest Verif.Whole Verif.Tbl
open Verif.Program (TableObj tableState stateOf Config)
open Verif.TextProg (Kept Loose Step Firm Fits node_some node_mem node_kids node_tagAt node_child declTags Place)
open Verif.Document (MIMETYPE_BODYTAG_MAP)
set_option linter.unusedSimpArgs false

/-- A program between two statements.  `F` are the nodes of the frame of the document (C81), `R` the tables that are not
inside of other tables, `T` the nodes inside of tables.  The objects of the program are tables or outside of tables, each
table has at most one object, the tables with objects are in order, and those in the body that have none can be read. -/
structure Ready (L : XLib) (F R T : Nat → Prop) (tag : String) (p : Prog) : Prop where
  lives : Lives L p.text.session
  apart : ∀ t, find p.text.session.tree.styles.root p.world = some t → p.text.session.tree.body.node ∉ ids (single t)
  known : MIMETYPE_BODYTAG_MAP.get p.text.session.mimetype = some tag
  fits : Fits F tag p.text
  cover : Cover R T p.world
  body : Out R T p.text.session.tree.body.node
  objs : ∀ n ∈ p.text.objs, (∃ o ∈ p.tables, o.node = n) ∨ Out R T n
  roots : ∀ o ∈ p.tables, R o.node ∧ o.node ∈ p.text.objs
  distinct : (p.tables.map TableObj.node).Nodup
  sound : ∀ o ∈ p.tables, ∀ t, find o.node p.world = some t → Sound (tableState p.world o t)
  others : ∀ n, R n → ¬ F n → (∀ o ∈ p.tables, o.node ≠ n) → ∀ t, find n p.world = some t → Legible t

/-- A program is in order between two statements. -/
def OK (L : XLib) (p : Prog) : Prop := ∃ F R T tag, Ready L F R T tag p

theorem OK.text {L : XLib} {p : Prog} (h : OK L p) : TextProg.OK L p.text := by
  obtain ⟨F, R, T, tag, h⟩ := h
  exact ⟨h.lives, ⟨F, tag, h.known, h.fits⟩, h.apart⟩

/-- What the `i`-th table object is like: its element without the text that follows it, all that is in it, and the lists
of its controllers -/
def shown (p : Prog) (i : Nat) : Option (Elem × Forest × List Nat × List Nat) :=
  p.tables[i]?.bind fun o => (p.world.find o.node).map fun t => ({ t.1 with tail := none }, t.2, o.rows, o.cols)

variable {L : XLib} {F R T : Nat → Prop} {tag : String} {p q : Prog}

theorem Ready.not_inside (h : Ready L F R T tag p) {n : Nat} (hn : n ∈ p.text.objs) : ¬ T n := by
  rcases h.objs n hn with ⟨o, ho, rfl⟩ | h1
  · exact h.cover.apart _ (h.roots o ho).1
  · exact h1.2

theorem Ready.found (h : Ready L F R T tag p) {o : TableObj} (ho : o ∈ p.tables) : ∃ t, find o.node p.world = some t :=
  find_some_of_mem (h.cover.mem _ (.inl (h.roots o ho).1))

theorem sound_tail {W W' : World} {o : TableObj} {t : Tree} {x : Option Str} (h : Sound (tableState W o t))
    (hf : find o.node W' = some ({ t.1 with tail := x }, t.2)) : Sound (tableState W' o ({ t.1 with tail := x }, t.2)) := by
  have h1 := h.fresh (n := Parts.newId W') fun i hi => lt_newId ((find_sub hf).subset (by simp [show i ∈ ids t.2 from hi]))
  exact ⟨⟨⟨h1.inv.wf.nodup, h1.inv.wf.lt, h1.inv.wf.flat⟩, h1.inv.rows, h1.inv.cols⟩,
    ⟨h1.expanded.rows, h1.expanded.cols, h1.expanded.rect⟩, h1.once, h1.tag⟩

theorem legible_tail {t : Tree} {x : Option Str} : Legible ({ t.1 with tail := x }, t.2) ↔ Legible t :=
  ⟨fun h => ⟨h.tag, h.flat, h.rows, h.cols, h.tidy⟩, fun h => ⟨h.tag, h.flat, h.rows, h.cols, h.tidy⟩⟩

/-- The frame of a document after a change of the content of the body -/
theorem firm_frame {p q : TextProg.Prog} (hl : Lives L p.session)
    (ha : ∀ t, find p.session.tree.styles.root p.world = some t → p.session.tree.body.node ∉ ids (single t))
    (hk : MIMETYPE_BODYTAG_MAP.get p.session.mimetype = some tag) (k : Kept F p.world tag p.session.tree)
    (g : Firm F p.world q.world tag p.session.tree) (hq : q.session = { p.session with world := q.world }) :
    Lives L q.session ∧
    (∀ t, find q.session.tree.styles.root q.world = some t → q.session.tree.body.node ∉ ids (single t)) ∧
    TextProg.Frame p q := by
  have hd : q.session.tree = p.session.tree := by rw [hq]
  have hm : q.session.mimetype = p.session.mimetype := by rw [hq]
  have hst : find p.session.tree.styles.root q.world = find p.session.tree.styles.root p.world := by
    have hF := k.frame p.session.tree.styles.root (by simp)
    obtain ⟨t, ht⟩ := find_some_of_mem (k.mem _ hF)
    rw [ht]
    exact Firm.tree k g hF ht (ha t ht)
  refine ⟨?_, ?_, ⟨hd, hm, hst, ?_, Firm.decls k g⟩⟩
  · rw [hq]; exact hl.trees g.kept.once hk g.kept.refs
  · rw [hd, hst]; exact ha
  · have hF := k.frame p.session.tree.content.root (by simp)
    obtain ⟨t, ht⟩ := find_some_of_mem (k.mem _ hF)
    obtain ⟨t', e1, e2⟩ := Firm.content k g hF ht
    rw [ht, e1]
    simp only [Option.map_some]
    rw [e2]

/-- A statement that does not reach into tables -/
theorem Ready.calm (h : Ready L F R T tag p) (hs : q.text.session = { p.text.session with world := q.world })
    (st : Step F p.world q.world tag p.text.session.tree) (ca : Calm R T p.world q.world)
    (ho : ∀ n ∈ q.text.objs, Loose F q.world n) (hc : ∀ n ∈ q.text.objs, n ∈ p.text.objs ∨ Out R T n)
    (hm : p.text.objs <+: q.text.objs) (ht : q.tables = p.tables) :
    Ready L F R T tag q ∧ TextProg.Frame p.text q.text ∧ ∀ i, shown q i = shown p i := by
  obtain ⟨a1, a2, a3⟩ := firm_frame h.lives h.apart h.known h.fits.kept st.firm hs
  have hd : q.text.session.tree = p.text.session.tree := by rw [hs]
  have hk : q.text.session.mimetype = p.text.session.mimetype := by rw [hs]
  refine ⟨⟨a1, a2, by rw [hk]; exact h.known, ⟨by rw [hd]; exact st.kept, ho⟩, ca.cover, by rw [hd]; exact h.body, ?_, ?_, ?_, ?_, ?_⟩,
    a3, ?_⟩
  · intro n hn
    rw [ht]
    exact (hc n hn).elim (h.objs n) .inr
  · rw [ht]; exact fun o ho => ⟨(h.roots o ho).1, hm.subset (h.roots o ho).2⟩
  · rw [ht]; exact h.distinct
  · intro o ho t hft
    rw [ht] at ho
    obtain ⟨u, hu⟩ := h.found ho
    obtain ⟨x, hx⟩ := calm_tree h.cover ca (h.roots o ho).1 hu
    rw [hx] at hft
    cases hft
    exact sound_tail (h.sound o ho u hu) hx
  · intro n hr hf hno t hft
    rw [ht] at hno
    obtain ⟨u, hu⟩ := find_some_of_mem (h.cover.mem n (.inl hr))
    obtain ⟨x, hx⟩ := calm_tree h.cover ca hr hu
    rw [hx] at hft
    cases hft
    exact legible_tail.mpr (h.others n hr hf hno u hu)
  · intro i
    unfold shown
    rw [ht]
    cases hi : p.tables[i]? with
    | none => rfl
    | some o =>
      have ho := List.mem_of_getElem? hi
      obtain ⟨u, hu⟩ := h.found ho
      obtain ⟨x, hx⟩ := calm_tree h.cover ca (h.roots o ho).1 hu
      simp only [Option.bind_some, hu, hx, Option.map_some]

/-- A change of a table of the body, with an object for it -/
theorem Ready.put (h : Ready L F R T tag p) {n : Nat} (hR : R n) (hF : ¬ F n) {t t' : Tree}
    (P : Put p.world q.world n t t') (htag : t'.1.tag = "table:table")
    (hs : q.text.session = { p.text.session with world := q.world }) {o : TableObj} (hon : o.node = n)
    (ho : o ∈ q.tables) (hq : ∀ x ∈ q.tables, x = o ∨ (x ∈ p.tables ∧ x.node ≠ n))
    (hp : ∀ x ∈ p.tables, ∃ y ∈ q.tables, y.node = x.node) (hdis : (q.tables.map TableObj.node).Nodup)
    (hm : p.text.objs <+: q.text.objs) (hc : ∀ x ∈ q.text.objs, x ∈ p.text.objs ∨ x = n) (hn : n ∈ q.text.objs)
    (hsound : Sound (tableState q.world o t')) :
    Ready L F R (inside T p.world q.world) tag q ∧ TextProg.Frame p.text q.text ∧
      ∀ x ∈ p.tables, x.node ≠ n → find x.node q.world = find x.node p.world := by
  have firm := put_firm P h.fits.kept hF htag
  obtain ⟨a1, a2, a3⟩ := firm_frame h.lives h.apart h.known h.fits.kept firm hs
  have hd : q.text.session.tree = p.text.session.tree := by rw [hs]
  have hk : q.text.session.mimetype = p.text.session.mimetype := by rw [hs]
  have hln : Loose F p.world n := by
    refine ⟨h.cover.mem n (.inl hR), hF, fun tg htg => ?_⟩
    rw [h.cover.table n hR]
    intro he
    rw [← Option.some.inj he] at htg
    exact absurd htg (by decide)
  have hother : ∀ x ∈ p.tables, x.node ≠ n → find x.node q.world = find x.node p.world := by
    intro x hx hne
    obtain ⟨u, hu⟩ := h.found hx
    rw [hu]
    exact put_other P h.cover hR (h.roots x hx).1 hne hu
  refine ⟨⟨a1, a2, by rw [hk]; exact h.known, ⟨by rw [hd]; exact firm.kept, ?_⟩, put_cover P h.cover hR htag, ?_, ?_, ?_, hdis, ?_, ?_⟩,
    a3, hother⟩
  · intro x hx
    rcases hc x hx with h1 | h1
    · exact put_loose P h.cover hR htag (h.fits.objs x h1) (h.not_inside h1)
    · rw [h1]; exact put_loose P h.cover hR htag hln (h.cover.apart n hR)
  · rw [hd]
    exact put_out h.cover (h.fits.kept.mem _ (h.fits.kept.frame _ (by simp))) h.body
  · intro x hx
    rcases hc x hx with h1 | h1
    · rcases h.objs x h1 with ⟨y, hy, e⟩ | h2
      · obtain ⟨z, hz, e'⟩ := hp y hy
        exact .inl ⟨z, hz, e'.trans e⟩
      · exact .inr (put_out h.cover (h.fits.objs x h1).mem h2)
    · exact .inl ⟨o, ho, hon.trans h1.symm⟩
  · intro x hx
    rcases hq x hx with rfl | ⟨h1, -⟩
    · rw [hon]; exact ⟨hR, hn⟩
    · exact ⟨(h.roots x h1).1, hm.subset (h.roots x h1).2⟩
  · intro x hx u hu
    rcases hq x hx with rfl | ⟨h1, h2⟩
    · rw [hon, P.self] at hu
      cases hu
      exact hsound
    · have hu' := hu
      rw [hother x h1 h2] at hu'
      exact Program.sound_fresh (h.sound x h1 u hu') hu
  · intro m hr hf hno u hu
    have hne : m ≠ n := fun e => hno o ho (hon.trans e.symm)
    obtain ⟨v, hv⟩ := find_some_of_mem (h.cover.mem m (.inl hr))
    have := put_other P h.cover hR hr hne hv
    rw [this] at hu
    cases hu
    refine h.others m hr hf (fun x hx e => ?_) u hv
    obtain ⟨y, hy, e'⟩ := hp x hx
    exact hno y hy (e'.trans e)

/-- A new table outside of the document -/
theorem Ready.create (h : Ready L F R T tag p) {t : Tree} (h1 : (ids (single t)).Nodup)
    (h2 : ∀ i ∈ ids (single t), Parts.newId p.world ≤ i) (htag : t.1.tag = "table:table") {o : TableObj} (hon : o.node = t.1.id)
    (hs : q.text.session = { p.text.session with world := q.world }) (hw : q.world = p.world ++ single t)
    (ho : q.tables = p.tables ++ [o]) (hob : q.text.objs = p.text.objs ++ [t.1.id]) (hsound : Sound (tableState q.world o t)) :
    Ready L F (fun x => R x ∨ x = t.1.id) (fun x => T x ∨ x ∈ ids t.2) tag q ∧ TextProg.Frame p.text q.text ∧
      ∀ n u, find n p.world = some u → find n q.world = some u := by
  obtain ⟨a1, a2, a3⟩ := nodup_add h.cover.once h1 h2
  have hcov := add_cover h.cover h1 h2 htag
  obtain ⟨st, hl⟩ := h.fits.kept.add h1 h2 (by rw [htag]; decide)
  rw [← hw] at a1 a2 a3 hcov st hl
  obtain ⟨b1, b2, b3⟩ := firm_frame h.lives h.apart h.known h.fits.kept st.firm hs
  have hd : q.text.session.tree = p.text.session.tree := by rw [hs]
  have hk : q.text.session.mimetype = p.text.session.mimetype := by rw [hs]
  have hnew : ∀ x ∈ ids p.world, x ∉ ids (single t) := fun x hx hin => by
    have := lt_newId hx
    have := h2 x hin
    omega
  have hout : ∀ {x}, x ∈ ids p.world → Out R T x → Out (fun x => R x ∨ x = t.1.id) (fun x => T x ∨ x ∈ ids t.2) x := by
    intro x hx hx'
    refine ⟨?_, ?_⟩
    · rintro (g | g)
      · exact hx'.1 g
      · exact hnew x hx (by simp [g])
    · rintro (g | g)
      · exact hx'.2 g
      · exact hnew x hx (by simp [g])
  have hne : ∀ x ∈ p.tables, x.node ≠ t.1.id := fun x hx e =>
    hnew _ (h.cover.mem _ (.inl (h.roots x hx).1)) (by simp [e])
  refine ⟨⟨b1, b2, by rw [hk]; exact h.known, ⟨by rw [hd]; exact st.kept, ?_⟩, hcov, ?_, ?_, ?_, ?_, ?_, ?_⟩, b3, a3⟩
  · intro x hx
    rw [hob] at hx
    rcases List.mem_append.mp hx with hx | hx
    · exact st.loose x (h.fits.objs x hx)
    · rw [List.mem_singleton.mp hx]; exact hl
  · rw [hd]
    exact hout (h.fits.kept.mem _ (h.fits.kept.frame _ (by simp))) h.body
  · intro x hx
    rw [hob] at hx
    rw [ho]
    rcases List.mem_append.mp hx with hx | hx
    · rcases h.objs x hx with ⟨y, hy, e⟩ | h2
      · exact .inl ⟨y, by simp [hy], e⟩
      · exact .inr (hout (h.fits.objs x hx).mem h2)
    · rw [List.mem_singleton.mp hx]; exact .inl ⟨o, by simp, hon⟩
  · intro x hx
    rw [ho] at hx
    rw [hob]
    rcases List.mem_append.mp hx with hx | hx
    · exact ⟨.inl (h.roots x hx).1, List.mem_append_left _ (h.roots x hx).2⟩
    · rw [List.mem_singleton.mp hx]; exact ⟨.inr hon, by simp [hon]⟩
  · rw [ho, List.map_append, List.nodup_append]
    refine ⟨h.distinct, by simp, ?_⟩
    intro a ha b hb e
    simp only [List.map_cons, List.map_nil, List.mem_singleton] at hb
    obtain ⟨x, hx, rfl⟩ := List.mem_map.mp ha
    exact hne x hx (e.trans (hb.trans hon))
  · intro x hx u hu
    rw [ho] at hx
    rcases List.mem_append.mp hx with hx | hx
    · obtain ⟨v, hv⟩ := h.found hx
      have := a3 _ _ hv
      rw [hu] at this
      cases this
      exact Program.sound_fresh (h.sound x hx u hv) hu
    · rw [List.mem_singleton.mp hx] at hu ⊢
      rw [hon, a2] at hu
      cases hu
      exact hsound
  · rintro m (hr | hr) hf hno u hu
    · obtain ⟨v, hv⟩ := find_some_of_mem (h.cover.mem m (.inl hr))
      have := a3 _ _ hv
      rw [hu] at this
      cases this
      exact h.others m hr hf (fun x hx => hno x (by rw [ho]; simp [hx])) u hv
    · exact absurd (hon.trans hr.symm) (hno o (by rw [ho]; simp))

end Verif.Mix
