import Verif.Props.WholeLib
import Verif.Model.Desk
/-!
# C63, C69: a new document can be made in any memory

Whatever is in the memory already, making the trees of a new document succeeds, and all of them is new.
-/
namespace Verif.Parts
open Verif Verif.Lxml Forest
set_option linter.unusedSimpArgs false

theorem kidsOf_out {W : World} {q : Nat} (h : q ∉ ids W) : kidsOf W q = [] := by
  unfold kidsOf
  cases hc : children W q with
  | none => rfl
  | some l => exact absurd (mem_of_children hc) h

/-- What is added to an element without children is new. -/
theorem ref_new {W W' : World} {a} (h : Ext W W' a) {p c : Nat} {tag : String} (hp : p ∈ ids W') (hk : kidsOf W p = [])
    (hr : Ref W' p tag c) : c ∉ ids W := by
  obtain ⟨m, h1, h2, -⟩ := h.kids p hp
  obtain ⟨A, B, h3, -⟩ := hr
  rw [h1, hk, List.nil_append] at h3
  exact h2 c (by rw [Option.some.inj h3]; simp)

/-- Only the element that gets new children changes. -/
theorem kids_stay {W W' V : World} {p : Nat} {T : List String} (h : Ext W W' (only V p T)) {q : Nat} (hq : q ∈ ids W)
    (hne : q ≠ p) : children W' q = children W q := by
  obtain ⟨m, h1, -, h3⟩ := h.kids q (h.mem hq)
  unfold only at h3
  rw [if_neg hne] at h3
  have : m = [] := by simpa using h3
  subst this
  obtain ⟨l, hl⟩ := children_some hq
  rw [h1, hl]
  unfold kidsOf
  rw [hl]; simp

/-- One child is added. -/
theorem kids_one {W W' : World} {p c : Nat} {tag : String} (h : Ext W W' (only W p [tag])) (hp : p ∈ ids W') {l : List Nat}
    (hl : kidsOf W p = l) (ht : ∀ x ∈ l, tagAt W x ≠ some tag) (hr : Ref W' p tag c) :
    children W' p = some (l ++ [c]) ∧ c ∉ ids W := by
  obtain ⟨m, h1, h2, h3⟩ := h.kids p hp
  unfold only missing at h3
  rw [if_pos rfl] at h3
  have hno : some tag ∉ kidTags W p := by
    unfold kidTags
    rw [hl]
    intro he
    obtain ⟨x, hx, e⟩ := List.mem_map.mp he
    exact ht x hx e
  rw [show List.filter (fun t => decide (some t ∉ kidTags W p)) [tag] = [tag] by simp [hno]] at h3
  obtain ⟨u, rfl, hu⟩ : ∃ u, m = [u] ∧ tagAt W' u = some tag := by
    cases m with
    | nil => simp at h3
    | cons u r => cases r with
      | nil => exact ⟨u, rfl, by simpa using h3⟩
      | cons a b => simp at h3
  rw [hl] at h1
  have hlw : ∀ x ∈ l, x ∈ ids W := by
    intro x hx
    rw [← hl] at hx
    unfold kidsOf at hx
    cases hc : children W p with
    | none => rw [hc] at hx; simp at hx
    | some k => rw [hc] at hx; exact child_mem hc hx
  have hu' : Ref W' p tag u := ⟨l, [], h1, hu, fun a ha => by rw [h.tag (hlw a ha)]; exact ht a ha⟩
  obtain rfl := hr.unique hu'
  exact ⟨h1, h2 _ (by simp)⟩

/-- The body of a new document: it has the two containers of declarations and nothing else, and these are empty. -/
structure Blank (W : World) (b : BodyObj) : Prop where
  kids : ∃ v u, children W b.node = some [v, u] ∧ tagAt W v = some "text:variable-decls" ∧
    tagAt W u = some "text:user-field-decls" ∧ children W v = some [] ∧ children W u = some []
  vars : b.vars = []
  fields : b.fields = []

theorem init_empty {W : World} {v : Nat} (h : children W v = some []) : Vars.init v W = (W, .ok []) := by
  obtain ⟨t, ht⟩ := find_some_of_mem (mem_of_children h)
  rw [show children W v = some (roots t.2) by unfold children; rw [ht]; rfl] at h
  have hk : t.2.toList = [] := by
    cases hk : t.2 with
    | nil => rfl
    | cons e k r => rw [hk] at h; simp [roots, toList] at h
  unfold Vars.init
  simp only [ht, hk]
  rfl

/-- **C63**: in any memory a new document of each type can be made; its trees are new, and its body is empty. -/
theorem C63_new {A : World} (hA : (ids A).Nodup) {mt : Str} {tag : String}
    (hmt : Document.MIMETYPE_BODYTAG_MAP.get mt = some tag) (hm : mt ∈ Document.MIMETYPE_NSMAP) :
    ∃ W d, packagedTree mt none none A = (W, .ok d) ∧ d.styles.root ∉ ids A ∧ d.content.root ∉ ids A ∧ d.body.node ∉ ids A ∧
      tagAt W d.body.node = some tag ∧ Blank W d.body ∧ (∀ n ∈ ids A, content W n = content A n ∧ children W n = children A n) := by
  obtain ⟨V1, s, g1, o1, x1, r1⟩ := C63_styles (o := none) hA (by simp)
  obtain ⟨V2, c, g2, o2, x2, r2⟩ := C63_content (o := none) (mt := mt) x1.once (fun _ => hm) (by simp)
  have hcr : c.root ∉ ids V1 := o2.2.1
  have hbn : c.body ∉ ids V1 := ref_new x2 (mem_of_tagAt o2.1) (kidsOf_out hcr) r2.body
  have hb0 : kidsOf V2 c.body = [] := by
    obtain ⟨m, h1, -, h3⟩ := x2.kids c.body r2.body.mem
    have hne : c.body ≠ c.root := r2.body.ne x2.once
    unfold only at h3
    rw [if_neg hne] at h3
    have : m = [] := by simpa using h3
    subst this
    rw [kidsOf_out hbn] at h1
    unfold kidsOf; rw [h1]; rfl
  obtain ⟨U1, n, e1, y1, q1, z1⟩ := sub_spec x2.once r2.body.mem tag
  have hn1 : n ∉ ids V2 := ref_new y1 (y1.mem r2.body.mem) hb0 q1
  have hnt : tagAt U1 n = some tag := by
    obtain ⟨_, _, _, h, _⟩ := q1
    exact h
  have hk1 := z1 hn1
  obtain ⟨U2, v, e2, y2, q2, z2⟩ := sub_spec y1.once q1.mem "text:variable-decls"
  obtain ⟨k2, hv1⟩ := kids_one y2 (y2.mem q1.mem) (l := []) (by unfold kidsOf; rw [hk1]; rfl) (by simp) q2
  have hv0 := z2 hv1
  have hvt : tagAt U2 v = some "text:variable-decls" := by
    obtain ⟨_, _, _, h, _⟩ := q2
    exact h
  obtain ⟨U3, u, e3, y3, q3, z3⟩ := sub_spec y2.once (y2.mem q1.mem) "text:user-field-decls"
  obtain ⟨k3, hu1⟩ := kids_one y3 (y3.mem (y2.mem q1.mem)) (l := [v]) (by unfold kidsOf; rw [k2]; rfl)
    (by simp [hvt]) q3
  have hu0 := z3 hu1
  have hut : tagAt U3 u = some "text:user-field-decls" := by
    obtain ⟨_, _, _, h, _⟩ := q3
    exact h
  have hvn : v ≠ n := fun e => hv1 (by rw [e]; exact q1.mem)
  refine ⟨U3, ⟨s, c, ⟨n, [], [], if tag = "office:spreadsheet" then some n else none,
    if tag = "office:drawing" ∨ tag = "office:presentation" then some n else none⟩,
    if tag = "office:spreadsheet" then some n else none,
    if tag = "office:drawing" ∨ tag = "office:presentation" then some n else none⟩, ?_, o1.2.1, fun h => hcr (x1.mem h),
    fun h => hn1 (x2.mem (x1.mem h)), ?_,
    ⟨⟨v, u, k3, by rw [y3.tag q2.mem, hvt], hut, by rw [kids_stay y3 q2.mem hvn, hv0], hu0⟩, rfl, rfl⟩, ?_⟩
  · unfold packagedTree
    rw [Py.bind_ok g1, Py.bind_ok g2, hmt]
    dsimp only
    unfold applicationBody bodyInit
    rw [Py.bind_ok (a := ⟨n, [], [], if tag = "office:spreadsheet" then some n else none,
      if tag = "office:drawing" ∨ tag = "office:presentation" then some n else none⟩) (s' := U3)]
    · rfl
    · rw [Py.bind_ok e1, Py.bind_ok (tagOf_eq hnt), Py.bind_ok e2, Py.bind_ok (init_empty hv0), Py.bind_ok e3,
        Py.bind_ok (init_empty hu0)]
      rfl
  · rw [y3.tag (y2.mem q1.mem), y2.tag q1.mem, hnt]
  · intro q hq
    have a1 := x1.mem hq
    have a2 := x2.mem a1
    have a3 := y1.mem a2
    have a4 := y2.mem a3
    have hqn : q ≠ n := fun e => hn1 (by rw [← e]; exact a2)
    constructor
    · rw [y3.keep q a4, y2.keep q a3, y1.keep q a2, x2.keep q a1, x1.keep q hq]
    · rw [kids_stay y3 a4 hqn, kids_stay y2 a3 hqn, kids_stay y1 a2 (fun e => hbn (by rw [← e]; exact a1)),
        kids_stay x2 a1 (fun e => hcr (by rw [← e]; exact a1)), kids_stay x1 hq (fun e => o1.2.1 (by rw [← e]; exact hq))]

/-- The hypotheses are met by each type of document of the table and a memory with elements of other trees. -/
example : (ids (single (⟨3, "office:body", [], none, none⟩, single (⟨4, "office:text", [], none, none⟩, .nil)))).Nodup ∧
    Document.MIMETYPE_BODYTAG_MAP.get "application/vnd.oasis.opendocument.text".toList = some "office:text" ∧
    "application/vnd.oasis.opendocument.text".toList ∈ Document.MIMETYPE_NSMAP := by decide +kernel

end Verif.Parts

namespace Verif.Whole
open Verif Verif.Lxml Forest Verif.Package Verif.Document

/-- **C69**: in any memory a new document of each type can be made, whatever the files are. -/
theorem newIn_ok {L : XLib} (fs : FS) (k : Clock) {mt : Str} (hmt : mt ∈ MIMETYPE_BODYTAG_MAP.keys) {A : World}
    (hA : (ids A).Nodup) : ∃ s, Desk.newIn L fs k mt A = .ok s ∧ s.mimetype = mt ∧ s.w.fs = fs ∧ s.docname = none ∧
      s.meta_ = metaInit k none ∧ Parts.packagedTree mt none none A = (s.world, .ok s.tree) := by
  obtain ⟨t1, t2, t3⟩ := new_tables mt hmt
  obtain ⟨ext, he⟩ := Option.isSome_iff_exists.mp t1
  obtain ⟨tag, ht⟩ := Option.isSome_iff_exists.mp t2
  obtain ⟨W, tree, hp, -⟩ := Parts.C63_new hA ht t3
  have ho : ∃ fm, open_ L.pkg fs (.file none) k.now = .ok fm := ⟨_, rfl⟩
  obtain ⟨fm, ho⟩ := ho
  obtain ⟨hsrc, hdir, -⟩ := open_ok ho
  obtain ⟨m, s, c, hpk⟩ := packaged_new (dlib L) fs k.now hsrc he ht t3
  have hst : ∀ n, storedBytes fs fm n = none := by
    intro n
    unfold storedBytes getBytes srcZip
    rw [hsrc]
  have hw := packagedWhole_fwd (L := L) (k := k) (W := A) (W1 := A) (W2 := A) (so := none) (co := none) hpk
    (by rw [hst]; rfl) (by rw [hst]; rfl) hp
  have hn : Desk.newIn L fs k mt A = packagedWhole L fs k fm (some mt) A := by
    unfold Desk.newIn
    rw [ho]
  rw [hw] at hn
  refine ⟨_, hn, rfl, rfl, rfl, ?_, hp⟩
  dsimp only
  rw [hst]
  rfl

end Verif.Whole
