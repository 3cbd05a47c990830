import Verif.Proofs.Whole
/-! Changes of a document tree that leave the frame elements alone; changes inside of one tree. -/
namespace Verif.Whole
open Verif Verif.Lxml Forest
set_option linter.unusedSimpArgs false

theorem node_children {W W' : World} {q q' : Nat} (h : node W' q' = node W q) : children W' q' = children W q := by
  have := congrArg (Option.map Prod.snd) h
  simp only [node, Option.map_map] at this
  unfold children
  exact this

theorem node_tag {W W' : World} {q q' : Nat} (h : node W' q' = node W q) : Parts.tagAt W' q' = Parts.tagAt W q := by
  have := congrArg (Option.map fun u : Elem × List Nat => u.1.tag) h
  simp only [node, Option.map_map] at this
  unfold Parts.tagAt Lxml.content
  simp only [Option.map_map]
  exact this

theorem children_find {W : World} {q : Nat} {t : Tree} (h : find q W = some t) : children W q = some (roots t.2) := by
  unfold children; rw [h]; rfl

/-! ## Trees from their nodes -/

theorem forest_of_nodes {W W' : World} (hn : (ids W).Nodup) (hn' : (ids W').Nodup) : ∀ {k k' : Forest},
    roots k' = roots k → (∀ u ∈ k.toList, find u.1.id W = some u) → (∀ u ∈ k'.toList, find u.1.id W' = some u) →
    (∀ q ∈ ids k, node W' q = node W q) → k' = k
  | .nil, .nil, _, _, _, _ => rfl
  | .nil, .cons _ _ _, h, _, _, _ => by simp at h
  | .cons _ _ _, .nil, h, _, _, _ => by simp at h
  | .cons e k r, .cons e' k' r', h, h1, h2, h3 => by
    simp only [roots_cons, List.cons.injEq] at h
    have f1 : find e.id W = some (e, k) := h1 (e, k) (by simp)
    have f2 : find e'.id W' = some (e', k') := h2 (e', k') (by simp)
    have h4 := h3 e.id (by simp [ids])
    rw [node_of_find f1, ← h.1, node_of_find f2] at h4
    simp only [Option.some.injEq, Prod.mk.injEq] at h4
    rw [h4.1, forest_of_nodes hn hn' h4.2 (fun u hu => child_find hn f1 hu) (fun u hu => child_find hn' f2 hu)
        (fun q hq => h3 q (by simp [ids, hq])),
      forest_of_nodes hn hn' h.2 (fun u hu => h1 u (by simp [hu])) (fun u hu => h2 u (by simp [hu]))
        (fun q hq => h3 q (by simp [ids, hq]))]

/-- A tree is the same when all of its nodes are. -/
theorem tree_of_nodes {W W' : World} (hn : (ids W).Nodup) (hn' : (ids W').Nodup) {p : Nat} {t : Tree}
    (h : find p W = some t) (hq : ∀ q ∈ ids (single t), node W' q = node W q) : find p W' = some t := by
  have hid := (find_mem_ids h).1
  have h1 := hq p (by simp [hid])
  rw [node_of_find h] at h1
  obtain ⟨k, hk1, hk2⟩ := find_of_node h1
  have := forest_of_nodes hn hn' hk2 (fun u hu => child_find hn h hu) (fun u hu => child_find hn' hk1 hu)
    (fun q hqk => hq q (by simp [hqk]))
  rw [hk1, this]

/-! ## Trees inside of each other -/

/-- Two trees in a world: one lies in the other, or they have no node in common. -/
theorem laminar {W : World} (hn : (ids W).Nodup) {a b : Nat} {A B : Tree} (ha : find a W = some A)
    (hb : find b W = some B) {x : Nat} (h1 : x ∈ ids (single A)) (h2 : x ∈ ids (single B)) :
    a ∈ ids (single B) ∨ b ∈ ids (single A) := by
  induction W with
  | nil => simp [find] at ha
  | cons e k r ihk ihr =>
    simp only [ids, List.nodup_cons, List.nodup_append, List.mem_append, not_or] at hn
    by_cases hea : e.id = a
    · rw [find, if_pos hea] at ha
      cases ha
      by_cases heb : e.id = b
      · right; simp [← heb]
      · rw [find_cons_ne heb] at hb
        cases hk : find b k with
        | some u => right; simp [find_mem hk]
        | none =>
          rw [hk, Option.none_or] at hb
          have hx : x ∈ ids r := (find_sub hb).subset h2
          simp only [ids_single, List.mem_cons] at h1
          rcases h1 with rfl | h1
          · exact absurd hx hn.1.2
          · exact absurd rfl (hn.2.2.2 x h1 x hx)
    · rw [find_cons_ne hea] at ha
      by_cases heb : e.id = b
      · rw [find, if_pos heb] at hb
        cases hb
        cases hk : find a k with
        | some u => left; simp [find_mem hk]
        | none =>
          rw [hk, Option.none_or] at ha
          have hx : x ∈ ids r := (find_sub ha).subset h1
          simp only [ids_single, List.mem_cons] at h2
          rcases h2 with rfl | h2
          · exact absurd hx hn.1.2
          · exact absurd rfl (hn.2.2.2 x h2 x hx)
      · rw [find_cons_ne heb] at hb
        cases hka : find a k with
        | some u =>
          rw [hka, Option.some_or] at ha; cases ha
          cases hkb : find b k with
          | some v =>
            rw [hkb, Option.some_or] at hb; cases hb
            exact ihk hn.2.1 hka hkb
          | none =>
            rw [hkb, Option.none_or] at hb
            exact absurd rfl (hn.2.2.2 x ((find_sub hka).subset h1) x ((find_sub hb).subset h2))
        | none =>
          rw [hka, Option.none_or] at ha
          cases hkb : find b k with
          | some v =>
            rw [hkb, Option.some_or] at hb; cases hb
            exact absurd rfl (hn.2.2.2 x ((find_sub hkb).subset h2) x ((find_sub ha).subset h1))
          | none =>
            rw [hkb, Option.none_or] at hb
            exact ihr hn.2.2.1 ha hb

theorem both_in {W : World} (hn : (ids W).Nodup) {a b : Nat} {A B : Tree} (ha : find a W = some A)
    (hb : find b W = some B) (h1 : a ∈ ids (single B)) (h2 : b ∈ ids (single A)) : a = b := by
  have ia := (find_mem_ids ha).1
  have ib := (find_mem_ids hb).1
  by_contra hne
  have n1 := nodup_tree hn ha
  have n2 := nodup_tree hn hb
  have f1 := find_in hn hb h1
  rw [ha] at f1
  have h3 : a ∈ ids B.2 := by
    simp only [ids_single, List.mem_cons] at h1
    rcases h1 with h1 | h1
    · exact absurd (h1.trans ib) hne
    · exact h1
  rw [find_single_ne (by rw [ib]; exact fun h => hne h.symm)] at f1
  have h4 : b ∈ ids B.2 := (find_sub f1.symm).subset h2
  simp only [ids_single, List.nodup_cons] at n2
  exact n2.1 (ib ▸ h4)

/-! ## References -/

theorem ref_iff {W : World} {p c : Nat} {tag : String} :
    Parts.Ref W p tag c ↔ ∃ l, children W p = some l ∧ l.find? (fun x => Parts.tagAt W x = some tag) = some c := by
  unfold Parts.Ref
  constructor
  · rintro ⟨A, B, h1, h2, h3⟩
    refine ⟨_, h1, ?_⟩
    rw [List.find?_append, List.find?_eq_none.mpr (fun x hx => by simpa using h3 x hx), Option.none_or,
      List.find?_cons_of_pos (by simpa using h2)]
  · rintro ⟨l, h1, h2⟩
    obtain ⟨hp, A, B, e, hno⟩ := List.find?_eq_some_iff_append.mp h2
    exact ⟨A, B, by rw [h1, e], by simpa using hp, fun a ha => by simpa using hno a ha⟩

/-- The children of a node that are no tables, and their tags, are the same. -/
def Keep (W W' : World) (p : Nat) : Prop :=
  ∃ l l', children W p = some l ∧ children W' p = some l' ∧
    l'.filter (fun x => Parts.tagAt W' x ≠ some "table:table") = l.filter (fun x => Parts.tagAt W x ≠ some "table:table") ∧
    ∀ x ∈ l, Parts.tagAt W x ≠ some "table:table" → Parts.tagAt W' x = Parts.tagAt W x

theorem find_filter {α : Type} (l : List α) (p q : α → Bool) (h : ∀ x, p x = true → q x = true) :
    (l.filter q).find? p = l.find? p := by
  rw [List.find?_filter]
  congr 1
  funext x
  have := h x
  cases hp : p x <;> cases hq : q x <;> simp_all

theorem find_congr' {α : Type} {l : List α} {p q : α → Bool} (h : ∀ x ∈ l, p x = q x) : l.find? p = l.find? q := by
  induction l with
  | nil => rfl
  | cons a l ih =>
    rw [List.find?_cons, List.find?_cons, h a (by simp), ih fun x hx => h x (by simp [hx])]

theorem ref_keep {W W' : World} {p c : Nat} {tag : String} (ht : tag ≠ "table:table") (h : Keep W W' p)
    (hr : Parts.Ref W p tag c) : Parts.Ref W' p tag c := by
  rw [ref_iff] at hr ⊢
  obtain ⟨l, l', h1, h2, h3, h4⟩ := h
  obtain ⟨l0, h5, h6⟩ := hr
  rw [h1] at h5; cases h5
  refine ⟨l', h2, ?_⟩
  have key : ∀ V : World, ∀ x, decide (Parts.tagAt V x = some tag) = true →
      decide (Parts.tagAt V x ≠ some "table:table") = true := by
    intro V x hx
    simp only [decide_eq_true_eq] at hx ⊢
    rw [hx]; simpa using ht
  rw [← find_filter _ _ _ (key W'), h3, ← h6, ← find_filter _ _ _ (key W)]
  refine find_congr' fun x hx => ?_
  have hx := List.mem_filter.mp hx
  rw [h4 x hx.1 (by simpa using hx.2)]

/-- The declarations at a node read the same. -/
theorem vars_keep {W W' : World} {p : Nat} {tag : String} (ht : tag ≠ "table:table") (h : Keep W W' p) {d : _}
    (hd : ∀ v, Parts.Ref W p tag v → find v W' = find v W)
    (hr : ∃ v, Parts.Ref W p tag v ∧ Vars.init v W = (W, .ok d)) :
    ∃ v, Parts.Ref W' p tag v ∧ Vars.init v W' = (W', .ok d) := by
  obtain ⟨v, r, i⟩ := hr
  refine ⟨v, ref_keep ht h r, ?_⟩
  unfold Vars.init at i ⊢
  rw [hd v r]
  cases hf : find v W with
  | none => rw [hf] at i; simp at i
  | some t =>
    rw [hf] at i
    simp only [Prod.mk.injEq, true_and] at i ⊢
    exact i

theorem docrefs_keep {W W' : World} {tag : String} (ht : tag ≠ "table:table") {d : Parts.DocTree}
    (h : Parts.DocRefs W tag d) (hs : Parts.tagAt W' d.styles.root = Parts.tagAt W d.styles.root)
    (hc : Parts.tagAt W' d.content.root = Parts.tagAt W d.content.root)
    (hk : ∀ p ∈ [d.styles.root, d.content.root, d.content.body, d.body.node], Keep W W' p)
    (hd : ∀ v tag, tag ≠ "table:table" → Parts.Ref W d.body.node tag v → find v W' = find v W) :
    Parts.DocRefs W' tag d := by
  have k1 := hk d.styles.root (by simp)
  have k2 := hk d.content.root (by simp)
  have k3 := hk d.content.body (by simp)
  have k4 := hk d.body.node (by simp)
  refine ⟨hs.trans h.stylesRoot, hc.trans h.contentRoot,
    ⟨ref_keep (by decide) k1 h.styles.fonts, ref_keep (by decide) k1 h.styles.styles,
     ref_keep (by decide) k1 h.styles.automatic, ref_keep (by decide) k1 h.styles.master⟩,
    ⟨ref_keep (by decide) k2 h.content.scripts, ref_keep (by decide) k2 h.content.fonts,
     ref_keep (by decide) k2 h.content.automatic, ref_keep (by decide) k2 h.content.body⟩,
    ⟨ref_keep ht k3 h.body.node, vars_keep (by decide) k4 (fun v hv => hd v _ (by decide) hv) h.body.vars,
     vars_keep (by decide) k4 (fun v hv => hd v _ (by decide) hv) h.body.fields, h.body.sheets, h.body.pages⟩,
    h.sheets, h.pages⟩

end Verif.Whole
