import Verif.Model.Base
import Verif.Proofs.XmlTree
import Mathlib.Data.List.Nodup
/-! Lemmas about moving nodes: what `subst` does to the children of every node. -/
set_option linter.unusedSimpArgs false
namespace Verif.Lxml
open Verif Forest

/-- `l` with every `i` replaced by `g`. -/
def splice (i : Nat) (g : List Nat) (l : List Nat) : List Nat :=
  l.flatMap fun j => if j = i then g else [j]

@[simp] theorem splice_nil (i g) : splice i g [] = [] := rfl
@[simp] theorem splice_append (i g l m) : splice i g (l ++ m) = splice i g l ++ splice i g m := by
  simp [splice]
@[simp] theorem splice_cons_self (i g l) : splice i g (i :: l) = g ++ splice i g l := by
  simp [splice]
theorem splice_cons_ne {i j : Nat} (g l) (h : j ≠ i) : splice i g (j :: l) = j :: splice i g l := by
  simp [splice, h]
theorem splice_not_mem {i : Nat} (g) {l : List Nat} (h : i ∉ l) : splice i g l = l := by
  induction l with
  | nil => rfl
  | cons j l ih =>
    simp only [List.mem_cons, not_or] at h
    rw [splice_cons_ne _ _ (fun h' => h.1 h'.symm), ih h.2]
theorem splice_self (i : Nat) (l : List Nat) : splice i [i] l = l := by
  induction l with
  | nil => rfl
  | cons j l ih =>
    by_cases h : j = i
    · subst h; simp [ih]
    · rw [splice_cons_ne _ _ h, ih]
theorem splice_empty (i : Nat) (l : List Nat) : splice i [] l = l.filter (· ≠ i) := by
  induction l with
  | nil => rfl
  | cons j l ih =>
    by_cases h : j = i
    · subst h; simp [ih]
    · rw [splice_cons_ne _ _ h, ih]; simp [h]

@[simp] theorem roots_nil : roots .nil = [] := rfl
@[simp] theorem roots_cons (e k r) : roots (.cons e k r) = e.id :: roots r := rfl
@[simp] theorem roots_append (f g : Forest) : roots (f ++ g) = roots f ++ roots g := by
  simp [roots]
@[simp] theorem roots_single (t : Tree) : roots (single t) = [t.1.id] := rfl
@[simp] theorem ids_single (t : Tree) : ids (single t) = t.1.id :: ids t.2 := by
  simp [single, ids]
@[simp] theorem length_roots (F : Forest) : (roots F).length = F.length := by
  rw [roots, List.length_map, length_toList]

theorem roots_sublist (F : Forest) : (roots F).Sublist (ids F) := by
  induction F with
  | nil => exact List.Sublist.refl _
  | cons e k r _ ih =>
    exact (ih.trans (List.sublist_append_right _ _)).cons_cons _

theorem roots_sub {F : Forest} {i : Nat} (h : i ∈ roots F) : i ∈ ids F := (roots_sublist F).subset h

/-- The node `q`: its element and the identities of its children. -/
def node (F : Forest) (q : Nat) : Option (Elem × List Nat) :=
  (F.find q).map fun u => (u.1, roots u.2)

theorem find_cons_ne {e : Elem} {k r : Forest} {q : Nat} (h : e.id ≠ q) :
    find q (.cons e k r) = (find q k).or (find q r) := by
  rw [find, if_neg h]
  cases find q k <;> rfl

theorem find_append (q : Nat) (f g : Forest) : find q (f ++ g) = (find q f).or (find q g) := by
  induction f with
  | nil => simp [find]
  | cons e k r _ ih =>
    rw [cons_append]
    by_cases h : e.id = q
    · simp [find, h]
    · rw [find_cons_ne h, find_cons_ne h, ih, Option.or_assoc]

theorem find_single_self (t : Tree) : find t.1.id (single t) = some t := by
  simp [single, find]

theorem find_single_ne {t : Tree} {q : Nat} (h : t.1.id ≠ q) : find q (single t) = find q t.2 := by
  rw [single, find_cons_ne h]; simp [find]

theorem roots_plug (c : Ctx) (t : Tree) (G : Forest)
    (h : t.1.id ∉ c.idsL ++ c.idsR) :
    roots (c.plug G) = splice t.1.id (roots G) (roots (c.plug (single t))) := by
  induction c with
  | hole r =>
    simp only [Ctx.idsL, Ctx.idsR, List.nil_append] at h
    simp only [Ctx.plug, roots_append, roots_single, List.singleton_append, splice_cons_self]
    rw [splice_not_mem _ (fun h' => h (roots_sub h'))]
  | down e c r ih =>
    simp only [Ctx.idsL, Ctx.idsR, List.mem_append, List.mem_cons, not_or] at h
    simp only [Ctx.plug, roots_cons]
    rw [splice_cons_ne _ _ (fun h' => h.1.1 h'.symm),
      splice_not_mem _ (fun h' => h.2.2 (roots_sub h'))]
  | right e k c ih =>
    simp only [Ctx.idsL, Ctx.idsR, List.mem_append, List.mem_cons, not_or] at h
    simp only [Ctx.plug, roots_cons]
    rw [splice_cons_ne _ _ (fun h' => h.1.1 h'.symm), ih (by simp [h])]

theorem find_sub {q : Nat} {F : Forest} {u : Tree} (h : find q F = some u) :
    (ids (single u)).Sublist (ids F) := by
  induction F with
  | nil => simp [find] at h
  | cons e k r ihk ihr =>
    by_cases he : e.id = q
    · simp [find, he] at h; subst h
      simp only [ids_single, ids]
      exact (List.sublist_append_left _ _).cons_cons _
    · rw [find_cons_ne he] at h
      cases hk : find q k with
      | some v =>
        rw [hk] at h; simp at h; subst h
        exact ((ihk hk).trans (List.sublist_append_left _ _)).cons _
      | none =>
        rw [hk] at h; simp at h
        exact ((ihr h).trans (List.sublist_append_right _ _)).cons _

theorem node_cons_ne {e : Elem} {k r : Forest} {q : Nat} (h : e.id ≠ q) :
    node (.cons e k r) q = (node k q).or (node r q) := by
  simp only [node, find_cons_ne h, Option.map_or]

theorem node_splice_none {F : Forest} {i : Nat} (g : List Nat) (q : Nat) (h : i ∉ ids F) :
    (node F q).map (fun u => (u.1, splice i g u.2)) = node F q := by
  unfold node
  cases hr : find q F with
  | none => rfl
  | some u =>
    simp only [Option.map_some, Option.some.injEq, Prod.mk.injEq, true_and]
    refine splice_not_mem _ fun h' => h ?_
    exact (find_sub hr).subset (by simp [roots_sub h'])

/-- Nodes outside: the element stays, the children are spliced. -/
theorem node_plug_out (c : Ctx) (t : Tree) (G : Forest) (q : Nat)
    (h : t.1.id ∉ c.idsL ++ c.idsR) (hG : q ∉ ids G) (ht : q ∉ ids (single t)) :
    node (c.plug G) q =
      (node (c.plug (single t)) q).map fun u => (u.1, splice t.1.id (roots G) u.2) := by
  induction c with
  | hole r =>
    simp only [Ctx.idsL, Ctx.idsR, List.nil_append] at h
    have hr := node_splice_none (roots G) q h
    simp only [node] at hr
    simp only [Ctx.plug, node, find_append, find_none.mpr hG, find_none.mpr ht, Option.none_or]
    exact hr.symm
  | down e c r ih =>
    have h0 := h
    simp only [Ctx.idsL, Ctx.idsR, List.cons_append, List.mem_append,
      List.mem_cons, not_or] at h
    by_cases he : e.id = q
    · simp only [Ctx.plug, node, find, he, if_true, Option.map_some, Option.some.injEq,
        Prod.mk.injEq, true_and]
      exact roots_plug c t G (by simp [h])
    · simp only [Ctx.plug, node_cons_ne he, Option.map_or]
      rw [ih (by simp [h]), node_splice_none _ _ h.2.2.2]
  | right e k c ih =>
    simp only [Ctx.idsL, Ctx.idsR, List.cons_append, List.mem_append,
      List.mem_cons, not_or] at h
    have hk := node_splice_none (roots G) q h.2.1.1
    by_cases he : e.id = q
    · simp only [Ctx.plug, node, find, he, if_true, Option.map_some, Option.some.injEq,
        Prod.mk.injEq, true_and]
      exact (splice_not_mem _ fun h' => h.2.1.1 (roots_sub h')).symm
    · simp only [Ctx.plug, node_cons_ne he, Option.map_or]
      rw [ih (by simp [h]), hk]

/-- Nodes inside keep their subtree. -/
theorem find_plug_in (c : Ctx) (G : Forest) (q : Nat) (hG : q ∈ ids G)
    (h : q ∉ c.idsL ++ c.idsR) : find q (c.plug G) = find q G := by
  have hs : ∃ u, find q G = some u := by
    cases hf : find q G with
    | none => exact absurd hG (find_none.mp hf)
    | some u => exact ⟨u, rfl⟩
  obtain ⟨u, hu⟩ := hs
  induction c with
  | hole r => simp [Ctx.plug, find_append, hu]
  | down e c r ih =>
    simp only [Ctx.idsL, Ctx.idsR, List.cons_append, List.mem_append,
      List.mem_cons, not_or] at h
    rw [Ctx.plug, find_cons_ne (fun h' => h.1 h'.symm), ih (by simp [h]), hu]; rfl
  | right e k c ih =>
    simp only [Ctx.idsL, Ctx.idsR, List.cons_append, List.mem_append,
      List.mem_cons, not_or] at h
    rw [Ctx.plug, find_cons_ne (fun h' => h.1 h'.symm), ih (by simp [h]), hu,
      find_none.mpr h.2.1.1]; rfl

/-- Everything about a substitution. -/
theorem subst_all {i : Nat} {F : Forest} (hn : (ids F).Nodup) {t : Tree} (h : find i F = some t)
    (f : Elem → Forest → Forest) :
    ∃ L R : List Nat, ids F = L ++ (ids (single t) ++ R) ∧
      ids (subst i f F) = L ++ (ids (f t.1 t.2) ++ R) ∧
      roots (subst i f F) = splice i (roots (f t.1 t.2)) (roots F) ∧
      (∀ q, q ∉ ids (f t.1 t.2) → q ∉ ids (single t) →
        node (subst i f F) q =
          (node F q).map fun u => (u.1, splice i (roots (f t.1 t.2)) u.2)) ∧
      (∀ q ∈ ids (f t.1 t.2), q ∉ L ++ R → find q (subst i f F) = find q (f t.1 t.2)) := by
  obtain ⟨c, h1, h2⟩ := ctx_exists hn h
  have hi := (find_mem_ids h).1
  have hids : ids F = c.idsL ++ (ids (single t) ++ c.idsR) := by rw [← ids_plug, ← h1]
  have hnot : t.1.id ∉ c.idsL ++ c.idsR := by
    rw [hids] at hn
    simp only [ids_single, List.nodup_append, List.nodup_cons, List.mem_append, List.mem_cons,
      List.cons_append] at hn
    intro h'
    rcases List.mem_append.mp h' with h' | h'
    · exact hn.2.2 _ h' _ (Or.inl rfl) rfl
    · exact hn.2.1.1 (Or.inr h')
  refine ⟨c.idsL, c.idsR, hids, by rw [h2, ids_plug], ?_, ?_, ?_⟩
  · rw [h2, roots_plug c t _ hnot, ← h1, hi]
  · intro q hG ht
    rw [h2, node_plug_out c t _ q hnot hG ht, ← h1, hi]
  · intro q hG hq
    rw [h2, find_plug_in c _ q hG hq]

theorem find_some_of_mem {q : Nat} {F : Forest} (h : q ∈ ids F) : ∃ u, find q F = some u := by
  cases hf : find q F with
  | none => exact absurd h (find_none.mp hf)
  | some u => exact ⟨u, rfl⟩

theorem find_mem {q : Nat} {F : Forest} {u : Tree} (h : find q F = some u) : q ∈ ids F :=
  (find_mem_ids h).2

theorem node_none {F : Forest} {q : Nat} (h : q ∉ ids F) : node F q = none := by
  simp [node, find_none.mpr h]

theorem find_in {F : Forest} (hn : (ids F).Nodup) {p q : Nat} {t : Tree} (h : find p F = some t)
    (hq : q ∈ ids (single t)) : find q F = find q (single t) := by
  obtain ⟨c, h1, -⟩ := ctx_exists hn h
  have hids : ids F = c.idsL ++ (ids (single t) ++ c.idsR) := by rw [← ids_plug, ← h1]
  have hnot : q ∉ c.idsL ++ c.idsR := by
    rw [hids] at hn
    simp only [List.nodup_append, List.mem_append] at hn
    intro h'
    rcases List.mem_append.mp h' with h' | h'
    · exact hn.2.2 _ h' _ (Or.inl hq) rfl
    · exact hn.2.1.2.2 _ hq _ h' rfl
  have := find_plug_in c (single t) q hq hnot
  rwa [← h1] at this

theorem nodup_tree {F : Forest} (hn : (ids F).Nodup) {p : Nat} {t : Tree} (h : find p F = some t) :
    (ids (single t)).Nodup := (find_sub h).nodup hn

/-- No child of an inner node is a top level node. -/
theorem child_not_root {F : Forest} (hn : (ids F).Nodup) {q : Nat} {u : Tree}
    (h : find q F = some u) {s : Nat} (hs : s ∈ ids u.2) : s ∉ roots F := by
  induction F with
  | nil => simp [find] at h
  | cons e k r ihk ihr =>
    simp only [ids, List.nodup_cons, List.mem_append, not_or, List.nodup_append] at hn
    by_cases he : e.id = q
    · simp [find, he] at h; subst h
      simp only [roots_cons, List.mem_cons, not_or]
      exact ⟨fun h' => hn.1.1 (h' ▸ hs), fun h' => hn.2.2.2 _ hs _ (roots_sub h') rfl⟩
    · rw [find_cons_ne he] at h
      have key : ∀ {G : Forest} {v : Tree}, find q G = some v → s ∈ ids v.2 → s ∈ ids G :=
        fun hv hsv => (find_sub hv).subset (by simp [hsv])
      cases hk : find q k with
      | some v =>
        rw [hk] at h; simp at h; subst h
        have := key hk hs
        simp only [roots_cons, List.mem_cons, not_or]
        exact ⟨fun h' => hn.1.1 (h' ▸ this), fun h' => hn.2.2.2 _ this _ (roots_sub h') rfl⟩
      | none =>
        rw [hk] at h; simp at h
        have := key h hs
        simp only [roots_cons, List.mem_cons, not_or]
        exact ⟨fun h' => hn.1.2 (h' ▸ this), ihr hn.2.2.1 h⟩

theorem parent_unique {F : Forest} (hn : (ids F).Nodup) {p q s : Nat} {u v : Tree}
    (hp : find p F = some u) (hq : find q F = some v) (hu : s ∈ roots u.2) (hv : s ∈ roots v.2) :
    p = q := by
  induction F with
  | nil => simp [find] at hp
  | cons e k r ihk ihr =>
    simp only [ids, List.nodup_cons, List.mem_append, not_or, List.nodup_append] at hn
    have key : ∀ {x : Nat} {G : Forest} {w : Tree}, find x G = some w → s ∈ roots w.2 → s ∈ ids G :=
      fun hw hsw => (find_sub hw).subset (by simp [roots_sub hsw])
    by_cases hpe : e.id = p <;> by_cases hqe : e.id = q
    · rw [← hpe, ← hqe]
    · simp [find, hpe] at hp; subst hp
      rw [find_cons_ne hqe] at hq
      cases hk : find q k with
      | some w =>
        rw [hk] at hq; simp at hq; subst hq
        exact absurd hu (child_not_root hn.2.1 hk (roots_sub hv))
      | none =>
        rw [hk] at hq; simp at hq
        exact absurd rfl (hn.2.2.2 s (roots_sub hu) s (key hq hv))
    · simp [find, hqe] at hq; subst hq
      rw [find_cons_ne hpe] at hp
      cases hk : find p k with
      | some w =>
        rw [hk] at hp; simp at hp; subst hp
        exact absurd hv (child_not_root hn.2.1 hk (roots_sub hu))
      | none =>
        rw [hk] at hp; simp at hp
        exact absurd rfl (hn.2.2.2 s (roots_sub hv) s (key hp hu))
    · rw [find_cons_ne hpe] at hp
      rw [find_cons_ne hqe] at hq
      cases hk : find p k with
      | some w =>
        rw [hk] at hp; simp at hp; subst hp
        cases hk' : find q k with
        | some w' =>
          rw [hk'] at hq; simp at hq; subst hq
          exact ihk hn.2.1 hk hk'
        | none =>
          rw [hk'] at hq; simp at hq
          exact absurd rfl (hn.2.2.2 s (key hk hu) s (key hq hv))
      | none =>
        rw [hk] at hp; simp at hp
        cases hk' : find q k with
        | some w' =>
          rw [hk'] at hq; simp at hq; subst hq
          exact absurd rfl (hn.2.2.2 s (key hk' hv) s (key hp hu))
        | none =>
          rw [hk'] at hq; simp at hq
          exact ihr hn.2.2.1 hp hq

/-- A list without `c`. -/
def without (c : Nat) (l : List Nat) : List Nat := l.filter (· ≠ c)

theorem without_not_mem {c : Nat} {l : List Nat} (h : c ∉ l) : without c l = l := by
  rw [without, List.filter_eq_self]
  intro a ha
  simp only [ne_eq, decide_eq_true_eq]
  intro h'; exact h (h' ▸ ha)

/-- Everything about taking a node out of its place. -/
theorem detach_all {W : World} (hn : (ids W).Nodup) {c : Nat} {t : Tree} (h : find c W = some t) :
    (ids W).Perm (ids (single t) ++ ids (detach c W)) ∧
    (ids (single t) ++ ids (detach c W)).Nodup ∧
    roots (detach c W) = without c (roots W) ∧
    (∀ q, q ∉ ids (single t) →
      node (detach c W) q = (node W q).map fun u => (u.1, without c u.2)) := by
  obtain ⟨L, R, h1, h2, h3, h4, -⟩ := subst_all hn h (fun _ _ => .nil)
  have hp : (ids W).Perm (ids (single t) ++ ids (detach c W)) := by
    rw [h1, detach, h2]
    simp only [ids, List.nil_append]
    exact List.perm_append_comm_assoc _ _ _
  refine ⟨hp, hp.nodup_iff.mp hn, ?_, ?_⟩
  · rw [detach, h3, roots_nil, splice_empty]; rfl
  · intro q hq
    rw [detach, h4 q (by simp [ids]) hq]
    simp only [roots_nil, splice_empty]; rfl

/-- Inside a moved tree nothing changes. -/
theorem node_in_tree {W : World} (hn : (ids W).Nodup) {c : Nat} {t : Tree} (h : find c W = some t)
    {q : Nat} (hq : q ∈ ids (single t)) :
    (node W q).map (fun u => (u.1, without c u.2)) = node (single t) q := by
  have : node W q = node (single t) q := by simp only [node, find_in hn h hq]
  rw [this]
  unfold node
  have hnt := nodup_tree hn h
  cases hf : find q (single t) with
  | none => rfl
  | some u =>
    simp only [Option.map_some, Option.some.injEq, Prod.mk.injEq, true_and]
    apply without_not_mem
    intro h'
    have hc := (find_mem_ids h).1
    exact child_not_root hnt hf (roots_sub h') (by simp [hc])

theorem node_of_find {F : Forest} {q : Nat} {u : Tree} (h : find q F = some u) :
    node F q = some (u.1, roots u.2) := by simp [node, h]

theorem find_of_node {F : Forest} {q : Nat} {e : Elem} {l : List Nat} (h : node F q = some (e, l)) :
    ∃ k, find q F = some (e, k) ∧ roots k = l := by
  unfold node at h
  cases hf : find q F with
  | none => simp [hf] at h
  | some u =>
    simp only [hf, Option.map_some, Option.some.injEq, Prod.mk.injEq] at h
    exact ⟨u.2, by rw [← h.1], h.2⟩

/-- The effect of `append`. -/
theorem append_all {W : World} (hn : (ids W).Nodup) {p c : Nat} {pt t : Tree}
    (hp : find p W = some pt) (hc : find c W = some t) (hno : p ∉ ids (single t)) :
    ∃ W', append p c W = (W', .ok ()) ∧ (ids W').Perm (ids W) ∧
      roots W' = without c (roots W) ∧
      ∀ q, node W' q =
        (node W q).map fun u => (u.1, if q = p then without c u.2 ++ [c] else without c u.2) := by
  obtain ⟨d1, d2, d3, d4⟩ := detach_all hn hc
  have hci := (find_mem_ids hc).1
  have hpi := (find_mem_ids hp).1
  have hp1 : node (detach c W) p = some (pt.1, without c (roots pt.2)) := by
    rw [d4 p hno, node_of_find hp]; rfl
  obtain ⟨k, hk1, hk2⟩ := find_of_node hp1
  have hn1 : (ids (detach c W)).Nodup := (List.nodup_append.mp d2).2.1
  have hdis : ∀ x ∈ ids (single t), x ∉ ids (detach c W) := fun x hx hx' =>
    (List.nodup_append.mp d2).2.2 x hx x hx' rfl
  obtain ⟨L, R, h1, h2, h3, h4, h5⟩ := subst_all hn1 hk1
    (fun e k => .cons e (k ++ single t) .nil)
  refine ⟨mapKids p (· ++ single t) (detach c W), ?_, ?_, ?_, ?_⟩
  · unfold append
    simp only [hp, hc]
    rw [if_neg (by simpa [inTree] using hno)]
  · refine List.Perm.trans ?_ d1.symm
    unfold mapKids
    rw [h2, h1]
    simp only [ids, ids_append, ids_single, List.append_nil, List.cons_append, List.append_assoc]
    have e1 : ∀ (A B C D : List Nat), (A ++ (B ++ (C ++ D))).Perm (C ++ (A ++ (B ++ D))) := by
      intro A B C D
      have : (B ++ (C ++ D)).Perm (C ++ (B ++ D)) := List.perm_append_comm_assoc B C D
      exact (List.Perm.append_left A this).trans (List.perm_append_comm_assoc A C (B ++ D))
    simpa using e1 L (pt.1.id :: ids k) (t.1.id :: ids t.2) R
  · unfold mapKids
    rw [h3, d3]
    simp only [roots_cons, roots_nil, hpi]
    exact splice_self _ _
  · intro q
    unfold mapKids
    have hL : ∀ x ∈ ids (single (pt.1, k)), x ∉ L ++ R := by
      intro x hx hx'
      rw [h1] at hn1
      simp only [List.nodup_append, List.mem_append] at hn1
      rcases List.mem_append.mp hx' with h' | h'
      · exact hn1.2.2 _ h' _ (Or.inl hx) rfl
      · exact hn1.2.1.2.2 _ hx _ h' rfl
    have hLR : ∀ x ∈ L ++ R, x ∈ ids (detach c W) := by
      intro x hx; rw [h1]; simp only [List.mem_append] at hx ⊢
      rcases hx with h | h <;> simp [h]
    by_cases hqt : q ∈ ids (single t)
    · have hqp : q ≠ p := fun h => hno (h ▸ hqt)
      have hin : q ∉ ids (single (pt.1, k)) := fun h' => hdis q hqt (by
        rw [h1]; simp only [List.mem_append]; exact Or.inr (Or.inl h'))
      simp only [ids_single, List.mem_cons, not_or] at hin
      have hf : find q (subst p (fun e k => .cons e (k ++ single t) .nil) (detach c W)) =
          find q (single t) := by
        rw [h5 q (by simp [ids]; right; right; simpa using hqt)
          (fun h' => hdis q hqt (hLR q h'))]
        show find q (.cons pt.1 (k ++ single t) .nil) = _
        rw [find_cons_ne (fun h => hin.1 h.symm), find_append, find_none.mpr hin.2]
        simp [find]
      have := node_in_tree hn hc hqt
      simp only [if_neg hqp]
      rw [this, node, hf]; rfl
    · have hd := d4 q hqt
      by_cases hqp : q = p
      · subst hqp
        have hf : find q (subst q (fun e k => .cons e (k ++ single t) .nil) (detach c W)) =
            some (pt.1, k ++ single t) := by
          rw [h5 q (by simp [ids, hpi]) (fun h' => hL q (by simp [hpi]) h')]
          simp [find, hpi]
        rw [node_of_find hf, node_of_find hp]
        simp [hk2, hci]
      · simp only [if_neg hqp]
        rw [← hd]
        by_cases hqk : q ∈ ids k
        · have hf : find q (subst p (fun e k => .cons e (k ++ single t) .nil) (detach c W)) =
              find q (detach c W) := by
            rw [h5 q (by simp [ids, hqk]) (fun h' => hL q (by simp [hqk]) h')]
            rw [find_in hn1 hk1 (by simp [hqk])]
            show find q (.cons pt.1 (k ++ single t) .nil) = find q (.cons pt.1 k .nil)
            rw [find_cons_ne (fun h => hqp (h.symm.trans hpi)),
              find_cons_ne (fun h => hqp (h.symm.trans hpi)), find_append, find_none.mpr hqt]
            simp [find]
          simp only [node, hf]
        · rw [h4 q (by
            simp only [ids, ids_append, List.append_nil, List.mem_cons, List.mem_append, not_or]
            exact ⟨fun h => hqp (h.trans hpi), hqk, hqt⟩) (by
            simp only [ids_single, List.mem_cons, not_or]
            exact ⟨fun h => hqp (h.trans hpi), hqk⟩)]
          simp only [roots_cons, roots_nil, hpi, splice_self]
          cases node (detach c W) q <;> rfl

theorem exists_parent {F : Forest} (hn : (ids F).Nodup) {s : Nat} (h : s ∈ ids F)
    (hr : s ∉ roots F) : ∃ q u, find q F = some u ∧ s ∈ roots u.2 := by
  induction F with
  | nil => simp [ids] at h
  | cons e k r ihk ihr =>
    have hn0 := hn
    simp only [ids, List.nodup_cons, List.mem_append, not_or, List.nodup_append] at hn
    simp only [ids, List.mem_cons, List.mem_append] at h
    simp only [roots_cons, List.mem_cons, not_or] at hr
    rcases h with h | h | h
    · exact absurd h hr.1
    · by_cases hk : s ∈ roots k
      · exact ⟨e.id, (e, k), by simp [find], hk⟩
      · obtain ⟨q, u, h1, h2⟩ := ihk hn.2.1 h hk
        have : e.id ≠ q := fun h' => hn.1.1 (h' ▸ find_mem h1)
        exact ⟨q, u, by rw [find_cons_ne this, h1]; rfl, h2⟩
    · obtain ⟨q, u, h1, h2⟩ := ihr hn.2.2.1 h hr.2
      have : e.id ≠ q := fun h' => hn.1.2 (h' ▸ find_mem h1)
      have hk : find q k = none := find_none.mpr fun h' => hn.2.2.2 _ h' _ (find_mem h1) rfl
      exact ⟨q, u, by rw [find_cons_ne this, hk, h1]; rfl, h2⟩

/-- A child of a node outside a tree is outside, unless it is the root of the tree. -/
theorem child_out {W : World} (hn : (ids W).Nodup) {p c s : Nat} {pt t : Tree}
    (hp : find p W = some pt) (hc : find c W = some t) (hno : p ∉ ids (single t))
    (hs : s ∈ roots pt.2) (hsc : s ≠ c) : s ∉ ids (single t) := by
  intro h
  have hci := (find_mem_ids hc).1
  have hnt := nodup_tree hn hc
  obtain ⟨q, u, h1, h2⟩ := exists_parent hnt h (by simp [hci, hsc])
  have hq := find_in hn hc (find_mem h1)
  rw [h1] at hq
  have := parent_unique hn hp hq hs h2
  exact hno (this ▸ find_mem h1)

/-- Facts about a node that stays while the tree `t` is taken out. -/
theorem stay {W : World} (hn : (ids W).Nodup) {c s : Nat} {t st : Tree} (hc : find c W = some t)
    (hs : find s W = some st) (hso : s ∉ ids (single t)) :
    ∃ k, find s (detach c W) = some (st.1, k) ∧ roots k = without c (roots st.2) := by
  obtain ⟨d1, d2, d3, d4⟩ := detach_all hn hc
  apply find_of_node
  rw [d4 s hso, node_of_find hs]; rfl

theorem splice_tree {F : Forest} (hn : (ids F).Nodup) {s : Nat} {t : Tree} (h : find s F = some t)
    {q : Nat} (hq : q ∈ ids (single t)) (g : List Nat) :
    (node F q).map (fun u => (u.1, splice s g u.2)) = node F q := by
  simp only [node, find_in hn h hq]
  have hnt := nodup_tree hn h
  cases hf : find q (single t) with
  | none => rfl
  | some u =>
    simp only [Option.map_some, Option.some.injEq, Prod.mk.injEq, true_and]
    apply splice_not_mem
    intro h'
    have hc := (find_mem_ids h).1
    exact child_not_root hnt hf (roots_sub h') (by simp [hc])

/-- The effect of moving `c` before `s`. -/
theorem before_all {W : World} (hn : (ids W).Nodup) {c s : Nat} {t st : Tree}
    (hc : find c W = some t) (hs : find s W = some st) (hso : s ∉ ids (single t)) :
    let W' := (detach c W).subst s fun e k => single t ++ single (e, k)
    (ids W').Perm (ids W) ∧
      roots W' = splice s [c, s] (without c (roots W)) ∧
      ∀ q, node W' q = (node W q).map fun u => (u.1, splice s [c, s] (without c u.2)) := by
  obtain ⟨d1, d2, d3, d4⟩ := detach_all hn hc
  have hci := (find_mem_ids hc).1
  have hsi := (find_mem_ids hs).1
  obtain ⟨k, hk1, hk2⟩ := stay hn hc hs hso
  have hn1 : (ids (detach c W)).Nodup := (List.nodup_append.mp d2).2.1
  have hdis : ∀ x ∈ ids (single t), x ∉ ids (detach c W) := fun x hx hx' =>
    (List.nodup_append.mp d2).2.2 x hx x hx' rfl
  obtain ⟨L, R, h1, h2, h3, h4, h5⟩ := subst_all hn1 hk1
    (fun e k => single t ++ single (e, k))
  have hL : ∀ x ∈ ids (single (st.1, k)), x ∉ L ++ R := by
    intro x hx hx'
    rw [h1] at hn1
    simp only [List.nodup_append, List.mem_append] at hn1
    rcases List.mem_append.mp hx' with h' | h'
    · exact hn1.2.2 _ h' _ (Or.inl hx) rfl
    · exact hn1.2.1.2.2 _ hx _ h' rfl
  have hLR : ∀ x ∈ L ++ R, x ∈ ids (detach c W) := by
    intro x hx; rw [h1]; simp only [List.mem_append] at hx ⊢
    rcases hx with h | h <;> simp [h]
  have hg : roots (single t ++ single (st.1, k)) = [c, s] := by simp [hci, hsi]
  refine ⟨?_, ?_, ?_⟩
  · refine List.Perm.trans ?_ d1.symm
    rw [h2, h1]
    simp only [ids_append, List.append_assoc]
    exact List.perm_append_comm_assoc _ _ _
  · rw [h3, d3, hg]
  · intro q
    by_cases hqt : q ∈ ids (single t)
    · have hf : find q ((detach c W).subst s fun e k => single t ++ single (e, k)) =
          find q (single t) := by
        rw [h5 q (by rw [ids_append]; exact List.mem_append_left _ hqt)
          (fun h' => hdis q hqt (hLR q h')), find_append]
        obtain ⟨u, hu⟩ := find_some_of_mem hqt
        rw [hu]; rfl
      have hin := node_in_tree hn hc hqt
      have e1 : (fun u : Elem × List Nat => (u.1, splice s [c, s] (without c u.2))) =
          (fun u => (u.1, splice s [c, s] u.2)) ∘ (fun u => (u.1, without c u.2)) := rfl
      rw [e1, ← Option.map_map, hin]
      rw [node_splice_none _ _ hso, node, hf]; rfl
    · have hd := d4 q hqt
      have e1 : (fun u : Elem × List Nat => (u.1, splice s [c, s] (without c u.2))) =
          (fun u => (u.1, splice s [c, s] u.2)) ∘ (fun u => (u.1, without c u.2)) := rfl
      rw [e1, ← Option.map_map, ← hd]
      by_cases hqs : q ∈ ids (single (st.1, k))
      · have hf : find q ((detach c W).subst s fun e k => single t ++ single (e, k)) =
            find q (detach c W) := by
          rw [h5 q (by rw [ids_append]; exact List.mem_append_right _ hqs)
            (fun h' => hL q hqs h'), find_append, find_none.mpr hqt, find_in hn1 hk1 hqs]
          rfl
        rw [splice_tree hn1 hk1 hqs]
        simp only [node, hf]
      · rw [h4 q (by rw [ids_append, List.mem_append, not_or]; exact ⟨hqt, hqs⟩) hqs, hg]

/-- The effect of moving `new` to the place of `old`. -/
theorem replace_all {W : World} (hn : (ids W).Nodup) {c s : Nat} {t st : Tree}
    (hc : find c W = some t) (hs : find s W = some st) (hso : s ∉ ids (single t)) :
    ∃ o, find s (detach c W) = some o ∧
    let W' := (detach c W).subst s (fun _ _ => single t) ++ single o
    (ids W').Perm (ids W) ∧
      roots W' = splice s [c] (without c (roots W)) ++ [s] ∧
      ∀ q, node W' q = (node W q).map fun u => (u.1, splice s [c] (without c u.2)) := by
  obtain ⟨d1, d2, d3, d4⟩ := detach_all hn hc
  have hci := (find_mem_ids hc).1
  have hsi := (find_mem_ids hs).1
  obtain ⟨k, hk1, hk2⟩ := stay hn hc hs hso
  have hn1 : (ids (detach c W)).Nodup := (List.nodup_append.mp d2).2.1
  have hdis : ∀ x ∈ ids (single t), x ∉ ids (detach c W) := fun x hx hx' =>
    (List.nodup_append.mp d2).2.2 x hx x hx' rfl
  obtain ⟨L, R, h1, h2, h3, h4, h5⟩ := subst_all hn1 hk1 (fun _ _ => single t)
  have hL : ∀ x ∈ ids (single (st.1, k)), x ∉ L ++ R := by
    intro x hx hx'
    rw [h1] at hn1
    simp only [List.nodup_append, List.mem_append] at hn1
    rcases List.mem_append.mp hx' with h' | h'
    · exact hn1.2.2 _ h' _ (Or.inl hx) rfl
    · exact hn1.2.1.2.2 _ hx _ h' rfl
  have hLR : ∀ x ∈ L ++ R, x ∈ ids (detach c W) := by
    intro x hx; rw [h1]; simp only [List.mem_append] at hx ⊢
    rcases hx with h | h <;> simp [h]
  have hg : roots (single t) = [c] := by simp [hci]
  refine ⟨(st.1, k), hk1, ?_, ?_, ?_⟩
  · refine List.Perm.trans ?_ d1.symm
    rw [ids_append, h2, h1]
    simp only [List.append_assoc]
    have e1 : (L ++ (ids (single t) ++ (R ++ ids (single (st.1, k))))).Perm
        (ids (single t) ++ (L ++ (R ++ ids (single (st.1, k))))) := List.perm_append_comm_assoc _ _ _
    refine e1.trans (List.Perm.append_left _ (List.Perm.append_left _ List.perm_append_comm))
  · rw [roots_append, h3, d3, hg]; simp [hsi]
  · intro q
    have e1 : (fun u : Elem × List Nat => (u.1, splice s [c] (without c u.2))) =
        (fun u => (u.1, splice s [c] u.2)) ∘ (fun u => (u.1, without c u.2)) := rfl
    rw [e1, ← Option.map_map]
    have e2 : ∀ A B : Forest, node (A ++ B) q = (node A q).or (node B q) := by
      intro A B; simp only [node, find_append, Option.map_or]
    rw [e2]
    by_cases hqt : q ∈ ids (single t)
    · have hf : find q ((detach c W).subst s fun _ _ => single t) = find q (single t) := by
        rw [h5 q hqt (fun h' => hdis q hqt (hLR q h'))]
      have hin := node_in_tree hn hc hqt
      rw [hin, node_splice_none _ _ hso]
      obtain ⟨u, hu⟩ := find_some_of_mem hqt
      simp only [node, hf, hu]; rfl
    · have hd := d4 q hqt
      rw [← hd]
      by_cases hqs : q ∈ ids (single (st.1, k))
      · rw [splice_tree hn1 hk1 hqs]
        have : q ∉ ids ((detach c W).subst s fun _ _ => single t) := by
          rw [h2]
          have := hL q hqs
          simp only [List.mem_append, not_or] at this ⊢
          exact ⟨this.1, hqt, this.2⟩
        rw [node_none this]
        simp only [node, find_in hn1 hk1 hqs]; rfl
      · rw [h4 q hqt hqs, hg, node_none hqs]; simp

/-- The effect of making `c` a root of its own. -/
theorem remove_all {W : World} (hn : (ids W).Nodup) {c : Nat} {t : Tree}
    (hc : find c W = some t) (e : Elem) (he : e.id = t.1.id) :
    let W' := detach c W ++ single (e, t.2)
    (ids W').Perm (ids W) ∧ roots W' = without c (roots W) ++ [c] ∧
      ∀ q, node W' q =
        (node W q).map fun u => (if q = c then e else u.1, without c u.2) := by
  obtain ⟨d1, d2, d3, d4⟩ := detach_all hn hc
  have hci := (find_mem_ids hc).1
  have hid : ids (single (e, t.2)) = ids (single t) := by simp [he]
  refine ⟨?_, ?_, ?_⟩
  · refine List.Perm.trans ?_ d1.symm
    rw [ids_append, hid]; exact List.perm_append_comm
  · rw [roots_append, d3]; simp [he, hci]
  · intro q
    have e2 : ∀ A B : Forest, node (A ++ B) q = (node A q).or (node B q) := by
      intro A B; simp only [node, find_append, Option.map_or]
    rw [e2]
    by_cases hqt : q ∈ ids (single t)
    · have hout : q ∉ ids (detach c W) := fun h =>
        (List.nodup_append.mp d2).2.2 q hqt q h rfl
      rw [node_none hout, Option.none_or]
      by_cases hqc : q = c
      · subst hqc
        rw [node_of_find hc]
        have : find q (single (e, t.2)) = some (e, t.2) := by
          have := find_single_self (e, t.2)
          rwa [show (e, t.2).1.id = q from he.trans hci] at this
        rw [node_of_find this]
        have hr : q ∉ roots t.2 := by
          have hnt := nodup_tree hn hc
          simp only [ids_single, List.nodup_cons, hci] at hnt
          exact fun h => hnt.1 (roots_sub h)
        simp [without_not_mem hr]
      · simp only [if_neg hqc]
        have hin := node_in_tree hn hc hqt
        rw [hin]
        simp only [node]
        rw [find_single_ne (by rw [show (e, t.2).1.id = c from he.trans hci]; exact fun h => hqc h.symm),
          find_single_ne (by rw [hci]; exact fun h => hqc h.symm)]
    · have hqc : q ≠ c := fun h => hqt (by simp [h, hci])
      rw [d4 q hqt, node_none (F := single (e, t.2)) (by rw [hid]; exact hqt)]
      simp [hqc]

/-- The effect of `clear`. -/
theorem clear_all {W : World} (hn : (ids W).Nodup) {p : Nat} {t : Tree}
    (hp : find p W = some t) (e : Elem) (he : e.id = t.1.id) :
    let W' := W.subst p (fun _ _ => single (e, .nil)) ++ t.2
    (ids W').Perm (ids W) ∧ roots W' = roots W ++ roots t.2 ∧
      ∀ q, node W' q =
        (node W q).map fun u => if q = p then (e, []) else u := by
  obtain ⟨L, R, h1, h2, h3, h4, h5⟩ := subst_all hn hp (fun _ _ => single (e, .nil))
  have hpi := (find_mem_ids hp).1
  have hL : ∀ x ∈ ids (single t), x ∉ L ++ R := by
    intro x hx hx'
    rw [h1] at hn
    simp only [List.nodup_append, List.mem_append] at hn
    rcases List.mem_append.mp hx' with h' | h'
    · exact hn.2.2 _ h' _ (Or.inl hx) rfl
    · exact hn.2.1.2.2 _ hx _ h' rfl
  refine ⟨?_, ?_, ?_⟩
  · rw [ids_append, h2, h1]
    simp only [ids_single, ids, he, List.append_assoc, List.cons_append, List.nil_append]
    refine List.Perm.append_left _ (List.Perm.cons _ List.perm_append_comm)
  · rw [roots_append, h3]
    simp only [roots_single, he, hpi, splice_self]
  · intro q
    have e2 : ∀ A B : Forest, node (A ++ B) q = (node A q).or (node B q) := by
      intro A B; simp only [node, find_append, Option.map_or]
    rw [e2]
    by_cases hqp : q = p
    · subst hqp
      have hf : find q (W.subst q fun _ _ => single (e, .nil)) = some (e, .nil) := by
        rw [h5 q (by simp [he, hpi]) (hL q (by simp [hpi]))]
        simp [single, find, he, hpi]
      rw [node_of_find hf, node_of_find hp]; simp
    · simp only [if_neg hqp, Option.map_id']
      by_cases hqk : q ∈ ids t.2
      · have : q ∉ ids (W.subst p fun _ _ => single (e, .nil)) := by
          rw [h2]
          have := hL q (by simp [hqk])
          simp only [List.mem_append, not_or, ids_single, ids, List.mem_cons, List.not_mem_nil,
            he, hpi] at this ⊢
          exact ⟨this.1, ⟨hqp, fun h => h⟩, this.2⟩
        rw [node_none this]
        simp only [node, find_in hn hp (by simp [hqk] : q ∈ ids (single t)),
          find_single_ne (show t.1.id ≠ q from fun h => hqp (h.symm.trans hpi))]; rfl
      · rw [node_none hqk, Option.or_none, h4 q (by simp [ids, he, hpi, hqp])
          (by simp [hpi, hqp, hqk])]
        simp only [roots_single, he, hpi, splice_self]
        cases node W q <;> rfl

end Verif.Lxml
