import Verif.Proofs.Lxml
import Verif.Proofs.Py
/-! Specification of moving nodes (children, ancestors, content) and helper lemmas for C57. -/
namespace Verif.Lxml
open Verif Forest
set_option linter.unusedSimpArgs false

/-! ## Specification -/

/-- Tag, attributes, text and tail of a node. -/
def content (W : World) (i : Nat) : Option Elem := (W.find i).map fun t => t.1

/-- The ordered children of a node. -/
def children (W : World) (i : Nat) : Option (List Nat) :=
  (W.find i).map fun t => t.2.toList.map fun u => u.1.id

/-- The nodes without parent. -/
def tops (W : World) : List Nat := W.toList.map fun u => u.1.id

/-- `a` is `d` or an ancestor of `d`. -/
inductive Below (W : World) (a : Nat) : Nat → Prop
  | self : Below W a a
  | step {q d : Nat} {l : List Nat} : Below W a q → children W q = some l → d ∈ l → Below W a d

/-- A list without `c`. -/
def less (c : Nat) (l : List Nat) : List Nat := l.filter (· ≠ c)

/-- Every node of `W` is in `W'` exactly once and with unchanged content, and nothing else is. -/
structure Same (W W' : World) : Prop where
  once : (ids W').Nodup
  all : ∀ i, i ∈ ids W' ↔ i ∈ ids W
  data : ∀ i, content W' i = content W i

/-- `c` has been moved: the children of `p` are now `l`, `c` is nowhere else, everything else is in
its old place. -/
structure Moved (W W' : World) (c p : Nat) (l : List Nat) : Prop extends Same W W' where
  there : children W' p = some l
  others : ∀ q, q ≠ p → children W' q = (children W q).map (less c)
  free : tops W' = less c (tops W)

/-! ## Conversions -/

theorem content_node (W : World) (i : Nat) : content W i = (node W i).map fun u => u.1 := by
  simp only [content, node, Option.map_map]; rfl

theorem children_node (W : World) (i : Nat) : children W i = (node W i).map fun u => u.2 := by
  simp only [children, node, Option.map_map]; rfl

theorem children_find {W : World} {i : Nat} {l : List Nat} (h : children W i = some l) :
    ∃ t, find i W = some t ∧ roots t.2 = l := by
  unfold children at h
  cases hf : W.find i with
  | none => simp [hf] at h
  | some t => simp only [hf, Option.map_some, Option.some.injEq] at h; exact ⟨t, rfl, h⟩

theorem children_some {W : World} {i : Nat} (h : i ∈ ids W) : ∃ l, children W i = some l := by
  obtain ⟨t, ht⟩ := find_some_of_mem h
  exact ⟨roots t.2, by simp [children, ht, roots]⟩

theorem children_nodup {W : World} (hn : (ids W).Nodup) {i : Nat} {l : List Nat}
    (h : children W i = some l) : l.Nodup := by
  obtain ⟨t, h1, h2⟩ := children_find h
  have := nodup_tree hn h1
  rw [← h2]
  exact (roots_sublist _).nodup (by simp at this; exact this.2)

theorem child_mem {W : World} {i : Nat} {l : List Nat} (h : children W i = some l) {c : Nat}
    (hc : c ∈ l) : c ∈ ids W := by
  obtain ⟨t, h1, h2⟩ := children_find h
  exact (find_sub h1).subset (by simp [roots_sub (h2 ▸ hc)])

theorem below_of_mem {W : World} {a : Nat} (F : Forest) (hF : ∀ x ∈ ids F, find x W = find x F)
    (hn : (ids F).Nodup) (hr : ∀ x ∈ roots F, Below W a x) : ∀ d ∈ ids F, Below W a d := by
  induction F with
  | nil => simp [ids]
  | cons e k r ihk ihr =>
    simp only [ids, List.nodup_cons, List.mem_append, not_or, List.nodup_append] at hn
    have he : Below W a e.id := hr _ (by simp)
    have hfe : find e.id W = some (e, k) := by rw [hF e.id (by simp [ids])]; simp [find]
    intro d hd
    simp only [ids, List.mem_cons, List.mem_append] at hd
    rcases hd with hd | hd | hd
    · rw [hd]; exact he
    · refine ihk ?_ hn.2.1 ?_ d hd
      · intro x hx
        rw [hF x (by simp [ids, hx]), find_cons_ne (fun h => hn.1.1 (h ▸ hx))]
        obtain ⟨u, hu⟩ := find_some_of_mem hx
        rw [hu]; rfl
      · intro x hx
        exact Below.step he (l := roots k) (by simp [children, hfe, roots]) hx
    · refine ihr ?_ hn.2.2.1 (fun x hx => hr x (by simp [hx])) d hd
      intro x hx
      rw [hF x (by simp [ids, hx]), find_cons_ne (fun h => hn.1.2 (h ▸ hx)),
        find_none.mpr (fun h => hn.2.2.2 _ h _ hx rfl)]; rfl

theorem below_iff {W : World} (hn : (ids W).Nodup) {a d : Nat} {t : Tree}
    (h : find a W = some t) : d ∈ ids (single t) ↔ Below W a d := by
  have ha := (find_mem_ids h).1
  constructor
  · intro hd
    refine below_of_mem (single t) (fun x hx => find_in hn h hx) (nodup_tree hn h) ?_ d hd
    intro x hx
    simp only [roots_single, ha, List.mem_singleton] at hx
    rw [hx]; exact .self
  · intro hb
    induction hb with
    | self => simp [ha]
    | step _ hq hd ih =>
      obtain ⟨u, h1, h2⟩ := children_find hq
      rw [find_in hn h ih] at h1
      exact (find_sub h1).subset (by simp [roots_sub (h2 ▸ hd)])

theorem getitem_eq {W : World} {p : Nat} {l : List Nat} (hp : children W p = some l) (i : Int) :
    getitem p i W = (W, match pyIdx l.length i with
      | some n => match l[n]? with
        | some s => .ok s
        | none => .error .IndexError
      | none => .error .IndexError) := by
  obtain ⟨t, h1, h2⟩ := children_find hp
  unfold getitem
  simp only [h1, h2]
  cases pyIdx l.length i with
  | none => rfl
  | some n => cases h : l[n]? <;> simp [h]

theorem pyIdx_lt {len : Nat} {i : Int} {n : Nat} (h : pyIdx len i = some n) : n < len := by
  unfold pyIdx at h
  split at h
  · split at h
    · simp at h; omega
    · simp at h
  · split at h
    · simp at h; omega
    · simp at h

theorem getitem_ok {W : World} {p : Nat} {l : List Nat} (hp : children W p = some l) {i : Int}
    {n : Nat} (hi : pyIdx l.length i = some n) :
    ∃ h : n < l.length, getitem p i W = (W, .ok (l[n])) := by
  refine ⟨pyIdx_lt hi, ?_⟩
  rw [getitem_eq hp, hi]
  simp [List.getElem?_eq_getElem (pyIdx_lt hi)]

theorem getitem_err {W : World} {p : Nat} {l : List Nat} (hp : children W p = some l) {i : Int}
    (hi : pyIdx l.length i = none) : getitem p i W = (W, .error .IndexError) := by
  rw [getitem_eq hp, hi]

theorem splice_at {l : List Nat} (hn : l.Nodup) {n : Nat} (h : n < l.length) {c : Nat} (g : List Nat)
    (hc : l[n] ≠ c) : splice l[n] g (without c l) =
      less c (l.take n) ++ (g ++ less c (l.drop (n + 1))) := by
  have e : l = l.take n ++ l[n] :: l.drop (n + 1) := by simp
  have hn2 := hn
  rw [e] at hn2
  simp only [List.nodup_append, List.nodup_cons, List.mem_cons] at hn2
  have h1 : l[n] ∉ less c (l.take n) := fun h' =>
    hn2.2.2 _ (List.mem_filter.mp h').1 _ (Or.inl rfl) rfl
  have h2 : l[n] ∉ less c (l.drop (n + 1)) := fun h' => hn2.2.1.1 (List.mem_filter.mp h').1
  have e2 : without c l = less c (l.take n) ++ l[n] :: less c (l.drop (n + 1)) := by
    conv_lhs => rw [e]
    have hd : decide (l[n] ≠ c) = true := by simp [hc]
    simp only [without, less, List.filter_append, List.filter_cons, hd, if_true]
  rw [e2, splice_append, splice_cons_self, splice_not_mem _ h1, splice_not_mem _ h2]

theorem less_drop {l : List Nat} {n : Nat} (h : n < l.length) {c : Nat} (hc : l[n] ≠ c) :
    less c (l.drop n) = l[n] :: less c (l.drop (n + 1)) := by
  have hd : decide (l[n] ≠ c) = true := by simp [hc]
  rw [List.drop_eq_getElem_cons h]
  simp only [less, List.filter_cons, hd, if_true]

theorem less_drop_self {l : List Nat} (hn : l.Nodup) {n : Nat} (h : n < l.length) {c : Nat}
    (hc : l[n] = c) : less c (l.take n) ++ c :: less c (l.drop n) = l := by
  have e : l = l.take n ++ l[n] :: l.drop (n + 1) := by simp
  have hn2 := hn
  rw [e] at hn2
  simp only [List.nodup_append, List.nodup_cons, List.mem_cons] at hn2
  have h1 : less c (l.take n) = l.take n := by
    apply without_not_mem
    exact fun h' => hn2.2.2 _ h' _ (Or.inl hc.symm) rfl
  have h2 : less c (l.drop n) = l.drop (n + 1) := by
    rw [List.drop_eq_getElem_cons h]
    simp only [less, hc, ne_eq, not_true_eq_false, decide_false, Bool.false_eq_true,
      not_false_eq_true, List.filter_cons_of_neg]
    apply without_not_mem
    exact fun h' => hn2.2.1.1 (hc ▸ h')
  rw [h1, h2, ← hc]; exact e.symm

theorem Same.of {W W' : World} (hn : (ids W).Nodup) (hp : (ids W').Perm (ids W))
    (hd : ∀ i, content W' i = content W i) : Same W W' :=
  ⟨hp.nodup_iff.mpr hn, fun _ => hp.mem_iff, hd⟩

theorem Same.refl {W : World} (hn : (ids W).Nodup) : Same W W := .of hn (.refl _) fun _ => rfl

theorem Moved.of {W W' : World} {c p : Nat} {l : List Nat} (hn : (ids W).Nodup)
    (hp : (ids W').Perm (ids W)) (f : Nat → List Nat → List Nat)
    (hnode : ∀ q, node W' q = (node W q).map fun u => (u.1, f q u.2))
    (hl : (children W p).map (f p) = some l)
    (ho : ∀ q ≠ p, ∀ l, children W q = some l → f q l = less c l)
    (hr : roots W' = less c (roots W)) : Moved W W' c p l := by
  refine ⟨.of hn hp ?_, ?_, ?_, hr⟩
  · intro i
    rw [content_node, content_node, hnode, Option.map_map]; rfl
  · rw [children_node, hnode, Option.map_map, ← hl, children_node, Option.map_map]; rfl
  · intro q hq
    have h := ho q hq
    rw [children_node] at h
    rw [children_node, hnode, Option.map_map, children_node, Option.map_map]
    cases hw : node W q with
    | none => rfl
    | some u =>
      rw [hw] at h
      simp [h u.2 rfl]

theorem insertIdx_take_drop (l : List Nat) (n : Nat) (c : Nat) (h : n ≤ l.length) :
    l.insertIdx n c = l.take n ++ c :: l.drop n := by
  induction l generalizing n with
  | nil => simp at h; subst h; rfl
  | cons a l ih =>
    cases n with
    | zero => rfl
    | succ n => simp [List.insertIdx_succ_cons, ih n (by simpa using h)]

theorem less_eraseIdx {l : List Nat} (hn : l.Nodup) {n : Nat} (h : n < l.length) :
    less l[n] l = l.eraseIdx n := by
  induction l generalizing n with
  | nil => simp at h
  | cons a l ih =>
    simp only [List.nodup_cons] at hn
    cases n with
    | zero =>
      simp only [List.getElem_cons_zero, List.eraseIdx_zero, List.tail_cons]
      rw [less, List.filter_cons_of_neg (by simp)]
      exact without_not_mem hn.1
    | succ n =>
      have hlt : n < l.length := by simpa using h
      have hne : a ≠ l[n] := fun h' => hn.1 (h' ▸ List.getElem_mem hlt)
      simp only [List.getElem_cons_succ, List.eraseIdx_cons_succ]
      rw [less, List.filter_cons_of_pos (by simp [hne])]
      congr 1
      exact ih hn.2 hlt

end Verif.Lxml
