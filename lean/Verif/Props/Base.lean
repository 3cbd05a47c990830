import Verif.Proofs.Base
import Verif.Model.Base
/-! # C57: wrapped elements behave like lists of their children

The specification (`children`, `content`, `tops`, `Below`, `Same`, `Moved`) is in Proofs/Base.lean. -/
namespace Verif.Base
open Verif Verif.Lxml Forest
set_option linter.unusedSimpArgs false

/-! ## The operations -/

/-- `len`, iteration: the number of children and the children in order. -/
theorem C57_len {W : World} {p : Nat} {l : List Nat} (hp : children W p = some l) :
    len p W = (W, .ok l.length) ∧ iter p W = (W, .ok l) := by
  obtain ⟨t, h1, h2⟩ := children_find hp
  refine ⟨?_, by simp only [iter, h1, h2]⟩
  simp only [len, h1, ← h2, length_roots]

/-- `p[i]` is the list access of Python, negative indices included. -/
theorem C57_get {W : World} {p : Nat} {l : List Nat} (hp : children W p = some l) (i : Int) :
    getChild p i W = (W,
      if h : 0 ≤ i ∧ i < l.length then .ok (l[i.toNat]'(by omega))
      else if h : i < 0 ∧ -(l.length : Int) ≤ i then .ok (l[(i + l.length).toNat]'(by omega))
      else .error .IndexError) := by
  unfold getChild
  by_cases h1 : 0 ≤ i ∧ i < l.length
  · have hi : pyIdx l.length i = some i.toNat := by
      simp only [pyIdx, if_pos h1.1]; rw [if_pos (by omega)]
    obtain ⟨h, e⟩ := getitem_ok hp hi
    rw [e]; simp [h1]
  · by_cases h2 : i < 0 ∧ -(l.length : Int) ≤ i
    · have hi : pyIdx l.length i = some (i + l.length).toNat := by
        simp only [pyIdx, if_neg (show ¬ 0 ≤ i by omega)]; rw [if_pos (by omega)]
      obtain ⟨h, e⟩ := getitem_ok hp hi
      rw [e, dif_neg h1, dif_pos h2]
    · have hi : pyIdx l.length i = none := by
        simp only [pyIdx]; split
        · rw [if_neg (by omega)]
        · rw [if_neg (by omega)]
      rw [getitem_err hp hi]; simp [h1, h2]

/-- `index` is the position of a child; other nodes are refused. -/
theorem C57_index {W : World} {p : Nat} {l : List Nat} (hp : children W p = some l) (c : Nat) :
    index p c W = (W, if c ∈ l then .ok (l.idxOf c) else .error .ValueError) := by
  obtain ⟨t, h1, h2⟩ := children_find hp
  unfold index Lxml.index
  simp only [h1, h2]
  split <;> rfl

/-- `append` moves the element to the end of the children. -/
theorem C57_append {W : World} (hn : (ids W).Nodup) {p c : Nat} {l : List Nat}
    (hp : children W p = some l) (hc : c ∈ ids W) (hno : ¬ Below W c p) :
    ∃ W', append p c W = (W', .ok c) ∧ Moved W W' c p (less c l ++ [c]) := by
  obtain ⟨pt, h1, h2⟩ := children_find hp
  obtain ⟨t, ht⟩ := find_some_of_mem hc
  obtain ⟨W', a1, a2, a3, a4⟩ := append_all hn h1 ht (fun h => hno ((below_iff hn ht).mp h))
  refine ⟨W', ?_, ?_⟩
  · unfold append; rw [Py.bind_ok a1]; rfl
  · refine Moved.of hn a2 (fun q m => if q = p then less c m ++ [c] else less c m) a4 ?_ ?_ a3
    · rw [hp]; simp
    · intro q hq m _; simp [hq]

theorem insert_lemma {W : World} (hn : (ids W).Nodup) {p c : Nat} {l : List Nat} {i : Int}
    (hp : children W p = some l) (hc : c ∈ ids W) (hno : ¬ Below W c p) :
    ∃ W', Lxml.insert p i c W = (W', .ok ()) ∧
      Moved W W' c p (match pyIdx l.length i with
        | some n => less c (l.take n) ++ c :: less c (l.drop n)
        | none => less c l ++ [c]) := by
  obtain ⟨pt, h1, h2⟩ := children_find hp
  obtain ⟨t, ht⟩ := find_some_of_mem hc
  have hno' : p ∉ ids (single t) := fun h => hno ((below_iff hn ht).mp h)
  have hl := children_nodup hn hp
  unfold Lxml.insert
  cases hi : pyIdx l.length i with
  | none =>
    rw [getitem_err hp hi]
    obtain ⟨W', a1, a2⟩ := C57_append hn hp hc hno
    unfold append at a1
    cases ha : Lxml.append p c W with
    | mk W2 r =>
      rw [Py.bind_def, ha] at a1
      cases r with
      | error e => simp at a1
      | ok u =>
        simp only [Py.pure_def, Prod.mk.injEq] at a1
        exact ⟨W2, by simp [ha], a1.1 ▸ a2⟩
  | some n =>
    obtain ⟨hlt, hg⟩ := getitem_ok hp hi
    rw [hg]
    simp only [ht, show inTree t p = false by simpa [inTree] using hno', Bool.false_eq_true,
      if_false]
    by_cases hs : l[n] = c
    · rw [if_pos hs]
      refine ⟨W, rfl, ?_⟩
      have hmem : c ∈ l := hs ▸ List.getElem_mem hlt
      refine Moved.of hn (.refl _) (fun _ m => m) (fun q => by cases node W q <;> rfl) ?_ ?_ ?_
      · rw [hp]; simp [less_drop_self hl hlt hs]
      · intro q hq m hm
        refine (without_not_mem fun h' => hq ?_).symm
        obtain ⟨u, u1, u2⟩ := children_find hm
        exact (parent_unique hn h1 u1 (h2 ▸ hmem) (u2 ▸ h')).symm
      · exact (without_not_mem (child_not_root hn h1 (roots_sub (h2 ▸ hmem)))).symm
    · rw [if_neg hs]
      have hsl : l[n] ∈ roots pt.2 := h2 ▸ List.getElem_mem hlt
      have hsm : l[n] ∈ ids W := child_mem hp (List.getElem_mem hlt)
      obtain ⟨st, hst⟩ := find_some_of_mem hsm
      have hso := child_out hn h1 ht hno' hsl hs
      obtain ⟨b1, b2, b3⟩ := before_all hn ht hst hso
      refine ⟨_, rfl, ?_⟩
      refine Moved.of hn b1 (fun _ m => splice l[n] [c, l[n]] (without c m)) b3 ?_ ?_ ?_
      · rw [hp]
        simp only [Option.map_some, Option.some.injEq]
        rw [splice_at hl hlt _ hs, less_drop hlt hs]; rfl
      · intro q hq m hm
        obtain ⟨u, u1, u2⟩ := children_find hm
        refine splice_not_mem _ fun h' => hq ?_
        exact (parent_unique hn h1 u1 hsl (u2 ▸ (List.mem_filter.mp h').1)).symm
      · rw [b2]
        refine splice_not_mem _ fun h' => ?_
        exact child_not_root hn h1 (roots_sub hsl) (List.mem_filter.mp h').1

/-- `insert(i, c)` of an element that is not among the children is the `insert` of Python lists,
for positions not before the start of the list: `0 ≤ i`, or counted from the end down to `-len`.
Other indices: `C57_insert_refuted`. -/
theorem C57_insert_partial {W : World} (hn : (ids W).Nodup) {p c : Nat} {l : List Nat} {i : Int}
    (hp : children W p = some l) (hc : c ∈ ids W) (hno : ¬ Below W c p) (hl : c ∉ l)
    (hi : -(l.length : Int) ≤ i) :
    ∃ W', insert p i c W = (W', .ok c) ∧
      Moved W W' c p (l.insertIdx (pyInsertPos l.length i) c) := by
  obtain ⟨W', h1, h2⟩ := insert_lemma (i := i) hn hp hc hno
  refine ⟨W', by unfold insert; rw [Py.bind_ok h1]; rfl, ?_⟩
  have hless : ∀ m : List Nat, c ∉ m → less c m = m := fun m hm => without_not_mem hm
  have hins : ∀ n, n ≤ l.length → l.insertIdx n c = l.take n ++ c :: l.drop n := by
    intro n hn
    exact insertIdx_take_drop l n c hn
  convert h2 using 1
  cases hx : pyIdx l.length i with
  | some n =>
    have : pyInsertPos l.length i = n := by
      unfold pyIdx at hx; unfold pyInsertPos
      split at hx
      · rename_i h0
        rw [if_pos h0]
        split at hx
        · simp at hx; omega
        · simp at hx
      · rename_i h0
        rw [if_neg h0]
        split at hx
        · simp at hx; omega
        · simp at hx
    have hlt := pyIdx_lt hx
    rw [this, hins n (by omega)]
    simp only
    rw [hless _ fun h => hl (List.mem_of_mem_take h), hless _ fun h => hl (List.mem_of_mem_drop h)]
  | none =>
    have : pyInsertPos l.length i = l.length := by
      unfold pyIdx at hx; unfold pyInsertPos
      split at hx
      · rename_i h0
        rw [if_pos h0]
        split at hx
        · simp at hx
        · omega
      · split at hx
        · simp at hx
        · omega
    rw [this, hins _ (Nat.le_refl _)]
    simp [hless _ hl]

/-- `insert` of a child of the node itself: it ends directly before the child that was at the
index. -/
theorem C57_insert_own {W : World} (hn : (ids W).Nodup) {p c : Nat} {l : List Nat} {n : Nat}
    (hp : children W p = some l) (hc : c ∈ l) (h : n < l.length) :
    ∃ W', insert p n c W = (W', .ok c) ∧
      Moved W W' c p (less c (l.take n) ++ c :: less c (l.drop n)) := by
  have hno : ¬ Below W c p := by
    obtain ⟨pt, p1, p2⟩ := children_find hp
    obtain ⟨t, ht⟩ := find_some_of_mem (child_mem hp hc)
    intro hb
    have hm := (below_iff hn ht).mpr hb
    rw [Lxml.find_in hn ht hm] at p1
    have hci := (find_mem_ids ht).1
    exact child_not_root (nodup_tree hn ht) p1 (roots_sub (p2 ▸ hc)) (by simp [hci])
  obtain ⟨W', h1, h2⟩ := insert_lemma (i := n) hn hp (child_mem hp hc) hno
  refine ⟨W', by unfold insert; rw [Py.bind_ok h1]; rfl, ?_⟩
  have : pyIdx l.length n = some n := by
    simp only [pyIdx]; rw [if_pos (by omega), if_pos (by simpa using h)]; rfl
  rw [this] at h2
  exact h2

/-- Out of range on the left, `insert` does not act as the `insert` of Python lists: it appends. -/
theorem C57_insert_refuted : ¬ ∀ (W : World) (p c : Nat) (l : List Nat) (i : Int),
    (ids W).Nodup → children W p = some l → c ∈ ids W → ¬ Below W c p → c ∉ l →
    children (insert p i c W).1 p = some (l.insertIdx (pyInsertPos l.length i) c) := by
  intro h
  have hn : (ids (.cons ⟨0, "text:p", [], none, none⟩ (.cons ⟨1, "text:s", [], none, none⟩ .nil .nil)
      (.cons ⟨2, "text:tab", [], none, none⟩ .nil .nil) : World)).Nodup := by decide
  have := h _ 0 2 [1] (-2) hn (by decide) (by decide)
    (fun hb => absurd ((below_iff hn (t := (⟨2, "text:tab", [], none, none⟩, .nil)) rfl).mpr hb)
      (by decide)) (by decide)
  exact absurd this (by decide)

theorem below_child {W : World} (hn : (ids W).Nodup) {p c : Nat} {l : List Nat}
    (hp : children W p = some l) (hc : c ∈ l) : ¬ Below W c p := by
  obtain ⟨pt, p1, p2⟩ := children_find hp
  obtain ⟨t, ht⟩ := find_some_of_mem (child_mem hp hc)
  intro hb
  have hm := (below_iff hn ht).mpr hb
  rw [Lxml.find_in hn ht hm] at p1
  have hci := (find_mem_ids ht).1
  exact child_not_root (nodup_tree hn ht) p1 (roots_sub (p2 ▸ hc)) (by simp [hci])

/-- `insert_before`: the element ends directly before the target. -/
theorem C57_insert_before {W : World} (hn : (ids W).Nodup) {p c s : Nat} {A B : List Nat}
    (hp : children W p = some (A ++ s :: B)) (hc : c ∈ ids W) (hno : ¬ Below W c p) (hs : s ≠ c) :
    ∃ W', insertBefore p s c W = (W', .ok c) ∧
      Moved W W' c p (less c A ++ c :: s :: less c B) := by
  have hl := children_nodup hn hp
  have hA : s ∉ A := by
    simp only [List.nodup_append, List.mem_cons] at hl
    exact fun h => hl.2.2 s h s (Or.inl rfl) rfl
  have hidx : (A ++ s :: B).idxOf s = A.length := by
    rw [List.idxOf_append, if_neg hA]; simp
  have h0 := C57_index hp s
  simp only [List.mem_append, List.mem_cons, true_or, or_true, if_true, hidx] at h0
  obtain ⟨W', h1, h2⟩ := insert_lemma (i := (A.length : Int)) hn hp hc hno
  have hx : pyIdx (A ++ s :: B).length (A.length : Int) = some A.length := by
    simp only [pyIdx]
    rw [if_pos (by omega), if_pos (by simp)]; rfl
  rw [hx] at h2
  refine ⟨W', ?_, ?_⟩
  · unfold insertBefore
    rw [Py.bind_ok h0]
    have h3 : insert p (A.length : Int) c W = (W', .ok c) := by
      unfold insert; rw [Py.bind_ok h1]; rfl
    rw [Py.bind_ok h3]; rfl
  · convert h2 using 1
    have hd : decide (s ≠ c) = true := by simp [hs]
    simp only [List.take_left', List.drop_left', less, List.filter_cons, hd, if_true]

/-- An element inserted before itself stays where it is. -/
theorem C57_insert_before_self {W : World} (hn : (ids W).Nodup) {p c : Nat} {l : List Nat}
    (hp : children W p = some l) (hc : c ∈ l) : insertBefore p c c W = (W, .ok c) := by
  have h0 := C57_index hp c
  rw [if_pos hc] at h0
  unfold insertBefore
  rw [Py.bind_ok h0]
  have hlt : l.idxOf c < l.length := List.idxOf_lt_length_iff.mpr hc
  have hx : pyIdx l.length ((l.idxOf c : Nat) : Int) = some (l.idxOf c) := by
    simp only [pyIdx]; rw [if_pos (by omega), if_pos (by simpa using hlt)]; rfl
  obtain ⟨h1, h2⟩ := getitem_ok hp hx
  have hg : l[l.idxOf c] = c := List.getElem_idxOf h1
  have hb := below_child hn hp hc
  obtain ⟨t, ht⟩ := find_some_of_mem (child_mem hp hc)
  have hi : inTree t p = false := by
    have := fun h => hb ((below_iff hn ht).mp h)
    simpa [inTree] using this
  have h3 : Lxml.insert p ((l.idxOf c : Nat) : Int) c W = (W, .ok ()) := by
    unfold Lxml.insert
    rw [h2]
    simp [ht, hi, hg]
  have h4 : insert p ((l.idxOf c : Nat) : Int) c W = (W, .ok c) := by
    unfold insert; rw [Py.bind_ok h3]; rfl
  rw [Py.bind_ok h4]; rfl

/-- `old` has been replaced by `c`: as `Moved`, and `old` is now a root of its own. -/
structure Replaced (W W' : World) (old c p : Nat) (l : List Nat) : Prop extends Same W W' where
  there : children W' p = some l
  others : ∀ q, q ≠ p → children W' q = (children W q).map (less c)
  free : tops W' = less c (tops W) ++ [old]

theorem replace_lemma {W : World} (hn : (ids W).Nodup) {p c s : Nat} {A B : List Nat}
    (hp : children W p = some (A ++ s :: B)) (hc : c ∈ ids W) (hno : ¬ Below W c p) (hs : s ≠ c) :
    ∃ W', Lxml.replace p s c W = (W', .ok ()) ∧
      Replaced W W' s c p (less c A ++ c :: less c B) := by
  obtain ⟨pt, h1, h2⟩ := children_find hp
  obtain ⟨t, ht⟩ := find_some_of_mem hc
  have hno' : p ∉ ids (single t) := fun h => hno ((below_iff hn ht).mp h)
  have hl := children_nodup hn hp
  have hsl : s ∈ roots pt.2 := by rw [h2]; simp
  obtain ⟨st, hst⟩ := find_some_of_mem (child_mem hp (c := s) (by simp))
  have hso := child_out hn h1 ht hno' hsl hs
  obtain ⟨o, ho, b1, b2, b3⟩ := replace_all hn ht hst hso
  refine ⟨(detach c W).subst s (fun _ _ => single t) ++ single o, ?_, ?_⟩
  · unfold Lxml.replace
    simp only [h1, hst, ht]
    rw [if_neg (by simpa using hsl), if_neg (by simpa [inTree] using hno'), if_neg hs]
    simp only [ho]
  · have hnode : ∀ q, children ((detach c W).subst s (fun _ _ => single t) ++ single o) q = (children W q).map fun m => splice s [c] (without c m) := by
      intro q
      rw [children_node, b3, Option.map_map, children_node, Option.map_map]; rfl
    refine ⟨.of hn b1 ?_, ?_, ?_, ?_⟩
    · intro i; rw [content_node, content_node, b3, Option.map_map]; rfl
    · rw [hnode, hp]
      simp only [Option.map_some, Option.some.injEq]
      have := splice_at hl (n := A.length) (by simp) (c := c) [c] (by simpa using hs)
      simpa using this
    · intro q hq
      rw [hnode]
      cases hm : children W q with
      | none => rfl
      | some m =>
        simp only [Option.map_some, Option.some.injEq]
        obtain ⟨u, u1, u2⟩ := children_find hm
        refine splice_not_mem _ fun h' => hq ?_
        exact (parent_unique hn h1 u1 hsl (u2 ▸ (List.mem_filter.mp h').1)).symm
    · show roots _ = _
      rw [b2]
      congr 1
      refine splice_not_mem _ fun h' => ?_
      exact child_not_root hn h1 (roots_sub hsl) (List.mem_filter.mp h').1

/-- `replace`: the new element takes the place of the old one, which is detached with its
content. -/
theorem C57_replace {W : World} (hn : (ids W).Nodup) {p c s : Nat} {A B : List Nat}
    (hp : children W p = some (A ++ s :: B)) (hc : c ∈ ids W) (hno : ¬ Below W c p) (hs : s ≠ c) :
    ∃ W', replace p s c W = (W', .ok ()) ∧
      Replaced W W' s c p (less c A ++ c :: less c B) := replace_lemma hn hp hc hno hs

/-- `p[i] = c` replaces the child at index `i`, negative indices included. -/
theorem C57_set {W : World} (hn : (ids W).Nodup) {p c : Nat} {l : List Nat} {i : Int}
    (hp : children W p = some l) (hc : c ∈ ids W) (hno : ¬ Below W c p) :
    (∀ n (_ : pyIdx l.length i = some n) (h : n < l.length), l[n] ≠ c →
      ∃ W', setChild p i c W = (W', .ok ()) ∧
        Replaced W W' l[n] c p (less c (l.take n) ++ c :: less c (l.drop (n + 1)))) ∧
    (∀ n (_ : pyIdx l.length i = some n) (h : n < l.length), l[n] = c →
      setChild p i c W = (W, .ok ())) ∧
    (pyIdx l.length i = none → setChild p i c W = (W, .error .IndexError)) := by
  refine ⟨?_, ?_, ?_⟩
  · intro n hi h hs
    obtain ⟨_, hg⟩ := getitem_ok hp hi
    have e : l = l.take n ++ l[n] :: l.drop (n + 1) := by simp
    obtain ⟨W', r1, r2⟩ := replace_lemma hn (A := l.take n) (s := l[n]) (B := l.drop (n + 1))
      (by rw [← e]; exact hp) hc hno hs
    exact ⟨W', by unfold setChild; rw [Py.bind_ok hg]; exact r1, r2⟩
  · intro n hi h hs
    obtain ⟨_, hg⟩ := getitem_ok hp hi
    unfold setChild
    rw [Py.bind_ok hg]
    obtain ⟨pt, h1, h2⟩ := children_find hp
    obtain ⟨t, ht⟩ := find_some_of_mem hc
    have hno' : p ∉ ids (single t) := fun h => hno ((below_iff hn ht).mp h)
    unfold Lxml.replace
    rw [hs]
    simp only [h1, ht]
    rw [if_neg (by rw [h2]; simp [← hs]), if_neg (by simpa [inTree] using hno'), if_pos trivial]
  · intro hi
    unfold setChild
    rw [Py.bind_error (getitem_err hp hi)]

/-- `c` has been taken out of the children of `p` and is now a root of its own. -/
structure Removed (W W' : World) (c : Nat) : Prop where
  once : (ids W').Nodup
  all : ∀ i, i ∈ ids W' ↔ i ∈ ids W
  others : ∀ q, children W' q = (children W q).map (less c)
  free : tops W' = less c (tops W) ++ [c]

theorem removed_of {W : World} (hn : (ids W).Nodup) {c : Nat} {t : Tree}
    (ht : Forest.find c W = some t)
    (e : Elem) (he : e.id = t.1.id) : Removed W (detach c W ++ single (e, t.2)) c := by
  obtain ⟨b1, b2, b3⟩ := remove_all hn ht e he
  refine ⟨b1.nodup_iff.mpr hn, fun _ => b1.mem_iff, ?_, b2⟩
  intro q
  rw [children_node, b3, Option.map_map, children_node, Option.map_map]; rfl

/-- `remove`: the child leaves, keeping its content and its own children. -/
theorem C57_remove {W : World} (hn : (ids W).Nodup) {p c : Nat} {l : List Nat}
    (hp : children W p = some l) (hc : c ∈ ids W) :
    (c ∈ l → ∃ W', remove p c W = (W', .ok ()) ∧ Removed W W' c ∧
      ∀ i, content W' i = content W i) ∧
    (c ∉ l → remove p c W = (W, .error .ValueError)) := by
  obtain ⟨pt, h1, h2⟩ := children_find hp
  obtain ⟨t, ht⟩ := find_some_of_mem hc
  unfold remove Lxml.remove
  simp only [h1, ht, h2]
  refine ⟨fun h => ?_, fun h => by rw [if_neg h]⟩
  rw [if_pos h]
  refine ⟨_, rfl, removed_of hn ht t.1 rfl, ?_⟩
  intro i
  obtain ⟨-, -, b3⟩ := remove_all hn ht t.1 rfl
  have := b3 i
  rw [content_node, content_node]
  show (node (detach c W ++ single (t.1, t.2)) i).map _ = _
  rw [this, Option.map_map]
  by_cases hic : i = c
  · subst hic
    rw [node_of_find ht]; simp
  · simp only [if_neg hic]; rfl

/-- `del p[i]`: the child at the index leaves (negative indices included), without its tail. -/
theorem C57_delete {W : World} (hn : (ids W).Nodup) {p : Nat} {l : List Nat} {i : Int}
    (hp : children W p = some l) :
    (∀ n (_ : pyIdx l.length i = some n) (h : n < l.length),
      ∃ W', delChild p i W = (W', .ok ()) ∧ children W' p = some (l.eraseIdx n) ∧
        Removed W W' l[n] ∧
        (∀ j ≠ l[n], content W' j = content W j) ∧
        content W' l[n] = (content W l[n]).map fun e => { e with tail := none }) ∧
    (pyIdx l.length i = none → delChild p i W = (W, .error .IndexError)) := by
  refine ⟨?_, ?_⟩
  · intro n hi h
    obtain ⟨_, hg⟩ := getitem_ok hp hi
    have hm := List.getElem_mem h
    obtain ⟨t, ht⟩ := find_some_of_mem (child_mem hp hm)
    have hr := removed_of hn ht { t.1 with tail := none } rfl
    obtain ⟨-, -, b3⟩ := remove_all hn ht { t.1 with tail := none } rfl
    refine ⟨detach l[n] W ++ single ({ t.1 with tail := none }, t.2), ?_, ?_, hr, ?_, ?_⟩
    · unfold delChild delitem
      rw [hg]
      simp only [ht]
    · rw [hr.others, hp]
      simp only [Option.map_some, Option.some.injEq]
      exact less_eraseIdx (children_nodup hn hp) h
    · intro j hj
      rw [content_node, content_node, b3, Option.map_map]
      simp only [if_neg hj]; rfl
    · rw [content_node, content_node, b3, Option.map_map, Option.map_map, node_of_find ht]
      simp
  · intro hi
    unfold delChild delitem
    rw [getitem_err hp hi]

/-- `clear` takes out all children and drops attributes, text and tail; the children are detached
with their content. -/
theorem C57_clear {W : World} (hn : (ids W).Nodup) {p : Nat} {l : List Nat}
    (hp : children W p = some l) :
    ∃ W', clear p W = (W', .ok ()) ∧ (ids W').Nodup ∧ (∀ i, i ∈ ids W' ↔ i ∈ ids W) ∧
      children W' p = some [] ∧ tops W' = tops W ++ l ∧
      (∀ q ≠ p, children W' q = children W q ∧ content W' q = content W q) ∧
      content W' p =
        (content W p).map fun e => { e with attrs := [], text := none, tail := none } := by
  obtain ⟨t, h1, h2⟩ := children_find hp
  obtain ⟨b1, b2, b3⟩ := clear_all hn h1 { t.1 with attrs := [], text := none, tail := none } rfl
  have hs : W.subst p (fun e _ => single ({ e with attrs := [], text := none, tail := none }, .nil))
      = W.subst p (fun _ _ => single ({ t.1 with attrs := [], text := none, tail := none }, .nil)) := by
    obtain ⟨c, -, c2⟩ := ctx_exists hn h1
    rw [c2, c2]
  refine ⟨W.subst p (fun _ _ => single ({ t.1 with attrs := [], text := none, tail := none }, .nil))
    ++ t.2, ?_, b1.nodup_iff.mpr hn, fun _ => b1.mem_iff, ?_, ?_, ?_, ?_⟩
  · unfold clear Lxml.clear
    simp only [h1, hs]
  · rw [children_node, b3, node_of_find h1]; simp
  · show roots _ = _
    rw [b2, h2]; rfl
  · intro q hq
    rw [children_node, content_node, b3, children_node, content_node, Option.map_map,
      Option.map_map]
    simp only [if_neg hq]
    exact ⟨rfl, rfl⟩
  · rw [content_node, content_node, b3, Option.map_map, Option.map_map, node_of_find h1]; simp

/-- A node cannot be put below itself: `ValueError`, and nothing changes. -/
theorem C57_cycle {W : World} (hn : (ids W).Nodup) {p c : Nat} {l : List Nat} {i : Int}
    (hp : children W p = some l) (hb : Below W c p) (hc : c ∈ ids W) :
    append p c W = (W, .error .ValueError) ∧ insert p i c W = (W, .error .ValueError) ∧
    (∀ s ∈ l, replace p s c W = (W, .error .ValueError)) := by
  obtain ⟨pt, h1, h2⟩ := children_find hp
  obtain ⟨t, ht⟩ := find_some_of_mem hc
  have hin : inTree t p = true := by simpa [inTree] using (below_iff hn ht).mpr hb
  have ha : Lxml.append p c W = (W, .error .ValueError) := by
    unfold Lxml.append; simp only [h1, ht, hin, if_true]
  refine ⟨by unfold append; rw [Py.bind_error ha], ?_, ?_⟩
  · have hi : Lxml.insert p i c W = (W, .error .ValueError) := by
      unfold Lxml.insert
      cases hx : pyIdx l.length i with
      | none => rw [getitem_err hp hx]; exact ha
      | some n =>
        obtain ⟨_, hg⟩ := getitem_ok hp hx
        rw [hg]; simp only [ht, hin, if_true]
    unfold insert; rw [Py.bind_error hi]
  · intro s hs
    obtain ⟨st, hst⟩ := find_some_of_mem (child_mem hp hs)
    unfold replace Lxml.replace
    simp only [h1, hst, ht, hin, if_true]
    rw [if_neg (by rw [h2]; simpa using hs)]

/-! ## Histories -/

inductive Op where
  | insert (p : Nat) (i : Int) (c : Nat)
  | set (p : Nat) (i : Int) (c : Nat)
  | del (p : Nat) (i : Int)
  | append (p c : Nat)
  | insertBefore (p target c : Nat)
  | remove (p c : Nat)
  | replace (p old new : Nat)
  | clear (p : Nat)
  deriving DecidableEq

/-- The world after an operation, whether it raised or not. -/
def step (W : World) : Op → World
  | .insert p i c => (insert p i c W).1
  | .set p i c => (setChild p i c W).1
  | .del p i => (delChild p i W).1
  | .append p c => (append p c W).1
  | .insertBefore p s c => (insertBefore p s c W).1
  | .remove p c => (remove p c W).1
  | .replace p s c => (replace p s c W).1
  | .clear p => (clear p W).1

theorem getitem_fst (p : Nat) (i : Int) (W : World) : (getitem p i W).1 = W := by
  unfold getitem
  split
  · rfl
  · split
    · rfl
    · split <;> rfl

theorem index_fst (p c : Nat) (W : World) : (Lxml.index p c W).1 = W := by
  unfold Lxml.index
  split
  · rfl
  · split <;> rfl

theorem append_perm {W : World} (hn : (ids W).Nodup) (p c : Nat) :
    (ids (Lxml.append p c W).1).Perm (ids W) := by
  cases hp : Forest.find p W with
  | none => unfold Lxml.append; simp only [hp]; exact .refl _
  | some pt =>
    cases hc : Forest.find c W with
    | none => unfold Lxml.append; simp only [hp, hc]; exact .refl _
    | some t =>
      by_cases h : p ∈ ids (single t)
      · have : inTree t p = true := by simpa [inTree] using h
        unfold Lxml.append; simp only [hp, hc, this, if_true]; exact .refl _
      · obtain ⟨W', h1, h2, -⟩ := append_all hn hp hc h
        rw [h1]; exact h2

theorem insert_perm {W : World} (hn : (ids W).Nodup) (p : Nat) (i : Int) (c : Nat) :
    (ids (Lxml.insert p i c W).1).Perm (ids W) := by
  cases hp : Forest.find p W with
  | none => unfold Lxml.insert getitem; simp only [hp]; exact .refl _
  | some pt =>
    have hch : children W p = some (roots pt.2) := by simp [children, hp, roots]
    cases hc : Forest.find c W with
    | none =>
      unfold Lxml.insert
      cases hx : pyIdx (roots pt.2).length i with
      | none => rw [getitem_err hch hx]; exact append_perm hn p c
      | some n =>
        obtain ⟨_, hg⟩ := getitem_ok hch hx
        rw [hg]; simp only [hc]; exact .refl _
    | some t =>
      by_cases hb : Below W c p
      · obtain ⟨-, h2, -⟩ := C57_cycle (i := i) hn hch hb (find_mem hc)
        unfold insert at h2
        cases hi : Lxml.insert p i c W with
        | mk W2 r =>
          rw [Py.bind_def, hi] at h2
          cases r with
          | error e => simp only [Prod.mk.injEq] at h2; rw [h2.1]
          | ok u => simp at h2
      · obtain ⟨W', h1, h2⟩ := insert_lemma (i := i) hn hch (find_mem hc) hb
        rw [h1]
        exact (List.perm_ext_iff_of_nodup h2.once hn).mpr h2.all

theorem replace_perm {W : World} (hn : (ids W).Nodup) (p s c : Nat) :
    (ids (Lxml.replace p s c W).1).Perm (ids W) := by
  cases hp : Forest.find p W with
  | none => unfold Lxml.replace; simp only [hp]; exact .refl _
  | some pt =>
    cases hs : Forest.find s W with
    | none => unfold Lxml.replace; simp only [hp, hs]; exact .refl _
    | some st =>
      cases hc : Forest.find c W with
      | none => unfold Lxml.replace; simp only [hp, hs, hc]; exact .refl _
      | some t =>
        by_cases hm : s ∈ roots pt.2
        · by_cases hb : p ∈ ids (single t)
          · have : inTree t p = true := by simpa [inTree] using hb
            unfold Lxml.replace; simp only [hp, hs, hc, this, if_true]
            rw [if_neg (by simpa using hm)]
          · by_cases hsc : s = c
            · unfold Lxml.replace; simp only [hp, hs, hc]
              rw [if_neg (by simpa using hm), if_neg (by simpa [inTree] using hb), if_pos hsc]
            · obtain ⟨o, ho, b1, -⟩ := replace_all hn hc hs (child_out hn hp hc hb hm hsc)
              unfold Lxml.replace; simp only [hp, hs, hc]
              rw [if_neg (by simpa using hm), if_neg (by simpa [inTree] using hb), if_neg hsc]
              simp only [ho]
              exact b1
        · unfold Lxml.replace; simp only [hp, hs, hc]; rw [if_pos (by simpa using hm)]

theorem step_perm {W : World} (hn : (ids W).Nodup) (o : Op) : (ids (step W o)).Perm (ids W) := by
  have hb : ∀ {α β : Type} (m : Py World α) (f : α → Py World β),
      (ids (m W).1).Perm (ids W) → (∀ a, (f a (m W).1).1 = (m W).1 ∨
        (ids (f a (m W).1).1).Perm (ids W)) → (ids ((m >>= f) W).1).Perm (ids W) := by
    intro α β m f h1 h2
    rw [Py.bind_def]
    cases hm : m W with
    | mk W' r =>
      rw [hm] at h1 h2
      cases r with
      | error e => exact h1
      | ok a =>
        rcases h2 a with h | h
        · simp only at h ⊢; rw [h]; exact h1
        · exact h
  cases o with
  | insert p i c =>
    exact hb _ _ (insert_perm hn p i c) fun _ => Or.inl rfl
  | set p i c =>
    refine hb _ _ (by rw [getitem_fst]) fun a => Or.inr ?_
    rw [getitem_fst]; exact replace_perm hn p a c
  | del p i =>
    show (ids (delitem p i W).1).Perm _
    unfold delitem
    cases hg : getitem p i W with
    | mk W' r =>
      cases r with
      | error e => exact .refl _
      | ok c =>
        cases hc : Forest.find c W with
        | none => simp only [hc]; exact .refl _
        | some t =>
          simp only [hc]
          exact (remove_all hn hc { t.1 with tail := none } rfl).1
  | append p c => exact hb _ _ (append_perm hn p c) fun _ => Or.inl rfl
  | insertBefore p s c =>
    refine hb _ _ (by show (ids (Lxml.index p s W).1).Perm _; rw [index_fst]) fun a => Or.inr ?_
    show (ids ((insert p (a : Int) c >>= fun _ => Pure.pure c) (Lxml.index p s W).1).1).Perm _
    rw [index_fst]
    refine hb _ _ ?_ fun _ => Or.inl rfl
    exact hb _ _ (insert_perm hn p a c) fun _ => Or.inl rfl
  | remove p c =>
    show (ids (Lxml.remove p c W).1).Perm _
    unfold Lxml.remove
    cases hp : Forest.find p W with
    | none => exact .refl _
    | some pt =>
      cases hc : Forest.find c W with
      | none => exact .refl _
      | some t =>
        simp only
        split
        · exact (remove_all hn hc t.1 rfl).1
        · exact .refl _
  | replace p s c => exact replace_perm hn p s c
  | clear p =>
    cases hp : Forest.find p W with
    | none =>
      show (ids (Lxml.clear p W).1).Perm _
      unfold Lxml.clear; simp only [hp]; exact .refl _
    | some t =>
      have hch : children W p = some (roots t.2) := by simp [children, hp, roots]
      obtain ⟨W', h1, h2, h3, -⟩ := C57_clear hn hch
      show (ids (clear p W).1).Perm _
      rw [h1]
      exact (List.perm_ext_iff_of_nodup h2 hn).mpr h3

/-- No history of operations, successful or not, loses or duplicates an element. -/
theorem C57_history {W : World} (hn : (ids W).Nodup) (h : List Op) :
    (ids (h.foldl step W)).Perm (ids W) ∧ (ids (h.foldl step W)).Nodup := by
  have : (ids (h.foldl step W)).Perm (ids W) := by
    induction h generalizing W with
    | nil => exact .refl _
    | cons o h ih =>
      have h1 := step_perm hn o
      exact (ih (h1.nodup_iff.mpr hn)).trans h1
  exact ⟨this, this.nodup_iff.mpr hn⟩

/-! ## The root -/

theorem parent_some {F : Forest} {i : Nat} (h : i ∈ ids F)
    (hn : (ids F).Nodup) (par : Option Nat) :
    (i ∈ roots F → parentIn i par F = par) ∧
    (i ∉ roots F → ∃ q v, Forest.find q F = some v ∧ i ∈ roots v.2 ∧ parentIn i par F = some q) := by
  induction F generalizing par with
  | nil => simp [ids] at h
  | cons e k r ihk ihr =>
    simp only [ids, List.nodup_cons, List.mem_append, not_or, List.nodup_append] at hn
    by_cases he : e.id = i
    · refine ⟨fun _ => by simp [parentIn, he], fun h' => absurd (by simp [he]) h'⟩
    · simp only [ids, List.mem_cons, List.mem_append] at h
      replace h := h.resolve_left fun h' => he h'.symm
      cases hk : Forest.find i k with
      | some w =>
        obtain ⟨k1, k2⟩ := ihk (find_mem hk) hn.2.1 (some e.id)
        have hpe : parentIn i par (.cons e k r) = parentIn i (some e.id) k := by
          simp [parentIn, he, hk]
        rw [hpe]
        have hir : i ∉ roots r := fun h' => hn.2.2.2 _ (find_mem hk) _ (roots_sub h') rfl
        refine ⟨fun h' => ?_, fun _ => ?_⟩
        · simp only [roots_cons, List.mem_cons] at h'
          rcases h' with h' | h'
          · exact absurd h'.symm he
          · exact absurd h' hir
        · by_cases hkr : i ∈ roots k
          · exact ⟨e.id, (e, k), by simp [Forest.find], hkr, k1 hkr⟩
          · obtain ⟨q, v, q1, q2, q3⟩ := k2 hkr
            have hne : e.id ≠ q := fun h' => hn.1.1 (h' ▸ find_mem q1)
            exact ⟨q, v, by rw [Lxml.find_cons_ne hne, q1]; rfl, q2, q3⟩
      | none =>
        replace h := h.resolve_left (find_none.mp hk)
        obtain ⟨r1, r2⟩ := ihr h hn.2.2.1 par
        have hpe : parentIn i par (.cons e k r) = parentIn i par r := by
          simp [parentIn, he, hk]
        rw [hpe]
        refine ⟨fun h' => ?_, fun h' => ?_⟩
        · simp only [roots_cons, List.mem_cons] at h'
          rcases h' with h' | h'
          · exact absurd h'.symm he
          · exact r1 h'
        · simp only [roots_cons, List.mem_cons, not_or] at h'
          obtain ⟨q, v, q1, q2, q3⟩ := r2 h'.2
          have hne : e.id ≠ q := fun h' => hn.1.2 (h' ▸ find_mem q1)
          have hkq : Forest.find q k = none :=
            find_none.mpr fun h' => hn.2.2.2 _ h' _ (find_mem q1) rfl
          exact ⟨q, v, by rw [Lxml.find_cons_ne hne, hkq, q1]; rfl, q2, q3⟩

/-- Size of the tree of a node. -/
theorem climb_root {W : World} (hn : (ids W).Nodup) :
    ∀ (n : Nat) (x : Nat) (u : Tree), Forest.find x W = some u →
      (ids W).length < n + (ids (single u)).length → climb n W x ∈ roots W ∧ Below W (climb n W x) x := by
  intro n
  induction n with
  | zero =>
    intro x u hu hlt
    have := (find_sub hu).length_le
    omega
  | succ n ih =>
    intro x u hu hlt
    obtain ⟨h1, h2⟩ := parent_some (find_mem hu) hn none
    by_cases hx : x ∈ roots W
    · simp only [climb, h1 hx]; exact ⟨hx, .self⟩
    · obtain ⟨q, v, q1, q2, q3⟩ := h2 hx
      simp only [climb, q3]
      have hxi := (find_mem_ids hu).1
      have hlen : (ids (single u)).length < (ids (single v)).length := by
        have hq : Forest.find x (single v) = some u := by
          rw [← hu]
          exact (Lxml.find_in hn q1 (by simp [roots_sub q2])).symm
        have hqi := (find_mem_ids q1).1
        have hnv := nodup_tree hn q1
        have hne : v.1.id ≠ x := by
          simp only [ids_single, List.nodup_cons] at hnv
          exact fun h' => hnv.1 (h' ▸ roots_sub q2)
        rw [find_single_ne hne] at hq
        have := (find_sub hq).length_le
        simp only [ids_single, List.length_cons] at this ⊢
        omega
      obtain ⟨i1, i2⟩ := ih q v q1 (by omega)
      exact ⟨i1, .step i2 (l := roots v.2) (by simp [children, q1, roots]) q2⟩

/-- `get_xmlroot` finds the node without parent above the given node. -/
theorem C57_root {W : World} (hn : (ids W).Nodup) {x : Nat} (hx : x ∈ ids W) :
    ∃ r, getXmlroot x W = (W, .ok r) ∧ r ∈ tops W ∧ Below W r x := by
  obtain ⟨u, hu⟩ := find_some_of_mem hx
  obtain ⟨h1, h2⟩ := climb_root hn (ids W).length x u hu (by simp)
  exact ⟨_, rfl, h1, h2⟩

/-! ## Examples -/

/-- A paragraph with three children, one of them with a child and a tail, and a detached node. -/
def exWorld : World :=
  .cons ⟨0, "text:p", [], some ['a'], none⟩
    (.cons ⟨1, "text:span", [], none, some ['x']⟩ (.cons ⟨2, "text:s", [], none, none⟩ .nil .nil)
      (.cons ⟨3, "text:tab", [], none, some ['y']⟩ .nil
        (.cons ⟨4, "text:s", [], none, none⟩ .nil .nil)))
    (.cons ⟨5, "text:line-break", [], none, some ['z']⟩ .nil .nil)

theorem exWorld_nodup : (ids exWorld).Nodup := by decide

theorem exWorld_below {c p : Nat} {t : Tree} (h : Forest.find c exWorld = some t)
    (h' : p ∉ ids (single t)) : ¬ Below exWorld c p :=
  fun hb => h' ((below_iff exWorld_nodup h).mpr hb)

example : children exWorld 0 = some [1, 3, 4] ∧ 5 ∈ ids exWorld ∧ ¬ Below exWorld 5 0 :=
  ⟨by decide, by decide, exWorld_below (t := (⟨5, "text:line-break", [], none, some ['z']⟩, .nil)) rfl
    (by decide)⟩
example : children (append 0 5 exWorld).1 0 = some [1, 3, 4, 5] := by decide
example : children (append 0 1 exWorld).1 0 = some [3, 4, 1] := by decide
example : children (append 0 2 exWorld).1 0 = some [1, 3, 4, 2] ∧
    children (append 0 2 exWorld).1 1 = some [] := by decide
example : (append 2 1 exWorld).2 = .error .ValueError := by decide
example : children (insert 0 (-1) 5 exWorld).1 0 = some [1, 3, 5, 4] := by decide
example : children (insert 0 2 1 exWorld).1 0 = some [3, 1, 4] := by decide
example : children (insertBefore 0 3 4 exWorld).1 0 = some [1, 4, 3] := by decide
example : children (setChild 0 (-2) 5 exWorld).1 0 = some [1, 5, 4] ∧
    content (setChild 0 (-2) 5 exWorld).1 3 = some ⟨3, "text:tab", [], none, some ['y']⟩ := by decide
example : children (replace 0 1 2 exWorld).1 0 = some [2, 3, 4] ∧
    children (replace 0 1 2 exWorld).1 1 = some [] := by decide
example : children (delChild 0 1 exWorld).1 0 = some [1, 4] ∧
    content (delChild 0 1 exWorld).1 3 = some ⟨3, "text:tab", [], none, none⟩ := by decide
example : (delChild 0 3 exWorld).2 = .error .IndexError := by decide
example : children (remove 0 3 exWorld).1 0 = some [1, 4] ∧
    content (remove 0 3 exWorld).1 3 = some ⟨3, "text:tab", [], none, some ['y']⟩ := by decide
example : (remove 0 2 exWorld).2 = .error .ValueError := by decide
example : (index 0 4 exWorld).2 = .ok 2 ∧ (getChild 0 (-1) exWorld).2 = .ok 4 := by decide
example : tops (clear 0 exWorld).1 = [0, 5, 1, 3, 4] := by decide
example : (getXmlroot 2 exWorld).2 = .ok 0 := by decide
example : tops ([Op.append 0 5, .set 1 0 4, .del 0 7].foldl step exWorld) = [0, 2] := by decide

end Verif.Base
