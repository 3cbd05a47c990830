import Verif.Props.TableWrite
import Verif.Props.Reopen
/-! Helper lemmas for C78: tables of a program. -/
namespace Verif.Tbl
open Verif Verif.Forest Verif.Cells Verif.TSpec
set_option linter.unusedSimpArgs false

/-! ## Opening a table takes new identities only -/

/-- What an expansion makes of a node has its identities and new ones. -/
def Grows (f : Expander) : Prop := ∀ n t F n', f n t = .ok (F, n') →
  n ≤ n' ∧ ∀ i ∈ ids F, i ∈ t.1.id :: ids t.2 ∨ (n ≤ i ∧ i < n')

theorem expandElement_ids {t : Tree} {count : Int} {n n' : Nat} {F : Forest}
    (h : expandElement t count n = (F, n')) : n ≤ n' ∧ ∀ i ∈ ids F, i ∈ t.1.id :: ids t.2 ∨ (n ≤ i ∧ i < n') := by
  unfold expandElement at h
  obtain ⟨C, h1, h2, -, h4, -⟩ := cloneLoop_spec t (count - 1).toNat n .nil
  simp only [Prod.mk.injEq] at h
  obtain ⟨rfl, rfl⟩ := h
  refine ⟨h2, fun i hi => ?_⟩
  rw [h1] at hi
  simp only [ids, ids_append, List.mem_cons, List.mem_append, List.append_nil] at hi
  rcases hi with rfl | hi | hi
  · left; simp
  · left; simp [hi]
  · exact .inr (h4 i hi)

theorem single_ids {t : Tree} {n : Nat} : n ≤ n ∧ ∀ i ∈ ids (Forest.single t), i ∈ t.1.id :: ids t.2 ∨ (n ≤ i ∧ i < n) :=
  ⟨Nat.le_refl _, fun i hi => .inl (by simpa [single, ids] using hi)⟩

theorem delCount_id {key : String} {e e' : Elem} (h : delCount key e = .ok e') : e'.id = e.id := by
  unfold delCount at h
  split at h
  · cases h
  · cases h; rfl

theorem expandAll_ids (key : String) : Grows (expandAll key) := by
  intro n t F n' h
  unfold expandAll at h
  split at h
  · cases h
  · split at h
    · split at h
      · cases h
      · rename_i e he
        have := expandElement_ids (Except.ok.inj h)
        rw [delCount_id he] at this
        exact this
    · cases h; exact single_ids

theorem expandLast_ids (key : String) : Grows (expandLast key) := by
  intro n t F n' h
  unfold expandLast at h
  split at h
  · cases h
  · split at h
    · split at h
      · cases h
      · rename_i e he
        cases h
        have := single_ids (t := (e, t.2)) (n := n)
        rw [delCount_id he] at this
        exact this
    · cases h; exact single_ids

theorem expandLess_ids (key : String) (mx : Int) : Grows (expandLess key mx) := by
  intro n t F n' h
  unfold expandLess at h
  split at h
  · cases h
  · split at h
    · split at h
      · cases h
      · rename_i e he
        have := expandElement_ids (Except.ok.inj h)
        rw [delCount_id he] at this
        exact this
    · split at h
      · split at h
        · cases h
        · rename_i e he
          cases h
          have := single_ids (t := (e, t.2)) (n := n)
          rw [delCount_id he] at this
          exact this
      · cases h; exact single_ids

theorem expandKids_ids {f : Expander} (hf : Grows f) : ∀ (n : Nat) (k F : Forest) (n' : Nat),
    expandKids f n k = .ok (F, n') → n ≤ n' ∧ ∀ i ∈ ids F, i ∈ ids k ∨ (n ≤ i ∧ i < n')
  | n, .nil, F, n', h => by cases h; exact ⟨Nat.le_refl _, fun i hi => .inl hi⟩
  | n, .cons e k r, F, n', h => by
    rw [expandKids] at h
    split at h
    · cases h
    · rename_i G n1 hg
      split at h
      · cases h
      · rename_i H n2 hh
        cases h
        obtain ⟨a1, a2⟩ := hf _ _ _ _ hg
        obtain ⟨b1, b2⟩ := expandKids_ids hf _ _ _ _ hh
        refine ⟨by omega, fun i hi => ?_⟩
        rw [ids_append, List.mem_append] at hi
        rcases hi with hi | hi
        · rcases a2 i hi with h | h
          · left; simp only [List.mem_cons] at h; simp only [ids, List.mem_cons, List.mem_append]; tauto
          · right; omega
        · rcases b2 i hi with h | h
          · left; simp [ids, h]
          · right; omega

theorem expandKidsLast_ids {f g : Expander} (hf : Grows f) (hg : Grows g) : ∀ (n : Nat) (k F : Forest) (n' : Nat),
    expandKidsLast f g n k = .ok (F, n') → n ≤ n' ∧ ∀ i ∈ ids F, i ∈ ids k ∨ (n ≤ i ∧ i < n')
  | n, .nil, F, n', h => by cases h; exact ⟨Nat.le_refl _, fun i hi => .inl hi⟩
  | n, .cons e k .nil, F, n', h => by
    rw [expandKidsLast] at h
    obtain ⟨a1, a2⟩ := hg _ _ _ _ h
    refine ⟨a1, fun i hi => ?_⟩
    rcases a2 i hi with h | h
    · left; simpa [ids] using h
    · exact .inr h
  | n, .cons e k (.cons e' k' r), F, n', h => by
    rw [expandKidsLast] at h
    split at h
    · cases h
    · rename_i G n1 hg1
      split at h
      · cases h
      · rename_i H n2 hh
        cases h
        obtain ⟨a1, a2⟩ := hf _ _ _ _ hg1
        obtain ⟨b1, b2⟩ := expandKidsLast_ids hf hg _ _ _ _ hh
        refine ⟨by omega, fun i hi => ?_⟩
        rw [ids_append, List.mem_append] at hi
        rcases hi with hi | hi
        · rcases a2 i hi with h | h
          · left; simp only [List.mem_cons] at h; rw [ids]; simp only [List.mem_cons, List.mem_append]; tauto
          · right; omega
        · rcases b2 i hi with h | h
          · left; rw [ids]; simp only [List.mem_cons, List.mem_append]; exact .inr (.inr h)
          · right; omega
    · intro h; cases h

theorem expandRowCells_grow (X : List Nat) (st : Strategy) (mx : Int) (r : Nat) : GrowP X (expandRowCells st mx r) := by
  intro s
  unfold expandRowCells
  split
  · exact .refl X s
  · rename_i t ht
    split
    · exact .refl X s
    · rename_i k' n he
      have h : s.fresh ≤ n ∧ ∀ i ∈ ids k', i ∈ ids t.2 ∨ (s.fresh ≤ i ∧ i < n) := by
        unfold expandCells at he
        cases st with
        | all => exact expandKids_ids (expandAll_ids _) _ _ _ _ he
        | allButLast => exact expandKidsLast_ids (expandAll_ids _) (expandLast_ids _) _ _ _ _ he
        | lessMax => exact expandKids_ids (expandLess_ids _ _) _ _ _ _ he
      refine ⟨h.1, rfl, fun i hi => ?_⟩
      rcases ids_subst hi with h1 | ⟨e, k, h1, h2⟩
      · exact .inl h1
      · simp only [ids, List.mem_cons, List.append_nil] at h2
        rcases h2 with rfl | h2
        · exact .inl (h1 _ (by simp))
        · rcases h.2 i h2 with h3 | h3
          · exact .inl (find_ids ht i (by simp [h3]))
          · exact .inr (.inl h3)

theorem expandNode_grow (X : List Nat) {f : Expander} (hf : Grows f) (r : Nat) : GrowP X (expandNode f r) := by
  intro s
  unfold expandNode
  split
  · exact .refl X s
  · rename_i t ht
    split
    · exact .refl X s
    · rename_i F n he
      obtain ⟨h1, h2⟩ := hf _ _ _ _ he
      refine ⟨h1, rfl, fun i hi => ?_⟩
      rcases ids_subst hi with h3 | ⟨e, k, h3, h4⟩
      · exact .inl h3
      · rcases h2 i h4 with h5 | h5
        · exact .inl (find_ids ht i h5)
        · exact .inr (.inl h5)

theorem forButLast_grow {X : List Nat} {f g : Nat → Py TState Unit} (hf : ∀ a, GrowP X (f a)) (hg : ∀ a, GrowP X (g a))
    (l : List Nat) : GrowP X (forButLast f g l) := by
  unfold forButLast
  refine growP_bind (growP_for _ fun a _ => hf a) fun _ => ?_
  cases l.getLast? with
  | none => exact growP_pure X ()
  | some x => exact hg x

theorem alignRow_grow (X : List Nat) (q : Int) (r : Nat) : GrowP X (alignRow q r) := by
  intro s
  unfold alignRow
  split
  · exact .refl X s
  · split
    · exact .refl X s
    · rename_i t ht count hc
      split
      · refine grow_subst rfl (by simp) rfl ?_
        intro e k i hi
        simp only [ids, ids_append, List.mem_cons, List.mem_append, List.append_nil, ids_newCells, List.mem_range'_1] at hi
        rcases hi with h | h | h
        · exact .inl (by simp [h])
        · exact .inl (by simp [h])
        · exact .inr (.inl h)
      · exact .refl X s

theorem load_grow (X : List Nat) (strategy : String) (mx : Int × Int) : GrowP X (load strategy mx) := by
  intro s
  unfold load
  split
  · exact .refl X s
  · split
    · exact .refl X s
    · rename_i st _
      have hnorm : GrowP X (normalizeTable st mx) := by
        refine growP_bind ?_ fun _ => ?_
        · intro s
          unfold normalizeRows
          cases st with
          | all => exact growP_for _ (fun r _ => growP_bind (expandRowCells_grow X _ _ r)
              fun _ => expandNode_grow X (expandAll_ids _) r) s
          | lessMax => exact growP_for _ (fun r _ => growP_bind (expandRowCells_grow X _ _ r)
              fun _ => expandNode_grow X (expandLess_ids _ _) r) s
          | allButLast =>
            exact growP_bind (growP_for _ fun r _ => expandRowCells_grow X _ _ r)
              (fun _ => forButLast_grow (fun r => expandNode_grow X (expandAll_ids _) r)
                (fun r => expandNode_grow X (expandLast_ids _) r) _) s
        · intro s
          unfold alignColumns
          split
          · exact .refl X s
          · split
            · exact growP_for _ (fun r _ => alignRow_grow X _ r) s
            · exact .refl X s
      have hcols : GrowP X (expandColumns st mx.2) := by
        intro s
        unfold expandColumns
        cases st with
        | all => exact growP_for _ (fun r _ => expandNode_grow X (expandAll_ids _) r) s
        | lessMax => exact growP_for _ (fun r _ => expandNode_grow X (expandLess_ids _ _) r) s
        | allButLast =>
          exact forButLast_grow (fun r => expandNode_grow X (expandAll_ids _) r)
              (fun r => expandNode_grow X (expandLast_ids _) r) _ s
      have h1 := hnorm s
      split
      · rename_i s1 x he
        rw [he] at h1; exact h1
      · rename_i s1 u he
        rw [he] at h1
        have h2 : Grow X s (updateRows s1) := ⟨h1.le, h1.who, h1.ids⟩
        have h3 := h2.trans (hcols (updateRows s1))
        split
        · rename_i s2 x he2
          rw [he2] at h3; exact h3
        · rename_i s2 u2 he2
          rw [he2] at h3
          exact ⟨h3.le, h3.who, h3.ids⟩

/-! ## Sound tables -/

theorem Life.sound' {s : TState} (h : Life s) : Sound s :=
  ⟨h.sound.1, h.sound.2.1, h.sound.2.2.1, h.sound.2.2.2⟩

theorem Sound.call {s : TState} (h : Sound s) (op : Op) (hf : Fine op s) (hok : (run op s).2 = .ok ())
    (hg : op.Given Once) : Sound (run op s).1 := by
  have hh : CleanHist s (run op s).1 := .call op hf hok hg (.refl _)
  exact ⟨hist_inv h.inv hh.ok.hist, expanded_of_once h.inv h.once h.expanded.rect hh, hh.once h.once,
    (run_grow op s).tag.trans h.tag⟩

theorem Sound.fresh {s : TState} (h : Sound s) {n : Nat} (hn : ∀ i ∈ ids s.kids, i < n) : Sound { s with fresh := n } :=
  ⟨⟨⟨h.inv.wf.nodup, hn, h.inv.wf.flat⟩, h.inv.rows, h.inv.cols⟩, ⟨h.expanded.rows, h.expanded.cols, h.expanded.rect⟩,
    h.once, h.tag⟩

/-! ### Calls on cells put no repetition counts in -/

/-- Elements with the same attributes are repeated equally. -/
theorem once_attrs {e e' : Elem} (h : e'.attrs = e.attrs) : Once e' ↔ Once e := by
  unfold Once repeatCount Elem.get
  rw [h]

theorem once_key {e e' : Elem} (h1 : e'.get rowRep = e.get rowRep) (h2 : e'.get colRep = e.get colRep) (h : Once e) :
    Once e' := by
  unfold Once repeatCount at *
  rw [h1, h2]; exact h

theorem once_set {e : Elem} (h : Once e) {k : String} (h1 : rowRep ≠ k) (h2 : colRep ≠ k) (v : Str) : Once (e.set k v) :=
  once_key (Attrs.get_set_ne _ v h1) (Attrs.get_set_ne _ v h2) h

theorem once_del {e : Elem} (h : Once e) {k : String} (h1 : rowRep ≠ k) (h2 : colRep ≠ k) : Once (e.del k) := by
  refine once_key ?_ ?_ h
  · rw [Elem.get_del, if_neg h1]
  · rw [Elem.get_del, if_neg h2]

/-- The call leaves no repetition counts when there were none. -/
def OnceP {α : Type} (m : Py Tree α) : Prop := ∀ t, Once t.1 → AllE Once t.2 → Once (m t).1.1 ∧ AllE Once (m t).1.2

theorem onceP_pure {α : Type} (a : α) : OnceP (pure a) := fun _ h h' => ⟨h, h'⟩
theorem onceP_raise {α : Type} (e : Exc) : OnceP (Py.raise e : Py Tree α) := fun _ h h' => ⟨h, h'⟩

theorem onceP_bind {α β : Type} {m : Py Tree α} {k : α → Py Tree β} (hm : OnceP m) (hk : ∀ a, OnceP (k a)) :
    OnceP (m >>= k) := by
  intro t h h'
  have h1 := hm t h h'
  rw [Py.bind_def]
  rcases hmt : m t with ⟨t', r⟩
  rw [hmt] at h1
  cases r with
  | error e => exact h1
  | ok a => exact hk a t' h1.1 h1.2

theorem onceP_setAttr {k : String} (h1 : rowRep ≠ k) (h2 : colRep ≠ k) (v : Str) : OnceP (setAttr k v) := by
  intro t h h'
  unfold setAttr
  split
  · exact ⟨h, h'⟩
  · exact ⟨once_set h h1 h2 v, h'⟩

theorem once_new (tag : String) : Once ({ id := 0, tag := tag } : Elem) := ⟨rfl, rfl⟩

theorem newSpan_once (tag : String) (text : Str) :
    Once (Txt.newSpan tag text).1 ∧ AllE Once (Txt.newSpan tag text).2 := by
  have hlast : ∀ (F : Forest) (w : Str), AllE Once F → AllE Once (Txt.appendLastTail F w) := by
    intro F w
    induction F with
    | nil => intro _; trivial
    | cons e k r _ ih =>
      intro hF
      obtain ⟨h1, h2, h3⟩ := hF
      cases r with
      | nil => exact ⟨(once_attrs rfl).mpr h1, h2, trivial⟩
      | cons e' k' r' => exact ⟨h1, h2, ih h3⟩
  have hitem : ∀ (t : Tree) (i : Ws.Item), (∀ e, i = .elem e → Once e) → Once t.1 → AllE Once t.2 →
      Once (Txt.appendItem t i).1 ∧ AllE Once (Txt.appendItem t i).2 := by
    intro t i hi h1 h2
    cases i with
    | text w =>
      unfold Txt.appendItem
      obtain ⟨e, k⟩ := t
      cases k with
      | nil => exact ⟨(once_attrs rfl).mpr h1, trivial⟩
      | cons e' k' r' => exact ⟨h1, hlast _ w h2⟩
    | elem e =>
      refine ⟨h1, ?_⟩
      show AllE Once (t.2 ++ .cons e .nil .nil)
      exact allE_append.mpr ⟨h2, hi e rfl, trivial, trivial⟩
  have hloop : ∀ (is : List Ws.Item), (∀ e, Ws.Item.elem e ∈ is → Once e) → ∀ t : Tree, Once t.1 → AllE Once t.2 →
      Once (is.foldl Txt.appendItem t).1 ∧ AllE Once (is.foldl Txt.appendItem t).2 := by
    intro is
    induction is with
    | nil => intro _ t h1 h2; exact ⟨h1, h2⟩
    | cons i is ih =>
      intro hi t h1 h2
      obtain ⟨g1, g2⟩ := hitem t i (fun e he => hi e (by simp [he])) h1 h2
      exact ih (fun e he => hi e (by simp [he])) _ g1 g2
  have helem : ∀ e, Ws.Item.elem e ∈ Ws.encode text → Once e := by
    intro e he
    rcases (Ws.encode_shape text).elems e he with rfl | rfl | ⟨n, _, rfl⟩
    · exact once_new _
    · exact once_new _
    · unfold Ws.spaces
      split
      · exact ⟨rfl, rfl⟩
      · exact once_new _
  unfold Txt.newSpan
  simp only
  split
  · exact ⟨once_new tag, trivial⟩
  · exact hloop _ helem ({ id := 0, tag := tag }, .nil) (once_new tag) trivial

theorem onceP_content {β : Type} {p : Tree} (hp : Once p.1 ∧ AllE Once p.2) (b : β) :
    OnceP (fun t => ((t.1, t.2 ++ Forest.single p), .ok b) : Py Tree β) :=
  fun t h h' => ⟨h, allE_append.mpr ⟨h', hp.1, hp.2, trivial⟩⟩

theorem typeValueMap_key {ty key : String} (h : typeValueMap ty = some key) : rowRep ≠ key ∧ colRep ≠ key := by
  unfold typeValueMap at h
  repeat' split at h
  all_goals first | (cases h; decide) | cases h

theorem onceP_setNewValue {c : Conv} (hc : ∀ p, c = .content p → Once p.1 ∧ AllE Once p.2) (ty : String)
    (cur : Option Str) : OnceP (setNewValue c ty cur) := by
  unfold setNewValue
  refine onceP_bind ?_ fun ty => onceP_bind (onceP_setAttr (by decide) (by decide) _) fun _ => ?_
  · cases c with
    | content p => exact onceP_content (hc p rfl) _
    | attr s =>
      simp only
      cases hk : typeValueMap ty with
      | none => exact onceP_raise _
      | some key => exact onceP_bind (onceP_setAttr (typeValueMap_key hk).1 (typeValueMap_key hk).2 _) fun _ => onceP_pure _
  · cases cur with
    | none => exact onceP_pure _
    | some c =>
      simp only
      split
      · exact onceP_setAttr (by decide) (by decide) _
      · exact onceP_pure _

theorem once_clear {t : Tree} (h : Once t.1) : Once (clearOldValue t).1 ∧ AllE Once (clearOldValue t).2 := by
  refine ⟨?_, trivial⟩
  unfold clearOldValue clearContent clearValueAttribute
  cases Cells.valueType t with
  | none => exact h
  | some ty =>
    simp only
    cases hk : typeValueMap (String.ofList ty) with
    | none => exact h
    | some key => exact once_del h (typeValueMap_key hk).1 (typeValueMap_key hk).2

/-- An element given to a cell contains no repetition count other than 1. -/
def CellCall.NoRepeat {L : FloatLib} : CellCall L → Prop
  | .setValue v _ _ => ∀ k p, v = .wrapper k p → ∀ t ∈ nodes (single p), Alone t.1
  | _ => True

theorem once_of_alone {F : Forest} (h : ∀ t ∈ nodes F, Alone t.1) : AllE Once F :=
  allE_nodes.mpr fun t ht => (h t ht).once

theorem onceP_attr {m : Py Tree Unit} {g : Py Elem Unit} (hg : ∀ e, Once e → Once (g e).1)
    (hm : ∀ t, m t = (((g t.1).1, t.2), (g t.1).2)) : OnceP m := by
  intro t h h'
  rw [hm]; exact ⟨hg _ h, h'⟩

theorem once_write {d : Mixins.D} (hd : d ∈ Mixins.cell ++ Mixins.column) (v : Mixins.Val) (e : Elem) (h : Once e) :
    Once (asElem (Mixins.write d v) e).1 := by
  simp only [Mixins.cell, Mixins.column, List.cons_append, List.nil_append, List.mem_cons, List.not_mem_nil, or_false] at hd
  unfold asElem
  rcases hd with rfl | rfl | rfl | rfl | rfl | rfl | rfl <;> cases v <;>
    simp only [Mixins.write, Mixins.stringSet, Mixins.booleanSet, Mixins.visibilitySet] <;> (try split) <;>
    first | exact h | exact once_set h (by decide) (by decide) _

theorem once_delete {d : Mixins.D} (hd : d ∈ Mixins.cell ++ Mixins.column) (e : Elem) (h : Once e) :
    Once (asElem (Mixins.delete d) e).1 := by
  simp only [Mixins.cell, Mixins.column, List.cons_append, List.nil_append, List.mem_cons, List.not_mem_nil, or_false] at hd
  unfold asElem
  rcases hd with rfl | rfl | rfl | rfl | rfl | rfl | rfl <;>
    simp only [Mixins.delete, Mixins.attrDel] <;> (try split) <;>
    first | exact h | exact once_del h (by decide) (by decide)

theorem CellCall.once {L : FloatLib} {c : CellCall L} (hc : c.NoRepeat) : OnceP c.run := by
  cases c with
  | setValue v vt cur =>
    intro t h h'
    show Once (Cells.setValue L v vt cur t).1.1 ∧ AllE Once (Cells.setValue L v vt cur t).1.2
    by_cases h1 : isValidValue L v = true
    · by_cases h2 : resolve L v vt cur ∈ VALID_VALUE_TYPES
      · rw [setValue_good L h1 rfl h2]
        obtain ⟨a, b⟩ := once_clear (t := t) h
        refine onceP_setNewValue ?_ _ _ _ a b
        intro p hp
        unfold convert at hp
        split at hp
        · cases hp
          have := once_of_alone (hc _ _ rfl)
          exact ⟨this.1, this.2.1⟩
        · split at hp
          · cases hp; exact newSpan_once _ _
          · split at hp <;> cases hp
      · rw [setValue_badtype L h1 h2]; exact ⟨h, h'⟩
    · rw [setValue_invalid L (by simpa using h1)]; exact ⟨h, h'⟩
  | appendText text =>
    intro t h h'
    have hp := newSpan_once "text:p" text
    have hs := newSpan_once "text:span" text
    show Once (Cells.appendText text t).1.1 ∧ AllE Once (Cells.appendText text t).1.2
    unfold Cells.appendText
    split
    · exact ⟨h, h'⟩
    · split
      · split
        · refine ⟨h, ?_⟩
          show AllE Once (mapLast _ t.2)
          revert h'
          generalize t.2 = F
          induction F with
          | nil => exact fun h => h
          | cons e k r _ ih =>
            intro hF
            cases r with
            | nil => exact ⟨hF.1, allE_append.mpr ⟨hF.2.1, hs.1, hs.2, trivial⟩, trivial⟩
            | cons e' k' r' => exact ⟨hF.1, hF.2.1, ih hF.2.2⟩
        · exact onceP_content hp () t h h'
      · exact onceP_content hp () t h h'
  | setDisplayForm text =>
    intro t h h'
    have hp := newSpan_once "text:p" text
    show Once (Cells.setDisplayForm text t).1.1 ∧ AllE Once (Cells.setDisplayForm text t).1.2
    unfold Cells.setDisplayForm
    split
    · exact ⟨h, h'⟩
    · split
      · exact ⟨h, h'⟩
      · simp only
        split
        · exact onceP_content hp () t h h'
        · refine ⟨h, ?_⟩
          show AllE Once (replaceFirst "text:p" (Txt.newSpan "text:p" text) t.2)
          revert h'
          generalize t.2 = F
          induction F with
          | nil => exact fun h => h
          | cons e k r _ ih =>
            intro hF
            simp only [replaceFirst]
            split
            · exact ⟨hp.1, hp.2, hF.2.2⟩
            · exact ⟨hF.1, hF.2.1, ih hF.2.2⟩
  | assign d hd v => exact onceP_attr (once_write (by simp [hd]) v) (asTree_write (cell_ne_number hd) v)
  | delete d hd => exact onceP_attr (once_delete (by simp [hd])) (asTree_delete d)

theorem getCell_once {s : TState} (h : AllE Once s.kids) {pos : Int × Int} {t : Tree} (hg : getCell s pos = .ok t) :
    Once t.1 ∧ AllE Once t.2 := by
  unfold getCell at hg
  cases hl : locate s pos with
  | error e => rw [hl] at hg; cases hg
  | ok q =>
    obtain ⟨r, n, t'⟩ := q
    rw [hl] at hg
    cases hg
    unfold locate at hl
    simp only at hl
    split at hl
    · cases hl
    · split at hl
      · cases hl
      · rename_i hc
        cases hl
        unfold childAt at hc
        split at hc
        · cases hc
        · split at hc
          · rename_i t'' ht
            cases hc
            have hm := List.mem_of_getElem? ht
            unfold kidsOf at hm
            split at hm
            · rename_i u hu
              exact allE_toList.mp (allE_find h hu).2 _ hm
            · simp at hm
          · cases hc

theorem allE_clone {F : Forest} (h : AllE Once F) (n : Nat) : AllE Once (F.clone n).1 := by
  rw [← allE_erase once_id, (clone_spec F n).2.1, allE_erase once_id]; exact h

theorem Sound.write {L : FloatLib} {s : TState} (h : Sound s) (pos : Int × Int) (c : CellCall L) (hc : c.NoTable)
    (hr : c.NoRepeat) : Sound (onCell pos c.run s).1 := by
  cases hg : getCell s pos with
  | error e =>
    have : (onCell pos c.run s).1 = s := by unfold onCell; rw [hg]
    rw [this]; exact h
  | ok t =>
    obtain ⟨o1, o2⟩ := getCell_once h.once hg
    obtain ⟨q1, q2⟩ := c.once hr t o1 o2
    have hg' := hg
    unfold getCell at hg'
    cases hl : locate s pos with
    | error e => rw [hl] at hg'; cases hg'
    | ok q =>
      obtain ⟨r, n, t'⟩ := q
      rw [hl] at hg'; cases hg'
      obtain ⟨i, u, h1, h2, h3, _⟩ := locate_ok h.inv hl
      obtain ⟨_, c2⟩ := cell_not_rc h.inv (List.mem_of_getElem? h1) (List.mem_of_getElem? h3)
      have he : (onCell pos c.run s).1 =
          (run (.editCell pos (c.run t).1.1.attrs (c.run t).1.1.text ((c.run t).1.2.clone s.fresh).1) s).1 := by
        unfold onCell; rw [hg]; rfl
      rw [he]
      refine h.call _ (onCell_content h.inv (c.inPlace hc) hg c2) ?_ ⟨?_, allE_clone q2 _⟩
      · show (editCell _ _ _ _ s).2 = _
        unfold editCell; rw [hl]
      · intro e _
        exact (once_attrs rfl).mp q1

/-- A call on a cell takes new identities only. -/
theorem onCell_grow (pos : Int × Int) (m : Py Tree Unit) : GrowP [] (onCell pos m) := by
  intro s
  unfold onCell
  split
  · exact .refl _ s
  · rename_i t hg
    have h := run_grow (.editCell pos (m t).1.1.attrs (m t).1.1.text ((m t).1.2.clone s.fresh).1) s
    obtain ⟨c1, -, -, c4⟩ := clone_spec (m t).1.2 s.fresh
    refine ⟨h.le, h.who, fun i hi => ?_⟩
    rcases h.ids i hi with h1 | h1 | h1
    · exact .inl h1
    · exact .inr (.inl h1)
    · exact .inr (.inl ⟨(c4 i h1.1).1, h1.2⟩)

theorem Sound.row {s : TState} (h : Sound s) (i : Int) (c : LineCall) : Sound (onRow i c.run s).1 := by
  unfold onRow
  split
  · exact h
  · rename_i t ht
    have hid : ∃ r, rowId s i = .ok r ∧ find r s.kids = some t := by
      unfold rowElem at ht
      split at ht
      · cases ht
      · rename_i r hr
        split at ht
        · rename_i u hu; cases ht; exact ⟨r, hr, hu⟩
        · cases ht
    obtain ⟨r, hr, hf⟩ := hid
    have ho := (allE_find h.once hf).1
    have hq : Once (c.run t.1).1 := by
      cases c with
      | assign d hd v => exact once_write (by simp [hd]) v _ ho
      | delete d hd => exact once_delete (by simp [hd]) _ ho
    refine h.call (.editRow i (c.run t.1).1.attrs) trivial ?_ ?_
    · show (editRow _ _ s).2 = _
      unfold editRow; rw [hr]
    · intro e _
      exact (once_attrs rfl).mp hq

theorem Sound.column {s : TState} (h : Sound s) (i : Int) (c : LineCall) : Sound (onColumn i c.run s).1 := by
  unfold onColumn
  split
  · exact h
  · rename_i t ht
    have hid : ∃ r, colId s i = .ok r ∧ find r s.kids = some t := by
      unfold columnInfo at ht
      split at ht
      · cases ht
      · rename_i r hr
        split at ht
        · rename_i u hu; cases ht; exact ⟨r, hr, hu⟩
        · cases ht
    obtain ⟨r, hr, hf⟩ := hid
    have ho := (allE_find h.once hf).1
    have hq : Once (c.run t.1).1 := by
      cases c with
      | assign d hd v => exact once_write (by simp [hd]) v _ ho
      | delete d hd => exact once_delete (by simp [hd]) _ ho
    refine h.call (.editColumn i (c.run t.1).1.attrs) trivial ?_ ?_
    · show (editColumn _ _ s).2 = _
      unfold editColumn; rw [hr]
    · intro e _
      exact (once_attrs rfl).mp hq

theorem onRow_grow (i : Int) (m : Py Elem Unit) : GrowP [] (onRow i m) := by
  intro s
  unfold onRow
  split
  · exact .refl _ s
  · rename_i t ht
    exact run_grow (.editRow i (m t.1).1.attrs) s

theorem onColumn_grow (i : Int) (m : Py Elem Unit) : GrowP [] (onColumn i m) := by
  intro s
  unfold onColumn
  split
  · exact .refl _ s
  · rename_i t ht
    exact run_grow (.editColumn i (m t.1).1.attrs) s

end Verif.Tbl
