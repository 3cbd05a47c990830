import Verif.Model.Normalizer
import Verif.Spec.Grid
import Verif.Proofs.TableSpec
/-! Lemmas about expansion of repeated rows, cells and columns. -/
set_option linter.unusedSimpArgs false
namespace Verif.Tbl
open Verif Verif.Forest Verif.Cells Verif.TSpec

/-! ### Copies -/

theorem erase_append' (F G : Forest) : erase (F ++ G) = erase F ++ erase G := by
  induction F with
  | nil => rfl
  | cons e k r _ ih => simp [erase, ih]

/-- A tree without identities. -/
def content (t : Tree) : Tree := ({ t.1 with id := 0 }, erase t.2)

theorem erase_toList (F : Forest) : (erase F).toList = F.toList.map content := by
  induction F with
  | nil => rfl
  | cons e k r _ ih => simp [erase, ih, content]

theorem sel_erase (p : Elem → Bool) (hp : ∀ e : Elem, p { e with id := 0 } = p e) (F : Forest) :
    sel p (erase F) = (sel p F).map content := by
  induction F with
  | nil => rfl
  | cons e k r ihk ihr =>
    simp only [erase, sel, hp, ihk, ihr, List.map_append]
    congr 1
    split <;> simp [content]

theorem sel_nil_of_erase {p : Elem → Bool} (hp : ∀ e : Elem, p { e with id := 0 } = p e)
    {F G : Forest} (h : erase F = erase G) (hG : sel p G = []) : sel p F = [] := by
  have h1 := sel_erase p hp F
  rw [h, sel_erase p hp G, hG] at h1
  simpa using h1.symm

theorem clone_spec (F : Forest) : ∀ n, n ≤ (clone n F).2 ∧ erase (clone n F).1 = erase F ∧
    (ids (clone n F).1).Nodup ∧ ∀ i ∈ ids (clone n F).1, n ≤ i ∧ i < (clone n F).2 := by
  induction F with
  | nil => intro n; simp [clone, erase, ids]
  | cons e k r ihk ihr =>
    intro n
    obtain ⟨k1, k2, k3, k4⟩ := ihk (n + 1)
    obtain ⟨r1, r2, r3, r4⟩ := ihr (clone (n + 1) k).2
    simp only [clone]
    refine ⟨by omega, ?_, ?_, ?_⟩
    · simp [erase, k2, r2]
    · simp only [ids, List.nodup_cons, List.mem_append, not_or, List.nodup_append]
      refine ⟨⟨fun h => ?_, fun h => ?_⟩, k3, r3, ?_⟩
      · have := k4 _ h; omega
      · have := r4 _ h; omega
      · rintro a ha b hb rfl
        have := k4 _ ha; have := r4 _ hb; omega
    · intro i hi
      simp only [ids, List.mem_cons, List.mem_append] at hi
      rcases hi with rfl | h | h
      · omega
      · have := k4 _ h; omega
      · have := r4 _ h; omega

theorem cloneLoop_spec (t : Tree) : ∀ m n acc, ∃ C : Forest, (cloneLoop t m n acc).1 = C ++ acc ∧
    n ≤ (cloneLoop t m n acc).2 ∧ (ids C).Nodup ∧
    (∀ i ∈ ids C, n ≤ i ∧ i < (cloneLoop t m n acc).2) ∧
    C.toList.map content = List.replicate m (content t) := by
  intro m
  induction m with
  | zero => intro n acc; exact ⟨.nil, rfl, Nat.le_refl _, by simp [ids], by simp [ids], rfl⟩
  | succ m ih =>
    intro n acc
    obtain ⟨c1, c2, c3, c4⟩ := clone_spec (single t) n
    obtain ⟨C, h1, h2, h3, h4, h5⟩ := ih (clone n (single t)).2 ((clone n (single t)).1 ++ acc)
    refine ⟨C ++ (clone n (single t)).1, ?_, ?_, ?_, ?_, ?_⟩
    · simp only [cloneLoop, h1, append_assoc]
    · simp only [cloneLoop]; omega
    · rw [ids_append, List.nodup_append]
      refine ⟨h3, c3, ?_⟩
      rintro a ha b hb rfl
      have := h4 _ ha; have := c4 _ hb; omega
    · intro i hi
      simp only [cloneLoop]
      rw [ids_append, List.mem_append] at hi
      rcases hi with h | h
      · have := h4 _ h; omega
      · have := c4 _ h; omega
    · have : (clone n (single t)).1.toList.map content = [content t] := by
        rw [← erase_toList, c2]; rfl
      rw [toList_append, List.map_append, h5, this, List.replicate_succ']

/-! ### Expanders -/

/-- Effect of an expansion of `t` to `k` nodes. -/
structure Expands (key : String) (k : Nat) (t : Tree) (n : Nat) (F : Forest) (n' : Nat) : Prop where
  le : n ≤ n'
  nodup : (ids (single t)).Nodup → (∀ i ∈ ids (single t), i < n) → (ids F).Nodup
  ids : ∀ i ∈ ids F, i ∈ ids (single t) ∨ (n ≤ i ∧ i < n')
  shown : F.toList.map (shown key) = List.replicate k (shown key t)
  one : ∀ u ∈ F.toList, repeatCount key u.1 = .ok 1

theorem stored_count {key : String} {e : Elem} {n : Nat} (h : Stored key e n) :
    repeatCount key e = .ok (n : Int) := by
  unfold repeatCount
  rcases h.2 with ⟨h1, h2⟩ | ⟨s, h1, h2⟩
  · rw [h1, h2]; rfl
  · rw [h1]; simp [h2]

theorem repeatCount_content (key : String) (t : Tree) :
    repeatCount key (content t).1 = repeatCount key t.1 := rfl

theorem del_count_one (key : String) (e : Elem) : repeatCount key (e.del key) = .ok 1 := by
  unfold repeatCount
  rw [Elem.get_del, if_pos rfl]

theorem shown_content (key : String) (t : Tree) : shown key (content t) = shown key t := by
  have : ∀ F : Forest, erase (erase F) = erase F := by
    intro F
    induction F with
    | nil => rfl
    | cons e k r ihk ihr => simp [erase, ihk, ihr]
  simp [shown, content, bare, this]

theorem bare_del (key : String) (e : Elem) : bare key (e.del key) = bare key e := by
  simp [bare, Elem.del, Attrs.del, List.filter_filter]

theorem single_expands {key : String} {t : Tree} (h : repeatCount key t.1 = .ok 1) (n : Nat) :
    Expands key 1 t n (single t) n :=
  ⟨Nat.le_refl _, fun h _ => h, fun _ h => .inl h, rfl, by
    intro u hu; simp [single] at hu; subst hu; exact h⟩

theorem single_del_expands (key : String) (t : Tree) (n : Nat) :
    Expands key 1 t n (single (t.1.del key, t.2)) n :=
  ⟨Nat.le_refl _, fun h _ => h, fun _ h => .inl h, by
    simp [single, shown, bare_del], by
    intro u hu; simp [single] at hu; subst hu; exact del_count_one _ _⟩

theorem expandElement_expands (key : String) (t : Tree) {k : Nat} (hk : 1 ≤ k) (n : Nat) :
    Expands key k t n (expandElement (t.1.del key, t.2) k n).1
      (expandElement (t.1.del key, t.2) k n).2 := by
  obtain ⟨C, h1, h2, h3, h4, h5⟩ := cloneLoop_spec (t.1.del key, t.2) ((k : Int) - 1).toNat n .nil
  rw [append_nil] at h1
  unfold expandElement
  simp only [h1]
  have hc : content (t.1.del key, t.2) ∈ [content (t.1.del key, t.2)] := by simp
  refine ⟨h2, ?_, ?_, ?_, ?_⟩
  · intro hnd hlt
    have hs : Forest.ids (Forest.cons (t.1.del key) t.2 C) = Forest.ids (single t) ++ Forest.ids C := by
      simp [Forest.ids, single]
    rw [hs, List.nodup_append]
    refine ⟨hnd, h3, ?_⟩
    rintro a ha b hb rfl
    have := hlt _ ha; have := h4 _ hb; omega
  · intro i hi
    have hs : Forest.ids (Forest.cons (t.1.del key) t.2 C) = Forest.ids (single t) ++ Forest.ids C := by
      simp [Forest.ids, single]
    rw [hs, List.mem_append] at hi
    exact hi.imp id (h4 i)
  · have hk' : k = ((k : Int) - 1).toNat + 1 := by omega
    rw [hk', List.replicate_succ]
    have h6 : C.toList.map (TSpec.shown key) = (C.toList.map content).map (TSpec.shown key) := by
      rw [List.map_map]; apply List.map_congr_left; intro u _; exact (shown_content key u).symm
    have h7 : TSpec.shown key (t.1.del key, t.2) = TSpec.shown key t := by simp [TSpec.shown, bare_del]
    rw [toList_cons, List.map_cons, h6, h5, List.map_replicate, shown_content, h7]
  · intro u hu
    rw [toList_cons, List.mem_cons] at hu
    rcases hu with rfl | hu
    · exact del_count_one _ _
    · have : content u ∈ C.toList.map content := List.mem_map_of_mem hu
      rw [h5] at this
      have := List.eq_of_mem_replicate this
      rw [← repeatCount_content, this, repeatCount_content]
      exact del_count_one _ _

theorem delCount_ok {key : String} {e : Elem} {n : Nat} (h : Stored key e n) (hn : 1 < n) :
    delCount key e = .ok (e.del key) := by
  unfold delCount
  rcases h.2 with ⟨_, h2⟩ | ⟨s, h1, _⟩
  · omega
  · rw [h1]

/-- The expander `f` makes `k` nodes of `t`. -/
def Makes (key : String) (f : Expander) (k : Nat) (t : Tree) : Prop :=
  ∀ n, ∃ F n', f n t = .ok (F, n') ∧ Expands key k t n F n'

theorem expandAll_makes {key : String} {t : Tree} {k : Nat} (h : Stored key t.1 k) :
    Makes key (expandAll key) k t := by
  intro n
  have hc := stored_count h
  by_cases h1 : 1 < k
  · refine ⟨_, _, ?_, expandElement_expands key t h.1 n⟩
    unfold expandAll
    simp only [hc]
    rw [if_pos (by omega), delCount_ok h h1]
  · have hk : k = 1 := by have := h.1; omega
    subst hk
    refine ⟨_, _, ?_, single_expands hc n⟩
    unfold expandAll
    simp only [hc]
    rw [if_neg (by omega)]

theorem expandLast_makes {key : String} {t : Tree} {k : Nat} (h : Stored key t.1 k) :
    Makes key (expandLast key) 1 t := by
  intro n
  have hc := stored_count h
  by_cases h1 : 1 < k
  · refine ⟨_, _, ?_, single_del_expands key t n⟩
    unfold expandLast
    simp only [hc]
    rw [if_pos (by omega), delCount_ok h h1]
  · have hk : k = 1 := by have := h.1; omega
    subst hk
    refine ⟨_, _, ?_, single_expands hc n⟩
    unfold expandLast
    simp only [hc]
    rw [if_neg (by omega)]

theorem expandLess_makes {key : String} {t : Tree} {k : Nat} (h : Stored key t.1 k) {m : Int}
    (hm : 1 < m) : Makes key (expandLess key m) (if (k : Int) < m then k else 1) t := by
  intro n
  have hc := stored_count h
  by_cases h1 : 1 < k
  · by_cases h2 : (k : Int) < m
    · rw [if_pos h2]
      refine ⟨_, _, ?_, expandElement_expands key t h.1 n⟩
      unfold expandLess
      simp only [hc]
      rw [if_pos ⟨by omega, h2⟩, delCount_ok h h1]
    · rw [if_neg h2]
      refine ⟨_, _, ?_, single_del_expands key t n⟩
      unfold expandLess
      simp only [hc]
      rw [if_neg (fun h => h2 h.2), if_pos (by omega), delCount_ok h h1]
  · have hk : k = 1 := by have := h.1; omega
    subst hk
    rw [if_pos (by omega)]
    refine ⟨_, _, ?_, single_expands hc n⟩
    unfold expandLess
    simp only [hc]
    rw [if_neg (fun h => by omega), if_neg (by omega)]

/-! ### Cells of a row -/

structure KidsRes (k : Forest) (n : Nat) (k' : Forest) (n' : Nat) (l : List Tree) : Prop where
  le : n ≤ n'
  nodup : (ids k').Nodup
  ids : ∀ i ∈ ids k', i ∈ ids k ∨ (n ≤ i ∧ i < n')
  shown : k'.toList.map (shown colRep) = l
  one : ∀ u ∈ k'.toList, repeatCount colRep u.1 = .ok 1

theorem KidsRes.nil (n : Nat) : KidsRes .nil n .nil n [] :=
  ⟨Nat.le_refl _, by simp [Forest.ids], by simp [Forest.ids], rfl, by simp⟩

theorem KidsRes.cons {e : Elem} {k r : Forest} {m n n1 n2 : Nat} {F G : Forest} {l : List Tree}
    (hnd : (Forest.ids (.cons e k r)).Nodup) (hlt : ∀ i ∈ Forest.ids (.cons e k r), i < n)
    (h1 : Expands colRep m (e, k) n F n1)
    (h2 : KidsRes r n1 G n2 l) :
    KidsRes (.cons e k r) n (F ++ G) n2 (List.replicate m (TSpec.shown colRep (e, k)) ++ l) := by
  have hs : Forest.ids (Forest.cons e k r) = Forest.ids (single (e, k)) ++ Forest.ids r := by
    simp [Forest.ids, single]
  rw [hs] at hnd hlt
  rw [List.nodup_append] at hnd
  have hF := h1.nodup hnd.1 fun i hi => hlt i (by simp [hi])
  have hle := h1.le
  have hle2 := h2.le
  refine ⟨by omega, ?_, ?_, ?_, ?_⟩
  · rw [ids_append, List.nodup_append]
    refine ⟨hF, h2.nodup, ?_⟩
    rintro a ha b hb rfl
    rcases h1.ids a ha with h | h <;> rcases h2.ids a hb with h' | h'
    · exact hnd.2.2 a h a h' rfl
    · have := hlt a (by simp [h]); omega
    · have := hlt a (by simp [h']); omega
    · omega
  · intro i hi
    rw [hs]
    rw [ids_append, List.mem_append] at hi
    rcases hi with h | h
    · rcases h1.ids i h with h | h
      · exact .inl (by simp [h])
      · exact .inr (by omega)
    · rcases h2.ids i h with h | h
      · exact .inl (by simp [h])
      · exact .inr (by omega)
  · rw [toList_append, List.map_append, h1.shown, h2.shown]
  · intro u hu
    rw [toList_append, List.mem_append] at hu
    rcases hu with h | h
    · exact h1.one u h
    · exact h2.one u h

theorem expandKids_spec {f : Expander} {c : Tree → Nat} :
    ∀ (k : Forest), (∀ t ∈ k.toList, Makes colRep f (c t) t) →
    ∀ n, (ids k).Nodup → (∀ i ∈ ids k, i < n) →
    ∃ k' n', expandKids f n k = .ok (k', n') ∧
      KidsRes k n k' n' (rle (k.toList.map fun t => (c t, shown colRep t))) := by
  intro k
  induction k with
  | nil => intro _ n _ _; exact ⟨.nil, n, rfl, KidsRes.nil n⟩
  | cons e k r _ ih =>
    intro hm n hnd hlt
    obtain ⟨F, n1, h1, h2⟩ := hm (e, k) (by simp) n
    have hle := h2.le
    have hs : Forest.ids (Forest.cons e k r) = Forest.ids (single (e, k)) ++ Forest.ids r := by
      simp [Forest.ids, single]
    have hnd' := hnd
    have hlt' := hlt
    rw [hs] at hnd' hlt'
    rw [List.nodup_append] at hnd'
    obtain ⟨G, n2, h3, h4⟩ := ih (fun t ht => hm t (by simp [ht])) n1 hnd'.2.1
      (fun i hi => by have := hlt' i (by simp [hi]); omega)
    refine ⟨F ++ G, n2, by simp [expandKids, h1, h3], ?_⟩
    exact KidsRes.cons hnd hlt h2 h4

theorem rle_cons {α : Type} (p : Nat × α) (l : List (Nat × α)) :
    rle (p :: l) = List.replicate p.1 p.2 ++ rle l := rfl

theorem lastOnce_cons {α : Type} (p q : Nat × α) (l : List (Nat × α)) :
    lastOnce (p :: q :: l) = p :: lastOnce (q :: l) := by
  simp [lastOnce, List.getLast?_cons_cons]

theorem lastOnce_one {α : Type} (p : Nat × α) : lastOnce [p] = [(1, p.2)] := rfl

theorem expandKidsLast_spec {f g : Expander} {c : Tree → Nat} :
    ∀ (k : Forest), (∀ t ∈ k.toList, Makes colRep f (c t) t ∧ Makes colRep g 1 t) →
    ∀ n, (ids k).Nodup → (∀ i ∈ ids k, i < n) →
    ∃ k' n', expandKidsLast f g n k = .ok (k', n') ∧
      KidsRes k n k' n' (rle (lastOnce (k.toList.map fun t => (c t, shown colRep t)))) := by
  intro k
  induction k with
  | nil => intro _ n _ _; exact ⟨.nil, n, rfl, KidsRes.nil n⟩
  | cons e k r _ ih =>
    intro hm n hnd hlt
    cases r with
    | nil =>
      obtain ⟨F, n1, h1, h2⟩ := (hm (e, k) (by simp)).2 n
      have := KidsRes.cons hnd hlt h2 (KidsRes.nil n1)
      rw [append_nil] at this
      refine ⟨F, n1, by simp [expandKidsLast, h1], ?_⟩
      simpa [lastOnce_one, rle] using this
    | cons e' k' r' =>
      obtain ⟨F, n1, h1, h2⟩ := (hm (e, k) (by simp)).1 n
      have hle := h2.le
      have hs : Forest.ids (Forest.cons e k (.cons e' k' r'))
          = Forest.ids (single (e, k)) ++ Forest.ids (.cons e' k' r') := by
        simp [Forest.ids, single]
      have hnd' := hnd
      have hlt' := hlt
      rw [hs] at hnd' hlt'
      rw [List.nodup_append] at hnd'
      obtain ⟨G, n2, h3, h4⟩ := ih (fun t ht => hm t (by simp at ht ⊢; exact .inr ht)) n1 hnd'.2.1
        (fun i hi => by have := hlt' i (by simp [hi]); omega)
      refine ⟨F ++ G, n2, by simp [expandKidsLast, h1, h3], ?_⟩
      have := KidsRes.cons hnd hlt h2 h4
      simpa only [toList_cons, List.map_cons, lastOnce_cons, rle_cons] using this

/-! ### Steps on the tree -/

theorem isRC_id (e : Elem) : isRC { e with id := 0 } = isRC e := rfl

/-- What a step on rows (`p = isRow`, `q = isCol`) or columns (the other way round) keeps. -/
structure After (q : Elem → Bool) (s s' : TState) : Prop where
  node : s'.node = s.node
  rows : s'.rows = s.rows
  cols : s'.cols = s.cols
  other : sel q s'.kids = sel q s.kids
  skel : skel s'.kids = skel s.kids
  le : s.fresh ≤ s'.fresh
  wf : WF s'.kids s'.fresh

theorem After.refl {q : Elem → Bool} {s : TState} (h : WF s.kids s.fresh) : After q s s :=
  ⟨rfl, rfl, rfl, rfl, rfl, Nat.le_refl _, h⟩

theorem After.trans {q : Elem → Bool} {a b c : TState} (h : After q a b) (h' : After q b c) :
    After q a c :=
  ⟨h'.node.trans h.node, h'.rows.trans h.rows, h'.cols.trans h.cols, h'.other.trans h.other,
    h'.skel.trans h.skel, Nat.le_trans h.le h'.le, h'.wf⟩

def RowCol (p q : Elem → Bool) : Prop := (p = isRow ∧ q = isCol) ∨ (p = isCol ∧ q = isRow)

theorem RowCol.rc {p q : Elem → Bool} (h : RowCol p q) (e : Elem) (he : p e = true) :
    isRC e = true ∧ q e = false := by
  rcases h with ⟨rfl, rfl⟩ | ⟨rfl, rfl⟩
  · exact ⟨isRow_isRC e he, isRow_ne_isCol e he⟩
  · refine ⟨isCol_isRC e he, ?_⟩
    cases h : isRow e with
    | false => rfl
    | true => rw [isRow_ne_isCol _ h] at he; cases he

theorem RowCol.sub {p q : Elem → Bool} (h : RowCol p q) (e : Elem) (he : isRC e = false) :
    p e = false ∧ q e = false := by
  simp only [isRC, Bool.or_eq_false_iff] at he
  rcases h with ⟨rfl, rfl⟩ | ⟨rfl, rfl⟩
  · exact he
  · exact he.symm

theorem mem_rc {p q : Elem → Bool} (h : RowCol p q) {F : Forest} {t : Tree} (ht : t ∈ sel p F) :
    t ∈ sel isRC F := by
  rw [sel_filter (fun e he => (h.rc e he).1)] at ht
  exact (List.mem_filter.mp ht).1

/-- Identities inside a row or column. -/
theorem ids_of_rc {F : Forest} {fresh : Nat} (hwf : WF F fresh) {t : Tree} (ht : t ∈ sel isRC F) :
    (ids (single t)).Nodup ∧ ∀ i ∈ ids (single t), i < fresh := by
  obtain ⟨pre, post, A, B, _, h2, _⟩ := splice hwf ht
  have hn := hwf.nodup
  rw [h2] at hn
  refine ⟨(List.nodup_append.mp (List.nodup_append.mp hn).2.1).1, fun i hi => hwf.lt i ?_⟩
  rw [h2]; simp [hi]

theorem sel_none_of_rc {p q : Elem → Bool} (h : RowCol p q) {F : Forest} (hF : sel isRC F = []) :
    sel p F = [] ∧ sel q F = [] := by
  constructor
  · rw [sel_filter (fun e he => (h.rc e he).1), hF]; rfl
  · have h' : RowCol q p := by
      rcases h with ⟨rfl, rfl⟩ | ⟨rfl, rfl⟩
      · exact .inr ⟨rfl, rfl⟩
      · exact .inl ⟨rfl, rfl⟩
    rw [sel_filter (fun e he => (h'.rc e he).1), hF]; rfl

/-- A forest of rows (columns) whose children contain no rows or columns. -/
theorem flat_forest {p q : Elem → Bool} (h : RowCol p q) {F : Forest}
    (hF : ∀ u ∈ F.toList, p u.1 = true ∧ sel isRC u.2 = []) :
    sel p F = F.toList ∧ sel q F = [] ∧ sel isRC F = F.toList ∧ Tbl.skel F = .nil := by
  induction F with
  | nil => exact ⟨rfl, rfl, rfl, rfl⟩
  | cons e k r _ ih =>
    obtain ⟨h1, h2⟩ := hF (e, k) (by simp)
    obtain ⟨i1, i2, i3, i4⟩ := ih fun u hu => hF u (by simp [hu])
    have h3 := h.rc e h1
    have h4 := sel_none_of_rc h h2
    refine ⟨?_, ?_, ?_, ?_⟩
    · simp [sel, h1, h4.1, i1]
    · simp [sel, h3.2, h4.2, i2]
    · simp [sel, h3.1, h2, i3]
    · simp [Tbl.skel, h3.1, i4]

/-- Replacement of a row (column) by rows (columns). -/
theorem replace_step {p q : Elem → Bool} (h : RowCol p q) {s : TState} (hwf : WF s.kids s.fresh)
    {L R : List Tree} {t : Tree} (hr : sel p s.kids = L ++ t :: R) (f : Elem → Forest → Forest)
    {F : Forest} (hf : f t.1 t.2 = F) {n' : Nat} (hle : s.fresh ≤ n')
    (hF : ∀ u ∈ F.toList, p u.1 = true ∧ sel isRC u.2 = [])
    (hnd : (ids F).Nodup) (hids : ∀ i ∈ ids F, i ∈ ids (single t) ∨ (s.fresh ≤ i ∧ i < n')) :
    After q s { s with kids := s.kids.subst t.1.id f, fresh := n' } ∧
    sel p (s.kids.subst t.1.id f) = L ++ (F.toList ++ R) := by
  have ht : t ∈ sel p s.kids := by rw [hr]; simp
  have htc := mem_rc h ht
  obtain ⟨f1, f2, f3, f4⟩ := flat_forest h hF
  have hlt := (ids_of_rc hwf htc).2
  have hboth : sel p (subst t.1.id f s.kids) = L ++ (sel p (f t.1 t.2) ++ R) ∧
      sel q (subst t.1.id f s.kids) = sel q s.kids := by
    rcases h with ⟨rfl, rfl⟩ | ⟨rfl, rfl⟩
    · exact splice_row hwf hr f (by rw [hf]; exact f2)
    · exact splice_col hwf hr f (by rw [hf]; exact f2)
  obtain ⟨_, _, _, _, _, _, h3⟩ := splice hwf htc
  refine ⟨⟨rfl, rfl, rfl, hboth.2, (h3 f).2.2 (by rw [hf]; exact f4), hle, ?_⟩, ?_⟩
  · refine wf_subst hwf hle htc f (by rw [hf]; exact hnd) ?_ ?_
    · intro i hi
      rw [hf] at hi
      rcases hids i hi with h | h
      · exact ⟨by have := hlt i h; omega, .inl h⟩
      · exact ⟨h.2, .inr fun hm => by have := hwf.lt i hm; omega⟩
    · rw [hf, f3]; intro u hu; exact (hF u hu).2
  · rw [hboth.1, hf, f1]

/-- Loop over rows (columns). -/
theorem forNodes {p q : Elem → Bool} {m : Nat → Py TState Unit} {P : Tree → List Tree → Prop}
    {Q : Tree → Prop}
    (hm : ∀ s L t R, WF s.kids s.fresh → sel p s.kids = L ++ t :: R → Q t →
      ∃ s' N, m t.1.id s = (s', .ok ()) ∧ After q s s' ∧ sel p s'.kids = L ++ (N ++ R) ∧ P t N) :
    ∀ (todo : List Tree) s L R, WF s.kids s.fresh → sel p s.kids = L ++ (todo ++ R) →
      (∀ t ∈ todo, Q t) →
      ∃ s' Ns, forPy m (todo.map fun t => t.1.id) s = (s', .ok ()) ∧ After q s s' ∧
        sel p s'.kids = L ++ (Ns.flatten ++ R) ∧ List.Forall₂ P todo Ns := by
  intro todo
  induction todo with
  | nil => intro s L R hwf hr _; exact ⟨s, [], rfl, .refl hwf, by simpa using hr, .nil⟩
  | cons t todo ih =>
    intro s L R hwf hr hq
    obtain ⟨s1, N, h1, h2, h3, h4⟩ := hm s L t (todo ++ R) hwf (by simpa using hr) (hq t (by simp))
    obtain ⟨s2, Ns, i1, i2, i3, i4⟩ := ih s1 (L ++ N) R h2.wf (by rw [h3]; simp)
      fun t ht => hq t (by simp [ht])
    refine ⟨s2, N :: Ns, ?_, h2.trans i2, by rw [i3]; simp, .cons h4 i4⟩
    rw [List.map_cons, forPy_cons h1, i1]

theorem find_of_split {p q : Elem → Bool} (h : RowCol p q) {s : TState} (hwf : WF s.kids s.fresh)
    {L R : List Tree} {t : Tree} (hr : sel p s.kids = L ++ t :: R) :
    s.kids.find t.1.id = some t ∧ p t.1 = true ∧ t ∈ sel isRC s.kids ∧ sel isRC t.2 = [] := by
  have ht : t ∈ sel p s.kids := by rw [hr]; simp
  have hc := mem_rc h ht
  exact ⟨find_of_mem_sel hwf.nodup ht, (mem_sel_ids ht).1, hc, hwf.flat t hc⟩

/-- One `expand_row`/`expand_column`. -/
theorem expandNode_step {p q : Elem → Bool} (h : RowCol p q)
    (hp : ∀ e e' : Elem, e.tag = e'.tag → p e = p e') {key : String} {f : Expander}
    {c : Tree → Nat} (s : TState) (L : List Tree) (t : Tree) (R : List Tree)
    (hwf : WF s.kids s.fresh) (hr : sel p s.kids = L ++ t :: R) (hm : Makes key f (c t) t) :
    ∃ s' N, expandNode f t.1.id s = (s', .ok ()) ∧ After q s s' ∧
      sel p s'.kids = L ++ (N ++ R) ∧
      (N.map (shown key) = List.replicate (c t) (shown key t) ∧
        ∀ u ∈ N, repeatCount key u.1 = .ok 1) := by
  obtain ⟨h1, h2, h3, h4⟩ := find_of_split h hwf hr
  obtain ⟨F, n', h5, h6⟩ := hm s.fresh
  obtain ⟨i1, i2⟩ := ids_of_rc hwf h3
  have hF : ∀ u ∈ F.toList, p u.1 = true ∧ sel isRC u.2 = [] := by
    intro u hu
    have : shown key u ∈ F.toList.map (shown key) := List.mem_map_of_mem hu
    rw [h6.shown] at this
    have := List.eq_of_mem_replicate this
    simp only [TSpec.shown, Prod.mk.injEq] at this
    refine ⟨?_, sel_nil_of_erase isRC_id this.2 h4⟩
    rw [← h2]
    apply hp
    have := congrArg Elem.tag this.1
    simpa [bare] using this
  obtain ⟨j1, j2⟩ := replace_step h hwf hr (fun _ _ => F) rfl h6.le hF (h6.nodup i1 i2) h6.ids
  exact ⟨_, F.toList, by simp [expandNode, h1, h5], j1, j2, h6.shown, h6.one⟩

/-- A changed row: same element, new cells. -/
theorem rowKids_step {s : TState} {L R : List Tree} {t : Tree} (hwf : WF s.kids s.fresh)
    (hr : sel isRow s.kids = L ++ t :: R) (f : Elem → Forest → Forest) {k' : Forest}
    (hf : f t.1 t.2 = .cons t.1 k' .nil) {n' : Nat} (hle : s.fresh ≤ n')
    (hk : sel isRC k' = []) (hnd : (ids k').Nodup)
    (hids : ∀ i ∈ ids k', i ∈ ids t.2 ∨ (s.fresh ≤ i ∧ i < n')) :
    After isCol s { s with kids := s.kids.subst t.1.id f, fresh := n' } ∧
    sel isRow (s.kids.subst t.1.id f) = L ++ ([(t.1, k')] ++ R) := by
  have hrc : RowCol isRow isCol := .inl ⟨rfl, rfl⟩
  obtain ⟨_, h2, h3, _⟩ := find_of_split hrc hwf hr
  obtain ⟨i1, i2⟩ := ids_of_rc hwf h3
  have hs : ∀ k : Forest, ids (Forest.cons t.1 k .nil) = t.1.id :: ids k := by intro k; simp [ids]
  have hs1 : ids (single t) = t.1.id :: ids t.2 := by simp [ids, single]
  rw [hs1] at i1 i2
  rw [List.nodup_cons] at i1
  refine replace_step hrc hwf hr f hf hle ?_ ?_ ?_
  · intro u hu; simp at hu; subst hu; exact ⟨h2, hk⟩
  · rw [hs, List.nodup_cons]
    refine ⟨fun hm => ?_, hnd⟩
    rcases hids _ hm with h | h
    · exact i1.1 h
    · have := i2 t.1.id (by simp); omega
  · intro i hi
    rw [hs, List.mem_cons] at hi
    rw [hs1]
    rcases hi with rfl | h
    · exact .inl (by simp)
    · rcases hids i h with h | h
      · exact .inl (by simp [h])
      · exact .inr h

/-! ### Effective counts of the strategies -/

def eff {α : Type} (st : Strategy) (m : Int) (l : List (Nat × α)) : List (Nat × α) :=
  match st with
  | .all => l
  | .allButLast => lastOnce l
  | .lessMax => lessMax m l

theorem expandCells_spec (st : Strategy) {m : Int} (hm : 1 < m) (k : Forest) {c : Tree → Nat}
    (hc : ∀ t ∈ k.toList, Stored colRep t.1 (c t)) (n : Nat) (hnd : (ids k).Nodup)
    (hlt : ∀ i ∈ ids k, i < n) :
    ∃ k' n', expandCells st m n k = .ok (k', n') ∧
      KidsRes k n k' n' (rle (eff st m (k.toList.map fun t => (c t, shown colRep t)))) := by
  cases st with
  | all => exact expandKids_spec k (fun t ht => expandAll_makes (hc t ht)) n hnd hlt
  | allButLast =>
    exact expandKidsLast_spec k (fun t ht => ⟨expandAll_makes (hc t ht), expandLast_makes (hc t ht)⟩)
      n hnd hlt
  | lessMax =>
    obtain ⟨k', n', h1, h2⟩ := expandKids_spec (c := fun t => if (c t : Int) < m then c t else 1) k
      (fun t ht => expandLess_makes (hc t ht) hm) n hnd hlt
    refine ⟨k', n', h1, ?_⟩
    simpa [eff, lessMax, List.map_map, Function.comp_def] using h2

theorem sel_nil_iff {p : Elem → Bool} {F : Forest} :
    sel p F = [] ↔ ∀ u ∈ F.toList, sel p (single u) = [] := by
  induction F with
  | nil => simp [sel]
  | cons e k r _ ih =>
    have : ∀ x : Forest, sel p (Forest.cons e k r) = sel p (single (e, k)) ++ sel p r := by
      intro _; simp [sel, single]
    rw [this .nil, List.append_eq_nil_iff, ih]
    simp

/-- A tag test on a tree depends only on what is shown. -/
theorem sel_single_shown {p : Elem → Bool} (hp : ∀ e e' : Elem, e.tag = e'.tag → p e = p e')
    {key : String} {u v : Tree} (h : shown key u = shown key v) (hv : sel p (single v) = []) :
    sel p (single u) = [] := by
  simp only [TSpec.shown, Prod.mk.injEq] at h
  have ht : u.1.tag = v.1.tag := by
    have := congrArg Elem.tag h.1
    simpa [bare] using this
  simp only [single, sel, List.append_nil, List.append_eq_nil_iff] at hv ⊢
  refine ⟨?_, sel_nil_of_erase (fun e => hp _ _ rfl) h.2 hv.2⟩
  rw [hp _ _ ht]
  cases hb : p v.1 with
  | false => simp
  | true => rw [hb] at hv; simp at hv

theorem mem_rle {α : Type} {x : α} {l : List (Nat × α)} (h : x ∈ rle l) : ∃ n, (n, x) ∈ l := by
  unfold rle at h
  obtain ⟨p, hp, hx⟩ := List.mem_flatMap.mp h
  have := List.eq_of_mem_replicate hx
  exact ⟨p.1, by rw [this]; exact hp⟩

theorem mem_eff {α : Type} {st : Strategy} {m : Int} {x : α} {n : Nat} {l : List (Nat × α)}
    (h : (n, x) ∈ eff st m l) : ∃ n', (n', x) ∈ l := by
  cases st with
  | all => exact ⟨n, h⟩
  | allButLast =>
    simp only [eff, lastOnce, List.mem_append, Option.mem_toList, Option.map_eq_some_iff] at h
    rcases h with h | ⟨p, h1, h2⟩
    · exact ⟨n, List.dropLast_subset l h⟩
    · cases h2; exact ⟨p.1, List.mem_of_getLast? h1⟩
  | lessMax =>
    simp only [eff, lessMax, List.mem_map] at h
    obtain ⟨p, h1, h2⟩ := h
    cases h2; exact ⟨p.1, h1⟩

def RowOne (t : Tree) : Prop := ∀ c ∈ t.2.toList, repeatCount colRep c.1 = .ok 1

/-- One `expand_cells`. -/
theorem expandRowCells_step (st : Strategy) {m : Int} (hm : 1 < m) {c : Tree → Nat} (s : TState)
    (L : List Tree) (t : Tree) (R : List Tree) (hwf : WF s.kids s.fresh)
    (hr : sel isRow s.kids = L ++ t :: R) (hc : ∀ u ∈ t.2.toList, Stored colRep u.1 (c u)) :
    ∃ s' N, expandRowCells st m t.1.id s = (s', .ok ()) ∧ After isCol s s' ∧
      sel isRow s'.kids = L ++ (N ++ R) ∧
      ∃ k', N = [(t.1, k')] ∧ RowOne (t.1, k') ∧
        k'.toList.map (shown colRep) = rle (eff st m (t.2.toList.map fun u => (c u, shown colRep u))) := by
  have hrc : RowCol isRow isCol := .inl ⟨rfl, rfl⟩
  obtain ⟨h1, h2, h3, h4⟩ := find_of_split hrc hwf hr
  obtain ⟨i1, i2⟩ := ids_of_rc hwf h3
  have hs1 : ids (single t) = t.1.id :: ids t.2 := by simp [ids, single]
  rw [hs1] at i1 i2
  obtain ⟨k', n', e1, e2⟩ := expandCells_spec st hm t.2 hc s.fresh (List.nodup_cons.mp i1).2
    fun i hi => i2 i (by simp [hi])
  have hk : sel isRC k' = [] := by
    rw [sel_nil_iff] at h4 ⊢
    intro u hu
    have hx : shown colRep u ∈ k'.toList.map (shown colRep) := List.mem_map_of_mem hu
    rw [e2.shown] at hx
    obtain ⟨n, hx⟩ := mem_rle hx
    obtain ⟨n2, hx⟩ := mem_eff hx
    obtain ⟨v, hv, hvx⟩ := List.mem_map.mp hx
    simp only [Prod.mk.injEq] at hvx
    exact sel_single_shown (fun e e' h => by simp [isRC, isRow, isCol, h]) hvx.2.symm (h4 v hv)
  obtain ⟨j1, j2⟩ := rowKids_step hwf hr (fun e _ => .cons e k' .nil) rfl e2.le hk e2.nodup e2.ids
  exact ⟨_, _, by simp [expandRowCells, h1, e1], j1, j2, k', rfl, e2.one, e2.shown⟩

theorem forall₂_flatten_map {α β γ : Type} {P : α → List β → Prop} {f : β → γ} {g : α → List γ}
    (hP : ∀ a N, P a N → N.map f = g a) {l : List α} {Ns : List (List β)}
    (h : List.Forall₂ P l Ns) : Ns.flatten.map f = l.flatMap g := by
  induction h with
  | nil => rfl
  | cons h1 _ ih =>
    rw [List.flatten_cons, List.map_append, List.flatMap_cons, ih, hP _ _ h1]

theorem forall₂_flatten_forall {α β : Type} {P : α → List β → Prop} {Q : β → Prop}
    (hP : ∀ a N, P a N → ∀ u ∈ N, Q u) {l : List α} {Ns : List (List β)}
    (h : List.Forall₂ P l Ns) : ∀ u ∈ Ns.flatten, Q u := by
  induction h with
  | nil => simp
  | cons h1 _ ih =>
    intro u hu
    rw [List.flatten_cons, List.mem_append] at hu
    exact hu.elim (hP _ _ h1 u) (ih u)

/-! ### Rows -/

theorem cells_shown_erase (F : Forest) :
    F.toList.map (shown colRep) = (erase F).toList.map (shown colRep) := by
  rw [erase_toList, List.map_map]
  apply List.map_congr_left
  intro u _
  exact (shown_content colRep u).symm

theorem rowShown_of_shown {u t : Tree} (h : shown rowRep u = shown rowRep t) :
    rowShown u = rowShown t ∧ (RowOne t → RowOne u) := by
  simp only [TSpec.shown, Prod.mk.injEq] at h
  constructor
  · have := cells_shown_erase u.2
    rw [h.2, ← cells_shown_erase] at this
    have h1 : bare "table:number-rows-repeated" u.1 = bare "table:number-rows-repeated" t.1 := h.1
    simp only [rowShown, cells, h1]
    rw [show u.2.toList.map (shown "table:number-columns-repeated")
      = t.2.toList.map (shown "table:number-columns-repeated") from this]
  · intro ht c hc
    have h2 := congrArg Forest.toList h.2
    rw [erase_toList, erase_toList] at h2
    have : content c ∈ u.2.toList.map content := List.mem_map_of_mem hc
    rw [h2] at this
    obtain ⟨d, hd, hdc⟩ := List.mem_map.mp this
    rw [← repeatCount_content, ← hdc, repeatCount_content]
    exact ht d hd

/-- The grid a strategy shows for a list of stored rows (before padding). -/
def gridOf (st : Strategy) (maxcount : Int × Int) (nr nc : Tree → Nat) (rows : List Tree) :
    List (Elem × List Tree) :=
  rle (eff st maxcount.1 (rows.map fun r => (nr r, (bare rowRep r.1,
    rle (eff st maxcount.2 (r.2.toList.map fun c => (nc c, shown colRep c)))))))

theorem rows_wf_tag (e e' : Elem) (h : e.tag = e'.tag) : isRow e = isRow e' := by simp [isRow, h]
theorem cols_wf_tag (e e' : Elem) (h : e.tag = e'.tag) : isCol e = isCol e' := by simp [isCol, h]

/-- Cells, then row: the loop body of the strategies 'all' and 'all_less_maxcount'. -/
theorem rowBody_step (st : Strategy) {m : Int} (hm : 1 < m) {f : Expander} {nr nc : Tree → Nat}
    {cnt : Tree → Nat}
    (hf : ∀ t k', Stored rowRep t.1 (nr t) → Makes rowRep f (cnt t) (t.1, k'))
    (s : TState) (L : List Tree) (t : Tree) (R : List Tree) (hwf : WF s.kids s.fresh)
    (hr : sel isRow s.kids = L ++ t :: R)
    (hc : Stored rowRep t.1 (nr t) ∧ ∀ u ∈ t.2.toList, Stored colRep u.1 (nc u)) :
    ∃ s' N, (do expandRowCells st m t.1.id; expandNode f t.1.id : Py TState Unit) s = (s', .ok ()) ∧
      After isCol s s' ∧ sel isRow s'.kids = L ++ (N ++ R) ∧
      (N.map rowShown = List.replicate (cnt t) (bare rowRep t.1,
          rle (eff st m (t.2.toList.map fun u => (nc u, shown colRep u)))) ∧
        ∀ u ∈ N, repeatCount rowRep u.1 = .ok 1 ∧ RowOne u) := by
  obtain ⟨s1, N, h1, h2, h3, k', rfl, h5, h6⟩ := expandRowCells_step st hm s L t R hwf hr hc.2
  obtain ⟨s2, N, i1, i2, i3, i4, i5⟩ := expandNode_step (.inl ⟨rfl, rfl⟩) rows_wf_tag
    (c := fun _ => cnt t) s1 L (t.1, k') R h2.wf h3 (hf t k' hc.1)
  refine ⟨s2, N, ?_, h2.trans i2, i3, ?_, ?_⟩
  · rw [Py.bind_ok h1]; exact i1
  · have hall : ∀ u ∈ N, rowShown u = rowShown (t.1, k') := by
      intro u hu
      have : shown rowRep u ∈ N.map (shown rowRep) := List.mem_map_of_mem hu
      rw [i4] at this
      exact (rowShown_of_shown (List.eq_of_mem_replicate this)).1
    have hlen : N.length = cnt t := by
      have := congrArg List.length i4
      simpa using this
    rw [← h6]
    rw [List.eq_replicate_iff]
    refine ⟨by simp [hlen], ?_⟩
    intro x hx
    obtain ⟨u, hu, rfl⟩ := List.mem_map.mp hx
    exact hall u hu
  · intro u hu
    refine ⟨i5 u hu, ?_⟩
    have : shown rowRep u ∈ N.map (shown rowRep) := List.mem_map_of_mem hu
    rw [i4] at this
    exact (rowShown_of_shown (List.eq_of_mem_replicate this)).2 h5

end Verif.Tbl
