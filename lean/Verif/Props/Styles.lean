import Verif.Model.Styles
import Verif.Proofs.Sheets
/-! # C56: style containers; C61: style attributes -/
set_option linter.unusedSimpArgs false
namespace Verif.Styles
open Verif Verif.Lxml Forest

/-! ## Specification -/

/-- The name of a style. -/
def nameOf (W : World) (i : Nat) : Option Str := (content W i).bind fun e => e.get "style:name"

/-- The children of `c` with a name. -/
def named (W : World) (c : Nat) (k : Str) : List Nat :=
  ((children W c).getD []).filter fun i => nameOf W i = some k

/-- The style that a name means: the first child with it. -/
def first (W : World) (c : Nat) (k : Str) : Option Nat := (named W c k).head?

/-- No style contains the container. -/
def NoStyleAbove (W : World) (c : Nat) : Prop := ∀ a, Below W a c → nameOf W a = none

/-! ## Lemmas -/

theorem scan_first {W : World} (hn : (ids W).Nodup) {c : Nat} {t : Tree}
    (hc : Forest.find c W = some t) (k : Str) : scan k t.2.toList = first W c k := by
  have hch : children W c = some (t.2.toList.map fun u => u.1.id) := by simp [children, hc]
  have key : ∀ ts : List Tree, (∀ u ∈ ts, content W u.1.id = some u.1) →
      scan k ts = ((ts.map fun u => u.1.id).filter fun i => nameOf W i = some k).head? := by
    intro ts
    induction ts with
    | nil => intro _; rfl
    | cons u ts ih =>
      intro h
      have hu : nameOf W u.1.id = u.1.get "style:name" := by simp [nameOf, h u (by simp)]
      have := ih fun v hv => h v (by simp [hv])
      unfold scan
      by_cases he : u.1.get "style:name" = some k
      · simp [he, hu]
      · simp [he, hu, this]
  unfold first named
  rw [hch, Option.getD_some]
  exact key _ fun u hu => Pages.content_child hn hc hu

theorem nameOf_same {W W' : World} (h : ∀ i, content W' i = content W i) (i : Nat) :
    nameOf W' i = nameOf W i := by simp only [nameOf, h]

theorem named_of {W W' : World} (h : ∀ i, content W' i = content W i) {c : Nat} {l : List Nat}
    (hl : children W' c = some l) (k : Str) :
    named W' c k = l.filter fun i => nameOf W i = some k := by
  simp only [named, hl, Option.getD_some, nameOf_same h]

/-- The element and its cache agree: cached entries are the styles the names mean. -/
structure Agrees (s : S) (c : Nat) : Prop where
  once : (ids s.world).Nodup
  cont : c ∈ ids s.world
  elems : ∀ k n, s.cache.get k = some (.element n) → first s.world c k = some n

/-- The key has been assigned before. -/
def Assigned (s : S) (k : Str) : Prop := ∃ n, s.cache.get k = some (.object n)

theorem find_spec {s : S} {c : Nat} (h : Agrees s c) {k : Str} (hk : ¬ Assigned s k) :
    ∃ s', find c k s = (s', .ok ((first s.world c k).map .element)) ∧ s'.world = s.world ∧
      Agrees s' c ∧ ∀ k', Assigned s' k' ↔ Assigned s k' := by
  unfold find
  cases hg : s.cache.get k with
  | some x =>
    cases x with
    | object n => exact absurd ⟨n, hg⟩ hk
    | element n =>
      refine ⟨s, ?_, rfl, h, fun _ => Iff.rfl⟩
      simp [h.elems k n hg]
  | none =>
    obtain ⟨t, ht⟩ := find_some_of_mem h.cont
    simp only [ht, scan_first h.once ht]
    cases hf : first s.world c k with
    | none => exact ⟨s, rfl, rfl, h, fun _ => Iff.rfl⟩
    | some n =>
      refine ⟨_, rfl, rfl, ⟨h.once, h.cont, ?_⟩, ?_⟩
      · intro k' n' hk'
        simp only [Dict.get_set] at hk'
        split at hk'
        · rename_i he
          simp only [Option.some.injEq, Stored.element.injEq] at hk'
          subst hk'
          rw [← he]; exact hf
        · exact h.elems k' n' hk'
      · intro k'
        unfold Assigned
        simp only [Dict.get_set]
        split
        · rename_i he
          constructor
          · rintro ⟨m, hm⟩; simp at hm
          · rintro ⟨m, hm⟩
            rw [← he, hg] at hm; simp at hm
        · exact Iff.rfl

/-! ## C56 -/

/-- Reading a name that has not been assigned through this object: the first child with the name, or
`KeyError`; a page layout cannot be wrapped (`TypeError`). -/
theorem C56_get_partial {s : S} {c : Nat} (h : Agrees s c) {k : Str} (hk : ¬ Assigned s k) :
    (getitem c k s).2 = (match first s.world c k with
      | none => .error .KeyError
      | some n => if (content s.world n).map (fun e => e.tag) = some "style:page-layout"
        then .error .TypeError else .ok n) ∧
    (getitem c k s).1.world = s.world ∧ Agrees (getitem c k s).1 c ∧
    ∀ k', Assigned (getitem c k s).1 k' ↔ Assigned s k' := by
  obtain ⟨s', a1, a2, a3, a4⟩ := find_spec h hk
  unfold getitem
  rw [Py.bind_ok a1]
  cases hf : first s.world c k with
  | none => exact ⟨rfl, a2, a3, a4⟩
  | some n =>
    have hm : n ∈ ids s.world := by
      have : n ∈ named s.world c k := List.mem_of_head? hf
      unfold named at this
      cases hc : children s.world c with
      | none => simp [hc] at this
      | some l => simp [hc] at this; exact child_mem hc this.1
    obtain ⟨t, ht⟩ := find_some_of_mem hm
    simp only [Option.map_some, wrap, a2, ht, content, Option.some.injEq]
    split
    · exact ⟨rfl, a2, a3, a4⟩
    · exact ⟨rfl, a2, a3, a4⟩

/-- The first assignment to a name: the style takes the place of the first style of the name, or is
appended.  The name then means the style; the other children keep their order and all nodes their
content. -/
theorem C56_set_partial {s : S} {c : Nat} (h : Agrees s c) {k : Str} (hk : ¬ Assigned s k) {v : Nat}
    (hv : v ∈ ids s.world) (hname : nameOf s.world v = some k) (hno : ¬ Below s.world v c) :
    ∃ s', setitem c k v s = (s', .ok ()) ∧ first s'.world c k = some v ∧
      (∀ k', k' ≠ k → named s'.world c k' = named s.world c k') ∧
      Same s.world s'.world ∧ Agrees s' c ∧
      (∀ k', Assigned s' k' ↔ k' = k ∨ Assigned s k') ∧
      (∀ l, children s.world c = some l →
        (first s.world c k = none → Moved s.world s'.world v c (less v l ++ [v])) ∧
        (∀ u, first s.world c k = some u → u ≠ v →
          ∃ A B, l = A ++ u :: B ∧
            Base.Replaced s.world s'.world u v c (less v A ++ v :: less v B)) ∧
        (first s.world c k = some v → s'.world = s.world)) ∧
      (∃ y, ∀ q, q ≠ c → children s'.world q = (children s.world q).map (less y)) := by
  obtain ⟨s1, a1, a2, a3, a4⟩ := find_spec h hk
  obtain ⟨l, hl⟩ := children_some h.cont
  have hl1 : children s1.world c = some l := by rw [a2]; exact hl
  have hout : ∀ (p : Nat → Bool), p v = false → ∀ m : List Nat, (less v m).filter p = m.filter p :=
    fun p hp m => Pages.less_filter_out hp m
  -- the state after the change of the tree
  have fin : ∀ W' : World, Same s.world W' → ∀ l', children W' c = some l' →
      (l'.filter (fun i => nameOf s.world i = some k)).head? = some v →
      (∀ k', k' ≠ k → l'.filter (fun i => nameOf s.world i = some k') =
        l.filter (fun i => nameOf s.world i = some k')) →
      let s' : S := ⟨W', s1.cache.set k (.object v)⟩
      first s'.world c k = some v ∧
      (∀ k', k' ≠ k → named s'.world c k' = named s.world c k') ∧ Agrees s' c ∧
      (∀ k', Assigned s' k' ↔ k' = k ∨ Assigned s k') := by
    intro W' hs l' hl' hf ho s'
    have hoth : ∀ k', k' ≠ k → named W' c k' = named s.world c k' := by
      intro k' hk'
      rw [named_of hs.data hl', ho k' hk']
      simp [named, hl]
    refine ⟨?_, hoth, ⟨hs.once, (hs.all c).mpr h.cont, ?_⟩, ?_⟩
    · show (named W' c k).head? = _
      rw [named_of hs.data hl']; exact hf
    · intro k' n hn'
      simp only [s', Dict.get_set] at hn'
      split at hn'
      · simp at hn'
      · rename_i hne
        have hne' : k' ≠ k := fun e => hne e.symm
        have := a3.elems k' n hn'
        rw [a2] at this
        show (named W' c k').head? = _
        rw [hoth k' hne']; exact this
    · intro k'
      by_cases he : k' = k
      · subst he
        simp [Assigned, s', Dict.get_set]
      · rw [← a4 k']
        have : ¬ k = k' := fun e => he e.symm
        simp [Assigned, s', Dict.get_set, this, he]
  unfold setitem
  rw [Py.bind_ok a1]
  cases hf : first s.world c k with
  | none =>
    have hnone : l.filter (fun i => nameOf s.world i = some k) = [] := by
      unfold first named at hf
      rw [hl, Option.getD_some, List.head?_eq_none_iff] at hf
      exact hf
    obtain ⟨W', b1, b2⟩ := Base.C57_append h.once hl hv hno
    have b0 : Lxml.append c v s1.world = (W', .ok ()) := by
      rw [a2]
      unfold Base.append at b1
      cases ha : Lxml.append c v s.world with
      | mk W2 r =>
        rw [Py.bind_def, ha] at b1
        cases r with
        | error e => simp at b1
        | ok u => simp only [Py.pure_def, Prod.mk.injEq] at b1; rw [b1.1]
    have hw : onWorld (Lxml.append c v) s1 = ({ s1 with world := W' }, .ok ()) := by
      simp only [onWorld, b0]
    obtain ⟨f1, f2, f3, f4⟩ := fin W' b2.toSame _ b2.there
      (by rw [List.filter_append, Pages.less_filter, hnone]; simp [less, hname])
      (by
        intro k' hk'
        have hv' : decide (nameOf s.world v = some k') = false := by
          rw [hname]; simp; exact fun e => hk' e.symm
        rw [List.filter_append, hout _ hv']
        simp only [List.filter_cons, hv', Bool.false_eq_true, if_false, List.filter_nil,
          List.append_nil])
    refine ⟨⟨W', s1.cache.set k (.object v)⟩, ?_, f1, f2, b2.toSame, f3, f4, ?_, v, b2.others⟩
    · simp only [Option.map_none]
      rw [Py.bind_ok hw]; rfl
    · intro l' hl'
      rw [hl] at hl'; cases Option.some.inj hl'
      exact ⟨fun _ => b2, fun u hu => by simp at hu, fun hu => by simp at hu⟩
  | some u =>
    have hfl : (l.filter (fun i => nameOf s.world i = some k)).head? = some u := by
      unfold first named at hf
      rw [hl, Option.getD_some] at hf
      exact hf
    have hum : u ∈ l := (List.mem_filter.mp (List.mem_of_head? hfl)).1
    have huk : nameOf s.world u = some k := by
      simpa using (List.mem_filter.mp (List.mem_of_head? hfl)).2
    by_cases huv : u = v
    · subst huv
      obtain ⟨pt, p1, p2⟩ := children_find hl
      obtain ⟨t, htx⟩ := find_some_of_mem hv
      have hno' : c ∉ ids (single t) := fun h' => hno ((below_iff h.once htx).mp h')
      have hr : Lxml.replace c u u s1.world = (s1.world, .ok ()) := by
        rw [a2]
        unfold Lxml.replace
        simp only [p1, htx]
        rw [if_neg (by rw [p2]; simpa using hum), if_neg (by simpa [inTree] using hno'), if_pos trivial]
      have hw : onWorld (Lxml.replace c u u) s1 = (s1, .ok ()) := by simp only [onWorld, hr]
      obtain ⟨f1, f2, f3, f4⟩ := fin s.world ⟨h.once, fun _ => Iff.rfl, fun _ => rfl⟩ l hl hfl
        (fun _ _ => rfl)
      refine ⟨⟨s.world, s1.cache.set k (.object u)⟩, ?_, f1, f2, ⟨h.once, fun _ => Iff.rfl, fun _ => rfl⟩,
        f3, f4, ?_, ?_⟩
      · simp only [Option.map_some]
        rw [Py.bind_ok hw]
        simp only [Py.modify, a2]
      · intro l' _
        exact ⟨fun e => by simp at e, fun u' e hne => absurd (Option.some.inj e).symm hne, fun _ => rfl⟩
      · -- no other node is the parent of a fresh number
        refine ⟨(ids s.world).foldr max 0 + 1, fun q _ => ?_⟩
        cases hq : children s.world q with
        | none => rfl
        | some m =>
          simp only [Option.map_some, Option.some.injEq]
          refine (without_not_mem fun hm => ?_).symm
          have hin := child_mem hq hm
          have key : ∀ (L : List Nat) (x : Nat), x ∈ L → x ≤ L.foldr max 0 := by
            intro L
            induction L with
            | nil => simp
            | cons y L ih =>
              intro x hx
              simp only [List.foldr_cons]
              rcases List.mem_cons.mp hx with hx | hx
              · omega
              · have := ih x hx; omega
          have := key _ _ hin
          omega
    · -- the first style of the name is replaced
      have hsplit : ∃ A B, l = A ++ u :: B ∧ ∀ a ∈ A, nameOf s.world a ≠ some k := by
        have : ∀ m : List Nat, (m.filter (fun i => nameOf s.world i = some k)).head? = some u →
            ∃ A B, m = A ++ u :: B ∧ ∀ a ∈ A, nameOf s.world a ≠ some k := by
          intro m
          induction m with
          | nil => simp
          | cons y m ih =>
            intro hm
            by_cases hy : nameOf s.world y = some k
            · simp only [List.filter_cons, hy, decide_true, if_true, List.head?_cons,
                Option.some.injEq] at hm
              exact ⟨[], m, by simp [hm], by simp⟩
            · simp only [List.filter_cons, hy, decide_false, Bool.false_eq_true, if_false] at hm
              obtain ⟨A, B, e1, e2⟩ := ih hm
              refine ⟨y :: A, B, by simp [e1], ?_⟩
              intro a ha
              rcases List.mem_cons.mp ha with ha | ha
              · rw [ha]; exact hy
              · exact e2 a ha
        exact this l hfl
      obtain ⟨A, B, hAB, hA⟩ := hsplit
      rw [hAB] at hl
      obtain ⟨W', r1, r2⟩ := Base.replace_lemma h.once hl hv hno huv
      have hw : onWorld (Lxml.replace c u v) s1 = ({ s1 with world := W' }, .ok ()) := by
        simp only [onWorld, a2, r1]
      have hAf : A.filter (fun i => nameOf s.world i = some k) = [] := by
        rw [List.filter_eq_nil_iff]; intro a ha; simpa using hA a ha
      obtain ⟨f1, f2, f3, f4⟩ := fin W' r2.toSame _ r2.there
        (by rw [List.filter_append, Pages.less_filter, hAf]; simp [less, hname])
        (by
          intro k' hk'
          have hv' : decide (nameOf s.world v = some k') = false := by
            rw [hname]; simp; exact fun e => hk' e.symm
          have hu' : decide (nameOf s.world u = some k') = false := by
            rw [huk]; simp; exact fun e => hk' e.symm
          rw [hAB, List.filter_append, List.filter_append, hout _ hv']
          simp only [List.filter_cons, hv', hu', Bool.false_eq_true, if_false]
          rw [hout _ hv'])
      refine ⟨⟨W', s1.cache.set k (.object v)⟩, ?_, f1, f2, r2.toSame, f3, f4, ?_, v, r2.others⟩
      · simp only [Option.map_some]
        rw [Py.bind_ok hw]; rfl
      · intro l' hl'
        rw [hl] at hl'; cases Option.some.inj hl'
        refine ⟨fun e => by simp at e, fun u' e hne => ?_, fun e => absurd (Option.some.inj e) huv⟩
        cases Option.some.inj e
        exact ⟨A, B, rfl, r2⟩

/-- After every successful assignment the name can neither be read nor assigned again. -/
theorem C56_assigned_refuted {s s' : S} {c v : Nat} {k : Str} (h : setitem c k v s = (s', .ok ())) :
    getitem c k s' = (s', .error .AttributeError) ∧
    ∀ w, setitem c k w s' = (s', .error .TypeError) := by
  have hc : s'.cache.get k = some (.object v) := by
    unfold setitem at h
    rw [Py.bind_def] at h
    cases hf : find c k s with
    | mk s1 r =>
      rw [hf] at h
      cases r with
      | error e => simp at h
      | ok st =>
        simp only at h
        cases st with
        | none =>
          simp only at h
          rw [Py.bind_def] at h
          cases hm : onWorld (Lxml.append c v) s1 with
          | mk s2 r2 =>
            rw [hm] at h
            cases r2 with
            | error e => simp at h
            | ok u =>
              simp only [Py.modify, Prod.mk.injEq, and_true] at h
              rw [← h]; simp [Dict.get_set]
        | some x =>
          cases x with
          | object n => simp [Py.bind_def, Py.raise] at h
          | element n =>
            simp only at h
            rw [Py.bind_def] at h
            cases hm : onWorld (Lxml.replace c n v) s1 with
            | mk s2 r2 =>
              rw [hm] at h
              cases r2 with
              | error e => simp at h
              | ok u =>
                simp only [Py.modify, Prod.mk.injEq, and_true] at h
                rw [← h]; simp [Dict.get_set]
  have hf : find c k s' = (s', .ok (some (.object v))) := by
    unfold find; simp only [hc]
  refine ⟨?_, fun w => ?_⟩
  · unfold getitem; rw [Py.bind_ok hf]; rfl
  · unfold setitem; rw [Py.bind_ok hf]; rfl

/-- A page layout can never be read. -/
theorem C56_layout_refuted {s : S} {c n : Nat} {k : Str} (h : Agrees s c) (hk : ¬ Assigned s k)
    (hf : first s.world c k = some n)
    (ht : (content s.world n).map (fun e => e.tag) = some "style:page-layout") :
    (getitem c k s).2 = .error .TypeError := by
  rw [(C56_get_partial h hk).1, hf]
  simp [ht]

/-- Reads and assignments. -/
inductive Op
  | get (k : Str)
  | set (k : Str) (v : Nat)

def Op.step (c : Nat) (s : S) : Op → S
  | .get k => (getitem c k s).1
  | .set k v => (setitem c k v s).1

/-- What the names mean, and which have been assigned. -/
structure Spec where
  means : Str → Option Nat
  done : List Str

def Op.spec (d : Spec) : Op → Spec
  | .get _ => d
  | .set k v =>
    ⟨fun x => if x = k ∧ k ∉ d.done then some v else d.means x, k :: d.done⟩

/-- All histories: the names mean what the first assignment said, or what they meant at the start, and
can be read unless they have been assigned; children with names that were not assigned are
untouched; no node is lost and all keep their content. -/
theorem C56_history_partial {s : S} {c : Nat} (h : Agrees s c) (hno : NoStyleAbove s.world c)
    (ops : List Op) (hops : ∀ k v, Op.set k v ∈ ops → v ∈ ids s.world ∧ nameOf s.world v = some k)
    {d : Spec} (h1 : ∀ k, first s.world c k = d.means k) (h2 : ∀ k, Assigned s k ↔ k ∈ d.done) :
    let s' := ops.foldl (Op.step c) s
    let d' := ops.foldl Op.spec d
    (∀ k, first s'.world c k = d'.means k) ∧
    (∀ k, k ∉ d'.done → named s'.world c k = named s.world c k) ∧
    (∀ k, k ∉ d'.done → (getitem c k s').2 = match d'.means k with
      | none => .error .KeyError
      | some n => if (content s.world n).map (fun e => e.tag) = some "style:page-layout"
        then .error .TypeError else .ok n) ∧
    (∀ k, k ∈ d'.done → (getitem c k s').2 = .error .AttributeError) ∧
    Same s.world s'.world ∧ Agrees s' c := by
  induction ops generalizing s d with
  | nil =>
    refine ⟨h1, fun _ _ => rfl, ?_, ?_, ⟨h.once, fun _ => Iff.rfl, fun _ => rfl⟩, h⟩
    · intro k hk
      have hk' : ¬ Assigned s k := fun hh => hk ((h2 k).mp hh)
      simp only [List.foldl_nil]
      rw [(C56_get_partial h hk').1, h1 k]
    · intro k hk
      obtain ⟨n, hn⟩ := (h2 k).mpr hk
      have hf : find c k s = (s, .ok (some (.object n))) := by unfold find; simp only [hn]
      simp only [List.foldl_nil]
      unfold getitem; rw [Py.bind_ok hf]; rfl
  | cons op ops ih =>
    have key : ∃ s1, op.step c s = s1 ∧ (∀ k, first s1.world c k = (op.spec d).means k) ∧
        (∀ k, Assigned s1 k ↔ k ∈ (op.spec d).done) ∧
        (∀ k, k ∉ (op.spec d).done → named s1.world c k = named s.world c k) ∧
        Same s.world s1.world ∧ Agrees s1 c ∧ NoStyleAbove s1.world c := by
      have hself : Same s.world s.world := ⟨h.once, fun _ => Iff.rfl, fun _ => rfl⟩
      have hbad : ∀ k, Assigned s k → (getitem c k s).1 = s ∧ ∀ v, (setitem c k v s).1 = s := by
        rintro k ⟨n, hn⟩
        have hf : find c k s = (s, .ok (some (.object n))) := by unfold find; simp only [hn]
        refine ⟨?_, fun v => ?_⟩
        · unfold getitem; rw [Py.bind_ok hf]; rfl
        · unfold setitem; rw [Py.bind_ok hf]; rfl
      cases op with
      | get k =>
        by_cases hk : Assigned s k
        · exact ⟨s, (hbad k hk).1, h1, h2, fun _ _ => rfl, hself, h, hno⟩
        · obtain ⟨-, b2, b3, b4⟩ := C56_get_partial h hk
          refine ⟨_, rfl, ?_, fun k' => (b4 k').trans (h2 k'), ?_, ?_, b3, ?_⟩
          · intro k'; show first (getitem c k s).1.world c k' = _; rw [b2]; exact h1 k'
          · intro k' _; show named (getitem c k s).1.world c k' = _; rw [b2]
          · show Same s.world (getitem c k s).1.world; rw [b2]; exact hself
          · show NoStyleAbove (getitem c k s).1.world c; rw [b2]; exact hno
      | set k v =>
        obtain ⟨hv, hname⟩ := hops k v (by simp)
        by_cases hk : Assigned s k
        · have hd := (h2 k).mp hk
          refine ⟨s, (hbad k hk).2 v, ?_, ?_, fun _ _ => rfl, hself, h, hno⟩
          · intro k'; rw [h1 k']; simp [Op.spec, hd]
          · intro k'; rw [h2 k']
            simp only [Op.spec, List.mem_cons]
            constructor
            · exact Or.inr
            · rintro (e | e)
              · rw [e]; exact hd
              · exact e
        · have hb : ¬ Below s.world v c := fun hb => by
            have := hno v hb; rw [hname] at this; simp at this
          obtain ⟨s1, e1, e2, e3, e4, e5, e6, -, y, e7⟩ := C56_set_partial h hk hv hname hb
          have hd : k ∉ d.done := fun hh => hk ((h2 k).mpr hh)
          refine ⟨s1, by unfold Op.step; simp only [e1], ?_, ?_, ?_, e4, e5, ?_⟩
          · intro k'
            by_cases he : k' = k
            · subst he; rw [e2]; simp [Op.spec, hd]
            · unfold first; rw [e3 k' he]
              have := h1 k'
              unfold first at this
              rw [this]; simp [Op.spec, he]
          · intro k'; rw [e6 k', h2 k']; simp [Op.spec]
          · intro k' hk'
            exact e3 k' fun e => hk' (by simp [Op.spec, e])
          · intro a ha
            rw [nameOf_same e4.data]
            exact hno a (Pages.below_old e4.once e7 ha)
    obtain ⟨s1, e1, e2, e3, e4, e5, e6, e7⟩ := key
    have := ih e6 e7 (by
      intro k v hkv
      obtain ⟨i1, i2⟩ := hops k v (by simp [hkv])
      exact ⟨(e5.all v).mpr i1, by rw [nameOf_same e5.data]; exact i2⟩) e2 e3
    simp only [List.foldl_cons, e1]
    obtain ⟨g1, g2, g3, g4, g5, g6⟩ := this
    have hmono : ∀ (ops : List Op) (d : Spec) k, k ∈ d.done → k ∈ (ops.foldl Op.spec d).done := by
      intro ops
      induction ops with
      | nil => exact fun _ _ h => h
      | cons o ops ih =>
        intro d k hd
        refine ih _ k ?_
        cases o with
        | get _ => exact hd
        | set _ _ => exact List.mem_cons_of_mem _ hd
    refine ⟨g1, ?_, ?_, g4, ⟨g5.once, fun i => (g5.all i).trans (e5.all i),
      fun i => (g5.data i).trans (e5.data i)⟩, g6⟩
    · intro k hk
      rw [g2 k hk]
      exact e4 k fun hh => hk (hmono ops _ k hh)
    · intro k hk
      rw [g3 k hk]
      cases (List.foldl Op.spec (op.spec d) ops).means k with
      | none => rfl
      | some n => simp only [e5.data]

/-! ## C61 -/

/-- Reading an attribute of a style object: the XML attribute of the table, `KeyError` for other
names. -/
theorem C61_read_partial (map : Dict String String) {W : World} {n : Nat} (hn : n ∈ ids W) (key : String) :
    attr map n key W = (W, match map.get key with
      | none => .error .KeyError
      | some k => .ok ((content W n).bind fun e => e.get k)) := by
  obtain ⟨t, ht⟩ := find_some_of_mem hn
  unfold attr
  cases map.get key with
  | none => rfl
  | some k => simp [ht, content]

/-- The attributes of the classes, as ODF 1.2 names them (without prefix). -/
def keysOf : List (Dict String String × List String) :=
  [(styleMap, ["name", "display-name", "family", "parent-style-name", "next-style-name",
      "list-style-name", "master-page-name", "auto-update", "data-style-name", "class",
      "default-outline-level"]),
   (defaultStyleMap, ["family"]), (pageLayoutMap, ["name", "page-usage"]), (baseMap, [])]

theorem table_get : ∀ (keys : List String) (key : String),
    Dict.get (keys.map fun k => (k, "style:" ++ k)) key =
      if key ∈ keys then some ("style:" ++ key) else none := by
  intro keys key
  induction keys with
  | nil => rfl
  | cons k keys ih =>
    by_cases h : k = key
    · subst h; simp [Dict.get]
    · simp [Dict.get, h, Ne.symm h, ih]

/-- A key reads the XML attribute of the same name with the prefix `style`; all other keys raise. -/
theorem C61_keys_partial {map : Dict String String} {keys : List String} (h : (map, keys) ∈ keysOf)
    {W : World} {n : Nat} (hn : n ∈ ids W) (key : String) :
    attr map n key W = (W, if key ∈ keys then .ok ((content W n).bind fun e => e.get ("style:" ++ key))
      else .error .KeyError) := by
  rw [C61_read_partial map hn]
  have hm : map = keys.map fun k => (k, "style:" ++ k) := by
    simp only [keysOf, List.mem_cons, Prod.mk.injEq, List.not_mem_nil, or_false] at h
    rcases h with ⟨rfl, rfl⟩ | ⟨rfl, rfl⟩ | ⟨rfl, rfl⟩ | ⟨rfl, rfl⟩ <;> decide
  rw [hm, table_get]
  split <;> simp_all

/-- Assigning an attribute of a style object never changes anything and never fails. -/
theorem C61_write_refuted (map : Dict String String) (n : Nat) (key : String) (v : Str) (W : World) :
    setAttr map n key v W = (W, .ok ()) := rfl

/-- So an assigned value is not read back, unless it was there before. -/
theorem C61_refuted : ¬ ∀ (W : World) (n : Nat) (v : Str), n ∈ ids W →
    (attr styleMap n "family" (setAttr styleMap n "family" v W).1).2 = .ok (some v) := by
  intro h
  have := h (.cons ⟨0, "style:style", [], none, none⟩ .nil .nil) 0 ['x'] (by decide)
  exact absurd this (by decide +kernel)

/-! ## Examples -/

/-- Automatic styles: a style `A`, a page layout `P`, a style `B`; new styles 5 (named `A`) and 6
(named `N`). -/
def exS : S :=
  ⟨.cons ⟨0, "office:automatic-styles", [], none, none⟩
    (.cons ⟨1, "style:style", [("style:name", ['A'])], none, none⟩ .nil
    (.cons ⟨2, "style:page-layout", [("style:name", ['P'])], none, none⟩ .nil
    (.cons ⟨3, "style:style", [("style:name", ['B'])], none, none⟩ .nil .nil)))
    (.cons ⟨5, "style:style", [("style:name", ['A'])], none, none⟩ .nil
    (.cons ⟨6, "style:style", [("style:name", ['N'])], none, none⟩ .nil .nil)), []⟩

example : Agrees exS 0 := ⟨by decide, by decide, fun k n h => by simp [exS] at h⟩
example : NoStyleAbove exS.world 0 := by
  intro a ha
  have : a = 0 := by
    cases ha with
    | self => rfl
    | @step q _ l _ hl hm =>
      exfalso
      have hq : q ∈ ids exS.world := by
        obtain ⟨t, h1, -⟩ := children_find hl
        exact find_mem h1
      have : ∀ q ∈ ids exS.world, ∀ l, children exS.world q = some l → 0 ∉ l := by
        decide +kernel
      exact this q hq l hl hm
  subst this
  decide +kernel
example : (getitem 0 ['B'] exS).2 = .ok 3 ∧ (getitem 0 ['X'] exS).2 = .error .KeyError := by
  decide +kernel
example : (getitem 0 ['P'] exS).2 = .error .TypeError := by decide +kernel
example : (setitem 0 ['A'] 5 exS).2 = .ok () ∧
    children (setitem 0 ['A'] 5 exS).1.world 0 = some [5, 2, 3] := by decide +kernel
example : (setitem 0 ['N'] 6 exS).2 = .ok () ∧
    children (setitem 0 ['N'] 6 exS).1.world 0 = some [1, 2, 3, 6] := by decide +kernel
example : (getitem 0 ['A'] (setitem 0 ['A'] 5 exS).1).2 = .error .AttributeError := by decide +kernel

end Verif.Styles
