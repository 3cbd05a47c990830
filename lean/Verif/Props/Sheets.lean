import Verif.Proofs.Sheets
import Verif.Model.Parts
/-! # C30–C32: sheets (and pages) of a document

The specification (`chosen`, `others`, `lookup`) is in Proofs/Sheets.lean. -/
set_option linter.unusedSimpArgs false
namespace Verif.Pages
open Verif Verif.Lxml Verif.WrapCache Forest

/-- A program state: every node once, a sound wrapper cache, and the body of the container. -/
structure Good (c : Container) (s : S) : Prop where
  once : (ids s.world).Nodup
  inv : Inv s.heap
  body : c.xmlnode ∈ ids s.world

/-- The list of sheets. -/
def Container.list (c : Container) (s : S) : List Nat := chosen c.childtag s.world c.xmlnode

/-- The other children of the body. -/
def Container.rest (c : Container) (s : S) : List Nat := Pages.others c.childtag s.world c.xmlnode

/-- The name of a sheet. -/
def Container.name (c : Container) (s : S) (i : Nat) : Option Str := attrOf s.world c.nametag i

/-- `old` replaced by `x`, which leaves its former place. -/
def swap (old x : Nat) (l : List Nat) : List Nat := (less x l).map fun i => if i = old then x else i

/-! ## C30 -/

variable {pick : Nat → List Nat → Nat} {c : Container} {s : S}

/-- `len` and `names` are those of the list of sheets. -/
theorem C30_len (h : Good c s) :
    len c s = (s, .ok (c.list s).length) ∧ names c s = (s, .ok ((c.list s).map (c.name s))) := by
  obtain ⟨ts, h1, h2, h3⟩ := xmlchildren_ok h.once h.body
  have e : c.list s = ts.map fun u => u.1.id := h2.symm
  refine ⟨?_, ?_⟩
  · unfold len
    rw [Py.bind_ok h1, e]; simp [Py.pure_def]
  · unfold names
    rw [Py.bind_ok h1, e]
    simp only [Py.pure_def, List.map_map, Prod.mk.injEq, Except.ok.injEq, true_and]
    apply List.map_congr_left
    intro u hu
    simp [Container.name, attrOf, h3 u hu]

/-- Iteration goes through the list of sheets and changes no tree. -/
theorem C30_iter (hpick : ∀ k l, pick k l ∉ l) (h : Good c s) :
    ∃ s' os, iter pick c s = (s', .ok os) ∧ s'.world = s.world ∧ Inv s'.heap ∧
      os.map (fun o => o.node) = c.list s := by
  obtain ⟨ts, h1, h2, -⟩ := xmlchildren_ok h.once h.body
  obtain ⟨s', os, a1, a2, a3, -⟩ := wrapAll_ok hpick c ts h.inv
  refine ⟨s', os, ?_, a2.world, a2.inv, ?_⟩
  · unfold iter; rw [Py.bind_ok h1]; exact a1
  · rw [a3]; exact h2

/-- `sheets[key]` is the element of the list that the key means (`lookup`: list index with
negative indices, first sheet with the name, or the exception), and changes no tree. -/
theorem C30_get (hpick : ∀ k l, pick k l ∉ l) (h : Good c s) (key : Key) :
    (getitem pick c key s).2.map (fun o => o.node) = lookup (c.list s) (c.name s) key ∧
    (getitem pick c key s).1.world = s.world ∧ Inv (getitem pick c key s).1.heap := by
  have := getitem_ok hpick c h.once h.inv h.body key
  unfold Container.list
  rw [show c.name s = attrOf s.world c.nametag from rfl]
  cases hl : lookup (chosen c.childtag s.world c.xmlnode) (attrOf s.world c.nametag) key with
  | error e => rw [hl] at this; simp only at this; rw [this]; exact ⟨rfl, rfl, h.inv⟩
  | ok n =>
    rw [hl] at this
    obtain ⟨s', o, a1, a2, a3⟩ := this
    rw [a1]
    exact ⟨by simp [Except.map, a3.node a2.inv], a2.world, a2.inv⟩

/-- `append` of a sheet moves it to the end of the list of sheets; the other children stay as they
are. -/
theorem C30_append (h : Good c s) {x : Nat} (hx : x ∈ ids s.world)
    (ht : tagOf s.world x = some c.childtag) (hno : ¬ Below s.world x c.xmlnode)
    {l : List Nat} (hl : children s.world c.xmlnode = some l) :
    ∃ s', append c ⟨some c.childtag, x⟩ s = (s', .ok x) ∧ s'.heap = s.heap ∧
      c.list s' = less x (c.list s) ++ [x] ∧ c.rest s' = c.rest s ∧
      Moved s.world s'.world x c.xmlnode (less x l ++ [x]) := by
  obtain ⟨W', a1, a2⟩ := Base.C57_append h.once hl hx hno
  have a0 : Lxml.append c.xmlnode x s.world = (W', .ok ()) := by
    unfold Base.append at a1
    cases ha : Lxml.append c.xmlnode x s.world with
    | mk W2 r =>
      rw [Py.bind_def, ha] at a1
      cases r with
      | error e => simp at a1
      | ok u => simp only [Py.pure_def, Prod.mk.injEq] at a1; rw [a1.1]
  refine ⟨{ s with world := W' }, ?_, rfl, ?_, ?_, a2⟩
  · unfold append
    simp only [isValidChild, decide_true, if_true]
    rw [Py.bind_ok (onWorld_ok a0)]; rfl
  · unfold Container.list
    rw [(chosen_of a2.data a2.there _).1]
    simp only [chosen, hl, Option.getD_some, List.filter_append, less_filter]
    simp [ht]
  · unfold Container.rest
    rw [(chosen_of a2.data a2.there _).2]
    simp only [Pages.others, hl, Option.getD_some, List.filter_append]
    rw [less_filter_out (by simp [ht])]
    simp [ht]

/-- Objects of another class are refused, before anything else happens. -/
theorem C30_refused (child : Child) (hc : child.TAG ≠ some c.childtag) (key : Key) :
    append c child s = (s, .error .TypeError) ∧
    setitem pick c key child s = (s, .error .TypeError) := by
  unfold append setitem
  simp [isValidChild, hc, Py.raise]

theorem swap_split {old x : Nat} {A B : List Nat} (hs : old ≠ x) (hA : old ∉ A) (hB : old ∉ B) :
    swap old x (A ++ old :: B) = less x A ++ x :: less x B := by
  have hid : ∀ l : List Nat, old ∉ l → (less x l).map (fun i => if i = old then x else i) = less x l := by
    intro l hl
    conv => rhs; rw [← List.map_id (less x l)]
    apply List.map_congr_left
    intro i hi
    have : i ≠ old := fun h => hl (h ▸ (List.mem_filter.mp hi).1)
    simp [this]
  have e : less x (A ++ old :: B) = less x A ++ old :: less x B := by
    simp [less, hs]
  unfold swap
  rw [e]
  simp [hid A hA, hid B hB]

/-- `sheets[key] = x`: the sheet that the key means is replaced by `x` and detached; wrong keys
raise their exceptions and change nothing.  A sheet replaced by itself stays. -/
theorem C30_set (hpick : ∀ k l, pick k l ∉ l) (h : Good c s) (key : Key) {x : Nat}
    (hx : x ∈ ids s.world) (ht : tagOf s.world x = some c.childtag)
    (hno : ¬ Below s.world x c.xmlnode) :
    (∀ e, lookup (c.list s) (c.name s) key = .error e →
      setitem pick c key ⟨some c.childtag, x⟩ s = (s, .error e)) ∧
    (∀ old, lookup (c.list s) (c.name s) key = .ok old →
      ∃ s', setitem pick c key ⟨some c.childtag, x⟩ s = (s', .ok ()) ∧ Inv s'.heap ∧
        (∀ m o, Holds s.heap m o → Holds s'.heap m o) ∧
        (old = x → s'.world = s.world) ∧
        (old ≠ x → c.list s' = swap old x (c.list s) ∧ c.rest s' = c.rest s ∧
          ∃ A B, children s.world c.xmlnode = some (A ++ old :: B) ∧
            Base.Replaced s.world s'.world old x c.xmlnode (less x A ++ x :: less x B))) := by
  have hg := getitem_ok hpick c h.once h.inv h.body key
  unfold Container.list
  rw [show c.name s = attrOf s.world c.nametag from rfl, setitem_eq c key _ rfl]
  refine ⟨?_, ?_⟩
  · intro e he
    rw [he] at hg
    rw [Py.bind_error hg]
  · intro old ho
    rw [ho] at hg
    obtain ⟨s1, o, a1, a2, a3⟩ := hg
    have hnode := a3.node a2.inv
    rw [Py.bind_ok a1, hnode]
    obtain ⟨l, hl, hm, -⟩ := chosen_mem (lookup_mem ho)
    obtain ⟨A, B, hAB⟩ := List.append_of_mem hm
    rw [hAB] at hl
    by_cases hs : old = x
    · obtain ⟨pt, p1, p2⟩ := children_find hl
      obtain ⟨t, htx⟩ := find_some_of_mem hx
      have hno' : c.xmlnode ∉ ids (single t) := fun h' => hno ((below_iff h.once htx).mp h')
      have hr : Lxml.replace c.xmlnode old x s1.world = (s1.world, .ok ()) := by
        rw [a2.world]
        unfold Lxml.replace
        rw [hs]
        simp only [p1, htx]
        rw [if_neg (by rw [p2, hs]; simp), if_neg (by simpa [inTree] using hno'), if_pos trivial]
      refine ⟨s1, ?_, a2.inv, a2.held, fun _ => a2.world, fun h' => absurd hs h'⟩
      rw [onWorld_ok hr]
    · obtain ⟨W', r1, r2⟩ := Base.replace_lemma h.once hl hx hno hs
      refine ⟨{ s1 with world := W' }, ?_, a2.inv, a2.held, fun h' => absurd h' hs, fun _ => ?_⟩
      · have hr : Lxml.replace c.xmlnode old x s1.world = (W', .ok ()) := by rw [a2.world]; exact r1
        rw [onWorld_ok hr]
      · have hnd := children_nodup h.once hl
        have hA : old ∉ A := by
          simp only [List.nodup_append, List.mem_cons] at hnd
          exact fun h => hnd.2.2 old h old (Or.inl rfl) rfl
        have hB : old ∉ B := by
          simp only [List.nodup_append, List.nodup_cons] at hnd
          exact hnd.2.1.1
        have hold : tagOf s.world old = some c.childtag := by
          obtain ⟨_, _, _, h4⟩ := chosen_mem (lookup_mem ho); exact h4
        refine ⟨?_, ?_, A, B, hl, r2⟩
        · rw [(chosen_of r2.data r2.there _).1]
          simp only [chosen, hl, Option.getD_some, List.filter_append, List.filter_cons, less_filter,
            ht, hold, decide_true, if_true]
          rw [swap_split hs (fun h' => hA (List.mem_filter.mp h').1)
            (fun h' => hB (List.mem_filter.mp h').1)]
        · unfold Container.rest
          rw [(chosen_of r2.data r2.there _).2]
          simp only [Pages.others, hl, Option.getD_some, List.filter_append, List.filter_cons,
            ht, hold, ne_eq, not_true_eq_false, decide_false, Bool.false_eq_true, if_false]
          rw [less_filter_out (by simp [ht]), less_filter_out (by simp [ht])]

/-- If the new sheet was not in the list and the key is a position, `swap` is the assignment of
Python lists. -/
theorem C30_swap {l : List Nat} (hn : l.Nodup) {n : Nat} (h : n < l.length) {x : Nat} (hx : x ∉ l) :
    swap l[n] x l = l.set n x := by
  have e : l = l.take n ++ l[n] :: l.drop (n + 1) := by simp
  have hs : l[n] ≠ x := fun h' => hx (h' ▸ List.getElem_mem h)
  have hnd := hn
  rw [e] at hnd
  have hA : l[n] ∉ l.take n := by
    simp only [List.nodup_append, List.mem_cons] at hnd
    exact fun h => hnd.2.2 _ h _ (Or.inl rfl) rfl
  have hB : l[n] ∉ l.drop (n + 1) := by
    simp only [List.nodup_append, List.nodup_cons] at hnd
    exact hnd.2.1.1
  have hless : ∀ m : List Nat, x ∉ m → less x m = m := fun m hm => without_not_mem hm
  have := swap_split hs hA hB
  rw [← e, hless _ fun h => hx (List.mem_of_mem_take h), hless _ fun h => hx (List.mem_of_mem_drop h)]
    at this
  rw [this, List.set_eq_take_append_cons_drop, if_pos h]

/-- `del sheets[key]`: the sheet that the key means leaves the list and is detached; wrong keys
raise their exceptions and change nothing. -/
theorem C30_del (hpick : ∀ k l, pick k l ∉ l) (h : Good c s) (key : Key) :
    (∀ e, lookup (c.list s) (c.name s) key = .error e →
      delitem pick c key s = (s, .error e)) ∧
    (∀ old, lookup (c.list s) (c.name s) key = .ok old →
      ∃ s', delitem pick c key s = (s', .ok ()) ∧ Inv s'.heap ∧
        (∀ m o, Holds s.heap m o → Holds s'.heap m o) ∧
        c.list s' = (c.list s).erase old ∧ c.rest s' = c.rest s ∧
        Base.Removed s.world s'.world old ∧ ∀ i, content s'.world i = content s.world i) := by
  have hg := getitem_ok hpick c h.once h.inv h.body key
  unfold Container.list
  rw [show c.name s = attrOf s.world c.nametag from rfl, delitem_eq c key]
  refine ⟨?_, ?_⟩
  · intro e he
    rw [he] at hg
    rw [Py.bind_error hg]
  · intro old ho
    rw [ho] at hg
    obtain ⟨s1, o, a1, a2, a3⟩ := hg
    have hnode := a3.node a2.inv
    rw [Py.bind_ok a1, hnode]
    obtain ⟨l, hl, hm, hold⟩ := chosen_mem (lookup_mem ho)
    obtain ⟨W', r1, r2, r3⟩ := (Base.C57_remove h.once hl (child_mem hl hm)).1 hm
    refine ⟨{ s1 with world := W' }, ?_, a2.inv, a2.held, ?_, ?_, r2, r3⟩
    · have hr : Lxml.remove c.xmlnode old s1.world = (W', .ok ()) := by rw [a2.world]; exact r1
      rw [onWorld_ok hr]
    · have hc : children W' c.xmlnode = some (less old l) := by rw [r2.others, hl]; rfl
      rw [(chosen_of r3 hc _).1, less_filter, (chosen_nodup h.once _ _).erase_eq_filter]
      simp only [chosen, hl, Option.getD_some, less]
      apply List.filter_congr; intro a _; simp [bne, beq_eq_decide]
    · have hc : children W' c.xmlnode = some (less old l) := by rw [r2.others, hl]; rfl
      unfold Container.rest
      rw [(chosen_of r3 hc _).2, less_filter_out (by simp [hold])]
      simp only [Pages.others, hl, Option.getD_some]

/-- An operation on the sheets. -/
inductive Op
  | get (key : Key)
  | iter
  | append (x : Nat)
  | set (key : Key) (x : Nat)
  | del (key : Key)

/-- The sheet an operation brings in. -/
def Op.brings : Op → Option Nat
  | .append x => some x
  | .set _ x => some x
  | _ => none

/-- The operation on a document. -/
def Op.step (pick : Nat → List Nat → Nat) (c : Container) (s : S) : Op → S
  | .get key => (getitem pick c key s).1
  | .iter => (Pages.iter pick c s).1
  | .append x => (Pages.append c ⟨some c.childtag, x⟩ s).1
  | .set key x => (setitem pick c key ⟨some c.childtag, x⟩ s).1
  | .del key => (delitem pick c key s).1

/-- The operation on a list of named sheets. -/
def Op.spec (name : Nat → Option Str) (l : List Nat) : Op → List Nat
  | .get _ => l
  | .iter => l
  | .append x => less x l ++ [x]
  | .set key x =>
    match lookup l name key with
    | .ok old => if old = x then l else swap old x l
    | .error _ => l
  | .del key =>
    match lookup l name key with
    | .ok old => l.erase old
    | .error _ => l

/-- No sheet contains the body. -/
def NoSheetAbove (c : Container) (s : S) : Prop :=
  ∀ a, Below s.world a c.xmlnode → tagOf s.world a ≠ some c.childtag

/-- All operations on the sheets act as the list operations, in every history; the other children of
the body keep their order, no node is lost or duplicated, and all nodes keep their content. -/
theorem C30_history (hpick : ∀ k l, pick k l ∉ l) (h : Good c s) (hno : NoSheetAbove c s)
    (ops : List Op) (hops : ∀ op ∈ ops, ∀ x, op.brings = some x →
      x ∈ ids s.world ∧ tagOf s.world x = some c.childtag) :
    let s' := ops.foldl (Op.step pick c) s
    c.list s' = ops.foldl (Op.spec (c.name s)) (c.list s) ∧ c.rest s' = c.rest s ∧
      Same s.world s'.world ∧ Good c s' ∧ NoSheetAbove c s' := by
  induction ops generalizing s with
  | nil => exact ⟨rfl, rfl, ⟨h.once, fun _ => Iff.rfl, fun _ => rfl⟩, h, hno⟩
  | cons op ops ih =>
    have key : ∃ s1, op.step pick c s = s1 ∧ c.list s1 = op.spec (c.name s) (c.list s) ∧
        c.rest s1 = c.rest s ∧ Same s.world s1.world ∧ Inv s1.heap ∧ NoSheetAbove c s1 := by
      have hin : ∀ x, op.brings = some x → x ∈ ids s.world ∧ tagOf s.world x = some c.childtag ∧
          ¬ Below s.world x c.xmlnode := by
        intro x hx
        obtain ⟨h1, h2⟩ := hops op (by simp) x hx
        exact ⟨h1, h2, fun hb => hno x hb h2⟩
      have hstay : ∀ s1 : S, s1.world = s.world → Inv s1.heap → c.list s1 = c.list s ∧
          c.rest s1 = c.rest s ∧ Same s.world s1.world ∧ Inv s1.heap ∧ NoSheetAbove c s1 := by
        intro s1 hw hi
        unfold Container.list Container.rest NoSheetAbove
        rw [hw]
        exact ⟨rfl, rfl, ⟨h.once, fun _ => Iff.rfl, fun _ => rfl⟩, hi, hno⟩
      have habove : ∀ (s1 : S) (y : Nat), Same s.world s1.world →
          (∀ q, q ≠ c.xmlnode → children s1.world q = (children s.world q).map (less y)) →
          NoSheetAbove c s1 := by
        intro s1 y hs hq a ha
        rw [tagOf_same hs.data]
        exact hno a (below_old hs.once hq ha)
      cases op with
      | get k =>
        obtain ⟨-, a2, a3⟩ := C30_get hpick h k
        exact ⟨_, rfl, hstay _ a2 a3⟩
      | iter =>
        obtain ⟨s1, os, a1, a2, a3, -⟩ := C30_iter hpick h
        refine ⟨s1, by unfold Op.step; simp only [a1], hstay _ a2 a3⟩
      | append x =>
        obtain ⟨h1, h2, h3⟩ := hin x rfl
        obtain ⟨l, hl⟩ := children_some h.body
        obtain ⟨s1, a1, a2, a3, a4, a5⟩ := C30_append h h1 h2 h3 hl
        exact ⟨s1, by unfold Op.step; simp only [a1], a3, a4, a5.toSame, a2 ▸ h.inv,
          habove _ x a5.toSame a5.others⟩
      | set k x =>
        obtain ⟨h1, h2, h3⟩ := hin x rfl
        obtain ⟨b1, b2⟩ := C30_set hpick h k h1 h2 h3
        unfold Op.step Op.spec
        cases hk : lookup (c.list s) (c.name s) k with
        | error e =>
          refine ⟨s, by simp only [b1 e hk], ?_⟩
          simpa only [hk] using hstay s rfl h.inv
        | ok old =>
          obtain ⟨s1, a1, a2, -, a3, a4⟩ := b2 old hk
          refine ⟨s1, by simp only [a1], ?_⟩
          by_cases ho : old = x
          · simpa only [hk, if_pos ho] using hstay s1 (a3 ho) a2
          · obtain ⟨d1, d2, A, B, -, d3⟩ := a4 ho
            simp only [hk, if_neg ho]
            exact ⟨d1, d2, d3.toSame, a2, habove _ x d3.toSame d3.others⟩
      | del k =>
        obtain ⟨b1, b2⟩ := C30_del hpick h k
        unfold Op.step Op.spec
        cases hk : lookup (c.list s) (c.name s) k with
        | error e =>
          refine ⟨s, by simp only [b1 e hk], ?_⟩
          simpa only [hk] using hstay s rfl h.inv
        | ok old =>
          obtain ⟨s1, a1, a2, -, a3, a4, a5, a6⟩ := b2 old hk
          have hsame : Same s.world s1.world := ⟨a5.once, a5.all, a6⟩
          exact ⟨s1, by simp only [a1], by simpa only [hk] using a3, a4, hsame, a2,
            habove _ old hsame fun q _ => a5.others q⟩
    obtain ⟨s1, e1, e2, e3, e4, e5, e6⟩ := key
    have hg : Good c s1 := ⟨e4.once, e5, (e4.all _).mpr h.body⟩
    have := ih hg e6 (by
      intro o ho x hx
      obtain ⟨h1, h2⟩ := hops o (by simp [ho]) x hx
      exact ⟨(e4.all x).mpr h1, by rw [tagOf_same e4.data]; exact h2⟩)
    simp only [List.foldl_cons, e1]
    obtain ⟨f1, f2, f3, f4, f5⟩ := this
    have hname : c.name s1 = c.name s := attrOf_same e4.data _
    refine ⟨by rw [f1, e2, hname], f2.trans e3, ⟨f3.once, fun i => (f3.all i).trans (e4.all i),
      fun i => (f3.data i).trans (e4.data i)⟩, f4, f5⟩

/-! ## C31 -/

theorem lookup_nat {l : List Nat} {name : Nat → Option Str} {i x : Nat} :
    lookup l name (.int i) = .ok x ↔ l[i]? = some x := by
  unfold lookup
  by_cases h : i < l.length
  · simp [h]
  · have h1 : ¬ (0 ≤ (i : Int) ∧ (i : Int) < l.length) := by omega
    have h2 : ¬ ((i : Int) < 0 ∧ -(l.length : Int) ≤ i) := by omega
    simp only [dif_neg h1, dif_neg h2]
    simp at h
    simp [h]

theorem mid_iff {P Q : List Nat} {x i : Nat} (hn : (P ++ x :: Q).Nodup) :
    (P ++ x :: Q)[i]? = some x ↔ P.length = i := by
  constructor
  · intro h
    have h2 : (P ++ x :: Q)[P.length]? = some x := by simp
    exact (List.getElem?_inj (by simp) hn).mp (h2.trans h.symm)
  · intro h; subst h; simp

theorem filter_length_iff {p : Nat → Bool} {l : List Nat} :
    (l.filter p).length = l.length ↔ ∀ a ∈ l, p a = true := by
  rw [List.length_filter_eq_length_iff]

/-- `sheets[sheets.index(x)]` is `x` exactly if only sheets precede `x` among the children of the
body. -/
theorem C31_index_partial (hpick : ∀ k l, pick k l ∉ l) (h : Good c s) {A B : List Nat} {x : Nat}
    (hl : children s.world c.xmlnode = some (A ++ x :: B))
    (ht : tagOf s.world x = some c.childtag) :
    index c x s = (s, .ok A.length) ∧
    ((getitem pick c (.int A.length) s).2.map (fun o => o.node) = .ok x ↔
      ∀ a ∈ A, tagOf s.world a = some c.childtag) := by
  have hnd := children_nodup h.once hl
  have hA : x ∉ A := by
    simp only [List.nodup_append, List.mem_cons] at hnd
    exact fun h => hnd.2.2 x h x (Or.inl rfl) rfl
  refine ⟨?_, ?_⟩
  · have h0 := Base.C57_index hl x
    have hidx : (A ++ x :: B).idxOf x = A.length := by
      rw [List.idxOf_append, if_neg hA]; simp
    simp only [List.mem_append, List.mem_cons, true_or, or_true, if_true, hidx] at h0
    exact onWorld_ok h0
  · rw [(C30_get hpick h _).1, lookup_nat]
    have e : c.list s = A.filter (fun i => tagOf s.world i = some c.childtag) ++
        x :: B.filter (fun i => tagOf s.world i = some c.childtag) := by
      simp [Container.list, chosen, hl, ht]
    have hn2 : (c.list s).Nodup := chosen_nodup h.once _ _
    rw [e] at hn2 ⊢
    rw [mid_iff hn2, filter_length_iff]
    simp

/-- After `sheets.insert(i, x)` with `0 ≤ i ≤ len(sheets)`, `sheets[i]` is `x` exactly if the first
`i` children of the body are sheets other than `x`. -/
theorem C31_insert_partial (hpick : ∀ k l, pick k l ∉ l) (h : Good c s) {l : List Nat} {x i : Nat}
    (hl : children s.world c.xmlnode = some l) (hx : x ∈ ids s.world)
    (ht : tagOf s.world x = some c.childtag) (hno : ¬ Below s.world x c.xmlnode)
    (hi : i ≤ (c.list s).length) :
    ∃ s', insert c i x s = (s', .ok x) ∧ Same s.world s'.world ∧ c.rest s' = c.rest s ∧
      ((getitem pick c (.int i) s').2.map (fun o => o.node) = .ok x ↔
        ∀ a ∈ l.take i, tagOf s.world a = some c.childtag ∧ a ≠ x) := by
  obtain ⟨W', a1, a2⟩ := Base.insert_lemma (i := (i : Int)) h.once hl hx hno
  have hil : i ≤ l.length := by
    refine Nat.le_trans hi ?_
    simp only [Container.list, chosen, hl, Option.getD_some]
    exact List.length_filter_le _ _
  have e : children W' c.xmlnode = some (less x (l.take i) ++ x :: less x (l.drop i)) := by
    rw [a2.there]
    rcases Nat.lt_or_eq_of_le hil with hlt | heq
    · have : pyIdx l.length (i : Int) = some i := by
        simp only [pyIdx]; rw [if_pos (by omega), if_pos (by simpa using hlt)]; rfl
      rw [this]
    · have : pyIdx l.length (i : Int) = none := by
        simp only [pyIdx]; rw [if_pos (by omega), if_neg (by omega)]
      rw [this, heq]
      simp [less]
  refine ⟨{ s with world := W' }, ?_, a2.toSame, ?_, ?_⟩
  · unfold insert
    rw [Py.bind_ok (onWorld_ok a1)]; rfl
  · unfold Container.rest
    rw [(chosen_of a2.data e _).2]
    simp only [List.filter_append, List.filter_cons, Pages.others, hl, Option.getD_some]
    rw [less_filter_out (by simp [ht]), less_filter_out (by simp [ht])]
    simp only [ht, ne_eq, not_true_eq_false, decide_false, Bool.false_eq_true, if_false]
    rw [← List.filter_append, List.take_append_drop]
  · have hg : Good c { s with world := W' } := ⟨a2.once, h.inv, (a2.all _).mpr h.body⟩
    rw [(C30_get hpick hg _).1, lookup_nat]
    have e2 : c.list { s with world := W' } =
        (less x (l.take i)).filter (fun i => tagOf s.world i = some c.childtag) ++
        x :: (less x (l.drop i)).filter (fun i => tagOf s.world i = some c.childtag) := by
      unfold Container.list
      rw [(chosen_of a2.data e _).1]
      simp [ht]
    have hn2 : (c.list { s with world := W' }).Nodup := chosen_nodup hg.once _ _
    rw [e2] at hn2 ⊢
    rw [mid_iff hn2]
    have hlen : (l.take i).length = i := by simp [hil]
    have : (less x (l.take i)).filter (fun i => tagOf s.world i = some c.childtag) =
        (l.take i).filter (fun a => decide (tagOf s.world a = some c.childtag) && decide (a ≠ x)) := by
      simp only [less, List.filter_filter]
    rw [this]
    conv => lhs; rhs; rw [← hlen]
    rw [filter_length_iff]
    simp

/-- A new spreadsheet document: its body element (node 0) is empty, the constructor of the body adds
the declarations, then two sheets (nodes 1 and 2) are appended. -/
def newOds (pick : Nat → List Nat → Nat) : S :=
  let W : World := .cons ⟨0, "office:spreadsheet", [], none, none⟩ .nil
    (.cons ⟨1, "table:table", [("table:name", "A".toList)], none, none⟩ .nil
    (.cons ⟨2, "table:table", [("table:name", "B".toList)], none, none⟩ .nil
    (.cons ⟨3, "table:table", [("table:name", "C".toList)], none, none⟩ .nil .nil)))
  let s : S := ⟨(Parts.bodyInit 0 "office:spreadsheet" W).1, {}⟩
  [Op.append 1, Op.append 2].foldl (Op.step pick (sheets 0)) s

/-- In every new document the position of a sheet given by `index` is not its position in the
sheets, and `insert` puts the sheet elsewhere. -/
theorem C31_refuted (pick : Nat → List Nat → Nat) :
    (sheets 0).list (newOds pick) = [1, 2] ∧
    (index (sheets 0) 1 (newOds pick)).2 = .ok 2 ∧
    (getitem pick (sheets 0) (.int 2) (newOds pick)).2.map (fun o => o.node) = .error .IndexError ∧
    (insert (sheets 0) 1 3 (newOds pick)).2 = .ok 3 ∧
    (sheets 0).list (insert (sheets 0) 1 3 (newOds pick)).1 = [3, 1, 2] := by
  refine ⟨?_, ?_, ?_, ?_, ?_⟩ <;> rfl

/-! ## C32 -/

/-- What a program may do with the sheets of its documents.  The cache is shared by all documents
(wrapcache.py:13), so every action names its container. -/
inductive Act
  /-- `sheets[key]` -/
  | get (c : Container) (key : Key)
  /-- iteration over the sheets -/
  | iter (c : Container)
  | append (c : Container) (x : Child)
  | set (c : Container) (key : Key) (x : Child)
  | del (c : Container) (key : Key)
  | insert (c : Container) (i : Int) (x : Nat)
  /-- `Table(...)`: a new element `e` and its wrapper (table.py:36-47), also `Table.copy` -/
  | create (e : Elem) (kids : Forest)
  /-- the program takes or gives up references to nodes (proxies come and go) -/
  | touch (n : Nat)
  | release (n : Nat)
  /-- any other change of the trees -/
  | edit (W : World)

/-- The new state and the `Table` objects that the program gets. -/
def Act.step (pick : Nat → List Nat → Nat) (s : S) : Act → S × List Obj
  | .get c key =>
    match getitem pick c key s with
    | (s, .ok o) => (s, [o])
    | (s, .error _) => (s, [])
  | .iter c =>
    match Pages.iter pick c s with
    | (s, .ok os) => (s, os)
    | (s, .error _) => (s, [])
  | .append c x => ((Pages.append c x s).1, [])
  | .set c key x => ((setitem pick c key x s).1, [])
  | .del c key => ((delitem pick c key s).1, [])
  | .insert c i x => ((Pages.insert c i x s).1, [])
  | .create e kids =>
    if (ids (s.world ++ single (e, kids))).Nodup then
      let (h, o) := uncachedWrap pick true e.id s.heap
      (⟨s.world ++ single (e, kids), h⟩, [o])
    else (s, [])
  | .touch n => ({ s with heap := (WrapCache.touch pick n s.heap).1 }, [])
  | .release n => ({ s with heap := WrapCache.release n s.heap }, [])
  | .edit W =>
    if (ids W).Nodup ∧ ∀ i ∈ ids s.world, i ∈ ids W then ({ s with world := W }, []) else (s, [])

/-- A history: the last state and all `Table` objects the program got in it. -/
def history (pick : Nat → List Nat → Nat) : S → List Act → S × List Obj
  | s, [] => (s, [])
  | s, a :: as =>
    let (s1, l1) := a.step pick s
    let (s2, l2) := history pick s1 as
    (s2, l1 ++ l2)

/-- The objects seen so far are the ones in the cache. -/
structure Log (s : S) (log : List Obj) : Prop where
  once : (ids s.world).Nodup
  inv : Inv s.heap
  held : ∀ o ∈ log, Holds s.heap o.node o ∧ o.node ∈ ids s.world

theorem getitem_log (hpick : ∀ k l, pick k l ∉ l) (c : Container) (key : Key)
    (hn : (ids s.world).Nodup) (hi : Inv s.heap) :
    Kept s (getitem pick c key s).1 ∧
    ∀ o, (getitem pick c key s).2 = .ok o →
      Holds (getitem pick c key s).1.heap o.node o ∧ o.node ∈ ids s.world := by
  by_cases hb : c.xmlnode ∈ ids s.world
  · have := getitem_ok hpick c hn hi hb key
    cases hl : lookup (chosen c.childtag s.world c.xmlnode) (attrOf s.world c.nametag) key with
    | error e =>
      rw [hl] at this; simp only at this; rw [this]
      exact ⟨.refl hi, fun o h => by simp at h⟩
    | ok n =>
      rw [hl] at this
      obtain ⟨s', o, a1, a2, a3⟩ := this
      rw [a1]
      refine ⟨a2, fun o' h => ?_⟩
      simp only [Except.ok.injEq] at h
      subst h
      have hnode := a3.node a2.inv
      obtain ⟨l, l1, l2, -⟩ := chosen_mem (lookup_mem hl)
      exact ⟨by rw [hnode]; exact a3, by rw [hnode]; exact child_mem l1 l2⟩
  · have hx : xmlchildren c s = (s, .error .TypeError) := by
      unfold xmlchildren; rw [find_none.mpr hb]
    have : ∃ e, getitem pick c key s = (s, .error e) := by
      cases key with
      | int i => exact ⟨_, by show childByIndex pick c i s = _; unfold childByIndex; rw [Py.bind_error hx]⟩
      | str n => exact ⟨_, by show childByName pick c n s = _; unfold childByName; rw [Py.bind_error hx]⟩
      | other => exact ⟨_, rfl⟩
    obtain ⟨e, he⟩ := this
    rw [he]
    exact ⟨.refl hi, fun o h => by simp at h⟩

theorem onWorld_log {α : Type} {m : Py World α} {log : List Obj} (h : Log s log)
    (hm : (ids (m s.world).1).Perm (ids s.world)) : Log (onWorld m s).1 log :=
  ⟨hm.nodup_iff.mpr h.once, h.inv, fun o ho => ⟨(h.held o ho).1, hm.mem_iff.mpr (h.held o ho).2⟩⟩

theorem Log.kept {s s' : S} {log : List Obj} (h : Log s log) (hk : Kept s s') : Log s' log :=
  ⟨by rw [hk.world]; exact h.once, hk.inv,
    fun o ho => ⟨hk.held _ _ (h.held o ho).1, by rw [hk.world]; exact (h.held o ho).2⟩⟩

theorem Log.add {s : S} {log l : List Obj} (h : Log s log)
    (hl : ∀ o ∈ l, Holds s.heap o.node o ∧ o.node ∈ ids s.world) : Log s (log ++ l) :=
  ⟨h.once, h.inv, fun o ho => (List.mem_append.mp ho).elim (h.held o) (hl o)⟩

theorem bind_log {α : Type} {log : List Obj} (h : Log s log) {m : Py S Obj} {f : Obj → Py S α}
    (hm : Kept s (m s).1) (hf : ∀ o s', Log s' log → Log (f o s').1 log) :
    Log ((m >>= f) s).1 log := by
  rw [Py.bind_def]
  cases hms : m s with
  | mk s' r =>
    rw [hms] at hm
    cases r with
    | error e => exact h.kept hm
    | ok o => exact hf o s' (h.kept hm)

theorem step_log (hpick : ∀ k l, pick k l ∉ l) {log : List Obj} (h : Log s log) (a : Act) :
    Log (a.step pick s).1 (log ++ (a.step pick s).2) := by
  cases a with
  | get c key =>
    obtain ⟨h1, h2⟩ := getitem_log hpick c key h.once h.inv
    simp only [Act.step]
    cases hg : getitem pick c key s with
    | mk s' r =>
      rw [hg] at h1 h2
      cases r with
      | error e => simpa using h.kept h1
      | ok o =>
        simp only
        refine (h.kept h1).add ?_
        intro o' ho'
        simp only [List.mem_singleton] at ho'
        subst ho'
        obtain ⟨b1, b2⟩ := h2 o' rfl
        exact ⟨b1, by rw [h1.world]; exact b2⟩
  | iter c =>
    simp only [Act.step]
    by_cases hb : c.xmlnode ∈ ids s.world
    · obtain ⟨ts, h1, h2, -⟩ := xmlchildren_ok h.once hb
      obtain ⟨s', os, a1, a2, a3, a4⟩ := wrapAll_ok hpick c ts h.inv
      have hi : Pages.iter pick c s = (s', .ok os) := by
        unfold Pages.iter; rw [Py.bind_ok h1]; exact a1
      simp only [hi]
      refine (h.kept a2).add fun o ho => ⟨a4 o ho, ?_⟩
      rw [a2.world]
      have : o.node ∈ chosen c.childtag s.world c.xmlnode := by
        rw [← h2, ← a3]; exact List.mem_map_of_mem ho
      obtain ⟨l, l1, l2, -⟩ := chosen_mem this
      exact child_mem l1 l2
    · have hx : xmlchildren c s = (s, .error .TypeError) := by
        unfold xmlchildren; rw [find_none.mpr hb]
      have hi : Pages.iter pick c s = (s, .error .TypeError) := by
        unfold Pages.iter; rw [Py.bind_error hx]
      simpa [hi] using h
  | append c x =>
    simp only [Act.step, List.append_nil]
    unfold Pages.append
    split
    · have := onWorld_log h (Base.append_perm h.once c.xmlnode x.xmlnode)
      rw [Py.bind_def]
      cases hm : onWorld (Lxml.append c.xmlnode x.xmlnode) s with
      | mk s' r => rw [hm] at this; cases r <;> exact this
    · exact h
  | set c key x =>
    simp only [Act.step, List.append_nil]
    by_cases hv : x.TAG = some c.childtag
    · rw [setitem_eq c key x hv]
      exact bind_log h (getitem_log hpick c key h.once h.inv).1 fun o s' h' =>
        onWorld_log h' (Base.replace_perm h'.once _ _ _)
    · rw [(C30_refused x hv key).2]; exact h
  | del c key =>
    simp only [Act.step, List.append_nil]
    rw [delitem_eq c key]
    exact bind_log h (getitem_log hpick c key h.once h.inv).1 fun o s' h' =>
      onWorld_log h' (Base.step_perm h'.once (.remove c.xmlnode o.node))
  | insert c i x =>
    simp only [Act.step, List.append_nil]
    have := onWorld_log h (Base.insert_perm h.once c.xmlnode i x)
    unfold Pages.insert
    rw [Py.bind_def]
    cases hm : onWorld (Lxml.insert c.xmlnode i x) s with
    | mk s' r => rw [hm] at this; cases r <;> exact this
  | create e kids =>
    simp only [Act.step]
    split
    · rename_i hnd
      obtain ⟨h1, h2, h3⟩ := uncachedWrap_ok hpick h.inv e.id
      cases hu : uncachedWrap pick true e.id s.heap with
      | mk hp o =>
        rw [hu] at h1 h2 h3
        simp only
        have hnew : e.id ∉ ids s.world := by
          intro hm
          rw [ids_append, List.nodup_append] at hnd
          exact hnd.2.2 _ hm _ (by simp) rfl
        have hnode := h2.node h1
        refine ⟨hnd, h1, ?_⟩
        intro o' ho'
        rcases List.mem_append.mp ho' with ho' | ho'
        · obtain ⟨b1, b2⟩ := h.held o' ho'
          exact ⟨h3 _ _ (fun he => hnew (he ▸ b2)) b1, by simp [ids_append, b2]⟩
        · simp only [List.mem_singleton] at ho'
          subst ho'
          exact ⟨by rw [hnode]; exact h2, by rw [hnode]; simp [ids_append]⟩
    · simpa using h
  | touch n =>
    simp only [Act.step, List.append_nil]
    exact ⟨h.once, (touch_ok hpick h.inv n).1,
      fun o ho => ⟨touch_holds hpick h.inv n (h.held o ho).1, (h.held o ho).2⟩⟩
  | release n =>
    simp only [Act.step, List.append_nil]
    exact ⟨h.once, (release_ok h.inv n).1,
      fun o ho => ⟨(release_ok h.inv n).2 _ _ (h.held o ho).1, (h.held o ho).2⟩⟩
  | edit W =>
    simp only [Act.step]
    split
    · rename_i hW
      simp only [List.append_nil]
      exact ⟨hW.1, h.inv, fun o ho => ⟨(h.held o ho).1, hW.2 _ (h.held o ho).2⟩⟩
    · simpa using h

theorem history_log (hpick : ∀ k l, pick k l ∉ l) {log : List Obj} (h : Log s log)
    (as : List Act) : Log (history pick s as).1 (log ++ (history pick s as).2) := by
  induction as generalizing s log with
  | nil => simpa [history] using h
  | cons a as ih =>
    have := ih (step_log hpick h a)
    rw [List.append_assoc] at this
    exact this

/-- In every history, two accesses give the same object exactly if they are to the same sheet: one
and the same `Table` object per sheet, never shared by two sheets.  `hpick`: memory in use is not
allocated again. -/
theorem C32_same (hpick : ∀ k l, pick k l ∉ l) (hn : (ids s.world).Nodup) (hi : Inv s.heap)
    (as : List Act) {o o' : Obj} (ho : o ∈ (history pick s as).2) (ho' : o' ∈ (history pick s as).2) :
    (o.node = o'.node ↔ o.id = o'.id) ∧ (o.node = o'.node → o = o') := by
  have h := history_log hpick (log := []) ⟨hn, hi, by simp⟩ as
  simp only [List.nil_append] at h
  obtain ⟨h1, -⟩ := h.held o ho
  obtain ⟨h2, -⟩ := h.held o' ho'
  have heq : o.node = o'.node → o = o' := fun he => Holds.unique h1 (he ▸ h2)
  exact ⟨⟨fun he => by rw [heq he], fun he => Holds.id h.inv h1 h2 he⟩, heq⟩

/-- The object given by an access after a history is the one seen before, if the sheet was seen or
created before. -/
theorem C32_again (hpick : ∀ k l, pick k l ∉ l) (hn : (ids s.world).Nodup) (hi : Inv s.heap)
    (as : List Act) {o : Obj} (ho : o ∈ (history pick s as).2) {c : Container} {key : Key}
    (hk : lookup (c.list (history pick s as).1) (c.name (history pick s as).1) key = .ok o.node)
    (hb : c.xmlnode ∈ ids (history pick s as).1.world) :
    (getitem pick c key (history pick s as).1).2 = .ok o := by
  have h := history_log hpick (log := []) ⟨hn, hi, by simp⟩ as
  simp only [List.nil_append] at h
  have := getitem_ok hpick c h.once h.inv hb key
  unfold Container.list at hk
  rw [show c.name (history pick s as).1 = attrOf (history pick s as).1.world c.nametag from rfl] at hk
  rw [hk] at this
  obtain ⟨s', o', a1, a2, a3⟩ := this
  rw [a1]
  rw [Holds.unique a3 (a2.held _ _ (h.held o ho).1)]

/-- Why wrapping without the cache is not among the actions: wrapping the element of a sheet by other
means (`Table(xmlnode=...)`, `wrap`, children of the body) makes a second object, and later accesses
give that one. -/
theorem C32_uncached (hpick : ∀ k l, pick k l ∉ l) {h : Heap} (hi : Inv h) {n : Nat} {o : Obj}
    (ho : Holds h n o) (t : Bool) :
    (uncachedWrap pick true n h).2.id ≠ o.id ∧
    (WrapCache.wrap pick t n (uncachedWrap pick true n h).1).2 = (uncachedWrap pick true n h).2 := by
  obtain ⟨-, h2, -⟩ := uncachedWrap_ok hpick hi n
  refine ⟨?_, by rw [wrap_hit t h2]⟩
  obtain ⟨a, a1, a2⟩ := ho
  have hlt := hi.old a o a2
  have hid : (uncachedWrap pick true n h).2.id = h.objects := by
    obtain ⟨-, -, -, h4, -⟩ := touch_ok hpick hi n
    unfold uncachedWrap
    exact h4
  omega

/-! ## Examples -/

/-- A document with other elements between its sheets, and a new sheet 5. -/
def exDoc : S :=
  ⟨.cons ⟨0, "office:spreadsheet", [], none, none⟩
    (.cons ⟨1, "text:variable-decls", [], none, none⟩ .nil
    (.cons ⟨2, "table:table", [("table:name", "A".toList)], none, none⟩ .nil
    (.cons ⟨3, "text:user-field-decls", [], none, none⟩ .nil
    (.cons ⟨4, "table:table", [("table:name", "B".toList)], none, none⟩ .nil .nil))))
    (.cons ⟨5, "table:table", [("table:name", "C".toList)], none, none⟩ .nil .nil), {}⟩

/-- An allocator that uses released addresses again. -/
def exPick (_ : Nat) (l : List Nat) : Nat := (l.foldl max 0) + 1

theorem exPick_ok : ∀ k l, exPick k l ∉ l := by
  intro k l h
  have key : ∀ (l : List Nat) (b x : Nat), x ∈ l ∨ x ≤ b → x ≤ l.foldl max b := by
    intro l
    induction l with
    | nil => intro b x h; simpa using h
    | cons y l ih =>
      intro b x h
      refine ih _ _ ?_
      rcases h with h | h
      · rcases List.mem_cons.mp h with h | h
        · exact Or.inr (by omega)
        · exact Or.inl h
      · exact Or.inr (by omega)
  have := key l 0 _ (Or.inl h)
  unfold exPick at this
  omega

theorem exDoc_good : Good (sheets 0) exDoc := ⟨by decide, Inv.empty, by decide⟩

example : (sheets 0).list exDoc = [2, 4] ∧ (sheets 0).rest exDoc = [1, 3] := by decide +kernel
example : lookup ((sheets 0).list exDoc) ((sheets 0).name exDoc) (.str "B".toList) = .ok 4 := by
  rfl
example : NoSheetAbove (sheets 0) exDoc := by
  intro a ha
  have : a = 0 := by
    cases ha with
    | self => rfl
    | @step q _ l _ hl hm =>
      exfalso
      have hq : q ∈ ids exDoc.world := by
        obtain ⟨t, h1, -⟩ := children_find hl
        exact find_mem h1
      have : ∀ q ∈ ids exDoc.world, ∀ l, children exDoc.world q = some l → (sheets 0).xmlnode ∉ l := by
        decide +kernel
      exact this q hq l hl hm
  subst this
  decide +kernel
example : ([Op.set (.str "B".toList) 5, Op.append 4, Op.del (.int 0)].foldl
    (Op.step exPick (sheets 0)) exDoc |> (sheets 0).list) = [5, 4] := by decide +kernel
/-- two accesses to sheet A around an access to sheet B and releases -/
example : ((history exPick exDoc [.get (sheets 0) (.int 0), .touch 1, .release 1,
    .get (sheets 0) (.str "B".toList), .del (sheets 0) (.int 1), .release 4,
    .create ⟨9, "table:table", [], none, none⟩ .nil, .iter (sheets 0)]).2.map
      fun o => (o.id, o.node)) = [(0, 2), (1, 4), (2, 9), (0, 2)] := by decide +kernel

end Verif.Pages
