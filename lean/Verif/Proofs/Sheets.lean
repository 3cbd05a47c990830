import Verif.Model.PageContainer
import Verif.Proofs.Base
import Verif.Proofs.WrapCache
import Verif.Props.Base
/-! Helper lemmas for C30–C32. -/
set_option linter.unusedSimpArgs false
namespace Verif.Pages
open Verif Verif.Lxml Verif.WrapCache Forest

/-! ## Specification -/

/-- The tag of a node. -/
def tagOf (W : World) (i : Nat) : Option String := (content W i).map fun e => e.tag

/-- An attribute of a node. -/
def attrOf (W : World) (k : String) (i : Nat) : Option Str := (content W i).bind fun e => e.get k

/-- The ordered children of `b` with a tag. -/
def chosen (tag : String) (W : World) (b : Nat) : List Nat :=
  ((children W b).getD []).filter fun i => tagOf W i = some tag

/-- The ordered children of `b` with another tag. -/
def others (tag : String) (W : World) (b : Nat) : List Nat :=
  ((children W b).getD []).filter fun i => tagOf W i ≠ some tag

/-- Which element of a list of named elements a key means. -/
def lookup (l : List Nat) (name : Nat → Option Str) : Key → Except Exc Nat
  | .int i =>
    if h : 0 ≤ i ∧ i < l.length then .ok (l[i.toNat]'(by omega))
    else if h : i < 0 ∧ -(l.length : Int) ≤ i then .ok (l[(i + l.length).toNat]'(by omega))
    else .error .IndexError
  | .str s =>
    match l.find? (fun i => name i = some s) with
    | some i => .ok i
    | none => .error .KeyError
  | .other => .error .TypeError

/-! ## Lemmas -/

theorem find_top {F : Forest} (hn : (ids F).Nodup) {u : Tree} (hu : u ∈ F.toList) :
    Forest.find u.1.id F = some u := by
  induction F with
  | nil => simp at hu
  | cons e k r _ ih =>
    simp only [ids, List.nodup_cons, List.mem_append, not_or, List.nodup_append] at hn
    rw [toList_cons, List.mem_cons] at hu
    rcases hu with hu | hu
    · subst hu; simp [Forest.find]
    · have hm : u.1.id ∈ ids r := roots_sub (List.mem_map_of_mem hu)
      rw [find_cons_ne (fun h => hn.1.2 (h ▸ hm)), find_none.mpr (fun h => hn.2.2.2 _ h _ hm rfl),
        ih hn.2.2.1 hu]; rfl

theorem find_child {W : World} (hn : (ids W).Nodup) {b : Nat} {t : Tree}
    (hb : Forest.find b W = some t) {u : Tree} (hu : u ∈ t.2.toList) :
    Forest.find u.1.id W = some u := by
  have hm : u.1.id ∈ roots t.2 := List.mem_map_of_mem hu
  rw [find_in hn hb (by simp [roots_sub hm])]
  have hnt := nodup_tree hn hb
  have hnt2 : (ids t.2).Nodup := by simp at hnt; exact hnt.2
  have hne : t.1.id ≠ u.1.id := by
    simp only [ids_single, List.nodup_cons] at hnt
    exact fun h => hnt.1 (h ▸ roots_sub hm)
  rw [find_single_ne hne, find_top hnt2 hu]

theorem content_child {W : World} (hn : (ids W).Nodup) {b : Nat} {t : Tree}
    (hb : Forest.find b W = some t) {u : Tree} (hu : u ∈ t.2.toList) :
    content W u.1.id = some u.1 := by
  rw [content, find_child hn hb hu]; rfl

theorem chosen_eq {W : World} (hn : (ids W).Nodup) {b : Nat} {t : Tree}
    (hb : Forest.find b W = some t) (tag : String) :
    chosen tag W b = (t.2.toList.filter fun u => u.1.tag = tag).map fun u => u.1.id := by
  have : children W b = some (t.2.toList.map fun u => u.1.id) := by simp [children, hb]
  unfold chosen
  rw [this, Option.getD_some, List.filter_map]
  congr 1
  apply List.filter_congr
  intro u hu
  simp [tagOf, content_child hn hb hu]

theorem less_filter (x : Nat) (p : Nat → Bool) (l : List Nat) :
    (less x l).filter p = less x (l.filter p) := by
  simp only [less, List.filter_filter]
  apply List.filter_congr
  intro a _
  exact Bool.and_comm _ _

theorem less_filter_out {x : Nat} {p : Nat → Bool} (h : p x = false) (l : List Nat) :
    (less x l).filter p = l.filter p := by
  rw [less_filter]
  apply without_not_mem
  intro hm
  have := (List.mem_filter.mp hm).2
  rw [h] at this; simp at this

theorem tagOf_same {W W' : World} (h : ∀ i, content W' i = content W i) (i : Nat) :
    tagOf W' i = tagOf W i := by simp only [tagOf, h]

theorem attrOf_same {W W' : World} (h : ∀ i, content W' i = content W i) (k : String) :
    attrOf W' k = attrOf W k := by funext i; simp only [attrOf, h]

theorem chosen_of {W W' : World} (h : ∀ i, content W' i = content W i) {b : Nat} {l : List Nat}
    (hc : children W' b = some l) (tag : String) :
    chosen tag W' b = l.filter (fun i => tagOf W i = some tag) ∧
    others tag W' b = l.filter (fun i => tagOf W i ≠ some tag) := by
  simp only [chosen, others, hc, Option.getD_some, tagOf_same h, and_self]

theorem chosen_nodup {W : World} (hn : (ids W).Nodup) (tag : String) (b : Nat) :
    (chosen tag W b).Nodup := by
  unfold chosen
  cases h : children W b with
  | none => simp
  | some l => simpa using (children_nodup hn h).filter _

theorem chosen_mem {W : World} {tag : String} {b i : Nat} (h : i ∈ chosen tag W b) :
    ∃ l, children W b = some l ∧ i ∈ l ∧ tagOf W i = some tag := by
  unfold chosen at h
  cases hc : children W b with
  | none => simp [hc] at h
  | some l => simp [hc] at h; exact ⟨l, rfl, h.1, h.2⟩

/-- Ancestors of `b` in the new world were ancestors before, if no other node got children. -/
theorem below_old {W W' : World} (hn : (ids W').Nodup) {b y : Nat}
    (hq : ∀ q, q ≠ b → children W' q = (children W q).map (less y)) {a : Nat}
    (h : Below W' a b) : Below W a b := by
  have key : ∀ d, Below W' a d → Below W a d ∨
      ∃ l x, children W' b = some l ∧ x ∈ l ∧ Below W' x d := by
    intro d hd
    induction hd with
    | self => exact Or.inl .self
    | @step q d l _ hl hm ih =>
      rcases ih with ih | ⟨m, x, x1, x2, x3⟩
      · by_cases hqb : q = b
        · subst hqb
          exact Or.inr ⟨l, d, hl, hm, .self⟩
        · rw [hq q hqb] at hl
          cases hc : children W q with
          | none => simp [hc] at hl
          | some m =>
            simp only [hc, Option.map_some, Option.some.injEq] at hl
            subst hl
            exact Or.inl (.step ih hc (List.mem_filter.mp hm).1)
      · exact Or.inr ⟨m, x, x1, x2, .step x3 hl hm⟩
  rcases key b h with h | ⟨l, x, h1, h2, h3⟩
  · exact h
  · exact absurd h3 (Base.below_child hn h1 h2)

/-! ## Access -/

theorem xmlchildren_ok {c : Container} {s : S} (hn : (ids s.world).Nodup)
    (hb : c.xmlnode ∈ ids s.world) :
    ∃ ts, xmlchildren c s = (s, .ok ts) ∧
      ts.map (fun u => u.1.id) = chosen c.childtag s.world c.xmlnode ∧
      ∀ u ∈ ts, content s.world u.1.id = some u.1 := by
  obtain ⟨t, ht⟩ := find_some_of_mem hb
  refine ⟨_, by unfold xmlchildren; rw [ht], (chosen_eq hn ht _).symm, ?_⟩
  intro u hu
  exact content_child hn ht (List.mem_filter.mp hu).1

/-- What a wrapping access keeps. -/
structure Kept (s s' : S) : Prop where
  world : s'.world = s.world
  inv : Inv s'.heap
  held : ∀ m o, Holds s.heap m o → Holds s'.heap m o

theorem Kept.refl {s : S} (h : Inv s.heap) : Kept s s := ⟨rfl, h, fun _ _ h => h⟩

theorem Kept.trans {a b d : S} (h1 : Kept a b) (h2 : Kept b d) : Kept a d :=
  ⟨h2.world.trans h1.world, h2.inv, fun m o h => h2.held m o (h1.held m o h)⟩

variable {pick : Nat → List Nat → Nat} (hpick : ∀ k l, pick k l ∉ l)
include hpick

theorem wrapChild_ok (c : Container) {s : S} (hi : Inv s.heap) (n : Nat) :
    ∃ s' o, wrapChild pick c n s = (s', .ok o) ∧ Kept s s' ∧ Holds s'.heap n o := by
  obtain ⟨h1, h2, h3⟩ := wrap_ok hpick hi (c.childtag = "table:table") n
  exact ⟨_, _, rfl, ⟨rfl, h1, h3⟩, h2⟩

theorem wrapAll_ok (c : Container) (ts : List Tree) : ∀ {s : S}, Inv s.heap →
    ∃ s' os, wrapAll pick c ts s = (s', .ok os) ∧ Kept s s' ∧
      os.map (fun o => o.node) = ts.map (fun u => u.1.id) ∧ ∀ o ∈ os, Holds s'.heap o.node o := by
  induction ts with
  | nil => exact fun {s} hi => ⟨s, [], rfl, .refl hi, rfl, by simp⟩
  | cons t ts ih =>
    intro s hi
    obtain ⟨s1, o, a1, a2, a3⟩ := wrapChild_ok hpick c hi t.1.id
    obtain ⟨s2, os, b1, b2, b3, b4⟩ := ih a2.inv
    have hnode := a3.node a2.inv
    refine ⟨s2, o :: os, ?_, a2.trans b2, by simp [b3, hnode], ?_⟩
    · unfold wrapAll
      rw [Py.bind_ok a1, Py.bind_ok b1]; rfl
    · intro x hx
      rcases List.mem_cons.mp hx with hx | hx
      · subst hx; rw [hnode]; exact b2.held _ _ a3
      · exact b4 x hx

theorem findName_ok (c : Container) {s : S} (hi : Inv s.heap) (name : Str) (ts : List Tree)
    (hts : ∀ u ∈ ts, content s.world u.1.id = some u.1) :
    match lookup (ts.map fun u => u.1.id) (attrOf s.world c.nametag) (.str name) with
    | .ok n => ∃ s' o, findName pick c name ts s = (s', .ok o) ∧ Kept s s' ∧ Holds s'.heap n o
    | .error e => findName pick c name ts s = (s, .error e) := by
  induction ts with
  | nil => rfl
  | cons t ts ih =>
    have ha : attrOf s.world c.nametag t.1.id = t.1.get c.nametag := by
      simp [attrOf, hts t (by simp)]
    unfold findName lookup
    simp only [List.map_cons, List.find?_cons, ha]
    by_cases h : t.1.get c.nametag = some name
    · simp only [h, decide_true, if_true]
      exact wrapChild_ok hpick c hi t.1.id
    · simp only [h, decide_false, if_false]
      exact ih fun u hu => hts u (by simp [hu])

theorem getitem_ok (c : Container) {s : S} (hn : (ids s.world).Nodup) (hi : Inv s.heap)
    (hb : c.xmlnode ∈ ids s.world) (key : Key) :
    match lookup (chosen c.childtag s.world c.xmlnode) (attrOf s.world c.nametag) key with
    | .ok n => ∃ s' o, getitem pick c key s = (s', .ok o) ∧ Kept s s' ∧ Holds s'.heap n o
    | .error e => getitem pick c key s = (s, .error e) := by
  obtain ⟨ts, h1, h2, h3⟩ := xmlchildren_ok hn hb
  cases key with
  | other => rfl
  | str name =>
    have := findName_ok hpick c hi name ts h3
    rw [h2] at this
    have hg : getitem pick c (.str name) s = findName pick c name ts s := by
      show childByName pick c name s = _
      unfold childByName
      rw [Py.bind_ok h1]
    rw [hg]
    exact this
  | int i =>
    rw [← h2]
    have hg : getitem pick c (.int i) s = (match pyIdx ts.length i with
        | none => (.raise .IndexError : Py S Obj)
        | some n =>
          match ts[n]? with
          | none => .raise .IndexError
          | some t => wrapChild pick c t.1.id) s := by
      show childByIndex pick c i s = _
      unfold childByIndex
      rw [Py.bind_ok h1]
      rfl
    rw [hg]
    unfold lookup
    simp only [List.length_map, List.getElem_map]
    by_cases a1 : 0 ≤ i ∧ i < ts.length
    · have hx : pyIdx ts.length i = some i.toNat := by
        simp only [pyIdx, if_pos a1.1]; rw [if_pos (by omega)]
      have hlt : i.toNat < ts.length := by omega
      rw [dif_pos a1]
      simp only [hx, List.getElem?_eq_getElem hlt]
      exact wrapChild_ok hpick c hi _
    · by_cases a2 : i < 0 ∧ -(ts.length : Int) ≤ i
      · have hx : pyIdx ts.length i = some (i + ts.length).toNat := by
          simp only [pyIdx, if_neg (show ¬ 0 ≤ i by omega)]; rw [if_pos (by omega)]
        have hlt : (i + ts.length).toNat < ts.length := by omega
        rw [dif_neg a1, dif_pos a2]
        simp only [hx, List.getElem?_eq_getElem hlt]
        exact wrapChild_ok hpick c hi _
      · have hx : pyIdx ts.length i = none := by
          simp only [pyIdx]; split
          · rw [if_neg (by omega)]
          · rw [if_neg (by omega)]
        rw [dif_neg a1, dif_neg a2]
        simp only [hx]; rfl

omit hpick in
theorem setitem_eq (c : Container) (key : Key) (child : Child) (h : child.TAG = some c.childtag) :
    setitem pick c key child = (getitem pick c key >>= fun o =>
      onWorld (Lxml.replace c.xmlnode o.node child.xmlnode)) := by
  unfold setitem
  simp only [isValidChild, h, decide_true, Bool.not_true, Bool.false_eq_true, if_false]
  cases key <;> rfl

omit hpick in
theorem delitem_eq (c : Container) (key : Key) :
    delitem pick c key = (getitem pick c key >>= fun o =>
      onWorld (Lxml.remove c.xmlnode o.node)) := by
  cases key <;> rfl

omit hpick in
theorem lookup_mem {l : List Nat} {name : Nat → Option Str} {key : Key} {n : Nat}
    (h : lookup l name key = .ok n) : n ∈ l := by
  cases key with
  | other => simp [lookup] at h
  | str s =>
    unfold lookup at h
    cases hf : l.find? (fun i => name i = some s) with
    | none => simp [hf] at h
    | some i => simp [hf] at h; subst h; exact List.mem_of_find?_eq_some hf
  | int i =>
    unfold lookup at h
    simp only at h
    split at h
    · cases h; exact List.getElem_mem _
    · split at h
      · cases h; exact List.getElem_mem _
      · simp at h

omit hpick in
theorem onWorld_ok {α : Type} {m : Py World α} {s : S} {W : World} {r : Except Exc α}
    (h : m s.world = (W, r)) : onWorld m s = ({ s with world := W }, r) := by
  simp only [onWorld, h]

end Verif.Pages
