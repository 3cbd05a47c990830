import Verif.Model.Variables
import Verif.Proofs.Sheets
import Verif.Proofs.Cells
/-! Specification and helper lemmas for C54. -/
set_option linter.unusedSimpArgs false
namespace Verif.Forest

theorem ids_map {g : Elem → Elem} (hg : ∀ e, (g e).id = e.id) (F : Forest) : ids (map g F) = ids F := by
  induction F with
  | nil => rfl
  | cons e k r ihk ihr => simp [map, ids, hg, ihk, ihr]

theorem find_map {g : Elem → Elem} (hg : ∀ e, (g e).id = e.id) (i : Nat) (F : Forest) :
    find i (map g F) = (find i F).map fun t => (g t.1, map g t.2) := by
  induction F with
  | nil => rfl
  | cons e k r ihk ihr =>
    simp only [map, find, hg]
    split
    · rfl
    · rw [ihk]
      cases find i k with
      | none => simp [ihr]
      | some t => rfl

theorem sel_map {p : Elem → Bool} {g : Elem → Elem} (hp : ∀ e, p (g e) = p e) (F : Forest) :
    sel p (map g F) = (sel p F).map fun t => (g t.1, map g t.2) := by
  induction F with
  | nil => rfl
  | cons e k r ihk ihr =>
    simp only [map, sel, hp, ihk, ihr, List.map_append]
    split <;> simp

theorem map_map (g h : Elem → Elem) (F : Forest) : map g (map h F) = map (g ∘ h) F := by
  induction F with
  | nil => rfl
  | cons e k r ihk ihr => simp [map, ihk, ihr]

theorem map_congr {g h : Elem → Elem} (F : Forest) (H : ∀ e, g e = h e) : map g F = map h F := by
  have : g = h := funext H
  rw [this]

theorem toList_map (g : Elem → Elem) (F : Forest) :
    (map g F).toList = F.toList.map fun t => (g t.1, map g t.2) := by
  induction F with
  | nil => rfl
  | cons e k r _ ihr => simp [map, ihr]

theorem mem_sel_of_find {p : Elem → Bool} {F : Forest} {i : Nat} {t : Tree} (h : find i F = some t)
    (hp : p t.1 = true) : t ∈ sel p F := by
  induction F with
  | nil => simp [find] at h
  | cons e k r ihk ihr =>
    simp only [find] at h
    simp only [sel, List.mem_append]
    split at h
    · cases h; left; simp only at hp; simp [hp]
    · cases hk : find i k with
      | some u => rw [hk] at h; simp only [Option.some.injEq] at h; right; left; exact ihk (h ▸ hk)
      | none => rw [hk] at h; right; right; exact ihr h

end Verif.Forest

namespace Verif
theorem Attrs.set_set (a : Attrs) (k : String) (v w : Str) :
    Attrs.set (Attrs.set a k v) k w = Attrs.set a k w := by
  induction a with
  | nil => simp [Attrs.set]
  | cons x a ih =>
    obtain ⟨k', v'⟩ := x
    by_cases h : k' = k
    · simp [Attrs.set, h]
    · simp [Attrs.set, h, ih]
end Verif

namespace Verif.Lxml
open Verif Forest

theorem content_map {g : Elem → Elem} (hg : ∀ e, (g e).id = e.id) (W : World) (i : Nat) :
    content (W.map g) i = (content W i).map g := by
  simp only [content, find_map hg, Option.map_map]; rfl

theorem roots_map {g : Elem → Elem} (hg : ∀ e, (g e).id = e.id) (F : Forest) :
    roots (F.map g) = roots F := by
  simp only [roots, toList_map, List.map_map]
  apply List.map_congr_left
  intro t _
  simp [hg]

theorem children_map {g : Elem → Elem} (hg : ∀ e, (g e).id = e.id) (W : World) (i : Nat) :
    children (W.map g) i = children W i := by
  simp only [children, find_map hg, Option.map_map]
  congr 1
  funext t
  exact roots_map hg t.2

theorem tops_map {g : Elem → Elem} (hg : ∀ e, (g e).id = e.id) (W : World) :
    tops (W.map g) = tops W := roots_map hg W

theorem parentIn_map {g : Elem → Elem} (hg : ∀ e, (g e).id = e.id) (i : Nat) (par : Option Nat)
    (W : World) : Base.parentIn i par (W.map g) = Base.parentIn i par W := by
  induction W generalizing par with
  | nil => rfl
  | cons e k r ihk ihr =>
    simp only [Forest.map, Base.parentIn, hg, find_map hg, ihk, ihr, Option.isSome_map]

theorem climb_map {g : Elem → Elem} (hg : ∀ e, (g e).id = e.id) (n : Nat) (W : World) (x : Nat) :
    Base.climb n (W.map g) x = Base.climb n W x := by
  induction n generalizing x with
  | zero => rfl
  | succ n ih =>
    simp only [Base.climb, parentIn_map hg]
    cases Base.parentIn x none W with
    | none => rfl
    | some q => exact ih q

theorem root_map {g : Elem → Elem} (hg : ∀ e, (g e).id = e.id) (x : Nat) (W : World) :
    Base.getXmlroot x (W.map g) = (W.map g, (Base.getXmlroot x W).2) := by
  simp only [Base.getXmlroot, climb_map hg, ids_map hg]

theorem below_map {g : Elem → Elem} (hg : ∀ e, (g e).id = e.id) {W : World} {a d : Nat} :
    Below (W.map g) a d ↔ Below W a d := by
  constructor
  · intro h
    induction h with
    | self => exact .self
    | step _ hq hm ih => exact .step ih (by rwa [children_map hg] at hq) hm
  · intro h
    induction h with
    | self => exact .self
    | step _ hq hm ih => exact .step ih (by rwa [children_map hg]) hm

/-- The trees of a world are disjoint. -/
theorem top_unique {W : World} (hn : (ids W).Nodup) {r r' d : Nat} (hr : r ∈ tops W) (hr' : r' ∈ tops W)
    (h : Below W r d) (h' : Below W r' d) : r = r' := by
  obtain ⟨u, hu, e⟩ := List.mem_map.mp hr
  obtain ⟨u', hu', e'⟩ := List.mem_map.mp hr'
  have hd := (below_iff hn (e ▸ Pages.find_top hn hu)).mpr h
  have hd' := (below_iff hn (e' ▸ Pages.find_top hn hu')).mpr h'
  have key : ∀ F : Forest, (ids F).Nodup → ∀ u ∈ F.toList, ∀ u' ∈ F.toList, d ∈ ids (single u) →
      d ∈ ids (single u') → u = u' := by
    intro F
    have hsub : ∀ (F : Forest) (u : Tree), u ∈ F.toList → d ∈ ids (single u) → d ∈ ids F := by
      intro F
      induction F with
      | nil => simp
      | cons e k r _ ih =>
        intro u hu hd
        rcases List.mem_cons.mp hu with hu | hu
        · subst hu; simp only [ids_single, List.mem_cons] at hd; simp only [ids, List.mem_cons, List.mem_append]
          rcases hd with hd | hd
          · exact Or.inl hd
          · exact Or.inr (Or.inl hd)
        · simp only [ids, List.mem_cons, List.mem_append]; exact Or.inr (Or.inr (ih u hu hd))
    induction F with
    | nil => simp
    | cons e k r _ ih =>
      intro hn u hu u' hu' hd hd'
      have hn2 := hn
      simp only [ids, List.nodup_cons, List.mem_append, not_or, List.nodup_append] at hn2
      have hout : ∀ v ∈ r.toList, d ∈ ids (single v) → d ∈ ids (single (e, k)) → False := by
        intro v hv h1 h2
        have := hsub r v hv h1
        simp only [ids_single, List.mem_cons] at h2
        rcases h2 with h2 | h2
        · exact hn2.1.2 (h2 ▸ this)
        · exact hn2.2.2.2 _ h2 _ this rfl
      rcases List.mem_cons.mp hu with hu | hu <;> rcases List.mem_cons.mp hu' with hu' | hu'
      · rw [hu, hu']
      · subst hu; exact (hout u' hu' hd' hd).elim
      · subst hu'; exact (hout u hu hd hd').elim
      · exact ih hn2.2.2.1 u hu u' hu' hd hd'
  rw [← e, ← e', key W hn u hu u' hu' hd hd']

end Verif.Lxml

namespace Verif.Vars
open Verif Verif.Lxml Verif.Cells Forest
variable {L : FloatLib}

/-! ## Specification -/

/-- `i` is an instance of the simple variable `name` in the tree of `d`. -/
def IsInstance (W : World) (d : Nat) (name : Str) (i : Nat) : Prop :=
  (∃ e, content W i = some e ∧
    e.tag ∈ ["text:variable-set", "text:variable-get", "text:variable-input"] ∧
    e.get "text:name" = some name) ∧
  ∃ r ∈ tops W, Below W r d ∧ Below W r i ∧ i ≠ r

/-- An instance that shows a value. -/
def written (x : Val L) (e : Elem) : Elem :=
  { e with text := some (tostr x), attrs := Attrs.set e.attrs "office:value-type" (typeName x) }

/-- Changes that keep identity, tag and name. -/
def Keeps (g : Elem → Elem) : Prop :=
  ∀ e, (g e).id = e.id ∧ (g e).tag = e.tag ∧ (g e).get "text:name" = e.get "text:name"

/-! ## Instances -/

theorem findInst_map {g : Elem → Elem} (hg : Keeps g) (r : Nat) (tag : String) (name : Str) (W : World) :
    findInst r tag name (W.map g) = (W.map g, (findInst r tag name W).2) := by
  unfold findInst
  rw [find_map fun e => (hg e).1]
  cases W.find r with
  | none => rfl
  | some t =>
    simp only [Option.map_some]
    rw [sel_map (fun e => by simp only [(hg e).2.1, (hg e).2.2])]
    simp only [List.map_map, Prod.mk.injEq, Except.ok.injEq, true_and]
    apply List.map_congr_left
    intro u _
    simp [(hg u.1).1]

theorem findInst_fst (r : Nat) (tag : String) (name : Str) (W : World) :
    (findInst r tag name W).1 = W := by
  unfold findInst; split <;> rfl

/-- For names without apostrophe the instances are found. -/
theorem instances_ok {W : World} (hn : (ids W).Nodup) {d : Nat} (hd : d ∈ ids W) {name : Str}
    (hq : '\'' ∉ name) :
    ∃ is, instances ⟨d, some name⟩ W = (W, .ok is) ∧ (∀ i, i ∈ is ↔ IsInstance W d name i) ∧
      ∀ g, Keeps g → instances ⟨d, some name⟩ (W.map g) = (W.map g, .ok is) := by
  obtain ⟨r, h1, h2, h3⟩ := Base.C57_root hn hd
  obtain ⟨u, hu, hr⟩ := List.mem_map.mp h2
  have hf : Forest.find r W = some u := hr ▸ Pages.find_top hn hu
  have hq' : (name.contains '\'') = false := by simpa using hq
  have hsel : ∀ tag, findInst r tag name W = (W, .ok ((u.2.sel fun e => e.tag = tag ∧
      e.get "text:name" = some name).map fun v => v.1.id)) := by
    intro tag; unfold findInst; rw [hf]
  have hmem : ∀ tag i, i ∈ ((u.2.sel fun e => e.tag = tag ∧
      e.get "text:name" = some name).map fun v => v.1.id) ↔
      (∃ e, content W i = some e ∧ e.tag = tag ∧ e.get "text:name" = some name) ∧
        Below W r i ∧ i ≠ r := by
    intro tag i
    have hnt := nodup_tree hn hf
    have hru : u.1.id = r := hr
    have hnu : (ids u.2).Nodup := by simp at hnt; exact hnt.2
    have hru2 : r ∉ ids u.2 := by simp [hru] at hnt; exact hnt.1
    have hfi : ∀ i, i ≠ r → i ∈ ids u.2 → Forest.find i W = Forest.find i u.2 := by
      intro i hi hm
      rw [find_in hn hf (by simp [hm]), find_single_ne (by rw [hru]; exact fun e => hi e.symm)]
    constructor
    · intro h
      obtain ⟨v, hv, e⟩ := List.mem_map.mp h
      obtain ⟨p1, p2⟩ := mem_sel_ids hv
      have hfv := find_of_mem_sel hnu hv
      rw [e] at p2 hfv
      have hir : i ≠ r := fun e => hru2 (e ▸ p2)
      refine ⟨⟨v.1, ?_, ?_⟩, (below_iff hn hf).mp (by simp [p2]), hir⟩
      · rw [content, hfi i hir p2, hfv]; rfl
      · simpa using p1
    · rintro ⟨⟨e, c1, c2, c3⟩, hb, hir⟩
      have hm := (below_iff hn hf).mpr hb
      simp only [ids_single, hru, List.mem_cons] at hm
      have hm := hm.resolve_left hir
      have hfw := hfi i hir hm
      rw [content, hfw] at c1
      cases hv : Forest.find i u.2 with
      | none => rw [hv] at c1; simp at c1
      | some v =>
        rw [hv] at c1
        simp only [Option.map_some, Option.some.injEq] at c1
        have hi := (find_mem_ids hv).1
        refine List.mem_map.mpr ⟨v, mem_sel_of_find hv ?_, hi⟩
        simp [c1, c2, c3]
  let S : String → List Nat := fun tag => (u.2.sel fun e => e.tag = tag ∧
      e.get "text:name" = some name).map fun v => v.1.id
  refine ⟨S "text:variable-set" ++ S "text:variable-get" ++ S "text:variable-input", ?_, ?_, ?_⟩
  rotate_left
  · intro i
    rw [List.mem_append, List.mem_append, hmem, hmem, hmem]
    unfold IsInstance
    constructor
    · intro h
      have : (∃ e, content W i = some e ∧
          e.tag ∈ ["text:variable-set", "text:variable-get", "text:variable-input"] ∧
          e.get "text:name" = some name) ∧ Below W r i ∧ i ≠ r := by
        rcases h with (⟨⟨e, c1, c2, c3⟩, h⟩ | ⟨⟨e, c1, c2, c3⟩, h⟩) | ⟨⟨e, c1, c2, c3⟩, h⟩ <;>
          exact ⟨⟨e, c1, by simp [c2], c3⟩, h⟩
      exact ⟨this.1, r, h2, h3, this.2⟩
    · rintro ⟨⟨e, c1, c2, c3⟩, r', t1, t2, t3, t4⟩
      have : r' = r := top_unique hn t1 h2 t2 h3
      subst this
      simp only [List.mem_cons, List.not_mem_nil, or_false] at c2
      rcases c2 with c2 | c2 | c2
      · exact Or.inl (Or.inl ⟨⟨e, c1, c2, c3⟩, t3, t4⟩)
      · exact Or.inl (Or.inr ⟨⟨e, c1, c2, c3⟩, t3, t4⟩)
      · exact Or.inr ⟨⟨e, c1, c2, c3⟩, t3, t4⟩
  · intro g hg
    have h1' : Base.getXmlroot d (W.map g) = (W.map g, .ok r) := by
      rw [root_map fun e => (hg e).1, h1]
    have hs' : ∀ tag, findInst r tag name (W.map g) = (W.map g, .ok ((u.2.sel fun e => e.tag = tag ∧
      e.get "text:name" = some name).map fun v => v.1.id)) := by
      intro tag; rw [findInst_map hg, hsel]
    unfold instances
    simp only [Option.getD_some, hq', Bool.false_eq_true, if_false]
    rw [Py.bind_ok h1', Py.bind_ok (hs' _), Py.bind_ok (hs' _), Py.bind_ok (hs' _)]; rfl
  · unfold instances
    simp only [Option.getD_some, hq', Bool.false_eq_true, if_false]
    rw [Py.bind_ok h1, Py.bind_ok (hsel _), Py.bind_ok (hsel _), Py.bind_ok (hsel _)]; rfl

/-! ## Changes -/

/-- Change of the nodes of a list. -/
def on (ns : List Nat) (f : Elem → Elem) (e : Elem) : Elem := if e.id ∈ ns then f e else e

theorem each_amend {f : Elem → Elem} (hid : ∀ e, (f e).id = e.id) (hf : ∀ e, f (f e) = f e)
    {m : Nat → Py World Unit} (hm : ∀ n W, m n W = (W.map fun e => if e.id = n then f e else e, .ok ()))
    (ns : List Nat) (W : World) : each m ns W = (W.map (on ns f), .ok ()) := by
  induction ns generalizing W with
  | nil =>
    unfold each
    have : W.map (on [] f) = W := by
      have : on [] f = id := by funext e; simp [on]
      rw [this]
      induction W with
      | nil => rfl
      | cons e k r ihk ihr => simp [Forest.map, ihk, ihr]
    rw [this]; rfl
  | cons n ns ih =>
    unfold each
    rw [Py.bind_ok (hm n W), ih, Forest.map_map]
    congr 1
    apply Forest.map_congr
    intro e
    simp only [Function.comp, on, List.mem_cons]
    by_cases h1 : e.id = n
    · simp only [h1, true_or, if_true, hid]
      by_cases h2 : n ∈ ns
      · simp [h2, hf]
      · simp [h2]
    · simp [h1]

theorem instSetType_eq (n : Nat) {t : Str} (ht : t ≠ []) (W : World) :
    instSetType n t W = (W.map fun e => if e.id = n then e.set "office:value-type" t else e, .ok ()) := by
  unfold instSetType setAttr
  have : truth (.str t : Val ⟨Unit, fun _ => [], fun _ => none, fun _ => true⟩) = true := by
    cases t with
    | nil => exact absurd rfl ht
    | cons c t => rfl
  rw [if_pos this]; rfl

theorem typeName_ne (x : Val L) : typeName x ≠ [] := by
  cases x <;> simp [typeName]

theorem instSetValue_eq (n : Nat) (x : Val L) (W : World) :
    instSetValue n x W = (W.map fun e => if e.id = n then written x e else e, .ok ()) := by
  unfold instSetValue
  have h1 : amend n (fun e => { e with text := some (tostr x) }) W =
    (W.map fun e => if e.id = n then { e with text := some (tostr x) } else e, .ok ()) := rfl
  rw [Py.bind_ok h1, instSetType_eq n (typeName_ne x), Forest.map_map]
  congr 1
  apply Forest.map_congr
  intro e
  simp only [Function.comp]
  by_cases h : e.id = n
  · simp [h, written, Elem.set]
  · simp [h]

theorem set_idem (e : Elem) (k : String) (v : Str) : (e.set k v).set k v = e.set k v := by
  simp [Elem.set, Attrs.set_set]

theorem written_idem (x : Val L) (e : Elem) : written x (written x e) = written x e := by
  simp [written, Attrs.set_set]

theorem keeps_on {ns : List Nat} {f : Elem → Elem} (hf : Keeps f) : Keeps (on ns f) := by
  intro e; unfold on; split
  · exact hf e
  · exact ⟨rfl, rfl, rfl⟩

theorem keeps_set {k : String} (hk : k ≠ "text:name") (v : Str) : Keeps (fun e => e.set k v) := by
  intro e
  exact ⟨rfl, rfl, by simp [Elem.get_set, Ne.symm hk, hk]⟩

theorem keeps_written (x : Val L) : Keeps (written x) := by
  intro e
  refine ⟨rfl, rfl, ?_⟩
  show ((e.set "office:value-type" (typeName x))).get "text:name" = _
  rw [Elem.get_set]; simp

theorem keeps_comp {f g : Elem → Elem} (hf : Keeps f) (hg : Keeps g) : Keeps (f ∘ g) := by
  intro e
  obtain ⟨a, b, c⟩ := hg e
  obtain ⟨a', b', c'⟩ := hf (g e)
  exact ⟨a'.trans a, b'.trans b, c'.trans c⟩

/-- The `type` setter changes the declaration and the instances. -/
theorem setType_eq {W : World} {v : Variable} {is : List Nat}
    (hi : ∀ g, Keeps g → instances v (W.map g) = (W.map g, .ok is)) {g : Elem → Elem} (hg : Keeps g)
    {t : Str} (ht : t ≠ []) :
    setType v t (W.map g) =
      (W.map (on is (fun e => e.set "office:value-type" t) ∘
        (on [v.node] (fun e => e.set "office:value-type" t) ∘ g)), .ok ()) := by
  unfold setType
  have hk := keeps_set (k := "office:value-type") (by decide) t
  have h1 := instSetType_eq v.node ht (W.map g)
  rw [Forest.map_map] at h1
  have e1 : ((fun e : Elem => if e.id = v.node then e.set "office:value-type" t else e) ∘ g) =
      on [v.node] (fun e => e.set "office:value-type" t) ∘ g := by
    funext e; simp [on]
  rw [e1] at h1
  rw [Py.bind_ok h1, Py.bind_ok (hi _ (keeps_comp (keeps_on hk) hg)),
    each_amend (f := fun e => e.set "office:value-type" t) (fun _ => rfl) (fun e => set_idem e _ _)
      (fun n W => instSetType_eq n ht W), Forest.map_map]

/-- The instances found in a world. -/
def insts (W : World) (v : Variable) : List Nat :=
  match (instances v W).2 with
  | .ok is => is
  | .error _ => []

/-- A declaration as the containers make it. -/
structure Declared (W : World) (tag : String) (v : Variable) : Prop where
  name : ∃ k, v.name = some k ∧ '\'' ∉ k ∧ ∃ e, content W v.node = some e ∧ e.tag = tag ∧
    e.get "text:name" = some k

theorem declared_insts {W : World} (hn : (ids W).Nodup) {tag : String} {v : Variable}
    (h : Declared W tag v) :
    (∀ i, i ∈ insts W v ↔ ∃ k, v.name = some k ∧ IsInstance W v.node k i) ∧
    ∀ g, Keeps g → instances v (W.map g) = (W.map g, .ok (insts W v)) := by
  obtain ⟨k, h1, h2, e, h3, -, -⟩ := h.name
  obtain ⟨node, nm⟩ := v
  simp only at h1 h3
  subst h1
  have hd : node ∈ ids W := by
    unfold content at h3
    cases hf : Forest.find node W with
    | none => rw [hf] at h3; simp at h3
    | some t => exact (find_mem hf)
  obtain ⟨is, a1, a2, a3⟩ := instances_ok hn hd h2
  have : insts W ⟨node, some k⟩ = is := by unfold insts; rw [a1]
  rw [this]
  refine ⟨fun i => ?_, a3⟩
  rw [a2 i]
  constructor
  · intro h; exact ⟨k, rfl, h⟩
  · rintro ⟨k', h1, h2⟩; cases h1; exact h2

/-- What an assignment to a simple variable does to an element. -/
def simpleG (W : World) (v : Variable) (x : Val L) (e : Elem) : Elem :=
  if e.id ∈ insts W v then written x e
  else if e.id = v.node then e.set "office:value-type" (typeName x) else e

/-- The attributes of the declaration of a user field. -/
def fieldWritten (x : Val L) (e : Elem) : Elem :=
  match x with
  | .bool b => (e.set "office:value-type" "boolean".toList).set "office:boolean-value"
      (if b then "true".toList else "false".toList)
  | .int _ => (e.set "office:value" (tostr x)).set "office:value-type" "float".toList
  | .float _ => (e.set "office:value" (tostr x)).set "office:value-type" "float".toList
  | .str _ => (e.set "office:string-value" (tostr x)).set "office:value-type" "string".toList

/-- Values a user field accepts. -/
def accepted : Val L → Bool
  | .bool _ => true
  | x => truth x

/-- What an assignment to a user field does to an element. -/
def fieldG (W : World) (v : Variable) (x : Val L) (e : Elem) : Elem :=
  if e.id ∈ insts W v then written x e
  else if e.id = v.node ∧ accepted x = true then fieldWritten x e else e

theorem keeps_simpleG (W : World) (v : Variable) (x : Val L) : Keeps (simpleG W v x) := by
  intro e; unfold simpleG
  split
  · exact keeps_written x e
  · split
    · exact keeps_set (by decide) _ e
    · exact ⟨rfl, rfl, rfl⟩

theorem keeps_fieldWritten (x : Val L) : Keeps (fieldWritten x) := by
  intro e
  cases x <;> exact ⟨rfl, rfl, by simp [fieldWritten, Elem.get_set]⟩

theorem keeps_fieldG (W : World) (v : Variable) (x : Val L) : Keeps (fieldG W v x) := by
  intro e; unfold fieldG
  split
  · exact keeps_written x e
  · split
    · exact keeps_fieldWritten x e
    · exact ⟨rfl, rfl, rfl⟩

theorem keeps_id : Keeps id := fun _ => ⟨rfl, rfl, rfl⟩

theorem simpleSet_eq {W : World} (hn : (ids W).Nodup) {v : Variable}
    (h : Declared W tag v) {g : Elem → Elem} (hg : Keeps g) (x : Val L) :
    simpleSet v x (W.map g) = (W.map (simpleG W v x ∘ g), .ok ()) := by
  obtain ⟨-, a2⟩ := declared_insts hn h
  unfold simpleSet
  rw [Py.bind_ok (a2 g hg)]
  have h1 := each_amend (f := written x) (fun _ => rfl) (written_idem x)
    (fun n W => instSetValue_eq n x W) (insts W v) (W.map g)
  rw [Forest.map_map] at h1
  rw [Py.bind_ok h1, setType_eq a2 (keeps_comp (keeps_on (keeps_written x)) hg) (typeName_ne x)]
  congr 1
  apply Forest.map_congr
  intro e
  simp only [Function.comp]
  generalize g e = e
  unfold on simpleG
  by_cases m : e.id ∈ insts W v
  · by_cases m2 : e.id = v.node
    · have m3 : v.node ∈ insts W v := m2 ▸ m
      simp [m2, m3, written, Elem.set, Attrs.set_set]
    · simp [m, m2, written, Elem.set, Attrs.set_set]
  · by_cases m2 : e.id = v.node
    · have m3 : v.node ∉ insts W v := m2 ▸ m
      simp [m2, m3, Elem.set, Attrs.set_set]
    · simp [m, m2]

/-- A declaration is no instance. -/
theorem decl_not_inst {W : World} (hn : (ids W).Nodup) {tag : String} {v : Variable}
    (h : Declared W tag v) (ht : tag = "text:variable-decl" ∨ tag = "text:user-field-decl")
    {tag' : String} {u : Variable} (hu : Declared W tag' u) : v.node ∉ insts W u := by
  intro hm
  obtain ⟨k, -, ⟨e, c1, c2, -⟩, -⟩ := ((declared_insts hn hu).1 _).mp hm
  obtain ⟨k', -, -, e', d1, d2, -⟩ := h.name
  rw [c1] at d1
  cases d1
  rw [d2] at c2
  rcases ht with ht | ht <;> subst ht <;> exact absurd c2 (by decide)

theorem fieldSet_eq {W : World} (hn : (ids W).Nodup) {v : Variable}
    (h : Declared W "text:user-field-decl" v) {g : Elem → Elem} (hg : Keeps g) (x : Val L) :
    fieldSet v x (W.map g) = (W.map (fieldG W v x ∘ g),
      if accepted x then .ok () else .error .ValueError) := by
  obtain ⟨-, a2⟩ := declared_insts hn h
  have hd := decl_not_inst hn h (Or.inr rfl) h
  unfold fieldSet
  rw [Py.bind_ok (a2 g hg)]
  have h1 := each_amend (f := written x) (fun _ => rfl) (written_idem x)
    (fun n W => instSetValue_eq n x W) (insts W v) (W.map g)
  rw [Forest.map_map] at h1
  rw [Py.bind_ok h1]
  have hk := keeps_comp (keeps_on (ns := insts W v) (keeps_written x)) hg
  -- numbers and text
  have number : ∀ (key : String) (ty : Str), key ≠ "text:name" → ty ≠ [] → typeName x = ty →
      (∀ e, fieldWritten x e = (e.set key (tostr x)).set "office:value-type" ty) →
      accepted x = truth x →
      (do setAttr v.node key x; setType v ty : Py World Unit) (W.map (on (insts W v) (written x) ∘ g)) =
      (W.map (fieldG W v x ∘ g), if accepted x then .ok () else .error .ValueError) := by
    intro key ty hkey hty hx hw hacc
    by_cases ht : truth x = true
    · have h2 : setAttr v.node key x (W.map (on (insts W v) (written x) ∘ g)) =
          (W.map (on [v.node] (fun e => e.set key (tostr x)) ∘ (on (insts W v) (written x) ∘ g)),
            .ok ()) := by
        unfold setAttr
        rw [if_pos ht]
        show (Forest.map _ _, _) = _
        rw [Forest.map_map]
        congr 1
        apply Forest.map_congr
        intro e
        show (if ((on (insts W v) (written x) ∘ g) e).id = v.node then _ else _) =
          on [v.node] _ ((on (insts W v) (written x) ∘ g) e)
        generalize (on (insts W v) (written x) ∘ g) e = e'
        by_cases m : e'.id = v.node <;> simp [on, m]
      rw [Py.bind_ok h2, setType_eq a2 (keeps_comp (keeps_on (keeps_set hkey _)) hk) hty]
      rw [hacc, if_pos ht]
      congr 1
      apply Forest.map_congr
      intro e
      simp only [Function.comp]
      generalize g e = e
      unfold on fieldG
      by_cases m : e.id ∈ insts W v
      · have m2 : e.id ≠ v.node := fun e' => hd (e' ▸ m)
        simp [m, m2, written, Elem.set, Attrs.set_set, hx]
      · by_cases m2 : e.id = v.node
        · have m3 : v.node ∉ insts W v := m2 ▸ m
          rw [hw]
          simp [m2, m3, Elem.set, hacc, ht]
        · simp [m, m2]
    · have h2 : setAttr v.node key x (W.map (on (insts W v) (written x) ∘ g)) =
          (W.map (on (insts W v) (written x) ∘ g), .error .ValueError) := by
        unfold setAttr; rw [if_neg ht]; rfl
      rw [Py.bind_error h2, hacc, if_neg ht]
      congr 1
      apply Forest.map_congr
      intro e
      simp only [Function.comp]
      generalize g e = e
      unfold on fieldG
      have : ¬ accepted x = true := by rw [hacc]; exact ht
      simp [this]
  cases x with
  | bool b =>
    simp only [accepted, if_true]
    rw [Py.bind_ok (setType_eq a2 hk (t := "boolean".toList) (by decide))]
    show (Forest.map _ _, _) = _
    rw [Forest.map_map]
    congr 1
    apply Forest.map_congr
    intro e
    simp only [Function.comp]
    generalize g e = e
    unfold on fieldG
    by_cases m : e.id ∈ insts W v
    · have m2 : e.id ≠ v.node := fun e' => hd (e' ▸ m)
      simp [m, m2, written, Elem.set, Attrs.set_set, typeName]
    · by_cases m2 : e.id = v.node
      · have m3 : v.node ∉ insts W v := m2 ▸ m
        simp [m2, m3, Elem.set, fieldWritten, accepted]
      · simp [m, m2]
  | int i => exact number "office:value" _ (by decide) (by decide) rfl (fun _ => rfl) rfl
  | float y => exact number "office:value" _ (by decide) (by decide) rfl (fun _ => rfl) rfl
  | str t => exact number "office:string-value" _ (by decide) (by decide) rfl (fun _ => rfl) rfl

/-! ## Reading -/

theorem elem_eq {W : World} {n : Nat} {e : Elem} (h : content W n = some e) : elem n W = (W, .ok e) := by
  unfold content at h
  unfold elem
  cases hf : Forest.find n W with
  | none => rw [hf] at h; simp at h
  | some t => rw [hf] at h; simp at h; simp [h]

theorem getAttr_eq {W : World} {n : Nat} {e : Elem} (h : content W n = some e) (k : String)
    (d : Option Str) : getAttr n k d W = (W, .ok ((e.get k).or d)) := by
  unfold getAttr
  rw [Py.bind_ok (elem_eq h)]
  cases e.get k <;> rfl

/-- What an instance shows. -/
def shown (L : FloatLib) (e : Elem) : Except Exc (Out L) :=
  let ty := (e.get "office:value-type").getD "string".toList
  if ty = "boolean".toList then .ok (.bool (e.text = some "true".toList))
  else if ty = "float".toList then
    match e.text with
    | none => .error .TypeError
    | some s => match L.parse s with
      | some x => .ok (.float x)
      | none => .error .ValueError
  else .ok (outText e.text)

theorem instValue_eq {W : World} {n : Nat} {e : Elem} (h : content W n = some e) :
    instValue L n W = (W, shown L e) := by
  unfold instValue instType shown
  rw [Py.bind_ok (getAttr_eq h _ _), Py.bind_ok (elem_eq h)]
  have hty : (e.get "office:value-type").or (some "string".toList) =
      some ((e.get "office:value-type").getD "string".toList) := by
    cases e.get "office:value-type" <;> rfl
  rw [hty]
  simp only [Option.some.injEq]
  by_cases h1 : (e.get "office:value-type").getD "string".toList = "string".toList
  · rw [h1]; rfl
  · rw [if_neg h1]
    by_cases h2 : (e.get "office:value-type").getD "string".toList = "boolean".toList
    · rw [if_pos h2, if_pos h2]; rfl
    · rw [if_neg h2, if_neg h2]
      by_cases h3 : (e.get "office:value-type").getD "string".toList = "float".toList
      · rw [if_pos h3, if_pos h3]
        unfold pyFloat
        cases e.text with
        | none => rfl
        | some s => simp only; cases L.parse s <;> rfl
      · rw [if_neg h3, if_neg h3]; rfl

/-- What the declaration of a user field says. -/
def declared (L : FloatLib) (e : Elem) : Except Exc (Out L) :=
  let ty := (e.get "office:value-type").getD "string".toList
  if ty = "boolean".toList then .ok (.bool (e.get "office:boolean-value" = some "true".toList))
  else if ty = "string".toList then .ok (outText (e.get "office:string-value"))
  else match e.get "office:value" with
    | none => .error .TypeError
    | some s => match L.parse s with
      | some x => .ok (.float x)
      | none => .error .ValueError

theorem fieldValue_eq {W : World} {v : Variable} {e : Elem} (h : content W v.node = some e) :
    fieldValue L v W = (W, declared L e) := by
  unfold fieldValue type declared
  rw [Py.bind_ok (getAttr_eq h _ _)]
  have hty : (e.get "office:value-type").or (some "string".toList) =
      some ((e.get "office:value-type").getD "string".toList) := by
    cases e.get "office:value-type" <;> rfl
  rw [hty]
  simp only [Option.some.injEq]
  by_cases h1 : (e.get "office:value-type").getD "string".toList = "boolean".toList
  · rw [if_pos h1, if_pos h1]
    unfold getBoolAttr
    simp only [Py.bind_def, elem_eq h]
    cases hb : e.get "office:boolean-value" with
    | none => rfl
    | some s =>
      cases s with
      | nil => rfl
      | cons c s => simp [Py.pure_def]
  · rw [if_neg h1, if_neg h1]
    by_cases h2 : (e.get "office:value-type").getD "string".toList = "string".toList
    · rw [if_pos h2, if_pos h2, Py.bind_ok (getAttr_eq h _ _)]
      cases e.get "office:string-value" <;> rfl
    · rw [if_neg h2, if_neg h2, Py.bind_ok (getAttr_eq h _ _)]
      cases e.get "office:value" with
      | none => rfl
      | some s => simp only [Option.or_none, pyFloat]; cases L.parse s <;> rfl

end Verif.Vars
