import Verif.Proofs.Variables
import Verif.Props.Cells
/-! # C54: variables and user fields -/
set_option linter.unusedSimpArgs false
namespace Verif.Vars
open Verif Verif.Lxml Verif.Cells Forest
variable {L : FloatLib}

/-- The value expected when an assigned value is read: the value itself, with whole numbers as
floats. -/
def back (H : L.Lawful) : Val L → Out L
  | .bool b => .bool b
  | .int i => .float (H.ofInt i)
  | .float x => .float x
  | .str s => .str s

/-- Is it a truth value? -/
def Val.isBool : Val L → Bool
  | .bool _ => true
  | _ => false

/-- Structure and all nodes kept; only the nodes of `P` may have changed. -/
structure Only (W W' : World) (P : Nat → Prop) : Prop where
  nodes : ids W' = ids W
  trees : tops W' = tops W
  order : ∀ q, children W' q = children W q
  rest : ∀ i, ¬ P i → content W' i = content W i

theorem only_map {W : World} {g : Elem → Elem} (hg : Keeps g) {P : Nat → Prop}
    (h : ∀ e, ¬ P e.id → g e = e) : Only W (W.map g) P := by
  refine ⟨ids_map (fun e => (hg e).1) W, tops_map (fun e => (hg e).1) W,
    fun q => children_map (fun e => (hg e).1) W q, fun i hi => ?_⟩
  rw [content_map fun e => (hg e).1]
  cases hc : content W i with
  | none => rfl
  | some e =>
    have : e.id = i := by
      unfold content at hc
      cases hf : Forest.find i W with
      | none => rw [hf] at hc; simp at hc
      | some t =>
        rw [hf] at hc; simp only [Option.map_some, Option.some.injEq] at hc
        rw [← hc]; exact (find_mem_ids hf).1
    rw [Option.map_some, h e (this ▸ hi)]

theorem id_of_content {W : World} {i : Nat} {e : Elem} (hc : content W i = some e) : e.id = i := by
  unfold content at hc
  cases hf : Forest.find i W with
  | none => rw [hf] at hc; simp at hc
  | some t =>
    rw [hf] at hc; simp only [Option.map_some, Option.some.injEq] at hc
    rw [← hc]; exact (find_mem_ids hf).1

theorem map_id_eq (W : World) : W.map id = W := by
  induction W with
  | nil => rfl
  | cons e k r ihk ihr => simp [Forest.map, ihk, ihr]

/-- Assigning to a simple variable: every instance in the tree of the declaration shows the value and
has its type, the declaration has its type, everything else is as before. -/
theorem C54_simple_set {W : World} (hn : (ids W).Nodup) {v : Variable}
    (hv : Declared W "text:variable-decl" v) {k : Str} (hk : v.name = some k) (x : Val L) :
    ∃ W', simpleSet v x W = (W', .ok ()) ∧
      Only W W' (fun i => i = v.node ∨ IsInstance W v.node k i) ∧
      (∀ i, IsInstance W v.node k i → content W' i = (content W i).map (written x)) ∧
      content W' v.node = (content W v.node).map (fun e => e.set "office:value-type" (typeName x)) ∧
      type v W' = (W', .ok (some (typeName x))) := by
  obtain ⟨a1, -⟩ := declared_insts hn hv
  have a1' : ∀ i, i ∈ insts W v ↔ IsInstance W v.node k i := by
    intro i; rw [a1 i]
    constructor
    · rintro ⟨k', h1, h2⟩; rw [hk] at h1; cases h1; exact h2
    · intro h; exact ⟨k, hk, h⟩
  have hs := simpleSet_eq hn hv keeps_id x
  rw [map_id_eq] at hs
  have hK := keeps_simpleG W v x
  have hd := decl_not_inst hn hv (Or.inl rfl) hv
  have hcd : content (W.map (simpleG W v x)) v.node =
      (content W v.node).map (fun e => e.set "office:value-type" (typeName x)) := by
    rw [content_map fun e => (hK e).1]
    cases hc : content W v.node with
    | none => rfl
    | some e =>
      have he := id_of_content hc
      have hd' : e.id ∉ insts W v := by rw [he]; exact hd
      simp only [Option.map_some, simpleG, if_neg hd', if_pos he]
  refine ⟨W.map (simpleG W v x), hs, only_map hK ?_, ?_, hcd, ?_⟩
  · intro e he
    rw [not_or, ← a1'] at he
    simp only [simpleG, if_neg he.2, if_neg he.1]
  · intro i hi
    rw [content_map fun e => (hK e).1]
    cases hc : content W i with
    | none => rfl
    | some e =>
      have he := id_of_content hc
      have hm : e.id ∈ insts W v := by rw [he]; exact (a1' i).mpr hi
      simp only [Option.map_some, simpleG, if_pos hm]
  · obtain ⟨k', -, -, e, c, -, -⟩ := hv.name
    rw [c] at hcd
    unfold type
    rw [getAttr_eq hcd]
    simp [Elem.get_set]

/-- **C54** what an instance shows and which type it has after an assignment: the text itself, the digits
of a whole number, `True` or `False`. -/
theorem C54_shown {W : World} (hn : (ids W).Nodup) {v : Variable}
    (hv : Declared W "text:variable-decl" v) {k : Str} (hk : v.name = some k) {i : Nat}
    (hi : IsInstance W v.node k i) {e : Elem} (he : content W i = some e) :
    (∀ b, content (simpleSet v (.bool b : Val L) W).1 i = some { e with
      text := some (if b then ['T', 'r', 'u', 'e'] else ['F', 'a', 'l', 's', 'e']),
      attrs := Attrs.set e.attrs "office:value-type" "boolean".toList }) ∧
    (∀ t, content (simpleSet v (.str t : Val L) W).1 i = some { e with
      text := some t, attrs := Attrs.set e.attrs "office:value-type" "string".toList }) ∧
    (∀ n : Int, ∃ d, pyInt d = some n ∧ (∀ c ∈ d, c = '-' ∨ 48 ≤ c.toNat ∧ c.toNat ≤ 57) ∧
      content (simpleSet v (.int n : Val L) W).1 i = some { e with
        text := some d, attrs := Attrs.set e.attrs "office:value-type" "float".toList }) := by
  have key : ∀ x : Val L, content (simpleSet v x W).1 i = some (written x e) := by
    intro x
    obtain ⟨W', h1, -, h3, -⟩ := C54_simple_set (L := L) hn hv hk x
    rw [h1]
    have := h3 i hi
    rw [he] at this
    exact this
  refine ⟨fun b => ?_, fun t => ?_, fun n => ⟨intStr n, pyInt_intStr n, ?_, ?_⟩⟩
  · rw [key]; cases b <;> rfl
  · rw [key]; rfl
  · have hd : ∀ m : Nat, ∀ c ∈ natStr m, 48 ≤ c.toNat ∧ c.toNat ≤ 57 := by
      intro m c hc
      have := natStr_digits m c hc
      simp only [isDigit, digitVal] at this
      split at this
      · assumption
      · cases this
    intro c hc
    cases n with
    | ofNat m => exact .inr (hd m c hc)
    | negSucc m =>
      rcases List.mem_cons.mp hc with h | h
      · exact .inl h
      · exact .inr (hd _ c h)
  · rw [key]; rfl

/-- Reading a simple variable looks at one of its instances; without instance it fails. -/
theorem C54_simple_value {W : World} (hn : (ids W).Nodup) {v : Variable}
    (hv : Declared W "text:variable-decl" v) {k : Str} (hk : v.name = some k) :
    ((∀ i, ¬ IsInstance W v.node k i) ∧ simpleValue L v W = (W, .error .IndexError)) ∨
    ∃ i e, IsInstance W v.node k i ∧ content W i = some e ∧ simpleValue L v W = (W, shown L e) := by
  obtain ⟨a1, a2⟩ := declared_insts hn hv
  have a1' : ∀ i, i ∈ insts W v ↔ IsInstance W v.node k i := by
    intro i; rw [a1 i]
    constructor
    · rintro ⟨k', h1, h2⟩; rw [hk] at h1; cases h1; exact h2
    · intro h; exact ⟨k, hk, h⟩
  have a3 := a2 id keeps_id
  rw [map_id_eq] at a3
  cases hi : insts W v with
  | nil =>
    left
    refine ⟨fun i h => by have := (a1' i).mpr h; rw [hi] at this; simp at this, ?_⟩
    unfold simpleValue
    rw [Py.bind_ok a3, hi]; rfl
  | cons n ns =>
    right
    have hin := (a1' n).mp (by rw [hi]; simp)
    obtain ⟨⟨e, c, -, -⟩, -⟩ := hin
    refine ⟨n, e, (a1' n).mp (by rw [hi]; simp), c, ?_⟩
    unfold simpleValue
    rw [Py.bind_ok a3, hi]
    exact instValue_eq c

theorem shown_written (H : L.Lawful) {x : Val L} (hx : x.isBool = false) (e : Elem) :
    shown L (written x e) = .ok (back H x) := by
  have hget : (written x e).get "office:value-type" = some (typeName x) := by
    show (e.set "office:value-type" (typeName x)).get _ = _
    simp [Elem.get_set]
  unfold shown
  rw [hget]
  cases x with
  | bool b => simp [Val.isBool] at hx
  | int i => simp [typeName, written, tostr, H.parse_int, back]
  | float y => simp [typeName, written, tostr, H.parse_repr, back]
  | str s => simp [typeName, written, tostr, back, outText]

/-- A simple variable with an instance reads back what was assigned, if that is text or a number.
Missing: truth values, see `C54_bool_refuted`, and variables without instance, see
`C54_uninstanced_refuted`. -/
theorem C54_simple_read_partial (H : L.Lawful) {W : World} (hn : (ids W).Nodup) {v : Variable}
    (hv : Declared W "text:variable-decl" v) {k : Str} (hk : v.name = some k)
    (hi : ∃ i, IsInstance W v.node k i) {x : Val L} (hx : x.isBool = false) :
    ∃ W', simpleSet v x W = (W', .ok ()) ∧ simpleValue L v W' = (W', .ok (back H x)) := by
  obtain ⟨a1, a2⟩ := declared_insts hn hv
  have hs := simpleSet_eq hn hv keeps_id x
  rw [map_id_eq] at hs
  refine ⟨_, hs, ?_⟩
  have a3 := a2 _ (keeps_simpleG W v x)
  obtain ⟨i, hi⟩ := hi
  have hi' := (a1 i).mpr ⟨k, hk, hi⟩
  show simpleValue L v (W.map (simpleG W v x)) = (W.map (simpleG W v x), _)
  cases hl : insts W v with
  | nil => rw [hl] at hi'; simp at hi'
  | cons n ns =>
    obtain ⟨_, _, ⟨e, c, -, -⟩, -⟩ := (a1 n).mp (by rw [hl]; simp)
    have he := id_of_content c
    have hc' : content (W.map (simpleG W v x)) n = some (written x e) := by
      rw [content_map fun e => (keeps_simpleG W v x e).1, c]
      have : e.id ∈ insts W v := by rw [he, hl]; simp
      simp only [Option.map_some, simpleG, if_pos this]
    unfold simpleValue
    rw [Py.bind_ok a3, hl]
    show instValue L n _ = _
    rw [instValue_eq hc', shown_written H hx]

/-- Every simple variable to which `True` is assigned reads `False`. -/
theorem C54_bool_refuted {W : World} (hn : (ids W).Nodup) {v : Variable}
    (hv : Declared W "text:variable-decl" v) {k : Str} (hk : v.name = some k)
    (hi : ∃ i, IsInstance W v.node k i) (b : Bool) :
    ∃ W', simpleSet v (.bool b : Val L) W = (W', .ok ()) ∧
      simpleValue L v W' = (W', .ok (.bool false)) := by
  obtain ⟨a1, a2⟩ := declared_insts hn hv
  have hs := simpleSet_eq hn hv keeps_id (.bool b : Val L)
  rw [map_id_eq] at hs
  refine ⟨_, hs, ?_⟩
  have a3 := a2 _ (keeps_simpleG W v (.bool b : Val L))
  obtain ⟨i, hi⟩ := hi
  have hi' := (a1 i).mpr ⟨k, hk, hi⟩
  show simpleValue L v (W.map (simpleG W v _)) = (W.map (simpleG W v _), _)
  cases hl : insts W v with
  | nil => rw [hl] at hi'; simp at hi'
  | cons n ns =>
    obtain ⟨_, _, ⟨e, c, -, -⟩, -⟩ := (a1 n).mp (by rw [hl]; simp)
    have he := id_of_content c
    have hc' : content (W.map (simpleG W v (.bool b : Val L))) n = some (written (.bool b : Val L) e) := by
      rw [content_map fun e => (keeps_simpleG W v (.bool b : Val L) e).1, c]
      have : e.id ∈ insts W v := by rw [he, hl]; simp
      simp only [Option.map_some, simpleG, if_pos this]
    unfold simpleValue
    rw [Py.bind_ok a3, hl]
    show instValue L n _ = _
    rw [instValue_eq hc']
    have hget : (written (.bool b : Val L) e).get "office:value-type" = some "boolean".toList := by
      show (e.set "office:value-type" _).get _ = _
      simp [Elem.get_set, typeName]
    unfold shown
    rw [hget]
    cases b <;> simp [written, tostr]

/-- A simple variable without instance in its tree cannot be read, whatever has been assigned. -/
theorem C54_uninstanced_refuted {W : World} (hn : (ids W).Nodup) {v : Variable}
    (hv : Declared W "text:variable-decl" v) {k : Str} (hk : v.name = some k)
    (hi : ∀ i, ¬ IsInstance W v.node k i) (x : Val L) :
    ∃ W', simpleSet v x W = (W', .ok ()) ∧ simpleValue L v W' = (W', .error .IndexError) := by
  obtain ⟨a1, a2⟩ := declared_insts hn hv
  have hs := simpleSet_eq hn hv keeps_id x
  rw [map_id_eq] at hs
  refine ⟨_, hs, ?_⟩
  have a3 := a2 _ (keeps_simpleG W v x)
  have hl : insts W v = [] := by
    rw [List.eq_nil_iff_forall_not_mem]
    intro i h
    obtain ⟨k', h1, h2⟩ := (a1 i).mp h
    rw [hk] at h1; cases h1
    exact hi i h2
  rw [hl] at a3
  show simpleValue L v (W.map (simpleG W v x)) = (W.map (simpleG W v x), _)
  unfold simpleValue
  rw [Py.bind_ok a3]; rfl

/-! ## User fields -/

theorem declared_fieldWritten (H : L.Lawful) (x : Val L) (e : Elem) :
    declared L (fieldWritten x e) = .ok (back H x) := by
  unfold declared
  cases x with
  | bool b => cases b <;> simp [fieldWritten, Elem.get_set, back]
  | int i => simp [fieldWritten, Elem.get_set, tostr, back, H.parse_int]
  | float y => simp [fieldWritten, Elem.get_set, tostr, back, H.parse_repr]
  | str s => simp [fieldWritten, Elem.get_set, tostr, back, outText]

/-- Assigning a truth value, non-empty text or a number other than zero to a user field: the
declaration holds value and type; instances of a *simple variable* of the same name are changed too;
everything else is as before. -/
theorem C54_field_set_partial (H : L.Lawful) {W : World} (hn : (ids W).Nodup) {v : Variable}
    (hv : Declared W "text:user-field-decl" v) {k : Str} (hk : v.name = some k) {x : Val L}
    (hx : x.isBool = true ∨ truth x = true) :
    ∃ W', fieldSet v x W = (W', .ok ()) ∧
      Only W W' (fun i => i = v.node ∨ IsInstance W v.node k i) ∧
      (∀ i, IsInstance W v.node k i → content W' i = (content W i).map (written x)) ∧
      type v W' = (W', .ok (some (typeName x))) ∧
      fieldValue L v W' = (W', .ok (back H x)) := by
  have hacc : accepted x = true := by
    cases x <;> simp_all [accepted, Val.isBool]
  obtain ⟨a1, -⟩ := declared_insts hn hv
  have a1' : ∀ i, i ∈ insts W v ↔ IsInstance W v.node k i := by
    intro i; rw [a1 i]
    constructor
    · rintro ⟨k', h1, h2⟩; rw [hk] at h1; cases h1; exact h2
    · intro h; exact ⟨k, hk, h⟩
  have hs := fieldSet_eq hn hv keeps_id x
  rw [map_id_eq, hacc, if_pos rfl] at hs
  have hK := keeps_fieldG W v x
  have hd := decl_not_inst hn hv (Or.inr rfl) hv
  obtain ⟨k', -, -, e, c, -, -⟩ := hv.name
  have hcd : content (W.map (fieldG W v x)) v.node = some (fieldWritten x e) := by
    rw [content_map fun e => (hK e).1, c]
    have he := id_of_content c
    have hd' : e.id ∉ insts W v := by rw [he]; exact hd
    simp only [Option.map_some, fieldG, if_neg hd', if_pos (And.intro he hacc)]
  refine ⟨W.map (fieldG W v x), hs, only_map hK ?_, ?_, ?_, ?_⟩
  · intro e he
    rw [not_or, ← a1'] at he
    simp only [fieldG, if_neg he.2, if_neg (fun h : _ ∧ _ => he.1 h.1)]
  · intro i hi
    rw [content_map fun e => (hK e).1]
    cases hc : content W i with
    | none => rfl
    | some e =>
      have he := id_of_content hc
      have hm : e.id ∈ insts W v := by rw [he]; exact (a1' i).mpr hi
      simp only [Option.map_some, fieldG, if_pos hm]
  · unfold type
    rw [getAttr_eq hcd]
    cases x <;> simp [fieldWritten, Elem.get_set, typeName]
  · rw [fieldValue_eq hcd]
    rw [declared_fieldWritten H]

/-- Empty text and zero cannot be assigned to any user field; the field keeps its value. -/
theorem C54_falsy_refuted {W : World} (hn : (ids W).Nodup) {v : Variable}
    (hv : Declared W "text:user-field-decl" v) {x : Val L}
    (hx : x.isBool = false) (ht : truth x = false) :
    ∃ W', fieldSet v x W = (W', .error .ValueError) ∧ (fieldValue L v W').2 = (fieldValue L v W).2 := by
  have hacc : accepted x = false := by
    cases x <;> simp_all [accepted, Val.isBool]
  have hs := fieldSet_eq hn hv keeps_id x
  rw [map_id_eq, hacc] at hs
  have hd := decl_not_inst hn hv (Or.inr rfl) hv
  obtain ⟨k', -, -, e, c, -, -⟩ := hv.name
  refine ⟨_, hs, ?_⟩
  show (fieldValue L v (W.map (fieldG W v x))).2 = _
  have hcd : content (W.map (fieldG W v x)) v.node = some e := by
    rw [content_map fun e => (keeps_fieldG W v x e).1, c]
    have he := id_of_content c
    have hd' : e.id ∉ insts W v := by rw [he]; exact hd
    simp only [Option.map_some, fieldG, if_neg hd', hacc, Bool.false_eq_true, and_false, if_false]
  rw [fieldValue_eq hcd, fieldValue_eq c]

/-- No assignment to a user field changes what its instances show. -/
theorem C54_field_instances_refuted {W : World} (hn : (ids W).Nodup) {v : Variable}
    (hv : Declared W "text:user-field-decl" v) (x : Val L) {i : Nat} {e : Elem}
    (he : content W i = some e) (ht : e.tag = "text:user-field-get" ∨ e.tag = "text:user-field-input") :
    content (fieldSet v x W).1 i = some e := by
  have hs := fieldSet_eq hn hv keeps_id x
  rw [map_id_eq] at hs
  rw [hs]
  show content (W.map (fieldG W v x)) i = _
  rw [content_map fun e => (keeps_fieldG W v x e).1, he]
  obtain ⟨a1, -⟩ := declared_insts hn hv
  have hid := id_of_content he
  have h1 : e.id ∉ insts W v := by
    rw [hid]
    intro h
    obtain ⟨_, _, ⟨e', c, d, -⟩, -⟩ := (a1 i).mp h
    rw [he] at c; cases c
    rcases ht with ht | ht <;> rw [ht] at d <;> exact absurd d (by decide)
  have h2 : ¬ (e.id = v.node ∧ accepted x = true) := by
    rintro ⟨h, -⟩
    obtain ⟨k', -, -, e', c, d, -⟩ := hv.name
    rw [← h, hid, he] at c; cases c
    rcases ht with ht | ht <;> rw [ht] at d <;> exact absurd d (by decide)
  simp only [Option.map_some, fieldG, if_neg h1, if_neg h2]

/-! ## Histories -/

@[elab_as_elim]
theorem snocInd {α : Type} {P : List α → Prop} (l : List α) (nil : P [])
    (append_singleton : ∀ l a, P l → P (l ++ [a])) : P l := by
  have : ∀ m : List α, P m.reverse := by
    intro m
    induction m with
    | nil => exact nil
    | cons a m ih => rw [List.reverse_cons]; exact append_singleton _ _ ih
  simpa using this l.reverse

/-- An assignment. -/
inductive Op (L : FloatLib)
  | simple (v : Variable) (x : Val L)
  | field (v : Variable) (x : Val L)

def Op.var : Op L → Variable
  | .simple v _ => v
  | .field v _ => v

def Op.val : Op L → Val L
  | .simple _ x => x
  | .field _ x => x

def Op.step (W : World) : Op L → World
  | .simple v x => (simpleSet v x W).1
  | .field v x => (fieldSet v x W).1

def Op.Ok (W : World) : Op L → Prop
  | .simple v _ => Declared W "text:variable-decl" v
  | .field v _ => Declared W "text:user-field-decl" v

/-- The assignment takes effect. -/
def Op.effective : Op L → Bool
  | .simple _ _ => true
  | .field _ x => x.isBool || truth x

/-- The last value given to `v`. -/
def last (v : Variable) (ops : List (Op L)) : Option (Val L) :=
  ((ops.filter fun o => o.var = v ∧ o.effective).getLast?).map Op.val

def Op.G (W : World) : Op L → Elem → Elem
  | .simple v x => simpleG W v x
  | .field v x => fieldG W v x

theorem keeps_G (W : World) (o : Op L) : Keeps (o.G W) := by
  cases o
  · exact keeps_simpleG W _ _
  · exact keeps_fieldG W _ _

theorem ok_declared {W : World} {o : Op L} (h : o.Ok W) :
    ∃ tag, Declared W tag o.var ∧ (tag = "text:variable-decl" ∨ tag = "text:user-field-decl") := by
  cases o
  · exact ⟨_, h, Or.inl rfl⟩
  · exact ⟨_, h, Or.inr rfl⟩

/-- All changes of a history. -/
def total (W : World) (ops : List (Op L)) : Elem → Elem :=
  ops.foldl (fun g o => o.G W ∘ g) id

theorem total_snoc (W : World) (ops : List (Op L)) (o : Op L) :
    total W (ops ++ [o]) = o.G W ∘ total W ops := by
  simp [total]

theorem keeps_total (W : World) (ops : List (Op L)) : Keeps (total W ops) := by
  induction ops using snocInd with
  | nil => exact keeps_id
  | append_singleton ops o ih => rw [total_snoc]; exact keeps_comp (keeps_G W o) ih

theorem run_eq {W : World} (hn : (ids W).Nodup) (ops : List (Op L)) (h : ∀ o ∈ ops, o.Ok W) :
    ops.foldl Op.step W = W.map (total W ops) := by
  induction ops using snocInd with
  | nil => exact (map_id_eq W).symm
  | append_singleton ops o ih =>
    rw [List.foldl_append, ih fun o ho => h o (by simp [ho]), total_snoc]
    have ho := h o (by simp)
    show o.step _ = _
    cases o with
    | simple v x => simp only [Op.step]; rw [simpleSet_eq hn ho (keeps_total W ops)]; rfl
    | field v x => simp only [Op.step]; rw [fieldSet_eq hn ho (keeps_total W ops)]; rfl

theorem G_untouched {W : World} {o : Op L} {e : Elem} (h1 : e.id ≠ o.var.node)
    (h2 : e.id ∉ insts W o.var) : o.G W e = e := by
  cases o with
  | simple v x => simp only [Op.G, simpleG, Op.var] at *; rw [if_neg h2, if_neg h1]
  | field v x =>
    simp only [Op.G, fieldG, Op.var] at *
    rw [if_neg h2, if_neg (fun h : _ ∧ _ => h1 h.1)]

theorem total_untouched {W : World} (ops : List (Op L)) {e : Elem}
    (h : ∀ o ∈ ops, e.id ≠ o.var.node ∧ e.id ∉ insts W o.var) : total W ops e = e := by
  induction ops using snocInd with
  | nil => rfl
  | append_singleton ops o ih =>
    rw [total_snoc, Function.comp, ih fun o ho => h o (by simp [ho])]
    exact G_untouched (h o (by simp)).1 (h o (by simp)).2

theorem last_snoc (v : Variable) (ops : List (Op L)) (o : Op L) :
    last v (ops ++ [o]) = if o.var = v ∧ o.effective = true then some o.val else last v ops := by
  unfold last
  rw [List.filter_append]
  by_cases h : o.var = v ∧ o.effective = true
  · simp [List.filter_cons, h]
  · rw [if_neg h]
    have : (decide (o.var = v ∧ o.effective = true)) = false := by simpa using h
    simp only [List.filter_cons, this, Bool.false_eq_true, if_false, List.filter_nil, List.append_nil]

theorem written_written (x y : Val L) (e : Elem) : written x (written y e) = written x e := by
  simp [written, Attrs.set_set]

section
variable {W : World} (hn : (ids W).Nodup) {ops : List (Op L)} (hok : ∀ o ∈ ops, o.Ok W)
include hn hok

/-- Instances of a simple variable show the last value. -/
theorem total_inst {v : Variable} (hv : Declared W "text:variable-decl" v)
    (hdist : ∀ o ∈ ops, o.var.name = v.name → o.var = v) {e : Elem} (hc : content W e.id = some e)
    (hi : e.id ∈ insts W v) :
    total W ops e = match last v ops with
      | some x => written x e
      | none => e := by
  induction ops using snocInd with
  | nil => rfl
  | append_singleton ops o ih =>
    have ih := ih (fun o ho => hok o (by simp [ho])) fun o ho => hdist o (by simp [ho])
    rw [total_snoc, Function.comp, ih, last_snoc]
    have ho := hok o (by simp)
    obtain ⟨tag, hot, htag⟩ := ok_declared ho
    by_cases hvar : o.var = v
    · cases o with
      | field u x =>
        exfalso
        simp only [Op.var] at hvar
        subst hvar
        obtain ⟨_, _, _, e1, c1, t1, _⟩ := hv.name
        obtain ⟨_, _, _, e2, c2, t2, _⟩ := (show Declared W "text:user-field-decl" u from ho).name
        rw [c1] at c2; cases c2
        rw [t1] at t2; exact absurd t2 (by decide)
      | simple u x =>
        simp only [Op.var] at hvar
        subst hvar
        simp only [Op.var, Op.effective, and_self, if_true, Op.val, Op.G, simpleG]
        cases last u ops with
        | none => simp only [if_pos hi]
        | some y =>
          have : (written y e).id ∈ insts W u := hi
          simp only [if_pos this, written_written]
    · rw [if_neg (fun h : _ ∧ _ => hvar h.1)]
      have hid : ∀ e' : Elem, e'.id = e.id → o.G W e' = e' := by
        intro e' he'
        refine G_untouched ?_ ?_
        · rw [he']; intro h
          rw [h] at hi
          exact decl_not_inst hn hot htag hv hi
        · rw [he']; intro h
          obtain ⟨k1, n1, ⟨f1, c1, -, g1⟩, -⟩ := ((declared_insts hn hot).1 _).mp h
          obtain ⟨k2, n2, ⟨f2, c2, -, g2⟩, -⟩ := ((declared_insts hn hv).1 _).mp hi
          rw [c1] at c2; cases c2
          rw [g1] at g2; cases g2
          exact hvar (hdist o (by simp) (by rw [n1, n2]))
      cases last v ops with
      | none => exact hid e rfl
      | some y => exact hid _ rfl

/-- The declaration of a user field holds the last value. -/
theorem total_field (H : L.Lawful) {v : Variable} (hv : Declared W "text:user-field-decl" v)
    (hdist : ∀ o ∈ ops, o.var.name = v.name → o.var = v) {e : Elem} (hc : content W v.node = some e) :
    declared L (total W ops e) = match last v ops with
      | some x => .ok (back H x)
      | none => declared L e := by
  induction ops using snocInd with
  | nil => rfl
  | append_singleton ops o ih =>
    have ih := ih (fun o ho => hok o (by simp [ho])) fun o ho => hdist o (by simp [ho])
    rw [total_snoc, Function.comp, last_snoc]
    have hid : (total W ops e).id = v.node := by
      rw [(keeps_total W ops e).1, id_of_content hc]
    revert ih hid
    generalize total W ops e = e1
    intro ih hid
    have ho := hok o (by simp)
    obtain ⟨tag, hot, htag⟩ := ok_declared ho
    have hnot : e1.id ∉ insts W o.var := by
      rw [hid]; exact decl_not_inst hn hv (Or.inr rfl) hot
    by_cases hvar : o.var = v
    · cases o with
      | simple u x =>
        exfalso
        simp only [Op.var] at hvar
        subst hvar
        obtain ⟨_, _, _, e1, c1, t1, _⟩ := hv.name
        obtain ⟨_, _, _, e2, c2, t2, _⟩ := (show Declared W "text:variable-decl" u from ho).name
        rw [c1] at c2; cases c2
        rw [t1] at t2; exact absurd t2 (by decide)
      | field u x =>
        simp only [Op.var] at hvar hnot
        subst hvar
        have hacc : accepted x = (x.isBool || truth x) := by cases x <;> rfl
        rw [hid] at hnot
        simp only [Op.var, Op.effective, true_and, Op.val, Op.G, fieldG, hid, hacc, if_neg hnot]
        by_cases hx : (x.isBool || truth x) = true
        · rw [if_pos hx, if_pos hx]
          exact declared_fieldWritten H x e1
        · rw [if_neg hx, if_neg hx]; exact ih
    · rw [if_neg (fun h : _ ∧ _ => hvar h.1)]
      rw [G_untouched ?_ hnot]
      · exact ih
      · rw [hid]; intro h
        obtain ⟨k1, n1, -, f1, c1, -, g1⟩ := hot.name
        obtain ⟨k2, n2, -, f2, c2, -, g2⟩ := hv.name
        rw [← h, c2] at c1; cases c1
        rw [g1] at g2; cases g2
        exact hvar (hdist o (by simp) (by rw [n1, n2]))

/-- All histories of assignments to variables and fields with distinct names: every instance of a
simple variable shows the last value given to it, every user field reads the last value it accepted,
and nodes that are no declaration or instance of an assigned variable are untouched.
Missing: see the refutations. -/
theorem C54_history_partial (H : L.Lawful)
    (hdist : ∀ a ∈ ops, ∀ b ∈ ops, a.var.name = b.var.name → a.var = b.var) :
    let W' := ops.foldl Op.step W
    Only W W' (fun i => ∃ o ∈ ops, i = o.var.node ∨ ∃ k, o.var.name = some k ∧ IsInstance W o.var.node k i) ∧
    (∀ v x, Op.simple v x ∈ ops → ∀ k i, v.name = some k → IsInstance W v.node k i →
      ∃ y, last v ops = some y ∧ content W' i = (content W i).map (written y) ∧
        (y.isBool = false → simpleValue L v W' = (W', .ok (back H y)))) ∧
    (∀ v x, Op.field v x ∈ ops → fieldValue L v W' = (W', match last v ops with
      | some y => .ok (back H y)
      | none => (fieldValue L v W).2)) := by
  intro W'
  have hW' : W' = W.map (total W ops) := run_eq hn ops hok
  have hK := keeps_total W ops
  clear_value W'
  subst hW'
  refine ⟨only_map hK ?_, ?_, ?_⟩
  · intro e he
    apply total_untouched
    intro o ho
    refine ⟨fun h => he ⟨o, ho, Or.inl h⟩, fun h => he ⟨o, ho, Or.inr ?_⟩⟩
    obtain ⟨tag, hot, -⟩ := ok_declared (hok o ho)
    exact ((declared_insts hn hot).1 _).mp h
  · intro v x hvx k i hk hi
    have hv : Declared W "text:variable-decl" v := hok _ hvx
    have hd : ∀ o ∈ ops, o.var.name = v.name → o.var = v := fun o ho h => hdist o ho _ hvx h
    obtain ⟨a1, a2⟩ := declared_insts hn hv
    have hlast : ∃ y, last v ops = some y := by
      unfold last
      cases hg : (ops.filter fun o => o.var = v ∧ o.effective = true).getLast? with
      | none =>
        rw [List.getLast?_eq_none_iff, List.filter_eq_nil_iff] at hg
        exact absurd (hg _ hvx) (by simp [Op.var, Op.effective])
      | some o => exact ⟨_, rfl⟩
    obtain ⟨y, hy⟩ := hlast
    have hcont : ∀ j, j ∈ insts W v → ∃ e, content W j = some e ∧
        content (W.map (total W ops)) j = some (written y e) := by
      intro j hj
      obtain ⟨_, _, ⟨e, c, -, -⟩, -⟩ := (a1 j).mp hj
      have he := id_of_content c
      subst he
      refine ⟨e, c, ?_⟩
      rw [content_map fun e => (hK e).1, c, Option.map_some, total_inst hn hok hv hd c hj, hy]
    refine ⟨y, hy, ?_, ?_⟩
    · obtain ⟨e, c1, c2⟩ := hcont i ((a1 i).mpr ⟨k, hk, hi⟩)
      rw [c1, c2]; rfl
    · intro hb
      have hi' := (a1 i).mpr ⟨k, hk, hi⟩
      cases hl : insts W v with
      | nil => rw [hl] at hi'; simp at hi'
      | cons n ns =>
        obtain ⟨e, c1, c2⟩ := hcont n (by rw [hl]; simp)
        unfold simpleValue
        rw [Py.bind_ok (a2 _ hK), hl]
        show instValue L n _ = _
        rw [instValue_eq c2, shown_written H hb]
  · intro v x hvx
    have hv : Declared W "text:user-field-decl" v := hok _ hvx
    have hd : ∀ o ∈ ops, o.var.name = v.name → o.var = v := fun o ho h => hdist o ho _ hvx h
    obtain ⟨_, -, -, e, c, -, -⟩ := hv.name
    have c' : content (W.map (total W ops)) v.node = some (total W ops e) := by
      rw [content_map fun e => (hK e).1, c]; rfl
    rw [fieldValue_eq c', fieldValue_eq c, total_field hn hok H hv hd c]
end

/-! ## Containers -/

/-- The variables of a container by name. -/
def byName (W : World) (c : Nat) (k : Str) : List Nat :=
  ((children W c).getD []).filter fun i => ((content W i).bind fun e => e.get "text:name") = some k

theorem collect_get : ∀ {ts : List Tree} {d : Dict (Option Str) Variable}, collect ts = .ok d →
    ∀ k, d.get k = ((ts.filter fun t => t.1.get "text:name" = k).getLast?).map fun t => ⟨t.1.id, k⟩ := by
  intro ts
  induction ts with
  | nil => intro d h k; simp only [collect, Except.ok.injEq] at h; subst h; rfl
  | cons t ts ih =>
    intro d h k
    unfold collect at h
    split at h
    · cases hc : collect ts with
      | error e => rw [hc] at h; simp at h
      | ok d1 =>
        rw [hc] at h
        simp only [Except.ok.injEq] at h
        have ih1 := ih hc
        cases hg : d1.get (t.1.get "text:name") with
        | none =>
          rw [hg] at h
          simp only at h
          subst h
          by_cases hk : t.1.get "text:name" = k
          · have := ih1 k
            rw [← hk, hg] at this
            rw [hk] at this
            have hnone : (ts.filter fun t => t.1.get "text:name" = k) = [] := by
              rw [← List.getLast?_eq_none_iff]
              cases h' : (ts.filter fun t => t.1.get "text:name" = k).getLast? with
              | none => rfl
              | some u => rw [h'] at this; simp at this
            simp [List.filter_cons, hk, hnone, Dict.get]
          · simp only [List.filter_cons, hk, decide_false, Bool.false_eq_true, if_false]
            rw [← ih1 k]
            simp [Dict.get, hk]
        | some w =>
          rw [hg] at h
          simp only at h
          subst h
          rw [ih1 k]
          by_cases hk : t.1.get "text:name" = k
          · simp only [List.filter_cons, hk, decide_true, if_true]
            have := ih1 k
            rw [← hk, hg] at this
            rw [hk] at this
            cases h' : (ts.filter fun t => t.1.get "text:name" = k).getLast? with
            | none => rw [h'] at this; simp at this
            | some u => simp [List.getLast?_cons, h']
          · simp only [List.filter_cons, hk, decide_false, Bool.false_eq_true, if_false]
    · simp at h

theorem collect_ok {ts : List Tree} (h : ∀ t ∈ ts, t.1.tag = "text:variable-decl" ∨
    t.1.tag = "text:user-field-decl") : ∃ d, collect ts = .ok d := by
  induction ts with
  | nil => exact ⟨_, rfl⟩
  | cons t ts ih =>
    obtain ⟨d, hd⟩ := ih fun u hu => h u (by simp [hu])
    unfold collect
    rw [if_pos (h t (by simp)), hd]
    exact ⟨_, rfl⟩

/-- The container of declarations: it can be made if all its children are declarations; a name is in
it if and only if a child has it; looking a name up gives the last child with it, and assigning under
a name is an assignment to that variable. -/
theorem C54_container {W : World} (hn : (ids W).Nodup) {c : Nat} {l : List Nat}
    (hc : children W c = some l) {tag : String}
    (htag : tag = "text:variable-decl" ∨ tag = "text:user-field-decl")
    (hl : ∀ i ∈ l, (content W i).map (fun e => e.tag) = some tag) :
    ∃ d, init c W = (W, .ok d) ∧
      (∀ k, contains d (.str k) = true ↔ byName W c k ≠ []) ∧
      (∀ k n, (byName W c k).getLast? = some n → '\'' ∉ k →
        getitem c d (.str k) W = (W, .ok n) ∧ Declared W tag ⟨n, some k⟩ ∧
        ∀ (f : Variable → Bool) (x : Val L), setitem c d f k x W =
          (if f ⟨n, some k⟩ then fieldSet ⟨n, some k⟩ x else simpleSet ⟨n, some k⟩ x) W) ∧
      (∀ k, byName W c k = [] → pyInt k = none →
        getitem c d (.str k) W = (W, .error .ValueError) ∧
        ∀ (f : Variable → Bool) (x : Val L), setitem c d f k x W = (W, .error .ValueError)) := by
  obtain ⟨t, ht, hl'⟩ := children_find hc
  have hcont : ∀ u ∈ t.2.toList, content W u.1.id = some u.1 := fun u hu => Pages.content_child hn ht hu
  have hll : l = t.2.toList.map fun u => u.1.id := by rw [← hl']; rfl
  obtain ⟨d, hd⟩ := collect_ok (ts := t.2.toList) (by
    intro u hu
    have := hl u.1.id (by rw [hll]; exact List.mem_map.mpr ⟨u, hu, rfl⟩)
    rw [hcont u hu] at this
    simp only [Option.map_some, Option.some.injEq] at this
    rw [this]; exact htag)
  have hget := collect_get hd
  have hby : ∀ k, byName W c k =
      (t.2.toList.filter fun u => u.1.get "text:name" = some k).map fun u => u.1.id := by
    intro k
    unfold byName
    rw [hc, Option.getD_some, hll, List.filter_map]
    congr 1
    apply List.filter_congr
    intro u hu
    simp [Function.comp, hcont u hu]
  have hd2 : ∀ k, d.get (some k) = ((byName W c k).getLast?).map fun n => ⟨n, some k⟩ := by
    intro k
    rw [hget, hby, List.getLast?_map, Option.map_map]; rfl
  refine ⟨d, by unfold init; simp only [ht, hd], ?_, ?_, ?_⟩
  · intro k
    simp only [contains, hd2]
    cases hb : byName W c k with
    | nil => simp
    | cons a b => simp [List.getLast?_cons]
  · intro k n hn' hq
    have h2 := hd2 k
    rw [hn'] at h2
    refine ⟨by simp only [getitem, h2]; rfl, ⟨k, rfl, hq, ?_⟩, fun f x => by simp only [setitem, h2]; rfl⟩
    have hm : n ∈ byName W c k := List.mem_of_getLast? hn'
    unfold byName at hm
    rw [hc, Option.getD_some, List.mem_filter] at hm
    obtain ⟨m1, m2⟩ := hm
    have := hl n m1
    cases hcn : content W n with
    | none => rw [hcn] at this; simp at this
    | some e =>
      rw [hcn] at this m2
      simp only [Option.map_some, Option.some.injEq] at this
      exact ⟨e, rfl, this, by simpa using m2⟩
  · intro k hk hi
    have h2 := hd2 k
    rw [hk] at h2
    simp only [List.getLast?_nil, Option.map_none] at h2
    refine ⟨by simp only [getitem, h2, hi]; rfl, fun f x => by simp only [setitem, h2, hi]; rfl⟩

/-! ## Concrete cases -/

/-- A document with two simple variables, a user field of the name of the first variable, and
instances. -/
def doc : World :=
  .cons { id := 0, tag := "office:document-content" }
    (.cons { id := 1, tag := "text:variable-decls" }
      (.cons { id := 2, tag := "text:variable-decl", attrs := [("text:name", "a".toList)] } .nil
        (.cons { id := 3, tag := "text:variable-decl", attrs := [("text:name", "b".toList)] } .nil .nil))
    (.cons { id := 4, tag := "text:user-field-decls" }
      (.cons { id := 5, tag := "text:user-field-decl", attrs := [("text:name", "a".toList)] } .nil
        (.cons { id := 6, tag := "text:user-field-decl", attrs := [("text:name", "f".toList)] } .nil .nil))
    (.cons { id := 7, tag := "text:p" }
      (.cons { id := 8, tag := "text:variable-set", attrs := [("text:name", "a".toList)],
               text := some "old".toList } .nil
      (.cons { id := 9, tag := "text:variable-get", attrs := [("text:name", "b".toList)],
               text := some "other".toList } .nil
      (.cons { id := 10, tag := "text:user-field-get", attrs := [("text:name", "f".toList)],
               text := some "shown".toList } .nil .nil))) .nil)))
  (.cons { id := 20, tag := "office:document-styles" }
    (.cons { id := 21, tag := "text:variable-get", attrs := [("text:name", "a".toList)],
             text := some "header".toList } .nil .nil) .nil)

/-- The value and type an element shows. -/
def look (W : World) (i : Nat) : Option (Option Str × Option Str) :=
  (content W i).map fun e => (e.text, e.get "office:value-type")

theorem doc_nodup : (ids doc).Nodup := by decide +kernel

theorem doc_a : Declared doc "text:variable-decl" ⟨2, some "a".toList⟩ :=
  ⟨_, rfl, by decide, _, rfl, rfl, rfl⟩

theorem doc_f : Declared doc "text:user-field-decl" ⟨6, some "f".toList⟩ :=
  ⟨_, rfl, by decide, _, rfl, rfl, rfl⟩

/-- The variable `a` has an instance. -/
theorem doc_inst : IsInstance doc 2 "a".toList 8 :=
  ⟨⟨_, rfl, by decide, rfl⟩, 0, by decide +kernel,
    .step (.step .self (q := 0) (l := [1, 4, 7]) (by decide +kernel) (by decide : 1 ∈ _))
      (l := [2, 3]) (by decide +kernel) (by decide),
    .step (.step .self (q := 0) (l := [1, 4, 7]) (by decide +kernel) (by decide : 7 ∈ _))
      (l := [8, 9, 10]) (by decide +kernel) (by decide), by decide⟩

example : look (simpleSet ⟨2, some "a".toList⟩ (.int 7 : Val intLib) doc).1 8 =
    some (some "7".toList, some "float".toList) := by decide +kernel

example : ∃ W', simpleSet ⟨2, some "a".toList⟩ (.int 7 : Val intLib) doc = (W', .ok ()) ∧
    simpleValue intLib ⟨2, some "a".toList⟩ W' = (W', .ok (.float (7 : Int))) :=
  C54_simple_read_partial intLawful doc_nodup doc_a rfl ⟨8, doc_inst⟩ rfl

example : ∃ W', simpleSet ⟨2, some "a".toList⟩ (.bool true : Val intLib) doc = (W', .ok ()) ∧
    simpleValue intLib ⟨2, some "a".toList⟩ W' = (W', .ok (.bool false)) :=
  C54_bool_refuted doc_nodup doc_a rfl ⟨8, doc_inst⟩ true

example : ∃ W', fieldSet ⟨6, some "f".toList⟩ (.int 0 : Val intLib) doc = (W', .error .ValueError) ∧
    (fieldValue intLib ⟨6, some "f".toList⟩ W').2 = (fieldValue intLib ⟨6, some "f".toList⟩ doc).2 :=
  C54_falsy_refuted doc_nodup doc_f rfl rfl

example : content (fieldSet ⟨6, some "f".toList⟩ (.str "new".toList : Val intLib) doc).1 10 =
    some { id := 10, tag := "text:user-field-get", attrs := [("text:name", "f".toList)],
           text := some "shown".toList } :=
  C54_field_instances_refuted doc_nodup doc_f _ rfl (Or.inl rfl)

/-- A user field and a simple variable of the same name interfere: assigning to the field changes the
instance of the variable. -/
theorem C54_clash_refuted :
    look doc 8 = some (some "old".toList, none) ∧
    look (fieldSet ⟨5, some "a".toList⟩ (.str "x".toList : Val intLib) doc).1 8 =
      some (some "x".toList, some "string".toList) := by decide +kernel

/-- Instances in the other part of the document, page headers for example, are not updated. -/
theorem C54_parts_refuted :
    look (simpleSet ⟨2, some "a".toList⟩ (.str "x".toList : Val intLib) doc).1 21 =
      some (some "header".toList, none) := by decide +kernel

/-- A history: two variables and a field. -/
example :
    let W' := [Op.simple ⟨2, some "a".toList⟩ (.int 1 : Val intLib), .field ⟨6, some "f".toList⟩ (.bool true),
      .simple ⟨3, some "b".toList⟩ (.str "s".toList), .simple ⟨2, some "a".toList⟩ (.int 2),
      .field ⟨6, some "f".toList⟩ (.int 0)].foldl Op.step doc
    look W' 8 = some (some "2".toList, some "float".toList) ∧
    look W' 9 = some (some "s".toList, some "string".toList) ∧
    look W' 10 = look doc 10 := by decide +kernel

example : (byName doc 1 "b".toList).getLast? = some 3 := by decide +kernel

example : (content (simpleSet ⟨2, some "a".toList⟩ (.bool true : Val intLib) doc).1 8).map (·.text) =
    some (some "True".toList) := by
  obtain ⟨e, he⟩ : ∃ e, content doc 8 = some e := ⟨_, rfl⟩
  rw [(C54_shown (L := intLib) doc_nodup doc_a rfl doc_inst he).1 true]
  rfl

end Verif.Vars
