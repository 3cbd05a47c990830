import Verif.Model.Xml
/-! Helper lemmas about forests and attributes. -/
namespace Verif
namespace Forest

@[simp] theorem nil_append (g : Forest) : Forest.nil ++ g = g := rfl
@[simp] theorem cons_append (e : Elem) (k r g : Forest) :
    Forest.cons e k r ++ g = Forest.cons e k (r ++ g) := rfl
@[simp] theorem append_nil (f : Forest) : f ++ Forest.nil = f := by
  induction f with
  | nil => rfl
  | cons e k r _ ih => simp [ih]
theorem append_assoc (f g h : Forest) : f ++ g ++ h = f ++ (g ++ h) := by
  induction f with
  | nil => rfl
  | cons e k r _ ih => simp [ih]

@[simp] theorem toList_append (f g : Forest) : (f ++ g).toList = f.toList ++ g.toList := by
  induction f with
  | nil => rfl
  | cons e k r _ ih => simp [toList, ih]
@[simp] theorem toList_nil : Forest.nil.toList = [] := rfl
@[simp] theorem toList_cons (e : Elem) (k r : Forest) :
    (Forest.cons e k r).toList = (e, k) :: r.toList := rfl
@[simp] theorem ofList_toList (f : Forest) : ofList f.toList = f := by
  induction f with
  | nil => rfl
  | cons e k r _ ih => simp [toList, ofList, ih]
@[simp] theorem toList_ofList (l : List Tree) : (ofList l).toList = l := by
  induction l with
  | nil => rfl
  | cons t l ih => cases t; simp [ofList, ih]
theorem toList_injective {f g : Forest} (h : f.toList = g.toList) : f = g := by
  rw [← ofList_toList f, h, ofList_toList]
@[simp] theorem length_toList (f : Forest) : f.toList.length = f.length := by
  induction f with
  | nil => rfl
  | cons e k r _ ih => simp [toList, length, ih]
@[simp] theorem length_append (f g : Forest) : (f ++ g).length = f.length + g.length := by
  rw [← length_toList, ← length_toList, ← length_toList, toList_append, List.length_append]
end Forest

namespace Attrs

theorem get_set (a : Attrs) (k k' : String) (v : Str) :
    Attrs.get (Attrs.set a k v) k' = if k' = k then some v else Attrs.get a k' := by
  induction a with
  | nil =>
    simp only [set, get]
    by_cases h : k = k'
    · simp [h]
    · simp [h, Ne.symm h]
  | cons p a ih =>
    obtain ⟨k0, v0⟩ := p
    unfold set
    by_cases h0 : k0 = k
    · simp only [h0, if_true, get]
      by_cases h : k = k'
      · simp [h]
      · simp [h, Ne.symm h]
    · simp only [h0, if_false, get, ih]
      by_cases h1 : k0 = k'
      · subst h1; simp [h0]
      · simp [h1]

theorem get_set_self (a : Attrs) (k : String) (v : Str) : Attrs.get (Attrs.set a k v) k = some v := by
  simp [get_set]

theorem get_set_ne (a : Attrs) {k k' : String} (v : Str) (h : k' ≠ k) :
    Attrs.get (Attrs.set a k v) k' = Attrs.get a k' := by
  simp [get_set, h]

theorem get_del (a : Attrs) (k k' : String) :
    Attrs.get (Attrs.del a k) k' = if k' = k then none else Attrs.get a k' := by
  induction a with
  | nil => simp [del, get]
  | cons p a ih =>
    obtain ⟨k0, v0⟩ := p
    unfold del at *
    by_cases h0 : k0 = k
    · simp only [h0, ne_eq, not_true_eq_false, decide_false, List.filter_cons, Bool.false_eq_true,
        if_false, ih, get]
      by_cases h : k = k'
      · simp [h]
      · simp [h, Ne.symm h]
    · simp only [h0, ne_eq, not_false_eq_true, decide_true, List.filter_cons, if_true, get, ih]
      by_cases h1 : k0 = k'
      · subst h1; simp [h0]
      · simp [h1]

end Attrs

@[simp] theorem Elem.get_set_self (e : Elem) (k : String) (v : Str) : (e.set k v).get k = some v :=
  Attrs.get_set_self ..
theorem Elem.get_set (e : Elem) (k k' : String) (v : Str) :
    (e.set k v).get k' = if k' = k then some v else e.get k' := Attrs.get_set ..
theorem Elem.get_del (e : Elem) (k k' : String) :
    (e.del k).get k' = if k' = k then none else e.get k' := Attrs.get_del ..
@[simp] theorem Elem.set_tag (e : Elem) (k : String) (v : Str) : (e.set k v).tag = e.tag := rfl
@[simp] theorem Elem.set_id (e : Elem) (k : String) (v : Str) : (e.set k v).id = e.id := rfl
@[simp] theorem Elem.del_tag (e : Elem) (k : String) : (e.del k).tag = e.tag := rfl
@[simp] theorem Elem.del_id (e : Elem) (k : String) : (e.del k).id = e.id := rfl

end Verif
