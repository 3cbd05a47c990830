import Verif.Model.WrapCache
import Verif.Proofs.Dict
/-! Lemmas about the wrapper cache. -/
set_option linter.unusedSimpArgs false
namespace Verif.WrapCache
open Verif

/-- The wrapper of node `n` in the cache is `o`. -/
def Holds (h : Heap) (n : Nat) (o : Obj) : Prop :=
  ∃ a, h.proxies.get n = some a ∧ h.cache.get a = some o

structure Inv (h : Heap) : Prop where
  inj : ∀ n m a, h.proxies.get n = some a → h.proxies.get m = some a → n = m
  self : ∀ a o, h.cache.get a = some o → o.addr = a ∧ h.proxies.get o.node = some a
  old : ∀ a o, h.cache.get a = some o → o.id < h.objects
  ids : ∀ a b o o', h.cache.get a = some o → h.cache.get b = some o' → o.id = o'.id → a = b

theorem Inv.empty : Inv {} := ⟨by simp, by simp, by simp, by simp⟩

theorem Holds.node {h : Heap} (hi : Inv h) {n : Nat} {o : Obj} (hh : Holds h n o) : o.node = n := by
  obtain ⟨a, h1, h2⟩ := hh
  exact hi.inj _ _ a (hi.self a o h2).2 h1

theorem Holds.unique {h : Heap} {n : Nat} {o o' : Obj} (h1 : Holds h n o) (h2 : Holds h n o') :
    o = o' := by
  obtain ⟨a, a1, a2⟩ := h1
  obtain ⟨b, b1, b2⟩ := h2
  rw [a1] at b1
  cases Option.some.inj b1
  rw [a2] at b2
  exact Option.some.inj b2

theorem Holds.id {h : Heap} (hi : Inv h) {n m : Nat} {o o' : Obj} (h1 : Holds h n o)
    (h2 : Holds h m o') (he : o.id = o'.id) : n = m := by
  obtain ⟨a, a1, a2⟩ := h1
  obtain ⟨b, b1, b2⟩ := h2
  have := hi.ids a b o o' a2 b2 he
  subst this
  exact hi.inj n m a a1 b1

theorem value_mem {κ α : Type} [DecidableEq κ] {d : Dict κ α} {k : κ} {v : α}
    (h : d.get k = some v) : v ∈ Dict.values d :=
  List.mem_map.mpr ⟨(k, v), Dict.get_mem h, rfl⟩

variable {pick : Nat → List Nat → Nat} (hpick : ∀ k l, pick k l ∉ l)
include hpick

theorem touch_ok {h : Heap} (hi : Inv h) (n : Nat) :
    Inv (touch pick n h).1 ∧ (touch pick n h).1.proxies.get n = some (touch pick n h).2 ∧
    (touch pick n h).1.cache = h.cache ∧ (touch pick n h).1.objects = h.objects ∧
    (∀ m a, h.proxies.get m = some a → (touch pick n h).1.proxies.get m = some a) ∧
    (∀ m, m ≠ n → (touch pick n h).1.proxies.get m = h.proxies.get m) := by
  unfold touch
  cases hp : h.proxies.get n with
  | some a => exact ⟨hi, hp, rfl, rfl, fun _ _ h => h, fun _ _ => rfl⟩
  | none =>
    have hnew : ∀ m a, h.proxies.get m = some a → a ≠ pick h.allocs (Dict.values h.proxies) :=
      fun m a hm he => hpick h.allocs (Dict.values h.proxies) (he ▸ value_mem hm)
    have hkeep : ∀ m a, h.proxies.get m = some a →
        (h.proxies.set n (pick h.allocs (Dict.values h.proxies))).get m = some a := by
      intro m a hm
      rw [Dict.get_set]
      split
      · rename_i he; subst he; rw [hp] at hm; simp at hm
      · exact hm
    refine ⟨⟨?_, ?_, hi.old, hi.ids⟩, ?_, rfl, rfl, hkeep, ?_⟩
    · intro m k a h1 h2
      simp only [Dict.get_set] at h1 h2
      split at h1 <;> split at h2
      · rename_i e1 e2; rw [← e1, ← e2]
      · exact absurd (Option.some.inj h1).symm (hnew _ _ h2)
      · exact absurd (Option.some.inj h2).symm (hnew _ _ h1)
      · exact hi.inj m k a h1 h2
    · intro a o ho
      exact ⟨(hi.self a o ho).1, hkeep _ _ (hi.self a o ho).2⟩
    · simp [Dict.get_set]
    · intro m hm
      simp only [Dict.get_set]
      rw [if_neg (fun h => hm h.symm)]

omit hpick in
theorem release_ok {h : Heap} (hi : Inv h) (n : Nat) :
    Inv (release n h) ∧ ∀ m o, Holds h m o → Holds (release n h) m o := by
  unfold release
  split
  · exact ⟨hi, fun _ _ h => h⟩
  · rename_i hno
    have hne : ∀ a o, h.cache.get a = some o → o.node ≠ n := by
      intro a o ho he
      exact hno (List.any_eq_true.mpr ⟨o, value_mem ho, by simp [he]⟩)
    refine ⟨⟨?_, ?_, hi.old, hi.ids⟩, ?_⟩
    · intro m k a h1 h2
      simp only [Dict.get_del] at h1 h2
      split at h1
      · simp at h1
      · split at h2
        · simp at h2
        · exact hi.inj m k a h1 h2
    · intro a o ho
      refine ⟨(hi.self a o ho).1, ?_⟩
      rw [Dict.get_del, if_neg (fun h => hne a o ho h.symm)]
      exact (hi.self a o ho).2
    · intro m o hh
      have hnode := hh.node hi
      obtain ⟨a, h1, h2⟩ := hh
      refine ⟨a, ?_, h2⟩
      rw [Dict.get_del, if_neg (fun h => hne a o h2 (hnode.trans h.symm))]
      exact h1

omit hpick in
/-- Adding a new wrapper for the node with a live proxy. -/
theorem add_ok {h : Heap} (hi : Inv h) {n a : Nat} (hp : h.proxies.get n = some a) :
    Inv (add ⟨h.objects, n, a⟩ { h with objects := h.objects + 1 }) ∧
    Holds (add ⟨h.objects, n, a⟩ { h with objects := h.objects + 1 }) n ⟨h.objects, n, a⟩ ∧
    ∀ m o, m ≠ n → Holds h m o →
      Holds (add ⟨h.objects, n, a⟩ { h with objects := h.objects + 1 }) m o := by
  refine ⟨⟨hi.inj, ?_, ?_, ?_⟩, ⟨a, hp, by simp [add, Dict.get_set]⟩, ?_⟩
  · intro b o ho
    simp only [add, Dict.get_set] at ho
    split at ho
    · rename_i he; cases Option.some.inj ho; exact ⟨he, he ▸ hp⟩
    · exact hi.self b o ho
  · intro b o ho
    simp only [add, Dict.get_set] at ho
    split at ho
    · cases Option.some.inj ho; exact Nat.lt_succ_self _
    · exact Nat.lt_succ_of_lt (hi.old b o ho)
  · intro b d o o' ho ho' he
    simp only [add, Dict.get_set] at ho ho'
    split at ho <;> split at ho'
    · rename_i e1 e2; rw [← e1, ← e2]
    · cases Option.some.inj ho
      have := hi.old _ _ ho'
      simp only at he; omega
    · cases Option.some.inj ho'
      have := hi.old _ _ ho
      simp only at he; omega
    · exact hi.ids b d o o' ho ho' he
  · intro m o hm hh
    obtain ⟨b, h1, h2⟩ := hh
    refine ⟨b, h1, ?_⟩
    simp only [add, Dict.get_set]
    rw [if_neg]
    · exact h2
    · intro he
      exact hm (hi.inj m n b h1 (he ▸ hp))

theorem touch_holds {h : Heap} (hi : Inv h) (n : Nat) {m : Nat} {o : Obj} (hh : Holds h m o) :
    Holds (touch pick n h).1 m o := by
  obtain ⟨-, -, h3, -, h5, -⟩ := touch_ok hpick hi n
  obtain ⟨a, a1, a2⟩ := hh
  exact ⟨a, h5 m a a1, by rw [h3]; exact a2⟩

/-- `Table(...)` and other uncached wrapping of a table. -/
theorem uncachedWrap_ok {h : Heap} (hi : Inv h) (n : Nat) :
    Inv (uncachedWrap pick true n h).1 ∧
    Holds (uncachedWrap pick true n h).1 n (uncachedWrap pick true n h).2 ∧
    ∀ m o, m ≠ n → Holds h m o → Holds (uncachedWrap pick true n h).1 m o := by
  obtain ⟨h1, h2, h3, h4, h5, -⟩ := touch_ok hpick hi n
  unfold uncachedWrap
  cases ht : touch pick n h with
  | mk h' a =>
    rw [ht] at h1 h2
    simp only at h1 h2 ⊢
    obtain ⟨b1, b2, b3⟩ := add_ok h1 h2
    refine ⟨b1, b2, fun m o hm hh => b3 m o hm ?_⟩
    have := touch_holds hpick hi n hh
    rw [ht] at this; exact this

omit hpick in
theorem wrap_hit {h : Heap} (t : Bool) {n : Nat} {o : Obj} (hh : Holds h n o) :
    wrap pick t n h = (h, o) := by
  obtain ⟨a, h1, h2⟩ := hh
  unfold wrap touch
  simp only [h1, h2]

theorem wrap_ok {h : Heap} (hi : Inv h) (t : Bool) (n : Nat) :
    Inv (wrap pick t n h).1 ∧ Holds (wrap pick t n h).1 n (wrap pick t n h).2 ∧
    ∀ m o, Holds h m o → Holds (wrap pick t n h).1 m o := by
  obtain ⟨h1, h2, h3, h4, h5, -⟩ := touch_ok hpick hi n
  have hth := fun m o (hh : Holds h m o) => touch_holds hpick hi n hh
  unfold wrap
  cases ht : touch pick n h with
  | mk h' a =>
    rw [ht] at h1 h2
    simp only [ht] at h1 h2 hth ⊢
    cases hc : h'.cache.get a with
    | some o => exact ⟨h1, ⟨a, h2, hc⟩, hth⟩
    | none =>
      simp only
      have hne : ∀ m o, Holds h' m o → m ≠ n := by
        rintro m o ⟨b, b1, b2⟩ rfl
        rw [h2] at b1; cases Option.some.inj b1
        rw [hc] at b2; simp at b2
      have hu : touch pick n h' = (h', a) := by unfold touch; simp only [h2]
      unfold uncachedWrap
      rw [hu]
      obtain ⟨b1, b2, b3⟩ := add_ok h1 h2
      have hadd : ∀ (o : Obj) (g : Heap), o.addr = a → add o (if t = true then add o g else g) = add o g := by
        intro o g ho
        cases t with
        | false => rfl
        | true =>
          simp only [if_true, add]
          congr 1
          have : ∀ d : Dict Nat Obj, (d.set o.addr o).set o.addr o = d.set o.addr o := by
            intro d
            induction d with
            | nil => simp [Dict.set]
            | cons p d ih =>
              obtain ⟨k, v⟩ := p
              by_cases hk : k = o.addr
              · simp [Dict.set, hk]
              · simp [Dict.set, hk, ih]
          exact this _
      simp only
      rw [hadd _ _ rfl]
      exact ⟨b1, b2, fun m o hh => b3 m o (hne m o (hth m o hh)) (hth m o hh)⟩

end Verif.WrapCache
