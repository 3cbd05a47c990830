import Verif.Model.Observer
import Verif.Proofs.Dict
import Verif.Proofs.Py
/-! # C50: broadcasts reach exactly the subscribers -/
namespace Verif.Observer
open Verif
set_option linter.unusedSimpArgs false

inductive Op where
  | subscribe (event : Str) (o : Nat)
  | unsubscribe (event : Str) (o : Nat)
  | destroy (o : Nat)
  | broadcast (event : Str) (root : Option Root)
  deriving DecidableEq

def step (obj : Nat → Obj) (s : S) : Op → S
  | .subscribe e o => (subscribe obj e o s).1
  | .unsubscribe e o => (unsubscribe e o s).1
  | .destroy o => destroy o s
  | .broadcast e r => (broadcast obj e r s).1

def run (obj : Nat → Obj) (s : S) (h : List Op) : S := h.foldl (step obj) s

/-- Specification: is `o` a live subscriber of `event` after the history? -/
def subscribed (obj : Nat → Obj) (event : Str) (o : Nat) : Bool → List Op → Bool
  | b, [] => b
  | b, .subscribe e k :: h =>
    subscribed obj event o (if e = event ∧ k = o ∧ ((obj o).handler event).isSome then true else b) h
  | b, .unsubscribe e k :: h => subscribed obj event o (if e = event ∧ k = o then false else b) h
  | b, .destroy k :: h => subscribed obj event o (if k = o then false else b) h
  | b, .broadcast _ _ :: h => subscribed obj event o b h

/-- What the observer stores for an event. -/
def members (s : S) (event : Str) : List Nat := (s.listeners.get event).getD []

theorem members_set (s : S) (e e' : Str) (l : List Nat) :
    (((s.listeners.set e l).get e').getD []) = if e = e' then l else members s e' := by
  rw [Dict.get_set]
  split <;> rfl

theorem each_listeners {send : Nat → Py S Unit} (hs : ∀ o s, (send o s).1.listeners = s.listeners) (l : List Nat) :
    ∀ s, (each send l s).1.listeners = s.listeners := by
  induction l with
  | nil => exact fun s => rfl
  | cons o r ih =>
    intro s
    unfold each
    rw [Py.bind_def]
    have := hs o s
    cases h : send o s with
    | mk s' x =>
      rw [h] at this
      cases x with
      | error e => exact this
      | ok u => simp only; rw [ih]; exact this

theorem call_listeners (obj : Nat → Obj) (e : Str) (o : Nat) (s : S) : (call obj e o s).1.listeners = s.listeners := by
  unfold call; split <;> rfl

theorem root_listeners (obj : Nat → Obj) (e : Str) (r : Root) (o : Nat) (s : S) :
    (sendToRoot obj e r o s).1.listeners = s.listeners := by
  unfold sendToRoot
  split
  · rfl
  · rfl
  · split
    · exact call_listeners obj e o s
    · rfl

theorem broadcast_listeners (obj : Nat → Obj) (e : Str) (r : Option Root) (s : S) :
    (broadcast obj e r s).1.listeners = s.listeners := by
  unfold broadcast
  split
  · rfl
  · split
    · split
      · exact each_listeners (root_listeners obj e _) _ s
      · exact each_listeners (call_listeners obj e) _ s
    · exact each_listeners (call_listeners obj e) _ s

theorem get_map_values {κ α β : Type} [DecidableEq κ] (d : Dict κ α) (f : α → β) (k : κ) :
    Dict.get (d.map fun p => (p.1, f p.2)) k = (d.get k).map f := by
  induction d with
  | nil => rfl
  | cons p r ih =>
    obtain ⟨k', v⟩ := p
    rw [List.map_cons, Dict.get_cons, Dict.get_cons]
    split
    · rfl
    · exact ih

/-- One operation. -/
theorem step_members (obj : Nat → Obj) (s : S) (op : Op) (e : Str) (o : Nat) :
    ((members s e).Nodup → (members (step obj s op) e).Nodup) ∧
    (o ∈ members (step obj s op) e ↔ subscribed obj e o (decide (o ∈ members s e)) [op] = true) := by
  cases op with
  | subscribe e' k =>
    simp only [step, subscribe, subscribed]
    by_cases hh : ((obj k).handler e').isNone
    · rw [if_pos hh]
      refine ⟨fun h => h, ?_⟩
      rw [if_neg]
      · simp
      · rintro ⟨rfl, rfl, hx⟩
        rw [Option.isSome_iff_ne_none] at hx
        exact hx (Option.isNone_iff_eq_none.1 hh)
    · rw [if_neg hh]
      simp only
      unfold members
      simp only
      rw [Dict.get_set]
      by_cases he : e' = e
      · subst he
        rw [if_pos rfl]
        have hsome : ((obj k).handler e').isSome := by
          cases hx : (obj k).handler e' with
          | none => rw [hx] at hh; exact absurd rfl hh
          | some r => rfl
        simp only [Option.getD_some]
        constructor
        · intro hn
          split
          · exact hn
          · rename_i hk
            rw [List.nodup_append]
            exact ⟨hn, by simp, fun a ha b hb => by simp at hb; rintro rfl; exact hk (hb ▸ ha)⟩
        · by_cases hk : k = o
          · subst hk
            simp only [hsome, and_self, if_true, iff_true]
            by_cases hm : k ∈ (s.listeners.get e').getD []
            · rw [if_pos hm]; exact hm
            · rw [if_neg hm]; simp
          · simp only [hk, false_and, and_false, if_false]
            by_cases hm : k ∈ (s.listeners.get e').getD []
            · rw [if_pos hm]; simp
            · rw [if_neg hm]; simp [Ne.symm hk]
      · rw [if_neg he, if_neg (fun h => he h.1)]
        exact ⟨fun h => h, by simp⟩
  | unsubscribe e' k =>
    simp only [step, unsubscribe, subscribed]
    unfold members
    cases hg : s.listeners.get e' with
    | none =>
      refine ⟨fun h => h, ?_⟩
      by_cases hek : e' = e ∧ k = o
      · obtain ⟨rfl, rfl⟩ := hek
        simp [hg]
      · rw [if_neg hek]; simp
    | some set =>
      simp only
      by_cases hk : k ∈ set
      · rw [if_pos hk]
        simp only
        rw [Dict.get_set]
        by_cases he : e' = e
        · subst he
          rw [if_pos rfl]
          simp only [hg, Option.getD_some]
          refine ⟨fun h => h.filter _, ?_⟩
          by_cases hko : k = o
          · subst hko; simp
          · simp [hko, Ne.symm hko]
        · rw [if_neg he, if_neg (fun h => he h.1)]
          exact ⟨fun h => h, by simp⟩
      · rw [if_neg hk]
        refine ⟨fun h => h, ?_⟩
        by_cases hek : e' = e ∧ k = o
        · obtain ⟨rfl, rfl⟩ := hek
          simp [hg, hk]
        · rw [if_neg hek]; simp
  | destroy k =>
    simp only [step, destroy, subscribed]
    unfold members
    simp only
    rw [get_map_values]
    cases hg : s.listeners.get e with
    | none =>
      simp only [Option.map_none, Option.getD_none]
      refine ⟨fun h => h, ?_⟩
      simp
    | some set =>
      simp only [Option.map_some, Option.getD_some]
      refine ⟨fun h => h.filter _, ?_⟩
      by_cases hk : k = o
      · subst hk; simp
      · simp [hk, Ne.symm hk]
  | broadcast e' r =>
    simp only [step, subscribed]
    unfold members
    rw [broadcast_listeners]
    exact ⟨fun h => h, by simp⟩

theorem subscribed_cons (obj : Nat → Obj) (e : Str) (o : Nat) (b : Bool) (op : Op) (h : List Op) :
    subscribed obj e o b (op :: h) = subscribed obj e o (subscribed obj e o b [op]) h := by
  cases op <;> rfl

/-- The weak set of an event holds the live subscribers, each once. -/
theorem run_members (obj : Nat → Obj) (h : List Op) : ∀ s : S, ∀ e : Str, (members s e).Nodup →
    (members (run obj s h) e).Nodup ∧
    ∀ o, o ∈ members (run obj s h) e ↔ subscribed obj e o (decide (o ∈ members s e)) h = true := by
  induction h with
  | nil => exact fun s e hn => ⟨hn, fun o => by simp [run, subscribed]⟩
  | cons op h ih =>
    intro s e hn
    have h1 := fun o => step_members obj s op e o
    obtain ⟨i1, i2⟩ := ih (step obj s op) e ((h1 0).1 hn)
    refine ⟨i1, fun o => ?_⟩
    rw [subscribed_cons]
    show o ∈ members (run obj (step obj s op) h) e ↔ _
    rw [i2 o]
    have : decide (o ∈ members (step obj s op) e) = subscribed obj e o (decide (o ∈ members s e)) [op] := by
      rw [Bool.eq_iff_iff, decide_eq_true_eq]
      exact (h1 o).2
    rw [this]

/-- A handler that is called returns. -/
def Quiet (obj : Nat → Obj) : Prop := ∀ o e r, (obj o).handler e = some r → r = .ok ()

/-- `get_xmlroot` of a listener returns or does not exist. -/
def Rooted (obj : Nat → Obj) : Prop := ∀ o, (obj o).root = .error .AttributeError ∨ ∃ r, (obj o).root = .ok r

theorem each_calls {e : Str} {send : Nat → Py S Unit} {p : Nat → Bool} (l : List Nat)
    (hs : ∀ o ∈ l, ∀ s : S, send o s = (if p o then { s with calls := s.calls ++ [(e, o)] } else s, .ok ())) : ∀ s : S,
    each send l s = ({ s with calls := s.calls ++ ((l.filter p).map fun o => (e, o)) }, .ok ()) := by
  induction l with
  | nil => intro s; simp [each, pure, Py.pure]
  | cons o r ih =>
    intro s
    unfold each
    rw [Py.bind_def, hs o (by simp) s]
    simp only
    rw [ih (fun o ho => hs o (List.mem_cons_of_mem _ ho))]
    cases hp : p o
    · simp [List.filter_cons, hp]
    · simp [List.filter_cons, hp]

/-- The handlers that are subscribed exist. -/
theorem members_handler (obj : Nat → Obj) (h : List Op) : ∀ s : S, ∀ e : Str,
    (∀ o ∈ members s e, ((obj o).handler e).isSome) →
    ∀ o ∈ members (run obj s h) e, ((obj o).handler e).isSome := by
  induction h with
  | nil => exact fun s e h => h
  | cons op h ih =>
    intro s e hs
    refine ih (step obj s op) e fun o ho => ?_
    have := ((step_members obj s op e o).2.1 ho)
    cases op with
    | subscribe e' k =>
      simp only [subscribed] at this
      split at this
      · rename_i hx; exact hx.2.2
      · exact hs o (of_decide_eq_true this)
    | unsubscribe e' k =>
      simp only [subscribed] at this
      split at this
      · cases this
      · exact hs o (of_decide_eq_true this)
    | destroy k =>
      simp only [subscribed] at this
      split at this
      · cases this
      · exact hs o (of_decide_eq_true this)
    | broadcast e' r => exact hs o (of_decide_eq_true this)

theorem nodup_tag (e : Str) (l : List Nat) (hn : l.Nodup) : (l.map fun o => (e, o)).Nodup := by
  unfold List.Nodup at *
  rw [List.pairwise_map]
  exact hn.imp fun h he => h (by simpa using he)

/-- Who is to be called by a broadcast. -/
def addressed (obj : Nat → Obj) (root : Option Root) (o : Nat) : Bool :=
  match root with
  | none => true
  | some r => match (obj o).root with
    | .ok (some i) => decide (i = r.id)
    | _ => false

theorem broadcast_calls (obj : Nat → Obj) (hq : Quiet obj) (hr : Rooted obj) (h : List Op) (e : Str)
    (root : Option Root) (ht : ∀ r, root = some r → r.truth = true) :
    broadcast obj e root (run obj new h) =
      ({ run obj new h with calls := (run obj new h).calls ++
          (((members (run obj new h) e).filter (addressed obj root)).map fun o => (e, o)) }, .ok ()) := by
  have hh := members_handler obj h new e (fun o ho => by cases ho)
  generalize run obj new h = s at hh ⊢
  unfold members at hh ⊢
  unfold broadcast
  cases hg : s.listeners.get e with
  | none => simp
  | some set =>
    rw [hg] at hh
    simp only [Option.getD_some] at hh ⊢
    have hcall : ∀ o ∈ set, ∀ s : S, call obj e o s = ({ s with calls := s.calls ++ [(e, o)] }, .ok ()) := by
      intro o ho s
      obtain ⟨r, hr⟩ := Option.isSome_iff_exists.1 (hh o ho)
      unfold call
      rw [hr, hq o e r hr]
    cases root with
    | none =>
      simp only
      rw [each_calls (e := e) (p := addressed obj none) set (fun o ho s => by rw [hcall o ho s]; simp [addressed])]
    | some r =>
      simp only
      rw [if_pos (ht r rfl)]
      rw [each_calls (e := e) (p := addressed obj (some r)) set]
      intro o ho s
      unfold sendToRoot addressed
      rcases hr o with h1 | ⟨x, h1⟩
      · rw [h1]; simp
      · rw [h1]
        cases x with
        | none => simp
        | some i =>
          by_cases hi : i = r.id
          · simp [hi, hcall o ho s]
          · simp [hi]

/-- C50 (missing: roots without children and handlers that raise): a broadcast calls the handler of every live subscriber of the event exactly once, with a root
only those of that document, and nothing else. -/
theorem C50_broadcast_partial (obj : Nat → Obj) (hq : Quiet obj) (hr : Rooted obj) (h : List Op) (e : Str)
    (root : Option Root) (ht : ∀ r, root = some r → r.truth = true) :
    ∃ new_calls, broadcast obj e root (run obj new h) =
        ({ run obj new h with calls := (run obj new h).calls ++ new_calls }, .ok ()) ∧
      ∀ e' o, new_calls.count (e', o) =
        if e' = e ∧ subscribed obj e o false h = true ∧
          (∀ r, root = some r → (obj o).root = .ok (some r.id)) then 1 else 0 := by
  refine ⟨_, broadcast_calls obj hq hr h e root ht, ?_⟩
  obtain ⟨hn, hm⟩ := run_members obj h new e (List.nodup_nil)
  intro e' o
  have hmem : o ∈ members (run obj new h) e ↔ subscribed obj e o false h = true := hm o
  have haddr : addressed obj root o = true ↔ ∀ r, root = some r → (obj o).root = .ok (some r.id) := by
    unfold addressed
    cases root with
    | none => simp
    | some r =>
      simp only [Option.some.injEq, forall_eq']
      cases hx : (obj o).root with
      | error e => simp
      | ok x => cases x <;> simp
  have hnd : (((members (run obj new h) e).filter (addressed obj root)).map fun o => (e, o)).Nodup := by
    exact nodup_tag e _ (hn.filter _)
  rw [hnd.count]
  congr 1
  rw [List.mem_map, ← haddr, ← hmem]
  apply propext
  constructor
  · rintro ⟨k, hk, he⟩
    simp only [Prod.mk.injEq] at he
    obtain ⟨rfl, rfl⟩ := he
    obtain ⟨h1, h2⟩ := List.mem_filter.1 hk
    exact ⟨rfl, h1, h2⟩
  · rintro ⟨rfl, h1, h2⟩
    exact ⟨o, List.mem_filter.2 ⟨h1, h2⟩, rfl⟩

/-- C50: subscribing needs a handler, unsubscribing a subscription; otherwise nothing changes. -/
theorem C50_errors (obj : Nat → Obj) (h : List Op) (e : Str) (o : Nat) :
    (∀ x, (subscribe obj e o (run obj new h)).2 = .error x ↔ ((obj o).handler e = none ∧ x = .AttributeError)) ∧
    (∀ x, (unsubscribe e o (run obj new h)).2 = .error x ↔ (subscribed obj e o false h = false ∧ x = .KeyError)) ∧
    ((obj o).handler e = none → (subscribe obj e o (run obj new h)).1 = run obj new h) ∧
    (subscribed obj e o false h = false → (unsubscribe e o (run obj new h)).1 = run obj new h) := by
  obtain ⟨-, hm⟩ := run_members obj h new e (List.nodup_nil)
  have hmem : o ∈ members (run obj new h) e ↔ subscribed obj e o false h = true := hm o
  have hmem' : o ∉ members (run obj new h) e ↔ subscribed obj e o false h = false := by
    rw [hmem]; simp
  unfold members at hmem'
  rw [← hmem']
  generalize run obj new h = s
  refine ⟨fun x => ?_, fun x => ?_, fun h => ?_, fun h => ?_⟩
  · unfold subscribe
    cases hx : (obj o).handler e with
    | none => simp [eq_comm]
    | some r => simp
  · unfold unsubscribe
    cases hg : s.listeners.get e with
    | none => simp [eq_comm]
    | some set =>
      simp only [Option.getD_some]
      split
      · rename_i hk; simp [hk]
      · rename_i hk; simp [hk, eq_comm]
  · unfold subscribe; rw [h]; rfl
  · unfold unsubscribe
    cases hg : s.listeners.get e with
    | none => rfl
    | some set =>
      rw [hg] at h
      simp only [Option.getD_some] at h
      simp [h]

/-! ## Where C50 does not hold -/

/-- Two listeners in different documents. -/
def two : Nat → Obj := fun i => { handler := fun _ => some (.ok ()), root := .ok (some i) }

def hist : List Op := [.subscribe "save".toList 1, .subscribe "save".toList 2, .subscribe "save".toList 1]

/-- C50 does not hold for a root without children: it counts as false and everybody is called. -/
theorem C50_childless_refuted :
    ((broadcast two "save".toList (some ⟨1, false⟩) (run two new hist)).1.calls).count ("save".toList, 2) = 1 := by
  decide +kernel

/-- C50 does not hold if handlers raise: the others are not called. -/
theorem C50_raise_refuted :
    let obj : Nat → Obj := fun i => { handler := fun _ => some (.error .ValueError), root := .ok (some i) }
    (broadcast obj "save".toList none (run obj new hist)).2 = .error .ValueError ∧
    ((broadcast obj "save".toList none (run obj new hist)).1.calls).length = 1 ∧
    subscribed obj "save".toList 1 false hist = true ∧ subscribed obj "save".toList 2 false hist = true := by
  decide +kernel

/-- **C50**, `_count_listeners` and `_has_listener` after any history: the number of the live subscribers. -/
theorem C50_count (obj : Nat → Obj) (h : List Op) (e : Str) :
    (∃ l : List Nat, l.Nodup ∧ (∀ o, o ∈ l ↔ subscribed obj e o false h = true) ∧ countListeners e (run obj new h) = l.length) ∧
    (hasListener e (run obj new h) = true ↔ ∃ o, subscribed obj e o false h = true) := by
  obtain ⟨hn, hm⟩ := run_members obj h new e (List.nodup_nil)
  have hm : ∀ o, o ∈ members (run obj new h) e ↔ subscribed obj e o false h = true := hm
  have hc : countListeners e (run obj new h) = (members (run obj new h) e).length := by
    unfold countListeners members
    cases (run obj new h).listeners.get e <;> rfl
  refine ⟨⟨_, hn, hm, hc⟩, ?_⟩
  unfold hasListener
  rw [hc, decide_eq_true_iff, List.length_pos_iff_exists_mem]
  exact exists_congr hm

/-- What a loop over listeners calls if each of them is called at most once and only if it is addressed -/
theorem each_some {e : Str} {send : Nat → Py S Unit} {p : Nat → Prop}
    (hs : ∀ o s, ∃ l : List (Str × Nat), (send o s).1 = { s with calls := s.calls ++ l } ∧ (l = [] ∨ (l = [(e, o)] ∧ p o)))
    (l : List Nat) : ∀ s, ∃ k : List Nat, (each send l s).1 = { s with calls := s.calls ++ k.map fun o => (e, o) } ∧
      k.Sublist l ∧ ∀ o ∈ k, p o := by
  induction l with
  | nil => exact fun s => ⟨[], by simp [each, pure, Py.pure], .slnil, by simp⟩
  | cons o r ih =>
    intro s
    obtain ⟨l, h1, h2⟩ := hs o s
    unfold each
    rcases hx : send o s with ⟨s1, x⟩
    rw [hx] at h1
    dsimp only at h1
    subst h1
    have hk : ∃ k : List Nat, l = k.map (fun o => (e, o)) ∧ k.Sublist [o] ∧ ∀ o ∈ k, p o := by
      rcases h2 with rfl | ⟨rfl, h2⟩
      · exact ⟨[], rfl, by simp, by simp⟩
      · exact ⟨[o], rfl, .refl _, by simpa using h2⟩
    obtain ⟨k, rfl, k2, k3⟩ := hk
    cases x with
    | error x =>
      rw [Py.bind_error hx]
      exact ⟨k, rfl, k2.trans (by simp), k3⟩
    | ok u =>
      rw [Py.bind_ok hx]
      obtain ⟨k', g1, g2, g3⟩ := ih { s with calls := s.calls ++ k.map fun o => (e, o) }
      refine ⟨k ++ k', by rw [g1]; simp, ?_, ?_⟩
      · exact k2.append g2
      · intro o ho
        rcases List.mem_append.mp ho with h | h
        · exact k3 o h
        · exact g3 o h

/-- **C50** with any listeners, also such as raise: a broadcast calls handlers of the event only, only of live subscribers, each
at most once; with a root that has children it calls only listeners of this root. -/
theorem C50_at_most (obj : Nat → Obj) (h : List Op) (e : Str) (root : Option Root) :
    ∃ new_calls, (broadcast obj e root (run obj new h)).1 =
        { run obj new h with calls := (run obj new h).calls ++ new_calls } ∧ new_calls.Nodup ∧
      ∀ e' o, (e', o) ∈ new_calls → e' = e ∧ subscribed obj e o false h = true ∧
        ∀ r, root = some r → r.truth = true → (obj o).root = .ok (some r.id) := by
  obtain ⟨hn, hm⟩ := run_members obj h new e (List.nodup_nil)
  have hm : ∀ o, o ∈ members (run obj new h) e ↔ subscribed obj e o false h = true := hm
  have hcall : ∀ (o : Nat) (s : S), ∃ l : List (Str × Nat), (call obj e o s).1 = { s with calls := s.calls ++ l } ∧
      (l = [] ∨ l = [(e, o)]) := by
    intro o s
    unfold call
    split
    · exact ⟨[], by simp, .inl rfl⟩
    · exact ⟨[(e, o)], rfl, .inr rfl⟩
  have key : ∀ (p : Nat → Prop) (k : List Nat), k.Sublist (members (run obj new h) e) → (∀ o ∈ k, p o) →
      (k.map fun o => (e, o)).Nodup ∧ ∀ e' o, (e', o) ∈ k.map (fun o => (e, o)) → e' = e ∧
        subscribed obj e o false h = true ∧ p o := by
    intro p k h1 h2
    refine ⟨nodup_tag e k (hn.sublist h1), fun e' o ho => ?_⟩
    obtain ⟨o', ho', he⟩ := List.mem_map.mp ho
    simp only [Prod.mk.injEq] at he
    obtain ⟨rfl, rfl⟩ := he
    exact ⟨rfl, (hm o').mp (h1.subset ho'), h2 o' ho'⟩
  unfold broadcast
  unfold members at key
  cases hg : (run obj new h).listeners.get e with
  | none => exact ⟨[], by simp, by simp, by simp⟩
  | some set =>
    rw [hg] at key
    dsimp only [Option.getD_some] at key
    have all : ∀ {send : Nat → Py S Unit} {p : Nat → Prop},
        (∀ o s, ∃ l : List (Str × Nat), (send o s).1 = { s with calls := s.calls ++ l } ∧ (l = [] ∨ (l = [(e, o)] ∧ p o))) →
        ∃ new_calls, (each send set (run obj new h)).1 =
          { run obj new h with calls := (run obj new h).calls ++ new_calls } ∧ new_calls.Nodup ∧
        ∀ e' o, (e', o) ∈ new_calls → e' = e ∧ subscribed obj e o false h = true ∧ p o := by
      intro send p hs
      obtain ⟨k, g1, g2, g3⟩ := each_some hs set (run obj new h)
      obtain ⟨a, b⟩ := key p k g2 g3
      exact ⟨_, g1, a, b⟩
    have plain : ∀ o s, ∃ l : List (Str × Nat), (call obj e o s).1 = { s with calls := s.calls ++ l } ∧
        (l = [] ∨ (l = [(e, o)] ∧ True)) := fun o s => by
      obtain ⟨l, h1, h2⟩ := hcall o s
      exact ⟨l, h1, by simpa using h2⟩
    dsimp only
    cases root with
    | none =>
      obtain ⟨c, h1, h2, h3⟩ := all plain
      exact ⟨c, h1, h2, fun e' o ho => ⟨(h3 e' o ho).1, (h3 e' o ho).2.1, fun r hr => nomatch hr⟩⟩
    | some r =>
      dsimp only
      by_cases ht : r.truth = true
      · rw [if_pos ht]
        obtain ⟨c, h1, h2, h3⟩ := all (send := sendToRoot obj e r) (p := fun o => (obj o).root = .ok (some r.id)) (by
          intro o s
          unfold sendToRoot
          split
          · exact ⟨[], by simp, .inl rfl⟩
          · exact ⟨[], by simp, .inl rfl⟩
          · rename_i x hx
            split
            · rename_i hxr
              obtain ⟨l, h1, h2⟩ := hcall o s
              exact ⟨l, h1, h2.imp id fun hl => ⟨hl, by rw [hx, hxr]⟩⟩
            · exact ⟨[], by simp, .inl rfl⟩)
        exact ⟨c, h1, h2, fun e' o ho => ⟨(h3 e' o ho).1, (h3 e' o ho).2.1, fun r' hr _ => by cases hr; exact (h3 e' o ho).2.2⟩⟩
      · rw [if_neg ht]
        obtain ⟨c, h1, h2, h3⟩ := all plain
        exact ⟨c, h1, h2, fun e' o ho => ⟨(h3 e' o ho).1, (h3 e' o ho).2.1, fun r' hr ht' => by cases hr; exact absurd ht' ht⟩⟩

/-! ## Examples -/

example : countListeners "save".toList (run two new hist) = 2 ∧ hasListener "load".toList (run two new hist) = false := by
  decide +kernel


example : Quiet two ∧ Rooted two := by
  constructor
  · intro o e r h; cases h; rfl
  · intro o; exact .inr ⟨_, rfl⟩

example : (broadcast two "save".toList (some ⟨1, true⟩) (run two new (hist ++ [.destroy 2]))).1.calls =
    [("save".toList, 1)] := by decide +kernel

example : subscribed two "save".toList 2 false (hist ++ [.unsubscribe "save".toList 2, .subscribe "open".toList 2]) = false ∧
    subscribed two "save".toList 1 false (hist ++ [.unsubscribe "save".toList 2]) = true := by decide +kernel

end Verif.Observer
