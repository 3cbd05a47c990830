import Verif.Props.Observer
/-! # C50: what becomes of a broadcast, with listeners of any kind -/
namespace Verif.Observer
open Verif
set_option linter.unusedSimpArgs false

/-- A listener that the broadcast is for: all of them, but with a root that has children only those of this root -/
def Reached (obj : Nat → Obj) (root : Option Root) (o : Nat) : Prop :=
  ∀ r, root = some r → r.truth = true → (obj o).root = .ok (some r.id)

/-- A listener that makes the broadcast fail: its handler raises, or it is asked for its root and this raises something
else than AttributeError -/
def Fails (obj : Nat → Obj) (e : Str) (root : Option Root) (o : Nat) (x : Exc) : Prop :=
  (Reached obj root o ∧ (obj o).handler e = some (.error x)) ∨
    ∃ r, root = some r ∧ r.truth = true ∧ (obj o).root = .error x ∧ x ≠ .AttributeError

theorem each_outcome {e : Str} {send : Nat → Py S Unit} {p : Nat → Bool} {res : Nat → Except Exc Unit} (l : List Nat)
    (hs : ∀ o ∈ l, ∀ s : S, send o s = (if p o then { s with calls := s.calls ++ [(e, o)] } else s, res o)) : ∀ s : S,
    ((each send l s).2 = .ok () ↔ ∀ o ∈ l, res o = .ok ()) ∧
    (∀ x, (each send l s).2 = .error x → ∃ o ∈ l, res o = .error x) ∧
    ((each send l s).2 = .ok () →
      (each send l s).1 = { s with calls := s.calls ++ ((l.filter p).map fun o => (e, o)) }) := by
  induction l with
  | nil => intro s; simp [each, pure, Py.pure]
  | cons o r ih =>
    intro s
    have h1 := hs o (by simp) s
    have ih := ih fun o' ho' => hs o' (by simp [ho'])
    unfold each
    rw [Py.bind_def, h1]
    cases hr : res o with
    | error x =>
      refine ⟨⟨fun h => (nomatch h), fun h => ?_⟩, fun y hy => ⟨o, by simp, ?_⟩, fun h => (nomatch h)⟩
      · have := h o (by simp)
        rw [hr] at this
        cases this
      · rw [hr]; exact hy
    | ok u =>
      obtain ⟨a, b, c⟩ := ih (if p o then { s with calls := s.calls ++ [(e, o)] } else s)
      refine ⟨?_, fun x hx => ?_, fun hx => ?_⟩
      · show (each send r _).2 = .ok () ↔ _
        rw [a]
        simp only [List.mem_cons, forall_eq_or_imp, hr, true_and]
      · obtain ⟨o', h', h''⟩ := b x hx
        exact ⟨o', by simp [h'], h''⟩
      · have hx : (each send r (if p o then { s with calls := s.calls ++ [(e, o)] } else s)).2 = .ok () := hx
        show (each send r _).1 = _
        rw [c hx]
        cases hp : p o <;> simp [List.filter_cons, hp]

/-- **C50** with any listeners: a broadcast succeeds exactly if no live subscriber of the event makes it fail, and otherwise
raises what one of them raises; if it succeeds, the handlers of all live subscribers that it is for have been called, each
once, and nothing else. -/
theorem C50_outcome (obj : Nat → Obj) (h : List Op) (e : Str) (root : Option Root) :
    ((broadcast obj e root (run obj new h)).2 = .ok () ↔
      ∀ o, subscribed obj e o false h = true → ∀ x, ¬ Fails obj e root o x) ∧
    (∀ x, (broadcast obj e root (run obj new h)).2 = .error x →
      ∃ o, subscribed obj e o false h = true ∧ Fails obj e root o x) ∧
    ((broadcast obj e root (run obj new h)).2 = .ok () → ∃ new_calls,
      (broadcast obj e root (run obj new h)).1 = { run obj new h with calls := (run obj new h).calls ++ new_calls } ∧
      new_calls.Nodup ∧ ∀ e' o, (e', o) ∈ new_calls ↔ e' = e ∧ subscribed obj e o false h = true ∧ Reached obj root o) := by
  obtain ⟨hn, hm⟩ := run_members obj h new e (List.nodup_nil)
  have hm : ∀ o, o ∈ members (run obj new h) e ↔ subscribed obj e o false h = true := hm
  have hh := members_handler obj h new e (by intro o ho; simp [members, new, Dict.get] at ho)
  generalize run obj new h = s at *
  -- the loop
  have loop : ∀ {send : Nat → Py S Unit} {p : Nat → Bool} {res : Nat → Except Exc Unit},
      (∀ o ∈ members s e, ∀ s : S, send o s = (if p o then { s with calls := s.calls ++ [(e, o)] } else s, res o)) →
      (∀ o, p o = true ↔ Reached obj root o) → (∀ o ∈ members s e, ∀ x, res o = .error x ↔ Fails obj e root o x) →
      broadcast obj e root s = each send (members s e) s →
      ((broadcast obj e root s).2 = .ok () ↔ ∀ o, subscribed obj e o false h = true → ∀ x, ¬ Fails obj e root o x) ∧
      (∀ x, (broadcast obj e root s).2 = .error x → ∃ o, subscribed obj e o false h = true ∧ Fails obj e root o x) ∧
      ((broadcast obj e root s).2 = .ok () → ∃ new_calls,
        (broadcast obj e root s).1 = { s with calls := s.calls ++ new_calls } ∧ new_calls.Nodup ∧
        ∀ e' o, (e', o) ∈ new_calls ↔ e' = e ∧ subscribed obj e o false h = true ∧ Reached obj root o) := by
    intro send p res h1 h2 h3 h4
    obtain ⟨a, b, c⟩ := each_outcome (members s e) h1 s
    rw [h4]
    refine ⟨a.trans ⟨fun g o ho x hx => ?_, fun g o ho => ?_⟩, fun x hx => ?_, fun hx => ⟨_, c hx, ?_, fun e' o => ?_⟩⟩
    · have := g o ((hm o).mpr ho)
      rw [(h3 o ((hm o).mpr ho) x).mpr hx] at this
      cases this
    · cases hr : res o with
      | ok u => rfl
      | error x => exact absurd ((h3 o ho x).mp hr) (g o ((hm o).mp ho) x)
    · obtain ⟨o, ho, hr⟩ := b x hx
      exact ⟨o, (hm o).mp ho, (h3 o ho x).mp hr⟩
    · exact nodup_tag e _ (hn.filter _)
    · simp only [List.mem_map, List.mem_filter, Prod.mk.injEq]
      constructor
      · rintro ⟨o', ⟨g1, g2⟩, rfl, rfl⟩
        exact ⟨rfl, (hm o').mp g1, (h2 o').mp g2⟩
      · rintro ⟨rfl, g1, g2⟩
        exact ⟨o, ⟨(hm o).mpr g1, (h2 o).mpr g2⟩, rfl, rfl⟩
  have hcall : ∀ o ∈ members s e, ∃ r, (obj o).handler e = some r ∧ ∀ s, call obj e o s = ({ s with calls := s.calls ++ [(e, o)] }, r) := by
    intro o ho
    obtain ⟨r, hr⟩ := Option.isSome_iff_exists.mp (hh o ho)
    exact ⟨r, hr, fun s => by unfold call; rw [hr]⟩
  by_cases ht : ∃ r, root = some r ∧ r.truth = true
  · obtain ⟨r, rfl, ht⟩ := ht
    have hR : ∀ o, Reached obj (some r) o ↔ (obj o).root = .ok (some r.id) :=
      fun o => ⟨fun g => g r rfl ht, fun g r' hr' _ => by cases hr'; exact g⟩
    refine loop (send := sendToRoot obj e r) (p := fun o => decide ((obj o).root = .ok (some r.id)))
      (res := fun o => match (obj o).root with
        | .error .AttributeError => .ok ()
        | .error x => .error x
        | .ok q => if q = some r.id then ((obj o).handler e).getD (.ok ()) else .ok ()) ?_ ?_ ?_ ?_
    · intro o ho s
      obtain ⟨q, hq, hc⟩ := hcall o ho
      unfold sendToRoot
      cases hr : (obj o).root with
      | error x => cases x <;> simp
      | ok z =>
        dsimp only
        by_cases hz : z = some r.id
        · simp [hz, hc, hq]
        · simp [hz]
    · intro o
      rw [hR]
      simp
    · intro o ho x
      obtain ⟨q, hq, -⟩ := hcall o ho
      unfold Fails
      rw [hR]
      cases hr : (obj o).root with
      | error y => cases y <;> cases x <;> simp [ht]
      | ok z =>
        dsimp only
        by_cases hz : z = some r.id
        · simp [hz, hq]
        · simp [hz]
    · unfold broadcast members
      cases s.listeners.get e with
      | none => rfl
      | some set => simp [ht]
  · have hR : ∀ o, Reached obj root o := fun o r hr hr' => absurd ⟨r, hr, hr'⟩ ht
    refine loop (send := call obj e) (p := fun _ => true) (res := fun o => ((obj o).handler e).getD (.ok ())) ?_ ?_ ?_ ?_
    · intro o ho s
      obtain ⟨q, hq, hc⟩ := hcall o ho
      rw [hc, hq]
      rfl
    · intro o
      simp [hR o]
    · intro o ho x
      obtain ⟨q, hq, -⟩ := hcall o ho
      unfold Fails
      simp only [hR o, hq, true_and, Option.getD_some, Option.some.injEq]
      constructor
      · exact .inl
      · rintro (g | ⟨r, g1, g2, -⟩)
        · exact g
        · exact absurd ⟨r, g1, g2⟩ ht
    · unfold broadcast members
      cases s.listeners.get e with
      | none => rfl
      | some set =>
        cases root with
        | none => rfl
        | some r =>
          have : r.truth ≠ true := fun g => ht ⟨r, rfl, g⟩
          simp [this]

/-- A listener of the first document, one of the second whose handler raises, and one without a root: for the root of the
first document the broadcast succeeds and calls only the first listener; without a root it fails. -/
def three : Nat → Obj := fun i => if i = 1 then { handler := fun _ => some (.ok ()), root := .ok (some 1) }
  else if i = 2 then { handler := fun _ => some (.error .ValueError), root := .ok (some 2) }
  else { handler := fun _ => some (.ok ()), root := .error .AttributeError }

example : (broadcast three "save".toList (some ⟨1, true⟩) (run three new [.subscribe "save".toList 3, .subscribe "save".toList 2,
      .subscribe "save".toList 1])) = (⟨[("save".toList, [3, 2, 1])], [("save".toList, 1)]⟩, .ok ()) ∧
    (broadcast three "save".toList none (run three new [.subscribe "save".toList 3, .subscribe "save".toList 2,
      .subscribe "save".toList 1])).2 = .error .ValueError := by decide +kernel

end Verif.Observer
