import Verif.Model.Xmlns
import Verif.Proofs.Dict
/-! Lemmas about namespaces. -/
namespace Verif.Xmlns
open Verif

/-- Every cached answer is the answer that would be computed, and no name in Clark notation is cached. -/
def CacheOk (s : NS) : Prop :=
  ∀ t r, s.cache.get t = some r → t ≠ [] ∧ t.head? ≠ some '{' ∧ prefix2clark s t = .ok r

theorem register_ok (p u : Str) (s : NS) : CacheOk (register p u s).1 := by
  intro t r h; simp [register] at h

theorem update_prefix2uri (ns : Dict Str Str) (s : NS) (p : Str) :
    (update ns s).1.prefix2uri.get p =
      ((ns.reverse.find? fun e => e.1 = p).map Prod.snd).or (s.prefix2uri.get p) := by
  induction ns generalizing s with
  | nil => simp [update]
  | cons e r ih =>
    obtain ⟨p', u⟩ := e
    rw [update, ih]
    simp only [register, Dict.get_set, List.reverse_cons, List.find?_append, List.find?_cons,
      List.find?_nil]
    cases List.find? (fun e => decide (e.1 = p)) r.reverse with
    | some x => simp
    | none => by_cases h : p' = p <;> simp [h]

theorem update_ok (ns : Dict Str Str) (s : NS) (h : CacheOk s) : CacheOk (update ns s).1 := by
  induction ns generalizing s with
  | nil => exact h
  | cons e r ih => exact ih _ (register_ok _ _ s)

theorem create_ok (ns : Dict Str Str) : CacheOk (create ns) :=
  update_ok _ _ (by intro t r h; simp at h)

theorem prefix2clark_congr {s s' : NS} (h : ∀ p, s.prefix2uri.get p = s'.prefix2uri.get p)
    (t : Str) : prefix2clark s t = prefix2clark s' t := by
  unfold prefix2clark; split
  · rfl
  · rw [h]

theorem cn_ok (t : Str) (s : NS) (h : CacheOk s) : CacheOk (cn t s).1 := by
  unfold cn
  cases hc : s.cache.get t with
  | some r => exact h
  | none =>
    cases t with
    | nil => exact h
    | cons c t =>
      by_cases h1 : c = '{'
      · simpa [h1] using h
      · simp only [h1, if_false]
        cases h2 : prefix2clark s (c :: t) with
        | error e => exact h
        | ok r =>
          intro t' r' h'
          simp only [Dict.get_set] at h'
          by_cases h3 : c :: t = t'
          · subst h3
            simp at h'; subst h'
            exact ⟨by simp, by simpa using h1, h2⟩
          · rw [if_neg h3] at h'
            exact h t' r' h'

theorem cn_prefix2uri (t : Str) (s : NS) : (cn t s).1.prefix2uri = s.prefix2uri := by
  unfold cn
  split
  · rfl
  · split
    · rfl
    · split
      · rfl
      · split <;> rfl

/-- The answer without the cache. -/
theorem cn_result (t : Str) (s : NS) (h : CacheOk s) :
    (cn t s).2 = match t with
      | [] => .error .IndexError
      | c :: _ => if c = '{' then .ok t else prefix2clark s t := by
  unfold cn
  cases hc : s.cache.get t with
  | some r =>
    obtain ⟨h1, h2, h3⟩ := h t r hc
    cases t with
    | nil => exact absurd rfl h1
    | cons c t =>
      have : c ≠ '{' := by simpa using h2
      simp [this, h3]
  | none =>
    cases t with
    | nil => rfl
    | cons c t =>
      by_cases h1 : c = '{'
      · simp [h1]
      · simp only [h1, if_false]
        cases prefix2clark s (c :: t) <;> rfl

theorem splitColon_eq (p l : Str) (h : ':' ∉ p) : splitColon (p ++ ':' :: l) = (p, l) := by
  induction p with
  | nil => simp [splitColon]
  | cons c p ih =>
    simp at h
    have hc : c ≠ ':' := fun e => h.1 e.symm
    simp [splitColon, hc, ih h.2]

theorem splitPrefix_eq (p l : Str) (h : ':' ∉ p) (hl : ':' ∉ l) :
    splitPrefix (p ++ ':' :: l) = .ok (p, l) := by
  unfold splitPrefix
  rw [if_pos, splitColon_eq p l h]
  simp [List.count_append, List.count_eq_zero.2 h, List.count_eq_zero.2 hl]

end Verif.Xmlns
