import Verif.Model.Time
import Verif.Proofs.Py
/-! The regular expressions of `timeparser.py`. -/
namespace Verif.Time
open Verif
set_option linter.unusedSimpArgs false

variable {U : Nd} {α β : Type}

namespace Re

theorem mem_seq {m : Re α} {f : α → Re β} {s : Str} {b : β} {r : Str} :
    (b, r) ∈ seq m f s ↔ ∃ a t, (a, t) ∈ m s ∧ (b, r) ∈ f a t := by
  unfold seq
  rw [List.mem_flatMap]
  constructor
  · rintro ⟨⟨a, t⟩, h1, h2⟩; exact ⟨a, t, h1, h2⟩
  · rintro ⟨a, t, h1, h2⟩; exact ⟨(a, t), h1, h2⟩

theorem mem_opt {m : Re α} {s : Str} {o : Option α} {r : Str} :
    (o, r) ∈ opt m s ↔ (∃ a, o = some a ∧ (a, r) ∈ m s) ∨ (o = none ∧ r = s) := by
  unfold opt alt
  rw [List.mem_append, mem_seq]
  simp only [done, List.mem_singleton, Prod.mk.injEq]
  constructor
  · rintro (⟨a, t, h1, h2, h3⟩ | ⟨h1, h2⟩)
    · exact .inl ⟨a, h2, h3 ▸ h1⟩
    · exact .inr ⟨h1, h2⟩
  · rintro (⟨a, h1, h2⟩ | ⟨h1, h2⟩)
    · exact .inl ⟨a, r, h2, h1, rfl⟩
    · exact .inr ⟨h1, h2⟩

theorem mem_cls {p : Char → Bool} {s : Str} {c : Char} {r : Str} : (c, r) ∈ cls p s ↔ s = c :: r ∧ p c = true := by
  cases s with
  | nil => simp [cls]
  | cons d t =>
    show (c, r) ∈ (if p d then [(d, t)] else []) ↔ _
    by_cases h : p d = true
    · rw [if_pos h]
      simp only [List.mem_singleton, Prod.mk.injEq, List.cons.injEq]
      constructor
      · rintro ⟨rfl, rfl⟩; exact ⟨⟨rfl, rfl⟩, h⟩
      · rintro ⟨⟨rfl, rfl⟩, -⟩; exact ⟨rfl, rfl⟩
    · rw [if_neg h]
      simp only [List.not_mem_nil, List.cons.injEq, false_iff]
      rintro ⟨⟨rfl, rfl⟩, h2⟩; exact h h2

theorem mem_lit {x : Char} {s : Str} {c : Char} {r : Str} : (c, r) ∈ lit x s ↔ s = x :: r ∧ c = x := by
  unfold lit
  rw [mem_cls]
  constructor
  · rintro ⟨h1, h2⟩; rw [beq_iff_eq] at h2; exact ⟨h2 ▸ h1, h2⟩
  · rintro ⟨h1, rfl⟩; exact ⟨h1, by simp⟩

end Re

/-- A non-empty string of decimal digits. -/
def Digs (U : Nd) (ds : Str) : Prop := ds ≠ [] ∧ ∀ c ∈ ds, (U.val c).isSome = true

open Re

theorem mem_digits {s ds r : Str} (h : (ds, r) ∈ digits U s) : s = ds ++ r ∧ Digs U ds := by
  induction s generalizing ds r with
  | nil => cases h
  | cons c t ih =>
    unfold digits at h
    split at h
    · rename_i hc
      rw [List.mem_append, List.mem_map] at h
      rcases h with ⟨⟨a, b⟩, h1, h2⟩ | h
      · simp only [Prod.mk.injEq] at h2
        obtain ⟨rfl, rfl⟩ := h2
        obtain ⟨e1, e2, e3⟩ := ih h1
        refine ⟨by rw [e1]; rfl, by simp, fun x hx => ?_⟩
        rcases List.mem_cons.1 hx with rfl | hx
        · exact hc
        · exact e3 x hx
      · simp only [List.mem_singleton, Prod.mk.injEq] at h
        obtain ⟨rfl, rfl⟩ := h
        exact ⟨rfl, by simp, fun x hx => by simp at hx; rw [hx]; exact hc⟩
    · cases h

theorem mem_unit {x : Char} {s ds r : Str} (h : (ds, r) ∈ unit U x s) : s = ds ++ x :: r ∧ Digs U ds := by
  unfold unit at h
  rw [mem_seq] at h
  obtain ⟨a, t, h1, h2⟩ := h
  rw [mem_seq] at h2
  obtain ⟨b, t2, h3, h4⟩ := h2
  simp only [done, List.mem_singleton, Prod.mk.injEq] at h4
  obtain ⟨rfl, rfl⟩ := h4
  obtain ⟨rfl, -⟩ := mem_lit.1 h3
  exact mem_digits h1

theorem mem_seconds {s ds r : Str} {fr : Option Str} (h : ((ds, fr), r) ∈ seconds U s) :
    s = ds ++ ((fr.map (',' :: ·)).getD [] ++ 'S' :: r) ∧ Digs U ds ∧ ∀ fs, fr = some fs → Digs U fs := by
  unfold seconds at h
  obtain ⟨a, t, h1, h2⟩ := mem_seq.1 h
  obtain ⟨o, t2, h3, h4⟩ := mem_seq.1 h2
  obtain ⟨c, t3, h5, h6⟩ := mem_seq.1 h4
  simp only [done, List.mem_singleton, Prod.mk.injEq] at h6
  obtain ⟨⟨rfl, rfl⟩, rfl⟩ := h6
  obtain ⟨rfl, -⟩ := mem_lit.1 h5
  obtain ⟨e1, e2⟩ := mem_digits h1
  rcases mem_opt.1 h3 with ⟨fs, rfl, h7⟩ | ⟨rfl, rfl⟩
  · obtain ⟨c2, t4, h8, h9⟩ := mem_seq.1 h7
    obtain ⟨rfl, -⟩ := mem_lit.1 h8
    obtain ⟨rfl, e4⟩ := mem_digits h9
    exact ⟨by rw [e1]; simp, e2, fun fs h => by cases h; exact e4⟩
  · exact ⟨by rw [e1]; rfl, e2, fun fs h => by cases h⟩

/-! ## The grammar -/

/-- `nX` or nothing -/
def optUnit (o : Option Str) (x : Char) : Str := match o with
  | none => []
  | some ds => ds ++ [x]

/-- `n[,n]S` or nothing -/
def optSeconds (o : Option (Str × Option Str)) : Str := match o with
  | none => []
  | some (ds, none) => ds ++ ['S']
  | some (ds, some fs) => ds ++ ',' :: (fs ++ ['S'])

/-- `[T[nH][nM][n[,n]S]]` -/
def timePart (g : Parts) (t : Bool) : Str :=
  if t then 'T' :: (optUnit g.hours 'H' ++ optUnit g.minutes 'M' ++ optSeconds g.seconds) else []

/-- `P[nY][nM][nD][T[nH][nM][n[,n]S]]` -/
def render (g : Parts) (t : Bool) : Str :=
  'P' :: (optUnit g.years 'Y' ++ optUnit g.months 'M' ++ optUnit g.days 'D' ++ timePart g t)

/-- The numbers consist of digits, and without `T` there is no time. -/
def Parts.Ok (U : Nd) (g : Parts) (t : Bool) : Prop :=
  (∀ ds, g.years = some ds → Digs U ds) ∧ (∀ ds, g.months = some ds → Digs U ds) ∧
  (∀ ds, g.days = some ds → Digs U ds) ∧ (∀ ds, g.hours = some ds → Digs U ds) ∧
  (∀ ds, g.minutes = some ds → Digs U ds) ∧
  (∀ ds fr, g.seconds = some (ds, fr) → Digs U ds ∧ ∀ fs, fr = some fs → Digs U fs) ∧
  (t = false → g.hours = none ∧ g.minutes = none ∧ g.seconds = none)

theorem mem_optUnit {x : Char} {s r : Str} {o : Option Str} (h : (o, r) ∈ opt (unit U x) s) :
    s = optUnit o x ++ r ∧ ∀ ds, o = some ds → Digs U ds := by
  rcases mem_opt.1 h with ⟨a, rfl, h1⟩ | ⟨rfl, rfl⟩
  · obtain ⟨e1, e2⟩ := mem_unit h1
    exact ⟨by rw [e1]; simp [optUnit], fun ds h => by cases h; exact e2⟩
  · exact ⟨rfl, fun ds h => by cases h⟩

theorem mem_optSeconds {s r : Str} {o : Option (Str × Option Str)} (h : (o, r) ∈ opt (seconds U) s) :
    s = optSeconds o ++ r ∧ ∀ ds fr, o = some (ds, fr) → Digs U ds ∧ ∀ fs, fr = some fs → Digs U fs := by
  rcases mem_opt.1 h with ⟨⟨ds, fr⟩, rfl, h1⟩ | ⟨rfl, rfl⟩
  · obtain ⟨e1, e2, e3⟩ := mem_seconds h1
    refine ⟨?_, fun ds fr h => by cases h; exact ⟨e2, e3⟩⟩
    rw [e1]
    cases fr <;> simp [optSeconds]
  · exact ⟨rfl, fun ds fr h => by cases h⟩

theorem mem_durationRe {s r : Str} {g : Parts} (h : (g, r) ∈ durationRe U s) :
    ∃ t, s = render g t ++ r ∧ g.Ok U t := by
  unfold durationRe at h
  obtain ⟨c, s1, h1, h0⟩ := mem_seq.1 h
  clear h
  obtain ⟨rfl, -⟩ := mem_lit.1 h1
  obtain ⟨y, s2, h2, k2⟩ := mem_seq.1 h0
  obtain ⟨m, s3, h3, k3⟩ := mem_seq.1 k2
  obtain ⟨d, s4, h4, k4⟩ := mem_seq.1 k3
  obtain ⟨t, s5, h5, k5⟩ := mem_seq.1 k4
  clear h0 k2 k3 k4
  obtain ⟨rfl, y1⟩ := mem_optUnit h2
  obtain ⟨rfl, m1⟩ := mem_optUnit h3
  obtain ⟨rfl, d1⟩ := mem_optUnit h4
  rcases mem_opt.1 h5 with ⟨⟨hh, n, sec⟩, rfl, h6⟩ | ⟨rfl, rfl⟩
  · simp only [done, List.mem_singleton, Prod.mk.injEq] at k5
    obtain ⟨rfl, rfl⟩ := k5
    obtain ⟨c2, s6, h7, k6⟩ := mem_seq.1 h6
    clear h6 h5
    obtain ⟨rfl, -⟩ := mem_lit.1 h7
    obtain ⟨hh2, s7, h8, k7⟩ := mem_seq.1 k6
    obtain ⟨n2, s8, h9, k8⟩ := mem_seq.1 k7
    obtain ⟨sec2, s9, h10, k9⟩ := mem_seq.1 k8
    simp only [done, List.mem_singleton, Prod.mk.injEq] at k9
    obtain ⟨⟨rfl, rfl, rfl⟩, rfl⟩ := k9
    obtain ⟨rfl, hh1⟩ := mem_optUnit h8
    obtain ⟨rfl, n1⟩ := mem_optUnit h9
    obtain ⟨rfl, sec1⟩ := mem_optSeconds h10
    exact ⟨true, by simp [render, timePart, List.append_assoc], y1, m1, d1, hh1, n1, sec1, fun h => by cases h⟩
  · simp only [done, List.mem_singleton, Prod.mk.injEq] at k5
    obtain ⟨rfl, rfl⟩ := k5
    exact ⟨false, by simp [render, timePart, List.append_assoc], y1, m1, d1, fun _ h => (by cases h),
      fun _ h => (by cases h), fun _ _ h => (by cases h), fun _ => ⟨rfl, rfl, rfl⟩⟩

/-- What matches is of the documented form, perhaps followed by a newline. -/
theorem match_sound {s : Str} {g : Parts} (h : durationMatch U s = some g) :
    ∃ t tail, s = render g t ++ tail ∧ atEnd tail = true ∧ g.Ok U t := by
  unfold durationMatch at h
  rw [Option.map_eq_some_iff] at h
  obtain ⟨⟨g', r⟩, h1, h2⟩ := h
  cases h2
  have h3 := List.mem_of_head? h1
  rw [List.mem_filter] at h3
  obtain ⟨t, h4, h5⟩ := mem_durationRe h3.1
  exact ⟨t, r, h4, h3.2, h5⟩

/-! ## First matches -/

namespace Re

theorem seq_head {m : Re α} {f : α → Re β} {s t : Str} {a : α} {x : β × Str}
    (h1 : (m s).head? = some (a, t)) (h2 : (f a t).head? = some x) : (seq m f s).head? = some x := by
  unfold seq
  cases hm : m s with
  | nil => rw [hm] at h1; cases h1
  | cons p r =>
    rw [hm] at h1
    cases h1
    rw [List.flatMap_cons, List.head?_append, h2]
    rfl

theorem alt_head {m n : Re α} {s : Str} {x : α × Str} (h : (m s).head? = some x) : (alt m n s).head? = some x := by
  unfold alt
  rw [List.head?_append, h]; rfl

theorem alt_skip {m n : Re α} {s : Str} (h : m s = []) : alt m n s = n s := by
  unfold alt; rw [h]; rfl

theorem opt_head {m : Re α} {s t : Str} {a : α} (h : (m s).head? = some (a, t)) :
    (opt m s).head? = some (some a, t) := alt_head (seq_head h rfl)

theorem opt_skip {m : Re α} {s : Str} (h : m s = []) : (opt m s).head? = some (none, s) := by
  unfold opt
  rw [alt_skip]
  · rfl
  · unfold seq; rw [h]; rfl

theorem lit_head (x : Char) (r : Str) : (lit x (x :: r)).head? = some (x, r) := by
  simp [lit, cls]

theorem lit_skip {x : Char} {s : Str} (h : ∀ c, s.head? = some c → c ≠ x) : lit x s = [] := by
  cases s with
  | nil => rfl
  | cons c r => simp [lit, cls, h c rfl]

theorem seq_skip {m : Re α} {f : α → Re β} {s : Str} (h : m s = []) : seq m f s = [] := by
  unfold seq; rw [h]; rfl

end Re

/-- `\d+` finds all digits first. -/
theorem digits_head {ds : Str} (hd : Digs U ds) {r : Str} (hr : ∀ c, r.head? = some c → U.val c = none) :
    (digits U (ds ++ r)).head? = some (ds, r) := by
  obtain ⟨hne, hd⟩ := hd
  induction ds with
  | nil => exact absurd rfl hne
  | cons c t ih =>
    have hc := hd c (by simp)
    show (digits U (c :: (t ++ r))).head? = _
    unfold digits
    rw [if_pos hc, List.head?_append, List.head?_map]
    by_cases ht : t = []
    · subst ht
      have : digits U ([] ++ r) = [] := by
        cases r with
        | nil => rfl
        | cons c r =>
          rw [List.nil_append]
          unfold digits
          rw [if_neg (by rw [hr c rfl]; simp)]
      rw [this]; rfl
    · rw [ih ht (fun c hc => hd c (List.mem_cons_of_mem _ hc))]
      rfl

theorem digits_skip {s : Str} (hs : ∀ c, s.head? = some c → U.val c = none) : digits U s = [] := by
  cases s with
  | nil => rfl
  | cons c r => unfold digits; rw [if_neg (by rw [hs c rfl]; simp)]

theorem unit_head {x : Char} (hx : U.val x = none) {ds : Str} (hd : Digs U ds) (r : Str) :
    (unit U x (ds ++ x :: r)).head? = some (ds, r) := by
  refine seq_head (digits_head hd (fun c h => by cases h; exact hx)) ?_
  exact seq_head (lit_head x r) rfl

theorem append_digits {ds es : Str} {c : Char} {r t : Str} (hd : ∀ x ∈ ds, (U.val x).isSome = true)
    (he : ∀ x ∈ es, (U.val x).isSome = true) (hc : U.val c = none) {x : Char} (hx : U.val x = none)
    (h : ds ++ c :: r = es ++ x :: t) : ds = es ∧ c = x ∧ r = t := by
  induction ds generalizing es with
  | nil =>
    cases es with
    | nil => simp at h; exact ⟨rfl, h⟩
    | cons e es =>
      simp at h
      have := he e (by simp)
      rw [← h.1, hc] at this
      cases this
  | cons d ds ih =>
    cases es with
    | nil =>
      simp at h
      have := hd d (by simp)
      rw [h.1, hx] at this
      cases this
    | cons e es =>
      simp only [List.cons_append, List.cons.injEq] at h
      obtain ⟨h1, h2, h3⟩ := ih (fun x hx => hd x (List.mem_cons_of_mem _ hx)) (fun x hx => he x (List.mem_cons_of_mem _ hx)) h.2
      exact ⟨by rw [h.1, h1], h2, h3⟩

/-- Digits followed by another unit are no match. -/
theorem unit_other {x c : Char} (hx : U.val x = none) (hc : U.val c = none) (hne : c ≠ x) {ds : Str}
    (hd : Digs U ds) (r : Str) : unit U x (ds ++ c :: r) = [] := by
  rw [List.eq_nil_iff_forall_not_mem]
  rintro ⟨es, t⟩ h
  obtain ⟨h1, h2⟩ := mem_unit h
  exact hne (append_digits hd.2 h2.2 hc hx h1).2.1

theorem unit_skip {x : Char} {s : Str} (hs : ∀ c, s.head? = some c → U.val c = none) : unit U x s = [] :=
  seq_skip (digits_skip hs)

theorem avoid_unit {x c : Char} (hx : U.val x = none) (hc : U.val c = none) (hne : c ≠ x) {o : Option Str}
    (ho : ∀ ds, o = some ds → Digs U ds) {r : Str} (hr : unit U x r = []) : unit U x (optUnit o c ++ r) = [] := by
  cases o with
  | none => exact hr
  | some ds =>
    simp only [optUnit, List.append_assoc, List.singleton_append]
    exact unit_other hx hc hne (ho ds rfl) r

theorem comma (U : Nd) : U.val ',' = none := by rw [U.ascii ',' (by decide)]; decide
theorem letterS (U : Nd) : U.val 'S' = none := by rw [U.ascii 'S' (by decide)]; decide

theorem avoid_seconds {x : Char} (hx : U.val x = none) (h1 : ',' ≠ x) (h2 : 'S' ≠ x) {o : Option (Str × Option Str)}
    (ho : ∀ ds fr, o = some (ds, fr) → Digs U ds ∧ ∀ fs, fr = some fs → Digs U fs) {r : Str}
    (hr : unit U x r = []) : unit U x (optSeconds o ++ r) = [] := by
  rcases o with _ | ⟨ds, _ | fs⟩
  · exact hr
  · simp only [optSeconds, List.append_assoc, List.singleton_append]
    exact unit_other hx (letterS U) h2 (ho ds none rfl).1 r
  · simp only [optSeconds, List.append_assoc, List.cons_append]
    exact unit_other hx (comma U) h1 (ho ds _ rfl).1 _

/-- The first match of an optional unit in front of a rest without that unit. -/
theorem optUnit_head {x : Char} (hx : U.val x = none) {o : Option Str} (ho : ∀ ds, o = some ds → Digs U ds) {r : Str}
    (hr : unit U x r = []) : (opt (unit U x) (optUnit o x ++ r)).head? = some (o, r) := by
  cases o with
  | none => exact opt_skip hr
  | some ds =>
    simp only [optUnit, List.append_assoc, List.singleton_append]
    exact opt_head (unit_head hx (ho ds rfl) r)

theorem optSeconds_head {o : Option (Str × Option Str)}
    (ho : ∀ ds fr, o = some (ds, fr) → Digs U ds ∧ ∀ fs, fr = some fs → Digs U fs) {r : Str}
    (hr : ∀ c, r.head? = some c → U.val c = none) : (opt (seconds U) (optSeconds o ++ r)).head? = some (o, r) := by
  rcases o with _ | ⟨ds, _ | fs⟩
  · exact opt_skip (seq_skip (digits_skip hr))
  · simp only [optSeconds, List.append_assoc, List.singleton_append]
    refine opt_head (seq_head (digits_head (ho ds none rfl).1 (fun c h => by cases h; exact letterS U)) ?_)
    refine seq_head (opt_skip (seq_skip (lit_skip (fun c h => by cases h; decide)))) ?_
    exact seq_head (lit_head 'S' r) rfl
  · simp only [optSeconds, List.append_assoc, List.cons_append, List.singleton_append]
    refine opt_head (seq_head (digits_head (ho ds _ rfl).1 (fun c h => by cases h; exact comma U)) ?_)
    refine seq_head (opt_head (seq_head (lit_head ',' _)
      (digits_head ((ho ds _ rfl).2 fs rfl) (fun c h => by cases h; exact letterS U)))) ?_
    exact seq_head (lit_head 'S' r) rfl

theorem ascii_none (U : Nd) {c : Char} (h : c.toNat < 128) (h2 : digitVal c = none) : U.val c = none := by
  rw [U.ascii c h, h2]

theorem atEnd_head {s : Str} (h : atEnd s = true) : ∀ c, s.head? = some c → c = '\n' := by
  unfold atEnd at h
  simp only [Bool.or_eq_true, beq_iff_eq] at h
  rcases h with rfl | rfl
  · intro c h; cases h
  · intro c h; cases h; rfl

theorem atEnd_none {s : Str} (h : atEnd s = true) : ∀ c, s.head? = some c → U.val c = none := by
  intro c hc
  rw [atEnd_head h c hc]
  exact ascii_none U (by decide) (by decide)

/-- Every string of the documented form matches, with its numbers as groups. -/
theorem match_complete {g : Parts} {t : Bool} (hg : g.Ok U t) {tail : Str} (ht : atEnd tail = true) :
    durationMatch U (render g t ++ tail) = some g := by
  obtain ⟨gy, gm, gd, gh, gn, gs, gt⟩ := hg
  have hend := atEnd_none (U := U) ht
  have hY : U.val 'Y' = none := ascii_none U (by decide) (by decide)
  have hM : U.val 'M' = none := ascii_none U (by decide) (by decide)
  have hD : U.val 'D' = none := ascii_none U (by decide) (by decide)
  have hH : U.val 'H' = none := ascii_none U (by decide) (by decide)
  have hT : U.val 'T' = none := ascii_none U (by decide) (by decide)
  have htime : ∀ c, (timePart g t ++ tail).head? = some c → U.val c = none := by
    cases t with
    | false => exact hend
    | true => intro c h; cases h; exact hT
  have ht0 : ∀ x, unit U x (timePart g t ++ tail) = [] := fun x => unit_skip htime
  have hall : (durationRe U (render g t ++ tail)).head? = some (g, tail) := by
    have hr : render g t ++ tail = 'P' :: (optUnit g.years 'Y' ++ (optUnit g.months 'M' ++
        (optUnit g.days 'D' ++ (timePart g t ++ tail)))) := by
      simp [render, List.append_assoc]
    rw [hr]
    unfold durationRe
    refine seq_head (lit_head 'P' _) ?_
    refine seq_head (optUnit_head hY gy (avoid_unit hY hM (by decide) gm (avoid_unit hY hD (by decide) gd (ht0 _)))) ?_
    refine seq_head (optUnit_head hM gm (avoid_unit hM hD (by decide) gd (ht0 _))) ?_
    refine seq_head (optUnit_head hD gd (ht0 _)) ?_
    cases t with
    | false =>
      obtain ⟨e1, e2, e3⟩ := gt rfl
      refine seq_head (opt_skip (seq_skip (lit_skip ?_))) ?_
      · intro c h
        have h' : tail.head? = some c := h
        rw [atEnd_head ht c h']
        decide
      · obtain ⟨y, m, d, h, n, s⟩ := g
        simp only at e1 e2 e3
        subst e1 e2 e3
        rfl
    | true =>
      have hr2 : timePart g true ++ tail = 'T' :: (optUnit g.hours 'H' ++ (optUnit g.minutes 'M' ++
          (optSeconds g.seconds ++ tail))) := by
        simp [timePart, List.append_assoc]
      rw [hr2]
      have hs0 : ∀ x, unit U x tail = [] := fun x => unit_skip hend
      refine seq_head (opt_head (a := (g.hours, g.minutes, g.seconds)) (t := tail) (seq_head (lit_head 'T' _) ?_)) ?_
      · refine seq_head (optUnit_head hH gh (avoid_unit hH hM (by decide) gn
          (avoid_seconds hH (by decide) (by decide) gs (hs0 _)))) ?_
        refine seq_head (optUnit_head hM gn (avoid_seconds hM (by decide) (by decide) gs (hs0 _))) ?_
        exact seq_head (optSeconds_head gs hend) rfl
      · rfl
  unfold durationMatch
  cases hl : durationRe U (render g t ++ tail) with
  | nil => rw [hl] at hall; cases hall
  | cons p r =>
    rw [hl] at hall
    cases hall
    rw [List.filter_cons, if_pos ht]
    rfl

/-- Two readings of the same string have the same numbers. -/
theorem render_unique {g g' : Parts} {t t' : Bool} (hg : g.Ok U t) (hg' : g'.Ok U t') {tail tail' : Str}
    (ht : atEnd tail = true) (ht' : atEnd tail' = true) (h : render g t ++ tail = render g' t' ++ tail') : g = g' := by
  have h1 := match_complete hg ht
  rw [h, match_complete hg' ht'] at h1
  exact (Option.some.inj h1).symm

end Verif.Time
