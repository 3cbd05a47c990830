import Verif.Props.Dates
/-! # C52: `TimeParser` objects -/
set_option linter.unusedSimpArgs false
namespace Verif.Time
open Verif
variable (U : Nd)

/-- **C52** the kind of value is decided by the string: durations begin with `P`, of the other strings those with
a `T` are times, the rest dates.  The string is kept. -/
theorem C52_kind (s : Str) (p : Parser) (h : Parser.ofStr U s = .ok p) :
    p.timestr = s ∧ (p.isDuration ↔ s.head? = some 'P') ∧
    (p.hasTime ↔ s.head? ≠ some 'P' ∧ 'T' ∈ s) ∧ (p.isDate ↔ s.head? ≠ some 'P') := by
  unfold Parser.ofStr at h
  cases hp : parse U s with
  | error e => rw [hp] at h; cases h
  | ok v =>
    rw [hp] at h
    cases h
    refine ⟨rfl, ?_⟩
    unfold parse at hp
    by_cases h1 : s.head? = some 'P'
    · rw [if_pos h1] at hp
      cases hx : durationParser U s with
      | error e => rw [hx] at hp; cases hp
      | ok x => rw [hx] at hp; cases hp; simp [Parser.isDuration, Parser.hasTime, Parser.isDate, h1]
    · rw [if_neg h1] at hp
      by_cases h2 : 'T' ∈ s
      · rw [if_pos h2] at hp
        cases hx : strptime (Re.datetime U) (fun p => p.1.ok && p.2.ok) s with
        | error e => rw [hx] at hp; cases hp
        | ok x => rw [hx] at hp; cases hp; simp [Parser.isDuration, Parser.hasTime, Parser.isDate, h1, h2]
      · rw [if_neg h2] at hp
        cases hx : strptime (Re.date U) Date.ok s with
        | error e => rw [hx] at hp; cases hp
        | ok x => rw [hx] at hp; cases hp; simp [Parser.isDuration, Parser.hasTime, Parser.isDate, h1, h2]

/-- **C52** a parser made of a value has the string of the value, and a parser made of this string has the
value again, up to what the format can express (whole seconds of a time; parts of 100 microseconds of a
duration that is not negative). -/
theorem C52_object_partial (year : Nat → Str) (hy : ∀ y, year y = pad 4 y) (d : Date) (hd : d.ok = true)
    (t : Clock) (ht : t.ok = true) (n : Nat) (hn : (n : Int) < limit) :
    (Parser.ofStr U (Parser.ofValue year (.date d)).timestr =
      .ok (Parser.ofValue year (.date d))) ∧
    (Parser.ofStr U (Parser.ofValue year (.datetime d t)).timestr =
      .ok ⟨(Parser.ofValue year (.datetime d t)).timestr, .datetime d { t with micro := 0 }⟩) ∧
    (Parser.ofStr U (Parser.ofValue year (.duration (n : Int))).timestr =
      .ok ⟨(Parser.ofValue year (.duration (n : Int))).timestr, .duration ((n - n % 100 : Nat) : Int)⟩) := by
  refine ⟨?_, ?_, ?_⟩
  · show Except.map _ (parse U (toString year (.date d))) = _
    rw [C52_date U year d hd (hy _)]; rfl
  · show Except.map _ (parse U (toString year (.datetime d t))) = _
    rw [C52_datetime U year d t hd ht (hy _)]; rfl
  · show Except.map _ (parse U (durationToString (n : Int))) = _
    have hP : (durationToString (n : Int)).head? = some 'P' := by
      unfold durationToString
      simp only
      split <;> rfl
    unfold parse
    rw [if_pos hP, C51_roundtrip_partial U n hn]; rfl

/-- **C52** `str` of a parser: that of a value is the stored string; dates and times are parsed again to the same
value, whatever string the parser was made of. -/
theorem C52_str (year : Nat → Str) (hy : ∀ y, y ≤ 9999 → year y = pad 4 y) :
    (∀ v, (Parser.ofValue year v).str year = (Parser.ofValue year v).timestr ∧
      (Parser.ofValue year v).value = v) ∧
    (∀ s p, Parser.ofStr U s = .ok p → p.isDate = true →
      (Parser.ofStr U (p.str year)).map (fun q => q.value) = .ok p.value) := by
  refine ⟨fun v => ⟨rfl, rfl⟩, fun s p h hd => ?_⟩
  unfold Parser.ofStr at h
  cases hp : parse U s with
  | error e => rw [hp] at h; cases h
  | ok v =>
    rw [hp] at h
    cases h
    have hnd : ∀ x, v ≠ .duration x := by
      rintro x rfl; cases hd
    show Except.map _ (Except.map _ (parse U (toString year v))) = _
    rw [C52_reformat U year hy s v hp hnd]
    rfl

example : (Parser.ofStr Ascii "2011-01-29T10:20:30".toList).map (fun p => (p.hasTime, p.isDate, p.isDuration)) =
    .ok (true, true, false) := by decide +kernel
example : (Parser.ofStr Ascii "PT1H".toList).map (fun p => (p.hasTime, p.isDate, p.isDuration)) =
    .ok (false, false, true) := by decide +kernel

end Verif.Time
