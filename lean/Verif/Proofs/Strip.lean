import Verif.Model.Py
/-! `str.strip` -/
namespace Verif

theorem dropWhile_head {p : Char → Bool} {s : Str} {c : Char} {t : Str} (h : s.dropWhile p = c :: t) :
    p c = false := by
  induction s with
  | nil => simp at h
  | cons a s ih =>
    rw [List.dropWhile_cons] at h
    split at h
    · exact ih h
    · simp only [List.cons.injEq] at h
      rename_i ha
      rw [← h.1]; simpa using ha

theorem dropWhile_idem (p : Char → Bool) (s : Str) : (s.dropWhile p).dropWhile p = s.dropWhile p := by
  cases h : s.dropWhile p with
  | nil => rfl
  | cons c t => rw [List.dropWhile_cons, dropWhile_head h]; rfl

theorem strip_prefix (p : Char → Bool) (d : Str) : (d.reverse.dropWhile p).reverse <+: d := by
  have := List.dropWhile_suffix p (l := d.reverse)
  have := List.reverse_prefix.mpr this
  simpa using this

/-- Stripping twice is stripping once. -/
theorem pyStrip_idem (s : Str) : pyStrip (pyStrip s) = pyStrip s := by
  unfold pyStrip
  have h1 : (((s.dropWhile isPySpace).reverse.dropWhile isPySpace).reverse).dropWhile isPySpace =
      ((s.dropWhile isPySpace).reverse.dropWhile isPySpace).reverse := by
    have hp := strip_prefix isPySpace (s.dropWhile isPySpace)
    cases hr : ((s.dropWhile isPySpace).reverse.dropWhile isPySpace).reverse with
    | nil => rfl
    | cons c t =>
      rw [hr] at hp
      obtain ⟨u, hu⟩ := hp
      have : isPySpace c = false := dropWhile_head (t := t ++ u) hu.symm
      rw [List.dropWhile_cons, this]; rfl
  rw [h1, List.reverse_reverse, dropWhile_idem]

theorem pyStrip_sublist (s : Str) : (pyStrip s).Sublist s := by
  unfold pyStrip
  exact (strip_prefix isPySpace _).sublist.trans (List.dropWhile_suffix _).sublist

/-- A stripped string does not begin with white space. -/
theorem pyStrip_head {s : Str} {c : Char} {t : Str} (h : pyStrip s = c :: t) : isPySpace c = false := by
  have h1 := pyStrip_idem s
  rw [h] at h1
  unfold pyStrip at h1
  cases hc : isPySpace c with
  | false => rfl
  | true =>
    exfalso
    rw [List.dropWhile_cons, hc, if_pos rfl] at h1
    have hl := congrArg List.length h1
    have h2 := (strip_prefix isPySpace (t.dropWhile isPySpace)).length_le
    have h3 := (List.dropWhile_suffix isPySpace (l := t)).length_le
    simp only [List.length_cons] at hl
    omega

/-- A stripped string does not end with white space. -/
theorem pyStrip_last {s : Str} {c : Char} {t : Str} (h : pyStrip s = t ++ [c]) : isPySpace c = false := by
  unfold pyStrip at h
  have := congrArg List.reverse h
  rw [List.reverse_reverse, List.reverse_append] at this
  exact dropWhile_head (t := t.reverse) (by simpa using this)

/-- What neither begins nor ends with white space is not changed. -/
theorem pyStrip_eq {s : Str} (h1 : ∀ c t, s = c :: t → isPySpace c = false)
    (h2 : ∀ c t, s = t ++ [c] → isPySpace c = false) : pyStrip s = s := by
  unfold pyStrip
  have a : s.dropWhile isPySpace = s := by
    cases s with
    | nil => rfl
    | cons c t => rw [List.dropWhile_cons, h1 c t rfl]; rfl
  rw [a]
  have b : s.reverse.dropWhile isPySpace = s.reverse := by
    cases hr : s.reverse with
    | nil => rfl
    | cons c t =>
      have hs : s = t.reverse ++ [c] := by
        have := congrArg List.reverse hr
        simpa using this
      rw [List.dropWhile_cons, h2 c _ hs]; rfl
  rw [b, List.reverse_reverse]

end Verif
