import Verif.Proofs.Digits
/-! # C51, C53: durations -/
namespace Verif.Time
open Verif
set_option linter.unusedSimpArgs false

variable (U : Nd)

/-! ## Specification: the grammar is `render` (`P[nY][nM][nD][T[nH][nM][n[,n]S]]`), its meaning -/

/-- Value of a string of digits. -/
def dec : Str → Nat
  | [] => 0
  | c :: r => (U.val c).getD 0 * 10 ^ r.length + dec r

/-- Value of an optional number. -/
def odec (o : Option Str) : Nat := match o with
  | none => 0
  | some ds => dec U ds

/-- `365*Y + 30*M + D` -/
def Parts.totalDays (g : Parts) : Nat := 365 * odec U g.years + 30 * odec U g.months + odec U g.days

/-- Seconds without fraction. -/
def Parts.secs (g : Parts) : Nat := match g.seconds with
  | none => 0
  | some (ds, _) => dec U ds

/-- Fraction of a second. -/
def Parts.frac (g : Parts) : Rat := match g.seconds with
  | some (_, some fs) => (dec U fs : Rat) / (10 ^ fs.length : Nat)
  | _ => 0

/-- Number of microseconds without the fraction of a second. -/
def Parts.us (g : Parts) : Nat :=
  1000000 * (g.secs U + 60 * odec U g.minutes + 3600 * odec U g.hours + 86400 * g.totalDays U)

theorem dec_eq (ds : Str) : dec U ds = number U ds := by
  induction ds with
  | nil => rfl
  | cons c r ih =>
    have h := number_append U [c] r
    rw [List.singleton_append] at h
    rw [h, number_single, ← ih]; rfl

theorem clean_stands (o : Option Str) : Stands (clean U o) (odec U o) := by
  cases o with
  | none => exact stands_zero
  | some ds =>
    show Stands _ (dec U ds)
    rw [dec_eq]; exact round_stands _

theorem days_stands (g : Parts) :
    Stands ((((clean U g.years).mul 365).add ((clean U g.months).mul 30)).add (clean U g.days)) (g.totalDays U) := by
  have h := stands_add (stands_add (stands_mul (clean_stands U g.years) (k := 365) (by omega))
    (stands_mul (clean_stands U g.months) (k := 30) (by omega))) (clean_stands U g.days)
  have e : odec U g.years * 365 + odec U g.months * 30 + odec U g.days = g.totalDays U := by
    unfold Parts.totalDays; omega
  rwa [e] at h

theorem parser_match {s : Str} {g : Parts} (h : durationMatch U s = some g) : durationParser U s =
    timedelta ((((clean U g.years).mul 365).add ((clean U g.months).mul 30)).add (clean U g.days))
      (clean U g.hours) (clean U g.minutes) (cleanSeconds U g.seconds) := by
  unfold durationParser; rw [h]

theorem decimal_frac (ds : Str) (fs : Str) :
    decimal U ds (some fs) = (dec U ds : Rat) + (dec U fs : Rat) / (10 ^ fs.length : Nat) := by
  rw [dec_eq, dec_eq]; rfl

theorem decimal_nonneg (ds : Str) (fr : Option Str) : 0 ≤ decimal U ds fr := by
  unfold decimal
  split <;> positivity

/-- What the parser computes from the groups. -/
theorem parser_outcome {s : Str} {g : Parts} (h : durationMatch U s = some g) : ∃ R, durationParser U s = outcome R := by
  rw [parser_match U h]
  rcases hs : g.seconds with _ | ⟨ds, _ | fs⟩
  · exact ⟨_, timedelta_whole (days_stands U g) (clean_stands U _) (clean_stands U _) stands_zero⟩
  · exact ⟨_, timedelta_whole (days_stands U g) (clean_stands U _) (clean_stands U _) (round_stands _)⟩
  · obtain ⟨R, h1, -⟩ := timedelta_frac (days_stands U g) (clean_stands U g.hours) (clean_stands U g.minutes)
      (decimal_nonneg U ds (some fs))
    exact ⟨R, h1⟩

/-- C53: `duration_parser` raises ValueError exactly on the strings that are not of the documented form
(any decimal digits of Unicode, and one newline at the end is accepted). -/
theorem C53_accepts_partial (s : Str) : durationParser U s = .error .ValueError ↔
    ¬ ∃ g t tail, g.Ok U t ∧ (tail = [] ∨ tail = ['\n']) ∧ s = render g t ++ tail := by
  have hend : ∀ tail : Str, (tail = [] ∨ tail = ['\n']) ↔ atEnd tail = true := by
    intro tail; simp [atEnd]
  cases hm : durationMatch U s with
  | none =>
    have h1 : durationParser U s = .error .ValueError := by unfold durationParser; rw [hm]
    refine iff_of_true h1 ?_
    rintro ⟨g, t, tail, hg, ht, rfl⟩
    rw [match_complete hg ((hend tail).1 ht)] at hm
    cases hm
  | some g =>
    obtain ⟨t, tail, h1, h2, h3⟩ := match_sound hm
    refine iff_of_false ?_ (fun h => h ⟨g, t, tail, h3, (hend tail).2 h2, h1⟩)
    obtain ⟨R, h4⟩ := parser_outcome U hm
    rw [h4]
    unfold outcome
    split
    · intro h; cases h
    · intro h; cases h

/-- C53: the components are added up exactly, if the seconds have no fraction.  Durations of 10**9 days
and more raise OverflowError. -/
theorem C53_sum {g : Parts} {t : Bool} (hg : g.Ok U t) (hf : ∀ ds fs, g.seconds ≠ some (ds, some fs)) {tail : Str}
    (ht : tail = [] ∨ tail = ['\n']) : durationParser U (render g t ++ tail) =
      if g.us U < 86400000000 * 1000000000 then .ok (g.us U : Int) else .error .OverflowError := by
  have hm := match_complete hg (tail := tail) (by simpa [atEnd] using ht)
  have hout : ∀ n : Nat, outcome (n : Int) =
      if n < 86400000000 * 1000000000 then .ok (n : Int) else .error .OverflowError := by
    intro n
    unfold outcome limit
    by_cases h : n < 86400000000 * 1000000000
    · rw [if_pos (by omega), if_pos h]
    · rw [if_neg (by omega), if_neg h]
  rw [parser_match U hm, ← hout]
  have hs : Stands (cleanSeconds U g.seconds) (g.secs U) := by
    unfold Parts.secs
    rcases hs : g.seconds with _ | ⟨ds, _ | fs⟩
    · exact stands_zero
    · show Stands (.flt (F64.round (number U ds))) (dec U ds)
      rw [dec_eq]; exact round_stands _
    · exact absurd hs (hf ds fs)
  rw [timedelta_whole (days_stands U g) (clean_stands U _) (clean_stands U _) hs]
  congr 2
  unfold Parts.us
  omega

/-- C53: the components are added up exactly also with up to six digits after the comma, if the seconds
are below 2**32. -/
theorem C53_sum_micros {g : Parts} {t : Bool} (hg : g.Ok U t) {ds fs : Str} (hs : g.seconds = some (ds, some fs))
    (h6 : fs.length ≤ 6) (h32 : dec U ds < 2 ^ 32) {tail : Str} (ht : tail = [] ∨ tail = ['\n']) :
    durationParser U (render g t ++ tail) =
      if g.us U + dec U fs * 10 ^ (6 - fs.length) < 86400000000 * 1000000000 then
        .ok ((g.us U + dec U fs * 10 ^ (6 - fs.length) : Nat) : Int) else .error .OverflowError := by
  have hm := match_complete hg (tail := tail) (by simpa [atEnd] using ht)
  rw [parser_match U hm, hs]
  have hlt : dec U fs < 10 ^ fs.length := by rw [dec_eq]; exact number_lt U fs
  have hpow : (10 : Rat) ^ fs.length * 10 ^ (6 - fs.length) = 1000000 := by
    rw [← pow_add, show fs.length + (6 - fs.length) = 6 by omega]; norm_num
  have hp : (0 : Rat) < 10 ^ fs.length := by positivity
  have hfr : (dec U fs : Rat) / (10 ^ fs.length : Nat) < 1 := by
    rw [div_lt_one (by push_cast; exact hp)]
    exact_mod_cast hlt
  show timedelta _ _ _ (.flt (F64.round (decimal U ds (some fs)))) = _
  rw [timedelta_exact (days_stands U g) (clean_stands U _) (clean_stands U _) (decimal_nonneg U ds (some fs))
    (E := 1000000 * dec U ds + dec U fs * 10 ^ (6 - fs.length))]
  · have e : 1000000 * dec U ds + dec U fs * 10 ^ (6 - fs.length) +
        (odec U g.minutes * 60000000 + (odec U g.hours * 3600000000 + g.totalDays U * 86400000000)) =
        g.us U + dec U fs * 10 ^ (6 - fs.length) := by
      unfold Parts.us Parts.secs
      rw [hs]
      simp only
      omega
    rw [e]
    unfold outcome limit
    by_cases h : g.us U + dec U fs * 10 ^ (6 - fs.length) < 86400000000 * 1000000000
    · rw [if_pos (by omega), if_pos h]
    · rw [if_neg (by omega), if_neg h]
  · rw [decimal_frac]
    have : (dec U ds : Rat) + 1 ≤ 4294967296 := by
      have : dec U ds + 1 ≤ 4294967296 := h32
      exact_mod_cast this
    linarith
  · rw [decimal_frac]
    push_cast
    rw [mul_add, ← hpow]
    field_simp

/-- C53 (missing: exactness, which floats do not give): in general the result differs from the exact sum
by at most half a microsecond and the precision of a float of that many seconds. -/
theorem C53_sum_partial {g : Parts} {t : Bool} (hg : g.Ok U t) {tail : Str} (ht : tail = [] ∨ tail = ['\n']) :
    (∃ R : Int, durationParser U (render g t ++ tail) = .ok R ∧
      |(R : Rat) - (g.us U + 1000000 * g.frac U)| ≤
        1 / 2 + 1000000 * ((g.secs U : Rat) + 1) / 2 ^ 53 + 1 / 1000000) ∨
    (durationParser U (render g t ++ tail) = .error .OverflowError ∧
      (86400000000 * 1000000000 : Rat) ≤ (g.us U + 1000000 * g.frac U) +
        (1 / 2 + 1000000 * ((g.secs U : Rat) + 1) / 2 ^ 53 + 1 / 1000000)) := by
  have hs0 : (0 : Rat) ≤ g.secs U := by positivity
  have hsl : (0 : Rat) ≤ 1 / 2 + 1000000 * ((g.secs U : Rat) + 1) / 2 ^ 53 + 1 / 1000000 := by positivity
  rcases hs : g.seconds with _ | ⟨ds, _ | fs⟩
  · have h0 : g.frac U = 0 := by unfold Parts.frac; rw [hs]
    have h1 := C53_sum U hg (by rw [hs]; intro _ _ h; cases h) ht
    rw [h0, mul_zero, add_zero]
    split at h1
    · exact .inl ⟨_, h1, by simpa using hsl⟩
    · rename_i h
      refine .inr ⟨h1, ?_⟩
      have : (86400000000 * 1000000000 : Rat) ≤ g.us U := by exact_mod_cast (not_lt.1 h)
      linarith
  · have h0 : g.frac U = 0 := by unfold Parts.frac; rw [hs]
    have h1 := C53_sum U hg (by rw [hs]; intro _ _ h; cases h) ht
    rw [h0, mul_zero, add_zero]
    split at h1
    · exact .inl ⟨_, h1, by simpa using hsl⟩
    · rename_i h
      refine .inr ⟨h1, ?_⟩
      have : (86400000000 * 1000000000 : Rat) ≤ g.us U := by exact_mod_cast (not_lt.1 h)
      linarith
  · have hm := match_complete hg (tail := tail) (by simpa [atEnd] using ht)
    rw [parser_match U hm, hs]
    obtain ⟨R, h1, h2⟩ := timedelta_frac (days_stands U g) (clean_stands U g.hours) (clean_stands U g.minutes)
      (decimal_nonneg U ds (some fs))
    have hlt : dec U fs < 10 ^ fs.length := by rw [dec_eq]; exact number_lt U fs
    have hfr : g.frac U < 1 := by
      unfold Parts.frac
      rw [hs]
      simp only
      rw [div_lt_one (by positivity)]
      exact_mod_cast hlt
    have hfr0 : 0 ≤ g.frac U := by
      unfold Parts.frac
      rw [hs]
      positivity
    have hq : decimal U ds (some fs) = (g.secs U : Rat) + g.frac U := by
      rw [decimal_frac]; unfold Parts.frac Parts.secs; rw [hs]
    have hus : (g.us U : Rat) = 1000000 * (g.secs U : Rat) +
        ((odec U g.minutes * 60000000 + (odec U g.hours * 3600000000 + g.totalDays U * 86400000000) : Nat) : Rat) := by
      have : g.us U = 1000000 * g.secs U +
        (odec U g.minutes * 60000000 + (odec U g.hours * 3600000000 + g.totalDays U * 86400000000)) := by
        unfold Parts.us; omega
      rw [this]; push_cast; ring
    rw [show cleanSeconds U (some (ds, some fs)) = .flt (F64.round (decimal U ds (some fs))) from rfl, h1]
    have hp53 : F64.pow2 (-53) = 1 / 2 ^ 53 := by decide +kernel
    rw [hq] at h2
    rcases h2 with ⟨-, h2⟩ | ⟨h2, h3⟩
    · have hb : |(R : Rat) - (g.us U + 1000000 * g.frac U)| ≤
          1 / 2 + 1000000 * ((g.secs U : Rat) + 1) / 2 ^ 53 + 1 / 1000000 := by
        rw [hp53] at h2
        rw [hus]
        refine le_trans (le_of_eq ?_) (h2.trans ?_)
        · congr 1; ring
        · have : 1000000 * ((g.secs U : Rat) + g.frac U) * (1 / 2 ^ 53) ≤ 1000000 * ((g.secs U : Rat) + 1) / 2 ^ 53 := by
            rw [mul_one_div, div_le_div_iff_of_pos_right (by positivity)]
            linarith
          linarith
      unfold outcome
      by_cases hR : R < limit
      · rw [if_pos hR]; exact .inl ⟨R, rfl, hb⟩
      · rw [if_neg hR]
        refine .inr ⟨rfl, ?_⟩
        have : ((86400000000 * 1000000000 : Int) : Rat) ≤ (R : Rat) := by
          have : (86400000000 * 1000000000 : Int) ≤ R := by unfold limit at hR; omega
          exact_mod_cast this
        rw [abs_le] at hb
        push_cast at this
        linarith [hb.2]
    · rw [outcome_large h3]
      refine .inr ⟨rfl, ?_⟩
      rw [F64.pow2_53] at h2
      have : (1000000 * (g.secs U : Rat)) ≤ g.us U := by rw [hus]; linarith [show (0 : Rat) ≤ ((odec U g.minutes * 60000000 + (odec U g.hours * 3600000000 + g.totalDays U * 86400000000) : Nat) : Rat) by positivity]
      linarith

/-! ## Formatting -/

/-- The parts of a formatted duration that is not negative. -/
def formatted (d : Nat) : Parts :=
  let s := d / 1000000 % 86400
  { years := none, months := none,
    days := if d / 86400000000 = 0 then none else some (natStr (d / 86400000000)),
    hours := some (pad 2 (s / 3600)), minutes := some (pad 2 (s % 3600 / 60)),
    seconds := some (pad 2 (s % 60), if d % 1000000 = 0 then none else some ((pad 6 (d % 1000000)).take 4)) }

theorem formatted_eq (d : Nat) : durationToString (d : Int) = render (formatted d) true := by
  have hd : Delta.days (d : Int) = ((d / 86400000000 : Nat) : Int) := by unfold Delta.days; omega
  have hs : Delta.secs (d : Int) = d / 1000000 % 86400 := by unfold Delta.secs; omega
  have hm : Delta.micros (d : Int) = d % 1000000 := by unfold Delta.micros; omega
  unfold durationToString
  simp only
  rw [hd, hs, hm]
  unfold getTime
  generalize hS : d / 1000000 % 86400 = s
  have hs2 : s < 86400 := by omega
  rw [fdiv_eq (by omega) (by omega) (by omega), fdiv_eq (by omega) (by omega) (by omega)]
  unfold formatted render timePart
  rw [hS]
  simp only
  rw [show s % 3600 % 60 = s % 60 by omega]
  by_cases h1 : d / 86400000000 = 0
  · rw [h1]
    by_cases h2 : d % 1000000 = 0
    · rw [h2]
      simp [optUnit, optSeconds]
    · have h3 : 0 < d % 1000000 := by omega
      simp [optUnit, optSeconds, h2, h3]
  · have h0 : ((d / 86400000000 : Nat) : Int) ≠ 0 := by omega
    rw [if_neg h1, if_pos h0]
    by_cases h2 : d % 1000000 = 0
    · rw [h2]
      simp [optUnit, optSeconds, intStr]
    · have h3 : 0 < d % 1000000 := by omega
      rw [if_neg h2, if_pos h3]
      simp [optUnit, optSeconds]
      rfl

theorem take_digs {w n k : Nat} (hk : 0 < k) : Digs U ((pad w n).take k) := by
  obtain ⟨h1, h2⟩ := pad_digs U w n
  refine ⟨?_, fun c hc => h2 c (List.mem_of_mem_take hc)⟩
  intro h
  rw [List.take_eq_nil_iff] at h
  rcases h with h | h
  · omega
  · exact h1 h

theorem formatted_ok (d : Nat) : (formatted d).Ok U true := by
  refine ⟨fun ds h => (by cases h), fun ds h => (by cases h), fun ds h => ?_, fun ds h => ?_, fun ds h => ?_,
    fun ds fr h => ?_, fun h => (by cases h)⟩
  · simp only [formatted] at h
    split at h
    · cases h
    · cases h; exact natStr_digs U _
  · cases h; exact pad_digs U _ _
  · cases h; exact pad_digs U _ _
  · cases h
    refine ⟨pad_digs U _ _, fun fs h => ?_⟩
    split at h
    · cases h
    · cases h; exact take_digs U (by omega)

theorem formatted_us (d : Nat) : (formatted d).us U = d / 1000000 * 1000000 := by
  have hday : odec U (formatted d).days = d / 86400000000 := by
    unfold formatted
    simp only
    split
    · rename_i h; rw [h]; rfl
    · show dec U _ = _
      rw [dec_eq, number_natStr]
  have hh : odec U (formatted d).hours = d / 1000000 % 86400 / 3600 := by
    show dec U _ = _
    rw [dec_eq, number_pad]
  have hn : odec U (formatted d).minutes = d / 1000000 % 86400 % 3600 / 60 := by
    show dec U _ = _
    rw [dec_eq, number_pad]
  have hs : (formatted d).secs U = d / 1000000 % 86400 % 60 := by
    show dec U _ = _
    rw [dec_eq, number_pad]
  have ht : (formatted d).totalDays U = d / 86400000000 := by
    unfold Parts.totalDays
    rw [hday]
    simp [formatted, odec]
  unfold Parts.us
  rw [hh, hn, hs, ht]
  omega

/-- C51 (missing: negative durations): parsing the formatted form of a duration gives it back, rounded
down to the resolution of the format, 100 microseconds. -/
theorem C51_roundtrip_partial (d : Nat) (hd : (d : Int) < limit) :
    durationParser U (durationToString (d : Int)) = .ok ((d - d % 100 : Nat) : Int) := by
  rw [formatted_eq]
  have hok := formatted_ok U d
  have hus := formatted_us U d
  rw [← List.append_nil (render (formatted d) true)]
  unfold limit at hd
  by_cases h : d % 1000000 = 0
  · rw [C53_sum U hok (tail := []) _ (.inl rfl), hus]
    · rw [if_pos (by omega)]
      congr 2
      omega
    · intro ds fs hs
      simp only [formatted, h, if_true] at hs
      cases hs
  · obtain ⟨n1, n2⟩ := number_take U (w := 6) (k := 4) (n := d % 1000000) (by omega) (by omega) (by omega)
    rw [C53_sum_micros U hok (ds := pad 2 (d / 1000000 % 86400 % 60)) (fs := (pad 6 (d % 1000000)).take 4)
      (tail := []) _ (by rw [n2]; omega) _ (.inl rfl), hus, dec_eq, n1, n2]
    · rw [if_pos (by omega)]
      congr 2
      omega
    · simp [formatted, h]
    · rw [dec_eq, number_pad]; omega

/-- C51 does not hold for negative durations: what is written cannot be parsed. -/
theorem C51_negative_refuted (d : Int) (hd : d < 0) : durationParser U (durationToString d) = .error .ValueError := by
  rw [C53_accepts_partial]
  rintro ⟨g, t, tail, ⟨gy, gm, gd, -⟩, ht, h⟩
  have hdays : (Delta.days d) < 0 := by unfold Delta.days; omega
  have hshape : ∃ r, durationToString d = 'P' :: '-' :: r := by
    unfold durationToString
    simp only
    rw [if_pos (by omega)]
    obtain ⟨k, hk⟩ : ∃ k, (Delta.days d) = Int.negSucc k := by
      cases hx : (Delta.days d) with
      | ofNat n => rw [hx] at hdays; exact absurd hdays (by simp)
      | negSucc k => exact ⟨k, rfl⟩
    rw [hk]
    exact ⟨_, rfl⟩
  obtain ⟨r, hr⟩ := hshape
  rw [hr] at h
  have hminus : U.val '-' = none := ascii_none U (by decide) (by decide)
  have key : ∀ (o : Option Str) (x : Char) (R : Str), (∀ ds, o = some ds → Digs U ds) →
      '-' :: r = optUnit o x ++ R → '-' :: r = R := by
    intro o x R ho he
    cases o with
    | none => exact he
    | some ds =>
      obtain ⟨h1, h2⟩ := ho ds rfl
      cases ds with
      | nil => exact absurd rfl h1
      | cons c cs =>
        simp only [optUnit, List.cons_append, List.cons.injEq] at he
        have := h2 c (by simp)
        rw [← he.1, hminus] at this
        cases this
  have h0 : '-' :: r = optUnit g.years 'Y' ++ (optUnit g.months 'M' ++ (optUnit g.days 'D' ++ (timePart g t ++ tail))) := by
    simpa [render, List.append_assoc] using h
  have h1 := key _ _ _ gd (key _ _ _ gm (key _ _ _ gy h0))
  cases t with
  | true => simp [timePart] at h1
  | false =>
    simp only [timePart] at h1
    rcases ht with rfl | rfl
    · cases h1
    · simp at h1

/-! ## Where C53 does not hold -/

/-- The ASCII digits. -/
def Ascii : Nd := ⟨digitVal, fun _ _ => rfl, fun _ _ h => digitVal_lt h⟩

/-- ASCII and Arabic-Indic digits. -/
def Arabic : Nd where
  val c := if 0x660 ≤ c.toNat ∧ c.toNat ≤ 0x669 then some (c.toNat - 0x660) else digitVal c
  ascii c h := by rw [if_neg (fun h' => absurd h'.1 (by omega))]
  small c d h := by
    split at h
    · have := Option.some.inj h; omega
    · exact digitVal_lt h

/-- C53 does not hold: a newline at the end is accepted. -/
theorem C53_newline_refuted : durationParser Ascii "P1D\n".toList = .ok 86400000000 ∧
    ∀ g t, g.Ok Ascii t → "P1D\n".toList ≠ render g t := by
  refine ⟨by decide +kernel, fun g t hg h => ?_⟩
  have h1 := match_complete hg (tail := ['\n']) (by decide)
  rw [← h] at h1
  have h2 : ∀ g : Parts, durationMatch Ascii ("P1D\n".toList ++ ['\n']) = none := fun _ => by decide +kernel
  exact absurd (h1.symm.trans (h2 g)) (by simp)

/-- C53 does not hold: other digits than those of ASCII are accepted. -/
theorem C53_digits_refuted : durationParser Arabic "P١D".toList = .ok 86400000000 := by decide +kernel

/-- C53 does not hold: a duration of the documented form may be too long. -/
theorem C53_overflow_refuted : durationParser Ascii "P999999999DT24H".toList = .error .OverflowError ∧
    durationParser Ascii "P999999999DT23H".toList ≠ .error .OverflowError := by decide +kernel

/-- C53 does not hold: fractions of many seconds are not exact. -/
theorem C53_precision_refuted :
    durationParser Ascii "PT9999999999,999999S".toList = .ok 9999999999999998 ∧
    durationParser Ascii "PT99999999999,123456S".toList ≠ .ok 99999999999123456 := by decide +kernel

/-! ## Examples -/

example : durationParser Ascii "P1Y2M3DT4H5M6,7S".toList =
    .ok ((428 * 86400 + 4 * 3600 + 5 * 60 + 6) * 1000000 + 700000) := by decide +kernel
example : durationParser Ascii "P".toList = .ok 0 ∧ durationParser Ascii "PT".toList = .ok 0 := by decide +kernel
example : durationParser Ascii "P1M1Y".toList = .error .ValueError ∧
    durationParser Ascii "PT1,S".toList = .error .ValueError ∧ durationParser Ascii "P1H".toList = .error .ValueError := by
  decide +kernel
example : durationToString 625501789123 = "P7DT05H45M01,7891S".toList := by decide +kernel
example : durationToString (-1) = "P-1DT23H59M59,9999S".toList := by decide +kernel

/-- A string that meets the hypotheses of the theorems. -/
def sample : Parts := ⟨some ['1'], none, some ['0', '2'], none, some ['7'], some (['5'], some ['2', '5'])⟩
example : sample.Ok Ascii true ∧ render sample true = "P1Y02DT7M5,25S".toList ∧ sample.us Ascii = 31709225000000 ∧
    sample.totalDays Ascii = 367 := by
  refine ⟨?_, by decide +kernel, by decide +kernel, by decide +kernel⟩
  have one : ∀ ds : Str, ds ≠ [] → (ds.all isDigit) = true → Digs Ascii ds := fun ds h h2 => ⟨h, List.all_eq_true.1 h2⟩
  refine ⟨fun _ h => ?_, fun _ h => ?_, fun _ h => ?_, fun _ h => ?_, fun _ h => ?_, fun _ _ h => ?_, fun h => by cases h⟩
  · cases h; exact one _ (by decide) (by decide)
  · cases h
  · cases h; exact one _ (by decide) (by decide)
  · cases h
  · cases h; exact one _ (by decide) (by decide)
  · cases h; exact ⟨one _ (by decide) (by decide), fun _ h => by cases h; exact one _ (by decide) (by decide)⟩

end Verif.Time
