import Verif.Props.Duration
/-! # C52: dates and date-times -/
namespace Verif.Time
open Verif Re
set_option linter.unusedSimpArgs false

variable (U : Nd)

/-! ## The patterns on formatted numbers -/

theorem pad2 {n : Nat} (h : n < 100) : pad 2 n = [digitChar (n / 10), digitChar (n % 10)] := by
  unfold pad
  rw [natStr_eq]
  split
  · rename_i h1
    rw [show n / 10 = 0 by omega, show n % 10 = n by omega]
    rfl
  · rw [natStr_eq, if_pos (by omega)]
    rfl

theorem pad4 {n : Nat} (h : n < 10000) : pad 4 n = pad 2 (n / 100) ++ pad 2 (n % 100) := by
  rw [pad2 (by omega), pad2 (by omega)]
  unfold pad
  by_cases h1 : n < 10
  · rw [natStr_eq, if_pos h1]
    rw [show n / 100 / 10 = 0 by omega, show n / 100 % 10 = 0 by omega, show n % 100 / 10 = 0 by omega,
      show n % 100 % 10 = n by omega]
    rfl
  · rw [natStr_eq, if_neg h1]
    by_cases h2 : n / 10 < 10
    · rw [natStr_eq, if_pos h2]
      rw [show n / 100 / 10 = 0 by omega, show n / 100 % 10 = 0 by omega, show n % 100 / 10 = n / 10 by omega,
        show n % 100 % 10 = n % 10 by omega]
      rfl
    · rw [natStr_eq, if_neg h2]
      by_cases h3 : n / 10 / 10 < 10
      · rw [natStr_eq, if_pos h3]
        rw [show n / 100 / 10 = 0 by omega, show n / 100 % 10 = n / 10 / 10 by omega, show n % 100 / 10 = n / 10 % 10 by omega,
          show n % 100 % 10 = n % 10 by omega]
        rfl
      · rw [natStr_eq, if_neg h3, natStr_eq, if_pos (by omega)]
        rw [show n / 100 / 10 = n / 10 / 10 / 10 by omega, show n / 100 % 10 = n / 10 / 10 % 10 by omega,
          show n % 100 / 10 = n / 10 % 10 by omega, show n % 100 % 10 = n % 10 by omega]
        rfl

theorem digit_at {k : Nat} (hk : k < 10) (r : Str) : digit U (digitChar k :: r) = [(digitChar k, r)] := by
  show (if (U.val (digitChar k)).isSome then _ else _) = _
  rw [val_digitChar U hk]; rfl

theorem rng_at {k : Nat} (hk : k < 10) {i j : Nat} (hi : i < 10) (hj : j < 10) (r : Str) :
    rng (digitChar i) (digitChar j) (digitChar k :: r) = if i ≤ k ∧ k ≤ j then [(digitChar k, r)] else [] := by
  show (if between (digitChar i) (digitChar j) (digitChar k) then _ else _) = _
  have : between (digitChar i) (digitChar j) (digitChar k) = decide (i ≤ k ∧ k ≤ j) := by
    unfold between
    rw [digitChar_toNat hi, digitChar_toNat hj, digitChar_toNat hk, Bool.eq_iff_iff]
    simp
  rw [this]
  by_cases h : i ≤ k ∧ k ≤ j
  · rw [if_pos h, if_pos (decide_eq_true h)]
  · rw [if_neg h, if_neg (by simpa using h)]

theorem lit_at {k i : Nat} (hk : k < 10) (hi : i < 10) (r : Str) :
    lit (digitChar i) (digitChar k :: r) = if k = i then [(digitChar k, r)] else [] := by
  show (if (digitChar k == digitChar i) then _ else _) = _
  by_cases h : k = i
  · subst h; simp
  · have hne : digitChar k ≠ digitChar i := by
      intro he
      have := congrArg Char.toNat he
      rw [digitChar_toNat hk, digitChar_toNat hi] at this
      omega
    rw [if_neg h, if_neg (by simpa using hne)]

theorem two_at {m n : Re Char} {a b : Char} {r : Str} (h1 : m (a :: b :: r) = [(a, b :: r)]) (h2 : n (b :: r) = [(b, r)]) :
    (two m n (a :: b :: r)).head? = some ([a, b], r) := by
  refine seq_head (by rw [h1]; rfl) (seq_head (by rw [h2]; rfl) rfl)

theorem two_skip {m n : Re Char} {s : Str} (h1 : m s = []) : two m n s = [] := seq_skip h1

theorem two_skip2 {m n : Re Char} {a : Char} {r s : Str} (h1 : m s = [(a, r)]) (h2 : n r = []) : two m n s = [] := by
  unfold two seq
  rw [h1]
  simp [h2]

theorem reY_at {y : Nat} (hy : y < 10000) (r : Str) : (reY U (pad 4 y ++ r)).head? = some (pad 4 y, r) := by
  rw [pad4 hy, pad2 (by omega), pad2 (by omega)]
  refine seq_head (two_at (digit_at U (by omega) _) (digit_at U (by omega) _)) ?_
  exact seq_head (two_at (digit_at U (by omega) _) (digit_at U (by omega) _)) rfl

theorem rem_at {m : Nat} (h1 : 1 ≤ m) (h2 : m ≤ 12) (r : Str) : (rem (pad 2 m ++ r)).head? = some (pad 2 m, r) := by
  rw [pad2 (by omega)]
  show (alt (two (lit (digitChar 1)) (rng (digitChar 0) (digitChar 2))) (alt (two (lit (digitChar 0)) (rng (digitChar 1) (digitChar 9)))
    (one (rng (digitChar 1) (digitChar 9)))) (digitChar (m / 10) :: digitChar (m % 10) :: r)).head? = _
  by_cases h : 10 ≤ m
  · refine alt_head (two_at ?_ ?_)
    · rw [lit_at (by omega) (by omega), if_pos (by omega)]
    · rw [rng_at (by omega) (by omega) (by omega), if_pos (by omega)]
  · rw [alt_skip (two_skip (by rw [lit_at (by omega) (by omega), if_neg (by omega)]))]
    refine alt_head (two_at ?_ ?_)
    · rw [lit_at (by omega) (by omega), if_pos (by omega)]
    · rw [rng_at (by omega) (by omega) (by omega), if_pos (by omega)]

theorem red_at {d : Nat} (h1 : 1 ≤ d) (h2 : d ≤ 31) (r : Str) : (red U (pad 2 d ++ r)).head? = some (pad 2 d, r) := by
  rw [pad2 (by omega)]
  show (alt (two (lit (digitChar 3)) (rng (digitChar 0) (digitChar 1))) (alt (two (rng (digitChar 1) (digitChar 2)) (digit U))
    (alt (two (lit (digitChar 0)) (rng (digitChar 1) (digitChar 9))) (alt (one (rng (digitChar 1) (digitChar 9)))
      (two (lit ' ') (rng (digitChar 1) (digitChar 9)))))) (digitChar (d / 10) :: digitChar (d % 10) :: r)).head? = _
  by_cases h : 30 ≤ d
  · refine alt_head (two_at ?_ ?_)
    · rw [lit_at (by omega) (by omega), if_pos (by omega)]
    · rw [rng_at (by omega) (by omega) (by omega), if_pos (by omega)]
  · rw [alt_skip (two_skip (by rw [lit_at (by omega) (by omega), if_neg (by omega)]))]
    by_cases h3 : 10 ≤ d
    · refine alt_head (two_at ?_ (digit_at U (by omega) _))
      rw [rng_at (by omega) (by omega) (by omega), if_pos (by omega)]
    · rw [alt_skip (two_skip (by rw [rng_at (by omega) (by omega) (by omega), if_neg (by omega)]))]
      refine alt_head (two_at ?_ ?_)
      · rw [lit_at (by omega) (by omega), if_pos (by omega)]
      · rw [rng_at (by omega) (by omega) (by omega), if_pos (by omega)]

theorem reH_at {h : Nat} (h1 : h < 24) (r : Str) : (reH U (pad 2 h ++ r)).head? = some (pad 2 h, r) := by
  rw [pad2 (by omega)]
  show (alt (two (lit (digitChar 2)) (rng (digitChar 0) (digitChar 3))) (alt (two (rng (digitChar 0) (digitChar 1)) (digit U))
    (one (digit U))) (digitChar (h / 10) :: digitChar (h % 10) :: r)).head? = _
  by_cases h2 : 20 ≤ h
  · refine alt_head (two_at ?_ ?_)
    · rw [lit_at (by omega) (by omega), if_pos (by omega)]
    · rw [rng_at (by omega) (by omega) (by omega), if_pos (by omega)]
  · rw [alt_skip (two_skip (by rw [lit_at (by omega) (by omega), if_neg (by omega)]))]
    refine alt_head (two_at ?_ (digit_at U (by omega) _))
    rw [rng_at (by omega) (by omega) (by omega), if_pos (by omega)]

theorem reM_at {m : Nat} (h1 : m < 60) (r : Str) : (reM U (pad 2 m ++ r)).head? = some (pad 2 m, r) := by
  rw [pad2 (by omega)]
  show (alt (two (rng (digitChar 0) (digitChar 5)) (digit U)) (one (digit U)) (digitChar (m / 10) :: digitChar (m % 10) :: r)).head? = _
  refine alt_head (two_at ?_ (digit_at U (by omega) _))
  rw [rng_at (by omega) (by omega) (by omega), if_pos (by omega)]

theorem reS_at {s : Nat} (h1 : s < 60) (r : Str) : (reS U (pad 2 s ++ r)).head? = some (pad 2 s, r) := by
  rw [pad2 (by omega)]
  show (alt (two (lit (digitChar 6)) (rng (digitChar 0) (digitChar 1))) (alt (two (rng (digitChar 0) (digitChar 5)) (digit U)) (one (digit U)))
    (digitChar (s / 10) :: digitChar (s % 10) :: r)).head? = _
  rw [alt_skip (two_skip (by rw [lit_at (by omega) (by omega), if_neg (by omega)]))]
  refine alt_head (two_at ?_ (digit_at U (by omega) _))
  rw [rng_at (by omega) (by omega) (by omega), if_pos (by omega)]

/-! ## Round trip -/

theorem monthDays_le (y m : Nat) : monthDays y m ≤ 31 := by
  unfold monthDays; split
  · split <;> omega
  · split <;> omega

theorem date_ok {d : Date} (h : d.ok = true) :
    (1 ≤ d.year ∧ d.year ≤ 9999) ∧ (1 ≤ d.month ∧ d.month ≤ 12) ∧ 1 ≤ d.day ∧ d.day ≤ 31 := by
  unfold Date.ok at h
  simp only [Bool.and_eq_true, decide_eq_true_eq] at h
  have := monthDays_le d.year d.month
  omega

theorem date_at {d : Date} (h : d.ok = true) (r : Str) :
    (Re.date U (pad 4 d.year ++ '-' :: (pad 2 d.month ++ '-' :: (pad 2 d.day ++ r)))).head? = some (d, r) := by
  obtain ⟨hy, hm, hd⟩ := date_ok h
  unfold Re.date
  refine seq_head (reY_at U (by omega) _) ?_
  refine seq_head (lit_head '-' _) ?_
  refine seq_head (rem_at hm.1 hm.2 _) ?_
  refine seq_head (lit_head '-' _) ?_
  refine seq_head (red_at U hd.1 hd.2 _) ?_
  show some (Date.mk (number U (pad 4 d.year)) (number U (pad 2 d.month)) (number U (pad 2 d.day)), r) = _
  rw [number_pad, number_pad, number_pad]

theorem pad4_head {y : Nat} (hy : y < 10000) (r : Str) : ∃ k rest, k < 10 ∧ pad 4 y ++ r = digitChar k :: rest := by
  rw [pad4 hy, pad2 (by omega)]
  exact ⟨_, _, by omega, rfl⟩

theorem digitChar_ne {k : Nat} (hk : k < 10) {c : Char} (hc : 58 ≤ c.toNat ∨ c.toNat < 48) : digitChar k ≠ c := by
  intro h
  have := congrArg Char.toNat h
  rw [digitChar_toNat hk] at this
  omega

theorem T_not_pad (w n : Nat) : 'T' ∉ pad w n := by
  intro h
  have := (pad_digs Ascii w n).2 'T' h
  revert this
  decide

/-- C52: parsing the formatted form of a date gives it back, if years are formatted with four digits. -/
theorem C52_date (year : Nat → Str) (d : Date) (hd : d.ok = true) (hy : year d.year = pad 4 d.year) :
    parse U (toString year (.date d)) = .ok (.date d) := by
  obtain ⟨hy1, hm, hd1⟩ := date_ok hd
  have hat := date_at U hd []
  rw [List.append_nil] at hat
  show parse U (year d.year ++ '-' :: (pad 2 d.month ++ '-' :: pad 2 d.day)) = _
  rw [hy]
  obtain ⟨k, rest, hk, he⟩ := pad4_head (y := d.year) (by omega) ('-' :: (pad 2 d.month ++ '-' :: pad 2 d.day))
  have h1 : ¬ (pad 4 d.year ++ '-' :: (pad 2 d.month ++ '-' :: pad 2 d.day)).head? = some 'P' := by
    rw [he]
    intro h
    exact digitChar_ne hk (c := 'P') (.inl (by decide)) (Option.some.inj h)
  have h2 : 'T' ∉ pad 4 d.year ++ '-' :: (pad 2 d.month ++ '-' :: pad 2 d.day) := by
    simp only [List.mem_append, List.mem_cons, not_or]
    exact ⟨T_not_pad _ _, by decide, T_not_pad _ _, by decide, T_not_pad _ _⟩
  unfold parse
  rw [if_neg h1, if_neg h2]
  unfold strptime
  rw [hat]
  simp [hd, Except.map]

/-- C52: parsing the formatted form of a date-time gives it back to the second. -/
theorem C52_datetime (year : Nat → Str) (d : Date) (t : Clock) (hd : d.ok = true) (ht : t.ok = true)
    (hy : year d.year = pad 4 d.year) :
    parse U (toString year (.datetime d t)) = .ok (.datetime d { t with micro := 0 }) := by
  obtain ⟨hy1, hm, hd1⟩ := date_ok hd
  have htt : t.hour < 24 ∧ t.minute < 60 ∧ t.second < 60 := by
    unfold Clock.ok at ht
    simp only [Bool.and_eq_true, decide_eq_true_eq] at ht
    exact ⟨ht.1.1.1, ht.1.1.2, ht.1.2⟩
  show parse U (year d.year ++ '-' :: (pad 2 d.month ++ '-' :: (pad 2 d.day ++ 'T' ::
      (pad 2 t.hour ++ ':' :: (pad 2 t.minute ++ ':' :: pad 2 t.second))))) = _
  rw [hy]
  have hat : (Re.datetime U (pad 4 d.year ++ '-' :: (pad 2 d.month ++ '-' :: (pad 2 d.day ++ 'T' ::
      (pad 2 t.hour ++ ':' :: (pad 2 t.minute ++ ':' :: pad 2 t.second)))))).head? = some ((d, { t with micro := 0 }), []) := by
    unfold Re.datetime
    refine seq_head (date_at U hd _) ?_
    refine seq_head (a := 'T') rfl ?_
    refine seq_head (reH_at U htt.1 _) ?_
    refine seq_head (lit_head ':' _) ?_
    refine seq_head (reM_at U htt.2.1 _) ?_
    refine seq_head (lit_head ':' _) ?_
    have hS := reS_at U htt.2.2 []
    rw [List.append_nil] at hS
    refine seq_head hS ?_
    show some ((d, Clock.mk (number U (pad 2 t.hour)) (number U (pad 2 t.minute)) (number U (pad 2 t.second)) 0), []) = _
    rw [number_pad, number_pad, number_pad]
  obtain ⟨k, rest, hk, he⟩ := pad4_head (y := d.year) (by omega) ('-' :: (pad 2 d.month ++ '-' :: (pad 2 d.day ++ 'T' ::
      (pad 2 t.hour ++ ':' :: (pad 2 t.minute ++ ':' :: pad 2 t.second)))))
  have h1 : ¬ (pad 4 d.year ++ '-' :: (pad 2 d.month ++ '-' :: (pad 2 d.day ++ 'T' ::
      (pad 2 t.hour ++ ':' :: (pad 2 t.minute ++ ':' :: pad 2 t.second))))).head? = some 'P' := by
    rw [he]
    intro h
    exact digitChar_ne hk (c := 'P') (.inl (by decide)) (Option.some.inj h)
  have h2 : 'T' ∈ pad 4 d.year ++ '-' :: (pad 2 d.month ++ '-' :: (pad 2 d.day ++ 'T' ::
      (pad 2 t.hour ++ ':' :: (pad 2 t.minute ++ ':' :: pad 2 t.second)))) := by
    simp
  unfold parse
  rw [if_neg h1, if_pos h2]
  unfold strptime
  rw [hat]
  have : Clock.ok { t with micro := 0 } = true := by
    unfold Clock.ok
    simp [htt]
  simp [hd, this, Except.map]

theorem strptime_ok {α : Type} {re : Re α} {ok : α → Bool} {s : Str} {a : α} (h : strptime re ok s = .ok a) :
    ok a = true ∧ (a, []) ∈ re s := by
  unfold strptime at h
  cases hr : (re s).head? with
  | none => rw [hr] at h; cases h
  | some p =>
    obtain ⟨b, rest⟩ := p
    rw [hr] at h
    simp only at h
    split at h
    · rename_i hc
      cases h
      obtain ⟨rfl, h2⟩ := hc
      exact ⟨h2, List.mem_of_head? hr⟩
    · cases h

theorem datetime_micro {s r : Str} {d : Date} {t : Clock} (h : ((d, t), r) ∈ Re.datetime U s) : t.micro = 0 := by
  unfold Re.datetime at h
  obtain ⟨_, _, -, h1⟩ := mem_seq.1 h
  obtain ⟨_, _, -, h2⟩ := mem_seq.1 h1
  obtain ⟨_, _, -, h3⟩ := mem_seq.1 h2
  obtain ⟨_, _, -, h4⟩ := mem_seq.1 h3
  obtain ⟨_, _, -, h5⟩ := mem_seq.1 h4
  obtain ⟨_, _, -, h6⟩ := mem_seq.1 h5
  obtain ⟨_, _, -, h7⟩ := mem_seq.1 h6
  simp only [done, List.mem_singleton, Prod.mk.injEq] at h7
  rw [h7.1.2]

/-- C52: formatting what was parsed from a string gives a string with the same meaning. -/
theorem C52_reformat (year : Nat → Str) (hy : ∀ y, y ≤ 9999 → year y = pad 4 y) (s : Str) (v : Value)
    (hv : parse U s = .ok v) (hnd : ∀ x, v ≠ .duration x) : parse U (toString year v) = .ok v := by
  unfold parse at hv
  split at hv
  · cases hx : durationParser U s with
    | error e => rw [hx] at hv; cases hv
    | ok x => rw [hx] at hv; cases hv; exact absurd rfl (hnd x)
  · split at hv
    · cases hx : strptime (Re.datetime U) (fun p => p.1.ok && p.2.ok) s with
      | error e => rw [hx] at hv; cases hv
      | ok p =>
        obtain ⟨d, t⟩ := p
        rw [hx] at hv
        cases hv
        obtain ⟨h1, h2⟩ := strptime_ok hx
        simp only [Bool.and_eq_true] at h1
        rw [C52_datetime U year d t h1.1 h1.2 (hy _ (date_ok h1.1).1.2)]
        have := datetime_micro U h2
        obtain ⟨a, b, c, m⟩ := t
        simp only at this
        subst this
        rfl
    · cases hx : strptime (Re.date U) Date.ok s with
      | error e => rw [hx] at hv; cases hv
      | ok d =>
        rw [hx] at hv
        cases hv
        obtain ⟨h1, -⟩ := strptime_ok hx
        exact C52_date U year d h1 (hy _ (date_ok h1).1.2)

/-! ## Platforms that do not pad years -/

theorem mem_two_digits {s r : Str} {a : Str} (h : (a, r) ∈ two (digit U) (digit U) s) :
    ∃ b c, s = b :: c :: r ∧ (U.val b).isSome = true ∧ (U.val c).isSome = true := by
  unfold two at h
  obtain ⟨b, t, h1, h2⟩ := mem_seq.1 h
  obtain ⟨c, t2, h3, h4⟩ := mem_seq.1 h2
  simp only [done, List.mem_singleton, Prod.mk.injEq] at h4
  obtain ⟨-, rfl⟩ := h4
  obtain ⟨rfl, hb⟩ := mem_cls.1 h1
  obtain ⟨rfl, hc⟩ := mem_cls.1 h3
  exact ⟨b, c, rfl, hb, hc⟩

theorem mem_reY {s r a : Str} (h : (a, r) ∈ reY U s) :
    ∃ b c d e, s = b :: c :: d :: e :: r ∧ (U.val b).isSome ∧ (U.val c).isSome ∧ (U.val d).isSome ∧ (U.val e).isSome := by
  unfold reY at h
  obtain ⟨x, t, h1, h2⟩ := mem_seq.1 h
  obtain ⟨y, t2, h3, h4⟩ := mem_seq.1 h2
  simp only [done, List.mem_singleton, Prod.mk.injEq] at h4
  obtain ⟨-, rfl⟩ := h4
  obtain ⟨b, c, rfl, hb, hc⟩ := mem_two_digits U h1
  obtain ⟨d, e, rfl, hd, he⟩ := mem_two_digits U h3
  exact ⟨b, c, d, e, rfl, hb, hc, hd, he⟩

/-- No year with less than four digits is recognised. -/
theorem short_year {ds : Str} (hl : ds.length < 4) (r : Str) : reY U (ds ++ '-' :: r) = [] := by
  rw [List.eq_nil_iff_forall_not_mem]
  rintro ⟨a, t⟩ h
  obtain ⟨b, c, d, e, he, h1, h2, h3, h4⟩ := mem_reY U h
  have hm : (U.val '-').isSome = false := by rw [ascii_none U (by decide) (by decide)]; rfl
  match ds, hl with
  | [], _ => simp at he; rw [← he.1, hm] at h1; cases h1
  | [_], _ => simp at he; rw [← he.2.1, hm] at h2; cases h2
  | [_, _], _ => simp at he; rw [← he.2.2.1, hm] at h3; cases h3
  | [_, _, _], _ => simp at he; rw [← he.2.2.2.1, hm] at h4; cases h4

/-- C52 does not hold before the year 1000 if `strftime` does not write leading zeros: the text cannot be
parsed. -/
theorem C52_year_refuted (d : Date) (hd : d.year < 1000) :
    parse U (toString natStr (.date d)) = .error .ValueError := by
  have hl : (natStr d.year).length < 4 := lt_of_le_of_lt (natStr_length (w := 3) (by omega) hd) (by omega)
  show parse U (natStr d.year ++ '-' :: (pad 2 d.month ++ '-' :: pad 2 d.day)) = _
  have hre := short_year U hl (pad 2 d.month ++ '-' :: pad 2 d.day)
  have h1 : ¬ (natStr d.year ++ '-' :: (pad 2 d.month ++ '-' :: pad 2 d.day)).head? = some 'P' := by
    cases hn : natStr d.year with
    | nil => exact absurd hn (natStr_ne_nil _)
    | cons c r =>
      intro h
      have h' : c = 'P' := Option.some.inj h
      have := natStr_digits d.year c (by rw [hn]; simp)
      rw [h'] at this
      revert this
      decide
  have h2 : 'T' ∉ natStr d.year ++ '-' :: (pad 2 d.month ++ '-' :: pad 2 d.day) := by
    simp only [List.mem_append, List.mem_cons, not_or]
    refine ⟨fun h => ?_, by decide, T_not_pad _ _, by decide, T_not_pad _ _⟩
    have := natStr_digits d.year _ h
    revert this
    decide
  unfold parse
  rw [if_neg h1, if_neg h2]
  unfold strptime
  have : Re.date U (natStr d.year ++ '-' :: (pad 2 d.month ++ '-' :: pad 2 d.day)) = [] := by
    unfold Re.date
    exact seq_skip hre
  rw [this]
  rfl

/-- On such platforms C52 holds from the year 1000 on. -/
theorem C52_unpadded_partial (d : Date) (t : Clock) (hd : d.ok = true) (ht : t.ok = true) (hy : 1000 ≤ d.year) :
    parse U (toString natStr (.date d)) = .ok (.date d) ∧
    parse U (toString natStr (.datetime d t)) = .ok (.datetime d { t with micro := 0 }) := by
  have hp : natStr d.year = pad 4 d.year := by
    unfold pad
    have h4 : 4 ≤ (natStr d.year).length := by
      by_contra hc
      have h1 := number_lt Ascii (natStr d.year)
      rw [number_natStr] at h1
      have : 10 ^ (natStr d.year).length ≤ 10 ^ 3 := Nat.pow_le_pow_right (by omega) (by omega)
      omega
    rw [Nat.sub_eq_zero_of_le h4]
    rfl
  exact ⟨C52_date U natStr d hd hp, C52_datetime U natStr d t hd ht hp⟩

/-- The Gregorian leap year rule -/
def Leap (y : Nat) : Prop := 4 ∣ y ∧ (100 ∣ y → 400 ∣ y)

instance (y : Nat) : Decidable (Leap y) := by unfold Leap; infer_instance

/-- The lengths of the months January to December -/
def monthLengths (y : Nat) : List Nat :=
  [31, if Leap y then 29 else 28, 31, 30, 31, 30, 31, 31, 30, 31, 30, 31]

/-- The dates of C52 are the days of the Gregorian calendar in the years 1 to 9999. -/
theorem C52_calendar (d : Date) : d.ok = true ↔ 1 ≤ d.year ∧ d.year ≤ 9999 ∧ 1 ≤ d.month ∧ 1 ≤ d.day ∧
    ∃ n, (monthLengths d.year)[d.month - 1]? = some n ∧ d.day ≤ n := by
  obtain ⟨y, m, k⟩ := d
  have hleap : (y % 4 = 0 ∧ (y % 100 ≠ 0 ∨ y % 400 = 0)) ↔ Leap y := by
    unfold Leap
    rw [Nat.dvd_iff_mod_eq_zero, Nat.dvd_iff_mod_eq_zero, Nat.dvd_iff_mod_eq_zero]
    omega
  simp only [Date.ok, monthDays, Bool.and_eq_true, decide_eq_true_eq, hleap]
  by_cases h1 : 1 ≤ m
  · by_cases h2 : m ≤ 12
    · have hm : m = 1 ∨ m = 2 ∨ m = 3 ∨ m = 4 ∨ m = 5 ∨ m = 6 ∨ m = 7 ∨ m = 8 ∨ m = 9 ∨ m = 10 ∨
        m = 11 ∨ m = 12 := by omega
      rcases hm with h | h | h | h | h | h | h | h | h | h | h | h <;> subst h <;>
        simp [monthLengths, and_assoc]
    · have : (monthLengths y)[m - 1]? = none := by
        apply List.getElem?_eq_none
        simp only [monthLengths, List.length_cons, List.length_nil]
        omega
      simp [this, h2]
  · simp [h1]

/-! ## Examples -/

example : Date.ok ⟨2024, 2, 29⟩ = true ∧ Date.ok ⟨1900, 2, 29⟩ = false ∧ Date.ok ⟨0, 1, 1⟩ = false := by decide
example : parse Ascii "2000-1-5".toList = .ok (.date ⟨2000, 1, 5⟩) := by decide +kernel
example : toString natStr (.datetime ⟨2011, 2, 5⟩ ⟨12, 0, 7, 500⟩) = "2011-02-05T12:00:07".toList := by decide +kernel
example : parse Ascii "2011-02-05T12:00:61".toList = .error .ValueError ∧
    parse Ascii "2011-02-30".toList = .error .ValueError ∧ parse Ascii "2011-02-0512".toList = .error .ValueError := by
  decide +kernel
example : parse Ascii (toString natStr (.date ⟨999, 12, 31⟩)) = .error .ValueError ∧
    parse Ascii (toString (pad 4) (.date ⟨999, 12, 31⟩)) = .ok (.date ⟨999, 12, 31⟩) := by decide +kernel

end Verif.Time
