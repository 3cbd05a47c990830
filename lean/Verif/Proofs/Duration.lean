import Verif.Proofs.Time
import Verif.Proofs.Float64
/-! The arithmetic of `duration_parser`. -/
namespace Verif.Time
open Verif
set_option linter.unusedSimpArgs false

/-- The number `a` stands for the natural number `n`: exactly, or both are large. -/
def Stands (a : Num) (n : Nat) : Prop :=
  (n ≤ 2 ^ 53 ∧ ((a = .int 0 ∧ n = 0) ∨ a = .flt (some n))) ∨
  (2 ^ 53 < n ∧ (a = .flt none ∨ ∃ m : Nat, 2 ^ 53 ≤ m ∧ a = .flt (some m)))

theorem round_stands (n : Nat) : Stands (.flt (F64.round n)) n := by
  by_cases h : n ≤ 2 ^ 53
  · exact .inl ⟨h, .inr (by rw [F64.round_nat h])⟩
  · refine .inr ⟨not_le.1 h, ?_⟩
    rw [F64.round_eq]
    split
    · obtain ⟨m, hm⟩ := F64.val_natural n
      refine .inr ⟨m, ?_, by rw [hm]⟩
      have h1 := F64.val_large (x := (n : Rat)) (by
        rw [show F64.pow2 53 = ((2 ^ 53 : Nat) : Rat) from F64.pow2_nat 53]
        exact_mod_cast (not_le.1 h).le)
      rw [hm, show F64.pow2 53 = ((2 ^ 53 : Nat) : Rat) from F64.pow2_nat 53] at h1
      exact_mod_cast h1
    · exact .inl rfl

/-- A natural number that is large and rounded is still large. -/
theorem round_stands_large {m n : Nat} (hm : 2 ^ 53 ≤ m) (hn : 2 ^ 53 < n) : Stands (.flt (F64.round m)) n := by
  rcases round_stands m with ⟨h, ⟨h1, -⟩ | h1⟩ | ⟨-, h1⟩
  · cases h1
  · exact .inr ⟨hn, .inr ⟨m, hm, h1⟩⟩
  · exact .inr ⟨hn, h1⟩

theorem stands_zero : Stands (.int 0) 0 := .inl ⟨by omega, .inl ⟨rfl, rfl⟩⟩

theorem stands_mul {a : Num} {n : Nat} (h : Stands a n) {k : Nat} (hk : 1 ≤ k) : Stands (a.mul k) (n * k) := by
  rcases h with ⟨h, ⟨rfl, rfl⟩ | rfl⟩ | ⟨h, rfl | ⟨m, hm, rfl⟩⟩
  · simpa [Num.mul] using stands_zero
  · show Stands (.flt (F64.round ((n : Rat) * k))) _
    have : ((n : Rat) * k) = ((n * k : Nat) : Rat) := by push_cast; rfl
    rw [this]
    exact round_stands _
  · exact .inr ⟨lt_of_lt_of_le h (Nat.le_mul_of_pos_right n hk), .inl rfl⟩
  · show Stands (.flt (F64.round ((m : Rat) * k))) _
    have : ((m : Rat) * k) = ((m * k : Nat) : Rat) := by push_cast; rfl
    rw [this]
    exact round_stands_large (hm.trans (Nat.le_mul_of_pos_right m hk)) (lt_of_lt_of_le h (Nat.le_mul_of_pos_right n hk))

/-- As a float. -/
theorem stands_float {a : Num} {n : Nat} (h : Stands a n) :
    (n ≤ 2 ^ 53 ∧ a.float = some (n : Rat)) ∨
    (2 ^ 53 < n ∧ (a.float = none ∨ ∃ m : Nat, 2 ^ 53 ≤ m ∧ a.float = some (m : Rat))) := by
  rcases h with ⟨h, ⟨rfl, rfl⟩ | rfl⟩ | ⟨h, rfl | ⟨m, hm, rfl⟩⟩
  · refine .inl ⟨h, ?_⟩
    show F64.round ((0 : Nat) : Rat) = _
    exact F64.round_nat (by omega)
  · exact .inl ⟨h, rfl⟩
  · exact .inr ⟨h, .inl rfl⟩
  · exact .inr ⟨h, .inr ⟨m, hm, rfl⟩⟩

theorem stands_sum {a b : Num} {m n : Nat} (ha : Stands a m) (hb : Stands b n) :
    Stands (.flt (a.float.bind fun x => b.float.bind fun y => F64.round (x + y))) (m + n) := by
  have cast : ∀ i j : Nat, ((i : Rat) + (j : Rat)) = ((i + j : Nat) : Rat) := by intro i j; push_cast; rfl
  rcases stands_float ha with ⟨h1, e1⟩ | ⟨h1, e1 | ⟨i, hi, e1⟩⟩
  · rcases stands_float hb with ⟨h2, e2⟩ | ⟨h2, e2 | ⟨j, hj, e2⟩⟩
    · rw [e1, e2]
      show Stands (.flt (F64.round ((m : Rat) + (n : Rat)))) _
      rw [cast]; exact round_stands _
    · rw [e1, e2]; exact .inr ⟨by omega, .inl rfl⟩
    · rw [e1, e2]
      show Stands (.flt (F64.round ((m : Rat) + (j : Rat)))) _
      rw [cast]; exact round_stands_large (by omega) (by omega)
  · rw [e1]; exact .inr ⟨by omega, .inl rfl⟩
  · rcases stands_float hb with ⟨h2, e2⟩ | ⟨h2, e2 | ⟨j, hj, e2⟩⟩
    · rw [e1, e2]
      show Stands (.flt (F64.round ((i : Rat) + (n : Rat)))) _
      rw [cast]; exact round_stands_large (by omega) (by omega)
    · rw [e1, e2]; exact .inr ⟨by omega, .inl rfl⟩
    · rw [e1, e2]
      show Stands (.flt (F64.round ((i : Rat) + (j : Rat)))) _
      rw [cast]; exact round_stands_large (by omega) (by omega)

theorem stands_add {a b : Num} {m n : Nat} (ha : Stands a m) (hb : Stands b n) : Stands (a.add b) (m + n) := by
  have hs := stands_sum ha hb
  cases a with
  | int i =>
    cases b with
    | int j =>
      rcases ha with ⟨-, ⟨h, rfl⟩ | h⟩ | ⟨-, h | ⟨_, _, h⟩⟩ <;> cases h
      rcases hb with ⟨-, ⟨h, rfl⟩ | h⟩ | ⟨-, h | ⟨_, _, h⟩⟩ <;> cases h
      exact stands_zero
    | flt y => exact hs
  | flt x => cases b <;> exact hs

theorem floor_nat (n : Nat) : ((n : Rat)).floor = n := by
  have := Rat.floor_intCast (n : Int)
  rwa [Int.cast_natCast] at this

/-- Adding a number of units that is whole. -/
theorem accum_stands {a : Num} {n : Nat} (h : Stands a n) (x : Nat) (l : Rat) (k : Nat) :
    (n ≤ 2 ^ 53 ∧ accum (x, l) a k = .ok (x + n * k, l)) ∨
    (2 ^ 53 < n ∧ (accum (x, l) a k = .error .OverflowError ∨ ∃ m, 2 ^ 53 ≤ m ∧ accum (x, l) a k = .ok (x + m * k, l))) := by
  have hf : ∀ m : Nat, accum (x, l) (.flt (some m)) k = .ok (x + m * k, l) := by
    intro m
    unfold accum
    simp only [floor_nat, Int.toNat_natCast, Int.cast_natCast, sub_self, if_true]
  rcases h with ⟨h, ⟨rfl, rfl⟩ | rfl⟩ | ⟨h, rfl | ⟨m, hm, rfl⟩⟩
  · exact .inl ⟨h, rfl⟩
  · exact .inl ⟨h, hf n⟩
  · exact .inr ⟨h, .inl rfl⟩
  · exact .inr ⟨h, .inr ⟨m, hm, hf m⟩⟩

theorem cround_spec {x : Rat} : (cround x : Rat) ≤ x + 1 / 2 ∧ x - 1 / 2 < cround x := by
  unfold cround
  have h1 := Rat.floor_le (x + 1 / 2)
  have h2 := Rat.lt_floor_add_one (x + 1 / 2)
  push_cast at h2
  exact ⟨h1, by linarith⟩

/-- The total is rounded to a nearest number of microseconds. -/
theorem finish_close (x : Nat) (l : Rat) : |(finish x l : Rat) - (x + l)| ≤ 1 / 2 := by
  unfold finish
  split
  · rename_i h; subst h; simp
  · simp only
    obtain ⟨c1, c2⟩ := cround_spec (x := l)
    split
    · rename_i ht
      have hl : l = (cround l : Rat) - 1 / 2 := by linarith
      generalize cround l = w at *
      have hodd : x % 2 = 0 ∨ x % 2 = 1 := by omega
      obtain ⟨d1, d2⟩ := cround_spec (x := (l + ((x % 2 : Nat) : Rat)) / 2)
      generalize cround ((l + ((x % 2 : Nat) : Rat)) / 2) = v at *
      generalize x % 2 = o at *
      push_cast
      have e1 : (2 * v : Rat) ≤ w + o + 1 / 2 := by linarith
      have e2 : (w : Rat) + o - 3 / 2 < 2 * v := by linarith
      have e3 : 2 * v ≤ w + o := by
        by_contra hc
        have : w + o + 1 ≤ 2 * v := by omega
        have : (w : Rat) + o + 1 ≤ 2 * v := by exact_mod_cast this
        linarith
      have e4 : w + o - 1 ≤ 2 * v := by
        by_contra hc
        have : 2 * v ≤ w + o - 2 := by omega
        have : (2 : Rat) * v ≤ w + o - 2 := by exact_mod_cast this
        linarith
      have e3' : (2 : Rat) * v ≤ w + o := by exact_mod_cast e3
      have e4' : (w : Rat) + o - 1 ≤ 2 * v := by exact_mod_cast e4
      rw [abs_le]
      constructor <;> linarith
    · push_cast
      rw [abs_le]
      constructor <;> linarith

theorem finish_zero (x : Nat) : finish x 0 = x := by simp [finish]

theorem tiny : F64.pow2 (-1075) < 1 / 1000000000000000 := by decide +kernel
theorem eps : F64.pow2 (-53) < 1 / 9000000000000000 ∧ F64.pow2 (-53) * 9007199254740992 = 1 := by decide +kernel

/-- Adding a number of seconds that is not whole. -/
theorem accum_frac {q : Rat} (hq : 0 ≤ q) :
    (q < F64.pow2 53 ∧ ∃ x l, accum (0, 0) (.flt (F64.round q)) 1000000 = .ok (x, l) ∧ 0 ≤ l ∧
      |((x : Rat) + l) - 1000000 * q| ≤ 1000000 * q * F64.pow2 (-53) + 1 / 1000000) ∨
    (F64.pow2 53 ≤ q ∧ (accum (0, 0) (.flt (F64.round q)) 1000000 = .error .OverflowError ∨
      ∃ x l, accum (0, 0) (.flt (F64.round q)) 1000000 = .ok (x, l) ∧ 0 ≤ l ∧ 2 ^ 53 * 1000000 ≤ x)) := by
  have hacc : ∀ d : Rat, 0 ≤ d → ∃ x l, accum (0, 0) (.flt (some d)) 1000000 = .ok (x, l) ∧ 0 ≤ l ∧
      |((x : Rat) + l) - 1000000 * d| ≤ 1 / 10000000 ∧ d.floor.toNat * 1000000 ≤ x := by
    intro d hd
    have hfl := Rat.floor_le d
    have hfu := Rat.lt_floor_add_one d
    push_cast at hfu
    have hf0 : 0 ≤ d.floor := by
      rw [Rat.le_floor_iff]; simpa using hd
    have hfc : ((d.floor.toNat : Nat) : Rat) = (d.floor : Rat) := by
      have : ((d.floor.toNat : Int) : Rat) = (d.floor : Rat) := by rw [Int.toNat_of_nonneg hf0]
      rw [← this, Int.cast_natCast]
    unfold accum
    simp only
    by_cases hz : d - d.floor = 0
    · rw [if_pos hz]
      refine ⟨_, _, rfl, le_refl _, ?_, by omega⟩
      push_cast
      rw [hfc, show (0 + (d.floor : Rat) * 1000000 + 0) - 1000000 * d = - (1000000 * (d - d.floor)) by ring, hz]
      norm_num
    · rw [if_neg hz]
      set fr := d - (d.floor : Rat) with hfr
      have hfr0 : 0 ≤ fr := by linarith
      have hfr1 : fr < 1 := by linarith
      have hpf : ((1000000 : Nat) : Rat) * fr ≤ F64.pow2 53 * F64.pow2 53 := by
        have : (1000000 : Rat) ≤ F64.pow2 53 * F64.pow2 53 := by decide +kernel
        push_cast; nlinarith
      have hp0 : (0 : Rat) ≤ ((1000000 : Nat) : Rat) * fr := by positivity
      obtain ⟨p, hp⟩ := F64.round_finite hp0 hpf
      obtain ⟨hpn, hpc⟩ := F64.round_close hp0 hp
      rw [hp]
      simp only
      have hpl := Rat.floor_le p
      have hpu := Rat.lt_floor_add_one p
      push_cast at hpu
      have hl0 : 0 ≤ (0 : Rat) + (p - p.floor) := by linarith
      obtain ⟨l, hl⟩ := F64.round_finite hl0 (by
        have : (1 : Rat) ≤ F64.pow2 53 * F64.pow2 53 := by decide +kernel
        linarith)
      obtain ⟨hln, hlc⟩ := F64.round_close hl0 hl
      rw [hl]
      simp only
      refine ⟨_, _, rfl, hln, ?_, by omega⟩
      have hp00 : 0 ≤ p.floor := by
        rw [Rat.le_floor_iff]; simpa using hpn
      have hpfc : ((p.floor.toNat : Nat) : Rat) = (p.floor : Rat) := by
        have : ((p.floor.toNat : Int) : Rat) = (p.floor : Rat) := by rw [Int.toNat_of_nonneg hp00]
        rw [← this, Int.cast_natCast]
      push_cast
      rw [hfc, hpfc]
      obtain ⟨ep, -⟩ := eps
      have et := tiny
      have epp := F64.pow2_pos (-53)
      push_cast at hpc
      rw [abs_le] at hpc hlc ⊢
      have b1 : 1000000 * fr * F64.pow2 (-53) ≤ 1000000 * (1 / 9000000000000000) := by nlinarith
      have b2 : (0 + (p - p.floor)) * F64.pow2 (-53) ≤ 1 / 9000000000000000 := by nlinarith
      constructor
      · linarith [hpc.1, hlc.1]
      · linarith [hpc.2, hlc.2]
  by_cases hlt : q < F64.pow2 53
  · refine .inl ⟨hlt, ?_⟩
    obtain ⟨d, hd⟩ := F64.round_finite hq (by
      have : F64.pow2 53 ≤ F64.pow2 53 * F64.pow2 53 := by decide +kernel
      linarith)
    obtain ⟨hd0, hdc⟩ := F64.round_close hq hd
    obtain ⟨x, l, h1, h2, h3, -⟩ := hacc d hd0
    rw [hd]
    refine ⟨x, l, h1, h2, ?_⟩
    have et := tiny
    rw [abs_le] at h3 hdc ⊢
    constructor
    · linarith [h3.1, hdc.1]
    · linarith [h3.2, hdc.2]
  · refine .inr ⟨not_lt.1 hlt, ?_⟩
    cases hd : F64.round q with
    | none => exact .inl rfl
    | some d =>
      obtain ⟨hd0, -⟩ := F64.round_close hq hd
      obtain ⟨x, l, h1, h2, -, h4⟩ := hacc d hd0
      refine .inr ⟨x, l, h1, h2, le_trans ?_ h4⟩
      have h5 := F64.val_large (not_lt.1 hlt)
      rw [← (F64.round_some hd).1] at h5
      have h6 : (2 ^ 53 : Int) ≤ d.floor := by
        rw [Rat.le_floor_iff]
        have : ((2 ^ 53 : Int) : Rat) = F64.pow2 53 := by decide +kernel
        rw [this]; exact h5
      have h7 : 2 ^ 53 ≤ d.floor.toNat := by
        rw [Int.le_toNat (by rw [Rat.le_floor_iff]; simpa using hd0)]
        exact h6
      exact Nat.mul_le_mul_right _ h7

theorem finish_ge (x : Nat) {l : Rat} (hl : 0 ≤ l) : (x : Int) ≤ finish x l := by
  have h := finish_close x l
  rw [abs_le] at h
  by_contra hc
  have h1 : finish x l + 1 ≤ x := by omega
  have h2 : (finish x l : Rat) + 1 ≤ x := by exact_mod_cast h1
  linarith [h.1]

/-- The end of `timedelta`. -/
def outcome (us : Int) : Except Exc Delta := if us < limit then .ok us else .error .OverflowError

theorem outcome_large {us : Int} (h : limit ≤ us) : outcome us = .error .OverflowError := by
  unfold outcome; rw [if_neg (by omega)]

/-- One more whole component. -/
theorem accum_outcome {a : Num} {n : Nat} (h : Stands a n) {l : Rat} (hl : 0 ≤ l) {k : Nat} (hk : 1000000 ≤ k)
    {T : Nat} {f : Nat × Rat → Except Exc Delta} (hf : ∀ x, f (x, l) = outcome (finish (x + T) l)) (x : Nat) :
    (accum (x, l) a k >>= f) = outcome (finish (x + (n * k + T)) l) := by
  have big : ∀ m : Nat, 2 ^ 53 ≤ m → ∀ y T : Nat, outcome (finish (y + (m * k + T)) l) = .error .OverflowError := by
    intro m hm y T
    refine outcome_large (le_trans ?_ (finish_ge _ hl))
    have : 2 ^ 53 * 1000000 ≤ m * k := Nat.mul_le_mul hm hk
    unfold limit
    omega
  rcases accum_stands h x l k with ⟨-, e⟩ | ⟨hn, e | ⟨m, hm, e⟩⟩
  · rw [e]
    show f _ = _
    rw [hf, Nat.add_assoc]
  · rw [e, big n hn.le]; rfl
  · rw [e, big n hn.le]
    show f _ = _
    rw [hf, Nat.add_assoc, big m hm]

/-- Minutes, hours and days. -/
theorem timedelta_tail {d h m : Num} {D H M : Nat} (hd : Stands d D) (hh : Stands h H) (hm : Stands m M) (x : Nat)
    {l : Rat} (hl : 0 ≤ l) {s : Num} (hs : accum (0, 0) s 1000000 = .ok (x, l)) :
    timedelta d h m s =
      outcome (finish (x + (M * 60000000 + (H * 3600000000 + D * 86400000000))) l) := by
  unfold timedelta
  rw [hs]
  show ((accum (x, l) m 60000000) >>= fun a => (accum a h 3600000000) >>= fun a => (accum a d 86400000000) >>=
    fun a => outcome (finish a.1 a.2)) = _
  refine accum_outcome hm hl (by omega) (fun x => ?_) x
  refine accum_outcome hh hl (by omega) (fun x => ?_) x
  have := accum_outcome hd hl (k := 86400000000) (T := 0) (by omega) (f := fun a => outcome (finish a.1 a.2)) (fun x => rfl) x
  simpa using this

theorem timedelta_error {d h m s : Num} {e : Exc} (hs : accum (0, 0) s 1000000 = .error e) :
    timedelta d h m s = .error e := by
  unfold timedelta
  rw [hs]; rfl

theorem timedelta_whole {d h m s : Num} {D H M S : Nat} (hd : Stands d D) (hh : Stands h H) (hm : Stands m M)
    (hs : Stands s S) : timedelta d h m s =
      outcome ((S * 1000000 + (M * 60000000 + (H * 3600000000 + D * 86400000000)) : Nat) : Int) := by
  have hn : ∀ m : Nat, 2 ^ 53 ≤ m → ∀ T : Nat, outcome ((m * 1000000 + T : Nat) : Int) = .error .OverflowError := by
    intro m hm T
    refine outcome_large ?_
    unfold limit
    omega
  rcases accum_stands hs 0 0 1000000 with ⟨-, e⟩ | ⟨h1, e | ⟨k, hk, e⟩⟩
  · rw [timedelta_tail hd hh hm _ (le_refl _) e, finish_zero, Nat.zero_add]
  · rw [timedelta_error e, hn _ h1.le]
  · rw [timedelta_tail hd hh hm _ (le_refl _) e, finish_zero, Nat.zero_add, hn _ h1.le, hn _ hk]

/-- With a fraction of seconds: rounded to microseconds, up to the precision of floats. -/
theorem timedelta_frac {d h m : Num} {D H M : Nat} (hd : Stands d D) (hh : Stands h H) (hm : Stands m M) {q : Rat}
    (hq : 0 ≤ q) : ∃ R : Int, timedelta d h m (.flt (F64.round q)) = outcome R ∧
      ((q < F64.pow2 53 ∧ |(R : Rat) - (1000000 * q + (M * 60000000 + (H * 3600000000 + D * 86400000000) : Nat))| ≤
        1 / 2 + 1000000 * q * F64.pow2 (-53) + 1 / 1000000) ∨ (F64.pow2 53 ≤ q ∧ limit ≤ R)) := by
  rcases accum_frac hq with ⟨h1, x, l, e, hl, hc⟩ | ⟨h1, e | ⟨x, l, e, hl, hx⟩⟩
  · refine ⟨_, timedelta_tail hd hh hm x hl e, .inl ⟨h1, ?_⟩⟩
    generalize (M * 60000000 + (H * 3600000000 + D * 86400000000)) = T
    have h2 := finish_close (x + T) l
    rw [abs_le] at h2 hc ⊢
    push_cast at h2
    constructor
    · linarith [h2.1, hc.1]
    · linarith [h2.2, hc.2]
  · refine ⟨limit, ?_, .inr ⟨h1, le_refl _⟩⟩
    rw [timedelta_error e, outcome_large (le_refl _)]
  · refine ⟨_, timedelta_tail hd hh hm x hl e, .inr ⟨h1, le_trans ?_ (finish_ge _ hl)⟩⟩
    unfold limit
    omega

/-- Exact, if the exact value is a number of microseconds and the seconds are below 2**32. -/
theorem timedelta_exact {d h m : Num} {D H M : Nat} (hd : Stands d D) (hh : Stands h H) (hm : Stands m M) {q : Rat}
    (hq : 0 ≤ q) (hq2 : q < 4294967296) {E : Nat} (hE : (E : Rat) = 1000000 * q) :
    timedelta d h m (.flt (F64.round q)) = outcome ((E + (M * 60000000 + (H * 3600000000 + D * 86400000000)) : Nat) : Int) := by
  obtain ⟨R, h1, h2⟩ := timedelta_frac hd hh hm hq
  rw [h1]
  congr 1
  rcases h2 with ⟨-, h2⟩ | ⟨h2, -⟩
  · generalize (M * 60000000 + (H * 3600000000 + D * 86400000000)) = T at *
    rw [← hE] at h2
    have e1 := eps.1
    have e0 := F64.pow2_pos (-53)
    have hb : (E : Rat) * F64.pow2 (-53) ≤ 1000000 * 4294967296 * (1 / 9000000000000000) := by
      rw [hE]
      refine mul_le_mul (by linarith) e1.le e0.le (by norm_num)
    rw [abs_le] at h2
    have h3 : ((R - (E + T : Nat) : Int) : Rat) < 1 := by
      push_cast
      have := h2.2
      norm_num at hb this ⊢
      linarith
    have h4 : -1 < ((R - (E + T : Nat) : Int) : Rat) := by
      push_cast
      have := h2.1
      norm_num at hb this ⊢
      linarith
    have h3' : R - (E + T : Nat) < 1 := by exact_mod_cast h3
    have h4' : -1 < R - ((E + T : Nat) : Int) := by exact_mod_cast h4
    omega
  · have : F64.pow2 53 = 9007199254740992 := F64.pow2_53
    rw [this] at h2
    linarith

end Verif.Time
