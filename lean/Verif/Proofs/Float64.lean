import Verif.Model.Float64
import Mathlib.Algebra.Order.Field.Rat
import Mathlib.Algebra.Order.Field.Power
import Mathlib.Algebra.Order.Group.Abs
import Mathlib.Tactic.Linarith
import Mathlib.Tactic.NormNum
import Mathlib.Tactic.Positivity
import Mathlib.Tactic.FieldSimp
import Mathlib.Tactic.Ring
/-! Rounding to binary64: exactness on small integers and error bounds. -/
namespace Verif.F64
set_option linter.unusedSimpArgs false

theorem pow2_eq (k : Int) : pow2 k = (2 : Rat) ^ k := by
  unfold pow2
  split
  · rename_i h
    obtain ⟨n, rfl⟩ := Int.eq_ofNat_of_zero_le h
    simp
  · rename_i h
    obtain ⟨n, hn⟩ := Int.eq_ofNat_of_zero_le (show 0 ≤ -k by omega)
    obtain rfl : k = -(n : Int) := by omega
    simp

theorem pow2_pos (k : Int) : 0 < pow2 k := by rw [pow2_eq]; positivity

theorem pow2_add (a b : Int) : pow2 (a + b) = pow2 a * pow2 b := by
  rw [pow2_eq, pow2_eq, pow2_eq, zpow_add₀ (by norm_num)]

theorem pow2_nat (n : Nat) : pow2 (n : Int) = ((2 ^ n : Nat) : Rat) := by
  rw [pow2_eq]; simp

theorem pow2_mono {a b : Int} (h : a ≤ b) : pow2 a ≤ pow2 b := by
  rw [pow2_eq, pow2_eq]; exact zpow_le_zpow_right₀ (by norm_num) h

theorem pow2_lt {a b : Int} (h : pow2 a < pow2 b) : a < b := by
  by_contra hc
  exact absurd (pow2_mono (not_lt.1 hc)) (not_le.2 h)

theorem expo_spec {x : Rat} (hx : 0 < x) : pow2 (expo x) ≤ x ∧ x < pow2 (expo x + 1) := by
  have hn : 0 < x.num := Rat.num_pos.2 hx
  have hn' : x.num.toNat ≠ 0 := by omega
  have hd : x.den ≠ 0 := x.den_nz
  have hxe : x = (x.num.toNat : Rat) / (x.den : Rat) := by
    conv_lhs => rw [← Rat.num_div_den x]
    congr 1
    have : ((x.num.toNat : Int) : Rat) = (x.num : Rat) := by rw [Int.toNat_of_nonneg hn.le]
    exact this.symm.trans (Int.cast_natCast _)
  have a1 := Nat.log2_self_le hn'
  have a2 := @Nat.lt_log2_self x.num.toNat
  have b1 := Nat.log2_self_le hd
  have b2 := @Nat.lt_log2_self x.den
  unfold expo
  simp only
  generalize x.num.toNat = n at *
  generalize x.den = d at *
  have hdp : (0 : Rat) < d := by exact_mod_cast Nat.pos_of_ne_zero hd
  have A1 : pow2 (n.log2) ≤ (n : Rat) := by rw [pow2_nat]; exact_mod_cast a1
  have A2 : (n : Rat) < pow2 (n.log2 + 1) := by
    have : ((n.log2 : Int) + 1) = ((n.log2 + 1 : Nat) : Int) := by push_cast; rfl
    rw [this, pow2_nat]; exact_mod_cast a2
  have B1 : pow2 (d.log2) ≤ (d : Rat) := by rw [pow2_nat]; exact_mod_cast b1
  have B2 : (d : Rat) < pow2 (d.log2 + 1) := by
    have : ((d.log2 : Int) + 1) = ((d.log2 + 1 : Nat) : Int) := by push_cast; rfl
    rw [this, pow2_nat]; exact_mod_cast b2
  generalize (n.log2 : Int) = a at *
  generalize (d.log2 : Int) = b at *
  have hnp : (0 : Rat) < n := lt_of_lt_of_le (pow2_pos a) A1
  split
  · rename_i h
    refine ⟨h, ?_⟩
    rw [hxe, div_lt_iff₀ hdp]
    have h1 : pow2 (a - b + 1) * pow2 b = pow2 (a + 1) := by rw [← pow2_add]; congr 1; omega
    calc (n : Rat) < pow2 (a + 1) := A2
      _ = pow2 (a - b + 1) * pow2 b := h1.symm
      _ ≤ pow2 (a - b + 1) * d := mul_le_mul_of_nonneg_left B1 (pow2_pos _).le
  · rename_i h
    refine ⟨?_, ?_⟩
    · rw [hxe, le_div_iff₀ hdp]
      have h1 : pow2 (a - b - 1) * pow2 (b + 1) = pow2 a := by rw [← pow2_add]; congr 1; omega
      calc pow2 (a - b - 1) * d ≤ pow2 (a - b - 1) * pow2 (b + 1) :=
            mul_le_mul_of_nonneg_left B2.le (pow2_pos _).le
        _ = pow2 a := h1
        _ ≤ n := A1
    · have : a - b - 1 + 1 = a - b := by omega
      rw [this]
      exact not_le.1 h

theorem nearest_close (x : Rat) : |(nearest x : Rat) - x| ≤ 1 / 2 := by
  have h1 := Rat.floor_le x
  have h2 := Rat.lt_floor_add_one x
  push_cast at h2
  unfold nearest
  simp only
  rw [abs_le]
  split
  · constructor <;> linarith
  · split
    · push_cast; constructor <;> linarith
    · split
      · constructor <;> linarith
      · push_cast; constructor <;> linarith

theorem nearest_unique {x : Rat} {m : Int} (h : |x - m| < 1 / 2) : nearest x = m := by
  have h1 := nearest_close x
  rw [abs_lt] at h
  rw [abs_le] at h1
  have h2 : (nearest x : Rat) - m < 1 := by linarith [h.1, h.2, h1.1, h1.2]
  have h3 : -1 < (nearest x : Rat) - m := by linarith [h.1, h.2, h1.1, h1.2]
  have h4 : nearest x - m < 1 := by exact_mod_cast h2
  have h5 : -1 < nearest x - m := by exact_mod_cast h3
  omega

theorem nearest_int (m : Int) : nearest (m : Rat) = m := nearest_unique (by simp)

theorem le_nearest {x : Rat} {m : Int} (h : (m : Rat) ≤ x) : m ≤ nearest x := by
  have h1 := Rat.le_floor_iff.2 h
  unfold nearest
  simp only
  split
  · exact h1
  · split
    · omega
    · split <;> omega

theorem nearest_le {x : Rat} {m : Int} (h : x ≤ (m : Rat)) : nearest x ≤ m := by
  by_contra hc
  have h1 : m + 1 ≤ nearest x := by omega
  have h2 := nearest_close x
  rw [abs_le] at h2
  have h3 : (m : Rat) + 1 ≤ nearest x := by exact_mod_cast h1
  linarith [h2.2]

/-- The rounded value before the test for infinity. -/
def val (x : Rat) : Rat := nearest (x / pow2 (place x)) * pow2 (place x)

theorem round_eq (x : Rat) : round x = if val x < pow2 1024 then some (val x) else none := rfl

theorem round_some {x y : Rat} (h : round x = some y) : y = val x ∧ val x < pow2 1024 := by
  rw [round_eq] at h
  split at h
  · cases h; exact ⟨rfl, by assumption⟩
  · cases h

theorem val_close {x : Rat} (hx : 0 ≤ x) : |val x - x| ≤ x * pow2 (-53) + pow2 (-1075) := by
  rcases hx.eq_or_lt with rfl | hx
  · have : val 0 = 0 := by
      unfold val
      rw [zero_div]
      have : nearest 0 = 0 := by exact_mod_cast nearest_int 0
      rw [this]; simp
    rw [this]
    simp [(pow2_pos _).le]
  · have hp := pow2_pos (place x)
    have h1 := nearest_close (x / pow2 (place x))
    have h2 : val x - x = (nearest (x / pow2 (place x)) - x / pow2 (place x)) * pow2 (place x) := by
      unfold val
      field_simp
    rw [h2, abs_mul, abs_of_pos hp]
    have h3 : |(nearest (x / pow2 (place x)) : Rat) - x / pow2 (place x)| * pow2 (place x) ≤ 1 / 2 * pow2 (place x) :=
      mul_le_mul_of_nonneg_right h1 hp.le
    refine h3.trans ?_
    have hhalf : (1 : Rat) / 2 = pow2 (-1) := by rw [pow2_eq]; norm_num
    rw [hhalf, ← pow2_add]
    unfold place
    rcases le_total (expo x - 52) (-1074) with h | h
    · rw [max_eq_right h]
      have : (-1 : Int) + -1074 = -1075 := by omega
      rw [this]
      have := mul_nonneg hx.le (pow2_pos (-53)).le
      linarith
    · rw [max_eq_left h]
      have : (-1 : Int) + (expo x - 52) = expo x + -53 := by omega
      rw [this, pow2_add]
      have h4 := mul_le_mul_of_nonneg_right (expo_spec hx).1 (pow2_pos (-53)).le
      linarith [pow2_pos (-1075)]

theorem val_nonneg {x : Rat} (hx : 0 ≤ x) : 0 ≤ val x := by
  unfold val
  refine mul_nonneg ?_ (pow2_pos _).le
  have : (0 : Int) ≤ nearest (x / pow2 (place x)) :=
    le_nearest (by rw [Int.cast_zero]; exact div_nonneg hx (pow2_pos _).le)
  exact_mod_cast this

/-- Multiples of the last place are exact. -/
theorem val_exact {x : Rat} {m : Int} (h : x = m * pow2 (place x)) : val x = x := by
  unfold val
  have : x / pow2 (place x) = m := by
    rw [div_eq_iff (pow2_pos _).ne']; exact h
  rw [this, nearest_int]
  exact h.symm

/-- `n` is a multiple of `2 ** k` for every negative `k`. -/
theorem nat_multiple (n : Nat) {k : Int} (hk : k ≤ 0) : ∃ m : Int, (n : Rat) = m * pow2 k := by
  obtain ⟨j, hj⟩ := Int.eq_ofNat_of_zero_le (show 0 ≤ -k by omega)
  refine ⟨(n * 2 ^ j : Nat), ?_⟩
  have h1 : pow2 (-k) * pow2 k = 1 := by
    rw [← pow2_add]; simp [pow2_eq]
  rw [hj, pow2_nat] at h1
  push_cast at h1 ⊢
  rw [mul_assoc, h1, mul_one]

theorem place_zero : place 0 ≤ 0 := by decide +kernel

theorem val_nat {n : Nat} (h : n ≤ 2 ^ 53) : val (n : Rat) = n := by
  by_cases h0 : n = 0
  · subst h0
    exact val_exact (m := 0) (by simp)
  have hpos : (0 : Rat) < n := by exact_mod_cast Nat.pos_of_ne_zero h0
  obtain ⟨e1, e2⟩ := expo_spec hpos
  by_cases h53 : n = 2 ^ 53
  · subst h53
    have : expo ((2 ^ 53 : Nat) : Rat) = 53 := by decide +kernel
    have hp : place ((2 ^ 53 : Nat) : Rat) = 1 := by decide +kernel
    refine val_exact (m := 2 ^ 52) ?_
    rw [hp]
    decide +kernel
  · have hlt : n < 2 ^ 53 := by omega
    have : expo (n : Rat) < 53 := by
      refine pow2_lt (lt_of_le_of_lt e1 ?_)
      have : pow2 53 = ((2 ^ 53 : Nat) : Rat) := pow2_nat 53
      rw [this]
      exact_mod_cast hlt
    obtain ⟨m, hm⟩ := nat_multiple n (show place (n : Rat) ≤ 0 by unfold place; omega)
    exact val_exact hm

theorem round_of_lt {x : Rat} (h : val x < pow2 1024) : round x = some (val x) := by
  rw [round_eq, if_pos h]

theorem pow2_53 : pow2 53 = 9007199254740992 := by decide +kernel

theorem round_nat {n : Nat} (h : n ≤ 2 ^ 53) : round (n : Rat) = some (n : Rat) := by
  have h1 := val_nat h
  rw [round_of_lt, h1]
  rw [h1]
  have h2 : pow2 53 < pow2 1024 := by decide +kernel
  refine lt_of_le_of_lt ?_ h2
  rw [show pow2 53 = ((2 ^ 53 : Nat) : Rat) from pow2_nat 53]
  exact_mod_cast h

theorem round_close {x y : Rat} (hx : 0 ≤ x) (h : round x = some y) :
    0 ≤ y ∧ |y - x| ≤ x * pow2 (-53) + pow2 (-1075) := by
  rw [(round_some h).1]
  exact ⟨val_nonneg hx, val_close hx⟩

theorem round_finite {x : Rat} (hx : 0 ≤ x) (h : x ≤ pow2 53 * pow2 53) : ∃ y, round x = some y := by
  refine ⟨_, round_of_lt ?_⟩
  have h1 := val_close hx
  rw [abs_le] at h1
  have h2 : x * pow2 (-53) ≤ pow2 53 * pow2 53 * pow2 (-53) := mul_le_mul_of_nonneg_right h (pow2_pos _).le
  have h3 : pow2 53 * pow2 53 + pow2 53 * pow2 53 * pow2 (-53) + pow2 (-1075) < pow2 1024 := by decide +kernel
  linarith [h1.2]

/-- Integers round to integers. -/
theorem val_natural (n : Nat) : ∃ m : Nat, val (n : Rat) = m := by
  by_cases hp : place (n : Rat) ≤ 0
  · obtain ⟨m, hm⟩ := nat_multiple n hp
    exact ⟨n, val_exact hm⟩
  · obtain ⟨j, hj⟩ := Int.eq_ofNat_of_zero_le (show 0 ≤ place (n : Rat) by omega)
    have h0 := val_nonneg (x := (n : Rat)) (by positivity)
    have hz : (0 : Int) ≤ nearest ((n : Rat) / pow2 (place n)) :=
      le_nearest (by rw [Int.cast_zero]; exact div_nonneg (by positivity) (pow2_pos _).le)
    refine ⟨(nearest ((n : Rat) / pow2 (place n))).toNat * 2 ^ j, ?_⟩
    unfold val
    have : (((nearest ((n : Rat) / pow2 (place n))).toNat : Int) : Rat) = (nearest ((n : Rat) / pow2 (place n)) : Rat) := by
      rw [Int.toNat_of_nonneg hz]
    have h2 : pow2 (place (n : Rat)) = ((2 ^ j : Nat) : Rat) := by rw [hj, pow2_nat]
    rw [Nat.cast_mul, ← h2, ← this, Int.cast_natCast]

/-- Large numbers stay large. -/
theorem val_large {x : Rat} (hx : pow2 53 ≤ x) : pow2 53 ≤ val x := by
  have hpos : 0 < x := lt_of_lt_of_le (pow2_pos 53) hx
  obtain ⟨e1, e2⟩ := expo_spec hpos
  have h1 : 53 < expo x + 1 := pow2_lt (lt_of_le_of_lt hx e2)
  have hpl : place x = expo x - 52 := by unfold place; omega
  unfold val
  rw [hpl]
  have h2 : ((2 ^ 52 : Int) : Rat) ≤ x / pow2 (expo x - 52) := by
    rw [le_div_iff₀ (pow2_pos _)]
    have h3 : ((2 ^ 52 : Int) : Rat) = pow2 52 := by decide +kernel
    rw [h3, ← pow2_add]
    have : (52 : Int) + (expo x - 52) = expo x := by omega
    rw [this]; exact e1
  have h4 := le_nearest h2
  have h5 : (pow2 52 : Rat) ≤ (nearest (x / pow2 (expo x - 52)) : Rat) := by
    have h3 : ((2 ^ 52 : Int) : Rat) = pow2 52 := by decide +kernel
    rw [← h3]; exact_mod_cast h4
  calc pow2 53 ≤ pow2 (52 + (expo x - 52)) := pow2_mono (by omega)
    _ = pow2 52 * pow2 (expo x - 52) := pow2_add _ _
    _ ≤ _ := mul_le_mul_of_nonneg_right h5 (pow2_pos _).le

end Verif.F64
