import Mathlib.Data.Int.Log
import Mathlib.Data.Rat.Floor
import Mathlib.Algebra.Order.Round
import Mathlib.Algebra.Order.Field.Power
import Mathlib.Tactic.Linarith
import Mathlib.Tactic.FieldSimp
import Mathlib.Tactic.Ring
import Mathlib.Tactic.NormNum
import Verif.Props.C33
/-! # Round-to-nearest-even with 53 bits is an instance of `FP`

Exponents are unbounded (neither overflow nor subnormal numbers are modelled). -/
set_option linter.unusedSimpArgs false
namespace Ginga

/-- Nearest integer, halves to even. -/
noncomputable def roundEven (y : ℚ) : ℤ :=
  if Int.fract y = 1 / 2 then (if Even ⌊y⌋ then ⌊y⌋ else ⌊y⌋ + 1) else round y

/-- Numbers with at most 53 significant bits. -/
def Rep (s : ℚ) : Prop := ∃ (m k : ℤ), |m| ≤ 2 ^ 53 ∧ s = m * 2 ^ k

/-- IEEE 754 round to nearest even, 53 bits. -/
noncomputable def rne (x : ℚ) : ℚ := roundEven (x / 2 ^ (Int.log 2 |x| - 52)) * 2 ^ (Int.log 2 |x| - 52)

theorem roundEven_nearest (y : ℚ) (z : ℤ) : |y - roundEven y| ≤ |y - z| := by
  unfold roundEven
  split
  · next h =>
    have hf := Int.floor_add_fract y
    have key : ∀ z : ℤ, (1 : ℚ) / 2 ≤ |y - z| := by
      intro z
      rcases le_or_gt z ⌊y⌋ with hz | hz
      · have : (z : ℚ) ≤ ⌊y⌋ := by exact_mod_cast hz
        rw [abs_of_nonneg] <;> linarith
      · have : (⌊y⌋ : ℚ) + 1 ≤ z := by exact_mod_cast hz
        rw [abs_of_nonpos] <;> linarith
    have : |y - ((if Even ⌊y⌋ then ⌊y⌋ else ⌊y⌋ + 1 : ℤ) : ℚ)| = 1 / 2 := by
      split
      · rw [abs_of_nonneg] <;> linarith
      · push_cast
        rw [abs_of_nonpos] <;> linarith
    rw [this]; exact key z
  · exact round_le y z

theorem log_bounds {x : ℚ} (hx : x ≠ 0) : (2 : ℚ) ^ Int.log 2 |x| ≤ |x| ∧ |x| < 2 ^ (Int.log 2 |x| + 1) := by
  have h1 := Int.zpow_log_le_self (b := 2) (R := ℚ) (by norm_num) (abs_pos.2 hx)
  have h2 := Int.lt_zpow_succ_log_self (b := 2) (R := ℚ) (by norm_num) |x|
  exact ⟨by exact_mod_cast h1, by exact_mod_cast h2⟩

/-- Nearest among the multiples of the unit in the last place. -/
theorem rne_mult (x : ℚ) (j : ℤ) : |x - rne x| ≤ |x - j * 2 ^ (Int.log 2 |x| - 52)| := by
  unfold rne
  generalize hu : (2 : ℚ) ^ (Int.log 2 |x| - 52) = u
  have hu0 : 0 < u := by rw [← hu]; positivity
  have := roundEven_nearest (x / u) j
  have e : ∀ z : ℤ, |x - z * u| = |x / u - z| * u := by
    intro z
    rw [← abs_of_pos hu0, ← abs_mul, abs_of_pos hu0]
    congr 1
    field_simp
  rw [e, e]
  exact mul_le_mul_of_nonneg_right this hu0.le

/-- Nearest among all numbers with 53 bits. -/
theorem rne_nearest (x s : ℚ) (hs : Rep s) : |x - rne x| ≤ |x - s| := by
  by_cases hx : x = 0
  · subst hx
    have := rne_mult 0 0
    simp at this
    simp [this]
  obtain ⟨m, k, hm, rfl⟩ := hs
  obtain ⟨l1, l2⟩ := log_bounds hx
  generalize he : Int.log 2 |x| = e at *
  have mult : ∀ j : ℤ, |x - rne x| ≤ |x - j * 2 ^ (e - 52)| := by
    intro j; have := rne_mult x j; rw [he] at this; exact this
  -- multiples of 2^e
  have mult2 : ∀ j : ℤ, |x - rne x| ≤ |x - j * 2 ^ e| := by
    intro j
    have := mult (j * 2 ^ 52)
    have e2 : ((j * 2 ^ 52 : ℤ) : ℚ) * 2 ^ (e - 52) = j * 2 ^ e := by
      rw [Int.cast_mul, mul_assoc]
      congr 1
      rw [zpow_sub₀ (by norm_num)]
      norm_num
      field_simp
    rw [e2] at this; exact this
  have hmq : |(m : ℚ)| ≤ 2 ^ 53 := by exact_mod_cast hm
  rcases le_or_gt (e - 52) k with hk | hk
  · -- a multiple of the unit
    obtain ⟨d, hd⟩ := Int.le.dest hk
    have := mult (m * 2 ^ d)
    have e2 : ((m * 2 ^ d : ℤ) : ℚ) * 2 ^ (e - 52) = m * 2 ^ k := by
      push_cast
      rw [mul_assoc]
      congr 1
      rw [← zpow_natCast, ← zpow_add₀ (by norm_num)]
      congr 1
      omega
    rw [e2] at this; exact this
  · -- |s| ≤ 2^e
    have hs : |(m : ℚ) * 2 ^ k| ≤ 2 ^ e := by
      rw [abs_mul, abs_of_pos (by positivity : (0 : ℚ) < 2 ^ k)]
      calc |(m : ℚ)| * 2 ^ k ≤ 2 ^ 53 * 2 ^ (e - 53) := by
            apply mul_le_mul hmq _ (by positivity) (by positivity)
            exact zpow_le_zpow_right₀ (by norm_num) (by omega)
        _ = 2 ^ e := by
            rw [zpow_sub₀ (by norm_num)]
            norm_num
            ring
    generalize (m : ℚ) * 2 ^ k = s at *
    obtain ⟨s1, s2⟩ := abs_le.1 hs
    rcases lt_or_gt_of_ne hx with hneg | hpos
    · have h1 := mult2 (-1)
      rw [abs_of_neg hneg] at l1
      push_cast at h1
      have a1 : |x - -1 * 2 ^ e| = -(x - -1 * 2 ^ e) := abs_of_nonpos (by linarith)
      have a2 : |x - s| = -(x - s) := abs_of_nonpos (by linarith)
      rw [a1] at h1; rw [a2]; linarith
    · have h1 := mult2 1
      rw [abs_of_pos hpos] at l1
      push_cast at h1
      have a1 : |x - 1 * 2 ^ e| = x - 1 * 2 ^ e := abs_of_nonneg (by linarith)
      have a2 : |x - s| = x - s := abs_of_nonneg (by linarith)
      rw [a1] at h1; rw [a2]; linarith

theorem rne_rep (x : ℚ) : Rep (rne x) := by
  by_cases hx : x = 0
  · subst hx
    have := rne_mult 0 0
    simp at this
    exact ⟨0, 0, by norm_num, by simp [this]⟩
  obtain ⟨l1, l2⟩ := log_bounds hx
  refine ⟨roundEven (x / 2 ^ (Int.log 2 |x| - 52)), Int.log 2 |x| - 52, ?_, rfl⟩
  generalize hr : roundEven (x / 2 ^ (Int.log 2 |x| - 52)) = r
  generalize he : Int.log 2 |x| = e at *
  have hu0 : (0 : ℚ) < 2 ^ (e - 52) := by positivity
  have hy : |x / 2 ^ (e - 52)| < 2 ^ 53 := by
    rw [abs_div, abs_of_pos hu0, div_lt_iff₀ hu0]
    calc |x| < 2 ^ (e + 1) := l2
      _ = 2 ^ 53 * 2 ^ (e - 52) := by
        rw [zpow_sub₀ (by norm_num), zpow_add₀ (by norm_num)]
        norm_num
        ring
  generalize x / 2 ^ (e - 52) = y at *
  obtain ⟨y1, y2⟩ := abs_lt.1 hy
  have n1 := roundEven_nearest y (2 ^ 53)
  have n2 := roundEven_nearest y (-2 ^ 53)
  rw [hr] at n1 n2
  push_cast at n1 n2
  norm_num at y1 y2
  rw [abs_of_nonpos (by linarith : y - 9007199254740992 ≤ 0)] at n1
  rw [abs_of_nonneg (by linarith : (0 : ℚ) ≤ y - -9007199254740992)] at n2
  obtain ⟨a1, a2⟩ := abs_le.1 n1
  obtain ⟨b1, b2⟩ := abs_le.1 n2
  rw [abs_le]
  constructor
  · have : (-9007199254740992 : ℚ) ≤ r := by linarith
    exact_mod_cast this
  · have : (r : ℚ) ≤ 9007199254740992 := by linarith
    exact_mod_cast this

theorem rne_mono (x y : ℚ) (h : x ≤ y) : rne x ≤ rne y := by
  rcases eq_or_lt_of_le h with rfl | h
  · exact le_refl _
  by_contra hc
  push Not at hc
  have h1 := rne_nearest x (rne y) (rne_rep y)
  have h2 := rne_nearest y (rne x) (rne_rep x)
  generalize rne x = a at *
  generalize rne y = b at *
  rcases abs_cases (x - a) with ⟨e1, f1⟩ | ⟨e1, f1⟩ <;> rcases abs_cases (x - b) with ⟨e2, f2⟩ | ⟨e2, f2⟩ <;>
    rcases abs_cases (y - a) with ⟨e3, f3⟩ | ⟨e3, f3⟩ <;> rcases abs_cases (y - b) with ⟨e4, f4⟩ | ⟨e4, f4⟩ <;>
    rw [e1, e2] at h1 <;> rw [e3, e4] at h2 <;> linarith

theorem rne_exact {x : ℚ} (h : Rep x) : rne x = x := by
  have := rne_nearest x x h
  simp at this
  linarith [sub_eq_zero.1 this]

/-- IEEE doubles satisfy what the model assumes of rounding. -/
noncomputable def ieee : FP where
  rnd := rne
  mono := rne_mono
  exact m k h := by
    apply rne_exact
    refine ⟨m, k, ?_, by rw [zpow_natCast]⟩
    rw [Int.abs_eq_natAbs]
    exact_mod_cast h

theorem roundEven_eq {y : ℚ} {m : ℤ} (h : |y - m| < 1 / 2) : roundEven y = m := by
  have h1 := roundEven_nearest y m
  have h2 : |((roundEven y : ℤ) : ℚ) - m| < 1 := by
    have h3 := abs_add_le (roundEven y - y) (y - m)
    have e : ((roundEven y : ℤ) : ℚ) - y + (y - m) = roundEven y - m := by ring
    rw [e, abs_sub_comm] at h3
    rw [abs_sub_comm]
    rw [abs_sub_comm] at h1
    linarith
  have h3 : |roundEven y - m| < 1 := by exact_mod_cast h2
  have := Int.abs_lt_one_iff.1 h3
  omega

/-- A positive number with the leading bit `2^(k+52)` strictly closer to `m * 2^k` than half a unit is rounded to it. -/
theorem rne_eq {x : ℚ} (m k : ℤ) (h0 : (2 : ℚ) ^ (k + 52) ≤ x) (h1 : x < 2 ^ (k + 52 + 1)) (h : |x / 2 ^ k - m| < 1 / 2) :
    rne x = m * 2 ^ k := by
  have hx : 0 < x := lt_of_lt_of_le (by positivity) h0
  have hl : Int.log 2 |x| = k + 52 := by
    rw [abs_of_pos hx]
    apply le_antisymm
    · have := (Int.lt_zpow_iff_log_lt (b := 2) (x := k + 52 + 1) (by norm_num) hx).1 (by exact_mod_cast h1)
      omega
    · exact (Int.zpow_le_iff_le_log (b := 2) (by norm_num) hx).1 (by exact_mod_cast h0)
  unfold rne
  rw [hl, show k + 52 - 52 = k by ring, roundEven_eq h]

/-- With real `double`s, halves are not rounded correctly: 29% of 50 is 14.5, but 0.29 * 50 is computed as
14.499999999999998, so the result is 14, not 15 (the value in exact arithmetic). -/
theorem C33_fails_half : parsePercent ieee "29%".toList 50 0 100 = 14 ∧ parsePercent exactFP "29%".toList 50 0 100 = 15 := by
  refine ⟨?_, by decide +kernel⟩
  have h1 := orPercent_percent ieee (natNumeral 29) (natNumeral_wf 29) []
  have hs : (natNumeral 29).str ++ ['%'] = "29%".toList := by decide +kernel
  rw [hs, natNumeral_val] at h1
  have r0 : ieee.rnd ((29 : ℕ) : ℚ) = 29 := by
    have := rnd_nat ieee 29 (by norm_num)
    simpa using this
  have r1 : ieee.rnd (29 / 100) = (5224175567749775 : ℤ) * 2 ^ (-54 : ℤ) :=
    rne_eq _ _ (by norm_num) (by norm_num) (by norm_num [abs_lt])
  have r2 : ieee.rnd (((5224175567749775 : ℤ) : ℚ) * 2 ^ (-54 : ℤ) * ((50 : ℤ) : ℚ)) = (8162774324609023 : ℤ) * 2 ^ (-49 : ℤ) :=
    rne_eq _ _ (by norm_num) (by norm_num) (by norm_num [abs_lt])
  unfold parsePercent
  rw [h1]
  simp only [if_true]
  rw [r0, r1, r2]
  have e : lround (((8162774324609023 : ℤ) : ℚ) * 2 ^ (-49 : ℤ)) = 14 := by
    unfold lround
    rw [if_pos (by norm_num)]
    have : (((8162774324609023 : ℤ) : ℚ) * 2 ^ (-49 : ℤ) + 1 / 2) = 8444249301319679 / 562949953421312 := by norm_num
    rw [this]
    decide +kernel
  rw [e]
  decide

end Ginga
