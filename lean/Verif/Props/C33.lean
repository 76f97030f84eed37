import Verif.Props.C32
/-! # C33, C34: percent values and integer conversions -/
set_option linter.unusedSimpArgs false
namespace Ginga

/-! ## C34: integers -/

/-- A decimal integer as C reads it: blanks, optional sign, digits, then anything that is not a digit. -/
def IntText (s : Str) (neg : Bool) (v : Nat) : Prop :=
  ∃ (lead : Str) (sg : Option Bool) (ds rest : Str), s = lead ++ (sgnStr sg ++ (ds ++ rest)) ∧
    (∀ c ∈ lead, cspace c = true) ∧ ds ≠ [] ∧ (∀ c ∈ ds, isDigit c = true) ∧
    (∀ c, rest.head? = some c → isDigit c = false) ∧ neg = decide (sg = some true) ∧ v = Nat.ofDigitChars 10 ds 0

theorem IntText.read {s : Str} {neg : Bool} {v : Nat} (h : IntText s neg v) :
    ∃ ds, ds ≠ [] ∧ (sign (s.dropWhile cspace)).1 = neg ∧
      (sign (s.dropWhile cspace)).2.takeWhile isDigit = ds ∧ digitsVal 0 ds = v := by
  obtain ⟨lead, sg, ds, rest, rfl, hl, hne, hd, hr, rfl, rfl⟩ := h
  refine ⟨ds, hne, ?_⟩
  have hbody : ∀ c, (ds ++ rest).head? = some c → cspace c = false ∧ c ≠ '-' ∧ c ≠ '+' := by
    intro c hc
    cases ds with
    | nil => exact absurd rfl hne
    | cons x t =>
      simp at hc; subst hc
      have := digit_facts (hd x (by simp))
      exact ⟨this.1, this.2.1, this.2.2.1⟩
  have hsgn : ∀ c, (sgnStr sg ++ (ds ++ rest)).head? = some c → cspace c = false := by
    intro c hc
    cases sg with
    | none => exact (hbody c hc).1
    | some b => cases b <;> (simp [sgnStr] at hc; subst hc; decide)
  have e1 := (takeWhile_append_stop cspace lead _ hl hsgn).2
  have e2 := sign_append sg (ds ++ rest) (fun c hc => (hbody c hc).2)
  have e3 := takeWhile_append_stop isDigit ds rest hd hr
  rw [e1, e2]
  exact ⟨rfl, e3.1, digitsVal_eq ds 0⟩

/-- The nearest number of an interval. -/
def nearest (x lo hi : Int) : Int := max lo (min x hi)

/-- The signed conversions return the value of every decimal string, or the nearest bound of the type. -/
theorem C34_signed (s : Str) (neg : Bool) (v : Nat) (h : IntText s neg v) (lo hi : Int)
    (h1 : -(2 ^ 63) ≤ lo) (h2 : hi ≤ 2 ^ 63 - 1) (h3 : lo ≤ hi) :
    xstrto lo hi s = .ok (nearest (if neg then -(v : Int) else v) lo hi) := by
  obtain ⟨ds, hne, e1, e2, e3⟩ := h.read
  unfold xstrto strtoll
  simp only [e1, e2, e3, if_neg hne, clamp, nearest]
  congr 1
  cases neg <;> simp only [if_true, if_false, Bool.false_eq_true] <;> repeat' split
  all_goals omega

/-- The unsigned ones do so for strings without a minus sign. -/
theorem C34_unsigned (s : Str) (v : Nat) (h : IntText s false v) (hi : Nat) (h2 : hi ≤ 2 ^ 64 - 1) :
    xstrtou hi s = .ok (min v hi) := by
  obtain ⟨ds, hne, e1, e2, e3⟩ := h.read
  unfold xstrtou strtoull
  simp only [e1, e2, e3, if_neg hne]
  congr 1
  simp only [if_false, Bool.false_eq_true]
  split <;> omega

/-- A string that holds no number ends the program. -/
theorem C34_no_number (s : Str) (h : ∀ neg v, ¬ IntText s neg v) (lo hi : Int) (hu : Nat) :
    xstrto lo hi s = .abort ∧ xstrtou hu s = .abort := by
  have : (sign (s.dropWhile cspace)).2.takeWhile isDigit = [] := by
    apply Decidable.byContradiction
    intro hne
    obtain ⟨l1, l2, -⟩ := takeWhile_spec cspace s
    obtain ⟨sg, s1, s2⟩ := sign_spec (s.dropWhile cspace)
    obtain ⟨d1, d2, d3⟩ := takeWhile_spec isDigit (sign (s.dropWhile cspace)).2
    exact h _ _ ⟨_, sg, _, _, by rw [← d1, ← s1, ← l1], l2, hne, d2, d3, rfl, rfl⟩
  unfold xstrto strtoll xstrtou strtoull
  simp [this]

/-- The bounds of the C types used: `int`, `gint8`, `gint64`, `guint`, `guint8`, `guint64`. -/
def xstrtoint := xstrto (-(2 ^ 31)) (2 ^ 31 - 1)
def xstrtoint8 := xstrto (-(2 ^ 7)) (2 ^ 7 - 1)
def xstrtoint64 := xstrto (-(2 ^ 63)) (2 ^ 63 - 1)
def xstrtouint := xstrtou (2 ^ 32 - 1)
def xstrtouint8 := xstrtou (2 ^ 8 - 1)
def xstrtouint64 := xstrtou (2 ^ 64 - 1)

theorem C34_types (s : Str) (neg : Bool) (v : Nat) (h : IntText s neg v) :
    xstrtoint s = .ok (nearest (if neg then -(v : Int) else v) (-(2 ^ 31)) (2 ^ 31 - 1)) ∧
    xstrtoint8 s = .ok (nearest (if neg then -(v : Int) else v) (-(2 ^ 7)) (2 ^ 7 - 1)) ∧
    xstrtoint64 s = .ok (nearest (if neg then -(v : Int) else v) (-(2 ^ 63)) (2 ^ 63 - 1)) ∧
    (neg = false → xstrtouint s = .ok (min v (2 ^ 32 - 1)) ∧ xstrtouint8 s = .ok (min v (2 ^ 8 - 1)) ∧
      xstrtouint64 s = .ok (min v (2 ^ 64 - 1))) := by
  refine ⟨C34_signed s neg v h _ _ (by decide) (by decide) (by decide), C34_signed s neg v h _ _ (by decide) (by decide) (by decide),
    C34_signed s neg v h _ _ (by decide) (by decide) (by decide), ?_⟩
  rintro rfl
  exact ⟨C34_unsigned s v h _ (by decide), C34_unsigned s v h _ (by decide), C34_unsigned s v h _ (by decide)⟩

example : IntText " -300".toList true 300 := ⟨[' '], some true, ['3', '0', '0'], [], rfl, by decide, by decide, by decide, by decide, rfl, rfl⟩
example : xstrtoint8 " -300".toList = .ok (-128) := by decide +kernel

/-- A negative number converted to an unsigned type gives the largest value, not the nearest bound 0. -/
theorem C34_fails_negative : xstrtouint8 "-5".toList = .ok 255 ∧ xstrtouint "-1".toList = .ok (2 ^ 32 - 1) := by
  decide +kernel

/-! ## C33: percents -/

theorem clamp_range (x lo hi : Int) (h : lo ≤ hi) : lo ≤ clamp x lo hi ∧ clamp x lo hi ≤ hi := by
  unfold clamp; repeat' split
  all_goals omega

theorem clamp_mono {x y : Int} (lo hi : Int) (h : x ≤ y) (hh : lo ≤ hi) : clamp x lo hi ≤ clamp y lo hi := by
  unfold clamp; repeat' split
  all_goals omega

/-- The result is always within the bounds. -/
theorem C33_range (F : FP) (s : Str) (base lo hi : Int) (h : lo ≤ hi) :
    lo ≤ parsePercent F s base lo hi ∧ parsePercent F s base lo hi ≤ hi := clamp_range _ _ _ h

/-- Pixel values are within 0..255, and the conversion to a byte loses nothing. -/
theorem C33_pixel (F : FP) (s : Str) :
    parsePixel F s ≤ 255 ∧ (parsePixel F s : Int) = parsePercent F s 255 0 255 := by
  have := C33_range F s 255 0 255 (by decide)
  unfold parsePixel
  omega

theorem lround_nearest (x : Rat) : x - 1 / 2 ≤ lround x ∧ (lround x : Rat) ≤ x + 1 / 2 := by
  unfold lround
  split
  · have h1 := Rat.floor_le (x + 1 / 2)
    have h2 := Rat.lt_floor_add_one (x + 1 / 2)
    rw [Rat.intCast_add] at h2
    have : ((1 : Int) : Rat) = 1 := rfl
    rw [this] at h2
    constructor <;> grind
  · have h1 := Rat.floor_le (-x + 1 / 2)
    have h2 := Rat.lt_floor_add_one (-x + 1 / 2)
    rw [Rat.intCast_add] at h2
    have : ((1 : Int) : Rat) = 1 := rfl
    rw [this] at h2
    rw [Rat.intCast_neg]
    constructor <;> grind

theorem lround_mono {x y : Rat} (h : x ≤ y) : lround x ≤ lround y := by
  have nonneg : ∀ z : Rat, 0 ≤ z → 0 ≤ (z + 1 / 2).floor := by
    intro z hz
    rw [Rat.le_floor_iff]
    have : ((0 : Int) : Rat) = 0 := rfl
    rw [this]; grind
  unfold lround
  split
  · rw [if_pos (by grind)]
    exact Rat.floor_monotone (by grind)
  · split
    · have h1 := nonneg (-x) (by grind)
      have h2 := nonneg y (by assumption)
      omega
    · have := Rat.floor_monotone (a := -y + 1 / 2) (b := -x + 1 / 2) (by grind)
      omega

theorem toInt32_of_range {x : Int} (h1 : -(2 ^ 31) ≤ x) (h2 : x < 2 ^ 31) : toInt32 x = x := by
  unfold toInt32; omega

/-- How a number or percent is read. -/
theorem orPercent_plain (F : FP) (n : Numeral) (hn : n.WF) (rest : Str) (hr : Stops rest) (hp : rest.head? ≠ some '%') :
    orPercent F (n.str ++ rest) = (false, F.rnd n.val) := by
  unfold orPercent cstrtod
  rw [strtod_numeral n hn rest hr]
  simp [hp]

theorem orPercent_percent (F : FP) (n : Numeral) (hn : n.WF) (rest : Str) :
    orPercent F (n.str ++ '%' :: rest) = (true, F.rnd (F.rnd n.val / 100)) := by
  unfold orPercent cstrtod
  rw [strtod_numeral n hn _ (stops_of _ (by decide))]
  simp

/-- In exact arithmetic `p%` is the integer nearest to p/100 of the base, clamped; a plain number is the nearest
integer, clamped.  (The result must fit an `int` before clamping.) -/
theorem C33_nearest (n : Numeral) (hn : n.WF) (rest : Str) (base lo hi : Int) :
    (-2147483648 ≤ n.val * base / 100 → n.val * base / 100 ≤ 2147483647 →
      ∃ r : Int, parsePercent exactFP (n.str ++ '%' :: rest) base lo hi = clamp r lo hi ∧
        n.val * base / 100 - 1 / 2 ≤ r ∧ r ≤ n.val * base / 100 + 1 / 2) ∧
    (Stops rest → rest.head? ≠ some '%' → -2147483648 ≤ n.val → n.val ≤ 2147483647 →
      ∃ r : Int, parsePercent exactFP (n.str ++ rest) base lo hi = clamp r lo hi ∧
        n.val - 1 / 2 ≤ r ∧ r ≤ n.val + 1 / 2) := by
  have fits : ∀ x : Rat, -2147483648 ≤ x → x ≤ 2147483647 → toInt32 (lround x) = lround x := by
    intro x h1 h2
    have a1 := lround_mono h1
    have a2 := lround_mono h2
    have e1 : lround (-2147483648) = -2147483648 := by decide +kernel
    have e2 : lround 2147483647 = 2147483647 := by decide +kernel
    rw [e1] at a1
    rw [e2] at a2
    exact toInt32_of_range (by omega) (by omega)
  constructor
  · intro h1 h2
    refine ⟨lround (n.val * base / 100), ?_, lround_nearest _⟩
    unfold parsePercent
    rw [orPercent_percent _ n hn]
    have : exactFP.rnd (exactFP.rnd (exactFP.rnd n.val / 100) * base) = n.val * base / 100 := by
      show n.val / 100 * base = _
      grind
    simp only [if_true, this, fits _ h1 h2]
  · intro hr hp h1 h2
    refine ⟨lround n.val, ?_, lround_nearest _⟩
    unfold parsePercent
    rw [orPercent_plain _ n hn rest hr hp]
    have : exactFP.rnd n.val = n.val := rfl
    simp only [this, if_false, Bool.false_eq_true, fits _ h1 h2]

/-- Monotone, whatever the rounding of `double`s: a larger numeral never gives a smaller result
(percents with a base that is not negative), as long as both fit an `int`. -/
theorem C33_monotone (F : FP) (m n : Numeral) (hm : m.WF) (hn : n.WF) (r1 r2 : Str) (base lo hi : Int)
    (hh : lo ≤ hi) (hmn : m.val ≤ n.val) :
    (0 ≤ base →
      -(2 ^ 31) ≤ lround (F.rnd (F.rnd (F.rnd m.val / 100) * base)) → lround (F.rnd (F.rnd (F.rnd n.val / 100) * base)) < 2 ^ 31 →
      parsePercent F (m.str ++ '%' :: r1) base lo hi ≤ parsePercent F (n.str ++ '%' :: r2) base lo hi) ∧
    (Stops r1 → Stops r2 → r1.head? ≠ some '%' → r2.head? ≠ some '%' →
      -(2 ^ 31) ≤ lround (F.rnd m.val) → lround (F.rnd n.val) < 2 ^ 31 →
      parsePercent F (m.str ++ r1) base lo hi ≤ parsePercent F (n.str ++ r2) base lo hi) := by
  constructor
  · intro hb h1 h2
    have hb' : (0 : Rat) ≤ base := by
      have := Rat.intCast_le_intCast.2 hb; exact this
    have a0 := F.mono _ _ hmn
    have a1 := F.mono (F.rnd m.val / 100) (F.rnd n.val / 100) (by grind)
    have a2 := F.mono _ _ (Rat.mul_le_mul_of_nonneg_right a1 hb')
    have a3 := lround_mono a2
    unfold parsePercent
    rw [orPercent_percent _ m hm, orPercent_percent _ n hn]
    simp only [if_true]
    rw [toInt32_of_range h1 (by omega), toInt32_of_range (by omega) h2]
    exact clamp_mono _ _ a3 hh
  · intro s1 s2 p1 p2 h1 h2
    have a3 := lround_mono (F.mono _ _ hmn)
    unfold parsePercent
    rw [orPercent_plain _ m hm r1 s1 p1, orPercent_plain _ n hn r2 s2 p2]
    simp only [if_false, Bool.false_eq_true]
    rw [toInt32_of_range h1 (by omega), toInt32_of_range (by omega) h2]
    exact clamp_mono _ _ a3 hh

example : parsePercent exactFP "12.5%".toList 1000 0 10000 = 125 := by decide +kernel
example : parsePercent exactFP "25%x".toList 10 0 100 = 3 := by decide +kernel
example : (⟨[], none, ['1', '2'], true, ['5'], none⟩ : Numeral).WF := by constructor <;> first | decide | simp

/-- Beyond the range of `int` the value wraps around before it is clamped: 4294967297 is read as 1. -/
theorem C33_fails_wrap : parsePercent exactFP "4294967297".toList 100 0 1000 = 1 := by decide +kernel

end Ginga
