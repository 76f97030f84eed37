import Verif.Proofs.Numbers
import Verif.Props.C29
/-! # C32: time strings -/
set_option linter.unusedSimpArgs false
namespace Ginga

theorem FP.int (F : FP) (m : Int) (h : m.natAbs ≤ 2 ^ 53) : F.rnd m = m := by
  have := F.exact m 0 h
  simpa using this

theorem FP.zero (F : FP) : F.rnd 0 = 0 := by
  have := F.int 0 (by decide)
  simpa using this

/-- Exact arithmetic is a rounding. -/
def exactFP : FP := ⟨id, fun _ _ h => h, fun _ _ _ => rfl⟩

theorem stops_nil : Stops [] := by intro c h; simp at h
theorem stops_of {c : Char} (t : Str) (h : isDigit c = false ∧ c ≠ '.' ∧ c ≠ 'e' ∧ c ≠ 'E') : Stops (c :: t) := by
  intro x hx; simp at hx; subst hx; exact h

/-- The conversion of a number of seconds to a time in nanoseconds: the product is truncated. -/
theorem toTime_spec (F : FP) (x : Rat) (t : Nat) (hx : 0 ≤ F.rnd (x * 1000000000)) (hb : F.rnd (x * 1000000000) < 2 ^ 64) :
    toTime F x = .ok t ↔ ((t : Rat) ≤ F.rnd (x * 1000000000) ∧ F.rnd (x * 1000000000) < t + 1) := by
  unfold toTime SECOND
  simp only [ge_iff_le]
  have hc : ((1000000000 : Nat) : Rat) = 1000000000 := rfl
  rw [hc]
  generalize F.rnd (x * 1000000000) = y at *
  rw [if_neg (by grind)]
  have hf : 0 ≤ y.floor := by
    rw [Rat.le_floor_iff]; simpa using hx
  have h1 := Rat.floor_le y
  have h2 := Rat.lt_floor_add_one y
  constructor
  · intro h
    cases h
    have : ((y.floor.toNat : Int) : Rat) = (y.floor : Rat) := by rw [Int.toNat_of_nonneg hf]
    rw [Rat.intCast_natCast] at this
    rw [this]
    refine ⟨h1, ?_⟩
    rw [Rat.intCast_add] at h2
    exact h2
  · intro ⟨h3, h4⟩
    have : y.floor = (t : Int) := by
      apply Int.le_antisymm
      · have : y.floor < (t : Int) + 1 := by
          rw [Rat.floor_lt_iff, Rat.intCast_add, Rat.intCast_natCast]; exact h4
        omega
      · rw [Rat.le_floor_iff, Rat.intCast_natCast]; exact h3
    rw [this]; rfl

/-- What is accepted: after trailing blanks are dropped, a number, a number and `s`, or three numbers
separated by colons (a number may be missing and is then zero); and the time is the value shown. -/
theorem C32_sound (F : FP) (s : Str) (t : Nat) (h : parseTime F s = .ok (some t)) :
    (∃ a x, Num a x ∧ (chomp s = a ∨ chomp s = a ++ ['s']) ∧ toTime F (F.rnd x) = .ok t) ∨
    (∃ a b c x y z, Num a x ∧ Num b y ∧ Num c z ∧ chomp s = a ++ ':' :: (b ++ ':' :: c) ∧
      toTime F (F.rnd (F.rnd (F.rnd (3600 * F.rnd x) + F.rnd (60 * F.rnd y)) + F.rnd z)) = .ok t) := by
  unfold parseTime at h
  dsimp only at h
  obtain ⟨a, x, hn, ha, hx⟩ := cstrtod_sound F (chomp s)
  have fin : ∀ y, (toTime F y).bind (fun t => .ok (some t)) = .ok (some t) → toTime F y = .ok t := by
    intro y hy
    cases ht : toTime F y with
    | ok u => rw [ht] at hy; simp at hy; rw [hy]
    | _ => rw [ht] at hy; simp at hy
  split at h
  · next he =>
    left
    refine ⟨a, x, hn, ?_, by rw [← hx]; exact fin _ h⟩
    rcases he with he | he
    · left; rw [he] at ha; simpa using ha
    · right; rw [he] at ha; exact ha
  · split at h
    · next r1 hr1 =>
      obtain ⟨b, y, hn2, hb, hy⟩ := cstrtod_sound F r1
      split at h
      · next r2 hr2 =>
        obtain ⟨c, z, hn3, hc, hz⟩ := cstrtod_sound F r2
        split at h
        · next hend =>
          right
          refine ⟨a, b, c, x, y, z, hn, hn2, hn3, ?_, ?_⟩
          · rw [ha, hr1, hb, hr2, hc, hend, List.append_nil]
          · rw [← hx, ← hy, ← hz]; exact fin _ h
        · cases h
      · cases h
    · cases h

/-- Conversely these strings are accepted with that time. -/
theorem C32_complete_seconds (F : FP) (s a : Str) (x : Rat) (hn : Num a x) (hs : chomp s = a ∨ chomp s = a ++ ['s'])
    (t : Nat) (ht : toTime F (F.rnd x) = .ok t) : parseTime F s = .ok (some t) := by
  unfold parseTime
  dsimp only
  rcases hs with hs | hs
  · have := cstrtod_num F a x hn [] stops_nil (by simp)
    simp only [List.append_nil] at this
    rw [hs, this]
    simp [ht]
  · have := cstrtod_num F a x hn ['s'] (stops_of _ (by decide)) (by intro _ c hc; simp at hc; subst hc; decide)
    rw [hs, this]
    simp [ht]

theorem C32_complete_hms (F : FP) (s a b c : Str) (x y z : Rat) (hx : Num a x) (hy : Num b y) (hz : Num c z)
    (hs : chomp s = a ++ ':' :: (b ++ ':' :: c)) (t : Nat)
    (ht : toTime F (F.rnd (F.rnd (F.rnd (3600 * F.rnd x) + F.rnd (60 * F.rnd y)) + F.rnd z)) = .ok t) :
    parseTime F s = .ok (some t) := by
  have e1 := cstrtod_num F a x hx (':' :: (b ++ ':' :: c)) (stops_of _ (by decide)) (by intro _ c hc; simp at hc; subst hc; decide)
  have e2 := cstrtod_num F b y hy (':' :: c) (stops_of _ (by decide)) (by intro _ c hc; simp at hc; subst hc; decide)
  have e3 := cstrtod_num F c z hz [] stops_nil (by simp)
  simp only [List.append_nil] at e3
  unfold parseTime
  simp only [hs, e1, e2, e3]
  simp [ht]

/-! ## Whole numbers -/

/-- The decimal notation of a whole number, as numeral. -/
def natNumeral (n : Nat) : Numeral := { ip := Nat.toDigits 10 n }

theorem isDigit_digitChar {n : Nat} (h : n < 10) : isDigit n.digitChar = true := by
  revert h; revert n; decide

theorem toDigits_isDigit (n : Nat) : ∀ c ∈ Nat.toDigits 10 n, isDigit c = true := by
  induction n using Nat.strongRecOn with
  | ind n ih =>
    intro c hc
    by_cases h : n < 10
    · rw [Nat.toDigits_of_lt_base h] at hc
      simp at hc; subst hc; exact isDigit_digitChar h
    · rw [Nat.toDigits_of_base_le (by decide) (by omega)] at hc
      rcases List.mem_append.1 hc with hc | hc
      · exact ih (n / 10) (by omega) c hc
      · simp at hc; subst hc; exact isDigit_digitChar (by omega)

theorem natNumeral_wf (n : Nat) : (natNumeral n).WF :=
  ⟨by simp [natNumeral], toDigits_isDigit n, by simp [natNumeral], .inl Nat.toDigits_ne_nil, by simp [natNumeral], by simp [natNumeral]⟩

theorem natNumeral_str (n : Nat) : (natNumeral n).str = Nat.toDigits 10 n := by
  simp [natNumeral, Numeral.str, sgnStr]

theorem natNumeral_val (n : Nat) : (natNumeral n).val = n := by
  simp [natNumeral, Numeral.val, Numeral.expv, Nat.ofDigitChars_ten_toDigits]

theorem num_nat (n : Nat) : Num (Nat.toDigits 10 n) n :=
  .inr ⟨natNumeral n, natNumeral_wf n, (natNumeral_str n).symm, (natNumeral_val n).symm⟩

theorem chomp_of_last {s : Str} {c : Char} (h : s.getLast? = some c) (hb : blank c = false) : chomp s = s := by
  obtain ⟨ys, rfl⟩ := List.getLast?_eq_some_iff.1 h
  simp [chomp, hb]

theorem digit_not_blank {c : Char} (h : isDigit c = true) : blank c = false := by
  have := (digit_facts h).1
  unfold cspace at this
  simp only [Bool.or_eq_false_iff] at this
  exact this.1

theorem toDigits_last (n : Nat) : ∃ c, (Nat.toDigits 10 n).getLast? = some c ∧ blank c = false := by
  cases h : (Nat.toDigits 10 n).getLast? with
  | none => rw [List.getLast?_eq_none_iff] at h; exact absurd h Nat.toDigits_ne_nil
  | some c => exact ⟨c, rfl, digit_not_blank (toDigits_isDigit n c (List.mem_of_getLast? h))⟩

theorem rnd_nat (F : FP) (n : Nat) (h : n ≤ 2 ^ 53) : F.rnd (n : Rat) = n := by
  have := F.int n (by simpa using h)
  simpa [Rat.intCast_natCast] using this

theorem toTime_nat (F : FP) (n : Nat) (h : n ≤ 4611686018) : toTime F n = .ok (n * 1000000000) := by
  have hr : F.rnd ((n : Rat) * 1000000000) = (n : Rat) * 1000000000 := by
    have := F.exact ((n * 1953125 : Nat) : Int) 9 (by simp only [Int.natAbs_natCast]; omega)
    rw [Rat.intCast_natCast, Rat.natCast_mul] at this
    have e : (n : Rat) * ((1953125 : Nat) : Rat) * 2 ^ 9 = (n : Rat) * 1000000000 := by
      have : ((1953125 : Nat) : Rat) = 1953125 := rfl
      rw [this]; grind
    rw [e] at this; exact this
  have hn : (n : Rat) ≤ 4611686018 := by
    have := Rat.natCast_le_natCast.2 h
    exact this
  have h0 : (0 : Rat) ≤ n := by exact Rat.natCast_nonneg
  rw [toTime_spec F n (n * 1000000000) (by rw [hr]; grind) (by rw [hr]; grind), hr, Rat.natCast_mul]
  have : ((1000000000 : Nat) : Rat) = 1000000000 := rfl
  rw [this]
  grind

/-- `"N"` and `"Ns"` are N seconds (up to 146 years, the range in which nanoseconds are exact). -/
theorem C32_seconds (F : FP) (n : Nat) (h : n ≤ 4611686018) :
    parseTime F (Nat.toDigits 10 n) = .ok (some (n * 1000000000)) ∧
    parseTime F (Nat.toDigits 10 n ++ ['s']) = .ok (some (n * 1000000000)) := by
  obtain ⟨c, hc, hb⟩ := toDigits_last n
  have hr := rnd_nat F n (by omega)
  refine ⟨C32_complete_seconds F _ _ n (num_nat n) (.inl (chomp_of_last hc hb)) _ (by rw [hr]; exact toTime_nat F n h),
    C32_complete_seconds F _ _ n (num_nat n) (.inr (chomp_of_last (c := 's') (by simp) (by decide))) _ (by rw [hr]; exact toTime_nat F n h)⟩

/-- `"h:m:s"` is 3600 h + 60 m + s seconds. -/
theorem C32_hms (F : FP) (h m s : Nat) (hb : 3600 * h + 60 * m + s ≤ 4611686018) :
    parseTime F (Nat.toDigits 10 h ++ ':' :: (Nat.toDigits 10 m ++ ':' :: Nat.toDigits 10 s)) =
      .ok (some ((3600 * h + 60 * m + s) * 1000000000)) := by
  obtain ⟨c, hc, hbl⟩ := toDigits_last s
  refine C32_complete_hms F _ _ _ _ h m s (num_nat h) (num_nat m) (num_nat s) (chomp_of_last (c := c) ?_ hbl) _ ?_
  · rw [List.getLast?_append]
    have : (':' :: (Nat.toDigits 10 m ++ ':' :: Nat.toDigits 10 s)).getLast? = some c := by
      rw [show (':' :: (Nat.toDigits 10 m ++ ':' :: Nat.toDigits 10 s)) = (':' :: Nat.toDigits 10 m ++ [':']) ++ Nat.toDigits 10 s by simp, List.getLast?_append, hc]; rfl
    rw [this]; rfl
  · have r1 := rnd_nat F h (by omega)
    have r2 := rnd_nat F m (by omega)
    have r3 := rnd_nat F s (by omega)
    have r4 := rnd_nat F (3600 * h) (by omega)
    have r5 := rnd_nat F (60 * m) (by omega)
    have r6 := rnd_nat F (3600 * h + 60 * m) (by omega)
    have r7 := rnd_nat F (3600 * h + 60 * m + s) (by omega)
    simp only [Rat.natCast_add, Rat.natCast_mul] at r4 r5 r6 r7
    have k1 : ((3600 : Nat) : Rat) = 3600 := rfl
    have k2 : ((60 : Nat) : Rat) = 60 := rfl
    rw [k1] at r4 r6 r7
    rw [k2] at r5 r6 r7
    rw [r1, r2, r3, r4, r5, r6, r7]
    have := toTime_nat F (3600 * h + 60 * m + s) hb
    simp only [Rat.natCast_add, Rat.natCast_mul, k1, k2] at this
    exact this

/-- The empty string is zero. -/
theorem C32_empty (F : FP) : parseTime F [] = .ok (some 0) := by
  refine C32_complete_seconds F [] [] 0 (.inl ⟨rfl, rfl⟩) (.inl rfl) 0 ?_
  have := toTime_nat F 0 (by decide)
  rw [F.zero]
  simpa using this

/-- A whole number followed by anything but blanks, `s` or `:` is rejected. -/
theorem C32_garbage (F : FP) (n : Nat) (c : Char) (t : Str) (hc : isDigit c = false ∧ c ≠ '.' ∧ c ≠ 'e' ∧ c ≠ 'E')
    (hc2 : c ≠ ':') (hs : c :: t ≠ ['s']) (hl : ∀ x, (c :: t).getLast? = some x → blank x = false) :
    parseTime F (Nat.toDigits 10 n ++ c :: t) = .ok none := by
  have hch : chomp (Nat.toDigits 10 n ++ c :: t) = Nat.toDigits 10 n ++ c :: t := by
    cases hg : (c :: t).getLast? with
    | none => simp at hg
    | some x =>
      refine chomp_of_last (c := x) ?_ (hl x hg)
      rw [List.getLast?_append, hg]; rfl
  have e1 := cstrtod_num F _ _ (num_nat n) (c :: t) (stops_of _ hc) (fun h => absurd h Nat.toDigits_ne_nil)
  unfold parseTime
  simp only [hch, e1]
  rw [if_neg (by simp; simpa using hs)]
  split
  · next h => simp at h; exact absurd h.1 hc2
  · rfl

/-- A string without digits that is not blank, `s` or colons only is rejected: e.g. "abc". -/
example : parseTime exactFP "abc".toList = .ok none := by decide +kernel
example : parseTime exactFP "1.5s ".toList = .ok (some 1500000000) := by decide +kernel
example : parseTime exactFP "01:02:03".toList = .ok (some 3723000000000) := by decide +kernel
example : parseTime exactFP "1s2".toList = .ok none := by decide +kernel
example : parseTime exactFP "1:2".toList = .ok none := by decide +kernel

/-- A negative time is not rejected: its conversion is undefined. -/
theorem C32_fails_negative : parseTime exactFP "-5s".toList = .ub := by decide +kernel

end Ginga
