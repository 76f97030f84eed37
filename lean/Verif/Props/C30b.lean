import Verif.Props.C79b
import Verif.Props.C32
import Verif.Props.C36
import Verif.Props.C67
/-!
# C30, C32, C36, C58, C61, C67: characters, prefixes and percentages

What blanks, digits, letters without case, prefixes, percentages and the names of wipes are, stated as tables of characters, so that the theorems
that use the functions of the library for them say what they seem to say.
-/
namespace Ginga

theorem char_ext {a b : Char} (h : a.toNat = b.toNat) : a = b := Char.ext (UInt32.toNat_inj.1 h)

/-- The blanks that are dropped around the items of a list: space, tab, newline, form feed, carriage return. -/
theorem C30_blank (c : Char) : blank c = true ↔ c ∈ [' ', '\t', '\n', '\x0c', '\r'] := by
  simp only [blank, Bool.or_eq_true, beq_iff_eq, List.mem_cons, List.not_mem_nil, or_false, or_assoc]

/-- The characters that are skipped before a number: the blanks and the vertical tab. -/
theorem C32_space (c : Char) : cspace c = true ↔ c ∈ [' ', '\t', '\n', '\x0c', '\r', '\x0b'] := by
  simp only [cspace, blank, Bool.or_eq_true, beq_iff_eq, List.mem_cons, List.not_mem_nil, or_false, or_assoc]

/-- A digit is one of ten characters, and its value is its place among them. -/
theorem C32_digit (c : Char) : (isDigit c = true ↔ c ∈ "0123456789".toList) ∧ ∀ i, "0123456789".toList[i]? = some c → digit c = i := by
  have hl : ∀ c ∈ "0123456789".toList, isDigit c = true := by decide +kernel
  have hv : (("0123456789".toList.zipIdx).all fun p => digit p.1 == p.2) = true := by decide +kernel
  have hk : ((List.range 10).all fun n => ("0123456789".toList).any fun d => d.toNat == 48 + n) = true := by decide +kernel
  refine ⟨⟨fun h => ?_, hl c⟩, fun i hi => ?_⟩
  · simp only [isDigit, Bool.and_eq_true, decide_eq_true_eq] at h
    have h1 : 48 ≤ c.toNat := h.1
    have h2 : c.toNat ≤ 57 := h.2
    rw [List.all_eq_true] at hk
    have := hk (c.toNat - 48) (List.mem_range.2 (by omega))
    rw [List.any_eq_true] at this
    obtain ⟨d, hd, he⟩ := this
    rw [beq_iff_eq] at he
    rwa [char_ext (a := c) (b := d) (by omega)]
  · rw [List.all_eq_true] at hv
    have := hv (c, i) (List.mk_mem_zipIdx_iff_getElem?.2 hi)
    simpa using this

/-- The capital letters and the small ones, in order. -/
def capitals : List Char := "ABCDEFGHIJKLMNOPQRSTUVWXYZ".toList
def smalls : List Char := "abcdefghijklmnopqrstuvwxyz".toList

/-- Two characters that differ at most in their case. -/
def SameLetter (a b : Char) : Prop := a = b ∨ (a, b) ∈ capitals.zip smalls ∨ (b, a) ∈ capitals.zip smalls

theorem lower_pair : ((capitals.zip smalls).all fun p => lower p.1 == p.2 && lower p.2 == p.2) = true := by decide +kernel

theorem lower_other (c : Char) : lower c = c ∨ (c, lower c) ∈ capitals.zip smalls := by
  have hk : ((List.range 26).all fun n => (capitals.zip smalls).any fun p => p.1.toNat == 65 + n && p.2 == lower p.1) = true := by decide +kernel
  by_cases h : 'A' ≤ c ∧ c ≤ 'Z'
  · have h1 : 65 ≤ c.toNat := h.1
    have h2 : c.toNat ≤ 90 := h.2
    rw [List.all_eq_true] at hk
    have := hk (c.toNat - 65) (List.mem_range.2 (by omega))
    rw [List.any_eq_true] at this
    obtain ⟨p, hp, he⟩ := this
    rw [Bool.and_eq_true, beq_iff_eq, beq_iff_eq] at he
    have : c = p.1 := char_ext (by omega)
    rw [this, ← he.2]
    exact .inr hp
  · exact .inl (by unfold lower; rw [if_neg h])

/-- The small letters are the images of different capitals. -/
theorem pair_inj : ((capitals.zip smalls).all fun p => (capitals.zip smalls).all fun q => !(p.2 == q.2) || p.1 == q.1) = true := by decide +kernel

theorem lower_same (a b : Char) : lower a = lower b ↔ SameLetter a b := by
  have hp := lower_pair
  have hi := pair_inj
  simp only [List.all_eq_true, Bool.and_eq_true, beq_iff_eq, Bool.or_eq_true, Bool.not_eq_true', beq_eq_false_iff_ne, ne_eq] at hp hi
  constructor
  · intro h
    rcases lower_other a with h1 | h1 <;> rcases lower_other b with h2 | h2
    · exact .inl (h1 ▸ h2 ▸ h)
    · rw [← h, h1] at h2; exact .inr (.inr h2)
    · rw [h, h2] at h1; exact .inr (.inl h1)
    · refine .inl ?_
      rcases hi _ h1 _ h2 with h3 | h3
      · exact absurd h h3
      · exact h3
  · rintro (rfl | h | h)
    · rfl
    · obtain ⟨h1, h2⟩ := hp _ h; simp only at h1 h2; rw [h1, h2]
    · obtain ⟨h1, h2⟩ := hp _ h; simp only at h1 h2; rw [h1, h2]

/-- Two strings are equal without case exactly if they have the same length and each character of one differs at most in its case from that of the other. -/
theorem C58_case (s t : Str) : caseEq s t = true ↔ s.length = t.length ∧ ∀ p ∈ s.zip t, SameLetter p.1 p.2 := by
  unfold caseEq
  rw [beq_iff_eq]
  induction s generalizing t with
  | nil => cases t <;> simp
  | cons a s ih =>
    cases t with
    | nil => simp
    | cons b t => simp [ih, lower_same]; tauto

/-- A prefix. -/
theorem C36_prefix (s p : Str) : hasPrefix s p = true ↔ ∃ t, s = p ++ t := by
  unfold hasPrefix
  rw [List.isPrefixOf_iff_prefix]
  exact ⟨fun ⟨t, h⟩ => ⟨t, h.symm⟩, fun ⟨t, h⟩ => ⟨t, h.symm⟩⟩

/-- The percentage written for the part `a` of `b` is that of the exact quotient whenever `double`s can hold it. -/
theorem C61_percent (E : PRead) (a b : Int) (h1 : E.F.rnd ((a : Rat) / b) = (a : Rat) / b) (h2 : E.F.rnd ((a : Rat) / b * 100) = (a : Rat) / b * 100) :
    percentText E a b = E.fmtG ((a : Rat) / b * 100) ++ "%" := by
  unfold percentText
  rw [h1, h2]

/-- Whole multiples are always exact. -/
theorem C61_percent_whole (E : PRead) (b q : Int) (hb : b ≠ 0) (hq : q.natAbs ≤ 2 ^ 46) : percentText E (q * b) b = E.fmtG ((q * 100 : Int) : Rat) ++ "%" := by
  have hd : ((q * b : Int) : Rat) / b = ((q : Int) : Rat) := by
    rw [Rat.intCast_mul, Rat.div_def, Rat.mul_assoc, Rat.mul_inv_cancel _ (by exact_mod_cast hb), Rat.mul_one]
  have hc : ((q : Int) : Rat) * 100 = ((q * 100 : Int) : Rat) := by rw [Rat.intCast_mul]; rfl
  unfold percentText
  rw [hd, E.F.int q (by omega), hc, E.F.int (q * 100) (by rw [Int.natAbs_mul]; simp; omega)]

/-- The names of the transitions that wipe. -/
theorem C67_names (name : String) : isWipe name = true ↔
    name ∈ ["barwipe:topToBottom", "barwipe:leftToRight", "diagonalwipe:topLeft:x", "diagonalwipe:topLeft:y"] := by
  simp only [isWipe, Bool.or_eq_true, beq_iff_eq, List.mem_cons, List.not_mem_nil, or_false, or_assoc]

section Example
/-- Every theorem above has concrete instances on both sides. -/
example : blank ' ' = true ∧ blank 'a' = false ∧ cspace '\x0b' = true ∧ blank '\x0b' = false := by decide
example : isDigit '7' = true ∧ digit '7' = 7 ∧ isDigit 'a' = false := by decide
example : caseEq "TrUe".toList "true".toList = true ∧ caseEq "t".toList "f".toList = false ∧ caseEq "[".toList "{".toList = false := by decide +kernel
example : hasPrefix "video/mp4".toList "video".toList = true ∧ hasPrefix "vid".toList "video".toList = false := by decide +kernel
end Example

end Ginga
