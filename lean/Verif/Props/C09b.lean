import Verif.Props.C30b
import Verif.Props.C09
/-!
# C09, C32, C37, C43: clocks, bounds, tables and trailing blanks

The constants, sums and tables that the statements of other theorems use, stated literally.
-/
namespace Ginga

/-- Times are 64-bit numbers of nanoseconds: sums and differences are exact unless they leave that range, and the largest number is no time. -/
theorem C09_clock (a b : Nat) : SECOND = 1000000000 ∧ NONE = 18446744073709551615 ∧
    (a + b < 18446744073709551616 → tadd a b = a + b) ∧ (b ≤ a → a < 18446744073709551616 → tsub a b = a - b) := by
  refine ⟨rfl, rfl, fun h => ?_, fun h h' => ?_⟩
  · unfold tadd; exact Nat.mod_eq_of_lt (by simpa using h)
  · unfold tsub
    rw [show 2 ^ 64 + a - b = (a - b) + 2 ^ 64 by omega, Nat.add_mod_right]
    exact Nat.mod_eq_of_lt (by omega)

/-- Whole numbers of 32 bits. -/
theorem C37_int (x : Int) : INTMAX = 2147483647 ∧ (int32 x = .ok x ↔ -2147483648 ≤ x ∧ x ≤ 2147483647) ∧ (int32 x = .ok x ∨ int32 x = .ub) := by
  refine ⟨by decide, ?_, ?_⟩
  · by_cases h : -(2 ^ 31 : Int) ≤ x ∧ x < 2 ^ 31
    · unfold int32
      rw [if_pos h]
      exact Iff.intro (fun _ => And.intro (by omega) (by omega)) (fun _ => rfl)
    · unfold int32
      rw [if_neg h]
      exact Iff.intro (fun hc => nomatch hc) (fun hc => absurd (And.intro (by omega) (by omega)) h)
  · by_cases h : -(2 ^ 31 : Int) ≤ x ∧ x < 2 ^ 31
    · exact .inl (by unfold int32; rw [if_pos h])
    · exact .inr (by unfold int32; rw [if_neg h])

/-- A table gives a name the value of its first entry. -/
theorem C43_lookup (k v : String) (l : List (String × String)) : mget k l = some v ↔ ∃ a b, l = a ++ (k, v) :: b ∧ ∀ p ∈ a, p.1 ≠ k := by
  induction l with
  | nil => simp [mget]
  | cons p l ih =>
    obtain ⟨k', v'⟩ := p
    unfold mget
    by_cases h : k = k'
    · subst h
      rw [if_pos rfl]
      constructor
      · intro h; cases h; exact ⟨[], l, rfl, fun p hp => by cases hp⟩
      · rintro ⟨a, b, h1, h2⟩
        cases a with
        | nil => cases h1; rfl
        | cons q a => cases h1; exact absurd rfl (h2 (k, v') (by simp))
    · rw [if_neg h, ih]
      constructor
      · rintro ⟨a, b, h1, h2⟩
        refine ⟨(k', v') :: a, b, by rw [h1]; rfl, fun p hp => ?_⟩
        rcases List.mem_cons.1 hp with rfl | hp
        · exact fun hc => h hc.symm
        · exact h2 p hp
      · rintro ⟨a, b, h1, h2⟩
        cases a with
        | nil => cases h1; exact absurd rfl h
        | cons q a => cases h1; exact ⟨a, b, rfl, fun p hp => h2 p (by simp [hp])⟩

/-- Setting an entry of a table: the name has that value and all others keep theirs. -/
theorem C43_store (k v : String) (l : List (String × String)) : mget k (mset k v l) = some v ∧ ∀ n, n ≠ k → mget n (mset k v l) = mget n l := by
  refine ⟨mget_mset_same k v l, fun n hn => ?_⟩
  induction l with
  | nil => simp [mset, mget, hn]
  | cons p l ih =>
    obtain ⟨k', v'⟩ := p
    unfold mset
    by_cases h : k = k'
    · subst h; rw [if_pos rfl]; simp [mget, hn]
    · rw [if_neg h]
      by_cases h2 : k < k'
      · rw [if_pos h2]; simp [mget, hn]
      · rw [if_neg h2]; simp only [mget]; rw [ih]

/-- What is left of a text when its trailing blanks are dropped. -/
theorem C32_trailing (s t : Str) : chomp s = t ↔ (∃ b, s = t ++ b ∧ ∀ c ∈ b, c ∈ [' ', '\t', '\n', '\x0c', '\r']) ∧ ∀ c, t.getLast? = some c → c ∉ [' ', '\t', '\n', '\x0c', '\r'] := by
  have hl : ∀ c, (s.reverse.dropWhile blank).head? = some c → blank c = false := fun c => dropWhile_head blank s.reverse c
  have hs : s = chomp s ++ (s.reverse.takeWhile blank).reverse := by
    unfold chomp
    rw [← List.reverse_append, List.takeWhile_append_dropWhile, List.reverse_reverse]
  have ht : ∀ c ∈ (s.reverse.takeWhile blank).reverse, blank c = true := by
    intro c hc
    rw [List.mem_reverse] at hc
    exact List.all_eq_true.1 (List.all_takeWhile (p := blank) (l := s.reverse)) c hc
  simp only [← C30_blank]
  constructor
  · rintro rfl
    refine ⟨⟨_, hs, ht⟩, fun c hc => ?_⟩
    unfold chomp at hc
    rw [List.getLast?_reverse] at hc
    rw [hl c hc]; decide
  · rintro ⟨⟨b, rfl, hb⟩, h⟩
    unfold chomp
    have hd : ∀ (l m : Str), (∀ c ∈ l, blank c = true) → (∀ c, m.head? = some c → ¬ blank c = true) → (l ++ m).dropWhile blank = m := by
      intro l m hl hm
      induction l with
      | nil =>
        cases m with
        | nil => rfl
        | cons c m => rw [List.nil_append, List.dropWhile_cons_of_neg (hm c rfl)]
      | cons c l ih => rw [List.cons_append, List.dropWhile_cons_of_pos (hl c (by simp)), ih fun d hd => hl d (by simp [hd])]
    rw [List.reverse_append, hd _ _ (fun c hc => hb c (List.mem_reverse.1 hc)) (fun c hc => h c (by rwa [List.head?_reverse] at hc)), List.reverse_reverse]

/-- How an event of an object is written in a reference: `object@anchor`, `object.property`, `object<key>`. -/
theorem C53_full_id (o : String) (e : REv) : fullIdOf o e = match e.typ with
    | .presentation => if e.id = "@lambda" then o ++ "@lambda" else o ++ "@" ++ e.id
    | .attribution => o ++ "." ++ e.id
    | .selection => o ++ "<" ++ e.id ++ ">"
    | .lookat => o ++ "<lookat>" := by
  have h : e.id.toList = "@lambda".toList ↔ e.id = "@lambda" := String.toList_inj
  unfold fullIdOf fullId
  cases e.typ <;> simp only [h]
  case presentation =>
    by_cases hl : e.id = "@lambda"
    · rw [if_pos hl, if_pos hl, hl, ← String.toList_inj]; simp
    · rw [if_neg hl, if_neg hl, ← String.toList_inj]; simp
  all_goals (rw [← String.toList_inj]; simp)

section Example
example : tadd (2 * SECOND) 5 = 2000000005 ∧ tsub 7 3 = 4 ∧ tadd NONE 1 = 0 := by decide +kernel
example : mget "b" [("a", "1"), ("b", "2"), ("b", "3")] = some "2" := by decide
example : chomp " a b \t".toList = " a b".toList := by decide +kernel
end Example

end Ginga
