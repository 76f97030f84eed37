import Verif.Props.C79
import Verif.Props.C43
/-!
# C79, C53, C45: the words of the language

What comparators, references and names are, stated without the tables and functions of the parser that the other theorems share with their statements.
-/
namespace Ginga

/-- A comparator says of two strings what its name says. -/
theorem C79_comparator (a b : String) :
    (((testOf "eq").getD .ne).holds a b ↔ a = b) ∧ (((testOf "ne").getD .eq).holds a b ↔ a ≠ b) ∧
    (((testOf "lt").getD .eq).holds a b ↔ a < b) ∧ (((testOf "lte").getD .eq).holds a b ↔ a < b ∨ a = b) ∧
    (((testOf "gt").getD .eq).holds a b ↔ b < a) ∧ (((testOf "gte").getD .eq).holds a b ↔ b < a ∨ b = a) := by
  refine ⟨Iff.rfl, Iff.rfl, Iff.rfl, Iff.rfl, Iff.rfl, ?_⟩
  exact or_congr_right eq_comm

/-- A reference to a role tested stands for the property bound; everything else stands for itself. -/
theorem C53_reference (tr : List (String × String)) : (∀ name, solveRef tr ("$" ++ name) = match mget name tr with | some v => v | none => "$" ++ name) ∧
    ∀ v, (∀ name, v ≠ "$" ++ name) → solveRef tr v = v := by
  refine ⟨fun name => ?_, fun v h => ?_⟩
  · unfold solveRef
    rw [mk_dollar]
    simp only [String.ofList_toList]
    cases mget name tr <;> rfl
  · unfold solveRef
    split
    · rename_i name hn
      exact absurd (by rw [← String.toList_inj, hn, mk_dollar, String.toList_ofList]) (h (String.ofList name))
    · rfl

/-- A name is made of letters and digits (of ASCII) and of `-`, `_`, `:`, `.` and `#`. -/
theorem C45_name (s : String) : validName s = true ↔ ∀ c ∈ s.toList,
    c ∈ "abcdefghijklmnopqrstuvwxyzABCDEFGHIJKLMNOPQRSTUVWXYZ0123456789-_:.#".toList := by
  have hr : ∀ (lo hi : Nat) (l : List Char), (∀ n, lo ≤ n → n ≤ hi → ∃ c ∈ l, c.toNat = n) → ∀ c : Char, lo ≤ c.toNat → c.toNat ≤ hi → c ∈ l := by
    intro lo hi l h c h1 h2
    obtain ⟨c', h3, h4⟩ := h c.toNat h1 h2
    rwa [show c = c' from Char.ext (UInt32.toNat_inj.1 h4.symm)]
  have hb : ∀ (lo hi : Nat) (l : List Char), ((List.range (hi - lo + 1)).all fun i => l.any fun c => c.toNat == lo + i) = true → ∀ n, lo ≤ n → n ≤ hi → ∃ c ∈ l, c.toNat = n := by
    intro lo hi l h n h1 h2
    rw [List.all_eq_true] at h
    have := h (n - lo) (List.mem_range.2 (by omega))
    rw [List.any_eq_true] at this
    obtain ⟨c, h3, h4⟩ := this
    exact ⟨c, h3, by have := beq_iff_eq.1 h4; omega⟩
  unfold validName
  rw [List.all_eq_true]
  refine forall_congr' fun c => imp_congr_right fun _ => ?_
  constructor
  · intro h
    simp only [Bool.or_eq_true, beq_iff_eq, isAlnum, Bool.and_eq_true, decide_eq_true_eq] at h
    rcases h with ((((((h | h) | h) | h) | h) | h) | h) | h
    · exact hr 97 122 _ (hb 97 122 _ (by decide +kernel)) c h.1 h.2
    · exact hr 65 90 _ (hb 65 90 _ (by decide +kernel)) c h.1 h.2
    · exact hr 48 57 _ (hb 48 57 _ (by decide +kernel)) c h.1 h.2
    all_goals (subst h; decide +kernel)
  · intro h
    have key : ∀ c ∈ "abcdefghijklmnopqrstuvwxyzABCDEFGHIJKLMNOPQRSTUVWXYZ0123456789-_:.#".toList,
      (isAlnum c || c == '-' || c == '_' || c == ':' || c == '.' || c == '#') = true := by decide +kernel
    exact key c h

end Ginga
