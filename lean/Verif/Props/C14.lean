import Verif.Proofs.Witness
/-! # C14 — predicates have their boolean meaning

Full statement: evaluating a predicate yields its truth value `Pred.truth`.  It fails for
negations, which terminate the process (`C14_negation_aborts`); `C14_eval_partial` proves it for
predicates without negation. -/
namespace Ginga
open Ex

theorem allTrue_iff (v : String → String) (cs : List Pred) :
    Pred.allTrue v cs = true ↔ ∀ c ∈ cs, Pred.truth v c = true := by
  induction cs with
  | nil => simp [Pred.allTrue]
  | cons c cs ih => simp [Pred.allTrue, ih]

theorem anyTrue_iff (v : String → String) (cs : List Pred) :
    Pred.anyTrue v cs = true ↔ ∃ c ∈ cs, Pred.truth v c = true := by
  induction cs with
  | nil => simp [Pred.anyTrue]
  | cons c cs ih => simp [Pred.anyTrue, ih]

theorem evalTest_holds (t : Test) (a b : String) : evalTest t a b = decide (t.holds a b) := by
  have hle : ∀ x y : String, (!decide (x < y)) = decide (y < x ∨ y = x) := by
    intro x y
    rw [Bool.eq_iff_iff]
    simp only [Bool.not_eq_true', decide_eq_false_iff_not, String.not_lt]
    rw [decide_eq_true_iff]
    exact Std.le_iff_lt_or_eq (a := y) (b := x)
  have hdec : ∀ (p q : Prop) [Decidable p] [Decidable q], p = q → decide p = decide q := by
    intro p q _ _ h; subst h; congr
  cases t <;> simp only [evalTest, hle] <;> refine hdec _ _ ?_ <;> simp only [Test.holds]
  rw [@eq_comm String b a]

/-- The value of an operand: a reference denotes the current value of the property, any other
string itself. -/
theorem operand_eq (d : Doc) (s : St) (x : String) : operand d s x = deref d s x := by
  unfold operand
  split
  · rfl
  · next h =>
    unfold deref evalRef parseRef
    cases hx : x.toList with
    | nil => rfl
    | cons c cs =>
      rw [hx] at h
      simp only [List.head?_cons, Option.some.injEq] at h
      split
      · rfl
      · next id name he =>
        split at he
        · next heq => cases heq; exact absurd rfl h
        · cases he

mutual
theorem evalPred_sound (d : Doc) (s : St) : ∀ p b, evalPred d s p = .ok b →
    b = p.truth (deref d s)
  | .falsum, b, h => by simp only [evalPred, Res.ok.injEq] at h; simp [Pred.truth, ← h]
  | .verum, b, h => by simp only [evalPred, Res.ok.injEq] at h; simp [Pred.truth, ← h]
  | .atom l t r, b, h => by
    simp only [evalPred, Res.ok.injEq, evalTest_holds, operand_eq] at h
    simp [Pred.truth, ← h]
  | .neg cs, b, h => by simp [evalPred] at h
  | .conj cs, b, h => by
    simp only [evalPred] at h; simpa [Pred.truth] using evalConj_sound d s cs b h
  | .disj cs, b, h => by
    simp only [evalPred] at h; simpa [Pred.truth] using evalDisj_sound d s cs b h
theorem evalConj_sound (d : Doc) (s : St) : ∀ cs b, evalConj d s cs = .ok b →
    b = Pred.allTrue (deref d s) cs
  | [], b, h => by simp only [evalConj, Res.ok.injEq] at h; simp [Pred.allTrue, ← h]
  | p :: ps, b, h => by
    simp only [evalConj] at h
    cases hp : evalPred d s p with
    | ok x =>
      rw [hp, Res.bind_ok] at h
      have h1 := evalPred_sound d s p x hp
      cases x with
      | true => simp only [if_true] at h; have := evalConj_sound d s ps b h; simp [Pred.allTrue, ← h1, this]
      | false => simp at h; simp [Pred.allTrue, ← h1, h]
    | _ => rw [hp] at h; simp at h
theorem evalDisj_sound (d : Doc) (s : St) : ∀ cs b, evalDisj d s cs = .ok b →
    b = Pred.anyTrue (deref d s) cs
  | [], b, h => by simp only [evalDisj, Res.ok.injEq] at h; simp [Pred.anyTrue, ← h]
  | p :: ps, b, h => by
    simp only [evalDisj] at h
    cases hp : evalPred d s p with
    | ok x =>
      rw [hp, Res.bind_ok] at h
      have h1 := evalPred_sound d s p x hp
      cases x with
      | false => simp at h; have := evalDisj_sound d s ps b h; simp [Pred.anyTrue, ← h1, this]
      | true => simp at h; simp [Pred.anyTrue, ← h1, ← h]
    | _ => rw [hp] at h; simp at h
end

mutual
theorem evalPred_total (d : Doc) (s : St) : ∀ p, p.NegFree → ∃ b, evalPred d s p = .ok b
  | .falsum, _ => ⟨_, rfl⟩
  | .verum, _ => ⟨_, rfl⟩
  | .atom _ _ _, _ => ⟨_, rfl⟩
  | .neg _, h => by cases h
  | .conj cs, h => by
    cases h with | conj h => simp only [evalPred]; exact evalConj_total d s cs h
  | .disj cs, h => by
    cases h with | disj h => simp only [evalPred]; exact evalDisj_total d s cs h
theorem evalConj_total (d : Doc) (s : St) : ∀ cs : List Pred, (∀ c ∈ cs, c.NegFree) →
    ∃ b, evalConj d s cs = .ok b
  | [], _ => ⟨_, rfl⟩
  | p :: ps, h => by
    obtain ⟨b, hb⟩ := evalPred_total d s p (h p (by simp))
    simp only [evalConj, hb, Res.bind_ok]
    cases b
    · exact ⟨_, rfl⟩
    · exact evalConj_total d s ps (fun c hc => h c (by simp [hc]))
theorem evalDisj_total (d : Doc) (s : St) : ∀ cs : List Pred, (∀ c ∈ cs, c.NegFree) →
    ∃ b, evalDisj d s cs = .ok b
  | [], _ => ⟨_, rfl⟩
  | p :: ps, h => by
    obtain ⟨b, hb⟩ := evalPred_total d s p (h p (by simp))
    simp only [evalDisj, hb, Res.bind_ok]
    cases b
    · exact evalDisj_total d s ps (fun c hc => h c (by simp [hc]))
    · exact ⟨_, rfl⟩
end

/-- **C14**, soundness: for every predicate, document and state, if the evaluation returns at all
it returns the boolean meaning of the predicate over the current property values. -/
theorem C14_sound_partial (d : Doc) (s : St) (p : Pred) (b : Bool) (h : evalPred d s p = .ok b) :
    b = p.truth (deref d s) := evalPred_sound d s p b h

/-- **C14** for predicates without negation: the evaluation always returns the boolean meaning. -/
theorem C14_eval_partial (d : Doc) (s : St) (p : Pred) (h : p.NegFree) :
    evalPred d s p = .ok (p.truth (deref d s)) := by
  obtain ⟨b, hb⟩ := evalPred_total d s p h
  rw [hb, evalPred_sound d s p b hb]

/-- Meaning of conjunction, disjunction and negation in `Pred.truth`, to read the above. -/
theorem C14_truth_meaning (v : String → String) (cs : List Pred) (p : Pred) :
    ((Pred.conj cs).truth v = true ↔ ∀ c ∈ cs, c.truth v = true) ∧
    ((Pred.disj cs).truth v = true ↔ ∃ c ∈ cs, c.truth v = true) ∧
    ((Pred.neg [p]).truth v = !p.truth v) := by
  refine ⟨?_, ?_, ?_⟩
  · simp [Pred.truth, allTrue_iff]
  · simp [Pred.truth, anyTrue_iff]
  · simp [Pred.truth, Pred.allTrue]

/-- **C14 fails for negations**: evaluating any negation terminates the process, whatever the
child and the state. -/
theorem C14_negation_aborts (d : Doc) (s : St) (cs : List Pred) :
    evalPred d s (.neg cs) = .abort := rfl

/-! Non-vacuity: a nested negation-free predicate with both outcomes. -/
def predEx : Pred := .conj [.disj [.falsum, .atom "$a.explicitDur" .eq "2s"], .atom "x" .lt "y"]
theorem predEx_negFree : predEx.NegFree := by
  refine .conj fun c hc => ?_
  simp at hc; rcases hc with rfl | rfl
  · refine .disj fun c hc => ?_
    simp at hc; rcases hc with rfl | rfl <;> constructor
  · constructor
example : evalPred twoMedias (twoMedias.init "") predEx = .ok true := by decide +kernel
example : evalPred switchDoc (switchDoc.init "") predEx = .ok false := by decide +kernel

end Ginga
