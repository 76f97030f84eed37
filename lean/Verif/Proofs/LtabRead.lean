import Verif.SpecLtab
import Verif.Proofs.PM
/-!
# Reading tables: the functions of the NCL-ltab parser that do not change the document
-/
namespace Ginga

/-- The function changes nothing, and its result satisfies `Q`. -/
def Reads {α : Type} (m : PM α) (Q : α → Prop) : Prop := ∀ s, PPost m (fun a t => t = s ∧ Q a) s

section
variable {α β : Type}
theorem Reads.pure {Q : α → Prop} {a : α} (h : Q a) : Reads (Pure.pure a : PM α) Q := fun _ => PPost.pure ⟨rfl, h⟩
theorem Reads.pure' {Q : α → Prop} {a : α} (h : Q a) : Reads (PM.pure a : PM α) Q := fun _ => PPost.pure ⟨rfl, h⟩
theorem Reads.err {Q : α → Prop} : Reads (PM.err : PM α) Q := fun _ => PPost.err
theorem Reads.abort {Q : α → Prop} : Reads (PM.abort : PM α) Q := fun _ => PPost.abort
theorem Reads.ub {Q : α → Prop} : Reads (PM.ub : PM α) Q := fun _ => PPost.ub
theorem Reads.bind {m : PM α} {f : α → PM β} {P : α → Prop} {Q : β → Prop} (h : Reads m P) (hf : ∀ a, P a → Reads (f a) Q) : Reads (m >>= f) Q := fun s =>
  PPost.bind ((h s).mono fun a t ht => by obtain ⟨rfl, hp⟩ := ht; exact hf a hp t)
theorem Reads.mono {m : PM α} {P Q : α → Prop} (h : Reads m P) (hpq : ∀ a, P a → Q a) : Reads m Q := fun s =>
  (h s).mono fun _ _ ht => ⟨ht.1, hpq _ ht.2⟩
theorem Reads.orErr (x : Option α) : Reads (PM.orErr x) fun a => x = some a := fun _ => PPost.orErr fun _ h => ⟨rfl, h⟩
theorem Reads.some! (x : Option α) : Reads (PM.some! x) fun a => x = some a := fun _ => PPost.some! fun _ h => ⟨rfl, h⟩
theorem Reads.res (x : Res α) : Reads (PM.res x) fun a => x = .ok a := fun _ => PPost.res fun _ h => ⟨rfl, h⟩

/-- Use in a sequence. -/
theorem Reads.seq {m : PM α} {f : α → PM β} {P : α → Prop} {Q : β → PS → Prop} {s : PS} (h : Reads m P) (hf : ∀ a, P a → PPost (f a) Q s) :
    PPost (m >>= f) Q s := PPost.bind ((h s).mono fun a t ht => by obtain ⟨rfl, hp⟩ := ht; exact hf a hp)
theorem Reads.seq' {m : PM α} {f : α → PM β} {P : α → Prop} {Q : β → PS → Prop} {s : PS} (h : Reads m P) (hf : ∀ a, P a → PPost (f a) Q s) :
    PPost (PM.bind m f) Q s := Reads.seq h hf
end

theorem reads_checkStr (v : LVal) : Reads (checkStr v) fun s => v.text = some s := Reads.orErr _

theorem reads_checkTable (v : LVal) : Reads (checkTable v) fun a => v = .tab a := by
  unfold checkTable
  split
  · exact Reads.pure' rfl
  · exact Reads.err

theorem reads_asTable (v : LVal) : Reads (asTable v) fun a => v = .tab a := by
  unfold asTable
  split
  · exact Reads.pure' rfl
  · exact Reads.ub

theorem reads_entries (H : LHeap) (v : LVal) : Reads (entries H v) fun l => l = H.pairs v ∧ l.map (·.2) = H.items v := by
  unfold entries LHeap.pairs LHeap.items
  split
  · exact Reads.pure' ⟨rfl, rfl⟩
  · exact Reads.pure' ⟨rfl, rfl⟩
  · exact Reads.ub

/-! ## Words -/

theorem lower_upper {c : Char} (h : 'A' ≤ c ∧ c ≤ 'Z') : 97 ≤ (lower c).toNat ∧ (lower c).toNat ≤ 122 := by
  have h1 : 65 ≤ c.toNat := h.1
  have h2 : c.toNat ≤ 90 := h.2
  have hv : (c.toNat + 32).isValidChar := by left; omega
  unfold lower
  rw [if_pos h]
  have : (Char.ofNat (c.toNat + 32)).toNat = c.toNat + 32 := by
    unfold Char.ofNat
    rw [dif_pos hv]
    rfl
  omega

/-- A character that is not a small letter is only the image of itself. -/
theorem lower_inv {c d : Char} (hd : ¬ (97 ≤ d.toNat ∧ d.toNat ≤ 122)) (h : lower c = d) : c = d := by
  by_cases hc : 'A' ≤ c ∧ c ≤ 'Z'
  · exact absurd (h ▸ lower_upper hc) hd
  · unfold lower at h
    rw [if_neg hc] at h
    exact h

theorem map_lower_inv : ∀ {s w : Str}, (∀ d ∈ w, ¬ (97 ≤ d.toNat ∧ d.toNat ≤ 122)) → s.map lower = w → s = w
  | [], [], _, _ => rfl
  | [], _ :: _, _, h => by cases h
  | _ :: _, [], _, h => by cases h
  | c :: s, d :: w, hw, h => by
    simp only [List.map_cons, List.cons.injEq] at h
    rw [lower_inv (hw d (by simp)) h.1, map_lower_inv (fun e he => hw e (by simp [he])) h.2]

theorem caseEq_word {s : Str} {w : String} (hw : w.toList.map lower = w.toList) : caseEq s w.toList = true ↔ s.map lower = w.toList := by
  unfold caseEq
  rw [hw]
  simp

theorem ltabTest_spec {s : String} {t : Test} (h : ltabTest s.toList = some t) : (s, t) ∈ opNames := by
  have key : ∀ w : String, w.toList.map lower = w.toList → (∀ d ∈ w.toList, ¬ (97 ≤ d.toNat ∧ d.toNat ≤ 122)) → caseEq s.toList w.toList = true → s = w := by
    intro w hw hd hc
    have := map_lower_inv hd ((caseEq_word hw).1 hc)
    exact String.toList_injective this
  unfold ltabTest at h
  repeat' split at h
  all_goals first
    | (cases h; rename_i hc
       first
         | (rw [key "==" (by decide) (by decide) hc]; simp [opNames]; done)
         | (rw [key "!=" (by decide) (by decide) hc]; simp [opNames]; done)
         | (rw [key "<" (by decide) (by decide) hc]; simp [opNames]; done)
         | (rw [key "<=" (by decide) (by decide) hc]; simp [opNames]; done)
         | (rw [key ">" (by decide) (by decide) hc]; simp [opNames]; done)
         | (rw [key ">=" (by decide) (by decide) hc]; simp [opNames]; done))
    | cases h

/-! ## Predicates -/

theorem truth_bool {v : String → String} (b : Bool) : (if b then Pred.verum else Pred.falsum).truth v = b := by
  cases b <;> simp [Pred.truth]

theorem reads_pred (H : LHeap) : ∀ (d : Nat) (v : LVal), Reads (parseLPred H d v) fun p => ∀ σ, Truth H σ v (p.truth σ)
  | 0, _ => Reads.err
  | d + 1, v => by
    unfold parseLPred
    refine Reads.bind (reads_checkTable v) fun a ha => ?_
    subst ha
    have ih := reads_pred H d
    have main : Reads (do
      let str ← checkStr (H.idx a 1)
      if caseEq str.toList "not".toList then do
        let p ← parseLPred H d (H.idx a 2)
        pure (Pred.neg [p])
      else if caseEq str.toList "and".toList then do
        let q ← parseLPred H d (H.idx a 3)
        let p ← parseLPred H d (H.idx a 2)
        pure (.conj [q, p])
      else if caseEq str.toList "or".toList then do
        let q ← parseLPred H d (H.idx a 3)
        let p ← parseLPred H d (H.idx a 2)
        pure (.disj [q, p])
      else do
        let op ← checkStr (H.idx a 2)
        let right ← checkStr (H.idx a 3)
        let t ← PM.some! (ltabTest op.toList)
        pure (.atom str t right)) fun p => ∀ σ, Truth H σ (.tab a) (p.truth σ) := by
      refine Reads.bind (reads_checkStr _) fun str hs => ?_
      split
      · next hw =>
        refine Reads.bind (ih _) fun p hp => Reads.pure fun σ => ?_
        have := Truth.not hs ((caseEq_word (by decide)).1 hw) (hp σ)
        simpa [Pred.truth, Pred.allTrue] using this
      · next hn =>
        split
        · next hw =>
          refine Reads.bind (ih _) fun q hq => Reads.bind (ih _) fun p hp => Reads.pure fun σ => ?_
          have := Truth.and hs ((caseEq_word (by decide)).1 hw) (hp σ) (hq σ)
          simpa [Pred.truth, Pred.allTrue, Bool.and_comm] using this
        · next ha =>
          split
          · next hw =>
            refine Reads.bind (ih _) fun q hq => Reads.bind (ih _) fun p hp => Reads.pure fun σ => ?_
            have := Truth.or hs ((caseEq_word (by decide)).1 hw) (hp σ) (hq σ)
            simpa [Pred.truth, Pred.anyTrue, Bool.or_comm] using this
          · next ho =>
            refine Reads.bind (reads_checkStr _) fun op h2 => Reads.bind (reads_checkStr _) fun r h3 => Reads.bind (Reads.some! _) fun t ht => Reads.pure fun σ => ?_
            have nw : ∀ w : String, w.toList.map lower = w.toList → ¬ caseEq str.toList w.toList = true → ¬ Word w str := fun w hw hc hh => hc ((caseEq_word hw).2 hh)
            have := Truth.test (σ := σ) hs (nw _ (by decide) hn) (nw _ (by decide) ha) (nw _ (by decide) ho) h2 h3 (ltabTest_spec ht)
            simpa [Pred.truth] using this
    split
    · next b hb => exact Reads.pure fun σ => by rw [truth_bool]; exact .const hb
    · exact main

/-! ## Transitions, times, properties -/

theorem reads_trans (v : LVal) : Reads (ltabTrans v) fun tr => ∃ w s, v.text = some s ∧ Word w s ∧ (w, tr) ∈ transWords := by
  unfold ltabTrans
  refine Reads.bind (reads_checkStr _) fun s hs => (Reads.some! _).mono fun tr htr => ?_
  split at htr
  · next hw =>
    have : tr = .start := by
      have : nameTrans "start".toList = some .start := by decide
      rw [this] at htr; cases htr; rfl
    subst this
    exact ⟨"set", s, hs, (caseEq_word (by decide)).1 hw, by simp [transWords]⟩
  · unfold nameTrans at htr
    repeat' split at htr
    all_goals first
      | (cases htr; rename_i hc
         first
           | exact ⟨"start", s, hs, (caseEq_word (by decide)).1 hc, by simp [transWords]⟩
           | exact ⟨"pause", s, hs, (caseEq_word (by decide)).1 hc, by simp [transWords]⟩
           | exact ⟨"resume", s, hs, (caseEq_word (by decide)).1 hc, by simp [transWords]⟩
           | exact ⟨"stop", s, hs, (caseEq_word (by decide)).1 hc, by simp [transWords]⟩
           | exact ⟨"abort", s, hs, (caseEq_word (by decide)).1 hc, by simp [transWords]⟩)
      | cases htr

theorem reads_optStr (v : LVal) : Reads (optStr v) (StrAs v) := by
  unfold optStr
  split
  · next h => exact Reads.pure (.inr ⟨h, rfl⟩)
  · exact (reads_checkStr v).mono fun s hs => .inl hs

theorem reads_time (E : PRead) (v : LVal) (dflt : Nat) : Reads (ltabTime E v dflt) fun t => timeOf E v dflt = some t := by
  unfold ltabTime timeOf
  cases hv : v.text with
  | none => exact Reads.pure' rfl
  | some s =>
    refine Reads.bind (Reads.res _) fun t ht => (Reads.orErr _).mono fun u hu => ?_
    simp [ht, hu]

theorem reads_field (H : LHeap) (a : Nat) (name dflt : String) : Reads (transField H a name dflt) fun s => s = ((H.field a name).text).getD dflt := by
  unfold transField
  split
  · next h => rw [h]; exact Reads.pure' rfl
  · next h =>
    cases hv : (H.field a name).text with
    | none => exact Reads.ub
    | some s => exact Reads.pure' rfl

theorem reads_transValue (H : LHeap) (v : LVal) : Reads (transValue H v) fun s => ∃ a, v = .tab a ∧ s = H.transText a := by
  unfold transValue
  split
  · next a =>
    have hty : Reads (match H.field a "type" with
      | .nil => PM.abort
      | v => match v.text with | some s => PM.pure s | none => PM.ub : PM String) fun s => s = ((H.field a "type").text).getD "" := by
      split
      · exact Reads.abort
      · cases hv : (H.field a "type").text with
        | none => exact Reads.ub
        | some s => exact Reads.pure' rfl
    refine Reads.bind hty fun _ h0 => ?_
    refine Reads.bind (reads_field _ _ _ _) fun _ h1 => Reads.bind (reads_field _ _ _ _) fun _ h2 => Reads.bind (reads_field _ _ _ _) fun _ h3 => ?_
    refine Reads.bind (reads_field _ _ _ _) fun _ h4 => Reads.bind (reads_field _ _ _ _) fun _ h5 => Reads.bind (reads_field _ _ _ _) fun _ h6 => ?_
    refine Reads.bind (reads_field _ _ _ _) fun _ h7 => Reads.bind (reads_field _ _ _ _) fun _ h8 => Reads.bind (reads_field _ _ _ _) fun _ h9 => ?_
    refine Reads.bind (reads_field _ _ _ _) fun _ h10 => Reads.pure ⟨a, rfl, ?_⟩
    subst h0 h1 h2 h3 h4 h5 h6 h7 h8 h9 h10
    rfl
  · exact Reads.abort
  · exact Reads.abort
  · exact Reads.err

theorem reads_prop (E : PRead) (H : LHeap) (name : String) (v : LVal) : Reads (ltabProp E H name v) fun p => propOf E H (.str name, v) = some p := by
  unfold ltabProp propOf
  dsimp only
  split
  · cases hv : v.text with
    | none => exact Reads.abort
    | some s => exact Reads.pure' (by simp)
  · split
    · refine Reads.bind (reads_transValue H v) fun s hs => Reads.pure ?_
      obtain ⟨a, rfl, rfl⟩ := hs
      rfl
    · cases hv : v.text with
      | none => exact Reads.abort
      | some s => exact Reads.pure' (by simp)

theorem reads_head (H : LHeap) (tag : String) (v : LVal) : Reads (ltabHead H tag v) fun h => v = .tab h.1 ∧ (H.idx h.1 1).text = some tag ∧ H.id h.1 = some h.2 := by
  unfold ltabHead
  refine Reads.bind (reads_checkTable v) fun a ha => Reads.bind (reads_checkStr _) fun tg ht => ?_
  split
  · exact Reads.err
  · next hn =>
    refine Reads.bind (reads_checkStr _) fun id hid => Reads.pure ⟨ha, ?_, hid⟩
    rw [ht]; exact congrArg some (Decidable.byContradiction hn)

end Ginga
