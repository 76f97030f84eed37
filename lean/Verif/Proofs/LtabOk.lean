import Verif.Proofs.LtabDoc
/-!
# Well-formed tables are read
-/
namespace Ginga

/-- `m` succeeds, and then `Q` holds. -/
def PGood {α : Type} (m : PM α) (Q : α → PS → Prop) (s : PS) : Prop := ∃ a t, m s = .ok (some (a, t)) ∧ Q a t

/-- `m` succeeds and changes nothing. -/
def Gives {α : Type} (m : PM α) (Q : α → Prop) : Prop := ∀ s, ∃ a, m s = .ok (some (a, s)) ∧ Q a

section
variable {α β : Type} {s : PS}

theorem PGood.pure {Q : α → PS → Prop} {a : α} (h : Q a s) : PGood (Pure.pure a : PM α) Q s := ⟨a, s, rfl, h⟩
theorem PGood.pure' {Q : α → PS → Prop} {a : α} (h : Q a s) : PGood (PM.pure a : PM α) Q s := ⟨a, s, rfl, h⟩
theorem PGood.bind {m : PM α} {f : α → PM β} {Q : β → PS → Prop} (h : PGood m (fun a t => PGood (f a) Q t) s) : PGood (m >>= f) Q s := by
  obtain ⟨a, t, h1, b, u, h2, h3⟩ := h
  exact ⟨b, u, PM.bind_ok.2 ⟨a, t, h1, h2⟩, h3⟩
theorem PGood.bind' {m : PM α} {f : α → PM β} {Q : β → PS → Prop} (h : PGood m (fun a t => PGood (f a) Q t) s) : PGood (PM.bind m f) Q s := PGood.bind h
theorem PGood.mono {m : PM α} {P Q : α → PS → Prop} (h : PGood m P s) (hpq : ∀ a t, P a t → Q a t) : PGood m Q s := by
  obtain ⟨a, t, h1, h2⟩ := h
  exact ⟨a, t, h1, hpq _ _ h2⟩
theorem PGood.post {m : PM α} {P Q : α → PS → Prop} (h : PGood m P s) (hq : PPost m Q s) : PGood m (fun a t => P a t ∧ Q a t) s := by
  obtain ⟨a, t, h1, h2⟩ := h
  exact ⟨a, t, h1, h2, hq _ _ h1⟩
theorem PGood.get {Q : PS → PS → Prop} (h : Q s s) : PGood PM.get Q s := ⟨s, s, rfl, h⟩
theorem PGood.modify {f : PS → PS} {Q : Unit → PS → Prop} (h : Q () (f s)) : PGood (PM.modify f) Q s := ⟨(), f s, rfl, h⟩
theorem PGood.object {o : Nat} {x : RObj} {Q : RObj → PS → Prop} (hx : s.reg.obj o = some x) (h : Q x s) : PGood (object o) Q s := by
  refine PGood.bind (PGood.get ?_)
  rw [hx]; exact PGood.pure h
theorem PGood.alloc {E : PRead} {Q : Nat → PS → Prop} (h : Q (E.addr s.nalloc) { s with nalloc := s.nalloc + 1 }) : PGood (alloc E) Q s := ⟨_, _, rfl, h⟩
theorem PGood.regOp {op : RegOp} {b : Bool} {r : Reg} {Q : Unit → PS → Prop} (he : s.reg.exec op = .ok (b, r)) (h : Q () { s with reg := r }) : PGood (regOp op) Q s :=
  ⟨(), { s with reg := r }, by unfold Ginga.regOp; rw [he]; rfl, h⟩

theorem Gives.pure {Q : α → Prop} {a : α} (h : Q a) : Gives (Pure.pure a : PM α) Q := fun s => ⟨a, rfl, h⟩
theorem Gives.pure' {Q : α → Prop} {a : α} (h : Q a) : Gives (PM.pure a : PM α) Q := fun s => ⟨a, rfl, h⟩
theorem Gives.bind {m : PM α} {f : α → PM β} {P : α → Prop} {Q : β → Prop} (h : Gives m P) (hf : ∀ a, P a → Gives (f a) Q) : Gives (m >>= f) Q := fun s => by
  obtain ⟨a, h1, h2⟩ := h s
  obtain ⟨b, h3, h4⟩ := hf a h2 s
  exact ⟨b, PM.bind_ok.2 ⟨a, s, h1, h3⟩, h4⟩
theorem Gives.seq {m : PM α} {f : α → PM β} {P : α → Prop} {Q : β → PS → Prop} (h : Gives m P) (hf : ∀ a, P a → PGood (f a) Q s) : PGood (m >>= f) Q s := by
  obtain ⟨a, h1, h2⟩ := h s
  exact PGood.bind ⟨a, s, h1, hf a h2⟩
theorem Gives.good {m : PM α} {P : α → Prop} (h : Gives m P) : PGood m (fun a t => t = s ∧ P a) s := by
  obtain ⟨a, h1, h2⟩ := h s
  exact ⟨a, s, h1, rfl, h2⟩
theorem Gives.mono {m : PM α} {P Q : α → Prop} (h : Gives m P) (hpq : ∀ a, P a → Q a) : Gives m Q := fun s => by
  obtain ⟨a, h1, h2⟩ := h s
  exact ⟨a, h1, hpq a h2⟩
end

theorem gives_checkStr {v : LVal} {t : String} (h : v.text = some t) : Gives (checkStr v) (· = t) := by
  unfold checkStr; rw [h]; exact Gives.pure' rfl

theorem gives_checkTable {v : LVal} {a : Nat} (h : v = .tab a) : Gives (checkTable v) (· = a) := by
  subst h; exact Gives.pure' rfl

theorem gives_asTable {v : LVal} {a : Nat} (h : v = .tab a) : Gives (asTable v) (· = a) := by
  subst h; exact Gives.pure' rfl

theorem gives_entries (H : LHeap) {v : LVal} (h : ListOrNil v) : Gives (entries H v) fun l => l = H.pairs v ∧ l.map (·.2) = H.items v := by
  rcases h with rfl | ⟨a, rfl⟩
  · exact Gives.pure' ⟨rfl, rfl⟩
  · exact Gives.pure' ⟨rfl, rfl⟩

theorem ltabTest_op {op : String} {t : Test} (h : (op, t) ∈ opNames) : ltabTest op.toList = some t := by
  simp only [opNames, List.mem_cons, Prod.mk.injEq, List.not_mem_nil, or_false] at h
  rcases h with ⟨rfl, rfl⟩ | ⟨rfl, rfl⟩ | ⟨rfl, rfl⟩ | ⟨rfl, rfl⟩ | ⟨rfl, rfl⟩ | ⟨rfl, rfl⟩ <;> decide

theorem text_not_bool {v : LVal} {t : String} (h : v.text = some t) (b : Bool) : v ≠ .bool b := by rintro rfl; cases h

theorem gives_pred {H : LHeap} {n : Nat} {v : LVal} (h : PredFine H n v) : Gives (parseLPred H n v) fun _ => True := by
  have word : ∀ {w : String} {l : String}, w.toList.map lower = w.toList → Word w l → caseEq l.toList w.toList = true := fun hw h => (caseEq_word hw).2 h
  have nword : ∀ {w : String} {l : String}, w.toList.map lower = w.toList → ¬ Word w l → ¬ caseEq l.toList w.toList = true := fun hw h hc => h ((caseEq_word hw).1 hc)
  have diff : ∀ {w w' : String} {l : String}, Word w l → w ≠ w' → ¬ Word w' l := by
    intro w w' l h hne h'
    exact hne (String.toList_inj.1 (h.symm.trans h'))
  induction h with
  | const h =>
    unfold parseLPred
    refine Gives.bind (gives_checkTable rfl) fun a ha => ?_
    subst ha
    rw [h]; exact Gives.pure trivial
  | not h1 h2 _ ih =>
    unfold parseLPred
    refine Gives.bind (gives_checkTable rfl) fun a ha => ?_
    subst ha
    split
    · next e => exact absurd e (text_not_bool h1 _)
    · refine Gives.bind (gives_checkStr h1) fun str hs => ?_
      subst hs
      rw [if_pos (word (by decide) h2)]
      exact Gives.bind ih fun _ _ => Gives.pure trivial
  | and h1 h2 _ _ ih ih' =>
    unfold parseLPred
    refine Gives.bind (gives_checkTable rfl) fun a ha => ?_
    subst ha
    split
    · next e => exact absurd e (text_not_bool h1 _)
    · refine Gives.bind (gives_checkStr h1) fun str hs => ?_
      subst hs
      rw [if_neg (nword (by decide) (diff h2 (by decide))), if_pos (word (by decide) h2)]
      exact Gives.bind ih' fun _ _ => Gives.bind ih fun _ _ => Gives.pure trivial
  | or h1 h2 _ _ ih ih' =>
    unfold parseLPred
    refine Gives.bind (gives_checkTable rfl) fun a ha => ?_
    subst ha
    split
    · next e => exact absurd e (text_not_bool h1 _)
    · refine Gives.bind (gives_checkStr h1) fun str hs => ?_
      subst hs
      rw [if_neg (nword (by decide) (diff h2 (by decide))), if_neg (nword (by decide) (diff h2 (by decide))), if_pos (word (by decide) h2)]
      exact Gives.bind ih' fun _ _ => Gives.bind ih fun _ _ => Gives.pure trivial
  | test h1 h2 h3 h4 h5 h6 h7 =>
    unfold parseLPred
    refine Gives.bind (gives_checkTable rfl) fun a ha => ?_
    subst ha
    split
    · next e => exact absurd e (text_not_bool h1 _)
    · refine Gives.bind (gives_checkStr h1) fun str hs => ?_
      subst hs
      rw [if_neg (nword (by decide) h2), if_neg (nword (by decide) h3), if_neg (nword (by decide) h4)]
      refine Gives.bind (gives_checkStr h5) fun _ e => Gives.bind (gives_checkStr h6) fun _ _ => ?_
      subst e
      rw [ltabTest_op h7]
      exact Gives.bind (P := fun _ => True) (fun s => ⟨_, rfl, trivial⟩) fun _ _ => Gives.pure trivial

theorem gives_trans {v : LVal} {s w : String} {tr : Trans} (h1 : v.text = some s) (h2 : Word w s) (h3 : (w, tr) ∈ transWords) : Gives (ltabTrans v) fun _ => True := by
  unfold ltabTrans
  refine Gives.bind (gives_checkStr h1) fun _ e => ?_
  rw [e]
  have h2' : s.toList.map lower = w.toList := h2
  have key : (nameTrans (if caseEq s.toList "set".toList then "start".toList else s.toList)).isSome := by
    simp only [transWords, List.mem_cons, Prod.mk.injEq, List.not_mem_nil, or_false] at h3
    by_cases hs : caseEq s.toList "set".toList = true
    · rw [if_pos hs]; decide
    · rw [if_neg hs]
      have hs' : ¬ w = "set" := fun e => hs ((caseEq_word (by decide)).2 (by rw [h2', e]))
      unfold nameTrans caseEq
      simp only [h2']
      rcases h3 with ⟨rfl, rfl⟩ | ⟨rfl, rfl⟩ | ⟨rfl, rfl⟩ | ⟨rfl, rfl⟩ | ⟨rfl, rfl⟩ | ⟨rfl, rfl⟩
      all_goals first | (exact absurd rfl hs') | decide
  obtain ⟨t, ht⟩ := Option.isSome_iff_exists.1 key
  rw [ht]
  exact fun s => ⟨_, rfl, trivial⟩

theorem gives_optStr {v : LVal} (h : TextOrNil v) : Gives (optStr v) fun _ => True := by
  unfold optStr
  rcases h with rfl | ⟨s, h⟩
  · exact Gives.pure trivial
  · split
    · exact Gives.pure trivial
    · exact (gives_checkStr h).mono fun _ _ => trivial

theorem gives_time {E : PRead} {v : LVal} {dflt t : Nat} (h : timeOf E v dflt = some t) : Gives (ltabTime E v dflt) fun _ => True := by
  unfold timeOf at h
  unfold ltabTime
  cases hv : v.text with
  | none => exact Gives.pure' trivial
  | some s =>
    rw [hv] at h
    dsimp only at h ⊢
    cases hp : parseTime E.F s.toList with
    | ok r =>
      rw [hp] at h
      dsimp only at h
      subst h
      exact Gives.bind (P := fun r => r = some t) (fun s => ⟨_, rfl, rfl⟩) fun r hr => by subst hr; exact fun s => ⟨_, rfl, trivial⟩
    | abort => rw [hp] at h; cases h
    | ub => rw [hp] at h; cases h
    | fuel => rw [hp] at h; cases h

theorem gives_field {H : LHeap} {a : Nat} {name : String} (dflt : String) (h : TextOrNil (H.field a name)) : Gives (transField H a name dflt) fun _ => True := by
  unfold transField
  rcases h with h | ⟨s, h⟩
  · rw [h]; exact Gives.pure' trivial
  · split
    · exact Gives.pure' trivial
    · rw [h]; exact Gives.pure' trivial

theorem gives_transValue {H : LHeap} {a : Nat} (h : TransFine H a) : Gives (transValue H (.tab a)) fun _ => True := by
  obtain ⟨⟨ty, h1⟩, h2⟩ := h
  unfold transValue
  dsimp only
  have hty : Gives (match H.field a "type" with
      | .nil => PM.abort
      | v => match v.text with | some s => PM.pure s | none => PM.ub : PM String) fun _ => True := by
    split
    · next e => rw [e] at h1; cases h1
    · rw [h1]; exact Gives.pure' trivial
  refine Gives.bind hty fun _ _ => ?_
  refine Gives.bind (gives_field _ (h2 _ (by simp))) fun _ _ => Gives.bind (gives_field _ (h2 _ (by simp))) fun _ _ => Gives.bind (gives_field _ (h2 _ (by simp))) fun _ _ => ?_
  refine Gives.bind (gives_field _ (h2 _ (by simp))) fun _ _ => Gives.bind (gives_field _ (h2 _ (by simp))) fun _ _ => Gives.bind (gives_field _ (h2 _ (by simp))) fun _ _ => ?_
  refine Gives.bind (gives_field _ (h2 _ (by simp))) fun _ _ => Gives.bind (gives_field _ (h2 _ (by simp))) fun _ _ => Gives.bind (gives_field _ (h2 _ (by simp))) fun _ _ => ?_
  exact Gives.bind (gives_field _ (h2 _ (by simp))) fun _ _ => Gives.pure trivial

theorem lower_word (w s : String) : caseEq w.toList s.toList = true ↔ s.toList.map lower = w.toList.map lower := by
  unfold caseEq; rw [beq_iff_eq, eq_comm]

theorem gives_prop {E : PRead} {H : LHeap} {name : String} {v : LVal} (h : PropFine H (.str name, v)) : Gives (ltabProp E H name v) fun _ => True := by
  obtain ⟨n, e, h⟩ := h
  cases e
  have t1 : caseEq "transIn".toList name.toList = true ↔ Word "transin" name := by
    rw [lower_word]; exact ⟨fun h => h.trans (by decide), fun h => Eq.trans (b := "transin".toList) h (by decide)⟩
  have t2 : caseEq "transOut".toList name.toList = true ↔ Word "transout" name := by
    rw [lower_word]; exact ⟨fun h => h.trans (by decide), fun h => Eq.trans (b := "transout".toList) h (by decide)⟩
  have t3 : caseEq "src".toList name.toList = true ↔ Word "src" name := by
    rw [lower_word]; exact ⟨fun h => h.trans (by decide), fun h => Eq.trans (b := "src".toList) h (by decide)⟩
  unfold ltabProp
  rw [← t1, ← t2] at h
  by_cases hs : caseEq "src".toList name.toList = true
  · rw [if_pos hs]
    have ns : ¬ (caseEq "transIn".toList name.toList = true ∨ caseEq "transOut".toList name.toList = true) := by
      rintro (hh | hh)
      · have := (t3.1 hs).symm.trans (t1.1 hh); exact absurd this (by decide)
      · have := (t3.1 hs).symm.trans (t2.1 hh); exact absurd this (by decide)
    obtain ⟨t, h⟩ : ∃ t, v.text = some t := by
      rcases h with ⟨h, -⟩ | ⟨-, h⟩
      · exact absurd h ns
      · exact h
    rw [h]; exact Gives.pure' trivial
  · rw [if_neg hs]
    split
    · next ht =>
      rcases h with ⟨-, a, h1, h⟩ | ⟨h, -⟩
      · dsimp only at h1
        subst h1
        exact Gives.bind (gives_transValue h) fun _ _ => Gives.pure trivial
      · exact absurd ht h
    · next ht =>
      rcases h with ⟨h, -⟩ | ⟨-, t, h⟩
      · exact absurd h ht
      · dsimp only at h
        rw [h]; exact Gives.pure' trivial

theorem kind_text {H : LHeap} {a : Nat} {k : RKind} (h : H.kind a = some k) : ∃ tag, (H.idx a 1).text = some tag ∧ childKind tag.toList = some k ∧
    tag = (match k with | .context => "context" | .switch => "switch" | _ => "media") := by
  unfold LHeap.kind at h
  cases ht : (H.idx a 1).text with
  | none => rw [ht] at h; cases h
  | some t =>
    rw [ht] at h
    dsimp only at h
    refine ⟨t, rfl, ?_⟩
    repeat' split at h
    · next e => cases h; subst e; exact ⟨by decide, rfl⟩
    · next e => cases h; subst e; exact ⟨by decide, rfl⟩
    · next e => cases h; subst e; exact ⟨by decide, rfl⟩
    · cases h

theorem gives_head {H : LHeap} {a : Nat} {tag id : String} (h1 : (H.idx a 1).text = some tag) (h2 : H.id a = some id) : Gives (ltabHead H tag (.tab a)) (· = (a, id)) := by
  unfold ltabHead
  refine Gives.bind (gives_checkTable rfl) fun _ e => ?_
  subst e
  refine Gives.bind (gives_checkStr h1) fun _ e => ?_
  subst e
  rw [if_neg (by simp)]
  refine Gives.bind (gives_checkStr h2) fun _ e => ?_
  subst e
  exact Gives.pure rfl

end Ginga
