import Verif.Proofs.Api
import Verif.Proofs.Witness
/-! # C17 — keys reach exactly the interested objects -/
set_option linter.unusedVariables false
namespace Ginga
open Ex

theorem expectedKey_eq (s : St) (e : Eid) : expectedKey s e = (awaitedKey s e).getD "" := by
  unfold expectedKey awaitedKey
  cases h : s.par e "key" with
  | none => simp
  | some k =>
    simp only [Option.getD_some]
    by_cases h1 : k.toList.head? = some '$'
    · simp [h1]
    · by_cases h2 : k = ""
      · subst h2; simp
      · simp [h1, h2]

theorem awaitedKey_ne (s : St) (e : Eid) {k : String} (h : awaitedKey s e = some k) : k ≠ "" := by
  unfold awaitedKey at h
  split at h
  · cases h
  · split at h
    · cases h
    · next hx => cases h; exact fun hk => hx (.inl hk)

theorem keyMatches_iff {s : St} {o : Oid} {p : PlayerSt} (hp : s.player o = some p) (key : String) (e : Eid) :
    keyMatches s p key e = true ↔
      (awaitedKey s e = some key ∨ (awaitedKey s e = none ∧ key = "ENTER" ∧ Focused s o)) := by
  have hfoc : playerFocused s p = true ↔ Focused s o := by
    unfold playerFocused Focused
    rw [decide_eq_true_iff]
    constructor
    · rintro ⟨h1, h2⟩; exact ⟨p, hp, h1, h2⟩
    · rintro ⟨q, hq, h1, h2⟩; rw [hp] at hq; cases hq; exact ⟨h1, h2⟩
  unfold keyMatches
  rw [decide_eq_true_iff, expectedKey_eq]
  cases h : awaitedKey s e with
  | none => simp [hfoc]
  | some k =>
    have := awaitedKey_ne s e h
    simp only [Option.getD_some, this, false_and, false_or, ne_eq, not_false_eq_true, true_and,
      Option.some.injEq, reduceCtorEq, or_false]
    exact eq_comm

theorem evalAll_inOrder {d : Doc} {n : Nat} {t : Trans} (es : List Eid) : ∀ {s s'},
    evalAll (run d n) t es s = .ok ((), s') → InOrder d n (es.map fun e => { ev := e, tr := t }) s s' := by
  induction es with
  | nil => intro s s' h; cases h; exact .nil
  | cons e es ih =>
    intro s s' h
    rw [evalAll] at h
    obtain ⟨k, s1, h1, h2⟩ := bind_ok h
    exact .cons h1 (ih h2)

theorem moveFocus_ok {p : PlayerSt} {key : String} {press : Bool} {s s' : St}
    (h : moveFocus p key press s = .ok ((), s')) : ∃ req, s' = { s with nextFocus := req } := by
  unfold moveFocus at h
  obtain ⟨_, _, h1, h⟩ := bind_ok h
  cases h1
  split at h
  · cases hm : moveProp key with
    | none => rw [hm] at h; cases h; exact ⟨s.nextFocus, rfl⟩
    | some m =>
      rw [hm] at h
      simp only at h
      split at h
      · cases h; exact ⟨_, rfl⟩
      · cases h; exact ⟨s.nextFocus, rfl⟩
  · cases h; exact ⟨s.nextFocus, rfl⟩

theorem key_delivered {d : Doc} {rank} (hw : WF d rank) {n : Nat} {key : String} {press : Bool}
    (os : List Oid) : ∀ {s s' : St}, Good d rank s →
    forAll (sendKey1 d (run d n) key press) os s = .ok ((), s') → KeyDelivered d n key press os s s' := by
  have hr := run_spec hw (U := True) (fun _ => trivial) n
  induction os with
  | nil => intro s s' _ h; cases h; exact .done
  | cons o os ih =>
    intro s s' hg h
    rw [forAll] at h
    obtain ⟨_, s2, h1, h2⟩ := bind_ok h
    unfold sendKey1 at h1
    cases hk : (d.obj o).kind.isMedia with
    | false =>
      simp only [hk, Bool.false_eq_true, if_false] at h1
      cases h1; exact .skip (.inl hk) (ih hg h2)
    | true =>
      simp only [hk, if_true] at h1
      unfold mediaKey at h1
      obtain ⟨_, _, h3, h1⟩ := bind_ok h1
      cases h3
      by_cases hsl : s.est (d.obj o).lambda = .sleeping
      · rw [if_pos (by simpa [isSleeping] using hsl)] at h1
        cases h1; exact .skip (.inr hsl) (ih hg h2)
      · rw [if_neg (by simpa [isSleeping] using hsl)] at h1
        cases hp : s.player o with
        | none => exact absurd ((hg.player o hk).2 hp) hsl
        | some p =>
          rw [hp] at h1
          simp only at h1
          obtain ⟨_, s1, h3, h1⟩ := bind_ok h1
          obtain ⟨req, rfl⟩ := moveFocus_ok h3
          have hg1 : Good d rank { s with nextFocus := req } := ⟨hg.player, hg.anchor, hg.queue, hg.sel⟩
          have hg2 := (wp_ok (wp_evalAll hw hr _ _ _ hg1) h1).good hw hg1
          refine .deliver _ hk hsl ?_ ?_ (evalAll_inOrder _ h1) (ih hg2 h2)
          · exact (hw.events_nodup o).filter _
          · intro e
            rw [List.mem_filter, decide_eq_true_iff, hw.mem_events]
            unfold Interested
            rw [keyMatches_iff hp]

/-- **C17**.  Every key press or release sent to a presented document is delivered to the objects
that are not sleeping at that moment, one after the other: of each media that is still awake when its
turn comes exactly the selection events whose awaited key is that key — or that await no particular
key, while the key is ENTER and the media has the focus — are started (on release: stopped), each
one once; nothing else is done. -/
theorem C17_keys {f : Fmt} (hf : Reachable f) {d : Doc} (hd : f.doc = some d) (n : Nat)
    (key : String) (press : Bool) (b : Bool) (f' : Fmt)
    (he : exec n f (.sendKey key press) = .ok (b, f')) (hd' : f'.doc = some d) :
    KeyDelivered d n key press
      (d.objs.filter fun o => f.st.est (d.obj o).lambda ≠ .sleeping) f.st f'.st := by
  obtain ⟨rank, hw, hg, -⟩ := (hf.inv triv_inv).good d hd
  cases engineCall hf hd he hd' with
  | key h =>
    unfold docKey at h
    obtain ⟨_, _, h1, h⟩ := bind_ok h
    cases h1
    have heq : (d.objs.filter fun o => !isSleeping d f.st o) =
        d.objs.filter fun o => f.st.est (d.obj o).lambda ≠ .sleeping := by
      apply List.filter_congr
      intro o _
      simp [isSleeping]
    rw [heq] at h
    exact key_delivered hw _ hg h

/-- **C17**, the awaited key of an event never changes during a presentation: it is the one given in
the document. -/
theorem C17_awaited_key_constant {f : Fmt} (hf : Reachable f) {d : Doc} (hd : f.doc = some d) (e : Eid) :
    f.st.par e "key" = d.par0 e "key" := by
  have key : ∀ d, DocWF d → TClosed d (fun _ => False) (fun _ => True)
      (fun s s' => s'.par e "key" = s.par e "key") := by
    rintro d ⟨rank, hw⟩
    exact
    { refl := fun _ => rfl
      trans := fun h h' => h'.trans h
      par := by
        intro s e' k v hk
        by_cases he : e' = e
        · subst he
          have : "key" ≠ k := by
            rcases hk with rfl | rfl | ⟨rfl, -⟩ <;> decide
          simp [setParSt, upd, this]
        · have : e ≠ e' := fun h => he h.symm
          simp [setParSt, upd, this]
      mark := by
        intro s s' p b _ h _
        refine h.trans ?_
        simp only [setParSt, upd]
        split
        · next he => subst he; simp
        · rfl
      enq := fun _ _ _ _ _ _ => rfl
      focusReq := fun _ _ => rfl
      prop := fun _ _ _ _ _ => rfl
      focus := fun _ _ _ => rfl
      player := fun _ _ _ _ _ => rfl
      newPlayer := fun _ _ _ _ => rfl
      sel := fun _ _ _ => rfl
      wake := fun _ _ _ _ _ => rfl
      start := fun _ _ _ _ _ => by simp
      logged := fun _ _ _ _ _ _ _ => rfl
      touched := fun _ _ _ _ _ h => h.elim
      stopEv := fun _ _ _ _ _ _ => rfl
      stopObj := fun _ _ _ _ _ _ _ _ => by simp
      anchor := fun _ _ _ _ _ h => h
      time := fun _ _ _ _ => rfl
      queue := fun _ _ _ _ => rfl
      focusDone := fun _ => rfl }
  obtain ⟨fo, h⟩ := hf.rel key (fun _ _ _ _ _ => rfl) hd
  exact h

/-! Non-vacuity: body with settings and media `a` with two selection events, one for RED and one
without key; `a` has focus index 1. -/
def keyDoc : Doc :=
  mkDoc env0
    [ { kind := .context, id := "__root__", children := [1, 2], events := [0], lambda := 0, ports := [2] },
      { kind := .settings, id := "__settings__", parent := some 0, events := [1, 5], lambda := 1,
        props0 := [("type", "application/x-ginga-settings")] },
      { kind := .media, id := "a", parent := some 0, events := [2, 3, 4], lambda := 2,
        props0 := [("focusIndex", "1")] } ]
    [ { typ := .presentation, obj := 0, id := "@lambda" },
      { typ := .presentation, obj := 1, id := "@lambda" },
      { typ := .presentation, obj := 2, id := "@lambda" },
      { typ := .selection, obj := 2, id := "RED" },
      { typ := .selection, obj := 2, id := "" },
      { typ := .attribution, obj := 1, id := "service.currentFocus" } ]
    0 1 [(3, "key", "RED")]

theorem keyDoc_wf : DocWF keyDoc := mkDoc_wf [0, 1, 1] (by decide +kernel)

example : ∃ f, Reachable f ∧ f.doc = some keyDoc ∧
    (decide (f.st.est 3 = .occurring) && decide (f.st.est 4 = .sleeping)) = true :=
  witness keyDoc keyDoc_wf 50 [tick 0, tick 1, .sendKey "RED" true] rfl _ (by decide +kernel)
example : ∃ f, Reachable f ∧ f.doc = some keyDoc ∧
    (decide (f.st.est 3 = .sleeping) && decide (f.st.est 4 = .occurring)) = true :=
  witness keyDoc keyDoc_wf 50 [tick 0, tick 1, .sendKey "ENTER" true] rfl _ (by decide +kernel)
/-- The hypotheses of `C17_keys` are met with an event that is really interested. -/
example : ∃ f, Reachable f ∧ f.doc = some keyDoc ∧ Interested keyDoc f.st 2 "RED" 3 ∧
    Interested keyDoc f.st 2 "ENTER" 4 ∧ ¬ Interested keyDoc f.st 2 "BLUE" 4 := by
  obtain ⟨f, h1, h2, h3⟩ := witness keyDoc keyDoc_wf 50 [tick 0, tick 1] rfl
    (fun f => match f.st.player 2 with
      | some p => keyMatches f.st p "RED" 3 && (keyMatches f.st p "ENTER" 4 && !keyMatches f.st p "BLUE" 4)
      | none => false) (by decide +kernel)
  cases hp : f.st.player 2 with
  | none => simp only [hp] at h3; cases h3
  | some p =>
    simp only [hp, Bool.and_eq_true, Bool.not_eq_true'] at h3
    refine ⟨f, h1, h2, ⟨rfl, rfl, (keyMatches_iff hp _ _).1 h3.1⟩, ⟨rfl, rfl, (keyMatches_iff hp _ _).1 h3.2.1⟩, ?_⟩
    rintro ⟨-, -, h⟩
    have := (keyMatches_iff hp _ _).2 h
    rw [h3.2.2] at this; cases this

end Ginga
