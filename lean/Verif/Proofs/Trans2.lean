import Verif.Proofs.Trans
set_option linter.unusedSectionVars false
set_option linter.unusedSimpArgs false
set_option linter.unusedVariables false
namespace Ginga

/-- What `transition` does between `before` and the return, when `after` succeeds. -/
theorem wp_transition {d : Doc} {r : Rec} {e t} {A U : Prop} {s : St} {Q : Bool → St → Prop}
    (hnone : nextState (s.est e) t = none → Q false s)
    (hsome : ∀ x, nextState (s.est e) t = some x →
      wp A U (before d r e t) (fun b s1 =>
        if b then wp A U (after d r e t) (fun b' s2 =>
            if b' then Q true (s2.addLog e t (s.est e)) else Q false (s2.setEst e (s.est e)))
          (s1.setEst e x)
        else Q false s1) s) :
    wp A U (transition d r e t) Q s := by
  unfold transition
  simp only [wp_bind, wp_get]
  cases hn : nextState (s.est e) t with
  | none => simpa using hnone hn
  | some x =>
    simp only [wp_bind]
    refine wp_mono (hsome x hn) ?_
    intro b s1 h1
    cases b with
    | false => simpa using h1
    | true =>
      simp only [if_true, wp_bind, wp_setEst] at h1 ⊢
      refine wp_mono h1 ?_
      intro b' s2 h2
      cases b' with
      | false => simpa using h2
      | true => simpa [St.addLog] using h2

section
variable {d : Doc} {rank : Oid → Nat} {U : Prop} (h : WF d rank) {r : Rec}
include h

theorem nextState_start {b x : EState} (hn : nextState b .start = some x) :
    x = .occurring ∧ b ≠ .occurring := by
  simp [nextState] at hn; exact ⟨hn.2.symm, hn.1⟩

theorem nextState_stop {b x : EState} {t : Trans} (ht : t = .stop ∨ t = .abort)
    (hn : nextState b t = some x) : x = .sleeping ∧ b ≠ .sleeping := by
  rcases ht with rfl | rfl <;> simp [nextState] at hn <;> exact ⟨hn.2.symm, hn.1⟩

theorem nextState_none_start {b : EState} (hn : nextState b .start = none) : b = .occurring := by
  simp [nextState] at hn; exact hn

theorem nextState_none_stop {b : EState} {t : Trans} (ht : t = .stop ∨ t = .abort)
    (hn : nextState b t = none) : b = .sleeping := by
  rcases ht with rfl | rfl <;> simp [nextState] at hn <;> exact hn

/-- The refused transition. -/
theorem TransPost.refused {s : St} {e t} (hn : nextState (s.est e) t = none) :
    TransPost d rank s e t false s where
  steps := .refl
  fail := fun _ => rfl
  ok := by simp
  chain := by simp
  mono := fun _ _ h => h
  started := by simp
  must := fun ht _ _ ho => by subst ht; exact absurd (nextState_none_start h hn) ho
  sleep := fun _ _ => .inl rfl
  frame := fun _ _ _ => rfl
  stopped := fun ht _ => nextState_none_stop h ht hn

/-! ## Contexts -/

theorem wp_transAll_any (hr : RecSpec d rank U r) (t : Trans) (cs : List Oid) :
    ∀ s, Good d rank s →
    wp True U (transAll d r t cs) (fun _ s' => Steps d rank s s') s := by
  induction cs with
  | nil => intro s hg; simp [transAll]; exact .refl
  | cons c cs ih =>
    intro s hg
    simp only [transAll, wp_bind]
    refine wp_mono (hr.trans _ _ _ hg) ?_
    intro b s1 h1
    refine wp_mono (ih s1 (h1.steps.good h hg)) ?_
    intro _ s2 h2
    exact h1.steps.trans h2

theorem wp_transAll_pr (hr : RecSpec d rank U r) {t : Trans} (ht : t = .pause ∨ t = .resume)
    (o : Oid) (cs : List Oid) (hcs : ∀ c ∈ cs, c ∈ (d.obj o).children) :
    ∀ s, Good d rank s →
    (s.est (d.lam o) ≠ .sleeping ∨ ∃ c ∈ (d.obj o).children, s.est (d.lam c) ≠ .sleeping) →
    wp True U (transAll d r t cs) (fun _ s' => Steps d rank s s' ∧
      (s'.est (d.lam o) ≠ .sleeping ∨
        ∃ c ∈ (d.obj o).children, s'.est (d.lam c) ≠ .sleeping)) s := by
  induction cs with
  | nil => intro s hg hw; simp [transAll]; exact ⟨.refl, by simpa using hw⟩
  | cons c cs ih =>
    intro s hg hw
    simp only [transAll, wp_bind]
    refine wp_mono (hr.trans _ _ _ hg) ?_
    intro b s1 h1
    have hw1 : s1.est (d.lam o) ≠ .sleeping ∨
        ∃ c ∈ (d.obj o).children, s1.est (d.lam c) ≠ .sleeping := by
      cases b with
      | false => rw [h1.fail rfl]; exact hw
      | true =>
        obtain ⟨x, hn, hx⟩ := h1.ok rfl
        exact .inr ⟨c, hcs c (by simp), by
          have hx' : s1.est (d.lam c) = x := hx
          rw [hx']; exact nextState_pr h ht hn⟩
    refine wp_mono (ih (fun x hx => hcs x (by simp [hx])) s1 (h1.steps.good h hg) hw1) ?_
    intro _ s2 h2
    exact ⟨h1.steps.trans h2.1, h2.2⟩

theorem wp_transAll_stop (hr : RecSpec d rank U r) {t : Trans} (ht : t = .stop ∨ t = .abort)
    (k : Nat) (cs : List Oid) :
    ∀ s, Good d rank s → (∀ c ∈ cs, k < rank c) →
    wp True U (transAll d r t cs) (fun _ s' => Steps d rank s s' ∧
      (∀ e', s'.est e' = s.est e' ∨ s'.est e' = .sleeping) ∧
      (∀ e', rank (d.ev e').obj ≤ k → s'.est e' = s.est e') ∧
      (∀ c ∈ cs, s'.est (d.lam c) = .sleeping)) s := by
  induction cs with
  | nil => intro s hg _; simp [transAll]; exact .refl
  | cons c cs ih =>
    intro s hg hk
    simp only [transAll, wp_bind]
    refine wp_mono (hr.trans _ _ _ hg) ?_
    intro b s1 h1
    refine wp_mono (ih s1 (h1.steps.good h hg) (fun x hx => hk x (by simp [hx]))) ?_
    rintro _ s2 ⟨h2, h3, h4, h5⟩
    refine ⟨h1.steps.trans h2, ?_, ?_, ?_⟩
    · intro e'
      rcases h3 e' with h6 | h6
      · rw [h6]; exact h1.sleep ht e'
      · exact .inr h6
    · intro e' he'
      rw [h4 e' he']
      apply h1.frame ht
      rw [h.lam_obj]
      have := hk c (by simp)
      omega
    · intro x hx
      simp at hx
      rcases hx with rfl | hx
      · have h7 := h1.stopped ht (h.lam_typ x)
        rcases h3 (d.lam x) with h6 | h6
        · rw [h6]; exact h7
        · exact h6
      · exact h5 x hx

theorem ctx_trans (hr : RecSpec d rank U r) {e t} {s : St} (hg : Good d rank s)
    (hk : (d.obj (d.ev e).obj).kind = .context) :
    wp True U (transition d r e t) (TransPost d rank s e t) s := by
  have hnm : (d.obj (d.ev e).obj).kind.isMedia ≠ true := by rw [hk]; simp [Kind.isMedia]
  apply wp_transition
  · exact fun hn => TransPost.refused h hn
  intro x hn
  unfold before
  simp only [hk]
  unfold ctxBefore
  cases hty : (d.ev e).typ with
  | presentation =>
    simp only [wp_bind, wp_assert]
    by_cases hl : (d.ev e).isLambda = true
    case neg => simp [hl]
    simp only [hl, if_true]
    have hel := h.lam_uniq e hl
    generalize ho : (d.ev e).obj = o at *
    cases t with
    | start =>
      obtain ⟨rfl, hb⟩ := nextState_start h hn
      simp only [wp_pure, if_true]
      unfold after
      simp only [ho, hk]
      unfold ctxAfter
      simp only [hty, wp_bind, wp_assert, hl, if_true, wp_doStart]
      have hg1 := Good.ctxPre h hg hk .occurring (doStartSt d o (s.setEst (d.lam o) .occurring)).par
      subst hel
      have hg1' : Good d rank (doStartSt d o (s.setEst (d.obj o).lambda .occurring)) := hg1
      refine wp_mono (wp_startParent h hr hg1') ?_
      intro _ s2 h2
      simp only [wp_bind, wp_get]
      -- the common tail
      have tail : ∀ q pr, Chain d o s ({ s2.setDelayed o q with par := pr }.addLog
          (d.lam o) .start (s.est (d.lam o))) := by
        intro q pr
        rcases h2 with ⟨rfl, hp⟩ | ⟨p, pr', hp, hsl, hc⟩
        · exact .top hk hb hp
        · exact .up hk hb hp hsl hc
      have fin : ∀ s', Chain d o s s' → TransPost d rank s (d.obj o).lambda .start true s' := by
        intro s' hc
        refine ⟨.one (.ctxStart o hc), by simp, ?_, ?_, ?_, ?_, ?_, ?_, ?_, ?_⟩
        · intro _; exact ⟨_, hn, Chain.self h hc⟩
        · intro _ _ _ _; rw [ho]; exact hc
        · intro _ e' he'; exact Chain.mono h hc e' he'
        · intro _ _ _ hm; rw [ho] at hm; exact absurd hm hnm
        · intros; rfl
        · simp
        · simp
        · simp
      split
      · simp only [wp_pure, if_true]
        have := fin _ (tail (s2.delayed o) s2.par)
        rw [setDelayed_self] at this
        exact this
      · simp only [wp_bind, wp_queuePorts, wp_setPar, wp_pure, if_true]
        obtain ⟨q, hq⟩ := queuePortsSt_eq (d := d) o (d.obj o).ports s2
        rw [hq]
        exact fin _ (tail q _)
    | stop =>
      obtain ⟨rfl, hb⟩ := nextState_stop h (.inl rfl) hn
      simp only [wp_bind]
      refine wp_mono (wp_transAll_stop h hr (.inl rfl) (rank o) _ s hg
        (fun c hc => h.rank_lt _ _ ((h.mem_children _ _).1 hc))) ?_
      rintro _ s1 ⟨h1, h2, h3, h4⟩
      simp only [wp_pure, if_true]
      unfold after
      simp only [ho, hk]
      unfold ctxAfter
      simp only [hty, wp_bind, wp_assert, hl, if_true, wp_doStop, wp_pure]
      subst hel
      have hsame : s1.est (d.lam o) = s.est (d.lam o) := h3 _ (by rw [h.lam_obj]; exact Nat.le_refl _)
      have heq : doStopSt d o (s1.setEst (d.obj o).lambda .sleeping) = doStopSt d o s1 := by
        have : resetEvents (d.obj o).events (s1.setEst (d.obj o).lambda .sleeping).est
            = resetEvents (d.obj o).events s1.est := by
          funext e'; simp only [h.reset_apply]; split
          · rfl
          · next hne => 
            have : e' ≠ (d.obj o).lambda := by rintro rfl; exact hne (h.lam_obj o)
            simp [this]
        unfold doStopSt
        rw [this]; rfl
      rw [heq]
      have hst : Steps d rank s ((doStopSt d o s1).addLog (d.obj o).lambda .stop (s.est (d.obj o).lambda)) := by
        refine h1.tail ?_
        have := Atom.ctxStop (rank := rank) (s := s1) o .stop hk (by rw [hsame]; exact hb) (.inl rfl) h4
        rw [hsame] at this
        exact this
      refine ⟨hst, by simp, ?_, by simp, by simp, by simp, by simp, ?_, ?_, ?_⟩
      · intro _; exact ⟨_, hn, by simp [h.reset_apply, h.lam_obj]⟩
      · intro _ e'
        simp only [addLog_est, doStopSt_est, h.reset_apply]
        split
        · exact .inr rfl
        · exact h2 e'
      · intro _ e' he'
        have : (d.ev e').obj ≠ o := by rintro hx; rw [ho, hx] at he'; omega
        simp only [addLog_est, doStopSt_est, h.reset_apply, this, if_false]
        apply h3; rw [ho] at he'; omega
      · intro _ _; simp [h.reset_apply, h.lam_obj]
    | abort =>
      obtain ⟨rfl, hb⟩ := nextState_stop h (.inr rfl) hn
      simp only [wp_bind]
      refine wp_mono (wp_transAll_stop h hr (.inr rfl) (rank o) _ s hg
        (fun c hc => h.rank_lt _ _ ((h.mem_children _ _).1 hc))) ?_
      rintro _ s1 ⟨h1, h2, h3, h4⟩
      simp only [wp_pure, if_true]
      unfold after
      simp only [ho, hk]
      unfold ctxAfter
      simp only [hty, wp_bind, wp_assert, hl, if_true, wp_doStop, wp_pure]
      subst hel
      have hsame : s1.est (d.lam o) = s.est (d.lam o) := h3 _ (by rw [h.lam_obj]; exact Nat.le_refl _)
      have heq : doStopSt d o (s1.setEst (d.obj o).lambda .sleeping) = doStopSt d o s1 := by
        have : resetEvents (d.obj o).events (s1.setEst (d.obj o).lambda .sleeping).est
            = resetEvents (d.obj o).events s1.est := by
          funext e'; simp only [h.reset_apply]; split
          · rfl
          · next hne => 
            have : e' ≠ (d.obj o).lambda := by rintro rfl; exact hne (h.lam_obj o)
            simp [this]
        unfold doStopSt
        rw [this]; rfl
      rw [heq]
      have hst : Steps d rank s ((doStopSt d o s1).addLog (d.obj o).lambda .abort (s.est (d.obj o).lambda)) := by
        refine h1.tail ?_
        have := Atom.ctxStop (rank := rank) (s := s1) o .abort hk (by rw [hsame]; exact hb) (.inr rfl) h4
        rw [hsame] at this
        exact this
      refine ⟨hst, by simp, ?_, by simp, by simp, by simp, by simp, ?_, ?_, ?_⟩
      · intro _; exact ⟨_, hn, by simp [h.reset_apply, h.lam_obj]⟩
      · intro _ e'
        simp only [addLog_est, doStopSt_est, h.reset_apply]
        split
        · exact .inr rfl
        · exact h2 e'
      · intro _ e' he'
        have : (d.ev e').obj ≠ o := by rintro hx; rw [ho, hx] at he'; omega
        simp only [addLog_est, doStopSt_est, h.reset_apply, this, if_false]
        apply h3; rw [ho] at he'; omega
      · intro _ _; simp [h.reset_apply, h.lam_obj]
    | pause =>
      simp only [wp_bind]
      have hw0 : s.est (d.lam o) ≠ .sleeping := by
        have he : e = d.lam o := hel
        rw [← he]; intro h0; rw [h0] at hn; simp [nextState] at hn
      refine wp_mono (wp_transAll_pr h hr (.inl rfl) o _ (fun _ hc => hc) s hg (.inl hw0)) ?_
      rintro _ s1 ⟨h1, hw1⟩
      simp only [wp_pure, if_true]
      unfold after
      simp only [ho, hk]
      unfold ctxAfter
      simp only [hty, wp_bind, wp_assert, hl, if_true, wp_pure]
      subst hel
      refine ⟨h1.tail (.ctxSet o .pause _ x hk (.inl rfl) hn hw1), by simp, ?_, by simp, by simp,
        by simp, by simp, by simp, by simp, by simp⟩
      intro _; exact ⟨x, hn, by simp⟩
    | resume =>
      simp only [wp_bind]
      have hw0 : s.est (d.lam o) ≠ .sleeping := by
        have he : e = d.lam o := hel
        rw [← he]; intro h0; rw [h0] at hn; simp [nextState] at hn
      refine wp_mono (wp_transAll_pr h hr (.inr rfl) o _ (fun _ hc => hc) s hg (.inl hw0)) ?_
      rintro _ s1 ⟨h1, hw1⟩
      simp only [wp_pure, if_true]
      unfold after
      simp only [ho, hk]
      unfold ctxAfter
      simp only [hty, wp_bind, wp_assert, hl, if_true, wp_pure]
      subst hel
      refine ⟨h1.tail (.ctxSet o .resume _ x hk (.inr rfl) hn hw1), by simp, ?_, by simp, by simp,
        by simp, by simp, by simp, by simp, by simp⟩
      intro _; exact ⟨x, hn, by simp⟩
  | attribution =>
    simp only [wp_pure, if_true]
    unfold after
    simp only [hk]
    unfold ctxAfter
    simp only [hty]
    cases t with
    | start =>
      obtain ⟨rfl, hb⟩ := nextState_start h hn
      simp only [wp_bind]
      refine wp_mono (wp_attribStart rfl (fun hm => absurd hm hnm)) ?_
      intro _ s1 q1
      simp only [wp_pure, if_true]
      have q2 := q1.addLog e .start (s.est e)
      have hst : Steps d rank s (s1.addLog e .start (s.est e)) :=
        .head (.other e .start _ _ (by rw [hty]; simp) hn) q2.steps
      refine ⟨hst, by simp, ?_, ?_, ?_, ?_, ?_, by simp, by simp, by simp⟩
      · intro _; exact ⟨_, hn, by simp [q1.est]⟩
      · intro _ _ hl; simp [EvDecl.isLambda, hty] at hl
      · intro _ e' he'
        by_cases heq : e' = e
        · subst heq; simp [q1.est]
        · simpa [q1.est, heq] using he'
      · intro _ _ hp; rw [hty] at hp; cases hp
      · intro _ hp; rw [hty] at hp; cases hp
    | stop =>
      obtain ⟨rfl, hb⟩ := nextState_stop h (.inl rfl) hn
      simp only [wp_pure, if_true]
      refine ⟨.one (.other e .stop _ _ (by rw [hty]; simp) hn), by simp, ?_, by simp, by simp,
        by simp, by simp, ?_, ?_, ?_⟩
      · intro _; exact ⟨_, hn, by simp⟩
      · intro _ e'
        by_cases heq : e' = e
        · subst heq; simp
        · simp [heq]
      · intro _ e' he'
        have : e' ≠ e := by rintro rfl; omega
        simp [this]
      · intro _ hp; rw [hty] at hp; cases hp
    | _ => trivial
  | selection =>
    simp only [wp_pure]
    refine ⟨.refl, fun _ => rfl, by simp, by simp, fun _ _ h => h, by simp, ?_, fun _ _ => .inl rfl,
      fun _ _ _ => rfl, ?_⟩
    · intro _ hp; rw [hty] at hp; cases hp
    · intro _ hp; rw [hty] at hp; cases hp
  | lookat => trivial

end
end Ginga
