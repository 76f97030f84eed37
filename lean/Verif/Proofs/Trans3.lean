import Verif.Proofs.Trans2
/-! # Transitions of medias -/
set_option linter.unusedSectionVars false
set_option linter.unusedSimpArgs false
set_option linter.unusedVariables false
namespace Ginga
section
variable {d : Doc} {rank : Oid → Nat} {U : Prop} (h : WF d rank) {r : Rec}

theorem wp_createPlayer {o : Oid} {s : St} :
    wp True U (createPlayer d o) (fun _ s' => ∃ props focus p,
      s' = { s with props := props, focus := focus }.setPlayer o (some p)) s := by
  unfold createPlayer
  simp only [wp_bind, wp_get, wp_assert]
  by_cases hp : (s.player o).isNone = true
  case neg => simp [hp]
  simp at hp
  simp only [hp, Option.isNone_none, if_true, wp_modify]
  split
  · trivial
  · simp only [wp_bind]
    refine wp_mono (wp_mediaSetProp_none (by simpa [St.setProps] using hp)) ?_
    rintro _ s1 ⟨props, focus, rfl⟩
    simp only [wp_modify, wp_bind, wp_get]
    refine wp_mono (wp_playerSetProps (p := {}) _ (by simp)) ?_
    rintro _ s2 ⟨p', rfl⟩
    refine ⟨props, focus, { p' with st := .occurring, time := 0, eos := false }, ?_⟩
    simp [St.setProps, St.setPlayer]

include h

theorem wp_anchorFilter (hr : RecSpec d rank U r) (o : Oid) (b f : Nat) (l : List (Act × Nat)) :
    ∀ s, Good d rank s → OwnQ d o l →
    wp True U (anchorFilter r b f l) (fun q s' => Steps d rank s s' ∧
      (∀ e', s.est e' ≠ .sleeping → s'.est e' ≠ .sleeping) ∧ OwnQ d o q) s := by
  induction l with
  | nil => intro s hg hl; simp [anchorFilter]; exact ⟨.refl, by simp [OwnQ]⟩
  | cons a l ih =>
    intro s hg hl
    obtain ⟨a, t⟩ := a
    have hl' : OwnQ d o l := fun p hp => hl p (by simp [hp])
    simp only [anchorFilter]
    split
    · split
      · simp only [wp_bind]
        refine wp_mono (hr.trans _ _ _ hg) ?_
        intro _ s1 h1
        refine wp_mono (ih s1 (h1.steps.good h hg) hl') ?_
        rintro q s2 ⟨h2, h3, h4⟩
        exact ⟨h1.steps.trans h2, fun e' he' => h3 e' (h1.mono rfl e' he'), h4⟩
      · exact ih s hg hl'
    · simp only [wp_bind]
      refine wp_mono (ih s hg hl') ?_
      rintro q s2 ⟨h2, h3, h4⟩
      simp only [wp_pure]
      refine ⟨h2, h3, ?_⟩
      intro p hp
      simp at hp
      rcases hp with rfl | hp
      · exact hl (a, t) (by simp)
      · exact h4 p hp

theorem wp_anchorStart (hr : RecSpec d rank U r) {o : Oid} {e : Eid} {s : St}
    (hg : Good d rank s) (he : (d.ev e).obj = o) (hm : (d.obj o).kind.isMedia = true)
    (hsl : s.est (d.lam o) = .sleeping) :
    wp True U (anchorStart d r o e) (fun _ s' => Steps d rank s s' ∧
      (∀ e', s.est e' ≠ .sleeping → s'.est e' ≠ .sleeping) ∧
      s'.est (d.lam o) ≠ .sleeping) s := by
  unfold anchorStart
  simp only [wp_bind]
  refine wp_mono (hr.trans _ _ _ hg) ?_
  intro b s1 h1
  have hb : b = true := h1.must rfl (h.lam_typ o)
    (by rw [h.lam_obj]; intro hk; rw [hk] at hm; cases hm) (by rw [hsl]; simp)
  have hns : s1.est (d.lam o) ≠ .sleeping := by
    have := h1.started hb rfl (h.lam_typ o) (by rw [h.lam_obj]; exact hm)
    rwa [h.lam_obj] at this
  have hg1 := h1.steps.good h hg
  obtain ⟨p, hp⟩ : ∃ p, s1.player o = some p := by
    cases hp : s1.player o with
    | none => exact absurd ((hg1.player o hm).2 hp) hns
    | some p => exact ⟨p, rfl⟩
  refine wp_mono (wp_playerSetProp hp) ?_
  rintro _ s2 ⟨p2, rfl⟩
  have q2 : Quiet d o s1 (s1.setPlayer o (some p2)) := Quiet.playerSt _ p _ hp
  -- the end of the function, in a state reached quietly
  have key : ∀ s3, Quiet d o s1 s3 → wp True U M.get (fun a s' =>
      wp True U (anchorFilter r (if (d.ev e).begin_ = NONE then 0 else (d.ev e).begin_) (d.ev e).end_
        (a.delayed o)) (fun a s' => wp True U (M.modify fun s => s.setDelayed o a)
          (fun _ s' => Steps d rank s s' ∧ (∀ e', s.est e' ≠ .sleeping → s'.est e' ≠ .sleeping) ∧
      s'.est (d.lam o) ≠ .sleeping) s') s') s3 := by
    intro s3 q3
    simp only [wp_get]
    have hg3 := (q3.steps (rank := rank)).good h hg1
    refine wp_mono (wp_anchorFilter h hr o _ _ _ s3 hg3 (hg3.queue o hm)) ?_
    rintro q s4 ⟨h4, h5, h6⟩
    simp only [wp_modify, setDelayed_est]
    refine ⟨?_, ?_, ?_⟩
    · exact ((h1.steps.trans q3.steps).trans h4).tail (.queue o q (fun _ _ => h6))
    · intro e' he'; apply h5; rw [q3.est]; exact h1.mono rfl e' he'
    · apply h5; rw [q3.est]; exact hns
  split
  · simp only [wp_bind]
    refine wp_mono (wp_playerSetProp (p := p2) (by simp)) ?_
    rintro _ s3 ⟨p3, rfl⟩
    simp only [wp_addDelayed]
    refine key _ ?_
    have q3 : Quiet d o s1 ((s1.setPlayer o (some p2)).setPlayer o (some p3)) :=
      q2.trans (Quiet.playerSt _ p2 _ (by simp))
    exact q3.trans (Quiet.addDelayedSt _ _ _ _ _ (fun _ => ⟨he, by simp⟩))
  · simp only [wp_bind, wp_pure]
    exact key _ q2

theorem wp_evalAnchors (hr : RecSpec d rank U r) (t : Trans) (es : List Eid) :
    ∀ s, Good d rank s → wp True U (evalAnchors d r t es) (fun _ s' => Steps d rank s s') s := by
  induction es with
  | nil => intro s hg; simp [evalAnchors]; exact .refl
  | cons e es ih =>
    intro s hg
    simp only [evalAnchors]
    split
    · simp only [wp_bind]
      refine wp_mono (hr.evalA _ _ hg) ?_
      intro _ s1 h1
      refine wp_mono (ih s1 (h1.good h hg)) ?_
      intro _ s2 h2
      exact h1.trans h2
    · exact ih s hg

omit h in
theorem wp_playerPause {o : Oid} {b : Bool} {s : St} :
    wp True U (playerPause o b) (fun _ s' => ∃ p p', s.player o = some p ∧
      s' = s.setPlayer o (some p')) s := by
  unfold wp playerPause
  cases hp : s.player o with
  | none => trivial
  | some p =>
    cases b with
    | true =>
      simp only [if_true]
      by_cases hps : p.st = .paused
      · simp [hps]; exact ⟨_, rfl⟩
      · simp [hps]
    | false =>
      simp only [Bool.false_eq_true, if_false]
      by_cases hps : p.st = .occurring
      · simp [hps]; exact ⟨_, rfl⟩
      · simp [hps]

/-- A transition that only sets the state of an event that is not a presentation event. -/
theorem TransPost.other {s s' : St} {e t x} (hty : (d.ev e).typ ≠ .presentation)
    (hn : nextState (s.est e) t = some x) (hs : Steps d rank s s')
    (he : s'.est = upd s.est e x) : TransPost d rank s e t true s' where
  steps := hs
  fail := by simp
  ok := fun _ => ⟨x, hn, by simp [he]⟩
  chain := fun _ _ hl => by simp [EvDecl.isLambda] at hl; exact absurd hl.1 hty
  mono := fun ht e' he' => by
    subst ht
    obtain ⟨rfl, -⟩ := nextState_start h hn
    by_cases heq : e' = e
    · subst heq; simp [he]
    · simpa [he, heq] using he'
  started := fun _ _ hp => absurd hp hty
  must := fun _ hp => absurd hp hty
  sleep := fun ht e' => by
    obtain ⟨rfl, -⟩ := nextState_stop h ht hn
    by_cases heq : e' = e
    · subst heq; simp [he]
    · simp [he, heq]
  frame := fun ht e' he' => by
    have : e' ≠ e := by rintro rfl; omega
    simp [he, this]
  stopped := fun _ hp => absurd hp hty

/-- STOP and ABORT of a presentation event of a media. -/
theorem media_stop {e t x} {s : St} (hg : Good d rank s)
    (hm : (d.obj (d.ev e).obj).kind.isMedia = true) (hty : (d.ev e).typ = .presentation)
    (hn : nextState (s.est e) t = some x) (ht : t = .stop ∨ t = .abort) :
    wp True U (pure true : M Bool) (fun b s1 =>
      if b = true then wp True U (
        if (d.ev e).isLambda then do
          let s ← M.get
          M.assert (s.player (d.ev e).obj).isSome
          mediaDoStop d (d.ev e).obj
          pure true
        else if (d.ev e).label ≠ "" then do playerSendLabel (d.ev e).obj; pure true
        else do
          let s ← M.get
          M.assert (isOccurring d s (d.ev e).obj)
          pure true)
        (fun b' s2 => if b' = true then TransPost d rank s e t true (s2.addLog e t (s.est e))
          else TransPost d rank s e t false (s2.setEst e (s.est e))) (s1.setEst e x)
      else TransPost d rank s e t false s1) s := by
  obtain ⟨rfl, hb⟩ := nextState_stop h ht hn
  simp only [wp_pure, if_true]
  by_cases hl : (d.ev e).isLambda = true
  · have hel := h.lam_uniq e hl
    generalize ho : (d.ev e).obj = o at *
    subst hel
    simp only [hl, if_true, wp_bind, wp_get, wp_assert, setEst_player]
    by_cases hp : (s.player o).isSome = true
    case neg => simp [hp]
    simp only [hp, if_true]
    unfold mediaDoStop
    simp only [wp_bind, wp_get, setEst_player]
    cases hpl : s.player o with
    | none => rw [hpl] at hp; cases hp
    | some p =>
      simp only [wp_bind, wp_modify, wp_doStop, wp_pure, if_true]
      have heq : doStopSt d o ((s.setEst (d.obj o).lambda .sleeping).setPlayer o none)
          = doStopSt d o (s.setPlayer o none) := by
        have : resetEvents (d.obj o).events ((s.setEst (d.obj o).lambda .sleeping).setPlayer o none).est
            = resetEvents (d.obj o).events (s.setPlayer o none).est := by
          funext e'; simp only [h.reset_apply]; split
          · rfl
          · next hne =>
            have : e' ≠ (d.obj o).lambda := by rintro rfl; exact hne (h.lam_obj o)
            simp [this]
        unfold doStopSt
        rw [this]; rfl
      rw [heq]
      have hntr : t ≠ .start := by rcases ht with rfl | rfl <;> simp
      refine ⟨.one (.mediaStop o t hm hb ht), by simp, ?_, ?_, ?_, ?_, ?_, ?_, ?_, ?_⟩
      · intro _; exact ⟨_, hn, by simp [h.reset_apply, h.lam_obj]⟩
      · intro _ hx; exact absurd hx hntr
      · intro hx; exact absurd hx hntr
      · intro _ hx; exact absurd hx hntr
      · intro hx; exact absurd hx hntr
      · intro _ e'
        simp only [addLog_est, doStopSt_est, h.reset_apply, setPlayer_est]
        split
        · exact .inr rfl
        · exact .inl rfl
      · intro _ e' he'
        have : (d.ev e').obj ≠ o := by rintro hx; rw [ho, hx] at he'; omega
        simp only [addLog_est, doStopSt_est, h.reset_apply, this, if_false, setPlayer_est]
      · intro _ _; simp [h.reset_apply, h.lam_obj]
  · have hl' : (d.ev e).isLambda = false := by simpa using hl
    have hns : s.est (d.lam (d.ev e).obj) ≠ .sleeping := fun hs => hb (hg.anchor e hm hty hs)
    have hntr : t ≠ .start := by rcases ht with rfl | rfl <;> simp
    have post : TransPost d rank s e t true ((s.setEst e .sleeping).addLog e t (s.est e)) := by
      refine ⟨.one (.anchor e t _ _ hm hl' hty hn (by simp)), by simp, ?_, ?_, ?_, ?_, ?_, ?_, ?_, ?_⟩
      · intro _; exact ⟨_, hn, by simp⟩
      · intro _ hx; exact absurd hx hntr
      · intro hx; exact absurd hx hntr
      · intro _ hx; exact absurd hx hntr
      · intro hx; exact absurd hx hntr
      · intro _ e'
        by_cases heq : e' = e
        · subst heq; simp
        · simp [heq]
      · intro _ e' he'
        have : e' ≠ e := by rintro rfl; omega
        simp [this]
      · intro _ _; simp
    simp only [hl', if_false, Bool.false_eq_true]
    split
    · simp only [wp_bind]
      have : (s.setEst e .sleeping).player (d.ev e).obj ≠ none := by
        intro hp; exact hns ((hg.player _ hm).2 hp)
      unfold wp playerSendLabel
      cases hp : (s.setEst e .sleeping).player (d.ev e).obj with
      | none => exact absurd hp this
      | some p => exact post
    · simp only [wp_bind, wp_get, wp_assert]
      split
      · exact post
      · trivial

theorem media_trans (hr : RecSpec d rank U r) (hU : CompoundAttr d → U) {e t} {s : St}
    (hg : Good d rank s) (hm : (d.obj (d.ev e).obj).kind.isMedia = true) :
    wp True U (transition d r e t) (TransPost d rank s e t) s := by
  have hbef : before d r e t = mediaBefore d r (d.ev e).obj e t := by
    unfold before; cases hk : (d.obj (d.ev e).obj).kind <;> first | rfl | (rw [hk] at hm; cases hm)
  have haft : after d r e t = mediaAfter d r (d.ev e).obj e t := by
    unfold after; cases hk : (d.obj (d.ev e).obj).kind <;> first | rfl | (rw [hk] at hm; cases hm)
  have hnctx : (d.obj (d.ev e).obj).kind ≠ .context := isMedia_ne_ctx hm
  apply wp_transition
  · exact fun hn => TransPost.refused h hn
  intro x hn
  rw [hbef, haft]
  unfold mediaBefore mediaAfter
  cases hty : (d.ev e).typ with
  | presentation =>
    cases t with
    | start =>
      obtain ⟨rfl, hb⟩ := nextState_start h hn
      simp only [wp_bind]
      refine wp_mono (wp_startParent h hr hg) ?_
      intro _ s1 hsp
      have hsame : ∀ e', (d.obj (d.ev e').obj).kind ≠ .context → s1.est e' = s.est e' := by
        intro e' hk
        rcases hsp with ⟨rfl, -⟩ | ⟨p, pr, hp, hsl, hc⟩
        · rfl
        · exact Chain.media h hc e' hk
      have hsteps : Steps d rank s s1 := by
        rcases hsp with ⟨rfl, -⟩ | ⟨p, pr, hp, hsl, hc⟩
        · exact .refl
        · exact .tail (.one (.misc pr _ _ _)) (.ctxStart p hc)
      have hmono : ∀ e', s.est e' ≠ .sleeping → s1.est e' ≠ .sleeping := by
        intro e' he'
        rcases hsp with ⟨rfl, -⟩ | ⟨p, pr, hp, hsl, hc⟩
        · exact he'
        · exact Chain.mono h hc e' he'
      have hpar : ∀ q, d.ctxParent (d.ev e).obj = some q → s1.est (d.lam q) ≠ .sleeping := by
        intro q hq
        rcases hsp with ⟨rfl, hp⟩ | ⟨p, pr, hp, hsl, hc⟩
        · exact hp q hq
        · rw [hp] at hq; cases hq; rw [Chain.self h hc]; simp
      have hg1 := hsteps.good h hg
      have hse := hsame e hnctx
      simp only [wp_get]
      -- the common end for the lambda
      by_cases hl : (d.ev e).isLambda = true
      · have hel := h.lam_uniq e hl
        generalize ho : (d.ev e).obj = o at *
        subst hel
        have hevs : ∀ e' ∈ (d.obj o).events, (d.ev e').obj = o := fun e' he' => (h.mem_events _ _).1 he'
        have fin : ∀ s2 : St, Steps d rank s ((doStartSt d o (s2.setEst (d.lam o) .occurring)).addLog
            (d.lam o) .start (s.est (d.lam o))) → s2.est = s1.est → (s2.player o).isSome = true →
            wp True U (do let s ← M.get
                          M.assert (s.player o).isSome
                          doStart d o
                          queueAnchors d o (d.obj o).events
                          pure true) (fun b' s2 =>
              if b' = true then TransPost d rank s (d.obj o).lambda .start true
                (s2.addLog (d.obj o).lambda .start (s.est (d.obj o).lambda))
              else TransPost d rank s (d.obj o).lambda .start false
                (s2.setEst (d.obj o).lambda (s.est (d.obj o).lambda))) (s2.setEst (d.obj o).lambda .occurring) := by
          intro s2 hst he2 hp2
          simp only [wp_bind, wp_get, wp_assert, setEst_player, hp2, if_true, wp_doStart,
            wp_queueAnchors, wp_pure]
          obtain ⟨q, hq, hown⟩ := queueAnchorsSt_eq (d := d) o (d.obj o).events
            (doStartSt d o (s2.setEst (d.obj o).lambda .occurring)) hevs
          rw [hq]
          have hmono' : ∀ e', s.est e' ≠ .sleeping →
              (upd s2.est (d.obj o).lambda EState.occurring) e' ≠ .sleeping := by
            intro e' he'
            by_cases heq : e' = (d.obj o).lambda
            · subst heq; simp
            · simpa [heq, he2] using hmono e' he'
          refine ⟨hst.tail ?_, by simp, ?_, ?_, ?_, ?_, ?_, by simp, by simp, by simp⟩
          · exact .queue o q (fun _ => hown)
          · intro _; exact ⟨_, hn, by simp⟩
          · intro _ _ _ hk; rw [ho] at hk; exact absurd hk hnctx
          · intro _ e' he'; simpa using hmono' e' he'
          · intro _ _ _ _; simp [ho]
          · intros; rfl
        by_cases hsl : s.est (d.obj o).lambda = .sleeping
        · simp only [hse, hsl, if_true, hl, wp_bind]
          refine wp_mono wp_createPlayer ?_
          rintro _ s2 ⟨props, focus, p, rfl⟩
          simp only [wp_pure, if_true]
          rw [← hsl]
          have key := fin (({ s1 with props := props, focus := focus } : St).setPlayer o (some p)) ?_ rfl (by simp)
          · simpa only [wp_bind, wp_pure, if_true] using key
          have a1 : Atom d rank s1 { s1 with props := props, focus := focus } :=
            .misc s1.par props focus s1.nextFocus
          have a2 := Atom.mediaStart (rank := rank) (s := { s1 with props := props, focus := focus }) o p hm
            (by show s1.est _ = _; rw [hse, hsl]) hpar
          rw [hsl]
          exact (hsteps.tail a1).tail a2
        · have hpa : s.est (d.obj o).lambda = .paused := by
            cases hx : s.est (d.obj o).lambda <;> simp_all
          simp only [hse, hpa, if_true, hl, reduceCtorEq, if_false, wp_pure]
          rw [← hpa]
          refine fin _ ?_ rfl ?_
          · have a2 := Atom.mediaRestart (rank := rank) (s := s1) o hm (by show s1.est _ = _; rw [hse, hpa])
            rw [← hpa] at a2
            exact hsteps.tail a2
          · cases hp : s1.player o with
            | none => 
              have := (hg1.player o hm).2 hp
              rw [show d.lam o = (d.obj o).lambda from rfl, hse, hpa] at this; cases this
            | some p => rfl
      · -- a proper anchor
        simp only [hl, if_false, Bool.false_eq_true]
        have hl' : (d.ev e).isLambda = false := by simpa using hl
        have fin : ∀ s2, Steps d rank s1 s2 → (∀ e', s1.est e' ≠ .sleeping → s2.est e' ≠ .sleeping) →
            s2.est (d.lam (d.ev e).obj) ≠ .sleeping →
            wp True U (if ¬(d.ev e).label = "" then do playerSendLabel (d.ev e).obj; pure true else pure true)
            (fun b' s2 =>
              if b' = true then TransPost d rank s e .start true (s2.addLog e .start (s.est e))
              else TransPost d rank s e .start false (s2.setEst e (s.est e))) (s2.setEst e .occurring) := by
          intro s2 h12 hm2 hls
          have hg2 := h12.good h hg1
          have post : TransPost d rank s e .start true
              ((s2.setEst e .occurring).addLog e .start (s.est e)) := by
            refine ⟨?_, by simp, ?_, ?_, ?_, ?_, ?_, by simp, by simp, by simp⟩
            · exact (hsteps.trans h12).tail (.anchor e .start _ _ hm hl' hty hn (fun _ => hls))
            · intro _; exact ⟨_, hn, by simp⟩
            · intro _ _ hl2; rw [hl'] at hl2; cases hl2
            · intro _ e' he'
              by_cases heq : e' = e
              · subst heq; simp
              · simpa [heq] using hm2 e' (hmono e' he')
            · intro _ _ _ _
              have : d.lam (d.ev e).obj ≠ e := by
                intro heq; rw [← heq, h.lam_is] at hl'; cases hl'
              simpa [this] using hls
            · intros; rfl
          split
          · simp only [wp_bind]
            have : (s2.setEst e .occurring).player (d.ev e).obj ≠ none := by
              intro hp; exact hls ((hg2.player _ hm).2 hp)
            unfold wp playerSendLabel
            cases hp : (s2.setEst e .occurring).player (d.ev e).obj with
            | none => exact absurd hp this
            | some p => exact post
          · exact post
        by_cases hsl : s.est e = .sleeping
        · simp only [hse, hsl, if_true]
          by_cases hlam : s1.est (d.lam (d.ev e).obj) = .sleeping
          · simp only [hlam, ne_eq, not_true_eq_false, if_false, wp_bind]
            refine wp_mono (wp_anchorStart h hr hg1 rfl hm hlam) ?_
            rintro _ s2 ⟨h2, h3, h4⟩
            simp only [wp_pure, if_true]
            rw [← hsl]
            exact fin s2 h2 h3 h4
          · simp only [hlam, ne_eq, not_false_eq_true, if_true, wp_pure]
            rw [← hsl]
            exact fin s1 .refl (fun _ h => h) hlam
        · simp only [hse, hsl, if_false, wp_pure, if_true]
          refine fin s1 .refl (fun _ h => h) ?_
          intro hlam
          exact hsl (hse ▸ hg1.anchor e hm hty hlam)
    | pause =>
      have hx := nextState_pr h (.inl rfl) hn
      by_cases hl : (d.ev e).isLambda = true
      · have hel := h.lam_uniq e hl
        generalize ho : (d.ev e).obj = o at *
        subst hel
        simp only [hl, if_true, wp_bind]
        refine wp_mono (wp_evalAnchors h hr .pause _ s hg) ?_
        intro _ s1 h1
        refine wp_mono wp_playerPause ?_
        rintro _ s2 ⟨p, p', hp, rfl⟩
        simp only [wp_pure, if_true]
        have hg1 := h1.good h hg
        have hns : s1.est (d.lam o) ≠ .sleeping := by
          intro hs; rw [(hg1.player o hm).1 hs] at hp; cases hp
        refine ⟨h1.tail (.mediaSet o .pause _ x p' hm hns (.inl rfl) hn), by simp, ?_, by simp, by simp,
          by simp, by simp, by simp, by simp, by simp⟩
        intro _; exact ⟨x, hn, by simp⟩
      · have hl' : (d.ev e).isLambda = false := by simpa using hl
        simp only [hl, if_false, wp_pure, if_true, Bool.false_eq_true]
        refine ⟨.one (.anchor e .pause _ x hm hl' hty hn ?_), by simp, ?_, by simp, by simp, by simp,
          by simp, by simp, by simp, by simp⟩
        · intro _ hs; have := hg.anchor e hm hty hs
          simp [nextState, this] at hn
        · intro _; exact ⟨x, hn, by simp⟩
    | resume =>
      have hx := nextState_pr h (.inr rfl) hn
      by_cases hl : (d.ev e).isLambda = true
      · have hel := h.lam_uniq e hl
        generalize ho : (d.ev e).obj = o at *
        subst hel
        simp only [hl, if_true, wp_bind]
        refine wp_mono (wp_evalAnchors h hr .resume _ s hg) ?_
        intro _ s1 h1
        refine wp_mono wp_playerPause ?_
        rintro _ s2 ⟨p, p', hp, rfl⟩
        simp only [wp_pure, if_true]
        have hg1 := h1.good h hg
        have hns : s1.est (d.lam o) ≠ .sleeping := by
          intro hs; rw [(hg1.player o hm).1 hs] at hp; cases hp
        refine ⟨h1.tail (.mediaSet o .resume _ x p' hm hns (.inr rfl) hn), by simp, ?_, by simp, by simp,
          by simp, by simp, by simp, by simp, by simp⟩
        intro _; exact ⟨x, hn, by simp⟩
      · have hl' : (d.ev e).isLambda = false := by simpa using hl
        simp only [hl, if_false, wp_pure, if_true, Bool.false_eq_true]
        refine ⟨.one (.anchor e .resume _ x hm hl' hty hn ?_), by simp, ?_, by simp, by simp, by simp,
          by simp, by simp, by simp, by simp⟩
        · intro _ hs; have := hg.anchor e hm hty hs
          simp [nextState, this] at hn
        · intro _; exact ⟨x, hn, by simp⟩
    | stop => exact media_stop h hg hm hty hn (.inl rfl)
    | abort => exact media_stop h hg hm hty hn (.inr rfl)
  | attribution =>
    simp only [wp_pure, if_true]
    cases t with
    | start =>
      obtain ⟨rfl, hb⟩ := nextState_start h hn
      simp only [wp_bind]
      refine wp_mono (wp_attribStart rfl (fun _ hc => hU ⟨e, hty, hm, hc⟩)) ?_
      intro _ s1 q1
      simp only [wp_pure, if_true]
      have q2 := q1.addLog e .start (s.est e)
      exact TransPost.other h (by rw [hty]; simp) hn (.head (.other e .start _ _ (by rw [hty]; simp) hn) q2.steps)
        (by simp [q1.est])
    | stop =>
      simp only [wp_pure, if_true]
      exact TransPost.other h (by rw [hty]; simp) hn (.one (.other e .stop _ _ (by rw [hty]; simp) hn)) (by simp)
    | _ => trivial
  | selection =>
    simp only [wp_pure, if_true]
    cases t with
    | start =>
      simp only [wp_pure, if_true]
      exact TransPost.other h (by rw [hty]; simp) hn (.one (.other e .start _ _ (by rw [hty]; simp) hn)) (by simp)
    | stop =>
      simp only [wp_pure, if_true]
      exact TransPost.other h (by rw [hty]; simp) hn (.one (.other e .stop _ _ (by rw [hty]; simp) hn)) (by simp)
    | _ => trivial
  | lookat =>
    simp only [wp_pure, if_true]
    cases t with
    | start =>
      simp only [wp_pure, if_true]
      exact TransPost.other h (by rw [hty]; simp) hn (.one (.other e .start _ _ (by rw [hty]; simp) hn)) (by simp)
    | stop =>
      simp only [wp_pure, if_true]
      exact TransPost.other h (by rw [hty]; simp) hn (.one (.other e .stop _ _ (by rw [hty]; simp) hn)) (by simp)
    | _ => trivial
end
end Ginga
