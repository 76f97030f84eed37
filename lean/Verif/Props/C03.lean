import Verif.Proofs.Witness
/-! # C03 — anchors live inside their media -/
namespace Ginga
open Ex

/-- **C03**, invariant.  In every reachable state all presentation events (anchors) of a
sleeping media are sleeping. -/
theorem C03_anchors_of_sleeping_media {f : Fmt} (hf : Reachable f) {d : Doc} (hd : f.doc = some d)
    (o : Oid) (ho : (d.obj o).kind.isMedia = true) (hs : f.st.est (d.obj o).lambda = .sleeping)
    (e : Eid) (heo : (d.ev e).obj = o) (het : (d.ev e).typ = .presentation) :
    f.st.est e = .sleeping := by
  obtain ⟨rank, hw, hg, -⟩ := hf.ok.inv.good d hd
  exact hg.anchor e (by rw [heo]; exact ho) het (by rw [heo]; exact hs)

/-- **C03**, effect of stopping.  When STOP or ABORT of a media returns `true`, every event of
the media (anchors, attributions, selections) is sleeping, nothing is pending, the clock is
cleared and the player is gone; no event or queue of another object is touched. -/
theorem C03_stop_effect {f : Fmt} (hf : Reachable f) {d : Doc} (hd : f.doc = some d)
    (o : Oid) (ho : (d.obj o).kind.isMedia = true) (t : Trans) (ht : t = .stop ∨ t = .abort)
    (n : Nat) (s' : St) (he : (run d n).trans (d.obj o).lambda t f.st = .ok (true, s')) :
    (∀ e, (d.ev e).obj = o → s'.est e = .sleeping) ∧ s'.delayed o = [] ∧ s'.time o = NONE ∧
    s'.player o = none ∧
    (∀ e, (d.ev e).obj ≠ o → s'.est e = f.st.est e) ∧
    (∀ o', o' ≠ o → s'.delayed o' = f.st.delayed o' ∧ s'.time o' = f.st.time o' ∧
      s'.player o' = f.st.player o') := by
  obtain ⟨rank, hw, hg, -⟩ := hf.ok.inv.good d hd
  cases n with
  | zero => simp [run, M.fuel] at he
  | succ n =>
    have hw' : wp True True (transition d (run d n) (d.obj o).lambda t) (fun b s' => b = true →
        ∃ en, s' = (doStopSt d o ((f.st.setEst (d.obj o).lambda .sleeping).setPlayer o none)).addLog
          (d.obj o).lambda t en) f.st := by
      apply wp_transition
      · intro _ hx; cases hx
      · intro x hn
        obtain ⟨rfl, -⟩ := nextState_stop hw ht hn
        have hb : before d (run d n) (d.obj o).lambda t = pure true := by
          unfold before
          have e1 : (d.ev (d.obj o).lambda).obj = o := hw.lam_obj o
          have e2 : (d.ev (d.obj o).lambda).typ = .presentation := hw.lam_typ o
          rw [e1]
          cases hk : (d.obj o).kind <;> rw [hk] at ho <;> try (cases ho; done)
          all_goals
            simp only [mediaBefore, e2]
            rcases ht with rfl | rfl <;> rfl
        rw [hb, wp_pure, if_pos rfl]
        have ha : after d (run d n) (d.obj o).lambda t = mediaAfter d (run d n) o (d.obj o).lambda t := by
          unfold after
          have e1 : (d.ev (d.obj o).lambda).obj = o := hw.lam_obj o
          rw [e1]
          cases hk : (d.obj o).kind <;> rw [hk] at ho <;> first | rfl | cases ho
        rw [ha]
        unfold mediaAfter
        have e2 : (d.ev (d.obj o).lambda).typ = .presentation := hw.lam_typ o
        have e3 : (d.ev (d.obj o).lambda).isLambda = true := hw.lam_is o
        rw [e2]
        have key : wp True True (do
            let s ← M.get
            M.assert (s.player o).isSome
            mediaDoStop d o
            pure true : M Bool) (fun b' s2 => if b' = true then
              (true = true → ∃ en, s2.addLog (d.obj o).lambda t (f.st.est (d.obj o).lambda) =
              (doStopSt d o ((f.st.setEst (d.obj o).lambda .sleeping).setPlayer o none)).addLog
                (d.obj o).lambda t en) else (false = true → ∃ en,
              s2.setEst (d.obj o).lambda (f.st.est (d.obj o).lambda) =
              (doStopSt d o ((f.st.setEst (d.obj o).lambda .sleeping).setPlayer o none)).addLog
                (d.obj o).lambda t en))
            (f.st.setEst (d.obj o).lambda .sleeping) := by
          simp only [wp_bind, wp_get, wp_assert]
          split
          · unfold mediaDoStop
            simp only [wp_bind, wp_get]
            cases hp : (f.st.setEst (d.obj o).lambda .sleeping).player o with
            | none => next hs => rw [hp] at hs; cases hs
            | some p =>
              simp only [wp_bind, wp_modify, wp_doStop, wp_pure, if_true]
              intro _; exact ⟨_, rfl⟩
          · trivial
        rcases ht with rfl | rfl
        · simp only [e3, if_true] at key ⊢; exact key
        · simp only [e3, if_true] at key ⊢; exact key
    obtain ⟨en, rfl⟩ := wp_ok hw' he rfl
    refine ⟨?_, by simp, by simp, by simp, ?_, ?_⟩
    · intro e he; simp [hw.reset_apply, he]
    · intro e he
      have : e ≠ (d.obj o).lambda := by rintro rfl; exact he (hw.lam_obj o)
      simp [hw.reset_apply, he, this]
    · intro o' ho'; simp [ho']

/-! Non-vacuity: media `a` with an occurring anchor is stopped. -/
example : ∃ f, Reachable f ∧ f.doc = some twoMedias ∧
    (decide (f.st.est 4 = .occurring) && decide (f.st.delayed 2 ≠ []) &&
      okAnd ((run twoMedias 20).trans 2 .stop f.st) (fun b s => b && decide (s.est 4 = .sleeping))) = true :=
  witness twoMedias twoMedias_wf 50 [tick 0, tick 600000000] rfl _ (by decide +kernel)

end Ginga
