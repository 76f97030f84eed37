import Verif.Proofs.Trans3
/-! # Transitions of switches, `evalAction`, and the whole engine -/
set_option linter.unusedSectionVars false
set_option linter.unusedSimpArgs false
set_option linter.unusedVariables false
namespace Ginga
section
variable {d : Doc} {rank : Oid → Nat} {U : Prop} (h : WF d rank) {r : Rec}

mutual
theorem evalPred_not_ub (s : St) : ∀ p, evalPred d s p ≠ .ub ∧ evalPred d s p ≠ .fuel
  | .falsum => by simp [evalPred]
  | .verum => by simp [evalPred]
  | .atom .. => by simp [evalPred]
  | .neg _ => by simp [evalPred]
  | .conj cs => by simp only [evalPred]; exact evalConj_not_ub s cs
  | .disj cs => by simp only [evalPred]; exact evalDisj_not_ub s cs
theorem evalConj_not_ub (s : St) : ∀ cs, evalConj d s cs ≠ .ub ∧ evalConj d s cs ≠ .fuel
  | [] => by simp [evalConj]
  | p :: ps => by
    have h1 := evalPred_not_ub s p
    have h2 := evalConj_not_ub s ps
    simp only [evalConj]
    cases hp : evalPred d s p with
    | ok b => cases b <;> simp [h2]
    | abort => simp
    | ub => exact absurd hp h1.1
    | fuel => exact absurd hp h1.2
theorem evalDisj_not_ub (s : St) : ∀ cs, evalDisj d s cs ≠ .ub ∧ evalDisj d s cs ≠ .fuel
  | [] => by simp [evalDisj]
  | p :: ps => by
    have h1 := evalPred_not_ub s p
    have h2 := evalDisj_not_ub s ps
    simp only [evalDisj]
    cases hp : evalPred d s p with
    | ok b => cases b <;> simp [h2]
    | abort => simp
    | ub => exact absurd hp h1.1
    | fuel => exact absurd hp h1.2
end

theorem wp_evalPred (p : Pred) {Q : Bool → St → Prop} {s : St} (hQ : ∀ b, Q b s) :
    wp True U (M.lift fun s => evalPred d s p) Q s := by
  rw [wp_lift]
  have := evalPred_not_ub (d := d) s p
  cases hp : evalPred d s p with
  | ok b => exact hQ b
  | abort => trivial
  | ub => exact absurd hp this.1
  | fuel => trivial

include h

theorem doStopSt_setEst {e : Eid} {o : Oid} (he : (d.ev e).obj = o) (s : St) (x : EState) :
    doStopSt d o (s.setEst e x) = doStopSt d o s := by
  have : resetEvents (d.obj o).events (s.setEst e x).est = resetEvents (d.obj o).events s.est := by
    funext e'; simp only [h.reset_apply]; split
    · rfl
    · next hne =>
      have : e' ≠ e := by rintro rfl; exact hne he
      simp [this]
  unfold doStopSt
  rw [this]; rfl

theorem wp_switchRules (hr : RecSpec d rank U r) {o : Oid} (cands : List Eid) {s : St}
    (hg : Good d rank s) (rules : List (Oid × Pred)) (hsub : ∀ x ∈ rules, ∀ se ∈ cands, (d.ev se).obj = x.1 → (d.obj x.1).parent = some o) :
    wp True U (switchRules d r o cands rules) (fun b s1 =>
      (b = false → s1 = s) ∧ (b = true → Steps d rank s s1 ∧
        (∀ e', s.est e' ≠ .sleeping → s1.est e' ≠ .sleeping) ∧ s1.sel o ≠ none)) s := by
  induction rules with
  | nil => simp [switchRules]
  | cons a rules ih =>
    obtain ⟨obj, pred⟩ := a
    have ih' := ih (fun x hx => hsub x (by simp [hx]))
    simp only [switchRules]
    split
    · exact ih'
    · next se hse =>
      simp only [wp_bind]
      apply wp_evalPred
      intro b
      cases b with
      | false => simpa using ih'
      | true =>
        simp only [if_true, wp_bind]
        refine wp_mono (hr.trans _ _ _ hg) ?_
        intro b s1 h1
        cases b with
        | false => simp; exact h1.fail rfl
        | true =>
          simp only [if_true, wp_bind, wp_modify, wp_pure]
          refine ⟨by simp, fun _ => ⟨h1.steps.tail (.sel o _ ?_), ?_, by simp⟩⟩
          · rintro c' hc; cases hc; exact hsub (obj, pred) (by simp) se (lastOf_mem hse).1 (lastOf_mem hse).2
          · intro e' he'; exact h1.mono rfl e' he'

theorem switch_trans (hr : RecSpec d rank U r) {e t} {s : St} (hg : Good d rank s)
    (hk : (d.obj (d.ev e).obj).kind = .switch) :
    wp True U (transition d r e t) (TransPost d rank s e t) s := by
  have hnm : (d.obj (d.ev e).obj).kind.isMedia ≠ true := by rw [hk]; simp [Kind.isMedia]
  have hnc : (d.obj (d.ev e).obj).kind ≠ .context := by rw [hk]; simp
  apply wp_transition
  · exact fun hn => TransPost.refused h hn
  intro x hn
  unfold before after
  simp only [hk]
  unfold switchBefore
  cases hcs : switchCands d (d.ev e).obj e with
  | none => trivial
  | some cands =>
    simp only
    cases hty : (d.ev e).typ with
    | presentation =>
      simp only [wp_bind, wp_get]
      unfold switchAfter
      simp only [hty]
      have stopcase : ∀ t, t = .stop ∨ t = .abort → nextState (s.est e) t = some x →
          ∀ s1, Steps d rank s s1 →
          (∀ e', s1.est e' = s.est e' ∨ s1.est e' = .sleeping) →
          (∀ e', rank (d.ev e').obj < rank (d.ev e).obj → s1.est e' = s.est e') →
          TransPost d rank s e t true
            ((doStopSt d (d.ev e).obj (s1.setEst e x)).addLog e t (s.est e)) := by
        intro t ht hn s1 h1 h2 h3
        obtain ⟨rfl, hb⟩ := nextState_stop h ht hn
        have hntr : t ≠ .start := by rcases ht with rfl | rfl <;> simp
        rw [doStopSt_setEst h rfl]
        refine ⟨h1.tail (.swStop e t _ hk hty ht hb), by simp, ?_, ?_, ?_, ?_, ?_, ?_, ?_, ?_⟩
        · intro _; exact ⟨_, hn, by simp [h.reset_apply]⟩
        · intro _ hx; exact absurd hx hntr
        · intro hx; exact absurd hx hntr
        · intro _ hx; exact absurd hx hntr
        · intro hx; exact absurd hx hntr
        · intro _ e'
          simp only [addLog_est, doStopSt_est, h.reset_apply]
          split
          · exact .inr rfl
          · exact h2 e'
        · intro _ e' he'
          have : (d.ev e').obj ≠ (d.ev e).obj := by rintro hx; rw [hx] at he'; omega
          simp only [addLog_est, doStopSt_est, h.reset_apply, this, if_false]
          exact h3 e' he'
        · intro _ _; simp [h.reset_apply]
      cases t with
      | start =>
        obtain ⟨rfl, hb⟩ := nextState_start h hn
        simp only [wp_bind, wp_assert]
        by_cases hsel : (s.sel (d.ev e).obj).isNone = true
        case neg => simp [hsel]
        simp only [hsel, if_true]
        refine wp_mono (wp_switchRules h hr cands hg _
          (fun x hx _ hse ho => h.cand_child hx hcs hse ho)) ?_
        rintro b s1 ⟨h1, h2⟩
        cases b with
        | false =>
          rw [h1 rfl]
          simp only [Bool.false_eq_true, if_false]
          refine ⟨.refl, fun _ => rfl, by simp, by simp, fun _ _ h => h, by simp, ?_, by simp, by simp,
            by simp⟩
          intro _ _ hk'; exact absurd hk hk'
        | true =>
          obtain ⟨h2, h3, h4⟩ := h2 rfl
          simp only [if_true, wp_bind, wp_doStart, wp_get]
          have hsn : ((doStartSt d (d.ev e).obj (s1.setEst e .occurring)).sel (d.ev e).obj).isNone = false := by
            simp only [doStartSt_sel, setEst_sel]
            cases hx : s1.sel (d.ev e).obj with
            | none => exact absurd hx h4
            | some c => rfl
          simp only [hsn, Bool.false_eq_true, if_false, wp_pure, if_true]
          refine ⟨h2.tail (.swStart e _ hk hty hb), by simp, ?_, ?_, ?_, ?_, ?_, by simp, by simp, by simp⟩
          · intro _; exact ⟨_, hn, by simp⟩
          · intro _ _ _ hk'; exact absurd hk' hnc
          · intro _ e' he'
            by_cases heq : e' = e
            · subst heq; simp
            · simpa [heq] using h3 e' he'
          · intro _ _ _ hm; exact absurd hm hnm
          · intro _ _ hk'; exact absurd hk hk'
      | stop =>
        cases hsel : s.sel (d.ev e).obj with
        | none =>
          simp only [wp_pure, if_true, wp_bind, wp_doStop]
          exact stopcase .stop (.inl rfl) hn s .refl (fun _ => .inl rfl) (fun _ _ => rfl)
        | some c =>
          have hrk := h.rank_lt _ _ (hg.sel _ _ hsel)
          simp only [wp_bind]
          refine wp_mono (hr.trans _ _ _ hg) ?_
          intro b s1 h1
          simp only [wp_modify, wp_pure, if_true, wp_bind, wp_doStop]
          refine stopcase .stop (.inl rfl) hn _ (h1.steps.tail (.sel _ none (by simp))) (h1.sleep (.inl rfl)) ?_
          intro e' he'
          exact h1.frame (.inl rfl) e' (by rw [h.lam_obj]; omega)
      | abort =>
        cases hsel : s.sel (d.ev e).obj with
        | none =>
          simp only [wp_pure, if_true, wp_bind, wp_doStop]
          exact stopcase .abort (.inr rfl) hn s .refl (fun _ => .inl rfl) (fun _ _ => rfl)
        | some c =>
          have hrk := h.rank_lt _ _ (hg.sel _ _ hsel)
          simp only [wp_bind]
          refine wp_mono (hr.trans _ _ _ hg) ?_
          intro b s1 h1
          simp only [wp_modify, wp_pure, if_true, wp_bind, wp_doStop]
          refine stopcase .abort (.inr rfl) hn _ (h1.steps.tail (.sel _ none (by simp))) (h1.sleep (.inr rfl)) ?_
          intro e' he'
          exact h1.frame (.inr rfl) e' (by rw [h.lam_obj]; omega)
      | pause =>
        have post : ∀ s1, Steps d rank s s1 →
            TransPost d rank s e .pause true ((s1.setEst e x).addLog e .pause (s.est e)) := by
          intro s1 h1
          refine ⟨h1.tail (.swSet e .pause _ x hk hty (.inl rfl) hn), by simp, ?_, by simp, by simp, by simp,
            by simp, by simp, by simp, by simp⟩
          intro _; exact ⟨x, hn, by simp⟩
        cases hsel : s.sel (d.ev e).obj with
        | none =>
          simp only [wp_pure, if_true, wp_bind]
          exact post s .refl
        | some c =>
          simp only [wp_bind]
          refine wp_mono (hr.trans _ _ _ hg) ?_
          intro b s1 h1
          simp only [wp_modify, wp_pure, if_true, wp_bind]
          exact post _ (h1.steps.tail (.sel _ none (by simp)))
      | resume =>
        have post : ∀ s1, Steps d rank s s1 →
            TransPost d rank s e .resume true ((s1.setEst e x).addLog e .resume (s.est e)) := by
          intro s1 h1
          refine ⟨h1.tail (.swSet e .resume _ x hk hty (.inr rfl) hn), by simp, ?_, by simp, by simp, by simp,
            by simp, by simp, by simp, by simp⟩
          intro _; exact ⟨x, hn, by simp⟩
        cases hsel : s.sel (d.ev e).obj with
        | none =>
          simp only [wp_pure, if_true, wp_bind]
          exact post s .refl
        | some c =>
          simp only [wp_bind]
          refine wp_mono (hr.trans _ _ _ hg) ?_
          intro b s1 h1
          simp only [wp_modify, wp_pure, if_true, wp_bind]
          exact post _ (h1.steps.tail (.sel _ none (by simp)))
    | _ => trivial

/-- The specification of `Event::transition`. -/
theorem transition_spec (hr : RecSpec d rank U r) (hU : CompoundAttr d → U) (e : Eid) (t : Trans)
    (s : St) (hg : Good d rank s) : wp True U (transition d r e t) (TransPost d rank s e t) s := by
  cases hk : (d.obj (d.ev e).obj).kind with
  | context => exact ctx_trans h hr hg hk
  | switch => exact switch_trans h hr hg hk
  | media => exact media_trans h hr hU hg (by rw [hk]; rfl)
  | settings => exact media_trans h hr hU hg (by rw [hk]; rfl)

/-! ## evalAction -/

omit h in
theorem quietPar (s : St) (e n v) : Steps d rank s (setParSt e n v s) :=
  .one (.misc _ _ _ _)

/-- Only the queue of a context changes. -/
theorem ctxQueueSt {s : St} {o : Oid} (hk : (d.obj o).kind = .context) (e t v dl) :
    Steps d rank s (addDelayedSt o e t v dl s) :=
  .one (.queue _ _ (fun hm => absurd hk (isMedia_ne_ctx hm)))

theorem wp_fireActs {ctx : Oid} (hk : (d.obj ctx).kind = .context) (as : List Act) :
    ∀ s, wp True U (fireActs d ctx as) (fun _ s' => Steps d rank s s') s := by
  induction as with
  | nil => intro s; simp [fireActs]; exact .refl
  | cons a as ih =>
    intro s
    simp only [fireActs, wp_bind, wp_get, wp_parseTimeM]
    intro t _
    split
    · simp only [wp_bind, wp_pure]; exact ih s
    · simp only [wp_bind, wp_addDelayed]
      refine wp_mono (ih _) ?_
      intro _ s2 h2
      exact (ctxQueueSt h hk _ _ _ _).trans h2

theorem wp_fireConds {ctx : Oid} (hk : (d.obj ctx).kind = .context) (act : Act) (acts cs : List Act) :
    ∀ s, wp True U (fireConds d ctx act acts cs) (fun _ s' => Steps d rank s s') s := by
  induction cs with
  | nil => intro s; simp [fireConds]; exact .refl
  | cons c cs ih =>
    intro s
    simp only [fireConds]
    split
    · have hgo : ∀ b : Bool, wp True U (if b = true then do
            let xs ← fireActs d ctx acts.reverse
            let ys ← fireConds d ctx act acts cs
            pure (xs ++ ys)
          else fireConds d ctx act acts cs) (fun _ s' => Steps d rank s s') s := by
        intro b
        cases b with
        | false => simpa using ih s
        | true =>
          simp only [if_true, wp_bind]
          refine wp_mono (wp_fireActs h hk _ s) ?_
          intro _ s1 h1
          refine wp_mono (ih s1) ?_
          intro _ s2 h2
          simp only [wp_pure]; exact h1.trans h2
      split
      · simp only [wp_bind, wp_pure]
        have := hgo true
        simpa only [if_true, wp_bind, wp_pure] using this
      · simp only [wp_bind]
        apply wp_evalPred
        intro b
        exact hgo b
    · exact ih s

theorem wp_fireLinks {ctx : Oid} (hk : (d.obj ctx).kind = .context) (act : Act) (ls : List Link) :
    ∀ s, wp True U (fireLinks d ctx act ls) (fun _ s' => Steps d rank s s') s := by
  induction ls with
  | nil => intro s; simp [fireLinks]; exact .refl
  | cons l ls ih =>
    intro s
    simp only [fireLinks, wp_bind]
    refine wp_mono (wp_fireConds h hk _ _ _ s) ?_
    intro _ s1 h1
    refine wp_mono (ih s1) ?_
    intro _ s2 h2
    simp only [wp_pure]; exact h1.trans h2

theorem wp_evalInCtx {ctx : Oid} (hk : (d.obj ctx).kind = .context) (act : Act) (s : St) :
    wp True U (evalInCtx d act ctx) (fun _ s' => Steps d rank s s') s := by
  unfold evalInCtx
  simp only [wp_bind, wp_get]
  split
  · exact wp_fireLinks h hk _ _ s
  · simp only [wp_pure]; exact .refl

theorem wp_firePorts {gp : Oid} (hk : (d.obj gp).kind = .context) (act : Act) (obj : Oid)
    (ps : List Eid) : ∀ s, wp True U (firePorts d act obj gp ps) (fun _ s' => Steps d rank s s') s := by
  induction ps with
  | nil => intro s; simp [firePorts]; exact .refl
  | cons p ps ih =>
    intro s
    simp only [firePorts]
    split
    · simp only [wp_bind]
      refine wp_mono (wp_evalInCtx h hk _ s) ?_
      intro _ s1 h1
      refine wp_mono (ih s1) ?_
      intro _ s2 h2
      simp only [wp_pure]; exact h1.trans h2
    · exact ih s

theorem wp_fireAliases (act : Act) (l : List (String × Option Oid)) :
    ∀ s, wp True U (fireAliases d act l) (fun _ s' => Steps d rank s s') s := by
  induction l with
  | nil => intro s; simp [fireAliases]; exact .refl
  | cons a l ih =>
    intro s
    obtain ⟨n, c⟩ := a
    simp only [fireAliases]
    cases c with
    | none => exact ih s
    | some c =>
      simp only
      split
      · next hk =>
        simp only [wp_bind]
        refine wp_mono (wp_evalInCtx h hk _ s) ?_
        intro _ s1 h1
        refine wp_mono (ih s1) ?_
        intro _ s2 h2
        simp only [wp_pure]; exact h1.trans h2
      · exact ih s

theorem wp_fireOwn (act : Act) (obj : Oid) (s : St) :
    wp True U (fireOwn d act obj) (fun _ s' => Steps d rank s s') s := by
  unfold fireOwn
  split
  · next hk => exact wp_evalInCtx h hk _ s
  · exact wp_fireAliases h _ _ s

theorem wp_fireMapped (hr : RecSpec d rank U r) (act : Act) (obj sw : Oid) (port : String)
    (ms : List Eid) : ∀ s, Good d rank s →
    wp True U (fireMapped d r act obj sw port ms) (fun _ s' => Steps d rank s s') s := by
  induction ms with
  | nil => intro s _; simp [fireMapped]; exact .refl
  | cons m ms ih =>
    intro s hg
    simp only [fireMapped]
    split
    · split
      · trivial
      · simp only [wp_bind]
        refine wp_mono (hr.evalA _ _ hg) ?_
        intro _ s1 h1
        refine wp_mono (ih s1 (h1.good h hg)) ?_
        intro _ s2 h2
        exact h1.trans h2
    · exact ih s hg

theorem wp_fireSwitch (hr : RecSpec d rank U r) (act : Act) (obj sw : Oid)
    (l : List (String × List Eid)) : ∀ s, Good d rank s →
    wp True U (fireSwitch d r act obj sw l) (fun _ s' => Steps d rank s s') s := by
  induction l with
  | nil => intro s _; simp [fireSwitch]; exact .refl
  | cons m ms ih =>
    intro s hg
    obtain ⟨port, evs⟩ := m
    simp only [fireSwitch, wp_bind]
    refine wp_mono (wp_fireMapped h hr _ _ _ _ _ s hg) ?_
    intro _ s1 h1
    refine wp_mono (ih s1 (h1.good h hg)) ?_
    intro _ s2 h2
    exact h1.trans h2

theorem wp_fireParent (hr : RecSpec d rank U r) (act : Act) (obj : Oid) (s : St)
    (hg : Good d rank s) :
    wp True U (fireParent d r act obj) (fun _ s' => Steps d rank s s') s := by
  unfold fireParent
  simp only [wp_bind, wp_get]
  split
  · simp only [wp_pure]; exact .refl
  · split
    · next hk =>
      split
      · simp only [wp_bind]
        refine wp_mono (wp_evalInCtx h hk _ s) ?_
        intro _ s1 h1
        simp only [wp_get]
        split
        · simp only [wp_pure]; exact h1
        · split
          · next hg' =>
            simp only [wp_bind]
            refine wp_mono (wp_firePorts h hg'.1 _ _ _ s1) ?_
            intro _ s2 h2
            simp only [wp_pure]; exact h1.trans h2
          · simp only [wp_pure]; exact h1
      · simp only [wp_pure]; exact .refl
    · split
      · simp only [wp_bind]
        refine wp_mono (wp_fireSwitch h hr _ _ _ _ s hg) ?_
        intro _ s1 h1
        simp only [wp_pure]; exact h1
      · simp only [wp_pure]; exact .refl

theorem wp_evalStep (hr : RecSpec d rank U r) (act : Act) (s : St) (hg : Good d rank s) :
    wp True U (evalStep d r act) (fun _ s' => Steps d rank s s') s := by
  unfold evalStep
  simp only [wp_bind, wp_setPar]
  have key : ∀ s1, Steps d rank s s1 → wp True U (r.trans act.ev act.tr) (fun a s' =>
      wp True U (if a = true then do
          let xs ← fireParent d r act (d.ev act.ev).obj
          let ys ← fireOwn d act (d.ev act.ev).obj
          pure (some (xs ++ ys))
        else pure none) (fun _ s' => Steps d rank s s') s') s1 := by
    intro s1 h1
    have hg1 := h1.good h hg
    refine wp_mono (hr.trans _ _ _ hg1) ?_
    intro b s2 h2
    have hg2 := h2.steps.good h hg1
    cases b with
    | false => simp; exact h1.trans h2.steps
    | true =>
      simp only [if_true, wp_bind]
      refine wp_mono (wp_fireParent h hr _ _ s2 hg2) ?_
      intro _ s3 h3
      refine wp_mono (wp_fireOwn h _ _ s3) ?_
      intro _ s4 h4
      simp only [wp_pure]
      exact ((h1.trans h2.steps).trans h3).trans h4
  split
  · simp only [wp_bind, wp_setPar]
    exact key _ ((quietPar _ _ _ _).trans (quietPar _ _ _ _))
  · simp only [wp_bind, wp_pure]
    exact key _ (quietPar _ _ _ _)

theorem wp_evalLoop (hr : RecSpec d rank U r) (l : List Act) (k : Nat) (s : St)
    (hg : Good d rank s) : wp True U (evalLoop d r l k) (fun _ s' => Steps d rank s s') s := by
  cases l with
  | nil => simp [evalLoop]; exact .refl
  | cons a l =>
    simp only [evalLoop, wp_bind]
    refine wp_mono (wp_evalStep h hr a s hg) ?_
    intro o s1 h1
    cases o with
    | none => exact wp_mono (hr.loop _ _ _ (h1.good h hg)) fun _ s2 h2 => h1.trans h2
    | some p => exact wp_mono (hr.loop _ _ _ (h1.good h hg)) fun _ s2 h2 => h1.trans h2

/-- **The engine specification**: at any recursion bound, every entry point performs a
sequence of atomic steps, and does not run into undefined behaviour unless a compound
property is animated. -/
theorem run_spec (hU : CompoundAttr d → U) (n : Nat) : RecSpec d rank U (run d n) := by
  induction n with
  | zero => exact ⟨fun _ _ _ _ => trivial, fun _ _ _ => trivial, fun _ _ _ _ => trivial⟩
  | succ n ih =>
    exact ⟨fun e t s hg => transition_spec h ih hU e t s hg,
      fun a s hg => ih.loop _ _ s hg, fun l k s hg => wp_evalLoop h ih l k s hg⟩

end
end Ginga
