import Verif.Proofs.Witness
import Verif.Proofs.Fuel
import Verif.Proofs.Api
/-! # C21 — every action terminates

Full statement: every call returns.  It fails (`C21_fails`): links can form a cycle, and then a key
press never returns.  `C21_terminates_partial` (in `Verif.Props.C21b`) proves it for documents whose
immediate links are acyclic. -/
set_option linter.unusedVariables false
set_option linter.unusedSimpArgs false
namespace Ginga
open Ex

/-- The media `a` (2) with a selection event for RED (3); links of the body: RED pauses `a`, when `a`
is paused it is resumed, when it is resumed it is paused. -/
def hangDoc : Doc :=
  mkDoc env0
    [ { kind := .context, id := "__root__", children := [1, 2], events := [0], lambda := 0, ports := [2],
        links := [⟨[{ ev := 3, tr := .start }], [{ ev := 2, tr := .pause }]⟩,
                  ⟨[{ ev := 2, tr := .pause }], [{ ev := 2, tr := .resume }]⟩,
                  ⟨[{ ev := 2, tr := .resume }], [{ ev := 2, tr := .pause }]⟩] },
      { kind := .settings, id := "__settings__", parent := some 0, events := [1, 4], lambda := 1,
        props0 := [("type", "application/x-ginga-settings")] },
      { kind := .media, id := "a", parent := some 0, events := [2, 3], lambda := 2 } ]
    [ { typ := .presentation, obj := 0, id := "@lambda" },
      { typ := .presentation, obj := 1, id := "@lambda" },
      { typ := .presentation, obj := 2, id := "@lambda" },
      { typ := .selection, obj := 2, id := "RED" },
      { typ := .attribution, obj := 1, id := "service.currentFocus" } ]
    0 1 [(3, "key", "RED")]

theorem hangDoc_wf : DocWF hangDoc := mkDoc_wf [0, 1, 1] (by decide +kernel)

/-- The states the loop goes through. -/
structure Hung (x : EState) (s : St) : Prop where
  root : s.est 0 = .occurring
  links : s.status 0 = true
  media : s.est 2 = x
  player : ∃ p, s.player 2 = some p ∧ p.st = x

theorem hung_step (n : Nat) {x y : EState} {t t' : Trans} {s : St}
    (h : (x = .occurring ∧ t = .pause ∧ y = .paused ∧ t' = .resume) ∨
      (x = .paused ∧ t = .resume ∧ y = .occurring ∧ t' = .pause)) (hs : Hung x s) :
    wp False False (evalStep hangDoc (run hangDoc n) { ev := 2, tr := t })
      (fun r s' => r = some [{ ev := 2, tr := t' }] ∧ Hung y s') s := by
  cases n with
  | zero => trivial
  | succ n =>
    obtain ⟨h1, h2, h3, p, h4, h5⟩ := hs
    have k2 : (hangDoc.ev 2).typ = .presentation := rfl
    have k3 : (hangDoc.ev 2).obj = 2 := rfl
    have kl : (hangDoc.ev 2).isLambda = true := by decide
    have l3 : (hangDoc.ev 3).isLambda = false := by decide
    have t3 : (hangDoc.ev 3).typ = .selection := rfl
    have ko : (hangDoc.obj 2).kind = .media := rfl
    have kp : (hangDoc.obj 2).parent = some 0 := rfl
    have kr : (hangDoc.obj 0).kind = .context := rfl
    have krp : (hangDoc.obj 0).parent = none := rfl
    have kll : (hangDoc.obj 0).lambda = 0 := rfl
    have ke : (hangDoc.obj 2).events = [2, 3] := rfl
    have ka : (hangDoc.obj 2).aliases = [] := rfl
    have kk : (hangDoc.obj 0).links = [⟨[{ ev := 3, tr := .start }], [{ ev := 2, tr := .pause }]⟩,
                  ⟨[{ ev := 2, tr := .pause }], [{ ev := 2, tr := .resume }]⟩,
                  ⟨[{ ev := 2, tr := .resume }], [{ ev := 2, tr := .pause }]⟩] := rfl
    have pt : ∀ s, parseTimeM hangDoc (deref hangDoc s "") = M.pure 0 := fun s => by
      simp [deref, evalRef, parseRef, parseTimeM]; rfl
    -- the links fired by the transition
    have fin : ∀ s' : St, (Hung y s') → wp False False (do
        let xs ← fireParent hangDoc (run hangDoc (n+1)) { ev := 2, tr := t } 2
        let ys ← fireOwn hangDoc { ev := 2, tr := t } 2
        pure (some (xs ++ ys))) (fun r s' => r = some [{ ev := 2, tr := t' }] ∧ Hung y s') s' := by
      rintro s' ⟨g1, g2, g3, g4⟩
      rcases h with ⟨rfl, rfl, rfl, rfl⟩ | ⟨rfl, rfl, rfl, rfl⟩
      all_goals
        simp only [wp_bind, fireParent, wp_get, kp, kr, isOccurring, kll, g1, evalInCtx, kk,
          fireLinks, fireConds, reduceCtorEq, and_false, if_false, krp, fireOwn, ko, ka, fireAliases,
          decide_true, if_true, and_self]
        simp only [g2, if_true, wp_bind, wp_pure, List.reverse_cons, List.reverse_nil, List.nil_append,
          fireActs, wp_get, pt, wp_mpure, true_or, wp_ite, List.append_nil]
        exact ⟨trivial, g1, g2, g3, g4⟩
    rcases h with ⟨rfl, rfl, rfl, rfl⟩ | ⟨rfl, rfl, rfl, rfl⟩
    · have ht : wp False False ((run hangDoc (n+1)).trans 2 .pause) (fun b s' => b = true ∧ Hung .paused s')
          (setParSt 2 "duration" "" s) := by
        apply wp_transition
        · intro hn; simp [setParSt, h3, nextState] at hn
        · intro x hx
          simp only [setParSt, h3, nextState, if_true, Option.some.injEq] at hx
          subst hx
          simp only [before, after, k2, k3, ko, mediaBefore, mediaAfter, kl, if_true, ke, evalAnchors, wp_bind,
            l3, t3]
          simp only [Bool.not_true, Bool.false_eq_true, false_and, if_false, reduceCtorEq, and_false, wp_pure]
          simp only [wp, playerPause, setParSt, h4, h5, Bool.false_eq_true, if_false, if_true]
          exact ⟨trivial, ⟨by simp [h1], h2, by simp, _, by simp; rfl, rfl⟩⟩
      simp only [evalStep, wp_bind, wp_setPar, k2, k3, reduceCtorEq, if_false, wp_pure]
      refine wp_mono ht ?_
      rintro b s' ⟨rfl, g⟩
      exact fin s' g
    · have ht : wp False False ((run hangDoc (n+1)).trans 2 .resume) (fun b s' => b = true ∧ Hung .occurring s')
          (setParSt 2 "duration" "" s) := by
        apply wp_transition
        · intro hn; simp [setParSt, h3, nextState] at hn
        · intro x hx
          simp only [setParSt, h3, nextState, if_true, Option.some.injEq] at hx
          subst hx
          simp only [before, after, k2, k3, ko, mediaBefore, mediaAfter, kl, if_true, ke, evalAnchors, wp_bind,
            l3, t3]
          simp only [Bool.not_true, Bool.false_eq_true, false_and, if_false, reduceCtorEq, and_false, wp_pure]
          simp only [wp, playerPause, setParSt, h4, h5, Bool.false_eq_true, if_false, if_true]
          exact ⟨trivial, ⟨by simp [h1], h2, by simp, _, by simp; rfl, rfl⟩⟩
      simp only [evalStep, wp_bind, wp_setPar, k2, k3, reduceCtorEq, if_false, wp_pure]
      refine wp_mono ht ?_
      rintro b s' ⟨rfl, g⟩
      exact fin s' g

theorem hung_loop (n : Nat) : ∀ (x : EState) (t : Trans) (rest : List Act) (k : Nat) (s : St),
    ((x = .occurring ∧ t = .pause) ∨ (x = .paused ∧ t = .resume)) → Hung x s →
    wp False False ((run hangDoc n).loop ({ ev := 2, tr := t } :: rest) k) (fun _ _ => False) s := by
  induction n with
  | zero => intros; trivial
  | succ n ih =>
    intro x t rest k s h hs
    show wp False False (evalLoop hangDoc (run hangDoc n) ({ ev := 2, tr := t } :: rest) k) _ s
    simp only [evalLoop, wp_bind]
    rcases h with ⟨rfl, rfl⟩ | ⟨rfl, rfl⟩
    · refine wp_mono (hung_step n (.inl ⟨rfl, rfl, rfl, rfl⟩) hs) ?_
      rintro r s' ⟨rfl, hs'⟩
      exact ih .paused .resume rest _ s' (.inr ⟨rfl, rfl⟩) hs'
    · refine wp_mono (hung_step n (.inr ⟨rfl, rfl, rfl, rfl⟩) hs) ?_
      rintro r s' ⟨rfl, hs'⟩
      exact ih .occurring .pause rest _ s' (.inl ⟨rfl, rfl⟩) hs'

theorem hung_red (n : Nat) {s : St} (h3 : s.est 3 = .sleeping) (hs : Hung .occurring s) :
    wp False False (evalStep hangDoc (run hangDoc n) { ev := 3, tr := .start })
      (fun r s' => r = some [{ ev := 2, tr := .pause }] ∧ Hung .occurring s') s := by
  cases n with
  | zero => trivial
  | succ n =>
    obtain ⟨h1, h2, h4, p, h5, h6⟩ := hs
    have t3 : (hangDoc.ev 3).typ = .selection := rfl
    have k3 : (hangDoc.ev 3).obj = 2 := rfl
    have ko : (hangDoc.obj 2).kind = .media := rfl
    have kp : (hangDoc.obj 2).parent = some 0 := rfl
    have kr : (hangDoc.obj 0).kind = .context := rfl
    have krp : (hangDoc.obj 0).parent = none := rfl
    have kll : (hangDoc.obj 0).lambda = 0 := rfl
    have ka : (hangDoc.obj 2).aliases = [] := rfl
    have kk : (hangDoc.obj 0).links = [⟨[{ ev := 3, tr := .start }], [{ ev := 2, tr := .pause }]⟩,
                  ⟨[{ ev := 2, tr := .pause }], [{ ev := 2, tr := .resume }]⟩,
                  ⟨[{ ev := 2, tr := .resume }], [{ ev := 2, tr := .pause }]⟩] := rfl
    have pt : ∀ s, parseTimeM hangDoc (deref hangDoc s "") = M.pure 0 := fun s => by
      simp [deref, evalRef, parseRef, parseTimeM]; rfl
    have ht : wp False False ((run hangDoc (n+1)).trans 3 .start) (fun b s' => b = true ∧ Hung .occurring s')
        (setParSt 3 "duration" "" s) := by
      apply wp_transition
      · intro hn; simp [setParSt, h3, nextState] at hn
      · intro x hx
        simp only [before, after, t3, k3, ko, mediaBefore, mediaAfter, wp_pure, if_true]
        exact ⟨trivial, ⟨by simp [setParSt, h1], h2, by simp [setParSt, h4], p, h5, h6⟩⟩
    simp only [evalStep, wp_bind, wp_setPar, t3, k3, reduceCtorEq, if_false, wp_pure]
    refine wp_mono ht ?_
    rintro b s' ⟨rfl, g1, g2, g3, g4⟩
    simp only [wp_bind, fireParent, wp_get, kp, kr, isOccurring, kll, g1, evalInCtx, kk,
      fireLinks, fireConds, reduceCtorEq, and_false, if_false, krp, fireOwn, ko, ka, fireAliases,
      decide_true, if_true, and_self]
    have n1 : (3 : Nat) ≠ 2 := by decide
    have n2 : (2 : Nat) ≠ 3 := by decide
    simp only [g2, if_true, wp_bind, wp_pure, List.reverse_cons, List.reverse_nil, List.nil_append,
      fireActs, wp_get, pt, wp_mpure, true_or, wp_ite, List.append_nil, n1, n2, false_and, if_false]
    exact ⟨trivial, g1, g2, g3, g4⟩

theorem hung_key (n : Nat) {s : St} (h0 : s.est 0 = .occurring) (h1 : s.est 1 ≠ .sleeping)
    (h2 : s.est 2 = .occurring) (h3 : s.est 3 = .sleeping) (hl : s.status 0 = true)
    (hp : ∃ p, s.player 2 = some p ∧ p.st = .occurring) (hk : s.par 3 "key" = some "RED") :
    wp False False (docKey hangDoc (run hangDoc n) "RED" true) (fun _ _ => False) s := by
  obtain ⟨p, hp, hps⟩ := hp
  have ko : hangDoc.objs = [0, 1, 2] := rfl
  have l0 : (hangDoc.obj 0).lambda = 0 := rfl
  have l1 : (hangDoc.obj 1).lambda = 1 := rfl
  have l2 : (hangDoc.obj 2).lambda = 2 := rfl
  have e1 : (hangDoc.obj 1).events = [1, 4] := rfl
  have e2 : (hangDoc.obj 2).events = [2, 3] := rfl
  have k0 : (hangDoc.obj 0).kind.isMedia = false := rfl
  have k1 : (hangDoc.obj 1).kind.isMedia = true := rfl
  have k2 : (hangDoc.obj 2).kind.isMedia = true := rfl
  have t1 : (hangDoc.ev 1).typ = .presentation := rfl
  have t2 : (hangDoc.ev 2).typ = .presentation := rfl
  have t3 : (hangDoc.ev 3).typ = .selection := rfl
  have t4 : (hangDoc.ev 4).typ = .attribution := rfl
  have hflt : (hangDoc.objs.filter fun o => !isSleeping hangDoc s o) = [0, 1, 2] := by
    simp [ko, isSleeping, l0, l1, l2, h0, h1, h2]
  have hmove : ∀ q, wp False False (moveFocus q "RED" true) (fun _ s' => s' = s) s := by
    intro q
    simp only [moveFocus, wp_bind, wp_get, moveProp, wp_ite]
    simp
  unfold docKey
  simp only [wp_bind, wp_get, hflt, forAll, sendKey1, k0, k1, k2, if_true, Bool.false_eq_true, if_false, wp_pure]
  have m1 : wp False False (mediaKey hangDoc (run hangDoc n) 1 "RED" true) (fun _ s' => s' = s) s := by
    unfold mediaKey
    simp only [wp_bind, wp_get, isSleeping, l1, h1, decide_false, Bool.false_eq_true, if_false]
    cases s.player 1 with
    | none => simp
    | some q =>
      simp only [wp_bind]
      refine wp_mono (hmove q) ?_
      intro _ s' hs'
      simp [e1, t1, t4, evalAll, hs']
  refine wp_mono m1 ?_
  intro _ s' hs'
  obtain rfl : s = s' := hs'.symm
  unfold mediaKey
  simp only [wp_bind, wp_get, isSleeping, l2, h2, reduceCtorEq, decide_false, Bool.false_eq_true, if_false, hp]
  refine wp_mono (hmove p) ?_
  intro _ s' hs'
  obtain rfl : s = s' := hs'.symm
  have hkm : keyMatches s p "RED" 3 = true := by simp [keyMatches, expectedKey, hk]
  have hfe : ((hangDoc.obj 2).events.filter fun e => (hangDoc.ev e).typ = .selection ∧
      keyMatches s p "RED" e) = [3] := by simp [e2, t2, t3, hkm]
  simp only [hfe, evalAll, wp_bind, if_true]
  cases n with
  | zero => trivial
  | succ n =>
    show wp False False ((run hangDoc n).loop [{ ev := 3, tr := .start }] 0) _ s
    cases n with
    | zero => trivial
    | succ n =>
      show wp False False (evalLoop hangDoc (run hangDoc n) [{ ev := 3, tr := .start }] 0) _ s
      simp only [evalLoop, wp_bind]
      refine wp_mono (hung_red n h3 ⟨h0, hl, h2, p, hp, hps⟩) ?_
      rintro r s' ⟨rfl, hs'⟩
      refine wp_mono (hung_loop n .occurring .pause [] 1 s' (.inl ⟨rfl, rfl⟩) hs') ?_
      intro _ _ h; exact h.elim

theorem wp_fuel_iff {α : Type} {m : M α} {s : St} (h : wp False False m (fun _ _ => False) s) :
    m s = .fuel := by
  unfold wp at h
  cases hm : m s with
  | fuel => rfl
  | _ => rw [hm] at h; exact h.elim

/-- **C21 fails**: there is a reachable presentation in which a key press never returns, whatever
the bound on the recursion (by `execAll_rle` a call that returns does so for all large bounds). -/
theorem C21_fails : ∃ f, Reachable f ∧ f.doc = some hangDoc ∧
    ∀ n, exec n f (.sendKey "RED" true) = .fuel := by
  obtain ⟨f, h1, h2, h3⟩ := witness hangDoc hangDoc_wf 50 [tick 0, tick 1] rfl
    (fun f => f.playing && (!f.eos && (decide (f.st.est 0 = .occurring) && (decide (f.st.est 1 ≠ .sleeping) &&
      (decide (f.st.est 2 = .occurring) && (decide (f.st.est 3 = .sleeping) && (f.st.status 0 &&
      (decide (f.st.par 3 "key" = some "RED") &&
      (match f.st.player 2 with | some p => decide (p.st = .occurring) | none => false)))))))))
    (by decide +kernel)
  simp only [Bool.and_eq_true, decide_eq_true_eq, Bool.not_eq_true'] at h3
  obtain ⟨g1, g2, g3, g4, g5, g6, g7, g8, g9⟩ := h3
  refine ⟨f, h1, h2, fun n => ?_⟩
  have hp : ∃ p, f.st.player 2 = some p ∧ p.st = .occurring := by
    cases hp : f.st.player 2 with
    | none => rw [hp] at g9; cases g9
    | some p => rw [hp] at g9; exact ⟨p, rfl, by simpa using g9⟩
  have hk := wp_fuel_iff (hung_key n g3 g4 g5 g6 g7 hp g8)
  have hr : (hangDoc.obj hangDoc.root).lambda = 0 := rfl
  simp [exec, fmtKey, guarded, g1, h2, checkEos, isSleeping, hr, g3, g2, Fmt.run, hk]

end Ginga
