import Verif.Proofs.Links
/-!
# Relations preserved by every engine call

`Closed d R`: the relation `R` between states is reflexive, transitive and holds for each
elementary effect of the engine.  `run_closed`: then it holds between the states before and after
every call.
-/
set_option linter.unusedSectionVars false
set_option linter.unusedVariables false
namespace Ginga

/-- The history only grows. -/
def LogGrow (s s' : St) : Prop := ∃ l, s'.log = l ++ s.log

/-- Elementary effects.  `X` selects events whose START, PAUSE and RESUME are not decomposed:
only the fact that they are in the history is used (`touched`). -/
structure Closed (d : Doc) (X : Eid → Prop) (R : St → St → Prop) : Prop where
  refl : ∀ s, R s s
  trans : ∀ {s t u}, R s t → R t u → R s u
  par : ∀ s e k v, k = "duration" ∨ k = "value" ∨ (k = "fromport" ∧ v = "") → R s (setParSt e k v s)
  /-- a sleeping context is marked and started because a child is being started -/
  mark : ∀ s s' p b, (d.obj p).kind = .context →
    R (setParSt (d.lam p) "fromport" "true" s) s' →
    (∃ l, s'.log = ⟨d.lam p, .start, b⟩ :: l) → R s s'
  enq : ∀ s o e t v dl, R s (addDelayedSt o e t v dl s)
  focusReq : ∀ s x, R s { s with nextFocus := some x }
  prop : ∀ s o k v, (k = "type" ∨ k = "uri" ∨
      ∃ e, ¬ X e ∧ (d.ev e).typ = .attribution ∧ (d.ev e).obj = o ∧ (d.ev e).id = k) →
    R s (s.setProps o (mset k v (s.props o)))
  focus : ∀ s v, (∃ e, ¬ X e ∧ (d.ev e).typ = .attribution ∧
      (d.obj (d.ev e).obj).kind = .settings ∧ (d.ev e).id = "service.currentFocus") →
    R s { s with focus := v }
  player : ∀ s o p p', s.player o = some p → R s (s.setPlayer o (some p'))
  newPlayer : ∀ s o p, s.player o = none → R s (s.setPlayer o (some p))
  sel : ∀ s o c, R s (s.setSel o c)
  /-- an event becomes occurring or paused -/
  wake : ∀ s e x, ¬ X e → x ≠ .sleeping → R s (s.setEst e x)
  start : ∀ s o e, ¬ X e → Whole d o e → R s (doStartSt d o s)
  /-- a successful START, PAUSE or RESUME is recorded -/
  logged : ∀ s e t b, ¬ X e → t ≠ .stop → t ≠ .abort → R s (s.addLog e t b)
  touched : ∀ s s' e t b, X e → LogGrow s s' → t ≠ .stop → t ≠ .abort →
    ((d.ev e).typ ≠ .presentation → t = .start) → R s (s'.addLog e t b)
  /-- STOP or ABORT of an event that is not the whole of an object -/
  stopEv : ∀ s e t b, (t = .stop ∨ t = .abort) → (∀ o, ¬ Whole d o e) →
    R s ((s.setEst e .sleeping).addLog e t b)
  /-- STOP or ABORT of an object -/
  stopObj : ∀ s o e t b p, (t = .stop ∨ t = .abort) → Whole d o e →
    R s ((doStopSt d o ((s.setEst e .sleeping).setPlayer o p)).addLog e t b)
  /-- the queue of a media is replaced while the media is started from sleep through an anchor -/
  anchor : ∀ s s1 o q, s.est (d.lam o) = .sleeping → R s s1 → R s (s1.setDelayed o q)

/-- `m` relates the states before and after by `R`. -/
structure Pres {α : Type} (R : St → St → Prop) (m : M α) : Prop where
  run : ∀ s, wp True True m (fun _ s' => R s s') s

theorem Pres.ok {α : Type} {R : St → St → Prop} {m : M α} (h : Pres R m) {s s' : St} {a : α}
    (hm : m s = .ok (a, s')) : R s s' :=
  wp_ok (Q := fun _ s' => R s s') (h.run s) hm

/-- Starting a sleeping context succeeds, and is recorded. -/
def RecStart (d : Doc) (r : Rec) : Prop :=
  ∀ p s b s', (d.obj p).kind = .context → s.est (d.lam p) = .sleeping →
    r.trans (d.lam p) .start s = .ok (b, s') → ∃ l, s'.log = ⟨d.lam p, .start, .sleeping⟩ :: l

structure RecPres (R : St → St → Prop) (r : Rec) : Prop where
  trans : ∀ e t, Pres R (r.trans e t)
  evalA : ∀ a, Pres R (r.evalA a)
  loop : ∀ l k, Pres R (r.loop l k)

section
variable {d : Doc} {X : Eid → Prop} {R : St → St → Prop} {α β : Type}

theorem Pres.pure (hR : Closed d X R) (a : α) : Pres R (Pure.pure a : M α) := ⟨fun s => hR.refl s⟩
theorem Pres.mpure (hR : Closed d X R) (a : α) : Pres R (M.pure a : M α) := ⟨fun s => hR.refl s⟩
theorem Pres.get (hR : Closed d X R) : Pres R M.get := ⟨fun s => hR.refl s⟩
theorem Pres.abort : Pres R (M.abort : M α) := ⟨fun _ => trivial⟩
theorem Pres.ub : Pres R (M.ub : M α) := ⟨fun _ => trivial⟩
theorem Pres.fuel : Pres R (M.fuel : M α) := ⟨fun _ => trivial⟩
theorem Pres.assert (hR : Closed d X R) (b : Bool) : Pres R (M.assert b) := by
  constructor; intro s; rw [wp_assert]; split
  · exact hR.refl s
  · trivial
theorem Pres.lift (hR : Closed d X R) (f : St → Res α) : Pres R (M.lift f) := by
  constructor; intro s; rw [wp_lift]
  cases f s with
  | ok a => exact hR.refl s
  | _ => trivial
theorem Pres.modify {f : St → St} (h : ∀ s, R s (f s)) : Pres R (M.modify f) := ⟨fun s => h s⟩
theorem Pres.bind (hR : Closed d X R) {m : M α} {f : α → M β} (hm : Pres R m)
    (hf : ∀ a, Pres R (f a)) : Pres R (m >>= f) := by
  constructor
  intro s
  rw [wp_bind]
  refine wp_mono (hm.run s) ?_
  intro a s1 h1
  exact wp_mono ((hf a).run s1) fun b s2 h2 => hR.trans h1 h2
theorem Pres.ite {c : Prop} [Decidable c] {m m' : M α} (h : Pres R m) (h' : Pres R m') :
    Pres R (if c then m else m') := by split <;> assumption
end

/-- Structural steps. -/
macro "pres" hR:ident : tactic => `(tactic|
  repeat' (first
    | assumption
    | exact Pres.pure $hR _
    | exact Pres.mpure $hR _
    | exact Pres.get $hR
    | exact Pres.abort
    | exact Pres.ub
    | exact Pres.fuel
    | exact Pres.assert $hR _
    | exact Pres.lift $hR _
    | exact RecPres.trans (by assumption) _ _
    | exact RecPres.evalA (by assumption) _
    | exact RecPres.loop (by assumption) _ _
    | with_reducible apply Pres.ite
    | with_reducible apply Pres.bind $hR
    | intro _
    | split
    | dsimp only))

section
variable {d : Doc} {X : Eid → Prop} {R : St → St → Prop} (hR : Closed d X R)
include hR

theorem pres_parseTimeM (v : String) : Pres R (parseTimeM d v) := by unfold parseTimeM; pres hR
theorem pres_setPar (e k v) (hk : k = "duration" ∨ k = "value" ∨ (k = "fromport" ∧ v = "")) :
    Pres R (setPar e k v) := ⟨fun s => hR.par s e k v hk⟩
theorem pres_addDelayed (o e t v dl) : Pres R (addDelayed o e t v dl) := ⟨fun s => hR.enq s o e t v dl⟩
theorem pres_scheduleFocus (x) : Pres R (scheduleFocus x) := ⟨fun s => hR.focusReq s x⟩
theorem pres_doStart (o e) (hx : ¬ X e) (hwh : Whole d o e) : Pres R (doStart d o) :=
  ⟨fun s => by rw [wp_doStart]; exact hR.start s o e hx hwh⟩

theorem pres_queuePorts (o ps) : Pres R (queuePorts d o ps) := by
  induction ps with
  | nil => exact Pres.pure hR _
  | cons p ps ih => unfold queuePorts; have := fun t v dl => pres_addDelayed hR o p t v dl; pres hR <;> exact this _ _ _
theorem pres_queueAnchors (o es) : Pres R (queueAnchors d o es) := by
  induction es with
  | nil => exact Pres.pure hR _
  | cons p ps ih => unfold queueAnchors; have := fun t v dl => pres_addDelayed hR o p t v dl; pres hR <;> exact this _ _ _

theorem pres_playerSetProp (o k v) : Pres R (playerSetProp d o k v) := by
  constructor
  intro s
  unfold wp playerSetProp
  cases hp : s.player o with
  | none => trivial
  | some p =>
    simp only
    split
    · next heq =>
      split at heq
      · cases heq
      · split at heq
        · split at heq
          · cases heq
          · cases heq; exact hR.player s o p _ hp
        · split at heq <;> cases heq <;> exact hR.player s o p _ hp
    all_goals trivial
theorem pres_playerSetProps (o l) : Pres R (playerSetProps d o l) := by
  induction l with
  | nil => exact Pres.pure hR _
  | cons p l ih =>
    obtain ⟨k, v⟩ := p
    unfold playerSetProps; have := pres_playerSetProp hR o k v; pres hR
theorem pres_playerSendLabel (o) : Pres R (playerSendLabel o) := by
  constructor; intro s; unfold wp playerSendLabel
  cases s.player o with
  | none => trivial
  | some p => exact hR.refl s
theorem pres_playerPause (o b) : Pres R (playerPause o b) := by
  constructor; intro s; unfold wp playerPause
  cases hp : s.player o with
  | none => trivial
  | some p =>
    simp only
    split
    · next heq =>
      split at heq
      · split at heq <;> cases heq; exact hR.player s o p _ hp
      · split at heq <;> cases heq; exact hR.player s o p _ hp
    all_goals trivial

theorem pres_objSetProp (o k v dur) (hk : k = "type" ∨ k = "uri" ∨
      ∃ e, ¬ X e ∧ (d.ev e).typ = .attribution ∧ (d.ev e).obj = o ∧ (d.ev e).id = k) :
    Pres R (objSetProp o k v dur) := by
  unfold objSetProp
  have := Pres.modify (R := R) (f := fun s => s.setProps o (mset k v (s.props o)))
    (fun s => hR.prop s o k v hk)
  pres hR
theorem pres_mediaSetProp (o k v dur) (hk : k = "type" ∨ k = "uri" ∨
      ∃ e, ¬ X e ∧ (d.ev e).typ = .attribution ∧ (d.ev e).obj = o ∧ (d.ev e).id = k) :
    Pres R (mediaSetProp d o k v dur) := by
  unfold mediaSetProp
  have h1 := pres_objSetProp hR o k v dur hk
  have h2 := pres_playerSetProp hR o k v
  have h3 : (d.obj o).kind = .settings ∧ k = "service.currentFocus" →
      Pres R (M.modify fun s => { s with focus := v }) := by
    rintro ⟨hs, rfl⟩
    refine Pres.modify fun s => hR.focus s v ?_
    rcases hk with h | h | ⟨e, h4, h5, rfl, h6⟩
    · exact absurd h (by decide)
    · exact absurd h (by decide)
    · exact ⟨e, h4, h5, hs, h6⟩
  by_cases h : (d.obj o).kind = .settings ∧ k = "service.currentFocus"
  · have h3' := h3 h; rw [if_pos h]; pres hR
  · rw [if_neg h]; pres hR
theorem pres_attribStart (o e) (hX : ¬ X e) (ht : (d.ev e).typ = .attribution) (ho : (d.ev e).obj = o) :
    Pres R (attribStart d o e) := by
  unfold attribStart
  have h1 := fun v dur => pres_mediaSetProp hR o (d.ev e).id v dur (.inr (.inr ⟨e, hX, ht, ho, rfl⟩))
  have h2 := fun v dur => pres_objSetProp hR o (d.ev e).id v dur (.inr (.inr ⟨e, hX, ht, ho, rfl⟩))
  have h3 := fun v => pres_parseTimeM hR v
  have h4 := fun t v dl => pres_addDelayed hR o e t v dl
  pres hR <;> first | exact h1 _ _ | exact h2 _ _ | exact h3 _ | exact h4 _ _ _

theorem pres_createPlayer (o) : Pres R (createPlayer d o) := by
  constructor
  intro s
  unfold createPlayer
  simp only [wp_bind, wp_get, wp_assert]
  split
  case isFalse => trivial
  next hnone =>
  simp only [wp_modify]
  cases d.env.createPlayer (s.getProp o "uri") (s.getProp o "type") with
  | none => trivial
  | some mime =>
    simp only [wp_bind]
    generalize hs1 : s.setProps o (mset "type" (s.getProp o "type")
      (mset "uri" (s.getProp o "uri") (s.props o))) = s1
    have hp1 : R s s1 := by
      have ha := hR.prop s o "uri" (s.getProp o "uri") (.inr (.inl rfl))
      have hb := hR.prop (s.setProps o (mset "uri" (s.getProp o "uri") (s.props o))) o "type"
        (s.getProp o "type") (.inl rfl)
      have := hR.trans ha hb
      rw [← hs1]
      have he : (s.setProps o (mset "uri" (s.getProp o "uri") (s.props o))).setProps o
          (mset "type" (s.getProp o "type")
            ((s.setProps o (mset "uri" (s.getProp o "uri") (s.props o))).props o)) =
          s.setProps o (mset "type" (s.getProp o "type")
            (mset "uri" (s.getProp o "uri") (s.props o))) := by
        simp [St.setProps]
      rw [he] at this; exact this
    have hpl : s1.player o = none := by
      rw [← hs1]; simp only [St.setProps]; simpa using hnone
    -- `mediaSetProp` keeps the player missing
    have hset : wp True True (mediaSetProp d o "type" mime 0)
        (fun _ s2 => R s1 s2 ∧ s2.player o = none) s1 := by
      have hr1 := (pres_mediaSetProp hR o "type" mime 0 (.inl rfl)).run s1
      have hr2 : wp True True (mediaSetProp d o "type" mime 0) (fun _ s2 => s2.player o = none) s1 := by
        unfold mediaSetProp objSetProp
        simp only [wp_bind, wp_ite, wp_modify, wp_pure, wp_assert, wp_get]
        split <;> split <;> simp [St.setProps, hpl]
      unfold wp at hr1 hr2 ⊢
      cases hm : mediaSetProp d o "type" mime 0 s1 with
      | ok p => rw [hm] at hr1 hr2; exact ⟨hr1, hr2⟩
      | _ => trivial
    refine wp_mono hset ?_
    rintro _ s2 ⟨h2, hp2⟩
    simp only [wp_modify, wp_get]
    refine wp_mono ((pres_playerSetProps hR o _).run _) ?_
    intro _ s3 h3
    have h4 : R s s3 := hR.trans hp1 (hR.trans h2 (hR.trans (hR.newPlayer s2 o _ hp2) h3))
    cases hp3 : s3.player o with
    | none =>
      have : s3.setPlayer o (Option.map (fun p : PlayerSt => { p with st := .occurring, time := 0, eos := false }) none) = s3 :=
        setPlayer_self s3 o none hp3
      simp only [this]; exact h4
    | some p => exact hR.trans h4 (hR.player s3 o p _ hp3)

variable {r : Rec} (hr : RecPres R r)
include hr

theorem pres_transAll (t cs) : Pres R (transAll d r t cs) := by
  induction cs with
  | nil => exact Pres.pure hR _
  | cons c cs ih => unfold transAll; pres hR
theorem pres_startParent (hst : RecStart d r) (o) : Pres R (startParent d r o) := by
  unfold startParent
  split
  · exact Pres.pure hR _
  · next p hp =>
    have hk : (d.obj p).kind = .context := by
      unfold Doc.ctxParent at hp
      split at hp
      · split at hp
        · cases hp; assumption
        · cases hp
      · cases hp
    constructor
    intro s
    simp only [wp_bind, wp_get]
    split
    · next hs =>
      simp only [wp_bind, wp_setPar]
      refine wp_intro ?_ (fun _ => trivial) (fun _ => trivial)
      intro b s' hb
      exact hR.mark s s' p _ hk ((hr.trans _ _).ok hb)
        (hst p _ b s' hk (by simpa [isSleeping, setParSt] using hs) hb)
    · exact hR.refl s
theorem pres_ctxBefore (o e t) : Pres R (ctxBefore d r o e t) := by
  unfold ctxBefore; have := fun t => pres_transAll hR hr t (d.obj o).children
  pres hR <;> exact this _
theorem pres_switchRules (o cands l) : Pres R (switchRules d r o cands l) := by
  induction l with
  | nil => exact Pres.pure hR _
  | cons p l ih =>
    obtain ⟨obj, pred⟩ := p
    unfold switchRules
    have := Pres.modify (R := R) (f := fun s => s.setSel o (some obj)) (fun s => hR.sel s o _)
    pres hR
theorem pres_switchBefore (o e t) : Pres R (switchBefore d r o e t) := by
  unfold switchBefore
  have h1 := fun cands l => pres_switchRules hR hr o cands l
  have h2 := Pres.modify (R := R) (f := fun s => s.setSel o none) (fun s => hR.sel s o _)
  pres hR <;> exact h1 _ _
theorem pres_anchorFilter (b f q) : Pres R (anchorFilter r b f q) := by
  induction q with
  | nil => exact Pres.pure hR _
  | cons p q ih => obtain ⟨a, t⟩ := p; unfold anchorFilter; pres hR
theorem pres_evalAnchors (t es) : Pres R (evalAnchors d r t es) := by
  induction es with
  | nil => exact Pres.pure hR _
  | cons e es ih => unfold evalAnchors; pres hR

theorem pres_anchorStart (o e) (s : St) (hs : s.est (d.lam o) = .sleeping) :
    wp True True (anchorStart d r o e) (fun _ s' => R s s') s := by
  unfold anchorStart
  have h1 := fun k v => pres_playerSetProp hR o k v
  have h2 := fun t v dl => pres_addDelayed hR o e t v dl
  have hm : Pres R (do
      let _ ← r.trans (d.obj o).lambda .start
      let bgn := if (d.ev e).begin_ = NONE then 0 else (d.ev e).begin_
      let end_ := (d.ev e).end_
      playerSetProp d o "time" (toString (bgn / SECOND))
      if end_ ≠ NONE then do
        playerSetProp d o "duration" (toString (tsub end_ bgn / SECOND))
        addDelayed o e .stop "" end_
      else pure ()
      let s ← M.get
      anchorFilter r bgn end_ (s.delayed o) : M (List (Act × Nat))) := by
    have h3 := fun b f q => pres_anchorFilter hR hr b f q
    pres hR <;> first | exact h1 _ _ | exact h2 _ _ _ | exact h3 _ _ _
  have := hm.run s
  simp only [wp_bind, wp_ite, wp_get, wp_modify] at this ⊢
  refine wp_mono this ?_
  intro _ s1 h1
  refine wp_mono h1 ?_
  intro _ s2 h2
  split at h2
  · next hc =>
    rw [if_pos hc]
    try simp only [wp_bind] at h2 ⊢
    refine wp_mono h2 ?_
    intro _ s3 h3
    refine wp_mono h3 ?_
    intro _ s4 h4
    try simp only [wp_get] at h4 ⊢
    refine wp_mono h4 ?_
    intro q s5 h5
    exact hR.anchor s s5 o q hs h5
  · next hc =>
    rw [if_neg hc]
    try simp only [wp_pure, wp_bind, wp_get] at h2 ⊢
    refine wp_mono h2 ?_
    intro q s5 h5
    exact hR.anchor s s5 o q hs h5

theorem pres_mediaBefore (hst : RecStart d r) (o e t) : Pres R (mediaBefore d r o e t) := by
  have h1 := pres_startParent hR hr hst o
  have h2 := pres_createPlayer hR o
  have h3 := fun t => pres_evalAnchors hR hr t (d.obj o).events
  have h4 := fun b => pres_playerPause hR o b
  unfold mediaBefore
  split
  · split
    · -- START
      apply Pres.bind hR h1
      intro _
      constructor
      intro s
      simp only [wp_bind, wp_get]
      split
      · split
        · exact (Pres.bind hR h2 fun _ => Pres.pure hR _).run s
        · split
          · exact hR.refl s
          · next hne =>
            simp only [wp_bind]
            refine wp_mono (pres_anchorStart hR hr o e s (by simpa using hne)) ?_
            intro _ s1 h; exact h
      · exact hR.refl s
    all_goals pres hR <;> first | exact h3 _ | exact h4 _
  · exact Pres.pure hR _

theorem pres_before (hst : RecStart d r) (e t) : Pres R (before d r e t) := by
  have h1 := fun o => pres_ctxBefore hR hr o e t
  have h2 := fun o => pres_switchBefore hR hr o e t
  have h3 := fun o => pres_mediaBefore hR hr hst o e t
  unfold before
  pres hR <;> first | exact h1 _ | exact h2 _ | exact h3 _

variable {rank : Oid → Nat} (hw : WF d rank)
include hw

omit hR hr hw in
/-- `afterTransition` of START, PAUSE and RESUME never fails. -/
theorem after_true {e : Eid} {t : Trans} (ht : t = .start ∨ t = .pause ∨ t = .resume)
    (s s' : St) {b : Bool} (h : after d r e t s = .ok (b, s')) : b = true := by
  have key : wp True True (after d r e t) (fun b _ => b = true) s := by
    rcases ht with rfl | rfl | rfl
    all_goals unfold after ctxAfter switchAfter mediaAfter
    all_goals repeat' split
    all_goals simp only [wp_bind, wp_get, wp_pure, wp_abort, wp_assert, wp_ite, wp_doStart, wp_queuePorts,
      wp_queueAnchors, wp_setPar]
    all_goals repeat' split
    all_goals first | trivial | (refine wp_intro ?_ (fun _ => trivial) (fun _ => trivial); intro a s1 _) | skip
    all_goals try simp only [wp_bind, wp_get, wp_pure, wp_abort, wp_assert, wp_ite, wp_doStart, wp_queuePorts,
      wp_queueAnchors, wp_setPar]
    all_goals try (split <;> trivial)
    all_goals trivial
  exact wp_ok key h

omit hR hr hw in
/-- Only presentation events can be paused or resumed. -/
theorem after_start {e t} (hty : (d.ev e).typ ≠ .presentation) (h1 : t ≠ .stop) (h2 : t ≠ .abort)
    {s s' : St} {b : Bool} (h : after d r e t s = .ok (b, s')) : t = .start := by
  unfold after ctxAfter switchAfter mediaAfter at h
  cases hk : (d.obj (d.ev e).obj).kind <;> cases ht : (d.ev e).typ <;>
    first | exact absurd ht hty | (cases t <;> first | rfl | exact absurd rfl h1 | exact absurd rfl h2 | (simp only [hk, ht] at h; cases h))

/-- The transitions that do not put the event to sleep. -/
theorem pres_after_wake (hst : RecStart d r) (e t) (hx : ¬ X e) (h1 : t ≠ .stop) (h2 : t ≠ .abort) :
    Pres R (after d r e t) := by
  have k1 := fun o h => pres_doStart hR o e hx h
  have hlam : (d.ev e).isLambda = true → Whole d (d.ev e).obj e := fun h => .inl (hw.lam_uniq e h)
  have k2 := fun o => pres_startParent hR hr hst o
  have k3 := fun o ps => pres_queuePorts hR o ps
  have k4 := pres_setPar hR e "fromport" "" (.inr (.inr ⟨rfl, rfl⟩))
  have k5 := fun o es => pres_queueAnchors hR o es
  have k6 := fun o => pres_playerSendLabel hR o
  unfold after
  have hc : (d.obj (d.ev e).obj).kind = .context → Pres R (ctxAfter d r (d.ev e).obj e t) := by
    intro _
    unfold ctxAfter
    split
    · cases t with
      | stop => exact absurd rfl h1
      | abort => exact absurd rfl h2
      | _ =>
        cases hl : (d.ev e).isLambda with
        | false => constructor; intro s; simp only [wp_bind, wp_assert, Bool.false_eq_true, if_false]
        | true =>
          have k1' := k1 _ (hlam hl)
          pres hR <;> first | exact k2 _ | exact k3 _ _ | exact k4
    · next ht =>
      have := pres_attribStart hR (d.ev e).obj e hx ht rfl
      pres hR
    all_goals exact Pres.abort
  have hs : (d.obj (d.ev e).obj).kind = .switch → Pres R (switchAfter d r (d.ev e).obj e t) := by
    intro hk
    unfold switchAfter
    split
    · next hty =>
      have k1' := k1 _ (.inr ⟨hk, rfl, hty⟩)
      cases t with
      | stop => exact absurd rfl h1
      | abort => exact absurd rfl h2
      | _ => pres hR
    · exact Pres.abort
  have hm : Pres R (mediaAfter d r (d.ev e).obj e t) := by
    unfold mediaAfter
    split
    · cases t with
      | stop => exact absurd rfl h1
      | abort => exact absurd rfl h2
      | start =>
        dsimp only
        split
        · next hl =>
          have k1' := k1 _ (hlam hl)
          pres hR <;> first | exact k5 _ _
        · pres hR <;> exact k6 _
      | _ => pres hR
    · next ht =>
      have := pres_attribStart hR (d.ev e).obj e hx ht rfl
      pres hR
    all_goals pres hR
  split
  · exact hc (by assumption)
  · exact hs (by assumption)
  · exact hm
  · exact hm

omit hR hr in
theorem not_whole {e : Eid} (h1 : (d.ev e).isLambda = false)
    (h2 : (d.obj (d.ev e).obj).kind = .switch → (d.ev e).typ ≠ .presentation) (o : Oid) :
    ¬ Whole d o e := by
  rintro (h | ⟨hk, ho, ht⟩)
  · rw [h, hw.lam_is o] at h1; cases h1
  · subst ho; exact h2 hk ht

/-- STOP and ABORT, from the moment the state of the event is set. -/
theorem wp_after_stop (e t) (ht : t = .stop ∨ t = .abort) (s : St) (b0 : EState) :
    wp True True (after d r e t) (fun b s2 => b = true ∧ R s (s2.addLog e t b0))
      (s.setEst e .sleeping) := by
  have hlam : (d.ev e).isLambda = true → Whole d (d.ev e).obj e := fun h => .inl (hw.lam_uniq e h)
  have hself : ∀ o, (s.setEst e .sleeping).setPlayer o ((s.setEst e .sleeping).player o) =
      s.setEst e .sleeping := fun o => setPlayer_self _ _ _ rfl
  unfold after
  have hc : (d.obj (d.ev e).obj).kind = .context →
      wp True True (ctxAfter d r (d.ev e).obj e t)
        (fun b s2 => b = true ∧ R s (s2.addLog e t b0)) (s.setEst e .sleeping) := by
    intro hk
    unfold ctxAfter
    split
    · simp only [wp_bind, wp_assert]
      split
      · next hl =>
        have := hR.stopObj s (d.ev e).obj e t b0 ((s.setEst e .sleeping).player (d.ev e).obj)
          ht (hlam hl)
        rw [hself] at this
        rcases ht with rfl | rfl <;> exact ⟨rfl, this⟩
      · trivial
    · next hty =>
      have hn : ∀ o, ¬ Whole d o e := not_whole hw (by simp [EvDecl.isLambda, hty]) (by rw [hk]; simp)
      rcases ht with rfl | rfl
      · exact ⟨rfl, hR.stopEv s e _ b0 (.inl rfl) hn⟩
      · trivial
    all_goals trivial
  have hs : (d.obj (d.ev e).obj).kind = .switch →
      wp True True (switchAfter d r (d.ev e).obj e t)
        (fun b s2 => b = true ∧ R s (s2.addLog e t b0)) (s.setEst e .sleeping) := by
    intro hk
    unfold switchAfter
    split
    · next hty =>
      have := hR.stopObj s (d.ev e).obj e t b0 ((s.setEst e .sleeping).player (d.ev e).obj)
        ht (.inr ⟨hk, rfl, hty⟩)
      rw [hself] at this
      rcases ht with rfl | rfl <;> exact ⟨rfl, this⟩
    · trivial
  have hm : (d.obj (d.ev e).obj).kind.isMedia = true →
      wp True True (mediaAfter d r (d.ev e).obj e t)
        (fun b s2 => b = true ∧ R s (s2.addLog e t b0)) (s.setEst e .sleeping) := by
    intro hk
    have hnsw : (d.obj (d.ev e).obj).kind ≠ .switch := by intro hx; rw [hx] at hk; cases hk
    have key : (d.ev e).isLambda = false → R s ((s.setEst e .sleeping).addLog e t b0) :=
      fun hl => hR.stopEv s e _ b0 ht (not_whole hw hl (fun hx => absurd hx hnsw))
    unfold mediaAfter
    split
    · have hstop : wp True True (if (d.ev e).isLambda then do
            let s ← M.get
            M.assert (s.player (d.ev e).obj).isSome
            mediaDoStop d (d.ev e).obj
            pure true
          else if (d.ev e).label ≠ "" then do playerSendLabel (d.ev e).obj; pure true
          else do
            let s ← M.get
            M.assert (isOccurring d s (d.ev e).obj)
            pure true : M Bool)
          (fun b s2 => b = true ∧ R s (s2.addLog e t b0)) (s.setEst e .sleeping) := by
        split
        · next hl =>
          simp only [wp_bind, wp_get, wp_assert]
          split
          · unfold mediaDoStop
            simp only [wp_bind, wp_get]
            cases hp : (s.setEst e .sleeping).player (d.ev e).obj with
            | none =>
              next hx => rw [hp] at hx; cases hx
            | some p =>
              simp only [wp_bind, wp_modify, wp_doStop, wp_pure, true_and]
              exact hR.stopObj s _ e t b0 none ht (hlam hl)
          · trivial
        · next hl =>
          have hk2 := key (by simpa using hl)
          split
          · rw [wp_bind]
            refine wp_intro ?_ (fun _ => trivial) (fun _ => trivial)
            intro a s' hps
            unfold playerSendLabel at hps
            split at hps
            · cases hps
            · cases hps; exact ⟨rfl, hk2⟩
          · simp only [wp_bind, wp_get, wp_assert]
            split
            · exact ⟨rfl, hk2⟩
            · trivial
      rcases ht with rfl | rfl <;> exact hstop
    all_goals
      next hty =>
        have hk2 := key (by simp [EvDecl.isLambda, hty])
        rcases ht with rfl | rfl
        · exact ⟨rfl, hk2⟩
        · trivial
  cases hk : (d.obj (d.ev e).obj).kind with
  | context => exact hc hk
  | switch => exact hs hk
  | media => exact hm (by rw [hk]; rfl)
  | settings => exact hm (by rw [hk]; rfl)

omit hR hr hw in
theorem logGrow_closed (d : Doc) : Closed d (fun _ => False) LogGrow where
  refl := fun s => ⟨[], rfl⟩
  trans := by
    rintro s t u ⟨l, h⟩ ⟨l', h'⟩
    exact ⟨l' ++ l, by rw [h', h, List.append_assoc]⟩
  par := fun s e k v _ => ⟨[], rfl⟩
  mark := fun _ _ _ _ _ h _ => h
  enq := fun s o e t v dl => ⟨[], rfl⟩
  focusReq := fun s x => ⟨[], rfl⟩
  prop := fun s o k v _ => ⟨[], rfl⟩
  focus := fun s v _ => ⟨[], rfl⟩
  player := fun s o p p' _ => ⟨[], rfl⟩
  newPlayer := fun s o p _ => ⟨[], rfl⟩
  sel := fun s o c => ⟨[], rfl⟩
  wake := fun s e x _ _ => ⟨[], rfl⟩
  start := fun s o e _ _ => ⟨[], by simp⟩
  logged := fun s e t b _ _ _ => ⟨[⟨e, t, b⟩], rfl⟩
  touched := fun s s' e t b h => h.elim
  stopEv := fun s e t b _ _ => ⟨[⟨e, t, b⟩], rfl⟩
  stopObj := fun s o e t b p _ _ => ⟨[⟨e, t, b⟩], by simp [St.addLog]⟩
  anchor := fun s s1 o q _ h => h

/-- A relation closed under the elementary effects holds across every transition. -/
theorem pres_transition (hl : RecPres LogGrow r) (hst : RecStart d r) (e t) : Pres R (transition d r e t) := by
  constructor
  intro s
  apply wp_transition
  · intro _; exact hR.refl s
  · intro x hn
    by_cases ht : t = .stop ∨ t = .abort
    · refine wp_mono ((pres_before hR hr hst e t).run s) ?_
      intro b s1 h1
      cases b with
      | false => exact h1
      | true =>
        simp only [if_true]
        obtain ⟨rfl, -⟩ := nextState_stop hw ht hn
        refine wp_mono (wp_after_stop hR hr hw e t ht s1 (s.est e)) ?_
        rintro b' s2 ⟨rfl, h2⟩
        exact hR.trans h1 h2
    · have ht' : t ≠ .stop ∧ t ≠ .abort := ⟨fun h => ht (.inl h), fun h => ht (.inr h)⟩
      have ht3 : t = .start ∨ t = .pause ∨ t = .resume := by
        cases t <;> simp at ht ⊢
      have hx : x ≠ .sleeping := by
        rintro rfl
        cases t <;> simp [nextState] at hn <;> simp at ht
      by_cases hX : X e
      · have hLR := logGrow_closed d
        refine wp_intro ?_ (fun _ => trivial) (fun _ => trivial)
        intro b s1 hb
        have g1 := wp_ok ((pres_before hLR hl hst e t).run s) hb
        have r1 := wp_ok ((pres_before hR hr hst e t).run s) hb
        cases b with
        | false => exact r1
        | true =>
          simp only [if_true]
          refine wp_intro ?_ (fun _ => trivial) (fun _ => trivial)
          intro b' s2 h2
          have := after_true ht3 _ _ h2; subst this
          have g2 : LogGrow (s1.setEst e x) s2 :=
            wp_ok (m := after d r e t) (Q := fun _ s' => LogGrow (s1.setEst e x) s')
              ((pres_after_wake hLR hl hw hst e t (fun h => h.elim) ht'.1 ht'.2).run _) h2
          exact hR.touched s s2 e t _ hX
            (hLR.trans g1 (hLR.trans (hLR.wake s1 e x (fun h => h.elim) hx) g2)) ht'.1 ht'.2
            (fun hty => after_start hty ht'.1 ht'.2 h2)
      · refine wp_mono ((pres_before hR hr hst e t).run s) ?_
        intro b s1 h1
        cases b with
        | false => exact h1
        | true =>
          simp only [if_true]
          refine wp_intro ?_ (fun _ => trivial) (fun _ => trivial)
          intro b' s2 h2
          have := after_true ht3 _ _ h2; subst this
          have k1 := wp_ok (m := after d r e t) (Q := fun _ s' => R (s1.setEst e x) s')
            ((pres_after_wake hR hr hw hst e t hX ht'.1 ht'.2).run _) h2
          exact hR.trans (hR.trans h1 (hR.trans (hR.wake s1 e x hX hx) k1))
            (hR.logged s2 e t _ hX ht'.1 ht'.2)

theorem pres_fireActs (c acts) : Pres R (fireActs d c acts) := by
  have h1 := fun v => pres_parseTimeM hR v
  have h2 := fun o e t v dl => pres_addDelayed hR o e t v dl
  induction acts with
  | nil => exact Pres.pure hR _
  | cons a as ih => unfold fireActs; pres hR <;> first | exact h1 _ | exact h2 _ _ _ _ _
theorem pres_fireConds (c a acts conds) : Pres R (fireConds d c a acts conds) := by
  have h1 := pres_fireActs hR hr hw c acts.reverse
  induction conds with
  | nil => exact Pres.pure hR _
  | cons x xs ih => unfold fireConds; pres hR
theorem pres_fireLinks (c a ls) : Pres R (fireLinks d c a ls) := by
  induction ls with
  | nil => exact Pres.pure hR _
  | cons x xs ih => unfold fireLinks; have := pres_fireConds hR hr hw c a x.acts x.conds; pres hR
theorem pres_evalInCtx (a c) : Pres R (evalInCtx d a c) := by
  unfold evalInCtx; have := pres_fireLinks hR hr hw c a (d.obj c).links; pres hR
theorem pres_firePorts (a x g ps) : Pres R (firePorts d a x g ps) := by
  have := pres_evalInCtx hR hr hw a g
  induction ps with
  | nil => exact Pres.pure hR _
  | cons p ps ih => unfold firePorts; pres hR
theorem pres_fireMapped (a x w p ms) : Pres R (fireMapped d r a x w p ms) := by
  induction ms with
  | nil => exact Pres.pure hR _
  | cons m ms ih => unfold fireMapped; pres hR
theorem pres_fireSwitch (a x w ps) : Pres R (fireSwitch d r a x w ps) := by
  induction ps with
  | nil => exact Pres.pure hR _
  | cons p ps ih =>
    obtain ⟨p, evs⟩ := p
    unfold fireSwitch; have := pres_fireMapped hR hr hw a x w p evs; pres hR
theorem pres_fireAliases (a ls) : Pres R (fireAliases d a ls) := by
  have := fun c => pres_evalInCtx hR hr hw a c
  induction ls with
  | nil => exact Pres.pure hR _
  | cons p ps ih =>
    obtain ⟨p, c⟩ := p
    unfold fireAliases; pres hR <;> exact this _
theorem pres_fireParent (a x) : Pres R (fireParent d r a x) := by
  have h1 := fun c => pres_evalInCtx hR hr hw a c
  have h2 := fun g ps => pres_firePorts hR hr hw a x g ps
  have h3 := fun w ps => pres_fireSwitch hR hr hw a x w ps
  unfold fireParent; pres hR <;> first | exact h1 _ | exact h2 _ _ | exact h3 _ _
theorem pres_fireOwn (a x) : Pres R (fireOwn d a x) := by
  have h1 := fun c => pres_evalInCtx hR hr hw a c
  have h2 := fun ls => pres_fireAliases hR hr hw a ls
  unfold fireOwn; pres hR <;> first | exact h1 _ | exact h2 _
theorem pres_evalStep (a) : Pres R (evalStep d r a) := by
  have h1 := pres_fireParent hR hr hw a (d.ev a.ev).obj
  have h2 := pres_fireOwn hR hr hw a (d.ev a.ev).obj
  have h3 := fun v => pres_setPar hR a.ev "duration" v (.inl rfl)
  have h4 := fun v => pres_setPar hR a.ev "value" v (.inr (.inl rfl))
  unfold evalStep; pres hR <;> first | exact h3 _ | exact h4 _
theorem pres_evalLoop (l k) : Pres R (evalLoop d r l k) := by
  cases l with
  | nil => exact Pres.pure hR _
  | cons a l => unfold evalLoop; have := pres_evalStep hR hr hw a; pres hR

omit hR hr in
theorem run_start (n : Nat) : RecStart d (run d n) := by
  intro p s b s' hk hs h
  cases n with
  | zero => cases h
  | succ n =>
    have hs' : s.est (d.obj p).lambda = .sleeping := hs
    simp only [run, transition] at h
    obtain ⟨_, _, h1, h⟩ := bind_ok h
    cases h1
    simp only [nextState, hs'] at h
    obtain ⟨b1, s1, h1, h⟩ := bind_ok h
    have hb1 : b1 = true := by
      unfold before at h1
      simp only [hw.lam_obj, hk, ctxBefore, hw.lam_typ, hw.lam_is] at h1
      have hli := hw.lam_is p
      simp only [M.assert, hli, if_true] at h1
      cases h1; rfl
    subst hb1
    simp only [if_true] at h
    obtain ⟨_, s2, h2, h⟩ := bind_ok h
    obtain ⟨b3, s3, h3, h⟩ := bind_ok h
    have := after_true (.inl rfl) _ _ h3
    subst this
    simp only [if_true] at h
    cases h
    exact ⟨s3.log, rfl⟩

omit hR hr in
theorem run_logGrow (n : Nat) : RecPres LogGrow (run d n) := by
  induction n with
  | zero => exact ⟨fun _ _ => Pres.fuel, fun _ => Pres.fuel, fun _ _ => Pres.fuel⟩
  | succ n ih =>
    exact ⟨fun e t => pres_transition (logGrow_closed d) ih hw ih (run_start hw n) e t, fun a => ih.loop [a] 0,
      fun l k => pres_evalLoop (logGrow_closed d) ih hw l k⟩

omit hr in
/-- A relation closed under the elementary effects holds across every engine call. -/
theorem run_closed (n : Nat) : RecPres R (run d n) := by
  induction n with
  | zero => exact ⟨fun _ _ => Pres.fuel, fun _ => Pres.fuel, fun _ _ => Pres.fuel⟩
  | succ n ih =>
    exact ⟨fun e t => pres_transition hR ih hw (run_logGrow hw n) (run_start hw n) e t, fun a => ih.loop [a] 0,
      fun l k => pres_evalLoop hR ih hw l k⟩

end
end Ginga
