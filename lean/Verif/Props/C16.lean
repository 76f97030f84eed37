import Verif.Props.C11
/-! # C16 — attribution sets the property

Full statement: when a set action on a property event succeeds, the property has the (dereferenced)
value afterwards and no other property changes; the attribution event ends by itself at the first
tick at which the duration has elapsed, so that a later set action is effective.

The last part fails for a property of a *sleeping* object (`C16_fails_sleeping`): the end is queued
for a time that never comes, the event occurs for ever and later set actions are ignored. -/
set_option linter.unusedVariables false
namespace Ginga
open Ex

/-- The property named by attribution event `e` is set to `value` with duration `dur` (nanoseconds):
only that property of that object changes; the event occurs; its end is queued in the object for the
current time plus the duration. -/
structure PropertySet (d : Doc) (e : Eid) (value : String) (dur : Nat) (s s' : St) : Prop where
  set : s'.getProp (d.ev e).obj (d.ev e).id = value
  others : ∀ x k, ¬ (x = (d.ev e).obj ∧ k = (d.ev e).id) → s'.getProp x k = s.getProp x k
  occurs : s'.est = upd s.est e .occurring
  ends : s'.delayed = upd s.delayed (d.ev e).obj (s.delayed (d.ev e).obj ++
    [({ ev := e, tr := .stop, value := value }, tadd (s.time (d.ev e).obj) dur)])
  clock : s'.time = s.time
  history : s'.log = ⟨e, .start, s.est e⟩ :: s.log
  /-- the input focus is the value of property `service.currentFocus` of the settings -/
  focus : s'.focus = if (d.obj (d.ev e).obj).kind = .settings ∧ (d.ev e).id = "service.currentFocus"
    then value else s.focus

theorem getProp_setProps (s : St) (o x : Oid) (k k' v : String) :
    (s.setProps o (mset k v (s.props o))).getProp x k' =
      if x = o ∧ k' = k then v else s.getProp x k' := by
  unfold St.getProp St.setProps
  by_cases hx : x = o
  · subst hx
    by_cases hk : k' = k
    · subst hk; simp [mget_mset_same]
    · simp [hk, mget_mset_ne]
  · simp [hx]

/-- What `setProperty` does to the engine state (the players aside). -/
structure SetSt (d : Doc) (o : Oid) (name value : String) (s s' : St) : Prop where
  set : ∀ x k, s'.getProp x k = if x = o ∧ k = name then value else s.getProp x k
  est : s'.est = s.est
  delayed : s'.delayed = s.delayed
  time : s'.time = s.time
  log : s'.log = s.log
  focus : s'.focus = if (d.obj o).kind = .settings ∧ name = "service.currentFocus" then value else s.focus

theorem objSetProp_ok {o : Oid} {name value : String} {dur : Nat} {s s' : St}
    (h : objSetProp o name value dur s = .ok ((), s')) :
    s' = s.setProps o (mset name value (s.props o)) := by
  unfold objSetProp at h
  obtain ⟨_, s1, h1, h⟩ := bind_ok h
  have : s1 = s := by unfold M.assert at h1; split at h1 <;> cases h1; rfl
  rw [this] at h
  cases h
  rfl

theorem playerSetProp_ok {d : Doc} {o : Oid} {name value : String} {s s' : St}
    (h : playerSetProp d o name value s = .ok ((), s')) : ∃ p, s' = s.setPlayer o p := by
  unfold playerSetProp at h
  cases hp : s.player o with
  | none => rw [hp] at h; cases h
  | some p =>
    rw [hp] at h; simp only at h
    split at h
    · cases h
    · split at h
      · split at h
        · cases h
        · cases h; exact ⟨_, rfl⟩
      · split at h <;> cases h <;> exact ⟨_, rfl⟩

theorem mediaSetProp_ok {d : Doc} {o : Oid} {name value : String} {dur : Nat} {s s' : St}
    (h : mediaSetProp d o name value dur s = .ok ((), s')) : SetSt d o name value s s' := by
  unfold mediaSetProp at h
  have tail : ∀ {s1 : St}, s1.props = s.props → s1.est = s.est → s1.delayed = s.delayed →
      s1.time = s.time → s1.log = s.log →
      s1.focus = (if (d.obj o).kind = .settings ∧ name = "service.currentFocus" then value else s.focus) →
      (do objSetProp o name value dur
          let s ← M.get
          match s.player o with
          | none => pure ()
          | some _ =>
            if dur > 0 then (if compoundProp name then M.ub else pure ())
            else playerSetProp d o name value : M Unit) s1 = .ok ((), s') → SetSt d o name value s s' := by
    intro s1 e1 e2 e3 e4 e5 e6 h
    obtain ⟨_, s2, h1, h⟩ := bind_ok h
    have k := objSetProp_ok h1
    have k' : SetSt d o name value s s2 := by
      rw [k]
      exact ⟨fun x n => by rw [getProp_setProps]; simp only [St.getProp, e1], e2, e3, e4, e5, e6⟩
    obtain ⟨_, _, h2, h⟩ := bind_ok h
    cases h2
    cases hp : s2.player o with
    | none => rw [hp] at h; cases h; exact k'
    | some p =>
      rw [hp] at h; simp only at h
      split at h
      · split at h
        · cases h
        · cases h; exact k'
      · obtain ⟨q, rfl⟩ := playerSetProp_ok h
        exact ⟨k'.set, k'.est, k'.delayed, k'.time, k'.log, k'.focus⟩
  split at h
  · next hc =>
    obtain ⟨_, s1, h1, h⟩ := bind_ok h
    have hs1 : s1 = { s with focus := value } := by cases h1; rfl
    rw [hs1] at h
    exact tail (s1 := { s with focus := value }) rfl rfl rfl rfl rfl (by rw [if_pos hc]) h
  · next hc => exact tail rfl rfl rfl rfl rfl (by rw [if_neg hc]) h

theorem attribStart_ok {d : Doc} {e : Eid} {s s' : St} {v : String}
    (hv : s.par e "duration" = some v)
    (h : attribStart d (d.ev e).obj e s = .ok ((), s')) :
    ∃ dur sm, d.env.parseTime (deref d s v) = some dur ∧
      SetSt d (d.ev e).obj (d.ev e).id (deref d s ((s.par e "value").getD "")) s sm ∧
      s' = addDelayedSt (d.ev e).obj e .stop (deref d s ((s.par e "value").getD "")) dur sm := by
  unfold attribStart at h
  obtain ⟨_, _, h1, h⟩ := bind_ok h
  cases h1
  simp only [hv] at h
  obtain ⟨dur, s1, h1, h⟩ := bind_ok h
  unfold parseTimeM at h1
  cases hp : d.env.parseTime (deref d s v) with
  | none => rw [hp] at h1; cases h1
  | some t =>
    rw [hp] at h1
    cases h1
    by_cases hm : (d.obj (d.ev e).obj).kind.isMedia = true
    · rw [if_pos hm] at h
      obtain ⟨_, s2, h2, h⟩ := bind_ok h
      cases h
      exact ⟨dur, s2, rfl, mediaSetProp_ok h2, rfl⟩
    · rw [if_neg hm] at h
      obtain ⟨_, s2, h2, h⟩ := bind_ok h
      cases h
      have hk : ¬ ((d.obj (d.ev e).obj).kind = .settings ∧ (d.ev e).id = "service.currentFocus") := by
        rintro ⟨hk, -⟩; rw [hk] at hm; exact hm rfl
      refine ⟨dur, s2, rfl, ?_, rfl⟩
      rw [objSetProp_ok h2]
      exact ⟨fun x n => getProp_setProps _ _ _ _ _ _, rfl, rfl, rfl, rfl, by rw [if_neg hk]; rfl⟩

theorem deref_est {d : Doc} (s : St) (e : Eid) (x : EState) : deref d (s.setEst e x) = deref d s := rfl
theorem deref_par {d : Doc} (s : St) (e : Eid) (k v : String) : deref d (setParSt e k v s) = deref d s := rfl

/-- Transition START of an attribution event of a context or media. -/
theorem attrib_trans {d : Doc} {r : Rec} {e : Eid} (hty : (d.ev e).typ = .attribution)
    (hk : (d.obj (d.ev e).obj).kind ≠ .switch) {s s' : St} {b : Bool} {v w : String}
    (hv : s.par e "value" = some v) (hw : s.par e "duration" = some w)
    (h : transition d r e .start s = .ok (b, s')) :
    (s.est e = .occurring ∧ b = false ∧ s' = s) ∨
    (s.est e ≠ .occurring ∧ b = true ∧ ∃ dur, d.env.parseTime (deref d s w) = some dur ∧
      PropertySet d e (deref d s v) dur s s') := by
  unfold transition at h
  obtain ⟨_, _, h1, h⟩ := bind_ok h
  cases h1
  by_cases ho : s.est e = .occurring
  · simp only [nextState, ho, if_true] at h
    cases h; exact .inl ⟨ho, rfl, rfl⟩
  · right
    simp only [nextState, ho, if_false] at h
    obtain ⟨b1, s1, h1, h⟩ := bind_ok h
    have hb : b1 = true ∧ s1 = s := by
      unfold before at h1
      cases hk' : (d.obj (d.ev e).obj).kind with
      | switch => exact absurd hk' hk
      | context => simp only [hk', ctxBefore, hty] at h1; cases h1; exact ⟨rfl, rfl⟩
      | media => simp only [hk', mediaBefore, hty] at h1; cases h1; exact ⟨rfl, rfl⟩
      | settings => simp only [hk', mediaBefore, hty] at h1; cases h1; exact ⟨rfl, rfl⟩
    obtain ⟨rfl, rfl⟩ := hb
    simp only [if_true] at h
    obtain ⟨_, s2, h2, h⟩ := bind_ok h
    cases h2
    obtain ⟨b3, s3, h3, h⟩ := bind_ok h
    have h4 : b3 = true ∧ attribStart d (d.ev e).obj e (s1.setEst e .occurring) = .ok ((), s3) := by
      unfold after at h3
      cases hk' : (d.obj (d.ev e).obj).kind with
      | switch => exact absurd hk' hk
      | context =>
        simp only [hk', ctxAfter, hty] at h3
        obtain ⟨_, _, h5, h3⟩ := bind_ok h3
        cases h3; exact ⟨rfl, h5⟩
      | media =>
        simp only [hk', mediaAfter, hty] at h3
        obtain ⟨_, _, h5, h3⟩ := bind_ok h3
        cases h3; exact ⟨rfl, h5⟩
      | settings =>
        simp only [hk', mediaAfter, hty] at h3
        obtain ⟨_, _, h5, h3⟩ := bind_ok h3
        cases h3; exact ⟨rfl, h5⟩
    obtain ⟨rfl, h4⟩ := h4
    simp only [if_true] at h
    cases h
    obtain ⟨dur, sm, hd, hs, rfl⟩ := attribStart_ok (s := s1.setEst e .occurring) (v := w) hw h4
    rw [deref_est] at hd hs
    have hval : ((s1.setEst e .occurring).par e "value").getD "" = v := by
      have : (s1.setEst e .occurring).par e "value" = some v := hv
      rw [this]; rfl
    rw [hval] at hs ⊢
    refine ⟨ho, rfl, dur, hd, ?_⟩
    constructor
    · show sm.getProp _ _ = _
      rw [hs.set]; simp
    · intro x k hx
      show sm.getProp _ _ = _
      rw [hs.set]; simp only [hx, if_false]; rfl
    · show sm.est = _
      rw [hs.est]; rfl
    · show (addDelayedSt _ _ _ _ _ sm).delayed = _
      simp only [addDelayedSt, St.setDelayed, hs.delayed, hs.time, deref_est]; rfl
    · show sm.time = _
      rw [hs.time]; rfl
    · show _ :: sm.log = _
      rw [hs.log]; rfl
    · show sm.focus = _
      rw [hs.focus]; rfl

/-- The first step of evaluating an action (`s0`: the state with the parameters of the event set). -/
theorem evalA_first {d : Doc} {rank} (hwf : WF d rank) {n : Nat} {a : Act} (hty : (d.ev a.ev).typ = .attribution) {s s' : St} {k : Nat}
    (he : (run d n).evalA a s = .ok (k, s')) :
    ∃ m b s1, n = m + 3 ∧
      transition d (run d m) a.ev a.tr
        (setParSt a.ev "value" a.value (setParSt a.ev "duration" a.duration s)) = .ok (b, s1) ∧
      (b = false → k = 0 ∧ s' = s1) ∧ (b = true → 0 < k ∧ LogGrow s1 s') := by
  cases n with
  | zero => cases he
  | succ n =>
  cases n with
  | zero => cases he
  | succ n =>
  change evalLoop d (run d n) [a] 0 s = _ at he
  rw [evalLoop] at he
  obtain ⟨o, s2, h1, h⟩ := bind_ok he
  unfold evalStep at h1
  obtain ⟨_, sa, h2, h1⟩ := bind_ok h1
  cases h2
  rw [if_pos hty] at h1
  obtain ⟨_, sb, h2, h1⟩ := bind_ok h1
  cases h2
  obtain ⟨b, s1, h2, h1⟩ := bind_ok h1
  cases n with
  | zero => cases h2
  | succ m =>
  refine ⟨m, b, s1, rfl, h2, ?_, ?_⟩
  · rintro rfl
    simp only [Bool.false_eq_true, if_false] at h1
    cases h1
    simp only at h
    change Res.ok (0, _) = _ at h
    cases h; exact ⟨rfl, rfl⟩
  · rintro rfl
    simp only [if_true] at h1
    obtain ⟨xs, s3, h3, h1⟩ := bind_ok h1
    obtain ⟨ys, s4, h4, h1⟩ := bind_ok h1
    cases h1
    have hc := logGrow_closed d
    have hl := (run_logGrow hwf (m + 1)).loop ((xs ++ ys).reverse ++ []) (0 + 1)
    refine ⟨(loop_shift d _ _ _ _ _ _ h).1, ?_⟩
    exact hc.trans ((pres_fireParent hc (run_logGrow hwf (m + 1)) hwf _ _).ok h3)
      (hc.trans ((pres_fireOwn hc (run_logGrow hwf (m + 1)) hwf _ _).ok h4) (hl.ok h))

/-- **C16**, a set action.  Evaluating an action that sets a property (of a context, a media or the
settings) either finds its attribution event already occurring, and then changes nothing but the
parameters of that event; or sets the property to the dereferenced value (and only then, from
`s1`, fires links, which C09 and C10 describe). -/
theorem C16_set {d : Doc} (hd : DocWF d) (n : Nat) (a : Act) (hty : (d.ev a.ev).typ = .attribution)
    (htr : a.tr = .start) (hk : (d.obj (d.ev a.ev).obj).kind ≠ .switch)
    (s s' : St) (k : Nat) (he : (run d n).evalA a s = .ok (k, s')) :
    (s.est a.ev = .occurring ∧ k = 0 ∧ s' = { s with par := s'.par }) ∨
    (s.est a.ev ≠ .occurring ∧ 0 < k ∧ ∃ dur s1,
      d.env.parseTime (deref d s a.duration) = some dur ∧
      PropertySet d a.ev (deref d s a.value) dur s s1 ∧
      -- the transition is the first thing that happens
      LogGrow s1 s') := by
  obtain ⟨rank, hwf⟩ := hd
  obtain ⟨m, b, s1, -, h1, h2, h3⟩ := evalA_first hwf hty he
  rw [htr] at h1
  have hv : (setParSt a.ev "value" a.value (setParSt a.ev "duration" a.duration s)).par a.ev "value" =
      some a.value := by simp [setParSt]
  have hw : (setParSt a.ev "value" a.value (setParSt a.ev "duration" a.duration s)).par a.ev "duration" =
      some a.duration := by simp [setParSt, upd]
  rcases attrib_trans hty hk hv hw h1 with ⟨ho, rfl, rfl⟩ | ⟨ho, rfl, dur, hd, hset⟩
  · obtain ⟨rfl, rfl⟩ := h2 rfl
    exact .inl ⟨ho, rfl, rfl⟩
  · obtain ⟨hk0, hg⟩ := h3 rfl
    rw [deref_par, deref_par] at hset
    exact .inr ⟨ho, hk0, dur, s1, hd, ⟨hset.set, hset.others, hset.occurs, hset.ends, hset.clock, hset.history, hset.focus⟩, hg⟩

/-! ### The end of an attribution -/

/-- Event `e` was stopped (or aborted) between `s` and `s'`. -/
def EndedBetween (e : Eid) (s s' : St) : Prop :=
  ∃ x ∈ s.since s', x.ev = e ∧ (x.tr = .stop ∨ x.tr = .abort)

/-- Between `s` and `s'` event `e` of object `o` did not fall asleep unless it or `o` was stopped. -/
def EvKept (d : Doc) (e : Eid) (s s' : St) : Prop :=
  LogGrow s s' ∧ (s.est e ≠ .sleeping → ¬ StoppedBetween d (d.ev e).obj s s' → ¬ EndedBetween e s s' →
    s'.est e ≠ .sleeping)

theorem not_ended_trans {e} {s t u : St} (h : LogGrow s t) (h' : LogGrow t u)
    (hn : ¬ EndedBetween e s u) : ¬ EndedBetween e s t ∧ ¬ EndedBetween e t u := by
  unfold EndedBetween at *
  rw [since_trans h h'] at hn
  constructor
  · rintro ⟨x, hx, h1⟩; exact hn ⟨x, by simp [hx], h1⟩
  · rintro ⟨x, hx, h1⟩; exact hn ⟨x, by simp [hx], h1⟩

theorem evKept_closed {d rank} (hw : WF d rank) (e : Eid) :
    TClosed d (fun _ => False) (fun _ => True) (EvKept d e) := by
  have of_eq : ∀ {s s' : St}, s'.log = s.log →
      (s.est e ≠ .sleeping → s'.est e ≠ .sleeping) → EvKept d e s s' :=
    fun hl h => ⟨⟨[], hl⟩, fun hs _ _ => h hs⟩
  exact
  { refl := fun s => of_eq rfl id
    trans := by
      rintro s t u ⟨g1, h1⟩ ⟨g2, h2⟩
      refine ⟨(logGrow_closed d).trans g1 g2, fun hs hn hn' => ?_⟩
      obtain ⟨n1, n2⟩ := not_stopped_trans g1 g2 hn
      obtain ⟨n3, n4⟩ := not_ended_trans g1 g2 hn'
      exact h2 (h1 hs n1 n3) n2 n4
    par := fun s e k v _ => of_eq rfl id
    mark := fun _ _ _ _ _ h _ => h
    enq := fun s x e t v dl => of_eq rfl id
    focusReq := fun s x => of_eq rfl id
    prop := fun s x k v _ => of_eq rfl id
    focus := fun s v _ => of_eq rfl id
    player := fun s x p p' _ => of_eq rfl id
    newPlayer := fun s x p _ => of_eq rfl id
    sel := fun s x c => of_eq rfl id
    wake := by
      intro s e' x _ hx
      refine of_eq rfl fun h => ?_
      simp only [St.setEst, upd]; split
      · exact hx
      · exact h
    start := fun s x e' _ _ => of_eq (by simp) (by simp)
    logged := by
      intro s e' t b _ h1 h2
      exact ⟨⟨[⟨e', t, b⟩], rfl⟩, fun h _ _ => h⟩
    touched := fun s s' e' t b h => h.elim
    stopEv := by
      intro s e' t b ht hn
      refine ⟨⟨[⟨e', t, b⟩], rfl⟩, fun h _ hn' => ?_⟩
      by_cases hx : e = e'
      · subst hx
        exfalso; apply hn'
        refine ⟨⟨e, t, b⟩, ?_, rfl, ht⟩
        rw [since_of (l := [⟨e, t, b⟩]) rfl]; simp
      · simpa [St.setEst, upd, hx] using h
    stopObj := by
      intro s x e' t b p ht hwh
      refine ⟨⟨[⟨e', t, b⟩], by simp [St.addLog]⟩, fun h hn hn' => ?_⟩
      by_cases hx : (d.ev e).obj = x
      · exfalso; apply hn
        refine ⟨⟨e', t, b⟩, ?_, by rw [hx]; exact hwh, ht⟩
        rw [since_of (l := [⟨e', t, b⟩]) (by simp [St.addLog])]; simp
      · have h1 := hwh.obj hw
        have h2 : e ≠ e' := by
          rintro rfl; exact hx h1
        simp only [addLog_est, doStopSt_est, hw.reset_apply, hx, if_false]
        simpa [h2] using h
    anchor := by
      rintro s s1 x q hs ⟨g, h⟩
      exact ⟨g, fun hne hn => h hne hn⟩
    time := fun s x t hx => of_eq rfl id
    queue := fun s x q hx => of_eq rfl id
    focusDone := fun s => of_eq rfl id }

theorem attrib_stop {d : Doc} {r : Rec} {e : Eid} (hty : (d.ev e).typ = .attribution)
    (hk : (d.obj (d.ev e).obj).kind ≠ .switch) {s s' : St} {b : Bool}
    (hs : s.est e ≠ .sleeping) (h : transition d r e .stop s = .ok (b, s')) :
    b = true ∧ s' = (s.setEst e .sleeping).addLog e .stop (s.est e) := by
  unfold transition at h
  obtain ⟨_, _, h1, h⟩ := bind_ok h
  cases h1
  simp only [nextState, hs, if_false] at h
  obtain ⟨b1, s1, h1, h⟩ := bind_ok h
  have hb : b1 = true ∧ s1 = s := by
    unfold before at h1
    cases hk' : (d.obj (d.ev e).obj).kind with
    | switch => exact absurd hk' hk
    | context => simp only [hk', ctxBefore, hty] at h1; cases h1; exact ⟨rfl, rfl⟩
    | media => simp only [hk', mediaBefore, hty] at h1; cases h1; exact ⟨rfl, rfl⟩
    | settings => simp only [hk', mediaBefore, hty] at h1; cases h1; exact ⟨rfl, rfl⟩
  obtain ⟨rfl, rfl⟩ := hb
  simp only [if_true] at h
  obtain ⟨_, s2, h2, h⟩ := bind_ok h
  cases h2
  obtain ⟨b3, s3, h3, h⟩ := bind_ok h
  have h4 : b3 = true ∧ s3 = s1.setEst e .sleeping := by
    unfold after at h3
    cases hk' : (d.obj (d.ev e).obj).kind with
    | switch => exact absurd hk' hk
    | context => simp only [hk', ctxAfter, hty] at h3; cases h3; exact ⟨rfl, rfl⟩
    | media => simp only [hk', mediaAfter, hty] at h3; cases h3; exact ⟨rfl, rfl⟩
    | settings => simp only [hk', mediaAfter, hty] at h3; cases h3; exact ⟨rfl, rfl⟩
  obtain ⟨rfl, rfl⟩ := h4
  simp only [if_true] at h
  cases h; exact ⟨rfl, rfl⟩

/-- Evaluating the queued end of an attribution ends it, if it has not ended yet. -/
theorem evalA_ends {d : Doc} {rank} (hw : WF d rank) {n : Nat} {a : Act}
    (hty : (d.ev a.ev).typ = .attribution) (htr : a.tr = .stop)
    (hk : (d.obj (d.ev a.ev).obj).kind ≠ .switch) {s s' : St} {k : Nat}
    (he : (run d n).evalA a s = .ok (k, s')) (hs : s.est a.ev ≠ .sleeping) :
    EndedBetween a.ev s s' := by
  obtain ⟨m, b, s1, -, h1, h2, h3⟩ := evalA_first hw hty he
  rw [htr] at h1
  obtain ⟨rfl, rfl⟩ := attrib_stop (s := setParSt a.ev "value" a.value (setParSt a.ev "duration" a.duration s))
    hty hk hs h1
  obtain ⟨-, l, hl⟩ := h3 rfl
  refine ⟨⟨a.ev, .stop, s.est a.ev⟩, ?_, rfl, .inl rfl⟩
  rw [since_of (l := l ++ [⟨a.ev, .stop, s.est a.ev⟩]) (by rw [hl]; simp [St.addLog, setParSt, St.setEst])]
  simp

theorem inOrder_grow {d : Doc} {rank} (hwf : WF d rank) {n l} {s s' : St} (h : InOrder d n l s s') : LogGrow s s' := by
  induction h with
  | nil => exact (logGrow_closed d).refl _
  | cons h1 _ ih => exact (logGrow_closed d).trans (((run_logGrow hwf n).evalA _).ok h1) ih

theorem inOrder_ends {d : Doc} {rank} (hw : WF d rank) {n : Nat} {e : Eid}
    (hty : (d.ev e).typ = .attribution) (hk : (d.obj (d.ev e).obj).kind ≠ .switch) {l : List Act} {s s' : St}
    (h : InOrder d n l s s') (hl : ∃ a ∈ l, a.ev = e ∧ a.tr = .stop) (hs : s.est e ≠ .sleeping)
    (hn : ¬ StoppedBetween d (d.ev e).obj s s') : EndedBetween e s s' := by
  induction h with
  | nil => simp at hl
  | @cons a as s k s1 s2 h1 h2 ih =>
    have hR := evKept_closed hw e
    have hev : EvKept d e s s1 := ((run_closed hR.toClosed hw n).evalA a).ok h1
    have hg1 := hev.1
    have hg2 := inOrder_grow hw h2
    by_cases hE : EndedBetween e s s1
    · obtain ⟨x, hx, hx'⟩ := hE
      exact ⟨x, by rw [since_trans hg1 hg2]; simp [hx], hx'⟩
    · obtain ⟨n1, n2⟩ := not_stopped_trans hg1 hg2 hn
      have hs1 := hev.2 hs n1 hE
      obtain ⟨b, hb, rfl, hbt⟩ := hl
      rcases List.mem_cons.1 hb with rfl | hb
      · exact absurd (evalA_ends hw hty hbt hk h1 hs) hE
      · obtain ⟨x, hx, hx'⟩ := ih ⟨b, hb, rfl, hbt⟩ hs1 n2
        exact ⟨x, by rw [since_trans hg1 hg2]; simp [hx], hx'⟩

/-- **C16**, the end (partial).  Let the end of an occurring attribution of object `o` be queued for
time `T`, as `C16_set` shows it is after a set action.  At the queue tick of the occurring object at
which its clock reaches `T` (every occurring object gets one such tick per `sendTick`,
`C11_sendTick`) the attribution ends, provided the object as a whole makes no transition during that
tick.  (Until then the entry stays queued unless the object is stopped: `C11_tick_partial`,
`C11_waiting`.)  Missing: properties of sleeping objects, for which it is false. -/
theorem C16_ends_partial {d : Doc} (hd : DocWF d) (e : Eid) (hty : (d.ev e).typ = .attribution)
    (hk : (d.obj (d.ev e).obj).kind ≠ .switch) (s : St) (n : Nat)
    (hs : s.est e = .occurring) (T : Nat) (value : String)
    (hq : ({ ev := e, tr := .stop, value := value }, T) ∈ s.delayed (d.ev e).obj)
    (hocc : s.est (d.obj (d.ev e).obj).lambda = .occurring) (diff : Nat)
    (hclk : s.time (d.ev e).obj + diff < NONE) (hT : T ≤ s.time (d.ev e).obj + diff) (s' : St)
    (he : objTick d (run d n) (d.ev e).obj diff s = .ok ((), s'))
    (hn : ¬ TouchedBetween d (d.ev e).obj s s') :
    EndedBetween e s s' := by
  obtain ⟨s1, s2, hin, hs1, hs2, -⟩ := C11_all_due_partial hd s n _ hocc diff hclk s' he hn
  obtain ⟨rank, hw⟩ := hd
  have e1 : s1.est = s.est := by rw [hs1]
  have l1 : s1.log = s.log := by rw [hs1]
  have l2 : s'.log = s2.log := by rw [hs2]
  have := inOrder_ends hw hty hk hin
    ⟨_, List.mem_map.2 ⟨_, List.mem_filter.2 ⟨hq, by simpa using hT⟩, rfl⟩, rfl, rfl⟩
    (by rw [e1, hs]; simp) (by
      rintro ⟨x, hx, h1, -⟩
      apply hn
      exact ⟨x, by simpa [St.since, l1, l2] using hx, h1⟩)
  obtain ⟨x, hx, h1⟩ := this
  exact ⟨x, by simpa [St.since, l1, l2] using hx, h1⟩

/-! ### Nothing else changes a property -/

/-- Property `k` of object `o` was the target of a successful set action between `s` and `s'`. -/
def SetBetween (d : Doc) (o : Oid) (k : String) (s s' : St) : Prop :=
  ∃ x ∈ s.since s', x.tr = .start ∧ (d.ev x.ev).typ = .attribution ∧ (d.ev x.ev).obj = o ∧ (d.ev x.ev).id = k

def PropKept (d : Doc) (o : Oid) (k : String) (s s' : St) : Prop :=
  LogGrow s s' ∧ (¬ SetBetween d o k s s' → s'.getProp o k = s.getProp o k)

theorem propKept_closed {d rank} (hw : WF d rank) (o : Oid) (k : String) (hk : k ≠ "type" ∧ k ≠ "uri") :
    TClosed d (fun e => (d.ev e).typ = .attribution ∧ (d.ev e).obj = o ∧ (d.ev e).id = k) (fun _ => True)
      (PropKept d o k) := by
  have of_eq : ∀ {s s' : St}, s'.log = s.log → s'.props = s.props → PropKept d o k s s' :=
    fun hl h => ⟨⟨[], hl⟩, fun _ => by simp only [St.getProp, h]⟩
  have of_log : ∀ {s s' : St} (l : List LogEntry), s'.log = l ++ s.log → s'.props = s.props →
      PropKept d o k s s' :=
    fun l hl h => ⟨⟨l, hl⟩, fun _ => by simp only [St.getProp, h]⟩
  exact
  { refl := fun s => of_eq rfl rfl
    trans := by
      rintro s t u ⟨g1, h1⟩ ⟨g2, h2⟩
      refine ⟨(logGrow_closed d).trans g1 g2, fun hn => ?_⟩
      have hs := since_trans g1 g2
      rw [h2 fun ⟨x, hx, h⟩ => hn ⟨x, by rw [hs]; simp [hx], h⟩,
        h1 fun ⟨x, hx, h⟩ => hn ⟨x, by rw [hs]; simp [hx], h⟩]
    par := fun s e k v _ => of_eq rfl rfl
    mark := fun _ _ _ _ _ h _ => h
    enq := fun s x e t v dl => of_eq rfl rfl
    focusReq := fun s x => of_eq rfl rfl
    prop := by
      intro s x k' v hx
      refine ⟨⟨[], rfl⟩, fun _ => ?_⟩
      rw [getProp_setProps, if_neg]
      rintro ⟨rfl, rfl⟩
      rcases hx with rfl | rfl | ⟨e, h1, h2⟩
      · exact hk.1 rfl
      · exact hk.2 rfl
      · exact h1 h2
    focus := fun s v _ => of_eq rfl rfl
    player := fun s x p p' _ => of_eq rfl rfl
    newPlayer := fun s x p _ => of_eq rfl rfl
    sel := fun s x c => of_eq rfl rfl
    wake := fun s e' x _ hx => of_eq rfl rfl
    start := fun s x e' _ _ => of_eq (by simp) (by simp)
    logged := fun s e' t b _ h1 h2 => of_log [⟨e', t, b⟩] rfl rfl
    touched := by
      intro s s' e' t b hX hg h1 h2 h3
      refine ⟨(logGrow_closed d).trans hg ⟨[⟨e', t, b⟩], rfl⟩, fun hn => ?_⟩
      exfalso; apply hn
      refine ⟨⟨e', t, b⟩, ?_, h3 (by rw [hX.1]; simp), hX⟩
      rw [since_trans hg ⟨[⟨e', t, b⟩], rfl⟩, since_of (l := [⟨e', t, b⟩]) rfl]; simp
    stopEv := fun s e' t b ht hn => of_log [⟨e', t, b⟩] rfl rfl
    stopObj := fun s x e' t b p ht hwh => of_log [⟨e', t, b⟩] (by simp [St.addLog]) (by simp)
    anchor := by
      rintro s s1 x q hs ⟨g, h⟩
      exact ⟨g, h⟩
    time := fun s x t hx => of_eq rfl rfl
    queue := fun s x q hx => of_eq rfl rfl
    focusDone := fun s => of_eq rfl rfl }

/-- **C16**, frame.  Whatever call is made, a property (other than `type` and `uri`, which a media
completes when it is started) changes only by a successful set action on that very property. -/
theorem C16_only_set {f : Fmt} (hf : Reachable f) {d : Doc} (hd : f.doc = some d) (o : Oid) (k : String)
    (hk : k ≠ "type" ∧ k ≠ "uri") (n : Nat) (op : Op) (b : Bool) (f' : Fmt)
    (he : exec n f op = .ok (b, f')) (hd' : f'.doc = some d)
    (hch : f'.st.getProp o k ≠ f.st.getProp o k) : SetBetween d o k f.st f'.st := by
  obtain ⟨rank, hw, hg, -⟩ := (hf.inv triv_inv).good d hd
  have h : PropKept d o k f.st f'.st := (engineCall hf hd he hd').presAll hw (propKept_closed hw o k hk) (by
    intro s x k' hne
    refine ⟨⟨[], rfl⟩, fun _ => ?_⟩
    rw [getProp_setProps]
    split
    · next hx => rw [hx.1, hx.2]
    · rfl)
  exact Classical.byContradiction fun hn => hch (h.2 hn)

/-! Body with settings and medias `a` (running) and `b`; the attribution event 5 is property `k`
of `b`, 6 property `k` of `a`. -/
def attrDoc : Doc :=
  mkDoc env0
    [ { kind := .context, id := "__root__", children := [1, 2, 3], events := [0], lambda := 0,
        ports := [2] },
      { kind := .settings, id := "__settings__", parent := some 0, events := [1, 4], lambda := 1,
        props0 := [("type", "application/x-ginga-settings")] },
      { kind := .media, id := "a", parent := some 0, events := [2, 6], lambda := 2 },
      { kind := .media, id := "b", parent := some 0, events := [3, 5], lambda := 3 } ]
    [ { typ := .presentation, obj := 0, id := "@lambda" },
      { typ := .presentation, obj := 1, id := "@lambda" },
      { typ := .presentation, obj := 2, id := "@lambda" },
      { typ := .presentation, obj := 3, id := "@lambda" },
      { typ := .attribution, obj := 1, id := "service.currentFocus" },
      { typ := .attribution, obj := 3, id := "k" },
      { typ := .attribution, obj := 2, id := "k" } ]
    0 1

theorem attrDoc_wf : DocWF attrDoc := mkDoc_wf [0, 1, 1, 1] (by decide +kernel)

/-- **C16 fails** for a property of a sleeping media: `b.k` is set to "x" while `b` sleeps, then `b` is
started and presented for many seconds; a later set of `b.k` to "y" is still ignored. -/
theorem C16_fails_sleeping :
    ∃ f, Reachable f ∧ f.doc = some attrDoc ∧ f.st.est 3 = .occurring ∧
      f.st.time 3 = 20 * SECOND ∧ f.st.est 5 = .occurring ∧ f.st.getProp 3 "k" = "x" ∧
      ∃ f', exec 50 f (.action { ev := 5, tr := .start, value := "y" }) = .ok (true, f') ∧
        f'.st.getProp 3 "k" = "x" := by
  obtain ⟨f, h1, h2, h3⟩ := witness attrDoc attrDoc_wf 50
    [tick 0, .action { ev := 5, tr := .start, value := "x" }, .action { ev := 3, tr := .start },
     tick (10 * SECOND), tick (10 * SECOND)] rfl
    (fun f => decide (f.st.est 3 = .occurring) && decide (f.st.time 3 = 20 * SECOND) &&
      decide (f.st.est 5 = .occurring) && decide (f.st.getProp 3 "k" = "x") &&
      (match exec 50 f (.action { ev := 5, tr := .start, value := "y" }) with
       | .ok (b, f') => b && decide (f'.st.getProp 3 "k" = "x")
       | _ => false)) (by decide +kernel)
  simp only [Bool.and_eq_true, decide_eq_true_eq] at h3
  obtain ⟨⟨⟨⟨h4, h5⟩, h6⟩, h7⟩, h8⟩ := h3
  refine ⟨f, h1, h2, h4, h5, h6, h7, ?_⟩
  cases hx : exec 50 f (.action { ev := 5, tr := .start, value := "y" }) with
  | ok p =>
    obtain ⟨b, f'⟩ := p
    rw [hx] at h8
    simp only [Bool.and_eq_true, decide_eq_true_eq] at h8
    exact ⟨f', by rw [h8.1], h8.2⟩
  | _ => rw [hx] at h8; cases h8

/-- Non-vacuity: setting `a.k` while `a` is presented queues the end, which comes at the next tick;
a second set is then effective. -/
example : ∃ f, Reachable f ∧ f.doc = some attrDoc ∧
    (decide (f.st.est 6 = .occurring) && decide (f.st.getProp 2 "k" = "x") &&
      decide ((f.st.delayed 2).map (fun p => (p.1.ev, p.1.tr, p.2)) = [(6, .stop, 0)]) &&
      okAnd (objTick attrDoc (run attrDoc 50) 2 5 f.st) (fun _ s => decide (s.est 6 = .sleeping) &&
        decide ((f.st.since s).map (·.ev) = [6]))) = true :=
  witness attrDoc attrDoc_wf 50 [tick 0, .action { ev := 6, tr := .start, value := "x" }] rfl _
    (by decide +kernel)
example : ∃ f, Reachable f ∧ f.doc = some attrDoc ∧
    decide (f.st.getProp 2 "k" = "y") = true :=
  witness attrDoc attrDoc_wf 50 [tick 0, .action { ev := 6, tr := .start, value := "x" }, tick 5,
    .action { ev := 6, tr := .start, value := "y" }] rfl _ (by decide +kernel)

end Ginga
