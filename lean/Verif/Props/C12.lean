import Verif.Props.C11
/-! # C12 — starting a context starts its ports

Full statement: whenever a sleeping context is started directly (not because one of its children was
started), each presentation port of the context is started at the next tick of the context.

It fails for a context that was, at some earlier time of the presentation, started because of a child:
the mark left then is never removed (`C12_fails_sticky`).  The `_partial` theorems therefore concern
contexts that have not been started before. -/
set_option linter.unusedVariables false
namespace Ginga
open Ex

/-- The actions that start the presentation ports of a context, in document order. -/
def portStarts (d : Doc) (c : Oid) : List Act :=
  ((d.obj c).ports.filter fun p => (d.ev p).typ = .presentation).map fun p => { ev := p, tr := .start }

/-- Object `o` has not been started since the beginning of the presentation. -/
def NeverStarted (d : Doc) (o : Oid) (s : St) : Prop :=
  ∀ x ∈ s.log, ¬ (x.ev = (d.obj o).lambda ∧ x.tr = .start)

/-- The document leaves the internal parameter `fromport` of the whole-content events unset (the parser
sets no parameter of a presentation event, lib/Parser.cpp:2765, the only `setParameter` of the parser, concerns selection events). -/
def NoMarks (d : Doc) : Prop := ∀ o, d.par0 (d.obj o).lambda "fromport" = none

theorem queuePortsSt_delayed (d : Doc) (o : Oid) (ps : List Eid) : ∀ s : St, s.time o = 0 →
    queuePortsSt d o ps s = s.setDelayed o (s.delayed o ++
      ((ps.filter fun p => (d.ev p).typ = .presentation).map
        fun p => (({ ev := p, tr := .start } : Act), 0))) := by
  induction ps with
  | nil => intro s _; simp [queuePortsSt, setDelayed_self]
  | cons p ps ih =>
    intro s hs
    simp only [queuePortsSt]
    by_cases hp : (d.ev p).typ = .presentation
    · rw [if_pos hp, ih _ (by simpa [addDelayedSt] using hs)]
      have : tadd 0 0 = 0 := rfl
      simp [addDelayedSt, hp, hs, this]
    · rw [if_neg hp, ih _ hs]
      simp [hp]


/-- Nothing about object `x` differs. -/
structure Same (d : Doc) (x : Oid) (s s' : St) : Prop where
  par : s'.par (d.lam x) = s.par (d.lam x)
  delayed : s'.delayed x = s.delayed x
  time : s'.time x = s.time x
  est : s'.est (d.lam x) = s.est (d.lam x)

theorem Same.refl {d x} (s : St) : Same d x s s := ⟨rfl, rfl, rfl, rfl⟩
theorem Same.trans {d x} {s t u : St} (h : Same d x s t) (h' : Same d x t u) : Same d x s u :=
  ⟨h'.par.trans h.par, h'.delayed.trans h.delayed, h'.time.trans h.time, h'.est.trans h.est⟩

theorem wp_startParent_same {d : Doc} {rank} (hw : WF d rank) {r : Rec} {c x : Oid}
    (hr : ∀ {p : Oid} {s : St}, (d.obj p).kind = .context → rank p < rank x →
      wp True True (r.trans (d.lam p) .start) (fun _ s' => Same d x s s') s)
    (hcx : rank c ≤ rank x) (s : St) :
    wp True True (startParent d r c) (fun _ s' => Same d x s s') s := by
  unfold startParent
  split
  · exact Same.refl s
  · next p hp =>
    simp only [wp_bind, wp_get, wp_ite]
    split
    · simp only [wp_bind, wp_setPar, wp_pure]
      have hlt := Nat.lt_of_lt_of_le (hw.ctxParent_rank hp) hcx
      refine wp_mono (hr (hw.ctxParent_kind hp) hlt) ?_
      intro b s' h
      have hne : d.lam x ≠ d.lam p := fun he => by rw [hw.lam_inj he] at hlt; exact Nat.lt_irrefl _ hlt
      have h0 : Same d x s (setParSt (d.lam p) "fromport" "true" s) :=
        ⟨by simp [setParSt, upd, hne], rfl, rfl, rfl⟩
      exact h0.trans h
    · exact Same.refl s

/-- Starting a context changes only itself and its ancestors. -/
theorem ctx_start_same {d : Doc} {rank} (hw : WF d rank) (n : Nat) (x : Oid) : ∀ {p : Oid} {s : St},
    (d.obj p).kind = .context → rank p < rank x →
    wp True True ((run d n).trans (d.lam p) .start) (fun _ s' => Same d x s s') s := by
  induction n with
  | zero => intro p s _ _; trivial
  | succ n ih =>
    intro p s hk hx
    have hne : d.lam x ≠ d.lam p := fun he => by rw [hw.lam_inj he] at hx; exact Nat.lt_irrefl _ hx
    have hxp : x ≠ p := fun he => hne (by rw [he])
    show wp True True (transition d (run d n) (d.lam p) .start) _ s
    apply wp_transition
    · intro _; exact Same.refl s
    · intro nx hnx
      unfold before after
      simp only [hw.lam_obj, hk, ctxBefore, ctxAfter, hw.lam_typ]
      simp only [wp_bind, wp_assert, hw.lam_is, if_true, wp_pure, wp_doStart]
      refine wp_mono (wp_startParent_same hw ih (Nat.le_of_lt hx) _) ?_
      intro _ s1 h1
      have h0 : Same d x s (doStartSt d p (s.setEst (d.lam p) nx)) :=
        ⟨by simp, by simp, by simp [hxp], by simp [hne]⟩
      have h2 := h0.trans h1
      simp only [wp_get, wp_ite, wp_pure, wp_bind, wp_queuePorts, wp_setPar, if_true]
      obtain ⟨q, hq⟩ := queuePortsSt_eq (d := d) p (d.obj p).ports s1
      split
      · exact h2.trans ⟨rfl, rfl, rfl, rfl⟩
      · refine h2.trans ⟨?_, ?_, ?_, ?_⟩
        · simp [setParSt, upd, hne, hq]
        · simp [setParSt, hq, hxp]
        · simp [setParSt, hq]
        · simp [setParSt, hq]

/-- The queue of a context after it was started from sleep. -/
theorem ctx_start_queue {d : Doc} {rank} (hw : WF d rank) (n : Nat) {c : Oid} {s s' : St} {b : Bool}
    (hk : (d.obj c).kind = .context) (hsl : s.est (d.lam c) = .sleeping)
    (h : (run d n).trans (d.lam c) .start s = .ok (b, s')) :
    b = true ∧ s'.est (d.lam c) = .occurring ∧ s'.time c = 0 ∧
    s'.delayed c = if (s.par (d.lam c) "fromport").getD "" = ""
      then s.delayed c ++ (portStarts d c).map (·, 0) else s.delayed c := by
  cases n with
  | zero => cases h
  | succ n =>
    have key : wp True True (transition d (run d n) (d.lam c) .start) (fun b s' =>
      b = true ∧ s'.est (d.lam c) = .occurring ∧ s'.time c = 0 ∧
      s'.delayed c = if (s.par (d.lam c) "fromport").getD "" = ""
        then s.delayed c ++ (portStarts d c).map (·, 0) else s.delayed c) s := by
      apply wp_transition
      · intro hn; rw [hsl] at hn; cases hn
      · intro nx hnx
        rw [hsl] at hnx; cases hnx
        unfold before after
        simp only [hw.lam_obj, hk, ctxBefore, ctxAfter, hw.lam_typ]
        simp only [wp_bind, wp_assert, hw.lam_is, if_true, wp_pure, wp_doStart]
        refine wp_mono (wp_startParent_same hw (ctx_start_same hw n c) (Nat.le_refl _) _) ?_
        intro _ s1 h1
        have hp := h1.par
        have hdl := h1.delayed
        have ht := h1.time
        have he := h1.est
        simp at hp hdl ht he
        simp only [wp_get, wp_ite, wp_pure, wp_bind, wp_queuePorts, wp_setPar, if_true]
        rw [hp]
        by_cases hm : (s.par (d.lam c) "fromport").getD "" = ""
        · rw [if_neg (fun h => h hm), if_pos hm, queuePortsSt_delayed _ _ _ _ ht]
          refine ⟨trivial, by simpa [setParSt] using he, by simpa [setParSt] using ht, ?_⟩
          simp [setParSt, portStarts, hdl, Function.comp_def]
        · rw [if_pos hm, if_neg hm]
          exact ⟨trivial, by simpa using he, by simpa using ht, by simpa using hdl⟩
    exact wp_ok key h

/-- A context that was never started carries no mark. -/
theorem unmarked {f : Fmt} (hf : Reachable f) {d : Doc} (hd : f.doc = some d) (hno : NoMarks d)
    {c : Oid} (hn : NeverStarted d c f.st) : (f.st.par (d.lam c) "fromport").getD "" = "" := by
  let R : Doc → St → St → Prop := fun d s s' => LogGrow s s' ∧
    ((s'.par (d.lam c) "fromport").getD "" ≠ "" → (s.par (d.lam c) "fromport").getD "" ≠ "" ∨
      ∃ x ∈ s'.log, x.ev = d.lam c ∧ x.tr = .start)
  have triv : ∀ {d : Doc} {s s' : St}, LogGrow s s' → s'.par = s.par → R d s s' :=
    fun h he => ⟨h, fun hm => .inl (by rw [← he]; exact hm)⟩
  have g0 : ∀ {s s' : St}, s'.log = s.log → LogGrow s s' := fun h => ⟨[], by simp [h]⟩
  have key : ∀ d, DocWF d → TClosed d (fun _ => False) (fun _ => True) (R d) := by
    rintro d ⟨rank, hw⟩
    exact
    { refl := fun _ => triv (g0 rfl) rfl
      trans := by
        rintro s t u ⟨⟨l, h1⟩, h2⟩ ⟨⟨l', h3⟩, h4⟩
        refine ⟨⟨l' ++ l, by rw [h3, h1, List.append_assoc]⟩, fun hm => ?_⟩
        rcases h4 hm with h5 | h5
        · rcases h2 h5 with h6 | ⟨x, hx, h6⟩
          · exact .inl h6
          · exact .inr ⟨x, by rw [h3]; simp [hx], h6⟩
        · exact .inr h5
      par := by
        intro s e k v hk
        refine ⟨g0 rfl, ?_⟩
        simp only [setParSt, upd]
        by_cases he : d.lam c = e
        · subst he
          simp only [if_true]
          rcases hk with rfl | rfl | ⟨rfl, rfl⟩
          · intro h; exact .inl (by simpa using h)
          · intro h; exact .inl (by simpa using h)
          · intro h; simp at h
        · simp only [he, if_false]; exact fun h => .inl h
      mark := by
        rintro s s' p b hk ⟨h1, h2⟩ ⟨l, hl⟩
        refine ⟨h1, fun hm => ?_⟩
        by_cases hp : p = c
        · subst hp; exact .inr ⟨_, by rw [hl]; exact List.mem_cons_self, rfl, rfl⟩
        · have hne : d.lam c ≠ d.lam p := fun he => hp (hw.lam_inj he).symm
          rcases h2 hm with h3 | h3
          · exact .inl (by simpa [setParSt, upd, hne] using h3)
          · exact .inr h3
      enq := fun _ _ _ _ _ _ => triv (g0 rfl) rfl
      focusReq := fun _ _ => triv (g0 rfl) rfl
      prop := fun _ _ _ _ _ => triv (g0 rfl) rfl
      focus := fun _ _ _ => triv (g0 rfl) rfl
      player := fun _ _ _ _ _ => triv (g0 rfl) rfl
      newPlayer := fun _ _ _ _ => triv (g0 rfl) rfl
      sel := fun _ _ _ => triv (g0 rfl) rfl
      wake := fun _ _ _ _ _ => triv (g0 rfl) rfl
      start := fun _ _ _ _ _ => triv (g0 (by simp)) (by simp)
      logged := fun _ e t b _ _ _ => triv ⟨[⟨e, t, b⟩], rfl⟩ rfl
      touched := fun _ _ _ _ _ h => h.elim
      stopEv := fun _ e t b _ _ => triv ⟨[⟨e, t, b⟩], rfl⟩ rfl
      stopObj := fun _ _ e t b _ _ _ => triv ⟨[⟨e, t, b⟩], by simp⟩ (by simp)
      anchor := fun _ _ _ _ _ h => h
      time := fun _ _ _ _ => triv (g0 rfl) rfl
      queue := fun _ _ _ _ => triv (g0 rfl) rfl
      focusDone := fun _ => triv (g0 rfl) rfl }
  obtain ⟨fo, -, h⟩ := hf.rel key (fun _ _ _ _ _ => triv (g0 rfl) rfl) hd
  refine Decidable.byContradiction fun hm => ?_
  rcases h hm with h1 | ⟨x, hx, h1⟩
  · exact h1 (by simp [Doc.init, hno c])
  · exact hn x hx h1

/-- **C12**, the start.  A sleeping context that has not been started before is started by START;
its clock is then zero and the START of each of its presentation ports (and nothing else) has been
added to its queue for clock time zero, in document order. -/
theorem C12_start_partial {f : Fmt} (hf : Reachable f) {d : Doc} (hd : f.doc = some d) (hno : NoMarks d)
    {c : Oid} (hk : (d.obj c).kind = .context) (hsl : f.st.est (d.obj c).lambda = .sleeping)
    (hn : NeverStarted d c f.st) (n : Nat) (b : Bool) (s' : St)
    (h : (run d n).trans (d.obj c).lambda .start f.st = .ok (b, s')) :
    b = true ∧ s'.est (d.obj c).lambda = .occurring ∧ s'.time c = 0 ∧
    s'.delayed c = f.st.delayed c ++ (portStarts d c).map (·, 0) := by
  obtain ⟨rank, hw, hg, -⟩ := (hf.inv triv_inv).good d hd
  obtain ⟨h1, h2, h3, h4⟩ := ctx_start_queue hw n hk hsl h
  rw [if_pos (unmarked hf hd hno hn)] at h4
  exact ⟨h1, h2, h3, h4⟩

theorem evalA_head {d : Doc} {rank} (hw : WF d rank) {n : Nat} {a : Act} {k : Nat} {s s' : St}
    (h : (run d n).evalA a s = .ok (k, s')) :
    ∃ m s0 b s1, s0 = (if (d.ev a.ev).typ = .attribution then setParSt a.ev "value" a.value
        (setParSt a.ev "duration" a.duration s) else setParSt a.ev "duration" a.duration s) ∧
      (run d m).trans a.ev a.tr s0 = .ok (b, s1) ∧
      ∀ X R, Closed d X R → R s1 s' := by
  cases n with
  | zero => cases h
  | succ n =>
    change (run d n).loop [a] 0 s = _ at h
    cases n with
    | zero => cases h
    | succ n =>
      change evalLoop d (run d n) [a] 0 s = _ at h
      unfold evalLoop at h
      obtain ⟨res, s2, h1, h2⟩ := bind_ok h
      unfold evalStep at h1
      obtain ⟨_, s3, h3, h1⟩ := bind_ok h1
      cases h3
      dsimp only at h1
      obtain ⟨s4, hs4, h1⟩ : ∃ s4, s4 = (if (d.ev a.ev).typ = .attribution then
          setParSt a.ev "value" a.value (setParSt a.ev "duration" a.duration s)
          else setParSt a.ev "duration" a.duration s) ∧
          (do
            if (← (run d n).trans a.ev a.tr) then do
              let xs ← fireParent d (run d n) a (d.ev a.ev).obj
              let ys ← fireOwn d a (d.ev a.ev).obj
              pure (some (xs ++ ys))
            else pure none : M (Option (List Act))) s4 = .ok (res, s2) := by
        by_cases hty : (d.ev a.ev).typ = .attribution
        · rw [if_pos hty] at h1
          obtain ⟨_, s4, h4, h1⟩ := bind_ok h1
          cases h4
          exact ⟨_, by rw [if_pos hty]; rfl, h1⟩
        · rw [if_neg hty] at h1
          exact ⟨_, by rw [if_neg hty]; rfl, h1⟩
      obtain ⟨b, s5, h5, h1⟩ := bind_ok h1
      refine ⟨n, s4, b, s5, hs4, h5, ?_⟩
      · intro X R hR
        have hr := run_closed hR hw n
        have r1 : R s5 s2 := by
          cases b with
          | false => cases h1; exact hR.refl _
          | true =>
            simp only [if_true] at h1
            have hp : Pres R (do
                let xs ← fireParent d (run d n) a (d.ev a.ev).obj
                let ys ← fireOwn d a (d.ev a.ev).obj
                pure (some (xs ++ ys)) : M (Option (List Act))) :=
              Pres.bind hR (pres_fireParent hR hr hw _ _) fun _ =>
                Pres.bind hR (pres_fireOwn hR hr hw _ _) fun _ => Pres.pure hR _
            exact hp.ok h1
        cases res with
        | none => exact hR.trans r1 ((hr.loop _ _).ok h2)
        | some l => exact hR.trans r1 ((hr.loop _ _).ok h2)

/-- **C12**, START requested as an action.  When the call returns and the context was not stopped
meanwhile, the START of each presentation port is waiting in the queue of the context for clock
time zero, in document order. -/
theorem C12_action_partial {f : Fmt} (hf : Reachable f) {d : Doc} (hd : f.doc = some d) (hno : NoMarks d)
    {c : Oid} (hk : (d.obj c).kind = .context) (hsl : f.st.est (d.obj c).lambda = .sleeping)
    (hn : NeverStarted d c f.st) (n : Nat) (b : Bool) (f' : Fmt)
    (he : exec n f (.action { ev := (d.obj c).lambda, tr := .start }) = .ok (b, f'))
    (hd' : f'.doc = some d) (hns : ¬ StoppedBetween d c f.st f'.st) :
    f'.st.est (d.obj c).lambda ≠ .sleeping ∧ ∃ added,
      f'.st.delayed c = f.st.delayed c ++ (portStarts d c).map (·, 0) ++ added := by
  obtain ⟨rank, hw, hg, -⟩ := (hf.inv triv_inv).good d hd
  cases engineCall hf hd he hd' with
  | action h =>
    obtain ⟨m, s0, b1, s1, h0, h1, h2⟩ := evalA_head hw h
    have hty : (d.ev (d.obj c).lambda).typ = .presentation := hw.lam_typ c
    simp only [hty, reduceCtorEq, if_false] at h0
    subst h0
    obtain ⟨-, e1, e2, e3⟩ := ctx_start_queue hw m hk (by simpa [setParSt] using hsl) h1
    have hq : QueueKept d c s1 f'.st := h2 _ _ (queueKept_closed hw c).toClosed
    have hlg : LogGrow f.st s1 := by
      obtain ⟨l, hl⟩ := ((run_logGrow hw m).trans _ _).ok h1
      exact ⟨l, hl⟩
    have hns' := (not_stopped_trans hlg hq.1 hns).2
    obtain ⟨h3, added, h4⟩ := hq.2 (by rw [e1]; simp) hns'
    refine ⟨h3, added, ?_⟩
    rw [h4, e3, if_pos]
    · rfl
    · have := unmarked hf hd hno hn
      simpa [setParSt] using this

/-- **C12**, the tick.  A context is started by an action and the next call is a tick.  If the
context is still being presented after the start, and makes no transition during the tick, then in
that tick the STARTs of all its presentation ports are evaluated, in document order, each one with
all its consequences before the next. -/
theorem C12_ports_started_partial {f : Fmt} (hf : Reachable f) {d : Doc} (hd : f.doc = some d)
    (hno : NoMarks d) {c : Oid} (hc : c ∈ d.objs) (hk : (d.obj c).kind = .context)
    (hsl : f.st.est (d.obj c).lambda = .sleeping) (hn : NeverStarted d c f.st) (n : Nat)
    (b : Bool) (f1 : Fmt)
    (he : exec n f (.action { ev := (d.obj c).lambda, tr := .start }) = .ok (b, f1))
    (hd1 : f1.doc = some d) (hns : ¬ StoppedBetween d c f.st f1.st)
    (hocc : f1.st.est (d.obj c).lambda = .occurring)
    (m total diff frame : Nat) (b' : Bool) (f2 : Fmt)
    (he2 : exec m f1 (.sendTick total diff frame) = .ok (b', f2)) (hd2 : f2.doc = some d)
    (hclk : f1.st.time c + diff < NONE) (hnt : ¬ TouchedBetween d c f1.st f2.st) :
    ∃ s1 s2 early late, LogGrow f1.st s1 ∧ LogGrow s2 f2.st ∧
      InOrder d m (early ++ portStarts d c ++ late) s1 s2 := by
  obtain ⟨-, added, hq⟩ := C12_action_partial hf hd hno hk hsl hn n b f1 he hd1 hns
  have hf1 := hf.exec (op := .action { ev := (d.obj c).lambda, tr := .start }) (by intro d h; cases h) he
  obtain ⟨t1, t2, q1, k1, ht, q2, k2⟩ := (C11_sendTick hf1 hd1 c hc m total diff frame b' f2 he2 hd2).1 hocc
  obtain ⟨rank, hw, hg, -⟩ := (hf.inv triv_inv).good d hd
  have hlt : LogGrow t1 t2 := by
    have hT : TClosed d (fun _ => False) (fun _ => True) LogGrow :=
      { logGrow_closed d with
        time := fun _ _ _ _ => ⟨[], rfl⟩, queue := fun _ _ _ _ => ⟨[], rfl⟩, focusDone := fun _ => ⟨[], rfl⟩ }
    exact (pres_objTick hT (run_logGrow hw m) c diff trivial).ok ht
  obtain ⟨ha, hb⟩ := not_touched_trans k1.1 ((logGrow_closed d).trans hlt k2.1) hnt
  obtain ⟨hb, -⟩ := not_touched_trans hlt k2.1 hb
  obtain ⟨o1, o2⟩ := k1.2 hocc ha
  have hstop : ¬ StoppedBetween d c f1.st t1 := fun ⟨x, hx, h1, h2⟩ => ha ⟨x, hx, h1⟩
  obtain ⟨-, added2, hq2⟩ := q1.2 (by rw [hocc]; simp) hstop
  rw [← o2] at hclk
  obtain ⟨s1, s2, hin, e1, e2, -, -⟩ := C11_all_due_partial ⟨rank, hw⟩ t1 m c o1 diff hclk t2 ht hb
  rw [hq2, hq] at hin
  simp only [List.filter_append, List.map_append] at hin
  have hp : (((portStarts d c).map fun x => (x, 0)).filter
      (fun p => decide (p.2 ≤ t1.time c + diff))).map (·.1) = portStarts d c := by
    rw [List.filter_eq_self.2]
    · simp [Function.comp_def]
    · intro x hx
      obtain ⟨y, -, rfl⟩ := List.mem_map.1 hx
      simp
  rw [hp] at hin
  refine ⟨s1, s2, _, _, ?_, ?_, by simpa only [List.append_assoc] using hin⟩
  · obtain ⟨l, hl⟩ := k1.1; exact ⟨l, by rw [e1]; exact hl⟩
  · obtain ⟨l, hl⟩ := k2.1; exact ⟨l, by rw [hl, e2]⟩

/-- **C12**, the body.  When `start` succeeds, the START of each presentation port of the body is
waiting in its queue for clock time zero, in document order (unless the body was stopped
meanwhile). -/
theorem C12_body {f : Fmt} (hf : Reachable f) {d : Doc} (hwf : DocWF d) (hno : NoMarks d)
    (n : Nat) (f' : Fmt) (he : exec n f (.start (some d)) = .ok (true, f'))
    (hns : ¬ StoppedBetween d d.root (d.init f.focus) f'.st) :
    f'.st.est (d.obj d.root).lambda ≠ .sleeping ∧
    ∃ added, f'.st.delayed d.root = (portStarts d d.root).map (·, 0) ++ added := by
  obtain ⟨rank, hw⟩ := hwf
  have hR := (queueKept_closed hw d.root).toClosed
  have hr := run_closed hR hw n
  simp only [exec, fmtStart] at he
  split at he
  · cases he
  · split at he
    · cases he
    · obtain ⟨k, s1, h3, he⟩ := run_bind_ok he
      simp only at he
      split at he
      · cases he
      · obtain ⟨b', s2, h4, he⟩ := run_bind_ok he
        have r2 := (hr.trans _ _).ok h4
        simp only at he
        split at he
        · cases he
          obtain ⟨m, s0, b1, t1, h0, h1, h2⟩ := evalA_head hw h3
          have hty : (d.ev (d.obj d.root).lambda).typ = .presentation := hw.lam_typ _
          simp only [hty, reduceCtorEq, if_false] at h0
          subst h0
          obtain ⟨-, e1, e2, e3⟩ := ctx_start_queue hw m hw.root_kind (by simp [setParSt, Doc.init]) h1
          have r3 := hR.trans (h2 _ _ hR) r2
          have hlg : LogGrow (d.init f.focus) t1 := by
            obtain ⟨l, hl⟩ := ((run_logGrow hw m).trans _ _).ok h1
            exact ⟨l, hl⟩
          have hns' := (not_stopped_trans hlg r3.1 hns).2
          obtain ⟨g1, added, g2⟩ := r3.2 (by rw [e1]; simp) hns'
          refine ⟨g1, added, ?_⟩
          have hx := hno d.root
          rw [if_pos (by simp [setParSt, Doc.init, hx])] at e3
          rw [g2, e3]; rfl
        · cases he

/-! Non-vacuity: in `nestedDoc` the context `c` has a port; before its first start it is
sleeping and was never started. -/
theorem nestedDoc_noMarks : NoMarks nestedDoc := fun _ => rfl
example : portStarts nestedDoc 2 = [{ ev := 3, tr := .start }] := rfl
example : ∃ f, Reachable f ∧ f.doc = some nestedDoc ∧
    f.st.est 2 = .sleeping ∧ NeverStarted nestedDoc 2 f.st ∧
    ∃ b f1, exec 50 f (.action { ev := 2, tr := .start }) = .ok (b, f1) ∧ f1.doc.isSome ∧
      f1.st.est 2 = .occurring ∧ ¬ StoppedBetween nestedDoc 2 f.st f1.st ∧
      ∃ b f2, exec 50 f1 (tick 0) = .ok (b, f2) ∧ f2.doc.isSome ∧ f2.st.est 3 = .occurring ∧
        ¬ TouchedBetween nestedDoc 2 f1.st f2.st := by
  obtain ⟨f, h1, h2, h3⟩ := witness nestedDoc nestedDoc_wf 50 [] rfl
    (fun f => decide (f.st.est 2 = .sleeping) && (f.st.log.all fun x => !decide (x.ev = 2 ∧ x.tr = .start)) &&
      (match exec 50 f (.action { ev := 2, tr := .start }) with
       | .ok (_, f1) => f1.doc.isSome && decide (f1.st.est 2 = .occurring) &&
         ((f.st.since f1.st).all fun x => !decide (x.ev = 2 ∧ x.tr ≠ .start)) &&
         (match exec 50 f1 (tick 0) with
          | .ok (_, f2) => f2.doc.isSome && decide (f2.st.est 3 = .occurring) &&
            ((f1.st.since f2.st).all fun x => !decide (x.ev = 2))
          | _ => false)
       | _ => false)) (by decide +kernel)
  simp only [Bool.and_eq_true, decide_eq_true_eq, List.all_eq_true, Bool.not_eq_true', decide_eq_false_iff_not] at h3
  obtain ⟨⟨h3, h4⟩, h5⟩ := h3
  refine ⟨f, h1, h2, h3, h4, ?_⟩
  split at h5
  · next b f1 hx =>
    simp only [Bool.and_eq_true, decide_eq_true_eq, List.all_eq_true, Bool.not_eq_true', decide_eq_false_iff_not] at h5
    obtain ⟨⟨⟨h5, h6⟩, h7⟩, h8⟩ := h5
    refine ⟨b, f1, hx, h5, h6, ?_, ?_⟩
    · rintro ⟨x, hx, hw, ht⟩
      refine h7 x hx ⟨?_, ?_⟩
      · rcases hw with hw | ⟨hw, -⟩
        · exact hw
        · cases hw
      · rcases ht with ht | ht <;> rw [ht] <;> simp
    · split at h8
      · next b f2 hy =>
        simp only [Bool.and_eq_true, decide_eq_true_eq, List.all_eq_true, Bool.not_eq_true', decide_eq_false_iff_not] at h8
        obtain ⟨⟨h8, h9⟩, h10⟩ := h8
        refine ⟨b, f2, hy, h8, h9, ?_⟩
        rintro ⟨x, hx, hw⟩
        rcases hw with hw | ⟨hw, -⟩
        · exact h10 x hx hw
        · cases hw
      · cases h8
  · cases h5

/-- **C12** does not hold of the code in general: in `nestedDoc`, after context `c` was started
because of the media inside it and then stopped, a direct START of `c` succeeds but queues
nothing: its port is not started. -/
theorem C12_fails_sticky :
    ∃ f, Reachable f ∧ f.doc = some nestedDoc ∧ f.st.est 2 = .sleeping ∧ f.st.est 3 = .sleeping ∧
      ∃ s', (run nestedDoc 50).trans 2 .start f.st = .ok (true, s') ∧
        s'.est 2 = .occurring ∧ s'.delayed 2 = [] := by
  obtain ⟨f, h1, h2, h3⟩ := witness nestedDoc nestedDoc_wf 50
    [.action { ev := 4, tr := .start }, .action { ev := 2, tr := .stop }] rfl
    (fun f => decide (f.st.est 2 = .sleeping) && decide (f.st.est 3 = .sleeping) &&
      okAnd ((run nestedDoc 50).trans 2 .start f.st) (fun b s =>
        b && decide (s.est 2 = .occurring) && (s.delayed 2).isEmpty)) (by decide +kernel)
  simp only [Bool.and_eq_true, decide_eq_true_eq] at h3
  obtain ⟨⟨h3, h4⟩, h5⟩ := h3
  obtain ⟨b, s', h6, h7⟩ := okAnd_iff.1 h5
  simp only [Bool.and_eq_true, decide_eq_true_eq, List.isEmpty_iff] at h7
  obtain ⟨⟨rfl, h8⟩, h9⟩ := h7
  exact ⟨f, h1, h2, h3, h4, s', h6, h8, h9⟩

end Ginga
