import Verif.Proofs.Witness
import Verif.Proofs.Links
/-! # C06 — a context counts exactly its awake children

Full statement: the number of awake children a context records equals the number of its child
objects that have been started and not yet stopped, so the context ends by itself at the first
tick at which no child is awake and never while a child is still being presented.

What is true of every history is `C06_balance`: the counter is the number of START transitions
minus the number of STOP/ABORT transitions of the children.  For contexts without switches inside
`C06_count_partial` says by how much this differs from the number of awake children: by the number
of times a *paused* child was started again; and `C06_end_partial` that, without such restarts, a
tick ends the context exactly when no child is awake.  Both gaps are real:
`C06_fails_restart`, `C06_fails_switch`. -/
set_option linter.unusedSectionVars false
set_option linter.unusedSimpArgs false
set_option linter.unusedVariables false
namespace Ginga
open Ex

/-! ## Specification -/

/-- Event `e` starts or stops a child of `p` as a whole: it is the whole-content event of a child,
or an interface of a child that is a switch. -/
def actsOn (d : Doc) (p : Oid) (e : Eid) : Bool :=
  (d.obj (d.ev e).obj).parent = some p ∧
    ((d.ev e).isLambda ∨ ((d.obj (d.ev e).obj).kind = .switch ∧ (d.ev e).typ = .presentation))

/-- How many times a child of `p` was started, in a history. -/
def starts (d : Doc) (p : Oid) (log : List LogEntry) : Nat :=
  log.countP fun en => en.tr = .start ∧ actsOn d p en.ev

/-- How many times a child of `p` was stopped or aborted. -/
def stops (d : Doc) (p : Oid) (log : List LogEntry) : Nat :=
  log.countP fun en => (en.tr = .stop ∨ en.tr = .abort) ∧ actsOn d p en.ev

/-- How many times a child of `p` was started while it was paused. -/
def restarts (d : Doc) (p : Oid) (log : List LogEntry) : Nat :=
  log.countP fun en => (en.tr = .start ∧ en.before = .paused) ∧ actsOn d p en.ev

/-- The number of children of `p` that are not sleeping. -/
def awakeChildren (d : Doc) (p : Oid) (s : St) : Nat :=
  (d.obj p).children.countP fun c => s.est (d.obj c).lambda ≠ .sleeping

/-! ## The balance of starts and stops -/

/-- The counter minus the balance of the history. -/
def imbalance (d : Doc) (p : Oid) (s : St) : Int :=
  s.awake p - ((starts d p s.log : Int) - (stops d p s.log : Int))

theorem bumpSt_awake_apply {d : Doc} {o p : Oid} (k : Int) (s : St) :
    (bumpSt d o k s).awake p = s.awake p + (if d.ctxParent o = some p then k else 0) := by
  unfold bumpSt
  split
  · next q hq =>
    rw [hq]
    by_cases hpq : p = q
    · subst hpq; simp
    · have : ¬ (some q = some p) := by simpa using fun h => hpq h.symm
      simp [hpq, this]
  · next hq => rw [hq]; simp

section
variable {d : Doc} {rank : Oid → Nat} (h : WF d rank)
include h

theorem ctxParent_actsOn {o p : Oid} (hp : (d.obj p).kind = .context) {e : Eid}
    (he : (d.ev e).obj = o) (hw : (d.ev e).isLambda = true ∨
      ((d.obj o).kind = .switch ∧ (d.ev e).typ = .presentation)) :
    (d.ctxParent o = some p) ↔ actsOn d p e = true := by
  rw [h.ctxParent_iff]
  simp only [actsOn, he, decide_eq_true_eq]
  constructor
  · rintro ⟨h1, -⟩
    exact ⟨h1, hw⟩
  · rintro ⟨h1, -⟩; exact ⟨h1, hp⟩

theorem imb_start {o p : Oid} (hp : (d.obj p).kind = .context) {e : Eid} (he : (d.ev e).obj = o)
    (hw : (d.ev e).isLambda = true ∨ ((d.obj o).kind = .switch ∧ (d.ev e).typ = .presentation))
    (b : EState) (s : St) :
    imbalance d p ((doStartSt d o s).addLog e .start b) = imbalance d p s := by
  have hc := ctxParent_actsOn h hp he hw
  simp only [imbalance, addLog_awake, addLog_log, doStartSt_awake, doStartSt_log, bumpSt_awake_apply,
    starts, stops, List.countP_cons]
  by_cases hx : actsOn d p e = true
  · rw [if_pos (hc.2 hx)]; simp [hx]; omega
  · rw [if_neg (fun hh => hx (hc.1 hh))]; simp [hx]

theorem imb_stop {o p : Oid} (hp : (d.obj p).kind = .context) {e : Eid} (he : (d.ev e).obj = o)
    (hw : (d.ev e).isLambda = true ∨ ((d.obj o).kind = .switch ∧ (d.ev e).typ = .presentation))
    {t : Trans} (ht : t = .stop ∨ t = .abort) (b : EState) (s : St) :
    imbalance d p ((doStopSt d o s).addLog e t b) = imbalance d p s := by
  have hc := ctxParent_actsOn h hp he hw
  have hts : ¬ t = .start := by rcases ht with rfl | rfl <;> simp
  simp only [imbalance, addLog_awake, addLog_log, doStopSt_awake, doStopSt_log, bumpSt_awake_apply,
    starts, stops, List.countP_cons]
  by_cases hx : actsOn d p e = true
  · rw [if_pos (hc.2 hx)]; simp [hx, ht, hts]; omega
  · rw [if_neg (fun hh => hx (hc.1 hh))]; simp [hx]

theorem imb_log {p : Oid} {s : St} {e : Eid} {t : Trans} (b : EState)
    (ht : (t = .pause ∨ t = .resume) ∨ actsOn d p e = false) :
    imbalance d p (s.addLog e t b) = imbalance d p s := by
  simp only [imbalance, addLog_awake, addLog_log, starts, stops, List.countP_cons]
  rcases ht with (rfl | rfl) | ht
  · simp
  · simp
  · simp [ht]

theorem Chain.imb {o : Oid} {s s' : St} (hc : Chain d o s s') {p : Oid}
    (hp : (d.obj p).kind = .context) : imbalance d p s' = imbalance d p s := by
  induction hc with
  | @top o s q pr hk hs hpar =>
    have := imb_start h hp (h.lam_obj o) (.inl (h.lam_is o)) (s.est (d.lam o)) (s.setEst (d.lam o) .occurring)
    exact this
  | @up o p' s s2 q pr pr' hk hs hpp hsl hc ih =>
    have h1 := imb_start h hp (h.lam_obj o) (.inl (h.lam_is o)) (s.est (d.lam o)) (s.setEst (d.lam o) .occurring)
    have h2 : imbalance d p (s2.addLog (d.lam o) .start (s.est (d.lam o))) - imbalance d p s2 =
        imbalance d p ((doStartSt d o (s.setEst (d.lam o) .occurring)).addLog (d.lam o) .start (s.est (d.lam o)))
        - imbalance d p (doStartSt d o (s.setEst (d.lam o) .occurring)) := by
      simp only [imbalance, addLog_awake, addLog_log, starts, stops, List.countP_cons]
      split <;> split <;> simp <;> omega
    have h3 : imbalance d p { (doStartSt d o (s.setEst (d.lam o) .occurring)) with par := pr } =
        imbalance d p (doStartSt d o (s.setEst (d.lam o) .occurring)) := rfl
    have h4 : imbalance d p ({ s2.setDelayed o q with par := pr' }.addLog (d.lam o) .start (s.est (d.lam o))) =
        imbalance d p (s2.addLog (d.lam o) .start (s.est (d.lam o))) := rfl
    have h5 : imbalance d p (s.setEst (d.lam o) .occurring) = imbalance d p s := rfl
    refine h4.trans ?_
    rw [h3] at ih
    rw [h5] at h1
    rw [h1, ← ih] at h2
    omega

end

theorem balance_inv : StInv fun d s => ∀ p, (d.obj p).kind = .context → imbalance d p s = 0 where
  init := by intro d focus _ p _; simp [imbalance, Doc.init, starts, stops]
  step := by
    intro d rank h s t ha hg hl p hp
    have hi := hl p hp
    cases ha with
    | clock => exact hi
    | atom ha =>
      have lm : ∀ o, (d.ev (d.lam o)).obj = o := h.lam_obj
      have li : ∀ o, (d.ev (d.lam o)).isLambda = true := h.lam_is
      rw [← hi]
      cases ha with
      | misc => rfl
      | queue => rfl
      | player => rfl
      | sel => rfl
      | mediaStart o pl hk hsl hpar =>
        exact imb_start h hp (lm o) (.inl (li o)) _ _
      | mediaRestart o hk hsl => exact imb_start h hp (lm o) (.inl (li o)) _ _
      | mediaStop o t hk hsl ht => exact imb_stop h hp (lm o) (.inl (li o)) ht _ _
      | mediaSet o t b x pl hk hsl ht hn => exact imb_log h b (.inl ht)
      | anchor e t b x hk hl' hty hn hx =>
        exact imb_log h b (.inr (by
          simp only [actsOn, hl']
          have : (d.obj (d.ev e).obj).kind ≠ .switch := by intro h1; rw [h1] at hk; cases hk
          simp [this]))
      | other e t b x hty hn =>
        exact imb_log h b (.inr (by
          simp only [actsOn]
          have : (d.ev e).isLambda = false := by simp [EvDecl.isLambda, hty]
          simp [this, hty]))
      | ctxStart o hc => exact hc.imb h hp
      | ctxStop o t hk hsl ht hch => exact imb_stop h hp (lm o) (.inl (li o)) ht _ _
      | ctxSet o t b x hk ht hn hw => exact imb_log h b (.inl ht)
      | swStart e b hk hty hb => exact imb_start h hp rfl (.inr ⟨hk, hty⟩) _ _
      | swStop e t b hk hty ht hb => exact imb_stop h hp rfl (.inr ⟨hk, hty⟩) ht _ _
      | swSet e t b x hk hty ht hn => exact imb_log h b (.inl ht)

/-- **C06**, the balance: in every reachable state the counter of each context is the number of
START transitions its children have made minus the number of STOP and ABORT transitions. -/
theorem C06_balance {f : Fmt} (hf : Reachable f) {d : Doc} (hd : f.doc = some d)
    (p : Oid) (hp : (d.obj p).kind = .context) :
    f.st.awake p = (starts d p f.st.log : Int) - (stops d p f.st.log : Int) := by
  obtain ⟨rank, hw, hg, hi⟩ := (hf.inv balance_inv).good d hd
  have := hi p hp
  unfold imbalance at this
  omega

/-! ## The number of awake children -/

/-- The counter minus the number of awake children and of restarts. -/
def surplus (d : Doc) (p : Oid) (s : St) : Int :=
  s.awake p - (awakeChildren d p s : Int) - (restarts d p s.log : Int)

theorem countP_one {l : List Oid} (hn : l.Nodup) {o : Oid} {P Q : Oid → Bool}
    (h1 : P o = false) (h2 : Q o = true) (h3 : ∀ x, x ≠ o → Q x = P x) :
    l.countP Q = l.countP P + (if o ∈ l then 1 else 0) := by
  induction l with
  | nil => simp
  | cons a l ih =>
    simp only [List.nodup_cons] at hn
    have ih' := ih hn.2
    simp only [List.countP_cons, List.mem_cons]
    by_cases ha : a = o
    · subst ha
      simp [h1, h2, hn.1] at ih' ⊢
      omega
    · have : ¬ o = a := fun hh => ha hh.symm
      rw [h3 a ha]; simp [this]; omega

section
variable {d : Doc} {rank : Oid → Nat} (h : WF d rank)
include h

theorem mem_children_ctx {o p : Oid} (hp : (d.obj p).kind = .context) :
    o ∈ (d.obj p).children ↔ d.ctxParent o = some p := by
  rw [h.mem_children, h.ctxParent_iff]; simp [hp]

/-- Changing only the whole-content state of `o`. -/
theorem awakeChildren_set {o p : Oid} (hp : (d.obj p).kind = .context) {s s' : St}
    (hne : ∀ x, x ≠ o → (s'.est (d.lam x) = .sleeping ↔ s.est (d.lam x) = .sleeping)) :
    ((awakeChildren d p s' : Int) = awakeChildren d p s +
      (if d.ctxParent o = some p then
        (if s'.est (d.lam o) = .sleeping then 0 else 1) - (if s.est (d.lam o) = .sleeping then 0 else 1)
       else 0)) := by
  unfold awakeChildren
  have hn := h.children_nodup p
  have hm := mem_children_ctx h (o := o) hp
  have hne' : ∀ x, x ≠ o → (decide (s'.est (d.obj x).lambda ≠ .sleeping)) =
      decide (s.est (d.obj x).lambda ≠ .sleeping) := by
    intro x hx
    have := hne x hx
    simp only [Doc.lam] at this
    simp [this]
  by_cases ha : s.est (d.lam o) = .sleeping <;> by_cases hb : s'.est (d.lam o) = .sleeping
  · have : (fun c => decide (s'.est (d.obj c).lambda ≠ .sleeping)) =
        (fun c => decide (s.est (d.obj c).lambda ≠ .sleeping)) := by
      funext x; by_cases hx : x = o
      · subst hx; simp only [Doc.lam] at ha hb; simp [ha, hb]
      · exact hne' x hx
    rw [this]; simp [ha, hb]
  · have hc := countP_one hn (o := o) (P := fun c => decide (s.est (d.obj c).lambda ≠ .sleeping))
      (Q := fun c => decide (s'.est (d.obj c).lambda ≠ .sleeping))
      (by simp only [Doc.lam] at ha; simp [ha]) (by simp only [Doc.lam] at hb; simp [hb]) hne'
    rw [hc]
    by_cases hx : d.ctxParent o = some p
    · simp [hx, hm.2 hx, ha, hb]
    · simp [hx, mt hm.1 hx]
  · have hc := countP_one hn (o := o) (Q := fun c => decide (s.est (d.obj c).lambda ≠ .sleeping))
      (P := fun c => decide (s'.est (d.obj c).lambda ≠ .sleeping))
      (by simp only [Doc.lam] at hb; simp [hb]) (by simp only [Doc.lam] at ha; simp [ha])
      (fun x hx => (hne' x hx).symm)
    rw [hc]
    by_cases hx : d.ctxParent o = some p
    · simp [hx, hm.2 hx, ha, hb]; omega
    · simp [hx, mt hm.1 hx]
  · have : (fun c => decide (s'.est (d.obj c).lambda ≠ .sleeping)) =
        (fun c => decide (s.est (d.obj c).lambda ≠ .sleeping)) := by
      funext x; by_cases hx : x = o
      · subst hx; simp only [Doc.lam] at ha hb; simp [ha, hb]
      · exact hne' x hx
    rw [this]; simp [ha, hb]

theorem awakeChildren_same {p : Oid} {s s' : St}
    (hne : ∀ x, (d.obj x).parent = some p →
      (s'.est (d.lam x) = .sleeping ↔ s.est (d.lam x) = .sleeping)) :
    awakeChildren d p s' = awakeChildren d p s := by
  unfold awakeChildren
  apply List.countP_congr
  intro x hx
  have := hne x ((h.mem_children _ _).1 hx)
  simp only [Doc.lam] at this
  simp [this]

theorem restarts_log {p : Oid} {o : Oid} (hp : (d.obj p).kind = .context) (b : EState) (l : List LogEntry) :
    (restarts d p (⟨d.lam o, .start, b⟩ :: l) : Int) = restarts d p l +
      (if d.ctxParent o = some p then (if b = .paused then 1 else 0) else 0) := by
  have hc := ctxParent_actsOn h hp (h.lam_obj o) (.inl (h.lam_is o))
  simp only [restarts, List.countP_cons]
  by_cases hx : d.ctxParent o = some p
  · rw [if_pos hx]; have := hc.1 hx; by_cases hb : b = .paused <;> simp [this, hb]
  · rw [if_neg hx]
    have : actsOn d p (d.lam o) = false := by
      cases hh : actsOn d p (d.lam o) with
      | false => rfl
      | true => exact absurd (hc.2 hh) hx
    simp [this]

omit h in
theorem restarts_log_ne {p : Oid} {e : Eid} {t : Trans} (b : EState) (l : List LogEntry)
    (ht : t ≠ .start ∨ actsOn d p e = false) : restarts d p (⟨e, t, b⟩ :: l) = restarts d p l := by
  simp only [restarts, List.countP_cons]
  rcases ht with ht | ht <;> simp [ht]

/-- `o` is started from state `b` (not occurring). -/
theorem surplus_start {o p : Oid} (hp : (d.obj p).kind = .context) {s s0 : St}
    (hb : s.est (d.lam o) ≠ .occurring) (haw : s0.awake = s.awake) (hlog : s0.log = s.log)
    (hest : s0.est = upd s.est (d.lam o) .occurring) :
    surplus d p ((doStartSt d o s0).addLog (d.lam o) .start (s.est (d.lam o))) = surplus d p s := by
  have h1 := awakeChildren_set h (o := o) hp (s := s)
    (s' := (doStartSt d o s0).addLog (d.lam o) .start (s.est (d.lam o)))
    (by intro x hx
        have : d.lam x ≠ d.lam o := fun he => hx (h.lam_inj he)
        simp [hest, this])
  have h2 := restarts_log h (o := o) hp (s.est (d.lam o)) s.log
  have h3 : (doStartSt d o s0).awake p = s.awake p + (if d.ctxParent o = some p then 1 else 0) := by
    rw [doStartSt_awake, bumpSt_awake_apply, haw]
  simp only [surplus, addLog_awake, addLog_log, doStartSt_log, hlog]
  rw [h1, h2, h3]
  simp only [addLog_est, doStartSt_est, hest, upd_same]
  by_cases hx : d.ctxParent o = some p
  · cases hq : s.est (d.lam o) with
    | occurring => exact absurd hq hb
    | paused => simp [hx]; omega
    | sleeping => simp [hx]; omega
  · simp [hx]

theorem surplus_stop {o p : Oid} (hp : (d.obj p).kind = .context) {s s0 : St} {t : Trans}
    (ht : t = .stop ∨ t = .abort)
    (hb : s.est (d.lam o) ≠ .sleeping) (haw : s0.awake = s.awake) (hlog : s0.log = s.log)
    (hest : s0.est = s.est) (b : EState) :
    surplus d p ((doStopSt d o s0).addLog (d.lam o) t b) = surplus d p s := by
  have h1 := awakeChildren_set h (o := o) hp (s := s)
    (s' := (doStopSt d o s0).addLog (d.lam o) t b)
    (by intro x hx; simp [hest, h.reset_apply, h.lam_obj, hx])
  have hts : t ≠ .start := by rcases ht with rfl | rfl <;> simp
  have h2 := restarts_log_ne (d := d) (p := p) (e := d.lam o) b s.log (.inl hts)
  have h3 : (doStopSt d o s0).awake p = s.awake p + (if d.ctxParent o = some p then -1 else 0) := by
    rw [doStopSt_awake, bumpSt_awake_apply, haw]
  simp only [surplus, addLog_awake, addLog_log, doStopSt_log, hlog]
  rw [h1, h2, h3]
  simp only [addLog_est, doStopSt_est, h.reset_apply, h.lam_obj, hb]
  by_cases hx : d.ctxParent o = some p
  · simp [hx]; omega
  · simp [hx]

/-- Nothing changes for the children of `p`. -/
theorem surplus_same {p : Oid} {s s' : St} {e : Eid} {t : Trans} {b : EState}
    (haw : s'.awake p = s.awake p) (hlog : s'.log = ⟨e, t, b⟩ :: s.log)
    (ht : t ≠ .start ∨ actsOn d p e = false)
    (hne : ∀ x, (d.obj x).parent = some p →
      (s'.est (d.lam x) = .sleeping ↔ s.est (d.lam x) = .sleeping)) :
    surplus d p s' = surplus d p s := by
  simp only [surplus, haw, hlog, awakeChildren_same h hne, restarts_log_ne b s.log ht]

theorem Chain.surplus {o : Oid} {s s' : St} (hc : Chain d o s s') {p : Oid}
    (hp : (d.obj p).kind = .context) : surplus d p s' = surplus d p s := by
  induction hc with
  | @top o s q pr hk hs hpar =>
    exact surplus_start h hp hs (s0 := s.setEst (d.lam o) .occurring) rfl rfl rfl
  | @up o p' s s2 q pr pr' hk hs hpp hsl hc ih =>
    have h1 := surplus_start h hp hs (s0 := s.setEst (d.lam o) .occurring) rfl rfl rfl
    have h2 : Ginga.surplus d p (s2.addLog (d.lam o) .start (s.est (d.lam o))) - Ginga.surplus d p s2 =
        Ginga.surplus d p ((doStartSt d o (s.setEst (d.lam o) .occurring)).addLog (d.lam o) .start (s.est (d.lam o)))
        - Ginga.surplus d p (doStartSt d o (s.setEst (d.lam o) .occurring)) := by
      have e1 : ∀ x : St, awakeChildren d p (x.addLog (d.lam o) .start (s.est (d.lam o))) =
          awakeChildren d p x := fun _ => rfl
      simp only [Ginga.surplus, e1, addLog_awake, addLog_log]
      rw [restarts_log h hp, restarts_log h hp]
      omega
    have h3 : Ginga.surplus d p { (doStartSt d o (s.setEst (d.lam o) .occurring)) with par := pr } =
        Ginga.surplus d p (doStartSt d o (s.setEst (d.lam o) .occurring)) := rfl
    have h4 : Ginga.surplus d p ({ s2.setDelayed o q with par := pr' }.addLog (d.lam o) .start (s.est (d.lam o))) =
        Ginga.surplus d p (s2.addLog (d.lam o) .start (s.est (d.lam o))) := rfl
    refine h4.trans ?_
    rw [h3] at ih
    omega

end

theorem surplus_inv : StInv fun d s => CtxInv d s ∧
    ∀ p, (d.obj p).kind = .context → SwitchFree d p → surplus d p s = 0 where
  init := by
    intro d focus hw
    refine ⟨ctxInv_inv.init d focus hw, ?_⟩
    intro p _ _; simp [surplus, Doc.init, restarts, awakeChildren]
  step := by
    intro d rank h s t ha hg hl
    refine ⟨ctxInv_inv.step d rank h s t ha hg hl.1, ?_⟩
    intro p hp hsf
    have hi := hl.2 p hp hsf
    have hctx := hl.1
    cases ha with
    | clock => exact hi
    | atom ha =>
      rw [← hi]
      have nsw : ∀ x, (d.obj x).parent = some p → (d.obj x).kind ≠ .switch :=
        fun x hx => (hsf.child hx).1
      cases ha with
      | misc => rfl
      | queue => rfl
      | player => rfl
      | sel => rfl
      | mediaStart o pl hk hsl hpar =>
        have := surplus_start h hp (o := o) (s := s) (by rw [hsl]; simp)
          (s0 := (s.setPlayer o (some pl)).setEst (d.lam o) .occurring) rfl rfl rfl
        rw [hsl] at this; exact this
      | mediaRestart o hk hsl =>
        have := surplus_start h hp (o := o) (s := s) (by rw [hsl]; simp)
          (s0 := s.setEst (d.lam o) .occurring) rfl rfl rfl
        rw [hsl] at this; exact this
      | mediaStop o t hk hsl ht =>
        exact surplus_stop h hp ht hsl (s0 := s.setPlayer o none) rfl rfl rfl _
      | mediaSet o t b x pl hk hsl ht hn =>
        refine surplus_same h rfl rfl (.inl (by rcases ht with rfl | rfl <;> simp)) ?_
        intro y _
        by_cases hy : y = o
        · subst hy; have := nextState_pr h ht hn; simp [hsl, this]
        · have : d.lam y ≠ d.lam o := fun he => hy (h.lam_inj he)
          simp [this]
      | anchor e t b x hk hl' hty hn hx =>
        refine surplus_same h rfl rfl (.inr ?_) ?_
        · simp only [actsOn, hl']
          have : (d.obj (d.ev e).obj).kind ≠ .switch := by intro h1; rw [h1] at hk; cases hk
          simp [this]
        · intro y _
          have : d.lam y ≠ e := by rintro rfl; rw [h.lam_is] at hl'; cases hl'
          simp [this]
      | other e t b x hty hn =>
        refine surplus_same h rfl rfl (.inr ?_) ?_
        · simp only [actsOn]
          have : (d.ev e).isLambda = false := by simp [EvDecl.isLambda, hty]
          simp [this, hty]
        · intro y _
          have : d.lam y ≠ e := by rintro rfl; exact hty (h.lam_typ y)
          simp [this]
      | ctxStart o hc => exact hc.surplus h hp
      | ctxStop o t hk hsl ht hch => exact surplus_stop h hp ht hsl (s0 := s) rfl rfl rfl _
      | ctxSet o t b x hk ht hn hw =>
        refine surplus_same h rfl rfl (.inl (by rcases ht with rfl | rfl <;> simp)) ?_
        intro y hy
        by_cases hyo : y = o
        · subst hyo
          have hx := nextState_pr h ht hn
          have : s.est (d.lam y) ≠ .sleeping := by
            rcases hw with hw | ⟨c', hc', hw⟩
            · exact hw
            · have hpar := (h.mem_children _ _).1 hc'
              exact hctx c' y (h.ctxParent_iff.2 ⟨hpar, hk⟩) ((hsf.child hy).child hpar) (by simp) hw
          simp [this, hx]
        · have : d.lam y ≠ d.lam o := fun he => hyo (h.lam_inj he)
          simp [this]
      | swStart e b hk hty hb =>
        have hpar : (d.obj (d.ev e).obj).parent ≠ some p := fun hx => nsw _ hx hk
        refine surplus_same (e := e) (t := .start) (b := b) h ?_ (by simp) (.inr (by simp [actsOn, hpar])) ?_
        · have : d.ctxParent (d.ev e).obj ≠ some p := fun hx => hpar (h.ctxParent_iff.1 hx).1
          simp [doStartSt_awake, bumpSt_awake_apply, this]
        · intro y hy
          have : d.lam y ≠ e := by rintro rfl; rw [h.lam_obj] at hk; exact nsw y hy hk
          simp [this]
      | swStop e t b hk hty ht hb =>
        have hpar : (d.obj (d.ev e).obj).parent ≠ some p := fun hx => nsw _ hx hk
        refine surplus_same (e := e) (t := t) (b := b) h ?_ (by simp) (.inr (by simp [actsOn, hpar])) ?_
        · have : d.ctxParent (d.ev e).obj ≠ some p := fun hx => hpar (h.ctxParent_iff.1 hx).1
          simp [doStopSt_awake, bumpSt_awake_apply, this]
        · intro y hy
          have : y ≠ (d.ev e).obj := by rintro rfl; exact hpar hy
          simp [h.reset_apply, h.lam_obj, this]
      | swSet e t b x hk hty ht hn =>
        refine surplus_same h rfl rfl (.inl (by rcases ht with rfl | rfl <;> simp)) ?_
        intro y hy
        have : d.lam y ≠ e := by rintro rfl; rw [h.lam_obj] at hk; exact nsw y hy hk
        simp [this]

/-- **C06**, the count (partial: no switch inside the context).  In every reachable state the
counter of a context is the number of its children that are not sleeping, plus the number of times
a paused child was started again. -/
theorem C06_count_partial {f : Fmt} (hf : Reachable f) {d : Doc} (hd : f.doc = some d)
    (p : Oid) (hp : (d.obj p).kind = .context) (hfree : SwitchFree d p) :
    f.st.awake p = (awakeChildren d p f.st : Int) + (restarts d p f.st.log : Int) := by
  obtain ⟨rank, hw, hg, hi⟩ := (hf.inv surplus_inv).good d hd
  have := hi.2 p hp hfree
  unfold surplus at this
  omega

/-- No child of `p` is being presented (the settings object, always present in the body, does not
count). -/
def NoneAwake (d : Doc) (p : Oid) (s : St) : Prop :=
  ∀ x, (d.obj x).parent = some p → x ≠ d.settings → s.est (d.obj x).lambda = .sleeping

/-- With one element set aside. -/
theorem countP_aside {l : List Oid} (hn : l.Nodup) (o : Oid) (ho : o ∈ l) (P : Oid → Bool) :
    l.countP P = l.countP (fun x => P x && decide (x ≠ o)) + (if P o = true then 1 else 0) := by
  by_cases hp : P o = true
  · have := countP_one hn (o := o) (P := fun x => P x && decide (x ≠ o)) (Q := P) (by simp) hp
      (by intro x hx; simp [hx])
    rw [this]; simp [ho, hp]
  · have : (fun x => P x && decide (x ≠ o)) = P := by
      funext x; by_cases hx : x = o
      · subst hx; simp [hp]
      · simp [hx]
    rw [this]; simp [hp]

theorem noneAwake_root {d : Doc} {rank : Oid → Nat} (hw : WF d rank) (s : St) :
    NoneAwake d d.root s ↔ awakeChildren d d.root s =
      (if s.est (d.obj d.settings).lambda = .sleeping then 0 else 1) := by
  unfold awakeChildren
  rw [countP_aside (hw.children_nodup d.root) d.settings ((hw.mem_children _ _).2 hw.settings_parent)]
  have hz : (d.obj d.root).children.countP (fun x => decide (s.est (d.obj x).lambda ≠ .sleeping) &&
      decide (x ≠ d.settings)) = 0 ↔ NoneAwake d d.root s := by
    rw [List.countP_eq_zero]
    constructor
    · intro hx y hy hys
      have := hx y ((hw.mem_children _ _).2 hy)
      simpa [hys] using this
    · intro hx y hy
      have := hx y ((hw.mem_children _ _).1 hy)
      simp; intro h1
      exact Classical.byContradiction fun h2 => h1 (this h2)
  rw [← hz]
  by_cases hs : s.est (d.obj d.settings).lambda = .sleeping <;> simp [hs]

theorem noneAwake_inner {d : Doc} {rank : Oid → Nat} (hw : WF d rank) (s : St) {p : Oid}
    (hp : p ≠ d.root) : NoneAwake d p s ↔ awakeChildren d p s = 0 := by
  unfold awakeChildren
  rw [List.countP_eq_zero]
  constructor
  · intro hx y hy
    have hpar := (hw.mem_children _ _).1 hy
    have hys : y ≠ d.settings := by
      rintro rfl; rw [hw.settings_parent] at hpar; cases hpar; exact hp rfl
    simpa using hx y hpar hys
  · intro hx y hy _
    simpa using hx y ((hw.mem_children _ _).2 hy)

/-- **C06**, the end (partial: no switch inside, no restart of a paused child so far).  A tick of
an occurring context of the document first runs its due actions, leading to some state `s1`; then
the context is stopped if and only if no child is awake in `s1`. -/
theorem C06_end_partial {f : Fmt} (hf : Reachable f) {d : Doc} (hd : f.doc = some d)
    (p : Oid) (hin : p = d.root ∨ (d.obj p).parent ≠ none)
    (hp : (d.obj p).kind = .context) (hfree : SwitchFree d p) (n diff : Nat) (s' : St)
    (ht : sendTick1 d (run d n) diff p f.st = .ok ((), s')) :
    ∃ s1, objTick d (run d n) p diff f.st = .ok ((), s1) ∧
      (restarts d p s1.log = 0 →
        (NoneAwake d p s1 → InOrder d n [{ ev := (d.obj p).lambda, tr := .stop }] s1 s') ∧
        (¬ NoneAwake d p s1 → s' = s1)) := by
  obtain ⟨rank, hw, hg, hi⟩ := (hf.inv surplus_inv).good d hd
  simp only [sendTick1, hp, ctxTick] at ht
  obtain ⟨_, s1, h1, h2⟩ := bind_ok ht
  refine ⟨s1, h1, ?_⟩
  intro hre
  have hts := TSteps.of_tick hw (wp_ok (wp_objTick hw (run_spec hw (U := True) (fun _ => trivial) n) p diff f.st hg) h1)
  have hi1 := surplus_inv.tsteps hw hts hg hi
  have hc := hi1.2 p hp hfree
  unfold surplus at hc
  rw [hre] at hc
  have hcnt : s1.awake p = (awakeChildren d p s1 : Int) := by omega
  simp only [Bind.bind, M.bind, M.get, Res.bind_ok] at h2
  have stop_case : ∀ s2, (run d n).evalA { ev := (d.obj p).lambda, tr := .stop } s1 = s2 →
      (s2.bind fun q => (pure () : M Unit) q.2) = .ok ((), s') →
      InOrder d n [{ ev := (d.obj p).lambda, tr := .stop }] s1 s' := by
    intro s2 hs2 hb
    cases s2 with
    | ok q =>
      obtain ⟨k, s3⟩ := q
      have : s3 = s' := by
        simp only [Res.bind_ok] at hb
        change Res.ok ((), s3) = _ at hb
        simpa using hb
      subst this
      exact .cons hs2 .nil
    | _ => simp at hb
  by_cases hroot : (d.obj p).parent = none ∧ s1.awake p = 1
  · rw [if_pos hroot] at h2
    have hpr : p = d.root := by
      rcases hin with h3 | h3
      · exact h3
      · exact absurd hroot.1 h3
    by_cases hset : isOccurring d s1 d.settings = true
    · rw [if_pos hset] at h2
      refine ⟨fun _ => stop_case _ rfl h2, fun hna => absurd ?_ hna⟩
      rw [hpr]
      rw [noneAwake_root hw]
      have : s1.est (d.obj d.settings).lambda = .occurring := by simpa [isOccurring] using hset
      rw [this]
      have h4 := hroot.2
      rw [hpr] at h4 hcnt
      simp; omega
    · rw [if_neg hset] at h2; cases h2
  · rw [if_neg hroot] at h2
    by_cases hz : s1.awake p = 0
    · rw [if_pos hz] at h2
      refine ⟨fun _ => stop_case _ rfl h2, fun hna => absurd ?_ hna⟩
      by_cases hpr : p = d.root
      · rw [hpr] at hcnt hz ⊢
        rw [noneAwake_root hw]
        have hz' : awakeChildren d d.root s1 = 0 := by omega
        rw [hz']
        unfold awakeChildren at hz'
        rw [List.countP_eq_zero] at hz'
        have := hz' d.settings ((hw.mem_children _ _).2 hw.settings_parent)
        simp at this
        simp [this]
      · rw [noneAwake_inner hw _ hpr]; omega
    · rw [if_neg hz] at h2
      have hss : s1 = s' := by change Res.ok ((), s1) = _ at h2; simpa using h2
      refine ⟨fun hna => ?_, fun _ => hss.symm⟩
      exfalso
      by_cases hpr : p = d.root
      · rw [hpr] at hna hcnt hz hroot
        rw [noneAwake_root hw] at hna
        have : ¬ (s1.awake d.root = 1) := fun h3 => hroot ⟨hw.root_parent, h3⟩
        split at hna <;> omega
      · rw [noneAwake_inner hw _ hpr] at hna; omega

/-! ## The gaps are real -/

/-- **C06 fails after a restart**: the media `b` (3) of `twoMedias` is paused, started again and
stopped; no child of the body but the settings is awake, yet the ticks that follow do not end it. -/
theorem C06_fails_restart :
    ∃ f, Reachable f ∧ f.doc = some twoMedias ∧ NoneAwake twoMedias 0 f.st ∧ f.st.awake 0 = 2 ∧
      ∃ s', sendTick1 twoMedias (run twoMedias 50) 1 0 f.st = .ok ((), s') ∧
        s'.est (twoMedias.obj 0).lambda = .occurring := by
  obtain ⟨f, h1, h2, h3⟩ := witness twoMedias twoMedias_wf 50
    [tick 0, .action { ev := 2, tr := .stop }, .action { ev := 3, tr := .pause },
     .action { ev := 3, tr := .start }, .action { ev := 3, tr := .stop }, tick 1] rfl
    (fun f => decide (f.st.est 2 = .sleeping) && (decide (f.st.est 3 = .sleeping) &&
      (decide (f.st.awake 0 = 2) &&
      okAnd (sendTick1 twoMedias (run twoMedias 50) 1 0 f.st) (fun _ s => decide (s.est 0 = .occurring)))))
    (by decide +kernel)
  simp only [Bool.and_eq_true, decide_eq_true_eq] at h3
  obtain ⟨h4, h5, h6, h7⟩ := h3
  obtain ⟨_, s', h8, h9⟩ := okAnd_iff.1 h7
  refine ⟨f, h1, h2, ?_, h6, s', h8, (by simpa using h9 : s'.est 0 = .occurring)⟩
  intro x hx hs
  match x, hx with
  | 0, hx => cases hx
  | 1, _ => exact absurd rfl hs
  | 2, _ => exact h4
  | 3, _ => exact h5
  | x + 4, hx => simp [twoMedias, mkDoc] at hx

/-- **C06 fails with a switch**: the switch of `switchDoc` was started through its switchPort; its
media (4) is presented, no child of `c` (2) counts as awake, but the counter says one. -/
theorem C06_fails_switch :
    ∃ f, Reachable f ∧ f.doc = some switchDoc ∧ awakeChildren switchDoc 2 f.st = 0 ∧
      f.st.awake 2 = 1 ∧ restarts switchDoc 2 f.st.log = 0 := by
  obtain ⟨f, h1, h2, h3⟩ := witness switchDoc switchDoc_wf 50 [tick 0, tick 1] rfl
    (fun f => decide (awakeChildren switchDoc 2 f.st = 0) && (decide (f.st.awake 2 = 1) &&
      decide (restarts switchDoc 2 f.st.log = 0)))
    (by decide +kernel)
  simp only [Bool.and_eq_true, decide_eq_true_eq] at h3
  exact ⟨f, h1, h2, h3⟩

/-! Non-vacuity: in `nestedDoc` the context `c` (2) is free of switches; it counts its one child
while the media is presented and ends at the tick after the media ended. -/
example : ∃ f, Reachable f ∧ f.doc = some nestedDoc ∧
    (decide (f.st.awake 2 = 1) && (decide (awakeChildren nestedDoc 2 f.st = 1) &&
      decide (restarts nestedDoc 2 f.st.log = 0))) = true :=
  witness nestedDoc nestedDoc_wf 50 [tick 0, tick 1, tick 1] rfl _ (by decide +kernel)
example : ∃ f, Reachable f ∧ f.doc = some nestedDoc ∧
    (decide (f.st.est 2 = .occurring) && (decide (awakeChildren nestedDoc 2 f.st = 0) &&
      okAnd (sendTick1 nestedDoc (run nestedDoc 50) 1 2 f.st) (fun _ s => decide (s.est 2 = .sleeping)))) = true :=
  witness nestedDoc nestedDoc_wf 50 [tick 0, tick 1, tick 1, .action { ev := 3, tr := .stop }] rfl _
    (by decide +kernel)

end Ginga
