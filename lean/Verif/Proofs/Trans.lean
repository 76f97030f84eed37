import Verif.Proofs.Good
/-! # Every engine call is a sequence of atomic steps -/
set_option linter.unusedSectionVars false
set_option linter.unusedSimpArgs false
set_option linter.unusedVariables false
namespace Ginga

/-- Some attribution event animates a compound property of a media: the only source of
undefined behaviour in the engine (lib/PlayerAnimator.cpp:58-89). -/
def CompoundAttr (d : Doc) : Prop :=
  ∃ e, (d.ev e).typ = .attribution ∧ (d.obj (d.ev e).obj).kind.isMedia = true ∧
    compoundProp (d.ev e).id = true

/-- What is known after `Event::transition`. -/
structure TransPost (d : Doc) (rank : Oid → Nat) (s : St) (e : Eid) (t : Trans)
    (b : Bool) (s' : St) : Prop where
  steps : Steps d rank s s'
  fail : b = false → s' = s
  ok : b = true → ∃ x, nextState (s.est e) t = some x ∧ s'.est e = x
  chain : b = true → t = .start → (d.ev e).isLambda = true →
    (d.obj (d.ev e).obj).kind = .context → Chain d (d.ev e).obj s s'
  mono : t = .start → ∀ e', s.est e' ≠ .sleeping → s'.est e' ≠ .sleeping
  started : b = true → t = .start → (d.ev e).typ = .presentation →
    (d.obj (d.ev e).obj).kind.isMedia = true → s'.est (d.lam (d.ev e).obj) ≠ .sleeping
  must : t = .start → (d.ev e).typ = .presentation → (d.obj (d.ev e).obj).kind ≠ .switch →
    s.est e ≠ .occurring → b = true
  sleep : t = .stop ∨ t = .abort → ∀ e', s'.est e' = s.est e' ∨ s'.est e' = .sleeping
  frame : t = .stop ∨ t = .abort →
    ∀ e', rank (d.ev e').obj < rank (d.ev e).obj → s'.est e' = s.est e'
  stopped : t = .stop ∨ t = .abort → (d.ev e).typ = .presentation → s'.est e = .sleeping

/-- What is assumed about the recursive entry points. -/
structure RecSpec (d : Doc) (rank : Oid → Nat) (U : Prop) (r : Rec) : Prop where
  trans : ∀ e t s, Good d rank s → wp True U (r.trans e t) (TransPost d rank s e t) s
  evalA : ∀ a s, Good d rank s → wp True U (r.evalA a) (fun _ s' => Steps d rank s s') s
  loop : ∀ l k s, Good d rank s → wp True U (r.loop l k) (fun _ s' => Steps d rank s s') s

/-! ## Changes that touch no event -/

theorem upd_eq {κ ν : Type} [DecidableEq κ] {f g : κ → ν} {k : κ} (h : ∀ x, x ≠ k → g x = f x) :
    g = upd f k (g k) := by
  funext x; by_cases hx : x = k
  · subst hx; simp
  · simp [hx, h x hx]

@[simp] theorem upd_upd {κ ν : Type} [DecidableEq κ] (f : κ → ν) (k : κ) (v w : ν) :
    upd (upd f k v) k w = upd f k w := by
  funext x; by_cases hx : x = k <;> simp [upd, hx]

theorem upd_self {κ ν : Type} [DecidableEq κ] (f : κ → ν) (k : κ) (v : ν) (h : f k = v) :
    upd f k v = f := by
  funext x; by_cases hx : x = k
  · subst hx; simp [h]
  · simp [hx]

theorem St.ext {s t : St} (h1 : s.est = t.est) (h2 : s.par = t.par) (h3 : s.time = t.time)
    (h4 : s.delayed = t.delayed) (h5 : s.props = t.props) (h6 : s.player = t.player)
    (h7 : s.awake = t.awake) (h8 : s.status = t.status) (h9 : s.sel = t.sel)
    (h10 : s.focus = t.focus) (h11 : s.nextFocus = t.nextFocus) (h12 : s.log = t.log) : s = t := by
  cases s; cases t; simp_all

@[simp] theorem setPlayer_setPlayer (s : St) (o p q) :
    (s.setPlayer o p).setPlayer o q = s.setPlayer o q := by simp [St.setPlayer]
@[simp] theorem setDelayed_setDelayed (s : St) (o p q) :
    (s.setDelayed o p).setDelayed o q = s.setDelayed o q := by simp [St.setDelayed]
theorem setPlayer_self (s : St) (o p) (h : s.player o = p) : s.setPlayer o p = s := by
  simp [St.setPlayer, upd_self _ _ _ h]
theorem setDelayed_self (s : St) (o) : s.setDelayed o (s.delayed o) = s := by
  simp [St.setDelayed, upd_self _ _ _ rfl]

/-- Only parameters, properties, focus, the player and queue of `o` change. -/
structure Quiet (d : Doc) (o : Oid) (s s' : St) : Prop where
  est : s'.est = s.est
  time : s'.time = s.time
  awake : s'.awake = s.awake
  status : s'.status = s.status
  sel : s'.sel = s.sel
  log : s'.log = s.log
  player : ∀ o', o' ≠ o → s'.player o' = s.player o'
  pnone : s'.player o = none ↔ s.player o = none
  delayed : ∀ o', o' ≠ o → s'.delayed o' = s.delayed o'
  own : (d.obj o).kind.isMedia = true → OwnQ d o (s.delayed o) → OwnQ d o (s'.delayed o)

namespace Quiet
variable {d : Doc} {rank : Oid → Nat} {o : Oid}

theorem refl (s : St) : Quiet d o s s :=
  ⟨rfl, rfl, rfl, rfl, rfl, rfl, fun _ _ => rfl, Iff.rfl, fun _ _ => rfl, fun _ h => h⟩

theorem trans {s t u : St} (h : Quiet d o s t) (h' : Quiet d o t u) : Quiet d o s u :=
  ⟨h'.est.trans h.est, h'.time.trans h.time, h'.awake.trans h.awake, h'.status.trans h.status,
   h'.sel.trans h.sel, h'.log.trans h.log, fun o' ho => (h'.player o' ho).trans (h.player o' ho),
   h'.pnone.trans h.pnone, fun o' ho => (h'.delayed o' ho).trans (h.delayed o' ho),
   fun hk hq => h'.own hk (h.own hk hq)⟩

theorem steps {s s' : St} (h : Quiet d o s s') : Steps d rank s s' := by
  have hd : s'.delayed = upd s.delayed o (s'.delayed o) := upd_eq h.delayed
  have hp : s'.player = upd s.player o (s'.player o) := upd_eq h.player
  let s1 : St := { s with par := s'.par, props := s'.props, focus := s'.focus, nextFocus := s'.nextFocus }
  have a1 : Atom d rank s s1 := .misc _ _ _ _
  cases hpl : s.player o with
  | none =>
    have hp' : s'.player = s.player := by
      rw [hp, h.pnone.2 hpl]; funext x; by_cases hx : x = o
      · subst hx; simp [hpl]
      · simp [hx]
    have a2 : Atom d rank s1 (s1.setDelayed o (s'.delayed o)) := .queue _ _ h.own
    have he : s' = s1.setDelayed o (s'.delayed o) :=
      St.ext h.est rfl h.time hd rfl hp' h.awake h.status h.sel rfl rfl h.log
    rw [he]; exact .tail (.one a1) a2
  | some p =>
    cases hpl' : s'.player o with
    | none => rw [h.pnone.1 hpl'] at hpl; cases hpl
    | some p' =>
      have a2 : Atom d rank s1 (s1.setPlayer o (some p')) := .player _ p _ hpl
      have a3 : Atom d rank (s1.setPlayer o (some p'))
          ((s1.setPlayer o (some p')).setDelayed o (s'.delayed o)) := .queue _ _ h.own
      have he : s' = (s1.setPlayer o (some p')).setDelayed o (s'.delayed o) :=
        St.ext h.est rfl h.time hd rfl (hpl' ▸ hp) h.awake h.status h.sel rfl rfl h.log
      rw [he]; exact .tail (.tail (.one a1) a2) a3

theorem addLog {s s' : St} (h : Quiet d o s s') (e t b) :
    Quiet d o (s.addLog e t b) (s'.addLog e t b) :=
  ⟨h.est, h.time, h.awake, h.status, h.sel, by simp [h.log], h.player, h.pnone, h.delayed, h.own⟩

theorem parSt (s : St) (e : Eid) (n v : String) : Quiet d o s (setParSt e n v s) :=
  ⟨rfl, rfl, rfl, rfl, rfl, rfl, fun _ _ => rfl, Iff.rfl, fun _ _ => rfl, fun _ h => h⟩

theorem delayedSt (s : St) (q) (h : (d.obj o).kind.isMedia = true → OwnQ d o (s.delayed o) → OwnQ d o q) :
    Quiet d o s (s.setDelayed o q) :=
  ⟨rfl, rfl, rfl, rfl, rfl, rfl, fun _ _ => rfl, Iff.rfl, fun o' ho => by simp [ho],
   fun hk hq => by simpa using h hk hq⟩

theorem addDelayedSt (s : St) (e t v dl) (h : (d.obj o).kind.isMedia = true → OwnAct d o e t) :
    Quiet d o s (Ginga.addDelayedSt o e t v dl s) := by
  apply delayedSt
  intro hk hq p hp
  simp at hp
  rcases hp with hp | rfl
  · exact hq _ hp
  · exact h hk

theorem playerSt (s : St) (p p') (h : s.player o = some p) :
    Quiet d o s (s.setPlayer o (some p')) :=
  ⟨rfl, rfl, rfl, rfl, rfl, rfl, fun o' ho => by simp [ho], by simp [h], fun _ _ => rfl, fun _ h => h⟩

theorem propsSt (s : St) (props focus nf) :
    Quiet d o s { s with props := props, focus := focus, nextFocus := nf } :=
  ⟨rfl, rfl, rfl, rfl, rfl, rfl, fun _ _ => rfl, Iff.rfl, fun _ _ => rfl, fun _ h => h⟩

end Quiet

section
variable {d : Doc} {rank : Oid → Nat} {U : Prop}

theorem wp_parseTimeM (v : String) (Q : Nat → St → Prop) (s : St) :
    wp True U (parseTimeM d v) Q s = (∀ t, d.env.parseTime v = some t → Q t s) := by
  unfold parseTimeM
  cases d.env.parseTime v <;> simp

theorem wp_playerSetProp {o name value} {s : St} {p} (hp : s.player o = some p) :
    wp True U (playerSetProp d o name value)
      (fun _ s' => ∃ p', s' = s.setPlayer o (some p')) s := by
  unfold wp playerSetProp
  simp only [hp]
  split
  · next h =>
    split at h
    · cases h
    · split at h
      · split at h
        · cases h
        · cases h; exact ⟨_, rfl⟩
      · split at h
        · cases h; exact ⟨_, rfl⟩
        · cases h; exact ⟨_, rfl⟩
  · trivial
  · next h =>
    split at h
    · cases h
    · split at h
      · split at h <;> cases h
      · split at h <;> cases h
  · trivial

theorem wp_playerSetProps {o} (l : List (String × String)) :
    ∀ {s : St} {p}, s.player o = some p →
    wp True U (playerSetProps d o l)
      (fun _ s' => ∃ p', s' = s.setPlayer o (some p')) s := by
  induction l with
  | nil =>
    intro s p hp
    simp only [playerSetProps, wp_pure]
    exact ⟨p, (setPlayer_self _ _ _ hp).symm⟩
  | cons a t ih =>
    intro s p hp
    obtain ⟨k, v⟩ := a
    simp only [playerSetProps, wp_bind]
    refine wp_mono (wp_playerSetProp hp) ?_
    rintro _ s1 ⟨p1, rfl⟩
    refine wp_mono (ih (s := s.setPlayer o (some p1)) (p := p1) (by simp)) ?_
    rintro _ s2 ⟨p2, rfl⟩
    exact ⟨p2, by simp⟩

theorem wp_objSetProp {o name value dur} {s : St} {Q : Unit → St → Prop}
    (h : dur ≠ NONE → Q () (s.setProps o (mset name value (s.props o)))) :
    wp True U (objSetProp o name value dur) Q s := by
  unfold objSetProp
  simp only [wp_bind, wp_assert]
  split
  · next hd => simp at hd; simpa using h hd
  · trivial

/-- `setProperty` on a media without player. -/
theorem wp_mediaSetProp_none {o name value dur} {s : St} (hp : s.player o = none) :
    wp True U (mediaSetProp d o name value dur)
      (fun _ s' => ∃ props focus, s' = { s with props := props, focus := focus }) s := by
  unfold mediaSetProp
  simp only [wp_bind]
  split
  · simp only [wp_bind, wp_modify]
    apply wp_objSetProp
    intro _
    simp [St.setProps, hp]
  · simp only [wp_bind, wp_pure]
    apply wp_objSetProp
    intro _
    simp [St.setProps, hp]

theorem wp_mediaSetProp {o name value dur} {s : St}
    (hU : compoundProp name = true → dur > 0 → U) :
    wp True U (mediaSetProp d o name value dur) (fun _ s' => Quiet d o s s') s := by
  unfold mediaSetProp
  simp only [wp_bind]
  have key : ∀ s1 : St, Quiet d o s s1 →
      wp True U (objSetProp o name value dur) (fun _ s' => wp True U M.get (fun a s' =>
        wp True U
          (match a.player o with
          | none => pure ()
          | some val => if dur > 0 then (if compoundProp name = true then M.ub else pure ())
            else playerSetProp d o name value) (fun _ s' => Quiet d o s s') s') s') s1 := by
    intro s1 q1
    apply wp_objSetProp
    intro _
    simp only [wp_get]
    have q2 : Quiet d o s (s1.setProps o (mset name value (s1.props o))) :=
      q1.trans (Quiet.propsSt (d := d) (o := o) s1 _ s1.focus s1.nextFocus)
    cases hp : (s1.setProps o (mset name value (s1.props o))).player o with
    | none => simpa using q2
    | some p =>
      simp only [wp_ite]
      split
      · next hd =>
        split
        · next hc => simpa using hU hc hd
        · simpa using q2
      · refine wp_mono (wp_playerSetProp hp) ?_
        rintro _ s3 ⟨p', rfl⟩
        exact q2.trans (Quiet.playerSt _ p _ hp)
  split
  · simp only [wp_bind, wp_modify]
    exact key _ (Quiet.propsSt (d := d) (o := o) s s.props value s.nextFocus)
  · simp only [wp_bind, wp_pure]
    exact key _ (Quiet.refl s)

theorem wp_attribStart {o e} {s : St} (he : (d.ev e).obj = o)
    (hU : (d.obj o).kind.isMedia = true → compoundProp (d.ev e).id = true → U) :
    wp True U (attribStart d o e) (fun _ s' => Quiet d o s s') s := by
  unfold attribStart
  simp only [wp_bind, wp_get]
  have key : ∀ dur value, wp True U
      (if (d.obj o).kind.isMedia = true then do
        mediaSetProp d o (d.ev e).id value dur
        addDelayed o e .stop value dur
      else do
        objSetProp o (d.ev e).id value dur
        addDelayed o e .stop value dur) (fun _ s' => Quiet d o s s') s := by
    intro dur value
    simp only [wp_ite, wp_bind, wp_addDelayed]
    split
    · next hk =>
      refine wp_mono (wp_mediaSetProp (d := d) (fun hc _ => hU hk hc)) ?_
      intro _ s1 q1
      exact q1.trans (Quiet.addDelayedSt _ _ _ _ _ (fun _ => ⟨he, by simp⟩))
    · apply wp_objSetProp
      intro _
      refine Quiet.trans (Quiet.propsSt (d := d) (o := o) s _ s.focus s.nextFocus)
        (Quiet.addDelayedSt _ _ _ _ _ (fun _ => ⟨he, by simp⟩))
  split
  · simp only [wp_pure]; exact key _ _
  · simp only [wp_parseTimeM]; intro t _; exact key _ _

theorem queuePortsSt_eq (o : Oid) (ps : List Eid) (s : St) :
    ∃ q, queuePortsSt d o ps s = s.setDelayed o q := by
  induction ps generalizing s with
  | nil => exact ⟨s.delayed o, (setDelayed_self s o).symm⟩
  | cons p ps ih =>
    simp only [queuePortsSt]
    split
    · obtain ⟨q, hq⟩ := ih (addDelayedSt o p .start "" 0 s)
      refine ⟨q, ?_⟩
      rw [hq]; simp [addDelayedSt]
    · exact ih s

theorem queueAnchorsSt_eq (o : Oid) (es : List Eid) (s : St) (hes : ∀ e ∈ es, (d.ev e).obj = o) :
    ∃ q, queueAnchorsSt d o es s = s.setDelayed o q ∧ (OwnQ d o (s.delayed o) → OwnQ d o q) := by
  induction es generalizing s with
  | nil => exact ⟨s.delayed o, (setDelayed_self s o).symm, id⟩
  | cons e es ih =>
    simp only [queueAnchorsSt]
    have hes' : ∀ e ∈ es, (d.ev e).obj = o := fun x hx => hes x (by simp [hx])
    split
    · obtain ⟨q, hq, ho⟩ := ih (addDelayedSt o e .stop "" (d.ev e).end_
        (addDelayedSt o e .start "" (d.ev e).begin_ s)) hes'
      refine ⟨q, ?_, ?_⟩
      · rw [hq]; simp [addDelayedSt]
      · intro h0; apply ho
        intro p hp
        simp [addDelayedSt] at hp
        have he : (d.ev e).obj = o := hes e (by simp)
        next hseg =>
        rcases hp with hp | rfl | rfl
        · exact h0 _ hp
        · exact ⟨he, fun _ => ⟨hseg.2.1, by simpa using hseg.1, hseg.2.2⟩⟩
        · exact ⟨he, by simp⟩
    · exact ih s hes'

end

section
variable {d : Doc} {rank : Oid → Nat} {U : Prop} (h : WF d rank) {r : Rec}
include h

/-- `Good` only depends on the medias, the players and the selections. -/
theorem Good.congr {s s' : St} (hg : Good d rank s)
    (he : ∀ e, (d.obj (d.ev e).obj).kind.isMedia = true → s'.est e = s.est e)
    (hp : s'.player = s.player) (hs : s'.sel = s.sel)
    (hq : ∀ o, (d.obj o).kind.isMedia = true → s'.delayed o = s.delayed o) : Good d rank s' := by
  refine ⟨?_, ?_, ?_, ?_⟩
  · intro o ho; rw [he _ (by rw [h.lam_obj]; exact ho), hp]; exact hg.player o ho
  · intro e ho ht; rw [he _ ho, he _ (by rw [h.lam_obj]; exact ho)]; exact hg.anchor e ho ht
  · intro o ho; rw [hq o ho]; exact hg.queue o ho
  · intro o c; rw [hs]; exact hg.sel o c

/-- `Good` before the ancestors of a context are started. -/
theorem Good.ctxPre {s : St} (hg : Good d rank s) {o : Oid} (hk : (d.obj o).kind = .context)
    (x : EState) (pr) :
    Good d rank { doStartSt d o (s.setEst (d.lam o) x) with par := pr } := by
  refine Good.congr h hg ?_ (by simp) (by simp) (by simp)
  intro e he
  have : e ≠ d.lam o := by rintro rfl; rw [h.lam_obj, hk] at he; cases he
  simp [this]

/-- After `startParent`: the parent context is not sleeping. -/
theorem wp_startParent (hr : RecSpec d rank U r) {o : Oid} {s : St} (hg : Good d rank s) :
    wp True U (startParent d r o) (fun _ s' =>
      (s' = s ∧ (∀ p, d.ctxParent o = some p → s.est (d.lam p) ≠ .sleeping)) ∨
      (∃ p pr, d.ctxParent o = some p ∧ s.est (d.lam p) = .sleeping ∧
        Chain d p { s with par := pr } s')) s := by
  unfold startParent
  split
  · next hp => simp [hp]
  · next p hp =>
    simp only [wp_bind, wp_get, wp_ite]
    split
    · next hsl =>
      simp [isSleeping] at hsl
      simp only [wp_bind, wp_setPar, wp_pure]
      have hg' : Good d rank (setParSt (d.lam p) "fromport" "true" s) :=
        Good.congr h hg (fun _ _ => rfl) rfl rfl (fun _ _ => rfl)
      refine wp_mono (hr.trans _ _ _ hg') ?_
      intro b s' hpost
      right
      have hb : b = true := hpost.must rfl (h.lam_typ p)
        (by rw [h.lam_obj, h.ctxParent_kind hp]; simp) (by simp [setParSt, hsl])
      have hc := hpost.chain hb rfl (h.lam_is p) (by rw [h.lam_obj]; exact h.ctxParent_kind hp)
      rw [h.lam_obj] at hc
      exact ⟨p, _, hp, hsl, hc⟩
    · next hsl =>
      simp [isSleeping] at hsl
      rw [wp_pure]
      left; refine ⟨rfl, ?_⟩
      intro q hq; rw [hp] at hq; cases hq; exact hsl

end
end Ginga
