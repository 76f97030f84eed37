import Verif.Proofs.Wp
/-!
# Well-formed documents, atomic steps and the basic invariants

Every engine call is shown (in `Verif.Proofs.Trans`) to be a sequence of the atomic steps
`Atom` below; invariants of the presentation are then proved once per atomic step.
-/
set_option linter.unusedSectionVars false
set_option linter.unusedSimpArgs false
namespace Ginga

/-- Well-formed documents.  Object and event ids are total: ids that name nothing in the
document stand for isolated objects with a single (lambda) event.  `rank` is the depth in
the tree of compositions. -/
structure WF (d : Doc) (rank : Oid → Nat) : Prop where
  /-- `_lambda` is the whole-content event of the object -/
  lam_is : ∀ o, (d.ev (d.obj o).lambda).isLambda = true
  lam_obj : ∀ o, (d.ev (d.obj o).lambda).obj = o
  /-- an object has one whole-content event -/
  lam_uniq : ∀ e, (d.ev e).isLambda = true → e = (d.obj (d.ev e).obj).lambda
  /-- `_events` holds exactly the events of the object -/
  mem_events : ∀ o e, e ∈ (d.obj o).events ↔ (d.ev e).obj = o
  /-- children and parents agree -/
  mem_children : ∀ p c, c ∈ (d.obj p).children ↔ (d.obj c).parent = some p
  children_nodup : ∀ p, (d.obj p).children.Nodup
  parent_comp : ∀ c p, (d.obj c).parent = some p →
    (d.obj p).kind = .context ∨ (d.obj p).kind = .switch
  /-- compositions form a forest -/
  rank_lt : ∀ c p, (d.obj c).parent = some p → rank p < rank c
  /-- the alternatives that a switch can start are its children -/
  rules_child : ∀ o c pr, (c, pr) ∈ (d.obj o).rules → (d.obj c).parent = some o ∨
    ∀ sp ∈ (d.obj o).switchPorts, ∀ e ∈ sp.2, (d.ev e).obj ≠ c
  objs_nodup : d.objs.Nodup
  root_kind : (d.obj d.root).kind = .context
  root_parent : (d.obj d.root).parent = none
  settings_kind : (d.obj d.settings).kind = .settings
  settings_parent : (d.obj d.settings).parent = some d.root
  /-- `_events` is a set -/
  events_nodup : ∀ o, (d.obj o).events.Nodup

/-- An alternative of a switch that is among the candidates is a child of the switch. -/
theorem WF.cand_child {d : Doc} {rank : Oid → Nat} (h : WF d rank) {o c : Oid} {pr : Pred} {e se : Eid} {cands : List Eid}
    (hr : (c, pr) ∈ (d.obj o).rules) (hc : switchCands d o e = some cands) (hs : se ∈ cands) (ho : (d.ev se).obj = c) :
    (d.obj c).parent = some o := by
  unfold switchCands at hc
  split at hc
  · cases hc
    obtain ⟨c', h1, rfl⟩ := List.mem_map.1 hs
    rw [h.lam_obj] at ho
    rw [← ho]; exact (h.mem_children _ _).1 h1
  · obtain ⟨sp, h1, rfl⟩ := Option.map_eq_some_iff.1 hc
    rcases h.rules_child o c pr hr with h2 | h2
    · exact h2
    · exact absurd ho (h2 sp (List.mem_of_find?_eq_some h1) se hs)

theorem lastOf_mem {d : Doc} {c : Oid} {l : List Eid} {se : Eid} (h : lastOf d c l = some se) :
    se ∈ l ∧ (d.ev se).obj = c := by
  induction l generalizing se with
  | nil => cases h
  | cons e es ih =>
    simp only [lastOf] at h
    cases hl : lastOf d c es with
    | none =>
      rw [hl] at h
      simp only at h
      split at h
      · next hc => cases h; exact ⟨by simp, hc⟩
      · cases h
    | some m =>
      rw [hl] at h
      simp only at h
      split at h
      · next hc => cases h; exact ⟨by simp, hc.1⟩
      · cases h; exact ⟨by simp [(ih hl).1], (ih hl).2⟩

/-- Well-formed for some depth function. -/
def DocWF (d : Doc) : Prop := ∃ rank, WF d rank

/-- The whole-content (lambda) event of an object. -/
abbrev Doc.lam (d : Doc) (o : Oid) : Eid := (d.obj o).lambda

/-- Ghost history extension. -/
def St.addLog (s : St) (e : Eid) (t : Trans) (b : EState) : St :=
  { s with log := ⟨e, t, b⟩ :: s.log }

/-- An action that may wait in the queue of media `o`: it concerns an event of `o`, and if it is a
START then the event is an unlabelled anchor. -/
structure OwnAct (d : Doc) (o : Oid) (e : Eid) (t : Trans) : Prop where
  obj : (d.ev e).obj = o
  seg : t = .start → (d.ev e).typ = .presentation ∧ (d.ev e).isLambda = false ∧ (d.ev e).label = ""

/-- A queue whose actions all concern events of `o`. -/
def OwnQ (d : Doc) (o : Oid) (q : List (Act × Nat)) : Prop := ∀ p ∈ q, OwnAct d o p.1.ev p.1.tr

/-- Start of a context, together with the start of its sleeping ancestors. -/
inductive Chain (d : Doc) : Oid → St → St → Prop where
  | top {o s q pr} : (d.obj o).kind = .context → s.est (d.lam o) ≠ .occurring →
      (∀ p, d.ctxParent o = some p →
        (doStartSt d o (s.setEst (d.lam o) .occurring)).est (d.lam p) ≠ .sleeping) →
      Chain d o s
        ({ (doStartSt d o (s.setEst (d.lam o) .occurring)).setDelayed o q with par := pr }.addLog
          (d.lam o) .start (s.est (d.lam o)))
  | up {o p s s2 q pr pr'} : (d.obj o).kind = .context → s.est (d.lam o) ≠ .occurring →
      d.ctxParent o = some p →
      (doStartSt d o (s.setEst (d.lam o) .occurring)).est (d.lam p) = .sleeping →
      Chain d p { (doStartSt d o (s.setEst (d.lam o) .occurring)) with par := pr } s2 →
      Chain d o s
        ({ s2.setDelayed o q with par := pr' }.addLog (d.lam o) .start (s.est (d.lam o)))

/-- Atomic steps. -/
inductive Atom (d : Doc) (rank : Oid → Nat) : St → St → Prop where
  /-- parameters, properties and focus -/
  | misc {s} (par props focus nextFocus) :
      Atom d rank s { s with par := par, props := props, focus := focus, nextFocus := nextFocus }
  /-- pending actions -/
  | queue {s} (o q) : ((d.obj o).kind.isMedia = true → OwnQ d o (s.delayed o) → OwnQ d o q) →
      Atom d rank s (s.setDelayed o q)
  /-- an existing player changes -/
  | player {s} (o p p') : s.player o = some p → Atom d rank s (s.setPlayer o (some p'))
  /-- the alternative selected by a switch -/
  | sel {s} (o c) : (∀ c', c = some c' → (d.obj c').parent = some o) → Atom d rank s (s.setSel o c)
  | mediaStart {s} (o p) : (d.obj o).kind.isMedia = true → s.est (d.lam o) = .sleeping →
      (∀ q, d.ctxParent o = some q → s.est (d.lam q) ≠ .sleeping) →
      Atom d rank s ((doStartSt d o ((s.setPlayer o (some p)).setEst (d.lam o) .occurring)).addLog
        (d.lam o) .start .sleeping)
  | mediaRestart {s} (o) : (d.obj o).kind.isMedia = true → s.est (d.lam o) = .paused →
      Atom d rank s ((doStartSt d o (s.setEst (d.lam o) .occurring)).addLog
        (d.lam o) .start .paused)
  | mediaStop {s} (o t) : (d.obj o).kind.isMedia = true → s.est (d.lam o) ≠ .sleeping →
      (t = .stop ∨ t = .abort) →
      Atom d rank s ((doStopSt d o (s.setPlayer o none)).addLog (d.lam o) t (s.est (d.lam o)))
  | mediaSet {s} (o t b x p) : (d.obj o).kind.isMedia = true → s.est (d.lam o) ≠ .sleeping →
      (t = .pause ∨ t = .resume) → nextState b t = some x →
      Atom d rank s (((s.setPlayer o (some p)).setEst (d.lam o) x).addLog (d.lam o) t b)
  /-- a proper anchor of a media -/
  | anchor {s} (e t b x) : (d.obj (d.ev e).obj).kind.isMedia = true →
      (d.ev e).isLambda = false → (d.ev e).typ = .presentation →
      nextState b t = some x →
      (x ≠ .sleeping → s.est (d.lam (d.ev e).obj) ≠ .sleeping) →
      Atom d rank s ((s.setEst e x).addLog e t b)
  /-- attribution, selection, look-at -/
  | other {s} (e t b x) : (d.ev e).typ ≠ .presentation → nextState b t = some x →
      Atom d rank s ((s.setEst e x).addLog e t b)
  | ctxStart {s s'} (o) : Chain d o s s' → Atom d rank s s'
  | ctxStop {s} (o t) : (d.obj o).kind = .context → s.est (d.lam o) ≠ .sleeping →
      (t = .stop ∨ t = .abort) → (∀ c ∈ (d.obj o).children, s.est (d.lam c) = .sleeping) →
      Atom d rank s ((doStopSt d o s).addLog (d.lam o) t (s.est (d.lam o)))
  | ctxSet {s} (o t b x) : (d.obj o).kind = .context → (t = .pause ∨ t = .resume) →
      nextState b t = some x →
      (s.est (d.lam o) ≠ .sleeping ∨ ∃ c ∈ (d.obj o).children, s.est (d.lam c) ≠ .sleeping) →
      Atom d rank s ((s.setEst (d.lam o) x).addLog (d.lam o) t b)
  | swStart {s} (e b) : (d.obj (d.ev e).obj).kind = .switch → (d.ev e).typ = .presentation →
      b ≠ .occurring →
      Atom d rank s ((doStartSt d (d.ev e).obj (s.setEst e .occurring)).addLog e .start b)
  | swStop {s} (e t b) : (d.obj (d.ev e).obj).kind = .switch → (d.ev e).typ = .presentation →
      (t = .stop ∨ t = .abort) → b ≠ .sleeping →
      Atom d rank s ((doStopSt d (d.ev e).obj s).addLog e t b)
  | swSet {s} (e t b x) : (d.obj (d.ev e).obj).kind = .switch → (d.ev e).typ = .presentation →
      (t = .pause ∨ t = .resume) → nextState b t = some x →
      Atom d rank s ((s.setEst e x).addLog e t b)

/-- Sequences of atomic steps. -/
inductive Steps (d : Doc) (rank : Oid → Nat) : St → St → Prop where
  | refl {s} : Steps d rank s s
  | tail {s t u} : Steps d rank s t → Atom d rank t u → Steps d rank s u

namespace Steps
variable {d : Doc} {rank : Oid → Nat}
theorem one {s t} (h : Atom d rank s t) : Steps d rank s t := .tail .refl h
theorem trans {s t u} (h : Steps d rank s t) (h' : Steps d rank t u) : Steps d rank s u := by
  induction h' with
  | refl => exact h
  | tail _ ha ih => exact .tail ih ha
theorem head {s t u} (h : Atom d rank s t) (h' : Steps d rank t u) : Steps d rank s u :=
  (one h).trans h'
end Steps

/-- Invariant of an induction: what each atomic step preserves, every sequence preserves. -/
theorem Steps.inv {d : Doc} {rank : Oid → Nat} {P : St → Prop}
    (hP : ∀ s t, Atom d rank s t → P s → P t) {s t : St} (h : Steps d rank s t) (hs : P s) :
    P t := by
  induction h with
  | refl => exact hs
  | tail _ ha ih => exact hP _ _ ha ih

/-! ## The basic invariants -/

/-- A media has a player exactly while its lambda is not sleeping. -/
def PlayerInv (d : Doc) (s : St) : Prop :=
  ∀ o, (d.obj o).kind.isMedia = true → (s.est (d.lam o) = .sleeping ↔ s.player o = none)

/-- The anchors of a sleeping media are sleeping. -/
def AnchorInv (d : Doc) (s : St) : Prop :=
  ∀ e, (d.obj (d.ev e).obj).kind.isMedia = true → (d.ev e).typ = .presentation →
    s.est (d.lam (d.ev e).obj) = .sleeping → s.est e = .sleeping

/-- The pending actions of a media concern its own events. -/
def QueueInv (d : Doc) (s : St) : Prop :=
  ∀ o, (d.obj o).kind.isMedia = true → OwnQ d o (s.delayed o)

/-- A switch selects among its children. -/
def SelInv (d : Doc) (s : St) : Prop := ∀ o c, s.sel o = some c → (d.obj c).parent = some o

structure Good (d : Doc) (rank : Oid → Nat) (s : St) : Prop where
  player : PlayerInv d s
  anchor : AnchorInv d s
  queue : QueueInv d s
  sel : SelInv d s

/-! ## Field lemmas -/

section fields
variable (d : Doc) (o : Oid) (k : Int) (s : St)

@[simp] theorem bumpSt_est : (bumpSt d o k s).est = s.est := by unfold bumpSt; split <;> rfl
@[simp] theorem bumpSt_player : (bumpSt d o k s).player = s.player := by
  unfold bumpSt; split <;> rfl
@[simp] theorem bumpSt_delayed : (bumpSt d o k s).delayed = s.delayed := by
  unfold bumpSt; split <;> rfl
@[simp] theorem bumpSt_sel : (bumpSt d o k s).sel = s.sel := by unfold bumpSt; split <;> rfl
@[simp] theorem bumpSt_time : (bumpSt d o k s).time = s.time := by unfold bumpSt; split <;> rfl
@[simp] theorem bumpSt_log : (bumpSt d o k s).log = s.log := by unfold bumpSt; split <;> rfl
@[simp] theorem bumpSt_props : (bumpSt d o k s).props = s.props := by unfold bumpSt; split <;> rfl
@[simp] theorem bumpSt_par : (bumpSt d o k s).par = s.par := by unfold bumpSt; split <;> rfl
@[simp] theorem bumpSt_focus : (bumpSt d o k s).focus = s.focus := by unfold bumpSt; split <;> rfl
@[simp] theorem bumpSt_nextFocus : (bumpSt d o k s).nextFocus = s.nextFocus := by
  unfold bumpSt; split <;> rfl
@[simp] theorem bumpSt_status : (bumpSt d o k s).status = s.status := by
  unfold bumpSt; split <;> rfl

@[simp] theorem doStartSt_est : (doStartSt d o s).est = s.est := by
  unfold doStartSt; dsimp only; split <;> simp [St.setTime]
@[simp] theorem doStartSt_player : (doStartSt d o s).player = s.player := by
  unfold doStartSt; dsimp only; split <;> simp [St.setTime]
@[simp] theorem doStartSt_delayed : (doStartSt d o s).delayed = s.delayed := by
  unfold doStartSt; dsimp only; split <;> simp [St.setTime]
@[simp] theorem doStartSt_sel : (doStartSt d o s).sel = s.sel := by
  unfold doStartSt; dsimp only; split <;> simp [St.setTime]
@[simp] theorem doStartSt_time : (doStartSt d o s).time = upd s.time o 0 := by
  unfold doStartSt; dsimp only; split <;> simp [St.setTime]
@[simp] theorem doStartSt_log : (doStartSt d o s).log = s.log := by
  unfold doStartSt; dsimp only; split <;> simp [St.setTime]
@[simp] theorem doStartSt_props : (doStartSt d o s).props = s.props := by
  unfold doStartSt; dsimp only; split <;> simp [St.setTime]
@[simp] theorem doStartSt_par : (doStartSt d o s).par = s.par := by
  unfold doStartSt; dsimp only; split <;> simp [St.setTime]
@[simp] theorem doStartSt_focus : (doStartSt d o s).focus = s.focus := by
  unfold doStartSt; dsimp only; split <;> simp [St.setTime]
@[simp] theorem doStartSt_status : (doStartSt d o s).status = s.status := by
  unfold doStartSt; dsimp only; split <;> simp [St.setTime]
theorem doStartSt_awake : (doStartSt d o s).awake = (bumpSt d o 1 s).awake := by
  unfold doStartSt
  have : (bumpSt d o 1 (s.setTime o 0)).awake = (bumpSt d o 1 s).awake := by
    unfold bumpSt; split <;> rfl
  dsimp only; split <;> simp [this]

@[simp] theorem doStopSt_est : (doStopSt d o s).est = resetEvents (d.obj o).events s.est := by
  simp [doStopSt]
@[simp] theorem doStopSt_player : (doStopSt d o s).player = s.player := by simp [doStopSt]
@[simp] theorem doStopSt_delayed : (doStopSt d o s).delayed = upd s.delayed o [] := by
  simp [doStopSt]
@[simp] theorem doStopSt_sel : (doStopSt d o s).sel = s.sel := by simp [doStopSt]
@[simp] theorem doStopSt_time : (doStopSt d o s).time = upd s.time o NONE := by simp [doStopSt]
@[simp] theorem doStopSt_log : (doStopSt d o s).log = s.log := by simp [doStopSt]
@[simp] theorem doStopSt_props : (doStopSt d o s).props = s.props := by simp [doStopSt]
@[simp] theorem doStopSt_par : (doStopSt d o s).par = s.par := by simp [doStopSt]
@[simp] theorem doStopSt_focus : (doStopSt d o s).focus = s.focus := by simp [doStopSt]
@[simp] theorem doStopSt_nextFocus : (doStopSt d o s).nextFocus = s.nextFocus := by simp [doStopSt]
@[simp] theorem doStopSt_status : (doStopSt d o s).status = s.status := by simp [doStopSt]
theorem doStopSt_awake : (doStopSt d o s).awake = (bumpSt d o (-1) s).awake := by
  unfold doStopSt bumpSt; split <;> rfl

end fields

@[simp] theorem setEst_est (s : St) (e x) : (s.setEst e x).est = upd s.est e x := rfl
@[simp] theorem setEst_player (s : St) (e x) : (s.setEst e x).player = s.player := rfl
@[simp] theorem setEst_delayed (s : St) (e x) : (s.setEst e x).delayed = s.delayed := rfl
@[simp] theorem setEst_sel (s : St) (e x) : (s.setEst e x).sel = s.sel := rfl
@[simp] theorem setEst_time (s : St) (e x) : (s.setEst e x).time = s.time := rfl
@[simp] theorem setEst_log (s : St) (e x) : (s.setEst e x).log = s.log := rfl
@[simp] theorem setEst_par (s : St) (e x) : (s.setEst e x).par = s.par := rfl
@[simp] theorem setEst_props (s : St) (e x) : (s.setEst e x).props = s.props := rfl
@[simp] theorem setEst_status (s : St) (e x) : (s.setEst e x).status = s.status := rfl
@[simp] theorem setEst_focus (s : St) (e x) : (s.setEst e x).focus = s.focus := rfl
@[simp] theorem setEst_awake (s : St) (e x) : (s.setEst e x).awake = s.awake := rfl
@[simp] theorem setPlayer_est (s : St) (o p) : (s.setPlayer o p).est = s.est := rfl
@[simp] theorem setPlayer_player (s : St) (o p) : (s.setPlayer o p).player = upd s.player o p := rfl
@[simp] theorem setPlayer_delayed (s : St) (o p) : (s.setPlayer o p).delayed = s.delayed := rfl
@[simp] theorem setPlayer_sel (s : St) (o p) : (s.setPlayer o p).sel = s.sel := rfl
@[simp] theorem setPlayer_time (s : St) (o p) : (s.setPlayer o p).time = s.time := rfl
@[simp] theorem setPlayer_log (s : St) (o p) : (s.setPlayer o p).log = s.log := rfl
@[simp] theorem setPlayer_par (s : St) (o p) : (s.setPlayer o p).par = s.par := rfl
@[simp] theorem setPlayer_props (s : St) (o p) : (s.setPlayer o p).props = s.props := rfl
@[simp] theorem setPlayer_status (s : St) (o p) : (s.setPlayer o p).status = s.status := rfl
@[simp] theorem setPlayer_awake (s : St) (o p) : (s.setPlayer o p).awake = s.awake := rfl
@[simp] theorem setPlayer_focus (s : St) (o p) : (s.setPlayer o p).focus = s.focus := rfl
@[simp] theorem setDelayed_est (s : St) (o q) : (s.setDelayed o q).est = s.est := rfl
@[simp] theorem setDelayed_player (s : St) (o q) : (s.setDelayed o q).player = s.player := rfl
@[simp] theorem setDelayed_delayed (s : St) (o q) :
    (s.setDelayed o q).delayed = upd s.delayed o q := rfl
@[simp] theorem setDelayed_sel (s : St) (o q) : (s.setDelayed o q).sel = s.sel := rfl
@[simp] theorem setDelayed_time (s : St) (o q) : (s.setDelayed o q).time = s.time := rfl
@[simp] theorem setDelayed_log (s : St) (o q) : (s.setDelayed o q).log = s.log := rfl
@[simp] theorem setDelayed_par (s : St) (o q) : (s.setDelayed o q).par = s.par := rfl
@[simp] theorem setDelayed_props (s : St) (o q) : (s.setDelayed o q).props = s.props := rfl
@[simp] theorem setDelayed_status (s : St) (o q) : (s.setDelayed o q).status = s.status := rfl
@[simp] theorem setDelayed_awake (s : St) (o q) : (s.setDelayed o q).awake = s.awake := rfl
@[simp] theorem setDelayed_focus (s : St) (o q) : (s.setDelayed o q).focus = s.focus := rfl
@[simp] theorem setSel_est (s : St) (o c) : (s.setSel o c).est = s.est := rfl
@[simp] theorem setSel_player (s : St) (o c) : (s.setSel o c).player = s.player := rfl
@[simp] theorem setSel_delayed (s : St) (o c) : (s.setSel o c).delayed = s.delayed := rfl
@[simp] theorem setSel_sel (s : St) (o c) : (s.setSel o c).sel = upd s.sel o c := rfl
@[simp] theorem setSel_time (s : St) (o c) : (s.setSel o c).time = s.time := rfl
@[simp] theorem setSel_log (s : St) (o c) : (s.setSel o c).log = s.log := rfl
@[simp] theorem setSel_awake (s : St) (o c) : (s.setSel o c).awake = s.awake := rfl
@[simp] theorem setSel_status (s : St) (o c) : (s.setSel o c).status = s.status := rfl
@[simp] theorem setTime_est (s : St) (o t) : (s.setTime o t).est = s.est := rfl
@[simp] theorem setTime_player (s : St) (o t) : (s.setTime o t).player = s.player := rfl
@[simp] theorem setTime_delayed (s : St) (o t) : (s.setTime o t).delayed = s.delayed := rfl
@[simp] theorem setTime_sel (s : St) (o t) : (s.setTime o t).sel = s.sel := rfl
@[simp] theorem setTime_time (s : St) (o t) : (s.setTime o t).time = upd s.time o t := rfl
@[simp] theorem setTime_log (s : St) (o t) : (s.setTime o t).log = s.log := rfl
@[simp] theorem setTime_awake (s : St) (o t) : (s.setTime o t).awake = s.awake := rfl
@[simp] theorem setTime_status (s : St) (o t) : (s.setTime o t).status = s.status := rfl
@[simp] theorem setTime_props (s : St) (o t) : (s.setTime o t).props = s.props := rfl
@[simp] theorem setTime_par (s : St) (o t) : (s.setTime o t).par = s.par := rfl
@[simp] theorem addLog_est (s : St) (e t b) : (s.addLog e t b).est = s.est := rfl
@[simp] theorem addLog_player (s : St) (e t b) : (s.addLog e t b).player = s.player := rfl
@[simp] theorem addLog_delayed (s : St) (e t b) : (s.addLog e t b).delayed = s.delayed := rfl
@[simp] theorem addLog_sel (s : St) (e t b) : (s.addLog e t b).sel = s.sel := rfl
@[simp] theorem addLog_time (s : St) (e t b) : (s.addLog e t b).time = s.time := rfl
@[simp] theorem addLog_awake (s : St) (e t b) : (s.addLog e t b).awake = s.awake := rfl
@[simp] theorem addLog_status (s : St) (e t b) : (s.addLog e t b).status = s.status := rfl
@[simp] theorem addLog_props (s : St) (e t b) : (s.addLog e t b).props = s.props := rfl
@[simp] theorem addLog_par (s : St) (e t b) : (s.addLog e t b).par = s.par := rfl
@[simp] theorem addLog_log (s : St) (e t b) : (s.addLog e t b).log = ⟨e, t, b⟩ :: s.log := rfl

theorem resetEvents_apply (es : List Eid) (f : Eid → EState) (e : Eid) :
    resetEvents es f e = if e ∈ es then .sleeping else f e := rfl

section wf
variable {d : Doc} {rank : Oid → Nat} (h : WF d rank)
include h

theorem WF.reset_apply (o : Oid) (f : Eid → EState) (e : Eid) :
    resetEvents (d.obj o).events f e = if (d.ev e).obj = o then .sleeping else f e := by
  simp only [resetEvents_apply, h.mem_events]

theorem WF.lam_inj {o o' : Oid} (he : d.lam o = d.lam o') : o = o' := by
  rw [← h.lam_obj o, ← h.lam_obj o']; exact congrArg (fun e => (d.ev e).obj) he

theorem WF.lam_typ (o : Oid) : (d.ev (d.lam o)).typ = .presentation := by
  have := h.lam_is o; simp [EvDecl.isLambda] at this; exact this.1

theorem WF.ctxParent_rank {o p : Oid} (hp : d.ctxParent o = some p) : rank p < rank o := by
  unfold Doc.ctxParent at hp
  split at hp
  · split at hp
    · cases hp; exact h.rank_lt _ _ (by assumption)
    · cases hp
  · cases hp

theorem WF.ctxParent_kind {o p : Oid} (hp : d.ctxParent o = some p) :
    (d.obj p).kind = .context := by
  unfold Doc.ctxParent at hp
  split at hp
  · split at hp
    · cases hp; assumption
    · cases hp
  · cases hp

theorem WF.ctxParent_iff {o p : Oid} : d.ctxParent o = some p ↔
    (d.obj o).parent = some p ∧ (d.obj p).kind = .context := by
  unfold Doc.ctxParent
  split
  · split
    · next h1 h2 => rw [h1]; simp; intro hp; subst hp; exact h2
    · next h1 h2 => rw [h1]; simp; intro hp; subst hp; exact h2
  · next h1 => rw [h1]; simp

/-! ### The basic invariants are preserved -/

/-- A chain of context starts changes no media. -/
theorem Chain.est {o : Oid} {s s' : St} (hc : Chain d o s s') :
    ∀ e, s'.est e = s.est e ∨ (s'.est e = .occurring ∧ ∃ o', e = d.lam o' ∧ (d.obj o').kind = .context) := by
  induction hc with
  | @top o s q pr hk hs hp =>
    intro e
    by_cases he : e = d.lam o
    · right; subst he; simp; exact ⟨o, rfl, hk⟩
    · left; simp [he]
  | @up o p s s2 q pr pr' hk hs hp hsl hc ih =>
    intro e
    rcases ih e with h1 | h1
    · by_cases he : e = d.lam o
      · right; subst he; simp at h1 ⊢; exact ⟨h1, o, rfl, hk⟩
      · left; simp [he] at h1 ⊢; exact h1
    · right; simpa using h1

theorem Chain.frame {o : Oid} {s s' : St} (hc : Chain d o s s') :
    s'.player = s.player ∧ s'.sel = s.sel ∧ s'.status = s.status ∧
    (∀ o', (d.obj o').kind ≠ .context → s'.delayed o' = s.delayed o') ∧
    (∀ o', (d.obj o').kind ≠ .context → s'.time o' = s.time o') := by
  induction hc with
  | @top o s q pr hk hs hp =>
    refine ⟨by simp, by simp, by simp, ?_, ?_⟩
    · intro o' ho; have : o' ≠ o := by rintro rfl; exact ho hk
      simp [this]
    · intro o' ho; have : o' ≠ o := by rintro rfl; exact ho hk
      simp [this]
  | @up o p s s2 q pr pr' hk hs hp hsl hc ih =>
    obtain ⟨h1, h2, h3, h4, h5⟩ := ih
    refine ⟨by simpa using h1, by simpa using h2, by simpa using h3, ?_, ?_⟩
    · intro o' ho; have : o' ≠ o := by rintro rfl; exact ho hk
      simpa [this] using h4 o' ho
    · intro o' ho; have : o' ≠ o := by rintro rfl; exact ho hk
      simpa [this] using h5 o' ho

omit h in
theorem isMedia_ne_ctx {k : Kind} (hk : k.isMedia = true) : k ≠ .context := by
  rintro rfl; cases hk

theorem Chain.mono {o : Oid} {s s' : St} (hc : Chain d o s s') (e : Eid)
    (he : s.est e ≠ .sleeping) : s'.est e ≠ .sleeping := by
  rcases Chain.est h hc e with h1 | h1
  · rw [h1]; exact he
  · rw [h1.1]; simp

theorem Chain.self {o : Oid} {s s' : St} (hc : Chain d o s s') : s'.est (d.lam o) = .occurring := by
  cases hc with
  | top => simp
  | up hk hs hp hsl hc =>
    rcases Chain.est h hc (d.lam o) with h1 | h1
    · simp at h1 ⊢; exact h1
    · simpa using h1.1

/-- Events of medias (all of them) are untouched by a chain. -/
theorem Chain.media {o : Oid} {s s' : St} (hc : Chain d o s s') (e : Eid)
    (hk : (d.obj (d.ev e).obj).kind ≠ .context) : s'.est e = s.est e := by
  rcases Chain.est h hc e with h1 | ⟨h1, o', rfl, hk'⟩
  · exact h1
  · rw [h.lam_obj] at hk; exact absurd hk' hk

end wf
end Ginga
