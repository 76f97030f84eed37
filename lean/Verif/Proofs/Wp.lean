import Verif.Model.Formatter
/-!
# Weakest preconditions for the state-and-outcome monad

`wp A U m Q s`: running `m` in `s` either returns normally with result and state satisfying
`Q`, or runs out of fuel, or aborts (only if `A` allows it) or has undefined behaviour
(only if `U` allows it).
-/
namespace Ginga

def wp {α : Type} (A U : Prop) (m : M α) (Q : α → St → Prop) (s : St) : Prop :=
  match m s with
  | .ok (a, s') => Q a s'
  | .abort => A
  | .ub => U
  | .fuel => True

variable {α β : Type} {A U : Prop}

@[simp] theorem wp_pure (a : α) (Q : α → St → Prop) (s : St) :
    wp A U (pure a : M α) Q s = Q a s := rfl
@[simp] theorem wp_mpure (a : α) (Q : α → St → Prop) (s : St) :
    wp A U (M.pure a : M α) Q s = Q a s := rfl

@[simp] theorem wp_bind (m : M α) (f : α → M β) (Q : β → St → Prop) (s : St) :
    wp A U (m >>= f) Q s = wp A U m (fun a s' => wp A U (f a) Q s') s := by
  show wp A U (M.bind m f) Q s = _
  unfold wp M.bind
  cases m s with
  | ok p => rfl
  | abort => rfl
  | ub => rfl
  | fuel => rfl

@[simp] theorem wp_get (Q : St → St → Prop) (s : St) : wp A U M.get Q s = Q s s := rfl
@[simp] theorem wp_modify (f : St → St) (Q : Unit → St → Prop) (s : St) :
    wp A U (M.modify f) Q s = Q () (f s) := rfl
@[simp] theorem wp_abort (Q : α → St → Prop) (s : St) : wp A U (M.abort : M α) Q s = A := rfl
@[simp] theorem wp_ub (Q : α → St → Prop) (s : St) : wp A U (M.ub : M α) Q s = U := rfl
@[simp] theorem wp_fuel (Q : α → St → Prop) (s : St) : wp A U (M.fuel : M α) Q s = True := rfl
@[simp] theorem wp_assert (b : Bool) (Q : Unit → St → Prop) (s : St) :
    wp A U (M.assert b) Q s = if b then Q () s else A := by
  unfold M.assert; cases b <;> rfl

theorem wp_lift (f : St → Res α) (Q : α → St → Prop) (s : St) :
    wp A U (M.lift f) Q s =
      (match f s with | .ok a => Q a s | .abort => A | .ub => U | .fuel => True) := by
  unfold wp M.lift
  cases f s <;> rfl

theorem wp_ite (c : Prop) [Decidable c] (m n : M α) (Q : α → St → Prop) (s : St) :
    wp A U (if c then m else n) Q s = if c then wp A U m Q s else wp A U n Q s := by
  split <;> rfl

theorem wp_mono {m : M α} {Q R : α → St → Prop} {s : St}
    (h : wp A U m Q s) (hqr : ∀ a s', Q a s' → R a s') : wp A U m R s := by
  unfold wp at *
  cases hm : m s with
  | ok p => simp only [hm] at h ⊢; exact hqr _ _ h
  | abort => simpa [hm] using h
  | ub => simpa [hm] using h
  | fuel => trivial

/-- A call whose outcome is known. -/
theorem wp_of_ok {m : M α} {a : α} {s s' : St} {Q : α → St → Prop}
    (h : m s = .ok (a, s')) : wp A U m Q s = Q a s' := by
  unfold wp; rw [h]

theorem wp_ok {m : M α} {a : α} {s s' : St} {Q : α → St → Prop}
    (h : wp A U m Q s) (hm : m s = .ok (a, s')) : Q a s' := by
  unfold wp at h; rw [hm] at h; exact h

theorem wp_not_ub {m : M α} {s : St} {Q : α → St → Prop}
    (h : wp A False m Q s) : m s ≠ .ub := by
  intro hm; unfold wp at h; rw [hm] at h; exact h

theorem wp_not_abort {m : M α} {s : St} {Q : α → St → Prop}
    (h : wp False U m Q s) : m s ≠ .abort := by
  intro hm; unfold wp at h; rw [hm] at h; exact h

theorem wp_intro {m : M α} {s : St} {Q : α → St → Prop}
    (h : ∀ a s', m s = .ok (a, s') → Q a s') (ha : m s = .abort → A) (hu : m s = .ub → U) :
    wp A U m Q s := by
  unfold wp
  cases hm : m s with
  | ok p => exact h _ _ hm
  | abort => exact ha hm
  | ub => exact hu hm
  | fuel => trivial

/-! ## Closed forms of calls that always succeed -/

/-- Effect of `bumpParent`. -/
def bumpSt (d : Doc) (o : Oid) (k : Int) (s : St) : St :=
  match d.ctxParent o with
  | some p => { s with awake := upd s.awake p (s.awake p + k) }
  | none => s

/-- Effect of `Object::doStart`. -/
def doStartSt (d : Doc) (o : Oid) (s : St) : St :=
  let s1 := bumpSt d o 1 (s.setTime o 0)
  if s1.getProp o "focusIndex" ≠ "" then { s1 with nextFocus := some "" } else s1

/-- Effect of `Object::doStop`. -/
def doStopSt (d : Doc) (o : Oid) (s : St) : St :=
  bumpSt d o (-1) { s with
    time := upd s.time o NONE,
    est := resetEvents (d.obj o).events s.est,
    delayed := upd s.delayed o [] }

def addDelayedSt (o : Oid) (e : Eid) (t : Trans) (value : String) (delay : Nat) (s : St) : St :=
  s.setDelayed o (s.delayed o ++ [({ ev := e, tr := t, value := value }, tadd (s.time o) delay)])

def setParSt (e : Eid) (name value : String) (s : St) : St :=
  { s with par := upd s.par e (upd (s.par e) name (some value)) }

/-- Effect of queueing the presentation ports. -/
def queuePortsSt (d : Doc) (o : Oid) : List Eid → St → St
  | [], s => s
  | p :: ps, s =>
    queuePortsSt d o ps (if (d.ev p).typ = .presentation then addDelayedSt o p .start "" 0 s else s)

/-- Effect of queueing the anchors. -/
def queueAnchorsSt (d : Doc) (o : Oid) : List Eid → St → St
  | [], s => s
  | e :: es, s =>
    queueAnchorsSt d o es
      (if !(d.ev e).isLambda ∧ (d.ev e).typ = .presentation ∧ (d.ev e).label = "" then
        addDelayedSt o e .stop "" (d.ev e).end_ (addDelayedSt o e .start "" (d.ev e).begin_ s)
      else s)

@[simp] theorem wp_bumpParent (d : Doc) (o : Oid) (k : Int) (Q : Unit → St → Prop) (s : St) :
    wp A U (bumpParent d o k) Q s = Q () (bumpSt d o k s) := rfl
@[simp] theorem wp_setEst (e : Eid) (x : EState) (Q : Unit → St → Prop) (s : St) :
    wp A U (setEst e x) Q s = Q () (s.setEst e x) := rfl
@[simp] theorem wp_setPar (e : Eid) (n v : String) (Q : Unit → St → Prop) (s : St) :
    wp A U (setPar e n v) Q s = Q () (setParSt e n v s) := rfl
@[simp] theorem wp_addDelayed (o : Oid) (e : Eid) (t : Trans) (v : String) (dl : Nat)
    (Q : Unit → St → Prop) (s : St) :
    wp A U (addDelayed o e t v dl) Q s = Q () (addDelayedSt o e t v dl s) := rfl
@[simp] theorem wp_scheduleFocus (x : String) (Q : Unit → St → Prop) (s : St) :
    wp A U (scheduleFocus x) Q s = Q () { s with nextFocus := some x } := rfl

@[simp] theorem wp_doStart (d : Doc) (o : Oid) (Q : Unit → St → Prop) (s : St) :
    wp A U (doStart d o) Q s = Q () (doStartSt d o s) := by
  unfold doStart doStartSt
  simp only [wp_bind, wp_modify, wp_bumpParent, wp_get, wp_ite, wp_scheduleFocus, wp_pure]
  split <;> rfl

@[simp] theorem wp_doStop (d : Doc) (o : Oid) (Q : Unit → St → Prop) (s : St) :
    wp A U (doStop d o) Q s = Q () (doStopSt d o s) := rfl

@[simp] theorem wp_queuePorts (d : Doc) (o : Oid) (ps : List Eid) (Q : Unit → St → Prop) (s : St) :
    wp A U (queuePorts d o ps) Q s = Q () (queuePortsSt d o ps s) := by
  induction ps generalizing s with
  | nil => rfl
  | cons p ps ih =>
    simp only [queuePorts, queuePortsSt]
    split <;> simp [ih]

@[simp] theorem wp_queueAnchors (d : Doc) (o : Oid) (es : List Eid) (Q : Unit → St → Prop)
    (s : St) : wp A U (queueAnchors d o es) Q s = Q () (queueAnchorsSt d o es s) := by
  induction es generalizing s with
  | nil => rfl
  | cons e es ih =>
    simp only [queueAnchors, queueAnchorsSt]
    split <;> simp [ih]

end Ginga
