import Verif.Model.Types
/-!
# The presentation engine

Function by function model of lib/Event.cpp, Object.cpp, Context.cpp, Switch.cpp, Media.cpp,
MediaSettings.cpp, Document.cpp (evaluation part) and the parts of Player.cpp they call.

The C++ functions call each other recursively (`Event::transition` →
`Object::beforeTransition` → `Event::transition` / `Document::evalAction` → …).  Each
function takes the record `Rec` of the recursive entry points; `run n` ties the knot with a
bound `n` on the depth of the recursion.
-/
namespace Ginga

/-- The recursive entry points: `Event::transition`, `Document::evalAction` and the
`while` loop of `Document::evalAction` on a given stack and counter. -/
structure Rec where
  trans : Eid → Trans → M Bool
  evalA : Act → M Nat
  loop : List Act → Nat → M Nat

/-! ## Field updates -/

def St.setTime (s : St) (o : Oid) (t : Nat) : St := { s with time := upd s.time o t }
def St.setDelayed (s : St) (o : Oid) (q : List (Act × Nat)) : St :=
  { s with delayed := upd s.delayed o q }
def St.setProps (s : St) (o : Oid) (l : List (String × String)) : St :=
  { s with props := upd s.props o l }
def St.setPlayer (s : St) (o : Oid) (p : Option PlayerSt) : St :=
  { s with player := upd s.player o p }
def St.setSel (s : St) (o : Oid) (c : Option Oid) : St := { s with sel := upd s.sel o c }
def St.setEst (s : St) (e : Eid) (x : EState) : St := { s with est := upd s.est e x }

/-! ## Lookups -/

/-- `Object::getProperty` (lib/Object.cpp:330-337). -/
def St.getProp (s : St) (o : Oid) (name : String) : String := (mget name (s.props o)).getD ""

/-- `Object::isOccurring` (lib/Object.cpp:309-314). -/
def isOccurring (d : Doc) (s : St) (o : Oid) : Bool := s.est (d.obj o).lambda = .occurring
/-- `Object::isSleeping` (lib/Object.cpp:323-328). -/
def isSleeping (d : Doc) (s : St) (o : Oid) : Bool := s.est (d.obj o).lambda = .sleeping

/-- `Object::hasAlias` (lib/Object.cpp:177-184). -/
def ObjDecl.hasAlias (od : ObjDecl) (a : String) : Bool := od.aliases.any (fun p => p.1 == a)

/-- `Document::getObjectByIdOrAlias` (lib/Document.cpp:97-121).  `_objectsById` maps each
id to its object; ids are unique (see `Verif.Model.Registry`), so it is modelled by a search
in `_objects`. -/
def Doc.byIdOrAlias (d : Doc) (id : String) : Option Oid :=
  match d.objs.find? (fun o => (d.obj o).id == id) with
  | some o => some o
  | none => d.objs.find? (fun o => (d.obj o).hasAlias id)

/-- `Object::getEvent` (lib/Object.cpp:200-207). -/
def Doc.getEvent (d : Doc) (o : Oid) (t : EType) (id : String) : Option Eid :=
  (d.obj o).events.find? (fun e => (d.ev e).typ == t && (d.ev e).id == id)

/-- Splits at the first occurrence of `c`: `string::find` + two `substr`. -/
def splitFirst (c : Char) : List Char → Option (List Char × List Char)
  | [] => none
  | x :: xs => if x = c then some ([], xs) else
      match splitFirst c xs with
      | none => none
      | some (a, b) => some (x :: a, b)

/-- Decomposition of a property reference `$id.name` (lib/Document.cpp:548-552). -/
def parseRef (ref : String) : Option (String × String) :=
  match ref.toList with
  | '$' :: rest =>
    match splitFirst '.' rest with
    | none => none
    | some (a, b) => some (String.ofList a, String.ofList b)
  | _ => none

/-- `Document::evalPropertyRef` (lib/Document.cpp:540-559): `none` is the result `false`. -/
def evalRef (d : Doc) (s : St) (ref : String) : Option String :=
  match parseRef ref with
  | none => none
  | some (id, name) =>
    match d.byIdOrAlias id with
    | none => none
    | some o => some (s.getProp o name)

/-- A string that is replaced by its value if it is a reference (the idiom of
lib/Document.cpp:277-280, lib/Media.cpp:419,424). -/
def deref (d : Doc) (s : St) (v : String) : String := (evalRef d s v).getD v

/-- An operand of a comparison is dereferenced only if it begins with `$`
(lib/Document.cpp:448-468). -/
def operand (d : Doc) (s : St) (v : String) : String :=
  if v.toList.head? = some '$' then deref d s v else v

/-- The comparison of lib/Document.cpp:470-498 (`std::string` relational operators). -/
def evalTest (t : Test) (l r : String) : Bool :=
  match t with
  | .eq => decide (l = r)
  | .ne => decide (l ≠ r)
  | .lt => decide (l < r)
  | .le => !decide (r < l)
  | .gt => decide (r < l)
  | .ge => !decide (l < r)

mutual
/-- `Document::evalPredicate` (lib/Document.cpp:426-538).  `NEGATION` is
`g_assert_not_reached ()` (503-505). -/
def evalPred (d : Doc) (s : St) : Pred → Res Bool
  | .falsum => .ok false
  | .verum => .ok true
  | .atom l t r => .ok (evalTest t (operand d s l) (operand d s r))
  | .neg _ => .abort
  | .conj cs => evalConj d s cs
  | .disj cs => evalDisj d s cs
/-- The loop of `CONJUNCTION` (lib/Document.cpp:506-518). -/
def evalConj (d : Doc) (s : St) : List Pred → Res Bool
  | [] => .ok true
  | p :: ps => (evalPred d s p).bind fun b => if b then evalConj d s ps else .ok false
/-- The loop of `DISJUNCTION` (lib/Document.cpp:520-532). -/
def evalDisj (d : Doc) (s : St) : List Pred → Res Bool
  | [] => .ok false
  | p :: ps => (evalPred d s p).bind fun b => if b then .ok true else evalDisj d s ps
end

/-- `ginga::parse_time` (lib/aux-ginga.cpp:232-243): an invalid string ends the process. -/
def parseTimeM (d : Doc) (v : String) : M Nat :=
  match d.env.parseTime v with
  | some t => M.pure t
  | none => M.abort

/-! ## Elementary state changes -/

def setEst (e : Eid) (x : EState) : M Unit := M.modify fun s => s.setEst e x

/-- `Event::setParameter` (lib/Event.cpp:173-177). -/
def setPar (e : Eid) (name value : String) : M Unit :=
  M.modify fun s => { s with par := upd s.par e (upd (s.par e) name (some value)) }

/-- `Object::addDelayedAction` (lib/Object.cpp:352-362). -/
def addDelayed (o : Oid) (e : Eid) (t : Trans) (value : String) (delay : Nat) : M Unit :=
  M.modify fun s => s.setDelayed o
    (s.delayed o ++ [({ ev := e, tr := t, value := value }, tadd (s.time o) delay)])

/-- `MediaSettings::scheduleFocusUpdate` (lib/MediaSettings.cpp:118-123). -/
def scheduleFocus (next : String) : M Unit := M.modify fun s => { s with nextFocus := some next }

/-- Whether `_parent` is a `Context`, and which. -/
def Doc.ctxParent (d : Doc) (o : Oid) : Option Oid :=
  match (d.obj o).parent with
  | some p => if (d.obj p).kind = .context then some p else none
  | none => none

/-- `incAwakeChildren` / `decAwakeChildren` of the parent context, if any
(lib/Object.cpp:416-417,431-432; lib/Context.cpp:368-378). -/
def bumpParent (d : Doc) (o : Oid) (k : Int) : M Unit :=
  M.modify fun s =>
    match d.ctxParent o with
    | some p => { s with awake := upd s.awake p (s.awake p + k) }
    | none => s

/-- `Object::doStart` (lib/Object.cpp:412-422). -/
def doStart (d : Doc) (o : Oid) : M Unit := do
  M.modify fun s => s.setTime o 0
  bumpParent d o 1
  let s ← M.get
  if s.getProp o "focusIndex" ≠ "" then scheduleFocus "" else pure ()

/-- `evt->reset ()` for all events of the object (lib/Object.cpp:428-429). -/
def resetEvents (evs : List Eid) (est : Eid → EState) : Eid → EState :=
  fun e => if e ∈ evs then .sleeping else est e

/-- `Object::doStop` (lib/Object.cpp:424-433). -/
def doStop (d : Doc) (o : Oid) : M Unit := do
  M.modify fun s => { s with
    time := upd s.time o NONE,
    est := resetEvents (d.obj o).events s.est,
    delayed := upd s.delayed o [] }
  bumpParent d o (-1)

/-! ## Player -/

/-- `PROP_DURATION` (lib/Player.cpp:783-790, default "indefinite" 113, alias
`explicitDur` 158). -/
def playerDur (d : Doc) (value : String) : Option Nat :=
  if value = "" ∨ value = "indefinite" then some NONE else d.env.parseTime value

/-- `Player::setProperty` on the player of media `o` (lib/Player.cpp:291-330).
Simplification: only the effects on the engine are kept (duration, focus index, the
property table and the fatal "bad value"); geometry is in `Verif.Model.PlayerProps`, where
`bounds`, `location` and `size` are decomposed. A missing player is a null dereference. -/
def playerSetProp (d : Doc) (o : Oid) (name value : String) : M Unit := fun s =>
  match s.player o with
  | none => .ub
  | some p =>
    if d.env.badProp name value then .abort
    else
      let p1 := { p with props := mset name value p.props }
      if name = "duration" ∨ name = "explicitDur" then
        match playerDur d value with
        | none => .abort
        | some t => .ok ((), s.setPlayer o (some { p1 with dur := t }))
      else if name = "focusIndex" then
        .ok ((), s.setPlayer o (some { p1 with focusIndex := value }))
      else .ok ((), s.setPlayer o (some p1))

/-- `for (auto it : _properties) _player->setProperty (it.first, it.second)`
(lib/Media.cpp:197-198). -/
def playerSetProps (d : Doc) (o : Oid) : List (String × String) → M Unit
  | [] => pure ()
  | (k, v) :: t => do playerSetProp d o k v; playerSetProps d o t

/-- `Player::isFocused` (lib/Player.cpp:209-213). -/
def playerFocused (s : St) (p : PlayerSt) : Bool := p.focusIndex ≠ "" ∧ p.focusIndex = s.focus

/-- `Player::getProperty` (lib/Player.cpp:285-289). -/
def PlayerSt.getProp (p : PlayerSt) (name : String) : String := (mget name p.props).getD ""

/-- The properties whose animation dereferences the end of a list
(lib/PlayerAnimator.cpp:58-89: `auto pos = list_pos.end (); … *pos++`). -/
def compoundProp (name : String) : Bool := name = "bounds" ∨ name = "location" ∨ name = "size"

/-! ## setProperty -/

/-- `Object::setProperty` (lib/Object.cpp:339-344), also `Context::setProperty`
(lib/Context.cpp:135-139). -/
def objSetProp (o : Oid) (name value : String) (dur : Nat) : M Unit := do
  M.assert (dur ≠ NONE)
  M.modify fun s => s.setProps o (mset name value (s.props o))

/-- `Media::setProperty` and `MediaSettings::setProperty` (lib/Media.cpp:62-76,
lib/MediaSettings.cpp:47-54).  Scheduling an animation (dur > 0) has no effect on the
engine except for the undefined behaviour on compound properties. -/
def mediaSetProp (d : Doc) (o : Oid) (name value : String) (dur : Nat) : M Unit := do
  if (d.obj o).kind = .settings ∧ name = "service.currentFocus" then
    M.modify fun s => { s with focus := value }
  else pure ()
  objSetProp o name value dur
  let s ← M.get
  match s.player o with
  | none => pure ()
  | some _ =>
    if dur > 0 then (if compoundProp name then M.ub else pure ())
    else playerSetProp d o name value

/-! ## Context -/

/-- Propagation of a transition to the lambda events of the children
(lib/Context.cpp:182-216): the result of each transition is ignored. -/
def transAll (d : Doc) (r : Rec) (t : Trans) : List Oid → M Unit
  | [] => pure ()
  | c :: cs => do let _ ← r.trans (d.obj c).lambda t; transAll d r t cs

/-- `Context::beforeTransition` (lib/Context.cpp:170-233). -/
def ctxBefore (d : Doc) (r : Rec) (o : Oid) (e : Eid) (t : Trans) : M Bool :=
  match (d.ev e).typ with
  | .presentation => do
    M.assert (d.ev e).isLambda
    match t with
    | .start => pure true
    | t => do transAll d r t (d.obj o).children; pure true
  | .attribution => pure true
  | .selection => pure false
  | .lookat => M.abort

/-- Started because a child is being started: `fromport` is set on the parent's lambda and
the parent is started (lib/Context.cpp:249-253, lib/Media.cpp:178-182). -/
def startParent (d : Doc) (r : Rec) (o : Oid) : M Unit :=
  match d.ctxParent o with
  | none => pure ()
  | some p => do
    let s ← M.get
    if isSleeping d s p then do
      setPar (d.obj p).lambda "fromport" "true"
      let _ ← r.trans (d.obj p).lambda .start
      pure ()
    else pure ()

/-- `addDelayedAction (port, START, "", 0)` for the presentation ports
(lib/Context.cpp:259-263). -/
def queuePorts (d : Doc) (o : Oid) : List Eid → M Unit
  | [] => pure ()
  | p :: ps => do
    if (d.ev p).typ = .presentation then addDelayed o p .start "" 0 else pure ()
    queuePorts d o ps

/-- The START case of an attribution event, common to contexts and medias
(lib/Context.cpp:294-316, lib/Media.cpp:406-434). -/
def attribStart (d : Doc) (o : Oid) (e : Eid) : M Unit := do
  let s ← M.get
  let value := deref d s ((s.par e "value").getD "")
  let dur ← (match s.par e "duration" with
    | none => pure 0
    | some v => parseTimeM d (deref d s v))
  if (d.obj o).kind.isMedia then mediaSetProp d o (d.ev e).id value dur
  else objSetProp o (d.ev e).id value dur
  addDelayed o e .stop value dur

/-- `Context::afterTransition` (lib/Context.cpp:235-337). -/
def ctxAfter (d : Doc) (r : Rec) (o : Oid) (e : Eid) (t : Trans) : M Bool :=
  match (d.ev e).typ with
  | .presentation => do
    M.assert (d.ev e).isLambda
    match t with
    | .start => do
      doStart d o
      startParent d r o
      let s ← M.get
      if (s.par e "fromport").getD "" ≠ "" then pure true
      else do
        queuePorts d o (d.obj o).ports
        setPar e "fromport" ""
        pure true
    | .pause => pure true
    | .resume => pure true
    | .stop => do doStop d o; pure true
    | .abort => do doStop d o; pure true
  | .attribution =>
    match t with
    | .start => do attribStart d o e; pure true
    | .stop => pure true
    | _ => M.abort
  | .selection => M.abort
  | .lookat => M.abort

/-! ## Switch -/

/-- The candidate events of a transition on the switch (lib/Switch.cpp:70-86): the lambdas
of the children, or the events mapped by the switchPort (an assertion fails if there is no
such switchPort). -/
def switchCands (d : Doc) (o : Oid) (e : Eid) : Option (List Eid) :=
  if (d.ev e).isLambda then some ((d.obj o).children.map fun c => (d.obj c).lambda)
  else ((d.obj o).switchPorts.find? (fun p => p.1 == (d.ev e).id)).map (·.2)

/-- The last candidate, in the (address) order of `set<Event *>`, that belongs to `obj`
(lib/Switch.cpp:112-117). -/
def lastOf (d : Doc) (obj : Oid) : List Eid → Option Eid
  | [] => none
  | e :: es =>
    match lastOf d obj es with
    | none => if (d.ev e).obj = obj then some e else none
    | some m => if (d.ev e).obj = obj ∧ m < e then some e else some m

/-- The rule loop of START (lib/Switch.cpp:98-136). -/
def switchRules (d : Doc) (r : Rec) (o : Oid) (cands : List Eid) : List (Oid × Pred) → M Bool
  | [] => pure false
  | (obj, pred) :: rest =>
    match lastOf d obj cands with
    | none => switchRules d r o cands rest
    | some se => do
      if (← M.lift fun s => evalPred d s pred) then
        if (← r.trans se .start) then do
          M.modify fun s => s.setSel o (some obj)
          pure true
        else pure false
      else switchRules d r o cands rest

/-- `Switch::beforeTransition` (lib/Switch.cpp:67-163). -/
def switchBefore (d : Doc) (r : Rec) (o : Oid) (e : Eid) (t : Trans) : M Bool :=
  match switchCands d o e with
  | none => M.abort
  | some cands =>
    match (d.ev e).typ with
    | .presentation => do
      let s ← M.get
      match t with
      | .start => do
        M.assert (s.sel o).isNone
        switchRules d r o cands (d.obj o).rules
      | t =>
        match s.sel o with
        | none => pure true
        | some c => do
          let _ ← r.trans (d.obj c).lambda t
          M.modify fun s => s.setSel o none
          pure true
    | _ => M.abort

/-- `Switch::afterTransition` (lib/Switch.cpp:165-212). -/
def switchAfter (d : Doc) (r : Rec) (o : Oid) (e : Eid) (t : Trans) : M Bool :=
  match (d.ev e).typ with
  | .presentation =>
    match t with
    | .start => do
      doStart d o
      let s ← M.get
      if (s.sel o).isNone then do
        let _ ← r.evalA { ev := e, tr := .stop }
        pure true
      else pure true
    | .pause => pure true
    | .resume => pure true
    | .stop => do doStop d o; pure true
    | .abort => do doStop d o; pure true
  | _ => M.abort

/-! ## Media -/

/-- Creation and start of the player (lib/Media.cpp:186-204, lib/Player.cpp:548-624,
251-261). `_properties["uri"]` inserts the key if absent. -/
def createPlayer (d : Doc) (o : Oid) : M Unit := do
  let s0 ← M.get
  M.assert (s0.player o).isNone
  M.modify fun s => s.setProps o
    (mset "type" (s.getProp o "type") (mset "uri" (s.getProp o "uri") (s.props o)))
  match d.env.createPlayer (s0.getProp o "uri") (s0.getProp o "type") with
  | none => M.abort
  | some mime => do
    mediaSetProp d o "type" mime 0
    M.modify fun s => s.setPlayer o (some {})
    let s1 ← M.get
    playerSetProps d o (s1.props o)
    M.modify fun s => s.setPlayer o
      ((s.player o).map fun p => { p with st := .occurring, time := 0, eos := false })

/-- The filtering of `_delayed` when a media is started through an anchor
(lib/Media.cpp:245-266).  The argument is the queue still to be visited; visited entries
that stay are put back with their time shifted by `begin`. -/
def anchorFilter (r : Rec) (bgn end_ : Nat) : List (Act × Nat) → M (List (Act × Nat))
  | [] => pure []
  | (a, t) :: rest =>
    if t = NONE ∨ t < bgn ∨ (end_ ≠ NONE ∧ t > end_) then do
      if a.tr = .start ∧ t < bgn then do
        let _ ← r.trans a.ev .start
        anchorFilter r bgn end_ rest
      else anchorFilter r bgn end_ rest
    else do
      let rest' ← anchorFilter r bgn end_ rest
      pure ((a, t - bgn) :: rest')

/-- START of an anchor while its media is sleeping (lib/Media.cpp:205-267).
Simplifications: `time` and `duration` are passed to the player as whole seconds
(`xstrbuild ("%lu", t / SECOND)`); the transitions made while filtering the queue do not
touch the queue of the media (the lambda is not sleeping any more), so the filtered queue
replaces the old one at the end. -/
def anchorStart (d : Doc) (r : Rec) (o : Oid) (e : Eid) : M Unit := do
  let _ ← r.trans (d.obj o).lambda .start
  let bgn := if (d.ev e).begin_ = NONE then 0 else (d.ev e).begin_
  let end_ := (d.ev e).end_
  playerSetProp d o "time" (toString (bgn / SECOND))
  if end_ ≠ NONE then do
    playerSetProp d o "duration" (toString (tsub end_ bgn / SECOND))
    addDelayed o e .stop "" end_
  else pure ()
  let s ← M.get
  let q ← anchorFilter r bgn end_ (s.delayed o)
  M.modify fun s => s.setDelayed o q

/-- Pause or resume all anchors (lib/Media.cpp:278-281). -/
def evalAnchors (d : Doc) (r : Rec) (t : Trans) : List Eid → M Unit
  | [] => pure ()
  | e :: es => do
    if !(d.ev e).isLambda ∧ (d.ev e).typ = .presentation then do
      let _ ← r.evalA { ev := e, tr := t }
      evalAnchors d r t es
    else evalAnchors d r t es

/-- `Player::pause` / `Player::resume` (lib/Player.cpp:271-283) after
`g_assert_nonnull (_player)` (lib/Media.cpp:284-288). -/
def playerPause (o : Oid) (resume : Bool) : M Unit := fun s =>
  match s.player o with
  | none => .abort
  | some p =>
    if resume then
      if p.st = .paused then
        .ok ((), s.setPlayer o (some { p with st := .occurring }))
      else .abort
    else if p.st = .occurring then
      .ok ((), s.setPlayer o (some { p with st := .paused }))
    else .abort

/-- `Media::beforeTransition` (lib/Media.cpp:168-316). -/
def mediaBefore (d : Doc) (r : Rec) (o : Oid) (e : Eid) (t : Trans) : M Bool :=
  match (d.ev e).typ with
  | .presentation =>
    match t with
    | .start => do
      startParent d r o
      let s ← M.get
      if s.est e = .sleeping then
        if (d.ev e).isLambda then do createPlayer d o; pure true
        else if s.est (d.obj o).lambda ≠ .sleeping then pure true
        else do anchorStart d r o e; pure true
      else pure true
    | .pause =>
      if (d.ev e).isLambda then do
        evalAnchors d r .pause (d.obj o).events
        playerPause o false
        pure true
      else pure true
    | .resume =>
      if (d.ev e).isLambda then do
        evalAnchors d r .resume (d.obj o).events
        playerPause o true
        pure true
      else pure true
    | .stop => pure true
    | .abort => pure true
  | _ => pure true

/-- Queue START and STOP of the unlabelled anchors (lib/Media.cpp:333-345). -/
def queueAnchors (d : Doc) (o : Oid) : List Eid → M Unit
  | [] => pure ()
  | e :: es => do
    if !(d.ev e).isLambda ∧ (d.ev e).typ = .presentation ∧ (d.ev e).label = "" then do
      addDelayed o e .start "" (d.ev e).begin_
      addDelayed o e .stop "" (d.ev e).end_
      queueAnchors d o es
    else queueAnchors d o es

/-- `Media::doStop` (lib/Media.cpp:514-528). -/
def mediaDoStop (d : Doc) (o : Oid) : M Unit := do
  let s ← M.get
  match s.player o with
  | none => M.assert (isSleeping d s o)
  | some _ => do
    M.modify fun s => s.setPlayer o none
    doStop d o

/-- `_player->sendPresentationEvent (…)` (lib/Media.cpp:351,381): only the Lua player reacts
to it, outside the engine; a missing player is a null dereference. -/
def playerSendLabel (o : Oid) : M Unit := fun s =>
  match s.player o with
  | none => .ub
  | some _ => .ok ((), s)

/-- `Media::afterTransition` (lib/Media.cpp:318-481). -/
def mediaAfter (d : Doc) (_r : Rec) (o : Oid) (e : Eid) (t : Trans) : M Bool :=
  match (d.ev e).typ with
  | .presentation =>
    match t with
    | .start =>
      if (d.ev e).isLambda then do
        let s ← M.get
        M.assert (s.player o).isSome
        doStart d o
        queueAnchors d o (d.obj o).events
        pure true
      else if (d.ev e).label ≠ "" then do playerSendLabel o; pure true
      else pure true
    | .pause => pure true
    | .resume => pure true
    | .stop | .abort =>
      if (d.ev e).isLambda then do
        let s ← M.get
        M.assert (s.player o).isSome
        mediaDoStop d o
        pure true
      else if (d.ev e).label ≠ "" then do playerSendLabel o; pure true
      else do
        let s ← M.get
        M.assert (isOccurring d s o)
        pure true
  | .attribution =>
    match t with
    | .start => do attribStart d o e; pure true
    | .stop => pure true
    | _ => M.abort
  | .selection =>
    match t with
    | .start => pure true
    | .stop => pure true
    | _ => M.abort
  | .lookat =>
    match t with
    | .start => pure true
    | .stop => pure true
    | _ => M.abort

/-! ## Event::transition -/

/-- Virtual `beforeTransition`. -/
def before (d : Doc) (r : Rec) (e : Eid) (t : Trans) : M Bool :=
  match (d.obj (d.ev e).obj).kind with
  | .context => ctxBefore d r (d.ev e).obj e t
  | .switch => switchBefore d r (d.ev e).obj e t
  | .media => mediaBefore d r (d.ev e).obj e t
  | .settings => mediaBefore d r (d.ev e).obj e t

/-- Virtual `afterTransition`. -/
def after (d : Doc) (r : Rec) (e : Eid) (t : Trans) : M Bool :=
  match (d.obj (d.ev e).obj).kind with
  | .context => ctxAfter d r (d.ev e).obj e t
  | .switch => switchAfter d r (d.ev e).obj e t
  | .media => mediaAfter d r (d.ev e).obj e t
  | .settings => mediaAfter d r (d.ev e).obj e t

/-- The `switch (trans)` of lib/Event.cpp:189-214: target state, or `none` when the
transition is refused. -/
def nextState (curr : EState) (t : Trans) : Option EState :=
  match t with
  | .start => if curr = .occurring then none else some .occurring
  | .pause => if curr = .occurring then some .paused else none
  | .resume => if curr = .paused then some .occurring else none
  | .stop => if curr = .sleeping then none else some .sleeping
  | .abort => if curr = .sleeping then none else some .sleeping

/-- `Event::transition` (lib/Event.cpp:184-231); the last `modify` records the ghost
history. -/
def transition (d : Doc) (r : Rec) (e : Eid) (t : Trans) : M Bool := do
  let s ← M.get
  let curr := s.est e
  match nextState curr t with
  | none => pure false
  | some nx => do
    if (← before d r e t) then do
      setEst e nx
      if (← after d r e t) then do
        M.modify fun s => { s with log := ⟨e, t, curr⟩ :: s.log }
        pure true
      else do
        setEst e curr
        pure false
    else pure false

/-! ## Document::evalAction -/

/-- The action loop of lib/Document.cpp:270-298 on the reversed action list: immediate
actions are collected, delayed ones queued in the context. -/
def fireActs (d : Doc) (ctx : Oid) : List Act → M (List Act)
  | [] => pure []
  | a :: as => do
    let s ← M.get
    let delay ← parseTimeM d (deref d s a.delay)
    if delay = 0 ∨ delay = NONE then do
      let rest ← fireActs d ctx as
      pure (a :: rest)
    else do
      addDelayed ctx a.ev a.tr a.value delay
      fireActs d ctx as

/-- The condition loop (lib/Document.cpp:258-299). -/
def fireConds (d : Doc) (ctx : Oid) (act : Act) (acts : List Act) : List Act → M (List Act)
  | [] => pure []
  | c :: cs =>
    if c.ev = act.ev ∧ c.tr = act.tr then do
      let ok ← (match c.pred with
        | none => pure true
        | some p => M.lift fun s => evalPred d s p)
      if ok then do
        let xs ← fireActs d ctx acts.reverse
        let ys ← fireConds d ctx act acts cs
        pure (xs ++ ys)
      else fireConds d ctx act acts cs
    else fireConds d ctx act acts cs

/-- The link loop (lib/Document.cpp:256-300). -/
def fireLinks (d : Doc) (ctx : Oid) (act : Act) : List Link → M (List Act)
  | [] => pure []
  | l :: ls => do
    let xs ← fireConds d ctx act l.acts l.conds
    let ys ← fireLinks d ctx act ls
    pure (xs ++ ys)

/-- `Document::evalActionInContext` (lib/Document.cpp:245-302). -/
def evalInCtx (d : Doc) (act : Act) (ctx : Oid) : M (List Act) := do
  let s ← M.get
  if s.status ctx then fireLinks d ctx act (d.obj ctx).links else pure []

/-- The loop over the ports of the parent (lib/Document.cpp:364-372). -/
def firePorts (d : Doc) (act : Act) (obj gp : Oid) : List Eid → M (List Act)
  | [] => pure []
  | p :: ps =>
    if (d.ev p).obj = obj then do
      let xs ← evalInCtx d act gp
      let ys ← firePorts d act obj gp ps
      pure (xs ++ ys)
    else firePorts d act obj gp ps

/-- The loop over the events mapped by one switchPort (lib/Document.cpp:383-397). -/
def fireMapped (d : Doc) (r : Rec) (act : Act) (obj sw : Oid) (port : String) :
    List Eid → M Unit
  | [] => pure ()
  | m :: ms => do
    if (d.ev m).obj = obj ∧ (d.obj sw).parent.isSome then
      match d.getEvent sw .presentation port with
      | none => M.abort
      | some le => do
        let _ ← r.evalA { act with ev := le }
        fireMapped d r act obj sw port ms
    else fireMapped d r act obj sw port ms

/-- The loop over the switchPorts (lib/Document.cpp:381-398). -/
def fireSwitch (d : Doc) (r : Rec) (act : Act) (obj sw : Oid) :
    List (String × List Eid) → M Unit
  | [] => pure ()
  | (port, evs) :: rest => do
    fireMapped d r act obj sw port evs
    fireSwitch d r act obj sw rest

/-- The loop over the aliases (lib/Document.cpp:412-420). -/
def fireAliases (d : Doc) (act : Act) : List (String × Option Oid) → M (List Act)
  | [] => pure []
  | (_, c) :: rest =>
    match c with
    | none => fireAliases d act rest
    | some c =>
      if (d.obj c).kind = .context then do
        let xs ← evalInCtx d act c
        let ys ← fireAliases d act rest
        pure (xs ++ ys)
      else fireAliases d act rest

/-- Links fired in the parent composition (lib/Document.cpp:344-399). -/
def fireParent (d : Doc) (r : Rec) (act : Act) (obj : Oid) : M (List Act) := do
  let s ← M.get
  match (d.obj obj).parent with
  | none => pure []
  | some p =>
    if (d.obj p).kind = .context then
      if isOccurring d s p then do
        let xs ← evalInCtx d act p
        let s ← M.get
        match (d.obj p).parent with
        | none => pure xs
        | some g =>
          if (d.obj g).kind = .context ∧ isOccurring d s g then do
            let ys ← firePorts d act obj g (d.obj p).ports
            pure (xs ++ ys)
          else pure xs
      else pure []
    else if (d.obj p).kind = .switch then do
      fireSwitch d r act obj p (d.obj p).switchPorts
      pure []
    else pure []

/-- Links fired in the context itself, or in the contexts of the aliases
(lib/Document.cpp:401-421). -/
def fireOwn (d : Doc) (act : Act) (obj : Oid) : M (List Act) :=
  if (d.obj obj).kind = .context then evalInCtx d act obj
  else fireAliases d act (d.obj obj).aliases

/-- One iteration of the loop of `Document::evalAction` (lib/Document.cpp:316-422):
`none` if the transition failed, otherwise the actions to push, in push order. -/
def evalStep (d : Doc) (r : Rec) (act : Act) : M (Option (List Act)) := do
  setPar act.ev "duration" act.duration
  if (d.ev act.ev).typ = .attribution then setPar act.ev "value" act.value else pure ()
  if (← r.trans act.ev act.tr) then do
    let obj := (d.ev act.ev).obj
    let xs ← fireParent d r act obj
    let ys ← fireOwn d act obj
    pure (some (xs ++ ys))
  else pure none

/-- The loop of `Document::evalAction` (lib/Document.cpp:307-424) on a stack (top first)
and the number of successful transitions so far. -/
def evalLoop (d : Doc) (r : Rec) : List Act → Nat → M Nat
  | [], n => pure n
  | act :: stack, n => do
    match (← evalStep d r act) with
    | none => r.loop stack n
    | some pushed => r.loop (pushed.reverse ++ stack) (n + 1)

/-- The knot: entry points with recursion bound `n`. -/
def run (d : Doc) : Nat → Rec
  | 0 => { trans := fun _ _ => M.fuel, evalA := fun _ => M.fuel, loop := fun _ _ => M.fuel }
  | n + 1 =>
    { trans := transition d (run d n)
      evalA := fun a => (run d n).loop [a] 0
      loop := evalLoop d (run d n) }

/-! ## Ticks and keys -/

/-- The trigger loop of `Object::sendTick` (lib/Object.cpp:388-393): `true` if it was not
left early. -/
def runDue (d : Doc) (r : Rec) (o : Oid) : List Act → M Bool
  | [] => pure true
  | a :: as => do
    let _ ← r.evalA a
    let s ← M.get
    if isOccurring d s o then runDue d r o as else pure false

/-- `Object::sendTick` (lib/Object.cpp:369-402). -/
def objTick (d : Doc) (r : Rec) (o : Oid) (diff : Nat) : M Unit := do
  let s ← M.get
  if isOccurring d s o then do
    M.assert (s.time o ≠ NONE)
    M.modify fun s => s.setTime o (tadd (s.time o) diff)
    let s ← M.get
    let now := s.time o
    M.modify fun s => s.setDelayed o
      ((s.delayed o).map fun p => if p.2 ≤ now then (p.1, NONE) else p)
    if (← runDue d r o (((s.delayed o).filter fun p => p.2 ≤ now).map (·.1))) then
      M.modify fun s => s.setDelayed o ((s.delayed o).filter fun p => p.2 ≠ NONE)
    else pure ()
  else pure ()

/-- `Media::sendTick` (lib/Media.cpp:139-166). -/
def mediaTick (d : Doc) (r : Rec) (o : Oid) (diff : Nat) : M Unit := do
  objTick d r o diff
  let s ← M.get
  match s.player o with
  | none => pure ()
  | some p => do
    M.modify fun s => s.setPlayer o (some { p with time := tadd p.time diff })
    if p.eos ∨ (p.dur ≠ NONE ∧ s.time o > p.dur) then do
      let _ ← r.evalA { ev := (d.obj o).lambda, tr := .stop }
      pure ()
    else pure ()

/-- The least non-empty focus index of the occurring medias (lib/MediaSettings.cpp:98-109),
starting from `next`. -/
def leastFocus (d : Doc) (s : St) : List Oid → String → String
  | [], next => next
  | o :: os, next =>
    let i := s.getProp o "focusIndex"
    if (d.obj o).kind.isMedia ∧ isOccurring d s o ∧ i ≠ "" ∧ (next = "" ∨ i < next) then
      leastFocus d s os i
    else leastFocus d s os next

/-- `MediaSettings::updateCurrentFocus` (lib/MediaSettings.cpp:88-116). -/
def updateFocus (d : Doc) (r : Rec) (index : String) : M Unit := do
  let s ← M.get
  let value := if index ≠ "" then index else leastFocus d s d.objs ""
  match d.getEvent d.settings .attribution "service.currentFocus" with
  | none => M.abort
  | some e => do
    let _ ← r.evalA { ev := e, tr := .start, value := value }
    pure ()

/-- `MediaSettings::sendTick` (lib/MediaSettings.cpp:56-65). -/
def settingsTick (d : Doc) (r : Rec) (o : Oid) (diff : Nat) : M Unit := do
  let s ← M.get
  match s.nextFocus with
  | some i => do
    updateFocus d r i
    M.modify fun s => { s with nextFocus := none }
  | none => pure ()
  mediaTick d r o diff

/-- `Context::sendTick` (lib/Context.cpp:146-168). -/
def ctxTick (d : Doc) (r : Rec) (o : Oid) (diff : Nat) : M Unit := do
  objTick d r o diff
  let s ← M.get
  if (d.obj o).parent = none ∧ s.awake o = 1 then
    if isOccurring d s d.settings then do
      let _ ← r.evalA { ev := (d.obj o).lambda, tr := .stop }
      pure ()
    else M.abort
  else if s.awake o = 0 then do
    let _ ← r.evalA { ev := (d.obj o).lambda, tr := .stop }
    pure ()
  else pure ()

/-- Virtual `sendTick`. -/
def sendTick1 (d : Doc) (r : Rec) (diff : Nat) (o : Oid) : M Unit :=
  match (d.obj o).kind with
  | .context => ctxTick d r o diff
  | .switch => objTick d r o diff
  | .media => mediaTick d r o diff
  | .settings => settingsTick d r o diff

/-- The key a selection event waits for (lib/Media.cpp:118-123). -/
def expectedKey (s : St) (e : Eid) : String :=
  let k := (s.par e "key").getD ""
  if k.toList.head? = some '$' then "" else k

/-- Whether a selection event is triggered by the key (lib/Media.cpp:125-126). -/
def keyMatches (s : St) (p : PlayerSt) (key : String) (e : Eid) : Bool :=
  let x := expectedKey s e
  (x = "" ∧ key = "ENTER" ∧ playerFocused s p) ∨ (x ≠ "" ∧ key = x)

/-- The `move*` property consulted for a cursor key (lib/Media.cpp:92-99). -/
def moveProp (key : String) : Option String :=
  if key = "CURSOR_UP" then some "moveUp"
  else if key = "CURSOR_DOWN" then some "moveDown"
  else if key = "CURSOR_LEFT" then some "moveLeft"
  else if key = "CURSOR_RIGHT" then some "moveRight"
  else none

/-- Evaluates the same transition on a list of events (lib/Media.cpp:135-136). -/
def evalAll (r : Rec) (t : Trans) : List Eid → M Unit
  | [] => pure ()
  | e :: es => do let _ ← r.evalA { ev := e, tr := t }; evalAll r t es

/-- Focus movement on a cursor key (lib/Media.cpp:89-106). -/
def moveFocus (p : PlayerSt) (key : String) (press : Bool) : M Unit := do
  let s ← M.get
  if press ∧ playerFocused s p then
    match moveProp key with
    | none => pure ()
    | some m => if p.getProp m ≠ "" then scheduleFocus (p.getProp m) else pure ()
  else pure ()

/-- `Media::sendKey` (lib/Media.cpp:78-137).  Passing the key to the player (109-110) is
outside the engine. -/
def mediaKey (d : Doc) (r : Rec) (o : Oid) (key : String) (press : Bool) : M Unit := do
  let s ← M.get
  if isSleeping d s o then pure ()
  else
    match s.player o with
    | none => pure ()
    | some p => do
      moveFocus p key press
      evalAll r (if press then .start else .stop)
        ((d.obj o).events.filter fun e => (d.ev e).typ = .selection ∧ keyMatches s p key e)

/-- Virtual `sendKey` (Object.cpp:364-367, Context.cpp:141-144). -/
def sendKey1 (d : Doc) (r : Rec) (key : String) (press : Bool) (o : Oid) : M Unit :=
  if (d.obj o).kind.isMedia then mediaKey d r o key press else pure ()

/-- Applies a call to each object of a buffer. -/
def forAll (f : Oid → M Unit) : List Oid → M Unit
  | [] => pure ()
  | o :: os => do f o; forAll f os

/-- The propagation of a tick (lib/Formatter.cpp:377-381). -/
def docTick (d : Doc) (r : Rec) (diff : Nat) : M Unit := do
  let s ← M.get
  forAll (sendTick1 d r diff) (d.objs.filter fun o => isOccurring d s o)

/-- The propagation of a key (lib/Formatter.cpp:349-353). -/
def docKey (d : Doc) (r : Rec) (key : String) (press : Bool) : M Unit := do
  let s ← M.get
  forAll (sendKey1 d r key press) (d.objs.filter fun o => !isSleeping d s o)

end Ginga
