import Verif.Model.Engine
/-!
# The formatter (public API)

Model of lib/Formatter.cpp: start, stop, resize, sendKey, sendTick, getState, plus the
external inputs the engine receives: end-of-stream of a player (lib/PlayerVideo.cpp:562)
and actions requested by the web service (lib/WebServices.cpp:178-201).
Drawing and options are in `Verif.Model.Redraw` and `Verif.Model.Options`.
-/
namespace Ginga

/-- The formatter (lib/Formatter.h).  `st` is meaningful while `doc` is present; `focus`
is the static `Player::_currentFocus` while there is no document. -/
structure Fmt where
  /-- `_state == GINGA_STATE_PLAYING` -/
  playing : Bool
  /-- `_doc` -/
  doc : Option Doc
  st : St
  /-- `_eos` -/
  eos : Bool
  focus : String
  width : Int
  height : Int
  lastTotal : Nat
  lastDiff : Nat
  lastFrame : Nat

/-- An arbitrary state for formatters without document. -/
def St.blank : St where
  est := fun _ => .sleeping
  par := fun _ _ => none
  time := fun _ => NONE
  delayed := fun _ => []
  props := fun _ => []
  player := fun _ => none
  awake := fun _ => 0
  status := fun _ => true
  sel := fun _ => none
  focus := ""
  nextFocus := none
  log := []

/-- `Formatter::Formatter` (lib/Formatter.cpp:432-467) with the given window size.
`focus` is whatever earlier presentations in the same process left behind. -/
def Fmt.new (focus : String) (width height : Int) : Fmt where
  playing := false
  doc := none
  st := St.blank
  eos := false
  focus := focus
  width := width
  height := height
  lastTotal := 0
  lastDiff := 0
  lastFrame := 0

/-- The calls and external inputs.  `start none` is a start whose file cannot be parsed;
`start (some d)` one whose file parses to `d`.  (A Lua file that fails to parse leaves the
formatter in the same state, lib/Formatter.cpp:129-141.) -/
inductive Op where
  | start (parsed : Option Doc)
  | stop
  | sendKey (key : String) (press : Bool)
  | sendTick (total diff frame : Nat)
  | resize (width height : Int)
  /-- the underlying decoder of media `o` reports end of stream -/
  | playerEos (o : Oid)
  /-- an action requested from outside (web service) -/
  | action (a : Act)

/-- Destruction of an object (lib/Context.cpp:34-51, Media.cpp:36-39, Switch.cpp:32-36: a
switch does not delete its children).  Fuel bounds the depth of the tree. -/
def destroy (d : Doc) (r : Rec) : Nat → Oid → M Unit
  | 0, _ => M.fuel
  | n + 1, o =>
    match (d.obj o).kind with
    | .context => do
      let _ ← r.trans (d.obj o).lambda .stop
      forAll (destroy d r n) (d.obj o).children
    | .switch => pure ()
    | .media => mediaDoStop d o
    | .settings => mediaDoStop d o

/-- Runs an engine call on the formatter's document. -/
def Fmt.run {α : Type} (f : Fmt) (m : M α) : Res (α × Fmt) :=
  (m f.st).bind fun p => .ok (p.1, { f with st := p.2 })

/-- `Formatter::start` (lib/Formatter.cpp:113-178).  The web service is not started. -/
def fmtStart (n : Nat) (f : Fmt) (parsed : Option Doc) : Res (Bool × Fmt) :=
  if f.playing then .ok (false, f)
  else if f.doc.isSome then .abort
  else
    match parsed with
    | none => .ok (false, f)
    | some d =>
      let f1 := { f with doc := some d, st := d.init f.focus, eos := false,
                         lastTotal := 0, lastDiff := 0, lastFrame := 0 }
      (f1.run ((run d n).evalA { ev := (d.obj d.root).lambda, tr := .start })).bind fun p =>
        if p.1 = 0 then .ok (false, p.2)
        else
          (p.2.run ((run d n).trans (d.obj d.settings).lambda .start)).bind fun q =>
            if q.1 then .ok (true, { q.2 with playing := true }) else .abort

/-- `Formatter::stop` (lib/Formatter.cpp:180-192). -/
def fmtStop (n : Nat) (f : Fmt) : Res (Bool × Fmt) :=
  if !f.playing then .ok (false, f)
  else
    match f.doc with
    | none => .ok (true, { f with playing := false })
    | some d =>
      (f.run (destroy d (run d n) n d.root)).bind fun p =>
        .ok (true, { p.2 with doc := none, playing := false, focus := p.2.st.focus })

/-- `_GINGA_CHECK_EOS` (lib/Formatter.cpp:312-330). -/
def checkEos (n : Nat) (d : Doc) (f : Fmt) : Res Fmt :=
  let f1 := if isSleeping d f.st d.root then { f with eos := true } else f
  if f1.eos then
    (fmtStop n { f1 with eos := false }).bind fun p =>
      if p.1 ∧ !p.2.playing then .ok p.2 else .abort
  else .ok f1

/-- The common guard of sendKey and sendTick (lib/Formatter.cpp:337-342,363-368).  A
playing formatter without document would be a null dereference. -/
def guarded (n : Nat) (f : Fmt) (body : Doc → Fmt → Res Fmt) : Res (Bool × Fmt) :=
  if !f.playing then .ok (false, f)
  else
    match f.doc with
    | none => .ub
    | some d =>
      (checkEos n d f).bind fun f1 =>
        if !f1.playing then .ok (false, f1)
        else (body d f1).bind fun f2 => .ok (true, f2)

/-- `Formatter::sendKey` (lib/Formatter.cpp:332-356). -/
def fmtKey (n : Nat) (f : Fmt) (key : String) (press : Bool) : Res (Bool × Fmt) :=
  guarded n f fun d f1 => (f1.run (docKey d (run d n) key press)).bind fun p => .ok p.2

/-- `Formatter::sendTick` (lib/Formatter.cpp:358-384). -/
def fmtTick (n : Nat) (f : Fmt) (total diff frame : Nat) : Res (Bool × Fmt) :=
  guarded n f fun d f1 =>
    ({ f1 with lastTotal := total, lastDiff := diff, lastFrame := frame }.run
      (docTick d (run d n) diff)).bind fun p => .ok p.2

/-- The geometry properties re-applied by resize, in order (lib/Formatter.cpp:215-220). -/
def resizeProps : List String := ["top", "left", "width", "height", "bottom", "right"]

/-- `UPDATE_IF_HAVE` for each geometry property (lib/Formatter.cpp:208-220). -/
def reapply (d : Doc) (o : Oid) : List String → M Unit
  | [] => pure ()
  | k :: ks => do
    let s ← M.get
    if s.getProp o k ≠ "" then mediaSetProp d o k (s.getProp o k) 0 else pure ()
    reapply d o ks

/-- `Formatter::resize` (lib/Formatter.cpp:194-222). -/
def fmtResize (f : Fmt) (w h : Int) : Res Fmt :=
  if w > 0 ∧ h > 0 then
    let f1 := { f with width := w, height := h }
    if !f1.playing then .ok f1
    else
      match f1.doc with
      | none => .ub
      | some d =>
        (f1.run (forAll (fun o => reapply d o resizeProps)
          (d.objs.filter fun o => (d.obj o).kind.isMedia))).bind fun p => .ok p.2
  else .abort

/-- End of stream reported to the player of `o` (lib/Player.cpp:245-249). -/
def playerEos (o : Oid) : M Unit :=
  M.modify fun s => s.setPlayer o ((s.player o).map fun p => { p with eos := true })

/-- One call; `n` bounds the recursion.  The second component of the result is the
return value (`true` for calls returning `void`). -/
def exec (n : Nat) (f : Fmt) : Op → Res (Bool × Fmt)
  | .start p => fmtStart n f p
  | .stop => fmtStop n f
  | .sendKey k p => fmtKey n f k p
  | .sendTick t df fr => fmtTick n f t df fr
  | .resize w h => (fmtResize f w h).bind fun f' => .ok (true, f')
  | .playerEos o => (f.run (playerEos o)).bind fun p => .ok (true, p.2)
  | .action a =>
    match f.doc with
    | none => .ok (false, f)
    | some d => (f.run ((run d n).evalA a)).bind fun p => .ok (true, p.2)

/-- A whole history of calls, with the results of each. -/
def execAll (n : Nat) (f : Fmt) : List Op → Res (List Bool × Fmt)
  | [] => .ok ([], f)
  | op :: ops =>
    (exec n f op).bind fun p => (execAll n p.2 ops).bind fun q => .ok (p.1 :: q.1, q.2)

end Ginga
