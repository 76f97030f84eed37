import Verif.Model.Basic
/-!
# Documents and presentation states

`Doc` is the structure of a document after parsing, `St` the state that changes while it
is presented.  Object and event identifiers (`Oid`, `Eid`) stand for *addresses*: the code
iterates over `set<Object *>` and `set<Event *>` in address order, so the lists below are
in an arbitrary order and all theorems quantify over it.
-/
namespace Ginga

/-- `Event::Type` (lib/Event.h:35-67). -/
inductive EType | attribution | presentation | selection | lookat
  deriving Repr, DecidableEq

/-- `Event::State` (lib/Event.h:70-75). -/
inductive EState | occurring | paused | sleeping
  deriving Repr, DecidableEq

/-- `Event::Transition` (lib/Event.h:78-85). -/
inductive Trans | abort | pause | resume | start | stop
  deriving Repr, DecidableEq

/-- `Predicate::Test` (lib/Predicate.h). -/
inductive Test | eq | ne | lt | le | gt | ge
  deriving Repr, DecidableEq

/-- `Predicate` (lib/Predicate.h; lib/Predicate.cpp:23-30,159-176): the six predicate
types; only connectives have children. -/
inductive Pred where
  | falsum
  | verum
  | atom (left : String) (test : Test) (right : String)
  | neg (children : List Pred)
  | conj (children : List Pred)
  | disj (children : List Pred)
  deriving Repr

/-- Addresses of objects and events. -/
abbrev Oid := Nat
abbrev Eid := Nat

/-- `Action` (lib/Event.h:131-139). -/
structure Act where
  ev : Eid
  tr : Trans
  pred : Option Pred := none
  value : String := ""
  duration : String := ""
  delay : String := ""
  deriving Repr

/-- The immutable part of an `Event` (lib/Event.h:118-126): type, target object, id,
interval and label.  (`setInterval`/`setLabel` are only called while the document is
built.) -/
structure EvDecl where
  typ : EType
  obj : Oid
  id : String
  begin_ : Nat := 0
  end_ : Nat := NONE
  label : String := ""
  deriving Repr

/-- `Event::isLambda` (lib/Event.cpp:129-133). -/
def EvDecl.isLambda (e : EvDecl) : Bool := e.typ = .presentation ∧ e.id = "@lambda"

/-- Dynamic class of an `Object`: `Context`, `Switch`, `Media` (not settings) or
`MediaSettings`. -/
inductive Kind | context | switch | media | settings
  deriving Repr, DecidableEq

/-- `instanceof (Media *, obj)`: `MediaSettings` derives from `Media`. -/
def Kind.isMedia : Kind → Bool
  | .media => true
  | .settings => true
  | _ => false

/-- A link: conditions and actions (lib/Context.h `_links`). -/
structure Link where
  conds : List Act
  acts : List Act
  deriving Repr

/-- The immutable part of an `Object` and of its subclasses (lib/Object.h, Composition.h,
Context.h, Switch.h): everything the parser builds and presentation does not change. -/
structure ObjDecl where
  kind : Kind
  id : String
  parent : Option Oid := none
  children : List Oid := []
  /-- `_events`, in address order -/
  events : List Eid
  /-- `_lambda` -/
  lambda : Eid
  /-- `_aliases`: alias and composition -/
  aliases : List (String × Option Oid) := []
  /-- `Context::_ports` -/
  ports : List Eid := []
  /-- `Context::_links` -/
  links : List Link := []
  /-- `Switch::_rules` -/
  rules : List (Oid × Pred) := []
  /-- `Switch::_switchPorts`, in key order -/
  switchPorts : List (String × List Eid) := []
  /-- `_properties` when the presentation starts -/
  props0 : List (String × String) := []

/-- External functions the engine depends on.
* `parseTime s`: `try_parse_time` (lib/aux-ginga.cpp:193-229), `none` when it fails.
* `createPlayer uri type`: the mime chosen by `Player::createPlayer`
  (lib/Player.cpp:548-624), `none` when the call ends the process.
* `badProp name value`: whether `Player::setProperty (name, value)` ends the process with
  "bad value" (lib/Player.cpp:318-322 and the `parse_*` calls in 628-807). -/
structure Env where
  parseTime : String → Option Nat
  createPlayer : String → String → Option String
  badProp : String → String → Bool

/-- A parsed document (lib/Document.h). -/
structure Doc where
  ev : Eid → EvDecl
  obj : Oid → ObjDecl
  /-- `_objects`, in address order -/
  objs : List Oid
  root : Oid
  settings : Oid
  /-- event parameters set by the parser (e.g. `key`), lib/Parser.cpp `setParameter` -/
  par0 : Eid → String → Option String := fun _ _ => none
  env : Env

/-- The part of a `Player` the engine depends on (lib/Player.h): state, end-of-stream
flag, duration, focus index, clock and property table.  Rendering, animation and the
concrete players are outside the engine model. -/
structure PlayerSt where
  st : EState := .sleeping
  eos : Bool := false
  dur : Nat := NONE
  focusIndex : String := ""
  time : Nat := 0
  props : List (String × String) := []
  deriving Repr, DecidableEq

/-- One entry of the ghost history: a successful `Event::transition`, with the state the
event was in when it was requested. -/
structure LogEntry where
  ev : Eid
  tr : Trans
  before : EState
  deriving Repr, DecidableEq

/-- Presentation state. -/
structure St where
  /-- `Event::_state` -/
  est : Eid → EState
  /-- `Event::_parameters` -/
  par : Eid → String → Option String
  /-- `Object::_time` -/
  time : Oid → Nat
  /-- `Object::_delayed`, oldest first -/
  delayed : Oid → List (Act × Nat)
  /-- `Object::_properties` -/
  props : Oid → List (String × String)
  /-- `Media::_player` -/
  player : Oid → Option PlayerSt
  /-- `Context::_awakeChildren` -/
  awake : Oid → Int
  /-- `Context::_status` -/
  status : Oid → Bool
  /-- `Switch::_selected` -/
  sel : Oid → Option Oid
  /-- `Player::_currentFocus` (static) -/
  focus : String
  /-- `MediaSettings::_hasNextFocus`, `_nextFocus` -/
  nextFocus : Option String
  /-- ghost: successful transitions, newest first; read by no model function -/
  log : List LogEntry

/-- State of a freshly parsed document.  `focus` is a parameter because
`Player::_currentFocus` is static and survives documents (lib/Player.cpp:491). -/
def Doc.init (d : Doc) (focus : String) : St where
  est := fun _ => .sleeping
  par := d.par0
  time := fun _ => NONE
  delayed := fun _ => []
  props := fun o => (d.obj o).props0
  player := fun _ => none
  awake := fun _ => 0
  status := fun _ => true
  sel := fun _ => none
  focus := focus
  nextFocus := none
  log := []

/-! ## The state-and-outcome monad -/

/-- A modelled call that may change the presentation state. -/
def M (α : Type) : Type := St → Res (α × St)

def M.pure {α : Type} (a : α) : M α := fun s => .ok (a, s)
def M.bind {α β : Type} (m : M α) (f : α → M β) : M β :=
  fun s => (m s).bind (fun p => f p.1 p.2)

instance : Monad M where
  pure := M.pure
  bind := M.bind

def M.get : M St := fun s => .ok (s, s)
def M.modify (f : St → St) : M Unit := fun s => .ok ((), f s)
def M.abort {α : Type} : M α := fun _ => .abort
def M.ub {α : Type} : M α := fun _ => .ub
def M.fuel {α : Type} : M α := fun _ => .fuel
/-- `g_assert (b)` -/
def M.assert (b : Bool) : M Unit := if b then M.pure () else M.abort
/-- A pure computation with an outcome, in the current state. -/
def M.lift {α : Type} (f : St → Res α) : M α := fun s => (f s).bind (fun a => .ok (a, s))

end Ginga
