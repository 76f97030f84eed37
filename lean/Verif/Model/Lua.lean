import Verif.Model.Players
import Verif.Model.Engine
/-!
# The player of NCLua scripts (lib/PlayerLua.cpp)

The interpreter (ncluaw) is outside the model.  What a player sends to its script is queued until the script runs (`ncluaw_cycle`); what the script posts is an input.  The working
directory is that of the process, hence shared by all players; so the model has a family of players.  Not modelled: OpenGL, and the picture of the script, which is drawn as that of every
player (`Verif.Model.Draw`).
-/
namespace Ginga

/-- What a script is told: `evt_ncl_send_presentation`, `evt_ncl_send_attribution`, `evt_key_send` (lib/PlayerLua.cpp:26-36). -/
inductive LMsg
  | presentation (action label : String)
  | attribution (action : String) (name : String) (value : Str)
  | key (key : String) (press : Bool)
  deriving DecidableEq, Repr

/-- A `PlayerLua` (lib/PlayerLua.h:27-54): `nw` tells whether there is a script (`_nw`), `queue` is what it has been sent and not yet been given. -/
structure LuaP where
  base : PSt
  st : EState
  nw : Bool
  pwd : Str
  saved : Str
  queue : List LMsg

/-- The process: working directory, players, and what scripts did: which one ran, in what directory, and what it was given. -/
structure LuaW where
  cwd : Str
  pl : Nat → LuaP
  ran : List (Nat × Str × List LMsg)

/-- `dirOf`: `g_filename_from_uri` followed by `g_path_get_dirname` (`none`: not the URI of a file); `enter`: whether `chdir` to a directory succeeds. -/
structure LuaEnv where
  e : PEnv
  dirOf : Str → Option Str
  enter : Str → Bool

/-- `do_chdir` (lib/PlayerLua.cpp:231-236). -/
def LuaEnv.chdir (E : LuaEnv) (dir : Str) (w : LuaW) : Res LuaW := if E.enter dir then .ok { w with cwd := dir } else .abort

/-- A script runs, given what has been sent to it (`ncluaw_open`, `ncluaw_cycle`). -/
def LuaW.run (w : LuaW) (i : Nat) : LuaW :=
  { w with ran := w.ran ++ [(i, w.cwd, (w.pl i).queue)], pl := upd w.pl i { w.pl i with queue := [] } }

/-- A player changes. -/
def LuaW.mod (w : LuaW) (i : Nat) (f : LuaP → LuaP) : LuaW := { w with pl := upd w.pl i (f (w.pl i)) }

/-- Something is sent to a script. -/
def LuaW.send (w : LuaW) (i : Nat) (l : List LMsg) : LuaW := w.mod i fun p => { p with queue := p.queue ++ l }

/-- `Player::doSetProperty` sets other properties for some (lib/Player.cpp:637-649, 676-697, 714-741), through `Media::setProperty` and `Player::setProperty`, and hence `PlayerLua::doSetProperty`
again: the properties and values with which that is called when `name` is set, in order.  `v` is the value given; an empty one stands for the default (lib/Player.cpp:309-313). -/
def luaTold1 (name : String) (v : Str) : List (String × Str) :=
  match propInfo name with
  | none => [(name, v)]
  | some (_, d) => [(name, if v = [] then d else v)]

/-- See `luaTold1`: `width` and `height` set `right` and `bottom` again. -/
def luaTold2 (media : Store) (name : String) (v : Str) : List (String × Str) :=
  luaTold1 name v ++
    (if name = "width" ∧ media "right" ≠ [] then luaTold1 "right" (media "right")
     else if name = "height" ∧ media "bottom" ≠ [] then luaTold1 "bottom" (media "bottom") else [])

/-- See `luaTold1`: `bounds`, `location` and `size` set their parts. -/
def luaTold (media : Store) (name : String) (v : Str) : List (String × Str) :=
  let parts : Option (List (String × Str)) :=
    match propInfo name with
    | some (.bounds, d) => (match parseList (if v = [] then d else v) ',' 4 4 with
        | some [a, b, c, d] => some [("left", a), ("top", b), ("width", c), ("height", d)] | _ => none)
    | some (.location, d) => (match parseList (if v = [] then d else v) ',' 2 2 with | some [a, b] => some [("left", a), ("top", b)] | _ => none)
    | some (.size, d) => (match parseList (if v = [] then d else v) ',' 2 2 with | some [a, b] => some [("width", a), ("height", b)] | _ => none)
    | _ => none
  luaTold2 media name v ++ (parts.getD []).flatMap fun p => luaTold2 media p.1 p.2

/-- `PlayerLua::doSetProperty` for each of these (lib/PlayerLua.cpp:213-226), and `Player::setProperty` (lib/Player.cpp:303-305): an unknown property only gets there if the property `type`
of the player is that of NCLua. -/
def luaTell (p : LuaP) (name : String) (v : Str) : List LMsg :=
  if p.nw ∧ p.st = .occurring ∧ ((propInfo name).isSome ∨ p.base.get "type" = "application/x-ginga-NCLua".toList) then
    (luaTold p.base.media name v).flatMap fun q => [.attribution "start" q.1 q.2, .attribution "stop" q.1 q.2]
  else []

/-- What happens to the players. -/
inductive LOp
  /-- `start`; `ok`: the script can be loaded -/
  | start (i : Nat) (ok : Bool)
  | stop (i : Nat)
  | pause (i : Nat)
  | resume (i : Nat)
  | key (i : Nat) (key : String) (press : Bool)
  /-- `sendPresentationEvent` -/
  | anchor (i : Nat) (action label : String)
  /-- `Media::setProperty` -/
  | set (i : Nat) (name : String) (v : Str)
  | redraw (i : Nat)
  /-- another part of the process changes its working directory -/
  | chdir (dir : Str)

/-- `PlayerLua::start` (lib/PlayerLua.cpp:60-85), with `pwdSave` and `pwdRestore` (lib/PlayerLua.cpp:238-266) and `Player::start`. -/
def luaStart (E : LuaEnv) (i : Nat) (ok : Bool) (w : LuaW) : Res LuaW :=
  if (w.pl i).st = .occurring ∨ (w.pl i).nw then .abort
  else
    match E.dirOf (w.pl i).base.prop.uri with
    | none => .abort
    | some dir =>
      (E.chdir dir (w.mod i fun p => { p with saved := w.cwd, pwd := dir, queue := [] })).bind fun w =>
        if ok then (E.chdir (w.pl i).saved (w.run i)).bind fun w =>
          .ok ((w.send i [.presentation "start" ""]).mod i fun p => { p with nw := true, st := .occurring })
        else .abort

/-- `PlayerLua::pwdSave ()`, `ncluaw_cycle`, `PlayerLua::pwdRestore` (lib/PlayerLua.cpp:97-99, 143-145, 257-266). -/
def luaCycle (E : LuaEnv) (i : Nat) (w : LuaW) : Res LuaW := (E.chdir (w.pl i).pwd w).bind fun w => E.chdir (w.pl i).saved (w.run i)

/-- `PlayerLua::stop` (lib/PlayerLua.cpp:87-108) and `Player::stop`. -/
def luaStop (E : LuaEnv) (i : Nat) (w : LuaW) : Res LuaW :=
  if (w.pl i).st = .sleeping ∨ (w.pl i).nw = false then .abort
  else (luaCycle E i (w.send i [.presentation "stop" ""])).bind fun w =>
    (resetProps E.e (w.pl i).base).bind fun b => .ok (w.mod i fun p => { p with nw := false, st := .sleeping, base := b })

/-- One operation. (`pause` and `resume` always end the process: lib/PlayerLua.cpp:110-122.) -/
def LOp.exec (E : LuaEnv) : LOp → LuaW → Res LuaW
  | .start i ok, w => luaStart E i ok w
  | .stop i, w => luaStop E i w
  | .pause _, _ => .abort
  | .resume _, _ => .abort
  | .key i k press, w => if (w.pl i).nw then .ok (w.send i [.key k press]) else .abort
  | .anchor i a l, w => if (w.pl i).nw then .ok (w.send i [.presentation a l]) else .abort
  | .set i n v, w =>
      let b := { (w.pl i).base with media := upd (w.pl i).base.media n v }
      (playerSet E.e 3 n v b).bind fun b' => .ok ((w.send i (luaTell { w.pl i with base := b } n v)).mod i fun p => { p with base := b' })
  | .redraw i, w => if (w.pl i).st = .sleeping ∨ (w.pl i).nw = false then .abort else luaCycle E i w
  | .chdir dir, w => .ok { w with cwd := dir }

/-- A history. -/
def LOp.execAll (E : LuaEnv) : List LOp → LuaW → Res LuaW
  | [], w => .ok w
  | o :: os, w => (o.exec E w).bind (LOp.execAll E os)

/-! ## What a script posts -/

/-- An event posted by a script (`ncluaw_event_t`); `ncl`: its class is that of NCL. -/
structure LPost where
  ncl : Bool
  type : String
  action : String
  name : String
  value : String

/-- `nclua_act_to_ncl` (lib/PlayerLua.cpp:39-43). -/
def luaAction (a : String) : Option Trans :=
  if a = "start" then some .start else if a = "pause" then some .pause else if a = "resume" then some .resume else if a = "stop" then some .stop
  else if a = "abort" then some .abort else none

/-- `Object::getPresentationEventByLabel` (lib/Object.cpp:233-240). -/
def Doc.byLabel (d : Doc) (o : Oid) (label : String) : Option Eid := (d.obj o).events.find? fun e => (d.ev e).typ == .presentation && (d.ev e).label == label

/-- The loop over what the script posted, in `PlayerLua::redraw` (lib/PlayerLua.cpp:171-208). -/
def luaReceive (d : Doc) (o : Oid) : List LPost → M Unit
  | [] => pure ()
  | p :: ps =>
    if !p.ncl then luaReceive d o ps
    else if p.type = "presentation" then
      match (if p.name = "" then d.getEvent o .presentation "@lambda" else d.byLabel o p.name), luaAction p.action with
      | some e, some t => do addDelayed o e t "" 0; luaReceive d o ps
      | _, _ => M.abort
    else if p.type = "attribution" then
      match d.getEvent o .attribution p.name, luaAction p.action with
      | some e, some t => do addDelayed o e t p.value 0; luaReceive d o ps
      | _, _ => M.abort
    else luaReceive d o ps

end Ginga
