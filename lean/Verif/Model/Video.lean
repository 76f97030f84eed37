import Verif.Model.Players
import Verif.Model.Types
/-!
# The player of video and sound (lib/PlayerVideo.cpp)

GStreamer is outside the model: what it answers when it is asked (its state, position and duration, whether a change of state fails), the messages it posts and the pictures it
delivers are inputs of the operations, and what it is asked to do is recorded in the order in which it is asked.
-/
namespace Ginga

/-- `GstState`. -/
inductive GState | null | ready | paused | playing
  deriving DecidableEq, Repr

/-- What GStreamer is asked to do: `gst_element_set_state` and `gst_element_seek` on the pipeline, `g_object_set` of its URI. -/
inductive VCmd
  | state (g : GState)
  | seek (rate : Rat) (position : Int)
  | uri (u : Str)
  deriving DecidableEq, Repr

/-- What GStreamer answers while a property is set: its state, asked once or twice (`none`: the query fails), the position and the duration of the stream (`none`: not known). -/
structure GAns where
  cur : Option GState
  cur2 : Option GState
  pos : Option Int
  dur : Option Int

/-- `PlayerVideo` (lib/PlayerVideo.h:27-97).  `soundNull`: the pointers to the elements for sound, that are never assigned, happen to be null; `speed`: `_prop.speed`, that is
not initialised either. (The other members of `PlayerVideo::_prop` are not used.) -/
structure VSt (σ : Type) where
  base : PSt
  st : EState
  time : Nat
  eos : Bool
  soundNull : Bool
  speed : Rat
  freeze : Bool
  /-- `_stack_actions` -/
  stack : List (PCode × String × Str)
  surface : Option σ
  cmds : List VCmd

variable {σ : Type}

/-- What GStreamer is asked is recorded. -/
def VSt.ask (s : VSt σ) (c : VCmd) : VSt σ := { s with cmds := s.cmds ++ [c] }

/-- `g_object_set (_audio.…, …)` (lib/PlayerVideo.cpp:491-552): the elements for sound are never created.  On a null pointer GLib does nothing; any other one is not an object. -/
def setSound (s : VSt σ) : Res (Option (VSt σ)) := if s.soundNull then .ok (some s) else .ub

/-- `getPipelineState () != "PAUSED" && getPipelineState () != "PLAYING"` (lib/PlayerVideo.cpp:511-512, 526-527, 630-645): the second query is only made if the first answer is not
`PAUSED`; a failed query ends the process. -/
def notPrepared (g : GAns) : Res Bool :=
  match g.cur with
  | none => .abort
  | some .paused => .ok false
  | some _ =>
    match g.cur2 with
    | none => .abort
    | some c => .ok (c != .playing)

/-- `xstrtod` (lib/aux-ginga.cpp:372-378). -/
def xstrtod (F : FP) (s : Str) : Res Rat := match strtod s with | none => .abort | some p => .ok (F.rnd p.1)

/-- `gint64` arithmetic: signed overflow is undefined. -/
def int64 (x : Int) : Res Int := if -(2 ^ 63) ≤ x ∧ x < 2 ^ 63 then .ok x else .ub

/-- The conversion of a 64-bit unsigned number to `gint64`: modulo 2^64 (gcc). -/
def toInt64 (x : Nat) : Int := ((x : Int) + 2 ^ 63) % 2 ^ 64 - 2 ^ 63

/-- `PROP_TIME` in a prepared pipeline (lib/PlayerVideo.cpp:532-566) and `seek` (lib/PlayerVideo.cpp:207-229).  An unknown position or duration, and the time that a text that is no time
leaves, are indeterminate values. -/
def setTime (F : FP) (g : GAns) (v : Str) (s : VSt σ) : Res (VSt σ) :=
  if v = "indefinite".toList ∨ v = [] then .ok s
  else
    match g.pos, g.dur with
    | some cur, some dur =>
      (parseTime F v).bind fun t =>
        match t with
        | none => .ub
        | some t =>
          if hasPrefix v "+".toList then
            (int64 (toInt64 t + cur)).bind fun next => .ok ({ s with eos := if next ≥ dur then true else s.eos }.ask (.seek s.speed next))
          else if hasPrefix v "-".toList then
            (int64 (toInt64 t - cur)).bind fun d => .ok (s.ask (.seek s.speed (if d < 0 then 0 else d)))
          else .ok (s.ask (.seek s.speed (toInt64 t)))
    | _, _ => .ub

/-- `PROP_SPEED` in a prepared pipeline (lib/PlayerVideo.cpp:518-522) and `speed` (lib/PlayerVideo.cpp:231-259).  The event is given away to `gst_element_send_event` and then released
a second time, which is undefined. (`doubleeq` is taken for equality.) -/
def setSpeed (F : FP) (v : Str) (s : VSt σ) : Res (VSt σ) :=
  (xstrtod F v).bind fun d => if d = 0 then .ok { s with speed := d } else .ub

/-- `PlayerVideo::doSetProperty` (lib/PlayerVideo.cpp:478-589).  The properties that `Player::doSetProperty` sets through the media object (`left`, `top`, `width`, `height`, `right`,
`bottom`) are none of those treated here, so that it is given `Media::setProperty` of the base class. -/
def videoDo (e : PEnv) (g : GAns) (code : PCode) (name : String) (v : Str) (s : VSt σ) : Res (Option (VSt σ)) :=
  match code with
  | .balance => setSound s
  | .bass => setSound s
  | .freeze => (parseBoolA v).bind fun b => .ok (some { s with freeze := b })
  | .mute => (parseBoolA v).bind fun _ => setSound s
  | .speed => (notPrepared g).bind fun b =>
      if b then .ok (some { s with stack := s.stack ++ [(code, name, v)] })
      else if s.st ≠ .sleeping then (setSpeed e.F v s).bind fun s => .ok (some s) else .ok (some s)
  | .time => (notPrepared g).bind fun b =>
      if b then .ok (some { s with stack := s.stack ++ [(code, name, v)] })
      else if s.st ≠ .sleeping then (setTime e.F g v s).bind fun s => .ok (some s) else .ok (some s)
  | .treble => setSound s
  | .uri => .ok (some ({ s with base := { s.base with prop := { s.base.prop with uri := v } } }.ask (.uri v)))
  | .volume => setSound s
  | _ => (doSetProperty e (mediaSet1 (playerSet e 3)) code v s.base).bind fun r => .ok (r.map fun b => { s with base := b })

/-- `Player::setProperty` (lib/Player.cpp:291-331) of this player. -/
def videoSet (e : PEnv) (g : GAns) (name : String) (v : Str) (s : VSt σ) : Res (VSt σ) :=
  let pre := if name = "transIn" ∨ name = "transOut" then e.trans v else .ok ()
  pre.bind fun _ =>
    match propInfo name with
    | none => .ok { s with base := { s.base with player := upd s.base.player name v } }
    | some (code, defval) =>
      (videoDo e g code name (if v = [] then defval else v) s).bind fun r =>
        match r with
        | none => .abort
        | some s => .ok { s with base := { s.base with player := upd s.base.player name v } }

/-- The loop of `Player::resetProperties` (lib/Player.cpp:333-337) of this player (none of the properties that are reset asks for the state of the pipeline). -/
def videoResetLoop (e : PEnv) (g : GAns) : List (String × PCode × Bool × String) → VSt σ → Res (VSt σ)
  | [], s => .ok s
  | p :: l, s => if p.2.2.1 then (videoSet e g p.1 [] s).bind (videoResetLoop e g l) else videoResetLoop e g l s

/-- `new PlayerVideo` (lib/PlayerVideo.cpp:88-153): the constructor of the base class resets the properties, and calls its own `doSetProperty` in this; `p0`, `soundNull`, `speed` and
`freeze` are what the memory contained. (If GStreamer or its elements are missing the process ends; this is not modelled.) -/
def newVideo (e : PEnv) (W H : Int) (media : Store) (p0 : PProp) (soundNull : Bool) (speed : Rat) (freeze : Bool) : Res (VSt σ) :=
  (newPlayer e W H media p0).bind fun b =>
    .ok { base := b, st := .sleeping, time := 0, eos := false, soundNull := soundNull, speed := speed, freeze := freeze, stack := [], surface := none, cmds := [] }

/-- `Media::beforeTransition` for the start of a whole object that is a video or a sound, up to the start of its player (lib/Media.cpp:183-198): `g` is what GStreamer answers while each of
the properties is set; see `startMedia`, `newVideo`. -/
def startVideo (e : PEnv) (W H : Int) (keys : List String) (media : Store) (p0 : PProp) (soundNull : Bool) (speed : Rat) (freeze : Bool) (g : String → GAns) : Res (VSt σ) :=
  (newVideo e W H media p0 soundNull speed freeze).bind fun s =>
    startLoop (fun k v => videoSet e (g k) k v) (·.base.media) (startOrder (startKeys keys)) (startKeys keys)
      { s with base := { s.base with media := startStore media, attached := true } }

/-- Messages of the pipeline (lib/PlayerVideo.cpp:333-468). -/
inductive VMsg | eos | error | other
  deriving DecidableEq, Repr

/-- What happens to the player. -/
inductive VOp (σ : Type)
  /-- `Media::setProperty` -/
  | set (name : String) (v : Str) (g : GAns)
  /-- `start`, `pause`, `resume`, `stop`; `ok`: the pipeline accepts the change of state -/
  | start (ok : Bool)
  | pause (ok : Bool)
  | resume (ok : Bool)
  | stop (ok : Bool) (g : GAns)
  /-- a message of the pipeline -/
  | message (m : VMsg)
  /-- `redraw`, with the picture that the pipeline has ready -/
  | frame (sample : Option σ)
  /-- `incTime` -/
  | tick (diff : Nat)

/-- `gstx_element_set_state` (lib/PlayerVideo.cpp:61-70): a failure ends the process. -/
def askState (ok : Bool) (g : GState) (s : VSt σ) : Res (VSt σ) := if ok then .ok (s.ask (.state g)) else .abort

/-- One operation (lib/PlayerVideo.cpp:163-205, 261-311, 333-468, lib/Player.cpp:222-283).  What is drawn is left out: `redraw` keeps the picture and then draws it as every player does
(`Verif.Model.Draw`). -/
def VOp.run (e : PEnv) : VOp σ → VSt σ → Res (VSt σ)
  | .set n v g, s => videoSet e g n v { s with base := { s.base with media := upd s.base.media n v } }
  | .start ok, s => (askState ok .playing s).bind fun s => if s.st = .occurring then .abort else .ok { s with st := .occurring, time := 0, eos := false }
  | .pause ok, s => (askState ok .paused s).bind fun s => if s.st = .paused ∨ s.st = .sleeping then .abort else .ok { s with st := .paused }
  | .resume ok, s => if s.st ≠ .paused then .abort else (askState ok .playing s).bind fun s => .ok { s with st := .occurring }
  | .stop ok g, s => (askState ok .null s).bind fun s => if s.st = .sleeping then .abort
      else (videoResetLoop e g propTable { s with st := .sleeping }).bind fun s => .ok { s with base := { s.base with player := fun _ => [] } }
  | .message .eos, s => .ok s
  | .message .error, _ => .abort
  | .message .other, s => .ok s
  | .frame sample, s => .ok { s with surface := match sample with | some p => some p | none => s.surface }
  | .tick diff, s => .ok { s with time := tadd s.time diff }

/-- A history. -/
def VOp.runAll (e : PEnv) : List (VOp σ) → VSt σ → Res (VSt σ)
  | [], s => .ok s
  | o :: os, s => (o.run e s).bind (VOp.runAll e os)

end Ginga
