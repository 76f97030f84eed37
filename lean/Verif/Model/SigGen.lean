import Verif.Model.Video
/-!
# The player of generated signals (lib/PlayerSigGen.cpp)

GStreamer is outside the model: whether a change of state fails, the messages it posts and the pictures it delivers are inputs of the operations; what its source of sound is told, and the
states that the pipeline is asked to go to, are recorded.  (The source refuses values out of its range, for instance a volume above 1; this is not modelled.)
-/
namespace Ginga

/-- What the source of sound (`audiotestsrc`) is told: `freq`, `wave` and `volume`. -/
structure Tone where
  freq : Rat
  wave : Nat
  volume : Rat
  deriving DecidableEq, Repr

/-- `PlayerSigGen` (lib/PlayerSigGen.h:27-75).  `tone`: `_prop`; `src`: what the source has been told; `gone`: the pipeline has been released. -/
structure SigSt (σ : Type) where
  base : PSt
  st : EState
  time : Nat
  eos : Bool
  tone : Tone
  src : Tone
  gone : Bool
  surface : Option σ
  states : List GState

variable {σ : Type}

/-- The names of the waves (lib/PlayerSigGen.cpp:333-358). -/
def waveTable : List (String × Nat) :=
  [("sine", 0), ("square", 1), ("saw", 2), ("triangle", 3), ("silence", 4), ("white-noise", 5), ("pink-noise", 6), ("sine-table", 7), ("ticks", 8), ("gaussian-noise", 9),
   ("red-noise", 10), ("blue-noise", 11), ("violet-noise", 12)]

/-- The wave with a name (lib/PlayerSigGen.cpp:333-358). -/
def waveOf (v : Str) : Option Nat := (waveTable.find? fun p => p.1.toList == v).map (·.2)

/-- `if (_state != SLEEPING) g_object_set (_audio.src, …)`: one value. -/
def SigSt.tell (f : Tone → Tone) (s : SigSt σ) : SigSt σ := if s.st ≠ .sleeping then { s with src := f s.src } else s

/-- `PlayerSigGen::doSetProperty` (lib/PlayerSigGen.cpp:317-375).  The pipeline is never gone while the player is not sleeping. -/
def sigDo (e : PEnv) (code : PCode) (v : Str) (s : SigSt σ) : Res (Option (SigSt σ)) :=
  match code with
  | .freq =>
    let f := (orPercent e.F v).2
    .ok (some ({ s with tone := { s.tone with freq := f } }.tell fun t => { t with freq := f }))
  | .wave =>
    let w := (waveOf v).getD s.tone.wave
    .ok (some ({ s with tone := { s.tone with wave := w } }.tell fun t => { t with wave := w }))
  | .volume =>
    let f := (orPercent e.F v).2
    .ok (some ({ s with tone := { s.tone with volume := f } }.tell fun t => { t with volume := f }))
  | _ => (doSetProperty e (mediaSet1 (playerSet e 3)) code v s.base).bind fun r => .ok (r.map fun b => { s with base := b })

/-- `Player::setProperty` (lib/Player.cpp:291-331) of this player. -/
def sigSet (e : PEnv) (name : String) (v : Str) (s : SigSt σ) : Res (SigSt σ) :=
  let pre := if name = "transIn" ∨ name = "transOut" then e.trans v else .ok ()
  pre.bind fun _ =>
    match propInfo name with
    | none => .ok { s with base := { s.base with player := upd s.base.player name v } }
    | some (code, defval) =>
      (sigDo e code (if v = [] then defval else v) s).bind fun r =>
        match r with
        | none => .abort
        | some s => .ok { s with base := { s.base with player := upd s.base.player name v } }

/-- The loop of `Player::resetProperties` (lib/Player.cpp:333-337) of this player. -/
def sigResetLoop (e : PEnv) : List (String × PCode × Bool × String) → SigSt σ → Res (SigSt σ)
  | [], s => .ok s
  | p :: l, s => if p.2.2.1 then (sigSet e p.1 [] s).bind (sigResetLoop e l) else sigResetLoop e l s

/-- `new PlayerSigGen` (lib/PlayerSigGen.cpp:44-177): the constructor of the base class resets the properties with its own `doSetProperty`, then this one resets `freq`, `volume` and
`wave` (in this order: a `set<string>`); `p0` and `t0` are what the memory contained, `src0` what a new source of sound has. (If GStreamer or its elements are missing the process ends; this
is not modelled.) -/
def newSigGen (e : PEnv) (W H : Int) (media : Store) (p0 : PProp) (t0 src0 : Tone) : Res (SigSt σ) :=
  (newPlayer e W H media p0).bind fun b =>
    (sigSet e "freq" [] { base := b, st := .sleeping, time := 0, eos := false, tone := t0, src := src0, gone := false, surface := none, states := [] }).bind fun s =>
      (sigSet e "volume" [] s).bind fun s => sigSet e "wave" [] s

/-- `Media::beforeTransition` for the start of a whole object that is a signal generator, up to the start of its player (lib/Media.cpp:183-198); see `startMedia`, `newSigGen`. -/
def startSigGen (e : PEnv) (W H : Int) (keys : List String) (media : Store) (p0 : PProp) (t0 src0 : Tone) : Res (SigSt σ) :=
  (newSigGen e W H media p0 t0 src0).bind fun s =>
    startLoop (sigSet e) (·.base.media) (startOrder (startKeys keys)) (startKeys keys) { s with base := { s.base with media := startStore media, attached := true } }

/-- What happens to the player. -/
inductive SOp (σ : Type)
  /-- `Media::setProperty` -/
  | set (name : String) (v : Str)
  /-- `start`, `pause`, `resume`, `stop`; `ok`: the pipeline accepts the change of state -/
  | start (ok : Bool)
  | pause (ok : Bool)
  | resume (ok : Bool)
  | stop (ok : Bool)
  /-- a message of the pipeline -/
  | message (m : VMsg)
  /-- `redraw`, with the picture that the pipeline has ready -/
  | frame (sample : Option σ)
  /-- `incTime` -/
  | tick (diff : Nat)

/-- `gstx_element_set_state_sync` (lib/PlayerSigGen.cpp:31-40): a failure ends the process. -/
def SigSt.ask (ok : Bool) (g : GState) (s : SigSt σ) : Res (SigSt σ) := if ok then .ok { s with states := s.states ++ [g] } else .abort

/-- One operation (lib/PlayerSigGen.cpp:183-313, 379-430, lib/Player.cpp:222-283).  A start that fails sets the end of the stream, which `Player::start` then takes back.  What is drawn is
left out: `redraw` keeps the picture and then draws it as every player does (`Verif.Model.Draw`). -/
def SOp.run (e : PEnv) : SOp σ → SigSt σ → Res (SigSt σ)
  | .set n v, s => sigSet e n v { s with base := { s.base with media := upd s.base.media n v } }
  | .start ok, s =>
    if s.st = .occurring then .abort
    else if s.gone then .ub
    else
      let s := { s with eos := false, src := s.tone, states := s.states ++ [GState.playing] }
      let s := if ok then s else { s with eos := true }
      .ok { s with st := .occurring, time := 0, eos := false }
  | .pause ok, s => if s.st = .paused ∨ s.st = .sleeping then .abort else (s.ask ok .paused).bind fun s => .ok { s with st := .paused }
  | .resume ok, s => if s.st ≠ .paused then .abort else (s.ask ok .playing).bind fun s => .ok { s with st := .occurring }
  | .stop ok, s => if s.st = .sleeping then .abort
      else (s.ask ok .null).bind fun s => (sigResetLoop e propTable { s with st := .sleeping, gone := true }).bind fun s =>
        .ok { s with base := { s.base with player := fun _ => [] } }
  | .message .error, _ => .abort
  | .message _, s => .ok s
  | .frame sample, s => if s.st = .sleeping then .abort
      else .ok { s with surface := if s.eos then s.surface else match sample with | some p => some p | none => s.surface }
  | .tick diff, s => .ok { s with time := tadd s.time diff }

/-- A history. -/
def SOp.runAll (e : PEnv) : List (SOp σ) → SigSt σ → Res (SigSt σ)
  | [], s => .ok s
  | o :: os, s => (o.run e s).bind (SOp.runAll e os)

end Ginga
