import Verif.Model.Players
import Verif.Model.Types
/-!
# The player of remote content (lib/PlayerRemote.cpp)

The messages are recorded as they are handed over to libsoup; the network and the remote player are outside the model.
-/
namespace Ginga

/-- What a remote player is sent: address and text of a `POST`. -/
structure Posted where
  url : Str
  body : Str
  deriving DecidableEq, Repr

/-- A `PlayerRemote` (lib/PlayerRemote.h:61-79) of the media object called `id`. -/
structure RemSt where
  id : Str
  base : PSt
  st : EState
  sent : List Posted

/-- `reach`: the texts that `soup_message_new` takes for an address; with any other one it gives no message, and nothing is sent. -/
structure REnv where
  e : PEnv
  reach : Str → Bool

/-- `REMOTE_PLAYER_JSON_ACT` (lib/PlayerRemote.h:28-32) with its two arguments, the second of which is always 0. -/
def actText (action : Str) : Str := "{     \"action\": \"".toList ++ action ++ "\",     \"delay\": \"0\"   }".toList

/-- `REMOTE_PLAYER_JSON_ACT_WITH_PROPS` (lib/PlayerRemote.h:34-44) with its arguments, the second of which is always 0. -/
def actTextProps (action top left width height z transparency : Str) : Str :=
  "{     \"action\": \"".toList ++ action ++ "\",     \"delay\": \"0\",     \"properties\":      {        \"bounds\": {\"top\": \"".toList ++ top ++ "\",\"left\": \"".toList ++ left ++
    "\",\"width\": \"".toList ++ width ++ "\",\"height\": \"".toList ++ height ++ "\"},        \"zIndex\" : \"".toList ++ z ++ "\",        \"transparency\" : \"".toList ++ transparency ++
    "\"      }   }".toList

/-- `PlayerRemote::sendAction` (lib/PlayerRemote.cpp:73-93). -/
def RemSt.post (E : REnv) (body label : Str) (s : RemSt) : RemSt :=
  let url := s.base.get "remotePlayerBaseURL" ++ "/scene/nodes/".toList ++ (if label = [] then s.id else label)
  if E.reach url then { s with sent := s.sent ++ [⟨url, body⟩] } else s

/-- What happens to the player. -/
inductive ROp
  /-- `Media::setProperty` -/
  | set (name : String) (v : Str)
  | start
  | stop
  | pause
  | resume
  /-- `sendPresentationEvent` -/
  | anchor (action label : Str)
  /-- the answer of the remote player, with its status -/
  | answer (status : Nat)

/-- One operation (lib/PlayerRemote.cpp:62-153, lib/Player.cpp:250-283).  Of an answer nothing becomes: `!msg->status_code == SOUP_STATUS_OK` is false of every status. -/
def ROp.run (E : REnv) : ROp → RemSt → Res RemSt
  | .set n v, s => (mediaSet E.e n v s.base).bind fun b => .ok { s with base := b }
  | .start, s =>
    let s := s.post E (actTextProps "start".toList (s.base.get "top") (s.base.get "left") (s.base.get "width") (s.base.get "height") (s.base.get "zOrder") "0%".toList) []
    if s.st = .occurring then .abort else .ok { s with st := .occurring }
  | .stop, s =>
    let s := s.post E (actText "stop".toList) []
    if s.st = .sleeping then .abort else (resetProps E.e s.base).bind fun b => .ok { s with base := b, st := .sleeping }
  | .pause, s =>
    let s := s.post E (actText "pause".toList) []
    if s.st = .paused ∨ s.st = .sleeping then .abort else .ok { s with st := .paused }
  | .resume, s =>
    let s := s.post E (actText "resume".toList) []
    if s.st ≠ .paused then .abort else .ok { s with st := .occurring }
  | .anchor a l, s => .ok (s.post E (actText a) l)
  | .answer _, s => .ok s

/-- A history. -/
def ROp.runAll (E : REnv) : List ROp → RemSt → Res RemSt
  | [], s => .ok s
  | o :: os, s => (o.run E s).bind (ROp.runAll E os)

/-- `Media::beforeTransition` for the start of a whole object of remote content, up to the start of its player (lib/Media.cpp:183-198); see `startMedia`. -/
def startRemote (E : REnv) (id : Str) (W H : Int) (keys : List String) (media : Store) (p0 : PProp) : Res RemSt :=
  (startMedia E.e W H keys media p0).bind fun b => .ok { id := id, base := b, st := .sleeping, sent := [] }

end Ginga
