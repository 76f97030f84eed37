import Verif.Model.Animator
/-!
# Players in use (lib/Media.cpp, lib/Player.cpp, lib/PlayerText.cpp, lib/PlayerImage.cpp, lib/PlayerSvg.cpp)

What happens when a media object starts, and what is drawn of it.  Not modelled: OpenGL, the debugging information that is drawn over the
objects, and the players of video, sound, Lua, HTML and remote content.
-/
namespace Ginga

/-! ## The properties of a media object that starts -/

/-- Insertion into a `map<string, …>`: keys in increasing order, each once. -/
def kinsert (a : String) : List String → List String
  | [] => [a]
  | b :: t => if a = b then b :: t else if a < b then a :: b :: t else b :: kinsert a t

/-- The keys of a map. -/
def mapKeys (l : List String) : List String := l.foldr kinsert []

/-- The keys that setting a property adds to the properties of the media object, once it has a player
(lib/Player.cpp:637-649, 676-697, through lib/Media.cpp:62-67). -/
def addedKeys (name : String) : List String :=
  if name = "bounds" then ["left", "top", "width", "height"]
  else if name = "location" then ["left", "top"]
  else if name = "size" then ["width", "height"]
  else []

/-- `for (auto it : _properties) _player->setProperty (it.first, it.second)` (lib/Media.cpp:197-198).  The loop visits keys that are added
while it runs if they come later; these can only be `height`, `left`, `top` and `width`, so it goes over `todo`, the original keys and these four in
order, and skips what is no key at that moment (`keys`).  `set` is `Player::setProperty`, `media` gives the properties of the media object. -/
def startLoop {σ : Type} (set : String → Str → σ → Res σ) (media : σ → Store) : List String → List String → σ → Res σ
  | [], _, s => .ok s
  | k :: todo, keys, s =>
    if k ∈ keys then (set k (media s k) s).bind (startLoop set media todo (addedKeys k ++ keys))
    else startLoop set media todo keys s

/-- The properties that the loop goes over (see `startLoop`). -/
def startOrder (keys : List String) : List String := mapKeys (["height", "left", "top", "width"] ++ keys)

/-- The properties of a media object when its loop begins: `_properties["uri"]` and `_properties["type"]` have been added, and `createPlayer` has set the
type (lib/Media.cpp:192-193, lib/Player.cpp:621-623). -/
def startKeys (keys : List String) : List String := "uri" :: "type" :: keys

/-- See `startKeys`. -/
def startStore (media : Store) : Store := upd media "type" (effectiveMime (media "uri") (media "type"))

/-- `Media::beforeTransition` for the start of the whole object, up to the start of its player (lib/Media.cpp:183-200), for a player that does not override
`doSetProperty` (no content, image, SVG): `keys` and `media` are the properties of the media object, `p0` is what the memory of the player contained. -/
def startMedia (e : PEnv) (W H : Int) (keys : List String) (media : Store) (p0 : PProp) : Res PSt :=
  (newPlayer e W H media p0).bind fun s =>
    startLoop (playerSet e 3) (·.media) (startOrder (startKeys keys)) (startKeys keys) { s with media := startStore media, attached := true }

end Ginga
