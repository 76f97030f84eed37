import Verif.Model.Text
/-!
# Player properties and kinds of players (lib/Player.cpp, lib/Media.cpp, lib/PlayerRemote.cpp)

The base class `Player` and the media object it belongs to.  What the subclasses do with the properties
they override (text, video, Lua, ...) is not modelled.  Property names are `String`s, values are `Str`.
-/
namespace Ginga

/-- `map<string,string>` with `getProperty`'s convention: absent reads as empty. -/
abbrev Store := String → Str

/-- `Color` (lib/aux-ginga.h). -/
abbrev Color := Rat × Rat × Rat × Rat

/-- `Player::Property` (lib/Player.h:38-85). -/
inductive PCode
  | background | balance | bass | bottom | bounds | debug | duration | focusIndex | focusBorderColor
  | focusBorderWidth | focusBorderTransparency | selBorderColor | fontBgColor | fontColor | fontFamily | fontSize
  | fontStyle | fontVariant | fontWeight | freeze | freq | height | horzAlign | left | location | mute | right
  | size | speed | time | top | transparency | treble | type | uri | vertAlign | visible | volume | wave | width
  | zIndex | zOrder | remotePlayerBaseURL
  deriving DecidableEq, Repr

/-- `player_property_map` (lib/Player.cpp:107-154): name, code, whether it is initialised, default; in key order
(the order in which `resetProperties` visits it). -/
def propTable : List (String × PCode × Bool × String) :=
  [("background", .background, true, ""), ("balance", .balance, false, "0.0"), ("bass", .bass, false, "0"),
   ("bottom", .bottom, false, "0%"), ("bounds", .bounds, false, "0%,0%,100%,100%"), ("currentTime", .time, false, "indefinite"),
   ("debug", .debug, true, "false"), ("duration", .duration, true, "indefinite"),
   ("focusBorderColor", .focusBorderColor, true, "yellow"), ("focusBorderTransparency", .focusBorderTransparency, true, "0%"),
   ("focusBorderWidth", .focusBorderWidth, true, "4"), ("focusIndex", .focusIndex, true, ""),
   ("fontBgColor", .fontBgColor, true, ""), ("fontColor", .fontColor, true, "black"), ("fontFamily", .fontFamily, true, "sans"),
   ("fontSize", .fontSize, true, "12"), ("fontStyle", .fontStyle, true, ""), ("fontVariant", .fontVariant, true, ""),
   ("fontWeight", .fontWeight, true, ""), ("freeze", .freeze, true, "false"), ("freq", .freq, true, "440"),
   ("height", .height, true, "100%"), ("horzAlign", .horzAlign, true, "left"), ("left", .left, true, "0"),
   ("location", .location, false, "0,0"), ("mute", .mute, false, "false"), ("remotePlayerBaseURL", .remotePlayerBaseURL, false, ""),
   ("right", .right, false, "0%"), ("selBorderColor", .selBorderColor, true, "yellow"), ("size", .size, false, "100%,100%"),
   ("speed", .speed, false, "1"), ("time", .time, false, "indefinite"), ("top", .top, true, "0"),
   ("transparency", .transparency, true, "0%"), ("treble", .treble, false, "0"), ("type", .type, true, "application/x-ginga-timer"),
   ("uri", .uri, true, ""), ("vertAlign", .vertAlign, true, "top"), ("visible", .visible, true, "true"),
   ("volume", .volume, false, "100%"), ("wave", .wave, true, "sine"), ("width", .width, true, "100%"),
   ("zIndex", .zIndex, true, "0"), ("zOrder", .zOrder, true, "0")]

/-- `player_property_aliases` (lib/Player.cpp:156-164). -/
def aliasTable : List (String × String) :=
  [("backgroundColor", "background"), ("balanceLevel", "balance"), ("bassLevel", "bass"), ("explicitDur", "duration"),
   ("soundLevel", "volume"), ("rate", "speed"), ("trebleLevel", "treble")]

/-- `Player::getPlayerProperty` (lib/Player.cpp:505-528): code and default; `none` is `PROP_UNKNOWN`.  (That every alias is
an alias of a property of the table, which the code asserts, is true of these tables.) -/
def propInfo (name : String) : Option (PCode × Str) :=
  match propTable.find? (fun p => p.1 == name) with
  | some p => some (p.2.1, p.2.2.2.toList)
  | none =>
    match aliasTable.find? (fun p => p.1 == name) with
    | none => none
    | some a => (propTable.find? (fun p => p.1 == a.2)).map fun p => (p.2.1, p.2.2.2.toList)

/-- `Player::_prop` (lib/Player.h) and `_dirty`. -/
structure PProp where
  x : Int
  y : Int
  w : Int
  h : Int
  z : Int
  zo : Int
  alpha : Nat
  bg : Color
  visible : Bool
  debug : Bool
  duration : Nat
  focusIndex : Str
  focusBorderColor : Color
  focusBorderWidth : Int
  focusBorderTransparency : Nat
  selBorderColor : Color
  uri : Str
  type : Str
  dirty : Bool
  deriving DecidableEq, Repr

/-- A media object and its player. -/
structure PSt where
  /-- options `width` and `height` -/
  W : Int
  H : Int
  /-- `Media::_properties` -/
  media : Store
  /-- `Player::_properties` -/
  player : Store
  prop : PProp
  /-- `Media::_player` points to this player (it does not while the constructor of the player runs). -/
  attached : Bool

/-- What is not modelled: colours and transitions (`setTransitionProperties`). -/
structure PEnv where
  F : FP
  color : Str → Option Color
  trans : Str → Res Unit

/-- `G_MAXINT`. -/
def INTMAX : Int := 2 ^ 31 - 1

/-- `int` arithmetic: signed overflow is undefined. -/
def int32 (x : Int) : Res Int := if -(2 ^ 31) ≤ x ∧ x < 2 ^ 31 then .ok x else .ub

/-- `parse_color`: ends the process on a bad colour. -/
def PEnv.parseColor (e : PEnv) (s : Str) : Res Color := match e.color s with | some c => .ok c | none => .abort

/-- `parse_bool` (lib/aux-ginga.cpp:58-69). -/
def parseBoolA (s : Str) : Res Bool := match parseBool s with | some b => .ok b | none => .abort

/-- `parse_time`. -/
def parseTimeA (F : FP) (s : Str) : Res Nat := (parseTime F s).bind fun r => match r with | some t => .ok t | none => .abort

/-- `xstrtoint (s, 10)`. -/
def parseInt (s : Str) : Res Int := xstrto (-(2 ^ 31)) (2 ^ 31 - 1) s

/-- `(guint8) CLAMP (255 - parse_pixel (value), 0, 255)`. -/
def opacity (F : FP) (s : Str) : Nat := (clamp (255 - (parsePixel F s : Int)) 0 255).toNat

/-- Sets properties of the media object one after the other. -/
def setMany (mset : String → Str → PSt → Res PSt) : List (String × Str) → PSt → Res PSt
  | [], s => .ok s
  | (n, v) :: l, s => (mset n v s).bind (setMany mset l)

/-- `Player::doSetProperty` (lib/Player.cpp:628-807); `none` is the result `false`.  `mset` is `_media->setProperty`. -/
def doSetProperty (e : PEnv) (mset : String → Str → PSt → Res PSt) (code : PCode) (v : Str) (s : PSt) : Res (Option PSt) :=
  let put (p : PProp) : Res (Option PSt) := .ok (some { s with prop := p })
  match code with
  | .debug => (parseBoolA v).bind fun b => put { s.prop with debug := b }
  | .bounds =>
    match parseList v ',' 4 4 with
    | some [a, b, c, d] => (setMany mset [("left", a), ("top", b), ("width", c), ("height", d)] s).bind fun s => .ok (some s)
    | _ => .ok none
  | .focusIndex => put { s.prop with focusIndex := v }
  | .focusBorderColor => (e.parseColor v).bind fun c => put { s.prop with focusBorderColor := c }
  | .focusBorderWidth => (parseInt v).bind fun n => put { s.prop with focusBorderWidth := n }
  | .focusBorderTransparency => put { s.prop with focusBorderTransparency := opacity e.F v }
  | .selBorderColor => (e.parseColor v).bind fun c => put { s.prop with selBorderColor := c }
  | .location =>
    match parseList v ',' 2 2 with
    | some [a, b] => (setMany mset [("left", a), ("top", b)] s).bind fun s => .ok (some s)
    | _ => .ok none
  | .size =>
    match parseList v ',' 2 2 with
    | some [a, b] => (setMany mset [("width", a), ("height", b)] s).bind fun s => .ok (some s)
    | _ => .ok none
  | .left => put { s.prop with x := parsePercent e.F v s.W 0 INTMAX, dirty := true }
  | .right => (int32 (s.W - s.prop.w)).bind fun d => (int32 (d - parsePercent e.F v s.W 0 INTMAX)).bind fun x =>
      put { s.prop with x := x, dirty := true }
  | .top => put { s.prop with y := parsePercent e.F v s.H 0 INTMAX, dirty := true }
  | .bottom => (int32 (s.H - s.prop.h)).bind fun d => (int32 (d - parsePercent e.F v s.prop.h 0 INTMAX)).bind fun y =>
      put { s.prop with y := y, dirty := true }
  | .width =>
    let s := { s with prop := { s.prop with w := parsePercent e.F v s.W 0 INTMAX, dirty := true } }
    if s.media "right" ≠ [] then (mset "right" (s.media "right") s).bind fun s => .ok (some s) else .ok (some s)
  | .height =>
    let s := { s with prop := { s.prop with h := parsePercent e.F v s.H 0 INTMAX, dirty := true } }
    if s.media "bottom" ≠ [] then (mset "bottom" (s.media "bottom") s).bind fun s => .ok (some s) else .ok (some s)
  | .zIndex => (parseInt v).bind fun n => put { s.prop with z := n }
  | .zOrder => (parseInt v).bind fun n => put { s.prop with zo := n }
  | .transparency => put { s.prop with alpha := opacity e.F v }
  | .background => if v = [] then put { s.prop with bg := (0, 0, 0, 0) } else (e.parseColor v).bind fun c => put { s.prop with bg := c }
  | .visible => (parseBoolA v).bind fun b => put { s.prop with visible := b }
  | .duration => if v = "indefinite".toList then put { s.prop with duration := NONE }
      else (parseTimeA e.F v).bind fun t => put { s.prop with duration := t }
  | .uri => put { s.prop with uri := v }
  | .type => put { s.prop with type := v }
  | _ => .ok (some s)

/-- `Player::setProperty` (lib/Player.cpp:291-331).  An unknown property of an NCLua object reaches `doSetProperty` too,
which in the base class does nothing with it. -/
def playerSet1 (e : PEnv) (mset : String → Str → PSt → Res PSt) (name : String) (v : Str) (s : PSt) : Res PSt :=
  let pre := if name = "transIn" ∨ name = "transOut" then e.trans v else .ok ()
  pre.bind fun _ =>
    match propInfo name with
    | none => .ok { s with player := upd s.player name v }
    | some (code, defval) =>
      (doSetProperty e mset code (if v = [] then defval else v) s).bind fun r =>
        match r with
        | none => .abort
        | some s => .ok { s with player := upd s.player name v }

/-- `Media::setProperty` with duration 0 (lib/Media.cpp:62-76), given `Player::setProperty`. -/
def mediaSet1 (pset : String → Str → PSt → Res PSt) (name : String) (v : Str) (s : PSt) : Res PSt :=
  let s := { s with media := upd s.media name v }
  if s.attached then pset name v s else .ok s

/-- `Player::setProperty`, with a bound on the mutual recursion (at most three levels deep: `playerSet_stable`). -/
def playerSet (e : PEnv) : Nat → String → Str → PSt → Res PSt
  | 0 => fun _ _ _ => .fuel
  | n + 1 => playerSet1 e (mediaSet1 (playerSet e n))

/-- `Media::setProperty`. -/
def mediaSet (e : PEnv) (name : String) (v : Str) (s : PSt) : Res PSt := mediaSet1 (playerSet e 3) name v s

/-- `Player::getProperty` (lib/Player.cpp:285-289). -/
def PSt.get (s : PSt) (name : String) : Str := s.player name

/-- The loop of `Player::resetProperties` (lib/Player.cpp:333-337). -/
def resetLoop (e : PEnv) : List (String × PCode × Bool × String) → PSt → Res PSt
  | [], s => .ok s
  | p :: l, s => if p.2.2.1 then (playerSet e 3 p.1 [] s).bind (resetLoop e l) else resetLoop e l s

/-- `Player::resetProperties` (lib/Player.cpp:333-339). -/
def resetProps (e : PEnv) (s : PSt) : Res PSt := (resetLoop e propTable s).bind fun s => .ok { s with player := fun _ => [] }

/-- `Player::Player` (lib/Player.cpp:168-186): `p0` is what the memory contained. -/
def newPlayer (e : PEnv) (W H : Int) (media : Store) (p0 : PProp) : Res PSt :=
  resetProps e { W := W, H := H, media := media, player := fun _ => [], prop := p0, attached := false }

/-- `UPDATE_IF_HAVE` (lib/Formatter.cpp:208-213). -/
def updateIfHave (e : PEnv) (name : String) (s : PSt) : Res PSt :=
  if s.media name ≠ [] then mediaSet e name (s.media name) s else .ok s

/-- `Formatter::resize` seen from one media object with a player, while playing (lib/Formatter.cpp:194-222). -/
def resizeMedia (e : PEnv) (W H : Int) (s : PSt) : Res PSt :=
  if ¬ (W > 0 ∧ H > 0) then .abort
  else
    (updateIfHave e "top" { s with W := W, H := H }).bind fun s => (updateIfHave e "left" s).bind fun s =>
    (updateIfHave e "width" s).bind fun s => (updateIfHave e "height" s).bind fun s =>
    (updateIfHave e "bottom" s).bind fun s => updateIfHave e "right" s

/-! ## Kinds of players (lib/Player.cpp:41-105, 530-624) -/

/-- `mime_table` (lib/Player.cpp:41-88). -/
def mimeTable : List (String × String) :=
  [("ac3", "audio/ac3"), ("avi", "video/x-msvideo"), ("avif", "image/avif"), ("bmp", "image/bmp"), ("bpg", "image/x-bpg"),
   ("class", "application/x-ginga-NCLet"), ("css", "text/css"), ("gif", "image/gif"), ("htm", "text/html"), ("html", "text/html"),
   ("heic", "image/heic"), ("heif", "image/heic"), ("jpeg", "image/jpeg"), ("jpg", "image/jpeg"), ("lua", "application/x-ginga-NCLua"),
   ("mov", "video/quicktime"), ("mp2", "audio/mp2"), ("mp3", "audio/mp3"), ("mp4", "video/mp4"), ("mpa", "audio/mpa"),
   ("mpeg", "video/mpeg"), ("mpg", "video/mpeg"), ("mpv", "video/mpv"), ("ncl360", "application/x-ncl360"), ("ncl", "application/x-ginga-ncl"),
   ("oga", "audio/ogg"), ("ogg", "audio/ogg"), ("ogv", "video/ogg"), ("opus", "audio/ogg"), ("png", "image/png"),
   ("smil", "application/smil"), ("spx", "audio/ogg"), ("srt", "text/srt"), ("ssml", "application/ssml+xml"), ("svg", "image/svg+xml"),
   ("svgz", "image/svg+xml"), ("ts", "video/mpeg"), ("txt", "text/plain"), ("wav", "audio/basic"), ("webp", "image/x-webp"),
   ("wmv", "video/x-ms-wmv"), ("xlet", "application/x-ginga-NCLet"), ("xlt", "application/x-ginga-NCLet"), ("xml", "text/xml")]

/-- `mime_table_index`. -/
def mimeIndex (ext : Str) : Option Str := (mimeTable.find? fun p => p.1.toList == ext).map fun p => p.2.toList

/-- The part of a string after its last dot; `none` without a dot (`find_last_of`, `substr`). -/
def afterLastDot (s : Str) : Option Str :=
  if '.' ∈ s then some (s.reverse.takeWhile (· != '.')).reverse else none

/-- `Player::getMimeForURI` (lib/Player.cpp:530-546). -/
def mimeForURI (uri : Str) : Option Str :=
  match afterLastDot uri with
  | none => none
  | some ext => if ext = [] then none else mimeIndex ext

/-- The classes of players. -/
inductive PlayerKind | video | sigGen | image | text | remote | html | svg | lua | plain
  deriving DecidableEq, Repr

/-- `xstrhasprefix` (lib/aux-ginga.cpp:465-469). -/
def hasPrefix (s p : Str) : Bool := p.isPrefixOf s

/-- The mime type given or guessed by `createPlayer` (lib/Player.cpp:556-561). -/
def rawMime (uri type : Str) : Str := if type = [] ∧ uri ≠ [] then (mimeForURI uri).getD [] else type

/-- The mime type used by `createPlayer` (lib/Player.cpp:556-564). -/
def effectiveMime (uri type : Str) : Str :=
  if rawMime uri type = [] then "application/x-ginga-timer".toList else rawMime uri type

/-- `PlayerRemote::usesPlayerRemote` (lib/PlayerRemote.cpp:43-56). -/
def usesRemote (media : Store) : Bool :=
  let mime := if media "type" = [] then (mimeForURI (media "uri")).getD [] else media "type"
  mime == "application/x-ncl360".toList || media "device" != []

/-- `Player::createPlayer` (lib/Player.cpp:548-624): the class of the player; `cef`: compiled with CEF. -/
def playerKind (cef : Bool) (media : Store) (uri type : Str) : Res PlayerKind :=
  let mime := effectiveMime uri type
  if mime = "application/x-ginga-ncl".toList then .abort
  else if hasPrefix mime "audio".toList || hasPrefix mime "video".toList then .ok .video
  else if mime = "application/x-ginga-siggen".toList then .ok .sigGen
  else if hasPrefix mime "image".toList then .ok .image
  else if mime = "text/plain".toList then .ok .text
  else if usesRemote media then .ok .remote
  else if cef && hasPrefix mime "text/html".toList then .ok .html
  else if hasPrefix mime "image/svg".toList then .ok .svg
  else if mime = "application/x-ginga-NCLua".toList then .ok .lua
  else if mime ≠ "application/x-ginga-timer".toList ∧ uri ≠ [] ∧ media "uri" ≠ [] then .abort
  else .ok .plain

end Ginga
