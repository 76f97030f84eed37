import Verif.Model.Formatter
/-!
# The web service

Model of the request handlers of lib/WebServices.cpp: `cb_apps` (130-213), `cb_remoteplayer`
(95-128) and `WebServices::machMediaThenSetPlayerRemote` (283-328).  Handlers run in the main
loop, on the formatter of the service.

Outside the model: libsoup (a request is its path and body), jsoncpp's parser (an arbitrary
function from bodies to values), SSDP, the notifications posted to the remote player (303-323)
and log messages.
-/
namespace Ginga

/-- A jsoncpp `Json::Value`.  `text s`: a value that `asString` can convert (string, boolean or
number), with its conversion. -/
inductive Json where
  | null
  | text (s : String)
  | arr (items : List Json)
  | obj (fields : List (String × Json))

/-- `Json::Value::operator[] (const char *)`: a missing member is null; on a value that is neither
null nor an object jsoncpp throws, and no handler catches: the process ends. -/
def Json.field (k : String) : Json → Res Json
  | .null => .ok .null
  | .obj fs => .ok (((fs.find? fun p => p.1 == k).map (·.2)).getD .null)
  | .text _ => .abort
  | .arr _ => .abort

/-- `Json::Value::asString ()`: throws on arrays and objects. -/
def Json.asString : Json → Res String
  | .null => .ok ""
  | .text s => .ok s
  | .arr _ => .abort
  | .obj _ => .abort

/-- The values visited by `for (const auto &item : value)`. -/
def Json.items : Json → List Json
  | .null => []
  | .text _ => []
  | .arr l => l
  | .obj fs => fs.map (·.2)

/-- `root[k].asString ()`. -/
def Json.str (j : Json) (k : String) : Res String := (j.field k).bind Json.asString

/-- `list.push_back (item.asString ())` for each item (lib/WebServices.cpp:118-121). -/
def strings : List Json → Res (List String)
  | [] => .ok []
  | j :: js => (Json.asString j).bind fun s => (strings js).bind fun ss => .ok (s :: ss)

/-- The loop of `g_strsplit (target, "/", n)` on a non-empty string: at most `n` tokens, the last
one is the rest of the string. -/
def splitPath : Nat → List Char → List (List Char)
  | 0, s => [s]
  | 1, s => [s]
  | n + 2, s =>
    match splitFirst '/' s with
    | none => [s]
    | some (a, b) => a :: splitPath (n + 1) b

/-- `g_strsplit (target, "/", 3)` (lib/WebServices.cpp:146): an empty string has no tokens. -/
def pathTokens (target : List Char) : List (List Char) :=
  if target = [] then [] else splitPath 3 target

/-- `!strlen (params[i])`; the token after the last one is a null pointer. -/
def emptyToken (ts : List (List Char)) (i : Nat) : Res Bool :=
  match ts[i]? with
  | none => .ub
  | some t => .ok (t = [])

/-- `Document::getObjectById` (lib/Document.cpp:97-104); see `Doc.byIdOrAlias`. -/
def Doc.byId (d : Doc) (id : String) : Option Oid := d.objs.find? (fun o => (d.obj o).id == id)

/-- Replies of a handler. -/
inductive Status | ok | notFound
  deriving DecidableEq, Repr

/-- `doc->evalAction (evt, transition)` for each transition (lib/WebServices.cpp:178-201,
Document.cpp:229-243). -/
def evalSeq (r : Rec) (e : Eid) : List Trans → M Unit
  | [] => pure ()
  | t :: ts => do
    let _ ← r.evalA { ev := e, tr := t }
    evalSeq r e ts

/-- The dispatch on the action (lib/WebServices.cpp:173-206).  A null event is dereferenced by
`Document::evalAction`. -/
def appsDispatch (n : Nat) (d : Doc) (f : Fmt) (o : Oid) (action iface value : String) :
    Res (Status × Fmt) :=
  let done := fun (e : Eid) (ts : List Trans) =>
    (f.run (evalSeq (run d n) e ts)).bind fun p => Res.ok (Status.ok, p.2)
  let look := if iface ≠ "" then iface else "@lambda"
  if action = "select" then
    match d.getEvent o .selection value with
    | none => .ub
    | some e => done e [.start, .stop]
  else if action = "lookAt" then
    match d.getEvent o .lookat look with
    | none => .ok (.notFound, f)
    | some e => done e [.start]
  else if action = "lookAway" then
    match d.getEvent o .lookat look with
    | none => .ok (.notFound, f)
    | some e => done e [.stop]
  else .ok (.notFound, f)

/-- The part of `cb_apps` after the checks of the path (lib/WebServices.cpp:159-206). -/
def appsBody (n : Nat) (d : Doc) (f : Fmt) (parse : String → Bool × Json) (node : String)
    (body : String) : Res (Status × Fmt) :=
  if (parse body).1 then
    ((parse body).2.str "action").bind fun action =>
    ((parse body).2.str "interface").bind fun iface =>
    ((parse body).2.str "value").bind fun value =>
      match d.byId node with
      | none => .ok (.notFound, f)
      | some o => appsDispatch n d f o action iface value
  else .ok (.notFound, f)

/-- `cb_apps` (lib/WebServices.cpp:130-213) for a request whose path is
`/current-service/apps/` followed by `target`. -/
def webApps (n : Nat) (parse : String → Bool × Json) (f : Fmt) (target : List Char)
    (body : String) : Res (Status × Fmt) :=
  match f.doc with
  | none => .abort
  | some d =>
    let ts := pathTokens target
    (emptyToken ts 0).bind fun a => if a then .ok (.notFound, f) else
    (emptyToken ts 1).bind fun b => if b then .ok (.notFound, f) else
    (emptyToken ts 2).bind fun c => if c then .ok (.notFound, f) else
    appsBody n d f parse (String.ofList (ts.getD 2 [])) body

/-! ## Registration of a remote player -/

/-- `PlayerRemoteData` (lib/WebServices.h:44-53). -/
structure RemoteData where
  location : String
  deviceType : String
  formats : List String
  events : List String

/-- `PlayerRemoteData::isValid` (lib/WebServices.cpp:24-29). -/
def RemoteData.valid (r : RemoteData) : Bool :=
  r.location ≠ "" ∧ r.deviceType ≠ "" ∧ r.formats ≠ [] ∧ r.events ≠ []

/-- The loop over the supported formats (lib/WebServices.cpp:299-301). -/
def matchFormats (d : Doc) (o : Oid) (url : String) : List String → M Unit
  | [] => pure ()
  | m :: ms => do
    let s ← M.get
    if s.getProp o "type" = m then mediaSetProp d o "remotePlayerBaseURL" url 0 else pure ()
    matchFormats d o url ms

/-- One iteration over the remote medias (lib/WebServices.cpp:292-301). -/
def matchMedia (d : Doc) (data : RemoteData) (o : Oid) : M Unit := do
  let s ← M.get
  if s.getProp o "device" = data.deviceType then
    mediaSetProp d o "remotePlayerBaseURL" data.location 0 else pure ()
  matchFormats d o data.location data.formats

/-- `WebServices::machMediaThenSetPlayerRemote` (lib/WebServices.cpp:283-328); `remote` is
`Document::getMediasRemote ()`, in address order. -/
def machMedia (f : Fmt) (remote : List Oid) (data : RemoteData) : Res (Bool × Fmt) :=
  match f.doc with
  | none => .ok (false, f)
  | some d =>
    if remote = [] then .ok (false, f)
    else (f.run (forAll (matchMedia d data) remote)).bind fun p => .ok (true, p.2)

/-- `cb_remoteplayer` (lib/WebServices.cpp:95-128).  A body that does not parse is only logged:
the handler goes on with whatever value the parser left. -/
def webPlayer (parse : String → Bool × Json) (f : Fmt) (remote : List Oid) (body : String) :
    Res (Status × Fmt) :=
  let root := (parse body).2
  (root.str "location").bind fun loc =>
  (root.str "deviceType").bind fun dev =>
  (root.field "supportedFormats").bind fun j1 => (strings j1.items).bind fun formats =>
  (root.field "recognizableEvents").bind fun j2 => (strings j2.items).bind fun events =>
  let data : RemoteData := { location := loc, deviceType := dev, formats := formats, events := events }
  if data.valid then
    (machMedia f remote data).bind fun p => .ok (if p.1 then .ok else .notFound, p.2)
  else .ok (.notFound, f)

end Ginga
