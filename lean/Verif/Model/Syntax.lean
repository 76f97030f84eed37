import Verif.Model.Registry
/-!
# NCL syntax (lib/Parser.cpp:92-109, 438-960, 2009-2144)

The XML reader (libxml2) is not modelled: a document is a tree of elements.  Text, comments and processing instructions,
which the parser skips, are left out; attribute names are without namespace prefix, as libxml2 gives them.
-/
namespace Ginga

/-- An XML element. -/
inductive Xml where
  | elem (tag : String) (attrs : List (String × String)) (children : List Xml)

def Xml.tag : Xml → String | .elem t _ _ => t
def Xml.attrs : Xml → List (String × String) | .elem _ a _ => a
def Xml.children : Xml → List Xml | .elem _ _ c => c

/-- `xmlGetProp`. -/
def Xml.prop (x : Xml) (name : String) : Option String := (x.attrs.find? fun p => p.1 == name).map (·.2)

/-- `xmlFindAllChildren` (lib/Parser.cpp:75-89). -/
def Xml.findAll (x : Xml) (tag : String) : List Xml := x.children.filter fun c => c.tag == tag

/-- `g_ascii_isalnum`. -/
def isAlnum (c : Char) : Bool := ('a' ≤ c && c ≤ 'z') || ('A' ≤ c && c ≤ 'Z') || ('0' ≤ c && c ≤ '9')

/-- `xmlIsValidName` (lib/Parser.cpp:92-109). -/
def validName (s : String) : Bool :=
  s.toList.all fun c => isAlnum c || c == '-' || c == '_' || c == ':' || c == '.' || c == '#'

/-- `ParserSyntaxAttrFlag` (lib/Parser.cpp:379-406). -/
structure AttrFlags where
  nonempty : Bool := false
  required : Bool := false
  isId : Bool := false
  isIdRef : Bool := false
  isName : Bool := false
  unique : Bool := false
  deriving DecidableEq, Repr

/-- No flags. -/
def aNone : AttrFlags := {}
/-- `ATTR_REQUIRED`. -/
def aReq : AttrFlags := { required := true }
/-- `ATTR_NONEMPTY_NAME`. -/
def aName : AttrFlags := { nonempty := true, isName := true }
/-- `ATTR_REQUIRED_NONEMPTY_NAME`. -/
def aReqName : AttrFlags := { required := true, nonempty := true, isName := true }
/-- `ATTR_ID`. -/
def aId : AttrFlags := { unique := true, required := true, nonempty := true, isName := true, isId := true }
/-- `ATTR_OPT_ID`. -/
def aOptId : AttrFlags := { unique := true, nonempty := true, isName := true, isId := true }
/-- `ATTR_IDREF`. -/
def aRef : AttrFlags := { required := true, nonempty := true, isName := true, isIdRef := true }
/-- `ATTR_OPT_IDREF`. -/
def aOptRef : AttrFlags := { nonempty := true, isName := true, isIdRef := true }

/-- The push functions (lib/Parser.cpp:236-265); they are in `Verif.Model.Parser`. -/
inductive Push
  | none | ncl | region | descriptorParam | causalConnector | compoundCondition | simpleCondition | compoundStatement
  | attributeAssessment | rule | importBase | context | port | switch | switchPort | mapping | bindRule | media | area
  | property | link | linkParam | bind | font
  deriving DecidableEq, Repr

/-- The pop functions. -/
inductive Pop
  | none | ncl | region | causalConnector | compoundStatement | assessmentStatement | context | switch | media
  deriving DecidableEq, Repr

/-- `ParserSyntaxElt` (lib/Parser.cpp:361-373). -/
structure EltSyn where
  tag : String
  push : Push := .none
  pop : Pop := .none
  cache : Bool := false
  genId : Bool := false
  parents : List String
  attrs : List (String × AttrFlags)
  deriving DecidableEq, Repr

/-- Attributes without flags. -/
def plain (l : List String) : List (String × AttrFlags) := l.map fun n => (n, aNone)

/-- `parser_syntax_table` (lib/Parser.cpp:438-853). -/
def syntaxTable : List EltSyn :=
  [{ tag := "ncl", push := .ncl, pop := .ncl, parents := [], attrs := ("id", aOptId) :: plain ["title", "schemaLocation", "xmlns"] },
   { tag := "head", parents := ["ncl"], attrs := [] },
   { tag := "regionBase", cache := true, parents := ["head"], attrs := ("id", aOptId) :: plain ["device", "region"] },
   { tag := "region", push := .region, pop := .region, cache := true, parents := ["region", "regionBase"],
     attrs := ("id", aId) :: plain ["title", "left", "right", "top", "bottom", "height", "width", "zIndex"] },
   { tag := "descriptorBase", cache := true, parents := ["head"], attrs := [("id", aOptId)] },
   { tag := "descriptor", cache := true, parents := ["descriptorBase"],
     attrs := ("id", aId) :: plain ["player", "explicitDur"] ++ ("region", aOptRef) ::
       plain ["freeze", "moveLeft", "moveRight", "moveUp", "moveDown", "focusIndex", "focusBorderColor", "focusBorderWidth",
         "focusBorderTransparency", "focusSrc", "focusSelSrc", "selBorderColor", "transIn", "transOut",
         "left", "right", "top", "bottom", "height", "width", "zIndex"] },
   { tag := "descriptorParam", push := .descriptorParam, parents := ["descriptor"], attrs := [("name", aReqName), ("value", aReq)] },
   { tag := "connectorBase", cache := true, parents := ["head"], attrs := [("id", aOptId)] },
   { tag := "causalConnector", push := .causalConnector, pop := .causalConnector, cache := true, parents := ["connectorBase"], attrs := [("id", aId)] },
   { tag := "connectorParam", parents := ["causalConnector"], attrs := [("name", aName), ("type", aNone)] },
   { tag := "compoundCondition", push := .compoundCondition, cache := true, parents := ["causalConnector", "compoundCondition"],
     attrs := plain ["operator", "delay"] },
   { tag := "simpleCondition", push := .simpleCondition, parents := ["causalConnector", "compoundCondition"],
     attrs := ("role", aReqName) :: plain ["eventType", "key", "transition", "delay", "min", "max", "qualifier"] },
   { tag := "compoundAction", parents := ["causalConnector", "compoundAction"], attrs := plain ["operator", "delay"] },
   { tag := "simpleAction", push := .simpleCondition, parents := ["causalConnector", "compoundAction"],
     attrs := ("role", aReqName) :: plain ["eventType", "actionType", "duration", "value", "delay", "min", "max", "qualifier",
       "repeat", "repeatDelay", "by"] },
   { tag := "compoundStatement", push := .compoundStatement, pop := .compoundStatement, cache := true, parents := ["compoundCondition", "compoundStatement"],
     attrs := [("operator", aReq), ("isNegated", aNone)] },
   { tag := "assessmentStatement", pop := .assessmentStatement, cache := true, parents := ["compoundCondition", "compoundStatement"],
     attrs := [("comparator", aReq)] },
   { tag := "attributeAssessment", push := .attributeAssessment, parents := ["assessmentStatement"],
     attrs := ("role", aReqName) :: plain ["eventType", "key", "attributeType", "offset"] },
   { tag := "valueAssessment", push := .attributeAssessment, parents := ["assessmentStatement"], attrs := [("value", aReq)] },
   { tag := "ruleBase", cache := true, parents := ["head"], attrs := [("id", aOptId)] },
   { tag := "compositeRule", push := .rule, cache := true, parents := ["ruleBase", "compositeRule"], attrs := [("id", aId), ("operator", aReq)] },
   { tag := "rule", push := .rule, cache := true, parents := ["ruleBase", "compositeRule"],
     attrs := [("id", aId), ("var", aReqName), ("comparator", aReq), ("value", aReq)] },
   { tag := "transitionBase", cache := true, parents := ["head"], attrs := [("id", aOptId)] },
   { tag := "transition", cache := true, parents := ["transitionBase"],
     attrs := ("id", aId) :: ("type", aReqName) :: ("subtype", aName) ::
       plain ["dur", "startProgress", "endProgress", "direction", "fadeColor", "horzRepeat", "vertRepeat", "borderWidth",
         "borderColor"] },
   { tag := "importBase", push := .importBase, cache := true,
     parents := ["connectorBase", "descriptorBase", "regionBase", "ruleBase", "transitionBase", "fontBase"],
     attrs := ("alias", aReqName) :: ("documentURI", aReq) :: plain ["region", "baseId"] },
   { tag := "fontBase", cache := true, parents := ["head"], attrs := [] },
   { tag := "font", push := .font, cache := true, parents := ["fontBase"],
     attrs := [("fontFamily", aReq), ("src", aReq), ("fontStyle", aNone), ("fontWeight", aNone)] },
   { tag := "body", push := .context, pop := .context, cache := true, parents := ["ncl"], attrs := [("id", aOptId)] },
   { tag := "context", push := .context, pop := .context, cache := true, parents := ["body", "context", "switch"], attrs := [("id", aId), ("refer", aOptRef)] },
   { tag := "port", push := .port, cache := true, parents := ["body", "context"],
     attrs := [("id", aId), ("component", aRef), ("interface", aOptRef)] },
   { tag := "switch", push := .switch, pop := .switch, cache := true, parents := ["body", "context", "switch"], attrs := [("id", aId), ("refer", aOptRef)] },
   { tag := "switchPort", push := .switchPort, cache := true, parents := ["switch"], attrs := [("id", aId)] },
   { tag := "mapping", push := .mapping, cache := true, parents := ["switchPort"], attrs := [("component", aRef), ("interface", aOptRef)] },
   { tag := "bindRule", push := .bindRule, cache := true, parents := ["switch"], attrs := [("constituent", aRef), ("rule", aRef)] },
   { tag := "defaultComponent", push := .bindRule, cache := true, parents := ["switch"], attrs := [("component", aRef)] },
   { tag := "media", push := .media, pop := .media, cache := true, parents := ["body", "context", "switch"],
     attrs := [("id", aId), ("src", aNone), ("type", aNone), ("descriptor", aOptRef), ("refer", aOptRef), ("instance", aNone)] },
   { tag := "area", push := .area, parents := ["media"], attrs := ("id", aId) :: plain ["begin", "end", "label"] },
   { tag := "property", push := .property, parents := ["body", "context", "media"], attrs := [("name", aReqName), ("value", aNone)] },
   { tag := "link", push := .link, cache := true, genId := true, parents := ["body", "context"], attrs := [("id", aOptId), ("xconnector", aRef)] },
   { tag := "linkParam", push := .linkParam, parents := ["link"], attrs := [("name", aReqName), ("value", aReq)] },
   { tag := "bind", push := .bind, cache := true, parents := ["link"],
     attrs := [("role", aReqName), ("component", aRef), ("interface", aOptRef)] },
   { tag := "bindParam", push := .linkParam, parents := ["bind"], attrs := [("name", aReqName), ("value", aReq)] }]

/-- `parser_syntax_table_index` (lib/Parser.cpp:856-864). -/
def syntaxOf (tag : String) : Option EltSyn := syntaxTable.find? fun e => e.tag == tag

/-- `parser_syntax_table_get_possible_children` (lib/Parser.cpp:867-877), as a test. -/
def possibleChild (tag child : String) : Bool := syntaxTable.any fun e => e.tag == child && e.parents.contains tag

/-- `parser_syntax_reserved_role_table` (lib/Parser.cpp:880-903). -/
def roleTable : List (String × EType × Trans) :=
  [("onBegin", .presentation, .start), ("onEnd", .presentation, .stop), ("onAbort", .presentation, .abort),
   ("onPause", .presentation, .pause), ("onResume", .presentation, .resume), ("onBeginAttribution", .attribution, .start),
   ("onEndAttribution", .attribution, .stop), ("onSelection", .selection, .start), ("onLookAt", .lookat, .start),
   ("onLookAway", .lookat, .stop), ("onBeginSelection", .selection, .start), ("onEndSelection", .selection, .stop),
   ("start", .presentation, .start), ("stop", .presentation, .stop), ("abort", .presentation, .abort),
   ("pause", .presentation, .pause), ("resume", .presentation, .resume), ("set", .attribution, .start)]

/-- `parser_syntax_reserved_role_table_index` (lib/Parser.cpp:906-919): whether the role is a condition, type, transition. -/
def roleInfo (role : String) : Option (Bool × EType × Trans) :=
  (roleTable.find? fun p => p.1 == role).map fun p => ("on".toList.isPrefixOf role.toList, p.2.1, p.2.2)

/-- `parser_syntax_event_type_table` (lib/Parser.cpp:922-927). -/
def eventTypeOf (s : String) : Option EType :=
  if s = "presentation" then some .presentation else if s = "attribution" then some .attribution
  else if s = "selection" then some .selection else if s = "lookat" then some .lookat else none

/-- `parser_syntax_transition_table` (lib/Parser.cpp:930-936). -/
def transitionOf (s : String) : Option Trans :=
  if s = "start" ∨ s = "starts" then some .start else if s = "pause" ∨ s = "pauses" then some .pause
  else if s = "resume" ∨ s = "resumes" then some .resume else if s = "stop" ∨ s = "stops" then some .stop
  else if s = "abort" ∨ s = "aborts" then some .abort else none

/-- The connectives. -/
inductive Conn | not | and | or
  deriving DecidableEq, Repr

/-- `parser_syntax_connective_table` (lib/Parser.cpp:939-943). -/
def connOf (s : String) : Option Conn :=
  if s = "not" then some .not else if s = "and" then some .and else if s = "or" then some .or else none

/-- `parser_syntax_comparator_table` (lib/Parser.cpp:946-953). -/
def testOf (s : String) : Option Test :=
  if s = "eq" then some .eq else if s = "ne" then some .ne else if s = "lt" then some .lt
  else if s = "lte" then some .le else if s = "gt" then some .gt else if s = "gte" then some .ge else none

/-- `genId` (lib/Parser.cpp:1088-1093): the text. -/
def genIdText (n : Nat) : String := "__unamed-" ++ toString n ++ "__"

/-- The part of the parser state used by `checkNode`. -/
structure SynSt where
  /-- `_genid` -/
  genid : Nat
  /-- `_unique` -/
  unique : List String

/-- The attribute loop of `checkNode` (lib/Parser.cpp:2049-2119).  `full`: the caller asked for the attributes
(`attrs != nullptr`); `pre`: the import prefix; `none`: a syntax error. -/
def checkAttrs (x : Xml) (syn : EltSyn) (full : Bool) (pre : String) :
    List (String × AttrFlags) → List (String × String) → SynSt → Res (Option (List (String × String) × SynSt))
  | [], acc, s => .ok (some (acc, s))
  | (name, fl) :: rest, acc, s =>
    match x.prop name with
    | none =>
      if name = "id" ∧ syn.genId then
        if full then
          if s.unique.contains (genIdText s.genid) then .abort
          else checkAttrs x syn full pre rest (mset "id" (genIdText s.genid) acc) { s with genid := s.genid + 1 }
        else checkAttrs x syn full pre rest acc s
      else if fl.required then .ok none
      else checkAttrs x syn full pre rest acc s
    | some v =>
      if fl.nonempty ∧ v = "" then .ok none
      else if fl.isName ∧ ¬ validName v then .ok none
      else
        let v := if fl.isId ∨ fl.isIdRef then pre ++ v else v
        if fl.unique then
          if s.unique.contains v then .ok none
          else checkAttrs x syn full pre rest (if full then mset name v acc else acc) { s with unique := v :: s.unique }
        else checkAttrs x syn full pre rest (if full then mset name v acc else acc) s

/-- The parent check of `checkNode` (lib/Parser.cpp:2025-2047); `parent` is the tag of the parent element, `none` for the
root. -/
def parentOk (syn : EltSyn) (parent : Option String) : Bool :=
  if syn.parents.length > 0 then
    match parent with
    | none => false
    | some p => syn.parents.contains p
  else true

/-- `checkNode` (lib/Parser.cpp:2009-2144): syntax entry and attributes; `none` is a syntax error. -/
def checkNode (full : Bool) (pre : String) (parent : Option String) (x : Xml) (s : SynSt) :
    Res (Option (EltSyn × List (String × String) × SynSt)) :=
  match syntaxOf x.tag with
  | none => .ok none
  | some syn =>
    if ¬ parentOk syn parent then .ok none
    else
      (checkAttrs x syn full pre syn.attrs [] s).bind fun r =>
        match r with
        | none => .ok none
        | some (attrs, s) =>
          if full ∧ ¬ x.attrs.all (fun p => (mget p.1 attrs).isSome) then .ok none
          else if ¬ x.children.all (fun c => possibleChild x.tag c.tag) then .ok none
          else .ok (some (syn, attrs, s))

end Ginga
