import Verif.Model.Syntax
import Verif.Model.Player
/-!
# The NCL parser (lib/Parser.cpp)

From a tree of XML elements to a document.  A parser function that returns `false` (a syntax error, reported to the user) is
`ok none`; a failed assertion is `abort`.  After an error the whole parse is abandoned, so the state left behind by a
failing function is not kept; error messages are not modelled.

Not modelled: libxml2 (documents are trees, `PRead.file` reads an imported one), path and URI manipulation
(`PRead.importUri`, `PRead.srcUri`), fontconfig (`PRead.font`), `printf ("%g")` (`PRead.fmtG`).
`PRead.addr k` is the address of the k-th allocation.
-/
namespace Ginga

/-- What the parser takes from outside. -/
structure PRead where
  F : FP
  /-- `xstrbuild ("%g", x)` -/
  fmtG : Rat → String
  /-- `xmlReadFile` of an imported document: its root element -/
  file : String → Option Xml
  /-- lib/Parser.cpp:3468-3478: the URI of an imported document from that of the importing one and the attribute -/
  importUri : String → String → Res String
  /-- lib/Parser.cpp:3974-3986: the URI of a media object -/
  srcUri : String → String
  /-- the URI of the main document -/
  uri : String
  /-- whether fontconfig accepts a font file -/
  font : String → Bool
  addr : Nat → Nat
  /-- the order in which the compiler evaluates the arguments of the call that builds the text of a transition
  (lib/Parser.cpp:2387-2426), by the names of the attributes read: C++ leaves it open -/
  argOrder : List String

/-- `ParserConnRole` (lib/Parser.cpp:152-168).  The predicate is computed when the role is bound; of the node only the
element of its parent is used. -/
structure Role where
  parent : Nat
  role : String
  typ : EType
  tr : Trans
  cond : Bool
  duration : String := ""
  delay : String := ""
  key : String := ""
  value : String := ""

/-- `ParserLinkBind` (lib/Parser.cpp:171-180): the other fields are attributes and data of the element. -/
structure Bind where
  elt : Nat
  role : String

/-- A `Predicate` on the heap: children are addresses (numbers of allocation). -/
inductive PNode where
  | atom (l : String) (t : Test) (r : String)
  | node (c : Conn) (children : List Nat)

/-- `ParserElt` (lib/Parser.cpp:122-144).  The user data are fields; lists and maps that a push function creates are empty
from the start (they are only used on elements whose push function has created them: see the parents in the
syntax table). -/
structure Elt where
  tag : String
  /-- element of the parent node, `none` if the parent has none or it is not known to this document (imports) -/
  parent : Option Nat
  attrs : List (String × String)
  pred : Option Nat := none
  left : Option String := none
  right : Option String := none
  ports : List String := []
  switchPorts : List String := []
  rules : List (Nat × Option Nat) := []
  mappings : List Nat := []
  context : Option Nat := none
  binds : List Bind := []
  params : List (String × String) := []
  roles : List Role := []
  tests : List String := []

/-- A rectangle. -/
structure Rect where
  x : Int
  y : Int
  w : Int
  h : Int
  deriving DecidableEq, Repr

/-- `ParserState` (lib/Parser.cpp:185-335) and the document under construction. -/
structure PS where
  syn : SynSt
  elt : Nat → Elt
  nelt : Nat
  /-- `_eltCache`, `_eltCacheByTag`: elements in order of insertion -/
  cache : List Nat
  pnode : Nat → PNode
  npred : Nat
  /-- `_aliasStack`, oldest first -/
  aliases : List (String × String)
  /-- `_objStack`, top first -/
  objs : List Nat
  /-- `_rectStack`, top first -/
  rects : List Rect
  /-- `_referMap`, in key order -/
  refer : List (String × Nat)
  /-- user data "conn-elt" -/
  conn : Option Nat
  /-- `last_zorder` (static) -/
  zorder : Nat
  reg : Reg
  /-- allocations so far -/
  nalloc : Nat
  /-- `Object::_properties` -/
  props : Nat → List (String × String)
  /-- `Context::_ports`: events -/
  ports : Nat → List Nat
  /-- `Context::_links` -/
  links : Nat → List Link
  /-- `Switch::_rules` -/
  rules : Nat → List (Nat × Pred)
  /-- `Switch::_switchPorts`, in key order -/
  sports : Nat → List (String × List Nat)
  /-- `Event::_parameters` -/
  par : Nat → String → Option String
  /-- `Player::_currentFocus`, if the parser sets it -/
  focus : Option String

/-- A parser function. -/
def PM (α : Type) : Type := PS → Res (Option (α × PS))

def PM.pure {α : Type} (a : α) : PM α := fun s => .ok (some (a, s))
def PM.bind {α β : Type} (m : PM α) (f : α → PM β) : PM β := fun s => (m s).bind fun r =>
  match r with
  | none => .ok none
  | some (a, s) => f a s

instance : Monad PM where
  pure := PM.pure
  bind := PM.bind

def PM.get : PM PS := fun s => .ok (some (s, s))
def PM.modify (f : PS → PS) : PM Unit := fun s => .ok (some ((), f s))
/-- a syntax error -/
def PM.err {α : Type} : PM α := fun _ => .ok none
def PM.abort {α : Type} : PM α := fun _ => .abort
def PM.ub {α : Type} : PM α := fun _ => .ub
def PM.fuel {α : Type} : PM α := fun _ => .fuel
/-- A call with an outcome that does not change the parser state. -/
def PM.res {α : Type} (r : Res α) : PM α := fun s => r.bind fun a => .ok (some (a, s))
/-- `g_assert` of an optional value. -/
def PM.some! {α : Type} (x : Option α) : PM α := match x with | some a => PM.pure a | none => PM.abort
/-- an optional value whose absence is a syntax error -/
def PM.orErr {α : Type} (x : Option α) : PM α := match x with | some a => PM.pure a | none => PM.err
/-- a pure step of the parser -/
def PM.lift {α : Type} (f : PS → Res (Option α)) : PM α := fun s => (f s).bind fun r =>
  match r with | none => .ok none | some a => .ok (some (a, s))

/-- `for (auto x : l) if (!f (x)) return false`. -/
def PM.forEach {α : Type} (f : α → PM Unit) : List α → PM Unit
  | [] => PM.pure ()
  | a :: l => PM.bind (f a) fun _ => PM.forEach f l

/-! ## Elements -/

/-- `ParserElt::getAttribute` (lib/Parser.cpp:1034-1042). -/
def PS.attr (s : PS) (k : Nat) (name : String) : Option String := mget name (s.elt k).attrs

/-- Update of an element. -/
def PS.setElt (s : PS) (k : Nat) (e : Elt) : PS := { s with elt := upd s.elt k e }

/-- `ParserElt::setAttribute` (lib/Parser.cpp:1051-1057). -/
def PS.setAttr (s : PS) (k : Nat) (name value : String) : PS :=
  s.setElt k { s.elt k with attrs := mset name value (s.elt k).attrs }

/-- `getAttribute` under `g_assert`. -/
def attr! (k : Nat) (name : String) : PM String := do PM.some! ((← PM.get).attr k name)

/-- `eltCacheIndexParent` under `g_assert` (lib/Parser.cpp:1387-1392). -/
def parentElt (k : Nat) : PM Nat := do
  let s ← PM.get
  match (s.elt k).parent with
  | none => PM.abort
  | some p => if p ∈ s.cache then PM.pure p else PM.abort

/-- `eltCacheIndexById` (lib/Parser.cpp:1402-1422). -/
def PS.byId (s : PS) (id : String) : List String → Option Nat
  | [] => none
  | t :: ts =>
    match s.cache.find? (fun k => (s.elt k).tag == t && s.attr k "id" == some id) with
    | some k => some k
    | none => s.byId id ts

/-- `eltCacheIndexByTag` (lib/Parser.cpp:1430-1448) for one tag. -/
def PS.byTag (s : PS) (tag : String) : List Nat := s.cache.filter fun k => (s.elt k).tag == tag

/-- `aliasStackCombine` (lib/Parser.cpp:1474-1481). -/
def aliasPrefix : List (String × String) → String
  | [] => ""
  | a :: l => a.1 ++ "#" ++ aliasPrefix l

/-! ## Objects -/

/-- An operation on the registry. -/
def regOp (op : RegOp) : PM Unit := fun s => (s.reg.exec op).bind fun p => .ok (some ((), { s with reg := p.2 }))

/-- A fresh address. -/
def alloc (E : PRead) : PM Nat := fun s => .ok (some (E.addr s.nalloc, { s with nalloc := s.nalloc + 1 }))

/-- `new Context (id)` etc. -/
def newObject (E : PRead) (k : RKind) (id : String) : PM Nat := do
  let a ← alloc E
  let a1 ← alloc E
  let a2 ← alloc E
  regOp (.new a k id a1 a2)
  pure a

/-- An object that must exist (a dangling pointer otherwise). -/
def object (o : Nat) : PM RObj := do
  match (← PM.get).reg.obj o with
  | some x => pure x
  | none => PM.ub

/-- `objStackPeek` with a non-null result. -/
def peekObj : PM Nat := do
  match (← PM.get).objs with
  | o :: _ => pure o
  | [] => PM.abort

/-- `cast (Composition *, objStackPeek ())`, non-null. -/
def peekComp : PM Nat := do
  let o ← peekObj
  let x ← object o
  if x.kind = .context ∨ x.kind = .switch then pure o else PM.abort

/-- `objStackPush`. -/
def pushObj (o : Nat) : PM Unit := PM.modify fun s => { s with objs := o :: s.objs }
/-- `objStackPop`. -/
def popObj : PM Unit := PM.modify fun s => { s with objs := s.objs.tail }

/-- `addPresentationEvent` etc. -/
def addEvent (E : PRead) (o : Nat) (e : REv) : PM Unit := do
  let a ← alloc E
  regOp (.addEvent o a e)

/-- `Object::setProperty`, `Media::setProperty` without a player, `MediaSettings::setProperty` (lib/Object.cpp:339-344,
lib/Media.cpp:62-76, lib/MediaSettings.cpp:47-54). -/
def setProp (o : Nat) (name value : String) : PM Unit := do
  let x ← object o
  PM.modify fun s => { s with
    props := upd s.props o (mset name value (s.props o))
    focus := if x.kind = .settings ∧ name = "service.currentFocus" then some value else s.focus }

/-- `referMapAdd` (lib/Parser.cpp:1637-1645). -/
def referAdd (id : String) (m : Nat) : List (String × Nat) → List (String × Nat)
  | [] => [(id, m)]
  | p :: l => if id = p.1 then p :: l else if id < p.1 then (id, m) :: p :: l else p :: referAdd id m l

/-- `referMapIndex` (lib/Parser.cpp:1621-1629). -/
def PS.referIdx (s : PS) (id : String) : Option Nat := (s.refer.find? fun p => p.1 == id).map (·.2)

/-! ## Resolution of references -/

/-- `Composition::getChildByIdOrAlias` (lib/Composition.cpp:49-58). -/
def childByIdOrAlias (r : Reg) (children : List Nat) (id : String) : Option Nat :=
  match children.find? (fun c => match r.obj c with | some x => x.id == id | none => false) with
  | some c => some c
  | none => children.find? fun c => match r.obj c with | some x => x.hasAlias id | none => false

/-- The search of `resolveComponent` (lib/Parser.cpp:1672-1693). -/
def PS.component (s : PS) (scope : Nat) (comp : String) : Option Nat :=
  match s.reg.obj scope with
  | none => none
  | some y =>
    if comp = y.id ∨ y.hasAlias comp then some scope
    else
      match childByIdOrAlias s.reg y.children comp with
      | some c => some c
      | none => s.referIdx comp

/-- `resolveComponent` (lib/Parser.cpp:1661-1698). -/
def resolveComponent (scope k : Nat) : PM Nat := do
  let s ← PM.get
  let label := if (s.elt k).tag = "bindRule" then "constituent" else "component"
  let comp ← attr! k label
  PM.orErr (s.component scope comp)

/-- The events with this address and object: the result of `resolveInterface`. -/
structure EvRef where
  obj : Nat
  addr : Nat
  ev : REv

/-- An event of an object, looked for by type and id. -/
def evOf (o : Nat) (x : RObj) (t : EType) (id : String) : Option EvRef :=
  (x.getEvent t id).map fun p => ⟨o, p.1, p.2⟩

/-- `resolveInterface` (lib/Parser.cpp:1712-1806), with a bound on the recursion. -/
def resolveIface : Nat → Nat → Nat → PM EvRef
  | 0, _, _ => PM.fuel
  | n + 1, ctx, k => do
    let o ← resolveComponent ctx k
    let x ← object o
    let s ← PM.get
    match s.attr k "interface" with
    | none => PM.some! (evOf o x .presentation "@lambda")
    | some iface =>
      match x.kind with
      | .media | .settings =>
        match evOf o x .presentation iface with
        | some e => pure e
        | none => PM.orErr (evOf o x .attribution iface)
      | .context =>
        if o = ctx then PM.orErr (evOf o x .attribution iface)
        else
          match s.byId iface ["port"] with
          | none => PM.orErr (evOf o x .attribution iface)
          | some j => do
            let p ← parentElt j
            let c ← (if (s.elt p).tag = "body" then pure s.reg.root
                     else do
                       let id ← attr! p "id"
                       let c ← PM.some! (s.reg.getById id)
                       let y ← object c
                       if y.kind = .context then pure c else PM.abort)
            let y ← object c
            if y.id ≠ x.id then PM.err else resolveIface n c j
      | .switch => PM.orErr (evOf o x .presentation iface)

/-- `resolveParameter` (lib/Parser.cpp:1820-1856). -/
def resolveParameter (ref : String) (bindParams linkParams ghosts : List (String × String)) : String :=
  match ref.toList with
  | '$' :: name =>
    let found :=
      match mget (String.ofList name) bindParams with
      | some v => some v
      | none => mget (String.ofList name) linkParams
    match found with
    | none => ""
    | some v =>
      match v.toList with
      | '$' :: g => (mget (String.ofList g) ghosts).getD v
      | _ => v
  | _ => ref

/-! ## Predicates -/

/-- Allocation of a predicate. -/
def newPred (p : PNode) : PM Nat := fun s => .ok (some (s.npred, { s with pnode := upd s.pnode s.npred p, npred := s.npred + 1 }))

/-- `Predicate::addChild` (lib/Predicate.cpp:148-167). -/
def addPChild (p c : Nat) : PM Unit := fun s =>
  match s.pnode p with
  | .atom _ _ _ => .abort
  | .node k cs => .ok (some ((), { s with pnode := upd s.pnode p (.node k (cs ++ [c])) }))

/-- The connective of a predicate. -/
def mkPred : Conn → List Pred → Pred
  | .not, l => .neg l
  | .and, l => .conj l
  | .or, l => .disj l

/-- `Predicate::clone` (lib/Predicate.cpp:111-126); the bound is the number of predicates allocated. -/
def PS.clone (s : PS) : Nat → Nat → Option Pred
  | 0, _ => none
  | n + 1, p =>
    match s.pnode p with
    | .atom l t r => some (.atom l t r)
    | .node c cs => (cs.mapM (s.clone n)).map (mkPred c)

/-- A clone that must succeed. -/
def clonePred (p : Nat) : PM Pred := do
  let s ← PM.get
  match s.clone s.npred p with
  | some q => pure q
  | none => PM.fuel

/-- The loop over the enclosing elements of `obtainPredicate` (lib/Parser.cpp:1882-1889): predicates from the outermost. -/
def predChain : Nat → Nat → List Nat → PM (List Nat)
  | 0, _, _ => PM.fuel
  | n + 1, k, acc => do
    let s ← PM.get
    if (s.elt k).tag = "causalConnector" then pure acc
    else if (s.elt k).tag = "compoundCondition" then do
      let acc := match (s.elt k).pred with | some p => p :: acc | none => acc
      let p ← parentElt k
      predChain n p acc
    else PM.abort

/-- The children of a conjunction. -/
def conjChildren (p : Nat) : PM (List Nat) := do
  match (← PM.get).pnode p with
  | .node .and cs => pure cs
  | _ => PM.abort

/-- The predicates collected in the case of several (lib/Parser.cpp:1914-1931). -/
def conjParts : List Nat → PM (List Pred)
  | [] => PM.pure []
  | p :: ps => do
    let cs ← conjChildren p
    let part ← (match cs with
      | [] => pure []
      | [c] => do pure [← clonePred c]
      | _ => do pure [← clonePred p])
    let rest ← conjParts ps
    pure (part ++ rest)

/-- `obtainPredicate` (lib/Parser.cpp:1870-1935) for a condition whose parent has element `k`. -/
def obtainPred (k : Nat) : PM (Option Pred) := do
  let s ← PM.get
  if k ∉ s.cache then PM.abort
  else do
    let ps ← predChain (s.nelt + 1) k []
    match ps with
    | [] => pure none
    | [p] => do
      let cs ← conjChildren p
      match cs with
      | [] => pure none
      | [c] => do pure (some (← clonePred c))
      | _ => do pure (some (← clonePred p))
    | ps => do pure (some (.conj (← conjParts ps)))

/-- A `$` reference replaced via the table (lib/Parser.cpp:1969-1980). -/
def solveRef (tr : List (String × String)) (v : String) : String :=
  match v.toList with
  | '$' :: name => (mget (String.ofList name) tr).getD v
  | _ => v

mutual
/-- `solvePredicate` (lib/Parser.cpp:1947-1997). -/
def solvePred (tr : List (String × String)) : Pred → Pred
  | .falsum => .falsum
  | .verum => .verum
  | .atom l t r => .atom (solveRef tr l) t (solveRef tr r)
  | .neg cs => .neg (solvePreds tr cs)
  | .conj cs => .conj (solvePreds tr cs)
  | .disj cs => .disj (solvePreds tr cs)
def solvePreds (tr : List (String × String)) : List Pred → List Pred
  | [] => []
  | p :: ps => solvePred tr p :: solvePreds tr ps
end

/-! ## Push and pop functions -/

/-- `pushNcl` (lib/Parser.cpp:2303-2320). -/
def pushNcl (k : Nat) : PM Unit := do
  let s ← PM.get
  (match s.attr k "id" with
   | some id => regOp (.addAlias s.reg.root id 0)
   | none => pure ())
  pushObj s.reg.root

/-- One geometry attribute of a region: the value of `parse_percent`, if the attribute is there; `a` gives the attributes. -/
def regionAttr (E : PRead) (a : String → Option String) (name : String) (base : Int) : Option Int :=
  (a name).map fun v => parsePercent E.F v.toList base 0 INTMAX

/-- Addition to a coordinate, if there is something to add. -/
def addOpt (x : Int) : Option Int → Res Int
  | none => .ok x
  | some d => int32 (x + d)

/-- `parent.width - rect.width - parse_percent (...)`, added to the coordinate (lib/Parser.cpp:2885-2894). -/
def fromFar (x parent own : Int) : Option Int → Res Int
  | none => .ok x
  | some p => (int32 (parent - own)).bind fun d => (int32 (d - p)).bind fun d => int32 (x + d)

/-- The rectangle of a region from that of its parent (lib/Parser.cpp:2868-2894). -/
def regionRect (E : PRead) (a : String → Option String) (par : Rect) : Res Rect :=
  (addOpt par.x (regionAttr E a "left" par.w)).bind fun x =>
  (addOpt par.y (regionAttr E a "top" par.h)).bind fun y =>
  let w := (regionAttr E a "width" par.w).getD par.w
  let h := (regionAttr E a "height" par.h).getD par.h
  (fromFar x par.w w (regionAttr E a "right" par.w)).bind fun x =>
  (fromFar y par.h h (regionAttr E a "bottom" par.h)).bind fun y =>
  .ok ⟨x, y, w, h⟩

/-- `((double) a / b) * 100.` as text with a percent sign. -/
def percentText (E : PRead) (a b : Int) : String := E.fmtG (E.F.rnd (E.F.rnd ((a : Rat) / b) * 100)) ++ "%"

/-- The attributes of a region with this rectangle and z-order (lib/Parser.cpp:2898-2907). -/
def regionAttrs (E : PRead) (screen r : Rect) (z : Nat) (l : List (String × String)) : List (String × String) :=
  mset "height" (percentText E r.h screen.h) (mset "width" (percentText E r.w screen.w) (mset "top" (percentText E r.y screen.h)
    (mset "left" (percentText E r.x screen.w) (mset "zOrder" (toString z) l))))

/-- `pushRegion` (lib/Parser.cpp:2854-2910). -/
def pushRegion (E : PRead) (k : Nat) : PM Unit := do
  let s ← PM.get
  match s.rects with
  | [] => PM.abort
  | par :: _ => do
    let screen := s.rects.getLastD par
    let r ← PM.res (regionRect E (s.attr k) par)
    PM.modify fun s => { s with rects := r :: s.rects, zorder := s.zorder + 1 }
    PM.modify fun s => s.setElt k { s.elt k with attrs := regionAttrs E screen r (s.zorder - 1) (s.elt k).attrs }

/-- `popRegion` (lib/Parser.cpp:2918-2923). -/
def popRegion : PM Unit := do
  match (← PM.get).rects with
  | [] => PM.abort
  | _ :: l => PM.modify fun s => { s with rects := l }

/-- `pushDescriptorParam` (lib/Parser.cpp:2931-2946). -/
def pushDescriptorParam (k : Nat) : PM Unit := do
  let name ← attr! k "name"
  let value ← attr! k "value"
  let p ← parentElt k
  PM.modify fun s => s.setAttr p name value

/-- `pushCausalConnector` (lib/Parser.cpp:2974-2981). -/
def pushCausalConnector (k : Nat) : PM Unit := PM.modify fun s => { s with conn := some k }

/-- `popCausalConnector` (lib/Parser.cpp:2989-3014). -/
def popCausalConnector (k : Nat) : PM Unit := do
  PM.modify fun s => { s with conn := none }
  let s ← PM.get
  if (s.elt k).roles.any (·.cond) ∧ (s.elt k).roles.any (fun r => !r.cond) then pure () else PM.err

/-- `pushCompoundCondition` (lib/Parser.cpp:3031-3038). -/
def pushCompoundCondition (k : Nat) : PM Unit := do
  let p ← newPred (.node .and [])
  PM.modify fun s => s.setElt k { s.elt k with pred := some p }

/-- Event type and transition of a role (lib/Parser.cpp:3079-3133); `a`: the attributes; `tattr`: the name of the attribute with
the transition. -/
def roleKind (a : String → Option String) (cond : Bool) (tattr role : String) : Option (EType × Trans) :=
  match roleInfo role with
  | some (c, t, tr) =>
    if cond ≠ c then none
    else if (a "eventType").any (fun v => eventTypeOf v != some t) then none
    else if (a tattr).any (fun v => transitionOf v != some tr) then none
    else some (t, tr)
  | none =>
    match a "eventType", a tattr with
    | some v, some w =>
      match eventTypeOf v, transitionOf w with
      | some t, some tr => some (t, tr)
      | _, _ => none
    | _, _ => none

/-- The role of a simple condition or action (lib/Parser.cpp:3062-3148), `none` if it is ill formed. -/
def simpleRole (a : String → Option String) (cond : Bool) (role : String) (parent : Nat) : Option Role :=
  match roleKind a cond (if cond then "transition" else "actionType") role with
  | none => none
  | some kind =>
    if cond = false ∧ kind.1 = .attribution ∧ a "value" = none then none
    else some {
      parent := parent, role := role, typ := kind.1, tr := kind.2, cond := cond
      duration := if cond then "" else (a "duration").getD ""
      delay := if cond then "" else (a "delay").getD ""
      key := if kind.1 = .selection then (a "key").getD "" else ""
      value := if cond = false ∧ kind.1 = .attribution then (a "value").getD "" else "" }

/-- `pushSimpleCondition` (lib/Parser.cpp:3051-3155). -/
def pushSimpleCondition (k : Nat) : PM Unit := do
  let s ← PM.get
  let role ← attr! k "role"
  let r ← PM.orErr (simpleRole (s.attr k) ((s.elt k).tag == "simpleCondition") role (((s.elt k).parent).getD 0))
  let c ← PM.some! s.conn
  PM.modify fun s => s.setElt c { s.elt c with roles := (s.elt c).roles ++ [r] }

/-- Adding a predicate to that of the parent element, with the check on negations (lib/Parser.cpp:3188-3196, 3280-3291,
3408-3421). -/
def addToParent (parent : Nat) (q : PM Nat) : PM Nat := do
  let s ← PM.get
  let pp ← PM.some! (s.elt parent).pred
  match s.pnode pp with
  | .node .not [_] => PM.err
  | _ => do
    let p ← q
    addPChild pp p
    pure p

/-- `pushCompoundStatement` (lib/Parser.cpp:3166-3212).  The predicate of the element is the inner one. -/
def pushCompoundStatement (k : Nat) : PM Unit := do
  let s ← PM.get
  let op ← attr! k "operator"
  let c ← PM.orErr (connOf op)
  let neg ← (match s.attr k "isNegated" with
    | none => pure false
    | some v => PM.orErr (parseBool v.toList))
  let parent ← parentElt k
  let pp ← PM.some! (s.elt parent).pred
  match s.pnode pp with
  | .node .not [_] => PM.err
  | _ => do
    let p ← newPred (.node c [])
    if neg then do
      let q ← newPred (.node .not [])
      addPChild q p
      addPChild pp q
    else addPChild pp p
    PM.modify fun s => s.setElt k { s.elt k with pred := some p }

/-- `popCompoundStatement` (lib/Parser.cpp:3220-3243). -/
def popCompoundStatement (k : Nat) : PM Unit := do
  let s ← PM.get
  let p ← PM.some! (s.elt k).pred
  match s.pnode p with
  | .atom _ _ _ => PM.abort
  | .node .not cs => if cs.length = 0 then PM.err else pure ()
  | .node _ cs => if cs.length < 2 then PM.err else pure ()

/-- `popAssessmentStatement` (lib/Parser.cpp:3254-3294). -/
def popAssessmentStatement (k : Nat) : PM Unit := do
  let s ← PM.get
  let comp ← attr! k "comparator"
  let t ← PM.orErr (testOf comp)
  let l ← PM.orErr (s.elt k).left
  let r ← PM.orErr (s.elt k).right
  let parent ← parentElt k
  let _ ← addToParent parent (newPred (.atom l t r))
  pure ()

/-- `pushAttributeAssessment` (lib/Parser.cpp:3312-3349). -/
def pushAttributeAssessment (k : Nat) : PM Unit := do
  let s ← PM.get
  let str ← (if (s.elt k).tag = "attributeAssessment" then do
      let role ← attr! k "role"
      let c ← PM.some! s.conn
      PM.modify fun s => s.setElt c { s.elt c with tests := if role ∈ (s.elt c).tests then (s.elt c).tests else (s.elt c).tests ++ [role] }
      pure ("$" ++ role)
    else attr! k "value")
  let p ← parentElt k
  let s ← PM.get
  if (s.elt p).left = none then PM.modify fun s => s.setElt p { s.elt p with left := some str }
  else if (s.elt p).right = none then PM.modify fun s => s.setElt p { s.elt p with right := some str }
  else PM.err

/-- The predicate of a rule before its children are known (lib/Parser.cpp:3373-3402). -/
def rulePred (s : PS) (k : Nat) : PM PNode :=
  if (s.elt k).tag = "rule" then do
    let var ← attr! k "var"
    let comp ← attr! k "comparator"
    let t ← PM.orErr (testOf comp)
    let value ← attr! k "value"
    pure (.atom ("$__settings__." ++ var) t value)
  else do
    let op ← attr! k "operator"
    let c ← PM.orErr (connOf op)
    pure (.node c [])

/-- `pushRule` (lib/Parser.cpp:3366-3426). -/
def pushRule (k : Nat) : PM Unit := do
  let s ← PM.get
  let q ← rulePred s k
  let parent ← parentElt k
  if (s.elt parent).tag = "ruleBase" then do
    let p ← newPred q
    PM.modify fun s => s.setElt k { s.elt k with pred := some p }
  else do
    let p ← addToParent parent (newPred q)
    PM.modify fun s => s.setElt k { s.elt k with pred := some p }

/-- `checkNode` in the parser state. -/
def check (full : Bool) (parent : Option String) (x : Xml) : PM (EltSyn × List (String × String)) := fun s =>
  (checkNode full (aliasPrefix s.aliases) parent x s.syn).bind fun r =>
    match r with
    | none => .ok none
    | some (syn, attrs, y) => .ok (some ((syn, attrs), { s with syn := y }))

/-- The bases taken from an imported head (lib/Parser.cpp:3513-3526). -/
def importedBases (head : Xml) (tag : String) : List Xml :=
  head.findAll tag ++
    if tag = "descriptorBase" then head.findAll "regionBase" ++ head.findAll "transitionBase" else []

/-- The URI that an imported document's is relative to (lib/Parser.cpp:3468-3470). -/
def baseUri (E : PRead) (al : List (String × String)) : String := match al.getLast? with | some p => p.2 | none => E.uri

/-- `pushImportBase` (lib/Parser.cpp:3449-3539), given `processNode` for the imported bases. -/
def pushImportBase (E : PRead) (proc : Xml → PM Unit) (k : Nat) : PM Unit := do
  let parent ← parentElt k
  let alias ← attr! k "alias"
  let uri ← attr! k "documentURI"
  let s ← PM.get
  let uri ← PM.res (E.importUri (baseUri E s.aliases) uri)
  if s.aliases.any (fun p => p.2 == uri) then PM.err
  else do
    PM.modify fun s => { s with aliases := s.aliases ++ [(alias, uri)] }
    let root ← PM.orErr (E.file uri)
    let _ ← check false none root
    match root.findAll "head" with
    | [] => PM.err
    | head :: _ => do
      let _ ← check false (some root.tag) head
      let tag := (s.elt parent).tag
      if head.findAll tag = [] then PM.err
      else do
        PM.forEach proc (importedBases head tag)
        PM.modify fun s => { s with aliases := s.aliases.dropLast }

/-- `pushContext` (lib/Parser.cpp:3560-3593). -/
def pushContext (E : PRead) (k : Nat) : PM Unit := do
  let s ← PM.get
  if (s.elt k).tag = "body" then do
    let o ← peekObj
    let x ← object o
    if x.kind = .context then do
      (match s.attr k "id" with
       | some id => regOp (.addAlias o id 0)
       | none => pure ())
      pushObj o
    else PM.abort
  else do
    let parent ← peekComp
    let id ← attr! k "id"
    let o ← newObject E .context id
    regOp (.addChild parent o)
    pushObj o

/-- `Context::addPort` (lib/Context.cpp:347-352): no duplicates. -/
def addPort (o : Nat) (e : Nat) : PM Unit :=
  PM.modify fun s => { s with ports := upd s.ports o (if e ∈ s.ports o then s.ports o else s.ports o ++ [e]) }

/-- `popContext` (lib/Parser.cpp:3604-3629). -/
def popContext (n : Nat) (k : Nat) : PM Unit := do
  let o ← peekObj
  let x ← object o
  if x.kind = .context then do
    let s ← PM.get
    PM.forEach (fun id => do
      let s ← PM.get
      let j ← PM.some! (s.byId id ["port"])
      let e ← resolveIface n o j
      addPort o e.addr) (s.elt k).ports
    popObj
  else PM.abort

/-- `pushPort` (lib/Parser.cpp:3637-3650). -/
def pushPort (k : Nat) : PM Unit := do
  let id ← attr! k "id"
  let p ← parentElt k
  PM.modify fun s => s.setElt p { s.elt p with ports := (s.elt p).ports ++ [id] }

/-- `pushSwitch` (lib/Parser.cpp:3671-3696). -/
def pushSwitch (E : PRead) (k : Nat) : PM Unit := do
  let parent ← peekComp
  let id ← attr! k "id"
  let o ← newObject E .switch id
  regOp (.addChild parent o)
  pushObj o

/-- `pushSwitchPort` (lib/Parser.cpp:3717-3732). -/
def pushSwitchPort (k : Nat) : PM Unit := do
  let id ← attr! k "id"
  let p ← parentElt k
  PM.modify fun s => s.setElt p { s.elt p with switchPorts := (s.elt p).switchPorts ++ [id] }

/-- `pushMapping` (lib/Parser.cpp:3746-3762). -/
def pushMapping (k : Nat) : PM Unit := do
  let _ ← attr! k "component"
  let p ← parentElt k
  PM.modify fun s => s.setElt p { s.elt p with mappings := (s.elt p).mappings ++ [k] }

/-- `for (...) resolveInterface (...)`, collecting the events. -/
def resolveAll (n o : Nat) : List Nat → PM (List Nat)
  | [] => PM.pure []
  | j :: js => do
    let e ← resolveIface n o j
    let rest ← resolveAll n o js
    pure (e.addr :: rest)

/-- Assignment in a map from strings, in key order. -/
def smset {α : Type} (k : String) (v : α) : List (String × α) → List (String × α)
  | [] => [(k, v)]
  | p :: l => if k = p.1 then (k, v) :: l else if k < p.1 then (k, v) :: p :: l else p :: smset k v l

/-- The resolution of the rules of a switch (lib/Parser.cpp:3783-3798). -/
def resolveRules (o : Nat) : List (Nat × Option Nat) → PM (List (Nat × Option Nat))
  | [] => PM.pure []
  | r :: rs => do
    let c ← resolveComponent o r.1
    let rest ← resolveRules o rs
    pure ((r.1, some c) :: rest)

/-- One switch port (lib/Parser.cpp:3803-3827, `Switch::addSwitchPort`, lib/Switch.cpp:236-245). -/
def resolveSwitchPort (E : PRead) (n o : Nat) (id : String) : PM Unit := do
  let s ← PM.get
  let j ← PM.some! (s.byId id ["switchPort"])
  let evs ← resolveAll n o (s.elt j).mappings
  addEvent E o { typ := .presentation, id := id, label := id }
  PM.modify fun s => { s with sports := upd s.sports o (smset id evs (s.sports o)) }

/-- `popSwitch` (lib/Parser.cpp:3773-3832). -/
def popSwitch (E : PRead) (n : Nat) (k : Nat) : PM Unit := do
  let o ← peekObj
  let x ← object o
  if x.kind = .switch then do
    let s ← PM.get
    let rs ← resolveRules o (s.elt k).rules
    PM.modify fun s => s.setElt k { s.elt k with rules := rs }
    PM.forEach (resolveSwitchPort E n o) (s.elt k).switchPorts
    popObj
  else PM.abort

/-- `pushBindRule` (lib/Parser.cpp:3842-3866). -/
def pushBindRule (k : Nat) : PM Unit := do
  let s ← PM.get
  (if (s.elt k).tag = "bindRule" then do
     let _ ← attr! k "constituent"
     let _ ← attr! k "rule"
     pure ()
   else do
     let _ ← attr! k "component"
     pure ())
  let p ← parentElt k
  PM.modify fun s => s.setElt p { s.elt p with rules := (s.elt p).rules ++ [(k, none)] }

/-- The loop that redirects references made before a settings object is known (lib/Parser.cpp:3940-3954): the new map and
the redirected keys; `none`: the iterator runs over the end of the map. -/
def redirect (tmp m : Nat) : List (String × Nat) → Option (List (String × Nat) × List String)
  | [] => none
  | p :: l =>
    if p.2 = tmp then (redirect tmp m l).map fun q => ((p.1, m) :: q.1, p.1 :: q.2)
    else some (p :: l, [])

/-- `pushMedia`, case of a reference (lib/Parser.cpp:3905-3928). -/
def pushRefer (E : PRead) (id refer : String) : PM Nat := do
  let s ← PM.get
  let known := match s.reg.getByIdOrAlias refer with
    | some o => match s.reg.obj o with
      | some x => if x.kind = .media ∨ x.kind = .settings then some o else none
      | none => none
    | none => none
  let m ← (match known with
    | some o => pure o
    | none => do
      let m ← (match s.referIdx refer with
        | some m => pure m
        | none => newObject E .media refer)
      PM.modify fun s => { s with refer := referAdd refer m s.refer }
      pure m)
  let parent ← peekComp
  regOp (.addAlias m id parent)
  PM.modify fun s => { s with refer := referAdd id m s.refer }
  pure m

/-- `pushMedia`, case of a settings object (lib/Parser.cpp:3933-3970). -/
def pushSettings (id : String) : PM Nat := do
  let s ← PM.get
  let m ← PM.some! s.reg.settings
  (match s.referIdx id with
   | none => pure ()
   | some tmp =>
     match redirect tmp m s.refer with
     | none => PM.ub
     | some (l, keys) => do
       PM.modify fun s => { s with refer := l }
       PM.forEach (fun a => regOp (.addAlias m a 0)) keys
       if keys = [] then pure ()
       else PM.modify fun s => { s with reg := { s.reg with obj := upd s.reg.obj tmp none } })
  let parent ← peekComp
  regOp (.addAlias m id parent)
  PM.modify fun s => { s with refer := referAdd id m s.refer }
  pure m

/-- `pushMedia`, other media objects (lib/Parser.cpp:3972-3998). -/
def pushPlainMedia (E : PRead) (id src type : String) : PM Nat := do
  let s ← PM.get
  let uri := if src ≠ "" then E.srcUri src else src
  let m ← (match s.referIdx id with
    | some m => pure m
    | none => newObject E .media id)
  setProp m "uri" uri
  setProp m "type" type
  let parent ← peekComp
  regOp (.addChild parent m)
  pure m

/-- `src.substr (12)` throws (lib/Parser.cpp:3956-3961). -/
def badBuffer (src : String) : Bool := "streambuf:".toList.isPrefixOf src.toList && decide (src.utf8ByteSize < 12)

/-- `pushMedia` (lib/Parser.cpp:3878-4003). -/
def pushMedia (E : PRead) (k : Nat) : PM Unit := do
  let s ← PM.get
  let id ← attr! k "id"
  let type := s.attr k "type"
  let src := s.attr k "src"
  match s.attr k "refer" with
  | some refer =>
    if type.isSome ∨ src.isSome then PM.err
    else do
      let m ← pushRefer E id refer
      pushObj m
  | none =>
    if type = some "application/x-ginga-settings" ∨ type = some "application/x-ncl-settings" then do
      let m ← pushSettings id
      if badBuffer (src.getD "") then PM.abort else pushObj m
    else do
      let m ← pushPlainMedia E id (src.getD "") (type.getD "")
      pushObj m

/-- `popMedia` (lib/Parser.cpp:4014-4019). -/
def popMedia : PM Unit := do
  let o ← peekObj
  let x ← object o
  if x.kind = .media ∨ x.kind = .settings then popObj else PM.abort

/-- A time attribute (lib/Parser.cpp:4057-4073). -/
def timeAttr (E : PRead) (k : Nat) (name : String) (dflt : Nat) : PM Nat := do
  match (← PM.get).attr k name with
  | none => pure dflt
  | some v => do
    let t ← PM.res (parseTime E.F v.toList)
    PM.orErr t

/-- `pushArea` (lib/Parser.cpp:4027-4079). -/
def pushArea (E : PRead) (k : Nat) : PM Unit := do
  let o ← peekObj
  let x ← object o
  if ¬ (x.kind = .media ∨ x.kind = .settings) then PM.abort
  else do
    let s ← PM.get
    let id ← attr! k "id"
    let label := (s.attr k "label").getD ""
    if label ≠ "" then
      if (s.attr k "begin").isSome ∨ (s.attr k "end").isSome then PM.err
      else addEvent E o { typ := .presentation, id := id, label := label }
    else do
      let b ← timeAttr E k "begin" 0
      let e ← timeAttr E k "end" NONE
      addEvent E o { typ := .presentation, id := id, beg := b, fin := e }

/-- `pushProperty` (lib/Parser.cpp:4087-4106). -/
def pushProperty (E : PRead) (k : Nat) : PM Unit := do
  let o ← peekObj
  let name ← attr! k "name"
  let value := ((← PM.get).attr k "value").getD ""
  addEvent E o { typ := .attribution, id := name }
  if value ≠ "" then setProp o name value else pure ()

/-- `pushLink` (lib/Parser.cpp:4130-4143). -/
def pushLink (k : Nat) : PM Unit := do
  let o ← peekObj
  let x ← object o
  if x.kind = .context then PM.modify fun s => s.setElt k { s.elt k with context := some o } else PM.abort

/-- `pushLinkParam` (lib/Parser.cpp:4151-4166). -/
def pushLinkParam (k : Nat) : PM Unit := do
  let name ← attr! k "name"
  let value ← attr! k "value"
  let p ← parentElt k
  PM.modify fun s => s.setElt p { s.elt p with params := mset name value (s.elt p).params }

/-- `pushBind` (lib/Parser.cpp:4178-4196). -/
def pushBind (k : Nat) : PM Unit := do
  let role ← attr! k "role"
  let _ ← attr! k "component"
  let p ← parentElt k
  PM.modify fun s => s.setElt p { s.elt p with binds := (s.elt p).binds ++ [{ elt := k, role := role }] }

/-- `pushFont` (lib/Parser.cpp:4207-4267). -/
def pushFont (E : PRead) (k : Nat) : PM Unit := do
  let src ← attr! k "src"
  let _ ← attr! k "fontFamily"
  if E.font src then pure () else PM.err

/-! ## The end of the document: `popNcl` (lib/Parser.cpp:2331-2840) -/

/-- The evaluation of the arguments of `xstrbuild` (lib/Parser.cpp:2396-2425). All of them read an attribute into one string, `str`, and all that are present point
to its buffer: what they show is the value read last. `cap` is the capacity of the buffer, `taken` whether there is a pointer into it. A value that does not fit gets a
new buffer, and the pointers into the old one dangle: `none`. (Capacities as in libstdc++; a C++ library may also change the buffer in other cases.) -/
def transLast (attrs : List (String × String)) : List String → Nat → Bool → String → Option String
  | [], _, _, cur => some cur
  | n :: ns, cap, taken, cur =>
    match mget n attrs with
    | none => transLast attrs ns cap taken cur
    | some v =>
      if v.utf8ByteSize ≤ cap then transLast attrs ns cap true v
      else if taken then none
      else transLast attrs ns (max v.utf8ByteSize (2 * cap)) true v

/-- The text of a transition whose present attributes show `w` (lib/Parser.cpp:2386-2425). -/
def transShow (present : String → Bool) (type w : String) : String :=
  let a (n d : String) := if present n then w else d
  "{type='" ++ type ++ "',subtype='" ++ a "subtype" "" ++ "',dur='" ++ a "dur" "0" ++ "',startProgress='" ++ a "startProgress" "0"
    ++ "',endProgress='" ++ a "endProgress" "0" ++ "',direction='" ++ a "direction" "forward" ++ "',fadeColor='" ++ a "fadeColor" ""
    ++ "',horzRepeat='" ++ a "horzRepeat" "0" ++ "',vertRepeat='" ++ a "vertRepeat" "0" ++ "',borderWidth='" ++ a "borderWidth" "0"
    ++ "',borderColor='" ++ a "borderColor" "" ++ "'}"

/-- The text of a transition (lib/Parser.cpp:2385-2426). `str` has been used to read the type: its buffer is that of an empty string, of 15 bytes, or a new one. -/
def transText (order : List String) (attrs : List (String × String)) (type : String) : Option String :=
  (transLast attrs order (if type.utf8ByteSize ≤ 15 then 15 else max type.utf8ByteSize 30) false type).map
    (transShow (fun n => (mget n attrs).isSome) type)

/-- A list of assignments, one after the other. -/
def msetAll : List (String × String) → List (String × String) → List (String × String)
  | [], l => l
  | p :: ps, l => msetAll ps (mset p.1 p.2 l)

/-- The attributes of the region move to the descriptor (lib/Parser.cpp:2355-2367). -/
def descRegion (k : Nat) : PM Unit := do
  let s ← PM.get
  match s.attr k "region" with
  | none => pure ()
  | some id => do
    let r ← PM.orErr (s.byId id ["region"])
    PM.modify fun s => s.setElt k { s.elt k with attrs := msetAll ((s.elt r).attrs.filter fun p => p.1 != "id") (s.elt k).attrs }

/-- A transition attribute of a descriptor (lib/Parser.cpp:2369-2428). -/
def descTrans (E : PRead) (k : Nat) (name : String) : PM Unit := do
  let s ← PM.get
  match s.attr k name with
  | none => pure ()
  | some id => do
    let t ← PM.orErr (s.byId id ["transition"])
    let type ← attr! t "type"
    match transText E.argOrder (s.elt t).attrs type with
    | none => PM.ub
    | some v => PM.modify fun s => s.setAttr k name v

/-- A descriptor. -/
def popDesc (E : PRead) (k : Nat) : PM Unit := do
  let _ ← attr! k "id"
  descRegion k
  descTrans E k "transIn"
  descTrans E k "transOut"

/-- The attributes of the descriptor move to the media object (lib/Parser.cpp:2462-2470). -/
def moveAttrs (E : PRead) (o : Nat) : List (String × String) → PM Unit
  | [] => PM.pure ()
  | (name, value) :: l => do
    if name = "id" ∨ name = "region" then moveAttrs E o l
    else do
      let x ← object o
      if (x.getEvent .attribution name).isSome then moveAttrs E o l
      else do
        addEvent E o { typ := .attribution, id := name }
        setProp o name value
        moveAttrs E o l

/-- A media element at the end of the document (lib/Parser.cpp:2436-2492). -/
def popMediaElt (E : PRead) (k : Nat) : PM Unit := do
  let s ← PM.get
  (match s.attr k "descriptor" with
   | none => pure ()
   | some id => do
     let dk ← PM.orErr (s.byId id ["descriptor"])
     let mid ← attr! k "id"
     let o ← PM.some! (s.reg.getByIdOrAlias mid)
     let x ← object o
     if x.kind = .media ∨ x.kind = .settings then moveAttrs E o (s.elt dk).attrs else PM.abort)
  match s.attr k "refer" with
  | none => pure ()
  | some r => do
    let rk ← PM.orErr (s.byId r ["media"])
    if (s.attr rk "refer").isSome then PM.err else pure ()

/-- `Switch::addRule` (lib/Switch.cpp:222-228). -/
def addRule (o c : Nat) (p : Pred) : PM Unit := PM.modify fun s => { s with rules := upd s.rules o (s.rules o ++ [(c, p)]) }

/-- The predicate of a bind rule (lib/Parser.cpp:2534-2552). -/
def bindRulePred (s : PS) (j : Nat) : PM Pred := do
  let rule ← attr! j "rule"
  let rk ← PM.orErr (s.byId rule ["rule", "compositeRule"])
  let p ← PM.some! (s.elt rk).pred
  match s.pnode p with
  | .node _ [] => pure .falsum
  | _ => clonePred p

/-- The bind rules of a switch, without the default components (lib/Parser.cpp:2513-2553). -/
def popRules (o : Nat) : List (Nat × Option Nat) → PM Unit
  | [] => PM.pure ()
  | (j, c) :: l => do
    let c ← PM.some! c
    let s ← PM.get
    if (s.elt j).tag = "defaultComponent" then popRules o l
    else do
      let p ← bindRulePred s j
      addRule o c p
      popRules o l

/-- The default components of a switch (lib/Parser.cpp:2528-2532). -/
def defaultsOf (s : PS) (l : List (Nat × Option Nat)) : List Nat :=
  l.filterMap fun r => if (s.elt r.1).tag = "defaultComponent" then r.2 else none

/-- A switch at the end of the document (lib/Parser.cpp:2499-2558). -/
def popSwitchElt (k : Nat) : PM Unit := do
  let s ← PM.get
  let id ← attr! k "id"
  let o ← PM.some! (s.reg.getByIdOrAlias id)
  let x ← object o
  if x.kind ≠ .switch then PM.abort
  else do
    popRules o (s.elt k).rules
    PM.forEach (fun c => addRule o c .verum) (defaultsOf s (s.elt k).rules)

/-- How the binds of a link are used. -/
structure Bound where
  /-- position of the role in the connector, and bind -/
  roles : List (Nat × Bind)
  tests : List Bind
  ghosts : List Bind

/-- The first role with a label (lib/Parser.cpp:2599-2620): its position. -/
def roleIndex (roles : List Role) (label : String) : Option Nat :=
  let i := roles.findIdx fun r => r.role == label
  if i < roles.length then some i else none

/-- The distribution of the binds (lib/Parser.cpp:2597-2635). -/
def bindAll (roles : List Role) (tests : List String) : List Bind → Bound
  | [] => ⟨[], [], []⟩
  | b :: bs =>
    let r := bindAll roles tests bs
    match roleIndex roles b.role with
    | some i => { r with roles := (i, b) :: r.roles }
    | none => if b.role ∈ tests then { r with tests := b :: r.tests } else { r with ghosts := b :: r.ghosts }

/-- Every role and every test is bound (lib/Parser.cpp:2637-2680). -/
def allBound (roles : List Role) (tests : List String) (b : Bound) : Bool :=
  (List.range roles.length).all (fun i => b.roles.any fun p => p.1 == i) && tests.all fun t => b.tests.any fun x => x.role == t

/-- `Event::getFullId` (lib/Event.cpp:60-82). -/
def fullIdOf (objId : String) (e : REv) : String := String.ofList (fullId objId.toList e.typ e.id.toList)

/-- The table of test roles, or of ghost binds (lib/Parser.cpp:2682-2697). -/
def resolveTable (n ctx : Nat) : List Bind → List (String × String) → PM (List (String × String))
  | [], acc => PM.pure acc
  | b :: bs, acc => do
    let s ← PM.get
    if b.elt ∈ s.cache then do
      let e ← resolveIface n ctx b.elt
      let x ← object e.obj
      resolveTable n ctx bs (mset b.role ("$" ++ fullIdOf x.id e.ev) acc)
    else PM.abort

/-- `map::insert`: nothing if the key is there. -/
def minsert (p : String × String) (l : List (String × String)) : List (String × String) :=
  if (mget p.1 l).isSome then l else mset p.1 p.2 l

/-- The parameters of the test binds are added to the table of tests (lib/Parser.cpp:2799-2804). -/
def addTestParams (s : PS) (binds : List Bind) (tab : List (String × String)) : List (String × String) :=
  binds.foldl (fun t b => (s.elt b.elt).params.foldl (fun t p => minsert p t) t) tab

/-- The predicate of the action (lib/Parser.cpp:2784-2824). -/
def actPred (tab : List (String × String)) : Option Pred → Option Pred
  | none => none
  | some (.neg []) => none
  | some (.conj []) => none
  | some (.disj []) => none
  | some p => some (solvePred tab p)

/-- The event of a bound role and the value of the action (lib/Parser.cpp:2722-2775). -/
def roleEvent (E : PRead) (r : Role) (e : EvRef) (bp lp gh : List (String × String)) : PM (Nat × String) :=
  match r.typ with
  | .presentation => if e.ev.typ = .presentation then pure (e.addr, "") else PM.err
  | .attribution => if e.ev.typ = .attribution then pure (e.addr, resolveParameter r.value bp lp gh) else PM.err
  | .selection =>
    if (e.ev.typ = .presentation ∧ e.ev.id ≠ "@lambda") ∨ e.ev.typ = .attribution then PM.err
    else do
      let v := resolveParameter r.key bp lp gh
      addEvent E e.obj { typ := .selection, id := v }
      let x ← object e.obj
      let y ← PM.some! (x.getEvent .selection v)
      PM.modify fun s => { s with par := upd s.par y.1 (upd (s.par y.1) "key" (some v)) }
      pure (y.1, v)
  | .lookat => do
    addEvent E e.obj { typ := .lookat, id := e.ev.id }
    let x ← object e.obj
    let y ← PM.some! (x.getEvent .lookat e.ev.id)
    pure (y.1, "")

/-- One bound role (lib/Parser.cpp:2702-2830). -/
def resolveRole (E : PRead) (n ctx : Nat) (r : Role) (b : Bind) (lp tests gh : List (String × String)) : PM Act := do
  let s ← PM.get
  if b.elt ∉ s.cache then PM.abort
  else do
    let e ← resolveIface n ctx b.elt
    let bp := (s.elt b.elt).params
    let (ev, value) ← roleEvent E r e bp lp gh
    let pred ← (if r.cond then obtainPred r.parent else pure none)
    pure { ev := ev, tr := r.tr, pred := actPred tests pred, value := value,
           duration := resolveParameter r.duration bp lp gh, delay := resolveParameter r.delay bp lp gh }

/-- The conditions and the actions of a link. -/
def resolveRoles (E : PRead) (n ctx : Nat) (roles : List Role) (lp tests gh : List (String × String)) :
    List (Nat × Bind) → PM (List Act × List Act)
  | [] => PM.pure ([], [])
  | (i, b) :: l => do
    let r ← PM.some! roles[i]?
    let a ← resolveRole E n ctx r b lp tests gh
    let (cs, as) ← resolveRoles E n ctx roles lp tests gh l
    pure (if r.cond then (a :: cs, as) else (cs, a :: as))

/-- A link at the end of the document (lib/Parser.cpp:2565-2833), `Context::addLink` (lib/Context.cpp:360-366). -/
def popLinkElt (E : PRead) (n : Nat) (k : Nat) : PM Unit := do
  let s ← PM.get
  let conn ← attr! k "xconnector"
  let ck ← PM.orErr (s.byId conn ["causalConnector"])
  let ctx ← PM.some! (s.elt k).context
  let roles := (s.elt ck).roles
  let tests := (s.elt ck).tests
  let b := bindAll roles tests (s.elt k).binds
  if ¬ allBound roles tests b then PM.err
  else do
    let tt ← resolveTable n ctx b.tests []
    let gh ← resolveTable n ctx b.ghosts []
    let (cs, as) ← resolveRoles E n ctx roles (s.elt k).params (addTestParams s b.tests tt) gh b.roles
    if cs = [] ∨ as = [] then PM.abort
    else PM.modify fun s => { s with links := upd s.links ctx (s.links ctx ++ [⟨cs, as⟩]) }

/-- `popNcl` (lib/Parser.cpp:2331-2840). -/
def popNcl (E : PRead) (n : Nat) : PM Unit := do
  let s ← PM.get
  PM.forEach (popDesc E) (s.byTag "descriptor")
  PM.forEach (popMediaElt E) (s.byTag "media")
  PM.forEach popSwitchElt (s.byTag "switch")
  PM.forEach (popLinkElt E n) (s.byTag "link")
  let _ ← peekObj
  popObj

/-! ## Processing of nodes -/

/-- The push function of an element. -/
def push (E : PRead) (proc : Xml → PM Unit) (f : Push) (k : Nat) : PM Unit :=
  match f with
  | .none => pure ()
  | .ncl => pushNcl k
  | .region => pushRegion E k
  | .descriptorParam => pushDescriptorParam k
  | .causalConnector => pushCausalConnector k
  | .compoundCondition => pushCompoundCondition k
  | .simpleCondition => pushSimpleCondition k
  | .compoundStatement => pushCompoundStatement k
  | .attributeAssessment => pushAttributeAssessment k
  | .rule => pushRule k
  | .importBase => pushImportBase E proc k
  | .context => pushContext E k
  | .port => pushPort k
  | .switch => pushSwitch E k
  | .switchPort => pushSwitchPort k
  | .mapping => pushMapping k
  | .bindRule => pushBindRule k
  | .media => pushMedia E k
  | .area => pushArea E k
  | .property => pushProperty E k
  | .link => pushLink k
  | .linkParam => pushLinkParam k
  | .bind => pushBind k
  | .font => pushFont E k

/-- The pop function of an element. -/
def pop (E : PRead) (n : Nat) (f : Pop) (k : Nat) : PM Unit :=
  match f with
  | .none => pure ()
  | .ncl => popNcl E n
  | .region => popRegion
  | .causalConnector => popCausalConnector k
  | .compoundStatement => popCompoundStatement k
  | .assessmentStatement => popAssessmentStatement k
  | .context => popContext n k
  | .switch => popSwitch E n k
  | .media => popMedia

/-- A new element (lib/Parser.cpp:2175-2178). -/
def newElt (tag : String) (parent : Option Nat) (attrs : List (String × String)) : PM Nat := fun s =>
  .ok (some (s.nelt, { s with elt := upd s.elt s.nelt { tag := tag, parent := parent, attrs := attrs }, nelt := s.nelt + 1 }))

/-- `eltCacheAdd` (lib/Parser.cpp:1455-1466). -/
def cacheAdd (k : Nat) : PM Unit := fun s => if k ∈ s.cache then .abort else .ok (some ((), { s with cache := s.cache ++ [k] }))

/-- Cached elements are added to the cache (lib/Parser.cpp:2191-2196). -/
def cacheIf (syn : EltSyn) (k : Nat) : PM Unit := if syn.cache = true then cacheAdd k else pure ()

/-- `processNode` (lib/Parser.cpp:2160-2219).  `parent` is the element of the parent node, `ptag` its tag; the bound is on
the depth of the nesting, imports included. -/
def processNode (E : PRead) : Nat → Option Nat → Option String → Xml → PM Unit
  | 0, _, _, _ => PM.fuel
  | n + 1, parent, ptag, x => do
    let (syn, attrs) ← check true ptag x
    let k ← newElt x.tag parent attrs
    push E (processNode E n none (some "head")) syn.push k
    cacheIf syn k
    PM.forEach (processNode E n (some k) (some x.tag)) x.children
    pop E n syn.pop k

/-- The state of a new parser with a new document (lib/Parser.cpp:2228-2239, 2278-2279). -/
def PS.init (W H : Int) (zorder : Nat) (reg : Reg) (nalloc : Nat) : PS where
  syn := ⟨0, []⟩
  elt := fun _ => { tag := "", parent := none, attrs := [] }
  nelt := 0
  cache := []
  pnode := fun _ => .node .and []
  npred := 0
  aliases := []
  objs := []
  rects := [⟨0, 0, W, H⟩]
  refer := []
  conn := none
  zorder := zorder
  reg := reg
  nalloc := nalloc
  props := fun _ => []
  ports := fun _ => []
  links := fun _ => []
  rules := fun _ => []
  sports := fun _ => []
  par := fun _ _ => none
  focus := none

/-- `Parser::parseFile`, `Parser::parseBuffer` after the reading of the XML (lib/Parser.cpp:2272-2293, 4272-4350): `ok none` is
an error reported to the caller. -/
def parseXml (E : PRead) (n : Nat) (W H : Int) (zorder : Nat) (x : Xml) : Res (Option PS) :=
  if ¬ (W > 0 ∧ H > 0) then .abort
  else
    (newDoc (E.addr 0) (E.addr 1) (E.addr 2) (E.addr 3) (E.addr 4)).bind fun reg =>
      (processNode E n none none x (PS.init W H zorder reg 5)).bind fun r =>
        match r with
        | none => .ok none
        | some (_, s) => .ok (some s)

end Ginga
