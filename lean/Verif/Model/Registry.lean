import Verif.Model.Types
import Verif.Model.Text
/-!
# Objects, events and identifiers of a document
(lib/Document.cpp, lib/Composition.cpp, lib/Object.cpp, lib/Event.cpp)

Objects and events are named by their addresses (numbers); a `std::set` of pointers is the list of its
elements in address order.  The addresses given by the allocator are arguments of the operations, so
that everything proved holds for every memory layout.  Only what concerns the construction of a document is
modelled here: states, properties and links are in `Verif.Model.Engine`.  Destructors are not modelled.
-/
namespace Ginga

/-- Dynamic class of an object. -/
inductive RKind | media | settings | context | switch
  deriving DecidableEq, Repr

/-- An event (lib/Event.h, lib/Event.cpp:26-36). -/
structure REv where
  typ : EType
  id : String
  beg : Nat := 0
  fin : Nat := NONE
  label : String := ""
  deriving DecidableEq, Repr

/-- An object (lib/Object.h, lib/Composition.h). -/
structure RObj where
  kind : RKind
  id : String
  aliases : List (String × Nat) := []
  /-- `set<Event *> _events`, in address order. -/
  events : List (Nat × REv) := []
  parent : Option Nat := none
  /-- `set<Object *> _children` -/
  children : List Nat := []
  /-- `_doc != nullptr` (there is one document). -/
  inDoc : Bool := false
  deriving Repr

/-- The document and the heap (lib/Document.h). -/
structure Reg where
  obj : Nat → Option RObj
  objects : List Nat
  byId : List (String × Nat)
  medias : List Nat
  contexts : List Nat
  switches : List Nat
  root : Nat
  settings : Option Nat

/-- `set::insert` of a pointer: kept in address order, nothing if present. -/
def sinsert (a : Nat) : List Nat → List Nat
  | [] => [a]
  | b :: t => if a = b then b :: t else if a < b then a :: b :: t else b :: sinsert a t

/-- `set<Event *>::insert` in address order. -/
def einsert (a : Nat) (e : REv) : List (Nat × REv) → List (Nat × REv)
  | [] => [(a, e)]
  | b :: t => if a < b.1 then (a, e) :: b :: t else b :: einsert a e t

/-- `Object::getEvent` (lib/Object.cpp:214-221): the first in address order. -/
def RObj.getEvent (x : RObj) (t : EType) (id : String) : Option (Nat × REv) :=
  x.events.find? fun p => p.2.typ == t && p.2.id == id

/-- `Object::addPresentationEvent` (two overloads), `addAttributionEvent`, `addSelectionEvent`, `addLookAtEvent`
(lib/Object.cpp:229-240, 257-322): nothing if there is an event of this type and id; otherwise a new event, which the
allocator places at address `a`. -/
def RObj.addEvent (x : RObj) (a : Nat) (e : REv) : RObj :=
  if (x.getEvent e.typ e.id).isSome then x else { x with events := einsert a e x.events }

/-- `Object::hasAlias` (lib/Object.cpp:192-199). -/
def RObj.hasAlias (x : RObj) (s : String) : Bool := x.aliases.any fun p => p.1 == s

/-- Constructors (lib/Object.cpp:33-42, lib/Context.cpp:28-32, lib/Switch.cpp:27-30, lib/Media.cpp:31-34,
lib/MediaSettings.cpp:28-33): the whole-content event, for a settings object also the focus property.
`a1`, `a2` are the addresses of these events. -/
def newObj (k : RKind) (id : String) (a1 a2 : Nat) : RObj :=
  let x : RObj := { kind := k, id := id }
  let x := x.addEvent a1 { typ := .presentation, id := "@lambda" }
  if k = .settings then x.addEvent a2 { typ := .attribution, id := "service.currentFocus" } else x

/-- `_objectsById.find`. -/
def idLookup (l : List (String × Nat)) (id : String) : Option Nat :=
  (l.find? fun p => p.1 == id).map (·.2)

/-- `Document::getObjectById` (lib/Document.cpp:91-97). -/
def Reg.getById (r : Reg) (id : String) : Option Nat := idLookup r.byId id

/-- `Document::getObjectByIdOrAlias` (lib/Document.cpp:104-114). -/
def Reg.getByIdOrAlias (r : Reg) (id : String) : Option Nat :=
  match r.getById id with
  | some o => some o
  | none => r.objects.find? fun o => match r.obj o with | some x => x.hasAlias id | none => false

/-- Update of one object. -/
def Reg.setObj (r : Reg) (o : Nat) (x : RObj) : Reg := { r with obj := upd r.obj o (some x) }

/-- The insertions made by `Document::addObject` (lib/Document.cpp:140-172). -/
def Reg.register (r : Reg) (o : Nat) (x : RObj) : Reg :=
  let r := r.setObj o { x with inDoc := true }
  let r := { r with objects := sinsert o r.objects, byId := (x.id, o) :: r.byId }
  match x.kind with
  | .media | .settings => { r with medias := sinsert o r.medias }
  | .context => { r with contexts := sinsert o r.contexts }
  | .switch => { r with switches := sinsert o r.switches }

/-- `Document::addObject` (lib/Document.cpp:125-174), without `_mediasRemote`. -/
def Reg.addObject (r : Reg) (o : Nat) : Res (Bool × Reg) :=
  match r.obj o with
  | none => .ub
  | some x =>
    if o ∈ r.objects ∨ (r.getByIdOrAlias x.id).isSome then .ok (false, r)
    else if r.settings.isSome ∧ x.kind = .settings then .abort
    else if x.inDoc then .abort
    else .ok (true, r.register o x)

/-- `Composition::addChild` (lib/Composition.cpp:60-69) and `Object::initParent` (lib/Object.cpp:76-82).
Calling it on an object without document dereferences a null pointer. -/
def Reg.addChild (r : Reg) (c o : Nat) : Res (Bool × Reg) :=
  match r.obj c, r.obj o with
  | some y, some x =>
    if y.kind ≠ .context ∧ y.kind ≠ .switch then .ub
    else if o ∈ y.children then .ok (true, r)
    else if x.parent.isSome then .abort
    else if ¬ y.inDoc then .ub
    else
      let r := r.setObj c { y with children := sinsert o y.children }
      match r.obj o with
      | none => .ub
      | some x =>
        let r := r.setObj o { x with parent := some c }
        (r.addObject o).bind fun p => if p.1 then .ok (true, p.2) else .abort
  | _, _ => .ub

/-- `Object::addAlias` (lib/Object.cpp:201-207): no duplicates. -/
def Reg.addAlias (r : Reg) (o : Nat) (alias : String) (c : Nat) : Res (Bool × Reg) :=
  match r.obj o with
  | none => .ub
  | some x =>
    if (alias, c) ∈ x.aliases then .ok (true, r)
    else .ok (true, r.setObj o { x with aliases := x.aliases ++ [(alias, c)] })

/-- The operations by which a document is built. -/
inductive RegOp
  /-- Constructor of an object at a fresh address. -/
  | new (a : Nat) (k : RKind) (id : String) (a1 a2 : Nat)
  | addObject (o : Nat)
  | addChild (c o : Nat)
  | addAlias (o : Nat) (alias : String) (c : Nat)
  | addEvent (o a : Nat) (e : REv)
  deriving Repr

/-- One operation; the Boolean is the value returned by the call, `true` for `void` functions. -/
def Reg.exec (r : Reg) : RegOp → Res (Bool × Reg)
  | .new a k id a1 a2 =>
    match r.obj a with
    | some _ => .ok (true, r)   -- not a fresh address: cannot happen
    | none => .ok (true, r.setObj a (newObj k id a1 a2))
  | .addObject o => r.addObject o
  | .addChild c o => r.addChild c o
  | .addAlias o s c => r.addAlias o s c
  | .addEvent o a e =>
    match r.obj o with
    | none => .ub
    | some x => .ok (true, r.setObj o (x.addEvent a e))

/-- `Document::Document` (lib/Document.cpp:38-50): root and settings at addresses `a` and `b`. -/
def newDoc (a b e1 e2 e3 : Nat) : Res Reg :=
  let r : Reg := { obj := upd (fun _ => none) a (some (newObj .context "__root__" e1 0)), objects := [], byId := [],
                   medias := [], contexts := [], switches := [], root := a, settings := none }
  (r.addObject a).bind fun p =>
    if p.1 then
      let r := p.2.setObj b (newObj .settings "__settings__" e2 e3)
      (r.addChild a b).bind fun p => .ok { p.2 with settings := some b }
    else .abort

/-- A history of operations that all return. -/
def Reg.execAll (r : Reg) : List RegOp → Res Reg
  | [] => .ok r
  | op :: ops => (r.exec op).bind fun p => p.2.execAll ops

/-! ## Names (lib/Event.cpp:241-310) -/

/-- `Event::getEventTypeAsString`. -/
def typeName : EType → Str
  | .presentation => "presentation".toList
  | .attribution => "attribution".toList
  | .selection => "selection".toList
  | .lookat => "lookAt".toList

/-- `Event::getEventStateAsString`. -/
def stateName : EState → Str
  | .sleeping => "sleeping".toList
  | .occurring => "occurring".toList
  | .paused => "paused".toList

/-- `Event::getEventTransitionAsString`. -/
def transName : Trans → Str
  | .start => "start".toList
  | .pause => "pause".toList
  | .resume => "resume".toList
  | .stop => "stop".toList
  | .abort => "abort".toList

/-- `Event::getStringAsTransition`; `none` is `g_assert_not_reached`. -/
def nameTrans (s : Str) : Option Trans :=
  if caseEq s "start".toList then some .start
  else if caseEq s "pause".toList then some .pause
  else if caseEq s "resume".toList then some .resume
  else if caseEq s "stop".toList then some .stop
  else if caseEq s "abort".toList then some .abort
  else none

/-- `Event::getFullId` (lib/Event.cpp:60-82) for an event of object `obj`. -/
def fullId (obj : Str) (t : EType) (id : Str) : Str :=
  match t with
  | .presentation => if id = "@lambda".toList then obj ++ id else obj ++ '@' :: id
  | .attribution => obj ++ '.' :: id
  | .selection => obj ++ '<' :: id ++ ['>']
  | .lookat => obj ++ "<lookat>".toList

end Ginga
