import Verif.Model.Parser
/-!
# The document that the parser hands to the formatter
(lib/Formatter.cpp:138-149, lib/Document.h, lib/Object.h)

`Verif.Model.Parser` builds the heap of objects step by step; `Verif.Model.Engine` runs a document whose objects and events are fixed.
`docOf` reads the second off the first: the same objects and events under the same addresses.  The engine model names objects and events
by arbitrary numbers, so the numbers that are the address of nothing are given isolated objects and events of their own.
-/
namespace Ginga

/-- Dynamic class of an object (lib/Object.h `ObjectType`). -/
def RKind.toKind : RKind → Kind
  | .media => .media
  | .settings => .settings
  | .context => .context
  | .switch => .switch

/-- An object of the document (`Document::_objects`, lib/Document.h). -/
def Reg.get (r : Reg) (o : Nat) : Option RObj := if o ∈ r.objects then r.obj o else none

/-- The event at an address and its object (`Event::_object`, lib/Event.h). -/
def Reg.eventAt (r : Reg) (e : Nat) : Option (Nat × REv) :=
  r.objects.findSome? fun o => (r.obj o).bind fun x => (x.events.find? fun p => p.1 == e).map fun p => (o, p.2)

/-- A number above all addresses in use. -/
def Reg.bound (r : Reg) : Nat :=
  (r.objects.map fun o => o + 1 + ((r.obj o).map fun x => (x.events.map fun p => p.1 + 1).sum).getD 0).sum

/-- The whole-content event of an object (`Object::_lambda`, lib/Object.cpp:39-41). -/
def RObj.lambda (x : RObj) : Nat := ((x.getEvent .presentation "@lambda").map (·.1)).getD 0

/-- Numbers that are the address of no event and that are not the whole-content event of a number without object. -/
def Reg.spare (r : Reg) (e : Nat) : Bool := (r.eventAt e).isNone && (e < r.bound || (r.get (e - r.bound)).isSome)

/-- The events of the document that the formatter runs (`Object::_events`, lib/Object.h). -/
def docEv (r : Reg) (e : Nat) : EvDecl :=
  match r.eventAt e with
  | some (o, v) => { typ := v.typ, obj := o, id := v.id, begin_ := v.beg, end_ := v.fin, label := v.label }
  | none => if r.spare e then { typ := .attribution, obj := r.bound + e, id := "" } else { typ := .presentation, obj := e - r.bound, id := "@lambda" }

/-- An object of the document that the formatter runs (lib/Object.h, lib/Composition.h, lib/Context.h, lib/Switch.h). -/
def realObj (t : PS) (o : Nat) (x : RObj) : ObjDecl :=
  { kind := x.kind.toKind, id := x.id, parent := x.parent, children := x.children, events := x.events.map (·.1), lambda := x.lambda,
    aliases := x.aliases.map fun p => (p.1, some p.2), ports := t.ports o, links := t.links o, rules := t.rules o, switchPorts := t.sports o,
    props0 := t.props o }

/-- The isolated object for a number that is the address of no object of the document (there is nothing like it in the program). -/
def noObj (r : Reg) (o : Nat) : ObjDecl :=
  { kind := .media, id := "", lambda := r.bound + o,
    events := (r.bound + o) :: (if r.bound ≤ o ∧ r.spare (o - r.bound) then [o - r.bound] else []) }

/-- The objects of the document that the formatter runs (`Document::_objects`, lib/Document.h). -/
def docObj (t : PS) (o : Nat) : ObjDecl :=
  match t.reg.get o with
  | some x => realObj t o x
  | none => noObj t.reg o

/-- The document that the formatter runs after the parser (lib/Formatter.cpp:138-149). -/
def docOf (t : PS) (env : Env) : Doc where
  ev := docEv t.reg
  obj := docObj t
  objs := t.reg.objects
  root := t.reg.root
  settings := t.reg.settings.getD 0
  par0 := t.par
  env := env

end Ginga
