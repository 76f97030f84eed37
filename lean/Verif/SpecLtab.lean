import Verif.Spec
import Verif.Model.Ltab
/-!
# What an NCL-ltab table says

A reading of the tables of an NCL-ltab document that does not mention the parser:

* `{"context", id, nil, {port, ...}, {child, ...}, {link, ...}}`
* `{"switch", id, {child, ...}, {{child id, predicate}, ...}}`
* `{"media", id, {name = value, ...}, {{area name, begin, end}, ...}}`
* link: `{{condition, ...}, {action, ...}}`, condition: `{transition, event, predicate}`, action:
  `{transition, event, value, {delay = .., duration = ..}}`
* event: `child@area`, `child.property` or `child<key>`
* predicate: `{true}`, `{false}`, `{"not", p}`, `{"and", p, q}`, `{"or", p, q}`, `{left, operator, right}`
-/
namespace Ginga

/-- The values listed in a table, in order. -/
def LHeap.items (H : LHeap) : LVal → List LVal
  | .tab a => (H a).map (·.2)
  | _ => []

/-- The entries of a table. -/
def LHeap.pairs (H : LHeap) : LVal → List (LKey × LVal)
  | .tab a => H a
  | _ => []

/-- The kind of object that a table describes. -/
def LHeap.kind (H : LHeap) (a : Nat) : Option RKind :=
  match (H.idx a 1).text with
  | some t => if t = "context" then some .context else if t = "switch" then some .switch else if t = "media" then some .media else none
  | none => none

/-- The identifier of the object that a table describes. -/
def LHeap.id (H : LHeap) (a : Nat) : Option String := (H.idx a 2).text

/-- The children of a composition: the list of values. -/
def LHeap.kidVals (H : LHeap) (a : Nat) : List LVal :=
  match H.kind a with
  | some .context => H.items (H.idx a 5)
  | some .switch => H.items (H.idx a 3)
  | _ => []

/-- The tables of the children of a composition. -/
def LHeap.kids (H : LHeap) (a : Nat) : List Nat := (H.kidVals a).filterMap fun v => match v with | .tab b => some b | _ => none

/-- The table reached from table `a` by the positions in the lists of children. -/
def LHeap.at (H : LHeap) (a : Nat) : List Nat → Option Nat
  | [] => some a
  | i :: π =>
    match (H.kids a)[i]? with
    | some b => LHeap.at H b π
    | none => none

/-! ## Media -/

/-- The text of a transition. -/
def LHeap.transText (H : LHeap) (a : Nat) : String :=
  let f (name dflt : String) := ((H.field a name).text).getD dflt
  "{type='" ++ f "type" "" ++ "',subtype='" ++ f "subtype" "" ++ "',dur='" ++ f "dur" "0" ++ "',startProgress='" ++ f "startProgress" "0"
    ++ "',endProgress='" ++ f "endProgress" "0" ++ "',direction='" ++ f "direction" "forward" ++ "',fadeColor='" ++ f "fadeColor" ""
    ++ "',horzRepeat='" ++ f "horzRepeat" "0" ++ "',vertRepeat='" ++ f "vertRepeat" "0" ++ "',borderWidth='" ++ f "borderWidth" "0"
    ++ "',borderColor='" ++ f "borderColor" "" ++ "',}"

/-- The property that an entry of the property table gives to the media: `src` is the property `uri`, resolved; a transition is a table. -/
def propOf (E : PRead) (H : LHeap) (p : LKey × LVal) : Option (String × String) :=
  match p.1 with
  | .str name =>
    if caseEq "src".toList name.toList then p.2.text.map fun s => ("uri", E.srcUri s)
    else if caseEq "transIn".toList name.toList ∨ caseEq "transOut".toList name.toList then
      match p.2 with
      | .tab a => some (name, H.transText a)
      | _ => none
    else p.2.text.map fun s => (name, s)
  | _ => none

/-- The properties given to a media. -/
def propsOf (E : PRead) (H : LHeap) (a : Nat) : List (String × String) := (H.pairs (H.idx a 3)).filterMap (propOf E H)

/-- The time that a value denotes, or a default if it is not a string. -/
def timeOf (E : PRead) (v : LVal) (dflt : Nat) : Option Nat :=
  match v.text with
  | none => some dflt
  | some s => match parseTime E.F s.toList with | .ok t => t | _ => none

/-- Name, begin and end of an area. -/
def areaOf (E : PRead) (H : LHeap) (v : LVal) : Option (String × Nat × Nat) :=
  match v with
  | .tab a =>
    match (H.idx a 1).text, timeOf E (H.idx a 2) 0, timeOf E (H.idx a 3) NONE with
    | some n, some b, some e => some (n, b, e)
    | _, _, _ => none
  | _ => none

/-- The areas of a media. -/
def areasOf (E : PRead) (H : LHeap) (a : Nat) : List (String × Nat × Nat) := (H.items (H.idx a 4)).filterMap (areaOf E H)

/-- The events that a media has. -/
def expected (E : PRead) (H : LHeap) (a : Nat) (t : EType) (id : String) : Option REv :=
  match t with
  | .presentation =>
    if id = "@lambda" then some { typ := .presentation, id := "@lambda" }
    else ((areasOf E H a).find? fun p => p.1 == id).map fun p => { typ := .presentation, id := id, beg := p.2.1, fin := p.2.2 }
  | .attribution => if id ∈ (propsOf E H a).map (·.1) then some { typ := .attribution, id := id } else none
  | _ => none

/-- The object `o` has the events and properties that the table gives it: of two areas with the same name the first, of two
values of a property the last. -/
structure MediaAs (E : PRead) (H : LHeap) (t : PS) (o a : Nat) : Prop where
  events : ∃ x, t.reg.obj o = some x ∧ ∀ ty id, (x.getEvent ty id).map (·.2) = expected E H a ty id
  props : ∀ n, mget n (t.props o) = (((propsOf E H a).reverse.find? fun p => p.1 == n).map (·.2))
  /-- every entry was understood -/
  all : (∀ p ∈ H.pairs (H.idx a 3), (propOf E H p).isSome) ∧ ∀ v ∈ H.items (H.idx a 4), (areaOf E H v).isSome

/-! ## Events, predicates, links -/

/-- The text of an event: the id of a child, the type and the id of the event. -/
inductive EventText : Str → Str → EType → Str → Prop where
  | area {id ev : Str} : '@' ∉ id → ev.map lower ≠ "lambda".toList → EventText (id ++ '@' :: ev) id .presentation ev
  | whole {id ev : Str} : '@' ∉ id → ev.map lower = "lambda".toList → EventText (id ++ '@' :: ev) id .presentation "@lambda".toList
  | prop {id ev : Str} : '@' ∉ id ++ ev → '.' ∉ id → EventText (id ++ '.' :: ev) id .attribution ev
  | key {id ev : Str} {c : Char} : '@' ∉ id ++ ev ++ [c] → '.' ∉ id ++ ev ++ [c] → '<' ∉ id → EventText (id ++ '<' :: (ev ++ [c])) id .selection ev
  /-- no mark at all: taken as a key -/
  | bare {ev : Str} {c : Char} : '@' ∉ ev ++ [c] → '.' ∉ ev ++ [c] → '<' ∉ ev ++ [c] → EventText (ev ++ [c]) (ev ++ [c]) .selection ev

/-- The event `e` that a text names in composition `o`: that of a child, or the null pointer if the child has no such event. -/
def EventAt (t : PS) (o : Nat) (text : String) (e : Nat) : Prop :=
  ∃ id ty ev x c y, EventText text.toList id ty ev ∧ t.reg.obj o = some x ∧ c ∈ x.children ∧ t.reg.obj c = some y ∧ y.id = String.ofList id ∧
    e = ((y.getEvent ty (String.ofList ev)).map (·.1)).getD 0

/-- The operators of the language. -/
def opNames : List (String × Test) := [("==", .eq), ("!=", .ne), ("<", .lt), ("<=", .le), (">", .gt), (">=", .ge)]

/-- The words of the language, in any case. -/
def Word (w : String) (s : String) : Prop := s.toList.map lower = w.toList

/-- The truth of a predicate table when an operand `x` has the value `σ x`. -/
inductive Truth (H : LHeap) (σ : String → String) : LVal → Bool → Prop where
  | const {a b} : H.idx a 1 = .bool b → Truth H σ (.tab a) b
  | not {a s p} : (H.idx a 1).text = some s → Word "not" s → Truth H σ (H.idx a 2) p → Truth H σ (.tab a) (!p)
  | and {a s p q} : (H.idx a 1).text = some s → Word "and" s → Truth H σ (H.idx a 2) p → Truth H σ (H.idx a 3) q → Truth H σ (.tab a) (p && q)
  | or {a s p q} : (H.idx a 1).text = some s → Word "or" s → Truth H σ (H.idx a 2) p → Truth H σ (H.idx a 3) q → Truth H σ (.tab a) (p || q)
  | test {a l op r t} : (H.idx a 1).text = some l → ¬ Word "not" l → ¬ Word "and" l → ¬ Word "or" l → (H.idx a 2).text = some op →
      (H.idx a 3).text = some r → (op, t) ∈ opNames → Truth H σ (.tab a) (decide (t.holds (σ l) (σ r)))

/-- The names of the transitions; setting a property is starting its event. -/
def transWords : List (String × Trans) :=
  [("start", .start), ("pause", .pause), ("resume", .resume), ("stop", .stop), ("abort", .abort), ("set", .start)]

/-- A condition. -/
def CondAs (H : LHeap) (t : PS) (o : Nat) (v : LVal) (c : Act) : Prop :=
  ∃ a w s text, v = .tab a ∧ (H.idx a 1).text = some s ∧ Word w s ∧ (w, c.tr) ∈ transWords ∧ (H.idx a 2).text = some text ∧ EventAt t o text c.ev ∧
    c.value = "" ∧ c.delay = "" ∧ c.duration = "" ∧
    match c.pred with
    | none => H.idx a 3 = .nil
    | some p => ∀ σ, Truth H σ (H.idx a 3) (p.truth σ)

/-- A string that may be missing. -/
def StrAs (v : LVal) (s : String) : Prop := v.text = some s ∨ (v = .nil ∧ s = "")

/-- An action. -/
def ActAs (H : LHeap) (t : PS) (o : Nat) (v : LVal) (c : Act) : Prop :=
  ∃ a w s text, v = .tab a ∧ (H.idx a 1).text = some s ∧ Word w s ∧ (w, c.tr) ∈ transWords ∧ (H.idx a 2).text = some text ∧ EventAt t o text c.ev ∧
    c.pred = none ∧ StrAs (H.idx a 3) c.value ∧
    ((H.idx a 4 = .nil ∧ c.delay = "" ∧ c.duration = "") ∨
      ∃ b, H.idx a 4 = .tab b ∧ StrAs (H.field b "delay") c.delay ∧ StrAs (H.field b "duration") c.duration)

/-- A link. -/
def LinkAs (H : LHeap) (t : PS) (o : Nat) (v : LVal) (l : Link) : Prop :=
  ∃ a, v = .tab a ∧ Each (CondAs H t o) (H.items (H.idx a 1)) l.conds ∧ Each (ActAs H t o) (H.items (H.idx a 2)) l.acts ∧ l.conds ≠ [] ∧ l.acts ≠ []

/-- A port. -/
def PortAs (t : PS) (o : Nat) (v : LVal) (e : Nat) : Prop := e ≠ 0 ∧ ∃ text, v.text = some text ∧ EventAt t o text e

/-- A composition has one event: the presentation of the whole. -/
def OnlyLambda (t : PS) (o : Nat) : Prop :=
  ∃ x, t.reg.obj o = some x ∧ ∀ ty id, (x.getEvent ty id).map (·.2) =
    if ty = .presentation ∧ id = "@lambda" then some { typ := .presentation, id := "@lambda" } else none

/-- The context has the ports and links of the table. -/
structure ContextAs (H : LHeap) (t : PS) (o a : Nat) : Prop where
  events : OnlyLambda t o
  ports : ∃ es, Each (PortAs t o) (H.items (H.idx a 4)) es ∧ t.ports o = es.eraseDups
  links : Each (LinkAs H t o) (H.items (H.idx a 6)) (t.links o)

/-- A rule: the child and its predicate. -/
def RuleAs (H : LHeap) (t : PS) (o : Nat) (v : LVal) (r : Nat × Pred) : Prop :=
  ∃ a x y, v = .tab a ∧ t.reg.obj o = some x ∧ r.1 ∈ x.children ∧ t.reg.obj r.1 = some y ∧ (H.idx a 1).text = some y.id ∧
    ∀ σ, Truth H σ (H.idx a 2) (r.2.truth σ)

/-- The switch has the rules of the table. -/
structure SwitchAs (H : LHeap) (t : PS) (o a : Nat) : Prop where
  events : OnlyLambda t o
  rules : Each (RuleAs H t o) (H.items (H.idx a 4)) (t.rules o)

/-- The object is as the table says. -/
def ObjectAs (E : PRead) (H : LHeap) (t : PS) (o a : Nat) : Prop :=
  match H.kind a with
  | some .media => MediaAs E H t o a
  | some .context => ContextAs H t o a
  | some .switch => SwitchAs H t o a
  | _ => False

/-! ## Well-formed documents

The documents that the loader should accept, with `n` levels of nested calls of the interpreter. -/

/-- A string that is there or missing. -/
def TextOrNil (v : LVal) : Prop := v = .nil ∨ ∃ s, v.text = some s

/-- A list that is there or missing. -/
def ListOrNil (v : LVal) : Prop := v = .nil ∨ ∃ a, v = .tab a

/-- A transition table: a type and, possibly, other fields. -/
def TransFine (H : LHeap) (a : Nat) : Prop :=
  (∃ s, (H.field a "type").text = some s) ∧
  ∀ n ∈ ["subtype", "dur", "startProgress", "endProgress", "direction", "fadeColor", "horzRepeat", "vertRepeat", "borderWidth", "borderColor"], TextOrNil (H.field a n)

/-- An entry of a property table: a name and a text, or a transition table. -/
def PropFine (H : LHeap) (p : LKey × LVal) : Prop :=
  ∃ name, p.1 = .str name ∧
    (((Word "transin" name ∨ Word "transout" name) ∧ ∃ a, p.2 = .tab a ∧ TransFine H a) ∨
      (¬ (Word "transin" name ∨ Word "transout" name) ∧ ∃ s, p.2.text = some s))

/-- The table of a media. -/
def MediaFine (E : PRead) (H : LHeap) (a : Nat) : Prop :=
  ListOrNil (H.idx a 3) ∧ ListOrNil (H.idx a 4) ∧ (∀ p ∈ H.pairs (H.idx a 3), PropFine H p) ∧ ∀ v ∈ H.items (H.idx a 4), (areaOf E H v).isSome

/-- A predicate table of height at most `n`. -/
inductive PredFine (H : LHeap) : Nat → LVal → Prop where
  | const {n a b} : H.idx a 1 = .bool b → PredFine H (n + 1) (.tab a)
  | not {n a s} : (H.idx a 1).text = some s → Word "not" s → PredFine H n (H.idx a 2) → PredFine H (n + 1) (.tab a)
  | and {n a s} : (H.idx a 1).text = some s → Word "and" s → PredFine H n (H.idx a 2) → PredFine H n (H.idx a 3) → PredFine H (n + 1) (.tab a)
  | or {n a s} : (H.idx a 1).text = some s → Word "or" s → PredFine H n (H.idx a 2) → PredFine H n (H.idx a 3) → PredFine H (n + 1) (.tab a)
  | test {n a l op r t} : (H.idx a 1).text = some l → ¬ Word "not" l → ¬ Word "and" l → ¬ Word "or" l → (H.idx a 2).text = some op →
      (H.idx a 3).text = some r → (op, t) ∈ opNames → PredFine H (n + 1) (.tab a)

/-- A text that names an event of a child of the composition with table `a`. -/
def EventFine (H : LHeap) (a : Nat) (text : String) : Prop :=
  ∃ id ty ev b, EventText text.toList id ty ev ∧ b ∈ H.kids a ∧ H.id b = some (String.ofList id)

/-- A text that names an event that a child has. -/
def PortFine (E : PRead) (H : LHeap) (a : Nat) (v : LVal) : Prop :=
  ∃ text id ty ev b, v.text = some text ∧ EventText text.toList id ty ev ∧ b ∈ H.kids a ∧ H.id b = some (String.ofList id) ∧
    (if H.kind b = some .media then (expected E H b ty (String.ofList ev)).isSome = true else ty = .presentation ∧ ev = "@lambda".toList)

/-- Transition and event of a condition or an action. -/
def StepFine (H : LHeap) (a b : Nat) : Prop :=
  ∃ s w tr text, (H.idx b 1).text = some s ∧ Word w s ∧ (w, tr) ∈ transWords ∧ (H.idx b 2).text = some text ∧ EventFine H a text

/-- A condition. -/
def CondFine (H : LHeap) (n a : Nat) (v : LVal) : Prop := ∃ b, v = .tab b ∧ StepFine H a b ∧ (H.idx b 3 = .nil ∨ PredFine H n (H.idx b 3))

/-- An action. -/
def ActFine (H : LHeap) (a : Nat) (v : LVal) : Prop := ∃ b, v = .tab b ∧ StepFine H a b ∧ TextOrNil (H.idx b 3) ∧
  (H.idx b 4 = .nil ∨ ∃ c, H.idx b 4 = .tab c ∧ TextOrNil (H.field c "delay") ∧ TextOrNil (H.field c "duration"))

/-- A link: conditions and actions. -/
def LinkFine (H : LHeap) (n a : Nat) (v : LVal) : Prop :=
  ∃ b c c', v = .tab b ∧ H.idx b 1 = .tab c ∧ H.idx b 2 = .tab c' ∧ H.items (.tab c) ≠ [] ∧ H.items (.tab c') ≠ [] ∧
    (∀ u ∈ H.items (.tab c), CondFine H n a u) ∧ ∀ u ∈ H.items (.tab c'), ActFine H a u

/-- A rule: a child and a predicate. -/
def RuleFine (H : LHeap) (n a : Nat) (v : LVal) : Prop :=
  ∃ b id k, v = .tab b ∧ (H.idx b 1).text = some id ∧ k ∈ H.kids a ∧ H.id k = some id ∧ PredFine H n (H.idx b 2)

/-- The table of a context, apart from its children. -/
structure ContextFine (E : PRead) (H : LHeap) (n a : Nat) : Prop where
  lists : ListOrNil (H.idx a 4) ∧ ListOrNil (H.idx a 5) ∧ ListOrNil (H.idx a 6)
  kids : H.kidVals a = (H.kids a).map LVal.tab
  ports : ∀ v ∈ H.items (H.idx a 4), 0 < n ∧ PortFine E H a v
  links : ∀ v ∈ H.items (H.idx a 6), ∃ m, n = m + 1 ∧ LinkFine H m a v

/-- The table of a switch, apart from its children. -/
structure SwitchFine (H : LHeap) (n a : Nat) : Prop where
  lists : ListOrNil (H.idx a 3) ∧ ListOrNil (H.idx a 4)
  kids : H.kidVals a = (H.kids a).map LVal.tab
  rules : ∀ v ∈ H.items (H.idx a 4), RuleFine H n a v

/-- The table of an object. -/
def TableFine (E : PRead) (H : LHeap) : Nat → Nat → Prop
  | 0, _ => False
  | n + 1, a => (H.id a).isSome ∧
    match H.kind a with
    | some .media => MediaFine E H a
    | some .context => ContextFine E H n a ∧ ∀ b ∈ H.kids a, TableFine E H n b
    | some .switch => SwitchFine H n a ∧ ∀ b ∈ H.kids a, TableFine E H n b
    | _ => False

/-- The table of a document: a context, with different ids for different places. -/
structure DocFine (E : PRead) (H : LHeap) (n top : Nat) : Prop where
  kind : H.kind top = some .context
  id : (H.id top).isSome
  context : ContextFine E H n top
  kids : ∀ b ∈ H.kids top, TableFine E H n b
  ids : ∀ π π' a a', H.at top π = some a → H.at top π' = some a' → H.id a = H.id a' → π = π'
  reserved : ∀ π a, H.at top π = some a → π ≠ [] → H.id a ≠ some "__root__" ∧ H.id a ≠ some "__settings__"

end Ginga
