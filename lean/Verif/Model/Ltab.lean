import Verif.Model.Parser
/-!
# The NCL-ltab parser (lib/ParserLua.cpp)

From the table that a Lua script leaves on the stack to a document.  `Formatter::start` uses this parser for files whose name ends in
`.lua` (lib/Formatter.cpp:129-136).  The document under construction is kept in the same state as that of `Verif.Model.Parser`, whose
elements, stacks and caches stay unused.

A Lua error (caught by `lua_pcall`, lib/ParserLua.cpp:753-758) is reported to the caller: `ok none`.  A failed assertion, and an
exception of `std::string` thrown through Lua, end the process: `abort`.  `lua_rawgeti` and `lua_next` on something that is not a table,
and calls on null pointers, are `ub`.

Simplifications: tables have no metatables; strings have no null characters; the script itself, `lua_State` and the collection of garbage
are not modelled.  The limit of Lua on nested calls of C functions is a parameter.  A null `Event *` is the address 0.
-/
namespace Ginga

/-- A Lua value; tables are addresses in a heap, so they may be shared and cyclic. -/
inductive LVal where
  | nil
  | bool (b : Bool)
  /-- a number, with its text -/
  | num (text : String)
  | str (s : String)
  | tab (a : Nat)
  /-- a function, a thread or a userdata -/
  | other
  deriving DecidableEq, Repr

/-- A key of a table. -/
inductive LKey where
  | int (i : Int)
  /-- a number that is not an integer, with its text -/
  | num (text : String)
  | str (s : String)
  | other
  deriving DecidableEq, Repr

/-- The entries of each table, in the order of `lua_next`. -/
abbrev LHeap := Nat → List (LKey × LVal)

/-- `lua_tolstring` of a value: `none` is a null pointer. -/
def LVal.text : LVal → Option String
  | .num t => some t
  | .str s => some s
  | _ => none

/-- `lua_tolstring` of a key. -/
def LKey.text : LKey → Option String
  | .int i => some (toString i)
  | .num t => some t
  | .str s => some s
  | .other => none

/-- A numeric key: `lua_tolstring` replaces it on the stack by a string. -/
def LKey.isNum : LKey → Bool
  | .int _ => true
  | .num _ => true
  | _ => false

/-- The value of a key, `nil` if absent. -/
def lookup (k : LKey) (l : List (LKey × LVal)) : LVal := ((l.find? fun p => p.1 == k).map (·.2)).getD .nil

/-- `lua_rawgeti (L, a, i)`. -/
def LHeap.idx (H : LHeap) (a : Nat) (i : Int) : LVal := lookup (.int i) (H a)

/-- `lua_getfield (L, a, name)`. -/
def LHeap.field (H : LHeap) (a : Nat) (name : String) : LVal := lookup (.str name) (H a)

/-- `luaL_checkstring`. -/
def checkStr (v : LVal) : PM String := PM.orErr v.text

/-- `luaL_checktype (L, i, LUA_TTABLE)`. -/
def checkTable : LVal → PM Nat
  | .tab a => PM.pure a
  | _ => PM.err

/-- A value that is used as a table without check. -/
def asTable : LVal → PM Nat
  | .tab a => PM.pure a
  | _ => PM.ub

/-- `if (lua_isnil (L, -1) == 0) { lua_pushnil (L); while (lua_next (L, -2) != 0) ...`: the entries. -/
def entries (H : LHeap) : LVal → PM (List (LKey × LVal))
  | .nil => PM.pure []
  | .tab a => PM.pure (H a)
  | _ => PM.ub

/-- `lua_call` of a C function with `d` levels left. -/
def called {α : Type} (d : Nat) (m : Nat → PM α) : PM α :=
  match d with
  | 0 => PM.err
  | d + 1 => m d

/-- The text before and after the first `c`. -/
def cut (c : Char) : Str → Option (Str × Str)
  | [] => none
  | x :: s => if x = c then some ([], s) else (cut c s).map fun p => (x :: p.1, p.2)

/-- `Composition::getChildById` (lib/Composition.cpp:39-46). -/
def childById (r : Reg) (children : List Nat) (id : String) : Option Nat :=
  children.find? fun c => match r.obj c with | some x => x.id == id | none => false

/-- `getEventStringAsEvent` (lib/ParserLua.cpp:50-88): the address of the event, 0 if there is none. -/
def ltabEvent (ctx : Nat) (text : String) : PM Nat := do
  let (id, t, ev) ← (match cut '@' text.toList with
    | some (a, b) => PM.pure (a, EType.presentation, if caseEq "lambda".toList b then "@lambda".toList else b)
    | none =>
      match cut '.' text.toList with
      | some (a, b) => PM.pure (a, EType.attribution, b)
      | none =>
        match cut '<' text.toList with
        | some (a, b) => if b = [] then PM.ub else PM.pure (a, EType.selection, b.dropLast)
        | none => if text.toList = [] then PM.ub else PM.pure (text.toList, EType.selection, text.toList.dropLast) : PM (Str × EType × Str))
  let x ← object ctx
  let s ← PM.get
  match childById s.reg x.children (String.ofList id) with
  | none => PM.ub
  | some c => do
    let y ← object c
    pure (((y.getEvent t (String.ofList ev)).map (·.1)).getD 0)

/-- The text of a comparison operator (lib/ParserLua.cpp:697-710). -/
def ltabTest (s : Str) : Option Test :=
  if caseEq s "==".toList then some .eq
  else if caseEq s "!=".toList then some .ne
  else if caseEq s "<".toList then some .lt
  else if caseEq s "<=".toList then some .le
  else if caseEq s ">".toList then some .gt
  else if caseEq s ">=".toList then some .ge
  else none

/-- `l_parse_predicate` (lib/ParserLua.cpp:651-734) with `d` levels left: the predicate that it adds to its parent. -/
def parseLPred (H : LHeap) : Nat → LVal → PM Pred
  | 0, _ => PM.err
  | d + 1, v => do
    let a ← checkTable v
    match H.idx a 1 with
    | .bool b => pure (if b then .verum else .falsum)
    | w => do
      let str ← checkStr w
      if caseEq str.toList "not".toList then do
        let p ← parseLPred H d (H.idx a 2)
        pure (.neg [p])
      else if caseEq str.toList "and".toList then do
        let q ← parseLPred H d (H.idx a 3)
        let p ← parseLPred H d (H.idx a 2)
        pure (.conj [q, p])
      else if caseEq str.toList "or".toList then do
        let q ← parseLPred H d (H.idx a 3)
        let p ← parseLPred H d (H.idx a 2)
        pure (.disj [q, p])
      else do
        let op ← checkStr (H.idx a 2)
        let right ← checkStr (H.idx a 3)
        let t ← PM.some! (ltabTest op.toList)
        pure (.atom str t right)

/-- `l_parse_port` (lib/ParserLua.cpp:324-345). -/
def parseLPort (ctx : Nat) (v : LVal) : PM Unit := do
  let str ← checkStr v
  let e ← ltabEvent ctx str
  if e = 0 then PM.abort else addPort ctx e

/-- The name of a transition (lib/ParserLua.cpp:552-557, 592-597). -/
def ltabTrans (v : LVal) : PM Trans := do
  let str ← checkStr v
  PM.some! (nameTrans (if caseEq str.toList "set".toList then "start".toList else str.toList))

/-- A condition of a link (lib/ParserLua.cpp:548-582). -/
def parseLCond (H : LHeap) (d ctx : Nat) (v : LVal) : PM Act := do
  let a ← asTable v
  let tr ← ltabTrans (H.idx a 1)
  let ev ← checkStr (H.idx a 2)
  let e ← ltabEvent ctx ev
  match H.idx a 3 with
  | .nil => pure { ev := e, tr := tr }
  | w => do
    let _ ← checkTable w
    let p ← parseLPred H d w
    pure { ev := e, tr := tr, pred := some p }

/-- A string that may be missing. -/
def optStr (v : LVal) : PM String := if v = .nil then pure "" else checkStr v

/-- An action of a link (lib/ParserLua.cpp:588-634). -/
def parseLAct (H : LHeap) (ctx : Nat) (v : LVal) : PM Act := do
  let a ← asTable v
  let tr ← ltabTrans (H.idx a 1)
  let ev ← checkStr (H.idx a 2)
  let e ← ltabEvent ctx ev
  let value ← optStr (H.idx a 3)
  match H.idx a 4 with
  | .nil => pure { ev := e, tr := tr, value := value }
  | w => do
    let b ← checkTable w
    let delay ← optStr (H.field b "delay")
    let dur ← optStr (H.field b "duration")
    pure { ev := e, tr := tr, value := value, delay := delay, duration := dur }

/-- A loop that collects results. -/
def PM.collect {α β : Type} (f : α → PM β) : List α → PM (List β)
  | [] => PM.pure []
  | a :: l => do
    let b ← f a
    let bs ← PM.collect f l
    pure (b :: bs)

/-- `l_parse_link` (lib/ParserLua.cpp:530-648) and `Context::addLink` (lib/Context.cpp:360-366). -/
def parseLLink (H : LHeap) (d ctx : Nat) (v : LVal) : PM Unit := do
  let a ← checkTable v
  let c ← checkTable (H.idx a 1)
  let conds ← PM.collect (fun p => parseLCond H d ctx p.2) (H c)
  let c ← checkTable (H.idx a 2)
  let acts ← PM.collect (fun p => parseLAct H ctx p.2) (H c)
  if conds = [] ∨ acts = [] then PM.abort
  else PM.modify fun s => { s with links := upd s.links ctx (s.links ctx ++ [⟨conds, acts⟩]) }

/-- A field of a transition: its text, or the default if it is missing (lib/ParserLua.cpp:429-491). -/
def transField (H : LHeap) (a : Nat) (name dflt : String) : PM String :=
  match H.field a name with
  | .nil => PM.pure dflt
  | v => match v.text with | some s => PM.pure s | none => PM.ub

/-- The text of a transition (lib/ParserLua.cpp:413-496).  A string has the methods of the string library as fields, and "type" is not
one of them. -/
def transValue (H : LHeap) : LVal → PM String
  | .tab a => do
    let type ← (match H.field a "type" with
      | .nil => PM.abort
      | v => match v.text with | some s => PM.pure s | none => PM.ub)
    let f1 ← transField H a "subtype" ""
    let f2 ← transField H a "dur" "0"
    let f3 ← transField H a "startProgress" "0"
    let f4 ← transField H a "endProgress" "0"
    let f5 ← transField H a "direction" "forward"
    let f6 ← transField H a "fadeColor" ""
    let f7 ← transField H a "horzRepeat" "0"
    let f8 ← transField H a "vertRepeat" "0"
    let f9 ← transField H a "borderWidth" "0"
    let f10 ← transField H a "borderColor" ""
    pure ("{type='" ++ type ++ "',subtype='" ++ f1 ++ "',dur='" ++ f2 ++ "',startProgress='" ++ f3 ++ "',endProgress='" ++ f4
      ++ "',direction='" ++ f5 ++ "',fadeColor='" ++ f6 ++ "',horzRepeat='" ++ f7 ++ "',vertRepeat='" ++ f8 ++ "',borderWidth='" ++ f9
      ++ "',borderColor='" ++ f10 ++ "',}")
  | .str _ => PM.abort
  | .num _ => PM.abort
  | _ => PM.err

/-- The name and the value of a property (lib/ParserLua.cpp:389-497).  `E.srcUri` is the resolution of a relative path
(lib/ParserLua.cpp:397-405). -/
def ltabProp (E : PRead) (H : LHeap) (name : String) (v : LVal) : PM (String × String) :=
  if caseEq "src".toList name.toList then
    match v.text with
    | none => PM.abort
    | some s => PM.pure ("uri", E.srcUri s)
  else if caseEq "transIn".toList name.toList ∨ caseEq "transOut".toList name.toList then do
    let s ← transValue H v
    pure (name, s)
  else
    match v.text with
    | none => PM.abort
    | some s => PM.pure (name, s)

/-- The properties of a media (lib/ParserLua.cpp:384-502).  A numeric key has been replaced by a string, so that `lua_next` does not
find it (if the table has that string as a key too, the loop goes on from there: not modelled). -/
def parseLProps (E : PRead) (H : LHeap) (o : Nat) : List (LKey × LVal) → PM Unit
  | [] => PM.pure ()
  | (k, v) :: l =>
    match k.text with
    | none => PM.abort
    | some name => do
      let p ← ltabProp E H name v
      addEvent E o { typ := .attribution, id := p.1 }
      setProp o p.1 p.2
      if k.isNum then PM.err else parseLProps E H o l

/-- A time of an area: the default if it is not a string (lib/ParserLua.cpp:518-540). -/
def ltabTime (E : PRead) (v : LVal) (dflt : Nat) : PM Nat :=
  match v.text with
  | none => PM.pure dflt
  | some s => do
    let t ← PM.res (parseTime E.F s.toList)
    PM.orErr t

/-- An area of a media (lib/ParserLua.cpp:511-545). -/
def parseLArea (E : PRead) (H : LHeap) (o : Nat) (v : LVal) : PM Unit := do
  let a ← asTable v
  let b ← ltabTime E (H.idx a 2) 0
  let e ← ltabTime E (H.idx a 3) NONE
  match (H.idx a 1).text with
  | none => PM.abort
  | some name => addEvent E o { typ := .presentation, id := name, beg := b, fin := e }

/-- The tag and the id of the table of an object: `luaL_checkstring` and the comparison of the tag
(lib/ParserLua.cpp:104-116, 222-236, 366-378). -/
def ltabHead (H : LHeap) (tag : String) (v : LVal) : PM (Nat × String) := do
  let a ← checkTable v
  let tg ← checkStr (H.idx a 1)
  if tg ≠ tag then PM.err
  else do
    let id ← checkStr (H.idx a 2)
    pure (a, id)

/-- `l_parse_media` (lib/ParserLua.cpp:348-527). -/
def parseLMedia (E : PRead) (H : LHeap) (p : Nat) (v : LVal) : PM Unit := do
  let h ← ltabHead H "media" v
  let o ← newObject E .media h.2
  let props ← entries H (H.idx h.1 3)
  parseLProps E H o props
  let areas ← entries H (H.idx h.1 4)
  PM.forEach (fun q => parseLArea E H o q.2) areas
  regOp (.addChild p o)

/-- The function that parses a child (lib/ParserLua.cpp:139-173, 253-287). -/
def childKind (tag : Str) : Option RKind :=
  if caseEq tag "context".toList then some .context
  else if caseEq tag "switch".toList then some .switch
  else if caseEq tag "media".toList then some .media
  else none

/-- One round of the loop over the children of a composition (lib/ParserLua.cpp:134-174, 248-288). -/
def parseLChild (H : LHeap) (rec : RKind → Nat → LVal → PM Unit) (o : Nat) (v : LVal) : PM Unit := do
  let a ← asTable v
  let tag ← checkStr (H.idx a 1)
  match childKind tag.toList with
  | none => PM.abort
  | some k => rec k o v

/-- The rest of `l_parse_context` (lib/ParserLua.cpp:130-206): children, ports and links, with `d` levels left. -/
def parseLBody (H : LHeap) (d : Nat) (rec : RKind → Nat → LVal → PM Unit) (o a : Nat) : PM Unit := do
  let kids ← entries H (H.idx a 5)
  PM.forEach (fun q => parseLChild H rec o q.2) kids
  let ports ← entries H (H.idx a 4)
  PM.forEach (fun q => called d fun _ => parseLPort o q.2) ports
  let links ← entries H (H.idx a 6)
  PM.forEach (fun q => called d fun d => parseLLink H d o q.2) links

/-- A rule of a switch (lib/ParserLua.cpp:296-316) and `Switch::addRule` (lib/Switch.cpp:222-228). -/
def parseLRule (H : LHeap) (d o : Nat) (v : LVal) : PM Unit := do
  let a ← asTable v
  let id ← checkStr (H.idx a 1)
  let x ← object o
  let s ← PM.get
  let _ ← checkTable (H.idx a 2)
  let p ← parseLPred H d (H.idx a 2)
  match childById s.reg x.children id with
  | none => PM.abort
  | some c => addRule o c p

/-- `l_parse_context`, `l_parse_switch`, `l_parse_media` (lib/ParserLua.cpp:93-527) for a table inside composition `p`, with `d` levels
of nested calls left. -/
def parseLNode (E : PRead) (H : LHeap) : Nat → RKind → Nat → LVal → PM Unit
  | 0, _, _, _ => PM.err
  | d + 1, k, p, v =>
    match k with
    | .context => do
      let h ← ltabHead H "context" v
      let o ← newObject E .context h.2
      regOp (.addChild p o)
      parseLBody H d (parseLNode E H d) o h.1
    | .switch => do
      let h ← ltabHead H "switch" v
      let o ← newObject E .switch h.2
      regOp (.addChild p o)
      let kids ← entries H (H.idx h.1 3)
      PM.forEach (fun q => parseLChild H (parseLNode E H d) o q.2) kids
      let rules ← entries H (H.idx h.1 4)
      PM.forEach (fun q => parseLRule H d o q.2) rules
    | _ => parseLMedia E H p v

/-- `l_parse_context` without parent (lib/ParserLua.cpp:117-123): the root of the document. -/
def parseLRoot (E : PRead) (H : LHeap) (d : Nat) (v : LVal) : PM Unit := do
  let h ← ltabHead H "context" v
  let s ← PM.get
  regOp (.addAlias s.reg.root h.2 0)
  parseLBody H d (parseLNode E H d) s.reg.root h.1

/-- `process` (lib/ParserLua.cpp:740-762), after the script has left `v` on the stack; `d` is the limit of nested calls. -/
def parseLtab (E : PRead) (H : LHeap) (d : Nat) (v : LVal) : Res (Option PS) :=
  (newDoc (E.addr 0) (E.addr 1) (E.addr 2) (E.addr 3) (E.addr 4)).bind fun reg =>
    (parseLRoot E H d v (PS.init 1 1 0 reg 5)).bind fun r =>
      match r with
      | none => .ok none
      | some (_, s) => .ok (some s)

end Ginga
