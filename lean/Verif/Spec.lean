import Verif.Model.Formatter
/-!
# Specification vocabulary

Small definitions used by the statements of the theorems and by no model function.
-/
namespace Ginga

/-- The NCL event state machine: the legal requests and the state each leads to. -/
inductive Edge : EState → Trans → EState → Prop where
  | start_sleeping : Edge .sleeping .start .occurring
  | start_paused : Edge .paused .start .occurring
  | pause : Edge .occurring .pause .paused
  | resume : Edge .paused .resume .occurring
  | stop_occurring : Edge .occurring .stop .sleeping
  | stop_paused : Edge .paused .stop .sleeping
  | abort_occurring : Edge .occurring .abort .sleeping
  | abort_paused : Edge .paused .abort .sleeping

/-- `Below d x o`: object `x` is inside composition `o`, at any depth. -/
inductive Below (d : Doc) : Oid → Oid → Prop where
  | child {x o} : (d.obj x).parent = some o → Below d x o
  | step {x y o} : (d.obj x).parent = some y → Below d y o → Below d x o

/-- Neither `o` nor anything inside it is a switch. -/
def SwitchFree (d : Doc) (o : Oid) : Prop :=
  (d.obj o).kind ≠ .switch ∧ ∀ x, Below d x o → (d.obj x).kind ≠ .switch

/-! ## Histories -/

/-- `e` is the whole-content event of `o`, or an interface of the switch `o`: an event whose
START, PAUSE, RESUME, STOP and ABORT act on the object `o` as a whole. -/
def Whole (d : Doc) (o : Oid) (e : Eid) : Prop :=
  e = (d.obj o).lambda ∨
    ((d.obj o).kind = .switch ∧ (d.ev e).obj = o ∧ (d.ev e).typ = .presentation)

/-- The transitions made between two states of the same presentation, newest first. -/
def St.since (s s' : St) : List LogEntry := s'.log.take (s'.log.length - s.log.length)

/-- Object `o` was stopped or aborted between `s` and `s'`. -/
def StoppedBetween (d : Doc) (o : Oid) (s s' : St) : Prop :=
  ∃ x ∈ s.since s', Whole d o x.ev ∧ (x.tr = .stop ∨ x.tr = .abort)

/-- Object `o` as a whole made some transition between `s` and `s'`. -/
def TouchedBetween (d : Doc) (o : Oid) (s s' : St) : Prop :=
  ∃ x ∈ s.since s', Whole d o x.ev

/-- The entries of a queue that can still run (`NONE` = never). -/
def pending (q : List (Act × Nat)) : List (Act × Nat) := q.filter fun p => p.2 ≠ NONE

/-! ## Predicates -/

/-- Comparison of two strings. -/
def Test.holds : Test → String → String → Prop
  | .eq, a, b => a = b
  | .ne, a, b => a ≠ b
  | .lt, a, b => a < b
  | .le, a, b => a < b ∨ a = b
  | .gt, a, b => b < a
  | .ge, a, b => b < a ∨ a = b

instance (t : Test) (a b : String) : Decidable (t.holds a b) := by
  cases t <;> simp only [Test.holds] <;> infer_instance

mutual
/-- The boolean meaning of a predicate tree, `v` giving the value of an operand. -/
def Pred.truth (v : String → String) : Pred → Bool
  | .falsum => false
  | .verum => true
  | .atom l t r => decide (t.holds (v l) (v r))
  | .neg cs => !Pred.allTrue v cs
  | .conj cs => Pred.allTrue v cs
  | .disj cs => Pred.anyTrue v cs
/-- All children are true. -/
def Pred.allTrue (v : String → String) : List Pred → Bool
  | [] => true
  | p :: ps => Pred.truth v p && Pred.allTrue v ps
/-- Some child is true. -/
def Pred.anyTrue (v : String → String) : List Pred → Bool
  | [] => false
  | p :: ps => Pred.truth v p || Pred.anyTrue v ps
end

/-- No negation inside. -/
inductive Pred.NegFree : Pred → Prop where
  | falsum : NegFree .falsum
  | verum : NegFree .verum
  | atom {l t r} : NegFree (.atom l t r)
  | conj {cs} : (∀ c ∈ cs, NegFree c) → NegFree (.conj cs)
  | disj {cs} : (∀ c ∈ cs, NegFree c) → NegFree (.disj cs)

/-! ## Links -/

/-- The condition names the event and the transition, and its predicate, if any, holds. -/
def Act.satisfied (v : String → String) (e : Eid) (t : Trans) (c : Act) : Bool :=
  c.ev = e ∧ c.tr = t ∧ (∀ p ∈ c.pred, p.truth v = true)

/-- The actions taken from a list of links when event `e` makes transition `t`: once per
satisfied condition, all the actions of the link (last one first: they are pushed on a stack). -/
def triggered (v : String → String) (e : Eid) (t : Trans) (links : List Link) : List Act :=
  links.flatMap fun l => (l.conds.filter (Act.satisfied v e t)).flatMap fun _ => l.acts.reverse

/-- The delay of an action, if it is a valid time. -/
def Act.delayOf (d : Doc) (s : St) (a : Act) : Option Nat := d.env.parseTime (deref d s a.delay)

/-- The action has no delay (zero or none). -/
def Act.immediate (d : Doc) (s : St) (a : Act) : Bool :=
  a.delayOf d s = some 0 ∨ a.delayOf d s = some NONE

/-- The queue entry for a delayed action of context `ctx`: current context time plus delay. -/
def Act.entry (d : Doc) (s : St) (ctx : Oid) (a : Act) : Act × Nat :=
  ({ ev := a.ev, tr := a.tr, value := a.value },
    tadd (s.time ctx) ((a.delayOf d s).getD 0))

/-- The state after queueing the delayed ones among actions `l` in context `ctx`. -/
def St.enqueue (d : Doc) (s : St) (ctx : Oid) (l : List Act) : St :=
  let queued := (l.filter fun a => !a.immediate d s).map (Act.entry d s ctx)
  { s with delayed := upd s.delayed ctx (s.delayed ctx ++ queued) }

/-- The actions triggered in one context: none if its links are disabled. -/
def triggeredIn (d : Doc) (s : St) (e : Eid) (t : Trans) (ctx : Oid) : List Act :=
  if s.status ctx then triggered (deref d s) e t (d.obj ctx).links else []

/-- The contexts whose links see the transitions of (the events of) object `x`: its parent
context while that is occurring; the grandparent context while both are occurring, once per port
of the parent that leads to `x`; itself if it is a context; otherwise the contexts in which it
is referred to by an alias. -/
def linkContexts (d : Doc) (s : St) (x : Oid) : List Oid :=
  (match (d.obj x).parent with
   | none => []
   | some p =>
     if (d.obj p).kind = .context ∧ s.est (d.obj p).lambda = .occurring then
       p :: (match (d.obj p).parent with
             | none => []
             | some g =>
               if (d.obj g).kind = .context ∧ s.est (d.obj g).lambda = .occurring then
                 ((d.obj p).ports.filter fun q => (d.ev q).obj = x).map fun _ => g
               else [])
     else [])
  ++ (if (d.obj x).kind = .context then [x]
      else ((d.obj x).aliases.filterMap (·.2)).filter fun c => (d.obj c).kind = .context)

/-- The delayed actions that one firing of the links of `ctx` adds to its queue. -/
def queuedIn (d : Doc) (s : St) (e : Eid) (t : Trans) (ctx : Oid) : List (Act × Nat) :=
  ((triggeredIn d s e t ctx).filter fun a => !a.immediate d s).map (Act.entry d s ctx)

/-- The links of the contexts `ctxs` fire for transition `t` of event `e`: `pushed` are the
immediate actions, the delayed ones are added to the queues of their contexts, and nothing else
changes. -/
structure LinksFired (d : Doc) (s : St) (e : Eid) (t : Trans) (ctxs : List Oid)
    (pushed : List Act) (s' : St) : Prop where
  pushed_eq : pushed = (ctxs.flatMap (triggeredIn d s e t)).filter (Act.immediate d s)
  queued_eq : ∀ c, s'.delayed c = s.delayed c ++
    (ctxs.filter (· = c)).flatMap fun _ => queuedIn d s e t c
  frame : s' = { s with delayed := s'.delayed }

/-- The actions are evaluated one after the other, each one completely (with everything it
triggers) before the next one starts. -/
inductive InOrder (d : Doc) (n : Nat) : List Act → St → St → Prop where
  | nil {s} : InOrder d n [] s s
  | cons {a as s k s1 s2} : (run d n).evalA a s = .ok (k, s1) → InOrder d n as s1 s2 →
      InOrder d n (a :: as) s s2

end Ginga

namespace Ginga

/-! ## Keys -/

/-- The key a selection event waits for: its `key` parameter; a missing, empty or unresolved
(`$…`) parameter means no particular key. -/
def awaitedKey (s : St) (e : Eid) : Option String :=
  match s.par e "key" with
  | none => none
  | some k => if k = "" ∨ k.toList.head? = some '$' then none else some k

/-- Media `o` has the input focus. -/
def Focused (s : St) (o : Oid) : Prop :=
  ∃ p, s.player o = some p ∧ p.focusIndex ≠ "" ∧ p.focusIndex = s.focus

/-- Event `e` is a selection event of media `o` that reacts to the key. -/
def Interested (d : Doc) (s : St) (o : Oid) (key : String) (e : Eid) : Prop :=
  (d.ev e).obj = o ∧ (d.ev e).typ = .selection ∧
  (awaitedKey s e = some key ∨ (awaitedKey s e = none ∧ key = "ENTER" ∧ Focused s o))

/-- A key press or release is delivered to the objects of a list, one after the other. -/
inductive KeyDelivered (d : Doc) (n : Nat) (key : String) (press : Bool) : List Oid → St → St → Prop where
  | done {s} : KeyDelivered d n key press [] s s
  /-- compositions, and medias that are sleeping when their turn comes, get nothing -/
  | skip {o os s s'} :
      ((d.obj o).kind.isMedia = false ∨ s.est (d.obj o).lambda = .sleeping) →
      KeyDelivered d n key press os s s' → KeyDelivered d n key press (o :: os) s s'
  /-- an awake media: the selection events interested in the key, and no others, are started
  (stopped on release), each one once; before that the key may request a focus change -/
  | deliver {o os s req s1 s'} (es : List Eid) :
      (d.obj o).kind.isMedia = true → s.est (d.obj o).lambda ≠ .sleeping →
      es.Nodup → (∀ e, e ∈ es ↔ Interested d s o key e) →
      InOrder d n (es.map fun e => { ev := e, tr := if press then .start else .stop })
        { s with nextFocus := req } s1 →
      KeyDelivered d n key press os s1 s' →
      KeyDelivered d n key press (o :: os) s s'

/-- Two lists, element by element. -/
inductive Each {α β : Type} (R : α → β → Prop) : List α → List β → Prop
  | nil : Each R [] []
  | cons {a b l m} : R a b → Each R l m → Each R (a :: l) (b :: m)

end Ginga
