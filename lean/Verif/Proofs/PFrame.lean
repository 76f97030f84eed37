import Verif.Proofs.PM
/-!
# Frames of the push and pop functions
-/
namespace Ginga

/-- A preorder closed under the elementary updates that do not concern elements; `B`: the properties that may be set. -/
structure PBase (R : PS → PS → Prop) (B : String → Prop := fun _ => True) : Prop extends PPre R where
  reg : ∀ s op b r, s.reg.exec op = .ok (b, r) → R s { s with reg := r }
  del : ∀ s tmp, R s { s with reg := { s.reg with obj := upd s.reg.obj tmp none } }
  nalloc : ∀ s, R s { s with nalloc := s.nalloc + 1 }
  objs : ∀ s l, R s { s with objs := l }
  refer : ∀ s l, R s { s with refer := l }
  props : ∀ s o n v f, B n → R s { s with props := upd s.props o (mset n v (s.props o)), focus := f }
  par : ∀ s p, (∀ e k, k ≠ "key" → p e k = s.par e k) → R s { s with par := p }

/-- A preorder closed under the addition of events and the elementary updates that concern neither elements nor the tree of objects; `V`: the types of events that may be added. -/
structure PCore (E : PRead) (R : PS → PS → Prop) (B : String → Prop := fun _ => True) (V : EType → Prop := fun _ => True) : Prop extends PPre R where
  event : ∀ o e, V e.typ → PRel R (Ginga.addEvent E o e)
  props : ∀ s o n v f, B n → R s { s with props := upd s.props o (mset n v (s.props o)), focus := f }
  par : ∀ s p, (∀ e k, k ≠ "key" → p e k = s.par e k) → R s { s with par := p }

/-- A preorder closed under the elementary updates of the push and pop functions other than imports and regions; `A`: the
attributes of elements that may change. -/
structure PAtomic (A : String → Prop) (R : PS → PS → Prop) (B : String → Prop := fun _ => True) : Prop extends PBase R B where
  conn : ∀ s c, R s { s with conn := c }
  pred : ∀ s p n, R s { s with pnode := p, npred := n }
  names : ∀ n, n ≠ "id" → A n
  attr : ∀ s k n v, A n → R s (s.setAttr k n v)
  elt : ∀ s k e, e.tag = (s.elt k).tag → e.parent = (s.elt k).parent → e.attrs = (s.elt k).attrs → R s (s.setElt k e)

/-- The same for functions that do not change the tree of objects. -/
structure PAtom (E : PRead) (A : String → Prop) (R : PS → PS → Prop) (B : String → Prop := fun _ => True) (V : EType → Prop := fun _ => True) : Prop extends PCore E R B V where
  conn : ∀ s c, R s { s with conn := c }
  pred : ∀ s p n, R s { s with pnode := p, npred := n }
  names : ∀ n, n ≠ "id" → A n
  attr : ∀ s k n v, A n → R s (s.setAttr k n v)
  elt : ∀ s k e, e.tag = (s.elt k).tag → e.parent = (s.elt k).parent → e.attrs = (s.elt k).attrs → R s (s.setElt k e)

section
variable {R : PS → PS → Prop} {B : String → Prop} (hR : PBase R B)
include hR
theorem PRel.regOp (op : RegOp) : PRel R (regOp op) := fun _ => PPost.regOp fun _ _ h => hR.reg _ _ _ _ h
theorem PRel.alloc (E : PRead) : PRel R (alloc E) := fun s => PPost.alloc (hR.nalloc s)
theorem PRel.refer (f : PS → List (String × Nat)) : PRel R (PM.modify fun s => { s with refer := f s }) := fun s => PPost.modify (hR.refer s _)
theorem PRel.del (tmp : Nat) : PRel R (PM.modify fun s => { s with reg := { s.reg with obj := upd s.reg.obj tmp none } }) := fun s =>
  PPost.modify (hR.del s _)
theorem PBase.core (E : PRead) : PCore E R B where
  toPPre := hR.toPPre
  event o e _ := PRel.bind hR.toPPre (PRel.alloc hR E) fun _ => PRel.regOp hR _
  props := hR.props
  par := hR.par
end


section
variable {E : PRead} {R : PS → PS → Prop} {B : String → Prop} {V : EType → Prop} (hR : PCore E R B V)
include hR
theorem PRel.newPred (hp : ∀ s p n, R s { s with pnode := p, npred := n }) (p : PNode) : PRel R (newPred p) := fun s => PPost.newPred (hp s _ _)
theorem PRel.addPChild (hp : ∀ s p n, R s { s with pnode := p, npred := n }) (p c : Nat) : PRel R (addPChild p c) := fun s => PPost.addPChild fun _ _ _ => hp s _ _
theorem PRel.objs (ho : ∀ s l, R s { s with objs := l }) (f : PS → List Nat) : PRel R (PM.modify fun s => { s with objs := f s }) := fun s => PPost.modify (ho s _)
theorem PRel.conn (hc : ∀ s c, R s { s with conn := c }) (c : Option Nat) : PRel R (PM.modify fun s => { s with conn := c }) := fun s => PPost.modify (hc s _)
theorem PRel.ports (hp : ∀ s p, R s { s with ports := p }) (f : PS → Nat → List Nat) : PRel R (PM.modify fun s => { s with ports := f s }) := fun s => PPost.modify (hp s _)
theorem PRel.rules (hu : ∀ s p, R s { s with rules := p }) (f : PS → Nat → List (Nat × Pred)) : PRel R (PM.modify fun s => { s with rules := f s }) := fun s => PPost.modify (hu s _)
theorem PRel.sports (hs : ∀ s p, R s { s with sports := p }) (f : PS → Nat → List (String × List Nat)) : PRel R (PM.modify fun s => { s with sports := f s }) := fun s => PPost.modify (hs s _)
theorem PRel.par (a : Nat) (v : String) : PRel R (PM.modify fun s => { s with par := upd s.par a (upd (s.par a) "key" (some v)) }) := fun s => PPost.modify (hR.par s _ fun e k hk => by
  by_cases h : e = a
  · subst h; rw [upd_same, upd_ne _ _ hk]
  · rw [upd_ne _ _ h])
theorem PRel.setProp (o : Nat) (n v : String) (hB : B n) : PRel R (setProp o n v) :=
  PRel.bind hR.toPPre (PRel.object hR.toPPre _) fun _ s => PPost.modify (hR.props s _ _ _ _ hB)

/-- One step of the frame prover. -/
macro "prel1" h:term:max : tactic => `(tactic| with_reducible first
  | exact PRel.pure ($h).toPPre _
  | exact PRel.pure' ($h).toPPre _
  | exact PRel.get ($h).toPPre
  | exact PRel.err
  | exact PRel.abort
  | exact PRel.ub
  | exact PRel.fuel
  | exact PRel.res ($h).toPPre _
  | exact PRel.some! ($h).toPPre _
  | exact PRel.orErr ($h).toPPre _
  | exact PRel.attr! ($h).toPPre _ _
  | exact PRel.parentElt ($h).toPPre _
  | exact PRel.object ($h).toPPre _
  | exact PRel.peekObj ($h).toPPre
  | exact PRel.peekComp ($h).toPPre
  | exact PRel.resolveComponent ($h).toPPre _ _
  | exact PRel.par $h _ _
  | apply PRel.bind ($h).toPPre
  | apply PRel.forEach ($h).toPPre
  | apply PRel.ite
  | intro _
  | split)
/-- The frame prover. -/
macro "prel" h:term:max : tactic => `(tactic| repeat' prel1 $h)

theorem PRel.addEvent (o : Nat) (e : REv) (hV : V e.typ := by trivial) : PRel R (addEvent E o e) := hR.event o e hV
theorem PRel.popObj (ho : ∀ s l, R s { s with objs := l }) : PRel R popObj := PRel.objs hR ho _
theorem PRel.pushObj (ho : ∀ s l, R s { s with objs := l }) (o : Nat) : PRel R (pushObj o) := PRel.objs hR ho _
theorem PRel.clonePred (p : Nat) : PRel R (clonePred p) := by unfold Ginga.clonePred; prel hR
theorem PRel.conjChildren (p : Nat) : PRel R (conjChildren p) := by unfold Ginga.conjChildren; prel hR
theorem PRel.resolveIface : ∀ n ctx k, PRel R (resolveIface n ctx k)
  | 0, _, _ => PRel.fuel
  | n + 1, ctx, k => by
    unfold Ginga.resolveIface
    have ih := PRel.resolveIface n
    repeat' with_reducible first | exact ih _ _ | prel hR
theorem PRel.predChain : ∀ n k acc, PRel R (predChain n k acc)
  | 0, _, _ => PRel.fuel
  | n + 1, k, acc => by
    unfold Ginga.predChain
    have ih := PRel.predChain n
    repeat' with_reducible first | exact ih _ _ | prel hR
theorem PRel.conjParts : ∀ l, PRel R (conjParts l)
  | [] => PRel.pure hR.toPPre _
  | p :: l => by
    unfold Ginga.conjParts
    have ih := PRel.conjParts l
    repeat' with_reducible first | exact ih | exact PRel.clonePred hR _ | exact PRel.conjChildren hR _ | prel hR
theorem PRel.obtainPred (k : Nat) : PRel R (obtainPred k) := by
  unfold Ginga.obtainPred
  repeat' with_reducible first | exact PRel.clonePred hR _ | exact PRel.conjChildren hR _ | exact PRel.predChain hR _ _ _ | exact PRel.conjParts hR _ | prel hR
theorem PRel.pushCausalConnector (hc : ∀ s c, R s { s with conn := c }) (k : Nat) : PRel R (pushCausalConnector k) := PRel.conn hR hc _
theorem PRel.popCausalConnector (hc : ∀ s c, R s { s with conn := c }) (k : Nat) : PRel R (popCausalConnector k) := by
  unfold Ginga.popCausalConnector; repeat' with_reducible first | exact PRel.conn hR hc _ | prel hR
theorem PRel.addToParent (hp : ∀ s p n, R s { s with pnode := p, npred := n }) (k : Nat) {q : PM Nat} (hq : PRel R q) : PRel R (addToParent k q) := by
  unfold Ginga.addToParent; repeat' with_reducible first | exact hq | exact PRel.addPChild hR hp _ _ | prel hR
theorem PRel.popCompoundStatement (k : Nat) : PRel R (popCompoundStatement k) := by unfold Ginga.popCompoundStatement; prel hR
theorem PRel.popAssessmentStatement (hp : ∀ s p n, R s { s with pnode := p, npred := n }) (k : Nat) : PRel R (popAssessmentStatement k) := by
  unfold Ginga.popAssessmentStatement; repeat' with_reducible first | exact PRel.addToParent hR hp _ (PRel.newPred hR hp _) | prel hR
theorem PRel.rulePred (s : PS) (k : Nat) : PRel R (rulePred s k) := by unfold Ginga.rulePred; prel hR
theorem PRel.addPort (hp : ∀ s p, R s { s with ports := p }) (o e : Nat) : PRel R (addPort o e) := PRel.ports hR hp _
theorem PRel.popContext (ho : ∀ s l, R s { s with objs := l }) (hp : ∀ s p, R s { s with ports := p }) (n k : Nat) : PRel R (popContext n k) := by
  unfold Ginga.popContext; repeat' with_reducible first | exact PRel.popObj hR ho | exact PRel.resolveIface hR _ _ _ | exact PRel.addPort hR hp _ _ | prel hR
theorem PRel.resolveAll (n o : Nat) : ∀ l, PRel R (resolveAll n o l)
  | [] => PRel.pure hR.toPPre _
  | p :: l => by
    unfold Ginga.resolveAll
    have ih := PRel.resolveAll n o l
    repeat' with_reducible first | exact ih | exact PRel.resolveIface hR _ _ _ | prel hR
theorem PRel.resolveRules (o : Nat) : ∀ l, PRel R (resolveRules o l)
  | [] => PRel.pure hR.toPPre _
  | p :: l => by
    unfold Ginga.resolveRules
    have ih := PRel.resolveRules o l
    repeat' with_reducible first | exact ih | prel hR
theorem PRel.resolveSwitchPort (hs : ∀ s p, R s { s with sports := p }) (n o : Nat) (id : String) (hV : V .presentation := by trivial) : PRel R (resolveSwitchPort E n o id) := by
  unfold Ginga.resolveSwitchPort; repeat' with_reducible first | exact PRel.resolveAll hR _ _ _ | exact PRel.addEvent hR _ _ hV | exact PRel.sports hR hs _ | prel hR

theorem PRel.popMedia (ho : ∀ s l, R s { s with objs := l }) : PRel R popMedia := by unfold Ginga.popMedia; repeat' with_reducible first | exact PRel.popObj hR ho | prel hR
theorem PRel.timeAttr (E : PRead) (k : Nat) (n : String) (d : Nat) : PRel R (timeAttr E k n d) := by unfold Ginga.timeAttr; prel hR

theorem PRel.pushArea (k : Nat) (hV : V .presentation := by trivial) : PRel R (pushArea E k) := by
  unfold Ginga.pushArea; repeat' with_reducible first | exact PRel.timeAttr hR _ _ _ _ | exact PRel.addEvent hR _ _ hV | prel hR
theorem PRel.pushProperty (k : Nat) (hB : ∀ n, B n := by intros; trivial) (hV : V .attribution := by trivial) : PRel R (pushProperty E k) := by
  unfold Ginga.pushProperty; repeat' with_reducible first | exact PRel.setProp hR _ _ _ (hB _) | exact PRel.addEvent hR _ _ hV | prel hR
theorem PRel.pushFont (E : PRead) (k : Nat) : PRel R (pushFont E k) := by unfold Ginga.pushFont; prel hR
theorem PRel.moveAttrs (o : Nat) (hB : ∀ n, B n := by intros; trivial) (hV : V .attribution := by trivial) : ∀ l, PRel R (moveAttrs E o l)
  | [] => PRel.pure hR.toPPre _
  | (_, _) :: l => by
    unfold Ginga.moveAttrs
    have ih := PRel.moveAttrs o hB hV l
    repeat' with_reducible first | exact PRel.setProp hR _ _ _ (hB _) | exact ih | exact PRel.addEvent hR _ _ hV | prel hR
theorem PRel.popMediaElt (k : Nat) (hB : ∀ n, B n := by intros; trivial) (hV : V .attribution := by trivial) : PRel R (popMediaElt E k) := by
  unfold Ginga.popMediaElt; repeat' with_reducible first | exact PRel.moveAttrs hR _ hB hV _ | prel hR
theorem PRel.addRule (hu : ∀ s p, R s { s with rules := p }) (o c : Nat) (p : Pred) : PRel R (addRule o c p) := PRel.rules hR hu _
theorem PRel.bindRulePred (s : PS) (j : Nat) : PRel R (bindRulePred s j) := by
  unfold Ginga.bindRulePred; repeat' with_reducible first | exact PRel.clonePred hR _ | prel hR
theorem PRel.popRules (hu : ∀ s p, R s { s with rules := p }) (o : Nat) : ∀ l, PRel R (popRules o l)
  | [] => PRel.pure hR.toPPre _
  | (_, _) :: l => by
    unfold Ginga.popRules
    have ih := PRel.popRules hu o l
    repeat' with_reducible first | exact ih | exact PRel.bindRulePred hR _ _ | exact PRel.addRule hR hu _ _ _ | prel hR
theorem PRel.popSwitchElt (hu : ∀ s p, R s { s with rules := p }) (k : Nat) : PRel R (popSwitchElt k) := by
  unfold Ginga.popSwitchElt; repeat' with_reducible first | exact PRel.popRules hR hu _ _ | exact PRel.addRule hR hu _ _ _ | prel hR
theorem PRel.resolveTable (n ctx : Nat) : ∀ l acc, PRel R (resolveTable n ctx l acc)
  | [], _ => PRel.pure hR.toPPre _
  | b :: l, acc => by
    unfold Ginga.resolveTable
    have ih := PRel.resolveTable n ctx l
    repeat' with_reducible first | exact ih _ | exact PRel.resolveIface hR _ _ _ | prel hR
theorem PRel.roleEvent (r : Role) (e : EvRef) (a b c : List (String × String)) (hV : V .selection ∧ V .lookat := by constructor <;> trivial) : PRel R (roleEvent E r e a b c) := by
  unfold Ginga.roleEvent; repeat' with_reducible first | exact PRel.addEvent hR _ _ hV.1 | exact PRel.addEvent hR _ _ hV.2 | prel hR
theorem PRel.resolveRole (n ctx : Nat) (r : Role) (b : Bind) (x y z : List (String × String)) (hV : V .selection ∧ V .lookat := by constructor <;> trivial) :
    PRel R (resolveRole E n ctx r b x y z) := by
  unfold Ginga.resolveRole
  repeat' with_reducible first | exact PRel.roleEvent hR _ _ _ _ _ hV | exact PRel.resolveIface hR _ _ _ | exact PRel.obtainPred hR _ | prel hR
theorem PRel.resolveRoles (n ctx : Nat) (roles : List Role) (x y z : List (String × String)) (hV : V .selection ∧ V .lookat := by constructor <;> trivial) :
    ∀ l, PRel R (resolveRoles E n ctx roles x y z l)
  | [] => PRel.pure hR.toPPre _
  | (_, _) :: l => by
    unfold Ginga.resolveRoles
    have ih := PRel.resolveRoles n ctx roles x y z hV l
    repeat' with_reducible first | exact ih | exact PRel.resolveRole hR _ _ _ _ _ _ _ hV | prel hR
theorem PRel.popLinkElt (hl : ∀ s p, R s { s with links := p }) (n k : Nat) (hV : V .selection ∧ V .lookat := by constructor <;> trivial) : PRel R (popLinkElt E n k) := by
  have hlinks : ∀ f : PS → Nat → List Link, PRel R (PM.modify fun s => { s with links := f s }) := fun f s => PPost.modify (hl s _)
  unfold Ginga.popLinkElt
  repeat' with_reducible first | exact hlinks _ | exact PRel.resolveTable hR _ _ _ _ | exact PRel.resolveRoles hR _ _ _ _ _ _ hV _ | prel hR
end

section
variable {R : PS → PS → Prop} {B : String → Prop} (hR : PBase R B)
include hR
/-- One step of the frame prover, with changes of the tree of objects. -/
macro "prelb" h:term:max : tactic => `(tactic| repeat' (with_reducible first
  | exact PRel.regOp $h _
  | exact PRel.alloc $h _
  | exact PRel.refer $h _
  | exact PRel.del $h _
  | prel1 (PBase.core $h ‹_›)))
theorem PRel.newObject (E : PRead) (k : RKind) (id : String) : PRel R (newObject E k id) := by unfold Ginga.newObject; prelb hR
theorem PRel.pushNcl (E : PRead) (k : Nat) : PRel R (pushNcl k) := by unfold Ginga.pushNcl; repeat' with_reducible first | exact PRel.pushObj (hR.core E) hR.objs _ | prelb hR
theorem PRel.pushContext (E : PRead) (k : Nat) : PRel R (pushContext E k) := by
  unfold Ginga.pushContext; repeat' with_reducible first | exact PRel.pushObj (hR.core E) hR.objs _ | exact PRel.newObject hR _ _ _ | prelb hR
theorem PRel.pushSwitch (E : PRead) (k : Nat) : PRel R (pushSwitch E k) := by
  unfold Ginga.pushSwitch; repeat' with_reducible first | exact PRel.pushObj (hR.core E) hR.objs _ | exact PRel.newObject hR _ _ _ | prelb hR
theorem PRel.pushRefer (E : PRead) (id r : String) : PRel R (pushRefer E id r) := by
  unfold Ginga.pushRefer; repeat' with_reducible first | exact PRel.newObject hR _ _ _ | prelb hR

theorem PRel.pushSettings (E : PRead) (id : String) : PRel R (pushSettings id) := by unfold Ginga.pushSettings; prelb hR
theorem PRel.pushPlainMedia (E : PRead) (id a b : String) (hB : B "uri" ∧ B "type" := by constructor <;> trivial) : PRel R (pushPlainMedia E id a b) := by
  unfold Ginga.pushPlainMedia; repeat' with_reducible first | exact PRel.setProp (hR.core E) _ _ _ hB.1 | exact PRel.setProp (hR.core E) _ _ _ hB.2 | exact PRel.newObject hR _ _ _ | prelb hR

theorem PRel.pushMedia (E : PRead) (k : Nat) (hB : B "uri" ∧ B "type" := by constructor <;> trivial) : PRel R (pushMedia E k) := by
  unfold Ginga.pushMedia
  repeat' with_reducible first | exact PRel.pushRefer hR _ _ _ | exact PRel.pushSettings hR ‹_› _ | exact PRel.pushPlainMedia hR _ _ _ _ hB | exact PRel.pushObj (hR.core E) hR.objs _ | prelb hR
end

theorem setElt_setElt (s : PS) (k : Nat) (a b : Elt) : (s.setElt k a).setElt k b = s.setElt k b := by
  simp only [PS.setElt, PS.mk.injEq, true_and, and_true]
  funext j
  by_cases h : j = k
  · subst h; rw [upd_same, upd_same]
  · simp [upd, h]
theorem setElt_elt (s : PS) (k : Nat) (a : Elt) : (s.setElt k a).elt k = a := upd_same _ _ _

section
variable {E : PRead} {A : String → Prop} {R : PS → PS → Prop} {B : String → Prop} {V : EType → Prop} (hR : PAtom E A R B V)
include hR
theorem PRel.modElt (f : PS → Elt) (k : Nat) (h : ∀ s, (f s).tag = (s.elt k).tag ∧ (f s).parent = (s.elt k).parent ∧ (f s).attrs = (s.elt k).attrs) :
    PRel R (PM.modify fun s => s.setElt k (f s)) := fun s => PPost.modify (hR.elt s k _ (h s).1 (h s).2.1 (h s).2.2)
/-- One step of the frame prover, with updates of elements. -/
macro "prela" h:term:max : tactic => `(tactic| repeat' (with_reducible first
  | exact PRel.modElt $h _ _ (fun _ => ⟨rfl, rfl, rfl⟩)
  | exact PRel.newPred ($h).toPCore ($h).pred _
  | exact PRel.addPChild ($h).toPCore ($h).pred _ _
  | prel1 ($h).toPCore))

theorem PRel.setAttr (k : Nat) (n : String) (hn : A n) (f : PS → String) : PRel R (PM.modify fun s => s.setAttr k n (f s)) := fun s =>
  PPost.modify (hR.attr s k _ _ hn)
theorem PRel.pushDescriptorParam (k : Nat) (hA : ∀ n, A n) : PRel R (pushDescriptorParam k) := by
  unfold Ginga.pushDescriptorParam
  repeat' with_reducible first | exact PRel.setAttr hR _ _ (hA _) _ | prela hR
theorem PRel.pushCompoundCondition (k : Nat) : PRel R (pushCompoundCondition k) := by unfold Ginga.pushCompoundCondition; prela hR
theorem PRel.pushSimpleCondition (k : Nat) : PRel R (pushSimpleCondition k) := by unfold Ginga.pushSimpleCondition; prela hR
theorem PRel.pushCompoundStatement (k : Nat) : PRel R (pushCompoundStatement k) := by unfold Ginga.pushCompoundStatement; prela hR
theorem PRel.pushAttributeAssessment (k : Nat) : PRel R (pushAttributeAssessment k) := by unfold Ginga.pushAttributeAssessment; prela hR
theorem PRel.pushRule (k : Nat) : PRel R (pushRule k) := by
  unfold Ginga.pushRule; repeat' with_reducible first | exact PRel.rulePred hR.toPCore _ _ | exact PRel.addToParent hR.toPCore hR.pred _ (PRel.newPred hR.toPCore hR.pred _) | prela hR
theorem PRel.pushPort (k : Nat) : PRel R (pushPort k) := by unfold Ginga.pushPort; prela hR
theorem PRel.pushSwitchPort (k : Nat) : PRel R (pushSwitchPort k) := by unfold Ginga.pushSwitchPort; prela hR
theorem PRel.pushMapping (k : Nat) : PRel R (pushMapping k) := by unfold Ginga.pushMapping; prela hR
theorem PRel.popSwitch (ho : ∀ s l, R s { s with objs := l }) (hs : ∀ s p, R s { s with sports := p }) (n k : Nat) (hV : V .presentation := by trivial) : PRel R (popSwitch E n k) := by
  unfold Ginga.popSwitch
  repeat' with_reducible first | exact PRel.resolveRules hR.toPCore _ _ | exact PRel.resolveSwitchPort hR.toPCore hs _ _ _ hV | exact PRel.popObj hR.toPCore ho | prela hR
theorem PRel.pushBindRule (k : Nat) : PRel R (pushBindRule k) := by unfold Ginga.pushBindRule; prela hR

theorem PRel.pushLink (k : Nat) : PRel R (pushLink k) := by unfold Ginga.pushLink; prela hR
theorem PRel.pushLinkParam (k : Nat) : PRel R (pushLinkParam k) := by unfold Ginga.pushLinkParam; prela hR
theorem PRel.pushBind (k : Nat) : PRel R (pushBind k) := by unfold Ginga.pushBind; prela hR
theorem PAtom.msetAll (k : Nat) : ∀ (l : List (String × String)) (s : PS), (∀ p ∈ l, A p.1) →
    R s (s.setElt k { s.elt k with attrs := msetAll l (s.elt k).attrs })
  | [], s, _ => hR.elt s k _ rfl rfl rfl
  | p :: l, s, h => by
    have h1 := hR.attr s k p.1 p.2 (h p (by simp))
    have h2 := PAtom.msetAll k l (s.setAttr k p.1 p.2) fun q hq => h q (by simp [hq])
    have := hR.trans h1 h2
    simpa only [PS.setAttr, setElt_setElt, setElt_elt, Ginga.msetAll] using this
theorem PRel.descRegion (k : Nat) : PRel R (descRegion k) := by
  unfold Ginga.descRegion
  refine PRel.bind hR.toPPre (PRel.get hR.toPPre) fun s => ?_
  cases s.attr k "region" with
  | none => exact PRel.pure hR.toPPre _
  | some id =>
    refine PRel.bind hR.toPPre (PRel.orErr hR.toPPre _) fun r s => PPost.modify ?_
    exact PAtom.msetAll hR k _ s fun p hp => hR.names _ (by simpa using (List.mem_filter.1 hp).2)
theorem PRel.descTrans (k : Nat) (n : String) (hn : A n) : PRel R (descTrans E k n) := by
  unfold Ginga.descTrans
  repeat' with_reducible first | exact PRel.setAttr hR _ _ hn _ | prela hR
theorem PRel.popDesc (k : Nat) : PRel R (popDesc E k) := by
  unfold Ginga.popDesc
  repeat' with_reducible first | exact PRel.descRegion hR _ | exact PRel.descTrans hR _ _ (hR.names _ (by decide)) | prela hR
theorem PRel.popNcl (ho : ∀ s l, R s { s with objs := l }) (hu : ∀ s p l, R s { s with rules := p, links := l }) (n : Nat) (hB : ∀ n, B n := by intros; trivial)
    (hV : V .attribution ∧ V .selection ∧ V .lookat := by exact ⟨trivial, trivial, trivial⟩) : PRel R (popNcl E n) := by
  unfold Ginga.popNcl
  repeat' with_reducible first | exact PRel.popDesc hR _ | exact PRel.popMediaElt hR.toPCore _ hB hV.1 | exact PRel.popSwitchElt hR.toPCore (fun s p => hu s p s.links) _ | exact PRel.popLinkElt hR.toPCore (fun s p => hu s s.rules p) _ _ hV.2 | exact PRel.popObj hR.toPCore ho | prela hR

/-- Every push function except those of contexts, switches, medias, regions and imports. -/
theorem PRel.pushC (proc : Xml → PM Unit) (f : Push) (k : Nat) (h1 : f ≠ .region) (h2 : f ≠ .importBase)
    (h7 : f ≠ .ncl) (h4 : f ≠ .context) (h5 : f ≠ .switch) (h6 : f ≠ .media)
    (h3 : f = .descriptorParam → ∀ n, A n) (hB : f = .property → ∀ n, B n := by intros; trivial)
    (hV : (f = .area → V .presentation) ∧ (f = .property → V .attribution) := by constructor <;> intros <;> trivial) : PRel R (push E proc f k) := by
  cases f
  case region => exact absurd rfl h1
  case importBase => exact absurd rfl h2
  case none => exact PRel.pure hR.toPPre _
  case ncl => exact absurd rfl h7
  case descriptorParam => exact PRel.pushDescriptorParam hR k (h3 rfl)
  case causalConnector => exact PRel.pushCausalConnector hR.toPCore hR.conn k
  case compoundCondition => exact PRel.pushCompoundCondition hR k
  case simpleCondition => exact PRel.pushSimpleCondition hR k
  case compoundStatement => exact PRel.pushCompoundStatement hR k
  case attributeAssessment => exact PRel.pushAttributeAssessment hR k
  case rule => exact PRel.pushRule hR k
  case context => exact absurd rfl h4
  case port => exact PRel.pushPort hR k
  case switch => exact absurd rfl h5
  case switchPort => exact PRel.pushSwitchPort hR k
  case mapping => exact PRel.pushMapping hR k
  case bindRule => exact PRel.pushBindRule hR k
  case media => exact absurd rfl h6
  case area => exact PRel.pushArea hR.toPCore k (hV.1 rfl)
  case property => exact PRel.pushProperty hR.toPCore k (hB rfl) (hV.2 rfl)
  case link => exact PRel.pushLink hR k
  case linkParam => exact PRel.pushLinkParam hR k
  case bind => exact PRel.pushBind hR k
  case font => exact PRel.pushFont hR.toPCore E k

/-- Every pop function except that of regions. -/
theorem PRel.pop (ho : ∀ s l, R s { s with objs := l }) (n : Nat) (f : Pop) (k : Nat)
    (hp : f = .context → ∀ s p, R s { s with ports := p }) (hu : f = .ncl → ∀ s p l, R s { s with rules := p, links := l }) (hs : f = .switch → ∀ s p, R s { s with sports := p }) (h1 : f ≠ .region)
    (hB : f = .ncl → ∀ n, B n := by intros; trivial) (hV : (f = .switch → V .presentation) ∧ (f = .ncl → V .attribution ∧ V .selection ∧ V .lookat) := by
      constructor <;> intros <;> (try exact ⟨trivial, trivial, trivial⟩) <;> trivial) : PRel R (pop E n f k) := by
  cases f
  case region => exact absurd rfl h1
  case none => exact PRel.pure hR.toPPre _
  case ncl => exact PRel.popNcl hR ho (hu rfl) n (hB rfl) (hV.2 rfl)
  case causalConnector => exact PRel.popCausalConnector hR.toPCore hR.conn k
  case compoundStatement => exact PRel.popCompoundStatement hR.toPCore k
  case assessmentStatement => exact PRel.popAssessmentStatement hR.toPCore hR.pred k
  case context => exact PRel.popContext hR.toPCore ho (hp rfl) n k
  case switch => exact PRel.popSwitch hR ho (hs rfl) n k (hV.1 rfl)
  case media => exact PRel.popMedia hR.toPCore ho

theorem PRel.pushRegion (E : PRead) (k : Nat) (hr : ∀ s l z, R s { s with rects := l, zorder := z }) : PRel R (pushRegion E k) := by
  unfold Ginga.pushRegion
  refine PRel.bind hR.toPPre (PRel.get hR.toPPre) fun s => ?_
  split
  · exact PRel.abort
  · refine PRel.bind hR.toPPre (PRel.res hR.toPPre _) fun r => ?_
    refine PRel.bind hR.toPPre (fun s => PPost.modify (hr s _ _)) fun _ s => PPost.modify ?_
    exact PAtom.msetAll hR k [("zOrder", _), ("left", _), ("top", _), ("width", _), ("height", _)] s fun p hp => by
      simp only [List.mem_cons, List.not_mem_nil, or_false] at hp
      rcases hp with rfl | rfl | rfl | rfl | rfl <;> exact hR.names _ (by simp)

theorem PRel.popRegion (hr : ∀ s l z, R s { s with rects := l, zorder := z }) : PRel R popRegion := by
  unfold Ginga.popRegion
  refine PRel.bind hR.toPPre (PRel.get hR.toPPre) fun s => ?_
  split
  · exact PRel.abort
  · exact fun s => PPost.modify (hr s _ s.zorder)

end

theorem PAtomic.atom {A : String → Prop} {R : PS → PS → Prop} {B : String → Prop} (hR : PAtomic A R B) (E : PRead) : PAtom E A R B where
  toPCore := hR.toPBase.core E
  conn := hR.conn
  pred := hR.pred
  names := hR.names
  attr := hR.attr
  elt := hR.elt


/-- Every push function except those of regions and imports. -/
theorem PRel.push {A : String → Prop} {R : PS → PS → Prop} {B : String → Prop} (hR : PAtomic A R B) (E : PRead) (proc : Xml → PM Unit) (f : Push) (k : Nat) (h1 : f ≠ .region)
    (h2 : f ≠ .importBase) (h3 : f = .descriptorParam → ∀ n, A n)
    (hm : f = .media → B "uri" ∧ B "type" := by intros; constructor <;> trivial) (hB : f = .property → ∀ n, B n := by intros; trivial) : PRel R (push E proc f k) := by
  by_cases h4 : f = .context
  · subst h4; exact PRel.pushContext hR.toPBase E k
  by_cases h5 : f = .switch
  · subst h5; exact PRel.pushSwitch hR.toPBase E k
  by_cases h6 : f = .media
  · subst h6; exact PRel.pushMedia hR.toPBase E k (hm rfl)
  by_cases h7 : f = .ncl
  · subst h7; exact PRel.pushNcl hR.toPBase E k
  exact PRel.pushC (hR.atom E) proc f k h1 h2 h7 h4 h5 h6 h3 hB

end Ginga
