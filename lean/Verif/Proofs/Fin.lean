import Verif.Proofs.World
import Verif.Proofs.EndDoc
/-!
# Functions of the parser that end

`PNF m`: the recursion bound plays no part in `m`.  `PSettles` (in `Settles.lean`) says that with a large enough bound the result no longer depends on it.
-/
namespace Ginga

/-- The bound is not what stops `m`. -/
structure PNF {α : Type} (m : PM α) : Prop where
  ne : ∀ s, m s ≠ .fuel

theorem Res.bind_ne_fuel {α β : Type} {r : Res α} {f : α → Res β} (h : r ≠ .fuel) (hf : ∀ a, r = .ok a → f a ≠ .fuel) : r.bind f ≠ .fuel := by
  cases r with
  | ok a => exact hf a rfl
  | abort => simp [Res.bind]
  | ub => simp [Res.bind]
  | fuel => exact absurd rfl h

theorem PM.bind_ne_fuel {α β : Type} {m : PM α} {f : α → PM β} {s : PS} (h : m s ≠ .fuel) (hf : ∀ a t, m s = .ok (some (a, t)) → f a t ≠ .fuel) : (m >>= f) s ≠ .fuel := by
  refine Res.bind_ne_fuel h fun r hr => ?_
  cases r with
  | none => simp
  | some p => exact hf p.1 p.2 hr

section
variable {α β : Type}
theorem PNF.pure (a : α) : PNF (Pure.pure a : PM α) := ⟨fun _ => by intro h; cases h⟩
theorem PNF.pure' (a : α) : PNF (PM.pure a : PM α) := ⟨fun _ => by intro h; cases h⟩
theorem PNF.bind {m : PM α} {f : α → PM β} (h : PNF m) (hf : ∀ a, PNF (f a)) : PNF (m >>= f) := ⟨fun s => PM.bind_ne_fuel (h.ne s) fun a t _ => (hf a).ne t⟩
theorem PNF.bind' {m : PM α} {f : α → PM β} (h : PNF m) (hf : ∀ a, PNF (f a)) : PNF (PM.bind m f) := PNF.bind h hf
theorem PNF.get : PNF PM.get := ⟨fun _ => by intro h; cases h⟩
theorem PNF.modify (f : PS → PS) : PNF (PM.modify f) := ⟨fun _ => by intro h; cases h⟩
theorem PNF.err : PNF (PM.err : PM α) := ⟨fun _ => by intro h; cases h⟩
theorem PNF.abort : PNF (PM.abort : PM α) := ⟨fun _ => by intro h; cases h⟩
theorem PNF.ub : PNF (PM.ub : PM α) := ⟨fun _ => by intro h; cases h⟩
theorem PNF.res {r : Res α} (h : r ≠ .fuel) : PNF (PM.res r) := ⟨fun _ => Res.bind_ne_fuel h fun _ _ => by simp⟩
theorem PNF.some! (x : Option α) : PNF (PM.some! x) := by cases x <;> exact ⟨fun s h => by cases h⟩
theorem PNF.orErr (x : Option α) : PNF (PM.orErr x) := by cases x <;> exact ⟨fun s h => by cases h⟩
theorem PNF.forEach {f : α → PM Unit} (h : ∀ a, PNF (f a)) : ∀ l, PNF (PM.forEach f l)
  | [] => PNF.pure' ()
  | a :: l => PNF.bind' (h a) fun _ => PNF.forEach h l
theorem PNF.ite {c : Prop} [Decidable c] {m m' : PM α} (h : PNF m) (h' : PNF m') : PNF (if c then m else m') := by
  split
  · exact h
  · exact h'
end

/-- Proofs of `PNF` by the shape of the function. -/
macro "pnf" : tactic => `(tactic| repeat' (first
  | intro _ | assumption | exact PNF.pure _ | exact PNF.pure' _ | exact PNF.get | exact PNF.modify _ | exact PNF.err | exact PNF.abort | exact PNF.ub | exact PNF.some! _ | exact PNF.orErr _
  | apply PNF.bind | apply PNF.forEach | apply PNF.ite | split))

theorem int32_nf (x : Int) : int32 x ≠ .fuel := by unfold int32; split <;> simp
theorem addOpt_nf (x : Int) (d : Option Int) : addOpt x d ≠ .fuel := by cases d <;> simp [addOpt, int32_nf]
theorem fromFar_nf (x p o : Int) (d : Option Int) : fromFar x p o d ≠ .fuel := by
  cases d with
  | none => simp [fromFar]
  | some d => exact Res.bind_ne_fuel (int32_nf _) fun _ _ => Res.bind_ne_fuel (int32_nf _) fun _ _ => int32_nf _
theorem regionRect_nf (E : PRead) (a : String → Option String) (r : Rect) : regionRect E a r ≠ .fuel :=
  Res.bind_ne_fuel (addOpt_nf _ _) fun _ _ => Res.bind_ne_fuel (addOpt_nf _ _) fun _ _ => Res.bind_ne_fuel (fromFar_nf _ _ _ _) fun _ _ =>
    Res.bind_ne_fuel (fromFar_nf _ _ _ _) fun _ _ => by simp

theorem addObject_nf (r : Reg) (o : Nat) : r.addObject o ≠ .fuel := by
  unfold Reg.addObject
  repeat' split
  all_goals simp
theorem addChild_nf (r : Reg) (c o : Nat) : r.addChild c o ≠ .fuel := by
  unfold Reg.addChild
  repeat' split
  all_goals first
    | (intro h; cases h; done)
    | (dsimp only
       split
       · simp
       · exact Res.bind_ne_fuel (addObject_nf _ _) fun _ _ => by split <;> simp)
theorem exec_nf (r : Reg) (op : RegOp) : r.exec op ≠ .fuel := by
  cases op <;> simp only [Reg.exec]
  · split <;> simp
  · exact addObject_nf _ _
  · exact addChild_nf _ _ _
  · unfold Reg.addAlias
    repeat' split
    all_goals simp
  · split <;> simp
theorem newDoc_nf (a b e1 e2 e3 : Nat) : newDoc a b e1 e2 e3 ≠ .fuel := by
  unfold newDoc
  refine Res.bind_ne_fuel (addObject_nf _ _) fun _ _ => ?_
  split
  · exact Res.bind_ne_fuel (addChild_nf _ _ _) fun _ _ => by simp
  · simp
theorem toTime_nf (F : FP) (x : Rat) : toTime F x ≠ .fuel := by unfold toTime; dsimp only; split <;> simp
theorem parseTime_nf (F : FP) (s : Str) : parseTime F s ≠ .fuel := by
  unfold parseTime
  dsimp only
  repeat' split
  all_goals first
    | (intro h; cases h; done)
    | exact Res.bind_ne_fuel (toTime_nf _ _) fun _ _ => by simp
theorem checkAttrs_nf (x : Xml) (e : EltSyn) (full : Bool) (pre : String) : ∀ l acc s, checkAttrs x e full pre l acc s ≠ .fuel
  | [], _, _ => by simp [checkAttrs]
  | (name, fl) :: rest, acc, s => by
    unfold checkAttrs
    dsimp only
    repeat' split
    all_goals first
      | (intro h; cases h; done)
      | exact checkAttrs_nf x e full pre rest _ _
theorem checkNode_nf (full : Bool) (pre : String) (pt : Option String) (x : Xml) (s : SynSt) : checkNode full pre pt x s ≠ .fuel := by
  unfold checkNode
  split
  · simp
  split
  · simp
  refine Res.bind_ne_fuel (checkAttrs_nf _ _ _ _ _ _ _) fun r _ => ?_
  repeat' split
  all_goals simp

section
theorem PNF.regOp (op : RegOp) : PNF (regOp op) := ⟨fun s => Res.bind_ne_fuel (exec_nf _ _) fun _ _ => by simp⟩
theorem PNF.alloc (E : PRead) : PNF (alloc E) := ⟨fun _ => by intro h; cases h⟩
theorem PNF.newPred (p : PNode) : PNF (newPred p) := ⟨fun _ => by intro h; cases h⟩
theorem PNF.newElt (t : String) (p : Option Nat) (a : List (String × String)) : PNF (newElt t p a) := ⟨fun _ => by intro h; cases h⟩
theorem PNF.addPChild (p c : Nat) : PNF (addPChild p c) := ⟨fun s => by unfold Ginga.addPChild; split <;> simp⟩
theorem PNF.check (f : Bool) (pt : Option String) (x : Xml) : PNF (check f pt x) :=
  ⟨fun s => Res.bind_ne_fuel (checkNode_nf _ _ _ _ _) fun r _ => by split <;> simp⟩
theorem PNF.cacheIf (e : EltSyn) (k : Nat) : PNF (cacheIf e k) := ⟨fun s => by
  unfold Ginga.cacheIf
  split
  · unfold cacheAdd; split <;> simp
  · intro h; cases h⟩
theorem PNF.attr! (k : Nat) (n : String) : PNF (attr! k n) := by unfold Ginga.attr!; pnf
theorem PNF.parentElt (k : Nat) : PNF (parentElt k) := by unfold Ginga.parentElt; pnf
theorem PNF.object (o : Nat) : PNF (object o) := by unfold Ginga.object; pnf
theorem PNF.peekObj : PNF peekObj := by unfold Ginga.peekObj; pnf
theorem PNF.popObj : PNF popObj := PNF.modify _
theorem PNF.pushObj (o : Nat) : PNF (pushObj o) := PNF.modify _
end

/-- The same, with the functions of the parser that have been dealt with. -/
macro "nf1" : tactic => `(tactic| repeat' (first
  | intro _ | assumption | exact PNF.pure _ | exact PNF.pure' _ | exact PNF.get | exact PNF.modify _ | exact PNF.err | exact PNF.abort | exact PNF.ub | exact PNF.some! _ | exact PNF.orErr _
  | exact PNF.regOp _ | exact PNF.alloc _ | exact PNF.newPred _ | exact PNF.addPChild _ _ | exact PNF.attr! _ _ | exact PNF.parentElt _ | exact PNF.object _ | exact PNF.peekObj | exact PNF.popObj | exact PNF.pushObj _
  | apply PNF.bind | apply PNF.forEach | apply PNF.ite | split))

theorem PNF.peekComp : PNF peekComp := by unfold Ginga.peekComp; nf1
theorem PNF.newObject (E : PRead) (k : RKind) (id : String) : PNF (newObject E k id) := by unfold Ginga.newObject; nf1
theorem PNF.addEvent (E : PRead) (o : Nat) (e : REv) : PNF (addEvent E o e) := by unfold Ginga.addEvent; nf1
theorem PNF.setProp (o : Nat) (a b : String) : PNF (setProp o a b) := by unfold Ginga.setProp; nf1
theorem PNF.timeAttr (E : PRead) (k : Nat) (nm : String) (d : Nat) : PNF (timeAttr E k nm d) := by
  unfold Ginga.timeAttr
  refine PNF.bind PNF.get fun s => ?_
  split
  · exact PNF.pure _
  · exact PNF.bind (PNF.res (parseTime_nf _ _)) fun _ => PNF.orErr _
theorem PNF.addToParent (p : Nat) {q : PM Nat} (h : PNF q) : PNF (addToParent p q) := by unfold Ginga.addToParent; nf1
theorem PNF.resolveComponent (o k : Nat) : PNF (resolveComponent o k) := by unfold Ginga.resolveComponent; nf1

macro "nf2" : tactic => `(tactic| repeat' (first
  | intro _ | assumption | exact PNF.pure _ | exact PNF.pure' _ | exact PNF.get | exact PNF.modify _ | exact PNF.err | exact PNF.abort | exact PNF.ub | exact PNF.some! _ | exact PNF.orErr _
  | exact PNF.regOp _ | exact PNF.alloc _ | exact PNF.newPred _ | exact PNF.addPChild _ _ | exact PNF.attr! _ _ | exact PNF.parentElt _ | exact PNF.object _ | exact PNF.peekObj | exact PNF.popObj | exact PNF.pushObj _
  | exact PNF.peekComp | exact PNF.newObject _ _ _ | exact PNF.addEvent _ _ _ | exact PNF.setProp _ _ _ | exact PNF.timeAttr _ _ _ _ | exact PNF.addToParent _ (PNF.newPred _) | exact PNF.resolveComponent _ _
  | apply PNF.bind | apply PNF.forEach | apply PNF.ite | split | (dsimp only; split)))

theorem PNF.pushRegion (E : PRead) (k : Nat) : PNF (pushRegion E k) := by
  unfold Ginga.pushRegion
  refine PNF.bind PNF.get fun s => ?_
  split
  · exact PNF.abort
  · exact PNF.bind (PNF.res (regionRect_nf _ _ _)) fun _ => PNF.bind (PNF.modify _) fun _ => PNF.modify _
theorem PNF.pushRefer (E : PRead) (a b : String) : PNF (pushRefer E a b) := by unfold Ginga.pushRefer; nf2
theorem PNF.pushSettings (a : String) : PNF (pushSettings a) := by unfold Ginga.pushSettings; nf2
theorem PNF.pushPlainMedia (E : PRead) (a b c : String) : PNF (pushPlainMedia E a b c) := by unfold Ginga.pushPlainMedia; nf2
theorem PNF.pushMedia (E : PRead) (k : Nat) : PNF (pushMedia E k) := by
  unfold Ginga.pushMedia
  have h1 := PNF.pushRefer E
  have h2 := PNF.pushSettings
  have h3 := PNF.pushPlainMedia E
  repeat' (first | exact h1 _ _ | exact h2 _ | exact h3 _ _ _ | intro _ | exact PNF.get | exact PNF.attr! _ _ | exact PNF.pushObj _ | exact PNF.err | exact PNF.abort | apply PNF.bind | split | (dsimp only; split))
theorem PNF.rulePred (s : PS) (k : Nat) : PNF (rulePred s k) := by unfold Ginga.rulePred; nf2
theorem PNF.pushRule (k : Nat) : PNF (pushRule k) := by
  unfold Ginga.pushRule
  have h := PNF.rulePred
  refine PNF.bind PNF.get fun s => PNF.bind (h s k) fun q => ?_
  nf2

theorem PNF.push (E : PRead) (proc : Xml → PM Unit) (f : Push) (k : Nat) (hf : f ≠ .importBase) : PNF (push E proc f k) := by
  cases f with
  | importBase => exact absurd rfl hf
  | none => exact PNF.pure _
  | ncl => unfold Ginga.push pushNcl; nf2
  | region => exact PNF.pushRegion E k
  | descriptorParam => unfold Ginga.push pushDescriptorParam; nf2
  | causalConnector => exact PNF.modify _
  | compoundCondition => unfold Ginga.push pushCompoundCondition; nf2
  | simpleCondition => unfold Ginga.push pushSimpleCondition; nf2
  | compoundStatement => unfold Ginga.push pushCompoundStatement; nf2
  | attributeAssessment => unfold Ginga.push pushAttributeAssessment; nf2
  | rule => exact PNF.pushRule k
  | context => unfold Ginga.push pushContext; nf2
  | port => unfold Ginga.push pushPort; nf2
  | switch => unfold Ginga.push pushSwitch; nf2
  | switchPort => unfold Ginga.push pushSwitchPort; nf2
  | mapping => unfold Ginga.push pushMapping; nf2
  | bindRule => unfold Ginga.push pushBindRule; nf2
  | media => exact PNF.pushMedia E k
  | area => unfold Ginga.push pushArea; nf2
  | property => unfold Ginga.push pushProperty; nf2
  | link => unfold Ginga.push pushLink; nf2
  | linkParam => unfold Ginga.push pushLinkParam; nf2
  | bind => unfold Ginga.push pushBind; nf2
  | font => unfold Ginga.push pushFont; nf2

theorem PNF.pop (E : PRead) (n : Nat) (f : Pop) (k : Nat) (h1 : f ≠ .ncl) (h2 : f ≠ .context) (h3 : f ≠ .switch) : PNF (pop E n f k) := by
  cases f with
  | none => exact PNF.pure _
  | ncl => exact absurd rfl h1
  | region => unfold Ginga.pop popRegion; nf2
  | causalConnector => unfold Ginga.pop popCausalConnector; nf2
  | compoundStatement => unfold Ginga.pop popCompoundStatement; nf2
  | assessmentStatement => unfold Ginga.pop popAssessmentStatement; nf2
  | context => exact absurd rfl h2
  | switch => exact absurd rfl h3
  | media => unfold Ginga.pop popMedia; nf2

theorem PNF.resolveRules (o : Nat) : ∀ l, PNF (resolveRules o l)
  | [] => PNF.pure' _
  | r :: rs => by
    have := PNF.resolveRules o rs
    unfold Ginga.resolveRules
    nf2
theorem PNF.popDesc (E : PRead) (k : Nat) : PNF (popDesc E k) := by unfold Ginga.popDesc descRegion descTrans; nf2
theorem PNF.moveAttrs (E : PRead) (o : Nat) : ∀ l, PNF (moveAttrs E o l)
  | [] => PNF.pure' _
  | (a, b) :: l => by
    have := PNF.moveAttrs E o l
    unfold Ginga.moveAttrs
    nf2
theorem PNF.popMediaElt (E : PRead) (k : Nat) : PNF (popMediaElt E k) := by
  have := PNF.moveAttrs E
  unfold Ginga.popMediaElt
  repeat' (first | exact this _ _ | intro _ | exact PNF.pure _ | exact PNF.get | exact PNF.err | exact PNF.abort | exact PNF.orErr _ | exact PNF.some! _ | exact PNF.attr! _ _ | exact PNF.object _ | apply PNF.bind | split | (dsimp only; split))

end Ginga
