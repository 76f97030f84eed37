import Verif.Props.C45
/-!
# The contents of the parser's elements

What each push and pop function does to the elements, the predicates, the stack of rectangles and the current connector.
-/
namespace Ginga

/-- The push function of a tag. -/
def pushOf (tag : String) : Push := match syntaxOf tag with | some e => e.push | none => .none
/-- The pop function of a tag. -/
def popOf (tag : String) : Pop := match syntaxOf tag with | some e => e.pop | none => .none

/-- Tests are added once. -/
def addTests (ts : List String) (l : List String) : List String := l.foldl (fun ts r => if r ∈ ts then ts else ts ++ [r]) ts

/-- What an element adds to its parent. -/
def childEff (f : Push) (k : Nat) (tag : String) (at' : String → Option String) (e : Elt) : Elt :=
  let v := fun n => (at' n).getD ""
  match f with
  | .descriptorParam => { e with attrs := mset (v "name") (v "value") e.attrs }
  | .port => { e with ports := e.ports ++ [v "id"] }
  | .switchPort => { e with switchPorts := e.switchPorts ++ [v "id"] }
  | .mapping => { e with mappings := e.mappings ++ [k] }
  | .bindRule => { e with rules := e.rules ++ [(k, none)] }
  | .linkParam => { e with params := mset (v "name") (v "value") e.params }
  | .bind => { e with binds := e.binds ++ [{ elt := k, role := v "role" }] }
  | .attributeAssessment =>
    let str := if tag = "attributeAssessment" then "$" ++ v "role" else v "value"
    if e.left = none then { e with left := some str } else if e.right = none then { e with right := some str } else e
  | _ => e

/-- The roles that an element itself adds to the connector. -/
def roleEff (f : Push) (tag : String) (at' : String → Option String) (par : Option Nat) : List Role :=
  match f with
  | .simpleCondition => (simpleRole at' (tag == "simpleCondition") ((at' "role").getD "") (par.getD 0)).toList
  | _ => []
/-- The tests that an element itself adds to the connector. -/
def testEff (f : Push) (tag : String) (at' : String → Option String) : List String :=
  match f with
  | .attributeAssessment => if tag = "attributeAssessment" then [(at' "role").getD ""] else []
  | _ => []

/-- Roles and tests added to a connector. -/
def connApply (rs : List Role) (ts : List String) (e : Elt) : Elt := { e with roles := e.roles ++ rs, tests := addTests e.tests ts }

theorem connApply_nil (e : Elt) : connApply [] [] e = e := by simp [connApply, addTests]
theorem connApply_append (r1 r2 : List Role) (t1 t2 : List String) (e : Elt) :
    connApply r2 t2 (connApply r1 t1 e) = connApply (r1 ++ r2) (t1 ++ t2) e := by
  simp [connApply, addTests, List.foldl_append]

theorem childEff_conn (f : Push) (k : Nat) (tag : String) (at' : String → Option String) (rs : List Role) (ts : List String) (e : Elt) :
    connApply rs ts (childEff f k tag at' e) = childEff f k tag at' (connApply rs ts e) := by
  cases f <;> simp only [childEff, connApply]
  split
  · rfl
  · split <;> rfl

theorem childEff_tag (f : Push) (k : Nat) (tag : String) (at' : String → Option String) (e : Elt) :
    (childEff f k tag at' e).tag = e.tag ∧ (childEff f k tag at' e).parent = e.parent ∧ (childEff f k tag at' e).pred = e.pred ∧
      (childEff f k tag at' e).context = e.context := by
  cases f <;> simp only [childEff, and_self]
  split
  · simp
  · split <;> simp

/-- Everything but the document under construction and the stacks of rectangles and objects is unchanged. -/
structure PSame (s t : PS) : Prop where
  nelt : t.nelt = s.nelt
  cache : t.cache = s.cache
  aliases : t.aliases = s.aliases
  elt : t.elt = s.elt
  conn : t.conn = s.conn
  rects : t.rects = s.rects
  zorder : t.zorder = s.zorder
  pnode : t.pnode = s.pnode
  npred : t.npred = s.npred

theorem PSame.refl (s : PS) : PSame s s := ⟨rfl, rfl, rfl, rfl, rfl, rfl, rfl, rfl, rfl⟩

theorem same_base : PBase PSame where
  refl := PSame.refl
  trans h1 h2 := ⟨h2.nelt.trans h1.nelt, h2.cache.trans h1.cache, h2.aliases.trans h1.aliases, h2.elt.trans h1.elt, h2.conn.trans h1.conn,
    h2.rects.trans h1.rects, h2.zorder.trans h1.zorder, h2.pnode.trans h1.pnode, h2.npred.trans h1.npred⟩
  reg _ _ _ _ _ := ⟨rfl, rfl, rfl, rfl, rfl, rfl, rfl, rfl, rfl⟩
  del _ _ := ⟨rfl, rfl, rfl, rfl, rfl, rfl, rfl, rfl, rfl⟩
  nalloc _ := ⟨rfl, rfl, rfl, rfl, rfl, rfl, rfl, rfl, rfl⟩
  objs _ _ := ⟨rfl, rfl, rfl, rfl, rfl, rfl, rfl, rfl, rfl⟩
  refer _ _ := ⟨rfl, rfl, rfl, rfl, rfl, rfl, rfl, rfl, rfl⟩
  props _ _ _ _ _ _ := ⟨rfl, rfl, rfl, rfl, rfl, rfl, rfl, rfl, rfl⟩
  par _ _ _ := ⟨rfl, rfl, rfl, rfl, rfl, rfl, rfl, rfl, rfl⟩

/-! ## Push functions -/

/-- The predicate that an element opens. -/
def openNode (f : Push) (tag : String) (at' : String → Option String) : Option PNode :=
  let v := fun n => (at' n).getD ""
  match f with
  | .compoundCondition => some (.node .and [])
  | .compoundStatement => some (.node ((connOf (v "operator")).getD .and) [])
  | .rule => some (if tag = "rule" then .atom ("$__settings__." ++ v "var") ((testOf (v "comparator")).getD .eq) (v "value")
      else .node ((connOf (v "operator")).getD .and) [])
  | _ => none

/-- The predicate is negated. -/
def negated (f : Push) (at' : String → Option String) : Bool :=
  match f with
  | .compoundStatement => match at' "isNegated" with | some v => (parseBool v.toList).getD false | none => false
  | _ => false

/-- The effect of a push function on predicates. -/
inductive PredPush (f : Push) (tag : String) (at' : String → Option String) (s t : PS) (k : Nat) (par : Option Nat) : Prop
  | same : openNode f tag at' = none → t.pnode = s.pnode → t.npred = s.npred → (t.elt k).pred = (s.elt k).pred → PredPush f tag at' s t k par
  | root (q : PNode) : openNode f tag at' = some q → (f = .compoundCondition ∨ (f = .rule ∧ ∃ pa, par = some pa ∧ (s.elt pa).tag = "ruleBase")) →
      t.pnode = upd s.pnode s.npred q → t.npred = s.npred + 1 → (t.elt k).pred = some s.npred → PredPush f tag at' s t k par
  | add (q : PNode) (pa pp : Nat) (c : Conn) (cs : List Nat) : openNode f tag at' = some q →
      (f = .compoundStatement ∧ negated f at' = false ∨ f = .rule ∧ (s.elt pa).tag ≠ "ruleBase") → par = some pa → (s.elt pa).pred = some pp →
      upd s.pnode s.npred q pp = .node c cs →
      t.pnode = upd (upd s.pnode s.npred q) pp (.node c (cs ++ [s.npred])) → t.npred = s.npred + 1 → (t.elt k).pred = some s.npred →
      PredPush f tag at' s t k par
  | neg (q : PNode) (pa pp : Nat) (c : Conn) (cs : List Nat) : openNode f tag at' = some q → f = .compoundStatement → negated f at' = true →
      par = some pa → (s.elt pa).pred = some pp →
      upd (upd s.pnode s.npred q) (s.npred + 1) (.node .not [s.npred]) pp = .node c cs →
      t.pnode = upd (upd (upd s.pnode s.npred q) (s.npred + 1) (.node .not [s.npred])) pp (.node c (cs ++ [s.npred + 1])) →
      t.npred = s.npred + 2 → (t.elt k).pred = some s.npred → PredPush f tag at' s t k par

/-- The effect of a push function on the elements. -/
structure Pushed (E : PRead) (f : Push) (s t : PS) (k : Nat) : Prop where
  nelt : t.nelt = s.nelt
  cache : t.cache = s.cache
  aliases : t.aliases = s.aliases
  other : ∀ j, j ≠ k → t.elt j = (if (s.elt k).parent = some j then childEff f k (s.elt k).tag (s.attr k) else id)
    (if s.conn = some j then connApply (roleEff f (s.elt k).tag (s.attr k) (s.elt k).parent) (testEff f (s.elt k).tag (s.attr k)) (s.elt j)
     else s.elt j)
  own : t.elt k = { s.elt k with pred := (t.elt k).pred, context := (t.elt k).context, attrs := (t.elt k).attrs }
  attrs : f ≠ .region → (t.elt k).attrs = (s.elt k).attrs
  region : f = .region → ∃ r0 r, s.rects.head? = some r0 ∧ regionRect E (s.attr k) r0 = .ok r ∧ t.rects = r :: s.rects ∧
    (t.elt k).attrs = regionAttrs E (s.rects.getLastD r0) r s.zorder (s.elt k).attrs ∧ t.zorder = s.zorder + 1
  rects : f ≠ .region → t.rects = s.rects ∧ t.zorder = s.zorder
  conn : t.conn = if f = .causalConnector then some k else s.conn
  connNone : s.conn = none → roleEff f (s.elt k).tag (s.attr k) (s.elt k).parent = [] ∧ testEff f (s.elt k).tag (s.attr k) = []
  pred : PredPush f (s.elt k).tag (s.attr k) s t k (s.elt k).parent

/-- Push functions that change no element. -/
theorem Pushed.of_same {E : PRead} {f : Push} {s t : PS} {k : Nat} (h : PSame s t) (h1 : ∀ k tag a, childEff f k tag a = id)
    (h2 : ∀ tag a p, roleEff f tag a p = []) (h3 : ∀ tag a, testEff f tag a = []) (h4 : f ≠ .region) (h5 : f ≠ .causalConnector)
    (h6 : ∀ tag a, openNode f tag a = none) : Pushed E f s t k where
  nelt := h.nelt
  cache := h.cache
  aliases := h.aliases
  other j _ := by rw [h1, h2, h3, h.elt]; simp [connApply_nil]
  own := by rw [h.elt]
  attrs _ := by rw [h.elt]
  region h' := absurd h' h4
  rects _ := ⟨h.rects, h.zorder⟩
  conn := by rw [if_neg h5, h.conn]
  connNone _ := ⟨h2 _ _ _, h3 _ _⟩
  pred := .same (h6 _ _) h.pnode h.npred (by rw [h.elt])

/-- Push functions that only change the parent. -/
theorem Pushed.of_parent {E : PRead} {f : Push} {s : PS} {k p : Nat} {e : Elt} (hp : (s.elt k).parent = some p) (hk : p ≠ k)
    (he : e = childEff f k (s.elt k).tag (s.attr k) (s.elt p))
    (h2 : ∀ tag a p, roleEff f tag a p = []) (h3 : ∀ tag a, testEff f tag a = []) (h4 : f ≠ .region) (h5 : f ≠ .causalConnector)
    (h6 : ∀ tag a, openNode f tag a = none) : Pushed E f s (s.setElt p e) k where
  nelt := rfl
  cache := rfl
  aliases := rfl
  other j hj := by
    rw [h2, h3, hp]
    by_cases h : p = j
    · subst h
      simp [PS.setElt, upd_same, he, connApply_nil]
    · have : (s.setElt p e).elt j = s.elt j := upd_ne _ _ (Ne.symm h)
      simp [this, h, connApply_nil]
  own := by rw [show (s.setElt p e).elt k = s.elt k from upd_ne _ _ (Ne.symm hk)]
  attrs _ := by rw [show (s.setElt p e).elt k = s.elt k from upd_ne _ _ (Ne.symm hk)]
  region h' := absurd h' h4
  rects _ := ⟨rfl, rfl⟩
  conn := by rw [if_neg h5]; rfl
  connNone _ := ⟨h2 _ _ _, h3 _ _⟩
  pred := .same (h6 _ _) rfl rfl (by rw [show (s.setElt p e).elt k = s.elt k from upd_ne _ _ (Ne.symm hk)])

/-- Push functions that only change the element itself and predicates. -/
theorem Pushed.of_own {E : PRead} {f : Push} {s t : PS} {k : Nat} (h : PSame { s with elt := t.elt, pnode := t.pnode, npred := t.npred } t)
    (he : ∀ j, j ≠ k → t.elt j = s.elt j)
    (ho : t.elt k = { s.elt k with pred := (t.elt k).pred, context := (t.elt k).context })
    (h1 : ∀ k tag a, childEff f k tag a = id)
    (h2 : ∀ tag a p, roleEff f tag a p = []) (h3 : ∀ tag a, testEff f tag a = []) (h4 : f ≠ .region) (h5 : f ≠ .causalConnector)
    (h6 : PredPush f (s.elt k).tag (s.attr k) s t k (s.elt k).parent) : Pushed E f s t k where
  nelt := h.nelt
  cache := h.cache
  aliases := h.aliases
  other j hj := by rw [h1, h2, h3, he j hj]; simp [connApply_nil]
  own := by rw [ho]
  attrs _ := by rw [ho]
  region h' := absurd h' h4
  rects _ := ⟨h.rects, h.zorder⟩
  conn := by rw [if_neg h5, h.conn]
  connNone _ := ⟨h2 _ _ _, h3 _ _⟩
  pred := h6

theorem push_pushed (E : PRead) (proc : Xml → PM Unit) (f : Push) (k : Nat) (s : PS) (hf : f ≠ .importBase)
    (hk : (s.elt k).parent ≠ some k) (hc : s.conn ≠ some k) : PPost (push E proc f k) (fun _ t => Pushed E f s t k) s := by
  have quiet : ∀ {m : PM Unit}, PRel PSame m → (∀ k tag a, childEff f k tag a = id) → (∀ tag a p, roleEff f tag a p = []) →
      (∀ tag a, testEff f tag a = []) → f ≠ .region → f ≠ .causalConnector → (∀ tag a, openNode f tag a = none) →
      PPost m (fun _ t => Pushed E f s t k) s := fun hm h1 h2 h3 h4 h5 h6 => (hm s).mono fun _ t h => .of_same h h1 h2 h3 h4 h5 h6
  cases f
  case importBase => exact absurd rfl hf
  case none => exact PPost.pure (.of_same (.refl s) (fun _ _ _ => rfl) (fun _ _ _ => rfl) (fun _ _ => rfl) (by decide) (by decide) (fun _ _ => rfl))
  case ncl =>
    exact quiet (PRel.pushNcl same_base E k) (fun _ _ _ => rfl) (fun _ _ _ => rfl) (fun _ _ => rfl) (by decide) (by decide) (fun _ _ => rfl)
  case context =>
    exact quiet (PRel.pushContext same_base E k) (fun _ _ _ => rfl) (fun _ _ _ => rfl) (fun _ _ => rfl) (by decide) (by decide) (fun _ _ => rfl)
  case switch =>
    exact quiet (PRel.pushSwitch same_base E k) (fun _ _ _ => rfl) (fun _ _ _ => rfl) (fun _ _ => rfl) (by decide) (by decide) (fun _ _ => rfl)
  case media =>
    exact quiet (PRel.pushMedia same_base E k) (fun _ _ _ => rfl) (fun _ _ _ => rfl) (fun _ _ => rfl) (by decide) (by decide) (fun _ _ => rfl)
  case area =>
    exact quiet (PRel.pushArea (same_base.core E) k) (fun _ _ _ => rfl) (fun _ _ _ => rfl) (fun _ _ => rfl) (by decide) (by decide) (fun _ _ => rfl)
  case property =>
    exact quiet (PRel.pushProperty (same_base.core E) k) (fun _ _ _ => rfl) (fun _ _ _ => rfl) (fun _ _ => rfl) (by decide) (by decide) (fun _ _ => rfl)
  case font =>
    exact quiet (PRel.pushFont (same_base.core E) E k) (fun _ _ _ => rfl) (fun _ _ _ => rfl) (fun _ _ => rfl) (by decide) (by decide) (fun _ _ => rfl)
  case descriptorParam =>
    refine PPost.bind (PPost.attr! fun n hn => PPost.bind (PPost.attr! fun v hv => PPost.bind (PPost.parentElt fun p hp _ => PPost.modify ?_)))
    exact .of_parent hp (fun h => hk (h ▸ hp)) (by simp [childEff, hn, hv]) (fun _ _ _ => rfl) (fun _ _ => rfl) (by decide) (by decide) (fun _ _ => rfl)
  case port =>
    refine PPost.bind (PPost.attr! fun n hn => PPost.bind (PPost.parentElt fun p hp _ => PPost.modify ?_))
    exact .of_parent hp (fun h => hk (h ▸ hp)) (by simp [childEff, hn]) (fun _ _ _ => rfl) (fun _ _ => rfl) (by decide) (by decide) (fun _ _ => rfl)
  case switchPort =>
    refine PPost.bind (PPost.attr! fun n hn => PPost.bind (PPost.parentElt fun p hp _ => PPost.modify ?_))
    exact .of_parent hp (fun h => hk (h ▸ hp)) (by simp [childEff, hn]) (fun _ _ _ => rfl) (fun _ _ => rfl) (by decide) (by decide) (fun _ _ => rfl)
  case mapping =>
    refine PPost.bind (PPost.attr! fun n hn => PPost.bind (PPost.parentElt fun p hp _ => PPost.modify ?_))
    exact .of_parent hp (fun h => hk (h ▸ hp)) (by simp [childEff]) (fun _ _ _ => rfl) (fun _ _ => rfl) (by decide) (by decide) (fun _ _ => rfl)
  case linkParam =>
    refine PPost.bind (PPost.attr! fun n hn => PPost.bind (PPost.attr! fun v hv => PPost.bind (PPost.parentElt fun p hp _ => PPost.modify ?_)))
    exact .of_parent hp (fun h => hk (h ▸ hp)) (by simp [childEff, hn, hv]) (fun _ _ _ => rfl) (fun _ _ => rfl) (by decide) (by decide) (fun _ _ => rfl)
  case bind =>
    refine PPost.bind (PPost.attr! fun n hn => PPost.bind (PPost.attr! fun v hv => PPost.bind (PPost.parentElt fun p hp _ => PPost.modify ?_)))
    exact .of_parent hp (fun h => hk (h ▸ hp)) (by simp [childEff, hn]) (fun _ _ _ => rfl) (fun _ _ => rfl) (by decide) (by decide) (fun _ _ => rfl)
  case bindRule =>
    refine PPost.bind (PPost.get ?_)
    dsimp only
    have hsame : PPost (if (s.elt k).tag = "bindRule" then (do
        let _ ← attr! k "constituent"
        let _ ← attr! k "rule"
        pure ()) else (do
        let _ ← attr! k "component"
        pure ()) : PM Unit) (fun _ t => t = s) s := by
      split
      · exact PPost.bind (PPost.attr! fun _ _ => PPost.bind (PPost.attr! fun _ _ => PPost.pure rfl))
      · exact PPost.bind (PPost.attr! fun _ _ => PPost.pure rfl)
    refine PPost.bind (hsame.mono ?_)
    rintro _ t rfl
    refine PPost.bind (PPost.parentElt fun p hp _ => PPost.modify ?_)
    exact .of_parent hp (fun h => hk (h ▸ hp)) (by simp [childEff]) (fun _ _ _ => rfl) (fun _ _ => rfl) (by decide) (by decide) (fun _ _ => rfl)
  case region =>
    unfold push pushRegion
    refine PPost.bind (PPost.get ?_)
    dsimp only
    cases hr : s.rects with
    | nil => exact PPost.abort
    | cons r0 rest =>
      dsimp only
      refine PPost.bind (PPost.res fun r hrr => PPost.bind (PPost.modify (PPost.modify ?_)))
      dsimp only
      have hz : s.zorder + 1 - 1 = s.zorder := by omega
      refine { nelt := rfl, cache := rfl, aliases := rfl, other := ?_, own := ?_, attrs := fun h => absurd rfl h, region := fun _ => ?_,
               rects := fun h => absurd rfl h, conn := rfl, connNone := fun _ => ⟨rfl, rfl⟩, pred := .same rfl rfl rfl ?_ }
      · intro j hj
        show upd s.elt k _ j = _
        rw [upd_ne _ _ hj, show ∀ k tag a, childEff Push.region k tag a = id from fun _ _ _ => rfl]
        simp [roleEff, testEff, connApply_nil]
      · show upd s.elt k _ k = _
        simp only [PS.setElt, upd_same]
      · refine ⟨r0, r, by rw [hr]; rfl, hrr, by rw [hr]; rfl, ?_, rfl⟩
        show (upd s.elt k _ k).attrs = _
        rw [upd_same, hr, hz]
      · show (upd s.elt k _ k).pred = _
        rw [upd_same]
  case causalConnector =>
    refine PPost.modify ⟨rfl, rfl, rfl, fun j hj => ?_, rfl, fun _ => rfl, fun h => absurd h (by decide), fun _ => ⟨rfl, rfl⟩, rfl, fun _ => ⟨rfl, rfl⟩,
      .same rfl rfl rfl rfl⟩
    rw [show ∀ k tag a, childEff Push.causalConnector k tag a = id from fun _ _ _ => rfl]
    simp [roleEff, testEff, connApply_nil]
  case compoundCondition =>
    refine PPost.bind (PPost.newPred (PPost.modify ?_))
    refine .of_own ⟨rfl, rfl, rfl, rfl, rfl, rfl, rfl, rfl, rfl⟩ (fun j hj => ?_) ?_ (fun _ _ _ => rfl) (fun _ _ _ => rfl) (fun _ _ => rfl) (by decide)
      (by decide) (.root (.node .and []) rfl (.inl rfl) rfl rfl ?_)
    · exact upd_ne _ _ hj
    · simp only [PS.setElt, upd_same]
    · simp only [PS.setElt, upd_same]
  case link =>
    refine PPost.bind (PPost.peekObj fun o l ho => PPost.bind (PPost.object fun x hx => ?_))
    split
    · refine PPost.modify ?_
      refine .of_own ⟨rfl, rfl, rfl, rfl, rfl, rfl, rfl, rfl, rfl⟩ (fun j hj => ?_) ?_ (fun _ _ _ => rfl) (fun _ _ _ => rfl) (fun _ _ => rfl) (by decide)
        (by decide) (.same rfl rfl rfl ?_)
      · exact upd_ne _ _ hj
      · simp only [PS.setElt, upd_same]
      · simp only [PS.setElt, upd_same]
    · exact PPost.abort
  case simpleCondition =>
    refine PPost.bind (PPost.get (PPost.bind (PPost.attr! fun role hrole => PPost.bind (PPost.orErr fun r hr => PPost.bind (PPost.some! fun c hcc => PPost.modify ?_)))))
    have hck : c ≠ k := fun h => hc (h ▸ hcc)
    have heff : roleEff .simpleCondition (s.elt k).tag (s.attr k) (s.elt k).parent = [r] := by
      simp only [roleEff, hrole, Option.getD_some, hr, Option.toList_some]
    have hown : (s.setElt c { s.elt c with roles := (s.elt c).roles ++ [r] }).elt k = s.elt k := upd_ne _ _ (Ne.symm hck)
    refine ⟨rfl, rfl, rfl, fun j hj => ?_, by rw [hown], fun _ => by rw [hown], fun h => absurd h (by decide), fun _ => ⟨rfl, rfl⟩, rfl,
      fun h => by simp [hcc] at h, .same rfl rfl rfl (by rw [hown])⟩
    rw [heff, hcc, show ∀ k tag a, childEff Push.simpleCondition k tag a = id from fun _ _ _ => rfl]
    by_cases h : c = j
    · subst h
      simp [PS.setElt, upd_same, connApply, testEff, addTests]
    · have : (s.setElt c { s.elt c with roles := (s.elt c).roles ++ [r] }).elt j = s.elt j := upd_ne _ _ (Ne.symm h)
      simp [this, h]
  case attributeAssessment =>
    refine PPost.bind (PPost.get ?_)
    dsimp only
    -- the value of the side, and the test added to the connector
    have hstr : PPost (if (s.elt k).tag = "attributeAssessment" then (do
        let role ← attr! k "role"
        let c ← PM.some! s.conn
        PM.modify fun s => s.setElt c { s.elt c with tests := if role ∈ (s.elt c).tests then (s.elt c).tests else (s.elt c).tests ++ [role] }
        pure ("$" ++ role)) else attr! k "value" : PM String) (fun str t =>
          str = (if (s.elt k).tag = "attributeAssessment" then "$" ++ (s.attr k "role").getD "" else (s.attr k "value").getD "") ∧
          PSame { s with elt := t.elt } t ∧
          (∀ j, t.elt j = if s.conn = some j then connApply [] (testEff .attributeAssessment (s.elt k).tag (s.attr k)) (s.elt j) else s.elt j) ∧
          (s.conn = none → testEff .attributeAssessment (s.elt k).tag (s.attr k) = [])) s := by
      split
      · rename_i htag
        refine PPost.bind (PPost.attr! fun role hrole => PPost.bind (PPost.some! fun c hcc => PPost.bind (PPost.modify (PPost.pure ?_))))
        refine ⟨by simp [hrole], ⟨rfl, rfl, rfl, rfl, rfl, rfl, rfl, rfl, rfl⟩, fun j => ?_, by simp [hcc]⟩
        by_cases h : c = j
        · subst h
          simp [PS.setElt, upd_same, hcc, connApply, testEff, htag, hrole, addTests]
        · have : (s.setElt c { s.elt c with tests := if role ∈ (s.elt c).tests then (s.elt c).tests else (s.elt c).tests ++ [role] }).elt j = s.elt j :=
            upd_ne _ _ (Ne.symm h)
          simp [this, hcc, h]
      · rename_i htag
        refine PPost.attr! fun v hv => ⟨by simp [hv], .refl s, fun j => ?_, fun _ => by simp [testEff, htag]⟩
        simp [testEff, htag, connApply_nil]
    refine PPost.bind (hstr.mono ?_)
    rintro str t ⟨hs, hsame, helt, hnone⟩
    have hkk : t.elt k = s.elt k := by rw [helt, if_neg hc]
    refine PPost.bind (PPost.parentElt fun p hp _ => ?_)
    rw [hkk] at hp
    have hpk : p ≠ k := fun h => hk (h ▸ hp)
    refine PPost.bind (PPost.get ?_)
    have fin : ∀ e, e = childEff .attributeAssessment k (s.elt k).tag (s.attr k) (t.elt p) → Pushed E .attributeAssessment s (t.setElt p e) k := by
      intro e he
      have hown : (t.setElt p e).elt k = s.elt k := (upd_ne _ _ (Ne.symm hpk)).trans hkk
      refine ⟨hsame.nelt, hsame.cache, hsame.aliases, fun j hj => ?_, by rw [hown], fun _ => by rw [hown], fun h => absurd h (by decide),
        fun _ => ⟨hsame.rects, hsame.zorder⟩, hsame.conn, fun h => ⟨rfl, hnone h⟩, .same rfl hsame.pnode hsame.npred (by rw [hown])⟩
      by_cases h : p = j
      · subst h
        rw [if_pos hp]
        show upd t.elt p e p = _
        rw [upd_same, he, helt]
        rfl
      · rw [if_neg (by rw [hp]; simpa using h)]
        show upd t.elt p e j = _
        rw [upd_ne _ _ (Ne.symm h), helt]
        rfl
    split
    · rename_i h
      refine PPost.modify (fin _ ?_)
      simp only [childEff, if_pos h, hs]
    · rename_i h
      split
      · rename_i h'
        refine PPost.modify (fin _ ?_)
        simp only [childEff, if_neg h, if_pos h', hs]
      · exact PPost.err
  case compoundStatement =>
    refine PPost.bind (PPost.get (PPost.bind (PPost.attr! fun op hop => PPost.bind (PPost.orErr fun c hcop => ?_))))
    dsimp only
    have hneg : PPost (match s.attr k "isNegated" with
        | none => pure false
        | some v => PM.orErr (parseBool v.toList) : PM Bool) (fun b t => t = s ∧ negated .compoundStatement (s.attr k) = b) s := by
      cases h : s.attr k "isNegated" with
      | none => exact PPost.pure ⟨rfl, by simp [negated, h]⟩
      | some v => exact PPost.orErr fun b hb => ⟨rfl, by simp [negated, h, hb]⟩
    refine PPost.bind (hneg.mono ?_)
    rintro b t ⟨rfl, hb⟩
    refine PPost.bind (PPost.parentElt fun pa hp _ => PPost.bind (PPost.some! fun pp hpp => ?_))
    have hopen : openNode .compoundStatement (t.elt k).tag (t.attr k) = some (.node c []) := by simp [openNode, hop, hcop]
    have main : PPost (do
        let p ← newPred (.node c [])
        if b then do
          let q ← newPred (.node .not [])
          addPChild q p
          addPChild pp q
        else addPChild pp p
        PM.modify fun s => s.setElt k { s.elt k with pred := some p } : PM Unit) (fun _ u => Pushed E .compoundStatement t u k) t := by
      refine PPost.bind (PPost.newPred ?_)
      cases b with
      | false =>
        simp only [Bool.false_eq_true, if_false]
        refine PPost.bind (PPost.addPChild fun c' cs hc' => PPost.modify ?_)
        refine .of_own ⟨rfl, rfl, rfl, rfl, rfl, rfl, rfl, rfl, rfl⟩ (fun j hj => ?_) ?_ (fun _ _ _ => rfl) (fun _ _ _ => rfl) (fun _ _ => rfl) (by decide)
          (by decide) (.add _ pa pp c' cs hopen (.inl ⟨rfl, hb⟩) hp hpp hc' rfl rfl ?_)
        · exact upd_ne _ _ hj
        · simp only [PS.setElt, upd_same]
        · simp only [PS.setElt, upd_same]
      | true =>
        simp only [if_true]
        refine PPost.bind (PPost.newPred (PPost.bind (PPost.addPChild fun c1 cs1 h1 => PPost.bind (PPost.addPChild fun c' cs hc' => PPost.modify ?_))))
        dsimp only at h1 hc'
        rw [upd_same] at h1
        simp only [PNode.node.injEq] at h1
        obtain ⟨rfl, rfl⟩ := h1
        have hu : upd (upd (upd t.pnode t.npred (.node c [])) (t.npred + 1) (.node .not [])) (t.npred + 1) (.node .not ([] ++ [t.npred])) =
            upd (upd t.pnode t.npred (.node c [])) (t.npred + 1) (.node .not [t.npred]) := by
          funext i
          by_cases h : i = t.npred + 1
          · subst h; rw [upd_same, upd_same]; rfl
          · rw [upd_ne _ _ h, upd_ne _ _ h, upd_ne _ _ h]
        rw [hu] at hc'
        refine .of_own ⟨rfl, rfl, rfl, rfl, rfl, rfl, rfl, rfl, rfl⟩ (fun j hj => ?_) ?_ (fun _ _ _ => rfl) (fun _ _ _ => rfl) (fun _ _ => rfl) (by decide)
          (by decide) (.neg _ pa pp c' cs hopen rfl hb hp hpp hc' ?_ rfl ?_)
        · exact upd_ne _ _ hj
        · simp only [PS.setElt, upd_same]
        · show upd (upd (upd (upd t.pnode t.npred _) (t.npred + 1) _) (t.npred + 1) _) pp _ = _
          rw [hu]
        · simp only [PS.setElt, upd_same]
    split
    · exact PPost.err
    · exact main
  case rule =>
    refine PPost.bind (PPost.get ?_)
    have hq : PPost (rulePred s k) (fun q t => t = s ∧ openNode .rule (s.elt k).tag (s.attr k) = some q) s := by
      unfold rulePred
      split
      · rename_i htag
        refine PPost.bind (PPost.attr! fun v hv => PPost.bind (PPost.attr! fun c hc => PPost.bind (PPost.orErr fun t ht => PPost.bind (PPost.attr! fun w hw => PPost.pure ⟨rfl, ?_⟩))))
        simp [openNode, htag, hv, hc, ht, hw]
      · rename_i htag
        refine PPost.bind (PPost.attr! fun v hv => PPost.bind (PPost.orErr fun t ht => PPost.pure ⟨rfl, ?_⟩))
        simp [openNode, htag, hv, ht]
    refine PPost.bind (hq.mono ?_)
    rintro q t ⟨rfl, hopen⟩
    refine PPost.bind (PPost.parentElt fun pa hp _ => ?_)
    split
    · rename_i htag
      refine PPost.bind (PPost.newPred (PPost.modify ?_))
      refine .of_own ⟨rfl, rfl, rfl, rfl, rfl, rfl, rfl, rfl, rfl⟩ (fun j hj => ?_) ?_ (fun _ _ _ => rfl) (fun _ _ _ => rfl) (fun _ _ => rfl) (by decide)
        (by decide) (.root q hopen (.inr ⟨rfl, pa, hp, htag⟩) rfl rfl ?_)
      · exact upd_ne _ _ hj
      · simp only [PS.setElt, upd_same]
      · simp only [PS.setElt, upd_same]
    · rename_i htag
      unfold addToParent
      refine PPost.bind (PPost.bind (PPost.get (PPost.bind (PPost.some! fun pp hpp => ?_))))
      split
      · exact PPost.err
      · refine PPost.bind (PPost.newPred (PPost.bind (PPost.addPChild fun c' cs hc' => PPost.pure (PPost.modify ?_))))
        refine .of_own ⟨rfl, rfl, rfl, rfl, rfl, rfl, rfl, rfl, rfl⟩ (fun j hj => ?_) ?_ (fun _ _ _ => rfl) (fun _ _ _ => rfl) (fun _ _ => rfl) (by decide)
          (by decide) (.add _ pa pp c' cs hopen (.inr ⟨rfl, htag⟩) hp hpp hc' rfl rfl ?_)
        · exact upd_ne _ _ hj
        · simp only [PS.setElt, upd_same]
        · simp only [PS.setElt, upd_same]

/-! ## Pop functions -/

/-- The effect of a pop function on predicates. -/
inductive PredPop (f : Pop) (s t : PS) (k : Nat) : Prop
  | same : f ≠ .assessmentStatement → t.pnode = s.pnode → t.npred = s.npred → PredPop f s t k
  | add (pa pp : Nat) (c : Conn) (cs : List Nat) (l r comp : String) (op : Test) : f = .assessmentStatement →
      s.attr k "comparator" = some comp → testOf comp = some op → (s.elt k).left = some l → (s.elt k).right = some r →
      (s.elt k).parent = some pa → (s.elt pa).pred = some pp → upd s.pnode s.npred (.atom l op r) pp = .node c cs →
      t.pnode = upd (upd s.pnode s.npred (.atom l op r)) pp (.node c (cs ++ [s.npred])) → t.npred = s.npred + 1 → PredPop f s t k

/-- The effect of a pop function on the elements. -/
structure Popped (f : Pop) (s t : PS) (k : Nat) : Prop where
  nelt : t.nelt = s.nelt
  cache : t.cache = s.cache
  aliases : t.aliases = s.aliases
  zorder : t.zorder = s.zorder
  other : ∀ j, j ≠ k → t.elt j = s.elt j
  own : t.elt k = { s.elt k with rules := (t.elt k).rules }
  rules : (t.elt k).rules.map Prod.fst = (s.elt k).rules.map Prod.fst
  rects : t.rects = if f = .region then s.rects.tail else s.rects
  conn : t.conn = if f = .causalConnector then none else s.conn
  pred : PredPop f s t k

theorem Popped.of_same {f : Pop} {s t : PS} {k : Nat} (h : PSame s t) (h1 : f ≠ .region) (h2 : f ≠ .causalConnector)
    (h3 : f ≠ .assessmentStatement) : Popped f s t k where
  nelt := h.nelt
  cache := h.cache
  aliases := h.aliases
  zorder := h.zorder
  other j _ := by rw [h.elt]
  own := by rw [h.elt]
  rules := by rw [h.elt]
  rects := by rw [if_neg h1, h.rects]
  conn := by rw [if_neg h2, h.conn]
  pred := .same h3 h.pnode h.npred

theorem PPost.resolveRules (o : Nat) : ∀ (l : List (Nat × Option Nat)) (s : PS),
    PPost (resolveRules o l) (fun r t => r.map Prod.fst = l.map Prod.fst ∧ PSame s t) s
  | [], s => PPost.pure' ⟨rfl, .refl s⟩
  | p :: l, s => by
    unfold Ginga.resolveRules
    refine PPost.bind ((PRel.resolveComponent same_base.toPPre o p.1 s).mono ?_)
    intro c t hc
    refine PPost.bind ((PPost.resolveRules o l t).mono ?_)
    rintro r u ⟨h1, h2⟩
    refine PPost.pure ⟨by simp [h1], same_base.trans hc h2⟩

theorem pop_popped (E : PRead) (n : Nat) (f : Pop) (k : Nat) (s : PS) (hf : f ≠ .ncl) : PPost (pop E n f k) (fun _ t => Popped f s t k) s := by
  have quiet : ∀ {m : PM Unit}, PRel PSame m → f ≠ .region → f ≠ .causalConnector → f ≠ .assessmentStatement →
      PPost m (fun _ t => Popped f s t k) s := fun hm h1 h2 h3 => (hm s).mono fun _ t h => .of_same h h1 h2 h3
  cases f
  case ncl => exact absurd rfl hf
  case none => exact PPost.pure (.of_same (.refl s) (by decide) (by decide) (by decide))
  case region =>
    unfold pop popRegion
    refine PPost.bind (PPost.get ?_)
    cases hr : s.rects with
    | nil => exact PPost.abort
    | cons r l => exact PPost.modify ⟨rfl, rfl, rfl, rfl, fun _ _ => rfl, rfl, rfl, by simp [hr], rfl, .same (by decide) rfl rfl⟩
  case causalConnector =>
    unfold pop popCausalConnector
    refine PPost.bind (PPost.modify (PPost.bind (PPost.get ?_)))
    split
    · exact PPost.pure ⟨rfl, rfl, rfl, rfl, fun _ _ => rfl, rfl, rfl, rfl, rfl, .same (by decide) rfl rfl⟩
    · exact PPost.err
  case compoundStatement => exact quiet (PRel.popCompoundStatement (same_base.core E) k) (by decide) (by decide) (by decide)
  case context => exact quiet (PRel.popContext (same_base.core E) same_base.objs (fun _ _ => ⟨rfl, rfl, rfl, rfl, rfl, rfl, rfl, rfl, rfl⟩) n k) (by decide) (by decide) (by decide)
  case media => exact quiet (PRel.popMedia (same_base.core E) same_base.objs) (by decide) (by decide) (by decide)
  case assessmentStatement =>
    unfold pop popAssessmentStatement
    refine PPost.bind (PPost.get (PPost.bind (PPost.attr! fun comp hcomp => PPost.bind (PPost.orErr fun op hop => PPost.bind (PPost.orErr fun l hl =>
      PPost.bind (PPost.orErr fun r hr => PPost.bind (PPost.parentElt fun pa hp _ => ?_)))))))
    unfold addToParent
    refine PPost.bind (PPost.bind (PPost.get (PPost.bind (PPost.some! fun pp hpp => ?_))))
    split
    · exact PPost.err
    · refine PPost.bind (PPost.newPred (PPost.bind (PPost.addPChild fun c cs hc => PPost.pure (PPost.pure ?_))))
      exact ⟨rfl, rfl, rfl, rfl, fun _ _ => rfl, rfl, rfl, rfl, rfl, .add pa pp c cs l r comp op rfl hcomp hop hl hr hp hpp hc rfl rfl⟩
  case switch =>
    unfold pop popSwitch
    refine PPost.bind (PPost.peekObj fun o l ho => PPost.bind (PPost.object fun x hx => ?_))
    split
    · refine PPost.bind (PPost.get (PPost.bind ((PPost.resolveRules o _ s).mono ?_)))
      rintro rs t ⟨hrs, hst⟩
      refine PPost.bind (PPost.modify (PPost.bind ((PRel.forEach same_base.toPPre (fun id => PRel.resolveSwitchPort (same_base.core E) (fun _ _ => ⟨rfl, rfl, rfl, rfl, rfl, rfl, rfl, rfl, rfl⟩) n o id) _ _).mono ?_)))
      intro _ u hu
      refine (PRel.popObj (same_base.core E) same_base.objs u).mono ?_
      intro _ v hv
      have huv := same_base.trans hu hv
      have hek : v.elt k = { s.elt k with rules := rs } := by
        rw [huv.elt]
        show upd t.elt k _ k = _
        rw [upd_same, hst.elt]
      refine ⟨huv.nelt.trans hst.nelt, huv.cache.trans hst.cache, huv.aliases.trans hst.aliases, huv.zorder.trans hst.zorder, fun j hj => ?_, ?_, ?_,
        huv.rects.trans hst.rects, huv.conn.trans hst.conn, .same (by decide) (huv.pnode.trans hst.pnode) (huv.npred.trans hst.npred)⟩
      · rw [huv.elt]
        show upd t.elt k _ j = _
        rw [upd_ne _ _ hj, hst.elt]
      · rw [hek]
      · rw [hek]; exact hrs
    · exact PPost.abort

end Ginga
