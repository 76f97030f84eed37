import Verif.Proofs.Events
/-!
# The links at the end of the document
-/
namespace Ginga

/-! ## Specification: what a link means -/

/-- The parameters given in a link or bind: for each name the last one. -/
def paramTable (x : Xml) : List (String × String) :=
  (x.children.filter fun y => y.tag == "linkParam" || y.tag == "bindParam").foldl (fun l y => mset (y.val "name") (y.val "value") l) []

/-- The binds of a link. -/
def bindsOf (l : Xml) : List Xml := l.children.filter fun b => b.tag == "bind"

/-- The condition or action of the connector `k` that a bind names. -/
def roleOf (k b : Xml) : Option (Xml × List Xml) := (rolesInAll [] k.children).find? fun y => y.1.val "role" == b.val "role"

/-- The binds of conditions and actions, with what they bind. -/
def boundRoles (k l : Xml) : List ((Xml × List Xml) × Xml) := (bindsOf l).filterMap fun b => (roleOf k b).map fun y => (y, b)

/-- The binds of the properties tested. -/
def testBinds (k l : Xml) : List Xml := (bindsOf l).filter fun b => (roleOf k b).isNone && decide (b.val "role" ∈ testsInAll k.children)

/-- The other binds: variables. -/
def ghostBinds (k l : Xml) : List Xml := (bindsOf l).filter fun b => (roleOf k b).isNone && !decide (b.val "role" ∈ testsInAll k.children)

/-- The last bind of a role. -/
def lastBind (bs : List Xml) (role : String) : Option Xml := bs.reverse.find? fun b => b.val "role" == role

/-- `v` is the reference to the property that the bind `b` of the context `c` names. -/
def RefTo (x : Xml) (r : Reg) (c b : Xml) (v : String) : Prop := ∀ o p X, EventOf x r c b o p → r.obj o = some X → v = "$" ++ fullIdOf X.id p.2

/-- What stands for the properties tested in the predicates of a link: the properties bound, and the parameters of these binds. -/
def TestTable (x : Xml) (r : Reg) (c k l : Xml) (tab : List (String × String)) : Prop := ∀ name,
  match lastBind (testBinds k l) name with
  | some b => ∃ v, mget name tab = some v ∧ RefTo x r c b v
  | none => mget name tab = (testBinds k l).findSome? fun b => mget name (paramTable b)

/-- What stands for variables in parameters. -/
def GhostTable (x : Xml) (r : Reg) (c k l : Xml) (tab : List (String × String)) : Prop := ∀ name,
  match lastBind (ghostBinds k l) name with
  | some b => ∃ v, mget name tab = some v ∧ RefTo x r c b v
  | none => mget name tab = none

/-- The reserved roles of conditions, and the event and transition that they wait for. -/
def conditionRoles : List (String × EType × Trans) :=
  [("onBegin", .presentation, .start), ("onEnd", .presentation, .stop), ("onAbort", .presentation, .abort), ("onPause", .presentation, .pause),
   ("onResume", .presentation, .resume), ("onBeginAttribution", .attribution, .start), ("onEndAttribution", .attribution, .stop),
   ("onSelection", .selection, .start), ("onBeginSelection", .selection, .start), ("onEndSelection", .selection, .stop),
   ("onLookAt", .lookat, .start), ("onLookAway", .lookat, .stop)]
/-- The reserved roles of actions, and the event and transition that they ask for. -/
def actionRoles : List (String × EType × Trans) :=
  [("start", .presentation, .start), ("stop", .presentation, .stop), ("abort", .presentation, .abort), ("pause", .presentation, .pause),
   ("resume", .presentation, .resume), ("set", .attribution, .start)]

/-- The word for an event type. -/
def typeWord : EType → String
  | .presentation => "presentation" | .attribution => "attribution" | .selection => "selection" | .lookat => "lookat"
/-- The word for a transition. -/
def transWord : Trans → String
  | .start => "start" | .pause => "pause" | .resume => "resume" | .stop => "stop" | .abort => "abort"

/-- The condition or action `y` is about the transition `tr` of events of type `ty`: its role is a reserved one of its kind and says so, or it is no reserved role and the attributes say so; they may repeat it, but not change it. -/
structure RoleMeans (y : Xml) (ty : EType) (tr : Trans) : Prop where
  role : (y.val "role", ty, tr) ∈ (if y.tag = "simpleCondition" then conditionRoles else actionRoles) ∨
    ((∀ q ∈ conditionRoles ++ actionRoles, q.1 ≠ y.val "role") ∧ y.prop "eventType" ≠ none ∧ y.prop (if y.tag = "simpleCondition" then "transition" else "actionType") ≠ none)
  eventType : ∀ v, y.prop "eventType" = some v → v = typeWord ty
  transition : ∀ w, y.prop (if y.tag = "simpleCondition" then "transition" else "actionType") = some w → w = transWord tr ∨ w = transWord tr ++ "s"

/-- The type and transition that the program finds for a condition or action. -/
def kindOf (y : Xml) : Option (EType × Trans) :=
  roleKind y.prop (y.tag == "simpleCondition") (if y.tag = "simpleCondition" then "transition" else "actionType") (y.val "role")

theorem eventTypeOf_word {v : String} {t : EType} (h : eventTypeOf v = some t) : v = typeWord t := by
  unfold eventTypeOf at h
  repeat' split at h
  all_goals first | (cases h; assumption) | cases h

theorem transitionOf_word {v : String} {t : Trans} (h : transitionOf v = some t) : v = transWord t ∨ v = transWord t ++ "s" := by
  unfold transitionOf at h
  repeat' split at h
  all_goals first | (cases h; assumption) | cases h

theorem roleInfo_some {role : String} {c : Bool} {t : EType} {tr : Trans} (h : roleInfo role = some (c, t, tr)) :
    (role, t, tr) ∈ (if c = true then conditionRoles else actionRoles) := by
  unfold roleInfo at h
  cases hf : roleTable.find? (fun p => p.1 == role) with
  | none => rw [hf] at h; cases h
  | some p =>
    rw [hf] at h
    have hm := List.mem_of_find?_eq_some hf
    have hp := List.find?_some hf
    simp only [beq_iff_eq] at hp
    subst hp
    simp only [Option.map_some, Option.some.injEq, Prod.mk.injEq] at h
    obtain ⟨rfl, rfl, rfl⟩ := h
    have key : ∀ p ∈ roleTable, (p.1, p.2.1, p.2.2) ∈ (if "on".toList.isPrefixOf p.1.toList = true then conditionRoles else actionRoles) := by decide +kernel
    exact key p hm

theorem roleInfo_none {role : String} (h : roleInfo role = none) : ∀ q ∈ conditionRoles ++ actionRoles, q.1 ≠ role := by
  unfold roleInfo at h
  rw [Option.map_eq_none_iff, List.find?_eq_none] at h
  intro q hq hc
  subst hc
  have key : ∀ q ∈ conditionRoles ++ actionRoles, ∃ p ∈ roleTable, (p.1 == q.1) = true := by decide +kernel
  obtain ⟨p, hp, hpq⟩ := key q hq
  exact h p hp hpq

theorem roleKind_means {a : String → Option String} {c : Bool} {ta role : String} {ty : EType} {tr : Trans} (h : roleKind a c ta role = some (ty, tr)) :
    ((role, ty, tr) ∈ (if c = true then conditionRoles else actionRoles) ∨
      ((∀ q ∈ conditionRoles ++ actionRoles, q.1 ≠ role) ∧ a "eventType" ≠ none ∧ a ta ≠ none)) ∧
    (∀ v, a "eventType" = some v → v = typeWord ty) ∧ ∀ w, a ta = some w → w = transWord tr ∨ w = transWord tr ++ "s" := by
  unfold roleKind at h
  split at h
  · next c' t tr' hi =>
    by_cases hc : c ≠ c'
    · rw [if_pos hc] at h; cases h
    rw [if_neg hc] at h
    split at h
    · cases h
    · next he =>
      split at h
      · cases h
      · next ht =>
        simp only [Option.some.injEq, Prod.mk.injEq] at h
        obtain ⟨rfl, rfl⟩ := h
        simp only [ne_eq, Decidable.not_not] at hc
        refine ⟨.inl (hc ▸ roleInfo_some hi), fun v hv => ?_, fun w hw => ?_⟩
        · rw [hv] at he
          exact eventTypeOf_word (by simpa using he)
        · rw [hw] at ht
          exact transitionOf_word (by simpa using ht)
  · next hi =>
    split at h
    · next v w hv hw =>
      split at h
      · next t tr' h1 h2 =>
        simp only [Option.some.injEq, Prod.mk.injEq] at h
        obtain ⟨rfl, rfl⟩ := h
        refine ⟨.inr ⟨roleInfo_none hi, by rw [hv]; simp, by rw [hw]; simp⟩, fun v' hv' => ?_, fun w' hw' => ?_⟩
        · rw [hv] at hv'; cases hv'; exact eventTypeOf_word h1
        · rw [hw] at hw'; cases hw'; exact transitionOf_word h2
      · cases h
    · cases h

theorem kindOf_means {y : Xml} {ty : EType} {tr : Trans} (h : kindOf y = some (ty, tr)) : RoleMeans y ty tr := by
  obtain ⟨h1, h2, h3⟩ := roleKind_means h
  simp only [beq_iff_eq] at h1
  exact ⟨h1, h2, h3⟩

/-- The event `ev` of a condition or action of type `ty`, when the bind names the event `p` of the object `o`. -/
def EventIs (r : Reg) (ty : EType) (key : String) (o : Nat) (p : Nat × REv) (ev : Nat) : Prop :=
  match ty with
  | .presentation => p.2.typ = .presentation ∧ ev = p.1
  | .attribution => p.2.typ = .attribution ∧ ev = p.1
  | .selection => ∃ X q, r.obj o = some X ∧ X.getEvent .selection key = some q ∧ ev = q.1
  | .lookat => ∃ X q, r.obj o = some X ∧ X.getEvent .lookat p.2.id = some q ∧ ev = q.1

/-- `a` is the condition or action made for the bind `b` of the link `l` in the context `c`; it binds `y.1`, inside the compound conditions `y.2`. -/
def ActOf (x : Xml) (r : Reg) (c l : Xml) (tests ghosts : List (String × String)) (y : (Xml × List Xml) × Xml) (a : Act) : Prop :=
  let cond := y.1.1.tag = "simpleCondition"
  let param := fun n => resolveParameter (y.1.1.val n) (paramTable y.2) (paramTable l) ghosts
  ∃ ty, RoleMeans y.1.1 ty a.tr ∧
    (∀ o p, EventOf x r c y.2 o p → EventIs r ty (param "key") o p a.ev) ∧
    a.value = (if ty = .selection then param "key" else if ty = .attribution ∧ ¬ cond then param "value" else "") ∧
    a.delay = (if cond then "" else param "delay") ∧ a.duration = (if cond then "" else param "duration") ∧
    if cond then LinkMeans tests y.1.2 a.pred else a.pred = none

/-- `L` is the link made from the element `l` of the context `c`. -/
def LinkOf (E : PRead) (x : Xml) (r : Reg) (c l : Xml) (L : Link) : Prop :=
  ∃ name k tests ghosts, l.prop "xconnector" = some name ∧ Named E x name k ∧ k.tag = "causalConnector" ∧
    (∀ y ∈ rolesInAll [] k.children, ∃ b ∈ bindsOf l, b.val "role" = y.1.val "role") ∧ (∀ t ∈ testsInAll k.children, ∃ b ∈ testBinds k l, b.val "role" = t) ∧
    TestTable x r c k l tests ∧ GhostTable x r c k l ghosts ∧
    Each (ActOf x r c l tests ghosts) ((boundRoles k l).filter fun y => y.1.1.tag == "simpleCondition") L.conds ∧
    Each (ActOf x r c l tests ghosts) ((boundRoles k l).filter fun y => !(y.1.1.tag == "simpleCondition")) L.acts ∧ L.conds ≠ [] ∧ L.acts ≠ []

/-! ## Binds and parameters -/

theorem effAll_binds (j : Nat) : ∀ (i : Nat) (l : List Note) (e : Elt),
    (effAll j i l e).binds = e.binds ++ (((kidNotes j i l).filter fun q => q.2.push == .bind).map fun q => ⟨q.1, (q.2.get "role").getD ""⟩) ∧
    (effAll j i l e).params = ((kidNotes j i l).filter fun q => q.2.push == .linkParam).foldl (fun l q => mset ((q.2.get "name").getD "") ((q.2.get "value").getD "") l) e.params
  | i, [], e => by simp [effAll, kidNotes]
  | i, n :: l, e => by
    obtain ⟨h1, h2⟩ := effAll_binds j (i + 1) l (n.eff i j e)
    rw [effAll, h1, h2]
    have hc : ∀ rs ts, (if n.conn = some j then connApply rs ts e else e).binds = e.binds ∧ (if n.conn = some j then connApply rs ts e else e).params = e.params := by
      intro rs ts; split <;> exact ⟨rfl, rfl⟩
    rw [kidNotes]
    unfold Note.eff
    split
    · rename_i hp
      have : ∀ f, f ≠ Push.bind → ∀ e' : Elt, (childEff f i n.tag n.get e').binds = e'.binds := by
        intro f hf e'
        cases f <;> simp only [childEff, ne_eq, not_true] at hf ⊢
        split
        · rfl
        · split <;> rfl
      have this2 : ∀ f, f ≠ Push.linkParam → ∀ e' : Elt, (childEff f i n.tag n.get e').params = e'.params := by
        intro f hf e'
        cases f <;> simp only [childEff, ne_eq, not_true] at hf ⊢
        split
        · rfl
        · split <;> rfl
      constructor
      · by_cases hb : n.push = .bind
        · rw [List.filter_append, hb]
          simp [childEff, hc, hb]
        · rw [this _ hb, (hc _ _).1, List.filter_append]
          simp [hb]
      · by_cases hb : n.push = .linkParam
        · rw [List.filter_append, hb]
          simp [childEff, hc, hb]
        · rw [this2 _ hb, (hc _ _).2, List.filter_append]
          simp [hb]
    · rw [id_eq, (hc _ _).1, (hc _ _).2, List.nil_append]
      exact ⟨rfl, rfl⟩

section
variable {E : PRead} {scr : Rect} {z : Nat} {x : Xml} {T u s : PS} {ns : List Note} {f : Nat → Nat}

theorem push_bind_tag (n : Note) (h : (syntaxOf n.tag).isSome = true) : (n.push = .bind ↔ n.tag = "bind") ∧ (n.push = .linkParam ↔ n.tag = "linkParam" ∨ n.tag = "bindParam") := by
  obtain ⟨e, he⟩ := Option.isSome_iff_exists.1 h
  obtain ⟨h1, h2⟩ := syntaxOf_mem he
  have : ∀ e ∈ syntaxTable, (e.push = .bind ↔ e.tag = "bind") ∧ (e.push = .linkParam ↔ e.tag = "linkParam" ∨ e.tag = "bindParam") := by decide +kernel
  have := this e h1
  unfold Note.push pushOf
  rw [he]
  rw [h2] at this; exact this

/-- The numbers of the binds of a link. -/
def bindNotes (ns : List Note) (k : Nat) : List (Nat × Note) := (kidNotes k 0 ns).filter fun q => q.2.tag == "bind"

/-- The bind made from an element. -/
def bindAt (q : Nat × Note) : Bind := ⟨q.1, q.2.xml.val "role"⟩

theorem kid_main (hd : DocTree E scr x T ns f) {k : Nat} {w : Nat × Note} (hw : w ∈ kidNotes k 0 ns) : ns[w.1]? = some w.2 ∧ w.2.parent = some k := by
  obtain ⟨-, h1, h2⟩ := kidNotes_mem.1 hw
  rw [Nat.sub_zero] at h1
  exact ⟨h1, h2⟩

theorem body_get (hd : DocTree E scr x T ns f) {j : Nat} {m : Note} (hj : ns[j]? = some m) (ht : m.tag ∈ bodyTags) {a : String} (ha : a ≠ "id") : m.get a = m.xml.prop a :=
  Note.get_main (hd.ok j m hj) (hd.main _ j m (Nat.lt_succ_self _) hj ht).2.1 a (.inr ha)

theorem link_binds (hd : DocTree E scr x T ns f) (hj : J E scr z ns u) {k : Nat} {m : Note} (hk : ns[k]? = some m) :
    (u.elt k).binds = (bindNotes ns k).map bindAt ∧ (u.elt k).params = paramTable m.xml := by
  have he := hj.elt k m hk
  obtain ⟨r1, r2⟩ := effAll_binds k 0 ns m.base
  have h1 : (u.elt k).binds = (effAll k 0 ns m.base).binds := (congrArg Elt.binds he : (eraseE (u.elt k)).binds = _)
  have h2 : (u.elt k).params = (effAll k 0 ns m.base).params := (congrArg Elt.params he : (eraseE (u.elt k)).params = _)
  have hsyn : ∀ w ∈ kidNotes k 0 ns, (syntaxOf w.2.tag).isSome = true := by
    intro w hw
    obtain ⟨e, he, -⟩ := (hd.ok _ _ (kid_main hd hw).1).syn
    rw [he]; rfl
  rw [h1, h2, r1, r2]
  constructor
  · have e1 : (kidNotes k 0 ns).filter (fun q => q.2.push == .bind) = bindNotes ns k := by
      unfold bindNotes
      refine List.filter_congr fun w hw => ?_
      have := (push_bind_tag w.2 (hsyn w hw)).1
      rw [Bool.eq_iff_iff, beq_iff_eq, beq_iff_eq]; exact this
    rw [e1]
    simp only [Note.base, List.nil_append]
    refine List.map_congr_left fun w hw => ?_
    obtain ⟨hw1, hw2⟩ := List.mem_filter.1 hw
    have hwt : w.2.tag = "bind" := by simpa using hw2
    unfold bindAt Xml.val
    rw [body_get hd (kid_main hd hw1).1 (by rw [hwt]; decide) (by decide)]
  · have e1 : (kidNotes k 0 ns).filter (fun q => q.2.push == .linkParam) = (kidNotes k 0 ns).filter fun q => q.2.tag == "linkParam" || q.2.tag == "bindParam" := by
      refine List.filter_congr fun w hw => ?_
      have := (push_bind_tag w.2 (hsyn w hw)).2
      rw [Bool.eq_iff_iff, Bool.or_eq_true, beq_iff_eq, beq_iff_eq, beq_iff_eq]; exact this
    rw [e1]
    unfold paramTable
    rw [← hd.kids hk, List.filter_map, List.foldl_map]
    show List.foldl _ [] _ = _
    have : ∀ (l : List (Nat × Note)), (∀ w ∈ l, ns[w.1]? = some w.2 ∧ (w.2.tag = "linkParam" ∨ w.2.tag = "bindParam")) → ∀ acc : List (String × String),
        l.foldl (fun l q => mset ((q.2.get "name").getD "") ((q.2.get "value").getD "") l) acc =
        l.foldl (fun l (q : Nat × Note) => mset (q.2.xml.val "name") (q.2.xml.val "value") l) acc := by
      intro l
      induction l with
      | nil => intro _ acc; rfl
      | cons w l ih =>
        intro hw acc
        obtain ⟨g1, g2⟩ := hw w (by simp)
        have hb : w.2.tag ∈ bodyTags := by rcases g2 with h | h <;> rw [h] <;> decide
        rw [List.foldl_cons, List.foldl_cons, ih (fun w h => hw w (by simp [h])), body_get hd g1 hb (by decide), body_get hd g1 hb (by decide)]
        rfl
    exact this _ (fun w hw => by
      obtain ⟨g1, g2⟩ := List.mem_filter.1 hw
      exact ⟨(kid_main hd g1).1, by simpa using g2⟩) []

theorem bindNotes_xml (hd : DocTree E scr x T ns f) {k : Nat} {m : Note} (hk : ns[k]? = some m) : bindsOf m.xml = (bindNotes ns k).map fun q => q.2.xml := by
  unfold bindsOf bindNotes
  rw [← hd.kids hk, List.filter_map]
  rfl

theorem AtEnd.step {s' : PS} (h : AtEnd E scr z x T ns f u s) (hs : Skel s s') (hf : Fixed s s') : AtEnd E scr z x T ns f u s' where
  tree := h.tree
  j := h.j
  kc := h.kc
  treeK := h.treeK
  name := h.name
  ref := h.ref
  like := h.like.fixed hf
  get j n hj h1 h2 a := by
    have := h.get j n hj h1 h2 a
    unfold PS.attr at this ⊢
    rw [hf.elt]; exact this
  skel := (step_pre _).trans h.skel hs
  free := h.free

theorem LStep.skel {s t : PS} (h : LStep s t) : Skel s t := Step.weaken h fun _ h => h.elim

/-! ## Tables -/

theorem lastBind_cons (b : Xml) (bs : List Xml) (role : String) : lastBind (b :: bs) role = (lastBind bs role).or (if b.val "role" = role then some b else none) := by
  unfold lastBind
  rw [List.reverse_cons, List.find?_append]
  congr 1
  by_cases h : b.val "role" = role
  · rw [if_pos h, List.find?_cons_of_pos (by simpa using h)]
  · rw [if_neg h, List.find?_cons_of_neg (by simpa using h)]; rfl

theorem table_spec (h : AtEnd E scr z x T ns f u s) {q : Nat} {mq : Note} (hq : ns[q]? = some mq) (hqt : mq.tag = "body" ∨ mq.tag = "context") (n : Nat) :
    ∀ (L : List (Nat × Note)) (acc : List (String × String)), (∀ w ∈ L, ns[w.1]? = some w.2 ∧ w.2.tag = "bind") →
    PPost (resolveTable n (f q) (L.map bindAt) acc) (fun tab s' => s' = s ∧ ∀ v, LStep s v → ∀ role,
      match lastBind (L.map fun w => w.2.xml) role with
      | some b => ∃ t, mget role tab = some t ∧ RefTo x v.reg mq.xml b t
      | none => mget role tab = mget role acc) s
  | [], acc, _ => PPost.pure' ⟨rfl, fun _ _ _ => rfl⟩
  | w :: L, acc, hL => by
    obtain ⟨w1, w2⟩ := hL w (by simp)
    rw [List.map_cons]
    unfold resolveTable
    refine PPost.bind (PPost.get ?_)
    split
    · refine PPost.bind ((iface_spec h n q mq w.1 w.2 hq hqt w1 (.inl w2)).mono ?_)
      intro e s' hes
      rw [hes.1]
      refine PPost.bind (PPost.object fun X hX => ?_)
      refine (table_spec h hq hqt n L _ fun w h => hL w (by simp [h])).mono ?_
      rintro tab s1 ⟨h1, h2⟩
      refine ⟨h1, fun v hv role => ?_⟩
      have := h2 v hv role
      rw [List.map_cons, lastBind_cons]
      cases hb : lastBind (L.map fun w => w.2.xml) role with
      | some b => rw [hb] at this; exact this
      | none =>
        rw [hb] at this
        dsimp only at this
        rw [Option.none_or, this]
        by_cases hr : w.2.xml.val "role" = role
        · rw [if_pos hr]
          refine ⟨"$" ++ fullIdOf X.id e.ev, ?_, fun o p Xv hE hXv => ?_⟩
          · show mget role (mset (w.2.xml.val "role") _ acc) = _
            rw [hr, mget_mset_same]
          · obtain rfl := hes.2 v hv o p hE
            obtain ⟨X', g1, g2⟩ := hv.back hXv
            rw [hX] at g1; cases g1
            rw [(skel_hasAlias g2).1]
        · rw [if_neg hr]
          exact mget_mset_ne _ _ _ _ (fun hc => hr hc.symm)
    · exact PPost.abort

theorem mget_minsert (p : String × String) (l : List (String × String)) (name : String) : mget name (minsert p l) = (mget name l).or (if name = p.1 then some p.2 else none) := by
  unfold minsert
  split
  · next h =>
    by_cases hn : name = p.1
    · subst hn
      obtain ⟨v, hv⟩ := Option.isSome_iff_exists.1 h
      rw [hv]; rfl
    · rw [if_neg hn]; simp
  · next h =>
    by_cases hn : name = p.1
    · subst hn
      have : mget p.1 l = none := by simpa using h
      rw [this, if_pos rfl, mget_mset_same]; rfl
    · rw [if_neg hn, mget_mset_ne _ _ _ _ hn]; simp

theorem mget_inserts (name : String) : ∀ (ps l : List (String × String)), mget name (ps.foldl (fun t p => minsert p t) l) = (mget name l).or (mget name ps)
  | [], l => by simp [mget]
  | p :: ps, l => by
    rw [List.foldl_cons, mget_inserts name ps, mget_minsert, Option.or_assoc]
    congr 1
    obtain ⟨a, b⟩ := p
    rw [mget]
    by_cases h : name = a
    · rw [if_pos h, if_pos h]; rfl
    · rw [if_neg h, if_neg h]; rfl

theorem mget_addTestParams (s : PS) (name : String) : ∀ (bs : List Bind) (l : List (String × String)),
    mget name (addTestParams s bs l) = (mget name l).or (bs.findSome? fun b => mget name (s.elt b.elt).params)
  | [], l => by simp [addTestParams]
  | b :: bs, l => by
    have := mget_addTestParams s name bs ((s.elt b.elt).params.foldl (fun t p => minsert p t) l)
    unfold addTestParams at this ⊢
    rw [List.foldl_cons, this, mget_inserts, List.findSome?_cons, Option.or_assoc]
    congr 1
    cases mget name (s.elt b.elt).params <;> rfl

/-! ## Roles -/

theorem simpleRole_congr {a b : String → Option String} (h : ∀ n, n ≠ "id" → a n = b n) (cond : Bool) (role : String) (p : Nat) :
    simpleRole a cond role p = simpleRole b cond role p ∧ ∀ t, t ≠ "id" → roleKind a cond t role = roleKind b cond t role := by
  have hk : ∀ t, t ≠ "id" → roleKind a cond t role = roleKind b cond t role := by
    intro t ht
    unfold roleKind
    rw [h "eventType" (by decide), h t ht]
  refine ⟨?_, hk⟩
  unfold simpleRole
  rw [hk _ (by cases cond <;> decide), h "value" (by decide), h "duration" (by decide), h "delay" (by decide), h "key" (by decide)]

theorem simpleRole_some {a : String → Option String} {cond : Bool} {role : String} {p : Nat} {r : Role} (h : simpleRole a cond role p = some r) :
    roleKind a cond (if cond then "transition" else "actionType") role = some (r.typ, r.tr) ∧ r.parent = p ∧ r.role = role ∧ r.cond = cond ∧
    r.duration = (if cond then "" else (a "duration").getD "") ∧ r.delay = (if cond then "" else (a "delay").getD "") ∧
    r.key = (if r.typ = .selection then (a "key").getD "" else "") ∧ r.value = (if cond = false ∧ r.typ = .attribution then (a "value").getD "" else "") := by
  unfold simpleRole at h
  split at h
  · cases h
  · next kind hk =>
    split at h
    · cases h
    · have := (Option.some.inj h).symm
      subst this
      exact ⟨hk, rfl, rfl, rfl, rfl, rfl, rfl, rfl⟩

theorem role_plain : ∀ e ∈ syntaxTable, e.tag ∈ ["simpleCondition", "simpleAction"] → ∀ q ∈ e.attrs, q.1 ≠ "id" → q.2.isId = false ∧ q.2.isIdRef = false := by decide +kernel

theorem roleFrom_xml (hd : DocTree E scr x T ns f) {y : Xml × List Xml} {r : Role} (h : RoleFrom ns y r) : ∃ p, CondChain ns p y.2 ∧ r.parent = p ∧
    (y.1.tag = "simpleCondition" ∨ y.1.tag = "simpleAction") ∧ r.role = y.1.val "role" ∧ r.cond = (y.1.tag == "simpleCondition") ∧ kindOf y.1 = some (r.typ, r.tr) ∧
    r.duration = (if y.1.tag = "simpleCondition" then "" else y.1.val "duration") ∧ r.delay = (if y.1.tag = "simpleCondition" then "" else y.1.val "delay") ∧
    r.key = (if r.typ = .selection then y.1.val "key" else "") ∧ r.value = (if r.typ = .attribution ∧ ¬ y.1.tag = "simpleCondition" then y.1.val "value" else "") := by
  obtain ⟨i, p, n, h1, h2, h3, h4, h5, h6⟩ := h
  have hpl : ∀ a, a ≠ "id" → n.get a = y.1.prop a := fun a ha => by
    rw [← h2]; exact table_plain _ role_plain (hd.ok i n h1) (by simpa using h3) ha
  have htag : n.tag = y.1.tag := by unfold Note.tag; rw [h2]
  rw [htag] at h5 h3
  obtain ⟨c1, c2⟩ := simpleRole_congr hpl (y.1.tag == "simpleCondition") ((n.get "role").getD "") p
  rw [c1, hpl "role" (by decide)] at h5
  obtain ⟨g1, g2, g3, g4, g5, g6, g7, g8⟩ := simpleRole_some h5
  refine ⟨p, h6, g2, h3, g3, g4, ?_, ?_, ?_, g7, ?_⟩
  · unfold kindOf
    rw [← g1]
    simp only [beq_iff_eq]
    rfl
  · rw [g5]; simp only [beq_iff_eq]; rfl
  · rw [g6]; simp only [beq_iff_eq]; rfl
  · rw [g8]
    have : ((y.1.tag == "simpleCondition") = false ∧ r.typ = .attribution) = (r.typ = .attribution ∧ ¬ y.1.tag = "simpleCondition") := by
      rw [beq_eq_false_iff_ne]; exact propext ⟨fun h => ⟨h.2, h.1⟩, fun h => ⟨h.2, h.1⟩⟩
    simp only [this]
    rfl

theorem resolveParameter_empty (bp lp gh : List (String × String)) : resolveParameter "" bp lp gh = "" := rfl

theorem roleEvent_spec (r : Role) (e : EvRef) (bp lp gh : List (String × String)) (s : PS) :
    PPost (roleEvent E r e bp lp gh) (fun q s' => LStep s s' ∧
      q.2 = (if r.typ = .selection then resolveParameter r.key bp lp gh else if r.typ = .attribution then resolveParameter r.value bp lp gh else "") ∧
      match r.typ with
      | .presentation => e.ev.typ = .presentation ∧ q.1 = e.addr
      | .attribution => e.ev.typ = .attribution ∧ q.1 = e.addr
      | .selection => ∃ X p, s'.reg.obj e.obj = some X ∧ X.getEvent .selection (resolveParameter r.key bp lp gh) = some p ∧ q.1 = p.1
      | .lookat => ∃ X p, s'.reg.obj e.obj = some X ∧ X.getEvent .lookat e.ev.id = some p ∧ q.1 = p.1) s := by
  unfold roleEvent
  cases ht : r.typ with
  | presentation =>
    dsimp only
    split
    · next h => exact PPost.pure ⟨step_same rfl rfl, by simp, h, rfl⟩
    · exact PPost.err
  | attribution =>
    dsimp only
    split
    · next h => exact PPost.pure ⟨step_same rfl rfl, by simp, h, rfl⟩
    · exact PPost.err
  | selection =>
    dsimp only
    split
    · exact PPost.err
    · refine PPost.bind ((step_addEvent (A := LFrozen) (by simp [LFrozen]) s).mono fun _ s1 h1 => ?_)
      refine PPost.bind (PPost.object fun X hX => PPost.bind (PPost.some! fun p hp => PPost.bind (PPost.modify (PPost.pure ?_))))
      exact ⟨(step_pre _).trans h1 (step_same rfl rfl), by simp, X, p, hX, hp, rfl⟩
  | lookat =>
    dsimp only
    refine PPost.bind ((step_addEvent (A := LFrozen) (by simp [LFrozen]) s).mono fun _ s1 h1 => ?_)
    refine PPost.bind (PPost.object fun X hX => PPost.bind (PPost.some! fun p hp => PPost.pure ?_))
    exact ⟨h1, by simp, X, p, hX, hp, rfl⟩

theorem EventIs.later {s v : PS} (hv : LStep s v) {ty : EType} {key : String} {o : Nat} {p : Nat × REv} {ev : Nat} (h : EventIs s.reg ty key o p ev) : EventIs v.reg ty key o p ev := by
  unfold EventIs at h ⊢
  split at h
  · exact h
  · exact h
  · obtain ⟨X, q, h1, h2, h3⟩ := h
    obtain ⟨X', g1, -⟩ := hv.get h1
    exact ⟨X', q, g1, hv.event _ X X' _ _ _ h1 g1 h2, h3⟩
  · obtain ⟨X, q, h1, h2, h3⟩ := h
    obtain ⟨X', g1, -⟩ := hv.get h1
    exact ⟨X', q, g1, hv.event _ X X' _ _ _ h1 g1 h2, h3⟩

variable {π : Nat → Option Nat}

theorem role_spec (h : AtEnd E scr z x T ns f u s) (hpi : PI ns [] π u) (hfull : StmtFull ns) {q : Nat} {mq : Note} (hq : ns[q]? = some mq) (hqt : mq.tag = "body" ∨ mq.tag = "context") (n : Nat)
    {y : Xml × List Xml} {r : Role} (hr : RoleFrom ns y r) {w : Nat × Note} (hw : ns[w.1]? = some w.2) (hwt : w.2.tag = "bind") (l : Xml) (tests gh : List (String × String)) :
    PPost (resolveRole E n (f q) r (bindAt w) (paramTable l) tests gh) (fun a s' => LStep s s' ∧ ∀ v, LStep s' v → ActOf x v.reg mq.xml l tests gh (y, w.2.xml) a) s := by
  obtain ⟨p, r1, r2, r3, r4, r5, r6, r7, r8, r9, r10⟩ := roleFrom_xml h.tree hr
  unfold resolveRole
  refine PPost.bind (PPost.get ?_)
  split
  · exact PPost.abort
  have hbp : (s.elt (bindAt w).elt).params = paramTable w.2.xml := by
    show (s.elt w.1).params = _
    rw [h.like.elt w.1]; exact (link_binds h.tree h.j hw).2
  refine PPost.bind ((iface_spec h n q mq w.1 w.2 hq hqt hw (.inl hwt)).mono ?_)
  intro e s' hes
  rw [hes.1]
  dsimp only
  rw [hbp]
  refine PPost.bind (((roleEvent_spec r e _ _ gh s).and (PRel.roleEvent (fixed_base.core E) r e _ _ gh ⟨trivial, trivial⟩ s)).mono ?_)
  rintro ⟨ev, value⟩ s2 ⟨⟨e1, e2, e3⟩, e4⟩
  dsimp only at e2 e3 ⊢
  have h2 := h.step e1.skel e4
  have hpred : PPost (if r.cond = true then obtainPred r.parent else pure none) (fun pr s3 => s3 = s2 ∧ if y.1.tag = "simpleCondition" then CondMeans y.2 pr else pr = none) s2 := by
    simp only [r5, beq_iff_eq]
    split
    · next hc =>
      rw [r2]
      refine (obtainPred_spec h2.tree h2.j hpi hfull h2.like r1).mono ?_
      rintro pr s3 ⟨g1, g2⟩
      exact ⟨g1, g2⟩
    · next hc => exact PPost.pure ⟨rfl, rfl⟩
  refine PPost.bind (hpred.mono ?_)
  intro pr s3 hs3
  rw [hs3.1]
  refine PPost.pure ⟨e1, fun v hv => ?_⟩
  have hv0 : LStep s v := (step_pre _).trans e1 hv
  refine ⟨r.typ, kindOf_means r6, fun o p hE => ?_, ?_, ?_, ?_, ?_⟩
  · obtain rfl := hes.2 v hv0 o p hE
    refine EventIs.later hv ?_
    dsimp only at e3
    unfold EventIs
    revert e3
    rw [r9]
    cases hty : r.typ <;> simp
  · dsimp only
    rw [e2, r9, r10]
    by_cases h1 : r.typ = .selection
    · simp only [if_pos h1]
    · simp only [if_neg h1]
      by_cases h2 : r.typ = .attribution
      · by_cases h3 : y.1.tag = "simpleCondition"
        · simp [h2, h3, resolveParameter_empty]
        · simp [h2, h3]
      · simp [h2]
  · dsimp only
    rw [r8]
    split <;> rfl
  · dsimp only
    rw [r7]
    split <;> rfl
  · dsimp only
    have := hs3.2
    split
    · next hc => rw [if_pos hc] at this; exact actPred_means this
    · next hc => rw [if_neg hc] at this; rw [this]; rfl

/-- The pair of a role and a bind is made from a pair of elements. -/
def PairOf (ns : List Note) (y : (Xml × List Xml) × Xml) (p : Role × Bind) : Prop :=
  RoleFrom ns y.1 p.1 ∧ ∃ w : Nat × Note, ns[w.1]? = some w.2 ∧ w.2.tag = "bind" ∧ w.2.xml = y.2 ∧ p.2 = bindAt w

theorem roles_find (hd : DocTree E scr x T ns f) {ys : List (Xml × List Xml)} {roles : List Role} (h : Each (RoleFrom ns) ys roles) (l : String) :
    (ys.find? (fun y => y.1.val "role" == l) = none ∧ roles.find? (fun r => r.role == l) = none) ∨
    ∃ y r, ys.find? (fun y => y.1.val "role" == l) = some y ∧ roles.find? (fun r => r.role == l) = some r ∧ RoleFrom ns y r := by
  induction h with
  | nil => exact .inl ⟨rfl, rfl⟩
  | @cons y r ys roles hr hrs ih =>
    obtain ⟨-, -, -, -, h4, -⟩ := roleFrom_xml hd hr
    by_cases hc : y.1.val "role" = l
    · refine .inr ⟨y, r, List.find?_cons_of_pos (by simpa using hc), List.find?_cons_of_pos (by rw [h4]; simpa using hc), hr⟩
    · rw [List.find?_cons_of_neg (by simpa using hc), List.find?_cons_of_neg (by rw [h4]; simpa using hc)]
      exact ih

theorem pairs_each (hd : DocTree E scr x T ns f) {ys : List (Xml × List Xml)} {roles : List Role} (h : Each (RoleFrom ns) ys roles) :
    ∀ L : List (Nat × Note), (∀ w ∈ L, ns[w.1]? = some w.2 ∧ w.2.tag = "bind") →
    Each (PairOf ns) ((L.map fun w => w.2.xml).filterMap fun b => (ys.find? fun y => y.1.val "role" == b.val "role").map fun y => (y, b)) (pairs roles (L.map bindAt))
  | [], _ => .nil
  | w :: L, hL => by
    have ih := pairs_each hd h L fun w h => hL w (by simp [h])
    obtain ⟨w1, w2⟩ := hL w (by simp)
    unfold pairs at ih ⊢
    rw [List.map_cons, List.map_cons, List.filterMap_cons, List.filterMap_cons]
    have : roleNamed roles (bindAt w) = roles.find? (fun r => r.role == w.2.xml.val "role") := rfl
    rw [this]
    rcases roles_find hd h (w.2.xml.val "role") with ⟨h1, h2⟩ | ⟨y, r, h1, h2, h3⟩
    · rw [h1, h2]; exact ih
    · rw [h1, h2]
      exact .cons ⟨h3, w, w1, w2, rfl, rfl⟩ ih

theorem roles_spec (hpi : PI ns [] π u) (hfull : StmtFull ns) {q : Nat} {mq : Note} (hq : ns[q]? = some mq) (hqt : mq.tag = "body" ∨ mq.tag = "context") (n : Nat) (roles : List Role) (l : Xml) (tests gh : List (String × String)) :
    ∀ (is : List (Nat × Bind)) (ps : List (Role × Bind)) (ys : List ((Xml × List Xml) × Xml)) (s : PS), AtEnd E scr z x T ns f u s →
    is.map (fun p => (roles[p.1]?, p.2)) = ps.map (fun p => (some p.1, p.2)) → Each (PairOf ns) ys ps →
    PPost (resolveRoles E n (f q) roles (paramTable l) tests gh is) (fun r s' => LStep s s' ∧ ∀ v, LStep s' v →
      Each (ActOf x v.reg mq.xml l tests gh) (ys.filter fun y => y.1.1.tag == "simpleCondition") r.1 ∧
      Each (ActOf x v.reg mq.xml l tests gh) (ys.filter fun y => !(y.1.1.tag == "simpleCondition")) r.2) s
  | [], [], ys, s, _, _, hy => by cases hy; exact PPost.pure ⟨step_same rfl rfl, fun _ _ => ⟨.nil, .nil⟩⟩
  | [], _ :: _, _, _, _, h, _ => by simp at h
  | _ :: _, [], _, _, _, h, _ => by simp at h
  | (i, b) :: is, p :: ps, ys, s, hs, h, hy => by
    simp only [List.map_cons, List.cons.injEq, Prod.mk.injEq] at h
    obtain ⟨⟨h1, h2⟩, h3⟩ := h
    cases hy with
    | @cons y _ ys _ hy hys =>
    obtain ⟨hr, w, w1, w2, w3, w4⟩ := hy
    unfold resolveRoles
    refine PPost.bind (PPost.some! fun r hr' => PPost.bind ?_)
    obtain rfl : r = p.1 := by rw [h1] at hr'; simpa using hr'.symm
    subst h2
    dsimp only
    rw [w4]
    refine ((role_spec hs hpi hfull hq hqt n hr w1 w2 l tests gh).and (PRel.resolveRole (fixed_base.core E) n (f q) p.1 (bindAt w) (paramTable l) tests gh ⟨trivial, trivial⟩ s)).mono ?_
    rintro a t ⟨⟨ha, ha'⟩, ht⟩
    refine PPost.bind ((roles_spec hpi hfull hq hqt n roles l tests gh is ps ys t (hs.step ha.skel ht) h3 hys).mono ?_)
    rintro ⟨cs, as⟩ t' ⟨g1, g2⟩
    refine PPost.pure ⟨(step_pre _).trans ha g1, fun v hv => ?_⟩
    obtain ⟨g3, g4⟩ := g2 v hv
    have hA := ha' v ((step_pre _).trans g1 hv)
    rw [w3] at hA
    obtain ⟨-, -, -, -, -, hc, -⟩ := roleFrom_xml hs.tree hr
    cases hcond : p.1.cond with
    | true =>
      rw [hcond] at hc
      rw [List.filter_cons_of_pos (by rw [← hc]), List.filter_cons_of_neg (by rw [← hc]; simp)]
      exact ⟨.cons hA g3, g4⟩
    | false =>
      rw [hcond] at hc
      rw [List.filter_cons_of_neg (by rw [← hc]; simp), List.filter_cons_of_pos (by rw [← hc]; simp)]
      exact ⟨g3, .cons hA g4⟩

/-- The binds of tests and of variables. -/
theorem bindAll_rest (roles : List Role) (tests : List String) : ∀ binds,
    (bindAll roles tests binds).tests = binds.filter (fun b => (roleNamed roles b).isNone && decide (b.role ∈ tests)) ∧
    (bindAll roles tests binds).ghosts = binds.filter (fun b => (roleNamed roles b).isNone && !decide (b.role ∈ tests))
  | [] => ⟨rfl, rfl⟩
  | b :: bs => by
    obtain ⟨i1, i2⟩ := bindAll_rest roles tests bs
    unfold bindAll
    dsimp only
    cases h : roleIndex roles b.role with
    | some i =>
      obtain ⟨r, h1, -, h3, -⟩ := roleIndex_some h
      have : roleNamed roles b = some r := h3
      simp [this, i1, i2]
    | none =>
      have : roleNamed roles b = none := roleIndex_none h
      dsimp only
      by_cases hc : b.role ∈ tests
      · simp [this, hc, i1, i2]
      · simp [this, hc, i1, i2]

theorem findSome_congr {α β : Type} {f g : α → Option β} : ∀ {l : List α}, (∀ a ∈ l, f a = g a) → l.findSome? f = l.findSome? g
  | [], _ => rfl
  | a :: l, h => by rw [List.findSome?_cons, List.findSome?_cons, h a (by simp), findSome_congr fun a h' => h a (by simp [h'])]

theorem Each.mem_left {α β : Type} {R : α → β → Prop} {l : List α} {m : List β} (h : Each R l m) {a : α} (ha : a ∈ l) : ∃ b ∈ m, R a b := by
  induction h with
  | nil => cases ha
  | cons hr _ ih =>
    rcases List.mem_cons.1 ha with rfl | ha
    · exact ⟨_, by simp, hr⟩
    · obtain ⟨b, h1, h2⟩ := ih ha
      exact ⟨b, by simp [h1], h2⟩

theorem roleOf_none (hd : DocTree E scr x T ns f) {ys : List (Xml × List Xml)} {roles : List Role} (h : Each (RoleFrom ns) ys roles) (w : Nat × Note) :
    (roleNamed roles (bindAt w)).isNone = (ys.find? fun y => y.1.val "role" == w.2.xml.val "role").isNone := by
  have : roleNamed roles (bindAt w) = roles.find? (fun r => r.role == w.2.xml.val "role") := rfl
  rw [this]
  rcases roles_find hd h (w.2.xml.val "role") with ⟨h1, h2⟩ | ⟨y, r, h1, h2, -⟩ <;> rw [h1, h2] <;> rfl

theorem link_spec (h : AtEnd E scr z x T ns f u s) (hpi : PI ns [] π u) (hfull : StmtFull ns) (hlk : LinkK f ns u) {k q : Nat} {m mq : Note} (hk : ns[k]? = some m) (ht : m.tag = "link")
    (hp : m.parent = some q) (hq : ns[q]? = some mq) (hqt : mq.tag = "body" ∨ mq.tag = "context") (n : Nat) :
    PPost (popLinkElt E n k) (fun _ s' => LStep s s' ∧ ∃ L, s'.links = upd s.links (f q) (s.links (f q) ++ [L]) ∧ ∀ v, LStep s' v → LinkOf E x v.reg mq.xml m.xml L) s := by
  have hd := h.tree
  unfold popLinkElt
  refine PPost.bind (PPost.get (PPost.bind (PPost.attr! fun c hc => PPost.bind (PPost.orErr fun ck hck => PPost.bind (PPost.some! fun ctx hctx => ?_)))))
  -- the context
  obtain rfl : ctx = f q := by
    obtain ⟨q', g1, g2⟩ := hlk.ctx k m hk ht
    rw [hp] at g1
    obtain rfl : q = q' := by simpa using g1
    rw [h.like.elt k] at hctx
    rw [show (u.elt k).context = some ctx from hctx] at g2
    exact Option.some.inj g2
  -- the connector
  have hxc : m.xml.prop "xconnector" = some c := by
    rw [← body_get hd hk (by rw [ht]; decide) (by decide), ← h.get k m hk (by rw [ht]; decide) (by rw [ht]; decide)]; exact hc
  obtain ⟨b1, b2, b3⟩ := PS.byId_some hck
  have hlt : ck < ns.length := h.kc.lt ck (by rw [← h.like.cache]; exact b1)
  obtain ⟨mc, hmc⟩ : ∃ mc, ns[ck]? = some mc := ⟨_, List.getElem?_eq_getElem hlt⟩
  have htc : mc.tag = "causalConnector" := by
    rw [← (h.j.tag hmc).1, ← h.like.tag]; simpa using b2
  have hnc : Named E x c mc.xml := hd.named hmc (by rw [htc]; decide) (by rw [← h.get ck mc hmc (by rw [htc]; decide) (by rw [htc]; decide)]; exact b3)
  have hec : (s.elt ck).roles = (u.elt ck).roles ∧ (s.elt ck).tests = (u.elt ck).tests := by rw [h.like.elt ck]; exact ⟨rfl, rfl⟩
  obtain ⟨hroles, htests⟩ := conn_roles hd h.j hlk hmc htc
  obtain ⟨hbinds, hparams⟩ := link_binds hd h.j hk
  have hek : (s.elt k).binds = (u.elt k).binds ∧ (s.elt k).params = (u.elt k).params := by rw [h.like.elt k]; exact ⟨rfl, rfl⟩
  dsimp only
  rw [hec.1, hec.2, hek.1, hek.2, hbinds, hparams]
  generalize (u.elt ck).roles = roles at hroles
  generalize (u.elt ck).tests = tests at htests
  split
  · exact PPost.err
  rename_i hb
  have hb : allBound roles tests (bindAll roles tests ((bindNotes ns k).map bindAt)) = true := by simpa using hb
  unfold allBound at hb
  simp only [Bool.and_eq_true, List.all_eq_true, List.mem_range, List.any_eq_true, beq_iff_eq] at hb
  have hbn : ∀ w ∈ bindNotes ns k, ns[w.1]? = some w.2 ∧ w.2.tag = "bind" := fun w hw => by
    obtain ⟨hw1, hw2⟩ := List.mem_filter.1 hw
    exact ⟨(kid_main hd hw1).1, by simpa using hw2⟩
  have hbx := bindNotes_xml hd hk
  -- the binds
  have htb : ∃ L1 : List (Nat × Note), (∀ w ∈ L1, ns[w.1]? = some w.2 ∧ w.2.tag = "bind") ∧ (bindAll roles tests ((bindNotes ns k).map bindAt)).tests = L1.map bindAt ∧ testBinds mc.xml m.xml = L1.map fun w => w.2.xml := by
    refine ⟨(bindNotes ns k).filter fun w => (roleNamed roles (bindAt w)).isNone && decide ((bindAt w).role ∈ tests), fun w hw => hbn w (List.mem_filter.1 hw).1, ?_, ?_⟩
    · rw [(bindAll_rest roles tests _).1, List.filter_map]; rfl
    · unfold testBinds
      rw [hbx, List.filter_map]
      congr 1
      refine List.filter_congr fun w _ => ?_
      rw [roleOf_none hd hroles]
      show ((_ : Bool) && decide (w.2.xml.val "role" ∈ _)) = (_ && decide (w.2.xml.val "role" ∈ tests))
      simp only [htests]
      rfl
  have hgb : ∃ L2 : List (Nat × Note), (∀ w ∈ L2, ns[w.1]? = some w.2 ∧ w.2.tag = "bind") ∧ (bindAll roles tests ((bindNotes ns k).map bindAt)).ghosts = L2.map bindAt ∧ ghostBinds mc.xml m.xml = L2.map fun w => w.2.xml := by
    refine ⟨(bindNotes ns k).filter fun w => (roleNamed roles (bindAt w)).isNone && !decide ((bindAt w).role ∈ tests), fun w hw => hbn w (List.mem_filter.1 hw).1, ?_, ?_⟩
    · rw [(bindAll_rest roles tests _).2, List.filter_map]; rfl
    · unfold ghostBinds
      rw [hbx, List.filter_map]
      congr 1
      refine List.filter_congr fun w _ => ?_
      rw [roleOf_none hd hroles]
      show ((_ : Bool) && !decide (w.2.xml.val "role" ∈ _)) = (_ && !decide (w.2.xml.val "role" ∈ tests))
      simp only [htests]
      rfl
  obtain ⟨L1, l1, l2, l3⟩ := htb
  obtain ⟨L2, m1, m2, m3⟩ := hgb
  have hpr := pairs_each hd hroles (bindNotes ns k) hbn
  have hbr : boundRoles mc.xml m.xml = (((bindNotes ns k).map fun w => w.2.xml).filterMap fun b => ((rolesInAll [] mc.xml.children).find? fun y => y.1.val "role" == b.val "role").map fun y => (y, b)) := by
    unfold boundRoles roleOf; rw [hbx]
  rw [← hbr] at hpr
  rw [l2, m2]
  refine PPost.bind ((table_spec h hq hqt n L1 [] l1).mono fun tt s1 h1 => ?_)
  rw [h1.1]
  refine PPost.bind ((table_spec h hq hqt n L2 [] m1).mono fun gh s2 h2 => ?_)
  rw [h2.1]
  refine PPost.bind (((roles_spec hpi hfull hq hqt n roles m.xml _ gh _ _ _ s h (bindAll_roles roles tests _) hpr).and
    (PRel.resolveRoles (sameElts_base.core E) n (f q) roles (paramTable m.xml) (addTestParams s (L1.map bindAt) tt) gh ⟨trivial, trivial⟩ _ s)).mono ?_)
  rintro ⟨cs, as⟩ s3 ⟨⟨h3, h4⟩, h5⟩
  dsimp only
  split
  · exact PPost.abort
  rename_i hne
  refine PPost.modify ⟨(step_pre _).trans h3 (step_same rfl rfl), ⟨cs, as⟩, ?_, fun v hv => ?_⟩
  · show upd s3.links _ _ = _
    rw [h5.2]
  · have hv3 : LStep s3 v := (step_pre _).trans (show Step LFrozen s3 { s3 with links := upd s3.links (f q) (s3.links (f q) ++ [⟨cs, as⟩]) } from step_same rfl rfl) hv
    have hv0 : LStep s v := (step_pre _).trans h3 hv3
    obtain ⟨e1, e2⟩ := h4 v hv3
    refine ⟨c, mc.xml, _, gh, hxc, hnc, htc, ?_, ?_, ?_, ?_, e1, e2, fun hc => hne (.inl hc), fun hc => hne (.inr hc)⟩
    · intro y hy
      obtain ⟨r, hr, hyr⟩ := hroles.mem_left hy
      obtain ⟨-, -, -, -, hrole, -⟩ := roleFrom_xml hd hyr
      obtain ⟨i, hi⟩ := List.getElem?_of_mem hr
      obtain ⟨⟨j, b⟩, hmem, rfl⟩ := hb.1 i (by rw [List.getElem?_eq_some_iff] at hi; exact hi.1)
      obtain ⟨g1, g2⟩ := bindAll_mem hmem
      obtain ⟨r', g3, g4, -, -⟩ := roleIndex_some g2
      obtain rfl : r = r' := by rw [hi] at g3; simpa using g3
      obtain ⟨w, hw, rfl⟩ := List.mem_map.1 g1
      refine ⟨w.2.xml, by rw [hbx]; exact List.mem_map.2 ⟨w, hw, rfl⟩, ?_⟩
      rw [← hrole, g4]; rfl
    · intro r hr
      obtain ⟨b, g1, g2⟩ := hb.2 r ((htests r).2 hr)
      rw [l2] at g1
      obtain ⟨w, hw, rfl⟩ := List.mem_map.1 g1
      refine ⟨w.2.xml, by rw [l3]; exact List.mem_map.2 ⟨w, hw, rfl⟩, g2⟩
    · intro name
      have := h1.2 v hv0 name
      rw [l3]
      cases hlb : lastBind (L1.map fun w => w.2.xml) name with
      | some b =>
        rw [hlb] at this
        obtain ⟨t, g1, g2⟩ := this
        refine ⟨t, ?_, g2⟩
        rw [mget_addTestParams, g1]; rfl
      | none =>
        rw [hlb] at this
        dsimp only at this ⊢
        rw [mget_addTestParams, this]
        show (none : Option String).or _ = _
        rw [Option.none_or, List.findSome?_map, List.findSome?_map]
        refine findSome_congr fun w hw => ?_
        show mget name (s.elt w.1).params = _
        rw [h.like.elt w.1]
        show mget name (u.elt w.1).params = _
        rw [(link_binds hd h.j (l1 w hw).1).2]
        rfl
    · intro name
      have := h2.2 v hv0 name
      rw [m3]
      exact this

end

end Ginga
