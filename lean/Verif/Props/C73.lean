import Verif.Props.C72
import Verif.Props.C47
import Verif.Props.C44
import Verif.Props.C59
import Verif.Props.C12
import Verif.Examples
/-!
# C73: the presentation is that of the document

What the formatter runs after a document is accepted is the document: each element has its object, with the kind, the identifier, the place, the ports, the links, the rules, the
events and the values that the document gives; and when the presentation starts, what the ports of the body lead to is started first, in document order.
-/
namespace Ginga

/-! ## Events have no parameters but the key -/

/-- No parameter but `key` has changed. -/
def SamePar (s t : PS) : Prop := ∀ e k, k ≠ "key" → t.par e k = s.par e k

theorem samePar_atomic : PAtomic (fun _ => True) SamePar where
  refl _ := fun _ _ _ => rfl
  trans h1 h2 := fun e k hk => (h2 e k hk).trans (h1 e k hk)
  names _ _ := trivial
  attr _ _ _ _ _ := fun _ _ _ => rfl
  elt _ _ _ _ _ _ := fun _ _ _ => rfl
  reg _ _ _ _ _ := fun _ _ _ => rfl
  del _ _ := fun _ _ _ => rfl
  nalloc _ := fun _ _ _ => rfl
  objs _ _ := fun _ _ _ => rfl
  refer _ _ := fun _ _ _ => rfl
  conn _ _ := fun _ _ _ => rfl
  props _ _ _ _ _ _ := fun _ _ _ => rfl
  par _ _ h := h
  pred _ _ _ := fun _ _ _ => rfl

theorem samePar_push (E : PRead) (proc : Xml → PM Unit) (f : Push) (k : Nat) (h : f ≠ .importBase) : PRel SamePar (push E proc f k) := by
  by_cases hr : f = .region
  · subst hr; exact PRel.pushRegion (samePar_atomic.atom E) E k fun _ _ _ _ _ _ => rfl
  · exact PRel.push samePar_atomic E proc f k hr h fun _ _ => trivial

theorem samePar_pop (E : PRead) (n : Nat) (f : Pop) (k : Nat) (h : f ≠ .ncl) : PRel SamePar (pop E n f k) := by
  by_cases hr : f = .region
  · subst hr; exact PRel.popRegion (samePar_atomic.atom E) fun _ _ _ _ _ _ => rfl
  · exact PRel.pop (samePar_atomic.atom E) samePar_atomic.objs n f k (fun _ _ _ _ _ _ => rfl) (fun hc => absurd hc h) (fun _ => fun _ _ _ _ _ => rfl) hr

/-- While elements are processed. -/
def NoPar (_ : List Note) (_ : List Nat) (s : PS) : Prop := ∀ e k, k ≠ "key" → s.par e k = none

theorem noPar_rides (E : PRead) (scr : Rect) (z0 : Nat) : Rides E scr z0 NoPar where
  same _ _ _ _ _ _ _ hk := hk
  push g S s s2 par pt x e r y nt proc a t hn hk h1 h2 h3 h4 := by
    have h := samePar_push E proc e.push s.nelt h1 s2 a t h2
    have hs := hn.state
    intro v k hkk
    rw [h v k hkk, hs]; exact hk v k hkk
  imp g S s s2 par pt x e r y nt hn hk h1 := by
    have hs := hn.state
    intro v k hkk
    rw [hs]; exact hk v k hkk
  pop g O S s k nt e n a t hj hp hk h1 h2 h3 h4 h5 := by
    intro v q hq
    rw [samePar_pop E n e.pop k h3 s a t h4 v q hq]; exact hk v q hq

section
variable {E : PRead} (hinj : ∀ i j, E.addr i = E.addr j → i = j) {n : Nat} {W H : Int} {z : Nat} {x : Xml} {t : PS} (h : parseXml E n W H z x = .ok (some t))
include hinj h

/-- Nothing is marked as started from within when the presentation begins. -/
theorem C73_unmarked (env : Env) : NoMarks (docOf t env) := by
  obtain ⟨ns, f, m, u, he⟩ := doc_treeP hinj (noPar_rides E _ _).extra (fun f reg _ _ _ _ => rfl) h
  have hs : SamePar u t := PRel.popNcl (samePar_atomic.atom E) samePar_atomic.objs (fun _ _ _ _ _ _ => rfl) m (fun _ => trivial) ⟨trivial, trivial, trivial⟩ u _ _ he.run
  intro o
  show t.par _ "fromport" = none
  rw [hs _ _ (by decide)]
  exact he.extra _ _ (by decide)

/-! ## The objects -/

omit hinj h in
theorem docOf_obj {t : PS} {o : Nat} {X : RObj} (ho : t.reg.has o X) (env : Env) : (docOf t env).obj o = realObj t o X := by
  show docObj t o = _
  unfold docObj
  rw [Reg.get_some.2 ho]

/-- Each element: its kind, identifier and place. -/
theorem C73_element {p c : Xml} (hp : SubElt x p) (hc : c ∈ p.children) {kd : RKind} (hk : eltKind c = some kd) (env : Env) :
    ∃ i o q, c.prop "id" = some i ∧ t.reg.getById i = some o ∧ o ∈ (docOf t env).objs ∧ ((docOf t env).obj o).kind = kd.toKind ∧ ((docOf t env).obj o).id = i ∧
      ((docOf t env).obj o).parent = some q ∧ ((p.tag = "body" ∧ q = (docOf t env).root) ∨ ∃ j, p.prop "id" = some j ∧ t.reg.getById j = some q) := by
  obtain ⟨i, o, q, h1, h2, ⟨X, h3, h4, h5, h6⟩, h7⟩ := C51_elements hinj h hp hc hk
  refine ⟨i, o, q, h1, h2, h3.1, ?_, ?_, ?_, ?_⟩
  · rw [docOf_obj h3]; show X.kind.toKind = _; rw [h5]
  · rw [docOf_obj h3]; exact h4
  · rw [docOf_obj h3]; exact h6
  · rcases h7 with h7 | ⟨-, j, -, -, h8, h9, -⟩
    · exact .inl h7
    · exact .inr ⟨j, h8, h9⟩

omit hinj h in
theorem has_of_id {r : Reg} (hr : RegInv r) {i : String} {o : Nat} (hg : r.getById i = some o) : ∃ X, r.has o X := by
  obtain ⟨X, hX, -⟩ := (hr.byId i o).1 hg
  exact ⟨X, hX⟩

/-- Each context: its ports and links. -/
theorem C73_context (env : Env) : ∀ c, SubElt x c → c.tag = "context" → ∃ i o L, c.prop "id" = some i ∧ t.reg.getById i = some o ∧
    PortsTo x t.reg c (c.children.filter fun y => y.tag == "port") L ∧ ((docOf t env).obj o).ports = addNew [] L ∧
    Each (LinkOf E x t.reg c) (c.children.filter fun y => y.tag == "link") ((docOf t env).obj o).links := by
  intro c hc ht
  obtain ⟨i, o, L, h1, h2, h3, h4⟩ := C72_context hinj h c hc ht
  obtain ⟨i', o', g1, g2, g3⟩ := (C53_all hinj h).1 c hc ht
  rw [h1] at g1; cases g1
  rw [h2] at g2; cases g2
  obtain ⟨ns, f, hd⟩ := doc_tree hinj h
  obtain ⟨X, hX⟩ := has_of_id hd.world.inv h2
  refine ⟨i, o, L, h1, h2, h3, ?_, ?_⟩
  · rw [docOf_obj hX]; exact h4
  · rw [docOf_obj hX]; exact g3

/-- The bodies: the ports and links of the root, those of one body after those of the other. -/
theorem C73_bodies (env : Env) : ∃ LL,
    Each (fun c L => PortsTo x t.reg c (c.children.filter fun y => y.tag == "port") L) (x.children.filter fun y => y.tag == "body") LL ∧
    ((docOf t env).obj (docOf t env).root).ports = addNew [] LL.flatten ∧
    Each (fun w L => LinkOf E x t.reg w.1 w.2 L) ((x.children.filter fun c => c.tag == "body").flatMap fun c => (c.children.filter fun y => y.tag == "link").map fun l => (c, l))
      ((docOf t env).obj (docOf t env).root).links := by
  obtain ⟨LL, h1, h2⟩ := C72_bodies hinj h
  have h3 := (C53_all hinj h).2
  obtain ⟨ns, f, hd⟩ := doc_tree hinj h
  obtain ⟨X, hX1, hX2⟩ := hd.world.inv.rootKind
  have hX : t.reg.has t.reg.root X := by
    obtain ⟨Y, c1, c2, c3⟩ := hd.world.tree.root
    rw [hX1] at c1; cases c1
    exact ⟨hd.world.inv.inDoc _ _ hX1 c3, hX1⟩
  refine ⟨LL, h1, ?_, ?_⟩
  · show ((docOf t env).obj t.reg.root).ports = _
    rw [docOf_obj hX]; exact h2
  · show Each _ _ ((docOf t env).obj t.reg.root).links
    rw [docOf_obj hX]
    exact h3

/-- The body, when there is one: the ports and links of the root. -/
theorem C73_body {c : Xml} (hb : x.children.filter (fun y => y.tag == "body") = [c]) (env : Env) : ∃ L,
    PortsTo x t.reg c (c.children.filter fun y => y.tag == "port") L ∧ ((docOf t env).obj (docOf t env).root).ports = addNew [] L ∧
    Each (LinkOf E x t.reg c) (c.children.filter fun y => y.tag == "link") ((docOf t env).obj (docOf t env).root).links := by
  obtain ⟨LL, h1, h2, h3⟩ := C73_bodies hinj h env
  rw [hb] at h1 h3
  cases h1 with
  | cons h4 h5 =>
    cases h5
    refine ⟨_, h4, by simpa using h2, ?_⟩
    simp only [List.flatMap_cons, List.flatMap_nil, List.append_nil] at h3
    exact h3.unmap

/-- Each switch: its rules and its ports. -/
theorem C73_switch (env : Env) : ∀ c, SubElt x c → c.tag = "switch" → ∃ i o, c.prop "id" = some i ∧ t.reg.getById i = some o ∧
    Each (RuleOf E x t c) ((c.children.filter fun y => y.tag == "bindRule") ++ c.children.filter fun y => y.tag == "defaultComponent") ((docOf t env).obj o).rules ∧
    (∀ y ∈ c.children, y.tag = "switchPort" → ∃ a L, y.prop "id" = some a ∧ portEvents a ((docOf t env).obj o).switchPorts = some L ∧
      PortsTo x t.reg c (y.children.filter fun m => m.tag == "mapping") L) ∧
    ∀ a, (∀ y ∈ c.children, y.tag = "switchPort" → y.prop "id" ≠ some a) → portEvents a ((docOf t env).obj o).switchPorts = none := by
  intro c hc ht
  obtain ⟨i, o, h1, h2, h3⟩ := C44_switch hinj h hc ht
  obtain ⟨i', o', g1, g2, g3, g4⟩ := C72_switch hinj h c hc ht
  rw [h1] at g1; cases g1
  rw [h2] at g2; cases g2
  obtain ⟨ns, f, hd⟩ := doc_tree hinj h
  obtain ⟨X, hX⟩ := has_of_id hd.world.inv h2
  refine ⟨i, o, h1, h2, ?_⟩
  rw [docOf_obj hX]
  exact ⟨h3, g3, g4⟩

/-- Each media: the values of its properties when the presentation begins. -/
theorem C73_values {c : Xml} (hc : SubElt x c) (hk : eltKind c = some .media) {i nm : String} (hi : c.prop "id" = some i) (hp : HasProperty x (standsFor i) nm) (env : Env)
    (focus : String) : ∃ o, t.reg.getById i = some o ∧ mget nm (((docOf t env).init focus).props o) = (given E x i nm).getLast? := by
  obtain ⟨o, h1, h2⟩ := C47_last hinj h hc hk hi hp
  obtain ⟨ns, f, hd⟩ := doc_tree hinj h
  obtain ⟨X, hX⟩ := has_of_id hd.world.inv h1
  refine ⟨o, h1, ?_⟩
  show mget nm ((docOf t env).obj o).props0 = _
  rw [docOf_obj hX]
  exact h2

/-- Each event of an object that the document declares is an event of the presentation, of the same kind, name and interval, and it is one of its object's. -/
theorem C73_event {o : Nat} {X : RObj} (hX : t.reg.has o X) {ty : EType} {nm : String} {p : Nat × REv} (hp : X.getEvent ty nm = some p) (env : Env) :
    (docOf t env).ev p.1 = { typ := ty, obj := o, id := nm, begin_ := p.2.beg, end_ := p.2.fin, label := p.2.label } ∧ p.1 ∈ ((docOf t env).obj o).events := by
  obtain ⟨ns, f, hd⟩ := doc_tree hinj h
  have hok := hd.world.inv.ev o X hX.2
  obtain ⟨h1, h2, h3⟩ := (getEvent_some hok).1 hp
  have hat : t.reg.eventAt p.1 = some (o, p.2) := (Reg.eventAt_some hd.world.evUniq hd.world.evNodup).2 ⟨X, hX, h1⟩
  constructor
  · show docEv t.reg p.1 = _
    unfold docEv
    rw [hat, ← h2, ← h3]
  · rw [docOf_obj hX]
    exact List.mem_map.2 ⟨p, h1, rfl⟩

/-- Each area: its event, with its label or interval. -/
theorem C73_area {c : Xml} (hc : SubElt x c) (hk : eltKind c = some .media) {i : String} (hi : c.prop "id" = some i) {d y : Xml} (hd : SubElt x d) (hst : standsFor i d)
    (hy : y ∈ d.children) (ht : y.tag = "area") {nm : String} (hnm : y.prop "id" = some nm) (env : Env) :
    ∃ o e v, t.reg.getById i = some o ∧ areaEvent E y.prop = some v ∧ e ∈ ((docOf t env).obj o).events ∧
      (docOf t env).ev e = { typ := .presentation, obj := o, id := nm, begin_ := v.beg, end_ := v.fin, label := v.label } := by
  obtain ⟨o, X, h1, h2, h3⟩ := C59_area hinj h hc hk hi hd hst hy ht hnm
  have hsome : (areaEvent E y.prop).isSome = true := C59_wellformed hinj h (.child hd hy) ht
  obtain ⟨v, hv⟩ := Option.isSome_iff_exists.1 hsome
  rw [hv] at h3
  obtain ⟨p, hp, rfl⟩ := Option.map_eq_some_iff.1 h3
  obtain ⟨ns, f, hdt⟩ := doc_tree hinj h
  obtain ⟨X', hX⟩ := has_of_id hdt.world.inv h1
  have := hX.2
  rw [h2] at this; cases this
  obtain ⟨g1, g2⟩ := C73_event hinj h hX hp env
  exact ⟨o, p.1, p.2, h1, hv, g2, g1⟩

/-! ## The start -/

theorem C73_objs_root (env : Env) : (docOf t env).root ∈ (docOf t env).objs := by
  obtain ⟨ns, f, hd⟩ := doc_tree hinj h
  obtain ⟨Y, c1, c2, c3⟩ := hd.world.tree.root
  exact hd.world.inv.inDoc _ _ c1 c3

omit hinj h in
/-- What waits for time zero at the head of the queue is evaluated in the next tick. -/
theorem first_tick {f1 : Fmt} (hf1 : Reachable f1) {d : Doc} (hwf : DocWF d) (hd1 : f1.doc = some d) {c : Oid} (hc : c ∈ d.objs)
    (hocc : f1.st.est (d.obj c).lambda = .occurring) (L : List Eid) (added : List (Act × Nat))
    (hq : f1.st.delayed c = L.map (fun e => (({ ev := e, tr := .start } : Act), 0)) ++ added)
    (m total diff frame : Nat) (b' : Bool) (f2 : Fmt)
    (he2 : exec m f1 (.sendTick total diff frame) = .ok (b', f2)) (hd2 : f2.doc = some d)
    (hclk : f1.st.time c + diff < NONE) (hnt : ¬ TouchedBetween d c f1.st f2.st) :
    ∃ s1 s2 late, LogGrow f1.st s1 ∧ LogGrow s2 f2.st ∧ InOrder d m (L.map (fun e => ({ ev := e, tr := .start } : Act)) ++ late) s1 s2 := by
  obtain ⟨t1, t2, q1, k1, ht, q2, k2⟩ := (C11_sendTick hf1 hd1 c hc m total diff frame b' f2 he2 hd2).1 hocc
  obtain ⟨rank, hw⟩ := hwf
  have hlt : LogGrow t1 t2 := by
    have hT : TClosed d (fun _ => False) (fun _ => True) LogGrow :=
      { logGrow_closed d with
        time := fun _ _ _ _ => ⟨[], rfl⟩, queue := fun _ _ _ _ => ⟨[], rfl⟩, focusDone := fun _ => ⟨[], rfl⟩ }
    exact (pres_objTick hT (run_logGrow hw m) c diff trivial).ok ht
  obtain ⟨ha, hb⟩ := not_touched_trans k1.1 ((logGrow_closed d).trans hlt k2.1) hnt
  obtain ⟨hb, -⟩ := not_touched_trans hlt k2.1 hb
  obtain ⟨o1, o2⟩ := k1.2 hocc ha
  have hstop : ¬ StoppedBetween d c f1.st t1 := fun ⟨x, hx, h1, h2⟩ => ha ⟨x, hx, h1⟩
  obtain ⟨-, added2, hq2⟩ := q1.2 (by rw [hocc]; simp) hstop
  rw [← o2] at hclk
  obtain ⟨s1, s2, hin, e1, e2, -, -⟩ := C11_all_due_partial ⟨rank, hw⟩ t1 m c o1 diff hclk t2 ht hb
  rw [hq2, hq] at hin
  simp only [List.filter_append, List.map_append] at hin
  have hp : ((L.map fun e => (({ ev := e, tr := .start } : Act), 0)).filter
      (fun p => decide (p.2 ≤ t1.time c + diff))).map (·.1) = L.map fun e => ({ ev := e, tr := .start } : Act) := by
    rw [List.filter_eq_self.2]
    · simp [Function.comp_def]
    · intro x hx
      obtain ⟨y, -, rfl⟩ := List.mem_map.1 hx
      simp
  rw [hp] at hin
  refine ⟨s1, s2, _, ?_, ?_, by simpa only [List.append_assoc] using hin⟩
  · obtain ⟨l, hl⟩ := k1.1; exact ⟨l, by rw [e1]; exact hl⟩
  · obtain ⟨l, hl⟩ := k2.1; exact ⟨l, by rw [hl, e2]⟩

/-- When the presentation of an accepted document starts, the START of each event that a port of the body leads to, and that is a presentation, waits in the queue of the body for
time zero, in document order and before anything else. -/
theorem C73_start (env : Env) (hwf : DocWF (docOf t env)) {f : Fmt} (hf : Reachable f) (m : Nat) (f' : Fmt)
    (he : exec m f (.start (some (docOf t env))) = .ok (true, f')) (hns : ¬ StoppedBetween (docOf t env) (docOf t env).root ((docOf t env).init f.focus) f'.st) :
    ∃ LL added, Each (fun c L => PortsTo x t.reg c (c.children.filter fun y => y.tag == "port") L) (x.children.filter fun y => y.tag == "body") LL ∧
      f'.st.delayed (docOf t env).root =
        ((addNew [] LL.flatten).filter fun e => ((docOf t env).ev e).typ = .presentation).map (fun e => (({ ev := e, tr := .start } : Act), 0)) ++ added := by
  obtain ⟨LL, h1, h2, -⟩ := C73_bodies hinj h env
  obtain ⟨-, added, h3⟩ := C12_body hf hwf (C73_unmarked hinj h env) m f' he hns
  refine ⟨LL, added, h1, ?_⟩
  rw [h3]
  unfold portStarts
  rw [h2, List.map_map]
  rfl

/-- If the next call is a tick, in which the body makes no transition, they are evaluated in it, in that order. -/
theorem C73_first_tick (env : Env) (hwf : DocWF (docOf t env)) {f : Fmt} (hf : Reachable f) (m : Nat) (f1 : Fmt)
    (he : exec m f (.start (some (docOf t env))) = .ok (true, f1)) (hd1 : f1.doc = some (docOf t env))
    (hns : ¬ StoppedBetween (docOf t env) (docOf t env).root ((docOf t env).init f.focus) f1.st)
    (hocc : f1.st.est ((docOf t env).obj (docOf t env).root).lambda = .occurring) (k total diff frame : Nat) (b : Bool) (f2 : Fmt)
    (he2 : exec k f1 (.sendTick total diff frame) = .ok (b, f2)) (hd2 : f2.doc = some (docOf t env)) (hclk : f1.st.time (docOf t env).root + diff < NONE)
    (hnt : ¬ TouchedBetween (docOf t env) (docOf t env).root f1.st f2.st) :
    ∃ LL s1 s2 late, Each (fun c L => PortsTo x t.reg c (c.children.filter fun y => y.tag == "port") L) (x.children.filter fun y => y.tag == "body") LL ∧ LogGrow f1.st s1 ∧ LogGrow s2 f2.st ∧
      InOrder (docOf t env) k (((addNew [] LL.flatten).filter fun e => ((docOf t env).ev e).typ = .presentation).map (fun e => ({ ev := e, tr := .start } : Act)) ++ late) s1 s2 := by
  obtain ⟨L, added, hL, hq⟩ := C73_start hinj h env hwf hf m f1 he hns
  have hf1 := hf.exec (op := .start (some (docOf t env))) (fun d hd => by cases hd; exact hwf) he
  have hin := (C73_objs_root hinj h env)
  obtain ⟨s1, s2, late, h1, h2, h3⟩ := first_tick hf1 hwf hd1 hin hocc _ added hq k total diff frame b f2 he2 hd2 hclk hnt
  exact ⟨L, s1, s2, late, hL, h1, h2, h3⟩

end


/-! ## The hypotheses are met -/

/-- Two ports: one to a media, the other through the port of a context; and a media to which no port leads. -/
def docFirst : Xml := .elem "ncl" [] [.elem "body" [] [
  .elem "port" [("id", "p1"), ("component", "m2")] [], .elem "port" [("id", "p2"), ("component", "c"), ("interface", "q")] [],
  .elem "media" [("id", "m1")] [], .elem "media" [("id", "m2")] [.elem "area" [("id", "a"), ("begin", "1s")] [], .elem "property" [("name", "x"), ("value", "1")] []],
  .elem "context" [("id", "c")] [.elem "port" [("id", "q"), ("component", "m3")] [], .elem "media" [("id", "m3")] []]]]

/-- The presentation is started and gets a tick: the two medias to which the ports lead are presented after it, and not before; the other one is not. The hypotheses of
`C73_first_tick` are met: the document is presented, the body occurs, it was not stopped, and it makes no transition in the tick. -/
def firstRun (t : PS) : Bool :=
  let d := docOf t Ex.env0
  let on := fun (f : Fmt) (i : String) => match t.reg.getById i with | some o => decide (f.st.est (d.obj o).lambda = .occurring) | none => false
  match exec 50 (Fmt.new "" 800 600) (.start (some d)) with
  | .ok (b, f1) => b && f1.doc.isSome && decide (f1.st.est (d.obj d.root).lambda = .occurring) && !(on f1 "m2") &&
      ((d.init "").since f1.st).all (fun x => !decide ((d.ev x.ev).obj = d.root ∧ x.tr ≠ .start)) &&
    (match exec 50 f1 (Ex.tick 0) with
     | .ok (_, f2) => f2.doc.isSome && (f1.st.since f2.st).all (fun x => !decide ((d.ev x.ev).obj = d.root)) && on f2 "m2" && on f2 "m3" && on f2 "c" && !(on f2 "m1")
     | _ => false)
  | _ => false

example : parsedAnd (parseXml pread0 20 800 600 0 docFirst) firstRun = true := by decide +kernel

theorem sub_listed {x y : Xml} (h : SubElt x y) {P : Xml → Prop} (hP : ∀ w ∈ x.listing none, P w.2) : P y := by
  obtain ⟨p, hp⟩ := h.listed
  refine hP (p, y) (hp _ ?_)
  cases y <;> simp [Xml.listing]

/-- There are no switch ports in it: the document of the presentation is well formed. -/
example (t : PS) (h : parseXml pread0 20 800 600 0 docFirst = .ok (some t)) (env : Env) : DocWF (docOf t env) :=
  C52_wf_noport (fun _ _ h => h) h (fun y hy => sub_listed (P := fun y => y.tag ≠ "switchPort") hy (by decide +kernel)) env

end Ginga
