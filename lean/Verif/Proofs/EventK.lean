import Verif.Proofs.PropEnd
import Verif.Proofs.LtabMedia
/-!
# The events of objects while elements are processed
-/
namespace Ginga

/-- The object `o` of `r'` has the kind and the events of types `Q` that it has in `r`. -/
def SameEv (Q : EType → Prop) (r r' : Reg) (o : Nat) : Prop := ∀ x', r'.obj o = some x' → ∃ x, r.obj o = some x ∧ x'.kind = x.kind ∧
  ∀ ty nm, Q ty → (x'.getEvent ty nm).map (·.2) = (x.getEvent ty nm).map (·.2)

theorem SameEv.refl (Q : EType → Prop) (r : Reg) (o : Nat) : SameEv Q r r o := fun x h => ⟨x, h, rfl, fun _ _ _ => rfl⟩
theorem SameEv.trans {Q : EType → Prop} {r r' r'' : Reg} {o : Nat} (h : SameEv Q r r' o) (h' : SameEv Q r' r'' o) : SameEv Q r r'' o := by
  intro x hx
  obtain ⟨y, h1, h2, h3⟩ := h' x hx
  obtain ⟨z, h4, h5, h6⟩ := h y h1
  exact ⟨z, h4, h2.trans h5, fun ty nm hq => (h3 ty nm hq).trans (h6 ty nm hq)⟩

theorem SameEv.upd {Q : EType → Prop} {r : Reg} {o q : Nat} {y : Option RObj} (hy : ∀ z, y = some z → o = q → ∃ x, r.obj q = some x ∧ z.kind = x.kind ∧
    ∀ ty nm, Q ty → (z.getEvent ty nm).map (·.2) = (x.getEvent ty nm).map (·.2)) :
    ∀ x', upd r.obj q y o = some x' → ∃ x, r.obj o = some x ∧ x'.kind = x.kind ∧ ∀ ty nm, Q ty → (x'.getEvent ty nm).map (·.2) = (x.getEvent ty nm).map (·.2) := by
  intro x hx
  by_cases hq : o = q
  · subst hq; rw [upd_same] at hx; exact hy x hx rfl
  · rw [upd_ne _ _ hq] at hx; exact ⟨x, hx, rfl, fun _ _ _ => rfl⟩

/-- The events after one is added. -/
theorem addEvent_gives (x : RObj) (a : Nat) (e : REv) (ty : EType) (nm : String) : ((x.addEvent a e).getEvent ty nm).map (·.2) =
    ((x.getEvent ty nm).map (·.2)).or (if e.typ = ty ∧ e.id = nm then some e else none) := by
  by_cases h : e.typ = ty ∧ e.id = nm
  · rw [if_pos h, ← h.1, ← h.2, addEvent_self]
    cases x.getEvent e.typ e.id <;> rfl
  · rw [if_neg h, Option.or_none, addEvent_get h]

/-- What one operation does to the events of objects. -/
theorem exec_sameEv {Q : EType → Prop} {r r' : Reg} {op : RegOp} {b : Bool} (h : r.exec op = .ok (b, r')) (hn : ∀ a k id a1 a2, op ≠ .new a k id a1 a2)
    (he : ∀ q a e, op = .addEvent q a e → ¬ Q e.typ) (o : Nat) : SameEv Q r r' o := by
  have hreg : ∀ {r : Reg} {q : Nat} {x : RObj}, (r.register q x).obj = Ginga.upd r.obj q (some { x with inDoc := true }) := by
    intro r q x
    unfold Reg.register
    split <;> rfl
  have hset : ∀ {r : Reg} {q : Nat} {x x' : RObj}, r.obj q = some x → x'.kind = x.kind → x'.events = x.events →
      ∀ z, Ginga.upd r.obj q (some x') o = some z → ∃ x, r.obj o = some x ∧ z.kind = x.kind ∧ ∀ ty nm, Q ty → (z.getEvent ty nm).map (·.2) = (x.getEvent ty nm).map (·.2) := by
    intro r q x x' hx h2 h3
    refine SameEv.upd ?_
    rintro z ⟨⟩ rfl
    exact ⟨x, hx, h2, fun ty nm _ => by unfold RObj.getEvent; rw [h3]⟩
  have hao : ∀ {r r' : Reg} {q : Nat} {b : Bool}, r.addObject q = .ok (b, r') → SameEv Q r r' o := by
    intro r r' q b h
    unfold Reg.addObject at h
    split at h
    · cases h
    next x hx =>
      split at h
      · simp only [Res.ok.injEq, Prod.mk.injEq] at h; obtain ⟨-, rfl⟩ := h; exact .refl _ _ o
      · split at h
        · cases h
        · split at h
          · cases h
          · simp only [Res.ok.injEq, Prod.mk.injEq] at h
            obtain ⟨-, rfl⟩ := h
            unfold SameEv; rw [hreg]; exact hset hx rfl rfl
  cases op with
  | new a k id a1 a2 => exact absurd rfl (hn _ _ _ _ _)
  | addObject q => exact hao h
  | addChild c q =>
    unfold Reg.exec Reg.addChild at h
    dsimp only at h
    split at h
    · next y x hy hx =>
      split at h
      · cases h
      · split at h
        · simp only [Res.ok.injEq, Prod.mk.injEq] at h; obtain ⟨-, rfl⟩ := h; exact .refl _ _ o
        · split at h
          · cases h
          · split at h
            · cases h
            · split at h
              · cases h
              · next x' hx' =>
                have h1 : SameEv Q r (r.setObj c { y with children := sinsert q y.children }) o := hset hy rfl rfl
                have h2 : SameEv Q (r.setObj c { y with children := sinsert q y.children }) ((r.setObj c { y with children := sinsert q y.children }).setObj q { x' with parent := some c }) o :=
                  hset hx' rfl rfl
                generalize hg : Reg.addObject _ _ = w at h
                cases w with
                | ok p =>
                  obtain ⟨b', r1⟩ := p
                  have h : (if b' then Res.ok (true, r1) else Res.abort) = Res.ok (b, r') := h
                  split at h
                  · simp only [Res.ok.injEq, Prod.mk.injEq] at h; obtain ⟨-, rfl⟩ := h
                    exact (h1.trans h2).trans (hao hg)
                  · cases h
                | abort => cases h
                | ub => cases h
                | fuel => cases h
    · cases h
  | addAlias q a c =>
    unfold Reg.exec Reg.addAlias at h
    dsimp only at h
    split at h
    · cases h
    · next x hx =>
      split at h
      · simp only [Res.ok.injEq, Prod.mk.injEq] at h; obtain ⟨-, rfl⟩ := h; exact .refl _ _ o
      · simp only [Res.ok.injEq, Prod.mk.injEq] at h; obtain ⟨-, rfl⟩ := h; exact hset hx rfl rfl
  | addEvent q a e =>
    unfold Reg.exec at h
    dsimp only at h
    split at h
    · cases h
    · next x hx =>
      simp only [Res.ok.injEq, Prod.mk.injEq] at h; obtain ⟨-, rfl⟩ := h
      refine SameEv.upd ?_
      rintro z ⟨⟩ rfl
      obtain ⟨evs, hs⟩ := addEvent_shape x a e
      refine ⟨x, hx, by rw [hs], fun ty nm hq => ?_⟩
      rw [addEvent_gives, if_neg, Option.or_none]
      rintro ⟨rfl, -⟩
      exact he _ _ _ rfl hq

/-- Objects that are not switches keep their events of types `Q`; new objects have those of their constructor. -/
def EvSame (E : PRead) (Q : EType → Prop) (s t : PS) : Prop := s.nalloc ≤ t.nalloc ∧ ∀ o x', t.reg.obj o = some x' → x'.kind ≠ .switch →
  (∃ x, s.reg.obj o = some x ∧ x'.kind = x.kind ∧ ∀ ty nm, Q ty → (x'.getEvent ty nm).map (·.2) = (x.getEvent ty nm).map (·.2)) ∨
  (¬ Alloc E s o ∧ ∃ id a1 a2, ∀ ty nm, Q ty → (x'.getEvent ty nm).map (·.2) = ((newObj x'.kind id a1 a2).getEvent ty nm).map (·.2))

section
variable {E : PRead} {Q : EType → Prop}

theorem evSame_of {s t : PS} (h1 : s.nalloc ≤ t.nalloc) (h2 : ∀ o, SameEv Q s.reg t.reg o) : EvSame E Q s t := ⟨h1, fun o x hx _ => .inl (h2 o x hx)⟩
theorem evSame_same {s t : PS} (h1 : t.reg = s.reg) (h2 : s.nalloc ≤ t.nalloc) : EvSame E Q s t := evSame_of h2 fun o => by rw [h1]; exact .refl _ _ o

theorem evSame_pre (E : PRead) (Q : EType → Prop) : PPre (EvSame E Q) where
  refl _ := evSame_same rfl (Nat.le_refl _)
  trans h h' := by
    refine ⟨Nat.le_trans h.1 h'.1, fun o x hx hk => ?_⟩
    rcases h'.2 o x hx hk with ⟨y, h1, h2, h3⟩ | ⟨h1, h2⟩
    · rcases h.2 o y h1 (by rw [← h2]; exact hk) with ⟨z, h4, h5, h6⟩ | ⟨h4, id, a1, a2, h5⟩
      · exact .inl ⟨z, h4, h2.trans h5, fun ty nm hq => (h3 ty nm hq).trans (h6 ty nm hq)⟩
      · exact .inr ⟨h4, id, a1, a2, fun ty nm hq => by rw [h2]; exact (h3 ty nm hq).trans (h5 ty nm hq)⟩
    · exact .inr ⟨fun ha => h1 (ha.mono h.1), h2⟩

theorem evSame_regOp {op : RegOp} (hn : ∀ a k id a1 a2, op ≠ .new a k id a1 a2) (he : ∀ q a e, op = .addEvent q a e → ¬ Q e.typ) : PRel (EvSame E Q) (regOp op) := fun _ =>
  PPost.regOp fun _ _ h => evSame_of (Nat.le_refl _) fun o => exec_sameEv h hn he o

theorem evSame_core (E : PRead) (Q : EType → Prop) : PCore E (EvSame E Q) (fun _ => True) (fun ty => ¬ Q ty) where
  toPPre := evSame_pre E Q
  event o e hV := PRel.bind (evSame_pre E Q) (fun _ => PPost.alloc (evSame_same rfl (Nat.le_succ _))) fun _ => evSame_regOp (by simp) (by
    rintro q a e' h; cases h; exact hV)
  props _ _ _ _ _ _ := evSame_same rfl (Nat.le_refl _)
  par _ _ _ := evSame_same rfl (Nat.le_refl _)

theorem evSame_atom (E : PRead) (Q : EType → Prop) : PAtom E (fun _ => True) (EvSame E Q) (fun _ => True) (fun ty => ¬ Q ty) where
  toPCore := evSame_core E Q
  conn _ _ := evSame_same rfl (Nat.le_refl _)
  pred _ _ _ := evSame_same rfl (Nat.le_refl _)
  names _ _ := trivial
  attr _ _ _ _ _ := evSame_same rfl (Nat.le_refl _)
  elt _ _ _ _ _ _ := evSame_same rfl (Nat.le_refl _)

theorem evSame_new (hinj : ∀ i j, E.addr i = E.addr j → i = j) (k : RKind) (id : String) : PRel (EvSame E Q) (newObject E k id) := by
  intro s
  unfold newObject
  refine PPost.bind' (PPost.alloc (PPost.bind' (PPost.alloc (PPost.bind' (PPost.alloc ?_)))))
  refine PPost.bind' (PPost.regOp fun b r h => PPost.pure' ⟨by show s.nalloc ≤ s.nalloc + 1 + 1 + 1; omega, ?_⟩)
  intro o x hx _
  have h' : s.reg.exec (.new (E.addr s.nalloc) k id (E.addr (s.nalloc + 1)) (E.addr (s.nalloc + 2))) = .ok (b, r) := h
  unfold Reg.exec at h'
  dsimp only at h'
  split at h'
  · simp only [Res.ok.injEq, Prod.mk.injEq] at h'; obtain ⟨-, rfl⟩ := h'; exact .inl (SameEv.refl Q _ o x hx)
  · simp only [Res.ok.injEq, Prod.mk.injEq] at h'; obtain ⟨-, rfl⟩ := h'
    have hx : upd s.reg.obj (E.addr s.nalloc) (some (newObj k id (E.addr (s.nalloc + 1)) (E.addr (s.nalloc + 2)))) o = some x := hx
    by_cases ho : o = E.addr s.nalloc
    · subst ho
      rw [upd_same] at hx
      cases hx
      refine .inr ⟨?_, id, E.addr (s.nalloc + 1), E.addr (s.nalloc + 2), fun ty nm _ => ?_⟩
      · rintro ⟨i, h1, h2⟩
        have := hinj _ _ h2
        omega
      · have : (newObj k id (E.addr (s.nalloc + 1)) (E.addr (s.nalloc + 2))).kind = k := (newObj_fields _ _ _ _).2.1
        rw [this]
    · rw [upd_ne _ _ ho] at hx
      exact .inl (SameEv.refl Q _ o x hx)

theorem evSame_refer (f : PS → List (String × Nat)) : PRel (EvSame E Q) (PM.modify fun s => { s with refer := f s }) := fun _ =>
  PPost.modify (evSame_same rfl (Nat.le_refl _))
theorem evSame_del (tmp : Nat) : PRel (EvSame E Q) (PM.modify fun s => { s with reg := { s.reg with obj := upd s.reg.obj tmp none } }) := fun _ =>
  PPost.modify (evSame_of (Nat.le_refl _) fun _ => SameEv.upd (by rintro z ⟨⟩))
theorem evSame_pushObj (o : Nat) : PRel (EvSame E Q) (pushObj o) := fun _ => PPost.modify (evSame_same rfl (Nat.le_refl _))

/-- The frame prover for events. -/
macro "evs" E:term:max Q:term:max : tactic => `(tactic| repeat' (with_reducible first
  | exact evSame_new ‹_› _ _
  | exact evSame_regOp (by simp) (by simp)
  | exact evSame_refer _
  | exact evSame_del _
  | exact evSame_pushObj _
  | exact PRel.setProp (evSame_core $E $Q) _ _ _ trivial
  | prel1 (evSame_core $E $Q)))

theorem evSame_push (hinj : ∀ i j, E.addr i = E.addr j → i = j) (proc : Xml → PM Unit) (f : Push) (k : Nat) (h : f ≠ .importBase) (h1 : f ≠ .area) (h2 : f ≠ .property) :
    PRel (EvSame E Q) (push E proc f k) := by
  by_cases hr : f = .region
  · subst hr; exact PRel.pushRegion (evSame_atom E Q) E k fun _ _ _ => evSame_same rfl (Nat.le_refl _)
  by_cases h4 : f = .context
  · subst h4
    show PRel _ (pushContext E k)
    unfold pushContext; evs E Q
  by_cases h5 : f = .switch
  · subst h5
    show PRel _ (pushSwitch E k)
    unfold pushSwitch; evs E Q
  by_cases h6 : f = .media
  · subst h6
    show PRel _ (pushMedia E k)
    unfold pushMedia pushRefer pushSettings pushPlainMedia; evs E Q
  by_cases h7 : f = .ncl
  · subst h7
    show PRel _ (pushNcl k)
    unfold pushNcl; evs E Q
  exact PRel.pushC (evSame_atom E Q) proc f k hr h h7 h4 h5 h6 (fun _ _ => trivial) (fun _ _ => trivial) ⟨fun h => absurd h h1, fun h => absurd h h2⟩

/-- The object `o` is still a switch. -/
def KeepSw (E : PRead) (Q : EType → Prop) (o : Nat) (s t : PS) : Prop := EvSame E Q s t ∧
  ((∃ y, s.reg.obj o = some y ∧ y.kind = .switch) → ∃ y, t.reg.obj o = some y ∧ y.kind = .switch)

theorem keepSw_same {o : Nat} {s t : PS} (h1 : t.reg = s.reg) (h2 : s.nalloc ≤ t.nalloc) : KeepSw E Q o s t := ⟨evSame_same h1 h2, fun h => by rw [h1]; exact h⟩

theorem keepSw_atom (E : PRead) (Q : EType → Prop) (o : Nat) : PAtom E (fun _ => True) (KeepSw E Q o) (fun _ => True) (fun _ => False) where
  refl _ := keepSw_same rfl (Nat.le_refl _)
  trans h h' := ⟨(evSame_pre E Q).trans h.1 h'.1, fun hs => h'.2 (h.2 hs)⟩
  event _ _ h := h.elim
  props _ _ _ _ _ _ := keepSw_same rfl (Nat.le_refl _)
  par _ _ _ := keepSw_same rfl (Nat.le_refl _)
  conn _ _ := keepSw_same rfl (Nat.le_refl _)
  pred _ _ _ := keepSw_same rfl (Nat.le_refl _)
  names _ _ := trivial
  attr _ _ _ _ _ := keepSw_same rfl (Nat.le_refl _)
  elt _ _ _ _ _ _ := keepSw_same rfl (Nat.le_refl _)

/-- An event of a switch. -/
theorem keepSw_event (o : Nat) (e : REv) (s : PS) (hs : ∃ y, s.reg.obj o = some y ∧ y.kind = .switch) : PPost (addEvent E o e) (fun _ t => KeepSw E Q o s t) s := by
  obtain ⟨y, hy, hk⟩ := hs
  unfold addEvent
  refine PPost.bind' (PPost.alloc (PPost.regOp fun b r h => ?_))
  unfold Reg.exec at h
  dsimp only at h
  rw [hy] at h
  simp only [Res.ok.injEq, Prod.mk.injEq] at h
  obtain ⟨-, rfl⟩ := h
  obtain ⟨evs, hs⟩ := addEvent_shape y (E.addr s.nalloc) e
  refine ⟨⟨Nat.le_succ _, fun q x hx hkx => ?_⟩, fun _ => ⟨_, upd_same _ _ _, by rw [hs]; exact hk⟩⟩
  have hx : upd s.reg.obj o (some (y.addEvent (E.addr s.nalloc) e)) q = some x := hx
  by_cases ho : q = o
  · subst ho
    rw [upd_same] at hx
    cases hx
    rw [hs] at hkx
    exact absurd hk hkx
  · rw [upd_ne _ _ ho] at hx
    exact .inl (SameEv.refl Q _ q x hx)

theorem keepSw_port (n o : Nat) (id : String) (s : PS) (hs : ∃ y, s.reg.obj o = some y ∧ y.kind = .switch) : PPost (resolveSwitchPort E n o id) (fun _ t => KeepSw E Q o s t) s := by
  have hp := (keepSw_atom E Q o).toPPre
  unfold resolveSwitchPort
  refine PPost.bind (PPost.get (PPost.bind (PPost.some! fun j hj => PPost.bind ((PRel.resolveAll (keepSw_atom E Q o).toPCore n o _ s).mono fun evs s1 h1 => ?_))))
  refine PPost.bind ((keepSw_event (Q := Q) o _ s1 (h1.2 hs)).mono fun _ s2 h2 => PPost.modify ?_)
  exact hp.trans h1 (hp.trans h2 (keepSw_same rfl (Nat.le_refl _)))

theorem evSame_pop (n : Nat) (f : Pop) (k : Nat) (h : f ≠ .ncl) : PRel (EvSame E Q) (pop E n f k) := by
  by_cases hr : f = .region
  · subst hr; exact PRel.popRegion (evSame_atom E Q) fun _ _ _ => evSame_same rfl (Nat.le_refl _)
  by_cases hs : f = .switch
  · subst hs
    show PRel _ (popSwitch E n k)
    have hp := evSame_pre E Q
    intro s
    unfold popSwitch
    refine PPost.bind (PPost.peekObj fun o l ho => PPost.bind (PPost.object fun y hy => ?_))
    split
    · next hk =>
      have hA := keepSw_atom E Q o
      have hq := hA.toPPre
      refine PPost.bind (PPost.get (PPost.bind ((PRel.resolveRules hA.toPCore o _ s).mono fun rs s1 h1 => PPost.bind (PPost.modify (PPost.bind ?_)))))
      refine (PPost.forEach (I := fun t => KeepSw E Q o s t) (by exact hq.trans h1 (keepSw_same rfl (Nat.le_refl _))) fun id _ v hv => ?_).mono fun _ v hv => ?_
      · exact (keepSw_port n o id v (hv.2 ⟨y, hy, hk⟩)).mono fun _ w hw => hq.trans hv hw
      · exact PPost.modify (hq.trans hv (keepSw_same rfl (Nat.le_refl _))).1
    · exact PPost.abort
  · exact PRel.pop (evSame_atom E Q) (fun _ _ => evSame_same rfl (Nat.le_refl _)) n f k (fun _ _ _ => evSame_same rfl (Nat.le_refl _))
      (fun _ _ _ _ => evSame_same rfl (Nat.le_refl _)) (fun _ _ _ => evSame_same rfl (Nat.le_refl _)) hr (fun _ _ => trivial) ⟨fun h => absurd h hs, fun h' => absurd h' h⟩

end

/-! ## The events that elements give -/

/-- The time that an attribute gives; `d` if there is no attribute; none if it is not a time. -/
def timeGiven (E : PRead) (v : Option String) (d : Nat) : Option Nat :=
  match v with
  | none => some d
  | some w => match parseTime E.F w.toList with
    | .ok t => t
    | _ => none

/-- The event of an area element with attributes `a`: a label, or an interval; none if the element is not well formed. -/
def areaEvent (E : PRead) (a : String → Option String) : Option REv :=
  match a "id" with
  | none => none
  | some id =>
    if (a "label").getD "" ≠ "" then
      if (a "begin").isSome ∨ (a "end").isSome then none else some { typ := .presentation, id := id, label := (a "label").getD "" }
    else match timeGiven E (a "begin") 0, timeGiven E (a "end") NONE with
      | some b, some e => some { typ := .presentation, id := id, beg := b, fin := e }
      | _, _ => none

/-- The event that the element `n` gives to the object `o`: that of an area or property in an element that stands for `o`. -/
def adds (E : PRead) (f : Nat → Nat) (o : Nat) (n : Note) : Option REv :=
  if n.parent.map f = some o then
    if n.tag = "area" then areaEvent E n.get
    else if n.tag = "property" then (n.get "name").map fun nm => { typ := .attribution, id := nm }
    else none
  else none

/-- The events of a new object. -/
def baseEvents (k : RKind) : List REv :=
  { typ := .presentation, id := "@lambda" } :: if k = .settings then [{ typ := .attribution, id := "service.currentFocus" }] else []

/-- The first event of a type and identifier. -/
def pick (l : List REv) (ty : EType) (nm : String) : Option REv := l.find? fun e => e.typ == ty && e.id == nm

theorem pick_append (l l' : List REv) (ty : EType) (nm : String) : pick (l ++ l') ty nm = (pick l ty nm).or (pick l' ty nm) := List.find?_append
theorem pick_one (e : REv) (ty : EType) (nm : String) : pick [e] ty nm = if e.typ = ty ∧ e.id = nm then some e else none := by
  unfold pick
  by_cases h : e.typ = ty ∧ e.id = nm
  · rw [if_pos h, List.find?_cons_of_pos (by simpa using h)]
  · rw [if_neg h, List.find?_cons_of_neg (by simpa using h)]; rfl

theorem newObj_gives (k : RKind) (id : String) (a1 a2 : Nat) (ty : EType) (nm : String) : ((newObj k id a1 a2).getEvent ty nm).map (·.2) = pick (baseEvents k) ty nm := by
  unfold newObj baseEvents
  dsimp only
  rw [show ∀ (a : REv) l, a :: l = [a] ++ l from fun _ _ => rfl, pick_append, pick_one]
  split
  · rw [addEvent_gives, addEvent_gives, pick_one]; rfl
  · rw [addEvent_gives, show pick [] ty nm = none from rfl, Option.or_none]; rfl

/-- Objects that are not switches have the events of their constructor and those that elements give. -/
structure EventK (E : PRead) (f : Nat → Nat) (g : List Note) (s : PS) : Prop where
  val : ∀ o x, s.reg.obj o = some x → x.kind ≠ .switch → ∀ ty nm, (x.getEvent ty nm).map (·.2) = pick (baseEvents x.kind ++ g.filterMap (adds E f o)) ty nm
  al : ∀ (j q : Nat) n, g[j]? = some n → n.tag = "area" ∨ n.tag = "property" → n.parent = some q → Alloc E s (f q)
  ok : ∀ (j : Nat) n, g[j]? = some n → n.tag = "area" → (areaEvent E n.get).isSome = true

theorem adds_old {E : PRead} {f f' : Nat → Nat} {g : List Note} (hf : ∀ k, k < g.length → f' k = f k)
    (hp : ∀ (j : Nat) n p, g[j]? = some n → n.parent = some p → p < j) (o : Nat) : g.filterMap (adds E f' o) = g.filterMap (adds E f o) := by
  have key : ∀ l : List Note, (∀ p ∈ l, adds E f' o p = adds E f o p) → l.filterMap (adds E f' o) = l.filterMap (adds E f o) := by
    intro l
    induction l with
    | nil => intro _; rfl
    | cons a l ih =>
      intro h
      rw [List.filterMap_cons, List.filterMap_cons, h a (by simp), ih fun p hp => h p (by simp [hp])]
  refine key _ fun n hm => ?_
  obtain ⟨j, hlt, hj⟩ := List.getElem_of_mem hm
  have hj : g[j]? = some n := by rw [List.getElem?_eq_getElem hlt, hj]
  have hpm : n.parent.map f' = n.parent.map f := by
    cases hc : n.parent with
    | none => rfl
    | some p => have := hp j n p hj hc; rw [Option.map_some, Option.map_some, hf p (by omega)]
  unfold adds
  rw [hpm]

theorem adds_none {E : PRead} {f : Nat → Nat} {o : Nat} {n : Note} (h1 : n.tag ≠ "area") (h2 : n.tag ≠ "property") : adds E f o n = none := by
  unfold adds; rw [if_neg h1, if_neg h2]; split <;> rfl

/-- What is known after a function that adds no event. -/
theorem EventK.frame {E : PRead} {f : Nat → Nat} {g : List Note} {s t : PS} (hk : EventK E f g s) (h : EvSame E (fun _ => True) s t) : EventK E f g t where
  val o x hx hkx ty nm := by
    rcases h.2 o x hx hkx with ⟨y, h1, h2, h3⟩ | ⟨h1, id, a1, a2, h2⟩
    · rw [h3 ty nm trivial, h2]; exact hk.val o y h1 (by rw [← h2]; exact hkx) ty nm
    · rw [h2 ty nm trivial, newObj_gives]
      have : g.filterMap (adds E f o) = [] := by
        refine filterMap_none fun n hm => ?_
        obtain ⟨j, hlt, hj⟩ := List.getElem_of_mem hm
        have hj : g[j]? = some n := by rw [List.getElem?_eq_getElem hlt, hj]
        by_cases hp : n.parent.map f = some o
        · obtain ⟨q, hq, rfl⟩ := Option.map_eq_some_iff.1 hp
          exact adds_none (fun ht => h1 (hk.al j q n hj (.inl ht) hq)) (fun ht => h1 (hk.al j q n hj (.inr ht) hq))
        · unfold adds; rw [if_neg hp]
      rw [this, List.append_nil]
  al j q n h1 h2 h3 := (hk.al j q n h1 h2 h3).mono h.1
  ok := hk.ok

theorem timeAttr_post {E : PRead} {k : Nat} {name : String} {d : Nat} {s : PS} : PPost (timeAttr E k name d) (fun v t => t = s ∧ timeGiven E (s.attr k name) d = some v) s := by
  unfold timeAttr
  refine PPost.bind (PPost.get ?_)
  cases h : s.attr k name with
  | none => exact PPost.pure ⟨rfl, rfl⟩
  | some v =>
    dsimp only
    unfold timeGiven
    dsimp only
    cases hp : parseTime E.F v.toList with
    | ok r =>
      intro a t ht
      cases r with
      | none => cases ht
      | some w =>
        have : Res.ok (some (w, s)) = Res.ok (some (a, t)) := ht
        simp only [Res.ok.injEq, Option.some.injEq, Prod.mk.injEq] at this
        exact ⟨this.2.symm, by rw [this.1]⟩
    | abort => intro a t ht; cases ht
    | ub => intro a t ht; cases ht
    | fuel => intro a t ht; cases ht

/-- What the addition of an event does. -/
def Added (E : PRead) (o : Nat) (e : REv) (s t : PS) : Prop := s.nalloc ≤ t.nalloc ∧ ∃ x a, s.reg.obj o = some x ∧ t.reg.obj = upd s.reg.obj o (some (x.addEvent a e))

theorem addEvent_added {E : PRead} {o : Nat} {e : REv} {s : PS} : PPost (addEvent E o e) (fun _ t => Added E o e s t) s := by
  unfold addEvent
  refine PPost.bind' (PPost.alloc (PPost.regOp fun b r h => ?_))
  unfold Reg.exec at h
  dsimp only at h
  split at h
  · cases h
  next x hx =>
  simp only [Res.ok.injEq, Prod.mk.injEq] at h
  obtain ⟨-, rfl⟩ := h
  exact ⟨Nat.le_succ _, x, _, hx, rfl⟩

theorem pushArea_post {E : PRead} {s : PS} (k : Nat) : PPost (pushArea E k) (fun _ t => ∃ o l e, s.objs = o :: l ∧ areaEvent E (s.attr k) = some e ∧ Added E o e s t) s := by
  unfold pushArea
  refine PPost.bind (PPost.peekObj fun o l ho => PPost.bind (PPost.object fun x hx => ?_))
  split
  · exact PPost.abort
  · refine PPost.bind (PPost.get (PPost.bind (PPost.attr! fun id hid => ?_)))
    dsimp only
    unfold areaEvent
    rw [hid]
    dsimp only
    split
    · split
      · exact PPost.err
      · exact addEvent_added.mono fun _ t h => ⟨o, l, _, ho, rfl, h⟩
    · refine PPost.bind (timeAttr_post.mono ?_)
      rintro b _ ⟨rfl, hb⟩
      refine PPost.bind (timeAttr_post.mono ?_)
      rintro e _ ⟨rfl, he⟩
      rw [hb, he]
      exact addEvent_added.mono fun _ t h => ⟨o, l, _, ho, rfl, h⟩

theorem pushProperty_added {E : PRead} {s : PS} (k : Nat) : PPost (pushProperty E k) (fun _ t => ∃ o l nm, s.objs = o :: l ∧ s.attr k "name" = some nm ∧
    Added E o { typ := .attribution, id := nm } s t) s := by
  unfold pushProperty
  refine PPost.bind (PPost.peekObj fun o l ho => PPost.bind (PPost.attr! fun nm hn => PPost.bind (PPost.get ?_)))
  dsimp only
  refine PPost.bind (addEvent_added.mono fun _ t h => ?_)
  split
  · unfold setProp
    exact PPost.bind (PPost.object fun y _ => PPost.modify ⟨o, l, nm, ho, hn, h⟩)
  · exact PPost.pure ⟨o, l, nm, ho, hn, h⟩

theorem table_area : ∀ e ∈ syntaxTable, (e.push = .area ↔ e.tag = "area") ∧ (e.tag = "area" → e.parents = ["media"]) := by decide +kernel

theorem eventK_extra {E : PRead} (hinj : ∀ i j, E.addr i = E.addr j → i = j) (scr : Rect) (z0 : Nat) : Extra E scr z0 (fun f g _ s => EventK E f g s) where
  same f g S s y al ca hU h := ⟨h.val, h.al, h.ok⟩
  imp f g S s s2 par pt x e r y nt hn ht hk hp := by
    obtain ⟨b1, b2, b3, b4, b5, b6, b7, b8, b9, b10, b11, b12, b13⟩ := ht.push_base hn
    have htg : nt.tag = "importBase" := by rw [b2, ← b4]; exact (table_objs e b3).2.2.2.2.2.2.1.1 hp
    refine ⟨fun o x hx hkx ty nm => ?_, fun j q n hj h1 h2 => ?_, fun j n hj h1 => ?_⟩
    · rw [List.filterMap_append, List.filterMap_cons_none (adds_none (by rw [htg]; decide) (by rw [htg]; decide)), List.filterMap_nil, List.append_nil]
      rw [b10] at hx
      exact hk.val o x hx hkx ty nm
    · rcases append_key hj with ⟨-, hj⟩ | ⟨-, rfl⟩
      · unfold Alloc; rw [b13]; exact hk.al j q n hj h1 h2
      · rw [htg] at h1; exact absurd h1 (by decide)
    · rcases append_key hj with ⟨-, hj⟩ | ⟨-, rfl⟩
      · exact hk.ok j n hj h1
      · rw [htg] at h1; exact absurd h1 (by decide)
  push f f' g S s s2 par pt x e r y nt proc a t hn ht hk himp hrun hpu hj hf ht' := by
    obtain ⟨b1, b2, b3, b4, b5, b6, b7, b8, b9, b10, b11, b12, b13⟩ := ht.push_base hn
    have hat : s2.attr s.nelt = nt.get := funext b8
    have hpar : ∀ (j : Nat) n p, g[j]? = some n → n.parent = some p → p < j := fun j n p hj hp => ((hn.j.ok j n hj).parent p hp).1
    have hk2 : EventK E f' g s2 := by
      refine ⟨fun o x hx hkx ty nm => ?_, fun j q n hj h1 h2 => ?_, hk.ok⟩
      · rw [adds_old hf hpar]
        rw [b10] at hx
        exact hk.val o x hx hkx ty nm
      · have hlt := (List.getElem?_eq_some_iff.1 hj).1
        have := hpar j n q hj h2
        rw [hf q (by omega)]
        unfold Alloc; rw [b13]; exact hk.al j q n hj h1 h2
    by_cases hev : nt.tag = "area" ∨ nt.tag = "property"
    · have hel : e.parents = ["body", "context", "media"] ∨ e.parents = ["media"] := by
        rcases hev with h | h
        · exact .inr ((table_area e b3).2 (b4.trans (b2.symm.trans h)))
        · exact .inl ((table_props e b3).2 (b4.trans (b2.symm.trans h)))
      have hsub : ∀ q ∈ e.parents, q = "body" ∨ q = "context" ∨ q = "media" := by
        intro q hq
        rcases hel with h | h <;> rw [h] at hq
        · simpa using hq
        · exact .inr (.inr (by simpa using hq))
      obtain ⟨o, l, ev, h1, hadd, h3⟩ : ∃ o l ev, s2.objs = o :: l ∧ (∀ q, adds E f' q nt = if nt.parent.map f' = some q then some ev else none) ∧ Added E o ev s2 t := by
        rcases hev with h | h
        · rw [(table_area e b3).1.2 (b4.trans (b2.symm.trans h))] at hrun
          obtain ⟨o, l, ev, h1, h2, h3⟩ := pushArea_post s.nelt a t hrun
          rw [hat] at h2
          exact ⟨o, l, ev, h1, fun q => by unfold adds; rw [if_pos h, h2], h3⟩
        · rw [(table_props e b3).1.2 (b4.trans (b2.symm.trans h))] at hrun
          obtain ⟨o, l, nm, h1, h2, h3⟩ := pushProperty_added s.nelt a t hrun
          rw [b8] at h2
          have hna : ¬ nt.tag = "area" := by rw [h]; decide
          refine ⟨o, l, _, h1, fun q => ?_, h3⟩
          unfold adds; rw [if_neg hna, if_pos h, h2]; rfl
      obtain ⟨p, hp, hfo⟩ : ∃ p, nt.parent = some p ∧ f' p = o := by
        cases hp : par with
        | none =>
          exfalso
          obtain ⟨hsyn, -, hwf⟩ := checkNode_ok hn.check
          obtain ⟨e', he', het', hpo, -⟩ := (hwf rfl).1.entry
          obtain rfl : e' = e := table_tag_inj e' e he' b3 (Eq.trans het' b4.symm)
          obtain ⟨q, hq, hq2⟩ := hpo (by rcases hel with h | h <;> rw [h] <;> simp)
          have hq2 : pt = some q := hq2
          have hq := hsub q hq
          rcases hn.top hp with ⟨h, hg⟩ | ⟨h, -⟩
          · rw [h] at hq2; cases hq2
          · rw [h] at hq2; cases hq2; revert hq; decide
        | some p =>
          obtain ⟨g1, g2, m, g3, g4⟩ := hn.up p hp
          refine ⟨p, by rw [hn.parent, hp], ?_⟩
          rw [hf p g1]
          rw [b11, ht.stack] at h1
          cases S with
          | nil => simp at g2
          | cons p' S' =>
            obtain rfl : p' = p := by simpa using g2
            have ho : objAt g p' = true := by
              unfold objAt; rw [g3]
              rcases hsub _ g4 with h | h | h <;> dsimp only <;> rw [h] <;> decide
            rw [List.filter_cons_of_pos ho, List.map_cons] at h1
            exact (List.cons.inj h1).1
      obtain ⟨hna, X, A, hX, hT⟩ := h3
      refine ⟨fun q x hx hkx ty nm => ?_, fun j q n hj g1 g2 => ?_, fun j n hj g1 => ?_⟩
      · have hfm : (g ++ [nt]).filterMap (adds E f' q) = g.filterMap (adds E f' q) ++ if o = q then [ev] else [] := by
          rw [List.filterMap_append]
          congr 1
          have := hadd q
          rw [hp, Option.map_some, hfo] at this
          by_cases ho : o = q
          · rw [if_pos ho]
            rw [if_pos (congrArg some ho)] at this
            rw [List.filterMap_cons_some this]; rfl
          · rw [if_neg ho]
            rw [if_neg (fun h => ho (Option.some.inj h))] at this
            rw [List.filterMap_cons_none this]; rfl
        rw [hfm]
        rw [hT] at hx
        by_cases ho : q = o
        · subst ho
          rw [upd_same] at hx
          cases hx
          obtain ⟨evs, hs⟩ := addEvent_shape X A ev
          have hkd : (X.addEvent A ev).kind = X.kind := by rw [hs]
          rw [hkd] at hkx ⊢
          rw [addEvent_gives, hk2.val q X hX hkx, if_pos rfl, ← List.append_assoc, pick_append _ [ev], pick_one]
        · rw [upd_ne _ _ ho] at hx
          rw [if_neg (fun h => ho h.symm), List.append_nil]
          exact hk2.val q x hx hkx ty nm
      · rcases append_key hj with ⟨-, hj⟩ | ⟨-, rfl⟩
        · exact (hk2.al j q n hj g1 g2).mono hna
        · rw [hp] at g2; cases g2
          rw [hfo]
          obtain ⟨i, h6, h7⟩ := b5.objAddr o X hX
          exact ⟨i, Nat.lt_of_lt_of_le h6 hna, h7⟩
      · rcases append_key hj with ⟨-, hj⟩ | ⟨-, rfl⟩
        · exact hk.ok j n hj g1
        · have := hadd o
          rw [if_pos (by rw [hp, Option.map_some, hfo])] at this
          unfold adds at this
          rw [if_pos (by rw [hp, Option.map_some, hfo]), if_pos g1] at this
          rw [this]; rfl
    · have hev := not_or.1 hev
      have hfr := hk2.frame (evSame_push hinj proc e.push s.nelt himp (fun h => hev.1 (b2.trans (b4.symm.trans ((table_area e b3).1.1 h))))
        (fun h => hev.2 (b2.trans (b4.symm.trans ((table_props e b3).1.1 h)))) s2 a t hrun)
      refine ⟨fun q x hx hkx ty nm => ?_, fun j q n hj g1 g2 => ?_, fun j n hj g1 => ?_⟩
      · rw [List.filterMap_append, List.filterMap_cons_none (adds_none hev.1 hev.2), List.filterMap_nil, List.append_nil]
        exact hfr.val q x hx hkx ty nm
      · rcases append_key hj with ⟨-, hj⟩ | ⟨-, rfl⟩
        · exact hfr.al j q n hj g1 g2
        · exact absurd g1 (not_or.2 hev)
      · rcases append_key hj with ⟨-, hj⟩ | ⟨-, rfl⟩
        · exact hfr.ok j n hj g1
        · exact absurd g1 hev.1
  pop f g O S s k nt e n a t hj hpi ht hk h1 h2 h3 h4 h5 ht' := hk.frame (evSame_pop n e.pop k h3 s a t h4)

theorem eventK_init {E : PRead} (hinj : ∀ i j, E.addr i = E.addr j → i = j) {f : Nat → Nat} {W H : Int} {z : Nat} {reg : Reg} {n : Nat}
    (h : newDoc (E.addr 0) (E.addr 1) (E.addr 2) (E.addr 3) (E.addr 4) = .ok reg) : EventK E f [] (PS.init W H z reg n) := by
  obtain ⟨ho, -⟩ := newDoc_has (fun hc => absurd (hinj _ _ hc) (by decide)) h
  refine ⟨fun o x hx _ ty nm => ?_, fun j q n h => by simp at h, fun j n h => by simp at h⟩
  have key : ∀ k id a1 a2, x.kind = k → x.events = (newObj k id a1 a2).events → (x.getEvent ty nm).map (·.2) = pick (baseEvents x.kind ++ [].filterMap (adds E f o)) ty nm := by
    intro k id a1 a2 h1 h2
    rw [List.filterMap_nil, List.append_nil, h1, ← newObj_gives k id a1 a2]
    unfold RObj.getEvent
    rw [h2]
  rcases (ho o x).1 hx with ⟨-, rfl⟩ | ⟨-, rfl⟩
  · exact key .settings "__settings__" (E.addr 3) (E.addr 4) (newObj_fields _ _ _ _).2.1 rfl
  · exact key .context "__root__" (E.addr 2) 0 (newObj_fields _ _ _ _).2.1 rfl


/-! ## The objects of media elements -/

/-- Media elements that were left have media objects. -/
def MediaK (E : PRead) (f : Nat → Nat) (g : List Note) (S : List Nat) (s : PS) : Prop := ∀ (q : Nat) n, g[q]? = some n → n.tag = "media" → q ∉ S →
  Alloc E s (f q) ∧ ∀ x, s.reg.obj (f q) = some x → x.kind = .media ∨ x.kind = .settings

theorem MediaK.frame {E : PRead} {f f' : Nat → Nat} {g : List Note} {S : List Nat} {s t : PS} (h : MediaK E f g S s) (hf : ∀ k, k < g.length → f' k = f k)
    (ht : EvKeep E s t) : MediaK E f' g S t := by
  intro q n hq htg hS
  obtain ⟨h1, h2⟩ := h q n hq htg hS
  rw [hf q (getElem?_lt hq)]
  refine ⟨h1.mono ht.1, fun x hx => ?_⟩
  obtain ⟨y, h3, h4⟩ := ht.2.1 _ h1 x hx
  rw [h4.kind]; exact h2 y h3

theorem MediaK.more {E : PRead} {f : Nat → Nat} {g : List Note} {S : List Nat} {s : PS} {nt : Note} {k : Nat} (h : MediaK E f g S s) (hk : k = g.length) : MediaK E f (g ++ [nt]) (k :: S) s := by
  intro q n hq htg hS
  rcases append_key hq with ⟨-, hq⟩ | ⟨h1, -⟩
  · exact h q n hq htg fun hc => hS (by simp [hc])
  · exact absurd (by simp [h1, hk]) hS

theorem table_media : ∀ e ∈ syntaxTable, (e.tag = "media" → e.pop = .media) := by decide +kernel

theorem mediaK_extra {E : PRead} (hinj : ∀ i j, E.addr i = E.addr j → i = j) (scr : Rect) (z0 : Nat) : Extra E scr z0 (fun f g S s => MediaK E f g S s) where
  same f g S s y al ca hU h := h
  imp f g S s s2 par pt x e r y nt hn ht hk hp := by
    obtain ⟨b1, b2, b3, b4, b5, b6, b7, b8, b9, b10, b11, b12, b13⟩ := ht.push_base hn
    exact (hk.frame (fun _ _ => rfl) (evKeep_same b10 (Nat.le_of_eq b13.symm))).more b1
  push f f' g S s s2 par pt x e r y nt proc a t hn ht hk himp hrun hpu hj hf ht' := by
    obtain ⟨b1, b2, b3, b4, b5, b6, b7, b8, b9, b10, b11, b12, b13⟩ := ht.push_base hn
    exact (hk.frame hf ((evKeep_pre E).trans (evKeep_same b10 (Nat.le_of_eq b13.symm)) (evKeep_push hinj proc e.push s.nelt himp s2 a t hrun))).more b1
  pop f g O S s k nt e n a t hj hpi ht hk h1 h2 h3 h4 h5 ht' := by
    have hev := evKeep_pop n e.pop k s a t h4
    have hfr := hk.frame (fun _ _ => rfl) hev
    intro q m hq htg hS
    by_cases hqk : q = k
    · subst hqk
      rw [h1] at hq; cases hq
      obtain ⟨hm1, hm2⟩ := syntaxOf_mem h2
      rw [table_media e hm1 (hm2.trans htg)] at h4
      have key : PPost (popMedia) (fun _ _ => ∃ o l x, s.objs = o :: l ∧ s.reg.obj o = some x ∧ (x.kind = .media ∨ x.kind = .settings)) s := by
        unfold popMedia
        refine PPost.bind (PPost.peekObj fun o l ho => PPost.bind (PPost.object fun x hx => ?_))
        split
        · next hc => exact PPost.modify ⟨o, l, x, ho, hx, hc⟩
        · exact PPost.abort
      obtain ⟨o, l, x, g1, g2, g3⟩ := key a t h4
      rw [ht.stack, List.filter_cons_of_pos (by unfold objAt; rw [h1]; dsimp only; rw [htg]; decide), List.map_cons] at g1
      obtain rfl := (List.cons.inj g1).1
      have hal : Alloc E s (f q) := ht.world.objAddr _ x g2
      refine ⟨hal.mono hev.1, fun y hy => ?_⟩
      obtain ⟨w, h6, h7⟩ := hev.2.1 _ hal y hy
      rw [g2] at h6; cases h6
      rw [h7.kind]; exact g3
    · exact hfr q m hq htg (by simp [hqk, hS])

theorem mediaK_init {E : PRead} (f : Nat → Nat) (W H : Int) (z : Nat) (reg : Reg) (n : Nat) : MediaK E f [] [] (PS.init W H z reg n) := fun q n h => by simp at h

section
variable {E : PRead} {scr : Rect} {z : Nat} {x : Xml} {T u : PS} {ns : List Note} {f : Nat → Nat} {P : (Nat → Nat) → List Note → List Nat → PS → Prop} {m : Nat}

/-- What shares the object of a context element: nothing. -/
theorem context_alone (he : Ended P E scr z x T ns f m u) (hm : MediaK E f ns [0] u) {k q : Nat} {mk mq : Note} (hk : ns[k]? = some mk) (hkk : mk.kind = some .context)
    (hq : ns[q]? = some mq) (hqt : mq.tag = "body" ∨ mq.tag = "context" ∨ mq.tag = "media") : f q = f k ↔ q = k := by
  refine ⟨fun hf => ?_, fun h => by rw [h]⟩
  have w := he.treeK.world
  obtain ⟨i, p, g1, g2, g3⟩ := he.treeK.made k mk .context hk hkk
  rcases hqt with ht | ht | ht
  · exfalso
    have := he.treeK.top q mq hq (.inr ht)
    rw [hf] at this
    obtain ⟨X, ⟨-, a1⟩, -, -, a2⟩ := g3
    obtain ⟨Y, b1, b2, -⟩ := w.tree.root
    rw [← this, a1] at b1; cases b1
    rw [a2] at b2; cases b2
  · obtain ⟨i2, p2, a1, a2, a3⟩ := he.treeK.made q mq .context hq (by unfold Note.kind; rw [ht]; simp)
    rw [hf] at a3
    obtain rfl := (g3.uniq a3).1
    have hkt : mk.tag = "context" := by
      unfold Note.kind at hkk
      split at hkk
      · cases hkk
      · split at hkk
        · assumption
        · split at hkk <;> cases hkk
    exact he.tree.once q k mq mk i hq hk (by rw [ht]; decide) (by rw [hkt]; decide) a1 g1
  · exfalso
    obtain ⟨X, ⟨-, a1⟩, -, a2, -⟩ := g3
    have h0 : q ∉ [0] := by
      intro hc
      obtain rfl : q = 0 := by simpa using hc
      have hl := he.tree.laid
      cases hl with
      | cons h1 h2 h3 h4 h5 h6 =>
        simp only [List.getElem?_cons_zero, Option.some.injEq] at hq
        subst hq
        have : x.tag = "media" := by rw [← h2]; exact ht
        rw [he.tree.root] at this
        exact absurd this (by decide)
    have := (hm q mq hq ht h0).2 X (by rw [hf]; exact a1)
    rw [a2] at this
    exact absurd this (by decide)

/-- What stands for the body. -/
theorem body_alone (he : Ended P E scr z x T ns f m u) (hm : MediaK E f ns [0] u) {q : Nat} {mq : Note} (hq : ns[q]? = some mq)
    (hqt : mq.tag = "body" ∨ mq.tag = "context" ∨ mq.tag = "media") : f q = u.reg.root ↔ mq.tag = "body" := by
  refine ⟨fun hf => ?_, fun h => he.treeK.top q mq hq (.inr h)⟩
  have w := he.treeK.world
  obtain ⟨Y, b1, b2, -⟩ := w.tree.root
  rcases hqt with ht | ht | ht
  · exact ht
  · exfalso
    obtain ⟨i2, p2, a1, a2, X, ⟨-, a3⟩, -, -, a4⟩ := he.treeK.made q mq .context hq (by unfold Note.kind; rw [ht]; simp)
    rw [hf, b1] at a3; cases a3
    rw [a4] at b2; cases b2
  · exfalso
    have h0 : q ∉ [0] := by
      intro hc
      obtain rfl : q = 0 := by simpa using hc
      have hl := he.tree.laid
      cases hl with
      | cons h1 h2 h3 h4 h5 h6 =>
        simp only [List.getElem?_cons_zero, Option.some.injEq] at hq
        subst hq
        have : x.tag = "media" := by rw [← h2]; exact ht
        rw [he.tree.root] at this
        exact absurd this (by decide)
    have h1 := (hm q mq hq ht h0).2 Y (by rw [hf]; exact b1)
    exact w.rootKind b1 (by rcases h1 with h | h <;> rw [h] <;> simp [RKind.isMedia])

end
end Ginga
