import Verif.Proofs.LinkAll
/-!
# The properties of objects while elements are processed
-/
namespace Ginga

/-- No property is set. -/
def SameProps (s t : PS) : Prop := t.props = s.props

theorem sameProps_atomic : PAtomic (fun _ => True) SameProps (fun _ => False) where
  refl _ := rfl
  trans h1 h2 := h2.trans h1
  names _ _ := trivial
  attr _ _ _ _ _ := rfl
  elt _ _ _ _ _ _ := rfl
  reg _ _ _ _ _ := rfl
  del _ _ := rfl
  nalloc _ := rfl
  objs _ _ := rfl
  refer _ _ := rfl
  conn _ _ := rfl
  props _ _ _ _ _ h := h.elim
  par _ _ _ := rfl
  pred _ _ _ := rfl

theorem sameProps_push (E : PRead) (proc : Xml → PM Unit) (f : Push) (k : Nat) (h : f ≠ .importBase) (h1 : f ≠ .media) (h2 : f ≠ .property) :
    PRel SameProps (push E proc f k) := by
  by_cases hr : f = .region
  · subst hr; exact PRel.pushRegion (sameProps_atomic.atom E) E k fun _ _ _ => rfl
  · exact PRel.push sameProps_atomic E proc f k hr h (fun _ _ => trivial) (fun hc => absurd hc h1) (fun hc => absurd hc h2)

theorem sameProps_pop (E : PRead) (n : Nat) (f : Pop) (k : Nat) (h : f ≠ .ncl) : PRel SameProps (pop E n f k) := by
  by_cases hr : f = .region
  · subst hr; exact PRel.popRegion (sameProps_atomic.atom E) fun _ _ _ => rfl
  · exact PRel.pop (sameProps_atomic.atom E) sameProps_atomic.objs n f k (fun _ _ _ => rfl) (fun hc => absurd hc h) (fun _ _ _ => rfl) hr (fun hc => absurd hc h)

/-! ## Events are kept -/

/-- `o` was given by the allocator. -/
def Alloc (E : PRead) (s : PS) (o : Nat) : Prop := ∃ i, i < s.nalloc ∧ o = E.addr i

/-- The object `o`, if it is not dead, has the property event `nm`. -/
def HasAttr (r : Reg) (o : Nat) (nm : String) : Prop := ∀ x, r.obj o = some x → (x.getEvent .attribution nm).isSome = true

/-- A later version of an object. -/
structure Grown (x x' : RObj) : Prop where
  id : x'.id = x.id
  kind : x'.kind = x.kind
  keeps : ∀ ty nm p, x.getEvent ty nm = some p → x'.getEvent ty nm = some p

theorem Grown.event {x x' : RObj} (h : Grown x x') (ty : EType) (nm : String) (g : (x.getEvent ty nm).isSome = true) : (x'.getEvent ty nm).isSome = true := by
  obtain ⟨p, hp⟩ := Option.isSome_iff_exists.1 g
  rw [h.keeps ty nm p hp]; rfl

theorem Grown.refl (x : RObj) : Grown x x := ⟨rfl, rfl, fun _ _ _ h => h⟩
theorem Grown.trans {x y z : RObj} (h : Grown x y) (h' : Grown y z) : Grown x z := ⟨h'.id.trans h.id, h'.kind.trans h.kind, fun ty nm p g => h'.keeps ty nm p (h.keeps ty nm p g)⟩
theorem Grown.same {x x' : RObj} (h1 : x'.id = x.id) (h2 : x'.kind = x.kind) (h3 : x'.events = x.events) : Grown x x' :=
  ⟨h1, h2, fun ty nm p h => by unfold RObj.getEvent at h ⊢; rw [h3]; exact h⟩

/-- Every object of `r'` is a later version of one of `r`. -/
def Grows (r r' : Reg) (o : Nat) : Prop := ∀ x', r'.obj o = some x' → ∃ x, r.obj o = some x ∧ Grown x x'

/-- Objects keep their identifiers and events, and those that are dead are not made again. -/
def EvKeep (E : PRead) (s t : PS) : Prop := s.nalloc ≤ t.nalloc ∧ (∀ o, Alloc E s o → Grows s.reg t.reg o) ∧ t.reg.settings = s.reg.settings

theorem Grows.refl (r : Reg) (o : Nat) : Grows r r o := fun x h => ⟨x, h, .refl x⟩
theorem Grows.trans {r r' r'' : Reg} {o : Nat} (h : Grows r r' o) (h' : Grows r' r'' o) : Grows r r'' o := by
  intro x hx
  obtain ⟨y, h1, h2⟩ := h' x hx
  obtain ⟨z, h3, h4⟩ := h y h1
  exact ⟨z, h3, h4.trans h2⟩

theorem Grows.attr {r r' : Reg} {o : Nat} {nm : String} (h : Grows r r' o) (ha : HasAttr r o nm) : HasAttr r' o nm := by
  intro x hx
  obtain ⟨y, h1, h2⟩ := h x hx
  exact h2.event _ _ (ha y h1)

theorem Alloc.mono {E : PRead} {s t : PS} {o : Nat} (h : Alloc E s o) (hn : s.nalloc ≤ t.nalloc) : Alloc E t o := by
  obtain ⟨i, h1, h2⟩ := h
  exact ⟨i, Nat.lt_of_lt_of_le h1 hn, h2⟩

theorem evKeep_same {E : PRead} {s t : PS} (h1 : t.reg = s.reg) (h2 : s.nalloc ≤ t.nalloc) : EvKeep E s t := ⟨h2, fun o _ => by rw [h1]; exact .refl _ o, by rw [h1]⟩

theorem evKeep_pre (E : PRead) : PPre (EvKeep E) where
  refl _ := evKeep_same rfl (Nat.le_refl _)
  trans h h' := ⟨Nat.le_trans h.1 h'.1, fun o ha => (h.2.1 o ha).trans (h'.2.1 o (ha.mono h.1)), h'.2.2.trans h.2.2⟩

theorem Grows.upd {r : Reg} {o q : Nat} {y : Option RObj} (hy : ∀ z, y = some z → o = q → ∃ x, r.obj q = some x ∧ Grown x z) :
    ∀ x', upd r.obj q y o = some x' → ∃ x, r.obj o = some x ∧ Grown x x' := by
  intro x hx
  by_cases hq : o = q
  · subst hq; rw [upd_same] at hx; exact hy x hx rfl
  · rw [upd_ne _ _ hq] at hx; exact ⟨x, hx, .refl x⟩

/-- What one operation does to objects. -/
theorem exec_grows {r r' : Reg} {op : RegOp} {b : Bool} (h : r.exec op = .ok (b, r')) (hn : ∀ a k id a1 a2, op ≠ .new a k id a1 a2) (o : Nat) : Grows r r' o := by
  have hreg : ∀ {r : Reg} {q : Nat} {x : RObj}, (r.register q x).obj = Ginga.upd r.obj q (some { x with inDoc := true }) := by
    intro r q x
    unfold Reg.register
    split <;> rfl
  have hset : ∀ {r : Reg} {q : Nat} {x x' : RObj}, r.obj q = some x → x'.id = x.id → x'.kind = x.kind → x'.events = x.events →
      ∀ z, Ginga.upd r.obj q (some x') o = some z → ∃ x, r.obj o = some x ∧ Grown x z := by
    intro r q x x' hx h1 h2 h3
    refine Grows.upd ?_
    rintro z ⟨⟩ rfl
    exact ⟨x, hx, .same h1 h2 h3⟩
  have hao : ∀ {r r' : Reg} {q : Nat} {b : Bool}, r.addObject q = .ok (b, r') → Grows r r' o := by
    intro r r' q b h
    unfold Reg.addObject at h
    split at h
    · cases h
    next x hx =>
      split at h
      · simp only [Res.ok.injEq, Prod.mk.injEq] at h; obtain ⟨-, rfl⟩ := h; exact .refl _ o
      · split at h
        · cases h
        · split at h
          · cases h
          · simp only [Res.ok.injEq, Prod.mk.injEq] at h
            obtain ⟨-, rfl⟩ := h
            unfold Grows; rw [hreg]; exact hset hx rfl rfl rfl
  cases op with
  | new a k id a1 a2 => exact absurd rfl (hn _ _ _ _ _)
  | addObject q => exact hao h
  | addChild c q =>
    unfold Reg.exec Reg.addChild at h
    dsimp only at h
    split at h
    · next y x hy hx =>
      split at h
      · cases h
      · split at h
        · simp only [Res.ok.injEq, Prod.mk.injEq] at h; obtain ⟨-, rfl⟩ := h; exact .refl _ o
        · split at h
          · cases h
          · split at h
            · cases h
            · split at h
              · cases h
              · next x' hx' =>
                have h1 : Grows r (r.setObj c { y with children := sinsert q y.children }) o := hset hy rfl rfl rfl
                have h2 : Grows (r.setObj c { y with children := sinsert q y.children }) ((r.setObj c { y with children := sinsert q y.children }).setObj q { x' with parent := some c }) o :=
                  hset hx' rfl rfl rfl
                generalize hg : Reg.addObject _ _ = w at h
                cases w with
                | ok p =>
                  obtain ⟨b', r1⟩ := p
                  have h : (if b' then Res.ok (true, r1) else Res.abort) = Res.ok (b, r') := h
                  split at h
                  · simp only [Res.ok.injEq, Prod.mk.injEq] at h; obtain ⟨-, rfl⟩ := h
                    exact (h1.trans h2).trans (hao hg)
                  · cases h
                | abort => cases h
                | ub => cases h
                | fuel => cases h
    · cases h
  | addAlias q a c =>
    unfold Reg.exec Reg.addAlias at h
    dsimp only at h
    split at h
    · cases h
    · next x hx =>
      split at h
      · simp only [Res.ok.injEq, Prod.mk.injEq] at h; obtain ⟨-, rfl⟩ := h; exact .refl _ o
      · simp only [Res.ok.injEq, Prod.mk.injEq] at h; obtain ⟨-, rfl⟩ := h; exact hset hx rfl rfl rfl
  | addEvent q a e =>
    unfold Reg.exec at h
    dsimp only at h
    split at h
    · cases h
    · next x hx =>
      simp only [Res.ok.injEq, Prod.mk.injEq] at h; obtain ⟨-, rfl⟩ := h
      refine Grows.upd ?_
      rintro z ⟨⟩ rfl
      obtain ⟨f1, f2, f3, f4, f5, f6⟩ := addEvent_fields x a e
      refine ⟨x, hx, ?_, ?_, fun ty nm p h1 => ?_⟩
      · first | exact f1 | exact f2 | exact f3
      · first | exact f1 | exact f2 | exact f3
      · by_cases hc : e.typ = ty ∧ e.id = nm
        · unfold RObj.addEvent
          rw [hc.1, hc.2, h1]; exact h1
        · rw [addEvent_get hc]; exact h1

section
variable {E : PRead}

theorem evKeep_regOp {op : RegOp} (hn : ∀ a k id a1 a2, op ≠ .new a k id a1 a2) : PRel (EvKeep E) (regOp op) := fun _ =>
  PPost.regOp fun _ _ h => ⟨Nat.le_refl _, fun o _ => exec_grows h hn o, (exec_mono h).2.2⟩

theorem evKeep_core (E : PRead) : PCore E (EvKeep E) where
  toPPre := evKeep_pre E
  event o e _ := PRel.bind (evKeep_pre E) (fun _ => PPost.alloc (evKeep_same rfl (Nat.le_succ _))) fun _ => evKeep_regOp (by simp)
  props _ _ _ _ _ _ := evKeep_same rfl (Nat.le_refl _)
  par _ _ _ := evKeep_same rfl (Nat.le_refl _)

theorem evKeep_atom (E : PRead) : PAtom E (fun _ => True) (EvKeep E) where
  toPCore := evKeep_core E
  conn _ _ := evKeep_same rfl (Nat.le_refl _)
  pred _ _ _ := evKeep_same rfl (Nat.le_refl _)
  names _ _ := trivial
  attr _ _ _ _ _ := evKeep_same rfl (Nat.le_refl _)
  elt _ _ _ _ _ _ := evKeep_same rfl (Nat.le_refl _)

theorem evKeep_new (hinj : ∀ i j, E.addr i = E.addr j → i = j) (k : RKind) (id : String) : PRel (EvKeep E) (newObject E k id) := by
  intro s
  unfold newObject
  refine PPost.bind' (PPost.alloc (PPost.bind' (PPost.alloc (PPost.bind' (PPost.alloc ?_)))))
  refine PPost.bind' (PPost.regOp fun b r h => PPost.pure' ⟨by show s.nalloc ≤ s.nalloc + 1 + 1 + 1; omega, ?_, (exec_mono h).2.2⟩)
  intro o ha
  have h' : s.reg.exec (.new (E.addr s.nalloc) k id (E.addr (s.nalloc + 1)) (E.addr (s.nalloc + 2))) = .ok (b, r) := h
  unfold Reg.exec at h'
  dsimp only at h'
  split at h'
  · simp only [Res.ok.injEq, Prod.mk.injEq] at h'; obtain ⟨-, rfl⟩ := h'; exact .refl _ o
  · simp only [Res.ok.injEq, Prod.mk.injEq] at h'; obtain ⟨-, rfl⟩ := h'
    refine Grows.upd ?_
    rintro z - rfl
    obtain ⟨i, h1, h2⟩ := ha
    have := hinj _ _ h2
    omega

theorem evKeep_refer (f : PS → List (String × Nat)) : PRel (EvKeep E) (PM.modify fun s => { s with refer := f s }) := fun _ =>
  PPost.modify (evKeep_same rfl (Nat.le_refl _))
theorem evKeep_del (tmp : Nat) : PRel (EvKeep E) (PM.modify fun s => { s with reg := { s.reg with obj := upd s.reg.obj tmp none } }) := fun _ =>
  PPost.modify ⟨Nat.le_refl _, fun _ _ => Grows.upd (by rintro z ⟨⟩), rfl⟩
theorem evKeep_pushObj (o : Nat) : PRel (EvKeep E) (pushObj o) := fun _ => PPost.modify (evKeep_same rfl (Nat.le_refl _))

/-- The frame prover for property events. -/
macro "evk" E:term:max : tactic => `(tactic| repeat' (with_reducible first
  | exact evKeep_new ‹_› _ _
  | exact evKeep_regOp (by simp)
  | exact evKeep_refer _
  | exact evKeep_del _
  | exact evKeep_pushObj _
  | exact PRel.setProp (evKeep_core $E) _ _ _ trivial
  | prel1 (evKeep_core $E)))

theorem evKeep_push (hinj : ∀ i j, E.addr i = E.addr j → i = j) (proc : Xml → PM Unit) (f : Push) (k : Nat) (h : f ≠ .importBase) : PRel (EvKeep E) (push E proc f k) := by
  by_cases hr : f = .region
  · subst hr; exact PRel.pushRegion (evKeep_atom E) E k fun _ _ _ => evKeep_same rfl (Nat.le_refl _)
  by_cases h4 : f = .context
  · subst h4
    show PRel _ (pushContext E k)
    unfold pushContext; evk E
  by_cases h5 : f = .switch
  · subst h5
    show PRel _ (pushSwitch E k)
    unfold pushSwitch; evk E
  by_cases h6 : f = .media
  · subst h6
    show PRel _ (pushMedia E k)
    unfold pushMedia pushRefer pushSettings pushPlainMedia; evk E
  by_cases h7 : f = .ncl
  · subst h7
    show PRel _ (pushNcl k)
    unfold pushNcl; evk E
  exact PRel.pushC (evKeep_atom E) proc f k hr h h7 h4 h5 h6 (fun _ _ => trivial)

theorem evKeep_pop (n : Nat) (f : Pop) (k : Nat) : PRel (EvKeep E) (pop E n f k) := by
  by_cases hr : f = .region
  · subst hr; exact PRel.popRegion (evKeep_atom E) fun _ _ _ => evKeep_same rfl (Nat.le_refl _)
  · exact PRel.pop (evKeep_atom E) (fun _ _ => evKeep_same rfl (Nat.le_refl _)) n f k (fun _ _ _ => evKeep_same rfl (Nat.le_refl _))
      (fun _ _ _ _ => evKeep_same rfl (Nat.le_refl _)) (fun _ _ _ => evKeep_same rfl (Nat.le_refl _)) hr

end

/-! ## The values of properties -/

/-- The address that the attribute `src` stands for; none if it is not given. -/
def srcOf (E : PRead) (v : Option String) : String := if v.getD "" ≠ "" then E.srcUri (v.getD "") else v.getD ""

/-- The value that the element `p.1`, number `p.2`, gives to the property `nm` of the object `o`: that of a property element of an element that stands for `o`, or the
source and type of the media element for which `o` is made. -/
def sets (E : PRead) (f : Nat → Nat) (o : Nat) (nm : String) (p : Note × Nat) : Option String :=
  if p.1.tag = "property" then
    if p.1.parent.map f = some o ∧ p.1.get "name" = some nm ∧ (p.1.get "value").getD "" ≠ "" then p.1.get "value" else none
  else if p.1.kind = some .media ∧ f p.2 = o then
    if nm = "uri" then some (srcOf E (p.1.get "src"))
    else if nm = "type" then some ((p.1.get "type").getD "") else none
  else none

/-- The last value that an element gives. -/
def lastSet (E : PRead) (f : Nat → Nat) (g : List Note) (o : Nat) (nm : String) : Option String := (g.zipIdx.filterMap (sets E f o nm)).getLast?

theorem lastSet_append {E : PRead} {f f' : Nat → Nat} {g : List Note} {nt : Note} {o : Nat} {nm : String} (hf : ∀ k, k < g.length → f' k = f k)
    (hp : ∀ (j : Nat) n p, g[j]? = some n → n.parent = some p → p < j) :
    lastSet E f' (g ++ [nt]) o nm = (sets E f' o nm (nt, g.length)).or (lastSet E f g o nm) := by
  have h1 : g.zipIdx.filterMap (sets E f' o nm) = g.zipIdx.filterMap (sets E f o nm) := by
    have key : ∀ l : List (Note × Nat), (∀ p ∈ l, sets E f' o nm p = sets E f o nm p) → l.filterMap (sets E f' o nm) = l.filterMap (sets E f o nm) := by
      intro l
      induction l with
      | nil => intro _; rfl
      | cons a l ih =>
        intro h
        rw [List.filterMap_cons, List.filterMap_cons, h a (by simp), ih fun p hp => h p (by simp [hp])]
    refine key _ ?_
    rintro ⟨n, j⟩ hm
    have hj : g[j]? = some n := by simpa using List.mem_zipIdx_iff_getElem?.1 hm
    have hlt := (List.getElem?_eq_some_iff.1 hj).1
    have hpm : n.parent.map f' = n.parent.map f := by
      cases hc : n.parent with
      | none => rfl
      | some p => have := hp j n p hj hc; rw [Option.map_some, Option.map_some, hf p (by omega)]
    unfold sets
    rw [hpm, hf j hlt]
  unfold lastSet
  rw [List.zipIdx_append, List.filterMap_append, h1, List.getLast?_append]
  congr 1
  simp only [List.zipIdx_cons, List.zipIdx_nil, Nat.zero_add]
  cases hs : sets E f' o nm (nt, g.length) with
  | none => rw [List.filterMap_cons_none hs]; rfl
  | some v => rw [List.filterMap_cons_some hs]; rfl

/-- Every property has the last value given. -/
structure PropK (E : PRead) (f : Nat → Nat) (g : List Note) (s : PS) : Prop where
  val : ∀ o nm, mget nm (s.props o) = lastSet E f g o nm
  ev : ∀ (j q : Nat) n nm, g[j]? = some n → n.tag = "property" → n.parent = some q → n.get "name" = some nm → Alloc E s (f q) ∧ HasAttr s.reg (f q) nm

theorem pushProperty_post {E : PRead} {s : PS} (k : Nat) : PPost (pushProperty E k) (fun _ t => ∃ o l nm, s.objs = o :: l ∧ s.attr k "name" = some nm ∧
    (∃ x, s.reg.obj o = some x) ∧ HasAttr t.reg o nm ∧
    t.props = if (s.attr k "value").getD "" ≠ "" then upd s.props o (mset nm ((s.attr k "value").getD "") (s.props o)) else s.props) s := by
  unfold pushProperty
  refine PPost.bind (PPost.peekObj fun o l ho => PPost.bind (PPost.attr! fun nm hn => PPost.bind (PPost.get ?_)))
  dsimp only
  unfold addEvent
  refine PPost.bind (PPost.bind' (PPost.alloc (PPost.regOp fun b r h => ?_)))
  unfold Reg.exec at h
  dsimp only at h
  split at h
  · cases h
  next x hx =>
  simp only [Res.ok.injEq, Prod.mk.injEq] at h
  obtain ⟨-, rfl⟩ := h
  have hat : HasAttr (s.reg.setObj o (x.addEvent (E.addr s.nalloc) { typ := .attribution, id := nm })) o nm := by
    intro y hy
    have hy : upd s.reg.obj o _ o = some y := hy
    rw [upd_same] at hy
    cases hy
    unfold RObj.addEvent
    split
    · assumption
    · unfold RObj.getEvent
      rw [List.find?_isSome]
      exact ⟨_, mem_einsert'.2 (.inl rfl), by simp⟩
  by_cases hv : (s.attr k "value").getD "" ≠ ""
  · rw [if_pos hv]
    unfold setProp
    refine PPost.bind (PPost.object fun y _ => PPost.modify ⟨o, l, nm, ho, hn, ⟨x, hx⟩, hat, by rw [if_pos hv]⟩)
  · rw [if_neg hv]
    exact PPost.pure ⟨o, l, nm, ho, hn, ⟨x, hx⟩, hat, by rw [if_neg hv]⟩

theorem sameProps_new (E : PRead) (k : RKind) (id : String) : PRel SameProps (newObject E k id) := PRel.newObject sameProps_atomic.toPBase E k id

theorem pushMedia_props {E : PRead} {s : PS} (k : Nat) : PPost (pushMedia E k) (fun _ t =>
    (s.attr k "refer" = none ∧ s.attr k "type" ≠ some "application/x-ginga-settings" ∧ s.attr k "type" ≠ some "application/x-ncl-settings" ∧
      ∃ m l, t.objs = m :: l ∧ t.props = upd s.props m (mset "type" ((s.attr k "type").getD "") (mset "uri" (srcOf E (s.attr k "src")) (s.props m)))) ∨
    (¬ (s.attr k "refer" = none ∧ s.attr k "type" ≠ some "application/x-ginga-settings" ∧ s.attr k "type" ≠ some "application/x-ncl-settings") ∧ t.props = s.props)) s := by
  unfold pushMedia
  refine PPost.bind (PPost.get (PPost.bind (PPost.attr! fun id hid => ?_)))
  dsimp only
  cases hr : s.attr k "refer" with
  | some r =>
    dsimp only
    split
    · exact PPost.err
    · exact PPost.bind ((PRel.pushRefer sameProps_atomic.toPBase E id r s).mono fun m t h => PPost.modify (.inr ⟨(fun h => nomatch h.1), h⟩))
  | none =>
    dsimp only
    split
    · next hc =>
      refine PPost.bind ((PRel.pushSettings sameProps_atomic.toPBase E id s).mono fun m t h => ?_)
      split
      · exact PPost.abort
      · exact PPost.modify (.inr ⟨fun h => hc.elim h.2.1 h.2.2, h⟩)
    · next hc =>
      have hc := not_or.1 hc
      unfold pushPlainMedia
      have rest : ∀ (m : Nat) (t : PS), t.props = s.props → PPost (do
          setProp m "uri" (srcOf E (s.attr k "src"))
          setProp m "type" ((s.attr k "type").getD "")
          let parent ← peekComp
          regOp (.addChild parent m)
          pure m) (fun m t => t.props = upd s.props m (mset "type" ((s.attr k "type").getD "") (mset "uri" (srcOf E (s.attr k "src")) (s.props m)))) t := by
        intro m t ht
        unfold setProp
        refine PPost.bind (PPost.bind (PPost.object fun y hy => PPost.modify (PPost.bind (PPost.bind (PPost.object fun y' hy' => PPost.modify ?_)))))
        refine PPost.bind (PPost.peekComp fun p l y _ _ _ => PPost.bind (PPost.regOp fun b r hx => PPost.pure ?_))
        show upd (upd t.props m _) m _ = _
        dsimp only
        rw [upd_same, ht]
        funext q
        by_cases hq : q = m
        · subst hq; rw [upd_same, upd_same]
        · rw [upd_ne _ _ hq, upd_ne _ _ hq, upd_ne _ _ hq]
      refine PPost.bind (PPost.mono ?_ fun m t (h : t.props = upd s.props m (mset "type" ((s.attr k "type").getD "") (mset "uri" (srcOf E (s.attr k "src")) (s.props m)))) =>
        PPost.modify (.inl ⟨rfl, hc.1, hc.2, m, t.objs, rfl, h⟩))
      refine PPost.bind (PPost.get ?_)
      dsimp only
      split
      · next m hm => exact PPost.bind (PPost.pure (rest m s rfl))
      · next hm => exact PPost.bind ((sameProps_new E .media id s).mono fun o t h => rest o t h)

theorem table_props : ∀ e ∈ syntaxTable, (e.push = .property ↔ e.tag = "property") ∧ (e.tag = "property" → e.parents = ["body", "context", "media"]) := by decide +kernel

theorem kind_media {n : Note} : n.kind = some .media ↔ n.tag = "media" ∧ n.get "refer" = none ∧ n.get "type" ≠ some "application/x-ginga-settings" ∧
    n.get "type" ≠ some "application/x-ncl-settings" := by
  unfold Note.kind
  constructor
  · intro h
    split at h
    · cases h
    · split at h
      · cases h
      · split at h
        · assumption
        · cases h
  · intro h
    rw [if_neg (by rw [h.1]; decide), if_neg (by rw [h.1]; decide), if_pos h]

theorem propK_extra {E : PRead} (hinj : ∀ i j, E.addr i = E.addr j → i = j) (scr : Rect) (z0 : Nat) : Extra E scr z0 (fun f g _ s => PropK E f g s) where
  same f g S s y al ca hU h := ⟨h.val, h.ev⟩
  imp f g S s s2 par pt x e r y nt hn ht hk hp := by
    obtain ⟨b1, b2, b3, b4, b5, b6, b7, b8, b9, b10, b11, b12, b13⟩ := ht.push_base hn
    have htg : nt.tag = "importBase" := by rw [b2, ← b4]; exact (table_objs e b3).2.2.2.2.2.2.1.1 hp
    refine ⟨fun o nm => ?_, fun j q n nm hj h1 h2 h3 => ?_⟩
    · rw [lastSet_append (fun _ _ => rfl) fun j n p hj hp => ((hn.j.ok j n hj).parent p hp).1]
      have : sets E f o nm (nt, g.length) = none := by
        unfold sets
        rw [if_neg (by rw [htg]; decide), if_neg (fun h => by have := (kind_media.1 h.1).1; rw [htg] at this; revert this; decide)]
      rw [this, Option.none_or, ← hk.val, hn.state]
    · rcases append_key hj with ⟨-, hj⟩ | ⟨-, rfl⟩
      · have := hk.ev j q n nm hj h1 h2 h3
        unfold Alloc; rw [b10, b13]; exact this
      · rw [htg] at h1; exact absurd h1 (by decide)
  push f f' g S s s2 par pt x e r y nt proc a t hn ht hk himp hrun hpu hj hf ht' := by
    obtain ⟨b1, b2, b3, b4, b5, b6, b7, b8, b9, b10, b11, b12, b13⟩ := ht.push_base hn
    have hps : s2.props = s.props := by rw [hn.state]
    have hpar : ∀ (j : Nat) n p, g[j]? = some n → n.parent = some p → p < j := fun j n p hj hp => ((hn.j.ok j n hj).parent p hp).1
    have hev := evKeep_push hinj proc e.push s.nelt himp s2 a t hrun
    have hold : ∀ (j q : Nat) n nm, g[j]? = some n → n.tag = "property" → n.parent = some q → n.get "name" = some nm → Alloc E t (f' q) ∧ HasAttr t.reg (f' q) nm := by
      intro j q n nm hj h1 h2 h3
      obtain ⟨⟨i, h4, h5⟩, h6⟩ := hk.ev j q n nm hj h1 h2 h3
      have hlt := (List.getElem?_eq_some_iff.1 hj).1
      have := hpar j n q hj h2
      rw [hf q (by omega)]
      refine ⟨⟨i, by have := hev.1; rw [b13] at this; omega, h5⟩, (hev.2.1 _ ⟨i, by rw [b13]; exact h4, h5⟩).attr (by rw [b10]; exact h6)⟩
    have quiet : nt.tag ≠ "property" → nt.kind ≠ some .media → t.props = s2.props → PropK E f' (g ++ [nt]) t := by
      intro h1 h2 h3
      refine ⟨fun o nm => ?_, fun j q n nm hj g1 g2 g3 => ?_⟩
      · rw [lastSet_append hf hpar]
        have : sets E f' o nm (nt, g.length) = none := by
          unfold sets
          rw [if_neg h1, if_neg fun h => h2 h.1]
        rw [this, Option.none_or, ← hk.val, h3, hps]
      · rcases append_key hj with ⟨-, hj⟩ | ⟨-, rfl⟩
        · exact hold j q n nm hj g1 g2 g3
        · exact absurd g1 h1
    by_cases hprop : e.push = .property
    · have htg : nt.tag = "property" := by rw [b2, ← b4]; exact (table_props e b3).1.1 hprop
      have hel := (table_props e b3).2 (b4.trans (b2.symm.trans htg))
      rw [hprop] at hrun
      obtain ⟨o, l, nm0, h1, h2, ⟨X, h3⟩, h4, h5⟩ := pushProperty_post s.nelt a t hrun
      rw [b8] at h2
      have hv : s2.attr s.nelt "value" = nt.get "value" := b8 _
      rw [hv] at h5
      -- the object is that of the parent
      obtain ⟨p, hp, hfo⟩ : ∃ p, nt.parent = some p ∧ f' p = o := by
        cases hp : par with
        | none =>
          exfalso
          obtain ⟨hsyn, -, hwf⟩ := checkNode_ok hn.check
          obtain ⟨e', he', het', hpo, -⟩ := (hwf rfl).1.entry
          obtain rfl : e' = e := table_tag_inj e' e he' b3 (Eq.trans het' b4.symm)
          obtain ⟨q, hq, hq2⟩ := hpo (by rw [hel]; simp)
          have hq2 : pt = some q := hq2
          rw [hel] at hq
          rcases hn.top hp with ⟨h, hg⟩ | ⟨h, -⟩
          · rw [h] at hq2; cases hq2
          · rw [h] at hq2; cases hq2; revert hq; decide
        | some p =>
          obtain ⟨g1, g2, m, g3, g4⟩ := hn.up p hp
          refine ⟨p, by rw [hn.parent, hp], ?_⟩
          rw [hf p g1]
          rw [b11, ht.stack] at h1
          cases S with
          | nil => simp at g2
          | cons p' S' =>
            obtain rfl : p' = p := by simpa using g2
            have ho : objAt g p' = true := by
              unfold objAt; rw [g3]
              rw [hel] at g4
              have : m.tag = "body" ∨ m.tag = "context" ∨ m.tag = "media" := by simpa using g4
              rcases this with h | h | h <;> dsimp only <;> rw [h] <;> decide
            rw [List.filter_cons_of_pos ho, List.map_cons] at h1
            exact (List.cons.inj h1).1
      refine ⟨fun o' nm => ?_, fun j q n nm hj g1 g2 g3 => ?_⟩
      · rw [lastSet_append hf hpar]
        unfold sets
        dsimp only
        rw [if_pos htg, hp, Option.map_some, hfo, h2, ← hk.val, h5]
        by_cases hv : (nt.get "value").getD "" ≠ ""
        · rw [if_pos hv, hps]
          by_cases ho : o' = o
          · subst ho
            rw [upd_same]
            by_cases hnm : nm = nm0
            · subst hnm
              rw [mget_mset_same, if_pos ⟨rfl, rfl, hv⟩]
              cases hc : nt.get "value" with
              | none => rw [hc] at hv; exact absurd rfl hv
              | some v => rfl
            · rw [mget_mset_ne _ _ _ _ hnm, if_neg (fun h => hnm (Option.some.inj h.2.1).symm)]; rfl
          · rw [upd_ne _ _ ho, if_neg (fun h => ho (Option.some.inj h.1).symm)]; rfl
        · rw [if_neg hv, if_neg (fun h => hv h.2.2), hps]; rfl
      · rcases append_key hj with ⟨-, hj⟩ | ⟨-, rfl⟩
        · exact hold j q n nm hj g1 g2 g3
        · rw [hp] at g2; cases g2
          rw [h2] at g3; cases g3
          rw [hfo]
          refine ⟨?_, h4⟩
          obtain ⟨i, h6, h7⟩ := b5.objAddr o X h3
          exact ⟨i, Nat.lt_of_lt_of_le h6 hev.1, h7⟩
    · have hnp : nt.tag ≠ "property" := fun h => hprop ((table_props e b3).1.2 (b4.trans (b2.symm.trans h)))
      by_cases hmed : e.push = .media
      · have htg : nt.tag = "media" := by rw [b2, ← b4]; exact (table_objs e b3).2.2.2.2.2.1.1 hmed
        rw [hmed] at hrun
        have hat : s2.attr s.nelt = nt.get := funext b8
        rcases pushMedia_props s.nelt a t hrun with ⟨h1, h2, h3, m, l, h4, h5⟩ | ⟨h1, h2⟩
        · rw [hat] at h1 h2 h3 h5
          have hkm : nt.kind = some .media := kind_media.2 ⟨htg, h1, h2, h3⟩
          have hfm : f' g.length = m := by
            have := ht'.stack
            rw [b1, List.filter_cons_of_pos (by rw [objAt_last, htg]; decide), List.map_cons, h4] at this
            exact (List.cons.inj this).1.symm
          refine ⟨fun o nm => ?_, fun j q n nm hj g1 g2 g3 => ?_⟩
          · rw [lastSet_append hf hpar]
            unfold sets
            dsimp only
            rw [if_neg hnp, hfm, ← hk.val, h5, hps]
            by_cases ho : o = m
            · subst ho
              rw [upd_same, if_pos ⟨hkm, rfl⟩]
              by_cases hu : nm = "uri"
              · subst hu
                rw [if_pos rfl, mget_mset_ne _ _ _ _ (by decide), mget_mset_same]; rfl
              · rw [if_neg hu]
                by_cases hy : nm = "type"
                · subst hy; rw [if_pos rfl, mget_mset_same]; rfl
                · rw [if_neg hy, mget_mset_ne _ _ _ _ hy, mget_mset_ne _ _ _ _ hu]; rfl
            · rw [upd_ne _ _ ho, if_neg (fun h => ho h.2.symm)]; rfl
          · rcases append_key hj with ⟨-, hj⟩ | ⟨-, rfl⟩
            · exact hold j q n nm hj g1 g2 g3
            · exact absurd g1 hnp
        · rw [hat] at h1
          exact quiet hnp (fun h => h1 (kind_media.1 h).2) h2
      · refine quiet hnp (fun h => hmed ((table_objs e b3).2.2.2.2.2.1.2 (b4.trans (b2.symm.trans (kind_media.1 h).1)))) ?_
        exact sameProps_push E proc e.push s.nelt himp hmed hprop s2 a t hrun
  pop f g O S s k nt e n a t hj hpi ht hk h1 h2 h3 h4 h5 ht' := by
    have hev := evKeep_pop n e.pop k s a t h4
    refine ⟨fun o nm => ?_, fun j q m nm hj g1 g2 g3 => ?_⟩
    · rw [show t.props = s.props from sameProps_pop E n e.pop k h3 s a t h4]; exact hk.val o nm
    · obtain ⟨⟨i, h6, h7⟩, h8⟩ := hk.ev j q m nm hj g1 g2 g3
      exact ⟨⟨i, Nat.lt_of_lt_of_le h6 hev.1, h7⟩, (hev.2.1 _ ⟨i, h6, h7⟩).attr h8⟩

theorem propK_init {E : PRead} (f : Nat → Nat) (W H : Int) (z : Nat) (reg : Reg) (n : Nat) : PropK E f [] (PS.init W H z reg n) :=
  ⟨fun _ _ => rfl, fun j q n nm h => by simp at h⟩

end Ginga
