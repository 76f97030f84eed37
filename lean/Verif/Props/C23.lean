import Verif.Model.Registry
/-! # C23, C24: the objects and events of a document -/
set_option linter.unusedSimpArgs false
set_option linter.unusedVariables false
namespace Ginga

/-! ## Specification -/

/-- The registries that can be built: a new document and then any operations, at any addresses. -/
def Built (r : Reg) : Prop :=
  ∃ a b e1 e2 e3 r0 ops, a ≠ b ∧ newDoc a b e1 e2 e3 = .ok r0 ∧ r0.execAll ops = .ok r

/-- The same without calling `Document::addObject` directly (the parser uses `addChild` only). -/
def BuiltTree (r : Reg) : Prop :=
  ∃ a b e1 e2 e3 r0 ops, a ≠ b ∧ newDoc a b e1 e2 e3 = .ok r0 ∧ (∀ o, RegOp.addObject o ∉ ops) ∧ r0.execAll ops = .ok r

/-- `x` is the object at address `o` and belongs to the document. -/
def Reg.has (r : Reg) (o : Nat) (x : RObj) : Prop := o ∈ r.objects ∧ r.obj o = some x

/-! ## Sets -/

theorem mem_sinsert (a b : Nat) (l : List Nat) : b ∈ sinsert a l ↔ b = a ∨ b ∈ l := by
  induction l with
  | nil => simp [sinsert]
  | cons c t ih =>
    simp only [sinsert]
    split
    · next h => subst h; simp
    · split
      · simp
      · simp [ih]; constructor <;> (intro h; rcases h with h | h | h <;> simp [h])

theorem mem_einsert (a : Nat) (e : REv) (p : Nat × REv) (l : List (Nat × REv)) : p ∈ einsert a e l ↔ p = (a, e) ∨ p ∈ l := by
  induction l with
  | nil => simp [einsert]
  | cons c t ih =>
    simp only [einsert]
    split
    · simp
    · simp [ih]; constructor <;> (intro h; rcases h with h | h | h <;> simp [h])

theorem einsert_perm (a : Nat) (e : REv) (l : List (Nat × REv)) : (einsert a e l).Perm ((a, e) :: l) := by
  induction l with
  | nil => exact .refl _
  | cons c t ih =>
    simp only [einsert]
    split
    · exact .refl _
    · exact (ih.cons c).trans (.swap _ _ _)

/-! ## C24: events -/

/-- No two events of the same type and id, and the whole-content event is there. -/
structure EvOk (x : RObj) : Prop where
  uniq : (x.events.map fun p => (p.2.typ, p.2.id)).Nodup
  lam : ∃ p ∈ x.events, p.2.typ = .presentation ∧ p.2.id = "@lambda"
  focus : x.kind = .settings → ∃ p ∈ x.events, p.2.typ = .attribution ∧ p.2.id = "service.currentFocus"

theorem getEvent_none {x : RObj} {t : EType} {id : String} :
    x.getEvent t id = none ↔ ∀ p ∈ x.events, ¬ (p.2.typ = t ∧ p.2.id = id) := by
  unfold RObj.getEvent
  rw [List.find?_eq_none]
  simp

theorem getEvent_some {x : RObj} (h : EvOk x) {t : EType} {id : String} {p : Nat × REv} :
    x.getEvent t id = some p ↔ p ∈ x.events ∧ p.2.typ = t ∧ p.2.id = id := by
  unfold RObj.getEvent
  have hu := h.uniq
  clear h
  generalize x.events = l at *
  induction l with
  | nil => simp
  | cons q l ih =>
    simp only [List.map_cons, List.nodup_cons] at hu
    rw [List.find?_cons]
    by_cases hq : q.2.typ = t ∧ q.2.id = id
    · have : (q.2.typ == t && q.2.id == id) = true := by simp [hq.1, hq.2]
      rw [this]
      constructor
      · intro h; cases h; exact ⟨by simp, hq⟩
      · intro ⟨h1, h2⟩
        rcases List.mem_cons.1 h1 with h | h
        · rw [h]
        · exfalso; apply hu.1
          rw [List.mem_map]
          exact ⟨p, h, by rw [hq.1, hq.2, h2.1, h2.2]⟩
    · have : (q.2.typ == t && q.2.id == id) = false := by
        rw [Bool.and_eq_false_iff]; simp; rw [← Decidable.not_and_iff_not_or_not]; exact hq
      rw [this]
      refine (ih hu.2).trans ?_
      constructor
      · intro ⟨h1, h2⟩; exact ⟨List.mem_cons_of_mem _ h1, h2⟩
      · intro ⟨h1, h2⟩
        rcases List.mem_cons.1 h1 with h | h
        · subst h; exact absurd h2 hq
        · exact ⟨h, h2⟩

theorem addEvent_ok {x : RObj} (hu : (x.events.map fun p => (p.2.typ, p.2.id)).Nodup) (a : Nat) (e : REv) :
    ((x.addEvent a e).events.map fun p => (p.2.typ, p.2.id)).Nodup := by
  unfold RObj.addEvent
  split
  · exact hu
  · next h =>
    have hn : x.getEvent e.typ e.id = none := by
      cases hx : x.getEvent e.typ e.id with
      | none => rfl
      | some p => rw [hx] at h; simp at h
    rw [getEvent_none] at hn
    have := ((einsert_perm a e x.events).map fun p => (p.2.typ, p.2.id)).nodup_iff
    rw [this]
    simp only [List.map_cons, List.nodup_cons]
    refine ⟨?_, hu⟩
    rw [List.mem_map]
    rintro ⟨p, hp, he⟩
    simp only [Prod.mk.injEq] at he
    exact hn p hp he

theorem addEvent_mem {x : RObj} {a : Nat} {e : REv} {p : Nat × REv} (h : p ∈ x.events) : p ∈ (x.addEvent a e).events := by
  unfold RObj.addEvent
  split
  · exact h
  · show p ∈ einsert a e x.events
    rw [mem_einsert]; exact .inr h

theorem addEvent_kind (x : RObj) (a : Nat) (e : REv) : (x.addEvent a e).kind = x.kind := by
  unfold RObj.addEvent; split <;> rfl

theorem addEvent_evok {x : RObj} (h : EvOk x) (a : Nat) (e : REv) : EvOk (x.addEvent a e) :=
  ⟨addEvent_ok h.uniq a e, by obtain ⟨p, hp, he⟩ := h.lam; exact ⟨p, addEvent_mem hp, he⟩, by
    intro hk
    obtain ⟨p, hp, he⟩ := h.focus ((addEvent_kind x a e).symm.trans hk)
    exact ⟨p, addEvent_mem hp, he⟩⟩

theorem addEvent_fields (x : RObj) (a : Nat) (e : REv) :
    (x.addEvent a e).id = x.id ∧ (x.addEvent a e).kind = x.kind ∧ (x.addEvent a e).parent = x.parent ∧
    (x.addEvent a e).children = x.children ∧ (x.addEvent a e).inDoc = x.inDoc ∧ (x.addEvent a e).aliases = x.aliases := by
  unfold RObj.addEvent
  split <;> simp

theorem newObj_evok (k : RKind) (id : String) (a1 a2 : Nat) : EvOk (newObj k id a1 a2) := by
  unfold newObj
  dsimp only
  split
  · refine ⟨addEvent_ok (addEvent_ok (by simp) _ _) _ _, ?_, fun _ => ?_⟩
    · exact ⟨(a1, { typ := .presentation, id := "@lambda" }), addEvent_mem (by simp [RObj.addEvent, RObj.getEvent, einsert]), rfl, rfl⟩
    · refine ⟨(a2, { typ := .attribution, id := "service.currentFocus" }), ?_, rfl, rfl⟩
      simp [RObj.addEvent, RObj.getEvent, einsert]
      split <;> simp
  · refine ⟨addEvent_ok (by simp) _ _, ?_, fun hk => ?_⟩
    · exact ⟨(a1, { typ := .presentation, id := "@lambda" }), by simp [RObj.addEvent, RObj.getEvent, einsert], rfl, rfl⟩
    · next h => exact absurd ((addEvent_kind _ _ _).symm.trans hk) h

theorem newObj_fields (k : RKind) (id : String) (a1 a2 : Nat) :
    (newObj k id a1 a2).id = id ∧ (newObj k id a1 a2).kind = k ∧ (newObj k id a1 a2).parent = none ∧
    (newObj k id a1 a2).children = [] ∧ (newObj k id a1 a2).inDoc = false ∧ (newObj k id a1 a2).aliases = [] := by
  unfold newObj
  dsimp only
  split <;> simp [addEvent_fields]

/-! ## The invariant of all registries -/

structure RegInv (r : Reg) : Prop where
  ev : ∀ o x, r.obj o = some x → EvOk x
  objs : ∀ o ∈ r.objects, ∃ x, r.obj o = some x ∧ x.inDoc = true
  inDoc : ∀ o x, r.obj o = some x → x.inDoc = true → o ∈ r.objects
  byId : ∀ id o, r.getById id = some o ↔ ∃ x, r.has o x ∧ x.id = id
  medias : ∀ o, o ∈ r.medias ↔ ∃ x, r.has o x ∧ (x.kind = .media ∨ x.kind = .settings)
  contexts : ∀ o, o ∈ r.contexts ↔ ∃ x, r.has o x ∧ x.kind = .context
  switches : ∀ o, o ∈ r.switches ↔ ∃ x, r.has o x ∧ x.kind = .switch
  rootKind : ∃ x, r.obj r.root = some x ∧ x.kind = .context
  settings : ∀ b, r.settings = some b → ∀ o, (∃ x, r.has o x ∧ x.kind = .settings) ↔ o = b

/-- What is the same after an operation, seen from an object. -/
theorem RegInv.congr {r r' : Reg} (h : RegInv r) (hobjs : r'.objects = r.objects) (hid : r'.byId = r.byId)
    (hm : r'.medias = r.medias) (hc : r'.contexts = r.contexts) (hs : r'.switches = r.switches) (hr : r'.root = r.root)
    (hset : r'.settings = r.settings)
    (hsame : ∀ o x', r'.obj o = some x' → EvOk x' ∧ ((r.obj o = none ∧ x'.inDoc = false) ∨
      ∃ x, r.obj o = some x ∧ x'.id = x.id ∧ x'.kind = x.kind ∧ x'.inDoc = x.inDoc))
    (hkeep : ∀ o x, r.obj o = some x → ∃ x', r'.obj o = some x') : RegInv r' := by
  have back : ∀ o x', r'.has o x' → ∃ x, r.has o x ∧ x'.id = x.id ∧ x'.kind = x.kind := by
    intro o x' ⟨h1, h2⟩
    rw [hobjs] at h1
    rcases (hsame o x' h2).2 with ⟨h3, -⟩ | ⟨x, h3, h4, h5, -⟩
    · obtain ⟨x, hx, -⟩ := h.objs o h1; rw [h3] at hx; cases hx
    · exact ⟨x, ⟨h1, h3⟩, h4, h5⟩
  have forth : ∀ o x, r.has o x → ∃ x', r'.has o x' ∧ x'.id = x.id ∧ x'.kind = x.kind := by
    intro o x ⟨h1, h2⟩
    obtain ⟨x', hx'⟩ := hkeep o x h2
    rcases (hsame o x' hx').2 with ⟨h3, -⟩ | ⟨y, h3, h4, h5, -⟩
    · rw [h2] at h3; cases h3
    · rw [h2] at h3; cases h3; exact ⟨x', ⟨by rw [hobjs]; exact h1, hx'⟩, h4, h5⟩
  have lift : ∀ (P : String → RKind → Prop) (o : Nat), (∃ x, r'.has o x ∧ P x.id x.kind) ↔ (∃ x, r.has o x ∧ P x.id x.kind) := by
    intro P o
    constructor
    · rintro ⟨x', hx', hp⟩
      obtain ⟨x, hx, e1, e2⟩ := back o x' hx'
      exact ⟨x, hx, by rw [← e1, ← e2]; exact hp⟩
    · rintro ⟨x, hx, hp⟩
      obtain ⟨x', hx', e1, e2⟩ := forth o x hx
      exact ⟨x', hx', by rw [e1, e2]; exact hp⟩
  constructor
  · intro o x' hx'; exact (hsame o x' hx').1
  · intro o ho
    rw [hobjs] at ho
    obtain ⟨x, hx, hd⟩ := h.objs o ho
    obtain ⟨x', hx'⟩ := hkeep o x hx
    refine ⟨x', hx', ?_⟩
    rcases (hsame o x' hx').2 with ⟨h3, -⟩ | ⟨y, h3, -, -, h6⟩
    · rw [hx] at h3; cases h3
    · rw [hx] at h3; cases h3; rw [h6]; exact hd
  · intro o x' hx' hd
    rw [hobjs]
    rcases (hsame o x' hx').2 with ⟨h3, h4⟩ | ⟨y, h3, -, -, h6⟩
    · rw [hd] at h4; cases h4
    · exact h.inDoc o y h3 (by rw [← h6]; exact hd)
  · intro id o
    show idLookup r'.byId id = some o ↔ _
    rw [hid]
    exact (h.byId id o).trans (lift (fun i _ => i = id) o).symm
  · intro o; rw [hm]; exact (h.medias o).trans (lift (fun _ k => k = .media ∨ k = .settings) o).symm
  · intro o; rw [hc]; exact (h.contexts o).trans (lift (fun _ k => k = .context) o).symm
  · intro o; rw [hs]; exact (h.switches o).trans (lift (fun _ k => k = .switch) o).symm
  · obtain ⟨x, hx, hk⟩ := h.rootKind
    obtain ⟨x', hx'⟩ := hkeep _ x hx
    rw [hr]
    refine ⟨x', hx', ?_⟩
    rcases (hsame _ x' hx').2 with ⟨h3, -⟩ | ⟨y, h3, -, h5, -⟩
    · rw [hx] at h3; cases h3
    · rw [hx] at h3; cases h3; rw [h5, hk]
  · intro b hb o
    rw [hset] at hb
    exact (lift (fun _ k => k = .settings) o).trans (h.settings b hb o)

/-- Replacing one object by one that differs only in aliases, events, parent or children. -/
theorem RegInv.setObj {r : Reg} (h : RegInv r) (o : Nat) (x x' : RObj) (hx : r.obj o = some x) (hev : EvOk x')
    (h1 : x'.id = x.id) (h2 : x'.kind = x.kind) (h3 : x'.inDoc = x.inDoc) : RegInv (r.setObj o x') := by
  refine h.congr rfl rfl rfl rfl rfl rfl rfl ?_ ?_
  · intro o' y hy
    simp only [Reg.setObj, upd] at hy
    split at hy
    · next e => subst e; cases hy; exact ⟨hev, .inr ⟨x, hx, h1, h2, h3⟩⟩
    · exact ⟨h.ev o' y hy, .inr ⟨y, hy, rfl, rfl, rfl⟩⟩
  · intro o' y hy
    simp only [Reg.setObj, upd]
    split
    · exact ⟨_, rfl⟩
    · exact ⟨y, hy⟩

theorem addObject_inv {r : Reg} (h : RegInv r) (o : Nat) (b : Bool) (r' : Reg) (hx : r.addObject o = .ok (b, r')) : RegInv r' := by
  unfold Reg.addObject at hx
  cases ho : r.obj o with
  | none => rw [ho] at hx; cases hx
  | some x =>
    rw [ho] at hx
    dsimp only at hx
    split at hx
    · cases hx; exact h
    · next hnew =>
      split at hx
      · cases hx
      · next hset =>
        split at hx
        · cases hx
        · next hdoc =>
          have hnm : o ∉ r.objects := fun hm => hnew (.inl hm)
          have hnid : r.getById x.id = none := by
            cases hg : r.getById x.id with
            | none => rfl
            | some o' => exact absurd (.inr (by simp [Reg.getByIdOrAlias, hg])) hnew
          simp only [Res.ok.injEq, Prod.mk.injEq] at hx
          obtain ⟨-, hr2⟩ := hx
          generalize r' = r2 at *
          -- membership of the new registry, whatever the kind
          have hobj : ∀ r2 : Reg, r2.obj = upd r.obj o (some { x with inDoc := true }) → r2.objects = sinsert o r.objects →
              ∀ o' y, r2.has o' y ↔ (o' = o ∧ y = { x with inDoc := true }) ∨ (o' ≠ o ∧ r.has o' y) := by
            intro r2 e1 e2 o' y
            unfold Reg.has
            rw [e1, e2, mem_sinsert]
            by_cases he : o' = o
            · subst he
              simp only [upd_same, Option.some.injEq, true_or, true_and, ne_eq, not_true_eq_false, false_and, or_false]
              exact eq_comm
            · rw [upd_ne _ _ he]
              simp [he]
          have e1 : r2.obj = upd r.obj o (some { x with inDoc := true }) := by subst hr2; unfold Reg.register; cases x.kind <;> rfl
          have e2 : r2.objects = sinsert o r.objects := by subst hr2; unfold Reg.register; cases x.kind <;> rfl
          have e3 : r2.byId = (x.id, o) :: r.byId := by subst hr2; unfold Reg.register; cases x.kind <;> rfl
          have e4 : r2.root = r.root := by subst hr2; unfold Reg.register; cases x.kind <;> rfl
          have e5 : r2.settings = r.settings := by subst hr2; unfold Reg.register; cases x.kind <;> rfl
          have e6 : ∀ o', o' ∈ r2.medias ↔ (o' = o ∧ (x.kind = .media ∨ x.kind = .settings)) ∨ o' ∈ r.medias := by
            intro o'; subst hr2; unfold Reg.register; cases x.kind <;> simp [mem_sinsert, Reg.setObj]
          have e7 : ∀ o', o' ∈ r2.contexts ↔ (o' = o ∧ x.kind = .context) ∨ o' ∈ r.contexts := by
            intro o'; subst hr2; unfold Reg.register; cases x.kind <;> simp [mem_sinsert, Reg.setObj]
          have e8 : ∀ o', o' ∈ r2.switches ↔ (o' = o ∧ x.kind = .switch) ∨ o' ∈ r.switches := by
            intro o'; subst hr2; unfold Reg.register; cases x.kind <;> simp [mem_sinsert, Reg.setObj]
          have hh := hobj r2 e1 e2
          -- properties of `has` carry over
          have lift : ∀ (P : RObj → Prop) (o' : Nat), (∃ y, r2.has o' y ∧ P y) ↔
              (o' = o ∧ P { x with inDoc := true }) ∨ (∃ y, r.has o' y ∧ P y) := by
            intro P o'
            constructor
            · rintro ⟨y, hy, hp⟩
              rcases (hh o' y).1 hy with ⟨rfl, rfl⟩ | ⟨-, hy⟩
              · exact .inl ⟨rfl, hp⟩
              · exact .inr ⟨y, hy, hp⟩
            · rintro (⟨rfl, hp⟩ | ⟨y, hy, hp⟩)
              · exact ⟨_, (hh _ _).2 (.inl ⟨rfl, rfl⟩), hp⟩
              · refine ⟨y, (hh _ _).2 (.inr ⟨?_, hy⟩), hp⟩
                rintro rfl; exact hnm hy.1
          constructor
          · intro o' y hy
            rw [e1] at hy
            by_cases he : o' = o
            · subst he; rw [upd_same] at hy; cases hy
              exact ⟨(h.ev _ x ho).uniq, (h.ev _ x ho).lam, (h.ev _ x ho).focus⟩
            · rw [upd_ne _ _ he] at hy; exact h.ev o' y hy
          · intro o' ho'
            rw [e2, mem_sinsert] at ho'
            rw [e1]
            by_cases he : o' = o
            · subst he; exact ⟨_, upd_same _ _ _, rfl⟩
            · rw [upd_ne _ _ he]
              rcases ho' with h' | h'
              · exact absurd h' he
              · exact h.objs o' h'
          · intro o' y hy hd
            rw [e2, mem_sinsert]
            rw [e1] at hy
            by_cases he : o' = o
            · exact .inl he
            · rw [upd_ne _ _ he] at hy; exact .inr (h.inDoc o' y hy hd)
          · intro id o'
            rw [lift (fun y => y.id = id)]
            show idLookup r2.byId id = some o' ↔ _
            rw [e3]
            unfold idLookup
            rw [List.find?_cons]
            by_cases hid : x.id = id
            · subst hid
              simp only [beq_self_eq_true, Option.map_some, Option.some.injEq, and_true]
              constructor
              · intro h'; exact .inl h'.symm
              · rintro (h' | h')
                · exact h'.symm
                · have := (h.byId x.id o').2 h'
                  rw [hnid] at this; cases this
            · have : ((x.id, o).1 == id) = false := by simpa using hid
              rw [this]
              have := h.byId id o'
              unfold Reg.getById idLookup at this
              rw [this]
              simp [hid]
          · intro o'; rw [e6, h.medias, lift (fun y => y.kind = .media ∨ y.kind = .settings)]
          · intro o'; rw [e7, h.contexts, lift (fun y => y.kind = .context)]
          · intro o'; rw [e8, h.switches, lift (fun y => y.kind = .switch)]
          · obtain ⟨y, hy, hk⟩ := h.rootKind
            rw [e4, e1]
            by_cases he : r.root = o
            · rw [he, upd_same]; rw [he, ho] at hy; cases hy; exact ⟨_, rfl, hk⟩
            · rw [upd_ne _ _ he]; exact ⟨y, hy, hk⟩
          · intro b' hb' o'
            rw [e5] at hb'
            rw [lift (fun y => y.kind = .settings), h.settings b' hb' o']
            constructor
            · rintro (⟨-, hk⟩ | h')
              · exact absurd ⟨by rw [hb']; rfl, hk⟩ hset
              · exact h'
            · exact .inr

theorem exec_reginv {r : Reg} (h : RegInv r) (op : RegOp) (b : Bool) (r' : Reg) (hx : r.exec op = .ok (b, r')) : RegInv r' := by
  cases op with
  | new a k id a1 a2 =>
    simp only [Reg.exec] at hx
    cases ha : r.obj a with
    | some y => rw [ha] at hx; cases hx; exact h
    | none =>
      rw [ha] at hx
      cases hx
      refine h.congr rfl rfl rfl rfl rfl rfl rfl ?_ ?_
      · intro o y hy
        simp only [Reg.setObj, upd] at hy
        split at hy
        · next e => subst e; cases hy; exact ⟨newObj_evok _ _ _ _, .inl ⟨ha, (newObj_fields _ _ _ _).2.2.2.2.1⟩⟩
        · exact ⟨h.ev o y hy, .inr ⟨y, hy, rfl, rfl, rfl⟩⟩
      · intro o y hy
        simp only [Reg.setObj, upd]
        split
        · exact ⟨_, rfl⟩
        · exact ⟨y, hy⟩
  | addObject o => exact addObject_inv h o b r' hx
  | addChild c o =>
    simp only [Reg.exec, Reg.addChild] at hx
    split at hx
    · next y x hy hxo =>
      split at hx
      · cases hx
      · split at hx
        · cases hx; exact h
        · split at hx
          · cases hx
          · split at hx
            · cases hx
            · have h1 := h.setObj c y { y with children := sinsert o y.children } hy ⟨(h.ev c y hy).uniq, (h.ev c y hy).lam, (h.ev c y hy).focus⟩ rfl rfl rfl
              split at hx
              · cases hx
              · next x2 hx2 =>
                have h2 := h1.setObj o x2 { x2 with parent := some c } hx2 ⟨(h1.ev o x2 hx2).uniq, (h1.ev o x2 hx2).lam, (h1.ev o x2 hx2).focus⟩ rfl rfl rfl
                cases hadd : ((r.setObj c { y with children := sinsert o y.children }).setObj o { x2 with parent := some c }).addObject o with
                | ok p =>
                  rw [hadd] at hx
                  simp only [Res.bind_ok] at hx
                  split at hx
                  · cases hx; exact addObject_inv h2 o _ _ hadd
                  · cases hx
                | _ => rw [hadd] at hx; cases hx
    · cases hx
  | addAlias o s c =>
    simp only [Reg.exec, Reg.addAlias] at hx
    cases ho : r.obj o with
    | none => rw [ho] at hx; cases hx
    | some x =>
      rw [ho] at hx
      dsimp only at hx
      split at hx
      · cases hx; exact h
      · cases hx
        exact h.setObj o x _ ho ⟨(h.ev o x ho).uniq, (h.ev o x ho).lam, (h.ev o x ho).focus⟩ rfl rfl rfl
  | addEvent o a e =>
    simp only [Reg.exec] at hx
    cases ho : r.obj o with
    | none => rw [ho] at hx; cases hx
    | some x =>
      rw [ho] at hx
      cases hx
      have := addEvent_fields x a e
      exact h.setObj o x _ ho (addEvent_evok (h.ev o x ho) a e) this.1 this.2.1 this.2.2.2.2.1

/-- The state in which `Document::Document` starts. -/
def emptyReg (a e1 : Nat) : Reg :=
  { obj := upd (fun _ => none) a (some (newObj .context "__root__" e1 0)), objects := [], byId := [],
    medias := [], contexts := [], switches := [], root := a, settings := none }

theorem emptyReg_inv (a e1 : Nat) : RegInv (emptyReg a e1) := by
  have f := newObj_fields .context "__root__" e1 0
  constructor
  · intro o x hx
    simp only [emptyReg, upd] at hx
    split at hx
    · cases hx; exact newObj_evok _ _ _ _
    · cases hx
  · simp [emptyReg]
  · intro o x hx hd
    simp only [emptyReg, upd] at hx
    split at hx
    · cases hx; rw [f.2.2.2.2.1] at hd; cases hd
    · cases hx
  all_goals simp [emptyReg, Reg.getById, idLookup, Reg.has, f]

/-- The new document, spelled out. -/
theorem newDoc_eq (a b e1 e2 e3 : Nat) (hab : a ≠ b) :
    newDoc a b e1 e2 e3 = .ok
      { obj := upd (upd (upd (upd (upd (fun _ => none) a (some (newObj .context "__root__" e1 0)))
          a (some { newObj .context "__root__" e1 0 with inDoc := true }))
          b (some (newObj .settings "__settings__" e2 e3)))
          a (some { newObj .context "__root__" e1 0 with inDoc := true, children := [b] }))
          b (some { newObj .settings "__settings__" e2 e3 with parent := some a }) |> fun f =>
          upd f b (some { newObj .settings "__settings__" e2 e3 with parent := some a, inDoc := true })
        objects := sinsert b [a], byId := [("__settings__", b), ("__root__", a)],
        medias := [b], contexts := [a], switches := [], root := a, settings := some b } := by
  have f1 := newObj_fields .context "__root__" e1 0
  have f2 := newObj_fields .settings "__settings__" e2 e3
  have hba : b ≠ a := fun h => hab h.symm
  simp [newDoc, Reg.addObject, Reg.addChild, Reg.setObj, Reg.getByIdOrAlias, Reg.getById, idLookup, f1, f2, hab, hba, Reg.register, sinsert,
    RObj.hasAlias]

theorem newDoc_has {a b e1 e2 e3 : Nat} (hab : a ≠ b) {r0 : Reg} (h : newDoc a b e1 e2 e3 = .ok r0) :
    (∀ o x, r0.obj o = some x ↔
      (o = b ∧ x = { newObj .settings "__settings__" e2 e3 with parent := some a, inDoc := true }) ∨
      (o = a ∧ x = { newObj .context "__root__" e1 0 with inDoc := true, children := [b] })) ∧
    (∀ o, o ∈ r0.objects ↔ o = a ∨ o = b) ∧ r0.byId = [("__settings__", b), ("__root__", a)] ∧ r0.medias = [b] ∧
    r0.contexts = [a] ∧ r0.switches = [] ∧ r0.root = a ∧ r0.settings = some b := by
  rw [newDoc_eq a b e1 e2 e3 hab] at h
  have hba : b ≠ a := fun h => hab h.symm
  cases h
  refine ⟨?_, ?_, rfl, rfl, rfl, rfl, rfl, rfl⟩
  · intro o x
    simp only [upd]
    by_cases ho : o = b
    · subst ho; simp [hba]; exact eq_comm
    · by_cases ha : o = a
      · subst ha; simp [hab]; exact eq_comm
      · simp [ho, ha]
  · intro o
    show o ∈ sinsert b [a] ↔ _
    rw [mem_sinsert]; simp; exact or_comm

theorem newDoc_inv (a b e1 e2 e3 : Nat) (hab : a ≠ b) (r0 : Reg) (h : newDoc a b e1 e2 e3 = .ok r0) :
    RegInv r0 ∧ r0.settings = some b ∧ r0.root = a ∧ a ∈ r0.objects := by
  obtain ⟨ho, hm, hid, h1, h2, h3, h4, h5⟩ := newDoc_has hab h
  have f1 := newObj_fields .context "__root__" e1 0
  have f2 := newObj_fields .settings "__settings__" e2 e3
  have g1 := newObj_evok .context "__root__" e1 0
  have g2 := newObj_evok .settings "__settings__" e2 e3
  have hba : b ≠ a := fun h => hab h.symm
  have hX := (ho a _).2 (.inr ⟨rfl, rfl⟩)
  have hY := (ho b _).2 (.inl ⟨rfl, rfl⟩)
  have has : ∀ (P : String → RKind → Prop) (o : Nat), (∃ x, r0.has o x ∧ P x.id x.kind) ↔
      (o = b ∧ P "__settings__" .settings) ∨ (o = a ∧ P "__root__" .context) := by
    intro P o
    constructor
    · rintro ⟨x, ⟨-, hx⟩, hp⟩
      rcases (ho o x).1 hx with ⟨e, rfl⟩ | ⟨e, rfl⟩
      · left; rw [← f2.1, ← f2.2.1]; exact ⟨e, hp⟩
      · right; rw [← f1.1, ← f1.2.1]; exact ⟨e, hp⟩
    · rintro (⟨rfl, hp⟩ | ⟨rfl, hp⟩)
      · exact ⟨_, ⟨(hm _).2 (.inr rfl), hY⟩, by dsimp only; rw [f2.1, f2.2.1]; exact hp⟩
      · exact ⟨_, ⟨(hm _).2 (.inl rfl), hX⟩, by dsimp only; rw [f1.1, f1.2.1]; exact hp⟩
  refine ⟨?_, h5, h4, (hm a).2 (.inl rfl)⟩
  constructor
  · intro o x hx
    rcases (ho o x).1 hx with ⟨-, rfl⟩ | ⟨-, rfl⟩
    · exact ⟨g2.uniq, g2.lam, g2.focus⟩
    · exact ⟨g1.uniq, g1.lam, g1.focus⟩
  · intro o hm'
    rcases (hm o).1 hm' with rfl | rfl
    · exact ⟨_, hX, rfl⟩
    · exact ⟨_, hY, rfl⟩
  · intro o x hx _
    rcases (ho o x).1 hx with ⟨rfl, -⟩ | ⟨rfl, -⟩
    · exact (hm _).2 (.inr rfl)
    · exact (hm _).2 (.inl rfl)
  · intro id o
    rw [has (fun i _ => i = id)]
    show idLookup r0.byId id = some o ↔ _
    rw [hid]
    unfold idLookup
    by_cases e1 : "__settings__" = id
    · subst e1; simp; exact eq_comm
    · by_cases e2 : "__root__" = id
      · subst e2; simp; exact eq_comm
      · have k1 : ("__settings__" == id) = false := by simpa using e1
        have k2 : ("__root__" == id) = false := by simpa using e2
        simp [List.find?_cons, k1, k2, e1, e2]
  · intro o; rw [h1, has (fun _ k => k = .media ∨ k = .settings)]; simp
  · intro o; rw [h2, has (fun _ k => k = .context)]; simp
  · intro o; rw [h3, has (fun _ k => k = .switch)]; simp
  · rw [h4]; exact ⟨_, hX, f1.2.1⟩
  · intro b' hb' o
    rw [h5] at hb'; cases hb'
    rw [has (fun _ k => k = .settings)]; simp

/-- Objects are never removed, and root and settings never change. -/
theorem addObject_mono {r r' : Reg} {o : Nat} {b : Bool} (hx : r.addObject o = .ok (b, r')) :
    (∀ q ∈ r.objects, q ∈ r'.objects) ∧ r'.root = r.root ∧ r'.settings = r.settings := by
  unfold Reg.addObject at hx
  cases ho : r.obj o with
  | none => rw [ho] at hx; cases hx
  | some x =>
    rw [ho] at hx
    dsimp only at hx
    repeat' split at hx
    all_goals first
      | (cases hx; done)
      | (cases hx; exact ⟨fun _ h => h, rfl, rfl⟩)
      | (cases hx
         refine ⟨fun q hq => ?_, ?_, ?_⟩
         · have : (r.register o x).objects = sinsert o r.objects := by unfold Reg.register; cases x.kind <;> rfl
           rw [this, mem_sinsert]; exact .inr hq
         · unfold Reg.register; cases x.kind <;> rfl
         · unfold Reg.register; cases x.kind <;> rfl)

theorem exec_mono {r r' : Reg} {op : RegOp} {b : Bool} (hx : r.exec op = .ok (b, r')) :
    (∀ q ∈ r.objects, q ∈ r'.objects) ∧ r'.root = r.root ∧ r'.settings = r.settings := by
  have triv : (∀ q ∈ r.objects, q ∈ r.objects) ∧ r.root = r.root ∧ r.settings = r.settings := ⟨fun _ h => h, rfl, rfl⟩
  cases op with
  | new a k id a1 a2 =>
    simp only [Reg.exec] at hx
    split at hx <;> (cases hx; exact triv)
  | addObject o => exact addObject_mono hx
  | addChild c o =>
    simp only [Reg.exec, Reg.addChild] at hx
    split at hx
    · next y x hy hxo =>
      split at hx
      · cases hx
      · split at hx
        · cases hx; exact triv
        · split at hx
          · cases hx
          · split at hx
            · cases hx
            · split at hx
              · cases hx
              · next x2 hx2 =>
                cases hadd : ((r.setObj c { y with children := sinsert o y.children }).setObj o { x2 with parent := some c }).addObject o with
                | ok p =>
                  rw [hadd] at hx
                  simp only [Res.bind_ok] at hx
                  split at hx
                  · cases hx
                    have := addObject_mono hadd
                    exact this
                  · cases hx
                | _ => rw [hadd] at hx; cases hx
    · cases hx
  | addAlias o s c =>
    simp only [Reg.exec, Reg.addAlias] at hx
    split at hx
    · cases hx
    · split at hx <;> (cases hx; exact triv)
  | addEvent o a e =>
    simp only [Reg.exec] at hx
    split at hx
    · cases hx
    · cases hx; exact triv

theorem execAll_reg {P : Reg → Prop} (hstep : ∀ r op b r', P r → r.exec op = .ok (b, r') → P r') (ops : List RegOp) :
    ∀ r r', P r → r.execAll ops = .ok r' → P r' := by
  induction ops with
  | nil => intro r r' h hx; cases hx; exact h
  | cons op ops ih =>
    intro r r' h hx
    simp only [Reg.execAll] at hx
    cases hop : r.exec op with
    | ok p =>
      rw [hop] at hx
      exact ih p.2 r' (hstep r op p.1 p.2 h hop) hx
    | _ => rw [hop] at hx; cases hx

theorem Built.inv {r : Reg} (h : Built r) : RegInv r ∧ (∃ x, r.has r.root x ∧ x.kind = .context) ∧ ∃ b, r.settings = some b := by
  obtain ⟨a, b, e1, e2, e3, r0, ops, hab, h0, hx⟩ := h
  obtain ⟨i0, s0, t0, m0⟩ := newDoc_inv a b e1 e2 e3 hab r0 h0
  have := execAll_reg (P := fun r => RegInv r ∧ r.root ∈ r.objects ∧ r.settings = some b)
    (by
      intro r op b' r' ⟨h1, h2, h3⟩ hx
      have hm := exec_mono hx
      exact ⟨exec_reginv h1 op b' r' hx, by rw [hm.2.1]; exact hm.1 _ h2, by rw [hm.2.2]; exact h3⟩) ops r0 r
    ⟨i0, by rw [t0]; exact m0, s0⟩ hx
  refine ⟨this.1, ?_, b, this.2.2⟩
  obtain ⟨x, hx, hk⟩ := this.1.rootKind
  exact ⟨x, ⟨this.2.1, hx⟩, hk⟩

/-! ## C23 -/

/-- Ids are unique; looking up an id returns the object that has it; ids take precedence over aliases and an
alias found is an alias of the object found. -/
theorem C23_ids (r : Reg) (h : Built r) :
    (∀ o o' x x', r.has o x → r.has o' x' → x.id = x'.id → o = o') ∧
    (∀ id o, r.getById id = some o ↔ ∃ x, r.has o x ∧ x.id = id) ∧
    (∀ id o, r.getById id = some o → r.getByIdOrAlias id = some o) ∧
    (∀ id o, r.getById id = none → r.getByIdOrAlias id = some o → ∃ x, r.has o x ∧ x.hasAlias id = true) ∧
    (∀ id, r.getByIdOrAlias id = none ↔ ∀ o x, r.has o x → x.id ≠ id ∧ x.hasAlias id = false) := by
  obtain ⟨hi, -, -⟩ := h.inv
  have hal : ∀ id o, (r.objects.find? fun o => match r.obj o with | some x => x.hasAlias id | none => false) = some o →
      ∃ x, r.has o x ∧ x.hasAlias id = true := by
    intro id o hf
    have h1 := List.find?_some hf
    have h2 := List.mem_of_find?_eq_some hf
    obtain ⟨x, hx, -⟩ := hi.objs o h2
    rw [hx] at h1
    exact ⟨x, ⟨h2, hx⟩, h1⟩
  refine ⟨?_, hi.byId, ?_, ?_, ?_⟩
  · intro o o' x x' hx hx' he
    have h1 := (hi.byId x.id o).2 ⟨x, hx, rfl⟩
    have h2 := (hi.byId x.id o').2 ⟨x', hx', he.symm⟩
    rw [h1] at h2; cases h2; rfl
  · intro id o hg; simp [Reg.getByIdOrAlias, hg]
  · intro id o hg hx
    simp only [Reg.getByIdOrAlias, hg] at hx
    exact hal id o hx
  · intro id
    constructor
    · intro hn o x hx
      unfold Reg.getByIdOrAlias at hn
      cases hg : r.getById id with
      | some _ => rw [hg] at hn; cases hn
      | none =>
        rw [hg] at hn
        dsimp only at hn
        rw [List.find?_eq_none] at hn
        refine ⟨fun he => ?_, ?_⟩
        · have := (hi.byId id o).2 ⟨x, hx, he⟩
          rw [hg] at this; cases this
        · have := hn o hx.1
          rw [hx.2] at this
          simpa using this
    · intro hall
      unfold Reg.getByIdOrAlias
      cases hg : r.getById id with
      | some o =>
        obtain ⟨x, hx, he⟩ := (hi.byId id o).1 hg
        exact absurd he (hall o x hx).1
      | none =>
        dsimp only
        cases hf : r.objects.find? (fun o => match r.obj o with | some x => x.hasAlias id | none => false) with
        | none => rfl
        | some o =>
          obtain ⟨x, hx, ha⟩ := hal id o hf
          rw [(hall o x hx).2] at ha; cases ha

/-- Medias, contexts and switches partition the objects; there is one root, a context, and one settings object. -/
theorem C23_partition (r : Reg) (h : Built r) :
    (∀ o, o ∈ r.objects ↔ o ∈ r.medias ∨ o ∈ r.contexts ∨ o ∈ r.switches) ∧
    (∀ o, ¬ (o ∈ r.medias ∧ o ∈ r.contexts) ∧ ¬ (o ∈ r.medias ∧ o ∈ r.switches) ∧ ¬ (o ∈ r.contexts ∧ o ∈ r.switches)) ∧
    r.root ∈ r.contexts ∧
    (∃ b, r.settings = some b ∧ b ∈ r.medias ∧ ∀ o x, r.has o x → (x.kind = .settings ↔ o = b)) := by
  obtain ⟨hi, hroot, b, hb⟩ := h.inv
  have uniq : ∀ {o x y}, r.has o x → r.has o y → x = y := by
    intro o x y h1 h2; have := h1.2.symm.trans h2.2; cases this; rfl
  refine ⟨?_, ?_, ?_, b, hb, ?_, ?_⟩
  · intro o
    rw [hi.medias, hi.contexts, hi.switches]
    constructor
    · intro ho
      obtain ⟨x, hx, -⟩ := hi.objs o ho
      have hh : r.has o x := ⟨ho, hx⟩
      cases hk : x.kind with
      | media => exact .inl ⟨x, hh, .inl hk⟩
      | settings => exact .inl ⟨x, hh, .inr hk⟩
      | context => exact .inr (.inl ⟨x, hh, hk⟩)
      | switch => exact .inr (.inr ⟨x, hh, hk⟩)
    · rintro (⟨x, hx, -⟩ | ⟨x, hx, -⟩ | ⟨x, hx, -⟩) <;> exact hx.1
  · intro o
    rw [hi.medias, hi.contexts, hi.switches]
    refine ⟨?_, ?_, ?_⟩
    · rintro ⟨⟨x, hx, h1⟩, y, hy, h2⟩
      rw [uniq hx hy, h2] at h1; rcases h1 with h1 | h1 <;> cases h1
    · rintro ⟨⟨x, hx, h1⟩, y, hy, h2⟩
      rw [uniq hx hy, h2] at h1; rcases h1 with h1 | h1 <;> cases h1
    · rintro ⟨⟨x, hx, h1⟩, y, hy, h2⟩
      rw [uniq hx hy, h2] at h1; cases h1
  · rw [hi.contexts]; exact hroot
  · rw [hi.medias]
    obtain ⟨x, hx, hk⟩ := (hi.settings b hb b).2 rfl
    exact ⟨x, hx, .inr hk⟩
  · intro o x hx
    rw [← hi.settings b hb o]
    constructor
    · intro hk; exact ⟨x, hx, hk⟩
    · rintro ⟨y, hy, hk⟩; rw [uniq hx hy]; exact hk

/-- Adding an object: refused, changing nothing, exactly if it is in the document or its id is the id or an alias of
an object of the document; otherwise it is added (a second settings object ends the program). -/
theorem C23_add (r : Reg) (h : Built r) (o : Nat) (x : RObj) (hx : r.obj o = some x) :
    ((o ∈ r.objects ∨ ∃ q y, r.has q y ∧ (y.id = x.id ∨ y.hasAlias x.id = true)) → r.addObject o = .ok (false, r)) ∧
    (¬ (o ∈ r.objects ∨ ∃ q y, r.has q y ∧ (y.id = x.id ∨ y.hasAlias x.id = true)) →
      if x.kind = .settings then r.addObject o = .abort
      else ∃ r', r.addObject o = .ok (true, r') ∧ (∀ q, q ∈ r'.objects ↔ q = o ∨ q ∈ r.objects) ∧ r'.getById x.id = some o) := by
  obtain ⟨hi, -, b, hb⟩ := h.inv
  have hids := C23_ids r h
  have hnone := hids.2.2.2.2 x.id
  have key : (r.getByIdOrAlias x.id).isSome ↔ ∃ q y, r.has q y ∧ (y.id = x.id ∨ y.hasAlias x.id = true) := by
    cases hg : r.getByIdOrAlias x.id with
    | none =>
      simp only [Option.isSome_none, Bool.false_eq_true, false_iff]
      rintro ⟨q, y, hy, hor⟩
      obtain ⟨h1, h2⟩ := hnone.1 hg q y hy
      rcases hor with h3 | h3
      · exact h1 h3
      · rw [h2] at h3; cases h3
    | some q =>
      simp only [Option.isSome_some, true_iff]
      apply Classical.byContradiction
      intro hne
      have : r.getByIdOrAlias x.id = none := hnone.2 (by
        intro o y hy
        refine ⟨fun he => hne ⟨o, y, hy, .inl he⟩, ?_⟩
        cases ha : y.hasAlias x.id with
        | false => rfl
        | true => exact absurd ⟨o, y, hy, .inr ha⟩ hne)
      rw [hg] at this; cases this
  rw [← key]
  constructor
  · intro hc
    unfold Reg.addObject
    rw [hx]; dsimp only
    rw [if_pos hc]
  · intro hc
    split
    · next hk =>
      unfold Reg.addObject
      rw [hx]; dsimp only
      rw [if_neg hc, if_pos ⟨by rw [hb]; rfl, hk⟩]
    · next hk =>
      have hd : x.inDoc = false := by
        cases hd : x.inDoc with
        | false => rfl
        | true => exact absurd (.inl (hi.inDoc o x hx hd)) hc
      refine ⟨r.register o x, ?_, ?_, ?_⟩
      · unfold Reg.addObject
        rw [hx]; dsimp only
        rw [if_neg hc, if_neg (fun h => hk h.2), if_neg (by rw [hd]; simp)]
      · intro q
        have : (r.register o x).objects = sinsert o r.objects := by unfold Reg.register; cases x.kind <;> rfl
        rw [this, mem_sinsert]
      · have : (r.register o x).byId = (x.id, o) :: r.byId := by unfold Reg.register; cases x.kind <;> rfl
        simp [Reg.getById, idLookup, this]

/-! ## C24 -/

/-- No two events of an object have the same type and id; a lookup finds exactly the event asked for; there is
exactly one whole-content event. -/
theorem C24_unique (r : Reg) (h : Built r) (o : Nat) (x : RObj) (hx : r.obj o = some x) :
    (∀ (i j : Nat) (p q : Nat × REv), x.events[i]? = some p → x.events[j]? = some q → p.2.typ = q.2.typ → p.2.id = q.2.id → i = j) ∧
    (∀ t id p, x.getEvent t id = some p ↔ p ∈ x.events ∧ p.2.typ = t ∧ p.2.id = id) ∧
    (∃ p ∈ x.events, p.2.typ = .presentation ∧ p.2.id = "@lambda" ∧
      ∀ q ∈ x.events, q.2.typ = .presentation → q.2.id = "@lambda" → q = p) := by
  have he := h.inv.1.ev o x hx
  refine ⟨?_, fun t id p => getEvent_some he, ?_⟩
  · intro i j p q hi hj h1 h2
    have e1 : (x.events.map fun p => (p.2.typ, p.2.id))[i]? = some (p.2.typ, p.2.id) := by simp [List.getElem?_map, hi]
    have e2 : (x.events.map fun p => (p.2.typ, p.2.id))[j]? = some (p.2.typ, p.2.id) := by simp [List.getElem?_map, hj, h1, h2]
    have li := (List.getElem?_eq_some_iff.1 e1).1
    exact (List.getElem?_inj li he.uniq).1 (e1.trans e2.symm)
  · obtain ⟨p, hp, h1, h2⟩ := he.lam
    refine ⟨p, hp, h1, h2, fun q hq h3 h4 => ?_⟩
    have e1 := (getEvent_some he (t := .presentation) (id := "@lambda")).2 ⟨hp, h1, h2⟩
    have e2 := (getEvent_some he (t := .presentation) (id := "@lambda")).2 ⟨hq, h3, h4⟩
    rw [e1] at e2; cases e2; rfl

/-- Adding an event: if one of this type and id exists nothing changes (its interval and label stay); otherwise it can be
looked up with the interval and label given; lookups of other events are unaffected. -/
theorem C24_add (r : Reg) (h : Built r) (o : Nat) (x : RObj) (hx : r.obj o = some x) (a : Nat) (e : REv) :
    r.exec (.addEvent o a e) = .ok (true, r.setObj o (x.addEvent a e)) ∧
    (∀ p, x.getEvent e.typ e.id = some p → x.addEvent a e = x) ∧
    (x.getEvent e.typ e.id = none → (x.addEvent a e).getEvent e.typ e.id = some (a, e)) ∧
    (∀ t id, ¬ (t = e.typ ∧ id = e.id) → (x.addEvent a e).getEvent t id = x.getEvent t id) := by
  have he := h.inv.1.ev o x hx
  have he' := addEvent_evok he a e
  refine ⟨by simp [Reg.exec, hx], ?_, ?_, ?_⟩
  · intro p hp; simp [RObj.addEvent, hp]
  · intro hn
    rw [getEvent_some he']
    refine ⟨?_, rfl, rfl⟩
    simp [RObj.addEvent, hn, mem_einsert]
  · intro t id hne
    have hm : ∀ p, p ∈ (x.addEvent a e).events → p.2.typ = t → p.2.id = id → p ∈ x.events := by
      intro p hp h1 h2
      unfold RObj.addEvent at hp
      split at hp
      · exact hp
      · have hp : p ∈ einsert a e x.events := hp
        rw [mem_einsert] at hp
        rcases hp with rfl | hp
        · exact absurd ⟨h1.symm, h2.symm⟩ hne
        · exact hp
    cases hg : x.getEvent t id with
    | some p =>
      rw [getEvent_some he] at hg
      rw [getEvent_some he']
      exact ⟨addEvent_mem hg.1, hg.2⟩
    | none =>
      rw [getEvent_none] at hg ⊢
      intro p hp hc
      exact hg p (hm p hp hc.1 hc.2) hc

/-- The settings object always has its focus property; a new object has its whole-content event, a new settings object
also the focus property, and no other event. -/
theorem C24_new (r : Reg) (h : Built r) :
    (∀ o x, r.obj o = some x → x.kind = .settings → (x.getEvent .attribution "service.currentFocus").isSome) ∧
    (∀ a k id a1 a2, r.obj a = none → ∃ r' x, r.exec (.new a k id a1 a2) = .ok (true, r') ∧ r'.obj a = some x ∧
      x.id = id ∧ x.kind = k ∧
      ∀ t i, (x.getEvent t i).isSome ↔
        (t = .presentation ∧ i = "@lambda") ∨ (k = .settings ∧ t = .attribution ∧ i = "service.currentFocus")) := by
  refine ⟨fun o x hx hk => ?_, fun a k id a1 a2 ha => ?_⟩
  · obtain ⟨p, hp, h1, h2⟩ := (h.inv.1.ev o x hx).focus hk
    rw [(getEvent_some (h.inv.1.ev o x hx)).2 ⟨hp, h1, h2⟩]; rfl
  · refine ⟨_, newObj k id a1 a2, by simp only [Reg.exec, ha]; rfl, by simp [Reg.setObj], (newObj_fields k id a1 a2).1,
      (newObj_fields k id a1 a2).2.1, fun t i => ?_⟩
    have hm : ∀ p, p ∈ (newObj k id a1 a2).events ↔ p = (a1, { typ := .presentation, id := "@lambda" }) ∨
        (k = .settings ∧ p = (a2, { typ := .attribution, id := "service.currentFocus" })) := by
      intro p
      unfold newObj
      dsimp only
      split
      · next hk =>
        simp [RObj.addEvent, RObj.getEvent, einsert, hk]
        split <;> simp [or_comm]
      · next hk => simp [RObj.addEvent, RObj.getEvent, einsert, hk]
    have : (((newObj k id a1 a2).getEvent t i).isSome = true) ↔ ∃ p ∈ (newObj k id a1 a2).events, p.2.typ = t ∧ p.2.id = i := by
      rw [Option.isSome_iff_exists]
      exact ⟨fun ⟨p, hp⟩ => ⟨p, (getEvent_some (newObj_evok k id a1 a2)).1 hp⟩,
        fun ⟨p, hp⟩ => ⟨p, (getEvent_some (newObj_evok k id a1 a2)).2 hp⟩⟩
    rw [this]
    constructor
    · rintro ⟨p, hp, rfl, rfl⟩
      rcases (hm p).1 hp with rfl | ⟨hk, rfl⟩
      · exact .inl ⟨rfl, rfl⟩
      · exact .inr ⟨hk, rfl, rfl⟩
    · rintro (⟨rfl, rfl⟩ | ⟨hk, rfl, rfl⟩)
      · exact ⟨_, (hm _).2 (.inl rfl), rfl, rfl⟩
      · exact ⟨_, (hm _).2 (.inr ⟨hk, rfl⟩), rfl, rfl⟩

end Ginga
