import Verif.Proofs.Tree
/-!
# Aliases

Only the root, media objects and the settings object get aliases, and each alias is the identifier of an element.
-/
namespace Ginga

/-- What one operation does to the kinds and aliases of the objects. -/
theorem exec_alias {r r' : Reg} {op : RegOp} {b : Bool} (hi : (∀ c q, op ≠ .addChild c q) ∨ RegInv r) (hop : ∀ o, op ≠ .addObject o) (h : r.exec op = .ok (b, r')) {o : Nat} {x' : RObj}
    (hx' : r'.obj o = some x') :
    (∃ x, r.obj o = some x ∧ x'.kind = x.kind ∧ x'.id = x.id ∧ (x'.aliases = x.aliases ∨ ∃ a c, op = .addAlias o a c ∧ x'.aliases = x.aliases ++ [(a, c)])) ∨
    (∃ k id a1 a2, op = .new o k id a1 a2 ∧ r.obj o = none ∧ x'.kind = k ∧ x'.id = id ∧ x'.aliases = []) := by
  cases op with
  | addObject q => exact absurd rfl (hop q)
  | new a k id a1 a2 =>
    simp only [Reg.exec] at h
    cases ha : r.obj a with
    | some x => rw [ha] at h; cases h; exact .inl ⟨x', hx', rfl, rfl, .inl rfl⟩
    | none =>
      rw [ha] at h; cases h
      simp only [Reg.setObj, upd] at hx'
      split at hx'
      · next e =>
        subst e; cases hx'
        have f := newObj_fields k id a1 a2
        exact .inr ⟨k, id, a1, a2, rfl, ha, f.2.1, f.1, f.2.2.2.2.2⟩
      · exact .inl ⟨x', hx', rfl, rfl, .inl rfl⟩
  | addAlias q a c =>
    simp only [Reg.exec, Reg.addAlias] at h
    cases ho : r.obj q with
    | none => rw [ho] at h; cases h
    | some x =>
      rw [ho] at h
      dsimp only at h
      split at h
      · cases h; exact .inl ⟨x', hx', rfl, rfl, .inl rfl⟩
      · cases h
        simp only [Reg.setObj, upd] at hx'
        split at hx'
        · next e => subst e; cases hx'; exact .inl ⟨x, ho, rfl, rfl, .inr ⟨a, c, rfl, rfl⟩⟩
        · exact .inl ⟨x', hx', rfl, rfl, .inl rfl⟩
  | addEvent q a e =>
    simp only [Reg.exec] at h
    cases ho : r.obj q with
    | none => rw [ho] at h; cases h
    | some x =>
      rw [ho] at h; cases h
      have f := addEvent_fields x a e
      simp only [Reg.setObj, upd] at hx'
      split at hx'
      · next e' =>
        subst e'; cases hx'
        refine .inl ⟨x, ho, f.2.1, f.1, .inl ?_⟩
        unfold RObj.addEvent; split <;> rfl
      · exact .inl ⟨x', hx', rfl, rfl, .inl rfl⟩
  | addChild c q =>
    simp only [Reg.exec] at h
    rcases hi with hi | hi
    · exact absurd rfl (hi c q)
    rcases (addChild_shape hi h).2 with ⟨rfl, -⟩ | ⟨y, x, hy, hx, -, -, -, hco, -, -, hc', ho', hq⟩
    · exact .inl ⟨x', hx', rfl, rfl, .inl rfl⟩
    · by_cases e1 : o = c
      · subst e1; rw [hc'] at hx'; cases hx'; exact .inl ⟨y, hy, rfl, rfl, .inl rfl⟩
      · by_cases e2 : o = q
        · subst e2; rw [ho'] at hx'; cases hx'; exact .inl ⟨x, hx, rfl, rfl, .inl rfl⟩
        · rw [hq o e1 e2] at hx'; exact .inl ⟨x', hx', rfl, rfl, .inl rfl⟩

/-! ## The map of references -/

/-- Lookup in the map of references. -/
def refIdx (l : List (String × Nat)) (a : String) : Option Nat := (l.find? fun p => p.1 == a).map (·.2)

theorem refIdx_cons (p : String × Nat) (l : List (String × Nat)) (a : String) : refIdx (p :: l) a = if p.1 = a then some p.2 else refIdx l a := by
  unfold refIdx
  by_cases h : p.1 = a
  · rw [List.find?_cons_of_pos (by simpa using h), if_pos h]; rfl
  · rw [List.find?_cons_of_neg (by simpa using h), if_neg h]

theorem refIdx_none {l : List (String × Nat)} {a : String} (h : ∀ p ∈ l, a < p.1) : refIdx l a = none := by
  induction l with
  | nil => rfl
  | cons p l ih =>
    rw [refIdx_cons, if_neg, ih fun q hq => h q (by simp [hq])]
    intro he
    have := h p (by simp)
    rw [he] at this
    exact String.lt_irrefl _ this

theorem refIdx_add {id a : String} {m : Nat} : ∀ {l : List (String × Nat)}, l.Pairwise (fun p q => p.1 < q.1) →
    refIdx (referAdd id m l) a = match refIdx l a with | some m' => some m' | none => if id = a then some m else none
  | [], _ => by simp [referAdd, refIdx_cons, refIdx]
  | p :: l, h => by
    have h1 := (List.pairwise_cons.1 h).1
    unfold referAdd
    split
    · next e =>
      cases hc : refIdx (p :: l) a with
      | some m' => rfl
      | none =>
        rw [refIdx_cons] at hc
        split at hc
        · cases hc
        · next hp => rw [if_neg (by rw [e]; exact hp)]
    · next e =>
      split
      · next e' =>
        rw [refIdx_cons]
        by_cases ha : id = a
        · subst ha
          rw [if_pos rfl, refIdx_none, if_pos rfl]
          intro q hq
          rcases List.mem_cons.1 hq with rfl | hq
          · exact e'
          · exact String.lt_trans e' (h1 q hq)
        · rw [if_neg ha, if_neg ha]; cases refIdx (p :: l) a <;> rfl
      · rw [refIdx_cons, refIdx_cons]
        split
        · rfl
        · exact refIdx_add (List.pairwise_cons.1 h).2

theorem referAdd_sorted {id : String} {m : Nat} : ∀ {l : List (String × Nat)}, l.Pairwise (fun p q => p.1 < q.1) → (referAdd id m l).Pairwise (fun p q => p.1 < q.1)
  | [], _ => by simp [referAdd]
  | p :: l, h => by
    have h1 := (List.pairwise_cons.1 h)
    unfold referAdd
    split
    · exact h
    · next e =>
      split
      · next e' =>
        refine List.pairwise_cons.2 ⟨fun q hq => ?_, h⟩
        rcases List.mem_cons.1 hq with rfl | hq
        · exact e'
        · exact String.lt_trans e' (h1.1 q hq)
      · next e' =>
        refine List.pairwise_cons.2 ⟨fun q hq => ?_, referAdd_sorted h1.2⟩
        rcases mem_referAdd hq with rfl | hq
        · rcases Decidable.em (p.1 < id) with h | h
          · exact h
          · exact absurd (String.le_antisymm (String.not_lt.1 h) (String.not_lt.1 e')) e
        · exact h1.1 q hq

theorem redirect_fst {tmp m : Nat} : ∀ {l l' : List (String × Nat)} {keys : List String}, redirect tmp m l = some (l', keys) → l'.map Prod.fst = l.map Prod.fst
  | [], _, _, h => by simp [redirect] at h
  | p :: l, l', keys, h => by
    unfold redirect at h
    split at h
    · obtain ⟨⟨a, b⟩, h1, h2⟩ := Option.map_eq_some_iff.1 h
      cases h2
      simp [redirect_fst h1]
    · cases h; rfl

theorem redirect_idx {tmp m : Nat} {a : String} : ∀ {l l' : List (String × Nat)} {keys : List String}, redirect tmp m l = some (l', keys) →
    ∀ (o : Nat), o ≠ tmp → refIdx l a = some o → refIdx l' a = some o
  | [], _, _, h => by simp [redirect] at h
  | p :: l, l', keys, h => by
    intro o ho hi
    unfold redirect at h
    split at h
    · next hp =>
      obtain ⟨⟨b, c⟩, h1, h2⟩ := Option.map_eq_some_iff.1 h
      cases h2
      rw [refIdx_cons] at hi ⊢
      split
      · next e => rw [if_pos e] at hi; cases hi; exact absurd hp ho
      · next e => rw [if_neg e] at hi; exact redirect_idx h1 o ho hi
    · cases h; exact hi

theorem sorted_of_fst {l l' : List (String × Nat)} (h : l'.map Prod.fst = l.map Prod.fst) (hs : l.Pairwise (fun p q => p.1 < q.1)) : l'.Pairwise (fun p q => p.1 < q.1) := by
  have : (l.map Prod.fst).Pairwise (· < ·) := List.pairwise_map.2 hs
  rw [← h] at this
  exact List.pairwise_map.1 this

def RKind.isMedia (k : RKind) : Prop := k = .media ∨ k = .settings

/-- The names of objects: `T`, the aliases of the root; `B`, those of media objects; `R`, the names referred to; `D`, the objects deleted. -/
structure Names (E : PRead) (r : Reg) (n : Nat) (refer : List (String × Nat)) (T R : String → Prop) (D : Nat → Prop) (B : String → Nat → Prop) : Prop where
  sorted : refer.Pairwise fun p q => p.1 < q.1
  refer : ∀ q ∈ refer, (∃ i, i < n ∧ q.2 = E.addr i) ∧ ∀ x, r.obj q.2 = some x → x.kind.isMedia ∧ (B q.1 q.2 ∨ (x.id = q.1 ∧ R q.1))
  dead : ∀ o, D o → r.obj o = none ∧ ∃ i, i < n ∧ o = E.addr i
  alias : ∀ o x p, r.obj o = some x → p ∈ x.aliases → (o = r.root ∧ T p.1) ∨ (x.kind.isMedia ∧ B p.1 o)

theorem Names.mono {E : PRead} {r : Reg} {n m : Nat} {refer : List (String × Nat)} {T T' R R' : String → Prop} {D : Nat → Prop} {B B' : String → Nat → Prop} (h : Names E r n refer T R D B)
    (hn : n ≤ m) (hT : ∀ a, T a → T' a) (hR : ∀ a, R a → R' a) (hB : ∀ a o, B a o → B' a o) : Names E r m refer T' R' D B' where
  refer q hq := by
    obtain ⟨⟨i, h1, h2⟩, h3⟩ := h.refer q hq
    refine ⟨⟨i, by omega, h2⟩, fun x hx => ⟨(h3 x hx).1, (h3 x hx).2.imp (hB _ _) (fun h => ⟨h.1, hR _ h.2⟩)⟩⟩
  sorted := h.sorted
  dead o ho := by
    obtain ⟨h1, i, h2, h3⟩ := h.dead o ho
    exact ⟨h1, i, by omega, h3⟩
  alias o x p hx hp := (h.alias o x p hx hp).imp (fun h => ⟨h.1, hT _ h.2⟩) (fun h => ⟨h.1, hB _ _ h.2⟩)

theorem Names.exec {E : PRead} (hinj : ∀ i j, E.addr i = E.addr j → i = j) {r r' : Reg} {n : Nat} {refer : List (String × Nat)} {T R : String → Prop} {D : Nat → Prop} {B : String → Nat → Prop}
    (h : Names E r n refer T R D B) {op : RegOp} {b : Bool} (hi : (∀ c q, op ≠ .addChild c q) ∨ RegInv r) (hop : ∀ o, op ≠ .addObject o) (hx : r.exec op = .ok (b, r'))
    (ha : ∀ o a c, op = .addAlias o a c → ∀ x, r.obj o = some x → (o = r.root ∧ T a) ∨ (x.kind.isMedia ∧ B a o))
    (hnew : ∀ a k id a1 a2, op = .new a k id a1 a2 → ∃ i, n ≤ i ∧ a = E.addr i) : Names E r' n refer T R D B where
  refer q hq := by
    obtain ⟨⟨i, h1, h2⟩, h3⟩ := h.refer q hq
    refine ⟨⟨i, h1, h2⟩, fun x' hx' => ?_⟩
    rcases exec_alias hi hop hx hx' with ⟨x, e1, e2, e3, -⟩ | ⟨k, id, a1, a2, e1, -⟩
    · rw [e2, e3]; exact h3 x e1
    · obtain ⟨j, h4, h5⟩ := hnew _ _ _ _ _ e1
      have := hinj i j (h2.symm.trans h5); omega
  sorted := h.sorted
  dead o ho := by
    obtain ⟨h1, i, h2, h3⟩ := h.dead o ho
    refine ⟨?_, i, h2, h3⟩
    cases hx' : r'.obj o with
    | none => rfl
    | some x' =>
      rcases exec_alias hi hop hx hx' with ⟨x, e1, -⟩ | ⟨k, id, a1, a2, e1, -⟩
      · rw [h1] at e1; cases e1
      · obtain ⟨j, h4, h5⟩ := hnew _ _ _ _ _ e1
        have := hinj i j (h3.symm.trans h5); omega
  alias o x' p hx' hp := by
    rw [(exec_mono hx).2.1]
    rcases exec_alias hi hop hx hx' with ⟨x, e1, e2, -, e3⟩ | ⟨k, id, a1, a2, -, -, -, -, e4⟩
    · rw [e2]
      rcases e3 with e3 | ⟨a, c, e3, e4⟩
      · rw [e3] at hp; exact h.alias o x p e1 hp
      · rw [e4] at hp
        rcases List.mem_append.1 hp with hp | hp
        · exact h.alias o x p e1 hp
        · obtain rfl : p = (a, c) := by simpa using hp
          exact ha o a c e3 x e1
    · rw [e4] at hp; cases hp

theorem Names.del {E : PRead} {r : Reg} {n : Nat} {refer : List (String × Nat)} {T R : String → Prop} {D : Nat → Prop} {B : String → Nat → Prop} (h : Names E r n refer T R D B) {o : Nat} (ho : ∃ i, i < n ∧ o = E.addr i) :
    Names E { r with obj := upd r.obj o none } n refer T R (fun q => D q ∨ q = o) B where
  sorted := h.sorted
  dead q hq := by
    rcases hq with hq | rfl
    · refine ⟨?_, (h.dead q hq).2⟩
      show upd r.obj o none q = none
      simp only [upd]
      split
      · rfl
      · exact (h.dead q hq).1
    · exact ⟨by simp [upd], ho⟩
  refer q hq := by
    refine ⟨(h.refer q hq).1, fun x hx => ?_⟩
    simp only [upd] at hx
    split at hx
    · cases hx
    · exact (h.refer q hq).2 x hx
  alias q x p hx hp := by
    simp only [upd] at hx
    split at hx
    · cases hx
    · exact h.alias q x p hx hp

theorem Names.referAdd {E : PRead} {r : Reg} {n : Nat} {refer : List (String × Nat)} {T R : String → Prop} {D : Nat → Prop} {B : String → Nat → Prop} (h : Names E r n refer T R D B)
    {id : String} {m : Nat} (hm : (∃ i, i < n ∧ m = E.addr i) ∧ ∀ x, r.obj m = some x → x.kind.isMedia ∧ (B id m ∨ (x.id = id ∧ R id))) :
    Names E r n (Ginga.referAdd id m refer) T R D B where
  sorted := referAdd_sorted h.sorted
  dead := h.dead
  refer q hq := by
    rcases mem_referAdd hq with rfl | hq
    · exact hm
    · exact h.refer q hq
  alias := h.alias

/-- The names in a state of the parser. -/
def NamesOf (E : PRead) (T R : String → Prop) (D : Nat → Prop) (B : String → Nat → Prop) (s : PS) : Prop := Names E s.reg s.nalloc s.refer T R D B

/-- Steps that keep the names. -/
def NStep (E : PRead) (T R : String → Prop) (D : Nat → Prop) (B : String → Nat → Prop) (s t : PS) : Prop := OStep E s t ∧ (WorldOf E s → NamesOf E T R D B s → NamesOf E T R D B t)

theorem nstep_same {E : PRead} {T R : String → Prop} {D : Nat → Prop} {B : String → Nat → Prop} {s t : PS} (h1 : t.reg = s.reg) (h2 : t.nalloc = s.nalloc) (h3 : t.refer = s.refer) (h4 : t.syn = s.syn) :
    NStep E T R D B s t := ⟨ostep_same h1 h2 h3 h4, fun _ h => by unfold NamesOf; rw [h1, h2, h3]; exact h⟩

theorem nstep_atom {E : PRead} (hinj : ∀ i j, E.addr i = E.addr j → i = j) (T R : String → Prop) (D : Nat → Prop) (B : String → Nat → Prop) : PAtom E (fun _ => True) (NStep E T R D B) where
  refl _ := nstep_same rfl rfl rfl rfl
  trans h h' := ⟨(ostep_pre E).trans h.1 h'.1, fun w hn => h'.2 (h.1.2 w).1 (h.2 w hn)⟩
  event o e _ s := by
    refine ((ostep_addEvent hinj o e s).and ?_).mono fun _ t h => h
    unfold addEvent
    refine PPost.bind' (PPost.alloc ?_)
    refine PPost.regOp fun b r h w hn => ?_
    exact (Names.mono hn (Nat.le_succ _) (fun _ h => h) (fun _ h => h) (fun _ _ h => h)).exec hinj (.inr w.inv) (by simp) h (by simp) (by simp)
  props _ _ _ _ _ _ := nstep_same rfl rfl rfl rfl
  par _ _ _ := nstep_same rfl rfl rfl rfl
  conn _ _ := nstep_same rfl rfl rfl rfl
  pred _ _ _ := nstep_same rfl rfl rfl rfl
  names _ _ := trivial
  attr _ _ _ _ _ := nstep_same rfl rfl rfl rfl
  elt _ _ _ _ _ _ := nstep_same rfl rfl rfl rfl

section
variable {E : PRead} {T R : String → Prop} {D : Nat → Prop} {B : String → Nat → Prop}

theorem newObject_names (hinj : ∀ i j, E.addr i = E.addr j → i = j) {s : PS} (w : WorldOf E s) (h : NamesOf E T R D B s) (k : RKind) (id : String) :
    PPost (newObject E k id) (fun o t => NewAt E s t o k id ∧ NamesOf E T R D B t ∧ ∃ i, i < t.nalloc ∧ o = E.addr i) s := by
  refine (newObject_post hinj w k id).and ?_
  unfold newObject
  refine PPost.bind' (PPost.alloc (PPost.bind' (PPost.alloc (PPost.bind' (PPost.alloc ?_)))))
  refine PPost.bind' (PPost.regOp fun b r hx => PPost.pure' ⟨?_, s.nalloc, ?_, rfl⟩)
  · have h' : s.reg.exec (.new (E.addr s.nalloc) k id (E.addr (s.nalloc + 1)) (E.addr (s.nalloc + 2))) = .ok (b, r) := hx
    have := h.exec hinj (.inr w.inv) (by simp) h' (by simp) (fun a k' id' a1 a2 e => ⟨s.nalloc, Nat.le_refl _, by cases e; rfl⟩)
    exact this.mono (by show s.nalloc ≤ s.nalloc + 1 + 1 + 1; omega) (fun _ h => h) (fun _ h => h) (fun _ _ h => h)
  · show s.nalloc < s.nalloc + 1 + 1 + 1; omega

theorem adopt_names (hinj : ∀ i j, E.addr i = E.addr j → i = j) {s : PS} (w : WorldOf E s) (h : NamesOf E T R D B s) (k : RKind) (id : String) (p : Nat) :
    PPost (do let o ← newObject E k id; regOp (.addChild p o); pushObj o) (fun _ t => NamesOf E T R D B t) s := by
  refine PPost.bind ((newObject_names hinj w h k id).mono fun o t h => ?_)
  refine PPost.bind (PPost.regOp fun b r hx => PPost.modify ?_)
  exact h.2.1.exec hinj (.inr h.1.world.inv) (by simp) hx (by simp) (by simp)

theorem pushSwitch_names (hinj : ∀ i j, E.addr i = E.addr j → i = j) {s : PS} (w : WorldOf E s) (h : NamesOf E T R D B s) (k : Nat) :
    PPost (pushSwitch E k) (fun _ t => NamesOf E T R D B t) s := by
  unfold pushSwitch
  refine PPost.bind (PPost.peekComp fun p l x h1 h2 h3 => PPost.bind (PPost.attr! fun id hid => ?_))
  exact adopt_names hinj w h .switch id p

theorem aliasOpt_names (hinj : ∀ i j, E.addr i = E.addr j → i = j) {s : PS} (w : WorldOf E s) (h : NamesOf E T R D B s) (c : Nat) (a : Option String) (ha : ∀ i, a = some i → T i) :
    PPost (match a with | some id => regOp (.addAlias s.reg.root id c) | none => pure ()) (fun _ t => NamesOf E T R D B t) s := by
  cases a with
  | none => exact PPost.pure h
  | some id =>
    refine PPost.regOp fun b r hx => h.exec hinj (.inr w.inv) (by simp) hx (fun o a c e x _ => ?_) (by simp)
    cases e; exact .inl ⟨rfl, ha _ rfl⟩

theorem pushNcl_names (hinj : ∀ i j, E.addr i = E.addr j → i = j) {s : PS} (w : WorldOf E s) (h : NamesOf E T R D B s) (k : Nat) (ha : ∀ i, s.attr k "id" = some i → T i) :
    PPost (pushNcl k) (fun _ t => NamesOf E T R D B t) s := by
  unfold pushNcl
  exact PPost.bind (PPost.get (PPost.bind ((aliasOpt_names hinj w h _ _ ha).mono fun _ t h => PPost.modify h)))

theorem pushContext_names (hinj : ∀ i j, E.addr i = E.addr j → i = j) {s : PS} (w : WorldOf E s) (h : NamesOf E T R D B s) (k : Nat)
    (ha : (s.elt k).tag = "body" → (∀ i, s.attr k "id" = some i → T i) ∧ ∀ o l, s.objs = o :: l → o = s.reg.root) :
    PPost (pushContext E k) (fun _ t => NamesOf E T R D B t) s := by
  unfold pushContext
  refine PPost.bind (PPost.get ?_)
  split
  · next hb =>
    refine PPost.bind (PPost.peekObj fun o l ho => PPost.bind (PPost.object fun x hx => ?_))
    obtain rfl := (ha hb).2 o l ho
    split
    · exact PPost.bind ((aliasOpt_names hinj w h _ _ (ha hb).1).mono fun _ t h => PPost.modify h)
    · exact PPost.abort
  · exact PPost.bind (PPost.peekComp fun p l x h1 h2 h3 => PPost.bind (PPost.attr! fun id hid => adopt_names hinj w h .context id p))

theorem pushRefer_names (hinj : ∀ i j, E.addr i = E.addr j → i = j) {s : PS} (w : WorldOf E s) (h : NamesOf E T R D B s) (id refer : String) (hR : R refer) :
    PPost (pushRefer E id refer) (fun m t => NamesOf E T R D (fun a o => B a o ∨ (a = id ∧ o = m)) t) s := by
  unfold pushRefer
  refine PPost.bind (PPost.get ?_)
  dsimp only
  have rest : ∀ (m : Nat) (t : PS), WorldOf E t → NamesOf E T R D B t → (∃ i, i < t.nalloc ∧ m = E.addr i) → (∀ x, t.reg.obj m = some x → x.kind.isMedia) →
      PPost (do
        let parent ← peekComp
        regOp (.addAlias m id parent)
        PM.modify fun s => { s with refer := Ginga.referAdd id m s.refer }
        pure m) (fun m t => NamesOf E T R D (fun a o => B a o ∨ (a = id ∧ o = m)) t) t := by
    intro m t wt nt hi hk
    refine PPost.bind (PPost.peekComp fun p l x h1 h2 h3 => PPost.bind (PPost.regOp fun b r hx => PPost.bind (PPost.modify (PPost.pure ?_))))
    have n1 : NamesOf E T R D (fun a o => B a o ∨ (a = id ∧ o = m)) t := nt.mono (Nat.le_refl _) (fun _ h => h) (fun _ h => h) (fun _ _ h => .inl h)
    have n2 := n1.exec hinj (.inr wt.inv) (by simp) hx (fun o a c e x hx => by cases e; exact .inr ⟨hk x hx, .inr ⟨rfl, rfl⟩⟩) (by simp)
    refine n2.referAdd ⟨hi, fun x' hx' => ?_⟩
    rcases exec_alias (.inr wt.inv) (by simp) hx hx' with ⟨x, e1, e2, -⟩ | ⟨_, _, _, _, e1, -⟩
    · exact ⟨e2 ▸ hk x e1, .inl (.inr ⟨rfl, rfl⟩)⟩
    · cases e1
  split
  · next o ho =>
    have : (∃ i, i < s.nalloc ∧ o = E.addr i) ∧ ∀ x, s.reg.obj o = some x → x.kind.isMedia := by
      split at ho
      · split at ho
        · next x hx =>
          split at ho
          · next hk =>
            cases ho
            obtain ⟨i, h1, h2⟩ := w.objAddr _ _ hx
            exact ⟨⟨i, h1, h2⟩, fun y hy => by rw [hx] at hy; cases hy; exact hk⟩
          · cases ho
        · cases ho
      · cases ho
    exact PPost.bind (PPost.pure (rest _ s w h this.1 this.2))
  · refine PPost.bind ?_
    split
    · next m hm =>
      have hq := h.refer _ (referIdx_mem hm)
      refine PPost.bind (PPost.pure (PPost.bind (PPost.modify (PPost.pure (rest _ _ ?_ ?_ hq.1 (fun x hx => (hq.2 x hx).1))))))
      · refine World.referSub w fun q hq hu => ?_
        rcases mem_referAdd hq with rfl | h
        · exact referIdx_mem hm
        · exact h
      · exact h.referAdd hq
    · refine PPost.bind ((newObject_names hinj w h .media refer).mono fun o t h => PPost.bind (PPost.modify (PPost.pure ?_)))
      obtain ⟨x, h1, h2, h3, h4, h5⟩ := h.1.obj
      have hk : ∀ y, t.reg.obj o = some y → y = x := fun y hy => by rw [h1] at hy; exact (Option.some.inj hy).symm
      refine rest _ _ (World.referAdd h.1.world (.inr ⟨x, h1, h2, h3, h4⟩)) (h.2.1.referAdd ⟨h.2.2, fun y hy => ?_⟩) h.2.2 (fun y hy => ?_)
      · rw [hk y hy]; exact ⟨.inl h3, .inr ⟨h2, hR⟩⟩
      · rw [hk y hy]; exact .inl h3

theorem redirect_keys {tmp m : Nat} : ∀ {l l' : List (String × Nat)} {keys : List String}, redirect tmp m l = some (l', keys) → ∀ a ∈ keys, (a, tmp) ∈ l
  | [], _, _, h => by simp [redirect] at h
  | p :: l, l', keys, h => by
    unfold redirect at h
    split at h
    · next hp =>
      obtain ⟨⟨a, b⟩, h1, h2⟩ := Option.map_eq_some_iff.1 h
      cases h2
      intro q hq
      rcases List.mem_cons.1 hq with rfl | hq
      · rw [← hp]; simp
      · have := redirect_keys h1 q hq; simp [this]
    · cases h; intro q hq; cases hq

theorem redirect_nil {tmp m : Nat} : ∀ {l l' : List (String × Nat)}, redirect tmp m l = some (l', []) → l' = l
  | [], _, h => by simp [redirect] at h
  | p :: l, l', h => by
    unfold redirect at h
    split at h
    · obtain ⟨⟨a, b⟩, h1, h2⟩ := Option.map_eq_some_iff.1 h
      cases h2
    · cases h; rfl

theorem pushSettings_names (hinj : ∀ i j, E.addr i = E.addr j → i = j) {s : PS} {U : List String} (w : World E s.reg s.nalloc s.refer U) (hU : ∀ a ∈ U, a ∈ s.syn.unique)
    (h : NamesOf E T R D B s) (id : String) (hn : id ∉ U) :
    PPost (pushSettings id) (fun m t => s.reg.settings = some m ∧ ∃ D' : Nat → Prop, (∀ o, D o → D' o) ∧
      NamesOf E T R D' (fun a o => B a o ∨ (a = id ∧ o = m) ∨ (o = m ∧ ∃ o', D' o' ∧ B a o')) t ∧
      (∀ a o, refIdx s.refer a = some o → a ∉ U → a ≠ id → refIdx t.refer a = some o)) s := by
  have ws : WorldOf E s := World.grow w (Nat.le_refl _) hU
  obtain ⟨sb, sy, hs1, hs2, hs3, -⟩ := ws.settings
  unfold pushSettings
  refine PPost.bind (PPost.get (PPost.bind (PPost.some! fun m hm => ?_)))
  rw [hs1] at hm; obtain rfl : sb = m := by simpa using hm
  -- the last part
  have alias : ∀ (D' : Nat → Prop) (B' : String → Nat → Prop) (t : PS) a c, NamesOf E T R D' B' t → B' a sb → (∃ y, t.reg.obj sb = some y ∧ y.kind = .settings) →
      PPost (regOp (.addAlias sb a c)) (fun _ t' => NamesOf E T R D' B' t' ∧ (∃ y, t'.reg.obj sb = some y ∧ y.kind = .settings) ∧ t'.nalloc = t.nalloc ∧ t'.refer = t.refer) t := by
    rintro D' B' t a c h2 hb ⟨y, h3, h4⟩
    refine PPost.regOp fun b r hx => ⟨?_, ?_, rfl, rfl⟩
    · refine h2.exec hinj (.inl (by simp)) (by simp) hx (fun o a c e x hx => ?_) (by simp)
      cases e
      rw [h3] at hx; cases hx
      exact .inr ⟨.inr h4, hb⟩
    · simp only [Reg.exec, Reg.addAlias, h3] at hx
      split at hx
      · cases hx; exact ⟨y, h3, h4⟩
      · cases hx
        refine ⟨_, upd_same .., h4⟩
  have last : ∀ (D' : Nat → Prop) (B' : String → Nat → Prop) (t : PS), NamesOf E T R D' B' t → (∃ y, t.reg.obj sb = some y ∧ y.kind = .settings) → s.nalloc ≤ t.nalloc → (∀ o, D o → D' o) →
      (∀ a o, B' a o → B a o ∨ (a = id ∧ o = sb) ∨ (o = sb ∧ ∃ o', D' o' ∧ B a o')) →
      (∀ a o, refIdx s.refer a = some o → a ∉ U → a ≠ id → refIdx t.refer a = some o) →
      PPost (do
        let parent ← peekComp
        regOp (.addAlias sb id parent)
        PM.modify fun s => { s with refer := Ginga.referAdd id sb s.refer }
        pure sb) (fun m t => s.reg.settings = some m ∧ ∃ D' : Nat → Prop, (∀ o, D o → D' o) ∧
      NamesOf E T R D' (fun a o => B a o ∨ (a = id ∧ o = m) ∨ (o = m ∧ ∃ o', D' o' ∧ B a o')) t ∧
      (∀ a o, refIdx s.refer a = some o → a ∉ U → a ≠ id → refIdx t.refer a = some o)) t := by
    intro D' B' t h1 h2 h3 hD hB hidx
    have n1 : NamesOf E T R D' (fun a o => B a o ∨ (a = id ∧ o = sb) ∨ (o = sb ∧ ∃ o', D' o' ∧ B a o')) t :=
      h1.mono (Nat.le_refl _) (fun _ h => h) (fun _ h => h) hB
    refine PPost.bind (PPost.peekComp fun p l x _ _ _ => PPost.bind ((alias D' _ t id p n1 (.inr (.inl ⟨rfl, rfl⟩)) h2).mono ?_))
    rintro - t' ⟨g2, ⟨y, g3, g4⟩, g5, g6⟩
    refine PPost.bind (PPost.modify (PPost.pure ⟨hs1, D', hD, ?_, ?_⟩))
    · refine g2.referAdd ⟨?_, fun x hx => ?_⟩
      · obtain ⟨i, e1, e2⟩ := ws.objAddr _ _ hs2
        exact ⟨i, by rw [g5]; omega, e2⟩
      · rw [g3] at hx; cases hx
        exact ⟨.inr g4, .inl (.inr (.inl ⟨rfl, rfl⟩))⟩
    · intro a o h1 h2 h3
      have := hidx a o h1 h2 h3
      show refIdx (Ginga.referAdd id sb t'.refer) a = _
      rw [refIdx_add g2.sorted, g6, this]
  have n0 := h.mono (Nat.le_refl _) (fun _ h => h) (fun _ h => h) (fun _ _ h => h)
  split
  · exact PPost.bind (PPost.pure (last D B s h ⟨sy, hs2, hs3⟩ (Nat.le_refl _) (fun _ h => h) (fun a o h => .inl h) (fun a o h _ _ => h)))
  · next tmp ht =>
    have htm := referIdx_mem ht
    obtain ⟨x, hx1, hx2, hx3, hx4⟩ := w.wait _ htm hn
    have hx1' : s.reg.obj tmp = some x := hx1
    have htb : tmp ≠ sb := by
      rintro rfl
      rw [hs2] at hx1'; cases hx1'; rw [hs3] at hx3; cases hx3
    -- names not seen yet wait for another object
    have other : ∀ a o, refIdx s.refer a = some o → a ∉ U → a ≠ id → o ≠ tmp := by
      rintro a o ha hu hid rfl
      obtain ⟨y, hy1, hy2, -⟩ := w.wait _ (referIdx_mem ha) hu
      have : x = y := by
        have hy1' : s.reg.obj o = some y := hy1
        rw [hx1'] at hy1'; exact Option.some.inj hy1'
      subst this; exact hid (hy2.symm.trans hx2)
    have key : ∀ a, (a, tmp) ∈ s.refer → B a tmp ∨ a = id := by
      intro a ha
      rcases ((h.refer _ ha).2 x hx1).2 with h' | h'
      · exact .inl h'
      · exact .inr (h'.1.symm.trans hx2)
    split
    · exact PPost.bind PPost.ub
    · next l keys hr =>
      by_cases hkeys : keys = []
      · subst hkeys
        have hl := redirect_nil hr
        subst hl
        refine PPost.bind (PPost.bind (PPost.modify (PPost.bind (PPost.pure' ?_))))
        rw [if_pos rfl]
        refine PPost.pure ?_
        exact last D B { s with refer := s.refer } h ⟨sy, hs2, hs3⟩ (Nat.le_refl _) (fun _ h => h) (fun a o h => .inl h) (fun a o h _ _ => h)
      · let B' : String → Nat → Prop := fun a o => B a o ∨ (a = id ∧ o = sb) ∨ (o = sb ∧ B a tmp)
        have n1 : NamesOf E T R D B' { s with refer := l } := by
          refine ⟨sorted_of_fst (redirect_fst hr) h.sorted, fun q hq => ?_, h.dead, fun o x p hx hp => (h.alias o x p hx hp).imp_right fun h => ⟨h.1, .inl h.2⟩⟩
          rcases redirect_spec hr q hq with h' | ⟨h', h''⟩
          · obtain ⟨g1, g2⟩ := h.refer q h'
            exact ⟨g1, fun x hx => ⟨(g2 x hx).1, (g2 x hx).2.imp_left .inl⟩⟩
          · rw [h']
            refine ⟨ws.objAddr _ _ hs2, fun y hy => ?_⟩
            have hy : s.reg.obj sb = some y := hy
            rw [hs2] at hy; cases hy
            refine ⟨.inr hs3, .inl ?_⟩
            rcases key _ h'' with h | h
            · exact .inr (.inr ⟨rfl, h⟩)
            · exact .inr (.inl ⟨h, rfl⟩)
        have i1 : (fun t : PS => NamesOf E T R D B' t ∧ (∃ y, t.reg.obj sb = some y ∧ y.kind = .settings) ∧ t.nalloc = s.nalloc ∧ t.refer = l) { s with refer := l } :=
          ⟨n1, ⟨sy, hs2, hs3⟩, rfl, rfl⟩
        refine PPost.bind (PPost.bind (PPost.modify (PPost.bind ((PPost.forEach (I := fun t : PS => NamesOf E T R D B' t ∧ (∃ y, t.reg.obj sb = some y ∧ y.kind = .settings) ∧ t.nalloc = s.nalloc ∧ t.refer = l) i1 ?_).mono ?_))))
        · rintro a ha t ⟨h1, h2, h3, h4⟩
          refine (alias D B' t a 0 h1 ?_ h2).mono fun _ t' h' => ⟨h'.1, h'.2.1, by rw [h'.2.2.1]; exact h3, by rw [h'.2.2.2]; exact h4⟩
          rcases key a (redirect_keys hr a ha) with h | h
          · exact .inr (.inr ⟨rfl, h⟩)
          · exact .inr (.inl ⟨h, rfl⟩)
        · rintro - t ⟨h2, ⟨y, h3, h4⟩, h5, h6⟩
          rw [if_neg hkeys]
          refine PPost.modify ?_
          refine last (fun q => D q ∨ q = tmp) B' _ (Names.del h2 ?_) ⟨y, ?_, h4⟩ (by show s.nalloc ≤ t.nalloc; omega) (fun _ h => .inl h) ?_ ?_
          · rw [h5]; exact w.objAddr _ _ hx1
          · show upd _ _ _ _ = _
            simp only [upd, Ne.symm htb, if_false]; exact h3
          · rintro a o (h | h | h)
            · exact .inl h
            · exact .inr (.inl h)
            · exact .inr (.inr ⟨h.1, tmp, .inr rfl, h.2⟩)
          · intro a o h1 h2 h3
            show refIdx t.refer a = some o
            rw [h6]
            exact redirect_idx hr o (other a o h1 h2 h3) h1

theorem setProp_same {t : PS} (m : Nat) (n v : String) : PPost (setProp m n v) (fun _ u => ∃ p f, u = { t with props := p, focus := f }) t :=
  PPost.bind (PPost.object fun _ _ => PPost.modify ⟨_, _, rfl⟩)

theorem pushPlain_names (hinj : ∀ i j, E.addr i = E.addr j → i = j) {s : PS} (w : WorldOf E s) (h : NamesOf E T R D B s) (id src type : String) :
    PPost (pushPlainMedia E id src type) (fun _ t => NamesOf E T R D B t) s := by
  unfold pushPlainMedia
  refine PPost.bind (PPost.get ?_)
  dsimp only
  have rest : ∀ (m : Nat) (t : PS), RegInv t.reg → NamesOf E T R D B t →
      PPost (do
        setProp m "uri" (if src ≠ "" then E.srcUri src else src)
        setProp m "type" type
        let parent ← peekComp
        regOp (.addChild parent m)
        pure m) (fun o t => NamesOf E T R D B t) t := by
    intro m t hi hn
    refine PPost.bind ((setProp_same _ _ _).mono ?_)
    rintro - t1 ⟨p1, f1, rfl⟩
    refine PPost.bind ((setProp_same _ _ _).mono ?_)
    rintro - t2 ⟨p2, f2, rfl⟩
    exact PPost.bind (PPost.peekComp fun p l y h1 h2 h3 => PPost.bind (PPost.regOp fun b r hx => PPost.pure (hn.exec hinj (.inr hi) (by simp) hx (by simp) (by simp))))
  split
  · exact PPost.bind (PPost.pure (rest _ s w.inv h))
  · exact PPost.bind ((newObject_names hinj w h .media id).mono fun o t h => rest o t h.1.world.inv h.2.1)

/-- The elements that stand for the object of another element. -/
def sharing (a : String → Option String) : Prop :=
  ¬ (a "refer" = none ∧ a "type" ≠ some "application/x-ginga-settings" ∧ a "type" ≠ some "application/x-ncl-settings")

theorem pushMedia_names (hinj : ∀ i j, E.addr i = E.addr j → i = j) {s : PS} {U : List String} (w : World E s.reg s.nalloc s.refer U)
    (hU : ∀ a ∈ U, a ∈ s.syn.unique) (h : NamesOf E T R D B s) (k : Nat) (hid : ∀ id, s.attr k "id" = some id → id ∉ U)
    (hR : ∀ r, s.attr k "refer" = some r → R r) :
    PPost (pushMedia E k) (fun _ t => ∃ id o l, ∃ D' : Nat → Prop, s.attr k "id" = some id ∧ t.objs = o :: l ∧ (∀ o, D o → D' o) ∧
      NamesOf E T R D' (fun a o' => B a o' ∨ (sharing (s.attr k) ∧ a = id ∧ o' = o) ∨ (s.reg.settings = some o' ∧ ∃ q, D' q ∧ B a q)) t) s := by
  have ws : WorldOf E s := World.grow w (Nat.le_refl _) hU
  unfold pushMedia
  refine PPost.bind (PPost.get (PPost.bind (PPost.attr! fun id hi => ?_)))
  have hn := hid id hi
  dsimp only
  split
  · next refer hr =>
    split
    · exact PPost.err
    · refine PPost.bind ((pushRefer_names hinj ws h id refer (hR _ hr)).mono fun o t h' => PPost.modify ⟨id, o, _, D, hi, rfl, fun _ h => h, ?_⟩)
      exact Names.mono h' (Nat.le_refl _) (fun _ h => h) (fun _ h => h) (fun a o' h => h.imp_right fun h => .inl ⟨fun hc => absurd (hr.symm.trans hc.1) (by simp), h⟩)
  · next hr =>
    split
    · next ht =>
      refine PPost.bind ((pushSettings_names hinj w hU h id hn).mono fun o t ⟨hs, D', hD, h', _⟩ => ?_)
      split
      · exact PPost.abort
      · refine PPost.modify ⟨id, o, _, D', hi, rfl, hD, ?_⟩
        refine Names.mono h' (Nat.le_refl _) (fun _ h => h) (fun _ h => h) (fun a o' h => ?_)
        rcases h with h | h | ⟨rfl, h⟩
        · exact .inl h
        · exact .inr (.inl ⟨fun hc => ht.elim hc.2.1 hc.2.2, h⟩)
        · exact .inr (.inr ⟨hs, h⟩)
    · refine PPost.bind ((pushPlain_names hinj ws h id _ _).mono fun o t h' => PPost.modify ⟨id, o, _, D, hi, rfl, fun _ h => h, ?_⟩)
      exact Names.mono h' (Nat.le_refl _) (fun _ h => h) (fun _ h => h) (fun a o' h => .inl h)
end

/-- The aliases of the root. -/
def rootName (g : List Note) (a : String) : Prop := ∃ (j : Nat) (n : Note), g[j]? = some n ∧ (n.tag = "ncl" ∨ n.tag = "body") ∧ n.get "id" = some a

/-- The names that media elements refer to. -/
def referName (g : List Note) (a : String) : Prop := ∃ (j : Nat) (n : Note), g[j]? = some n ∧ n.tag = "media" ∧ n.get "refer" = some a

/-- The aliases of media objects. -/
def mediaName (f : Nat → Nat) (r : Reg) (D : Nat → Prop) (g : List Note) (a : String) (o : Nat) : Prop :=
  ∃ (j : Nat) (n : Note), g[j]? = some n ∧ n.tag = "media" ∧ n.kind = none ∧ n.get "id" = some a ∧ (f j = o ∨ (r.settings = some o ∧ D (f j)))

/-- The names of the objects come from the elements. -/
def NameK (E : PRead) (f : Nat → Nat) (g : List Note) (_ : List Nat) (s : PS) : Prop :=
  ∃ D : Nat → Prop, NamesOf E (rootName g) (referName g) D (mediaName f s.reg D g) s

theorem rootName_append {g : List Note} {n : Note} {a : String} (h : rootName g a) : rootName (g ++ [n]) a := by
  obtain ⟨j, m, h1, h2⟩ := h
  exact ⟨j, m, by rw [List.getElem?_append_left (List.getElem?_eq_some_iff.1 h1).1]; exact h1, h2⟩

theorem referName_append {g : List Note} {n : Note} {a : String} (h : referName g a) : referName (g ++ [n]) a := by
  obtain ⟨j, m, h1, h2⟩ := h
  exact ⟨j, m, by rw [List.getElem?_append_left (List.getElem?_eq_some_iff.1 h1).1]; exact h1, h2⟩

theorem mediaName_append {f f' : Nat → Nat} {g : List Note} {n : Note} {r r' : Reg} {D D' : Nat → Prop} (hf : ∀ k, k < g.length → f' k = f k) (hr : r'.settings = r.settings)
    (hD : ∀ o, D o → D' o) {a : String} {o : Nat}
    (h : mediaName f r D g a o) : mediaName f' r' D' (g ++ [n]) a o := by
  obtain ⟨j, m, h1, h2, h3, h4, h5⟩ := h
  have hj := (List.getElem?_eq_some_iff.1 h1).1
  exact ⟨j, m, by rw [List.getElem?_append_left hj]; exact h1, h2, h3, h4, by rw [hf j hj, hr]; exact h5.imp_right fun h => ⟨h.1, hD _ h.2⟩⟩

theorem nameK_extra {E : PRead} (hinj : ∀ i j, E.addr i = E.addr j → i = j) (scr : Rect) (z0 : Nat) : Extra E scr z0 (NameK E) where
  same f g S s y al ca hU h := h
  imp f g S s s2 par pt x e r y nt hn ht hk hp := by
    have hs := hn.state
    obtain ⟨D, hk⟩ := hk
    refine ⟨D, ?_⟩
    unfold NamesOf at hk ⊢
    rw [hs]
    exact Names.mono hk (Nat.le_refl _) (fun _ h => rootName_append h) (fun _ h => referName_append h) (fun _ _ h => mediaName_append (fun _ _ => rfl) rfl (fun _ h => h) h)
  pop f g O S s k nt e n a t hj hpi ht hk h1 h2 h3 h4 h5 h6 := by
    obtain ⟨D, hk⟩ := hk
    have hst : NStep E (rootName g) (referName g) D (mediaName f s.reg D g) s t := by
      by_cases hr : e.pop = .region
      · rw [hr] at h4
        exact PRel.popRegion (nstep_atom hinj _ _ _ _) (fun _ _ _ => nstep_same rfl rfl rfl rfl) s a t h4
      · exact PRel.pop (nstep_atom hinj _ _ _ _) (fun _ _ => nstep_same rfl rfl rfl rfl) n e.pop k (fun _ _ _ => nstep_same rfl rfl rfl rfl) (fun _ _ _ _ => nstep_same rfl rfl rfl rfl) (fun _ _ _ => nstep_same rfl rfl rfl rfl) hr (fun _ _ => trivial) ⟨fun _ => trivial, fun _ => ⟨trivial, trivial, trivial⟩⟩ s a t h4
    have := hst.2 ht.world hk
    exact ⟨D, Names.mono this (Nat.le_refl _) (fun _ h => h) (fun _ h => h) (fun a o h => by unfold mediaName; rw [(hst.1.2 ht.world).2.2.2.1]; exact h)⟩
  push f f' g S s s2 par pt x e r y nt proc a t hn ht hk himp hrun hpu hj hf ht' := by
    obtain ⟨b1, b2, b3, b4, b5, b6, b7, b8, b9, b10, b11, b12, b13⟩ := ht.push_base hn
    have tb := table_objs e b3
    obtain ⟨D, hk⟩ := hk
    have hk2 : NamesOf E (rootName g) (referName g) D (mediaName f s2.reg D g) s2 := by
      unfold NamesOf; rw [b10, b12, b13]; exact hk
    have hnt : (g ++ [nt])[s.nelt]? = some nt := by rw [b1]; simp
    by_cases c4 : e.push = .media
    · have htb := tb.2.2.2.2.2.1.1 c4
      have htg : nt.tag = "media" := by rw [b2, ← b4]; exact htb
      rw [c4] at hrun
      have hw : World E s2.reg s2.nalloc s2.refer s.syn.unique := by rw [b10, b12, b13]; exact ht.world
      have hid : ∀ id, s2.attr s.nelt "id" = some id → id ∉ s.syn.unique ∧ id ∈ s2.syn.unique := fun id hid => b7 id (by rw [htg]; decide) (by rw [← b8]; exact hid)
      obtain ⟨id, o, l, D', e1, e2, hD, e3⟩ := pushMedia_names hinj hw b6
        (Names.mono hk2 (Nat.le_refl _) (fun _ h => rootName_append h) (fun _ h => referName_append h) (fun _ _ h => mediaName_append hf rfl (fun _ h => h) h)) s.nelt
        (fun id h => (hid id h).1) (fun r hr => ⟨s.nelt, nt, hnt, htg, by rw [← b8]; exact hr⟩) a t hrun
      have hset : t.reg.settings = s2.reg.settings := by
        have hpl := (pushMedia_post hinj hw b6 s.nelt hid a t hrun).2.2.2
        split at hpl
        · obtain ⟨_, -, -, _, _, hk, -⟩ := hpl; exact hk.2.2.1
        · exact hpl.2.2.1
      refine ⟨D', Names.mono e3 (Nat.le_refl _) (fun _ h => h) (fun _ h => h) (fun a' o' h => ?_)⟩
      have hm : ∀ {a o}, mediaName f' s2.reg D (g ++ [nt]) a o → mediaName f' t.reg D' (g ++ [nt]) a o := by
        rintro a o ⟨j, n, q1, q2, q3, q4, q5⟩
        exact ⟨j, n, q1, q2, q3, q4, by rw [hset]; exact q5.imp_right fun h => ⟨h.1, hD _ h.2⟩⟩
      rcases h with h | ⟨h1, rfl, rfl⟩ | ⟨h1, q, h2, j, n, q1, q2, q3, q4, q5⟩
      · exact hm h
      · refine ⟨s.nelt, nt, hnt, htg, ?_, by rw [← b8]; exact e1, .inl ?_⟩
        · unfold Note.kind
          rw [htg, if_neg (by decide), if_neg (by decide), if_neg]
          rintro ⟨-, q⟩
          exact h1 (by simp only [b8]; exact q)
        · have hs := ht'.stack
          rw [e2, List.filter_cons, if_pos (by unfold objAt; rw [hnt]; dsimp only; rw [htg]; decide), List.map_cons] at hs
          exact (List.cons.inj hs).1.symm
      · refine ⟨j, n, q1, q2, q3, q4, .inr ⟨by rw [hset]; exact h1, ?_⟩⟩
        rcases q5 with rfl | q5
        · exact h2
        · exact hD _ q5.2
    -- the others
    have hk3 : ∀ u, NamesOf E (rootName (g ++ [nt])) (referName g) D (mediaName f s2.reg D g) u → u.reg.settings = s2.reg.settings → NameK E f' (g ++ [nt]) (s.nelt :: S) u := fun u hu hs =>
      ⟨D, Names.mono hu (Nat.le_refl _) (fun _ h => h) (fun _ h => referName_append h) (fun a o h => mediaName_append hf hs (fun _ h => h) h)⟩
    have hk4 : NamesOf E (rootName (g ++ [nt])) (referName g) D (mediaName f s2.reg D g) s2 := Names.mono hk2 (Nat.le_refl _) (fun _ h => rootName_append h) (fun _ h => h) (fun _ _ h => h)
    by_cases c1 : e.push = .ncl
    · have htg : nt.tag = "ncl" := by rw [b2, ← b4]; exact tb.2.2.1.1 c1
      rw [c1] at hrun
      refine hk3 t (pushNcl_names hinj b5 hk4 s.nelt (fun i hi => ⟨s.nelt, nt, hnt, .inl htg, by rw [← b8]; exact hi⟩) a t hrun) ?_
      exact (pushNcl_post b5 s.nelt a t hrun).2.1.2.2.1
    by_cases c2 : e.push = .context
    · rw [c2] at hrun
      have hpost := pushContext_post hinj b5 s.nelt a t hrun
      dsimp only at hpost
      refine hk3 t (pushContext_names hinj b5 hk4 s.nelt (fun hb => ?_) a t hrun) ?_
      · have htg : nt.tag = "body" := by rw [b2, ← b9]; exact hb
        refine ⟨fun i hi => ⟨s.nelt, nt, hnt, .inr htg, by rw [← b8]; exact hi⟩, fun o l ho => ?_⟩
        rw [if_pos hb] at hpost
        obtain ⟨o', l', h1, h2, h3⟩ := hpost.2.2
        have hs := ht'.stack
        rw [h3, List.filter_cons, if_pos (by unfold objAt; rw [hnt]; dsimp only; rw [htg]; decide), List.map_cons] at hs
        have hoo : o = o' := by rw [h2] at ho; exact (List.cons.inj ho).1.symm
        rw [hoo, (List.cons.inj hs).1, ht'.top s.nelt nt hnt (.inr htg)]
        exact h1.2.1
      · obtain ⟨-, -, hp⟩ := hpost
        split at hp
        · obtain ⟨_, _, h1, -⟩ := hp; exact h1.2.2.1
        · obtain ⟨_, -, -, _, _, h1, -⟩ := hp; exact h1.2.2.1
    by_cases c3 : e.push = .switch
    · rw [c3] at hrun
      refine hk3 t (pushSwitch_names hinj b5 hk4 s.nelt a t hrun) ?_
      obtain ⟨_, -, ⟨-, _, _, h1, -⟩, -⟩ := pushSwitch_post hinj b5 s.nelt a t hrun
      exact h1.2.2.1
    · have hst : NStep E (rootName (g ++ [nt])) (referName g) D (mediaName f s2.reg D g) s2 t := by
        by_cases c5 : e.push = .region
        · rw [c5] at hrun
          exact PRel.pushRegion (nstep_atom hinj _ _ _ _) E s.nelt (fun _ _ _ => nstep_same rfl rfl rfl rfl) s2 a t hrun
        · exact PRel.pushC (nstep_atom hinj _ _ _ _) proc e.push s.nelt c5 himp c1 c2 c3 c4 (fun _ _ => trivial) (fun _ _ => trivial) ⟨fun _ => trivial, fun _ => trivial⟩ s2 a t hrun
      exact hk3 t (hst.2 b5 hk4) (hst.1.2 b5).2.2.2.1

theorem nameK_init {E : PRead} (hinj : ∀ i j, E.addr i = E.addr j → i = j) {f : Nat → Nat} (W H : Int) (z : Nat) {reg : Reg}
    (h : newDoc (E.addr 0) (E.addr 1) (E.addr 2) (E.addr 3) (E.addr 4) = .ok reg) : NameK E f [] [] (PS.init W H z reg 5) := by
  have ne : ∀ i j, i ≠ j → E.addr i ≠ E.addr j := fun i j hij h => hij (hinj i j h)
  obtain ⟨ho, -⟩ := newDoc_has (ne 0 1 (by decide)) h
  refine ⟨fun _ => False, List.Pairwise.nil, fun q (hq : q ∈ []) => absurd hq (by simp), fun _ h => h.elim, fun o x p hx hp => ?_⟩
  have f1 := newObj_fields .context "__root__" (E.addr 2) 0
  have f2 := newObj_fields .settings "__settings__" (E.addr 3) (E.addr 4)
  rcases (ho o x).1 hx with ⟨-, rfl⟩ | ⟨-, rfl⟩
  · simp [f2] at hp
  · simp [f1] at hp

end Ginga
