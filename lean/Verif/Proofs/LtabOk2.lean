import Verif.Proofs.LtabOk
/-!
# Well-formed tables: events, links, ports, rules, media
-/
namespace Ginga

/-- The children of `o` stand for the tables of the children of `a`. -/
def KidsAt (E : PRead) (H : LHeap) (s : PS) (o a : Nat) : Prop :=
  ∃ x, s.reg.obj o = some x ∧ ∀ b ∈ H.kids a, ∃ c ∈ x.children, c ≠ o ∧ ∃ y, s.reg.obj c = some y ∧ H.id b = some y.id ∧ H.kind b = some y.kind ∧ ObjectAs E H s c b

theorem KidsAt.of_reg {E : PRead} {H : LHeap} {s t : PS} {o a : Nat} (h : KidsAt E H s o a) (hr : t.reg = s.reg)
    (hd : ∀ q, q ≠ o → SameData q s t) : KidsAt E H t o a := by
  obtain ⟨x, hx, h⟩ := h
  refine ⟨x, by rw [hr]; exact hx, fun b hb => ?_⟩
  obtain ⟨c, hc, hco, y, h1, h2, h3, h4⟩ := h b hb
  exact ⟨c, hc, hco, y, by rw [hr]; exact h1, h2, h3, h4.same (SameAt.of_reg hr) (hd c hco)⟩

theorem childById_some {r : Reg} {cs : List Nat} {id : String} {c : Nat} {y : RObj} (hc : c ∈ cs) (hy : r.obj c = some y) (hid : y.id = id) :
    ∃ c', childById r cs id = some c' := by
  unfold childById
  cases h : cs.find? fun c => match r.obj c with | some x => x.id == id | none => false with
  | some c' => exact ⟨c', rfl⟩
  | none =>
    have := List.find?_eq_none.1 h c hc
    rw [hy] at this
    simp [hid] at this

theorem cut_cons {c : Char} {a b : Str} (h : c ∉ a) : cut c (a ++ c :: b) = some (a, b) := by
  induction a with
  | nil => simp [cut]
  | cons x a ih =>
    simp only [List.mem_cons, not_or] at h
    simp [cut, Ne.symm h.1, ih h.2]

theorem cut_not {c : Char} : ∀ {s : Str}, c ∉ s → cut c s = none
  | [], _ => rfl
  | x :: s, h => by
    simp only [List.mem_cons, not_or] at h
    simp [cut, Ne.symm h.1, cut_not h.2]

/-- The three parts of the text of an event are read. -/
theorem gives_text {text id ev : Str} {ty : EType} (h : EventText text id ty ev) : Gives (match cut '@' text with
    | some (a, b) => PM.pure (a, EType.presentation, if caseEq "lambda".toList b then "@lambda".toList else b)
    | none =>
      match cut '.' text with
      | some (a, b) => PM.pure (a, EType.attribution, b)
      | none =>
        match cut '<' text with
        | some (a, b) => if b = [] then PM.ub else PM.pure (a, EType.selection, b.dropLast)
        | none => if text = [] then PM.ub else PM.pure (text, EType.selection, text.dropLast) : PM (Str × EType × Str))
    (· = (id, ty, ev)) := by
  cases h with
  | area h1 h2 =>
    rw [cut_cons h1]
    dsimp only
    rw [if_neg fun hc => h2 ((caseEq_word' (by decide)).1 hc)]
    exact Gives.pure' rfl
  | whole h1 h2 =>
    rw [cut_cons h1]
    dsimp only
    rw [if_pos ((caseEq_word' (by decide)).2 h2)]
    exact Gives.pure' rfl
  | @prop id ev h1 h2 =>
    have : '@' ∉ id ++ '.' :: ev := by simpa using h1
    rw [cut_not this]
    dsimp only
    rw [cut_cons h2]
    exact Gives.pure' rfl
  | @key id ev c h1 h2 h3 =>
    have e1 : '@' ∉ id ++ '<' :: (ev ++ [c]) := by simpa using h1
    have e2 : '.' ∉ id ++ '<' :: (ev ++ [c]) := by simpa using h2
    rw [cut_not e1]
    dsimp only
    rw [cut_not e2]
    dsimp only
    rw [cut_cons h3]
    dsimp only
    rw [if_neg (by simp), List.dropLast_concat]
    exact Gives.pure' rfl
  | @bare ev c h1 h2 h3 =>
    rw [cut_not h1]
    dsimp only
    rw [cut_not h2]
    dsimp only
    rw [cut_not h3]
    dsimp only
    rw [if_neg (by simp), List.dropLast_concat]
    exact Gives.pure' rfl

/-- The event of a text. -/
theorem event_good {s : PS} {o : Nat} {text : String} {id ev : Str} {ty : EType} {x : RObj} (ht : EventText text.toList id ty ev) (hx : s.reg.obj o = some x)
    {c : Nat} {y : RObj} (hc : c ∈ x.children) (hy : s.reg.obj c = some y) (hid : y.id = String.ofList id) (hch : ∀ c ∈ x.children, ∃ y, s.reg.obj c = some y) :
    PGood (ltabEvent o text) (fun e t => t = s ∧ ∃ c y, c ∈ x.children ∧ s.reg.obj c = some y ∧ y.id = String.ofList id ∧ e = ((y.getEvent ty (String.ofList ev)).map (·.1)).getD 0) s := by
  unfold ltabEvent
  refine Gives.seq (gives_text ht) fun p hp => ?_
  subst hp
  dsimp only
  refine PGood.bind (PGood.object hx (PGood.bind (PGood.get ?_)))
  obtain ⟨c', h'⟩ := childById_some hc hy hid
  rw [h']
  obtain ⟨h1, y', h2, h3⟩ := childById_spec h'
  exact PGood.bind (PGood.object h2 (PGood.pure ⟨rfl, c', y', h1, h2, h3, rfl⟩))

section
variable {E : PRead} {H : LHeap}

theorem eventFine_good {s : PS} {o a : Nat} (w : WorldOf E s) (hk : KidsAt E H s o a) {text : String} (h : EventFine H a text) :
    PGood (ltabEvent o text) (fun _ t => t = s) s := by
  obtain ⟨id, ty, ev, b, h1, h2, h3⟩ := h
  obtain ⟨x, hx, hk⟩ := hk
  obtain ⟨c, hc, -, y, hy, h4, -⟩ := hk b h2
  rw [h3] at h4
  refine (event_good h1 hx hc hy (Option.some.inj h4).symm fun c hc => ?_).mono fun _ _ h => h.1
  obtain ⟨z, hz, -⟩ := w.tree.chi _ _ hx c hc
  exact ⟨z, hz⟩

theorem collect_good {α β : Type} {f : α → PM β} {s : PS} : ∀ {l : List α}, (∀ a ∈ l, PGood (f a) (fun _ t => t = s) s) →
    PGood (PM.collect f l) (fun bs t => t = s ∧ bs.length = l.length) s
  | [], _ => PGood.pure' ⟨rfl, rfl⟩
  | a :: l, h => by
    unfold PM.collect
    refine PGood.bind ((h a (by simp)).mono fun b t hb => ?_)
    subst hb
    refine PGood.bind ((collect_good (f := f) (l := l) fun a ha => h a (by simp [ha])).mono fun bs t hbs => ?_)
    obtain ⟨rfl, hbs⟩ := hbs
    exact PGood.pure ⟨rfl, by simp [hbs]⟩

theorem PredFine.tab {n : Nat} {v : LVal} (h : PredFine H n v) : ∃ c, v = .tab c := by cases h <;> exact ⟨_, rfl⟩

theorem cond_good {s : PS} {o a n : Nat} (w : WorldOf E s) (hk : KidsAt E H s o a) {v : LVal} (h : CondFine H n a v) :
    PGood (parseLCond H n o v) (fun _ t => t = s) s := by
  obtain ⟨b, rfl, ⟨x, wd, tr, text, h1, h2, h3, h4, h5⟩, h6⟩ := h
  unfold parseLCond
  refine Gives.seq (gives_asTable rfl) fun _ e => ?_
  subst e
  refine Gives.seq (gives_trans h1 h2 h3) fun tr' _ => Gives.seq (gives_checkStr h4) fun _ e => ?_
  subst e
  refine PGood.bind ((eventFine_good w hk h5).mono fun e t ht => ?_)
  subst ht
  split
  · exact PGood.pure rfl
  · next hn =>
    rcases h6 with h6 | h6
    · exact absurd h6 hn
    · obtain ⟨c, hc⟩ := h6.tab
      exact Gives.seq (gives_checkTable hc) fun _ _ => Gives.seq (gives_pred h6) fun _ _ => PGood.pure rfl

theorem act_good {s : PS} {o a : Nat} (w : WorldOf E s) (hk : KidsAt E H s o a) {v : LVal} (h : ActFine H a v) :
    PGood (parseLAct H o v) (fun _ t => t = s) s := by
  obtain ⟨b, rfl, ⟨x, wd, tr, text, h1, h2, h3, h4, h5⟩, h6, h7⟩ := h
  unfold parseLAct
  refine Gives.seq (gives_asTable rfl) fun _ e => ?_
  subst e
  refine Gives.seq (gives_trans h1 h2 h3) fun tr' _ => Gives.seq (gives_checkStr h4) fun _ e => ?_
  subst e
  refine PGood.bind ((eventFine_good w hk h5).mono fun e t ht => ?_)
  subst ht
  refine Gives.seq (gives_optStr h6) fun _ _ => ?_
  split
  · exact PGood.pure rfl
  · next hn =>
    rcases h7 with h7 | ⟨c, hc, h7, h8⟩
    · exact absurd h7 hn
    · refine Gives.seq (gives_checkTable hc) fun _ e => ?_
      subst e
      exact Gives.seq (gives_optStr h7) fun _ _ => Gives.seq (gives_optStr h8) fun _ _ => PGood.pure rfl

theorem link_good {s : PS} {o a n : Nat} (w : WorldOf E s) (hk : KidsAt E H s o a) {v : LVal} (h : LinkFine H n a v) :
    PGood (parseLLink H n o v) (fun _ _ => True) s := by
  obtain ⟨b, c, c', rfl, h1, h2, h3, h4, h5, h6⟩ := h
  unfold parseLLink
  refine Gives.seq (gives_checkTable rfl) fun _ e => ?_
  subst e
  refine Gives.seq (gives_checkTable h1) fun _ e => ?_
  subst e
  refine PGood.bind ((collect_good (s := s) fun p hp => cond_good w hk (h5 _ (List.mem_map.2 ⟨p, hp, rfl⟩))).mono fun conds t hc => ?_)
  obtain ⟨rfl, hc⟩ := hc
  refine Gives.seq (gives_checkTable h2) fun _ e => ?_
  subst e
  refine PGood.bind ((collect_good (s := t) fun p hp => act_good w hk (h6 _ (List.mem_map.2 ⟨p, hp, rfl⟩))).mono fun acts u ha => ?_)
  obtain ⟨rfl, ha⟩ := ha
  rw [if_neg]
  · exact PGood.modify trivial
  · rintro (e | e)
    · rw [e] at hc; exact h3 (by rw [items_tab, List.eq_nil_of_length_eq_zero hc.symm]; rfl)
    · rw [e] at ha; exact h4 (by rw [items_tab, List.eq_nil_of_length_eq_zero ha.symm]; rfl)

theorem rule_good {s : PS} {o a n : Nat} (hk : KidsAt E H s o a) {v : LVal} (h : RuleFine H n a v) :
    PGood (parseLRule H n o v) (fun _ _ => True) s := by
  obtain ⟨b, id, k, rfl, h1, h2, h3, h4⟩ := h
  obtain ⟨x, hx, hk⟩ := hk
  obtain ⟨c, hc, -, y, hy, h5, -⟩ := hk k h2
  rw [h3] at h5
  unfold parseLRule
  refine Gives.seq (gives_asTable rfl) fun _ e => ?_
  subst e
  refine Gives.seq (gives_checkStr h1) fun _ e => ?_
  subst e
  refine PGood.bind (PGood.object hx (PGood.bind (PGood.get ?_)))
  obtain ⟨c1, hc1⟩ := h4.tab
  refine Gives.seq (gives_checkTable hc1) fun _ _ => Gives.seq (gives_pred h4) fun _ _ => ?_
  obtain ⟨c', h'⟩ := childById_some hc hy (Option.some.inj h5).symm
  rw [h']
  exact PGood.modify trivial

theorem port_good {s : PS} {o a : Nat} (h0 : ∀ i, E.addr i ≠ 0) (w : WorldOf E s) (hk : KidsAt E H s o a) {v : LVal} (h : PortFine E H a v) :
    PGood (parseLPort o v) (fun _ _ => True) s := by
  obtain ⟨text, id, ty, ev, b, h1, h2, h3, h4, h5⟩ := h
  obtain ⟨x, hx, hk⟩ := hk
  obtain ⟨c, hc, -, y, hy, h6, h7, h8⟩ := hk b h3
  rw [h4] at h6
  have hid := (Option.some.inj h6).symm
  unfold parseLPort
  refine Gives.seq (gives_checkStr h1) fun _ e => ?_
  subst e
  refine PGood.bind ((event_good h2 hx hc hy hid fun c hc => ?_).mono fun e t ht => ?_)
  · obtain ⟨z, hz, -⟩ := w.tree.chi _ _ hx c hc
    exact ⟨z, hz⟩
  · obtain ⟨rfl, c', y', hc', hy', hid', he⟩ := ht
    have byId : ∀ c y, c ∈ x.children → t.reg.obj c = some y → t.reg.getById y.id = some c := by
      intro c y hc hy
      obtain ⟨z, hz, -, hd⟩ := w.tree.chi _ _ hx c hc
      rw [hy] at hz; cases hz
      exact Reg.node.byId w.inv ⟨y, ⟨w.inv.inDoc _ _ hy hd, hy⟩, rfl, rfl, rfl⟩
    have e1 := byId c y hc hy
    have e2 := byId c' y' hc' hy'
    rw [hid'] at e2
    rw [hid, e2] at e1
    cases e1
    rw [hy] at hy'; cases hy'
    have hev : ((y.getEvent ty (String.ofList ev)).map (·.2)).isSome := by
      unfold ObjectAs at h8
      cases hkd : H.kind b with
      | none => rw [hkd] at h8; exact h8.elim
      | some k =>
        rw [hkd] at h8 h5
        cases k with
        | media =>
          rw [if_pos rfl] at h5
          obtain ⟨⟨z, hz, hz1⟩, -⟩ := h8
          rw [hy] at hz; cases hz
          rw [hz1]; exact h5
        | context =>
          rw [if_neg (fun h => by cases h)] at h5
          obtain ⟨e1, e2⟩ := h5
          rw [e1, e2]
          obtain ⟨z, hz, hz1⟩ := h8.events
          rw [hy] at hz; cases hz
          rw [hz1, if_pos ⟨rfl, String.ofList_toList⟩]; rfl
        | switch =>
          rw [if_neg (fun h => by cases h)] at h5
          obtain ⟨e1, e2⟩ := h5
          rw [e1, e2]
          obtain ⟨z, hz, hz1⟩ := h8.events
          rw [hy] at hz; cases hz
          rw [hz1, if_pos ⟨rfl, String.ofList_toList⟩]; rfl
        | settings => exact h8.elim
    cases hg : y.getEvent ty (String.ofList ev) with
    | none => rw [hg] at hev; cases hev
    | some p =>
      rw [hg] at he
      have hm : (p.1, p.2) ∈ y.events := List.mem_of_find?_eq_some hg
      obtain ⟨i, -, hi⟩ := w.evAddr _ _ _ _ hy hm
      have : e ≠ 0 := by rw [he]; show p.1 ≠ 0; rw [hi]; exact h0 i
      rw [if_neg this]
      exact PGood.modify trivial

/-! ## Media -/

variable (hinj : ∀ i j, E.addr i = E.addr j → i = j)

theorem addEvent_good {o : Nat} {e : REv} {s : PS} {x : RObj} (hx : s.reg.obj o = some x) : PGood (addEvent E o e) (fun _ t => ∃ x, t.reg.obj o = some x) s := by
  unfold addEvent
  refine PGood.bind (PGood.alloc ?_)
  refine PGood.regOp (b := true) (r := s.reg.setObj o (x.addEvent (E.addr s.nalloc) e)) ?_ ⟨_, upd_same _ _ _⟩
  unfold Reg.exec
  dsimp only
  rw [hx]

theorem setProp_good {o : Nat} {n v : String} {s : PS} {x : RObj} (hx : s.reg.obj o = some x) : PGood (setProp o n v) (fun _ t => ∃ x, t.reg.obj o = some x) s := by
  unfold setProp
  exact PGood.bind (PGood.object hx (PGood.modify ⟨x, hx⟩))

theorem props_good (o : Nat) : ∀ (l : List (LKey × LVal)) (s : PS) (x : RObj), s.reg.obj o = some x → (∀ p ∈ l, PropFine H p) →
    PGood (parseLProps E H o l) (fun _ t => ∃ x, t.reg.obj o = some x) s
  | [], s, x, hx, _ => PGood.pure' ⟨x, hx⟩
  | (k, v) :: l, s, x, hx, h => by
    have hp := h (k, v) (by simp)
    obtain ⟨name, e, -⟩ := id hp
    cases e
    unfold parseLProps
    dsimp only [LKey.text]
    refine Gives.seq (gives_prop hp) fun p _ => ?_
    refine PGood.bind ((addEvent_good hx).mono fun _ t ht => ?_)
    obtain ⟨x1, hx1⟩ := ht
    refine PGood.bind ((setProp_good hx1).mono fun _ t ht => ?_)
    obtain ⟨x2, hx2⟩ := ht
    exact props_good o l t x2 hx2 fun p hp => h p (by simp [hp])

theorem areas_good (o : Nat) : ∀ (l : List (LKey × LVal)) (s : PS) (x : RObj), s.reg.obj o = some x → (∀ p ∈ l, (areaOf E H p.2).isSome) →
    PGood (PM.forEach (fun q => parseLArea E H o q.2) l) (fun _ t => ∃ x, t.reg.obj o = some x) s
  | [], s, x, hx, _ => PGood.pure' ⟨x, hx⟩
  | q :: l, s, x, hx, h => by
    refine PGood.bind' (PGood.mono (P := fun _ t => ∃ x, t.reg.obj o = some x) ?_ fun _ t ht => ?_)
    · have hp := h q (by simp)
      unfold areaOf at hp
      split at hp
      · next a e =>
        unfold parseLArea
        refine Gives.seq (gives_asTable e) fun _ e => ?_
        subst e
        split at hp
        · next n b f h1 h2 h3 =>
          refine Gives.seq (gives_time h2) fun _ _ => Gives.seq (gives_time h3) fun _ _ => ?_
          rw [h1]
          exact addEvent_good hx
        · cases hp
      · cases hp
    · obtain ⟨x1, hx1⟩ := ht
      exact areas_good o l t x1 hx1 fun p hp => h p (by simp [hp])

include hinj in
theorem newObject_good {s : PS} (w : LW E s) (k : RKind) (id : String) : PGood (newObject E k id) (fun _ _ => True) s := by
  unfold newObject
  refine PGood.bind (PGood.alloc (PGood.bind (PGood.alloc (PGood.bind (PGood.alloc ?_)))))
  have hf := (World.fresh w.world hinj (Nat.le_refl _)).1
  refine PGood.bind (PGood.regOp (b := true) (r := s.reg.setObj (E.addr s.nalloc) (newObj k id (E.addr (s.nalloc + 1)) (E.addr (s.nalloc + 2)))) ?_ (PGood.pure trivial))
  unfold Reg.exec
  dsimp only
  rw [hf]

/-- The id is not in use. -/
def FreeId (s : PS) (id : String) : Prop := ∀ q ∈ s.reg.objects, ∀ x, s.reg.obj q = some x → x.id ≠ id ∧ ∀ al ∈ x.aliases, al.1 ≠ id

/-- The composition can take children. -/
def Open (s : PS) (p : Nat) : Prop := ∃ y, s.reg.obj p = some y ∧ (y.kind = .context ∨ y.kind = .switch) ∧ y.inDoc = true

theorem addChild_good {s t : PS} {p o : Nat} {x : RObj} (w : LW E s) (h : Loose E s t o x) (hp : Open s p) (hid : FreeId s x.id) (hk : x.kind ≠ .settings) :
    PGood (regOp (.addChild p o)) (fun _ _ => True) t := by
  obtain ⟨y, hy, hyk, hyd⟩ := hp
  have w1 := h.lw w
  have hpo : p ≠ o := by rintro rfl; rw [h.fresh] at hy; cases hy
  have hy' : t.reg.obj p = some y := by rw [h.other p hpo]; exact hy
  have nch : o ∉ y.children := by
    intro hm
    obtain ⟨z, hz, hz1, -⟩ := w1.tree.chi _ _ hy' o hm
    rw [h.obj] at hz; cases hz
    rw [h.out.2] at hz1; cases hz1
  have nin : o ∉ t.reg.objects := by
    intro hm
    obtain ⟨z, hz, hz1⟩ := w1.inv.objs o hm
    rw [h.obj] at hz; cases hz
    rw [h.out.1] at hz1; cases hz1
  let r1 := (t.reg.setObj p { y with children := sinsert o y.children }).setObj o { x with parent := some p }
  have ho1 : r1.obj o = some { x with parent := some p } := upd_same _ _ _
  have hor : (t.reg.setObj p { y with children := sinsert o y.children }).obj o = some x := by
    show upd t.reg.obj p _ o = _
    rw [upd_ne _ _ (Ne.symm hpo)]; exact h.obj
  have free1 : ∀ q ∈ r1.objects, ∀ z, r1.obj q = some z → z.id ≠ x.id ∧ ∀ al ∈ z.aliases, al.1 ≠ x.id := by
    intro q hq z hz
    have hq' : q ∈ t.reg.objects := hq
    have hqo : q ≠ o := by rintro rfl; exact nin hq'
    have hq2 : q ∈ s.reg.objects := by rw [← h.objects]; exact hq'
    by_cases hqp : q = p
    · subst hqp
      have : r1.obj q = some { y with children := sinsert o y.children } := by
        show upd (upd t.reg.obj q _) o _ q = _
        rw [upd_ne _ _ hqo, upd_same]
      rw [this] at hz; cases hz
      exact hid q hq2 y hy
    · have : r1.obj q = s.reg.obj q := by
        show upd (upd t.reg.obj p _) o _ q = _
        rw [upd_ne _ _ hqo, upd_ne _ _ hqp, h.other q hqo]
      rw [this] at hz
      exact hid q hq2 z hz
  have none1 : r1.getByIdOrAlias x.id = none := by
    have hb : r1.getById x.id = none := by
      cases hg : r1.getById x.id with
      | none => rfl
      | some q =>
        have hg' : t.reg.getById x.id = some q := hg
        obtain ⟨z, ⟨hq, hz⟩, hzid⟩ := (w1.inv.byId _ _).1 hg'
        have hq' : q ∈ s.reg.objects := by rw [← h.objects]; exact hq
        have hqo : q ≠ o := by rintro rfl; exact nin hq
        rw [h.other q hqo] at hz
        exact absurd hzid (hid q hq' z hz).1
    unfold Reg.getByIdOrAlias
    rw [hb]
    dsimp only
    rw [List.find?_eq_none]
    intro q hq
    cases hz : r1.obj q with
    | none => simp
    | some z =>
      have := (free1 q hq z hz).2
      simp only [RObj.hasAlias, List.any_eq_true, beq_iff_eq]
      rintro ⟨al, h1, h2⟩
      exact this al h1 h2
  have hadd : r1.addObject o = .ok (true, r1.register o { x with parent := some p }) := by
    unfold Reg.addObject
    rw [ho1]
    dsimp only
    rw [if_neg, if_neg, if_neg]
    · rw [h.out.1]; decide
    · rintro ⟨-, e⟩; exact hk e
    · rintro (hm | hm)
      · exact nin hm
      · rw [none1] at hm; cases hm
  refine PGood.regOp (b := true) (r := r1.register o { x with parent := some p }) ?_ trivial
  show t.reg.addChild p o = _
  unfold Reg.addChild
  rw [hy', h.obj]
  dsimp only
  rw [if_neg (by rintro ⟨h1, h2⟩; rcases hyk with e | e; exact h1 e; exact h2 e), if_neg nch, if_neg (by rw [h.out.2]; decide), if_neg (by rw [hyd]; decide), hor]
  dsimp only
  rw [hadd]
  rfl

end

end Ginga
