import Verif.Proofs.Refer
import Verif.Proofs.Kids
import Verif.Spec
/-!
# What a component attribute names
-/
namespace Ginga

theorem TreeInv.not_own {r : Reg} (h : TreeInv r) {o : Nat} {x : RObj} (ho : r.obj o = some x) (hd : x.inDoc = true) : x.parent ≠ some o := by
  intro hp
  have : ∀ q, UpToRoot r q → q = o → False := by
    intro q hq
    induction hq with
    | root =>
      rintro rfl
      obtain ⟨y, h1, h2, -⟩ := h.root
      rw [ho] at h1; cases h1; rw [hp] at h2; cases h2
    | up h1 h2 _ ih =>
      rintro rfl
      rw [ho] at h1; cases h1
      rw [hp] at h2; cases h2
      exact ih rfl
  exact this o (h.up o x ho hd) rfl

theorem Reg.node.uniq {r : Reg} {o : Nat} {a a' : String} {k k' : RKind} {p p' : Option Nat} (h : r.node o a k p) (h' : r.node o a' k' p') : a = a' ∧ k = k' ∧ p = p' := by
  obtain ⟨y, g1, g2, g3, g4⟩ := h
  obtain ⟨y', g1', g2', g3', g4'⟩ := h'
  have : y = y' := by have := g1.2; rw [g1'.2] at this; exact (Option.some.inj this).symm
  subst this
  exact ⟨g2.symm.trans g2', g3.symm.trans g3', g4.symm.trans g4'⟩

theorem Note.kind_ne {m : Note} (h : m.kind.isSome = true) : m.tag ≠ "link" ∧ m.tag ≠ "ncl" ∧ m.tag ≠ "body" := by
  refine ⟨?_, ?_, ?_⟩ <;> intro ht <;> unfold Note.kind at h <;> rw [ht] at h <;> simp at h

/-- In its parent, an element that makes an object is found by its identifier. -/
theorem child_component {E : PRead} {f : Nat → Nat} {g : List Note} {S : List Nat} {s : PS} (ht : TreeK E f g S s) (hn : NameK E f g S s)
    {i q : Nat} {m : Note} {a : String} (hi : g[i]? = some m) (hk : m.kind.isSome = true) (ha : m.get "id" = some a) (hp : m.parent = some q) :
    s.component (f q) a = some (f i) := by
  obtain ⟨kd, hkd⟩ := Option.isSome_iff_exists.1 hk
  obtain ⟨a', q', h1, h2, h3⟩ := ht.made i m kd hi hkd
  rw [ha] at h1; obtain rfl : a = a' := by simpa using h1
  rw [hp] at h2; obtain rfl : q = q' := by simpa using h2
  have hb := h3.byId ht.world.inv
  obtain ⟨x, ⟨hx1, hx2⟩, hx3, hx4, hx5⟩ := h3
  obtain ⟨x', hx', hin⟩ := ht.world.inv.objs _ hx1
  rw [hx2] at hx'; obtain rfl : x = x' := by simpa using hx'
  have hne : f i ≠ s.reg.root := by
    intro hc
    obtain ⟨y, g1, g2, -⟩ := ht.world.tree.root
    rw [← hc, hx2] at g1; cases g1; rw [hx5] at g2; cases g2
  obtain ⟨p, y, g1, g2, g3⟩ := ht.world.tree.par _ x hx2 hin hne
  rw [hx5] at g1; obtain rfl : f q = p := by simpa using g1
  have hyin : y.inDoc = true := by
    cases hd : y.inDoc with
    | true => rfl
    | false => rw [(ht.world.tree.out _ _ g2 hd).2] at g3; cases g3
  have hid : y.id ≠ a := by
    intro hc
    have : s.reg.getById a = some (f q) := (ht.world.inv.byId a (f q)).2 ⟨y, ⟨ht.world.inv.inDoc _ _ g2 hyin, g2⟩, hc⟩
    rw [hb] at this
    have hq : f i = f q := Option.some.inj this
    exact ht.world.tree.not_own hx2 hin (by rw [hq]; exact hx5)
  have hal : y.hasAlias a = false := by
    cases hc : y.hasAlias a with
    | false => rfl
    | true =>
      exfalso
      unfold RObj.hasAlias at hc
      obtain ⟨p, hp1, hp2⟩ := List.any_eq_true.1 hc
      have hp2 : p.1 = a := by simpa using hp2
      obtain ⟨D, hnm⟩ := hn
      rcases hnm.alias _ y p g2 hp1 with ⟨-, j, n, d1, d2, d3⟩ | ⟨d, -⟩
      · rw [hp2] at d3
        have := ht.once j i n m a d1 hi (by rcases d2 with h | h <;> rw [h] <;> decide) (Note.kind_ne hk).1 d3 ha
        subst this
        rw [hi] at d1; obtain rfl : m = n := by simpa using d1
        rcases d2 with h | h
        · exact (Note.kind_ne hk).2.1 h
        · exact (Note.kind_ne hk).2.2 h
      · have := (ht.world.kids _ y g2).2 (fun hc => by rw [hc] at g3; cases g3)
        rcases this with h | h <;> rcases d with d | d <;> rw [h] at d <;> cases d
  unfold PS.component
  rw [g2]
  dsimp only
  rw [if_neg (by rw [hal]; simp; exact fun h => hid h.symm)]
  have hc : childByIdOrAlias s.reg y.children a = some (f i) := by
    unfold childByIdOrAlias
    cases hf : y.children.find? (fun c => match s.reg.obj c with | some x => x.id == a | none => false) with
    | none =>
      exfalso
      have := List.find?_eq_none.1 hf (f i) g3
      rw [hx2] at this
      simp [hx3] at this
    | some c =>
      dsimp only
      have h1 := List.find?_some hf
      have h2 := List.mem_of_find?_eq_some hf
      obtain ⟨z, z1, z2, z3⟩ := ht.world.tree.chi _ y g2 c h2
      rw [z1] at h1
      have h1 : z.id = a := by simpa using h1
      have := (ht.world.inv.byId a c).2 ⟨z, ⟨ht.world.inv.inDoc _ _ z1 z3, z1⟩, h1⟩
      rw [hb] at this
      exact this.symm
  rw [hc]

/-- In its own scope, too. -/
theorem self_component {E : PRead} {f : Nat → Nat} {g : List Note} {S : List Nat} {s : PS} (ht : TreeK E f g S s)
    {i : Nat} {m : Note} {a : String} (hi : g[i]? = some m) (hk : m.kind.isSome = true) (ha : m.get "id" = some a) : s.component (f i) a = some (f i) := by
  obtain ⟨kd, hkd⟩ := Option.isSome_iff_exists.1 hk
  obtain ⟨a', q', h1, h2, x, ⟨-, h4⟩, h5, -⟩ := ht.made i m kd hi hkd
  rw [ha] at h1; obtain rfl : a = a' := by simpa using h1
  unfold PS.component
  rw [h4]
  dsimp only
  rw [if_pos (.inl h5.symm)]

/-! ## The rules of a switch -/

/-- The rules that an element collects are the bind rules in it, in order. -/
theorem effAll_rules (j : Nat) : ∀ (i : Nat) (l : List Note) (e : Elt),
    (effAll j i l e).rules = e.rules ++ (((kidNotes j i l).filter fun q => q.2.push == .bindRule).map fun q => (q.1, none))
  | i, [], e => by simp [effAll, kidNotes]
  | i, n :: l, e => by
    rw [effAll, effAll_rules j (i + 1) l]
    have hc : ∀ rs ts, (if n.conn = some j then connApply rs ts e else e).rules = e.rules := by intro rs ts; split <;> rfl
    rw [kidNotes]
    unfold Note.eff
    split
    · rename_i hp
      by_cases hb : n.push = .bindRule
      · rw [List.filter_append, hb]
        simp [childEff, hc, hb]
      · have : ∀ f, f ≠ Push.bindRule → ∀ e' : Elt, (childEff f i n.tag n.get e').rules = e'.rules := by
          intro f hf e'
          cases f <;> simp only [childEff, ne_eq, not_true] at hf ⊢
          split
          · rfl
          · split <;> rfl
        rw [this _ hb, hc, List.filter_append]
        simp [hb]
    · rw [id_eq, hc, List.nil_append]

theorem J.rules {E : PRead} {scr : Rect} {z : Nat} {g : List Note} {s : PS} (h : J E scr z g s) {j : Nat} {n : Note} (hj : g[j]? = some n) :
    (s.elt j).rules.map Prod.fst = ((kidNotes j 0 g).filter fun q => q.2.push == .bindRule).map Prod.fst := by
  have he := h.elt j n hj
  have h1 : (eraseE (s.elt j)).rules = (eraseE (effAll j 0 g n.base)).rules := by rw [he]
  simp only [eraseE, effAll_rules] at h1
  have := congrArg (List.map Prod.fst) h1
  simpa [Function.comp_def, Note.base] using this

/-- The attribute of a rule that names a component. -/
def ruleComp (n : Note) : Option String := n.get (if n.tag = "bindRule" then "constituent" else "component")

/-- Closed switches: the rules are resolved. -/
def RulesK (f : Nat → Nat) (g : List Note) (S : List Nat) (s : PS) : Prop :=
  ∀ (k : Nat) (n : Note), g[k]? = some n → n.tag = "switch" → k ∉ S → ∀ r ∈ (s.elt k).rules, r.1 < g.length ∧ ∃ c, r.2 = some c ∧
    ∀ (w : Note) a, g[r.1]? = some w → ruleComp w = some a →
      (∀ (i : Nat) (m : Note), g[i]? = some m → m.kind.isSome = true → m.get "id" = some a → m.parent = some k ∨ i = k → c = f i)

theorem resolveRules_spec (o : Nat) : ∀ (l : List (Nat × Option Nat)) (s : PS),
    PPost (resolveRules o l) (fun r t => t = s ∧ Each (fun p q => q.1 = p.1 ∧ ∃ a c, s.attr p.1 (if (s.elt p.1).tag = "bindRule" then "constituent" else "component") = some a ∧
      s.component o a = some c ∧ q.2 = some c) l r) s
  | [], s => PPost.pure' ⟨rfl, .nil⟩
  | p :: l, s => by
    unfold resolveRules
    have h1 : PPost (resolveComponent o p.1) (fun c t => t = s ∧ ∃ a, s.attr p.1 (if (s.elt p.1).tag = "bindRule" then "constituent" else "component") = some a ∧
      s.component o a = some c) s := by
      unfold resolveComponent
      exact PPost.bind (PPost.get (PPost.bind (PPost.attr! fun a ha => PPost.orErr fun c hc => ⟨rfl, a, ha, hc⟩)))
    refine PPost.bind (h1.mono ?_)
    rintro c _ ⟨rfl, a, ha, hc⟩
    refine PPost.bind ((resolveRules_spec o l _).mono ?_)
    rintro rs _ ⟨rfl, h⟩
    exact PPost.pure ⟨rfl, .cons ⟨rfl, a, c, ha, hc, rfl⟩ h⟩

theorem Each.mem_right {α β : Type} {R : α → β → Prop} {l : List α} {m : List β} (h : Each R l m) {b : β} (hb : b ∈ m) : ∃ a ∈ l, R a b := by
  induction h with
  | nil => cases hb
  | cons h1 _ ih =>
    rcases List.mem_cons.1 hb with rfl | hb
    · exact ⟨_, by simp, h1⟩
    · obtain ⟨a, h2, h3⟩ := ih hb; exact ⟨a, by simp [h2], h3⟩

theorem rulesK_extra {E : PRead} (hinj : ∀ i j, E.addr i = E.addr j → i = j) (scr : Rect) (z0 : Nat) :
    Extra E scr z0 (fun f g S s => (NameK E f g S s ∧ RefK f g s) ∧ RulesK f g S s) where
  same f g S s y al ca hU h := ⟨(refK_extra hinj scr z0).same f g S s y al ca hU h.1, h.2⟩
  imp f g S s s2 par pt x e r y nt hn ht hk hp := by
    refine ⟨(refK_extra hinj scr z0).imp f g S s s2 par pt x e r y nt hn ht hk.1 hp, ?_⟩
    obtain ⟨b1, b2, b3, b4, b5, b6, b7, b8, b9, b10, b11, b12, b13⟩ := ht.push_base hn
    have htg : nt.tag = "importBase" := by rw [b2, ← b4]; exact (table_objs e b3).2.2.2.2.2.2.1.1 hp
    have key : ∀ {j : Nat} {n : Note}, (g ++ [nt])[j]? = some n → (j < g.length ∧ g[j]? = some n) ∨ (j = g.length ∧ n = nt) := by
      intro j n hj
      by_cases hc : j < g.length
      · rw [List.getElem?_append_left hc] at hj; exact .inl ⟨hc, hj⟩
      · have hlt := (List.getElem?_eq_some_iff.1 hj).1
        have : j = g.length := by simp at hlt; omega
        subst this
        exact .inr ⟨rfl, by simpa using hj.symm⟩
    intro k n h1 h2 h3 r' hr
    rcases key h1 with ⟨a1, a2⟩ | ⟨a1, a2⟩
    · have he : s2.elt k = s.elt k := by rw [hn.state]; exact upd_ne _ _ (by rw [b1]; omega)
      rw [he] at hr
      obtain ⟨c1, c, c2, c3⟩ := hk.2 k n a2 h2 (fun hc => h3 (by simp [hc])) r' hr
      refine ⟨by simp; omega, c, c2, fun w a w1 w2 i m i1 i2 i3 i4 => ?_⟩
      rcases key w1 with ⟨-, w1⟩ | ⟨w1, -⟩
      · rcases key i1 with ⟨-, i1⟩ | ⟨-, i1⟩
        · exact c3 w a w1 w2 i m i1 i2 i3 i4
        · rw [i1] at i2; unfold Note.kind at i2; rw [htg] at i2; simp at i2
      · omega
    · rw [a2, htg] at h2; exact absurd h2 (by decide)
  push f f' g S s s2 par pt x e r y nt proc a t hn ht hk himp hrun hpu hj hf ht' := by
    refine ⟨(refK_extra hinj scr z0).push f f' g S s s2 par pt x e r y nt proc a t hn ht hk.1 himp hrun hpu hj hf ht', ?_⟩
    obtain ⟨b1, b2, b3, b4, b5, b6, b7, b8, b9, b10, b11, b12, b13⟩ := ht.push_base hn
    have key : ∀ {j : Nat} {n : Note}, (g ++ [nt])[j]? = some n → (j < g.length ∧ g[j]? = some n) ∨ (j = g.length ∧ n = nt) := by
      intro j n hj
      by_cases hc : j < g.length
      · rw [List.getElem?_append_left hc] at hj; exact .inl ⟨hc, hj⟩
      · have hlt := (List.getElem?_eq_some_iff.1 hj).1
        have : j = g.length := by simp at hlt; omega
        subst this
        exact .inr ⟨rfl, by simpa using hj.symm⟩
    have hup : ∀ k, k ∉ s.nelt :: S → par ≠ some k := by
      rintro k hk rfl
      have := (hn.up k rfl).2.1
      exact hk (by simp [List.mem_of_mem_head? (by rw [this]; rfl)])
    intro k n h1 h2 h3 r' hr
    have hkn : k ≠ s.nelt := fun hc => h3 (by simp [hc])
    rcases key h1 with ⟨a1, a2⟩ | ⟨a1, a2⟩
    · have he : (t.elt k).rules = (s.elt k).rules := by
        rw [hpu.other k hkn]
        have hpar : (s2.elt s.nelt).parent = par := by rw [hn.state]; simp [upd_same]
        have he2 : s2.elt k = s.elt k := by rw [hn.state]; exact upd_ne _ _ hkn
        rw [if_neg (by rw [hpar]; exact hup k h3), id_eq]
        split
        · show (s2.elt k).rules = _; rw [he2]
        · rw [he2]
      rw [he] at hr
      obtain ⟨c1, c, c2, c3⟩ := hk.2 k n a2 h2 (fun hc => h3 (by simp [hc])) r' hr
      refine ⟨by simp; omega, c, c2, fun w a w1 w2 i m i1 i2 i3 i4 => ?_⟩
      rcases key w1 with ⟨-, w1⟩ | ⟨w1, -⟩
      · rcases key i1 with ⟨hlt, i1⟩ | ⟨hi, i1⟩
        · rw [hf i hlt]; exact c3 w a w1 w2 i m i1 i2 i3 i4
        · exfalso
          rcases i4 with i4 | i4
          · rw [i1, hn.parent] at i4; exact hup k h3 i4
          · omega
      · omega
    · exact absurd (a1.trans b1.symm) hkn
  pop f g O S s k nt e n a t hj hpi ht hk h1 h2 h3 h4 h5 h6 := by
    have hK := (refK_extra hinj scr z0).pop f g O S s k nt e n a t hj hpi ht hk.1 h1 h2 h3 h4 h5 h6
    refine ⟨hK, ?_⟩
    intro k' n' g1 g2 g3 r hr
    by_cases hc : k' = k
    · subst hc
      rw [h1] at g1; obtain rfl : nt = n' := by simpa using g1
      have hpop : e.pop = .switch := by
        have : ∀ e ∈ syntaxTable, e.tag = "switch" → e.pop = .switch := by decide +kernel
        obtain ⟨q1, q2⟩ := syntaxOf_mem h2
        exact this e q1 (by rw [q2]; exact g2)
      rw [hpop] at h4
      have hobj : objAt g k' = true := by unfold objAt; rw [h1]; dsimp only; rw [g2]; decide
      have hst := ht.stack
      rw [List.filter_cons, if_pos hobj, List.map_cons] at hst
      -- what the switch resolves
      have hpost : PPost (popSwitch E n k') (fun _ t => Each (fun p q => q.1 = p.1 ∧ ∃ a c, s.attr p.1 (if (s.elt p.1).tag = "bindRule" then "constituent" else "component") = some a ∧
          s.component (f k') a = some c ∧ q.2 = some c) (s.elt k').rules (t.elt k').rules) s := by
        unfold popSwitch
        refine PPost.bind (PPost.peekObj fun o l ho => PPost.bind (PPost.object fun x hx => ?_))
        rw [hst] at ho
        obtain rfl : f k' = o := (List.cons.inj ho).1
        split
        · refine PPost.bind (PPost.get (PPost.bind ((resolveRules_spec (f k') _ s).mono ?_)))
          rintro rs _ ⟨rfl, hE⟩
          refine PPost.bind (PPost.modify (PPost.bind (((PRel.forEach (fixed_base.core E).toPPre (fun id => PRel.resolveSwitchPort (fixed_base.core E) (fun _ _ => ⟨rfl, rfl, rfl, rfl, rfl⟩) n (f k') id) _ : PRel Fixed _) _).mono fun _ v hv => PPost.modify ?_)))
          show Each _ _ (v.elt k').rules
          rw [hv.elt]
          show Each _ _ (Elt.rules (upd _ k' _ k'))
          rw [upd_same]
          exact hE
        · exact PPost.abort
      have hE := hpost a t h4
      obtain ⟨p, hp, hpr, a', c, p1, p2, p3⟩ := hE.mem_right hr
      have hmem : r.1 ∈ ((kidNotes k' 0 g).filter fun q => q.2.push == .bindRule).map Prod.fst := by
        rw [← hj.rules h1, hpr]; exact List.mem_map.2 ⟨p, hp, rfl⟩
      obtain ⟨q, hq1, hq2⟩ := List.mem_map.1 hmem
      have hq3 := (kidNotes_mem.1 (List.mem_filter.1 hq1).1).2.1
      have hqb : q.2.push = .bindRule := by simpa using (List.mem_filter.1 hq1).2
      rw [Nat.sub_zero, hq2] at hq3
      refine ⟨(List.getElem?_eq_some_iff.1 hq3).1, c, p3, fun w aw w1 w2 i m i1 i2 i3 i4 => ?_⟩
      rw [hq3] at w1; obtain rfl : q.2 = w := by simpa using w1
      have hwt : q.2.tag = "bindRule" ∨ q.2.tag = "defaultComponent" := by
        have : ∀ e ∈ syntaxTable, e.push = .bindRule → e.tag = "bindRule" ∨ e.tag = "defaultComponent" := by decide +kernel
        unfold Note.push pushOf at hqb
        split at hqb
        · rename_i e' he'
          obtain ⟨q1, q2⟩ := syntaxOf_mem he'
          rw [← q2]; exact this e' q1 hqb
        · cases hqb
      have hat : ∀ nm, s.attr p.1 nm = q.2.get nm := by
        intro nm
        have := hj.attrs hq3 (by rcases hwt with h | h <;> rw [h] <;> decide) (by rcases hwt with h | h <;> rw [h] <;> decide)
        rw [hpr] at this
        unfold PS.attr; rw [this]; rfl
      rw [(hj.tag (by rw [← hpr]; exact hq3)).1, hat] at p1
      unfold ruleComp at w2
      rw [w2] at p1; obtain rfl : aw = a' := by simpa using p1
      rcases i4 with i4 | rfl
      · rw [child_component ht hk.1.1 i1 i2 i3 i4] at p2; exact (Option.some.inj p2).symm
      · rw [self_component ht i1 i2 i3] at p2; exact (Option.some.inj p2).symm
    · rw [h5.other k' hc] at hr
      exact hk.2 k' n' g1 g2 (by simp [hc, g3]) r hr

theorem rulesK_init {E : PRead} (hinj : ∀ i j, E.addr i = E.addr j → i = j) {f : Nat → Nat} {W H : Int} {z : Nat} {reg : Reg} (hreg : newDoc (E.addr 0) (E.addr 1) (E.addr 2) (E.addr 3) (E.addr 4) = .ok reg) :
    (NameK E f [] [] (PS.init W H z reg 5) ∧ RefK f [] (PS.init W H z reg 5)) ∧ RulesK f [] [] (PS.init W H z reg 5) := by
  refine ⟨⟨nameK_init hinj W H z hreg, ⟨?_, ?_, ?_⟩⟩, ?_⟩
  · intro j i n m r h; simp at h
  · intro j n r h; simp at h
  · intro j n h; simp at h
  · intro k n h; simp at h

end Ginga
