import Verif.Proofs.LtabNode
/-!
# The document of an NCL-ltab table
-/
namespace Ginga

/-- The objects of the document `t` are those of the table `top`: `f` gives the object of each path through the lists of children. -/
structure LtabDoc (E : PRead) (H : LHeap) (t : PS) (top : Nat) (f : List Nat → Nat) : Prop where
  /-- the table is the root; its id is an alias of the root -/
  root : f [] = t.reg.root ∧ H.kind top = some .context ∧ ∃ x id, t.reg.has t.reg.root x ∧ x.kind = .context ∧ x.parent = none ∧ H.id top = some id ∧ (id, 0) ∈ x.aliases
  /-- a table inside it is an object of its kind and id, found by its id, in the object of the enclosing table -/
  node : ∀ π a, H.at top π = some a → π ≠ [] →
    ∃ x, t.reg.has (f π) x ∧ H.kind a = some x.kind ∧ H.id a = some x.id ∧ x.parent = some (f π.dropLast) ∧ t.reg.getById x.id = some (f π)
  /-- different places, different objects -/
  inj : ∀ π π' a a', H.at top π = some a → H.at top π' = some a' → f π = f π' → π = π'
  /-- no other objects -/
  all : ∀ q ∈ t.reg.objects, t.reg.settings = some q ∨ ∃ π a, H.at top π = some a ∧ f π = q
  /-- the children of an object are those of the list of children; the root has the settings object too -/
  children : ∀ π a, H.at top π = some a → ∃ x, t.reg.obj (f π) = some x ∧
    ∀ c, c ∈ x.children ↔ (∃ i b, H.at top (π ++ [i]) = some b ∧ c = f (π ++ [i])) ∨ (π = [] ∧ t.reg.settings = some c)
  /-- every child is a table -/
  tables : ∀ π a, H.at top π = some a → H.kidVals a = (H.kids a).map LVal.tab
  /-- each object is as its table says -/
  as : ∀ π a, H.at top π = some a → ObjectAs E H t (f π) a
  /-- the settings object has no selection events -/
  settings : ∃ q x, t.reg.settings = some q ∧ t.reg.obj q = some x ∧ ∀ id, (x.getEvent .selection id).map (·.2) = none

theorem at_append_cons (H : LHeap) : ∀ (a : Nat) (π τ : List Nat), H.at a (π ++ τ) = (H.at a π).bind fun b => H.at b τ
  | a, [], τ => rfl
  | a, i :: π, τ => by
    simp only [List.cons_append, LHeap.at]
    cases (H.kids a)[i]? with
    | none => rfl
    | some b => exact at_append_cons H b π τ

theorem at_dropLast {H : LHeap} {top : Nat} {π : List Nat} {a : Nat} (h : H.at top π = some a) (hπ : π ≠ []) :
    ∃ i b, π = π.dropLast ++ [i] ∧ H.at top π.dropLast = some b := by
  have e := List.dropLast_concat_getLast hπ
  rw [← e, at_append_cons] at h
  cases hb : H.at top π.dropLast with
  | none => rw [hb] at h; cases h
  | some b => exact ⟨_, b, e.symm, rfl⟩

theorem ltab_doc {E : PRead} (hinj : ∀ i j, E.addr i = E.addr j → i = j) {H : LHeap} {d : Nat} {v : LVal} {t : PS} (h : parseLtab E H d v = .ok (some t)) :
    ∃ top f, v = .tab top ∧ LtabDoc E H t top f ∧ WorldOf E t := by
  have ne : ∀ i j, i ≠ j → E.addr i ≠ E.addr j := fun i j hij h => hij (hinj i j h)
  unfold parseLtab at h
  cases hd : newDoc (E.addr 0) (E.addr 1) (E.addr 2) (E.addr 3) (E.addr 4) with
  | abort => rw [hd] at h; cases h
  | ub => rw [hd] at h; cases h
  | fuel => rw [hd] at h; cases h
  | ok reg =>
  rw [hd] at h
  simp only [Res.bind] at h
  have w0 : World E reg 5 [] [] := newDoc_world hinj hd
  obtain ⟨ho, hm, -, -, -, -, hroot, hset⟩ := newDoc_has (ne 0 1 (by decide)) hd
  have key : PPost (parseLRoot E H d v) (fun _ t => ∃ top f, v = .tab top ∧ LtabDoc E H t top f ∧ WorldOf E t) (PS.init 1 1 0 reg 5) := by
    unfold parseLRoot
    refine Reads.seq (reads_head H "context" v) fun hh hhd => ?_
    obtain ⟨top, id⟩ := hh
    obtain ⟨rfl, htag, hid⟩ := hhd
    dsimp only at htag hid ⊢
    have hkind : H.kind top = some .context := by unfold LHeap.kind; rw [htag]; rfl
    refine PPost.bind (PPost.get (PPost.bind (PPost.regOp fun b r hr => ?_)))
    have w1 : World E r 5 [] [] := World.addAlias w0 hr
    change reg.exec (.addAlias reg.root id 0) = .ok (b, r) at hr
    change PPost (parseLBody H d (parseLNode E H d) reg.root top) _ { PS.init 1 1 0 reg 5 with reg := r }
    have f1 := newObj_fields .context "__root__" (E.addr 2) 0
    have hrx : reg.obj reg.root = some { newObj .context "__root__" (E.addr 2) 0 with children := [E.addr 1], inDoc := true } := (ho _ _).2 (.inr ⟨hroot, rfl⟩)
    have hr' : r = reg.setObj reg.root { newObj .context "__root__" (E.addr 2) 0 with children := [E.addr 1], inDoc := true, aliases := [(id, 0)] } := by
      simp only [Reg.exec, Reg.addAlias] at hr
      rw [hrx] at hr
      dsimp only at hr
      have ha : (newObj .context "__root__" (E.addr 2) 0).aliases = [] := by simp [newObj, RObj.addEvent, RObj.getEvent]
      rw [ha] at hr
      rw [if_neg (by simp)] at hr
      cases hr; rfl
    have lw : LW E { PS.init 1 1 0 reg 5 with reg := r } := ⟨w1, rfl, fun _ _ => ⟨rfl, rfl, rfl, rfl⟩⟩
    have hrx' : r.obj reg.root = some { newObj .context "__root__" (E.addr 2) 0 with children := [E.addr 1], inDoc := true, aliases := [(id, 0)] } := by rw [hr']; simp [Reg.setObj, upd]
    have hrr : r.root = reg.root := by rw [hr']; rfl
    refine (body_post d hkind (fun k v s w => node_post hinj H d k reg.root v s w) lw hrx' (newObj_get .context (by decide) "__root__" (E.addr 2) 0) ⟨rfl, rfl⟩).mono fun _ u hu => ?_
    obtain ⟨wu, ⟨t, ut, hur, -⟩, hc, hvals, g, hg⟩ := hu
    have uroot : u.reg.root = reg.root := by rw [hur, ut.root]; exact hrr
    obtain ⟨cs, hcs⟩ := ut.own _ hrx'
    rw [← hur] at hcs
    have uset : u.reg.settings = reg.settings := by rw [hur, ut.settings]; show r.settings = _; rw [hr']; rfl
    have robj : r.objects = reg.objects := by rw [hr']; rfl
    have hasRoot : u.reg.has reg.root { newObj .context "__root__" (E.addr 2) 0 with aliases := [(id, 0)], inDoc := true, children := cs } :=
      ⟨by rw [hur]; exact ut.objects _ (by show _ ∈ r.objects; rw [robj, hm]; exact .inl hroot), hcs⟩
    have hat : ∀ i π, H.at top (i :: π) = forestAt H (H.kids top) (i :: π) := fun _ _ => rfl
    refine ⟨top, g, rfl, ?_, wu.world⟩
    have hnode : ∀ π a, H.at top π = some a → π ≠ [] → NodeAs E H u (g π) (g π.dropLast) a := by
      intro π a ha hπ
      cases π with
      | nil => exact absurd rfl hπ
      | cons i π => exact hg.node _ _ ha
    have hinj' : ∀ π π' a a', H.at top π = some a → H.at top π' = some a' → g π = g π' → π = π' := by
      intro π π' a a' h1 h2 e
      have rootNe : ∀ i π a, H.at top (i :: π) = some a → g (i :: π) ≠ g [] := by
        intro i π a ha e
        have := hg.fresh (i :: π) a ha
        rw [e, hg.top] at this
        have : r.obj reg.root = none := this
        rw [hrx'] at this; cases this
      cases π with
      | nil =>
        cases π' with
        | nil => rfl
        | cons j τ => exact absurd e.symm (rootNe _ _ _ h2)
      | cons i π =>
        cases π' with
        | nil => exact absurd e (rootNe _ _ _ h1)
        | cons j τ => exact hg.inj _ _ _ _ h1 h2 e
    have hall : ∀ q ∈ u.reg.objects, u.reg.settings = some q ∨ ∃ π a, H.at top π = some a ∧ g π = q := by
      intro q hq
      rcases hg.all q hq with h1 | ⟨π, a, h1, h2⟩
      · have h1 : q ∈ r.objects := h1
        rw [robj, hm] at h1
        rcases h1 with rfl | rfl
        · exact .inr ⟨[], top, rfl, by rw [hg.top]; exact hroot⟩
        · exact .inl (by rw [uset, hset])
      · cases π with
        | nil => cases h1
        | cons i π => exact .inr ⟨i :: π, a, h1, h2⟩
    have hobj : ∀ π a, H.at top π = some a → ∃ x, u.reg.has (g π) x ∧ (π ≠ [] → x.parent = some (g π.dropLast)) ∧ (π = [] → x.parent = none) := by
      intro π a ha
      by_cases hπ : π = []
      · subst hπ; refine ⟨{ newObj .context "__root__" (E.addr 2) 0 with aliases := [(id, 0)], inDoc := true, children := cs }, by rw [hg.top]; exact hasRoot, fun h => absurd rfl h, fun _ => f1.2.2.1⟩
      · obtain ⟨x, hx, -, -, hp, -⟩ := (hnode π a ha hπ).obj
        exact ⟨x, hx, fun _ => hp, fun h => absurd h hπ⟩
    obtain ⟨bset, xset, hs1, hs2, hs3, hs4⟩ := wu.world.settings
    refine ⟨⟨by rw [hg.top, uroot], hkind, { newObj .context "__root__" (E.addr 2) 0 with aliases := [(id, 0)], inDoc := true, children := cs }, id, by rw [uroot]; exact hasRoot, f1.2.1, f1.2.2.1, hid, List.mem_singleton.2 rfl⟩, ?_, hinj', hall, ?_, ?_, ?_, ?_⟩
    · intro π a ha hπ
      obtain ⟨x, hx, h1, h2, h3, -⟩ := (hnode π a ha hπ).obj
      exact ⟨x, hx, h1, h2, h3, Reg.node.byId wu.world.inv ⟨x, hx, rfl, rfl, rfl⟩⟩
    · intro π a ha
      obtain ⟨x, hx, hp, -⟩ := hobj π a ha
      refine ⟨x, hx.2, fun c => ⟨fun hcm => ?_, ?_⟩⟩
      · obtain ⟨z, hz, hzp, hzd⟩ := wu.world.tree.chi _ _ hx.2 c hcm
        have hzd : z.inDoc = true := by
          cases hzi : z.inDoc with
          | true => rfl
          | false => have := (wu.world.tree.out _ _ hz hzi).1; rw [hzp] at this; cases this
        have hcin := wu.world.inv.inDoc _ _ hz hzd
        rcases hall c hcin with h1 | ⟨π', a', h1, h2⟩
        · rw [hs1] at h1; cases h1
          rw [hs2] at hz; cases hz
          rw [hs4] at hzp
          have : g π = g [] := by rw [hg.top, ← uroot]; exact (Option.some.inj hzp).symm
          exact .inr ⟨hinj' _ _ _ _ ha rfl this, hs1⟩
        · obtain ⟨z', hz', hp1, hp2⟩ := hobj π' a' h1
          rw [h2, ] at hz'
          rw [hz'.2] at hz; cases hz
          by_cases hπ' : π' = []
          · rw [hp2 hπ'] at hzp; cases hzp
          · rw [hp1 hπ'] at hzp
            obtain ⟨i, b, e, hb⟩ := at_dropLast h1 hπ'
            have : π'.dropLast = π := hinj' _ _ _ _ hb ha (Option.some.inj hzp)
            rw [this] at e
            exact .inl ⟨i, a', by rw [← e]; exact h1, by rw [← e]; exact h2.symm⟩
      · rintro (⟨i, b, hb, rfl⟩ | ⟨rfl, hs⟩)
        · obtain ⟨z, hz, hp1, -⟩ := hobj _ _ hb
          have hp1 := hp1 (by simp)
          rw [List.dropLast_concat] at hp1
          have hzr : g (π ++ [i]) ≠ u.reg.root := by
            intro e
            rw [uroot, ← hg.top] at e
            have := hinj' _ _ _ _ hb rfl e
            simp at this
          have hzd : z.inDoc = true := by
            cases hzi : z.inDoc with
            | true => rfl
            | false => have := (wu.world.tree.out _ _ hz.2 hzi).1; rw [hp1] at this; cases this
          obtain ⟨p, y, h1, h2, h3⟩ := wu.world.tree.par _ _ hz.2 hzd hzr
          rw [hp1] at h1; cases h1
          rw [hx.2] at h2; cases h2
          assumption
        · rw [hs1] at hs; cases hs
          have hd : xset.inDoc = true := by
            cases hzi : xset.inDoc with
            | true => rfl
            | false => have := (wu.world.tree.out _ _ hs2 hzi).1; rw [hs4] at this; cases this
          have hr1 : bset ≠ u.reg.root := by
            intro e
            rw [e, uroot, hcs] at hs2; cases hs2
            have h3 : (newObj .context "__root__" (E.addr 2) 0).kind = .settings := hs3
            rw [f1.2.1] at h3; cases h3
          obtain ⟨p, y, h1, h2, h3⟩ := wu.world.tree.par _ _ hs2 hd hr1
          rw [hs4] at h1; cases h1
          rw [hg.top, ← uroot] at hx
          rw [hx.2] at h2; cases h2
          assumption
    · intro π a ha
      by_cases hπ : π = []
      · subst hπ; cases ha; exact hvals
      · exact (hnode π a ha hπ).kids
    · intro π a ha
      by_cases hπ : π = []
      · subst hπ; cases ha
        rw [hg.top]
        unfold ObjectAs
        rw [hkind]; exact hc
      · exact (hnode π a ha hπ).as
    · have hsx : reg.obj (E.addr 1) = some { newObj .settings "__settings__" (E.addr 3) (E.addr 4) with parent := some (E.addr 0), inDoc := true } := (ho _ _).2 (.inl ⟨rfl, rfl⟩)
      have hne : E.addr 1 ≠ reg.root := by rw [hroot]; exact ne 1 0 (by decide)
      refine ⟨E.addr 1, _, by rw [uset, hset], by rw [hur]; exact ut.keep _ _ (by show r.obj _ = _; rw [hr']; simp only [Reg.setObj, upd]; rw [if_neg hne]; exact hsx) hne, fun id => ?_⟩
      show ((newObj .settings "__settings__" (E.addr 3) (E.addr 4)).getEvent .selection id).map (·.2) = none
      have : (newObj .settings "__settings__" (E.addr 3) (E.addr 4)).getEvent .selection id = none := by
        unfold newObj
        rw [if_pos rfl]
        rw [addEvent_get (by simp), addEvent_get (by simp)]
        rfl
      rw [this]; rfl
  cases hp : parseLRoot E H d v (PS.init 1 1 0 reg 5) with
  | abort => rw [hp] at h; cases h
  | ub => rw [hp] at h; cases h
  | fuel => rw [hp] at h; cases h
  | ok r =>
    rw [hp] at h
    cases r with
    | none => cases h
    | some p =>
      obtain ⟨a, t'⟩ := p
      cases h
      exact key a t hp

end Ginga
