import Verif.Proofs.Root
/-!
# The end of the document: the stages of `popNcl` and what they leave alone
-/
namespace Ginga

/-- The elements and predicates have not changed. -/
structure Fixed (s t : PS) : Prop where
  elt : t.elt = s.elt
  nelt : t.nelt = s.nelt
  cache : t.cache = s.cache
  pnode : t.pnode = s.pnode
  npred : t.npred = s.npred

theorem Fixed.refl (s : PS) : Fixed s s := ⟨rfl, rfl, rfl, rfl, rfl⟩
theorem Fixed.trans {s t u : PS} (h : Fixed s t) (h' : Fixed t u) : Fixed s u :=
  ⟨h'.elt.trans h.elt, h'.nelt.trans h.nelt, h'.cache.trans h.cache, h'.pnode.trans h.pnode, h'.npred.trans h.npred⟩

theorem fixed_base : PBase Fixed where
  refl := Fixed.refl
  trans := fun h h' => h.trans h'
  reg := fun s _ _ _ _ => ⟨rfl, rfl, rfl, rfl, rfl⟩
  del := fun s _ => ⟨rfl, rfl, rfl, rfl, rfl⟩
  nalloc := fun s => ⟨rfl, rfl, rfl, rfl, rfl⟩
  objs := fun s _ => ⟨rfl, rfl, rfl, rfl, rfl⟩
  refer := fun s _ => ⟨rfl, rfl, rfl, rfl, rfl⟩
  props := fun s _ _ _ _ _ => ⟨rfl, rfl, rfl, rfl, rfl⟩
  par := fun s _ _ => ⟨rfl, rfl, rfl, rfl, rfl⟩

/-- Only the attributes of the elements in `l` have changed. -/
structure DescOnly (l : List Nat) (s t : PS) : Prop where
  state : t = { s with elt := t.elt }
  elt : ∀ k, t.elt k = { s.elt k with attrs := (t.elt k).attrs }
  other : ∀ k, k ∉ l → t.elt k = s.elt k

theorem DescOnly.refl (l : List Nat) (s : PS) : DescOnly l s s := ⟨rfl, fun _ => rfl, fun _ _ => rfl⟩
theorem DescOnly.trans {l : List Nat} {s t u : PS} (h : DescOnly l s t) (h' : DescOnly l t u) : DescOnly l s u where
  state := by rw [h'.state, h.state]
  elt := fun k => by rw [h'.elt, h.elt]
  other := fun k hk => (h'.other k hk).trans (h.other k hk)

theorem descOnly_attrs {l : List Nat} {k : Nat} (hk : k ∈ l) (s : PS) (a : List (String × String)) :
    DescOnly l s (s.setElt k { s.elt k with attrs := a }) := by
  refine ⟨rfl, fun j => ?_, fun j hj => ?_⟩
  · unfold PS.setElt
    dsimp only
    by_cases h : j = k
    · subst h; rw [upd_same]
    · rw [upd_ne _ _ h]
  · exact upd_ne _ _ fun h => hj (h ▸ hk)

theorem popDesc_only {E : PRead} {l : List Nat} {k : Nat} (hk : k ∈ l) : PRel (DescOnly l) (popDesc E k) := by
  have hpre : PPre (DescOnly l) := ⟨DescOnly.refl l, fun h h' => h.trans h'⟩
  have htr : ∀ name, PRel (DescOnly l) (descTrans E k name) := by
    intro name s
    unfold descTrans
    refine PPost.bind (PPost.get ?_)
    cases s.attr k name with
    | none => exact PPost.pure (.refl _ _)
    | some id =>
      refine PPost.bind (PPost.orErr fun t ht => PPost.bind (PPost.attr! fun ty hty => ?_))
      split
      · exact PPost.ub
      refine PPost.modify ?_
      unfold PS.setAttr
      exact descOnly_attrs hk s _
  unfold popDesc
  refine PRel.bind hpre (PRel.attr! hpre _ _) fun _ => PRel.bind hpre ?_ fun _ => PRel.bind hpre (htr _) fun _ => htr _
  intro s
  unfold descRegion
  refine PPost.bind (PPost.get ?_)
  cases s.attr k "region" with
  | none => exact PPost.pure (.refl _ _)
  | some id => exact PPost.bind (PPost.orErr fun t ht => PPost.modify (descOnly_attrs hk s _))

theorem PRel.forEachMem {R : PS → PS → Prop} (hR : PPre R) {α : Type} {f : α → PM Unit} : ∀ (l : List α), (∀ a ∈ l, PRel R (f a)) → PRel R (PM.forEach f l)
  | [], _ => PRel.pure hR _
  | a :: l, h => PRel.bind hR (h a (by simp)) fun _ => PRel.forEachMem hR l fun b hb => h b (by simp [hb])

/-- The stages of `popNcl`. -/
structure Stages (E : PRead) (m : Nat) (u u1 u2 u3 u4 t : PS) : Prop where
  desc : PM.forEach (popDesc E) (u.byTag "descriptor") u = .ok (some ((), u1))
  media : PM.forEach (popMediaElt E) (u.byTag "media") u1 = .ok (some ((), u2))
  switch : PM.forEach popSwitchElt (u.byTag "switch") u2 = .ok (some ((), u3))
  link : PM.forEach (popLinkElt E m) (u.byTag "link") u3 = .ok (some ((), u4))
  last : t = { u4 with objs := u4.objs.tail }
  f1 : DescOnly (u.byTag "descriptor") u u1
  f2 : Fixed u1 u2
  f3 : Fixed u2 u3
  f4 : Fixed u3 u4

theorem popNcl_stages {E : PRead} {m : Nat} {u t : PS} (h : popNcl E m u = .ok (some ((), t))) : ∃ u1 u2 u3 u4, Stages E m u u1 u2 u3 u4 t := by
  unfold popNcl at h
  obtain ⟨u0, u0', h0, h⟩ := PM.bind_ok.1 h
  have h00 : (PM.get : PM PS) u = .ok (some (u, u)) := rfl
  rw [h00] at h0
  have e1 : u = u0 := by simpa using congrArg (fun r => match r with | Res.ok (some p) => p.1 | _ => u) h0
  have e2 : u = u0' := by simpa using congrArg (fun r => match r with | Res.ok (some p) => p.2 | _ => u) h0
  subst e1 e2
  obtain ⟨_, u1, h1, h⟩ := PM.bind_ok.1 h
  obtain ⟨_, u2, h2, h⟩ := PM.bind_ok.1 h
  obtain ⟨_, u3, h3, h⟩ := PM.bind_ok.1 h
  obtain ⟨_, u4, h4, h⟩ := PM.bind_ok.1 h
  obtain ⟨_, u5, h5, h6⟩ := PM.bind_ok.1 h
  have hu5 : u5 = u4 := (PRel.peekObj (R := Eq) ⟨fun _ => rfl, Eq.trans⟩ u4 _ _ h5).symm
  subst hu5
  refine ⟨u1, u2, u3, u5, h1, h2, h3, h4, ?_, ?_, ?_, ?_, ?_⟩
  · have : popObj u5 = .ok (some ((), { u5 with objs := u5.objs.tail })) := rfl
    rw [this] at h6
    simpa using h6.symm
  · exact PRel.forEachMem ⟨DescOnly.refl _, fun h h' => h.trans h'⟩ _ (fun k hk => popDesc_only hk) u _ _ h1
  · exact PRel.forEachMem fixed_base.toPPre _ (fun k _ => PRel.popMediaElt (fixed_base.core E) k) u1 _ _ h2
  · exact PRel.forEachMem fixed_base.toPPre _ (fun k _ => PRel.popSwitchElt (fixed_base.core E) (fun _ _ => ⟨rfl, rfl, rfl, rfl, rfl⟩) k) u2 _ _ h3
  · exact PRel.forEachMem fixed_base.toPPre _ (fun k _ => PRel.popLinkElt (fixed_base.core E) (fun s p => ⟨rfl, rfl, rfl, rfl, rfl⟩) m k) u3 _ _ h4

/-- The elements after the document has been accepted: those before `popNcl`, except for the attributes of descriptors. -/
theorem Stages.elt {E : PRead} {m : Nat} {u u1 u2 u3 u4 t : PS} (h : Stages E m u u1 u2 u3 u4 t) : t.elt = u1.elt := by
  rw [h.last]
  exact h.f4.elt.trans (h.f3.elt.trans h.f2.elt)
theorem Stages.nelt {E : PRead} {m : Nat} {u u1 u2 u3 u4 t : PS} (h : Stages E m u u1 u2 u3 u4 t) : t.nelt = u.nelt := by
  rw [h.last]
  exact h.f4.nelt.trans (h.f3.nelt.trans (h.f2.nelt.trans (by rw [h.f1.state])))
theorem Stages.eltNe {E : PRead} {m : Nat} {u u1 u2 u3 u4 t : PS} (h : Stages E m u u1 u2 u3 u4 t) {k : Nat} (hk : (u.elt k).tag ≠ "descriptor") :
    t.elt k = u.elt k := by
  rw [h.elt]
  refine h.f1.other k fun hm => hk ?_
  unfold PS.byTag at hm
  simpa using (List.mem_filter.1 hm).2

end Ginga
