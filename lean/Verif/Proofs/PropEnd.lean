import Verif.Proofs.Share
/-!
# The properties at the end of the document
-/
namespace Ginga

/-! ## The last phase keeps the properties with events -/

/-- The property `nm` of `o`, if it has an event, is kept. -/
def PropKeep (E : PRead) (o : Nat) (nm : String) (s t : PS) : Prop :=
  EvKeep E s t ∧ (Alloc E s o → HasAttr s.reg o nm → mget nm (t.props o) = mget nm (s.props o))

section
variable {E : PRead} {o : Nat} {nm : String}

theorem propKeep_same {s t : PS} (h : EvKeep E s t) (h' : SameProps s t) : PropKeep E o nm s t := ⟨h, fun _ _ => by rw [show t.props = s.props from h']⟩

theorem propKeep_pre (E : PRead) (o : Nat) (nm : String) : PPre (PropKeep E o nm) where
  refl _ := propKeep_same ((evKeep_pre E).refl _) rfl
  trans h h' := ⟨(evKeep_pre E).trans h.1 h'.1, fun h1 h2 => (h'.2 (h1.mono h.1.1) ((h.1.2.1 o h1).attr h2)).trans (h.2 h1 h2)⟩

theorem propKeep_both {α : Type} {m : PM α} (h : PRel (EvKeep E) m) (h' : PRel SameProps m) : PRel (PropKeep E o nm) m := fun s a t ht =>
  propKeep_same (h s a t ht) (h' s a t ht)

theorem propKeep_move (m : Nat) : ∀ l, PRel (PropKeep E o nm) (moveAttrs E m l)
  | [] => PRel.pure (propKeep_pre E o nm) _
  | (name, value) :: l => by
    have ih := propKeep_move m l
    unfold moveAttrs
    intro s
    split
    · exact ih s
    · refine PPost.bind (PPost.object fun x hx => ?_)
      split
      · exact ih s
      · next hno =>
        refine PPost.bind ((propKeep_both (E := E) (o := o) (nm := nm) (PRel.addEvent (evKeep_core E) m { typ := .attribution, id := name }) (PRel.addEvent (sameProps_atomic.atom E).toPCore _ _) s).and
          ((PRel.addEvent (sameProps_atomic.atom E).toPCore m { typ := .attribution, id := name } trivial) s) |>.mono ?_)
        rintro _ s1 ⟨h1, h1'⟩
        have hset : PPost (setProp m name value) (fun _ t => PropKeep E o nm s t) s1 := by
          unfold setProp
          refine PPost.bind (PPost.object fun y hy => PPost.modify ⟨(evKeep_pre E).trans h1.1 (evKeep_same rfl (Nat.le_refl _)), fun ha hh => ?_⟩)
          rw [← show s1.props = s.props from h1']
          show mget nm (upd s1.props m _ o) = _
          by_cases ho : o = m
          · subst ho
            rw [upd_same]
            by_cases hn : nm = name
            · subst hn; exact absurd (hh x hx) hno
            · exact mget_mset_ne _ _ _ _ hn
          · rw [upd_ne _ _ ho]
        refine PPost.bind (hset.mono fun _ s2 h2 => (ih s2).mono fun _ s3 h3 => (propKeep_pre E o nm).trans h2 h3)

theorem propKeep_media (k : Nat) : PRel (PropKeep E o nm) (popMediaElt E k) := by
  have hp := propKeep_pre E o nm
  unfold popMediaElt
  refine PRel.bind hp (PRel.get hp) fun s => PRel.bind hp ?_ fun _ => ?_
  · split
    · exact PRel.pure' hp _
    · refine PRel.bind hp (PRel.orErr hp _) fun dk => PRel.bind hp (PRel.attr! hp _ _) fun mid => PRel.bind hp (PRel.some! hp _) fun m => PRel.bind hp (PRel.object hp _) fun x => ?_
      split
      · exact propKeep_move m _
      · exact PRel.abort
  · split
    · exact PRel.pure' hp _
    · refine PRel.bind hp (PRel.orErr hp _) fun rk => ?_
      split
      · exact PRel.err
      · exact PRel.pure' hp _

/-- All of the last phase. -/
theorem propKeep_stages {m : Nat} {u u1 u2 u3 u4 t : PS} (hst : Stages E m u u1 u2 u3 u4 t) : PropKeep E o nm u t := by
  have hp := propKeep_pre E o nm
  have h1 : PropKeep E o nm u u1 := propKeep_same (evKeep_same (by rw [hst.f1.state]) (by rw [hst.f1.state]; exact Nat.le_refl _)) (by unfold SameProps; rw [hst.f1.state])
  have h2 : PropKeep E o nm u1 u2 := PRel.forEach hp (fun k => propKeep_media k) _ _ _ _ hst.media
  have h3 : PropKeep E o nm u2 u3 := PRel.forEach hp (fun k => propKeep_both (PRel.popSwitchElt (evKeep_core E) (fun _ _ => evKeep_same rfl (Nat.le_refl _)) k)
    (PRel.popSwitchElt (sameProps_atomic.atom E).toPCore (fun _ _ => rfl) k)) _ _ _ _ hst.switch
  have h4 : PropKeep E o nm u3 u4 := PRel.forEach hp (fun k => propKeep_both (PRel.popLinkElt (evKeep_core E) (fun _ _ => evKeep_same rfl (Nat.le_refl _)) m k)
    (PRel.popLinkElt (sameProps_atomic.atom E).toPCore (fun _ _ => rfl) m k)) _ _ _ _ hst.link
  have h5 : PropKeep E o nm u4 t := propKeep_same (evKeep_same (by rw [hst.last]) (by rw [hst.last]; exact Nat.le_refl _)) (by unfold SameProps; rw [hst.last])
  exact hp.trans h1 (hp.trans h2 (hp.trans h3 (hp.trans h4 h5)))

end

/-! ## Elements in document order -/

mutual
/-- The elements of a document in document order, each with its parent. -/
def Xml.listing (p : Option Xml) : Xml → List (Option Xml × Xml)
  | .elem tag attrs cs => (p, .elem tag attrs cs) :: listingAll (some (.elem tag attrs cs)) cs
/-- The elements of a list of elements. -/
def listingAll (p : Option Xml) : List Xml → List (Option Xml × Xml)
  | [] => []
  | c :: cs => c.listing p ++ listingAll p cs
end

theorem Xml.listing_eq (p : Option Xml) (x : Xml) : x.listing p = (p, x) :: listingAll (some x) x.children := by
  cases x; rw [Xml.listing]; rfl

theorem aliasPrefix_ne {al : List (String × String)} (h : al ≠ []) : aliasPrefix al ≠ "" := by
  cases al with
  | nil => exact absurd rfl h
  | cons a l =>
    intro hc
    have := congrArg String.length hc
    simp [aliasPrefix, String.length_append] at this

/-- Elements of imported documents are known by their prefix. -/
theorem Laid.pre_ne {E : PRead} {al : List (String × String)} {pt : Option String} {par : Option Nat} {k : Nat} {xs : List Xml} {l : List Note}
    (h : Laid E al pt par k xs l) : al ≠ [] → ∀ n ∈ l, n.pre ≠ "" := by
  induction h with
  | nil => intro _ n hn; simp at hn
  | cons h1 h2 h3 h4 h5 h6 ih1 ih2 =>
    intro hal m hm
    rcases List.mem_cons.1 hm with rfl | hm
    · rw [h4]; exact aliasPrefix_ne hal
    rcases List.mem_append.1 hm with hm | hm
    · exact ih1 hal m hm
    · exact ih2 hal m hm
  | imp h1 h2 h3 h4 h5 h6 h7 h8 h9 h10 h11 h12 h13 ih1 ih2 ih3 =>
    intro hal m hm
    rcases List.mem_cons.1 hm with rfl | hm
    · rw [h4]; exact aliasPrefix_ne hal
    rcases List.mem_append.1 hm with hm | hm
    · rcases List.mem_append.1 hm with hm | hm
      · exact ih1 (by simp) m hm
      · exact ih2 hal m hm
    · exact ih3 hal m hm

theorem filterMap_none {α β : Type} {F : α → Option β} {l : List α} (h : ∀ a ∈ l, F a = none) : l.filterMap F = [] := by
  induction l with
  | nil => rfl
  | cons a l ih => rw [List.filterMap_cons_none (h a (by simp)), ih fun b hb => h b (by simp [hb])]

/-- The numbered elements of the main document, in order. -/
theorem Laid.listing {E : PRead} {β : Type} {ns : List Note} {F : Note × Nat → Option β} {G : Option Xml × Xml → Option β}
    (hF : ∀ (j : Nat) n, ns[j]? = some n → F (n, j) = if n.pre = "" then G ((n.parent.map (xmlAt ns)), n.xml) else none)
    {al : List (String × String)} {pt : Option String} {par : Option Nat} {k : Nat} {xs : List Xml} {l : List Note} (h : Laid E al pt par k xs l) :
    al = [] → (∀ (i : Nat) n, l[i]? = some n → ns[k + i]? = some n) → (l.zipIdx k).filterMap F = (listingAll (par.map (xmlAt ns)) xs).filterMap G := by
  induction h with
  | nil => intro _ _; rfl
  | @cons al pt par k x xs n l1 l2 h1 h2 h3 h4 h5 h6 ih1 ih2 =>
    intro hal hin
    subst hal
    have hn : ns[k]? = some n := hin 0 n rfl
    have hx : xmlAt ns k = x := by unfold xmlAt; rw [hn]; exact h2
    have e1 := ih1 rfl (fun i m hm => by
      have := hin (i + 1) m (by rw [List.getElem?_cons_succ, List.getElem?_append_left (getElem?_lt hm)]; exact hm)
      rwa [show k + (i + 1) = k + 1 + i by omega] at this)
    have e2 := ih2 rfl (fun i m hm => by
      have := hin (i + l1.length + 1) m (by rw [List.getElem?_cons_succ, List.getElem?_append_right (by omega), Nat.add_sub_cancel]; exact hm)
      rwa [show k + (i + l1.length + 1) = k + 1 + l1.length + i by omega] at this)
    rw [List.zipIdx_cons, listingAll, Xml.listing_eq, List.cons_append, List.zipIdx_append, List.filterMap_cons, List.filterMap_cons, List.filterMap_append, List.filterMap_append, hF k n hn,
      if_pos (by rw [h4]; rfl), h3, h2, e1, e2, Option.map_some, hx]
  | @imp al tag par k x xs a d u root head n l1 l2 l3 h1 h2 h3 h4 h5 h6 h7 h8 h9 h10 h11 h12 h13 ih1 ih2 ih3 =>
    intro hal hin
    subst hal
    have hn : ns[k]? = some n := hin 0 n rfl
    have hx : xmlAt ns k = x := by unfold xmlAt; rw [hn]; exact h2
    have e1 : (l1.zipIdx (k + 1)).filterMap F = [] := by
      refine filterMap_none ?_
      rintro ⟨m, j⟩ hm
      obtain ⟨g1, g2, g3⟩ := List.mem_zipIdx hm
      have hm' : l1[j - (k + 1)]? = some m := by rw [List.getElem?_eq_getElem (by omega), ← g3]
      have := hin (j - (k + 1) + 1) m (by rw [List.getElem?_cons_succ, List.append_assoc, List.getElem?_append_left (getElem?_lt hm')]; exact hm')
      rw [show k + (j - (k + 1) + 1) = j by omega] at this
      rw [hF j m this, if_neg (h11.pre_ne (by simp) m (List.mem_of_getElem? hm'))]
    have e2 := ih2 rfl (fun i m hm => by
      have := hin (i + l1.length + 1) m (by
        rw [List.getElem?_cons_succ, List.append_assoc, List.getElem?_append_right (by omega), Nat.add_sub_cancel, List.getElem?_append_left (getElem?_lt hm)]; exact hm)
      rwa [show k + (i + l1.length + 1) = k + 1 + l1.length + i by omega] at this)
    have e3 := ih3 rfl (fun i m hm => by
      have := hin (i + (l1 ++ l2).length + 1) m (by rw [List.getElem?_cons_succ, List.getElem?_append_right (by omega), Nat.add_sub_cancel]; exact hm)
      rw [List.length_append] at this
      rwa [show k + (i + (l1.length + l2.length) + 1) = k + 1 + l1.length + l2.length + i by omega] at this)
    rw [List.zipIdx_cons, listingAll, Xml.listing_eq, List.cons_append, List.zipIdx_append, List.zipIdx_append, List.filterMap_cons, List.filterMap_cons, List.filterMap_append,
      List.filterMap_append, List.filterMap_append, hF k n hn,
      if_pos (by rw [h4]; rfl), h3, h2, e1, List.nil_append, List.length_append, e2,
      show k + 1 + (l1.length + l2.length) = k + 1 + l1.length + l2.length by omega, e3, Option.map_some, hx]

/-! ## The elements that share the object of a media element -/

section
variable {E : PRead} {scr : Rect} {z : Nat} {x : Xml} {T u : PS} {ns : List Note} {f : Nat → Nat} {P : (Nat → Nat) → List Note → List Nat → PS → Prop} {m : Nat}

/-- A reference is to a media element that is not a reference. -/
theorem refer_target (he : Ended P E scr z x T ns f m u) {q : Nat} {mq : Note} {r : String} (hq : ns[q]? = some mq) (ht : mq.tag = "media") (hr : mq.get "refer" = some r) :
    ∃ (k : Nat) (mk : Note), ns[k]? = some mk ∧ mk.tag = "media" ∧ mk.get "id" = some r ∧ mk.get "refer" = none := by
  obtain ⟨u1, u2, u3, u4, hst⟩ := popNcl_stages he.run
  have hmem : q ∈ u.byTag "media" := ((byTag_notes he.j he.kc (tag := "media") (by decide) (by decide +kernel)).2 q).2 ⟨mq, hq, ht⟩
  obtain ⟨l1, l2, s1, s2, e1, e2, e3, e4⟩ := forEach_split hmem hst.media
  have hfix : Fixed u1 s1 := PRel.forEach (fixed_base.core E).toPPre (fun k => PRel.popMediaElt (fixed_base.core E) k) _ _ _ _ e2
  have htag : ∀ k, (s1.elt k).tag = (u.elt k).tag := fun k => by rw [hfix.elt, hst.f1.elt]
  have hat : ∀ j w, ns[j]? = some w → w.tag = "media" → ∀ a, s1.attr j a = w.get a := by
    intro j w hj hw a
    have h1 : u1.elt j = u.elt j := by
      refine hst.f1.other j fun hm => ?_
      unfold PS.byTag at hm
      have := (List.mem_filter.1 hm).2
      rw [(he.j.tag hj).1, hw] at this; revert this; decide
    unfold PS.attr
    rw [hfix.elt, h1, he.j.attrs hj (by rw [hw]; decide) (by rw [hw]; decide)]; rfl
  unfold popMediaElt at e3
  obtain ⟨s0, s0', h0, e3⟩ := PM.bind_ok.1 e3
  have h00 : (PM.get : PM PS) s1 = .ok (some (s1, s1)) := rfl
  rw [h00] at h0
  obtain rfl : s1 = s0 := by simpa using congrArg (fun r => match r with | Res.ok (some p) => p.1 | _ => s1) h0
  obtain ⟨-, s5, -, e3⟩ := PM.bind_ok.1 e3
  rw [hat q mq hq ht, hr] at e3
  dsimp only at e3
  obtain ⟨rk, s6, h6, e3⟩ := PM.bind_ok.1 e3
  obtain ⟨h7, h8⟩ : s1.byId r ["media"] = some rk ∧ s6 = s5 := by
    cases hb : s1.byId r ["media"] with
    | none => rw [hb] at h6; cases h6
    | some a =>
      rw [hb] at h6
      have : Res.ok (some (a, s5)) = Res.ok (some (rk, s6)) := h6
      simp only [Res.ok.injEq, Option.some.injEq, Prod.mk.injEq] at this
      exact ⟨by rw [this.1], this.2.symm⟩
  obtain ⟨g1, g2, g3⟩ := PS.byId_some h7
  rw [hfix.cache] at g1
  have g1 : rk ∈ u.cache := by rw [hst.f1.state] at g1; exact g1
  have hlt := he.kc.lt rk g1
  have hk : ns[rk]? = some ns[rk] := List.getElem?_eq_getElem hlt
  have hkt : (ns[rk]).tag = "media" := by rw [← (he.j.tag hk).1, ← htag]; simpa using g2
  refine ⟨rk, _, hk, hkt, by rw [← hat rk _ hk hkt]; exact g3, ?_⟩
  rw [hat rk _ hk hkt] at e3
  cases hc : (ns[rk]).get "refer" with
  | none => rfl
  | some w => rw [hc] at e3; cases e3

/-- What shares the object of a media element: the elements that refer to it. -/
theorem share_iff (he : Ended P E scr z x T ns f m u) (hr : RefK f ns u) (hs : ShareK E f ns u) {k q : Nat} {mk mq : Note} {i : String} (hk : ns[k]? = some mk) (hkk : mk.kind = some .media)
    (hki : mk.get "id" = some i) (hq : ns[q]? = some mq) (hqt : mq.tag = "body" ∨ mq.tag = "context" ∨ mq.tag = "media") :
    f q = f k ↔ q = k ∨ mq.tag = "media" ∧ mq.get "refer" = some i := by
  have hd := he.tree
  have w := he.treeK.world
  obtain ⟨i', p, g1, g2, g3⟩ := he.treeK.made k mk .media hk hkk
  rw [hki] at g1; cases g1
  have hnset : u.reg.settings ≠ some (f k) := by
    intro hc
    obtain ⟨b, y, h1, h2, h3, h4⟩ := w.settings
    rw [hc] at h1; cases h1
    obtain ⟨X, ⟨-, a1⟩, -, a2, -⟩ := g3
    rw [h2] at a1; cases a1
    have hset := (w.inv.settings _ hc (f k)).2 rfl
    obtain ⟨X, ⟨-, b1⟩, b2⟩ := hset
    rw [h2] at b1; cases b1
    first | (rw [a2] at b2; cases b2) | (rw [a2] at h3; cases h3)
  constructor
  · intro hf
    rcases hqt with ht | ht | ht
    · exfalso
      have := he.treeK.top q mq hq (.inr ht)
      rw [hf] at this
      obtain ⟨X, ⟨-, a1⟩, -, -, a2⟩ := g3
      obtain ⟨Y, b1, b2, -⟩ := w.tree.root
      rw [← this, a1] at b1; cases b1
      rw [a2] at b2; cases b2
    · exfalso
      obtain ⟨i2, p2, a1, a2, a3⟩ := he.treeK.made q mq .context hq (by unfold Note.kind; rw [ht]; simp)
      rw [hf] at a3
      exact absurd (g3.uniq a3).2.1 (by decide)
    · cases hkq : mq.kind with
      | some kd =>
        left
        have hkd : kd = .media := by
          unfold Note.kind at hkq
          rw [ht, if_neg (by decide), if_neg (by decide)] at hkq
          split at hkq
          · exact (Option.some.inj hkq).symm
          · cases hkq
        obtain ⟨i2, p2, a1, a2, a3⟩ := he.treeK.made q mq kd hq hkq
        rw [hf] at a3
        obtain rfl := (g3.uniq a3).1
        exact hd.once q k mq mk i hq hk (by rw [ht]; decide) (by rw [(Note.kind_media hkk).1]; decide) a1 hki
      | none =>
        right
        refine ⟨ht, ?_⟩
        cases hrq : mq.get "refer" with
        | none => exact absurd ((hr.settings q mq hq ht hrq hkq).trans (by rw [hf])) hnset
        | some r =>
          obtain ⟨X, ⟨-, a1⟩, a2, -⟩ := g3
          rcases (hs q mq r hq ht hrq).2 X (by rw [hf]; exact a1) with h | h | ⟨k', m', b1, b2, b3, b4, b5⟩
          · rw [← a2, h]
          · exact absurd (h.trans (by rw [hf])) hnset
          · obtain ⟨k2, m2, c1, c2, c3, c4⟩ := refer_target he hq ht hrq
            have hkk2 := hd.once k' k2 m' m2 r b1 c1 (by rw [b2]; decide) (by rw [c2]; decide) b4 c3
            subst hkk2
            rw [b1] at c1; cases c1
            exact absurd ((hr.settings k' m' b1 b2 c4 b3).trans (by rw [b5, hf])) hnset
  · rintro (rfl | ⟨h1, h2⟩)
    · rfl
    · exact hr.done q k mq mk i hq h1 h2 hk hkk hki

end

end Ginga
