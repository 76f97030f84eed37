import Verif.Props.C47
import Verif.Proofs.EventK
/-!
# Descriptors at the end of the document: their attributes move to the media objects
-/
namespace Ginga

/-- The object `o` has the property event `nm`. -/
def hasEv (r : Reg) (o : Nat) (nm : String) : Bool := (r.obj o).any fun x => (x.getEvent .attribution nm).isSome

theorem hasEv_congr {r r' : Reg} {o : Nat} (h : r'.obj o = r.obj o) (nm : String) : hasEv r' o nm = hasEv r o nm := by unfold hasEv; rw [h]

/-- The property `nm` of `o` gets the value `v`, if there is one and the property had no event. -/
def Gets (o : Nat) (nm : String) (v : Option String) (s t : PS) : Prop :=
  if hasEv s.reg o nm = true ∨ v = none then hasEv t.reg o nm = hasEv s.reg o nm ∧ mget nm (t.props o) = mget nm (s.props o)
  else hasEv t.reg o nm = true ∧ mget nm (t.props o) = v

theorem Gets.same {o : Nat} {nm : String} {v : Option String} {s t : PS} (h : hasEv s.reg o nm = true ∨ v = none) (h1 : t.reg.obj o = s.reg.obj o)
    (h2 : mget nm (t.props o) = mget nm (s.props o)) : Gets o nm v s t := by
  unfold Gets; rw [if_pos h]; exact ⟨hasEv_congr h1 nm, h2⟩

theorem Gets.none_eq {o : Nat} {nm : String} {s t : PS} (h : Gets o nm none s t) : hasEv t.reg o nm = hasEv s.reg o nm ∧ mget nm (t.props o) = mget nm (s.props o) := by
  unfold Gets at h; rwa [if_pos (.inr rfl)] at h

theorem Gets.of_eq {o : Nat} {nm : String} {s t : PS} (h : hasEv t.reg o nm = hasEv s.reg o nm ∧ mget nm (t.props o) = mget nm (s.props o)) : Gets o nm none s t := by
  unfold Gets; rwa [if_pos (.inr rfl)]

/-- One after the other: the first value counts. -/
theorem Gets.trans {o : Nat} {nm : String} {v w : Option String} {s t u : PS} (h : Gets o nm v s t) (h' : Gets o nm w t u) : Gets o nm (v.or w) s u := by
  unfold Gets at *
  split at h
  · next hc =>
    rw [h.1, h.2] at h'
    by_cases he : hasEv s.reg o nm = true
    · rw [if_pos (.inl he)] at h' ⊢; exact h'
    · have : v = none := hc.resolve_left he
      subst this
      rw [Option.none_or]; exact h'
  · next hc =>
    rw [if_pos (.inl h.1)] at h'
    rw [not_or] at hc
    cases v with
    | none => exact absurd rfl hc.2
    | some v =>
      rw [Option.some_or, if_neg (by rw [not_or]; exact hc)]
      exact ⟨h'.1.trans h.1, h'.2.trans h.2⟩

theorem moveAttrs_gets {E : PRead} {o : Nat} {nm : String} (h1 : nm ≠ "id") (h2 : nm ≠ "region") (q : Nat) : ∀ (l : List (String × String)) (s : PS),
    PPost (moveAttrs E q l) (fun _ t => Gets o nm (if q = o then mget nm l else none) s t) s
  | [], s => PPost.pure' (by
      have : (if q = o then mget nm ([] : List (String × String)) else none) = none := by split <;> rfl
      rw [this]; exact .of_eq ⟨rfl, rfl⟩)
  | (name, value) :: l, s => by
    have ih := moveAttrs_gets (E := E) (o := o) h1 h2 q l
    unfold moveAttrs
    split
    · next hn =>
      have : nm ≠ name := by rintro rfl; rcases hn with h | h <;> contradiction
      refine (ih s).mono fun _ t ht => ?_
      have e : mget nm ((name, value) :: l) = mget nm l := by rw [mget, if_neg this]
      rw [e]; exact ht
    · refine PPost.bind (PPost.object fun x hx => ?_)
      split
      · next hev =>
        refine (ih s).mono fun _ t ht => ?_
        by_cases hq : q = o
        · subst hq
          rw [if_pos rfl] at ht ⊢
          by_cases hnm : nm = name
          · subst hnm
            have hs : hasEv s.reg q nm = true := by unfold hasEv; rw [hx]; exact hev
            unfold Gets at ht ⊢
            rw [if_pos (.inl hs)] at ht ⊢
            exact ht
          · have e : mget nm ((name, value) :: l) = mget nm l := by rw [mget, if_neg hnm]
            rw [e]; exact ht
        · rw [if_neg hq] at ht ⊢; exact ht
      · next hev =>
        refine PPost.bind ((addEvent_added.and (PRel.addEvent (sameProps_atomic.atom E).toPCore q { typ := .attribution, id := name } trivial s)).mono ?_)
        rintro _ s1 ⟨⟨-, y, a, b1, b2⟩, b3⟩
        rw [hx] at b1; cases b1
        have hset : PPost (setProp q name value) (fun _ t => Gets o nm (if q = o then (if nm = name then some value else none) else none) s t) s1 := by
          unfold setProp
          refine PPost.bind (PPost.object fun y hy => PPost.modify ?_)
          have hp : s1.props = s.props := b3
          by_cases hq : q = o
          · subst hq
            rw [if_pos rfl]
            by_cases hnm : nm = name
            · subst hnm
              rw [if_pos rfl]
              unfold Gets
              rw [if_neg]
              · refine ⟨?_, ?_⟩
                · unfold hasEv
                  rw [b2, upd_same]
                  have := addEvent_gives x a { typ := .attribution, id := nm } .attribution nm
                  rw [if_pos ⟨rfl, rfl⟩] at this
                  show ((x.addEvent a { typ := .attribution, id := nm }).getEvent .attribution nm).isSome = true
                  have h2 : (((x.addEvent a { typ := .attribution, id := nm }).getEvent .attribution nm).map (·.2)).isSome = true := by
                    rw [this]; cases (x.getEvent .attribution nm).map (·.2) <;> rfl
                  rwa [Option.isSome_map] at h2
                · show mget nm (upd s1.props q _ q) = _
                  rw [upd_same, mget_mset_same]
              · rw [not_or]
                refine ⟨?_, by simp⟩
                unfold hasEv; rw [hx]; exact hev
            · rw [if_neg hnm]
              refine .of_eq ⟨?_, ?_⟩
              · have := addEvent_gives x a { typ := .attribution, id := name } .attribution nm
                rw [if_neg (fun h => hnm h.2.symm), Option.or_none] at this
                have h2 := congrArg Option.isSome this
                rw [Option.isSome_map, Option.isSome_map] at h2
                unfold hasEv
                rw [b2, upd_same, hx]; exact h2
              · show mget nm (upd s1.props q _ q) = _
                rw [upd_same, mget_mset_ne _ _ _ _ hnm, hp]
          · rw [if_neg hq]
            have hoq : o ≠ q := fun h => hq h.symm
            refine .of_eq ⟨hasEv_congr (by show s1.reg.obj o = _; rw [b2, upd_ne _ _ hoq]) nm, ?_⟩
            show mget nm (upd s1.props q _ o) = _
            rw [upd_ne _ _ hoq, hp]
        refine PPost.bind (hset.mono fun _ s2 g2 => (ih s2).mono fun _ s3 g3 => ?_)
        have := g2.trans g3
        have e : (if q = o then mget nm ((name, value) :: l) else none) = (if q = o then (if nm = name then some value else none) else none).or (if q = o then mget nm l else none) := by
          by_cases hq : q = o
          · rw [if_pos hq, if_pos hq, if_pos hq, mget]; split <;> rfl
          · rw [if_neg hq, if_neg hq, if_neg hq]; rfl
        rw [e]; exact this

/-- What a media element gives to the property `nm`, from its descriptor. -/
def fromDesc (u : PS) (k : Nat) (nm : String) : Option String :=
  (u.attr k "descriptor").bind fun d => (u.byId d ["descriptor"]).bind fun dk => u.attr dk nm

theorem Fixed.byId {s t : PS} (h : Fixed s t) (i : String) (l : List String) : t.byId i l = s.byId i l :=
  PS.byId_congr h.cache i fun k => by rw [h.elt]; exact ⟨rfl, fun _ => rfl⟩

theorem popMediaElt_gets {E : PRead} {u s : PS} {o : Nat} {nm : String} (h1 : nm ≠ "id") (h2 : nm ≠ "region") (hf : Fixed u s) (k : Nat) (b : Bool)
    (hb : ∀ mid o' x, u.attr k "id" = some mid → s.reg.getByIdOrAlias mid = some o' → s.reg.obj o' = some x → x.kind.isMedia → (o' = o ↔ b = true)) :
    PPost (popMediaElt E k) (fun _ t => Gets o nm (if b then fromDesc u k nm else none) s t) s := by
  have hat : ∀ j a, s.attr j a = u.attr j a := fun j a => by unfold PS.attr; rw [hf.elt]
  unfold popMediaElt
  refine PPost.bind (PPost.get ?_)
  refine PPost.bind ?_
  have key : ∀ t, Gets o nm (if b then fromDesc u k nm else none) s t → PPost (match s.attr k "refer" with
      | none => pure ()
      | some r => do
        let rk ← PM.orErr (s.byId r ["media"])
        if (s.attr rk "refer").isSome then PM.err else pure ()) (fun _ t => Gets o nm (if b then fromDesc u k nm else none) s t) t := by
    intro t ht
    split
    · exact PPost.pure ht
    · refine PPost.bind (PPost.orErr fun rk _ => ?_)
      split
      · exact PPost.err
      · exact PPost.pure ht
  rw [hat]
  cases hd : u.attr k "descriptor" with
  | none =>
    refine PPost.pure (key s ?_)
    have : (if b then fromDesc u k nm else none) = none := by
      unfold fromDesc; rw [hd]; cases b <;> rfl
    rw [this]; exact .of_eq ⟨rfl, rfl⟩
  | some d =>
    refine PPost.bind (PPost.orErr fun dk hdk => PPost.bind (PPost.attr! fun mid hmid => PPost.bind (PPost.some! fun o' ho' => PPost.bind (PPost.object fun x hx => ?_))))
    split
    · next hkind =>
      refine (moveAttrs_gets (o := o) h1 h2 o' _ s).mono fun _ t ht => key t ?_
      have hiff := hb mid o' x (by rw [← hat]; exact hmid) ho' hx hkind
      have e : (if o' = o then mget nm (s.elt dk).attrs else none) = if b then fromDesc u k nm else none := by
        unfold fromDesc
        rw [hd, Option.bind_some, ← hf.byId, hdk, Option.bind_some]
        unfold PS.attr
        rw [hf.elt]
        cases b with
        | true => rw [if_pos (hiff.2 rfl), if_pos rfl]
        | false => rw [if_neg (fun h => by have := hiff.1 h; contradiction)]; rfl
      rw [← e]; exact ht
    · exact PPost.abort

theorem popMedias_gets {E : PRead} {u : PS} {o : Nat} {nm : String} (h1 : nm ≠ "id") (h2 : nm ≠ "region") (I : PS → Prop) (b : Nat → Bool) (L : List Nat)
    (hf : ∀ s, I s → Fixed u s) (hI : ∀ k s, I s → PPost (popMediaElt E k) (fun _ t => I t) s)
    (hb : ∀ k s mid o' x, I s → u.attr k "id" = some mid → s.reg.getByIdOrAlias mid = some o' → s.reg.obj o' = some x → x.kind.isMedia → k ∈ L → (o' = o ↔ b k = true)) :
    ∀ (l : List Nat) (s : PS), (∀ k ∈ l, k ∈ L) → I s → PPost (PM.forEach (popMediaElt E) l) (fun _ t => I t ∧ Gets o nm (l.findSome? fun k => if b k then fromDesc u k nm else none) s t) s
  | [], s, _, hi => PPost.pure' ⟨hi, .of_eq ⟨rfl, rfl⟩⟩
  | k :: l, s, hl, hi => by
    refine PPost.bind' (((hI k s hi).and (popMediaElt_gets h1 h2 (hf s hi) k (b k) fun mid o' x g1 g2 g3 g4 => hb k s mid o' x hi g1 g2 g3 g4 (hl k (by simp)))).mono ?_)
    rintro _ s1 ⟨g1, g2⟩
    refine (popMedias_gets h1 h2 I b L hf hI hb l s1 (fun j hj => hl j (by simp [hj])) g1).mono ?_
    rintro _ s2 ⟨g3, g4⟩
    refine ⟨g3, ?_⟩
    have := g2.trans g4
    rw [List.findSome?_cons]
    revert this
    generalize (if b k then fromDesc u k nm else none) = v
    cases v <;> exact id

/-! ## Which object -/

section
variable {E : PRead} {scr : Rect} {z : Nat} {x : Xml} {T u : PS} {ns : List Note} {f : Nat → Nat} {P : (Nat → Nat) → List Note → List Nat → PS → Prop} {m : Nat}

/-- The object of a media element that is not a reference is not the settings object. -/
theorem media_not_settings (he : Ended P E scr z x T ns f m u) {k : Nat} {mk : Note} (hk : ns[k]? = some mk) (hkk : mk.kind = some .media) : u.reg.settings ≠ some (f k) := by
  intro hc
  obtain ⟨i, p, -, -, X, ⟨-, a1⟩, -, a2, -⟩ := he.treeK.made k mk .media hk hkk
  obtain ⟨Y, ⟨-, b1⟩, b2⟩ := (he.treeK.world.inv.settings _ hc (f k)).2 rfl
  rw [a1] at b1; cases b1
  rw [a2] at b2; cases b2

/-- The identifier of a media element finds its object, or another one that is not that of the media `i`. -/
theorem media_found (he : Ended P E scr z x T ns f m u) {D : Nat → Prop} {s : PS} (hs : NStep E (rootName ns) (referName ns) D (mediaName f u.reg D ns) u s)
    (hn : NamesOf E (rootName ns) (referName ns) D (mediaName f u.reg D ns) u) (hset : ∀ o' y, u.reg.settings = some o' → u.reg.obj o' = some y → y.id = "__settings__")
    {k : Nat} {mk : Note} (hk : ns[k]? = some mk) (hkk : mk.kind = some .media)
    {q : Nat} {mq : Note} (hq : ns[q]? = some mq) (hqt : mq.tag = "media") {mid : String} (hid : mq.get "id" = some mid) (hok : mid = "__settings__" → f q ≠ f k)
    {o' : Nat} {y : RObj} (ho : s.reg.getByIdOrAlias mid = some o') (hy : s.reg.obj o' = some y) (hky : y.kind.isMedia) : o' = f k ↔ f q = f k := by
  have w := he.treeK.world
  obtain ⟨w1, k1⟩ := hs.1.2 w
  have hn1 := hs.2 w hn
  have hns := media_not_settings he hk hkk
  have hroot : o' ≠ u.reg.root := by
    rintro rfl
    obtain ⟨X, b1, b2⟩ := w1.inv.rootKind
    rw [k1.2.1, hy] at b1; cases b1
    rcases hky with h | h <;> rw [b2] at h <;> cases h
  unfold Reg.getByIdOrAlias at ho
  split at ho
  · next o2 hid2 =>
    cases ho
    obtain ⟨X, ⟨c1, c2⟩, c3⟩ := (w1.inv.byId mid o').1 hid2
    rw [hy] at c2; cases c2
    have hnode : u.reg.node o' mid y.kind y.parent := by
      rcases k1.2.2.2 o' mid y.kind y.parent ⟨y, ⟨c1, hy⟩, c3, rfl, rfl⟩ with h | h
      · exact h
      · cases h
    rcases he.treeK.back o' mid _ _ hnode with h | h | ⟨j, nt, b1, b2, b3⟩
    · exact absurd h hroot
    · obtain ⟨Y, ⟨-, d1⟩, d2, -⟩ := hnode
      have := hset o' Y h d1
      refine ⟨fun e => absurd (e ▸ h) hns, fun e => absurd e (hok (by rw [← d2, this]))⟩
    · obtain ⟨kd, hkd⟩ := Option.isSome_iff_exists.1 b2
      obtain ⟨i2, p2, e1, e2, e3⟩ := he.treeK.made j nt kd b1 hkd
      rw [b3] at e3
      obtain rfl := (hnode.uniq e3).1
      have := he.treeK.once j q nt mq mid b1 hq (Note.kind_ne (by rw [hkd]; rfl)).1 (by rw [hqt]; decide) e1 hid
      subst this
      rw [b3]
  · next hno =>
    have hal := List.find?_some ho
    rw [hy] at hal
    have hal : y.hasAlias mid = true := by simpa using hal
    unfold RObj.hasAlias at hal
    obtain ⟨p, hp1, hp2⟩ := List.any_eq_true.1 hal
    have hp2 : p.1 = mid := by simpa using hp2
    rcases hn1.alias o' y p hy hp1 with ⟨g1, -⟩ | ⟨-, j, n, b1, b2, b3, b4, b5⟩
    · rw [k1.2.1] at g1; exact absurd g1 hroot
    · rw [hp2] at b4
      have := he.treeK.once j q n mq mid b1 hq (by rw [b2]; decide) (by rw [hqt]; decide) b4 hid
      subst this
      rcases b5 with b5 | ⟨b5, b6⟩
      · rw [b5]
      · refine ⟨fun e => absurd (e ▸ b5) hns, fun e => ?_⟩
        obtain ⟨i, p, -, -, X, ⟨-, a1⟩, -⟩ := he.treeK.made k mk .media hk hkk
        have := (hn.dead _ b6).1
        rw [e, a1] at this; cases this

end

/-! ## The attributes of elements are maps -/

/-- The keys are in order: the list is a map. -/
def Sorted (l : List (String × String)) : Prop := l.Pairwise fun p q => p.1 < q.1

theorem mem_mset {k v : String} {p : String × String} : ∀ {l : List (String × String)}, p ∈ mset k v l → p = (k, v) ∨ p ∈ l
  | [], h => by simpa [mset] using h
  | (k', v') :: t, h => by
    unfold mset at h
    split at h
    · rcases List.mem_cons.1 h with h | h
      · exact .inl h
      · exact .inr (by simp [h])
    · split at h
      · rcases List.mem_cons.1 h with h | h
        · exact .inl h
        · exact .inr h
      · rcases List.mem_cons.1 h with h | h
        · exact .inr (by simp [h])
        · rcases mem_mset h with h | h
          · exact .inl h
          · exact .inr (by simp [h])

theorem Sorted.mset {k v : String} : ∀ {l : List (String × String)}, Sorted l → Sorted (mset k v l)
  | [], _ => by simp [Sorted, Ginga.mset]
  | (k', v') :: t, h => by
    obtain ⟨h1, h2⟩ := List.pairwise_cons.1 h
    unfold Ginga.mset
    split
    · next e => subst e; exact List.pairwise_cons.2 ⟨h1, h2⟩
    · next e =>
      split
      · next e' =>
        refine List.pairwise_cons.2 ⟨fun q hq => ?_, h⟩
        rcases List.mem_cons.1 hq with rfl | hq
        · exact e'
        · exact String.lt_trans e' (h1 q hq)
      · next e' =>
        refine List.pairwise_cons.2 ⟨fun q hq => ?_, Sorted.mset h2⟩
        rcases mem_mset hq with rfl | hq
        · rcases Decidable.em (k' < k) with h | h
          · exact h
          · exact absurd (String.le_antisymm (String.not_lt.1 h) (String.not_lt.1 e')) e
        · exact h1 q hq

theorem mget_none {nm : String} : ∀ {l : List (String × String)}, (∀ p ∈ l, p.1 ≠ nm) → mget nm l = none
  | [], _ => rfl
  | p :: l, h => by rw [mget, if_neg (fun e => h p (by simp) e.symm)]; exact mget_none fun q hq => h q (by simp [hq])

/-- Assignments from a map. -/
theorem mget_msetAll {nm : String} : ∀ {l A : List (String × String)}, Sorted l → mget nm (msetAll l A) = (mget nm l).or (mget nm A)
  | [], _, _ => rfl
  | (k, v) :: l, A, h => by
    obtain ⟨h1, h2⟩ := List.pairwise_cons.1 h
    rw [msetAll, mget_msetAll h2]
    by_cases e : nm = k
    · subst e
      rw [mget_none (fun p hp he => String.lt_irrefl _ (he ▸ h1 p hp)), Option.none_or, mget_mset_same, mget, if_pos rfl]; rfl
    · rw [mget_mset_ne _ _ _ _ e, mget, if_neg e]

theorem mget_filter {nm a : String} (h : nm ≠ a) : ∀ (l : List (String × String)), mget nm (l.filter fun p => p.1 != a) = mget nm l
  | [] => rfl
  | (k, v) :: l => by
    by_cases hk : k = a
    · rw [List.filter_cons_of_neg (by simp [hk]), mget_filter h l, mget, if_neg (by rw [hk]; exact h)]
    · rw [List.filter_cons_of_pos (by simpa using hk), mget, mget, mget_filter h l]

theorem Sorted.filter {l : List (String × String)} (h : Sorted l) (q : String × String → Bool) : Sorted (l.filter q) := List.Pairwise.filter q h

theorem checkAttrs_sorted {x : Xml} {e : EltSyn} {pre : String} : ∀ {l : List (String × AttrFlags)} {acc r : List (String × String)} {s t : SynSt}, Sorted acc →
    checkAttrs x e true pre l acc s = .ok (some (r, t)) → Sorted r
  | [], acc, r, s, t, ha, h => by simp [checkAttrs] at h; rw [← h.1]; exact ha
  | (name, fl) :: l, acc, r, s, t, ha, h => by
    unfold checkAttrs at h
    split at h
    · split at h
      · split at h
        · split at h
          · cases h
          · exact checkAttrs_sorted ha.mset h
        · exact checkAttrs_sorted ha h
      · split at h
        · cases h
        · exact checkAttrs_sorted ha h
    · split at h
      · cases h
      · split at h
        · cases h
        · next v _ _ _ =>
          dsimp only at h
          generalize (if fl.isId = true ∨ fl.isIdRef = true then pre ++ v else v) = w at h
          split at h
          · split at h
            · cases h
            · exact checkAttrs_sorted ha.mset h
          · exact checkAttrs_sorted ha.mset h

theorem checkNode_sorted {pre : String} {pt : Option String} {x : Xml} {s t : SynSt} {e : EltSyn} {r : List (String × String)} (h : checkNode true pre pt x s = .ok (some (e, r, t))) :
    Sorted r := by
  unfold checkNode at h
  cases hs : syntaxOf x.tag with
  | none => rw [hs] at h; cases h
  | some syn =>
    rw [hs] at h
    dsimp only at h
    split at h
    · cases h
    cases hc : checkAttrs x syn true pre syn.attrs [] s with
    | abort => rw [hc] at h; cases h
    | ub => rw [hc] at h; cases h
    | fuel => rw [hc] at h; cases h
    | ok w =>
      cases w with
      | none => rw [hc] at h; cases h
      | some p =>
        obtain ⟨attrs, s'⟩ := p
        rw [hc] at h
        have h : (if true = true ∧ ¬ x.attrs.all (fun p => (mget p.1 attrs).isSome) then Res.ok none
          else if ¬ x.children.all (fun c => possibleChild x.tag c.tag) then .ok none else .ok (some (syn, attrs, s'))) = .ok (some (e, r, t)) := h
        split at h
        · cases h
        · split at h
          · cases h
          · simp only [Res.ok.injEq, Option.some.injEq, Prod.mk.injEq] at h
            rw [← h.2.1]
            exact checkAttrs_sorted List.Pairwise.nil hc

/-- The attributes of all elements are maps. -/
def AllSorted (s : PS) : Prop := ∀ k, Sorted (s.elt k).attrs
def KeepSorted (s t : PS) : Prop := AllSorted s → AllSorted t

theorem keepSorted_set {s : PS} {k : Nat} {e : Elt} (h : AllSorted s → Sorted e.attrs) : KeepSorted s (s.setElt k e) := by
  intro hs j
  unfold PS.setElt
  by_cases hj : j = k
  · subst hj; show Sorted (upd s.elt j e j).attrs; rw [upd_same]; exact h hs
  · show Sorted (upd s.elt k e j).attrs; rw [upd_ne _ _ hj]; exact hs j

theorem keepSorted_atomic : PAtomic (fun _ => True) KeepSorted where
  refl _ := id
  trans h1 h2 := fun h => h2 (h1 h)
  names _ _ := trivial
  attr s k n v _ := keepSorted_set fun h => (h k).mset
  elt s k e _ _ h := keepSorted_set fun hs => by rw [h]; exact hs k
  reg _ _ _ _ _ := id
  del _ _ := id
  nalloc _ := id
  objs _ _ := id
  refer _ _ := id
  conn _ _ := id
  props _ _ _ _ _ _ := id
  par _ _ _ := id
  pred _ _ _ := id

theorem keepSorted_push (E : PRead) (proc : Xml → PM Unit) (f : Push) (k : Nat) (h : f ≠ .importBase) : PRel KeepSorted (push E proc f k) := by
  by_cases hr : f = .region
  · subst hr; exact PRel.pushRegion (keepSorted_atomic.atom E) E k fun _ _ _ => id
  · exact PRel.push keepSorted_atomic E proc f k hr h (fun _ _ => trivial)

theorem keepSorted_pop (E : PRead) (n : Nat) (f : Pop) (k : Nat) (h : f ≠ .ncl) : PRel KeepSorted (pop E n f k) := by
  by_cases hr : f = .region
  · subst hr; exact PRel.popRegion (keepSorted_atomic.atom E) fun _ _ _ => id
  · exact PRel.pop (keepSorted_atomic.atom E) keepSorted_atomic.objs n f k (fun _ _ _ => id) (fun hc => absurd hc h) (fun _ _ _ => id) hr

/-- What is needed of the state for descriptors: attributes are maps, and the identifier of the settings object. -/
structure DescK (E : PRead) (s : PS) : Prop where
  sorted : AllSorted s
  settings : ∀ o, s.reg.settings = some o → Alloc E s o ∧ ∀ y, s.reg.obj o = some y → y.id = "__settings__"

theorem DescK.keep {E : PRead} {s t : PS} (h : DescK E s) (h1 : KeepSorted s t) (h2 : EvKeep E s t) : DescK E t where
  sorted := h1 h.sorted
  settings o ho := by
    rw [h2.2.2] at ho
    obtain ⟨a1, a2⟩ := h.settings o ho
    refine ⟨a1.mono h2.1, fun y hy => ?_⟩
    obtain ⟨x, b1, b2⟩ := h2.2.1 o a1 y hy
    rw [b2.id]; exact a2 x b1

theorem DescK.new {E : PRead} {scr : Rect} {z0 : Nat} {g : List Note} {S : List Nat} {s s2 : PS} {par : Option Nat} {pt : Option String} {x : Xml} {e : EltSyn}
    {r : List (String × String)} {y : SynSt} {nt : Note} (h : DescK E s) (hn : NewElt E scr z0 g S s s2 par pt x e r y nt) : DescK E s2 := by
  refine h.keep (fun hs j => ?_) (evKeep_same (by rw [hn.state]) (by rw [hn.state]; exact Nat.le_refl _))
  rw [hn.state]
  show Sorted (upd s.elt s.nelt _ j).attrs
  by_cases hj : j = s.nelt
  · subst hj; rw [upd_same]; exact checkNode_sorted hn.check
  · rw [upd_ne _ _ hj]; exact hs j

theorem descK_extra {E : PRead} (hinj : ∀ i j, E.addr i = E.addr j → i = j) (scr : Rect) (z0 : Nat) : Extra E scr z0 (fun _ _ _ s => DescK E s) where
  same f g S s y al ca hU h := ⟨h.sorted, h.settings⟩
  imp f g S s s2 par pt x e r y nt hn ht hk hp := hk.new hn
  push f f' g S s s2 par pt x e r y nt proc a t hn ht hk himp hrun hpu hj hf ht' :=
    (hk.new hn).keep (keepSorted_push E proc e.push s.nelt himp s2 a t hrun) (evKeep_push hinj proc e.push s.nelt himp s2 a t hrun)
  pop f g O S s k nt e n a t hj hpi ht hk hg hs hne hrun hp ht' := hk.keep (keepSorted_pop E n e.pop k hne s a t hrun) (evKeep_pop n e.pop k s a t hrun)

theorem descK_init {E : PRead} (hinj : ∀ i j, E.addr i = E.addr j → i = j) (W H : Int) (z : Nat) {reg : Reg}
    (h : newDoc (E.addr 0) (E.addr 1) (E.addr 2) (E.addr 3) (E.addr 4) = .ok reg) : DescK E (PS.init W H z reg 5) := by
  have ne : ∀ i j, i ≠ j → E.addr i ≠ E.addr j := fun i j hij h => hij (hinj i j h)
  obtain ⟨ho, -, -, -, -, -, -, hse⟩ := newDoc_has (ne 0 1 (by decide)) h
  refine ⟨fun k => List.Pairwise.nil, fun o hs => ?_⟩
  have hs : reg.settings = some o := hs
  rw [hse] at hs; cases hs
  refine ⟨⟨1, show 1 < 5 by decide, rfl⟩, fun y hy => ?_⟩
  rcases (ho _ y).1 hy with ⟨-, rfl⟩ | ⟨h1, -⟩
  · exact (newObj_fields .settings "__settings__" (E.addr 3) (E.addr 4)).1
  · exact absurd h1 (ne 1 0 (by decide))

end Ginga
