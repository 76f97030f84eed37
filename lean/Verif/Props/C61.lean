import Verif.Proofs.DescAttr
import Verif.Proofs.ReachNote
import Verif.Props.C59
import Verif.Props.C41
/-!
# C61: what the descriptor gives to a media
-/
namespace Ginga

section
variable {E : PRead} {scr : Rect} {z : Nat} {x : Xml} {T u : PS} {ns : List Note} {f : Nat → Nat} {P : (Nat → Nat) → List Note → List Nat → PS → Prop} {m : Nat}

theorem media_listing (he : Ended P E scr z x T ns f m u) {β : Type} (G : Xml → Option β) (g : Nat → Option β) (hc : ∀ c, c.tag ≠ "media" → G c = none)
    (hg : ∀ (j : Nat) n, ns[j]? = some n → n.tag = "media" → g j = G n.xml) : (u.byTag "media").findSome? g = (x.listing none).findSome? fun w => G w.2 := by
  have hd := he.tree
  rw [byTag_range he.j he.kc (tag := "media") (by decide) (by decide +kernel), ← List.head?_filterMap, ← List.head?_filterMap]
  have key : ns.zipIdx.filterMap (fun p => if p.1.tag = "media" then g p.2 else none) = (listingAll none [x]).filterMap fun w => G w.2 := by
    refine hd.laid.listing ?_ rfl (fun i n hn => by rw [Nat.zero_add]; exact hn)
    intro j n hj
    dsimp only
    by_cases ht : n.tag = "media"
    · rw [if_pos ht, if_pos (hd.main _ j n (Nat.lt_succ_self _) hj (by rw [ht]; decide)).2.1]
      exact hg j n hj ht
    · rw [if_neg ht, hc _ ht, ite_self]
  have e2 : (listingAll none [x]) = x.listing none := by rw [listingAll, listingAll, List.append_nil]
  rw [e2] at key
  rw [← key]
  congr 1
  rw [List.filterMap_filter]
  have : ∀ (l : List Note) (b : Nat), (∀ (i : Nat) n, l[i]? = some n → ns[b + i]? = some n) →
      (l.zipIdx b).filterMap (fun p => if p.1.tag = "media" then g p.2 else none) = (List.range' b l.length).filterMap fun k => if (tagAt ns k == "media") = true then g k else none := by
    intro l
    induction l with
    | nil => intro b _; rfl
    | cons n l ih =>
      intro b hb
      have h0 : ns[b]? = some n := hb 0 n rfl
      have := ih (b + 1) fun i m hm => by
        have := hb (i + 1) m (by rw [List.getElem?_cons_succ]; exact hm)
        rwa [show b + (i + 1) = b + 1 + i by omega] at this
      rw [List.zipIdx_cons, List.filterMap_cons, this, List.length_cons, List.range'_succ, List.filterMap_cons]
      have ht : tagAt ns b = n.tag := by unfold tagAt; rw [h0]
      rw [ht]
      simp only [beq_iff_eq]
  rw [List.range_eq_range', ← this ns 0 fun i n hn => by rw [Nat.zero_add]; exact hn]

end

/-- The descriptor that the element `c` names, in the state `t`. -/
def descOf (t : PS) (c : Xml) : Option Nat := (c.prop "descriptor").bind fun d => t.byId d ["descriptor"]

/-- The value that the descriptors of the elements that stand for the media `i` give to `nm`: that of the first one that has a value. -/
def fromDescriptors (x : Xml) (t : PS) (i nm : String) : Option String :=
  (x.listing none).findSome? fun w => if standsFor i w.2 then (descOf t w.2).bind fun k => t.attr k nm else none

section
variable {E : PRead} {scr : Rect} {z : Nat} {x : Xml} {T u : PS} {ns : List Note} {f : Nat → Nat} {P : (Nat → Nat) → List Note → List Nat → PS → Prop} {m : Nat}

theorem media_end (hinj : ∀ i j, E.addr i = E.addr j → i = j) (he : Ended P E scr z x T ns f m u) {O : List Nat} (hn : NameK E f ns O u) (hr : RefK f ns u) (hsh : ShareK E f ns u) (hdk : DescK E u)
    {k : Nat} {mk : Note} {i : String} (g1 : ns[k]? = some mk) (hkk : mk.kind = some .media) (hki : mk.get "id" = some i) {nm : String} (h1 : nm ≠ "id") (h2 : nm ≠ "region")
    (hset : ∀ w, SubElt x w → standsFor i w → w.prop "id" ≠ some "__settings__") : Gets (f k) nm (fromDescriptors x T i nm) u T := by
  have hd := he.tree
  obtain ⟨D, hn⟩ := hn
  have hkt := (Note.kind_media hkk).1
  obtain ⟨hS, -⟩ := stands_note he hr hsh g1 hkk hki
  obtain ⟨u1, u2, u3, u4, hst⟩ := popNcl_stages he.run
  have hmain : ∀ (q : Nat) mq, ns[q]? = some mq → mq.tag = "media" → SubElt x mq.xml ∧ ∀ a, mq.get a = mq.xml.prop a := by
    intro q mq hq hqt
    obtain ⟨s1, s2, -⟩ := hd.main _ q mq (Nat.lt_succ_self _) hq (by rw [hqt]; decide)
    exact ⟨s1, fun a => Note.get_main (hd.ok q mq hq) s2 a (.inl (by rw [hqt]; decide))⟩
  have hu1 : ∀ (q : Nat) mq, ns[q]? = some mq → mq.tag = "media" → ∀ a, u1.attr q a = mq.get a := by
    intro q mq hq hqt a
    have h1 : u1.elt q = u.elt q := by
      refine hst.f1.other q fun hm => ?_
      unfold PS.byTag at hm
      have := (List.mem_filter.1 hm).2
      rw [(he.j.tag hq).1, hqt] at this; revert this; decide
    unfold PS.attr
    rw [h1, he.j.attrs hq (by rw [hqt]; decide) (by rw [hqt]; decide)]; rfl
  have hmem : ∀ q, q ∈ u.byTag "media" ↔ ∃ mq, ns[q]? = some mq ∧ mq.tag = "media" := (byTag_notes he.j he.kc (tag := "media") (by decide) (by decide +kernel)).2
  -- the media stage
  have hmed := popMedias_gets (E := E) (u := u1) (o := f k) (nm := nm) h1 h2
    (fun s => Fixed u1 s ∧ NStep E (rootName ns) (referName ns) D (mediaName f u.reg D ns) u s) (fun q => decide (f q = f k)) (u.byTag "media") (fun s hs => hs.1)
    (fun q s hs a t ht => ⟨fixed_base.toPPre.trans hs.1 ((PRel.popMediaElt (fixed_base.core E) q) s a t ht),
      (nstep_atom hinj _ _ _ _).toPPre.trans hs.2 ((PRel.popMediaElt (nstep_atom hinj _ _ _ _).toPCore q) s a t ht)⟩)
    (by
      intro q s mid o' y hs g2 g3 g4 g5 hq
      obtain ⟨mq, q1, q2⟩ := (hmem q).1 hq
      rw [hu1 q mq q1 q2] at g2
      rw [decide_eq_true_iff]
      refine media_found he hs.2 hn (fun o2 y2 c1 c2 => (hdk.settings o2 c1).2 y2 c2) g1 hkk q1 q2 g2 (fun e hf => ?_) g3 g4 g5
      obtain ⟨m1, m2⟩ := hmain q mq q1 q2
      exact hset mq.xml m1 ((hS q mq q1 (.inr (.inr q2))).1 hf) (by rw [← m2, g2, e]))
    (u.byTag "media") u1 (fun _ h => h) ⟨fixed_base.toPPre.refl _, nstep_same (by rw [hst.f1.state]) (by rw [hst.f1.state]) (by rw [hst.f1.state]) (by rw [hst.f1.state])⟩ _ _ hst.media
  obtain ⟨-, hmed⟩ := hmed
  -- the state before and after
  have h01 : Gets (f k) nm none u u1 := .of_eq ⟨hasEv_congr (by rw [hst.f1.state]) nm, by rw [hst.f1.state]⟩
  have h2t : Gets (f k) nm none u2 T := by
    have hp := (evSame_pre E (· = .attribution))
    have e3 : EvSame E (· = .attribution) u2 u3 := PRel.forEach hp (fun q => PRel.popSwitchElt (evSame_core E _) (fun _ _ => evSame_same rfl (Nat.le_refl _)) q) _ _ _ _ hst.switch
    have e4 : EvSame E (· = .attribution) u3 u4 := PRel.forEach hp (fun q => PRel.popLinkElt (evSame_core E _) (fun _ _ => evSame_same rfl (Nat.le_refl _)) m q ⟨by decide, by decide⟩) _ _ _ _ hst.link
    have e5 : EvSame E (· = .attribution) u4 T := evSame_same (by rw [hst.last]) (by rw [hst.last]; try exact Nat.le_refl _)
    have e := hp.trans e3 (hp.trans e4 e5)
    have p3 : SameProps u2 u3 := PRel.forEach (sameProps_atomic.atom E).toPPre (fun q => PRel.popSwitchElt (sameProps_atomic.atom E).toPCore (fun _ _ => rfl) q) _ _ _ _ hst.switch
    have p4 : SameProps u3 u4 := PRel.forEach (sameProps_atomic.atom E).toPPre (fun q => PRel.popLinkElt (sameProps_atomic.atom E).toPCore (fun _ _ => rfl) m q) _ _ _ _ hst.link
    have p5 : T.props = u2.props := by rw [hst.last]; exact p4.trans p3
    refine .of_eq ⟨?_, by rw [p5]⟩
    obtain ⟨i', p, -, -, X, ⟨-, hX⟩, -, hXk, -⟩ := hd.made k mk .media g1 hkk
    rcases e.2 (f k) X hX (by rw [hXk]; decide) with ⟨Y, y1, y2, y3⟩ | ⟨y1, -⟩
    · have := congrArg Option.isSome (y3 .attribution nm rfl)
      rw [Option.isSome_map, Option.isSome_map] at this
      unfold hasEv
      rw [hX, y1]; exact this
    · exfalso
      obtain ⟨-, -, -, -, X', ⟨-, hX'⟩, -⟩ := he.treeK.made k mk .media g1 hkk
      have ha : Alloc E u (f k) := he.treeK.world.objAddr _ X' hX'
      have hk0 : EvKeep E u u2 := (evKeep_pre E).trans (evKeep_same (by rw [hst.f1.state]) (by rw [hst.f1.state]; try exact Nat.le_refl _))
        (PRel.forEach (evKeep_pre E) (fun q => PRel.popMediaElt (evKeep_core E) q) _ _ _ _ hst.media)
      exact y1 (ha.mono hk0.1)
  have := (h01.trans hmed).trans h2t
  rw [Option.none_or, Option.or_none] at this
  have hval : (u.byTag "media").findSome? (fun q => if decide (f q = f k) = true then fromDesc u1 q nm else none) = fromDescriptors x T i nm := by
    unfold fromDescriptors
    refine media_listing he (fun c => if standsFor i c then (descOf T c).bind fun k => T.attr k nm else none) _ (fun c hc => if_neg fun h => hc h.1) fun q mq hq hqt => ?_
    have hiff := hS q mq hq (.inr (.inr hqt))
    by_cases hf : f q = f k
    · rw [if_pos (by simpa using hf), if_pos (hiff.1 hf)]
      unfold fromDesc descOf
      rw [hu1 q mq hq hqt, (hmain q mq hq hqt).2]
      have hby : ∀ d, T.byId d ["descriptor"] = u1.byId d ["descriptor"] := fun d =>
        PS.byId_congr (by rw [hst.last]; exact hst.f4.cache.trans (hst.f3.cache.trans hst.f2.cache)) d fun k => by rw [hst.elt]; exact ⟨rfl, fun _ => rfl⟩
      simp only [hby]
      unfold PS.attr
      rw [hst.elt]
      cases mq.xml.prop "descriptor" <;> rfl
    · rw [if_neg (by simpa using hf), if_neg (fun h => hf (hiff.2 h))]
  rw [← hval]; exact this

end

/-- **C61.** -/
theorem C61_media {E : PRead} (hinj : ∀ i j, E.addr i = E.addr j → i = j) {n : Nat} {W H : Int} {z : Nat} {x : Xml} {t : PS} (h : parseXml E n W H z x = .ok (some t))
    {c : Xml} (hc : SubElt x c) (hk : eltKind c = some .media) {i nm : String} (hi : c.prop "id" = some i) (h1 : nm ≠ "id") (h2 : nm ≠ "region")
    (hset : ∀ w, SubElt x w → standsFor i w → w.prop "id" ≠ some "__settings__") :
    ∃ o X, t.reg.getById i = some o ∧ t.reg.obj o = some X ∧
      (HasProperty x (standsFor i) nm → mget nm (t.props o) = (given E x i nm).getLast? ∧ (X.getEvent .attribution nm).isSome = true) ∧
      (¬ HasProperty x (standsFor i) nm → mget nm (t.props o) = (fromDescriptors x t i nm).or (given E x i nm).getLast? ∧
        (X.getEvent .attribution nm).isSome = (fromDescriptors x t i nm).isSome) := by
  obtain ⟨ns, f, m, u, he⟩ := doc_treeP hinj ((rulesK_extra hinj _ _).and ((propK_extra hinj _ _).and ((eventK_extra hinj _ _).and ((descK_extra hinj _ _).and (shareK_extra hinj _ _)))))
    (fun f reg hreg => ⟨rulesK_init hinj hreg, propK_init f W H z reg 5, eventK_init hinj hreg, descK_init hinj W H z hreg, (rulesK_init hinj hreg).1.1, shareK_init f W H z reg 5⟩) h
  have hd := he.tree
  obtain ⟨⟨⟨hn, hr⟩, -⟩, hpk, hek, hdk, -, hsh⟩ := he.extra
  obtain ⟨k, mk, -, -, g1, g2, g3, -, -⟩ := hd.laid.inside hc
  have hkk : mk.kind = some .media := by rw [Note.kind_main (hd.ok k mk g1) g3, g2]; exact hk
  have hkt := (Note.kind_media hkk).1
  have hki : mk.get "id" = some i := by rw [Note.get_main (hd.ok k mk g1) g3 "id" (.inl (by rw [hkt]; decide)), g2]; exact hi
  obtain ⟨i', p, e1, e2, e3⟩ := hd.made k mk .media g1 hkk
  rw [hki] at e1; cases e1
  obtain ⟨X, ⟨-, hX⟩, -, hXk, -⟩ := id e3
  obtain ⟨hS, hD⟩ := stands_note he hr hsh g1 hkk hki
  have hSt : ∀ c, standsFor i c → c.tag = "body" ∨ c.tag = "context" ∨ c.tag = "media" := fun c h => .inr (.inr h.1)
  have hg := media_end hinj he hn hr hsh hdk g1 hkk hki h1 h2 hset
  obtain ⟨-, -, -, -, Y, ⟨-, hY⟩, -, hYk, -⟩ := he.treeK.made k mk .media g1 hkk
  have hval : mget nm (u.props (f k)) = (given E x i nm).getLast? := by
    rw [hpk.val]; exact given_notes he _ _ hS hD (fun c h => h.1) nm
  have hbase : pick (baseEvents .media) .attribution nm = none := rfl
  have hev : hasEv u.reg (f k) nm = (pick (ns.filterMap (adds E f (f k))) .attribution nm).isSome := by
    have := congrArg Option.isSome (hek.val (f k) Y hY (by rw [hYk]; decide) .attribution nm)
    rw [Option.isSome_map, hYk, pick_append, hbase, Option.none_or] at this
    unfold hasEv
    rw [hY]; exact this
  have hp := attr_pick he hS hSt nm
  refine ⟨f k, X, e3.byId hd.world.inv, hX, fun hh => ?_, fun hh => ?_⟩
  · rw [hp.1 hh] at hev
    unfold Gets at hg
    rw [if_pos (.inl hev), hval, hev] at hg
    refine ⟨hg.2, ?_⟩
    have := hg.1
    unfold hasEv at this
    rw [hX] at this; exact this
  · rw [hp.2 hh] at hev
    unfold Gets at hg
    have hT : hasEv t.reg (f k) nm = (X.getEvent .attribution nm).isSome := by unfold hasEv; rw [hX]; rfl
    rw [hT, hev, hval] at hg
    revert hg
    cases fromDescriptors x t i nm with
    | none => intro hg; rw [if_pos (.inr rfl)] at hg; exact ⟨hg.2, hg.1⟩
    | some v => intro hg; rw [if_neg (by simp)] at hg; exact ⟨hg.2, hg.1⟩

/-! ## Descriptors -/

/-- What the descriptor element `d` itself says of `nm`: its last parameter with this name, or its attribute. -/
def ownAttr (d : Xml) (nm : String) : Option String := (paramOf d nm).or (d.prop nm)

section
variable {E : PRead} {scr : Rect} {z : Nat} {x : Xml} {T u : PS} {ns : List Note} {f : Nat → Nat} {P : (Nat → Nat) → List Note → List Nat → PS → Prop} {m : Nat}

theorem region_attrs (he : Ended P E scr z x T ns f m u) {j : Nat} {n : Note} (hj : ns[j]? = some n) (ht : n.tag = "region") {nm : String}
    (h : nm ∉ ["zOrder", "left", "top", "width", "height"]) : u.attr j nm = n.get nm := by
  simp only [List.mem_cons, List.not_mem_nil, or_false, not_or] at h
  obtain ⟨h1, h2, h3, h4, h5⟩ := h
  unfold PS.attr
  rw [he.j.region j n hj ht]
  unfold regionAttrs
  rw [mget_mset_ne _ _ _ _ h5, mget_mset_ne _ _ _ _ h4, mget_mset_ne _ _ _ _ h3, mget_mset_ne _ _ _ _ h2, mget_mset_ne _ _ _ _ h1]; rfl

/-- The attributes of a descriptor at the end. -/
theorem desc_end (he : Ended P E scr z x T ns f m u) (hdk : DescK E u) {j : Nat} {n : Note} (hj : ns[j]? = some n) (ht : n.tag = "descriptor") (nm : String) :
    T.attr j nm = if nm = "transIn" ∨ nm = "transOut" then T.transVal E.argOrder ((paramOf n.xml nm).or (n.get nm))
      else (T.regionVal ((paramOf n.xml "region").or (n.get "region")) nm).or ((paramOf n.xml nm).or (n.get nm)) := by
  obtain ⟨u1, u2, u3, u4, hst⟩ := popNcl_stages he.run
  have hby := byTag_notes he.j he.kc (tag := "descriptor") (by decide) (by decide +kernel)
  have hcache : T.cache = u.cache := by rw [hst.last]; exact (hst.f4.cache.trans (hst.f3.cache.trans hst.f2.cache)).trans (by rw [hst.f1.state])
  have htags : ∀ k, (T.elt k).tag = (u.elt k).tag := fun k => by rw [hst.elt, hst.f1.elt]
  have hother : ∀ k, (u.elt k).tag ≠ "descriptor" → T.elt k = u.elt k := fun k hk => hst.eltNe hk
  have hbyId : ∀ i tg, tg ≠ "descriptor" → T.byId i [tg] = u.byId i [tg] := by
    intro i tg htg
    refine PS.byId_congr hcache i fun k => ⟨htags k, fun hm => ?_⟩
    rw [hother k (by rw [List.mem_singleton.1 hm]; exact htg)]
  have htr : ∀ i, T.transVal E.argOrder i = u.transVal E.argOrder i := by
    intro i
    unfold PS.transVal
    cases i with
    | none => rfl
    | some r =>
      rw [Option.bind_some, Option.bind_some, hbyId r _ (by decide)]
      cases h : u.byId r ["transition"] with
      | none => rfl
      | some tk =>
        have h2 : (u.elt tk).tag = "transition" := by simpa using (PS.byId_some h).2.1
        rw [Option.bind_some, Option.bind_some]
        unfold PS.attr
        rw [hother tk (by rw [h2]; decide)]
  have hrg : ∀ i nm, T.regionVal i nm = u.regionVal i nm := by
    intro i nm
    unfold PS.regionVal
    split
    · rfl
    cases i with
    | none => rfl
    | some r =>
      rw [Option.bind_some, Option.bind_some, hbyId r _ (by decide)]
      cases h : u.byId r ["region"] with
      | none => rfl
      | some tk =>
        have h2 : (u.elt tk).tag = "region" := by simpa using (PS.byId_some h).2.1
        rw [Option.bind_some, Option.bind_some]
        unfold PS.attr
        rw [hother tk (by rw [h2]; decide)]
  have hreg : ∀ rk, rk ∈ u.cache → ∀ nm, (u.elt rk).tag = "region" → nm = "transIn" ∨ nm = "transOut" → u.attr rk nm = none := by
    intro rk hc nm hr hn
    have hlt := he.kc.lt rk hc
    have hk : ns[rk]? = some ns[rk] := List.getElem?_eq_getElem hlt
    have hkt : (ns[rk]).tag = "region" := by rw [← (he.j.tag hk).1]; exact hr
    rw [region_attrs he hk hkt (nm := nm) (by rcases hn with rfl | rfl <;> decide)]
    obtain ⟨e, hs, hat⟩ := (he.j.ok rk _ hk).syn
    obtain ⟨a1, a2⟩ := syntaxOf_mem hs
    have htab : ∀ e ∈ syntaxTable, e.tag = "region" → "transIn" ∉ e.attrs.map Prod.fst ∧ "transOut" ∉ e.attrs.map Prod.fst := by decide +kernel
    obtain ⟨t1, t2⟩ := htab e a1 (a2.trans hkt)
    rcases hn with rfl | rfl
    · exact hat.other _ t1
    · exact hat.other _ t2
  have := descs_attrs (E := E) hby.1 (fun k hk => by
      unfold PS.byTag at hk
      simpa using (List.mem_filter.1 hk).2) hdk.sorted hreg hst.desc ((hby.2 j).2 ⟨n, hj, ht⟩) nm
  rw [show T.attr j nm = u1.attr j nm by unfold PS.attr; rw [hst.elt], this, htr, hrg, descr_own he hj ht, descr_own he hj ht]

end

/-- A numbered descriptor. -/
theorem desc_note {E : PRead} {scr : Rect} {z : Nat} {x : Xml} {t u : PS} {ns : List Note} {f : Nat → Nat} {P : (Nat → Nat) → List Note → List Nat → PS → Prop} {m : Nat}
    (he : Ended P E scr z x t ns f m u) (hdk : DescK E u) {k : Nat} {mk : Note} (g1 : ns[k]? = some mk) (hkt : mk.tag = "descriptor") : (t.elt k).tag = "descriptor" ∧
      (∀ nm, nm = "transIn" ∨ nm = "transOut" → t.attr k nm = t.transVal E.argOrder ((paramOf mk.xml nm).or (mk.get nm))) ∧
      (∀ nm, ¬ (nm = "transIn" ∨ nm = "transOut") → t.attr k nm = (t.regionVal ((paramOf mk.xml "region").or (mk.get "region")) nm).or ((paramOf mk.xml nm).or (mk.get nm))) ∧
      ((∀ al pt ys, Reached E x al pt ys → ∀ y ∈ ys, y.tag = "descriptorParam" → y.prop "name" ≠ some "id") → ∀ i, mk.get "id" = some i → t.byId i ["descriptor"] = some k) := by
  have hD := he.tree
  have hend := fun nm => desc_end (nm := nm) he hdk g1 hkt
  obtain ⟨u1, u2, u3, u4, hst⟩ := popNcl_stages he.run
  have htags : ∀ k, (t.elt k).tag = (u.elt k).tag := fun k => by rw [hst.elt, hst.f1.elt]
  have hcache : t.cache = u.cache := by rw [hst.last]; exact (hst.f4.cache.trans (hst.f3.cache.trans hst.f2.cache)).trans (by rw [hst.f1.state])
  refine ⟨by rw [htags, (he.j.tag g1).1, hkt], fun nm hn => ?_, fun nm hn => ?_, fun hno i hi => ?_⟩
  · exact (hend nm).trans (if_pos hn)
  · exact (hend nm).trans (if_neg hn)
  · have hid : ∀ (j : Nat) mj, ns[j]? = some mj → mj.tag = "descriptor" → t.attr j "id" = mj.get "id" := by
      intro j mj hj hjt
      rw [desc_end he hdk hj hjt, if_neg (by decide)]
      have : t.regionVal ((paramOf mj.xml "region").or (mj.get "region")) "id" = none := by unfold PS.regionVal; rw [if_pos rfl]
      rw [this, Option.none_or]
      have hp : paramOf mj.xml "id" = none := by
        unfold paramOf
        rw [filterMap_none, List.getLast?_nil]
        intro y hy
        rw [if_neg]
        rintro ⟨y1, y2⟩
        obtain ⟨j', mj', j1, j2, j3⟩ := child_note hD hj hy
        obtain ⟨al, pt, ys, r1, r2, -⟩ := hD.laid.reached .root mj' (List.mem_of_getElem? j1)
        refine hno al pt ys r1 _ r2 (by rw [j2]; exact y1) ?_
        rw [j2]
        unfold Xml.val at y2
        cases hv : y.prop "name" with
        | none => rw [hv] at y2; exact absurd y2 (by decide)
        | some v => rw [hv] at y2; rw [← y2]; rfl
      rw [hp, Option.none_or]
    cases hb : t.byId i ["descriptor"] with
    | some j =>
      obtain ⟨b1, b2, b3⟩ := PS.byId_some hb
      rw [hcache] at b1
      have hlt := he.kc.lt j b1
      have hk : ns[j]? = some ns[j] := List.getElem?_eq_getElem hlt
      have hjt : (ns[j]).tag = "descriptor" := by rw [← (he.j.tag hk).1, ← htags]; simpa using b2
      rw [hid j _ hk hjt] at b3
      rw [hD.once j k _ mk i hk g1 (by rw [hjt]; decide) (by rw [hkt]; decide) b3 hi]
    | none =>
      exfalso
      have hm : k ∈ u.byTag "descriptor" := ((byTag_notes he.j he.kc (tag := "descriptor") (by decide) (by decide +kernel)).2 k).2 ⟨mk, g1, hkt⟩
      unfold PS.byTag at hm
      have hm := (List.mem_filter.1 hm).1
      unfold PS.byId at hb
      split at hb
      · cases hb
      · next hf =>
        rw [hcache] at hf
        have := List.find?_eq_none.1 hf k hm
        rw [htags, (he.j.tag g1).1, hkt, hid k mk g1 hkt, hi] at this
        simp at this

/-- A descriptor of the document. -/
theorem C61_descriptor {E : PRead} (hinj : ∀ i j, E.addr i = E.addr j → i = j) {n : Nat} {W H : Int} {z : Nat} {x : Xml} {t : PS} (h : parseXml E n W H z x = .ok (some t))
    {d : Xml} (hd : SubElt x d) (ht : d.tag = "descriptor") : ∃ k, (t.elt k).tag = "descriptor" ∧
      (∀ nm, nm = "transIn" ∨ nm = "transOut" → t.attr k nm = t.transVal E.argOrder (ownAttr d nm)) ∧
      (∀ nm, ¬ (nm = "transIn" ∨ nm = "transOut") → t.attr k nm = (t.regionVal (ownAttr d "region") nm).or (ownAttr d nm)) ∧
      ((∀ al pt ys, Reached E x al pt ys → ∀ y ∈ ys, y.tag = "descriptorParam" → y.prop "name" ≠ some "id") → ∀ i, d.prop "id" = some i → t.byId i ["descriptor"] = some k) := by
  obtain ⟨ns, f, m, u, he⟩ := doc_treeP hinj (descK_extra hinj _ _) (fun f reg hreg => descK_init hinj W H z hreg) h
  have hD := he.tree
  obtain ⟨k, mk, -, -, g1, g2, g3, -, -⟩ := hD.laid.inside hd
  have hkt : mk.tag = "descriptor" := by unfold Note.tag; rw [g2]; exact ht
  have hg : ∀ a, mk.get a = d.prop a := fun a => by rw [Note.get_main (hD.ok k mk g1) g3 a (.inl (by rw [hkt]; decide)), g2]
  have := desc_note he he.extra g1 hkt
  simp only [g2, hg] at this
  exact ⟨k, this⟩

/-- What a descriptor says itself, reached under the aliases `al`: the last parameter with the name or else its attribute; an attribute `region` (and not a parameter) comes with the aliases. -/
def ownIn (al : List (String × String)) (d : Xml) (nm : String) : Option String :=
  (paramOf d nm).or (if nm = "region" then (d.prop nm).map (aliasPrefix al ++ ·) else d.prop nm)

/-- A descriptor of the document or of any imported one. -/
theorem C61_descriptor_imported {E : PRead} (hinj : ∀ i j, E.addr i = E.addr j → i = j) {n : Nat} {W H : Int} {z : Nat} {x : Xml} {t : PS}
    (h : parseXml E n W H z x = .ok (some t)) {al : List (String × String)} {pt : Option String} {xs : List Xml} (hr : Reached E x al pt xs)
    {d : Xml} (hd : d ∈ xs) (ht : d.tag = "descriptor") : ∃ k, (t.elt k).tag = "descriptor" ∧
      (∀ nm, nm = "transIn" ∨ nm = "transOut" → t.attr k nm = t.transVal E.argOrder (ownIn al d nm)) ∧
      (∀ nm, nm ≠ "id" → ¬ (nm = "transIn" ∨ nm = "transOut") → t.attr k nm = (t.regionVal (ownIn al d "region") nm).or (ownIn al d nm)) ∧
      ((∀ al pt ys, Reached E x al pt ys → ∀ y ∈ ys, y.tag = "descriptorParam" → y.prop "name" ≠ some "id") → ∀ i, d.prop "id" = some i → t.byId (aliasPrefix al ++ i) ["descriptor"] = some k) := by
  obtain ⟨ns, f, m, u, he⟩ := doc_treeP hinj (descK_extra hinj _ _) (fun f reg hreg => descK_init hinj W H z hreg) h
  have hD := he.tree
  obtain ⟨k, mk, g1, g2, g3⟩ := hD.note_of hr hd
  have hkt : mk.tag = "descriptor" := by unfold Note.tag; rw [g2]; exact ht
  have hg := fun a => Note.get_any (hD.ok k mk g1) (.inr hkt) a
  rw [g2, g3] at hg
  have hown : ∀ nm, nm ≠ "id" → (paramOf mk.xml nm).or (mk.get nm) = ownIn al d nm := fun nm hn => by
    unfold ownIn
    rw [g2, hg]
    by_cases hc : nm = "region"
    · rw [if_pos (.inr hc), if_pos hc]
    · rw [if_neg (by simp [hn, hc]), if_neg hc]
  obtain ⟨q1, q2, q3, q4⟩ := desc_note he he.extra g1 hkt
  refine ⟨k, q1, fun nm hn => ?_, fun nm h1 hn => ?_, fun hno i hi => q4 hno _ ?_⟩
  · rw [q2 nm hn, hown nm (by rcases hn with rfl | rfl <;> decide)]
  · rw [q3 nm hn, hown nm h1, hown _ (by decide)]
  · rw [hg, if_pos (.inl rfl), hi]; rfl

/-! ## Regions -/

/-- The layout that the notes tell. -/
theorem J.layout {E : PRead} {scr : Rect} {z : Nat} {ns : List Note} {u : PS} (hj : J E scr z ns u) : Layout E scr ns := by
  refine ⟨fun j m hm ht => ?_, fun j m p hm hp => ((hj.ok j m hm).parent p hp).1, hj.zlt⟩
  have hok := hj.ok j m hm
  have hr := hok.region ht
  rw [hj.parentRect] at hr
  refine placed_of_rect (fun a ha => ?_) hr
  obtain ⟨e, he, hat⟩ := hok.syn
  obtain ⟨hmem, htag⟩ := syntaxOf_mem he
  obtain ⟨fl, hfl, h1, h2⟩ := table_regionAttrs e hmem (htag.trans ht) a ha
  exact hat.plain hfl h1 h2 (by intro hc; subst hc; exact absurd ha (by decide))

/-- What the region `n` with identifier `i` gives to descriptors: its rectangle in percentages of the screen, its z-order, and its other attributes. -/
structure RegionGives (E : PRead) (W H : Int) (t : PS) (i : String) (r : Xml) (n : Note) : Prop where
  left : t.regionVal (some i) "left" = some (percentText E n.rect.x W)
  top : t.regionVal (some i) "top" = some (percentText E n.rect.y H)
  width : t.regionVal (some i) "width" = some (percentText E n.rect.w W)
  height : t.regionVal (some i) "height" = some (percentText E n.rect.h H)
  zOrder : t.regionVal (some i) "zOrder" = some (toString n.z)
  other : ∀ nm, nm ∉ ["id", "zOrder", "left", "top", "width", "height"] → t.regionVal (some i) nm = r.prop nm

/-- A numbered region. -/
theorem region_note {E : PRead} {W H : Int} {z : Nat} {x : Xml} {t u : PS} {ns : List Note} {f : Nat → Nat} {P : (Nat → Nat) → List Note → List Nat → PS → Prop} {m : Nat}
    (he : Ended P E ⟨0, 0, W, H⟩ z x t ns f m u) {r : Xml} {k : Nat} {mk : Note} (g1 : ns[k]? = some mk) (hkt : mk.tag = "region")
    (hg : ∀ a, a ≠ "id" → a ≠ "region" → mk.get a = r.prop a) (hgr : mk.get "region" = r.prop "region") {i : String} (hi : mk.get "id" = some i) : RegionGives E W H t i r mk := by
  have hD := he.tree
  obtain ⟨u1, u2, u3, u4, hst⟩ := popNcl_stages he.run
  have htags : ∀ k, (t.elt k).tag = (u.elt k).tag := fun k => by rw [hst.elt, hst.f1.elt]
  have hcache : t.cache = u.cache := by rw [hst.last]; exact (hst.f4.cache.trans (hst.f3.cache.trans hst.f2.cache)).trans (by rw [hst.f1.state])
  have hat : ∀ (j : Nat) mj, ns[j]? = some mj → mj.tag = "region" → t.elt j = u.elt j := fun j mj hj hjt => hst.eltNe (by rw [(he.j.tag hj).1, hjt]; decide)
  have hid : ∀ (j : Nat) mj, ns[j]? = some mj → mj.tag = "region" → t.attr j "id" = mj.get "id" := by
    intro j mj hj hjt
    have : t.attr j "id" = u.attr j "id" := by unfold PS.attr; rw [hat j mj hj hjt]
    rw [this, region_attrs he hj hjt (by decide)]
  have hby : t.byId i ["region"] = some k := by
    cases hb : t.byId i ["region"] with
    | some j =>
      obtain ⟨b1, b2, b3⟩ := PS.byId_some hb
      rw [hcache] at b1
      have hlt := he.kc.lt j b1
      have hk : ns[j]? = some ns[j] := List.getElem?_eq_getElem hlt
      have hjt : (ns[j]).tag = "region" := by rw [← (he.j.tag hk).1, ← htags]; simpa using b2
      rw [hid j _ hk hjt] at b3
      rw [hD.once j k _ mk i hk g1 (by rw [hjt]; decide) (by rw [hkt]; decide) b3 hi]
    | none =>
      exfalso
      have hm : k ∈ u.byTag "region" := ((byTag_notes he.j he.kc (tag := "region") (by decide) (by decide +kernel)).2 k).2 ⟨mk, g1, hkt⟩
      unfold PS.byTag at hm
      have hm := (List.mem_filter.1 hm).1
      unfold PS.byId at hb
      split at hb
      · cases hb
      · next hf =>
        rw [hcache] at hf
        have := List.find?_eq_none.1 hf k hm
        rw [htags, (he.j.tag g1).1, hkt, hid k mk g1 hkt, hi] at this
        simp at this
  have hval : ∀ nm, nm ≠ "id" → t.regionVal (some i) nm = mget nm (regionAttrs E ⟨0, 0, W, H⟩ mk.rect mk.z mk.attrs) := by
    intro nm hn
    unfold PS.regionVal PS.attr
    rw [if_neg hn, Option.bind_some, hby, Option.bind_some, hat k mk g1 hkt, he.j.region k mk g1 hkt]
  refine ⟨?_, ?_, ?_, ?_, ?_, fun nm hn => ?_⟩
  case refine_6 =>
    rw [List.mem_cons, not_or] at hn
    rw [hval nm hn.1, ← he.j.region k mk g1 hkt]
    exact (region_attrs he g1 hkt hn.2).trans (if hc : nm = "region" then hc ▸ hgr else hg nm hn.1 hc)
  all_goals
    rw [hval _ (by decide)]
    unfold regionAttrs
    repeat first
      | rw [mget_mset_same]
      | rw [mget_mset_ne _ _ _ _ (by decide)]

/-- A region of the document. -/
theorem C61_region {E : PRead} (hinj : ∀ i j, E.addr i = E.addr j → i = j) {n : Nat} {W H : Int} {z : Nat} {x : Xml} {t : PS} (h : parseXml E n W H z x = .ok (some t))
    {r : Xml} (hr : SubElt x r) (ht : r.tag = "region") {i : String} (hi : r.prop "id" = some i) :
    ∃ (ns : List Note) (j : Nat) (m : Note), Laid E [] none none 0 [x] ns ∧ Layout E ⟨0, 0, W, H⟩ ns ∧ ns[j]? = some m ∧ m.xml = r ∧ RegionGives E W H t i r m := by
  obtain ⟨ns, f, m, u, he⟩ := doc_treeP hinj (descK_extra hinj _ _) (fun f reg hreg => descK_init hinj W H z hreg) h
  have hD := he.tree
  obtain ⟨k, mk, -, -, g1, g2, g3, -, -⟩ := hD.laid.inside hr
  have hkt : mk.tag = "region" := by unfold Note.tag; rw [g2]; exact ht
  have hg : ∀ a, mk.get a = r.prop a := fun a => by rw [Note.get_main (hD.ok k mk g1) g3 a (.inl (by rw [hkt]; decide)), g2]
  exact ⟨ns, k, mk, hD.laid, he.j.layout, g1, g2, region_note he g1 hkt (fun a _ _ => hg a) (hg _) ((hg _).trans hi)⟩

/-- A region of the document or of any imported one: it is known by its identifier with the aliases. -/
theorem C61_region_imported {E : PRead} (hinj : ∀ i j, E.addr i = E.addr j → i = j) {n : Nat} {W H : Int} {z : Nat} {x : Xml} {t : PS}
    (h : parseXml E n W H z x = .ok (some t)) {al : List (String × String)} {pt : Option String} {xs : List Xml} (hx : Reached E x al pt xs)
    {r : Xml} (hr : r ∈ xs) (ht : r.tag = "region") {i : String} (hi : r.prop "id" = some i) :
    ∃ (ns : List Note) (j : Nat) (m : Note), Laid E [] none none 0 [x] ns ∧ Layout E ⟨0, 0, W, H⟩ ns ∧ ns[j]? = some m ∧ m.xml = r ∧
      RegionGives E W H t (aliasPrefix al ++ i) r m := by
  obtain ⟨ns, f, m, u, he⟩ := doc_treeP hinj (descK_extra hinj _ _) (fun f reg hreg => descK_init hinj W H z hreg) h
  have hD := he.tree
  obtain ⟨k, mk, g1, g2, g3⟩ := hD.note_of hx hr
  have hkt : mk.tag = "region" := by unfold Note.tag; rw [g2]; exact ht
  have hg := fun a => Note.get_any (hD.ok k mk g1) (.inl hkt) a
  rw [g2, g3] at hg
  have hno : r.prop "region" = none := by
    cases hp : r.prop "region" with
    | none => rfl
    | some v =>
      exfalso
      obtain ⟨e, he, hat⟩ := (hD.ok k mk g1).syn
      obtain ⟨a1, a2⟩ := syntaxOf_mem he
      obtain ⟨fl, hfl⟩ := hat.declared (g2 ▸ hp)
      have htab : ∀ e ∈ syntaxTable, e.tag = "region" → "region" ∉ e.attrs.map Prod.fst := by decide +kernel
      exact htab e a1 (a2.trans hkt) (List.mem_map.2 ⟨_, hfl, rfl⟩)
  refine ⟨ns, k, mk, hD.laid, he.j.layout, g1, g2, region_note he g1 hkt (fun a h1 h2 => by rw [hg, if_neg (by simp [h1, h2])]) ?_ ?_⟩
  · rw [hg, if_pos (.inr rfl), hno]; rfl
  · rw [hg, if_pos (.inl rfl), hi]; rfl

/-! ## One media with one descriptor -/

theorem findSome_all {α β : Type} {F : α → Option β} {v : Option β} : ∀ {l : List α}, (∀ a ∈ l, F a = v ∨ F a = none) → (∃ a ∈ l, F a = v) → l.findSome? F = v
  | [], _, h => by obtain ⟨a, h, -⟩ := h; cases h
  | a :: l, h, he => by
    rw [List.findSome?_cons]
    cases hf : F a with
    | some b =>
      rcases h a List.mem_cons_self with h1 | h1
      · rw [← h1, hf]
      · rw [hf] at h1; cases h1
    | none =>
      cases v with
      | none =>
        show List.findSome? F l = none
        refine List.findSome?_eq_none_iff.2 fun b hb => ?_
        rcases h b (List.mem_cons_of_mem _ hb) with h1 | h1 <;> exact h1
      | some v =>
        refine findSome_all (fun b hb => h b (List.mem_cons_of_mem _ hb)) ?_
        obtain ⟨b, hb, e⟩ := he
        rcases List.mem_cons.1 hb with rfl | hb
        · rw [hf] at e; cases e
        · exact ⟨b, hb, e⟩

theorem one_of {E : PRead} (hinj : ∀ i j, E.addr i = E.addr j → i = j) {n : Nat} {W H : Int} {z : Nat} {x : Xml} {t : PS} (h : parseXml E n W H z x = .ok (some t))
    {c : Xml} (hc : SubElt x c) (hk : eltKind c = some .media) {i di nm : String} (hi : c.prop "id" = some i) (hcd : c.prop "descriptor" = some di)
    (hset : ∀ w, SubElt x w → standsFor i w → w.prop "id" ≠ some "__settings__")
    (hone : ∀ w, SubElt x w → standsFor i w → w.prop "descriptor" = some di ∨ w.prop "descriptor" = none)
    (h1 : nm ≠ "id") (h2 : nm ≠ "region") (hp : ¬ HasProperty x (standsFor i) nm) {k : Nat} {V : Option String} (b3 : t.attr k nm = V) (b4 : t.byId di ["descriptor"] = some k) :
    ∃ o, t.reg.getById i = some o ∧ mget nm (t.props o) = V.or (given E x i nm).getLast? := by
  obtain ⟨o, X, a1, a2, -, a3⟩ := C61_media hinj h hc hk hi h1 h2 hset
  refine ⟨o, a1, ?_⟩
  have hkt : c.tag = "media" ∧ c.prop "refer" = none := by
    unfold eltKind at hk
    split at hk
    · cases hk
    · split at hk
      · cases hk
      · split at hk
        · next hm => exact ⟨hm.1, hm.2.1⟩
        · cases hk
  rw [(a3 hp).1, ← b3]
  congr 1
  unfold fromDescriptors
  have hv : ∀ w : Xml, w.prop "descriptor" = some di → ((descOf t w).bind fun k => t.attr k nm) = t.attr k nm := by
    intro w hw
    unfold descOf
    rw [hw, Option.bind_some, b4, Option.bind_some]
  refine findSome_all (fun w hw => ?_) ?_
  · by_cases hs : standsFor i w.2
    · rw [if_pos hs]
      have hsub : SubElt x w.2 := by
        rcases listing_back x none .self _ hw with e | ⟨d', -, e2, e3⟩
        · rw [e]; exact .self
        · exact .child e2 e3
      rcases hone w.2 hsub hs with e | e
      · exact .inl (hv w.2 e)
      · right; unfold descOf; rw [e]; rfl
    · rw [if_neg hs]; exact .inr rfl
  · obtain ⟨p, hp⟩ := hc.listed
    refine ⟨(p, c), hp _ (by rw [Xml.listing_eq]; exact List.mem_cons_self), ?_⟩
    rw [if_pos ⟨hkt.1, .inl ⟨hi, hkt.2⟩⟩]
    exact hv c hcd

/-- A property that the media does not name, when the elements that stand for the media name one descriptor `d`: the value of the region of the descriptor, or else that of
the descriptor, or else that of the media element itself (its source and type). -/
theorem C61_one {E : PRead} (hinj : ∀ i j, E.addr i = E.addr j → i = j) {n : Nat} {W H : Int} {z : Nat} {x : Xml} {t : PS} (h : parseXml E n W H z x = .ok (some t))
    {c d : Xml} (hc : SubElt x c) (hk : eltKind c = some .media) {i di nm : String} (hi : c.prop "id" = some i) (hcd : c.prop "descriptor" = some di)
    (hd : SubElt x d) (hdt : d.tag = "descriptor") (hdi : d.prop "id" = some di)
    (hno : ∀ al pt ys, Reached E x al pt ys → ∀ y ∈ ys, y.tag = "descriptorParam" → y.prop "name" ≠ some "id")
    (hset : ∀ w, SubElt x w → standsFor i w → w.prop "id" ≠ some "__settings__")
    (hone : ∀ w, SubElt x w → standsFor i w → w.prop "descriptor" = some di ∨ w.prop "descriptor" = none)
    (hnm : nm ∉ ["id", "region", "transIn", "transOut"]) (hp : ¬ HasProperty x (standsFor i) nm) :
    ∃ o, t.reg.getById i = some o ∧ mget nm (t.props o) = ((t.regionVal (ownAttr d "region") nm).or (ownAttr d nm)).or (given E x i nm).getLast? := by
  simp only [List.mem_cons, List.not_mem_nil, or_false, not_or] at hnm
  obtain ⟨k, b1, -, b3, b4⟩ := C61_descriptor hinj h hd hdt
  exact one_of hinj h hc hk hi hcd hset hone hnm.1 hnm.2.1 hp (b3 nm (by simp [hnm])) (b4 hno di hdi)

/-- A property that the media does not name, when the elements that stand for the media name one descriptor `d`, of the document or of an imported one, under its aliases: the value of the region of the descriptor, or else that of
the descriptor, or else that of the media element itself (its source and type). -/
theorem C61_one_imported {E : PRead} (hinj : ∀ i j, E.addr i = E.addr j → i = j) {n : Nat} {W H : Int} {z : Nat} {x : Xml} {t : PS} (h : parseXml E n W H z x = .ok (some t))
    {c d : Xml} (hc : SubElt x c) (hk : eltKind c = some .media) {i di nm : String} {al : List (String × String)} {pt : Option String} {xs : List Xml} (hi : c.prop "id" = some i) (hcd : c.prop "descriptor" = some (aliasPrefix al ++ di))
    (hr : Reached E x al pt xs) (hd : d ∈ xs) (hdt : d.tag = "descriptor") (hdi : d.prop "id" = some di)
    (hno : ∀ al pt ys, Reached E x al pt ys → ∀ y ∈ ys, y.tag = "descriptorParam" → y.prop "name" ≠ some "id")
    (hset : ∀ w, SubElt x w → standsFor i w → w.prop "id" ≠ some "__settings__")
    (hone : ∀ w, SubElt x w → standsFor i w → w.prop "descriptor" = some (aliasPrefix al ++ di) ∨ w.prop "descriptor" = none)
    (hnm : nm ∉ ["id", "region", "transIn", "transOut"]) (hp : ¬ HasProperty x (standsFor i) nm) :
    ∃ o, t.reg.getById i = some o ∧ mget nm (t.props o) = ((t.regionVal (ownIn al d "region") nm).or (ownAttr d nm)).or (given E x i nm).getLast? := by
  simp only [List.mem_cons, List.not_mem_nil, or_false, not_or] at hnm
  obtain ⟨k, b1, -, b3, b4⟩ := C61_descriptor_imported hinj h hr hd hdt
  have hown : ownIn al d nm = ownAttr d nm := by unfold ownIn ownAttr; rw [if_neg hnm.2.1]
  exact one_of hinj h hc hk hi hcd hset hone hnm.1 hnm.2.1 hp (hown ▸ b3 nm hnm.1 (by simp [hnm])) (b4 hno di hdi)

/-! ## Examples -/

/-- A document with a region, descriptors with parameters and a transition, and media. -/
def docDescriptors : Xml := .elem "ncl" [] [
  .elem "head" [] [
    .elem "transitionBase" [] [.elem "transition" [("id", "f"), ("type", "fade"), ("dur", "2s")] []],
    .elem "regionBase" [] [.elem "region" [("id", "r"), ("left", "25%"), ("width", "50%"), ("zIndex", "3")] []],
    .elem "descriptorBase" [] [
      .elem "descriptor" [("id", "d"), ("region", "r"), ("explicitDur", "5s"), ("left", "0"), ("transIn", "f")]
        [.elem "descriptorParam" [("name", "explicitDur"), ("value", "6s")] [], .elem "descriptorParam" [("name", "explicitDur"), ("value", "7s")] [],
         .elem "descriptorParam" [("name", "soundLevel"), ("value", "50%")] []],
      .elem "descriptor" [("id", "e"), ("explicitDur", "9s"), ("freeze", "true")] []]],
  .elem "body" [] [
    .elem "media" [("id", "m"), ("src", "a.png"), ("descriptor", "d")] [.elem "property" [("name", "soundLevel")] []],
    .elem "media" [("id", "n"), ("refer", "m"), ("descriptor", "e")] []]]

/-- The hypotheses are met: this document is accepted. The media has the values of its own descriptor, then those of the descriptor of the reference; the property that it
names has no value. The last parameter counts, and the region takes precedence over the descriptor. -/
example : parsedAnd (parseXml pread1 20 800 600 0 docDescriptors) (fun t =>
    (propAt t "m" "explicitDur", propAt t "m" "freeze", propAt t "m" "soundLevel", propAt t "m" "left", propAt t "m" "width", propAt t "m" "zIndex") ==
      (some "7s", some "true", none, some "25%", some "50%", some "3") &&
    (propAt t "m" "transIn").isSome && (propAt t "m" "id").isNone && (propAt t "m" "region").isNone &&
    (fromDescriptors docDescriptors t "m" "explicitDur", fromDescriptors docDescriptors t "m" "freeze") == (some "7s", some "true")) = true := by decide +kernel

/-- A reader with a document to import: a region, and a descriptor with it. -/
def pread2 (trans : List (String × String)) : PRead := { pread1 with file := fun u => if u = "deco.ncl" then some (.elem "ncl" [] [.elem "head" [] [
  .elem "transitionBase" [] [.elem "transition" [("id", "f"), ("type", "fade")] []],
  .elem "regionBase" [] [.elem "region" [("id", "r"), ("left", "25%"), ("width", "50%")] []],
  .elem "descriptorBase" [] [.elem "descriptor" ([("id", "d"), ("region", "r"), ("explicitDur", "5s")] ++ trans) []]]]) else none }

/-- A document that imports it, with a transition of its own when there is `own`. -/
def docDeco (own : List Xml) : Xml := .elem "ncl" [] [
  .elem "head" [] (own ++ [.elem "descriptorBase" [] [.elem "importBase" [("alias", "b"), ("documentURI", "deco.ncl")] []]]),
  .elem "body" [] [.elem "media" [("id", "m"), ("src", "a.png"), ("descriptor", "b#d")] []]]

/-- The media has the values of the imported descriptor and of its region. -/
example : parsedAnd (parseXml (pread2 []) 20 800 600 0 (docDeco [])) (fun t =>
    (propAt t "m" "explicitDur", propAt t "m" "left", propAt t "m" "width") == (some "5s", some "25%", some "50%")) = true := by decide +kernel

/-- The imported descriptor is reached, under the alias. -/
example : ∃ xs d, Reached (pread2 []) (docDeco []) [("b", "deco.ncl")] (some "descriptorBase") xs ∧ d ∈ xs ∧ d.tag = "descriptor" ∧ d.prop "id" = some "d" ∧
    ownIn [("b", "deco.ncl")] d "region" = some "b#r" := by
  have h : ∀ {al pt xs} (y : Xml), Reached (pread2 []) (docDeco []) al pt xs → y ∈ xs → Reached (pread2 []) (docDeco []) al (some y.tag) y.children := fun y h1 h2 => .child h1 h2
  have h1 := h (docDeco []) .root List.mem_cons_self
  have h2 := h _ h1 (List.mem_cons_self (a := Xml.elem "head" [] [.elem "descriptorBase" [] [.elem "importBase" [("alias", "b"), ("documentURI", "deco.ncl")] []]]))
  have h3 := h _ h2 (List.mem_cons_self (a := Xml.elem "descriptorBase" [] [.elem "importBase" [("alias", "b"), ("documentURI", "deco.ncl")] []]))
  have h4 := Reached.imp (a := "b") (d := "deco.ncl") (u := "deco.ncl") h3 List.mem_cons_self (by decide +kernel) (by decide +kernel) (by decide +kernel) rfl rfl (by rfl)
  have h5 := h _ h4 (List.mem_cons_self (a := Xml.elem "descriptorBase" [] [.elem "descriptor" [("id", "d"), ("region", "r"), ("explicitDur", "5s")] []]))
  exact ⟨_, .elem "descriptor" [("id", "d"), ("region", "r"), ("explicitDur", "5s")] [], h5, List.mem_cons_self, rfl, by decide +kernel, by decide +kernel⟩

/-- A reference whose own identifier is that of the settings object: the values of its descriptor go to the settings object, not to the media for which it stands. -/
theorem C61_fails_settings : parsedAnd (parseXml pread0 20 800 600 0 (.elem "ncl" [] [
      .elem "head" [] [.elem "descriptorBase" [] [.elem "descriptor" [("id", "d"), ("explicitDur", "5s")] []]],
      .elem "body" [] [.elem "media" [("id", "m")] [], .elem "media" [("id", "__settings__"), ("refer", "m"), ("descriptor", "d")] []]]))
    (fun t => propAt t "m" "explicitDur" == none && propAt t "__settings__" "explicitDur" == some "5s") = true := by decide +kernel

end Ginga
