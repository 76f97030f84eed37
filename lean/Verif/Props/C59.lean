import Verif.Proofs.EventK
import Verif.Props.C47
/-!
# C59: the events of an object are those that the document gives it

The presentation events of a media object are its whole content and one for each area of the media elements that stand for it, with the label or the interval of the
area; those of a context, only its whole content. The property events of a context are those of its property elements.
-/
namespace Ginga

/-- The events of the areas inside the elements of `S`, in document order. -/
def areasIn (E : PRead) (x : Xml) (S : Xml → Prop) [DecidablePred S] : List REv :=
  (x.listing none).filterMap fun (w : Option Xml × Xml) => if (∃ c, w.1 = some c ∧ S c) ∧ w.2.tag = "area" then areaEvent E w.2.prop else none

/-- The event of the whole content. -/
def wholeEvent : REv := { typ := .presentation, id := "@lambda" }

section
variable {E : PRead} {scr : Rect} {z : Nat} {x : Xml} {T u : PS} {ns : List Note} {f : Nat → Nat} {P : (Nat → Nat) → List Note → List Nat → PS → Prop} {m : Nat}

/-- The presentation events given by notes. -/
theorem areas_notes (he : Ended P E scr z x T ns f m u) {o : Nat} (S : Xml → Prop) [DecidablePred S]
    (hS : ∀ (q : Nat) mq, ns[q]? = some mq → mq.tag = "body" ∨ mq.tag = "context" ∨ mq.tag = "media" → (f q = o ↔ S mq.xml)) :
    ns.filterMap (fun n => if n.tag = "area" then adds E f o n else none) = areasIn E x S := by
  have hd := he.tree
  have key : ns.zipIdx.filterMap (fun p => if p.1.tag = "area" then adds E f o p.1 else none) = (listingAll none [x]).filterMap
      fun (w : Option Xml × Xml) => if (∃ c, w.1 = some c ∧ S c) ∧ w.2.tag = "area" then areaEvent E w.2.prop else none := by
    refine hd.laid.listing ?_ rfl (fun i n hn => by rw [Nat.zero_add]; exact hn)
    intro j n hj
    have hok := hd.ok j n hj
    dsimp only
    by_cases ht : n.tag = "area"
    · have hpre := (hd.main _ j n (Nat.lt_succ_self _) hj (by rw [ht]; decide)).2.1
      have ht' : n.xml.tag = "area" := ht
      have hg : n.get = n.xml.prop := funext fun a => Note.get_main hok hpre a (.inl (by rw [ht]; decide))
      have hiff : n.parent.map f = some o ↔ ∃ c, n.parent.map (xmlAt ns) = some c ∧ S c := by
        cases hpar : n.parent with
        | none => simp
        | some p =>
          obtain ⟨-, mp, g1, e, g2, g3, g4⟩ := hok.parent p hpar
          have : mp.tag = "media" := by
            have := (table_area e g2).2 (g3.trans ht)
            rw [this] at g4; simpa using g4
          have hx : xmlAt ns p = mp.xml := by unfold xmlAt; rw [g1]
          rw [Option.map_some, Option.map_some, hx]
          rw [Option.some.injEq, hS p mp g1 (.inr (.inr this))]
          exact ⟨fun h => ⟨_, rfl, h⟩, fun ⟨c, h1, h2⟩ => by cases h1; exact h2⟩
      unfold adds
      rw [if_pos ht, if_pos ht, if_pos hpre, hg]
      by_cases hc : n.parent.map f = some o
      · rw [if_pos hc, if_pos ⟨hiff.1 hc, ht'⟩]
      · rw [if_neg hc, if_neg fun h => hc (hiff.2 h.1)]
    · have ht' : ¬ n.xml.tag = "area" := ht
      rw [if_neg ht]
      split
      · rw [if_neg fun h => ht' h.2]
      · rfl
  have h1 : ns.filterMap (fun n => if n.tag = "area" then adds E f o n else none) = ns.zipIdx.filterMap (fun p => if p.1.tag = "area" then adds E f o p.1 else none) := by
    conv => lhs; rw [← List.zipIdx_map_fst 0 ns]
    rw [List.filterMap_map]; rfl
  rw [h1, key]
  unfold areasIn
  rw [listingAll, listingAll, List.append_nil]

/-- Only the events of a type matter. -/
theorem pick_filter {E : PRead} {f : Nat → Nat} {o : Nat} (nm : String) : ∀ l : List Note,
    pick (l.filterMap (adds E f o)) .presentation nm = pick (l.filterMap fun n => if n.tag = "area" then adds E f o n else none) .presentation nm
  | [] => rfl
  | n :: l => by
    have ih := pick_filter (E := E) (f := f) (o := o) nm l
    rw [show ∀ (a : Note) (l : List Note), a :: l = [a] ++ l from fun _ _ => rfl, List.filterMap_append, List.filterMap_append, pick_append, pick_append, ih]
    congr 1
    by_cases ht : n.tag = "area"
    · simp only [List.filterMap_cons, ht, if_true, List.filterMap_nil]
    · have h2 : [n].filterMap (fun n => if n.tag = "area" then adds E f o n else none) = [] := by
        rw [List.filterMap_cons_none (by rw [if_neg ht])]; rfl
      rw [h2]
      by_cases hp : n.tag = "property"
      · cases hc : adds E f o n with
        | none => rw [List.filterMap_cons_none hc]; rfl
        | some e =>
          rw [List.filterMap_cons_some hc, List.filterMap_nil, pick_one, if_neg]; rfl
          rintro ⟨h3, -⟩
          unfold adds at hc
          rw [if_neg ht, if_pos hp] at hc
          split at hc
          · obtain ⟨w, -, rfl⟩ := Option.map_eq_some_iff.1 hc
            cases h3
          · cases hc
      · rw [List.filterMap_cons_none (adds_none ht hp)]; rfl

/-- The last phase adds no presentation event. -/
theorem pres_stages {u1 u2 u3 u4 : PS} (hst : Stages E m u u1 u2 u3 u4 T) : EvSame E (· = .presentation) u T := by
  have hp := evSame_pre E (· = .presentation)
  have hc := evSame_core E (· = .presentation)
  have h1 : EvSame E (· = .presentation) u u1 := evSame_same (by rw [hst.f1.state]) (by rw [hst.f1.state]; exact Nat.le_refl _)
  have h2 : EvSame E (· = .presentation) u1 u2 := PRel.forEach hp (fun k => PRel.popMediaElt hc k (fun _ => trivial) (by decide)) _ _ _ _ hst.media
  have h3 : EvSame E (· = .presentation) u2 u3 := PRel.forEach hp (fun k => PRel.popSwitchElt hc (fun _ _ => evSame_same rfl (Nat.le_refl _)) k) _ _ _ _ hst.switch
  have h4 : EvSame E (· = .presentation) u3 u4 := PRel.forEach hp (fun k => PRel.popLinkElt hc (fun _ _ => evSame_same rfl (Nat.le_refl _)) m k ⟨by decide, by decide⟩) _ _ _ _ hst.link
  have h5 : EvSame E (· = .presentation) u4 T := evSame_same (by rw [hst.last]) (by rw [hst.last]; exact Nat.le_refl _)
  exact hp.trans h1 (hp.trans h2 (hp.trans h3 (hp.trans h4 h5)))

end

/-- The presentation events of the object `o`. -/
theorem pres_events {E : PRead} {scr : Rect} {z : Nat} {x : Xml} {T u : PS} {ns : List Note} {f : Nat → Nat} {P : (Nat → Nat) → List Note → List Nat → PS → Prop} {m : Nat}
    (he : Ended P E scr z x T ns f m u) (hk : EventK E f ns u) {o : Nat} {X : RObj} (hX : T.reg.obj o = some X) (hkx : X.kind ≠ .switch) (hal : Alloc E u o)
    (S : Xml → Prop) [DecidablePred S] (hS : ∀ (q : Nat) mq, ns[q]? = some mq → mq.tag = "body" ∨ mq.tag = "context" ∨ mq.tag = "media" → (f q = o ↔ S mq.xml)) (nm : String) :
    (X.getEvent .presentation nm).map (·.2) = (wholeEvent :: areasIn E x S).find? fun e => e.id == nm := by
  obtain ⟨u1, u2, u3, u4, hst⟩ := popNcl_stages he.run
  rcases (pres_stages hst).2 o X hX hkx with ⟨Y, h1, h2, h3⟩ | ⟨h1, -⟩
  · rw [h3 _ _ rfl, hk.val o Y h1 (by rw [← h2]; exact hkx), pick_append, pick_filter, areas_notes he S hS]
    have hall : ∀ e ∈ areasIn E x S, e.typ = .presentation := by
      intro e hm
      unfold areasIn at hm
      obtain ⟨w, -, hw⟩ := List.mem_filterMap.1 hm
      split at hw
      · unfold areaEvent at hw
        split at hw
        · cases hw
        · split at hw
          · split at hw
            · cases hw
            · cases hw; rfl
          · split at hw
            · cases hw; rfl
            · cases hw
      · cases hw
    have hb : pick (baseEvents Y.kind) .presentation nm = [wholeEvent].find? fun e => e.id == nm := by
      unfold baseEvents pick
      split
      · by_cases hn : "@lambda" = nm
        · subst hn; rfl
        · have : ("@lambda" == nm) = false := by simpa using hn
          simp [wholeEvent, this]
      · by_cases hn : "@lambda" = nm
        · subst hn; rfl
        · have : ("@lambda" == nm) = false := by simpa using hn
          simp [wholeEvent, this]
    have ha : pick (areasIn E x S) .presentation nm = (areasIn E x S).find? fun e => e.id == nm := by
      unfold pick
      revert hall
      generalize areasIn E x S = l
      induction l with
      | nil => intro _; rfl
      | cons e l ih =>
        intro h
        rw [List.find?_cons, List.find?_cons, h e (by simp), ih fun w hw => h w (by simp [hw])]
        simp
    rw [hb, ha, ← List.find?_append]; rfl
  · exact absurd hal h1

/-- **C59, media.** -/
theorem C59_media {E : PRead} (hinj : ∀ i j, E.addr i = E.addr j → i = j) {n : Nat} {W H : Int} {z : Nat} {x : Xml} {t : PS} (h : parseXml E n W H z x = .ok (some t))
    {c : Xml} (hc : SubElt x c) (hk : eltKind c = some .media) {i : String} (hi : c.prop "id" = some i) :
    ∃ o X, t.reg.getById i = some o ∧ t.reg.obj o = some X ∧
      ∀ nm, (X.getEvent .presentation nm).map (·.2) = (wholeEvent :: areasIn E x (standsFor i)).find? fun e => e.id == nm := by
  obtain ⟨ns, f, m, u, he⟩ := doc_treeP hinj ((rulesK_extra hinj _ _).and ((eventK_extra hinj _ _).and (shareK_extra hinj _ _)))
    (fun f reg hreg => ⟨rulesK_init hinj hreg, eventK_init hinj hreg, (rulesK_init hinj hreg).1.1, shareK_init f W H z reg 5⟩) h
  have hd := he.tree
  obtain ⟨⟨⟨hn, hr⟩, -⟩, hek, -, hsh⟩ := he.extra
  obtain ⟨k, mk, -, -, g1, g2, g3, -, -⟩ := hd.laid.inside hc
  have hkk : mk.kind = some .media := by rw [Note.kind_main (hd.ok k mk g1) g3, g2]; exact hk
  have hkt := (Note.kind_media hkk).1
  have hki : mk.get "id" = some i := by rw [Note.get_main (hd.ok k mk g1) g3 "id" (.inl (by rw [hkt]; decide)), g2]; exact hi
  obtain ⟨i', p, e1, e2, e3⟩ := hd.made k mk .media g1 hkk
  rw [hki] at e1; cases e1
  obtain ⟨-, -, -, -, X', ⟨-, hX'⟩, -⟩ := he.treeK.made k mk .media g1 hkk
  obtain ⟨X, ⟨-, hX⟩, -, hXk, -⟩ := id e3
  exact ⟨f k, X, e3.byId hd.world.inv, hX, pres_events he hek hX (by rw [hXk]; decide) (he.treeK.world.objAddr _ X' hX') _ (stands_note he hr hsh g1 hkk hki).1⟩


/-! ## Contexts -/

/-- Contexts keep their property events. -/
def CtxKeep (s t : PS) : Prop := ∀ o x', t.reg.obj o = some x' → x'.kind = .context → ∃ x, s.reg.obj o = some x ∧ x.kind = .context ∧
  ∀ nm, (x'.getEvent .attribution nm).map (·.2) = (x.getEvent .attribution nm).map (·.2)

theorem ctxKeep_same {s t : PS} (h : t.reg = s.reg) : CtxKeep s t := fun o x hx hk => ⟨x, by rw [← h]; exact hx, hk, fun _ => rfl⟩

theorem ctxKeep_of {s t : PS} (h : ∀ o, SameEv (· = .attribution) s.reg t.reg o) : CtxKeep s t := fun o x hx hk => by
  obtain ⟨y, h1, h2, h3⟩ := h o x hx
  exact ⟨y, h1, by rw [← h2]; exact hk, fun nm => h3 _ nm rfl⟩

theorem ctxKeep_core (E : PRead) : PCore E CtxKeep (fun _ => True) (· ≠ .attribution) where
  refl _ := ctxKeep_same rfl
  trans h h' := by
    intro o x hx hk
    obtain ⟨y, h1, h2, h3⟩ := h' o x hx hk
    obtain ⟨w, h4, h5, h6⟩ := h o y h1 h2
    exact ⟨w, h4, h5, fun nm => (h3 nm).trans (h6 nm)⟩
  event o e hV s := by
    unfold addEvent
    refine PPost.bind' (PPost.alloc (PPost.regOp fun b r h => ctxKeep_of fun q => exec_sameEv h (by simp) (by rintro _ _ _ ⟨⟩; exact hV) q))
  props _ _ _ _ _ _ := ctxKeep_same rfl
  par _ _ _ := ctxKeep_same rfl

/-- `m` is a media object. -/
def IsMediaAt (m : Nat) (s : PS) : Prop := ∃ y, s.reg.obj m = some y ∧ (y.kind = .media ∨ y.kind = .settings)

theorem ctxKeep_event {E : PRead} {m : Nat} {e : REv} {s : PS} (hm : IsMediaAt m s) : PPost (addEvent E m e) (fun _ t => CtxKeep s t ∧ IsMediaAt m t) s := by
  refine addEvent_added.mono ?_
  rintro _ t ⟨-, X, A, hX, hT⟩
  obtain ⟨y, hy, hk⟩ := hm
  rw [hX] at hy; cases hy
  obtain ⟨evs, hs⟩ := addEvent_shape X A e
  have hkd : (X.addEvent A e).kind = X.kind := by rw [hs]
  refine ⟨fun o x hx hkx => ?_, _, by rw [hT, upd_same], by rw [hkd]; exact hk⟩
  rw [hT] at hx
  by_cases ho : o = m
  · subst ho
    rw [upd_same] at hx; cases hx
    rw [hkd] at hkx; rw [hkx] at hk
    exact absurd hk (by decide)
  · rw [upd_ne _ _ ho] at hx
    exact ⟨x, hx, hkx, fun _ => rfl⟩

theorem ctxKeep_move {E : PRead} (m : Nat) : ∀ (l : List (String × String)) (s : PS), IsMediaAt m s → PPost (moveAttrs E m l) (fun _ t => CtxKeep s t ∧ IsMediaAt m t) s
  | [], s, h => PPost.pure' ⟨ctxKeep_same rfl, h⟩
  | (name, value) :: l, s, h => by
    unfold moveAttrs
    split
    · exact ctxKeep_move m l s h
    · refine PPost.bind (PPost.object fun x hx => ?_)
      split
      · exact ctxKeep_move m l s h
      · refine PPost.bind ((ctxKeep_event h).mono fun _ s1 h1 => PPost.bind ?_)
        unfold setProp
        refine PPost.bind (PPost.object fun y hy => PPost.modify ?_)
        refine (ctxKeep_move m l _ (by exact h1.2)).mono fun _ s2 h2 => ⟨(ctxKeep_core E).trans h1.1 ((ctxKeep_core E).trans (ctxKeep_same rfl) h2.1), h2.2⟩

theorem ctxKeep_media {E : PRead} (k : Nat) : PRel CtxKeep (popMediaElt E k) := by
  have hp := (ctxKeep_core E).toPPre
  intro s
  unfold popMediaElt
  refine PPost.bind (PPost.get (PPost.bind ?_))
  have rest : ∀ t, CtxKeep s t → PPost (match s.attr k "refer" with
      | none => pure ()
      | some r => do
        let rk ← PM.orErr (s.byId r ["media"])
        if (s.attr rk "refer").isSome then PM.err else pure ()) (fun _ t => CtxKeep s t) t := by
    intro t ht
    split
    · exact PPost.pure ht
    · refine PPost.bind (PPost.orErr fun rk _ => ?_)
      split
      · exact PPost.err
      · exact PPost.pure ht
  split
  · exact PPost.pure (rest s (hp.refl s))
  · refine PPost.bind (PPost.orErr fun dk _ => PPost.bind (PPost.attr! fun mid _ => PPost.bind (PPost.some! fun o ho => PPost.bind (PPost.object fun x hx => ?_))))
    split
    · next hc => exact (ctxKeep_move o _ s ⟨x, hx, hc⟩).mono fun _ t ht => rest t ht.1
    · exact PPost.abort

theorem ctxKeep_stages {E : PRead} {m : Nat} {u u1 u2 u3 u4 T : PS} (hst : Stages E m u u1 u2 u3 u4 T) : CtxKeep u T := by
  have hc := ctxKeep_core E
  have hp := hc.toPPre
  have h1 : CtxKeep u u1 := ctxKeep_same (by rw [hst.f1.state])
  have h2 : CtxKeep u1 u2 := PRel.forEach hp (fun k => ctxKeep_media k) _ _ _ _ hst.media
  have h3 : CtxKeep u2 u3 := PRel.forEach hp (fun k => PRel.popSwitchElt hc (fun _ _ => ctxKeep_same rfl) k) _ _ _ _ hst.switch
  have h4 : CtxKeep u3 u4 := PRel.forEach hp (fun k => PRel.popLinkElt hc (fun _ _ => ctxKeep_same rfl) m k ⟨by decide, by decide⟩) _ _ _ _ hst.link
  have h5 : CtxKeep u4 T := ctxKeep_same (by rw [hst.last])
  exact hp.trans h1 (hp.trans h2 (hp.trans h3 (hp.trans h4 h5)))

/-- The event of the property `nm`, if the element `c` has a property element of this name. -/
def propertyIn (c : Xml) (nm : String) : Prop := ∃ y ∈ c.children, y.tag = "property" ∧ y.prop "name" = some nm

section
variable {E : PRead} {scr : Rect} {z : Nat} {x : Xml} {T u : PS} {ns : List Note} {f : Nat → Nat} {P : (Nat → Nat) → List Note → List Nat → PS → Prop} {m : Nat}

/-- The property events that property elements give. -/
theorem attr_pick (he : Ended P E scr z x T ns f m u) {o : Nat}
    {S : Xml → Prop} (hS : ∀ (q : Nat) mq, ns[q]? = some mq → mq.tag = "body" ∨ mq.tag = "context" ∨ mq.tag = "media" → (f q = o ↔ S mq.xml))
    (hSt : ∀ c, S c → c.tag = "body" ∨ c.tag = "context" ∨ c.tag = "media") (nm : String) :
    (HasProperty x S nm → pick (ns.filterMap (adds E f o)) .attribution nm = some { typ := .attribution, id := nm }) ∧
    (¬ HasProperty x S nm → pick (ns.filterMap (adds E f o)) .attribution nm = none) := by
  have hd := he.tree
  have hmem : ∀ e ∈ ns.filterMap (adds E f o), e.typ = .attribution → e = { typ := .attribution, id := e.id } ∧ HasProperty x S e.id := by
    intro e hm ht
    obtain ⟨n, hn, hne⟩ := List.mem_filterMap.1 hm
    obtain ⟨j, hlt, hj⟩ := List.getElem_of_mem hn
    have hj : ns[j]? = some n := by rw [List.getElem?_eq_getElem hlt, hj]
    unfold adds at hne
    split at hne
    · next hpar =>
      split at hne
      · exfalso
        unfold areaEvent at hne
        split at hne
        · cases hne
        · split at hne
          · split at hne
            · cases hne
            · cases hne; cases ht
          · split at hne
            · cases hne; cases ht
            · cases hne
      · split at hne
        · next hpt =>
          obtain ⟨w, hw, rfl⟩ := Option.map_eq_some_iff.1 hne
          refine ⟨rfl, ?_⟩
          have hpre := (hd.main _ j n (Nat.lt_succ_self _) hj (by rw [hpt]; decide)).2.1
          rw [Note.get_main (hd.ok j n hj) hpre _ (.inr (by decide))] at hw
          obtain ⟨r, hr1, hr2⟩ := Option.map_eq_some_iff.1 hpar
          obtain ⟨-, mr, b1, e, b2, b3, b4⟩ := (hd.ok j n hj).parent r hr1
          rw [(table_props e b2).2 (b3.trans hpt)] at b4
          have b4 : mr.tag = "body" ∨ mr.tag = "context" ∨ mr.tag = "media" := by simpa using b4
          rcases hd.laid.back j n hj with ⟨g1, -⟩ | ⟨g1, -⟩ | ⟨p', n', g1, g2, g3, g4⟩
          · rw [hr1] at g1; cases g1
          · rw [hr1] at g1; cases g1
          · rw [hr1] at g1; cases g1
            rw [Nat.zero_add] at b1 hr2
            rw [b1] at g2; cases g2
            exact ⟨mr.xml, n.xml, (hd.main _ _ mr (Nat.lt_succ_self _) b1 (by rcases b4 with h | h | h <;> rw [h] <;> decide)).1, (hS _ mr b1 b4).1 hr2, g3, hpt, hw⟩
        · cases hne
    · cases hne
  constructor
  · intro hp
    obtain ⟨j, q, n, j1, j2, j3, j4, j5⟩ := hp.note hd hS hSt
    have hin : ({ typ := .attribution, id := nm } : REv) ∈ ns.filterMap (adds E f o) := by
      refine List.mem_filterMap.2 ⟨n, List.mem_of_getElem? j1, ?_⟩
      have hna : ¬ n.tag = "area" := by rw [j2]; decide
      unfold adds
      rw [if_pos (by rw [j3, Option.map_some, j5]), if_neg hna, if_pos j2, j4]; rfl
    unfold pick
    cases hc : (ns.filterMap (adds E f o)).find? fun e => e.typ == .attribution && e.id == nm with
    | none =>
      have := List.find?_eq_none.1 hc _ hin
      simp at this
    | some e =>
      have h5 := List.find?_some hc
      simp only [Bool.and_eq_true, beq_iff_eq] at h5
      have := (hmem e (List.mem_of_find?_eq_some hc) h5.1).1
      rw [this, h5.2]
  · intro hp
    unfold pick
    cases hc : (ns.filterMap (adds E f o)).find? fun e => e.typ == .attribution && e.id == nm with
    | none => rfl
    | some e =>
      have h5 := List.find?_some hc
      simp only [Bool.and_eq_true, beq_iff_eq] at h5
      have := (hmem e (List.mem_of_find?_eq_some hc) h5.1).2
      rw [h5.2] at this
      exact absurd this hp

/-- No area is inside a context. -/
theorem areasIn_context (he : Ended P E scr z x T ns f m u) (S : Xml → Prop) [DecidablePred S] (hS : ∀ c, S c → c.tag ≠ "media") : areasIn E x S = [] := by
  have hd := he.tree
  have key : (ns.zipIdx).filterMap (fun _ => (none : Option REv)) = (listingAll none [x]).filterMap
      fun (w : Option Xml × Xml) => if (∃ c, w.1 = some c ∧ S c) ∧ w.2.tag = "area" then areaEvent E w.2.prop else none := by
    refine hd.laid.listing ?_ rfl (fun i n hn => by rw [Nat.zero_add]; exact hn)
    intro j n hj
    dsimp only
    split
    · rw [if_neg]
      rintro ⟨⟨c, h1, h2⟩, ht⟩
      obtain ⟨p, hp, rfl⟩ := Option.map_eq_some_iff.1 h1
      obtain ⟨-, mp, g1, e, g2, g3, g4⟩ := (hd.ok j n hj).parent p hp
      have hm : mp.tag = "media" := by
        have := (table_area e g2).2 (g3.trans ht)
        rw [this] at g4; simpa using g4
      have hx : xmlAt ns p = mp.xml := by unfold xmlAt; rw [g1]
      rw [hx] at h2
      exact hS _ h2 hm
    · rfl
  unfold areasIn
  have : listingAll none [x] = x.listing none := by rw [listingAll, listingAll, List.append_nil]
  rw [← this, ← key, filterMap_none fun _ _ => rfl]

/-- The property events of a context. -/
theorem attr_events (he : Ended P E scr z x T ns f m u) (hk : EventK E f ns u) {o : Nat} {X : RObj} (hX : T.reg.obj o = some X) (hkx : X.kind = .context)
    {S : Xml → Prop} (hS : ∀ (q : Nat) mq, ns[q]? = some mq → mq.tag = "body" ∨ mq.tag = "context" ∨ mq.tag = "media" → (f q = o ↔ S mq.xml))
    (hSt : ∀ c, S c → c.tag = "body" ∨ c.tag = "context" ∨ c.tag = "media") (nm : String) :
    (HasProperty x S nm → (X.getEvent .attribution nm).map (·.2) = some { typ := .attribution, id := nm }) ∧
    (¬ HasProperty x S nm → (X.getEvent .attribution nm).map (·.2) = none) := by
  obtain ⟨u1, u2, u3, u4, hst⟩ := popNcl_stages he.run
  obtain ⟨Y, h1, h2, h3⟩ := ctxKeep_stages hst o X hX hkx
  rw [h3 nm, hk.val o Y h1 (by rw [h2]; decide), h2, pick_append]
  have hb : pick (baseEvents .context) .attribution nm = none := rfl
  rw [hb, Option.none_or]
  exact attr_pick he hS hSt nm

end

/-- The context element `c` is that of the context `i`. -/
def isContext (i : String) (c : Xml) : Prop := c.tag = "context" ∧ c.prop "id" = some i

instance (i : String) : DecidablePred (isContext i) := fun c => by unfold isContext; infer_instance

/-- **C59, contexts.** A context has one presentation event, for its whole content, and one property event for each property element in it. -/
theorem C59_context {E : PRead} (hinj : ∀ i j, E.addr i = E.addr j → i = j) {n : Nat} {W H : Int} {z : Nat} {x : Xml} {t : PS} (h : parseXml E n W H z x = .ok (some t))
    {c : Xml} (hc : SubElt x c) (hk : c.tag = "context") {i : String} (hi : c.prop "id" = some i) :
    ∃ o X, t.reg.getById i = some o ∧ t.reg.obj o = some X ∧
      (∀ nm, (X.getEvent .presentation nm).map (·.2) = if nm = "@lambda" then some wholeEvent else none) ∧
      (∀ nm, (propertyIn c nm → (X.getEvent .attribution nm).map (·.2) = some { typ := .attribution, id := nm }) ∧ (¬ propertyIn c nm → X.getEvent .attribution nm = none)) := by
  obtain ⟨ns, f, m, u, he⟩ := doc_treeP hinj ((eventK_extra hinj _ _).and (mediaK_extra hinj _ _)) (fun f reg hreg => ⟨eventK_init hinj hreg, mediaK_init f W H z reg 5⟩) h
  have hd := he.tree
  obtain ⟨hek, hmk⟩ := he.extra
  obtain ⟨k, mk, -, -, g1, g2, g3, -, -⟩ := hd.laid.inside hc
  have hkt : mk.tag = "context" := by unfold Note.tag; rw [g2]; exact hk
  have hkk : mk.kind = some .context := by unfold Note.kind; rw [hkt]; simp
  have hki : mk.get "id" = some i := by rw [Note.get_main (hd.ok k mk g1) g3 "id" (.inl (by rw [hkt]; decide)), g2]; exact hi
  obtain ⟨i', p, e1, e2, e3⟩ := hd.made k mk .context g1 hkk
  rw [hki] at e1; cases e1
  obtain ⟨-, -, -, -, X', ⟨-, hX'⟩, -⟩ := he.treeK.made k mk .context g1 hkk
  obtain ⟨X, ⟨-, hX⟩, -, hXk, -⟩ := id e3
  have hS : ∀ (q : Nat) mq, ns[q]? = some mq → mq.tag = "body" ∨ mq.tag = "context" ∨ mq.tag = "media" → (f q = f k ↔ isContext i mq.xml) := by
    intro q mq hq hqt
    rw [context_alone he hmk g1 hkk hq hqt]
    constructor
    · rintro rfl
      rw [g1] at hq; cases hq
      exact ⟨hkt, by rw [g2]; exact hi⟩
    · rintro ⟨h1, h2⟩
      have h1 : mq.tag = "context" := h1
      have hpre := (hd.main _ q mq (Nat.lt_succ_self _) hq (by rw [h1]; decide)).2.1
      exact hd.once q k mq mk i hq g1 (by rw [h1]; decide) (by rw [hkt]; decide)
        (by rw [Note.get_main (hd.ok q mq hq) hpre "id" (.inl (by rw [h1]; decide))]; exact h2) hki
  have hpi : ∀ nm, HasProperty x (isContext i) nm ↔ propertyIn c nm := by
    intro nm
    constructor
    · rintro ⟨d, y, p1, p2, p3, p4, p5⟩
      obtain ⟨q, mq, -, -, q1, q2, q3, -, -⟩ := hd.laid.inside p1
      have : f q = f k := (hS q mq q1 (.inr (.inl (by unfold Note.tag; rw [q2]; exact p2.1)))).2 (by rw [q2]; exact p2)
      have := (context_alone he hmk g1 hkk q1 (.inr (.inl (by unfold Note.tag; rw [q2]; exact p2.1)))).1 this
      subst this
      rw [g1] at q1; cases q1
      rw [g2] at q2; subst q2
      exact ⟨y, p3, p4, p5⟩
    · rintro ⟨y, p3, p4, p5⟩
      exact ⟨c, y, hc, ⟨hk, hi⟩, p3, p4, p5⟩
  refine ⟨f k, X, e3.byId hd.world.inv, hX, fun nm => ?_, fun nm => ?_⟩
  · rw [pres_events he hek hX (by rw [hXk]; decide) (he.treeK.world.objAddr _ X' hX') (isContext i) hS nm, areasIn_context he (isContext i) (fun c h => by rw [h.1]; decide)]
    by_cases hn : nm = "@lambda"
    · rw [if_pos hn, hn]; rfl
    · rw [if_neg hn]
      have : ("@lambda" == nm) = false := by rw [beq_eq_false_iff_ne]; exact fun h => hn h.symm
      simp [wholeEvent, this]
  · have := attr_events he hek hX hXk hS (fun c h => .inr (.inl h.1)) nm
    rw [hpi] at this
    refine ⟨this.1, fun hno => ?_⟩
    have := this.2 hno
    simpa using this

/-- **C59, the body.** -/
theorem C59_body {E : PRead} (hinj : ∀ i j, E.addr i = E.addr j → i = j) {n : Nat} {W H : Int} {z : Nat} {x : Xml} {t : PS} (h : parseXml E n W H z x = .ok (some t)) :
    ∃ X, t.reg.obj t.reg.root = some X ∧
      (∀ nm, (X.getEvent .presentation nm).map (·.2) = if nm = "@lambda" then some wholeEvent else none) ∧
      (∀ nm, (HasProperty x (fun c => c.tag = "body") nm → (X.getEvent .attribution nm).map (·.2) = some { typ := .attribution, id := nm }) ∧
        (¬ HasProperty x (fun c => c.tag = "body") nm → X.getEvent .attribution nm = none)) := by
  obtain ⟨ns, f, m, u, he⟩ := doc_treeP hinj ((eventK_extra hinj _ _).and (mediaK_extra hinj _ _)) (fun f reg hreg => ⟨eventK_init hinj hreg, mediaK_init f W H z reg 5⟩) h
  have hd := he.tree
  obtain ⟨hek, hmk⟩ := he.extra
  have hst := PRel.popNcl (ostep_atom hinj) (fun _ _ => ostep_same rfl rfl rfl rfl) (fun _ _ _ => ostep_same rfl rfl rfl rfl) m (fun _ => trivial) ⟨trivial, trivial, trivial⟩ u _ _ he.run
  have hroot : t.reg.root = u.reg.root := (hst.2 he.treeK.world).2.2.1
  obtain ⟨X, hX, hXk⟩ := hd.world.inv.rootKind
  obtain ⟨X', hX', -⟩ := he.treeK.world.inv.rootKind
  have hS : ∀ (q : Nat) mq, ns[q]? = some mq → mq.tag = "body" ∨ mq.tag = "context" ∨ mq.tag = "media" → (f q = t.reg.root ↔ mq.xml.tag = "body") := by
    intro q mq hq hqt
    rw [hroot]
    exact body_alone he hmk hq hqt
  refine ⟨X, hX, fun nm => ?_, fun nm => ?_⟩
  · rw [pres_events he hek hX (by rw [hXk]; decide) (by rw [hroot]; exact he.treeK.world.objAddr _ X' hX') (fun c => c.tag = "body") hS nm,
      areasIn_context he (fun c => c.tag = "body") (fun c h => by rw [h]; decide)]
    by_cases hn : nm = "@lambda"
    · rw [if_pos hn, hn]; rfl
    · rw [if_neg hn]
      have : ("@lambda" == nm) = false := by rw [beq_eq_false_iff_ne]; exact fun h => hn h.symm
      simp [wholeEvent, this]
  · have := attr_events he hek hX hXk hS (fun c h => .inl h) nm
    refine ⟨this.1, fun hno => ?_⟩
    have := this.2 hno
    simpa using this

/-- Every area of an accepted document is well formed: it has no label together with an interval, and its times can be read. -/
theorem C59_wellformed {E : PRead} (hinj : ∀ i j, E.addr i = E.addr j → i = j) {n : Nat} {W H : Int} {z : Nat} {x : Xml} {t : PS} (h : parseXml E n W H z x = .ok (some t))
    {c : Xml} (hc : SubElt x c) (hk : c.tag = "area") : (areaEvent E c.prop).isSome = true := by
  obtain ⟨ns, f, m, u, he⟩ := doc_treeP hinj (eventK_extra hinj _ _) (fun f reg hreg => eventK_init hinj hreg) h
  have hd := he.tree
  obtain ⟨k, mk, -, -, g1, g2, g3, -, -⟩ := hd.laid.inside hc
  have hkt : mk.tag = "area" := by unfold Note.tag; rw [g2]; exact hk
  have hg : mk.get = mk.xml.prop := funext fun a => Note.get_main (hd.ok k mk g1) g3 a (.inl (by rw [hkt]; decide))
  have := he.extra.ok k mk g1 hkt
  rw [hg, g2] at this
  exact this

/-! ## Each area -/

theorem Unfolds.has {E : PRead} {al : List (String × String)} {pt : Option String} {xs : List Xml} {l : List Visit} (h : Unfolds E al pt xs l) {y : Xml} (hy : y ∈ xs) :
    (∃ v ∈ l, v.elt = y) ∧ ∃ l', Unfolds E al (some y.tag) y.children l' ∧ ∀ v ∈ l', v ∈ l := by
  induction h with
  | nil => cases hy
  | cons h1 h2 h3 ih1 ih2 =>
    rcases List.mem_cons.1 hy with rfl | hy
    · exact ⟨⟨_, List.mem_cons_self, rfl⟩, _, h2, fun v hv => by simp [hv]⟩
    · obtain ⟨⟨v, hv, e⟩, l', g1, g2⟩ := ih2 hy
      exact ⟨⟨v, by simp [hv], e⟩, l', g1, fun v hv => by simp [g2 v hv]⟩
  | imp h1 h2 h3 h4 h5 h6 h7 h8 h9 h10 ih1 ih2 ih3 =>
    rcases List.mem_cons.1 hy with rfl | hy
    · exact ⟨⟨_, List.mem_cons_self, rfl⟩, _, h9, fun v hv => by simp [hv]⟩
    · obtain ⟨⟨v, hv, e⟩, l', g1, g2⟩ := ih3 hy
      exact ⟨⟨v, by simp [hv], e⟩, l', g1, fun v hv => by simp [g2 v hv]⟩

theorem Unfolds.sub {E : PRead} {x : Xml} {l : List Visit} (h : Unfolds E [] none [x] l) {y : Xml} (hy : SubElt x y) :
    (∃ v ∈ l, v.elt = y) ∧ ∃ l', Unfolds E [] (some y.tag) y.children l' ∧ ∀ v ∈ l', v ∈ l := by
  induction hy with
  | self => exact h.has (by simp)
  | child h1 h2 ih =>
    obtain ⟨-, l', g1, g2⟩ := ih
    obtain ⟨⟨v, g3, g4⟩, l2, g5, g6⟩ := g1.has h2
    exact ⟨⟨v, g2 v g3, g4⟩, l2, g5, fun v hv => g2 v (g6 v hv)⟩

/-- The identifiers of the elements of an accepted document are not empty, and made of letters, digits and `-_:.#`. -/
theorem id_valid {E : PRead} {n : Nat} {W H : Int} {z : Nat} {x : Xml} {t : PS} (h : parseXml E n W H z x = .ok (some t)) {y : Xml} (hy : SubElt x y) {i : String}
    (hi : y.prop "id" = some i) : i ≠ "" ∧ validName i = true := by
  obtain ⟨l, h1, -, -, h2⟩ := C45_accepted h
  obtain ⟨⟨v, g1, rfl⟩, -⟩ := h1.sub hy
  exact h2 v g1 i hi

/-- The identifier of the event of an area is that of the area. -/
theorem areaEvent_id {E : PRead} {a : String → Option String} {e : REv} (h : areaEvent E a = some e) : a "id" = some e.id := by
  unfold areaEvent at h
  split at h
  · cases h
  · next hid =>
    split at h
    · split at h
      · cases h
      · cases h; exact hid
    · split at h
      · cases h; exact hid
      · cases h

/-- **C59, areas.** Each area of a media element has its own event in the object that the element stands for: that of the element itself, or of the one it refers to. The
event has the label or the interval of the area. -/
theorem C59_area {E : PRead} (hinj : ∀ i j, E.addr i = E.addr j → i = j) {n : Nat} {W H : Int} {z : Nat} {x : Xml} {t : PS} (h : parseXml E n W H z x = .ok (some t))
    {c : Xml} (hc : SubElt x c) (hk : eltKind c = some .media) {i : String} (hi : c.prop "id" = some i) {d y : Xml} (hd : SubElt x d) (hst : standsFor i d) (hy : y ∈ d.children)
    (ht : y.tag = "area") {nm : String} (hnm : y.prop "id" = some nm) :
    ∃ o X, t.reg.getById i = some o ∧ t.reg.obj o = some X ∧ (X.getEvent .presentation nm).map (·.2) = areaEvent E y.prop := by
  obtain ⟨o, X, h1, h2, h3⟩ := C59_media hinj h hc hk hi
  refine ⟨o, X, h1, h2, ?_⟩
  rw [h3 nm]
  have hsub : SubElt x y := .child hd hy
  have hlam : ("@lambda" == nm) = false := by
    rw [beq_eq_false_iff_ne]
    rintro rfl
    exact absurd (id_valid h hsub hnm).2 (by decide +kernel)
  rw [List.find?_cons]
  simp only [wholeEvent, hlam]
  have hin : (some d, y) ∈ x.listing none := by
    obtain ⟨p, hp⟩ := hd.listed
    refine hp _ ?_
    rw [Xml.listing_eq, List.mem_cons]
    refine .inr (mem_listingAll hy ?_)
    rw [Xml.listing_eq]; exact List.mem_cons_self
  cases hev : areaEvent E y.prop with
  | none =>
    have := C59_wellformed hinj h hsub ht
    rw [hev] at this; cases this
  | some e =>
    have heid : e.id = nm := by
      have := areaEvent_id hev
      rw [hnm] at this; exact (Option.some.inj this).symm
    have hmem : e ∈ areasIn E x (standsFor i) := by
      unfold areasIn
      refine List.mem_filterMap.2 ⟨(some d, y), hin, ?_⟩
      rw [if_pos ⟨⟨d, rfl, hst⟩, ht⟩, hev]
    cases hf : (areasIn E x (standsFor i)).find? fun e => e.id == nm with
    | none =>
      have := List.find?_eq_none.1 hf e hmem
      simp [heid] at this
    | some e' =>
      have hid' : e'.id = nm := by simpa using List.find?_some hf
      have hm' := List.mem_of_find?_eq_some hf
      unfold areasIn at hm'
      obtain ⟨⟨q, y'⟩, hl, he'⟩ := List.mem_filterMap.1 hm'
      dsimp only at he'
      split at he'
      · next hcnd =>
        obtain ⟨⟨d', rfl, -⟩, ht'⟩ := hcnd
        obtain ⟨hs1, hs2⟩ := listing_sub hl
        have hprop' : y'.prop "id" = some nm := by rw [areaEvent_id he', hid']
        obtain ⟨ns, f, m, u, he⟩ := doc_treeP hinj (eventK_extra hinj _ _) (fun f reg hreg => eventK_init hinj hreg) h
        have hd0 := he.tree
        obtain ⟨k, mk, -, -, g1, g2, g3, -, -⟩ := hd0.laid.inside hsub
        obtain ⟨k', mk', -, -, g1', g2', g3', -, -⟩ := hd0.laid.inside (SubElt.child hs1 hs2)
        have hkt : mk.tag = "area" := by unfold Note.tag; rw [g2]; exact ht
        have hkt' : mk'.tag = "area" := by unfold Note.tag; rw [g2']; exact ht'
        have : k = k' := hd0.once k k' mk mk' nm g1 g1' (by rw [hkt]; decide) (by rw [hkt']; decide)
          (by rw [Note.get_main (hd0.ok k mk g1) g3 _ (.inl (by rw [hkt]; decide)), g2]; exact hnm)
          (by rw [Note.get_main (hd0.ok k' mk' g1') g3' _ (.inl (by rw [hkt']; decide)), g2']; exact hprop')
        subst this
        rw [g1] at g1'; cases g1'
        rw [g2] at g2'; subst g2'
        rw [hev] at he'; cases he'; rfl
      · cases he'

/-! ## A document that meets the hypotheses -/

/-- A media with a label area and an interval, a reference to it with another area, and properties in a context and the body. -/
def docAreas : Xml := .elem "ncl" [] [
  .elem "body" [] [
    .elem "property" [("name", "p"), ("value", "1")] [],
    .elem "context" [("id", "c")] [
      .elem "property" [("name", "q")] [],
      .elem "media" [("id", "m"), ("src", "a.mp4")] [
        .elem "area" [("id", "a1"), ("label", "intro")] [],
        .elem "area" [("id", "a2"), ("begin", "5s"), ("end", "9s")] []],
      .elem "media" [("id", "n"), ("refer", "m")] [.elem "area" [("id", "a3"), ("end", "7s")] []]]]]

/-- The event of a type and identifier of the object `i`. -/
def eventAt (t : PS) (i : String) (typ : EType) (nm : String) : Option REv := (t.reg.getById i).bind fun o => (t.reg.obj o).bind fun X => (X.getEvent typ nm).map (·.2)

/-- The hypotheses are met, and the events are these. -/
example : parsedAnd (parseXml pread0 30 800 600 0 docAreas) (fun t =>
    eventAt t "m" .presentation "a1" == some { typ := .presentation, id := "a1", label := "intro" } &&
    eventAt t "m" .presentation "a2" == some { typ := .presentation, id := "a2", beg := 5000000000, fin := 9000000000 } &&
    eventAt t "m" .presentation "a3" == some { typ := .presentation, id := "a3", fin := 7000000000 } &&
    eventAt t "m" .presentation "@lambda" == some wholeEvent &&
    eventAt t "m" .presentation "a4" == none &&
    eventAt t "c" .attribution "q" == some { typ := .attribution, id := "q" } &&
    eventAt t "c" .attribution "p" == none) = true := by decide +kernel

example : (areasIn pread0 docAreas (standsFor "m")).map (·.id) = ["a1", "a2", "a3"] := by decide +kernel

end Ginga
