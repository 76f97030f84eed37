import Verif.Props.C61
import Verif.Props.C72
import Verif.Props.C73
import Verif.Proofs.BindNamed
/-!
# C78: what an accepted document names exists

In an accepted document each reference names something of its kind: the connector and the components of a link, the component of a port or mapping, the rule and the constituent of
a bind rule, what a media element refers to and its descriptor, the region and the transitions of a descriptor.
-/
namespace Ginga

/-! ## Specification -/

/-- `a` names a descriptor: by the identifier of an element, or (in a document that has a parameter of descriptor called `id`) by the value of that parameter. -/
def NamesDescriptor (E : PRead) (x : Xml) (a : String) : Prop :=
  ∃ d, d.tag = "descriptor" ∧ (Named E x a d ∨ (∃ al pt xs, Reached E x al pt xs ∧ d ∈ xs) ∧ paramOf d "id" = some a)

/-- `a` names an element of the document, or of a document that it imports, with the tag `tag`. -/
def NamesTag (E : PRead) (x : Xml) (tag a : String) : Prop := ∃ d, d.tag = tag ∧ Named E x a d

/-! ## Descriptors -/

theorem popDesc_names {E : PRead} {k : Nat} {s : PS} (hs : AllSorted s) (ht : (s.elt k).tag = "descriptor")
    (hreg : ∀ rk, rk ∈ s.cache → ∀ nm, (s.elt rk).tag = "region" → nm = "transIn" ∨ nm = "transOut" → s.attr rk nm = none) :
    PPost (popDesc E k) (fun _ _ => (∀ r, s.attr k "region" = some r → ∃ rk, s.byId r ["region"] = some rk) ∧
      ∀ nm, nm = "transIn" ∨ nm = "transOut" → ∀ r, s.attr k nm = some r → ∃ tk, s.byId r ["transition"] = some tk) s := by
  have hrt : ∀ i nm, nm = "transIn" ∨ nm = "transOut" → s.regionVal i nm = none := by
    intro i nm hn
    unfold PS.regionVal
    split
    · rfl
    · cases i with
      | none => rfl
      | some r =>
        rw [Option.bind_some]
        cases h : s.byId r ["region"] with
        | none => rfl
        | some rk => exact hreg rk (PS.byId_some h).1 nm (by simpa using (PS.byId_some h).2.1) hn
  have h1 : PPost (descRegion k) (fun _ _ => ∀ r, s.attr k "region" = some r → ∃ rk, s.byId r ["region"] = some rk) s := by
    unfold descRegion
    refine PPost.bind (PPost.get ?_)
    cases hr : s.attr k "region" with
    | none => exact PPost.pure fun r h => by cases h
    | some r =>
      refine PPost.bind (PPost.orErr fun rk hrk => ?_)
      exact fun _ _ _ r' h' => by cases h'; exact ⟨rk, hrk⟩
  have h2 : ∀ (nm : String) (t : PS), PPost (descTrans E k nm) (fun _ _ => ∀ r, t.attr k nm = some r → ∃ tk, t.byId r ["transition"] = some tk) t := by
    intro nm t
    unfold descTrans
    refine PPost.bind (PPost.get ?_)
    cases hr : t.attr k nm with
    | none => exact PPost.pure fun r h => by cases h
    | some r =>
      refine PPost.bind (PPost.orErr fun tk htk => ?_)
      exact fun _ _ _ r' h' => by cases h'; exact ⟨tk, htk⟩
  unfold popDesc
  refine PPost.bind (PPost.attr! fun _ _ => PPost.bind ((h1.and (descRegion_attrs hs)).mono ?_))
  rintro _ _ ⟨g1, B1, rfl, e1⟩
  refine PPost.bind (((h2 "transIn" _).and descTrans_attrs).mono ?_)
  rintro _ _ ⟨g2, B2, rfl, e2⟩
  refine (h2 "transOut" _).mono ?_
  intro _ _ g3
  rw [s.withAttrs_twice] at g3
  simp only [s.withAttrs_attr, s.withAttrs_byId k _ _ (l := ["transition"]) (by rw [ht]; decide)] at g2 g3 e2
  refine ⟨g1, fun nm hn r hr => ?_⟩
  rcases hn with rfl | rfl
  · refine g2 r ?_
    rw [e1, hrt _ _ (.inl rfl), Option.none_or]; exact hr
  · refine g3 r ?_
    rw [e2, if_neg (by decide), e1, hrt _ _ (.inr rfl), Option.none_or]; exact hr

section
variable {E : PRead} {scr : Rect} {z : Nat} {x : Xml} {T u : PS} {ns : List Note} {f : Nat → Nat} {P : (Nat → Nat) → List Note → List Nat → PS → Prop} {m : Nat}

/-- The number that an identifier is found under is that of an element with the identifier. -/
theorem byId_named (he : Ended P E scr z x T ns f m u) {i tag : String} {k : Nat} (ht : tag = "region" ∨ tag = "transition") (h : u.byId i [tag] = some k) : NamesTag E x tag i := by
  obtain ⟨c1, c2, c3⟩ := PS.byId_some h
  have hlt := he.kc.lt k c1
  have hk : ns[k]? = some ns[k] := List.getElem?_eq_getElem hlt
  generalize ns[k] = mk at hk
  have hkt : mk.tag = tag := by rw [← (he.j.tag hk).1]; simpa using c2
  have hid : mk.get "id" = some i := by
    rw [← c3]
    by_cases hr : mk.tag = "region"
    · exact (region_attrs he hk hr (by decide)).symm
    · unfold PS.attr
      rw [he.j.attrs hk hr (by rw [hkt]; rcases ht with rfl | rfl <;> decide)]; rfl
  exact ⟨mk.xml, hkt, he.tree.named hk (by rw [hkt]; rcases ht with rfl | rfl <;> decide) hid⟩

theorem desc_refs (he : Ended P E scr z x T ns f m u) (hdk : DescK E u) {k : Nat} {nk : Note} (hk : ns[k]? = some nk) (hkt : nk.tag = "descriptor") :
    (∀ r, (paramOf nk.xml "region").or (nk.get "region") = some r → NamesTag E x "region" r) ∧
    ∀ nm, nm = "transIn" ∨ nm = "transOut" → ∀ r, (paramOf nk.xml nm).or (nk.get nm) = some r → NamesTag E x "transition" r := by
  obtain ⟨u1, u2, u3, u4, hst⟩ := popNcl_stages he.run
  have hby := byTag_notes he.j he.kc (tag := "descriptor") (by decide) (by decide +kernel)
  have hreg : ∀ rk, rk ∈ u.cache → ∀ nm, (u.elt rk).tag = "region" → nm = "transIn" ∨ nm = "transOut" → u.attr rk nm = none := by
    intro rk hc nm hr hn
    have hlt := he.kc.lt rk hc
    have hk : ns[rk]? = some ns[rk] := List.getElem?_eq_getElem hlt
    have hkt : (ns[rk]).tag = "region" := by rw [← (he.j.tag hk).1]; exact hr
    rw [region_attrs he hk hkt (nm := nm) (by rcases hn with rfl | rfl <;> decide)]
    obtain ⟨e, hs, hat⟩ := (he.j.ok rk _ hk).syn
    obtain ⟨a1, a2⟩ := syntaxOf_mem hs
    have htab : ∀ e ∈ syntaxTable, e.tag = "region" → "transIn" ∉ e.attrs.map Prod.fst ∧ "transOut" ∉ e.attrs.map Prod.fst := by decide +kernel
    obtain ⟨t1, t2⟩ := htab e a1 (a2.trans hkt)
    rcases hn with rfl | rfl
    · exact hat.other _ t1
    · exact hat.other _ t2
  have htag : ∀ j ∈ u.byTag "descriptor", (u.elt j).tag = "descriptor" := fun k hk => by
    unfold PS.byTag at hk
    simpa using (List.mem_filter.1 hk).2
  have hmem := (hby.2 k).2 ⟨nk, hk, hkt⟩
  obtain ⟨l1, l2, s1, s2, e, h1, h2, -⟩ := forEach_split hmem hst.desc
  have hpre : ∀ l, PPre (DescOnly l) := fun l => ⟨DescOnly.refl l, fun h h' => h.trans h'⟩
  have d1 : DescOnly l1 u s1 := PRel.forEachMem (hpre l1) _ (fun k hk => popDesc_only hk) _ _ _ h1
  have hn : k ∉ l1 := by
    have hl := hby.1
    rw [e] at hl
    obtain ⟨-, g2, g3⟩ := List.nodup_append.1 hl
    exact fun hm => g3 k hm k List.mem_cons_self rfl
  have hs1 : AllSorted s1 := PRel.forEach ⟨fun _ => id, fun h h' w => h' (h w)⟩ (R := KeepSorted) (fun k => PRel.popDesc (keepSorted_atomic.atom E) k) _ _ _ _ h1 hdk.sorted
  have hother : ∀ j, (u.elt j).tag ≠ "descriptor" → s1.elt j = u.elt j := fun j hj => d1.other j fun hm => hj (htag j (by rw [e]; simp [hm]))
  have htags : ∀ j, (s1.elt j).tag = (u.elt j).tag := fun j => by rw [d1.elt j]
  have hbyId : ∀ i tg, tg ≠ "descriptor" → s1.byId i [tg] = u.byId i [tg] := by
    intro i tg htg
    refine PS.byId_congr (by rw [d1.state]) i fun j => ⟨htags j, fun hm => ?_⟩
    rw [hother j (by rw [List.mem_singleton.1 hm]; exact htg)]
  have hat : ∀ a, s1.attr k a = u.attr k a := fun a => by unfold PS.attr; rw [d1.other k hn]
  obtain ⟨q1, q2⟩ := popDesc_names (E := E) hs1 (by rw [htags]; exact htag k hmem)
    (fun rk hc nm hr hn => by
      rw [htags] at hr
      rw [show s1.cache = u.cache by rw [d1.state]] at hc
      unfold PS.attr; rw [hother rk (by rw [hr]; decide)]; exact hreg rk hc nm hr hn) _ _ h2
  constructor
  · intro r hr
    obtain ⟨rk, hrk⟩ := q1 r (by rw [hat, descr_own he hk hkt]; exact hr)
    rw [hbyId _ _ (by decide)] at hrk
    exact byId_named he (.inl rfl) hrk
  · intro nm hnm r hr
    obtain ⟨rk, hrk⟩ := q2 nm hnm r (by rw [hat, descr_own he hk hkt]; exact hr)
    rw [hbyId _ _ (by decide)] at hrk
    exact byId_named he (.inr rfl) hrk

/-! ## Media elements -/

theorem popMediaElt_descriptor (E : PRead) (k : Nat) (i : String) (s : PS) (hi : s.attr k "descriptor" = some i) :
    PPost (popMediaElt E k) (fun _ _ => ∃ dk, s.byId i ["descriptor"] = some dk) s := by
  unfold popMediaElt
  refine PPost.bind (PPost.get ?_)
  rw [hi]
  refine PPost.bind (PPost.bind (PPost.orErr fun dk hdk => ?_))
  exact fun _ _ _ => fun _ _ _ => ⟨dk, hdk⟩

theorem media_descriptor (he : Ended P E scr z x T ns f m u) (hdk : DescK E u) {k : Nat} {nk : Note} (hk : ns[k]? = some nk) (hkt : nk.tag = "media") {i : String}
    (hi : nk.get "descriptor" = some i) : NamesDescriptor E x i := by
  obtain ⟨u1, u2, u3, u4, hst⟩ := popNcl_stages he.run
  have hne : ∀ j w, ns[j]? = some w → w.tag ≠ "descriptor" → u1.elt j = u.elt j := by
    intro j w hj hw
    refine hst.f1.other j fun hm => hw ?_
    unfold PS.byTag at hm
    rw [← (he.j.tag hj).1]; simpa using (List.mem_filter.1 hm).2
  have hmem : k ∈ u.byTag "media" := ((byTag_notes he.j he.kc (tag := "media") (by decide) (by decide +kernel)).2 k).2 ⟨nk, hk, hkt⟩
  obtain ⟨l1, l2, s1, s2, -, e2, e3, -⟩ := forEach_split hmem hst.media
  have hs1 : Fixed u1 s1 := PRel.forEach (fixed_base.core E).toPPre (fun k => PRel.popMediaElt (fixed_base.core E) k) _ _ _ _ e2
  have hat : s1.attr k "descriptor" = some i := by
    unfold PS.attr
    rw [hs1.elt, hne k nk hk (by rw [hkt]; decide), he.j.attrs hk (by rw [hkt]; decide) (by rw [hkt]; decide)]; exact hi
  obtain ⟨dk, hdk'⟩ := popMediaElt_descriptor E k i s1 hat _ _ e3
  obtain ⟨c1, c2, c3⟩ := PS.byId_some hdk'
  rw [show s1.cache = u.cache by rw [hs1.cache, hst.f1.state]] at c1
  have hlt := he.kc.lt dk c1
  have hd : ns[dk]? = some ns[dk] := List.getElem?_eq_getElem hlt
  generalize ns[dk] = md at hd
  have hdt : md.tag = "descriptor" := by
    have : (s1.elt dk).tag = md.tag := by rw [hs1.elt, hst.f1.elt dk]; exact (he.j.tag hd).1
    rw [← this]; simpa using c2
  have hT : T.attr dk "id" = some i := by
    rw [← c3]
    unfold PS.attr
    rw [hst.elt, hs1.elt]
  rw [desc_end he hdk hd hdt, if_neg (by decide), show T.regionVal ((paramOf md.xml "region").or (md.get "region")) "id" = none by unfold PS.regionVal; rw [if_pos rfl],
    Option.none_or] at hT
  refine ⟨md.xml, hdt, ?_⟩
  cases hp : paramOf md.xml "id" with
  | some a =>
    rw [hp] at hT
    obtain ⟨al, pt, ys, r1, r2, -⟩ := he.tree.laid.reached .root md (List.mem_of_getElem? hd)
    exact .inr ⟨⟨al, pt, ys, r1, r2⟩, hT⟩
  | none =>
    rw [hp, Option.none_or] at hT
    exact .inl (he.tree.named hd (by rw [hdt]; decide) hT)

end

/-! ## Documents -/

section
variable {E : PRead} (hinj : ∀ i j, E.addr i = E.addr j → i = j) {n : Nat} {W H : Int} {z : Nat} {x : Xml} {t : PS} (h : parseXml E n W H z x = .ok (some t))
include hinj h

/-- A media element: what it refers to is a media element that refers to nothing, and its descriptor is there. -/
theorem C78_media {c : Xml} (hc : SubElt x c) (ht : c.tag = "media") :
    (∀ r, c.prop "refer" = some r → ∃ d, SubElt x d ∧ d.tag = "media" ∧ d.prop "id" = some r ∧ d.prop "refer" = none) ∧
    ∀ i, c.prop "descriptor" = some i → NamesDescriptor E x i := by
  obtain ⟨ns, f, m, u, he⟩ := doc_treeP hinj (descK_extra hinj _ _) (fun f reg hreg => descK_init hinj W H z hreg) h
  have hd := he.tree
  obtain ⟨k, nk, -, -, g1, g2, g3, -, -⟩ := hd.laid.inside hc
  have hkt : nk.tag = "media" := by unfold Note.tag; rw [g2]; exact ht
  have hg : ∀ a, nk.get a = c.prop a := fun a => by rw [Note.get_main (hd.ok k nk g1) g3 a (.inl (by rw [hkt]; decide)), g2]
  refine ⟨fun r hr => ?_, fun i hi => media_descriptor he he.extra g1 hkt (by rw [hg]; exact hi)⟩
  obtain ⟨j, nj, e1, e2, e3, e4⟩ := refers_end he g1 hkt (by rw [hg]; exact hr)
  obtain ⟨m1, m2, -⟩ := hd.main _ j nj (Nat.lt_succ_self _) e1 (by rw [e2]; decide)
  have hgj : ∀ a, nj.get a = nj.xml.prop a := fun a => Note.get_main (hd.ok j nj e1) m2 a (.inl (by rw [e2]; decide))
  exact ⟨nj.xml, m1, e2, by rw [← hgj]; exact e3, by rw [← hgj]; exact e4⟩

/-- A descriptor: its region and its transitions are there. (The value of each is that of the last parameter with the name, or of the attribute.) -/
theorem C78_descriptor {d : Xml} (hd : SubElt x d) (ht : d.tag = "descriptor") :
    (∀ r, ownAttr d "region" = some r → NamesTag E x "region" r) ∧
    ∀ nm, nm = "transIn" ∨ nm = "transOut" → ∀ r, ownAttr d nm = some r → NamesTag E x "transition" r := by
  obtain ⟨ns, f, m, u, he⟩ := doc_treeP hinj (descK_extra hinj _ _) (fun f reg hreg => descK_init hinj W H z hreg) h
  have hD := he.tree
  obtain ⟨k, mk, -, -, g1, g2, g3, -, -⟩ := hD.laid.inside hd
  have hkt : mk.tag = "descriptor" := by unfold Note.tag; rw [g2]; exact ht
  have hg : ∀ a, mk.get a = d.prop a := fun a => by rw [Note.get_main (hD.ok k mk g1) g3 a (.inl (by rw [hkt]; decide)), g2]
  have := desc_refs he he.extra g1 hkt
  rw [g2] at this
  simp only [hg] at this
  exact this

/-- A descriptor of the document or of any imported one: its region (under the aliases, when it is given by the attribute) and its transitions (as they are written: without the
aliases) are there. -/
theorem C78_descriptor_imported {al : List (String × String)} {pt : Option String} {xs : List Xml} (hr : Reached E x al pt xs) {d : Xml} (hd : d ∈ xs) (ht : d.tag = "descriptor") :
    (∀ r, ownIn al d "region" = some r → NamesTag E x "region" r) ∧
    ∀ nm, nm = "transIn" ∨ nm = "transOut" → ∀ r, ownIn al d nm = some r → NamesTag E x "transition" r := by
  obtain ⟨ns, f, m, u, he⟩ := doc_treeP hinj (descK_extra hinj _ _) (fun f reg hreg => descK_init hinj W H z hreg) h
  have hD := he.tree
  obtain ⟨k, mk, g1, g2, g3⟩ := hD.note_of hr hd
  have hkt : mk.tag = "descriptor" := by unfold Note.tag; rw [g2]; exact ht
  have hg := fun a => Note.get_any (hD.ok k mk g1) (.inr hkt) a
  rw [g2, g3] at hg
  obtain ⟨q1, q2⟩ := desc_refs he he.extra g1 hkt
  rw [g2] at q1 q2
  refine ⟨fun r h => q1 r ?_, fun nm hn r h => q2 nm hn r ?_⟩
  · rw [hg, if_pos (.inr rfl)]; exact h
  · rw [hg, if_neg (by rcases hn with rfl | rfl <;> decide)]
    unfold ownIn at h
    rw [if_neg (by rcases hn with rfl | rfl <;> decide)] at h
    exact h

/-- A link: its connector is there, and so is the component of each of its binds. -/
theorem C78_link {c : Xml} (hc : SubElt x c) (ht : c.tag = "link") : (∃ i, c.prop "xconnector" = some i ∧ NamesTag E x "causalConnector" i) ∧
    ∀ b ∈ c.children, b.tag = "bind" → ∃ a, b.prop "component" = some a ∧ HasName x a := by
  obtain ⟨ns, f, m, u, he⟩ := doc_treeP hinj ((shBase_extra hinj _ _).and ((linkK_extra E _ _).and (stmtK_rides E _ _).extra))
    (fun f reg hreg => ⟨shBase_init hinj hreg, linkK_init f W H z reg 5, fun j n hj => by simp at hj⟩) h
  have hd := he.tree
  obtain ⟨k, mk, -, -, g1, g2, g3, -, -⟩ := hd.laid.inside hc
  have hkt : mk.tag = "link" := by unfold Note.tag; rw [g2]; exact ht
  constructor
  · obtain ⟨u1, u2, u3, u4, hst⟩ := popNcl_stages he.run
    obtain ⟨h3, -⟩ := stages_end hinj he he.extra.1.1.1 he.extra.1.2.1.2 (clear_end hinj he he.extra.1.2.2.2).1 hst
    have hkb : k ∈ u.byTag "link" := ((byTag_notes he.j he.kc (tag := "link") (by decide) (by decide +kernel)).2 k).2 ⟨mk, g1, hkt⟩
    obtain ⟨l1, l2, s1, s2, e1, e2, e3, e4⟩ := forEach_split hkb hst.link
    have hs : Skel u3 s1 := PRel.forEach (step_pre _) (fun k => PRel.popLinkElt (skel_core E) (fun _ _ => step_same rfl rfl) m k ⟨trivial, trivial⟩) _ _ _ _ e2
    have hf : Fixed u3 s1 := PRel.forEach (fixed_base.core E).toPPre (fun k => PRel.popLinkElt (fixed_base.core E) (fun _ _ => ⟨rfl, rfl, rfl, rfl, rfl⟩) m k ⟨trivial, trivial⟩) _ _ _ _ e2
    obtain ⟨mq, q, a1, a2, a3⟩ := link_parent hd g1 hkt
    obtain ⟨π, hpi⟩ := he.pi
    obtain ⟨-, L, -, hL⟩ := link_spec (h3.step hs hf) hpi (he.extra.2.2.full hd) he.extra.2.1 g1 hkt a1 a2 a3 m _ _ e3
    obtain ⟨name, kx, -, -, b1, b2, b3, -⟩ := hL s2 ((step_pre _).refl _)
    rw [g2] at b1
    exact ⟨name, b1, kx, b3, b2⟩
  · intro b hb hbt
    have hx := bindNotes_xml hd g1
    rw [g2] at hx
    have hm : b ∈ bindsOf c := List.mem_filter.2 ⟨hb, by simpa using hbt⟩
    rw [hx] at hm
    obtain ⟨w, hw, rfl⟩ := List.mem_map.1 hm
    obtain ⟨a, h1, h2⟩ := binds_comp hinj he he.extra.1 he.extra.2.1 g1 hkt w hw
    obtain ⟨hw1, hw2⟩ := List.mem_filter.1 hw
    exact ⟨a, by rw [← body_get hd (kid_main hd hw1).1 (by rw [show w.2.tag = "bind" from hbt]; decide) (by decide)]; exact h1, named_end he h2⟩

/-- A bind rule: its rule is there, and so is its constituent; and so is a default component. -/
theorem C78_rule {c : Xml} (hc : SubElt x c) (ht : c.tag = "switch") : ∀ y ∈ c.children,
    (y.tag = "bindRule" → (∃ i, y.prop "rule" = some i ∧ (NamesTag E x "rule" i ∨ NamesTag E x "compositeRule" i)) ∧ ∀ a, y.prop "constituent" = some a → HasName x a) ∧
    (y.tag = "defaultComponent" → ∀ a, y.prop "component" = some a → HasName x a) := by
  intro y hy
  obtain ⟨i, o, -, -, hE⟩ := C44_switch hinj h hc ht
  constructor
  · intro hyt
    obtain ⟨q, -, hq⟩ := hE.mem_left (a := y) (List.mem_append.2 (.inl (List.mem_filter.2 ⟨hy, by simpa using hyt⟩)))
    obtain ⟨name, r, b1, b2, b3, -⟩ := hq.rule hyt
    have := hq.named
    rw [if_pos hyt] at this
    exact ⟨⟨name, b1, b3.imp (fun g => ⟨r, g, b2⟩) (fun g => ⟨r, g, b2⟩)⟩, this⟩
  · intro hyt
    obtain ⟨q, -, hq⟩ := hE.mem_left (a := y) (List.mem_append.2 (.inr (List.mem_filter.2 ⟨hy, by simpa using hyt⟩)))
    have := hq.named
    rw [if_neg (by rw [hyt]; decide)] at this
    exact this

/-- A port of a context or of a body, or a mapping of a switch: its component is there. -/
theorem C78_port {c : Xml} (hc : SubElt x c) :
    (c.tag = "context" ∨ c.tag = "body" → ∀ p ∈ c.children, p.tag = "port" → ∀ a, p.prop "component" = some a → HasName x a) ∧
    (c.tag = "switch" → ∀ p ∈ c.children, p.tag = "switchPort" → ∀ q ∈ p.children, q.tag = "mapping" → ∀ a, q.prop "component" = some a → HasName x a) := by
  have key : ∀ {l : List Xml} {L : List Nat} {tg : String}, PortsTo x t.reg c (l.filter fun y => y.tag == tg) L → ∀ p ∈ l, p.tag = tg → ∀ a, p.prop "component" = some a → HasName x a := by
    intro l L tg hP p hp hpt
    obtain ⟨e, -, hq⟩ := Each.mem_left hP (a := p) (List.mem_filter.2 ⟨hp, by simpa using hpt⟩)
    exact hq.2
  refine ⟨fun hcc p hp hpt => ?_, fun hcs p hp hpt q hq hqt => ?_⟩
  · rcases hcc with hcc | hcb
    · obtain ⟨i, o, L, -, -, hL, -⟩ := C72_context hinj h c hc hcc
      exact key hL p hp hpt
    · obtain ⟨LL, hLL, -⟩ := C72_bodies hinj h
      obtain ⟨L, -, hL⟩ := Each.mem_left hLL (a := c) (List.mem_filter.2 ⟨body_child hinj h hc hcb, by simpa using hcb⟩)
      exact key hL p hp hpt
  · obtain ⟨i, o, -, -, hP, -⟩ := C72_switch hinj h c hc hcs
    obtain ⟨a, L, -, -, hL⟩ := hP p hp hpt
    exact key hL q hq hqt

end

/-! ## The hypotheses are met -/

/-- A document with a reference of each kind. -/
def docRefs (comp rule refer desc region trans conn : String) : Xml := .elem "ncl" [] [
  .elem "head" [] [
    .elem "regionBase" [] [.elem "region" [("id", "rg")] []],
    .elem "transitionBase" [] [.elem "transition" [("id", "tr"), ("type", "fade")] []],
    .elem "ruleBase" [] [.elem "rule" [("id", "ru"), ("var", "user.age"), ("comparator", "gt"), ("value", "17")] []],
    .elem "descriptorBase" [] [.elem "descriptor" [("id", "de"), ("region", region), ("transIn", trans)] []],
    .elem "connectorBase" [] [.elem "causalConnector" [("id", "co")] [.elem "simpleCondition" [("role", "onBegin")] [], .elem "simpleAction" [("role", "start")] []]]],
  .elem "body" [] [
    .elem "port" [("id", "p"), ("component", "m")] [],
    .elem "media" [("id", "m"), ("descriptor", desc)] [],
    .elem "context" [("id", "c")] [.elem "port" [("id", "q"), ("component", "w")] [], .elem "media" [("id", "w"), ("refer", refer)] []],
    .elem "switch" [("id", "s")] [.elem "bindRule" [("constituent", "a"), ("rule", rule)] [], .elem "media" [("id", "a")] []],
    .elem "link" [("xconnector", conn)] [.elem "bind" [("role", "onBegin"), ("component", "m")] [], .elem "bind" [("role", "start"), ("component", comp)] []]]]

/-- It is accepted; with a reference to something that is not there, or not of that kind, it is not. -/
example : verdict (parseXml pread0 20 800 600 0 (docRefs "c" "ru" "m" "de" "rg" "tr" "co")) = .accepted := by decide +kernel
example : verdict (parseXml pread0 20 800 600 0 (docRefs "none" "ru" "m" "de" "rg" "tr" "co")) = .rejected := by decide +kernel
example : verdict (parseXml pread0 20 800 600 0 (docRefs "c" "m" "m" "de" "rg" "tr" "co")) = .rejected := by decide +kernel
example : verdict (parseXml pread0 20 800 600 0 (docRefs "c" "ru" "c" "de" "rg" "tr" "co")) = .rejected := by decide +kernel
example : verdict (parseXml pread0 20 800 600 0 (docRefs "c" "ru" "m" "rg" "rg" "tr" "co")) = .rejected := by decide +kernel
example : verdict (parseXml pread0 20 800 600 0 (docRefs "c" "ru" "m" "de" "tr" "tr" "co")) = .rejected := by decide +kernel
example : verdict (parseXml pread0 20 800 600 0 (docRefs "c" "ru" "m" "de" "rg" "rg" "co")) = .rejected := by decide +kernel
example : verdict (parseXml pread0 20 800 600 0 (docRefs "c" "ru" "m" "de" "rg" "tr" "ru")) = .rejected := by decide +kernel

/-! ## Failures -/

/-- An imported descriptor names its region in the document it is in, but a transition only in those of the document that imports it: with its own transition the import is rejected,
with one of the same name in the importing document it is accepted. -/
theorem C78_fails_import :
    verdict (parseXml (pread2 []) 20 800 600 0 (docDeco [])) = .accepted ∧
    verdict (parseXml (pread2 [("transIn", "f")]) 20 800 600 0 (docDeco [])) = .rejected ∧
    verdict (parseXml (pread2 [("transIn", "f")]) 20 800 600 0 (docDeco [.elem "transitionBase" [] [.elem "transition" [("id", "f"), ("type", "barWipe")] []]])) = .accepted :=
  ⟨by decide +kernel, by decide +kernel, by decide +kernel⟩

/-- Whether no element with the tag `tag` has a child or itself the identifier `a`. -/
def outOfScope (tag a : String) (x : Xml) : Bool := (x.listing none).all fun w => !(w.2.tag == tag) || (w.2.prop "id" != some a && w.2.children.all fun d => d.prop "id" != some a)

theorem outOfScope_iff {tag a : String} {x : Xml} (h : outOfScope tag a x = true) {b : Xml} (hb : SubElt x b) (ht : b.tag = tag) : b.prop "id" ≠ some a ∧ ∀ d ∈ b.children, d.prop "id" ≠ some a := by
  refine sub_listed hb (P := fun b => b.tag = tag → b.prop "id" ≠ some a ∧ ∀ d ∈ b.children, d.prop "id" ≠ some a) (fun w hw hwt => ?_) ht
  have := List.all_eq_true.1 h w hw
  rw [hwt] at this
  simpa using this

/-- The component of a bind of a link of the body need not be in its scope: here it is in a context, and is neither the body nor a child of it (the media element refers to another
one), yet the document is accepted. -/
theorem C78_fails_scope : verdict (parseXml pread0 20 800 600 0 (docRefs "w" "ru" "m" "de" "rg" "tr" "co")) = .accepted ∧
    ∀ b, SubElt (docRefs "w" "ru" "m" "de" "rg" "tr" "co") b → b.tag = "body" → b.prop "id" ≠ some "w" ∧ ∀ d ∈ b.children, d.prop "id" ≠ some "w" :=
  ⟨by decide +kernel, fun _ hb ht => outOfScope_iff (by decide +kernel) hb ht⟩

/-- A name that the parser uses itself is accepted as the component of a bind, although no element of the document has it. -/
theorem C78_fails_reserved : verdict (parseXml pread0 20 800 600 0 (docRefs "__root__" "ru" "m" "de" "rg" "tr" "co")) = .accepted ∧
    ∀ b, SubElt (docRefs "__root__" "ru" "m" "de" "rg" "tr" "co") b → b.prop "id" ≠ some "__root__" := by
  refine ⟨by decide +kernel, fun b hb => sub_listed hb (P := fun b => b.prop "id" ≠ some "__root__") fun w hw => ?_⟩
  have h : ((docRefs "__root__" "ru" "m" "de" "rg" "tr" "co").listing none).all (fun w => w.2.prop "id" != some "__root__") = true := by decide +kernel
  simpa using List.all_eq_true.1 h w hw

end Ginga
