import Verif.Proofs.Desc
/-!
# The attributes of a descriptor at the end of the document
-/
namespace Ginga

/-- The element `k` gets other attributes. -/
def PS.withAttrs (s : PS) (k : Nat) (B : List (String × String)) : PS := s.setElt k { s.elt k with attrs := B }

theorem PS.withAttrs_self (s : PS) (k : Nat) : s.withAttrs k (s.elt k).attrs = s := by
  unfold PS.withAttrs PS.setElt
  rw [upd_id]
theorem PS.withAttrs_elt (s : PS) (k : Nat) (B : List (String × String)) : (s.withAttrs k B).elt k = { s.elt k with attrs := B } := upd_same _ _ _
theorem PS.withAttrs_other (s : PS) {k j : Nat} (B : List (String × String)) (h : j ≠ k) : (s.withAttrs k B).elt j = s.elt j := upd_ne _ _ h
theorem PS.withAttrs_attr (s : PS) (k : Nat) (B : List (String × String)) (nm : String) : (s.withAttrs k B).attr k nm = mget nm B := by
  unfold PS.attr; rw [s.withAttrs_elt]
theorem PS.withAttrs_twice (s : PS) (k : Nat) (B C : List (String × String)) : (s.withAttrs k B).withAttrs k C = s.withAttrs k C := by
  show (s.withAttrs k B).setElt k { (s.withAttrs k B).elt k with attrs := C } = _
  rw [s.withAttrs_elt]
  unfold PS.withAttrs PS.setElt
  rw [upd_twice]
theorem PS.withAttrs_byId (s : PS) (k : Nat) (B : List (String × String)) (i : String) {l : List String} (h : (s.elt k).tag ∉ l) : (s.withAttrs k B).byId i l = s.byId i l := by
  refine PS.byId_congr (s := s) (t := s.withAttrs k B) rfl i fun j => ?_
  by_cases hj : j = k
  · subst hj; rw [s.withAttrs_elt]; exact ⟨rfl, fun hm => absurd hm h⟩
  · rw [s.withAttrs_other B hj]; exact ⟨rfl, fun _ => rfl⟩

/-- The value that the region named `i` has for `nm`. -/
def PS.regionVal (s : PS) (i : Option String) (nm : String) : Option String := if nm = "id" then none else i.bind fun r => (s.byId r ["region"]).bind fun rk => s.attr rk nm

/-- The text of the transition named `i`. -/
def PS.transVal (s : PS) (order : List String) (i : Option String) : Option String :=
  i.bind fun r => (s.byId r ["transition"]).bind fun tk => (s.attr tk "type").bind fun ty => transText order (s.elt tk).attrs ty

theorem mget_filter_self {a : String} : ∀ (l : List (String × String)), mget a (l.filter fun p => p.1 != a) = none := fun l =>
  mget_none fun p hp => by simpa using (List.mem_filter.1 hp).2

theorem descRegion_attrs {k : Nat} {s : PS} (hs : AllSorted s) :
    PPost (descRegion k) (fun _ t => ∃ B, t = s.withAttrs k B ∧ ∀ nm, mget nm B = (s.regionVal (s.attr k "region") nm).or (s.attr k nm)) s := by
  unfold descRegion
  refine PPost.bind (PPost.get ?_)
  cases hr : s.attr k "region" with
  | none => exact PPost.pure ⟨_, (s.withAttrs_self k).symm, fun nm => by unfold PS.regionVal; simp [PS.attr]⟩
  | some r =>
    refine PPost.bind (PPost.orErr fun rk hrk => PPost.modify ⟨_, rfl, fun nm => ?_⟩)
    rw [mget_msetAll ((hs rk).filter _)]
    unfold PS.regionVal
    by_cases hn : nm = "id"
    · subst hn
      rw [mget_filter_self, if_pos rfl]; rfl
    · rw [mget_filter hn, if_neg hn, Option.bind_some, hrk, Option.bind_some]; rfl

theorem descTrans_attrs {E : PRead} {k : Nat} {name : String} {s : PS} :
    PPost (descTrans E k name) (fun _ t => ∃ B, t = s.withAttrs k B ∧ ∀ nm, mget nm B = if nm = name then s.transVal E.argOrder (s.attr k name) else s.attr k nm) s := by
  unfold descTrans
  refine PPost.bind (PPost.get ?_)
  cases hr : s.attr k name with
  | none =>
    refine PPost.pure ⟨_, (s.withAttrs_self k).symm, fun nm => ?_⟩
    split
    · next h => rw [h]; exact hr
    · rfl
  | some r =>
    refine PPost.bind (PPost.orErr fun tk htk => PPost.bind (PPost.attr! fun ty hty => ?_))
    cases hx : transText E.argOrder (s.elt tk).attrs ty with
    | none => exact PPost.ub
    | some v =>
      refine PPost.modify ⟨_, rfl, fun nm => ?_⟩
      split
      · next h =>
        rw [h, mget_mset_same]
        unfold PS.transVal
        rw [Option.bind_some, htk, Option.bind_some, hty, Option.bind_some, hx]
      · next h => rw [mget_mset_ne _ _ _ _ h]; rfl

theorem popDesc_attrs {E : PRead} {k : Nat} {s : PS} (hs : AllSorted s) (ht : (s.elt k).tag = "descriptor")
    (hreg : ∀ rk, rk ∈ s.cache → ∀ nm, (s.elt rk).tag = "region" → nm = "transIn" ∨ nm = "transOut" → s.attr rk nm = none) :
    PPost (popDesc E k) (fun _ t => ∃ B, t = s.withAttrs k B ∧ ∀ nm, mget nm B = if nm = "transIn" ∨ nm = "transOut" then s.transVal E.argOrder (s.attr k nm)
      else (s.regionVal (s.attr k "region") nm).or (s.attr k nm)) s := by
  have htr : ∀ B i, (s.withAttrs k B).transVal E.argOrder i = s.transVal E.argOrder i := by
    intro B i
    unfold PS.transVal
    have hb : ∀ r, (s.withAttrs k B).byId r ["transition"] = s.byId r ["transition"] := fun r => s.withAttrs_byId k B r (by rw [ht]; decide)
    cases i with
    | none => rfl
    | some r =>
      rw [Option.bind_some, Option.bind_some, hb]
      cases h : s.byId r ["transition"] with
      | none => rfl
      | some tk =>
        obtain ⟨-, h2, -⟩ := PS.byId_some h
        have hne : tk ≠ k := by rintro rfl; rw [ht] at h2; exact absurd h2 (by decide)
        rw [Option.bind_some, Option.bind_some]
        unfold PS.attr
        rw [s.withAttrs_other B hne]
  have hrt : ∀ i nm, nm = "transIn" ∨ nm = "transOut" → s.regionVal i nm = none := by
    intro i nm hn
    unfold PS.regionVal
    split
    · rfl
    · cases i with
      | none => rfl
      | some r =>
        rw [Option.bind_some]
        cases h : s.byId r ["region"] with
        | none => rfl
        | some rk => exact hreg rk (PS.byId_some h).1 nm (by simpa using (PS.byId_some h).2.1) hn
  unfold popDesc
  refine PPost.bind (PPost.attr! fun _ _ => PPost.bind ((descRegion_attrs hs).mono ?_))
  rintro _ _ ⟨B1, rfl, h1⟩
  refine PPost.bind (descTrans_attrs.mono ?_)
  rintro _ _ ⟨B2, rfl, h2⟩
  refine descTrans_attrs.mono ?_
  rintro _ _ ⟨B3, rfl, h3⟩
  rw [s.withAttrs_twice, s.withAttrs_twice] at *
  refine ⟨B3, rfl, fun nm => ?_⟩
  rw [h3 nm, htr]
  simp only [s.withAttrs_attr, htr] at h2 ⊢
  by_cases ho : nm = "transOut"
  · subst ho
    rw [if_pos rfl, if_pos (.inr rfl), h2, if_neg (by decide), h1, hrt _ _ (.inr rfl), Option.none_or]
  · rw [if_neg ho, h2]
    by_cases hi : nm = "transIn"
    · subst hi
      rw [if_pos rfl, if_pos (.inl rfl), h1, hrt _ _ (.inl rfl), Option.none_or]
    · rw [if_neg hi, if_neg (by simp [hi, ho]), h1]

/-- The attributes of a descriptor at the end of the stage of descriptors. -/
theorem descs_attrs {E : PRead} {u u1 : PS} {l : List Nat} (hl : l.Nodup) (htag : ∀ j ∈ l, (u.elt j).tag = "descriptor") (hs : AllSorted u)
    (hreg : ∀ rk, rk ∈ u.cache → ∀ nm, (u.elt rk).tag = "region" → nm = "transIn" ∨ nm = "transOut" → u.attr rk nm = none)
    (h : PM.forEach (popDesc E) l u = .ok (some ((), u1))) {k : Nat} (hk : k ∈ l) (nm : String) :
    u1.attr k nm = if nm = "transIn" ∨ nm = "transOut" then u.transVal E.argOrder (u.attr k nm) else (u.regionVal (u.attr k "region") nm).or (u.attr k nm) := by
  obtain ⟨l1, l2, s1, s2, e, h1, h2, h3⟩ := forEach_split hk h
  have hpre : ∀ l, PPre (DescOnly l) := fun l => ⟨DescOnly.refl l, fun h h' => h.trans h'⟩
  have d1 : DescOnly l1 u s1 := PRel.forEachMem (hpre l1) _ (fun k hk => popDesc_only hk) _ _ _ h1
  have d3 : DescOnly l2 s2 u1 := PRel.forEachMem (hpre l2) _ (fun k hk => popDesc_only hk) _ _ _ h3
  have hn : k ∉ l1 ∧ k ∉ l2 := by
    rw [e] at hl
    obtain ⟨-, g2, g3⟩ := List.nodup_append.1 hl
    exact ⟨fun hm => g3 k hm k List.mem_cons_self rfl, (List.nodup_cons.1 g2).1⟩
  have hs1 : AllSorted s1 := PRel.forEach ⟨fun _ => id, fun h h' w => h' (h w)⟩ (R := KeepSorted) (fun k => by
      have hc := keepSorted_atomic.atom E
      exact PRel.popDesc hc k) _ _ _ _ h1 hs
  have hother : ∀ j, (u.elt j).tag ≠ "descriptor" → s1.elt j = u.elt j := fun j hj => d1.other j fun hm => hj (htag j (by rw [e]; simp [hm]))
  have htags : ∀ j, (s1.elt j).tag = (u.elt j).tag := fun j => by rw [d1.elt j]
  have hby : ∀ i tg, tg ≠ "descriptor" → s1.byId i [tg] = u.byId i [tg] := by
    intro i tg htg
    refine PS.byId_congr (by rw [d1.state]) i fun j => ⟨htags j, fun hm => ?_⟩
    rw [hother j (by rw [List.mem_singleton.1 hm]; exact htg)]
  have hk1 : s1.elt k = u.elt k := d1.other k hn.1
  obtain ⟨B, rfl, hB⟩ := popDesc_attrs (E := E) hs1 (by rw [htags]; exact htag k hk)
    (fun rk hc nm hr hn => by
      rw [htags] at hr
      rw [show s1.cache = u.cache by rw [d1.state]] at hc
      unfold PS.attr; rw [hother rk (by rw [hr]; decide)]; exact hreg rk hc nm hr hn) _ _ h2
  have hu1 : u1.attr k nm = mget nm B := by
    unfold PS.attr
    rw [d3.other k hn.2, s1.withAttrs_elt]
  have hat : ∀ a, s1.attr k a = u.attr k a := fun a => by unfold PS.attr; rw [hk1]
  have hv1 : ∀ i, s1.transVal E.argOrder i = u.transVal E.argOrder i := by
    intro i
    unfold PS.transVal
    cases i with
    | none => rfl
    | some r =>
      rw [Option.bind_some, Option.bind_some, hby r _ (by decide)]
      cases h : u.byId r ["transition"] with
      | none => rfl
      | some tk =>
        have h2 : (u.elt tk).tag = "transition" := by simpa using (PS.byId_some h).2.1
        rw [Option.bind_some, Option.bind_some]
        unfold PS.attr
        rw [hother tk (by rw [h2]; decide)]
  have hv2 : ∀ i, s1.regionVal i nm = u.regionVal i nm := by
    intro i
    unfold PS.regionVal
    split
    · rfl
    cases i with
    | none => rfl
    | some r =>
      rw [Option.bind_some, Option.bind_some, hby r _ (by decide)]
      cases h : u.byId r ["region"] with
      | none => rfl
      | some tk =>
        have h2 : (u.elt tk).tag = "region" := by simpa using (PS.byId_some h).2.1
        rw [Option.bind_some, Option.bind_some]
        unfold PS.attr
        rw [hother tk (by rw [h2]; decide)]
  rw [hu1, hB, hat, hat, hv1, hv2]

/-! ## The parameters of a descriptor -/

/-- The value of the last parameter element of `c` with the name `nm`. -/
def paramOf (c : Xml) (nm : String) : Option String :=
  (c.children.filterMap fun p => if p.tag = "descriptorParam" ∧ p.val "name" = nm then some (p.val "value") else none).getLast?

theorem effAll_descr (j : Nat) : ∀ (i : Nat) (l : List Note) (e : Elt),
    (effAll j i l e).attrs = ((kidNotes j i l).filter fun q => q.2.push == .descriptorParam).foldl (fun l q => mset ((q.2.get "name").getD "") ((q.2.get "value").getD "") l) e.attrs
  | i, [], e => by simp [effAll, kidNotes]
  | i, n :: l, e => by
    have h2 := effAll_descr j (i + 1) l (n.eff i j e)
    rw [effAll, h2]
    have hc : ∀ rs ts, (if n.conn = some j then connApply rs ts e else e).attrs = e.attrs := by
      intro rs ts; split <;> rfl
    rw [kidNotes]
    unfold Note.eff
    split
    · have this2 : ∀ f, f ≠ Push.descriptorParam → ∀ e' : Elt, (childEff f i n.tag n.get e').attrs = e'.attrs := by
        intro f hf e'
        cases f <;> simp only [childEff, ne_eq, not_true] at hf ⊢
        split
        · rfl
        · split <;> rfl
      by_cases hb : n.push = .descriptorParam
      · rw [List.filter_append, hb]
        simp [childEff, hc, hb]
      · rw [this2 _ hb, hc, List.filter_append]
        simp [hb]
    · rw [id_eq, hc, List.nil_append]

theorem mget_foldl_mset {α : Type} (g v : α → String) (nm : String) : ∀ (l : List α) (A : List (String × String)),
    mget nm (l.foldl (fun A q => mset (g q) (v q) A) A) = ((l.filterMap fun q => if g q = nm then some (v q) else none).getLast?).or (mget nm A)
  | [], A => rfl
  | q :: l, A => by
    rw [List.foldl_cons, mget_foldl_mset g v nm l, List.filterMap_cons]
    by_cases h : g q = nm
    · rw [if_pos h, h, mget_mset_same]
      dsimp only
      rw [List.getLast?_cons]
      cases (l.filterMap fun q => if g q = nm then some (v q) else none).getLast? <;> rfl
    · rw [if_neg h, mget_mset_ne _ _ _ _ (fun e => h e.symm)]

theorem filterMap_cong {α β : Type} {F G : α → Option β} : ∀ {l : List α}, (∀ a ∈ l, F a = G a) → l.filterMap F = l.filterMap G
  | [], _ => rfl
  | a :: l, h => by rw [List.filterMap_cons, List.filterMap_cons, h a List.mem_cons_self, filterMap_cong fun b hb => h b (List.mem_cons_of_mem _ hb)]

/-- The attributes of a descriptor when all elements have been read. -/
theorem descr_own {E : PRead} {scr : Rect} {z : Nat} {x : Xml} {T u : PS} {ns : List Note} {f : Nat → Nat} {P : (Nat → Nat) → List Note → List Nat → PS → Prop} {m : Nat}
    (he : Ended P E scr z x T ns f m u) {j : Nat} {n : Note} (hj : ns[j]? = some n) (ht : n.tag = "descriptor") (nm : String) : u.attr j nm = (paramOf n.xml nm).or (n.get nm) := by
  have hd := he.tree
  have e := he.j.elt j n hj
  have ha : (eraseE (u.elt j)).attrs = (eraseE (effAll j 0 ns n.base)).attrs := by rw [e]
  simp only [eraseE] at ha
  rw [if_neg (by rw [(he.j.tag hj).1, ht]; decide), if_neg (by rw [(effAll_tag j 0 ns n.base).1]; show ¬ n.tag = _; rw [ht]; decide), effAll_descr] at ha
  unfold PS.attr
  rw [ha, mget_foldl_mset (fun q : Nat × Note => (q.2.get "name").getD "") (fun q => (q.2.get "value").getD "")]
  congr 2
  rw [← hd.kids hj, List.filterMap_map, List.filterMap_filter]
  refine filterMap_cong fun q hq => ?_
  obtain ⟨-, hq1, hq2⟩ := kidNotes_mem.1 hq
  have hq1 : ns[q.1]? = some q.2 := hq1
  have hok := hd.ok _ _ hq1
  obtain ⟨e2, hs, hat⟩ := hok.syn
  obtain ⟨hs1, hs2⟩ := syntaxOf_mem hs
  have hpush : q.2.push = e2.push := by unfold Note.push pushOf; rw [hs]
  have htab : ∀ e ∈ syntaxTable, (e.push = .descriptorParam ↔ e.tag = "descriptorParam") := by decide +kernel
  have htab2 : ∀ e ∈ syntaxTable, e.tag = "descriptorParam" → ("name", aReqName) ∈ e.attrs ∧ ("value", aReq) ∈ e.attrs ∧ e.genId = false := by decide +kernel
  have hiff := htab e2 hs1
  rw [← hpush, hs2] at hiff
  show (if (q.2.push == .descriptorParam) = true then _ else none) = (if q.2.xml.tag = "descriptorParam" ∧ q.2.xml.val "name" = nm then some (q.2.xml.val "value") else none)
  by_cases hp : q.2.tag = "descriptorParam"
  · rw [if_pos (by simpa using hiff.2 hp)]
    obtain ⟨t1, t2, -⟩ := htab2 e2 hs1 (hs2.trans hp)
    have hg1 : q.2.get "name" = q.2.xml.prop "name" := hat.plain t1 rfl rfl (by decide)
    have hg2 : q.2.get "value" = q.2.xml.prop "value" := hat.plain t2 rfl rfl (by decide)
    rw [hg1, hg2]
    show (if q.2.xml.val "name" = nm then some (q.2.xml.val "value") else none) = _
    have hp' : q.2.xml.tag = "descriptorParam" := hp
    simp only [hp', true_and]
  · rw [if_neg (by simpa using fun h => hp (hiff.1 h)), if_neg (fun h => hp h.1)]

end Ginga
