import Verif.Proofs.EndDoc
import Verif.Proofs.Refer
/-!
# References of media elements, at the end of the document

In an accepted document each `refer` attribute of a media element names a media element that does not refer to another one.  So the identifier of an element that has no object of its
own is free, unless it is one of the two identifiers that the parser has for itself, or that of a settings element that is referred to.
-/
namespace Ginga

/-! ## Nodes are kept -/

/-- Opening an element keeps the nodes. -/
theorem push_keeps {E : PRead} (hinj : ∀ i j, E.addr i = E.addr j → i = j) {scr : Rect} {z0 : Nat} {f : Nat → Nat} {g : List Note} {S : List Nat} {s s2 : PS} {par : Option Nat} {pt : Option String}
    {x : Xml} {e : EltSyn} {r : List (String × String)} {y : SynSt} {nt : Note} {proc : Xml → PM Unit} {a : Unit} {t : PS} (hn : NewElt E scr z0 g S s s2 par pt x e r y nt) (ht : TreeK E f g S s)
    (himp : e.push ≠ .importBase) (hrun : push E proc e.push s.nelt s2 = .ok (some (a, t))) : ∃ l, Keeps l s.reg t.reg := by
  obtain ⟨b1, b2, b3, b4, b5, b6, b7, b8, b9, b10, b11, b12, b13⟩ := ht.push_base hn
  rw [← b10]
  have tb := table_objs e b3
  have htm : nt.tag = "media" ↔ e.push = .media := by rw [b2, ← b4]; exact tb.2.2.2.2.2.1.symm
  by_cases c4 : e.push = .media
  · have htg : nt.tag = "media" := htm.2 c4
    rw [c4] at hrun
    have hw : World E s2.reg s2.nalloc s2.refer s.syn.unique := by rw [b10, b12, b13]; exact ht.world
    have hid : ∀ id, s2.attr s.nelt "id" = some id → id ∉ s.syn.unique ∧ id ∈ s2.syn.unique := fun id hid => b7 id (by rw [htg]; decide) (by rw [← b8]; exact hid)
    have hpl := (pushMedia_post hinj hw b6 s.nelt hid a t hrun).2.2.2
    split at hpl
    · obtain ⟨_, -, -, _, _, hk, -⟩ := hpl; exact ⟨_, hk⟩
    · exact ⟨_, hpl⟩
  by_cases c1 : e.push = .ncl
  · rw [c1] at hrun
    exact ⟨_, (pushNcl_post b5 s.nelt a t hrun).2.1⟩
  by_cases c2 : e.push = .context
  · rw [c2] at hrun
    obtain ⟨w1, s1, hp⟩ := pushContext_post hinj b5 s.nelt a t hrun
    split at hp
    · obtain ⟨_, _, h1, -⟩ := hp; exact ⟨_, h1⟩
    · obtain ⟨_, -, -, _, _, h1, -⟩ := hp; exact ⟨_, h1⟩
  by_cases c3 : e.push = .switch
  · rw [c3] at hrun
    obtain ⟨_, -, ⟨w1, _, _, h1, -⟩, s1⟩ := pushSwitch_post hinj b5 s.nelt a t hrun
    exact ⟨_, h1⟩
  have hst : OStep E s2 t := by
    by_cases c5 : e.push = .region
    · rw [c5] at hrun
      exact PRel.pushRegion (ostep_atom hinj) E s.nelt (fun _ _ _ => ostep_same rfl rfl rfl rfl) s2 a t hrun
    · exact PRel.pushC (ostep_atom hinj) proc e.push s.nelt c5 himp c1 c2 c3 c4 (fun _ _ => trivial) (fun _ _ => trivial) ⟨fun _ => trivial, fun _ => trivial⟩ s2 a t hrun
  exact ⟨_, (hst.2 b5).2⟩

/-- Closing one, too. -/
theorem pop_keeps {E : PRead} (hinj : ∀ i j, E.addr i = E.addr j → i = j) {s t : PS} {n : Nat} {f : Pop} {k : Nat} {a : Unit} (hw : WorldOf E s)
    (hrun : pop E n f k s = .ok (some (a, t))) : ∃ l, Keeps l s.reg t.reg := by
  have hst : OStep E s t := by
    by_cases hr : f = .region
    · rw [hr] at hrun
      exact PRel.popRegion (ostep_atom hinj) (fun _ _ _ => ostep_same rfl rfl rfl rfl) s a t hrun
    · exact PRel.pop (ostep_atom hinj) (fun _ _ => ostep_same rfl rfl rfl rfl) n f k (fun _ _ _ => ostep_same rfl rfl rfl rfl) (fun _ _ _ _ => ostep_same rfl rfl rfl rfl) (fun _ _ _ => ostep_same rfl rfl rfl rfl) hr (fun _ _ => trivial) ⟨fun _ => trivial, fun _ => ⟨trivial, trivial, trivial⟩⟩ s a t hrun
  exact ⟨_, (hst.2 hw).2⟩

/-- The identifiers of the root and of the settings. -/
def IdK (s : PS) : Prop := (∃ k p, s.reg.node s.reg.root "__root__" k p) ∧ ∃ b k p, s.reg.settings = some b ∧ s.reg.node b "__settings__" k p

theorem IdK.keeps {s t : PS} {l : List Nat} (h : IdK s) (hk : Keeps l s.reg t.reg) : IdK t := by
  obtain ⟨⟨k, p, h1⟩, b, k', p', h2, h3⟩ := h
  exact ⟨⟨k, p, by rw [hk.2.1]; exact hk.1 _ _ _ _ h1⟩, b, k', p', by rw [hk.2.2.1]; exact h2, hk.1 _ _ _ _ h3⟩

theorem idK_extra {E : PRead} (hinj : ∀ i j, E.addr i = E.addr j → i = j) (scr : Rect) (z0 : Nat) : Extra E scr z0 (fun _ _ _ s => IdK s) where
  same f g S s y al ca hU h := h
  imp f g S s s2 par pt x e r y nt hn ht hk hp := by
    obtain ⟨b1, b2, b3, b4, b5, b6, b7, b8, b9, b10, b11, b12, b13⟩ := ht.push_base hn
    unfold IdK
    rw [b10]; exact hk
  push f f' g S s s2 par pt x e r y nt proc a t hn ht hk himp hrun hpu hj hf ht' := by
    obtain ⟨l, hl⟩ := push_keeps hinj hn ht himp hrun
    exact hk.keeps hl
  pop f g O S s k nt e n a t hj hpi ht hk h1 h2 h3 h4 h5 h6 := by
    obtain ⟨l, hl⟩ := pop_keeps hinj ht.world h4
    exact hk.keeps hl

theorem idK_init {E : PRead} (hinj : ∀ i j, E.addr i = E.addr j → i = j) (W H : Int) (z : Nat) {reg : Reg}
    (h : newDoc (E.addr 0) (E.addr 1) (E.addr 2) (E.addr 3) (E.addr 4) = .ok reg) : IdK (PS.init W H z reg 5) := by
  have ne : ∀ i j, i ≠ j → E.addr i ≠ E.addr j := fun i j hij h => hij (hinj i j h)
  obtain ⟨ho, hm, -, -, -, -, hroot, hset⟩ := newDoc_has (ne 0 1 (by decide)) h
  have f1 := newObj_fields .context "__root__" (E.addr 2) 0
  have f2 := newObj_fields .settings "__settings__" (E.addr 3) (E.addr 4)
  refine ⟨⟨_, _, _, ⟨?_, (ho reg.root _).2 (.inr ⟨hroot, rfl⟩)⟩, f1.1, rfl, rfl⟩, _, _, _, hset, _, ⟨?_, (ho _ _).2 (.inl ⟨rfl, rfl⟩)⟩, f2.1, rfl, rfl⟩
  · exact (hm _).2 (.inl hroot)
  · exact (hm _).2 (.inr rfl)

/-- What the end of the document keeps. -/
theorem end_keeps {E : PRead} (hinj : ∀ i j, E.addr i = E.addr j → i = j) {P : (Nat → Nat) → List Note → List Nat → PS → Prop} {scr : Rect} {z : Nat} {x : Xml} {t u : PS} {ns : List Note}
    {f : Nat → Nat} {m : Nat} (he : Ended P E scr z x t ns f m u) : ∃ l, Keeps l u.reg t.reg := by
  have hst : OStep E u t := PRel.popNcl (ostep_atom hinj) (fun _ _ => ostep_same rfl rfl rfl rfl) (fun _ _ _ => ostep_same rfl rfl rfl rfl) m (fun _ => trivial) ⟨trivial, trivial, trivial⟩ u _ _ he.run
  exact ⟨_, (hst.2 he.treeK.world).2⟩

/-! ## What references name -/

section
variable {E : PRead} {scr : Rect} {z : Nat} {x : Xml} {T u : PS} {ns : List Note} {f : Nat → Nat} {m : Nat}

theorem popMediaElt_refer (E : PRead) (k : Nat) (r : String) (s : PS) (hr : s.attr k "refer" = some r) :
    PPost (popMediaElt E k) (fun _ _ => ∃ rk, s.byId r ["media"] = some rk ∧ s.attr rk "refer" = none) s := by
  unfold popMediaElt
  refine PPost.bind (PPost.get ?_)
  have last : ∀ t : PS, PPost (match s.attr k "refer" with
      | none => pure ()
      | some r => do
        let rk ← PM.orErr (s.byId r ["media"])
        if (s.attr rk "refer").isSome then PM.err else pure () : PM Unit) (fun _ _ => ∃ rk, s.byId r ["media"] = some rk ∧ s.attr rk "refer" = none) t := by
    intro t
    rw [hr]
    refine PPost.bind (PPost.orErr fun rk hrk => ?_)
    split
    · exact PPost.err
    · next h => exact PPost.pure ⟨rk, hrk, by simpa using h⟩
  refine PPost.bind ?_
  split
  · exact PPost.pure (last _)
  · refine PPost.bind (PPost.orErr fun dk hdk => PPost.bind (PPost.attr! fun mid hmid => PPost.bind (PPost.some! fun o ho => PPost.bind (PPost.object fun y hy => ?_))))
    split
    · exact fun _ t _ => last t
    · exact PPost.abort

/-- Each reference names a media element that does not refer to another one. -/
theorem refers_end {P : (Nat → Nat) → List Note → List Nat → PS → Prop} (he : Ended P E scr z x T ns f m u) {j : Nat} {n : Note} {r : String} (hj : ns[j]? = some n)
    (ht : n.tag = "media") (hr : n.get "refer" = some r) : ∃ (i : Nat) (n' : Note), ns[i]? = some n' ∧ n'.tag = "media" ∧ n'.get "id" = some r ∧ n'.get "refer" = none := by
  obtain ⟨u1, u2, u3, u4, hst⟩ := popNcl_stages he.run
  have hne : ∀ j w, ns[j]? = some w → w.tag ≠ "descriptor" → u1.elt j = u.elt j := by
    intro j w hj hw
    refine hst.f1.other j fun hm => hw ?_
    unfold PS.byTag at hm
    rw [← (he.j.tag hj).1]; simpa using (List.mem_filter.1 hm).2
  have hk : j ∈ u.byTag "media" := ((byTag_notes he.j he.kc (tag := "media") (by decide) (by decide +kernel)).2 j).2 ⟨n, hj, ht⟩
  obtain ⟨l1, l2, s1, s2, e1, e2, e3, e4⟩ := forEach_split hk hst.media
  have hs1 : Fixed u1 s1 := PRel.forEach (fixed_base.core E).toPPre (fun k => PRel.popMediaElt (fixed_base.core E) k) _ _ _ _ e2
  have hget : ∀ j n, ns[j]? = some n → n.tag = "media" → ∀ a, s1.attr j a = n.get a := by
    intro j n hj ht a
    unfold PS.attr
    rw [hs1.elt, hne j n hj (by rw [ht]; decide), he.j.attrs hj (by rw [ht]; decide) (by rw [ht]; decide)]; rfl
  obtain ⟨rk, h1, h2⟩ := popMediaElt_refer E j r s1 (by rw [hget j n hj ht]; exact hr) _ _ e3
  obtain ⟨c1, c2, c3⟩ := PS.byId_some h1
  have hca : s1.cache = u.cache := by rw [hs1.cache, hst.f1.state]
  rw [hca] at c1
  have hlt := he.kc.lt rk c1
  have hrk : ns[rk]? = some ns[rk] := List.getElem?_eq_getElem hlt
  generalize ns[rk] = mr at hrk
  have htg : (s1.elt rk).tag = mr.tag := by
    rw [hs1.elt]
    have := hst.f1.elt rk
    rw [this]; exact (he.j.tag hrk).1
  rw [htg] at c2
  have c2 : mr.tag = "media" := by simpa using c2
  rw [hget rk mr hrk c2] at c3 h2
  exact ⟨rk, mr, hrk, c2, c3, h2⟩

end

/-! ## Free identifiers -/

/-- The identifier `a` of the element `d`, that has no object of its own, is not one of the parser's, and if `d` is a settings element no media element of `x` refers to it. -/
structure Unshared (x d : Xml) (a : String) : Prop where
  root : a ≠ "__root__"
  settings : a ≠ "__settings__"
  alone : d.tag = "media" → d.prop "refer" = none → ∀ y, SubElt x y → y.tag = "media" → y.prop "refer" ≠ some a

section
variable {E : PRead} {scr : Rect} {z : Nat} {x : Xml} {T u : PS} {ns : List Note} {f : Nat → Nat} {m : Nat}

/-- Nothing has it, and nothing refers to it. -/
def ClearAt (x : Xml) (ns : List Note) (r : Reg) : Prop :=
  ∀ (i : Nat) (md : Note) (a : String), ns[i]? = some md → md.tag = "body" ∨ md.tag = "media" → md.kind = none → md.get "id" = some a → Unshared x md.xml a → r.getById a = none ∧ ¬ referName ns a

theorem clear_end (hinj : ∀ i j, E.addr i = E.addr j → i = j) {P : (Nat → Nat) → List Note → List Nat → PS → Prop} (he : Ended P E scr z x T ns f m u) (hu : IdK u) :
    ClearAt x ns u.reg ∧ ClearAt x ns T.reg := by
  have hd := he.tree
  obtain ⟨_, hkp⟩ := end_keeps hinj he
  have hid : IdK T := hu.keeps hkp
  have hT : ClearAt x ns T.reg := by
    intro i md a hi htag hk ha hu
    have hl : md.tag ≠ "link" := by rcases htag with h | h <;> rw [h] <;> decide
    constructor
    · cases hg : T.reg.getById a with
      | none => rfl
      | some o =>
        exfalso
        obtain ⟨X, h1, h2⟩ := (hd.world.inv.byId a o).1 hg
        have same : ∀ {b k p}, T.reg.node o b k p → b = a := by
          rintro b k p ⟨Y, g1, g2, -⟩
          have := g1.2.symm.trans h1.2
          cases this
          exact g2.symm.trans h2
        rcases hd.back o a X.kind X.parent ⟨X, h1, h2, rfl, rfl⟩ with h | h | ⟨j, nt, g1, g2, g3⟩
        · obtain ⟨⟨k, p, h3⟩, -⟩ := hid
          rw [← h] at h3
          exact hu.root (same h3).symm
        · obtain ⟨-, b, k, p, h3, h4⟩ := hid
          rw [h] at h3; cases h3
          exact hu.settings (same h4).symm
        · obtain ⟨kd, hkd⟩ := Option.isSome_iff_exists.1 g2
          obtain ⟨b, q, e1, e2, e3⟩ := hd.made j nt kd g1 hkd
          rw [g3] at e3
          rw [same e3] at e1
          have := hd.once j i nt md a g1 hi (Note.kind_ne g2).1 hl e1 ha
          subst this
          rw [hi] at g1; cases g1
          rw [hk] at hkd; cases hkd
    · rintro ⟨j, n, g1, g2, g3⟩
      obtain ⟨i', n', e1, e2, e3, e4⟩ := refers_end he g1 g2 g3
      have := hd.once i' i n' md a e1 hi (by rw [e2]; decide) hl e3 ha
      subst this
      rw [hi] at e1; cases e1
      have hp := (he.tree.main _ i' md (Nat.lt_succ_self _) hi (by rw [e2]; decide)).2.1
      obtain ⟨m1, m2, -⟩ := he.tree.main _ j n (Nat.lt_succ_self _) g1 (by rw [g2]; decide)
      refine hu.alone (by show md.xml.tag = _; exact e2) ?_ n.xml m1 g2 ?_
      · rw [← Note.get_main (he.tree.ok i' md hi) hp _ (.inr (by decide))]; exact e4
      · rw [← Note.get_main (he.tree.ok j n g1) m2 _ (.inr (by decide))]; exact g3
  refine ⟨fun i md a hi htag hk ha hu => ?_, hT⟩
  obtain ⟨h1, h2⟩ := hT i md a hi htag hk ha hu
  refine ⟨?_, h2⟩
  cases hg : u.reg.getById a with
  | none => rfl
  | some o => rw [getById_keeps he.treeK.world.inv hd.world.inv hkp hg] at h1; cases h1

end

end Ginga
