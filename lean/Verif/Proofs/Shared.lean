import Verif.Proofs.Component
import Verif.Proofs.Share
import Verif.Proofs.ReferEnd
/-!
# What a component attribute names: elements that share an object

A media element that refers to another one, or to the settings, has no object of its own: the search for its name ends at the object that it shares.
-/
namespace Ginga

/-! ## The map of references -/

/-- Where the entries of the map of references come from. -/
def ReferFrom (s t : PS) (k : Nat) : Prop :=
  ∃ id m l, s.attr k "id" = some id ∧ t.objs = m :: l ∧ ∀ q ∈ t.refer, q ∈ s.refer ∨ (∃ v, (q.1, v) ∈ s.refer) ∧ s.reg.settings = some q.2 ∨ s.attr k "refer" = some q.1 ∨
    sharing (s.attr k) ∧ q = (id, m)

theorem pushRefer_map {E : PRead} (s : PS) (id refer : String) :
    PPost (pushRefer E id refer) (fun m t => ∀ q ∈ t.refer, q ∈ s.refer ∨ q.1 = refer ∨ q = (id, m)) s := by
  unfold pushRefer
  refine PPost.bind (PPost.get ?_)
  dsimp only
  have rest : ∀ (m : Nat) (t : PS), (∀ q ∈ t.refer, q ∈ s.refer ∨ q.1 = refer) →
      PPost (do
        let parent ← peekComp
        regOp (.addAlias m id parent)
        PM.modify fun s => { s with refer := Ginga.referAdd id m s.refer }
        pure m) (fun m t => ∀ q ∈ t.refer, q ∈ s.refer ∨ q.1 = refer ∨ q = (id, m)) t := by
    intro m t h
    refine PPost.bind (PPost.peekComp fun p l x _ _ _ => PPost.bind (PPost.regOp fun b r hx => PPost.bind (PPost.modify (PPost.pure ?_))))
    intro q hq
    rcases mem_referAdd hq with h1 | h1
    · exact .inr (.inr h1)
    · exact (h q h1).imp_right .inl
  split
  · exact PPost.bind (PPost.pure (rest _ s fun q hq => .inl hq))
  · refine PPost.bind ?_
    split
    · refine PPost.bind (PPost.pure (PPost.bind (PPost.modify (PPost.pure (rest _ _ fun q hq => ?_)))))
      rcases mem_referAdd hq with rfl | h1
      · exact .inr rfl
      · exact .inl h1
    · refine PPost.bind ((newObject_refer E .media refer s).mono fun m t h => PPost.bind (PPost.modify (PPost.pure (rest _ _ fun q hq => ?_))))
      rcases mem_referAdd hq with rfl | h1
      · exact .inr rfl
      · left
        have h : t.refer = s.refer := h
        rw [← h]; exact h1

theorem forAlias_refer (m : Nat) (l : List String) : PRel SameRefer (PM.forEach (fun a => regOp (.addAlias m a 0)) l) := by
  induction l with
  | nil => exact fun s => PPost.pure rfl
  | cons a l ih =>
    intro s
    unfold PM.forEach
    refine PPost.bind (PPost.regOp fun b r hx => ?_)
    exact (ih _).mono fun _ t h => h

theorem pushSettings_map (s : PS) (id : String) :
    PPost (pushSettings id) (fun m t => ∀ q ∈ t.refer, q ∈ s.refer ∨ ((∃ v, (q.1, v) ∈ s.refer) ∧ s.reg.settings = some q.2) ∨ q = (id, m)) s := by
  unfold pushSettings
  refine PPost.bind (PPost.get (PPost.bind (PPost.some! fun m hm => ?_)))
  have last : ∀ (t : PS), (∀ q ∈ t.refer, q ∈ s.refer ∨ (∃ v, (q.1, v) ∈ s.refer) ∧ s.reg.settings = some q.2) →
      PPost (do
        let parent ← peekComp
        regOp (.addAlias m id parent)
        PM.modify fun s => { s with refer := Ginga.referAdd id m s.refer }
        pure m) (fun m t => ∀ q ∈ t.refer, q ∈ s.refer ∨ ((∃ v, (q.1, v) ∈ s.refer) ∧ s.reg.settings = some q.2) ∨ q = (id, m)) t := by
    intro t h
    refine PPost.bind (PPost.peekComp fun p l x _ _ _ => PPost.bind (PPost.regOp fun b r hx => PPost.bind (PPost.modify (PPost.pure ?_))))
    intro q hq
    rcases mem_referAdd hq with h1 | h1
    · exact .inr (.inr h1)
    · exact (h q h1).imp_right .inl
  refine PPost.bind ?_
  split
  · exact PPost.pure (last s fun q hq => .inl hq)
  · next tmp htmp =>
    split
    · exact PPost.ub
    · next l keys hr =>
      refine PPost.bind (PPost.modify (PPost.bind ((forAlias_refer m keys _).mono fun _ t ht => ?_)))
      have hl : ∀ q ∈ t.refer, q ∈ s.refer ∨ (∃ v, (q.1, v) ∈ s.refer) ∧ s.reg.settings = some q.2 := by
        intro q hq
        have ht : t.refer = l := ht
        rw [ht] at hq
        rcases redirect_spec hr q hq with h' | ⟨h', h''⟩
        · exact .inl h'
        · exact .inr ⟨⟨_, h''⟩, by rw [h']; exact hm⟩
      split
      · exact PPost.pure (last t hl)
      · exact PPost.modify (last _ hl)

theorem pushMedia_map {E : PRead} (s : PS) (k : Nat) : PPost (pushMedia E k) (fun _ t => ReferFrom s t k) s := by
  unfold pushMedia
  refine PPost.bind (PPost.get (PPost.bind (PPost.attr! fun id hi => ?_)))
  dsimp only
  split
  · next refer hr =>
    split
    · exact PPost.err
    · refine PPost.bind ((pushRefer_map s id refer).mono fun o t h => PPost.modify ⟨id, o, _, hi, rfl, fun q hq => ?_⟩)
      rcases h q hq with h | h | h
      · exact .inl h
      · exact .inr (.inr (.inl (by rw [h]; exact hr)))
      · exact .inr (.inr (.inr ⟨fun hc => absurd (hr.symm.trans hc.1) (by simp), h⟩))
  · next hr =>
    split
    · next ht =>
      refine PPost.bind ((pushSettings_map s id).mono fun o t h => ?_)
      split
      · exact PPost.abort
      · refine PPost.modify ⟨id, o, _, hi, rfl, fun q hq => ?_⟩
        rcases h q hq with h | h | h
        · exact .inl h
        · exact .inr (.inl h)
        · exact .inr (.inr (.inr ⟨fun hc => ht.elim hc.2.1 hc.2.2, h⟩))
    · refine PPost.bind ((pushPlain_target id _ _).mono fun o t h => PPost.modify ⟨id, o, _, hi, rfl, fun q hq => .inl ?_⟩)
      rw [← h.1]; exact hq

/-- The names in the map of references are names of elements that share an object, or names that are referred to. -/
def ReferK (f : Nat → Nat) (g : List Note) (s : PS) : Prop :=
  ∀ q ∈ s.refer, referName g q.1 ∨ ∃ (j : Nat) (n : Note), g[j]? = some n ∧ n.tag = "media" ∧ n.kind = none ∧ n.get "id" = some q.1 ∧ (f j = q.2 ∨ s.reg.settings = some q.2)

theorem ReferK.same {f f' : Nat → Nat} {g : List Note} {nt : Note} {s t : PS} (h : ReferK f g s) (hf : ∀ k, k < g.length → f' k = f k) (hs : t.reg.settings = s.reg.settings)
    (hr : t.refer = s.refer) : ReferK f' (g ++ [nt]) t := by
  intro q hq
  rw [hr] at hq
  rcases h q hq with h | ⟨j, n, h1, h2, h3, h4, h5⟩
  · exact .inl (referName_append h)
  · have hj := (List.getElem?_eq_some_iff.1 h1).1
    exact .inr ⟨j, n, by rw [List.getElem?_append_left hj]; exact h1, h2, h3, h4, by rw [hf j hj, hs]; exact h5⟩

theorem referK_extra {E : PRead} (hinj : ∀ i j, E.addr i = E.addr j → i = j) (scr : Rect) (z0 : Nat) : Extra E scr z0 (fun f g _ s => ReferK f g s) where
  same f g S s y al ca hU h := h
  imp f g S s s2 par pt x e r y nt hn ht hk hp := by
    obtain ⟨b1, b2, b3, b4, b5, b6, b7, b8, b9, b10, b11, b12, b13⟩ := ht.push_base hn
    exact hk.same (fun _ _ => rfl) (by rw [b10]) b12
  pop f g O S s k nt e n a t hj hpi ht hk h1 h2 h3 h4 h5 h6 := by
    have hst : OStep E s t ∧ SameRefer s t := by
      by_cases hr : e.pop = .region
      · rw [hr] at h4
        exact ⟨PRel.popRegion (ostep_atom hinj) (fun _ _ _ => ostep_same rfl rfl rfl rfl) s a t h4, PRel.popRegion (sameRefer_atom E) (fun _ _ _ => rfl) s a t h4⟩
      · exact ⟨PRel.pop (ostep_atom hinj) (fun _ _ => ostep_same rfl rfl rfl rfl) n e.pop k (fun _ _ _ => ostep_same rfl rfl rfl rfl) (fun _ _ _ _ => ostep_same rfl rfl rfl rfl) (fun _ _ _ => ostep_same rfl rfl rfl rfl) hr (fun _ _ => trivial) ⟨fun _ => trivial, fun _ => ⟨trivial, trivial, trivial⟩⟩ s a t h4,
          PRel.pop (sameRefer_atom E) (fun _ _ => rfl) n e.pop k (fun _ _ _ => rfl) (fun _ _ _ _ => rfl) (fun _ _ _ => rfl) hr (fun _ _ => trivial) ⟨fun _ => trivial, fun _ => ⟨trivial, trivial, trivial⟩⟩ s a t h4⟩
    obtain ⟨⟨-, hw⟩, hrf⟩ := hst
    obtain ⟨-, k1⟩ := hw ht.world
    intro q hq
    have hrf : t.refer = s.refer := hrf
    rw [hrf] at hq
    rw [k1.2.2.1]
    exact hk q hq
  push f f' g S s s2 par pt x e r y nt proc a t hn ht hk himp hrun hpu hj hf ht' := by
    obtain ⟨b1, b2, b3, b4, b5, b6, b7, b8, b9, b10, b11, b12, b13⟩ := ht.push_base hn
    have tb := table_objs e b3
    have htm : nt.tag = "media" ↔ e.push = .media := by rw [b2, ← b4]; exact tb.2.2.2.2.2.1.symm
    by_cases c4 : e.push = .media
    · have htg : nt.tag = "media" := htm.2 c4
      rw [c4] at hrun
      obtain ⟨id, m, l, e1, e2, e3⟩ := pushMedia_map s2 s.nelt a t hrun
      have hw : World E s2.reg s2.nalloc s2.refer s.syn.unique := by rw [b10, b12, b13]; exact ht.world
      have hid : ∀ id, s2.attr s.nelt "id" = some id → id ∉ s.syn.unique ∧ id ∈ s2.syn.unique := fun id hid => b7 id (by rw [htg]; decide) (by rw [← b8]; exact hid)
      have hset : t.reg.settings = s2.reg.settings := by
        have hpl := (pushMedia_post hinj hw b6 s.nelt hid a t hrun).2.2.2
        split at hpl
        · obtain ⟨_, -, -, _, _, hk, -⟩ := hpl; exact hk.2.2.1
        · exact hpl.2.2.1
      have hnt : (g ++ [nt])[g.length]? = some nt := by simp
      have hfm : f' g.length = m := by
        have hs := ht'.stack
        rw [e2, List.filter_cons, if_pos (by unfold objAt; rw [b1, hnt]; dsimp only; rw [htg]; decide), List.map_cons, b1] at hs
        exact (List.cons.inj hs).1.symm
      have hat : s2.attr s.nelt = nt.get := funext b8
      rw [hat] at e1 e3
      have old : ∀ (a : String) v, (a, v) ∈ s2.refer → referName (g ++ [nt]) a ∨ ∃ (j : Nat) (n : Note), (g ++ [nt])[j]? = some n ∧ n.tag = "media" ∧ n.kind = none ∧ n.get "id" = some a ∧
          (f' j = v ∨ t.reg.settings = some v) := by
        intro a v hv
        rw [b12] at hv
        rcases hk (a, v) hv with h | ⟨j, n, h1, h2, h3, h4, h5⟩
        · exact .inl (referName_append h)
        · have hj := (List.getElem?_eq_some_iff.1 h1).1
          exact .inr ⟨j, n, by rw [List.getElem?_append_left hj]; exact h1, h2, h3, h4, by rw [hf j hj, hset, b10]; exact h5⟩
      intro q hq
      rcases e3 q hq with h | ⟨⟨v, hv⟩, hs⟩ | h | ⟨h, rfl⟩
      · exact old q.1 q.2 h
      · rcases old q.1 v hv with h | ⟨j, n, h1, h2, h3, h4, -⟩
        · exact .inl h
        · exact .inr ⟨j, n, h1, h2, h3, h4, .inr (by rw [hset]; exact hs)⟩
      · exact .inl ⟨g.length, nt, hnt, htg, h⟩
      · refine .inr ⟨g.length, nt, hnt, htg, ?_, e1, .inl hfm⟩
        unfold Note.kind
        rw [htg, if_neg (by decide), if_neg (by decide), if_neg]
        rintro ⟨-, q⟩
        exact h q
    -- the others
    have hrest : ∀ {l}, Keeps l s2.reg t.reg → t.refer = s2.refer → ReferK f' (g ++ [nt]) t := fun h1 h2 => hk.same hf (by rw [h1.2.2.1, b10]) (by rw [h2]; exact b12)
    by_cases c1 : e.push = .ncl
    · rw [c1] at hrun
      obtain ⟨w1, k1, o1, s1⟩ := pushNcl_post b5 s.nelt a t hrun
      exact hrest k1 (pushNcl_refer s.nelt s2 a t hrun)
    by_cases c2 : e.push = .context
    · rw [c2] at hrun
      obtain ⟨w1, s1, hp⟩ := pushContext_post hinj b5 s.nelt a t hrun
      have hr := pushContext_refer E s.nelt s2 a t hrun
      split at hp
      · obtain ⟨_, _, h1, -⟩ := hp; exact hrest h1 hr
      · obtain ⟨_, -, -, _, _, h1, -⟩ := hp; exact hrest h1 hr
    by_cases c3 : e.push = .switch
    · rw [c3] at hrun
      obtain ⟨_, -, ⟨w1, _, _, h1, -⟩, s1⟩ := pushSwitch_post hinj b5 s.nelt a t hrun
      exact hrest h1 (pushSwitch_refer E s.nelt s2 a t hrun)
    · have hst : OStep E s2 t ∧ SameRefer s2 t := by
        by_cases c5 : e.push = .region
        · rw [c5] at hrun
          exact ⟨PRel.pushRegion (ostep_atom hinj) E s.nelt (fun _ _ _ => ostep_same rfl rfl rfl rfl) s2 a t hrun,
            PRel.pushRegion (sameRefer_atom E) E s.nelt (fun _ _ _ => rfl) s2 a t hrun⟩
        · exact ⟨PRel.pushC (ostep_atom hinj) proc e.push s.nelt c5 himp c1 c2 c3 c4 (fun _ _ => trivial) (fun _ _ => trivial) ⟨fun _ => trivial, fun _ => trivial⟩ s2 a t hrun,
            PRel.pushC (sameRefer_atom E) proc e.push s.nelt c5 himp c1 c2 c3 c4 (fun _ _ => trivial) (fun _ _ => trivial) ⟨fun _ => trivial, fun _ => trivial⟩ s2 a t hrun⟩
      obtain ⟨w1, k1⟩ := hst.1.2 b5
      exact hrest k1 hst.2

/-! ## What the search finds -/

/-- What the proofs below need to know. -/
def ShBase (E : PRead) (f : Nat → Nat) (g : List Note) (S : List Nat) (s : PS) : Prop :=
  (NameK E f g S s ∧ ShareK E f g s) ∧ (NameK E f g S s ∧ RefK f g s) ∧ ReferK f g s ∧ IdK s

theorem shBase_extra {E : PRead} (hinj : ∀ i j, E.addr i = E.addr j → i = j) (scr : Rect) (z0 : Nat) : Extra E scr z0 (ShBase E) :=
  (shareK_extra hinj scr z0).and ((refK_extra hinj scr z0).and ((referK_extra hinj scr z0).and (idK_extra hinj scr z0)))

theorem shBase_init {E : PRead} (hinj : ∀ i j, E.addr i = E.addr j → i = j) {f : Nat → Nat} {W H : Int} {z : Nat} {reg : Reg} (hreg : newDoc (E.addr 0) (E.addr 1) (E.addr 2) (E.addr 3) (E.addr 4) = .ok reg) :
    ShBase E f [] [] (PS.init W H z reg 5) :=
  ⟨⟨nameK_init hinj W H z hreg, shareK_init f W H z reg 5⟩, (rulesK_init hinj hreg).1, (fun q hq => by cases hq), idK_init hinj W H z hreg⟩

/-- What was found when the name `a` of the media element `m`, whose object is `o`, was looked for: its object.  (Or somebody refers to that name, or it is that of an object, or the object was
deleted.) -/
def FoundAs (g : List Note) (s : PS) (m : Note) (o : Nat) (a : String) (c : Nat) : Prop :=
  c = o ∨ referName g a ∨ (∃ o', s.reg.getById a = some o') ∨ ((∃ r, m.get "refer" = some r) ∧ s.reg.obj o = none)

/-- A media element with no object of its own is found by its name, in any scope. -/
theorem shared_component {E : PRead} {f : Nat → Nat} {g : List Note} {S : List Nat} {s : PS} (ht : TreeK E f g S s) (hb : ShBase E f g S s)
    {i : Nat} {m : Note} {a : String} (hi : g[i]? = some m) (htm : m.tag = "media") (hk : m.kind = none) (ha : m.get "id" = some a)
    {o : Nat} {y : RObj} (ho : s.reg.obj o = some y) (hin : y.inDoc = true) {c : Nat} (hc : s.component o a = some c) : FoundAs g s m (f i) a c := by
  obtain ⟨⟨⟨D, hnm⟩, hsh⟩, ⟨-, hrf⟩, hrk, -⟩ := hb
  have one : ∀ (j : Nat) (n : Note), g[j]? = some n → n.tag ≠ "link" → n.get "id" = some a → j = i ∧ n = m := by
    intro j n h1 h2 h3
    have := ht.once j i n m a h1 hi h2 (by rw [htm]; decide) h3 ha
    subst this
    rw [hi] at h1
    exact ⟨rfl, (Option.some.inj h1).symm⟩
  have live : s.reg.obj (f i) = none → FoundAs g s m (f i) a c := by
    intro hd
    cases hr : m.get "refer" with
    | some r => exact .inr (.inr (.inr ⟨⟨r, hr⟩, hd⟩))
    | none =>
      exfalso
      have hs := hrf.settings i m hi htm hr hk
      obtain ⟨b, z, h1, h2, -⟩ := ht.world.settings
      rw [hs] at h1
      obtain rfl : f i = b := Option.some.inj h1
      rw [hd] at h2; cases h2
  have named : mediaName f s.reg D g a c → FoundAs g s m (f i) a c := by
    rintro ⟨j, n, h1, h2, h3, h4, h5⟩
    obtain ⟨rfl, rfl⟩ := one j n h1 (by rw [h2]; decide) h4
    rcases h5 with h5 | ⟨-, h5⟩
    · exact .inl h5.symm
    · exact live (hnm.dead _ h5).1
  have alias_ : ∀ (z : RObj), s.reg.obj c = some z → z.hasAlias a = true → FoundAs g s m (f i) a c := by
    intro z hz hz'
    unfold RObj.hasAlias at hz'
    obtain ⟨p, hp1, hp2⟩ := List.any_eq_true.1 hz'
    have hp2 : p.1 = a := by simpa using hp2
    rcases hnm.alias c z p hz hp1 with ⟨-, j, n, d1, d2, d3⟩ | ⟨-, d⟩
    · rw [hp2] at d3
      obtain ⟨-, rfl⟩ := one j n d1 (by rcases d2 with h | h <;> rw [h] <;> decide) d3
      rw [htm] at d2; exact absurd d2 (by decide)
    · rw [hp2] at d; exact named d
  have byId_ : ∀ (z : RObj), s.reg.obj c = some z → z.inDoc = true → z.id = a → FoundAs g s m (f i) a c := fun z h1 h2 h3 =>
    .inr (.inr (.inl ⟨c, (ht.world.inv.byId a c).2 ⟨z, ⟨ht.world.inv.inDoc _ _ h1 h2, h1⟩, h3⟩⟩))
  unfold PS.component at hc
  rw [ho] at hc
  dsimp only at hc
  split at hc
  · next h =>
    cases hc
    rcases h with h | h
    · exact byId_ y ho hin h.symm
    · exact alias_ y ho h
  · split at hc
    · next c' hch =>
      cases hc
      unfold childByIdOrAlias at hch
      split at hch
      · next hf =>
        cases hch
        have h1 := List.find?_some hf
        obtain ⟨z, z1, z2, z3⟩ := ht.world.tree.chi _ y ho _ (List.mem_of_find?_eq_some hf)
        rw [z1] at h1
        exact byId_ z z1 z3 (by simpa using h1)
      · have h1 := List.find?_some hch
        obtain ⟨z, z1, z2, z3⟩ := ht.world.tree.chi _ y ho _ (List.mem_of_find?_eq_some hch)
        rw [z1] at h1
        exact alias_ z z1 h1
    · have hmem := referIdx_mem hc
      rcases hrk _ hmem with h | ⟨j, n, h1, h2, h3, h4, h5⟩
      · exact .inr (.inl h)
      · obtain ⟨rfl, rfl⟩ := one j n h1 (by rw [h2]; decide) h4
        rcases h5 with h5 | h5
        · exact .inl h5.symm
        · obtain ⟨b, z, g1, g2, -⟩ := ht.world.settings
          rw [h5] at g1
          obtain rfl : c = b := Option.some.inj g1
          rcases ((hnm.refer _ hmem).2 z g2).2 with h | h
          · exact named h
          · exact .inr (.inl h.2)

/-- A name that something has: it is one of the parser's, a media element refers to it, or it is the identifier of an element. -/
def NamedIn (g : List Note) (a : String) : Prop :=
  a = "__root__" ∨ a = "__settings__" ∨ referName g a ∨
    ∃ (j : Nat) (n : Note), g[j]? = some n ∧ (n.tag = "ncl" ∨ n.tag = "body" ∨ n.tag = "context" ∨ n.tag = "switch" ∨ n.tag = "media") ∧ n.get "id" = some a

theorem NamedIn.up {g g' : List Note} {a : String} (h : NamedIn g a) (hg : ∀ j, j < g.length → g'[j]? = g[j]?) : NamedIn g' a := by
  have up : ∀ {j : Nat} {n : Note}, g[j]? = some n → g'[j]? = some n := fun h => by
    rw [hg _ (List.getElem?_eq_some_iff.1 h).1]; exact h
  rcases h with h | h | ⟨j, n, h1, h2⟩ | ⟨j, n, h1, h2⟩
  · exact .inl h
  · exact .inr (.inl h)
  · exact .inr (.inr (.inl ⟨j, n, up h1, h2⟩))
  · exact .inr (.inr (.inr ⟨j, n, up h1, h2⟩))

theorem NamedIn.append {g : List Note} {a : String} (h : NamedIn g a) (l : List Note) : NamedIn (g ++ l) a :=
  h.up fun j hj => List.getElem?_append_left hj

/-- A name that was found in some scope is a name of something. -/
theorem component_named {E : PRead} {f : Nat → Nat} {g : List Note} {S : List Nat} {s : PS} (ht : TreeK E f g S s) (hb : ShBase E f g S s) {a : String}
    {o : Nat} {y : RObj} (ho : s.reg.obj o = some y) (hin : y.inDoc = true) {c : Nat} (hc : s.component o a = some c) : NamedIn g a := by
  obtain ⟨⟨⟨D, hnm⟩, hsh⟩, ⟨-, hrf⟩, hrk, hid⟩ := hb
  have byId_ : ∀ (c : Nat) (z : RObj), s.reg.obj c = some z → z.inDoc = true → z.id = a → NamedIn g a := by
    intro c z h1 h2 h3
    have hnode : s.reg.node c a z.kind z.parent := ⟨z, ⟨ht.world.inv.inDoc _ _ h1 h2, h1⟩, h3, rfl, rfl⟩
    have same : ∀ {b k p}, s.reg.node c b k p → b = a := by
      rintro b k p ⟨Y, g1, g2, -⟩
      have := g1.2.symm.trans h1
      cases this
      exact g2.symm.trans h3
    rcases ht.back c a z.kind z.parent hnode with h | h | ⟨j, nt, g1, g2, g3⟩
    · obtain ⟨⟨k, p, h5⟩, -⟩ := hid
      rw [← h] at h5
      exact .inl (same h5).symm
    · obtain ⟨-, b, k, p, h5, h6⟩ := hid
      rw [h] at h5; cases h5
      exact .inr (.inl (same h6).symm)
    · obtain ⟨kd, hkd⟩ := Option.isSome_iff_exists.1 g2
      obtain ⟨b, q, e1, e2, e3⟩ := ht.made j nt kd g1 hkd
      rw [g3] at e3
      rw [same e3] at e1
      refine .inr (.inr (.inr ⟨j, nt, g1, ?_, e1⟩))
      rcases Note.kind_tag hkd with h | h | h <;> simp [h]
  have alias_ : ∀ (c : Nat) (z : RObj), s.reg.obj c = some z → z.hasAlias a = true → NamedIn g a := by
    intro c z hz hz'
    unfold RObj.hasAlias at hz'
    obtain ⟨p, hp1, hp2⟩ := List.any_eq_true.1 hz'
    have hp2 : p.1 = a := by simpa using hp2
    rcases hnm.alias c z p hz hp1 with ⟨-, j, n, d1, d2, d3⟩ | ⟨-, j, n, d1, d2, -, d3, -⟩
    · rw [hp2] at d3
      exact .inr (.inr (.inr ⟨j, n, d1, d2.imp_right .inl, d3⟩))
    · rw [hp2] at d3
      exact .inr (.inr (.inr ⟨j, n, d1, by simp [d2], d3⟩))
  unfold PS.component at hc
  rw [ho] at hc
  dsimp only at hc
  split at hc
  · next h =>
    rcases h with h | h
    · exact byId_ o y ho hin h.symm
    · exact alias_ o y ho h
  · split at hc
    · next c' hch =>
      unfold childByIdOrAlias at hch
      split at hch
      · next hf =>
        cases hch
        have h1 := List.find?_some hf
        obtain ⟨z, z1, z2, z3⟩ := ht.world.tree.chi _ y ho _ (List.mem_of_find?_eq_some hf)
        rw [z1] at h1
        exact byId_ _ z z1 z3 (by simpa using h1)
      · have h1 := List.find?_some hch
        obtain ⟨z, z1, z2, z3⟩ := ht.world.tree.chi _ y ho _ (List.mem_of_find?_eq_some hch)
        rw [z1] at h1
        exact alias_ _ z z1 h1
    · rcases hrk _ (referIdx_mem hc) with h | ⟨j, n, h1, h2, h3, h4, h5⟩
      · exact .inr (.inr (.inl h))
      · exact .inr (.inr (.inr ⟨j, n, h1, by simp [h2], h4⟩))

/-- What a switch that closes resolves each of its rules to. -/
theorem switch_resolves {E : PRead} {scr : Rect} {z0 : Nat} {f : Nat → Nat} {g : List Note} {S : List Nat} {s t : PS} {k n : Nat} {nt : Note} {a : Unit} (hj : J E scr z0 g s)
    (ht : TreeK E f g (k :: S) s) (h1 : g[k]? = some nt) (g2 : nt.tag = "switch") (h4 : pop E n .switch k s = .ok (some (a, t))) {r : Nat × Option Nat} (hr : r ∈ (t.elt k).rules) :
    r.1 < g.length ∧ ∃ c, r.2 = some c ∧ ∃ a, (∀ w, g[r.1]? = some w → ruleComp w = some a) ∧ s.component (f k) a = some c := by
  have hobj : objAt g k = true := by unfold objAt; rw [h1]; dsimp only; rw [g2]; decide
  have hst := ht.stack
  rw [List.filter_cons, if_pos hobj, List.map_cons] at hst
  have hpost : PPost (popSwitch E n k) (fun _ t => Each (fun p q => q.1 = p.1 ∧ ∃ a c, s.attr p.1 (if (s.elt p.1).tag = "bindRule" then "constituent" else "component") = some a ∧
      s.component (f k) a = some c ∧ q.2 = some c) (s.elt k).rules (t.elt k).rules) s := by
    unfold popSwitch
    refine PPost.bind (PPost.peekObj fun o l ho => PPost.bind (PPost.object fun x hx => ?_))
    rw [hst] at ho
    obtain rfl : f k = o := (List.cons.inj ho).1
    split
    · refine PPost.bind (PPost.get (PPost.bind ((resolveRules_spec (f k) _ s).mono ?_)))
      rintro rs _ ⟨rfl, hE⟩
      refine PPost.bind (PPost.modify (PPost.bind (((PRel.forEach (fixed_base.core E).toPPre (fun id => PRel.resolveSwitchPort (fixed_base.core E) (fun _ _ => ⟨rfl, rfl, rfl, rfl, rfl⟩) n (f k) id) _ : PRel Fixed _) _).mono fun _ v hv => PPost.modify ?_)))
      show Each _ _ (v.elt k).rules
      rw [hv.elt]
      show Each _ _ (Elt.rules (upd _ k _ k))
      rw [upd_same]
      exact hE
    · exact PPost.abort
  have hE := hpost a t h4
  obtain ⟨p, hp, hpr, a', c, p1, p2, p3⟩ := hE.mem_right hr
  have hmem : r.1 ∈ ((kidNotes k 0 g).filter fun q => q.2.push == .bindRule).map Prod.fst := by
    rw [← hj.rules h1, hpr]; exact List.mem_map.2 ⟨p, hp, rfl⟩
  obtain ⟨q, hq1, hq2⟩ := List.mem_map.1 hmem
  have hq3 := (kidNotes_mem.1 (List.mem_filter.1 hq1).1).2.1
  have hqb : q.2.push = .bindRule := by simpa using (List.mem_filter.1 hq1).2
  rw [Nat.sub_zero, hq2] at hq3
  refine ⟨(List.getElem?_eq_some_iff.1 hq3).1, c, p3, a', fun w w1 => ?_, p2⟩
  rw [hq3] at w1; obtain rfl : q.2 = w := by simpa using w1
  have hwt : q.2.tag = "bindRule" ∨ q.2.tag = "defaultComponent" := by
    have : ∀ e ∈ syntaxTable, e.push = .bindRule → e.tag = "bindRule" ∨ e.tag = "defaultComponent" := by decide +kernel
    unfold Note.push pushOf at hqb
    split at hqb
    · rename_i e' he'
      obtain ⟨q1, q2⟩ := syntaxOf_mem he'
      rw [← q2]; exact this e' q1 hqb
    · cases hqb
  have hat : ∀ nm, s.attr p.1 nm = q.2.get nm := by
    intro nm
    have := hj.attrs hq3 (by rcases hwt with h | h <;> rw [h] <;> decide) (by rcases hwt with h | h <;> rw [h] <;> decide)
    rw [hpr] at this
    unfold PS.attr; rw [this]; rfl
  rw [(hj.tag (by rw [← hpr]; exact hq3)).1, hat] at p1
  unfold ruleComp
  exact p1

/-! ## What was found stays -/

/-- What was found is still right later. -/
theorem FoundAs.step {E : PRead} {g : List Note} {s t : PS} {m : Note} {o : Nat} {a : String} {c : Nat} (h : FoundAs g s m o a c) {l : List Note} {q : List Nat}
    (hi : RegInv s.reg) (hi' : RegInv t.reg) (hk : Keeps q s.reg t.reg) (he : EvKeep E s t) (ha : ∀ r, m.get "refer" = some r → Alloc E s o) : FoundAs (g ++ l) t m o a c := by
  rcases h with h | h | ⟨o', h⟩ | ⟨⟨r, h1⟩, h2⟩
  · exact .inl h
  · right; left
    obtain ⟨j, n, h1, h2⟩ := h
    exact ⟨j, n, by rw [List.getElem?_append_left (List.getElem?_eq_some_iff.1 h1).1]; exact h1, h2⟩
  · exact .inr (.inr (.inl ⟨o', getById_keeps hi hi' hk h⟩))
  · refine .inr (.inr (.inr ⟨⟨r, h1⟩, ?_⟩))
    cases hx : t.reg.obj o with
    | none => rfl
    | some x =>
      obtain ⟨y, hy, -⟩ := he.2.1 o (ha r h1) x hx
      rw [h2] at hy; cases hy

theorem ShBase.alloc {E : PRead} {f : Nat → Nat} {g : List Note} {S : List Nat} {s : PS} (hb : ShBase E f g S s) {i : Nat} {m : Note} (hi : g[i]? = some m) (htm : m.tag = "media")
    (r : String) (hr : m.get "refer" = some r) : Alloc E s (f i) := (hb.1.2 i m r hi htm hr).1

/-- The object of an element that has none of its own: its address is in use. -/
theorem ShBase.shared_alloc {E : PRead} {f : Nat → Nat} {g : List Note} {S : List Nat} {s : PS} (ht : TreeK E f g S s) (hb : ShBase E f g S s) {i : Nat} {m : Note} (hi : g[i]? = some m)
    (htm : m.tag = "media") (hk : m.kind = none) : Alloc E s (f i) := by
  cases hr : m.get "refer" with
  | some r => exact hb.alloc hi htm r hr
  | none =>
    have hs := hb.2.1.2.settings i m hi htm hr hk
    obtain ⟨b, z, h1, h2, -⟩ := ht.world.settings
    rw [hs] at h1
    obtain rfl : f i = b := Option.some.inj h1
    exact ht.world.objAddr _ z h2

/-- Closed switches: the rules that name media elements with no object of their own. -/
def SharedRules (f : Nat → Nat) (g : List Note) (S : List Nat) (s : PS) : Prop :=
  ∀ (k : Nat) (n : Note), g[k]? = some n → n.tag = "switch" → k ∉ S → ∀ r ∈ (s.elt k).rules, r.1 < g.length ∧ ∃ c, r.2 = some c ∧
    ∀ (w : Note) a, g[r.1]? = some w → ruleComp w = some a → NamedIn g a ∧
      ∀ (i : Nat) (m : Note), g[i]? = some m → m.tag = "media" → m.kind = none → m.get "id" = some a → m.parent = some k → FoundAs g s m (f i) a c

theorem sharedRules_extra {E : PRead} (hinj : ∀ i j, E.addr i = E.addr j → i = j) (scr : Rect) (z0 : Nat) :
    Extra E scr z0 (fun f g S s => ShBase E f g S s ∧ SharedRules f g S s) where
  same f g S s y al ca hU h := ⟨(shBase_extra hinj scr z0).same f g S s y al ca hU h.1, h.2⟩
  imp f g S s s2 par pt x e r y nt hn ht hk hp := by
    refine ⟨(shBase_extra hinj scr z0).imp f g S s s2 par pt x e r y nt hn ht hk.1 hp, ?_⟩
    obtain ⟨b1, b2, b3, b4, b5, b6, b7, b8, b9, b10, b11, b12, b13⟩ := ht.push_base hn
    have htg : nt.tag = "importBase" := by rw [b2, ← b4]; exact (table_objs e b3).2.2.2.2.2.2.1.1 hp
    intro k n h1 h2 h3 r' hr
    rcases append_key h1 with ⟨a1, a2⟩ | ⟨a1, a2⟩
    · have he : s2.elt k = s.elt k := by rw [hn.state]; exact upd_ne _ _ (by rw [b1]; omega)
      rw [he] at hr
      obtain ⟨c1, c, c2, c3⟩ := hk.2 k n a2 h2 (fun hc => h3 (by simp [hc])) r' hr
      refine ⟨by simp; omega, c, c2, fun w a w1 w2 => ?_⟩
      rcases append_key w1 with ⟨-, w1⟩ | ⟨w1, -⟩
      · refine ⟨(c3 w a w1 w2).1.append _, fun i m i1 i2 i3 i4 i5 => ?_⟩
        rcases append_key i1 with ⟨-, i1⟩ | ⟨-, i1⟩
        · exact ((c3 w a w1 w2).2 i m i1 i2 i3 i4 i5).step ht.world.inv (by rw [b10]; exact ht.world.inv) (l := [nt]) (by rw [b10]; exact Keeps.refl _)
            (evKeep_same b10 (by rw [b13]; exact Nat.le_refl _)) (hk.1.alloc i1 i2)
        · rw [i1, htg] at i2; exact absurd i2 (by decide)
      · omega
    · rw [a2, htg] at h2; exact absurd h2 (by decide)
  push f f' g S s s2 par pt x e r y nt proc a t hn ht hk himp hrun hpu hj hf ht' := by
    refine ⟨(shBase_extra hinj scr z0).push f f' g S s s2 par pt x e r y nt proc a t hn ht hk.1 himp hrun hpu hj hf ht', ?_⟩
    obtain ⟨b1, b2, b3, b4, b5, b6, b7, b8, b9, b10, b11, b12, b13⟩ := ht.push_base hn
    obtain ⟨_, hkp⟩ := push_keeps hinj hn ht himp hrun
    have hev : EvKeep E s t := (evKeep_pre E).trans (evKeep_same b10 (by rw [b13]; exact Nat.le_refl _)) (evKeep_push hinj proc e.push s.nelt himp s2 a t hrun)
    have hup : ∀ k, k ∉ s.nelt :: S → par ≠ some k := by
      rintro k hk rfl
      have := (hn.up k rfl).2.1
      exact hk (by simp [List.mem_of_mem_head? (by rw [this]; rfl)])
    intro k n h1 h2 h3 r' hr
    have hkn : k ≠ s.nelt := fun hc => h3 (by simp [hc])
    rcases append_key h1 with ⟨a1, a2⟩ | ⟨a1, a2⟩
    · have he : (t.elt k).rules = (s.elt k).rules := by
        rw [hpu.other k hkn]
        have hpar : (s2.elt s.nelt).parent = par := by rw [hn.state]; simp [upd_same]
        have he2 : s2.elt k = s.elt k := by rw [hn.state]; exact upd_ne _ _ hkn
        rw [if_neg (by rw [hpar]; exact hup k h3), id_eq]
        split
        · show (s2.elt k).rules = _; rw [he2]
        · rw [he2]
      rw [he] at hr
      obtain ⟨c1, c, c2, c3⟩ := hk.2 k n a2 h2 (fun hc => h3 (by simp [hc])) r' hr
      refine ⟨by simp; omega, c, c2, fun w a w1 w2 => ?_⟩
      rcases append_key w1 with ⟨-, w1⟩ | ⟨w1, -⟩
      · refine ⟨(c3 w a w1 w2).1.append _, fun i m i1 i2 i3 i4 i5 => ?_⟩
        rcases append_key i1 with ⟨hlt, i1⟩ | ⟨hi, i1⟩
        · rw [hf i hlt]; exact ((c3 w a w1 w2).2 i m i1 i2 i3 i4 i5).step ht.world.inv ht'.world.inv hkp hev (hk.1.alloc i1 i2)
        · exfalso
          rw [i1, hn.parent] at i5; exact hup k h3 i5
      · omega
    · exact absurd (a1.trans b1.symm) hkn
  pop f g O S s k nt e n a t hj hpi ht hk h1 h2 h3 h4 h5 h6 := by
    have hK := (shBase_extra hinj scr z0).pop f g O S s k nt e n a t hj hpi ht hk.1 h1 h2 h3 h4 h5 h6
    refine ⟨hK, ?_⟩
    obtain ⟨_, hkp⟩ := pop_keeps hinj ht.world h4
    have hev : EvKeep E s t := evKeep_pop n e.pop k s a t h4
    have hstep : ∀ {i : Nat} {m : Note} {o : String} {c : Nat}, g[i]? = some m → m.tag = "media" → FoundAs g s m (f i) o c → FoundAs g t m (f i) o c := by
      intro i m o c i1 i2 h
      have := h.step (l := []) ht.world.inv h6.world.inv hkp hev (hk.1.alloc i1 i2)
      rwa [List.append_nil] at this
    intro k' n' g1 g2 g3 r hr
    by_cases hc : k' = k
    · subst hc
      rw [h1] at g1; obtain rfl : nt = n' := by simpa using g1
      have hpop : e.pop = .switch := by
        have : ∀ e ∈ syntaxTable, e.tag = "switch" → e.pop = .switch := by decide +kernel
        obtain ⟨q1, q2⟩ := syntaxOf_mem h2
        exact this e q1 (by rw [q2]; exact g2)
      rw [hpop] at h4
      obtain ⟨r1, c, r2, a', p1, p2⟩ := switch_resolves hj ht h1 g2 h4 hr
      refine ⟨r1, c, r2, fun w aw w1 w2 => ?_⟩
      rw [p1 w w1] at w2; obtain rfl : a' = aw := by simpa using w2
      obtain ⟨y, y1, y2⟩ : ∃ y, s.reg.obj (f k') = some y ∧ y.inDoc = true := by
        obtain ⟨i, q, -, -, x, ⟨x1, x2⟩, -⟩ := ht.made k' nt .switch h1 (by unfold Note.kind; rw [if_pos g2])
        obtain ⟨x', hx', hin⟩ := ht.world.inv.objs _ x1
        rw [x2] at hx'; obtain rfl : x = x' := by simpa using hx'
        exact ⟨x, x2, hin⟩
      exact ⟨component_named ht hk.1 y1 y2 p2, fun i m i1 i2 i3 i4 i5 => hstep i1 i2 (shared_component ht hk.1 i1 i2 i3 i4 y1 y2 p2)⟩
    · rw [h5.other k' hc] at hr
      obtain ⟨c1, c, c2, c3⟩ := hk.2 k' n' g1 g2 (by simp [hc, g3]) r hr
      exact ⟨c1, c, c2, fun w a w1 w2 => ⟨(c3 w a w1 w2).1, fun i m i1 i2 i3 i4 i5 => hstep i1 i2 ((c3 w a w1 w2).2 i m i1 i2 i3 i4 i5)⟩⟩

end Ginga
