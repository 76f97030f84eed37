import Verif.Proofs.Names
/-!
# References

A media element that refers to another one shares its object.
-/
namespace Ginga

def SameRefer (s t : PS) : Prop := t.refer = s.refer

theorem sameRefer_atom (E : PRead) : PAtom E (fun _ => True) SameRefer where
  refl _ := rfl
  trans h h' := Eq.trans h' h
  event o e _ s := by
    unfold addEvent
    exact PPost.bind (PPost.alloc (PPost.regOp fun _ _ _ => rfl))
  props _ _ _ _ _ _ := rfl
  par _ _ _ := rfl
  conn _ _ := rfl
  pred _ _ _ := rfl
  names _ _ := trivial
  attr _ _ _ _ _ := rfl
  elt _ _ _ _ _ _ := rfl

theorem newObject_refer (E : PRead) (k : RKind) (id : String) : PRel SameRefer (newObject E k id) := by
  intro s
  unfold newObject
  exact PPost.bind (PPost.alloc (PPost.bind (PPost.alloc (PPost.bind (PPost.alloc (PPost.bind (PPost.regOp fun _ _ _ => PPost.pure rfl)))))))

theorem adopt_refer (E : PRead) (k : RKind) (id : String) (p : Nat) : PRel SameRefer (do let o ← newObject E k id; regOp (.addChild p o); pushObj o) := by
  intro s
  exact PPost.bind ((newObject_refer E k id s).mono fun _ _ h => PPost.bind (PPost.regOp fun _ _ _ => PPost.modify h))

theorem pushSwitch_refer (E : PRead) (k : Nat) : PRel SameRefer (pushSwitch E k) := by
  intro s
  unfold pushSwitch
  exact PPost.bind (PPost.peekComp fun p _ _ _ _ _ => PPost.bind (PPost.attr! fun id _ => adopt_refer E _ id p s))

theorem aliasOpt_refer (o c : Nat) (a : Option String) : PRel SameRefer (match a with | some id => regOp (.addAlias o id c) | none => pure ()) := by
  intro s
  cases a with
  | none => exact PPost.pure rfl
  | some id => exact PPost.regOp fun _ _ _ => rfl

theorem pushNcl_refer (k : Nat) : PRel SameRefer (pushNcl k) := by
  intro s
  unfold pushNcl
  exact PPost.bind (PPost.get (PPost.bind ((aliasOpt_refer _ _ _ _).mono fun _ _ h => PPost.modify h)))

theorem pushContext_refer (E : PRead) (k : Nat) : PRel SameRefer (pushContext E k) := by
  intro s
  unfold pushContext
  refine PPost.bind (PPost.get ?_)
  split
  · refine PPost.bind (PPost.peekObj fun o l ho => PPost.bind (PPost.object fun x hx => ?_))
    split
    · exact PPost.bind ((aliasOpt_refer _ _ _ _).mono fun _ _ h => PPost.modify h)
    · exact PPost.abort
  · exact PPost.bind (PPost.peekComp fun p _ _ _ _ _ => PPost.bind (PPost.attr! fun id _ => adopt_refer E _ id p s))

section
variable {E : PRead} {T R : String → Prop} {D : Nat → Prop} {B : String → Nat → Prop}

/-- The object of a reference. -/
theorem pushRefer_target {s : PS} (hs : s.refer.Pairwise fun p q => p.1 < q.1) (id refer : String) :
    PPost (pushRefer E id refer) (fun m t => (∀ a o, refIdx s.refer a = some o → refIdx t.refer a = some o) ∧
      (∀ o x, s.reg.getById refer = some o → s.reg.obj o = some x → x.kind.isMedia → m = o) ∧
      (s.reg.getByIdOrAlias refer = none → refIdx t.refer refer = some m)) s := by
  unfold pushRefer
  refine PPost.bind (PPost.get ?_)
  dsimp only
  have rest : ∀ (m : Nat) (t : PS), (t.refer.Pairwise fun p q => p.1 < q.1) → (∀ a o, refIdx s.refer a = some o → refIdx t.refer a = some o) →
      (∀ o x, s.reg.getById refer = some o → s.reg.obj o = some x → x.kind.isMedia → m = o) → (s.reg.getByIdOrAlias refer = none → refIdx t.refer refer = some m) →
      PPost (do
        let parent ← peekComp
        regOp (.addAlias m id parent)
        PM.modify fun s => { s with refer := Ginga.referAdd id m s.refer }
        pure m) (fun m t => (∀ a o, refIdx s.refer a = some o → refIdx t.refer a = some o) ∧
      (∀ o x, s.reg.getById refer = some o → s.reg.obj o = some x → x.kind.isMedia → m = o) ∧
      (s.reg.getByIdOrAlias refer = none → refIdx t.refer refer = some m)) t := by
    intro m t h0 h1 h2 h3
    refine PPost.bind (PPost.peekComp fun p l x _ _ _ => PPost.bind (PPost.regOp fun b r hx => PPost.bind (PPost.modify (PPost.pure ⟨?_, h2, ?_⟩))))
    · intro a o ha
      show refIdx (Ginga.referAdd id m t.refer) a = _
      rw [refIdx_add h0, h1 a o ha]
    · intro hg
      show refIdx (Ginga.referAdd id m t.refer) refer = _
      rw [refIdx_add h0, h3 hg]
  have hgi : ∀ o, s.reg.getById refer = some o → s.reg.getByIdOrAlias refer = some o := fun o ho => by unfold Reg.getByIdOrAlias; rw [ho]
  split
  · next o ho =>
    refine PPost.bind (PPost.pure (rest o s hs (fun _ _ h => h) ?_ ?_))
    · intro o' x h1 h2 h3
      rw [hgi _ h1] at ho
      dsimp only at ho
      rw [h2] at ho
      dsimp only at ho
      rw [if_pos (show x.kind = .media ∨ x.kind = .settings from h3)] at ho
      exact (Option.some.inj ho).symm
    · intro hg; rw [hg] at ho; cases ho
  · next ho =>
    have hno : ∀ m o x, s.reg.getById refer = some o → s.reg.obj o = some x → x.kind.isMedia → m = o := by
      intro m o' x h1 h2 h3
      rw [hgi _ h1] at ho
      dsimp only at ho
      rw [h2] at ho
      dsimp only at ho
      rw [if_pos (show x.kind = .media ∨ x.kind = .settings from h3)] at ho
      cases ho
    refine PPost.bind ?_
    split
    · next m hm =>
      refine PPost.bind (PPost.pure (PPost.bind (PPost.modify (PPost.pure (rest m _ (referAdd_sorted hs) ?_ (hno m) ?_)))))
      · intro a o ha; show refIdx (Ginga.referAdd refer m s.refer) a = _; rw [refIdx_add hs, ha]
      · intro _; show refIdx (Ginga.referAdd refer m s.refer) refer = _; rw [refIdx_add hs, show refIdx s.refer refer = some m from hm]
    · next hm =>
      refine PPost.bind ((newObject_refer E .media refer s).mono fun m t h => PPost.bind (PPost.modify (PPost.pure (rest m _ ?_ ?_ (hno m) ?_))))
      · show (Ginga.referAdd refer m t.refer).Pairwise _; rw [show t.refer = s.refer from h]; exact referAdd_sorted hs
      · intro a o ha; show refIdx (Ginga.referAdd refer m t.refer) a = _; rw [show t.refer = s.refer from h, refIdx_add hs, ha]
      · intro _; show refIdx (Ginga.referAdd refer m t.refer) refer = _
        rw [show t.refer = s.refer from h, refIdx_add hs, show refIdx s.refer refer = none from hm]; simp

theorem pushPlain_target {s : PS} (id src type : String) :
    PPost (pushPlainMedia E id src type) (fun m t => t.refer = s.refer ∧ ∀ o, refIdx s.refer id = some o → m = o) s := by
  unfold pushPlainMedia
  refine PPost.bind (PPost.get ?_)
  dsimp only
  have rest : ∀ (m : Nat) (t : PS), t.refer = s.refer → (∀ o, refIdx s.refer id = some o → m = o) →
      PPost (do
        setProp m "uri" (if src ≠ "" then E.srcUri src else src)
        setProp m "type" type
        let parent ← peekComp
        regOp (.addChild parent m)
        pure m) (fun m t => t.refer = s.refer ∧ ∀ o, refIdx s.refer id = some o → m = o) t := by
    intro m t h1 h2
    refine PPost.bind ((setProp_same _ _ _).mono ?_)
    rintro - t1 ⟨p1, f1, rfl⟩
    refine PPost.bind ((setProp_same _ _ _).mono ?_)
    rintro - t2 ⟨p2, f2, rfl⟩
    exact PPost.bind (PPost.peekComp fun p l y _ _ _ => PPost.bind (PPost.regOp fun b r hx => PPost.pure ⟨h1, h2⟩))
  split
  · next m hm => exact PPost.bind (PPost.pure (rest m s rfl fun o ho => by rw [show refIdx s.refer id = some m from hm] at ho; exact Option.some.inj ho))
  · next hm => exact PPost.bind ((newObject_refer E .media id s).mono fun o t h => rest o t h fun o ho => by rw [show refIdx s.refer id = none from hm] at ho; cases ho)

theorem pushMedia_target (hinj : ∀ i j, E.addr i = E.addr j → i = j) {s : PS} {U : List String} (w : World E s.reg s.nalloc s.refer U)
    (hU : ∀ a ∈ U, a ∈ s.syn.unique) (h : NamesOf E T R D B s) (k : Nat) (hid : ∀ id, s.attr k "id" = some id → id ∉ U) :
    PPost (pushMedia E k) (fun _ t => ∃ id m l, s.attr k "id" = some id ∧ t.objs = m :: l ∧
      (∀ a o, refIdx s.refer a = some o → a ∉ U → a ≠ id → refIdx t.refer a = some o) ∧
      (∀ r, s.attr k "refer" = some r → (∀ o x, s.reg.getById r = some o → s.reg.obj o = some x → x.kind.isMedia → m = o) ∧
        (s.reg.getByIdOrAlias r = none → refIdx t.refer r = some m)) ∧
      (¬ sharing (s.attr k) → ∀ o, refIdx s.refer id = some o → m = o) ∧
      (s.attr k "refer" = none → sharing (s.attr k) → s.reg.settings = some m)) s := by
  have ws : WorldOf E s := World.grow w (Nat.le_refl _) hU
  unfold pushMedia
  refine PPost.bind (PPost.get (PPost.bind (PPost.attr! fun id hi => ?_)))
  have hn := hid id hi
  dsimp only
  split
  · next refer hr =>
    split
    · exact PPost.err
    · refine PPost.bind ((pushRefer_target h.sorted id refer).mono fun o t ⟨h1, h2, h3⟩ => PPost.modify ⟨id, o, _, hi, rfl, fun a q ha _ _ => h1 a q ha, ?_, ?_, ?_⟩)
      · intro r hr'; rw [hr] at hr'; cases hr'; exact ⟨h2, h3⟩
      · intro hc; exact absurd (fun hc => absurd (hr.symm.trans hc.1) (by simp)) hc
      · intro hc; rw [hr] at hc; cases hc
  · next hr =>
    split
    · next ht =>
      refine PPost.bind ((pushSettings_names hinj w hU h id hn).mono fun o t ⟨hs, D', hD, h', hi'⟩ => ?_)
      split
      · exact PPost.abort
      · refine PPost.modify ⟨id, o, _, hi, rfl, hi', ?_, ?_, fun _ _ => hs⟩
        · intro r hr'; rw [hr] at hr'; cases hr'
        intro hc; exact absurd (fun hc => ht.elim hc.2.1 hc.2.2) hc
    · next ht =>
      refine PPost.bind ((pushPlain_target id _ _).mono fun o t h' => PPost.modify ⟨id, o, _, hi, rfl, ?_, ?_, fun _ => h'.2, ?_⟩)
      · intro a q ha _ _; show refIdx t.refer a = _; rw [h'.1]; exact ha
      · intro r hr'; rw [hr] at hr'; cases hr'
      · intro _ hc; exact absurd ⟨hr, fun g => ht (.inl g), fun g => ht (.inr g)⟩ hc
end

/-- References share the objects of the elements that they refer to, and the settings elements the settings object. -/
structure RefK (f : Nat → Nat) (g : List Note) (s : PS) : Prop where
  done : ∀ (j i : Nat) (n m : Note) r, g[j]? = some n → n.tag = "media" → n.get "refer" = some r → g[i]? = some m → m.kind = some .media → m.get "id" = some r → f j = f i
  wait : ∀ (j : Nat) (n : Note) r, g[j]? = some n → n.tag = "media" → n.get "refer" = some r → r ∉ s.syn.unique → s.reg.getById r = none → refIdx s.refer r = some (f j)
  settings : ∀ (j : Nat) (n : Note), g[j]? = some n → n.tag = "media" → n.get "refer" = none → n.kind = none → s.reg.settings = some (f j)

theorem getById_keeps {r r' : Reg} {l : List Nat} (hi : RegInv r) (hi' : RegInv r') (h : Keeps l r r') {a : String} {o : Nat} (ho : r.getById a = some o) : r'.getById a = some o := by
  obtain ⟨x, hx, h1⟩ := (hi.byId a o).1 ho
  exact (h.1 o a x.kind x.parent ⟨x, hx, h1, rfl, rfl⟩).byId hi'

theorem RefK.same {f f' : Nat → Nat} {g : List Note} {nt : Note} {s t : PS} {l : List Nat} (h : RefK f g s) (hf : ∀ k, k < g.length → f' k = f k)
    (hu : ∀ a ∈ s.syn.unique, a ∈ t.syn.unique) (hi : RegInv s.reg) (hi' : RegInv t.reg) (hk : Keeps l s.reg t.reg) (hr : t.refer = s.refer) (ht : nt.tag ≠ "media") :
    RefK f' (g ++ [nt]) t := by
  have key : ∀ {j : Nat} {n : Note}, (g ++ [nt])[j]? = some n → n.tag = "media" → j < g.length ∧ g[j]? = some n := by
    intro j n hj hn
    by_cases hc : j < g.length
    · rw [List.getElem?_append_left hc] at hj; exact ⟨hc, hj⟩
    · exfalso
      have hlt := (List.getElem?_eq_some_iff.1 hj).1
      have : j = g.length := by simp at hlt; omega
      subst this
      obtain rfl : nt = n := by simpa using hj
      exact ht hn
  have hmk : ∀ {m : Note}, m.kind = some .media → m.tag = "media" := by
    intro m hm
    unfold Note.kind at hm
    split at hm
    · cases hm
    · split at hm
      · cases hm
      · split at hm
        · rename_i h; exact h.1
        · cases hm
  constructor
  · intro j i n m r h1 h2 h3 h4 h5 h6
    obtain ⟨a1, a2⟩ := key h1 h2
    obtain ⟨b1, b2⟩ := key h4 (hmk h5)
    rw [hf j a1, hf i b1]; exact h.done j i n m r a2 h2 h3 b2 h5 h6
  · intro j n r h1 h2 h3 h4 h5
    obtain ⟨a1, a2⟩ := key h1 h2
    rw [hf j a1, hr]
    refine h.wait j n r a2 h2 h3 (fun hc => h4 (hu _ hc)) ?_
    cases hc : s.reg.getById r with
    | none => rfl
    | some o => rw [getById_keeps hi hi' hk hc] at h5; cases h5
  · intro j n h1 h2 h3 h4
    obtain ⟨a1, a2⟩ := key h1 h2
    rw [hf j a1, hk.2.2.1]; exact h.settings j n a2 h2 h3 h4

theorem Note.kind_media {m : Note} (hm : m.kind = some .media) : m.tag = "media" ∧ ¬ sharing m.get := by
  unfold Note.kind at hm
  split at hm
  · cases hm
  · split at hm
    · cases hm
    · split at hm
      · rename_i h; exact ⟨h.1, fun hc => hc h.2⟩
      · cases hm

theorem Note.kind_none {m : Note} (ht : m.tag = "media") (hm : m.kind = none) : sharing m.get := by
  unfold Note.kind at hm
  rw [ht, if_neg (by decide), if_neg (by decide)] at hm
  split at hm
  · cases hm
  · rename_i h; intro hc; exact h ⟨rfl, hc⟩

theorem refK_extra {E : PRead} (hinj : ∀ i j, E.addr i = E.addr j → i = j) (scr : Rect) (z0 : Nat) :
    Extra E scr z0 (fun f g S s => NameK E f g S s ∧ RefK f g s) where
  same f g S s y al ca hU h := ⟨h.1, h.2.done, fun j n r h1 h2 h3 h4 h5 => h.2.wait j n r h1 h2 h3 (fun hc => h4 (hU _ hc)) h5, h.2.settings⟩
  imp f g S s s2 par pt x e r y nt hn ht hk hp := by
    refine ⟨(nameK_extra hinj scr z0).imp f g S s s2 par pt x e r y nt hn ht hk.1 hp, ?_⟩
    obtain ⟨b1, b2, b3, b4, b5, b6, b7, b8, b9, b10, b11, b12, b13⟩ := ht.push_base hn
    have htg : nt.tag = "importBase" := by rw [b2, ← b4]; exact (table_objs e b3).2.2.2.2.2.2.1.1 hp
    exact hk.2.same (fun _ _ => rfl) b6 ht.world.inv b5.inv (by rw [b10]; exact Keeps.refl _) b12 (by rw [htg]; decide)
  pop f g O S s k nt e n a t hj hpi ht hk h1 h2 h3 h4 h5 h6 := by
    refine ⟨(nameK_extra hinj scr z0).pop f g O S s k nt e n a t hj hpi ht hk.1 h1 h2 h3 h4 h5 h6, ?_⟩
    have hst : OStep E s t ∧ SameRefer s t := by
      by_cases hr : e.pop = .region
      · rw [hr] at h4
        exact ⟨PRel.popRegion (ostep_atom hinj) (fun _ _ _ => ostep_same rfl rfl rfl rfl) s a t h4, PRel.popRegion (sameRefer_atom E) (fun _ _ _ => rfl) s a t h4⟩
      · exact ⟨PRel.pop (ostep_atom hinj) (fun _ _ => ostep_same rfl rfl rfl rfl) n e.pop k (fun _ _ _ => ostep_same rfl rfl rfl rfl) (fun _ _ _ _ => ostep_same rfl rfl rfl rfl) (fun _ _ _ => ostep_same rfl rfl rfl rfl) hr (fun _ _ => trivial) ⟨fun _ => trivial, fun _ => ⟨trivial, trivial, trivial⟩⟩ s a t h4,
          PRel.pop (sameRefer_atom E) (fun _ _ => rfl) n e.pop k (fun _ _ _ => rfl) (fun _ _ _ _ => rfl) (fun _ _ _ => rfl) hr (fun _ _ => trivial) ⟨fun _ => trivial, fun _ => ⟨trivial, trivial, trivial⟩⟩ s a t h4⟩
    obtain ⟨⟨hsy, hw⟩, hrf⟩ := hst
    obtain ⟨w1, k1⟩ := hw ht.world
    refine ⟨hk.2.done, fun j n r g1 g2 g3 g4 g5 => ?_, fun j n g1 g2 g3 g4 => by rw [k1.2.2.1]; exact hk.2.settings j n g1 g2 g3 g4⟩
    rw [hrf]
    refine hk.2.wait j n r g1 g2 g3 (by rw [← hsy]; exact g4) ?_
    cases hc : s.reg.getById r with
    | none => rfl
    | some o => rw [getById_keeps ht.world.inv w1.inv k1 hc] at g5; cases g5
  push f f' g S s s2 par pt x e r y nt proc a t hn ht hk himp hrun hpu hj hf ht' := by
    refine ⟨(nameK_extra hinj scr z0).push f f' g S s s2 par pt x e r y nt proc a t hn ht hk.1 himp hrun hpu hj hf ht', ?_⟩
    obtain ⟨b1, b2, b3, b4, b5, b6, b7, b8, b9, b10, b11, b12, b13⟩ := ht.push_base hn
    have tb := table_objs e b3
    have htm : nt.tag = "media" ↔ e.push = .media := by rw [b2, ← b4]; exact tb.2.2.2.2.2.1.symm
    by_cases c4 : e.push = .media
    · have htg : nt.tag = "media" := htm.2 c4
      rw [c4] at hrun
      have hw : World E s2.reg s2.nalloc s2.refer s.syn.unique := by rw [b10, b12, b13]; exact ht.world
      have hid : ∀ id, s2.attr s.nelt "id" = some id → id ∉ s.syn.unique ∧ id ∈ s2.syn.unique := fun id hid => b7 id (by rw [htg]; decide) (by rw [← b8]; exact hid)
      obtain ⟨D, hnm⟩ := hk.1
      have hnm2 : NamesOf E (rootName g) (referName g) D (mediaName f s2.reg D g) s2 := by
        unfold NamesOf; rw [b10, b12, b13]; exact hnm
      obtain ⟨id, m, l, e1, e2, e3, e4, e5, e6⟩ := pushMedia_target hinj hw b6 hnm2 s.nelt (fun id h => (hid id h).1) a t hrun
      have hpost := pushMedia_post hinj hw b6 s.nelt hid a t hrun
      obtain ⟨w1, s1, -, hpl⟩ := hpost
      have hkeep : ∃ l, Keeps l s.reg t.reg := by
        rw [← b10]
        split at hpl
        · obtain ⟨_, -, -, _, _, hk, -⟩ := hpl; exact ⟨_, hk⟩
        · exact ⟨_, hpl⟩
      obtain ⟨lk, hkeep⟩ := hkeep
      have hnt : (g ++ [nt])[g.length]? = some nt := by simp
      have hfm : f' g.length = m := by
        have hs := ht'.stack
        rw [e2, List.filter_cons, if_pos (by unfold objAt; rw [b1, hnt]; dsimp only; rw [htg]; decide), List.map_cons, b1] at hs
        exact (List.cons.inj hs).1.symm
      have hat : s2.attr s.nelt = nt.get := funext b8
      rw [hat] at e1 e4 e5 e6
      obtain ⟨hid1, hid2⟩ := hid id (by rw [hat]; exact e1)
      have hsub : ∀ a ∈ s.syn.unique, a ∈ t.syn.unique := fun a ha => by rw [s1]; exact b6 a ha
      have key : ∀ {j : Nat} {n : Note}, (g ++ [nt])[j]? = some n → (j < g.length ∧ g[j]? = some n) ∨ (j = g.length ∧ n = nt) := by
        intro j n hj
        by_cases hc : j < g.length
        · rw [List.getElem?_append_left hc] at hj; exact .inl ⟨hc, hj⟩
        · have hlt := (List.getElem?_eq_some_iff.1 hj).1
          have : j = g.length := by simp at hlt; omega
          subst this
          exact .inr ⟨rfl, by simpa using hj.symm⟩
      have hnone : ∀ r, t.reg.getById r = none → s.reg.getById r = none := by
        intro r h
        cases hc : s.reg.getById r with
        | none => rfl
        | some o => rw [getById_keeps ht.world.inv w1.inv hkeep hc] at h; cases h
      constructor
      · intro j i n m' r h1 h2 h3 h4 h5 h6
        rcases key h1 with ⟨a1, a2⟩ | ⟨a1, a2⟩ <;> rcases key h4 with ⟨c1, c2⟩ | ⟨c1, c2⟩
        · rw [hf j a1, hf i c1]; exact hk.2.done j i n m' r a2 h2 h3 c2 h5 h6
        · -- the element that was referred to
          subst c1 c2
          rw [e1] at h6; obtain rfl : id = r := by simpa using h6
          rw [hf j a1, hfm]
          have hpl' := (Note.kind_media h5).2
          cases hgb : s.reg.getById id with
          | none =>
            have := hk.2.wait j n id a2 h2 h3 hid1 hgb
            exact (e5 hpl' _ (by rw [b12]; exact this)).symm
          | some o =>
            exfalso
            obtain ⟨x, hx, hx1⟩ := (ht.world.inv.byId id o).1 hgb
            have hno : s.reg.node o id x.kind x.parent := ⟨x, hx, hx1, rfl, rfl⟩
            obtain ⟨i', q, q1, q2, q3⟩ := ht'.made g.length m' .media hnt h5
            rw [e1] at q1; obtain rfl : id = i' := by simpa using q1
            have hoo : f' g.length = o := by
              have d1 := q3.byId w1.inv
              rw [(hkeep.1 _ _ _ _ hno).byId w1.inv] at d1
              exact (Option.some.inj d1).symm
            have hsame : ∀ {r : Reg} {o : Nat} {a a' : String} {k k' : RKind} {p p' : Option Nat}, r.node o a k p → r.node o a' k' p' → a = a' ∧ k = k' ∧ p = p' := by
              rintro r o a a' k k' p p' ⟨y, g1, g2, g3, g4⟩ ⟨y', g1', g2', g3', g4'⟩
              have : y = y' := by have := g1.2; rw [g1'.2] at this; exact (Option.some.inj this).symm
              subst this
              exact ⟨g2.symm.trans g2', g3.symm.trans g3', g4.symm.trans g4'⟩
            rw [hoo] at q3
            have hpk := hsame (hkeep.1 _ _ _ _ hno) q3
            rcases ht.back o id x.kind x.parent hno with h | h | ⟨j', n', d1, d2, d3⟩
            · obtain ⟨y, g1, g2, -⟩ := ht.world.tree.root
              rw [← h, hx.2] at g1
              obtain rfl : x = y := by simpa using g1
              rw [g2] at hpk; cases hpk.2.2
            · have := (ht.world.inv.settings o h o).2 rfl
              obtain ⟨y, g1, g2⟩ := this
              have : x = y := by have := g1.2; rw [hx.2] at this; exact Option.some.inj this
              subst this
              rw [g2] at hpk; cases hpk.2.1
            · obtain ⟨kd, hkd⟩ := Option.isSome_iff_exists.1 d2
              obtain ⟨i2, q2, p1, p2, p3⟩ := ht.made j' n' kd d1 hkd
              rw [d3] at p3
              obtain rfl : id = i2 := (hsame hno p3).1
              refine hid1 (ht.seen n' (List.mem_of_getElem? d1) ?_ id p1)
              intro hl
              unfold Note.kind at hkd; rw [hl] at hkd; simp at hkd
        · subst a1 a2
          rw [hf i c1, hfm]
          obtain ⟨i', q, q1, q2, q3⟩ := ht.made i m' .media c2 h5
          rw [h6] at q1; obtain rfl : r = i' := by simpa using q1
          have hb := q3.byId ht.world.inv
          obtain ⟨y, y1, -, y3, -⟩ := q3
          exact (e4 r h3).1 (f i) y (by rw [b10]; exact hb) (by rw [b10]; exact y1.2) (.inl y3)
        · subst a1 a2 c2
          exfalso
          have := (Note.kind_media h5).2
          exact this fun hc => by rw [h3] at hc; cases hc.1
      · intro j n r h1 h2 h3 h4 h5
        rcases key h1 with ⟨a1, a2⟩ | ⟨a1, a2⟩
        · rw [hf j a1]
          refine e3 r (f j) (by rw [b12]; exact hk.2.wait j n r a2 h2 h3 (fun hc => h4 (hsub _ hc)) (hnone r h5)) (fun hc => h4 (hsub _ hc)) ?_
          rintro rfl
          exact h4 (by rw [s1]; exact hid2)
        · subst a1 a2
          rw [hfm]
          refine (e4 r h3).2 ?_
          rw [b10]
          unfold Reg.getByIdOrAlias
          rw [hnone r h5]
          dsimp only
          rw [List.find?_eq_none]
          intro o ho hal
          split at hal
          · next y hy =>
            unfold RObj.hasAlias at hal
            obtain ⟨p, hp1, hp2⟩ := List.any_eq_true.1 hal
            have hp2 : p.1 = r := by simpa using hp2
            have hseen : ∀ (j' : Nat) (n' : Note), g[j']? = some n' → n'.tag ≠ "link" → n'.get "id" = some r → False := fun j' n' d1 d2 d3 =>
              h4 (hsub _ (ht.seen n' (List.mem_of_getElem? d1) d2 r d3))
            rcases hnm.alias o y p hy hp1 with ⟨-, j', n', d1, d2, d3⟩ | ⟨-, j', n', d1, d2, -, d3, -⟩
            · exact hseen j' n' d1 (by rcases d2 with h | h <;> rw [h] <;> decide) (by rw [← hp2]; exact d3)
            · exact hseen j' n' d1 (by rw [d2]; decide) (by rw [← hp2]; exact d3)
          · cases hal
      · intro j n h1 h2 h3 h4
        rcases key h1 with ⟨a1, a2⟩ | ⟨a1, a2⟩
        · rw [hf j a1, hkeep.2.2.1]; exact hk.2.settings j n a2 h2 h3 h4
        · subst a1 a2
          rw [hfm, hkeep.2.2.1, ← b10]
          exact e6 h3 (Note.kind_none htg h4)
    -- the others
    have hrest : ∀ {l}, WorldOf E t → Keeps l s2.reg t.reg → t.syn = s2.syn → t.refer = s2.refer → RefK f' (g ++ [nt]) t := fun h1 h2 h3 h4 =>
      hk.2.same hf (fun a ha => by rw [h3]; exact b6 a ha) ht.world.inv h1.inv (by rw [← b10]; exact h2) (by rw [h4]; exact b12) (fun hc => c4 (htm.1 hc))
    by_cases c1 : e.push = .ncl
    · rw [c1] at hrun
      obtain ⟨w1, k1, o1, s1⟩ := pushNcl_post b5 s.nelt a t hrun
      exact hrest w1 k1 s1 (pushNcl_refer s.nelt s2 a t hrun)
    by_cases c2 : e.push = .context
    · rw [c2] at hrun
      obtain ⟨w1, s1, hp⟩ := pushContext_post hinj b5 s.nelt a t hrun
      have hr := pushContext_refer E s.nelt s2 a t hrun
      split at hp
      · obtain ⟨_, _, h1, -⟩ := hp; exact hrest w1 h1 s1 hr
      · obtain ⟨_, -, -, _, _, h1, -⟩ := hp; exact hrest w1 h1 s1 hr
    by_cases c3 : e.push = .switch
    · rw [c3] at hrun
      obtain ⟨_, -, ⟨w1, _, _, h1, -⟩, s1⟩ := pushSwitch_post hinj b5 s.nelt a t hrun
      exact hrest w1 h1 s1 (pushSwitch_refer E s.nelt s2 a t hrun)
    · have hst : OStep E s2 t ∧ SameRefer s2 t := by
        by_cases c5 : e.push = .region
        · rw [c5] at hrun
          exact ⟨PRel.pushRegion (ostep_atom hinj) E s.nelt (fun _ _ _ => ostep_same rfl rfl rfl rfl) s2 a t hrun,
            PRel.pushRegion (sameRefer_atom E) E s.nelt (fun _ _ _ => rfl) s2 a t hrun⟩
        · exact ⟨PRel.pushC (ostep_atom hinj) proc e.push s.nelt c5 himp c1 c2 c3 c4 (fun _ _ => trivial) (fun _ _ => trivial) ⟨fun _ => trivial, fun _ => trivial⟩ s2 a t hrun,
            PRel.pushC (sameRefer_atom E) proc e.push s.nelt c5 himp c1 c2 c3 c4 (fun _ _ => trivial) (fun _ _ => trivial) ⟨fun _ => trivial, fun _ => trivial⟩ s2 a t hrun⟩
      obtain ⟨w1, k1⟩ := hst.1.2 b5
      exact hrest w1 k1 hst.1.1 hst.2

end Ginga
