import Verif.Proofs.World
import Verif.Props.C42
/-!
# Elements and objects

Every context, switch and plain media element has its object, and the tree of these objects is the tree of the elements.
-/
namespace Ginga

/-- The elements that are open as objects. -/
def objTags : List String := ["ncl", "body", "context", "switch", "media"]

def objAt (g : List Note) (k : Nat) : Bool := match g[k]? with | some n => objTags.contains n.tag | none => false

/-- The kind of the object that an element stands for; none for elements that share the object of another one. -/
def Note.kind (n : Note) : Option RKind :=
  if n.tag = "switch" then some .switch
  else if n.tag = "context" then some .context
  else if n.tag = "media" ∧ n.get "refer" = none ∧ n.get "type" ≠ some "application/x-ginga-settings" ∧ n.get "type" ≠ some "application/x-ncl-settings"
  then some .media else none

structure TreeK (E : PRead) (f : Nat → Nat) (g : List Note) (S : List Nat) (s : PS) : Prop where
  world : WorldOf E s
  lt : ∀ k ∈ S, k < g.length
  seen : ∀ nt ∈ g, nt.tag ≠ "link" → ∀ i, nt.get "id" = some i → i ∈ s.syn.unique
  once : ∀ (a b : Nat) (m n : Note) i, g[a]? = some m → g[b]? = some n → m.tag ≠ "link" → n.tag ≠ "link" → m.get "id" = some i → n.get "id" = some i → a = b
  stack : s.objs = (S.filter (objAt g)).map f
  top : ∀ (k : Nat) nt, g[k]? = some nt → nt.tag = "ncl" ∨ nt.tag = "body" → f k = s.reg.root
  made : ∀ (k : Nat) nt kd, g[k]? = some nt → nt.kind = some kd → ∃ i q, nt.get "id" = some i ∧ nt.parent = some q ∧ s.reg.node (f k) i kd (some (f q))
  back : ∀ o id k p, s.reg.node o id k p → o = s.reg.root ∨ s.reg.settings = some o ∨ ∃ (j : Nat) (nt : Note), g[j]? = some nt ∧ nt.kind.isSome = true ∧ f j = o

def SameObjs (s t : PS) : Prop := t.objs = s.objs

theorem sameObjs_atom (E : PRead) : PAtom E (fun _ => True) SameObjs where
  refl _ := rfl
  trans h h' := Eq.trans h' h
  event o e _ s := by
    unfold addEvent
    exact PPost.bind (PPost.alloc (PPost.regOp fun _ _ _ => rfl))
  props _ _ _ _ _ _ := rfl
  par _ _ _ := rfl
  conn _ _ := rfl
  pred _ _ _ := rfl
  names _ _ := trivial
  attr _ _ _ _ _ := rfl
  elt _ _ _ _ _ _ := rfl

/-- The elements that the pop functions close as objects. -/
def popObjs : Pop → Bool
  | .context | .switch | .media => true
  | _ => false

theorem pop_objs (E : PRead) (n : Nat) (f : Pop) (k : Nat) (hf : f ≠ .ncl) (s : PS) :
    PPost (pop E n f k) (fun _ t => t.objs = if popObjs f then s.objs.tail else s.objs) s := by
  have hA := sameObjs_atom E
  have hpp : ∀ (s : PS) p, SameObjs s { s with ports := p } := fun _ _ => rfl
  have hpo : ∀ u : PS, u.objs = s.objs → PPost popObj (fun _ t => t.objs = s.objs.tail) u := fun u hu => PPost.modify (by rw [← hu])
  cases f
  case ncl => exact absurd rfl hf
  case none => exact PPost.pure rfl
  case region => exact PRel.popRegion hA (fun _ _ _ => rfl) s
  case causalConnector => exact PRel.popCausalConnector hA.toPCore hA.conn k s
  case compoundStatement => exact PRel.popCompoundStatement hA.toPCore k s
  case assessmentStatement => exact PRel.popAssessmentStatement hA.toPCore hA.pred k s
  case context =>
    show PPost (popContext n k) (fun _ t => t.objs = s.objs.tail) s
    unfold popContext
    refine PPost.bind (PPost.peekObj fun o l _ => PPost.bind (PPost.object fun x _ => ?_))
    split
    · refine PPost.bind (PPost.get (PPost.bind (((PRel.forEach hA.toPPre (fun id => ?_) _ : PRel SameObjs _) s).mono fun _ u hu => hpo u hu)))
      repeat' with_reducible first | exact PRel.resolveIface hA.toPCore _ _ _ | exact PRel.addPort hA.toPCore hpp _ _ | prel hA.toPCore
    · exact PPost.abort
  case switch =>
    show PPost (popSwitch E n k) (fun _ t => t.objs = s.objs.tail) s
    unfold popSwitch
    refine PPost.bind (PPost.peekObj fun o l _ => PPost.bind (PPost.object fun x _ => ?_))
    split
    · refine PPost.bind (PPost.get (PPost.bind ((PRel.resolveRules hA.toPCore o _ s).mono fun rs u hu => ?_)))
      refine PPost.bind (PPost.modify (PPost.bind (((PRel.forEach hA.toPPre (fun id => PRel.resolveSwitchPort hA.toPCore (fun _ _ => rfl) n o id) _ : PRel SameObjs _) _).mono fun _ v hv => hpo v ?_)))
      exact Eq.trans hv hu
    · exact PPost.abort
  case media =>
    show PPost popMedia (fun _ t => t.objs = s.objs.tail) s
    unfold popMedia
    refine PPost.bind (PPost.peekObj fun o l _ => PPost.bind (PPost.object fun x _ => ?_))
    split
    · exact hpo s rfl
    · exact PPost.abort

theorem table_objs : ∀ e ∈ syntaxTable, (objTags.contains e.tag = true ↔ popObjs e.pop = true ∨ e.pop = .ncl) ∧
    (objTags.contains e.tag = true ↔ e.push = .ncl ∨ e.push = .context ∨ e.push = .switch ∨ e.push = .media) ∧
    (e.push = .ncl ↔ e.tag = "ncl") ∧ (e.push = .context ↔ e.tag = "body" ∨ e.tag = "context") ∧ (e.push = .switch ↔ e.tag = "switch") ∧
    (e.push = .media ↔ e.tag = "media") ∧ (e.push = .importBase ↔ e.tag = "importBase") ∧ (e.tag = "body" → e.parents = ["ncl"]) ∧
    (e.tag = "context" ∨ e.tag = "switch" ∨ e.tag = "media" → e.parents = ["body", "context", "switch"]) := by decide +kernel

theorem table_tag_inj (e e' : EltSyn) (h : e ∈ syntaxTable) (h' : e' ∈ syntaxTable) (ht : e.tag = e'.tag) : e = e' := by
  have h1 := syntaxOf_complete h
  rw [ht, syntaxOf_complete h'] at h1
  exact (Option.some.inj h1).symm

theorem objAt_append {g : List Note} {l : List Note} {k : Nat} (h : k < g.length) : objAt (g ++ l) k = objAt g k := by
  unfold objAt; rw [List.getElem?_append_left h]

theorem objAt_last {g : List Note} {n : Note} : objAt (g ++ [n]) g.length = objTags.contains n.tag := by
  unfold objAt; rw [List.getElem?_append_right (Nat.le_refl _)]; simp

/-- The part of the step that is common to all elements. -/
theorem TreeK.push_base {E : PRead} {scr : Rect} {z0 : Nat} {f : Nat → Nat} {g : List Note} {S : List Nat} {s s2 : PS} {par : Option Nat}
    {pt : Option String} {x : Xml} {e : EltSyn} {r : List (String × String)} {y : SynSt} {nt : Note} (hn : NewElt E scr z0 g S s s2 par pt x e r y nt)
    (hk : TreeK E f g S s) :
    s.nelt = g.length ∧ nt.tag = x.tag ∧ e ∈ syntaxTable ∧ e.tag = x.tag ∧ WorldOf E s2 ∧ (∀ a ∈ s.syn.unique, a ∈ s2.syn.unique) ∧
    (∀ i, nt.tag ≠ "link" → nt.get "id" = some i → i ∉ s.syn.unique ∧ i ∈ s2.syn.unique) ∧
    (∀ a, s2.attr s.nelt a = nt.get a) ∧ (s2.elt s.nelt).tag = x.tag ∧ s2.reg = s.reg ∧ s2.objs = s.objs ∧ s2.refer = s.refer ∧ s2.nalloc = s.nalloc := by
  have hlen : s.nelt = g.length := hn.j.len.symm
  have hck := checkNode_ok hn.check
  obtain ⟨hmem, htag⟩ := syntaxOf_mem hck.1
  have htg : nt.tag = x.tag := by unfold Note.tag; rw [hn.xml]
  have hat := checkNode_attrs hn.check
  have hst := hn.state
  refine ⟨hlen, htg, hmem, htag, ?_, ?_, ?_, ?_, ?_, by rw [hst], by rw [hst], by rw [hst], by rw [hst]⟩
  · rw [hst]; exact World.grow hk.world (Nat.le_refl _) hck.2.1
  · rw [hst]; exact hck.2.1
  · intro i hl hi
    rcases hat.id hmem with h | h
    · have hg : nt.get "id" = (x.prop "id").map (aliasPrefix s.aliases ++ ·) := by unfold Note.get; rw [hn.attrs]; exact h
      rw [hg] at hi
      obtain ⟨j, hj, rfl⟩ := Option.map_eq_some_iff.1 hi
      rw [hst]
      exact (hck.2.2 rfl).2 j hj
    · exact absurd (by rw [htg, ← htag]; exact h.2) hl
  · intro a
    unfold PS.attr Note.get
    rw [hst, hn.attrs]
    show mget a (upd s.elt s.nelt _ s.nelt).attrs = _
    rw [upd_same]
  · rw [hst]; show (upd s.elt s.nelt _ s.nelt).tag = _; rw [upd_same]

/-- The end of the step, once the effect on objects is known. -/
theorem TreeK.push_end {E : PRead} {f : Nat → Nat} {g : List Note} {S : List Nat} {s t : PS} {nt : Note} (hk : TreeK E f g S s) (f' : Nat → Nat)
    (hf : ∀ k, k < g.length → f' k = f k)
    (hw : WorldOf E t) {l : List Nat} (hkeep : Keeps l s.reg t.reg) (hnew : ∀ o ∈ l, o = f' g.length ∧ nt.kind.isSome = true) (hsub : ∀ a ∈ s.syn.unique, a ∈ t.syn.unique)
    (hid : ∀ i, nt.tag ≠ "link" → nt.get "id" = some i → i ∉ s.syn.unique ∧ i ∈ t.syn.unique)
    (hstack : t.objs = if objTags.contains nt.tag then f' g.length :: s.objs else s.objs)
    (htop : nt.tag = "ncl" ∨ nt.tag = "body" → f' g.length = s.reg.root)
    (hpar : ∀ p, nt.parent = some p → p < g.length)
    (hmade : ∀ kd, nt.kind = some kd → ∃ i q, nt.get "id" = some i ∧ nt.parent = some q ∧ t.reg.node (f' g.length) i kd (some (f' q)))
    (hall : ∀ (k : Nat) n q, g[k]? = some n → n.parent = some q → q < g.length) : TreeK E f' (g ++ [nt]) (g.length :: S) t where
  world := hw
  lt k hk' := by
    rcases List.mem_cons.1 hk' with rfl | h
    · simp
    · have := hk.lt k h; simp; omega
  seen m hm hl i hi := by
    rcases List.mem_append.1 hm with h | h
    · exact hsub _ (hk.seen m h hl i hi)
    · obtain rfl : m = nt := by simpa using h
      exact (hid i hl hi).2
  once a b m n i ha hb hla hlb hia hib := by
    have key : ∀ (c : Nat) m, (g ++ [nt])[c]? = some m → (c < g.length ∧ g[c]? = some m) ∨ (c = g.length ∧ m = nt) := by
      intro c m h
      by_cases hc : c < g.length
      · rw [List.getElem?_append_left hc] at h; exact .inl ⟨hc, h⟩
      · rw [List.getElem?_append_right (by omega)] at h
        have : c - g.length = 0 := by
          cases hd : c - g.length with
          | zero => rfl
          | succ d => rw [hd] at h; simp at h
        rw [this] at h
        exact .inr ⟨by omega, by simpa using h.symm⟩
    rcases key a m ha with ⟨h1, h2⟩ | ⟨h1, h2⟩ <;> rcases key b n hb with ⟨h3, h4⟩ | ⟨h3, h4⟩
    · exact hk.once a b m n i h2 h4 hla hlb hia hib
    · subst h4; exact absurd (hk.seen m (List.mem_of_getElem? h2) hla i hia) (hid i hlb hib).1
    · subst h2; exact absurd (hk.seen n (List.mem_of_getElem? h4) hlb i hib) (hid i hla hia).1
    · omega
  stack := by
    have hfil : S.filter (objAt (g ++ [nt])) = S.filter (objAt g) := by
      refine List.filter_congr fun k hk' => ?_
      exact objAt_append (hk.lt k hk')
    have hmap : (S.filter (objAt g)).map f' = (S.filter (objAt g)).map f := by
      refine List.map_congr_left fun k hk' => hf k (hk.lt k (List.mem_filter.1 hk').1)
    rw [List.filter_cons, objAt_last, hfil, hstack]
    split
    · rw [List.map_cons, hmap, ← hk.stack]
    · rw [hmap, ← hk.stack]
  top k n hkn ht := by
    rw [hkeep.2.1]
    by_cases hc : k < g.length
    · rw [List.getElem?_append_left hc] at hkn
      rw [hf k hc]; exact hk.top k n hkn ht
    · have hlt := (List.getElem?_eq_some_iff.1 hkn).1
      have : k = g.length := by simp at hlt; omega
      subst this
      obtain rfl : nt = n := by simpa using hkn
      exact htop ht
  made k n kd hkn hkd := by
    by_cases hc : k < g.length
    · rw [List.getElem?_append_left hc] at hkn
      obtain ⟨i, q, h1, h2, h3⟩ := hk.made k n kd hkn hkd
      refine ⟨i, q, h1, h2, ?_⟩
      rw [hf k hc, hf q (hall k n q hkn h2)]
      exact hkeep.1 _ _ _ _ h3
    · have hlt := (List.getElem?_eq_some_iff.1 hkn).1
      have : k = g.length := by simp at hlt; omega
      subst this
      obtain rfl : nt = n := by simpa using hkn
      exact hmade kd hkd
  back o id kd p hno := by
    rw [hkeep.2.1, hkeep.2.2.1]
    rcases hkeep.2.2.2 o id kd p hno with h | h
    · rcases hk.back o id kd p h with h | h | ⟨j, n, h1, h2, h3⟩
      · exact .inl h
      · exact .inr (.inl h)
      · have hj := (List.getElem?_eq_some_iff.1 h1).1
        exact .inr (.inr ⟨j, n, by rw [List.getElem?_append_left hj]; exact h1, h2, by rw [hf j hj]; exact h3⟩)
    · obtain ⟨h1, h2⟩ := hnew o h
      exact .inr (.inr ⟨g.length, nt, by simp, h2, h1.symm⟩)

theorem TreeK.same {E : PRead} {f : Nat → Nat} {g : List Note} {S : List Nat} {s : PS} (h : TreeK E f g S s) (y : SynSt) (al : List (String × String))
    (ca : List Nat) (hU : ∀ a ∈ s.syn.unique, a ∈ y.unique) : TreeK E f g S { s with syn := y, aliases := al, cache := ca } :=
  ⟨World.grow h.world (Nat.le_refl _) hU, h.lt, fun n hn hl i hi => hU _ (h.seen n hn hl i hi), h.once, h.stack, h.top, h.made, h.back⟩

theorem TreeK.pop {E : PRead} (hinj : ∀ i j, E.addr i = E.addr j → i = j) {f : Nat → Nat} {g : List Note} {S : List Nat} {s t : PS} {k : Nat} {nt : Note} {e : EltSyn} {n : Nat} {a : Unit}
    (h : TreeK E f g (k :: S) s) (hg : g[k]? = some nt) (hsyn : syntaxOf nt.tag = some e) (hne : e.pop ≠ .ncl)
    (hrun : Ginga.pop E n e.pop k s = .ok (some (a, t))) : TreeK E f g S t := by
  obtain ⟨hmem, htag⟩ := syntaxOf_mem hsyn
  have hobj := pop_objs E n e.pop k hne s a t hrun
  have hw : WorldOf E t ∧ Keeps [] s.reg t.reg ∧ t.syn = s.syn := by
    have hst : OStep E s t := by
      by_cases hr : e.pop = .region
      · rw [hr] at hrun
        exact PRel.popRegion (ostep_atom hinj) (fun _ _ _ => ostep_same rfl rfl rfl rfl) s a t hrun
      · exact PRel.pop (ostep_atom hinj) (fun _ _ => ostep_same rfl rfl rfl rfl) n e.pop k (fun _ _ _ => ostep_same rfl rfl rfl rfl) (fun _ _ _ _ => ostep_same rfl rfl rfl rfl) (fun _ _ _ => ostep_same rfl rfl rfl rfl) hr (fun _ _ => trivial) ⟨fun _ => trivial, fun _ => ⟨trivial, trivial, trivial⟩⟩ s a t hrun
    exact ⟨(hst.2 h.world).1, (hst.2 h.world).2, hst.1⟩
  refine ⟨hw.1, fun j hj => h.lt j (by simp [hj]), fun n hn hl i hi => ?_, h.once, ?_, ?_, ?_, ?_⟩
  · rw [hw.2.2]; exact h.seen n hn hl i hi
  · have := h.stack
    rw [List.filter_cons] at this
    have hat : objAt g k = objTags.contains nt.tag := by unfold objAt; rw [hg]
    have hiff := (table_objs e hmem).1
    rw [htag] at hiff
    rw [hobj]
    cases hc : objTags.contains nt.tag with
    | true =>
      rw [hat, hc] at this
      have : popObjs e.pop = true := by
        rcases hiff.1 hc with h | h
        · exact h
        · exact absurd h hne
      simp_all
    | false =>
      rw [hat, hc] at this
      have : ¬ popObjs e.pop = true := fun h => by have := hiff.2 (.inl h); rw [hc] at this; cases this
      simp_all
  · intro k' n' h1 h2; rw [hw.2.1.2.1]; exact h.top k' n' h1 h2
  · intro k' n' kd h1 h2
    obtain ⟨i, q, g1, g2, g3⟩ := h.made k' n' kd h1 h2
    exact ⟨i, q, g1, g2, hw.2.1.1 _ _ _ _ g3⟩
  · intro o id kd p hno
    rw [hw.2.1.2.1, hw.2.1.2.2.1]
    rcases hw.2.1.2.2.2 _ _ _ _ hno with h' | h'
    · exact h.back _ _ _ _ h'
    · cases h'

theorem TreeK.imp {E : PRead} {scr : Rect} {z0 : Nat} {f : Nat → Nat} {g : List Note} {S : List Nat} {s s2 : PS} {par : Option Nat} {pt : Option String} {x : Xml} {e : EltSyn}
    {r : List (String × String)} {y : SynSt} {nt : Note} (h : TreeK E f g S s) (hn : NewElt E scr z0 g S s s2 par pt x e r y nt)
    (hpush : e.push = .importBase) : TreeK E f (g ++ [nt]) (s.nelt :: S) s2 := by
  obtain ⟨b1, b2, b3, b4, b5, b6, b7, b8, b9, b10, b11, b12, b13⟩ := h.push_base hn
  have tb := table_objs e b3
  have htg : nt.tag = "importBase" := by rw [b2, ← b4]; exact tb.2.2.2.2.2.2.1.1 hpush
  rw [b1]
  refine h.push_end f (fun _ _ => rfl) b5 (l := []) (by rw [b10]; exact Keeps.refl _) (by simp) b6 b7 ?_ ?_ ?_ ?_ ?_
  · rw [htg, b11]; simp [objTags]
  · rw [htg]; simp
  · intro p hp; rw [hn.parent] at hp; exact (hn.up p hp).1
  · intro kd hkd; unfold Note.kind at hkd; rw [htg] at hkd; simp at hkd
  · intro k n q hk hq
    have := ((hn.j.ok k n hk).parent q hq).1
    have := (List.getElem?_eq_some_iff.1 hk).1
    omega

theorem TreeK.push {E : PRead} (hinj : ∀ i j, E.addr i = E.addr j → i = j) {scr : Rect} {z0 : Nat} {f : Nat → Nat} {g : List Note} {S : List Nat} {s s2 : PS} {par : Option Nat} {pt : Option String} {x : Xml} {e : EltSyn}
    {r : List (String × String)} {y : SynSt} {nt : Note} {proc : Xml → PM Unit} {a : Unit} {t : PS} (h : TreeK E f g S s)
    (hn : NewElt E scr z0 g S s s2 par pt x e r y nt) (himp : e.push ≠ .importBase) (hrun : Ginga.push E proc e.push s.nelt s2 = .ok (some (a, t))) :
    ∃ f', (∀ k, k < g.length → f' k = f k) ∧ TreeK E f' (g ++ [nt]) (s.nelt :: S) t := by
  obtain ⟨b1, b2, b3, b4, b5, b6, b7, b8, b9, b10, b11, b12, b13⟩ := h.push_base hn
  have tb := table_objs e b3
  have hall : ∀ (k : Nat) n q, g[k]? = some n → n.parent = some q → q < g.length := by
    intro k n q hk hq
    have := ((hn.j.ok k n hk).parent q hq).1
    have := (List.getElem?_eq_some_iff.1 hk).1
    omega
  have hpar : ∀ p, nt.parent = some p → p < g.length := fun p hp => (hn.up p (by rw [← hn.parent]; exact hp)).1
  -- the enclosing object
  have hup : ∀ tags, e.parents = tags → tags ≠ [] → "head" ∉ tags → (∀ a ∈ tags, a ∈ objTags) →
      ∃ p m, nt.parent = some p ∧ g[p]? = some m ∧ m.tag ∈ tags ∧ ∃ l, s.objs = f p :: l := by
    intro tags ht hne hhead hsub
    cases hpr : par with
    | none =>
      exfalso
      obtain ⟨⟨e', he', ht', hpar', -⟩, -⟩ := ((checkNode_ok hn.check).2.2 rfl).1
      have : e' = e := by
        have h1 := (checkNode_ok hn.check).1
        have h2 : e'.tag = x.tag := ht'
        exact table_tag_inj e' e he' b3 (h2.trans b4.symm)
      subst this
      obtain ⟨p, hp1, hp2⟩ := hpar' (by rw [ht]; exact hne)
      have hp2' : pt = some p := hp2
      rcases hn.top hpr with ⟨h0, -⟩ | ⟨h0, -⟩
      · rw [h0] at hp2'; cases hp2'
      · rw [h0] at hp2'; cases hp2'; exact hhead (by rw [← ht]; exact hp1)
    | some p =>
      obtain ⟨h1, h2, m, h3, h4⟩ := hn.up p hpr
      refine ⟨p, m, by rw [hn.parent, hpr], h3, by rw [← ht]; exact h4, ?_⟩
      rw [h.stack]
      cases S with
      | nil => cases h2
      | cons a S' =>
        obtain rfl : a = p := by simpa using h2
        have : objAt g a = true := by unfold objAt; rw [h3]; exact List.contains_iff_mem.2 (hsub _ (ht ▸ h4))
        rw [List.filter_cons, this]
        exact ⟨_, rfl⟩
  by_cases c1 : e.push = .ncl
  · have htg : nt.tag = "ncl" := by rw [b2, ← b4]; exact tb.2.2.1.1 c1
    rw [c1] at hrun
    obtain ⟨w1, k1, o1, s1⟩ := pushNcl_post b5 s.nelt a t hrun
    refine ⟨fun k => if k = g.length then s.reg.root else f k, fun k hk => if_neg (by omega), ?_⟩
    rw [b1]
    refine h.push_end _ (fun k hk => by rw [if_neg (by omega)]) w1 (l := []) (by rw [← b10]; exact k1) (by simp) (by rw [s1]; exact b6) (by rw [s1]; exact b7) ?_ ?_ hpar ?_ hall
    · rw [htg, o1, b10, b11]; simp [objTags]
    · intro _; simp
    · intro kd hkd; unfold Note.kind at hkd; rw [htg] at hkd; simp at hkd
  by_cases c2 : e.push = .context
  · rw [c2] at hrun
    obtain ⟨w1, s1, o1⟩ := pushContext_post hinj b5 s.nelt a t hrun
    rw [b9] at o1
    rcases tb.2.2.2.1.1 c2 with htb | htb
    · have htg : nt.tag = "body" := by rw [b2, ← b4]; exact htb
      rw [if_pos (by rw [← b4]; exact htb)] at o1
      obtain ⟨o, l, k1, ho, ho'⟩ := o1
      obtain ⟨p, m, g1, g2, g3, l', g4⟩ := hup ["ncl"] (tb.2.2.2.2.2.2.2.1 htb) (by simp) (by simp) (by simp [objTags])
      have hof : o = s.reg.root := by
        rw [b11, g4] at ho
        have := (List.cons.inj ho).1
        rw [← this]
        exact h.top p m g2 (.inl (by simpa using g3))
      refine ⟨fun k => if k = g.length then s.reg.root else f k, fun k hk => if_neg (by omega), ?_⟩
      rw [b1]
      refine h.push_end _ (fun k hk => by rw [if_neg (by omega)]) w1 (l := []) (by rw [← b10]; exact k1) (by simp) (by rw [s1]; exact b6) (by rw [s1]; exact b7) ?_ ?_ hpar ?_ hall
      · rw [htg, ho', b11, hof]; simp [objTags]
      · intro _; simp
      · intro kd hkd; unfold Note.kind at hkd; rw [htg] at hkd; simp at hkd
    · have htg : nt.tag = "context" := by rw [b2, ← b4]; exact htb
      rw [if_neg (by rw [← b4, htb]; decide)] at o1
      obtain ⟨id, hid, -, o, p0, k1, ho, hnode, l0, hl0⟩ := o1
      obtain ⟨p, m, g1, g2, g3, l', g4⟩ := hup _ (tb.2.2.2.2.2.2.2.2 (.inl htb)) (by simp) (by simp) (by simp [objTags])
      have hp0 : p0 = f p := by rw [b11, g4] at hl0; exact (List.cons.inj hl0).1.symm
      refine ⟨fun k => if k = g.length then o else f k, fun k hk => if_neg (by omega), ?_⟩
      rw [b1]
      refine h.push_end _ (fun k hk => by rw [if_neg (by omega)]) w1 (l := [o]) (by rw [← b10]; exact k1) (fun o' ho' => by rw [List.mem_singleton.1 ho']; simp [Note.kind, htg]) (by rw [s1]; exact b6) (by rw [s1]; exact b7) ?_ ?_ hpar ?_ hall
      · rw [htg, ho, b11]; simp [objTags]
      · rw [htg]; simp
      · intro kd hkd
        have : kd = .context := by unfold Note.kind at hkd; rw [htg] at hkd; simpa using hkd.symm
        subst this
        refine ⟨id, p, by rw [← b8]; exact hid, g1, ?_⟩
        rw [if_pos rfl, if_neg (by have := hpar p g1; omega), ← hp0]
        exact hnode
  by_cases c3 : e.push = .switch
  · have htb := tb.2.2.2.2.1.1 c3
    have htg : nt.tag = "switch" := by rw [b2, ← b4]; exact htb
    rw [c3] at hrun
    obtain ⟨id, hid, ⟨w1, o, p0, k1, ho, hnode, l0, hl0⟩, s1⟩ := pushSwitch_post hinj b5 s.nelt a t hrun
    obtain ⟨p, m, g1, g2, g3, l', g4⟩ := hup _ (tb.2.2.2.2.2.2.2.2 (.inr (.inl htb))) (by simp) (by simp) (by simp [objTags])
    have hp0 : p0 = f p := by rw [b11, g4] at hl0; exact (List.cons.inj hl0).1.symm
    refine ⟨fun k => if k = g.length then o else f k, fun k hk => if_neg (by omega), ?_⟩
    rw [b1]
    refine h.push_end _ (fun k hk => by rw [if_neg (by omega)]) w1 (l := [o]) (by rw [← b10]; exact k1) (fun o' ho' => by rw [List.mem_singleton.1 ho']; simp [Note.kind, htg]) (by rw [s1]; exact b6) (by rw [s1]; exact b7) ?_ ?_ hpar ?_ hall
    · rw [htg, ho, b11]; simp [objTags]
    · rw [htg]; simp
    · intro kd hkd
      have : kd = .switch := by unfold Note.kind at hkd; rw [htg] at hkd; simpa using hkd.symm
      subst this
      refine ⟨id, p, by rw [← b8]; exact hid, g1, ?_⟩
      rw [if_pos rfl, if_neg (by have := hpar p g1; omega), ← hp0]
      exact hnode
  by_cases c4 : e.push = .media
  · have htb := tb.2.2.2.2.2.1.1 c4
    have htg : nt.tag = "media" := by rw [b2, ← b4]; exact htb
    rw [c4] at hrun
    have hw : World E s2.reg s2.nalloc s2.refer s.syn.unique := by rw [b10, b12, b13]; exact h.world
    obtain ⟨w1, s1, ⟨o, ho⟩, hpl⟩ := pushMedia_post hinj hw b6 s.nelt (fun id hid => b7 id (by rw [htg]; decide) (by rw [← b8]; exact hid)) a t hrun
    simp only [b8] at hpl
    have hkiff : nt.kind.isSome = true ↔ (nt.get "refer" = none ∧ nt.get "type" ≠ some "application/x-ginga-settings" ∧ nt.get "type" ≠ some "application/x-ncl-settings") := by
      unfold Note.kind
      rw [htg, if_neg (by decide), if_neg (by decide)]
      by_cases hc : nt.get "refer" = none ∧ nt.get "type" ≠ some "application/x-ginga-settings" ∧ nt.get "type" ≠ some "application/x-ncl-settings"
      · rw [if_pos ⟨rfl, hc⟩]; simp only [Option.isSome_some, true_iff]; exact hc
      · rw [if_neg (fun h => hc h.2)]; simp only [Option.isSome_none, Bool.false_eq_true, false_iff]; exact hc
    have hkk : Keeps (if nt.kind.isSome then [o] else []) s2.reg t.reg := by
      by_cases hc : nt.kind.isSome = true
      · rw [if_pos hc]
        rw [if_pos (hkiff.1 hc)] at hpl
        obtain ⟨id, hid, -, o', p0, k1, ho', -⟩ := hpl
        have hoo : o' = o := by rw [ho] at ho'; exact (List.cons.inj ho').1.symm
        rw [← hoo]; exact k1
      · rw [if_neg hc]
        rw [if_neg (fun h => hc (hkiff.2 h))] at hpl
        exact hpl
    obtain ⟨p, m, g1, g2, g3, l', g4⟩ := hup _ (tb.2.2.2.2.2.2.2.2 (.inr (.inr htb))) (by simp) (by simp) (by simp [objTags])
    refine ⟨fun k => if k = g.length then o else f k, fun k hk => if_neg (by omega), ?_⟩
    rw [b1]
    refine h.push_end _ (fun k hk => by rw [if_neg (by omega)]) w1 (l := if nt.kind.isSome then [o] else []) (by rw [← b10]; exact hkk) (fun o' ho' => by split at ho' <;> simp_all) (by rw [s1]; exact b6) (by rw [s1]; exact b7) ?_ ?_ hpar ?_ hall
    · rw [htg, ho, b11]; simp [objTags]
    · rw [htg]; simp
    · intro kd hkd
      unfold Note.kind at hkd
      rw [htg, if_neg (by decide), if_neg (by decide)] at hkd
      split at hkd
      · next hc =>
        cases hkd
        rw [if_pos hc.2] at hpl
        obtain ⟨id, hid, -, o', p0, -, ho', hnode, l0, hl0⟩ := hpl
        have hoo : o' = o := by rw [ho] at ho'; exact (List.cons.inj ho').1.symm
        have hp0 : p0 = f p := by rw [b11, g4] at hl0; exact (List.cons.inj hl0).1.symm
        refine ⟨id, p, hid, g1, ?_⟩
        rw [if_pos rfl, if_neg (by have := hpar p g1; omega), ← hp0, ← hoo]
        exact hnode
      · cases hkd
  · have hnot : objTags.contains nt.tag = false := by
      cases hc : objTags.contains nt.tag with
      | false => rfl
      | true =>
        exfalso
        rw [b2, ← b4] at hc
        rcases tb.2.1.1 hc with h | h | h | h
        · exact c1 h
        · exact c2 h
        · exact c3 h
        · exact c4 h
    have hst : OStep E s2 t ∧ SameObjs s2 t := by
      by_cases c5 : e.push = .region
      · rw [c5] at hrun
        exact ⟨PRel.pushRegion (ostep_atom hinj) E s.nelt (fun _ _ _ => ostep_same rfl rfl rfl rfl) s2 a t hrun,
          PRel.pushRegion (sameObjs_atom E) E s.nelt (fun _ _ _ => rfl) s2 a t hrun⟩
      · exact ⟨PRel.pushC (ostep_atom hinj) proc e.push s.nelt c5 himp c1 c2 c3 c4 (fun _ _ => trivial) (fun _ _ => trivial) ⟨fun _ => trivial, fun _ => trivial⟩ s2 a t hrun,
          PRel.pushC (sameObjs_atom E) proc e.push s.nelt c5 himp c1 c2 c3 c4 (fun _ _ => trivial) (fun _ _ => trivial) ⟨fun _ => trivial, fun _ => trivial⟩ s2 a t hrun⟩
    obtain ⟨⟨s1, hww⟩, ho⟩ := hst
    obtain ⟨w1, k1⟩ := hww b5
    refine ⟨f, fun _ _ => rfl, ?_⟩
    rw [b1]
    refine h.push_end f (fun _ _ => rfl) w1 (l := []) (by rw [← b10]; exact k1) (by simp) (by rw [s1]; exact b6) (by rw [s1]; exact b7) ?_ ?_ hpar ?_ hall
    · rw [hnot]; simp only [Bool.false_eq_true, if_false]; exact Eq.trans ho b11
    · intro ht; rcases ht with ht | ht <;> (rw [ht] at hnot; simp [objTags] at hnot)
    · intro kd hkd
      exfalso
      unfold Note.kind at hkd
      have n1 : nt.tag ≠ "switch" := by intro ht; rw [ht] at hnot; simp [objTags] at hnot
      have n2 : nt.tag ≠ "context" := by intro ht; rw [ht] at hnot; simp [objTags] at hnot
      have n3 : nt.tag ≠ "media" := by intro ht; rw [ht] at hnot; simp [objTags] at hnot
      simp [n1, n2, n3] at hkd


/-- A property of the parser state, of the elements so far and those that are open, and of the objects of the elements. -/
structure Extra (E : PRead) (scr : Rect) (z0 : Nat) (P : (Nat → Nat) → List Note → List Nat → PS → Prop) : Prop where
  same : ∀ f g S s y al ca, (∀ a ∈ s.syn.unique, a ∈ y.unique) → P f g S s → P f g S { s with syn := y, aliases := al, cache := ca }
  push : ∀ f f' g S s s2 par pt x e r y nt proc a t, NewElt E scr z0 g S s s2 par pt x e r y nt → TreeK E f g S s → P f g S s → e.push ≠ .importBase →
    push E proc e.push s.nelt s2 = .ok (some (a, t)) → Pushed E e.push s2 t s.nelt → J E scr z0 (g ++ [nt]) t → (∀ k, k < g.length → f' k = f k) →
    TreeK E f' (g ++ [nt]) (s.nelt :: S) t → P f' (g ++ [nt]) (s.nelt :: S) t
  imp : ∀ f g S s s2 par pt x e r y nt, NewElt E scr z0 g S s s2 par pt x e r y nt → TreeK E f g S s → P f g S s → e.push = .importBase →
    P f (g ++ [nt]) (s.nelt :: S) s2
  pop : ∀ f g O S s k nt e n a t, J E scr z0 g s → ((∃ π, PI g O π s) ∧ KC g s) → TreeK E f g (k :: S) s → P f g (k :: S) s → g[k]? = some nt → syntaxOf nt.tag = some e → e.pop ≠ .ncl →
    pop E n e.pop k s = .ok (some (a, t)) → Popped e.pop s t k → TreeK E f g S t → P f g S t

theorem extra_rides {E : PRead} (hinj : ∀ i j, E.addr i = E.addr j → i = j) {scr : Rect} {z0 : Nat} {P : (Nat → Nat) → List Note → List Nat → PS → Prop}
    (hP : Extra E scr z0 P) : Rides E scr z0 (fun g S s => ∃ f, TreeK E f g S s ∧ P f g S s) where
  same g S s y al ca hU := by
    rintro ⟨f, h, h'⟩
    exact ⟨f, h.same y al ca hU, hP.same f g S s y al ca hU h'⟩
  push g S s s2 par pt x e r y nt proc a t hn := by
    rintro ⟨f, h, h'⟩ himp hrun hp hj
    obtain ⟨f', hf, ht⟩ := h.push hinj hn himp hrun
    exact ⟨f', ht, hP.push f f' g S s s2 par pt x e r y nt proc a t hn h h' himp hrun hp hj hf ht⟩
  imp g S s s2 par pt x e r y nt hn := by
    rintro ⟨f, h, h'⟩ hpush
    exact ⟨f, h.imp hn hpush, hP.imp f g S s s2 par pt x e r y nt hn h h' hpush⟩
  pop g O S s k nt e n a t hj hpi := by
    rintro ⟨f, h, h'⟩ hg hsyn hne hrun hp
    have ht := h.pop hinj hg hsyn hne hrun
    exact ⟨f, ht, hP.pop f g O S s k nt e n a t hj hpi h h' hg hsyn hne hrun hp ht⟩

theorem Extra.triv (E : PRead) (scr : Rect) (z0 : Nat) : Extra E scr z0 (fun _ _ _ _ => True) :=
  ⟨by intros; trivial, by intros; trivial, by intros; trivial, by intros; trivial⟩

theorem Extra.and {E : PRead} {scr : Rect} {z0 : Nat} {P Q : (Nat → Nat) → List Note → List Nat → PS → Prop} (h : Extra E scr z0 P) (h' : Extra E scr z0 Q) :
    Extra E scr z0 (fun f g S s => P f g S s ∧ Q f g S s) where
  same f g S s y al ca hU hk := ⟨h.same f g S s y al ca hU hk.1, h'.same f g S s y al ca hU hk.2⟩
  push f f' g S s s2 par pt x e r y nt proc a t hn ht hk h1 h2 h3 h4 h5 h6 :=
    ⟨h.push f f' g S s s2 par pt x e r y nt proc a t hn ht hk.1 h1 h2 h3 h4 h5 h6, h'.push f f' g S s s2 par pt x e r y nt proc a t hn ht hk.2 h1 h2 h3 h4 h5 h6⟩
  imp f g S s s2 par pt x e r y nt hn ht hk h1 := ⟨h.imp f g S s s2 par pt x e r y nt hn ht hk.1 h1, h'.imp f g S s s2 par pt x e r y nt hn ht hk.2 h1⟩
  pop f g O S s k nt e n a t hj hpi ht hk h1 h2 h3 h4 h5 h6 :=
    ⟨h.pop f g O S s k nt e n a t hj hpi ht hk.1 h1 h2 h3 h4 h5 h6, h'.pop f g O S s k nt e n a t hj hpi ht hk.2 h1 h2 h3 h4 h5 h6⟩

theorem Rides.extra {E : PRead} {scr : Rect} {z0 : Nat} {K : List Note → List Nat → PS → Prop} (h : Rides E scr z0 K) :
    Extra E scr z0 (fun _ g S s => K g S s) where
  same _ g S s y al ca hU hk := h.same g S s y al ca hU hk
  push _ _ g S s s2 par pt x e r y nt proc a t hn _ hk h1 h2 h3 h4 _ _ := h.push g S s s2 par pt x e r y nt proc a t hn hk h1 h2 h3 h4
  imp _ g S s s2 par pt x e r y nt hn _ hk h1 := h.imp g S s s2 par pt x e r y nt hn hk h1
  pop _ g O S s k nt e n a t hj hpi _ hk h1 h2 h3 h4 h5 _ := h.pop g O S s k nt e n a t hj hpi hk h1 h2 h3 h4 h5

theorem tree_rides {E : PRead} (hinj : ∀ i j, E.addr i = E.addr j → i = j) (scr : Rect) (z0 : Nat) :
    Rides E scr z0 (fun g S s => ∃ f, TreeK E f g S s) where
  same g S s y al ca hU := by
    rintro ⟨f, h⟩
    exact ⟨f, h.same y al ca hU⟩
  push g S s s2 par pt x e r y nt proc a t hn := by
    rintro ⟨f, h⟩ himp hrun hp hj
    obtain ⟨f', -, ht⟩ := h.push hinj hn himp hrun
    exact ⟨f', ht⟩
  imp g S s s2 par pt x e r y nt hn := by
    rintro ⟨f, h⟩ hpush
    exact ⟨f, h.imp hn hpush⟩
  pop g O S s k nt e n a t hj _ := by
    rintro ⟨f, h⟩ hg hsyn hne hrun hp
    exact ⟨f, h.pop hinj hg hsyn hne hrun⟩

/-- The objects of a new document. -/
theorem newDoc_world {E : PRead} (hinj : ∀ i j, E.addr i = E.addr j → i = j) {reg : Reg}
    (h : newDoc (E.addr 0) (E.addr 1) (E.addr 2) (E.addr 3) (E.addr 4) = .ok reg) : World E reg 5 [] [] := by
  have ne : ∀ i j, i ≠ j → E.addr i ≠ E.addr j := fun i j hij h => hij (hinj i j h)
  obtain ⟨ho, hm, hid, h1, h2, h3, h4, h5⟩ := newDoc_has (ne 0 1 (by decide)) h
  obtain ⟨hi, -⟩ := newDoc_inv _ _ _ _ _ (ne 0 1 (by decide)) _ h
  have f1 := newObj_fields .context "__root__" (E.addr 2) 0
  have f2 := newObj_fields .settings "__settings__" (E.addr 3) (E.addr 4)
  have e1 : ∀ p ∈ (newObj .context "__root__" (E.addr 2) 0).events, p.1 = E.addr 2 := by
    intro p hp
    simp [newObj, RObj.addEvent, RObj.getEvent, einsert] at hp
    rw [hp]
  have e2 := fun p hp => newObj_events .settings "__settings__" (E.addr 3) (E.addr 4) p hp
  refine ⟨hi, newDoc_tree (ne 0 1 (by decide)) h, ?_, ?_, ?_, ?_, ?_, ?_, ?_, by simp⟩
  · intro o x hx
    rcases (ho o x).1 hx with ⟨rfl, -⟩ | ⟨rfl, -⟩
    · exact ⟨1, by decide, rfl⟩
    · exact ⟨0, by decide, rfl⟩
  · intro o x a e hx ha
    rcases (ho o x).1 hx with ⟨-, rfl⟩ | ⟨-, rfl⟩
    · rcases e2 _ ha with h | h
      · exact ⟨3, by decide, h⟩
      · exact ⟨4, by decide, h⟩
    · exact ⟨2, by decide, e1 _ ha⟩
  · intro o o' x x' a e e' hx hx' ha ha'
    rcases (ho o x).1 hx with ⟨rfl, rfl⟩ | ⟨rfl, rfl⟩ <;> rcases (ho o' x').1 hx' with ⟨rfl, rfl⟩ | ⟨rfl, rfl⟩
    · rfl
    · exfalso
      have h6 : a = E.addr 2 := e1 _ ha'
      rcases e2 _ ha with h | h
      · have h : a = E.addr 3 := h
        exact ne 2 3 (by decide) (h6.symm.trans h)
      · have h : a = E.addr 4 := h
        exact ne 2 4 (by decide) (h6.symm.trans h)
    · exfalso
      have h6 : a = E.addr 2 := e1 _ ha
      rcases e2 _ ha' with h | h
      · have h : a = E.addr 3 := h
        exact ne 2 3 (by decide) (h6.symm.trans h)
      · have h : a = E.addr 4 := h
        exact ne 2 4 (by decide) (h6.symm.trans h)
    · rfl
  · intro o x hx
    rcases (ho o x).1 hx with ⟨-, rfl⟩ | ⟨-, rfl⟩
    · exact newObj_evNodup _ _ _ _ (ne 3 4 (by decide))
    · simp [newObj, RObj.addEvent, RObj.getEvent, einsert]
  · intro o x hx
    rcases (ho o x).1 hx with ⟨-, rfl⟩ | ⟨-, rfl⟩
    · simp [f2]
    · simp [f1]
  · rw [newDoc_eq _ _ _ _ _ (ne 0 1 (by decide))] at h
    cases h
    simp only [sinsert]
    split
    · simp
    · split <;> simp_all <;> omega
  · exact ⟨E.addr 1, _, h5, (ho _ _).2 (.inl ⟨rfl, rfl⟩), by simp [f2], by simp [h4]⟩

theorem tree_init {E : PRead} (hinj : ∀ i j, E.addr i = E.addr j → i = j) (W H : Int) (z : Nat) {reg : Reg}
    (h : newDoc (E.addr 0) (E.addr 1) (E.addr 2) (E.addr 3) (E.addr 4) = .ok reg) : ∃ f, TreeK E f [] [] (PS.init W H z reg 5) := by
  have ne : ∀ i j, i ≠ j → E.addr i ≠ E.addr j := fun i j hij h => hij (hinj i j h)
  refine ⟨fun _ => 0, ⟨newDoc_world hinj h, by simp, by simp, by simp, rfl, by simp, by simp, ?_⟩⟩
  rintro o id k p ⟨x, hx, -⟩
  obtain ⟨ho, hm, hid, h1, h2, h3, h4, h5⟩ := newDoc_has (ne 0 1 (by decide)) h
  rcases (hm o).1 hx.1 with rfl | rfl
  · exact .inl h4.symm
  · exact .inr (.inl h5)

/-- The elements and the objects of an accepted document. -/
theorem tree_final {E : PRead} (hinj : ∀ i j, E.addr i = E.addr j → i = j) {n : Nat} {W H : Int} {z : Nat} {x : Xml} {t : PS}
    (h : parseXml E n W H z x = .ok (some t)) :
    ∃ (ns : List Note) (f : Nat → Nat), Laid E [] none none 0 [x] ns ∧ WorldOf E t ∧
      (∀ (a b : Nat) (m n : Note) i, ns[a]? = some m → ns[b]? = some n → m.tag ≠ "link" → n.tag ≠ "link" → m.get "id" = some i → n.get "id" = some i → a = b) ∧
      (∀ (k : Nat) nt, ns[k]? = some nt → nt.tag = "ncl" ∨ nt.tag = "body" → f k = t.reg.root) ∧
      (∀ (k : Nat) nt kd, ns[k]? = some nt → nt.kind = some kd → ∃ i q, nt.get "id" = some i ∧ nt.parent = some q ∧ t.reg.node (f k) i kd (some (f q))) ∧
      (∀ o id k p, t.reg.node o id k p → o = t.reg.root ∨ t.reg.settings = some o ∨ ∃ (j : Nat) (nt : Note), ns[j]? = some nt ∧ nt.kind.isSome = true ∧ f j = o) := by
  obtain ⟨ns, m, u, h1, h2, h3, h4, h5, h6⟩ := root_laidK (tree_rides hinj _ _) (fun reg hreg => tree_init hinj W H z hreg) h
  obtain ⟨f, hk⟩ := h5.k
  have hst : OStep E u t := PRel.popNcl (ostep_atom hinj) (fun _ _ => ostep_same rfl rfl rfl rfl) (fun _ _ _ => ostep_same rfl rfl rfl rfl) m (fun _ => trivial) ⟨trivial, trivial, trivial⟩ u _ _ h6
  obtain ⟨w, k⟩ := hst.2 hk.world
  refine ⟨ns, f, h4, w, hk.once, ?_, ?_, ?_⟩
  · intro j nt hj ht; rw [k.2.1]; exact hk.top j nt hj ht
  · intro j nt kd hj ht
    obtain ⟨i, q, g1, g2, g3⟩ := hk.made j nt kd hj ht
    exact ⟨i, q, g1, g2, k.1 _ _ _ _ g3⟩
  · intro o id kd p hno
    rw [k.2.1, k.2.2.1]
    rcases k.2.2.2 _ _ _ _ hno with h' | h'
    · exact hk.back _ _ _ _ h'
    · cases h'

end Ginga
