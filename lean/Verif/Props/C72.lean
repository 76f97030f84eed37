import Verif.Proofs.PortK
import Verif.Proofs.LinkAll
import Verif.Props.C53
import Verif.Props.C44
/-!
# C72: the ports of a context or switch are those of the document

The object of a context, of the body or of a switch has the ports that its element contains, in document order, each leading to the event that its attributes
`component` and `interface` name: the whole component, one of its anchors or properties, a port of a switch, or what a port of an inner context leads to.
-/
namespace Ginga

/-! ## Specification -/

/-- In the context, body or switch `c`, the attribute `component` of the port or mapping `b` names `d`, whose object is `o`: a child of `c`, or `c` itself.
(`d` is an element with an object of its own: not a media element that refers to another one, nor one of the settings.) -/
structure PartOf (r : Reg) (c b d : Xml) (o : Nat) : Prop where
  scope : d ∈ c.children ∨ d = c
  kind : (eltKind d).isSome = true
  name : ∃ i, b.prop "component" = some i ∧ d.prop "id" = some i ∧ r.getById i = some o

/-- In the context, body or switch `c` of the document `x`, the attribute `component` of the port or mapping `b` names `d`, a child of `c` that is a media element with no object of its
own: it refers to another one, or it is one of the settings.  Its object is `o`.  Its identifier is not one of the parser's, and no element refers to it if it is a settings element. -/
structure ShareOf (x : Xml) (r : Reg) (c b d : Xml) (o : Nat) : Prop where
  child : d ∈ c.children
  media : d.tag = "media"
  kind : eltKind d = none
  obj : ObjOf x r d o
  name : ∃ a, b.prop "component" = some a ∧ d.prop "id" = some a ∧ Unshared x d a

/-- In `c`, the port or mapping `b` leads to the event `e`. -/
inductive PortTo (x : Xml) (r : Reg) : Xml → Xml → Nat → Prop
  /-- no interface: the whole component -/
  | whole {c b d o X p} : PartOf r c b d o → b.prop "interface" = none → r.obj o = some X → X.getEvent .presentation "@lambda" = some p → PortTo x r c b p.1
  /-- the area of a media object -/
  | anchor {c b d o X p a} : PartOf r c b d o → eltKind d = some .media → b.prop "interface" = some a → r.obj o = some X → X.getEvent .presentation a = some p →
      (∃ y ∈ d.children, y.tag = "area" ∧ y.prop "id" = some a) ∨ X.getEvent .attribution a = none → PortTo x r c b p.1
  /-- a property of a media object, that has no area of that name -/
  | property {c b d o X p a} : PartOf r c b d o → eltKind d = some .media → b.prop "interface" = some a → r.obj o = some X → X.getEvent .attribution a = some p →
      X.getEvent .presentation a = none → PortTo x r c b p.1
  /-- a port of a switch -/
  | switch {c b d o X p a} : PartOf r c b d o → eltKind d = some .switch → b.prop "interface" = some a → r.obj o = some X → X.getEvent .presentation a = some p →
      PortTo x r c b p.1
  /-- a property of the context itself -/
  | self {c b o X p a} : PartOf r c b c o → c.tag = "context" → b.prop "interface" = some a → r.obj o = some X → X.getEvent .attribution a = some p → PortTo x r c b p.1
  /-- a port of an inner context: what that port leads to -/
  | port {c b d y o a e} : PartOf r c b d o → d ∈ c.children → d.tag = "context" → b.prop "interface" = some a → y ∈ d.children → y.tag = "port" →
      y.prop "id" = some a → PortTo x r d y e → PortTo x r c b e
  /-- a property of an inner context, that has no port of that name -/
  | inner {c b d o X p a} : PartOf r c b d o → d ∈ c.children → d.tag = "context" → b.prop "interface" = some a → (∀ y ∈ d.children, y.tag = "port" → y.prop "id" ≠ some a) →
      r.obj o = some X → X.getEvent .attribution a = some p → PortTo x r c b p.1
  /-- no interface: the whole object that the element shares -/
  | shared {c b d o X p} : ShareOf x r c b d o → b.prop "interface" = none → r.obj o = some X → X.getEvent .presentation "@lambda" = some p → PortTo x r c b p.1
  /-- an area or property of the object that the element shares -/
  | part {c b d o X p a} : ShareOf x r c b d o → b.prop "interface" = some a → r.obj o = some X →
      (X.getEvent .presentation a = some p ∧ X.getEvent .attribution a = none ∨ X.getEvent .attribution a = some p ∧ X.getEvent .presentation a = none) → PortTo x r c b p.1

/-- The events of the list are those that the ports or mappings `l` of `c` lead to, in order; and what each of them names as its component is there. -/
def PortsTo (x : Xml) (r : Reg) (c : Xml) (l : List Xml) (L : List Nat) : Prop := Each (fun b e => (∀ e', PortTo x r c b e' → e = e') ∧ ∀ a, b.prop "component" = some a → HasName x a) l L

/-! ## Proof -/

section
variable {E : PRead} {scr : Rect} {x : Xml} {t : PS} {ns : List Note} {f : Nat → Nat}

theorem PartOf.found (hd : DocTree E scr x t ns f) {k b : Nat} {nk nb : Note} {d : Xml} {o : Nat} (hk : ns[k]? = some nk) (hb : ns[b]? = some nb)
    (hbt : nb.tag = "port" ∨ nb.tag = "mapping") (h : PartOf t.reg nk.xml nb.xml d o) : ∃ (i : Nat) (md : Note), md.xml = d ∧ md.kind = eltKind d ∧ NComp ns k b i md ∧ f i = o ∧
      (d ∈ nk.xml.children → md.parent = some k ∧ i ≠ k) ∧ (d = nk.xml → i = k) ∧ ∀ i' m', NComp ns k b i' m' → i' = i ∧ m' = md := by
  obtain ⟨a, h1, h2, h3⟩ := h.name
  obtain ⟨i, md, d1, d2, d3⟩ : ∃ (i : Nat) (md : Note), ns[i]? = some md ∧ md.xml = d ∧ (d ∈ nk.xml.children ∧ md.parent = some k ∨ d = nk.xml ∧ i = k) := by
    rcases h.scope with hdc | rfl
    · obtain ⟨i, md, h1, h2, h3⟩ := child_note hd hk hdc
      exact ⟨i, md, h1, h2, .inl ⟨hdc, h3⟩⟩
    · exact ⟨k, nk, hk, rfl, .inr ⟨rfl, rfl⟩⟩
  have hdt : d.tag ∈ bodyTags := by
    have hh := h.kind
    unfold eltKind at hh
    split at hh
    · next g => rw [g]; decide
    · split at hh
      · next g => rw [g]; decide
      · split at hh
        · next g => rw [g.1]; decide
        · cases hh
  have htag : md.tag = d.tag := by unfold Note.tag; rw [d2]
  have hp := (hd.main _ i md (Nat.lt_succ_self _) d1 (by rw [htag]; exact hdt)).2.1
  have hok := hd.ok i md d1
  have hkind : md.kind = eltKind d := by rw [Note.kind_main hok hp, d2]
  have hks : md.kind.isSome = true := by rw [hkind]; exact h.kind
  have hid : md.get "id" = some a := by rw [Note.get_main hok hp "id" (.inl (Note.kind_ne hks).1), d2]; exact h2
  have hcomp : nb.get "component" = some a := by
    have hbp := (hd.main _ b nb (Nat.lt_succ_self _) hb (by rcases hbt with h | h <;> rw [h] <;> decide)).2.1
    rw [Note.get_main (hd.ok b nb hb) hbp "component" (.inr (by decide))]; exact h1
  have hfo : f i = o := by
    obtain ⟨kd, hkd⟩ := Option.isSome_iff_exists.1 hks
    obtain ⟨i', q, e1, e2, e3⟩ := hd.made i md kd d1 hkd
    rw [hid] at e1; cases e1
    have := e3.byId hd.world.inv
    rw [h3] at this
    exact (Option.some.inj this).symm
  have hne : md.parent = some k → i ≠ k := fun hpp hc => by have := ((hd.ok i md d1).parent k hpp).1; omega
  refine ⟨i, md, d2, hkind, ⟨d1, hks, ⟨nb, a, hb, hcomp, hid⟩, d3.imp (·.2) (·.2)⟩, hfo, fun hc => ?_, fun hc => ?_, fun i' m' hN => ?_⟩
  · rcases d3 with ⟨-, h4⟩ | ⟨h4, -⟩
    · exact ⟨h4, hne h4⟩
    · rw [h4] at hc; exact absurd hc (not_own_child _)
  · rcases d3 with ⟨h4, -⟩ | ⟨-, h4⟩
    · rw [hc] at h4; exact absurd h4 (not_own_child _)
    · exact h4
  · obtain ⟨mb, a', g1, g2, g3⟩ := hN.name
    rw [hb] at g1; cases g1
    rw [hcomp] at g2; cases g2
    have := hd.once i' i m' md a hN.at' d1 (Note.kind_ne hN.kind).1 (Note.kind_ne hks).1 g3 hid
    subst this
    have := hN.at'
    rw [d1] at this; cases this
    exact ⟨rfl, rfl⟩

/-- The objects of the elements that have none of their own, and their identifiers; the names of the document. -/
def Shares (x : Xml) (r : Reg) (ns : List Note) (f : Nat → Nat) : Prop :=
  (∀ (i : Nat) (md : Note) (o : Nat), ns[i]? = some md → eltKind md.xml = none → ObjOf x r md.xml o → f i = o) ∧ ClearAt x ns r ∧ ∀ a, NamedIn ns a → HasName x a

theorem shared_kind (hd : DocTree E scr x t ns f) {d : Xml} {o : Nat} {X : RObj} (hm : d.tag = "media") (hk : eltKind d = none) (h : ObjOf x t.reg d o) (hX : t.reg.obj o = some X) :
    X.kind = .media ∨ X.kind = .settings := by
  cases h with
  | own h _ _ => rw [hk] at h; cases h
  | body h => rw [hm] at h; exact absurd h (by decide)
  | settings _ _ _ h4 =>
    obtain ⟨b, z, g1, g2, g3, -⟩ := hd.world.settings
    rw [h4] at g1; cases g1
    rw [hX] at g2; cases g2
    exact .inr g3
  | refer h1 h2 h3 h4 h5 h6 =>
    left
    obtain ⟨j, m', -, -, g1, g2, g3, -, -⟩ := hd.laid.inside h3
    have hokm := hd.ok j m' g1
    have hmk : m'.kind = some .media := by rw [Note.kind_main hokm g3, g2]; exact h4
    have hid := (by rw [Note.get_main hokm g3 "id" (.inl (Note.kind_ne (by rw [hmk]; rfl)).1), g2]; exact h5 : m'.get "id" = some _)
    obtain ⟨a', q', e1, e2, e3⟩ := hd.made j m' _ g1 hmk
    rw [hid] at e1; cases e1
    rw [e3.byId hd.world.inv] at h6; cases h6
    obtain ⟨Y, ⟨-, y1⟩, -, y2, -⟩ := e3
    rw [hX] at y1; cases y1
    exact y2

theorem ShareOf.found (hd : DocTree E scr x t ns f) (hsh : Shares x t.reg ns f) {k b : Nat} {nk nb : Note} {d : Xml} {o : Nat} (hk : ns[k]? = some nk) (hb : ns[b]? = some nb)
    (hbt : nb.tag = "port" ∨ nb.tag = "mapping") (h : ShareOf x t.reg nk.xml nb.xml d o) {e : Nat} (hF : Found f ns [0] t.reg k b e) {X : RObj} (hX : t.reg.obj o = some X) :
    ∃ p ty nm, X.getEvent ty nm = some p ∧ e = p.1 ∧
      (nb.xml.prop "interface" = none ∧ ty = .presentation ∧ nm = "@lambda" ∨ nb.xml.prop "interface" = some nm ∧ (ty = .presentation ∨ ty = .attribution)) := by
  obtain ⟨a, n1, n2, n3⟩ := h.name
  obtain ⟨i, md, d1, d2, d3⟩ := child_note hd hk h.child
  have hmt : md.tag = "media" := by unfold Note.tag; rw [d2]; exact h.media
  have hp := (hd.main _ i md (Nat.lt_succ_self _) d1 (by rw [hmt]; decide)).2.1
  have hok := hd.ok i md d1
  have hmk : md.kind = none := by rw [Note.kind_main hok hp, d2]; exact h.kind
  have hid : md.get "id" = some a := by rw [Note.get_main hok hp "id" (.inl (by rw [hmt]; decide)), d2]; exact n2
  have hbp := (hd.main _ b nb (Nat.lt_succ_self _) hb (by rcases hbt with h | h <;> rw [h] <;> decide)).2.1
  have hcomp : nb.get "component" = some a := by rw [Note.get_main (hd.ok b nb hb) hbp "component" (.inr (by decide))]; exact n1
  have hint : nb.get "interface" = nb.xml.prop "interface" := Note.get_main (hd.ok b nb hb) hbp "interface" (.inr (by decide))
  have hfo : f i = o := hsh.1 i md o d1 (by rw [d2]; exact h.kind) (by rw [d2]; exact h.obj)
  have hfree := hsh.2.1 i md a d1 (.inr hmt) hmk hid (by rw [d2]; exact n3)
  have noN : ∀ {i' m'}, NComp ns k b i' m' → False := by
    intro i' m' hN
    obtain ⟨mb, a', g1, g2, g3⟩ := hN.name
    rw [hb] at g1; cases g1
    rw [hcomp] at g2; cases g2
    have := hd.once i' i m' md a hN.at' d1 (Note.kind_ne hN.kind).1 (by rw [hmt]; decide) g3 hid
    subst this
    have := hN.at'
    rw [d1] at this; cases this
    have := hN.kind
    rw [hmk] at this; cases this
  cases hF with
  | event hc => exact (noN hc).elim
  | port hc => exact (noN hc).elim
  | stray _ hs _ =>
    rcases hs i md ⟨d1, hmt, hmk, d3, nb, a, hb, hcomp, hid⟩ nb a hb hcomp with g | ⟨o', g⟩ | g | ⟨Y, g1, g2⟩
    · exact absurd g hfree.2
    · rw [hfree.1] at g; cases g
    · rw [hfo, hX] at g; cases g
    · rw [hfo, hX] at g1; cases g1
      rw [← hint]
      exact g2 (shared_kind hd h.media h.kind h.obj hX)

/-- What was found is what the document names. -/
theorem leads_found (hd : DocTree E scr x t ns f) (hsh : Shares x t.reg ns f) {c y : Xml} {e' : Nat} (hL : PortTo x t.reg c y e') : ∀ {k b e : Nat} {nk nb : Note}, ns[k]? = some nk → nk.xml = c → ns[b]? = some nb →
    nb.xml = y → (nb.tag = "port" ∨ nb.tag = "mapping") → nk.tag ≠ "media" → Found f ns [0] t.reg k b e → e = e' := by
  have ig : ∀ {b : Nat} {nb : Note}, ns[b]? = some nb → (nb.tag = "port" ∨ nb.tag = "mapping") → nb.get "interface" = nb.xml.prop "interface" := by
    intro b nb hb hbt
    have hbp := (hd.main _ b nb (Nat.lt_succ_self _) hb (by rcases hbt with h | h <;> rw [h] <;> decide)).2.1
    rw [Note.get_main (hd.ok b nb hb) hbp "interface" (.inr (by decide))]
  have kidTag : ∀ {j i : Nat} {mj mi : Note}, ns[j]? = some mj → mj.parent = some i → ns[i]? = some mi → mj.xml ∈ mi.xml.children := by
    intro j i mj mi hj hp hi
    rw [← hd.kids hi]
    exact List.mem_map.2 ⟨(j, mj), kidNotes_mem.2 ⟨by omega, by simpa using hj, hp⟩, rfl⟩
  have kidId : ∀ {j : Nat} {mj : Note} {tg : String}, ns[j]? = some mj → mj.tag = tg → tg ∈ bodyTags → tg ≠ "link" → mj.get "id" = mj.xml.prop "id" := by
    intro j mj tg hj ht hb hl
    have hbp := (hd.main _ j mj (Nat.lt_succ_self _) hj (by rw [ht]; exact hb)).2.1
    exact Note.get_main (hd.ok j mj hj) hbp "id" (.inl (by rw [ht]; exact hl))
  have ctxKind : ∀ {d : Xml}, d.tag = "context" → eltKind d = some .context := by
    intro d h; unfold eltKind; rw [if_neg (by rw [h]; decide), if_pos h]
  induction hL with
  | whole hP hi hX hp =>
    rintro k b e nk nb hk rfl hb rfl hbt hkm hF
    obtain ⟨i, md, d1, d2, d3, rfl, d5, d6, d7⟩ := hP.found hd hk hb hbt
    rw [← ig hb hbt] at hi
    cases hF with
    | stray h _ _ => exact absurd d3 (h _ _)
    | event hc hb' hN hX' hp' =>
      obtain ⟨rfl, rfl⟩ := d7 _ _ hc
      rw [hb] at hb'; cases hb'
      rw [hX] at hX'; cases hX'
      rcases hN with ⟨-, rfl, rfl⟩ | ⟨h, -⟩
      · rw [hp] at hp'; cases hp'; rfl
      · rw [hi] at h; cases h
    | port hc _ _ _ hb' hi' =>
      rw [hb] at hb'; cases hb'
      rw [hi] at hi'; cases hi'
  | @anchor c b0 d o X p a hP hkd hi hX hp hor =>
    rintro k b e nk nb hk rfl hb rfl hbt hkm hF
    obtain ⟨i, md, d1, d2, d3, rfl, d5, d6, d7⟩ := hP.found hd hk hb hbt
    rw [← ig hb hbt] at hi
    rw [hkd] at d2
    cases hF with
    | stray h _ _ => exact absurd d3 (h _ _)
    | event hc hb' hN hX' hp' =>
      obtain ⟨rfl, rfl⟩ := d7 _ _ hc
      rw [hb] at hb'; cases hb'
      rw [hX] at hX'; cases hX'
      rcases hN with ⟨h, -⟩ | ⟨h, ⟨-, h1⟩ | ⟨h1, -⟩ | ⟨h1, -⟩⟩
      · rw [hi] at h; cases h
      · rw [hi] at h; cases h
        rcases h1 with rfl | ⟨rfl, h1⟩
        · rw [hp] at hp'; cases hp'; rfl
        · exfalso
          rcases hor with ⟨y, y1, y2, y3⟩ | hor
          · rcases h1 with h1 | ⟨-, h1⟩
            · subst h1
              have := hc.at'; rw [hk] at this; cases this
              exact hkm (kind_media.1 d2).1
            · rw [← d1] at y1
              obtain ⟨j, mj, j1, j2, j3⟩ := child_note hd hc.at' y1
              have hjt : mj.tag = "area" := by unfold Note.tag; rw [j2]; exact y2
              refine h1 j mj j1 hjt j3 ?_
              rw [kidId j1 hjt (by decide) (by decide), j2]; exact y3
          · rw [hor] at hp'; cases hp'
      · rw [d2] at h1; cases h1
      · rw [d2] at h1; cases h1
    | port hc hk' _ _ hb' hi' =>
      obtain ⟨rfl, rfl⟩ := d7 _ _ hc
      rw [d2] at hk'; cases hk'
  | @property c b0 d o X p a hP hkd hi hX hp hno =>
    rintro k b e nk nb hk rfl hb rfl hbt hkm hF
    obtain ⟨i, md, d1, d2, d3, rfl, d5, d6, d7⟩ := hP.found hd hk hb hbt
    rw [← ig hb hbt] at hi
    rw [hkd] at d2
    cases hF with
    | stray h _ _ => exact absurd d3 (h _ _)
    | event hc hb' hN hX' hp' =>
      obtain ⟨rfl, rfl⟩ := d7 _ _ hc
      rw [hb] at hb'; cases hb'
      rw [hX] at hX'; cases hX'
      rcases hN with ⟨h, -⟩ | ⟨h, ⟨-, h1⟩ | ⟨h1, -⟩ | ⟨h1, -⟩⟩
      · rw [hi] at h; cases h
      · rw [hi] at h; cases h
        rcases h1 with rfl | ⟨rfl, h1⟩
        · rw [hno] at hp'; cases hp'
        · rw [hp] at hp'; cases hp'; rfl
      · rw [d2] at h1; cases h1
      · rw [d2] at h1; cases h1
    | port hc hk' _ _ hb' hi' =>
      obtain ⟨rfl, rfl⟩ := d7 _ _ hc
      rw [d2] at hk'; cases hk'
  | switch hP hkd hi hX hp =>
    rintro k b e nk nb hk rfl hb rfl hbt hkm hF
    obtain ⟨i, md, d1, d2, d3, rfl, d5, d6, d7⟩ := hP.found hd hk hb hbt
    rw [← ig hb hbt] at hi
    rw [hkd] at d2
    cases hF with
    | stray h _ _ => exact absurd d3 (h _ _)
    | event hc hb' hN hX' hp' =>
      obtain ⟨rfl, rfl⟩ := d7 _ _ hc
      rw [hb] at hb'; cases hb'
      rw [hX] at hX'; cases hX'
      rcases hN with ⟨h, -⟩ | ⟨h, ⟨h1, -⟩ | ⟨-, rfl⟩ | ⟨h1, -⟩⟩
      · rw [hi] at h; cases h
      · rw [d2] at h1; cases h1
      · rw [hi] at h; cases h
        rw [hp] at hp'; cases hp'; rfl
      · rw [d2] at h1; cases h1
    | port hc hk' _ _ hb' hi' =>
      obtain ⟨rfl, rfl⟩ := d7 _ _ hc
      rw [d2] at hk'; cases hk'
  | self hP hct hi hX hp =>
    rintro k b e nk nb hk rfl hb rfl hbt hkm hF
    obtain ⟨i, md, d1, d2, d3, rfl, d5, d6, d7⟩ := hP.found hd hk hb hbt
    rw [← ig hb hbt] at hi
    rw [ctxKind hct] at d2
    cases hF with
    | stray h _ _ => exact absurd d3 (h _ _)
    | event hc hb' hN hX' hp' =>
      obtain ⟨rfl, rfl⟩ := d7 _ _ hc
      rw [hb] at hb'; cases hb'
      rw [hX] at hX'; cases hX'
      rcases hN with ⟨h, -⟩ | ⟨h, ⟨h1, -⟩ | ⟨h1, -⟩ | ⟨-, rfl, -⟩⟩
      · rw [hi] at h; cases h
      · rw [d2] at h1; cases h1
      · rw [d2] at h1; cases h1
      · rw [hi] at h; cases h
        rw [hp] at hp'; cases hp'; rfl
    | port hc hk' hik _ hb' hi' =>
      obtain ⟨rfl, rfl⟩ := d7 _ _ hc
      exact absurd (d6 rfl) hik
  | @port c b0 d y o a e0 hP hdc hdt hi hy hyt hyi _ ih =>
    rintro k b e nk nb hk rfl hb rfl hbt hkm hF
    obtain ⟨i, md, d1, d2, d3, rfl, d5, d6, d7⟩ := hP.found hd hk hb hbt
    rw [← ig hb hbt] at hi
    rw [ctxKind hdt] at d2
    have hmt : md.tag = "context" := by unfold Note.tag; rw [d1]; exact hdt
    obtain ⟨j, mj, j1, j2, j3⟩ := child_note hd d3.at' (by rw [d1]; exact hy)
    have hjt : mj.tag = "port" := by unfold Note.tag; rw [j2]; exact hyt
    have hji : mj.get "id" = some a := by rw [kidId j1 hjt (by decide) (by decide), j2]; exact hyi
    cases hF with
    | stray h _ _ => exact absurd d3 (h _ _)
    | event hc hb' hN hX' hp' =>
      obtain ⟨rfl, rfl⟩ := d7 _ _ hc
      rw [hb] at hb'; cases hb'
      rcases hN with ⟨h, -⟩ | ⟨h, ⟨h1, -⟩ | ⟨h1, -⟩ | ⟨-, -, h1⟩⟩
      · rw [hi] at h; cases h
      · rw [d2] at h1; cases h1
      · rw [d2] at h1; cases h1
      · rw [hi] at h; cases h
        rcases h1 with h1 | ⟨-, h1⟩
        · exact absurd h1 (d5 hdc).2
        · exact absurd hji (h1 j mj j1 hjt j3)
    | @port _ _ i' j' m' mb' mj' a' _ hc hk' hik hiS hb' hi' hj' hjt' hjp' hji' hF' =>
      obtain ⟨rfl, rfl⟩ := d7 _ _ hc
      rw [hb] at hb'; cases hb'
      rw [hi] at hi'; cases hi'
      have : j' = j := hd.once j' j mj' mj a hj' j1 (by rw [hjt']; decide) (by rw [hjt]; decide) hji' hji
      subst this
      rw [j1] at hj'; cases hj'
      exact ih d3.at' d1 j1 j2 (.inl hjt) (by rw [hmt]; decide) hF'
  | @inner c b0 d o X p a hP hdc hdt hi hno hX hp =>
    rintro k b e nk nb hk rfl hb rfl hbt hkm hF
    obtain ⟨i, md, d1, d2, d3, rfl, d5, d6, d7⟩ := hP.found hd hk hb hbt
    rw [← ig hb hbt] at hi
    rw [ctxKind hdt] at d2
    cases hF with
    | stray h _ _ => exact absurd d3 (h _ _)
    | event hc hb' hN hX' hp' =>
      obtain ⟨rfl, rfl⟩ := d7 _ _ hc
      rw [hb] at hb'; cases hb'
      rw [hX] at hX'; cases hX'
      rcases hN with ⟨h, -⟩ | ⟨h, ⟨h1, -⟩ | ⟨h1, -⟩ | ⟨-, rfl, -⟩⟩
      · rw [hi] at h; cases h
      · rw [d2] at h1; cases h1
      · rw [d2] at h1; cases h1
      · rw [hi] at h; cases h
        rw [hp] at hp'; cases hp'; rfl
    | @port _ _ i' j' m' mb' mj' a' _ hc hk' hik hiS hb' hi' hj' hjt' hjp' hji' hF' =>
      obtain ⟨rfl, rfl⟩ := d7 _ _ hc
      rw [hb] at hb'; cases hb'
      rw [hi] at hi'; cases hi'
      exfalso
      have h1 := kidTag hj' hjp' hc.at'
      rw [d1] at h1
      refine hno _ h1 hjt' ?_
      rw [← kidId hj' hjt' (by decide) (by decide)]; exact hji'
  | shared hP hi hX hp =>
    rintro k b e nk nb hk rfl hb rfl hbt hkm hF
    obtain ⟨q, ty, nm, q1, rfl, ⟨-, rfl, rfl⟩ | ⟨q2, -⟩⟩ := hP.found hd hsh hk hb hbt hF hX
    · rw [hp] at q1; cases q1; rfl
    · rw [hi] at q2; cases q2
  | part hP hi hX hp =>
    rintro k b e nk nb hk rfl hb rfl hbt hkm hF
    obtain ⟨q, ty, nm, q1, rfl, ⟨q2, -⟩ | ⟨q2, q3⟩⟩ := hP.found hd hsh hk hb hbt hF hX
    · rw [hi] at q2; cases q2
    · rw [hi] at q2; cases q2
      rcases q3 with rfl | rfl <;> rcases hp with ⟨h1, h2⟩ | ⟨h1, h2⟩
      · rw [h1] at q1; cases q1; rfl
      · rw [h2] at q1; cases q1
      · rw [h2] at q1; cases q1
      · rw [h1] at q1; cases q1; rfl

/-- The children of an element that are processed by `pu`, in document order. -/
theorem kidsBy_xml (hd : DocTree E scr x t ns f) {pu : Push} {tg : String} (h1 : ∀ e ∈ syntaxTable, e.push = pu ↔ e.tag = tg) (hpu : pu ≠ .none) {k : Nat} {nk : Note} (hk : ns[k]? = some nk) :
    nk.xml.children.filter (fun y => y.tag == tg) = (kidsBy ns pu k).map fun q => q.2.xml := by
  rw [← hd.kids hk]
  unfold kidsBy
  rw [List.filter_map]
  congr 1
  refine List.filter_congr fun q hq => ?_
  obtain ⟨e1, e2⟩ := kid_main hd hq
  obtain ⟨e, he, -⟩ := (hd.ok _ _ e1).syn
  obtain ⟨g1, g2⟩ := syntaxOf_mem he
  have hp : q.2.push = e.push := by unfold Note.push pushOf; rw [he]
  show (q.2.tag == tg) = (q.2.push == pu)
  rw [hp, ← g2, Bool.eq_iff_iff, beq_iff_eq, beq_iff_eq]
  exact (h1 e g1).symm

theorem leadsTo_of {k : Nat} {nk : Note} (hd : DocTree E scr x t ns f) (hsh : Shares x t.reg ns f) (hk : ns[k]? = some nk) (hkm : nk.tag ≠ "media") : ∀ {l : List (Nat × Note)} {L : List Nat},
    (∀ q ∈ l, ns[q.1]? = some q.2 ∧ (q.2.tag = "port" ∨ q.2.tag = "mapping")) → Each (Found f ns [0] t.reg k) (l.map Prod.fst) L → PortsTo x t.reg nk.xml (l.map fun q => q.2.xml) L
  | [], _, _, h => by cases h; exact .nil
  | q :: l, _, hq, h => by
    cases h with
    | cons h1 h2 => exact .cons ⟨fun e' he' => leads_found hd hsh he' hk rfl (hq q (by simp)).1 rfl (hq q (by simp)).2 hkm h1, fun a ha => hsh.2.2 a (h1.named (hq q (by simp)).1 (by
        have hbt := (hq q (by simp)).2
        have hbp := (hd.main _ q.1 q.2 (Nat.lt_succ_self _) (hq q (by simp)).1 (by rcases hbt with h | h <;> rw [h] <;> decide)).2.1
        rw [Note.get_main (hd.ok q.1 q.2 (hq q (by simp)).1) hbp "component" (.inr (by decide))]; exact ha))⟩ (leadsTo_of hd hsh hk hkm (fun q' hq' => hq q' (by simp [hq'])) h2)

end

/-- Ascending lists with the same elements are equal. -/
theorem asc_ext : ∀ {l m : List Nat}, l.Pairwise (· < ·) → m.Pairwise (· < ·) → (∀ a, a ∈ l ↔ a ∈ m) → l = m
  | [], [], _, _, _ => rfl
  | [], b :: m, _, _, h => by have := (h b).2 (by simp); simp at this
  | a :: l, [], _, _, h => by have := (h a).1 (by simp); simp at this
  | a :: l, b :: m, hl, hm, h => by
    obtain ⟨l1, l2⟩ := List.pairwise_cons.1 hl
    obtain ⟨m1, m2⟩ := List.pairwise_cons.1 hm
    have hab : a = b := by
      rcases List.mem_cons.1 ((h a).1 (by simp)) with e | e
      · exact e
      · rcases List.mem_cons.1 ((h b).2 (by simp)) with e' | e'
        · exact e'.symm
        · have := l1 b e'; have := m1 a e; omega
    subst hab
    rw [asc_ext l2 m2 fun c => ?_]
    constructor
    · intro hc
      rcases List.mem_cons.1 ((h c).1 (by simp [hc])) with e | e
      · have := l1 c hc; omega
      · exact e
    · intro hc
      rcases List.mem_cons.1 ((h c).2 (by simp [hc])) with e | e
      · have := m1 c hc; omega
      · exact e

/-- The state of the ports at the end of the document. -/
theorem ports_end {E : PRead} (hinj : ∀ i j, E.addr i = E.addr j → i = j) {n : Nat} {W H : Int} {z : Nat} {x : Xml} {t : PS} (h : parseXml E n W H z x = .ok (some t)) :
    ∃ ns f, DocTree E ⟨0, 0, W, H⟩ x t ns f ∧ PortK f ns [0] t ∧ Shares x t.reg ns f := by
  obtain ⟨ns, f, m, u, he⟩ := doc_treeP hinj ((idK_extra hinj _ _).and (portK_extra hinj _ _)) (fun f reg hreg => ⟨idK_init hinj W H z hreg, ⟨shBase_init hinj hreg, eventK_init hinj hreg⟩, portK_init⟩) h
  have hd := he.tree
  have hk := he.extra.2.2
  refine ⟨ns, f, hd, ?_⟩
  have hrun : pop E m .ncl 0 u = .ok (some ((), t)) := he.run
  have hev : EvOn f ns u.reg t.reg := evOn_keep (evKeep_pop m .ncl 0 u _ t hrun) (tree_alloc he.treeK) (fun i m kd g1 g2 => by
    obtain ⟨i', q', g1, g2, x, ⟨g3, g4⟩, g5⟩ := hd.made i m kd g1 g2
    exact ⟨x, g4⟩) (fun a o ho => by
      obtain ⟨_, hkp⟩ := end_keeps hinj he
      exact getById_keeps he.treeK.world.inv hd.world.inv hkp ho) fun i m g1 g2 g3 => he.extra.2.1.1.shared_alloc he.treeK g1 g2 g3
  have hsm : SamePorts u t := samePorts_pop E m .ncl 0 (by decide) (by decide) u _ t hrun
  have hfe : ∀ {k : Nat} {pu : Push} {j : Nat} {L : List Nat}, k < ns.length → Each (Found f ns [0] u.reg k) ((kidsBy ns pu j).map Prod.fst) L →
      Each (Found f ns [0] t.reg k) ((kidsBy ns pu j).map Prod.fst) L := by
    intro k pu j L hk hE
    refine hE.imp fun b hb e he => ?_
    obtain ⟨w, hw, rfl⟩ := List.mem_map.1 hb
    exact he.step (fun _ _ => rfl) (fun j m h1 h2 => absurd (getElem?_lt h1) (by omega)) (fun _ _ h => h) (fun _ _ => rfl) hev hk (getElem?_lt (kidsBy_mem.1 hw).1)
      (fun j m h1 h2 => absurd (getElem?_lt h1) (by omega))
  refine ⟨⟨hk.desc, hk.nest, hk.ids, hk.within, hk.above, fun o => ?_, ?_, fun k hk1 => ?_, ?_⟩, fun i md o h1 h2 h3 => (shared_end hinj he he.extra.2.1.1 h1 rfl h2 h3).1, (clear_end hinj he he.extra.1).2, fun a ha => named_end he ha⟩
  · obtain ⟨ks, LL, h1, h2, h3, h4⟩ := hk.ports o
    exact ⟨ks, LL, h1, h2, h3.imp fun k hk1 L hL => hfe ((h2 k).1 hk1).1.lt hL, by rw [hsm.1]; exact h4⟩
  · rw [hsm.1]; exact hk.others
  · obtain ⟨h1, h2⟩ := hk.sports k hk1
    rw [hsm.2]
    refine ⟨fun q hq => ?_, h2⟩
    obtain ⟨L, e1, e2⟩ := h1 q hq
    exact ⟨L, e1, hfe hk1.lt e2⟩
  · rw [hsm.2]; exact hk.nosports

theorem port_push : ∀ e ∈ syntaxTable, e.push = .port ↔ e.tag = "port" := by decide +kernel
theorem switchPort_push : ∀ e ∈ syntaxTable, e.push = .switchPort ↔ e.tag = "switchPort" := by decide +kernel
theorem mapping_push : ∀ e ∈ syntaxTable, e.push = .mapping ↔ e.tag = "mapping" := by decide +kernel

section
variable {E : PRead} (hinj : ∀ i j, E.addr i = E.addr j → i = j) {n : Nat} {W H : Int} {z : Nat} {x : Xml} {t : PS} (h : parseXml E n W H z x = .ok (some t))
include hinj h

/-- The ports of a context: its port elements, in document order (an event is kept once). -/
theorem C72_context : ∀ c, SubElt x c → c.tag = "context" → ∃ i o L, c.prop "id" = some i ∧ t.reg.getById i = some o ∧
    PortsTo x t.reg c (c.children.filter fun y => y.tag == "port") L ∧ t.ports o = addNew [] L := by
  intro c hc ht
  obtain ⟨ns, f, hd, hk, hsh⟩ := ports_end hinj h
  obtain ⟨k, nt, -, -, g1, g2, g3, -, -⟩ := hd.laid.inside hc
  have htag : nt.tag = "context" := by unfold Note.tag; rw [g2]; exact ht
  have hctx : ∀ {k : Nat} {nt : Note}, ns[k]? = some nt → nt.tag = "context" → ∃ i q, nt.get "id" = some i ∧ nt.parent = some q ∧ t.reg.node (f k) i .context (some (f q)) :=
    fun hk ht => hd.made _ _ .context hk (by unfold Note.kind; rw [ht]; simp)
  obtain ⟨i, q, a1, a2, a3⟩ := hctx g1 htag
  have hk0 : k ≠ 0 := fun hc => by have := ((hd.ok k nt g1).parent q a2).1; omega
  obtain ⟨L, h1, h2⟩ := hk.one (k := k) ⟨by simpa using hk0, nt, g1, by rw [htag]; decide⟩ (by
    rintro k' ⟨-, n', b1, b2⟩ hf
    rcases (by simpa using b2 : n'.tag = "body" ∨ n'.tag = "context") with hb | hb
    · exfalso
      rw [hd.top k' n' b1 (.inr hb)] at hf
      obtain ⟨X, ⟨-, a4⟩, -, -, a7⟩ := a3
      obtain ⟨Y, c1, c2, -⟩ := hd.world.tree.root
      rw [hf, a4] at c1; cases c1
      rw [c2] at a7; cases a7
    · obtain ⟨i', q', c1, c2, c3⟩ := hctx b1 hb
      rw [hf] at c3
      obtain rfl := (a3.uniq c3).1
      exact hd.once k' k n' nt i b1 g1 (by rw [hb]; decide) (by rw [htag]; decide) c1 a1)
  refine ⟨i, f k, L, ?_, a3.byId hd.world.inv, ?_, h2⟩
  · rw [← g2, ← Note.get_main (hd.ok k nt g1) g3 "id" (.inl (by rw [htag]; decide))]; exact a1
  · rw [← g2, kidsBy_xml hd port_push (by decide) g1]
    refine leadsTo_of hd hsh g1 (by rw [htag]; decide) (fun q hq => ?_) h1
    obtain ⟨q1, q2, q3⟩ := kidsBy_mem.1 hq
    exact ⟨q1, .inl (push_tag (fun e he => (port_push e he).1) (by decide) q3)⟩

/-- A body is a child of the root element. -/
theorem body_child {c : Xml} (hc : SubElt x c) (ht : c.tag = "body") : c ∈ x.children := by
  obtain ⟨ns, f, hd, -, -⟩ := ports_end hinj h
  obtain ⟨k, nt, -, -, g1, g2, g3, -, -⟩ := hd.laid.inside hc
  have htag : nt.tag = "body" := by unfold Note.tag; rw [g2]; exact ht
  obtain ⟨n0, h0, h0x⟩ : ∃ n0, ns[0]? = some n0 ∧ n0.xml = x := by
    have := hd.laid
    cases this with
    | cons h1 h2 h3 h4 h5 h6 => exact ⟨_, rfl, h2⟩
  rw [← h0x, ← hd.kids h0, ← g2]
  exact List.mem_map.2 ⟨(k, nt), kidNotes_mem.2 ⟨by omega, by simpa using g1, body_parent hd g1 htag⟩, rfl⟩

/-- The ports of the root object: those of the bodies, one body after the other. -/
theorem C72_bodies : ∃ LL, Each (fun c L => PortsTo x t.reg c (c.children.filter fun y => y.tag == "port") L) (x.children.filter fun y => y.tag == "body") LL ∧
    t.ports t.reg.root = addNew [] LL.flatten := by
  obtain ⟨ns, f, hd, hk, hsh⟩ := ports_end hinj h
  obtain ⟨n0, h0, h0x⟩ : ∃ n0, ns[0]? = some n0 ∧ n0.xml = x := by
    have := hd.laid
    cases this with
    | cons h1 h2 h3 h4 h5 h6 => exact ⟨_, rfl, h2⟩
  have h0t : n0.tag = "ncl" := by unfold Note.tag; rw [h0x]; exact hd.root
  obtain ⟨ks, LL, k1, k2, k3, k4⟩ := hk.ports t.reg.root
  have hks : ks = ((kidNotes 0 0 ns).filter fun w => w.2.tag == "body").map Prod.fst := by
    refine asc_ext k1 (List.pairwise_map.2 ((kidNotes_sorted 0 0 ns).filter _)) fun k => ?_
    rw [k2 k, List.mem_map]
    constructor
    · rintro ⟨⟨-, n', b1, b2⟩, hf⟩
      rcases (by simpa using b2 : n'.tag = "body" ∨ n'.tag = "context") with hb | hb
      · exact ⟨(k, n'), List.mem_filter.2 ⟨kidNotes_mem.2 ⟨by omega, by simpa using b1, body_parent hd b1 hb⟩, by simpa using hb⟩, rfl⟩
      · exfalso
        obtain ⟨i', q', c1, c2, X, ⟨-, a4⟩, -, -, a7⟩ := hd.made k n' .context b1 (by unfold Note.kind; rw [hb]; simp)
        obtain ⟨Y, c3, c4, -⟩ := hd.world.tree.root
        rw [hf, c3] at a4; cases a4
        rw [c4] at a7; cases a7
    · rintro ⟨w, hw, rfl⟩
      obtain ⟨w1, w2⟩ := List.mem_filter.1 hw
      have w2 : w.2.tag = "body" := by simpa using w2
      obtain ⟨g1, -⟩ := kid_main hd w1
      have hw0 : w.1 ≠ 0 := fun hc => by
        rw [hc, h0] at g1; cases g1
        rw [h0t] at w2; exact absurd w2 (by decide)
      exact ⟨⟨by simpa using hw0, w.2, g1, by rw [w2]; decide⟩, hd.top _ _ g1 (.inr w2)⟩
  refine ⟨LL, ?_, k4⟩
  subst hks
  rw [← h0x, ← hd.kids h0, List.filter_map, h0x]
  refine Each.map_left ((Each.unmap k3).imp fun w hw L hL => ?_)
  obtain ⟨w1, w2⟩ := List.mem_filter.1 hw
  have w2 : w.2.tag = "body" := by simpa using w2
  obtain ⟨g1, -⟩ := kid_main hd w1
  rw [kidsBy_xml hd port_push (by decide) g1]
  refine leadsTo_of hd hsh g1 (by rw [w2]; decide) (fun q hq => ?_) hL
  obtain ⟨q1, q2, q3⟩ := kidsBy_mem.1 hq
  exact ⟨q1, .inl (push_tag (fun e he => (port_push e he).1) (by decide) q3)⟩

/-- The ports of the body, when there is one. -/
theorem C72_body {c : Xml} (hb : x.children.filter (fun y => y.tag == "body") = [c]) : ∃ L,
    PortsTo x t.reg c (c.children.filter fun y => y.tag == "port") L ∧ t.ports t.reg.root = addNew [] L := by
  obtain ⟨LL, h1, h2⟩ := C72_bodies hinj h
  rw [hb] at h1
  cases h1 with
  | cons h3 h4 =>
    cases h4
    exact ⟨_, h3, by simpa using h2⟩

/-- The ports of a switch: its switchPort elements, each with what its mappings lead to, in document order; and no others. -/
theorem C72_switch : ∀ c, SubElt x c → c.tag = "switch" → ∃ i o, c.prop "id" = some i ∧ t.reg.getById i = some o ∧
    (∀ y ∈ c.children, y.tag = "switchPort" → ∃ a L, y.prop "id" = some a ∧ portEvents a (t.sports o) = some L ∧ PortsTo x t.reg c (y.children.filter fun m => m.tag == "mapping") L) ∧
    ∀ a, (∀ y ∈ c.children, y.tag = "switchPort" → y.prop "id" ≠ some a) → portEvents a (t.sports o) = none := by
  intro c hc ht
  obtain ⟨ns, f, hd, hk, hsh⟩ := ports_end hinj h
  obtain ⟨k, nt, -, -, g1, g2, g3, -, -⟩ := hd.laid.inside hc
  have htag : nt.tag = "switch" := by unfold Note.tag; rw [g2]; exact ht
  obtain ⟨i, q, a1, a2, a3⟩ := hd.made k nt .switch g1 (by unfold Note.kind; rw [if_pos htag])
  have hk0 : k ≠ 0 := fun hc => by have := ((hd.ok k nt g1).parent q a2).1; omega
  obtain ⟨h1, h2⟩ := hk.sports k ⟨by simpa using hk0, nt, g1, by rw [htag]; decide⟩
  have hgid : ∀ {w : Nat × Note}, w ∈ kidsBy ns .switchPort k → w.2.get "id" = w.2.xml.prop "id" ∧ w.2.tag = "switchPort" := by
    intro w hw
    obtain ⟨q1, q2, q3⟩ := kidsBy_mem.1 hw
    have hwt := push_tag (fun e he => (switchPort_push e he).1) (by decide) q3
    have hbp := (hd.main _ _ _ (Nat.lt_succ_self _) q1 (by rw [hwt]; decide)).2.1
    exact ⟨Note.get_main (hd.ok _ _ q1) hbp "id" (.inl (by rw [hwt]; decide)), hwt⟩
  refine ⟨i, f k, ?_, a3.byId hd.world.inv, fun y hy hyt => ?_, fun a ha => h2 a fun w hw hc => ?_⟩
  · rw [← g2, ← Note.get_main (hd.ok k nt g1) g3 "id" (.inl (by rw [htag]; decide))]; exact a1
  · have hym : y ∈ nt.xml.children.filter (fun y => y.tag == "switchPort") := List.mem_filter.2 ⟨by rw [g2]; exact hy, by simpa using hyt⟩
    rw [kidsBy_xml hd switchPort_push (by decide) g1] at hym
    obtain ⟨w, hw, rfl⟩ := List.mem_map.1 hym
    obtain ⟨L, l1, l2⟩ := h1 w hw
    obtain ⟨e1, e2⟩ := hgid hw
    obtain ⟨q1, q2, q3⟩ := kidsBy_mem.1 hw
    obtain ⟨a, ha⟩ := Option.isSome_iff_exists.1 (hk.ids w.1 w.2 q1 (.inr q3))
    rw [ha] at l1
    refine ⟨a, L, by rw [← e1]; exact ha, l1, ?_⟩
    rw [kidsBy_xml hd mapping_push (by decide) q1, ← g2]
    refine leadsTo_of hd hsh g1 (by rw [htag]; decide) (fun q hq => ?_) l2
    obtain ⟨q1, q2, q3⟩ := kidsBy_mem.1 hq
    exact ⟨q1, .inr (push_tag (fun e he => (mapping_push e he).1) (by decide) q3)⟩
  · have hm : w.2.xml ∈ nt.xml.children.filter (fun y => y.tag == "switchPort") := by
      rw [kidsBy_xml hd switchPort_push (by decide) g1]; exact List.mem_map.2 ⟨w, hw, rfl⟩
    rw [g2] at hm
    obtain ⟨e1, e2⟩ := hgid hw
    exact ha w.2.xml (List.mem_filter.1 hm).1 (by simpa using (List.mem_filter.1 hm).2) (by rw [← e1]; exact hc)

/-- Objects of no context, body or switch have no ports. -/
theorem C72_none (o : Nat) (ho : o ≠ t.reg.root) : (t.ports o ≠ [] → ∃ c i, SubElt x c ∧ c.tag = "context" ∧ c.prop "id" = some i ∧ t.reg.getById i = some o) ∧
    (t.sports o ≠ [] → ∃ c i, SubElt x c ∧ c.tag = "switch" ∧ c.prop "id" = some i ∧ t.reg.getById i = some o) := by
  obtain ⟨ns, f, hd, hk, hsh⟩ := ports_end hinj h
  have key : ∀ {k : Nat} {nt : Note} {kd : RKind}, ns[k]? = some nt → nt.kind = some kd → nt.tag ∈ bodyTags → ∃ i, SubElt x nt.xml ∧ nt.xml.prop "id" = some i ∧ t.reg.getById i = some (f k) := by
    intro k nt kd g1 g2 g3
    obtain ⟨i, q, a1, a2, a3⟩ := hd.made k nt kd g1 g2
    obtain ⟨m1, m2, -⟩ := hd.main _ k nt (Nat.lt_succ_self _) g1 g3
    exact ⟨i, m1, by rw [← Note.get_main (hd.ok k nt g1) m2 "id" (.inl (Note.kind_ne (by rw [g2]; rfl)).1)]; exact a1, a3.byId hd.world.inv⟩
  constructor
  · intro hp
    obtain ⟨k, ⟨-, nt, g1, g2⟩, rfl⟩ := hk.others o hp
    rcases (by simpa using g2 : nt.tag = "body" ∨ nt.tag = "context") with hb | hb
    · exact absurd (hd.top k nt g1 (.inr hb)) ho
    · obtain ⟨i, e1, e2, e3⟩ := key g1 (kd := .context) (by unfold Note.kind; rw [hb]; simp) (by rw [hb]; decide)
      exact ⟨nt.xml, i, e1, hb, e2, e3⟩
  · intro hp
    obtain ⟨k, ⟨-, nt, g1, g2⟩, rfl⟩ := hk.nosports o hp
    have hb : nt.tag = "switch" := by simpa using g2
    obtain ⟨i, e1, e2, e3⟩ := key g1 (kd := .switch) (by unfold Note.kind; rw [if_pos hb]) (by rw [hb]; decide)
    exact ⟨nt.xml, i, e1, hb, e2, e3⟩

end


/-! ## What the list of ports is -/

theorem addNew_spec : ∀ (L l : List Nat), l.Nodup → (addNew l L).Nodup ∧ (∀ e, e ∈ addNew l L ↔ e ∈ l ∨ e ∈ L) ∧ (L.Nodup → (∀ e ∈ L, e ∉ l) → addNew l L = l ++ L)
  | [], l, h => by simp [addNew, h]
  | e :: L, l, h => by
    rw [addNew]
    by_cases hc : e ∈ l
    · rw [if_pos hc]
      obtain ⟨h1, h2, h3⟩ := addNew_spec L l h
      refine ⟨h1, fun a => ?_, fun _ hd => absurd hc (hd e (by simp))⟩
      rw [h2 a, List.mem_cons]
      constructor
      · rintro (h | h)
        · exact .inl h
        · exact .inr (.inr h)
      · rintro (h | rfl | h)
        · exact .inl h
        · exact .inl hc
        · exact .inr h
    · rw [if_neg hc]
      obtain ⟨h1, h2, h3⟩ := addNew_spec L (l ++ [e]) (List.nodup_append.2 ⟨h, by simp, fun a ha b hb => by
        rw [List.mem_singleton.1 hb]; exact fun he => hc (he ▸ ha)⟩)
      refine ⟨h1, fun a => ?_, fun hn hd => ?_⟩
      · rw [h2 a, List.mem_append, List.mem_singleton, List.mem_cons, or_assoc]
      · obtain ⟨n1, n2⟩ := List.nodup_cons.1 hn
        rw [h3 n2, List.append_assoc]
        · rfl
        · intro a ha
          rw [List.mem_append, List.mem_singleton]
          rintro (h | rfl)
          · exact hd a (by simp [ha]) h
          · exact n1 ha

/-- The events of the ports, each once, in the order of the first port that leads to it; all of them, when no two ports lead to the same event. -/
theorem C72_once (L : List Nat) : (addNew [] L).Nodup ∧ (∀ e, e ∈ addNew [] L ↔ e ∈ L) ∧ (L.Nodup → addNew [] L = L) := by
  obtain ⟨h1, h2, h3⟩ := addNew_spec L [] .nil
  exact ⟨h1, fun e => by rw [h2]; simp, fun hn => by rw [h3 hn (by simp)]; rfl⟩

/-! ## The hypotheses are met -/

/-- Ports to a media object, an area, a property, a port of a switch and a port of an inner context; a context with a port to a property of its own; a switch with two ports. -/
def docPorts : Xml := .elem "ncl" [] [
  .elem "body" [] [
    .elem "port" [("id", "p1"), ("component", "m")] [], .elem "port" [("id", "p2"), ("component", "m"), ("interface", "a")] [],
    .elem "port" [("id", "p3"), ("component", "m"), ("interface", "x")] [], .elem "port" [("id", "p4"), ("component", "s"), ("interface", "sp")] [],
    .elem "port" [("id", "p5"), ("component", "c"), ("interface", "q1")] [], .elem "port" [("id", "p6"), ("component", "c"), ("interface", "w")] [],
    .elem "media" [("id", "m")] [.elem "area" [("id", "a"), ("begin", "1s")] [], .elem "property" [("name", "x")] []],
    .elem "switch" [("id", "s")] [
      .elem "switchPort" [("id", "sp")] [.elem "mapping" [("component", "s1"), ("interface", "b")] [], .elem "mapping" [("component", "s2")] []],
      .elem "switchPort" [("id", "sq")] [.elem "mapping" [("component", "s2")] []],
      .elem "media" [("id", "s1")] [.elem "area" [("id", "b"), ("end", "2s")] []], .elem "media" [("id", "s2")] []],
    .elem "context" [("id", "c")] [.elem "property" [("name", "w"), ("value", "1")] [], .elem "port" [("id", "q1"), ("component", "d"), ("interface", "r")] [],
      .elem "port" [("id", "q2"), ("component", "c"), ("interface", "w")] [], .elem "port" [("id", "q3"), ("component", "d"), ("interface", "r")] [],
      .elem "context" [("id", "d")] [.elem "port" [("id", "r"), ("component", "n")] [], .elem "media" [("id", "n")] []]]]]

/-- The document is accepted, and the ports lead where they should: `q1` and `q3`, that lead to the same event, give one port. -/
example : parsedAnd (parseXml pread0 20 800 600 0 docPorts) (fun t =>
    (t.ports t.reg.root).map some == [evAt t "m" .presentation "@lambda", evAt t "m" .presentation "a", evAt t "m" .attribution "x", evAt t "s" .presentation "sp",
      evAt t "n" .presentation "@lambda", evAt t "c" .attribution "w"] &&
    (match t.reg.getById "c", t.reg.getById "s" with
     | some c, some s => (t.ports c).map some == [evAt t "n" .presentation "@lambda", evAt t "c" .attribution "w"] &&
        (portEvents "sp" (t.sports s)).map (List.map some) == some [evAt t "s1" .presentation "b", evAt t "s2" .presentation "@lambda"] &&
        (portEvents "sq" (t.sports s)).map (List.map some) == some [evAt t "s2" .presentation "@lambda"]
     | _, _ => false)) = true := by decide +kernel

/-- There is one body in it. -/
example : (docPorts.children.filter (fun y => y.tag == "body")).length = 1 := by decide +kernel

/-- Two bodies: the ports of the second come after those of the first; an event that is there already is kept once. -/
def docBodies (first : String) : Xml := .elem "ncl" [] [
  .elem "body" [("id", "b1")] [.elem "port" [("id", "p1"), ("component", first)] [], .elem "port" [("id", "p2"), ("component", "m"), ("interface", "a")] [],
    .elem "media" [("id", "m")] [.elem "area" [("id", "a"), ("begin", "1s")] []]],
  .elem "body" [("id", "b2")] [.elem "port" [("id", "p3"), ("component", "n")] [], .elem "port" [("id", "p4"), ("component", "m")] [], .elem "media" [("id", "n")] []]]

example : parsedAnd (parseXml pread0 20 800 600 0 (docBodies "m")) (fun t =>
    (t.ports t.reg.root).map some == [evAt t "m" .presentation "@lambda", evAt t "m" .presentation "a", evAt t "n" .presentation "@lambda"]) = true := by decide +kernel

/-- A port of the first cannot name an element of the second, which is not there yet. -/
example : verdict (parseXml pread0 20 800 600 0 (docBodies "n")) = .rejected := by decide +kernel

/-- One that has only a context with a port, for which the specification gives an event. -/
def docOnePort : Xml := .elem "ncl" [] [.elem "body" [] [.elem "context" [("id", "c")] [.elem "port" [("id", "p"), ("component", "m")] [], .elem "media" [("id", "m")] []]]]

example : parsedAnd (parseXml pread0 20 800 600 0 docOnePort) (fun t => (evAt t "m" .presentation "@lambda").isSome) = true := by decide +kernel

/-- When a port names a media object of its context, it leads to it: the specification is not empty. -/
theorem C72_whole {x : Xml} {r : Reg} {c b d : Xml} {o : Nat} {X : RObj} {p : Nat × REv} {i : String} (h1 : d ∈ c.children) (h2 : eltKind d = some .media) (h3 : b.prop "component" = some i)
    (h4 : d.prop "id" = some i) (h5 : r.getById i = some o) (h6 : b.prop "interface" = none) (h7 : r.obj o = some X) (h8 : X.getEvent .presentation "@lambda" = some p) :
    PortTo x r c b p.1 := .whole ⟨.inl h1, by rw [h2]; rfl, i, h3, h4, h5⟩ h6 h7 h8

/-- Ports to elements that share objects: one that refers to a media element of another context, and one of the settings. -/
def docPortsShared : Xml := .elem "ncl" [] [
  .elem "body" [] [
    .elem "port" [("id", "p1"), ("component", "r")] [], .elem "port" [("id", "p2"), ("component", "r"), ("interface", "a")] [],
    .elem "port" [("id", "p3"), ("component", "r"), ("interface", "x")] [], .elem "port" [("id", "p4"), ("component", "st"), ("interface", "lang")] [],
    .elem "media" [("id", "r"), ("refer", "m")] [],
    .elem "media" [("id", "st"), ("type", "application/x-ginga-settings")] [.elem "property" [("name", "lang")] []],
    .elem "context" [("id", "c")] [.elem "media" [("id", "m")] [.elem "area" [("id", "a"), ("begin", "1s")] [], .elem "property" [("name", "x")] []]]]]

/-- They lead to the events of the object that is referred to, and to those of the settings. -/
example : parsedAnd (parseXml pread0 20 800 600 0 docPortsShared) (fun t =>
    (t.ports t.reg.root).map some == [evAt t "m" .presentation "@lambda", evAt t "m" .presentation "a", evAt t "m" .attribution "x",
      (t.reg.settings.bind t.reg.obj).bind fun X => (X.getEvent .attribution "lang").map Prod.fst] &&
    (t.reg.getById "r").isNone && (t.reg.getById "st").isNone && (evAt t "m" .attribution "a").isNone && (evAt t "m" .presentation "x").isNone) = true := by decide +kernel

/-- A port that names such an element leads to the object that is referred to: the specification is not empty. -/
theorem C72_refer {x : Xml} {r : Reg} {c b d d' : Xml} {o : Nat} {X : RObj} {p : Nat × REv} {a i : String} (h1 : d ∈ c.children) (h2 : d.tag = "media") (h3 : d.prop "refer" = some i)
    (h4 : SubElt x d') (h5 : eltKind d' = some .media) (h6 : d'.prop "id" = some i) (h7 : r.getById i = some o) (h8 : b.prop "component" = some a) (h9 : d.prop "id" = some a)
    (h10 : a ≠ "__root__") (h11 : a ≠ "__settings__") (h12 : b.prop "interface" = none) (h13 : r.obj o = some X)
    (h14 : X.getEvent .presentation "@lambda" = some p) : PortTo x r c b p.1 :=
  .shared ⟨h1, h2, by unfold eltKind; rw [h2, h3]; simp, .refer h2 h3 h4 h5 h6 h7, a, h8, h9, h10, h11, fun _ hn => by rw [h3] at hn; cases hn⟩ h12 h13 h14

end Ginga
