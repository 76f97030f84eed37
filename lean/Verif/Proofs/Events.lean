import Verif.Proofs.CondPred
import Verif.Props.C46
import Verif.Proofs.ReferEnd
/-!
# The events that interfaces name
-/
namespace Ginga

/-- An object without its events. -/
def RObj.skel (x : RObj) : RObj := { x with events := [] }

/-- Only events are added: none of the types of `A`. -/
structure Step (A : EType → Prop) (s t : PS) : Prop where
  obj : ∀ o, (t.reg.obj o).map RObj.skel = (s.reg.obj o).map RObj.skel
  byId : t.reg.byId = s.reg.byId
  root : t.reg.root = s.reg.root
  settings : t.reg.settings = s.reg.settings
  refer : t.refer = s.refer
  event : ∀ o x x' ty id p, s.reg.obj o = some x → t.reg.obj o = some x' → x.getEvent ty id = some p → x'.getEvent ty id = some p
  frozen : ∀ o x x' ty id, A ty → s.reg.obj o = some x → t.reg.obj o = some x' → x'.getEvent ty id = x.getEvent ty id

variable {A : EType → Prop}

theorem step_same {s t : PS} (h1 : t.reg = s.reg) (h2 : t.refer = s.refer) : Step A s t := by
  refine ⟨fun o => by rw [h1], by rw [h1], by rw [h1], by rw [h1], h2, ?_, ?_⟩
  · intro o x x' ty id p hx hx' h; rw [h1, hx] at hx'; cases hx'; exact h
  · intro o x x' ty id _ hx hx'; rw [h1, hx] at hx'; cases hx'; rfl

theorem Step.get {s t : PS} (h : Step A s t) {o : Nat} {x : RObj} (hx : s.reg.obj o = some x) : ∃ x', t.reg.obj o = some x' ∧ x'.skel = x.skel := by
  have := h.obj o
  rw [hx] at this
  exact Option.map_eq_some_iff.1 this

theorem Step.back {s t : PS} (h : Step A s t) {o : Nat} {x' : RObj} (hx : t.reg.obj o = some x') : ∃ x, s.reg.obj o = some x ∧ x'.skel = x.skel := by
  have := (h.obj o).symm
  rw [hx] at this
  obtain ⟨x, h1, h2⟩ := Option.map_eq_some_iff.1 this
  exact ⟨x, h1, h2.symm⟩

theorem Step.trans {s t v : PS} (h : Step A s t) (h' : Step A t v) : Step A s v := by
  refine ⟨fun o => (h'.obj o).trans (h.obj o), h'.byId.trans h.byId, h'.root.trans h.root, h'.settings.trans h.settings, h'.refer.trans h.refer, ?_, ?_⟩
  · intro o x x' ty id p hx hx' hp
    obtain ⟨y, hy, -⟩ := h.get hx
    exact h'.event o y x' ty id p hy hx' (h.event o x y ty id p hx hy hp)
  · intro o x x' ty id hA hx hx'
    obtain ⟨y, hy, -⟩ := h.get hx
    rw [h'.frozen o y x' ty id hA hy hx', h.frozen o x y ty id hA hx hy]

theorem step_pre (A : EType → Prop) : PPre (Step A) := ⟨fun _ => step_same rfl rfl, Step.trans⟩

theorem Step.weaken {B : EType → Prop} {s t : PS} (h : Step A s t) (hB : ∀ ty, B ty → A ty) : Step B s t :=
  ⟨h.obj, h.byId, h.root, h.settings, h.refer, h.event, fun o x x' ty id hb => h.frozen o x x' ty id (hB ty hb)⟩

theorem find_einsert {P : Nat × REv → Bool} {a : Nat} {e : REv} : ∀ {l : List (Nat × REv)}, P (a, e) = false → (einsert a e l).find? P = l.find? P
  | [], h => by simp [einsert, h]
  | b :: l, h => by
    unfold einsert
    split
    · rw [List.find?_cons_of_neg (by simp [h])]
    · by_cases hb : P b = true
      · rw [List.find?_cons_of_pos hb, List.find?_cons_of_pos hb]
      · rw [List.find?_cons_of_neg hb, List.find?_cons_of_neg hb, find_einsert h]

theorem addEvent_get {x : RObj} {a : Nat} {e : REv} {ty : EType} {id : String} (h : ¬ (e.typ = ty ∧ e.id = id)) : (x.addEvent a e).getEvent ty id = x.getEvent ty id := by
  unfold RObj.addEvent
  split
  · rfl
  · unfold RObj.getEvent
    exact find_einsert (by simpa using h)

theorem step_addEvent {E : PRead} {o : Nat} {e : REv} (hA : ¬ A e.typ) : PRel (Step A) (addEvent E o e) := by
  intro s
  unfold addEvent
  refine PPost.bind' (PPost.alloc ?_)
  refine PPost.regOp fun b r h => ?_
  unfold Reg.exec at h
  dsimp only at h
  split at h
  · cases h
  · next x hx =>
    simp only [Res.ok.injEq, Prod.mk.injEq] at h
    obtain ⟨-, rfl⟩ := h
    obtain ⟨f1, f2, f3, f4, f5, f6⟩ := addEvent_fields x (E.addr s.nalloc) e
    have hsk : (x.addEvent (E.addr s.nalloc) e).skel = x.skel := by
      unfold RObj.skel; rw [f1, f2, f3, f4, f5, f6]
    have hx : s.reg.obj o = some x := hx
    refine ⟨fun q => ?_, rfl, rfl, rfl, rfl, ?_, ?_⟩
    · show (upd s.reg.obj o _ q).map _ = _
      by_cases hq : q = o
      · subst hq; rw [upd_same, hx, Option.map_some, Option.map_some, hsk]
      · rw [upd_ne _ _ hq]
    · intro q y y' ty id p hy hy' hp
      have hy' : upd s.reg.obj o (some (x.addEvent (E.addr s.nalloc) e)) q = some y' := hy'
      by_cases hq : q = o
      · subst hq
        rw [upd_same] at hy'
        rw [hx] at hy; cases hy; cases hy'
        by_cases hc : e.typ = ty ∧ e.id = id
        · obtain ⟨rfl, rfl⟩ := hc
          unfold RObj.addEvent; rw [hp]; exact hp
        · rw [addEvent_get hc]; exact hp
      · rw [upd_ne _ _ hq, hy] at hy'; cases hy'; exact hp
    · intro q y y' ty id hty hy hy'
      have hy' : upd s.reg.obj o (some (x.addEvent (E.addr s.nalloc) e)) q = some y' := hy'
      by_cases hq : q = o
      · subst hq
        rw [upd_same] at hy'
        rw [hx] at hy; cases hy; cases hy'
        exact addEvent_get (fun hc => hA (hc.1 ▸ hty))
      · rw [upd_ne _ _ hq, hy] at hy'; cases hy'; rfl

/-- Any event may be added. -/
def Skel : PS → PS → Prop := Step fun _ => False

theorem skel_core (E : PRead) : PCore E Skel where
  toPPre := step_pre _
  event _ _ _ := step_addEvent (fun h => h)
  props _ _ _ _ _ _ := step_same rfl rfl
  par _ _ _ := step_same rfl rfl

theorem skel_hasAlias {x x' : RObj} (h : x'.skel = x.skel) : x'.id = x.id ∧ x'.kind = x.kind ∧ x'.children = x.children ∧ ∀ a, x'.hasAlias a = x.hasAlias a := by
  unfold RObj.skel at h
  injection h with h1 h2 h3 h4 h5 h6
  exact ⟨h2, h1, h6, fun a => by unfold RObj.hasAlias; rw [h3]⟩

theorem Step.component {s t : PS} (h : Step A s t) (o : Nat) (a : String) : t.component o a = s.component o a := by
  unfold PS.component
  have hf : ∀ (P : RObj → Bool), (∀ x x', x'.skel = x.skel → P x' = P x) →
      (fun c => match t.reg.obj c with | some x => P x | none => false) = fun c => match s.reg.obj c with | some x => P x | none => false := by
    intro P hP
    funext c
    cases hs : s.reg.obj c with
    | none =>
      have := h.obj c
      rw [hs] at this
      rw [Option.map_eq_none_iff.1 this]
    | some x =>
      obtain ⟨x', h1, h2⟩ := h.get hs
      rw [h1]; exact hP x x' h2
  cases hs : s.reg.obj o with
  | none =>
    have := h.obj o
    rw [hs] at this
    rw [Option.map_eq_none_iff.1 this]
  | some x =>
    obtain ⟨x', h1, h2⟩ := h.get hs
    obtain ⟨g1, g2, g3, g4⟩ := skel_hasAlias h2
    rw [h1]
    dsimp only
    rw [g1, g3, g4]
    unfold childByIdOrAlias PS.referIdx
    have e1 := hf (fun x => x.id == a) (fun x x' h => by rw [(skel_hasAlias h).1])
    have e2 := hf (fun x => x.hasAlias a) (fun x x' h => (skel_hasAlias h).2.2.2 a)
    erw [e1, e2, h.refer]
    rfl

/-! ## Specification: what an element names -/

/-- The object of an element of the document `x`. -/
inductive ObjOf (x : Xml) (r : Reg) : Xml → Nat → Prop
  | own {d i o} : (eltKind d).isSome = true → d.prop "id" = some i → r.getById i = some o → ObjOf x r d o
  | body {d} : d.tag = "body" → ObjOf x r d r.root
  | settings {d o} : d.tag = "media" → d.prop "refer" = none → eltKind d = none → r.settings = some o → ObjOf x r d o
  | refer {d d' i o} : d.tag = "media" → d.prop "refer" = some i → SubElt x d' → eltKind d' = some .media → d'.prop "id" = some i → r.getById i = some o → ObjOf x r d o

/-- In the context or body `c`, the attribute `component` of `b` names `d`, whose object is `o`: a child, or `c` itself. -/
structure CompOf (x : Xml) (r : Reg) (c b d : Xml) (o : Nat) : Prop where
  scope : d ∈ c.children ∨ d = c
  obj : ObjOf x r d o
  name : b.prop "component" = d.prop "id"
  named : (d.prop "id").isSome = true
  /-- an element that only shares an object: its identifier is not one of the parser's, and no element refers to it if it is a settings element -/
  clear : eltKind d = none → ∀ a, d.prop "id" = some a → Unshared x d a

/-- In the context or body `c`, the attributes `component` and `interface` of `b` name the event `p` of the object `o`. -/
inductive EventOf (x : Xml) (r : Reg) : Xml → Xml → Nat → Nat × REv → Prop
  | whole {c b d o X p} : CompOf x r c b d o → b.prop "interface" = none → r.obj o = some X → X.getEvent .presentation "@lambda" = some p → EventOf x r c b o p
  | media {c b d o X p a} : CompOf x r c b d o → b.prop "interface" = some a → r.obj o = some X → X.kind = .media ∨ X.kind = .settings →
      (X.getEvent .presentation a).or (X.getEvent .attribution a) = some p → EventOf x r c b o p
  | switch {c b d o X p a} : CompOf x r c b d o → b.prop "interface" = some a → r.obj o = some X → X.kind = .switch → X.getEvent .presentation a = some p →
      EventOf x r c b o p
  | self {c b o X p a} : CompOf x r c b c o → b.prop "interface" = some a → r.obj o = some X → X.kind = .context → X.getEvent .attribution a = some p →
      EventOf x r c b o p
  | port {c b d y o o' p a} : CompOf x r c b d o → d ∈ c.children → d.tag = "context" → b.prop "interface" = some a → y ∈ d.children → y.tag = "port" → y.prop "id" = some a →
      EventOf x r d y o' p → EventOf x r c b o' p
  | prop {c b d o X p a} : CompOf x r c b d o → d ∈ c.children → d.tag = "context" → b.prop "interface" = some a → r.obj o = some X →
      (∀ y, SubElt x y → y.tag = "port" → y.prop "id" ≠ some a) → X.getEvent .attribution a = some p → EventOf x r c b o p

/-! ## The state at the end of the document -/

/-- The state `u` at the end of the document, and a state `s` later on. -/
structure AtEnd (E : PRead) (scr : Rect) (z : Nat) (x : Xml) (T : PS) (ns : List Note) (f : Nat → Nat) (u s : PS) : Prop where
  tree : DocTree E scr x T ns f
  j : J E scr z ns u
  kc : KC ns u
  treeK : TreeK E f ns [0] u
  name : NameK E f ns [0] u
  ref : RefK f ns u
  like : Like u s
  get : ∀ j n, ns[j]? = some n → n.tag ≠ "descriptor" → n.tag ≠ "region" → ∀ a, s.attr j a = n.get a
  skel : Skel u s
  free : ClearAt x ns u.reg

section
variable {E : PRead} {scr : Rect} {z : Nat} {x : Xml} {T u s : PS} {ns : List Note} {f : Nat → Nat}

/-- The elements of a context that have objects. -/
theorem child_note (hd : DocTree E scr x T ns f) {q : Nat} {mq : Note} {d : Xml} (hq : ns[q]? = some mq) (hdc : d ∈ mq.xml.children) :
    ∃ (i : Nat) (md : Note), ns[i]? = some md ∧ md.xml = d ∧ md.parent = some q := by
  rw [← hd.kids hq] at hdc
  obtain ⟨k, hk1, hk2⟩ := List.mem_map.1 hdc
  obtain ⟨-, e1, e2⟩ := kidNotes_mem.1 hk1
  rw [Nat.sub_zero] at e1
  exact ⟨k.1, k.2, e1, hk2, e2⟩

theorem objOf_tag {r : Reg} {d : Xml} {o : Nat} (h : ObjOf x r d o) : d.tag ∈ bodyTags := by
  cases h with
  | own h _ _ =>
    unfold eltKind at h
    split at h
    · next g => rw [g]; decide
    · split at h
      · next g => rw [g]; decide
      · split at h
        · next g => rw [g.1]; decide
        · cases h
  | body h => rw [h]; decide
  | settings h _ _ _ => rw [h]; decide
  | refer h _ _ _ _ _ => rw [h]; decide

/-- The object of an element is the one made for its note. -/
theorem objOf_note (h : AtEnd E scr z x T ns f u s) {v : PS} (hv : Skel u v) {i : Nat} {md : Note} {d : Xml} {o : Nat} (hi : ns[i]? = some md) (hx : md.xml = d)
    (ho : ObjOf x v.reg d o) : f i = o ∧ md.pre = "" ∧ ∃ X, u.reg.obj o = some X ∧ X.inDoc = true := by
  have htag : md.tag = d.tag := by unfold Note.tag; rw [hx]
  have hp := (h.tree.main _ i md (Nat.lt_succ_self _) hi (by rw [htag]; exact objOf_tag ho)).2.1
  have hok := h.tree.ok i md hi
  have hkind : md.kind = eltKind d := by rw [Note.kind_main hok hp, hx]
  have hbid : ∀ a, v.reg.getById a = u.reg.getById a := fun a => by unfold Reg.getById; rw [hv.byId]
  have hin : ∀ a o, u.reg.getById a = some o → ∃ X, u.reg.obj o = some X ∧ X.inDoc = true := by
    intro a o ha
    obtain ⟨X, ⟨h1, h2⟩, -⟩ := (h.treeK.world.inv.byId a o).1 ha
    obtain ⟨X', h3, h4⟩ := h.treeK.world.inv.objs o h1
    rw [h2] at h3; cases h3; exact ⟨X, h2, h4⟩
  have hown : ∀ {j : Nat} {m : Note} {a : String} {k : RKind}, ns[j]? = some m → m.kind = some k → m.get "id" = some a → ∀ o, u.reg.getById a = some o → f j = o := by
    intro j m a k hj hk ha o ho
    obtain ⟨a', q', e1, e2, e3⟩ := h.treeK.made j m k hj hk
    rw [ha] at e1; cases e1
    rw [e3.byId h.treeK.world.inv] at ho
    exact Option.some.inj ho
  have hget : ∀ a, (md.tag ≠ "link") → md.get a = d.prop a := fun a hne => by rw [Note.get_main hok hp a (.inl hne), hx]
  cases ho with
  | own h1 h2 h3 =>
    obtain ⟨k, hk⟩ := Option.isSome_iff_exists.1 h1
    rw [hbid] at h3
    refine ⟨hown hi (hkind.trans hk) ?_ o h3, hp, hin _ _ h3⟩
    rw [hget _ (Note.kind_ne (by rw [hkind]; exact h1)).1]; exact h2
  | body h1 =>
    have hr := h.treeK.top i md hi (.inr (htag.trans h1))
    rw [hr, hv.root]
    refine ⟨rfl, hp, ?_⟩
    obtain ⟨X, g1, -, g2⟩ := h.treeK.world.tree.root
    exact ⟨X, g1, g2⟩
  | settings h1 h2 h3 h4 =>
    have := h.ref.settings i md hi (htag.trans h1) (by rw [hget _ (by rw [htag, h1]; decide)]; exact h2) (hkind.trans h3)
    rw [hv.settings, this] at h4
    obtain rfl := Option.some.inj h4
    refine ⟨rfl, hp, ?_⟩
    obtain ⟨X, g1, g2⟩ := (h.treeK.world.inv.settings _ this (f i)).2 rfl
    obtain ⟨X', h3, h4⟩ := h.treeK.world.inv.objs _ g1.1
    exact ⟨X', h3, h4⟩
  | refer h1 h2 h3 h4 h5 h6 =>
    rw [hbid] at h6
    obtain ⟨j, m, -, -, g1, g2, g3, -, -⟩ := h.tree.laid.inside h3
    have hokm := h.tree.ok j m g1
    have hmk : m.kind = some .media := by rw [Note.kind_main hokm g3, g2]; exact h4
    have hid := (by rw [Note.get_main hokm g3 "id" (.inl (Note.kind_ne (by rw [hmk]; rfl)).1), g2]; exact h5 : m.get "id" = some _)
    rw [h.ref.done i j md m _ hi (htag.trans h1) (by rw [hget _ (by rw [htag, h1]; decide)]; exact h2) g1 hmk hid]
    exact ⟨hown g1 hmk hid o h6, hp, hin _ _ h6⟩

/-- The component named is the one found. -/
theorem comp_found (h : AtEnd E scr z x T ns f u s) {v : PS} (hv : Skel u v) {q : Nat} {mq : Note} {b d : Xml} {o : Nat} {a : String} (hq : ns[q]? = some mq)
    (hqt : mq.tag = "body" ∨ mq.tag = "context") (hc : CompOf x v.reg mq.xml b d o) (ha : d.prop "id" = some a) :
    ∃ (i : Nat) (md : Note), ns[i]? = some md ∧ md.xml = d ∧ (d ∈ mq.xml.children ∧ md.parent = some q ∨ d = mq.xml ∧ i = q) ∧ md.pre = "" ∧ f i = o ∧
      ∀ o' y', s.component (f q) a = some o' → s.reg.obj o' = some y' → o' = o := by
  obtain ⟨i, md, d1, d2, d3⟩ : ∃ (i : Nat) (md : Note), ns[i]? = some md ∧ md.xml = d ∧ (d ∈ mq.xml.children ∧ md.parent = some q ∨ d = mq.xml ∧ i = q) := by
    rcases hc.scope with hdc | rfl
    · obtain ⟨i, md, h1, h2, h3⟩ := child_note h.tree hq hdc
      exact ⟨i, md, h1, h2, .inl ⟨hdc, h3⟩⟩
    · exact ⟨q, mq, hq, rfl, .inr ⟨rfl, rfl⟩⟩
  obtain ⟨e1, e2, X, e3, e4⟩ := objOf_note h hv d1 d2 hc.obj
  refine ⟨i, md, d1, d2, d3, e2, e1, fun o' y0 ho' hy0 => ?_⟩
  rw [h.skel.component] at ho'
  obtain ⟨y', hy', -⟩ := h.skel.back hy0
  have hok := h.tree.ok i md d1
  have hkind : md.kind = eltKind d := by rw [Note.kind_main hok e2, d2]
  have htag : md.tag = d.tag := by unfold Note.tag; rw [d2]
  have hlink : md.tag ≠ "link" := by
    have := hc.obj
    cases this with
    | own h1 _ _ => exact (Note.kind_ne (by rw [hkind]; exact h1)).1
    | body h1 => rw [htag, h1]; decide
    | settings h1 => rw [htag, h1]; decide
    | refer h1 => rw [htag, h1]; decide
  have hid : md.get "id" = some a := by rw [Note.get_main hok e2 "id" (.inl hlink), d2]; exact ha
  have hbid : ∀ a, v.reg.getById a = u.reg.getById a := fun a => by unfold Reg.getById; rw [hv.byId]
  have w := h.treeK.world
  cases hk : eltKind d with
  | some k =>
    have hks : md.kind.isSome = true := by rw [hkind, hk]; rfl
    rcases d3 with ⟨-, hp⟩ | ⟨-, rfl⟩
    · rw [child_component h.treeK h.name d1 hks hid hp] at ho'
      exact (Option.some.inj ho').symm.trans e1
    · rw [self_component h.treeK d1 hks hid] at ho'
      exact (Option.some.inj ho').symm.trans e1
  | none =>
    obtain ⟨hno, hnr⟩ := h.free i md a d1 (by
      rw [htag]
      cases hc.obj with
      | own h1 _ _ => rw [hk] at h1; cases h1
      | body h1 => exact .inl h1
      | settings h1 => exact .inr h1
      | refer h1 => exact .inr h1) (hkind.trans hk) hid (by rw [d2]; exact hc.clear hk a ha)
    have nobody : ∀ o y, u.reg.obj o = some y → y.inDoc = true → y.id ≠ a := by
      intro o y hy hin hya
      have := (w.inv.byId a o).2 ⟨y, ⟨w.inv.inDoc _ _ hy hin, hy⟩, hya⟩
      rw [hno] at this; cases this
    obtain ⟨D, hnm⟩ := h.name
    -- a name of a media object
    have hB : ∀ y, u.reg.obj o' = some y → mediaName f u.reg D ns a o' → o' = o := by
      rintro y hy ⟨j, n, g1, g2, g3, g4, g5⟩
      have := h.treeK.once j i n md a g1 d1 (by rw [g2]; decide) hlink g4 hid
      subst this
      rcases g5 with g5 | ⟨-, g6⟩
      · exact g5.symm.trans e1
      · have := (hnm.dead _ g6).1
        rw [e1, e3] at this; cases this
    -- the body
    have hroot : (rootName ns a → o = u.reg.root) := by
      rintro ⟨j, n, g1, g2, g3⟩
      have := h.treeK.once j i n md a g1 d1 (by rcases g2 with h | h <;> rw [h] <;> decide) hlink g3 hid
      subst this
      rw [← e1]; exact h.treeK.top j n g1 g2
    have hal : ∀ o1 y, u.reg.obj o1 = some y → y.hasAlias a = true → (o1 = u.reg.root ∧ o = u.reg.root) ∨ mediaName f u.reg D ns a o1 := by
      intro o1 y hy hya
      unfold RObj.hasAlias at hya
      obtain ⟨p, hp1, hp2⟩ := List.any_eq_true.1 hya
      have hp2 : p.1 = a := by simpa using hp2
      rcases hnm.alias o1 y p hy hp1 with ⟨g1, g2⟩ | ⟨-, g2⟩
      · rw [hp2] at g2; exact .inl ⟨g1, hroot g2⟩
      · rw [hp2] at g2; exact .inr g2
    unfold PS.component at ho'
    split at ho'
    · cases ho'
    next y hy =>
    have hyin : y.inDoc = true := by
      rcases hqt with hqt | hqt
      · rw [h.treeK.top q mq hq (.inr hqt)] at hy
        obtain ⟨X, g1, -, g2⟩ := w.tree.root
        rw [g1] at hy; cases hy; exact g2
      · obtain ⟨i', q', g1, g2, X, ⟨g3, g4⟩, -⟩ := h.treeK.made q mq .context hq (by unfold Note.kind; rw [hqt]; simp)
        obtain ⟨X', g5, g6⟩ := w.inv.objs _ g3
        rw [g5] at hy; cases hy; exact g6
    split at ho'
    · next hown =>
      obtain rfl := Option.some.inj ho'
      rcases hown with hown | hown
      · exact absurd hown.symm (nobody _ y hy hyin)
      · rcases hal _ y hy hown with ⟨g1, g2⟩ | g
        · rw [g1, g2]
        · exact hB y hy g
    · split at ho'
      · next c hcc =>
        obtain rfl := Option.some.inj ho'
        unfold childByIdOrAlias at hcc
        split at hcc
        · next c' hf =>
          obtain rfl := Option.some.inj hcc
          exfalso
          have g1 := List.find?_some hf
          obtain ⟨zz, z1, z2, z3⟩ := w.tree.chi _ y hy c' (List.mem_of_find?_eq_some hf)
          rw [z1] at g1
          exact nobody _ zz z1 z3 (by simpa using g1)
        · have g1 := List.find?_some hcc
          obtain ⟨zz, z1, z2, z3⟩ := w.tree.chi _ y hy c (List.mem_of_find?_eq_some hcc)
          rw [z1] at g1
          rcases hal _ zz z1 g1 with ⟨g1, g2⟩ | g
          · rw [g1, g2]
          · exact hB zz z1 g
      · have hm := referIdx_mem ho'
        obtain ⟨⟨n, n1, n2⟩, n3⟩ := hnm.refer _ hm
        dsimp only at n2 n3
        rcases (n3 y' hy').2 with g | ⟨-, g⟩
        · exact hB y' hy' g
        · exact absurd g hnr

theorem not_own_child (c : Xml) : c ∉ c.children := by
  intro h
  have h1 := List.sizeOf_lt_of_mem h
  cases c with
  | elem t a cs =>
    have h2 : sizeOf (Xml.elem t a cs) < sizeOf cs := h1
    simp only [Xml.elem.sizeOf_spec] at h2
    omega

/-- What stays while links are made. -/
def LFrozen (ty : EType) : Prop := ty = .presentation ∨ ty = .attribution

def LStep : PS → PS → Prop := Step LFrozen

theorem context_note (h : AtEnd E scr z x T ns f u s) {i q : Nat} {md : Note} (hi : ns[i]? = some md) (ht : md.tag = "context") (hp : md.parent = some q) :
    ∃ X, u.reg.obj (f i) = some X ∧ X.kind = .context ∧ f i ≠ f q := by
  have w := h.treeK.world
  obtain ⟨i', q', g1, g2, X, ⟨g3, g4⟩, g5, g6, g7⟩ := h.treeK.made i md .context hi (by unfold Note.kind; rw [ht]; simp)
  rw [hp] at g2; cases g2
  obtain ⟨X', g8, g9⟩ := w.inv.objs _ g3
  rw [g4] at g8; cases g8
  exact ⟨X, g4, g6, fun hc => w.tree.not_own g4 g9 (by rw [hc]; exact g7)⟩

theorem iface_spec (h : AtEnd E scr z x T ns f u s) : ∀ (n q : Nat) (mq : Note) (kb : Nat) (mb : Note), ns[q]? = some mq → (mq.tag = "body" ∨ mq.tag = "context") →
    ns[kb]? = some mb → (mb.tag = "bind" ∨ mb.tag = "port") →
    PPost (resolveIface n (f q) kb) (fun e s' => s' = s ∧ ∀ v, LStep s v → ∀ o p, EventOf x v.reg mq.xml mb.xml o p → e = ⟨o, p.1, p.2⟩) s
  | 0, _, _, _, _, _, _, _, _ => PPost.fuel
  | n + 1, q, mq, kb, mb, hq, hqt, hkb, hbt => by
    unfold resolveIface
    have hbtag : (s.elt kb).tag = mb.tag := by rw [h.like.tag, (h.j.tag hkb).1]
    have hokb := h.tree.ok kb mb hkb
    have hbp := (h.tree.main _ kb mb (Nat.lt_succ_self _) hkb (by rcases hbt with h | h <;> rw [h] <;> decide)).2.1
    have hbattr : ∀ a, a ≠ "id" → s.attr kb a = mb.xml.prop a := fun a ha => by
      rw [h.get kb mb hkb (by rcases hbt with h | h <;> rw [h] <;> decide) (by rcases hbt with h | h <;> rw [h] <;> decide), Note.get_main hokb hbp a (.inr ha)]
    refine PPost.bind ?_
    unfold resolveComponent
    refine PPost.bind (PPost.get ?_)
    dsimp only
    rw [if_neg (by rw [hbtag]; rcases hbt with h | h <;> rw [h] <;> decide)]
    refine PPost.bind (PPost.attr! fun a0 ha0 => PPost.orErr fun o ho => PPost.bind (PPost.object fun X hX => PPost.bind (PPost.get ?_)))
    rw [hbattr _ (by decide)] at ha0 ⊢
    have hskel : ∀ v, LStep s v → Skel u v := fun v hv => (step_pre _).trans h.skel (hv.weaken fun _ h => h.elim)
    have key2 : ∀ v, LStep s v → ∀ d o1, CompOf x v.reg mq.xml mb.xml d o1 → o1 = o ∧ ∃ (i : Nat) (md : Note), ns[i]? = some md ∧ md.xml = d ∧
        (d ∈ mq.xml.children ∧ md.parent = some q ∨ d = mq.xml ∧ i = q) ∧ md.pre = "" ∧ f i = o := by
      intro v hv d o1 hc
      have hda : d.prop "id" = some a0 := by rw [← hc.name]; exact ha0
      obtain ⟨i, md, g1, g2, g3, g4, g5, g6⟩ := comp_found h (hskel v hv) hq hqt hc hda
      obtain rfl := g6 o X ho hX
      exact ⟨rfl, i, md, g1, g2, g3, g4, g5⟩
    have key : ∀ v, LStep s v → ∀ d o1 Xv, CompOf x v.reg mq.xml mb.xml d o1 → v.reg.obj o1 = some Xv → o1 = o ∧ Xv.kind = X.kind ∧
        ∀ ty id, LFrozen ty → Xv.getEvent ty id = X.getEvent ty id := by
      intro v hv d o1 Xv hc hx
      obtain ⟨rfl, -⟩ := key2 v hv d o1 hc
      obtain ⟨X', e1, e2⟩ := hv.back hx
      rw [hX] at e1; cases e1
      exact ⟨rfl, (skel_hasAlias e2).2.1, fun ty id hty => hv.frozen o1 X Xv ty id hty hX hx⟩
    have ctx : ∀ v, LStep s v → ∀ d o1, CompOf x v.reg mq.xml mb.xml d o1 → d ∈ mq.xml.children → d.tag = "context" → X.kind = .context ∧ o ≠ f q := by
      intro v hv d o1 hc hdc hdt
      obtain ⟨-, i, md, g1, g2, g3, g4, rfl⟩ := key2 v hv d o1 hc
      have hp : md.parent = some q := by
        rcases g3 with ⟨-, g⟩ | ⟨g, -⟩
        · exact g
        · exact absurd (g ▸ hdc) (not_own_child _)
      obtain ⟨Y, e1, e2, e3⟩ := context_note h g1 (by unfold Note.tag; rw [g2]; exact hdt) hp
      obtain ⟨Y', e4, e5⟩ := h.skel.get e1
      rw [hX] at e4; cases e4
      exact ⟨(skel_hasAlias e5).2.1.trans e2, e3⟩
    have self : ∀ v, LStep s v → ∀ o1, CompOf x v.reg mq.xml mb.xml mq.xml o1 → o = f q := by
      intro v hv o1 hc
      obtain ⟨-, i, md, g1, g2, g3, g4, rfl⟩ := key2 v hv _ o1 hc
      rcases g3 with ⟨g, -⟩ | ⟨-, rfl⟩
      · exact absurd g (not_own_child _)
      · rfl
    have ev : ∀ ty id e, evOf o X ty id = some e → ∃ p, X.getEvent ty id = some p ∧ e = ⟨o, p.1, p.2⟩ := by
      intro ty id e he
      obtain ⟨p, e1, e2⟩ := Option.map_eq_some_iff.1 he
      exact ⟨p, e1, e2.symm⟩
    split
    · next hi =>
      refine PPost.some! fun e he => ⟨rfl, fun v hv o1 p hE => ?_⟩
      obtain ⟨p', e1, rfl⟩ := ev _ _ _ he
      cases hE with
      | whole c1 c2 c3 c4 =>
        obtain ⟨rfl, -, g⟩ := key v hv _ _ _ c1 c3
        rw [g _ _ (.inl rfl), e1] at c4; cases c4; rfl
      | media _ c2 => rw [hi] at c2; cases c2
      | switch _ c2 => rw [hi] at c2; cases c2
      | self _ c2 => rw [hi] at c2; cases c2
      | port _ _ _ c2 => rw [hi] at c2; cases c2
      | prop _ _ _ c2 => rw [hi] at c2; cases c2
    · next iface hi =>
      have hmed : X.kind = .media ∨ X.kind = .settings → PPost (match evOf o X .presentation iface with
          | some e => pure e
          | none => PM.orErr (evOf o X .attribution iface)) (fun e s' => s' = s ∧ ∀ v, LStep s v → ∀ o p, EventOf x v.reg mq.xml mb.xml o p → e = ⟨o, p.1, p.2⟩) s := by
        intro hk
        have hfin : ∀ p', (X.getEvent .presentation iface).or (X.getEvent .attribution iface) = some p' →
            ∀ v, LStep s v → ∀ o1 p, EventOf x v.reg mq.xml mb.xml o1 p → (⟨o, p'.1, p'.2⟩ : EvRef) = ⟨o1, p.1, p.2⟩ := by
          intro p' e1 v hv o1 p hE
          cases hE with
          | whole _ c2 => rw [hi] at c2; cases c2
          | media c1 c2 c3 c4 c5 =>
            rw [hi] at c2; cases c2
            obtain ⟨rfl, -, g⟩ := key v hv _ _ _ c1 c3
            rw [g _ _ (.inl rfl), g _ _ (.inr rfl), e1] at c5; cases c5; rfl
          | switch c1 c2 c3 c4 =>
            obtain ⟨-, g, -⟩ := key v hv _ _ _ c1 c3
            rw [← g, c4] at hk; simp at hk
          | self c1 c2 c3 c4 =>
            obtain ⟨-, g, -⟩ := key v hv _ _ _ c1 c3
            rw [← g, c4] at hk; simp at hk
          | port c1 c2 c3 => rw [(ctx v hv _ _ c1 c2 c3).1] at hk; simp at hk
          | prop c1 c2 c3 => rw [(ctx v hv _ _ c1 c2 c3).1] at hk; simp at hk
        split
        · next e he =>
          obtain ⟨p', e1, rfl⟩ := ev _ _ _ he
          exact PPost.pure ⟨rfl, hfin p' (by rw [e1]; rfl)⟩
        · next he =>
          refine PPost.orErr fun e he' => ?_
          obtain ⟨p', e1, rfl⟩ := ev _ _ _ he'
          refine ⟨rfl, hfin p' ?_⟩
          have : X.getEvent .presentation iface = none := Option.map_eq_none_iff.1 he
          rw [this]; exact e1
      split
      · next hk => exact hmed (.inl hk)
      · next hk => exact hmed (.inr hk)
      · next hk =>
        have hattr : (o = f q ∨ ∀ v, LStep s v → ∀ o1 p, EventOf x v.reg mq.xml mb.xml o1 p → ∀ d o2, CompOf x v.reg mq.xml mb.xml d o2 → d ∈ mq.xml.children → d.tag = "context" →
              ∀ y ∈ d.children, y.tag = "port" → y.prop "id" ≠ some iface) →
            PPost (PM.orErr (evOf o X .attribution iface)) (fun e s' => s' = s ∧ ∀ v, LStep s v → ∀ o p, EventOf x v.reg mq.xml mb.xml o p → e = ⟨o, p.1, p.2⟩) s := by
          intro hor
          refine PPost.orErr fun e he => ⟨rfl, fun v hv o1 p hE => ?_⟩
          obtain ⟨p', e1, rfl⟩ := ev _ _ _ he
          have hE0 := hE
          cases hE with
          | whole _ c2 => rw [hi] at c2; cases c2
          | media c1 c2 c3 c4 =>
            obtain ⟨-, g, -⟩ := key v hv _ _ _ c1 c3
            rw [g, hk] at c4; simp at c4
          | switch c1 c2 c3 c4 =>
            obtain ⟨-, g, -⟩ := key v hv _ _ _ c1 c3
            rw [g, hk] at c4; simp at c4
          | self c1 c2 c3 c4 c5 =>
            rw [hi] at c2; cases c2
            obtain ⟨rfl, -, g⟩ := key v hv _ _ _ c1 c3
            rw [g _ _ (.inr rfl), e1] at c5; cases c5; rfl
          | port c1 c2 c3 c4 c5 c6 c7 =>
            rw [hi] at c4; cases c4
            rcases hor with hor | hor
            · exact absurd hor (ctx v hv _ _ c1 c2 c3).2
            · exact absurd c7 (hor v hv _ _ hE0 _ _ c1 c2 c3 _ c5 c6)
          | prop c1 c2 c3 c4 c5 c6 c7 =>
            rw [hi] at c4; cases c4
            obtain ⟨rfl, -, g⟩ := key v hv _ _ _ c1 c5
            rw [g _ _ (.inr rfl), e1] at c7; cases c7; rfl
        split
        · next hoq => exact hattr (.inl hoq)
        · next hoq =>
          split
          · next hnone =>
            refine hattr (.inr fun v hv o1 p hE d o2 hc hdc hdt y hy hyt hyi => ?_)
            obtain ⟨-, i, md, g1, g2, g3, g4, g5⟩ := key2 v hv _ _ hc
            rw [← g2] at hy
            obtain ⟨j, mj, j1, j2, j3⟩ := child_note h.tree g1 hy
            have hjt : mj.tag = "port" := by unfold Note.tag; rw [j2]; exact hyt
            have hjp := (h.tree.main _ j mj (Nat.lt_succ_self _) j1 (by rw [hjt]; decide)).2.1
            have hmem := ((byTag_notes h.j h.kc (tag := "port") (by decide) (by decide +kernel)).2 j).2 ⟨mj, j1, hjt⟩
            unfold PS.byTag at hmem
            have hcache : j ∈ s.cache := by rw [h.like.cache]; exact (List.mem_filter.1 hmem).1
            unfold PS.byId at hnone
            split at hnone
            · cases hnone
            · next hf =>
              have := List.find?_eq_none.1 hf j hcache
              refine this ?_
              rw [h.like.tag, (h.j.tag j1).1, hjt, h.get j mj j1 (by rw [hjt]; decide) (by rw [hjt]; decide), Note.get_main (h.tree.ok j mj j1) hjp _ (.inl (by rw [hjt]; decide)), j2, hyi]
              simp
          · next j hj =>
            obtain ⟨b1, b2, b3⟩ := PS.byId_some hj
            rw [h.like.cache] at b1
            have hjl := h.kc.lt j b1
            obtain ⟨mj, hmj⟩ : ∃ mj, ns[j]? = some mj := ⟨_, List.getElem?_eq_getElem hjl⟩
            have hjt : mj.tag = "port" := by rw [h.like.tag, (h.j.tag hmj).1] at b2; simpa using b2
            have hokj := h.tree.ok j mj hmj
            obtain ⟨hjs, hjp, -⟩ := h.tree.main _ j mj (Nat.lt_succ_self _) hmj (by rw [hjt]; decide)
            have hjid : mj.get "id" = some iface := by rw [← h.get j mj hmj (by rw [hjt]; decide) (by rw [hjt]; decide)]; exact b3
            refine PPost.bind (PPost.parentElt fun p hp hpc => ?_)
            rw [h.like.parent, (h.j.tag hmj).2] at hp
            obtain ⟨hpj, mp, hmp, e, he, het, hep⟩ := hokj.parent p hp
            have hmpt : mp.tag = "body" ∨ mp.tag = "context" := by
              have : ∀ e ∈ syntaxTable, e.tag = "port" → ∀ p ∈ e.parents, p = "body" ∨ p = "context" := by decide +kernel
              exact this e he (het.trans hjt) _ hep
            have hmpe : (s.elt p).tag = mp.tag := by rw [h.like.tag, (h.j.tag hmp).1]
            have hcp : PPost (if (s.elt p).tag = "body" then pure s.reg.root
                     else do
                       let id ← attr! p "id"
                       let c ← PM.some! (s.reg.getById id)
                       let y ← object c
                       if y.kind = .context then pure c else PM.abort) (fun c s' => s' = s ∧ c = f p) s := by
              split
              · next hb =>
                refine PPost.pure ⟨rfl, ?_⟩
                rw [h.skel.root]; exact (h.treeK.top p mp hmp (.inr (hmpe ▸ hb))).symm
              · next hb =>
                rw [hmpe] at hb
                have hpt : mp.tag = "context" := hmpt.resolve_left hb
                refine PPost.bind (PPost.attr! fun id hid => PPost.bind (PPost.some! fun c hc => PPost.bind (PPost.object fun y hy => ?_)))
                rw [h.get p mp hmp (by rw [hpt]; decide) (by rw [hpt]; decide)] at hid
                obtain ⟨i', q', m1, m2, m3⟩ := h.treeK.made p mp .context hmp (by unfold Note.kind; rw [hpt]; simp)
                rw [hid] at m1; cases m1
                have := m3.byId h.treeK.world.inv
                unfold Reg.getById at hc this
                rw [h.skel.byId, this] at hc
                cases hc
                split
                · exact PPost.pure ⟨rfl, rfl⟩
                · exact PPost.abort
            refine PPost.bind (hcp.mono ?_)
            intro c s' hcs
            rw [hcs.1, hcs.2]
            refine PPost.bind (PPost.object fun y hy => ?_)
            split
            · exact PPost.err
            · refine (iface_spec h n p mp j mj hmp hmpt hmj (.inr hjt)).mono ?_
              intro e s2 hes
              have hI := hes.2
              refine ⟨hes.1, fun v hv o1 p1 hE => ?_⟩
              cases hE with
              | whole _ c2 => rw [hi] at c2; cases c2
              | media c1 c2 c3 c4 =>
                obtain ⟨-, g, -⟩ := key v hv _ _ _ c1 c3
                rw [g, hk] at c4; simp at c4
              | switch c1 c2 c3 c4 =>
                obtain ⟨-, g, -⟩ := key v hv _ _ _ c1 c3
                rw [g, hk] at c4; simp at c4
              | self c1 => exact absurd (self v hv _ c1) hoq
              | port c1 c2 c3 c4 c5 c6 c7 c8 =>
                rw [hi] at c4; cases c4
                obtain ⟨-, i, md, g1, g2, g3, g4, g5⟩ := key2 v hv _ _ c1
                rw [← g2] at c5
                obtain ⟨jy, my, y1, y2, y3⟩ := child_note h.tree g1 c5
                have hyt : my.tag = "port" := by unfold Note.tag; rw [y2]; exact c6
                have hyp := (h.tree.main _ jy my (Nat.lt_succ_self _) y1 (by rw [hyt]; decide)).2.1
                have hyid : my.get "id" = some iface := by
                  rw [Note.get_main (h.tree.ok jy my y1) hyp _ (.inl (by rw [hyt]; decide)), y2]; exact c7
                have := h.treeK.once jy j my mj iface y1 hmj (by rw [hyt]; decide) (by rw [hjt]; decide) hyid hjid
                subst this
                rw [y1] at hmj; cases hmj
                rw [y3] at hp; cases hp
                rw [g1] at hmp; cases hmp
                rw [← g2, ← y2] at c8
                exact hI v hv _ _ c8
              | prop c1 c2 c3 c4 c5 c6 c7 =>
                rw [hi] at c4; cases c4
                rw [Note.get_main hokj hjp _ (.inl (by rw [hjt]; decide))] at hjid
                exact absurd hjid (c6 _ hjs hjt)
      · next hk =>
        refine PPost.orErr fun e he => ⟨rfl, fun v hv o1 p hE => ?_⟩
        obtain ⟨p', e1, rfl⟩ := ev _ _ _ he
        cases hE with
        | whole _ c2 => rw [hi] at c2; cases c2
        | media c1 c2 c3 c4 =>
          obtain ⟨-, g, -⟩ := key v hv _ _ _ c1 c3
          rw [g, hk] at c4; simp at c4
        | switch c1 c2 c3 c4 c5 =>
          rw [hi] at c2; cases c2
          obtain ⟨rfl, -, g⟩ := key v hv _ _ _ c1 c3
          rw [g _ _ (.inl rfl), e1] at c5; cases c5; rfl
        | self c1 c2 c3 c4 =>
          obtain ⟨-, g, -⟩ := key v hv _ _ _ c1 c3
          rw [← g, c4] at hk; cases hk
        | port c1 c2 c3 => rw [(ctx v hv _ _ c1 c2 c3).1] at hk; cases hk
        | prop c1 c2 c3 => rw [(ctx v hv _ _ c1 c2 c3).1] at hk; cases hk

end

end Ginga
