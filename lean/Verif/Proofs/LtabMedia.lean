import Verif.Proofs.LtabLink
import Verif.Proofs.Events
/-!
# Media of NCL-ltab tables
-/
namespace Ginga

/-- Only the events and the properties of `o` change. -/
structure OnObj (E : PRead) (o : Nat) (s t : PS) : Prop where
  other : ∀ q, q ≠ o → t.reg.obj q = s.reg.obj q
  own : ∀ x, s.reg.obj o = some x → ∃ evs, t.reg.obj o = some { x with events := evs }
  objects : t.reg.objects = s.reg.objects
  root : t.reg.root = s.reg.root
  settings : t.reg.settings = s.reg.settings
  ports : t.ports = s.ports
  links : t.links = s.links
  rules : t.rules = s.rules
  refer : t.refer = s.refer
  syn : t.syn = s.syn
  props : ∀ q, q ≠ o → t.props q = s.props q
  world : WorldOf E s → WorldOf E t

theorem OnObj.refl (E : PRead) (o : Nat) (s : PS) : OnObj E o s s :=
  ⟨fun _ _ => rfl, fun x h => ⟨x.events, h⟩, rfl, rfl, rfl, rfl, rfl, rfl, rfl, rfl, fun _ _ => rfl, id⟩

theorem OnObj.trans {E : PRead} {o : Nat} {s t u : PS} (h : OnObj E o s t) (h' : OnObj E o t u) : OnObj E o s u where
  other q hq := (h'.other q hq).trans (h.other q hq)
  own x hx := by
    obtain ⟨e, he⟩ := h.own x hx
    obtain ⟨e', he'⟩ := h'.own _ he
    exact ⟨e', he'⟩
  objects := h'.objects.trans h.objects
  root := h'.root.trans h.root
  settings := h'.settings.trans h.settings
  ports := h'.ports.trans h.ports
  links := h'.links.trans h.links
  rules := h'.rules.trans h.rules
  refer := h'.refer.trans h.refer
  syn := h'.syn.trans h.syn
  props q hq := (h'.props q hq).trans (h.props q hq)
  world w := h'.world (h.world w)

theorem addEvent_shape (x : RObj) (a : Nat) (e : REv) : ∃ evs, x.addEvent a e = { x with events := evs } := by
  unfold RObj.addEvent
  split
  · exact ⟨x.events, rfl⟩
  · exact ⟨_, rfl⟩

theorem find_einsert_new {p : Nat × REv → Bool} {a : Nat} {e : REv} (hp : p (a, e) = true) : ∀ {l : List (Nat × REv)}, l.find? p = none → (einsert a e l).find? p = some (a, e)
  | [], _ => by simp [einsert, hp]
  | b :: l, h => by
    have hb : p b = false := by
      have := List.find?_eq_none.1 h b (by simp)
      simpa using this
    unfold einsert
    split
    · simp [hp]
    · rw [List.find?_cons, hb]
      exact find_einsert_new hp (by rw [List.find?_cons, hb] at h; exact h)

/-- The event that an object has after it was added. -/
theorem addEvent_self (x : RObj) (a : Nat) (e : REv) : ((x.addEvent a e).getEvent e.typ e.id).map (·.2) =
    some (((x.getEvent e.typ e.id).map (·.2)).getD e) := by
  unfold RObj.addEvent
  split
  · next h =>
    cases hg : x.getEvent e.typ e.id with
    | none => rw [hg] at h; cases h
    | some p => rfl
  · next h =>
    have hg : x.getEvent e.typ e.id = none := by
      cases hg : x.getEvent e.typ e.id with
      | none => rfl
      | some p => rw [hg] at h; simp at h
    rw [hg]
    unfold RObj.getEvent at hg ⊢
    rw [find_einsert_new (by simp) hg]
    rfl

theorem addEvent_post {E : PRead} (hinj : ∀ i j, E.addr i = E.addr j → i = j) (o : Nat) (e : REv) (s : PS) :
    PPost (addEvent E o e) (fun _ t => OnObj E o s t ∧ t.props = s.props ∧ ∃ x a, s.reg.obj o = some x ∧ t.reg.obj o = some (x.addEvent a e)) s := by
  have hw := ostep_addEvent hinj o e s
  intro b t hb
  have hw := (hw b t hb).2
  revert b t
  unfold addEvent
  refine PPost.bind' (PPost.alloc ?_)
  refine PPost.regOp fun b r h hw => ?_
  unfold Reg.exec at h
  cases hx : s.reg.obj o with
  | none => simp [hx] at h
  | some x =>
    simp only [hx, Res.ok.injEq, Prod.mk.injEq] at h
    obtain ⟨-, rfl⟩ := h
    refine ⟨⟨fun q hq => upd_ne _ _ hq, fun x' hx' => ?_, rfl, rfl, rfl, rfl, rfl, rfl, rfl, rfl, fun _ _ => rfl, fun w => (hw w).1⟩, rfl, x, _, rfl, upd_same _ _ _⟩
    rw [hx] at hx'; cases hx'
    obtain ⟨evs, he⟩ := addEvent_shape x (E.addr s.nalloc) e
    exact ⟨evs, by rw [← he]; exact upd_same _ _ _⟩

theorem setProp_post {E : PRead} (o : Nat) (n v : String) (s : PS) :
    PPost (setProp o n v) (fun _ t => OnObj E o s t ∧ t.reg = s.reg ∧ t.props o = mset n v (s.props o)) s := by
  unfold setProp
  refine PPost.bind (PPost.object fun x hx => PPost.modify ?_)
  refine ⟨⟨fun _ _ => rfl, fun x h => ⟨x.events, h⟩, rfl, rfl, rfl, rfl, rfl, rfl, rfl, rfl, fun q hq => upd_ne _ _ hq, id⟩, rfl, upd_same _ _ _⟩

/-- Attribution events have no interval and no label. -/
def PlainAttr (x : RObj) : Prop := ∀ id v, (x.getEvent .attribution id).map (·.2) = some v → v = { typ := .attribution, id := id }

/-- What the loop over the properties has done. -/
structure PropsDone (E : PRead) (H : LHeap) (o : Nat) (l : List (LKey × LVal)) (s t : PS) (x x' : RObj) : Prop where
  on : OnObj E o s t
  obj : t.reg.obj o = some x'
  all : ∀ p ∈ l, (propOf E H p).isSome
  attr : ∀ id, (x'.getEvent .attribution id).map (·.2) =
    if id ∈ (l.filterMap (propOf E H)).map (·.1) then some { typ := .attribution, id := id } else (x.getEvent .attribution id).map (·.2)
  rest : ∀ ty id, ty ≠ .attribution → (x'.getEvent ty id).map (·.2) = (x.getEvent ty id).map (·.2)
  props : ∀ n, mget n (t.props o) = (((l.filterMap (propOf E H)).reverse.find? fun p => p.1 == n).map (·.2)).or (mget n (s.props o))

theorem reads_prop' (E : PRead) (H : LHeap) {k : LKey} {name : String} (hk : k = .str name) (v : LVal) : Reads (ltabProp E H name v) fun p => propOf E H (k, v) = some p := by
  subst hk; exact reads_prop E H name v

theorem props_loop {E : PRead} (hinj : ∀ i j, E.addr i = E.addr j → i = j) (H : LHeap) (o : Nat) : ∀ (l : List (LKey × LVal)) (s : PS) (x : RObj), s.reg.obj o = some x → PlainAttr x →
    PPost (parseLProps E H o l) (fun _ t => ∃ x', PropsDone E H o l s t x x') s
  | [], s, x, hx, _ => PPost.pure' ⟨x, OnObj.refl _ _ _, hx, by simp, by simp, fun _ _ _ => rfl, by simp⟩
  | (k, v) :: l, s, x, hx, hpl => by
    unfold parseLProps
    cases hk : k.text with
    | none => exact PPost.abort
    | some name =>
      dsimp only
      by_cases hnum : k.isNum = true
      · refine PPost.bind (fun p s1 _ => PPost.bind (fun _ s2 _ => PPost.bind (fun _ s3 _ => ?_)))
        rw [if_pos hnum]
        exact PPost.err
      · have hks : k = .str name := by
          cases k with
          | int i => exact absurd rfl hnum
          | num i => exact absurd rfl hnum
          | other => cases hk
          | str n => simp only [LKey.text, Option.some.injEq] at hk; rw [hk]
        rw [if_neg hnum]
        refine Reads.seq (reads_prop' E H hks v) fun p hp => ?_
        refine PPost.bind ((addEvent_post hinj o _ s).mono fun _ s1 h1 => ?_)
        obtain ⟨o1, p1, x0, a, hx0, hx1⟩ := h1
        rw [hx] at hx0; cases hx0
        refine PPost.bind ((setProp_post (E := E) o p.1 p.2 s1).mono fun _ s2 h2 => ?_)
        obtain ⟨o2, r2, p2⟩ := h2
        have hx2 : s2.reg.obj o = some (x.addEvent a { typ := .attribution, id := p.1 }) := by rw [r2]; exact hx1
        have at1 : ∀ id, ((x.addEvent a { typ := .attribution, id := p.1 }).getEvent .attribution id).map (·.2) =
            if id = p.1 then some { typ := .attribution, id := id } else (x.getEvent .attribution id).map (·.2) := by
          intro id
          split
          · next e =>
            subst e
            have h3 := addEvent_self x a { typ := .attribution, id := p.1 }
            dsimp only at h3
            rw [h3]
            cases hg : (x.getEvent .attribution p.1).map (·.2) with
            | none => rfl
            | some w => rw [hpl _ _ hg]; rfl
          · next e => rw [addEvent_get (by rintro ⟨-, h⟩; exact e h.symm)]
        have hpl' : PlainAttr (x.addEvent a { typ := .attribution, id := p.1 }) := by
          intro id w hw
          rw [at1] at hw
          split at hw
          · cases hw; rfl
          · exact hpl _ _ hw
        refine (props_loop hinj H o l s2 _ hx2 hpl').mono fun _ t ht => ?_
        obtain ⟨x', d⟩ := ht
        have hfm : ((k, v) :: l).filterMap (propOf E H) = p :: l.filterMap (propOf E H) := by rw [List.filterMap_cons, hp]
        refine ⟨x', (o1.trans o2).trans d.on, d.obj, ?_, ?_, ?_, ?_⟩
        · intro q hq
          rcases List.mem_cons.1 hq with rfl | hq
          · rw [hp]; rfl
          · exact d.all q hq
        · intro id
          rw [d.attr, at1, hfm]
          simp only [List.map_cons, List.mem_cons]
          by_cases e1 : id ∈ (l.filterMap (propOf E H)).map (·.1)
          · simp [e1]
          · by_cases e2 : id = p.1
            · simp [e2]
            · simp [e1, e2]
        · intro ty id hty
          rw [d.rest ty id hty, addEvent_get (by rintro ⟨h, -⟩; exact hty h.symm)]
        · intro n
          rw [d.props, hfm, List.reverse_cons, List.find?_append, p2]
          cases hf : (l.filterMap (propOf E H)).reverse.find? fun p => p.1 == n with
          | some q => simp
          | none =>
            by_cases e : p.1 = n
            · subst e
              simp [mget_mset_same]
            · rw [mget_mset_ne _ _ _ _ (Ne.symm e), p1]
              simp [e]

/-- What the loop over the areas has done. -/
structure AreasDone (E : PRead) (H : LHeap) (o : Nat) (l : List LVal) (s t : PS) (x x' : RObj) : Prop where
  on : OnObj E o s t
  obj : t.reg.obj o = some x'
  all : ∀ v ∈ l, (areaOf E H v).isSome
  pres : ∀ id, (x'.getEvent .presentation id).map (·.2) = ((x.getEvent .presentation id).map (·.2)).or
    (((l.filterMap (areaOf E H)).find? fun p => p.1 == id).map fun p => { typ := .presentation, id := id, beg := p.2.1, fin := p.2.2 })
  rest : ∀ ty id, ty ≠ .presentation → (x'.getEvent ty id).map (·.2) = (x.getEvent ty id).map (·.2)
  props : t.props o = s.props o

theorem area_post {E : PRead} (hinj : ∀ i j, E.addr i = E.addr j → i = j) (H : LHeap) (o : Nat) (v : LVal) (s : PS) :
    PPost (parseLArea E H o v) (fun _ t => OnObj E o s t ∧ t.props = s.props ∧ ∃ p x a, areaOf E H v = some p ∧ s.reg.obj o = some x ∧
      t.reg.obj o = some (x.addEvent a { typ := .presentation, id := p.1, beg := p.2.1, fin := p.2.2 })) s := by
  unfold parseLArea
  refine Reads.seq (reads_asTable v) fun a ha => Reads.seq (reads_time E _ _) fun b hb => Reads.seq (reads_time E _ _) fun e he => ?_
  subst ha
  cases hn : (H.idx a 1).text with
  | none => exact PPost.abort
  | some name =>
    refine (addEvent_post hinj o _ s).mono fun _ t ht => ?_
    obtain ⟨h1, h2, x, ad, h3, h4⟩ := ht
    exact ⟨h1, h2, (name, b, e), x, ad, by simp [areaOf, hn, hb, he], h3, h4⟩

theorem areas_loop {E : PRead} (hinj : ∀ i j, E.addr i = E.addr j → i = j) (H : LHeap) (o : Nat) : ∀ (l : List (LKey × LVal)) (s : PS) (x : RObj), s.reg.obj o = some x →
    PPost (PM.forEach (fun q => parseLArea E H o q.2) l) (fun _ t => ∃ x', AreasDone E H o (l.map (·.2)) s t x x') s
  | [], s, x, hx => PPost.pure' ⟨x, OnObj.refl _ _ _, hx, by simp, by simp, fun _ _ _ => rfl, rfl⟩
  | q :: l, s, x, hx => by
    refine PPost.bind' ((area_post hinj H o q.2 s).mono fun _ s1 h1 => ?_)
    obtain ⟨o1, p1, p, x0, a, hp, hx0, hx1⟩ := h1
    rw [hx] at hx0; cases hx0
    refine (areas_loop hinj H o l s1 _ hx1).mono fun _ t ht => ?_
    obtain ⟨x', d⟩ := ht
    have hfm : ((q :: l).map (·.2)).filterMap (areaOf E H) = p :: (l.map (·.2)).filterMap (areaOf E H) := by rw [List.map_cons, List.filterMap_cons, hp]
    refine ⟨x', o1.trans d.on, d.obj, ?_, ?_, ?_, d.props.trans (by rw [p1])⟩
    · intro v hv
      rw [List.map_cons] at hv
      rcases List.mem_cons.1 hv with rfl | hv
      · rw [hp]; rfl
      · exact d.all v hv
    · intro id
      rw [d.pres, hfm, List.find?_cons]
      by_cases e : p.1 = id
      · subst e
        have h3 := addEvent_self x a { typ := .presentation, id := p.1, beg := p.2.1, fin := p.2.2 }
        dsimp only at h3
        rw [h3]
        cases hg : (x.getEvent .presentation p.1).map (·.2) with
        | none => simp
        | some w => simp
      · have : (p.1 == id) = false := by simpa using e
        rw [addEvent_get (by rintro ⟨-, h⟩; exact e h), this]
    · intro ty id hty
      rw [d.rest ty id hty, addEvent_get (by rintro ⟨h, -⟩; exact hty h.symm)]

theorem newObj_get (k : RKind) (hk : k ≠ .settings) (id : String) (a1 a2 : Nat) (ty : EType) (i : String) :
    ((newObj k id a1 a2).getEvent ty i).map (·.2) = if ty = .presentation ∧ i = "@lambda" then some { typ := .presentation, id := "@lambda" } else none := by
  unfold newObj
  rw [if_neg hk]
  by_cases h : ty = .presentation ∧ i = "@lambda"
  · rw [if_pos h]
    obtain ⟨rfl, rfl⟩ := h
    have := addEvent_self { kind := k, id := id } a1 { typ := .presentation, id := "@lambda" }
    exact this
  · rw [if_neg h, addEvent_get (by rintro ⟨h1, h2⟩; exact h ⟨h1.symm, h2.symm⟩)]
    rfl

end Ginga
