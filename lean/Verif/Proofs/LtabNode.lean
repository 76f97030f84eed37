import Verif.Proofs.LtabTree
/-!
# The objects of tables
-/
namespace Ginga

section
variable {E : PRead} (hinj : ∀ i j, E.addr i = E.addr j → i = j)

theorem newObj_aliases (k : RKind) (id : String) (a1 a2 : Nat) : (newObj k id a1 a2).aliases = [] := by
  have h : ∀ (x : RObj) a e, (x.addEvent a e).aliases = x.aliases := by
    intro x a e; unfold RObj.addEvent; split <;> rfl
  unfold newObj
  dsimp only
  split <;> simp [h]

/-- A new object that is not in the document. -/
structure Loose (E : PRead) (s t : PS) (o : Nat) (x : RObj) : Prop where
  lw : LW E s → WorldOf E t
  fresh : s.reg.obj o = none
  obj : t.reg.obj o = some x
  out : x.inDoc = false ∧ x.parent = none
  other : ∀ q, q ≠ o → t.reg.obj q = s.reg.obj q
  objects : t.reg.objects = s.reg.objects
  root : t.reg.root = s.reg.root
  settings : t.reg.settings = s.reg.settings
  ports : t.ports = s.ports
  links : t.links = s.links
  rules : t.rules = s.rules
  props : ∀ q, q ≠ o → t.props q = s.props q
  refer : t.refer = s.refer

include hinj in
theorem newObject_loose {s : PS} (w : LW E s) (k : RKind) (id : String) :
    PPost (newObject E k id) (fun o t => t.props = s.props ∧ ∃ a1 a2, Loose E s t o (newObj k id a1 a2)) s := by
  unfold newObject
  refine PPost.bind' (PPost.alloc (PPost.bind' (PPost.alloc (PPost.bind' (PPost.alloc ?_)))))
  refine PPost.bind' (PPost.regOp fun b r h => PPost.pure' ?_)
  have h' : s.reg.exec (.new (E.addr s.nalloc) k id (E.addr (s.nalloc + 1)) (E.addr (s.nalloc + 2))) = .ok (b, r) := h
  obtain ⟨w1, h1⟩ := World.new w.world hinj h'
  have hf := (World.fresh w.world hinj (Nat.le_refl _)).1
  have f := newObj_fields k id (E.addr (s.nalloc + 1)) (E.addr (s.nalloc + 2))
  refine ⟨rfl, E.addr (s.nalloc + 1), E.addr (s.nalloc + 2), ?_⟩
  simp only [Reg.exec] at h'
  rw [hf] at h'
  cases h'
  exact ⟨fun _ => w1, hf, h1, ⟨f.2.2.2.2.1, f.2.2.1⟩, fun q hq => by simp [Reg.setObj, upd, hq], rfl, rfl, rfl, rfl, rfl, rfl, fun _ _ => rfl, rfl⟩

theorem Loose.on {s t u : PS} {o : Nat} {x x' : RObj} (h : Loose E s t o x) (h' : OnObj E o t u) (hx : u.reg.obj o = some x') : Loose E s u o x' where
  lw w := h'.world (h.lw w)
  fresh := h.fresh
  obj := hx
  out := by
    obtain ⟨evs, he⟩ := h'.own x h.obj
    rw [hx] at he; cases he; exact h.out
  other q hq := (h'.other q hq).trans (h.other q hq)
  objects := h'.objects.trans h.objects
  root := h'.root.trans h.root
  settings := h'.settings.trans h.settings
  ports := h'.ports.trans h.ports
  links := h'.links.trans h.links
  rules := h'.rules.trans h.rules
  props q hq := (h'.props q hq).trans (h.props q hq)
  refer := h'.refer.trans h.refer

/-- The object enters the document. -/
structure Entered (E : PRead) (s u : PS) (p o : Nat) (x : RObj) : Prop where
  lw : LW E u
  under : Under p s u
  fresh : s.reg.obj o = none
  has : u.reg.has o { x with parent := some p, inDoc := true }
  objects : ∀ q ∈ u.reg.objects, q ∈ s.reg.objects ∨ q = o
  ports : u.ports o = []
  links : u.links o = []
  rules : u.rules o = []
  parent : ∃ y, u.reg.obj p = some y
  ne : p ≠ o

theorem adopt_entered {s t : PS} {p o : Nat} {x : RObj} (w : LW E s) (h : Loose E s t o x) :
    PPost (regOp (.addChild p o)) (fun _ u => Entered E s u p o x ∧ u.props = t.props) t := by
  refine PPost.regOp fun b r hx => ?_
  have w1 := h.lw w
  have wr : t.refer = [] := h.refer.trans w.refer
  have w2 : World E r t.nalloc t.refer t.syn.unique := World.addChild w1 (by rw [wr]; simp) hx
  have hx' : t.reg.addChild p o = .ok (b, r) := hx
  have hobjs := addChild_objects hx'
  obtain ⟨-, ⟨rfl, z, hz, hm⟩ | ⟨y, x', h1, h2, h3, h4, h5, h6, h7, h8, h9, h10, h11⟩⟩ := addChild_shape w1.inv hx'
  · obtain ⟨z', hz1, hz2, -⟩ := w1.tree.chi _ _ hz _ hm
    rw [h.obj] at hz1; cases hz1
    rw [h.out.2] at hz2; cases hz2
  rw [h.obj] at h2; cases h2
  obtain ⟨hset, hob⟩ := hobjs
  have hob : r.objects = sinsert o t.reg.objects := by
    rcases hob with ⟨-, z, hz, hm⟩ | ⟨-, hob, -⟩
    · rw [h1] at hz; cases hz; exact absurd hm h7
    · exact hob
  have old : ∀ q z, s.reg.obj q = some z → q ≠ o := by rintro q z hz rfl; rw [h.fresh] at hz; cases hz
  have dat : ∀ q z, s.reg.obj q = some z → SameData q s { t with reg := r } := fun q z hz =>
    ⟨h.props q (old q z hz), congrFun h.ports q, congrFun h.links q, congrFun h.rules q⟩
  have b0 := w.blank o h.fresh
  refine ⟨⟨⟨w2, wr, fun q hq => ?_⟩, ⟨fun q z hz hqp => ?_, fun z hz => ?_, dat, fun q hq => ?_, h8.trans h.root, hset.trans h.settings⟩, h.fresh, ⟨?_, h10⟩, fun q hq => ?_, ?_, ?_, ?_, ⟨_, h9⟩, h6⟩, rfl⟩
  · have hqo : q ≠ o := by rintro rfl; dsimp only at hq; rw [h10] at hq; cases hq
    have hqp : q ≠ p := by rintro rfl; dsimp only at hq; rw [h9] at hq; cases hq
    dsimp only at hq
    rw [h11 q hqp hqo, h.other q hqo] at hq
    have := w.blank q hq
    dsimp only
    rw [h.props q hqo, h.ports, h.links, h.rules]; exact this
  · dsimp only
    rw [h11 q hqp (old q z hz), h.other q (old q z hz)]; exact hz
  · rw [← h.other p (old p z hz), h1] at hz
    cases hz
    exact ⟨_, h9⟩
  · dsimp only
    rw [hob, mem_sinsert', h.objects]; exact .inr hq
  · dsimp only
    rw [hob, mem_sinsert']; exact .inl rfl
  · dsimp only at hq
    rw [hob, mem_sinsert', h.objects] at hq
    exact hq.symm
  · dsimp only; rw [h.ports]; exact b0.2.1
  · dsimp only; rw [h.links]; exact b0.2.2.1
  · dsimp only; rw [h.rules]; exact b0.2.2.2

include hinj in
theorem media_post (H : LHeap) (p : Nat) (v : LVal) {s : PS} (w : LW E s) :
    PPost (parseLMedia E H p v) (fun _ t => LW E t ∧ Under p s t ∧ ∃ b f, v = .tab b ∧ Forest E H s t p [b] f) s := by
  unfold parseLMedia
  refine Reads.seq (reads_head H "media" v) fun h hh => ?_
  obtain ⟨a, id⟩ := h
  obtain ⟨rfl, htag, hid⟩ := hh
  dsimp only at htag hid ⊢
  have hkind : H.kind a = some .media := by
    unfold LHeap.kind; rw [htag]; rfl
  refine PPost.bind ((newObject_loose hinj w .media id).mono fun o s1 h1 => ?_)
  obtain ⟨hp1, a1, a2, h1⟩ := h1
  have plain : PlainAttr (newObj .media id a1 a2) := by
    intro i v hv
    rw [newObj_get _ (by decide)] at hv
    rw [if_neg (by simp)] at hv; cases hv
  refine Reads.seq (reads_entries H _) fun l hl => ?_
  refine PPost.bind ((props_loop hinj H o l s1 _ h1.obj plain).mono fun _ s2 h2 => ?_)
  obtain ⟨x2, h2⟩ := h2
  refine Reads.seq (reads_entries H _) fun m hm => ?_
  refine PPost.bind ((areas_loop hinj H o m s2 _ h2.obj).mono fun _ s3 h3 => ?_)
  obtain ⟨x3, h3⟩ := h3
  have l3 := (h1.on h2.on h2.obj).on h3.on h3.obj
  refine (adopt_entered w l3).mono fun _ t ht => ?_
  obtain ⟨ht, hpr⟩ := ht
  have x3f : x3.kind = .media ∧ x3.id = id ∧ x3.aliases = [] := by
    obtain ⟨e, he⟩ := h2.on.own _ h1.obj
    rw [h2.obj] at he; cases he
    obtain ⟨e, he⟩ := h3.on.own _ h2.obj
    rw [h3.obj] at he; cases he
    have f := newObj_fields .media id a1 a2
    exact ⟨f.2.1, f.1, newObj_aliases .media id a1 a2⟩
  have hkids : H.kids a = [] := by unfold LHeap.kids LHeap.kidVals; rw [hkind]; rfl
  refine ⟨ht.lw, ht.under, a, ?_⟩
  have node : NodeAs E H t o p a := by
    refine ⟨⟨_, ht.has, by rw [hkind, ← x3f.1], by rw [hid, ← x3f.2.1], rfl, x3f.2.2⟩, ?_, by rw [hkids]; unfold LHeap.kidVals; rw [hkind]; rfl⟩
    unfold ObjectAs
    rw [hkind]
    dsimp only
    refine ⟨⟨_, ht.has.2, fun ty i => ?_⟩, fun n => ?_, ?_, ?_⟩
    · show (x3.getEvent ty i).map (·.2) = _
      have hl' : l.filterMap (propOf E H) = propsOf E H a := by unfold propsOf; rw [← hl.1]
      have hm' : (m.map (·.2)).filterMap (areaOf E H) = areasOf E H a := by unfold areasOf; rw [← hm.2]
      cases ty with
      | presentation =>
        rw [h3.pres, h2.rest _ _ (by decide), newObj_get _ (by decide), hm']
        unfold expected
        by_cases e : i = "@lambda"
        · subst e; simp
        · simp [e]
      | attribution =>
        rw [h3.rest _ _ (by decide), h2.attr, newObj_get _ (by decide), hl']
        unfold expected
        simp
      | selection => rw [h3.rest _ _ (by decide), h2.rest _ _ (by decide), newObj_get _ (by decide)]; simp [expected]
      | lookat => rw [h3.rest _ _ (by decide), h2.rest _ _ (by decide), newObj_get _ (by decide)]; simp [expected]
    · rw [hpr, h3.props, h2.props, hp1, (w.blank o h1.fresh).1]
      unfold propsOf
      rw [← hl.1]
      simp [mget]
    · intro q hq; rw [← hl.1] at hq; exact h2.all q hq
    · intro q hq; rw [← hm.2] at hq; exact h3.all q hq
  obtain ⟨f, hf⟩ := Forest.wrap (p := p) (b := a) (s := s) (s1 := t) (t := t) (g := fun _ => o) (by rw [hkids]; exact Forest.nil E H t o) node ht.under ht.fresh ⟨_, ht.has.2⟩ ht.objects
  exact ⟨f, rfl, hf⟩

/-- The children of a composition. -/
theorem kids_loop {H : LHeap} {rec : RKind → Nat → LVal → PM Unit} {o : Nat}
    (hrec : ∀ k v (s : PS), LW E s → PPost (rec k o v) (fun _ t => LW E t ∧ Under o s t ∧ ∃ b f, v = .tab b ∧ Forest E H s t o [b] f) s) {s0 : PS} (w0 : LW E s0)
    {y : RObj} (hy : s0.reg.obj o = some y) : ∀ (l : List (LKey × LVal)) (s : PS) (bs : List Nat) (f : List Nat → Nat), LW E s → Under o s0 s → Forest E H s0 s o bs f →
    PPost (PM.forEach (fun q => parseLChild H rec o q.2) l) (fun _ t => LW E t ∧ Under o s0 t ∧ ∃ cs g, l.map (·.2) = cs.map LVal.tab ∧ Forest E H s0 t o (bs ++ cs) g) s
  | [], s, bs, f, w, hu, hf => PPost.pure' ⟨w, hu, [], f, rfl, by simpa using hf⟩
  | q :: l, s, bs, f, w, hu, hf => by
    refine PPost.bind' (PPost.mono (P := fun _ t => LW E t ∧ Under o s t ∧ ∃ b f, q.2 = .tab b ∧ Forest E H s t o [b] f) ?_ fun _ t ht => ?_)
    · unfold parseLChild
      refine Reads.seq (reads_asTable _) fun a ha => Reads.seq (reads_checkStr _) fun tag _ => ?_
      split
      · exact PPost.abort
      · exact hrec _ _ _ w
    · obtain ⟨wt, ut, b, g, hb, hg⟩ := ht
      obtain ⟨h, hh⟩ := hf.snoc hg hu ut w0.world w.world hy
      refine (kids_loop hrec w0 hy l t (bs ++ [b]) h wt (hu.trans ut) hh).mono fun _ u hu' => ?_
      obtain ⟨wu, uu, cs, g', h1, h2⟩ := hu'
      exact ⟨wu, uu, b :: cs, g', by simp [hb, h1], by simpa using h2⟩

theorem kids_of_vals {H : LHeap} {a : Nat} {cs : List Nat} (h : H.kidVals a = cs.map LVal.tab) : H.kids a = cs := by
  unfold LHeap.kids
  rw [h]
  induction cs with
  | nil => rfl
  | cons c cs ih => simp; clear ih h; induction cs with | nil => rfl | cons c cs ih => simp [ih]

/-- Ports, links and rules of the composition itself. -/
theorem Forest.data {H : LHeap} {s t u : PS} {o : Nat} {bs : List Nat} {f : List Nat → Nat} (hf : Forest E H s t o bs f) (hr : u.reg = t.reg)
    (hd : ∀ q, q ≠ o → SameData q t u) {y : RObj} (hy : s.reg.obj o = some y) : Forest E H s u o bs f where
  top := hf.top
  node π a h := by
    have n := hf.node π a h
    have ne : f π ≠ o := by
      intro e
      have := hf.fresh π a h
      rw [e, hy] at this; cases this
    obtain ⟨x, hx⟩ := n.obj
    exact ⟨⟨x, by rw [hr]; exact hx⟩, n.as.same (SameAt.of_reg hr) (hd _ ne), n.kids⟩
  fresh := hf.fresh
  inj := hf.inj
  all := by rw [hr]; exact hf.all

theorem LW.data {t u : PS} (w : LW E t) {o : Nat} {x : RObj} (hx : t.reg.obj o = some x) (hr : u.reg = t.reg) (hd : ∀ q, q ≠ o → SameData q t u)
    (hn : u.nalloc = t.nalloc) (he : u.refer = t.refer) (hs : u.syn = t.syn) : LW E u where
  world := by unfold WorldOf; rw [hr, hn, he, hs]; exact w.world
  refer := he.trans w.refer
  blank q hq := by
    rw [hr] at hq
    have hqo : q ≠ o := by rintro rfl; rw [hx] at hq; cases hq
    obtain ⟨d1, d2, d3, d4⟩ := hd q hqo
    rw [d1, d2, d3, d4]; exact w.blank q hq

theorem Under.dataNew {s t u : PS} {p o : Nat} (h : Under p s t) (ho : s.reg.obj o = none) (hr : u.reg = t.reg) (hd : ∀ q, q ≠ o → SameData q t u) : Under p s u where
  keep := by rw [hr]; exact h.keep
  own := by rw [hr]; exact h.own
  data q x hx := (h.data q x hx).trans (hd q (by rintro rfl; rw [ho] at hx; cases hx))
  objects := by rw [hr]; exact h.objects
  root := by rw [hr]; exact h.root
  settings := by rw [hr]; exact h.settings

/-- What the body of a context does. -/
theorem body_post {H : LHeap} (d : Nat) {rec : RKind → Nat → LVal → PM Unit} {o a : Nat} (hkind : H.kind a = some .context)
    (hrec : ∀ k v (s : PS), LW E s → PPost (rec k o v) (fun _ t => LW E t ∧ Under o s t ∧ ∃ b f, v = .tab b ∧ Forest E H s t o [b] f) s) {s : PS} (w : LW E s)
    {y : RObj} (hy : s.reg.obj o = some y) (hev : ∀ ty id, (y.getEvent ty id).map (·.2) =
      if ty = .presentation ∧ id = "@lambda" then some { typ := .presentation, id := "@lambda" } else none) (h0 : s.ports o = [] ∧ s.links o = []) :
    PPost (parseLBody H d rec o a) (fun _ u => LW E u ∧ (∃ t, Under o s t ∧ u.reg = t.reg ∧ ∀ q, q ≠ o → SameData q t u) ∧ ContextAs H u o a ∧ H.kidVals a = (H.kids a).map LVal.tab ∧ ∃ g, Forest E H s u o (H.kids a) g) s := by
  unfold parseLBody
  refine Reads.seq (reads_entries H _) fun l hl => ?_
  refine PPost.bind ((kids_loop hrec w hy l s [] _ w (Under.refl o s) (Forest.nil E H s o)).mono fun _ t ht => ?_)
  obtain ⟨wt, ut, cs, g, hcs, hg⟩ := ht
  have hvals : H.kidVals a = cs.map LVal.tab := by unfold LHeap.kidVals; rw [hkind]; dsimp only; rw [← hl.2]; exact hcs
  have hkids : H.kids a = cs := kids_of_vals hvals
  simp only [List.nil_append] at hg
  obtain ⟨d1, d2, d3, d4⟩ := ut.data o y hy
  obtain ⟨zs, hz⟩ := ut.own y hy
  refine Reads.seq (reads_entries H _) fun lp hlp => ?_
  refine PPost.bind ((ports_loop d o lp [] [] t .nil (by rw [d2, h0.1]; rfl)).mono fun _ t2 h2 => ?_)
  obtain ⟨P, es, rfl, hP, hes⟩ := h2
  refine Reads.seq (reads_entries H _) fun ll hll => ?_
  refine (links_loop H d o ll [] _ (by show Each _ [] (t.links o); rw [d3, h0.2]; exact .nil)).mono fun _ u hu => ?_
  obtain ⟨L, rfl, hL⟩ := hu
  have hd : ∀ q, q ≠ o → SameData q t { t with ports := upd t.ports o P, links := upd t.links o L } := fun q hq =>
    ⟨rfl, upd_ne _ _ hq, upd_ne _ _ hq, rfl⟩
  refine ⟨wt.data hz rfl hd rfl rfl rfl, ⟨t, ut, rfl, hd⟩, ⟨⟨_, hz, hev⟩, ⟨es, ?_, ?_⟩, ?_⟩, by rw [hkids]; exact hvals, g, ?_⟩
  · rw [← hlp.2]
    exact each_mono (R := PortAs t o) (by simpa using hes) fun _ _ => PortAs.same (SameAt.of_reg rfl)
  · show upd t.ports o P o = _
    rw [upd_same]; exact hP
  · rw [← hll.2]
    show Each _ _ (upd t.links o L o)
    rw [upd_same]
    exact each_mono (R := LinkAs H { t with ports := upd t.ports o P } o) (by simpa using hL) fun _ _ => LinkAs.same (SameAt.of_reg rfl)
  · rw [hkids]
    exact hg.data rfl hd hy

include hinj in
/-- A table becomes an object, and so do the tables inside it. -/
theorem node_post (H : LHeap) : ∀ (d : Nat) (k : RKind) (p : Nat) (v : LVal) (s : PS), LW E s →
    PPost (parseLNode E H d k p v) (fun _ t => LW E t ∧ Under p s t ∧ ∃ b f, v = .tab b ∧ Forest E H s t p [b] f) s
  | 0, _, _, _, s, _ => PPost.err
  | d + 1, k, p, v, s, w => by
    have ih := fun o k v s => node_post H d k o v s
    unfold parseLNode
    cases k with
    | media => exact media_post hinj H p v w
    | settings => exact media_post hinj H p v w
    | context =>
      dsimp only
      refine Reads.seq (reads_head H "context" v) fun h hh => ?_
      obtain ⟨a, id⟩ := h
      obtain ⟨rfl, htag, hid⟩ := hh
      dsimp only at htag hid ⊢
      have hkind : H.kind a = some .context := by unfold LHeap.kind; rw [htag]; rfl
      refine PPost.bind ((newObject_loose hinj w .context id).mono fun o s1 h1 => ?_)
      obtain ⟨hp1, a1, a2, h1⟩ := h1
      refine PPost.bind ((adopt_entered w h1).mono fun _ s2 h2 => ?_)
      obtain ⟨h2, -⟩ := h2
      refine (body_post d hkind (ih o) h2.lw h2.has.2 (newObj_get .context (by decide) id a1 a2) ⟨h2.ports, h2.links⟩).mono fun _ u hu => ?_
      obtain ⟨wu, ⟨t, ut, hr, hd⟩, hc, hvals, g, hg⟩ := hu
      have up : Under p s u := (h2.under.trans_new h2.fresh ut).dataNew h2.fresh hr hd
      refine ⟨wu, up, a, ?_⟩
      have f := newObj_fields .context id a1 a2
      obtain ⟨cs, hcs⟩ := ut.own _ h2.has.2
      have node : NodeAs E H u o p a := by
        refine ⟨⟨_, ⟨by rw [hr]; exact ut.objects _ h2.has.1, by rw [hr]; exact hcs⟩, by rw [hkind]; exact congrArg some f.2.1.symm, by rw [hid]; exact congrArg _ f.1.symm, by rfl, by exact newObj_aliases .context id a1 a2⟩, ?_, hvals⟩
        unfold ObjectAs
        rw [hkind]; exact hc
      obtain ⟨f, hf⟩ := hg.wrap node h2.under h2.fresh ⟨_, h2.has.2⟩ h2.objects
      exact ⟨f, rfl, hf⟩
    | switch =>
      dsimp only
      refine Reads.seq (reads_head H "switch" v) fun h hh => ?_
      obtain ⟨a, id⟩ := h
      obtain ⟨rfl, htag, hid⟩ := hh
      dsimp only at htag hid ⊢
      have hkind : H.kind a = some .switch := by unfold LHeap.kind; rw [htag]; rfl
      refine PPost.bind ((newObject_loose hinj w .switch id).mono fun o s1 h1 => ?_)
      obtain ⟨hp1, a1, a2, h1⟩ := h1
      refine PPost.bind ((adopt_entered w h1).mono fun _ s2 h2 => ?_)
      obtain ⟨h2, -⟩ := h2
      refine Reads.seq (reads_entries H _) fun l hl => ?_
      refine PPost.bind ((kids_loop (ih o) h2.lw h2.has.2 l s2 [] _ h2.lw (Under.refl o s2) (Forest.nil E H s2 o)).mono fun _ t ht => ?_)
      obtain ⟨wt, ut, cs, g, hcs, hg⟩ := ht
      have hvals : H.kidVals a = cs.map LVal.tab := by unfold LHeap.kidVals; rw [hkind]; dsimp only; rw [← hl.2]; exact hcs
      have hkids : H.kids a = cs := kids_of_vals hvals
      rw [← hkids] at hvals
      simp only [List.nil_append] at hg
      obtain ⟨d1, d2, d3, d4⟩ := ut.data o _ h2.has.2
      obtain ⟨zs, hz⟩ := ut.own _ h2.has.2
      refine Reads.seq (reads_entries H _) fun lr hlr => ?_
      refine (rules_loop H d o lr [] t (by rw [d4, h2.rules]; exact .nil)).mono fun _ u hu => ?_
      obtain ⟨L, rfl, hL⟩ := hu
      have hd : ∀ q, q ≠ o → SameData q t { t with rules := upd t.rules o L } := fun q hq => ⟨rfl, rfl, rfl, upd_ne _ _ hq⟩
      refine ⟨wt.data hz rfl hd rfl rfl rfl, (h2.under.trans_new h2.fresh ut).dataNew h2.fresh rfl hd, a, ?_⟩
      have f := newObj_fields .switch id a1 a2
      have node : NodeAs E H { t with rules := upd t.rules o L } o p a := by
        refine ⟨⟨_, ⟨ut.objects _ h2.has.1, hz⟩, by rw [hkind]; exact congrArg some f.2.1.symm, by rw [hid]; exact congrArg _ f.1.symm, by rfl, by exact newObj_aliases .switch id a1 a2⟩, ?_, hvals⟩
        unfold ObjectAs
        rw [hkind]
        dsimp only
        refine ⟨⟨_, hz, newObj_get .switch (by decide) id a1 a2⟩, ?_⟩
        rw [← hlr.2]
        show Each _ _ (upd t.rules o L o)
        rw [upd_same]
        exact each_mono (R := RuleAs H t o) (by simpa using hL) fun _ _ => RuleAs.same (SameAt.of_reg rfl)
      have hg' := hg.data (u := { t with rules := upd t.rules o L }) rfl hd h2.has.2
      rw [← hkids] at hg'
      obtain ⟨f, hf⟩ := hg'.wrap node h2.under h2.fresh ⟨_, h2.has.2⟩ h2.objects
      exact ⟨f, rfl, hf⟩

end

end Ginga
