import Verif.Proofs.LtabOk2
/-!
# Well-formed documents are accepted
-/
namespace Ginga

theorem PGood.forEach {α : Type} {f : α → PM Unit} {I : PS → Prop} : ∀ {l : List α} {s : PS}, I s →
    (∀ a ∈ l, ∀ s, I s → PGood (f a) (fun _ t => I t) s) → PGood (PM.forEach f l) (fun _ t => I t) s
  | [], _, h, _ => PGood.pure' h
  | a :: l, s, h, hf =>
    PGood.bind' ((hf a (by simp) s h).mono fun _ t ht => PGood.forEach ht fun b hb => hf b (by simp [hb]))

/-- The ids of the tables inside those of a list are not in use. -/
def FreeIn (H : LHeap) (s : PS) (bs : List Nat) : Prop := ∀ π a, forestAt H bs π = some a → ∀ id, H.id a = some id → FreeId s id

/-- Different places, different ids. -/
def IdsIn (H : LHeap) (bs : List Nat) : Prop := ∀ π π' a a', forestAt H bs π = some a → forestAt H bs π' = some a' → H.id a = H.id a' → π = π'

theorem forestAt_mid {H : LHeap} {bs cs : List Nat} {c : Nat} {π : List Nat} : forestAt H (bs ++ c :: cs) (bs.length :: π) = H.at c π := by
  simp [forestAt]

theorem forestAt_one {H : LHeap} {c : Nat} {π : List Nat} {a : Nat} (h : forestAt H [c] π = some a) : ∃ τ, π = 0 :: τ ∧ H.at c τ = some a := by
  cases π with
  | nil => cases h
  | cons i τ =>
    by_cases hi : i = 0
    · subst hi; exact ⟨τ, rfl, h⟩
    · simp [forestAt, hi] at h

theorem forestAt_lt {H : LHeap} {bs : List Nat} {π : List Nat} {a : Nat} (h : forestAt H bs π = some a) : ∃ i τ, π = i :: τ ∧ i < bs.length := by
  cases π with
  | nil => cases h
  | cons i τ =>
    refine ⟨i, τ, rfl, ?_⟩
    by_cases hi : i < bs.length
    · exact hi
    · simp [forestAt, List.getElem?_eq_none (Nat.le_of_not_lt hi)] at h

section
variable {E : PRead} {H : LHeap}

/-- The ids of the next table are still free. -/
theorem FreeIn.next {s t : PS} {o : Nat} {bs cs : List Nat} {c : Nat} {f : List Nat → Nat} (w : LW E s) (hf : Forest E H s t o bs f) (hu : Under o s t)
    (hfr : FreeIn H s (bs ++ c :: cs)) (hid : IdsIn H (bs ++ c :: cs)) : FreeIn H t [c] := by
  intro π a h id hia q hq x hx
  obtain ⟨τ, rfl, h⟩ := forestAt_one h
  have hm : forestAt H (bs ++ c :: cs) (bs.length :: τ) = some a := by rw [forestAt_mid]; exact h
  rcases hf.all q hq with hq | ⟨π', a', h', rfl⟩
  · obtain ⟨x0, hx0, -⟩ := w.world.inv.objs q hq
    obtain ⟨ks, hk⟩ := hu.some hx0
    rw [hx] at hk; cases hk
    exact hfr _ _ hm id hia q hq x0 hx0
  · obtain ⟨x', hx', -, h2, -, h4⟩ := (hf.node _ _ h').obj
    have e : x = x' := by have := hx'.2; rw [hx] at this; cases this; rfl
    subst e
    refine ⟨fun e => ?_, by rw [h4]; simp⟩
    obtain ⟨i, σ, rfl, hi⟩ := forestAt_lt h'
    have h'' : forestAt H (bs ++ c :: cs) (i :: σ) = some a' := by rw [forestAt_append_left hi]; exact h'
    have := hid _ _ _ _ h'' hm (by rw [h2, hia, e])
    simp only [List.cons.injEq] at this
    omega

theorem IdsIn.next {bs cs : List Nat} {c : Nat} (hid : IdsIn H (bs ++ c :: cs)) : IdsIn H [c] := by
  intro π π' a a' h h' e
  obtain ⟨τ, rfl, h⟩ := forestAt_one h
  obtain ⟨τ', rfl, h'⟩ := forestAt_one h'
  have := hid (bs.length :: τ) (bs.length :: τ') a a' (by rw [forestAt_mid]; exact h) (by rw [forestAt_mid]; exact h') e
  simp only [List.cons.injEq, true_and] at this
  rw [this]

theorem Open.under {s t : PS} {o : Nat} (h : Open s o) (hu : Under o s t) : Open t o := by
  obtain ⟨y, hy, h1, h2⟩ := h
  obtain ⟨cs, hc⟩ := hu.own y hy
  exact ⟨_, hc, h1, h2⟩

theorem kids_good {rec : RKind → Nat → LVal → PM Unit} {o : Nat}
    (hrec : ∀ k v (s : PS), LW E s → PPost (rec k o v) (fun _ t => LW E t ∧ Under o s t ∧ ∃ b f, v = .tab b ∧ Forest E H s t o [b] f) s)
    {P : Nat → Prop} (hP : ∀ b, P b → ∃ k, H.kind b = some k)
    (hgood : ∀ b k (s : PS), P b → H.kind b = some k → LW E s → Open s o → FreeIn H s [b] → IdsIn H [b] → PGood (rec k o (.tab b)) (fun _ _ => True) s)
    {s0 : PS} (w0 : LW E s0) (ho : Open s0 o) : ∀ (l : List (LKey × LVal)) (cs : List Nat) (s : PS) (bs : List Nat) (f : List Nat → Nat),
    l.map (·.2) = cs.map LVal.tab → (∀ c ∈ cs, P c) → LW E s → Under o s0 s → Forest E H s0 s o bs f → FreeIn H s0 (bs ++ cs) → IdsIn H (bs ++ cs) →
    PGood (PM.forEach (fun q => parseLChild H rec o q.2) l) (fun _ _ => True) s
  | [], cs, s, bs, f, _, _, _, _, _, _, _ => PGood.pure' trivial
  | q :: l, [], s, bs, f, h, _, _, _, _, _, _ => by simp at h
  | q :: l, c :: cs, s, bs, f, h, hp, w, hu, hf, hfr, hid => by
    simp only [List.map_cons, List.cons.injEq] at h
    obtain ⟨hk1, hk2⟩ := h
    have hpc := hp c (by simp)
    obtain ⟨k, hk⟩ := hP c hpc
    obtain ⟨tag, ht1, ht2, -⟩ := kind_text hk
    have g1 : PGood (parseLChild H rec o q.2) (fun _ _ => True) s := by
      unfold parseLChild
      refine Gives.seq (gives_asTable hk1) fun _ e => ?_
      subst e
      refine Gives.seq (gives_checkStr ht1) fun _ e => ?_
      subst e
      rw [ht2, hk1]
      exact hgood _ _ _ hpc hk w (ho.under hu) (hfr.next w0 hf hu hid) hid.next
    have g2 : PPost (parseLChild H rec o q.2) (fun _ t => LW E t ∧ Under o s t ∧ ∃ b f, q.2 = .tab b ∧ Forest E H s t o [b] f) s := by
      unfold parseLChild
      refine Reads.seq (reads_asTable _) fun a ha => Reads.seq (reads_checkStr _) fun tag _ => ?_
      split
      · exact PPost.abort
      · exact hrec _ _ _ w
    refine PGood.bind' ((g1.post g2).mono fun _ t ht => ?_)
    obtain ⟨-, wt, ut, b, g, hb, hg⟩ := ht
    rw [hk1] at hb; cases hb
    obtain ⟨y, hy, -⟩ := id ho
    obtain ⟨h, hh⟩ := hf.snoc hg hu ut w0.world w.world hy
    exact kids_good hrec hP hgood w0 ho l cs t (bs ++ [c]) h hk2 (fun c hc => hp c (by simp [hc])) wt (hu.trans ut) hh (by simpa using hfr) (by simpa using hid)

theorem Forest.kidsAt {s t : PS} {o a : Nat} {g : List Nat → Nat} (hg : Forest E H s t o (H.kids a) g) (w : WorldOf E t) {y : RObj} (ho : s.reg.obj o = some y)
    {x : RObj} (hx : t.reg.obj o = some x) (hr : s.reg.root = t.reg.root) (hroot : ∃ z, s.reg.obj s.reg.root = some z) : KidsAt E H t o a := by
  have key : ∀ b ∈ H.kids a, ∃ c x y, t.reg.obj o = some x ∧ c ∈ x.children ∧ c ≠ o ∧ t.reg.obj c = some y ∧ H.id b = some y.id ∧ H.kind b = some y.kind ∧ ObjectAs E H t c b := by
    intro b hb
    obtain ⟨i, hi⟩ := List.getElem?_of_mem hb
    have hat : forestAt H (H.kids a) [i] = some b := by simp [forestAt, hi, LHeap.at]
    have n := hg.node _ _ hat
    obtain ⟨z, hz, h1, h2, h3, -⟩ := n.obj
    have hd : z.inDoc = true := by
      cases hzi : z.inDoc with
      | true => rfl
      | false => have := (w.tree.out _ _ hz.2 hzi).1; rw [h3] at this; cases this
    have hfresh := hg.fresh _ _ hat
    have nr : g [i] ≠ t.reg.root := by
      intro e
      obtain ⟨z', hz'⟩ := hroot
      rw [e, ← hr, hz'] at hfresh; cases hfresh
    obtain ⟨p, x, h5, h6, h7⟩ := w.tree.par _ _ hz.2 hd nr
    rw [h3] at h5
    have : p = o := by have := Option.some.inj h5; rw [← this]; exact hg.top
    subst this
    exact ⟨g [i], x, z, h6, h7, (by intro e; rw [e, ho] at hfresh; cases hfresh), hz.2, h2, h1, n.as⟩
  refine ⟨x, hx, fun b hb => ?_⟩
  obtain ⟨c, x', z, h1, h2, h3, h4, h5⟩ := key b hb
  rw [hx] at h1; cases h1
  exact ⟨c, h2, h3, z, h4, h5⟩

/-- Ports, links and rules can be read. -/
def KidsReady (E : PRead) (H : LHeap) (o a : Nat) (s : PS) : Prop := WorldOf E s ∧ KidsAt E H s o a

theorem ports_good (h0 : ∀ i, E.addr i ≠ 0) {o a n : Nat} {l : List (LKey × LVal)} {s : PS} (hs : KidsReady E H o a s) (h : ∀ q ∈ l, 0 < n ∧ PortFine E H a q.2) :
    PGood (PM.forEach (fun q => called n fun _ => parseLPort o q.2) l) (fun _ t => KidsReady E H o a t) s := by
  refine PGood.forEach hs fun q hq s hs => ?_
  obtain ⟨hn, hp⟩ := h q hq
  obtain ⟨m, rfl⟩ : ∃ m, n = m + 1 := ⟨n - 1, by omega⟩
  refine ((port_good h0 hs.1 hs.2 hp).post (port_post o q.2 s)).mono fun _ t ht => ?_
  obtain ⟨-, e, -, rfl⟩ := ht
  exact ⟨hs.1, hs.2.of_reg rfl fun q hq => ⟨rfl, upd_ne _ _ hq, rfl, rfl⟩⟩

theorem links_good {o a n : Nat} {l : List (LKey × LVal)} {s : PS} (hs : KidsReady E H o a s) (h : ∀ q ∈ l, ∃ m, n = m + 1 ∧ LinkFine H m a q.2) :
    PGood (PM.forEach (fun q => called n fun d => parseLLink H d o q.2) l) (fun _ t => KidsReady E H o a t) s := by
  refine PGood.forEach hs fun q hq s hs => ?_
  obtain ⟨m, rfl, hp⟩ := h q hq
  refine ((link_good hs.1 hs.2 hp).post (link_post H m o q.2 s)).mono fun _ t ht => ?_
  obtain ⟨-, e, -, rfl⟩ := ht
  exact ⟨hs.1, hs.2.of_reg rfl fun q hq => ⟨rfl, rfl, upd_ne _ _ hq, rfl⟩⟩

theorem rules_good {o a n : Nat} {l : List (LKey × LVal)} {s : PS} (hs : KidsReady E H o a s) (h : ∀ q ∈ l, RuleFine H n a q.2) :
    PGood (PM.forEach (fun q => parseLRule H n o q.2) l) (fun _ t => KidsReady E H o a t) s := by
  refine PGood.forEach hs fun q hq s hs => ?_
  refine ((rule_good hs.2 (h q hq)).post (rule_post H n o q.2 s)).mono fun _ t ht => ?_
  obtain ⟨-, e, -, rfl⟩ := ht
  exact ⟨hs.1, hs.2.of_reg rfl fun q hq => ⟨rfl, rfl, rfl, upd_ne _ _ hq⟩⟩

theorem TableFine.kind {n b : Nat} (h : TableFine E H n b) : ∃ k, H.kind b = some k := by
  cases n with
  | zero => exact h.elim
  | succ n =>
    have h := h.2
    cases hk : H.kind b with
    | none => rw [hk] at h; exact h.elim
    | some k => exact ⟨k, rfl⟩

theorem mem_pairs {l : List (LKey × LVal)} {P : LVal → Prop} {v : LVal} (h1 : l.map (·.2) = H.items v) (h : ∀ u ∈ H.items v, P u) : ∀ q ∈ l, P q.2 :=
  fun q hq => h _ (by rw [← h1]; exact List.mem_map.2 ⟨q, hq, rfl⟩)

/-- The state after the children. -/
theorem kids_ready {rec : RKind → Nat → LVal → PM Unit} {o a : Nat}
    (hrec : ∀ k v (s : PS), LW E s → PPost (rec k o v) (fun _ t => LW E t ∧ Under o s t ∧ ∃ b f, v = .tab b ∧ Forest E H s t o [b] f) s)
    {P : Nat → Prop} (hP : ∀ b, P b → ∃ k, H.kind b = some k)
    (hgood : ∀ b k (s : PS), P b → H.kind b = some k → LW E s → Open s o → FreeIn H s [b] → IdsIn H [b] → PGood (rec k o (.tab b)) (fun _ _ => True) s)
    {s : PS} (w : LW E s) (ho : Open s o) {l : List (LKey × LVal)} (hl : l.map (·.2) = (H.kids a).map LVal.tab) (hp : ∀ c ∈ H.kids a, P c)
    (hfr : FreeIn H s (H.kids a)) (hid : IdsIn H (H.kids a)) :
    PGood (PM.forEach (fun q => parseLChild H rec o q.2) l) (fun _ t => KidsReady E H o a t) s := by
  obtain ⟨y, hy, -⟩ := id ho
  refine ((kids_good hrec hP hgood w ho l (H.kids a) s [] (fun _ => o) hl hp w (Under.refl _ _) (Forest.nil E H s o) (by simpa using hfr) (by simpa using hid)).post
    (kids_loop hrec w hy l s [] _ w (Under.refl o s) (Forest.nil E H s o))).mono fun _ t ht => ?_
  obtain ⟨-, wt, ut, cs, g, h1, hg⟩ := ht
  simp only [List.nil_append] at hg
  have hcs : cs = H.kids a := by
    rw [hl] at h1
    have inj : ∀ {l m : List Nat}, l.map LVal.tab = m.map LVal.tab → l = m := by
      intro l
      induction l with
      | nil => intro m h; cases m with | nil => rfl | cons b m => simp at h
      | cons b l ih =>
        intro m h
        cases m with
        | nil => simp at h
        | cons c m =>
          simp only [List.map_cons, List.cons.injEq, LVal.tab.injEq] at h
          rw [h.1, ih h.2]
    exact (inj h1).symm
  rw [hcs] at hg
  obtain ⟨zs, hz⟩ := ut.own y hy
  obtain ⟨r, hr, -⟩ := w.world.tree.root
  exact ⟨wt.world, hg.kidsAt wt.world hy hz ut.root.symm ⟨r, hr⟩⟩

theorem body_good (h0 : ∀ i, E.addr i ≠ 0) {n : Nat} {rec : RKind → Nat → LVal → PM Unit} {o a : Nat}
    (hrec : ∀ k v (s : PS), LW E s → PPost (rec k o v) (fun _ t => LW E t ∧ Under o s t ∧ ∃ b f, v = .tab b ∧ Forest E H s t o [b] f) s)
    {P : Nat → Prop} (hP : ∀ b, P b → ∃ k, H.kind b = some k)
    (hgood : ∀ b k (s : PS), P b → H.kind b = some k → LW E s → Open s o → FreeIn H s [b] → IdsIn H [b] → PGood (rec k o (.tab b)) (fun _ _ => True) s)
    {s : PS} (w : LW E s) (ho : Open s o) (hk : H.kind a = some .context) (hc : ContextFine E H n a) (hp : ∀ c ∈ H.kids a, P c)
    (hfr : FreeIn H s (H.kids a)) (hid : IdsIn H (H.kids a)) : PGood (parseLBody H n rec o a) (fun _ _ => True) s := by
  unfold parseLBody
  refine Gives.seq (gives_entries H hc.lists.2.1) fun l hl => ?_
  have hl' : l.map (·.2) = (H.kids a).map LVal.tab := by
    rw [← hc.kids, hl.2]; unfold LHeap.kidVals; rw [hk]
  refine PGood.bind ((kids_ready hrec hP hgood w ho hl' hp hfr hid).mono fun _ t ht => ?_)
  refine Gives.seq (gives_entries H hc.lists.1) fun lp hlp => ?_
  refine PGood.bind ((ports_good h0 ht (mem_pairs (P := fun v => 0 < n ∧ PortFine E H a v) hlp.2 hc.ports)).mono fun _ t ht => ?_)
  refine Gives.seq (gives_entries H hc.lists.2.2) fun ll hll => ?_
  exact (links_good ht (mem_pairs (P := fun v => ∃ m, n = m + 1 ∧ LinkFine H m a v) hll.2 hc.links)).mono fun _ _ _ => trivial

variable (hinj : ∀ i j, E.addr i = E.addr j → i = j)

theorem FreeIn.id {s : PS} {b : Nat} {id : String} (h : FreeIn H s [b]) (hid : H.id b = some id) : FreeId s id := h [0] b rfl id hid

include hinj in
theorem media_good {s : PS} (w : LW E s) {p b : Nat} (hk : H.kind b = some .media) (hi : (H.id b).isSome) (hm : MediaFine E H b) (ho : Open s p) (hfr : FreeIn H s [b]) :
    PGood (parseLMedia E H p (.tab b)) (fun _ _ => True) s := by
  obtain ⟨id, hid⟩ := Option.isSome_iff_exists.1 hi
  obtain ⟨tag, ht, -, htag⟩ := kind_text hk
  dsimp only at htag
  subst htag
  obtain ⟨h1, h2, h3, h4⟩ := hm
  unfold parseLMedia
  refine Gives.seq (gives_head ht hid) fun _ e => ?_
  subst e
  dsimp only
  refine PGood.bind (((newObject_good hinj w .media id).post (newObject_loose hinj w .media id)).mono fun o s1 hs1 => ?_)
  obtain ⟨-, hp1, a1, a2, l1⟩ := hs1
  have plain : PlainAttr (newObj .media id a1 a2) := by
    intro i v hv
    rw [newObj_get _ (by decide)] at hv
    rw [if_neg (by simp)] at hv; cases hv
  refine Gives.seq (gives_entries H h1) fun l hl => ?_
  refine PGood.bind (((props_good o l s1 _ l1.obj (by rw [hl.1]; exact h3)).post (props_loop hinj H o l s1 _ l1.obj plain)).mono fun _ s2 hs2 => ?_)
  obtain ⟨-, x2, h2'⟩ := hs2
  refine Gives.seq (gives_entries H h2) fun m hm => ?_
  refine PGood.bind (((areas_good o m s2 _ h2'.obj (mem_pairs (P := fun v => (areaOf E H v).isSome = true) hm.2 h4)).post (areas_loop hinj H o m s2 _ h2'.obj)).mono fun _ s3 hs3 => ?_)
  obtain ⟨-, x3, h3'⟩ := hs3
  have l3 := (l1.on h2'.on h2'.obj).on h3'.on h3'.obj
  have x3f : x3.kind = .media ∧ x3.id = id := by
    obtain ⟨e, he⟩ := h2'.on.own _ l1.obj
    rw [h2'.obj] at he; cases he
    obtain ⟨e, he⟩ := h3'.on.own _ h2'.obj
    rw [h3'.obj] at he; cases he
    have f := newObj_fields .media id a1 a2
    exact ⟨f.2.1, f.1⟩
  exact addChild_good w l3 ho (by rw [x3f.2]; exact hfr.id hid) (by rw [x3f.1]; decide)

/-- What a new composition is. -/
theorem Entered.open {s u : PS} {p o : Nat} {x : RObj} (h : Entered E s u p o x) (hk : x.kind = .context ∨ x.kind = .switch) : Open u o :=
  ⟨_, h.has.2, hk, rfl⟩

theorem Entered.free {s u : PS} {p o b : Nat} {x : RObj} (w : LW E s) (h : Entered E s u p o x) (hx : H.id b = some x.id ∧ x.aliases = []) (hfr : FreeIn H s [b])
    (hid : IdsIn H [b]) : FreeIn H u (H.kids b) ∧ IdsIn H (H.kids b) := by
  have up : ∀ π a, forestAt H (H.kids b) π = some a → forestAt H [b] (0 :: π) = some a ∧ π ≠ [] := by
    intro π a hπ
    cases π with
    | nil => cases hπ
    | cons i π => exact ⟨hπ, by simp⟩
  refine ⟨fun π a hπ id hia q hq z hz => ?_, fun π π' a a' h1 h2 e => ?_⟩
  · obtain ⟨hπ, hne⟩ := up π a hπ
    rcases h.objects q hq with hq | rfl
    · obtain ⟨x0, hx0, -⟩ := w.world.inv.objs q hq
      obtain ⟨ks, hk⟩ := h.under.some hx0
      rw [hz] at hk; cases hk
      exact hfr _ _ hπ id hia q hq x0 hx0
    · rw [h.has.2] at hz; cases hz
      refine ⟨fun e => ?_, by show ∀ al ∈ x.aliases, _; rw [hx.2]; simp⟩
      have e : x.id = id := e
      have := hid [0] (0 :: π) b a rfl hπ (by rw [hx.1, hia, e])
      simp only [List.cons.injEq, true_and] at this
      exact hne this.symm
  · have := hid _ _ _ _ (up _ _ h1).1 (up _ _ h2).1 e
    simpa using this

include hinj in
theorem node_good (h0 : ∀ i, E.addr i ≠ 0) : ∀ (n b : Nat) (k : RKind) (p : Nat) (s : PS), TableFine E H n b → H.kind b = some k → LW E s → Open s p → FreeIn H s [b] → IdsIn H [b] →
    PGood (parseLNode E H n k p (.tab b)) (fun _ _ => True) s
  | 0, _, _, _, _, h, _, _, _, _, _ => h.elim
  | n + 1, b, k, p, s, h, hk, w, ho, hfr, hids => by
    obtain ⟨hi, h⟩ := h
    have ih := node_good h0 n
    have post := fun o k v s => node_post hinj H n k o v s
    rw [hk] at h
    unfold parseLNode
    obtain ⟨id, hid⟩ := Option.isSome_iff_exists.1 hi
    obtain ⟨tag, ht, -, htag⟩ := kind_text hk
    cases k with
    | settings => exact h.elim
    | media => exact media_good hinj w hk hi h ho hfr
    | context =>
      dsimp only at htag h ⊢
      subst htag
      obtain ⟨hc, hkids⟩ := h
      refine Gives.seq (gives_head ht hid) fun _ e => ?_
      subst e
      dsimp only
      refine PGood.bind (((newObject_good hinj w .context id).post (newObject_loose hinj w .context id)).mono fun o s1 hs1 => ?_)
      obtain ⟨-, hp1, a1, a2, l1⟩ := hs1
      have f := newObj_fields .context id a1 a2
      refine PGood.bind (((addChild_good w l1 ho (by rw [f.1]; exact hfr.id hid) (by rw [f.2.1]; decide)).post (adopt_entered w l1)).mono fun _ s2 hs2 => ?_)
      obtain ⟨-, h2, -⟩ := hs2
      obtain ⟨fr, ids⟩ := h2.free (b := b) w ⟨by rw [hid, f.1], newObj_aliases .context id a1 a2⟩ hfr hids
      exact body_good h0 (post o) (P := TableFine E H n) (fun _ h => h.kind) (fun b k s h1 h2 h3 h4 h5 h6 => ih b k o s h1 h2 h3 h4 h5 h6) h2.lw (h2.open (.inl f.2.1)) hk hc hkids fr ids
    | switch =>
      dsimp only at htag h ⊢
      subst htag
      obtain ⟨hc, hkids⟩ := h
      refine Gives.seq (gives_head ht hid) fun _ e => ?_
      subst e
      dsimp only
      refine PGood.bind (((newObject_good hinj w .switch id).post (newObject_loose hinj w .switch id)).mono fun o s1 hs1 => ?_)
      obtain ⟨-, hp1, a1, a2, l1⟩ := hs1
      have f := newObj_fields .switch id a1 a2
      refine PGood.bind (((addChild_good w l1 ho (by rw [f.1]; exact hfr.id hid) (by rw [f.2.1]; decide)).post (adopt_entered w l1)).mono fun _ s2 hs2 => ?_)
      obtain ⟨-, h2, -⟩ := hs2
      obtain ⟨fr, ids⟩ := h2.free (b := b) w ⟨by rw [hid, f.1], newObj_aliases .switch id a1 a2⟩ hfr hids
      refine Gives.seq (gives_entries H hc.lists.1) fun l hl => ?_
      have hl' : l.map (·.2) = (H.kids b).map LVal.tab := by
        rw [← hc.kids, hl.2]; unfold LHeap.kidVals; rw [hk]
      refine PGood.bind ((kids_ready (post o) (P := TableFine E H n) (fun _ h => h.kind) (fun b k s h1 h2 h3 h4 h5 h6 => ih b k o s h1 h2 h3 h4 h5 h6) h2.lw (h2.open (.inr f.2.1)) hl' hkids fr ids).mono fun _ t ht => ?_)
      refine Gives.seq (gives_entries H hc.lists.2) fun lr hlr => ?_
      exact (rules_good ht (mem_pairs (P := RuleFine H n b) hlr.2 hc.rules)).mono fun _ _ _ => trivial

end

/-- The registry of a new document can be made. -/
theorem newDoc_ok {E : PRead} (hinj : ∀ i j, E.addr i = E.addr j → i = j) : ∃ reg, newDoc (E.addr 0) (E.addr 1) (E.addr 2) (E.addr 3) (E.addr 4) = .ok reg := by
  have ne : E.addr 0 ≠ E.addr 1 := fun h => absurd (hinj _ _ h) (by decide)
  exact ⟨_, newDoc_eq _ _ _ _ _ ne⟩

/-- A well-formed document is accepted. -/
theorem ltab_accepts {E : PRead} (hinj : ∀ i j, E.addr i = E.addr j → i = j) (h0 : ∀ i, E.addr i ≠ 0) {H : LHeap} {n top : Nat} (h : DocFine E H n top) :
    ∃ t, parseLtab E H n (.tab top) = .ok (some t) := by
  have ne : ∀ i j, i ≠ j → E.addr i ≠ E.addr j := fun i j hij h => hij (hinj i j h)
  obtain ⟨reg, hd⟩ := newDoc_ok hinj
  have w0 : World E reg 5 [] [] := newDoc_world hinj hd
  obtain ⟨ho, hm, -, -, -, -, hroot, hset⟩ := newDoc_has (ne 0 1 (by decide)) hd
  have key : PGood (parseLRoot E H n (.tab top)) (fun _ _ => True) (PS.init 1 1 0 reg 5) := by
    obtain ⟨id, hid⟩ := Option.isSome_iff_exists.1 h.id
    obtain ⟨tag, ht, -, htag⟩ := kind_text h.kind
    dsimp only at htag
    subst htag
    unfold parseLRoot
    refine Gives.seq (gives_head ht hid) fun _ e => ?_
    subst e
    dsimp only
    have f1 := newObj_fields .context "__root__" (E.addr 2) 0
    have hrx : reg.obj reg.root = some { newObj .context "__root__" (E.addr 2) 0 with children := [E.addr 1], inDoc := true } := (ho _ _).2 (.inr ⟨hroot, rfl⟩)
    let r := reg.setObj reg.root { newObj .context "__root__" (E.addr 2) 0 with children := [E.addr 1], inDoc := true, aliases := [(id, 0)] }
    have hr : reg.exec (.addAlias reg.root id 0) = .ok (true, r) := by
      simp only [Reg.exec, Reg.addAlias]
      rw [hrx]
      dsimp only
      have ha : (newObj .context "__root__" (E.addr 2) 0).aliases = [] := newObj_aliases _ _ _ _
      rw [ha]
      rw [if_neg (by simp)]
      rfl
    have w1 : World E r 5 [] [] := World.addAlias w0 hr
    refine PGood.bind (PGood.get (PGood.bind (PGood.regOp hr ?_)))
    change PGood (parseLBody H n (parseLNode E H n) reg.root top) _ { PS.init 1 1 0 reg 5 with reg := r }
    have lw : LW E { PS.init 1 1 0 reg 5 with reg := r } := ⟨w1, rfl, fun _ _ => ⟨rfl, rfl, rfl, rfl⟩⟩
    have hrx' : r.obj reg.root = some { newObj .context "__root__" (E.addr 2) 0 with children := [E.addr 1], inDoc := true, aliases := [(id, 0)] } := upd_same _ _ _
    have at' : ∀ π a, forestAt H (H.kids top) π = some a → H.at top π = some a ∧ π ≠ [] := by
      intro π a hπ
      cases π with
      | nil => cases hπ
      | cons i π => exact ⟨hπ, by simp⟩
    refine body_good h0 (fun k v s w => node_post hinj H n k reg.root v s w) (P := TableFine E H n) (fun _ h => h.kind)
      (fun b k s h1 h2 h3 h4 h5 h6 => node_good hinj h0 n b k reg.root s h1 h2 h3 h4 h5 h6) lw ⟨_, hrx', .inl f1.2.1, rfl⟩ h.kind h.context h.kids ?_ ?_
    · intro π a hπ i hi q hq x hx
      obtain ⟨ha, hne⟩ := at' π a hπ
      have hres := h.reserved π a ha hne
      rw [hi] at hres
      have hq : q ∈ reg.objects := hq
      rw [hm] at hq
      rcases hq with rfl | rfl
      · have hx : r.obj reg.root = some x := by rw [hroot]; exact hx
        rw [hrx'] at hx; cases hx
        refine ⟨?_, fun al hal => ?_⟩
        · show (newObj .context "__root__" (E.addr 2) 0).id ≠ i
          rw [f1.1]; intro e; exact hres.1 (congrArg some e.symm)
        · have : al = (id, 0) := List.mem_singleton.1 hal
          subst this
          intro e
          exact hne (h.ids π [] a top ha rfl (by rw [hi, hid, ← e]))
      · have f2 := newObj_fields .settings "__settings__" (E.addr 3) (E.addr 4)
        have hsx : reg.obj (E.addr 1) = some { newObj .settings "__settings__" (E.addr 3) (E.addr 4) with parent := some (E.addr 0), inDoc := true } := (ho _ _).2 (.inl ⟨rfl, rfl⟩)
        have hne1 : E.addr 1 ≠ reg.root := by rw [hroot]; exact ne 1 0 (by decide)
        have hx : upd reg.obj reg.root _ (E.addr 1) = some x := hx
        rw [upd_ne _ _ hne1, hsx] at hx
        cases hx
        refine ⟨?_, ?_⟩
        · show (newObj .settings "__settings__" (E.addr 3) (E.addr 4)).id ≠ i
          rw [f2.1]; intro e; exact hres.2 (congrArg some e.symm)
        · show ∀ al ∈ (newObj .settings "__settings__" (E.addr 3) (E.addr 4)).aliases, _
          rw [newObj_aliases]; simp
    · intro π π' a a' h1 h2 e
      exact h.ids _ _ _ _ (at' _ _ h1).1 (at' _ _ h2).1 e
  obtain ⟨u, t, hk, -⟩ := key
  refine ⟨t, ?_⟩
  unfold parseLtab
  rw [hd]
  simp only [Res.bind]
  rw [hk]

end Ginga
