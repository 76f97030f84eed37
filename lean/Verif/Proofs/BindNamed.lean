import Verif.Proofs.LinkAll
import Verif.Proofs.Shared
/-!
# The binds of links name something
-/
namespace Ginga

section
variable {E : PRead} {scr : Rect} {z : Nat} {x : Xml} {T s u : PS} {ns : List Note} {f : Nat → Nat}

/-- The object of a body or context is in the document. -/
theorem scope_inDoc (ht : TreeK E f ns [0] u) {q : Nat} {mq : Note} (hq : ns[q]? = some mq) (hqt : mq.tag = "body" ∨ mq.tag = "context") :
    ∃ y, u.reg.obj (f q) = some y ∧ y.inDoc = true := by
  rcases hqt with h | h
  · obtain ⟨Y, b1, -, b2⟩ := ht.world.tree.root
    rw [ht.top q mq hq (.inr h)]
    exact ⟨Y, b1, b2⟩
  · obtain ⟨i, p, a1, a2, X, ⟨a3, a4⟩, -⟩ := ht.made q mq .context hq (by unfold Note.kind; rw [h]; simp)
    exact ht.world.inv.objs _ a3

/-- The component of a bind that was resolved names something. -/
theorem iface_comp (h : AtEnd E scr z x T ns f u s) (hb : ShBase E f ns [0] u) {q : Nat} {mq : Note} (hq : ns[q]? = some mq) (hqt : mq.tag = "body" ∨ mq.tag = "context")
    {w : Nat × Note} (hw : ns[w.1]? = some w.2) (hwt : w.2.tag = "bind") (n : Nat) :
    PPost (resolveIface n (f q) w.1) (fun _ _ => ∃ a, w.2.get "component" = some a ∧ NamedIn ns a) s := by
  cases n with
  | zero => exact PPost.fuel
  | succ n =>
    unfold resolveIface resolveComponent
    have hbtag : (s.elt w.1).tag = w.2.tag := by rw [h.like.tag, (h.j.tag hw).1]
    refine PPost.bind (PPost.bind (PPost.get ?_))
    dsimp only
    rw [if_neg (by rw [hbtag, hwt]; decide)]
    refine PPost.bind (PPost.attr! fun a ha => PPost.orErr fun o ho => ?_)
    rw [h.get w.1 w.2 hw (by rw [hwt]; decide) (by rw [hwt]; decide)] at ha
    rw [h.skel.component] at ho
    obtain ⟨y, h1, h2⟩ := scope_inDoc h.treeK hq hqt
    exact fun _ _ _ => ⟨a, ha, component_named h.treeK hb h1 h2 ho⟩

theorem table_comp (h : AtEnd E scr z x T ns f u s) (hb : ShBase E f ns [0] u) {q : Nat} {mq : Note} (hq : ns[q]? = some mq) (hqt : mq.tag = "body" ∨ mq.tag = "context") (n : Nat) :
    ∀ (L : List (Nat × Note)) (acc : List (String × String)), (∀ w ∈ L, ns[w.1]? = some w.2 ∧ w.2.tag = "bind") →
    PPost (resolveTable n (f q) (L.map bindAt) acc) (fun _ s' => s' = s ∧ ∀ w ∈ L, ∃ a, w.2.get "component" = some a ∧ NamedIn ns a) s
  | [], acc, _ => PPost.pure' ⟨rfl, fun _ h => by cases h⟩
  | w :: L, acc, hL => by
    obtain ⟨w1, w2⟩ := hL w (by simp)
    rw [List.map_cons]
    unfold resolveTable
    refine PPost.bind (PPost.get ?_)
    split
    · refine PPost.bind (((iface_spec h n q mq w.1 w.2 hq hqt w1 (.inl w2)).and (iface_comp h hb hq hqt w1 w2 n)).mono ?_)
      rintro e s' ⟨hes, hn⟩
      rw [hes.1]
      refine PPost.bind (PPost.object fun X hX => ?_)
      refine (table_comp h hb hq hqt n L _ fun w h => hL w (by simp [h])).mono ?_
      rintro tab s1 ⟨h1, h2⟩
      refine ⟨h1, fun w' hw' => ?_⟩
      rcases List.mem_cons.1 hw' with rfl | hw'
      · exact hn
      · exact h2 w' hw'
    · exact PPost.abort

theorem roles_comp (hb : ShBase E f ns [0] u) {q : Nat} {mq : Note} (hq : ns[q]? = some mq) (hqt : mq.tag = "body" ∨ mq.tag = "context") (n : Nat) (roles : List Role)
    (lp tests gh : List (String × String)) : ∀ (L : List (Nat × (Nat × Note))) (s : PS), AtEnd E scr z x T ns f u s → (∀ p ∈ L, ns[p.2.1]? = some p.2.2 ∧ p.2.2.tag = "bind") →
    PPost (resolveRoles E n (f q) roles lp tests gh (L.map fun p => (p.1, bindAt p.2))) (fun _ _ => ∀ p ∈ L, ∃ a, p.2.2.get "component" = some a ∧ NamedIn ns a) s
  | [], s, _, _ => PPost.pure' fun _ h => by cases h
  | p :: L, s, h, hL => by
    obtain ⟨w1, w2⟩ := hL p (by simp)
    rw [List.map_cons]
    unfold resolveRoles
    refine PPost.bind (PPost.some! fun r hr => ?_)
    have hrole : PPost (resolveRole E n (f q) r (bindAt p.2) lp tests gh) (fun _ _ => ∃ a, p.2.2.get "component" = some a ∧ NamedIn ns a) s := by
      unfold resolveRole
      refine PPost.bind (PPost.get ?_)
      split
      · exact PPost.abort
      · refine PPost.bind ((iface_comp h hb hq hqt w1 w2 n).mono ?_)
        intro e s' hn
        exact fun _ _ _ => hn
    refine PPost.bind ((hrole.and ((PRel.resolveRole (fixed_base.core E) n (f q) r (bindAt p.2) lp tests gh ⟨trivial, trivial⟩ s).and
      (PRel.resolveRole (skel_core E) n (f q) r (bindAt p.2) lp tests gh ⟨trivial, trivial⟩ s))).mono ?_)
    rintro act s1 ⟨hn, hf, hs⟩
    refine PPost.bind ((roles_comp hb hq hqt n roles lp tests gh L s1 (h.step hs hf) fun p h => hL p (by simp [h])).mono ?_)
    rintro ⟨cs, as⟩ s2 h2
    refine PPost.pure' fun p' hp' => ?_
    rcases List.mem_cons.1 hp' with rfl | hp'
    · exact hn
    · exact h2 p' hp'

/-- Each bind is bound to a role, to a test, or to nothing. -/
theorem bindAll_split (roles : List Role) (tests : List String) : ∀ (L : List (Nat × Note)), ∃ (L0 : List (Nat × (Nat × Note))) (L1 L2 : List (Nat × Note)),
    (bindAll roles tests (L.map bindAt)).roles = L0.map (fun p => (p.1, bindAt p.2)) ∧ (bindAll roles tests (L.map bindAt)).tests = L1.map bindAt ∧
    (bindAll roles tests (L.map bindAt)).ghosts = L2.map bindAt ∧ ∀ w, w ∈ L ↔ (∃ i, (i, w) ∈ L0) ∨ w ∈ L1 ∨ w ∈ L2
  | [] => ⟨[], [], [], rfl, rfl, rfl, by simp⟩
  | b :: L => by
    obtain ⟨L0, L1, L2, h0, h1, h2, h3⟩ := bindAll_split roles tests L
    rw [List.map_cons]
    unfold bindAll
    dsimp only
    split
    · next i hi =>
      refine ⟨(i, b) :: L0, L1, L2, by simp [h0], h1, h2, fun w => ?_⟩
      rw [List.mem_cons, h3]
      constructor
      · rintro (rfl | ⟨j, h⟩ | h)
        · exact .inl ⟨i, by simp⟩
        · exact .inl ⟨j, by simp [h]⟩
        · exact .inr h
      · rintro (⟨j, h⟩ | h)
        · rcases List.mem_cons.1 h with h | h
          · cases h; exact .inl rfl
          · exact .inr (.inl ⟨j, h⟩)
        · exact .inr (.inr h)
    · split
      · refine ⟨L0, b :: L1, L2, h0, by simp [h1], h2, fun w => ?_⟩
        rw [List.mem_cons, h3, List.mem_cons]
        constructor
        · rintro (h | h | h | h)
          · exact .inr (.inl (.inl h))
          · exact .inl h
          · exact .inr (.inl (.inr h))
          · exact .inr (.inr h)
        · rintro (h | (h | h) | h)
          · exact .inr (.inl h)
          · exact .inl h
          · exact .inr (.inr (.inl h))
          · exact .inr (.inr (.inr h))
      · refine ⟨L0, L1, b :: L2, h0, h1, by simp [h2], fun w => ?_⟩
        rw [List.mem_cons, h3, List.mem_cons]
        constructor
        · rintro (h | h | h | h)
          · exact .inr (.inr (.inl h))
          · exact .inl h
          · exact .inr (.inl h)
          · exact .inr (.inr (.inr h))
        · rintro (h | h | h | h)
          · exact .inr (.inl h)
          · exact .inr (.inr (.inl h))
          · exact .inl h
          · exact .inr (.inr (.inr h))

/-- Each bind of a link that was made names something. -/
theorem link_comp (h : AtEnd E scr z x T ns f u s) (hb : ShBase E f ns [0] u) (hlk : LinkK f ns u) {k q : Nat} {m mq : Note} (hk : ns[k]? = some m) (ht : m.tag = "link")
    (hp : m.parent = some q) (hq : ns[q]? = some mq) (hqt : mq.tag = "body" ∨ mq.tag = "context") (n : Nat) :
    PPost (popLinkElt E n k) (fun _ _ => ∀ w ∈ bindNotes ns k, ∃ a, w.2.get "component" = some a ∧ NamedIn ns a) s := by
  have hd := h.tree
  unfold popLinkElt
  refine PPost.bind (PPost.get (PPost.bind (PPost.attr! fun c hc => PPost.bind (PPost.orErr fun ck hck => PPost.bind (PPost.some! fun ctx hctx => ?_)))))
  obtain rfl : ctx = f q := by
    obtain ⟨q', g1, g2⟩ := hlk.ctx k m hk ht
    rw [hp] at g1
    obtain rfl : q = q' := by simpa using g1
    rw [h.like.elt k] at hctx
    rw [show (u.elt k).context = some ctx from hctx] at g2
    exact Option.some.inj g2
  obtain ⟨hbinds, -⟩ := link_binds hd h.j hk
  have hek : (s.elt k).binds = (u.elt k).binds := by rw [h.like.elt k]
  dsimp only
  rw [hek, hbinds]
  have hbn : ∀ w ∈ bindNotes ns k, ns[w.1]? = some w.2 ∧ w.2.tag = "bind" := fun w hw => by
    obtain ⟨hw1, hw2⟩ := List.mem_filter.1 hw
    exact ⟨(kid_main hd hw1).1, by simpa using hw2⟩
  split
  · exact PPost.err
  obtain ⟨L0, L1, L2, e0, e1, e2, e3⟩ := bindAll_split (s.elt ck).roles (s.elt ck).tests (bindNotes ns k)
  rw [e0, e1, e2]
  refine PPost.bind ((table_comp h hb hq hqt n L1 [] fun w hw => hbn w ((e3 w).2 (.inr (.inl hw)))).mono fun tt s1 h1 => ?_)
  rw [h1.1]
  refine PPost.bind ((table_comp h hb hq hqt n L2 [] fun w hw => hbn w ((e3 w).2 (.inr (.inr hw)))).mono fun gh s2 h2 => ?_)
  rw [h2.1]
  refine PPost.bind ((roles_comp hb hq hqt n _ _ _ gh L0 s h fun p hp => hbn p.2 ((e3 p.2).2 (.inl ⟨p.1, hp⟩))).mono ?_)
  rintro ⟨cs, as⟩ s3 h3
  refine fun _ _ _ w hw => ?_
  rcases (e3 w).1 hw with ⟨i, hi⟩ | hw | hw
  · exact h3 (i, w) hi
  · exact h1.2 w hw
  · exact h2.2 w hw

/-- Each bind of the document names something. -/
theorem binds_comp {P : (Nat → Nat) → List Note → List Nat → PS → Prop} {m : Nat} (hinj : ∀ i j, E.addr i = E.addr j → i = j) (he : Ended P E scr z x T ns f m u)
    (hb : ShBase E f ns [0] u) (hlk : LinkK f ns u) {k : Nat} {nk : Note} (hk : ns[k]? = some nk) (ht : nk.tag = "link") :
    ∀ w ∈ bindNotes ns k, ∃ a, w.2.get "component" = some a ∧ NamedIn ns a := by
  obtain ⟨u1, u2, u3, u4, hst⟩ := popNcl_stages he.run
  have hid : IdK u := hb.2.2.2
  obtain ⟨h3, -⟩ := stages_end hinj he hb.1.1 hb.2.1.2 (clear_end hinj he hid).1 hst
  have hkb : k ∈ u.byTag "link" := ((byTag_notes he.j he.kc (tag := "link") (by decide) (by decide +kernel)).2 k).2 ⟨nk, hk, ht⟩
  obtain ⟨l1, l2, s1, s2, e1, e2, e3, e4⟩ := forEach_split hkb hst.link
  have hs : Skel u3 s1 := PRel.forEach (step_pre _) (fun k => PRel.popLinkElt (skel_core E) (fun _ _ => step_same rfl rfl) m k ⟨trivial, trivial⟩) _ _ _ _ e2
  have hf : Fixed u3 s1 := PRel.forEach (fixed_base.core E).toPPre (fun k => PRel.popLinkElt (fixed_base.core E) (fun _ _ => ⟨rfl, rfl, rfl, rfl, rfl⟩) m k ⟨trivial, trivial⟩) _ _ _ _ e2
  obtain ⟨mq, q, a1, a2, a3⟩ := link_parent he.tree hk ht
  exact link_comp (h3.step hs hf) hb hlk hk ht a1 a2 a3 m _ _ e3

end

end Ginga
