import Verif.Proofs.LinkEnd
import Verif.Proofs.RulesEnd
/-!
# All links at the end of the document
-/
namespace Ginga

theorem sorted_eq : ∀ {a b : List Nat}, a.Pairwise (· < ·) → b.Pairwise (· < ·) → (∀ x, x ∈ a ↔ x ∈ b) → a = b
  | [], [], _, _, _ => rfl
  | [], y :: b, _, _, h => absurd ((h y).2 (by simp)) (by simp)
  | x :: a, [], _, _, h => absurd ((h x).1 (by simp)) (by simp)
  | x :: a, y :: b, ha, hb, h => by
    rw [List.pairwise_cons] at ha hb
    have hxy : x = y := by
      rcases List.mem_cons.1 ((h x).1 (by simp)) with h1 | h1
      · exact h1
      rcases List.mem_cons.1 ((h y).2 (by simp)) with h2 | h2
      · exact h2.symm
      have := hb.1 x h1; have := ha.1 y h2; omega
    subst hxy
    rw [sorted_eq ha.2 hb.2 fun z => ?_]
    constructor
    · intro hz
      rcases List.mem_cons.1 ((h z).1 (by simp [hz])) with h1 | h1
      · subst h1; have := ha.1 z hz; omega
      · exact h1
    · intro hz
      rcases List.mem_cons.1 ((h z).2 (by simp [hz])) with h1 | h1
      · subst h1; have := hb.1 z hz; omega
      · exact h1

theorem kidNotes_sorted (j : Nat) : ∀ (i : Nat) (l : List Note), (kidNotes j i l).Pairwise fun a b => a.1 < b.1
  | _, [] => .nil
  | i, n :: l => by
    rw [kidNotes, List.pairwise_append]
    refine ⟨by split <;> simp, kidNotes_sorted j (i + 1) l, fun a ha b hb => ?_⟩
    have hb := (kidNotes_mem.1 hb).1
    split at ha
    · obtain rfl : a = (i, n) := by simpa using ha
      exact hb
    · simp at ha

/-- The elements with a given tag, in order. -/
theorem byTag_eq {E : PRead} {scr : Rect} {z : Nat} {ns : List Note} {u : PS} (hj : J E scr z ns u) (hkc : KC ns u) {tag : String} (hi : tag ≠ "importBase")
    (hc : cachedTag tag = true) : u.byTag tag = (List.range ns.length).filter fun k => tagAt ns k == tag := by
  have htag : ∀ k ∈ u.cache, (u.elt k).tag = tagAt ns k := by
    intro k hk
    have := hkc.lt k hk
    unfold tagAt
    rw [List.getElem?_eq_getElem this]
    exact (hj.tag (List.getElem?_eq_getElem this)).1
  have h1 : u.byTag tag = (u.cache.filter fun k => tagAt ns k != "importBase").filter fun k => tagAt ns k == tag := by
    unfold PS.byTag
    rw [List.filter_filter]
    refine List.filter_congr fun k hk => ?_
    rw [htag k hk]
    by_cases h : tagAt ns k = tag
    · simp [h, hi]
    · simp [h]
  rw [h1, hkc.eq, List.filter_filter]
  refine List.filter_congr fun k _ => ?_
  by_cases h : tagAt ns k = tag
  · simp [h, hc]
  · simp [h]

/-- The number of the parent. -/
def parAt (ns : List Note) (k : Nat) : Option Nat := (ns[k]?).bind Note.parent

/-- The element with a number. -/
def xmlAt (ns : List Note) (k : Nat) : Xml :=
  match ns[k]? with
  | some m => m.xml
  | none => .elem "" [] []

/-- The parent of an element has the object `o`. -/
def inObj (ns : List Note) (f : Nat → Nat) (o k : Nat) : Bool :=
  match parAt ns k with
  | some q => f q == o
  | none => false

/-- An element with its parent. -/
def linkPair (ns : List Note) (k : Nat) : Xml × Xml := (xmlAt ns ((parAt ns k).getD 0), xmlAt ns k)

section
variable {E : PRead} {scr : Rect} {z : Nat} {x : Xml} {T u : PS} {ns : List Note} {f : Nat → Nat} {π : Nat → Option Nat}

theorem links_spec (hpi : PI ns [] π u) (hfull : StmtFull ns) (hlk : LinkK f ns u) (o n : Nat) : ∀ (l : List Nat) (s : PS), AtEnd E scr z x T ns f u s →
    (∀ k ∈ l, ∃ (m mq : Note) (q : Nat), ns[k]? = some m ∧ m.tag = "link" ∧ m.parent = some q ∧ ns[q]? = some mq ∧ (mq.tag = "body" ∨ mq.tag = "context")) →
    PPost (PM.forEach (popLinkElt E n) l) (fun _ s' => LStep s s' ∧ ∃ Ls, s'.links o = s.links o ++ Ls ∧
      ∀ v, LStep s' v → Each (fun w L => LinkOf E x v.reg w.1 w.2 L) ((l.filter (inObj ns f o)).map (linkPair ns)) Ls) s
  | [], s, _, _ => PPost.pure' ⟨step_same rfl rfl, [], by rw [List.append_nil], fun _ _ => .nil⟩
  | k :: l, s, h, hl => by
    obtain ⟨m, mq, q, h1, h2, h3, h4, h5⟩ := hl k (by simp)
    refine PPost.bind' ?_
    refine ((link_spec h hpi hfull hlk h1 h2 h3 h4 h5 n).and (PRel.popLinkElt (fixed_base.core E) (fun _ _ => ⟨rfl, rfl, rfl, rfl, rfl⟩) n k ⟨trivial, trivial⟩ s)).mono ?_
    rintro _ s1 ⟨⟨g1, L, g2, g3⟩, g4⟩
    refine (links_spec hpi hfull hlk o n l s1 (h.step g1.skel g4) fun k hk => hl k (by simp [hk])).mono ?_
    rintro _ s2 ⟨g5, Ls, g6, g7⟩
    refine ⟨(step_pre _).trans g1 g5, ?_⟩
    have hio : inObj ns f o k = (f q == o) := by unfold inObj parAt; rw [h1]; show (match m.parent with | some q => f q == o | none => false) = _; rw [h3]
    have hlp : linkPair ns k = (mq.xml, m.xml) := by
      have : parAt ns k = some q := by unfold parAt; rw [h1]; exact h3
      unfold linkPair xmlAt
      rw [this, Option.getD_some, h4, h1]
    by_cases hc : f q = o
    · subst hc
      refine ⟨L :: Ls, ?_, fun v hv => ?_⟩
      · rw [g6, g2, upd_same, List.append_assoc]; rfl
      · rw [List.filter_cons_of_pos (by rw [hio]; simp), List.map_cons, hlp]
        exact .cons (g3 v ((step_pre _).trans g5 hv)) (g7 v hv)
    · refine ⟨Ls, ?_, fun v hv => ?_⟩
      · rw [g6, g2, upd_ne _ _ (fun h => hc h.symm)]
      · rw [List.filter_cons_of_neg (by rw [hio]; simpa using hc)]
        exact g7 v hv

/-- The links of contexts whose elements come one after the other. -/
theorem links_order (hd : DocTree E scr x T ns f) {o : Nat} {Q : List Nat}
    (hQ : ∀ (k q : Nat) (m : Note), ns[k]? = some m → m.tag = "link" → m.parent = some q → (f q = o ↔ q ∈ Q))
    (hs : Q.Pairwise fun a b => ∀ (i j : Nat), parAt ns i = some a → parAt ns j = some b → i < j) :
    (((List.range ns.length).filter fun k => tagAt ns k == "link").filter (inObj ns f o)) =
      Q.flatMap fun q => ((kidNotes q 0 ns).filter fun w => w.2.tag == "link").map Prod.fst := by
  refine sorted_eq ?_ ?_ ?_
  · exact List.Pairwise.filter _ (List.Pairwise.filter _ List.pairwise_lt_range)
  · rw [List.pairwise_flatMap]
    refine ⟨fun q _ => ?_, hs.imp ?_⟩
    · exact List.pairwise_map.2 (List.Pairwise.filter _ (kidNotes_sorted q 0 ns))
    · intro a b hab i hi j hj
      obtain ⟨w, hw, rfl⟩ := List.mem_map.1 hi
      obtain ⟨w', hw', rfl⟩ := List.mem_map.1 hj
      obtain ⟨e1, e2⟩ := kid_main hd (List.mem_filter.1 hw).1
      obtain ⟨e3, e4⟩ := kid_main hd (List.mem_filter.1 hw').1
      exact hab _ _ (by unfold parAt; rw [e1]; exact e2) (by unfold parAt; rw [e3]; exact e4)
  · intro k
    rw [List.filter_filter, List.mem_filter, List.mem_range, List.mem_flatMap]
    constructor
    · rintro ⟨h1, h2⟩
      rw [Bool.and_eq_true, beq_iff_eq] at h2
      obtain ⟨m, hm⟩ : ∃ m, ns[k]? = some m := ⟨_, List.getElem?_eq_getElem h1⟩
      have ht : m.tag = "link" := by have := h2.2; unfold tagAt at this; rw [hm] at this; exact this
      have hi := h2.1
      unfold inObj at hi
      split at hi
      · next q hq =>
        have hp : m.parent = some q := by unfold parAt at hq; rw [hm] at hq; exact hq
        refine ⟨q, (hQ k q m hm ht hp).1 (by simpa using hi), List.mem_map.2 ⟨(k, m), List.mem_filter.2 ⟨kidNotes_mem.2 ⟨by omega, by simpa using hm, hp⟩, by simpa using ht⟩, rfl⟩⟩
      · cases hi
    · rintro ⟨q, hq, hk⟩
      obtain ⟨w, hw, rfl⟩ := List.mem_map.1 hk
      obtain ⟨hw1, hw2⟩ := List.mem_filter.1 hw
      obtain ⟨e1, e2⟩ := kid_main hd hw1
      have ht : w.2.tag = "link" := by simpa using hw2
      refine ⟨getElem?_lt e1, ?_⟩
      rw [Bool.and_eq_true, beq_iff_eq]
      have hp : parAt ns w.1 = some q := by unfold parAt; rw [e1]; exact e2
      refine ⟨?_, ?_⟩
      · unfold inObj
        rw [hp]
        simpa using (hQ _ q _ e1 ht e2).2 hq
      · unfold tagAt; rw [e1]; exact ht

theorem links_pairs (hd : DocTree E scr x T ns f) {Q : List Nat} (hQ : ∀ q ∈ Q, ∃ m, ns[q]? = some m) :
    (Q.flatMap fun q => ((kidNotes q 0 ns).filter fun w => w.2.tag == "link").map Prod.fst).map (linkPair ns) =
      (Q.map (xmlAt ns)).flatMap fun c => (c.children.filter fun y => y.tag == "link").map fun l => (c, l) := by
  rw [List.map_flatMap, List.flatMap_map]
  rw [List.flatMap_def, List.flatMap_def]
  congr 1
  refine List.map_congr_left fun q hq => ?_
  obtain ⟨m, hm⟩ := hQ q hq
  have hx : xmlAt ns q = m.xml := by unfold xmlAt; rw [hm]
  rw [List.map_map, hx, ← hd.kids hm, List.filter_map, List.map_map]
  refine List.map_congr_left fun w hw => ?_
  obtain ⟨e1, e2⟩ := kid_main hd (List.mem_filter.1 hw).1
  show linkPair ns w.1 = (m.xml, w.2.xml)
  unfold linkPair parAt
  rw [e1]
  show (xmlAt ns (w.2.parent.getD 0), xmlAt ns w.1) = _
  rw [e2, Option.getD_some, hx]
  unfold xmlAt
  rw [e1]

/-- The bodies: children of the root element. -/
theorem body_parent (hd : DocTree E scr x T ns f) {b : Nat} {m : Note} (hb : ns[b]? = some m) (ht : m.tag = "body") : m.parent = some 0 := by
  have hb1 : ∀ e ∈ syntaxTable, e.tag = "body" → e.parents = ["ncl"] := by decide +kernel
  have hb2 : ∀ e ∈ syntaxTable, e.tag = "ncl" → e.parents = [] := by decide +kernel
  have h0 : ∀ m, ns[0]? = some m → m.tag = "ncl" := by
    intro m hm
    have := hd.laid
    cases this with
    | cons h1 h2 h3 h4 h5 h6 =>
      obtain rfl : _ = m := by simpa using hm
      unfold Note.tag; rw [h2]; exact hd.root
  have hok := hd.ok b m hb
  cases hp : m.parent with
  | none =>
    exfalso
    rcases hd.above b m hb hp with h | ⟨e, h1, h2, h3⟩
    · subst h; rw [h0 m hb] at ht; exact absurd ht (by decide)
    · rw [hb1 e h1 (h2.trans ht)] at h3; revert h3; decide
  | some p =>
    obtain ⟨g1, mp, g2, e, g3, g4, g5⟩ := hok.parent p hp
    rw [hb1 e g3 (g4.trans ht)] at g5
    have g5 : mp.tag = "ncl" := by simpa using g5
    cases hpp : mp.parent with
    | none =>
      rcases hd.above p mp g2 hpp with h | ⟨e, h1, h2, h3⟩
      · rw [h]
      · exfalso; rw [hb2 e h1 (h2.trans g5)] at h3; simp at h3
    | some p' =>
      exfalso
      obtain ⟨-, m2, -, e, k1, k2, k3⟩ := (hd.ok p mp g2).parent p' hpp
      rw [hb2 e k1 (k2.trans g5)] at k3; simp at k3

/-- What is in an element comes before what is in the next one. -/
theorem kids_before (hd : DocTree E scr x T ns f) {a b i j : Nat} (hab : a < b) (ha : parAt ns a = some 0) (hb : parAt ns b = some 0) (hi : parAt ns i = some a) (hj : parAt ns j = some b) : i < j := by
  have hget : ∀ {k p : Nat}, parAt ns k = some p → ∃ m, ns[k]? = some m ∧ m.parent = some p := by
    intro k p h
    unfold parAt at h
    cases hk : ns[k]? with
    | none => rw [hk] at h; cases h
    | some m => rw [hk] at h; exact ⟨m, rfl, h⟩
  obtain ⟨ma, ha1, ha2⟩ := hget ha
  obtain ⟨mb, hb1, hb2⟩ := hget hb
  obtain ⟨mi, hi1, hi2⟩ := hget hi
  obtain ⟨mj, hj1, hj2⟩ := hget hj
  have hia := ((hd.ok i mi hi1).parent a hi2).1
  have hjb := ((hd.ok j mj hj1).parent b hj2).1
  have ha0 := ((hd.ok a ma ha1).parent 0 ha2).1
  have htag : ma.tag ≠ "importBase" := by
    intro hc
    obtain ⟨-, m0, g1, e, g2, g3, g4⟩ := (hd.ok a ma ha1).parent 0 ha2
    have h0 : m0.tag = "ncl" := by
      have := hd.laid
      cases this with
      | cons h1 h2 h3 h4 h5 h6 =>
        obtain rfl : _ = m0 := by simpa using g1
        unfold Note.tag; rw [h2]; exact hd.root
    have : ∀ e ∈ syntaxTable, e.tag = "importBase" → ¬ "ncl" ∈ e.parents := by decide +kernel
    exact this e g2 (g3.trans hc) (by rw [← h0]; exact g4)
  obtain ⟨al, p, l1, r, e1, e2, e3, e4⟩ := hd.laid.segment (by simp) a ma ha1 htag
  rw [Nat.zero_add] at e3 e4
  have hin : ∀ (k : Nat) m, a < k → ns[k]? = some m → (k ≤ a + l1.length ∧ m ∈ l1) ∨ (a + l1.length < k ∧ m ∈ r) := by
    intro k m hk hm
    rw [e1, List.getElem?_append_right (by omega), show k - p.length = (k - a - 1) + 1 by omega, List.getElem?_cons_succ] at hm
    by_cases hc : k - a - 1 < l1.length
    · rw [List.getElem?_append_left hc] at hm
      exact .inl ⟨by omega, List.mem_of_getElem? hm⟩
    · rw [List.getElem?_append_right (by omega)] at hm
      exact .inr ⟨by omega, List.mem_of_getElem? hm⟩
  have h1 : i ≤ a + l1.length := by
    rcases hin i mi hia hi1 with h | ⟨-, h⟩
    · exact h.1
    · have := e4 mi h a hi2; omega
  have h2 : a + l1.length < b := by
    rcases hin b mb hab hb1 with ⟨-, h⟩ | h
    · rcases e3.parent_range mb h with g | g | ⟨q, g, g1, g2⟩
      · rw [hb2] at g; have := Option.some.inj g; omega
      · rw [hb2] at g; cases g
      · rw [hb2] at g; have := Option.some.inj g; omega
    · exact h.1
  omega

/-- At the end: every step but the last ones. -/
theorem stages_end {P : (Nat → Nat) → List Note → List Nat → PS → Prop} {m : Nat} (hinj : ∀ i j, E.addr i = E.addr j → i = j) (he : Ended P E scr z x T ns f m u)
    (hn : NameK E f ns [0] u) (hr : RefK f ns u) (hcl : ClearAt x ns u.reg) {u1 u2 u3 u4 : PS} (hst : Stages E m u u1 u2 u3 u4 T) : AtEnd E scr z x T ns f u u3 ∧ SameLinks u u3 := by
  have hne : ∀ j w, ns[j]? = some w → w.tag ≠ "descriptor" → u1.elt j = u.elt j := by
    intro j w hj hw
    refine hst.f1.other j fun hm => hw ?_
    unfold PS.byTag at hm
    rw [← (he.j.tag hj).1]; simpa using (List.mem_filter.1 hm).2
  have hs1 : Skel u u1 := by rw [hst.f1.state]; exact step_same rfl rfl
  have hs2 : Skel u1 u2 := PRel.forEach (step_pre _) (fun k => PRel.popMediaElt (skel_core E) k) _ _ _ _ hst.media
  have hs3 : Skel u2 u3 := PRel.forEach (step_pre _) (fun k => PRel.popSwitchElt (skel_core E) (fun _ _ => step_same rfl rfl) k) _ _ _ _ hst.switch
  have hl1 : SameLinks u u1 := by rw [hst.f1.state]; rfl
  have hl2 : SameLinks u1 u2 := PRel.forEach (sameLinks_atomic.atom E).toPPre (fun k => PRel.popMediaElt (sameLinks_atomic.atom E).toPCore k) _ _ _ _ hst.media
  have hl3 : SameLinks u2 u3 := PRel.forEach (sameLinks_atomic.atom E).toPPre (fun k => PRel.popSwitchElt (sameLinks_atomic.atom E).toPCore (fun _ _ => rfl) k) _ _ _ _ hst.switch
  refine ⟨⟨he.tree, he.j, he.kc, he.treeK, hn, hr, (hst.f1.like.fixed hst.f2).fixed hst.f3, ?_, (step_pre _).trans hs1 ((step_pre _).trans hs2 hs3), hcl⟩, ?_⟩
  · intro j n hj h1 h2 a
    unfold PS.attr
    rw [hst.f3.elt, hst.f2.elt, hne j n hj h1, he.j.attrs hj h2 h1]; rfl
  · unfold SameLinks at *; rw [hl3, hl2, hl1]

theorem link_parent (hd : DocTree E scr x T ns f) {k : Nat} {m : Note} (hk : ns[k]? = some m) (ht : m.tag = "link") :
    ∃ (mq : Note) (q : Nat), m.parent = some q ∧ ns[q]? = some mq ∧ (mq.tag = "body" ∨ mq.tag = "context") := by
  have hl : ∀ e ∈ syntaxTable, e.tag = "link" → e.parents = ["body", "context"] := by decide +kernel
  cases hp : m.parent with
  | none =>
    exfalso
    rcases hd.above k m hk hp with h | ⟨e, h1, h2, h3⟩
    · subst h
      have := hd.laid
      cases this with
      | cons h1 h2 h3 h4 h5 h6 =>
        obtain rfl : _ = m := by simpa using hk
        have : x.tag = "link" := by rw [← h2]; exact ht
        rw [hd.root] at this; revert this; decide
    · rw [hl e h1 (h2.trans ht)] at h3; revert h3; decide
  | some q =>
    obtain ⟨-, mq, g2, e, g3, g4, g5⟩ := (hd.ok k m hk).parent q hp
    rw [hl e g3 (g4.trans ht)] at g5
    exact ⟨mq, q, rfl, g2, by simpa using g5⟩

theorem object_links {P : (Nat → Nat) → List Note → List Nat → PS → Prop} {m : Nat} (hinj : ∀ i j, E.addr i = E.addr j → i = j) (he : Ended P E scr z x T ns f m u)
    (hn : NameK E f ns [0] u) (hr : RefK f ns u) (hcl : ClearAt x ns u.reg) (hlk : LinkK f ns u) (hfull : StmtFull ns) {o : Nat} {Q : List Nat}
    (hQ : ∀ (k q : Nat) (m : Note), ns[k]? = some m → m.tag = "link" → m.parent = some q → (f q = o ↔ q ∈ Q)) (hQ' : ∀ q ∈ Q, ∃ m, ns[q]? = some m)
    (hs : Q.Pairwise fun a b => ∀ (i j : Nat), parAt ns i = some a → parAt ns j = some b → i < j) :
    Each (fun w L => LinkOf E x T.reg w.1 w.2 L) ((Q.map (xmlAt ns)).flatMap fun c => (c.children.filter fun y => y.tag == "link").map fun l => (c, l)) (T.links o) := by
  obtain ⟨u1, u2, u3, u4, hst⟩ := popNcl_stages he.run
  obtain ⟨π, hpi⟩ := he.pi
  obtain ⟨h1, h2⟩ := stages_end hinj he hn hr hcl hst
  have hbt := byTag_eq he.j he.kc (tag := "link") (by decide) (by decide +kernel)
  obtain ⟨g1, Ls, g2, g3⟩ := links_spec hpi hfull hlk o m (u.byTag "link") u3 h1 (fun k hk => by
    obtain ⟨n, hn1, hn2⟩ := ((byTag_notes he.j he.kc (tag := "link") (by decide) (by decide +kernel)).2 k).1 hk
    obtain ⟨mq, q, a1, a2, a3⟩ := link_parent he.tree hn1 hn2
    exact ⟨n, mq, q, hn1, hn2, a1, a2, a3⟩) _ _ hst.link
  have hE := g3 T (by rw [hst.last]; exact step_same rfl rfl)
  have hTl : T.links o = Ls := by
    rw [hst.last]
    show u4.links o = Ls
    rw [g2, show u3.links = u.links from h2, hlk.links]; rfl
  rw [hTl, ← links_pairs he.tree hQ', ← links_order he.tree hQ hs, ← hbt]
  exact hE

end

end Ginga
