import Verif.Proofs.LinkAll
/-!
# C53: the links of a context are those of the document

Each link element of an accepted document gives one link of the object of the context (or body) it is in, in document order: with one condition or action
for each bind of a role of the connector it names, on the event that the bind names, and nothing else.
-/
namespace Ginga

theorem Each.unmap {α β γ : Type} {R : γ → β → Prop} {f : α → γ} : ∀ {l : List α} {m : List β}, Each R (l.map f) m → Each (fun a b => R (f a) b) l m
  | [], _, h => by cases h; exact .nil
  | a :: l, _, h => by
    cases h with
    | cons h1 h2 => exact .cons h1 h2.unmap

/-- Every context, and the body: one link for each link element, in document order. (A document may have more than one body: they share the root object.) -/
theorem C53_all {E : PRead} (hinj : ∀ i j, E.addr i = E.addr j → i = j) {n : Nat} {W H : Int} {z : Nat} {x : Xml} {t : PS} (h : parseXml E n W H z x = .ok (some t)) :
    (∀ c, SubElt x c → c.tag = "context" → ∃ i o, c.prop "id" = some i ∧ t.reg.getById i = some o ∧
      Each (LinkOf E x t.reg c) (c.children.filter fun y => y.tag == "link") (t.links o)) ∧
    Each (fun w L => LinkOf E x t.reg w.1 w.2 L) ((x.children.filter fun c => c.tag == "body").flatMap fun c => (c.children.filter fun y => y.tag == "link").map fun l => (c, l))
      (t.links t.reg.root) := by
  obtain ⟨ns, f, m, u, he⟩ := doc_treeP hinj ((idK_extra hinj _ _).and ((rulesK_extra hinj _ _).and ((linkK_extra E _ _).and (stmtK_rides E _ _).extra))) (fun f reg hreg => ⟨idK_init hinj W H z hreg, rulesK_init hinj hreg, linkK_init f W H z reg 5, fun j n hj => by simp at hj⟩) h
  have hd := he.tree
  obtain ⟨hid, ⟨⟨hn, hr⟩, -⟩, hlk, hst⟩ := he.extra
  have hcl := (clear_end hinj he hid).1
  have hfull := hst.full hd
  have hctx : ∀ {k : Nat} {nt : Note}, ns[k]? = some nt → nt.tag = "context" → ∃ i q, nt.get "id" = some i ∧ nt.parent = some q ∧ t.reg.node (f k) i .context (some (f q)) :=
    fun hk ht => hd.made _ _ .context hk (by unfold Note.kind; rw [ht]; simp)
  have hroot : ∀ {k : Nat} {nt : Note}, ns[k]? = some nt → nt.tag = "context" → f k ≠ t.reg.root := by
    intro k nt hk ht hc
    obtain ⟨i, q, a1, a2, X, a3, a4, a5, a6⟩ := hctx hk ht
    obtain ⟨Y, b1, b2, -⟩ := hd.world.tree.root
    rw [← hc, a3.2] at b1
    cases b1
    rw [b2] at a6; cases a6
  constructor
  · intro c hc ht
    obtain ⟨k, nt, -, -, g1, g2, g3, -, -⟩ := hd.laid.inside hc
    have htag : nt.tag = "context" := by unfold Note.tag; rw [g2]; exact ht
    obtain ⟨i, q, a1, a2, a3⟩ := hctx g1 htag
    refine ⟨i, f k, ?_, a3.byId hd.world.inv, ?_⟩
    · rw [← g2, ← Note.get_main (hd.ok k nt g1) g3 "id" (.inl (by rw [htag]; decide))]; exact a1
    · have := object_links hinj he hn hr hcl hlk hfull (o := f k) (Q := [k]) (fun j q' w hj hw hp => ?_) (by simp [g1]) (by simp)
      · rw [List.map_cons, show xmlAt ns k = c by unfold xmlAt; rw [g1]; exact g2] at this
        rw [List.map_nil, List.flatMap_cons, List.flatMap_nil, List.append_nil] at this
        exact this.unmap
      · obtain ⟨mq, q2, b1, b2, b3⟩ := link_parent hd hj hw
        rw [hp] at b1; cases b1
        rw [List.mem_singleton]
        refine ⟨fun hf => ?_, fun hq => by rw [hq]⟩
        rcases b3 with b3 | b3
        · exact absurd (hf.symm.trans (hd.top q' mq b2 (.inr b3))) (hroot g1 htag)
        · obtain ⟨i', p', c1, -, c3⟩ := hctx b2 b3
          rw [hf] at c3
          have := (a3.uniq c3).1
          subst this
          exact hd.once q' k mq nt i b2 g1 (by rw [b3]; decide) (by rw [htag]; decide) c1 a1
  · obtain ⟨n0, h0⟩ : ∃ n0, ns[0]? = some n0 ∧ n0.xml = x := by
      have := hd.laid
      cases this with
      | cons h1 h2 h3 h4 h5 h6 => exact ⟨_, rfl, h2⟩
    have hB : ∀ w ∈ (kidNotes 0 0 ns).filter fun w => w.2.tag == "body", ns[w.1]? = some w.2 ∧ w.2.tag = "body" ∧ parAt ns w.1 = some 0 := by
      intro w hw
      obtain ⟨hw1, hw2⟩ := List.mem_filter.1 hw
      obtain ⟨e1, e2⟩ := kid_main hd hw1
      exact ⟨e1, by simpa using hw2, by unfold parAt; rw [e1]; exact e2⟩
    have := object_links hinj he hn hr hcl hlk hfull (o := t.reg.root) (Q := ((kidNotes 0 0 ns).filter fun w => w.2.tag == "body").map Prod.fst) (fun j q w hj hw hp => ?_) ?_ ?_
    · rw [List.map_map] at this
      have hx : x.children.filter (fun c => c.tag == "body") = ((kidNotes 0 0 ns).filter fun w => w.2.tag == "body").map (xmlAt ns ∘ Prod.fst) := by
        rw [← h0.2, ← hd.kids h0.1, List.filter_map]
        refine List.map_congr_left fun w hw => ?_
        show w.2.xml = xmlAt ns w.1
        unfold xmlAt; rw [(hB w hw).1]
      rw [hx]; exact this
    · obtain ⟨mq, q2, b1, b2, b3⟩ := link_parent hd hj hw
      rw [hp] at b1; cases b1
      rw [List.mem_map]
      constructor
      · intro hf
        rcases b3 with b3 | b3
        · refine ⟨(q, mq), List.mem_filter.2 ⟨kidNotes_mem.2 ⟨by omega, by simpa using b2, body_parent hd b2 b3⟩, by simpa using b3⟩, rfl⟩
        · exact absurd hf (hroot b2 b3)
      · rintro ⟨w, hw, rfl⟩
        obtain ⟨e1, e2, -⟩ := hB w hw
        exact hd.top _ _ e1 (.inr e2)
    · intro q hq
      obtain ⟨w, hw, rfl⟩ := List.mem_map.1 hq
      exact ⟨_, (hB w hw).1⟩
    · rw [List.pairwise_map]
      have hp := List.Pairwise.filter (fun w => w.2.tag == "body") (kidNotes_sorted 0 0 ns)
      refine List.Pairwise.imp_of_mem ?_ hp
      intro a b ha hb hab i j hi hj
      exact kids_before hd hab (hB a ha).2.2 (hB b hb).2.2 hi hj

/-- A document with a link in the body that starts a media in the context `c` through its port, and a link in `c`, guarded by an assessment. -/
def docTwoLinks (stmts : List Xml) : Xml := .elem "ncl" [] [
  .elem "head" [] [.elem "connectorBase" [] [
    .elem "causalConnector" [("id", "k1")] [.elem "simpleCondition" [("role", "onBegin")] [], .elem "simpleAction" [("role", "start"), ("delay", "$d")] []],
    .elem "causalConnector" [("id", "k2")] [.elem "compoundCondition" [("operator", "and")] (.elem "simpleCondition" [("role", "onSelection"), ("key", "RED")] [] :: stmts),
      .elem "simpleAction" [("role", "stop")] []]]],
  .elem "body" [] [.elem "media" [("id", "m")] [.elem "area" [("id", "a"), ("begin", "1s")] []],
    .elem "context" [("id", "c")] [.elem "port" [("id", "p"), ("component", "n")] [], .elem "media" [("id", "n")] [.elem "property" [("name", "x"), ("value", "1")] []],
      .elem "link" [("xconnector", "k2")] ([.elem "bind" [("role", "onSelection"), ("component", "n")] [], .elem "bind" [("role", "stop"), ("component", "c")] []] ++
        if stmts = [] then [] else [.elem "bind" [("role", "t"), ("component", "n"), ("interface", "x")] []])],
    .elem "link" [("xconnector", "k1")] [.elem "linkParam" [("name", "d"), ("value", "3s")] [], .elem "bind" [("role", "onBegin"), ("component", "m"), ("interface", "a")] [],
      .elem "bind" [("role", "start"), ("component", "c"), ("interface", "p")] []]]]

/-- A test of the property bound by `t`. -/
def testOne : List Xml := [.elem "assessmentStatement" [("comparator", "eq")] [.elem "attributeAssessment" [("role", "t"), ("eventType", "attribution")] [],
  .elem "valueAssessment" [("value", "1")] []]]

/-- The event of type `ty` and name `id` of the object with identifier `i`. -/
def evAt (t : PS) (i : String) (ty : EType) (id : String) : Option Nat := ((t.reg.getById i).bind fun o => (t.reg.obj o).bind fun X => X.getEvent ty id).map Prod.fst

/-- The predicate is the test `$n.x == 1`. -/
def predIs : Option Pred → Bool
  | some (.atom "$n.x" .eq "1") => true
  | _ => false

/-- The hypotheses are met: this document is accepted; the link of the body goes from the area of `m` to the media `n`, through the port; that of `c` from the key of
`n` to `c` itself, with a predicate on the property bound. -/
example : parsedAnd (parseXml pread0 20 800 600 0 (docTwoLinks testOne)) (fun t =>
    (t.links t.reg.root).map (fun L => (L.conds.map fun a => some a.ev, L.acts.map fun a => (some a.ev, a.tr, a.delay))) ==
      [([evAt t "m" .presentation "a"], [(evAt t "n" .presentation "@lambda", .start, "3s")])] &&
    match t.reg.getById "c" with
    | some o => (t.links o).map (fun L => (L.conds.map fun a => (some a.ev, predIs a.pred), L.acts.map fun a => (some a.ev, a.tr))) ==
        [([(evAt t "n" .selection "RED", true)], [(evAt t "c" .presentation "@lambda", .stop)])]
    | none => false) = true := by decide +kernel

end Ginga
