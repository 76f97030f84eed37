import Verif.Proofs.Tree
/-!
# Elements of the main document

The elements that the parser makes, and the elements of the XML tree they come from.
-/
namespace Ginga

/-- The elements of an XML tree. -/
inductive SubElt (x : Xml) : Xml → Prop
  | self : SubElt x x
  | child {p c : Xml} : SubElt x p → c ∈ p.children → SubElt x c

/-- Every element of a list has its number, and so have its children. -/
theorem Laid.item {E : PRead} {al : List (String × String)} {pt : Option String} {par : Option Nat} {k : Nat} {xs : List Xml} {l : List Note}
    (h : Laid E al pt par k xs l) : ∀ y ∈ xs, ∃ (i : Nat) (m : Note) (off : Nat) (l' : List Note), l[i]? = some m ∧ m.xml = y ∧ m.parent = par ∧
      m.pre = aliasPrefix al ∧ Laid E al (some y.tag) (some (k + i)) (k + off) y.children l' ∧ ∀ (j : Nat) n, l'[j]? = some n → l[off + j]? = some n := by
  induction h with
  | nil => intro y hy; cases hy
  | @cons al pt par k x xs n l1 l2 h1 h2 h3 h4 h5 h6 ih1 ih2 =>
    intro y hy
    rcases List.mem_cons.1 hy with rfl | hy
    · refine ⟨0, n, 1, l1, rfl, h2, h3, h4, h5, fun j n' hj => ?_⟩
      rw [Nat.add_comm, List.getElem?_cons_succ, List.getElem?_append_left (getElem?_lt hj)]; exact hj
    · obtain ⟨i, m, off, l', g1, g2, g3, g4, g5, g6⟩ := ih2 y hy
      refine ⟨1 + l1.length + i, m, 1 + l1.length + off, l', ?_, g2, g3, g4, ?_, fun j n' hj => ?_⟩
      · rw [show 1 + l1.length + i = (l1.length + i) + 1 by omega, List.getElem?_cons_succ, List.getElem?_append_right (by omega)]
        simpa using g1
      · rw [show k + (1 + l1.length + i) = k + 1 + l1.length + i by omega, show k + (1 + l1.length + off) = k + 1 + l1.length + off by omega]; exact g5
      · rw [show 1 + l1.length + off + j = (l1.length + (off + j)) + 1 by omega, List.getElem?_cons_succ, List.getElem?_append_right (by omega)]
        simpa using g6 j n' hj
  | @imp al tag par k x xs a d u root head n l1 l2 l3 h1 h2 h3 h4 h5 h6 h7 h8 h9 h10 h11 h12 h13 ih1 ih2 ih3 =>
    intro y hy
    rcases List.mem_cons.1 hy with rfl | hy
    · refine ⟨0, n, 1 + l1.length, l2, rfl, h2, h3, h4, ?_, fun j n' hj => ?_⟩
      · rw [← Nat.add_assoc]; exact h12
      · rw [show 1 + l1.length + j = (l1.length + j) + 1 by omega, List.getElem?_cons_succ, List.append_assoc, List.getElem?_append_right (by omega),
          List.getElem?_append_left (by have := getElem?_lt hj; omega)]
        simpa using hj
    · obtain ⟨i, m, off, l', g1, g2, g3, g4, g5, g6⟩ := ih3 y hy
      refine ⟨1 + l1.length + l2.length + i, m, 1 + l1.length + l2.length + off, l', ?_, g2, g3, g4, ?_, fun j n' hj => ?_⟩
      · rw [show 1 + l1.length + l2.length + i = ((l1 ++ l2).length + i) + 1 by rw [List.length_append]; omega, List.getElem?_cons_succ,
          List.getElem?_append_right (by omega)]
        simpa using g1
      · rw [show k + (1 + l1.length + l2.length + i) = k + 1 + l1.length + l2.length + i by omega,
          show k + (1 + l1.length + l2.length + off) = k + 1 + l1.length + l2.length + off by omega]; exact g5
      · rw [show 1 + l1.length + l2.length + off + j = ((l1 ++ l2).length + (off + j)) + 1 by rw [List.length_append]; omega, List.getElem?_cons_succ,
          List.getElem?_append_right (by omega)]
        simpa using g6 j n' hj

/-- Every element of the tree has its number, and its children have theirs. -/
theorem Laid.inside {E : PRead} {x : Xml} {ns : List Note} (h : Laid E [] none none 0 [x] ns) {y : Xml} (hy : SubElt x y) :
    ∃ (i : Nat) (m : Note) (off : Nat) (l' : List Note), ns[i]? = some m ∧ m.xml = y ∧ m.pre = "" ∧
      Laid E [] (some y.tag) (some i) off y.children l' ∧ ∀ (j : Nat) n, l'[j]? = some n → ns[off + j]? = some n := by
  induction hy with
  | self =>
    obtain ⟨i, m, off, l', g1, g2, g3, g4, g5, g6⟩ := h.item x (by simp)
    rw [Nat.zero_add, Nat.zero_add] at g5
    exact ⟨i, m, off, l', g1, g2, g4, g5, g6⟩
  | child _ hc ih =>
    obtain ⟨i, m, off, l', g1, g2, g3, g4, g5⟩ := ih
    obtain ⟨i2, m2, off2, l2, e1, e2, e3, e4, e5, e6⟩ := g4.item _ hc
    refine ⟨off + i2, m2, off + off2, l2, g5 _ _ e1, e2, e4, e5, fun j n hj => ?_⟩
    rw [Nat.add_assoc]; exact g5 _ _ (e6 j n hj)

/-- A child and its parent have their numbers. -/
theorem Laid.inside_child {E : PRead} {x : Xml} {ns : List Note} (h : Laid E [] none none 0 [x] ns) {p c : Xml} (hp : SubElt x p) (hc : c ∈ p.children) :
    ∃ (i j : Nat) (m n : Note), ns[i]? = some m ∧ m.xml = p ∧ m.pre = "" ∧ ns[j]? = some n ∧ n.xml = c ∧ n.pre = "" ∧ n.parent = some i := by
  obtain ⟨i, m, off, l', g1, g2, g3, g4, g5⟩ := h.inside hp
  obtain ⟨i2, m2, off2, l2, e1, e2, e3, e4, e5, e6⟩ := g4.item _ hc
  exact ⟨i, off + i2, m, m2, g1, g2, g3, g5 _ _ e1, e2, e4, e3⟩

/-- Every numbered element is one of the list, or is a child of a numbered one, or comes from the head of an imported document. -/
theorem Laid.back {E : PRead} {al : List (String × String)} {pt : Option String} {par : Option Nat} {k : Nat} {xs : List Xml} {l : List Note}
    (h : Laid E al pt par k xs l) : ∀ (i : Nat) m, l[i]? = some m → (m.parent = par ∧ m.xml ∈ xs ∧ m.pre = aliasPrefix al) ∨
      (m.parent = none ∧ 0 < i) ∨ ∃ (p : Nat) (n : Note), m.parent = some (k + p) ∧ l[p]? = some n ∧ m.xml ∈ n.xml.children ∧ m.pre = n.pre := by
  induction h with
  | nil => intro i m hm; simp at hm
  | @cons al pt par k x xs n l1 l2 h1 h2 h3 h4 h5 h6 ih1 ih2 =>
    intro i m hm
    cases i with
    | zero => obtain rfl : n = m := by simpa using hm
              exact .inl ⟨h3, by simp [h2], h4⟩
    | succ i =>
      rw [List.getElem?_cons_succ] at hm
      by_cases hi : i < l1.length
      · rw [List.getElem?_append_left hi] at hm
        rcases ih1 i m hm with ⟨g1, g2, g3⟩ | ⟨g, -⟩ | ⟨p, q, g1, g2, g3, g4⟩
        · exact .inr (.inr ⟨0, n, g1, rfl, by rw [h2]; exact g2, by rw [g3, h4]⟩)
        · exact .inr (.inl ⟨g, by omega⟩)
        · refine .inr (.inr ⟨1 + p, q, by rw [g1, ← Nat.add_assoc], ?_, g3, g4⟩)
          rw [Nat.add_comm, List.getElem?_cons_succ, List.getElem?_append_left (getElem?_lt g2)]; exact g2
      · rw [List.getElem?_append_right (by omega)] at hm
        rcases ih2 _ m hm with ⟨g1, g2, g3⟩ | ⟨g, -⟩ | ⟨p, q, g1, g2, g3, g4⟩
        · exact .inl ⟨g1, by simp [g2], g3⟩
        · exact .inr (.inl ⟨g, by omega⟩)
        · refine .inr (.inr ⟨1 + l1.length + p, q, by rw [g1]; congr 1; omega, ?_, g3, g4⟩)
          rw [show 1 + l1.length + p = (l1.length + p) + 1 by omega, List.getElem?_cons_succ, List.getElem?_append_right (by omega)]
          simpa using g2
  | @imp al tag par k x xs a d u root head n l1 l2 l3 h1 h2 h3 h4 h5 h6 h7 h8 h9 h10 h11 h12 h13 ih1 ih2 ih3 =>
    intro i m hm
    cases i with
    | zero => obtain rfl : n = m := by simpa using hm
              exact .inl ⟨h3, by simp [h2], h4⟩
    | succ i =>
      rw [List.getElem?_cons_succ, List.append_assoc] at hm
      by_cases hi : i < l1.length
      · rw [List.getElem?_append_left hi] at hm
        rcases ih1 i m hm with ⟨g1, g2, g3⟩ | ⟨g, -⟩ | ⟨p, q, g1, g2, g3, g4⟩
        · exact .inr (.inl ⟨g1, by omega⟩)
        · exact .inr (.inl ⟨g, by omega⟩)
        · refine .inr (.inr ⟨1 + p, q, by rw [g1, ← Nat.add_assoc], ?_, g3, g4⟩)
          rw [Nat.add_comm, List.getElem?_cons_succ, List.append_assoc, List.getElem?_append_left (getElem?_lt g2)]; exact g2
      · rw [List.getElem?_append_right (by omega)] at hm
        by_cases hi2 : i - l1.length < l2.length
        · rw [List.getElem?_append_left hi2] at hm
          rcases ih2 _ m hm with ⟨g1, g2, g3⟩ | ⟨g, -⟩ | ⟨p, q, g1, g2, g3, g4⟩
          · exact .inr (.inr ⟨0, n, g1, rfl, by rw [h2]; exact g2, by rw [g3, h4]⟩)
          · exact .inr (.inl ⟨g, by omega⟩)
          · refine .inr (.inr ⟨1 + l1.length + p, q, by rw [g1]; congr 1; omega, ?_, g3, g4⟩)
            rw [show 1 + l1.length + p = (l1.length + p) + 1 by omega, List.getElem?_cons_succ, List.append_assoc, List.getElem?_append_right (by omega),
              List.getElem?_append_left (by have := getElem?_lt g2; omega)]
            simpa using g2
        · rw [List.getElem?_append_right (by omega)] at hm
          rcases ih3 _ m hm with ⟨g1, g2, g3⟩ | ⟨g, -⟩ | ⟨p, q, g1, g2, g3, g4⟩
          · exact .inl ⟨g1, by simp [g2], g3⟩
          · exact .inr (.inl ⟨g, by omega⟩)
          · refine .inr (.inr ⟨1 + l1.length + l2.length + p, q, by rw [g1]; congr 1; omega, ?_, g3, g4⟩)
            rw [show 1 + l1.length + l2.length + p = ((l1 ++ l2).length + p) + 1 by rw [List.length_append]; omega, List.getElem?_cons_succ,
              List.getElem?_append_right (by omega)]
            simpa using g2

/-- The elements without a parent: the root, and those that an element of the head can be. -/
def TopK (g : List Note) (_ : List Nat) (_ : PS) : Prop :=
  ∀ (j : Nat) nt, g[j]? = some nt → nt.parent = none → j = 0 ∨ ∃ e ∈ syntaxTable, e.tag = nt.tag ∧ "head" ∈ e.parents

theorem table_noparents : ∀ e ∈ syntaxTable, e.parents = [] → e.tag = "ncl" := by decide +kernel

theorem topK_new {E : PRead} {scr : Rect} {z0 : Nat} {g : List Note} {S : List Nat} {s s2 : PS} {par : Option Nat} {pt : Option String} {x : Xml}
    {e : EltSyn} {r : List (String × String)} {y : SynSt} {nt : Note} (hn : NewElt E scr z0 g S s s2 par pt x e r y nt) {S' : List Nat} {s' : PS} (hk : TopK g S s) :
    TopK (g ++ [nt]) S' s' := by
  intro j n hj hp
  by_cases hlt : j < g.length
  · rw [List.getElem?_append_left hlt] at hj; exact hk j n hj hp
  · rw [List.getElem?_append_right (by omega)] at hj
    have hj0 : j - g.length = 0 := by have := getElem?_lt hj; simp at this; omega
    rw [hj0] at hj
    obtain rfl : nt = n := by simpa using hj
    rw [hn.parent] at hp
    rcases hn.top hp with ⟨-, hg⟩ | ⟨hh, hx⟩
    · left; rw [hg] at hj0; simpa using hj0
    · right
      obtain ⟨hsyn, -, hwf⟩ := checkNode_ok hn.check
      obtain ⟨hwf, -⟩ := hwf rfl
      obtain ⟨e', he', het', hpo, -⟩ := hwf.entry
      have het' : e'.tag = x.tag := het'
      refine ⟨e', he', by unfold Note.tag; rw [het', hn.xml], ?_⟩
      have hne : e'.parents ≠ [] := by
        intro h0
        exact hx (het' ▸ table_noparents e' he' h0)
      obtain ⟨q, hq, hq2⟩ := hpo hne
      have hq2 : pt = some q := hq2
      rw [hh] at hq2; cases hq2; exact hq

theorem topK_rides (E : PRead) (scr : Rect) (z0 : Nat) : Rides E scr z0 TopK where
  same _ _ _ _ _ _ _ hk := hk
  push _ _ _ _ _ _ _ _ _ _ _ _ _ _ hn hk _ _ _ _ := topK_new hn hk
  imp _ _ _ _ _ _ _ _ _ _ _ hn hk _ := topK_new hn hk
  pop _ _ _ _ _ _ _ _ _ _ _ _ hk _ _ _ _ _ := hk

/-- What is known of the elements and the objects of an accepted document. -/
structure DocTree (E : PRead) (scr : Rect) (x : Xml) (t : PS) (ns : List Note) (f : Nat → Nat) : Prop where
  root : x.tag = "ncl"
  laid : Laid E [] none none 0 [x] ns
  ok : ∀ (j : Nat) nt, ns[j]? = some nt → NoteOk E scr ns j nt
  above : ∀ (j : Nat) nt, ns[j]? = some nt → nt.parent = none → j = 0 ∨ ∃ e ∈ syntaxTable, e.tag = nt.tag ∧ "head" ∈ e.parents
  world : WorldOf E t
  once : ∀ (a b : Nat) (m n : Note) i, ns[a]? = some m → ns[b]? = some n → m.tag ≠ "link" → n.tag ≠ "link" → m.get "id" = some i → n.get "id" = some i → a = b
  top : ∀ (k : Nat) nt, ns[k]? = some nt → nt.tag = "ncl" ∨ nt.tag = "body" → f k = t.reg.root
  made : ∀ (k : Nat) nt kd, ns[k]? = some nt → nt.kind = some kd → ∃ i q, nt.get "id" = some i ∧ nt.parent = some q ∧ t.reg.node (f k) i kd (some (f q))
  back : ∀ o id k p, t.reg.node o id k p → o = t.reg.root ∨ t.reg.settings = some o ∨ ∃ (j : Nat) (nt : Note), ns[j]? = some nt ∧ nt.kind.isSome = true ∧ f j = o

/-- The state at the end of the root element, and after it. -/
structure Ended (P : (Nat → Nat) → List Note → List Nat → PS → Prop) (E : PRead) (scr : Rect) (z : Nat) (x : Xml) (t : PS) (ns : List Note) (f : Nat → Nat)
    (m : Nat) (u : PS) : Prop where
  tree : DocTree E scr x t ns f
  j : J E scr z ns u
  kc : KC ns u
  pi : ∃ π, PI ns [] π u
  treeK : TreeK E f ns [0] u
  extra : P f ns [0] u
  run : popNcl E m u = .ok (some ((), t))

theorem doc_treeP {P : (Nat → Nat) → List Note → List Nat → PS → Prop} {E : PRead} (hinj : ∀ i j, E.addr i = E.addr j → i = j) {n : Nat} {W H : Int}
    {z : Nat} {x : Xml} {t : PS} (hP : Extra E ⟨0, 0, W, H⟩ z P)
    (hK : ∀ f reg, newDoc (E.addr 0) (E.addr 1) (E.addr 2) (E.addr 3) (E.addr 4) = .ok reg → P f [] [] (PS.init W H z reg 5))
    (h : parseXml E n W H z x = .ok (some t)) : ∃ ns f m u, Ended P E ⟨0, 0, W, H⟩ z x t ns f m u := by
  obtain ⟨ns, m, u, h1, h2, h3, h4, h5, h6⟩ := root_laidK (extra_rides hinj ((topK_rides E _ _).extra.and hP))
    (fun reg hreg => by
      obtain ⟨f, hf⟩ := tree_init hinj W H z hreg
      exact ⟨f, hf, fun j nt hj => by simp at hj, hK f reg hreg⟩) h
  obtain ⟨f, hk, ht, hp⟩ := h5.k
  have hst : OStep E u t := PRel.popNcl (ostep_atom hinj) (fun _ _ => ostep_same rfl rfl rfl rfl) (fun _ _ _ => ostep_same rfl rfl rfl rfl) m (fun _ => trivial) ⟨trivial, trivial, trivial⟩ u _ _ h6
  obtain ⟨w, k⟩ := hst.2 hk.world
  refine ⟨ns, f, m, u, ⟨h1, h4, fun j nt hj => h5.j.ok j nt hj, ht, w, hk.once, ?_, ?_, ?_⟩, h5.j, h5.kc, h5.pi, hk, hp, h6⟩
  · intro j nt hj ht; rw [k.2.1]; exact hk.top j nt hj ht
  · intro j nt kd hj ht
    obtain ⟨i, q, g1, g2, g3⟩ := hk.made j nt kd hj ht
    exact ⟨i, q, g1, g2, k.1 _ _ _ _ g3⟩
  · intro o id kd p hno
    rw [k.2.1, k.2.2.1]
    rcases k.2.2.2 _ _ _ _ hno with h' | h'
    · exact hk.back _ _ _ _ h'
    · cases h'

theorem doc_tree {E : PRead} (hinj : ∀ i j, E.addr i = E.addr j → i = j) {n : Nat} {W H : Int} {z : Nat} {x : Xml} {t : PS}
    (h : parseXml E n W H z x = .ok (some t)) : ∃ ns f, DocTree E ⟨0, 0, W, H⟩ x t ns f := by
  obtain ⟨ns, f, m, u, hd⟩ := doc_treeP hinj (Extra.triv E _ _) (fun _ _ _ => trivial) h
  exact ⟨ns, f, hd.tree⟩

/-- An attribute of an element of the main document. -/
theorem Note.get_main {E : PRead} {scr : Rect} {g : List Note} {j : Nat} {n : Note} (h : NoteOk E scr g j n) (hp : n.pre = "") (a : String)
    (ha : n.tag ≠ "link" ∨ a ≠ "id") : n.get a = n.xml.prop a := by
  obtain ⟨e, he, hat⟩ := h.syn
  obtain ⟨hm, hm2⟩ := syntaxOf_mem he
  unfold Note.get
  rw [hp] at hat
  cases hx : n.xml.prop a with
  | some i =>
    obtain ⟨fl, hfl⟩ := hat.declared hx
    rw [hat.given _ fl i hfl hx]
    unfold qualify
    simp
  | none =>
    by_cases hd : a ∈ e.attrs.map Prod.fst
    · obtain ⟨q, hq, rfl⟩ := List.mem_map.1 hd
      refine hat.absent q.1 q.2 hq hx ?_
      rintro ⟨h1, h2⟩
      rcases ha with ha | ha
      · exact ha (hm2 ▸ table_gen e hm h2)
      · exact ha h1
    · exact hat.other _ hd

end Ginga
