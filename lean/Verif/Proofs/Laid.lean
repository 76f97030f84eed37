import Verif.Proofs.Preds
/-!
# The elements made from a document

`processNode_laid`: the elements that the parser makes for a list of XML elements are laid out in document order (`Laid`), and each
holds what the XML says (`Inv`).
-/
namespace Ginga

/-- The notes of a list of siblings, numbered from `k`: document order, imported bases after the importing element. -/
inductive Laid (E : PRead) : List (String × String) → Option String → Option Nat → Nat → List Xml → List Note → Prop
  | nil (al pt par k) : Laid E al pt par k [] []
  | cons {al pt par k x xs n l1 l2} : x.tag ≠ "importBase" → n.xml = x → n.parent = par → n.pre = aliasPrefix al →
      Laid E al (some x.tag) (some k) (k + 1) x.children l1 → Laid E al pt par (k + 1 + l1.length) xs l2 →
      Laid E al pt par k (x :: xs) (n :: (l1 ++ l2))
  | imp {al tag par k x xs a d u root head n l1 l2 l3} : x.tag = "importBase" → n.xml = x → n.parent = par → n.pre = aliasPrefix al →
      x.prop "alias" = some a → x.prop "documentURI" = some d → E.importUri (baseUri E al) d = .ok u →
      (∀ p ∈ al, p.2 ≠ u) → E.file u = some root → (root.findAll "head").head? = some head →
      Laid E (al ++ [(a, u)]) (some "head") none (k + 1) (importedBases head tag) l1 →
      Laid E al (some x.tag) (some k) (k + 1 + l1.length) x.children l2 →
      Laid E al (some tag) par (k + 1 + l1.length + l2.length) xs l3 →
      Laid E al (some tag) par k (x :: xs) (n :: (l1 ++ l2 ++ l3))

theorem Laid.append {E : PRead} {al : List (String × String)} {pt : Option String} {par : Option Nat} {k : Nat} {x : Xml} {xs : List Xml} {a b : List Note}
    (h : Laid E al pt par k [x] a) (h' : Laid E al pt par (k + a.length) xs b) : Laid E al pt par k (x :: xs) (a ++ b) := by
  cases h with
  | cons h1 h2 h3 h4 h5 h6 =>
    cases h6
    rw [List.append_nil, List.cons_append]
    refine .cons h1 h2 h3 h4 h5 ?_
    simpa [Nat.add_assoc, Nat.add_comm, Nat.add_left_comm] using h'
  | imp h1 h2 h3 h4 h5 h6 h7 h8 h9 h10 h11 h12 h13 =>
    cases h13
    rw [List.append_nil, List.cons_append]
    refine .imp h1 h2 h3 h4 h5 h6 h7 h8 h9 h10 h11 h12 ?_
    simpa [Nat.add_assoc, Nat.add_comm, Nat.add_left_comm] using h'

theorem Laid.parents {E : PRead} {al : List (String × String)} {pt : Option String} {par : Option Nat} {k : Nat} {xs : List Xml} {l : List Note}
    (h : Laid E al pt par k xs l) : ∀ m ∈ l, m.parent = par ∨ ∀ p, m.parent = some p → k ≤ p := by
  induction h with
  | nil => intro m hm; simp at hm
  | cons h1 h2 h3 h4 h5 h6 ih1 ih2 =>
    intro m hm
    rcases List.mem_cons.1 hm with rfl | hm
    · exact .inl h3
    rcases List.mem_append.1 hm with hm | hm
    · rcases ih1 m hm with h | h
      · exact .inr fun p hp => by rw [h] at hp; exact Nat.le_of_eq (by simpa using hp)
      · exact .inr fun p hp => by have := h p hp; omega
    · rcases ih2 m hm with h | h
      · exact .inl h
      · exact .inr fun p hp => by have := h p hp; omega
  | imp h1 h2 h3 h4 h5 h6 h7 h8 h9 h10 h11 h12 h13 ih1 ih2 ih3 =>
    intro m hm
    rcases List.mem_cons.1 hm with rfl | hm
    · exact .inl h3
    rcases List.mem_append.1 hm with hm | hm
    · rcases List.mem_append.1 hm with hm | hm
      · rcases ih1 m hm with h | h
        · exact .inr fun p hp => by rw [h] at hp; simp at hp
        · exact .inr fun p hp => by have := h p hp; omega
      · rcases ih2 m hm with h | h
        · exact .inr fun p hp => by rw [h] at hp; exact Nat.le_of_eq (by simpa using hp)
        · exact .inr fun p hp => by have := h p hp; omega
    · rcases ih3 m hm with h | h
      · exact .inl h
      · exact .inr fun p hp => by have := h p hp; omega

/-! ## The cache -/

/-- Elements of this tag are kept in the cache (import elements too, but in another order). -/
def cachedTag (t : String) : Bool := t != "importBase" && (match syntaxOf t with | some e => e.cache | none => false)
/-- The tag of an element. -/
def tagAt (g : List Note) (k : Nat) : String := match g[k]? with | some n => n.tag | none => ""

/-- The cache holds the elements of the cached tags, in document order. -/
structure KC (g : List Note) (s : PS) : Prop where
  lt : ∀ k ∈ s.cache, k < g.length
  eq : s.cache.filter (fun k => tagAt g k != "importBase") = (List.range g.length).filter fun k => cachedTag (tagAt g k)

theorem tagAt_append {g : List Note} (l : List Note) {k : Nat} (h : k < g.length) : tagAt (g ++ l) k = tagAt g k := by
  unfold tagAt; rw [List.getElem?_append_left h]

theorem KC.congr {g : List Note} {s t : PS} (h : KC g s) (h1 : t.cache = s.cache) : KC g t := ⟨h1 ▸ h.lt, h1 ▸ h.eq⟩

/-- A new element that is added to the cache, if it is to be. -/
theorem KC.add {g : List Note} {s t : PS} {n : Note} (h : KC g s) (hn : n.tag ≠ "importBase")
    (h1 : t.cache = if cachedTag n.tag then s.cache ++ [g.length] else s.cache) : KC (g ++ [n]) t := by
  have hk : tagAt (g ++ [n]) g.length = n.tag := by simp [tagAt]
  have h2 : s.cache.filter (fun k => tagAt (g ++ [n]) k != "importBase") = s.cache.filter (fun k => tagAt g k != "importBase") :=
    List.filter_congr fun k hk => by rw [tagAt_append _ (h.lt k hk)]
  have h3 : (List.range g.length).filter (fun k => cachedTag (tagAt (g ++ [n]) k)) = (List.range g.length).filter fun k => cachedTag (tagAt g k) :=
    List.filter_congr fun k hk => by rw [tagAt_append _ (List.mem_range.1 hk)]
  constructor
  · intro k hk
    rw [h1] at hk
    simp only [List.length_append, List.length_cons, List.length_nil]
    split at hk
    · rcases List.mem_append.1 hk with hk | hk
      · have := h.lt k hk; omega
      · have : k = g.length := by simpa using hk
        omega
    · have := h.lt k hk; omega
  · rw [List.length_append, List.length_cons, List.length_nil, List.range_succ, List.filter_append, h3, ← h.eq, h1]
    split
    · rename_i hc
      rw [List.filter_append, h2]
      simp [hk, hn, hc]
    · rename_i hc
      rw [h2]
      simp [hk, hc]

/-- A new import element. -/
theorem KC.addImport {g : List Note} {s : PS} {n : Note} (h : KC g s) (hn : n.tag = "importBase") : KC (g ++ [n]) s := by
  have hk : tagAt (g ++ [n]) g.length = n.tag := by simp [tagAt]
  have h2 : s.cache.filter (fun k => tagAt (g ++ [n]) k != "importBase") = s.cache.filter (fun k => tagAt g k != "importBase") :=
    List.filter_congr fun k hk => by rw [tagAt_append _ (h.lt k hk)]
  have h3 : (List.range g.length).filter (fun k => cachedTag (tagAt (g ++ [n]) k)) = (List.range g.length).filter fun k => cachedTag (tagAt g k) :=
    List.filter_congr fun k hk => by rw [tagAt_append _ (List.mem_range.1 hk)]
  constructor
  · intro k hk
    have := h.lt k hk
    simp; omega
  · rw [List.length_append, List.length_cons, List.length_nil, List.range_succ, List.filter_append, h3, ← h.eq, h2]
    simp [hk, hn, cachedTag]

/-- An import element is added to the cache. -/
theorem KC.cacheImport {g : List Note} {s : PS} {k : Nat} (h : KC g s) (hk : tagAt g k = "importBase") : KC g { s with cache := s.cache ++ [k] } := by
  constructor
  · intro j hj
    rcases List.mem_append.1 hj with hj | hj
    · exact h.lt j hj
    · obtain rfl : j = k := by simpa using hj
      unfold tagAt at hk
      split at hk
      · rename_i h1; exact getElem?_lt h1
      · simp at hk
  · show (s.cache ++ [k]).filter _ = _
    rw [List.filter_append, h.eq]
    simp [hk]

/-! ## Connectors and regions -/

/-- The elements below a connector. -/
def connTags : List String := ["connectorParam", "compoundCondition", "simpleCondition", "compoundAction", "simpleAction", "compoundStatement",
  "assessmentStatement", "attributeAssessment", "valueAssessment"]

theorem table_connTags : ∀ e ∈ syntaxTable, ∀ p ∈ e.parents, p = "causalConnector" ∨ p ∈ connTags → e.tag ∈ connTags := by decide +kernel
theorem table_region : ∀ e ∈ syntaxTable, "region" ∈ e.parents → e.tag = "region" := by decide +kernel
theorem table_bases : ∀ e ∈ syntaxTable, (e.tag = "causalConnector" → e.parents = ["connectorBase"]) ∧
    (e.tag = "importBase" → ∀ p ∈ e.parents, p ∈ ["connectorBase", "descriptorBase", "regionBase", "ruleBase", "transitionBase", "fontBase"]) := by decide +kernel

theorem J.connTag {E : PRead} {scr : Rect} {z0 : Nat} {g : List Note} {s : PS} (h : J E scr z0 g s) : ∀ (k j : Nat) (n : Note), j < k →
    g[j]? = some n → n.conn ≠ none → n.tag ∈ connTags
  | 0, j, _, hj, _, _ => by omega
  | k + 1, j, n, hj, hn, hc => by
    have hok := h.ok j n hn
    cases hp : n.parent with
    | none => rw [hok.conn, hp] at hc; exact absurd rfl hc
    | some p =>
      obtain ⟨hpj, m, hm, e, he, het, hme⟩ := hok.parent p hp
      rw [hok.conn, hp] at hc
      simp only [connFor, hm] at hc
      rw [← het]
      refine table_connTags e he m.tag hme ?_
      split at hc
      · rename_i ht; exact .inl ht
      · exact .inr (h.connTag k p m (by omega) hm hc)

theorem J.rectTag {E : PRead} {scr : Rect} {z0 : Nat} {g : List Note} {s : PS} (h : J E scr z0 g s) : ∀ (k j : Nat) (n : Note), j < k →
    g[j]? = some n → n.rect ≠ scr → n.tag = "region"
  | 0, j, _, hj, _, _ => by omega
  | k + 1, j, n, hj, hn, hc => by
    apply Classical.byContradiction
    intro ht
    have hok := h.ok j n hn
    rw [hok.other ht] at hc
    cases hp : n.parent with
    | none => rw [hp] at hc; exact absurd rfl hc
    | some p =>
      obtain ⟨hpj, m, hm, e, he, het, hme⟩ := hok.parent p hp
      rw [hp] at hc
      simp only [rectFor, hm] at hc
      have := h.rectTag k p m (by omega) hm hc
      rw [this] at hme
      exact ht (het ▸ table_region e he hme)

/-! ## Processing of nodes -/

/-- The parser has checked the XML element `x` and made the element with the number `s.nelt` for it. -/
structure NewElt (E : PRead) (scr : Rect) (z0 : Nat) (g : List Note) (S : List Nat) (s s2 : PS) (par : Option Nat) (pt : Option String) (x : Xml)
    (e : EltSyn) (r : List (String × String)) (y : SynSt) (nt : Note) : Prop where
  j : J E scr z0 g s
  check : checkNode true (aliasPrefix s.aliases) pt x s.syn = .ok (some (e, r, y))
  up : ∀ p, par = some p → p < g.length ∧ S.head? = some p ∧ ∃ m, g[p]? = some m ∧ m.tag ∈ e.parents
  top : par = none → (pt = none ∧ g = []) ∨ (pt = some "head" ∧ x.tag ≠ "ncl")
  state : s2 = { s with syn := y, elt := upd s.elt s.nelt { tag := x.tag, parent := par, attrs := r }, nelt := s.nelt + 1 }
  pre : nt.pre = aliasPrefix s.aliases
  parent : nt.parent = par
  xml : nt.xml = x
  attrs : nt.attrs = r

/-- A property of the parser state, given the elements so far and those that are open (innermost first), that the processing of elements keeps. -/
structure Rides (E : PRead) (scr : Rect) (z0 : Nat) (K : List Note → List Nat → PS → Prop) : Prop where
  same : ∀ g S s y al ca, (∀ a ∈ s.syn.unique, a ∈ y.unique) → K g S s → K g S { s with syn := y, aliases := al, cache := ca }
  push : ∀ g S s s2 par pt x e r y nt proc a t, NewElt E scr z0 g S s s2 par pt x e r y nt → K g S s → e.push ≠ .importBase →
    push E proc e.push s.nelt s2 = .ok (some (a, t)) → Pushed E e.push s2 t s.nelt → J E scr z0 (g ++ [nt]) t → K (g ++ [nt]) (s.nelt :: S) t
  imp : ∀ g S s s2 par pt x e r y nt, NewElt E scr z0 g S s s2 par pt x e r y nt → K g S s → e.push = .importBase → K (g ++ [nt]) (s.nelt :: S) s2
  pop : ∀ g O S s k nt e n a t, J E scr z0 g s → ((∃ π, PI g O π s) ∧ KC g s) → K g (k :: S) s → g[k]? = some nt → syntaxOf nt.tag = some e → e.pop ≠ .ncl →
    pop E n e.pop k s = .ok (some (a, t)) → Popped e.pop s t k → K g S t

theorem Rides.triv (E : PRead) (scr : Rect) (z0 : Nat) : Rides E scr z0 (fun _ _ _ => True) :=
  ⟨by intros; trivial, by intros; trivial, by intros; trivial, by intros; trivial⟩

theorem Rides.and {E : PRead} {scr : Rect} {z0 : Nat} {K L : List Note → List Nat → PS → Prop} (h : Rides E scr z0 K) (h' : Rides E scr z0 L) :
    Rides E scr z0 (fun g S s => K g S s ∧ L g S s) where
  same g S s y al ca hu hk := ⟨h.same g S s y al ca hu hk.1, h'.same g S s y al ca hu hk.2⟩
  push g S s s2 par pt x e r y nt proc a t hn hk h1 h2 h3 h4 :=
    ⟨h.push g S s s2 par pt x e r y nt proc a t hn hk.1 h1 h2 h3 h4, h'.push g S s s2 par pt x e r y nt proc a t hn hk.2 h1 h2 h3 h4⟩
  imp g S s s2 par pt x e r y nt hn hk h1 := ⟨h.imp g S s s2 par pt x e r y nt hn hk.1 h1, h'.imp g S s s2 par pt x e r y nt hn hk.2 h1⟩
  pop g O S s k nt e n a t hj hp hk h1 h2 h3 h4 h5 :=
    ⟨h.pop g O S s k nt e n a t hj hp hk.1 h1 h2 h3 h4 h5, h'.pop g O S s k nt e n a t hj hp hk.2 h1 h2 h3 h4 h5⟩

/-- All that is known of the parser state. -/
structure InvK (K : List Note → List Nat → PS → Prop) (E : PRead) (scr : Rect) (z0 : Nat) (g : List Note) (O S : List Nat) (s : PS) : Prop where
  j : J E scr z0 g s
  kc : KC g s
  pi : ∃ π, PI g O π s
  k : K g S s

/-- The current connector and rectangles are those of the children of `par`. -/
structure Ctx (scr : Rect) (g : List Note) (par : Option Nat) (s : PS) : Prop where
  conn : s.conn = connFor g par
  rect : s.rects.head? = some (rectFor scr g par)
  last : s.rects.getLast? = some scr
  lt : ∀ p, par = some p → p < g.length

/-- The result of processing siblings. -/
structure Done (K : List Note → List Nat → PS → Prop) (E : PRead) (scr : Rect) (z0 : Nat) (pt : Option String) (par : Option Nat) (g : List Note) (O S : List Nat) (xs : List Xml) (ns : List Note)
    (s t : PS) : Prop where
  laid : Laid E s.aliases pt par g.length xs ns
  inv : InvK K E scr z0 (g ++ ns) O S t
  conn : t.conn = s.conn
  rects : t.rects = s.rects
  aliases : t.aliases = s.aliases

theorem Ctx.next {scr : Rect} {g : List Note} {par : Option Nat} {s t : PS} (h : Ctx scr g par s) (ns : List Note) (h1 : t.conn = s.conn)
    (h2 : t.rects = s.rects) : Ctx scr (g ++ ns) par t :=
  ⟨by rw [h1, h.conn, connFor_append ns h.lt], by rw [h2, h.rect, rectFor_append ns h.lt], by rw [h2, h.last],
    fun p hp => by have := h.lt p hp; simp; omega⟩

theorem laid_forEach {K : List Note → List Nat → PS → Prop} {S : List Nat} {E : PRead} {scr : Rect} {z0 : Nat} {pt : Option String} {par : Option Nat} {O : List Nat} {f : Xml → PM Unit} : ∀ (xs : List Xml),
    ∀ (g : List Note) (s : PS),
    (∀ x ∈ xs, ∀ (l : List Note) s, InvK K E scr z0 (g ++ l) O S s → Ctx scr (g ++ l) par s →
      PPost (f x) (fun _ t => ∃ ns, Done K E scr z0 pt par (g ++ l) O S [x] ns s t) s) →
    InvK K E scr z0 g O S s → Ctx scr g par s → PPost (PM.forEach f xs) (fun _ t => ∃ ns, Done K E scr z0 pt par g O S xs ns s t) s
  | [], g, s, _, hi, hc => PPost.pure' ⟨[], .nil _ _ _ _, by rw [List.append_nil]; exact hi, rfl, rfl, rfl⟩
  | x :: xs, g, s, hf, hi, hc => by
    refine PPost.bind' ?_
    have h0 := hf x (by simp) [] s (by rw [List.append_nil]; exact hi) (by rw [List.append_nil]; exact hc)
    rw [List.append_nil] at h0
    refine h0.mono ?_
    rintro _ t ⟨n1, hd1⟩
    refine (laid_forEach (pt := pt) xs (g ++ n1) t ?_ hd1.inv (hc.next n1 hd1.conn hd1.rects)).mono ?_
    · intro y hy l u hi' hc'
      have := hf y (by simp [hy]) (n1 ++ l) u (by rw [← List.append_assoc]; exact hi') (by rw [← List.append_assoc]; exact hc')
      rw [← List.append_assoc] at this
      exact this
    · rintro _ u ⟨n2, hd2⟩
      refine ⟨n1 ++ n2, ?_, by rw [← List.append_assoc]; exact hd2.inv, hd2.conn.trans hd1.conn, hd2.rects.trans hd1.rects, hd2.aliases.trans hd1.aliases⟩
      refine hd1.laid.append ?_
      have := hd2.laid
      rw [hd1.aliases, List.length_append] at this
      exact this

theorem processNode_laid {K : List Note → List Nat → PS → Prop} (E : PRead) (scr : Rect) (z0 : Nat) (hR : Rides E scr z0 K) : ∀ (n : Nat) (par : Option Nat) (pt : Option String) (x : Xml) (s : PS) (g : List Note)
    (O S : List Nat), x.tag ≠ "ncl" → InvK K E scr z0 g O S s → Ctx scr g par s → (∀ p m, par = some p → g[p]? = some m → pt = some m.tag) →
    (∀ p, par = some p → S.head? = some p) → (par = none → pt = some "head") →
    PPost (processNode E n par pt x) (fun _ t => ∃ ns, Done K E scr z0 pt par g O S [x] ns s t) s
  | 0, _, _, _, _, _, _, _, _, _, _, _, _, _ => PPost.fuel
  | n + 1, par, pt, x, s, g, O, S, hx, hi, hctx, hpt, hS, htop => by
    unfold processNode
    refine PPost.bind (PPost.check fun e r y hc => PPost.bind (PPost.newElt ?_))
    dsimp only
    have hattrs := checkNode_attrs hc
    obtain ⟨hsyn, -, hwf⟩ := checkNode_ok hc
    obtain ⟨hwf, -⟩ := hwf rfl
    obtain ⟨hmem, htag⟩ := syntaxOf_mem hsyn
    obtain ⟨tb1, tb2, -, tb4, tb5, tb6, tb7⟩ := pushOf_tables e hmem
    rw [htag] at tb1 tb2 tb4 tb5 tb6 tb7
    have hpushof : pushOf x.tag = e.push := by unfold pushOf; rw [hsyn]
    have hlen := hi.j.len
    have hparents : ∀ p, par = some p → ∃ m, g[p]? = some m ∧ m.tag ∈ e.parents := by
      intro p hp
      have hl := hctx.lt p hp
      refine ⟨g[p], List.getElem?_eq_getElem hl, ?_⟩
      have := hpt p g[p] hp (List.getElem?_eq_getElem hl)
      obtain ⟨e', he', het', hpo, -⟩ := hwf.entry
      have hee : e' = e := by
        have hnd : ∀ a ∈ syntaxTable, ∀ b ∈ syntaxTable, a.tag = b.tag → a = b := by decide +kernel
        exact hnd e' he' e hmem (het'.trans htag.symm)
      subst hee
      obtain ⟨q, hq, hq2⟩ := hpo fun hc => hx (tb7.1 hc)
      have hq2 : pt = some q := hq2
      rw [this] at hq2
      obtain rfl : (g[p]).tag = q := by simpa using hq2
      exact hq
    have hs2 : ∃ s2 : PS, s2 = { s with syn := y, elt := upd s.elt s.nelt { tag := x.tag, parent := par, attrs := r }, nelt := s.nelt + 1 } :=
      ⟨_, rfl⟩
    obtain ⟨s2, hs2⟩ := hs2
    rw [show ({ ({ s with syn := y } : PS) with elt := upd s.elt s.nelt { tag := x.tag, parent := par, attrs := r }, nelt := s.nelt + 1 } : PS) = s2
      from hs2.symm]
    have helt2 : s2.elt = upd s.elt s.nelt { tag := x.tag, parent := par, attrs := r } := by rw [hs2]
    have hek : s2.elt s.nelt = { tag := x.tag, parent := par, attrs := r } := by rw [helt2]; exact upd_same _ _ _
    -- what follows a push function with its effect
    have step : ∀ t, Pushed E e.push s2 t s.nelt → ∃ nt : Note, nt.pre = aliasPrefix s.aliases ∧ nt.parent = par ∧ nt.xml = x ∧
        J E scr z0 (g ++ [nt]) t ∧ (∃ π, PI (g ++ [nt]) (if nt.tag = "assessmentStatement" then s.nelt :: O else O) π t) ∧
        Ctx scr (g ++ [nt]) (some s.nelt) t ∧ (t.rects = if x.tag = "region" then nt.rect :: s.rects else s.rects) ∧ nt.attrs = r ∧ NewElt E scr z0 g S s s2 par pt x e r y nt := by
      intro t ht
      obtain ⟨nt, h1, h2, h3, h4, h5, h6, h7, h8, h9⟩ := hi.j.push hsyn hattrs hparents helt2 (by rw [hs2]) (by rw [hs2]; exact hctx.conn)
        (by rw [hs2]; exact hctx.rect) (by rw [hs2]; exact hctx.last) (by rw [hs2]) ht
      have htg : nt.tag = x.tag := by unfold Note.tag; rw [h3]
      have hnp : nt.push = e.push := by unfold Note.push; rw [htg]; exact hpushof
      have hbase : nt.base = { tag := x.tag, parent := par, attrs := r } := by unfold Note.base; rw [htg, h2, h4]
      obtain ⟨π, hπ⟩ := hi.pi
      have hpi := hπ.push hi.j (n := nt) (s2 := s2) (t := t) (by rw [helt2, hbase]) (by rw [hs2]) (by rw [hs2])
        (fun p hp => hctx.lt p (h2 ▸ hp)) (by rw [htg, hsyn]; rfl) (by rw [hnp]; exact ht)
      refine ⟨nt, h1, h2, h3, h5, hpi, ⟨h6.symm, h7, h8, fun p hp => ?_⟩, ?_, h4,
        hi.j, hc, fun p hp => ⟨hctx.lt p hp, hS p hp, hparents p hp⟩, fun h => .inr ⟨htop h, hx⟩, hs2, h1, h2, h3, h4⟩
      · obtain rfl : s.nelt = p := by simpa using hp
        simp; omega
      · rw [h9, hs2]
    -- from the push function on
    have rest : ∀ (nt : Note) (li : List Note) (t : PS), nt.pre = aliasPrefix s.aliases → nt.parent = par → nt.xml = x →
        InvK K E scr z0 (g ++ nt :: li) (if nt.tag = "assessmentStatement" then s.nelt :: O else O) (s.nelt :: S) t → Ctx scr (g ++ nt :: li) (some s.nelt) t →
        (t.rects = if x.tag = "region" then nt.rect :: s.rects else s.rects) → t.aliases = s.aliases → (∀ m ∈ li, m.parent ≠ some s.nelt) →
        (∀ m ∈ li, ∀ p, m.parent = some p → s.nelt ≤ p) →
        (∀ lc, Laid E s.aliases (some x.tag) (some s.nelt) (s.nelt + 1 + li.length) x.children lc → Laid E s.aliases pt par s.nelt [x] (nt :: (li ++ lc))) →
        PPost (do
          PM.forEach (processNode E n (some s.nelt) (some x.tag)) x.children
          pop E n e.pop s.nelt : PM Unit) (fun _ t => ∃ ns, Done K E scr z0 pt par g O S [x] ns s t) t := by
      intro nt li t h1 h2 h3 hinv hcx hrec hal hli hli2 hlaid
      have htg : nt.tag = x.tag := by unfold Note.tag; rw [h3]
      have hg : (g ++ nt :: li)[s.nelt]? = some nt := by rw [← hlen]; simp
      refine PPost.bind ((laid_forEach (pt := some x.tag) x.children (g ++ nt :: li) t ?_ hinv hcx).mono ?_)
      · intro c hcm l u hi' hc'
        refine processNode_laid E scr z0 hR n (some s.nelt) (some x.tag) c u _ _ _ ?_ hi' hc' ?_ (by simp) (by simp)
        · intro hnc
          obtain ⟨e', he', het, hem⟩ := hwf.children c hcm
          have := (pushOf_tables e' he').2.2.2.2.2.2.2 (het.trans hnc)
          rw [this] at hem
          simp at hem
        · intro p m hp hm
          obtain rfl : s.nelt = p := by simpa using hp
          rw [List.getElem?_append_left (getElem?_lt hg), hg] at hm
          obtain rfl : nt = m := by simpa using hm
          rw [htg]
      · rintro _ u ⟨lc, hd⟩
        have hlaidc := hd.laid
        have hgl : (g ++ nt :: li).length = s.nelt + 1 + li.length := by simp [hlen]; omega
        rw [hal, hgl] at hlaidc
        intro a v hv
        have hpop := pop_popped E n e.pop s.nelt u (fun hc => hx (tb6.1 hc)) a v hv
        have hsp : g ++ nt :: li ++ lc = g ++ nt :: (li ++ lc) := by simp
        have hinvc := hd.inv
        rw [hsp] at hinvc
        obtain ⟨π, hπ⟩ := hinvc.pi
        have hpi := hπ.pop hinvc.j hlen.symm (fun j hj => by obtain ⟨π0, h0⟩ := hi.pi; have := h0.openLt j hj; omega) ?_ hpop ?_
        have hsynt : syntaxOf nt.tag = some e := by rw [htg]; exact hsyn
        have hgn : (g ++ nt :: (li ++ lc))[s.nelt]? = some nt := by rw [← hlen]; simp
        refine ⟨nt :: (li ++ lc), hlen ▸ hlaid lc hlaidc, ⟨hinvc.j.pop hpop, hinvc.kc.congr hpop.cache, hpi,
          hR.pop _ _ _ _ _ nt e n a v hinvc.j ⟨hinvc.pi, hinvc.kc⟩ hinvc.k hgn hsynt (fun hc => hx (tb6.1 hc)) hv hpop⟩, ?_, ?_, ?_⟩
        · rw [hpop.conn]
          by_cases hcc : x.tag = "causalConnector"
          · rw [if_pos (tb5.2 hcc), hctx.conn]
            cases hp : par with
            | none => rfl
            | some p =>
              obtain ⟨m, hm, hme⟩ := hparents p hp
              have hpb := (table_bases e hmem).1 (htag.trans hcc)
              rw [hpb] at hme
              have hmt : m.tag = "connectorBase" := by simpa using hme
              simp only [connFor, hm]
              rw [if_neg (by rw [hmt]; decide)]
              cases hcn : m.conn with
              | none => rfl
              | some c =>
                have := hi.j.connTag (p + 1) p m (by omega) hm (by rw [hcn]; simp)
                rw [hmt] at this
                exact absurd this (by decide)
          · rw [if_neg fun hc => hcc (tb5.1 hc), hd.conn, hcx.conn]
            simp only [connFor, hg, htg]
            rw [if_neg hcc, (hinv.j.ok _ _ hg).conn, h2, connFor_append _ hctx.lt, hctx.conn]
        · rw [hpop.rects, hd.rects, hrec]
          by_cases hr : x.tag = "region"
          · rw [if_pos (tb4.2 hr), if_pos hr]; rfl
          · rw [if_neg fun hc => hr (tb4.1 hc), if_neg hr]
        · rw [hpop.aliases, hd.aliases, hal]
        · intro m hm p hp
          rcases List.mem_append.1 hm with hm | hm
          · exact hli2 m hm p hp
          · rcases hlaidc.parents m hm with h | h
            · rw [h] at hp; exact Nat.le_of_eq (by simpa using hp)
            · have := h p hp; omega
        · rw [htg, ← htag]; exact (table_assess e hmem).1
    by_cases himp : e.push = .importBase
    · -- an import
      have htg : x.tag = "importBase" := htag ▸ (table_push e hmem).1 himp
      obtain ⟨nt, h1, h2, h3, hj, hpi, hcx, hrec, h4, hnew⟩ := step s2 (by
        rw [himp]
        exact .of_same (.refl s2) (fun _ _ _ => rfl) (fun _ _ _ => rfl) (fun _ _ => rfl) (by decide) (by decide) (fun _ _ => rfl))
      have hnt : nt.tag = x.tag := by unfold Note.tag; rw [h3]
      have hgk : (g ++ [nt])[s.nelt]? = some nt := by rw [← hlen]; simp
      have hnas : nt.tag ≠ "assessmentStatement" := by rw [hnt, htg]; decide
      rw [if_neg hnas] at hpi
      have hinv2 : InvK K E scr z0 (g ++ [nt]) O (s.nelt :: S) s2 := ⟨hj, (hi.kc.congr (by rw [hs2])).addImport (hnt.trans htg), hpi,
        hR.imp _ _ _ _ _ _ _ _ _ _ _ hnew hi.k himp⟩
      have hnc : nt.conn = none := by
        cases hcn : nt.conn with
        | none => rfl
        | some c =>
          have := hj.connTag (s.nelt + 1) s.nelt nt (by omega) hgk (by rw [hcn]; simp)
          rw [hnt, htg] at this
          exact absurd this (by decide)
      have hnr : nt.rect = scr := by
        apply Classical.byContradiction
        intro hne
        have := hj.rectTag (s.nelt + 1) s.nelt nt (by omega) hgk hne
        rw [hnt, htg] at this
        exact absurd this (by decide)
      rw [himp]
      show PPost (pushImportBase E _ s.nelt >>= _) _ s2
      refine PPost.bind ?_
      unfold pushImportBase
      refine PPost.bind (PPost.parentElt fun p hp _ => PPost.bind (PPost.attr! fun a ha => PPost.bind (PPost.attr! fun d hd =>
        PPost.bind (PPost.get (PPost.bind (PPost.res fun u hu => ?_))))))
      split
      · exact PPost.err
      rename_i hany
      refine PPost.bind (PPost.modify (PPost.bind (PPost.orErr fun root hroot => PPost.bind (PPost.check fun e1 r1 y1 hc1 => ?_))))
      split
      · exact PPost.err
      rename_i head hl hhead
      refine PPost.bind (PPost.check fun e2 r2 y2 hc2 => ?_)
      dsimp only
      split
      · exact PPost.err
      have hpar : par = some p := by rw [hek] at hp; exact hp
      have hpl := hctx.lt p hpar
      have hptag : (s2.elt p).tag = (g[p]).tag := by
        rw [helt2, upd_ne _ _ (by omega)]
        exact (hi.j.tag (List.getElem?_eq_getElem hpl)).1
      have hpp : pt = some (g[p]).tag := hpt p _ hpar (List.getElem?_eq_getElem hpl)
      have hbase : (g[p]).tag ∈ ["connectorBase", "descriptorBase", "regionBase", "ruleBase", "transitionBase", "fontBase"] := by
        obtain ⟨m, hm, hme⟩ := hparents p hpar
        rw [List.getElem?_eq_getElem hpl] at hm
        obtain rfl : g[p] = m := by simpa using hm
        exact (table_bases e hmem).2 (htag.trans htg) _ hme
      have hal2 : s2.aliases = s.aliases := by rw [hs2]
      have hinv2' : InvK K E scr z0 (g ++ [nt]) O (s.nelt :: S) ({ s2 with syn := y2, aliases := s2.aliases ++ [(a, u)] } : PS) :=
        ⟨hinv2.j.congr rfl rfl rfl, hinv2.kc.congr rfl, hinv2.pi.imp fun π hp => hp.congr (fun _ => rfl) (fun _ => rfl) (fun _ => rfl) rfl rfl,
          hR.same _ _ s2 y2 _ s2.cache (fun i hi => (checkNode_ok hc2).2.1 i ((checkNode_ok hc1).2.1 i hi)) hinv2.k⟩
      refine PPost.bind ((laid_forEach (f := processNode E n none (some "head")) (pt := some "head") (par := none) (scr := scr) (z0 := z0) (O := O) (S := s.nelt :: S) (K := K) (E := E)
        (importedBases head (s2.elt p).tag) (g ++ [nt]) ({ s2 with syn := y2, aliases := s2.aliases ++ [(a, u)] } : PS) ?_
        hinv2' ?_).mono ?_)
      · intro c hcm l v hi' hc'
        refine processNode_laid E scr z0 hR n none (some "head") c v _ _ _ ?_ hi' hc' (by simp) (by simp) (fun _ => rfl)
        unfold importedBases at hcm
        have hft : ∀ tag, c ∈ head.findAll tag → c.tag = tag := by
          intro tag hm
          have := (List.mem_filter.1 hm).2
          simpa using this
        intro hcn
        rcases List.mem_append.1 hcm with hcm | hcm
        · have := hft _ hcm
          rw [hptag] at this
          rw [← this, hcn] at hbase
          exact absurd hbase (by decide)
        · split at hcm
          · rcases List.mem_append.1 hcm with hcm | hcm
            · have := hft _ hcm; rw [hcn] at this; exact absurd this (by decide)
            · have := hft _ hcm; rw [hcn] at this; exact absurd this (by decide)
          · simp at hcm
      · refine ⟨?_, ?_, hcx.last, by simp⟩
        · have := hcx.conn
          simp only [connFor, hgk, hnt, htg] at this
          rw [if_neg (by decide), hnc] at this
          exact this
        · have := hcx.rect
          simp only [rectFor, hgk, hnr] at this
          exact this
      · rintro _ t ⟨li, hd'⟩
        refine PPost.modify ?_
        have hlaidi := hd'.laid
        have hgl : (g ++ [nt]).length = s.nelt + 1 := by simp [hlen]
        rw [hgl] at hlaidi
        have hsp : g ++ [nt] ++ li = g ++ nt :: li := by simp
        have hinv3 := hd'.inv
        rw [hsp] at hinv3
        have hg3 : (g ++ nt :: li)[s.nelt]? = some nt := by rw [← hlen]; simp
        have hcx3 : Ctx scr (g ++ nt :: li) (some s.nelt) t := by
          have := hcx.next li hd'.conn hd'.rects
          rw [hsp] at this
          exact this
        have hal3 : t.aliases.dropLast = s.aliases := by
          rw [hd'.aliases]
          show (s2.aliases ++ [(a, u)]).dropLast = _
          rw [hal2]; simp
        have e1 : x.prop "alias" = some a := by
          rw [← ha]; unfold PS.attr; rw [hek]
          exact (hattrs.plain ((table_push e hmem).2.2.2 himp).1 rfl rfl (by decide)).symm
        have e2 : x.prop "documentURI" = some d := by
          rw [← hd]; unfold PS.attr; rw [hek]
          exact (hattrs.plain ((table_push e hmem).2.2.2 himp).2 rfl rfl (by decide)).symm
        have hfin : ∀ t', t'.aliases = s.aliases → t'.rects = t.rects → InvK K E scr z0 (g ++ nt :: li) O (s.nelt :: S) t' → Ctx scr (g ++ nt :: li) (some s.nelt) t' →
            PPost (do
              PM.forEach (processNode E n (some s.nelt) (some x.tag)) x.children
              pop E n e.pop s.nelt : PM Unit) (fun _ t => ∃ ns, Done K E scr z0 pt par g O S [x] ns s t) t' := by
          intro t' hal' hrec' hinv' hcx'
          refine rest nt li t' h1 h2 h3 (by rw [if_neg hnas]; exact hinv') hcx' ?_ hal' ?_ ?_ ?_
          · rw [hrec', hd'.rects]; exact hrec
          · intro m hm hc
            rcases hlaidi.parents m hm with h | h
            · rw [h] at hc; simp at hc
            · have := h _ hc; omega
          · intro m hm p hp
            rcases hlaidi.parents m hm with h | h
            · rw [h] at hp; simp at hp
            · have := h _ hp; omega
          · intro lc hlc
            have := Laid.imp (E := E) (xs := []) (l3 := []) htg h3 h2 h1 e1 e2 (hal2 ▸ hu) (fun q hq hqu => hany (List.any_eq_true.2 ⟨q, hal2 ▸ hq, by simpa using hqu⟩))
              hroot (show (root.findAll "head").head? = some head by rw [hhead]; rfl) (by rw [← hal2]; exact hlaidi) hlc (.nil _ _ _ _)
            rw [hptag] at this
            rw [hpp]
            simpa using this
        unfold cacheIf
        split
        · refine PPost.bind (PPost.cacheAdd fun _ => ?_)
          refine hfin _ hal3 rfl ?_ ⟨hcx3.conn, hcx3.rect, hcx3.last, hcx3.lt⟩
          refine ⟨hinv3.j.congr rfl rfl rfl, ?_, hinv3.pi.imp fun π hp => hp.congr (fun _ => rfl) (fun _ => rfl) (fun _ => rfl) rfl rfl,
            hR.same _ _ t t.syn t.aliases.dropLast _ (fun _ h => h) hinv3.k⟩
          exact KC.cacheImport (hinv3.kc.congr (t := { t with aliases := t.aliases.dropLast }) rfl) (by unfold tagAt; rw [hg3]; exact hnt.trans htg)
        · refine PPost.bind (PPost.pure ?_)
          exact hfin _ hal3 rfl ⟨hinv3.j.congr rfl rfl rfl, hinv3.kc.congr rfl, hinv3.pi.imp fun π hp => hp.congr (fun _ => rfl) (fun _ => rfl) (fun _ => rfl) rfl rfl,
            hR.same _ _ t t.syn t.aliases.dropLast t.cache (fun _ h => h) hinv3.k⟩ ⟨hcx3.conn, hcx3.rect, hcx3.last, hcx3.lt⟩
    · -- other elements
      have htg : x.tag ≠ "importBase" := fun hc => himp ((table_push e hmem).2.1 (htag.trans hc))
      refine PPost.bind ((PPost.and (push_pushed E (processNode E n none (some "head")) e.push s.nelt s2 himp ?_ ?_) (fun _ _ ha => ha)).mono ?_)
      · rw [hek]
        intro hc
        have := hctx.lt _ hc
        omega
      · rw [hs2]
        show s.conn ≠ _
        rw [hctx.conn]
        intro hc
        cases hp : par with
        | none => rw [hp] at hc; simp [connFor] at hc
        | some p =>
          obtain ⟨m, hm, -⟩ := hparents p hp
          have hpl := getElem?_lt hm
          rw [hp] at hc
          simp only [connFor, hm] at hc
          split at hc
          · have : p = s.nelt := by simpa using hc
            omega
          · have := (hi.j.ok p m hm).connLt _ hc
            omega
      · rintro a0 t ⟨ht, hrun⟩
        obtain ⟨nt, h1, h2, h3, hj, hpi, hcx, hrec, h4, hnew⟩ := step t ht
        have hnt : nt.tag = x.tag := by unfold Note.tag; rw [h3]
        have hct : cachedTag nt.tag = e.cache := by
          unfold cachedTag
          rw [hnt, hsyn]
          simp [htg]
        have hca : t.cache = s.cache := by rw [ht.cache, hs2]
        have hal : t.aliases = s.aliases := by rw [ht.aliases, hs2]
        have hfin : ∀ t', t'.aliases = s.aliases → t'.rects = t.rects → KC (g ++ [nt]) t' → t'.nelt = t.nelt → t'.elt = t.elt → t'.zorder = t.zorder →
            t'.pnode = t.pnode → t'.npred = t.npred → t'.conn = t.conn → K (g ++ [nt]) (s.nelt :: S) t' → PPost (do
              PM.forEach (processNode E n (some s.nelt) (some x.tag)) x.children
              pop E n e.pop s.nelt : PM Unit) (fun _ t => ∃ ns, Done K E scr z0 pt par g O S [x] ns s t) t' := by
          intro t' hal' hrec' hkc a1 a2 a3 a4 a5 a6 a7
          refine rest nt [] t' h1 h2 h3 ⟨hj.congr a1 a2 a3, hkc, hpi.imp fun π hp => hp.congr (fun _ => by rw [a2]) (fun _ => by rw [a2]) (fun _ => by rw [a2]) a4 a5, a7⟩
            ⟨by rw [a6]; exact hcx.conn, by rw [hrec']; exact hcx.rect, by rw [hrec']; exact hcx.last, hcx.lt⟩ (hrec'.trans hrec) hal' (by simp) (by simp) ?_
          intro lc hlc
          have := Laid.cons (E := E) (pt := pt) (xs := []) (l2 := []) htg h3 h2 h1 hlc (.nil _ _ _ _)
          simpa using this
        have hk := hR.push _ _ _ _ _ _ _ _ _ _ _ _ _ _ hnew hi.k himp hrun ht hj
        unfold cacheIf
        split
        · rename_i hcc
          refine PPost.bind (PPost.cacheAdd fun _ => ?_)
          refine hfin _ hal rfl ?_ rfl rfl rfl rfl rfl rfl (hR.same _ _ t t.syn t.aliases _ (fun _ h => h) hk)
          refine hi.kc.add (hnt ▸ htg) ?_
          rw [hct, if_pos hcc, hlen, ← hca]
        · rename_i hcc
          refine PPost.bind (PPost.pure ?_)
          refine hfin _ hal rfl ?_ rfl rfl rfl rfl rfl rfl hk
          refine hi.kc.add (hnt ▸ htg) ?_
          rw [hct, if_neg hcc, ← hca]

end Ginga
