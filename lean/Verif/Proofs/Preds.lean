import Verif.Proofs.Notes
/-!
# The predicates of the parser's elements

The invariant `PI`: the predicates on the heap are those of the XML elements: each element has its own, and the predicates attached to
it are those of its children, in document order.
-/
namespace Ginga

/-- The predicates that the children of `j` have attached to it; `π i` is the one attached by element `i`. -/
def kidsOf (π : Nat → Option Nat) (j : Nat) : Nat → List Note → List Nat
  | _, [] => []
  | i, n :: l => (if n.parent = some j then (π i).toList else []) ++ kidsOf π j (i + 1) l

theorem kidsOf_append (π : Nat → Option Nat) (j : Nat) : ∀ (i : Nat) (l1 l2 : List Note),
    kidsOf π j i (l1 ++ l2) = kidsOf π j i l1 ++ kidsOf π j (i + l1.length) l2
  | _, [], _ => rfl
  | i, n :: l1, l2 => by
    simp only [List.cons_append, kidsOf, List.length_cons, List.append_assoc]
    rw [kidsOf_append π j (i + 1) l1 l2, show i + 1 + l1.length = i + (l1.length + 1) by omega]

theorem kidsOf_congr {π π' : Nat → Option Nat} (j : Nat) : ∀ (i : Nat) (l : List Note),
    (∀ m, i ≤ m → m < i + l.length → π' m = π m) → kidsOf π' j i l = kidsOf π j i l
  | _, [], _ => rfl
  | i, n :: l, h => by
    simp only [kidsOf]
    rw [h i (Nat.le_refl _) (by simp), kidsOf_congr j (i + 1) l fun m h1 h2 => h m (by omega) (by simp at *; omega)]

theorem kidsOf_none (π : Nat → Option Nat) (j : Nat) : ∀ (i : Nat) (l : List Note), (∀ n ∈ l, n.parent ≠ some j) → kidsOf π j i l = []
  | _, [], _ => rfl
  | i, n :: l, h => by
    simp only [kidsOf]
    rw [if_neg (h n (by simp)), kidsOf_none π j (i + 1) l fun m hm => h m (by simp [hm])]
    rfl

/-- The children of a predicate. -/
def PNode.withKids : PNode → List Nat → PNode
  | .atom l t r, _ => .atom l t r
  | .node c _, cs => .node c cs
/-- More children of a predicate. -/
def PNode.addKids : PNode → List Nat → PNode
  | .atom l t r, _ => .atom l t r
  | .node c cs, ds => .node c (cs ++ ds)

theorem PNode.addKids_nil (p : PNode) : p.addKids [] = p := by cases p <;> simp [addKids]
theorem PNode.addKids_with (p : PNode) (a b : List Nat) : (p.withKids a).addKids b = p.withKids (a ++ b) := by cases p <;> rfl

/-- The parent is a rule base. -/
def UnderBase (g : List Note) (n : Note) : Prop := ∃ pa m, n.parent = some pa ∧ g[pa]? = some m ∧ m.tag = "ruleBase"

/-- The predicate that an element has attached to its parent. -/
structure AttOk (g : List Note) (O : List Nat) (π : Nat → Option Nat) (s : PS) (j : Nat) (n : Note) : Prop where
  base : n.push = .rule → UnderBase g n → π j = none
  rule : n.push = .rule → ¬ UnderBase g n → π j = (s.elt j).pred
  stmt : n.push = .compoundStatement → negated n.push n.get = false → π j = (s.elt j).pred
  neg : n.push = .compoundStatement → negated n.push n.get = true →
    ∃ p q, (s.elt j).pred = some p ∧ π j = some q ∧ q ≠ p ∧ s.pnode q = .node .not [p]
  opn : n.tag = "assessmentStatement" → j ∈ O → π j = none
  assess : n.tag = "assessmentStatement" → j ∉ O → ∃ q l comp op r, π j = some q ∧ s.pnode q = .atom l op r ∧ (s.elt j).left = some l ∧
    (s.elt j).right = some r ∧ n.get "comparator" = some comp ∧ testOf comp = some op
  none : n.push ≠ .rule → n.push ≠ .compoundStatement → n.tag ≠ "assessmentStatement" → π j = none

/-- A predicate that belongs to an element. -/
def Cell (s : PS) (π : Nat → Option Nat) (j q : Nat) : Prop := (s.elt j).pred = some q ∨ π j = some q

/-- The predicates are those of the elements. -/
structure PI (g : List Note) (O : List Nat) (π : Nat → Option Nat) (s : PS) : Prop where
  small : ∀ j q, π j = some q → j < g.length
  openLt : ∀ j ∈ O, j < g.length
  cell : ∀ j q, j < g.length → Cell s π j q → q < s.npred
  closed : ∀ (j : Nat) (n : Note), g[j]? = some n → openNode n.push n.tag n.get = none → (s.elt j).pred = none
  opened : ∀ (j : Nat) (n : Note) q, g[j]? = some n → openNode n.push n.tag n.get = some q →
    ∃ p, (s.elt j).pred = some p ∧ s.pnode p = q.withKids (kidsOf π j 0 g)
  att : ∀ (j : Nat) (n : Note), g[j]? = some n → AttOk g O π s j n
  disj : ∀ i j q, i < g.length → j < g.length → Cell s π i q → Cell s π j q → i = j

theorem PI.congr {g : List Note} {O : List Nat} {π : Nat → Option Nat} {s t : PS} (h : PI g O π s) (h1 : ∀ j, (t.elt j).pred = (s.elt j).pred)
    (h1l : ∀ j, (t.elt j).left = (s.elt j).left) (h1r : ∀ j, (t.elt j).right = (s.elt j).right) (h2 : t.pnode = s.pnode)
    (h3 : t.npred = s.npred) : PI g O π t where
  small := h.small
  openLt := h.openLt
  cell j q := by unfold Cell; rw [h1, h3]; exact h.cell j q
  closed j n := by rw [h1]; exact h.closed j n
  opened j n q := by rw [h1, h2]; exact h.opened j n q
  att j n hj := by
    obtain ⟨a1, a2, a3, a4, a5, a6, a7⟩ := h.att j n hj
    exact ⟨a1, by rw [h1]; exact a2, by rw [h1]; exact a3, by rw [h1, h2]; exact a4, a5, by rw [h1l, h1r, h2]; exact a6, a7⟩
  disj i j q := by unfold Cell; rw [h1, h1]; exact h.disj i j q

/-- One element changes what it has attached to its parent. -/
theorem PI.step {g g' : List Note} {O O' : List Nat} {π : Nat → Option Nat} {s t : PS} {k : Nat} {v : Option Nat} {par : Option Nat}
    (h : PI g O π s)
    (hg : ∀ (j : Nat) (n : Note), j ≠ k → g'[j]? = some n → g[j]? = some n)
    (hext : ∀ (p : Nat) (m : Note), g[p]? = some m → g'[p]? = some m)
    (hplt : ∀ (j : Nat) (n : Note) (p : Nat), g[j]? = some n → n.parent = some p → p < g.length)
    (hpar : ∀ p, par = some p → p < g.length ∧ p ≠ k)
    (hO : ∀ j, j ≠ k → (j ∈ O' ↔ j ∈ O)) (hO' : ∀ j ∈ O', j < g'.length) (hk : k < g'.length)
    (hkids : ∀ j, j ≠ k → j < g'.length → kidsOf (upd π k v) j 0 g' = kidsOf π j 0 g ++ if par = some j then v.toList else [])
    (hpred : ∀ j, j ≠ k → (t.elt j).pred = (s.elt j).pred)
    (hlr : ∀ j l r, j ≠ k → (s.elt j).left = some l → (s.elt j).right = some r → (t.elt j).left = some l ∧ (t.elt j).right = some r)
    (hnp : s.npred ≤ t.npred)
    (hnode : ∀ p < s.npred, t.pnode p = if par.bind (fun pa => (s.elt pa).pred) = some p then (s.pnode p).addKids v.toList else s.pnode p)
    (hcell : ∀ q, Cell t (upd π k v) k q → s.npred ≤ q ∧ q < t.npred)
    (kclosed : ∀ n, g'[k]? = some n → openNode n.push n.tag n.get = none → (t.elt k).pred = none)
    (kopened : ∀ n q, g'[k]? = some n → openNode n.push n.tag n.get = some q →
      ∃ p, (t.elt k).pred = some p ∧ t.pnode p = q.withKids (kidsOf (upd π k v) k 0 g'))
    (katt : ∀ n, g'[k]? = some n → AttOk g' O' (upd π k v) t k n) : PI g' O' (upd π k v) t := by
  have hlt : ∀ j, j ≠ k → j < g'.length → j < g.length := by
    intro j hj hl
    obtain ⟨n, hn⟩ : ∃ n, g'[j]? = some n := ⟨_, List.getElem?_eq_getElem hl⟩
    exact getElem?_lt (hg j n hj hn)
  have hold : ∀ j q, j ≠ k → (Cell t (upd π k v) j q ↔ Cell s π j q) := by
    intro j q hj
    unfold Cell
    rw [hpred j hj, upd_ne _ _ hj]
  have hunder : ∀ n j, j ≠ k → g'[j]? = some n → (UnderBase g' n ↔ UnderBase g n) := by
    intro n j hj hn
    constructor
    · rintro ⟨pa, m, h1, h2, h3⟩
      have hpl := hplt j n pa (hg j n hj hn) h1
      have := hext pa _ (List.getElem?_eq_getElem hpl)
      rw [this] at h2
      obtain rfl : g[pa] = m := by simpa using h2
      exact ⟨pa, _, h1, List.getElem?_eq_getElem hpl, h3⟩
    · rintro ⟨pa, m, h1, h2, h3⟩
      exact ⟨pa, m, h1, hext pa m h2, h3⟩
  have hcl : ∀ j q, j ≠ k → j < g'.length → Cell t (upd π k v) j q → Cell s π j q ∧ q < s.npred := by
    intro j q hj hl hc
    have := (hold j q hj).1 hc
    exact ⟨this, h.cell j q (hlt j hj hl) this⟩
  -- a cell of an element other than the parent's own predicate does not change
  have hsame : ∀ j q, j ≠ k → j < g'.length → Cell s π j q → (∀ pa, par = some pa → pa = j → (s.elt pa).pred ≠ some q) → t.pnode q = s.pnode q := by
    intro j q hj hl hc hne
    rw [hnode q (h.cell j q (hlt j hj hl) hc), if_neg]
    intro hb
    cases hp : par with
    | none => rw [hp] at hb; simp at hb
    | some pa =>
      rw [hp] at hb
      have hb : (s.elt pa).pred = some q := hb
      obtain ⟨hp1, hp2⟩ := hpar pa hp
      have := h.disj pa j q hp1 (hlt j hj hl) (.inl hb) hc
      exact hne pa hp this hb
  refine ⟨?_, hO', ?_, ?_, ?_, ?_, ?_⟩
  · intro j q hj
    by_cases hjk : j = k
    · subst hjk; exact hk
    · rw [upd_ne _ _ hjk] at hj
      have hl := h.small j q hj
      exact getElem?_lt (hext j _ (List.getElem?_eq_getElem hl))
  · intro j q hl hc
    by_cases hjk : j = k
    · subst hjk; exact (hcell q hc).2
    · exact Nat.lt_of_lt_of_le (hcl j q hjk hl hc).2 hnp
  · intro j n hj hn
    by_cases hjk : j = k
    · subst hjk; exact kclosed n hj hn
    · rw [hpred j hjk]; exact h.closed j n (hg j n hjk hj) hn
  · intro j n q hj hn
    by_cases hjk : j = k
    · subst hjk; exact kopened n q hj hn
    · obtain ⟨p, hp1, hp2⟩ := h.opened j n q (hg j n hjk hj) hn
      have hl := getElem?_lt hj
      refine ⟨p, (hpred j hjk).trans hp1, ?_⟩
      have hpn : p < s.npred := h.cell j p (hlt j hjk hl) (.inl hp1)
      rw [hkids j hjk hl]
      by_cases hpj : par = some j
      · rw [hnode p hpn, hpj, if_pos (by exact hp1), if_pos rfl, hp2, PNode.addKids_with]
      · rw [if_neg hpj, List.append_nil, ← hp2]
        exact hsame j p hjk hl (.inl hp1) fun pa h1 h2 => absurd (h2 ▸ h1) hpj
  · intro j n hj
    by_cases hjk : j = k
    · subst hjk; exact katt n hj
    · have hj' := hg j n hjk hj
      have hl := getElem?_lt hj
      obtain ⟨a1, a2, a3, a4, a5, a6, a7⟩ := h.att j n hj'
      refine ⟨?_, ?_, ?_, ?_, ?_, ?_, ?_⟩
      · rw [upd_ne _ _ hjk, hunder n j hjk hj]; exact a1
      · rw [upd_ne _ _ hjk, hpred j hjk, hunder n j hjk hj]; exact a2
      · rw [upd_ne _ _ hjk, hpred j hjk]; exact a3
      · intro h1 h2
        obtain ⟨p, q, b1, b2, b3, b4⟩ := a4 h1 h2
        refine ⟨p, q, (hpred j hjk).trans b1, (upd_ne _ _ hjk).trans b2, b3, ?_⟩
        rw [← b4]
        refine hsame j q hjk hl (.inr b2) ?_
        rintro pa - rfl hc
        rw [b1] at hc
        exact b3 (by simpa using hc.symm)
      · rw [upd_ne _ _ hjk, hO j hjk]; exact a5
      · rw [hO j hjk]
        intro h1 h2
        obtain ⟨q, l, comp, op, r, b1, b2, b3, b4, b5, b6⟩ := a6 h1 h2
        obtain ⟨c1, c2⟩ := hlr j l r hjk b3 b4
        refine ⟨q, l, comp, op, r, (upd_ne _ _ hjk).trans b1, ?_, c1, c2, b5, b6⟩
        rw [hnode q (h.cell j q (hlt j hjk hl) (.inr b1)), b2]
        split <;> rfl
      · rw [upd_ne _ _ hjk]; exact a7
  · intro i j q hi hj h1 h2
    by_cases hik : i = k
    · by_cases hjk : j = k
      · rw [hik, hjk]
      · subst hik
        have := (hcell q h1).1
        have := (hcl j q hjk hj h2).2
        omega
    · by_cases hjk : j = k
      · subst hjk
        have := (hcell q h2).1
        have := (hcl i q hik hi h1).2
        omega
      · exact h.disj i j q (hlt i hik hi) (hlt j hjk hj) (hcl i q hik hi h1).1 (hcl j q hjk hj h2).1

theorem childEff_lr (f : Push) (k : Nat) (tag : String) (a : String → Option String) (e : Elt) {l r : String} (h1 : e.left = some l)
    (h2 : e.right = some r) : (childEff f k tag a e).left = some l ∧ (childEff f k tag a e).right = some r := by
  cases f <;> simp [childEff, h1, h2]

theorem Pushed.pred_lr {E : PRead} {f : Push} {s t : PS} {k : Nat} (h : Pushed E f s t k) {j : Nat} (hj : j ≠ k) :
    (t.elt j).pred = (s.elt j).pred ∧
    ∀ l r, (s.elt j).left = some l → (s.elt j).right = some r → (t.elt j).left = some l ∧ (t.elt j).right = some r := by
  rw [h.other j hj]
  have h1 : ∀ rs ts, (if s.conn = some j then connApply rs ts (s.elt j) else s.elt j).pred = (s.elt j).pred ∧
      (if s.conn = some j then connApply rs ts (s.elt j) else s.elt j).left = (s.elt j).left ∧
      (if s.conn = some j then connApply rs ts (s.elt j) else s.elt j).right = (s.elt j).right := by
    intro rs ts
    split <;> exact ⟨rfl, rfl, rfl⟩
  obtain ⟨a1, a2, a3⟩ := h1 (roleEff f (s.elt k).tag (s.attr k) (s.elt k).parent) (testEff f (s.elt k).tag (s.attr k))
  split
  · refine ⟨?_, fun l r hl hr => childEff_lr _ _ _ _ _ (a2.trans hl) (a3.trans hr)⟩
    rw [(childEff_tag f k (s.elt k).tag (s.attr k) _).2.2.1, a1]
  · exact ⟨a1, fun l r hl hr => ⟨a2.trans hl, a3.trans hr⟩⟩

theorem table_assess : ∀ e ∈ syntaxTable, (e.pop = .assessmentStatement ↔ e.tag = "assessmentStatement") ∧
    (e.tag = "assessmentStatement" → e.push = .none) := by decide +kernel

/-- A push function keeps the predicates. -/
theorem PI.push {E : PRead} {scr : Rect} {z0 : Nat} {g : List Note} {O : List Nat} {π : Nat → Option Nat} {s s2 t : PS} {n : Note} (h : PI g O π s)
    (hJ : J E scr z0 g s) (h2 : s2.elt = upd s.elt s.nelt n.base) (hp2 : s2.pnode = s.pnode) (hn2 : s2.npred = s.npred)
    (hpar : ∀ p, n.parent = some p → p < g.length) (hsyn : (syntaxOf n.tag).isSome) (ht : Pushed E n.push s2 t s.nelt) :
    ∃ π', PI (g ++ [n]) (if n.tag = "assessmentStatement" then s.nelt :: O else O) π' t := by
  have hlen := hJ.len
  have hek : s2.elt s.nelt = n.base := by rw [h2]; exact upd_same _ _ _
  have hej : ∀ j, j ≠ s.nelt → s2.elt j = s.elt j := fun j hj => by rw [h2]; exact upd_ne _ _ hj
  have hatt : s2.attr s.nelt = n.get := by funext a; unfold PS.attr Note.get; rw [hek]; rfl
  have hgk : (g ++ [n])[s.nelt]? = some n := by rw [← hlen]; simp
  have hplt : ∀ (j : Nat) (m : Note) (p : Nat), g[j]? = some m → m.parent = some p → p < g.length := by
    intro j m p hj hp
    have := ((hJ.ok j m hj).parent p hp).1
    have := getElem?_lt hj
    omega
  have hassess : n.tag = "assessmentStatement" → n.push = .none := by
    intro hc
    obtain ⟨e, he⟩ := Option.isSome_iff_exists.1 hsyn
    obtain ⟨hm, htg⟩ := syntaxOf_mem he
    unfold Note.push pushOf
    rw [he]
    exact (table_assess e hm).2 (htg.trans hc)
  have kn : ∀ m, (g ++ [n])[s.nelt]? = some m → m = n := fun m hm => by rw [hgk] at hm; simpa using hm.symm
  have main : ∀ v : Option Nat, s.npred ≤ t.npred →
      (∀ p < s.npred, t.pnode p = if n.parent.bind (fun pa => (s.elt pa).pred) = some p then (s.pnode p).addKids v.toList else s.pnode p) →
      (∀ q, Cell t (upd π s.nelt v) s.nelt q → s.npred ≤ q ∧ q < t.npred) →
      (openNode n.push n.tag n.get = none → (t.elt s.nelt).pred = none) →
      (∀ q, openNode n.push n.tag n.get = some q → ∃ p, (t.elt s.nelt).pred = some p ∧ t.pnode p = q.withKids []) →
      AttOk (g ++ [n]) (if n.tag = "assessmentStatement" then s.nelt :: O else O) (upd π s.nelt v) t s.nelt n →
      PI (g ++ [n]) (if n.tag = "assessmentStatement" then s.nelt :: O else O) (upd π s.nelt v) t := by
    intro v h1 h3 h4 h5 h6 h7
    refine h.step (k := s.nelt) (par := n.parent) ?_ ?_ hplt ?_ ?_ ?_ ?_ ?_ ?_ ?_ h1 h3 h4 ?_ ?_ ?_
    · intro j m hj hm
      have hl := getElem?_lt hm
      simp only [List.length_append, List.length_cons, List.length_nil] at hl
      rw [List.getElem?_append_left (by omega)] at hm
      exact hm
    · intro p m hm
      rw [List.getElem?_append_left (getElem?_lt hm)]; exact hm
    · intro p hp
      have := hpar p hp
      exact ⟨this, by omega⟩
    · intro j hj
      split
      · simp [hj]
      · exact Iff.rfl
    · intro j hj
      split at hj
      · rcases List.mem_cons.1 hj with rfl | hj
        · simp [hlen]
        · have := h.openLt j hj; simp; omega
      · have := h.openLt j hj; simp; omega
    · simp [hlen]
    · intro j hj hl
      rw [kidsOf_append, kidsOf_congr (π := π) j 0 g fun m _ hm => upd_ne _ _ (by omega)]
      simp only [kidsOf, Nat.zero_add, hlen, upd_same, List.append_nil]
    · intro j hj
      rw [(ht.pred_lr hj).1, hej j hj]
    · intro j l r hj hl hr
      exact (ht.pred_lr hj).2 l r (by rw [hej j hj]; exact hl) (by rw [hej j hj]; exact hr)
    · intro m hm; rw [kn m hm]; exact h5
    · intro m q hm hq
      rw [kn m hm] at hq
      rw [kidsOf_none _ _ 0 (g ++ [n])]
      · exact h6 q hq
      · intro m hm
        rcases List.mem_append.1 hm with hm | hm
        · obtain ⟨i, hi, hi2⟩ := List.getElem_of_mem hm
          intro hc
          have := hplt i m _ (by rw [List.getElem?_eq_getElem hi, hi2]) hc
          omega
        · obtain rfl : m = n := by simpa using hm
          intro hc
          have := hpar _ hc
          omega
    · intro m hm; rw [kn m hm]; exact h7
  have hpr := ht.pred
  rw [hek, hatt] at hpr
  replace hpr : PredPush n.push n.tag n.get s2 t s.nelt n.parent := hpr
  have hub : ∀ pa, n.parent = some pa → ((s2.elt pa).tag = "ruleBase" ↔ UnderBase (g ++ [n]) n) := by
    intro pa hp
    have hl := hpar pa hp
    have hg : g[pa]? = some g[pa] := List.getElem?_eq_getElem hl
    rw [hej pa (by omega), (hJ.tag hg).1]
    constructor
    · intro hc
      exact ⟨pa, g[pa], hp, by rw [List.getElem?_append_left hl]; exact hg, hc⟩
    · rintro ⟨pa', m, h1, h2, h3⟩
      rw [hp] at h1
      obtain rfl : pa = pa' := by simpa using h1
      rw [List.getElem?_append_left hl, hg] at h2
      obtain rfl : g[pa] = m := by simpa using h2
      exact h3
  have opened_not : ∀ q, openNode n.push n.tag n.get = some q → n.tag ≠ "assessmentStatement" := by
    intro q hq hc
    rw [hassess hc] at hq
    simp [openNode] at hq
  cases hpr with
  | same h1 h3 h4 h5 =>
    refine ⟨_, main none (by omega) ?_ ?_ ?_ ?_ ?_⟩
    · intro p hp
      rw [h3, hp2, show (none : Option Nat).toList = [] from rfl, PNode.addKids_nil]
      split <;> rfl
    · intro q hq
      rcases hq with hq | hq
      · rw [h5, hek] at hq; exact absurd hq (by simp [Note.base])
      · rw [upd_same] at hq; simp at hq
    · intro _; rw [h5, hek]; rfl
    · intro q hq; rw [h1] at hq; simp at hq
    · have hnr : n.push ≠ .rule := by intro hc; rw [hc] at h1; simp [openNode] at h1
      have hnc : n.push ≠ .compoundStatement := by intro hc; rw [hc] at h1; simp [openNode] at h1
      refine ⟨fun hc => absurd hc hnr, fun hc => absurd hc hnr, fun hc => absurd hc hnc, fun hc => absurd hc hnc, fun _ _ => upd_same _ _ _, ?_, fun _ _ _ => upd_same _ _ _⟩
      intro hc hno
      rw [if_pos hc] at hno
      exact absurd (List.mem_cons_self) hno
  | root q h1 h3 h4 h5 h6 =>
    refine ⟨_, main none (by omega) ?_ ?_ ?_ ?_ ?_⟩
    · intro p hp
      rw [h4, hp2, hn2, upd_ne _ _ (by omega), show (none : Option Nat).toList = [] from rfl, PNode.addKids_nil]
      split <;> rfl
    · intro q' hq
      rcases hq with hq | hq
      · rw [h6] at hq
        have : s2.npred = q' := by simpa using hq
        omega
      · rw [upd_same] at hq; simp at hq
    · intro hc; rw [h1] at hc; simp at hc
    · intro q' hq
      rw [h1] at hq
      obtain rfl : q = q' := by simpa using hq
      refine ⟨_, h6, ?_⟩
      rw [h4, upd_same]
      rcases h3 with h3 | ⟨h3, -⟩
      · rw [h3] at h1
        obtain rfl : PNode.node .and [] = q := by simpa [openNode] using h1
        rfl
      · rw [h3] at h1
        simp only [openNode, Option.some.injEq] at h1
        rw [← h1]
        split <;> rfl
    · have ha := opened_not q h1
      rcases h3 with h3 | ⟨h3, pa, hpa, htg⟩
      · refine ⟨fun hc => ?_, fun hc => ?_, fun hc => ?_, fun hc => ?_, fun hc => absurd hc ha, fun hc => absurd hc ha, fun _ _ _ => upd_same _ _ _⟩
        all_goals rw [h3] at hc; cases hc
      · have hb := (hub pa hpa).1 htg
        refine ⟨fun _ _ => upd_same _ _ _, fun _ hc => absurd hb hc, fun hc => ?_, fun hc => ?_, fun hc => absurd hc ha, fun hc => absurd hc ha, fun hc => absurd h3 hc⟩
        all_goals rw [h3] at hc; cases hc
  | add q pa pp c cs h1 h3 hpa hpp hnd h4 h5 h6 =>
    have hpl := hpar pa hpa
    have hpp' : (s.elt pa).pred = some pp := by rw [← hej pa (by omega)]; exact hpp
    have hppn : pp < s.npred := h.cell pa pp hpl (.inl hpp')
    have hne : s2.npred ≠ pp := by omega
    rw [upd_ne _ _ (Ne.symm hne), hp2] at hnd
    have hbind : n.parent.bind (fun pa => (s.elt pa).pred) = some pp := by rw [hpa]; exact hpp'
    refine ⟨_, main (some s2.npred) (by omega) ?_ ?_ ?_ ?_ ?_⟩
    · intro p hp
      rw [h4, hbind]
      by_cases hpe : pp = p
      · subst hpe
        rw [upd_same, if_pos rfl, hnd]; rfl
      · rw [upd_ne _ _ (Ne.symm hpe), upd_ne _ _ (by omega), if_neg (by simpa using hpe), hp2]
    · intro q' hq
      have : s2.npred = q' := by
        rcases hq with hq | hq
        · rw [h6] at hq; simpa using hq
        · rw [upd_same] at hq; simpa using hq
      omega
    · intro hc; rw [h1] at hc; simp at hc
    · intro q' hq
      rw [h1] at hq
      obtain rfl : q = q' := by simpa using hq
      refine ⟨_, h6, ?_⟩
      rw [h4, upd_ne _ _ hne, upd_same]
      rcases h3 with ⟨h3, -⟩ | ⟨h3, -⟩
      · rw [h3] at h1
        simp only [openNode, Option.some.injEq] at h1
        rw [← h1]; rfl
      · rw [h3] at h1
        simp only [openNode, Option.some.injEq] at h1
        rw [← h1]
        split <;> rfl
    · have ha := opened_not q h1
      rcases h3 with ⟨h3, hng⟩ | ⟨h3, htg⟩
      · refine ⟨fun hc => ?_, fun hc => ?_, fun _ _ => by rw [upd_same, h6], fun _ hc => ?_, fun hc => absurd hc ha, fun hc => absurd hc ha, fun _ hc => absurd h3 hc⟩
        · rw [h3] at hc; cases hc
        · rw [h3] at hc; cases hc
        · rw [hng] at hc; cases hc
      · have hb : ¬ UnderBase (g ++ [n]) n := fun hc => htg ((hub pa hpa).2 hc)
        refine ⟨fun _ hc => absurd hc hb, fun _ _ => by rw [upd_same, h6], fun hc => ?_, fun hc => ?_, fun hc => absurd hc ha, fun hc => absurd hc ha, fun hc => absurd h3 hc⟩
        all_goals rw [h3] at hc; cases hc
  | neg q pa pp c cs h1 h3 hng hpa hpp hnd h4 h5 h6 =>
    have hpl := hpar pa hpa
    have hpp' : (s.elt pa).pred = some pp := by rw [← hej pa (by omega)]; exact hpp
    have hppn : pp < s.npred := h.cell pa pp hpl (.inl hpp')
    rw [upd_ne _ _ (by omega), upd_ne _ _ (by omega), hp2] at hnd
    have hbind : n.parent.bind (fun pa => (s.elt pa).pred) = some pp := by rw [hpa]; exact hpp'
    refine ⟨_, main (some (s2.npred + 1)) (by omega) ?_ ?_ ?_ ?_ ?_⟩
    · intro p hp
      rw [h4, hbind]
      by_cases hpe : pp = p
      · subst hpe
        rw [upd_same, if_pos rfl, hnd]; rfl
      · rw [upd_ne _ _ (Ne.symm hpe), upd_ne _ _ (by omega), upd_ne _ _ (by omega), if_neg (by simpa using hpe), hp2]
    · intro q' hq
      have : s2.npred = q' ∨ s2.npred + 1 = q' := by
        rcases hq with hq | hq
        · rw [h6] at hq; exact .inl (by simpa using hq)
        · rw [upd_same] at hq; exact .inr (by simpa using hq)
      omega
    · intro hc; rw [h1] at hc; simp at hc
    · intro q' hq
      rw [h1] at hq
      obtain rfl : q = q' := by simpa using hq
      refine ⟨_, h6, ?_⟩
      rw [h4, upd_ne _ _ (by omega), upd_ne _ _ (by omega), upd_same]
      rw [h3] at h1
      simp only [openNode, Option.some.injEq] at h1
      rw [← h1]; rfl
    · have ha := opened_not q h1
      refine ⟨fun hc => ?_, fun hc => ?_, fun _ hc => ?_, fun _ _ => ⟨_, _, h6, upd_same _ _ _, by omega, ?_⟩, fun hc => absurd hc ha, fun hc => absurd hc ha, fun _ hc => absurd h3 hc⟩
      · rw [h3] at hc; cases hc
      · rw [h3] at hc; cases hc
      · rw [hng] at hc; cases hc
      · rw [h4, upd_ne _ _ (by omega), upd_same]

theorem effAll_attrs (j : Nat) : ∀ (i : Nat) (l : List Note) (e : Elt), (∀ n ∈ l, n.parent = some j → n.push ≠ .descriptorParam) →
    (effAll j i l e).attrs = e.attrs
  | _, [], _, _ => rfl
  | i, n :: l, e, h => by
    rw [effAll, effAll_attrs j (i + 1) l _ fun m hm => h m (by simp [hm])]
    unfold Note.eff
    have hc : (if n.conn = some j then connApply (roleEff n.push n.tag n.get n.parent) (testEff n.push n.tag n.get) e else e).attrs = e.attrs := by
      split <;> rfl
    split
    · rename_i hp
      have hd := h n (by simp) hp
      rw [← hc]
      generalize (if n.conn = some j then connApply (roleEff n.push n.tag n.get n.parent) (testEff n.push n.tag n.get) e else e) = e'
      revert hd
      cases n.push <;> intro hd <;> first | exact absurd rfl hd | rfl | (simp only [childEff]; split <;> first | rfl | (split <;> rfl))
    · exact hc

/-- The attributes of most elements are those that were checked. -/
theorem J.attrs {E : PRead} {scr : Rect} {z0 : Nat} {g : List Note} {s : PS} (h : J E scr z0 g s) {j : Nat} {n : Note} (hj : g[j]? = some n)
    (h1 : n.tag ≠ "region") (h2 : n.tag ≠ "descriptor") : (s.elt j).attrs = n.attrs := by
  have he := h.elt j n hj
  have ha : (eraseE (s.elt j)).attrs = (eraseE (effAll j 0 g n.base)).attrs := by rw [he]
  have ht := (h.tag hj).1
  have htt := (effAll_tag j 0 g n.base).1
  simp only [eraseE] at ha
  rw [if_neg (by rw [ht]; exact h1), if_neg (by rw [htt]; exact h1), effAll_attrs] at ha
  · exact ha
  · intro m hm hp hd
    obtain ⟨i, hi, hi2⟩ := List.getElem_of_mem hm
    obtain ⟨-, m', hm', e, he, het, hmem⟩ := (h.ok i m (by rw [List.getElem?_eq_getElem hi, hi2])).parent j hp
    rw [hj] at hm'
    obtain rfl : n = m' := by simpa using hm'
    obtain ⟨e', hs, -⟩ := (h.ok i m (by rw [List.getElem?_eq_getElem hi, hi2])).syn
    obtain ⟨he', het'⟩ := syntaxOf_mem hs
    have hpush : m.push = e'.push := by unfold Note.push pushOf; rw [hs]
    have hd' := (pushOf_tables e' he').2.2.1 (hpush ▸ hd)
    have : m.tag = "descriptorParam" := het' ▸ ((table_push e' he').2.2.1 (hpush ▸ hd)).1
    have hpar : ∀ e ∈ syntaxTable, e.tag = "descriptorParam" → e.parents = ["descriptor"] := by decide +kernel
    rw [hpar e he (het.trans this)] at hmem
    exact h2 (by simpa using hmem)

/-- A pop function keeps the invariant. -/
theorem J.pop {E : PRead} {scr : Rect} {z0 : Nat} {g : List Note} {s t : PS} {f : Pop} {k : Nat} (h : J E scr z0 g s) (ht : Popped f s t k) :
    J E scr z0 g t := by
  have he : ∀ j, eraseE (t.elt j) = eraseE (s.elt j) := by
    intro j
    by_cases hj : j = k
    · subst hj
      rw [ht.own]
      simp only [eraseE]
      have := ht.rules
      have h2 : ∀ l l' : List (Nat × Option Nat), l.map Prod.fst = l'.map Prod.fst →
          l.map (fun r => (r.1, (none : Option Nat))) = l'.map fun r => (r.1, none) := by
        intro l l' hl
        have := congrArg (List.map fun a => (a, (none : Option Nat))) hl
        rw [List.map_map, List.map_map] at this
        exact this
      rw [h2 _ _ this]
    · rw [ht.other j hj]
  refine ⟨h.len.trans ht.nelt.symm, h.ok, fun j n hj => (he j).trans (h.elt j n hj), fun j n hj hn => ?_, ht.zorder ▸ h.zle, ?_, h.zlt⟩
  · rw [← h.region j n hj hn]
    by_cases hjk : j = k
    · subst hjk; rw [ht.own]
    · rw [ht.other j hjk]
  · rw [ht.zorder]; exact h.z

/-- A pop function keeps the predicates; an assessment is then attached. -/
theorem PI.pop {E : PRead} {scr : Rect} {z0 : Nat} {g0 l : List Note} {n : Note} {O : List Nat} {π : Nat → Option Nat} {s t : PS} {k : Nat}
    (h : PI (g0 ++ n :: l) (if n.tag = "assessmentStatement" then k :: O else O) π s) (hJ : J E scr z0 (g0 ++ n :: l) s) (hk : k = g0.length)
    (hO : ∀ j ∈ O, j < k) (hl : ∀ m ∈ l, ∀ p, m.parent = some p → k ≤ p) {f : Pop} (ht : Popped f s t k)
    (hf : f = .assessmentStatement ↔ n.tag = "assessmentStatement") : ∃ π', PI (g0 ++ n :: l) O π' t := by
  have hgk : (g0 ++ n :: l)[k]? = some n := by rw [hk]; simp
  have hpo : ∀ j, (t.elt j).pred = (s.elt j).pred ∧ (t.elt j).left = (s.elt j).left ∧ (t.elt j).right = (s.elt j).right := by
    intro j
    by_cases hj : j = k
    · subst hj; rw [ht.own]; exact ⟨rfl, rfl, rfl⟩
    · rw [ht.other j hj]; exact ⟨rfl, rfl, rfl⟩
  cases ht.pred with
  | same h1 h2 h3 =>
    rw [if_neg fun hc => h1 (hf.2 hc)] at h
    exact ⟨π, h.congr (fun j => (hpo j).1) (fun j => (hpo j).2.1) (fun j => (hpo j).2.2) h2 h3⟩
  | add pa pp c cs lv rv comp op h1 h2 h3 h4 h5 h6 h7 h8 h9 h10 =>
    have hta := hf.1 h1
    rw [if_pos hta] at h
    have hat := h.att k n hgk
    have hok := hJ.ok k n hgk
    have hpk : π k = none := hat.opn hta List.mem_cons_self
    have hpar : n.parent = some pa := by rw [← (hJ.tag hgk).2]; exact h6
    have hpn : pa < k := (hok.parent pa hpar).1
    have hkl : k < (g0 ++ n :: l).length := getElem?_lt hgk
    have hpush : n.push = .none := by
      obtain ⟨e, he, -⟩ := hok.syn
      obtain ⟨hm, htg⟩ := syntaxOf_mem he
      unfold Note.push pushOf
      rw [he]
      exact (table_assess e hm).2 (htg.trans hta)
    have hkpred : (s.elt k).pred = none := h.closed k n hgk (by rw [hpush]; rfl)
    have hppn : pp < s.npred := h.cell pa pp (by omega) (.inl h7)
    rw [upd_ne _ _ (by omega)] at h8
    refine ⟨upd π k (some s.npred), h.step (par := n.parent) (fun _ _ _ h => h) (fun _ _ h => h) ?_ ?_ ?_ ?_ hkl ?_ (fun j _ => (hpo j).1) ?_ (by omega) ?_ ?_ ?_ ?_ ?_⟩
    · intro j m p hj hp
      have := ((hJ.ok j m hj).parent p hp).1
      have := getElem?_lt hj
      omega
    · intro p hp
      obtain rfl : pa = p := by rw [hpar] at hp; simpa using hp
      omega
    · intro j hj; simp [hj]
    · intro j hj; have := hO j hj; omega
    · intro j hj hjl
      have hsplit : ∀ π, kidsOf π j 0 (g0 ++ n :: l) = kidsOf π j 0 g0 ++ ((if n.parent = some j then (π k).toList else []) ++ kidsOf π j (k + 1) l) := by
        intro π
        rw [kidsOf_append, hk, Nat.zero_add]; rfl
      rw [hsplit, hsplit, kidsOf_congr (π := π) j 0 g0 fun m _ hm => upd_ne _ _ (by omega),
        kidsOf_congr (π := π) j (k + 1) l fun m hm _ => upd_ne _ _ (by omega), upd_same, hpk]
      by_cases hpj : n.parent = some j
      · have : kidsOf π j (k + 1) l = [] := kidsOf_none _ _ _ _ fun m hm hc => by
          have := hl m hm j hc
          rw [hpar] at hpj
          have : pa = j := by simpa using hpj
          omega
        simp [hpj, this]
      · simp [hpj]
    · intro j lv rv _ hlv hrv
      rw [(hpo j).2.1, (hpo j).2.2]; exact ⟨hlv, hrv⟩
    · intro p hp
      rw [h9, hpar]
      show _ = if (s.elt pa).pred = some p then _ else _
      rw [h7]
      by_cases hpe : pp = p
      · subst hpe
        rw [upd_same, if_pos rfl, h8]; rfl
      · rw [upd_ne _ _ (Ne.symm hpe), upd_ne _ _ (by omega), if_neg (by simpa using hpe)]
    · intro q hq
      rcases hq with hq | hq
      · rw [(hpo k).1, hkpred] at hq; simp at hq
      · rw [upd_same] at hq
        have : s.npred = q := by simpa using hq
        omega
    · intro _ _ _; rw [(hpo k).1]; exact hkpred
    · intro m q hm hq
      rw [hgk] at hm
      obtain rfl : n = m := by simpa using hm
      rw [hpush] at hq; simp [openNode] at hq
    · intro m hm
      rw [hgk] at hm
      obtain rfl : n = m := by simpa using hm
      have hko : k ∉ O := fun hc => by have := hO k hc; omega
      refine ⟨fun hc => ?_, fun hc => ?_, fun hc => ?_, fun hc => ?_, fun _ hc => absurd hc hko, fun _ _ => ?_, fun _ _ hc => absurd hta hc⟩
      · rw [hpush] at hc; cases hc
      · rw [hpush] at hc; cases hc
      · rw [hpush] at hc; cases hc
      · rw [hpush] at hc; cases hc
      · refine ⟨s.npred, lv, comp, op, rv, upd_same _ _ _, ?_, (hpo k).2.1.trans h4, (hpo k).2.2.trans h5, ?_, h3⟩
        · rw [h9, upd_ne _ _ (by omega), upd_same]
        · rw [← h2]
          unfold PS.attr Note.get
          rw [hJ.attrs hgk (by rw [hta]; decide) (by rw [hta]; decide)]

end Ginga
