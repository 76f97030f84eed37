import Verif.Proofs.Content
/-!
# What the XML says about the parser's elements

A list of notes, one per element of the parser, in order of creation: where it comes from in the XML, and what it contributes to the
elements above it.  The invariant `J`: every element is what the notes say.
-/
namespace Ginga

/-- What is known of an element: the alias prefix, the number of the parent, the XML element, its checked attributes, the
enclosing connector, the rectangle of the nearest region and the z-order. -/
structure Note where
  pre : String
  parent : Option Nat
  xml : Xml
  attrs : List (String × String)
  conn : Option Nat
  rect : Rect
  z : Nat

namespace Note
def tag (n : Note) : String := n.xml.tag
def get (n : Note) (a : String) : Option String := mget a n.attrs
def push (n : Note) : Push := pushOf n.tag
/-- The element as it is created. -/
def base (n : Note) : Elt := { tag := n.tag, parent := n.parent, attrs := n.attrs }
/-- What the element with number `i` adds to the element `j`. -/
def eff (n : Note) (i j : Nat) (e : Elt) : Elt :=
  (if n.parent = some j then childEff n.push i n.tag n.get else id)
    (if n.conn = some j then connApply (roleEff n.push n.tag n.get n.parent) (testEff n.push n.tag n.get) e else e)
end Note

/-- What a list of elements, numbered from `i`, adds to the element `j`. -/
def effAll (j : Nat) : Nat → List Note → Elt → Elt
  | _, [], e => e
  | i, n :: l, e => effAll j (i + 1) l (n.eff i j e)

theorem effAll_append (j : Nat) : ∀ (i : Nat) (l1 l2 : List Note) (e : Elt), effAll j i (l1 ++ l2) e = effAll j (i + l1.length) l2 (effAll j i l1 e)
  | _, [], _, _ => rfl
  | i, n :: l1, l2, e => by
    simp only [List.cons_append, effAll, List.length_cons]
    rw [effAll_append j (i + 1) l1 l2, show i + 1 + l1.length = i + (l1.length + 1) by omega]

theorem effAll_none (j : Nat) : ∀ (i : Nat) (l : List Note) (e : Elt), (∀ n ∈ l, n.parent ≠ some j ∧ n.conn ≠ some j) → effAll j i l e = e
  | _, [], _, _ => rfl
  | i, n :: l, e, h => by
    have hn := h n (by simp)
    have : n.eff i j e = e := by simp [Note.eff, hn.1, hn.2]
    rw [effAll, this]
    exact effAll_none j (i + 1) l e fun m hm => h m (by simp [hm])

/-- Up to predicate, context, resolved rules, and geometry of regions. -/
def eraseE (e : Elt) : Elt :=
  { e with pred := none, context := none, rules := e.rules.map fun r => (r.1, none), attrs := if e.tag = "region" then [] else e.attrs }

theorem eraseE_childEff (f : Push) (k : Nat) (tag : String) (a : String → Option String) {e e' : Elt} (h : eraseE e = eraseE e') :
    eraseE (childEff f k tag a e) = eraseE (childEff f k tag a e') := by
  obtain ⟨t, p, at', pr, l, r, po, sp, ru, ma, co, bi, pa, ro, te⟩ := e
  obtain ⟨t', p', at2, pr', l', r', po', sp', ru', ma', co', bi', pa', ro', te'⟩ := e'
  simp only [eraseE, Elt.mk.injEq] at h
  obtain ⟨rfl, rfl, h3, -, rfl, rfl, rfl, rfl, h9, rfl, -, rfl, rfl, rfl, rfl⟩ := h
  by_cases ht : t = "region"
  · cases f <;> simp only [childEff, eraseE, Elt.mk.injEq, h9, ht, if_true, true_and, and_true, List.map_append]
    split
    · simp [h9]
    · split <;> simp [h9]
  · simp only [ht, if_false] at h3
    subst h3
    cases f <;> simp only [childEff, eraseE, Elt.mk.injEq, h9, ht, if_false, true_and, and_true, List.map_append]
    split
    · simp [h9]
    · split <;> simp [h9]

theorem eraseE_connApply (rs : List Role) (ts : List String) {e e' : Elt} (h : eraseE e = eraseE e') :
    eraseE (connApply rs ts e) = eraseE (connApply rs ts e') := by
  obtain ⟨t, p, at', pr, l, r, po, sp, ru, ma, co, bi, pa, ro, te⟩ := e
  obtain ⟨t', p', at2, pr', l', r', po', sp', ru', ma', co', bi', pa', ro', te'⟩ := e'
  simp only [eraseE, Elt.mk.injEq] at h
  obtain ⟨rfl, rfl, h3, -, rfl, rfl, rfl, rfl, h9, rfl, -, rfl, rfl, rfl, rfl⟩ := h
  simp only [connApply, eraseE, h9, Elt.mk.injEq, true_and, and_true]
  exact h3

theorem eraseE_eff (n : Note) (i j : Nat) {e e' : Elt} (h : eraseE e = eraseE e') : eraseE (n.eff i j e) = eraseE (n.eff i j e') := by
  unfold Note.eff
  have h1 : eraseE (if n.conn = some j then connApply (roleEff n.push n.tag n.get n.parent) (testEff n.push n.tag n.get) e else e) =
      eraseE (if n.conn = some j then connApply (roleEff n.push n.tag n.get n.parent) (testEff n.push n.tag n.get) e' else e') := by
    split
    · exact eraseE_connApply _ _ h
    · exact h
  split
  · exact eraseE_childEff _ _ _ _ h1
  · exact h1

/-- The connector that encloses the children of an element. -/
def connFor (g : List Note) : Option Nat → Option Nat
  | none => none
  | some p => match g[p]? with
    | none => none
    | some m => if m.tag = "causalConnector" then some p else m.conn

/-- The rectangle that the children of an element refer to. -/
def rectFor (scr : Rect) (g : List Note) : Option Nat → Rect
  | none => scr
  | some p => match g[p]? with
    | none => scr
    | some m => m.rect

/-- A note is right. -/
structure NoteOk (E : PRead) (scr : Rect) (g : List Note) (j : Nat) (n : Note) : Prop where
  syn : ∃ e, syntaxOf n.tag = some e ∧ AttrsOf e n.pre n.xml n.attrs
  parent : ∀ p, n.parent = some p → p < j ∧ ∃ m, g[p]? = some m ∧ ∃ e ∈ syntaxTable, e.tag = n.tag ∧ m.tag ∈ e.parents
  conn : n.conn = connFor g n.parent
  connLt : ∀ c, n.conn = some c → c < j
  region : n.tag = "region" → regionRect E n.get (rectFor scr g n.parent) = .ok n.rect
  other : n.tag ≠ "region" → n.rect = rectFor scr g n.parent

theorem connFor_append {g : List Note} {p : Option Nat} (l : List Note) (h : ∀ q, p = some q → q < g.length) : connFor (g ++ l) p = connFor g p := by
  cases p with
  | none => rfl
  | some q => simp only [connFor, List.getElem?_append_left (h q rfl)]

theorem rectFor_append {scr : Rect} {g : List Note} {p : Option Nat} (l : List Note) (h : ∀ q, p = some q → q < g.length) :
    rectFor scr (g ++ l) p = rectFor scr g p := by
  cases p with
  | none => rfl
  | some q => simp only [rectFor, List.getElem?_append_left (h q rfl)]

theorem getElem?_lt {α : Type} {l : List α} {i : Nat} {a : α} (h : l[i]? = some a) : i < l.length := by
  obtain ⟨h, -⟩ := List.getElem?_eq_some_iff.1 h
  exact h

theorem NoteOk.append {E : PRead} {scr : Rect} {g : List Note} {j : Nat} {n : Note} (h : NoteOk E scr g j n) (l : List Note) : NoteOk E scr (g ++ l) j n where
  syn := h.syn
  parent p hp := by
    obtain ⟨h1, m, hm, he⟩ := h.parent p hp
    exact ⟨h1, m, by rw [List.getElem?_append_left (getElem?_lt hm)]; exact hm, he⟩
  conn := by
    rw [connFor_append l fun q hq => ?_]
    · exact h.conn
    · obtain ⟨-, m, hm, -⟩ := h.parent q hq
      exact getElem?_lt hm
  connLt := h.connLt
  region ht := by
    rw [rectFor_append l fun q hq => ?_]
    · exact h.region ht
    · obtain ⟨-, m, hm, -⟩ := h.parent q hq
      exact getElem?_lt hm
  other ht := by
    rw [rectFor_append l fun q hq => ?_]
    · exact h.other ht
    · obtain ⟨-, m, hm, -⟩ := h.parent q hq
      exact getElem?_lt hm

/-- Every element is what the notes say. -/
structure J (E : PRead) (scr : Rect) (z0 : Nat) (g : List Note) (s : PS) : Prop where
  len : g.length = s.nelt
  ok : ∀ j n, g[j]? = some n → NoteOk E scr g j n
  elt : ∀ j n, g[j]? = some n → eraseE (s.elt j) = eraseE (effAll j 0 g n.base)
  region : ∀ j n, g[j]? = some n → n.tag = "region" → (s.elt j).attrs = regionAttrs E scr n.rect n.z n.attrs
  zle : z0 ≤ s.zorder
  z : ∀ (j : Nat) (n : Note), g[j]? = some n → n.tag = "region" → z0 ≤ n.z ∧ n.z < s.zorder
  zlt : ∀ (i j : Nat) (m n : Note), i < j → g[i]? = some m → g[j]? = some n → m.tag = "region" → n.tag = "region" → m.z < n.z

theorem J.congr {E : PRead} {scr : Rect} {z0 : Nat} {g : List Note} {s t : PS} (h : J E scr z0 g s) (h1 : t.nelt = s.nelt) (h2 : t.elt = s.elt)
    (h3 : t.zorder = s.zorder) : J E scr z0 g t where
  len := h.len.trans h1.symm
  ok := h.ok
  elt := by rw [h2]; exact h.elt
  region := by rw [h2]; exact h.region
  zle := h3 ▸ h.zle
  z := by rw [h3]; exact h.z
  zlt := h.zlt

theorem pushOf_tables : ∀ e ∈ syntaxTable, (e.push = .region ↔ e.tag = "region") ∧ (e.push = .causalConnector ↔ e.tag = "causalConnector") ∧
    (e.push = .descriptorParam → e.parents = ["descriptor"]) ∧ (e.pop = .region ↔ e.tag = "region") ∧
    (e.pop = .causalConnector ↔ e.tag = "causalConnector") ∧ (e.pop = .ncl ↔ e.tag = "ncl") ∧ (e.parents = [] ↔ e.tag = "ncl") := by
  decide +kernel

theorem effAll_tag (j : Nat) : ∀ (i : Nat) (l : List Note) (e : Elt), (effAll j i l e).tag = e.tag ∧ (effAll j i l e).parent = e.parent
  | _, [], _ => ⟨rfl, rfl⟩
  | i, n :: l, e => by
    obtain ⟨h1, h2⟩ := effAll_tag j (i + 1) l (n.eff i j e)
    have : (n.eff i j e).tag = e.tag ∧ (n.eff i j e).parent = e.parent := by
      unfold Note.eff
      split
      · obtain ⟨h3, h4, -⟩ := childEff_tag n.push i n.tag n.get
          (if n.conn = some j then connApply (roleEff n.push n.tag n.get n.parent) (testEff n.push n.tag n.get) e else e)
        rw [h3, h4]
        split <;> exact ⟨rfl, rfl⟩
      · show (if _ then _ else e).tag = _ ∧ (if _ then _ else e).parent = _
        split <;> exact ⟨rfl, rfl⟩
    exact ⟨h1.trans this.1, h2.trans this.2⟩

theorem J.tag {E : PRead} {scr : Rect} {z0 : Nat} {g : List Note} {s : PS} (h : J E scr z0 g s) {j : Nat} {n : Note} (hj : g[j]? = some n) :
    (s.elt j).tag = n.tag ∧ (s.elt j).parent = n.parent := by
  have := h.elt j n hj
  have h1 : (eraseE (s.elt j)).tag = (eraseE (effAll j 0 g n.base)).tag := by rw [this]
  have h2 : (eraseE (s.elt j)).parent = (eraseE (effAll j 0 g n.base)).parent := by rw [this]
  have h3 := effAll_tag j 0 g n.base
  exact ⟨h1.trans h3.1, h2.trans h3.2⟩

/-- A push function keeps the invariant. -/
theorem J.push {E : PRead} {scr : Rect} {z0 : Nat} {g : List Note} {s s2 t : PS} (h : J E scr z0 g s) {x : Xml} {par : Option Nat} {pre : String}
    {r : List (String × String)} {e : EltSyn} (hsyn : syntaxOf x.tag = some e) (hattrs : AttrsOf e pre x r)
    (hpar : ∀ p, par = some p → ∃ m, g[p]? = some m ∧ m.tag ∈ e.parents)
    (h2 : s2.elt = upd s.elt s.nelt { tag := x.tag, parent := par, attrs := r }) (hn2 : s2.nelt = s.nelt + 1)
    (hconn2 : s2.conn = connFor g par) (hrect2 : s2.rects.head? = some (rectFor scr g par)) (hlast2 : s2.rects.getLast? = some scr)
    (hz2 : s2.zorder = s.zorder) (ht : Pushed E e.push s2 t s.nelt) :
    ∃ n : Note, n.pre = pre ∧ n.parent = par ∧ n.xml = x ∧ n.attrs = r ∧ J E scr z0 (g ++ [n]) t ∧ connFor (g ++ [n]) (some s.nelt) = t.conn ∧
      t.rects.head? = some (rectFor scr (g ++ [n]) (some s.nelt)) ∧ t.rects.getLast? = some scr ∧
      (t.rects = if x.tag = "region" then n.rect :: s2.rects else s2.rects) := by
  obtain ⟨hmem, htag⟩ := syntaxOf_mem hsyn
  obtain ⟨tb1, tb2, tb3, -, -, -, -⟩ := pushOf_tables e hmem
  rw [htag] at tb1 tb2
  have hek : s2.elt s.nelt = { tag := x.tag, parent := par, attrs := r } := by rw [h2]; exact upd_same _ _ _
  have hpushof : pushOf x.tag = e.push := by unfold pushOf; rw [hsyn]
  have hparlt : ∀ p, par = some p → p < g.length := fun p hp => by obtain ⟨m, hm, -⟩ := hpar p hp; exact getElem?_lt hm
  have hcl : ∀ c, connFor g par = some c → c < s.nelt := by
    intro c hc
    cases hp : par with
    | none => rw [hp] at hc; simp [connFor] at hc
    | some p =>
      obtain ⟨m, hm, -⟩ := hpar p hp
      have hpl : p < g.length := getElem?_lt hm
      rw [hp] at hc
      simp only [connFor, hm] at hc
      split at hc
      · obtain rfl : p = c := by simpa using hc
        rw [← h.len]; exact hpl
      · have := (h.ok p m hm).connLt c hc
        have := h.len
        omega
  -- the note
  let n : Note := { pre := pre, parent := par, xml := x, attrs := r, conn := connFor g par,
                    rect := if x.tag = "region" then t.rects.headD scr else rectFor scr g par, z := s.zorder }
  have hgk : (g ++ [n])[s.nelt]? = some n := by rw [← h.len]; simp
  have hold : ∀ j m, (g ++ [n])[j]? = some m → j < g.length ∧ g[j]? = some m ∨ j = s.nelt ∧ m = n := by
    intro j m hj
    by_cases hl : j < g.length
    · rw [List.getElem?_append_left hl] at hj
      exact .inl ⟨hl, hj⟩
    · have h1 := getElem?_lt hj
      simp only [List.length_append, List.length_cons, List.length_nil] at h1
      have hjk : j = s.nelt := by have := h.len; omega
      rw [hjk, hgk] at hj
      exact .inr ⟨hjk, by simpa using hj.symm⟩
  -- the region
  have hreg : x.tag = "region" → regionRect E (fun a => mget a r) (rectFor scr g par) = .ok n.rect ∧ t.rects = n.rect :: s2.rects ∧
      (t.elt s.nelt).attrs = regionAttrs E scr n.rect s.zorder r ∧ t.zorder = s.zorder + 1 := by
    intro hx
    obtain ⟨r0, r1, a1, a2, a3, a4, a5⟩ := ht.region (tb1.2 hx)
    have hn : n.rect = r1 := by show (if x.tag = "region" then t.rects.headD scr else _) = _; rw [if_pos hx, a3]; rfl
    rw [hrect2] at a1
    obtain rfl : rectFor scr g par = r0 := by simpa using a1
    have hatt : s2.attr s.nelt = fun a => mget a r := by funext a; unfold PS.attr; rw [hek]
    rw [hatt] at a2
    rw [hn, hz2] at *
    refine ⟨a2, a3, ?_, a5⟩
    rw [a4, hek]
    have : s2.rects.getLastD (rectFor scr g par) = scr := by
      cases hr : s2.rects with
      | nil => rw [hr] at hlast2; simp at hlast2
      | cons y ys =>
        rw [hr] at hlast2
        rw [List.getLastD_eq_getLast?, hlast2]; rfl
    rw [this]
  have hnoreg : x.tag ≠ "region" → n.rect = rectFor scr g par ∧ t.rects = s2.rects ∧ t.zorder = s.zorder := by
    intro hx
    obtain ⟨a1, a2⟩ := ht.rects fun hc => hx (tb1.1 hc)
    exact ⟨if_neg hx, a1, a2.trans hz2⟩
  have hzle : s.zorder ≤ t.zorder := by
    by_cases hx : x.tag = "region"
    · rw [(hreg hx).2.2.2]; omega
    · rw [(hnoreg hx).2.2]; exact Nat.le_refl _
  have hatt : s2.attr s.nelt = n.get := by funext a; unfold PS.attr Note.get; rw [hek]
  refine ⟨n, rfl, rfl, rfl, rfl, ?_, ?_, ?_, ?_, ?_⟩
  · refine ⟨?_, ?_, ?_, ?_, ?_, ?_, ?_⟩
    · rw [ht.nelt, hn2, ← h.len]; simp
    · intro j m hj
      rcases hold j m hj with ⟨-, hj⟩ | ⟨rfl, rfl⟩
      · exact (h.ok j m hj).append _
      · refine ⟨⟨e, hsyn, hattrs⟩, ?_, ?_, hcl, ?_, ?_⟩
        · intro p hp
          obtain ⟨m, hm, hme⟩ := hpar p hp
          have hpl := getElem?_lt hm
          exact ⟨h.len ▸ hpl, m, by rw [List.getElem?_append_left hpl]; exact hm, e, hmem, htag, hme⟩
        · exact (connFor_append [n] hparlt).symm
        · intro hx
          rw [show n.parent = par from rfl, rectFor_append [n] hparlt]
          exact (hreg hx).1
        · intro hx
          rw [show n.parent = par from rfl, rectFor_append [n] hparlt]
          exact (hnoreg hx).1
    · intro j m hj
      rw [effAll_append]
      rcases hold j m hj with ⟨hl, hj⟩ | ⟨rfl, rfl⟩
      · have hjk : j ≠ s.nelt := by have := h.len; omega
        rw [ht.other j hjk, hek, hatt, hconn2, show s2.elt j = s.elt j by rw [h2]; exact upd_ne _ _ hjk, Nat.zero_add, h.len]
        have := eraseE_eff n s.nelt j (h.elt j m hj)
        show eraseE _ = eraseE (n.eff s.nelt j _)
        rw [← this]
        unfold Note.eff
        rw [show n.push = e.push from hpushof]
        rfl
      · have hnone : ∀ m ∈ g, m.parent ≠ some s.nelt ∧ m.conn ≠ some s.nelt := by
          intro m hm
          obtain ⟨i, hi, hi2⟩ := List.getElem_of_mem hm
          have hg : g[i]? = some m := by rw [List.getElem?_eq_getElem hi, hi2]
          have hok := h.ok i m hg
          have := h.len
          exact ⟨fun hc => by have := (hok.parent _ hc).1; omega, fun hc => by have := hok.connLt _ hc; omega⟩
        rw [effAll_none _ _ g _ hnone, effAll_none]
        · rw [ht.own, hek]
          by_cases hx : x.tag = "region"
          · simp [eraseE, Note.base, Note.tag, n, hx]
          · have := ht.attrs fun hc => hx (tb1.1 hc)
            rw [hek] at this
            simp [eraseE, Note.base, Note.tag, n, hx, this]
        · intro m hm
          obtain rfl : m = n := by simpa using hm
          exact ⟨fun hc => by have := hparlt _ hc; have := h.len; omega, fun hc => by have := hcl _ hc; omega⟩
    · intro j m hj hm
      rcases hold j m hj with ⟨hl, hj⟩ | ⟨rfl, rfl⟩
      · have hjk : j ≠ s.nelt := by have := h.len; omega
        have hkeep : (t.elt j).attrs = (s.elt j).attrs := by
          rw [ht.other j hjk, show s2.elt j = s.elt j by rw [h2]; exact upd_ne _ _ hjk, hek]
          have hc : ∀ rs ts, (if s2.conn = some j then connApply rs ts (s.elt j) else s.elt j).attrs = (s.elt j).attrs := by
            intro rs ts
            split <;> rfl
          split
          · rename_i hp
            have hd : e.push ≠ .descriptorParam := by
              intro hd
              obtain ⟨m', hm', hme⟩ := hpar j hp
              rw [hj] at hm'
              obtain rfl : m = m' := by simpa using hm'
              rw [tb3 hd, hm] at hme
              simp at hme
            rw [show ∀ e', (childEff e.push s.nelt x.tag (s2.attr s.nelt) e').attrs = e'.attrs from fun e' => ?_]
            · exact hc _ _
            · revert hd
              cases e.push <;> intro hd <;> first | exact absurd rfl hd | rfl | (simp only [childEff]; split <;> first | rfl | (split <;> rfl))
          · exact hc _ _
        rw [hkeep]
        exact h.region j m hj hm
      · exact (hreg hm).2.2.1
    · exact Nat.le_trans h.zle hzle
    · intro j m hj hm
      rcases hold j m hj with ⟨hl, hj⟩ | ⟨rfl, rfl⟩
      · obtain ⟨a, b⟩ := h.z j m hj hm
        exact ⟨a, by omega⟩
      · refine ⟨h.zle, ?_⟩
        rw [(hreg hm).2.2.2]
        exact Nat.lt_succ_self _
    · intro i j m m' hij hi hj hm hm'
      rcases hold i m hi with ⟨hl, hi⟩ | ⟨rfl, rfl⟩
      · rcases hold j m' hj with ⟨hl', hj⟩ | ⟨rfl, rfl⟩
        · exact h.zlt i j m m' hij hi hj hm hm'
        · exact (h.z i m hi hm).2
      · have := getElem?_lt hj
        have := h.len
        simp at *
        omega
  · simp only [connFor, hgk]
    rw [ht.conn, hconn2, show n.tag = x.tag from rfl]
    by_cases hx : x.tag = "causalConnector"
    · rw [if_pos hx, if_pos (tb2.2 hx)]
    · rw [if_neg hx, if_neg fun hc => hx (tb2.1 hc)]
  · simp only [rectFor, hgk]
    by_cases hx : x.tag = "region"
    · rw [(hreg hx).2.1]; rfl
    · rw [(hnoreg hx).2.1, (hnoreg hx).1]; exact hrect2
  · by_cases hx : x.tag = "region"
    · rw [(hreg hx).2.1]
      cases hr : s2.rects with
      | nil => rw [hr] at hlast2; simp at hlast2
      | cons y ys => rw [hr] at hlast2; rw [List.getLast?_cons_cons]; exact hlast2
    · rw [(hnoreg hx).2.1]; exact hlast2
  · by_cases hx : x.tag = "region"
    · rw [if_pos hx]; exact (hreg hx).2.1
    · rw [if_neg hx]; exact (hnoreg hx).2.1

end Ginga
