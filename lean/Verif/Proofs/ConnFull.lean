import Verif.Proofs.LinkEnd
/-!
# Connectors have conditions and actions
-/
namespace Ginga

/-- Some element of the connector `j` gives it a role of this kind. -/
def GivesRole (g : List Note) (j : Nat) (cond : Bool) : Prop :=
  ∃ n ∈ g, n.conn = some j ∧ ∃ r ∈ roleEff n.push n.tag n.get n.parent, r.cond = cond

/-- Every connector that is closed has a condition and an action. -/
def ConnK (g : List Note) (S : List Nat) : Prop :=
  ∀ (j : Nat) (n : Note), g[j]? = some n → n.tag = "causalConnector" → j ∉ S → ∀ c, GivesRole g j c

theorem ConnK.push {g : List Note} {S : List Nat} (h : ConnK g S) (nt : Note) {k : Nat} (hk : k = g.length) : ConnK (g ++ [nt]) (k :: S) := by
  intro j n hj ht hS c
  rcases append_key hj with ⟨hlt, hj⟩ | ⟨hl, rfl⟩
  · obtain ⟨n', h1, h2⟩ := h j n hj ht (fun hc => hS (by simp [hc])) c
    exact ⟨n', by simp [h1], h2⟩
  · exact absurd (by simp [hl, hk]) hS

theorem roles_gives {E : PRead} {scr : Rect} {z : Nat} {g : List Note} {s : PS} (hj : J E scr z g s) {j : Nat} {n : Note} (hn : g[j]? = some n) (c : Bool) :
    (∃ r ∈ (s.elt j).roles, r.cond = c) ↔ GivesRole g j c := by
  have he := hj.elt j n hn
  obtain ⟨r1, -⟩ := effAll_conn j 0 g n.base
  have h1 : (s.elt j).roles = (effAll j 0 g n.base).roles := (congrArg Elt.roles he : (eraseE (s.elt j)).roles = _)
  rw [h1, r1]
  simp only [Note.base, List.nil_append, List.mem_flatMap, List.mem_filter, beq_iff_eq]
  constructor
  · rintro ⟨r, ⟨m, ⟨h1, h2⟩, h3⟩, h4⟩; exact ⟨m, h1, h2, r, h3, h4⟩
  · rintro ⟨m, h1, h2, r, h3, h4⟩; exact ⟨r, ⟨m, ⟨h1, h2⟩, h3⟩, h4⟩

theorem connK_rides (E : PRead) (scr : Rect) (z0 : Nat) : Rides E scr z0 (fun g S _ => ConnK g S) where
  same g S s y al ca _ h := h
  push g S s s2 par pt x e r y nt proc a t hn h _ _ _ _ := h.push nt hn.j.len.symm
  imp g S s s2 par pt x e r y nt hn h _ := h.push nt hn.j.len.symm
  pop g O S s k nt e n a t hj hpi h hk hsyn hne hrun hp := by
    intro j m hm ht hS
    by_cases hc : j = k
    · subst hc
      rw [hk] at hm
      obtain rfl : nt = m := by simpa using hm
      have hpo : e.pop = .causalConnector := by
        have : ∀ e ∈ syntaxTable, e.tag = "causalConnector" → e.pop = .causalConnector := by decide +kernel
        obtain ⟨h1, h2⟩ := syntaxOf_mem hsyn
        exact this e h1 (h2.trans ht)
      rw [hpo] at hrun
      have key : PPost (popCausalConnector j) (fun _ _ => ∀ c, ∃ r ∈ (s.elt j).roles, r.cond = c) s := by
        unfold popCausalConnector
        refine PPost.bind (PPost.modify (PPost.bind (PPost.get ?_)))
        split
        · next h =>
          simp only [List.any_eq_true, Bool.not_eq_true'] at h
          exact PPost.pure fun c => match c with | false => h.2 | true => h.1
        · exact PPost.err
      exact fun c => (roles_gives hj hk c).1 (key a t hrun c)
    · exact h j m hm ht (by simp [hc, hS])

/-- Every connector of the document has a condition and an action. -/
theorem ConnK.full {E : PRead} {scr : Rect} {z : Nat} {x : Xml} {t u : PS} {ns : List Note} {f : Nat → Nat} (h : ConnK ns [0]) (hd : DocTree E scr x t ns f) (hj : J E scr z ns u) (hl : LinkK f ns u)
    {k : Nat} {n : Note} (hk : ns[k]? = some n) (ht : n.tag = "causalConnector") (c : Bool) :
    ∃ y ∈ rolesInAll [] n.xml.children, (y.1.tag = "simpleCondition" ∨ y.1.tag = "simpleAction") ∧ (y.1.tag == "simpleCondition") = c := by
  have h0 : k ∉ [0] := by
    intro h0
    obtain rfl : k = 0 := by simpa using h0
    have := hd.laid
    cases this with
    | cons h1 h2 h3 h4 h5 h6 =>
      obtain rfl : _ = n := by simpa using hk
      have : x.tag = "causalConnector" := by rw [← h2]; exact ht
      rw [hd.root] at this; revert this; decide
  obtain ⟨r, h1, h2⟩ := (roles_gives hj hk c).2 (h k n hk ht h0 c)
  obtain ⟨y, h3, h4⟩ := (conn_roles hd hj hl hk ht).1.mem_right h1
  obtain ⟨p, -, -, h5, -, h6, -⟩ := roleFrom_xml hd h4
  exact ⟨y, h3, h5, h6 ▸ h2⟩

/-! ## Compound statements -/

/-- Every compound statement that is closed has two children, unless it is a negation. -/
def StmtLenK (g : List Note) (S : List Nat) : Prop :=
  ∀ (j : Nat) (n : Note), g[j]? = some n → n.tag = "compoundStatement" → j ∉ S → n.get "operator" ≠ some "not" → 2 ≤ (kidNotes j 0 g).length

theorem StmtLenK.push {g : List Note} {S : List Nat} (h : StmtLenK g S) (nt : Note) {k : Nat} (hk : k = g.length) : StmtLenK (g ++ [nt]) (k :: S) := by
  intro j n hj ht hS ho
  rcases append_key hj with ⟨hlt, hj⟩ | ⟨hl, rfl⟩
  · have := h j n hj ht (fun hc => hS (by simp [hc])) ho
    rw [kidNotes_append, List.length_append]
    omega
  · exact absurd (by simp [hl, hk]) hS

theorem flatMap_option {α β : Type} (f : α → Option β) : ∀ l : List α, (l.flatMap fun a => (f a).toList).length ≤ l.length
  | [] => Nat.le_refl _
  | a :: l => by
    have := flatMap_option f l
    rw [List.flatMap_cons, List.length_append, List.length_cons]
    cases f a
    · rw [Option.toList_none, List.length_nil]; omega
    · rw [Option.toList_some, List.length_singleton]; omega

theorem stmtLenK_rides (E : PRead) (scr : Rect) (z0 : Nat) : Rides E scr z0 (fun g S _ => StmtLenK g S) where
  same g S s y al ca _ h := h
  push g S s s2 par pt x e r y nt proc a t hn h _ _ _ _ := h.push nt hn.j.len.symm
  imp g S s s2 par pt x e r y nt hn h _ := h.push nt hn.j.len.symm
  pop g O S s k nt e n a t hj hpi h hk hsyn hne hrun hp := by
    intro j m hm ht hS ho
    by_cases hc : j = k
    · subst hc
      rw [hk] at hm
      obtain rfl : nt = m := by simpa using hm
      obtain ⟨⟨π, hpi⟩, -⟩ := hpi
      have hpu : nt.push = .compoundStatement := by unfold Note.push; rw [ht]; decide +kernel
      have hpo : e.pop = .compoundStatement := by
        have : ∀ e ∈ syntaxTable, e.tag = "compoundStatement" → e.pop = .compoundStatement := by decide +kernel
        obtain ⟨h1, h2⟩ := syntaxOf_mem hsyn
        exact this e h1 (h2.trans ht)
      obtain ⟨p, h1, h2⟩ := hpi.opened j nt _ hk (by rw [hpu]; rfl)
      rw [hpo] at hrun
      have key : PPost (popCompoundStatement j) (fun _ _ => ∃ p c cs, (s.elt j).pred = some p ∧ s.pnode p = .node c cs ∧ (c ≠ .not → 2 ≤ cs.length)) s := by
        unfold popCompoundStatement
        refine PPost.bind (PPost.get (PPost.bind (PPost.some! fun p hp => ?_)))
        split
        · exact PPost.abort
        · next cs hcs =>
          split
          · exact PPost.err
          · exact PPost.pure ⟨p, _, cs, hp, hcs, fun hc => absurd rfl hc⟩
        · next c cs _ hcs =>
          split
          · exact PPost.err
          · next hl => exact PPost.pure ⟨p, _, cs, hp, hcs, fun _ => by omega⟩
      obtain ⟨p', c, cs, g1, g2, g3⟩ := key a t hrun
      rw [h1] at g1; cases g1
      rw [h2, kidsOf_notes] at g2
      simp only [PNode.withKids, PNode.node.injEq] at g2
      obtain ⟨g2, g4⟩ := g2
      have hcn : c ≠ .not := by
        rw [← g2]
        intro hc
        unfold connOf at hc
        split at hc
        · next hv =>
          cases hop : nt.get "operator" with
          | none => rw [hop] at hv; exact absurd hv (by decide)
          | some v => rw [hop] at hv ho; exact ho (congrArg some hv)
        · split at hc
          · exact absurd hc (by decide)
          · split at hc <;> exact absurd hc (by decide)
      have := g3 hcn
      rw [← g4] at this
      exact Nat.le_trans this (flatMap_option (fun q : Nat × Note => π q.1) _)
    · exact h j m hm ht (by simp [hc, hS]) ho

theorem StmtLenK.full {E : PRead} {scr : Rect} {x : Xml} {t : PS} {ns : List Note} {f : Nat → Nat} (h : StmtLenK ns [0]) (hd : DocTree E scr x t ns f) {k : Nat} {n : Note} (hk : ns[k]? = some n)
    (ht : n.tag = "compoundStatement") (ho : n.xml.prop "operator" ≠ some "not") : 2 ≤ n.xml.children.length := by
  have h0 : k ∉ [0] := by
    intro h0
    obtain rfl : k = 0 := by simpa using h0
    have := hd.laid
    cases this with
    | cons h1 h2 h3 h4 h5 h6 =>
      obtain rfl : _ = n := by simpa using hk
      have : x.tag = "compoundStatement" := by rw [← h2]; exact ht
      rw [hd.root] at this; revert this; decide
  have hop : n.get "operator" = n.xml.prop "operator" := table_plain _ stmt_plain (hd.ok k n hk) (by rw [ht]; decide) (by decide)
  have := h k n hk ht h0 (hop ▸ ho)
  rw [← hd.kids hk, List.length_map]
  exact this

end Ginga
