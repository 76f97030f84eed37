import Verif.Proofs.StmtTruth
import Verif.Proofs.EndDoc
/-!
# The roles of connectors
-/
namespace Ginga

/-! ## Specification: the roles of a connector element -/

mutual
/-- The simple conditions and actions in an element, in document order, each with the compound conditions around it (`up`: those around the element). -/
def rolesIn (up : List Xml) : Xml → List (Xml × List Xml)
  | .elem tag attrs cs =>
    (if tag = "simpleCondition" ∨ tag = "simpleAction" then [(.elem tag attrs cs, up)] else []) ++
      rolesInAll (if tag = "compoundCondition" then .elem tag attrs cs :: up else up) cs
/-- The same, in a list of elements. -/
def rolesInAll (up : List Xml) : List Xml → List (Xml × List Xml)
  | [] => []
  | c :: cs => rolesIn up c ++ rolesInAll up cs
end

mutual
/-- The roles tested by assessments in an element, in document order. -/
def testsIn : Xml → List String
  | .elem tag attrs cs => (if tag = "attributeAssessment" then [((attrs.find? fun p => p.1 == "role").map (·.2)).getD ""] else []) ++ testsInAll cs
/-- The same, in a list of elements. -/
def testsInAll : List Xml → List String
  | [] => []
  | c :: cs => testsIn c ++ testsInAll cs
end

theorem rolesIn_eq (up : List Xml) (x : Xml) : rolesIn up x =
    (if x.tag = "simpleCondition" ∨ x.tag = "simpleAction" then [(x, up)] else []) ++ rolesInAll (if x.tag = "compoundCondition" then x :: up else up) x.children := by
  cases x; rw [rolesIn]; rfl

theorem testsIn_eq (x : Xml) : testsIn x = (if x.tag = "attributeAssessment" then [x.val "role"] else []) ++ testsInAll x.children := by
  cases x; rw [testsIn]; rfl

theorem connTags_child : ∀ e ∈ syntaxTable, (∃ p ∈ e.parents, p = "causalConnector" ∨ p ∈ connTags) → e.tag ∈ connTags := by decide +kernel

/-- The compound conditions around what is in element `p`, innermost first. -/
inductive CondChain (ns : List Note) : Nat → List Xml → Prop
  | top {p m} : ns[p]? = some m → m.tag = "causalConnector" → CondChain ns p []
  | cond {p q m up} : ns[p]? = some m → m.tag = "compoundCondition" → m.parent = some q → CondChain ns q up → CondChain ns p (m.xml :: up)
  | other {p q m up} : ns[p]? = some m → m.tag ≠ "causalConnector" → m.tag ≠ "compoundCondition" → m.parent = some q → CondChain ns q up → CondChain ns p up

/-- The role made from a simple condition or action. -/
def RoleFrom (ns : List Note) (y : Xml × List Xml) (r : Role) : Prop :=
  ∃ (i p : Nat) (n : Note), ns[i]? = some n ∧ n.xml = y.1 ∧ (n.tag = "simpleCondition" ∨ n.tag = "simpleAction") ∧ n.parent = some p ∧
    simpleRole n.get (n.tag == "simpleCondition") ((n.get "role").getD "") p = some r ∧ CondChain ns p y.2

theorem Each.append' {α β : Type} {R : α → β → Prop} {l l' : List α} {m m' : List β} (h : Each R l m) (h' : Each R l' m') : Each R (l ++ l') (m ++ m') := by
  induction h with
  | nil => exact h'
  | cons h1 _ ih => exact .cons h1 ih

theorem role_tags : ∀ e ∈ syntaxTable, e.push = .simpleCondition ↔ (e.tag = "simpleCondition" ∨ e.tag = "simpleAction") := by decide +kernel

theorem laid_roles {E : PRead} {scr : Rect} {ns : List Note} {ck : Nat} (hok : ∀ (j : Nat) nt, ns[j]? = some nt → NoteOk E scr ns j nt)
    (hrole : ∀ (j : Nat) nt, ns[j]? = some nt → nt.push = .simpleCondition → ∃ r, simpleRole nt.get (nt.tag == "simpleCondition") ((nt.get "role").getD "") (nt.parent.getD 0) = some r)
    {al : List (String × String)} {pt : Option String} {par : Option Nat} {k : Nat} {xs : List Xml} {l : List Note} (h : Laid E al pt par k xs l) :
    (∀ (i : Nat) n, l[i]? = some n → ns[k + i]? = some n) → ∀ p mp up, par = some p → ns[p]? = some mp →
    (mp.tag = "causalConnector" ∧ p = ck ∨ mp.tag ∈ connTags ∧ mp.conn = some ck) → CondChain ns p up →
    (∀ n ∈ l, n.conn = some ck) ∧ Each (RoleFrom ns) (rolesInAll up xs) (l.flatMap fun n => roleEff n.push n.tag n.get n.parent) ∧
      l.flatMap (fun n => testEff n.push n.tag n.get) = testsInAll xs := by
  induction h with
  | nil => intro _ p mp up _ _ _ _; exact ⟨by simp, by rw [rolesInAll]; exact .nil, rfl⟩
  | @cons al pt par k x xs n l1 l2 h1 h2 h3 h4 h5 h6 ih1 ih2 =>
    rintro hns p mp up rfl hp hc hch
    have hk : ns[k]? = some n := hns 0 n rfl
    have hokn := hok k n hk
    obtain ⟨-, m', hm', e, he, het, hep⟩ := hokn.parent p h3
    obtain rfl : mp = m' := by rw [hp] at hm'; simpa using hm'
    have htag : n.tag ∈ connTags := by
      rw [← het]; exact connTags_child e he ⟨_, hep, hc.imp (·.1) (·.1)⟩
    have hconn : n.conn = some ck := by
      rw [hokn.conn, h3]
      simp only [connFor, hp]
      rcases hc with ⟨h, rfl⟩ | ⟨h, h'⟩
      · rw [if_pos h]
      · rw [if_neg (by intro hc; rw [hc] at h; revert h; decide)]; exact h'
    have hxt : x.tag = n.tag := by rw [← h2]; rfl
    have hch' : CondChain ns k (if x.tag = "compoundCondition" then x :: up else up) := by
      split
      · next h => rw [← h2]; exact .cond hk (hxt ▸ h) h3 hch
      · next h => exact .other hk (by intro hc; rw [hc] at htag; revert htag; decide) (hxt ▸ h) h3 hch
    obtain ⟨a1, a2, a3⟩ := ih1 (fun i n hi => by
      have := hns (i + 1) n (by rw [List.getElem?_cons_succ, List.getElem?_append_left (getElem?_lt hi)]; exact hi)
      rw [show k + 1 + i = k + (i + 1) by omega]; exact this) k n _ rfl hk (.inr ⟨htag, hconn⟩) hch'
    obtain ⟨b1, b2, b3⟩ := ih2 (fun i n hi => by
      have := hns (l1.length + i + 1) n (by rw [List.getElem?_cons_succ, List.getElem?_append_right (by omega)]; simpa using hi)
      rw [show k + 1 + l1.length + i = k + (l1.length + i + 1) by omega]; exact this) p mp up rfl hp hc hch
    refine ⟨?_, ?_, ?_⟩
    · intro m hm
      rcases List.mem_cons.1 hm with rfl | hm
      · exact hconn
      rcases List.mem_append.1 hm with hm | hm
      · exact a1 m hm
      · exact b1 m hm
    · rw [rolesInAll, rolesIn_eq, List.flatMap_cons, List.flatMap_append, ← List.append_assoc]
      refine Each.append' (Each.append' ?_ a2) b2
      have hpt : n.push = .simpleCondition ↔ (n.tag = "simpleCondition" ∨ n.tag = "simpleAction") := by
        obtain ⟨e', he', -⟩ := hokn.syn
        obtain ⟨q1, q2⟩ := syntaxOf_mem he'
        have := role_tags e' q1
        unfold Note.push pushOf
        rw [he']
        rw [q2] at this; exact this
      split
      · next h =>
        rw [hxt] at h
        have hps := hpt.2 h
        obtain ⟨r, hr⟩ := hrole k n hk hps
        rw [hps]
        rw [h3] at hr ⊢
        simp only [Option.getD_some] at hr
        simp only [roleEff, Option.getD_some, hr, Option.toList_some]
        exact .cons ⟨k, p, n, hk, h2, h, h3, hr, hch⟩ .nil
      · next h =>
        rw [hxt] at h
        have : roleEff n.push n.tag n.get n.parent = [] := by
          have := fun hc => h (hpt.1 hc)
          cases hq : n.push <;> first | rfl | exact absurd hq this
        rw [this]; exact .nil
    · rw [testsInAll, testsIn_eq, List.flatMap_cons, List.flatMap_append, a3, b3, ← List.append_assoc]
      congr 2
      have hpt : n.push = .attributeAssessment ↔ (n.tag = "attributeAssessment" ∨ n.tag = "valueAssessment") := by
        obtain ⟨e', he', -⟩ := hokn.syn
        obtain ⟨q1, q2⟩ := syntaxOf_mem he'
        have : ∀ e ∈ syntaxTable, e.push = .attributeAssessment ↔ (e.tag = "attributeAssessment" ∨ e.tag = "valueAssessment") := by decide +kernel
        have := this e' q1
        unfold Note.push pushOf
        rw [he']
        rw [q2] at this; exact this
      rw [hxt]
      split
      · next h =>
        rw [hpt.2 (.inl h)]
        have : n.get "role" = x.prop "role" := by
          rw [← h2]; exact table_plain _ stmt_plain hokn (by rw [h]; decide) (by decide)
        simp only [testEff, if_pos h, this]; rfl
      · next h =>
        cases hq : n.push <;> first | rfl | simp only [testEff, if_neg h]
  | @imp al tag par k x xs a d u root head n l1 l2 l3 h1 h2 h3 h4 h5 h6 h7 h8 h9 h10 h11 h12 h13 ih1 ih2 ih3 =>
    rintro hns p mp up rfl hp hc hch
    have hk : ns[k]? = some n := hns 0 n rfl
    obtain ⟨-, m', hm', e, he, het, hep⟩ := (hok k n hk).parent p h3
    obtain rfl : mp = m' := by rw [hp] at hm'; simpa using hm'
    have htag : n.tag ∈ connTags := by
      rw [← het]; exact connTags_child e he ⟨_, hep, hc.imp (·.1) (·.1)⟩
    have : n.tag = "importBase" := by unfold Note.tag; rw [h2]; exact h1
    rw [this] at htag
    exact absurd htag (by decide)

end Ginga
