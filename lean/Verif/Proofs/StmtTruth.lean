import Verif.Proofs.RuleTruth
/-!
# What assessment statements mean
-/
namespace Ginga

/-! ## The meaning of statements -/

/-- The value of an attribute, if it is there. -/
def Xml.val (x : Xml) (a : String) : String := (x.prop a).getD ""

/-- One side of an assessment: the property bound to a role, or a literal. -/
def sideOf (x : Xml) : String := if x.tag = "attributeAssessment" then "$" ++ x.val "role" else x.val "value"

/-- The elements that are statements. -/
def isStmt (tag : String) : Bool := tag == "assessmentStatement" || tag == "compoundStatement"

mutual
/-- Whether a statement is true, `v` giving the values of the roles (and of literals). -/
def stmtTrue (v : String → String) : Xml → Bool
  | .elem tag attrs cs =>
    let a := fun n => ((attrs.find? fun p => p.1 == n).map (·.2))
    if tag = "assessmentStatement" then
      decide (((testOf ((a "comparator").getD "")).getD .eq).holds (v ((cs[0]?.map sideOf).getD "")) (v ((cs[1]?.map sideOf).getD "")))
    else
      let b := if (a "operator").getD "" = "or" then stmtsAny v cs else if (a "operator").getD "" = "not" then !stmtsAll v cs else stmtsAll v cs
      if (a "isNegated").bind (fun w => parseBool w.toList) = some true then !b else b
/-- Whether all the statements in a list of elements are true. -/
def stmtsAll (v : String → String) : List Xml → Bool
  | [] => true
  | c :: cs => (!isStmt c.tag || stmtTrue v c) && stmtsAll v cs
/-- Whether some of the statements in a list of elements is true. -/
def stmtsAny (v : String → String) : List Xml → Bool
  | [] => false
  | c :: cs => (isStmt c.tag && stmtTrue v c) || stmtsAny v cs
end

theorem stmtTrue_assess (v : String → String) (x : Xml) (h : x.tag = "assessmentStatement") : stmtTrue v x =
    decide (((testOf (x.val "comparator")).getD .eq).holds (v ((x.children[0]?.map sideOf).getD "")) (v ((x.children[1]?.map sideOf).getD ""))) := by
  cases x with
  | elem tag attrs cs =>
    have h : tag = "assessmentStatement" := h
    rw [stmtTrue]; dsimp only; rw [if_pos h]; rfl

/-- What is inside the negation of a compound statement. -/
def stmtBody (v : String → String) (op : String) (cs : List Xml) : Bool :=
  if op = "or" then stmtsAny v cs else if op = "not" then !stmtsAll v cs else stmtsAll v cs

theorem stmtTrue_compound (v : String → String) (x : Xml) (h : x.tag = "compoundStatement") : stmtTrue v x =
    if (x.prop "isNegated").bind (fun w => parseBool w.toList) = some true then !stmtBody v (x.val "operator") x.children
    else stmtBody v (x.val "operator") x.children := by
  cases x with
  | elem tag attrs cs =>
    have h : tag = "compoundStatement" := h
    rw [stmtTrue]; dsimp only; rw [if_neg (by rw [h]; decide)]; rfl

theorem stmtsAll_iff (v : String → String) : ∀ cs : List Xml, stmtsAll v cs = true ↔ ∀ c ∈ cs, isStmt c.tag = true → stmtTrue v c = true
  | [] => by simp [stmtsAll]
  | c :: cs => by
    rw [stmtsAll, Bool.and_eq_true, stmtsAll_iff v cs]
    cases h : isStmt c.tag <;> simp [h]

/-! ## Sides -/

/-- The sides of an assessment, in order. -/
def sides (l : List (Nat × Note)) : List String := l.filterMap fun k =>
  if k.2.push = .attributeAssessment then some (if k.2.tag = "attributeAssessment" then "$" ++ (k.2.get "role").getD "" else (k.2.get "value").getD "") else none

theorem childEff_lr_other {f : Push} (h : f ≠ .attributeAssessment) (k : Nat) (tag : String) (a : String → Option String) (e : Elt) :
    (childEff f k tag a e).left = e.left ∧ (childEff f k tag a e).right = e.right := by
  cases f <;> simp_all [childEff]

theorem effAll_lr (j : Nat) : ∀ (i : Nat) (l : List Note) (e : Elt),
    (e.left = none → e.right = none → (effAll j i l e).left = (sides (kidNotes j i l))[0]? ∧ (effAll j i l e).right = (sides (kidNotes j i l))[1]?) ∧
    (∀ a, e.left = some a → e.right = none → (effAll j i l e).left = some a ∧ (effAll j i l e).right = (sides (kidNotes j i l))[0]?) ∧
    (∀ a b, e.left = some a → e.right = some b → (effAll j i l e).left = some a ∧ (effAll j i l e).right = some b)
  | i, [], e => ⟨fun h h' => ⟨h, h'⟩, fun a h h' => ⟨h, h'⟩, fun a b h h' => ⟨h, h'⟩⟩
  | i, n :: l, e => by
    obtain ⟨i1, i2, i3⟩ := effAll_lr j (i + 1) l (n.eff i j e)
    rw [effAll]
    have hc : ∀ rs ts, (if n.conn = some j then connApply rs ts e else e).left = e.left ∧ (if n.conn = some j then connApply rs ts e else e).right = e.right := by
      intro rs ts; split <;> exact ⟨rfl, rfl⟩
    by_cases hp : n.parent = some j ∧ n.push = .attributeAssessment
    · have hk : sides (kidNotes j i (n :: l)) = (if n.tag = "attributeAssessment" then "$" ++ (n.get "role").getD "" else (n.get "value").getD "") :: sides (kidNotes j (i + 1) l) := by
        rw [kidNotes, if_pos hp.1]
        simp [sides, hp.2]
      rw [hk]
      have he : n.eff i j e = childEff .attributeAssessment i n.tag n.get (if n.conn = some j then connApply (roleEff n.push n.tag n.get n.parent) (testEff n.push n.tag n.get) e else e) := by
        unfold Note.eff; rw [if_pos hp.1, hp.2]
      obtain ⟨c1, c2⟩ := hc (roleEff n.push n.tag n.get n.parent) (testEff n.push n.tag n.get)
      generalize (if n.conn = some j then connApply (roleEff n.push n.tag n.get n.parent) (testEff n.push n.tag n.get) e else e) = e' at *
      refine ⟨fun h h' => ?_, fun a h h' => ?_, fun a b h h' => ?_⟩
      · have := i2 (if n.tag = "attributeAssessment" then "$" ++ (n.get "role").getD "" else (n.get "value").getD "")
          (by rw [he]; simp [childEff, c1, h]) (by rw [he]; simp [childEff, c1, c2, h, h'])
        simpa using this
      · have := i3 a (if n.tag = "attributeAssessment" then "$" ++ (n.get "role").getD "" else (n.get "value").getD "")
          (by rw [he]; simp [childEff, c1, c2, h, h']) (by rw [he]; simp [childEff, c1, c2, h, h'])
        simpa using this
      · exact i3 a b (by rw [he]; simp [childEff, c1, c2, h, h']) (by rw [he]; simp [childEff, c1, c2, h, h'])
    · have hk : sides (kidNotes j i (n :: l)) = sides (kidNotes j (i + 1) l) := by
        rw [kidNotes]
        split
        · rename_i h
          have hn : n.push ≠ .attributeAssessment := fun hc => hp ⟨h, hc⟩
          simp [sides, hn]
        · rfl
      have he : (n.eff i j e).left = e.left ∧ (n.eff i j e).right = e.right := by
        unfold Note.eff
        obtain ⟨c1, c2⟩ := hc (roleEff n.push n.tag n.get n.parent) (testEff n.push n.tag n.get)
        split
        · rename_i h
          obtain ⟨d1, d2⟩ := childEff_lr_other (f := n.push) (fun hc => hp ⟨h, hc⟩) i n.tag n.get
            (if n.conn = some j then connApply (roleEff n.push n.tag n.get n.parent) (testEff n.push n.tag n.get) e else e)
          exact ⟨d1.trans c1, d2.trans c2⟩
        · exact ⟨c1, c2⟩
      rw [hk]
      exact ⟨fun h h' => i1 (he.1.trans h) (he.2.trans h'), fun a h h' => i2 a (he.1.trans h) (he.2.trans h'),
        fun a b h h' => i3 a b (he.1.trans h) (he.2.trans h')⟩

theorem J.sides {E : PRead} {scr : Rect} {z : Nat} {g : List Note} {s : PS} (h : J E scr z g s) {j : Nat} {n : Note} (hj : g[j]? = some n) :
    (s.elt j).left = (Ginga.sides (kidNotes j 0 g))[0]? ∧ (s.elt j).right = (Ginga.sides (kidNotes j 0 g))[1]? := by
  have he := h.elt j n hj
  obtain ⟨h1, h2⟩ := (effAll_lr j 0 g n.base).1 rfl rfl
  exact ⟨(congrArg Elt.left he : (eraseE (s.elt j)).left = (eraseE _).left).trans h1, (congrArg Elt.right he : (eraseE (s.elt j)).right = (eraseE _).right).trans h2⟩

theorem table_plain (tags : List String) (h : ∀ e ∈ syntaxTable, e.tag ∈ tags → ∀ q ∈ e.attrs, q.1 ≠ "id" → q.2.isId = false ∧ q.2.isIdRef = false)
    {E : PRead} {scr : Rect} {g : List Note} {j : Nat} {n : Note} (hok : NoteOk E scr g j n) (ht : n.tag ∈ tags) {a : String} (ha : a ≠ "id") :
    n.get a = n.xml.prop a :=
  hok.plain ha fun e he het q hq hqa => h e he (by rw [het]; exact ht) q hq (by rw [hqa]; exact ha)

theorem stmt_plain : ∀ e ∈ syntaxTable, e.tag ∈ ["assessmentStatement", "compoundStatement", "attributeAssessment", "valueAssessment", "simpleCondition", "compoundCondition"] →
    ∀ q ∈ e.attrs, q.1 ≠ "id" → q.2.isId = false ∧ q.2.isIdRef = false := by decide +kernel

/-- The sides of an assessment are those of its XML element. -/
theorem DocTree.sides {E : PRead} {scr : Rect} {x : Xml} {t : PS} {ns : List Note} {f : Nat → Nat} (hd : DocTree E scr x t ns f) {j : Nat} {m : Note}
    (hj : ns[j]? = some m) (ht : m.tag = "assessmentStatement") : Ginga.sides (kidNotes j 0 ns) = m.xml.children.map sideOf := by
  rw [← hd.kids hj, List.map_map]
  have hk : ∀ k ∈ kidNotes j 0 ns, k.2.push = .attributeAssessment ∧ (if k.2.tag = "attributeAssessment" then "$" ++ (k.2.get "role").getD "" else (k.2.get "value").getD "") = sideOf k.2.xml := by
    intro k hk
    obtain ⟨-, hk1, hk2⟩ := kidNotes_mem.1 hk
    rw [Nat.sub_zero] at hk1
    have hok := hd.ok k.1 k.2 hk1
    obtain ⟨-, m', hm', e, he, het, hep⟩ := hok.parent j hk2
    obtain rfl : m = m' := by rw [hj] at hm'; simpa using hm'
    rw [ht] at hep
    have h1 : ∀ e ∈ syntaxTable, "assessmentStatement" ∈ e.parents → e.tag = "attributeAssessment" ∨ e.tag = "valueAssessment" := by decide +kernel
    have h2 := h1 e he hep
    rw [het] at h2
    have hp : k.2.push = .attributeAssessment := by
      unfold Note.push
      rcases h2 with h2 | h2 <;> rw [h2] <;> decide +kernel
    have hm : k.2.tag ∈ ["assessmentStatement", "compoundStatement", "attributeAssessment", "valueAssessment", "simpleCondition", "compoundCondition"] := by
      rcases h2 with h2 | h2 <;> rw [h2] <;> decide
    refine ⟨hp, ?_⟩
    rw [table_plain _ stmt_plain hok hm (a := "role") (by decide), table_plain _ stmt_plain hok hm (a := "value") (by decide)]
    rfl
  generalize kidNotes j 0 ns = l at hk
  induction l with
  | nil => rfl
  | cons k l ih =>
    obtain ⟨h1, h2⟩ := hk k (by simp)
    have ih := ih fun k hk' => hk k (by simp [hk'])
    unfold Ginga.sides at ih ⊢
    rw [List.filterMap_cons, if_pos h1]
    simp only [List.map_cons, ih, h2, Function.comp]

/-- The predicates that statements attach to the elements they are in have the truth values of the statements. -/
theorem stmt_truth {E : PRead} {scr : Rect} {z : Nat} {x : Xml} {t u : PS} {ns : List Note} {f : Nat → Nat} {π : Nat → Option Nat}
    (hd : DocTree E scr x t ns f) (hJ : J E scr z ns u) (hpi : PI ns [] π u) (v : String → String) : ∀ (n j : Nat) (m : Note) (p : Nat) (q : Pred),
    ns[j]? = some m → π j = some p → isStmt m.tag = true → u.clone n p = some q → q.truth v = stmtTrue v m.xml := by
  intro N
  induction N using Nat.strongRecOn with
  | _ N ih =>
  -- the statements in an element
  have hall : ∀ (n : Nat), n < N → ∀ (l : List (Nat × Note)) (ps : List Nat) (qs : List Pred), (∀ k ∈ l, ns[k.1]? = some k.2 ∧ (π k.1 ≠ none ↔ isStmt k.2.tag = true)) →
      ps = l.flatMap (fun k => (π k.1).toList) → Each (fun a b => u.clone n a = some b) ps qs →
      Pred.allTrue v qs = stmtsAll v (l.map fun k => k.2.xml) ∧ Pred.anyTrue v qs = stmtsAny v (l.map fun k => k.2.xml) := by
    intro n hn l
    induction l with
    | nil => intro ps qs _ h1 h2; subst h1; cases h2; exact ⟨rfl, rfl⟩
    | cons k l ih2 =>
      intro ps qs hl h1 h2
      obtain ⟨a1, a2⟩ := hl k (by simp)
      rw [List.flatMap_cons] at h1
      subst h1
      cases hk : π k.1 with
      | none =>
        rw [hk] at h2 a2
        have hs : isStmt k.2.xml.tag = false := by
          cases hc : isStmt k.2.tag with
          | false => exact hc
          | true => exact absurd rfl (a2.2 hc)
        obtain ⟨b1, b2⟩ := ih2 _ _ (fun k hk => hl k (by simp [hk])) rfl h2
        simp only [List.map_cons, stmtsAll, stmtsAny, hs, b1, b2]
        simp
      | some pk =>
        rw [hk] at h2 a2
        have hs : isStmt k.2.tag = true := a2.1 (by simp)
        have hs' : isStmt k.2.xml.tag = true := hs
        cases h2 with
        | cons h2 h3 =>
          obtain ⟨b1, b2⟩ := ih2 _ _ (fun k hk => hl k (by simp [hk])) rfl h3
          have := ih n hn k.1 k.2 pk _ a1 hk hs h2
          simp only [List.map_cons, Pred.allTrue, Pred.anyTrue, stmtsAll, stmtsAny, hs', this, b1, b2]
          simp
  have hkids : ∀ (j : Nat) (m : Note), ns[j]? = some m → m.tag = "compoundStatement" → ∀ k ∈ kidNotes j 0 ns, ns[k.1]? = some k.2 ∧ (π k.1 ≠ none ↔ isStmt k.2.tag = true) := by
    intro j m hm hmt k hk
    obtain ⟨-, hk1, hk2⟩ := kidNotes_mem.1 hk
    rw [Nat.sub_zero] at hk1
    have hokk := hd.ok k.1 k.2 hk1
    obtain ⟨-, m', hm', e, he, het, hep⟩ := hokk.parent j hk2
    obtain rfl : m = m' := by rw [hm] at hm'; simpa using hm'
    rw [hmt] at hep
    have h1 : ∀ e ∈ syntaxTable, "compoundStatement" ∈ e.parents → isStmt e.tag = true := by decide +kernel
    have h2 := h1 e he hep
    rw [het] at h2
    refine ⟨hk1, fun _ => h2, fun _ => ?_⟩
    have hat := hpi.att k.1 k.2 hk1
    unfold isStmt at h2
    simp only [Bool.or_eq_true, beq_iff_eq] at h2
    rcases h2 with h2 | h2
    · obtain ⟨q, l, comp, op, r, b1, -⟩ := hat.assess h2 (by simp)
      rw [b1]; simp
    · have hpush : k.2.push = .compoundStatement := by unfold Note.push; rw [h2]; decide +kernel
      cases hn : negated k.2.push k.2.get with
      | true => obtain ⟨p, q, b1, b2, -⟩ := hat.neg hpush hn; rw [b2]; simp
      | false =>
        rw [hat.stmt hpush hn]
        obtain ⟨q', hq'⟩ : ∃ q', openNode k.2.push k.2.tag k.2.get = some q' := by rw [hpush]; exact ⟨_, rfl⟩
        obtain ⟨pk, b2, -⟩ := hpi.opened k.1 k.2 q' hk1 hq'
        rw [b2]; simp
  intro j m p q hm hp hs hq
  have hok := hd.ok j m hm
  have hat := hpi.att j m hm
  unfold isStmt at hs
  simp only [Bool.or_eq_true, beq_iff_eq] at hs
  have hmem : m.tag ∈ ["assessmentStatement", "compoundStatement", "attributeAssessment", "valueAssessment", "simpleCondition", "compoundCondition"] := by
    rcases hs with hs | hs <;> rw [hs] <;> decide
  rcases hs with hs | hs
  · obtain ⟨q', l, comp, op, r, b1, b2, b3, b4, b5, b6⟩ := hat.assess hs (by simp)
    rw [hp] at b1
    obtain rfl : p = q' := by simpa using b1
    cases N with
    | zero => simp [PS.clone] at hq
    | succ n =>
    unfold PS.clone at hq
    rw [b2] at hq
    simp only [Option.some.injEq] at hq
    rw [← hq, Pred.truth, stmtTrue_assess v _ hs]
    obtain ⟨c1, c2⟩ := hJ.sides hm
    rw [hd.sides hm hs] at c1 c2
    rw [b3] at c1; rw [b4] at c2
    rw [List.getElem?_map] at c1 c2
    rw [← c1, ← c2]
    rw [table_plain _ stmt_plain hok hmem (by decide)] at b5
    simp only [Xml.val, b5, Option.getD_some, b6]
  · have hpush : m.push = .compoundStatement := by unfold Note.push; rw [hs]; decide +kernel
    have hopen : openNode m.push m.tag m.get = some (.node ((connOf ((m.get "operator").getD "")).getD .and) []) := by rw [hpush]; rfl
    obtain ⟨p', hp', hnode⟩ := hpi.opened j m _ hm hopen
    have hneg : negated m.push m.get = true ↔ (m.xml.prop "isNegated").bind (fun w => parseBool w.toList) = some true := by
      rw [hpush]
      unfold negated
      dsimp only
      rw [table_plain _ stmt_plain hok hmem (by decide)]
      cases m.xml.prop "isNegated" with
      | none => simp
      | some w => cases hb : parseBool w.toList with
        | none => simp [hb]
        | some b => cases b <;> simp [hb]
    have hinner : ∀ n q, n ≤ N → u.clone n p' = some q → q.truth v = stmtBody v (m.xml.val "operator") m.xml.children := by
      intro n q hn hq
      cases n with
      | zero => simp [PS.clone] at hq
      | succ n =>
      unfold PS.clone at hq
      rw [hnode] at hq
      simp only [PNode.withKids] at hq
      obtain ⟨qs, hqs, rfl⟩ := Option.map_eq_some_iff.1 hq
      obtain ⟨c1, c2⟩ := hall n (by omega) _ _ qs (hkids j m hm hs) (kidsOf_notes π j 0 ns) (mapM_each hqs)
      rw [hd.kids hm] at c1 c2
      rw [table_plain _ stmt_plain hok hmem (by decide)]
      have key : ∀ op : String, Pred.truth v (mkPred ((connOf op).getD .and) qs) = stmtBody v op m.xml.children := by
        intro op
        unfold connOf stmtBody
        by_cases h1 : op = "or"
        · subst h1; simp [mkPred, Pred.truth, c2]
        · by_cases h2 : op = "not"
          · subst h2; simp [mkPred, Pred.truth, c1]
          · by_cases h3 : op = "and"
            · subst h3; simp [mkPred, Pred.truth, c1]
            · simp [h3, h1, h2, mkPred, Pred.truth, c1]
      exact key _
    rw [stmtTrue_compound v _ hs]
    cases hn : negated m.push m.get with
    | false =>
      rw [if_neg (fun hc => by rw [hneg.2 hc] at hn; cases hn)]
      have h1 := hat.stmt hpush hn
      rw [hp, hp'] at h1
      obtain rfl : p = p' := by simpa using h1
      exact hinner N q (Nat.le_refl _) hq
    | true =>
      rw [if_pos (hneg.1 hn)]
      obtain ⟨p2, q2, b1, b2, -, b4⟩ := hat.neg hpush hn
      rw [hp'] at b1
      obtain rfl : p' = p2 := by simpa using b1
      rw [hp] at b2
      obtain rfl : p = q2 := by simpa using b2
      cases N with
      | zero => simp [PS.clone] at hq
      | succ n =>
      unfold PS.clone at hq
      rw [b4] at hq
      obtain ⟨qs, hqs, rfl⟩ := Option.map_eq_some_iff.1 hq
      have hqs := mapM_each hqs
      cases hqs with
      | cons h1 h2 =>
        cases h2
        simp only [mkPred, Pred.truth, Pred.allTrue, Bool.and_true]
        rw [hinner n _ (by omega) h1]

end Ginga
