import Verif.Proofs.Kids
import Verif.Spec
/-!
# What rules mean

The predicates on the heap of the parser have the truth value of the rules they come from.
-/
namespace Ginga

/-! ## The meaning of rules -/

mutual
/-- Whether a rule is true, `v` giving the values of references to properties (other strings stand for themselves). -/
def ruleTrue (v : String → String) : Xml → Bool
  | .elem tag attrs cs =>
    let a := fun n => ((attrs.find? fun p => p.1 == n).map (·.2)).getD ""
    if tag = "rule" then decide (((testOf (a "comparator")).getD .eq).holds (v ("$__settings__." ++ a "var")) (v (a "value")))
    else if a "operator" = "or" then rulesAny v cs else if a "operator" = "not" then !rulesAll v cs else rulesAll v cs
/-- Whether all the rules are true. -/
def rulesAll (v : String → String) : List Xml → Bool
  | [] => true
  | c :: cs => ruleTrue v c && rulesAll v cs
/-- Whether some of the rules is true. -/
def rulesAny (v : String → String) : List Xml → Bool
  | [] => false
  | c :: cs => ruleTrue v c || rulesAny v cs
end

/-! ## Clones -/

theorem mapM_each {α β : Type} {f : α → Option β} : ∀ {l : List α} {r : List β}, l.mapM f = some r → Each (fun a b => f a = some b) l r
  | [], r, h => by simp at h; subst h; exact .nil
  | a :: l, r, h => by
    rw [List.mapM_cons] at h
    obtain ⟨b, hb, h⟩ := Option.bind_eq_some_iff.1 h
    obtain ⟨bs, hbs, h⟩ := Option.bind_eq_some_iff.1 h
    obtain rfl : b :: bs = r := by simpa using h
    exact .cons hb (mapM_each hbs)

theorem syntaxOf_rule {m : Note} (h : m.push = .rule) : m.tag = "rule" ∨ m.tag = "compositeRule" := by
  have key : ∀ e ∈ syntaxTable, e.push = .rule → e.tag = "rule" ∨ e.tag = "compositeRule" := by decide +kernel
  unfold Note.push pushOf at h
  split at h
  · rename_i e he
    obtain ⟨h1, h2⟩ := syntaxOf_mem he
    rw [← h2]; exact key e h1 h
  · cases h

theorem pushOf_rule {tag : String} (h : tag = "rule" ∨ tag = "compositeRule") : pushOf tag = .rule := by
  rcases h with rfl | rfl <;> decide +kernel

/-- Attributes that are neither identifiers nor references. -/
theorem NoteOk.plain {E : PRead} {scr : Rect} {g : List Note} {j : Nat} {n : Note} (h : NoteOk E scr g j n) {a : String} (ha : a ≠ "id")
    (hr : ∀ e ∈ syntaxTable, e.tag = n.tag → ∀ q ∈ e.attrs, q.1 = a → q.2.isId = false ∧ q.2.isIdRef = false) : n.get a = n.xml.prop a := by
  obtain ⟨e, he, hat⟩ := h.syn
  obtain ⟨hm, hm2⟩ := syntaxOf_mem he
  unfold Note.get
  by_cases hd : a ∈ e.attrs.map Prod.fst
  · obtain ⟨q, hq, rfl⟩ := List.mem_map.1 hd
    obtain ⟨h1, h2⟩ := hr e hm hm2 q hq rfl
    exact hat.plain hq h1 h2 ha
  · rw [hat.other _ hd]
    cases hx : n.xml.prop a with
    | none => rfl
    | some i => obtain ⟨fl, hfl⟩ := hat.declared hx; exact absurd (List.mem_map.2 ⟨_, hfl, rfl⟩) hd

theorem table_rule_plain : ∀ e ∈ syntaxTable, e.tag = "rule" ∨ e.tag = "compositeRule" → ∀ q ∈ e.attrs, q.1 ≠ "id" → q.2.isId = false ∧ q.2.isIdRef = false := by
  decide +kernel

/-- The predicate of a rule has the truth value of the rule. -/
theorem rule_truth {E : PRead} {scr : Rect} {x : Xml} {t u : PS} {ns : List Note} {f : Nat → Nat} {π : Nat → Option Nat} {O : List Nat}
    (hd : DocTree E scr x t ns f) (hpi : PI ns O π u) (v : String → String) : ∀ (n j : Nat) (m : Note) (p : Nat) (q : Pred),
    ns[j]? = some m → m.push = .rule → (u.elt j).pred = some p → u.clone n p = some q → q.truth v = ruleTrue v m.xml
  | 0, _, _, _, _, _, _, _, h => by simp [PS.clone] at h
  | n + 1, j, m, p, q, hm, hr, hp, hq => by
    have hok := hd.ok j m hm
    have hat : ∀ a, a ≠ "id" → m.get a = m.xml.prop a := fun a ha => hok.plain ha fun e he ht q hq hqa =>
      table_rule_plain e he (by rw [ht]; exact syntaxOf_rule hr) q hq (by rw [hqa]; exact ha)
    have hget : ∀ a, a ≠ "id" → (m.get a).getD "" = ((m.xml.attrs.find? fun p => p.1 == a).map (·.2)).getD "" := fun a ha => by
      rw [hat a ha]; rfl
    have htag : m.xml.tag = m.tag := rfl
    have hx : m.xml = .elem m.tag m.xml.attrs m.xml.children := by cases hx : m.xml; simp [Note.tag, hx, Xml.tag, Xml.attrs, Xml.children]
    have hopen : openNode m.push m.tag m.get = some (if m.tag = "rule" then .atom ("$__settings__." ++ (m.get "var").getD "") ((testOf ((m.get "comparator").getD "")).getD .eq)
        ((m.get "value").getD "") else .node ((connOf ((m.get "operator").getD "")).getD .and) []) := by
      rw [hr]; rfl
    obtain ⟨p', hp', hnode⟩ := hpi.opened j m _ hm hopen
    rw [hp] at hp'
    obtain rfl : p = p' := by simpa using hp'
    rw [hx, ruleTrue]
    rw [hget "var" (by decide), hget "comparator" (by decide), hget "value" (by decide), hget "operator" (by decide)] at hnode
    dsimp only
    unfold PS.clone at hq
    by_cases ht : m.tag = "rule"
    · rw [if_pos ht]
      rw [if_pos ht] at hnode
      rw [hnode] at hq
      simp only [PNode.withKids, Option.some.injEq] at hq
      rw [← hq, Pred.truth]
    · rw [if_neg ht]
      rw [if_neg ht] at hnode
      rw [hnode] at hq
      simp only [PNode.withKids] at hq
      obtain ⟨qs, hqs, rfl⟩ := Option.map_eq_some_iff.1 hq
      -- the children
      have hkid : ∀ k ∈ kidNotes j 0 ns, ∃ pk, π k.1 = some pk ∧ (u.elt k.1).pred = some pk ∧ k.2.push = .rule := by
        intro k hk
        obtain ⟨-, hk1, hk2⟩ := kidNotes_mem.1 hk
        rw [Nat.sub_zero] at hk1
        have hokk := hd.ok k.1 k.2 hk1
        obtain ⟨-, m', hm', e, he, het, hep⟩ := hokk.parent j hk2
        obtain rfl : m = m' := by rw [hm] at hm'; simpa using hm'
        have hmt : m.tag = "compositeRule" := (syntaxOf_rule hr).resolve_left ht
        rw [hmt] at hep
        have hpush : k.2.push = .rule := pushOf_rule (by
          have : ∀ e ∈ syntaxTable, "compositeRule" ∈ e.parents → e.tag = "rule" ∨ e.tag = "compositeRule" := by decide +kernel
          rw [← het]; exact this e he hep)
        have hnb : ¬ UnderBase ns k.2 := by
          rintro ⟨pa, m', h1, h2, h3⟩
          rw [hk2] at h1
          obtain rfl : j = pa := by simpa using h1
          rw [hm] at h2
          obtain rfl : m = m' := by simpa using h2
          rw [hmt] at h3; exact absurd h3 (by decide)
        have h1 := (hpi.att k.1 k.2 hk1).rule hpush hnb
        have hopen' : openNode k.2.push k.2.tag k.2.get ≠ none := by rw [hpush]; simp [openNode]
        obtain ⟨q', hq'⟩ := Option.ne_none_iff_exists'.1 hopen'
        obtain ⟨pk, h2, -⟩ := hpi.opened k.1 k.2 q' hk1 hq'
        exact ⟨pk, h1.trans h2, h2, hpush⟩
      have hall : ∀ (l : List (Nat × Note)) (ps : List Nat) (qs : List Pred), (∀ k ∈ l, k ∈ kidNotes j 0 ns) → ps = l.flatMap (fun k => (π k.1).toList) →
          Each (fun a b => u.clone n a = some b) ps qs →
          Pred.allTrue v qs = rulesAll v (l.map fun k => k.2.xml) ∧ Pred.anyTrue v qs = rulesAny v (l.map fun k => k.2.xml) := by
        intro l
        induction l with
        | nil => intro ps qs _ h1 h2; subst h1; cases h2; exact ⟨rfl, rfl⟩
        | cons k l ih =>
          intro ps qs hl h1 h2
          obtain ⟨pk, a1, a2, a3⟩ := hkid k (hl k (by simp))
          obtain ⟨-, hk1, hk2⟩ := kidNotes_mem.1 (hl k (by simp))
          rw [Nat.sub_zero] at hk1
          rw [List.flatMap_cons, a1] at h1
          subst h1
          cases h2 with
          | cons h2 h3 =>
            obtain ⟨b1, b2⟩ := ih _ _ (fun k hk => hl k (by simp [hk])) rfl h3
            have := rule_truth hd hpi v n k.1 k.2 pk _ hk1 a3 a2 h2
            simp only [Pred.allTrue, Pred.anyTrue, List.map_cons, rulesAll, rulesAny, this, b1, b2]
            exact ⟨trivial, trivial⟩
      obtain ⟨c1, c2⟩ := hall _ _ qs (fun _ h => h) (kidsOf_notes π j 0 ns) (mapM_each hqs)
      rw [hd.kids hm] at c1 c2
      have key : ∀ op : String, Pred.truth v (mkPred ((connOf op).getD .and) qs) =
          if op = "or" then rulesAny v m.xml.children else if op = "not" then !rulesAll v m.xml.children else rulesAll v m.xml.children := by
        intro op
        unfold connOf
        by_cases h1 : op = "or"
        · subst h1; simp [mkPred, Pred.truth, c2]
        · by_cases h2 : op = "not"
          · subst h2; simp [mkPred, Pred.truth, c1]
          · by_cases h3 : op = "and"
            · subst h3; simp [mkPred, Pred.truth, c1]
            · simp [h3, h1, h2, mkPred, Pred.truth, c1]
      exact key _

end Ginga
