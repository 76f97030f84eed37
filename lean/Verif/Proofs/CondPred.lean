import Verif.Proofs.StmtK
import Verif.Proofs.SwitchEnd
/-!
# The predicates of conditions
-/
namespace Ginga

/-- Whether the statements in the compound conditions around a condition are true. -/
def condTrue (v : String → String) (up : List Xml) : Bool := up.all fun c => stmtsAll v c.children

/-- The elements of `s` are those of `u`, up to attributes (which the end of the document changes in descriptors), and the predicates are the same. -/
structure Like (u s : PS) : Prop where
  elt : ∀ j, s.elt j = { u.elt j with attrs := (s.elt j).attrs }
  nelt : s.nelt = u.nelt
  cache : s.cache = u.cache
  pnode : s.pnode = u.pnode
  npred : s.npred = u.npred

theorem DescOnly.like {l : List Nat} {u s : PS} (h : DescOnly l u s) : Like u s :=
  ⟨h.elt, by rw [h.state], by rw [h.state], by rw [h.state], by rw [h.state]⟩

theorem Like.fixed {u s t : PS} (h : Like u s) (hf : Fixed s t) : Like u t :=
  ⟨fun j => by rw [hf.elt]; exact h.elt j, hf.nelt.trans h.nelt, hf.cache.trans h.cache, hf.pnode.trans h.pnode, hf.npred.trans h.npred⟩

theorem Like.tag {u s : PS} (h : Like u s) (j : Nat) : (s.elt j).tag = (u.elt j).tag := by rw [h.elt j]
theorem Like.parent {u s : PS} (h : Like u s) (j : Nat) : (s.elt j).parent = (u.elt j).parent := by rw [h.elt j]
theorem Like.pred {u s : PS} (h : Like u s) (j : Nat) : (s.elt j).pred = (u.elt j).pred := by rw [h.elt j]

section
variable {E : PRead} {scr : Rect} {z : Nat} {x : Xml} {t u : PS} {ns : List Note} {f : Nat → Nat} {π : Nat → Option Nat}

/-- The statements in a compound condition or statement have predicates, and nothing else in it has. -/
theorem stmt_kids (hd : DocTree E scr x t ns f) (hpi : PI ns [] π u) {j : Nat} {m : Note} (hm : ns[j]? = some m) (hmt : m.tag = "compoundCondition" ∨ m.tag = "compoundStatement") :
    ∀ k ∈ kidNotes j 0 ns, ns[k.1]? = some k.2 ∧ (π k.1 ≠ none ↔ isStmt k.2.tag = true) := by
  intro k hk
  obtain ⟨-, hk1, hk2⟩ := kidNotes_mem.1 hk
  rw [Nat.sub_zero] at hk1
  have hokk := hd.ok k.1 k.2 hk1
  obtain ⟨-, m', hm', e, he, het, hep⟩ := hokk.parent j hk2
  obtain rfl : m = m' := by rw [hm] at hm'; simpa using hm'
  have hat := hpi.att k.1 k.2 hk1
  refine ⟨hk1, fun hne => ?_, fun h2 => ?_⟩
  · refine Classical.byContradiction fun hc => hne ?_
    have h1 : ∀ e ∈ syntaxTable, ("compoundCondition" ∈ e.parents ∨ "compoundStatement" ∈ e.parents) → isStmt e.tag = false → e.push ≠ .rule ∧ e.push ≠ .compoundStatement ∧ e.tag ≠ "assessmentStatement" := by decide +kernel
    have hc' : isStmt k.2.tag = false := by cases h : isStmt k.2.tag with | true => exact absurd h hc | false => rfl
    obtain ⟨c1, c2, c3⟩ := h1 e he (by rcases hmt with h | h <;> rw [h] at hep <;> simp [hep]) (by rw [het]; exact hc')
    have hpe : k.2.push = e.push := by unfold Note.push pushOf; rw [← het, syntaxOf_complete he]
    exact hat.none (by rw [hpe]; exact c1) (by rw [hpe]; exact c2) (by rw [← het]; exact c3)
  · unfold isStmt at h2
    simp only [Bool.or_eq_true, beq_iff_eq] at h2
    rcases h2 with h2 | h2
    · obtain ⟨q, l, comp, op, r, b1, -⟩ := hat.assess h2 (by simp)
      rw [b1]; simp
    · have hpush : k.2.push = .compoundStatement := by unfold Note.push; rw [h2]; decide +kernel
      cases hn : negated k.2.push k.2.get with
      | true => obtain ⟨p, q, b1, b2, -⟩ := hat.neg hpush hn; rw [b2]; simp
      | false =>
        rw [hat.stmt hpush hn]
        obtain ⟨q', hq'⟩ : ∃ q', openNode k.2.push k.2.tag k.2.get = some q' := by rw [hpush]; exact ⟨_, rfl⟩
        obtain ⟨pk, b2, -⟩ := hpi.opened k.1 k.2 q' hk1 hq'
        rw [b2]; simp

/-- The clones of the predicates of statements. -/
theorem kids_truth (hd : DocTree E scr x t ns f) (hJ : J E scr z ns u) (hpi : PI ns [] π u) (n : Nat) : ∀ (l : List (Nat × Note)) (ps : List Nat) (qs : List Pred),
    (∀ k ∈ l, ns[k.1]? = some k.2 ∧ (π k.1 ≠ none ↔ isStmt k.2.tag = true)) → ps = l.flatMap (fun k => (π k.1).toList) →
    Each (fun a b => u.clone n a = some b) ps qs → ∀ v, Pred.allTrue v qs = stmtsAll v (l.map fun k => k.2.xml)
  | [], _, _, _, h1, h2, _ => by subst h1; cases h2; rfl
  | k :: l, ps, qs, hl, h1, h2, v => by
    obtain ⟨a1, a2⟩ := hl k (by simp)
    rw [List.flatMap_cons] at h1
    subst h1
    cases hk : π k.1 with
    | none =>
      rw [hk] at h2 a2
      have hs : isStmt k.2.xml.tag = false := by
        cases hc : isStmt k.2.tag with
        | false => exact hc
        | true => exact absurd rfl (a2.2 hc)
      have b1 := kids_truth hd hJ hpi n l _ _ (fun k hk => hl k (by simp [hk])) rfl h2 v
      simp only [List.map_cons, stmtsAll, hs, b1]
      simp
    | some pk =>
      rw [hk] at h2 a2
      have hs : isStmt k.2.tag = true := a2.1 (by simp)
      have hs' : isStmt k.2.xml.tag = true := hs
      cases h2 with
      | cons h2 h3 =>
        have b1 := kids_truth hd hJ hpi n l _ _ (fun k hk => hl k (by simp [hk])) rfl h3 v
        have := stmt_truth hd hJ hpi v n k.1 k.2 pk _ a1 hk hs h2
        simp only [List.map_cons, Pred.allTrue, stmtsAll, hs', this, b1]
        simp

/-- The predicate of a compound condition. -/
theorem cond_node (hpi : PI ns [] π u) {j : Nat} {m : Note} {p : Nat} (hm : ns[j]? = some m) (ht : m.tag = "compoundCondition") (hp : (u.elt j).pred = some p) :
    u.pnode p = .node .and ((kidNotes j 0 ns).flatMap fun q => (π q.1).toList) := by
  have hpush : m.push = .compoundCondition := by unfold Note.push; rw [ht]; decide +kernel
  obtain ⟨p', hp', hnode⟩ := hpi.opened j m (.node .and []) hm (by rw [hpush]; rfl)
  rw [hp] at hp'
  obtain rfl : p = p' := by simpa using hp'
  rw [hnode, kidsOf_notes]; rfl

/-- The clone of a statement is not an empty compound, unless the statement is one. -/
theorem stmt_empty (hd : DocTree E scr x t ns f) (hpi : PI ns [] π u) {n j : Nat} {m : Note} {p : Nat} {q : Pred} (hm : ns[j]? = some m) (hp : π j = some p)
    (hs : isStmt m.tag = true) (hq : u.clone n p = some q) (he : q = .conj [] ∨ q = .disj [] ∨ q = .neg []) : m.tag = "compoundStatement" ∧ m.xml.children = [] := by
  have hat := hpi.att j m hm
  cases n with
  | zero => simp [PS.clone] at hq
  | succ n =>
  unfold PS.clone at hq
  unfold isStmt at hs
  simp only [Bool.or_eq_true, beq_iff_eq] at hs
  rcases hs with hs | hs
  · obtain ⟨q', l, comp, op, r, b1, b2, -⟩ := hat.assess hs (by simp)
    rw [hp] at b1
    obtain rfl : p = q' := by simpa using b1
    rw [b2] at hq
    obtain rfl : Pred.atom l op r = q := by simpa using hq
    rcases he with h | h | h <;> cases h
  · refine ⟨hs, ?_⟩
    have hpush : m.push = .compoundStatement := by unfold Note.push; rw [hs]; decide +kernel
    have hopen : openNode m.push m.tag m.get = some (.node ((connOf ((m.get "operator").getD "")).getD .and) []) := by rw [hpush]; rfl
    obtain ⟨p', hp', hnode⟩ := hpi.opened j m _ hm hopen
    have key : ∀ c cs, u.pnode p = .node c cs → cs = [] := by
      intro c cs hc
      rw [hc] at hq
      obtain ⟨qs, h1, h2⟩ := Option.map_eq_some_iff.1 hq
      have : qs = [] := by
        rw [← h2] at he
        cases c <;> simp [mkPred] at he <;> exact he
      rw [this] at h1
      have := mapM_each h1
      cases this; rfl
    cases hn : negated m.push m.get with
    | true =>
      obtain ⟨p2, q2, b1, b2, -, b4⟩ := hat.neg hpush hn
      rw [hp] at b2
      obtain rfl : p = q2 := by simpa using b2
      exact absurd (key _ _ b4) (by simp)
    | false =>
      have h1 := hat.stmt hpush hn
      rw [hp, hp'] at h1
      obtain rfl : p = p' := by simpa using h1
      have h2 := key _ _ (by rw [hnode]; rfl)
      rw [kidsOf_notes] at h2
      rw [← hd.kids hm]
      have hk := stmt_kids hd hpi hm (.inr hs)
      have ht := fun k hk' => (hk k hk').2.2
      have hst : ∀ k ∈ kidNotes j 0 ns, isStmt k.2.tag = true := by
        intro k hk
        obtain ⟨-, hk1, hk2⟩ := kidNotes_mem.1 hk
        rw [Nat.sub_zero] at hk1
        obtain ⟨-, m', hm', e, he, het, hep⟩ := (hd.ok k.1 k.2 hk1).parent j hk2
        obtain rfl : m = m' := by rw [hm] at hm'; simpa using hm'
        rw [hs] at hep
        have h1 : ∀ e ∈ syntaxTable, "compoundStatement" ∈ e.parents → isStmt e.tag = true := by decide +kernel
        rw [← het]; exact h1 e he hep
      generalize kidNotes j 0 ns = l at *
      cases l with
      | nil => rfl
      | cons k l =>
        exfalso
        obtain ⟨pk, hpk⟩ := Option.ne_none_iff_exists'.1 (ht k (by simp) (hst k (by simp)))
        simp [hpk] at h2

/-- The predicates of the compound conditions around an element. -/
def UpPred (ns : List Note) (u : PS) (c : Xml) (p : Nat) : Prop :=
  ∃ (j : Nat) (m : Note), ns[j]? = some m ∧ m.xml = c ∧ m.tag = "compoundCondition" ∧ (u.elt j).pred = some p

theorem predChain_spec (hJ : J E scr z ns u) (hpi : PI ns [] π u) {s : PS} (hl : Like u s) {k : Nat} {up : List Xml} (h : CondChain ns k up) : ∀ (n : Nat) (acc : List Nat),
    PPost (predChain n k acc) (fun r s' => s' = s ∧ ∃ ps, r = ps.reverse ++ acc ∧ Each (UpPred ns u) up ps) s := by
  induction h with
  | @top p m h1 h2 =>
    intro n acc
    cases n with
    | zero => exact PPost.fuel
    | succ n =>
      unfold predChain
      refine PPost.bind (PPost.get ?_)
      rw [if_pos (by rw [hl.tag, (hJ.tag h1).1]; exact h2)]
      exact PPost.pure ⟨rfl, [], rfl, .nil⟩
  | @cond p q m up h1 h2 h3 h4 ih =>
    intro n acc
    cases n with
    | zero => exact PPost.fuel
    | succ n =>
      unfold predChain
      refine PPost.bind (PPost.get ?_)
      have ht : (s.elt p).tag = "compoundCondition" := by rw [hl.tag, (hJ.tag h1).1]; exact h2
      rw [if_neg (by rw [ht]; decide), if_pos ht]
      refine PPost.bind (PPost.parentElt fun q' hq' _ => ?_)
      rw [hl.parent, (hJ.tag h1).2, h3] at hq'
      obtain rfl : q = q' := by simpa using hq'
      have hpush : m.push = .compoundCondition := by unfold Note.push; rw [h2]; decide +kernel
      obtain ⟨pp, hp', -⟩ := hpi.opened p m (.node .and []) h1 (by rw [hpush]; rfl)
      rw [hl.pred, hp']
      refine (ih n (pp :: acc)).mono ?_
      rintro r s' ⟨rfl, ps, rfl, hps⟩
      exact ⟨rfl, pp :: ps, by simp, .cons ⟨p, m, h1, rfl, h2, hp'⟩ hps⟩
  | @other p q m up h1 h2 h3 h4 h5 ih =>
    intro n acc
    cases n with
    | zero => exact PPost.fuel
    | succ n =>
      unfold predChain
      refine PPost.bind (PPost.get ?_)
      rw [if_neg (by rw [hl.tag, (hJ.tag h1).1]; exact h2), if_neg (by rw [hl.tag, (hJ.tag h1).1]; exact h3)]
      exact PPost.abort

theorem clonePred_spec {s : PS} (hl : Like u s) (p : Nat) : PPost (clonePred p) (fun q s' => s' = s ∧ u.clone u.npred p = some q) s := by
  unfold clonePred
  refine PPost.bind (PPost.get ?_)
  split
  · next q hq => exact PPost.pure ⟨rfl, by rw [← hq, PS.clone_congr hl.pnode, hl.npred]⟩
  · exact PPost.fuel

/-- The part of the predicate that comes from one compound condition. -/
theorem up_truth (hd : DocTree E scr x t ns f) (hJ : J E scr z ns u) (hpi : PI ns [] π u) {c : Xml} {p : Nat} (h : UpPred ns u c p) : ∃ cs, u.pnode p = .node .and cs ∧
    (∀ n qs, Each (fun a b => u.clone n a = some b) cs qs → ∀ v, Pred.allTrue v qs = stmtsAll v c.children) ∧
    (cs = [] → ∀ v, stmtsAll v c.children = true) ∧
    (∀ n k q, cs = [k] → u.clone n k = some q → q = .conj [] ∨ q = .disj [] ∨ q = .neg [] → ∃ (j : Nat) (m : Note), ns[j]? = some m ∧ m.tag = "compoundStatement" ∧ m.xml.children = []) := by
  obtain ⟨j, m, hm, rfl, ht, hp⟩ := h
  have hk := stmt_kids hd hpi hm (.inl ht)
  have key := fun n qs h => kids_truth hd hJ hpi n (kidNotes j 0 ns) _ qs hk rfl h
  rw [hd.kids hm] at key
  refine ⟨_, cond_node hpi hm ht hp, key, fun hc v => ?_, fun n k q hc hq he => ?_⟩
  · have := key 0 [] (by rw [hc]; exact .nil) v
    exact this.symm
  · have hfl : ∀ l : List (Nat × Note), (∀ k ∈ l, ns[k.1]? = some k.2 ∧ (π k.1 ≠ none ↔ isStmt k.2.tag = true)) → ∀ ks, l.flatMap (fun q => (π q.1).toList) = ks →
        Each (fun w k => ns[w.1]? = some w.2 ∧ isStmt w.2.tag = true ∧ π w.1 = some k) (l.filter ((fun y : Xml => isStmt y.tag) ∘ fun q => q.2.xml)) ks := by
      intro l
      induction l with
      | nil => rintro _ ks rfl; exact .nil
      | cons w l ih =>
        rintro hl ks rfl
        obtain ⟨a1, a2⟩ := hl w (by simp)
        have ih := ih (fun k hk => hl k (by simp [hk])) _ rfl
        cases hw : π w.1 with
        | none =>
          have hs : ¬ isStmt w.2.tag = true := fun hc => a2.2 hc hw
          rw [List.filter_cons_of_neg (by exact hs), List.flatMap_cons, hw]
          exact ih
        | some pk =>
          have hs : isStmt w.2.tag = true := a2.1 (by rw [hw]; simp)
          rw [List.filter_cons_of_pos (by exact hs), List.flatMap_cons, hw]
          exact .cons ⟨a1, hs, hw⟩ ih
    have := hfl _ hk _ hc
    generalize (kidNotes j 0 ns).filter _ = l at this
    cases this with
    | cons h1 h2 =>
      cases h2
      exact ⟨_, _, h1.1, stmt_empty hd hpi h1.1 h1.2.2 h1.2.1 hq he⟩

theorem conjChildren_spec {s : PS} (hl : Like u s) (p : Nat) : PPost (conjChildren p) (fun cs s' => s' = s ∧ u.pnode p = .node .and cs) s := by
  unfold conjChildren
  refine PPost.bind (PPost.get ?_)
  rw [hl.pnode]
  split
  · next cs h => exact PPost.pure ⟨rfl, h⟩
  · exact PPost.abort

theorem clone_conj {n p : Nat} {cs : List Nat} {q : Pred} (h : u.pnode p = .node .and cs) (hq : u.clone n p = some q) :
    ∃ m qs, q = .conj qs ∧ Each (fun a b => u.clone m a = some b) cs qs := by
  cases n with
  | zero => simp [PS.clone] at hq
  | succ n =>
    unfold PS.clone at hq
    rw [h] at hq
    obtain ⟨qs, h1, h2⟩ := Option.map_eq_some_iff.1 hq
    exact ⟨n, qs, h2.symm, mapM_each h1⟩

theorem allTrue_append (v : String → String) : ∀ a b : List Pred, Pred.allTrue v (a ++ b) = (Pred.allTrue v a && Pred.allTrue v b)
  | [], b => by simp [Pred.allTrue]
  | p :: a, b => by simp [Pred.allTrue, allTrue_append v a b, Bool.and_assoc]

theorem conjParts_spec (hd : DocTree E scr x t ns f) (hJ : J E scr z ns u) (hpi : PI ns [] π u) {s : PS} (hl : Like u s) : ∀ (cs : List Xml) (ps : List Nat), Each (UpPred ns u) cs ps →
    PPost (conjParts ps) (fun qs s' => s' = s ∧ ∀ v, Pred.allTrue v qs = condTrue v cs) s
  | _, _, .nil => PPost.pure' ⟨rfl, fun _ => rfl⟩
  | c :: cs, p :: ps, .cons h hs => by
    unfold conjParts
    refine PPost.bind ((conjChildren_spec hl p).mono ?_)
    rintro ks s ⟨rfl, hks⟩
    obtain ⟨ks', a1, a2, a3, -⟩ := up_truth hd hJ hpi h
    rw [hks] at a1
    obtain rfl : ks = ks' := by simpa using a1
    have part : PPost (match ks with
      | [] => pure []
      | [c] => do pure [← clonePred c]
      | _ => do pure [← clonePred p]) (fun (part : List Pred) s' => s' = s ∧ ∀ v, Pred.allTrue v part = stmtsAll v c.children) s := by
      split
      · exact PPost.pure ⟨rfl, fun v => (a3 rfl v).symm⟩
      · next k =>
        refine PPost.bind ((clonePred_spec hl k).mono ?_)
        rintro q s ⟨rfl, hq⟩
        exact PPost.pure ⟨rfl, fun v => a2 _ [q] (.cons hq .nil) v⟩
      · refine PPost.bind ((clonePred_spec hl p).mono ?_)
        rintro q s ⟨rfl, hq⟩
        obtain ⟨m, qs, rfl, hqs⟩ := clone_conj hks hq
        refine PPost.pure ⟨rfl, fun v => ?_⟩
        rw [← a2 m qs hqs v, Pred.allTrue, Pred.allTrue, Pred.truth, Bool.and_true]
    refine PPost.bind (part.mono ?_)
    rintro pt s ⟨rfl, hpt⟩
    refine PPost.bind ((conjParts_spec hd hJ hpi hl cs ps hs).mono ?_)
    rintro qs s ⟨rfl, hq⟩
    refine PPost.pure ⟨rfl, fun v => ?_⟩
    rw [allTrue_append, hpt, hq]; rfl

/-- What the predicate of a condition means: that the statements around the condition are true. -/
def CondMeans (up : List Xml) (r : Option Pred) : Prop :=
  match r with
  | none => ∀ v, condTrue v up = true
  | some q => (∀ v, q.truth v = condTrue v up) ∧ (q = .conj [] ∨ q = .disj [] ∨ q = .neg [] → ∀ v, condTrue v up = true)

theorem condTrue_reverse (v : String → String) (l : List Xml) : condTrue v l.reverse = condTrue v l := by
  unfold condTrue; rw [List.all_reverse]

theorem Each.reverse {α β : Type} {R : α → β → Prop} {l : List α} {m : List β} (h : Each R l m) : Each R l.reverse m.reverse := by
  induction h with
  | nil => exact .nil
  | cons h1 _ ih => rw [List.reverse_cons, List.reverse_cons]; exact Each.append' ih (.cons h1 .nil)

theorem obtainPred_spec (hd : DocTree E scr x t ns f) (hJ : J E scr z ns u) (hpi : PI ns [] π u) (hfull : StmtFull ns) {s : PS} (hl : Like u s) {k : Nat} {up : List Xml} (h : CondChain ns k up) :
    PPost (obtainPred k) (fun r s' => s' = s ∧ CondMeans up r) s := by
  unfold obtainPred
  refine PPost.bind (PPost.get ?_)
  split
  · exact PPost.abort
  refine PPost.bind ((predChain_spec hJ hpi hl h _ _).mono ?_)
  rintro r s ⟨rfl, ps, rfl, hps⟩
  rw [List.append_nil]
  split
  · next hr =>
    have : ps = [] := by simpa using hr
    subst this
    cases hps
    exact PPost.pure ⟨rfl, fun v => rfl⟩
  · next p hr =>
    have : ps = [p] := by simpa using congrArg List.reverse hr
    subst this
    cases hps with
    | @cons c _ _ _ h1 h2 =>
    cases h2
    have hct : ∀ v, condTrue v [c] = stmtsAll v c.children := fun v => by simp [condTrue]
    refine PPost.bind ((conjChildren_spec hl p).mono ?_)
    rintro ks s ⟨rfl, hks⟩
    obtain ⟨ks', a1, a2, a3, a4⟩ := up_truth hd hJ hpi h1
    rw [hks] at a1
    obtain rfl : ks = ks' := by simpa using a1
    split
    · exact PPost.pure ⟨rfl, fun v => by rw [hct, a3 rfl v]⟩
    · next k =>
      refine PPost.bind ((clonePred_spec hl k).mono ?_)
      rintro q s ⟨rfl, hq⟩
      refine PPost.pure ⟨rfl, fun v => ?_, fun he => ?_⟩
      · rw [hct, ← a2 _ [q] (.cons hq .nil) v, Pred.allTrue, Pred.allTrue, Bool.and_true]
      · obtain ⟨j, m, y1, y2, y3⟩ := a4 _ k q rfl hq he
        exact absurd y3 (hfull j m y1 y2)
    · next hne1 hne2 =>
      refine PPost.bind ((clonePred_spec hl p).mono ?_)
      rintro q s ⟨rfl, hq⟩
      obtain ⟨m, qs, rfl, hqs⟩ := clone_conj hks hq
      refine PPost.pure ⟨rfl, fun v => ?_, fun he => ?_⟩
      · rw [hct, ← a2 m qs hqs v, Pred.truth]
      · exfalso
        rcases he with he | he | he
        · obtain rfl : qs = [] := by simpa using he
          cases hqs
          exact hne1 rfl
        · cases he
        · cases he
  · refine PPost.bind ((conjParts_spec hd hJ hpi hl _ _ hps.reverse).mono ?_)
    rintro qs s ⟨rfl, hq⟩
    have hq' : ∀ v, Pred.allTrue v qs = condTrue v up := fun v => by rw [hq, condTrue_reverse]
    refine PPost.pure ⟨rfl, fun v => by rw [Pred.truth, hq'], fun he v => ?_⟩
    rcases he with he | he | he
    · obtain rfl : qs = [] := by simpa using he
      rw [← hq']; rfl
    · cases he
    · cases he

mutual
theorem solvePred_truth (tr : List (String × String)) (v : String → String) : ∀ p : Pred, (solvePred tr p).truth v = p.truth (fun a => v (solveRef tr a))
  | .falsum => by simp [solvePred, Pred.truth]
  | .verum => by simp [solvePred, Pred.truth]
  | .atom l t r => by simp [solvePred, Pred.truth]
  | .neg cs => by simp [solvePred, Pred.truth, (solvePreds_truth tr v cs).1]
  | .conj cs => by simp [solvePred, Pred.truth, (solvePreds_truth tr v cs).1]
  | .disj cs => by simp [solvePred, Pred.truth, (solvePreds_truth tr v cs).2]
theorem solvePreds_truth (tr : List (String × String)) (v : String → String) : ∀ ps : List Pred,
    Pred.allTrue v (solvePreds tr ps) = Pred.allTrue (fun a => v (solveRef tr a)) ps ∧ Pred.anyTrue v (solvePreds tr ps) = Pred.anyTrue (fun a => v (solveRef tr a)) ps
  | [] => by simp [solvePreds, Pred.allTrue, Pred.anyTrue]
  | p :: ps => by
    have h1 := solvePred_truth tr v p
    obtain ⟨h2, h3⟩ := solvePreds_truth tr v ps
    simp [solvePreds, Pred.allTrue, Pred.anyTrue, h1, h2, h3]
end

/-- What the predicate of a condition of a link means. -/
def LinkMeans (tr : List (String × String)) (up : List Xml) (r : Option Pred) : Prop :=
  match r with
  | none => ∀ v, condTrue v up = true
  | some q => ∀ v, q.truth v = condTrue (fun a => v (solveRef tr a)) up

theorem actPred_means {tr : List (String × String)} {up : List Xml} {r : Option Pred} (h : CondMeans up r) : LinkMeans tr up (actPred tr r) := by
  unfold actPred
  split
  · exact h
  · exact h.2 (.inr (.inr rfl))
  · exact h.2 (.inl rfl)
  · exact h.2 (.inr (.inl rfl))
  · next p _ _ _ => intro v; rw [solvePred_truth]; exact h.1 _

end

end Ginga
