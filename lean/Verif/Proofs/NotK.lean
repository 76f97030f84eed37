import Verif.Proofs.ConnFull
import Verif.Proofs.CondPred
/-!
# A negation has one child
-/
namespace Ginga

/-- Every predicate of an element is allocated, and no negation has more than one child. -/
def NotK (s : PS) : Prop := (∀ j p, (s.elt j).pred = some p → p < s.npred) ∧ ∀ q cs, s.pnode q = .node .not cs → cs.length ≤ 1

theorem NotK.init (W H : Int) (z : Nat) (reg : Reg) (n : Nat) : NotK (PS.init W H z reg n) := by
  refine ⟨fun j p h => ?_, fun q cs h => ?_⟩
  · simp [PS.init] at h
  · simp [PS.init] at h

/-- Nothing is added to a negation that has a child. -/
theorem push_guard (E : PRead) (proc) (f : Push) (k : Nat) (s : PS) (hf : f = .compoundStatement ∨ f = .rule) :
    PPost (push E proc f k) (fun _ _ => ∀ pa pp, (s.elt k).parent = some pa → (f = .rule → (s.elt pa).tag ≠ "ruleBase") → (s.elt pa).pred = some pp →
      ∀ x, s.pnode pp ≠ .node .not [x]) s := by
  rcases hf with rfl | rfl
  · unfold push pushCompoundStatement
    refine PPost.bind (PPost.get (PPost.bind (PPost.attr! fun op hop => PPost.bind (PPost.orErr fun c hc => PPost.bind ?_))))
    have hb : PPost (match s.attr k "isNegated" with | none => pure false | some v => PM.orErr (parseBool v.toList)) (fun _ t => t = s) s := by
      cases s.attr k "isNegated" with
      | none => exact PPost.pure rfl
      | some v => exact PPost.orErr fun b _ => rfl
    refine hb.mono ?_
    rintro b t rfl
    refine PPost.bind (PPost.parentElt fun pa hp _ => PPost.bind (PPost.some! fun pp hpp => ?_))
    split
    · exact PPost.err
    · next hg =>
      intro a u _ pa' pp' h1 _ h2 x hx
      rw [hp] at h1; cases h1
      rw [hpp] at h2; cases h2
      exact hg x hx
  · unfold push pushRule
    refine PPost.bind (PPost.get ?_)
    have hq : PPost (rulePred s k) (fun _ t => t = s) s := by
      unfold rulePred
      split
      · exact PPost.bind (PPost.attr! fun v hv => PPost.bind (PPost.attr! fun c hc => PPost.bind (PPost.orErr fun t ht => PPost.bind (PPost.attr! fun w hw => PPost.pure rfl))))
      · exact PPost.bind (PPost.attr! fun v hv => PPost.bind (PPost.orErr fun t ht => PPost.pure rfl))
    refine PPost.bind (hq.mono ?_)
    rintro q t rfl
    refine PPost.bind (PPost.parentElt fun pa hp _ => ?_)
    split
    · next ht =>
      intro a u _ pa' pp' h1 h2
      rw [hp] at h1; cases h1
      exact absurd ht (h2 rfl)
    · unfold addToParent
      refine PPost.bind (PPost.bind (PPost.get (PPost.bind (PPost.some! fun pp hpp => ?_))))
      split
      · exact PPost.err
      · next hg =>
        intro a u _
        intro a u _ pa' pp' h1 _ h2 x hx
        rw [hp] at h1; cases h1
        rw [hpp] at h2; cases h2
        exact hg x hx

/-- Nothing is added to a negation that has a child. -/
theorem pop_guard (k : Nat) (s : PS) :
    PPost (popAssessmentStatement k) (fun _ _ => ∀ pa pp, (s.elt k).parent = some pa → (s.elt pa).pred = some pp → ∀ x, s.pnode pp ≠ .node .not [x]) s := by
  unfold popAssessmentStatement
  refine PPost.bind (PPost.get (PPost.bind (PPost.attr! fun comp hcomp => PPost.bind (PPost.orErr fun op hop => PPost.bind (PPost.orErr fun l hl =>
    PPost.bind (PPost.orErr fun r hr => PPost.bind (PPost.parentElt fun pa hp _ => ?_)))))))
  unfold addToParent
  refine PPost.bind (PPost.bind (PPost.get (PPost.bind (PPost.some! fun pp hpp => ?_))))
  split
  · exact PPost.err
  · next hg =>
    intro a u _
    intro a u _ pa' pp' h1 h2 x hx
    rw [hp] at h1; cases h1
    rw [hpp] at h2; cases h2
    exact hg x hx

/-- A predicate without children, or one of a single child, is added to another. -/
theorem notK_add {pn : Nat → PNode} {n pp d : Nat} {q : PNode} {c : Conn} {cs : List Nat} (h : ∀ q cs, pn q = .node .not cs → cs.length ≤ 1)
    (hq : ∀ cs, q = .node .not cs → cs.length ≤ 1) (hpp : pp < n) (hg : ∀ x, pn pp ≠ .node .not [x]) (hc : upd pn n q pp = .node c cs) :
    ∀ i cs', upd (upd pn n q) pp (.node c (cs ++ [d])) i = .node .not cs' → cs'.length ≤ 1 := by
  intro i cs' hi
  rw [upd_ne _ _ (by omega)] at hc
  by_cases h1 : i = pp
  · subst h1
    rw [upd_same] at hi
    simp only [PNode.node.injEq] at hi
    obtain ⟨rfl, rfl⟩ := hi
    have := h i cs hc
    match cs with
    | [] => simp
    | [x] => exact absurd hc (hg x)
    | _ :: _ :: _ => simp at this
  · rw [upd_ne _ _ h1] at hi
    by_cases h2 : i = n
    · subst h2; rw [upd_same] at hi; exact hq cs' hi
    · rw [upd_ne _ _ h2] at hi; exact h i cs' hi

theorem openNode_not {f : Push} {tag : String} {at' : String → Option String} {q : PNode} (h : openNode f tag at' = some q) : ∀ cs, q = .node .not cs → cs.length ≤ 1 := by
  rintro cs rfl
  cases f <;> simp only [openNode] at h <;> try (cases h; done)
  · simp at h; rw [h.2]; simp
  · split at h
    · simp at h
    · simp at h; rw [h.2]; simp

theorem notK_rides (E : PRead) (scr : Rect) (z0 : Nat) : Rides E scr z0 (fun _ _ s => NotK s) where
  same g S s y al ca _ h := h
  imp g S s s2 par pt x e r y nt hn h _ := by
    rw [hn.state]
    refine ⟨fun j p hj => ?_, h.2⟩
    by_cases hc : j = s.nelt
    · subst hc; simp at hj
    · exact h.1 j p (by simpa [upd_ne _ _ hc] using hj)
  push g S s s2 par pt x e r y nt proc a t hn h _ hrun hp _ := by
    have h2 : NotK s2 := by
      rw [hn.state]
      refine ⟨fun j p hj => ?_, h.2⟩
      by_cases hc : j = s.nelt
      · subst hc; simp at hj
      · exact h.1 j p (by simpa [upd_ne _ _ hc] using hj)
    have hk : (s2.elt s.nelt).pred = none := by rw [hn.state]; simp
    have hother : ∀ j, j ≠ s.nelt → (t.elt j).pred = (s2.elt j).pred := by
      intro j hj
      rw [hp.other j hj]
      repeat' split
      all_goals first | rfl | exact (childEff_tag _ _ _ _ _).2.2.1
    have low : s2.npred ≤ t.npred → (∀ p, (t.elt s.nelt).pred = some p → p < t.npred) → ∀ j p, (t.elt j).pred = some p → p < t.npred := by
      intro hle hk j p hj
      by_cases hc : j = s.nelt
      · subst hc; exact hk p hj
      · rw [hother j hc] at hj; exact Nat.lt_of_lt_of_le (h2.1 j p hj) hle
    rcases hp.pred with ⟨g1, g2, g3, g4⟩ | ⟨q, g1, g2, g3, g4, g5⟩ | ⟨q, pa, pp, c, cs, g1, g2, g3, g4, g5, g6, g7, g8⟩ | ⟨q, pa, pp, c, cs, g1, g2, g3, g4, g5, g6, g7, g8, g9⟩
    · refine ⟨low (Nat.le_of_eq g3.symm) fun p hp => ?_, fun q cs hq => h2.2 q cs (g2 ▸ hq)⟩
      rw [g4, hk] at hp; cases hp
    · refine ⟨low (by omega) fun p hp => ?_, fun i cs hi => ?_⟩
      · rw [g5] at hp; cases hp; omega
      · rw [g3] at hi
        by_cases hc : i = s2.npred
        · subst hc; rw [upd_same] at hi; exact openNode_not g1 cs hi
        · rw [upd_ne _ _ hc] at hi; exact h2.2 i cs hi
    · refine ⟨low (by omega) fun p hp => ?_, ?_⟩
      · rw [g8] at hp; cases hp; omega
      · rw [g6]
        refine notK_add h2.2 (openNode_not g1) (h2.1 pa pp g4) ?_ g5
        refine push_guard E proc e.push s.nelt s2 (g2.imp (fun h => h.1) (fun h => h.1)) a t hrun pa pp g3 (fun hr => ?_) g4
        rcases g2 with ⟨g2, -⟩ | ⟨-, g2⟩
        · rw [hr] at g2; cases g2
        · exact g2
    · refine ⟨low (by omega) fun p hp => ?_, ?_⟩
      · rw [g9] at hp; cases hp; omega
      · rw [g7]
        have hpp := h2.1 pa pp g5
        refine notK_add (n := s2.npred + 1) (fun i cs hi => ?_) (fun cs hc => ?_) (by omega) (fun x => ?_) g6
        · by_cases hc : i = s2.npred
          · subst hc; rw [upd_same] at hi; exact openNode_not g1 cs hi
          · rw [upd_ne _ _ hc] at hi; exact h2.2 i cs hi
        · simp only [PNode.node.injEq, true_and] at hc; rw [← hc]; simp
        · rw [upd_ne _ _ (by omega)]
          exact push_guard E proc e.push s.nelt s2 (.inl g2) a t hrun pa pp g4 (fun hr => by rw [g2] at hr; cases hr) g5 x
  pop g O S s k nt e n a t hj hpi h hk hsyn hne hrun hp := by
    have helt : ∀ j, (t.elt j).pred = (s.elt j).pred := by
      intro j
      by_cases hc : j = k
      · subst hc; rw [hp.own]
      · rw [hp.other j hc]
    rcases hp.pred with ⟨g1, g2, g3⟩ | ⟨pa, pp, c, cs, l, r, comp, op, g1, g2, g3, g4, g5, g6, g7, g8, g9, g10⟩
    · exact ⟨fun j p hj => by rw [g3]; exact h.1 j p (helt j ▸ hj), fun q cs hq => h.2 q cs (g2 ▸ hq)⟩
    · refine ⟨fun j p hj => ?_, ?_⟩
      · have := h.1 j p (helt j ▸ hj); omega
      · rw [g9]
        refine notK_add h.2 (fun cs hc => by cases hc) (h.1 pa pp g7) ?_ g8
        rw [g1] at hrun
        exact pop_guard k s a t hrun pa pp g6 g7

/-- Every negation of the document has at most one child. -/
theorem NotK.full {E : PRead} {scr : Rect} {x : Xml} {t u : PS} {ns : List Note} {f : Nat → Nat} {π : Nat → Option Nat} (h : NotK u) (hpi : PI ns [] π u) (hd : DocTree E scr x t ns f)
    {k : Nat} {n : Note} (hk : ns[k]? = some n) (ht : n.tag = "compoundStatement") (ho : n.xml.prop "operator" = some "not") : n.xml.children.length ≤ 1 := by
  have hop : n.get "operator" = n.xml.prop "operator" := table_plain _ stmt_plain (hd.ok k n hk) (by rw [ht]; decide) (by decide)
  have hpu : n.push = .compoundStatement := by unfold Note.push; rw [ht]; decide +kernel
  obtain ⟨p, h1, h2⟩ := hpi.opened k n _ hk (by rw [hpu]; rfl)
  have hc : (connOf ((n.get "operator").getD "")).getD .and = .not := by rw [hop, ho]; decide
  rw [hc] at h2
  have h3 := h.2 p _ h2
  rw [kidsOf_notes] at h3
  rw [← hd.kids hk, List.length_map]
  have : ∀ l : List (Nat × Note), (∀ q ∈ l, (π q.1).isSome = true) → (l.flatMap fun q => (π q.1).toList).length = l.length := by
    intro l hl
    induction l with
    | nil => rfl
    | cons q l ih =>
      rw [List.flatMap_cons, List.length_append, ih fun q hq => hl q (by simp [hq]), List.length_cons]
      have := hl q (by simp)
      cases hq : π q.1 with
      | none => rw [hq] at this; cases this
      | some v => simp; omega
  rw [this] at h3
  · exact h3
  · rintro ⟨i, m⟩ hm
    obtain ⟨h4, h5⟩ := stmt_kids hd hpi hk (.inr ht) (i, m) hm
    obtain ⟨-, -, e2⟩ := kidNotes_mem.1 hm
    obtain ⟨-, m', g1, e, g2, g3, g4⟩ := (hd.ok i m h4).parent k e2
    rw [hk] at g1; cases g1
    have h6 : ∀ e ∈ syntaxTable, "compoundStatement" ∈ e.parents → isStmt e.tag = true := by decide +kernel
    have := h5.2 (g3 ▸ h6 e g2 (ht ▸ g4))
    exact Option.isSome_iff_ne_none.2 this

end Ginga
