import Verif.Proofs.SwitchEnd
import Verif.Props.C52
/-!
# The rules of a switch, at the end of the document
-/
namespace Ginga

theorem Each.imp {α β : Type} {R S : α → β → Prop} {l : List α} {m : List β} (h : Each R l m) (hs : ∀ a ∈ l, ∀ b, R a b → S a b) : Each S l m := by
  induction h with
  | nil => exact .nil
  | cons h1 _ ih => exact .cons (hs _ (by simp) _ h1) (ih fun a ha => hs a (by simp [ha]))

theorem Each.append {α β : Type} {R : α → β → Prop} {l l' : List α} {m m' : List β} (h : Each R l m) (h' : Each R l' m') : Each R (l ++ l') (m ++ m') := by
  induction h with
  | nil => exact h'
  | cons h1 _ ih => exact .cons h1 ih

theorem Each.map_left {α β γ : Type} {R : γ → β → Prop} {f : α → γ} {l : List α} {m : List β} (h : Each (fun a b => R (f a) b) l m) : Each R (l.map f) m := by
  induction h with
  | nil => exact .nil
  | cons h1 _ ih => exact .cons h1 ih

theorem Each.map_right {α β γ : Type} {R : α → γ → Prop} {f : β → γ} {l : List α} {m : List β} (h : Each (fun a b => R a (f b)) l m) : Each R l (m.map f) := by
  induction h with
  | nil => exact .nil
  | cons h1 _ ih => exact .cons h1 ih

theorem each_rules {s : PS} {A : Nat × Option Nat → Nat × Pred → Prop} : ∀ {L : List (Nat × Note)} {R : List (Nat × Option Nat)} {rs : List (Nat × Pred)},
    R.map Prod.fst = L.map Prod.fst → (∀ q ∈ L, (s.elt q.1).tag = q.2.tag ∧ (q.2.tag = "bindRule" ∨ q.2.tag = "defaultComponent")) →
    Each A (R.filter fun r => (s.elt r.1).tag != "defaultComponent") rs →
    Each (fun q b => ∃ r ∈ R, r.1 = q.1 ∧ A r b) (L.filter fun q => q.2.tag == "bindRule") rs
  | [], [], _, _, _, h => by cases h; exact .nil
  | [], _ :: _, _, h, _, _ => by cases h
  | _ :: _, [], _, h, _, _ => by cases h
  | q :: L, r :: R, rs, hm, hq, h => by
    obtain ⟨h1, h2⟩ := List.cons.inj hm
    obtain ⟨g1, g2⟩ := hq q (by simp)
    have ih := fun rs => each_rules (A := A) (rs := rs) h2 (fun q hq' => hq q (by simp [hq']))
    rw [← h1] at g1
    rcases g2 with g2 | g2
    · rw [List.filter_cons_of_pos (by rw [g1, g2]; decide)] at h
      rw [List.filter_cons_of_pos (by rw [g2]; decide)]
      cases h with
      | cons a b => exact .cons ⟨r, by simp, h1, a⟩ ((ih _ b).imp fun _ _ _ ⟨r', c1, c2⟩ => ⟨r', by simp [c1], c2⟩)
    · rw [List.filter_cons_of_neg (by rw [g1, g2]; decide)] at h
      rw [List.filter_cons_of_neg (by rw [g2]; decide)]
      exact (ih _ h).imp fun _ _ _ ⟨r', c1, c2⟩ => ⟨r', by simp [c1], c2⟩

theorem each_defaults {s : PS} : ∀ {L : List (Nat × Note)} {R : List (Nat × Option Nat)},
    R.map Prod.fst = L.map Prod.fst → (∀ q ∈ L, (s.elt q.1).tag = q.2.tag ∧ (q.2.tag = "bindRule" ∨ q.2.tag = "defaultComponent")) → (∀ r ∈ R, r.2.isSome = true) →
    Each (fun q b => ∃ r ∈ R, r.1 = q.1 ∧ r.2 = some b) (L.filter fun q => q.2.tag == "defaultComponent") (defaultsOf s R)
  | [], [], _, _, _ => .nil
  | [], _ :: _, h, _, _ => by cases h
  | _ :: _, [], h, _, _ => by cases h
  | q :: L, r :: R, hm, hq, hs => by
    obtain ⟨h1, h2⟩ := List.cons.inj hm
    obtain ⟨g1, g2⟩ := hq q (by simp)
    have ih := each_defaults h2 (fun q hq' => hq q (by simp [hq'])) (fun r hr => hs r (by simp [hr]))
    have ih := ih.imp (S := fun q b => ∃ r' ∈ r :: R, r'.1 = q.1 ∧ r'.2 = some b) fun _ _ _ ⟨r', c1, c2⟩ => ⟨r', by simp [c1], c2⟩
    rw [← h1] at g1
    unfold defaultsOf at ih ⊢
    rcases g2 with g2 | g2
    · rw [List.filter_cons_of_neg (by rw [g2]; decide), List.filterMap_cons_none (by rw [g1, g2, if_neg (by decide)])]
      exact ih
    · obtain ⟨b, hb⟩ := Option.isSome_iff_exists.1 (hs r (by simp))
      rw [List.filter_cons_of_pos (by rw [g2]; decide), List.filterMap_cons_some (b := b) (by rw [g1, g2, if_pos rfl]; exact hb)]
      exact .cons ⟨r, by simp, h1, hb⟩ ih

/-- A composite rule without a predicate has no rule in it. -/
theorem rule_empty {E : PRead} {scr : Rect} {x : Xml} {t u : PS} {ns : List Note} {f : Nat → Nat} {π : Nat → Option Nat}
    (hd : DocTree E scr x t ns f) (hpi : PI ns [] π u) {j : Nat} {m : Note} {p : Nat} (hm : ns[j]? = some m) (hr : m.tag = "rule" ∨ m.tag = "compositeRule")
    (hp : (u.elt j).pred = some p) : (∃ c, u.pnode p = .node c []) ↔ m.tag = "compositeRule" ∧ m.xml.children = [] := by
  have hpush : m.push = .rule := pushOf_rule hr
  have hopen : openNode m.push m.tag m.get = some (if m.tag = "rule" then .atom ("$__settings__." ++ (m.get "var").getD "") ((testOf ((m.get "comparator").getD "")).getD .eq)
      ((m.get "value").getD "") else .node ((connOf ((m.get "operator").getD "")).getD .and) []) := by
    rw [hpush]; rfl
  obtain ⟨p', hp', hnode⟩ := hpi.opened j m _ hm hopen
  rw [hp] at hp'
  obtain rfl : p = p' := by simpa using hp'
  rcases hr with hr | hr
  · rw [if_pos hr] at hnode
    rw [hnode, hr]
    simp [PNode.withKids]
  · rw [if_neg (by rw [hr]; decide)] at hnode
    rw [hnode, hr, ← hd.kids hm, kidsOf_notes]
    simp only [PNode.withKids, true_and]
    have hkid : ∀ k ∈ kidNotes j 0 ns, ∃ pk, π k.1 = some pk := by
      intro k hk
      obtain ⟨-, hk1, hk2⟩ := kidNotes_mem.1 hk
      rw [Nat.sub_zero] at hk1
      obtain ⟨-, m', hm', e, he, het, hep⟩ := (hd.ok k.1 k.2 hk1).parent j hk2
      obtain rfl : m = m' := by rw [hm] at hm'; simpa using hm'
      rw [hr] at hep
      have hpush : k.2.push = .rule := pushOf_rule (by
        have : ∀ e ∈ syntaxTable, "compositeRule" ∈ e.parents → e.tag = "rule" ∨ e.tag = "compositeRule" := by decide +kernel
        rw [← het]; exact this e he hep)
      have hnb : ¬ UnderBase ns k.2 := by
        rintro ⟨pa, m', h1, h2, h3⟩
        rw [hk2] at h1
        obtain rfl : j = pa := by simpa using h1
        rw [hm] at h2
        obtain rfl : m = m' := by simpa using h2
        rw [hr] at h3; exact absurd h3 (by decide)
      have h1 := (hpi.att k.1 k.2 hk1).rule hpush hnb
      have hopen' : openNode k.2.push k.2.tag k.2.get ≠ none := by rw [hpush]; simp [openNode]
      obtain ⟨q', hq'⟩ := Option.ne_none_iff_exists'.1 hopen'
      obtain ⟨pk, h2, -⟩ := hpi.opened k.1 k.2 q' hk1 hq'
      exact ⟨pk, h1.trans h2⟩
    generalize kidNotes j 0 ns = l at hkid
    cases l with
    | nil => simp
    | cons k l =>
      obtain ⟨pk, hpk⟩ := hkid k (by simp)
      simp [hpk]

end Ginga
