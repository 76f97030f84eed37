import Verif.Proofs.Settles
import Verif.Proofs.Laid
/-!
# Predicates are copied in finitely many steps

The predicates of an accepted document's elements are trees: copying one takes no more nested calls than there are predicates.
-/
namespace Ginga

theorem countP_mono {α : Type} (rk : α → Nat) {a b : Nat} (h : a ≤ b) : ∀ l : List α, l.countP (fun x => decide (rk x ≤ a)) ≤ l.countP (fun x => decide (rk x ≤ b))
  | [] => by simp
  | x :: l => by
    have := countP_mono rk h l
    rw [List.countP_cons, List.countP_cons]
    by_cases h1 : rk x ≤ a
    · simp [h1, Nat.le_trans h1 h]; omega
    · simp [h1]; split <;> omega

theorem countP_lt {α : Type} (rk : α → Nat) {a b : Nat} (h : a ≤ b) {p : α} (hp : a < rk p) (hp' : rk p ≤ b) : ∀ l : List α, p ∈ l →
    l.countP (fun x => decide (rk x ≤ a)) < l.countP (fun x => decide (rk x ≤ b))
  | [], hm => by cases hm
  | x :: l, hm => by
    rw [List.countP_cons, List.countP_cons]
    rcases List.mem_cons.1 hm with rfl | hm
    · have := countP_mono rk h l
      simp [hp', Nat.not_le.2 hp]; omega
    · have := countP_lt rk h hp hp' l hm
      by_cases h1 : rk x ≤ a
      · simp [h1, Nat.le_trans h1 h]; omega
      · simp [h1]; split <;> omega

theorem mapM_isSome {α β : Type} {f : α → Option β} : ∀ {l : List α}, (∀ a ∈ l, (f a).isSome = true) → (l.mapM f).isSome = true
  | [], _ => by simp
  | a :: l, h => by
    obtain ⟨b, hb⟩ := Option.isSome_iff_exists.1 (h a (by simp))
    obtain ⟨bs, hbs⟩ := Option.isSome_iff_exists.1 (mapM_isSome (l := l) fun c hc => h c (by simp [hc]))
    rw [List.mapM_cons, hb, hbs]; rfl

/-- Predicates whose parts have a smaller rank can be copied. -/
theorem clone_ends {s : PS} {G : Nat → Prop} (rk : Nat → Nat) (hlt : ∀ p, G p → p < s.npred)
    (hk : ∀ p c cs, G p → s.pnode p = .node c cs → ∀ q ∈ cs, G q ∧ rk q < rk p) {p : Nat} (hp : G p) : (s.clone s.npred p).isSome = true := by
  have key : ∀ n p, G p → (List.range s.npred).countP (fun x => decide (rk x ≤ rk p)) ≤ n → (s.clone n p).isSome = true := by
    intro n
    induction n with
    | zero =>
      intro p hp h
      have : 0 < (List.range s.npred).countP (fun x => decide (rk x ≤ rk p)) := List.countP_pos_iff.2 ⟨p, List.mem_range.2 (hlt p hp), by simp⟩
      omega
    | succ n ih =>
      intro p hp h
      unfold PS.clone
      split
      · rfl
      · next c cs hc =>
        rw [Option.isSome_map]
        refine mapM_isSome fun q hq => ?_
        obtain ⟨h1, h2⟩ := hk p c cs hp hc q hq
        refine ih q h1 ?_
        have := countP_lt rk (Nat.le_of_lt h2) h2 (Nat.le_refl _) (List.range s.npred) (List.mem_range.2 (hlt p hp))
        omega
  exact key _ p hp (by have := (List.countP_le_length (p := fun x => decide (rk x ≤ rk p)) (l := List.range s.npred)); rw [List.length_range] at this; exact this)

theorem mem_kidsOf {π : Nat → Option Nat} {j q : Nat} : ∀ {i : Nat} {l : List Note}, q ∈ kidsOf π j i l → ∃ k n, l[k]? = some n ∧ n.parent = some j ∧ π (i + k) = some q
  | _, [], h => by cases h
  | i, n :: l, h => by
    rcases List.mem_append.1 h with h | h
    · split at h
      · next hp => exact ⟨0, n, rfl, hp, by simpa using h⟩
      · cases h
    · obtain ⟨k, m, h1, h2, h3⟩ := mem_kidsOf h
      exact ⟨k + 1, m, by simpa using h1, h2, by rw [← h3]; congr 1; omega⟩

/-- What copying the predicates of the elements needs. -/
structure PredsEnd (s : PS) : Prop where
  cache : ∀ k ∈ s.cache, k < s.nelt
  up : ∀ k p, k < s.nelt → (s.elt k).parent = some p → p < k
  trees : ∃ G : Nat → Prop, (∀ j p, j < s.nelt → (s.elt j).pred = some p → G p) ∧ (∀ p c cs, G p → s.pnode p = .node c cs → ∀ q ∈ cs, G q) ∧
    ∀ p, G p → (s.clone s.npred p).isSome = true

theorem predsEnd {E : PRead} {scr : Rect} {z0 : Nat} {g : List Note} {O : List Nat} {s : PS} (hj : J E scr z0 g s) (hkc : KC g s) (hpi : ∃ π, PI g O π s) : PredsEnd s := by
  obtain ⟨π, hπ⟩ := hpi
  have hpar : ∀ (k : Nat) n p, g[k]? = some n → n.parent = some p → p < k := fun k n p h1 h2 => ((hj.ok k n h1).parent p h2).1
  refine ⟨fun k hk => hj.len ▸ hkc.lt k hk, fun k p hk hp => ?_, fun q => ∃ j, j < g.length ∧ Cell s π j q, ?_, ?_, ?_⟩
  · obtain ⟨n, hn⟩ : ∃ n, g[k]? = some n := ⟨_, List.getElem?_eq_getElem (hj.len ▸ hk)⟩
    refine hpar k n p hn ?_
    rw [← (hj.tag hn).2]; exact hp
  · exact fun j p hj' hp => ⟨j, hj.len ▸ hj', .inl hp⟩
  all_goals
    let rk : Nat → Nat := fun q => open Classical in if h : ∃ j, j < g.length ∧ Cell s π j q then 2 * (g.length - h.choose) + (if (s.elt h.choose).pred = some q then 0 else 1) else 0
    have hrk : ∀ j q, j < g.length → Cell s π j q → rk q = 2 * (g.length - j) + (if (s.elt j).pred = some q then 0 else 1) := by
      intro j q hj hc
      have h : ∃ j, j < g.length ∧ Cell s π j q := ⟨j, hj, hc⟩
      have he := hπ.disj _ _ q h.choose_spec.1 hj h.choose_spec.2 hc
      simp only [rk, dif_pos h]
      rw [he]
    have hk : ∀ p c cs, (∃ j, j < g.length ∧ Cell s π j p) → s.pnode p = .node c cs → ∀ q ∈ cs, (∃ j, j < g.length ∧ Cell s π j q) ∧ rk q < rk p := by
      rintro p c cs ⟨j, hjl, hc⟩ hp q hq
      have hrp := hrk j p hjl hc
      obtain ⟨n, hn⟩ : ∃ n, g[j]? = some n := ⟨_, List.getElem?_eq_getElem hjl⟩
      by_cases h1 : (s.elt j).pred = some p
      · rw [if_pos h1] at hrp
        cases ho : openNode n.push n.tag n.get with
        | none => rw [hπ.closed j n hn ho] at h1; cases h1
        | some q0 =>
          obtain ⟨p', hp', hnode⟩ := hπ.opened j n q0 hn ho
          obtain rfl : p = p' := Option.some.inj (h1.symm.trans hp')
          rw [hp] at hnode
          cases q0 with
          | atom l t r => cases hnode
          | node c0 cs0 =>
            simp only [PNode.withKids, PNode.node.injEq] at hnode
            rw [hnode.2] at hq
            obtain ⟨k, m, hm, hmp, hmq⟩ := mem_kidsOf hq
            rw [Nat.zero_add] at hmq
            have hkl := getElem?_lt hm
            have hlt := hpar k m j hm hmp
            refine ⟨⟨k, hkl, .inr hmq⟩, ?_⟩
            rw [hrk k q hkl (.inr hmq), hrp]
            split <;> omega
      · rw [if_neg h1] at hrp
        have h2 : π j = some p := hc.resolve_left h1
        have ha := hπ.att j n hn
        by_cases c1 : n.push = .rule
        · by_cases c2 : UnderBase g n
          · rw [ha.base c1 c2] at h2; cases h2
          · rw [ha.rule c1 c2] at h2; exact absurd h2 h1
        by_cases c2 : n.push = .compoundStatement
        · cases c3 : negated n.push n.get with
          | false => rw [ha.stmt c2 c3] at h2; exact absurd h2 h1
          | true =>
            obtain ⟨p1, q1, e1, e2, e3, e4⟩ := ha.neg c2 c3
            obtain rfl : p = q1 := Option.some.inj (h2.symm.trans e2)
            rw [hp] at e4
            simp only [PNode.node.injEq] at e4
            rw [e4.2] at hq
            obtain rfl : q = p1 := by simpa using hq
            refine ⟨⟨j, hjl, .inl e1⟩, ?_⟩
            rw [hrk j q hjl (.inl e1), hrp, if_pos e1]
            omega
        by_cases c3 : n.tag = "assessmentStatement"
        · by_cases c4 : j ∈ O
          · rw [ha.opn c3 c4] at h2; cases h2
          · obtain ⟨q1, l, comp, op, r, e1, e2, -⟩ := ha.assess c3 c4
            obtain rfl : p = q1 := Option.some.inj (h2.symm.trans e1)
            rw [hp] at e2; cases e2
        · rw [ha.none c1 c2 c3] at h2; cases h2
  · exact fun p c cs h h' q hq => (hk p c cs h h' q hq).1
  · intro p hp
    exact clone_ends (G := fun q => ∃ j, j < g.length ∧ Cell s π j q) rk (fun p ⟨j, h1, h2⟩ => hπ.cell j p h1 h2) hk hp

theorem PredsEnd.congr {s t : PS} (h : PredsEnd s) (h1 : t.cache = s.cache) (h2 : t.nelt = s.nelt) (h3 : ∀ k, (t.elt k).parent = (s.elt k).parent)
    (h4 : ∀ k, (t.elt k).pred = (s.elt k).pred) (h5 : t.pnode = s.pnode) (h6 : t.npred = s.npred) : PredsEnd t := by
  refine ⟨by rw [h1, h2]; exact h.cache, fun k p => by rw [h2, h3]; exact h.up k p, ?_⟩
  obtain ⟨G, g1, g2, g3⟩ := h.trees
  refine ⟨G, fun j p => by rw [h2, h4]; exact g1 j p, by rw [h5]; exact g2, fun p hp => ?_⟩
  rw [h6, PS.clone_congr h5]
  exact g3 p hp

/-! ## The functions that copy predicates -/

theorem clonePred_ends {s : PS} {p : Nat} (h : (s.clone s.npred p).isSome = true) : clonePred p s ≠ .fuel := by
  obtain ⟨q, hq⟩ := Option.isSome_iff_exists.1 h
  unfold clonePred
  show (match s.clone s.npred p with | some q => pure q | none => PM.fuel : PM Pred) s ≠ .fuel
  rw [hq]
  intro h; cases h

theorem bindRulePred_ends {s : PS} (h : PredsEnd s) (j : Nat) : bindRulePred s j s ≠ .fuel := by
  unfold bindRulePred
  refine PM.bind_ne_fuel ((PNF.attr! _ _).ne _) fun a t ha => ?_
  obtain rfl : t = s := (PRel.attr! (R := Eq) ⟨fun _ => rfl, Eq.trans⟩ _ _ s _ _ ha).symm
  refine PM.bind_ne_fuel ((PNF.orErr _).ne _) fun k u hk => ?_
  obtain ⟨rfl, hk⟩ : u = t ∧ t.byId a ["rule", "compositeRule"] = some k := PPost.orErr (Q := fun k u => u = t ∧ t.byId a ["rule", "compositeRule"] = some k) (fun _ h => ⟨rfl, h⟩) _ _ hk
  refine PM.bind_ne_fuel ((PNF.some! _).ne _) fun p v hp => ?_
  obtain ⟨rfl, hp⟩ : v = u ∧ (u.elt k).pred = some p := PPost.some! (Q := fun k v => v = u ∧ (u.elt _).pred = some k) (fun _ h => ⟨rfl, h⟩) _ _ hp
  obtain ⟨G, g1, g2, g3⟩ := h.trees
  have hc := clonePred_ends (g3 p (g1 k p (h.cache _ (PS.byId_some hk).1) hp))
  have : ∀ x : PNode, (match x with | .node _ [] => pure Pred.falsum | _ => clonePred p : PM Pred) v ≠ .fuel := by
    intro x
    rcases x with _ | ⟨c, _ | ⟨a, as⟩⟩
    · exact hc
    · intro h; cases h
    · exact hc
  exact this _

theorem predChain_ends {s : PS} (h : PredsEnd s) : ∀ n k acc, k < n → k < s.nelt → predChain n k acc s ≠ .fuel
  | 0, _, _, h1, _ => by omega
  | n + 1, k, acc, h1, h2 => by
    unfold predChain
    refine PM.bind_ne_fuel (PNF.get.ne _) fun a t ha => ?_
    obtain ⟨rfl, rfl⟩ : a = s ∧ t = s := PPost.get (Q := fun a t => a = s ∧ t = s) ⟨rfl, rfl⟩ _ _ ha
    split
    · intro h; cases h
    split
    · refine PM.bind_ne_fuel ((PNF.parentElt _).ne _) fun p u hp => ?_
      obtain ⟨rfl, hp⟩ : u = t ∧ (t.elt k).parent = some p := PPost.parentElt (Q := fun p u => u = t ∧ (t.elt k).parent = some p) (fun p h _ => ⟨rfl, h⟩) _ _ hp
      have := h.up k p h2 hp
      exact predChain_ends h n p _ (by omega) (by omega)
    · intro h; cases h

theorem predChain_in {s : PS} {G : Nat → Prop} (h : PredsEnd s) (hG : ∀ j p, j < s.nelt → (s.elt j).pred = some p → G p) : ∀ n k acc, k < s.nelt → (∀ p ∈ acc, G p) →
    PPost (predChain n k acc) (fun l t => t = s ∧ ∀ p ∈ l, G p) s
  | 0, _, _, _, _ => PPost.fuel
  | n + 1, k, acc, h2, h3 => by
    unfold predChain
    refine PPost.bind (PPost.get ?_)
    split
    · exact PPost.pure ⟨rfl, h3⟩
    split
    · refine PPost.bind (PPost.parentElt fun p hp _ => ?_)
      have := h.up k p h2 hp
      refine predChain_in h hG n p _ (by omega) ?_
      intro q hq
      split at hq
      · next p' hp' =>
        rcases List.mem_cons.1 hq with rfl | hq
        · exact hG k _ h2 hp'
        · exact h3 q hq
      · exact h3 q hq
    · exact PPost.abort

theorem conjChildren_in {s : PS} {G : Nat → Prop} (h : ∀ p c cs, G p → s.pnode p = .node c cs → ∀ q ∈ cs, G q) {p : Nat} (hp : G p) :
    PPost (conjChildren p) (fun l t => t = s ∧ ∀ q ∈ l, G q) s := by
  unfold conjChildren
  refine PPost.bind (PPost.get ?_)
  split
  · next cs hc => exact PPost.pure ⟨rfl, h p _ cs hp hc⟩
  · exact PPost.abort
theorem PNF.conjChildren (p : Nat) : PNF (conjChildren p) := by unfold Ginga.conjChildren; nf2

theorem clonePred_same {s : PS} {p : Nat} {q : Pred} {t : PS} (h : clonePred p s = .ok (some (q, t))) : t = s := by
  unfold clonePred at h
  obtain ⟨a, u, h1, h2⟩ := PM.bind_ok.1 h
  obtain ⟨rfl, rfl⟩ : a = s ∧ u = s := PPost.get (Q := fun a t => a = s ∧ t = s) ⟨rfl, rfl⟩ _ _ h1
  cases hq : u.clone u.npred p with
  | none => rw [hq] at h2; cases h2
  | some q' => rw [hq] at h2; exact PPost.pure (Q := fun _ t => t = u) rfl _ _ h2

theorem conjParts_ends {s : PS} {G : Nat → Prop} (h : ∀ p c cs, G p → s.pnode p = .node c cs → ∀ q ∈ cs, G q) (hc : ∀ p, G p → (s.clone s.npred p).isSome = true) :
    ∀ l, (∀ p ∈ l, G p) → conjParts l s ≠ .fuel
  | [], _ => by intro h; cases h
  | p :: l, hl => by
    unfold conjParts
    refine PM.bind_ne_fuel ((PNF.conjChildren _).ne _) fun cs t hcs => ?_
    obtain ⟨rfl, hin⟩ := conjChildren_in h (hl p (by simp)) _ _ hcs
    clear hcs
    have hpart : ∀ part : PM (List Pred), (part t ≠ .fuel) → (∀ a u, part t = .ok (some (a, u)) → u = t) →
        (part >>= fun part => conjParts l >>= fun rest => pure (part ++ rest) : PM (List Pred)) t ≠ .fuel := by
      intro part h1 h2
      refine PM.bind_ne_fuel h1 fun a u hu => ?_
      obtain rfl := h2 a u hu
      exact PM.bind_ne_fuel (conjParts_ends h hc l fun q hq => hl q (by simp [hq])) fun _ _ _ => by intro h; cases h
    have hone : ∀ q, G q → (do let x ← clonePred q; pure [x] : PM (List Pred)) t ≠ .fuel ∧
        ∀ a u, (do let x ← clonePred q; pure [x] : PM (List Pred)) t = .ok (some (a, u)) → u = t := by
      intro q hq
      refine ⟨PM.bind_ne_fuel (clonePred_ends (hc q hq)) fun _ _ _ => (by intro h; cases h), fun a u hu => ?_⟩
      obtain ⟨x, v, h1, h2⟩ := PM.bind_ok.1 hu
      have := clonePred_same h1
      subst this
      exact PPost.pure (Q := fun _ t => t = v) rfl _ _ h2
    rcases cs with _ | ⟨c, _ | ⟨d, ds⟩⟩
    · exact hpart _ (by intro h; cases h) fun a u hu => PPost.pure (Q := fun _ u => u = t) rfl _ _ hu
    · exact hpart _ (hone c (hin c (by simp))).1 (hone c (hin c (by simp))).2
    · exact hpart _ (hone p (hl p (by simp))).1 (hone p (hl p (by simp))).2

theorem obtainPred_ends {s : PS} (h : PredsEnd s) (k : Nat) : obtainPred k s ≠ .fuel := by
  obtain ⟨G, g1, g2, g3⟩ := h.trees
  unfold obtainPred
  refine PM.bind_ne_fuel (PNF.get.ne _) fun a t ha => ?_
  obtain ⟨rfl, rfl⟩ : a = s ∧ t = s := PPost.get (Q := fun a t => a = s ∧ t = s) ⟨rfl, rfl⟩ _ _ ha
  split
  · intro h; cases h
  next hk =>
  have hk : k < t.nelt := h.cache k (Classical.byContradiction hk)
  refine PM.bind_ne_fuel (predChain_ends h _ k _ (by omega) hk) fun l u hl => ?_
  obtain ⟨rfl, hin⟩ := predChain_in h g1 _ k _ hk (by simp) _ _ hl
  clear hl
  have hone : ∀ q, G q → (do let x ← clonePred q; pure (some x) : PM (Option Pred)) u ≠ .fuel := fun q hq =>
    PM.bind_ne_fuel (clonePred_ends (g3 q hq)) fun _ _ _ => by intro h; cases h
  rcases l with _ | ⟨p, _ | ⟨d, ds⟩⟩
  · intro h; cases h
  · refine PM.bind_ne_fuel ((PNF.conjChildren _).ne _) fun cs v hcs => ?_
    obtain ⟨rfl, hcin⟩ := conjChildren_in g2 (hin p (by simp)) _ _ hcs
    clear hcs
    rcases cs with _ | ⟨c, _ | ⟨d, ds⟩⟩
    · intro h; cases h
    · exact hone c (hcin c (by simp))
    · exact hone p (hin p (by simp))
  · exact PM.bind_ne_fuel (conjParts_ends g2 g3 _ hin) fun _ _ _ => by intro h; cases h

end Ginga
