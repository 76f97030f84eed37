import Verif.Proofs.EndDoc
/-!
# The rules of the switches at the end of the document
-/
namespace Ginga

theorem upd_id {α : Type} (g : Nat → α) (o : Nat) : upd g o (g o) = g := by
  funext a; simp only [upd]; split <;> simp_all

theorem upd_twice {α : Type} (g : Nat → α) (o : Nat) (a b : α) : upd (upd g o a) o b = upd g o b := by
  funext q; simp only [upd]; split <;> rfl

/-- `p` is the predicate of the bind rule of element `j`. -/
def BindPred (s : PS) (j : Nat) (q : Pred) : Prop :=
  ∃ rule rk p, s.attr j "rule" = some rule ∧ s.byId rule ["rule", "compositeRule"] = some rk ∧ (s.elt rk).pred = some p ∧
    (((∃ c, s.pnode p = .node c []) ∧ q = .falsum) ∨ ((∀ c, s.pnode p ≠ .node c []) ∧ s.clone s.npred p = some q))

theorem fixed_rules (s : PS) (p : Nat → List (Nat × Pred)) : Fixed s { s with rules := p } := ⟨rfl, rfl, rfl, rfl, rfl⟩

theorem bindRulePred_spec {s t : PS} (hf : Fixed s t) (j : Nat) : PPost (bindRulePred t j) (fun q t' => t' = t ∧ BindPred s j q) t := by
  unfold bindRulePred
  refine PPost.bind (PPost.attr! fun rule hr => PPost.bind (PPost.orErr fun rk hrk => PPost.bind (PPost.some! fun p hp => ?_)))
  have h1 : s.attr j "rule" = some rule := by rw [← hr]; unfold PS.attr; rw [hf.elt]
  have h2 : s.byId rule ["rule", "compositeRule"] = some rk := by
    rw [← hrk]; exact (PS.byId_congr hf.cache rule fun k => by rw [hf.elt]; exact ⟨rfl, fun _ => rfl⟩).symm
  rw [hf.elt] at hp
  split
  · next c h => exact PPost.pure ⟨rfl, rule, rk, p, h1, h2, hp, .inl ⟨⟨c, by rw [← hf.pnode]; exact h⟩, rfl⟩⟩
  · next h =>
    unfold clonePred
    refine PPost.bind (PPost.get ?_)
    split
    · next q hq =>
      refine PPost.pure ⟨rfl, rule, rk, p, h1, h2, hp, .inr ⟨fun c hc => h c (by rw [hf.pnode]; exact hc), ?_⟩⟩
      rw [← hq, PS.clone_congr hf.pnode, hf.npred]
    · exact PPost.fuel

theorem popRules_spec {s : PS} (o : Nat) : ∀ (l : List (Nat × Option Nat)) (t : PS), Fixed s t →
    PPost (popRules o l) (fun _ t' => ∃ rs, t' = { t with rules := upd t.rules o (t.rules o ++ rs) } ∧
      Each (fun r q => r.2 = some q.1 ∧ BindPred s r.1 q.2) (l.filter fun r => (s.elt r.1).tag != "defaultComponent") rs) t
  | [], t, _ => PPost.pure' ⟨[], by rw [List.append_nil, upd_id], .nil⟩
  | (j, c) :: l, t, hf => by
    unfold popRules
    refine PPost.bind (PPost.some! fun c' hc => PPost.bind (PPost.get ?_))
    have he : t.elt j = s.elt j := by rw [hf.elt]
    rw [he]
    split
    · next h =>
      rw [List.filter_cons_of_neg (by simp [h])]
      exact popRules_spec o l t hf
    · next h =>
      rw [List.filter_cons_of_pos (by simp [h])]
      refine PPost.bind ((bindRulePred_spec hf j).mono ?_)
      rintro q _ ⟨rfl, hq⟩
      refine PPost.bind (PPost.modify ?_)
      refine (popRules_spec o l _ (hf.trans (fixed_rules _ _))).mono ?_
      rintro _ t' ⟨rs, h1, h2⟩
      refine ⟨(c', q) :: rs, ?_, .cons ⟨hc, hq⟩ h2⟩
      rw [h1]
      dsimp only
      rw [upd_twice, upd_same, List.append_assoc]
      rfl

theorem addDefaults_spec (o : Nat) : ∀ (l : List Nat) (t : PS), PPost (PM.forEach (fun c => addRule o c .verum) l)
    (fun _ t' => t' = { t with rules := upd t.rules o (t.rules o ++ l.map fun c => (c, .verum)) }) t
  | [], t => PPost.pure' (by rw [List.map_nil, List.append_nil, upd_id])
  | c :: l, t => by
    refine PPost.bind' (PPost.modify ?_)
    refine (addDefaults_spec o l _).mono ?_
    rintro _ t' h1
    rw [h1]
    dsimp only
    rw [upd_twice, upd_same, List.append_assoc]
    rfl

theorem popSwitchElt_spec {s : PS} (k : Nat) (t : PS) (hf : Fixed s t) :
    PPost (popSwitchElt k) (fun _ t' => ∃ id o rs, s.attr k "id" = some id ∧ t.reg.getByIdOrAlias id = some o ∧
      t' = { t with rules := upd t.rules o (t.rules o ++ (rs ++ (defaultsOf s (s.elt k).rules).map fun c => (c, .verum))) } ∧
      Each (fun r q => r.2 = some q.1 ∧ BindPred s r.1 q.2) ((s.elt k).rules.filter fun r => (s.elt r.1).tag != "defaultComponent") rs) t := by
  unfold popSwitchElt
  refine PPost.bind (PPost.get (PPost.bind (PPost.attr! fun id hid => PPost.bind (PPost.some! fun o ho => PPost.bind (PPost.object fun x hx => ?_)))))
  split
  · exact PPost.abort
  · refine PPost.bind ((popRules_spec o _ t hf).mono ?_)
    rintro _ t1 ⟨rs, h1, h2⟩
    refine (addDefaults_spec o _ t1).mono ?_
    rintro _ t2 h3
    refine ⟨id, o, rs, by rw [← hid]; unfold PS.attr; rw [hf.elt], ho, ?_, by rw [hf.elt] at h2; exact h2⟩
    have hd : defaultsOf t (t.elt k).rules = defaultsOf s (s.elt k).rules := by unfold defaultsOf; rw [hf.elt]
    rw [h3, h1, hd]
    dsimp only
    rw [upd_twice, upd_same, List.append_assoc]

/-- The rules of the object of a switch element. -/
theorem switch_rules {E : PRead} (hinj : ∀ i j, E.addr i = E.addr j → i = j) {scr : Rect} {z : Nat} {f : Nat → Nat} {ns : List Note} {m : Nat} {u u1 u2 u3 u4 t : PS}
    (hj : J E scr z ns u) (hkc : KC ns u) (ht : TreeK E f ns [0] u) (hr : u.rules = fun _ => []) (hs : Stages E m u u1 u2 u3 u4 t) {k : Nat} {n : Note}
    (hk : ns[k]? = some n) (hn : n.tag = "switch") :
    ∃ rs, t.rules (f k) = rs ++ (defaultsOf u1 (u1.elt k).rules).map (fun c => (c, .verum)) ∧
      Each (fun r q => r.2 = some q.1 ∧ BindPred u1 r.1 q.2) ((u1.elt k).rules.filter fun r => (u1.elt r.1).tag != "defaultComponent") rs := by
  obtain ⟨hnd, hmem⟩ := byTag_notes hj hkc (tag := "switch") (by decide) (by decide +kernel)
  have hu1 : u1.reg = u.reg ∧ u1.rules = u.rules := by rw [hs.f1.state]; exact ⟨rfl, rfl⟩
  have ho1 : OStep E u u1 := by rw [hs.f1.state]; exact ostep_same rfl rfl rfl rfl
  have ho2 : OStep E u1 u2 := PRel.forEach (ostep_pre E) (fun k => PRel.popMediaElt (ostep_atom hinj).toPCore k) _ _ _ _ hs.media
  have hr2 : SameRules u1 u2 := PRel.forEach (sameRules_atomic.atom E).toPPre (fun k => PRel.popMediaElt (sameRules_atomic.atom E).toPCore k) _ _ _ _ hs.media
  have hid : ∀ {k : Nat} {n : Note}, ns[k]? = some n → n.tag = "switch" → ∀ id, u1.attr k "id" = some id → n.get "id" = some id := by
    intro k n hk hn id h
    have he : u1.elt k = u.elt k := by
      refine hs.f1.other k fun hm => ?_
      unfold PS.byTag at hm
      have := (List.mem_filter.1 hm).2
      rw [(hj.tag hk).1, hn] at this
      simp at this
    have := hj.attrs hk (by rw [hn]; decide) (by rw [hn]; decide)
    unfold PS.attr at h
    rw [he, this] at h
    exact h
  have hgo : ∀ {k : Nat} {n : Note}, ns[k]? = some n → n.tag = "switch" → ∀ s, OStep E u1 s → ∀ id o, u1.attr k "id" = some id → s.reg.getByIdOrAlias id = some o → o = f k := by
    intro k n hk hn s hst id o h1 h2
    obtain ⟨i, q, a1, a2, a3⟩ := ht.made k n .switch hk (by unfold Note.kind; rw [if_pos hn])
    have h3 := hid hk hn id h1
    rw [h3] at a1; obtain rfl : id = i := by simpa using a1
    have hst' : OStep E u s := (ostep_pre E).trans ho1 hst
    obtain ⟨w1, k1⟩ := hst'.2 ht.world
    have := (k1.1 _ _ _ _ a3).byId w1.inv
    unfold Reg.getByIdOrAlias at h2
    rw [this] at h2
    exact (Option.some.inj h2).symm
  have hne : ∀ {k k' : Nat} {n n' : Note}, ns[k]? = some n → n.tag = "switch" → ns[k']? = some n' → n'.tag = "switch" → k ≠ k' → f k' ≠ f k := by
    intro k k' n n' h1 h2 h3 h4 h5 h6
    obtain ⟨i, q, a1, -, a3⟩ := ht.made k n .switch h1 (by unfold Note.kind; rw [if_pos h2])
    obtain ⟨i', q', b1, -, b3⟩ := ht.made k' n' .switch h3 (by unfold Note.kind; rw [if_pos h4])
    rw [h6] at b3
    have := (a3.uniq b3).1
    subst this
    exact h5 (ht.once k k' n n' i h1 h3 (by rw [h2]; decide) (by rw [h4]; decide) a1 b1)
  obtain ⟨l1, l2, s1, s2, e1, e2, e3, e4⟩ := forEach_split ((hmem k).2 ⟨n, hk, hn⟩) hs.switch
  rw [e1] at hnd
  have hsw : ∀ (k' : Nat), k' ≠ k → k' ∈ u.byTag "switch" → ∀ (R : List (Nat × Pred)) (s : PS), Fixed u1 s ∧ OStep E u1 s ∧ s.rules (f k) = R →
      PPost (popSwitchElt k') (fun _ s => Fixed u1 s ∧ OStep E u1 s ∧ s.rules (f k) = R) s := by
    rintro k' hk' hm R s ⟨g1, g2, g3⟩
    refine ((popSwitchElt_spec k' s g1).and (PRel.popSwitchElt (ostep_atom hinj).toPCore (fun _ _ => ostep_same rfl rfl rfl rfl) k' s)).mono ?_
    rintro _ s' ⟨⟨id, o, rs, c1, c2, c3, -⟩, c5⟩
    obtain ⟨n', d1, d2⟩ := (hmem k').1 hm
    have hof := hgo d1 d2 s g2 id o c1 c2
    refine ⟨by rw [c3]; exact g1.trans (fixed_rules _ _), (ostep_pre E).trans g2 c5, ?_⟩
    rw [c3]
    show upd s.rules o _ (f k) = R
    rw [upd_ne _ _ (by rw [hof]; exact Ne.symm (hne hk hn d1 d2 (Ne.symm hk'))), g3]
  have i1 : Fixed u1 u2 ∧ OStep E u1 u2 ∧ u2.rules (f k) = [] := ⟨hs.f2, ho2, by rw [show u2.rules = u1.rules from hr2, hu1.2, hr]⟩
  obtain ⟨p1, p2, p3⟩ := PPost.forEach (I := fun s => Fixed u1 s ∧ OStep E u1 s ∧ s.rules (f k) = []) i1 (fun k' hk' s hI => hsw k' (by
    rintro rfl; exact (List.nodup_append.1 hnd).2.2 k' hk' k' (by simp) rfl) (by rw [e1]; simp [hk']) [] s hI) _ _ e2
  obtain ⟨id, o, rs, c1, c2, c3, c4⟩ := popSwitchElt_spec k s1 p1 _ _ e3
  have hof := hgo hk hn s1 p2 id o c1 c2
  subst hof
  have p5 := PRel.popSwitchElt (ostep_atom hinj).toPCore (fun _ _ => ostep_same rfl rfl rfl rfl) k s1 _ _ e3
  have i2 : Fixed u1 s2 ∧ OStep E u1 s2 ∧ s2.rules (f k) = rs ++ (defaultsOf u1 (u1.elt k).rules).map (fun c => (c, .verum)) :=
    ⟨by rw [c3]; exact p1.trans (fixed_rules _ _), (ostep_pre E).trans p2 p5, by rw [c3]; show upd s1.rules (f k) _ (f k) = _; rw [upd_same, p3, List.nil_append]⟩
  obtain ⟨-, -, q3⟩ := PPost.forEach (I := fun s => Fixed u1 s ∧ OStep E u1 s ∧ s.rules (f k) = rs ++ (defaultsOf u1 (u1.elt k).rules).map (fun c => (c, .verum))) i2 (fun k' hk' s hI => hsw k' (by
    rintro rfl; exact (List.nodup_cons.1 (List.nodup_append.1 hnd).2.1).1 hk') (by rw [e1]; simp [hk']) _ s hI) _ _ e4
  have hl : SameRules u3 u4 := PRel.forEach (sameRules_atomic.atom E).toPPre (fun k => PRel.popLinkElt (sameRules_atomic.atom E).toPCore (fun _ _ => rfl) m k) _ _ _ _ hs.link
  refine ⟨rs, ?_, c4⟩
  rw [hs.last]
  show u4.rules (f k) = _
  rw [show u4.rules = u3.rules from hl, q3]

end Ginga
