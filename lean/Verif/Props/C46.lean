import Verif.Props.C43
import Verif.Spec
/-!
# C46: links bind every role
-/
namespace Ginga

/-- The role of the connector that a bind names. -/
def roleNamed (roles : List Role) (b : Bind) : Option Role := roles.find? fun r => r.role == b.role

/-- The pairs of a role and a bind, in the order of the binds. -/
def pairs (roles : List Role) (binds : List Bind) : List (Role × Bind) :=
  binds.filterMap fun b => (roleNamed roles b).map fun r => (r, b)

theorem roleIndex_some {roles : List Role} {l : String} {i : Nat} (h : roleIndex roles l = some i) :
    ∃ r, roles[i]? = some r ∧ r.role = l ∧ roles.find? (fun r => r.role == l) = some r ∧
      ∀ j r', j < i → roles[j]? = some r' → r'.role ≠ l := by
  unfold roleIndex at h
  dsimp only at h
  split at h
  · rename_i hlt
    simp only [Option.some.injEq] at h
    have hfi : roles.findIdx (fun r => r.role == l) = i := h
    rw [hfi] at hlt
    refine ⟨roles[i], List.getElem?_eq_getElem hlt, ?_, ?_, ?_⟩
    · have := List.findIdx_getElem (p := fun r : Role => r.role == l) (xs := roles) (w := by rw [hfi]; exact hlt)
      simpa [hfi] using this
    · rw [List.find?_eq_some_iff_getElem]
      refine ⟨?_, i, hlt, rfl, ?_⟩
      · have := List.findIdx_getElem (p := fun r : Role => r.role == l) (xs := roles) (w := by rw [hfi]; exact hlt)
        simpa [hfi] using this
      · intro j hj
        have := List.not_of_lt_findIdx (p := fun r : Role => r.role == l) (xs := roles) (i := j) (by rw [hfi]; exact hj)
        simpa using this
    · intro j r' hj hr'
      have := List.not_of_lt_findIdx (p := fun r : Role => r.role == l) (xs := roles) (i := j) (by rw [hfi]; exact hj)
      have hjl : j < roles.length := by omega
      rw [List.getElem?_eq_getElem hjl] at hr'
      simp only [Option.some.injEq] at hr'
      subst hr'
      simpa using this
  · simp at h

theorem roleIndex_none {roles : List Role} {l : String} (h : roleIndex roles l = none) : roles.find? (fun r => r.role == l) = none := by
  unfold roleIndex at h
  dsimp only at h
  split at h
  · simp at h
  · rename_i hlt
    rw [List.find?_eq_none]
    intro r hr
    have := List.findIdx_eq_length_of_false (p := fun r : Role => r.role == l) (xs := roles)
    intro hc
    exact hlt (List.findIdx_lt_length.2 ⟨r, hr, hc⟩)

/-- The binds are distributed to the roles they name. -/
theorem bindAll_roles (roles : List Role) (tests : List String) : ∀ binds,
    (bindAll roles tests binds).roles.map (fun p => (roles[p.1]?, p.2)) = (pairs roles binds).map (fun p => (some p.1, p.2))
  | [] => rfl
  | b :: bs => by
    have ih := bindAll_roles roles tests bs
    unfold bindAll
    dsimp only
    cases h : roleIndex roles b.role with
    | some i =>
      obtain ⟨r, h1, -, h3, -⟩ := roleIndex_some h
      simp only [List.map_cons, ih]
      have : roleNamed roles b = some r := h3
      simp [pairs, this, h1]
    | none =>
      have : roleNamed roles b = none := roleIndex_none h
      dsimp only
      split <;> simpa [pairs, this] using ih

theorem bindAll_mem {roles : List Role} {tests : List String} {binds : List Bind} {i : Nat} {b : Bind}
    (h : (i, b) ∈ (bindAll roles tests binds).roles) : b ∈ binds ∧ roleIndex roles b.role = some i := by
  induction binds with
  | nil => simp [bindAll] at h
  | cons c bs ih =>
    unfold bindAll at h
    dsimp only at h
    cases hc : roleIndex roles c.role with
    | some j =>
      rw [hc] at h
      dsimp only at h
      rcases List.mem_cons.1 h with heq | h
      · obtain ⟨rfl, rfl⟩ := Prod.mk.inj heq
        exact ⟨by simp, hc⟩
      · exact ⟨by simp [(ih h).1], (ih h).2⟩
    | none =>
      rw [hc] at h
      dsimp only at h
      split at h
      · exact ⟨by simp [(ih h).1], (ih h).2⟩
      · exact ⟨by simp [(ih h).1], (ih h).2⟩

theorem bindAll_tests_mem {roles : List Role} {tests : List String} {binds : List Bind} {b : Bind}
    (h : b ∈ (bindAll roles tests binds).tests) : b ∈ binds := by
  induction binds with
  | nil => simp [bindAll] at h
  | cons c bs ih =>
    unfold bindAll at h
    dsimp only at h
    cases hc : roleIndex roles c.role with
    | some j => rw [hc] at h; simp [ih h]
    | none =>
      rw [hc] at h
      dsimp only at h
      split at h
      · rcases List.mem_cons.1 h with rfl | h
        · simp
        · simp [ih h]
      · simp [ih h]

/-- `a` is the condition or action made from the bind `b` of the role `r`. -/
def MadeFrom (s : PS) (lp gh : List (String × String)) (p : Role × Bind) (a : Act) : Prop :=
  a.tr = p.1.tr ∧ a.delay = resolveParameter p.1.delay (s.elt p.2.elt).params lp gh ∧
    a.duration = resolveParameter p.1.duration (s.elt p.2.elt).params lp gh ∧
    (p.1.typ = .attribution → a.value = resolveParameter p.1.value (s.elt p.2.elt).params lp gh) ∧
    (p.1.typ = .selection → a.value = resolveParameter p.1.key (s.elt p.2.elt).params lp gh)

/-- Elements and links are unchanged. -/
def SameElts (s t : PS) : Prop := t.elt = s.elt ∧ t.links = s.links

theorem sameElts_base : PBase SameElts where
  refl _ := ⟨rfl, rfl⟩
  trans h1 h2 := ⟨h2.1.trans h1.1, h2.2.trans h1.2⟩
  reg _ _ _ _ _ := ⟨rfl, rfl⟩
  del _ _ := ⟨rfl, rfl⟩
  nalloc _ := ⟨rfl, rfl⟩
  objs _ _ := ⟨rfl, rfl⟩
  refer _ _ := ⟨rfl, rfl⟩
  props _ _ _ _ _ _ := ⟨rfl, rfl⟩
  par _ _ _ := ⟨rfl, rfl⟩

theorem resolveRoles_spec (E : PRead) (n ctx : Nat) (roles : List Role) (lp tests gh : List (String × String)) :
    ∀ (l : List (Nat × Bind)) (ps : List (Role × Bind)) (s : PS), l.map (fun p => (roles[p.1]?, p.2)) = ps.map (fun p => (some p.1, p.2)) →
    PPost (resolveRoles E n ctx roles lp tests gh l) (fun r _ =>
      Each (MadeFrom s lp gh) (ps.filter fun p => p.1.cond) r.1 ∧ Each (MadeFrom s lp gh) (ps.filter fun p => !p.1.cond) r.2) s
  | [], [], s, _ => PPost.pure ⟨.nil, .nil⟩
  | [], _ :: _, _, h => by simp at h
  | _ :: _, [], _, h => by simp at h
  | (i, b) :: l, p :: ps, s, h => by
    simp only [List.map_cons, List.cons.injEq, Prod.mk.injEq] at h
    obtain ⟨⟨h1, h2⟩, h3⟩ := h
    unfold resolveRoles
    refine PPost.bind (PPost.some! fun r hr => PPost.bind ?_)
    obtain rfl : r = p.1 := by rw [h1] at hr; simpa using hr.symm
    subst h2
    refine ((C43_action E n ctx p.1 p.2 lp tests gh s).and (PRel.resolveRole (sameElts_base.core E) n ctx p.1 p.2 lp tests gh ⟨trivial, trivial⟩ s)).mono ?_
    rintro a t ⟨ha, ht⟩
    refine PPost.bind ((resolveRoles_spec E n ctx roles lp tests gh l ps t h3).mono ?_)
    rintro ⟨cs, as⟩ u ⟨hc, has⟩
    have hmade : ∀ q b, MadeFrom t lp gh q b → MadeFrom s lp gh q b := by
      intro q b hq
      unfold MadeFrom at hq ⊢
      rw [ht.1] at hq
      exact hq
    have hmono : ∀ {l m}, Each (MadeFrom t lp gh) l m → Each (MadeFrom s lp gh) l m := by
      intro l m hlm
      induction hlm with
      | nil => exact .nil
      | cons h _ ih => exact .cons (hmade _ _ h) ih
    refine PPost.pure ?_
    cases hcond : p.1.cond with
    | true => simpa [hcond] using ⟨Each.cons ha (hmono hc), hmono has⟩
    | false => simpa [hcond] using ⟨hmono hc, Each.cons ha (hmono has)⟩

/-- Every accepted link: each role of its connector (and each attribute tested) is bound at least once; each bind of a role
gives exactly one condition, if the role is that of a condition, or one action otherwise, with the transition of the role, in the
order of the binds; and the link is added to its context. -/
theorem C46_link (E : PRead) (n k : Nat) (s : PS) :
    PPost (popLinkElt E n k) (fun _ t => ∃ c ck ctx gh cs as, s.attr k "xconnector" = some c ∧ s.byId c ["causalConnector"] = some ck ∧
      (s.elt k).context = some ctx ∧
      (∀ r ∈ (s.elt ck).roles, ∃ b ∈ (s.elt k).binds, b.role = r.role) ∧
      (∀ r ∈ (s.elt ck).tests, ∃ b ∈ (s.elt k).binds, b.role = r) ∧
      Each (MadeFrom s (s.elt k).params gh) ((pairs (s.elt ck).roles (s.elt k).binds).filter fun p => p.1.cond) cs ∧
      Each (MadeFrom s (s.elt k).params gh) ((pairs (s.elt ck).roles (s.elt k).binds).filter fun p => !p.1.cond) as ∧
      cs ≠ [] ∧ as ≠ [] ∧ t.links ctx = s.links ctx ++ [⟨cs, as⟩] ∧ ∀ o, o ≠ ctx → t.links o = s.links o) s := by
  unfold popLinkElt
  refine PPost.bind (PPost.get (PPost.bind (PPost.attr! fun c hc => PPost.bind (PPost.orErr fun ck hck => PPost.bind (PPost.some! fun ctx hctx => ?_)))))
  dsimp only
  split
  · exact PPost.err
  rename_i hb
  have hb : allBound (s.elt ck).roles (s.elt ck).tests (bindAll (s.elt ck).roles (s.elt ck).tests (s.elt k).binds) = true := by
    cases h : allBound (s.elt ck).roles (s.elt ck).tests (bindAll (s.elt ck).roles (s.elt ck).tests (s.elt k).binds) with
    | true => rfl
    | false => exact absurd (by simp [h]) hb
  unfold allBound at hb
  simp only [Bool.and_eq_true, List.all_eq_true, List.mem_range, List.any_eq_true, beq_iff_eq] at hb
  refine PPost.bind ((PRel.resolveTable (sameElts_base.core E) n ctx _ [] s).mono fun tt s1 h1 => ?_)
  refine PPost.bind ((PRel.resolveTable (sameElts_base.core E) n ctx _ [] s1).mono fun gh s2 h2 => ?_)
  refine PPost.bind (((resolveRoles_spec E n ctx _ _ _ _ _ _ s2 (bindAll_roles _ _ _)).and (PRel.resolveRoles (sameElts_base.core E) n ctx _ _ _ _ ⟨trivial, trivial⟩ _ s2)).mono ?_)
  rintro ⟨cs, as⟩ s3 ⟨⟨hcs, has⟩, h3⟩
  dsimp only
  split
  · exact PPost.abort
  rename_i hne
  have hl : s3.links = s.links := by rw [h3.2, h2.2, h1.2]
  have he : s2.elt = s.elt := by rw [h2.1, h1.1]
  have hmade : ∀ {l m}, Each (MadeFrom s2 (s.elt k).params gh) l m → Each (MadeFrom s (s.elt k).params gh) l m := by
    intro l m hlm
    induction hlm with
    | nil => exact .nil
    | cons h _ ih =>
      refine .cons ?_ ih
      unfold MadeFrom at h ⊢
      rw [he] at h
      exact h
  refine PPost.modify ⟨c, ck, ctx, gh, cs, as, hc, hck, hctx, ?_, ?_, hmade hcs, hmade has, fun h => hne (.inl h), fun h => hne (.inr h), ?_, ?_⟩
  · intro r hr
    obtain ⟨i, hi⟩ := List.getElem?_of_mem hr
    obtain ⟨⟨j, b⟩, hmem, rfl⟩ := hb.1 i (by rw [List.getElem?_eq_some_iff] at hi; exact hi.1)
    obtain ⟨h1, h2⟩ := bindAll_mem hmem
    obtain ⟨r', h3, h4, -, -⟩ := roleIndex_some h2
    obtain rfl : r = r' := by rw [hi] at h3; simpa using h3
    exact ⟨b, h1, h4.symm⟩
  · intro r hr
    obtain ⟨b, hb1, hb2⟩ := hb.2 r hr
    exact ⟨b, bindAll_tests_mem hb1, hb2⟩
  · simp [upd_same, hl]
  · intro o ho
    simp [upd_ne _ _ ho, hl]

end Ginga
