import Verif.Proofs.LtabMedia
/-!
# The tree of objects of an NCL-ltab document
-/
namespace Ginga

/-- What holds between two tables. -/
structure LW (E : PRead) (s : PS) : Prop where
  world : WorldOf E s
  refer : s.refer = []
  blank : ∀ q, s.reg.obj q = none → s.props q = [] ∧ s.ports q = [] ∧ s.links q = [] ∧ s.rules q = []

/-- The data of an object are the same. -/
def SameData (q : Nat) (s t : PS) : Prop := t.props q = s.props q ∧ t.ports q = s.ports q ∧ t.links q = s.links q ∧ t.rules q = s.rules q

/-- Of the old objects only the children of `o` change. -/
structure Under (o : Nat) (s t : PS) : Prop where
  keep : ∀ q x, s.reg.obj q = some x → q ≠ o → t.reg.obj q = some x
  own : ∀ x, s.reg.obj o = some x → ∃ cs, t.reg.obj o = some { x with children := cs }
  data : ∀ q x, s.reg.obj q = some x → SameData q s t
  objects : ∀ q ∈ s.reg.objects, q ∈ t.reg.objects
  root : t.reg.root = s.reg.root
  settings : t.reg.settings = s.reg.settings

theorem Under.refl (o : Nat) (s : PS) : Under o s s :=
  ⟨fun _ _ h _ => h, fun x h => ⟨x.children, h⟩, fun _ _ _ => ⟨rfl, rfl, rfl, rfl⟩, fun _ h => h, rfl, rfl⟩

theorem Under.some {o : Nat} {s t : PS} (h : Under o s t) {q : Nat} {x : RObj} (hq : s.reg.obj q = some x) : ∃ cs, t.reg.obj q = some { x with children := cs } := by
  by_cases e : q = o
  · subst e; exact h.own x hq
  · exact ⟨x.children, h.keep q x hq e⟩

theorem SameData.trans {q : Nat} {s t u : PS} (h : SameData q s t) (h' : SameData q t u) : SameData q s u :=
  ⟨h'.1.trans h.1, h'.2.1.trans h.2.1, h'.2.2.1.trans h.2.2.1, h'.2.2.2.trans h.2.2.2⟩

theorem Under.trans {o : Nat} {s t u : PS} (h : Under o s t) (h' : Under o t u) : Under o s u where
  keep q x hx hq := h'.keep q x (h.keep q x hx hq) hq
  own x hx := by
    obtain ⟨c, h1⟩ := h.own x hx
    obtain ⟨c', h2⟩ := h'.own _ h1
    exact ⟨c', h2⟩
  data q x hx := by
    obtain ⟨c, h1⟩ := h.some hx
    exact (h.data q x hx).trans (h'.data q _ h1)
  objects q hq := h'.objects q (h.objects q hq)
  root := h'.root.trans h.root
  settings := h'.settings.trans h.settings

/-- Changes below a new object. -/
theorem Under.trans_new {p o : Nat} {s t u : PS} (h : Under p s t) (hn : s.reg.obj o = none) (h' : Under o t u) : Under p s u where
  keep q x hx hq := h'.keep q x (h.keep q x hx hq) (by rintro rfl; rw [hn] at hx; cases hx)
  own x hx := by
    obtain ⟨c, h1⟩ := h.own x hx
    exact ⟨c, h'.keep _ _ h1 (by rintro rfl; rw [hn] at hx; cases hx)⟩
  data q x hx := by
    obtain ⟨c, h1⟩ := h.some hx
    exact (h.data q x hx).trans (h'.data q _ h1)
  objects q hq := h'.objects q (h.objects q hq)
  root := h'.root.trans h.root
  settings := h'.settings.trans h.settings

/-! ## Objects stay as their tables say -/

theorem ObjectAs.same {E : PRead} {H : LHeap} {s t : PS} {o a : Nat} (hs : SameAt o s t) (hd : SameData o s t) (h : ObjectAs E H s o a) : ObjectAs E H t o a := by
  unfold ObjectAs at h ⊢
  obtain ⟨d1, d2, d3, d4⟩ := hd
  split
  · next e =>
    rw [e] at h
    obtain ⟨⟨x, h1, h2⟩, h3, h4⟩ := h
    exact ⟨⟨x, hs.1.trans h1, h2⟩, fun n => by rw [d1]; exact h3 n, h4⟩
  · next e =>
    rw [e] at h
    obtain ⟨⟨x, hx⟩, ⟨es, h1, h2⟩, h3⟩ := h
    exact ⟨⟨x, hs.1.trans hx.1, hx.2⟩, ⟨es, each_mono h1 fun _ _ => PortAs.same hs, d2.trans h2⟩, by rw [d3]; exact each_mono h3 fun _ _ => LinkAs.same hs⟩
  · next e =>
    rw [e] at h
    obtain ⟨⟨x, hx⟩, h⟩ := h
    refine ⟨⟨x, hs.1.trans hx.1, hx.2⟩, ?_⟩
    rw [d4]
    exact each_mono h fun _ _ => RuleAs.same hs
  · next e1 e2 e3 =>
    cases hk : H.kind a with
    | none => rw [hk] at h; exact h
    | some k => cases k with
      | media => exact (e1 hk).elim
      | context => exact (e2 hk).elim
      | switch => exact (e3 hk).elim
      | settings => rw [hk] at h; exact h

/-! ## Forests -/

/-- The table at a path through a list of tables. -/
def forestAt (H : LHeap) (bs : List Nat) : List Nat → Option Nat
  | [] => none
  | i :: π => match bs[i]? with | some b => H.at b π | none => none

/-- The object of a path is as its table says. -/
structure NodeAs (E : PRead) (H : LHeap) (t : PS) (o p a : Nat) : Prop where
  obj : ∃ x, t.reg.has o x ∧ H.kind a = some x.kind ∧ H.id a = some x.id ∧ x.parent = some p ∧ x.aliases = []
  as : ObjectAs E H t o a
  kids : H.kidVals a = (H.kids a).map LVal.tab

/-- The new objects in `o`: those of the tables `bs` and of the tables inside them. -/
structure Forest (E : PRead) (H : LHeap) (s t : PS) (o : Nat) (bs : List Nat) (f : List Nat → Nat) : Prop where
  top : f [] = o
  node : ∀ π a, forestAt H bs π = some a → NodeAs E H t (f π) (f π.dropLast) a
  fresh : ∀ π a, forestAt H bs π = some a → s.reg.obj (f π) = none
  inj : ∀ π π' a a', forestAt H bs π = some a → forestAt H bs π' = some a' → f π = f π' → π = π'
  all : ∀ q ∈ t.reg.objects, q ∈ s.reg.objects ∨ ∃ π a, forestAt H bs π = some a ∧ f π = q

theorem Forest.nil (E : PRead) (H : LHeap) (s : PS) (o : Nat) : Forest E H s s o [] (fun _ => o) where
  top := rfl
  node π a h := by cases π <;> simp [forestAt] at h
  fresh π a h := by cases π <;> simp [forestAt] at h
  inj π π' a a' h := by cases π <;> simp [forestAt] at h
  all q hq := .inl hq

theorem dropLast_cons_ne {i : Nat} {π : List Nat} (h : π ≠ []) : (i :: π).dropLast = i :: π.dropLast := by
  cases π with
  | nil => exact absurd rfl h
  | cons j π => rfl

theorem forestAt_append_left {H : LHeap} {bs cs : List Nat} {i : Nat} {π : List Nat} (h : i < bs.length) : forestAt H (bs ++ cs) (i :: π) = forestAt H bs (i :: π) := by
  simp only [forestAt, List.getElem?_append_left h]

theorem forestAt_append_right {H : LHeap} {bs : List Nat} {b : Nat} {i : Nat} {π : List Nat} (h : ¬ i < bs.length) {a : Nat} (ha : forestAt H (bs ++ [b]) (i :: π) = some a) :
    i = bs.length ∧ forestAt H [b] (0 :: π) = some a := by
  by_cases e : i = bs.length
  · subst e; simp [forestAt] at ha ⊢; exact ha
  · have : (bs ++ [b])[i]? = none := List.getElem?_eq_none (by simp; omega)
    simp only [forestAt, this] at ha
    cases ha

/-- Nodes stay while only the children of `o` change. -/
theorem NodeAs.keep {E : PRead} {H : LHeap} {t u : PS} {o q p a : Nat} (h : NodeAs E H t q p a) (hu : Under o t u) (hqo : q ≠ o)
    (hc : ∀ x, t.reg.obj q = some x → o ∉ x.children) (ht : TreeInv t.reg) : NodeAs E H u q p a := by
  obtain ⟨x, hx, h1⟩ := h.obj
  have hx' := hu.keep q x hx.2 hqo
  refine ⟨⟨x, ⟨hu.objects _ hx.1, hx'⟩, h1⟩, h.as.same ⟨hx'.trans hx.2.symm, fun y hy c hcm => ?_⟩ (hu.data q x hx.2), h.kids⟩
  rw [hx.2] at hy; cases hy
  obtain ⟨z, hz, -⟩ := ht.chi _ _ hx.2 c hcm
  have hco : c ≠ o := by rintro rfl; exact hc x hx.2 hcm
  rw [hz]
  exact hu.keep c z hz hco

/-- One more table. -/
theorem Forest.snoc {E : PRead} {H : LHeap} {s t u : PS} {o : Nat} {bs : List Nat} {b : Nat} {f g : List Nat → Nat} (hf : Forest E H s t o bs f)
    (hg : Forest E H t u o [b] g) (h0 : Under o s t) (hu : Under o t u) (ws : WorldOf E s) (wt : WorldOf E t) {y : RObj} (ho : s.reg.obj o = some y) :
    ∃ h, Forest E H s u o (bs ++ [b]) h := by
  refine ⟨fun π => match π with | [] => o | i :: π => if i < bs.length then f (i :: π) else g (0 :: π), ?_⟩
  have inT : ∀ π a, forestAt H bs π = some a → ∃ x, t.reg.obj (f π) = some x := fun π a h => by
    obtain ⟨x, hx, -⟩ := (hf.node π a h).obj; exact ⟨x, hx.2⟩
  have ne : ∀ π a, forestAt H bs π = some a → f π ≠ o := by
    intro π a h e
    have := hf.fresh π a h
    rw [e, ho] at this; cases this
  have noChild : ∀ π a, forestAt H bs π = some a → ∀ x, t.reg.obj (f π) = some x → o ∉ x.children := by
    intro π a h x hx hm
    obtain ⟨z, hz, hzp, -⟩ := wt.tree.chi _ _ hx o hm
    obtain ⟨cs, hc⟩ := h0.own y ho
    rw [hc] at hz; cases hz
    have hyp : y.parent = some (f π) := hzp
    -- the parent of `o` was there
    have hd : y.inDoc = true := by
      cases hd : y.inDoc with
      | true => rfl
      | false =>
        have := (ws.tree.out _ _ ho hd).1
        rw [hyp] at this; cases this
    by_cases hr : o = s.reg.root
    · obtain ⟨x0, h1, h2, -⟩ := ws.tree.root
      rw [← hr, ho] at h1; cases h1; rw [hyp] at h2; cases h2
    · obtain ⟨p, y', h1, h2, -⟩ := ws.tree.par _ _ ho hd hr
      rw [hyp] at h1; cases h1
      rw [hf.fresh π a h] at h2; cases h2
  constructor
  · rfl
  · intro π a h
    cases π with
    | nil => cases h
    | cons i π =>
      dsimp only
      by_cases hi : i < bs.length
      · rw [forestAt_append_left hi] at h
        have hn := (hf.node _ _ h).keep hu (ne _ _ h) (noChild _ _ h) wt.tree
        rw [if_pos hi]
        by_cases hπ : π = []
        · subst hπ; have := hf.top; rw [List.dropLast_singleton, this] at hn; exact hn
        · rw [dropLast_cons_ne hπ] at hn ⊢
          dsimp only
          rw [if_pos hi]; exact hn
      · obtain ⟨rfl, h2⟩ := forestAt_append_right hi h
        have hn := hg.node _ _ h2
        rw [if_neg hi]
        by_cases hπ : π = []
        · subst hπ; have := hg.top; rw [List.dropLast_singleton, this] at hn; exact hn
        · rw [dropLast_cons_ne hπ] at hn ⊢
          dsimp only
          rw [if_neg hi]; exact hn
  · intro π a h
    cases π with
    | nil => cases h
    | cons i π =>
      dsimp only
      by_cases hi : i < bs.length
      · rw [forestAt_append_left hi] at h
        rw [if_pos hi]; exact hf.fresh _ _ h
      · obtain ⟨rfl, h2⟩ := forestAt_append_right hi h
        rw [if_neg hi]
        have := hg.fresh _ _ h2
        cases hs : s.reg.obj (g (0 :: π)) with
        | none => rfl
        | some x =>
          obtain ⟨cs, hc⟩ := h0.some hs
          rw [this] at hc; cases hc
  · intro π π' a a' h h' e
    cases π with
    | nil => cases h
    | cons i π =>
      cases π' with
      | nil => cases h'
      | cons i' π' =>
        dsimp only at e
        by_cases hi : i < bs.length <;> by_cases hi' : i' < bs.length
        · rw [forestAt_append_left hi] at h
          rw [forestAt_append_left hi'] at h'
          rw [if_pos hi, if_pos hi'] at e
          exact hf.inj _ _ _ _ h h' e
        · rw [forestAt_append_left hi] at h
          obtain ⟨rfl, h2'⟩ := forestAt_append_right hi' h'
          rw [if_pos hi, if_neg hi'] at e
          obtain ⟨x, hx⟩ := inT _ _ h
          rw [e, hg.fresh _ _ h2'] at hx; cases hx
        · rw [forestAt_append_left hi'] at h'
          obtain ⟨rfl, h2⟩ := forestAt_append_right hi h
          rw [if_neg hi, if_pos hi'] at e
          obtain ⟨x, hx⟩ := inT _ _ h'
          rw [← e, hg.fresh _ _ h2] at hx; cases hx
        · obtain ⟨rfl, h2⟩ := forestAt_append_right hi h
          obtain ⟨rfl, h2'⟩ := forestAt_append_right hi' h'
          rw [if_neg hi, if_neg hi'] at e
          have := hg.inj _ _ _ _ h2 h2' e
          simp only [List.cons.injEq, true_and] at this
          rw [this]
  · intro q hq
    rcases hg.all q hq with hq | ⟨π, a, h, e⟩
    · rcases hf.all q hq with hq | ⟨π, a, h, e⟩
      · exact .inl hq
      · cases π with
        | nil => cases h
        | cons i π =>
          have hi : i < bs.length := by
            by_cases hi : i < bs.length
            · exact hi
            · simp [forestAt, List.getElem?_eq_none (Nat.le_of_not_lt hi)] at h
          exact .inr ⟨i :: π, a, by rw [forestAt_append_left hi]; exact h, by dsimp only; rw [if_pos hi]; exact e⟩
    · cases π with
      | nil => cases h
      | cons i π =>
        have hi : i = 0 := by
          by_cases hi : i = 0
          · exact hi
          · simp [forestAt, hi] at h
        subst hi
        refine .inr ⟨bs.length :: π, a, ?_, by dsimp only; rw [if_neg (Nat.lt_irrefl _)]; exact e⟩
        have h2 : H.at b π = some a := by simpa [forestAt] using h
        simp [forestAt, h2]

/-- The table of a composition and the tables inside it. -/
theorem Forest.wrap {E : PRead} {H : LHeap} {s s1 t : PS} {p o b : Nat} {g : List Nat → Nat} (hg : Forest E H s1 t o (H.kids b) g) (hn : NodeAs E H t o p b)
    (h0 : Under p s s1) (hfresh : s.reg.obj o = none) (ho : ∃ x, s1.reg.obj o = some x) (hobj : ∀ q ∈ s1.reg.objects, q ∈ s.reg.objects ∨ q = o) :
    ∃ f, Forest E H s t p [b] f := by
  have at0 : ∀ i π, forestAt H [b] (i :: π) = if i = 0 then H.at b π else none := by
    intro i π
    by_cases hi : i = 0
    · subst hi; rfl
    · simp [forestAt, hi]
  have atk : ∀ i π, H.at b (i :: π) = forestAt H (H.kids b) (i :: π) := fun _ _ => rfl
  refine ⟨fun π => match π with | [] => p | _ :: π => g π, ?_⟩
  constructor
  · rfl
  · intro π a h
    cases π with
    | nil => cases h
    | cons i π =>
      rw [at0] at h
      split at h
      · next e =>
        subst e
        cases π with
        | nil =>
          cases h
          dsimp only [List.dropLast_singleton]
          rw [hg.top]; exact hn
        | cons j π =>
          rw [dropLast_cons_ne (by simp)]
          rw [atk] at h
          exact hg.node _ _ h
      · cases h
  · intro π a h
    cases π with
    | nil => cases h
    | cons i π =>
      rw [at0] at h
      split at h
      · cases π with
        | nil => dsimp only; rw [hg.top]; exact hfresh
        | cons j π =>
          rw [atk] at h
          dsimp only
          have := hg.fresh _ _ h
          cases hs : s.reg.obj (g (j :: π)) with
          | none => rfl
          | some x =>
            obtain ⟨cs, hc⟩ := h0.some hs
            rw [this] at hc; cases hc
      · cases h
  · intro π π' a a' h h' e
    cases π with
    | nil => cases h
    | cons i π =>
      cases π' with
      | nil => cases h'
      | cons i' π' =>
        rw [at0] at h h'
        split at h
        · next e1 =>
          subst e1
          split at h'
          · next e2 =>
            subst e2
            have key : ∀ j τ c, H.at b (j :: τ) = some c → g (j :: τ) ≠ g [] := by
              intro j τ c hc he
              rw [atk] at hc
              obtain ⟨x, hx⟩ := ho
              have := hg.fresh _ _ hc
              rw [he, hg.top, hx] at this; cases this
            dsimp only at e
            cases π with
            | nil =>
              cases π' with
              | nil => rfl
              | cons j τ => exact absurd e.symm (key _ _ _ h')
            | cons j τ =>
              cases π' with
              | nil => exact absurd e (key _ _ _ h)
              | cons j' τ' =>
                rw [atk] at h h'
                rw [hg.inj _ _ _ _ h h' e]
          · cases h'
        · cases h
  · intro q hq
    rcases hg.all q hq with hq | ⟨π, a, h, e⟩
    · rcases hobj q hq with hq | rfl
      · exact .inl hq
      · exact .inr ⟨[0], b, rfl, hg.top⟩
    · cases π with
      | nil => cases h
      | cons i π => exact .inr ⟨0 :: i :: π, a, by rw [at0, if_pos rfl, atk]; exact h, e⟩

end Ginga
