import Verif.Props.C23
/-! # C50: children and parents agree -/
namespace Ginga

/-- The parent chain from `o` ends in the root. -/
inductive UpToRoot (r : Reg) : Nat → Prop
  | root : UpToRoot r r.root
  | up {o x p} : r.obj o = some x → x.parent = some p → UpToRoot r p → UpToRoot r o

structure TreeInv (r : Reg) : Prop where
  root : ∃ x, r.obj r.root = some x ∧ x.parent = none ∧ x.inDoc = true
  out : ∀ o x, r.obj o = some x → x.inDoc = false → x.parent = none ∧ x.children = []
  par : ∀ o x, r.obj o = some x → x.inDoc = true → o ≠ r.root → ∃ p y, x.parent = some p ∧ r.obj p = some y ∧ o ∈ y.children
  chi : ∀ p y, r.obj p = some y → ∀ o ∈ y.children, ∃ x, r.obj o = some x ∧ x.parent = some p ∧ x.inDoc = true
  up : ∀ o x, r.obj o = some x → x.inDoc = true → UpToRoot r o

/-- Same place in the tree. -/
def SameNode (x x' : RObj) : Prop := x'.parent = x.parent ∧ x'.children = x.children ∧ x'.inDoc = x.inDoc

theorem UpToRoot.mono {r r' : Reg} (hroot : r'.root = r.root)
    (h : ∀ o x, r.obj o = some x → ∃ x', r'.obj o = some x' ∧ ∀ p, x.parent = some p → x'.parent = some p) {o : Nat}
    (hu : UpToRoot r o) : UpToRoot r' o := by
  induction hu with
  | root => rw [← hroot]; exact .root
  | up ho hp _ ih =>
    obtain ⟨x', h1, h2⟩ := h _ _ ho
    exact .up h1 (h2 _ hp) ih

theorem TreeInv.same {r r' : Reg} (h : TreeInv r) (hroot : r'.root = r.root)
    (hback : ∀ o x', r'.obj o = some x' → (∃ x, r.obj o = some x ∧ SameNode x x') ∨
      (x'.parent = none ∧ x'.children = [] ∧ x'.inDoc = false))
    (hfwd : ∀ o x, r.obj o = some x → ∃ x', r'.obj o = some x' ∧ SameNode x x') : TreeInv r' := by
  constructor
  · obtain ⟨x, hx, hp, hd⟩ := h.root
    obtain ⟨x', h1, h2⟩ := hfwd _ _ hx
    exact ⟨x', by rw [hroot]; exact h1, by rw [h2.1]; exact hp, by rw [h2.2.2]; exact hd⟩
  · intro o x' hx' hd
    rcases hback o x' hx' with ⟨x, hx, hs⟩ | ⟨h1, h2, -⟩
    · have := h.out o x hx (by rw [← hs.2.2]; exact hd)
      exact ⟨by rw [hs.1]; exact this.1, by rw [hs.2.1]; exact this.2⟩
    · exact ⟨h1, h2⟩
  · intro o x' hx' hd hne
    rcases hback o x' hx' with ⟨x, hx, hs⟩ | ⟨h1, h2, h3⟩
    · obtain ⟨p, y, h1, h2, h3⟩ := h.par o x hx (by rw [← hs.2.2]; exact hd) (by rw [← hroot]; exact hne)
      obtain ⟨y', hy', hs'⟩ := hfwd p y h2
      exact ⟨p, y', by rw [hs.1]; exact h1, hy', by rw [hs'.2.1]; exact h3⟩
    · rw [h3] at hd; cases hd
  · intro p y' hy' o ho
    rcases hback p y' hy' with ⟨y, hy, hs⟩ | ⟨h1, h2, h3⟩
    · obtain ⟨x, hx, h1, h2⟩ := h.chi p y hy o (by rw [← hs.2.1]; exact ho)
      obtain ⟨x', hx', hs'⟩ := hfwd o x hx
      exact ⟨x', hx', by rw [hs'.1]; exact h1, by rw [hs'.2.2]; exact h2⟩
    · rw [h2] at ho; cases ho
  · intro o x' hx' hd
    rcases hback o x' hx' with ⟨x, hx, hs⟩ | ⟨h1, h2, h3⟩
    · refine (h.up o x hx (by rw [← hs.2.2]; exact hd)).mono hroot fun o x hx => ?_
      obtain ⟨x', hx', hs⟩ := hfwd o x hx
      exact ⟨x', hx', fun p hp => by rw [hs.1]; exact hp⟩
    · rw [h3] at hd; cases hd

theorem addObject_false {r : Reg} {o : Nat} {x : RObj} (hx : r.obj o = some x)
    (h : o ∈ r.objects ∨ (r.getByIdOrAlias x.id).isSome) : r.addObject o = .ok (false, r) := by
  unfold Reg.addObject
  rw [hx]
  dsimp only
  rw [if_pos h]

theorem addObject_true {r r' : Reg} {o : Nat} {x : RObj} (hx : r.obj o = some x) (h : r.addObject o = .ok (true, r')) :
    x.inDoc = false ∧ r' = r.register o x := by
  unfold Reg.addObject at h
  rw [hx] at h
  dsimp only at h
  by_cases h1 : o ∈ r.objects ∨ (r.getByIdOrAlias x.id).isSome
  · rw [if_pos h1] at h; cases h
  · rw [if_neg h1] at h
    by_cases h2 : r.settings.isSome ∧ x.kind = .settings
    · rw [if_pos h2] at h; cases h
    · rw [if_neg h2] at h
      by_cases h3 : x.inDoc = true
      · rw [if_pos h3] at h; cases h
      · rw [if_neg h3] at h; cases h
        exact ⟨by simpa using h3, rfl⟩

/-- What a successful `addChild` of a new child does. -/
theorem addChild_shape {r r' : Reg} {c o : Nat} {b : Bool} (hi : RegInv r) (hx : r.addChild c o = .ok (b, r')) :
    b = true ∧ (r' = r ∧ (∃ y, r.obj c = some y ∧ o ∈ y.children) ∨
    ∃ y x, r.obj c = some y ∧ r.obj o = some x ∧ y.inDoc = true ∧ x.inDoc = false ∧ x.parent = none ∧ c ≠ o ∧ o ∉ y.children ∧
      r'.root = r.root ∧ r'.obj c = some { y with children := sinsert o y.children } ∧
      r'.obj o = some { x with parent := some c, inDoc := true } ∧ ∀ q, q ≠ c → q ≠ o → r'.obj q = r.obj q) := by
  simp only [Reg.addChild] at hx
  split at hx
  · next y x hy hxo =>
    split at hx
    · cases hx
    · split at hx
      · next hm => cases hx; exact ⟨rfl, .inl ⟨rfl, y, hy, hm⟩⟩
      · next hm =>
        split at hx
        · cases hx
        · next hpar =>
          split at hx
          · cases hx
          · next hdoc =>
            have hyd : y.inDoc = true := by simpa using hdoc
            have hc := hi.inDoc c y hy hyd
            split at hx
            · cases hx
            · next x2 hx2 =>
              cases hadd : ((r.setObj c { y with children := sinsert o y.children }).setObj o { x2 with parent := some c }).addObject o with
              | ok p =>
                rw [hadd] at hx
                simp only [Res.bind_ok] at hx
                split at hx
                · next hp1 =>
                  cases hx
                  refine ⟨rfl, .inr ?_⟩
                  have hco : c ≠ o := by
                    intro e; subst e
                    have := addObject_false (r := (r.setObj c { y with children := sinsert c y.children }).setObj c { x2 with parent := some c }) (o := c) (upd_same _ _ _) (.inl hc)
                    rw [this] at hadd
                    cases hadd; cases hp1
                  have e2 : x2 = x := by
                    simp only [Reg.setObj, upd] at hx2
                    rw [if_neg (fun h => hco h.symm), hxo] at hx2
                    exact (Option.some.inj hx2).symm
                  subst e2
                  obtain ⟨p1, p2⟩ := p
                  dsimp only at hp1; subst hp1
                  obtain ⟨hnd, e⟩ := addObject_true (upd_same _ _ _) hadd
                  subst e
                  refine ⟨y, x2, hy, hxo, hyd, by simpa using hnd, by simpa using hpar, hco, hm, ?_⟩
                  unfold Reg.register
                  cases x2.kind <;> refine ⟨rfl, ?_, ?_, ?_⟩ <;>
                    first
                    | (simp [Reg.setObj, upd, hco]; done)
                    | (intro q h1 h2; simp [Reg.setObj, upd, h1, h2])
                · cases hx
              | _ => rw [hadd] at hx; cases hx
  · cases hx

theorem TreeInv.addChild {r r' : Reg} {c o : Nat} (h : TreeInv r) {y x : RObj} (hy : r.obj c = some y) (hx : r.obj o = some x)
    (hyd : y.inDoc = true) (hxd : x.inDoc = false) (hco : c ≠ o) (hroot : r'.root = r.root)
    (hc' : r'.obj c = some { y with children := sinsert o y.children })
    (ho' : r'.obj o = some { x with parent := some c, inDoc := true }) (hq : ∀ q, q ≠ c → q ≠ o → r'.obj q = r.obj q) : TreeInv r' := by
  obtain ⟨hxp, hxc⟩ := h.out o x hx hxd
  have hor : o ≠ r.root := by
    intro e
    obtain ⟨z, hz, -, hd⟩ := h.root
    rw [← e, hx] at hz; cases hz; rw [hxd] at hd; cases hd
  have hnoc : ∀ p z, r.obj p = some z → o ∉ z.children := by
    intro p z hz hm
    obtain ⟨x2, h1, -, h3⟩ := h.chi p z hz o hm
    rw [hx] at h1; cases h1; rw [hxd] at h3; cases h3
  -- every other node keeps its parent
  have fwd : ∀ q z, q ≠ o → r.obj q = some z → ∃ z', r'.obj q = some z' ∧ z'.parent = z.parent ∧ z'.inDoc = z.inDoc ∧ ∀ k ∈ z.children, k ∈ z'.children := by
    intro q z hqo hz
    by_cases hqc : q = c
    · subst hqc
      rw [hy] at hz; cases hz
      exact ⟨_, hc', rfl, rfl, fun k hk => by rw [mem_sinsert]; exact .inr hk⟩
    · exact ⟨z, by rw [hq q hqc hqo]; exact hz, rfl, rfl, fun _ h => h⟩
  have up' : ∀ q, UpToRoot r q → UpToRoot r' q := by
    intro q hu
    refine hu.mono hroot fun q z hz => ?_
    by_cases hqo : q = o
    · subst hqo
      rw [hx] at hz; cases hz
      exact ⟨_, ho', fun p hp => by rw [hxp] at hp; cases hp⟩
    · obtain ⟨z', h1, h2, -, -⟩ := fwd q z hqo hz
      exact ⟨z', h1, fun p hp => by rw [h2]; exact hp⟩
  have back : ∀ q z', q ≠ o → q ≠ c → r'.obj q = some z' → r.obj q = some z' := by
    intro q z' h1 h2 h3; rw [← hq q h2 h1]; exact h3
  constructor
  · obtain ⟨z, hz, hp, hd⟩ := h.root
    obtain ⟨z', h1, h2, h3, -⟩ := fwd _ z (fun e => hor e.symm) hz
    exact ⟨z', by rw [hroot]; exact h1, by rw [h2]; exact hp, by rw [h3]; exact hd⟩
  · intro q z' hz' hd
    by_cases hqo : q = o
    · subst hqo; rw [ho'] at hz'; cases hz'; cases hd
    · by_cases hqc : q = c
      · subst hqc; rw [hc'] at hz'; cases hz'; rw [hyd] at hd; cases hd
      · exact h.out q z' (back q z' hqo hqc hz') hd
  · intro q z' hz' hd hne
    by_cases hqo : q = o
    · subst hqo; rw [ho'] at hz'; cases hz'
      exact ⟨c, _, rfl, hc', by rw [mem_sinsert]; exact .inl rfl⟩
    · have hzz : ∃ z, r.obj q = some z ∧ z'.parent = z.parent ∧ z.inDoc = true := by
        by_cases hqc : q = c
        · subst hqc; rw [hc'] at hz'; cases hz'; exact ⟨y, hy, rfl, hyd⟩
        · exact ⟨z', back q z' hqo hqc hz', rfl, hd⟩
      obtain ⟨z, h1, h2, h3⟩ := hzz
      obtain ⟨p, w, g1, g2, g3⟩ := h.par q z h1 h3 (by rw [← hroot]; exact hne)
      have hpo : p ≠ o := by
        intro e; subst e; rw [hx] at g2; cases g2; rw [hxc] at g3; cases g3
      obtain ⟨w', k1, -, -, k4⟩ := fwd p w hpo g2
      exact ⟨p, w', by rw [h2]; exact g1, k1, k4 _ g3⟩
  · intro p z' hz' k hk
    have old : ∀ z, r.obj p = some z → k ∈ z.children → ∃ x, r'.obj k = some x ∧ x.parent = some p ∧ x.inDoc = true := by
      intro z hz hk
      obtain ⟨w, h1, h2, h3⟩ := h.chi p z hz k hk
      have hko : k ≠ o := fun e => by subst e; exact hnoc p z hz hk
      obtain ⟨w', k1, k2, k3, -⟩ := fwd k w hko h1
      exact ⟨w', k1, by rw [k2]; exact h2, by rw [k3]; exact h3⟩
    by_cases hpo : p = o
    · subst hpo; rw [ho'] at hz'; cases hz'
      change k ∈ x.children at hk
      rw [hxc] at hk; cases hk
    · by_cases hpc : p = c
      · subst hpc; rw [hc'] at hz'; cases hz'
        change k ∈ sinsert o y.children at hk
        rw [mem_sinsert] at hk
        rcases hk with rfl | hk
        · exact ⟨_, ho', rfl, rfl⟩
        · exact old y hy hk
      · exact old z' (back p z' hpo hpc hz') hk
  · intro q z' hz' hd
    by_cases hqo : q = o
    · subst hqo
      exact .up ho' rfl (up' c (h.up c y hy hyd))
    · by_cases hqc : q = c
      · subst hqc; exact up' _ (h.up _ y hy hyd)
      · exact up' q (h.up q z' (back q z' hqo hqc hz') hd)

theorem setObj_same {r : Reg} (h : TreeInv r) {o : Nat} {x x' : RObj} (hx : r.obj o = some x) (hs : SameNode x x') : TreeInv (r.setObj o x') := by
  refine h.same rfl ?_ ?_
  · intro q z hz
    simp only [Reg.setObj, upd] at hz
    split at hz
    · next e => subst e; cases hz; exact .inl ⟨x, hx, hs⟩
    · exact .inl ⟨z, hz, rfl, rfl, rfl⟩
  · intro q z hz
    simp only [Reg.setObj, upd]
    split
    · next e => subst e; rw [hx] at hz; cases hz; exact ⟨_, rfl, hs⟩
    · exact ⟨z, hz, rfl, rfl, rfl⟩

theorem exec_tree {r r' : Reg} {op : RegOp} {b : Bool} (h : TreeInv r) (hi : RegInv r) (hop : ∀ o, op ≠ .addObject o)
    (hx : r.exec op = .ok (b, r')) : TreeInv r' := by
  cases op with
  | new a k id a1 a2 =>
    simp only [Reg.exec] at hx
    cases ha : r.obj a with
    | some y => rw [ha] at hx; cases hx; exact h
    | none =>
      rw [ha] at hx
      cases hx
      have f := newObj_fields k id a1 a2
      refine h.same rfl ?_ ?_
      · intro q z hz
        simp only [Reg.setObj, upd] at hz
        split at hz
        · cases hz; exact .inr ⟨f.2.2.1, f.2.2.2.1, f.2.2.2.2.1⟩
        · exact .inl ⟨z, hz, rfl, rfl, rfl⟩
      · intro q z hz
        simp only [Reg.setObj, upd]
        split
        · next e => subst e; rw [ha] at hz; cases hz
        · exact ⟨z, hz, rfl, rfl, rfl⟩
  | addObject o => exact absurd rfl (hop o)
  | addChild c o =>
    obtain ⟨-, ⟨rfl, -⟩ | ⟨y, x, h1, h2, h3, h4, h5, h6, h7, h8, h9, h10, h11⟩⟩ := addChild_shape hi hx
    · exact h
    · exact h.addChild h1 h2 h3 h4 h6 h8 h9 h10 h11
  | addAlias o s c =>
    simp only [Reg.exec, Reg.addAlias] at hx
    cases ho : r.obj o with
    | none => rw [ho] at hx; cases hx
    | some x =>
      rw [ho] at hx
      dsimp only at hx
      split at hx
      · cases hx; exact h
      · cases hx; exact setObj_same h ho ⟨rfl, rfl, rfl⟩
  | addEvent o a e =>
    simp only [Reg.exec] at hx
    cases ho : r.obj o with
    | none => rw [ho] at hx; cases hx
    | some x =>
      rw [ho] at hx
      cases hx
      have f := addEvent_fields x a e
      exact setObj_same h ho ⟨f.2.2.1, f.2.2.2.1, f.2.2.2.2.1⟩

theorem newDoc_tree {a b e1 e2 e3 : Nat} (hab : a ≠ b) {r0 : Reg} (h : newDoc a b e1 e2 e3 = .ok r0) : TreeInv r0 := by
  obtain ⟨ho, -, -, -, -, -, hr, -⟩ := newDoc_has hab h
  have f1 := newObj_fields .context "__root__" e1 0
  have f2 := newObj_fields .settings "__settings__" e2 e3
  have oa := (ho a _).2 (.inr ⟨rfl, rfl⟩)
  have ob := (ho b _).2 (.inl ⟨rfl, rfl⟩)
  have ua : UpToRoot r0 a := by rw [← hr]; exact .root
  constructor
  · rw [hr]; exact ⟨_, oa, f1.2.2.1, rfl⟩
  · intro o x hx hd
    rcases (ho o x).1 hx with ⟨rfl, rfl⟩ | ⟨rfl, rfl⟩ <;> cases hd
  · intro o x hx hd hne
    rcases (ho o x).1 hx with ⟨rfl, rfl⟩ | ⟨rfl, rfl⟩
    · exact ⟨a, _, rfl, oa, by simp⟩
    · exact absurd hr.symm hne
  · intro p y hy o hm
    rcases (ho p y).1 hy with ⟨rfl, rfl⟩ | ⟨rfl, rfl⟩
    · change o ∈ (newObj .settings "__settings__" e2 e3).children at hm
      rw [f2.2.2.2.1] at hm; cases hm
    · have : o = b := by simpa using hm
      subst this
      exact ⟨_, ob, rfl, rfl⟩
  · intro o x hx hd
    rcases (ho o x).1 hx with ⟨rfl, rfl⟩ | ⟨rfl, rfl⟩
    · exact .up hx rfl ua
    · exact ua

theorem BuiltTree.inv {r : Reg} (h : BuiltTree r) : RegInv r ∧ TreeInv r := by
  obtain ⟨a, b, e1, e2, e3, r0, ops, hab, h0, hno, hx⟩ := h
  have i0 := (newDoc_inv a b e1 e2 e3 hab r0 h0).1
  have t0 := newDoc_tree hab h0
  clear h0
  induction ops generalizing r0 with
  | nil => cases hx; exact ⟨i0, t0⟩
  | cons op ops ih =>
    simp only [Reg.execAll] at hx
    cases hop : r0.exec op with
    | ok p =>
      rw [hop] at hx
      refine ih p.2 (fun o ho => hno o (by simp [ho])) hx (exec_reginv i0 op p.1 p.2 hop) (exec_tree t0 i0 ?_ hop)
      intro o e; exact hno o (by simp [e])
    | _ => rw [hop] at hx; cases hx

theorem BuiltTree.built {r : Reg} (h : BuiltTree r) : Built r := by
  obtain ⟨a, b, e1, e2, e3, r0, ops, hab, h0, -, hx⟩ := h
  exact ⟨a, b, e1, e2, e3, r0, ops, hab, h0, hx⟩

/-- Children and parents agree; the root is the only object of the document without parent; every parent chain ends
in the root; objects that were not added to the document have neither parent nor children. -/
theorem C50_tree (r : Reg) (h : BuiltTree r) :
    (∀ o x p y, r.obj o = some x → r.obj p = some y → (o ∈ y.children ↔ x.parent = some p)) ∧
    (∀ o x, r.has o x → (x.parent = none ↔ o = r.root)) ∧
    (∀ o x, r.has o x → UpToRoot r o) ∧
    (∀ p y o, r.obj p = some y → o ∈ y.children → p ∈ r.objects ∧ o ∈ r.objects) ∧
    (∀ o x, r.obj o = some x → o ∉ r.objects → x.parent = none ∧ x.children = []) := by
  obtain ⟨hi, ht⟩ := h.inv
  have hd : ∀ {o x}, r.has o x → x.inDoc = true := by
    intro o x hx
    obtain ⟨z, hz, hd⟩ := hi.objs o hx.1
    rw [hx.2] at hz; cases hz; exact hd
  have hnd : ∀ {o x}, r.obj o = some x → o ∉ r.objects → x.inDoc = false := by
    intro o x hx hn
    cases hc : x.inDoc with
    | false => rfl
    | true => exact absurd (hi.inDoc o x hx hc) hn
  have hroot := ht.root
  refine ⟨?_, ?_, ?_, ?_, ?_⟩
  · intro o x p y hx hy
    constructor
    · intro hm
      obtain ⟨z, hz, h1, -⟩ := ht.chi p y hy o hm
      rw [hx] at hz; cases hz; exact h1
    · intro hp
      have hxd : x.inDoc = true := by
        cases hc : x.inDoc with
        | true => rfl
        | false => have := (ht.out o x hx hc).1; rw [hp] at this; cases this
      have hne : o ≠ r.root := by
        rintro rfl
        obtain ⟨z, hz, h1, -⟩ := hroot
        rw [hx] at hz; cases hz; rw [hp] at h1; cases h1
      obtain ⟨q, z, h1, h2, h3⟩ := ht.par o x hx hxd hne
      rw [hp] at h1; cases h1
      rw [hy] at h2; cases h2; exact h3
  · intro o x hx
    constructor
    · intro hp
      apply Decidable.byContradiction
      intro hne
      obtain ⟨q, z, h1, -⟩ := ht.par o x hx.2 (hd hx) hne
      rw [hp] at h1; cases h1
    · rintro rfl
      obtain ⟨z, hz, h1, -⟩ := hroot
      rw [hx.2] at hz; cases hz; exact h1
  · intro o x hx
    exact ht.up o x hx.2 (hd hx)
  · intro p y o hy hm
    obtain ⟨x, hx, h1, h2⟩ := ht.chi p y hy o hm
    refine ⟨?_, hi.inDoc o x hx h2⟩
    cases hc : y.inDoc with
    | true => exact hi.inDoc p y hy hc
    | false => rw [(ht.out p y hy hc).2] at hm; cases hm
  · intro o x hx hn
    exact ht.out o x hx (hnd hx hn)

/-- Adding a child: a second time it is a no-op; a child of another composition, or any object whose id is taken,
ends the program; otherwise the object becomes a child. -/
theorem C50_add (r : Reg) (h : BuiltTree r) (c o : Nat) (y x : RObj) (hy : r.has c y) (hx : r.obj o = some x)
    (hk : y.kind = .context ∨ y.kind = .switch) :
    (x.parent = some c → r.addChild c o = .ok (true, r)) ∧
    (∀ p, x.parent = some p → p ≠ c → r.addChild c o = .abort) ∧
    (x.parent = none → o ∈ r.objects ∨ (∃ q z, r.has q z ∧ (z.id = x.id ∨ z.hasAlias x.id = true)) →
      r.addChild c o = .abort) ∧
    (∀ b r', x.parent = none → r.addChild c o = .ok (b, r') → b = true ∧ (∃ y', r'.has c y' ∧ o ∈ y'.children) ∧
      (∃ x', r'.has o x' ∧ x'.parent = some c ∧ x'.id = x.id) ∧ ∀ q, q ≠ c → q ≠ o → r'.obj q = r.obj q) := by
  obtain ⟨hi, ht⟩ := h.inv
  have hyd : y.inDoc = true := by
    obtain ⟨z, hz, hd⟩ := hi.objs c hy.1
    rw [hy.2] at hz; cases hz; exact hd
  have hag := (C50_tree r h).1 o x c y hx hy.2
  have hkk : ¬ (y.kind ≠ .context ∧ y.kind ≠ .switch) := by rcases hk with hk | hk <;> simp [hk]
  refine ⟨?_, ?_, ?_, ?_⟩
  · intro hp
    unfold Reg.addChild
    rw [hy.2, hx]; dsimp only
    rw [if_neg hkk, if_pos (hag.2 hp)]
  · intro p hp hne
    unfold Reg.addChild
    rw [hy.2, hx]; dsimp only
    rw [if_neg hkk, if_neg (by rw [hag, hp]; simpa using hne), if_pos (by rw [hp]; rfl)]
  · intro hp hor
    unfold Reg.addChild
    rw [hy.2, hx]; dsimp only
    rw [if_neg hkk, if_neg (by rw [hag, hp]; simp), if_neg (by rw [hp]; simp), if_neg (by rw [hyd]; simp)]
    have hcase : ∃ x2, (r.setObj c { y with children := sinsert o y.children }).obj o = some x2 ∧ x2.id = x.id := by
      simp only [Reg.setObj, upd]
      split
      · next e => subst e; rw [hy.2] at hx; cases hx; exact ⟨_, rfl, rfl⟩
      · exact ⟨x, hx, rfl⟩
    obtain ⟨x2, hx2, hid⟩ := hcase
    rw [hx2]; dsimp only
    have : ((r.setObj c { y with children := sinsert o y.children }).setObj o { x2 with parent := some c }).addObject o =
        .ok (false, (r.setObj c { y with children := sinsert o y.children }).setObj o { x2 with parent := some c }) := by
      have hi1 := hi.setObj c y { y with children := sinsert o y.children } hy.2 ⟨(hi.ev c y hy.2).uniq, (hi.ev c y hy.2).lam, (hi.ev c y hy.2).focus⟩ rfl rfl rfl
      refine addObject_false (upd_same _ _ _) ?_
      rcases hor with hor | ⟨q, z, hz, ho2⟩
      · exact .inl hor
      · refine .inr ?_
        simp only [Reg.setObj]
        -- the lookup sees the same ids and aliases
        have hg : ∀ q w, r.obj q = some w → ∃ w', (upd (upd r.obj c (some { y with children := sinsert o y.children })) o (some { x2 with parent := some c })) q = some w' ∧ w'.aliases = w.aliases := by
          intro q w hw
          simp only [upd]
          split
          · next e =>
            subst e
            rw [hx] at hw; cases hw
            refine ⟨_, rfl, ?_⟩
            simp only [Reg.setObj, upd] at hx2
            split at hx2
            · next e => subst e; cases hx2; rw [hy.2] at hx; cases hx; rfl
            · rw [hx] at hx2; cases hx2; rfl
          · split
            · next e => subst e; rw [hy.2] at hw; cases hw; exact ⟨_, rfl, rfl⟩
            · exact ⟨w, hw, rfl⟩
        unfold Reg.getByIdOrAlias
        rcases ho2 with hz2 | hz2
        · have := (hi.byId x.id q).2 ⟨z, hz, hz2⟩
          simp only [Reg.getById] at this ⊢
          rw [hid, this]; rfl
        · rw [← hid] at hz2
          simp only [Reg.getById]
          rw [show ({ x2 with parent := some c } : RObj).id = x2.id from rfl]
          cases hl : idLookup r.byId x2.id with
          | some _ => rfl
          | none =>
            dsimp only
            rw [List.find?_isSome]
            obtain ⟨w', h1, h2⟩ := hg q z hz.2
            refine ⟨q, hz.1, ?_⟩
            rw [h1]
            dsimp only
            unfold RObj.hasAlias at hz2 ⊢
            rw [h2]; exact hz2
    rw [this]
    rfl
  · intro b r' hp hok
    obtain ⟨hb, ⟨rfl, z, hz, hm⟩ | ⟨y2, x2, h1, h2, h3, h4, h5, h6, h7, h8, h9, h10, h11⟩⟩ := addChild_shape hi hok
    · rw [hy.2] at hz; cases hz
      have := hag.1 hm
      rw [hp] at this; cases this
    · have hi' : RegInv r' := exec_reginv hi (.addChild c o) b r' hok
      rw [hy.2] at h1; cases h1
      rw [hx] at h2; cases h2
      refine ⟨hb, ⟨_, ⟨hi'.inDoc c _ h9 hyd, h9⟩, ?_⟩, ⟨_, ⟨hi'.inDoc o _ h10 rfl, h10⟩, rfl, rfl⟩, h11⟩
      rw [mem_sinsert]; exact .inl rfl

/-! ## Concrete registries -/

/-- A context with a media object with an anchor, a switch below it, an alias, and an object left outside. -/
def sampleOps : List RegOp :=
  [.new 30 .context "c" 31 0, .addChild 10 30, .new 5 .media "m" 6 0, .addChild 30 5, .addEvent 5 7 { typ := .presentation, id := "a", beg := 1, fin := 2 },
   .new 8 .switch "s" 9 0, .addChild 30 8, .addAlias 5 "r" 30, .addChild 30 5, .new 90 .media "x" 91 0]

def sampleReg : Reg := match newDoc 10 20 1 2 3 with
  | .ok r => match r.execAll sampleOps with | .ok r => r | _ => r
  | _ => { obj := fun _ => none, objects := [], byId := [], medias := [], contexts := [], switches := [], root := 0, settings := none }

theorem sampleReg_tree : BuiltTree sampleReg :=
  ⟨10, 20, 1, 2, 3, (match newDoc 10 20 1 2 3 with | .ok r => r | _ => sampleReg), sampleOps, by decide, rfl,
    by intro o; simp [sampleOps], rfl⟩

example : sampleReg.objects = [5, 8, 10, 20, 30] ∧ sampleReg.medias = [5, 20] ∧ sampleReg.contexts = [10, 30] ∧ sampleReg.switches = [8] ∧
    (sampleReg.obj 30).map (·.children) = some [5, 8] ∧ (sampleReg.obj 5).map (·.parent) = some (some 30) ∧
    sampleReg.getByIdOrAlias "r" = some 5 ∧ sampleReg.getById "r" = none := by decide +kernel

/-- With `Document::addObject` called directly an object of the document has no parent and its chain does not end in the
root: the restriction to `addChild` is needed. -/
theorem C50_fails_direct : ∃ r, Built r ∧ ∃ o x, r.has o x ∧ x.parent = none ∧ o ≠ r.root := by
  refine ⟨(match newDoc 10 20 1 2 3 with
    | .ok r => match r.execAll [.new 30 .media "m" 31 0, .addObject 30] with | .ok r => r | _ => r
    | _ => sampleReg), ⟨10, 20, 1, 2, 3, (match newDoc 10 20 1 2 3 with | .ok r => r | _ => sampleReg), [.new 30 .media "m" 31 0, .addObject 30],
      by decide, rfl, rfl⟩, 30, _, ⟨?_, rfl⟩, rfl, ?_⟩
  · decide +kernel
  · decide +kernel

end Ginga
