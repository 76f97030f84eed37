import Verif.Proofs.PropK
/-!
# The elements that share an object
-/
namespace Ginga

section
variable {E : PRead} {T R : String → Prop} {D : Nat → Prop} {B : String → Nat → Prop}

theorem World.rootKind {r : Reg} {n : Nat} {refer : List (String × Nat)} {U : List String} (w : World E r n refer U) {x : RObj} (hx : r.obj r.root = some x) : ¬ x.kind.isMedia := by
  obtain ⟨b, y, h1, h2, h3, h4⟩ := w.settings
  have hin : y.inDoc = true := by
    obtain ⟨X, g1, -⟩ := (w.inv.settings b h1 b).2 rfl
    obtain ⟨X', g3, g4⟩ := w.inv.objs _ g1.1
    rw [h2] at g3; cases g3; exact g4
  obtain ⟨p, z, g1, g2, g3⟩ := w.tree.par b y h2 hin (by
    rintro rfl
    obtain ⟨x0, a1, a2, -⟩ := w.tree.root
    rw [h2] at a1; cases a1; rw [h4] at a2; cases a2)
  rw [h4] at g1; cases g1
  rw [hx] at g2; cases g2
  have := (w.kids _ _ hx).2 (fun hc => by rw [hc] at g3; cases g3)
  intro hm
  rcases hm with hm | hm <;> rw [hm] at this <;> rcases this with h | h <;> cases h

/-- The object of a reference: it has that identifier or that name. -/
theorem pushRefer_named (hinj : ∀ i j, E.addr i = E.addr j → i = j) {s : PS} (w : WorldOf E s) (h : NamesOf E T R D B s) (id refer : String) :
    PPost (pushRefer E id refer) (fun m t => Alloc E t m ∧ ∀ x, t.reg.obj m = some x → x.id = refer ∨ B refer m) s := by
  unfold pushRefer
  refine PPost.bind (PPost.get ?_)
  dsimp only
  have rest : ∀ (m : Nat) (t : PS), Alloc E t m → (∀ x, t.reg.obj m = some x → x.id = refer ∨ B refer m) →
      PPost (do
        let parent ← peekComp
        regOp (.addAlias m id parent)
        PM.modify fun s => { s with refer := Ginga.referAdd id m s.refer }
        pure m) (fun m t => Alloc E t m ∧ ∀ x, t.reg.obj m = some x → x.id = refer ∨ B refer m) t := by
    intro m t h0 h1
    refine PPost.bind (PPost.peekComp fun p l x _ _ _ => PPost.bind (PPost.regOp fun b r hx => PPost.bind (PPost.modify (PPost.pure ⟨h0, fun x hx' => ?_⟩))))
    obtain ⟨y, g1, g2⟩ := exec_grows hx (by simp) m x hx'
    rw [g2.id]; exact h1 y g1
  split
  · next o ho =>
    split at ho
    · next o' ho' =>
      split at ho
      · next x hx =>
        split at ho
        · next hk =>
          cases ho
          refine PPost.bind (PPost.pure (rest o s (w.objAddr _ _ hx) fun x' hx' => ?_))
          rw [hx] at hx'; cases hx'
          unfold Reg.getByIdOrAlias at ho'
          split at ho'
          · next o2 hb =>
            cases ho'
            obtain ⟨y, ⟨-, h2⟩, h3⟩ := (w.inv.byId refer o).1 hb
            rw [hx] at h2; cases h2; exact .inl h3
          · have hal := List.find?_some ho'
            rw [hx] at hal
            have hal : x.hasAlias refer = true := hal
            unfold RObj.hasAlias at hal
            obtain ⟨p, hp1, hp2⟩ := List.any_eq_true.1 hal
            have hp2 : p.1 = refer := by simpa using hp2
            rcases h.alias o x p hx hp1 with ⟨g1, -⟩ | ⟨-, g2⟩
            · subst g1; exact absurd hk (w.rootKind hx)
            · rw [hp2] at g2; exact .inr g2
        · cases ho
      · cases ho
    · cases ho
  · next ho =>
    refine PPost.bind ?_
    split
    · next m hm =>
      have hmem := referIdx_mem hm
      obtain ⟨h1, h2⟩ := h.refer _ hmem
      refine PPost.bind (PPost.pure (PPost.bind (PPost.modify (PPost.pure (rest m _ h1 fun x hx => ?_)))))
      rcases (h2 x hx).2 with g | g
      · exact .inr g
      · exact .inl g.1
    · next hm =>
      refine PPost.bind ((newObject_names hinj w h .media refer).mono fun m t ⟨h1, h2, h3⟩ => PPost.bind (PPost.modify (PPost.pure (rest m _ h3 fun x hx => ?_))))
      obtain ⟨y, g1, g2, -⟩ := h1.obj
      have hx : t.reg.obj m = some x := hx
      rw [g1] at hx; cases hx; exact .inl g2

theorem pushMedia_named (hinj : ∀ i j, E.addr i = E.addr j → i = j) {s : PS} (w : WorldOf E s) (h : NamesOf E T R D B s) (k : Nat) :
    PPost (pushMedia E k) (fun _ t => ∀ r, s.attr k "refer" = some r → ∃ m l, t.objs = m :: l ∧ Alloc E t m ∧ ∀ x, t.reg.obj m = some x → x.id = r ∨ B r m) s := by
  unfold pushMedia
  refine PPost.bind (PPost.get (PPost.bind (PPost.attr! fun id hi => ?_)))
  dsimp only
  cases hr : s.attr k "refer" with
  | some r =>
    dsimp only
    split
    · exact PPost.err
    · refine PPost.bind ((pushRefer_named hinj w h id r).mono fun m t h => PPost.modify ?_)
      rintro r' ⟨⟩
      exact ⟨m, t.objs, rfl, h⟩
  | none => exact fun _ _ _ r hc => nomatch hc
end

/-- A media element that refers to another one has an object with that identifier, or shares the object of an element with that name, or the settings object. -/
def ShareK (E : PRead) (f : Nat → Nat) (g : List Note) (s : PS) : Prop :=
  ∀ (j : Nat) n r, g[j]? = some n → n.tag = "media" → n.get "refer" = some r → Alloc E s (f j) ∧ ∀ x, s.reg.obj (f j) = some x →
    x.id = r ∨ s.reg.settings = some (f j) ∨ ∃ (k : Nat) (m : Note), g[k]? = some m ∧ m.tag = "media" ∧ m.kind = none ∧ m.get "id" = some r ∧ f k = f j

theorem ShareK.step {E : PRead} {f f' : Nat → Nat} {g l : List Note} {s t : PS} (h : ShareK E f g s) (hf : ∀ k, k < g.length → f' k = f k) (he : EvKeep E s t) :
    ∀ (j : Nat) n r, g[j]? = some n → n.tag = "media" → n.get "refer" = some r → Alloc E t (f' j) ∧ ∀ x, t.reg.obj (f' j) = some x →
    x.id = r ∨ t.reg.settings = some (f' j) ∨ ∃ (k : Nat) (m : Note), (g ++ l)[k]? = some m ∧ m.tag = "media" ∧ m.kind = none ∧ m.get "id" = some r ∧ f' k = f' j := by
  intro j n r h1 h2 h3
  obtain ⟨h4, h5⟩ := h j n r h1 h2 h3
  have hj := (List.getElem?_eq_some_iff.1 h1).1
  rw [hf j hj]
  refine ⟨h4.mono he.1, fun x hx => ?_⟩
  obtain ⟨y, g1, g2⟩ := he.2.1 _ h4 x hx
  rw [g2.id, he.2.2]
  refine (h5 y g1).imp_right (Or.imp_right ?_)
  rintro ⟨k, m, a1, a2, a3, a4, a5⟩
  have hk := (List.getElem?_eq_some_iff.1 a1).1
  exact ⟨k, m, by rw [List.getElem?_append_left hk]; exact a1, a2, a3, a4, by rw [hf k hk]; exact a5⟩

theorem shareK_extra {E : PRead} (hinj : ∀ i j, E.addr i = E.addr j → i = j) (scr : Rect) (z0 : Nat) :
    Extra E scr z0 (fun f g S s => NameK E f g S s ∧ ShareK E f g s) where
  same f g S s y al ca hU h := ⟨h.1, h.2⟩
  imp f g S s s2 par pt x e r y nt hn ht hk hp := by
    refine ⟨(nameK_extra hinj scr z0).imp f g S s s2 par pt x e r y nt hn ht hk.1 hp, ?_⟩
    obtain ⟨b1, b2, b3, b4, b5, b6, b7, b8, b9, b10, b11, b12, b13⟩ := ht.push_base hn
    have htg : nt.tag = "importBase" := by rw [b2, ← b4]; exact (table_objs e b3).2.2.2.2.2.2.1.1 hp
    intro j n r hj h2 h3
    rcases append_key hj with ⟨-, hj⟩ | ⟨-, rfl⟩
    · exact hk.2.step (fun _ _ => rfl) (evKeep_same b10 (by rw [b13]; exact Nat.le_refl _)) j n r hj h2 h3
    · rw [htg] at h2; exact absurd h2 (by decide)
  pop f g O S s k nt e n a t hj hpi ht hk h1 h2 h3 h4 h5 h6 := by
    refine ⟨(nameK_extra hinj scr z0).pop f g O S s k nt e n a t hj hpi ht hk.1 h1 h2 h3 h4 h5 h6, ?_⟩
    have := hk.2.step (l := []) (fun _ _ => rfl) (evKeep_pop (E := E) n e.pop k s a t h4)
    rwa [List.append_nil] at this
  push f f' g S s s2 par pt x e r y nt proc a t hn ht hk himp hrun hpu hj hf ht' := by
    refine ⟨(nameK_extra hinj scr z0).push f f' g S s s2 par pt x e r y nt proc a t hn ht hk.1 himp hrun hpu hj hf ht', ?_⟩
    obtain ⟨b1, b2, b3, b4, b5, b6, b7, b8, b9, b10, b11, b12, b13⟩ := ht.push_base hn
    have hev := evKeep_push hinj proc e.push s.nelt himp s2 a t hrun
    have hev' : EvKeep E s t := (evKeep_pre E).trans (evKeep_same b10 (by rw [b13]; exact Nat.le_refl _)) hev
    intro j n r hj h2 h3
    rcases append_key hj with ⟨-, hj⟩ | ⟨hl, rfl⟩
    · exact hk.2.step hf hev' j n r hj h2 h3
    · have c4 : e.push = .media := (table_objs e b3).2.2.2.2.2.1.2 (b4.trans (b2.symm.trans h2))
      rw [c4] at hrun
      obtain ⟨D, hnm⟩ := hk.1
      have hnm2 : NamesOf E (rootName g) (referName g) D (mediaName f s2.reg D g) s2 := by
        unfold NamesOf; rw [b10, b12, b13]; exact hnm
      obtain ⟨m, l, e1, e2, e3⟩ := pushMedia_named hinj b5 hnm2 s.nelt a t hrun r (by rw [b8]; exact h3)
      have hfm : f' g.length = m := by
        have := ht'.stack
        rw [b1, List.filter_cons_of_pos (by rw [objAt_last, h2]; decide), List.map_cons, e1] at this
        exact (List.cons.inj this).1.symm
      rw [hl, hfm]
      refine ⟨e2, fun x hx => ?_⟩
      rcases e3 x hx with g1 | ⟨k, w, a1, a2, a3, a4, a5⟩
      · exact .inl g1
      · right
        have hk := (List.getElem?_eq_some_iff.1 a1).1
        rcases a5 with a5 | ⟨a5, -⟩
        · exact .inr ⟨k, w, by rw [List.getElem?_append_left hk]; exact a1, a2, a3, a4, by rw [hf k hk]; exact a5⟩
        · exact .inl (by rw [hev.2.2]; exact a5)

theorem shareK_init {E : PRead} (f : Nat → Nat) (W H : Int) (z : Nat) (reg : Reg) (n : Nat) : ShareK E f [] (PS.init W H z reg n) := fun j n r h => by simp at h

end Ginga
