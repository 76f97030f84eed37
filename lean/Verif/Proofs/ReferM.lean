import Verif.Proofs.PopEnds
/-!
# References have media objects

Kept by the processing of every element.
-/
namespace Ginga

section
variable {E : PRead} (hinj : ∀ i j, E.addr i = E.addr j → i = j)

theorem ReferM.add {s : PS} (h : ReferM E s) {m : Nat} (ha : Alloc E s m) (hm : ∀ x, s.reg.obj m = some x → x.kind = .media ∨ x.kind = .settings) (id : String) :
    ReferM E { s with refer := referAdd id m s.refer } := by
  intro q hq
  rcases mem_referAdd hq with rfl | hq
  · exact ⟨ha, hm⟩
  · exact h q hq

/-- The object `m` stands for a reference. -/
def MediaAt (E : PRead) (s : PS) (m : Nat) : Prop := Alloc E s m ∧ ∀ x, s.reg.obj m = some x → x.kind = .media ∨ x.kind = .settings

theorem MediaAt.keep {s t : PS} {m : Nat} (h : MediaAt E s m) (hk : EvKeep E s t) : MediaAt E t m := by
  refine ⟨h.1.mono hk.1, fun x hx => ?_⟩
  obtain ⟨y, h3, h4⟩ := hk.2.1 _ h.1 x hx
  rw [h4.kind]; exact h.2 y h3

theorem endRefer_referM {s : PS} (h : ReferM E s) (m : Nat) (hm : MediaAt E s m) (id : String) : PPost (do
    let parent ← peekComp
    regOp (.addAlias m id parent)
    PM.modify fun s => { s with refer := referAdd id m s.refer }
    pure m : PM Nat) (fun _ t => ReferM E t) s := by
  refine PPost.bind (PPost.peekComp fun p l x _ _ _ => PPost.bind (PPost.regOp fun b r hx => PPost.bind (PPost.modify (PPost.pure ?_))))
  have hk : EvKeep E s { s with reg := r } := ⟨Nat.le_refl _, fun o _ => exec_grows hx (by simp) o, (exec_mono hx).2.2⟩
  have h1 := h.keep hk rfl
  have h2 := hm.keep hk
  exact h1.add h2.1 h2.2 id

include hinj in
theorem newObject_mediaAt {s : PS} (w : WorldOf E s) (h : ReferM E s) (id : String) : PPost (newObject E .media id) (fun m t => ReferM E t ∧ MediaAt E t m) s := by
  refine ((newObject_post hinj w .media id).and ((evKeep_new hinj .media id s).and (newObject_refer E .media id s))).mono ?_
  rintro m t ⟨h1, h2, h3⟩
  refine ⟨h.keep h2 h3, ?_, ?_⟩
  · obtain ⟨x, hx, -⟩ := h1.obj
    exact h1.world.objAddr m x hx
  · intro x hx
    obtain ⟨y, hy, -, hk, -⟩ := h1.obj
    rw [hx] at hy; cases hy
    exact .inl hk

include hinj in
theorem pushRefer_referM {s : PS} (w : WorldOf E s) (h : ReferM E s) (id refer : String) : PPost (pushRefer E id refer) (fun _ t => ReferM E t) s := by
  unfold pushRefer
  refine PPost.bind (PPost.get ?_)
  dsimp only
  split
  · next o ho =>
    refine PPost.bind (PPost.pure (endRefer_referM h o ?_ id))
    split at ho
    · next q hq =>
      split at ho
      · next x hx =>
        split at ho
        · next hk =>
          cases ho
          refine ⟨w.objAddr _ x hx, fun y hy => ?_⟩
          obtain rfl : x = y := Option.some.inj (hx.symm.trans hy)
          exact hk
        · cases ho
      · cases ho
    · cases ho
  · refine PPost.bind (PPost.mono (P := fun m t => ReferM E t ∧ MediaAt E t m) ?_ fun m t h => endRefer_referM h.1 m h.2 id)
    refine PPost.bind (PPost.mono (P := fun m t => ReferM E t ∧ MediaAt E t m) ?_ fun m t h => PPost.bind (PPost.modify (PPost.pure ⟨h.1.add h.2.1 h.2.2 refer, h.2⟩)))
    split
    · next m hm => exact PPost.pure ⟨h, h _ (referIdx_mem hm)⟩
    · exact newObject_mediaAt hinj w h refer

theorem pushSettings_referM {s : PS} (w : WorldOf E s) (h : ReferM E s) (id : String) : PPost (pushSettings id) (fun _ t => ReferM E t) s := by
  unfold pushSettings
  refine PPost.bind (PPost.get (PPost.bind (PPost.some! fun m hm => ?_)))
  have hms : MediaAt E s m := by
    obtain ⟨b, x, h1, h2, h3, -⟩ := w.settings
    rw [h1] at hm; cases hm
    refine ⟨w.objAddr _ x h2, fun y hy => ?_⟩
    rw [h2] at hy; cases hy; exact .inr h3
  refine PPost.bind (PPost.mono (P := fun _ t => ReferM E t ∧ MediaAt E t m) ?_ fun _ t h => endRefer_referM h.1 m h.2 id)
  split
  · exact PPost.pure ⟨h, hms⟩
  next tmp ht =>
  split
  · exact PPost.ub
  next l keys hr =>
  refine PPost.bind (PPost.modify ?_)
  have h1 : ReferM E { s with refer := l } := by
    intro q hq
    rcases redirect_spec hr q hq with h2 | h2
    · exact h q h2
    · rw [h2.1]; exact hms
  refine PPost.bind ((PPost.forEach (I := fun t => ReferM E t ∧ MediaAt E t m) ⟨h1, hms⟩ ?_).mono ?_)
  · rintro a - t ⟨g1, g2⟩
    refine PPost.regOp fun b r hx => ?_
    have hk : EvKeep E t { t with reg := r } := ⟨Nat.le_refl _, fun o _ => exec_grows hx (by simp) o, (exec_mono hx).2.2⟩
    exact ⟨g1.keep hk rfl, g2.keep hk⟩
  · rintro - t ⟨g1, g2⟩
    split
    · exact PPost.pure ⟨g1, g2⟩
    · have hk : EvKeep E t { t with reg := { t.reg with obj := upd t.reg.obj tmp none } } := ⟨Nat.le_refl _, fun _ _ => Grows.upd (by rintro z ⟨⟩), rfl⟩
      exact PPost.modify ⟨g1.keep hk rfl, g2.keep hk⟩

theorem pushPlain_refer {s : PS} (id src type : String) : PPost (pushPlainMedia E id src type) (fun _ t => t.refer = s.refer) s :=
  (pushPlain_target id src type).mono fun _ _ h => h.1

include hinj in
theorem pushMedia_referM {s : PS} (w : WorldOf E s) (h : ReferM E s) (k : Nat) (hk : PRel (EvKeep E) (pushMedia E k)) : PPost (pushMedia E k) (fun _ t => ReferM E t) s := by
  intro a0 t0 hrun
  have hev := hk s a0 t0 hrun
  revert a0 t0 hrun hev
  have : PPost (pushMedia E k) (fun _ t => ReferM E t ∨ SameRefer s t) s := by
    unfold pushMedia
    refine PPost.bind (PPost.get (PPost.bind (PPost.attr! fun id hi => ?_)))
    dsimp only
    split
    · split
      · exact PPost.err
      · exact PPost.bind ((pushRefer_referM hinj w h id _).mono fun _ _ h => PPost.modify (.inl h))
    · split
      · refine PPost.bind ((pushSettings_referM w h id).mono fun _ _ h => ?_)
        split
        · exact PPost.abort
        · exact PPost.modify (.inl h)
      · exact PPost.bind ((pushPlain_refer id _ _).mono fun _ _ h => PPost.modify (.inr h))
  intro a t hrun hev
  rcases this a t hrun with h' | h'
  · exact h'
  · exact h.keep hev h'

include hinj in
theorem referM_extra (scr : Rect) (z0 : Nat) : Extra E scr z0 (fun _ _ _ s => ReferM E s) where
  same f g S s y al ca hU h := h
  imp f g S s s2 par pt x e r y nt hn ht hk hp := by
    obtain ⟨b1, b2, b3, b4, b5, b6, b7, b8, b9, b10, b11, b12, b13⟩ := ht.push_base hn
    exact hk.keep (evKeep_same b10 (Nat.le_of_eq b13.symm)) b12
  pop f g O S s k nt e n a t hj hpi ht hk h1 h2 h3 h4 h5 h6 := by
    refine hk.keep (evKeep_pop n e.pop k s a t h4) ?_
    by_cases hr : e.pop = .region
    · rw [hr] at h4
      exact PRel.popRegion (sameRefer_atom E) (fun _ _ _ => rfl) s a t h4
    · exact PRel.pop (sameRefer_atom E) (fun _ _ => rfl) n e.pop k (fun _ _ _ => rfl) (fun _ _ _ _ => rfl) (fun _ _ _ => rfl) hr (fun _ _ => trivial) ⟨fun _ => trivial, fun _ => ⟨trivial, trivial, trivial⟩⟩ s a t h4
  push f f' g S s s2 par pt x e r y nt proc a t hn ht hk himp hrun hpu hj hf ht' := by
    obtain ⟨b1, b2, b3, b4, b5, b6, b7, b8, b9, b10, b11, b12, b13⟩ := ht.push_base hn
    have hk2 : ReferM E s2 := hk.keep (evKeep_same b10 (Nat.le_of_eq b13.symm)) b12
    have hev := evKeep_push hinj proc e.push s.nelt himp
    by_cases c4 : e.push = .media
    · rw [c4] at hrun hev
      exact pushMedia_referM hinj b5 hk2 s.nelt hev a t hrun
    refine hk2.keep (hev s2 a t hrun) ?_
    by_cases c1 : e.push = .ncl
    · rw [c1] at hrun; exact pushNcl_refer s.nelt s2 a t hrun
    by_cases c2 : e.push = .context
    · rw [c2] at hrun; exact pushContext_refer E s.nelt s2 a t hrun
    by_cases c3 : e.push = .switch
    · rw [c3] at hrun; exact pushSwitch_refer E s.nelt s2 a t hrun
    by_cases c5 : e.push = .region
    · rw [c5] at hrun
      exact PRel.pushRegion (sameRefer_atom E) E s.nelt (fun _ _ _ => rfl) s2 a t hrun
    exact PRel.pushC (sameRefer_atom E) proc e.push s.nelt c5 himp c1 c2 c3 c4 (fun _ _ => trivial) (fun _ _ => trivial) ⟨fun _ => trivial, fun _ => trivial⟩ s2 a t hrun

/-- What rides along: objects, and the references. -/
def SettleK (E : PRead) (g : List Note) (S : List Nat) (s : PS) : Prop := ∃ f, TreeK E f g S s ∧ ReferM E s

include hinj in
theorem settleK_rides (scr : Rect) (z0 : Nat) : Rides E scr z0 (SettleK E) := extra_rides hinj (referM_extra hinj scr z0)

theorem SettleK.refs {g : List Note} {S : List Nat} {s : PS} (h : SettleK E g S s) : RefsOk E s := by
  obtain ⟨f, h1, h2⟩ := h
  exact ⟨h1.world, h2⟩

include hinj in
theorem settleK_init (W H : Int) (z : Nat) {reg : Reg} (h : newDoc (E.addr 0) (E.addr 1) (E.addr 2) (E.addr 3) (E.addr 4) = .ok reg) : SettleK E [] [] (PS.init W H z reg 5) := by
  obtain ⟨f, hf⟩ := tree_init hinj W H z h
  exact ⟨f, hf, fun q hq => by cases hq⟩
end

end Ginga
