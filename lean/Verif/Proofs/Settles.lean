import Verif.Proofs.Fin
import Verif.Proofs.PropK
import Verif.Props.C52
/-!
# References are resolved in finitely many steps

`PSettles p s`: with a large enough bound, the function has a result, and the same for all large bounds.
`resolveIface_settles`: the interface that a component's name and a port lead to.
-/
namespace Ginga

/-- With a large enough bound `p` has a result in the state `s`, which does not depend on the bound. -/
def PSettles {α : Type} (p : Nat → PM α) (s : PS) : Prop := ∃ N r, r ≠ .fuel ∧ ∀ n, N ≤ n → p n s = r

section
variable {α β : Type} {s : PS}

theorem PSettles.const {m : PM α} (h : m s ≠ .fuel) : PSettles (fun _ => m) s := ⟨0, m s, h, fun _ _ => rfl⟩
theorem PNF.settles {m : PM α} (h : PNF m) : PSettles (fun _ => m) s := .const (h.ne s)

theorem PSettles.bind {p : Nat → PM α} {q : Nat → α → PM β} (h : PSettles p s)
    (hq : ∀ n a t, p n s = .ok (some (a, t)) → PSettles (fun n => q n a) t) : PSettles (fun n => p n >>= q n) s := by
  obtain ⟨N, r, hr, hN⟩ := h
  cases r with
  | fuel => exact absurd rfl hr
  | abort => exact ⟨N, .abort, by simp, fun n hn => by show (p n s).bind _ = _; rw [hN n hn]; rfl⟩
  | ub => exact ⟨N, .ub, by simp, fun n hn => by show (p n s).bind _ = _; rw [hN n hn]; rfl⟩
  | ok o =>
    cases o with
    | none => exact ⟨N, .ok none, by simp, fun n hn => by show (p n s).bind _ = _; rw [hN n hn]; rfl⟩
    | some v =>
      obtain ⟨a, t⟩ := v
      obtain ⟨M, r', hr', hM⟩ := hq N a t (hN N (Nat.le_refl _))
      refine ⟨max N M, r', hr', fun n hn => ?_⟩
      show (p n s).bind _ = _
      rw [hN n (by omega)]
      exact hM n (by omega)

theorem PSettles.bindP {m : PM α} {q : Nat → α → PM β} (h : PNF m) (hq : PPost m (fun a t => PSettles (fun n => q n a) t) s) : PSettles (fun n => m >>= q n) s :=
  h.settles.bind fun _ a t ht => hq a t ht

theorem PSettles.succ {p : Nat → PM α} (h : PSettles (fun n => p (n + 1)) s) : PSettles p s := by
  obtain ⟨N, r, hr, hN⟩ := h
  refine ⟨N + 1, r, hr, fun n hn => ?_⟩
  obtain ⟨m, rfl⟩ : ∃ m, n = m + 1 := ⟨n - 1, by omega⟩
  exact hN m (by omega)

theorem PSettles.congr {p q : Nat → PM α} (h : PSettles p s) (he : ∀ n, q n = p n) : PSettles q s := by
  obtain ⟨N, r, hr, hN⟩ := h
  exact ⟨N, r, hr, fun n hn => by rw [he]; exact hN n hn⟩

/-- Loops with an invariant. -/
theorem PSettles.forEach {f : Nat → α → PM Unit} {I : PS → Prop} : ∀ {l : List α} {s : PS}, I s →
    (∀ a ∈ l, ∀ s, I s → PSettles (fun n => f n a) s ∧ ∀ n, PPost (f n a) (fun _ t => I t) s) → PSettles (fun n => PM.forEach (f n) l) s
  | [], _, _, _ => (PNF.pure' ()).settles
  | a :: l, s, h, hf => by
    refine PSettles.bind (q := fun n _ => PM.forEach (f n) l) (hf a (by simp) s h).1 fun n b t ht => ?_
    exact PSettles.forEach ((hf a (by simp) s h).2 n b t ht) fun b hb => hf b (by simp [hb])
end

/-! ## References -/

/-- The objects that stand for references are media objects. -/
def ReferM (E : PRead) (s : PS) : Prop := ∀ q ∈ s.refer, Alloc E s q.2 ∧ ∀ x, s.reg.obj q.2 = some x → x.kind = .media ∨ x.kind = .settings

theorem resolveComponent_spec {s : PS} (o k : Nat) : PPost (resolveComponent o k) (fun c t => t = s ∧ ∃ a, s.component o a = some c) s := by
  unfold resolveComponent
  exact PPost.bind (PPost.get (PPost.bind (PPost.attr! fun a _ => PPost.orErr fun c hc => ⟨rfl, a, hc⟩)))

theorem childByIdOrAlias_mem {r : Reg} {l : List Nat} {id : String} {c : Nat} (h : childByIdOrAlias r l id = some c) : c ∈ l := by
  unfold childByIdOrAlias at h
  split at h
  · next h1 => cases h; exact List.mem_of_find?_eq_some h1
  · exact List.mem_of_find?_eq_some h

/-- The objects of a document are not nested deeper than some number. -/
theorem TreeInv.bounded {r : Reg} (hi : RegInv r) (ht : TreeInv r) : ∃ B, ∀ o x, r.has o x → ∀ d, DepthOf r o d → d ≤ B := by
  obtain ⟨y, hy, hy', -⟩ := ht.root
  have key : ∀ l : List Nat, (∀ o ∈ l, o ∈ r.objects) → ∃ B, ∀ o ∈ l, ∀ d, DepthOf r o d → d ≤ B := by
    intro l
    induction l with
    | nil => exact fun _ => ⟨0, by simp⟩
    | cons a l ih =>
      intro h
      obtain ⟨B, hB⟩ := ih fun o ho => h o (by simp [ho])
      obtain ⟨x, hx, hd⟩ := hi.objs a (h a (by simp))
      obtain ⟨n, hn⟩ := (ht.up a x hx hd).depth
      refine ⟨max B n, fun o ho d hd => ?_⟩
      rcases List.mem_cons.1 ho with rfl | ho
      · have := DepthOf.uniq ⟨y, hy, hy'⟩ hd hn; omega
      · have := hB o ho d hd; omega
  obtain ⟨B, hB⟩ := key r.objects fun _ h => h
  exact ⟨B, fun o x hx d hd => hB o hx.1 d hd⟩

theorem resolveIface_settles {E : PRead} {s : PS} (w : WorldOf E s) (hr : ReferM E s) (ctx k : Nat) : PSettles (fun n => resolveIface n ctx k) s := by
  have hi := w.inv
  have ht := w.tree
  obtain ⟨B, hB⟩ := ht.bounded hi
  obtain ⟨y0, hy0, hy0', hy0d⟩ := ht.root
  have step : ∀ ctx k, (∀ o j d, DepthOf s.reg ctx d → DepthOf s.reg o (d + 1) → d + 1 ≤ B → PSettles (fun n => resolveIface n o j) s) →
      PSettles (fun n => resolveIface n ctx k) s := by
    intro ctx k ih
    refine PSettles.succ ?_
    unfold resolveIface
    refine PSettles.bindP (PNF.resolveComponent _ _) ((resolveComponent_spec ctx k).mono ?_)
    rintro o t ⟨rfl, a, ha⟩
    refine PSettles.bindP (PNF.object _) (PPost.object fun x hx => PSettles.bindP PNF.get (PPost.get ?_))
    split
    · exact (PNF.some! _).settles
    split
    · split
      · exact (PNF.pure _).settles
      · exact (PNF.orErr _).settles
    · split
      · exact (PNF.pure _).settles
      · exact (PNF.orErr _).settles
    · next hk =>
      split
      · exact (PNF.orErr _).settles
      next hoc =>
      split
      · exact (PNF.orErr _).settles
      next j hj =>
      -- the component is a child of the context
      have hch : ∃ y, t.reg.obj ctx = some y ∧ o ∈ y.children := by
        unfold PS.component at ha
        split at ha
        · cases ha
        next y hy =>
        split at ha
        · cases ha; exact absurd rfl hoc
        split at ha
        · next h => cases ha; exact ⟨y, hy, childByIdOrAlias_mem h⟩
        · have := (hr _ (referIdx_mem ha)).2 x hx
          rw [hk] at this
          rcases this with h | h <;> cases h
      obtain ⟨y, hy, ho⟩ := hch
      have hyd : y.inDoc = true := by
        cases h : y.inDoc with
        | true => rfl
        | false => rw [(ht.out ctx y hy h).2] at ho; cases ho
      obtain ⟨d, hd⟩ := (ht.up ctx y hy hyd).depth
      obtain ⟨x', hx', hp, hxd⟩ := ht.chi ctx y hy o ho
      obtain rfl : x' = x := Option.some.inj (hx'.symm.trans hx)
      have hdo : DepthOf t.reg o (d + 1) := .up hx hp hd
      have hxh : t.reg.has o x' := ⟨hi.inDoc o x' hx hxd, hx⟩
      refine PSettles.bindP (PNF.parentElt _) (PPost.parentElt fun p hp hc => ?_)
      refine PSettles.bindP ?_ (PPost.mono (P := fun c u => u = t ∧ ∃ z, t.reg.has c z) ?_ ?_)
      · split
        · exact PNF.pure _
        · exact PNF.bind (PNF.attr! _ _) fun _ => PNF.bind (PNF.some! _) fun _ => PNF.bind (PNF.object _) fun _ => PNF.ite (PNF.pure _) PNF.abort
      · split
        · exact PPost.pure ⟨rfl, y0, hi.inDoc _ _ hy0 hy0d, hy0⟩
        · refine PPost.bind (PPost.attr! fun id _ => PPost.bind (PPost.some! fun c hc => PPost.bind (PPost.object fun z hz => ?_)))
          split
          · obtain ⟨z', hz', -⟩ := (hi.byId id c).1 hc
            exact PPost.pure ⟨rfl, z', hz'⟩
          · exact PPost.abort
      · rintro c u ⟨rfl, z, hz⟩
        refine PSettles.bindP (PNF.object _) (PPost.object fun z' hz' => ?_)
        obtain rfl : z' = z := Option.some.inj (hz'.symm.trans hz.2)
        split
        · exact PNF.err.settles
        · next hne =>
          have hid : z'.id = x'.id := Classical.byContradiction fun h => hne h
          have e1 := (hi.byId x'.id c).2 ⟨z', hz, hid⟩
          have e2 := (hi.byId x'.id o).2 ⟨x', hxh, rfl⟩
          obtain rfl : c = o := Option.some.inj (e1.symm.trans e2)
          exact ih c j d hd hdo (hB c x' hxh _ hdo)
    · exact (PNF.orErr _).settles
  have key : ∀ m ctx k, (∀ d, DepthOf s.reg ctx d → B < d + m) → PSettles (fun n => resolveIface n ctx k) s := by
    intro m
    induction m with
    | zero => exact fun ctx k h => step ctx k fun o j d h1 h2 h3 => by have := h d h1; omega
    | succ m ih =>
      refine fun ctx k h => step ctx k fun o j d h1 h2 h3 => ih o j fun d' h' => ?_
      have := DepthOf.uniq ⟨y0, hy0, hy0'⟩ h2 h'
      have := h d h1
      omega
  exact key (B + 1) ctx k fun d _ => by omega

end Ginga
