import Verif.Model.Load
import Verif.Props.C51
import Verif.Proofs.Steps
import Verif.Proofs.Tables
/-!
# C52: accepted documents are well formed
-/
namespace Ginga

/-! ## Addresses -/

theorem Reg.get_some {r : Reg} {o : Nat} {x : RObj} : r.get o = some x ↔ r.has o x := by
  unfold Reg.get Reg.has
  split <;> simp_all

theorem fst_inj {α β : Type} : ∀ {l : List (α × β)}, (l.map Prod.fst).Nodup → ∀ {a : α} {u v : β}, (a, u) ∈ l → (a, v) ∈ l → u = v
  | [], _, _, _, _, h, _ => by cases h
  | p :: l, hn, a, u, v, h, h' => by
    rw [List.map_cons, List.nodup_cons] at hn
    rcases List.mem_cons.1 h with h | h <;> rcases List.mem_cons.1 h' with h' | h'
    · rw [← h] at h'; exact (Prod.mk.inj h').2.symm
    · exact absurd (List.mem_map.2 ⟨_, h', by rw [← h]⟩) hn.1
    · exact absurd (List.mem_map.2 ⟨_, h, by rw [← h']⟩) hn.1
    · exact fst_inj hn.2 h h'

theorem Reg.eventAt_some {r : Reg} (hu : ∀ o o' x x' a e e', r.obj o = some x → r.obj o' = some x' → (a, e) ∈ x.events → (a, e') ∈ x'.events → o = o')
    (hn : ∀ o x, r.obj o = some x → (x.events.map Prod.fst).Nodup) {a o : Nat} {v : REv} :
    r.eventAt a = some (o, v) ↔ ∃ x, r.has o x ∧ (a, v) ∈ x.events := by
  have key : ∀ (o : Nat) (v : REv) (l : List Nat), (∀ o ∈ l, o ∈ r.objects) → (l.findSome? fun o => (r.obj o).bind fun x => (x.events.find? fun p => p.1 == a).map fun p => (o, p.2)) =
      some (o, v) → ∃ x, r.has o x ∧ (a, v) ∈ x.events := by
    intro o v l hl h
    obtain ⟨o', ho', h⟩ := List.exists_of_findSome?_eq_some h
    obtain ⟨x, hx, h⟩ := Option.bind_eq_some_iff.1 h
    obtain ⟨p, hp, h⟩ := Option.map_eq_some_iff.1 h
    obtain ⟨rfl, rfl⟩ : o' = o ∧ p.2 = v := by simpa using h
    have h1 := List.mem_of_find?_eq_some hp
    have h2 : p.1 = a := by simpa using List.find?_some hp
    exact ⟨x, ⟨hl _ ho', hx⟩, by rw [← h2]; exact h1⟩
  constructor
  · exact key _ _ _ fun _ h => h
  · rintro ⟨x, ⟨ho, hx⟩, hv⟩
    cases hc : r.eventAt a with
    | none =>
      exfalso
      have := List.findSome?_eq_none_iff.1 hc o ho
      rw [hx] at this
      simp at this
      exact this _ _ hv rfl
    | some q =>
      obtain ⟨x', ⟨ho', hx'⟩, hv'⟩ := key q.1 q.2 _ (fun _ h => h) hc
      have e1 : o = q.1 := hu o q.1 x x' a v q.2 hx hx' hv hv'
      subst e1
      obtain rfl : x = x' := by rw [hx] at hx'; simpa using hx'
      have := fst_inj (hn _ _ hx) hv hv'
      rw [this]

theorem sum_mem_le : ∀ {l : List Nat} {a : Nat}, a ∈ l → a ≤ l.sum
  | b :: l, a, h => by
    rcases List.mem_cons.1 h with rfl | h
    · simp
    · have := sum_mem_le h; simp; omega

theorem Reg.lt_bound {r : Reg} {o : Nat} {x : RObj} (h : r.has o x) : o < r.bound ∧ ∀ p ∈ x.events, p.1 < r.bound := by
  have h1 : o + 1 + ((r.obj o).map fun x => (x.events.map fun p => p.1 + 1).sum).getD 0 ≤ r.bound := sum_mem_le (List.mem_map.2 ⟨o, h.1, rfl⟩)
  rw [h.2] at h1
  simp only [Option.map_some, Option.getD_some] at h1
  refine ⟨by omega, fun p hp => ?_⟩
  have : p.1 + 1 ≤ (x.events.map fun p => p.1 + 1).sum := sum_mem_le (List.mem_map.2 ⟨p, hp, rfl⟩)
  omega

/-! ## Depth -/

/-- The number of steps from an object to the root. -/
inductive DepthOf (r : Reg) : Nat → Nat → Prop
  | root : DepthOf r r.root 0
  | up {o x p n} : r.obj o = some x → x.parent = some p → DepthOf r p n → DepthOf r o (n + 1)

theorem UpToRoot.depth {r : Reg} {o : Nat} (h : UpToRoot r o) : ∃ n, DepthOf r o n := by
  induction h with
  | root => exact ⟨0, .root⟩
  | up h1 h2 _ ih => obtain ⟨n, hn⟩ := ih; exact ⟨n + 1, .up h1 h2 hn⟩

theorem DepthOf.uniq {r : Reg} (hr : ∃ x, r.obj r.root = some x ∧ x.parent = none) {o n m : Nat} (h : DepthOf r o n) (h' : DepthOf r o m) : n = m := by
  obtain ⟨y, hy, hy'⟩ := hr
  induction h generalizing m with
  | root =>
    cases h' with
    | root => rfl
    | up h1 h2 => rw [hy] at h1; cases h1; rw [hy'] at h2; cases h2
  | @up o x p n h1 h2 h3 ih =>
    cases h' with
    | root => rw [hy] at h1; cases h1; rw [hy'] at h2; cases h2
    | up g1 g2 g3 =>
      rw [h1] at g1; cases g1
      rw [h2] at g2; cases g2
      rw [ih g3]

/-! ## The document -/

/-- What a rule of a switch chooses is a component of the switch, or is not what a port of the switch leads to. -/
def RulesOwn (t : PS) : Prop := ∀ o y, t.reg.has o y → ∀ q ∈ t.rules o, (∃ x, t.reg.has q.1 x ∧ x.parent = some o) ∨
  ∀ sp ∈ t.sports o, ∀ a ∈ sp.2, ∃ o' x v, t.reg.has o' x ∧ (a, v) ∈ x.events ∧ o' ≠ q.1

theorem RObj.lambda_mem {x : RObj} (h : EvOk x) : ∃ v : REv, (x.lambda, v) ∈ x.events ∧ v.typ = .presentation ∧ v.id = "@lambda" := by
  obtain ⟨p, hp, h1, h2⟩ := h.lam
  have := (getEvent_some h (t := .presentation) (id := "@lambda") (p := p)).2 ⟨hp, h1, h2⟩
  unfold RObj.lambda
  rw [this]
  exact ⟨p.2, hp, h1, h2⟩

theorem RObj.lambda_uniq {x : RObj} (h : EvOk x) {a : Nat} {v : REv} (hv : (a, v) ∈ x.events) (h1 : v.typ = .presentation) (h2 : v.id = "@lambda") : a = x.lambda := by
  have := (getEvent_some h (t := .presentation) (id := "@lambda") (p := (a, v))).2 ⟨hv, h1, h2⟩
  unfold RObj.lambda
  rw [this]; rfl

theorem spare_iff (r : Reg) (e : Nat) : r.spare e = true ↔ r.eventAt e = none ∧ (e < r.bound ∨ ∃ x, r.get (e - r.bound) = some x) := by
  unfold Reg.spare
  simp [Option.isSome_iff_exists]

theorem docOf_wf {E : PRead} {t : PS} (hw : WorldOf E t) (hr : RulesOwn t) (env : Env) : DocWF (docOf t env) := by
  have hat : ∀ {a o : Nat} {v : REv}, t.reg.eventAt a = some (o, v) ↔ ∃ x, t.reg.has o x ∧ (a, v) ∈ x.events := Reg.eventAt_some hw.evUniq hw.evNodup
  have hget : ∀ {o x}, t.reg.has o x → docObj t o = realObj t o x := by
    intro o x h
    unfold docObj
    rw [Reg.get_some.2 h]
  have hget' : ∀ {o}, t.reg.get o = none → docObj t o = noObj t.reg o := by
    intro o h
    unfold docObj
    rw [h]
  have hev : ∀ {o x a v}, t.reg.has o x → (a, v) ∈ x.events → docEv t.reg a = { typ := v.typ, obj := o, id := v.id, begin_ := v.beg, end_ := v.fin, label := v.label } := by
    intro o x a v h h'
    unfold docEv
    rw [hat.2 ⟨x, h, h'⟩]
  have hfresh : ∀ a, t.reg.bound ≤ a → t.reg.eventAt a = none := by
    intro a ha
    cases h : t.reg.eventAt a with
    | none => rfl
    | some q =>
      obtain ⟨x, hx, hm⟩ := hat.1 h
      have := (Reg.lt_bound hx).2 _ hm
      simp at this; omega
  have hfresho : ∀ a, t.reg.bound ≤ a → t.reg.get a = none := by
    intro a ha
    cases h : t.reg.get a with
    | none => rfl
    | some x => have := (Reg.lt_bound (Reg.get_some.1 h)).1; omega
  have hlam0 : ∀ o, t.reg.get o = none → docEv t.reg (t.reg.bound + o) = { typ := .presentation, obj := o, id := "@lambda" } := by
    intro o ho
    have hs : ¬ t.reg.spare (t.reg.bound + o) = true := by
      rw [spare_iff]
      rintro ⟨-, h | ⟨x, h⟩⟩
      · omega
      · rw [Nat.add_sub_cancel_left, ho] at h; cases h
    unfold docEv
    rw [hfresh _ (by omega)]
    simp only [hs]
    rw [Nat.add_sub_cancel_left]
    rfl
  have hlive : ∀ o x, t.reg.has o x → x.inDoc = true := by
    intro o x h
    obtain ⟨x', h1, h2⟩ := hw.inv.objs o h.1
    rw [h.2] at h1; cases h1; exact h2
  have hroot : ∃ y, t.reg.has t.reg.root y ∧ y.kind = .context ∧ y.parent = none := by
    obtain ⟨y, h1, h2, h3⟩ := hw.tree.root
    obtain ⟨y', g1, g2⟩ := hw.inv.rootKind
    rw [h1] at g1; cases g1
    exact ⟨y, ⟨hw.inv.inDoc _ _ h1 h3, h1⟩, g2, h2⟩
  have hset : ∃ b y, t.reg.settings = some b ∧ t.reg.has b y ∧ y.kind = .settings ∧ y.parent = some t.reg.root := by
    obtain ⟨b, y, h1, h2, h3, h4⟩ := hw.settings
    refine ⟨b, y, h1, ⟨?_, h2⟩, h3, h4⟩
    cases hd : y.inDoc with
    | true => exact hw.inv.inDoc _ _ h2 hd
    | false => rw [(hw.tree.out _ _ h2 hd).1] at h4; cases h4
  have hchi : ∀ p y, t.reg.has p y → ∀ c ∈ y.children, ∃ x, t.reg.has c x ∧ x.parent = some p := by
    intro p y hy c hc
    obtain ⟨x, h1, h2, h3⟩ := hw.tree.chi p y hy.2 c hc
    exact ⟨x, ⟨hw.inv.inDoc _ _ h1 h3, h1⟩, h2⟩
  have hpar : ∀ o x, t.reg.has o x → ∀ p, x.parent = some p → ∃ y, t.reg.has p y ∧ o ∈ y.children := by
    intro o x hx p hp
    obtain ⟨rt, hrt, -, hrt2⟩ := hroot
    have hne : o ≠ t.reg.root := by
      intro h
      have h1 := hx.2
      rw [h, hrt.2] at h1; cases h1; rw [hrt2] at hp; cases hp
    obtain ⟨p', y, h1, h2, h3⟩ := hw.tree.par o x hx.2 (hlive _ _ hx) hne
    rw [hp] at h1; cases h1
    refine ⟨y, ⟨?_, h2⟩, h3⟩
    cases hd : y.inDoc with
    | true => exact hw.inv.inDoc _ _ h2 hd
    | false => rw [(hw.tree.out _ _ h2 hd).2] at h3; cases h3
  have hparent : ∀ c p, (docObj t c).parent = some p ↔ ∃ x, t.reg.has c x ∧ x.parent = some p := by
    intro c p
    cases h : t.reg.get c with
    | none =>
      rw [hget' h]; unfold noObj
      constructor
      · intro h'; cases h'
      · rintro ⟨x, hx, -⟩; rw [Reg.get_some.2 hx] at h; cases h
    | some x =>
      have hx := Reg.get_some.1 h
      rw [hget hx]; unfold realObj
      constructor
      · intro h'; exact ⟨x, hx, h'⟩
      · rintro ⟨x', hx', h'⟩; have := hx'.2; rw [hx.2] at this; cases this; exact h'
  have hdep : ∀ o x, t.reg.has o x → ∃ n, DepthOf t.reg o n := fun o x h => (hw.tree.up o x h.2 (hlive o x h)).depth
  have hrt' : ∃ x, t.reg.obj t.reg.root = some x ∧ x.parent = none := by obtain ⟨y, h1, -, h3⟩ := hroot; exact ⟨y, h1.2, h3⟩
  refine ⟨fun o => Classical.epsilon fun n => DepthOf t.reg o n, ?_, ?_, ?_, ?_, ?_, ?_, ?_, ?_, ?_, ?_, ?_, ?_, ?_, ?_, ?_⟩
  all_goals simp only [docOf]
  · intro o
    cases h : t.reg.get o with
    | none => rw [hget' h]; unfold noObj; simp only []; rw [hlam0 o h]; rfl
    | some x =>
      have hx := Reg.get_some.1 h
      obtain ⟨v, h1, h2, h3⟩ := RObj.lambda_mem (hw.inv.ev o x hx.2)
      rw [hget hx]; unfold realObj; simp only []; rw [hev hx h1]; simp [EvDecl.isLambda, h2, h3]
  · intro o
    cases h : t.reg.get o with
    | none => rw [hget' h]; unfold noObj; simp only []; rw [hlam0 o h]
    | some x =>
      have hx := Reg.get_some.1 h
      obtain ⟨v, h1, h2, h3⟩ := RObj.lambda_mem (hw.inv.ev o x hx.2)
      rw [hget hx]; unfold realObj; simp only []; rw [hev hx h1]
  · intro e he
    cases h : t.reg.eventAt e with
    | some q =>
      obtain ⟨x, hx, hm⟩ := hat.1 (show t.reg.eventAt e = some (q.1, q.2) from h)
      rw [hev hx hm] at he ⊢
      simp only []
      rw [hget hx]; unfold realObj
      simp [EvDecl.isLambda] at he
      exact RObj.lambda_uniq (hw.inv.ev _ _ hx.2) hm he.1 he.2
    | none =>
      by_cases hs : t.reg.spare e = true
      · exfalso
        unfold docEv at he
        rw [h] at he
        simp [hs, EvDecl.isLambda] at he
      · have hc : t.reg.bound ≤ e ∧ t.reg.get (e - t.reg.bound) = none := by
          rw [spare_iff] at hs
          constructor
          · apply Decidable.byContradiction; intro hc; exact hs ⟨h, .inl (by omega)⟩
          · cases hg : t.reg.get (e - t.reg.bound) with
            | none => rfl
            | some x => exact absurd ⟨h, .inr ⟨x, hg⟩⟩ hs
        have := hlam0 _ hc.2
        rw [Nat.add_sub_cancel' hc.1] at this
        rw [this]
        simp only []
        rw [hget' hc.2]; unfold noObj
        simp only []
        show @Eq Nat e (t.reg.bound + (e - t.reg.bound))
        omega
  · intro o e
    cases h : t.reg.get o with
    | some x =>
      have hx := Reg.get_some.1 h
      rw [hget hx]; unfold realObj
      simp only []
      constructor
      · intro hm
        obtain ⟨p, hp, rfl⟩ := List.mem_map.1 hm
        rw [hev hx (a := p.1) (v := p.2) hp]
      · intro he
        cases hc : t.reg.eventAt e with
        | some q =>
          obtain ⟨x', hx', hm⟩ := hat.1 (show t.reg.eventAt e = some (q.1, q.2) from hc)
          rw [hev hx' hm] at he
          simp only [] at he
          rw [he] at hx'
          have := hx'.2; rw [hx.2] at this; cases this
          exact List.mem_map.2 ⟨_, hm, rfl⟩
        | none =>
          exfalso
          unfold docEv at he
          rw [hc] at he
          simp only [] at he
          have hlt := (Reg.lt_bound hx).1
          split at he
          · simp only [] at he; have he : @Eq Nat (t.reg.bound + e) o := he
            omega
          · rename_i hs
            simp only [] at he
            exact hs ((spare_iff _ _).2 ⟨hc, .inr ⟨x, by rw [he]; exact h⟩⟩)
    | none =>
      rw [hget' h]; unfold noObj
      simp only []
      constructor
      · intro hm
        rcases List.mem_cons.1 hm with rfl | hm
        · rw [hlam0 o h]
        · split at hm
          · rename_i hc
            obtain rfl : e = o - t.reg.bound := by simpa using hm
            have h1 := ((spare_iff _ _).1 hc.2).1
            unfold docEv
            rw [h1]
            simp only [hc.2, if_true]
            show (t.reg.bound + (o - t.reg.bound) : Nat) = o
            omega
          · cases hm
      · intro he
        cases hc : t.reg.eventAt e with
        | some q =>
          exfalso
          obtain ⟨x', hx', hm⟩ := hat.1 (show t.reg.eventAt e = some (q.1, q.2) from hc)
          rw [hev hx' hm] at he
          simp only [] at he
          rw [he] at hx'
          rw [Reg.get_some.2 hx'] at h; cases h
        | none =>
          unfold docEv at he
          rw [hc] at he
          simp only [] at he
          split at he
          · rename_i hs
            have he : @Eq Nat (t.reg.bound + e) o := he
            rw [if_pos ⟨by omega, by rw [← he, Nat.add_sub_cancel_left]; exact hs⟩]
            simp only [List.mem_cons, List.not_mem_nil, or_false]
            right; show @Eq Nat e (o - t.reg.bound); omega
          · rename_i hs
            have he : @Eq Nat (e - t.reg.bound) o := he
            refine List.mem_cons.2 (.inl ?_)
            show @Eq Nat e (t.reg.bound + o)
            have : t.reg.bound ≤ e := by
              apply Decidable.byContradiction
              intro hlt
              exact hs ((spare_iff _ _).2 ⟨hc, .inl (by omega)⟩)
            omega
  · intro p c
    rw [hparent]
    cases h : t.reg.get p with
    | some y =>
      have hy := Reg.get_some.1 h
      rw [hget hy]; unfold realObj
      constructor
      · intro hc; exact hchi p y hy c hc
      · rintro ⟨x, hx, hp⟩
        obtain ⟨y', hy', hm⟩ := hpar c x hx p hp
        have := hy'.2; rw [hy.2] at this; cases this; exact hm
    | none =>
      rw [hget' h]; unfold noObj
      constructor
      · intro hc; cases hc
      · rintro ⟨x, hx, hp⟩
        obtain ⟨y', hy', hm⟩ := hpar c x hx p hp
        rw [Reg.get_some.2 hy'] at h; cases h
  · intro p
    cases h : t.reg.get p with
    | some y => have hy := Reg.get_some.1 h; rw [hget hy]; unfold realObj; exact (hw.kids p y hy.2).1
    | none => rw [hget' h]; unfold noObj; exact List.nodup_nil
  · intro c p hp
    obtain ⟨x, hx, hxp⟩ := (hparent c p).1 hp
    obtain ⟨y, hy, hm⟩ := hpar c x hx p hxp
    rw [hget hy]; unfold realObj
    rcases (hw.kids p y hy.2).2 (fun hc => by rw [hc] at hm; cases hm) with hk | hk <;> simp [hk, RKind.toKind]
  · intro c p hp
    obtain ⟨x, hx, hxp⟩ := (hparent c p).1 hp
    obtain ⟨y, hy, hm⟩ := hpar c x hx p hxp
    obtain ⟨n, hn⟩ := hdep p y hy
    have e1 : DepthOf t.reg p (Classical.epsilon fun n => DepthOf t.reg p n) := Classical.epsilon_spec (p := fun n => DepthOf t.reg p n) ⟨n, hn⟩
    have e2 : DepthOf t.reg c (Classical.epsilon fun n => DepthOf t.reg c n) := Classical.epsilon_spec (p := fun n => DepthOf t.reg c n) ⟨n + 1, .up hx.2 hxp hn⟩
    have := DepthOf.uniq hrt' e2 (.up hx.2 hxp e1)
    omega
  · intro o c pr hm
    cases h : t.reg.get o with
    | some y =>
      have hy := Reg.get_some.1 h
      rw [hget hy] at hm ⊢; unfold realObj at hm ⊢
      rcases hr o y hy (c, pr) hm with h1 | h1
      · exact .inl ((hparent c o).2 h1)
      · refine .inr fun sp hsp a ha => ?_
        obtain ⟨o', x', v, g1, g2, g3⟩ := h1 sp hsp a ha
        rw [hev g1 g2]
        exact g3
    | none => rw [hget' h] at hm; unfold noObj at hm; cases hm
  · exact hw.objs
  · obtain ⟨y, h1, h2, h3⟩ := hroot
    rw [hget h1]; unfold realObj; simp [h2, RKind.toKind]
  · obtain ⟨y, h1, h2, h3⟩ := hroot
    rw [hget h1]; unfold realObj; exact h3
  · obtain ⟨b, y, h1, h2, h3, h4⟩ := hset
    rw [h1]; simp only [Option.getD_some]; rw [hget h2]; unfold realObj; simp [h3, RKind.toKind]
  · obtain ⟨b, y, h1, h2, h3, h4⟩ := hset
    rw [h1]; simp only [Option.getD_some]; rw [hget h2]; unfold realObj; exact h4
  · intro o
    cases h : t.reg.get o with
    | some y => have hy := Reg.get_some.1 h; rw [hget hy]; unfold realObj; exact hw.evNodup o y hy.2
    | none =>
      rw [hget' h]; unfold noObj
      simp only []
      split
      · rename_i hc
        refine List.nodup_cons.2 ⟨?_, by simp⟩
        simp only [List.mem_cons, List.not_mem_nil, or_false]
        show ¬ @Eq Nat (t.reg.bound + o) (o - t.reg.bound)
        have hb : 0 < t.reg.bound := by obtain ⟨y, h1, -⟩ := hroot; have := (Reg.lt_bound h1).1; omega
        omega
      · simp

/-- The document made from an accepted source is well formed, in so far as the rules of its switches choose among their own components. -/
theorem C52_wf_partial {E : PRead} (hinj : ∀ i j, E.addr i = E.addr j → i = j) {n : Nat} {W H : Int} {z : Nat} {x : Xml} {t : PS}
    (h : parseXml E n W H z x = .ok (some t)) (hr : RulesOwn t) (env : Env) : DocWF (docOf t env) := by
  obtain ⟨ns, f, hd⟩ := doc_tree hinj h
  exact docOf_wf hd.world hr env

/-- The table of switch ports is the same. -/
def SameSports (s t : PS) : Prop := t.sports = s.sports

theorem sameSports_atomic : PAtomic (fun _ => True) SameSports where
  refl _ := rfl
  trans h1 h2 := h2.trans h1
  names _ _ := trivial
  attr _ _ _ _ _ := rfl
  elt _ _ _ _ _ _ := rfl
  reg _ _ _ _ _ := rfl
  del _ _ := rfl
  nalloc _ := rfl
  objs _ _ := rfl
  refer _ _ := rfl
  conn _ _ := rfl
  props _ _ _ _ _ _ := rfl
  par _ _ _ := rfl
  pred _ _ _ := rfl

/-- The document made from an accepted source without switch ports is well formed, whatever its rules name. -/
theorem C52_wf_noport {E : PRead} (hinj : ∀ i j, E.addr i = E.addr j → i = j) {n : Nat} {W H : Int} {z : Nat} {x : Xml} {t : PS}
    (h : parseXml E n W H z x = .ok (some t)) (hx : ∀ y, SubElt x y → y.tag ≠ "switchPort") (env : Env) : DocWF (docOf t env) := by
  obtain ⟨ns, f, m, u, he⟩ := doc_treeP hinj (tabsK_rides E _ _).extra (fun f reg _ => ⟨rfl, fun _ => rfl⟩) h
  have hn : ∀ nt ∈ ns, nt.tag ≠ "switchPort" := by
    intro nt hnt ht
    obtain ⟨j, hj⟩ := List.getElem?_of_mem hnt
    exact hx _ (he.tree.main _ j nt (Nat.lt_succ_self j) hj (by rw [ht]; decide)).1 ht
  have hs : u.sports = fun _ => [] := he.extra.2 hn
  have hs' : SameSports u t := PRel.popNcl (sameSports_atomic.atom E) sameSports_atomic.objs (fun _ _ _ => rfl) m (fun _ => trivial) ⟨trivial, trivial, trivial⟩ u _ _ he.run
  refine docOf_wf he.tree.world (fun o y _ q _ => .inr fun sp hsp => ?_) env
  rw [show t.sports = _ from hs', hs] at hsp
  cases hsp

/-- Whether every rule chooses a component of the switch it is in. -/
def rulesOwnB (t : PS) : Bool :=
  t.reg.objects.all fun o => (t.rules o).all fun q => (t.reg.get q.1).any fun x => x.parent == some o

theorem rulesOwn_of {t : PS} (h : rulesOwnB t = true) : RulesOwn t := by
  intro o y hy q hq
  have h1 := List.all_eq_true.1 (List.all_eq_true.1 h o hy.1) q hq
  cases hg : t.reg.get q.1 with
  | none => rw [hg] at h1; simp at h1
  | some x => rw [hg] at h1; exact .inl ⟨x, Reg.get_some.1 hg, by simpa using h1⟩

/-- A document with a switch between a media and a context; `c` is the constituent of its rule and `ps` are its ports. -/
def docSwitch (ps : List Xml) (c : String) : Xml := .elem "ncl" [] [.elem "head" [] [.elem "ruleBase" [] [
    .elem "rule" [("id", "r"), ("var", "system.language"), ("comparator", "eq"), ("value", "pt")] []]],
  .elem "body" [] [.elem "port" [("id", "p"), ("component", "s")] [],
    .elem "switch" [("id", "s")] (ps ++ [.elem "bindRule" [("constituent", c), ("rule", "r")] [], .elem "defaultComponent" [("component", "d")] [],
      .elem "media" [("id", "a")] [], .elem "context" [("id", "d")] [.elem "media" [("id", "b")] []]])]]

/-- A switch port that leads to `c`. -/
def portTo (c : String) : Xml := .elem "switchPort" [("id", "q")] [.elem "mapping" [("component", c)] []]

example : parsedAnd (parseXml pread0 20 800 600 0 (docSwitch [portTo "a"] "a")) rulesOwnB = true := by decide +kernel
example : parsedAnd (parseXml pread0 20 800 600 0 (docSwitch [] "s")) (fun _ => true) = true := by decide +kernel

/-- A rule of a switch may name the switch itself, and a port of the switch may lead to it: starting the switch through the port starts the
switch, and not one of its components. -/
theorem C52_fails_self : ∃ t, parseXml pread0 20 800 600 0 (docSwitch [portTo "s"] "s") = .ok (some t) ∧ ∀ env, ¬ DocWF (docOf t env) := by
  have h : parsedAnd (parseXml pread0 20 800 600 0 (docSwitch [portTo "s"] "s"))
      (fun t => t.reg.objects.any fun o => (t.reg.get o).any fun x => x.parent != some o && ((t.rules o).any fun q => q.1 == o) &&
        (t.sports o).any fun sp => sp.2.any fun a => (docEv t.reg a).obj == o) = true := by decide +kernel
  unfold parsedAnd at h
  split at h
  · rename_i t ht
    refine ⟨t, ht, fun env ⟨rank, hw⟩ => ?_⟩
    obtain ⟨o, ho, h⟩ := List.any_eq_true.1 h
    cases hg : t.reg.get o with
    | none => rw [hg] at h; simp at h
    | some x =>
      rw [hg] at h
      simp only [Option.any_some, Bool.and_eq_true, bne_iff_ne, ne_eq, List.any_eq_true, beq_iff_eq] at h
      obtain ⟨⟨h1, q, hq, rfl⟩, sp, hsp, a, ha, hao⟩ := h
      have hd : docObj t q.1 = realObj t q.1 x := by unfold docObj; rw [hg]
      rcases hw.rules_child q.1 q.1 q.2 (by show (q.1, q.2) ∈ (docObj t q.1).rules; rw [hd]; exact hq) with hp | hp
      · have hp : (docObj t q.1).parent = some q.1 := hp
        rw [hd] at hp
        exact h1 hp
      · exact hp sp (by show sp ∈ (docObj t q.1).switchPorts; rw [hd]; exact hsp) a ha hao
  · cases h

end Ginga
