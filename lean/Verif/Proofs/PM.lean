import Verif.Model.Parser
/-!
# Reasoning about parser functions

`PPost m Q s`: if `m` succeeds from `s`, then `Q` holds of the result and the state.
`PRel R m`: if `m` succeeds, then the states before and after are related by `R`.
-/
namespace Ginga

/-- Partial correctness. -/
def PPost {α : Type} (m : PM α) (Q : α → PS → Prop) (s : PS) : Prop := ∀ a t, m s = .ok (some (a, t)) → Q a t

theorem PM.pure_eq {α : Type} (a : α) (s : PS) : (Pure.pure a : PM α) s = .ok (some (a, s)) := rfl
theorem PM.pure'_eq {α : Type} (a : α) (s : PS) : (PM.pure a : PM α) s = .ok (some (a, s)) := rfl

theorem PM.bind_ok {α β : Type} {m : PM α} {f : α → PM β} {s : PS} {b : β} {t : PS} :
    (m >>= f) s = .ok (some (b, t)) ↔ ∃ a u, m s = .ok (some (a, u)) ∧ f a u = .ok (some (b, t)) := by
  show PM.bind m f s = _ ↔ _
  unfold PM.bind
  cases h : m s with
  | ok r =>
    cases r with
    | none => simp [Res.bind]
    | some p =>
      obtain ⟨a, u⟩ := p
      simp only [Res.bind]
      constructor
      · intro h; exact ⟨a, u, rfl, h⟩
      · rintro ⟨a', u', h1, h2⟩
        simp only [Res.ok.injEq, Option.some.injEq, Prod.mk.injEq] at h1
        obtain ⟨rfl, rfl⟩ := h1
        exact h2
  | abort => simp [Res.bind]
  | ub => simp [Res.bind]
  | fuel => simp [Res.bind]

section
variable {α β : Type} {s : PS}

theorem PPost.pure {Q : α → PS → Prop} {a : α} (h : Q a s) : PPost (Pure.pure a : PM α) Q s := by
  intro b t hb
  change Res.ok (some (a, s)) = _ at hb
  simp only [ Res.ok.injEq, Option.some.injEq, Prod.mk.injEq] at hb
  obtain ⟨rfl, rfl⟩ := hb
  exact h

theorem PPost.pure' {Q : α → PS → Prop} {a : α} (h : Q a s) : PPost (PM.pure a) Q s := PPost.pure h

theorem PPost.bind {m : PM α} {f : α → PM β} {Q : β → PS → Prop}
    (h : PPost m (fun a t => PPost (f a) Q t) s) : PPost (m >>= f) Q s := by
  intro b t hb
  obtain ⟨a, u, h1, h2⟩ := PM.bind_ok.1 hb
  exact h a u h1 b t h2

theorem PPost.bind' {m : PM α} {f : α → PM β} {Q : β → PS → Prop}
    (h : PPost m (fun a t => PPost (f a) Q t) s) : PPost (PM.bind m f) Q s := PPost.bind h

theorem PPost.get {Q : PS → PS → Prop} (h : Q s s) : PPost PM.get Q s := by
  intro a t ha
  simp only [PM.get, Res.ok.injEq, Option.some.injEq, Prod.mk.injEq] at ha
  obtain ⟨rfl, rfl⟩ := ha
  exact h

theorem PPost.modify {f : PS → PS} {Q : Unit → PS → Prop} (h : Q () (f s)) : PPost (PM.modify f) Q s := by
  intro a t ha
  simp only [PM.modify, Res.ok.injEq, Option.some.injEq, Prod.mk.injEq] at ha
  obtain ⟨-, rfl⟩ := ha
  exact h

theorem PPost.err {Q : α → PS → Prop} : PPost PM.err Q s := by intro a t h; simp [PM.err] at h
theorem PPost.abort {Q : α → PS → Prop} : PPost PM.abort Q s := by intro a t h; simp [PM.abort] at h
theorem PPost.ub {Q : α → PS → Prop} : PPost PM.ub Q s := by intro a t h; simp [PM.ub] at h
theorem PPost.fuel {Q : α → PS → Prop} : PPost PM.fuel Q s := by intro a t h; simp [PM.fuel] at h

theorem PPost.res {r : Res α} {Q : α → PS → Prop} (h : ∀ a, r = .ok a → Q a s) : PPost (PM.res r) Q s := by
  intro a t ha
  unfold PM.res at ha
  cases r with
  | ok b =>
    simp only [Res.bind, Res.ok.injEq, Option.some.injEq, Prod.mk.injEq] at ha
    obtain ⟨rfl, rfl⟩ := ha
    exact h _ rfl
  | abort => simp [Res.bind] at ha
  | ub => simp [Res.bind] at ha
  | fuel => simp [Res.bind] at ha

theorem PPost.some! {x : Option α} {Q : α → PS → Prop} (h : ∀ a, x = some a → Q a s) : PPost (PM.some! x) Q s := by
  cases x with
  | none => exact PPost.abort
  | some a => exact PPost.pure (h a rfl)

theorem PPost.orErr {x : Option α} {Q : α → PS → Prop} (h : ∀ a, x = some a → Q a s) : PPost (PM.orErr x) Q s := by
  cases x with
  | none => exact PPost.err
  | some a => exact PPost.pure (h a rfl)

theorem PPost.mono {m : PM α} {P Q : α → PS → Prop} (h : PPost m P s) (hpq : ∀ a t, P a t → Q a t) : PPost m Q s :=
  fun a t ha => hpq a t (h a t ha)

theorem PPost.and {m : PM α} {P Q : α → PS → Prop} (h : PPost m P s) (h' : PPost m Q s) : PPost m (fun a t => P a t ∧ Q a t) s :=
  fun a t ha => ⟨h a t ha, h' a t ha⟩

theorem PPost.attr! {k : Nat} {name : String} {Q : String → PS → Prop} (h : ∀ v, s.attr k name = some v → Q v s) :
    PPost (attr! k name) Q s := PPost.bind (PPost.get (PPost.some! h))

theorem PPost.parentElt {k : Nat} {Q : Nat → PS → Prop} (h : ∀ p, (s.elt k).parent = some p → p ∈ s.cache → Q p s) :
    PPost (parentElt k) Q s := by
  refine PPost.bind (PPost.get ?_)
  cases hp : (s.elt k).parent with
  | none => exact PPost.abort
  | some p =>
    show PPost (if p ∈ s.cache then _ else _) Q s
    split
    · exact PPost.pure (h p hp ‹_›)
    · exact PPost.abort

theorem PPost.object {o : Nat} {Q : RObj → PS → Prop} (h : ∀ x, s.reg.obj o = some x → Q x s) : PPost (object o) Q s := by
  refine PPost.bind (PPost.get ?_)
  cases hp : s.reg.obj o with
  | none => exact PPost.ub
  | some x => exact PPost.pure (h x hp)

theorem PPost.peekObj {Q : Nat → PS → Prop} (h : ∀ o l, s.objs = o :: l → Q o s) : PPost peekObj Q s := by
  refine PPost.bind (PPost.get ?_)
  cases hp : s.objs with
  | nil => exact PPost.abort
  | cons o l => exact PPost.pure (h o l hp)

theorem PPost.peekComp {Q : Nat → PS → Prop}
    (h : ∀ o l x, s.objs = o :: l → s.reg.obj o = some x → (x.kind = .context ∨ x.kind = .switch) → Q o s) :
    PPost peekComp Q s := by
  refine PPost.bind (PPost.peekObj fun o l ho => PPost.bind (PPost.object fun x hx => ?_))
  split
  · exact PPost.pure (h o l x ho hx ‹_›)
  · exact PPost.abort

theorem PPost.regOp {op : RegOp} {Q : Unit → PS → Prop}
    (h : ∀ b r, s.reg.exec op = .ok (b, r) → Q () { s with reg := r }) : PPost (regOp op) Q s := by
  intro a t ha
  unfold Ginga.regOp at ha
  cases hr : s.reg.exec op with
  | ok p =>
    rw [hr] at ha
    simp only [Res.bind, Res.ok.injEq, Option.some.injEq, Prod.mk.injEq] at ha
    obtain ⟨-, rfl⟩ := ha
    exact h p.1 p.2 (by rw [hr])
  | abort => simp [hr, Res.bind] at ha
  | ub => simp [hr, Res.bind] at ha
  | fuel => simp [hr, Res.bind] at ha

theorem PPost.alloc {E : PRead} {Q : Nat → PS → Prop} (h : Q (E.addr s.nalloc) { s with nalloc := s.nalloc + 1 }) :
    PPost (alloc E) Q s := by
  intro a t ha
  simp only [Ginga.alloc, Res.ok.injEq, Option.some.injEq, Prod.mk.injEq] at ha
  obtain ⟨rfl, rfl⟩ := ha
  exact h

theorem PPost.newPred {p : PNode} {Q : Nat → PS → Prop}
    (h : Q s.npred { s with pnode := upd s.pnode s.npred p, npred := s.npred + 1 }) : PPost (newPred p) Q s := by
  intro a t ha
  simp only [Ginga.newPred, Res.ok.injEq, Option.some.injEq, Prod.mk.injEq] at ha
  obtain ⟨rfl, rfl⟩ := ha
  exact h

theorem PPost.addPChild {p c : Nat} {Q : Unit → PS → Prop}
    (h : ∀ k cs, s.pnode p = .node k cs → Q () { s with pnode := upd s.pnode p (.node k (cs ++ [c])) }) : PPost (addPChild p c) Q s := by
  intro a t ha
  unfold Ginga.addPChild at ha
  cases hp : s.pnode p with
  | atom _ _ _ => rw [hp] at ha; simp at ha
  | node k cs =>
    rw [hp] at ha
    simp only [Res.ok.injEq, Option.some.injEq, Prod.mk.injEq] at ha
    obtain ⟨-, rfl⟩ := ha
    exact h k cs hp

/-- Loops with an invariant. -/
theorem PPost.forEach {f : α → PM Unit} {I : PS → Prop} : ∀ {l : List α} {s : PS}, I s →
    (∀ a ∈ l, ∀ s, I s → PPost (f a) (fun _ t => I t) s) → PPost (PM.forEach f l) (fun _ t => I t) s
  | [], _, h, _ => PPost.pure' h
  | a :: l, s, h, hf =>
    PPost.bind' ((hf a (by simp) s h).mono fun _ t ht => PPost.forEach ht fun b hb => hf b (by simp [hb]))
end

/-! ## Frames -/

/-- `m` relates the states before and after. -/
def PRel {α : Type} (R : PS → PS → Prop) (m : PM α) : Prop := ∀ s, PPost m (fun _ t => R s t) s

/-- A preorder on states. -/
structure PPre (R : PS → PS → Prop) : Prop where
  refl : ∀ s, R s s
  trans : ∀ {s t u}, R s t → R t u → R s u

section
variable {R : PS → PS → Prop} (hR : PPre R) {α β : Type}
include hR

theorem PRel.pure (a : α) : PRel R (Pure.pure a : PM α) := fun s => PPost.pure (hR.refl s)
theorem PRel.pure' (a : α) : PRel R (PM.pure a : PM α) := fun s => PPost.pure (hR.refl s)
theorem PRel.bind {m : PM α} {f : α → PM β} (hm : PRel R m) (hf : ∀ a, PRel R (f a)) : PRel R (m >>= f) := fun s =>
  PPost.bind ((hm s).mono fun a t h => (hf a t).mono fun _ _ h' => hR.trans h h')
theorem PRel.get : PRel R PM.get := fun s => PPost.get (hR.refl s)
omit hR in
theorem PRel.err : PRel R (PM.err : PM α) := fun _ => PPost.err
omit hR in
theorem PRel.abort : PRel R (PM.abort : PM α) := fun _ => PPost.abort
omit hR in
theorem PRel.ub : PRel R (PM.ub : PM α) := fun _ => PPost.ub
omit hR in
theorem PRel.fuel : PRel R (PM.fuel : PM α) := fun _ => PPost.fuel
theorem PRel.res (r : Res α) : PRel R (PM.res r) := fun s => PPost.res fun _ _ => hR.refl s
theorem PRel.some! (x : Option α) : PRel R (PM.some! x) := fun s => PPost.some! fun _ _ => hR.refl s
theorem PRel.orErr (x : Option α) : PRel R (PM.orErr x) := fun s => PPost.orErr fun _ _ => hR.refl s
theorem PRel.attr! (k : Nat) (n : String) : PRel R (attr! k n) := fun s => PPost.attr! fun _ _ => hR.refl s
theorem PRel.parentElt (k : Nat) : PRel R (parentElt k) := fun s => PPost.parentElt fun _ _ _ => hR.refl s
theorem PRel.object (k : Nat) : PRel R (object k) := fun s => PPost.object fun _ _ => hR.refl s
theorem PRel.peekObj : PRel R peekObj := fun s => PPost.peekObj fun _ _ _ => hR.refl s
theorem PRel.peekComp : PRel R peekComp := fun s => PPost.peekComp fun _ _ _ _ _ _ => hR.refl s
theorem PRel.forEach {f : α → PM Unit} (hf : ∀ a, PRel R (f a)) (l : List α) : PRel R (PM.forEach f l) := by
  induction l with
  | nil => exact PRel.pure' hR ()
  | cons a l ih => exact PRel.bind hR (hf a) fun _ => ih
theorem PRel.resolveComponent (o k : Nat) : PRel R (resolveComponent o k) :=
  PRel.bind hR (PRel.get hR) fun _ => PRel.bind hR (PRel.attr! hR _ _) fun _ => PRel.orErr hR _
omit hR in
theorem PRel.ite {c : Prop} [Decidable c] {m m' : PM α} (h : PRel R m) (h' : PRel R m') : PRel R (if c then m else m') := by
  split
  · exact h
  · exact h'
end

end Ginga
