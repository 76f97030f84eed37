import Verif.Proofs.Tick
import Verif.Proofs.Fuel
import Verif.Proofs.Links
/-! # Termination of engine calls

`Halts d m s`: the call `m` (as a function of the recursive entry points) ends in state `s` for some
recursion bound, hence for all larger ones. -/
set_option linter.unusedVariables false
set_option linter.unusedSectionVars false
set_option linter.unusedSimpArgs false
namespace Ginga

/-! ## Calls without recursion -/

/-- The call never runs out of fuel. -/
structure NF {α : Type} (m : M α) : Prop where
  nf : ∀ s, m s ≠ .fuel

theorem NF.bind {α β : Type} {m : M α} {f : α → M β} (h : NF m) (hf : ∀ a, NF (f a)) : NF (m >>= f) := by
  constructor
  intro s
  show M.bind m f s ≠ _
  unfold M.bind
  cases hm : m s with
  | ok p => exact (hf p.1).nf p.2
  | fuel => exact absurd hm (h.nf s)
  | _ => simp

theorem NF.ite {α : Type} {c : Prop} [Decidable c] {m n : M α} (h : NF m) (h' : NF n) :
    NF (if c then m else n) := by split <;> assumption

theorem NF.pure {α : Type} (a : α) : NF (pure a : M α) := ⟨fun _ h => by cases h⟩
theorem NF.mpure {α : Type} (a : α) : NF (M.pure a : M α) := ⟨fun _ h => by cases h⟩
theorem NF.get : NF M.get := ⟨fun _ h => by cases h⟩
theorem NF.modify (f) : NF (M.modify f) := ⟨fun _ h => by cases h⟩
theorem NF.abort {α : Type} : NF (M.abort : M α) := ⟨fun _ h => by cases h⟩
theorem NF.ub {α : Type} : NF (M.ub : M α) := ⟨fun _ h => by cases h⟩
theorem NF.assert (b : Bool) : NF (M.assert b) := by unfold M.assert; exact .ite (.mpure _) .abort
theorem NF.pred (d : Doc) (p : Pred) : NF (M.lift fun s => evalPred d s p) := by
  constructor
  intro s
  unfold M.lift
  have := (evalPred_not_ub (d := d) s p).2
  dsimp only
  cases hp : evalPred d s p with
  | fuel => exact absurd hp this
  | _ => simp [Res.bind]

macro "nf" : tactic => `(tactic|
  repeat (first
    | assumption
    | exact NF.pure _
    | exact NF.mpure _
    | exact NF.get
    | exact NF.modify _
    | exact NF.abort
    | exact NF.ub
    | exact NF.assert _
    | exact NF.pred _ _
    | apply NF.ite
    | apply NF.bind
    | intro _
    | split
    | dsimp only))

section
variable (d : Doc)
theorem nf_parseTimeM (v) : NF (parseTimeM d v) := by unfold parseTimeM; nf
theorem nf_setPar (e n v) : NF (setPar e n v) := by unfold setPar; nf
theorem nf_setEst (e v) : NF (setEst e v) := by unfold setEst; nf
theorem nf_addDelayed (o e t v dl) : NF (addDelayed o e t v dl) := by unfold addDelayed; nf
theorem nf_scheduleFocus (x) : NF (scheduleFocus x) := by unfold scheduleFocus; nf
theorem nf_bumpParent (o k) : NF (bumpParent d o k) := by unfold bumpParent; nf
theorem nf_doStart (o) : NF (doStart d o) := by
  unfold doStart
  refine .bind (.modify _) fun _ => .bind (nf_bumpParent d _ _) fun _ => .bind .get fun _ => ?_
  exact .ite (nf_scheduleFocus _) (.pure _)
theorem nf_doStop (o) : NF (doStop d o) := by
  unfold doStop; exact .bind (.modify _) fun _ => nf_bumpParent d _ _
theorem nf_playerSetProp (o n v) : NF (playerSetProp d o n v) := by
  constructor
  intro s
  unfold playerSetProp
  repeat' split
  all_goals simp
theorem nf_playerSetProps (o l) : NF (playerSetProps d o l) := by
  induction l with
  | nil => exact .pure _
  | cons a t ih => exact .bind (nf_playerSetProp d _ _ _) fun _ => ih
theorem nf_objSetProp (o n v dur) : NF (objSetProp o n v dur) := by unfold objSetProp; nf
theorem nf_mediaSetProp (o n v dur) : NF (mediaSetProp d o n v dur) := by
  unfold mediaSetProp
  have h1 := nf_objSetProp o n v dur
  have h2 := nf_playerSetProp d o n v
  nf
theorem nf_createPlayer (o) : NF (createPlayer d o) := by
  unfold createPlayer
  refine .bind .get fun s0 => .bind (.assert _) fun _ => .bind (.modify _) fun _ => ?_
  split
  · exact .abort
  · exact .bind (nf_mediaSetProp d _ _ _ _) fun _ => .bind (.modify _) fun _ => .bind .get fun _ =>
      .bind (nf_playerSetProps d _ _) fun _ => .modify _
theorem nf_queuePorts (o ps) : NF (queuePorts d o ps) := by
  induction ps with
  | nil => exact .pure _
  | cons p ps ih =>
    simp only [queuePorts]
    have := nf_addDelayed o p .start "" 0
    nf
theorem nf_queueAnchors (o es) : NF (queueAnchors d o es) := by
  induction es with
  | nil => exact .pure _
  | cons e es ih =>
    simp only [queueAnchors]
    have := nf_addDelayed o e
    exact .ite (.bind (this _ _ _) fun _ => .bind (this _ _ _) fun _ => ih) ih
theorem nf_attribStart (o e) : NF (attribStart d o e) := by
  unfold attribStart
  have h1 := nf_mediaSetProp d o (d.ev e).id
  have h2 := nf_objSetProp o (d.ev e).id
  have h3 := nf_addDelayed o e .stop
  have h4 := nf_parseTimeM d
  refine .bind .get fun s => ?_
  split
  · exact .bind (.pure _) fun _ => .ite (.bind (h1 _ _) fun _ => h3 _ _) (.bind (h2 _ _) fun _ => h3 _ _)
  · exact .bind (h4 _) fun _ => .ite (.bind (h1 _ _) fun _ => h3 _ _) (.bind (h2 _ _) fun _ => h3 _ _)
theorem nf_playerPause (o b) : NF (playerPause o b) := by
  constructor
  intro s
  unfold playerPause
  repeat' split
  all_goals simp
theorem nf_playerSendLabel (o) : NF (playerSendLabel o) := by
  constructor
  intro s
  unfold playerSendLabel
  split <;> simp
theorem nf_mediaDoStop (o) : NF (mediaDoStop d o) := by
  unfold mediaDoStop
  have := nf_doStop d o
  nf
theorem nf_mediaAfter (r o e t) : NF (mediaAfter d r o e t) := by
  unfold mediaAfter
  have h1 := nf_doStart d o
  have h2 := nf_queueAnchors d o (d.obj o).events
  have h3 := nf_playerSendLabel o
  have h4 := nf_mediaDoStop d o
  have h5 := nf_attribStart d o e
  split
  · split
    · exact .ite (.bind .get fun _ => .bind (.assert _) fun _ => .bind h1 fun _ => .bind h2 fun _ => .pure _)
        (.ite (.bind h3 fun _ => .pure _) (.pure _))
    · exact .pure _
    · exact .pure _
    all_goals
      exact .ite (.bind .get fun _ => .bind (.assert _) fun _ => .bind h4 fun _ => .pure _)
        (.ite (.bind h3 fun _ => .pure _) (.bind .get fun _ => .bind (.assert _) fun _ => .pure _))
  · split
    · exact .bind h5 fun _ => .pure _
    · exact .pure _
    · exact .abort
  · split <;> nf
  · split <;> nf
theorem nf_fireActs (c as) : NF (fireActs d c as) := by
  induction as with
  | nil => exact .pure _
  | cons a as ih =>
    simp only [fireActs]
    exact .bind .get fun s => .bind (nf_parseTimeM d _) fun _ =>
      .ite (.bind ih fun _ => .pure _) (.bind (nf_addDelayed _ _ _ _ _) fun _ => ih)
theorem nf_fireConds (c a as cs) : NF (fireConds d c a as cs) := by
  induction cs with
  | nil => exact .pure _
  | cons x cs ih =>
    simp only [fireConds]
    refine .ite ?_ ih
    have h1 := nf_fireActs d c as.reverse
    split
    · exact .bind (.pure _) fun _ => .ite (.bind h1 fun _ => .bind ih fun _ => .pure _) ih
    · exact .bind (.pred _ _) fun _ => .ite (.bind h1 fun _ => .bind ih fun _ => .pure _) ih
theorem nf_fireLinks (c a ls) : NF (fireLinks d c a ls) := by
  induction ls with
  | nil => exact .pure _
  | cons x cs ih => exact .bind (nf_fireConds d _ _ _ _) fun _ => .bind ih fun _ => .pure _
theorem nf_evalInCtx (a c) : NF (evalInCtx d a c) := by
  unfold evalInCtx
  exact .bind .get fun _ => .ite (nf_fireLinks d _ _ _) (.pure _)
theorem nf_firePorts (a x g ps) : NF (firePorts d a x g ps) := by
  induction ps with
  | nil => exact .pure _
  | cons p ps ih =>
    simp only [firePorts]
    exact .ite (.bind (nf_evalInCtx d _ _) fun _ => .bind ih fun _ => .pure _) ih
theorem nf_fireAliases (a ls) : NF (fireAliases d a ls) := by
  induction ls with
  | nil => exact .pure _
  | cons p ps ih =>
    obtain ⟨x, c⟩ := p
    simp only [fireAliases]
    split
    · exact ih
    · exact .ite (.bind (nf_evalInCtx d _ _) fun _ => .bind ih fun _ => .pure _) ih
theorem nf_fireOwn (a o) : NF (fireOwn d a o) := by
  unfold fireOwn; exact .ite (nf_evalInCtx d _ _) (nf_fireAliases d _ _)
theorem nf_moveFocus (p k b) : NF (moveFocus p k b) := by
  unfold moveFocus
  have := nf_scheduleFocus
  refine .bind .get fun s => .ite ?_ (.pure _)
  split
  · exact .pure _
  · exact .ite (this _) (.pure _)
theorem nf_reapply (o ks) : NF (reapply d o ks) := by
  induction ks with
  | nil => exact .pure _
  | cons k ks ih =>
    simp only [reapply]
    refine .bind .get fun s => ?_
    have := nf_mediaSetProp d o
    repeat' split
    all_goals first
      | exact .bind (this _ _ _) fun _ => ih
      | exact .bind (.pure _) fun _ => ih
      | exact ih
end

/-! ## Calls with recursion -/

/-- The call ends. -/
def Halts (d : Doc) {α : Type} (m : Rec → M α) (s : St) : Prop := ∃ n, m (run d n) s ≠ .fuel

/-- The call depends monotonically on the recursive entry points. -/
def Mono {α : Type} (m : Rec → M α) : Prop := ∀ r r', RecLe r r' → MLe (m r) (m r')

theorem Mono.const {α : Type} {m : M α} : Mono (fun _ => m) := fun _ _ _ => .rfl'
theorem Mono.trans {e t} : Mono (fun r => r.trans e t) := fun _ _ h => h.trans e t
theorem Mono.evalA {a} : Mono (fun r => r.evalA a) := fun _ _ h => h.evalA a
theorem Mono.loop {l k} : Mono (fun r => r.loop l k) := fun _ _ h => h.loop l k
theorem Mono.bind {α β : Type} {m : Rec → M α} {f : α → Rec → M β} (hm : Mono m) (hf : ∀ a, Mono (f a)) :
    Mono (fun r => m r >>= fun a => f a r) :=
  fun r r' h => .bind (hm r r' h) fun a => hf a r r' h

theorem Halts.nf {d : Doc} {α : Type} {m : M α} (h : NF m) (s : St) : Halts d (fun _ => m) s :=
  ⟨0, h.nf s⟩

theorem Halts.bind {d : Doc} {α β : Type} {m : Rec → M α} {f : α → Rec → M β} {s : St}
    (hm : Mono m) (hf : ∀ a, Mono (f a)) (h : Halts d m s)
    (hn : ∀ n a s', m (run d n) s = .ok (a, s') → Halts d (f a) s') :
    Halts d (fun r => m r >>= fun a => f a r) s := by
  obtain ⟨n0, h0⟩ := h
  cases hx : m (run d n0) s with
  | ok p =>
    obtain ⟨n1, h1⟩ := hn n0 p.1 p.2 hx
    refine ⟨max n0 n1, ?_⟩
    have e0 := (hm _ _ (run_mle d n0 (max n0 n1) (Nat.le_max_left ..))).le s
    have e1 := (hf p.1 _ _ (run_mle d n1 (max n0 n1) (Nat.le_max_right ..))).le p.2
    have e0' : m (run d (max n0 n1)) s = .ok p := by
      rcases e0 with h2 | h2
      · exact absurd h2 h0
      · rw [← h2, hx]
    have e1' : f p.1 (run d (max n0 n1)) p.2 = f p.1 (run d n1) p.2 := by
      rcases e1 with h2 | h2
      · exact absurd h2 h1
      · exact h2.symm
    show M.bind _ _ s ≠ _
    unfold M.bind
    rw [e0']
    show f p.1 (run d (max n0 n1)) p.2 ≠ _
    rw [e1']; exact h1
  | fuel => exact absurd hx h0
  | _ =>
    refine ⟨n0, ?_⟩
    show M.bind _ _ s ≠ _
    unfold M.bind
    rw [hx]; simp

/-- Prefixing a call that needs no recursion. -/
theorem Halts.nfBind {d : Doc} {α β : Type} {m : M α} {f : α → Rec → M β} {s : St}
    (hf : ∀ a, Mono (f a)) (h : NF m) (hn : ∀ a s', m s = .ok (a, s') → Halts d (f a) s') :
    Halts d (fun r => m >>= fun a => f a r) s :=
  Halts.bind .const hf (.nf h s) (fun _ a s' h => hn a s' h)

theorem Halts.trans {d : Doc} {e t} {s : St} (h : Halts d (fun r => transition d r e t) s) :
    Halts d (fun r => r.trans e t) s := by
  obtain ⟨n, h⟩ := h; exact ⟨n + 1, h⟩
theorem Halts.loop {d : Doc} {l k} {s : St} (h : Halts d (fun r => evalLoop d r l k) s) :
    Halts d (fun r => r.loop l k) s := by
  obtain ⟨n, h⟩ := h; exact ⟨n + 1, h⟩
theorem Halts.evalA {d : Doc} {a} {s : St} (h : Halts d (fun r => r.loop [a] 0) s) :
    Halts d (fun r => r.evalA a) s := by
  obtain ⟨n, h⟩ := h; exact ⟨n + 1, h⟩

theorem Halts.congr {d : Doc} {α : Type} {m m' : Rec → M α} {s : St} (h : Halts d m s)
    (he : ∀ r, m r s = m' r s) : Halts d m' s := by
  obtain ⟨n, h⟩ := h; exact ⟨n, by rw [← he]; exact h⟩

end Ginga
