import Verif.Proofs.Trans4
/-! # Ticks, keys and histories of API calls -/
set_option linter.unusedSectionVars false
set_option linter.unusedSimpArgs false
set_option linter.unusedVariables false
namespace Ginga

/-- Atomic steps including the advance of the clock of an occurring object. -/
inductive TAtom (d : Doc) (rank : Oid → Nat) : St → St → Prop where
  | atom {s t} : Atom d rank s t → TAtom d rank s t
  | clock {s} (o t) : s.est (d.lam o) = .occurring → TAtom d rank s (s.setTime o t)

inductive TSteps (d : Doc) (rank : Oid → Nat) : St → St → Prop where
  | refl {s} : TSteps d rank s s
  | tail {s t u} : TSteps d rank s t → TAtom d rank t u → TSteps d rank s u

namespace TSteps
variable {d : Doc} {rank : Oid → Nat}
theorem one {s t} (h : TAtom d rank s t) : TSteps d rank s t := .tail .refl h
theorem trans {s t u} (h : TSteps d rank s t) (h' : TSteps d rank t u) : TSteps d rank s u := by
  induction h' with
  | refl => exact h
  | tail _ ha ih => exact .tail ih ha
theorem of {s t} (h : Steps d rank s t) : TSteps d rank s t := by
  induction h with
  | refl => exact .refl
  | tail _ ha ih => exact .tail ih (.atom ha)
theorem inv {P : St → Prop}
    (hP : ∀ s t, TAtom d rank s t → P s → P t) {s t : St} (h : TSteps d rank s t) (hs : P s) :
    P t := by
  induction h with
  | refl => exact hs
  | tail _ ha ih => exact hP _ _ ha ih
end TSteps

section
variable {d : Doc} {rank : Oid → Nat} {U : Prop} (h : WF d rank) {r : Rec}
include h

theorem TAtom.good {s t : St} (ha : TAtom d rank s t) (hg : Good d rank s) : Good d rank t := by
  cases ha with
  | atom ha => exact ha.good h hg
  | clock o t ho => exact ⟨hg.player, hg.anchor, hg.queue, hg.sel⟩

theorem TSteps.good {s t : St} (hs : TSteps d rank s t) (hg : Good d rank s) : Good d rank t :=
  hs.inv (fun _ _ ha => ha.good h) hg

theorem wp_runDue (hr : RecSpec d rank U r) (o : Oid) (as : List Act) :
    ∀ s, Good d rank s → wp True U (runDue d r o as) (fun _ s' => Steps d rank s s') s := by
  induction as with
  | nil => intro s _; simp [runDue]; exact .refl
  | cons a as ih =>
    intro s hg
    simp only [runDue, wp_bind]
    refine wp_mono (hr.evalA _ _ hg) ?_
    intro _ s1 h1
    simp only [wp_get]
    split
    · exact wp_mono (ih s1 (h1.good h hg)) fun _ s2 h2 => h1.trans h2
    · simp only [wp_pure]; exact h1

/-- `Object::sendTick`: one clock advance, then atomic steps. -/
theorem wp_objTick (hr : RecSpec d rank U r) (o : Oid) (diff : Nat) (s : St) (hg : Good d rank s) :
    wp True U (objTick d r o diff) (fun _ s' => Steps d rank s s' ∨
      (s.est (d.lam o) = .occurring ∧ Steps d rank (s.setTime o (tadd (s.time o) diff)) s')) s := by
  unfold objTick
  simp only [wp_bind, wp_get]
  split
  · next hocc =>
    simp only [wp_bind, wp_assert]
    split
    · simp only [wp_modify, wp_bind, wp_get]
      simp [isOccurring] at hocc
      have hg0 : Good d rank (s.setTime o (tadd (s.time o) diff)) :=
        ⟨hg.player, hg.anchor, hg.queue, hg.sel⟩
      generalize (s.setTime o (tadd (s.time o) diff)).time o = now
      have a1 : Atom d rank (s.setTime o (tadd (s.time o) diff))
          ((s.setTime o (tadd (s.time o) diff)).setDelayed o
            (((s.setTime o (tadd (s.time o) diff)).delayed o).map
              fun p => if p.2 ≤ now then (p.1, NONE) else p)) := by
        refine .queue _ _ ?_
        intro _ hq p hp
        simp at hp
        obtain ⟨a, t, hmem, rfl⟩ := hp
        have := hq (a, t) hmem
        split <;> exact this
      refine wp_mono (wp_runDue h hr o _ _ (a1.good h hg0)) ?_
      intro b s2 h2
      cases b with
      | false => simp; exact .inr ⟨hocc, .head a1 h2⟩
      | true =>
        simp only [if_true, wp_modify]
        refine .inr ⟨hocc, ?_⟩
        refine (Steps.head a1 h2).tail (.queue _ _ ?_)
        intro _ hq p hp
        exact hq p (List.mem_filter.1 hp).1
    · trivial
  · simp only [wp_pure]; exact .inl .refl

theorem TSteps.of_tick {o : Oid} {t : Nat} {s s' : St} (hx : Steps d rank s s' ∨
      (s.est (d.lam o) = .occurring ∧ Steps d rank (s.setTime o t) s')) :
    TSteps d rank s s' := by
  rcases hx with hx | ⟨ho, hx⟩
  · exact .of hx
  · exact (TSteps.one (.clock o _ ho)).trans (.of hx)

/-- The part of `Media::sendTick` after `Object::sendTick`. -/
theorem wp_mediaTick (hr : RecSpec d rank U r) (o : Oid) (diff : Nat) (s : St) (hg : Good d rank s) :
    wp True U (mediaTick d r o diff) (fun _ s' => Steps d rank s s' ∨
      (s.est (d.lam o) = .occurring ∧ Steps d rank (s.setTime o (tadd (s.time o) diff)) s')) s := by
  unfold mediaTick
  simp only [wp_bind]
  refine wp_mono (wp_objTick h hr o diff s hg) ?_
  intro _ s1 h1
  have hg1 := (TSteps.of_tick h h1).good h hg
  have ext : ∀ s2, Steps d rank s1 s2 → (Steps d rank s s2 ∨
      (s.est (d.lam o) = .occurring ∧ Steps d rank (s.setTime o (tadd (s.time o) diff)) s2)) := by
    intro s2 h2
    rcases h1 with h1 | ⟨ho, h1⟩
    · exact .inl (h1.trans h2)
    · exact .inr ⟨ho, h1.trans h2⟩
  simp only [wp_get]
  split
  · simp only [wp_pure]; exact h1
  · next p hp =>
    simp only [wp_bind, wp_modify]
    have a1 : Atom d rank s1 (s1.setPlayer o (some { p with time := tadd p.time diff })) :=
      .player _ p _ hp
    split
    · simp only [wp_bind, wp_pure]
      exact wp_mono (hr.evalA _ _ (a1.good h hg1)) fun _ s2 h2 => ext s2 (.head a1 h2)
    · simp only [wp_pure]; exact ext _ (.one a1)

theorem wp_updateFocus (hr : RecSpec d rank U r) (i : String) (s : St) (hg : Good d rank s) :
    wp True U (updateFocus d r i) (fun _ s' => Steps d rank s s') s := by
  unfold updateFocus
  simp only [wp_bind, wp_get]
  split
  · trivial
  · simp only [wp_bind, wp_pure]
    exact hr.evalA _ _ hg

/-- One object's tick: steps, then at most one clock advance of that object, then steps. -/
def Ticked (d : Doc) (rank : Oid → Nat) (diff : Nat) (o : Oid) (s s' : St) : Prop :=
  ∃ s1, Steps d rank s s1 ∧ (Steps d rank s1 s' ∨
    (s1.est (d.lam o) = .occurring ∧ Steps d rank (s1.setTime o (tadd (s1.time o) diff)) s'))

theorem Ticked.tsteps {diff : Nat} {o : Oid} {s s' : St} (hx : Ticked d rank diff o s s') :
    TSteps d rank s s' := by
  obtain ⟨s1, h1, h2⟩ := hx
  exact (TSteps.of h1).trans (TSteps.of_tick h h2)

theorem wp_settingsTick (hr : RecSpec d rank U r) (o : Oid) (diff : Nat) (s : St)
    (hg : Good d rank s) :
    wp True U (settingsTick d r o diff) (fun _ s' => Ticked d rank diff o s s') s := by
  unfold settingsTick
  simp only [wp_bind, wp_get]
  split
  · simp only [wp_bind]
    refine wp_mono (wp_updateFocus h hr _ s hg) ?_
    intro _ s1 h1
    simp only [wp_modify]
    have h2 : Steps d rank s { s1 with nextFocus := none } :=
      h1.tail (.misc s1.par s1.props s1.focus none)
    exact wp_mono (wp_mediaTick h hr o diff _ (h2.good h hg)) fun _ s3 h3 => ⟨_, h2, h3⟩
  · exact wp_mono (wp_mediaTick h hr o diff s hg) fun _ s3 h3 => ⟨_, .refl, h3⟩

theorem wp_ctxTick (hr : RecSpec d rank U r) (o : Oid) (diff : Nat) (s : St) (hg : Good d rank s) :
    wp True U (ctxTick d r o diff) (fun _ s' => Ticked d rank diff o s s') s := by
  unfold ctxTick
  simp only [wp_bind]
  refine wp_mono (wp_objTick h hr o diff s hg) ?_
  intro _ s1 h1
  have hg1 := (TSteps.of_tick h h1).good h hg
  have ext : ∀ s2, Steps d rank s1 s2 → Ticked d rank diff o s s2 := by
    intro s2 h2
    refine ⟨s, .refl, ?_⟩
    rcases h1 with h1 | ⟨ho, h1⟩
    · exact .inl (h1.trans h2)
    · exact .inr ⟨ho, h1.trans h2⟩
  simp only [wp_get]
  split
  · split
    · simp only [wp_bind, wp_pure]
      exact wp_mono (hr.evalA _ _ hg1) fun _ s2 h2 => ext s2 h2
    · trivial
  · split
    · simp only [wp_bind, wp_pure]
      exact wp_mono (hr.evalA _ _ hg1) fun _ s2 h2 => ext s2 h2
    · simp only [wp_pure]; exact ext s1 .refl

theorem wp_sendTick1 (hr : RecSpec d rank U r) (o : Oid) (diff : Nat) (s : St)
    (hg : Good d rank s) :
    wp True U (sendTick1 d r diff o) (fun _ s' => Ticked d rank diff o s s') s := by
  unfold sendTick1
  split
  · exact wp_ctxTick h hr o diff s hg
  · exact wp_mono (wp_objTick h hr o diff s hg) fun _ s3 h3 => ⟨_, .refl, h3⟩
  · exact wp_mono (wp_mediaTick h hr o diff s hg) fun _ s3 h3 => ⟨_, .refl, h3⟩
  · exact wp_settingsTick h hr o diff s hg

theorem wp_forTick (hr : RecSpec d rank U r) (diff : Nat) (os : List Oid) :
    ∀ s, Good d rank s →
    wp True U (forAll (sendTick1 d r diff) os) (fun _ s' => TSteps d rank s s') s := by
  induction os with
  | nil => intro s _; simp [forAll]; exact .refl
  | cons o os ih =>
    intro s hg
    simp only [forAll, wp_bind]
    refine wp_mono (wp_sendTick1 h hr o diff s hg) ?_
    intro _ s1 h1
    have ht := Ticked.tsteps h h1
    exact wp_mono (ih s1 (ht.good h hg)) fun _ s2 h2 => ht.trans h2

theorem wp_docTick (hr : RecSpec d rank U r) (diff : Nat) (s : St) (hg : Good d rank s) :
    wp True U (docTick d r diff) (fun _ s' => TSteps d rank s s') s := by
  unfold docTick
  simp only [wp_bind, wp_get]
  exact wp_forTick h hr diff _ s hg

theorem wp_evalAll (hr : RecSpec d rank U r) (t : Trans) (es : List Eid) :
    ∀ s, Good d rank s → wp True U (evalAll r t es) (fun _ s' => Steps d rank s s') s := by
  induction es with
  | nil => intro s _; simp [evalAll]; exact .refl
  | cons e es ih =>
    intro s hg
    simp only [evalAll, wp_bind]
    refine wp_mono (hr.evalA _ _ hg) ?_
    intro _ s1 h1
    exact wp_mono (ih s1 (h1.good h hg)) fun _ s2 h2 => h1.trans h2

theorem wp_moveFocus (p : PlayerSt) (key : String) (press : Bool) (s : St) :
    wp True U (moveFocus p key press) (fun _ s' => Steps d rank s s') s := by
  unfold moveFocus
  simp only [wp_bind, wp_get]
  split
  · split
    · simp only [wp_pure]; exact .refl
    · split
      · simp only [wp_scheduleFocus]; exact .one (.misc s.par s.props s.focus _)
      · simp only [wp_pure]; exact .refl
  · simp only [wp_pure]; exact .refl

theorem wp_sendKey1 (hr : RecSpec d rank U r) (key : String) (press : Bool) (o : Oid) (s : St)
    (hg : Good d rank s) :
    wp True U (sendKey1 d r key press o) (fun _ s' => Steps d rank s s') s := by
  unfold sendKey1
  split
  · unfold mediaKey
    simp only [wp_bind, wp_get]
    split
    · simp only [wp_pure]; exact .refl
    · split
      · simp only [wp_pure]; exact .refl
      · simp only [wp_bind]
        refine wp_mono (wp_moveFocus h _ _ _ s) ?_
        intro _ s1 h1
        exact wp_mono (wp_evalAll h hr _ _ s1 (h1.good h hg)) fun _ s2 h2 => h1.trans h2
  · simp only [wp_pure]; exact .refl

theorem wp_forAll (f : Oid → M Unit) (os : List Oid)
    (hf : ∀ o ∈ os, ∀ s, Good d rank s → wp True U (f o) (fun _ s' => Steps d rank s s') s) :
    ∀ s, Good d rank s → wp True U (forAll f os) (fun _ s' => Steps d rank s s') s := by
  induction os with
  | nil => intro s _; simp [forAll]; exact .refl
  | cons o os ih =>
    intro s hg
    simp only [forAll, wp_bind]
    refine wp_mono (hf o (by simp) s hg) ?_
    intro _ s1 h1
    exact wp_mono (ih (fun o' ho' => hf o' (by simp [ho'])) s1 (h1.good h hg))
      fun _ s2 h2 => h1.trans h2

theorem wp_docKey (hr : RecSpec d rank U r) (key : String) (press : Bool) (s : St)
    (hg : Good d rank s) :
    wp True U (docKey d r key press) (fun _ s' => Steps d rank s s') s := by
  unfold docKey
  simp only [wp_bind, wp_get]
  exact wp_forAll h _ _ (fun o _ s hg => wp_sendKey1 h hr key press o s hg) s hg

theorem wp_reapply (o : Oid) (ks : List String) :
    ∀ s, Good d rank s → wp True U (reapply d o ks) (fun _ s' => Steps d rank s s') s := by
  induction ks with
  | nil => intro s _; simp [reapply]; exact .refl
  | cons k ks ih =>
    intro s hg
    simp only [reapply, wp_bind, wp_get]
    split
    · simp only [wp_bind]
      refine wp_mono (wp_mediaSetProp (d := d) (fun _ hd => by omega)) ?_
      intro _ s1 q1
      exact wp_mono (ih s1 (q1.steps.good h hg)) fun _ s2 h2 => q1.steps.trans h2
    · exact ih s hg

omit h in
theorem playerEos_steps (o : Oid) (s : St) :
    Steps d rank s (s.setPlayer o ((s.player o).map fun p => { p with eos := true })) := by
  cases hp : s.player o with
  | none => rw [Option.map_none, setPlayer_self _ _ _ hp]; exact .refl
  | some p => exact .one (.player _ p _ hp)

/-! ## Destruction of the document -/

theorem Good.mediaKill {s : St} (hg : Good d rank s) {o : Oid} (hm : (d.obj o).kind.isMedia = true) :
    Good d rank (doStopSt d o (s.setPlayer o none)) := by
  refine ⟨?_, ?_, ?_, ?_⟩
  · intro o' ho'
    by_cases heq : o' = o
    · subst heq; simp [h.reset_apply, h.lam_obj]
    · simpa [h.reset_apply, h.lam_obj, heq] using hg.player o' ho'
  · intro e he hty
    simp only [doStopSt_est, setPlayer_est, h.reset_apply, h.lam_obj]
    split
    · simp
    · exact hg.anchor e he hty
  · intro o' ho'
    by_cases heq : o' = o
    · subst heq; simp [OwnQ]
    · simpa [heq] using hg.queue o' ho'
  · intro o' c; simpa using hg.sel o' c

theorem wp_mediaDoStop {o : Oid} (hm : (d.obj o).kind.isMedia = true) (s : St) (hg : Good d rank s) :
    wp True U (mediaDoStop d o) (fun _ s' => Good d rank s') s := by
  unfold mediaDoStop
  simp only [wp_bind, wp_get]
  split
  · simp only [wp_assert]; split
    · exact hg
    · trivial
  · simp only [wp_bind, wp_modify, wp_doStop]
    exact Good.mediaKill h hg hm

theorem wp_destroy (hr : RecSpec d rank U r) (n : Nat) : ∀ o s, Good d rank s →
    wp True U (destroy d r n o) (fun _ s' => Good d rank s') s := by
  induction n with
  | zero => intro o s _; trivial
  | succ n ih =>
    intro o s hg
    have hloop : ∀ os s, Good d rank s →
        wp True U (forAll (destroy d r n) os) (fun _ s' => Good d rank s') s := by
      intro os
      induction os with
      | nil => intro s hg; simpa [forAll] using hg
      | cons o os ihl =>
        intro s hg
        simp only [forAll, wp_bind]
        exact wp_mono (ih o s hg) fun _ s1 h1 => ihl s1 h1
    simp only [destroy]
    split
    · simp only [wp_bind]
      exact wp_mono (hr.trans _ _ _ hg) fun _ s1 h1 => hloop _ s1 (h1.steps.good h hg)
    · exact hg
    · next hk => exact wp_mediaDoStop h (by rw [hk]; rfl) s hg
    · next hk => exact wp_mediaDoStop h (by rw [hk]; rfl) s hg

end

/-! ## Histories -/

/-- All documents started by a history are well formed. -/
def OpsWF (ops : List Op) : Prop := ∀ d, Op.start (some d) ∈ ops → DocWF d

/-- Outcome of an API call: the formatter satisfies `P`, or the process died in a way `A`/`U`
allow. -/
def rwp {α : Type} (A U : Prop) (x : Res α) (Q : α → Prop) : Prop :=
  match x with
  | .ok a => Q a
  | .abort => A
  | .ub => U
  | .fuel => True

theorem rwp_bind {α β : Type} {A U : Prop} {x : Res α} {f : α → Res β} {Q : β → Prop} :
    rwp A U (x.bind f) Q = rwp A U x (fun a => rwp A U (f a) Q) := by cases x <;> rfl
theorem rwp_mono {α : Type} {A U : Prop} {x : Res α} {Q R : α → Prop} (hx : rwp A U x Q)
    (hqr : ∀ a, Q a → R a) : rwp A U x R := by cases x <;> first | exact hqr _ hx | exact hx
theorem rwp_of_wp {α : Type} {A U : Prop} {m : M α} {Q : α → St → Prop} {s : St}
    (hx : wp A U m Q s) : rwp A U (m s) (fun p => Q p.1 p.2) := by
  unfold wp at hx; unfold rwp; cases hm : m s <;> (first | simpa [hm] using hx | simp)
theorem rwp_run {α : Type} {A U : Prop} {m : M α} {Q : α → St → Prop} {f : Fmt}
    (hx : wp A U m Q f.st) :
    rwp A U (f.run m) (fun p => Q p.1 p.2.st ∧ p.2 = { f with st := p.2.st }) := by
  unfold Fmt.run
  rw [rwp_bind]
  exact rwp_mono (rwp_of_wp hx) fun a ha => ⟨ha, rfl⟩

/-- A property of presentation states that holds initially and is preserved by atomic
steps between states satisfying the basic invariants. -/
structure StInv (P : Doc → St → Prop) : Prop where
  init : ∀ d focus, DocWF d → P d (d.init focus)
  step : ∀ d rank, WF d rank → ∀ s t, TAtom d rank s t → Good d rank s → P d s → P d t

theorem StInv.tsteps {P : Doc → St → Prop} (hP : StInv P) {d : Doc} {rank : Oid → Nat}
    (h : WF d rank) {s t : St} (hs : TSteps d rank s t) (hg : Good d rank s) (hp : P d s) : P d t := by
  have := hs.inv (P := fun s => Good d rank s ∧ P d s)
    (fun _ _ ha ⟨hg, hp⟩ => ⟨ha.good h hg, hP.step d rank h _ _ ha hg hp⟩) ⟨hg, hp⟩
  exact this.2

/-- What holds of the formatter between calls: a document present is well formed and its
presentation state satisfies the basic invariants and `P`; playing implies a document. -/
structure FInv (P : Doc → St → Prop) (f : Fmt) : Prop where
  play : f.playing = true → f.doc.isSome = true
  good : ∀ d, f.doc = some d → ∃ rank, WF d rank ∧ Good d rank f.st ∧ P d f.st

section
variable {P : Doc → St → Prop} (hP : StInv P) {U : Prop} {n : Nat}
include hP

theorem fmtStop_inv {f : Fmt} (hf : FInv P f) (hU : ∀ d, f.doc = some d → CompoundAttr d → U) :
    rwp True U (fmtStop n f) (fun p => FInv P p.2 ∧ p.2.playing = false ∧
      (f.playing = true → p.2.doc = none) ∧ p.1 = f.playing ∧
      (f.playing = false → p.2 = f)) := by
  unfold fmtStop
  cases hpl : f.playing with
  | false => simp [rwp]; exact ⟨hf, hpl⟩
  | true =>
    simp only [Bool.not_true, Bool.false_eq_true, if_false]
    cases hd : f.doc with
    | none => have := hf.play hpl; rw [hd] at this; cases this
    | some d =>
      obtain ⟨rank, hw, hg, -⟩ := hf.good d hd
      simp only [rwp_bind]
      refine rwp_mono (rwp_run (wp_destroy hw (run_spec hw (hU d hd) n) n d.root f.st hg)) ?_
      rintro ⟨_, f1⟩ ⟨-, hf1⟩
      simp [rwp]
      constructor
      · simp
      · simp

theorem fmtStart_inv {f : Fmt} (hf : FInv P f) {p : Option Doc} (hd : ∀ d, p = some d → DocWF d)
    (hU : ∀ d, p = some d → CompoundAttr d → U) :
    rwp True U (fmtStart n f p) (fun q => FInv P q.2 ∧
      (q.1 = true → f.playing = false ∧ q.2.playing = true ∧ q.2.doc = p) ∧
      (f.playing = true → q.1 = false ∧ q.2 = f) ∧
      (∀ d, q.2.doc = some d → f.doc = some d ∨ p = some d)) := by
  unfold fmtStart
  cases hpl : f.playing with
  | true => simp [rwp]; exact ⟨hf, fun d hd => .inl hd⟩
  | false =>
    simp only [Bool.false_eq_true, if_false]
    split
    · trivial
    · cases p with
      | none => simp [rwp]; exact hf
      | some d =>
        obtain ⟨rank, hw⟩ := hd d rfl
        have hrs := run_spec hw (hU d rfl) n
        simp only [rwp_bind]
        have hg0 := Good.init hw (rank := rank) f.focus
        refine rwp_mono (rwp_run (hrs.evalA _ _ hg0)) ?_
        rintro ⟨k, f1⟩ ⟨h1, hf1⟩
        simp only at h1 hf1
        have hg1 := h1.good hw hg0
        have hp1 : P d f1.st := hP.tsteps hw (.of h1) hg0 (hP.init d _ ⟨rank, hw⟩)
        have hdoc1 : f1.doc = some d := by rw [hf1]
        split
        · simp only [rwp]
          refine ⟨⟨?_, ?_⟩, by simp, by simp, ?_⟩
          · intro hx; rw [hf1] at hx; simp [hpl] at hx
          · intro d' hd'; rw [hdoc1] at hd'; cases hd'
            exact ⟨rank, hw, hg1, hp1⟩
          · intro d' hd'; rw [hdoc1] at hd'; exact .inr hd'
        · simp only [rwp_bind]
          refine rwp_mono (rwp_run (hrs.trans _ _ _ hg1)) ?_
          rintro ⟨b, f2⟩ ⟨h2, hf2⟩
          simp only at h2 hf2
          have hdoc2 : f2.doc = some d := by rw [hf2]; exact hdoc1
          split
          · simp only [rwp]
            refine ⟨⟨?_, ?_⟩, ?_, by simp, ?_⟩
            · intro _; simp [hdoc2]
            · intro d' hd'; simp only at hd'; rw [hdoc2] at hd'; cases hd'
              exact ⟨rank, hw, h2.steps.good hw hg1, hP.tsteps hw (.of h2.steps) hg1 hp1⟩
            · intro _; exact ⟨trivial, trivial, hdoc2⟩
            · intro d' hd'; rw [hdoc2] at hd'; exact .inr hd'
          · trivial

theorem checkEos_inv {f : Fmt} (hf : FInv P f) (hpl : f.playing = true) {d : Doc} (hd : f.doc = some d)
    (hU : CompoundAttr d → U) :
    rwp True U (checkEos n d f) (fun f1 => FInv P f1 ∧
      (f1.playing = false ∧ f1.doc = none ∨ f1 = f ∧ isSleeping d f.st d.root = false ∧ f.eos = false)) := by
  unfold checkEos
  simp only
  have hf1 : FInv P (if isSleeping d f.st d.root = true then { f with eos := true } else f) := by
    split
    · exact ⟨hf.play, hf.good⟩
    · exact hf
  by_cases hs : isSleeping d f.st d.root = true
  · simp only [hs, if_true, rwp_bind]
    have hf2 : FInv P { f with eos := false } := ⟨hf.play, hf.good⟩
    refine rwp_mono (fmtStop_inv hP hf2 (by
      intro d' hd'; simp only at hd'; rw [hd] at hd'; cases hd'; exact hU)) ?_
    rintro ⟨b, f3⟩ ⟨h1, h2, h3, h4, h5⟩
    simp only at *
    split
    · exact ⟨h1, .inl ⟨h2, h3 hpl⟩⟩
    · trivial
  · simp only [hs, if_false, Bool.false_eq_true]
    cases he : f.eos with
    | true =>
      simp only [if_true, rwp_bind]
      have hf2 : FInv P { f with eos := false } := ⟨hf.play, hf.good⟩
      refine rwp_mono (fmtStop_inv hP hf2 (by
        intro d' hd'; simp only at hd'; rw [hd] at hd'; cases hd'; exact hU)) ?_
      rintro ⟨b, f3⟩ ⟨h1, h2, h3, h4, h5⟩
      simp only at *
      split
      · exact ⟨h1, .inl ⟨h2, h3 hpl⟩⟩
      · trivial
    | false =>
      simp only [Bool.false_eq_true, if_false, rwp]
      refine ⟨hf, .inr ⟨trivial, ?_, trivial⟩⟩
      simp

theorem guarded_inv {f : Fmt} (hf : FInv P f) (hU : ∀ d, f.doc = some d → CompoundAttr d → U)
    (body : Doc → Fmt → Res Fmt)
    (hb : ∀ d rank, f.doc = some d → WF d rank → Good d rank f.st → P d f.st →
      rwp True U (body d f) (fun f' => Good d rank f'.st ∧ P d f'.st ∧ f'.doc = f.doc ∧
        f'.playing = f.playing)) :
    rwp True U (guarded n f body) (fun q => FInv P q.2 ∧
      (∀ d, q.2.doc = some d → f.doc = some d) ∧ q.1 = q.2.playing ∧
      (f.playing = false → q.2 = f) ∧
      (q.1 = true ↔ f.playing = true ∧ f.eos = false ∧
        ∀ d, f.doc = some d → isSleeping d f.st d.root = false)) := by
  unfold guarded
  cases hpl : f.playing with
  | false => simp [rwp]; exact ⟨hf, hpl⟩
  | true =>
    simp only [Bool.not_true, Bool.false_eq_true, if_false]
    cases hd : f.doc with
    | none => have := hf.play hpl; rw [hd] at this; cases this
    | some d =>
      simp only [rwp_bind]
      have hce := checkEos_inv hP hf hpl hd (hU d hd) (n := n)
      have hchar : ∀ f1, checkEos n d f = .ok f1 → f1.playing = false →
          ¬ (f.eos = false ∧ isSleeping d f.st d.root = false) := by
        rintro f1 hf1 hp1 ⟨he, hs⟩
        unfold checkEos at hf1
        simp [hs, he] at hf1
        rw [← hf1, hpl] at hp1; cases hp1
      cases hx : checkEos n d f with
      | ok f1 =>
        rw [hx] at hce
        obtain ⟨h1, h2⟩ := hce
        rcases h2 with ⟨h2, h3⟩ | ⟨rfl, hs, he⟩
        · simp only [rwp, h2, Bool.not_false, if_true]
          refine ⟨h1, ?_, trivial, by simp, ?_⟩
          · intro d' hd'; rw [h3] at hd'; cases hd'
          · simp only [Bool.false_eq_true, true_and, false_iff]
            rintro ⟨he, hs⟩
            exact hchar f1 hx h2 ⟨he, hs d rfl⟩
        · simp only [rwp, hpl, Bool.not_true, Bool.false_eq_true, if_false]
          obtain ⟨rank, hw, hg, hp⟩ := hf.good d hd
          have hbb := hb d rank hd hw hg hp
          cases hy : body d f1 with
          | ok f2 =>
            rw [hy] at hbb
            obtain ⟨h4, h5, h6, h7⟩ := hbb
            simp only [Res.bind_ok]
            refine ⟨⟨fun _ => by simp [h6, hd], ?_⟩, ?_, by simp [h7, hpl], by simp, ?_⟩
            · intro d' hd'; rw [h6, hd] at hd'; cases hd'
              exact ⟨rank, hw, h4, h5⟩
            · intro d' hd'; rw [h6, hd] at hd'; exact hd'
            · simp only [true_and, true_iff]
              exact ⟨he, fun d' hd' => by cases hd'; exact hs⟩
          | abort => trivial
          | ub => rw [hy] at hbb; exact hbb
          | fuel => trivial
      | abort => trivial
      | ub => rw [hx] at hce; exact hce
      | fuel => trivial

theorem fmtTick_inv {f : Fmt} (hf : FInv P f) (hU : ∀ d, f.doc = some d → CompoundAttr d → U)
    (total diff frame : Nat) :
    rwp True U (fmtTick n f total diff frame) (fun q => FInv P q.2 ∧
      (∀ d, q.2.doc = some d → f.doc = some d) ∧ q.1 = q.2.playing ∧
      (f.playing = false → q.2 = f) ∧
      (q.1 = true ↔ f.playing = true ∧ f.eos = false ∧
        ∀ d, f.doc = some d → isSleeping d f.st d.root = false)) := by
  refine guarded_inv hP hf hU _ ?_
  intro d rank hd hw hg hp
  simp only [rwp_bind]
  refine rwp_mono (rwp_run (f := { f with lastTotal := total, lastDiff := diff, lastFrame := frame })
    (wp_docTick hw (run_spec hw (hU d hd) n) diff f.st hg)) ?_
  rintro ⟨_, f1⟩ ⟨h1, hf1⟩
  simp only [rwp] at h1 hf1 ⊢
  exact ⟨h1.good hw hg, hP.tsteps hw h1 hg hp, by rw [hf1], by rw [hf1]⟩

theorem fmtKey_inv {f : Fmt} (hf : FInv P f) (hU : ∀ d, f.doc = some d → CompoundAttr d → U)
    (key : String) (press : Bool) :
    rwp True U (fmtKey n f key press) (fun q => FInv P q.2 ∧
      (∀ d, q.2.doc = some d → f.doc = some d) ∧ q.1 = q.2.playing ∧
      (f.playing = false → q.2 = f) ∧
      (q.1 = true ↔ f.playing = true ∧ f.eos = false ∧
        ∀ d, f.doc = some d → isSleeping d f.st d.root = false)) := by
  refine guarded_inv hP hf hU _ ?_
  intro d rank hd hw hg hp
  simp only [rwp_bind]
  refine rwp_mono (rwp_run (wp_docKey hw (run_spec hw (hU d hd) n) key press f.st hg)) ?_
  rintro ⟨_, f1⟩ ⟨h1, hf1⟩
  simp only [rwp] at h1 hf1 ⊢
  exact ⟨h1.good hw hg, hP.tsteps hw (.of h1) hg hp, by rw [hf1], by rw [hf1]⟩

/-- A call that runs the engine on the current document. -/
theorem FInv.run {f f1 : Fmt} (hf : FInv P f) {d : Doc} {rank : Oid → Nat} (hd : f.doc = some d)
    (hw : WF d rank) (hg : Good d rank f1.st) (hp : P d f1.st) (hf1 : f1 = { f with st := f1.st }) :
    FInv P f1 := by
  refine ⟨?_, ?_⟩
  · rw [hf1]; exact hf.play
  · intro d' hd'; rw [hf1] at hd'; simp only at hd'; rw [hd] at hd'; cases hd'
    exact ⟨rank, hw, hg, hp⟩

theorem fmtResize_inv {f : Fmt} (hf : FInv P f) (hU : ∀ d, f.doc = some d → CompoundAttr d → U)
    (w hh : Int) :
    rwp True U (fmtResize f w hh) (fun f' => FInv P f' ∧ f'.doc = f.doc ∧ f'.playing = f.playing) := by
  unfold fmtResize
  split
  · simp only
    cases hpl : f.playing with
    | false => simp [rwp]; exact ⟨by simp, hf.good⟩
    | true =>
      simp only [Bool.not_true, Bool.false_eq_true, if_false]
      cases hd : f.doc with
      | none => have := hf.play hpl; rw [hd] at this; cases this
      | some d =>
        obtain ⟨rank, hw, hg, hp⟩ := hf.good d hd
        simp only [rwp_bind]
        rw [← hpl, ← hd]
        refine rwp_mono (rwp_run (f := ({ f with width := w, height := hh } : Fmt))
          (wp_forAll hw _ _ (fun o _ s hg => wp_reapply hw o _ s hg) f.st hg)) ?_
        rintro ⟨_, f1⟩ ⟨h1, hf1⟩
        simp only [rwp] at h1 hf1 ⊢
        have h2 : FInv P { f with width := w, height := hh } := ⟨hf.play, hf.good⟩
        exact ⟨h2.run hP hd hw (h1.good hw hg) (hP.tsteps hw (.of h1) hg hp) hf1,
          by rw [hf1], by rw [hf1]⟩
  · trivial

theorem exec_inv {f : Fmt} (hf : FInv P f) (op : Op)
    (hd : ∀ d, op = .start (some d) → DocWF d)
    (hU : ∀ d, f.doc = some d ∨ op = .start (some d) → CompoundAttr d → U) :
    rwp True U (exec n f op) (fun q => FInv P q.2 ∧
      (∀ d, q.2.doc = some d → f.doc = some d ∨ op = .start (some d))) := by
  cases op with
  | start p =>
    refine rwp_mono (fmtStart_inv hP hf (p := p) (fun d hp => hd d (by rw [hp]))
      (fun d hp => hU d (.inr (by rw [hp])))) ?_
    rintro q ⟨h1, -, -, h2⟩
    refine ⟨h1, fun d hq => ?_⟩
    rcases h2 d hq with h3 | h3
    · exact .inl h3
    · exact .inr (by rw [h3])
  | stop =>
    refine rwp_mono (fmtStop_inv hP hf (fun d hp => hU d (.inl hp))) ?_
    rintro q ⟨h1, -, h3, -, h5⟩
    refine ⟨h1, fun d hq => ?_⟩
    cases hpl : f.playing with
    | true => rw [h3 hpl] at hq; cases hq
    | false => rw [h5 hpl] at hq; exact .inl hq
  | sendKey k p =>
    refine rwp_mono (fmtKey_inv hP hf (fun d hp => hU d (.inl hp)) k p) ?_
    rintro q ⟨h1, h2, -⟩
    exact ⟨h1, fun d hq => .inl (h2 d hq)⟩
  | sendTick a b c =>
    refine rwp_mono (fmtTick_inv hP hf (fun d hp => hU d (.inl hp)) a b c) ?_
    rintro q ⟨h1, h2, -⟩
    exact ⟨h1, fun d hq => .inl (h2 d hq)⟩
  | resize w hh =>
    simp only [exec, rwp_bind]
    refine rwp_mono (fmtResize_inv hP hf (fun d hp => hU d (.inl hp)) w hh) ?_
    rintro q ⟨h1, h2, -⟩
    simp only [rwp]
    exact ⟨h1, fun d hq => .inl (h2 ▸ hq)⟩
  | playerEos o =>
    simp only [exec, rwp_bind]
    refine rwp_mono (rwp_run (m := playerEos o) (Q := fun _ s' => s' = f.st.setPlayer o
      ((f.st.player o).map fun p => { p with eos := true })) rfl) ?_
    rintro ⟨_, f1⟩ ⟨h1, hf1⟩
    simp only [rwp] at h1 hf1 ⊢
    refine ⟨⟨?_, ?_⟩, ?_⟩
    · rw [hf1]; exact hf.play
    · intro d hd'; rw [hf1] at hd'; simp only at hd'
      obtain ⟨rank, hw, hg, hp⟩ := hf.good d hd'
      have := playerEos_steps (d := d) (rank := rank) o f.st
      rw [← h1] at this
      exact ⟨rank, hw, this.good hw hg, hP.tsteps hw (.of this) hg hp⟩
    · intro d hd'; rw [hf1] at hd'; exact .inl hd'
  | action a =>
    simp only [exec]
    cases hdoc : f.doc with
    | none => simp only [rwp]; exact ⟨hf, fun d hq => by rw [hdoc] at hq; cases hq⟩
    | some d =>
      obtain ⟨rank, hw, hg, hp⟩ := hf.good d hdoc
      simp only [rwp_bind]
      refine rwp_mono (rwp_run ((run_spec hw (hU d (.inl hdoc)) n).evalA a f.st hg)) ?_
      rintro ⟨_, f1⟩ ⟨h1, hf1⟩
      simp only [rwp] at h1 hf1 ⊢
      refine ⟨hf.run hP hdoc hw (h1.good hw hg) (hP.tsteps hw (.of h1) hg hp) hf1, ?_⟩
      intro d' hd'; rw [hf1] at hd'; simp only at hd'; rw [hdoc] at hd'; exact .inl hd'

/-- **Histories**: every history of API calls that starts only well-formed documents keeps the
invariants, and dies of undefined behaviour only if `U` allows it. -/
theorem execAll_inv (ops : List Op) : ∀ f : Fmt, FInv P f → OpsWF ops →
    (∀ d, f.doc = some d ∨ Op.start (some d) ∈ ops → CompoundAttr d → U) →
    rwp True U (execAll n f ops) (fun q => FInv P q.2) := by
  induction ops with
  | nil => intro f hf _ _; exact hf
  | cons op ops ih =>
    intro f hf hw hU
    simp only [execAll, rwp_bind]
    refine rwp_mono (exec_inv hP hf op (fun d hd => hw d (by simp [hd])) (fun d hd => hU d (by
      rcases hd with hd | hd
      · exact .inl hd
      · exact .inr (by simp [hd])))) ?_
    rintro q ⟨h1, h2⟩
    refine rwp_mono (ih q.2 h1 (fun d hd => hw d (by simp [hd])) ?_) ?_
    · intro d hd
      apply hU d
      rcases hd with hd | hd
      · rcases h2 d hd with h3 | h3
        · exact .inl h3
        · exact .inr (by simp [h3])
      · exact .inr (by simp [hd])
    · intro q' hq'; exact hq'

omit hP in
theorem FInv.new (focus : String) (w hh : Int) : FInv P (Fmt.new focus w hh) :=
  ⟨by simp [Fmt.new], by simp [Fmt.new]⟩

end

/-- `f` is reached by some history of calls on a fresh formatter (any recursion bound, any
well-formed documents). -/
def Reachable (f : Fmt) : Prop :=
  ∃ n focus w h ops bs, OpsWF ops ∧ execAll n (Fmt.new focus w h) ops = .ok (bs, f)

/-- Invariants hold in every reachable state. -/
theorem Reachable.inv {P : Doc → St → Prop} (hP : StInv P) {f : Fmt} (hf : Reachable f) :
    FInv P f := by
  obtain ⟨n, focus, w, hh, ops, bs, hw, he⟩ := hf
  have := execAll_inv hP (U := True) (n := n) ops _ (FInv.new focus w hh) hw (fun _ _ _ => trivial)
  rw [he] at this
  exact this

theorem rwp_ok {α : Type} {A U : Prop} {x : Res α} {Q : α → Prop} {a : α} (h : rwp A U x Q)
    (hx : x = .ok a) : Q a := by subst hx; exact h

end Ginga
