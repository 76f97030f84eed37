import Verif.Proofs.Closed
/-!
# Relations preserved by ticks and keys of other objects
-/
set_option linter.unusedSectionVars false
set_option linter.unusedVariables false
namespace Ginga

/-- `R` is also closed under the clock and queue updates of the objects selected by `Y`. -/
structure TClosed (d : Doc) (X : Eid → Prop) (Y : Oid → Prop) (R : St → St → Prop) : Prop extends
    Closed d X R where
  time : ∀ s o t, Y o → R s (s.setTime o t)
  queue : ∀ s o q, Y o → R s (s.setDelayed o q)
  focusDone : ∀ s, R s { s with nextFocus := none }

theorem LogGrow.since {s s' : St} (h : LogGrow s s') : s'.log = s.since s' ++ s.log := by
  obtain ⟨l, h⟩ := h
  simp [St.since, h]

theorem since_of {s s' : St} {l} (h : s'.log = l ++ s.log) : s.since s' = l := by
  simp [St.since, h]

section
variable {d : Doc} {X : Eid → Prop} {Y : Oid → Prop} {R : St → St → Prop} (hT : TClosed d X Y R)
variable {r : Rec} (hr : RecPres R r)
include hT hr

theorem pres_runDue (o l) : Pres R (runDue d r o l) := by
  have hR := hT.toClosed
  induction l with
  | nil => exact Pres.pure hR _
  | cons a l ih => unfold runDue; pres hR

theorem pres_objTick (o df) (ho : Y o) : Pres R (objTick d r o df) := by
  have hR := hT.toClosed
  unfold objTick
  have h1 := Pres.modify (R := R) (f := fun s => s.setTime o (tadd (s.time o) df)) (fun s => hT.time s o _ ho)
  have h2 := fun now => Pres.modify (R := R) (f := fun s => s.setDelayed o
      ((s.delayed o).map fun p => if p.2 ≤ now then (p.1, NONE) else p)) (fun s => hT.queue s o _ ho)
  have h3 := Pres.modify (R := R) (f := fun s => s.setDelayed o
      ((s.delayed o).filter fun p => p.2 ≠ NONE)) (fun s => hT.queue s o _ ho)
  have h4 := fun l => pres_runDue hT hr o l
  pres hR <;> first | exact h2 _ | exact h4 _

omit hT in
theorem pres_evalU (hR : Closed d X R) (a : Act) : Pres R (do let _ ← r.evalA a; pure () : M Unit) := by
  pres hR

theorem pres_mediaRest (o df) : Pres R (do
    let s ← M.get
    match s.player o with
    | none => pure ()
    | some p => do
      M.modify fun s => s.setPlayer o (some { p with time := tadd p.time df })
      if p.eos ∨ (p.dur ≠ NONE ∧ s.time o > p.dur) then do
        let _ ← r.evalA { ev := (d.obj o).lambda, tr := .stop }
        pure ()
      else pure () : M Unit) := by
  have hR := hT.toClosed
  constructor
  intro s
  simp only [wp_bind, wp_get]
  cases hp : s.player o with
  | none => exact hR.refl s
  | some p =>
    simp only [wp_bind, wp_modify]
    have h1 := hR.player s o p { p with time := tadd p.time df } hp
    split
    · exact wp_mono ((pres_evalU hr hR _).run _) fun _ s2 h2 => hR.trans h1 h2
    · exact h1

theorem pres_mediaTick (o df) (ho : Y o) : Pres R (mediaTick d r o df) := by
  have hR := hT.toClosed
  have h1 := pres_objTick hT hr o df ho
  have h2 := pres_mediaRest hT hr o df
  unfold mediaTick
  exact Pres.bind hR h1 fun _ => h2

theorem pres_updateFocus (i) : Pres R (updateFocus d r i) := by
  have hR := hT.toClosed
  unfold updateFocus; pres hR

theorem pres_focusPart : Pres R (do
    let s ← M.get
    match s.nextFocus with
    | some i => do
      updateFocus d r i
      M.modify fun s => { s with nextFocus := none }
    | none => pure () : M Unit) := by
  have hR := hT.toClosed
  have h1 := fun i => pres_updateFocus hT hr i
  have h2 := Pres.modify (R := R) (f := fun s => { s with nextFocus := none }) (fun s => hT.focusDone s)
  pres hR <;> exact h1 _

theorem pres_settingsTick (o df) (ho : Y o) : Pres R (settingsTick d r o df) := by
  have hR := hT.toClosed
  have h1 := fun i => pres_updateFocus hT hr i
  have h2 := pres_mediaTick hT hr o df ho
  have h3 := Pres.modify (R := R) (f := fun s => { s with nextFocus := none }) (fun s => hT.focusDone s)
  unfold settingsTick
  pres hR <;> exact h1 _

theorem pres_ctxTick (o df) (ho : Y o) : Pres R (ctxTick d r o df) := by
  have hR := hT.toClosed
  have h1 := pres_objTick hT hr o df ho
  unfold ctxTick
  pres hR

theorem pres_sendTick1 (df o) (ho : Y o) : Pres R (sendTick1 d r df o) := by
  unfold sendTick1
  split
  · exact pres_ctxTick hT hr o df ho
  · exact pres_objTick hT hr o df ho
  · exact pres_mediaTick hT hr o df ho
  · exact pres_settingsTick hT hr o df ho

omit hr in
theorem pres_forAll {f : Oid → M Unit} {l : List Oid} (h : ∀ o ∈ l, Pres R (f o)) : Pres R (forAll f l) := by
  have hR := hT.toClosed
  induction l with
  | nil => exact Pres.pure hR _
  | cons o l ih =>
    unfold forAll
    have h1 := h o (by simp)
    have h2 := ih fun o ho => h o (by simp [ho])
    pres hR

theorem pres_evalAll (t es) : Pres R (evalAll r t es) := by
  have hR := hT.toClosed
  induction es with
  | nil => exact Pres.pure hR _
  | cons e es ih => unfold evalAll; pres hR

theorem pres_moveFocus (p key press) : Pres R (moveFocus p key press) := by
  have hR := hT.toClosed
  have h1 := fun x => pres_scheduleFocus hR x
  unfold moveFocus; pres hR <;> exact h1 _

theorem pres_mediaKey (o key press) : Pres R (mediaKey d r o key press) := by
  have hR := hT.toClosed
  have h1 := fun p => pres_moveFocus hT hr p key press
  have h2 := fun t es => pres_evalAll hT hr t es
  unfold mediaKey; pres hR <;> first | exact h1 _ | exact h2 _ _

theorem pres_sendKey1 (key press o) : Pres R (sendKey1 d r key press o) := by
  have hR := hT.toClosed
  have h1 := pres_mediaKey hT hr o key press
  unfold sendKey1; pres hR

theorem pres_docKey (key press) : Pres R (docKey d r key press) := by
  have hR := hT.toClosed
  have h1 := fun l => pres_forAll (l := l) hT fun o _ => pres_sendKey1 hT hr key press o
  unfold docKey; pres hR <;> exact h1 _

end
end Ginga
