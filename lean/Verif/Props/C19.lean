import Verif.Props.C18
/-! # C19 — a new presentation starts without inherited focus

Full statement: starting a document after another one was stopped presents it as if it were the first
one.  It is false (`C19_fails_inherited_focus`): the focus index is static and survives.
`C19_only_focus_partial` shows that the focus index (and the window size, which is meant to survive) is the
only thing that does. -/
set_option linter.unusedVariables false
namespace Ginga
open Ex

/-- **C19** (partial): whatever happened before, a document started on a stopped formatter and every
later call behave exactly as on a new formatter with the same window size and the same focus index. -/
theorem C19_only_focus_partial {f : Fmt} (hf : Reachable f) (hstop : f.playing = false) (n : Nat) (d : Doc)
    (ops : List Op) :
    execAll n f (.start (some d) :: ops) =
      execAll n (Fmt.new f.focus f.width f.height) (.start (some d) :: ops) := by
  have hdoc : f.doc = none := by
    have := hf.ok.doc
    rw [hstop] at this
    cases h : f.doc with
    | none => rfl
    | some d => rw [h] at this; cases this
  have : exec n f (.start (some d)) = exec n (Fmt.new f.focus f.width f.height) (.start (some d)) := by
    obtain ⟨pl, doc, st, eos, fo, w, h, a, b, c⟩ := f
    simp only at hstop hdoc
    subst hstop hdoc
    rfl
  simp only [execAll, this]

/-- Settings(0) before the body(1) in memory; media `a`(2), `b`(3) with focus indices 1 and 2; `b` has a
selection event without key (5). -/
def staleDoc : Doc :=
  mkDoc env0
    [ { kind := .settings, id := "__settings__", parent := some 1, events := [0, 4], lambda := 0,
        props0 := [("type", "application/x-ginga-settings")] },
      { kind := .context, id := "__root__", children := [0, 2, 3], events := [1], lambda := 1,
        ports := [2, 3] },
      { kind := .media, id := "a", parent := some 1, events := [2], lambda := 2,
        props0 := [("focusIndex", "1"), ("moveRight", "2")] },
      { kind := .media, id := "b", parent := some 1, events := [3, 5], lambda := 3,
        props0 := [("focusIndex", "2")] } ]
    [ { typ := .presentation, obj := 0, id := "@lambda" },
      { typ := .presentation, obj := 1, id := "@lambda" },
      { typ := .presentation, obj := 2, id := "@lambda" },
      { typ := .presentation, obj := 3, id := "@lambda" },
      { typ := .attribution, obj := 0, id := "service.currentFocus" },
      { typ := .selection, obj := 3, id := "" } ]
    1 0

theorem staleDoc_wf : DocWF staleDoc := mkDoc_wf [1, 0, 1, 1] (by decide +kernel)

/-- The first presentation: the user moves the focus to `b`; the document is stopped. -/
def staleOps : List Op :=
  [.start (some staleDoc), tick 0, tick 1, tick 1, .sendKey "CURSOR_RIGHT" true, tick 1, .stop]
/-- The second presentation: first tick, then ENTER. -/
def freshOps : List Op := [.start (some staleDoc), tick 0, .sendKey "ENTER" true]

/-- **C19 fails**: the same document with the same input, presented after a first presentation was
stopped, selects media `b`, which it does not on a new formatter. -/
theorem C19_fails_inherited_focus :
    ∃ bs f, execAll 50 (Fmt.new "" 800 600) staleOps = .ok (bs, f) ∧ f.playing = false ∧ f.doc.isNone ∧
    ∃ cs f1 cs' f2, execAll 50 f freshOps = .ok (cs, f1) ∧
      execAll 50 (Fmt.new "" 800 600) freshOps = .ok (cs', f2) ∧
      f1.st.est 5 = .occurring ∧ f2.st.est 5 = .sleeping := by
  have h : (match execAll 50 (Fmt.new "" 800 600) staleOps with
    | .ok (bs, f) => !f.playing && f.doc.isNone &&
      (match execAll 50 f freshOps, execAll 50 (Fmt.new "" 800 600) freshOps with
       | .ok (cs, f1), .ok (cs', f2) =>
         decide (f1.st.est 5 = .occurring) && decide (f2.st.est 5 = .sleeping)
       | _, _ => false)
    | _ => false) = true := by decide +kernel
  cases h1 : execAll 50 (Fmt.new "" 800 600) staleOps with
  | ok p =>
    obtain ⟨bs, f⟩ := p
    rw [h1] at h
    simp only [Bool.and_eq_true, Bool.not_eq_true'] at h
    refine ⟨bs, f, rfl, h.1.1, h.1.2, ?_⟩
    have h := h.2
    cases h2 : execAll 50 f freshOps with
    | ok q =>
      cases h3 : execAll 50 (Fmt.new "" 800 600) freshOps with
      | ok q' =>
        rw [h2, h3] at h
        simp only [Bool.and_eq_true, decide_eq_true_eq] at h
        exact ⟨q.1, q.2, q'.1, q'.2, rfl, rfl, h.1, h.2⟩
      | _ => rw [h2, h3] at h; cases h
    | _ => rw [h2] at h; cases h
  | _ => rw [h1] at h; cases h

/-- Both histories are histories of well-formed documents. -/
example : OpsWF staleOps ∧ OpsWF freshOps := by
  constructor <;> intro d hd <;> simp [staleOps, freshOps, tick] at hd <;> subst hd <;> exact staleDoc_wf

/-- Non-vacuity of `C19_only_focus_partial`: a stopped, reachable formatter with a non-trivial past. -/
example : ∃ f, Reachable f ∧ f.playing = false ∧ f.focus = "2" := by
  have h : (match execAll 50 (Fmt.new "" 800 600) staleOps with
    | .ok (bs, f) => !f.playing && decide (f.focus = "2")
    | _ => false) = true := by decide +kernel
  cases h1 : execAll 50 (Fmt.new "" 800 600) staleOps with
  | ok p =>
    rw [h1] at h
    simp only [Bool.and_eq_true, Bool.not_eq_true', decide_eq_true_eq] at h
    exact ⟨p.2, ⟨50, _, _, _, staleOps, p.1, by
      intro d hd; simp [staleOps, tick] at hd; subst hd; exact staleDoc_wf, h1⟩, h⟩
  | _ => rw [h1] at h; cases h

end Ginga
