import Verif.Props.C02
/-! # C22 — documents do not crash the formatter

Full statement: for every accepted document no history of calls makes an internal assertion fail
(abort) or dereferences a missing object (undefined behaviour).

* The second half is `C22_no_missing_object`: every history of every well-formed document, with the
  one exception of C39 (animation of a compound property).
* The first half is false: `C22_fails_anchor`, `C22_fails_attribution`, `C22_fails_settings`. -/
namespace Ginga
open Ex

/-- **C22**, undefined behaviour.  No history of calls on well-formed documents in which no link can
animate a compound property (`bounds`, `location`, `size`) of a media ends in undefined behaviour. -/
theorem C22_no_missing_object (n : Nat) (focus : String) (w h : Int) (ops : List Op) (hops : OpsWF ops)
    (hc : ∀ d, Op.start (some d) ∈ ops → ∀ e, (d.ev e).typ = .attribution →
      (d.obj (d.ev e).obj).kind.isMedia = true →
      (d.ev e).id ≠ "bounds" ∧ (d.ev e).id ≠ "location" ∧ (d.ev e).id ≠ "size") :
    execAll n (Fmt.new focus w h) ops ≠ .ub := by
  intro hub
  obtain ⟨d, hd, e, h1, h2, h3⟩ := C02_no_missing_player n focus w h ops hops hub
  obtain ⟨a, b, c⟩ := hc d hd e h1 h2
  simp [compoundProp, a, b, c] at h3

/-- The hypotheses of `C22_no_missing_object` are met by a presentation of `twoMedias`. -/
example : OpsWF [.start (some twoMedias), tick 0] ∧
    ∀ d, Op.start (some d) ∈ [Op.start (some twoMedias), tick 0] → ∀ e, (d.ev e).typ = .attribution →
      (d.obj (d.ev e).obj).kind.isMedia = true →
      (d.ev e).id ≠ "bounds" ∧ (d.ev e).id ≠ "location" ∧ (d.ev e).id ≠ "size" := by
  refine ⟨?_, ?_⟩
  · intro d hd; simp [tick] at hd; subst hd; exact twoMedias_wf
  · intro d hd e he _
    simp [tick] at hd; subst hd
    match e, he with
    | 0, he => exact absurd he (by decide)
    | 1, he => exact absurd he (by decide)
    | 2, he => exact absurd he (by decide)
    | 3, he => exact absurd he (by decide)
    | 4, he => exact absurd he (by decide)
    | 5, _ => decide
    | e + 6, he =>
      have : (twoMedias.ev (e + 6)).typ = .presentation := rfl
      rw [this] at he; cases he

/-! ## Documents that end the process -/

/-- Body(0), settings(1) and a media m(2) with an anchor from 1 ns on (event 3) and a property `p`
(event 5), started by the port, with the given links. -/
def crashDoc (links : List Link) : Doc :=
  mkDoc env0
    [ { kind := .context, id := "__root__", children := [1, 2], events := [0], lambda := 0,
        ports := [2], links := links },
      { kind := .settings, id := "__settings__", parent := some 0, events := [1, 4], lambda := 1,
        props0 := [("type", "application/x-ginga-settings")] },
      { kind := .media, id := "m", parent := some 0, events := [2, 3, 5], lambda := 2 } ]
    [ { typ := .presentation, obj := 0, id := "@lambda" },
      { typ := .presentation, obj := 1, id := "@lambda" },
      { typ := .presentation, obj := 2, id := "@lambda" },
      { typ := .presentation, obj := 2, id := "seg", begin_ := 1 },
      { typ := .attribution, obj := 1, id := "service.currentFocus" },
      { typ := .attribution, obj := 2, id := "p" } ]
    0 1

theorem crashDoc_wf (links : List Link) : DocWF (crashDoc links) := mkDoc_wf [0, 1, 1] (by rfl)

def isAbort {α : Type} : Res α → Bool
  | .abort => true
  | _ => false

theorem isAbort_iff {α : Type} {x : Res α} : isAbort x = true ↔ x = .abort := by
  cases x <;> simp [isAbort]

/-- **C22 fails**: "when the anchor begins, pause the media; when the media pauses, stop the anchor"
(the anchor of a paused media is stopped: assertion). -/
theorem C22_fails_anchor : ∃ links, DocWF (crashDoc links) ∧
    execAll 40 (Fmt.new "" 800 600) [.start (some (crashDoc links)), tick 0, tick 1] = .abort := by
  refine ⟨[{ conds := [{ ev := 3, tr := .start }], acts := [{ ev := 2, tr := .pause }] },
    { conds := [{ ev := 2, tr := .pause }], acts := [{ ev := 3, tr := .stop }] }], crashDoc_wf _, ?_⟩
  exact isAbort_iff.1 (by decide +kernel)

/-- **C22 fails**: "when the anchor begins, set `p` during one second and pause that" (a transition of
an attribution event other than start and stop: assertion). -/
theorem C22_fails_attribution : ∃ links, DocWF (crashDoc links) ∧
    execAll 40 (Fmt.new "" 800 600) [.start (some (crashDoc links)), tick 0, tick 1] = .abort := by
  refine ⟨[{ conds := [{ ev := 3, tr := .start }],
             acts := [{ ev := 5, tr := .start, value := "1", duration := "1s" },
                      { ev := 5, tr := .pause }] }], crashDoc_wf _, ?_⟩
  exact isAbort_iff.1 (by decide +kernel)

/-- **C22 fails**: "when the anchor begins, stop the settings object" (the body then has one awake
child which is not the settings: assertion at the next tick). -/
theorem C22_fails_settings : ∃ links, DocWF (crashDoc links) ∧
    execAll 40 (Fmt.new "" 800 600) [.start (some (crashDoc links)), tick 0, tick 1, tick 1] = .abort := by
  refine ⟨[{ conds := [{ ev := 3, tr := .start }], acts := [{ ev := 1, tr := .stop }] }], crashDoc_wf _, ?_⟩
  exact isAbort_iff.1 (by decide +kernel)

/-- **C22 fails**: a window that becomes as narrow or as low as nothing ends the process, at every moment of every session. -/
theorem C22_fails_resize (n : Nat) (f : Fmt) (w h : Int) (hs : w ≤ 0 ∨ h ≤ 0) : exec n f (.resize w h) = .abort := by
  simp only [exec, fmtResize]
  rw [if_neg (by omega)]
  rfl

/-- ... and no other size does while nothing is presented; the size is the one given. -/
theorem C22_resize (n : Nat) (f : Fmt) (w h : Int) (hw : 0 < w) (hh : 0 < h) (hp : f.playing = false) :
    exec n f (.resize w h) = .ok (true, { f with width := w, height := h }) := by
  simp only [exec, fmtResize]
  rw [if_pos ⟨hw, hh⟩]
  simp [hp]

end Ginga
