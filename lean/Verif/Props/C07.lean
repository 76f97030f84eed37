import Verif.Proofs.Witness
import Verif.Props.C02
/-! # C07, C08 — end of document and the state machine of the formatter -/
namespace Ginga
open Ex

/-- The body of the presented document is sleeping. -/
def BodyAsleep (f : Fmt) : Prop := ∃ d, f.doc = some d ∧ f.st.est (d.obj d.root).lambda = .sleeping

theorem guard_iff {f : Fmt} (hf : FmtOk f) (b : Bool)
    (h : b = true ↔ f.playing = true ∧ f.eos = false ∧
        ∀ d, f.doc = some d → isSleeping d f.st d.root = false) :
    b = true ↔ f.playing = true ∧ ¬ BodyAsleep f := by
  rw [h]
  constructor
  · rintro ⟨h1, h2, h3⟩
    refine ⟨h1, ?_⟩
    rintro ⟨d, hd, hs⟩
    have := h3 d hd
    simp [isSleeping, hs] at this
  · rintro ⟨h1, h2⟩
    refine ⟨h1, hf.eos, ?_⟩
    intro d hd
    cases hs : isSleeping d f.st d.root with
    | false => rfl
    | true => exact absurd ⟨d, hd, by simpa [isSleeping] using hs⟩ h2

/-- **C07**.  In every reachable state, `sendTick` (and likewise `sendKey`) returns `true`
exactly when the formatter was playing and the body was not sleeping at the moment of the call;
when it returns `false` the formatter is stopped and has no document. -/
theorem C07_tick_and_key {f : Fmt} (hf : Reachable f) (n : Nat) (op : Op)
    (hop : (∃ total diff frame, op = .sendTick total diff frame) ∨ (∃ k p, op = .sendKey k p))
    (b : Bool) (f' : Fmt) (he : exec n f op = .ok (b, f')) :
    (b = true ↔ f.playing = true ∧ ¬ BodyAsleep f) ∧
    f'.playing = b ∧ (b = false → f'.doc = none) := by
  have hok := hf.ok
  have hwf : ∀ d, op = .start (some d) → DocWF d := by
    rcases hop with ⟨_, _, _, rfl⟩ | ⟨_, _, rfl⟩ <;> simp
  have hok' := rwp_ok (exec_ok (n := n) hok op hwf) he
  have main : b = f'.playing ∧ (b = true ↔ f.playing = true ∧ f.eos = false ∧
        ∀ d, f.doc = some d → isSleeping d f.st d.root = false) := by
    rcases hop with ⟨total, diff, frame, rfl⟩ | ⟨k, p, rfl⟩
    · have := rwp_ok (fmtTick_inv (U := True) (n := n) triv_inv hok.inv (fun _ _ _ => trivial)
        total diff frame) he
      exact ⟨this.2.2.1, this.2.2.2.2⟩
    · have := rwp_ok (fmtKey_inv (U := True) (n := n) triv_inv hok.inv (fun _ _ _ => trivial) k p) he
      exact ⟨this.2.2.1, this.2.2.2.2⟩
  refine ⟨guard_iff hok b main.2, main.1.symm, ?_⟩
  intro hb
  have h1 := hok'.doc
  simp only at h1
  rw [← main.1, hb] at h1
  cases hd : f'.doc with
  | none => rfl
  | some d => rw [hd] at h1; cases h1

/-- **C07**, after the end.  Once the formatter is stopped, ticks and keys return `false` and
change nothing, until a start succeeds. -/
theorem C07_stopped_ignores {f : Fmt} (hpl : f.playing = false) (n : Nat) (op : Op)
    (hop : (∃ total diff frame, op = .sendTick total diff frame) ∨ (∃ k p, op = .sendKey k p)) :
    exec n f op = .ok (false, f) := by
  rcases hop with ⟨total, diff, frame, rfl⟩ | ⟨k, p, rfl⟩ <;>
    simp [exec, fmtTick, fmtKey, guarded, hpl]

/-- **C08**, start.  A start that returns `true` was made in state STOPPED with a file that
parses and leaves the formatter PLAYING that document with its body and settings presented; a
start in state PLAYING returns `false` and changes nothing; a start that returns `false` in
state STOPPED leaves the formatter STOPPED without document (so it can be started again). -/
theorem C08_start {f : Fmt} (hf : Reachable f) (n : Nat) (p : Option Doc)
    (hp : ∀ d, p = some d → DocWF d) (b : Bool) (f' : Fmt)
    (he : exec n f (.start p) = .ok (b, f')) :
    (b = true → f.playing = false ∧ f'.playing = true ∧ f'.doc = p ∧ p.isSome = true) ∧
    (f.playing = true → b = false ∧ f' = f) ∧
    (f.playing = false → b = false → f'.playing = false ∧ f'.doc = none ∧ p = none) := by
  have hok := hf.ok
  have hwf : ∀ d, Op.start p = .start (some d) → DocWF d := by
    intro d hd; simp at hd; exact hp d hd
  have hok' := rwp_ok (exec_ok (n := n) hok _ hwf) he
  have h1 := rwp_ok (fmtStart_inv (U := True) (n := n) triv_inv hok.inv hp (fun _ _ _ => trivial)) he
  obtain ⟨-, h2, h3, -⟩ := h1
  refine ⟨?_, h3, ?_⟩
  · intro hb
    obtain ⟨h4, h5, h6⟩ := h2 hb
    refine ⟨h4, h5, h6, ?_⟩
    have := hok'.doc
    simp only at this h5 h6
    rw [h5, h6] at this
    exact this.symm
  · intro hpl hb
    subst hb
    simp only [exec, fmtStart, hpl, Bool.false_eq_true, if_false] at he
    have hdoc : f.doc = none := by
      have := hok.doc; rw [hpl] at this
      cases h : f.doc with
      | none => rfl
      | some d => rw [h] at this; cases this
    simp only [hdoc, Option.isSome_none, Bool.false_eq_true, if_false] at he
    cases p with
    | none => cases he; exact ⟨hpl, hdoc, rfl⟩
    | some d =>
      exfalso
      obtain ⟨rank, hw⟩ := hp d rfl
      unfold Fmt.run at he
      simp only at he
      cases hev : (run d n).evalA { ev := (d.obj d.root).lambda, tr := .start } (d.init f.focus) with
      | ok q =>
        obtain ⟨k, s1⟩ := q
        have hk := start_count hw (Good.init hw f.focus) rfl hev
        have hk0 : k ≠ 0 := by omega
        rw [hev] at he
        simp only [Res.bind, if_neg hk0] at he
        cases he2 : (run d n).trans (d.obj d.settings).lambda .start s1 with
        | ok q2 =>
          obtain ⟨b, s2⟩ := q2
          rw [he2] at he
          cases b <;> simp at he
        | _ => rw [he2] at he; cases he
      | _ => rw [hev] at he; cases he

/-- **C08**, stop.  `stop` returns `true` exactly when the formatter was not stopped, and leaves
it stopped without document; a stop of a stopped formatter changes nothing. -/
theorem C08_stop {f : Fmt} (hf : Reachable f) (n : Nat) (b : Bool) (f' : Fmt)
    (he : exec n f .stop = .ok (b, f')) :
    (b = true ↔ f.playing = true) ∧ f'.playing = false ∧ f'.doc = none ∧
    (f.playing = false → f' = f) := by
  have hok := hf.ok
  obtain ⟨-, h2, -, h4, h5⟩ :=
    rwp_ok (fmtStop_inv (U := True) (n := n) triv_inv hok.inv (fun _ _ _ => trivial)) he
  obtain ⟨-, h6, -⟩ := rwp_ok (fmtStop_ok (n := n) hok.doc hok.eos) he
  simp only at h2 h4 h5 h6
  exact ⟨by rw [h4], h2, h6, h5⟩

/-- **C08**, invariant.  Between calls the formatter is PLAYING exactly when it holds a
document. -/
theorem C08_playing_iff_document {f : Fmt} (hf : Reachable f) :
    f.playing = true ↔ f.doc ≠ none := by
  rw [hf.ok.doc]
  cases f.doc <;> simp

/-! Non-vacuity: a presentation that plays, whose body goes to sleep and which then stops. -/
example : observe 50 (Fmt.new "" 800 600)
    [.start (some twoMedias), tick 0, .start none, tick 3000000000, tick 2000000000, tick 1, tick 1, tick 1,
     .start none]
    [0, 2, 3] = some ([true, true, false, true, true, true, false, false, false],
      [.sleeping, .sleeping, .sleeping], false) := by decide +kernel
example : ∃ f, Reachable f ∧ f.doc = some twoMedias ∧
    (f.playing && decide (f.st.est 0 = .sleeping)) = true :=
  witness twoMedias twoMedias_wf 50 [tick 0, tick 3000000000, tick 2000000000, tick 1] rfl _
    (by decide +kernel)

end Ginga
