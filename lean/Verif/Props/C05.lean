import Verif.Proofs.Pause
import Verif.Props.C04
/-! # C05 — pausing and resuming a composition

Full statement: PAUSE on an occurring composition pauses all the occurring content below it, at any
depth, and RESUME resumes exactly that content; afterwards STOP still stops it.

Proved (`C05_pause_partial`, `C05_resume_partial`) for contexts without switches inside, when nothing
inside is paused already and no link reacts to pauses or resumes (such a link may legitimately
restart content); `C05_stop_partial` for STOP afterwards, with no switch inside.  False otherwise: `C05_fails_switch` (a switch forgets
which alternative it presents: its content is never resumed, nor stopped), `C05_fails_individual`
(content paused beforehand on its own is resumed too), `C05_fails_inner` (content running inside an
inner context that is itself paused keeps running). -/
set_option linter.unusedVariables false
namespace Ginga
open Ex

/-- `x` is the composition `o` or something inside it. -/
def Within' (d : Doc) (o x : Oid) : Prop := x = o ∨ Below d x o

/-- `e` is an event pauses act on: the whole content of an object, or an anchor of a media. -/
def Content (d : Doc) (e : Eid) : Prop :=
  e = (d.obj (d.ev e).obj).lambda ∨
    ((d.ev e).typ = .presentation ∧ (d.obj (d.ev e).obj).kind.isMedia = true)

theorem Below.parent_mem {d : Doc} {x o p : Oid} (h : Below d x o) (hp : (d.obj x).parent = some p) :
    Within' d o p := by
  cases h with
  | child h1 => rw [h1] at hp; cases hp; exact .inl rfl
  | step h1 h2 => rw [h1] at hp; cases hp; exact .inr h2

theorem inside_within {d : Doc} {rank : Oid → Nat} (hw : WF d rank) {o : Oid}
    (hk : (d.obj o).kind = .context) (hfree : SwitchFree d o) : Inside d (Within' d o) where
  child := by
    rintro c p hc (rfl | hp)
    · exact .inr (.child hc)
    · exact .inr (.step hc hp)
  kind := by
    rintro x (rfl | hx)
    · exact hfree.1
    · exact hfree.2 x hx
  media := by
    rintro x (rfl | hx) hm p hp
    · rw [hk] at hm; cases hm
    · rcases hx.parent_mem hp with rfl | h1
      · exact hfree.1
      · exact hfree.2 p h1

/-- If everything below a turned context was turnable or sleeping, everything turned. -/
theorem turned_all {d : Doc} {rank : Oid → Nat} (hw : WF d rank) {o : Oid} {A B : EState} {D : Oid → Prop}
    {s s' : St} (hAB : A ≠ B) (hA : A ≠ .sleeping) (hx3 : ∀ z : EState, z = A ∨ z = B ∨ z = .sleeping)
    (hk : (d.obj o).kind = .context) (hfree : SwitchFree d o) (hi : CtxInv d s)
    (ht : Turned d D A B s s') (h1 : s.est (d.obj o).lambda = A) (h2 : s'.est (d.obj o).lambda = B)
    (hno : ∀ x, Below d x o → s.est (d.obj x).lambda ≠ B) :
    ∀ x, Below d x o → s.est (d.obj x).lambda = A → s'.est (d.obj x).lambda = B := by
  have fin : ∀ x, s.est (d.obj x).lambda = A → s'.est (d.obj x).lambda ≠ A → s'.est (d.obj x).lambda = B := by
    intro x hx hx'
    rcases ht.only (d.obj x).lambda with h | h
    · exact absurd (h.trans hx) hx'
    · exact h.2.1
  intro x hx
  have hno' := hno
  clear hno
  have main : ∀ {x o'}, Below d x o' → o' = o → s.est (d.obj x).lambda = A → s'.est (d.obj x).lambda = B := by
    intro x o' hx
    induction hx with
    | @child x o' hp =>
      intro he; subst he
      intro hxA
      exact fin x hxA (ht.below o' hk h1 h2 x hp)
    | @step x y o' hp hy ih =>
      intro he; subst he
      intro hxA
      have hyk : (d.obj y).kind = .context := by
        rcases hw.parent_comp _ _ hp with h | h
        · exact h
        · exact absurd h (hfree.2 y hy)
      have hxf : SwitchFree d x := by
        refine ⟨hfree.2 x (.step hp hy), fun z hz => hfree.2 z ?_⟩
        clear hxA ih
        induction hz with
        | child h1 => exact .step h1 (.step hp hy)
        | step h1 _ ih => exact .step h1 (ih hp)
      have hys : s.est (d.obj y).lambda = A := by
        rcases hx3 (s.est (d.obj y).lambda) with h | h | h
        · exact h
        · exact absurd h (hno' y hy)
        · have := hi x y (hw.ctxParent_iff.2 ⟨hp, hyk⟩) hxf (by simp)
            (show s.est (d.obj x).lambda ≠ .sleeping by rw [hxA]; exact hA)
          exact absurd h this
      exact fin x hxA (ht.below y hyk hys (ih rfl hys) x hp)
  exact main hx rfl

/-- **C05** (partial: no switch inside, nothing inside already paused, no link reacts to pauses).
A PAUSE of an occurring context that returns pauses everything that was occurring inside it, at any
depth — objects, anchors and players — and changes the state of nothing else. -/
theorem C05_pause_partial {f : Fmt} (hf : Reachable f) {d : Doc} (hd : f.doc = some d) (o : Oid)
    (hk : (d.obj o).kind = .context) (hfree : SwitchFree d o) (hdf : Deaf d .pause)
    (hocc : f.st.est (d.obj o).lambda = .occurring)
    (hno : ∀ e, (d.ev e).typ = .presentation → Below d (d.ev e).obj o → f.st.est e ≠ .paused)
    (n : Nat) (b : Bool) (s' : St) (he : (run d n).trans (d.obj o).lambda .pause f.st = .ok (b, s')) :
    (∀ e, Content d e → Within' d o (d.ev e).obj → f.st.est e = .occurring → s'.est e = .paused) ∧
    (∀ e, ¬ (Content d e ∧ Within' d o (d.ev e).obj ∧ f.st.est e = .occurring) →
      s'.est e = f.st.est e) ∧
    (∀ x, Below d x o → (d.obj x).kind.isMedia = true → f.st.est (d.obj x).lambda = .occurring →
      ∃ p, s'.player x = some p ∧ p.st = .paused) := by
  obtain ⟨rank, hw, hg, hi⟩ := (hf.inv ctxInv_inv).good d hd
  have hT : Turn .pause .occurring .paused := .pause
  obtain ⟨k1, k2⟩ := (turn_run hw (inside_within hw hk hfree) hT hdf n).trans _ _ _ _
    (by rw [hw.lam_obj]; exact .inl rfl) (hw.lam_typ o) he
  have ho : s'.est (d.obj o).lambda = .paused := by
    rcases k1.only (d.obj o).lambda with h | h
    · exact absurd (h.trans hocc) k2
    · exact h.2.1
  have all := turned_all hw hT.ne (by decide) (by intro z; cases z <;> simp) hk hfree hi k1 hocc ho
    (fun x hx => hno _ (hw.lam_typ x) (by rw [hw.lam_obj]; exact hx))
  refine ⟨?_, ?_, ?_⟩
  · rintro e hc hin hocc'
    rcases hin with hin | hin
    · rcases hc with hc | ⟨ht, hm⟩
      · rw [hc, hin]; exact ho
      · rw [hin, hk] at hm; cases hm
    · rcases hc with hc | ⟨ht, hm⟩
      · rw [hc] at hocc' ⊢; exact all _ hin hocc'
      · have hl : f.st.est (d.obj (d.ev e).obj).lambda = .occurring := by
          cases hs : f.st.est (d.obj (d.ev e).obj).lambda with
          | occurring => rfl
          | paused => exact absurd hs (hno _ (hw.lam_typ _) (by rw [hw.lam_obj]; exact hin))
          | sleeping => have := hg.anchor e hm ht hs; rw [this] at hocc'; cases hocc'
        have := (k1.media _ hm hl (all _ hin hl)).2 e rfl ht
        rcases k1.only e with h | h
        · exact absurd (h.trans hocc') this
        · exact h.2.1
  · intro e hne
    rcases k1.only e with h | h
    · exact h
    · refine absurd ⟨?_, h.2.2.1, h.1⟩ hne
      rcases h.2.2.2.2 with h' | h'
      · exact .inl (hw.lam_uniq e h')
      · exact .inr ⟨h.2.2.2.1, h'⟩
  · intro x hx hm hocc'
    exact (k1.media x hm hocc' (all x hx hocc')).1

/-- **C05** (partial: as `C05_pause_partial`, and no link reacts to resumes).  RESUME after PAUSE
brings every event of the document back to the state it had before the PAUSE, and the players of the
content inside are running again. -/
theorem C05_resume_partial {f : Fmt} (hf : Reachable f) {d : Doc} (hd : f.doc = some d) (o : Oid)
    (hk : (d.obj o).kind = .context) (hfree : SwitchFree d o) (hdf : Deaf d .pause) (hdf' : Deaf d .resume)
    (hocc : f.st.est (d.obj o).lambda = .occurring)
    (hno : ∀ e, (d.ev e).typ = .presentation → Below d (d.ev e).obj o → f.st.est e ≠ .paused)
    (n m : Nat) (b b' : Bool) (s' s'' : St)
    (he : (run d n).trans (d.obj o).lambda .pause f.st = .ok (b, s'))
    (he' : (run d m).trans (d.obj o).lambda .resume s' = .ok (b', s'')) :
    s''.est = f.st.est ∧
    (∀ x, Below d x o → (d.obj x).kind.isMedia = true → f.st.est (d.obj x).lambda = .occurring →
      ∃ p, s''.player x = some p ∧ p.st = .occurring) := by
  obtain ⟨p1, p2, p3⟩ := C05_pause_partial hf hd o hk hfree hdf hocc hno n b s' he
  obtain ⟨rank, hw, hg, hi⟩ := (hf.inv ctxInv_inv).good d hd
  have hp := wp_ok ((run_spec hw (U := True) (fun _ => trivial) n).trans (d.obj o).lambda .pause f.st hg) he
  have hg' := hp.steps.good hw hg
  have hi' : CtxInv d s' := ctxInv_inv.tsteps hw (.of hp.steps) hg hi
  have hT : Turn .resume .paused .occurring := .resume
  obtain ⟨k1, k2⟩ := (turn_run hw (inside_within hw hk hfree) hT hdf' m).trans _ _ _ _
    (by rw [hw.lam_obj]; exact .inl rfl) (hw.lam_typ o) he'
  have hlc : ∀ x, Content d (d.obj x).lambda := fun x => .inl (by rw [hw.lam_obj])
  have hop : s'.est (d.obj o).lambda = .paused :=
    p1 _ (hlc o) (by rw [hw.lam_obj]; exact .inl rfl) hocc
  have ho : s''.est (d.obj o).lambda = .occurring := by
    rcases k1.only (d.obj o).lambda with h | h
    · exact absurd (h.trans hop) k2
    · exact h.2.1
  have hno' : ∀ x, Below d x o → s'.est (d.obj x).lambda ≠ .occurring := by
    intro x hx hh
    by_cases h0 : f.st.est (d.obj x).lambda = .occurring
    · rw [p1 _ (hlc x) (by rw [hw.lam_obj]; exact .inr hx) h0] at hh; cases hh
    · rw [p2 _ (fun hc => h0 hc.2.2)] at hh; exact h0 hh
  have all := turned_all hw hT.ne (by decide) (by intro z; cases z <;> simp) hk hfree hi' k1 hop ho hno'
  refine ⟨?_, ?_⟩
  · funext e
    by_cases hc : Content d e ∧ Within' d o (d.ev e).obj ∧ f.st.est e = .occurring
    · have hpa := p1 e hc.1 hc.2.1 hc.2.2
      rw [hc.2.2]
      rcases hc.2.1 with hin | hin
      · rcases hc.1 with h | ⟨ht, hm⟩
        · rw [h, hin]; exact ho
        · rw [hin, hk] at hm; cases hm
      · rcases hc.1 with h | ⟨ht, hm⟩
        · rw [h] at hpa ⊢; exact all _ hin hpa
        · have hl : s'.est (d.obj (d.ev e).obj).lambda = .paused := by
            cases hs : s'.est (d.obj (d.ev e).obj).lambda with
            | paused => rfl
            | occurring => exact absurd hs (hno' _ hin)
            | sleeping => have := hg'.anchor e hm ht hs; rw [this] at hpa; cases hpa
          have := (k1.media _ hm hl (all _ hin hl)).2 e rfl ht
          rcases k1.only e with h | h
          · exact absurd (h.trans hpa) this
          · exact h.2.1
    · have hsame := p2 e hc
      rcases k1.only e with h | h
      · exact h.trans hsame
      · exfalso
        rw [hsame] at h
        rcases h.2.2.1 with hin | hin
        · rcases h.2.2.2.2 with h' | h'
          · rw [hw.lam_uniq e h', hin, hocc] at h; exact absurd h.1 (by decide)
          · rw [hin, hk] at h'; cases h'
        · exact hno e h.2.2.2.1 hin h.1
  · intro x hx hm hocc'
    have := p1 _ (hlc x) (by rw [hw.lam_obj]; exact .inr hx) hocc'
    exact (k1.media x hm this (all x hx this)).1

/-- **C05** (partial: no switch inside).  After PAUSE and RESUME of a context, a STOP that returns
leaves nothing inside it presented, whatever links reacted in between. -/
theorem C05_stop_partial {f : Fmt} (hf : Reachable f) {d : Doc} (hd : f.doc = some d) (o : Oid)
    (hk : (d.obj o).kind = .context) (hfree : SwitchFree d o)
    (n m k : Nat) (b b' b'' : Bool) (s1 s2 s3 : St)
    (h1 : (run d n).trans (d.obj o).lambda .pause f.st = .ok (b, s1))
    (h2 : (run d m).trans (d.obj o).lambda .resume s1 = .ok (b', s2))
    (h3 : (run d k).trans (d.obj o).lambda .stop s2 = .ok (b'', s3)) (x : Oid) (hx : Below d x o) :
    s3.est (d.obj x).lambda = .sleeping ∧
    ((d.obj x).kind.isMedia = true → s3.player x = none ∧
      ∀ e, (d.ev e).obj = x → (d.ev e).typ = .presentation → s3.est e = .sleeping) := by
  obtain ⟨rank, hw, hg, hi⟩ := (hf.inv ctxInv_inv).good d hd
  have step : ∀ {n t b s s'}, Good d rank s → CtxInv d s → (run d n).trans (d.obj o).lambda t s = .ok (b, s') →
      Good d rank s' ∧ CtxInv d s' := by
    intro n t b s s' hg hi he
    have hp := wp_ok ((run_spec hw (U := True) (fun _ => trivial) n).trans (d.obj o).lambda t s hg) he
    exact ⟨hp.steps.good hw hg, ctxInv_inv.tsteps hw (.of hp.steps) hg hi⟩
  obtain ⟨g1, i1⟩ := step hg hi h1
  obtain ⟨g2, i2⟩ := step g1 i1 h2
  obtain ⟨g3, i3⟩ := step g2 i2 h3
  have hp := wp_ok ((run_spec hw (U := True) (fun _ => trivial) k).trans (d.obj o).lambda .stop s2 g2) h3
  have hso : s3.est (d.obj o).lambda = .sleeping := hp.stopped (.inl rfl) (hw.lam_typ o)
  have hsx := below_sleeping hw i3 hk hfree hso hx
  refine ⟨hsx, fun hm => ⟨(g3.player x hm).1 hsx, ?_⟩⟩
  intro e heo het
  subst heo
  exact g3.anchor e hm het hsx

/-- The hypotheses of the theorems are met: in `nestedDoc` the media m(4) runs inside e(3) inside
c(2), and PAUSE, then RESUME, then STOP of c(2) return. -/
example : ∃ f, Reachable f ∧ f.doc = some nestedDoc ∧ SwitchFree nestedDoc 2 ∧ Deaf nestedDoc .pause ∧
    Deaf nestedDoc .resume ∧ Below nestedDoc 4 2 ∧ f.st.est 2 = .occurring ∧ f.st.est 4 = .occurring ∧
    (∀ e, (nestedDoc.ev e).typ = .presentation → Below nestedDoc (nestedDoc.ev e).obj 2 →
      f.st.est e ≠ .paused) ∧
    ∃ s' s'', (run nestedDoc 20).trans 2 .pause f.st = .ok (true, s') ∧
      (run nestedDoc 20).trans 2 .resume s' = .ok (true, s'') ∧ s'.est 4 = .paused ∧
      ∃ s3, (run nestedDoc 20).trans 2 .stop s'' = .ok (true, s3) := by
  have hb : Below nestedDoc 4 2 := .step (y := 3) rfl (.child rfl)
  have ksw : ∀ x, (nestedDoc.obj x).kind ≠ .switch := by
    intro x
    match x with
    | 0 => decide | 1 => decide | 2 => decide | 3 => decide | 4 => decide
    | x + 5 => exact fun h => nomatch h
  have deaf : ∀ t, Deaf nestedDoc t := by
    intro t x
    match x with
    | 0 => exact fun l hl => nomatch hl
    | 1 => exact fun l hl => nomatch hl
    | 2 => exact fun l hl => nomatch hl
    | 3 => exact fun l hl => nomatch hl
    | 4 => exact fun l hl => nomatch hl
    | x + 5 => exact fun l hl => nomatch hl
  obtain ⟨f, h1, h2, h3⟩ := witness nestedDoc nestedDoc_wf 50 [tick 0, tick 1, tick 1] rfl
    (fun f => decide (f.st.est 2 = .occurring) && (decide (f.st.est 4 = .occurring) &&
      ((List.range 6).all (fun e => decide (f.st.est e ≠ .paused)) &&
      okAnd ((run nestedDoc 20).trans 2 .pause f.st) (fun b s => b && (decide (s.est 4 = .paused) &&
        okAnd ((run nestedDoc 20).trans 2 .resume s) (fun b' s => b' &&
          okAnd ((run nestedDoc 20).trans 2 .stop s) (fun b'' _ => b''))))))) (by decide +kernel)
  simp only [Bool.and_eq_true, decide_eq_true_eq, okAnd_iff, List.all_eq_true, List.mem_range] at h3
  obtain ⟨a1, a2, a3, b, s', e1, rfl, e2, b', s'', e3, rfl, b'', s3, e4, rfl⟩ := h3
  refine ⟨f, h1, h2, ⟨ksw 2, fun x _ => ksw x⟩, deaf _, deaf _, hb, a1, a2, ?_, s', s'', e1, e3, e2, s3, e4⟩
  intro e _ hbe
  by_cases he : e < 6
  · exact a3 e he
  · -- events beyond the table belong to isolated objects
    obtain ⟨k, rfl⟩ := Nat.exists_eq_add_of_le (Nat.le_of_not_lt he)
    have hpar : (nestedDoc.obj (nestedDoc.ev (6 + k)).obj).parent = none := by
      have h6 : (nestedDoc.ev (6 + k)).obj = k + 5 := by
        rw [Nat.add_comm 6 k]; exact congrArg (· + 5) (Nat.add_sub_cancel k 6)
      rw [h6]; rfl
    cases hbe with
    | child h => rw [hpar] at h; cases h
    | step h _ => rw [hpar] at h; cases h

/-! ## What is false -/

/-- body(0) with settings(1) and a context c(2) whose port leads to a switch(3) with the single
alternative m(4). -/
def pauseSwitch : Doc :=
  mkDoc env0
    [ { kind := .context, id := "__root__", children := [1, 2], events := [0], lambda := 0,
        ports := [2] },
      { kind := .settings, id := "__settings__", parent := some 0, events := [1, 5], lambda := 1,
        props0 := [("type", "application/x-ginga-settings")] },
      { kind := .context, id := "c", parent := some 0, children := [3], events := [2], lambda := 2,
        ports := [3] },
      { kind := .switch, id := "sw", parent := some 2, children := [4], events := [3],
        lambda := 3, rules := [(4, .verum)] },
      { kind := .media, id := "m", parent := some 3, events := [4], lambda := 4 } ]
    [ { typ := .presentation, obj := 0, id := "@lambda" },
      { typ := .presentation, obj := 1, id := "@lambda" },
      { typ := .presentation, obj := 2, id := "@lambda" },
      { typ := .presentation, obj := 3, id := "@lambda" },
      { typ := .presentation, obj := 4, id := "@lambda" },
      { typ := .attribution, obj := 1, id := "service.currentFocus" } ]
    0 1

theorem pauseSwitch_wf : DocWF pauseSwitch := mkDoc_wf [0, 1, 1, 2, 3] (by decide +kernel)

/-- **C05 is false with a switch inside**: PAUSE of c(2) pauses the alternative m(4) the switch
presents; RESUME succeeds and c(2) occurs again, but m(4) stays paused; and STOP then succeeds and
puts c(2) to sleep, but m(4) is left as it is. -/
theorem C05_fails_switch : ∃ f, Reachable f ∧ f.doc = some pauseSwitch ∧ Below pauseSwitch 4 2 ∧
    f.st.est 2 = .occurring ∧ f.st.est 4 = .occurring ∧
    ∃ s1 s2 s3, (run pauseSwitch 20).trans 2 .pause f.st = .ok (true, s1) ∧
      (run pauseSwitch 20).trans 2 .resume s1 = .ok (true, s2) ∧
      (run pauseSwitch 20).trans 2 .stop s2 = .ok (true, s3) ∧
      s1.est 4 = .paused ∧ s2.est 2 = .occurring ∧ s2.est 4 = .paused ∧
      s3.est 2 = .sleeping ∧ s3.est 4 = .paused := by
  obtain ⟨f, h1, h2, h3⟩ := witness pauseSwitch pauseSwitch_wf 50 [tick 0, tick 1, tick 1] rfl
    (fun f => decide (f.st.est 2 = .occurring) && (decide (f.st.est 4 = .occurring) &&
      okAnd ((run pauseSwitch 20).trans 2 .pause f.st) (fun b s => b && (decide (s.est 4 = .paused) &&
        okAnd ((run pauseSwitch 20).trans 2 .resume s) (fun b' s2 => b' && (decide (s2.est 2 = .occurring) &&
          (decide (s2.est 4 = .paused) &&
          okAnd ((run pauseSwitch 20).trans 2 .stop s2) (fun b' s3 => b' && (decide (s3.est 2 = .sleeping) &&
            decide (s3.est 4 = .paused)))))))))) (by decide +kernel)
  simp only [Bool.and_eq_true, decide_eq_true_eq, okAnd_iff] at h3
  obtain ⟨a1, a2, b, s1, e1, rfl, e2, b', s2, e3, rfl, e4, e5, b'', s3, e6, rfl, e7, e8⟩ := h3
  exact ⟨f, h1, h2, .step (y := 3) rfl (.child rfl), a1, a2, s1, s2, s3, e1, e3, e6, e2, e4, e5, e7, e8⟩

/-- **C05 is false for a switch entered through a switchPort**: PAUSE of c(2) in `switchDoc` succeeds
and the alternative m(4) goes on occurring. -/
theorem C05_fails_switchPort : ∃ f, Reachable f ∧ f.doc = some switchDoc ∧ Below switchDoc 4 2 ∧
    f.st.est 2 = .occurring ∧ f.st.est 4 = .occurring ∧
    ∃ s1, (run switchDoc 20).trans 2 .pause f.st = .ok (true, s1) ∧
      s1.est 2 = .paused ∧ s1.est 4 = .occurring := by
  obtain ⟨f, h1, h2, h3⟩ := witness switchDoc switchDoc_wf 50 [tick 0, tick 1, tick 1] rfl
    (fun f => decide (f.st.est 2 = .occurring) && (decide (f.st.est 4 = .occurring) &&
      okAnd ((run switchDoc 20).trans 2 .pause f.st) (fun b s => b && (decide (s.est 2 = .paused) &&
        decide (s.est 4 = .occurring))))) (by decide +kernel)
  simp only [Bool.and_eq_true, decide_eq_true_eq, okAnd_iff] at h3
  obtain ⟨a1, a2, b, s1, e1, rfl, e2, e3⟩ := h3
  exact ⟨f, h1, h2, .step (y := 3) rfl (.child rfl), a1, a2, s1, e1, e2, e3⟩

/-- **RESUME of a context is not limited to what its PAUSE paused**: in `nestedDoc` m(4) is paused on
its own; PAUSE and RESUME of c(2) then set it running. -/
theorem C05_fails_individual : ∃ f, Reachable f ∧ f.doc = some nestedDoc ∧
    f.st.est 2 = .occurring ∧ f.st.est 4 = .occurring ∧
    ∃ s1 s2 s3, (run nestedDoc 20).trans 4 .pause f.st = .ok (true, s1) ∧
      (run nestedDoc 20).trans 2 .pause s1 = .ok (true, s2) ∧
      (run nestedDoc 20).trans 2 .resume s2 = .ok (true, s3) ∧
      s1.est 4 = .paused ∧ s3.est 4 = .occurring := by
  obtain ⟨f, h1, h2, h3⟩ := witness nestedDoc nestedDoc_wf 50 [tick 0, tick 1, tick 1] rfl
    (fun f => decide (f.st.est 2 = .occurring) && (decide (f.st.est 4 = .occurring) &&
      okAnd ((run nestedDoc 20).trans 4 .pause f.st) (fun b s => b && (decide (s.est 4 = .paused) &&
        okAnd ((run nestedDoc 20).trans 2 .pause s) (fun b' s2 => b' &&
          okAnd ((run nestedDoc 20).trans 2 .resume s2) (fun b' s3 => b' && decide (s3.est 4 = .occurring))))))) (by decide +kernel)
  simp only [Bool.and_eq_true, decide_eq_true_eq, okAnd_iff] at h3
  obtain ⟨a1, a2, b, s1, e1, rfl, e2, b', s2, e3, rfl, b'', s3, e4, rfl, e5⟩ := h3
  exact ⟨f, h1, h2, a1, a2, s1, s2, s3, e1, e3, e4, e2, e5⟩

/-- **PAUSE does not reach into a context that is already paused**: in `nestedDoc` e(3) is paused, then
its media m(4) is resumed on its own and runs; PAUSE of c(2) succeeds and m(4) goes on. -/
theorem C05_fails_inner : ∃ f, Reachable f ∧ f.doc = some nestedDoc ∧
    f.st.est 2 = .occurring ∧ f.st.est 3 = .occurring ∧
    ∃ s1 s2 s3, (run nestedDoc 20).trans 3 .pause f.st = .ok (true, s1) ∧
      (run nestedDoc 20).trans 4 .resume s1 = .ok (true, s2) ∧
      (run nestedDoc 20).trans 2 .pause s2 = .ok (true, s3) ∧
      s2.est 4 = .occurring ∧ s3.est 2 = .paused ∧ s3.est 4 = .occurring := by
  obtain ⟨f, h1, h2, h3⟩ := witness nestedDoc nestedDoc_wf 50 [tick 0, tick 1, tick 1] rfl
    (fun f => decide (f.st.est 2 = .occurring) && (decide (f.st.est 3 = .occurring) &&
      okAnd ((run nestedDoc 20).trans 3 .pause f.st) (fun b s => b &&
        okAnd ((run nestedDoc 20).trans 4 .resume s) (fun b' s2 => b' && (decide (s2.est 4 = .occurring) &&
          okAnd ((run nestedDoc 20).trans 2 .pause s2) (fun b' s3 => b' && (decide (s3.est 2 = .paused) &&
            decide (s3.est 4 = .occurring)))))))) (by decide +kernel)
  simp only [Bool.and_eq_true, decide_eq_true_eq, okAnd_iff] at h3
  obtain ⟨a1, a2, b, s1, e1, rfl, b', s2, e2, rfl, e3, b'', s3, e4, rfl, e5, e6⟩ := h3
  exact ⟨f, h1, h2, a1, a2, s1, s2, s3, e1, e2, e4, e3, e5, e6⟩

end Ginga
