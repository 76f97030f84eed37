import Verif.Proofs.Witness
/-! # C04 — stopping a context stops everything inside it

Full statement: when a context is stopped or aborted, every object below it (at any depth) is
sleeping afterwards and no player below it is left running.  It fails for the content of
switches (`C04_fails_below_switch`); `C04_stop_partial` proves it for contexts with no switch
inside. -/
namespace Ginga
open Ex

/-- Below a sleeping, switch-free context everything sleeps. -/
theorem below_sleeping {d : Doc} {rank : Oid → Nat} (hw : WF d rank) {s : St}
    (hi : CtxInv d s) {o : Oid} (hk : (d.obj o).kind = .context)
    (hfree : SwitchFree d o) (hs : s.est (d.obj o).lambda = .sleeping) {x : Oid}
    (hx : Below d x o) : s.est (d.obj x).lambda = .sleeping := by
  induction hx with
  | @child x o hp =>
    cases hc : s.est (d.obj x).lambda with
    | sleeping => rfl
    | _ =>
      have hctx : d.ctxParent x = some o := hw.ctxParent_iff.2 ⟨hp, hk⟩
      exact absurd hs (hi x o hctx (hfree.child hp) (by simp)
        (show s.est (d.obj x).lambda ≠ .sleeping by rw [hc]; simp))
  | @step x y o hp hy ih =>
    have hys := ih hk hfree hs
    have hyk : (d.obj y).kind = .context := by
      rcases hw.parent_comp _ _ hp with h1 | h1
      · exact h1
      · exact absurd h1 (hfree.2 y hy)
    have hyf : SwitchFree d y := by
      refine ⟨hfree.2 y hy, fun z hz => hfree.2 z ?_⟩
      clear hp hys hyk ih
      induction hz with
      | child h1 => exact .step h1 hy
      | step h1 _ ih => exact .step h1 (ih hy)
    cases hc : s.est (d.obj x).lambda with
    | sleeping => rfl
    | _ =>
      have hctx : d.ctxParent x = some y := hw.ctxParent_iff.2 ⟨hp, hyk⟩
      exact absurd hys (hi x y hctx (hyf.child hp) (by simp)
        (show s.est (d.obj x).lambda ≠ .sleeping by rw [hc]; simp))

/-- **C04** (partial: the context contains no switch).  Whenever a request to STOP or ABORT a
context returns, everything below it, at any depth, is sleeping and no media below it has a
player. -/
theorem C04_stop_partial {f : Fmt} (hf : Reachable f) {d : Doc} (hd : f.doc = some d)
    (o : Oid) (ho : (d.obj o).kind = .context) (hfree : SwitchFree d o)
    (t : Trans) (ht : t = .stop ∨ t = .abort) (n : Nat) (b : Bool) (s' : St)
    (he : (run d n).trans (d.obj o).lambda t f.st = .ok (b, s')) (x : Oid) (hx : Below d x o) :
    s'.est (d.obj x).lambda = .sleeping ∧
    ((d.obj x).kind.isMedia = true → s'.player x = none ∧
      ∀ e, (d.ev e).obj = x → (d.ev e).typ = .presentation → s'.est e = .sleeping) := by
  obtain ⟨rank, hw, hg, hi⟩ := (hf.inv ctxInv_inv).good d hd
  have hp := wp_ok ((run_spec hw (U := True) (fun _ => trivial) n).trans (d.obj o).lambda t f.st hg) he
  have hg' := hp.steps.good hw hg
  have hi' : CtxInv d s' := ctxInv_inv.tsteps hw (.of hp.steps) hg hi
  have hso : s'.est (d.obj o).lambda = .sleeping := hp.stopped ht (hw.lam_typ o)
  have hsx := below_sleeping hw hi' ho hfree hso hx
  refine ⟨hsx, fun hm => ⟨(hg'.player x hm).1 hsx, ?_⟩⟩
  intro e heo het
  exact hg'.anchor e (by rw [heo]; exact hm) het (by rw [heo]; exact hsx)

/-- **C04** as an invariant (partial: no switch inside): in every reachable state everything
below a sleeping context is sleeping. -/
theorem C04_invariant_partial {f : Fmt} (hf : Reachable f) {d : Doc} (hd : f.doc = some d)
    (o : Oid) (ho : (d.obj o).kind = .context) (hfree : SwitchFree d o)
    (hs : f.st.est (d.obj o).lambda = .sleeping) (x : Oid) (hx : Below d x o) :
    f.st.est (d.obj x).lambda = .sleeping := by
  obtain ⟨rank, hw, hg, hi⟩ := (hf.inv ctxInv_inv).good d hd
  exact below_sleeping hw hi ho hfree hs hx

/-- **C04 fails below a switch**: the media `m` (4), inside the switch inside the context `c`
(2), is still presented, with a running player, after STOP of `c` returned `true`. -/
theorem C04_fails_below_switch :
    ∃ f, Reachable f ∧ f.doc = some switchDoc ∧ Below switchDoc 4 2 ∧
    ∃ s', (run switchDoc 20).trans 2 .stop f.st = .ok (true, s') ∧
      s'.est 2 = .sleeping ∧ s'.est 4 = .occurring ∧ (s'.player 4).isSome = true := by
  obtain ⟨f, h1, h2, h3⟩ := witness switchDoc switchDoc_wf 50 [tick 0, tick 1] rfl
    (fun f => okAnd ((run switchDoc 20).trans 2 .stop f.st) (fun b s => b &&
      (decide (s.est 2 = .sleeping) && (decide (s.est 4 = .occurring) && (s.player 4).isSome))))
    (by decide +kernel)
  refine ⟨f, h1, h2, .step (y := 3) rfl (.child rfl), ?_⟩
  obtain ⟨b, s', h4, h5⟩ := okAnd_iff.1 h3
  simp only [Bool.and_eq_true, decide_eq_true_eq] at h5
  obtain ⟨rfl, h6, h7, h8⟩ := h5
  exact ⟨s', h4, h6, h7, h8⟩

/-! Non-vacuity of the partial theorems: the contexts of `nestedDoc` contain no switch, and the
media two levels below `c` is presented when `c` is stopped. -/
example : SwitchFree nestedDoc 2 := by
  have ks : ∀ o, (nestedDoc.obj o).kind ≠ .switch := by
    intro o
    match o with
    | 0 | 1 | 2 | 3 | 4 => decide
    | o + 5 => simp [nestedDoc, mkDoc]
  exact ⟨ks 2, fun x _ => ks x⟩
example : Below nestedDoc 4 2 := .step (y := 3) rfl (.child rfl)
example : ∃ f, Reachable f ∧ f.doc = some nestedDoc ∧
    (decide (f.st.est 4 = .occurring) &&
      okAnd ((run nestedDoc 20).trans 2 .stop f.st) (fun b _ => b)) = true :=
  witness nestedDoc nestedDoc_wf 50 [tick 0, tick 1, tick 1] rfl _ (by decide +kernel)

end Ginga
