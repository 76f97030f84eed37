import Verif.Proofs.Witness
/-! # C02 — a media has a running player exactly while it is presented -/
namespace Ginga
open Ex

/-- **C02**, player and clock.  After every history of calls, a media of the presented document
owns a player exactly when its whole-content event is not sleeping; and (as long as less than
2^64 - 1 ns, i.e. 584 years, of ticks have been sent) it has a clock exactly then too. -/
theorem C02_player_iff_presented (n : Nat) (focus : String) (w h : Int) (ops : List Op)
    (hops : OpsWF ops) (bs : List Bool) (f : Fmt)
    (he : execAll n (Fmt.new focus w h) ops = .ok (bs, f))
    (d : Doc) (hd : f.doc = some d) (o : Oid) (ho : (d.obj o).kind.isMedia = true) :
    ((f.st.player o).isSome = true ↔ f.st.est (d.obj o).lambda ≠ .sleeping) ∧
    (tickSum ops < NONE → (f.st.time o ≠ NONE ↔ f.st.est (d.obj o).lambda ≠ .sleeping)) := by
  have hf : Reachable f := ⟨n, focus, w, h, ops, bs, hops, he⟩
  obtain ⟨rank, hw, hg, hti⟩ := (hf.inv timeInv_inv).good d hd
  refine ⟨?_, ?_⟩
  · have := hg.player o ho
    cases hp : f.st.player o with
    | none => simp [this.2 hp]
    | some p =>
      simp only [Option.isSome_some, true_iff]
      intro hs; rw [this.1 hs] at hp; cases hp
  · intro hsum
    constructor
    · intro hne hs; exact hne (hti o (by intro hx; rw [hx] at ho; cases ho) hs)
    intro hns
    have := rwp_ok (execAll_clock (n := n) ops (Fmt.new focus w h) 0
      ⟨FInv.new focus w h, rfl, rfl⟩ (by intro d hd; cases hd) hops) he d hd o ho hns
    have hle : f.st.time o ≤ tickSum ops := by simpa using this
    omega

/-- **C02**, missing players.  No history of calls uses a player that does not exist: the only
documents for which a call has undefined behaviour at all are those with an attribution event on
a compound geometry property of a media (see C39). -/
theorem C02_no_missing_player (n : Nat) (focus : String) (w h : Int) (ops : List Op)
    (hops : OpsWF ops) (hub : execAll n (Fmt.new focus w h) ops = .ub) :
    ∃ d, Op.start (some d) ∈ ops ∧ ∃ e, (d.ev e).typ = .attribution ∧
      (d.obj (d.ev e).obj).kind.isMedia = true ∧ compoundProp (d.ev e).id = true := by
  have := execAll_inv (U := ∃ d, Op.start (some d) ∈ ops ∧ CompoundAttr d) (n := n) triv_inv ops
    (Fmt.new focus w h) (FInv.new focus w h) hops (by
      intro d hd hc
      rcases hd with hd | hd
      · cases hd
      · exact ⟨d, hd, hc⟩)
  rw [hub] at this
  exact this

/-! Non-vacuity: media `a` is presented with a clock of 600 ms, media `b` is not. -/
example : ∃ f, Reachable f ∧ f.doc = some twoMedias ∧
    ((f.st.player 2).isSome && decide (f.st.time 2 = 600000000) && (f.st.player 3).isNone
      && decide (f.st.time 3 = NONE)) = true :=
  witness twoMedias twoMedias_wf 50 [tick 0, tick 600000000] rfl _ (by decide +kernel)

end Ginga
