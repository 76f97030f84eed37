import Verif.Proofs.Witness
/-! # C01 — the event life cycle is a legal state machine -/
namespace Ginga
open Ex

theorem nextState_edge {b x : EState} {t : Trans} : nextState b t = some x ↔ Edge b t x := by
  constructor
  · intro h
    cases b <;> cases t <;> simp [nextState] at h <;> subst h <;> constructor
  · intro h; cases h <;> rfl

theorem nextState_none_edge {b : EState} {t : Trans} (h : ¬ ∃ x, Edge b t x) :
    nextState b t = none := by
  cases hn : nextState b t with
  | none => rfl
  | some x => exact absurd ⟨x, nextState_edge.1 hn⟩ h

/-- **C01**.  In every state reached by any history of calls, a request for a transition of any
event that returns `true` follows an edge of the event state machine and leaves the event in the
target state; a request that returns `false` changes nothing at all; and an illegal request
always returns `false`. -/
theorem C01_transition_legal {f : Fmt} (hf : Reachable f) {d : Doc} (hd : f.doc = some d)
    (n : Nat) (e : Eid) (t : Trans) :
    (∀ s', (run d n).trans e t f.st = .ok (true, s') → Edge (f.st.est e) t (s'.est e)) ∧
    (∀ s', (run d n).trans e t f.st = .ok (false, s') → s' = f.st) ∧
    ((¬ ∃ x, Edge (f.st.est e) t x) →
      (run d (n + 1)).trans e t f.st = .ok (false, f.st)) := by
  obtain ⟨rank, hw, hg, -⟩ := hf.ok.inv.good d hd
  have hspec := (run_spec hw (U := True) (fun _ => trivial) n).trans e t f.st hg
  refine ⟨?_, ?_, ?_⟩
  · intro s' h1
    obtain ⟨x, hn, hx⟩ := (wp_ok hspec h1).ok rfl
    rw [hx]; exact nextState_edge.1 hn
  · intro s' h1
    exact (wp_ok hspec h1).fail rfl
  · intro hill
    have hn := nextState_none_edge hill
    show transition d (run d n) e t f.st = _
    unfold transition
    change M.bind M.get _ f.st = _
    simp only [M.bind, M.get, Res.bind]
    rw [hn]; rfl

/-- **C01**, for the transitions that happen inside calls (propagated to children, requested by
links, by delayed actions, …): every successful transition of the whole history followed an edge
of the state machine from the state the event was in when it was requested. -/
theorem C01_history_legal {f : Fmt} (hf : Reachable f) {d : Doc} (hd : f.doc = some d)
    (en : LogEntry) (hen : en ∈ f.st.log) : ∃ x, Edge en.before en.tr x := by
  obtain ⟨rank, hw, hg, hl⟩ := (hf.inv logLegal_inv).good d hd
  have := hl en hen
  obtain ⟨x, hx⟩ := Option.isSome_iff_exists.1 this
  exact ⟨x, nextState_edge.1 hx⟩

/-! Non-vacuity: a reachable presentation with a history of at least four transitions, in which a pause of
media `a` succeeds and a pause of the sleeping media `b` is illegal. -/
example : ∃ f, Reachable f ∧ f.doc = some twoMedias ∧
    (decide (4 ≤ f.st.log.length) &&
     okAnd ((run twoMedias 20).trans 2 .pause f.st) (fun b _ => b) &&
     decide (f.st.est 3 = .sleeping)) = true :=
  witness twoMedias twoMedias_wf 50 [tick 0, tick 600000000] rfl _ (by decide +kernel)
example : ¬ ∃ x, Edge .sleeping .pause x := by rintro ⟨x, hx⟩; cases hx

end Ginga
