import Verif.Proofs.Halts
/-! # Termination of engine calls, with the outcome

`Ends d m s`: from some recursion bound on, the call `m` has one and the same outcome in state `s`, and
this outcome is not "out of fuel". -/
set_option linter.unusedVariables false
set_option linter.unusedSectionVars false
namespace Ginga

/-- The call returns (or ends the process) with an outcome that does not depend on the bound. -/
def Ends (d : Doc) {α : Type} (m : Rec → M α) (s : St) : Prop :=
  ∃ res n0, res ≠ .fuel ∧ ∀ n, n0 ≤ n → m (run d n) s = res

section
variable {d : Doc}

theorem Ends.nf {α : Type} {m : M α} (h : NF m) (s : St) : Ends d (fun _ => m) s :=
  ⟨m s, 0, h.nf s, fun _ _ => rfl⟩

theorem Ends.bind {α β : Type} {m : Rec → M α} {f : α → Rec → M β} {s : St} (h : Ends d m s)
    (hn : ∀ a s', (∃ n, m (run d n) s = .ok (a, s')) → Ends d (f a) s') :
    Ends d (fun r => m r >>= fun a => f a r) s := by
  obtain ⟨res, n0, h1, h2⟩ := h
  cases res with
  | ok p =>
    obtain ⟨res', n1, h3, h4⟩ := hn p.1 p.2 ⟨n0, h2 n0 (Nat.le_refl _)⟩
    refine ⟨res', max n0 n1, h3, fun n hle => ?_⟩
    show M.bind _ _ s = _
    unfold M.bind
    rw [h2 n (by omega)]
    exact h4 n (by omega)
  | fuel => exact absurd rfl h1
  | abort =>
    refine ⟨.abort, n0, by simp, fun n hle => ?_⟩
    show M.bind _ _ s = _
    unfold M.bind
    rw [h2 n hle]; rfl
  | ub =>
    refine ⟨.ub, n0, by simp, fun n hle => ?_⟩
    show M.bind _ _ s = _
    unfold M.bind
    rw [h2 n hle]; rfl

/-- Prefixing a call that needs no recursion. -/
theorem Ends.nfBind {α β : Type} {m : M α} {f : α → Rec → M β} {s : St} (h : NF m)
    (hn : ∀ a s', m s = .ok (a, s') → Ends d (f a) s') : Ends d (fun r => m >>= fun a => f a r) s :=
  Ends.bind (m := fun _ => m) (.nf h s) (fun a s' ⟨_, h⟩ => hn a s' h)

theorem Ends.trans {e t} {s : St} (h : Ends d (fun r => transition d r e t) s) :
    Ends d (fun r => r.trans e t) s := by
  obtain ⟨res, n0, h1, h2⟩ := h
  refine ⟨res, n0 + 1, h1, fun n hle => ?_⟩
  obtain ⟨m, rfl⟩ : ∃ m, n = m + 1 := ⟨n - 1, by omega⟩
  exact h2 m (by omega)

theorem Ends.loop {l k} {s : St} (h : Ends d (fun r => evalLoop d r l k) s) :
    Ends d (fun r => r.loop l k) s := by
  obtain ⟨res, n0, h1, h2⟩ := h
  refine ⟨res, n0 + 1, h1, fun n hle => ?_⟩
  obtain ⟨m, rfl⟩ : ∃ m, n = m + 1 := ⟨n - 1, by omega⟩
  exact h2 m (by omega)

theorem Ends.evalA {a} {s : St} (h : Ends d (fun r => r.loop [a] 0) s) :
    Ends d (fun r => r.evalA a) s := by
  obtain ⟨res, n0, h1, h2⟩ := h
  refine ⟨res, n0 + 1, h1, fun n hle => ?_⟩
  obtain ⟨m, rfl⟩ : ∃ m, n = m + 1 := ⟨n - 1, by omega⟩
  exact h2 m (by omega)

theorem Ends.ite {α : Type} {c : Prop} [Decidable c] {m m' : Rec → M α} {s : St}
    (h : c → Ends d m s) (h' : ¬ c → Ends d m' s) : Ends d (fun r => if c then m r else m' r) s := by
  by_cases hc : c
  · simp only [if_pos hc]; exact h hc
  · simp only [if_neg hc]; exact h' hc

/-! ## START going up the tree -/

/-- START of the parent context ends if START of its whole content does. -/
theorem ends_startParent {o : Oid} {s : St}
    (h : ∀ p, d.ctxParent o = some p → ∀ s, Ends d (fun r => r.trans (d.obj p).lambda .start) s) :
    Ends d (fun r => startParent d r o) s := by
  unfold startParent
  split
  · exact .nf (.pure _) _
  · next p hp =>
    refine Ends.nfBind .get fun s0 s1 _ => ?_
    refine Ends.ite (fun _ => ?_) (fun _ => .nf (.pure _) _)
    refine Ends.nfBind (nf_setPar _ _ _) fun _ s2 _ => ?_
    exact Ends.bind (h p hp s2) fun _ _ _ => .nf (.pure _) _

variable {rank : Oid → Nat} (hw : WF d rank)
include hw

/-- A transition whose preparation and conclusion end, ends. -/
theorem ends_transition {e t} {s : St} (hb : Ends d (fun r => before d r e t) s)
    (ha : ∀ s', (∃ n, ∃ s0, before d (run d n) e t s = .ok (true, s0) ∧
      ∃ x, s' = s0.setEst e x) → Ends d (fun r => after d r e t) s') :
    Ends d (fun r => transition d r e t) s := by
  unfold transition
  refine Ends.nfBind .get fun s0 s1 h1 => ?_
  cases h1
  dsimp only
  cases hn : nextState (s.est e) t with
  | none => exact .nf (.pure _) _
  | some x =>
    refine Ends.bind hb fun b s2 ⟨n, h2⟩ => ?_
    cases b with
    | false => exact .nf (.pure _) _
    | true =>
      refine Ends.nfBind (nf_setEst _ _) fun _ s3 h3 => ?_
      cases h3
      refine Ends.bind (ha _ ⟨n, s2, h2, x, rfl⟩) fun b s4 _ => ?_
      cases b with
      | false => exact .nf (.bind (nf_setEst _ _) fun _ => .pure _) _
      | true => exact .nf (.bind (.modify _) fun _ => .pure _) _

/-- START of a context ends: it goes up the tree. -/
theorem ends_startCtx (k : Nat) : ∀ o, rank o < k → (d.obj o).kind = .context →
    ∀ s, Ends d (fun r => r.trans (d.obj o).lambda .start) s := by
  induction k with
  | zero => intro o h; omega
  | succ k ih =>
    intro o hr hk s
    refine Ends.trans (ends_transition hw ?_ ?_)
    · unfold before
      rw [hw.lam_obj, hk]
      unfold ctxBefore
      rw [hw.lam_typ]
      exact .nf (.bind (.assert _) fun _ => .pure _) _
    · intro s' _
      unfold after
      rw [hw.lam_obj, hk]
      unfold ctxAfter
      rw [hw.lam_typ]
      refine Ends.nfBind (.assert _) fun _ s1 _ => ?_
      refine Ends.nfBind (nf_doStart d _) fun _ s2 _ => ?_
      refine Ends.bind (ends_startParent fun p hp s => ?_) fun _ s3 _ => ?_
      · have := hw.ctxParent_rank hp
        exact ih p (by omega) (hw.ctxParent_kind hp) s
      · refine .nf (.bind .get fun _ => .ite (.pure _) (.bind (nf_queuePorts d _ _) fun _ =>
          .bind (nf_setPar _ _ _) fun _ => .pure _)) _

theorem ends_parent (o : Oid) (s : St) : Ends d (fun r => startParent d r o) s :=
  ends_startParent fun p hp s =>
    ends_startCtx hw (rank p + 1) p (Nat.lt_succ_self _) (hw.ctxParent_kind hp) s

/-! ## START of medias -/

theorem ends_mediaAfter {o e t} (s : St) : Ends d (fun r => mediaAfter d r o e t) s :=
  ⟨mediaAfter d (run d 0) o e t s, 0, (nf_mediaAfter d _ o e t).nf s, fun _ _ => rfl⟩

theorem ends_startMedia {e : Eid} {s : St} (hg : Good d rank s)
    (hm : (d.obj (d.ev e).obj).kind.isMedia = true) (hl : (d.ev e).typ = .presentation →
      (d.ev e).isLambda = true ∨ s.est (d.obj (d.ev e).obj).lambda ≠ .sleeping) :
    Ends d (fun r => r.trans e .start) s := by
  have hbf : ∀ r, before d r e .start = mediaBefore d r (d.ev e).obj e .start := by
    intro r; unfold before; revert hm; cases (d.obj (d.ev e).obj).kind <;> simp [Kind.isMedia]
  have haf : ∀ r, after d r e .start = mediaAfter d r (d.ev e).obj e .start := by
    intro r; unfold after; revert hm; cases (d.obj (d.ev e).obj).kind <;> simp [Kind.isMedia]
  refine Ends.trans (ends_transition hw ?_ ?_)
  · simp only [hbf]
    unfold mediaBefore
    cases ht : (d.ev e).typ with
    | presentation =>
      dsimp only
      refine Ends.bind (ends_parent hw _ _) fun _ s1 ⟨n, h1⟩ => ?_
      have hmono : s1.est (d.obj (d.ev e).obj).lambda = .sleeping →
          s.est (d.obj (d.ev e).obj).lambda = .sleeping := by
        intro hs
        have := wp_ok (wp_startParent hw (run_spec hw (U := True) (fun _ => trivial) n) hg) h1
        rcases this with ⟨rfl, _⟩ | ⟨p, pr, _, _, hc⟩
        · exact hs
        · cases hx : s.est (d.obj (d.ev e).obj).lambda with
          | sleeping => rfl
          | _ =>
            have := Chain.mono hw hc (d.obj (d.ev e).obj).lambda (by rw [show ({ s with par := pr } : St).est = s.est from rfl, hx]; simp)
            exact absurd hs this
      refine Ends.nfBind .get fun _ s2 h2 => ?_
      cases h2
      refine Ends.ite (fun _ => ?_) (fun _ => .nf (.pure _) _)
      refine Ends.ite (fun _ => .nf (.bind (nf_createPlayer d _) fun _ => .pure _) _) fun hnl => ?_
      refine Ends.ite (fun _ => .nf (.pure _) _) fun hsl => ?_
      rcases hl ht with h | h
      · exact absurd h hnl
      · exact absurd (hmono (Classical.not_not.1 hsl)) h
    | _ => exact .nf (.pure _) _
  · intro s' _
    simp only [haf]
    exact ends_mediaAfter hw s'


/-- Sequencing with what is known of the first call. -/
theorem Ends.bindw {α β : Type} {m : Rec → M α} {f : α → Rec → M β} {s : St} {Q : α → St → Prop}
    (hq : ∀ n, wp True True (m (run d n)) Q s) (h : Ends d m s)
    (hn : ∀ a s', Q a s' → Ends d (f a) s') :
    Ends d (fun r => m r >>= fun a => f a r) s :=
  Ends.bind h fun a s' ⟨n, hx⟩ => hn a s' (wp_ok (hq n) hx)

theorem spec (n : Nat) : RecSpec d rank True (run d n) := run_spec hw (U := True) (fun _ => trivial) n

/-- The entries of the queue that START before the anchor, once the media is awake. -/
theorem ends_anchorFilter {o : Oid} (hm : (d.obj o).kind.isMedia = true) (b f : Nat)
    (l : List (Act × Nat)) : ∀ s, Good d rank s → OwnQ d o l → s.est (d.obj o).lambda ≠ .sleeping →
    Ends d (fun r => anchorFilter r b f l) s := by
  induction l with
  | nil => intro s _ _ _; exact .nf (.pure _) _
  | cons a l ih =>
    intro s hg hl hns
    obtain ⟨a, t⟩ := a
    have hl' : OwnQ d o l := fun p hp => hl p (by simp [hp])
    have ho : (d.ev a.ev).obj = o := (hl (a, t) (by simp)).1
    simp only [anchorFilter]
    refine Ends.ite (fun _ => Ends.ite (fun _ => ?_) fun _ => ih s hg hl' hns) fun _ => ?_
    · refine Ends.bindw hw (Q := TransPost d rank s a.ev .start)
        (fun n => (spec hw n).trans _ _ s hg) (ends_startMedia hw hg (by rw [ho]; exact hm) fun _ => .inr (by rw [ho]; exact hns)) ?_
      intro b s1 h1
      exact ih s1 (h1.steps.good hw hg) hl' (h1.mono rfl _ hns)
    · exact Ends.bind (ih s hg hl' hns) fun _ _ _ => .nf (.pure _) _


theorem ends_anchorStart {o : Oid} {e : Eid} {s : St} (hg : Good d rank s) (he : (d.ev e).obj = o)
    (hm : (d.obj o).kind.isMedia = true) (hsl : s.est (d.obj o).lambda = .sleeping) :
    Ends d (fun r => anchorStart d r o e) s := by
  unfold anchorStart
  refine Ends.bindw hw (Q := TransPost d rank s (d.obj o).lambda .start)
    (fun n => (spec hw n).trans _ _ s hg)
    (ends_startMedia hw hg (by rw [hw.lam_obj]; exact hm) fun _ => .inl (hw.lam_is o)) ?_
  intro b s1 h1
  have hb : b = true := h1.must rfl (hw.lam_typ o)
    (by rw [hw.lam_obj]; intro hk; rw [hk] at hm; cases hm) (by rw [hsl]; simp)
  have hns : s1.est (d.lam o) ≠ .sleeping := by
    have := h1.started hb rfl (hw.lam_typ o) (by rw [hw.lam_obj]; exact hm)
    rwa [hw.lam_obj] at this
  have hg1 := h1.steps.good hw hg
  obtain ⟨p, hp⟩ : ∃ p, s1.player o = some p := by
    cases hp : s1.player o with
    | none => exact absurd ((hg1.player o hm).2 hp) hns
    | some p => exact ⟨p, rfl⟩
  have key : ∀ s3, Quiet d o s1 s3 → Ends d (fun r => do
      let s ← M.get
      let q ← anchorFilter r (if (d.ev e).begin_ = NONE then 0 else (d.ev e).begin_) (d.ev e).end_ (s.delayed o)
      M.modify fun s => s.setDelayed o q) s3 := by
    intro s3 q3
    have hg3 := (q3.steps (rank := rank)).good hw hg1
    refine Ends.nfBind .get fun _ s4 h4 => ?_
    cases h4
    refine Ends.bind (ends_anchorFilter hw hm _ _ _ _ hg3 (hg3.queue o hm) ?_) fun _ _ _ => .nf (.modify _) _
    rw [q3.est]; exact hns
  refine Ends.nfBind (nf_playerSetProp d _ _ _) fun _ s2 h2 => ?_
  obtain ⟨p2, rfl⟩ := wp_ok (wp_playerSetProp (U := True) hp) h2
  have q2 : Quiet d o s1 (s1.setPlayer o (some p2)) := Quiet.playerSt _ p _ hp
  refine Ends.ite (fun _ => ?_) (fun _ => ?_)
  · refine Ends.nfBind (nf_playerSetProp d _ _ _) fun _ s3 h3 => ?_
    obtain ⟨p3, rfl⟩ := wp_ok (wp_playerSetProp (U := True) (p := p2) (by simp)) h3
    refine Ends.nfBind (nf_addDelayed _ _ _ _ _) fun _ s4 h4 => ?_
    cases h4
    refine key _ ?_
    have q3 : Quiet d o s1 ((s1.setPlayer o (some p2)).setPlayer o (some p3)) :=
      q2.trans (Quiet.playerSt _ p2 _ (by simp))
    exact q3.trans (Quiet.addDelayedSt _ _ _ _ _ (fun _ => ⟨he, by simp⟩))
  · exact key _ q2

/-- START of any event of a media ends. -/
theorem ends_mediaStart {e : Eid} {s : St} (hg : Good d rank s)
    (hm : (d.obj (d.ev e).obj).kind.isMedia = true) : Ends d (fun r => r.trans e .start) s := by
  have hbf : ∀ r, before d r e .start = mediaBefore d r (d.ev e).obj e .start := by
    intro r; unfold before; revert hm; cases (d.obj (d.ev e).obj).kind <;> simp [Kind.isMedia]
  have haf : ∀ r, after d r e .start = mediaAfter d r (d.ev e).obj e .start := by
    intro r; unfold after; revert hm; cases (d.obj (d.ev e).obj).kind <;> simp [Kind.isMedia]
  refine Ends.trans (ends_transition hw ?_ ?_)
  · simp only [hbf]
    unfold mediaBefore
    cases ht : (d.ev e).typ with
    | presentation =>
      dsimp only
      refine Ends.bindw hw (fun n => wp_startParent hw (spec hw n) hg) (ends_parent hw _ _) fun _ s1 hsp => ?_
      have hsteps : Steps d rank s s1 := by
        rcases hsp with ⟨rfl, -⟩ | ⟨p, pr, hp, hsl, hc⟩
        · exact .refl
        · exact .tail (.one (.misc pr _ _ _)) (.ctxStart p hc)
      refine Ends.nfBind .get fun _ s2 h2 => ?_
      cases h2
      refine Ends.ite (fun _ => ?_) (fun _ => .nf (.pure _) _)
      refine Ends.ite (fun _ => .nf (.bind (nf_createPlayer d _) fun _ => .pure _) _) fun hnl => ?_
      refine Ends.ite (fun _ => .nf (.pure _) _) fun hsl => ?_
      exact Ends.bind (ends_anchorStart hw (hsteps.good hw hg) rfl hm (Classical.not_not.1 hsl))
        fun _ _ _ => .nf (.pure _) _
    | _ => exact .nf (.pure _) _
  · intro s' _
    simp only [haf]
    exact ends_mediaAfter hw s'

/-! ## Transitions going down the tree -/

/-- The action loop ends on this stack, in every consistent state. -/
def Fine (d : Doc) (rank : Oid → Nat) (l : List Act) : Prop :=
  ∀ k s, Good d rank s → Ends d (fun r => r.loop l k) s

omit hw in
theorem Fine.evalA {a : Act} (h : Fine d rank [a]) {s : St} (hg : Good d rank s) :
    Ends d (fun r => r.evalA a) s := Ends.evalA (h 0 s hg)

/-- The anchors paused or resumed together with `e` are harmless. -/
def Calm (d : Doc) (rank : Oid → Nat) (e : Eid) (t : Trans) : Prop :=
  (t = .pause ∨ t = .resume) → ((d.ev e).isLambda = true ∨ (d.obj (d.ev e).obj).kind = .switch) →
  ∀ x, (x = (d.ev e).obj ∨ Below d x (d.ev e).obj) → (d.obj x).kind.isMedia = true →
  ∀ a ∈ (d.obj x).events, (d.ev a).isLambda = false → (d.ev a).typ = .presentation →
  Fine d rank [{ ev := a, tr := t }]

theorem Calm.down {e : Eid} {t : Trans} (h : Calm d rank e t)
    (he : (d.ev e).isLambda = true ∨ (d.obj (d.ev e).obj).kind = .switch) {c : Oid}
    (hc : (d.obj c).parent = some (d.ev e).obj) : Calm d rank (d.obj c).lambda t := by
  intro ht _ x hx
  rw [hw.lam_obj] at hx
  refine h ht he x (.inr ?_)
  rcases hx with rfl | hx
  · exact .child hc
  · exact Below.parent_trans hc hx

theorem ends_evalAnchors {t : Trans} (es : List Eid) (hf : ∀ a ∈ es, (d.ev a).isLambda = false →
    (d.ev a).typ = .presentation → Fine d rank [{ ev := a, tr := t }]) : ∀ s, Good d rank s →
    Ends d (fun r => evalAnchors d r t es) s := by
  induction es with
  | nil => intro s _; exact .nf (.pure _) _
  | cons e es ih =>
    intro s hg
    have ih' := ih fun a ha => hf a (by simp [ha])
    simp only [evalAnchors]
    refine Ends.ite (fun h => ?_) fun _ => ih' s hg
    refine Ends.bindw hw (fun n => (spec hw n).evalA _ s hg)
      ((hf e (by simp) (by simpa using h.1) h.2).evalA hg) fun _ s1 h1 => ih' s1 (h1.good hw hg)

theorem ends_transAll {t : Trans} (cs : List Oid) (hf : ∀ c ∈ cs, ∀ s, Good d rank s →
    Ends d (fun r => r.trans (d.obj c).lambda t) s) : ∀ s, Good d rank s →
    Ends d (fun r => transAll d r t cs) s := by
  induction cs with
  | nil => intro s _; exact .nf (.pure _) _
  | cons e es ih =>
    intro s hg
    have ih' := ih fun a ha => hf a (by simp [ha])
    simp only [transAll]
    exact Ends.bindw hw (fun n => (spec hw n).trans _ _ s hg)
      (hf e (by simp) s hg) fun _ s1 h1 => ih' s1 (h1.steps.good hw hg)

omit hw in
theorem lastOf_obj {o : Oid} {l : List Eid} {e : Eid} (h : lastOf d o l = some e) : (d.ev e).obj = o := by
  induction l with
  | nil => cases h
  | cons x l ih =>
    simp only [lastOf] at h
    split at h
    · split at h
      · next hx => cases h; exact hx
      · cases h
    · next m hm =>
      split at h
      · next hx => cases h; exact hx.1
      · cases h; exact ih hm

theorem ends_switchRules {o : Oid} (cands : List Eid) (rules : List (Oid × Pred))
    (hf : ∀ x ∈ rules, ∀ se ∈ cands, (d.ev se).obj = x.1 → ∀ s, Good d rank s → Ends d (fun r => r.trans se .start) s) :
    ∀ s, Good d rank s → Ends d (fun r => switchRules d r o cands rules) s := by
  induction rules with
  | nil => intro s _; exact .nf (.pure _) _
  | cons x rules ih =>
    intro s hg
    obtain ⟨obj, pred⟩ := x
    have ih' := ih fun a ha => hf a (by simp [ha])
    simp only [switchRules]
    cases hl : lastOf d obj cands with
    | none => exact ih' s hg
    | some se =>
      dsimp only
      refine Ends.nfBind (.pred _ _) fun b s1 h1 => ?_
      obtain rfl : s1 = s := by
        unfold M.lift at h1
        dsimp only at h1
        cases hp : evalPred d s pred with
        | ok v => rw [hp] at h1; cases h1; rfl
        | _ => rw [hp] at h1; cases h1
      refine Ends.ite (fun _ => ?_) fun _ => ih' _ hg
      refine Ends.bind (hf (obj, pred) (by simp) se (lastOf_mem hl).1 (lastOf_obj hl) _ hg) fun b s2 _ => ?_
      exact .nf (.ite (.bind (.modify _) fun _ => .pure _) (.pure _)) _

/-- Every transition ends, if the anchors it pauses or resumes are harmless. -/
theorem ends_trans (height : Oid → Nat) (hh : ∀ c o, (d.obj c).parent = some o → height c < height o)
    (N : Nat) : ∀ e t, height (d.ev e).obj < N → Calm d rank e t → ∀ s, Good d rank s →
    Ends d (fun r => r.trans e t) s := by
  induction N with
  | zero => intro e t h; omega
  | succ N ih =>
    intro e t hN hcalm s hg
    have down : ∀ c, (d.obj c).parent = some (d.ev e).obj →
        ((d.ev e).isLambda = true ∨ (d.obj (d.ev e).obj).kind = .switch) → ∀ s, Good d rank s →
        Ends d (fun r => r.trans (d.obj c).lambda t) s := by
      intro c hc he s hg
      exact ih _ _ (by rw [hw.lam_obj]; have := hh _ _ hc; omega) (hcalm.down hw he hc) s hg
    by_cases hm : (d.obj (d.ev e).obj).kind.isMedia = true
    · cases ht : t with
      | start => exact ends_mediaStart hw hg hm
      | _ =>
        subst ht
        have hbf : ∀ r t, before d r e t = mediaBefore d r (d.ev e).obj e t := by
          intro r t; unfold before; revert hm; cases (d.obj (d.ev e).obj).kind <;> simp [Kind.isMedia]
        have haf : ∀ r t, after d r e t = mediaAfter d r (d.ev e).obj e t := by
          intro r t; unfold after; revert hm; cases (d.obj (d.ev e).obj).kind <;> simp [Kind.isMedia]
        refine Ends.trans (ends_transition hw ?_ fun s' _ => by
          simp only [haf]; exact ends_mediaAfter hw s')
        simp only [hbf]
        unfold mediaBefore
        cases htyp : (d.ev e).typ with
        | presentation =>
          dsimp only
          first
          | exact .nf (.pure _) _
          | refine Ends.ite (fun hl => ?_) fun _ => .nf (.pure _) _
            refine Ends.bind (ends_evalAnchors hw _ (fun a ha hla hta =>
              hcalm (by simp) (.inl hl) _ (.inl rfl) hm a ha hla hta) s hg) fun _ s1 _ => ?_
            exact .nf (.bind (nf_playerPause _ _) fun _ => .pure _) _
        | _ => exact .nf (.pure _) _
    · cases hk : (d.obj (d.ev e).obj).kind with
      | media => simp [hk, Kind.isMedia] at hm
      | settings => simp [hk, Kind.isMedia] at hm
      | context =>
        refine Ends.trans (ends_transition hw ?_ fun s' _ => ?_)
        · unfold before
          rw [hk]
          dsimp only
          unfold ctxBefore
          cases htyp : (d.ev e).typ with
          | presentation =>
            dsimp only
            refine Ends.nfBind (.assert _) fun _ s1 h1 => ?_
            obtain ⟨hl, rfl⟩ : (d.ev e).isLambda = true ∧ s1 = s := by
              unfold M.assert at h1
              split at h1
              · next h => cases h1; exact ⟨h, rfl⟩
              · cases h1
            cases t with
            | start => exact .nf (.pure _) _
            | _ =>
              exact Ends.bind (ends_transAll hw _ (fun c hc => down c ((hw.mem_children _ _).1 hc) (.inl hl)) _ hg)
                fun _ _ _ => .nf (.pure _) _
          | attribution => exact .nf (.pure _) _
          | selection => exact .nf (.pure _) _
          | lookat => exact .nf .abort _
        · unfold after
          rw [hk]
          dsimp only
          unfold ctxAfter
          cases htyp : (d.ev e).typ with
          | presentation =>
            dsimp only
            refine Ends.nfBind (.assert _) fun _ s1 h1 => ?_
            cases t with
            | start =>
              dsimp only
              refine Ends.nfBind (nf_doStart d _) fun _ s2 _ => ?_
              refine Ends.bind (ends_parent hw _ _) fun _ s3 _ => ?_
              exact .nf (.bind .get fun _ => .ite (.pure _) (.bind (nf_queuePorts d _ _) fun _ =>
                .bind (nf_setPar _ _ _) fun _ => .pure _)) _
            | pause => exact .nf (.pure _) _
            | resume => exact .nf (.pure _) _
            | _ => exact .nf (.bind (nf_doStop d _) fun _ => .pure _) _
          | attribution =>
            cases t with
            | start => exact .nf (.bind (nf_attribStart d _ _) fun _ => .pure _) _
            | stop => exact .nf (.pure _) _
            | _ => exact .nf .abort _
          | selection => exact .nf .abort _
          | lookat => exact .nf .abort _
      | switch =>
        refine Ends.trans (ends_transition hw ?_ fun s' hs' => ?_)
        · unfold before
          rw [hk]
          dsimp only
          unfold switchBefore
          cases hcs : switchCands d (d.ev e).obj e with
          | none => exact .nf .abort _
          | some cands =>
            dsimp only
            cases htyp : (d.ev e).typ with
            | presentation =>
              dsimp only
              refine Ends.nfBind .get fun _ s1 h1 => ?_
              cases h1
              cases t with
              | start =>
                dsimp only
                refine Ends.nfBind (.assert _) fun _ s1 h1 => ?_
                obtain rfl : s1 = s := by
                  unfold M.assert at h1
                  split at h1
                  · cases h1; rfl
                  · cases h1
                refine ends_switchRules hw _ _ (fun x hx se hsc hse s hg => ?_) _ hg
                have hp := hw.cand_child (c := x.1) (pr := x.2) hx hcs hsc hse
                refine ih se .start (by rw [hse]; have := hh _ _ hp; omega) ?_ s hg
                intro ht; rcases ht with ht | ht <;> cases ht
              | _ =>
                dsimp only
                cases hsel : s.sel (d.ev e).obj with
                | none => exact .nf (.pure _) _
                | some c =>
                  exact Ends.bind (down c (hg.sel _ _ hsel) (.inr hk) s hg) fun _ _ _ =>
                    .nf (.bind (.modify _) fun _ => .pure _) _
            | _ => exact .nf .abort _
        · unfold after
          rw [hk]
          dsimp only
          unfold switchAfter
          cases htyp : (d.ev e).typ with
          | presentation =>
            cases t with
            | start =>
              dsimp only
              obtain ⟨n, s0, h0, x, rfl⟩ := hs'
              have hsel : s0.sel (d.ev e).obj ≠ none := by
                unfold before at h0
                rw [hk] at h0
                dsimp only at h0
                unfold switchBefore at h0
                cases hc : switchCands d (d.ev e).obj e with
                | none => rw [hc] at h0; cases h0
                | some cands =>
                  rw [hc, htyp] at h0
                  dsimp only at h0
                  have hq : wp True True (do
                      let s ← M.get
                      M.assert (s.sel (d.ev e).obj).isNone
                      switchRules d (run d n) (d.ev e).obj cands (d.obj (d.ev e).obj).rules)
                      (fun b s1 => b = true → s1.sel (d.ev e).obj ≠ none) s := by
                    simp only [wp_bind, wp_get, wp_assert]
                    split
                    case isFalse => trivial
                    refine wp_mono (wp_switchRules hw (spec hw n) cands hg _
                      fun x hx _ hse ho => hw.cand_child (c := x.1) (pr := x.2) hx hc hse ho) ?_
                    intro b s1 h hb
                    exact (h.2 hb).2.2
                  exact wp_ok hq h0 rfl
              refine Ends.nfBind (nf_doStart d _) fun _ s2 h2 => ?_
              refine Ends.nfBind .get fun _ s3 h3 => ?_
              cases h3
              have : s2.sel (d.ev e).obj ≠ none := by
                have := wp_ok (show wp True True (doStart d (d.ev e).obj) (fun _ s' => s'.sel = s0.sel) _ by
                  simp only [wp_doStart]; simp) h2
                rw [this]; exact hsel
              refine Ends.ite (fun h => absurd (by simpa using h) this) fun _ => .nf (.pure _) _
            | pause => exact .nf (.pure _) _
            | resume => exact .nf (.pure _) _
            | _ => exact .nf (.bind (nf_doStop d _) fun _ => .pure _) _
          | _ => exact .nf .abort _

end

/-! ## Actions that trigger actions -/

/-- The action runs at once when its link is triggered: its delay is zero (or never) in some state. -/
def Immediate (d : Doc) (a : Act) : Prop :=
  ∃ s t, d.env.parseTime (deref d s a.delay) = some t ∧ (t = 0 ∨ t = NONE)

/-- `Leads d (e, t) (e', t')`: a successful transition `t` of event `e` makes the engine try the
transition `t'` of `e'` within the same call. -/
inductive Leads (d : Doc) : Eid × Trans → Eid × Trans → Prop where
  /-- a link has `t` of `e` as a condition and `t'` of `e'` as an action without delay -/
  | link {x l c a} : l ∈ (d.obj x).links → c ∈ l.conds → a ∈ l.acts → Immediate d a →
      Leads d (c.ev, c.tr) (a.ev, a.tr)
  /-- pausing or resuming an object as a whole pauses or resumes the anchors of the medias inside it -/
  | anchor {e t x a} : (t = .pause ∨ t = .resume) →
      ((d.ev e).isLambda = true ∨ (d.obj (d.ev e).obj).kind = .switch) →
      (x = (d.ev e).obj ∨ Below d x (d.ev e).obj) → (d.obj x).kind.isMedia = true →
      a ∈ (d.obj x).events → (d.ev a).isLambda = false → (d.ev a).typ = .presentation →
      Leads d (e, t) (a, t)
  /-- a transition of an alternative of a switch is repeated on the switch ports mapped to it -/
  | port {e t sw port evs m le} : (d.obj (d.ev e).obj).parent = some sw →
      (port, evs) ∈ (d.obj sw).switchPorts → m ∈ evs → (d.ev m).obj = (d.ev e).obj →
      d.getEvent sw .presentation port = some le → Leads d (e, t) (le, t)

section
variable {d : Doc}

theorem wp_fireActs_from (ctx : Oid) (as : List Act) : ∀ s,
    wp True True (fireActs d ctx as) (fun xs _ => ∀ b ∈ xs, b ∈ as ∧ Immediate d b) s := by
  induction as with
  | nil => intro s; simp [fireActs]
  | cons a as ih =>
    intro s
    simp only [fireActs, wp_bind, wp_get, parseTimeM]
    cases hp : d.env.parseTime (deref d s a.delay) with
    | none => trivial
    | some t =>
      simp only [wp_mpure, wp_ite]
      split
      · next ht =>
        simp only [wp_bind]
        refine wp_mono (ih s) fun xs s1 h => ?_
        simp only [wp_pure]
        intro b hb
        rcases List.mem_cons.1 hb with rfl | hb
        · exact ⟨by simp, s, t, hp, ht⟩
        · exact ⟨by simp [(h b hb).1], (h b hb).2⟩
      · simp only [wp_bind, wp_addDelayed]
        refine wp_mono (ih _) fun xs s1 h b hb => ⟨by simp [(h b hb).1], (h b hb).2⟩

theorem wp_fireConds_from (ctx : Oid) (act : Act) (as cs : List Act) : ∀ s,
    wp True True (fireConds d ctx act as cs) (fun xs _ => ∀ b ∈ xs, b ∈ as ∧ Immediate d b ∧
      ∃ c ∈ cs, c.ev = act.ev ∧ c.tr = act.tr) s := by
  induction cs with
  | nil => intro s; simp [fireConds]
  | cons c cs ih =>
    intro s
    have ih' : ∀ s, wp True True (fireConds d ctx act as cs) (fun xs _ => ∀ b ∈ xs, b ∈ as ∧ Immediate d b ∧
      ∃ c' ∈ c :: cs, c'.ev = act.ev ∧ c'.tr = act.tr) s := fun s =>
      wp_mono (ih s) fun xs _ h b hb => by
        obtain ⟨h1, h2, c', h3, h4⟩ := h b hb
        exact ⟨h1, h2, c', by simp [h3], h4⟩
    simp only [fireConds]
    split
    · next hc =>
      have key : ∀ b : Bool, ∀ s, wp True True (if b = true then do
            let xs ← fireActs d ctx as.reverse
            let ys ← fireConds d ctx act as cs
            pure (xs ++ ys)
          else fireConds d ctx act as cs) (fun xs _ => ∀ b ∈ xs, b ∈ as ∧ Immediate d b ∧
            ∃ c' ∈ c :: cs, c'.ev = act.ev ∧ c'.tr = act.tr) s := by
        intro b s
        split
        · simp only [wp_bind]
          refine wp_mono (wp_fireActs_from _ _ _) fun xs s1 h1 => wp_mono (ih' s1) fun ys s2 h2 => ?_
          simp only [wp_pure]
          intro x hx
          rcases List.mem_append.1 hx with hx | hx
          · exact ⟨by simpa using (h1 x hx).1, (h1 x hx).2, c, by simp, hc⟩
          · exact h2 x hx
        · exact ih' s
      split
      · simp only [wp_bind, wp_pure]; exact key true s
      · next p _ =>
        simp only [wp_bind]
        unfold wp M.lift
        dsimp only
        have hn := evalPred_not_ub (d := d) s p
        cases hp : evalPred d s p with
        | ok b => exact key b s
        | abort => trivial
        | ub => trivial
        | fuel => exact absurd hp hn.2
    · exact ih' s

theorem wp_fireLinks_from (ctx : Oid) (act : Act) (ls : List Link) (hls : ∀ l ∈ ls, l ∈ (d.obj ctx).links) : ∀ s,
    wp True True (fireLinks d ctx act ls) (fun xs _ => ∀ b ∈ xs, Leads d (act.ev, act.tr) (b.ev, b.tr)) s := by
  induction ls with
  | nil => intro s; simp [fireLinks]
  | cons l ls ih =>
    intro s
    simp only [fireLinks, wp_bind]
    refine wp_mono (wp_fireConds_from _ _ _ _ _) fun xs s1 h1 =>
      wp_mono (ih (fun l hl => hls l (by simp [hl])) s1) fun ys s2 h2 => ?_
    simp only [wp_pure]
    intro x hx
    rcases List.mem_append.1 hx with hx | hx
    · obtain ⟨h3, h4, c, h5, h6, h7⟩ := h1 x hx
      rw [← h6, ← h7]
      exact .link (hls l (by simp)) h5 h3 h4
    · exact h2 x hx

theorem wp_evalInCtx_from (act : Act) (ctx : Oid) (s : St) :
    wp True True (evalInCtx d act ctx) (fun xs _ => ∀ b ∈ xs, Leads d (act.ev, act.tr) (b.ev, b.tr)) s := by
  simp only [evalInCtx, wp_bind, wp_get, wp_ite]
  split
  · exact wp_fireLinks_from _ _ _ (fun _ h => h) _
  · simp

theorem wp_append_from {m m' : M (List Act)} {P : Act → Prop} (h : ∀ s, wp True True m (fun xs _ => ∀ b ∈ xs, P b) s)
    (h' : ∀ s, wp True True m' (fun xs _ => ∀ b ∈ xs, P b) s) (s : St) :
    wp True True (do let xs ← m; let ys ← m'; pure (xs ++ ys)) (fun xs _ => ∀ b ∈ xs, P b) s := by
  simp only [wp_bind]
  refine wp_mono (h _) fun xs s1 h1 => wp_mono (h' s1) fun ys s2 h2 => ?_
  simp only [wp_pure]
  intro x hx
  rcases List.mem_append.1 hx with hx | hx
  · exact h1 x hx
  · exact h2 x hx

theorem wp_firePorts_from (act : Act) (obj gp : Oid) (ps : List Eid) : ∀ s,
    wp True True (firePorts d act obj gp ps) (fun xs _ => ∀ b ∈ xs, Leads d (act.ev, act.tr) (b.ev, b.tr)) s := by
  induction ps with
  | nil => intro s; simp [firePorts]
  | cons p ps ih =>
    intro s
    simp only [firePorts]
    split
    · exact wp_append_from (wp_evalInCtx_from _ _) ih s
    · exact ih s

theorem wp_fireAliases_from (act : Act) (ls : List (String × Option Oid)) : ∀ s,
    wp True True (fireAliases d act ls) (fun xs _ => ∀ b ∈ xs, Leads d (act.ev, act.tr) (b.ev, b.tr)) s := by
  induction ls with
  | nil => intro s; simp [fireAliases]
  | cons p ps ih =>
    intro s
    obtain ⟨_, c⟩ := p
    simp only [fireAliases]
    split
    · exact ih s
    · split
      · exact wp_append_from (wp_evalInCtx_from _ _) ih s
      · exact ih s

theorem wp_fireOwn_from (act : Act) (obj : Oid) (s : St) :
    wp True True (fireOwn d act obj) (fun xs _ => ∀ b ∈ xs, Leads d (act.ev, act.tr) (b.ev, b.tr)) s := by
  unfold fireOwn
  split
  · exact wp_evalInCtx_from _ _ s
  · exact wp_fireAliases_from _ _ s

variable {rank : Oid → Nat} (hw : WF d rank)
include hw

theorem wp_fireParent_from (n : Nat) (act : Act) (obj : Oid) (s : St) (hg : Good d rank s) :
    wp True True (fireParent d (run d n) act obj)
      (fun xs _ => ∀ b ∈ xs, Leads d (act.ev, act.tr) (b.ev, b.tr)) s := by
  unfold fireParent
  simp only [wp_bind, wp_get]
  split
  · simp
  · split
    · split
      · simp only [wp_bind]
        refine wp_mono (wp_evalInCtx_from _ _ _) fun xs s1 h1 => ?_
        simp only [wp_get]
        split
        · simpa using h1
        · split
          · simp only [wp_bind]
            refine wp_mono (wp_firePorts_from _ _ _ _ _) fun ys s2 h2 => ?_
            simp only [wp_pure]
            intro x hx
            rcases List.mem_append.1 hx with hx | hx
            · exact h1 x hx
            · exact h2 x hx
          · simpa using h1
      · simp
    · split
      · simp only [wp_bind]
        refine wp_mono (wp_fireSwitch hw (spec hw n) _ _ _ _ s hg) fun _ s1 _ => ?_
        simp
      · simp

theorem ends_fireMapped {act : Act} {obj sw : Oid} {port : String}
    (hp : ∀ le, d.getEvent sw .presentation port = some le → ∀ m : Eid, (d.ev m).obj = obj →
      m ∈ ((d.obj sw).switchPorts.filter (·.1 = port)).flatMap (·.2) → Fine d rank [{ act with ev := le }])
    (ms : List Eid) (hms : ∀ m ∈ ms, m ∈ ((d.obj sw).switchPorts.filter (·.1 = port)).flatMap (·.2)) :
    ∀ s, Good d rank s → Ends d (fun r => fireMapped d r act obj sw port ms) s := by
  induction ms with
  | nil => intro s _; exact .nf (.pure _) _
  | cons m ms ih =>
    intro s hg
    have ih' := ih fun a ha => hms a (by simp [ha])
    simp only [fireMapped]
    refine Ends.ite (fun hc => ?_) fun _ => ih' s hg
    cases hle : d.getEvent sw .presentation port with
    | none => exact .nf .abort _
    | some le =>
      exact Ends.bindw hw (fun n => (spec hw n).evalA _ s hg)
        ((hp le hle m hc.1 (hms m (by simp))).evalA hg) fun _ s1 h1 => ih' s1 (h1.good hw hg)

theorem ends_fireSwitch {act : Act} {obj sw : Oid}
    (hp : ∀ port evs m le, (port, evs) ∈ (d.obj sw).switchPorts → m ∈ evs → (d.ev m).obj = obj →
      d.getEvent sw .presentation port = some le → Fine d rank [{ act with ev := le }])
    (l : List (String × List Eid)) (hl : ∀ x ∈ l, x ∈ (d.obj sw).switchPorts) :
    ∀ s, Good d rank s → Ends d (fun r => fireSwitch d r act obj sw l) s := by
  induction l with
  | nil => intro s _; exact .nf (.pure _) _
  | cons x l ih =>
    intro s hg
    obtain ⟨port, evs⟩ := x
    simp only [fireSwitch]
    refine Ends.bindw hw (fun n => wp_fireMapped hw (spec hw n) _ _ _ _ _ s hg)
      (ends_fireMapped hw (fun le hle m hm hmem => ?_) _ (fun m hm => ?_) s hg)
      fun _ s1 h1 => ih (fun x hx => hl x (by simp [hx])) s1 (h1.good hw hg)
    · simp only [List.mem_flatMap, List.mem_filter, decide_eq_true_eq] at hmem
      obtain ⟨⟨p, evs'⟩, ⟨h1, h2⟩, h3⟩ := hmem
      subst h2
      exact hp _ _ m le h1 h3 hm hle
    · simp only [List.mem_flatMap, List.mem_filter, decide_eq_true_eq]
      exact ⟨(port, evs), ⟨hl _ (by simp), rfl⟩, hm⟩

theorem ends_fireParent {act : Act} (hp : ∀ b : Act, Leads d (act.ev, act.tr) (b.ev, b.tr) → Fine d rank [b])
    {s : St} (hg : Good d rank s) : Ends d (fun r => fireParent d r act (d.ev act.ev).obj) s := by
  unfold fireParent
  refine Ends.nfBind .get fun _ s1 h1 => ?_
  cases h1
  cases hpar : (d.obj (d.ev act.ev).obj).parent with
  | none => exact .nf (.pure _) _
  | some p =>
    dsimp only
    refine Ends.ite (fun _ => ?_) fun _ => Ends.ite (fun _ => ?_) fun _ => .nf (.pure _) _
    · refine Ends.ite (fun _ => .nf (.bind (nf_evalInCtx d _ _) fun _ => .bind .get fun _ => ?_) _)
        fun _ => .nf (.pure _) _
      split
      · exact .pure _
      · exact .ite (.bind (nf_firePorts d _ _ _ _) fun _ => .pure _) (.pure _)
    · refine Ends.bind (ends_fireSwitch hw (fun port evs m le h1 h2 h3 h4 => ?_) _ (fun _ h => h) s hg)
        fun _ _ _ => .nf (.pure _) _
      exact hp _ (.port hpar h1 h2 h3 h4)

/-- One iteration of the action loop ends, and pushes only actions it leads to. -/
theorem ends_evalStep (height : Oid → Nat) (hh : ∀ c o, (d.obj c).parent = some o → height c < height o)
    {act : Act} (hp : ∀ b : Act, Leads d (act.ev, act.tr) (b.ev, b.tr) → Fine d rank [b])
    {s : St} (hg : Good d rank s) : Ends d (fun r => evalStep d r act) s := by
  have key : ∀ s1, Good d rank s1 → Ends d (fun r => do
      if (← r.trans act.ev act.tr) then do
        let xs ← fireParent d r act (d.ev act.ev).obj
        let ys ← fireOwn d act (d.ev act.ev).obj
        pure (some (xs ++ ys))
      else pure none) s1 := by
    intro s1 hg1
    refine Ends.bindw hw (fun n => (spec hw n).trans _ _ s1 hg1)
      (ends_trans hw height hh _ _ _ (Nat.lt_succ_self _) ?_ s1 hg1) fun b s2 h2 => ?_
    · intro ht he x hx hm a ha hl htyp
      exact hp { ev := a, tr := act.tr } (.anchor ht he hx hm ha hl htyp)
    · refine Ends.ite (fun _ => ?_) fun _ => .nf (.pure _) _
      refine Ends.bind (ends_fireParent hw hp (h2.steps.good hw hg1)) fun _ _ _ =>
        .nf (.bind (nf_fireOwn d _ _) fun _ => .pure _) _
  unfold evalStep
  refine Ends.nfBind (nf_setPar _ _ _) fun _ s1 h1 => ?_
  cases h1
  have q1 := (quietPar (d := d) (rank := rank) s act.ev "duration" act.duration).good hw hg
  dsimp only
  refine Ends.ite (fun _ => ?_) fun _ => key _ q1
  refine Ends.nfBind (nf_setPar _ _ _) fun _ s2 h2 => ?_
  cases h2
  exact key _ ((quietPar (d := d) (rank := rank) _ act.ev "value" act.value).good hw q1)

theorem wp_evalStep_from (n : Nat) (act : Act) (s : St) (hg : Good d rank s) :
    wp True True (evalStep d (run d n) act)
      (fun r s' => Good d rank s' ∧ ∀ l, r = some l → ∀ b ∈ l, Leads d (act.ev, act.tr) (b.ev, b.tr)) s := by
  have h1 := wp_evalStep hw (spec hw n) act s hg
  have h2 : wp True True (evalStep d (run d n) act)
      (fun r _ => ∀ l, r = some l → ∀ b ∈ l, Leads d (act.ev, act.tr) (b.ev, b.tr)) s := by
    unfold evalStep
    simp only [wp_bind, wp_setPar]
    have key : ∀ s1, Steps d rank s s1 → wp True True ((run d n).trans act.ev act.tr) (fun a s' =>
        wp True True (if a = true then do
            let xs ← fireParent d (run d n) act (d.ev act.ev).obj
            let ys ← fireOwn d act (d.ev act.ev).obj
            pure (some (xs ++ ys))
          else pure none) (fun r _ => ∀ l, r = some l → ∀ b ∈ l, Leads d (act.ev, act.tr) (b.ev, b.tr)) s') s1 := by
      intro s1 h1
      have hg1 := h1.good hw hg
      refine wp_mono ((spec hw n).trans _ _ _ hg1) ?_
      intro b s2 h2
      have hg2 := h2.steps.good hw hg1
      cases b with
      | false => simp
      | true =>
        simp only [if_true, wp_bind]
        refine wp_mono (wp_fireParent_from hw n _ _ s2 hg2) fun xs s3 h3 =>
          wp_mono (wp_fireOwn_from _ _ s3) fun ys s4 h4 => ?_
        simp only [wp_pure]
        intro l hl x hx
        cases hl
        rcases List.mem_append.1 hx with hx | hx
        · exact h3 x hx
        · exact h4 x hx
    split
    · simp only [wp_bind, wp_setPar]
      exact key _ ((quietPar _ _ _ _).trans (quietPar _ _ _ _))
    · simp only [wp_bind, wp_pure]
      exact key _ (quietPar _ _ _ _)
  unfold wp at h1 h2 ⊢
  cases hx : evalStep d (run d n) act s with
  | ok p => rw [hx] at h1 h2; exact ⟨Steps.good hw h1 hg, h2⟩
  | _ => trivial

/-- The loop ends on every stack. -/
theorem fine (height : Oid → Nat) (hh : ∀ c o, (d.obj c).parent = some o → height c < height o)
    (R : Eid → Trans → Nat) (hR : ∀ e t e' t', Leads d (e, t) (e', t') → R e' t' < R e t) :
    ∀ l, Fine d rank l := by
  have main : ∀ k rest, Fine d rank rest → ∀ l : List Act, (∀ a ∈ l, R a.ev a.tr < k) →
      Fine d rank (l ++ rest) := by
    intro k
    induction k with
    | zero =>
      intro rest hr l hl
      cases l with
      | nil => exact hr
      | cons a l => have := hl a (by simp); omega
    | succ k ih =>
      intro rest hr l
      induction l with
      | nil => intro _; exact hr
      | cons a l ihl =>
        intro hl
        have ihl' := ihl fun b hb => hl b (by simp [hb])
        have ha := hl a (by simp)
        intro c s hg
        refine Ends.loop ?_
        show Ends d (fun r => evalLoop d r (a :: (l ++ rest)) c) s
        simp only [evalLoop]
        have hsub : ∀ b : Act, Leads d (a.ev, a.tr) (b.ev, b.tr) → Fine d rank [b] := by
          intro b hb
          have := hR _ _ _ _ hb
          have := ih [] (fun k s _ => Ends.loop (.nf (.pure _) _)) [b] (by simp; omega)
          simpa using this
        refine Ends.bindw hw (fun n => wp_evalStep_from hw n a s hg) (ends_evalStep hw height hh hsub hg) ?_
        rintro o s1 ⟨hg1, ho⟩
        cases o with
        | none => exact ihl' _ _ hg1
        | some p =>
          dsimp only
          refine ih _ ihl' p.reverse (fun b hb => ?_) _ _ hg1
          have := hR _ _ _ _ (ho p rfl b (by simpa using hb))
          omega
  intro l
  have h0 : Fine d rank [] := fun k s _ => Ends.loop (.nf (.pure _) _)
  induction l with
  | nil => exact h0
  | cons a l ih => exact main (R a.ev a.tr + 1) l ih [a] (by simp)

end
end Ginga
