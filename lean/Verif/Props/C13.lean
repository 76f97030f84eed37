import Verif.Props.C14
import Verif.Proofs.Links
/-! # C13 — a switch presents its first applicable alternative -/
set_option linter.unusedVariables false
set_option linter.unusedSimpArgs false
namespace Ginga
open Ex

/-- Objects on one path of the tree of compositions: equal, inside, or around. -/
def Near (d : Doc) (o x : Oid) : Prop := x = o ∨ Below d x o ∨ Below d o x

/-- The state changes only for events of objects with property `P`. -/
def EstIn (d : Doc) (P : Oid → Prop) (s s' : St) : Prop :=
  ∀ e, s'.est e ≠ s.est e → P (d.ev e).obj

theorem EstIn.refl {d P} {s s' : St} (h : s'.est = s.est) : EstIn d P s s' :=
  fun e he => absurd (congrFun h e) he

theorem EstIn.trans {d P} {s s1 s2 : St} (h : EstIn d P s s1) (h' : EstIn d P s1 s2) :
    EstIn d P s s2 := by
  intro e he
  by_cases h1 : s1.est e = s.est e
  · exact h' e (by rw [h1]; exact he)
  · exact h e h1

theorem EstIn.mono {d P Q} {s s' : St} (h : EstIn d P s s') (hpq : ∀ x, P x → Q x) : EstIn d Q s s' :=
  fun e he => hpq _ (h e he)

theorem EstIn.set {d P} {s s1 : St} {e : Eid} {x : EState} (h : EstIn d P s s1) (he : P (d.ev e).obj) :
    EstIn d P s (s1.setEst e x) := by
  intro e' h'
  by_cases hx : e' = e
  · rw [hx]; exact he
  · exact h e' (by simpa [hx] using h')

/-- The composition below which `x` is. -/
theorem Below.trans {d : Doc} {x y z : Oid} (h : Below d x y) (h' : Below d y z) : Below d x z := by
  induction h with
  | child h1 => exact .step h1 h'
  | step h1 _ ih => exact .step h1 (ih h')

theorem Below.parent {d : Doc} {c o x : Oid} (hp : (d.obj c).parent = some o) (h : Below d c x) :
    x = o ∨ Below d o x := by
  cases h with
  | child h1 => rw [hp] at h1; cases h1; exact .inl rfl
  | step h1 h2 => rw [hp] at h1; cases h1; exact .inr h2

theorem Chain.scope {d : Doc} {rank} (hw : WF d rank) {o : Oid} {s s' : St} (hc : Chain d o s s') :
    EstIn d (fun x => x = o ∨ Below d o x) s s' := by
  induction hc with
  | @top o s q pr hk hs hp =>
    intro e he
    by_cases hx : e = d.lam o
    · left; rw [hx]; exact hw.lam_obj o
    · simp [hx] at he
  | @up o p s s2 q pr pr' hk hs hp hsl hc ih =>
    intro e he
    by_cases hx : e = d.lam o
    · left; rw [hx]; exact hw.lam_obj o
    · have hpp := (hw.ctxParent_iff.1 hp).1
      right
      rcases ih e (by simpa [hx] using he) with h1 | h1
      · rw [h1]; exact .child hpp
      · exact .step hpp h1

/-- What is assumed about the recursive calls of START. -/
def StartScope (d : Doc) (rank : Oid → Nat) (r : Rec) : Prop :=
  ∀ e s, Good d rank s →
    wp True True (r.trans e .start) (fun _ s' => EstIn d (Near d (d.ev e).obj) s s') s

theorem wp_and {α : Type} {A U : Prop} {m : M α} {Q R : α → St → Prop} {s : St}
    (h : wp A U m Q s) (h' : wp A U m R s) : wp A U m (fun a s' => Q a s' ∧ R a s') s := by
  unfold wp at *
  cases hm : m s with
  | ok p => simp only [hm] at h h' ⊢; exact ⟨h, h'⟩
  | abort => simpa [hm] using h
  | ub => simpa [hm] using h
  | fuel => trivial

section
variable {d : Doc} {rank : Oid → Nat} (h : WF d rank) {r : Rec}
  (hr : RecSpec d rank True r) (hs : StartScope d rank r)
include h hr hs

theorem wp_anchorFilter_scope (o : Oid) (b f : Nat) (l : List (Act × Nat)) :
    ∀ s, Good d rank s → OwnQ d o l →
    wp True True (anchorFilter r b f l) (fun q s' => EstIn d (Near d o) s s') s := by
  induction l with
  | nil => intro s hg hl; simp only [anchorFilter, wp_pure]; exact .refl rfl
  | cons a l ih =>
    intro s hg hl
    obtain ⟨a, t⟩ := a
    have hl' : OwnQ d o l := fun p hp => hl p (by simp [hp])
    simp only [anchorFilter]
    split
    · split
      · simp only [wp_bind]
        refine wp_mono (wp_and (hr.trans _ _ _ hg) (hs a.ev s hg)) ?_
        rintro _ s1 ⟨h1, h1'⟩
        refine wp_mono (ih s1 (h1.steps.good h hg) hl') ?_
        intro q s2 h2
        rw [(hl (a, t) (by simp)).obj] at h1'
        exact h1'.trans h2
      · exact ih s hg hl'
    · simp only [wp_bind]
      refine wp_mono (ih s hg hl') ?_
      intro q s2 h2
      exact h2

theorem wp_anchorStart_scope {o : Oid} {e : Eid} {s : St}
    (hg : Good d rank s) (he : (d.ev e).obj = o) (hm : (d.obj o).kind.isMedia = true)
    (hsl : s.est (d.lam o) = .sleeping) :
    wp True True (anchorStart d r o e) (fun _ s' => EstIn d (Near d o) s s') s := by
  unfold anchorStart
  simp only [wp_bind]
  refine wp_mono (wp_and (hr.trans _ _ _ hg) (hs (d.lam o) s hg)) ?_
  rintro b s1 ⟨h1, h1'⟩
  rw [h.lam_obj] at h1'
  have hb : b = true := h1.must rfl (h.lam_typ o)
    (by rw [h.lam_obj]; intro hk; rw [hk] at hm; cases hm) (by rw [hsl]; simp)
  have hns : s1.est (d.lam o) ≠ .sleeping := by
    have := h1.started hb rfl (h.lam_typ o) (by rw [h.lam_obj]; exact hm)
    rwa [h.lam_obj] at this
  have hg1 := h1.steps.good h hg
  obtain ⟨p, hp⟩ : ∃ p, s1.player o = some p := by
    cases hp : s1.player o with
    | none => exact absurd ((hg1.player o hm).2 hp) hns
    | some p => exact ⟨p, rfl⟩
  refine wp_mono (wp_playerSetProp hp) ?_
  rintro _ s2 ⟨p2, rfl⟩
  have q2 : Quiet d o s1 (s1.setPlayer o (some p2)) := Quiet.playerSt _ p _ hp
  have key : ∀ s3, Quiet d o s1 s3 → wp True True M.get (fun a s' =>
      wp True True (anchorFilter r (if (d.ev e).begin_ = NONE then 0 else (d.ev e).begin_) (d.ev e).end_
        (a.delayed o)) (fun a s' => wp True True (M.modify fun s => s.setDelayed o a)
          (fun _ s' => EstIn d (Near d o) s s') s') s') s3 := by
    intro s3 q3
    simp only [wp_get]
    have hg3 := (q3.steps (rank := rank)).good h hg1
    refine wp_mono (wp_anchorFilter_scope h hr hs o _ _ _ s3 hg3 (hg3.queue o hm)) ?_
    intro q s4 h4
    simp only [wp_modify]
    exact h1'.trans ((EstIn.refl q3.est).trans h4)
  split
  · simp only [wp_bind]
    refine wp_mono (wp_playerSetProp (p := p2) (by simp)) ?_
    rintro _ s3 ⟨p3, rfl⟩
    simp only [wp_addDelayed]
    refine key _ ?_
    have q3 : Quiet d o s1 ((s1.setPlayer o (some p2)).setPlayer o (some p3)) :=
      q2.trans (Quiet.playerSt _ p2 _ (by simp))
    exact q3.trans (Quiet.addDelayedSt _ _ _ _ _ (fun _ => ⟨he, by simp⟩))
  · simp only [wp_bind, wp_pure]
    exact key _ q2

theorem media_scope {e : Eid} {s : St} (hg : Good d rank s)
    (hm : (d.obj (d.ev e).obj).kind.isMedia = true) :
    wp True True (transition d r e .start) (fun _ s' => EstIn d (Near d (d.ev e).obj) s s') s := by
  have hbef : before d r e .start = mediaBefore d r (d.ev e).obj e .start := by
    unfold before; cases hk : (d.obj (d.ev e).obj).kind <;> first | rfl | (rw [hk] at hm; cases hm)
  have haft : after d r e .start = mediaAfter d r (d.ev e).obj e .start := by
    unfold after; cases hk : (d.obj (d.ev e).obj).kind <;> first | rfl | (rw [hk] at hm; cases hm)
  apply wp_transition
  · intro _; exact .refl rfl
  intro x hn
  rw [hbef, haft]
  have hself : Near d (d.ev e).obj (d.ev e).obj := .inl rfl
  -- the end, once `before` returned true
  have fin : ∀ s1, EstIn d (Near d (d.ev e).obj) s s1 →
      wp True True (mediaAfter d r (d.ev e).obj e .start) (fun b' s2 =>
        if b' = true then EstIn d (Near d (d.ev e).obj) s (s2.addLog e .start (s.est e))
        else EstIn d (Near d (d.ev e).obj) s (s2.setEst e (s.est e))) (s1.setEst e x) := by
    intro s1 h1
    have h2 : EstIn d (Near d (d.ev e).obj) s (s1.setEst e x) := h1.set hself
    unfold mediaAfter
    cases hty : (d.ev e).typ with
    | presentation =>
      simp only [wp_ite]
      split
      · simp only [wp_bind, wp_get, wp_assert]
        split
        · simp only [wp_doStart, wp_queueAnchors, wp_pure, if_true]
          obtain ⟨q, hq, -⟩ := queueAnchorsSt_eq (d := d) (d.ev e).obj (d.obj (d.ev e).obj).events
            (doStartSt d (d.ev e).obj (s1.setEst e x)) (fun e' he' => (h.mem_events _ _).1 he')
          rw [hq]
          exact h2.trans (.refl (by simp))
        · trivial
      · split
        · simp only [wp_bind]
          unfold wp playerSendLabel
          cases (s1.setEst e x).player (d.ev e).obj with
          | none => trivial
          | some p => exact h2
        · simp only [wp_pure, if_true]; exact h2
    | attribution =>
      simp only [wp_bind]
      refine wp_mono (wp_attribStart (d := d) rfl (fun _ _ => trivial)) ?_
      intro _ s2 q
      simp only [wp_pure, if_true]
      exact h2.trans (.refl q.est)
    | selection => simp only [wp_pure, if_true]; exact h2
    | lookat => simp only [wp_pure, if_true]; exact h2
  unfold mediaBefore
  cases hty : (d.ev e).typ with
  | presentation =>
    simp only [wp_bind]
    refine wp_mono (wp_startParent h hr hg) ?_
    intro _ s1 hsp
    have hg1 : Good d rank s1 := by
      rcases hsp with ⟨rfl, -⟩ | ⟨p, pr, hp, hsl, hc⟩
      · exact hg
      · exact (Steps.tail (.one (.misc pr _ _ _)) (.ctxStart p hc)).good h hg
    have h1 : EstIn d (Near d (d.ev e).obj) s s1 := by
      rcases hsp with ⟨rfl, -⟩ | ⟨p, pr, hp, hsl, hc⟩
      · exact .refl rfl
      · refine EstIn.mono (s := { s with par := pr }) (Chain.scope h hc) ?_
        have hpp := (h.ctxParent_iff.1 hp).1
        rintro x (rfl | hx)
        · exact .inr (.inr (.child hpp))
        · exact .inr (.inr (.step hpp hx))
    simp only [wp_get, wp_ite]
    split
    · split
      · simp only [wp_bind]
        refine wp_mono wp_createPlayer ?_
        rintro _ s2 ⟨props, focus, p, rfl⟩
        simp only [wp_pure, if_true]
        exact fin _ (h1.trans (.refl rfl))
      · split
        · simp only [wp_pure, if_true]; exact fin _ h1
        · next hx =>
          simp only [wp_bind]
          refine wp_mono (wp_anchorStart_scope h hr hs hg1 rfl hm (by simpa using hx)) ?_
          intro _ s2 h2
          simp only [wp_pure, if_true]
          exact fin _ (h1.trans h2)
    · simp only [wp_pure, if_true]; exact fin _ h1
  | _ => simp only [wp_pure, if_true]; exact fin _ (.refl rfl)

theorem ctx_scope {e : Eid} {s : St} (hg : Good d rank s)
    (hk : (d.obj (d.ev e).obj).kind = .context) :
    wp True True (transition d r e .start) (fun _ s' => EstIn d (Near d (d.ev e).obj) s s') s := by
  have hself : Near d (d.ev e).obj (d.ev e).obj := .inl rfl
  by_cases hty : (d.ev e).typ = .presentation
  · by_cases hl : (d.ev e).isLambda = true
    · refine wp_mono (ctx_trans h hr (t := .start) hg hk) ?_
      intro b s' hp
      cases b with
      | false => rw [hp.fail rfl]; exact .refl rfl
      | true =>
        refine (Chain.scope h (hp.chain rfl rfl hl hk)).mono ?_
        rintro x (rfl | hx)
        · exact .inl rfl
        · exact .inr (.inr hx)
    · apply wp_transition
      · intro _; exact .refl rfl
      intro x hn
      unfold before
      simp only [hk]
      unfold ctxBefore
      simp only [hty, wp_bind, wp_assert, hl]
      trivial
  · apply wp_transition
    · intro _; exact .refl rfl
    intro x hn
    unfold before after
    simp only [hk]
    unfold ctxBefore ctxAfter
    cases hty' : (d.ev e).typ with
    | presentation => exact absurd hty' hty
    | attribution =>
      simp only [wp_pure, if_true, wp_bind]
      refine wp_mono (wp_attribStart (d := d) rfl (fun _ _ => trivial)) ?_
      intro _ s2 q
      have h2 : EstIn d (Near d (d.ev e).obj) s (s.setEst e x) := (EstIn.refl rfl).set hself
      exact h2.trans (.refl q.est)
    | selection => exact .refl rfl
    | lookat => trivial

end

/-- The events an interface of a switch leads to: the contents of all alternatives if the switch
itself is started, otherwise the interfaces mapped by the switchPort. -/
def leadsTo (d : Doc) (o : Oid) (e : Eid) : List Eid :=
  if e = (d.obj o).lambda then (d.obj o).children.map fun c => (d.obj c).lambda
  else ((d.obj o).switchPorts.filter fun p => p.1 = (d.ev e).id).head?.elim [] (·.2)

/-- The first alternative, in rule order, that the interface leads to and whose rule holds. -/
def firstApplicable (d : Doc) (s : St) (o : Oid) (e : Eid) : Option Oid :=
  ((d.obj o).rules.find? fun r =>
    (leadsTo d o e).any (fun se => (d.ev se).obj = r.1) ∧ r.2.truth (deref d s)).map (·.1)

theorem applicable_child {d : Doc} {rank} (hw : WF d rank) {s : St} {o c : Oid} {e : Eid}
    (hf : firstApplicable d s o e = some c) : (d.obj c).parent = some o := by
  unfold firstApplicable at hf
  obtain ⟨x, hx, rfl⟩ := Option.map_eq_some_iff.1 hf
  have h1 := List.mem_of_find?_eq_some hx
  have h2 := List.find?_some hx
  simp only [decide_eq_true_eq, List.any_eq_true] at h2
  obtain ⟨⟨se, h3, h4⟩, -⟩ := h2
  unfold leadsTo at h3
  split at h3
  · obtain ⟨c', h5, rfl⟩ := List.mem_map.1 h3
    rw [hw.lam_obj] at h4
    rw [← h4]; exact (hw.mem_children _ _).1 h5
  · rcases hw.rules_child o x.1 x.2 h1 with h5 | h5
    · exact h5
    · cases hh : ((d.obj o).switchPorts.filter fun p => p.1 = (d.ev e).id).head? with
      | none => rw [hh] at h3; cases h3
      | some sp =>
        rw [hh] at h3
        exact absurd h4 (h5 sp (List.mem_filter.1 (List.mem_of_head? hh)).1 se h3)

theorem lastOf_none {d : Doc} {c : Oid} {l : List Eid} :
    lastOf d c l = none ↔ l.any (fun se => (d.ev se).obj = c) = false := by
  induction l with
  | nil => simp [lastOf]
  | cons e es ih =>
    simp only [lastOf, List.any_cons, Bool.or_eq_false_iff]
    cases hl : lastOf d c es with
    | none =>
      rw [hl] at ih
      simp only [ih.1 rfl, and_true]
      by_cases hc : (d.ev e).obj = c
      · simp [hc]
      · simp [hc]
    | some m =>
      rw [hl] at ih
      have : es.any (fun se => (d.ev se).obj = c) ≠ false := fun h => by cases ih.2 h
      simp only
      constructor
      · intro h; split at h <;> cases h
      · intro h; exact absurd h.2 this

/-- The rule loop starts (the interface of) the first applicable alternative. -/
theorem switchRules_first {d : Doc} {r : Rec} {o : Oid} {cands : List Eid} {s s1 : St} {b : Bool}
    (rules : List (Oid × Pred)) (h : switchRules d r o cands rules s = .ok (b, s1)) :
    match rules.find? (fun x => cands.any (fun se => (d.ev se).obj = x.1) ∧ x.2.truth (deref d s)) with
    | none => b = false ∧ s1 = s
    | some x => ∃ se ∈ cands, (d.ev se).obj = x.1 ∧ ∃ s', r.trans se .start s = .ok (b, s') ∧
        s1 = if b then s'.setSel o (some x.1) else s' := by
  induction rules with
  | nil => cases h; exact ⟨rfl, rfl⟩
  | cons x rules ih =>
    obtain ⟨c, pred⟩ := x
    simp only [switchRules] at h
    cases hl : lastOf d c cands with
    | none =>
      rw [hl] at h
      rw [List.find?_cons_of_neg (by simp [lastOf_none.1 hl])]
      exact ih h
    | some se =>
      rw [hl] at h
      obtain ⟨h1, h2⟩ := lastOf_mem hl
      have hany : cands.any (fun se => (d.ev se).obj = c) = true := by
        rw [List.any_eq_true]; exact ⟨se, h1, by simpa using h2⟩
      obtain ⟨v, s2, h3, h4⟩ := bind_ok h
      have hv : s2 = s ∧ v = pred.truth (deref d s) := by
        unfold M.lift at h3
        dsimp only at h3
        cases hp : evalPred d s pred with
        | ok v' =>
          rw [hp] at h3
          simp only [Res.bind_ok, Res.ok.injEq, Prod.mk.injEq] at h3
          exact ⟨h3.2.symm, by rw [← h3.1]; exact evalPred_sound d s pred v' hp⟩
        | _ => rw [hp] at h3; cases h3
      obtain ⟨rfl, hv⟩ := hv
      cases v with
      | false =>
        rw [List.find?_cons_of_neg (by simp [← hv])]
        exact ih h4
      | true =>
        rw [List.find?_cons_of_pos (by simp [hany, ← hv])]
        simp only [if_true] at h4
        obtain ⟨b', s3, h5, h6⟩ := bind_ok h4
        cases b' with
        | false =>
          cases h6
          exact ⟨se, h1, h2, _, h5, rfl⟩
        | true =>
          cases h6
          exact ⟨se, h1, h2, s3, h5, rfl⟩

theorem switchCands_eq {d : Doc} {rank} (hw : WF d rank) {o : Oid} {e : Eid} (heo : (d.ev e).obj = o)
    {cands : List Eid} (h : switchCands d o e = some cands) : cands = leadsTo d o e := by
  unfold switchCands at h
  unfold leadsTo
  by_cases hl : (d.ev e).isLambda = true
  · have := hw.lam_uniq e hl
    rw [heo] at this
    rw [if_pos hl] at h
    rw [if_pos this]
    cases h; rfl
  · have hne : e ≠ (d.obj o).lambda := fun hx => hl (by rw [hx]; exact hw.lam_is o)
    rw [if_neg hl] at h
    rw [if_neg hne, List.head?_filter]
    have : (d.obj o).switchPorts.find? (fun p => p.1 == (d.ev e).id) =
        (d.obj o).switchPorts.find? (fun p => decide (p.1 = (d.ev e).id)) := by
      congr 1
    rw [this] at h
    cases hx : (d.obj o).switchPorts.find? (fun p => decide (p.1 = (d.ev e).id)) with
    | none => rw [hx] at h; cases h
    | some p => rw [hx] at h; cases h; rfl

/-- START of an interface of a switch. -/
theorem switch_start {d : Doc} {rank} (hw : WF d rank) {n : Nat} {o : Oid} {e : Eid} {s s' : St} {b : Bool}
    (hk : (d.obj o).kind = .switch) (heo : (d.ev e).obj = o) (hty : (d.ev e).typ = .presentation)
    (hne : s.est e ≠ .occurring) (hg : Good d rank s)
    (h : transition d (run d n) e .start s = .ok (b, s')) :
    match firstApplicable d s o e with
    | none => b = false ∧ s' = s
    | some c => ∃ se ∈ leadsTo d o e, (d.ev se).obj = c ∧ ∃ s1, (run d n).trans se .start s = .ok (b, s1) ∧
        (b = true → s'.sel o = some c ∧ s'.est = upd s1.est e .occurring) := by
  have hr := run_spec hw (U := True) (fun _ => trivial) n
  unfold transition at h
  obtain ⟨s0, s0', h1, h2⟩ := bind_ok h
  cases h1
  have hn : nextState (s.est e) .start = some .occurring := by simp [nextState, hne]
  simp only [hn] at h2
  obtain ⟨bb, s1, h3, h4⟩ := bind_ok h2
  simp only [before, heo, hk, switchBefore] at h3
  cases hc : switchCands d o e with
  | none => rw [hc] at h3; cases h3
  | some cands =>
    rw [hc] at h3
    simp only [hty] at h3
    obtain ⟨_, _, h5, h6⟩ := bind_ok h3
    cases h5
    obtain ⟨_, s2, h7, h8⟩ := bind_ok h6
    have hs2 : s2 = s := by
      unfold M.assert at h7
      split at h7 <;> cases h7
      rfl
    obtain rfl : s = s2 := hs2.symm
    have hce := switchCands_eq hw heo hc
    subst hce
    have hfst := switchRules_first _ h8
    unfold firstApplicable
    cases hf : (d.obj o).rules.find? (fun r => (leadsTo d o e).any (fun se => (d.ev se).obj = r.1) ∧
        r.2.truth (deref d s)) with
    | none =>
      rw [hf] at hfst
      obtain ⟨rfl, rfl⟩ := hfst
      simp only [Bool.false_eq_true, if_false] at h4
      cases h4
      exact ⟨rfl, rfl⟩
    | some x =>
      rw [hf] at hfst
      obtain ⟨se, g1, g2, s3, g3, g4⟩ := hfst
      simp only [Option.map_some]
      refine ⟨se, g1, g2, s3, ?_⟩
      cases bb with
      | false =>
        simp only [Bool.false_eq_true, if_false] at h4
        cases h4
        exact ⟨g3, by simp⟩
      | true =>
        simp only [if_true] at h4 g4
        obtain ⟨_, s5, h9, h10⟩ := bind_ok h4
        cases h9
        subst g4
        obtain ⟨b', s6, h11, h12⟩ := bind_ok h10
        have hkey : b' = true ∧ s6 = doStartSt d o ((s3.setSel o (some x.1)).setEst e .occurring) := by
          have : wp False False (after d (run d n) e .start) (fun b s6 => b = true ∧
              s6 = doStartSt d o ((s3.setSel o (some x.1)).setEst e .occurring))
              ((s3.setSel o (some x.1)).setEst e .occurring) := by
            unfold after
            simp only [heo, hk]
            unfold switchAfter
            simp only [hty, wp_bind, wp_doStart, wp_get]
            simp
          exact wp_ok this h11
        obtain ⟨rfl, rfl⟩ := hkey
        simp only [if_true] at h12
        cases h12
        exact ⟨g3, fun _ => ⟨by simp, by simp⟩⟩

theorem start_scope {d : Doc} {rank} (hw : WF d rank) (n : Nat) : StartScope d rank (run d n) := by
  induction n with
  | zero => intro e s _; trivial
  | succ n ih =>
    intro e s hg
    have hr := run_spec hw (U := True) (fun _ => trivial) n
    show wp True True (transition d (run d n) e .start) _ s
    by_cases hm : (d.obj (d.ev e).obj).kind.isMedia = true
    · exact media_scope hw hr ih hg hm
    · cases hk : (d.obj (d.ev e).obj).kind with
      | context => exact ctx_scope hw hr ih hg hk
      | media => rw [hk] at hm; simp [Kind.isMedia] at hm
      | settings => rw [hk] at hm; simp [Kind.isMedia] at hm
      | switch =>
        by_cases hty : (d.ev e).typ = .presentation
        case neg =>
          apply wp_transition
          · intro _; exact .refl rfl
          intro x hn
          unfold before
          simp only [hk]
          unfold switchBefore
          cases switchCands d (d.ev e).obj e with
          | none => trivial
          | some cands =>
            simp only
            cases hx : (d.ev e).typ with
            | presentation => exact absurd hx hty
            | _ => trivial
        case pos =>
        by_cases hoc : s.est e = .occurring
        · apply wp_transition
          · intro _; exact .refl rfl
          · intro x hn; rw [hoc] at hn; cases hn
        · refine wp_intro ?_ (fun _ => trivial) (fun _ => trivial)
          intro b s' he
          have hsw := switch_start hw hk rfl hty hoc hg he
          have hpost : TransPost d rank s e .start b s' := wp_ok (switch_trans hw hr hg hk) he
          cases b with
          | false => rw [hpost.fail rfl]; exact .refl rfl
          | true =>
            cases hf : firstApplicable d s (d.ev e).obj e with
            | none => rw [hf] at hsw; cases hsw.1
            | some c =>
              rw [hf] at hsw
              obtain ⟨se, h1, h2, s1, h3, h4⟩ := hsw
              have hsc := wp_ok (ih se s hg) h3
              have hcp : (d.obj c).parent = some (d.ev e).obj := applicable_child hw hf
              intro e' he'
              by_cases hee : e' = e
              · rw [hee]; exact .inl rfl
              · rw [(h4 rfl).2, upd_ne _ _ hee] at he'
                rcases hsc e' he' with h5 | h5 | h5
                · rw [h5, h2]; exact .inr (.inl (.child hcp))
                · rw [h2] at h5; exact .inr (.inl (h5.trans (.child hcp)))
                · rw [h2] at h5
                  rcases Below.parent hcp h5 with h6 | h6
                  · exact .inl h6
                  · exact .inr (.inr h6)


/-- **C13** (partial: for calls that return; see `C13_fails_second_interface`).  Starting an interface
`e` (the switch itself or a switchPort) of a switch that is not occurring: if no alternative is
applicable the start fails and nothing changes; otherwise an interface `se` of the first applicable
alternative `c` is started.  The start of the switch succeeds iff the start of `se` does (which is
always so if `c` is a media or context and `se` was not occurring); the events that change state are
events of the switch, of `c`, of content of `c`, or of compositions around the switch - so nothing
else inside the switch is touched. -/
theorem C13_start_partial {f : Fmt} (hf : Reachable f) {d : Doc} (hd : f.doc = some d)
    {o : Oid} {e : Eid} (hk : (d.obj o).kind = .switch) (heo : (d.ev e).obj = o)
    (hty : (d.ev e).typ = .presentation) (hne : f.st.est e ≠ .occurring)
    (n : Nat) (b : Bool) (s' : St) (h : (run d n).trans e .start f.st = .ok (b, s')) :
    match firstApplicable d f.st o e with
    | none => b = false ∧ s' = f.st
    | some c => ∃ se ∈ leadsTo d o e, (d.ev se).obj = c ∧
        (b = true → s'.est e = .occurring ∧ s'.est se = .occurring ∧ s'.sel o = some c) ∧
        (b = false → s' = f.st) ∧
        ((d.obj c).kind ≠ .switch → (d.ev se).typ = .presentation → f.st.est se ≠ .occurring → b = true) ∧
        (∀ e', s'.est e' ≠ f.st.est e' → (d.ev e').obj = c ∨ Below d (d.ev e').obj c ∨
          (d.ev e').obj = o ∨ Below d o (d.ev e').obj) := by
  obtain ⟨rank, hw, hg, -⟩ := (hf.inv triv_inv).good d hd
  cases n with
  | zero => cases h
  | succ n =>
  have hr := run_spec hw (U := True) (fun _ => trivial) n
  have hpost := wp_ok ((run_spec hw (U := True) (fun _ => trivial) (n + 1)).trans e .start f.st hg) h
  have hsw := switch_start hw hk heo hty hne hg h
  cases hfa : firstApplicable d f.st o e with
  | none => rw [hfa] at hsw; exact hsw
  | some c =>
    rw [hfa] at hsw
    obtain ⟨se, h1, h2, s1, h3, h4⟩ := hsw
    have hcp := applicable_child hw hfa
    have hp1 := wp_ok (hr.trans se .start f.st hg) h3
    have hsc := wp_ok (start_scope hw n se f.st hg) h3
    refine ⟨se, h1, h2, ?_, hpost.fail, ?_, ?_⟩
    · intro hb
      obtain ⟨g1, g2⟩ := h4 hb
      refine ⟨by rw [g2]; simp, ?_, g1⟩
      obtain ⟨x, hx, hx'⟩ := hp1.ok hb
      obtain ⟨rfl, -⟩ := nextState_start hw hx
      rw [g2]
      by_cases hee : se = e
      · rw [hee]; simp
      · rw [upd_ne _ _ hee]; exact hx'
    · intro hk' hty' hne'
      exact hp1.must rfl hty' (by rw [h2]; exact hk') hne'
    · intro e' he'
      cases b with
      | false => rw [hpost.fail rfl] at he'; exact absurd rfl he'
      | true =>
        by_cases hee : e' = e
        · rw [hee, heo]; exact .inr (.inr (.inl rfl))
        · rw [(h4 rfl).2, upd_ne _ _ hee] at he'
          rcases hsc e' he' with h5 | h5 | h5
          · exact .inl (h5.trans h2)
          · rw [h2] at h5; exact .inr (.inl h5)
          · rw [h2] at h5
            rcases Below.parent hcp h5 with h6 | h6
            · exact .inr (.inr (.inl h6))
            · exact .inr (.inr (.inr h6))

/-- The sibling alternatives of the one that is started, and their content, keep their state. -/
theorem C13_nothing_else {f : Fmt} (hf : Reachable f) {d : Doc} (hd : f.doc = some d)
    {o : Oid} {e : Eid} (hk : (d.obj o).kind = .switch) (heo : (d.ev e).obj = o)
    (hty : (d.ev e).typ = .presentation) (hne : f.st.est e ≠ .occurring)
    (n : Nat) (b : Bool) (s' : St) (h : (run d n).trans e .start f.st = .ok (b, s'))
    {x : Oid} (hx : (d.obj x).parent = some o) (hxc : firstApplicable d f.st o e ≠ some x)
    (e' : Eid) (he' : (d.ev e').obj = x ∨ Below d (d.ev e').obj x) : s'.est e' = f.st.est e' := by
  obtain ⟨rank, hw, hg, -⟩ := (hf.inv triv_inv).good d hd
  have hrk : ∀ {a b}, Below d a b → rank b < rank a := by
    intro a b hab
    induction hab with
    | child h1 => exact hw.rank_lt _ _ h1
    | step h1 _ ih => exact Nat.lt_trans ih (hw.rank_lt _ _ h1)
  have hm := C13_start_partial hf hd hk heo hty hne n b s' h
  cases hfa : firstApplicable d f.st o e with
  | none => rw [hfa] at hm; rw [hm.2]
  | some c =>
    rw [hfa] at hm hxc
    obtain ⟨se, -, -, -, -, -, hm⟩ := hm
    have hcp := applicable_child hw hfa
    have hcx : c ≠ x := fun hc => hxc (by rw [hc])
    -- two different children of `o` have disjoint contents
    have disj : ∀ y, (y = c ∨ Below d y c) → (y = x ∨ Below d y x) → False := by
      have aux : ∀ y z, Below d y z → (d.obj z).parent = some o → ∀ w, (d.obj w).parent = some o →
          Below d y w → z = w := by
        intro y z hyz
        induction hyz with
        | @child y z h1 =>
          intro hz w hww hyw
          cases hyw with
          | child h2 => rw [h1] at h2; cases h2; rfl
          | step h2 h3 =>
            rw [h1] at h2; cases h2
            have := hrk h3
            rcases Below.parent hz h3 with h4 | h4
            · subst h4; have := hw.rank_lt _ _ hww; omega
            · have := hrk h4; have := hw.rank_lt _ _ hww; omega
        | @step y z v h1 h2 ih =>
          intro hv w hww hyw
          cases hyw with
          | child h3 =>
            rw [h1] at h3; cases h3
            have := hrk h2
            rcases Below.parent hww h2 with h4 | h4
            · subst h4; have := hw.rank_lt _ _ hv; omega
            · have := hrk h4; have := hw.rank_lt _ _ hv; omega
          | step h3 h4 => rw [h1] at h3; cases h3; exact ih hv w hww h4
      have notbelow : ∀ {y z}, (d.obj y).parent = some o → (d.obj z).parent = some o → ¬ Below d y z := by
        intro y z hy hz hyz
        rcases Below.parent hy hyz with h4 | h4
        · subst h4; have := hw.rank_lt _ _ hz; omega
        · have := hrk h4; have := hw.rank_lt _ _ hz; omega
      rintro y (rfl | h1) (h2 | h2)
      · exact hcx h2
      · exact notbelow hcp hx h2
      · subst h2; exact notbelow hx hcp h1
      · exact hcx (aux _ _ h1 hcp _ hx h2)
    have hbo : (d.ev e').obj = x ∨ Below d (d.ev e').obj x → rank o < rank (d.ev e').obj := by
      have hxo := hw.rank_lt _ _ hx
      rintro (h1 | h1)
      · rw [h1]; exact hxo
      · exact Nat.lt_trans hxo (hrk h1)
    refine Decidable.byContradiction fun hch => ?_
    rcases hm e' hch with h1 | h1 | h1 | h1
    · exact disj _ (.inl h1) he'
    · exact disj _ (.inr h1) he'
    · have := hbo he'; rw [h1] at this; omega
    · have := hbo he'; have := hrk h1; omega

/-- body(0) with settings(1) and a switch(2) with a switchPort `p` (5) leading to both of its
alternatives, the medias 3 and 4; the rules compare the property `lang` of media 3. -/
def altDoc : Doc :=
  mkDoc env0
    [ { kind := .context, id := "__root__", children := [1, 2], events := [0], lambda := 0 },
      { kind := .settings, id := "__settings__", parent := some 0, events := [1, 6], lambda := 1,
        props0 := [("type", "application/x-ginga-settings")] },
      { kind := .switch, id := "sw", parent := some 0, children := [3, 4], events := [2, 5], lambda := 2,
        rules := [(3, .atom "$m.lang" .eq "pt"), (4, .atom "$m.lang" .eq "en"), (3, .verum)],
        switchPorts := [("p", [3, 4])] },
      { kind := .media, id := "m", parent := some 2, events := [3], lambda := 3,
        props0 := [("lang", "en")] },
      { kind := .media, id := "k", parent := some 2, events := [4], lambda := 4 } ]
    [ { typ := .presentation, obj := 0, id := "@lambda" },
      { typ := .presentation, obj := 1, id := "@lambda" },
      { typ := .presentation, obj := 2, id := "@lambda" },
      { typ := .presentation, obj := 3, id := "@lambda" },
      { typ := .presentation, obj := 4, id := "@lambda" },
      { typ := .presentation, obj := 2, id := "p" },
      { typ := .attribution, obj := 1, id := "service.currentFocus" } ]
    0 1

theorem altDoc_wf : DocWF altDoc := mkDoc_wf [0, 1, 1, 2, 2] (by decide +kernel)

/-! Non-vacuity: with `lang = en` the second rule is the first that holds, so media 4 is started
and media 3 is not; through the switch itself and through its switchPort. -/
example : ∃ f, Reachable f ∧ f.doc = some altDoc ∧
    (decide (f.st.est 2 ≠ .occurring) && decide (firstApplicable altDoc f.st 2 2 = some 4) &&
      okAnd ((run altDoc 20).trans 2 .start f.st) (fun b s => b && decide (s.est 4 = .occurring) &&
        decide (s.est 3 = .sleeping)) &&
      decide (firstApplicable altDoc f.st 2 5 = some 4) &&
      okAnd ((run altDoc 20).trans 5 .start f.st) (fun b s => b && decide (s.est 4 = .occurring) &&
        decide (s.est 3 = .sleeping))) = true :=
  witness altDoc altDoc_wf 50 [] rfl _ (by decide +kernel)

/-- **C13 fails** for a second interface of a switch that is already presented: starting the
switchPort `p` (a sleeping event) terminates the process. -/
theorem C13_fails_second_interface :
    ∃ f, Reachable f ∧ f.doc = some altDoc ∧ f.st.est 5 = .sleeping ∧
      (run altDoc 20).trans 5 .start f.st = .abort := by
  obtain ⟨f, h1, h2, h3⟩ := witness altDoc altDoc_wf 50 [.action { ev := 2, tr := .start }] rfl
    (fun f => decide (f.st.est 5 = .sleeping) &&
      (match (run altDoc 20).trans 5 .start f.st with | .abort => true | _ => false))
    (by decide +kernel)
  simp only [Bool.and_eq_true, decide_eq_true_eq] at h3
  refine ⟨f, h1, h2, h3.1, ?_⟩
  have := h3.2
  split at this
  · assumption
  · cases this

end Ginga
