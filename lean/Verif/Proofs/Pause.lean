import Verif.Proofs.Links
import Verif.Proofs.Witness
/-! # Propagation of PAUSE and RESUME inside a composition without switches -/
set_option linter.unusedVariables false
namespace Ginga

/-- No link of the document reacts to transition `t`. -/
def Deaf (d : Doc) (t : Trans) : Prop := ∀ o, ∀ l ∈ (d.obj o).links, ∀ c ∈ l.conds, c.tr ≠ t

/-- PAUSE takes occurring events to paused, RESUME takes paused ones to occurring. -/
inductive Turn : Trans → EState → EState → Prop where
  | pause : Turn .pause .occurring .paused
  | resume : Turn .resume .paused .occurring

theorem Turn.ne {t A B} (h : Turn t A B) : A ≠ B := by cases h <;> simp

theorem Turn.next {t A B} (h : Turn t A B) (x : EState) :
    nextState x t = if x = A then some B else none := by cases h <;> rfl

theorem assert_ok {b : Bool} {s s' : St} {u : Unit} (h : M.assert b s = .ok (u, s')) :
    b = true ∧ s' = s := by
  cases b with
  | true => cases h; exact ⟨rfl, rfl⟩
  | false => cases h

section
variable {d : Doc} {t : Trans} {A B : EState}

theorem fireConds_deaf {ctx : Oid} {act : Act} {acts : List Act} {s : St} : ∀ {cs : List Act},
    (∀ c ∈ cs, c.tr ≠ act.tr) → fireConds d ctx act acts cs s = .ok ([], s) := by
  intro cs
  induction cs with
  | nil => intro _; rfl
  | cons c cs ih =>
    intro h
    unfold fireConds
    rw [if_neg (fun hh => h c (by simp) hh.2)]
    exact ih fun c hc => h c (by simp [hc])

theorem fireLinks_deaf {ctx : Oid} {act : Act} {s : St} : ∀ {ls : List Link},
    (∀ l ∈ ls, ∀ c ∈ l.conds, c.tr ≠ act.tr) → fireLinks d ctx act ls s = .ok ([], s) := by
  intro ls
  induction ls with
  | nil => intro _; rfl
  | cons l ls ih =>
    intro h
    unfold fireLinks
    rw [bind_of_ok (fireConds_deaf (h l (by simp))), bind_of_ok (ih fun l hl => h l (by simp [hl]))]
    rfl

theorem evalInCtx_deaf (hdf : Deaf d t) {act : Act} (ha : act.tr = t) (ctx : Oid) (s : St) :
    evalInCtx d act ctx s = .ok ([], s) := by
  unfold evalInCtx
  rw [bind_of_ok (show M.get s = .ok (s, s) from rfl)]
  split
  · exact fireLinks_deaf fun l hl c hc => by rw [ha]; exact hdf ctx l hl c hc
  · rfl

theorem firePorts_deaf (hdf : Deaf d t) {act : Act} (ha : act.tr = t) (x g : Oid) (s : St) :
    ∀ ps, firePorts d act x g ps s = .ok ([], s) := by
  intro ps
  induction ps with
  | nil => rfl
  | cons p ps ih =>
    unfold firePorts
    split
    · rw [bind_of_ok (evalInCtx_deaf hdf ha g s), bind_of_ok ih]; rfl
    · exact ih

theorem fireAliases_deaf (hdf : Deaf d t) {act : Act} (ha : act.tr = t) (s : St) :
    ∀ l, fireAliases d act l s = .ok ([], s) := by
  intro l
  induction l with
  | nil => rfl
  | cons p l ih =>
    obtain ⟨a, c⟩ := p
    unfold fireAliases
    cases c with
    | none => exact ih
    | some c =>
      simp only
      split
      · rw [bind_of_ok (evalInCtx_deaf hdf ha c s), bind_of_ok ih]; rfl
      · exact ih

theorem fireParent_deaf (hdf : Deaf d t) {act : Act} (ha : act.tr = t) (r : Rec) (x : Oid) (s : St)
    (hp : ∀ p, (d.obj x).parent = some p → (d.obj p).kind ≠ .switch) :
    fireParent d r act x s = .ok ([], s) := by
  unfold fireParent
  rw [bind_of_ok (show M.get s = .ok (s, s) from rfl)]
  cases hx : (d.obj x).parent with
  | none => rfl
  | some p =>
    simp only
    split
    · split
      · rw [bind_of_ok (evalInCtx_deaf hdf ha p s), bind_of_ok (show M.get s = .ok (s, s) from rfl)]
        cases hg : (d.obj p).parent with
        | none => rfl
        | some g =>
          simp only
          split
          · rw [bind_of_ok (firePorts_deaf hdf ha x g s _)]; rfl
          · rfl
      · rfl
    · rw [if_neg (hp p hx)]; rfl

theorem fireOwn_deaf (hdf : Deaf d t) {act : Act} (ha : act.tr = t) (x : Oid) (s : St) :
    fireOwn d act x s = .ok ([], s) := by
  unfold fireOwn
  split
  · exact evalInCtx_deaf hdf ha x s
  · exact fireAliases_deaf hdf ha s _

/-- What propagation of the transition does: inside `D`, events in state `A` may go to `B`; below a
composition that turned nothing is left in `A`, and a media that turned has its player and its
anchors turned. -/
structure Turned (d : Doc) (D : Oid → Prop) (A B : EState) (s s' : St) : Prop where
  only : ∀ e, s'.est e = s.est e ∨
    (s.est e = A ∧ s'.est e = B ∧ D (d.ev e).obj ∧ (d.ev e).typ = .presentation ∧
      ((d.ev e).isLambda = true ∨ (d.obj (d.ev e).obj).kind.isMedia = true))
  below : ∀ y, (d.obj y).kind = .context → s.est (d.obj y).lambda = A → s'.est (d.obj y).lambda = B →
    ∀ c, (d.obj c).parent = some y → s'.est (d.obj c).lambda ≠ A
  media : ∀ y, (d.obj y).kind.isMedia = true → s.est (d.obj y).lambda = A →
    s'.est (d.obj y).lambda = B → (∃ p, s'.player y = some p ∧ p.st = B) ∧
    ∀ e, (d.ev e).obj = y → (d.ev e).typ = .presentation → s'.est e ≠ A
  player : ∀ y, s'.player y ≠ s.player y → s.est (d.obj y).lambda = A ∧ s'.est (d.obj y).lambda = B

variable {D : Oid → Prop}

theorem Turned.refl (hAB : A ≠ B) (s : St) : Turned d D A B s s :=
  ⟨fun _ => .inl rfl, fun y _ h1 h2 => absurd (h1.symm.trans h2) hAB,
    fun y _ h1 h2 => absurd (h1.symm.trans h2) hAB, fun y h => absurd rfl h⟩

/-- Nothing goes (back) to `A`. -/
theorem Turned.keep (hAB : A ≠ B) {s s' : St} (h : Turned d D A B s s') {e : Eid} (he : s.est e ≠ A) :
    s'.est e = s.est e := by
  rcases h.only e with h1 | h1
  · exact h1
  · exact absurd h1.1 he

theorem Turned.trans (hAB : A ≠ B) {s s1 s2 : St} (h : Turned d D A B s s1) (h' : Turned d D A B s1 s2) :
    Turned d D A B s s2 := by
  refine ⟨?_, ?_, ?_, ?_⟩
  · intro e
    rcases h.only e with h1 | h1
    · rcases h'.only e with h2 | h2
      · exact .inl (h2.trans h1)
      · exact .inr ⟨h1 ▸ h2.1, h2.2⟩
    · exact .inr ⟨h1.1, by rw [h'.keep hAB (by rw [h1.2.1]; exact hAB.symm)]; exact h1.2.1, h1.2.2⟩
  · intro y hy hA hB c hc
    rcases h.only (d.obj y).lambda with h1 | h1
    · exact h'.below y hy (h1.trans hA) hB c hc
    · have := h.below y hy hA h1.2.1 c hc
      rw [h'.keep hAB this]; exact this
  · intro y hy hA hB
    rcases h.only (d.obj y).lambda with h1 | h1
    · exact h'.media y hy (h1.trans hA) hB
    · have hm := h.media y hy hA h1.2.1
      refine ⟨?_, fun e he ht => by rw [h'.keep hAB (hm.2 e he ht)]; exact hm.2 e he ht⟩
      have hp : s2.player y = s1.player y := by
        refine Classical.byContradiction fun hne => ?_
        have := (h'.player y hne).1
        exact hAB (this.symm.trans h1.2.1)
      rw [hp]; exact hm.1
  · intro y hne
    by_cases h1 : s1.player y = s.player y
    · have := h'.player y (by rw [h1]; exact hne)
      rcases h.only (d.obj y).lambda with h2 | h2
      · exact ⟨h2 ▸ this.1, this.2⟩
      · exact absurd (this.1.symm.trans h2.2.1) hAB
    · have := h.player y h1
      exact ⟨this.1, by rw [h'.keep hAB (by rw [this.2]; exact hAB.symm)]; exact this.2⟩

/-- A change that leaves states and players alone. -/
theorem Turned.same (hAB : A ≠ B) {s s' : St} (h1 : s'.est = s.est) (h2 : s'.player = s.player) :
    Turned d D A B s s' := by
  refine ⟨fun e => .inl (by rw [h1]), ?_, ?_, fun y h => absurd (by rw [h2]) h⟩
  · intro y _ a b; rw [h1] at b; exact absurd (a.symm.trans b) hAB
  · intro y _ a b; rw [h1] at b; exact absurd (a.symm.trans b) hAB

/-- The part of the tree the propagation stays in. -/
structure Inside (d : Doc) (D : Oid → Prop) : Prop where
  child : ∀ c p, (d.obj c).parent = some p → D p → D c
  kind : ∀ x, D x → (d.obj x).kind ≠ .switch
  media : ∀ x, D x → (d.obj x).kind.isMedia = true → ∀ p, (d.obj x).parent = some p →
    (d.obj p).kind ≠ .switch

/-- The recursive calls behave as they should. -/
structure TurnRec (d : Doc) (D : Oid → Prop) (t : Trans) (A B : EState) (r : Rec) : Prop where
  trans : ∀ e s b s', D (d.ev e).obj → (d.ev e).typ = .presentation → r.trans e t s = .ok (b, s') →
    Turned d D A B s s' ∧ s'.est e ≠ A
  evalA : ∀ e s k s', D (d.ev e).obj → (d.ev e).typ = .presentation → (d.ev e).isLambda = false →
    (d.obj (d.ev e).obj).kind.isMedia = true →
    r.evalA { ev := e, tr := t } s = .ok (k, s') → Turned d D A B s s' ∧ s'.est e ≠ A
  loop : ∀ e n s k s', D (d.ev e).obj → (d.ev e).typ = .presentation → (d.ev e).isLambda = false →
    (d.obj (d.ev e).obj).kind.isMedia = true →
    r.loop [{ ev := e, tr := t }] n s = .ok (k, s') → Turned d D A B s s' ∧ s'.est e ≠ A
  loop0 : ∀ n s k s', r.loop [] n s = .ok (k, s') → s' = s

variable {rank : Oid → Nat}

theorem turn_transAll (hw : WF d rank) (hD : Inside d D) (hAB : A ≠ B) {r : Rec}
    (hr : TurnRec d D t A B r) : ∀ (cs : List Oid) (s s' : St), (∀ c ∈ cs, D c) →
    transAll d r t cs s = .ok ((), s') → Turned d D A B s s' ∧ ∀ c ∈ cs, s'.est (d.obj c).lambda ≠ A := by
  intro cs
  induction cs with
  | nil => intro s s' _ h; cases h; exact ⟨.refl hAB s, by simp⟩
  | cons c cs ih =>
    intro s s' hcs h
    unfold transAll at h
    obtain ⟨b, s1, h1, h2⟩ := bind_ok h
    obtain ⟨k1, k2⟩ := hr.trans _ _ _ _ (by rw [hw.lam_obj]; exact hcs c (by simp)) (hw.lam_typ c) h1
    obtain ⟨k3, k4⟩ := ih s1 s' (fun c hc => hcs c (by simp [hc])) h2
    refine ⟨k1.trans hAB k3, ?_⟩
    intro x hx
    rcases List.mem_cons.1 hx with rfl | hx
    · rw [k3.keep hAB k2]; exact k2
    · exact k4 x hx

theorem turn_evalAnchors (hw : WF d rank) (hAB : A ≠ B) {r : Rec} (hr : TurnRec d D t A B r) {o : Oid}
    (ho : D o) (hm : (d.obj o).kind.isMedia = true) :
    ∀ (es : List Eid) (s s' : St), (∀ e ∈ es, (d.ev e).obj = o) →
    evalAnchors d r t es s = .ok ((), s') → Turned d D A B s s' ∧
      ∀ e ∈ es, (d.ev e).isLambda = false → (d.ev e).typ = .presentation → s'.est e ≠ A := by
  intro es
  induction es with
  | nil => intro s s' _ h; cases h; exact ⟨.refl hAB s, by simp⟩
  | cons e es ih =>
    intro s s' hes h
    unfold evalAnchors at h
    split at h
    · next hc =>
      obtain ⟨b, s1, h1, h2⟩ := bind_ok h
      have heo := hes e (by simp)
      have hl : (d.ev e).isLambda = false := by simpa using hc.1
      obtain ⟨k1, k2⟩ := hr.evalA e _ _ _ (by rw [heo]; exact ho) hc.2 hl (by rw [heo]; exact hm) h1
      obtain ⟨k3, k4⟩ := ih s1 s' (fun e he => hes e (by simp [he])) h2
      refine ⟨k1.trans hAB k3, ?_⟩
      intro x hx hxl hxt
      rcases List.mem_cons.1 hx with rfl | hx
      · rw [k3.keep hAB k2]; exact k2
      · exact k4 x hx hxl hxt
    · next hc =>
      obtain ⟨k3, k4⟩ := ih s s' (fun e he => hes e (by simp [he])) h
      refine ⟨k3, ?_⟩
      intro x hx hxl hxt
      rcases List.mem_cons.1 hx with rfl | hx
      · exact absurd ⟨by simp [hxl], hxt⟩ hc
      · exact k4 x hx hxl hxt

theorem playerPause_ok {t : Trans} (hT : Turn t A B) {o : Oid} {s s' : St} {x : Bool}
    (hx : x = (t == .resume)) (h : playerPause o x s = .ok ((), s')) :
    ∃ p, s' = s.setPlayer o (some p) ∧ p.st = B := by
  subst hx
  unfold playerPause at h
  cases hp : s.player o with
  | none => rw [hp] at h; cases h
  | some p =>
    rw [hp] at h
    simp only at h
    cases hT with
    | pause =>
      rw [if_neg (by decide)] at h
      split at h
      · cases h; exact ⟨_, rfl, rfl⟩
      · cases h
    | resume =>
      rw [if_pos (by decide)] at h
      split at h
      · cases h; exact ⟨_, rfl, rfl⟩
      · cases h

theorem turn_transition (hw : WF d rank) (hD : Inside d D) (hT : Turn t A B) {r : Rec}
    (hr : TurnRec d D t A B r) (e : Eid) (s : St) (b : Bool) (s' : St) (he : D (d.ev e).obj)
    (ht : (d.ev e).typ = .presentation) (h : transition d r e t s = .ok (b, s')) :
    Turned d D A B s s' ∧ s'.est e ≠ A := by
  have hAB := hT.ne
  unfold transition at h
  obtain ⟨_, _, h0, h⟩ := bind_ok h
  cases h0
  simp only [hT.next] at h
  by_cases hA : s.est e = A
  · rw [if_pos hA] at h
    simp only at h
    obtain ⟨b1, s1, hb, h⟩ := bind_ok h
    -- what `before` does
    have key : b1 = true ∧ Turned d D A B s (s1.setEst e B) := by
      unfold before at hb
      have ctx : (d.obj (d.ev e).obj).kind = .context → ctxBefore d r (d.ev e).obj e t s = .ok (b1, s1) →
          b1 = true ∧ Turned d D A B s (s1.setEst e B) := by
        intro hk hb
        unfold ctxBefore at hb
        rw [ht] at hb
        simp only at hb
        obtain ⟨_, s0, ha, hb⟩ := bind_ok hb
        obtain ⟨hlam, hs0⟩ := assert_ok ha
        rw [hs0] at hb
        have hb' : (do transAll d r t (d.obj (d.ev e).obj).children; pure true : M Bool) s = .ok (b1, s1) := by
          cases hT <;> exact hb
        obtain ⟨_, s2, hc, hb'⟩ := bind_ok hb'
        cases hb'
        refine ⟨rfl, ?_⟩
        obtain ⟨k1, k2⟩ := turn_transAll hw hD hAB hr _ s s1
          (fun c hc => hD.child c _ ((hw.mem_children _ _).1 hc) he) hc
        have hel := hw.lam_uniq e hlam
        refine ⟨?_, ?_, ?_, ?_⟩
        · intro x
          by_cases hx : x = e
          · subst hx; exact .inr ⟨hA, by simp [St.setEst], he, ht, .inl hlam⟩
          · simp only [St.setEst, upd_ne _ _ hx]; exact k1.only x
        · intro y hy hyA hyB c hc
          by_cases hce : (d.obj c).lambda = e
          · rw [hce]; simp only [St.setEst, upd_same]; exact hAB.symm
          · simp only [St.setEst, upd_ne _ _ hce]
            by_cases hye : (d.obj y).lambda = e
            · have : y = (d.ev e).obj := by rw [← hye, hw.lam_obj]
              rw [this] at hc
              exact k2 c ((hw.mem_children _ _).2 hc)
            · simp only [St.setEst, upd_ne _ _ hye] at hyB
              exact k1.below y hy hyA hyB c hc
        · intro y hy hyA hyB
          have hye : (d.obj y).lambda ≠ e := by
            intro hye
            have : y = (d.ev e).obj := by rw [← hye, hw.lam_obj]
            rw [this, hk] at hy; cases hy
          simp only [St.setEst, upd_ne _ _ hye] at hyB
          obtain ⟨m1, m2⟩ := k1.media y hy hyA hyB
          refine ⟨m1, fun x hx hxt => ?_⟩
          by_cases hxe : x = e
          · subst hxe; simp only [St.setEst, upd_same]; exact hAB.symm
          · simp only [St.setEst, upd_ne _ _ hxe]; exact m2 x hx hxt
        · intro y hy
          have := k1.player y hy
          refine ⟨this.1, ?_⟩
          by_cases hye : (d.obj y).lambda = e
          · rw [hye]; simp [St.setEst]
          · simp only [St.setEst, upd_ne _ _ hye]; exact this.2
      have med : (d.obj (d.ev e).obj).kind.isMedia = true → mediaBefore d r (d.ev e).obj e t s = .ok (b1, s1) →
          b1 = true ∧ Turned d D A B s (s1.setEst e B) := by
        intro hk hb
        unfold mediaBefore at hb
        rw [ht] at hb
        simp only at hb
        have hb' : (if (d.ev e).isLambda then do
            evalAnchors d r t (d.obj (d.ev e).obj).events
            playerPause (d.ev e).obj (t == .resume)
            pure true
          else pure true : M Bool) s = .ok (b1, s1) := by cases hT <;> exact hb
        split at hb'
        · next hl =>
          have hel := hw.lam_uniq e hl
          obtain ⟨_, s2, h1, hb'⟩ := bind_ok hb'
          obtain ⟨_, s3, h2, hb'⟩ := bind_ok hb'
          cases hb'
          refine ⟨rfl, ?_⟩
          obtain ⟨k1, k2⟩ := turn_evalAnchors hw hAB hr he hk _ s s2
            (fun x hx => (hw.mem_events _ _).1 hx) h1
          obtain ⟨p, hs1, hp⟩ := playerPause_ok hT rfl h2
          subst hs1
          refine ⟨?_, ?_, ?_, ?_⟩
          · intro x
            by_cases hx : x = e
            · subst hx; exact .inr ⟨hA, by simp [St.setEst], he, ht, .inr hk⟩
            · simp only [St.setEst, St.setPlayer, upd_ne _ _ hx]; exact k1.only x
          · intro y hy hyA hyB c hc
            have hye : (d.obj y).lambda ≠ e := by
              intro hye
              have : y = (d.ev e).obj := by rw [← hye, hw.lam_obj]
              rw [← this, hy] at hk; cases hk
            simp only [St.setEst, St.setPlayer, upd_ne _ _ hye] at hyB
            by_cases hce : (d.obj c).lambda = e
            · rw [hce]; simp only [St.setEst, upd_same]; exact hAB.symm
            · simp only [St.setEst, St.setPlayer, upd_ne _ _ hce]
              exact k1.below y hy hyA hyB c hc
          · intro y hy hyA hyB
            by_cases hye : (d.obj y).lambda = e
            · have hyo : y = (d.ev e).obj := by rw [← hye, hw.lam_obj]
              refine ⟨⟨p, by simp [St.setEst, St.setPlayer, hyo], hp⟩, ?_⟩
              intro x hx hxt
              by_cases hxe : x = e
              · subst hxe; simp only [St.setEst, upd_same]; exact hAB.symm
              · simp only [St.setEst, St.setPlayer, upd_ne _ _ hxe]
                refine k2 x ((hw.mem_events _ _).2 (hx.trans hyo)) ?_ hxt
                cases hl : (d.ev x).isLambda with
                | false => rfl
                | true => exact absurd (by rw [hw.lam_uniq x hl, hx, hyo, ← hel]) hxe
            · simp only [St.setEst, St.setPlayer, upd_ne _ _ hye] at hyB
              obtain ⟨m1, m2⟩ := k1.media y hy hyA hyB
              have hyo : y ≠ (d.ev e).obj := by intro hh; subst hh; exact hye hel.symm
              refine ⟨by simp only [St.setEst, St.setPlayer, upd_ne _ _ hyo]; exact m1, fun x hx hxt => ?_⟩
              by_cases hxe : x = e
              · subst hxe; simp only [St.setEst, upd_same]; exact hAB.symm
              · simp only [St.setEst, St.setPlayer, upd_ne _ _ hxe]; exact m2 x hx hxt
          · intro y hy
            by_cases hyo : y = (d.ev e).obj
            · subst hyo; rw [← hel]; exact ⟨hA, by simp [St.setEst]⟩
            · simp only [St.setEst, St.setPlayer, upd_ne _ _ hyo] at hy
              have hye : (d.obj y).lambda ≠ e := by
                intro hh; exact hyo (by rw [← hh, hw.lam_obj])
              simp only [St.setEst, St.setPlayer, upd_ne _ _ hye]
              exact k1.player y hy
        · next hl =>
          cases hb'
          refine ⟨rfl, ?_⟩
          have hlne : ∀ y, (d.obj y).lambda ≠ e := by
            intro y hh; exact hl (by rw [← hh]; exact hw.lam_is y)
          refine ⟨?_, ?_, ?_, ?_⟩
          · intro x
            by_cases hx : x = e
            · subst hx; exact .inr ⟨hA, by simp [St.setEst], he, ht, .inr hk⟩
            · exact .inl (by simp only [St.setEst, upd_ne _ _ hx])
          · intro y hy hyA hyB
            simp only [St.setEst, upd_ne _ _ (hlne y)] at hyB; exact absurd (hyA.symm.trans hyB) hAB
          · intro y hy hyA hyB
            simp only [St.setEst, upd_ne _ _ (hlne y)] at hyB; exact absurd (hyA.symm.trans hyB) hAB
          · intro y hy; exact absurd rfl hy
      cases hk : (d.obj (d.ev e).obj).kind with
      | context => rw [hk] at hb; exact ctx hk hb
      | switch => exact absurd hk (hD.kind _ he)
      | media => rw [hk] at hb; exact med (by rw [hk]; rfl) hb
      | settings => rw [hk] at hb; exact med (by rw [hk]; rfl) hb
    obtain ⟨rfl, key⟩ := key
    rw [if_pos rfl] at h
    obtain ⟨_, s2, h2, h⟩ := bind_ok h
    have hs2 : s2 = s1.setEst e B := by cases h2; rfl
    rw [hs2] at h
    obtain ⟨b2, s3, h3, h⟩ := bind_ok h
    have h3' : b2 = true ∧ s3 = s1.setEst e B := by
      unfold after at h3
      cases hk : (d.obj (d.ev e).obj).kind with
      | context =>
        rw [hk] at h3; simp only at h3
        unfold ctxAfter at h3; rw [ht] at h3; simp only at h3
        obtain ⟨_, s4, h4, h3⟩ := bind_ok h3
        have := (assert_ok h4).2
        rw [this] at h3
        cases hT <;> (cases h3; exact ⟨rfl, rfl⟩)
      | switch => exact absurd hk (hD.kind _ he)
      | media =>
        rw [hk] at h3; simp only at h3
        unfold mediaAfter at h3; rw [ht] at h3
        cases hT <;> (cases h3; exact ⟨rfl, rfl⟩)
      | settings =>
        rw [hk] at h3; simp only at h3
        unfold mediaAfter at h3; rw [ht] at h3
        cases hT <;> (cases h3; exact ⟨rfl, rfl⟩)
    obtain ⟨rfl, rfl⟩ := h3'
    rw [if_pos rfl] at h
    obtain ⟨_, s4, h4, h⟩ := bind_ok h
    cases h4
    cases h
    refine ⟨⟨key.only, key.below, key.media, key.player⟩, ?_⟩
    simp only [St.setEst, upd_same]; exact hAB.symm
  · rw [if_neg hA] at h
    cases h
    exact ⟨.refl hAB _, hA⟩

theorem turn_run (hw : WF d rank) (hD : Inside d D) (hT : Turn t A B) (hdf : Deaf d t) (n : Nat) :
    TurnRec d D t A B (run d n) := by
  have hAB := hT.ne
  induction n with
  | zero =>
    exact ⟨fun e s b s' _ _ h => (nomatch h), fun e s b s' _ _ _ _ h => (nomatch h),
      fun e n s k s' _ _ _ _ h => (nomatch h), fun n s k s' h => (nomatch h)⟩
  | succ n ih =>
    refine ⟨turn_transition hw hD hT ih, fun e s k s' h1 h2 h3 h4 h => ih.loop e 0 s k s' h1 h2 h3 h4 h, ?_, ?_⟩
    · intro e m s k s' h1 h2 h3 h4 h
      change evalLoop d (run d n) [{ ev := e, tr := t }] m s = .ok (k, s') at h
      unfold evalLoop at h
      obtain ⟨x, s1, hx, h⟩ := bind_ok h
      have hstep : Turned d D A B s s1 ∧ s1.est e ≠ A ∧ (x = none ∨ x = some []) := by
        unfold evalStep at hx
        obtain ⟨_, s2, hp, hx⟩ := bind_ok hx
        have e2 : s2.est = s.est ∧ s2.player = s.player := by cases hp; exact ⟨rfl, rfl⟩
        dsimp only at hx
        rw [if_neg (by rw [h2]; decide)] at hx
        obtain ⟨b, s4, hb, hx⟩ := bind_ok hx
        obtain ⟨k1, k2⟩ := ih.trans e s2 b s4 h1 h2 hb
        have k0 : Turned d D A B s s4 := (Turned.same hAB e2.1 e2.2).trans hAB k1
        split at hx
        · rw [bind_of_ok (fireParent_deaf hdf rfl _ _ s4 (hD.media _ h1 h4)),
            bind_of_ok (fireOwn_deaf hdf rfl _ s4)] at hx
          cases hx
          exact ⟨k0, k2, .inr rfl⟩
        · cases hx; exact ⟨k0, k2, .inl rfl⟩
      obtain ⟨k1, k2, hx'⟩ := hstep
      rcases hx' with rfl | rfl
      · have := ih.loop0 _ _ _ _ h; subst this; exact ⟨k1, k2⟩
      · have := ih.loop0 _ _ _ _ h; subst this; exact ⟨k1, k2⟩
    · intro m s k s' h
      cases h; rfl

end
end Ginga
