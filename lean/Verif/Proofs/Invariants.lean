import Verif.Proofs.Tick
import Verif.Spec
/-! # Further invariants of the presentation -/
set_option linter.unusedSectionVars false
set_option linter.unusedSimpArgs false
set_option linter.unusedVariables false
namespace Ginga

/-! ## Every recorded transition is legal -/

def LogLegal (_ : Doc) (s : St) : Prop := ∀ en ∈ s.log, (nextState en.before en.tr).isSome = true

theorem Chain.logLegal {d : Doc} {o : Oid} {s s' : St} (hc : Chain d o s s')
    (hl : LogLegal d s) : LogLegal d s' := by
  induction hc with
  | @top o s q pr hk hs hp =>
    intro en hen
    simp at hen
    rcases hen with rfl | hen
    · simp [nextState, hs]
    · exact hl en hen
  | @up o p s s2 q pr pr' hk hs hp hsl hc ih =>
    have ih' := ih (by simpa [LogLegal] using hl)
    intro en hen
    simp at hen
    rcases hen with rfl | hen
    · simp [nextState, hs]
    · exact ih' en hen

theorem nextState_stop_some {b : EState} {t : Trans} (ht : t = .stop ∨ t = .abort)
    (hb : b ≠ .sleeping) : nextState b t = some .sleeping := by
  rcases ht with rfl | rfl <;> simp [nextState, hb]

theorem logLegal_inv : StInv LogLegal where
  init := by intro d focus _ en hen; simp [Doc.init] at hen
  step := by
    intro d rank h s t ha hg hl
    cases ha with
    | clock => exact hl
    | atom ha =>
      have cons : ∀ e t b (s' : St), (nextState b t).isSome = true → s'.log = s.log →
          LogLegal d (s'.addLog e t b) := by
        intro e t b s' hb he en hen
        simp [he] at hen
        rcases hen with rfl | hen
        · exact hb
        · exact hl en hen
      cases ha with
      | misc => exact hl
      | queue => exact hl
      | player => exact hl
      | sel => exact hl
      | mediaStart o p hk hsl hpar => exact cons _ _ _ _ (by simp [nextState]) (by simp)
      | mediaRestart o hk hsl => exact cons _ _ _ _ (by simp [nextState]) (by simp)
      | mediaStop o t hk hsl ht => exact cons _ _ _ _ (by rw [nextState_stop_some ht hsl]; rfl) (by simp)
      | mediaSet o t b x p hk hsl ht hn => exact cons _ _ _ _ (by rw [hn]; rfl) (by simp)
      | anchor e t b x hk hl' hty hn hx => exact cons _ _ _ _ (by rw [hn]; rfl) (by simp)
      | other e t b x hty hn => exact cons _ _ _ _ (by rw [hn]; rfl) (by simp)
      | ctxStart o hc => exact hc.logLegal hl
      | ctxStop o t hk hsl ht hch => exact cons _ _ _ _ (by rw [nextState_stop_some ht hsl]; rfl) (by simp)
      | ctxSet o t b x hk ht hn hw => exact cons _ _ _ _ (by rw [hn]; rfl) (by simp)
      | swStart e b hk hty hb => exact cons _ _ _ _ (by simp [nextState, hb]) (by simp)
      | swStop e t b hk hty ht hb => exact cons _ _ _ _ (by rw [nextState_stop_some ht hb]; rfl) (by simp)
      | swSet e t b x hk hty ht hn => exact cons _ _ _ _ (by rw [hn]; rfl) (by simp)

/-! ## A sleeping context has no presented child (except through switches) -/

theorem Below.parent_trans {d : Doc} {x c o : Oid} (hc : (d.obj c).parent = some o)
    (hx : Below d x c) : Below d x o := by
  induction hx with
  | child hp => exact .step hp (.child hc)
  | step hp _ ih => exact .step hp (ih hc)

theorem SwitchFree.child {d : Doc} {c o : Oid} (hs : SwitchFree d o)
    (hc : (d.obj c).parent = some o) : SwitchFree d c :=
  ⟨hs.2 c (.child hc), fun x hx => hs.2 x (hx.parent_trans hc)⟩

/-- Parent-child pairs other than those below `ex`. -/
def CtxInvEx (d : Doc) (ex : Option Oid) (s : St) : Prop :=
  ∀ c p, d.ctxParent c = some p → SwitchFree d c → ex ≠ some p →
    s.est (d.lam c) ≠ .sleeping → s.est (d.lam p) ≠ .sleeping

def CtxInv (d : Doc) (s : St) : Prop := CtxInvEx d none s

theorem Chain.ctxInv {d : Doc} {rank : Oid → Nat} (h : WF d rank) {o : Oid} {s s' : St}
    (hc : Chain d o s s') (hi : CtxInvEx d (some o) s) : CtxInv d s' := by
  induction hc with
  | @top o s q pr hk hs hp =>
    intro c p hcp hsw _ hns
    by_cases hpo : p = o
    · subst hpo; simp
    · have hpne : d.lam p ≠ d.lam o := fun he => hpo (h.lam_inj he)
      simp [hpne] at hns ⊢
      by_cases hco : c = o
      · subst hco; have := hp p hcp; simpa [hpne] using this
      · have hcne : d.lam c ≠ d.lam o := fun he => hco (h.lam_inj he)
        simp [hcne] at hns
        exact hi c p hcp hsw (by simp; exact fun he => hpo he.symm) hns
  | @up o p s s2 q pr pr' hk hs hp hsl hc ih =>
    have : CtxInvEx d (some p) { (doStartSt d o (s.setEst (d.lam o) .occurring)) with par := pr } := by
      intro c p' hcp hsw hex hns
      by_cases hpo : p' = o
      · subst hpo; simp
      · have hpne : d.lam p' ≠ d.lam o := fun he => hpo (h.lam_inj he)
        have hco : c ≠ o := by
          rintro rfl; rw [hp] at hcp; cases hcp; exact hex rfl
        have hcne : d.lam c ≠ d.lam o := fun he => hco (h.lam_inj he)
        simp [hpne, hcne] at hns ⊢
        exact hi c p' hcp hsw (by simp; exact fun he => hpo he.symm) hns
    have := ih this
    intro c p' hcp hsw hex hns
    exact this c p' hcp hsw hex (by simpa using hns)

theorem CtxInvEx.of {d : Doc} {s : St} (hi : CtxInv d s) (ex) : CtxInvEx d ex s :=
  fun c p hcp hsw _ hns => hi c p hcp hsw (by simp) hns

theorem ctxInv_inv : StInv CtxInv where
  init := by intro d focus _ c p _ _ _ hns; simp [Doc.init] at hns
  step := by
    intro d rank h s t ha hg hl
    cases ha with
    | clock => exact hl
    | atom ha =>
      -- changing the state of an event that is not the lambda of a context/media child
      intro c p hcp hsw hex hns
      have hi := hl c p hcp hsw hex
      have hpk := h.ctxParent_kind hcp
      cases ha with
      | misc => exact hi hns
      | queue => exact hi hns
      | player => exact hi hns
      | sel => exact hi hns
      | mediaStart o pl hk hsl hpar =>
        have hpne : d.lam p ≠ d.lam o := by
          intro he; rw [← h.lam_inj he, hpk] at hk; cases hk
        by_cases hco : c = o
        · subst hco; simpa [hpne] using hpar p hcp
        · have hcne : d.lam c ≠ d.lam o := fun he => hco (h.lam_inj he)
          simp [hpne, hcne] at hns ⊢; exact hi hns
      | mediaRestart o hk hsl =>
        have hpne : d.lam p ≠ d.lam o := by
          intro he; rw [← h.lam_inj he, hpk] at hk; cases hk
        by_cases hco : c = o
        · subst hco; simp [hpne]; exact hi (by rw [hsl]; simp)
        · have hcne : d.lam c ≠ d.lam o := fun he => hco (h.lam_inj he)
          simp [hpne, hcne] at hns ⊢; exact hi hns
      | mediaStop o t hk hsl ht =>
        have hpo : p ≠ o := by rintro rfl; rw [hpk] at hk; cases hk
        simp [h.reset_apply, h.lam_obj, hpo] at hns ⊢
        exact hi hns.2
      | mediaSet o t b x pl hk hsl ht hn =>
        have hpne : d.lam p ≠ d.lam o := by
          intro he; rw [← h.lam_inj he, hpk] at hk; cases hk
        by_cases hco : c = o
        · subst hco; simp [hpne]; exact hi hsl
        · have hcne : d.lam c ≠ d.lam o := fun he => hco (h.lam_inj he)
          simp [hpne, hcne] at hns ⊢; exact hi hns
      | anchor e t b x hk hl' hty hn hx =>
        have ne : ∀ o, d.lam o ≠ e := by
          rintro o rfl; rw [h.lam_is] at hl'; cases hl'
        simp [ne] at hns ⊢; exact hi hns
      | other e t b x hty hn =>
        have ne : ∀ o, d.lam o ≠ e := by
          rintro o rfl; exact hty (h.lam_typ o)
        simp [ne] at hns ⊢; exact hi hns
      | ctxStart o hc => exact Chain.ctxInv h hc (.of hl _) c p hcp hsw hex hns
      | ctxStop o t hk hsl ht hch =>
        simp [h.reset_apply, h.lam_obj] at hns ⊢
        refine ⟨?_, hi hns.2⟩
        rintro rfl
        exact hns.2 (hch c ((h.mem_children _ _).2 (h.ctxParent_iff.1 hcp).1))
      | ctxSet o t b x hk ht hn hw =>
        have hx := nextState_pr h ht hn
        by_cases hpo : p = o
        · subst hpo; simp [hx]
        · have hpne : d.lam p ≠ d.lam o := fun he => hpo (h.lam_inj he)
          simp [hpne] at hns ⊢
          by_cases hco : c = o
          · subst hco
            apply hi
            rcases hw with hw | ⟨c', hc', hw⟩
            · exact hw
            · have hpar := (h.mem_children _ _).1 hc'
              exact hl c' c (h.ctxParent_iff.2 ⟨hpar, hk⟩) (hsw.child hpar) (by simp) hw
          · have hcne : d.lam c ≠ d.lam o := fun he => hco (h.lam_inj he)
            simp [hcne] at hns; exact hi hns
      | swStart e b hk hty hb =>
        have ne : ∀ o, (d.obj o).kind ≠ .switch → d.lam o ≠ e := by
          rintro o ho rfl; rw [h.lam_obj] at hk; exact ho hk
        have h1 := ne c hsw.1; have h2 := ne p (by rw [hpk]; simp)
        simp [h1, h2] at hns ⊢; exact hi hns
      | swStop e t b hk hty ht hb =>
        have hpo : p ≠ (d.ev e).obj := by rintro rfl; rw [hpk] at hk; cases hk
        simp [h.reset_apply, h.lam_obj, hpo] at hns ⊢
        exact hi hns.2
      | swSet e t b x hk hty ht hn =>
        have ne : ∀ o, (d.obj o).kind ≠ .switch → d.lam o ≠ e := by
          rintro o ho rfl; rw [h.lam_obj] at hk; exact ho hk
        have h1 := ne c hsw.1; have h2 := ne p (by rw [hpk]; simp)
        simp [h1, h2] at hns ⊢; exact hi hns
end Ginga
