import Verif.Proofs.Steps
/-! # The basic invariants are preserved by every atomic step -/
set_option linter.unusedSectionVars false
set_option linter.unusedSimpArgs false
namespace Ginga
section
variable {d : Doc} {rank : Oid → Nat} (h : WF d rank)
include h

theorem nextState_pr {b x : EState} {t : Trans} (ht : t = .pause ∨ t = .resume)
    (hn : nextState b t = some x) : x ≠ .sleeping := by
  rcases ht with rfl | rfl <;> simp [nextState] at hn <;> obtain ⟨-, rfl⟩ := hn <;> simp

theorem Atom.playerInv {s t : St} (ha : Atom d rank s t) (hg : PlayerInv d s) :
    PlayerInv d t := by
  intro o ho
  have hs := hg o ho
  have lamne : ∀ {o'}, (d.obj o').kind.isMedia ≠ true → d.lam o ≠ d.lam o' := by
    intro o' hk he; rw [h.lam_inj he] at ho; exact hk ho
  have lamne' : ∀ {e : Eid}, (d.obj (d.ev e).obj).kind.isMedia ≠ true → d.lam o ≠ e := by
    intro e hk he; apply hk; rw [← he, h.lam_obj]; exact ho
  cases ha with
  | misc => exact hs
  | queue => exact hs
  | player o' p p' hp =>
    by_cases heq : o = o'
    · subst heq; simp [hp] at hs ⊢; exact hs
    · simpa [heq] using hs
  | sel => exact hs
  | mediaStart o' p hk hsl hpar =>
    by_cases heq : o = o'
    · subst heq; simp
    · have : d.lam o ≠ d.lam o' := fun he => heq (h.lam_inj he)
      simpa [heq, this] using hs
  | mediaRestart o' hk hsl =>
    by_cases heq : o = o'
    · subst heq; simp [hsl] at hs ⊢; exact hs
    · have : d.lam o ≠ d.lam o' := fun he => heq (h.lam_inj he)
      simpa [heq, this] using hs
  | mediaStop o' t hk hsl ht =>
    by_cases heq : o = o'
    · subst heq; simp [h.reset_apply, h.lam_obj]
    · simpa [h.reset_apply, h.lam_obj, heq] using hs
  | mediaSet o' t b x p hk hsl ht hn =>
    have hx := nextState_pr h ht hn
    by_cases heq : o = o'
    · subst heq; simp [hx]
    · have : d.lam o ≠ d.lam o' := fun he => heq (h.lam_inj he)
      simpa [heq, this] using hs
  | anchor e t b x hk hl hty hn hx =>
    have : d.lam o ≠ e := by rintro rfl; rw [h.lam_is] at hl; cases hl
    simpa [this] using hs
  | other e t b x hty hn =>
    have : d.lam o ≠ e := by rintro rfl; exact hty (h.lam_typ o)
    simpa [this] using hs
  | ctxStart o' hc =>
    have h1 := (Chain.frame h hc).1
    have h2 := Chain.media h hc (d.lam o) (by rw [h.lam_obj]; exact isMedia_ne_ctx ho)
    rw [h1, h2]; exact hs
  | ctxStop o' t hk hsl ht hch =>
    have hne : o ≠ o' := by rintro rfl; rw [hk] at ho; cases ho
    simpa [h.reset_apply, h.lam_obj, hne] using hs
  | ctxSet o' t b x hk ht hn hw =>
    have : d.lam o ≠ d.lam o' := lamne (by rw [hk]; simp [Kind.isMedia])
    simpa [this] using hs
  | swStart e b hk hty hb =>
    have : d.lam o ≠ e := lamne' (by rw [hk]; simp [Kind.isMedia])
    simpa [this] using hs
  | swStop e t b hk hty ht hb =>
    have : o ≠ (d.ev e).obj := by rintro rfl; rw [hk] at ho; cases ho
    simpa [h.reset_apply, h.lam_obj, this] using hs
  | swSet e t b x hk hty ht hn =>
    have : d.lam o ≠ e := lamne' (by rw [hk]; simp [Kind.isMedia])
    simpa [this] using hs

theorem Atom.anchorInv {s t : St} (ha : Atom d rank s t) (hg : AnchorInv d s) :
    AnchorInv d t := by
  intro e ho hty
  have hs := hg e ho hty
  have lamne : ∀ {o'}, (d.obj o').kind.isMedia ≠ true → e ≠ d.lam o' := by
    rintro o' hk rfl; rw [h.lam_obj] at ho; exact hk ho
  have lamne2 : ∀ {o'}, (d.obj o').kind.isMedia ≠ true → d.lam (d.ev e).obj ≠ d.lam o' := by
    intro o' hk he; apply hk; rw [← h.lam_inj he]; exact ho
  have evne : ∀ {e' : Eid}, (d.obj (d.ev e').obj).kind.isMedia ≠ true → e ≠ e' := by
    rintro e' hk rfl; exact hk ho
  have evne2 : ∀ {e' : Eid}, (d.obj (d.ev e').obj).kind.isMedia ≠ true →
      d.lam (d.ev e).obj ≠ e' := by
    rintro e' hk rfl; rw [h.lam_obj] at hk; exact hk ho
  cases ha with
  | misc => exact hs
  | queue => exact hs
  | player o' p p' hp => exact hs
  | sel => exact hs
  | mediaStart o' p hk hsl hpar =>
    by_cases heq : (d.ev e).obj = o'
    · subst heq; simp
    · have h1 : d.lam (d.ev e).obj ≠ d.lam o' := fun he => heq (h.lam_inj he)
      have h2 : e ≠ d.lam o' := by rintro rfl; exact heq (h.lam_obj o')
      simpa [h1, h2] using hs
  | mediaRestart o' hk hsl =>
    by_cases heq : (d.ev e).obj = o'
    · subst heq; simp
    · have h1 : d.lam (d.ev e).obj ≠ d.lam o' := fun he => heq (h.lam_inj he)
      have h2 : e ≠ d.lam o' := by rintro rfl; exact heq (h.lam_obj o')
      simpa [h1, h2] using hs
  | mediaStop o' t hk hsl ht =>
    simp only [addLog_est, doStopSt_est, setPlayer_est, h.reset_apply, h.lam_obj]
    split
    · simp
    · exact hs
  | mediaSet o' t b x p hk hsl ht hn =>
    have hx := nextState_pr h ht hn
    by_cases heq : (d.ev e).obj = o'
    · subst heq; simp [hx]
    · have h1 : d.lam (d.ev e).obj ≠ d.lam o' := fun he => heq (h.lam_inj he)
      have h2 : e ≠ d.lam o' := by rintro rfl; exact heq (h.lam_obj o')
      simpa [h1, h2] using hs
  | anchor e' t b x hk hl hty' hn hx =>
    have h1 : d.lam (d.ev e).obj ≠ e' := by rintro rfl; rw [h.lam_is] at hl; cases hl
    by_cases heq : e = e'
    · subst heq
      simp only [addLog_est, setEst_est, upd_ne _ _ h1, upd_same]
      intro hsl; by_cases hxs : x = .sleeping
      · exact hxs
      · exact absurd hsl (hx hxs)
    · simpa [h1, heq] using hs
  | other e' t b x hty' hn =>
    have h1 : d.lam (d.ev e).obj ≠ e' := by rintro rfl; exact hty' (h.lam_typ _)
    have h2 : e ≠ e' := by rintro rfl; exact hty' hty
    simpa [h1, h2] using hs
  | ctxStart o' hc =>
    have h1 := Chain.media h hc e (isMedia_ne_ctx ho)
    have h2 := Chain.media h hc (d.lam (d.ev e).obj) (by rw [h.lam_obj]; exact isMedia_ne_ctx ho)
    rw [h1, h2]; exact hs
  | ctxStop o' t hk hsl ht hch =>
    simp only [addLog_est, doStopSt_est, h.reset_apply, h.lam_obj]
    split
    · simp
    · exact hs
  | ctxSet o' t b x hk ht hn hw =>
    have h1 := lamne (o' := o') (by rw [hk]; simp [Kind.isMedia])
    have h2 := lamne2 (o' := o') (by rw [hk]; simp [Kind.isMedia])
    simpa [h1, h2] using hs
  | swStart e' b hk hty hb =>
    have h1 := evne (e' := e') (by rw [hk]; simp [Kind.isMedia])
    have h2 := evne2 (e' := e') (by rw [hk]; simp [Kind.isMedia])
    simpa [h1, h2] using hs
  | swStop e' t b hk hty ht hb =>
    simp only [addLog_est, doStopSt_est, h.reset_apply, h.lam_obj]
    split
    · simp
    · exact hs
  | swSet e' t b x hk hty ht hn =>
    have h1 := evne (e' := e') (by rw [hk]; simp [Kind.isMedia])
    have h2 := evne2 (e' := e') (by rw [hk]; simp [Kind.isMedia])
    simpa [h1, h2] using hs

theorem Atom.queueInv {s t : St} (ha : Atom d rank s t) (hg : QueueInv d s) :
    QueueInv d t := by
  intro o ho
  have hs := hg o ho
  cases ha with
  | queue o' q hq =>
    by_cases heq : o = o'
    · subst heq; simp; exact hq ho hs
    · simpa [heq] using hs
  | mediaStop o' t hk hsl ht =>
    by_cases heq : o = o'
    · subst heq; simp [OwnQ]
    · simpa [heq] using hs
  | ctxStart o' hc =>
    rw [(Chain.frame h hc).2.2.2.1 o (isMedia_ne_ctx ho)]; exact hs
  | ctxStop o' t hk hsl ht hch =>
    by_cases heq : o = o'
    · subst heq; simp [OwnQ]
    · simpa [heq] using hs
  | swStop e' t b hk hty ht hb =>
    by_cases heq : o = (d.ev e').obj
    · subst heq; simp [OwnQ]
    · simpa [heq] using hs
  | _ => simpa using hs

theorem Atom.selInv {s t : St} (ha : Atom d rank s t) (hg : SelInv d s) : SelInv d t := by
  cases ha with
  | sel o c hc =>
    intro o' c' hs
    by_cases heq : o' = o
    · subst heq; simp at hs; exact hc _ hs
    · simp [heq] at hs; exact hg _ _ hs
  | ctxStart o' hc =>
    intro o' c'; rw [(Chain.frame h hc).2.1]; exact hg o' c'
  | _ => simpa [SelInv] using hg

theorem Atom.good {s t : St} (ha : Atom d rank s t) (hg : Good d rank s) : Good d rank t :=
  ⟨ha.playerInv h hg.player, ha.anchorInv h hg.anchor, ha.queueInv h hg.queue, ha.selInv h hg.sel⟩

theorem Steps.good {s t : St} (hs : Steps d rank s t) (hg : Good d rank s) : Good d rank t :=
  hs.inv (fun _ _ ha => ha.good h) hg

theorem Good.init (focus : String) : Good d rank (d.init focus) := by
  refine ⟨?_, ?_, ?_, ?_⟩
  · intro o _; simp [Doc.init]
  · intro e _ _ _; rfl
  · intro o _ p hp; simp [Doc.init] at hp
  · intro o c hs; simp [Doc.init] at hs

end
end Ginga
