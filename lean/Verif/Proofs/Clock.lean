import Verif.Proofs.Fmt
/-! # Presentation clocks -/
set_option linter.unusedVariables false
set_option linter.unusedSectionVars false
set_option linter.unusedSimpArgs false
namespace Ginga

/-- A sleeping media or context has no clock. -/
def TimeInv (d : Doc) (s : St) : Prop :=
  ∀ o, (d.obj o).kind ≠ .switch → s.est (d.lam o) = .sleeping → s.time o = NONE

theorem Chain.timeInv {d : Doc} {rank : Oid → Nat} (h : WF d rank) {o : Oid} {s s' : St}
    (hc : Chain d o s s') (hi : TimeInv d s) : TimeInv d s' := by
  induction hc with
  | @top o s q pr hk hs hp =>
    intro o' hk' hsl
    by_cases ho : o' = o
    · subst ho; simp at hsl
    · have hne : d.lam o' ≠ d.lam o := fun he => ho (h.lam_inj he)
      simp [hne] at hsl
      simpa [ho] using hi o' hk' hsl
  | @up o p s s2 q pr pr' hk hs hp hsl hc ih =>
    have := ih (by
      intro o' hk' hsl'
      by_cases ho : o' = o
      · subst ho; simp at hsl'
      · have hne : d.lam o' ≠ d.lam o := fun he => ho (h.lam_inj he)
        simp [hne] at hsl'
        simpa [ho] using hi o' hk' hsl')
    intro o' hk' hsl'
    exact this o' hk' (by simpa using hsl')

theorem timeInv_inv : StInv TimeInv where
  init := by intro d focus _ o _ _; simp [Doc.init]
  step := by
    intro d rank h s t ha hg hl
    cases ha with
    | clock o' t ho =>
      intro o hk hsl
      have : o ≠ o' := by rintro rfl; simp at hsl; rw [ho] at hsl; cases hsl
      simpa [this] using hl o hk hsl
    | atom ha =>
      intro o hk' hsl
      have hi := hl o hk'
      have lamne : ∀ {o'}, o ≠ o' → d.lam o ≠ d.lam o' := fun hne he => hne (h.lam_inj he)
      cases ha with
      | misc => exact hi hsl
      | queue => exact hi hsl
      | player => exact hi hsl
      | sel => exact hi hsl
      | mediaStart o' pl hk hs hpar =>
        by_cases ho : o = o'
        · subst ho; simp at hsl
        · simp [lamne ho] at hsl; simpa [ho] using hi hsl
      | mediaRestart o' hk hs =>
        by_cases ho : o = o'
        · subst ho; simp at hsl
        · simp [lamne ho] at hsl; simpa [ho] using hi hsl
      | mediaStop o' t hk hs ht =>
        by_cases ho : o = o'
        · subst ho; simp
        · simp [h.reset_apply, h.lam_obj, ho] at hsl; simpa [ho] using hi hsl
      | mediaSet o' t b x pl hk hs ht hn =>
        by_cases ho : o = o'
        · subst ho; simp at hsl; exact absurd hsl (nextState_pr h ht hn)
        · simp [lamne ho] at hsl; simpa [ho] using hi hsl
      | anchor e t b x hk hl' hty hn hx =>
        have : d.lam o ≠ e := by rintro rfl; rw [h.lam_is] at hl'; cases hl'
        simp [this] at hsl; exact hi hsl
      | other e t b x hty hn =>
        have : d.lam o ≠ e := by rintro rfl; exact hty (h.lam_typ o)
        simp [this] at hsl; exact hi hsl
      | ctxStart o' hc => exact Chain.timeInv h hc hl o hk' hsl
      | ctxStop o' t hk hs ht hch =>
        by_cases ho : o = o'
        · subst ho; simp
        · simp [h.reset_apply, h.lam_obj, ho] at hsl; simpa [ho] using hi hsl
      | ctxSet o' t b x hk ht hn hw =>
        by_cases ho : o = o'
        · subst ho; simp at hsl; exact absurd hsl (nextState_pr h ht hn)
        · simp [lamne ho] at hsl; simpa [ho] using hi hsl
      | swStart e b hk hty hb =>
        have ho : o ≠ (d.ev e).obj := by rintro rfl; exact hk' hk
        have : d.lam o ≠ e := by rintro rfl; rw [h.lam_obj] at ho; exact ho rfl
        simp [this] at hsl; simpa [ho] using hi hsl
      | swStop e t b hk hty ht hb =>
        have ho : o ≠ (d.ev e).obj := by rintro rfl; exact hk' hk
        simp [h.reset_apply, h.lam_obj, ho] at hsl; simpa [ho] using hi hsl
      | swSet e t b x hk hty ht hn =>
        have ho : o ≠ (d.ev e).obj := by rintro rfl; exact hk' hk
        have : d.lam o ≠ e := by rintro rfl; rw [h.lam_obj] at ho; exact ho rfl
        simp [this] at hsl; exact hi hsl

/-- The clock of a presented media is bounded. -/
def ClockLe (d : Doc) (B : Oid → Nat) (s : St) : Prop :=
  ∀ o, (d.obj o).kind.isMedia = true → s.est (d.lam o) ≠ .sleeping → s.time o ≤ B o

theorem Atom.clockLe {d : Doc} {rank : Oid → Nat} (h : WF d rank) {B : Oid → Nat} {s t : St}
    (ha : Atom d rank s t) (hl : ClockLe d B s) : ClockLe d B t := by
  intro o hm hns
  have hi := hl o hm
  have lamne : ∀ {o'}, o ≠ o' → d.lam o ≠ d.lam o' := fun hne he => hne (h.lam_inj he)
  have hnsw : (d.obj o).kind ≠ .switch := by intro hx; rw [hx] at hm; cases hm
  have hnctx : (d.obj o).kind ≠ .context := by intro hx; rw [hx] at hm; cases hm
  cases ha with
  | misc => exact hi hns
  | queue => exact hi hns
  | player => exact hi hns
  | sel => exact hi hns
  | mediaStart o' pl hk hs hpar =>
    by_cases ho : o = o'
    · subst ho; simp
    · simp [lamne ho] at hns; simpa [ho] using hi hns
  | mediaRestart o' hk hs =>
    by_cases ho : o = o'
    · subst ho; simp
    · simp [lamne ho] at hns; simpa [ho] using hi hns
  | mediaStop o' t hk hs ht =>
    by_cases ho : o = o'
    · subst ho; simp [h.reset_apply, h.lam_obj] at hns
    · simp [h.reset_apply, h.lam_obj, ho] at hns; simpa [ho] using hi hns
  | mediaSet o' t b x pl hk hs ht hn =>
    by_cases ho : o = o'
    · subst ho; simpa using hi hs
    · simp [lamne ho] at hns; simpa [ho] using hi hns
  | anchor e t b x hk hl' hty hn hx =>
    have : d.lam o ≠ e := by rintro rfl; rw [h.lam_is] at hl'; cases hl'
    simp [this] at hns; exact hi hns
  | other e t b x hty hn =>
    have : d.lam o ≠ e := by rintro rfl; exact hty (h.lam_typ o)
    simp [this] at hns; exact hi hns
  | ctxStart o' hc =>
    rw [Chain.media h hc _ (by rw [h.lam_obj]; exact hnctx)] at hns
    rw [(Chain.frame h hc).2.2.2.2 o hnctx]
    exact hi hns
  | ctxStop o' t hk hs ht hch =>
    have ho : o ≠ o' := by rintro rfl; exact hnctx hk
    simp [h.reset_apply, h.lam_obj, ho] at hns; simpa [ho] using hi hns
  | ctxSet o' t b x hk ht hn hw =>
    have ho : o ≠ o' := by rintro rfl; exact hnctx hk
    simp [lamne ho] at hns; simpa [ho] using hi hns
  | swStart e b hk hty hb =>
    have ho : o ≠ (d.ev e).obj := by rintro rfl; exact hnsw hk
    have : d.lam o ≠ e := by rintro rfl; rw [h.lam_obj] at ho; exact ho rfl
    simp [this] at hns; simpa [ho] using hi hns
  | swStop e t b hk hty ht hb =>
    have ho : o ≠ (d.ev e).obj := by rintro rfl; exact hnsw hk
    simp [h.reset_apply, h.lam_obj, ho] at hns; simpa [ho] using hi hns
  | swSet e t b x hk hty ht hn =>
    have ho : o ≠ (d.ev e).obj := by rintro rfl; exact hnsw hk
    have : d.lam o ≠ e := by rintro rfl; rw [h.lam_obj] at ho; exact ho rfl
    simp [this] at hns; exact hi hns

theorem Steps.clockLe {d : Doc} {rank : Oid → Nat} (h : WF d rank) {B : Oid → Nat} {s t : St}
    (hs : Steps d rank s t) (hl : ClockLe d B s) : ClockLe d B t :=
  hs.inv (fun _ _ ha hl => ha.clockLe h hl) hl

theorem ClockLe.mono {d : Doc} {B B' : Oid → Nat} {s : St} (hl : ClockLe d B s)
    (hB : ∀ o, B o ≤ B' o) : ClockLe d B' s :=
  fun o hm hns => Nat.le_trans (hl o hm hns) (hB o)

theorem tadd_le (a b : Nat) : tadd a b ≤ a + b := Nat.mod_le _ _

theorem Ticked.clockLe {d : Doc} {rank : Oid → Nat} (h : WF d rank) {B : Oid → Nat} {s t : St}
    {diff : Nat} {o : Oid} (ht : Ticked d rank diff o s t) (hl : ClockLe d B s) :
    ClockLe d (upd B o (B o + diff)) t := by
  have hB : ∀ o', B o' ≤ upd B o (B o + diff) o' := by
    intro o'; by_cases he : o' = o
    · subst he; simp
    · simp [he]
  obtain ⟨s1, h1, h2 | ⟨hoc, h2⟩⟩ := ht
  · exact (h2.clockLe h (h1.clockLe h hl)).mono hB
  · refine h2.clockLe h ?_
    have hl1 := h1.clockLe h hl
    intro o' hm hns
    by_cases he : o' = o
    · subst he
      simp only [setTime_time, upd_same]
      exact Nat.le_trans (tadd_le _ _) (Nat.add_le_add_right (hl1 o' hm (by rw [hoc]; simp)) _)
    · simp [he] at hns ⊢
      exact hl1 o' hm hns

theorem wp_forTick_clock {d : Doc} {rank : Oid → Nat} (h : WF d rank) {U : Prop} {r : Rec}
    (hr : RecSpec d rank U r) (diff : Nat) (os : List Oid) : os.Nodup → ∀ B s, Good d rank s →
    ClockLe d B s →
    wp True U (forAll (sendTick1 d r diff) os) (fun _ s' =>
      ClockLe d (fun o => if o ∈ os then B o + diff else B o) s') s := by
  induction os with
  | nil => intro _ B s _ hl; simp [forAll]; exact hl
  | cons o os ih =>
    intro hnd B s hg hl
    rw [List.nodup_cons] at hnd
    simp only [forAll, wp_bind]
    refine wp_mono (wp_sendTick1 h hr o diff s hg) ?_
    intro _ s1 h1
    have ht := Ticked.tsteps h h1
    refine wp_mono (ih hnd.2 _ s1 (ht.good h hg) (h1.clockLe h hl)) ?_
    intro _ s2 h2
    refine h2.mono ?_
    intro o'
    by_cases he : o' = o
    · subst he; simp [hnd.1]
    · simp [he]

theorem wp_docTick_clock {d : Doc} {rank : Oid → Nat} (h : WF d rank) {U : Prop} {r : Rec}
    (hr : RecSpec d rank U r) (diff : Nat) (s : St) (hg : Good d rank s) {T : Nat}
    (hl : ClockLe d (fun _ => T) s) :
    wp True U (docTick d r diff) (fun _ s' => ClockLe d (fun _ => T + diff) s') s := by
  unfold docTick
  simp only [wp_bind, wp_get]
  refine wp_mono (wp_forTick_clock h hr diff _ (h.objs_nodup.filter _) _ s hg hl) ?_
  intro _ s' h'
  refine h'.mono ?_
  intro o; split <;> simp

/-- Sum of the tick increments of a history. -/
def tickSum : List Op → Nat
  | [] => 0
  | .sendTick _ diff _ :: ops => diff + tickSum ops
  | _ :: ops => tickSum ops

def Op.diff : Op → Nat
  | .sendTick _ diff _ => diff
  | _ => 0

/-- Clocks are bounded by the sum of the ticks. -/
def FClock (T : Nat) (f : Fmt) : Prop := ∀ d, f.doc = some d → ClockLe d (fun _ => T) f.st

theorem rwp_true {α : Type} {x : Res α} {Q : α → Prop} (h : ∀ a, x = .ok a → Q a) :
    rwp True True x Q := by
  cases x <;> first | exact h _ rfl | trivial

theorem exec_clock {n : Nat} {f : Fmt} (hf : FmtOk f) {T : Nat} (hT : FClock T f) (op : Op)
    (hd : ∀ d, op = .start (some d) → DocWF d) :
    rwp True True (exec n f op) (fun q => FClock (T + op.diff) q.2) := by
  have mono : ∀ {T' f'}, FClock T' f' → T' ≤ T + op.diff → FClock (T + op.diff) f' :=
    fun h hle d hd => (h d hd).mono fun _ => hle
  have hTT : T ≤ T + op.diff := Nat.le_add_right _ _
  have guard : ∀ (body : Doc → Fmt → Res Fmt),
      (∀ d rank, f.doc = some d → WF d rank → Good d rank f.st →
        rwp True True (body d f) (fun f2 => FClock (T + op.diff) f2)) →
      rwp True True (guarded n f body) (fun q => FClock (T + op.diff) q.2) := by
    intro body hb
    unfold guarded
    cases hpl : f.playing with
    | false => simp only [Bool.not_false, if_true, rwp]; exact mono hT hTT
    | true =>
      simp only [Bool.not_true, Bool.false_eq_true, if_false]
      cases hdoc : f.doc with
      | none => trivial
      | some d =>
        simp only [rwp_bind]
        unfold checkEos
        by_cases hsl : isSleeping d f.st d.root = true
        · simp only [hsl, if_true, rwp_bind]
          refine rwp_mono (fmtStop_ok (n := n) (f := { f with eos := false }) hf.doc rfl) ?_
          rintro ⟨b, f1⟩ ⟨h1, h2, h3⟩
          simp only at h1 h2 h3
          split
          · simp only [rwp, h1, Bool.not_false, if_true]
            intro d' hd'; rw [h2] at hd'; cases hd'
          · trivial
        · simp only [hsl, hf.eos, Bool.false_eq_true, if_false]
          simp only [rwp, hpl, Bool.not_true, Bool.false_eq_true, if_false]
          change rwp True True ((body d f).bind _) _
          rw [rwp_bind]
          obtain ⟨rank, hw, hg, -⟩ := hf.inv.good d hdoc
          refine rwp_mono (hb d rank hdoc hw hg) ?_
          intro f2 h2
          exact h2
  have run : ∀ (f0 : Fmt) {d : Doc} {rank : Oid → Nat} {α : Type} (m : M α) (hdoc : f0.doc = some d)
      (hw : WF d rank) (_ : ClockLe d (fun _ => T) f0.st)
      (_ : wp True True m (fun _ s' => Steps d rank f0.st s') f0.st),
      rwp True True (f0.run m) (fun q => FClock T q.2 ∧ q.2 = { f0 with st := q.2.st }) := by
    intro f0 d rank α m hdoc hw hl hm
    refine rwp_mono (rwp_run hm) ?_
    rintro q ⟨h1, h2⟩
    refine ⟨?_, h2⟩
    intro d' hd'
    rw [h2] at hd'
    simp only at hd'
    rw [hdoc] at hd'; cases hd'
    exact h1.clockLe hw hl
  cases op with
  | start p =>
    simp only [exec]; unfold fmtStart
    split
    · exact mono hT hTT
    · split
      · trivial
      · cases p with
        | none => exact mono hT hTT
        | some d =>
          obtain ⟨rank, hw⟩ := hd d rfl
          have hrs := run_spec hw (U := True) (fun _ => trivial) n
          simp only [rwp_bind]
          have hg0 := Good.init hw (rank := rank) f.focus
          have hc0 : ClockLe d (fun _ => T) (d.init f.focus) := by
            intro o _ hns; exact absurd rfl hns
          refine rwp_mono (rwp_and (run _ _ rfl hw hc0 (hrs.evalA _ _ hg0))
            (rwp_run (hrs.evalA _ _ hg0))) ?_
          rintro ⟨k, f1⟩ ⟨⟨h1, hf1⟩, h1s, -⟩
          simp only at h1 hf1 h1s
          have hdoc1 : f1.doc = some d := by rw [hf1]
          have hg1 := h1s.good hw hg0
          split
          · exact mono h1 hTT
          · simp only [rwp_bind]
            refine rwp_mono (run f1 _ hdoc1 hw (h1 d hdoc1)
              (wp_mono (hrs.trans _ _ _ hg1) fun _ _ hp => hp.steps)) ?_
            rintro ⟨b, f2⟩ ⟨h2, hf2⟩
            split
            · intro d' hd'; exact (mono h2 hTT) d' hd'
            · trivial
  | stop =>
    refine rwp_mono (fmtStop_ok hf.doc hf.eos) ?_
    rintro q ⟨h1, h2, h3⟩ d hd
    rw [h2] at hd; cases hd
  | sendKey k p =>
    refine guard _ ?_
    intro d rank hdoc hw hg
    have hrs := run_spec hw (U := True) (fun _ => trivial) n
    rw [rwp_bind]
    refine rwp_mono (run f _ hdoc hw (hT d hdoc) (wp_docKey hw hrs k p f.st hg)) ?_
    rintro q ⟨h1, -⟩
    exact mono h1 hTT
  | sendTick a b c =>
    refine guard _ ?_
    intro d rank hdoc hw hg
    have hrs := run_spec hw (U := True) (fun _ => trivial) n
    rw [rwp_bind]
    refine rwp_mono (rwp_run (f := { f with lastTotal := a, lastDiff := b, lastFrame := c })
      (wp_docTick_clock hw hrs b f.st hg (hT d hdoc))) ?_
    rintro q ⟨h1, h2⟩ d' hd'
    rw [h2] at hd'
    simp only at hd'
    rw [hdoc] at hd'; cases hd'
    exact h1
  | resize w hh =>
    simp only [exec, fmtResize]
    split
    · split
      · exact mono hT hTT
      · split
        · trivial
        · next d hdoc =>
          change f.doc = some d at hdoc
          obtain ⟨rank, hw, hg, -⟩ := hf.inv.good d hdoc
          simp only [rwp_bind]
          refine rwp_mono (run { f with width := w, height := hh } (d := d) (rank := rank) _ hdoc hw (hT d hdoc) ?_) ?_
          · exact wp_forAll hw _ _ (fun o _ s hg => wp_reapply hw o _ s hg) f.st hg
          · rintro q ⟨h1, -⟩
            exact mono h1 hTT
    · trivial
  | playerEos o =>
    simp only [exec, Fmt.run, playerEos, M.modify, Res.bind, rwp]
    intro d hdoc
    simp only at hdoc
    obtain ⟨rank, hw, hg, -⟩ := hf.inv.good d hdoc
    exact (playerEos_steps (rank := rank) o f.st).clockLe hw ((mono hT hTT) d hdoc)
  | action a =>
    simp only [exec]
    split
    · exact mono hT hTT
    · next d hdoc =>
      obtain ⟨rank, hw, hg, -⟩ := hf.inv.good d hdoc
      have hrs := run_spec hw (U := True) (fun _ => trivial) n
      simp only [rwp_bind]
      refine rwp_mono (run f _ hdoc hw (hT d hdoc) (hrs.evalA _ _ hg)) ?_
      rintro q ⟨h1, -⟩
      exact mono h1 hTT

theorem execAll_clock {n : Nat} (ops : List Op) : ∀ (f : Fmt) (T : Nat), FmtOk f → FClock T f →
    OpsWF ops → rwp True True (execAll n f ops) (fun q => FClock (T + tickSum ops) q.2) := by
  induction ops with
  | nil => intro f T _ h _; exact h
  | cons op ops ih =>
    intro f T hf hT hw
    simp only [execAll, rwp_bind]
    have hd : ∀ d, op = .start (some d) → DocWF d := fun d hd => hw d (by simp [hd])
    refine rwp_mono (rwp_and (exec_ok hf op hd) (exec_clock hf hT op hd)) ?_
    rintro q ⟨h1, h2⟩
    refine rwp_mono (ih q.2 _ h1 h2 (fun d hd => hw d (by simp [hd]))) ?_
    intro q' h' d hd
    have := h' d hd
    have e : T + op.diff + tickSum ops = T + tickSum (op :: ops) := by
      cases op <;> simp [tickSum, Op.diff, Nat.add_assoc]
    rw [e] at this
    exact this

end Ginga
