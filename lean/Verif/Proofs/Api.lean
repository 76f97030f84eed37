import Verif.Proofs.ClosedTick
import Verif.Proofs.Fmt
/-!
# The engine call behind an API call that leaves the document presented
-/
set_option linter.unusedVariables false
namespace Ginga

theorem run_ok {α : Type} {f f' : Fmt} {m : M α} {a : α} (h : f.run m = .ok (a, f')) :
    m f.st = .ok (a, f'.st) ∧ f' = { f with st := f'.st } := by
  unfold Fmt.run at h
  cases hm : m f.st with
  | ok p => rw [hm] at h; cases h; exact ⟨rfl, rfl⟩
  | _ => rw [hm] at h; cases h

theorem run_bind_ok {α β : Type} {f : Fmt} {m : M α} {g : α × Fmt → Res β} {b : β}
    (h : (f.run m).bind g = .ok b) :
    ∃ a s', m f.st = .ok (a, s') ∧ g (a, { f with st := s' }) = .ok b := by
  cases hx : f.run m with
  | ok q =>
    obtain ⟨a, f'⟩ := q
    rw [hx] at h
    obtain ⟨h1, h2⟩ := run_ok hx
    refine ⟨a, f'.st, h1, ?_⟩
    rw [← h2]; exact h
  | _ => rw [hx] at h; cases h

/-- A guarded call that leaves the document presented ran its body. -/
theorem guarded_body {n : Nat} {f f' : Fmt} {b : Bool} {body : Doc → Fmt → Res Fmt} {d : Doc}
    (hp : f.playing = true) (heos : f.eos = false)
    (hd : f.doc = some d) (hd' : f'.doc = some d) (he : guarded n f body = .ok (b, f')) :
    b = true ∧ body d f = .ok f' ∧ isSleeping d f.st d.root = false := by
  unfold guarded at he
  simp only [hp, Bool.not_true, Bool.false_eq_true, if_false, hd] at he
  unfold checkEos at he
  cases hs : isSleeping d f.st d.root with
  | false =>
    simp only [hs, Bool.false_eq_true, if_false, heos, Res.bind, hp, Bool.not_true] at he
    cases hb : body d f with
    | ok z => rw [hb] at he; cases he; exact ⟨rfl, rfl, rfl⟩
    | _ => rw [hb] at he; cases he
  | true =>
    exfalso
    simp only [hs, if_true] at he
    unfold fmtStop at he
    simp only [hp, Bool.not_true, Bool.false_eq_true, if_false, hd] at he
    cases hm : destroy d (run d n) n d.root f.st with
    | ok q =>
      simp only [Fmt.run, hm, Res.bind] at he
      simp at he
      rw [← he.2] at hd'; cases hd'
    | _ => simp only [Fmt.run, hm, Res.bind] at he; cases he

/-- The engine call made by an API call while `d` stays presented. -/
inductive EngineCall (d : Doc) (n : Nat) : Op → Bool → St → St → Prop where
  | start {p s} : EngineCall d n (.start p) false s s
  | key {k p s s'} : docKey d (run d n) k p s = .ok ((), s') → EngineCall d n (.sendKey k p) true s s'
  | tick {t df fr s s'} : docTick d (run d n) df s = .ok ((), s') →
      EngineCall d n (.sendTick t df fr) true s s'
  | resize {w h s s'} :
      forAll (fun o => reapply d o resizeProps) (d.objs.filter fun o => (d.obj o).kind.isMedia) s =
        .ok ((), s') → EngineCall d n (.resize w h) true s s'
  | eos {o s s'} : playerEos o s = .ok ((), s') → EngineCall d n (.playerEos o) true s s'
  | action {a k s s'} : (run d n).evalA a s = .ok (k, s') → EngineCall d n (.action a) true s s'

theorem engineCall {f : Fmt} (hf : Reachable f) {d : Doc} (hd : f.doc = some d) {n : Nat} {op : Op}
    {b : Bool} {f' : Fmt} (he : exec n f op = .ok (b, f')) (hd' : f'.doc = some d) :
    EngineCall d n op b f.st f'.st := by
  have hpl : f.playing = true := by rw [hf.ok.doc, hd]; rfl
  have heos := hf.ok.eos
  cases op with
  | start p =>
    simp only [exec, fmtStart, hpl, if_true] at he
    cases he; exact .start
  | stop =>
    simp only [exec, fmtStop, hpl, Bool.not_true, Bool.false_eq_true, if_false, hd] at he
    obtain ⟨a, s', -, h⟩ := run_bind_ok he
    cases h; cases hd'
  | sendKey k p =>
    simp only [exec, fmtKey] at he
    obtain ⟨rfl, h, -⟩ := guarded_body hpl heos hd hd' he
    obtain ⟨a, s', h1, h⟩ := run_bind_ok h
    cases h; exact .key h1
  | sendTick t df fr =>
    simp only [exec, fmtTick] at he
    obtain ⟨rfl, h, -⟩ := guarded_body hpl heos hd hd' he
    obtain ⟨a, s', h1, h⟩ := run_bind_ok h
    cases h; exact .tick h1
  | resize w h =>
    simp only [exec, fmtResize] at he
    split at he
    · simp only [hpl, Bool.not_true, Bool.false_eq_true, if_false, hd] at he
      cases hx : Fmt.run { f with width := w, height := h, playing := true, doc := some d }
          (forAll (fun o => reapply d o resizeProps) (d.objs.filter fun o => (d.obj o).kind.isMedia)) with
      | ok q =>
        rw [hx] at he
        obtain ⟨h1, h2⟩ := run_ok (a := q.1) (f' := q.2) hx
        cases he
        exact .resize h1
      | _ => rw [hx] at he; cases he
    · cases he
  | playerEos o =>
    simp only [exec] at he
    obtain ⟨a, s', h1, h⟩ := run_bind_ok he
    cases h; exact .eos h1
  | action a =>
    simp only [exec, hd] at he
    obtain ⟨k, s', h1, h⟩ := run_bind_ok he
    cases h; exact .action h1

/-- Re-assigning a non-empty property its own value (resize) is in `R`. -/
def Reassign (R : St → St → Prop) : Prop := ∀ s o k, s.getProp o k ≠ "" →
  R s (s.setProps o (mset k (s.getProp o k) (s.props o)))

theorem pres_reapply {d : Doc} {X : Eid → Prop} {R : St → St → Prop} (hR : Closed d X R)
    (hp : Reassign R) (o ks)
    (hks : "service.currentFocus" ∉ ks) : Pres R (reapply d o ks) := by
  induction ks with
  | nil => exact Pres.pure hR _
  | cons k ks ih =>
    simp only [List.mem_cons, not_or] at hks
    have ih' := ih hks.2
    unfold reapply
    constructor
    intro s
    rw [wp_bind, wp_get]
    simp only [wp_bind]
    by_cases hne : s.getProp o k ≠ ""
    · rw [if_pos hne, wp_bind]
      have h1 : wp True True (mediaSetProp d o k (s.getProp o k) 0) (fun _ s' => R s s') s := by
        unfold mediaSetProp objSetProp
        rw [if_neg (fun h => hks.1 h.2.symm)]
        simp only [wp_bind, wp_pure, wp_assert, wp_modify, wp_get]
        split
        · have h2 := hp s o k hne
          cases hpl : (s.setProps o (mset k (s.getProp o k) (s.props o))).player o with
          | none => exact h2
          | some q =>
            simp only [gt_iff_lt, Nat.lt_irrefl, if_false]
            refine wp_mono ((pres_playerSetProp hR o k (s.getProp o k)).run _) ?_
            intro _ s2 h3; exact hR.trans h2 h3
        · trivial
      refine wp_mono h1 ?_
      intro _ s1 h2
      exact wp_mono (ih'.run s1) fun _ s2 h3 => hR.trans h2 h3
    · rw [if_neg hne]
      exact ih'.run s

/-- A relation closed under everything but the tick of `o` itself holds across every call that is
not a tick. -/
theorem EngineCall.pres {d : Doc} {rank} (hw : WF d rank) {X Y R} (hT : TClosed d X Y R)
    (hp : Reassign R) {n op b s s'}
    (h : EngineCall d n op b s s') (hop : ∀ t df fr, op ≠ .sendTick t df fr) : R s s' := by
  have hr := run_closed hT.toClosed hw n
  cases h with
  | start => exact hT.refl _
  | key h => exact (pres_docKey hT hr _ _).ok h
  | tick h => exact absurd rfl (hop _ _ _)
  | resize h => exact (pres_forAll hT fun o' _ => pres_reapply hT.toClosed hp o' _ (by decide)).ok h
  | @eos o _ _ h =>
    simp only [playerEos, M.modify] at h
    have hs : s' = s.setPlayer o ((s.player o).map fun p => { p with eos := true }) := by
      cases h; rfl
    rw [hs]
    cases hpl : s.player o with
    | none =>
      have := setPlayer_self s o none hpl
      simp only [Option.map_none, this]; exact hT.refl s
    | some p => exact hT.player s o p _ hpl
  | action h => exact (hr.evalA _).ok h

/-- A tick of an object is its own queue tick, preceded and followed by calls that preserve the
relations closed under everything but that tick. -/
theorem sendTick1_split {d : Doc} {rank} (hw : WF d rank) {o : Oid} {n diff : Nat} {s s' : St}
    (h : sendTick1 d (run d n) diff o s = .ok ((), s')) :
    ∃ s1 s2, objTick d (run d n) o diff s1 = .ok ((), s2) ∧
      ∀ X R, TClosed d X (· ≠ o) R → R s s1 ∧ R s2 s' := by
  have hmedia : ∀ {s s'}, mediaTick d (run d n) o diff s = .ok ((), s') →
      ∃ s2, objTick d (run d n) o diff s = .ok ((), s2) ∧ ∀ X R, TClosed d X (· ≠ o) R → R s2 s' := by
    intro s s' h
    unfold mediaTick at h
    obtain ⟨_, s2, h1, h2⟩ := bind_ok h
    exact ⟨s2, h1, fun X R hT => (pres_mediaRest hT (run_closed hT.toClosed hw n) o diff).ok h2⟩
  unfold sendTick1 at h
  cases hk : (d.obj o).kind with
  | context =>
    simp only [hk] at h
    unfold ctxTick at h
    obtain ⟨_, s2, h1, h2⟩ := bind_ok h
    refine ⟨s, s2, h1, fun X R hT => ⟨hT.refl s, ?_⟩⟩
    have hR := hT.toClosed
    have hr := run_closed hT.toClosed hw n
    refine Pres.ok (m := _) ?_ h2
    pres hR
  | switch =>
    simp only [hk] at h
    exact ⟨s, s', h, fun X R hT => ⟨hT.refl s, hT.refl s'⟩⟩
  | media =>
    simp only [hk] at h
    obtain ⟨s2, h1, h2⟩ := hmedia h
    exact ⟨s, s2, h1, fun X R hT => ⟨hT.refl s, h2 X R hT⟩⟩
  | settings =>
    simp only [hk] at h
    unfold settingsTick at h
    obtain ⟨_, _, h1, h⟩ := bind_ok h
    cases h1
    obtain ⟨s1, hs1, h⟩ : ∃ s1, (∀ X R, TClosed d X (· ≠ o) R → R s s1) ∧
        mediaTick d (run d n) o diff s1 = .ok ((), s') := by
      cases hnf : s.nextFocus with
      | some i =>
        simp only [hnf] at h
        obtain ⟨_, sa, h1, h⟩ := bind_ok h
        obtain ⟨_, sb, h2, h⟩ := bind_ok h
        cases h2
        exact ⟨_, fun X R hT => hT.trans ((pres_updateFocus hT (run_closed hT.toClosed hw n) i).ok h1)
          (hT.focusDone sa), h⟩
      | none =>
        simp only [hnf] at h
        exact ⟨s, fun X R hT => hT.refl s, h⟩
    obtain ⟨s2, h1, h2⟩ := hmedia h
    exact ⟨s1, s2, h1, fun X R hT => ⟨hs1 X R hT, h2 X R hT⟩⟩

theorem forAll_split {f : Oid → M Unit} {l1 l2 : List Oid} {o : Oid} {s s' : St}
    (h : forAll f (l1 ++ o :: l2) s = .ok ((), s')) :
    ∃ s1 s2, forAll f l1 s = .ok ((), s1) ∧ f o s1 = .ok ((), s2) ∧ forAll f l2 s2 = .ok ((), s') := by
  induction l1 generalizing s with
  | nil =>
    rw [List.nil_append, forAll] at h
    obtain ⟨_, s2, h1, h2⟩ := bind_ok h
    exact ⟨s, s2, rfl, h1, h2⟩
  | cons a l1 ih =>
    rw [List.cons_append, forAll] at h
    obtain ⟨_, sa, h1, h2⟩ := bind_ok h
    obtain ⟨s1, s2, h3, h4, h5⟩ := ih h2
    refine ⟨s1, s2, ?_, h4, h5⟩
    rw [forAll, bind_of_ok h1]; exact h3

/-- The tick of a document, seen from one object. -/
theorem docTick_split {d : Doc} {rank} (hw : WF d rank) {n diff : Nat} {s s' : St}
    (h : docTick d (run d n) diff s = .ok ((), s')) (o : Oid) (ho : o ∈ d.objs) :
    (s.est (d.obj o).lambda = .occurring → ∃ s1 s2, objTick d (run d n) o diff s1 = .ok ((), s2) ∧
      ∀ X R, TClosed d X (· ≠ o) R → R s s1 ∧ R s2 s') ∧
    (s.est (d.obj o).lambda ≠ .occurring → ∀ X R, TClosed d X (· ≠ o) R → R s s') := by
  unfold docTick at h
  obtain ⟨_, _, h1, h⟩ := bind_ok h
  cases h1
  have hnd : (d.objs.filter fun o => isOccurring d s o).Nodup := hw.objs_nodup.filter _
  constructor
  · intro hocc
    have hmem : o ∈ d.objs.filter fun o => isOccurring d s o := by
      simp [ho, isOccurring, hocc]
    obtain ⟨l1, l2, hl⟩ := List.append_of_mem hmem
    rw [hl] at h hnd
    obtain ⟨s1, s2, h1, h2, h3⟩ := forAll_split h
    have hn1 : ∀ x ∈ l1, x ≠ o := by
      rintro x hx rfl
      exact (List.nodup_append.1 hnd).2.2 x hx x (by simp) rfl
    have hn2 : ∀ x ∈ l2, x ≠ o := by
      rintro x hx rfl
      exact (List.nodup_cons.1 (List.nodup_append.1 hnd).2.1).1 hx
    obtain ⟨sa, sb, h4, h5⟩ := sendTick1_split hw h2
    refine ⟨sa, sb, h4, fun X R hT => ?_⟩
    have hr := run_closed hT.toClosed hw n
    exact ⟨hT.trans ((pres_forAll hT fun x hx => pres_sendTick1 hT hr diff x (hn1 x hx)).ok h1) (h5 X R hT).1,
      hT.trans (h5 X R hT).2 ((pres_forAll hT fun x hx => pres_sendTick1 hT hr diff x (hn2 x hx)).ok h3)⟩
  · intro hocc X R hT
    have hr := run_closed hT.toClosed hw n
    refine (pres_forAll hT fun x hx => pres_sendTick1 hT hr diff x ?_).ok h
    rintro rfl
    simp [isOccurring, hocc] at hx

theorem pres_docTick {d : Doc} {X R} (hT : TClosed d X (fun _ => True) R) {r : Rec} (hr : RecPres R r)
    (diff : Nat) : Pres R (docTick d r diff) := by
  have hR := hT.toClosed
  unfold docTick
  apply Pres.bind hR (Pres.get hR)
  intro s
  exact pres_forAll hT fun x _ => pres_sendTick1 hT hr diff x trivial

theorem EngineCall.presAll {d : Doc} {rank} (hw : WF d rank) {X R} (hT : TClosed d X (fun _ => True) R)
    (hp : Reassign R) {n op b s s'}
    (h : EngineCall d n op b s s') : R s s' := by
  by_cases hop : ∀ t df fr, op ≠ .sendTick t df fr
  · exact h.pres hw hT hp hop
  · cases h with
    | tick h => exact (pres_docTick hT (run_closed hT.toClosed hw n) _).ok h
    | _ => exact absurd (by intros; simp) hop

/-- A relation closed under all elementary effects relates the freshly loaded document and every
reachable state of its presentation. -/
theorem Reachable.rel {R : Doc → St → St → Prop} {X : Doc → Eid → Prop}
    (hT : ∀ d, DocWF d → TClosed d (X d) (fun _ => True) (R d))
    (hp : ∀ d, Reassign (R d))
    {f : Fmt} (hf : Reachable f) {d : Doc} (hd : f.doc = some d) :
    ∃ focus, R d (d.init focus) f.st := by
  obtain ⟨n, focus, w, h, ops, bs, hw, he⟩ := hf
  revert f bs d
  obtain ⟨rops, rfl⟩ : ∃ l, ops = List.reverse l := ⟨ops.reverse, by simp⟩
  induction rops with
  | nil =>
    intro f d hd bs he
    cases he; cases hd
  | cons op rops ih =>
    intro f d hd bs he
    rw [List.reverse_cons] at hw he
    generalize rops.reverse = ops at *
    rw [execAll_append] at he
    cases h1 : execAll n (Fmt.new focus w h) ops with
    | ok p =>
      obtain ⟨bs0, f0⟩ := p
      rw [h1] at he
      simp only [Res.bind, execAll] at he
      cases h2 : Ginga.exec n f0 op with
      | ok q =>
        obtain ⟨b, f1⟩ := q
        rw [h2] at he
        simp only [Res.ok.injEq, Prod.mk.injEq] at he
        obtain ⟨-, rfl⟩ := he
        have hw0 : OpsWF ops := fun d hd => hw d (by simp [hd])
        have hf0 : Reachable f0 := ⟨n, focus, w, h, ops, bs0, hw0, h1⟩
        have hdoc := (rwp_ok (exec_inv (U := True) (n := n) triv_inv hf0.ok.inv op
          (fun d hd => hw d (by simp [hd])) (fun _ _ _ => trivial)) h2).2 d hd
        cases hd0 : f0.doc with
        | some d0 =>
          have : d0 = d := by
            rcases hdoc with hx | rfl
            · rw [hd0] at hx; cases hx; rfl
            · have hpl : f0.playing = true := by rw [hf0.ok.doc, hd0]; rfl
              simp only [Ginga.exec, fmtStart, hpl, if_true] at h2
              cases h2; rw [hd0] at hd; cases hd; rfl
          subst this
          obtain ⟨rank, hwf, -⟩ := hf0.ok.inv.good _ hd0
          obtain ⟨fo, hr⟩ := ih hw0 hd0 bs0 h1
          exact ⟨fo, (hT _ ⟨rank, hwf⟩).trans hr
            ((engineCall hf0 hd0 h2 hd).presAll hwf (hT _ ⟨rank, hwf⟩) (hp _))⟩
        | none =>
          rcases hdoc with hx | rfl
          · rw [hd0] at hx; cases hx
          · have hdw : DocWF d := hw d (by simp)
            have hR := hT d hdw
            obtain ⟨rank, hwf⟩ := hdw
            have hr := run_closed hR.toClosed hwf n
            have hpl : f0.playing = false := by rw [hf0.ok.doc, hd0]; rfl
            simp only [Ginga.exec, fmtStart, hpl, Bool.false_eq_true, if_false, hd0, Option.isSome_none] at h2
            refine ⟨f0.focus, ?_⟩
            obtain ⟨k, s1, h3, h2⟩ := run_bind_ok h2
            have r1 := (hr.evalA _).ok h3
            simp only at h2
            split at h2
            · cases h2; exact r1
            · obtain ⟨b', s2, h4, h2⟩ := run_bind_ok h2
              have r2 := (hr.trans _ _).ok h4
              simp only at h2
              split at h2
              · cases h2; exact hR.trans r1 r2
              · cases h2
      | _ => rw [h2] at he; cases he
    | _ => rw [h1] at he; cases he

end Ginga
