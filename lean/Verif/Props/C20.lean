import Verif.Props.C12
/-! # C20 — media anchors are scheduled at their begin and end -/
set_option linter.unusedVariables false
set_option linter.unusedSimpArgs false
namespace Ginga
open Ex

/-- The unlabelled anchors (area with an interval) of a media. -/
def segments (d : Doc) (o : Oid) : List Eid :=
  (d.obj o).events.filter fun e =>
    (d.ev e).typ = .presentation ∧ (d.ev e).isLambda = false ∧ (d.ev e).label = ""

/-- The schedule of a media: each unlabelled anchor starts at its begin and stops at its end. -/
def schedule (d : Doc) (o : Oid) : List (Act × Nat) :=
  (segments d o).flatMap fun e =>
    [({ ev := e, tr := .start }, (d.ev e).begin_), ({ ev := e, tr := .stop }, (d.ev e).end_)]

/-- The intervals of the anchors are 64-bit times. -/
def TimesOk (d : Doc) : Prop := ∀ e, (d.ev e).begin_ ≤ NONE ∧ (d.ev e).end_ ≤ NONE

theorem tadd_zero {t : Nat} (h : t ≤ NONE) : tadd 0 t = t := by
  unfold tadd NONE at *; omega

theorem queueAnchorsSt_delayed {d : Doc} (ht : TimesOk d) (o : Oid) (es : List Eid) :
    ∀ s : St, s.time o = 0 →
    queueAnchorsSt d o es s = s.setDelayed o (s.delayed o ++
      ((es.filter fun e => (d.ev e).typ = .presentation ∧ (d.ev e).isLambda = false ∧
        (d.ev e).label = "").flatMap fun e =>
        [({ ev := e, tr := .start }, (d.ev e).begin_), ({ ev := e, tr := .stop }, (d.ev e).end_)])) := by
  induction es with
  | nil => intro s _; simp [queueAnchorsSt, setDelayed_self]
  | cons e es ih =>
    intro s hs
    simp only [queueAnchorsSt]
    by_cases hp : (d.ev e).typ = .presentation ∧ (d.ev e).isLambda = false ∧ (d.ev e).label = ""
    · have hp' : !(d.ev e).isLambda ∧ (d.ev e).typ = .presentation ∧ (d.ev e).label = "" :=
        ⟨by simp [hp.2.1], hp.1, hp.2.2⟩
      rw [if_pos hp', ih _ (by simpa [addDelayedSt] using hs)]
      simp only [addDelayedSt, setDelayed_delayed, upd_same, setDelayed_time, hs, tadd_zero (ht e).1,
        tadd_zero (ht e).2]
      simp [hp]
    · have hp' : ¬ (!(d.ev e).isLambda ∧ (d.ev e).typ = .presentation ∧ (d.ev e).label = "") :=
        fun h => hp ⟨h.2.1, by simpa using h.1, h.2.2⟩
      rw [if_neg hp', ih _ hs]
      simp [hp]

/-- START of the whole of a sleeping media. -/
theorem media_start_queue {d : Doc} {rank} (hw : WF d rank) (ht : TimesOk d) (n : Nat) {o : Oid}
    {s s' : St} {b : Bool} (hg : Good d rank s)
    (hk : (d.obj o).kind.isMedia = true) (hsl : s.est (d.lam o) = .sleeping)
    (h : (run d n).trans (d.lam o) .start s = .ok (b, s')) :
    b = true ∧ s'.est (d.lam o) = .occurring ∧ s'.time o = 0 ∧
    s'.delayed o = s.delayed o ++ schedule d o ∧
    (∀ e, (d.ev e).obj = o → e ≠ d.lam o → s'.est e = s.est e) ∧
    (∀ p, d.ctxParent o = some p → s'.est (d.lam p) ≠ .sleeping) := by
  cases n with
  | zero => cases h
  | succ n =>
    have hr := run_spec hw (U := True) (fun _ => trivial) n
    have hnc : (d.obj o).kind ≠ .context := isMedia_ne_ctx hk
    have key : wp True True (transition d (run d n) (d.lam o) .start) (fun b s' =>
      b = true ∧ s'.est (d.lam o) = .occurring ∧ s'.time o = 0 ∧
      s'.delayed o = s.delayed o ++ schedule d o ∧
      (∀ e, (d.ev e).obj = o → e ≠ d.lam o → s'.est e = s.est e) ∧
      (∀ p, d.ctxParent o = some p → s'.est (d.lam p) ≠ .sleeping)) s := by
      apply wp_transition
      · intro hn; rw [hsl] at hn; cases hn
      · intro nx hnx
        rw [hsl] at hnx; cases hnx
        have hb : before d (run d n) (d.lam o) .start = mediaBefore d (run d n) o (d.lam o) .start := by
          unfold before; rw [hw.lam_obj]
          cases hk' : (d.obj o).kind <;> simp [hk', Kind.isMedia] at hk <;> rfl
        have ha : after d (run d n) (d.lam o) .start = mediaAfter d (run d n) o (d.lam o) .start := by
          unfold after; rw [hw.lam_obj]
          cases hk' : (d.obj o).kind <;> simp [hk', Kind.isMedia] at hk <;> rfl
        rw [hb, ha]
        simp only [mediaBefore, mediaAfter, hw.lam_typ]
        simp only [wp_bind, hw.lam_is, if_true]
        refine wp_mono (wp_startParent hw hr hg) ?_
        intro _ s1 h1
        have hs1 : (∀ e, (d.ev e).obj = o → s1.est e = s.est e) ∧ s1.delayed o = s.delayed o ∧
            (∀ p, d.ctxParent o = some p → s1.est (d.lam p) ≠ .sleeping) := by
          rcases h1 with ⟨rfl, h1⟩ | ⟨p, pr, hp, -, hc⟩
          · exact ⟨fun _ _ => rfl, rfl, h1⟩
          · have hfr := Chain.frame hw hc
            refine ⟨fun e he => Chain.media hw hc e (by rw [he]; exact hnc), hfr.2.2.2.1 o hnc, ?_⟩
            intro q hq; rw [hp] at hq; cases hq; rw [Chain.self hw hc]; simp
        obtain ⟨e1, e2, e3⟩ := hs1
        have el : s1.est (d.lam o) = .sleeping := by rw [e1 _ (hw.lam_obj o), hsl]
        simp only [wp_get, wp_ite, el, if_true, wp_bind, wp_pure]
        refine wp_mono wp_createPlayer ?_
        rintro _ s2 ⟨props, focus, p, rfl⟩
        simp only [wp_get, wp_assert, wp_doStart, wp_queueAnchors, wp_pure]
        simp only [setEst_player, setPlayer_player, upd_same, Option.isSome_some, if_true]
        rw [queueAnchorsSt_delayed ht _ _ _ (by simp)]
        refine ⟨trivial, by simp, by simp, ?_, ?_, ?_⟩
        · simp [e2, schedule, segments]
        · intro e he hne; simp [hne, e1 e he]
        · intro q hq
          have hne : d.lam q ≠ d.lam o := fun hx => by
            have := hw.ctxParent_kind hq
            rw [hw.lam_inj hx] at this; exact hnc this
          simp [hne]; exact e3 q hq
    exact wp_ok key h

/-- START of an unlabelled anchor of an awake media. -/
theorem anchor_start_awake {d : Doc} {rank} (hw : WF d rank) (n : Nat) {o : Oid} {e : Eid} {s s' : St} {b : Bool}
    (hk : (d.obj o).kind.isMedia = true) (heo : (d.ev e).obj = o) (hty : (d.ev e).typ = .presentation)
    (hlm : (d.ev e).isLambda = false) (hlb : (d.ev e).label = "")
    (haw : s.est (d.lam o) ≠ .sleeping) (hpa : ∀ p, d.ctxParent o = some p → s.est (d.lam p) ≠ .sleeping)
    (h : (run d n).trans e .start s = .ok (b, s')) :
    (s.est e = .occurring ∧ b = false ∧ s' = s) ∨
    (s.est e ≠ .occurring ∧ b = true ∧ s' = (s.setEst e .occurring).addLog e .start (s.est e)) := by
  cases n with
  | zero => cases h
  | succ n =>
    have key : wp True True (transition d (run d n) e .start) (fun b s' =>
        (s.est e = .occurring ∧ b = false ∧ s' = s) ∨
        (s.est e ≠ .occurring ∧ b = true ∧ s' = (s.setEst e .occurring).addLog e .start (s.est e))) s := by
      apply wp_transition
      · intro hn; exact .inl ⟨nextState_none_start hw hn, rfl, rfl⟩
      · intro nx hnx
        obtain ⟨rfl, hne⟩ := nextState_start hw hnx
        have hb : before d (run d n) e .start = mediaBefore d (run d n) o e .start := by
          unfold before; rw [heo]
          cases hk' : (d.obj o).kind <;> simp [hk', Kind.isMedia] at hk <;> rfl
        have ha : after d (run d n) e .start = mediaAfter d (run d n) o e .start := by
          unfold after; rw [heo]
          cases hk' : (d.obj o).kind <;> simp [hk', Kind.isMedia] at hk <;> rfl
        rw [hb, ha]
        have hsp : wp True True (startParent d (run d n) o) (fun _ s' => s' = s) s := by
          unfold startParent
          split
          · rfl
          · next p hp =>
            simp only [wp_bind, wp_get, wp_ite]
            rw [if_neg (by simpa [isSleeping] using hpa p hp)]
            rfl
        simp only [mediaBefore, mediaAfter, hty, wp_bind]
        refine wp_mono hsp ?_
        intro _ s1 hs1
        obtain rfl : s = s1 := hs1.symm
        simp only [wp_get, wp_ite, hlm, hlb, Bool.false_eq_true, if_false, haw, ne_eq, not_true,
          not_false_eq_true, if_true, wp_pure]
        by_cases hx : s.est e = .sleeping
        · simp only [hx, if_true]; exact .inr ⟨by simp, trivial, trivial⟩
        · simp only [hx, if_false, if_true]; exact .inr ⟨hne, trivial, trivial⟩
    exact wp_ok key h

/-- The pending actions that are kept when a media is started through an anchor `[bgn, end_]`: those
inside the interval, their times counted from `bgn`. -/
def within (bgn end_ : Nat) (q : List (Act × Nat)) : List (Act × Nat) :=
  (q.filter fun p => p.2 ≠ NONE ∧ bgn ≤ p.2 ∧ (end_ = NONE ∨ p.2 ≤ end_)).map fun p => (p.1, p.2 - bgn)

/-- The filtering of the queue: START actions before `bgn` are performed, what is inside the
interval is kept and shifted. -/
theorem anchorFilter_ok {d : Doc} {rank} (hw : WF d rank) (n : Nat) {o : Oid}
    (hk : (d.obj o).kind.isMedia = true) (bgn end_ : Nat) (l : List (Act × Nat)) : ∀ {s s' : St} {q},
    s.est (d.lam o) ≠ .sleeping → (∀ p, d.ctxParent o = some p → s.est (d.lam p) ≠ .sleeping) →
    (∀ p ∈ l, p.1.tr = .start → p.1.ev ∈ segments d o) →
    anchorFilter (run d n) bgn end_ l s = .ok (q, s') →
    q = within bgn end_ l ∧ s'.time = s.time ∧ s'.player = s.player ∧
    ∀ e, s'.est e = if (∃ p ∈ l, p.1.ev = e ∧ p.1.tr = .start ∧ p.2 < bgn) then .occurring else s.est e := by
  induction l with
  | nil => intro s s' q _ _ _ h; cases h; simp [within]
  | cons a l ih =>
    intro s s' q haw hpa hl h
    obtain ⟨a, t⟩ := a
    have hl' : ∀ p ∈ l, p.1.tr = .start → p.1.ev ∈ segments d o := fun p hp => hl p (by simp [hp])
    simp only [anchorFilter] at h
    by_cases hout : t = NONE ∨ t < bgn ∨ (end_ ≠ NONE ∧ t > end_)
    · rw [if_pos hout] at h
      have hw1 : within bgn end_ ((a, t) :: l) = within bgn end_ l := by
        unfold within
        rw [List.filter_cons_of_neg]
        simp only [decide_eq_true_iff]
        rintro ⟨h1, h2, h3⟩
        rcases hout with h4 | h4 | ⟨h4, h5⟩
        · exact h1 h4
        · exact absurd h2 (Nat.not_le.2 h4)
        · rcases h3 with h3 | h3
          · exact h4 h3
          · exact absurd h3 (Nat.not_le.2 h5)
      rw [hw1]
      by_cases hst : a.tr = .start ∧ t < bgn
      · rw [if_pos hst] at h
        obtain ⟨b, s1, h1, h2⟩ := bind_ok h
        have hseg := hl (a, t) (by simp) hst.1
        simp only [segments, List.mem_filter, decide_eq_true_eq, hw.mem_events] at hseg
        obtain ⟨g1, g2, g3, g4⟩ := hseg
        have hne : ∀ x, d.lam x ≠ a.ev := fun x hx => by
          rw [← hx, hw.lam_is] at g3; cases g3
        have hs1 : s1.time = s.time ∧ s1.player = s.player ∧
            s1.est = upd s.est a.ev .occurring := by
          rcases anchor_start_awake hw n hk g1 g2 g3 g4 haw hpa h1 with ⟨hoc, -, rfl⟩ | ⟨-, -, rfl⟩
          · exact ⟨rfl, rfl, (upd_self _ _ _ hoc).symm⟩
          · exact ⟨rfl, rfl, rfl⟩
        obtain ⟨k1, k2, k3⟩ := hs1
        obtain ⟨e1, e2, e3, e4⟩ := ih (by rw [k3]; simpa [hne o] using haw)
          (fun p hp => by rw [k3]; simpa [hne p] using hpa p hp) hl' h2
        refine ⟨e1, e2.trans k1, e3.trans k2, ?_⟩
        intro e
        rw [e4 e, k3]
        by_cases hx : ∃ p ∈ l, p.1.ev = e ∧ p.1.tr = .start ∧ p.2 < bgn
        · obtain ⟨p, hp, hpe⟩ := hx
          rw [if_pos ⟨p, hp, hpe⟩, if_pos ⟨p, by simp [hp], hpe⟩]
        · rw [if_neg hx]
          by_cases he : e = a.ev
          · rw [if_pos ⟨(a, t), by simp, he.symm, hst⟩, he, upd_same]
          · rw [upd_ne _ _ he, if_neg]
            rintro ⟨p, hp, hpe⟩
            rcases List.mem_cons.1 hp with rfl | hp
            · exact he hpe.1.symm
            · exact hx ⟨p, hp, hpe⟩
      · rw [if_neg hst] at h
        obtain ⟨e1, e2, e3, e4⟩ := ih haw hpa hl' h
        refine ⟨e1, e2, e3, ?_⟩
        intro e
        rw [e4 e]
        congr 1
        apply propext
        constructor
        · rintro ⟨p, hp, hpe⟩; exact ⟨p, by simp [hp], hpe⟩
        · rintro ⟨p, hp, hpe⟩
          rcases List.mem_cons.1 hp with rfl | hp
          · exact absurd hpe.2 hst
          · exact ⟨p, hp, hpe⟩
    · rw [if_neg hout] at h
      obtain ⟨q', s1, h1, h2⟩ := bind_ok h
      cases h2
      obtain ⟨e1, e2, e3, e4⟩ := ih haw hpa hl' h1
      have hge : bgn ≤ t := Nat.not_lt.1 fun h => hout (.inr (.inl h))
      refine ⟨?_, e2, e3, ?_⟩
      · unfold within
        rw [List.filter_cons_of_pos]
        · rw [List.map_cons, e1]; rfl
        · simp only [decide_eq_true_iff]
          refine ⟨fun h => hout (.inl h), hge, ?_⟩
          by_cases hn : end_ = NONE
          · exact .inl hn
          · exact .inr (Nat.not_lt.1 fun h => hout (.inr (.inr ⟨hn, h⟩)))
      · intro e
        rw [e4 e]
        congr 1
        apply propext
        constructor
        · rintro ⟨p, hp, hpe⟩; exact ⟨p, by simp [hp], hpe⟩
        · rintro ⟨p, hp, hpe⟩
          rcases List.mem_cons.1 hp with rfl | hp
          · exact absurd hpe.2.2 (Nat.not_lt.2 hge)
          · exact ⟨p, hp, hpe⟩

/-- **C20**, start of the whole media.  Starting a sleeping media puts its clock to zero and adds,
for each of its unlabelled anchors, a START at the begin and a STOP at the end of the anchor to its
queue; no anchor is started yet. -/
theorem C20_start {f : Fmt} (hf : Reachable f) {d : Doc} (hd : f.doc = some d) (ht : TimesOk d)
    {o : Oid} (hk : (d.obj o).kind.isMedia = true) (hsl : f.st.est (d.obj o).lambda = .sleeping)
    (n : Nat) (b : Bool) (s' : St)
    (h : (run d n).trans (d.obj o).lambda .start f.st = .ok (b, s')) :
    b = true ∧ s'.est (d.obj o).lambda = .occurring ∧ s'.time o = 0 ∧
    s'.delayed o = f.st.delayed o ++ schedule d o ∧
    (∀ e ∈ segments d o, s'.est e = .sleeping) := by
  obtain ⟨rank, hw, hg, -⟩ := (hf.inv triv_inv).good d hd
  obtain ⟨h1, h2, h3, h4, h5, -⟩ := media_start_queue hw ht n hg hk hsl h
  refine ⟨h1, h2, h3, h4, ?_⟩
  intro e he
  simp only [segments, List.mem_filter, decide_eq_true_eq, hw.mem_events] at he
  obtain ⟨g1, g2, g3, g4⟩ := he
  rw [h5 e g1 (fun hx => by rw [hx, hw.lam_is] at g3; cases g3)]
  refine hg.anchor e (by rw [g1]; exact hk) g2 (by rw [g1]; exact hsl)

/-- The begin of an anchor; none means zero. -/
def EvDecl.beginTime (e : EvDecl) : Nat := if e.begin_ = NONE then 0 else e.begin_

/-- The queue of media `o` when it is started through anchor `e`, before it is filtered. -/
def fullSchedule (d : Doc) (o : Oid) (e : Eid) : List (Act × Nat) :=
  schedule d o ++ if (d.ev e).end_ = NONE then [] else [({ ev := e, tr := .stop }, (d.ev e).end_)]


theorem wp_playerSendLabel_any {o : Oid} {s : St} :
    wp True True (playerSendLabel o) (fun _ s' => s' = s) s := by
  refine wp_intro ?_ (fun _ => trivial) (fun _ => trivial)
  intro _ s' h
  unfold playerSendLabel at h
  split at h
  · cases h
  · cases h; rfl

/-- **C20**, start through an anchor.  Starting an anchor of a sleeping media starts the media too
(with its clock at zero); of the pending actions, including those of the schedule of its anchors,
exactly the ones inside the interval of the anchor are kept, counted from its begin; and the
unlabelled anchors that begin before it are started at once. -/
theorem C20_through_anchor {f : Fmt} (hf : Reachable f) {d : Doc} (hd : f.doc = some d) (ht : TimesOk d)
    {o : Oid} (hk : (d.obj o).kind.isMedia = true) (hsl : f.st.est (d.obj o).lambda = .sleeping)
    {e : Eid} (heo : (d.ev e).obj = o) (hty : (d.ev e).typ = .presentation)
    (hlm : (d.ev e).isLambda = false)
    (n : Nat) (b : Bool) (s' : St) (h : (run d n).trans e .start f.st = .ok (b, s')) :
    b = true ∧ s'.est e = .occurring ∧ s'.est (d.obj o).lambda = .occurring ∧ s'.time o = 0 ∧
    s'.delayed o = within (d.ev e).beginTime (d.ev e).end_ (f.st.delayed o ++ fullSchedule d o e) ∧
    (∀ x ∈ segments d o, (d.ev x).begin_ < (d.ev e).beginTime → s'.est x = .occurring) ∧
    (∀ x ∈ segments d o, x ≠ e → (∀ p ∈ f.st.delayed o, ¬ (p.1.ev = x ∧ p.1.tr = .start)) →
      (d.ev e).beginTime ≤ (d.ev x).begin_ → s'.est x = .sleeping) := by
  obtain ⟨rank, hw, hg, -⟩ := (hf.inv triv_inv).good d hd
  have hsl' : f.st.est (d.lam o) = .sleeping := hsl
  have hese : f.st.est e = .sleeping :=
    hg.anchor e (by rw [heo]; exact hk) hty (by rw [heo]; exact hsl)
  have hnc : (d.obj o).kind ≠ .context := isMedia_ne_ctx hk
  have hle : d.lam o ≠ e := fun hx => by rw [← hx, hw.lam_is] at hlm; cases hlm
  cases n with
  | zero => cases h
  | succ n =>
    have hr := run_spec hw (U := True) (fun _ => trivial) n
    have key : wp True True (transition d (run d n) e .start) (fun b s' =>
        b = true ∧ s'.est e = .occurring ∧ s'.est (d.obj o).lambda = .occurring ∧ s'.time o = 0 ∧
        s'.delayed o = within (d.ev e).beginTime (d.ev e).end_ (f.st.delayed o ++ fullSchedule d o e) ∧
        (∀ x ∈ segments d o, (d.ev x).begin_ < (d.ev e).beginTime → s'.est x = .occurring) ∧
        (∀ x ∈ segments d o, x ≠ e → (∀ p ∈ f.st.delayed o, ¬ (p.1.ev = x ∧ p.1.tr = .start)) →
          (d.ev e).beginTime ≤ (d.ev x).begin_ → s'.est x = .sleeping)) f.st := by
      apply wp_transition
      · intro hn; rw [hese] at hn; cases hn
      · intro nx hnx
        rw [hese] at hnx; cases hnx
        have hb : before d (run d n) e .start = mediaBefore d (run d n) o e .start := by
          unfold before; rw [heo]
          cases hk' : (d.obj o).kind <;> simp [hk', Kind.isMedia] at hk <;> rfl
        have ha : after d (run d n) e .start = mediaAfter d (run d n) o e .start := by
          unfold after; rw [heo]
          cases hk' : (d.obj o).kind <;> simp [hk', Kind.isMedia] at hk <;> rfl
        rw [hb, ha]
        simp only [mediaBefore, mediaAfter, hty, wp_bind, hlm, Bool.false_eq_true, if_false]
        refine wp_mono (wp_intro (Q := fun _ s1 =>
          Good d rank s1 ∧ (∀ x, (d.ev x).obj = o → s1.est x = f.st.est x) ∧
          s1.delayed o = f.st.delayed o) ?_ (fun _ => trivial) (fun _ => trivial)) ?_
        · intro _ s1 hs1
          rcases wp_ok (wp_startParent hw hr hg) hs1 with ⟨rfl, -⟩ | ⟨p, pr, hp, -, hc⟩
          · exact ⟨hg, fun _ _ => rfl, rfl⟩
          · have hfr := Chain.frame hw hc
            refine ⟨?_, fun x hx => Chain.media hw hc x (by rw [hx]; exact hnc), hfr.2.2.2.1 o hnc⟩
            exact (Steps.head (.misc pr f.st.props f.st.focus f.st.nextFocus)
              (.one (.ctxStart p hc))).good hw hg
        rintro _ s1 ⟨hg1, e1, e2⟩
        have el : s1.est (d.lam o) = .sleeping := by rw [e1 _ (hw.lam_obj o), hsl']
        have ee : s1.est e = .sleeping := by rw [e1 _ heo, hese]
        have el' : s1.est (d.obj o).lambda = .sleeping := el
        simp only [wp_get, wp_ite, ee, el', if_true, ne_eq, not_true, if_false, wp_bind]
        unfold anchorStart
        simp only [wp_bind]
        -- the media is started
        refine wp_intro ?_ (fun _ => trivial) (fun _ => trivial)
        intro b2 s2 h2
        obtain ⟨-, q1, q2, q3, q4, q5⟩ := media_start_queue hw ht n hg1 hk el h2
        have hg2 : Good d rank s2 := (wp_ok (hr.trans _ _ _ hg1) h2).steps.good hw hg1
        obtain ⟨p, hp⟩ : ∃ p, s2.player o = some p := by
          cases hp : s2.player o with
          | none => have := (hg2.player o hk).2 hp; rw [q1] at this; cases this
          | some p => exact ⟨p, rfl⟩
        refine wp_mono (wp_playerSetProp hp) ?_
        rintro _ _ ⟨p2, rfl⟩
        -- the queue is filtered
        have fin : ∀ s3 : St, s3.est = s2.est → s3.time = s2.time →
            s3.delayed o = f.st.delayed o ++ fullSchedule d o e → OwnQ d o (s3.delayed o) →
            ∀ q s4, anchorFilter (run d n) (d.ev e).beginTime (d.ev e).end_ (s3.delayed o) s3 = .ok (q, s4) →
            wp True True (if (d.ev e).label ≠ "" then (do playerSendLabel o; pure true : M Bool) else pure true)
              (fun b s' => if b then
                (b = true ∧ (s'.addLog e .start .sleeping).est e = .occurring ∧
                (s'.addLog e .start .sleeping).est (d.obj o).lambda = .occurring ∧
                (s'.addLog e .start .sleeping).time o = 0 ∧
                (s'.addLog e .start .sleeping).delayed o = within (d.ev e).beginTime (d.ev e).end_ (f.st.delayed o ++ fullSchedule d o e) ∧
                (∀ x ∈ segments d o, (d.ev x).begin_ < (d.ev e).beginTime → (s'.addLog e .start .sleeping).est x = .occurring) ∧
                (∀ x ∈ segments d o, x ≠ e → (∀ p ∈ f.st.delayed o, ¬ (p.1.ev = x ∧ p.1.tr = .start)) →
                  (d.ev e).beginTime ≤ (d.ev x).begin_ → (s'.addLog e .start .sleeping).est x = .sleeping)) else False)
              ((s4.setDelayed o q).setEst e .occurring) := by
          intro s3 k1 k2 k3 k4 q s4 h4
          have hseg : ∀ p ∈ s3.delayed o, p.1.tr = .start → p.1.ev ∈ segments d o := by
            intro p hp hst
            have := k4 p hp
            simp only [segments, List.mem_filter, decide_eq_true_eq, hw.mem_events]
            exact ⟨this.obj, this.seg hst⟩
          obtain ⟨r1, r2, r3, r4⟩ := anchorFilter_ok hw n hk _ _ _ (by rw [k1, q1]; simp)
            (fun p hp => by rw [k1]; exact q5 p hp) hseg h4
          have hmem : ∀ x ∈ segments d o, (({ ev := x, tr := .start } : Act), (d.ev x).begin_) ∈ s3.delayed o := by
            intro x hx
            rw [k3]
            refine List.mem_append_right _ (List.mem_append_left _ ?_)
            exact List.mem_flatMap.2 ⟨x, hx, by simp⟩
          have hlam : (if ∃ p ∈ s3.delayed o, p.1.ev = d.lam o ∧ p.1.tr = .start ∧
              p.2 < (d.ev e).beginTime then EState.occurring else s3.est (d.lam o)) = .occurring := by
            split
            · rfl
            · rw [k1, q1]
          have main : ∀ s' : St, s' = (s4.setDelayed o q).setEst e .occurring →
              ((s'.addLog e .start .sleeping).est e = .occurring ∧
                (s'.addLog e .start .sleeping).est (d.obj o).lambda = .occurring ∧
                (s'.addLog e .start .sleeping).time o = 0 ∧
                (s'.addLog e .start .sleeping).delayed o = within (d.ev e).beginTime (d.ev e).end_ (f.st.delayed o ++ fullSchedule d o e) ∧
                (∀ x ∈ segments d o, (d.ev x).begin_ < (d.ev e).beginTime → (s'.addLog e .start .sleeping).est x = .occurring) ∧
                (∀ x ∈ segments d o, x ≠ e → (∀ p ∈ f.st.delayed o, ¬ (p.1.ev = x ∧ p.1.tr = .start)) →
                  (d.ev e).beginTime ≤ (d.ev x).begin_ → (s'.addLog e .start .sleeping).est x = .sleeping)) := by
            rintro s' rfl
            refine ⟨by simp, ?_, by simp [r2, k2, q2], by simp [r1, k3], ?_, ?_⟩
            · simp only [addLog_est, setEst_est, setDelayed_est]
              rw [upd_ne _ _ hle, r4]; exact hlam
            · intro x hx hlt
              simp only [addLog_est, setEst_est, setDelayed_est]
              by_cases hxe : x = e
              · rw [hxe, upd_same]
              · rw [upd_ne _ _ hxe, r4, if_pos ⟨_, hmem x hx, rfl, rfl, hlt⟩]
            · intro x hx hxe hno hge
              simp only [addLog_est, setEst_est, setDelayed_est]
              have hx' := hx
              simp only [segments, List.mem_filter, decide_eq_true_eq, hw.mem_events] at hx'
              obtain ⟨g1, g2, g3, -⟩ := hx'
              rw [upd_ne _ _ hxe, r4, if_neg, k1, q4 x g1 (fun hx => by rw [hx, hw.lam_is] at g3; cases g3), e1 x g1]
              · exact hg.anchor x (by rw [g1]; exact hk) g2 (by rw [g1]; exact hsl)
              · rintro ⟨p, hp, hpe, hps, hpt⟩
                rw [k3] at hp
                rcases List.mem_append.1 hp with hp | hp
                · exact hno p hp ⟨hpe, hps⟩
                · rcases List.mem_append.1 hp with hp | hp
                  · obtain ⟨y, -, hy⟩ := List.mem_flatMap.1 hp
                    simp only [List.mem_cons, List.not_mem_nil, or_false] at hy
                    rcases hy with rfl | rfl
                    · simp only at hpe; subst hpe; exact absurd hpt (Nat.not_lt.2 hge)
                    · cases hps
                  · split at hp
                    · cases hp
                    · simp only [List.mem_singleton] at hp; subst hp; cases hps
          rw [wp_ite]
          split
          · rw [wp_bind]
            refine wp_mono wp_playerSendLabel_any ?_
            intro _ s5 h5
            rw [wp_pure, if_pos rfl]
            exact ⟨rfl, main s5 h5⟩
          · rw [wp_pure, if_pos rfl]
            exact ⟨rfl, main _ rfl⟩
        have hbt : (if (d.ev e).begin_ = NONE then 0 else (d.ev e).begin_) = (d.ev e).beginTime := rfl
        rw [hbt]
        have fin' : ∀ s3 : St, s3.est = s2.est → s3.time = s2.time →
            s3.delayed o = f.st.delayed o ++ fullSchedule d o e → OwnQ d o (s3.delayed o) → _ :=
          fun s3 k1 k2 k3 k4 => wp_intro (A := True) (U := True)
            (m := anchorFilter (run d n) (d.ev e).beginTime (d.ev e).end_ (s3.delayed o))
            (fun q s4 h4 => fin s3 k1 k2 k3 k4 q s4 h4) (fun _ => trivial) (fun _ => trivial)
        have hq2 : OwnQ d o (s2.delayed o) := hg2.queue o hk
        rw [wp_ite]
        by_cases hend : (d.ev e).end_ = NONE
        · rw [if_neg (fun hx => hx hend)]
          have k3 : (s2.setPlayer o (some p2)).delayed o = f.st.delayed o ++ fullSchedule d o e := by
            simp [q3, e2, fullSchedule, hend]
          have := fin' (s2.setPlayer o (some p2)) rfl rfl k3 hq2
          simp only [wp_bind, wp_get, wp_modify, wp_pure]
          refine wp_mono this ?_
          intro q s4 h4
          simpa [wp_ite, hese] using h4
        · rw [if_pos hend]
          simp only [wp_bind, wp_get, wp_modify, wp_pure, wp_addDelayed]
          refine wp_mono (wp_playerSetProp (p := p2) (by simp)) ?_
          rintro _ _ ⟨p3, rfl⟩
          refine wp_mono (fin' (addDelayedSt o e .stop "" (d.ev e).end_
            ((s2.setPlayer o (some p2)).setPlayer o (some p3))) rfl rfl ?_ ?_) ?_
          case refine_3 => intro q s4 h4; simpa [wp_ite, hese] using h4
          · simp [addDelayedSt, q3, e2, q2, fullSchedule, hend, tadd_zero (ht e).2]
          · intro p hp
            simp [addDelayedSt] at hp
            rcases hp with hp | rfl
            · exact hq2 p hp
            · exact ⟨heo, by simp⟩
    exact wp_ok key h

/-! Non-vacuity: media `a` with the anchors x = [1s, 2s], y = [3s, 5s] and z = [4s, 6s], started as a
whole and through y. -/
def env1 : Env where
  parseTime := fun v =>
    if v = "" ∨ v = "0" then some 0 else if v = "1" then some SECOND
    else if v = "2" then some (2 * SECOND) else if v = "3" then some (3 * SECOND) else none
  createPlayer := fun _ t => some t
  badProp := fun _ _ => false
def anchorDoc : Doc :=
  mkDoc env1
    [ { kind := .context, id := "__root__", children := [1, 2], events := [0], lambda := 0 },
      { kind := .settings, id := "__settings__", parent := some 0, events := [1], lambda := 1,
        props0 := [("type", "application/x-ginga-settings")] },
      { kind := .media, id := "a", parent := some 0, events := [2, 3, 4, 5, 6], lambda := 2 } ]
    [ { typ := .presentation, obj := 0, id := "@lambda" },
      { typ := .presentation, obj := 1, id := "@lambda" },
      { typ := .presentation, obj := 2, id := "@lambda" },
      { typ := .presentation, obj := 2, id := "x", begin_ := SECOND, end_ := 2 * SECOND },
      { typ := .presentation, obj := 2, id := "y", begin_ := 3 * SECOND, end_ := 5 * SECOND },
      { typ := .presentation, obj := 2, id := "z", begin_ := 4 * SECOND, end_ := 6 * SECOND },
      { typ := .presentation, obj := 2, id := "w", begin_ := 500000000, end_ := 1400000000 } ]
    0 1
theorem anchorDoc_wf : DocWF anchorDoc := mkDoc_wf [0, 1, 1] (by decide +kernel)
theorem anchorDoc_times : TimesOk anchorDoc := by
  intro e
  match e with
  | 0 => decide +kernel
  | 1 => decide +kernel
  | 2 => decide +kernel
  | 3 => decide +kernel
  | 4 => decide +kernel
  | 5 => decide +kernel
  | 6 => decide +kernel
  | e + 7 => exact ⟨Nat.zero_le _, Nat.le_refl _⟩

example : ∃ f, Reachable f ∧ f.doc = some anchorDoc ∧ f.st.est 2 = .sleeping ∧ f.st.delayed 2 = [] ∧
    ∃ s', (run anchorDoc 50).trans 2 .start f.st = .ok (true, s') ∧ (s'.delayed 2).map (fun p => (p.1.ev, p.1.tr, p.2)) =
      [(3, .start, SECOND), (3, .stop, 2 * SECOND), (4, .start, 3 * SECOND), (4, .stop, 5 * SECOND),
       (5, .start, 4 * SECOND), (5, .stop, 6 * SECOND), (6, .start, 500000000), (6, .stop, 1400000000)] := by
  obtain ⟨f, h1, h2, h3⟩ := witness anchorDoc anchorDoc_wf 50 [] rfl
    (fun f => decide (f.st.est 2 = .sleeping) && (f.st.delayed 2).isEmpty &&
      okAnd ((run anchorDoc 50).trans 2 .start f.st) (fun b s => b &&
        decide ((s.delayed 2).map (fun p => (p.1.ev, p.1.tr, p.2)) =
          [(3, .start, SECOND), (3, .stop, 2 * SECOND), (4, .start, 3 * SECOND), (4, .stop, 5 * SECOND),
           (5, .start, 4 * SECOND), (5, .stop, 6 * SECOND), (6, .start, 500000000), (6, .stop, 1400000000)])))
    (by decide +kernel)
  simp only [Bool.and_eq_true, decide_eq_true_eq, List.isEmpty_iff] at h3
  obtain ⟨⟨h3, h4⟩, h5⟩ := h3
  obtain ⟨b, s', h6, h7⟩ := okAnd_iff.1 h5
  simp only [Bool.and_eq_true, decide_eq_true_eq] at h7
  obtain ⟨rfl, h8⟩ := h7
  exact ⟨f, h1, h2, h3, h4, s', h6, h8⟩

/-- Starting `a` through y: x (and w) have already begun and are started at once — although they are
over — and only y's own end and the begin of z are kept.  So x and w stay on until the media ends:
nothing stops them any more. -/
theorem C20_ended_anchor_restarted :
    ∃ f, Reachable f ∧ f.doc = some anchorDoc ∧ f.st.est 2 = .sleeping ∧
    ∃ s', (run anchorDoc 50).trans 4 .start f.st = .ok (true, s') ∧
      s'.est 3 = .occurring ∧ s'.est 4 = .occurring ∧ s'.est 5 = .sleeping ∧ s'.est 6 = .occurring ∧
      (s'.delayed 2).map (fun p => (p.1.ev, p.1.tr, p.2)) =
        [(4, .start, 0), (4, .stop, 2 * SECOND), (5, .start, SECOND), (4, .stop, 2 * SECOND)] := by
  obtain ⟨f, h1, h2, h3⟩ := witness anchorDoc anchorDoc_wf 50 [] rfl
    (fun f => decide (f.st.est 2 = .sleeping) &&
      okAnd ((run anchorDoc 50).trans 4 .start f.st) (fun b s => b &&
        (decide (s.est 3 = .occurring) && (decide (s.est 4 = .occurring) &&
        (decide (s.est 5 = .sleeping) && (decide (s.est 6 = .occurring) &&
        decide ((s.delayed 2).map (fun p => (p.1.ev, p.1.tr, p.2)) =
          [(4, .start, 0), (4, .stop, 2 * SECOND), (5, .start, SECOND), (4, .stop, 2 * SECOND)])))))))
    (by decide +kernel)
  simp only [Bool.and_eq_true, decide_eq_true_eq] at h3
  obtain ⟨h3, h5⟩ := h3
  obtain ⟨b, s', h6, h7⟩ := okAnd_iff.1 h5
  simp only [Bool.and_eq_true, decide_eq_true_eq] at h7
  obtain ⟨rfl, h8⟩ := h7
  exact ⟨f, h1, h2, h3, s', h6, h8⟩

/-- The presentation of a media started through an anchor is cut to whole seconds: started through
w = [0.5s, 1.4s] the player gets duration zero, and the media ends at the first later tick. -/
theorem C20_anchor_duration_truncated :
    ∃ f, Reachable f ∧ f.doc = some anchorDoc ∧ f.st.est 2 = .occurring ∧ f.st.est 6 = .occurring ∧
      ∃ s', docTick anchorDoc (run anchorDoc 50) 1 f.st = .ok ((), s') ∧ s'.est 2 = .sleeping := by
  obtain ⟨f, h1, h2, h3⟩ := witness anchorDoc anchorDoc_wf 50 [.action { ev := 6, tr := .start }] rfl
    (fun f => decide (f.st.est 2 = .occurring) && decide (f.st.est 6 = .occurring) &&
      okAnd (docTick anchorDoc (run anchorDoc 50) 1 f.st) (fun _ s => decide (s.est 2 = .sleeping)))
    (by decide +kernel)
  simp only [Bool.and_eq_true, decide_eq_true_eq] at h3
  obtain ⟨⟨h3, h4⟩, h5⟩ := h3
  obtain ⟨b, s', h6, h7⟩ := okAnd_iff.1 h5
  exact ⟨f, h1, h2, h3, h4, s', h6, by simpa using h7⟩

end Ginga
