import Verif.Props.C16
/-! # C18 — focus follows the settings

Full statement: at a tick of the settings object a pending focus update is performed: the focus
becomes the requested index or, if none was requested, the least focus index among the occurring
media objects; only the last request before the tick counts; no update happens without a request.

It fails when the property `service.currentFocus` was set by a link or by an external action since
the last tick: the attribution is still occurring and the request is dropped
(`C18_fails_request_lost`).  "Least" is the order of strings ("10" before "9"). -/
set_option linter.unusedVariables false
namespace Ginga
open Ex

/-- `i` is the focus index of an occurring media of the document. -/
def FocusCandidate (d : Doc) (s : St) (i : String) : Prop :=
  i ≠ "" ∧ ∃ o ∈ d.objs, (d.obj o).kind.isMedia = true ∧ s.est (d.obj o).lambda = .occurring ∧
    s.getProp o "focusIndex" = i

/-- `v` is the index that must get the focus for request `req` (empty: no particular index). -/
def FocusTarget (d : Doc) (s : St) (req v : String) : Prop :=
  (req ≠ "" ∧ v = req) ∨
  (req = "" ∧ FocusCandidate d s v ∧ ∀ w, FocusCandidate d s w → ¬ w < v) ∨
  (req = "" ∧ v = "" ∧ ∀ w, ¬ FocusCandidate d s w)

theorem String.not_lt_trans {a b c : String} (h1 : ¬ b < a) (h2 : ¬ c < b) : ¬ c < a := by
  have h1' : a ≤ b := h1
  have h2' : b ≤ c := h2
  have : a ≤ c := String.le_trans h1' h2'
  exact this

theorem leastFocus_spec {d : Doc} {s : St} (l : List Oid) : ∀ (next : String),
    let C := fun i => i ≠ "" ∧ ∃ o ∈ l, (d.obj o).kind.isMedia = true ∧ s.est (d.obj o).lambda = .occurring ∧
      s.getProp o "focusIndex" = i
    (leastFocus d s l next = next ∨ C (leastFocus d s l next)) ∧
    (next ≠ "" → ¬ next < leastFocus d s l next ∧ leastFocus d s l next ≠ "") ∧
    (∀ w, C w → ¬ w < leastFocus d s l next ∧ leastFocus d s l next ≠ "") := by
  induction l with
  | nil => intro next; simp [leastFocus]
  | cons o l ih =>
    intro next
    simp only [leastFocus]
    split
    · next h =>
      obtain ⟨h1, h2, h3, h4⟩ := h
      have h2' : s.est (d.obj o).lambda = .occurring := by simpa [isOccurring] using h2
      obtain ⟨i1, i2, i3⟩ := ih (s.getProp o "focusIndex")
      refine ⟨?_, ?_, ?_⟩
      · rcases i1 with i1 | ⟨i1, x, hx, i4⟩
        · rw [i1]; exact .inr ⟨h3, o, by simp, h1, h2', rfl⟩
        · exact .inr ⟨i1, x, by simp [hx], i4⟩
      · intro hn
        refine ⟨?_, (i2 h3).2⟩
        rcases h4 with h4 | h4
        · exact absurd h4 hn
        · refine String.not_lt_trans (i2 h3).1 ?_
          exact fun h => String.lt_irrefl _ (String.lt_trans h h4)
      · rintro w ⟨hw, x, hx, hw2, hw3, rfl⟩
        simp at hx
        rcases hx with rfl | hx
        · exact i2 h3
        · exact i3 _ ⟨hw, x, hx, hw2, hw3, rfl⟩
    · next h =>
      obtain ⟨i1, i2, i3⟩ := ih next
      refine ⟨?_, i2, ?_⟩
      · rcases i1 with i1 | ⟨i1, x, hx, i4⟩
        · exact .inl i1
        · exact .inr ⟨i1, x, by simp [hx], i4⟩
      · rintro w ⟨hw, x, hx, hw2, hw3, rfl⟩
        simp at hx
        rcases hx with rfl | hx
        · have h5 : ¬ (next = "" ∨ s.getProp x "focusIndex" < next) := by
            intro h5; exact h ⟨hw2, by simpa [isOccurring] using hw3, hw, h5⟩
          simp only [not_or] at h5
          exact ⟨String.not_lt_trans (i2 h5.1).1 h5.2, (i2 h5.1).2⟩
        · exact i3 _ ⟨hw, x, hx, hw2, hw3, rfl⟩

theorem focusTarget (d : Doc) (s : St) (req : String) :
    FocusTarget d s req (if req ≠ "" then req else leastFocus d s d.objs "") := by
  by_cases h : req ≠ ""
  · rw [if_pos h]; exact .inl ⟨h, rfl⟩
  · rw [if_neg h]
    have h : req = "" := Classical.byContradiction h
    obtain ⟨i1, -, i3⟩ := leastFocus_spec (d := d) (s := s) d.objs ""
    by_cases hC : ∃ w, FocusCandidate d s w
    · obtain ⟨w, hw⟩ := hC
      refine .inr (.inl ⟨h, ?_, fun w hw => (i3 w hw).1⟩)
      rcases i1 with i1 | i1
      · exact absurd i1 (i3 w hw).2
      · exact i1
    · refine .inr (.inr ⟨h, ?_, fun w hw => hC ⟨w, hw⟩⟩)
      rcases i1 with i1 | i1
      · exact i1
      · exact absurd ⟨_, i1⟩ hC

/-- **C18**, the update (partial).  At a tick of the settings object with a pending request, provided
the attribution of `service.currentFocus` is not still occurring: the property and the focus are set
to the right index, before anything else happens; the request is then cleared, and the rest of the tick
is the ordinary media tick.  Missing: the case of an attribution still occurring, where it is false. -/
theorem C18_update_partial {d : Doc} (hd : DocWF d) (n : Nat) (diff : Nat) (s s' : St) (req : String)
    (hreq : s.nextFocus = some req) (e : Eid)
    (hev : d.getEvent d.settings .attribution "service.currentFocus" = some e)
    (hocc : s.est e ≠ .occurring)
    (he : settingsTick d (run d n) d.settings diff s = .ok ((), s')) :
    ∃ v dur s1 s2, FocusTarget d s req v ∧
      PropertySet d e (deref d s v) dur s s1 ∧
      s1.getProp d.settings "service.currentFocus" = deref d s v ∧ s1.focus = deref d s v ∧
      LogGrow s1 s2 ∧ s2.nextFocus = none ∧
      mediaTick d (run d n) d.settings diff s2 = .ok ((), s') := by
  have hwf := hd
  obtain ⟨rank, hw⟩ := hd
  unfold settingsTick at he
  obtain ⟨_, _, h1, he⟩ := bind_ok he
  cases h1
  rw [hreq] at he
  simp only at he
  obtain ⟨_, sa, h1, he⟩ := bind_ok he
  obtain ⟨_, sb, h2, he⟩ := bind_ok he
  have hsb : sb = { sa with nextFocus := none } := by cases h2; rfl
  unfold updateFocus at h1
  obtain ⟨_, _, h3, h1⟩ := bind_ok h1
  cases h3
  rw [hev] at h1
  simp only at h1
  obtain ⟨k, sc, h3, h1⟩ := bind_ok h1
  cases h1
  unfold Doc.getEvent at hev
  have hp := List.find?_some hev
  have hm := List.mem_of_find?_eq_some hev
  simp only [Bool.and_eq_true, beq_iff_eq] at hp
  have hobj : (d.ev e).obj = d.settings := (hw.mem_events _ _).1 hm
  rcases C16_set hwf n _ hp.1 rfl (by rw [hobj, hw.settings_kind]; simp) s sa k h3 with h4 | h4
  · exact absurd h4.1 hocc
  · obtain ⟨-, -, dur, s1, -, hset, hg⟩ := h4
    refine ⟨_, dur, s1, sb, focusTarget d s req, hset, ?_, ?_, ?_, by rw [hsb], he⟩
    · have := hset.set
      simp only [hobj, hp.2] at this
      exact this
    · have := hset.focus
      rw [this, if_pos]
      simp only [hobj, hp.2, hw.settings_kind, and_self]
    · obtain ⟨l, hl⟩ := hg
      exact ⟨l, by rw [hsb]; exact hl⟩

/-- **C18**, no update without request: the tick of the settings object is then an ordinary media tick. -/
theorem C18_no_request {d : Doc} (r : Rec) (o : Oid) (diff : Nat) (s : St) (h : s.nextFocus = none) :
    settingsTick d r o diff s = mediaTick d r o diff s := by
  unfold settingsTick
  show (M.bind M.get _) s = _
  simp only [M.bind, M.get, Res.bind_ok]
  rw [h]

/-- The settings property `service.currentFocus` was set between `s` and `s'`. -/
def FocusSetBetween (d : Doc) (s s' : St) : Prop :=
  ∃ x ∈ s.since s', x.tr = .start ∧ (d.ev x.ev).typ = .attribution ∧
    (d.obj (d.ev x.ev).obj).kind = .settings ∧ (d.ev x.ev).id = "service.currentFocus"

theorem focusKept_closed {d rank} (hw : WF d rank) :
    TClosed d (fun e => (d.ev e).typ = .attribution ∧ (d.obj (d.ev e).obj).kind = .settings ∧
        (d.ev e).id = "service.currentFocus") (fun _ => True)
      (fun s s' => LogGrow s s' ∧ (¬ FocusSetBetween d s s' → s'.focus = s.focus)) := by
  have of_eq : ∀ {s s' : St}, s'.log = s.log → s'.focus = s.focus →
      LogGrow s s' ∧ (¬ FocusSetBetween d s s' → s'.focus = s.focus) :=
    fun hl h => ⟨⟨[], hl⟩, fun _ => h⟩
  have of_log : ∀ {s s' : St} (l : List LogEntry), s'.log = l ++ s.log → s'.focus = s.focus →
      LogGrow s s' ∧ (¬ FocusSetBetween d s s' → s'.focus = s.focus) :=
    fun l hl h => ⟨⟨l, hl⟩, fun _ => h⟩
  exact
  { refl := fun s => of_eq rfl rfl
    trans := by
      rintro s t u ⟨g1, h1⟩ ⟨g2, h2⟩
      refine ⟨(logGrow_closed d).trans g1 g2, fun hn => ?_⟩
      have hs := since_trans g1 g2
      rw [h2 fun ⟨x, hx, h⟩ => hn ⟨x, by rw [hs]; simp [hx], h⟩,
        h1 fun ⟨x, hx, h⟩ => hn ⟨x, by rw [hs]; simp [hx], h⟩]
    par := fun s e k v _ => of_eq rfl rfl
    mark := fun _ _ _ _ _ h _ => h
    enq := fun s x e t v dl => of_eq rfl rfl
    focusReq := fun s x => of_eq rfl rfl
    prop := fun s x k' v hx => of_eq rfl rfl
    focus := fun s v ⟨e, h1, h2⟩ => absurd h2 h1
    player := fun s x p p' _ => of_eq rfl rfl
    newPlayer := fun s x p _ => of_eq rfl rfl
    sel := fun s x c => of_eq rfl rfl
    wake := fun s e' x _ hx => of_eq rfl rfl
    start := fun s x e' _ _ => of_eq (by simp) (by
      unfold doStartSt bumpSt St.setTime; simp only; split <;> split <;> rfl)
    logged := fun s e' t b _ h1 h2 => of_log [⟨e', t, b⟩] rfl rfl
    touched := by
      intro s s' e' t b hX hg h1 h2 h3
      refine ⟨(logGrow_closed d).trans hg ⟨[⟨e', t, b⟩], rfl⟩, fun hn => ?_⟩
      exfalso; apply hn
      refine ⟨⟨e', t, b⟩, ?_, h3 (by rw [hX.1]; simp), hX⟩
      rw [since_trans hg ⟨[⟨e', t, b⟩], rfl⟩, since_of (l := [⟨e', t, b⟩]) rfl]; simp
    stopEv := fun s e' t b ht hn => of_log [⟨e', t, b⟩] rfl rfl
    stopObj := fun s x e' t b p ht hwh => of_log [⟨e', t, b⟩] (by simp [St.addLog]) (by
      unfold doStopSt bumpSt St.addLog; simp only; split <;> rfl)
    anchor := by
      rintro s s1 x q hs ⟨g, h⟩
      exact ⟨g, h⟩
    time := fun s x t hx => of_eq rfl rfl
    queue := fun s x q hx => of_eq rfl rfl
    focusDone := fun s => of_eq rfl rfl }

/-- **C18**, frame.  Whatever call is made, the focus changes only by setting the property
`service.currentFocus` of the settings. -/
theorem C18_only_by_settings {f : Fmt} (hf : Reachable f) {d : Doc} (hd : f.doc = some d)
    (n : Nat) (op : Op) (b : Bool) (f' : Fmt)
    (he : exec n f op = .ok (b, f')) (hd' : f'.doc = some d)
    (hch : f'.st.focus ≠ f.st.focus) : FocusSetBetween d f.st f'.st := by
  obtain ⟨rank, hw, hg, -⟩ := (hf.inv triv_inv).good d hd
  have h := (engineCall hf hd he hd').presAll hw (focusKept_closed hw)
    (fun s x k' hne => ⟨⟨[], rfl⟩, fun _ => rfl⟩)
  exact Classical.byContradiction fun hn => hch (h.2 hn)

/-! Body with settings and two medias with focus indices 1 and 2, `moveRight` of the first is 2. -/
def focusDoc : Doc :=
  mkDoc env0
    [ { kind := .context, id := "__root__", children := [1, 2, 3], events := [0], lambda := 0,
        ports := [2, 3] },
      { kind := .settings, id := "__settings__", parent := some 0, events := [1, 4], lambda := 1,
        props0 := [("type", "application/x-ginga-settings")] },
      { kind := .media, id := "a", parent := some 0, events := [2], lambda := 2,
        props0 := [("focusIndex", "1"), ("moveRight", "2")] },
      { kind := .media, id := "b", parent := some 0, events := [3], lambda := 3,
        props0 := [("focusIndex", "2")] } ]
    [ { typ := .presentation, obj := 0, id := "@lambda" },
      { typ := .presentation, obj := 1, id := "@lambda" },
      { typ := .presentation, obj := 2, id := "@lambda" },
      { typ := .presentation, obj := 3, id := "@lambda" },
      { typ := .attribution, obj := 1, id := "service.currentFocus" } ]
    0 1

theorem focusDoc_wf : DocWF focusDoc := mkDoc_wf [0, 1, 1, 1] (by decide +kernel)

/-- **C18 fails** when the focus property was set since the last tick: the key moved the focus to 2, the
request is pending, and the tick drops it (the focus stays 1). -/
theorem C18_fails_request_lost :
    ∃ f, Reachable f ∧ f.doc = some focusDoc ∧ f.st.nextFocus = some "2" ∧ f.st.focus = "1" ∧
      ∃ f', exec 50 f (tick 1) = .ok (true, f') ∧ f'.st.nextFocus = none ∧ f'.st.focus = "1" := by
  obtain ⟨f, h1, h2, h3⟩ := witness focusDoc focusDoc_wf 50
    [tick 0, tick 1, tick 1, .action { ev := 4, tr := .start, value := "1" }, .sendKey "CURSOR_RIGHT" true] rfl
    (fun f => decide (f.st.nextFocus = some "2") && decide (f.st.focus = "1") &&
      (match exec 50 f (tick 1) with
       | .ok (b, f') => b && (decide (f'.st.nextFocus = none) && decide (f'.st.focus = "1"))
       | _ => false)) (by decide +kernel)
  simp only [Bool.and_eq_true, decide_eq_true_eq] at h3
  obtain ⟨⟨h4, h5⟩, h8⟩ := h3
  refine ⟨f, h1, h2, h4, h5, ?_⟩
  cases hx : exec 50 f (tick 1) with
  | ok p =>
    obtain ⟨b, f'⟩ := p
    rw [hx] at h8
    simp only [Bool.and_eq_true, decide_eq_true_eq] at h8
    exact ⟨f', by rw [h8.1], h8.2⟩
  | _ => rw [hx] at h8; cases h8

/-- Non-vacuity of `C18_update_partial`: the key request is pending, the attribution is not
occurring, and the tick moves the focus. -/
example : ∃ f, Reachable f ∧ f.doc = some focusDoc ∧
    (decide (f.st.nextFocus = some "2") && decide (f.st.est 4 ≠ .occurring) && decide (f.st.focus = "1") &&
      decide (focusDoc.getEvent focusDoc.settings .attribution "service.currentFocus" = some 4) &&
      okAnd (settingsTick focusDoc (run focusDoc 50) 1 1 f.st) (fun _ s => decide (s.focus = "2"))) = true :=
  witness focusDoc focusDoc_wf 50 [tick 0, tick 1, tick 1, .sendKey "CURSOR_RIGHT" true] rfl _ (by decide +kernel)

end Ginga
