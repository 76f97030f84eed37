import Verif.Model.Video
import Verif.Props.C68b
/-!
# C74: video and sound follow the presentation
-/
namespace Ginga

variable {σ : Type} (e : PEnv)

/-! ## What the property speaks of -/

/-- The state that the pipeline should be in while the object is in a state. -/
def pipelineFor : EState → GState
  | .occurring => .playing
  | .paused => .paused
  | .sleeping => .null

/-- The change of state that an operation asks for. -/
def VOp.request : VOp σ → Option GState
  | .start _ => some .playing
  | .pause _ => some .paused
  | .resume _ => some .playing
  | .stop _ _ => some .null
  | _ => none

/-- The content that an operation gives the pipeline: the property `uri`; when the presentation stops it is taken away. -/
def VOp.content : VOp σ → Option Str
  | .set n v _ => if n = "uri" then some v else none
  | .stop _ _ => some []
  | _ => none

/-- The picture that an operation brings. -/
def VOp.picture : VOp σ → Option σ
  | .frame p => p
  | _ => none

/-- The operation sets the position of the stream. -/
def VOp.positions : VOp σ → Prop
  | .set n _ _ => n = "time" ∨ n = "currentTime"
  | _ => False

/-- The operation moves the position of the stream forward by some time. -/
def VOp.skips : VOp σ → Prop
  | .set n v _ => (n = "time" ∨ n = "currentTime") ∧ hasPrefix v "+".toList = true
  | _ => False

/-- The changes of state that have been asked for, in order. -/
def askedStates (l : List VCmd) : List GState := l.filterMap fun c => match c with | .state g => some g | _ => none

/-- The contents that have been given, in order. -/
def askedUris (l : List VCmd) : List Str := l.filterMap fun c => match c with | .uri u => some u | _ => none

/-- The positions that have been asked for, in order. -/
def askedSeeks (l : List VCmd) : List Int := l.filterMap fun c => match c with | .seek _ p => some p | _ => none

/-! ## One property -/

/-- What setting a property may change. -/
structure VFrame (code : Option PCode) (v : Str) (s s' : VSt σ) : Prop where
  st : s'.st = s.st
  time : s'.time = s.time
  surface : s'.surface = s.surface
  stack : s.stack <+: s'.stack
  states : askedStates s'.cmds = askedStates s.cmds
  uris : askedUris s'.cmds = askedUris s.cmds ++ (if code = some .uri then [v] else [])
  uri : s'.base.prop.uri = if code = some .uri then v else s.base.prop.uri
  seeks : code ≠ some .time → askedSeeks s'.cmds = askedSeeks s.cmds
  eos : (code ≠ some .time ∨ hasPrefix v "+".toList = false) → s'.eos = s.eos

theorem setTime_frame {F : FP} {g : GAns} {v : Str} {s s' : VSt σ} (h : setTime F g v s = .ok s') : VFrame (some .time) v s s' := by
  unfold setTime at h
  have hseek : ∀ (r : Rat) (n : Int) (b : Bool), (hasPrefix v "+".toList = false → b = s.eos) → VFrame (some .time) v s ({ s with eos := b }.ask (.seek r n)) := by
    intro r n b hb
    refine ⟨rfl, rfl, rfl, List.prefix_rfl, ?_, ?_, by simp [VSt.ask], fun h => absurd rfl h, fun h => hb (h.resolve_left (by simp))⟩
    · simp [VSt.ask, askedStates]
    · simp [VSt.ask, askedUris]
  split at h
  · cases h
    exact ⟨rfl, rfl, rfl, List.prefix_rfl, rfl, by simp, by simp, fun _ => rfl, fun _ => rfl⟩
  · cases hp : g.pos with
    | none => rw [hp] at h; cases h
    | some cur =>
      cases hd : g.dur with
      | none => rw [hp, hd] at h; cases h
      | some dur =>
        rw [hp, hd] at h
        obtain ⟨t, ht, h⟩ := Res.bind_eq_ok h
        cases t with
        | none => cases h
        | some t =>
          simp only at h
          by_cases h1 : hasPrefix v "+".toList = true
          · rw [if_pos h1] at h
            obtain ⟨n, hn, h⟩ := Res.bind_eq_ok h
            cases h
            exact hseek _ _ _ (fun hh => by rw [h1] at hh; cases hh)
          · rw [if_neg h1] at h
            by_cases h2 : hasPrefix v "-".toList = true
            · rw [if_pos h2] at h
              obtain ⟨n, hn, h⟩ := Res.bind_eq_ok h
              cases h
              exact hseek _ _ s.eos (fun _ => rfl)
            · rw [if_neg h2] at h
              cases h
              exact hseek _ _ s.eos (fun _ => rfl)

/-- The properties of the base class do not touch the content. -/
theorem base_uri {c : PCode} (hc : c ≠ .uri) {v : Str} {s s' : PSt} (h : doSetProperty e (mediaSet1 (playerSet e 3)) c v s = .ok (some s')) : s'.prop.uri = s.prop.uri := by
  have h1 := doSet_miss e (c' := .uri) hc (fun n hn v s s' hs => by
    simp only [mediaSet1] at hs
    split at hs
    · have := set_miss e (c' := .uri) (by intro p; simp [PProp.slot]) 3 (name := n) (v := v) (by
        simp only [geoNames, List.mem_cons, List.not_mem_nil, or_false] at hn
        rcases hn with rfl | rfl | rfl | rfl | rfl | rfl <;> decide) hs
      exact this
    · cases hs; rfl) h
  simpa [PProp.slot] using h1

theorem videoDo_frame {g : GAns} {code : PCode} {name : String} {v : Str} {s s' : VSt σ} (h : videoDo e g code name v s = .ok (some s')) : VFrame (some code) v s s' := by
  have hsame : ∀ (c : PCode), c ≠ .uri → VFrame (some c) v s s := fun c hc =>
    ⟨rfl, rfl, rfl, List.prefix_rfl, rfl, by simp [hc], by simp [hc], fun _ => rfl, fun _ => rfl⟩
  have hsound : ∀ (c : PCode), c ≠ .uri → setSound s = .ok (some s') → VFrame (some c) v s s' := by
    intro c hc h
    unfold setSound at h
    split at h
    · cases h; exact hsame c hc
    · cases h
  have hbase : ∀ (c : PCode), c ≠ .uri → ((doSetProperty e (mediaSet1 (playerSet e 3)) c v s.base).bind fun r => .ok (r.map fun b => { s with base := b })) = .ok (some s') →
      VFrame (some c) v s s' := by
    intro c hc h
    obtain ⟨r, hr, h⟩ := Res.bind_eq_ok h
    cases r with
    | none => cases h
    | some b =>
      cases h
      exact ⟨rfl, rfl, rfl, List.prefix_rfl, rfl, by simp [hc], by simpa [hc] using base_uri e hc hr, fun _ => rfl, fun _ => rfl⟩
  have hstack : ∀ (c : PCode), c ≠ .uri → VFrame (some c) v s { s with stack := s.stack ++ [(c, name, v)] } := fun c hc =>
    ⟨rfl, rfl, rfl, List.prefix_append _ _, rfl, by simp [hc], by simp [hc], fun _ => rfl, fun _ => rfl⟩
  cases code
  all_goals simp only [videoDo] at h
  case balance => exact hsound _ (by decide) h
  case bass => exact hsound _ (by decide) h
  case treble => exact hsound _ (by decide) h
  case volume => exact hsound _ (by decide) h
  case mute =>
    obtain ⟨b, _, h⟩ := Res.bind_eq_ok h
    exact hsound _ (by decide) h
  case freeze =>
    obtain ⟨b, _, h⟩ := Res.bind_eq_ok h
    cases h
    exact ⟨rfl, rfl, rfl, List.prefix_rfl, rfl, by simp, by simp, fun _ => rfl, fun _ => rfl⟩
  case speed =>
    obtain ⟨b, _, h⟩ := Res.bind_eq_ok h
    split at h
    · cases h; exact hstack _ (by decide)
    · split at h
      · obtain ⟨t, ht, h⟩ := Res.bind_eq_ok h
        cases h
        unfold setSpeed at ht
        obtain ⟨d, _, ht⟩ := Res.bind_eq_ok ht
        split at ht
        · cases ht
          exact ⟨rfl, rfl, rfl, List.prefix_rfl, rfl, by simp, by simp, fun _ => rfl, fun _ => rfl⟩
        · cases ht
      · cases h; exact hsame _ (by decide)
  case time =>
    obtain ⟨b, _, h⟩ := Res.bind_eq_ok h
    split at h
    · cases h; exact hstack _ (by decide)
    · split at h
      · obtain ⟨t, ht, h⟩ := Res.bind_eq_ok h
        cases h
        exact setTime_frame ht
      · cases h; exact hsame _ (by decide)
  case uri =>
    cases h
    refine ⟨rfl, rfl, rfl, List.prefix_rfl, ?_, ?_, by simp [VSt.ask], fun _ => ?_, fun _ => rfl⟩
    · simp [VSt.ask, askedStates]
    · simp [VSt.ask, askedUris]
    · simp [VSt.ask, askedSeeks]
  all_goals exact hbase _ (by decide) h

/-- The value that is set: the default one instead of an empty one. -/
def givenValue (name : String) (v : Str) : Str := match propInfo name with | none => v | some (_, d) => if v = [] then d else v

theorem videoSet_frame {g : GAns} {name : String} {v : Str} {s s' : VSt σ} (h : videoSet e g name v s = .ok s') : VFrame (codeOf name) (givenValue name v) s s' := by
  unfold videoSet at h
  obtain ⟨_, _, h⟩ := Res.bind_eq_ok h
  unfold codeOf givenValue
  cases hi : propInfo name with
  | none =>
    rw [hi] at h
    cases h
    exact ⟨rfl, rfl, rfl, List.prefix_rfl, rfl, by simp, by simp, fun _ => rfl, fun _ => rfl⟩
  | some p =>
    obtain ⟨code, d⟩ := p
    rw [hi] at h
    simp only at h
    obtain ⟨r, hr, h⟩ := Res.bind_eq_ok h
    cases r with
    | none => cases h
    | some t =>
      cases h
      have := videoDo_frame e hr
      exact ⟨this.st, this.time, this.surface, this.stack, this.states, this.uris, this.uri, this.seeks, this.eos⟩

/-- Only `uri` names the content, and only `time` and `currentTime` the position. -/
theorem code_uri {n : String} : codeOf n = some .uri ↔ n = "uri" := by
  constructor
  · intro h
    rcases code_names h with ⟨q, hq, h1, h2⟩ | ⟨q, hq, rfl⟩
    · have : ∀ q ∈ propTable, q.2.1 = .uri → q.1 = "uri" := by decide
      rw [← h1]; exact this q hq h2
    · exact absurd h ((by decide : ∀ q ∈ aliasTable, codeOf q.1 ≠ some .uri) q hq)
  · rintro rfl; decide

theorem code_time {n : String} : codeOf n = some .time ↔ n = "time" ∨ n = "currentTime" := by
  constructor
  · intro h
    rcases code_names h with ⟨q, hq, h1, h2⟩ | ⟨q, hq, rfl⟩
    · have : ∀ q ∈ propTable, q.2.1 = .time → q.1 = "time" ∨ q.1 = "currentTime" := by decide
      rw [← h1]; exact this q hq h2
    · exact absurd h ((by decide : ∀ q ∈ aliasTable, codeOf q.1 ≠ some .time) q hq)
  · rintro (rfl | rfl) <;> decide

theorem givenValue_uri (v : Str) : givenValue "uri" v = v := by
  have h : propInfo "uri" = some (.uri, []) := by decide
  unfold givenValue
  rw [h]
  simp only
  split
  · next h => exact h.symm
  · rfl

/-- What a group of properties that are reset may change. -/
structure VReset (l : List (String × PCode × Bool × String)) (s s' : VSt σ) : Prop where
  st : s'.st = s.st
  time : s'.time = s.time
  surface : s'.surface = s.surface
  stack : s.stack <+: s'.stack
  states : askedStates s'.cmds = askedStates s.cmds
  uris : askedUris s'.cmds = askedUris s.cmds ++ (l.filter fun p => p.2.2.1 && p.1 == "uri").map fun _ => []
  seeks : (∀ p ∈ l, p.2.2.1 = true → codeOf p.1 ≠ some .time) → askedSeeks s'.cmds = askedSeeks s.cmds
  eos : (∀ p ∈ l, p.2.2.1 = true → codeOf p.1 ≠ some .time) → s'.eos = s.eos

theorem reset_frame {g : GAns} (l : List (String × PCode × Bool × String)) : ∀ {s s' : VSt σ}, videoResetLoop e g l s = .ok s' → VReset l s s' := by
  induction l with
  | nil =>
    intro s s' h
    cases h
    exact ⟨rfl, rfl, rfl, List.prefix_rfl, rfl, by simp, fun _ => rfl, fun _ => rfl⟩
  | cons p l ih =>
    intro s s' h
    simp only [videoResetLoop] at h
    split at h
    · next hp =>
      obtain ⟨t, ht, h⟩ := Res.bind_eq_ok h
      have a := videoSet_frame e ht
      have b := ih h
      refine ⟨b.st.trans a.st, b.time.trans a.time, b.surface.trans a.surface, a.stack.trans b.stack, b.states.trans a.states, ?_, ?_, ?_⟩
      · rw [b.uris, a.uris]
        by_cases hu : p.1 = "uri"
        · simp only [hu, hp, code_uri, if_true, givenValue_uri, List.filter_cons, Bool.and_self, beq_self_eq_true, List.map_cons, List.append_assoc, List.cons_append, List.nil_append]
        · simp [code_uri, hu]
      · intro hh
        rw [b.seeks (fun q hq => hh q (List.mem_cons_of_mem _ hq)), a.seeks (hh p List.mem_cons_self hp)]
      · intro hh
        rw [b.eos (fun q hq => hh q (List.mem_cons_of_mem _ hq)), a.eos (.inl (hh p List.mem_cons_self hp))]
    · next hp =>
      have b := ih h
      refine ⟨b.st, b.time, b.surface, b.stack, b.states, ?_, ?_, ?_⟩
      · rw [b.uris]; simp [hp]
      · intro hh; exact b.seeks (fun q hq => hh q (List.mem_cons_of_mem _ hq))
      · intro hh; exact b.eos (fun q hq => hh q (List.mem_cons_of_mem _ hq))

theorem reset_none : ∀ p ∈ propTable, p.2.2.1 = true → codeOf p.1 ≠ some .time := by decide

theorem reset_uris : ((propTable.filter fun p => p.2.2.1 && p.1 == "uri").map fun _ => ([] : Str)) = [[]] := by decide

/-- What one operation does. -/
structure VStep (o : VOp σ) (s s' : VSt σ) : Prop where
  surface : s'.surface = o.picture.or s.surface
  stack : s.stack <+: s'.stack
  states : askedStates s'.cmds = askedStates s.cmds ++ o.request.toList
  state : ∀ g, o.request = some g → pipelineFor s'.st = g
  same : o.request = none → s'.st = s.st
  uris : askedUris s'.cmds = askedUris s.cmds ++ o.content.toList
  seeks : ¬ o.positions → askedSeeks s'.cmds = askedSeeks s.cmds
  eos : ¬ o.skips → s'.eos = true → s.eos = true

theorem step_frame {o : VOp σ} {s s' : VSt σ} (h : o.run e s = .ok s') : VStep o s s' := by
  have hask : ∀ (g : GState) (t : VSt σ), askedStates (t.ask (.state g)).cmds = askedStates t.cmds ++ [g] ∧ askedUris (t.ask (.state g)).cmds = askedUris t.cmds ∧
      askedSeeks (t.ask (.state g)).cmds = askedSeeks t.cmds := fun g t => by simp [VSt.ask, askedStates, askedUris, askedSeeks]
  have hst : ∀ {ok : Bool} {g : GState} {t t' : VSt σ}, askState ok g t = .ok t' → t' = t.ask (.state g) := by
    intro ok g t t' h
    unfold askState at h
    split at h
    · cases h; rfl
    · cases h
  cases o with
  | set n v g =>
    simp only [VOp.run] at h
    have a := videoSet_frame e h
    refine ⟨by simpa [VOp.picture] using a.surface, a.stack, by simpa [VOp.request] using a.states, fun g hg => (by cases hg), fun _ => a.st, ?_, ?_, ?_⟩
    · rw [a.uris]
      by_cases hn : n = "uri"
      · subst hn; simp [VOp.content, code_uri, givenValue_uri]
      · simp [VOp.content, code_uri, hn]
    · intro hp
      exact a.seeks (fun hc => hp (code_time.1 hc))
    · intro hp he
      have := a.eos (by
        by_cases hc : codeOf n = some .time
        · refine .inr (Bool.not_eq_true _ ▸ fun hv => ?_)
          have hn := code_time.1 hc
          have hi : propInfo n = some (.time, "indefinite".toList) := by rcases hn with rfl | rfl <;> decide
          rw [givenValue, hi] at hv
          simp only at hv
          split at hv
          · exact absurd hv (by decide)
          · exact hp ⟨hn, hv⟩
        · exact .inl hc)
      rw [this] at he
      exact he
  | start ok =>
    simp only [VOp.run] at h
    obtain ⟨t, ht, h⟩ := Res.bind_eq_ok h
    have := hst ht
    subst this
    split at h
    · cases h
    · cases h
      exact ⟨rfl, List.prefix_rfl, (hask _ _).1, fun g hg => (by cases hg; rfl), fun hg => (by cases hg), by simpa [VOp.content] using (hask _ _).2.1, fun _ => (hask _ _).2.2, fun _ h => (by cases h)⟩
  | pause ok =>
    simp only [VOp.run] at h
    obtain ⟨t, ht, h⟩ := Res.bind_eq_ok h
    have := hst ht
    subst this
    split at h
    · cases h
    · cases h
      exact ⟨rfl, List.prefix_rfl, (hask _ _).1, fun g hg => (by cases hg; rfl), fun hg => (by cases hg), by simpa [VOp.content] using (hask _ _).2.1, fun _ => (hask _ _).2.2, fun _ h => h⟩
  | resume ok =>
    simp only [VOp.run] at h
    split at h
    · cases h
    · obtain ⟨t, ht, h⟩ := Res.bind_eq_ok h
      have := hst ht
      subst this
      cases h
      exact ⟨rfl, List.prefix_rfl, (hask _ _).1, fun g hg => (by cases hg; rfl), fun hg => (by cases hg), by simpa [VOp.content] using (hask _ _).2.1, fun _ => (hask _ _).2.2, fun _ h => h⟩
  | stop ok g =>
    simp only [VOp.run] at h
    obtain ⟨t, ht, h⟩ := Res.bind_eq_ok h
    have := hst ht
    subst this
    split at h
    · cases h
    · obtain ⟨u, hu, h⟩ := Res.bind_eq_ok h
      cases h
      have a := reset_frame e propTable hu
      refine ⟨a.surface, a.stack, a.states.trans (hask _ _).1, fun g hg => (by cases hg; exact congrArg pipelineFor a.st), fun hg => (by cases hg), ?_, ?_, ?_⟩
      · rw [a.uris, reset_uris]
        exact congrArg (· ++ [[]]) (hask _ _).2.1
      · intro _
        exact (a.seeks reset_none).trans (hask _ _).2.2
      · intro _ he
        have := a.eos reset_none
        rw [this] at he
        exact he
  | message m =>
    cases m <;> simp only [VOp.run] at h <;> cases h
    all_goals exact ⟨rfl, List.prefix_rfl, by simp [VOp.request], fun g hg => (by cases hg), fun _ => rfl, by simp [VOp.content], fun _ => rfl, fun _ h => h⟩
  | frame p =>
    simp only [VOp.run] at h
    cases h
    refine ⟨?_, List.prefix_rfl, by simp [VOp.request], fun g hg => (by cases hg), fun _ => rfl, by simp [VOp.content], fun _ => rfl, fun _ h => h⟩
    cases p <;> rfl
  | tick d =>
    simp only [VOp.run] at h
    cases h
    exact ⟨rfl, List.prefix_rfl, by simp [VOp.request], fun g hg => (by cases hg), fun _ => rfl, by simp [VOp.content], fun _ => rfl, fun _ h => h⟩

/-! ## Histories -/

/-- The last picture that came. -/
def lastPicture (os : List (VOp σ)) : Option σ := (os.filterMap VOp.picture).getLast?

/-- **C74** (requests): of whatever happens to a video or a sound, each start, pause, resumption and stop asks the pipeline for one change of state, in order, and nothing else asks for
one. -/
theorem C74_requests (os : List (VOp σ)) : ∀ {s s' : VSt σ}, VOp.runAll e os s = .ok s' → askedStates s'.cmds = askedStates s.cmds ++ os.filterMap VOp.request := by
  induction os with
  | nil => intro s s' h; cases h; simp
  | cons o os ih =>
    intro s s' h
    obtain ⟨t, ht, h⟩ := Res.bind_eq_ok h
    rw [ih h, (step_frame e ht).states]
    cases ho : o.request <;> simp [ho]

/-- **C74** (content): the pipeline is given the content that the property `uri` is set to, in order, and it is taken away when the presentation stops. -/
theorem C74_content (os : List (VOp σ)) : ∀ {s s' : VSt σ}, VOp.runAll e os s = .ok s' → askedUris s'.cmds = askedUris s.cmds ++ os.filterMap VOp.content := by
  induction os with
  | nil => intro s s' h; cases h; simp
  | cons o os ih =>
    intro s s' h
    obtain ⟨t, ht, h⟩ := Res.bind_eq_ok h
    rw [ih h, (step_frame e ht).uris]
    cases ho : o.content <;> simp [ho]

/-- **C74** (state): whenever the pipeline has been asked to go to the state of the object, this is so after every further history: it plays while the object occurs, is paused while it
is paused, and released while it sleeps. -/
theorem C74_state (os : List (VOp σ)) : ∀ {s s' : VSt σ}, (askedStates s.cmds).getLast?.getD .null = pipelineFor s.st → VOp.runAll e os s = .ok s' →
    (askedStates s'.cmds).getLast?.getD .null = pipelineFor s'.st := by
  induction os with
  | nil => intro s s' h0 h; cases h; exact h0
  | cons o os ih =>
    intro s s' h0 h
    obtain ⟨t, ht, h⟩ := Res.bind_eq_ok h
    refine ih ?_ h
    have a := step_frame e ht
    rw [a.states]
    cases ho : o.request with
    | none => rw [a.same ho]; simpa using h0
    | some g => rw [a.state g ho]; simp

/-- **C74** (picture): what is kept to be drawn is the last picture that the pipeline delivered. -/
theorem C74_picture (os : List (VOp σ)) : ∀ {s s' : VSt σ}, VOp.runAll e os s = .ok s' → s'.surface = (lastPicture os).or s.surface := by
  induction os with
  | nil => intro s s' h; cases h; simp [lastPicture]
  | cons o os ih =>
    intro s s' h
    obtain ⟨t, ht, h⟩ := Res.bind_eq_ok h
    rw [ih h, (step_frame e ht).surface]
    unfold lastPicture
    cases ho : o.picture with
    | none => simp [ho]
    | some p =>
      simp only [List.filterMap_cons, ho, List.getLast?_cons]
      cases h2 : (List.filterMap VOp.picture os).getLast? <;> simp

/-- **C74** (position): the position of the stream is changed by nothing but setting `time` or `currentTime`. -/
theorem C74_position (os : List (VOp σ)) (hos : ∀ o ∈ os, ¬ o.positions) : ∀ {s s' : VSt σ}, VOp.runAll e os s = .ok s' → askedSeeks s'.cmds = askedSeeks s.cmds := by
  induction os with
  | nil => intro s s' h; cases h; rfl
  | cons o os ih =>
    intro s s' h
    obtain ⟨t, ht, h⟩ := Res.bind_eq_ok h
    rw [ih (fun o ho => hos o (List.mem_cons_of_mem _ ho)) h, (step_frame e ht).seeks (hos o List.mem_cons_self)]

/-- The pipeline answers that it is ready to play, and where it is. -/
structure GAns.Prepared (g : GAns) (cur dur : Int) : Prop where
  state : g.cur = some .paused ∨ (g.cur = some .playing ∧ g.cur2 = some .playing)
  pos : g.pos = some cur
  dur : g.dur = some dur

theorem GAns.Prepared.not {g : GAns} {cur dur : Int} (h : g.Prepared cur dur) : notPrepared g = .ok false := by
  unfold notPrepared
  rcases h.state with h | ⟨h, h'⟩
  · rw [h]
  · rw [h, h']; rfl

theorem toInt64_small {t : Nat} (h : t < 2 ^ 63) : toInt64 t = t := by unfold toInt64; omega

theorem int64_ok {x : Int} (h : -(2 ^ 63) ≤ x ∧ x < 2 ^ 63) : int64 x = .ok x := by
  unfold int64
  exact if_pos h

/-- Setting `time` in a prepared pipeline. -/
theorem set_time {g : GAns} {cur dur : Int} {n : String} (hn : n = "time" ∨ n = "currentTime") {v : Str} (hv : v ≠ []) {s t : VSt σ} (hg : g.Prepared cur dur) (hs : s.st ≠ .sleeping)
    (ht : setTime e.F g v { s with base := { s.base with media := upd s.base.media n v } } = .ok t) :
    (VOp.set n v g).run e s = .ok { t with base := { t.base with player := upd t.base.player n v } } := by
  have hi : propInfo n = some (.time, "indefinite".toList) := by rcases hn with rfl | rfl <;> decide
  have htr : ¬ (n = "transIn" ∨ n = "transOut") := by rcases hn with rfl | rfl <;> decide
  have hd : videoDo e g .time n v { s with base := { s.base with media := upd s.base.media n v } } = .ok (some t) := by
    simp only [videoDo]
    rw [hg.not]
    simp only [Res.bind_ok, Bool.false_eq_true, if_false, ne_eq, hs, not_false_iff, if_true]
    rw [ht]
    rfl
  simp only [VOp.run, videoSet]
  rw [if_neg htr, hi]
  simp only [Res.bind_ok]
  rw [if_neg hv, hd]
  rfl

/-- **C74** (seek): setting `time` or `currentTime` of a video that is prepared, to a time that is neither relative nor too large, asks the pipeline once, to go to that time. -/
theorem C74_seek {g : GAns} {cur dur : Int} {n : String} (hn : n = "time" ∨ n = "currentTime") {v : Str} {t : Nat} {s : VSt σ} (hg : g.Prepared cur dur) (hs : s.st ≠ .sleeping)
    (hv : v ≠ [] ∧ v ≠ "indefinite".toList) (hrel : hasPrefix v "+".toList = false ∧ hasPrefix v "-".toList = false) (ht : parseTime e.F v = .ok (some t)) (hbig : t < 2 ^ 63) :
    ∃ s', (VOp.set n v g).run e s = .ok s' ∧ s'.cmds = s.cmds ++ [.seek s.speed t] ∧ s'.base.prop = s.base.prop ∧ s'.st = s.st ∧ s'.eos = s.eos ∧
      s'.base.media n = v ∧ s'.base.player n = v := by
  have h : setTime e.F g v { s with base := { s.base with media := upd s.base.media n v } } =
      .ok ({ s with base := { s.base with media := upd s.base.media n v } }.ask (.seek s.speed t)) := by
    unfold setTime
    rw [if_neg (by rintro (h | h); exact hv.2 h; exact hv.1 h), hg.pos, hg.dur]
    simp only
    rw [ht]
    simp only [Res.bind_ok, hrel.1, hrel.2, Bool.false_eq_true, if_false]
    rw [toInt64_small hbig]
  exact ⟨_, set_time e hn hv.1 hg hs h, rfl, rfl, rfl, rfl, upd_same .., upd_same ..⟩

/-- **C74** (seek, relative): setting `time` to `+T` asks the pipeline once, to go on by that time; going past the duration ends the presentation. -/
theorem C74_seek_forward {g : GAns} {cur dur : Int} {n : String} (hn : n = "time" ∨ n = "currentTime") {v : Str} {t : Nat} {s : VSt σ} (hg : g.Prepared cur dur) (hs : s.st ≠ .sleeping)
    (hrel : hasPrefix v "+".toList = true) (ht : parseTime e.F v = .ok (some t)) (hbig : t < 2 ^ 63) (hsum : -(2 ^ 63) ≤ (t : Int) + cur ∧ (t : Int) + cur < 2 ^ 63) :
    ∃ s', (VOp.set n v g).run e s = .ok s' ∧ s'.cmds = s.cmds ++ [.seek s.speed (t + cur)] ∧ (s'.eos = true ↔ s.eos = true ∨ dur ≤ t + cur) ∧ s'.st = s.st := by
  have h1 : v ≠ [] := by rintro rfl; exact absurd hrel (by decide)
  have h2 : v ≠ "indefinite".toList := by rintro rfl; exact absurd hrel (by decide)
  have h3 : int64 ((t : Int) + cur) = .ok (t + cur) := int64_ok hsum
  have h : setTime e.F g v { s with base := { s.base with media := upd s.base.media n v } } =
      .ok ({ s with base := { s.base with media := upd s.base.media n v }, eos := if (t : Int) + cur ≥ dur then true else s.eos }.ask (.seek s.speed (t + cur))) := by
    unfold setTime
    rw [if_neg (by rintro (h | h); exact h2 h; exact h1 h), hg.pos, hg.dur]
    simp only
    rw [ht, Res.bind_ok]
    dsimp only
    rw [if_pos hrel, toInt64_small hbig, h3, Res.bind_ok]
  refine ⟨_, set_time e hn h1 hg hs h, rfl, ?_, rfl⟩
  simp only [VSt.ask]
  by_cases hd : (t : Int) + cur ≥ dur
  · rw [if_pos hd]; exact ⟨fun _ => .inr hd, fun _ => rfl⟩
  · rw [if_neg hd]; exact ⟨fun h => .inl h, fun h => h.resolve_right hd⟩

/-! ## What is not so -/

/-- **C74** (the end of the stream is not noticed): as long as nothing moves the position forward by some time, the player does not report the end, however often the pipeline reports it
and whatever else happens: a video or sound without an explicit duration is presented for ever. -/
theorem C74_fails_end (os : List (VOp σ)) (hos : ∀ o ∈ os, ¬ o.skips) : ∀ {s s' : VSt σ}, s.eos = false → VOp.runAll e os s = .ok s' → s'.eos = false := by
  induction os with
  | nil => intro s s' h0 h; cases h; exact h0
  | cons o os ih =>
    intro s s' h0 h
    obtain ⟨t, ht, h⟩ := Res.bind_eq_ok h
    refine ih (fun o ho => hos o (List.mem_cons_of_mem _ ho)) ?_ h
    cases hb : t.eos with
    | false => rfl
    | true => rw [(step_frame e ht).eos (hos o List.mem_cons_self) hb] at h0; cases h0

/-- The properties for sound, under all their names. -/
def soundNames : List String := ["balance", "balanceLevel", "bass", "bassLevel", "treble", "trebleLevel", "volume", "soundLevel", "mute"]

/-- **C74** (the sound cannot be changed): setting the volume, the balance, the tone or `mute` is undefined, unless the memory of the player happened to contain zeros; and then the
pipeline is asked nothing. -/
theorem C74_fails_sound {n : String} (hn : n ∈ soundNames) {v : Str} {g : GAns} {s s' : VSt σ} (h : (VOp.set n v g).run e s = .ok s') : s.soundNull = true ∧ s'.cmds = s.cmds := by
  have hsound : ∀ {t t' : VSt σ}, setSound t = .ok (some t') → t.soundNull = true ∧ t'.cmds = t.cmds := by
    intro t t' h
    unfold setSound at h
    split at h
    · next hh => cases h; exact ⟨hh, rfl⟩
    · cases h
  have hcode : ∃ c d, propInfo n = some (c, d) ∧ (c = .balance ∨ c = .bass ∨ c = .treble ∨ c = .volume ∨ c = .mute) := by
    simp only [soundNames, List.mem_cons, List.not_mem_nil, or_false] at hn
    rcases hn with rfl | rfl | rfl | rfl | rfl | rfl | rfl | rfl | rfl
    all_goals first
      | exact ⟨.balance, "0.0".toList, by decide, by simp⟩
      | exact ⟨.bass, "0".toList, by decide, by simp⟩
      | exact ⟨.treble, "0".toList, by decide, by simp⟩
      | exact ⟨.volume, "100%".toList, by decide, by simp⟩
      | exact ⟨.mute, "false".toList, by decide, by simp⟩
  obtain ⟨c, d, hi, hc⟩ := hcode
  simp only [VOp.run, videoSet] at h
  obtain ⟨_, _, h⟩ := Res.bind_eq_ok h
  rw [hi] at h
  simp only at h
  obtain ⟨r, hr, h⟩ := Res.bind_eq_ok h
  cases r with
  | none => cases h
  | some t =>
    cases h
    rcases hc with rfl | rfl | rfl | rfl | rfl
    all_goals simp only [videoDo] at hr
    · have hh := hsound hr; exact hh
    · have hh := hsound hr; exact hh
    · have hh := hsound hr; exact hh
    · have hh := hsound hr; exact hh
    · obtain ⟨_, _, hr⟩ := Res.bind_eq_ok hr
      have hh := hsound hr; exact hh

/-- While the pipeline is not prepared no position is asked for, whatever property is set. -/
theorem set_unprepared {g : GAns} (hg : notPrepared g = .ok true) {n : String} {v : Str} {s s' : VSt σ} (h : videoSet e g n v s = .ok s') : askedSeeks s'.cmds = askedSeeks s.cmds := by
  by_cases hc : codeOf n = some .time
  · have hn := code_time.1 hc
    have hi : propInfo n = some (.time, "indefinite".toList) := by rcases hn with rfl | rfl <;> decide
    simp only [videoSet] at h
    obtain ⟨_, _, h⟩ := Res.bind_eq_ok h
    rw [hi] at h
    simp only at h
    obtain ⟨r, hr, h⟩ := Res.bind_eq_ok h
    cases r with
    | none => cases h
    | some t =>
      cases h
      simp only [videoDo] at hr
      rw [hg, Res.bind_ok, if_pos rfl] at hr
      cases hr
      rfl
  · exact (videoSet_frame e h).seeks hc

theorem startLoop_unprepared {g : String → GAns} (hg : ∀ k, notPrepared (g k) = .ok true) (todo : List String) : ∀ {keys : List String} {s s' : VSt σ},
    startLoop (fun k v => videoSet e (g k) k v) (·.base.media) todo keys s = .ok s' → askedSeeks s'.cmds = askedSeeks s.cmds := by
  induction todo with
  | nil => intro keys s s' h; cases h; rfl
  | cons k todo ih =>
    intro keys s s' h
    simp only [startLoop] at h
    split at h
    · obtain ⟨t, ht, h⟩ := Res.bind_eq_ok h
      rw [ih h, set_unprepared e (hg k) ht]
    · exact ih h

/-- **C74** (a position that is given too early is lost): a video whose document says at what time to begin, and that is started, plays from its beginning, because the pipeline is not
prepared before it is started: whatever happens then, it is not asked to go anywhere before `time` is set again. -/
theorem C74_fails_early {W H : Int} {keys : List String} {media : Store} {p0 : PProp} {sn : Bool} {sp : Rat} {fr : Bool} {g : String → GAns} (hg : ∀ k, notPrepared (g k) = .ok true)
    {s s' : VSt σ} (h : startVideo e W H keys media p0 sn sp fr g = .ok s) {os : List (VOp σ)} (hos : ∀ o ∈ os, ¬ o.positions) (h' : VOp.runAll e os s = .ok s') : askedSeeks s'.cmds = [] := by
  rw [C74_position e os hos h']
  unfold startVideo at h
  obtain ⟨t, ht, h⟩ := Res.bind_eq_ok h
  rw [startLoop_unprepared e hg _ h]
  unfold newVideo at ht
  obtain ⟨b, _, ht⟩ := Res.bind_eq_ok ht
  cases ht
  rfl

/-- **C74** (a position given to a pipeline that is not prepared is lost): this is what the start of an anchor does. -/
theorem C74_fails_anchor {g : GAns} (hg : notPrepared g = .ok true) {v : Str} {s s1 s' : VSt σ} (h : (VOp.set "time" v g).run e s = .ok s1) {os : List (VOp σ)} (hos : ∀ o ∈ os, ¬ o.positions)
    (h' : VOp.runAll e os s1 = .ok s') : askedSeeks s'.cmds = askedSeeks s.cmds := by
  rw [C74_position e os hos h']
  simp only [VOp.run] at h
  have hh := set_unprepared e hg h
  exact hh

/-- **C74** (what is put off is never done): the list of what has been put off only grows. -/
theorem C74_fails_stack (os : List (VOp σ)) : ∀ {s s' : VSt σ}, VOp.runAll e os s = .ok s' → s.stack <+: s'.stack := by
  induction os with
  | nil => intro s s' h; cases h; exact List.prefix_rfl
  | cons o os ih =>
    intro s s' h
    obtain ⟨t, ht, h⟩ := Res.bind_eq_ok h
    exact (step_frame e ht).stack.trans (ih h)

/-- **C74** (the speed cannot be changed): setting `speed` or `rate` of a video that is prepared and presented to a number other than 0 is undefined. -/
theorem C74_fails_speed {g : GAns} {cur dur : Int} (hg : g.Prepared cur dur) {n : String} (hn : n = "speed" ∨ n = "rate") {v : Str} (hv : v ≠ []) {d : Rat} (hd : xstrtod e.F v = .ok d)
    (h0 : d ≠ 0) {s : VSt σ} (hs : s.st ≠ .sleeping) : (VOp.set n v g).run e s = .ub := by
  have hi : propInfo n = some (.speed, "1".toList) := by rcases hn with rfl | rfl <;> decide
  have htr : ¬ (n = "transIn" ∨ n = "transOut") := by rcases hn with rfl | rfl <;> decide
  simp only [VOp.run, videoSet]
  rw [if_neg htr, hi]
  simp only [Res.bind_ok]
  rw [if_neg hv]
  simp only [videoDo]
  rw [hg.not]
  simp only [Res.bind_ok, Bool.false_eq_true, if_false, ne_eq, hs, not_false_iff, if_true, setSpeed]
  rw [hd]
  simp only [Res.bind_ok, h0, if_false]
  rfl

/-- **C74** (an error of the pipeline ends the process): no history in which the pipeline reports an error, for instance that a file cannot be found or decoded, goes on. -/
theorem C74_fails_error (os : List (VOp σ)) (hos : VOp.message .error ∈ os) : ∀ s s' : VSt σ, VOp.runAll e os s ≠ .ok s' := by
  induction os with
  | nil => cases hos
  | cons o os ih =>
    intro s s' h
    obtain ⟨t, ht, h⟩ := Res.bind_eq_ok h
    rcases List.mem_cons.1 hos with rfl | hos
    · cases ht
    · exact ih hos t s' h

/-! ## Cases -/

/-- What GStreamer answers before a pipeline is started, and about one that plays. -/
def silent : GAns := { cur := some .null, cur2 := some .null, pos := none, dur := none }
def playingAt (pos dur : Nat) : GAns := { cur := some .playing, cur2 := some .playing, pos := some pos, dur := some dur }

/-- A video with the given properties that has been started, and what then happened to it. -/
def videoRun (l : List (String × String)) (os : List (VOp Nat)) : Res (VSt Nat) :=
  (startVideo penv0 100 200 (keysOfList l) (storeOf l) (initProp penv0 0 0 (0, 0, 0, 0)) true 1 false (fun _ => silent)).bind (VOp.runAll penv0 (.start true :: os))

/-- What of a result is looked at. -/
def videoSeen (r : Res (VSt Nat)) : Option (List VCmd × EState × Bool × Option Nat × Nat) := match r with | .ok s => some (s.cmds, s.st, s.eos, s.surface, s.stack.length) | _ => none

/-- A video that shows two pictures, is paused and resumed, is set to 20 seconds, and goes on by 15 seconds, which is past its end; with `time` in the document, that is lost. -/
example : videoSeen (videoRun [("uri", "a.mp4"), ("time", "10s")] [.frame (some 1), .frame none, .pause true, .resume true, .set "time" "20s".toList (playingAt (5 * SECOND) (30 * SECOND)),
      .frame (some 2), .message .eos, .set "currentTime" "+15s".toList (playingAt (21 * SECOND) (30 * SECOND))]) =
    some ([.uri "a.mp4".toList, .state .playing, .state .paused, .state .playing, .seek 1 (20 * SECOND), .seek 1 (36 * SECOND)], .occurring, true, some 2, 1) := by decide +kernel

example : (playingAt (5 * SECOND) (30 * SECOND)).Prepared (5 * SECOND) (30 * SECOND) := ⟨.inr ⟨rfl, rfl⟩, rfl, rfl⟩
example : notPrepared silent = .ok true := rfl
example : videoSeen (videoRun [("uri", "a.mp4")] [.stop true silent]) = some ([.uri "a.mp4".toList, .state .playing, .state .null, .uri []], .sleeping, false, none, 0) := by decide +kernel

/-- **C74** (the position cannot be moved back by some time): `-5s` is undefined. -/
theorem C74_fails_back : (match videoRun [("uri", "a.mp4")] [.set "time" "-5s".toList (playingAt (15 * SECOND) (30 * SECOND))] with | .ub => true | _ => false) = true := by decide +kernel

/-- **C74** (a text that is no time): `half` sets the position to whatever the memory contained. -/
theorem C74_fails_text : (match videoRun [("uri", "a.mp4")] [.set "time" "half".toList (playingAt (15 * SECOND) (30 * SECOND))] with | .ub => true | _ => false) = true := by decide +kernel

end Ginga
