import Verif.Model.SigGen
import Verif.Props.C74
/-!
# C76: the signal generator sounds as its properties say
-/
namespace Ginga

variable {σ : Type} (e : PEnv)

/-! ## What the property speaks of -/

/-- A number or a percentage that a text gives; an empty text gives the default. -/
def amount (F : FP) (default : String) (v : Str) : Rat := (orPercent F (orDef default v)).2

/-- The values that a history gives a property, in order, under the names that it has. -/
def settings (names : List String) (os : List (SOp σ)) : List Str := os.filterMap fun o => match o with | .set n v => if n ∈ names then some v else none | _ => none

/-- The sound after a history: the last frequency and volume that were given, and the last wave that was given by a name that is known. -/
def toneAfter (F : FP) (os : List (SOp σ)) (t : Tone) : Tone :=
  { freq := ((settings ["freq"] os).getLast?.map (amount F "440")).getD t.freq
    wave := ((settings ["wave"] os).filterMap fun v => waveOf (orDef "sine" v)).getLast?.getD t.wave
    volume := ((settings ["volume", "soundLevel"] os).getLast?.map (amount F "100%")).getD t.volume }

/-- The sound that a document says: `volume` before `soundLevel`; the defaults are 440 Hz, a sine and full volume. -/
def toneOf (F : FP) (keys : List String) (media : Store) : Tone :=
  { freq := amount F "440" (media "freq")
    wave := (waveOf (orDef "sine" (media "wave"))).getD 0
    volume := amount F "100%" (if "volume" ∈ keys then media "volume" else media "soundLevel") }

/-- The change of state that an operation asks for. -/
def SOp.request : SOp σ → Option GState
  | .start _ => some .playing
  | .pause _ => some .paused
  | .resume _ => some .playing
  | .stop _ => some .null
  | _ => none

/-- The picture that an operation brings. -/
def SOp.picture : SOp σ → Option σ
  | .frame p => p
  | _ => none

/-! ## One property -/

/-- The sound after a property is set. -/
def toneSet (F : FP) (n : String) (v : Str) (t : Tone) : Tone :=
  { freq := if n = "freq" then amount F "440" v else t.freq
    wave := if n = "wave" then (waveOf (orDef "sine" v)).getD t.wave else t.wave
    volume := if n ∈ ["volume", "soundLevel"] then amount F "100%" v else t.volume }

/-- What setting a property does. -/
structure SFrame (e : PEnv) (n : String) (v : Str) (s s' : SigSt σ) : Prop where
  base : playerSet e 4 n v s.base = .ok s'.base
  st : s'.st = s.st
  time : s'.time = s.time
  eos : s'.eos = s.eos
  gone : s'.gone = s.gone
  surface : s'.surface = s.surface
  states : s'.states = s.states
  tone : s'.tone = toneSet e.F n v s.tone
  src : (s.st ≠ .sleeping → s.src = s.tone) → (s.st ≠ .sleeping → s'.src = s'.tone)

theorem code_freq {n : String} : codeOf n = some .freq ↔ n = "freq" := by
  constructor
  · intro h
    rcases code_names h with ⟨q, hq, h1, h2⟩ | ⟨q, hq, rfl⟩
    · have : ∀ q ∈ propTable, q.2.1 = .freq → q.1 = "freq" := by decide
      rw [← h1]; exact this q hq h2
    · exact absurd h ((by decide : ∀ q ∈ aliasTable, codeOf q.1 ≠ some .freq) q hq)
  · rintro rfl; decide

theorem code_wave {n : String} : codeOf n = some .wave ↔ n = "wave" := by
  constructor
  · intro h
    rcases code_names h with ⟨q, hq, h1, h2⟩ | ⟨q, hq, rfl⟩
    · have : ∀ q ∈ propTable, q.2.1 = .wave → q.1 = "wave" := by decide
      rw [← h1]; exact this q hq h2
    · exact absurd h ((by decide : ∀ q ∈ aliasTable, codeOf q.1 ≠ some .wave) q hq)
  · rintro rfl; decide

theorem code_volume {n : String} : codeOf n = some .volume ↔ n ∈ ["volume", "soundLevel"] := by
  constructor
  · intro h
    rcases code_names h with ⟨q, hq, h1, h2⟩ | ⟨q, hq, rfl⟩
    · have : ∀ q ∈ propTable, q.2.1 = .volume → q.1 = "volume" := by decide
      rw [← h1, this q hq h2]; decide
    · have : ∀ q ∈ aliasTable, codeOf q.1 = some .volume → q.1 ∈ ["volume", "soundLevel"] := by decide
      exact this q hq h
  · intro h
    simp only [List.mem_cons, List.not_mem_nil, or_false] at h
    rcases h with rfl | rfl <;> decide

theorem info_freq : propInfo "freq" = some (.freq, "440".toList) := by decide
theorem info_wave : propInfo "wave" = some (.wave, "sine".toList) := by decide
theorem info_volume {n : String} (h : n ∈ ["volume", "soundLevel"]) : propInfo n = some (.volume, "100%".toList) := by
  simp only [List.mem_cons, List.not_mem_nil, or_false] at h
  rcases h with rfl | rfl <;> decide

theorem sigDo_other {c : PCode} (c1 : c ≠ .freq) (c2 : c ≠ .wave) (c3 : c ≠ .volume) {v : Str} {s : SigSt σ} :
    sigDo e c v s = (doSetProperty e (mediaSet1 (playerSet e 3)) c v s.base).bind fun r => .ok (r.map fun b => { s with base := b }) := by
  cases c <;> first | rfl | exact absurd rfl c1 | exact absurd rfl c2 | exact absurd rfl c3

theorem sigSet_frame {n : String} {v : Str} {s s' : SigSt σ} (h : sigSet e n v s = .ok s') : SFrame e n v s s' := by
  unfold sigSet at h
  obtain ⟨u, hu, h⟩ := Res.bind_eq_ok h
  have hbase : ∀ {c : PCode} {d : Str} {b : PSt}, propInfo n = some (c, d) → doSetProperty e (mediaSet1 (playerSet e 3)) c (if v = [] then d else v) s.base = .ok (some b) →
      playerSet e 4 n v s.base = .ok { b with player := upd b.player n v } := by
    intro c d b hi hd
    show playerSet1 e (mediaSet1 (playerSet e 3)) n v s.base = _
    unfold playerSet1
    simp only
    rw [hu, Res.bind_ok, hi]
    simp only
    rw [hd, Res.bind_ok]
  have htell : ∀ (f : Tone → Tone) (t : SigSt σ), t.st = s.st → (t.tell f).base = t.base ∧ (t.tell f).st = t.st ∧ (t.tell f).time = t.time ∧ (t.tell f).eos = t.eos ∧
      (t.tell f).gone = t.gone ∧ (t.tell f).surface = t.surface ∧ (t.tell f).states = t.states ∧ (t.tell f).tone = t.tone ∧ (s.st ≠ .sleeping → (t.tell f).src = f t.src) := by
    intro f t ht
    unfold SigSt.tell
    split
    · exact ⟨rfl, rfl, rfl, rfl, rfl, rfl, rfl, rfl, fun _ => rfl⟩
    · next hh => exact ⟨rfl, rfl, rfl, rfl, rfl, rfl, rfl, rfl, fun h => absurd (ht ▸ h) hh⟩
  cases hi : propInfo n with
  | none =>
    rw [hi] at h
    cases h
    have hc : codeOf n = none := by unfold codeOf; rw [hi]; rfl
    refine ⟨?_, rfl, rfl, rfl, rfl, rfl, rfl, ?_, fun h => h⟩
    · show playerSet1 e (mediaSet1 (playerSet e 3)) n v s.base = _
      unfold playerSet1
      simp only
      rw [hu, Res.bind_ok, hi]
    · have h1 : n ≠ "freq" := fun h => by rw [code_freq.2 h] at hc; cases hc
      have h2 : n ≠ "wave" := fun h => by rw [code_wave.2 h] at hc; cases hc
      have h3 : n ∉ ["volume", "soundLevel"] := fun h => by rw [code_volume.2 h] at hc; cases hc
      unfold toneSet
      rw [if_neg h1, if_neg h2, if_neg h3]
  | some p =>
    obtain ⟨c, d⟩ := p
    have hc : codeOf n = some c := by unfold codeOf; rw [hi]; rfl
    rw [hi] at h
    simp only at h
    obtain ⟨r, hr, h⟩ := Res.bind_eq_ok h
    cases r with
    | none => cases h
    | some t =>
      cases h
      by_cases c1 : c = .freq
      · subst c1
        have hn := code_freq.1 hc
        subst hn
        rw [info_freq] at hi
        cases hi
        simp only [sigDo, Res.ok.injEq, Option.some.injEq] at hr
        obtain ⟨a1, a2, a3, a4, a5, a6, a7, a8, a9⟩ := htell (fun t => { t with freq := (orPercent e.F (if v = [] then "440".toList else v)).2 })
          { s with tone := { s.tone with freq := (orPercent e.F (if v = [] then "440".toList else v)).2 } } rfl
        rw [hr] at a1 a2 a3 a4 a5 a6 a7 a8 a9
        refine ⟨?_, a2, a3, a4, a5, a6, a7, ?_, ?_⟩
        · rw [hbase info_freq (b := s.base) rfl, a1]
        · rw [a8]; rfl
        · intro h1 h2
          rw [show SigSt.src { t with base := _ } = t.src from rfl, show SigSt.tone { t with base := _ } = t.tone from rfl, a8, a9 h2, h1 h2]
      · by_cases c2 : c = .wave
        · subst c2
          have hn := code_wave.1 hc
          subst hn
          rw [info_wave] at hi
          cases hi
          simp only [sigDo, Res.ok.injEq, Option.some.injEq] at hr
          obtain ⟨a1, a2, a3, a4, a5, a6, a7, a8, a9⟩ := htell (fun t => { t with wave := (waveOf (if v = [] then "sine".toList else v)).getD s.tone.wave })
            { s with tone := { s.tone with wave := (waveOf (if v = [] then "sine".toList else v)).getD s.tone.wave } } rfl
          rw [hr] at a1 a2 a3 a4 a5 a6 a7 a8 a9
          refine ⟨?_, a2, a3, a4, a5, a6, a7, ?_, ?_⟩
          · rw [hbase info_wave (b := s.base) rfl, a1]
          · rw [a8]; rfl
          · intro h1 h2
            rw [show SigSt.src { t with base := _ } = t.src from rfl, show SigSt.tone { t with base := _ } = t.tone from rfl, a8, a9 h2, h1 h2]
        · by_cases c3 : c = .volume
          · subst c3
            have hn := code_volume.1 hc
            have hi' := info_volume hn
            rw [hi'] at hi
            cases hi
            simp only [sigDo, Res.ok.injEq, Option.some.injEq] at hr
            obtain ⟨a1, a2, a3, a4, a5, a6, a7, a8, a9⟩ := htell (fun t => { t with volume := (orPercent e.F (if v = [] then "100%".toList else v)).2 })
              { s with tone := { s.tone with volume := (orPercent e.F (if v = [] then "100%".toList else v)).2 } } rfl
            rw [hr] at a1 a2 a3 a4 a5 a6 a7 a8 a9
            have h1 : n ≠ "freq" := fun h => by rw [h] at hn; revert hn; decide
            have h2 : n ≠ "wave" := fun h => by rw [h] at hn; revert hn; decide
            refine ⟨?_, a2, a3, a4, a5, a6, a7, ?_, ?_⟩
            · rw [hbase hi' (b := s.base) rfl, a1]
            · rw [show SigSt.tone { t with base := _ } = t.tone from rfl, a8]
              unfold toneSet
              rw [if_neg h1, if_neg h2, if_pos hn]
              rfl
            · intro h1 h2
              rw [show SigSt.src { t with base := _ } = t.src from rfl, show SigSt.tone { t with base := _ } = t.tone from rfl, a8, a9 h2, h1 h2]
          · have h1 : n ≠ "freq" := fun h => by rw [code_freq.2 h] at hc; cases hc; exact c1 rfl
            have h2 : n ≠ "wave" := fun h => by rw [code_wave.2 h] at hc; cases hc; exact c2 rfl
            have h3 : n ∉ ["volume", "soundLevel"] := fun h => by rw [code_volume.2 h] at hc; cases hc; exact c3 rfl
            have hd := hr
            rw [sigDo_other e c1 c2 c3] at hd
            obtain ⟨r, hr', hd⟩ := Res.bind_eq_ok hd
            cases r with
            | none => cases hd
            | some b =>
              cases hd
              refine ⟨hbase hi hr', rfl, rfl, rfl, rfl, rfl, rfl, ?_, fun h => h⟩
              unfold toneSet
              rw [if_neg h1, if_neg h2, if_neg h3]

/-! ## One operation -/

/-- What a group of properties that are reset may change. -/
structure SReset (s s' : SigSt σ) : Prop where
  st : s'.st = s.st
  eos : s'.eos = s.eos
  gone : s'.gone = s.gone
  surface : s'.surface = s.surface
  states : s'.states = s.states

theorem sreset_frame (l : List (String × PCode × Bool × String)) : ∀ {s s' : SigSt σ}, sigResetLoop e l s = .ok s' → SReset s s' := by
  induction l with
  | nil => intro s s' h; cases h; exact ⟨rfl, rfl, rfl, rfl, rfl⟩
  | cons p l ih =>
    intro s s' h
    simp only [sigResetLoop] at h
    split at h
    · obtain ⟨t, ht, h⟩ := Res.bind_eq_ok h
      have a := sigSet_frame e ht
      have b := ih h
      exact ⟨b.st.trans a.st, b.eos.trans a.eos, b.gone.trans a.gone, b.surface.trans a.surface, b.states.trans a.states⟩
    · exact ih h

/-- What holds of every signal generator: the source of sound has been told what the properties say while the object is not asleep, and a pipeline that is gone belongs to an object that
is asleep. -/
structure Tuned (s : SigSt σ) : Prop where
  src : s.st ≠ .sleeping → s.src = s.tone
  gone : s.gone = true → s.st = .sleeping
  eos : s.eos = false

/-- The operation is no stop. -/
def SOp.stops : SOp σ → Bool
  | .stop _ => true
  | _ => false

/-- The sound after an operation that is no stop. -/
def SOp.tune (F : FP) : SOp σ → Tone → Tone
  | .set n v, t => toneSet F n v t
  | _, t => t

/-- What one operation does. -/
structure SStep (e : PEnv) (o : SOp σ) (s s' : SigSt σ) : Prop where
  tuned : Tuned s'
  gone : s'.gone = (s.gone || o.stops)
  states : s'.states = s.states ++ o.request.toList
  state : ∀ g, o.request = some g → pipelineFor s'.st = g
  same : o.request = none → s'.st = s.st
  surface : s'.surface = o.picture.or s.surface
  tone : o.stops = false → s'.tone = o.tune e.F s.tone

theorem SigSt.ask_ok {ok : Bool} {g : GState} {s t : SigSt σ} (h : s.ask ok g = .ok t) : t = { s with states := s.states ++ [g] } := by
  unfold SigSt.ask at h
  split at h
  · cases h; rfl
  · cases h

theorem sig_step {o : SOp σ} {s s' : SigSt σ} (hs : Tuned s) (h : o.run e s = .ok s') : SStep e o s s' := by
  cases o with
  | set n v =>
    simp only [SOp.run] at h
    have a := sigSet_frame e h
    exact ⟨⟨fun hh => a.src hs.src (a.st ▸ hh), fun hg => a.st.trans (hs.gone (a.gone ▸ hg)), a.eos.trans hs.eos⟩, by rw [a.gone]; simp [SOp.stops], by rw [a.states]; simp [SOp.request],
      fun g hg => (by cases hg), fun _ => a.st, by rw [a.surface]; rfl, fun _ => a.tone⟩
  | start ok =>
    simp only [SOp.run] at h
    split at h
    · cases h
    · split at h
      · cases h
      · next h1 h2 =>
        have hg : s.gone = false := by simpa using h2
        cases ok
        all_goals
          cases h
          exact ⟨⟨fun _ => rfl, fun hh => (by have : s.gone = true := hh; rw [hg] at this; cases this), rfl⟩, by show s.gone = _; simp [SOp.stops], rfl, fun g hh => (by cases hh; rfl),
            fun hh => (by cases hh), rfl, fun _ => rfl⟩
  | pause ok =>
    simp only [SOp.run] at h
    split at h
    · cases h
    · next hst =>
      obtain ⟨t, ht, h⟩ := Res.bind_eq_ok h
      have := SigSt.ask_ok ht
      subst this
      cases h
      have hw : s.st ≠ .sleeping := fun hh => hst (.inr hh)
      exact ⟨⟨fun _ => hs.src hw, fun hh => absurd (hs.gone hh) hw, hs.eos⟩, by show s.gone = _; simp [SOp.stops], rfl, fun g hh => (by cases hh; rfl), fun hh => (by cases hh), rfl,
        fun _ => rfl⟩
  | resume ok =>
    simp only [SOp.run] at h
    split at h
    · cases h
    · next hst =>
      obtain ⟨t, ht, h⟩ := Res.bind_eq_ok h
      have := SigSt.ask_ok ht
      subst this
      cases h
      have hp : s.st = .paused := by simpa using hst
      have hw : s.st ≠ .sleeping := by rw [hp]; decide
      exact ⟨⟨fun _ => hs.src hw, fun hh => absurd (hs.gone hh) hw, hs.eos⟩, by show s.gone = _; simp [SOp.stops], rfl, fun g hh => (by cases hh; rfl), fun hh => (by cases hh), rfl,
        fun _ => rfl⟩
  | stop ok =>
    simp only [SOp.run] at h
    split at h
    · cases h
    · obtain ⟨t, ht, h⟩ := Res.bind_eq_ok h
      have := SigSt.ask_ok ht
      subst this
      obtain ⟨u, hu, h⟩ := Res.bind_eq_ok h
      cases h
      have a := sreset_frame e propTable hu
      exact ⟨⟨fun hh => absurd a.st hh, fun _ => a.st, a.eos.trans hs.eos⟩, by show u.gone = _; rw [a.gone]; simp [SOp.stops], a.states,
        fun g hh => (by cases hh; exact congrArg pipelineFor a.st), fun hh => (by cases hh), a.surface, fun hh => (by cases hh)⟩
  | message m =>
    cases m <;> simp only [SOp.run] at h <;> cases h
    all_goals exact ⟨hs, by simp [SOp.stops], by simp [SOp.request], fun g hg => (by cases hg), fun _ => rfl, rfl, fun _ => rfl⟩
  | frame p =>
    simp only [SOp.run] at h
    split at h
    · cases h
    · cases h
      refine ⟨⟨hs.src, hs.gone, hs.eos⟩, by show s.gone = _; simp [SOp.stops], by simp [SOp.request], fun g hg => (by cases hg), fun _ => rfl, ?_, fun _ => rfl⟩
      simp only [hs.eos]
      cases p <;> rfl
  | tick d =>
    simp only [SOp.run] at h
    cases h
    exact ⟨⟨hs.src, hs.gone, hs.eos⟩, by show s.gone = _; simp [SOp.stops], by simp [SOp.request], fun g hg => (by cases hg), fun _ => rfl, rfl, fun _ => rfl⟩

/-! ## Histories -/

theorem toneAfter_cons (F : FP) (o : SOp σ) (os : List (SOp σ)) (t : Tone) :
    toneAfter F (o :: os) t = toneAfter F os (o.tune F t) := by
  cases o with
  | set n v =>
    have hlast : ∀ {α β : Type} (f : α → β) (x : α) (l : List α) (y : β), (((x :: l).getLast?).map f).getD y = ((l.getLast?).map f).getD (f x) := by
      intro α β f x l y
      rw [List.getLast?_cons]
      cases l.getLast? <;> rfl
    have hlast' : ∀ {α : Type} (x : α) (l : List α) (y : α), ((x :: l).getLast?).getD y = (l.getLast?).getD x := by
      intro α x l y
      rw [List.getLast?_cons]
      cases l.getLast? <;> rfl
    unfold toneAfter SOp.tune toneSet
    simp only [Tone.mk.injEq]
    refine ⟨?_, ?_, ?_⟩
    · unfold settings
      by_cases h : n ∈ ["freq"]
      · rw [List.filterMap_cons_some (b := v) (by simp only [h, if_true]), hlast, if_pos (by simpa using h)]
      · rw [List.filterMap_cons_none (by simp only [h, if_false]), if_neg (by simpa using h)]
    · unfold settings
      by_cases h : n ∈ ["wave"]
      · rw [List.filterMap_cons_some (b := v) (by simp only [h, if_true]), if_pos (by simpa using h)]
        cases hw : waveOf (orDef "sine" v) with
        | none => rw [List.filterMap_cons_none (by exact hw)]; rfl
        | some w => rw [List.filterMap_cons_some (by exact hw), hlast']; rfl
      · rw [List.filterMap_cons_none (by simp only [h, if_false]), if_neg (by simpa using h)]
    · unfold settings
      by_cases h : n ∈ ["volume", "soundLevel"]
      · rw [List.filterMap_cons_some (b := v) (by simp only [h, if_true]), hlast, if_pos h]
      · rw [List.filterMap_cons_none (by simp only [h, if_false]), if_neg h]
  | _ => rfl

theorem sig_gone (os : List (SOp σ)) : ∀ {s s' : SigSt σ}, Tuned s → SOp.runAll e os s = .ok s' → Tuned s' ∧ s'.gone = (s.gone || os.any SOp.stops) := by
  induction os with
  | nil => intro s s' hs h; cases h; exact ⟨hs, by simp⟩
  | cons o os ih =>
    intro s s' hs h
    obtain ⟨t, ht, h⟩ := Res.bind_eq_ok h
    have a := sig_step e hs ht
    obtain ⟨h1, h2⟩ := ih a.tuned h
    refine ⟨h1, ?_⟩
    rw [h2, a.gone, List.any_cons, Bool.or_assoc]

theorem sig_tone (os : List (SOp σ)) : ∀ {s s' : SigSt σ}, Tuned s → os.any SOp.stops = false → SOp.runAll e os s = .ok s' → s'.tone = toneAfter e.F os s.tone := by
  induction os with
  | nil => intro s s' hs _ h; cases h; rfl
  | cons o os ih =>
    intro s s' hs hn h
    obtain ⟨t, ht, h⟩ := Res.bind_eq_ok h
    rw [List.any_cons, Bool.or_eq_false_iff] at hn
    have a := sig_step e hs ht
    rw [toneAfter_cons, ih a.tuned hn.2 h, a.tone hn.1]

/-- **C76** (requests): of whatever happens to a signal generator, each start, pause, resumption and stop asks the pipeline for one change of state, in order, and nothing else asks for
one. -/
theorem C76_requests (os : List (SOp σ)) : ∀ {s s' : SigSt σ}, Tuned s → SOp.runAll e os s = .ok s' → s'.states = s.states ++ os.filterMap SOp.request := by
  induction os with
  | nil => intro s s' _ h; cases h; simp
  | cons o os ih =>
    intro s s' hs h
    obtain ⟨t, ht, h⟩ := Res.bind_eq_ok h
    have a := sig_step e hs ht
    rw [ih a.tuned h, a.states]
    cases ho : o.request <;> simp [ho]

/-- **C76** (state): after every history the state that the pipeline was last asked to go to is the one of the object. -/
theorem C76_state (os : List (SOp σ)) : ∀ {s s' : SigSt σ}, Tuned s → s.states.getLast?.getD .null = pipelineFor s.st → SOp.runAll e os s = .ok s' →
    s'.states.getLast?.getD .null = pipelineFor s'.st := by
  induction os with
  | nil => intro s s' _ h0 h; cases h; exact h0
  | cons o os ih =>
    intro s s' hs h0 h
    obtain ⟨t, ht, h⟩ := Res.bind_eq_ok h
    have a := sig_step e hs ht
    refine ih a.tuned ?_ h
    rw [a.states]
    cases ho : o.request with
    | none => rw [a.same ho]; simpa using h0
    | some g => rw [a.state g ho]; simp

/-- **C76** (picture): what is kept to be drawn is the last picture of the sound that the pipeline delivered. -/
theorem C76_picture (os : List (SOp σ)) : ∀ {s s' : SigSt σ}, Tuned s → SOp.runAll e os s = .ok s' → s'.surface = ((os.filterMap SOp.picture).getLast?).or s.surface := by
  induction os with
  | nil => intro s s' _ h; cases h; simp
  | cons o os ih =>
    intro s s' hs h
    obtain ⟨t, ht, h⟩ := Res.bind_eq_ok h
    have a := sig_step e hs ht
    rw [ih a.tuned h, a.surface]
    cases ho : o.picture with
    | none => simp [ho]
    | some p =>
      simp only [List.filterMap_cons, ho, List.getLast?_cons]
      cases h2 : (List.filterMap SOp.picture os).getLast? <;> simp

/-! ## The sound of the document -/

theorem sigLoop_cons {k : String} {todo keys : List String} {s s' : SigSt σ} (h : startLoop (sigSet e) (·.base.media) (k :: todo) keys s = .ok s') :
    (k ∈ keys ∧ ∃ t, sigSet e k (s.base.media k) s = .ok t ∧ startLoop (sigSet e) (·.base.media) todo (addedKeys k ++ keys) t = .ok s') ∨
    (k ∉ keys ∧ startLoop (sigSet e) (·.base.media) todo keys s = .ok s') := by
  unfold startLoop at h
  split at h
  · next hk =>
    obtain ⟨t, ht, h⟩ := Res.bind_eq_ok h
    exact .inl ⟨hk, t, ht, h⟩
  · next hk => exact .inr ⟨hk, h⟩

/-- The sound that a part of the loop gives. -/
def toneLoop (F : FP) (media : Store) (given : List String) (t : Tone) : Tone :=
  { freq := if "freq" ∈ given then amount F "440" (media "freq") else t.freq
    wave := if "wave" ∈ given then (waveOf (orDef "sine" (media "wave"))).getD t.wave else t.wave
    volume := if "volume" ∈ given then amount F "100%" (media "volume") else if "soundLevel" ∈ given then amount F "100%" (media "soundLevel") else t.volume }

/-- What the loop does not change. -/
structure SQuiet (s s' : SigSt σ) : Prop where
  st : s'.st = s.st
  eos : s'.eos = s.eos
  gone : s'.gone = s.gone
  surface : s'.surface = s.surface
  states : s'.states = s.states

theorem sig_loop {media : Store} (todo : List String) : ∀ {keys : List String} {s s' : SigSt σ}, todo.Pairwise (· < ·) → (∀ k, k ∉ geoNames → s.base.media k = media k) →
    startLoop (sigSet e) (·.base.media) todo keys s = .ok s' → s'.tone = toneLoop e.F media (todo.filter (· ∈ keys)) s.tone ∧ SQuiet s s' := by
  induction todo with
  | nil => intro keys s s' _ _ h; cases h; exact ⟨rfl, rfl, rfl, rfl, rfl, rfl⟩
  | cons k todo ih =>
    intro keys s s' hp hm h
    have hp' := List.pairwise_cons.1 hp
    rcases sigLoop_cons e h with ⟨hin, t, ht, h⟩ | ⟨hout, h⟩
    · have a := sigSet_frame e ht
      have hm' : ∀ k, k ∉ geoNames → t.base.media k = media k := fun j hj => (set_media e 4 hj a.base).trans (hm j hj)
      obtain ⟨h1, h2⟩ := ih hp'.2 hm' h
      refine ⟨?_, h2.st.trans a.st, h2.eos.trans a.eos, h2.gone.trans a.gone, h2.surface.trans a.surface, h2.states.trans a.states⟩
      rw [h1, a.tone]
      have hnot : ∀ j, ¬ (k < j) → j ∉ todo := fun j hj hh => hj (hp'.1 j hh)
      have hmem : ∀ j, j ∉ geoNames → (j ∈ todo.filter (· ∈ addedKeys k ++ keys) ↔ j ∈ todo.filter (· ∈ keys)) := by
        intro j hj
        simp only [List.mem_filter, decide_eq_true_eq, List.mem_append]
        exact ⟨fun hh => ⟨hh.1, hh.2.resolve_left (fun h => hj (addedKeys_geo h))⟩, fun hh => ⟨hh.1, .inr hh.2⟩⟩
      have g1 : "freq" ∉ geoNames := by decide
      have g2 : "wave" ∉ geoNames := by decide
      have g3 : "volume" ∉ geoNames := by decide
      have g4 : "soundLevel" ∉ geoNames := by decide
      have hnf : ∀ j, j ∉ todo → j ∉ todo.filter (· ∈ keys) := fun j hj hh => hj (List.mem_filter.1 hh).1
      rw [List.filter_cons_of_pos (by simpa using hin)]
      unfold toneLoop toneSet
      simp only [Tone.mk.injEq]
      simp only [hmem _ g1, hmem _ g2, hmem _ g3, hmem _ g4, List.mem_cons, List.not_mem_nil, or_false]
      refine ⟨?_, ?_, ?_⟩
      · by_cases hk : k = "freq"
        · subst hk
          rw [if_neg (hnf _ (hnot _ (String.lt_irrefl _))), if_pos rfl, if_pos (.inl rfl), hm _ g1]
        · rw [if_neg hk]
          have : (("freq" = k ∨ "freq" ∈ todo.filter (· ∈ keys)) ↔ "freq" ∈ todo.filter (· ∈ keys)) := ⟨fun h => h.resolve_left (fun h => hk h.symm), .inr⟩
          simp only [this]
      · by_cases hk : k = "wave"
        · subst hk
          rw [if_neg (hnf _ (hnot _ (String.lt_irrefl _))), if_pos rfl, if_pos (.inl rfl), hm _ g2]
        · rw [if_neg hk]
          have : (("wave" = k ∨ "wave" ∈ todo.filter (· ∈ keys)) ↔ "wave" ∈ todo.filter (· ∈ keys)) := ⟨fun h => h.resolve_left (fun h => hk h.symm), .inr⟩
          simp only [this]
      · by_cases hk : k = "volume"
        · subst hk
          rw [if_neg (hnf _ (hnot _ (String.lt_irrefl _))), if_neg (hnf _ (hnot _ (by decide))), if_pos (.inl rfl), if_pos (.inl rfl), hm _ g3]
        · have h3 : (("volume" = k ∨ "volume" ∈ todo.filter (· ∈ keys)) ↔ "volume" ∈ todo.filter (· ∈ keys)) := ⟨fun h => h.resolve_left (fun h => hk h.symm), .inr⟩
          simp only [h3]
          by_cases hk' : k = "soundLevel"
          · subst hk'
            by_cases hv : "volume" ∈ todo.filter (· ∈ keys)
            · rw [if_pos hv, if_pos hv]
            · rw [if_neg hv, if_neg hv, if_neg (hnf "soundLevel" (hnot _ (String.lt_irrefl _))), if_pos (.inr rfl), if_pos (.inl rfl), hm _ g4]
          · have h4 : (("soundLevel" = k ∨ "soundLevel" ∈ todo.filter (· ∈ keys)) ↔ "soundLevel" ∈ todo.filter (· ∈ keys)) := ⟨fun h => h.resolve_left (fun h => hk' h.symm), .inr⟩
            simp only [h4]
            rw [if_neg (c := k = "volume" ∨ k = "soundLevel") (by rintro (h | h); exact hk h; exact hk' h)]
    · rw [List.filter_cons_of_neg (by simpa using hout)]
      exact ih hp'.2 hm h

/-- **C76** (document): when a signal generator is about to start, its sound is the one that the document says: the frequency (440 Hz by default), the wave (a sine by default and for a name
that is not known) and the volume (full by default; `volume` before `soundLevel`); whatever its memory contained and whatever else the document says. -/
theorem C76_document {W H : Int} {keys : List String} {media : Store} {p0 : PProp} {t0 src0 : Tone} {s : SigSt σ} (hk : media.Has keys)
    (h : startSigGen e W H keys media p0 t0 src0 = .ok s) : s.tone = toneOf e.F keys media ∧ Tuned s ∧ s.st = .sleeping ∧ s.gone = false ∧ s.states = [] ∧ s.surface = none := by
  unfold startSigGen newSigGen at h
  obtain ⟨u, hu, h⟩ := Res.bind_eq_ok h
  obtain ⟨b, hb, hu⟩ := Res.bind_eq_ok hu
  obtain ⟨s1, h1, hu⟩ := Res.bind_eq_ok hu
  obtain ⟨s2, h2, h3⟩ := Res.bind_eq_ok hu
  have a1 := sigSet_frame e h1
  have a2 := sigSet_frame e h2
  have a3 := sigSet_frame e h3
  have hsort : (startOrder (startKeys keys)).Pairwise (· < ·) := mapKeys_sorted _
  obtain ⟨ht, hq⟩ := sig_loop e (media := startStore media) (startOrder (startKeys keys)) hsort (fun _ _ => rfl) h
  have hut : u.tone = { freq := amount e.F "440" [], wave := 0, volume := amount e.F "100%" [] } := by
    rw [a3.tone, a2.tone, a1.tone]
    have hw : waveOf (orDef "sine" []) = some 0 := by decide
    unfold toneSet
    simp [hw]
  have hst : u.st = .sleeping := by rw [a3.st, a2.st, a1.st]
  have heos : u.eos = false := by rw [a3.eos, a2.eos, a1.eos]
  have hgone : u.gone = false := by rw [a3.gone, a2.gone, a1.gone]
  have hmem : ∀ j, j ≠ "uri" → j ≠ "type" → j ∉ four → (j ∈ (startOrder (startKeys keys)).filter (· ∈ startKeys keys) ↔ j ∈ keys) := by
    intro j h1 h2 h3
    simp only [List.mem_filter, decide_eq_true_eq, startOrder, mem_mapKeys, startKeys, List.mem_append, List.mem_cons, h1, h2, false_or]
    exact ⟨fun h => h.2, fun h => ⟨.inr h, h⟩⟩
  have m1 := hmem "freq" (by decide) (by decide) (by decide)
  have m2 := hmem "wave" (by decide) (by decide) (by decide)
  have m3 := hmem "volume" (by decide) (by decide) (by decide)
  have m4 := hmem "soundLevel" (by decide) (by decide) (by decide)
  have hss : ∀ j, j ≠ "type" → startStore media j = media j := fun j hj => upd_ne _ _ hj
  refine ⟨?_, ⟨fun hh => absurd (hq.st.trans hst) hh, fun hh => hq.st.trans hst, hq.eos.trans heos⟩, hq.st.trans hst, hq.gone.trans hgone, ?_, ?_⟩
  · rw [ht]
    show toneLoop e.F _ _ u.tone = _
    rw [hut]
    unfold toneLoop toneOf
    simp only [Tone.mk.injEq]
    simp only [m1, m2, m3, m4, hss "freq" (by decide), hss "wave" (by decide), hss "volume" (by decide), hss "soundLevel" (by decide)]
    refine ⟨?_, ?_, ?_⟩
    · by_cases h : "freq" ∈ keys
      · rw [if_pos h]
      · rw [if_neg h, hk _ h]
    · by_cases h : "wave" ∈ keys
      · rw [if_pos h]
      · rw [if_neg h, hk _ h]; decide
    · by_cases h : "volume" ∈ keys
      · rw [if_pos h, if_pos h]
      · rw [if_neg h, if_neg h]
        by_cases h' : "soundLevel" ∈ keys
        · rw [if_pos h']
        · rw [if_neg h', hk _ h']
  · rw [hq.states]; show u.states = _; rw [a3.states, a2.states, a1.states]
  · rw [hq.surface]; show u.surface = _; rw [a3.surface, a2.surface, a1.surface]

/-- The names of the waves, in the order of their codes: the name and the code go together for these names, and for no other text. -/
theorem C76_waves (v : Str) (n : Nat) : waveOf v = some n ↔ n < 13 ∧ (["sine", "square", "saw", "triangle", "silence", "white-noise", "pink-noise", "sine-table", "ticks",
    "gaussian-noise", "red-noise", "blue-noise", "violet-noise"][n]?).map String.toList = some v := by
  constructor
  · intro h
    unfold waveOf at h
    cases hf : waveTable.find? (fun p => p.1.toList == v) with
    | none => rw [hf] at h; cases h
    | some p =>
      rw [hf] at h
      have hm := List.mem_of_find?_eq_some hf
      have hv := List.find?_some hf
      simp only [beq_iff_eq] at hv
      cases h
      subst hv
      have key : ∀ p ∈ waveTable, p.2 < 13 ∧ (["sine", "square", "saw", "triangle", "silence", "white-noise", "pink-noise", "sine-table", "ticks",
        "gaussian-noise", "red-noise", "blue-noise", "violet-noise"][p.2]?).map String.toList = some p.1.toList := by decide
      exact key p hm
  · rintro ⟨hn, h⟩
    have key : ∀ k < 13, (((["sine", "square", "saw", "triangle", "silence", "white-noise", "pink-noise", "sine-table", "ticks",
        "gaussian-noise", "red-noise", "blue-noise", "violet-noise"][k]?).map String.toList).bind waveOf) = some k := by decide
    have := key n hn
    rw [h] at this
    exact this

/-- **C76** (sound): while a signal generator is presented or paused, after whatever has happened to it, its source of sound has been told the frequency and the volume that were set last and
the wave that was set last by a name that is known, and what the document says of those that were not set. -/
theorem C76_sound {W H : Int} {keys : List String} {media : Store} {p0 : PProp} {t0 src0 : Tone} {s s' : SigSt σ} (hk : media.Has keys)
    (h : startSigGen e W H keys media p0 t0 src0 = .ok s) {os : List (SOp σ)} (h' : SOp.runAll e os s = .ok s') (hst : s'.st ≠ .sleeping) :
    s'.src = toneAfter e.F os (toneOf e.F keys media) := by
  obtain ⟨h1, h2, -, h4, -⟩ := C76_document e hk h
  obtain ⟨ht, hg⟩ := sig_gone e os h2 h'
  have hn : os.any SOp.stops = false := by
    cases hb : os.any SOp.stops with
    | false => rfl
    | true => rw [hb, Bool.or_true] at hg; exact absurd (ht.gone hg) hst
  rw [ht.src hst, sig_tone e os h2 hn h', h1]

/-- **C76** (the rest): every other property is set as any player does. -/
theorem C76_rest {n : String} {v : Str} {s s' : SigSt σ} (h : (SOp.set n v).run e s = .ok s') :
    playerSet e 4 n v { s.base with media := upd s.base.media n v } = .ok s'.base := (sigSet_frame e h).base

/-! ## What is not so -/

/-- **C76** (no end): a signal generator never reports that it has ended, not even if its pipeline could not be started. -/
theorem C76_fails_end {s s' : SigSt σ} (hs : Tuned s) {os : List (SOp σ)} (h : SOp.runAll e os s = .ok s') : s'.eos = false := (sig_gone e os hs h).1.eos

/-- A pipeline that could not be started is not distinguished from one that was. -/
theorem C76_fails_start {s : SigSt σ} : (SOp.start false).run e s = (SOp.start true).run e s := by
  simp only [SOp.run]
  split
  · rfl
  · split
    · rfl
    · rfl

/-- **C76** (an error of the pipeline ends the process). -/
theorem C76_fails_error (os : List (SOp σ)) (hos : SOp.message .error ∈ os) : ∀ s s' : SigSt σ, SOp.runAll e os s ≠ .ok s' := by
  induction os with
  | nil => cases hos
  | cons o os ih =>
    intro s s' h
    obtain ⟨t, ht, h⟩ := Res.bind_eq_ok h
    rcases List.mem_cons.1 hos with rfl | hos
    · cases ht
    · exact ih hos t s' h

/-! ## Cases -/

/-- A signal generator with the given properties, and what then happened to it. -/
def sigRun (l : List (String × String)) (os : List (SOp Nat)) : Res (SigSt Nat) :=
  (startSigGen penv0 100 200 (keysOfList l) (storeOf l) (initProp penv0 0 0 (0, 0, 0, 0)) ⟨7, 70, 7⟩ ⟨440, 0, 1⟩).bind (SOp.runAll penv0 os)

def sigSeen (r : Res (SigSt Nat)) : Option (Tone × EState × Bool × Option Nat × List GState) := match r with | .ok s => some (s.src, s.st, s.eos, s.surface, s.states) | _ => none

/-- A document gives the frequency and half the volume; then the wave is set, to a name that is not known, and the volume. -/
example : sigSeen (sigRun [("type", "application/x-ginga-siggen"), ("freq", "880"), ("soundLevel", "50%")]
      [.start true, .frame (some 1), .set "wave" "saw".toList, .pause true, .set "wave" "noise".toList, .set "volume" "25%".toList, .resume true]) =
    some (⟨880, 2, 1 / 4⟩, .occurring, false, some 1, [.playing, .paused, .playing]) := by decide +kernel

example : (storeOf [("type", "application/x-ginga-siggen"), ("freq", "880"), ("soundLevel", "50%")]).Has (keysOfList [("type", "application/x-ginga-siggen"), ("freq", "880"), ("soundLevel", "50%")]) :=
  storeOf_has _

example : toneAfter exactFP ([.set "freq" "220".toList, .set "wave" "x".toList, .set "freq" [], .set "wave" "ticks".toList] : List (SOp Nat)) ⟨1, 2, 3⟩ = ⟨440, 8, 3⟩ := by decide +kernel

end Ginga
