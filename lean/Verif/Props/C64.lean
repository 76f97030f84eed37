import Verif.Props.C63
/-!
# C64–C66: the files, the clock, the size option and the exit status of the command `ginga`
-/
namespace Ginga

/-! ## C64: the files of the command line are played one after the other -/

/-- The calls that begin and end presentations. -/
def sessionsOf (ops : List Op) : List Op := ops.filter fun o => match o with | .start _ => true | .stop => true | _ => false

/-- What the calls for one file must be: it is opened, and if it is a document it is stopped before the next file. -/
def session (E : GEnv) (file : String) : List Op :=
  match E.open_ file with
  | none => [.start none]
  | some d => [.start (some d), .stop]

theorem sessionsOf_append (a b : List Op) : sessionsOf (a ++ b) = sessionsOf a ++ sessionsOf b := List.filter_append ..

theorem onInput_sessions {n : Nat} {E : GEnv} {i : In} {s s' : Shell} {q : Bool} (h : onInput n E s i = .ok (s', q)) :
    sessionsOf s'.calls = sessionsOf s.calls := by
  cases i with
  | key press k =>
    rw [(onKey_did (n := n) (E := E) h).1.calls, sessionsOf_append]
    simp only [keyCall]
    cases remoteKey E k <;> simp [sessionsOf]
  | frame t c =>
    obtain ⟨h1, h2⟩ := onFrame_did (n := n) h
    cases ht : s.ticking with
    | false => rw [(h1 ht).1]
    | true =>
      obtain ⟨⟨a, b, -, h3, -⟩, -⟩ := h2 ht
      rw [h3.calls, sessionsOf_append]; simp [sessionsOf]
  | configure w hh => rw [(onConfigure_did (n := n) h).1.calls, sessionsOf_append]; simp [sessionsOf]

theorem mainLoop_keeps {n : Nat} {E : GEnv} (P : Shell → Prop) (hP : ∀ {s s' i q}, P s → onInput n E s i = .ok (s', q) → P s') (ins : List In) :
    ∀ {s s' : Shell} {r : Option (List In)}, P s → mainLoop n E ins s = .ok (s', r) → P s' := by
  induction ins with
  | nil =>
    intro s s' r hs h
    simp only [mainLoop, Res.ok.injEq, Prod.mk.injEq] at h
    rw [← h.1]; exact hs
  | cons i l ih =>
    intro s s' r hs h
    simp only [mainLoop] at h
    cases hi : onInput n E s i with
    | abort => rw [hi] at h; cases h
    | ub => rw [hi] at h; cases h
    | fuel => rw [hi] at h; cases h
    | ok p =>
      rw [hi] at h
      simp only [Res.bind] at h
      have h1 := hP hs hi
      cases hq : p.2 with
      | true =>
        rw [hq] at h
        simp only [if_true, Res.ok.injEq, Prod.mk.injEq] at h
        rw [← h.1]; exact h1
      | false =>
        rw [hq] at h
        simp only [if_false, Bool.false_eq_true] at h
        exact ih h1 h

/-- The library of a shell has been reached through calls; only documents that the environment opens were started. -/
def Shell.Sane (n : Nat) (E : GEnv) (s : Shell) : Prop :=
  ∃ focus w h, s.Follows n (Fmt.new focus w h) ∧ ∀ d, Op.start (some d) ∈ s.calls → ∃ file, E.open_ file = some d

theorem Shell.Sane.reachable {n : Nat} {E : GEnv} (hE : ∀ file d, E.open_ file = some d → DocWF d) {s : Shell} (h : s.Sane n E) : Reachable s.fmt := by
  obtain ⟨focus, w, hh, ⟨bs, he⟩, hc⟩ := h
  exact ⟨n, focus, w, hh, s.calls, bs, fun d hd => (hc d hd).elim (hE · d), he⟩

theorem Did.sane {n : Nat} {E : GEnv} {s s' : Shell} {ops : List Op} (h : Did n s s' ops) (hops : ∀ d, Op.start (some d) ∈ ops → ∃ file, E.open_ file = some d)
    (hs : s.Sane n E) : s'.Sane n E := by
  obtain ⟨focus, w, hh, hf, hc⟩ := hs
  refine ⟨focus, w, hh, h.follows hf, fun d hd => ?_⟩
  rw [h.calls, List.mem_append] at hd
  exact hd.elim (hc d) (hops d)

theorem onInput_sane {n : Nat} {E : GEnv} {i : In} {s s' : Shell} {q : Bool} (hs : s.Sane n E) (h : onInput n E s i = .ok (s', q)) : s'.Sane n E := by
  obtain ⟨ops, hd, hno, -⟩ := onInput_did h
  exact hd.sane (fun d hm => absurd hm (hno _)) hs

/-- The property that holds: if every document of the command line is well formed and the program comes to its end, then each file was opened in turn, each
presentation was ended before the next file was opened, and the files that could not be opened were counted. -/
theorem C64_order_partial {n : Nat} {E : GEnv} (hE : ∀ file d, E.open_ file = some d → DocWF d) (files : List String) :
    ∀ {ins : List In} {fails fails' : Nat} {s s' : Shell}, s.Sane n E → s.fmt.playing = false →
      playFiles n E files ins fails s = .ok (s', fails', true) →
      sessionsOf s'.calls = sessionsOf s.calls ++ files.flatMap (session E) ∧
      fails' = fails + (files.filter fun f => (E.open_ f).isNone).length ∧ s'.fmt.playing = false ∧ s'.Sane n E := by
  induction files with
  | nil =>
    intro ins fails fails' s s' hs hp h
    simp only [playFiles, Res.ok.injEq, Prod.mk.injEq] at h
    obtain ⟨rfl, rfl, -⟩ := h
    exact ⟨by simp, by simp, hp, hs⟩
  | cons file files ih =>
    intro ins fails fails' s s' hs hp h
    simp only [playFiles] at h
    cases hst : fmtStart n s.fmt (E.open_ file) with
    | abort => rw [hst] at h; cases h
    | ub => rw [hst] at h; cases h
    | fuel => rw [hst] at h; cases h
    | ok p =>
      obtain ⟨b, f⟩ := p
      rw [hst] at h
      simp only [Res.bind] at h
      have hex : exec n s.fmt (.start (E.open_ file)) = .ok (b, f) := hst
      have hc := C08_start (hs.reachable hE) n (E.open_ file) (fun d hd => hE _ d hd) b f hex
      let s1 : Shell := { s with fmt := f, calls := s.calls ++ [Op.start (E.open_ file)] }
      have hd1 : Did n s s1 [Op.start (E.open_ file)] := .call hex rfl
      have hs1 : s1.Sane n E := hd1.sane (fun d hm => by
        simp only [List.mem_singleton, Op.start.injEq] at hm
        exact ⟨file, hm.symm⟩) hs
      have hse : sessionsOf s1.calls = sessionsOf s.calls ++ [Op.start (E.open_ file)] := by
        show sessionsOf (s.calls ++ _) = _
        rw [sessionsOf_append]; simp [sessionsOf]
      cases b with
      | false =>
        obtain ⟨h1, -, h2⟩ := hc.2.2 hp rfl
        simp only [Bool.not_false, if_true] at h
        obtain ⟨ha, hb, hc', hd'⟩ := ih (s := s1) hs1 h1 h
        have hn : E.open_ file = none := h2
        refine ⟨?_, ?_, hc', hd'⟩
        · rw [ha, hse, List.flatMap_cons, List.append_assoc]
          simp only [session, hn]
        · rw [hb, List.filter_cons_of_pos (by rw [hn]; rfl), List.length_cons]; omega
      | true =>
        obtain ⟨-, -, hdoc, hsome⟩ := hc.1 rfl
        simp only [Bool.not_true, Bool.false_eq_true, if_false] at h
        cases hm : mainLoop n E ins s1 with
        | abort => rw [hm] at h; cases h
        | ub => rw [hm] at h; cases h
        | fuel => rw [hm] at h; cases h
        | ok q =>
          obtain ⟨s2, r⟩ := q
          rw [hm] at h
          simp only at h
          cases r with
          | none => simp at h
          | some rest =>
            simp only at h
            have hs2 : s2.Sane n E := mainLoop_keeps (fun s => s.Sane n E) (fun hs hi => onInput_sane hs hi) ins hs1 hm
            have hse2 : sessionsOf s2.calls = sessionsOf s1.calls :=
              mainLoop_keeps (fun s => sessionsOf s.calls = sessionsOf s1.calls) (fun hs hi => by rw [onInput_sessions hi]; exact hs) ins rfl hm
            cases hsp : fmtStop n s2.fmt with
            | abort => rw [hsp] at h; cases h
            | ub => rw [hsp] at h; cases h
            | fuel => rw [hsp] at h; cases h
            | ok r =>
              obtain ⟨b2, f3⟩ := r
              rw [hsp] at h
              simp only at h
              have hex3 : exec n s2.fmt .stop = .ok (b2, f3) := hsp
              have hc3 := C08_stop (hs2.reachable hE) n b2 f3 hex3
              let s3 : Shell := { s2 with fmt := f3, calls := s2.calls ++ [Op.stop] }
              have hd3 : Did n s2 s3 [Op.stop] := .call hex3 rfl
              have hs3 : s3.Sane n E := hd3.sane (fun d hm => by simp at hm) hs2
              obtain ⟨d, hd⟩ := Option.isSome_iff_exists.1 hsome
              obtain ⟨ha, hb, hc', hd'⟩ := ih (s := s3) hs3 (by exact hc3.2.1) h
              refine ⟨?_, ?_, hc', hd'⟩
              · rw [ha, show sessionsOf s3.calls = sessionsOf s2.calls ++ [Op.stop] by
                  show sessionsOf (s2.calls ++ _) = _
                  rw [sessionsOf_append]; simp [sessionsOf], hse2, hse, List.flatMap_cons]
                simp only [session, hd, List.append_assoc, List.cons_append, List.nil_append]
              · rw [hb, List.filter_cons_of_neg (by rw [hd]; simp)]

/-- The property is false: when a document comes to its end by itself (a frame ends the main loop), the program stops counting time ... -/
theorem C64_ended {n t c : Nat} {E : GEnv} {s s' : Shell} (h : onInput n E s (.frame t c) = .ok (s', true)) : s'.ticking = false := by
  obtain ⟨h1, h2⟩ := onFrame_did (n := n) h
  cases ht : s.ticking with
  | false => exact absurd (h1 ht).2 (by decide)
  | true => exact ((h2 ht).2 rfl).1

/-- ... no callback makes it count again ... -/
theorem C64_never_again {n : Nat} {E : GEnv} (ins : List In) {s s' : Shell} {r : Option (List In)} (hs : s.ticking = false)
    (h : mainLoop n E ins s = .ok (s', r)) : s'.ticking = false :=
  mainLoop_keeps (fun s => s.ticking = false) (fun hs hi => by obtain ⟨-, -, -, h⟩ := onInput_did hi; exact h hs) ins hs h

/-- ... and the next document is started but never gets to know of any time: however many frames go by, it stays as it was at its start and the
program does not come to its end. -/
theorem C64_fails_hang {n : Nat} {E : GEnv} {s : Shell} (hs : s.ticking = false) {file : String} {f : Fmt}
    (hf : fmtStart n s.fmt (E.open_ file) = .ok (true, f)) (files : List String) (frames : List (Nat × Nat)) (k : Nat) :
    playFiles n E (file :: files) (frames.map fun p => .frame p.1 p.2) k s =
      .ok ({ s with fmt := f, calls := s.calls ++ [.start (E.open_ file)] }, k, false) := by
  have key : ∀ (frames : List (Nat × Nat)) (s : Shell), s.ticking = false → mainLoop n E (frames.map fun p => .frame p.1 p.2) s = .ok (s, none) := by
    intro frames
    induction frames with
    | nil => intro s _; rfl
    | cons p l ih =>
      intro s hs
      simp only [List.map_cons, mainLoop, onInput, onFrame, hs, Bool.not_false, if_true, Res.bind, Bool.false_eq_true, if_false]
      exact ih s hs
  simp only [playFiles, hf, Res.bind, Bool.not_true, Bool.false_eq_true, if_false]
  rw [key frames { s with fmt := f, calls := s.calls ++ [Op.start (E.open_ file)] } hs]

/-- A run: the document of two media of two seconds and one is played to its end; it is opened a second time, and after an hour of frames nothing
has happened. -/
def twoFrames : List In := [.frame 0 0, .frame 2100000 1, .frame 2200000 2, .frame 3400000 3, .frame 3500000 4, .frame 3600000 5]

theorem C64_fails_twice :
    (match playFiles 60 genv0 ["two.ncl", "missing.ncl"] twoFrames 0 (Shell.start "" 800 600 false false) with
      | .ok (s, k, done) => decide (s.ticking = false) && k == 1 && done | _ => false) = true ∧
    (match playFiles 60 genv0 ["two.ncl", "two.ncl"] (twoFrames ++ [.frame 4000000 6, .frame 9000000 7, .frame 3600000000 8]) 0 (Shell.start "" 800 600 false false) with
      | .ok (s, k, done) => s.fmt.playing && !done && decide (s.fmt.st.time 0 = 0) && decide (s.fmt.st.est 2 = .sleeping) && k == 0 | _ => false) = true := by
  refine ⟨?_, ?_⟩ <;> decide +kernel

/-! Non-vacuity of `C64_order_partial`: a run that comes to its end, with a file that is not there. -/
example : (match playFiles 60 genv0 ["missing.ncl", "two.ncl", "missing.ncl"] twoFrames 0 (Shell.start "" 800 600 false false) with
      | .ok (s, k, done) => k == 2 && done && (sessionsOf s.calls).length == 4 | _ => false) = true := by decide +kernel

theorem Shell.start_sane (n : Nat) (E : GEnv) (focus : String) (w h : Int) (a b : Bool) : (Shell.start focus w h a b).Sane n E :=
  ⟨focus, w, h, ⟨[], rfl⟩, fun d hd => by cases hd⟩

/-! ## How a document comes to its end, and what the keys of the program do -/

/-- The user quits. -/
def isQuit : In → Bool
  | .key true .escape => true
  | _ => false

theorem onInput_quit {n : Nat} {E : GEnv} {i : In} {s s' : Shell} {q : Bool} (h : onInput n E s i = .ok (s', q)) :
    (isQuit i = true → q = true) ∧ (q = true → isQuit i = true ∨ s'.fmt.playing = false) := by
  cases i with
  | key press k =>
    by_cases hk : k = .escape
    · subst hk
      simp only [onInput, onKey, Res.ok.injEq, Prod.mk.injEq] at h
      obtain ⟨rfl, rfl⟩ := h
      cases press <;> simp [isQuit]
    · refine ⟨fun hq => ?_, fun hq => .inr ((onKey_did (n := n) (E := E) h).2.2.2.2 hq hk)⟩
      cases press <;> cases k <;> simp [isQuit] at hq hk
  | frame t c =>
    refine ⟨fun hq => by simp [isQuit] at hq, fun hq => ?_⟩
    obtain ⟨h1, h2⟩ := onFrame_did (n := n) h
    cases ht : s.ticking with
    | false => rw [(h1 ht).2] at hq; cases hq
    | true => exact .inr ((h2 ht).2 hq).2
  | configure w hh =>
    refine ⟨fun hq => by simp [isQuit] at hq, fun hq => ?_⟩
    rw [(onConfigure_did (n := n) h).2.2.2.2] at hq; cases hq

/-- A document is played until the user quits or it has ended, not longer and not shorter: the main loop goes on over all callbacks but an Escape key that goes down,
and it ends only with that or when the presentation is over. -/
theorem C64_until {n : Nat} {E : GEnv} (ins : List In) : ∀ {s s' : Shell} {r : Option (List In)}, mainLoop n E ins s = .ok (s', r) →
    match r with
    | none => ∀ i ∈ ins, isQuit i = false
    | some rest => ∃ before last, ins = before ++ last :: rest ∧ (∀ i ∈ before, isQuit i = false) ∧ (isQuit last = true ∨ s'.fmt.playing = false) := by
  induction ins with
  | nil =>
    intro s s' r h
    simp only [mainLoop, Res.ok.injEq, Prod.mk.injEq] at h
    obtain ⟨rfl, rfl⟩ := h
    intro i hi; cases hi
  | cons i l ih =>
    intro s s' r h
    simp only [mainLoop] at h
    cases hi : onInput n E s i with
    | abort => rw [hi] at h; cases h
    | ub => rw [hi] at h; cases h
    | fuel => rw [hi] at h; cases h
    | ok p =>
      rw [hi] at h
      obtain ⟨s1, q⟩ := p
      simp only [Res.bind] at h
      obtain ⟨h1, h2⟩ := onInput_quit hi
      cases q with
      | true =>
        simp only [if_true, Res.ok.injEq, Prod.mk.injEq] at h
        obtain ⟨rfl, rfl⟩ := h
        exact ⟨[], i, rfl, (fun i hi => by cases hi), h2 rfl⟩
      | false =>
        simp only [if_false, Bool.false_eq_true] at h
        have hn : isQuit i = false := by
          cases hq : isQuit i with
          | false => rfl
          | true => exact absurd (h1 hq) (by decide)
        have := ih h
        cases r with
        | none =>
          intro j hj
          cases hj with
          | head => exact hn
          | tail _ hj => exact this j hj
        | some rest =>
          obtain ⟨before, last, he, hb, hl⟩ := this
          refine ⟨i :: before, last, by rw [he]; rfl, fun j hj => ?_, hl⟩
          cases hj with
          | head => exact hn
          | tail _ hj => exact hb j hj

/-- The number of times a key went down. -/
def presses (k : KeySym) (ins : List In) : Nat := (ins.filter fun i => match i with | .key true k' => decide (k' = k) | _ => false).length

/-- The last size that the window was given, if it was given one. -/
def lastSize (z : Int × Int) (ins : List In) : Int × Int := ins.foldl (fun z i => match i with | .configure w h => (w, h) | _ => z) z

/-- A switch after being pressed so many times. -/
def toggled (b : Bool) (k : Nat) : Bool := if k % 2 = 0 then b else !b

theorem toggled_succ (b : Bool) (k : Nat) : toggled (!b) k = toggled b (k + 1) := by
  unfold toggled
  rcases Nat.mod_two_eq_zero_or_one k with h | h
  · rw [if_pos h, if_neg (by omega)]
  · rw [if_neg (by omega), if_pos (by omega), Bool.not_not]

theorem onInput_settings {n : Nat} {E : GEnv} {i : In} {s s' : Shell} {q : Bool} (h : onInput n E s i = .ok (s', q)) :
    s'.debug = toggled s.debug (presses .f10 [i]) ∧ s'.full = toggled s.full (presses .f11 [i]) ∧
      (s'.width, s'.height) = lastSize (s.width, s.height) [i] := by
  cases i with
  | key press k =>
    have key : ∀ k key, (fmtKey n s.fmt key (pressArg press)).bind (fun p =>
        if p.1 then Res.ok ({ s with fmt := p.2, calls := s.calls ++ [Op.sendKey key (pressArg press)] }, false)
        else if p.2.playing then .abort
        else .ok ({ s with fmt := p.2, calls := s.calls ++ [Op.sendKey key (pressArg press)] }, true)) = .ok (s', q) → k ≠ .f10 → k ≠ .f11 →
        s'.debug = toggled s.debug (presses .f10 [.key press k]) ∧ s'.full = toggled s.full (presses .f11 [.key press k]) ∧
        (s'.width, s'.height) = lastSize (s.width, s.height) [.key press k] := by
      intro k key h h10 h11
      have hd : s'.debug = s.debug ∧ s'.full = s.full ∧ s'.width = s.width ∧ s'.height = s.height := by
        cases hk : fmtKey n s.fmt key (pressArg press) with
        | ok p =>
          rw [hk] at h
          simp only [Res.bind] at h
          split at h
          · simp only [Res.ok.injEq, Prod.mk.injEq] at h; rw [← h.1]; exact ⟨rfl, rfl, rfl, rfl⟩
          · split at h
            · cases h
            · simp only [Res.ok.injEq, Prod.mk.injEq] at h; rw [← h.1]; exact ⟨rfl, rfl, rfl, rfl⟩
        | abort => rw [hk] at h; cases h
        | ub => rw [hk] at h; cases h
        | fuel => rw [hk] at h; cases h
      have h0 : ∀ j, j ≠ k → presses j [.key press k] = 0 := by
        intro j hj
        cases press <;> simp [presses, Ne.symm hj]
      rw [h0 _ (Ne.symm h10), h0 _ (Ne.symm h11), hd.1, hd.2.1, hd.2.2.1, hd.2.2.2]
      exact ⟨rfl, rfl, rfl⟩
    cases k with
    | escape =>
      simp only [onInput, onKey, Res.ok.injEq, Prod.mk.injEq] at h
      obtain ⟨rfl, rfl⟩ := h
      cases press <;> exact ⟨rfl, rfl, rfl⟩
    | f10 =>
      simp only [onInput, onKey, Res.ok.injEq, Prod.mk.injEq] at h
      obtain ⟨rfl, rfl⟩ := h
      cases press <;> exact ⟨rfl, rfl, rfl⟩
    | f11 =>
      simp only [onInput, onKey, Res.ok.injEq, Prod.mk.injEq] at h
      obtain ⟨rfl, rfl⟩ := h
      cases press <;> exact ⟨rfl, rfl, rfl⟩
    | other v =>
      simp only [onInput, onKey, keyText] at h
      cases hn : E.keyName v with
      | none => rw [hn] at h; cases h
      | some t => rw [hn] at h; exact key (.other v) _ h (by simp) (by simp)
    | _ => exact key _ _ h (by simp) (by simp)
  | frame t c =>
    simp only [onInput, onFrame] at h
    have hd : s'.debug = s.debug ∧ s'.full = s.full ∧ s'.width = s.width ∧ s'.height = s.height := by
      split at h
      · simp only [Res.ok.injEq, Prod.mk.injEq] at h; rw [← h.1]; exact ⟨rfl, rfl, rfl, rfl⟩
      · generalize hs1 : (if c = 0 then { s with first := t * 1000 % 2 ^ 64, last := t * 1000 % 2 ^ 64 } else s) = s1 at h
        have hf : s1.debug = s.debug ∧ s1.full = s.full ∧ s1.width = s.width ∧ s1.height = s.height := by
          rw [← hs1]; split <;> exact ⟨rfl, rfl, rfl, rfl⟩
        cases hk : fmtTick n s1.fmt (tsub (t * 1000 % 2 ^ 64) s1.first) (tsub (t * 1000 % 2 ^ 64) s1.last) c with
        | ok p =>
          rw [hk] at h
          simp only [Res.bind] at h
          split at h
          · simp only [Res.ok.injEq, Prod.mk.injEq] at h; rw [← h.1]; exact hf
          · split at h
            · cases h
            · simp only [Res.ok.injEq, Prod.mk.injEq] at h; rw [← h.1]; exact hf
        | abort => rw [hk] at h; cases h
        | ub => rw [hk] at h; cases h
        | fuel => rw [hk] at h; cases h
    exact ⟨hd.1, hd.2.1, by rw [hd.2.2.1, hd.2.2.2]; rfl⟩
  | configure w hh =>
    simp only [onInput, onConfigure] at h
    cases hk : fmtResize s.fmt w hh with
    | ok f =>
      rw [hk] at h
      simp only [Res.bind, Res.ok.injEq, Prod.mk.injEq] at h
      obtain ⟨rfl, rfl⟩ := h
      exact ⟨rfl, rfl, rfl⟩
    | abort => rw [hk] at h; cases h
    | ub => rw [hk] at h; cases h
    | fuel => rw [hk] at h; cases h

/-- Whatever callbacks happen: debugging is on or off according to how often F10 was pressed, full-screen according to F11, and the program has the last size that
its window was given. -/
theorem C64_settings {n : Nat} {E : GEnv} (ins : List In) : ∀ {s s' : Shell} {r : Option (List In)}, mainLoop n E ins s = .ok (s', r) →
    ∃ done, ins = done ++ r.getD [] ∧ s'.debug = toggled s.debug (presses .f10 done) ∧ s'.full = toggled s.full (presses .f11 done) ∧
      (s'.width, s'.height) = lastSize (s.width, s.height) done := by
  induction ins with
  | nil =>
    intro s s' r h
    simp only [mainLoop, Res.ok.injEq, Prod.mk.injEq] at h
    obtain ⟨rfl, rfl⟩ := h
    exact ⟨[], rfl, rfl, rfl, rfl⟩
  | cons i l ih =>
    intro s s' r h
    simp only [mainLoop] at h
    cases hi : onInput n E s i with
    | abort => rw [hi] at h; cases h
    | ub => rw [hi] at h; cases h
    | fuel => rw [hi] at h; cases h
    | ok p =>
      rw [hi] at h
      obtain ⟨s1, q⟩ := p
      simp only [Res.bind] at h
      have h1 := onInput_settings hi
      have hcons : ∀ (b : Bool) (k : KeySym) (m : List In), toggled (toggled b (presses k [i])) (presses k m) = toggled b (presses k (i :: m)) := by
        intro b k m
        unfold presses
        generalize (fun i : In => match i with | .key true k' => decide (k' = k) | _ => false) = f
        rw [List.filter_cons, List.filter_cons, List.filter_nil]
        by_cases hf : f i = true
        · rw [if_pos hf, if_pos hf]
          show toggled (toggled b 1) _ = toggled b (_ + 1)
          rw [show toggled b 1 = !b from rfl, toggled_succ]
        · rw [if_neg hf, if_neg hf]; rfl
      cases q with
      | true =>
        simp only [if_true, Res.ok.injEq, Prod.mk.injEq] at h
        obtain ⟨rfl, rfl⟩ := h
        exact ⟨[i], rfl, h1⟩
      | false =>
        simp only [if_false, Bool.false_eq_true] at h
        obtain ⟨done, hd, ha, hb, hc⟩ := ih h
        refine ⟨i :: done, by simp [hd], ?_, ?_, ?_⟩
        · rw [ha, h1.1, hcons]
        · rw [hb, h1.2.1, hcons]
        · rw [hc, h1.2.2]; rfl

/-! Non-vacuity: a run that the user ends, with keys of the program and a new size. -/
example : (match mainLoop 60 genv0 [.key true .f10, .key false .f10, .configure 640 480, .key true .f11, .key true .f11, .key false .escape, .key true .escape, .key true .f10]
      (Shell.start "" 800 600 false false) with
    | .ok (s, some [_]) => s.debug && !s.full && s.width == 640 && s.height == 480 | _ => false) = true := by decide +kernel

/-! ## C65: the clock -/

/-- The ticks sent to the document. -/
def ticksOf (ops : List Op) : List (Nat × Nat × Nat) := ops.filterMap fun o => match o with | .sendTick a b c => some (a, b, c) | _ => none

/-- The frames among the callbacks. -/
def framesOf (ins : List In) : List (Nat × Nat) := ins.filterMap fun i => match i with | .frame t c => some (t, c) | _ => none

/-- The ticks for frames at the given times (in microseconds), the clock having started at `t0` and the previous frame having been at `prev`: the time since
the start, the time since the previous frame (in nanoseconds) and the number of the frame. -/
def clockTicks (t0 : Nat) : Nat → List (Nat × Nat) → List (Nat × Nat × Nat)
  | _, [] => []
  | prev, (t, c) :: l => (1000 * (t - t0), 1000 * (t - prev), c) :: clockTicks t0 t l

/-- Frame times do not decrease, are within 64 bits of nanoseconds, and only the first frame has number 0. -/
def Ascending : Nat → List (Nat × Nat) → Prop
  | _, [] => True
  | prev, (t, c) :: l => prev ≤ t ∧ 1000 * t < 2 ^ 64 ∧ c ≠ 0 ∧ Ascending t l

theorem ticksOf_append (a b : List Op) : ticksOf (a ++ b) = ticksOf a ++ ticksOf b := List.filterMap_append

theorem tsub_exact {a b : Nat} (h : b ≤ a) (ha : a < 2 ^ 64) : tsub a b = a - b := by
  unfold tsub
  rw [show 2 ^ 64 + a - b = (a - b) + 2 ^ 64 by omega, Nat.add_mod_right, Nat.mod_eq_of_lt (by omega)]

theorem framesOf_cons (i : In) (l : List In) : framesOf (i :: l) = framesOf [i] ++ framesOf l := by
  simp only [framesOf, show i :: l = [i] ++ l from rfl, List.filterMap_append]

theorem onInput_time {n : Nat} {E : GEnv} {i : In} {s s' : Shell} {q : Bool} (hi : onInput n E s i = .ok (s', q)) (hf : framesOf [i] = []) :
    ticksOf s'.calls = ticksOf s.calls ∧ s'.ticking = s.ticking ∧ s'.first = s.first ∧ s'.last = s.last := by
  cases i with
  | key press k =>
    obtain ⟨h1, h2, h3, h4, -⟩ := onKey_did (n := n) (E := E) hi
    refine ⟨?_, h2, h3, h4⟩
    rw [h1.calls, ticksOf_append]
    simp only [keyCall]
    cases remoteKey E k <;> simp [ticksOf]
  | frame t c => simp [framesOf] at hf
  | configure w hh =>
    obtain ⟨h1, h2, h3, h4, -⟩ := onConfigure_did (n := n) hi
    refine ⟨?_, h2, h3, h4⟩
    rw [h1.calls, ticksOf_append]; simp [ticksOf]

/-- After the first frame: whatever else happens in between, every frame is told to the document with the time since the first frame and the time
since the frame before. -/
theorem clock_run {n : Nat} {E : GEnv} {t0 : Nat} (ins : List In) : ∀ {s s' : Shell} {prev : Nat} {r : Option (List In)},
    s.ticking = true → s.first = 1000 * t0 → s.last = 1000 * prev → t0 ≤ prev → Ascending prev (framesOf ins) →
    mainLoop n E ins s = .ok (s', r) →
    ∃ done, ins = done ++ r.getD [] ∧ ticksOf s'.calls = ticksOf s.calls ++ clockTicks t0 prev (framesOf done) := by
  induction ins with
  | nil =>
    intro s s' prev r _ _ _ _ _ h
    simp only [mainLoop, Res.ok.injEq, Prod.mk.injEq] at h
    obtain ⟨rfl, rfl⟩ := h
    exact ⟨[], rfl, by simp [framesOf, clockTicks]⟩
  | cons i l ih =>
    intro s s' prev r ht hf hl h0 ha h
    simp only [mainLoop] at h
    cases hi : onInput n E s i with
    | abort => rw [hi] at h; cases h
    | ub => rw [hi] at h; cases h
    | fuel => rw [hi] at h; cases h
    | ok p =>
      rw [hi] at h
      obtain ⟨s1, q⟩ := p
      simp only [Res.bind] at h
      cases hfr : framesOf [i] with
      | nil =>
        obtain ⟨h1, h2, h3, h4⟩ := onInput_time hi hfr
        rw [framesOf_cons, hfr, List.nil_append] at ha
        cases q with
        | true =>
          simp only [if_true, Res.ok.injEq, Prod.mk.injEq] at h
          obtain ⟨rfl, rfl⟩ := h
          exact ⟨[i], rfl, by rw [hfr, h1]; simp [clockTicks]⟩
        | false =>
          simp only [if_false, Bool.false_eq_true] at h
          obtain ⟨done, hd, hk⟩ := ih (h2.trans ht) (h3.trans hf) (h4.trans hl) h0 ha h
          exact ⟨i :: done, by simp [hd], by rw [hk, h1, framesOf_cons, hfr, List.nil_append]⟩
      | cons x xs =>
        cases i with
        | key press k => simp [framesOf] at hfr
        | configure w hh => simp [framesOf] at hfr
        | frame t c =>
          rw [framesOf_cons] at ha
          obtain ⟨ha1, ha2, ha3, ha4⟩ : prev ≤ t ∧ 1000 * t < 2 ^ 64 ∧ c ≠ 0 ∧ Ascending t (framesOf l) := ha
          obtain ⟨⟨a, b, hab, hd, hfst, hlast⟩, -⟩ := (onFrame_did (n := n) hi).2 ht
          rw [if_neg ha3, Prod.mk.injEq] at hab
          obtain ⟨rfl, rfl⟩ := hab
          have hm : t * 1000 % 2 ^ 64 = 1000 * t := by rw [Nat.mul_comm]; exact Nat.mod_eq_of_lt ha2
          have h1 : ticksOf s1.calls = ticksOf s.calls ++ [(1000 * (t - t0), 1000 * (t - prev), c)] := by
            rw [hd.calls, ticksOf_append, hm, hf, hl, tsub_exact (by omega) ha2, tsub_exact (by omega) ha2]
            simp only [ticksOf, List.filterMap_cons, List.filterMap_nil, Nat.mul_sub]
          cases q with
          | true =>
            simp only [if_true, Res.ok.injEq, Prod.mk.injEq] at h
            obtain ⟨rfl, rfl⟩ := h
            exact ⟨[.frame t c], rfl, by rw [h1]; simp [clockTicks, framesOf]⟩
          | false =>
            simp only [if_false, Bool.false_eq_true] at h
            obtain ⟨hl1, ht1⟩ := hlast rfl
            obtain ⟨done, hd', hk⟩ := ih ht1 (hfst.trans hf) (hl1.trans hm) (by omega) ha4 h
            refine ⟨.frame t c :: done, by simp [hd'], ?_⟩
            rw [hk, h1, framesOf_cons]
            simp only [show framesOf [In.frame t c] = [(t, c)] from rfl, List.singleton_append, clockTicks, List.append_assoc]

/-- The property that holds: if the first frame of the window has number 0, then whatever else happens in between, every frame is told to the document with the
time since that first frame and the time since the frame before. -/
theorem C65_clock_partial {n : Nat} {E : GEnv} {t0 : Nat} (ins : List In) : ∀ {s s' : Shell} {r : Option (List In)} {l : List (Nat × Nat)},
    s.ticking = true → framesOf ins = (t0, 0) :: l → 1000 * t0 < 2 ^ 64 → Ascending t0 l →
    mainLoop n E ins s = .ok (s', r) →
    ∃ done, ins = done ++ r.getD [] ∧ ticksOf s'.calls = ticksOf s.calls ++ clockTicks t0 t0 (framesOf done) := by
  induction ins with
  | nil => intro s s' r l _ h; cases h
  | cons i ins ih =>
    intro s s' r l ht hfr h0 ha h
    simp only [mainLoop] at h
    cases hi : onInput n E s i with
    | abort => rw [hi] at h; cases h
    | ub => rw [hi] at h; cases h
    | fuel => rw [hi] at h; cases h
    | ok p =>
      rw [hi] at h
      obtain ⟨s1, q⟩ := p
      simp only [Res.bind] at h
      rw [framesOf_cons] at hfr
      cases hf1 : framesOf [i] with
      | nil =>
        obtain ⟨h1, h2, -, -⟩ := onInput_time hi hf1
        rw [hf1, List.nil_append] at hfr
        cases q with
        | true =>
          simp only [if_true, Res.ok.injEq, Prod.mk.injEq] at h
          obtain ⟨rfl, rfl⟩ := h
          exact ⟨[i], rfl, by rw [hf1, h1]; simp [clockTicks]⟩
        | false =>
          simp only [if_false, Bool.false_eq_true] at h
          obtain ⟨done, hd, hk⟩ := ih (h2.trans ht) hfr h0 ha h
          exact ⟨i :: done, by simp [hd], by rw [hk, h1, framesOf_cons, hf1, List.nil_append]⟩
      | cons x xs =>
        cases i with
        | key press k => simp [framesOf] at hf1
        | configure w hh => simp [framesOf] at hf1
        | frame t c =>
          rw [show framesOf [In.frame t c] = [(t, c)] from rfl, List.singleton_append, List.cons.injEq, Prod.mk.injEq] at hfr
          obtain ⟨⟨rfl, rfl⟩, rfl⟩ := hfr
          obtain ⟨⟨a, b, hab, hd, hfst, hlast⟩, -⟩ := (onFrame_did (n := n) hi).2 ht
          rw [if_pos rfl, Prod.mk.injEq] at hab
          obtain ⟨rfl, rfl⟩ := hab
          have hm : t * 1000 % 2 ^ 64 = 1000 * t := by rw [Nat.mul_comm]; exact Nat.mod_eq_of_lt h0
          have h1 : ticksOf s1.calls = ticksOf s.calls ++ [(1000 * (t - t), 1000 * (t - t), 0)] := by
            rw [hd.calls, ticksOf_append, hm, tsub_exact (Nat.le_refl _) h0]
            simp [ticksOf]
          cases q with
          | true =>
            simp only [if_true, Res.ok.injEq, Prod.mk.injEq] at h
            obtain ⟨rfl, rfl⟩ := h
            exact ⟨[.frame t 0], rfl, by rw [h1]; simp [clockTicks, framesOf]⟩
          | false =>
            simp only [if_false, Bool.false_eq_true] at h
            obtain ⟨hl1, ht1⟩ := hlast rfl
            obtain ⟨done, hd', hk⟩ := clock_run ins ht1 (hfst.trans hm) (hl1.trans hm) (Nat.le_refl _) ha h
            refine ⟨.frame t 0 :: done, by simp [hd'], ?_⟩
            rw [hk, h1, framesOf_cons]
            simp only [show framesOf [In.frame t 0] = [(t, 0)] from rfl, List.singleton_append, clockTicks, List.append_assoc]

/-- The times between frames add up to the time since the start. -/
theorem C65_sum (t0 : Nat) (l : List (Nat × Nat)) : ∀ {prev : Nat}, t0 ≤ prev → Ascending prev l →
    ∀ {total diff c : Nat}, (clockTicks t0 prev l).getLast? = some (total, diff, c) →
      total = 1000 * (prev - t0) + ((clockTicks t0 prev l).map fun p => p.2.1).sum := by
  induction l with
  | nil => intro prev _ _ total diff c h; simp [clockTicks] at h
  | cons p l ih =>
    obtain ⟨t, c'⟩ := p
    intro prev h0 ha total diff c h
    obtain ⟨h1, -, -, h2⟩ : prev ≤ t ∧ 1000 * t < 2 ^ 64 ∧ c' ≠ 0 ∧ Ascending t l := ha
    cases l with
    | nil =>
      simp only [clockTicks, List.getLast?_singleton, Option.some.injEq, Prod.mk.injEq] at h
      obtain ⟨rfl, rfl, rfl⟩ := h
      simp only [clockTicks, List.map_cons, List.map_nil, List.sum_cons, List.sum_nil]
      omega
    | cons p' l' =>
      have h' : (clockTicks t0 t (p' :: l')).getLast? = some (total, diff, c) := by
        rw [← h]
        obtain ⟨t', c''⟩ := p'
        simp only [clockTicks, List.getLast?_cons_cons]
      have := ih (prev := t) (by omega) h2 h'
      rw [this]
      simp only [clockTicks, List.map_cons, List.sum_cons]
      omega

/-- The property is false of a window whose first frame does not have number 0: the document is told, at its first frame, that all the time since the clock of
the machine began has gone by. -/
theorem C65_fails_first {n t c : Nat} {E : GEnv} {s s' : Shell} {q : Bool} (hs : s.ticking = true) (h0 : s.first = 0) (h1 : s.last = 0) (ht : 1000 * t < 2 ^ 64)
    (hc : c ≠ 0) (h : onInput n E s (.frame t c) = .ok (s', q)) : ticksOf s'.calls = ticksOf s.calls ++ [(1000 * t, 1000 * t, c)] := by
  obtain ⟨⟨a, b, hab, hd, -⟩, -⟩ := (onFrame_did (n := n) h).2 hs
  rw [if_neg hc, Prod.mk.injEq, h0, h1] at hab
  obtain ⟨rfl, rfl⟩ := hab
  have hm : t * 1000 % 2 ^ 64 = 1000 * t := by rw [Nat.mul_comm]; exact Nat.mod_eq_of_lt ht
  rw [hd.calls, ticksOf_append, hm, tsub_exact (Nat.zero_le _) ht]
  rfl

/-- The property is false of the second document of a command line: it is told the time since the beginning of the first one. -/
theorem C65_fails_second :
    (match playFiles 60 genv0 ["two.ncl", "two.ncl"] [.frame 5000000 0, .frame 6000000 1, .key true .escape, .frame 7000000 2] 0 (Shell.start "" 800 600 false false) with
      | .ok (s, _, done) => s.fmt.playing && !done && decide (s.fmt.lastTotal = 2000000000) && ticksOf s.calls == [(0, 0, 0), (1000000000, 1000000000, 1), (2000000000, 1000000000, 2)] | _ => false) = true := by
  decide +kernel

/-! Non-vacuity of `C65_clock_partial`. -/
example : Ascending 5000000 [(6000000, 1), (7500000, 2)] := by simp [Ascending]

/-! ## C66: the size option and the exit status -/

/-- A size as the manual shows it: `WxH` with digits. -/
theorem C66_size_partial (w h : Str) (hw : w ≠ []) (hh : h ≠ []) (dw : ∀ c ∈ w, isDigit c = true) (dh : ∀ c ∈ h, isDigit c = true)
    (pw : digitsVal 0 w ≠ 0) (ph : digitsVal 0 h ≠ 0) :
    sizeOption (w ++ 'x' :: h) = some (((min (digitsVal 0 w) (2 ^ 31 - 1) : Nat) : Int), ((min (digitsVal 0 h) (2 ^ 31 - 1) : Nat) : Int)) := by
  have htw : ∀ (s : Str) (rest : Str), (∀ c ∈ s, isDigit c = true) → (∀ c, rest.head? = some c → isDigit c = false) →
      (s ++ rest).takeWhile isDigit = s ∧ (s ++ rest).dropWhile isDigit = rest := by
    intro s rest hs hr
    rw [List.takeWhile_append_of_pos hs, List.dropWhile_append_of_pos hs]
    cases rest with
    | nil => simp
    | cons c l => have := hr c rfl; simp [List.takeWhile, List.dropWhile, this]
  have hd : ∀ c, isDigit c = true → cspace c = false ∧ c ≠ '-' ∧ c ≠ '+' := by
    intro c hc
    refine ⟨?_, ?_, ?_⟩
    · cases hs : cspace c with
      | false => rfl
      | true =>
        simp only [cspace, blank, Bool.or_eq_true, beq_iff_eq] at hs
        rcases hs with ((((rfl | rfl) | rfl) | rfl) | rfl) | rfl <;> exact absurd hc (by decide)
    · rintro rfl; exact absurd hc (by decide)
    · rintro rfl; exact absurd hc (by decide)
  have hlead : ∀ (s rest : Str), s ≠ [] → (∀ c ∈ s, isDigit c = true) → sign ((s ++ rest).dropWhile cspace) = (false, s ++ rest) := by
    intro s rest hs hds
    cases s with
    | nil => exact absurd rfl hs
    | cons c l =>
      obtain ⟨h1, h2, h3⟩ := hd c (hds c List.mem_cons_self)
      rw [List.cons_append, List.dropWhile_cons_of_neg (by rw [h1]; decide)]
      unfold sign
      split
      · rename_i e; rw [List.cons.injEq] at e; exact absurd e.1 h2
      · rename_i e; rw [List.cons.injEq] at e; exact absurd e.1 h3
      · rfl
  have hnum : ∀ (s rest : Str), s ≠ [] → (∀ c ∈ s, isDigit c = true) → (∀ c, rest.head? = some c → isDigit c = false) →
      strtollEnd (s ++ rest) = (if digitsVal 0 s > 2 ^ 63 - 1 then (2 ^ 63 - 1 : Int) else digitsVal 0 s, rest) := by
    intro s rest hs hds hr
    obtain ⟨h1, h2⟩ := htw s rest hds hr
    simp only [strtollEnd, strtoll, hlead s rest hs hds, h1, h2, if_neg hs, Bool.false_eq_true, if_false]
  have hclamp : ∀ v : Nat, clamp (if v > 2 ^ 63 - 1 then (2 ^ 63 - 1 : Int) else v) 0 (2 ^ 31 - 1) = ((min v (2 ^ 31 - 1) : Nat) : Int) := by
    intro v
    unfold clamp
    by_cases h1 : v > 2 ^ 63 - 1
    · rw [if_pos h1, if_pos (by decide), Nat.min_eq_right (by omega)]; rfl
    · rw [if_neg h1]
      by_cases h2 : (v : Int) > 2 ^ 31 - 1
      · rw [if_pos h2, Nat.min_eq_right (by omega)]; rfl
      · rw [if_neg h2, if_neg (by omega), Nat.min_eq_left (by omega)]
  have hnz : ∀ v : Nat, v ≠ 0 → (if v > 2 ^ 63 - 1 then (2 ^ 63 - 1 : Int) else v) ≠ 0 := by
    intro v hv
    split <;> omega
  unfold sizeOption
  have e1 := hnum w ('x' :: h) hw dw (fun c hc => by cases hc; decide)
  have e2 := hnum h [] hh dh (fun c hc => by cases hc)
  rw [List.append_nil] at e2
  simp only [e1, if_neg (hnz _ pw), e2, if_neg (hnz _ ph), hclamp]

/-- The property is false: a size that is not positive is accepted and makes a window size of 0, and so are blanks, signs and what follows the height. -/
theorem C66_fails_size : sizeOption "-3x-4".toList = some (0, 0) ∧ sizeOption "800x600pixels".toList = some (800, 600) ∧ sizeOption "99999999999x1".toList = some (2 ^ 31 - 1, 1) := by
  decide +kernel

/-- With up to 255 files the exit status is zero exactly if every file could be opened. -/
theorem C66_status_partial {n : Nat} {E : GEnv} (hE : ∀ file d, E.open_ file = some d → DocWF d) (files : List String) (hlen : files.length ≤ 255)
    {ins : List In} {fails : Nat} {s s' : Shell} (hs : s.Sane n E) (hp : s.fmt.playing = false) (h : playFiles n E files ins 0 s = .ok (s', fails, true)) :
    exitStatus fails = 0 ↔ ∀ f ∈ files, (E.open_ f).isSome = true := by
  obtain ⟨-, hf, -⟩ := C64_order_partial hE files hs hp h
  have hle : (files.filter fun f => (E.open_ f).isNone).length ≤ files.length := List.length_filter_le ..
  rw [exitStatus, Nat.mod_eq_of_lt (by omega), hf, Nat.zero_add, List.length_eq_zero_iff, List.filter_eq_nil_iff]
  constructor
  · intro h f hf'
    have := h f hf'
    cases ho : E.open_ f with
    | none => rw [ho] at this; exact absurd rfl this
    | some d => rfl
  · intro h f hf' hn
    have := h f hf'
    cases ho : E.open_ f with
    | none => rw [ho] at this; cases this
    | some d => rw [ho] at hn; cases hn

/-- The property is false of 256 files: none of them can be opened and the program reports success. -/
theorem C66_fails_status (n : Nat) (E : GEnv) (hE : E.open_ "missing.ncl" = none) (ins : List In) (focus : String) (w h : Int) :
    ∃ s, playFiles n E (List.replicate 256 "missing.ncl") ins 0 (Shell.start focus w h false false) = .ok (s, 256, true) ∧ exitStatus 256 = 0 := by
  have key : ∀ (k fails : Nat) (s : Shell), s.fmt.playing = false → s.fmt.doc = none →
      ∃ s', playFiles n E (List.replicate k "missing.ncl") ins fails s = .ok (s', fails + k, true) := by
    intro k
    induction k with
    | zero => intro fails s _ _; exact ⟨s, rfl⟩
    | succ k ih =>
      intro fails s hp hd
      simp only [List.replicate_succ, playFiles, hE, fmtStart, hp, hd, Bool.false_eq_true, if_false, Option.isSome_none, Res.bind, Bool.not_false, if_true]
      obtain ⟨s', hs'⟩ := ih (fails + 1) { s with calls := s.calls ++ [Op.start none] } hp hd
      exact ⟨s', by rw [hs']; congr 3; omega⟩
  obtain ⟨s', hs'⟩ := key 256 0 (Shell.start focus w h false false) rfl rfl
  exact ⟨s', hs', rfl⟩

example : sizeOption "1280x720".toList = some (1280, 720) := by decide +kernel

end Ginga
