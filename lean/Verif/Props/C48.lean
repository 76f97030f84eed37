import Verif.Model.Web
import Verif.Props.C16
import Verif.Proofs.Witness
/-! # C48 — remote control requests

Full statement: every request to the web service is answered, and an action request performs exactly
the named transitions on the named event.

The second half is `C48_effect` (every request that is answered) and `C48_register`.  The first half
fails: `C48_fails_stopped`, `C48_fails_path`, `C48_fails_body`, `C48_fails_select` and
`C48_fails_register` are the requests that end the process; `C48_answered_partial` proves that every
other action request is answered, provided the transitions it asks for do not themselves end the
process (C22). -/
set_option linter.unusedVariables false
namespace Ginga
open Ex

/-- The path after `/current-service/apps/` is `app/document/node`, none of them empty and the first
two without slashes. -/
def PathOf (target app docId node : List Char) : Prop :=
  target = app ++ '/' :: (docId ++ '/' :: node) ∧ app ≠ [] ∧ docId ≠ [] ∧ node ≠ [] ∧
  '/' ∉ app ∧ '/' ∉ docId

/-- The value of member `k` of a JSON object, as text ("" when missing). -/
def Member (j : Json) (k v : String) : Prop := j.str k = .ok v

/-- Event `e` of the object is the one of that type and id. -/
def NamedEvent (d : Doc) (o : Oid) (t : EType) (id : String) (e : Eid) : Prop :=
  e ∈ (d.obj o).events ∧ (d.ev e).typ = t ∧ (d.ev e).id = id

/-- The interface a look request names: the whole object when empty. -/
def lookId (iface : String) : String := if iface = "" then "@lambda" else iface

/-- What an action request asks for. -/
inductive Asked (d : Doc) (o : Oid) : String → String → String → Eid → List Trans → Prop where
  | select {iface value e} : NamedEvent d o .selection value e →
      Asked d o "select" iface value e [.start, .stop]
  | lookAt {iface value e} : NamedEvent d o .lookat (lookId iface) e →
      Asked d o "lookAt" iface value e [.start]
  | lookAway {iface value e} : NamedEvent d o .lookat (lookId iface) e →
      Asked d o "lookAway" iface value e [.stop]

/-! ## Paths -/

theorem splitFirst_spec {c : Char} : ∀ {s a b : List Char}, splitFirst c s = some (a, b) ↔
    s = a ++ c :: b ∧ c ∉ a := by
  intro s
  induction s with
  | nil => intro a b; simp [splitFirst]
  | cons x xs ih =>
    intro a b
    simp only [splitFirst]
    split
    · next h =>
      subst h
      constructor
      · intro h; cases h; simp
      · rintro ⟨h, hn⟩
        cases a with
        | nil => simp at h; simp [h]
        | cons y ys => simp at h hn; exact absurd h.1 hn.1
    · next h =>
      cases hs : splitFirst c xs with
      | none =>
        simp only [hs, reduceCtorEq, false_iff]
        rintro ⟨h1, hn⟩
        cases a with
        | nil => simp at h1; exact h h1.1
        | cons y ys =>
          simp at h1 hn
          have := (ih (a := ys) (b := b)).2 ⟨h1.2, hn.2⟩
          rw [hs] at this; cases this
      | some p =>
        obtain ⟨a', b'⟩ := p
        simp only [hs, Option.some.injEq, Prod.mk.injEq]
        have := (ih (a := a') (b := b')).1 hs
        constructor
        · rintro ⟨rfl, rfl⟩
          refine ⟨by rw [this.1]; rfl, ?_⟩
          simp only [List.mem_cons, not_or]; exact ⟨fun hh => h hh.symm, this.2⟩
        · rintro ⟨h1, hn⟩
          cases a with
          | nil => simp at h1; exact absurd h1.1 h
          | cons y ys =>
            simp at h1 hn
            have := (ih (a := ys) (b := b)).2 ⟨h1.2, hn.2⟩
            rw [hs] at this; cases this
            exact ⟨by rw [h1.1], rfl⟩

theorem splitFirst_none {c : Char} {s : List Char} : splitFirst c s = none ↔ c ∉ s := by
  induction s with
  | nil => simp [splitFirst]
  | cons x xs ih =>
    simp only [splitFirst, List.mem_cons, not_or]
    split
    · next h => simp [h]
    · next h =>
      cases hs : splitFirst c xs with
      | none => simp [ih.1 hs]; exact fun hh => h hh.symm
      | some p => simp [hs] at ih; simp [ih]

theorem tokens_path {target app docId node : List Char} (h : PathOf target app docId node) :
    pathTokens target = [app, docId, node] := by
  obtain ⟨rfl, h1, h2, h3, h4, h5⟩ := h
  unfold pathTokens
  rw [if_neg (by simp)]
  simp only [splitPath]
  rw [splitFirst_spec.2 ⟨rfl, h4⟩]
  dsimp only
  rw [splitFirst_spec.2 ⟨rfl, h5⟩]

/-- The three tokens exist and are not empty. -/
theorem path_tokens {target app docId node : List Char}
    (h : pathTokens target = [app, docId, node]) (h1 : app ≠ []) (h2 : docId ≠ []) (h3 : node ≠ []) :
    PathOf target app docId node := by
  unfold pathTokens at h
  split at h
  · cases h
  · simp only [splitPath] at h
    split at h
    · cases h
    · next a b hs =>
      split at h
      · cases h
      · next a' b' hs' =>
        cases h
        have e1 := splitFirst_spec.1 hs
        have e2 := splitFirst_spec.1 hs'
        exact ⟨by rw [e1.1, e2.1], h1, h2, h3, e1.2, e2.2⟩

theorem tokens_le (target : List Char) : (pathTokens target).length ≤ 3 := by
  unfold pathTokens
  split
  · simp
  · simp only [splitPath]
    split
    · simp
    · split <;> simp

/-! ## Effects of the requests that are answered -/

theorem getEvent_named {d : Doc} {o : Oid} {t : EType} {id : String} {e : Eid}
    (h : d.getEvent o t id = some e) : NamedEvent d o t id e := by
  unfold Doc.getEvent at h
  have h1 := List.find?_some h
  simp at h1
  exact ⟨List.mem_of_find?_eq_some h, h1.1, h1.2⟩

theorem evalSeq_ok {d : Doc} {n : Nat} {e : Eid} : ∀ {ts : List Trans} {s s' : St},
    evalSeq (run d n) e ts s = .ok ((), s') →
    InOrder d n (ts.map fun t => { ev := e, tr := t }) s s' := by
  intro ts
  induction ts with
  | nil => intro s s' h; cases h; exact .nil
  | cons t ts ih =>
    intro s s' h
    unfold evalSeq at h
    obtain ⟨k, s1, h1, h2⟩ := bind_ok h
    exact .cons h1 (ih h2)

theorem lookId_eq (iface : String) : (if iface ≠ "" then iface else "@lambda") = lookId iface := by
  unfold lookId; by_cases h : iface = "" <;> simp [h]

theorem dispatch_ok {n : Nat} {d : Doc} {f f' : Fmt} {o : Oid} {action iface value : String}
    {st : Status} (h : appsDispatch n d f o action iface value = .ok (st, f')) :
    (st = .notFound ∧ f' = f) ∨
    (st = .ok ∧ ∃ e ts, Asked d o action iface value e ts ∧
      InOrder d n (ts.map fun t => { ev := e, tr := t }) f.st f'.st ∧ f' = { f with st := f'.st }) := by
  have done : ∀ {e ts}, ((f.run (evalSeq (run d n) e ts)).bind fun p =>
      (Res.ok (Status.ok, p.2) : Res (Status × Fmt))) = .ok (st, f') → st = .ok ∧
      InOrder d n (ts.map fun t => { ev := e, tr := t }) f.st f'.st ∧ f' = { f with st := f'.st } := by
    intro e ts h
    obtain ⟨a, s', h1, h2⟩ := run_bind_ok h
    cases h2
    exact ⟨rfl, evalSeq_ok h1, rfl⟩
  unfold appsDispatch at h
  simp only [lookId_eq] at h
  split at h
  · next ha =>
    subst ha
    split at h
    · cases h
    · next e he => obtain ⟨h1, h2⟩ := done h; exact .inr ⟨h1, e, _, .select (getEvent_named he), h2⟩
  · split at h
    · next ha =>
      subst ha
      split at h
      · cases h; exact .inl ⟨rfl, rfl⟩
      · next e he => obtain ⟨h1, h2⟩ := done h; exact .inr ⟨h1, e, _, .lookAt (getEvent_named he), h2⟩
    · split at h
      · next ha =>
        subst ha
        split at h
        · cases h; exact .inl ⟨rfl, rfl⟩
        · next e he => obtain ⟨h1, h2⟩ := done h; exact .inr ⟨h1, e, _, .lookAway (getEvent_named he), h2⟩
      · cases h; exact .inl ⟨rfl, rfl⟩

theorem Res.bind_ok' {α β : Type} {x : Res α} {g : α → Res β} {b : β} (h : x.bind g = .ok b) :
    ∃ a, x = .ok a ∧ g a = .ok b := by
  cases x with
  | ok a => exact ⟨a, rfl, h⟩
  | _ => cases h

theorem emptyToken_ok {ts : List (List Char)} {i : Nat} {b : Bool} (h : emptyToken ts i = .ok b) :
    ∃ t, ts[i]? = some t ∧ b = decide (t = []) := by
  unfold emptyToken at h
  split at h
  · cases h
  · next t ht => cases h; exact ⟨t, ht, rfl⟩

/-- **C48**, effect of action requests.  A request that is answered either is refused (404) and
changes nothing, or is accepted (200): then a document is presented, the path names one of its
objects, the body is a JSON object whose members `action`, `interface` and `value` ask for
transitions of an event of that object, and exactly those transitions were requested, in that order,
with everything they trigger; nothing else happened. -/
theorem C48_effect {n : Nat} {parse : String → Bool × Json} {f f' : Fmt} {target : List Char}
    {body : String} {st : Status} (h : webApps n parse f target body = .ok (st, f')) :
    (st = .notFound ∧ f' = f) ∨
    (st = .ok ∧ ∃ d app docId node o action iface value e ts,
      f.doc = some d ∧ PathOf target app docId node ∧
      o ∈ d.objs ∧ (d.obj o).id = String.ofList node ∧ (parse body).1 = true ∧
      Member (parse body).2 "action" action ∧ Member (parse body).2 "interface" iface ∧
      Member (parse body).2 "value" value ∧ Asked d o action iface value e ts ∧
      InOrder d n (ts.map fun t => { ev := e, tr := t }) f.st f'.st ∧ f' = { f with st := f'.st }) := by
  unfold webApps at h
  cases hd : f.doc with
  | none => rw [hd] at h; cases h
  | some d =>
    rw [hd] at h
    dsimp only at h
    obtain ⟨a, ha, h⟩ := Res.bind_ok' h
    split at h
    · cases h; exact .inl ⟨rfl, rfl⟩
    rename_i na
    obtain ⟨b, hb, h⟩ := Res.bind_ok' h
    split at h
    · cases h; exact .inl ⟨rfl, rfl⟩
    rename_i nb
    obtain ⟨c, hc, h⟩ := Res.bind_ok' h
    split at h
    · cases h; exact .inl ⟨rfl, rfl⟩
    rename_i nc
    obtain ⟨t0, e0, rfl⟩ := emptyToken_ok ha
    obtain ⟨t1, e1, rfl⟩ := emptyToken_ok hb
    obtain ⟨t2, e2, rfl⟩ := emptyToken_ok hc
    simp only [decide_eq_true_eq] at na nb nc
    have hts : pathTokens target = [t0, t1, t2] := by
      have hl := tokens_le target
      cases h1 : pathTokens target with
      | nil => rw [h1] at e0; cases e0
      | cons x l =>
        cases l with
        | nil => rw [h1] at e1; cases e1
        | cons y l =>
          cases l with
          | nil => rw [h1] at e2; cases e2
          | cons z l =>
            cases l with
            | nil => rw [h1] at e0 e1 e2; cases e0; cases e1; cases e2; rfl
            | cons w l => rw [h1] at hl; simp at hl
    have hp := path_tokens hts na nb nc
    rw [hts] at h
    unfold appsBody at h
    split at h
    · next hparse =>
      obtain ⟨action, h1, h⟩ := Res.bind_ok' h
      obtain ⟨iface, h2, h⟩ := Res.bind_ok' h
      obtain ⟨value, h3, h⟩ := Res.bind_ok' h
      split at h
      · cases h; exact .inl ⟨rfl, rfl⟩
      · next o ho =>
        rcases dispatch_ok h with h4 | ⟨h4, e, ts, h5, h6, h7⟩
        · exact .inl h4
        · have hid := List.find?_some ho
          simp at hid
          exact .inr ⟨h4, d, t0, t1, t2, o, action, iface, value, e, ts, rfl, hp,
            List.mem_of_find?_eq_some ho, hid, hparse, h1, h2, h3, h5, h6, by rw [hd] at h7; exact h7⟩
    · cases h; exact .inl ⟨rfl, rfl⟩

/-! ## Which requests are answered -/

/-- The body is not JSON, or a JSON value with the three members (missing ones count as "") being
text. -/
def BodyOk (parse : String → Bool × Json) (body : String) : Prop :=
  (parse body).1 = true → ∃ a i v, Member (parse body).2 "action" a ∧
    Member (parse body).2 "interface" i ∧ Member (parse body).2 "value" v

/-- A selection request names a selection event of the object. -/
def SelectOk (d : Doc) (parse : String → Bool × Json) (node : List Char) (body : String) : Prop :=
  Member (parse body).2 "action" "select" → ∀ o, d.byId (String.ofList node) = some o →
    ∀ v, Member (parse body).2 "value" v → ∃ e, NamedEvent d o .selection v e

theorem getEvent_isSome {d : Doc} {o : Oid} {t : EType} {id : String} {e : Eid}
    (h : NamedEvent d o t id e) : ∃ e', d.getEvent o t id = some e' := by
  unfold Doc.getEvent
  cases hf : (d.obj o).events.find? (fun e => (d.ev e).typ == t && (d.ev e).id == id) with
  | some e' => exact ⟨e', rfl⟩
  | none =>
    have := List.find?_eq_none.1 hf e h.1
    simp [h.2.1, h.2.2] at this

/-- **C48** (partial), every request is answered.  While a document is presented, a request with a
complete path, a body as expected and, for a selection, an existing selection event, is answered:
either nothing happens and the answer is 404, or the outcome is exactly that of the transitions it
asks for (in particular, if their evaluation returns, the answer is 200).  Missing for the full
statement: the requests of the theorems `C48_fails_…` below. -/
theorem C48_answered_partial {n : Nat} {parse : String → Bool × Json} {f : Fmt} {d : Doc}
    (hd : f.doc = some d) {target app docId node : List Char} (hp : PathOf target app docId node)
    {body : String} (hb : BodyOk parse body) (hs : SelectOk d parse node body) :
    webApps n parse f target body = .ok (.notFound, f) ∨
    ∃ o action iface value e ts, d.byId (String.ofList node) = some o ∧
      Asked d o action iface value e ts ∧
      webApps n parse f target body =
        ((f.run (evalSeq (run d n) e ts)).bind fun p => .ok (.ok, p.2)) := by
  have hw : webApps n parse f target body = appsBody n d f parse (String.ofList node) body := by
    unfold webApps
    rw [hd]
    dsimp only
    rw [tokens_path hp]
    simp [emptyToken, Res.bind, hp.2.1, hp.2.2.1, hp.2.2.2.1]
  rw [hw]
  unfold appsBody
  split
  · next hparse =>
    obtain ⟨a, i, v, h1, h2, h3⟩ := hb hparse
    rw [show (parse body).2.str "action" = .ok a from h1,
      show (parse body).2.str "interface" = .ok i from h2,
      show (parse body).2.str "value" = .ok v from h3]
    simp only [Res.bind]
    cases ho : d.byId (String.ofList node) with
    | none => exact .inl rfl
    | some o =>
      simp only
      unfold appsDispatch
      simp only [lookId_eq]
      split
      · next ha =>
        subst ha
        obtain ⟨e, he⟩ := hs h1 o ho v h3
        obtain ⟨e', he'⟩ := getEvent_isSome he
        rw [he']
        exact .inr ⟨o, _, i, v, e', _, rfl, .select (getEvent_named he'), rfl⟩
      · split
        · next ha =>
          subst ha
          cases he : d.getEvent o .lookat (lookId i) with
          | none => exact .inl rfl
          | some e => exact .inr ⟨o, _, i, v, e, _, rfl, .lookAt (getEvent_named he), rfl⟩
        · split
          · next ha =>
            subst ha
            cases he : d.getEvent o .lookat (lookId i) with
            | none => exact .inl rfl
            | some e => exact .inr ⟨o, _, i, v, e, _, rfl, .lookAway (getEvent_named he), rfl⟩
          · exact .inl rfl
  · exact .inl rfl

/-- **C48 fails** when nothing is presented: every action request ends the process. -/
theorem C48_fails_stopped {n : Nat} {parse : String → Bool × Json} {f : Fmt} (hd : f.doc = none)
    (target : List Char) (body : String) : webApps n parse f target body = .abort := by
  unfold webApps; rw [hd]

/-- **C48 fails** for incomplete paths (no object named): undefined behaviour (a null pointer is
passed to `strlen`), whatever the body. -/
theorem C48_fails_path {n : Nat} {parse : String → Bool × Json} {f : Fmt} {d : Doc}
    (hd : f.doc = some d) (body : String) :
    webApps n parse f [] body = .ub ∧
    (∀ app : List Char, app ≠ [] → '/' ∉ app → webApps n parse f app body = .ub) ∧
    (∀ app docId : List Char, app ≠ [] → '/' ∉ app → docId ≠ [] → '/' ∉ docId →
      webApps n parse f (app ++ '/' :: docId) body = .ub) := by
  refine ⟨?_, ?_, ?_⟩
  · unfold webApps; rw [hd]; rfl
  · intro app h1 h2
    unfold webApps; rw [hd]
    simp only [pathTokens, if_neg h1, splitPath, splitFirst_none.2 h2]
    simp [emptyToken, Res.bind, h1]
  · intro app docId h1 h2 h3 h4
    unfold webApps; rw [hd]
    simp only [pathTokens]
    rw [if_neg (by simp)]
    simp only [splitPath]
    rw [splitFirst_spec.2 ⟨rfl, h2⟩]
    dsimp only
    rw [splitFirst_none.2 h4]
    simp [emptyToken, Res.bind, h1, h3]

/-- **C48 fails** for JSON bodies that are not objects (an array, a string, a number): jsoncpp throws
and the process ends. -/
theorem C48_fails_body {n : Nat} {parse : String → Bool × Json} {f : Fmt} {d : Doc}
    (hd : f.doc = some d) {target app docId node : List Char} (hp : PathOf target app docId node)
    {body : String} (h1 : (parse body).1 = true)
    (h2 : (∃ l, (parse body).2 = .arr l) ∨ (∃ s, (parse body).2 = .text s)) :
    webApps n parse f target body = .abort := by
  unfold webApps
  rw [hd]
  dsimp only
  rw [tokens_path hp]
  simp only [emptyToken, Res.bind, hp.2.1, hp.2.2.1, hp.2.2.2.1, List.getElem?_cons_zero,
    List.getElem?_cons_succ, decide_false, Bool.false_eq_true, if_false, appsBody, h1, if_true]
  rcases h2 with ⟨l, h2⟩ | ⟨s, h2⟩ <;> rw [h2] <;> rfl

/-- **C48 fails** for a selection request that names no selection event of the object: undefined
behaviour (`evalAction` on a null event). -/
theorem C48_fails_select {n : Nat} {parse : String → Bool × Json} {f : Fmt} {d : Doc}
    (hd : f.doc = some d) {target app docId node : List Char} (hp : PathOf target app docId node)
    {body : String} (h1 : (parse body).1 = true) {iface value : String}
    (h2 : Member (parse body).2 "action" "select") (h3 : Member (parse body).2 "interface" iface)
    (h4 : Member (parse body).2 "value" value) {o : Oid} (ho : d.byId (String.ofList node) = some o)
    (hn : ¬ ∃ e, NamedEvent d o .selection value e) :
    webApps n parse f target body = .ub := by
  have he : d.getEvent o .selection value = none := by
    cases he : d.getEvent o .selection value with
    | none => rfl
    | some e => exact absurd ⟨e, getEvent_named he⟩ hn
  unfold webApps
  rw [hd]
  dsimp only
  rw [tokens_path hp]
  simp only [emptyToken, Res.bind, hp.2.1, hp.2.2.1, hp.2.2.2.1, List.getElem?_cons_zero,
    List.getElem?_cons_succ, decide_false, Bool.false_eq_true, if_false, appsBody, h1, if_true]
  rw [show (parse body).2.str "action" = .ok "select" from h2,
    show (parse body).2.str "interface" = .ok iface from h3,
    show (parse body).2.str "value" = .ok value from h4]
  simp [ho, appsDispatch, he]

/-! ## Registration of remote players -/

/-- The registered player suits the media: same device, or one of the formats is its type. -/
def Suits (data : RemoteData) (s : St) (o : Oid) : Prop :=
  s.getProp o "device" = data.deviceType ∨ s.getProp o "type" ∈ data.formats

/-- Only `remotePlayerBaseURL` of the medias in `X` may differ, and then it is `url`. -/
structure UrlSet (X : Oid → Prop) (url : String) (s s' : St) : Prop where
  set : ∀ o, X o → s'.getProp o "remotePlayerBaseURL" = url
  others : ∀ o k, ¬ (X o ∧ k = "remotePlayerBaseURL") → s'.getProp o k = s.getProp o k
  est : s'.est = s.est
  delayed : s'.delayed = s.delayed
  time : s'.time = s.time
  log : s'.log = s.log
  focus : s'.focus = s.focus

theorem setUrl_ok {d : Doc} {o : Oid} {url : String} {s s' : St}
    (h : mediaSetProp d o "remotePlayerBaseURL" url 0 s = .ok ((), s')) : UrlSet (· = o) url s s' := by
  have hs := mediaSetProp_ok h
  refine ⟨?_, ?_, hs.est, hs.delayed, hs.time, hs.log, ?_⟩
  · rintro _ rfl; rw [hs.set]; simp
  · intro x k hx; rw [hs.set, if_neg hx]
  · rw [hs.focus, if_neg (by simp)]

theorem UrlSet.refl (url : String) (s : St) : UrlSet (fun _ => False) url s s :=
  ⟨fun _ h => h.elim, fun _ _ _ => rfl, rfl, rfl, rfl, rfl, rfl⟩

theorem UrlSet.trans {X Y : Oid → Prop} {url : String} {s t u : St} (h : UrlSet X url s t)
    (h' : UrlSet Y url t u) : UrlSet (fun o => X o ∨ Y o) url s u := by
  refine ⟨?_, ?_, h'.est.trans h.est, h'.delayed.trans h.delayed, h'.time.trans h.time,
    h'.log.trans h.log, h'.focus.trans h.focus⟩
  · intro o ho
    by_cases hy : Y o
    · exact h'.set o hy
    · rw [h'.others o _ (fun hh => hy hh.1)]; exact h.set o (ho.resolve_right hy)
  · intro o k hk
    rw [h'.others o k (fun hh => hk ⟨.inr hh.1, hh.2⟩), h.others o k (fun hh => hk ⟨.inl hh.1, hh.2⟩)]

theorem UrlSet.congr {X Y : Oid → Prop} {url : String} {s t : St} (h : UrlSet X url s t)
    (hxy : ∀ o, X o ↔ Y o) : UrlSet Y url s t := by
  have : X = Y := funext fun o => propext (hxy o)
  rw [← this]; exact h

theorem matchFormats_ok {d : Doc} {o : Oid} {url : String} : ∀ {ms : List String} {s s' : St},
    matchFormats d o url ms s = .ok ((), s') →
    UrlSet (fun x => x = o ∧ s.getProp o "type" ∈ ms) url s s' := by
  intro ms
  induction ms with
  | nil => intro s s' h; cases h; exact (UrlSet.refl url s).congr (by simp)
  | cons m ms ih =>
    intro s s' h
    unfold matchFormats at h
    obtain ⟨_, _, h1, h⟩ := bind_ok h
    cases h1
    have step : ∀ {s1 : St} {X : Oid → Prop}, UrlSet X url s s1 →
        (∀ x, X x ↔ x = o ∧ s.getProp o "type" = m) →
        matchFormats d o url ms s1 = .ok ((), s') →
        UrlSet (fun x => x = o ∧ s.getProp o "type" ∈ m :: ms) url s s' := by
      intro s1 X h1 hX h2
      refine (h1.trans (ih h2)).congr ?_
      intro x
      have ht : s1.getProp o "type" = s.getProp o "type" := h1.others o _ (by simp)
      rw [hX, ht, List.mem_cons]
      constructor
      · rintro (⟨a, b⟩ | ⟨a, b⟩)
        · exact ⟨a, .inl b⟩
        · exact ⟨a, .inr b⟩
      · rintro ⟨a, b | b⟩
        · exact .inl ⟨a, b⟩
        · exact .inr ⟨a, b⟩
    split at h
    · next hm =>
      obtain ⟨_, s1, h1, h2⟩ := bind_ok h
      exact step (setUrl_ok h1) (by simp [hm]) h2
    · next hm => exact step (UrlSet.refl url s) (by simp [hm]) h

theorem matchMedia_ok {d : Doc} {data : RemoteData} {o : Oid} {s s' : St}
    (h : matchMedia d data o s = .ok ((), s')) :
    UrlSet (fun x => x = o ∧ Suits data s o) data.location s s' := by
  unfold matchMedia at h
  obtain ⟨_, _, h1, h⟩ := bind_ok h
  cases h1
  have step : ∀ {s1 : St} {X : Oid → Prop}, UrlSet X data.location s s1 →
      (∀ x, X x ↔ x = o ∧ s.getProp o "device" = data.deviceType) →
      matchFormats d o data.location data.formats s1 = .ok ((), s') →
      UrlSet (fun x => x = o ∧ Suits data s o) data.location s s' := by
    intro s1 X h1 hX h2
    refine (h1.trans (matchFormats_ok h2)).congr ?_
    intro x
    have ht : s1.getProp o "type" = s.getProp o "type" := h1.others o _ (by simp)
    rw [hX, ht]
    unfold Suits
    constructor
    · rintro (⟨a, b⟩ | ⟨a, b⟩)
      · exact ⟨a, .inl b⟩
      · exact ⟨a, .inr b⟩
    · rintro ⟨a, b | b⟩
      · exact .inl ⟨a, b⟩
      · exact .inr ⟨a, b⟩
  split at h
  · next hm =>
    obtain ⟨_, s1, h1, h2⟩ := bind_ok h
    exact step (setUrl_ok h1) (by simp [hm]) h2
  · next hm => exact step (UrlSet.refl _ s) (by simp [hm]) h

theorem matchAll_ok {d : Doc} {data : RemoteData} : ∀ {l : List Oid} {s s' : St},
    forAll (matchMedia d data) l s = .ok ((), s') →
    UrlSet (fun x => x ∈ l ∧ Suits data s x) data.location s s' := by
  intro l
  induction l with
  | nil => intro s s' h; cases h; exact (UrlSet.refl _ s).congr (by simp)
  | cons o os ih =>
    intro s s' h
    unfold forAll at h
    obtain ⟨_, s1, h1, h2⟩ := bind_ok h
    have k1 := matchMedia_ok h1
    refine (k1.trans (ih h2)).congr ?_
    intro x
    have ht : Suits data s1 x ↔ Suits data s x := by
      unfold Suits; rw [k1.others x "device" (by simp), k1.others x "type" (by simp)]
    rw [ht, List.mem_cons]
    constructor
    · rintro (⟨rfl, b⟩ | ⟨a, b⟩)
      · exact ⟨.inl rfl, b⟩
      · exact ⟨.inr a, b⟩
    · rintro ⟨rfl | a, b⟩
      · exact .inl ⟨rfl, b⟩
      · exact .inr ⟨a, b⟩

/-- **C48**, registration of a remote player.  An accepted registration (200) sets
`remotePlayerBaseURL`, of exactly the remote medias the player suits, to the location in the request,
and changes nothing else; a refused one (404) changes nothing. -/
theorem C48_register {parse : String → Bool × Json} {f f' : Fmt} {remote : List Oid} {body : String}
    {st : Status} (h : webPlayer parse f remote body = .ok (st, f')) :
    (st = .notFound ∧ f' = f) ∨
    (st = .ok ∧ f.doc.isSome = true ∧ remote ≠ [] ∧ ∃ data : RemoteData,
      Member (parse body).2 "location" data.location ∧
      Member (parse body).2 "deviceType" data.deviceType ∧
      (∃ j, (parse body).2.field "supportedFormats" = .ok j ∧
        j.items.mapM (m := Option) (fun i => match i.asString with | .ok s => some s | _ => none)
          = some data.formats) ∧
      data.location ≠ "" ∧ data.deviceType ≠ "" ∧ data.formats ≠ [] ∧ data.events ≠ [] ∧
      UrlSet (fun o => o ∈ remote ∧ Suits data f.st o) data.location f.st f'.st ∧
      f' = { f with st := f'.st }) := by
  have strings_ok : ∀ {l : List Json} {ss : List String}, strings l = .ok ss →
      l.mapM (m := Option) (fun i => match i.asString with | .ok s => some s | _ => none) = some ss := by
    intro l
    induction l with
    | nil => intro ss h; cases h; rfl
    | cons j js ih =>
      intro ss h
      unfold strings at h
      obtain ⟨s, h1, h⟩ := Res.bind_ok' h
      obtain ⟨ss', h2, h⟩ := Res.bind_ok' h
      cases h
      rw [List.mapM_cons, h1, ih h2]; rfl
  unfold webPlayer at h
  dsimp only at h
  obtain ⟨loc, h1, h⟩ := Res.bind_ok' h
  obtain ⟨dev, h2, h⟩ := Res.bind_ok' h
  obtain ⟨j1, h3, h⟩ := Res.bind_ok' h
  obtain ⟨fm, h4, h⟩ := Res.bind_ok' h
  obtain ⟨j2, h5, h⟩ := Res.bind_ok' h
  obtain ⟨ev, h6, h⟩ := Res.bind_ok' h
  split at h
  · next hv =>
    simp only [RemoteData.valid, decide_eq_true_eq] at hv
    unfold machMedia at h
    cases hd : f.doc with
    | none => rw [hd] at h; simp only [Res.bind] at h; cases h; exact .inl ⟨rfl, rfl⟩
    | some d =>
      rw [hd] at h
      simp only at h
      split at h
      · simp only [Res.bind] at h; cases h; exact .inl ⟨rfl, rfl⟩
      · next hne =>
        obtain ⟨p, h7, h⟩ := Res.bind_ok' h
        obtain ⟨a, s', h8, h9⟩ := run_bind_ok h7
        cases h9
        cases h
        exact .inr ⟨rfl, rfl, hne, ⟨loc, dev, fm, ev⟩, h1, h2, ⟨j1, h3, strings_ok h4⟩, hv.1, hv.2.1, hv.2.2.1, hv.2.2.2,
          matchAll_ok h8, by rw [hd]⟩
  · cases h; exact .inl ⟨rfl, rfl⟩

/-- **C48 fails** for registrations whose body is a JSON array, string or number. -/
theorem C48_fails_register {parse : String → Bool × Json} {f : Fmt} {remote : List Oid} {body : String}
    (h : (∃ l, (parse body).2 = .arr l) ∨ (∃ s, (parse body).2 = .text s)) :
    webPlayer parse f remote body = .abort := by
  unfold webPlayer
  rcases h with ⟨l, h⟩ | ⟨s, h⟩ <;> rw [h] <;> rfl

/-! ## Non-vacuity -/

/-- A document whose media `m` (2) has a selection and a look-at event. -/
def webDoc : Doc :=
  mkDoc env0
    [ { kind := .context, id := "__root__", children := [1, 2], events := [0], lambda := 0, ports := [2] },
      { kind := .settings, id := "__settings__", parent := some 0, events := [1, 5], lambda := 1,
        props0 := [("type", "application/x-ginga-settings")] },
      { kind := .media, id := "m", parent := some 0, events := [2, 3, 4], lambda := 2,
        props0 := [("device", "vr"), ("type", "application/x-ncl360")] } ]
    [ { typ := .presentation, obj := 0, id := "@lambda" },
      { typ := .presentation, obj := 1, id := "@lambda" },
      { typ := .presentation, obj := 2, id := "@lambda" },
      { typ := .selection, obj := 2, id := "RED" },
      { typ := .lookat, obj := 2, id := "@lambda" },
      { typ := .attribution, obj := 1, id := "service.currentFocus" } ]
    0 1

theorem webDoc_wf : DocWF webDoc := mkDoc_wf [0, 1, 1] (by decide +kernel)

/-- A parser that knows two bodies. -/
def webParse (body : String) : Bool × Json :=
  if body = "L" then (true, .obj [("action", .text "lookAt")])
  else if body = "S" then (true, .obj [("action", .text "select"), ("value", .text "RED")])
  else if body = "R" then (true, .obj [("location", .text "http://x"), ("deviceType", .text "vr"),
    ("supportedFormats", .arr [.text "a/b"]), ("recognizableEvents", .arr [.text "selection"])])
  else (false, .null)

/-- While the media is presented, the look-at request is accepted and the event occurs; the selection
request is accepted; and the registration reaches the media. -/
example : ∃ f, Reachable f ∧ f.doc = some webDoc ∧
    (match webApps 30 webParse f "1/ncl/m".toList "L" with
      | .ok (st, f') => decide (st = .ok) && decide (f'.st.est 4 = .occurring) | _ => false) = true ∧
    (match webApps 30 webParse f "1/ncl/m".toList "S" with
      | .ok (st, f') => decide (st = .ok) && decide (f'.st.est 3 = .sleeping) &&
          decide (f'.st.log.length = f.st.log.length + 2) | _ => false) = true ∧
    (match webPlayer webParse f [2] "R" with
      | .ok (st, f') => decide (st = .ok) && decide (f'.st.getProp 2 "remotePlayerBaseURL" = "http://x")
      | _ => false) = true := by
  obtain ⟨f, h1, h2, h3⟩ := witness webDoc webDoc_wf 50 [tick 0, tick 1] rfl
    (fun f => (match webApps 30 webParse f "1/ncl/m".toList "L" with
      | .ok (st, f') => decide (st = .ok) && decide (f'.st.est 4 = .occurring) | _ => false) &&
     ((match webApps 30 webParse f "1/ncl/m".toList "S" with
      | .ok (st, f') => decide (st = .ok) && decide (f'.st.est 3 = .sleeping) &&
          decide (f'.st.log.length = f.st.log.length + 2) | _ => false) &&
     (match webPlayer webParse f [2] "R" with
      | .ok (st, f') => decide (st = .ok) && decide (f'.st.getProp 2 "remotePlayerBaseURL" = "http://x")
      | _ => false))) (by decide +kernel)
  simp only [Bool.and_eq_true] at h3
  exact ⟨f, h1, h2, by simpa only [Bool.and_eq_true] using h3.1,
    by simpa only [Bool.and_eq_true] using h3.2.1, by simpa only [Bool.and_eq_true] using h3.2.2⟩

/-- The hypotheses of `C48_answered_partial` are met by the look-at request. -/
example : PathOf "1/ncl/m".toList ['1'] "ncl".toList ['m'] ∧ BodyOk webParse "L" ∧
    SelectOk webDoc webParse ['m'] "L" := by
  refine ⟨⟨by decide, by decide, by decide, by decide, by decide, by decide⟩, fun _ => ⟨"lookAt", "", "", rfl, rfl, rfl⟩, ?_⟩
  intro h
  exact absurd h (by unfold Member; simp [webParse, Json.str, Json.field, Res.bind, Json.asString])

/-- The hypotheses of `C48_fails_select` are met: the media has no selection event for GREEN. -/
example : webDoc.byId (String.ofList ['m']) = some 2 ∧
    ¬ ∃ e, NamedEvent webDoc 2 .selection "GREEN" e := by
  refine ⟨by decide +kernel, ?_⟩
  rintro ⟨e, h1, h2, h3⟩
  have : e = 2 ∨ e = 3 ∨ e = 4 := by simpa [webDoc, mkDoc] using h1
  rcases this with rfl | rfl | rfl <;> revert h2 h3 <;> decide +kernel

end Ginga
