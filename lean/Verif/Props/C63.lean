import Verif.Model.Shell
import Verif.Props.C07
import Verif.Proofs.Fmt
import Verif.Proofs.Witness
import Verif.Props.C17
import Verif.Examples
/-!
# C63–C66: the command `ginga`

C63 the keyboard; C64 the files of the command line; C65 the clock; C66 the size option and the exit status.
-/
namespace Ginga

/-! ## What the program does is a sequence of calls of the library -/

/-- The library is where the calls made so far lead. -/
def Shell.Follows (n : Nat) (f0 : Fmt) (s : Shell) : Prop := ∃ bs, execAll n f0 s.calls = .ok (bs, s.fmt)

theorem execAll_snoc {n : Nat} {f0 f f' : Fmt} {ops : List Op} {bs : List Bool} {op : Op} {b : Bool}
    (h : execAll n f0 ops = .ok (bs, f)) (h' : exec n f op = .ok (b, f')) : execAll n f0 (ops ++ [op]) = .ok (bs ++ [b], f') := by
  rw [execAll_append, h]
  simp [Res.bind, execAll, h']

/-- What a callback did: nothing to the library, or one call. -/
inductive Did (n : Nat) (s : Shell) : Shell → List Op → Prop
  | nothing {s'} (hf : s'.fmt = s.fmt) (hc : s'.calls = s.calls) : Did n s s' []
  | call {s'} {op : Op} {b : Bool} (he : exec n s.fmt op = .ok (b, s'.fmt)) (hc : s'.calls = s.calls ++ [op]) : Did n s s' [op]

theorem Did.follows {n : Nat} {f0 : Fmt} {s s' : Shell} {ops : List Op} (h : Did n s s' ops) (hs : s.Follows n f0) : s'.Follows n f0 := by
  obtain ⟨bs, hs⟩ := hs
  cases h with
  | nothing hf hc => exact ⟨bs, by rw [hf, hc]; exact hs⟩
  | call he hc => exact ⟨bs ++ [_], by rw [hc]; exact execAll_snoc hs he⟩

theorem Did.calls {n : Nat} {s s' : Shell} {ops : List Op} (h : Did n s s' ops) : s'.calls = s.calls ++ ops := by
  cases h with
  | nothing hf hc => simp [hc]
  | call he hc => exact hc

/-- The key that the document is told of; `none` for the keys of the program itself (Escape, F10, F11). -/
def remoteKey (E : GEnv) (k : KeySym) : Option String :=
  match k with
  | .asterisk => some "*"
  | .numbersign => some "#"
  | .return_ => some "ENTER"
  | .f1 => some "RED"
  | .f2 => some "GREEN"
  | .f3 => some "YELLOW"
  | .f4 => some "BLUE"
  | .f5 => some "INFO"
  | .down => some "CURSOR_DOWN"
  | .left => some "CURSOR_LEFT"
  | .right => some "CURSOR_RIGHT"
  | .up => some "CURSOR_UP"
  | .other v => (E.keyName v).map fun s => if s.utf8ByteSize > 1 then E.upper s else s
  | _ => none

/-- The call that a keyboard event must cause. -/
def keyCall (E : GEnv) (press : Bool) (k : KeySym) : List Op := ((remoteKey E k).map fun s => Op.sendKey s (!press)).toList

theorem onKey_did {n : Nat} {E : GEnv} {press : Bool} {k : KeySym} {s s' : Shell} {q : Bool}
    (h : onKey n E press k s = .ok (s', q)) :
    Did n s s' (keyCall E press k) ∧ s'.ticking = s.ticking ∧ s'.first = s.first ∧ s'.last = s.last ∧
      (q = true → k ≠ .escape → s'.fmt.playing = false) := by
  have key : ∀ key, (fmtKey n s.fmt key (pressArg press)).bind (fun p =>
      if p.1 then Res.ok ({ s with fmt := p.2, calls := s.calls ++ [Op.sendKey key (pressArg press)] }, false)
      else if p.2.playing then .abort
      else .ok ({ s with fmt := p.2, calls := s.calls ++ [Op.sendKey key (pressArg press)] }, true)) = .ok (s', q) →
      Did n s s' [Op.sendKey key (!press)] ∧ s'.ticking = s.ticking ∧ s'.first = s.first ∧ s'.last = s.last ∧
      (q = true → k ≠ .escape → s'.fmt.playing = false) := by
    intro key h
    have hp : pressArg press = !press := by cases press <;> rfl
    cases hk : fmtKey n s.fmt key (pressArg press) with
    | ok p =>
      rw [hk] at h
      simp only [Res.bind] at h
      obtain ⟨b, f⟩ := p
      have hex : exec n s.fmt (.sendKey key (!press)) = .ok (b, f) := by rw [← hp]; exact hk
      cases b with
      | true =>
        simp only [if_true, Res.ok.injEq, Prod.mk.injEq] at h
        obtain ⟨rfl, rfl⟩ := h
        exact ⟨.call hex (by simp [hp]), rfl, rfl, rfl, fun h => by cases h⟩
      | false =>
        simp only [if_false, Bool.false_eq_true] at h
        cases hpl : f.playing with
        | true => rw [hpl] at h; simp at h
        | false =>
          rw [hpl] at h
          simp only [if_false, Bool.false_eq_true, Res.ok.injEq, Prod.mk.injEq] at h
          obtain ⟨rfl, rfl⟩ := h
          exact ⟨.call hex (by simp [hp]), rfl, rfl, rfl, fun _ _ => hpl⟩
    | abort => rw [hk] at h; cases h
    | ub => rw [hk] at h; cases h
    | fuel => rw [hk] at h; cases h
  cases k with
  | escape =>
    simp only [onKey, Res.ok.injEq, Prod.mk.injEq] at h
    obtain ⟨rfl, rfl⟩ := h
    exact ⟨.nothing rfl rfl, rfl, rfl, rfl, fun _ h => absurd rfl h⟩
  | f10 =>
    simp only [onKey, Res.ok.injEq, Prod.mk.injEq] at h
    obtain ⟨rfl, rfl⟩ := h
    cases press <;> exact ⟨.nothing rfl rfl, rfl, rfl, rfl, fun h => by cases h⟩
  | f11 =>
    simp only [onKey, Res.ok.injEq, Prod.mk.injEq] at h
    obtain ⟨rfl, rfl⟩ := h
    cases press <;> exact ⟨.nothing rfl rfl, rfl, rfl, rfl, fun h => by cases h⟩
  | other v =>
    simp only [onKey, keyText] at h
    simp only [keyCall, remoteKey]
    cases hn : E.keyName v with
    | none => rw [hn] at h; cases h
    | some t => rw [hn] at h; exact key _ h
  | _ => exact key _ h

theorem onFrame_did {n t c : Nat} {s s' : Shell} {q : Bool} (h : onFrame n t c s = .ok (s', q)) :
    (s.ticking = false → s' = s ∧ q = false) ∧
    (s.ticking = true →
      (∃ first last, (first, last) = (if c = 0 then (t * 1000 % 2 ^ 64, t * 1000 % 2 ^ 64) else (s.first, s.last)) ∧
        Did n s s' [.sendTick (tsub (t * 1000 % 2 ^ 64) first) (tsub (t * 1000 % 2 ^ 64) last) c] ∧ s'.first = first ∧
        (q = false → s'.last = t * 1000 % 2 ^ 64 ∧ s'.ticking = true)) ∧
      (q = true → s'.ticking = false ∧ s'.fmt.playing = false)) := by
  unfold onFrame at h
  cases ht : s.ticking with
  | false =>
    simp only [ht, Bool.not_false, if_true, Res.ok.injEq, Prod.mk.injEq] at h
    exact ⟨fun _ => ⟨h.1.symm, h.2.symm⟩, (fun h => by cases h)⟩
  | true =>
    refine ⟨(fun h => by cases h), fun _ => ?_⟩
    rw [if_neg (show ¬ (!s.ticking) = true by rw [ht]; decide)] at h
    dsimp only at h
    generalize hs1 : (if c = 0 then { s with first := t * 1000 % 2 ^ 64, last := t * 1000 % 2 ^ 64 } else s) = s1 at h
    have hfc : s1.fmt = s.fmt ∧ s1.calls = s.calls ∧ s1.ticking = true := by
      rw [← hs1]; split <;> exact ⟨rfl, rfl, ht⟩
    have hfl : (s1.first, s1.last) = (if c = 0 then (t * 1000 % 2 ^ 64, t * 1000 % 2 ^ 64) else (s.first, s.last)) := by
      rw [← hs1]; split <;> rfl
    cases hk : fmtTick n s1.fmt (tsub (t * 1000 % 2 ^ 64) s1.first) (tsub (t * 1000 % 2 ^ 64) s1.last) c with
    | ok p =>
      rw [hk] at h
      simp only [Res.bind] at h
      obtain ⟨b, f⟩ := p
      have hex : exec n s.fmt (.sendTick (tsub (t * 1000 % 2 ^ 64) s1.first) (tsub (t * 1000 % 2 ^ 64) s1.last) c) = .ok (b, f) := by
        rw [← hfc.1]; exact hk
      cases b with
      | true =>
        simp only [if_true, Res.ok.injEq, Prod.mk.injEq] at h
        obtain ⟨rfl, rfl⟩ := h
        exact ⟨⟨s1.first, s1.last, hfl, .call hex (by simp [hfc.2.1]), rfl, fun _ => ⟨rfl, hfc.2.2⟩⟩, fun h => by cases h⟩
      | false =>
        simp only [if_false, Bool.false_eq_true] at h
        cases hpl : f.playing with
        | true => rw [hpl] at h; simp at h
        | false =>
          rw [hpl] at h
          simp only [if_false, Bool.false_eq_true, Res.ok.injEq, Prod.mk.injEq] at h
          obtain ⟨rfl, rfl⟩ := h
          exact ⟨⟨s1.first, s1.last, hfl, .call hex (by simp [hfc.2.1]), rfl, fun h => by cases h⟩, fun _ => ⟨rfl, hpl⟩⟩
    | abort => rw [hk] at h; cases h
    | ub => rw [hk] at h; cases h
    | fuel => rw [hk] at h; cases h

theorem onConfigure_did {n : Nat} {w hh : Int} {s s' : Shell} {q : Bool} (h : onConfigure w hh s = .ok (s', q)) :
    Did n s s' [.resize w hh] ∧ s'.ticking = s.ticking ∧ s'.first = s.first ∧ s'.last = s.last ∧ q = false := by
  unfold onConfigure at h
  cases hk : fmtResize s.fmt w hh with
  | ok f =>
    rw [hk] at h
    simp only [Res.bind, Res.ok.injEq, Prod.mk.injEq] at h
    obtain ⟨rfl, rfl⟩ := h
    exact ⟨.call (b := true) (by simp [exec, hk, Res.bind]) rfl, rfl, rfl, rfl, rfl⟩
  | abort => rw [hk] at h; cases h
  | ub => rw [hk] at h; cases h
  | fuel => rw [hk] at h; cases h

/-- Every callback makes at most one call. -/
theorem onInput_did {n : Nat} {E : GEnv} {i : In} {s s' : Shell} {q : Bool} (h : onInput n E s i = .ok (s', q)) :
    ∃ ops, Did n s s' ops ∧ (∀ d, Op.start d ∉ ops) ∧ (s.ticking = false → s'.ticking = false) := by
  cases i with
  | key press k =>
    obtain ⟨h1, h2, -⟩ := onKey_did h
    refine ⟨_, h1, fun d hd => ?_, fun ht => by rw [h2]; exact ht⟩
    simp only [keyCall, Option.mem_toList, Option.map_eq_some_iff] at hd
    obtain ⟨a, -, ha⟩ := hd
    cases ha
  | frame t c =>
    obtain ⟨h1, h2⟩ := onFrame_did h
    cases ht : s.ticking with
    | false =>
      obtain ⟨rfl, rfl⟩ := h1 ht
      exact ⟨[], .nothing rfl rfl, (fun d hd => by cases hd), fun _ => ht⟩
    | true =>
      obtain ⟨⟨a, b, -, h3, -⟩, -⟩ := h2 ht
      exact ⟨_, h3, (fun d hd => by simp at hd), (fun h => by cases h)⟩
  | configure w hh =>
    obtain ⟨h1, h2, -⟩ := onConfigure_did (n := n) h
    exact ⟨_, h1, (fun d hd => by simp at hd), fun ht => by rw [h2]; exact ht⟩

/-! ## C63: the keyboard -/

/-- The calls of `sendKey` in a list of calls. -/
def keysOf (ops : List Op) : List (String × Bool) := ops.filterMap fun o => match o with | .sendKey k p => some (k, p) | _ => none

/-- What the keyboard did: the keys for the document, in order, with `true` for pressed. -/
def typed (E : GEnv) (ins : List In) : List (String × Bool) :=
  ins.filterMap fun i => match i with | .key press k => (remoteKey E k).map fun s => (s, press) | _ => none

theorem keysOf_append (a b : List Op) : keysOf (a ++ b) = keysOf a ++ keysOf b := List.filterMap_append

/-- The property that holds: whatever callbacks happen and in whatever order, the document is told of exactly the keys that were typed, in their
order and under their remote control names; but of each with the opposite direction. -/
theorem C63_exact_partial {n : Nat} {E : GEnv} (ins : List In) : ∀ {s s' : Shell} {r : Option (List In)},
    mainLoop n E ins s = .ok (s', r) →
    ∃ done, ins = done ++ r.getD [] ∧ keysOf s'.calls = keysOf s.calls ++ (typed E done).map fun p => (p.1, !p.2) := by
  induction ins with
  | nil =>
    intro s s' r h
    simp only [mainLoop, Res.ok.injEq, Prod.mk.injEq] at h
    obtain ⟨rfl, rfl⟩ := h
    exact ⟨[], rfl, by simp [typed]⟩
  | cons i l ih =>
    intro s s' r h
    simp only [mainLoop] at h
    cases hi : onInput n E s i with
    | abort => rw [hi] at h; cases h
    | ub => rw [hi] at h; cases h
    | fuel => rw [hi] at h; cases h
    | ok p =>
      rw [hi] at h
      obtain ⟨s1, q⟩ := p
      simp only [Res.bind] at h
      have h1 : keysOf s1.calls = keysOf s.calls ++ (typed E [i]).map fun p => (p.1, !p.2) := by
        cases i with
        | key press k =>
          have hd := (onKey_did (n := n) (E := E) hi).1.calls
          rw [hd, keysOf_append]
          congr 1
          simp only [keyCall, typed, List.filterMap_cons, List.filterMap_nil]
          cases remoteKey E k <;> rfl
        | frame t c =>
          obtain ⟨h1, h2⟩ := onFrame_did (n := n) hi
          cases ht : s.ticking with
          | false => rw [(h1 ht).1]; simp [typed]
          | true =>
            obtain ⟨⟨a, b, -, h3, -⟩, -⟩ := h2 ht
            rw [h3.calls, keysOf_append]; simp [typed, keysOf]
        | configure w hh =>
          rw [(onConfigure_did (n := n) hi).1.calls, keysOf_append]; simp [typed, keysOf]
      cases q with
      | true =>
        simp only [if_true, Res.ok.injEq, Prod.mk.injEq] at h
        obtain ⟨rfl, rfl⟩ := h
        exact ⟨[i], rfl, h1⟩
      | false =>
        simp only [if_false, Bool.false_eq_true] at h
        obtain ⟨done, hd, hk⟩ := ih h
        refine ⟨i :: done, by simp [hd], ?_⟩
        rw [hk, h1, List.append_assoc]
        congr 1
        have : typed E (i :: done) = typed E [i] ++ typed E done := by
          simp only [typed, show i :: done = [i] ++ done from rfl, List.filterMap_append]
        rw [this, List.map_append]

/-- The property is false: a key that is pressed is reported as released, and one that is released as pressed, always. -/
theorem C63_fails_direction {n : Nat} {E : GEnv} {press : Bool} {k : KeySym} {name : String} (hk : remoteKey E k = some name)
    {s s' : Shell} {q : Bool} (h : onInput n E s (.key press k) = .ok (s', q)) :
    keysOf s'.calls = keysOf s.calls ++ [(name, !press)] := by
  have hd := (onKey_did (n := n) (E := E) h).1.calls
  rw [hd, keysOf_append]
  simp [keyCall, hk, keysOf]

/-- A key without a name ends the program. -/
theorem C63_fails_unnamed (n : Nat) (E : GEnv) (press : Bool) (v : Nat) (hv : E.keyName v = none) (s : Shell) :
    onInput n E s (.key press (.other v)) = .ub := by
  simp [onInput, onKey, keyText, hv, Res.bind]

/-- The environment of the examples: the keys 97 (`a`) and 65293 (`Page_Up`, so to speak) have names; one file that is a document. -/
def genv0 : GEnv where
  keyName := fun v => if v = 97 then some "a" else if v = 65365 then some "Page_Up" else none
  upper := fun s => if s = "Page_Up" then "PAGE_UP" else s
  open_ := fun f => if f = "keys.ncl" then some keyDoc else if f = "two.ncl" then some Ex.twoMedias else none

/-- What a run of the program shows. -/
def showRun {α : Type} (r : Res (Shell × α)) (P : Shell → Bool) : Bool := match r with | .ok (s, _) => P s | _ => false

/-- The document of C17 with a medium that waits for RED: when the key goes down nothing happens; the selection begins when it goes up, and does not
end until the key is pressed again. -/
theorem C63_fails_document :
    showRun (playFiles 50 genv0 ["keys.ncl"] [.frame 0 0, .frame 1 1, .key true .f1] 0 (Shell.start "" 800 600 false false)) (fun s => decide (s.fmt.st.est 3 = .sleeping)) = true ∧
    showRun (playFiles 50 genv0 ["keys.ncl"] [.frame 0 0, .frame 1 1, .key true .f1, .key false .f1] 0 (Shell.start "" 800 600 false false)) (fun s => decide (s.fmt.st.est 3 = .occurring)) = true ∧
    showRun (playFiles 50 genv0 ["keys.ncl"] [.frame 0 0, .frame 1 1, .key true .f1, .key false .f1, .key true .f1] 0 (Shell.start "" 800 600 false false)) (fun s => decide (s.fmt.st.est 3 = .sleeping)) = true := by
  refine ⟨?_, ?_, ?_⟩ <;> decide +kernel

/-! Non-vacuity of `C63_exact_partial`: a run with keys for the document, a key of the program and a frame. -/
example : showRun (mainLoop 50 genv0 [.key true .f2, .frame 0 0, .key true .f10, .key true (.other 65365), .key false .escape]
    { Shell.start "" 800 600 false false with fmt := Fmt.new "" 800 600, ticking := false }) (fun s => keysOf s.calls == [("GREEN", false)]) = true := by decide +kernel
example : typed genv0 [.key true .f2, .frame 0 0, .key true .f10, .key true (.other 65365), .key false (.other 97)] = [("GREEN", true), ("PAGE_UP", true), ("a", false)] := by decide +kernel

end Ginga
