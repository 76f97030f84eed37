import Verif.Model.Lua
import Verif.Props.C11
import Verif.Props.C68b
/-!
# C75: an NCLua object and its script stay in step
-/
namespace Ginga

variable (E : LuaEnv)

/-! ## What the property speaks of -/

/-- The player that an operation is about. -/
def LOp.who : LOp → Option Nat
  | .start i _ => some i
  | .stop i => some i
  | .pause i => some i
  | .resume i => some i
  | .key i _ _ => some i
  | .anchor i _ _ => some i
  | .set i _ _ => some i
  | .redraw i => some i
  | .chdir _ => none

/-- What a script should be told of an operation, given the player before it. -/
def LOp.news (i : Nat) (p : LuaP) : LOp → List LMsg
  | .start j _ => if j = i then [.presentation "start" ""] else []
  | .stop j => if j = i then [.presentation "stop" ""] else []
  | .key j k press => if j = i then [.key k press] else []
  | .anchor j a l => if j = i then [.presentation a l] else []
  | .set j n v => if j = i then luaTell { p with base := { p.base with media := upd p.base.media n v } } n v else []
  | _ => []

/-- What a script should be told of a history. -/
def LOp.newsAll (i : Nat) : List LOp → LuaW → List LMsg
  | [], _ => []
  | o :: os, w => o.news i (w.pl i) ++ (match o.exec E w with | .ok w' => LOp.newsAll i os w' | _ => [])

/-- What a script has been given when it ran. -/
def LuaW.givenTo (w : LuaW) (i : Nat) : List LMsg := (w.ran.filter fun r => r.1 == i).flatMap fun r => r.2.2

/-- No other part of the process changes the working directory. -/
def LOp.stays : LOp → Prop
  | .chdir _ => False
  | _ => True

/-- The operation starts the object. -/
def LOp.starts (i : Nat) : LOp → Prop
  | .start j _ => j = i
  | _ => False

/-! ## One operation -/

theorem chdir_ok {dir : Str} {w w' : LuaW} (h : E.chdir dir w = .ok w') : w' = { w with cwd := dir } := by
  unfold LuaEnv.chdir at h
  split at h
  · cases h; rfl
  · cases h

/-- The working directory before: that of the process for players without a script, and what the players with one have saved. -/
def AtHome (w : LuaW) : Prop := ∀ i, (w.pl i).nw = true → (w.pl i).saved = w.cwd

theorem start_eq {i : Nat} {ok : Bool} {w w' : LuaW} (h : luaStart E i ok w = .ok w') :
    ∃ dir, E.dirOf (w.pl i).base.prop.uri = some dir ∧ (w.pl i).nw = false ∧ w'.cwd = w.cwd ∧ w'.ran = w.ran ++ [(i, dir, [])] ∧
      w'.pl = upd w.pl i { w.pl i with saved := w.cwd, pwd := dir, queue := [.presentation "start" ""], nw := true, st := .occurring } := by
  unfold luaStart at h
  split at h
  · cases h
  · next hn =>
    cases hd : E.dirOf (w.pl i).base.prop.uri with
    | none => rw [hd] at h; cases h
    | some dir =>
      rw [hd] at h
      obtain ⟨w1, h1, h⟩ := Res.bind_eq_ok h
      have e1 := chdir_ok E h1
      subst e1
      split at h
      · obtain ⟨w2, h2, h⟩ := Res.bind_eq_ok h
        have e2 := chdir_ok E h2
        subst e2
        cases h
        refine ⟨dir, rfl, ?_, ?_, ?_, ?_⟩
        · cases hb : (w.pl i).nw
          · rfl
          · exact absurd (.inr hb) hn
        · simp [LuaW.mod, LuaW.send, LuaW.run, upd_same]
        · simp [LuaW.mod, LuaW.send, LuaW.run, upd_same]
        · funext j
          by_cases hj : j = i
          · subst hj; simp [LuaW.mod, LuaW.send, LuaW.run, upd_same]
          · simp [LuaW.mod, LuaW.send, LuaW.run, upd_ne _ _ hj]
      · cases h

theorem cycle_eq {i : Nat} {w w' : LuaW} (h : luaCycle E i w = .ok w') :
    w'.cwd = (w.pl i).saved ∧ w'.ran = w.ran ++ [(i, (w.pl i).pwd, (w.pl i).queue)] ∧ w'.pl = upd w.pl i { w.pl i with queue := [] } := by
  unfold luaCycle at h
  obtain ⟨w1, h1, h⟩ := Res.bind_eq_ok h
  have e1 := chdir_ok E h1
  subst e1
  have e2 := chdir_ok E h
  subst e2
  exact ⟨rfl, rfl, rfl⟩

theorem stop_eq {i : Nat} {w w' : LuaW} (h : luaStop E i w = .ok w') :
    (w.pl i).nw = true ∧ w'.cwd = (w.pl i).saved ∧ w'.ran = w.ran ++ [(i, (w.pl i).pwd, (w.pl i).queue ++ [.presentation "stop" ""])] ∧
      ∃ b, w'.pl = upd w.pl i { w.pl i with queue := [], nw := false, st := .sleeping, base := b } := by
  unfold luaStop at h
  split at h
  · cases h
  · next hn =>
    obtain ⟨w1, h1, h⟩ := Res.bind_eq_ok h
    obtain ⟨b, hb, h⟩ := Res.bind_eq_ok h
    cases h
    obtain ⟨c1, c2, c3⟩ := cycle_eq E h1
    refine ⟨by simpa using (not_or.1 hn).2, ?_, ?_, b, ?_⟩
    · simpa [LuaW.mod, LuaW.send, upd_same] using c1
    · simpa [LuaW.mod, LuaW.send, upd_same] using c2
    · funext j
      by_cases hj : j = i
      · subst hj; simp [LuaW.mod, LuaW.send, upd_same, c3]
      · simp [LuaW.mod, LuaW.send, upd_ne _ _ hj, c3]

/-- What one operation does to one player, and to the process. -/
structure LStepOf (o : LOp) (i : Nat) (w w' : LuaW) : Prop where
  /-- what the script is given and what waits for it -/
  told : ¬ o.starts i → w'.givenTo i ++ (w'.pl i).queue = w.givenTo i ++ ((w.pl i).queue ++ o.news i (w.pl i))
  pwd : ¬ o.starts i → (w'.pl i).pwd = (w.pl i).pwd
  dirs : ¬ o.starts i → ∃ l, w'.ran = w.ran ++ l ∧ ∀ r ∈ l, r.1 = i → r.2.1 = (w.pl i).pwd

theorem given_append {w w' : LuaW} {l : List (Nat × Str × List LMsg)} (h : w'.ran = w.ran ++ l) (i : Nat) :
    w'.givenTo i = w.givenTo i ++ (l.filter fun r => r.1 == i).flatMap fun r => r.2.2 := by
  unfold LuaW.givenTo
  rw [h, List.filter_append, List.flatMap_append]

theorem lua_step {o : LOp} {w w' : LuaW} (h : o.exec E w = .ok w') (i : Nat) : LStepOf o i w w' := by
  have hkeep : ∀ {w' : LuaW}, w'.ran = w.ran → w'.givenTo i = w.givenTo i := fun h => by unfold LuaW.givenTo; rw [h]
  have hsend : ∀ (j : Nat) (l : List LMsg) (f : LuaP → LuaP), (∀ p, (f p).queue = p.queue) → (∀ p, (f p).pwd = p.pwd) → ∀ (o : LOp), (o.news i (w.pl i) = if j = i then l else []) →
      LStepOf o i w ((w.send j l).mod j f) := by
    intro j l f hq hp o ho
    by_cases hj : i = j
    · subst hj
      refine ⟨fun _ => ?_, fun _ => ?_, fun _ => ⟨[], by simp [LuaW.send, LuaW.mod], by simp⟩⟩
      · rw [hkeep (by rfl), ho]
        simp [LuaW.send, LuaW.mod, upd_same, hq]
      · simp [LuaW.send, LuaW.mod, upd_same, hp]
    · refine ⟨fun _ => ?_, fun _ => ?_, fun _ => ⟨[], by simp [LuaW.send, LuaW.mod], by simp⟩⟩
      · rw [hkeep (by rfl), ho, if_neg (Ne.symm hj)]
        simp [LuaW.send, LuaW.mod, upd_ne _ _ hj]
      · simp [LuaW.send, LuaW.mod, upd_ne _ _ hj]
  have hid : ∀ (w : LuaW) (j : Nat), w.mod j (fun p => p) = w := by
    intro w j
    unfold LuaW.mod
    have : upd w.pl j (w.pl j) = w.pl := by
      funext k
      by_cases hk : k = j
      · subst hk; simp [upd_same]
      · simp [upd_ne _ _ hk]
    rw [this]
  cases o with
  | start j ok =>
    obtain ⟨dir, hd, hn, hc, hr, hp⟩ := start_eq E h
    by_cases hj : i = j
    · subst hj
      exact ⟨fun hs => absurd rfl hs, fun hs => absurd rfl hs, fun hs => absurd rfl hs⟩
    · refine ⟨fun _ => ?_, fun _ => ?_, fun _ => ⟨_, hr, ?_⟩⟩
      · rw [given_append hr i, hp]
        simp [upd_ne _ _ hj, LOp.news, Ne.symm hj]
      · rw [hp, upd_ne _ _ hj]
      · rintro r hr' rfl
        rw [List.mem_singleton.1 hr'] at hj
        exact absurd rfl hj
  | stop j =>
    obtain ⟨hn, hc, hr, b, hp⟩ := stop_eq E h
    by_cases hj : i = j
    · subst hj
      refine ⟨fun _ => ?_, fun _ => ?_, fun _ => ⟨_, hr, ?_⟩⟩
      · rw [given_append hr i, hp]
        simp [upd_same, LOp.news]
      · rw [hp, upd_same]
      · rintro r hr' -
        rw [List.mem_singleton.1 hr']
    · refine ⟨fun _ => ?_, fun _ => ?_, fun _ => ⟨_, hr, ?_⟩⟩
      · rw [given_append hr i, hp]
        simp [upd_ne _ _ hj, LOp.news, Ne.symm hj]
      · rw [hp, upd_ne _ _ hj]
      · rintro r hr' rfl
        rw [List.mem_singleton.1 hr'] at hj
        exact absurd rfl hj
  | pause j => cases h
  | resume j => cases h
  | key j k press =>
    simp only [LOp.exec] at h
    split at h
    · cases h
      have := hsend j [.key k press] (fun p => p) (fun _ => rfl) (fun _ => rfl) (.key j k press) rfl
      rwa [hid] at this
    · cases h
  | anchor j a l =>
    simp only [LOp.exec] at h
    split at h
    · cases h
      have := hsend j [.presentation a l] (fun p => p) (fun _ => rfl) (fun _ => rfl) (.anchor j a l) rfl
      rwa [hid] at this
    · cases h
  | set j n v =>
    simp only [LOp.exec] at h
    obtain ⟨b, hb, h⟩ := Res.bind_eq_ok h
    cases h
    refine hsend j _ (fun p => { p with base := b }) (fun _ => rfl) (fun _ => rfl) (.set j n v) ?_
    by_cases hj : j = i
    · subst hj; simp [LOp.news]
    · simp [LOp.news, hj]
  | redraw j =>
    simp only [LOp.exec] at h
    split at h
    · cases h
    · obtain ⟨hc, hr, hp⟩ := cycle_eq E h
      by_cases hj : i = j
      · subst hj
        refine ⟨fun _ => ?_, fun _ => ?_, fun _ => ⟨_, hr, ?_⟩⟩
        · rw [given_append hr i, hp]
          simp [upd_same, LOp.news]
        · rw [hp, upd_same]
        · rintro r hr' -
          rw [List.mem_singleton.1 hr']
      · refine ⟨fun _ => ?_, fun _ => ?_, fun _ => ⟨_, hr, ?_⟩⟩
        · rw [given_append hr i, hp]
          simp [upd_ne _ _ hj, LOp.news, Ne.symm hj]
        · rw [hp, upd_ne _ _ hj]
        · rintro r hr' rfl
          rw [List.mem_singleton.1 hr'] at hj
          exact absurd rfl hj
  | chdir dir =>
    cases h
    exact ⟨fun _ => by simp [LOp.news, LuaW.givenTo], fun _ => rfl, fun _ => ⟨[], by simp, by simp⟩⟩

/-! ## Histories -/

/-- **C75** (told): from its start on, and until it is started again, a script is given, in order and each once, the start, the stop, the keys, the labelled anchors and the properties of
its own object; what it has not yet been given waits for it. -/
theorem C75_told {i : Nat} {ok : Bool} (os : List LOp) (hos : ∀ o ∈ os, ¬ o.starts i) {w w1 w2 : LuaW} (hs : (LOp.start i ok).exec E w = .ok w1) (h : LOp.execAll E os w1 = .ok w2) :
    w2.givenTo i ++ (w2.pl i).queue = w.givenTo i ++ .presentation "start" "" :: LOp.newsAll E i os w1 := by
  have hrest : ∀ (os : List LOp), (∀ o ∈ os, ¬ o.starts i) → ∀ {w w' : LuaW}, LOp.execAll E os w = .ok w' →
      w'.givenTo i ++ (w'.pl i).queue = w.givenTo i ++ ((w.pl i).queue ++ LOp.newsAll E i os w) := by
    intro os
    induction os with
    | nil => intro _ w w' h; cases h; simp [LOp.newsAll]
    | cons o os ih =>
      intro ho w w' h
      obtain ⟨v, hv, h⟩ := Res.bind_eq_ok h
      have a := (lua_step E hv i).told (ho o List.mem_cons_self)
      rw [ih (fun o h => ho o (List.mem_cons_of_mem _ h)) h, ← List.append_assoc, a]
      simp only [LOp.newsAll, hv, List.append_assoc]
  rw [hrest os hos h]
  obtain ⟨dir, hd, hn, hc, hr, hp⟩ := start_eq E hs
  rw [given_append hr i, hp]
  simp [upd_same]

/-- **C75** (stop): when the object stops the script has been given everything, last of all the stop; it is then gone. -/
theorem C75_closed {i : Nat} {w w1 : LuaW} (h : (LOp.stop i).exec E w = .ok w1) :
    (w1.pl i).nw = false ∧ (w1.pl i).queue = [] ∧ w1.givenTo i = w.givenTo i ++ (w.pl i).queue ++ [.presentation "stop" ""] := by
  obtain ⟨hn, hc, hr, b, hp⟩ := stop_eq E h
  rw [given_append hr i, hp]
  simp [upd_same]

/-- **C75** (frame): when the object is drawn the script has been given everything that was sent to it. -/
theorem C75_drawn {i : Nat} {w w1 : LuaW} (h : (LOp.redraw i).exec E w = .ok w1) : (w1.pl i).queue = [] ∧ w1.givenTo i = w.givenTo i ++ (w.pl i).queue := by
  simp only [LOp.exec] at h
  split at h
  · cases h
  · obtain ⟨hc, hr, hp⟩ := cycle_eq E h
    rw [given_append hr i, hp]
    simp [upd_same]

/-- **C75** (its directory): a script runs in the directory of its file, whatever other scripts and other parts of the process do. -/
theorem C75_directory {i : Nat} {ok : Bool} (os : List LOp) (hos : ∀ o ∈ os, ¬ o.starts i) {w w1 w2 : LuaW} (hs : (LOp.start i ok).exec E w = .ok w1) (h : LOp.execAll E os w1 = .ok w2) :
    ∃ dir l, E.dirOf (w.pl i).base.prop.uri = some dir ∧ w2.ran = w.ran ++ l ∧ ∀ r ∈ l, r.1 = i → r.2.1 = dir := by
  have hrest : ∀ (os : List LOp), (∀ o ∈ os, ¬ o.starts i) → ∀ {w w' : LuaW}, LOp.execAll E os w = .ok w' → ∃ l, w'.ran = w.ran ++ l ∧ ∀ r ∈ l, r.1 = i → r.2.1 = (w.pl i).pwd := by
    intro os
    induction os with
    | nil => intro _ w w' h; cases h; exact ⟨[], by simp, by simp⟩
    | cons o os ih =>
      intro ho w w' h
      obtain ⟨v, hv, h⟩ := Res.bind_eq_ok h
      have a := lua_step E hv i
      obtain ⟨l1, e1, h1⟩ := a.dirs (ho o List.mem_cons_self)
      obtain ⟨l2, e2, h2⟩ := ih (fun o h => ho o (List.mem_cons_of_mem _ h)) h
      refine ⟨l1 ++ l2, by rw [e2, e1, List.append_assoc], fun r hr he => ?_⟩
      rcases List.mem_append.1 hr with hr | hr
      · exact h1 r hr he
      · rw [h2 r hr he, a.pwd (ho o List.mem_cons_self)]
  obtain ⟨dir, hd, hn, hc, hr, hp⟩ := start_eq E hs
  obtain ⟨l, e, hl⟩ := hrest os hos h
  refine ⟨dir, (i, dir, []) :: l, hd, by rw [e, hr]; simp, fun r hr' he => ?_⟩
  rcases List.mem_cons.1 hr' with rfl | hr'
  · rfl
  · rw [hl r hr' he, hp, upd_same]

theorem home_step {o : LOp} (ho : o.stays) {w w' : LuaW} (hw : AtHome w) (h : o.exec E w = .ok w') : AtHome w' ∧ w'.cwd = w.cwd := by
  have hset : ∀ {w' : LuaW}, w'.cwd = w.cwd → (∀ i, (w'.pl i).nw = true → (w.pl i).nw = true ∧ (w'.pl i).saved = (w.pl i).saved) → AtHome w' ∧ w'.cwd = w.cwd := by
    intro w' hc hp
    refine ⟨fun i hi => ?_, hc⟩
    obtain ⟨a, b⟩ := hp i hi
    rw [b, hw i a, hc]
  have hmod : ∀ (j : Nat) (p : LuaP) (c : Str), w'.cwd = w.cwd → w'.pl = upd w.pl j p → (p.nw = true → (w.pl j).nw = true ∧ p.saved = (w.pl j).saved) → AtHome w' ∧ w'.cwd = w.cwd := by
    intro j p c hc hp hn
    refine hset hc fun i hi => ?_
    rw [hp] at hi ⊢
    by_cases hj : i = j
    · subst hj; rw [upd_same] at hi ⊢; exact hn hi
    · rw [upd_ne _ _ hj] at hi ⊢; exact ⟨hi, rfl⟩
  cases o with
  | start j ok =>
    obtain ⟨dir, hd, hn, hc, hr, hp⟩ := start_eq E h
    refine ⟨fun i hi => ?_, hc⟩
    rw [hp] at hi ⊢
    by_cases hj : i = j
    · subst hj; rw [upd_same, hc]
    · rw [upd_ne _ _ hj] at hi ⊢; rw [hw i hi, hc]
  | stop j =>
    obtain ⟨hn, hc, hr, b, hp⟩ := stop_eq E h
    exact hmod j _ [] (hc.trans (hw j hn)) hp (fun h => by cases h)
  | pause j => cases h
  | resume j => cases h
  | key j k press =>
    simp only [LOp.exec] at h
    split at h
    · cases h; exact hmod j _ [] rfl rfl (fun h => ⟨h, rfl⟩)
    · cases h
  | anchor j a l =>
    simp only [LOp.exec] at h
    split at h
    · cases h; exact hmod j _ [] rfl rfl (fun h => ⟨h, rfl⟩)
    · cases h
  | set j n v =>
    simp only [LOp.exec] at h
    obtain ⟨b, hb, h⟩ := Res.bind_eq_ok h
    cases h
    refine hset rfl fun i hi => ?_
    by_cases hj : i = j
    · subst hj; simp [LuaW.mod, LuaW.send, upd_same] at hi ⊢; exact hi
    · simp [LuaW.mod, LuaW.send, upd_ne _ _ hj] at hi ⊢; exact hi
  | redraw j =>
    simp only [LOp.exec] at h
    split at h
    · cases h
    · next hn =>
      obtain ⟨hc, hr, hp⟩ := cycle_eq E h
      have hn : (w.pl j).nw = true := by simpa using (not_or.1 hn).2
      exact hmod j _ [] (hc.trans (hw j hn)) hp (fun h => ⟨h, rfl⟩)
  | chdir dir => exact absurd ho (by simp [LOp.stays])

/-- **C75** (the directory of the process): however many scripts there are and however their starts, frames and stops interleave, the working directory of the process is what it was, if
nothing else changes it. -/
theorem C75_home (os : List LOp) (hos : ∀ o ∈ os, o.stays) : ∀ {w w' : LuaW}, AtHome w → LOp.execAll E os w = .ok w' → AtHome w' ∧ w'.cwd = w.cwd := by
  induction os with
  | nil => intro w w' hw h; cases h; exact ⟨hw, rfl⟩
  | cons o os ih =>
    intro w w' hw h
    obtain ⟨v, hv, h⟩ := Res.bind_eq_ok h
    obtain ⟨a, b⟩ := home_step E (hos o List.mem_cons_self) hw hv
    obtain ⟨a', b'⟩ := ih (fun o ho => hos o (List.mem_cons_of_mem _ ho)) a h
    exact ⟨a', b'.trans b⟩

/-- A process in which no script has been started is at home. -/
theorem atHome_init {w : LuaW} (h : ∀ i, (w.pl i).nw = false) : AtHome w := fun i hi => by rw [h i] at hi; cases hi

/-! ## What a script posts -/

/-- What a posted event asks for: an action on an event of the object of the script, or nothing. -/
def LPost.Means (d : Doc) (o : Oid) (p : LPost) (l : List Act) : Prop :=
  if p.ncl = false ∨ (p.type ≠ "presentation" ∧ p.type ≠ "attribution") then l = []
  else ∃ e t, e ∈ (d.obj o).events ∧ (p.action, t) ∈ [("start", Trans.start), ("pause", .pause), ("resume", .resume), ("stop", .stop), ("abort", .abort)] ∧
    (p.type = "presentation" → (d.ev e).typ = .presentation ∧ (if p.name = "" then (d.ev e).id = "@lambda" else (d.ev e).label = p.name) ∧ l = [{ ev := e, tr := t }]) ∧
    (p.type = "attribution" → (d.ev e).typ = .attribution ∧ (d.ev e).id = p.name ∧ l = [{ ev := e, tr := t, value := p.value }])

theorem luaAction_mem {a : String} {t : Trans} (h : luaAction a = some t) :
    (a, t) ∈ [("start", Trans.start), ("pause", .pause), ("resume", .resume), ("stop", .stop), ("abort", .abort)] := by
  unfold luaAction at h
  repeat' split at h
  all_goals first | cases h; done | (cases h; simp [*])

theorem getEvent_mem {d : Doc} {o : Oid} {t : EType} {i : String} {e : Eid} (h : d.getEvent o t i = some e) : e ∈ (d.obj o).events ∧ (d.ev e).typ = t ∧ (d.ev e).id = i := by
  unfold Doc.getEvent at h
  have h1 := List.find?_some h
  simp only [Bool.and_eq_true, beq_iff_eq] at h1
  exact ⟨List.mem_of_find?_eq_some h, h1⟩

theorem byLabel_mem {d : Doc} {o : Oid} {l : String} {e : Eid} (h : d.byLabel o l = some e) : e ∈ (d.obj o).events ∧ (d.ev e).typ = .presentation ∧ (d.ev e).label = l := by
  unfold Doc.byLabel at h
  have h1 := List.find?_some h
  simp only [Bool.and_eq_true, beq_iff_eq] at h1
  exact ⟨List.mem_of_find?_eq_some h, h1⟩

/-- **C75** (posts): what a script posts becomes actions on events of its own object, in the order in which they were posted, after all that waited, and due at once. -/
theorem C75_posts {d : Doc} {o : Oid} (ps : List LPost) : ∀ {s s' : St}, luaReceive d o ps s = .ok ((), s') →
    ∃ ls : List (List Act), ls.length = ps.length ∧ (∀ p ∈ ps.zip ls, p.1.Means d o p.2) ∧
      s' = { s with delayed := upd s.delayed o (s.delayed o ++ ls.flatten.map fun a => (a, tadd (s.time o) 0)) } := by
  induction ps with
  | nil =>
    intro s s' h
    cases h
    refine ⟨[], rfl, by simp, ?_⟩
    have : upd s.delayed o (s.delayed o) = s.delayed := by
      funext k
      by_cases hk : k = o
      · subst hk; simp [upd_same]
      · simp [upd_ne _ _ hk]
    simp [this]
  | cons p ps ih =>
    intro s s' h
    have hnone : p.Means d o [] → luaReceive d o ps s = .ok ((), s') → ∃ ls : List (List Act), ls.length = (p :: ps).length ∧ (∀ q ∈ (p :: ps).zip ls, q.1.Means d o q.2) ∧
        s' = { s with delayed := upd s.delayed o (s.delayed o ++ ls.flatten.map fun a => (a, tadd (s.time o) 0)) } := by
      intro hp h
      obtain ⟨ls, h1, h2, h3⟩ := ih h
      refine ⟨[] :: ls, by simp [h1], ?_, by simpa using h3⟩
      intro q hq
      rcases List.mem_cons.1 hq with rfl | hq
      · exact hp
      · exact h2 q hq
    have hone : ∀ (e : Eid) (t : Trans) (v : String), p.Means d o [{ ev := e, tr := t, value := v }] → luaReceive d o ps (s.setDelayed o (s.delayed o ++ [({ ev := e, tr := t, value := v }, tadd (s.time o) 0)])) = .ok ((), s') →
        ∃ ls : List (List Act), ls.length = (p :: ps).length ∧ (∀ q ∈ (p :: ps).zip ls, q.1.Means d o q.2) ∧
        s' = { s with delayed := upd s.delayed o (s.delayed o ++ ls.flatten.map fun a => (a, tadd (s.time o) 0)) } := by
      intro e t v hp h
      obtain ⟨ls, h1, h2, h3⟩ := ih h
      refine ⟨[{ ev := e, tr := t, value := v }] :: ls, by simp [h1], ?_, ?_⟩
      · intro q hq
        rcases List.mem_cons.1 hq with rfl | hq
        · exact hp
        · exact h2 q hq
      · rw [h3]
        have hu : ∀ (a b : List (Act × Nat)), upd (upd s.delayed o a) o b = upd s.delayed o b := by
          intro a b; funext k
          by_cases hk : k = o
          · subst hk; simp [upd_same]
          · simp [upd_ne _ _ hk]
        simp [St.setDelayed, upd_same, hu]
    simp only [luaReceive] at h
    by_cases h1 : p.ncl = true
    · simp only [h1, Bool.not_true, Bool.false_eq_true, if_false] at h
      by_cases h2 : p.type = "presentation"
      · rw [if_pos h2] at h
        cases he : (if p.name = "" then d.getEvent o .presentation "@lambda" else d.byLabel o p.name) with
        | none => rw [he] at h; cases h
        | some e =>
          cases ht : luaAction p.action with
          | none => rw [he, ht] at h; cases h
          | some t =>
            rw [he, ht] at h
            refine hone e t "" ?_ h
            unfold LPost.Means
            rw [if_neg (by simp [h1, h2])]
            have hev : e ∈ (d.obj o).events ∧ (d.ev e).typ = .presentation ∧ (if p.name = "" then (d.ev e).id = "@lambda" else (d.ev e).label = p.name) := by
              by_cases hn : p.name = ""
              · rw [if_pos hn] at he; rw [if_pos hn]; exact getEvent_mem he
              · rw [if_neg hn] at he; rw [if_neg hn]; exact byLabel_mem he
            exact ⟨e, t, hev.1, luaAction_mem ht, fun _ => ⟨hev.2.1, hev.2.2, rfl⟩, fun hh => absurd (h2.symm.trans hh) (by decide)⟩
      · rw [if_neg h2] at h
        by_cases h3 : p.type = "attribution"
        · rw [if_pos h3] at h
          cases he : d.getEvent o .attribution p.name with
          | none => rw [he] at h; cases h
          | some e =>
            cases ht : luaAction p.action with
            | none => rw [he, ht] at h; cases h
            | some t =>
              rw [he, ht] at h
              refine hone e t p.value ?_ h
              unfold LPost.Means
              rw [if_neg (by simp [h1, h3])]
              obtain ⟨m1, m2, m3⟩ := getEvent_mem he
              exact ⟨e, t, m1, luaAction_mem ht, fun hh => absurd hh h2, fun _ => ⟨m2, m3, rfl⟩⟩
        · rw [if_neg h3] at h
          refine hnone ?_ h
          unfold LPost.Means
          rw [if_pos (.inr ⟨h2, h3⟩)]
    · have h1 : p.ncl = false := by simpa using h1
      simp only [h1, Bool.not_false, if_true] at h
      refine hnone ?_ h
      unfold LPost.Means
      rw [if_pos (.inl h1)]

/-- **C75** (posts are done): at the next tick, all that was due and then all that the script had posted is done, in this order, unless the object makes a transition as a whole meanwhile (which
a script may ask for: see C11). -/
theorem C75_next_tick {d : Doc} (hd : DocWF d) {o : Oid} {ps : List LPost} {s s1 s2 : St} (h : luaReceive d o ps s = .ok ((), s1)) (hocc : s.est (d.obj o).lambda = .occurring) {diff n : Nat}
    (hclk : s.time o + diff < NONE) (ht : objTick d (run d n) o diff s1 = .ok ((), s2)) (hn : ¬ TouchedBetween d o s1 s2) :
    ∃ ls : List (List Act), ls.length = ps.length ∧ (∀ p ∈ ps.zip ls, p.1.Means d o p.2) ∧
      ∃ t1 t2, InOrder d n (((s.delayed o).filter (fun p => p.2 ≤ s.time o + diff)).map (·.1) ++ ls.flatten) t1 t2 ∧
        t1 = { s1 with time := t1.time, delayed := t1.delayed } ∧ s2 = { t2 with delayed := s2.delayed } := by
  obtain ⟨ls, h1, h2, h3⟩ := C75_posts ps h
  refine ⟨ls, h1, h2, ?_⟩
  have he : s1.est = s.est := by rw [h3]
  have htime : s1.time = s.time := by rw [h3]
  obtain ⟨t1, t2, ha, hb, hc, -, -⟩ := C11_all_due_partial hd s1 n o (by rw [he]; exact hocc) diff (by rw [htime]; exact hclk) s2 ht hn
  refine ⟨t1, t2, ?_, hb, hc⟩
  have hq : s1.delayed o = s.delayed o ++ ls.flatten.map fun a => (a, tadd (s.time o) 0) := by rw [h3]; exact upd_same ..
  have hz : tadd (s.time o) 0 = s.time o := by unfold tadd; simp only [NONE] at hclk; omega
  rw [hq, htime, hz, List.filter_append, List.map_append] at ha
  have hf : (ls.flatten.map fun a => (a, s.time o)).filter (fun p => decide (p.2 ≤ s.time o + diff)) = ls.flatten.map fun a => (a, s.time o) := by
    rw [List.filter_eq_self]
    intro p hp
    obtain ⟨a, -, rfl⟩ := List.mem_map.1 hp
    simp
  rw [hf, List.map_map] at ha
  have hid : ((fun p : Act × Nat => p.1) ∘ fun a => (a, s.time o)) = id := rfl
  rw [hid, List.map_id] at ha
  exact ha

/-- **C75** (properties): a property that sets no other ones, known or not, is told to the script of a presented object as one attribution that starts and stops. -/
theorem C75_property {p : LuaP} (hp : p.nw = true ∧ p.st = .occurring) {n : String} (hn : n ∉ ["bounds", "location", "size", "width", "height"])
    (hty : (propInfo n).isSome ∨ p.base.get "type" = "application/x-ginga-NCLua".toList) {v : Str} (hv : v ≠ []) :
    luaTell p n v = [.attribution "start" n v, .attribution "stop" n v] := by
  have h1 : luaTold1 n v = [(n, v)] := by
    unfold luaTold1
    cases propInfo n with
    | none => rfl
    | some q => simp [hv]
  have h2 : luaTold2 p.base.media n v = [(n, v)] := by
    unfold luaTold2
    simp only [List.mem_cons, List.not_mem_nil, or_false, not_or] at hn
    rw [h1, if_neg (fun h => hn.2.2.2.1 h.1), if_neg (fun h => hn.2.2.2.2 h.1)]
    rfl
  have hcode : ∀ c, (c = .bounds ∨ c = .location ∨ c = .size) → ∀ d, propInfo n ≠ some (c, d) := by
    intro c hc d hi
    have : codeOf n = some c := by rw [codeOf, hi]; rfl
    rcases code_names this with ⟨q, hq, q1, q2⟩ | ⟨q, hq, rfl⟩
    · have : ∀ q ∈ propTable, (q.2.1 = .bounds ∨ q.2.1 = .location ∨ q.2.1 = .size) → q.1 ∈ ["bounds", "location", "size", "width", "height"] := by decide
      exact hn (q1 ▸ this q hq (q2 ▸ hc))
    · have : ∀ q ∈ aliasTable, codeOf q.1 ≠ some .bounds ∧ codeOf q.1 ≠ some .location ∧ codeOf q.1 ≠ some .size := by decide
      obtain ⟨a, b, c'⟩ := this q hq
      rcases hc with rfl | rfl | rfl
      · exact a (by assumption)
      · exact b (by assumption)
      · exact c' (by assumption)
  have h3 : luaTold p.base.media n v = [(n, v)] := by
    unfold luaTold
    rw [h2]
    split
    · next hi => exact absurd hi (hcode _ (.inl rfl) _)
    · next hi => exact absurd hi (hcode _ (.inr (.inl rfl)) _)
    · next hi => exact absurd hi (hcode _ (.inr (.inr rfl)) _)
    · rfl
  unfold luaTell
  rw [if_pos ⟨hp.1, hp.2, hty⟩, h3]
  rfl

/-! ## What is not so -/

/-- **C75** (no pause): pausing or resuming an object that is a script ends the process. -/
theorem C75_fails_pause (i : Nat) (os : List LOp) (hos : LOp.pause i ∈ os ∨ LOp.resume i ∈ os) : ∀ w w' : LuaW, LOp.execAll E os w ≠ .ok w' := by
  induction os with
  | nil => simp at hos
  | cons o os ih =>
    intro w w' h
    obtain ⟨v, hv, h⟩ := Res.bind_eq_ok h
    rcases hos with hos | hos
    · rcases List.mem_cons.1 hos with rfl | hos
      · cases hv
      · exact ih (.inl hos) v w' h
    · rcases List.mem_cons.1 hos with rfl | hos
      · cases hv
      · exact ih (.inr hos) v w' h

/-- **C75** (no unknown names): a script that posts an event with a label, property or action that does not exist ends the process. -/
theorem C75_fails_post {d : Doc} {o : Oid} {p : LPost} (hp : ∀ l, ¬ p.Means d o l) (ps : List LPost) (hps : p ∈ ps) (s s' : St) : luaReceive d o ps s ≠ .ok ((), s') := by
  intro h
  obtain ⟨ls, h1, h2, -⟩ := C75_posts ps h
  obtain ⟨i, hi, rfl⟩ := List.getElem_of_mem hps
  have := h2 (ps[i], ls[i]'(by omega)) (by
    have hz : i < (ps.zip ls).length := by simp; omega
    have := List.getElem_mem hz
    simpa using this)
  exact hp _ this

/-- **C75** (the directory of the process): if another part of the process changes the working directory, the next frame of a script that was started before changes it back. -/
theorem C75_fails_home {i : Nat} {ok : Bool} {os : List LOp} (hos : ∀ o ∈ os, ¬ o.starts i) {w w1 w2 w3 : LuaW} (hs : (LOp.start i ok).exec E w = .ok w1) (h : LOp.execAll E os w1 = .ok w2)
    {dir : Str} (h3 : LOp.execAll E [.chdir dir, .redraw i] w2 = .ok w3) : w3.cwd = w.cwd := by
  have hsaved : ∀ (os : List LOp), (∀ o ∈ os, ¬ o.starts i) → ∀ {w w' : LuaW}, LOp.execAll E os w = .ok w' → (w'.pl i).saved = (w.pl i).saved := by
    intro os
    induction os with
    | nil => intro _ w w' h; cases h; rfl
    | cons o os ih =>
      intro ho w w' h
      obtain ⟨v, hv, h⟩ := Res.bind_eq_ok h
      rw [ih (fun o h => ho o (List.mem_cons_of_mem _ h)) h]
      have ho := ho o List.mem_cons_self
      have hmod : ∀ (j : Nat) (p : LuaP), v.pl = upd w.pl j p → (j = i → p.saved = (w.pl i).saved) → (v.pl i).saved = (w.pl i).saved := by
        intro j p hv hp
        rw [hv]
        by_cases hj : i = j
        · subst hj; rw [upd_same, hp rfl]
        · rw [upd_ne _ _ hj]
      cases o with
      | start j ok =>
        obtain ⟨dir, -, -, -, -, hp⟩ := start_eq E hv
        exact hmod j _ hp (fun hj => absurd hj ho)
      | stop j =>
        obtain ⟨-, -, -, b, hp⟩ := stop_eq E hv
        exact hmod j _ hp (fun hj => by subst hj; rfl)
      | pause j => cases hv
      | resume j => cases hv
      | key j k press =>
        simp only [LOp.exec] at hv
        split at hv
        · cases hv; exact hmod j _ rfl (fun hj => by subst hj; rfl)
        · cases hv
      | anchor j a l =>
        simp only [LOp.exec] at hv
        split at hv
        · cases hv; exact hmod j _ rfl (fun hj => by subst hj; rfl)
        · cases hv
      | set j n v =>
        simp only [LOp.exec] at hv
        obtain ⟨b, hb, hv⟩ := Res.bind_eq_ok hv
        cases hv
        by_cases hj : i = j
        · subst hj; simp [LuaW.mod, LuaW.send, upd_same]
        · simp [LuaW.mod, LuaW.send, upd_ne _ _ hj]
      | redraw j =>
        simp only [LOp.exec] at hv
        split at hv
        · cases hv
        · obtain ⟨-, -, hp⟩ := cycle_eq E hv
          exact hmod j _ hp (fun hj => by subst hj; rfl)
      | chdir dir => cases hv; rfl
  obtain ⟨w', hw', h3⟩ := Res.bind_eq_ok h3
  cases hw'
  obtain ⟨w'', hw'', h3⟩ := Res.bind_eq_ok h3
  cases h3
  simp only [LOp.exec] at hw''
  split at hw''
  · cases hw''
  · obtain ⟨hc, -, -⟩ := cycle_eq E hw''
    rw [hc]
    refine (hsaved os hos h).trans ?_
    obtain ⟨dir, -, -, -, -, hp⟩ := start_eq E hs
    rw [hp, upd_same]

/-! ## Cases -/

/-- Two scripts, `a/x.lua` and `b/y.lua`. -/
def luaEnv0 : LuaEnv := { e := penv0, dirOf := fun u => if u = "file:///a/x.lua".toList then some "/a".toList else if u = "file:///b/y.lua".toList then some "/b".toList else none, enter := fun _ => true }

def luaP0 (uri : String) : LuaP :=
  { base := { pst0 with prop := { pst0.prop with uri := uri.toList }, player := fun n => if n = "type" then "application/x-ginga-NCLua".toList else [] }, st := .sleeping, nw := false, pwd := [], saved := [], queue := [] }

def luaW0 : LuaW := { cwd := "/home".toList, pl := fun i => if i = 0 then luaP0 "file:///a/x.lua" else luaP0 "file:///b/y.lua", ran := [] }

/-- What of a result is looked at. -/
def luaSeen (r : Res LuaW) : Option (Str × List (Nat × Str × List LMsg) × List LMsg) := match r with | .ok w => some (w.cwd, w.ran, (w.pl 0).queue) | _ => none

set_option synthInstance.maxSize 1000 in
/-- Both scripts are started, the first is told of a key, a property of the document and a compound one, the second stops. -/
example : luaSeen (LOp.execAll luaEnv0 [.start 0 true, .start 1 true, .key 0 "RED" true, .redraw 0, .set 0 "score" "3".toList, .redraw 1, .set 0 "location" "1,2".toList, .stop 1] luaW0) =
    some ("/home".toList,
      [(0, "/a".toList, []), (1, "/b".toList, []), (0, "/a".toList, [.presentation "start" "", .key "RED" true]), (1, "/b".toList, [.presentation "start" ""]),
       (1, "/b".toList, [.presentation "stop" ""])],
      [.attribution "start" "score" "3".toList, .attribution "stop" "score" "3".toList, .attribution "start" "location" "1,2".toList, .attribution "stop" "location" "1,2".toList,
       .attribution "start" "left" "1".toList, .attribution "stop" "left" "1".toList, .attribution "start" "top" "2".toList, .attribution "stop" "top" "2".toList]) := by decide +kernel

example : AtHome luaW0 := atHome_init (fun i => by unfold luaW0; simp only; split <;> rfl)

set_option synthInstance.maxSize 1000 in
/-- Another part of the process moves to another directory: the next frame moves it back. -/
example : luaSeen (LOp.execAll luaEnv0 [.start 0 true, .chdir "/tmp".toList, .redraw 0] luaW0) =
    some ("/home".toList, [(0, "/a".toList, []), (0, "/a".toList, [.presentation "start" ""])], []) := by decide +kernel

end Ginga
