import Verif.Proofs.Ends
import Verif.Props.C21
/-! # C21 — every call terminates (acyclic links)

`C21_terminates_partial`: if no transition can lead back to itself through immediate link actions, the
propagation of PAUSE/RESUME to anchors and the switch ports, and objects are nested to a finite depth,
every call of every history returns (or ends the process): from some recursion bound on the result of
the call is the same, and is not "out of fuel".

Missing for the full C21: documents with cycles (for them the claim is false, `C21_fails`). -/
set_option linter.unusedVariables false
set_option linter.unusedSectionVars false
namespace Ginga
open Ex

/-- No transition leads back to itself (`R` decreases along `Leads`), and nesting has finite depth. -/
structure Tame (d : Doc) : Prop where
  acyclic : ∃ R : Eid → Trans → Nat, ∀ e t e' t', Leads d (e, t) (e', t') → R e' t' < R e t
  depth : ∃ height : Oid → Nat, ∀ c o, (d.obj c).parent = some o → height c < height o

/-- The computation has one outcome from some bound on, and that is not "out of fuel". -/
def Settles {α : Type} (x : Nat → Res α) : Prop := ∃ res n0, res ≠ .fuel ∧ ∀ n, n0 ≤ n → x n = res

theorem Settles.const {α : Type} {x : Res α} (h : x ≠ .fuel) : Settles (fun _ => x) := ⟨x, 0, h, fun _ _ => rfl⟩

theorem Settles.bind {α β : Type} {x : Nat → Res α} {f : α → Nat → Res β} (h : Settles x)
    (hf : ∀ a, (∃ n, x n = .ok a) → Settles (f a)) : Settles (fun n => (x n).bind fun a => f a n) := by
  obtain ⟨res, n0, h1, h2⟩ := h
  cases res with
  | ok a =>
    obtain ⟨res', n1, h3, h4⟩ := hf a ⟨n0, h2 n0 (Nat.le_refl _)⟩
    refine ⟨res', max n0 n1, h3, fun n hle => ?_⟩
    dsimp only
    rw [h2 n (by omega)]
    exact h4 n (by omega)
  | fuel => exact absurd rfl h1
  | abort => exact ⟨.abort, n0, by simp, fun n hle => by dsimp only; rw [h2 n hle]; rfl⟩
  | ub => exact ⟨.ub, n0, by simp, fun n hle => by dsimp only; rw [h2 n hle]; rfl⟩

theorem Settles.run {d : Doc} {α : Type} {m : Rec → M α} {f : Fmt} (h : Ends d m f.st) :
    Settles (fun n => f.run (m (Ginga.run d n))) :=
  Settles.bind h fun a _ => Settles.const (by simp)

section
variable {d : Doc} {rank : Oid → Nat} (hw : WF d rank) (ht : Tame d)
include hw ht

theorem Tame.fine (l : List Act) : Fine d rank l := by
  obtain ⟨⟨R, hR⟩, ⟨height, hh⟩⟩ := ht
  exact Ginga.fine hw height hh R hR l

theorem Tame.evalA (a : Act) {s : St} (hg : Good d rank s) : Ends d (fun r => r.evalA a) s :=
  (Tame.fine hw ht [a]).evalA hg

theorem Tame.trans (e : Eid) (t : Trans) {s : St} (hg : Good d rank s) : Ends d (fun r => r.trans e t) s := by
  have hf := Tame.fine hw ht
  obtain ⟨_, ⟨height, hh⟩⟩ := ht
  exact ends_trans hw height hh _ e t (Nat.lt_succ_self _) (fun _ _ _ _ _ _ _ _ _ => hf _) s hg

theorem ends_forAll (f : Rec → Oid → M Unit) (os : List Oid)
    (hq : ∀ n o s, o ∈ os → Good d rank s → wp True True (f (run d n) o) (fun _ s' => Good d rank s') s)
    (hf : ∀ o ∈ os, ∀ s, Good d rank s → Ends d (fun r => f r o) s) :
    ∀ s, Good d rank s → Ends d (fun r => forAll (f r) os) s := by
  induction os with
  | nil => intro s _; exact .nf (.pure _) _
  | cons o os ih =>
    intro s hg
    simp only [forAll]
    exact Ends.bindw hw (fun n => hq n o s (by simp) hg) (hf o (by simp) s hg) fun _ s1 h1 =>
      ih (fun n o s ho => hq n o s (by simp [ho])) (fun o ho => hf o (by simp [ho])) s1 h1

theorem ends_runDue (o : Oid) (as : List Act) : ∀ s, Good d rank s → Ends d (fun r => runDue d r o as) s := by
  induction as with
  | nil => intro s _; exact .nf (.pure _) _
  | cons a as ih =>
    intro s hg
    simp only [runDue]
    refine Ends.bindw hw (fun n => (spec hw n).evalA _ s hg) (Tame.evalA hw ht a hg) fun _ s1 h1 => ?_
    refine Ends.nfBind .get fun _ s2 h2 => ?_
    cases h2
    exact Ends.ite (fun _ => ih _ (h1.good hw hg)) fun _ => .nf (.pure _) _

theorem ends_objTick (o : Oid) (diff : Nat) {s : St} (hg : Good d rank s) :
    Ends d (fun r => objTick d r o diff) s := by
  unfold objTick
  refine Ends.nfBind .get fun _ s1 h1 => ?_
  cases h1
  refine Ends.ite (fun ho => ?_) fun _ => .nf (.pure _) _
  refine Ends.nfBind (.assert _) fun _ s1 h1 => ?_
  obtain rfl : s1 = s := by
    unfold M.assert at h1
    split at h1
    · cases h1; rfl
    · cases h1
  refine Ends.nfBind (.modify _) fun _ s2 h2 => ?_
  cases h2
  refine Ends.nfBind .get fun _ s3 h3 => ?_
  cases h3
  dsimp only
  refine Ends.nfBind (.modify _) fun _ s4 h4 => ?_
  cases h4
  have hg1 : Good d rank (s1.setTime o (tadd (s1.time o) diff)) := ⟨hg.player, hg.anchor, hg.queue, hg.sel⟩
  have hg2 : Good d rank ((s1.setTime o (tadd (s1.time o) diff)).setDelayed o
      (((s1.setTime o (tadd (s1.time o) diff)).delayed o).map fun p =>
        if p.2 ≤ (s1.setTime o (tadd (s1.time o) diff)).time o then (p.1, NONE) else p)) := by
    refine Atom.good hw (Atom.queue o _ fun hm hq => ?_) hg1
    intro p hp
    obtain ⟨q, h1, h2⟩ := List.mem_map.1 hp
    have := hq q h1
    split at h2 <;> (subst h2; exact this)
  refine Ends.bind (ends_runDue hw ht o _ _ hg2) fun b s5 _ => ?_
  exact .nf (.ite (.modify _) (.pure _)) _

theorem ends_mediaTick (o : Oid) (diff : Nat) {s : St} (hg : Good d rank s) :
    Ends d (fun r => mediaTick d r o diff) s := by
  unfold mediaTick
  refine Ends.bindw hw (fun n => wp_objTick hw (spec hw n) o diff s hg) (ends_objTick hw ht o diff hg)
    fun _ s1 h1 => ?_
  have hg1 := (TSteps.of_tick hw h1).good hw hg
  refine Ends.nfBind .get fun _ s2 h2 => ?_
  cases h2
  cases hp : s1.player o with
  | none => exact .nf (.pure _) _
  | some p =>
    dsimp only
    refine Ends.nfBind (.modify _) fun _ s3 h3 => ?_
    cases h3
    refine Ends.ite (fun _ => ?_) fun _ => .nf (.pure _) _
    exact Ends.bind (Tame.evalA hw ht _ (Atom.good hw (Atom.player o p _ hp) hg1)) fun _ _ _ => .nf (.pure _) _

theorem ends_sendTick1 (o : Oid) (diff : Nat) {s : St} (hg : Good d rank s) :
    Ends d (fun r => sendTick1 d r diff o) s := by
  unfold sendTick1
  cases hk : (d.obj o).kind with
  | context =>
    dsimp only
    unfold ctxTick
    refine Ends.bindw hw (fun n => wp_objTick hw (spec hw n) o diff s hg) (ends_objTick hw ht o diff hg)
      fun _ s1 h1 => ?_
    have hg1 := (TSteps.of_tick hw h1).good hw hg
    refine Ends.nfBind .get fun _ s2 h2 => ?_
    cases h2
    have stop := Ends.bind (f := fun _ _ => (pure () : M Unit)) (Tame.evalA hw ht
      { ev := (d.obj o).lambda, tr := .stop } hg1) fun _ _ _ => .nf (.pure _) _
    exact Ends.ite (fun _ => Ends.ite (fun _ => stop) fun _ => .nf .abort _) fun _ =>
      Ends.ite (fun _ => stop) fun _ => .nf (.pure _) _
  | switch => exact ends_objTick hw ht o diff hg
  | media => exact ends_mediaTick hw ht o diff hg
  | settings =>
    dsimp only
    unfold settingsTick
    refine Ends.nfBind .get fun _ s1 h1 => ?_
    cases h1
    cases hn : s.nextFocus with
    | none => exact ends_mediaTick hw ht o diff hg
    | some i =>
      dsimp only
      refine Ends.bindw hw (fun n => wp_updateFocus hw (spec hw n) i s hg) ?_ fun _ s1 h1 => ?_
      · unfold updateFocus
        refine Ends.nfBind .get fun _ s1 h1 => ?_
        cases h1
        dsimp only
        cases d.getEvent d.settings .attribution "service.currentFocus" with
        | none => exact .nf .abort _
        | some e => exact Ends.bind (Tame.evalA hw ht _ hg) fun _ _ _ => .nf (.pure _) _
      · refine Ends.nfBind (.modify _) fun _ s2 h2 => ?_
        cases h2
        have hg1 := h1.good hw hg
        exact ends_mediaTick hw ht o diff ⟨hg1.player, hg1.anchor, hg1.queue, hg1.sel⟩

theorem ends_docTick (diff : Nat) {s : St} (hg : Good d rank s) : Ends d (fun r => docTick d r diff) s := by
  unfold docTick
  refine Ends.nfBind .get fun _ s1 h1 => ?_
  cases h1
  exact ends_forAll hw ht (fun r => sendTick1 d r diff) _
    (fun n o s _ hg => wp_mono (wp_sendTick1 hw (spec hw n) o diff s hg) fun _ _ h => (h.tsteps hw).good hw hg)
    (fun o _ s hg => ends_sendTick1 hw ht o diff hg) s hg

theorem ends_evalAll (t : Trans) (es : List Eid) : ∀ s, Good d rank s → Ends d (fun r => evalAll r t es) s := by
  induction es with
  | nil => intro s _; exact .nf (.pure _) _
  | cons e es ih =>
    intro s hg
    simp only [evalAll]
    exact Ends.bindw hw (fun n => (spec hw n).evalA _ s hg) (Tame.evalA hw ht _ hg) fun _ s1 h1 =>
      ih _ (h1.good hw hg)

theorem ends_docKey (key : String) (press : Bool) {s : St} (hg : Good d rank s) :
    Ends d (fun r => docKey d r key press) s := by
  unfold docKey
  refine Ends.nfBind .get fun _ s1 h1 => ?_
  cases h1
  refine ends_forAll hw ht (fun r => sendKey1 d r key press) _
    (fun n o s _ hg => wp_mono (wp_sendKey1 hw (spec hw n) key press o s hg) fun _ _ h => h.good hw hg)
    (fun o _ s hg => ?_) s hg
  unfold sendKey1
  refine Ends.ite (fun _ => ?_) fun _ => .nf (.pure _) _
  unfold mediaKey
  refine Ends.nfBind .get fun _ s1 h1 => ?_
  cases h1
  refine Ends.ite (fun _ => .nf (.pure _) _) fun _ => ?_
  cases hp : s.player o with
  | none => exact .nf (.pure _) _
  | some p =>
    exact Ends.bindw hw (fun n => wp_moveFocus hw p key press s)
      (.nf (nf_moveFocus _ _ _) _) fun _ s1 h1 => ends_evalAll hw ht _ _ _ (h1.good hw hg)

theorem destroy_ends (height : Oid → Nat) (hh : ∀ c o, (d.obj c).parent = some o → height c < height o)
    (N : Nat) : ∀ o, height o < N → ∀ s, Good d rank s → Ends d (fun r => destroy d r N o) s := by
  induction N with
  | zero => intro o h; omega
  | succ N ih =>
    intro o hN s hg
    simp only [destroy]
    cases hk : (d.obj o).kind with
    | context =>
      dsimp only
      refine Ends.bindw hw (fun n => (spec hw n).trans _ _ s hg) (Tame.trans hw ht _ _ hg) fun _ s1 h1 => ?_
      refine ends_forAll hw ht (fun r => destroy d r N) _
        (fun n o s _ hg => wp_destroy hw (spec hw n) N o s hg) (fun c hc s hg => ?_) s1 (h1.steps.good hw hg)
      have := hh c o ((hw.mem_children _ _).1 hc)
      exact ih c (by omega) s hg
    | switch => exact .nf (.pure _) _
    | media => exact .nf (nf_mediaDoStop d _) _
    | settings => exact .nf (nf_mediaDoStop d _) _

end

theorem forAll_congr {f g : Oid → M Unit} (os : List Oid) (h : ∀ o ∈ os, f o = g o) : forAll f os = forAll g os := by
  induction os with
  | nil => rfl
  | cons o os ih =>
    simp only [forAll]
    rw [h o (by simp), ih fun o ho => h o (by simp [ho])]

theorem destroy_stable {d : Doc} {rank : Oid → Nat} (hw : WF d rank) {height : Oid → Nat}
    (hh : ∀ c o, (d.obj c).parent = some o → height c < height o) (r : Rec)
    (k : Nat) : ∀ m o, height o < k → k ≤ m → destroy d r m o = destroy d r k o := by
  induction k with
  | zero => intro m o h; omega
  | succ k ih =>
    intro m o ho hm
    obtain ⟨m, rfl⟩ : ∃ m', m = m' + 1 := ⟨m - 1, by omega⟩
    simp only [destroy]
    cases (d.obj o).kind with
    | context =>
      dsimp only
      rw [forAll_congr (f := destroy d r m) (g := destroy d r k)]
      intro c hc
      have := hh c o ((hw.mem_children _ _).1 hc)
      exact ih m c (by omega) (by omega)
    | _ => rfl

section api
variable {f : Fmt} (hf : FInv (fun _ _ => True) f) (ht : ∀ d, f.doc = some d → Tame d)
include hf ht

theorem settles_stop : Settles (fun n => fmtStop n f) := by
  unfold fmtStop
  cases f.playing with
  | false => exact .const (by simp)
  | true =>
    cases hd : f.doc with
    | none => exact .const (by simp)
    | some d =>
      obtain ⟨rank, hw, hg, -⟩ := hf.good d hd
      obtain ⟨height, hh⟩ := (ht d hd).depth
      have h1 := destroy_ends hw (ht d hd) height hh (height d.root + 1) d.root (by omega) _ hg
      have h2 : Settles (fun n => f.run (destroy d (run d n) n d.root)) := by
        obtain ⟨res, n0, h3, h4⟩ := Settles.run h1
        refine ⟨res, max n0 (height d.root + 1), h3, fun n hle => ?_⟩
        have := h4 n (by omega)
        dsimp only at this ⊢
        rw [← this, destroy_stable hw hh (run d n) (height d.root + 1) n d.root (by omega) (by omega)]
      exact Settles.bind h2 fun _ _ => .const (by simp)

theorem settles_checkEos {d : Doc} (hd : f.doc = some d) : Settles (fun n => checkEos n d f) := by
  unfold checkEos
  dsimp only
  by_cases he : (if isSleeping d f.st d.root = true then { f with eos := true } else f).eos = true
  · simp only [if_pos he]
    refine Settles.bind (settles_stop (f := { (if isSleeping d f.st d.root = true then
      { f with eos := true } else f) with eos := false }) ?_ ?_) fun p _ => ?_
    · split <;> exact ⟨hf.play, hf.good⟩
    · intro d' hd'
      refine ht d' ?_
      split at hd' <;> exact hd'
    · exact .const (by split <;> simp)
  · simp only [if_neg he]
    exact .const (by simp)

theorem settles_guarded {body : Nat → Doc → Fmt → Res Fmt}
    (hb : ∀ d, f.doc = some d → Settles (fun n => body n d f)) :
    Settles (fun n => guarded n f (body n)) := by
  unfold guarded
  cases hpl : f.playing with
  | false => exact .const (by simp)
  | true =>
    cases hd : f.doc with
    | none => exact .const (by simp)
    | some d =>
      refine Settles.bind (settles_checkEos hf ht hd) fun f1 ⟨n, h1⟩ => ?_
      have := checkEos_inv triv_inv (U := True) (n := n) hf hpl hd (fun _ => trivial)
      rw [h1] at this
      obtain ⟨-, ⟨h2, -⟩ | ⟨rfl, -, -⟩⟩ := this
      · simp only [h2]
        exact .const (by simp)
      · rw [hpl]
        exact Settles.bind (hb d hd) fun _ _ => .const (by simp)

/-- **C21** (partial).  In every reachable state, every call returns or ends the process: there is a
result, other than "out of fuel", that the call has from some recursion bound on. -/
theorem settles_exec (op : Op) (hop : ∀ d, op = .start (some d) → DocWF d ∧ Tame d) :
    Settles (fun n => exec n f op) := by
  cases op with
  | start p =>
    show Settles (fun n => fmtStart n f p)
    unfold fmtStart
    cases f.playing with
    | true => exact .const (by simp)
    | false =>
      cases f.doc.isSome with
      | true => exact .const (by simp)
      | false =>
        cases p with
        | none => exact .const (by simp)
        | some d =>
          obtain ⟨⟨rank, hw⟩, htd⟩ := hop d rfl
          have hg := Good.init hw (rank := rank) f.focus
          dsimp only
          simp only [Bool.false_eq_true, if_false]
          refine Settles.bind (Settles.run (Tame.evalA hw htd _ hg)) fun p ⟨n, h1⟩ => ?_
          obtain ⟨h2, -⟩ := rwp_ok (rwp_run ((spec hw n).evalA _ _ hg)) h1
          by_cases h0 : p.1 = 0
          · simp only [if_pos h0]; exact .const (by simp)
          · simp only [if_neg h0]
            refine Settles.bind (Settles.run (Tame.trans hw htd _ _ (h2.good hw hg))) fun q _ => ?_
            exact .const (by split <;> simp)
  | stop => exact settles_stop hf ht
  | sendKey k p =>
    refine settles_guarded hf ht (body := fun n d f1 =>
      (f1.run (docKey d (run d n) k p)).bind fun p => .ok p.2) fun d hd => ?_
    obtain ⟨rank, hw, hg, -⟩ := hf.good d hd
    exact Settles.bind (Settles.run (ends_docKey hw (ht d hd) k p hg)) fun _ _ => .const (by simp)
  | sendTick t df fr =>
    refine settles_guarded hf ht (body := fun n d f1 =>
      ({ f1 with lastTotal := t, lastDiff := df, lastFrame := fr }.run
      (docTick d (run d n) df)).bind fun p => .ok p.2) fun d hd => ?_
    obtain ⟨rank, hw, hg, -⟩ := hf.good d hd
    exact Settles.bind (Settles.run (f := { f with lastTotal := t, lastDiff := df, lastFrame := fr })
      (ends_docTick hw (ht d hd) df hg)) fun _ _ => .const (by simp)
  | resize w h =>
    refine .const ?_
    intro hx
    have : fmtResize f w h ≠ .fuel := by
      unfold fmtResize
      split
      · dsimp only
        split
        · simp
        · split
          · simp
          · intro hx
            rename_i d _
            have nf : ∀ os, NF (forAll (fun o => reapply d o resizeProps) os) := fun os => by
              induction os with
              | nil => exact .pure _
              | cons o os ih => exact .bind (nf_reapply _ _ _) fun _ => ih
            unfold Fmt.run at hx
            cases hy : forAll (fun o => reapply d o resizeProps)
                (List.filter (fun o => (d.obj o).kind.isMedia) d.objs) f.st with
            | fuel => exact (nf _).nf _ hy
            | _ => rw [hy] at hx; cases hx
      · simp
    cases hy : fmtResize f w h with
    | fuel => exact this hy
    | _ => rw [hy] at hx; cases hx
  | playerEos o => exact .const (by simp [exec, Fmt.run, playerEos, M.modify, Res.bind])
  | action a =>
    show Settles (fun n => match f.doc with
      | none => .ok (false, f)
      | some d => (f.run ((run d n).evalA a)).bind fun p => .ok (true, p.2))
    cases hd : f.doc with
    | none => exact .const (by simp)
    | some d =>
      obtain ⟨rank, hw, hg, -⟩ := hf.good d hd
      exact Settles.bind (Settles.run (Tame.evalA hw (ht d hd) a hg)) fun _ _ => .const (by simp)
end api

/-- **C21** (partial).  Every call on a formatter in a reachable state returns or ends the process, if
the documents involved have no cycles of immediate actions. -/
theorem C21_call_terminates_partial {f : Fmt} (hf : Reachable f) (ht : ∀ d, f.doc = some d → Tame d)
    (op : Op) (hop : ∀ d, op = .start (some d) → DocWF d ∧ Tame d) :
    ∃ res n0, res ≠ .fuel ∧ ∀ n, n0 ≤ n → exec n f op = res :=
  settles_exec (hf.inv triv_inv) ht op hop

/-- **C21** (partial).  Every history of calls on a fresh formatter terminates. -/
theorem C21_terminates_partial (focus : String) (w h : Int) (ops : List Op)
    (hops : ∀ d, .start (some d) ∈ ops → DocWF d ∧ Tame d) :
    ∃ res n0, res ≠ .fuel ∧ ∀ n, n0 ≤ n → execAll n (Fmt.new focus w h) ops = res := by
  suffices hs : ∀ ops : List Op, ∀ f, (FInv (fun _ _ => True) f) → (∀ d, f.doc = some d → Tame d) →
      (∀ d, .start (some d) ∈ ops → DocWF d ∧ Tame d) → Settles (fun n => execAll n f ops) from
    hs ops _ (FInv.new focus w h) (fun d hd => by cases hd) hops
  intro ops
  induction ops with
  | nil => intro f _ _ _; exact .const (by simp [execAll])
  | cons op ops ih =>
    intro f hf ht hops
    simp only [execAll]
    refine Settles.bind (settles_exec hf ht op fun d hd => hops d (by simp [hd])) fun p ⟨n, h1⟩ => ?_
    obtain ⟨h2, h3⟩ := rwp_ok (exec_inv triv_inv (U := True) (n := n) hf op
      (fun d hd => (hops d (by simp [hd])).1) fun _ _ _ => trivial) h1
    refine Settles.bind (ih p.2 h2 ?_ fun d hd => hops d (by simp [hd])) fun _ _ => .const (by simp)
    intro d hd
    rcases h3 d hd with h | h
    · exact ht d h
    · exact (hops d (by simp [h])).2

/-! The hypotheses are met: the document `twoMedias`, which has a link (`onEnd a start b`) and an anchor. -/

theorem mkDoc_obj {P : ObjDecl → Prop} {env objs evs root settings par}
    (h : ∀ x ∈ objs, P x) (h' : ∀ k, P { kind := .media, id := "", events := [k], lambda := k }) (o : Oid) :
    P ((mkDoc env objs evs root settings par).obj o) := by
  show P (objs.getD o _)
  by_cases ho : o < objs.length
  · simp only [List.getD_eq_getElem?_getD, List.getElem?_eq_getElem ho]
    exact h _ (List.getElem_mem ho)
  · simp only [List.getD_eq_getElem?_getD, List.getElem?_eq_none_iff.2 (Nat.not_lt.1 ho)]
    exact h' _

theorem twoMedias_tame : Tame twoMedias := by
  constructor
  · refine ⟨fun e t => if (e = 2 ∧ t = .stop) ∨ ((t = .pause ∨ t = .resume) ∧ ((twoMedias.ev e).isLambda = true ∨
        (twoMedias.obj (twoMedias.ev e).obj).kind = .switch)) then 1 else 0, ?_⟩
    intro e t e' t' h
    obtain ⟨rank, hw⟩ := twoMedias_wf
    have hL : ∀ x, (twoMedias.obj x).links = [] ∨ (twoMedias.obj x).links =
        [⟨[{ ev := 2, tr := .stop }], [{ ev := 3, tr := .start }]⟩] :=
      mkDoc_obj (P := fun x => x.links = [] ∨ x.links = [⟨[{ ev := 2, tr := .stop }], [{ ev := 3, tr := .start }]⟩])
        (by simp) (fun _ => .inl rfl)
    have hS : ∀ x, (twoMedias.obj x).switchPorts = [] :=
      mkDoc_obj (P := fun x => x.switchPorts = []) (by simp) (fun _ => rfl)
    generalize hp : (e, t) = p at h
    generalize hq : (e', t') = q at h
    cases h with
    | @link x l c a hl hc ha _ =>
      cases hp; cases hq
      rcases hL x with h | h
      · rw [h] at hl; cases hl
      · rw [h] at hl
        simp only [List.mem_singleton] at hl
        subst hl
        simp only [List.mem_singleton] at hc ha
        subst hc ha
        decide
    | @anchor e t x a ht he hx hm ha hl htyp =>
      cases hp; cases hq
      dsimp only
      have hao : (twoMedias.ev e').obj = x := (hw.mem_events x e').1 ha
      have h2 : e' ≠ 2 := by intro h; subst h; exact absurd hl (by decide)
      rw [if_neg, if_pos (.inr ⟨ht, he⟩)]
      · decide
      · rintro (⟨h, -⟩ | ⟨-, h | h⟩)
        · exact h2 h
        · rw [hl] at h; cases h
        · rw [hao] at h; rw [h] at hm; cases hm
    | @port e t sw port evs m le _ hmem =>
      rw [hS] at hmem; cases hmem
  · refine ⟨fun o => if o = 0 then 1 else 0, fun c o h => ?_⟩
    have : (twoMedias.obj c).parent = none ∨ (twoMedias.obj c).parent = some 0 :=
      mkDoc_obj (P := fun x => x.parent = none ∨ x.parent = some 0) (by simp) (fun _ => .inl rfl) c
    have h0 : (twoMedias.obj 0).parent = none := rfl
    rcases this with h1 | h1
    · rw [h1] at h; cases h
    · rw [h1] at h
      cases h
      dsimp only
      rw [if_pos rfl, if_neg]
      · decide
      · intro hc; rw [hc, h0] at h1; cases h1

example : DocWF twoMedias ∧ Tame twoMedias := ⟨twoMedias_wf, twoMedias_tame⟩

/-- The cyclic document of `C21_fails` is not tame. -/
theorem hangDoc_not_tame : ¬ Tame hangDoc := by
  rintro ⟨⟨R, hR⟩, -⟩
  have i : ∀ t : Trans, Immediate hangDoc { ev := 2, tr := t } := fun t => ⟨St.blank, 0, rfl, .inl rfl⟩
  have h1 : R 2 .resume < R 2 .pause := hR _ _ _ _ (.link (d := hangDoc) (x := 0)
    (l := ⟨[{ ev := 2, tr := .pause }], [{ ev := 2, tr := .resume }]⟩) (c := { ev := 2, tr := .pause })
    (a := { ev := 2, tr := .resume }) (by simp [hangDoc, mkDoc]) (by simp) (by simp) (i _))
  have h2 : R 2 .pause < R 2 .resume := hR _ _ _ _ (.link (d := hangDoc) (x := 0)
    (l := ⟨[{ ev := 2, tr := .resume }], [{ ev := 2, tr := .pause }]⟩) (c := { ev := 2, tr := .resume })
    (a := { ev := 2, tr := .pause }) (by simp [hangDoc, mkDoc]) (by simp) (by simp) (i _))
  omega

end Ginga
