import Verif.Model.Formatter
import Verif.Proofs.Wp
/-!
# The recursion bound does not matter

A call that ends within the recursion bound `n` (whatever its outcome: result, abort or
undefined behaviour) has the same outcome for every larger bound.
-/
set_option linter.unusedVariables false
set_option linter.unusedSectionVars false
namespace Ginga

/-- `m` runs out of fuel or agrees with `m'`. -/
structure MLe {α : Type} (m m' : M α) : Prop where
  le : ∀ s, m s = .fuel ∨ m s = m' s

theorem MLe.rfl' {α : Type} {m : M α} : MLe m m := ⟨fun _ => .inr rfl⟩

theorem MLe.bind {α β : Type} {m m' : M α} {f f' : α → M β} (h : MLe m m')
    (hf : ∀ a, MLe (f a) (f' a)) : MLe (m >>= f) (m' >>= f') := by
  constructor
  intro s
  show M.bind m f s = _ ∨ M.bind m f s = M.bind m' f' s
  unfold M.bind
  rcases h.le s with h1 | h1
  · left; rw [h1]; rfl
  · rw [← h1]
    cases hm : m s with
    | ok p => exact (hf p.1).le p.2
    | _ => right; rfl

theorem MLe.ite {α : Type} {c : Prop} [Decidable c] {m m' n n' : M α} (h : MLe m m')
    (h' : MLe n n') : MLe (if c then m else n) (if c then m' else n') := by
  split <;> assumption

structure RecLe (r r' : Rec) : Prop where
  trans : ∀ e t, MLe (r.trans e t) (r'.trans e t)
  evalA : ∀ a, MLe (r.evalA a) (r'.evalA a)
  loop : ∀ l k, MLe (r.loop l k) (r'.loop l k)

/-- Structural monotonicity steps. -/
macro "mle" : tactic => `(tactic|
  repeat (first
    | exact MLe.rfl'
    | assumption
    | exact RecLe.trans (by assumption) _ _
    | exact RecLe.evalA (by assumption) _
    | exact RecLe.loop (by assumption) _ _
    | apply MLe.ite
    | apply MLe.bind
    | intro _
    | split
    | dsimp only))

section
variable (d : Doc) {r r' : Rec} (hr : RecLe r r')
include hr

theorem transAll_mle (t cs) : MLe (transAll d r t cs) (transAll d r' t cs) := by
  induction cs with
  | nil => exact .rfl'
  | cons c cs ih => unfold transAll; mle

theorem startParent_mle (o) : MLe (startParent d r o) (startParent d r' o) := by
  unfold startParent; mle

theorem ctxBefore_mle (o e t) : MLe (ctxBefore d r o e t) (ctxBefore d r' o e t) := by
  unfold ctxBefore
  have := transAll_mle d hr t (d.obj o).children
  mle

theorem ctxAfter_mle (o e t) : MLe (ctxAfter d r o e t) (ctxAfter d r' o e t) := by
  unfold ctxAfter
  have := startParent_mle d hr o
  mle

theorem switchRules_mle (o cands l) : MLe (switchRules d r o cands l) (switchRules d r' o cands l) := by
  induction l with
  | nil => exact .rfl'
  | cons c cs ih => unfold switchRules; mle

theorem switchBefore_mle (o e t) : MLe (switchBefore d r o e t) (switchBefore d r' o e t) := by
  unfold switchBefore
  have := fun c => switchRules_mle d hr o c (d.obj o).rules
  split
  · exact .rfl'
  · next c hc => have := this c; mle

theorem switchAfter_mle (o e t) : MLe (switchAfter d r o e t) (switchAfter d r' o e t) := by
  unfold switchAfter; mle

theorem anchorFilter_mle (b f q) : MLe (anchorFilter r b f q) (anchorFilter r' b f q) := by
  induction q with
  | nil => exact .rfl'
  | cons c cs ih => unfold anchorFilter; mle

theorem anchorStart_mle (o e) : MLe (anchorStart d r o e) (anchorStart d r' o e) := by
  unfold anchorStart
  have h1 := fun b f q => anchorFilter_mle hr b f q
  mle <;> (first | exact h1 _ _ _ | skip) <;> mle <;> (first | exact h1 _ _ _ | skip) <;> mle

theorem evalAnchors_mle (t es) : MLe (evalAnchors d r t es) (evalAnchors d r' t es) := by
  induction es with
  | nil => exact .rfl'
  | cons c cs ih => unfold evalAnchors; mle

theorem mediaBefore_mle (o e t) : MLe (mediaBefore d r o e t) (mediaBefore d r' o e t) := by
  unfold mediaBefore
  have h1 := startParent_mle d hr o
  have h2 := evalAnchors_mle d hr .pause (d.obj o).events
  have h3 := evalAnchors_mle d hr .resume (d.obj o).events
  have h4 := anchorStart_mle d hr o e
  mle

theorem mediaAfter_mle (o e t) : MLe (mediaAfter d r o e t) (mediaAfter d r' o e t) := by
  unfold mediaAfter; mle

theorem before_mle (e t) : MLe (before d r e t) (before d r' e t) := by
  unfold before
  split
  · exact ctxBefore_mle d hr _ e t
  · exact switchBefore_mle d hr _ e t
  · exact mediaBefore_mle d hr _ e t
  · exact mediaBefore_mle d hr _ e t

theorem after_mle (e t) : MLe (after d r e t) (after d r' e t) := by
  unfold after
  split
  · exact ctxAfter_mle d hr _ e t
  · exact switchAfter_mle d hr _ e t
  · exact mediaAfter_mle d hr _ e t
  · exact mediaAfter_mle d hr _ e t

theorem transition_mle (e t) : MLe (transition d r e t) (transition d r' e t) := by
  unfold transition
  have h1 := before_mle d hr e t
  have h2 := after_mle d hr e t
  mle

theorem fireMapped_mle (act obj sw port l) :
    MLe (fireMapped d r act obj sw port l) (fireMapped d r' act obj sw port l) := by
  induction l with
  | nil => exact .rfl'
  | cons c cs ih => unfold fireMapped; mle

theorem fireSwitch_mle (act obj sw l) :
    MLe (fireSwitch d r act obj sw l) (fireSwitch d r' act obj sw l) := by
  induction l with
  | nil => exact .rfl'
  | cons c cs ih =>
    unfold fireSwitch
    exact .bind (fireMapped_mle d hr _ _ _ _ _) fun _ => ih

theorem fireParent_mle (act obj) : MLe (fireParent d r act obj) (fireParent d r' act obj) := by
  unfold fireParent
  have h1 := fun sw l => fireSwitch_mle d hr act obj sw l
  mle <;> (first | exact h1 _ _ | skip) <;> mle <;> (first | exact h1 _ _ | skip) <;> mle

theorem evalStep_mle (act) : MLe (evalStep d r act) (evalStep d r' act) := by
  unfold evalStep
  have h1 := fireParent_mle d hr act (d.ev act.ev).obj
  mle

theorem evalLoop_mle (l k) : MLe (evalLoop d r l k) (evalLoop d r' l k) := by
  cases l with
  | nil => exact .rfl'
  | cons a l =>
    unfold evalLoop
    have h1 := evalStep_mle d hr a
    mle

theorem runDue_mle (o as) : MLe (runDue d r o as) (runDue d r' o as) := by
  induction as with
  | nil => exact .rfl'
  | cons c cs ih => unfold runDue; mle

theorem objTick_mle (o diff) : MLe (objTick d r o diff) (objTick d r' o diff) := by
  unfold objTick
  have h1 := fun as => runDue_mle d hr o as
  mle <;> (first | exact h1 _ | skip) <;> mle <;> (first | exact h1 _ | skip) <;> mle

theorem mediaTick_mle (o diff) : MLe (mediaTick d r o diff) (mediaTick d r' o diff) := by
  unfold mediaTick
  have h1 := objTick_mle d hr o diff
  mle

theorem updateFocus_mle (i) : MLe (updateFocus d r i) (updateFocus d r' i) := by
  unfold updateFocus; mle

theorem settingsTick_mle (o diff) : MLe (settingsTick d r o diff) (settingsTick d r' o diff) := by
  unfold settingsTick
  have h1 := mediaTick_mle d hr o diff
  have h2 := fun i => updateFocus_mle d hr i
  mle <;> (first | exact h2 _ | skip) <;> mle <;> (first | exact h2 _ | skip) <;> mle

theorem ctxTick_mle (o diff) : MLe (ctxTick d r o diff) (ctxTick d r' o diff) := by
  unfold ctxTick
  have h1 := objTick_mle d hr o diff
  mle

theorem sendTick1_mle (diff o) : MLe (sendTick1 d r diff o) (sendTick1 d r' diff o) := by
  unfold sendTick1
  split
  · exact ctxTick_mle d hr _ _
  · exact objTick_mle d hr _ _
  · exact mediaTick_mle d hr _ _
  · exact settingsTick_mle d hr _ _

theorem evalAll_mle (t es) : MLe (evalAll r t es) (evalAll r' t es) := by
  induction es with
  | nil => exact .rfl'
  | cons c cs ih => unfold evalAll; mle

theorem mediaKey_mle (o k p) : MLe (mediaKey d r o k p) (mediaKey d r' o k p) := by
  unfold mediaKey
  have h1 := fun t es => evalAll_mle hr t es
  mle <;> (first | exact h1 _ _ | skip) <;> mle <;> (first | exact h1 _ _ | skip) <;> mle

theorem sendKey1_mle (k p o) : MLe (sendKey1 d r k p o) (sendKey1 d r' k p o) := by
  unfold sendKey1
  have h1 := mediaKey_mle d hr o k p
  mle

omit hr in
theorem forAll_mle {f f' : Oid → M Unit} (hf : ∀ o, MLe (f o) (f' o)) (os) :
    MLe (forAll f os) (forAll f' os) := by
  induction os with
  | nil => exact .rfl'
  | cons c cs ih => unfold forAll; exact .bind (hf c) fun _ => ih

theorem docTick_mle (diff) : MLe (docTick d r diff) (docTick d r' diff) := by
  unfold docTick
  exact .bind .rfl' fun _ => forAll_mle (sendTick1_mle d hr diff) _

theorem docKey_mle (k p) : MLe (docKey d r k p) (docKey d r' k p) := by
  unfold docKey
  exact .bind .rfl' fun _ => forAll_mle (sendKey1_mle d hr k p) _

theorem destroy_mle : ∀ n m o, n ≤ m → MLe (destroy d r n o) (destroy d r' m o) := by
  intro n
  induction n with
  | zero => intro m o _; exact ⟨fun s => .inl rfl⟩
  | succ n ih =>
    intro m o hm
    cases m with
    | zero => omega
    | succ m =>
      unfold destroy
      split
      · exact .bind (hr.trans _ _) fun _ => forAll_mle (fun o => ih m o (by omega)) _
      all_goals exact .rfl'
end

theorem run_mle (d : Doc) : ∀ n m, n ≤ m → RecLe (run d n) (run d m) := by
  intro n
  induction n with
  | zero => intro m _; exact ⟨fun _ _ => ⟨fun _ => .inl rfl⟩, fun _ => ⟨fun _ => .inl rfl⟩, fun _ _ => ⟨fun _ => .inl rfl⟩⟩
  | succ n ih =>
    intro m hm
    cases m with
    | zero => omega
    | succ m =>
      have := ih m (by omega)
      exact ⟨transition_mle d this, fun a => this.loop _ _, evalLoop_mle d this⟩

/-! ## Formatter calls -/

def RLe {α : Type} (x y : Res α) : Prop := x = .fuel ∨ x = y

theorem RLe.bind {α β : Type} {x y : Res α} {f g : α → Res β} (h : RLe x y)
    (hf : ∀ a, RLe (f a) (g a)) : RLe (x.bind f) (y.bind g) := by
  rcases h with rfl | rfl
  · left; rfl
  · cases x with
    | ok a => exact hf a
    | _ => right; rfl

theorem RLe.rfl' {α : Type} {x : Res α} : RLe x x := .inr rfl

theorem RLe.run {α : Type} {f : Fmt} {m m' : M α} (h : MLe m m') : RLe (f.run m) (f.run m') := by
  unfold Fmt.run
  exact .bind (h.le f.st) fun _ => .rfl'

theorem fmtStop_rle {n m : Nat} (hnm : n ≤ m) (f : Fmt) : RLe (fmtStop n f) (fmtStop m f) := by
  unfold fmtStop
  split
  · exact .rfl'
  · split
    · exact .rfl'
    · exact .bind (.run (destroy_mle _ (run_mle _ n m hnm) n m _ hnm)) fun _ => .rfl'

theorem guarded_rle {n m : Nat} (hnm : n ≤ m) (f : Fmt) {b b' : Doc → Fmt → Res Fmt}
    (hb : ∀ d f, RLe (b d f) (b' d f)) : RLe (guarded n f b) (guarded m f b') := by
  unfold guarded
  split
  · exact .rfl'
  · split
    · exact .rfl'
    · next d hd =>
      refine .bind ?_ fun f1 => ?_
      · unfold checkEos
        dsimp only
        generalize (if isSleeping d f.st d.root = true then { f with eos := true } else f) = g
        split
        · exact .bind (fmtStop_rle hnm _) fun _ => .rfl'
        · exact .rfl'
      · split
        · exact .rfl'
        · exact .bind (hb _ _) fun _ => .rfl'

theorem exec_rle {n m : Nat} (hnm : n ≤ m) (f : Fmt) (op : Op) : RLe (exec n f op) (exec m f op) := by
  cases op with
  | start p =>
    simp only [exec]; unfold fmtStart
    split
    · exact .rfl'
    · split
      · exact .rfl'
      · split
        · exact .rfl'
        · next d =>
          have hr := run_mle d n m hnm
          refine .bind (.run (hr.evalA _)) fun p => ?_
          split
          · exact .rfl'
          · exact .bind (.run (hr.trans _ _)) fun _ => .rfl'
  | stop => exact fmtStop_rle hnm f
  | sendKey k p =>
    exact guarded_rle hnm f fun d f => .bind (.run (docKey_mle d (run_mle d n m hnm) _ _)) fun _ => .rfl'
  | sendTick a b c =>
    exact guarded_rle hnm f fun d f => .bind (.run (docTick_mle d (run_mle d n m hnm) _)) fun _ => .rfl'
  | resize w h => exact .rfl'
  | playerEos o => exact .rfl'
  | action a =>
    simp only [exec]
    split
    · exact .rfl'
    · next d hd => exact .bind (.run ((run_mle d n m hnm).evalA _)) fun _ => .rfl'

/-- **The recursion bound is immaterial**: a history that ends within the bound ends in the same
way under every larger bound. -/
theorem execAll_rle {n m : Nat} (hnm : n ≤ m) (ops : List Op) :
    ∀ f, RLe (execAll n f ops) (execAll m f ops) := by
  induction ops with
  | nil => intro f; exact .rfl'
  | cons op ops ih =>
    intro f
    exact .bind (exec_rle hnm f op) fun p => .bind (ih p.2) fun _ => .rfl'

end Ginga
