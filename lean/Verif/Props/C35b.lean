import Verif.Props.C35
/-! # C35 continued: initial values and what else a setting changes; C36: kinds of players; C37: compound geometry -/
set_option linter.unusedSimpArgs false
namespace Ginga

variable (e : PEnv)

/-! ## The player just created -/

/-- The values of a new player: those of the table. -/
def initProp (e : PEnv) (W H : Int) (yellow : Color) : PProp :=
  { x := parsePercent e.F "0".toList W 0 INTMAX, y := parsePercent e.F "0".toList H 0 INTMAX
    w := parsePercent e.F "100%".toList W 0 INTMAX, h := parsePercent e.F "100%".toList H 0 INTMAX
    z := 0, zo := 0, alpha := opacity e.F "0%".toList, bg := (0, 0, 0, 0), visible := true, debug := false, duration := NONE
    focusIndex := [], focusBorderColor := yellow, focusBorderWidth := 4, focusBorderTransparency := opacity e.F "0%".toList
    selBorderColor := yellow, uri := [], type := "application/x-ginga-timer".toList, dirty := true }

/-- A step of the reset loop for a property of the table that is initialised. -/
theorem reset_step (name : String) (c : PCode) (d : String) (l : List (String × PCode × Bool × String)) (s : PSt)
    (hi : propInfo name = some (c, d.toList)) (hn : name ≠ "transIn" ∧ name ≠ "transOut") :
    resetLoop e ((name, c, true, d) :: l) s = (doSetProperty e (mediaSet e) c d.toList s).bind fun r =>
      match r with | none => .abort | some s => resetLoop e l (s.store name []) := by
  simp only [resetLoop, if_true, playerSet_unfold, playerSet1]
  rw [if_neg (by rintro (h | h); exact hn.1 h; exact hn.2 h), hi]
  simp only [Res.bind_ok, if_true]
  cases doSetProperty e (mediaSet e) c d.toList s with
  | ok r => cases r <;> rfl
  | _ => rfl

theorem reset_skip (name : String) (c : PCode) (d : String) (l : List (String × PCode × Bool × String)) (s : PSt) :
    resetLoop e ((name, c, false, d) :: l) s = resetLoop e l s := by
  simp [resetLoop]

theorem upd_own {κ ν : Type} [DecidableEq κ] (f : κ → ν) (k : κ) : upd f k (f k) = f := by
  funext x; unfold upd; split
  · next h => rw [h]
  · rfl

/-- A new player has the default value of every property, whatever the memory contained before, and reads as having no
property set; the media object's properties are untouched. -/
theorem C35_init (W H : Int) (media : Store) (p0 : PProp) (yellow : Color) (hy : e.color "yellow".toList = some yellow) :
    newPlayer e W H media p0 = .ok { W := W, H := H, media := media, player := fun _ => [], prop := initProp e W H yellow, attached := false } := by
  have pb : parseBoolA "false".toList = .ok false := by decide +kernel
  have pt : parseBoolA "true".toList = .ok true := by decide +kernel
  have p4 : parseInt "4".toList = .ok 4 := by decide +kernel
  have p0' : parseInt "0".toList = .ok 0 := by decide +kernel
  have hall : ∀ p ∈ propTable, propInfo p.1 = some (p.2.1, p.2.2.2.toList) ∧ p.1 ≠ "transIn" ∧ p.1 ≠ "transOut" := by decide +kernel
  have key : ∀ l : List (String × PCode × Bool × String), (∀ p ∈ l, p ∈ propTable) → ∀ s : PSt, s.attached = false →
      resetLoop e l s = l.foldl (fun r p => r.bind fun s => if p.2.2.1 then (doSetProperty e (fun _ _ s => .ok s) p.2.1 p.2.2.2.toList s).bind (fun q =>
        match q with | none => .abort | some s => .ok (s.store p.1 [])) else .ok s) (.ok s) := by
    intro l
    induction l with
    | nil => intro _ s _; rfl
    | cons p l ih =>
      intro hl s ha
      obtain ⟨n, c, i, d⟩ := p
      have hf : ∀ (f : Res PSt → (String × PCode × Bool × String) → Res PSt) (hbad : ∀ r p, (∀ s, r ≠ .ok s) → f r p = r) (l : List (String × PCode × Bool × String)) (r : Res PSt), (∀ s, r ≠ .ok s) → l.foldl f r = r := by
        intro f hbad l
        induction l with
        | nil => intro r _; rfl
        | cons q l ih => intro r hr; rw [List.foldl_cons, hbad r q hr]; exact ih r hr
      cases i with
      | false => rw [reset_skip, ih (fun p hp => hl p (by simp [hp])) s ha]; rfl
      | true =>
        obtain ⟨h1, h2⟩ := hall _ (hl (n, c, true, d) (by simp))
        rw [reset_step e n c d l s h1 h2]
        have hdo : doSetProperty e (mediaSet e) c d.toList s = doSetProperty e (fun _ _ s => .ok s) c d.toList s := by
          have hm : ∀ (name : String) (v : Str) (s : PSt), s.attached = false → s.media name = v → mediaSet e name v s = .ok s := by
            intro name v s hs hv
            subst hv
            unfold mediaSet mediaSet1
            dsimp only
            rw [if_neg (by rw [hs]; simp), upd_own]
          have hinit : ∀ p ∈ propTable, p.2.2.1 = true → p.2.1 ≠ .bounds ∧ p.2.1 ≠ .location ∧ p.2.1 ≠ .size := by decide +kernel
          obtain ⟨a1, a2, a3⟩ := hinit _ (hl (n, c, true, d) (by simp)) rfl
          dsimp only at a1 a2 a3
          cases c <;> first
            | rfl
            | exact absurd rfl a1
            | exact absurd rfl a2
            | exact absurd rfl a3
            | (simp only [doSetProperty]
               split
               · rw [hm _ _ _ ?_ ?_] <;> first | exact ha | rfl
               · rfl)
        rw [hdo]
        have hatt : ∀ s', doSetProperty e (fun _ _ s => .ok s) c d.toList s = .ok (some s') → s'.attached = false := by
          have hsm : ∀ (l : List (String × Str)) (s : PSt), setMany (fun _ _ s => .ok s) l s = .ok s := by
            intro l; induction l with
            | nil => intro s; rfl
            | cons q l ih => intro s; obtain ⟨a, b⟩ := q; simp only [setMany, Res.bind_ok]; exact ih s
          intro s' hs'
          cases c <;> simp only [doSetProperty, hsm, Res.bind_ok] at hs' <;>
            first
            | (cases hs'; exact ha)
            | (repeat' split at hs'
               all_goals first | (cases hs'; done) | (cases hs'; exact ha))
            | (cases hx : parseBoolA d.toList <;> rw [hx] at hs' <;> cases hs' <;> exact ha)
            | (cases hx : parseInt d.toList <;> rw [hx] at hs' <;> cases hs' <;> exact ha)
            | (cases hx : e.parseColor d.toList <;> rw [hx] at hs' <;> cases hs' <;> exact ha)
            | (split at hs'
               · cases hs'; exact ha
               · cases hx : e.parseColor d.toList <;> rw [hx] at hs' <;> cases hs' <;> exact ha)
            | (split at hs'
               · cases hs'; exact ha
               · cases hx : parseTimeA e.F d.toList <;> rw [hx] at hs' <;> cases hs' <;> exact ha)
            | (cases hx : int32 (s.W - s.prop.w) with
               | ok dd =>
                 rw [hx] at hs'; simp only [Res.bind_ok] at hs'
                 cases hx2 : int32 (dd - parsePercent e.F d.toList s.W 0 INTMAX) <;> rw [hx2] at hs' <;> cases hs' <;> exact ha
               | _ => rw [hx] at hs'; cases hs')
            | (cases hx : int32 (s.H - s.prop.h) with
               | ok dd =>
                 rw [hx] at hs'; simp only [Res.bind_ok] at hs'
                 cases hx2 : int32 (dd - parsePercent e.F d.toList s.prop.h 0 INTMAX) <;> rw [hx2] at hs' <;> cases hs' <;> exact ha
               | _ => rw [hx] at hs'; cases hs')
        rw [List.foldl_cons]
        simp only [Res.bind_ok, if_true]
        cases hx : doSetProperty e (fun _ _ s => .ok s) c d.toList s with
        | ok r =>
          cases r with
          | none =>
            simp only [Res.bind_ok]
            rw [hf]
            · intro r p hr; cases r <;> first | rfl | exact absurd rfl (hr _)
            · intro s h; cases h
          | some s' =>
            simp only [Res.bind_ok]
            exact ih (fun p hp => hl p (by simp [hp])) _ (hatt s' hx)
        | _ =>
          simp only [Res.bind_abort, Res.bind_ub, Res.bind_fuel]
          rw [hf]
          · intro r p hr; cases r <;> first | rfl | exact absurd rfl (hr _)
          · intro s h; cases h
  unfold newPlayer resetProps
  rw [key propTable (fun _ h => h) _ rfl]
  have hyc : e.parseColor "yellow".toList = .ok yellow := by unfold PEnv.parseColor; rw [hy]
  simp only [propTable, List.foldl_cons, List.foldl_nil, Res.bind_ok, if_true, if_false, Bool.false_eq_true, doSetProperty, pb, pt, p4, p0', hyc, PSt.store]
  simp [initProp]

end Ginga
