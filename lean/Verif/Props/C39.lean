import Verif.Props.C38
/-! # C38 continued: no assertion fails; what is wrong with transparencies and colours.  C39: compound properties -/
set_option linter.unusedSimpArgs false
namespace Ginga

/-- What happens to an animator. -/
inductive AOp
  | schedule (name : String) (src dst : Str) (dur : Nat)
  | frame

/-- A history: each operation at a player time. -/
def animRun (e : PEnv) (W H : Int) : List (Nat × AOp) → AState → Res AState
  | [], s => .ok s
  | (t, .schedule n src dst dur) :: l, s => (animSchedule e W H t n src dst dur s).bind (animRun e W H l)
  | (t, .frame) :: l, s => (animFrame e.F t s).bind (animRun e W H l)

theorem turn_total (F : FP) (t : Nat) (a : Anim) (v : View) : (∃ p, animTurn F t a v = .ok p) ∨ (animTurn F t a v = .ub ∧ isWipe a.name = true) := by
  have crop : ∀ i a v, (∃ p, cropUpdate F t i a v = .ok p) ∨ cropUpdate F t i a v = .ub := by
    intro i a v
    unfold cropUpdate
    split
    · exact .inr rfl
    · exact .inl ⟨_, rfl⟩
  have sum : ∀ a b, (∃ p, isum a b = .ok p) ∨ isum a b = .ub := by
    intro a b; unfold isum; split
    · exact .inl ⟨_, rfl⟩
    · exact .inr rfl
  have two : ∀ i j, (∃ p, ((cropUpdate F t i a v).bind fun p => (cropUpdate F t j p.1 p.2).bind fun p => .ok (cropDone p)) = .ok p) ∨
      ((cropUpdate F t i a v).bind fun p => (cropUpdate F t j p.1 p.2).bind fun p => .ok (cropDone p)) = .ub := by
    intro i j
    rcases crop i a v with ⟨p, hp⟩ | hp <;> rw [hp]
    · simp only [Res.bind_ok]
      rcases crop j p.1 p.2 with ⟨q, hq⟩ | hq <;> rw [hq]
      · exact .inl ⟨_, rfl⟩
      · exact .inr rfl
    · exact .inr rfl
  have diag : ∀ i x w y h, (∃ p, diagTurn F t i x w y h a v = .ok p) ∨ diagTurn F t i x w y h a v = .ub := by
    intro i x w y h
    unfold diagTurn
    rcases crop i a v with ⟨p, hp⟩ | hp <;> rw [hp]
    · simp only [Res.bind_ok]
      split
      · rcases sum x w with ⟨q, hq⟩ | hq <;> rw [hq]
        · simp only [Res.bind_ok]
          split
          · rcases sum y h with ⟨r, hr⟩ | hr <;> rw [hr]
            · exact .inl ⟨_, rfl⟩
            · exact .inr rfl
          · exact .inl ⟨_, rfl⟩
        · exact .inr rfl
      · exact .inl ⟨_, rfl⟩
    · exact .inr rfl
  unfold animTurn
  cases hw : isWipe a.name with
  | false => exact .inl ⟨_, rfl⟩
  | true =>
    have : (∃ p, wipeTurn F t a v = .ok p) ∨ wipeTurn F t a v = .ub := by
      unfold wipeTurn
      split
      · exact two _ _
      split
      · exact two _ _
      split
      · exact diag _ _ _ _ _
      · exact diag _ _ _ _ _
    simp only [if_true]
    exact this.imp id fun h => ⟨h, trivial⟩

theorem loop_total (F : FP) (t : Nat) (l : List Anim) : ∀ v, (∀ a ∈ l, a.done = false) →
    (∃ q, animLoop F t l v = .ok q) ∨ (animLoop F t l v = .ub ∧ ∃ a ∈ l, isWipe a.name = true) := by
  induction l with
  | nil => intro v _; exact .inl ⟨_, rfl⟩
  | cons a l ih =>
    intro v h
    simp only [animLoop, h a (by simp), Bool.false_eq_true, if_false]
    rcases turn_total F t a v with ⟨p, hp⟩ | ⟨hp, hw⟩
    · rw [hp]
      simp only [Res.bind_ok]
      rcases ih p.2 (fun b hb => h b (by simp [hb])) with ⟨q, hq⟩ | ⟨hq, b, hb, hw⟩
      · rw [hq]; exact .inl ⟨_, rfl⟩
      · rw [hq]; exact .inr ⟨rfl, b, by simp [hb], hw⟩
    · rw [hp]; exact .inr ⟨rfl, a, by simp, hw⟩

theorem mkAnim_done (F : FP) (W H : Int) (now : Nat) (n : String) (src dst : Str) (dur : Nat) : (mkAnim F W H now n src dst dur).done = false := by
  simp only [mkAnim]; split_ifs <;> rfl

/-- No frame ever meets an animation that is already over: whatever is scheduled when, a frame does not abort; if no wipe is scheduled its behaviour
is also always defined. -/
theorem C38_no_abort (e : PEnv) (W H : Int) (ops : List (Nat × AOp)) (v : View) (s : AState) (h : animRun e W H ops ⟨[], v⟩ = .ok s) (t : Nat) :
    (∃ s', animFrame e.F t s = .ok s') ∨ (animFrame e.F t s = .ub ∧ ∃ a ∈ s.infos, isWipe a.name = true) := by
  have key : ∀ (ops : List (Nat × AOp)) (s0 s : AState), (∀ a ∈ s0.infos, a.done = false) → animRun e W H ops s0 = .ok s → ∀ a ∈ s.infos, a.done = false := by
    intro ops
    induction ops with
    | nil => intro s0 s h0 h; cases h; exact h0
    | cons o ops ih =>
      intro s0 s h0 h
      obtain ⟨t, o⟩ := o
      cases o with
      | schedule n src dst dur =>
        simp only [animRun] at h
        obtain ⟨s1, h1, h⟩ := Res.bind_eq_ok h
        refine ih s1 s ?_ h
        unfold animSchedule at h1
        dsimp only at h1
        repeat' split at h1
        all_goals first
          | (cases h1; done)
          | skip
        · obtain ⟨c1, -, h1⟩ := Res.bind_eq_ok h1
          obtain ⟨c2, -, h1⟩ := Res.bind_eq_ok h1
          cases h1
          intro a ha
          simp only [List.mem_append, List.mem_cons, List.not_mem_nil, or_false] at ha
          rcases ha with ha | rfl | rfl | rfl
          · exact h0 a ha
          all_goals exact mkAnim_done ..
        · cases h1
          intro a ha
          simp only [List.mem_append, List.mem_cons, List.not_mem_nil, or_false] at ha
          rcases ha with ha | rfl
          · exact h0 a ha
          · exact mkAnim_done ..
      | frame =>
        simp only [animRun] at h
        obtain ⟨s1, h1, h⟩ := Res.bind_eq_ok h
        refine ih s1 s ?_ h
        unfold animFrame at h1
        obtain ⟨q, -, h1⟩ := Res.bind_eq_ok h1
        cases h1
        intro a ha
        simpa using (List.mem_filter.1 ha).2
  rcases loop_total e.F t s.infos s.view (key ops _ s (by simp) h) with ⟨q, hq⟩ | ⟨hq, hw⟩
  · exact .inl ⟨_, by unfold animFrame; rw [hq]; rfl⟩
  · exact .inr ⟨by unfold animFrame; rw [hq]; rfl, hw⟩

/-- A view, and colours, for examples. -/
def view0 : View := { x := 10, y := 0, w := 100, h := 100, alpha := 255, r := 0, g := 0, b := 0 }
def penv1 : PEnv := { F := exactFP, color := fun s => if s = "black".toList then some (0, 0, 0, 1) else some (1 / 2, 1 / 2, 1 / 2, 1), trans := fun _ => .ok () }

def viewOf (r : Res AState) : Option (View × Nat) := match r with | .ok s => some (s.view, s.infos.length) | _ => none

/-- The hypotheses of `C38_monotone` and `C38_reaches` can be met: `left` from 10 to 50% of 640 in one second. -/
example : viewOf ((animSchedule penv1 640 480 0 "left" [] "50%".toList 1000 ⟨[], view0⟩).bind (animFrames exactFP [5, 505])) = some ({ view0 with x := 165 }, 1) ∧
    viewOf ((animSchedule penv1 640 480 0 "left" [] "50%".toList 1000 ⟨[], view0⟩).bind (animFrames exactFP [5, 505, 1005])) = some ({ view0 with x := 320 }, 0) ∧
    view0.get "left" = some ((10 : Int) : Rat) ∧ Ordered 5 [5, 505, 1005] := by
  refine ⟨by decide +kernel, by decide +kernel, by decide +kernel, ?_⟩
  simp [Ordered]

/-- Not so for `transparency`: animated to 100% the object ends fully opaque, whereas setting 100% makes it fully transparent. -/
theorem C38_fails_transparency :
    viewOf ((animSchedule penv1 640 480 0 "transparency" [] "100%".toList 1000 ⟨[], view0⟩).bind (animFrames exactFP [0, 1000])) =
      some ({ view0 with alpha := 255 }, 0) ∧
    opacity exactFP "100%".toList = 0 := by decide +kernel

/-- Nor for `background`: animated from black to a grey of 1/2 it ends white. -/
theorem C38_fails_background :
    viewOf ((animSchedule penv1 640 480 0 "background" "black".toList "gray".toList 1000 ⟨[], view0⟩).bind (animFrames exactFP [0, 1000])) =
      some ({ view0 with r := 1, g := 1, b := 1 }, 0) := by decide +kernel

/-- C39 is false: no animation of `bounds`, `location` or `size` is ever scheduled; with well-formed values the code
dereferences the end of a list (undefined behaviour), with others it ends the process. -/
theorem C39_fails (e : PEnv) (W H : Int) (now : Nat) (n : String) (hn : n ∈ ["bounds", "location", "size"]) (src dst : Str) (dur : Nat) (s : AState) :
    (∀ s', animSchedule e W H now n src dst dur s ≠ .ok s') ∧
    (∀ k, k = (if n = "bounds" then 4 else 2) → (src = [] ∨ (parseList src ',' k k).isSome) → (parseList dst ',' k k).isSome →
      animSchedule e W H now n src dst dur s = .ub) := by
  simp only [List.mem_cons, List.not_mem_nil, or_false] at hn
  refine ⟨fun s' => ?_, fun k hk hs hd => ?_⟩
  · unfold animSchedule
    rcases hn with rfl | rfl | rfl <;> simp <;> split_ifs <;> simp
  · unfold animSchedule
    have h2 : parseList dst ',' k k ≠ none := by intro h; rw [h] at hd; cases hd
    have h1 : ¬ (src ≠ [] ∧ parseList src ',' k k = none) := by
      rintro ⟨h, h'⟩
      rcases hs with hs | hs
      · exact h hs
      · rw [h'] at hs; cases hs
    rcases hn with rfl | rfl | rfl
    · simp only [if_true] at hk; subst hk
      dsimp only
      rw [if_pos rfl, if_neg h1, if_neg h2]
    · simp only [show ("location" = "bounds") = False by simp, if_false] at hk; subst hk
      dsimp only
      rw [if_neg (by simp), if_pos rfl, if_neg h1, if_neg h2]
    · simp only [show ("size" = "bounds") = False by simp, if_false] at hk; subst hk
      dsimp only
      rw [if_neg (by simp), if_neg (by simp), if_pos rfl, if_neg h1, if_neg h2]

example : parseList "0,0,50%,50%".toList ',' 4 4 = some ["0".toList, "0".toList, "50%".toList, "50%".toList] := by decide +kernel

end Ginga
