import Verif.Props.C39
/-! # C67: the transition at the start of a media -/
set_option linter.unusedSimpArgs false
namespace Ginga

/-! ## Numbers that are printed and read again -/

/-- An integer as numeral. -/
def intNumeral (n : ℤ) : Numeral := { neg := if n < 0 then some true else none, ip := Nat.toDigits 10 n.natAbs }

theorem intNumeral_wf (n : ℤ) : (intNumeral n).WF :=
  ⟨by simp [intNumeral], toDigits_isDigit _, by simp [intNumeral], .inl Nat.toDigits_ne_nil, by simp [intNumeral], by simp [intNumeral]⟩

theorem intNumeral_str (n : ℤ) : (intNumeral n).str = intStr n := by
  unfold intStr intNumeral Numeral.str
  split <;> simp [sgnStr]

theorem intNumeral_val (n : ℤ) : (intNumeral n).val = n := by
  unfold intNumeral
  by_cases h : n < 0
  · simp only [if_pos h, Numeral.val, Numeral.expv]
    simp only [List.append_nil, Nat.ofDigitChars_ten_toDigits]
    have : (n.natAbs : ℤ) = -n := by omega
    have : (n.natAbs : ℚ) = -n := by rw [← Int.cast_natCast, this, Int.cast_neg]
    simp [this]
  · simp only [if_neg h, Numeral.val, Numeral.expv]
    simp only [List.append_nil, Nat.ofDigitChars_ten_toDigits]
    have : (n.natAbs : ℤ) = n := by omega
    have : (n.natAbs : ℚ) = n := by rw [← Int.cast_natCast, this]
    simp [this]

/-- A printed `int` is read as itself, up to the limits given. -/
theorem parsePercent_intStr (F : FP) {n : ℤ} (h : IsInt n) (b lo hi : ℤ) : parsePercent F (intStr n) b lo hi = clamp n lo hi := by
  have := orPercent_plain F (intNumeral n) (intNumeral_wf n) [] stops_nil (by simp)
  rw [List.append_nil, intNumeral_str, intNumeral_val] at this
  unfold parsePercent
  rw [this]
  have hn : n.natAbs ≤ 2 ^ 53 := by obtain ⟨h1, h2⟩ := h; omega
  simp only [Bool.false_eq_true, if_false, FP.int F n hn, lround_int, toInt32_of_range h.1 (by obtain ⟨h1, h2⟩ := h; omega)]

/-! ## The animation of a bar wipe -/

theorem tsub_self (t : Nat) : tsub t t = 0 := by
  unfold tsub; rw [Nat.add_sub_cancel, Nat.mod_self]

section
variable {u : ℚ} (F : FPE u)

/-- Updating twice in the same frame changes nothing. -/
theorem advance_again {p q : ℤ} (hq : |q| ≤ 2 ^ 53) {a : Anim} (h : Moving F p q a) (t : Nat) :
    (a.advance F.toFP t).advance F.toFP t = a.advance F.toFP t := by
  obtain ⟨hi, ht, hf, hs, hp⟩ := h
  have z : ∀ x : ℚ, F.rnd (x * F.rnd ((0 : Nat) : ℚ)) = 0 := by intro x; rw [Nat.cast_zero, FPE.zero, mul_zero, FPE.zero]
  have hqr : F.rnd (q : ℚ) = q := F.int q hq
  have key : ∀ b : Anim, b.last = t → F.rnd b.current = b.current → b.advance F.toFP t =
      if b.dur = 0 ∨ ((if b.current < b.target then (1 : ℚ) else -1) > 0 ∧ b.current ≥ b.target) ∨ ((if b.current < b.target then (1 : ℚ) else -1) < 0 ∧ b.current ≤ b.target) then
        { b with current := b.target, last := t, done := true } else { b with last := t } := by
    intro b hb hr
    simp only [Anim.advance, hb, tsub_self, z, add_zero, hr]
  by_cases hc : a.dur = 0 ∨ ((if a.current < a.target then (1 : ℚ) else -1) > 0 ∧ F.rnd (a.current + F.rnd ((if a.current < a.target then (1 : ℚ) else -1) * a.speed * F.rnd (tsub t a.last : Nat))) ≥ a.target) ∨
      ((if a.current < a.target then (1 : ℚ) else -1) < 0 ∧ F.rnd (a.current + F.rnd ((if a.current < a.target then (1 : ℚ) else -1) * a.speed * F.rnd (tsub t a.last : Nat))) ≤ a.target)
  · have e : a.advance F.toFP t = { a with current := a.target, last := t, done := true } := by
      simp only [Anim.advance]; rw [if_pos hc]
    rw [e, key _ rfl (by show F.rnd a.target = a.target; rw [ht]; exact hqr)]
    have : ¬ a.target < a.target := lt_irrefl _
    simp [this]
  · have e : a.advance F.toFP t = { a with current := F.rnd (a.current + F.rnd ((if a.current < a.target then (1 : ℚ) else -1) * a.speed * F.rnd (tsub t a.last : Nat))), last := t } := by
      simp only [Anim.advance]; rw [if_neg hc]
    rw [e, key _ rfl (F.idem _)]
    generalize F.rnd (a.current + F.rnd ((if a.current < a.target then (1 : ℚ) else -1) * a.speed * F.rnd (tsub t a.last : Nat))) = c at *
    rw [if_neg]
    rintro (h1 | ⟨h1, h2⟩ | ⟨h1, h2⟩)
    · exact hc (.inl h1)
    · dsimp only at h1 h2
      rw [if_neg (not_lt.2 h2)] at h1
      norm_num at h1
    · dsimp only at h1 h2
      have h3 : ¬ c < a.target := by intro h; rw [if_pos h] at h1; norm_num at h1
      have h4 : c = a.target := le_antisymm h2 (not_lt.1 h3)
      apply hc
      by_cases hlt : a.current < a.target
      · right; left; rw [if_pos hlt]; exact ⟨by norm_num, by rw [h4]⟩
      · right; right; rw [if_neg hlt]; exact ⟨by norm_num, by rw [h4]⟩

end

/-- The corners of a rectangle, as the crop polygon lists them. -/
def corners (x y fx fy : ℤ) : List ℤ := [x, y, fx, y, fx, fy, x, fy]

/-- A wipe of one side: its name, the two positions of the polygon it moves, the polygon. -/
structure Bar (nm : String) (i j : Nat) (poly : ℤ → List ℤ) : Prop where
  wipe : isWipe nm = true
  turn : ∀ (F : FP) (t : Nat) (a : Anim) (v : View), a.name = nm →
    wipeTurn F t a v = (cropUpdate F t i a v).bind fun p => (cropUpdate F t j p.1 p.2).bind fun p => .ok (cropDone p)
  geti : ∀ c, (poly c)[i]? = some c
  getj : ∀ c d, ((poly c).set i d)[j]? = some c
  set : ∀ c d, ((poly c).set i d).set j d = poly d

theorem barTop (x fx fy : ℤ) : Bar "barwipe:topToBottom" 1 3 (fun c => corners x c fx fy) :=
  ⟨by decide, fun F t a v h => by unfold wipeTurn; rw [if_pos h], fun _ => rfl, fun _ _ => rfl, fun _ _ => rfl⟩

theorem barLeft (y fx fy : ℤ) : Bar "barwipe:leftToRight" 0 6 (fun c => corners c y fx fy) :=
  ⟨by decide, fun F t a v h => by unfold wipeTurn; rw [if_neg (by rw [h]; decide), if_pos h], fun _ => rfl, fun _ _ => rfl, fun _ _ => rfl⟩

theorem Bar.animTurn {nm : String} {i j : Nat} {poly : ℤ → List ℤ} (B : Bar nm i j poly) {F : FP} {t : Nat} {a b : Anim} {v : View} {c : ℤ} (hn : a.name = nm)
    (hc : v.crop = poly c) (hb : (if a.init then a else a.begin F c t).advance F t = b) (hi : b.init = true) (ha : b.advance F t = b) :
    animTurn F t a v = .ok (b, { v with crop := if b.done then [] else poly (pixel b.current) }) := by
  unfold Ginga.animTurn
  rw [hn, B.wipe, if_pos rfl, B.turn F t a v hn]
  simp only [cropUpdate, hc, B.geti, Res.bind_ok, hb, B.getj, hi, if_true, ha, B.set]
  unfold cropDone
  cases b.done <;> simp

theorem put_crop (v : View) (n : String) (c : ℚ) : (v.put n c).crop = v.crop := by
  unfold View.put; split_ifs <;> rfl

theorem begin_init {F : FP} {a : Anim} {c : ℚ} {t : Nat} : (a.begin F c t).init = true := rfl
theorem advance_init {F : FP} {a : Anim} {t : Nat} : (a.advance F t).init = a.init := by
  simp only [Anim.advance]; split_ifs <;> rfl

/-- Animations of ordinary properties do not touch the crop polygon. -/
theorem plain_loop (F : FP) (t : Nat) (l : List Anim) : ∀ v : View, (∀ a ∈ l, isWipe a.name = false ∧ a.done = false) →
    ∃ q, animLoop F t l v = .ok q ∧ q.2.crop = v.crop ∧ ∀ a ∈ q.1, isWipe a.name = false := by
  induction l with
  | nil => intro v _; exact ⟨_, rfl, rfl, by simp⟩
  | cons a l ih =>
    intro v h
    obtain ⟨hw, hd⟩ := h a (by simp)
    obtain ⟨q, h1, h2, h3⟩ := ih (animStep F t a v).2 (fun b hb => h b (by simp [hb]))
    refine ⟨((animStep F t a v).1 :: q.1, q.2), ?_, ?_, ?_⟩
    · simp only [animLoop, hd, Bool.false_eq_true, if_false, animTurn, hw, Res.bind_ok, h1]
    · rw [h2]
      unfold animStep
      split
      · rfl
      · exact put_crop ..
    · intro b hb
      rcases List.mem_cons.1 hb with rfl | hb
      · rw [step_name]; exact hw
      · exact h3 b hb

/-- The state of a wipe in progress (`some a`) or over (`none`), with the other animations. -/
def Wiping (nm : String) (poly : ℤ → List ℤ) (o : Option Anim) (c : ℤ) (s : AState) : Prop :=
  s.view.crop = (match o with | some _ => poly c | none => []) ∧ (∀ a ∈ s.infos, a.done = false) ∧
  ∃ l l', s.infos = l ++ o.toList ++ l' ∧ (∀ a ∈ l, isWipe a.name = false) ∧ (∀ a ∈ l', isWipe a.name = false) ∧ (∀ a ∈ o, a.name = nm)

theorem Bar.frame {nm : String} {i j : Nat} {poly : ℤ → List ℤ} (B : Bar nm i j poly) {F : FP} {t : Nat} {o : Option Anim} {c : ℤ} {s : AState} (h : Wiping nm poly o c s)
    (ha : ∀ a, o = some a → ((if a.init then a else a.begin F c t).advance F t).advance F t = (if a.init then a else a.begin F c t).advance F t) :
    ∃ s', animFrame F t s = .ok s' ∧ Wiping nm poly (solo F t (o, c)).1 (solo F t (o, c)).2 s' := by
  obtain ⟨hc, hd, l, l', hi, hl, hl', ho⟩ := h
  have hdl : ∀ a ∈ l, isWipe a.name = false ∧ a.done = false := fun a ha => ⟨hl a ha, hd a (by rw [hi]; simp [ha])⟩
  have hdl' : ∀ a ∈ l', isWipe a.name = false ∧ a.done = false := fun a ha => ⟨hl' a ha, hd a (by rw [hi]; simp [ha])⟩
  obtain ⟨q1, e1, c1, n1⟩ := plain_loop F t l s.view hdl
  cases o with
  | none =>
    obtain ⟨q2, e2, c2, n2⟩ := plain_loop F t l' q1.2 hdl'
    refine ⟨⟨(q1.1 ++ q2.1).filter (fun a => !a.done), q2.2⟩, ?_, ?_, ?_, (q1.1 ++ q2.1).filter (fun a => !a.done), [], ?_, ?_, by simp, by simp [solo]⟩
    · unfold animFrame
      rw [hi]
      simp only [Option.toList, List.append_nil]
      rw [loop_append, e1]
      simp only [Res.bind_ok, e2]
    · simp only [solo]; rw [c2, c1, hc]
    · intro a ha; simpa using (List.mem_filter.1 ha).2
    · simp [solo]
    · intro a ha
      rcases List.mem_append.1 (List.mem_filter.1 ha).1 with h | h
      · exact n1 a h
      · exact n2 a h
  | some a =>
    have hn : a.name = nm := ho a rfl
    have had : a.done = false := hd a (by rw [hi]; simp)
    have hturn := B.animTurn (F := F) (t := t) (v := q1.2) hn (c1.trans hc) rfl (by rw [advance_init]; cases hin : a.init <;> simp [hin, begin_init]) (ha a rfl)
    generalize hbb : (if a.init then a else a.begin F c t).advance F t = b at hturn
    have hbn : b.name = nm := by
      rw [← hbb, advance_name]; split
      · exact hn
      · exact hn
    obtain ⟨q2, e2, c2, n2⟩ := plain_loop F t l' { q1.2 with crop := if b.done then [] else poly (pixel b.current) } hdl'
    have hloop : animLoop F t (l ++ [a] ++ l') s.view = .ok (q1.1 ++ [b] ++ q2.1, q2.2) := by
      rw [loop_append, loop_append, e1]
      simp only [Res.bind_ok, animLoop, had, Bool.false_eq_true, if_false, hturn, e2]
    refine ⟨⟨(q1.1 ++ [b] ++ q2.1).filter (fun a => !a.done), q2.2⟩, ?_, ?_, ?_, q1.1.filter (fun a => !a.done), q2.1.filter (fun a => !a.done), ?_, ?_, ?_, ?_⟩
    · unfold animFrame
      rw [hi]
      simp only [Option.toList]
      rw [hloop]
      rfl
    · simp only [solo, hbb]; rw [c2]; cases b.done <;> rfl
    · intro a ha; simpa using (List.mem_filter.1 ha).2
    · simp only [solo, hbb]
      rw [List.filter_append, List.filter_append]
      cases hd : b.done <;> simp [hd]
    · intro a ha; exact n1 a (List.mem_filter.1 ha).1
    · intro a ha; exact n2 a (List.mem_filter.1 ha).1
    · intro a' ha'
      simp only [solo, hbb] at ha'
      cases hd : b.done <;> simp [hd] at ha'
      rw [← ha']; exact hbn

/-! ## Histories -/

/-- No wipe is scheduled by name (the animations that a document can ask for are those of properties). -/
def NoWipe (ops : List (Nat × AOp)) : Prop := ∀ o ∈ ops, match o.2 with | .schedule n _ _ _ => isWipe n = false | .frame => True

/-- The times of the frames of a history. -/
def frameTimes (ops : List (Nat × AOp)) : List Nat := ops.filterMap fun o => match o.2 with | .frame => some o.1 | _ => none

/-- What scheduling an ordinary property adds. -/
theorem schedule_plain {e : PEnv} {W H : ℤ} {now : Nat} {n : String} {src dst : Str} {dur : Nat} {s s' : AState} (hn : isWipe n = false)
    (h : animSchedule e W H now n src dst dur s = .ok s') : s'.view = s.view ∧ ∃ l, s'.infos = s.infos ++ l ∧ ∀ a ∈ l, isWipe a.name = false ∧ a.done = false ∧
      (a.name = n ∨ a.name ∈ ["background:r", "background:g", "background:b"]) := by
  have hname : ∀ m src dst, (mkAnim e.F W H now m src dst dur).name = m := by
    intro m src dst; simp only [mkAnim]; split_ifs <;> rfl
  unfold animSchedule at h
  dsimp only at h
  repeat' split at h
  all_goals first
    | (cases h; done)
    | skip
  · obtain ⟨c1, -, h⟩ := Res.bind_eq_ok h
    obtain ⟨c2, -, h⟩ := Res.bind_eq_ok h
    cases h
    refine ⟨rfl, _, rfl, ?_⟩
    intro a ha
    simp only [List.mem_cons, List.not_mem_nil, or_false] at ha
    rcases ha with rfl | rfl | rfl <;> refine ⟨by rw [hname]; decide, mkAnim_done .., .inr (by rw [hname]; decide)⟩
  · cases h
    refine ⟨rfl, _, rfl, ?_⟩
    intro a ha
    simp only [List.mem_cons, List.not_mem_nil, or_false] at ha
    subst ha
    exact ⟨by rw [hname]; exact hn, mkAnim_done .., .inl (hname ..)⟩

section
variable {u : ℚ} (F : FPE u)

/-- On its way, before or after the first frame. -/
def Going (p q : ℤ) (o : Option Anim) (c : ℤ) : Prop := Running F p q o c ∨ ∃ a, o = some a ∧ Ready F p q a c

theorem Going.again {p q : ℤ} (hp : IsInt p) (hq : IsInt q) {o : Option Anim} {c : ℤ} (h : Going F p q o c) (t : Nat) : ∀ a, o = some a →
    ((if a.init then a else a.begin F.toFP c t).advance F.toFP t).advance F.toFP t = (if a.init then a else a.begin F.toFP c t).advance F.toFP t := by
  rintro a rfl
  rcases h with (⟨h, -⟩ | ⟨b, e, hd, hm, -⟩) | ⟨b, e, hr⟩
  · cases h
  · cases e
    rw [hm.init, if_pos rfl]
    exact advance_again F hq.abs hm t
  · cases e
    obtain ⟨hm, hd, -⟩ := hr.moving F hp t
    exact advance_again F hq.abs hm t

theorem Going.next {p q : ℤ} (hp : IsInt p) (hq : IsInt q) {o : Option Anim} {c : ℤ} (h : Going F p q o c) (t : Nat) :
    Running F p q (solo F.toFP t (o, c)).1 (solo F.toFP t (o, c)).2 := by
  rcases h with h | ⟨b, rfl, hr⟩
  · exact (next_frame F hp hq h t).1
  · exact (first_frame F hp hq hr t).1

/-- A wipe through a history in which other properties may be animated. -/
theorem Bar.run {nm : String} {i j : Nat} {poly : ℤ → List ℤ} (B : Bar nm i j poly) {e : PEnv} (he : e.F = F.toFP) {W H p q : ℤ} (hp : IsInt p) (hq : IsInt q)
    (ops : List (Nat × AOp)) : ∀ {o : Option Anim} {c : ℤ} {s s' : AState}, Wiping nm poly o c s → Going F p q o c → NoWipe ops → animRun e W H ops s = .ok s' →
      Wiping nm poly (soloRun F.toFP (frameTimes ops) (o, c)).1 (soloRun F.toFP (frameTimes ops) (o, c)).2 s' ∧
      Going F p q (soloRun F.toFP (frameTimes ops) (o, c)).1 (soloRun F.toFP (frameTimes ops) (o, c)).2 := by
  induction ops with
  | nil => intro o c s s' h hg _ hr; cases hr; exact ⟨h, hg⟩
  | cons op ops ih =>
    intro o c s s' h hg hno hr
    have hno' : NoWipe ops := fun o ho => hno o (by simp [ho])
    obtain ⟨t, op⟩ := op
    cases op with
    | schedule n src dst dur =>
      simp only [animRun] at hr
      obtain ⟨s1, h1, hr⟩ := Res.bind_eq_ok hr
      obtain ⟨hv, l2, hl2, hpl⟩ := schedule_plain (hno (t, .schedule n src dst dur) (by simp)) h1
      obtain ⟨hc, hd, l, l', hi, hl, hl', ho⟩ := h
      refine ih (o := o) (c := c) (s := s1) ⟨by rw [hv]; exact hc, ?_, l, l' ++ l2, by rw [hl2, hi]; simp [List.append_assoc], hl, ?_, ho⟩ hg hno' hr
      · intro a ha
        rw [hl2] at ha
        rcases List.mem_append.1 ha with ha | ha
        · exact hd a ha
        · exact (hpl a ha).2.1
      · intro a ha
        rcases List.mem_append.1 ha with ha | ha
        · exact hl' a ha
        · exact (hpl a ha).1
    | frame =>
      simp only [animRun] at hr
      obtain ⟨s1, h1, hr⟩ := Res.bind_eq_ok hr
      obtain ⟨s1', h1', hw⟩ := B.frame (F := F.toFP) (t := t) h (hg.again F hp hq t)
      rw [he] at h1
      rw [h1] at h1'
      cases h1'
      exact ih hw (.inl (hg.next F hp hq t)) hno' hr

/-! ## Bar wipes -/

/-- The polygon that hides what is beyond `c`: below it (`vertical`) or to the right of it, in the rectangle of the media. -/
def beyond (v : View) (vertical : Bool) (c : ℤ) : List ℤ := if vertical then corners v.x c (v.x + v.w) (v.y + v.h) else corners c v.y (v.x + v.w) (v.y + v.h)

/-- Where the wipe begins and where it ends. -/
def near (v : View) (vertical : Bool) : ℤ := if vertical then v.y else v.x
def far (v : View) (vertical : Bool) : ℤ := if vertical then v.y + v.h else v.x + v.w

def barName (vertical : Bool) : String := if vertical then "barwipe:topToBottom" else "barwipe:leftToRight"

theorem bar_beyond (v : View) (vertical : Bool) : ∃ i j, Bar (barName vertical) i j (beyond v vertical) := by
  cases vertical
  · exact ⟨0, 6, barLeft _ _ _⟩
  · exact ⟨1, 3, barTop _ _ _⟩

/-- The transition is a bar wipe, and nothing but ordinary properties is animated so far. -/
structure BarStart (tr : TransInfo) (vertical : Bool) (s : AState) : Prop where
  type : tr.type = "barWipe"
  subtype : vertical = true ↔ tr.subtype = "topToBottom"
  plain : ∀ a ∈ s.infos, isWipe a.name = false ∧ a.done = false
  int : IsInt s.view.x ∧ IsInt s.view.y

theorem isum_ok {a b c : ℤ} (h : isum a b = .ok c) : c = a + b ∧ IsInt (a + b) := by
  unfold isum at h
  split at h
  · cases h; exact ⟨rfl, by assumption⟩
  · cases h

theorem clamp_pos {n : ℤ} (h : IsInt n) : clamp n 0 INTMAX = max n 0 := by
  obtain ⟨h1, h2⟩ := h
  have hI : INTMAX = 2 ^ 31 - 1 := rfl
  unfold clamp; rw [hI]; split_ifs <;> omega

theorem schedule_wipe {e : PEnv} {W H : ℤ} {now : Nat} {nm : String} {src dst : Str} {dur : Nat} {s : AState} (hn : isWipe nm = true) :
    animSchedule e W H now nm src dst dur s = .ok { s with infos := s.infos ++ [mkAnim e.F W H now nm src dst dur] } := by
  have hne : nm ≠ "bounds" ∧ nm ≠ "location" ∧ nm ≠ "size" ∧ nm ≠ "background" := by
    refine ⟨?_, ?_, ?_, ?_⟩ <;> (rintro rfl; exact absurd hn (by decide))
  unfold animSchedule
  dsimp only
  rw [if_neg hne.1, if_neg hne.2.1, if_neg hne.2.2.1, if_neg hne.2.2.2]

theorem animValue_wipe (G : FP) (W H : ℤ) {nm : String} (hn : isWipe nm = true) (s : Str) : animValue G W H nm s = parsePercent G s 100 0 INTMAX := by
  have hne : nm ≠ "top" ∧ nm ≠ "height" ∧ nm ≠ "left" ∧ nm ≠ "width" ∧ nm ≠ "transparency" ∧ nm ≠ "background" := by
    refine ⟨?_, ?_, ?_, ?_, ?_, ?_⟩ <;> (rintro rfl; exact absurd hn (by decide))
  obtain ⟨h1, h2, h3, h4, h5, h6⟩ := hne
  simp [animValue, h1, h2, h3, h4, h5, h6]

theorem intStr_ne (n : ℤ) : intStr n ≠ [] := by
  unfold intStr; split
  · simp
  · exact Nat.toDigits_ne_nil

theorem IsInt.pos {n : ℤ} (h : IsInt n) : IsInt (max n 0) := by obtain ⟨h1, h2⟩ := h; constructor <;> omega

/-- A scheduled wipe is ready. -/
theorem wipe_ready {e : PEnv} (he : e.F = F.toFP) {W H : ℤ} {now : Nat} {nm : String} (hn : isWipe nm = true) {p q : ℤ} (hp : IsInt p) (hq : IsInt q) {dur : Nat} :
    ∃ a0 : Anim, a0.target = (max q 0 : ℤ) ∧ a0.dur = dur ∧ a0.name = nm ∧ a0.done = false ∧ a0.node = 0 ∧
      mkAnim e.F W H now nm (intStr p) (intStr q) dur = a0.begin F.toFP (max p 0 : ℤ) now ∧
      ∀ v, Ready F (max p 0) (max q 0) (mkAnim e.F W H now nm (intStr p) (intStr q) dur) v := by
  have e1 : mkAnim e.F W H now nm (intStr p) (intStr q) dur =
      ({ name := nm, current := (max p 0 : ℤ), target := (max q 0 : ℤ), dur := dur, last := 0, speed := 1, done := false, init := false } : Anim).begin F.toFP (max p 0 : ℤ) now := by
    simp only [mkAnim, if_pos (intStr_ne p), animValue_wipe _ _ _ hn, parsePercent_intStr _ hp, parsePercent_intStr _ hq, clamp_pos hp, clamp_pos hq, he]
  refine ⟨_, rfl, rfl, rfl, rfl, rfl, e1, fun v => ?_⟩
  rw [e1]
  refine ⟨rfl, rfl, .inr ⟨rfl, begin_moving F hp.pos.abs rfl now, rfl⟩⟩

/-- What the start of a bar wipe does. -/
theorem bar_start {e : PEnv} (he : e.F = F.toFP) {W H : ℤ} {now : Nat} {tr : TransInfo} {vertical : Bool} {s s1 : AState} (hb : BarStart tr vertical s)
    (h : animTransition e W H now (some tr) s = .ok s1) :
    IsInt (near s.view vertical) ∧ IsInt (far s.view vertical) ∧ s1.view = { s.view with crop := beyond s.view vertical (near s.view vertical) } ∧
    ∃ a a0 : Anim, Wiping (barName vertical) (beyond s.view vertical) (some a) (near s.view vertical) s1 ∧
      Ready F (max (near s.view vertical) 0) (max (far s.view vertical) 0) a (near s.view vertical) ∧
      a0.target = (max (far s.view vertical) 0 : ℤ) ∧ a0.dur = tr.dur ∧ a = a0.begin F.toFP (max (near s.view vertical) 0 : ℤ) now := by
  obtain ⟨ht, hst, hpl, hx, hy⟩ := hb
  unfold animTransition at h
  simp only [ht, if_true] at h
  obtain ⟨fx, h1, h⟩ := Res.bind_eq_ok h
  obtain ⟨fy, h2, h⟩ := Res.bind_eq_ok h
  obtain ⟨rfl, ix⟩ := isum_ok h1
  obtain ⟨rfl, iy⟩ := isum_ok h2
  have key : ∀ (nm : String) (p q : ℤ) (poly : ℤ → List ℤ) (s1 : AState), isWipe nm = true → IsInt p → IsInt q →
      animSchedule e W H now nm (intStr p) (intStr q) tr.dur { s with view := { s.view with crop := poly p } } = .ok s1 →
      s1.view = { s.view with crop := poly p } ∧ ∃ a a0 : Anim, Wiping nm poly (some a) p s1 ∧ Ready F (max p 0) (max q 0) a p ∧
        a0.target = (max q 0 : ℤ) ∧ a0.dur = tr.dur ∧ a = a0.begin F.toFP (max p 0 : ℤ) now := by
    intro nm p q poly s1 hn hp hq h
    rw [schedule_wipe hn] at h
    cases h
    obtain ⟨a0, h1, h2, h3, h3', -, h4, h5⟩ := wipe_ready F he (W := W) (H := H) (now := now) hn hp hq (dur := tr.dur)
    refine ⟨rfl, _, a0, ⟨rfl, ?_, s.infos, [], by simp, fun a ha => (hpl a ha).1, by simp, ?_⟩, h5 p, h1, h2, h4⟩
    · intro a ha
      rcases List.mem_append.1 ha with ha | ha
      · exact (hpl a ha).2
      · simp only [List.mem_singleton] at ha; subst ha; exact mkAnim_done ..
    · intro a ha
      simp only [Option.mem_some_iff] at ha
      rw [← ha, h4]; exact h3
  cases vertical with
  | true =>
    rw [if_pos (hst.1 rfl)] at h
    obtain ⟨r1, r2⟩ := key "barwipe:topToBottom" s.view.y (s.view.y + s.view.h) (beyond s.view true) s1 (by decide) hy iy h
    exact ⟨hy, iy, r1, r2⟩
  | false =>
    rw [if_neg (fun h => by cases hst.2 h)] at h
    obtain ⟨r1, r2⟩ := key "barwipe:leftToRight" s.view.x (s.view.x + s.view.w) (beyond s.view false) s1 (by decide) hx ix h
    exact ⟨hx, ix, r1, r2⟩

/-- At the start of a bar wipe all of the media is hidden. -/
theorem C67_bar_start {e : PEnv} {W H : ℤ} {now : Nat} {tr : TransInfo} {vertical : Bool} {s s1 : AState} (hb : BarStart tr vertical s)
    (he : e.F = F.toFP) (h : animTransition e W H now (some tr) s = .ok s1) :
    s1.view.crop = corners s.view.x s.view.y (s.view.x + s.view.w) (s.view.y + s.view.h) := by
  obtain ⟨-, -, h1, -⟩ := bar_start F he hb h
  rw [h1]
  cases vertical <;> rfl

/-- What is still hidden when the wipe has come to `c`: what is beyond `c`, or nothing if `c` is the end. -/
def Uncovered (v : View) (vertical : Bool) (c : ℤ) (s : AState) : Prop :=
  s.view.crop = beyond v vertical c ∨ (s.view.crop = [] ∧ c = far v vertical)

theorem Wiping.uncovered {v : View} {vertical : Bool} {p : ℤ} {o : Option Anim} {c : ℤ} {s : AState} (h : Wiping (barName vertical) (beyond v vertical) o c s)
    (hg : Running F p (far v vertical) o c) : Uncovered v vertical c s := by
  rcases hg with ⟨rfl, hc⟩ | ⟨a, rfl, -⟩
  · exact .inr ⟨h.1, hc⟩
  · exact .inl h.1

theorem Going.runs {p q : ℤ} (hp : IsInt p) (hq : IsInt q) (ts : List Nat) (hts : ts ≠ []) {o : Option Anim} {c : ℤ} (h : Going F p q o c) :
    Running F p q (soloRun F.toFP ts (o, c)).1 (soloRun F.toFP ts (o, c)).2 := by
  cases ts with
  | nil => exact absurd rfl hts
  | cons t ts => exact (next_frames F hp hq ts (h.next F hp hq t)).1

/-- A bar wipe uncovers the media from its upper (left) side to the lower (right) one: what is hidden after some frames is what lies
beyond a line that only advances, whatever properties are animated at the same time and whatever the times of the frames. -/
theorem C67_bar {e : PEnv} (he : e.F = F.toFP) {W H : ℤ} {now : Nat} {tr : TransInfo} {vertical : Bool} {s s1 s2 s3 : AState} (hb : BarStart tr vertical s)
    (h : animTransition e W H now (some tr) s = .ok s1) (hsize : near s.view vertical ≤ far s.view vertical) (hon : 0 ≤ far s.view vertical)
    (ops ops' : List (Nat × AOp)) (hno : NoWipe ops) (hno' : NoWipe ops') (hf : frameTimes ops ≠ [])
    (h2 : animRun e W H ops s1 = .ok s2) (h3 : animRun e W H ops' s2 = .ok s3) :
    ∃ c2 c3 : ℤ, max (near s.view vertical) 0 ≤ c2 ∧ c2 ≤ c3 ∧ c3 ≤ far s.view vertical ∧ Uncovered s.view vertical c2 s2 ∧ Uncovered s.view vertical c3 s3 := by
  obtain ⟨ip, iq, -, a, a0, hw, hr, -⟩ := bar_start F he hb h
  rw [max_eq_left hon] at hr
  have ip' := ip.pos
  have hpq : max (near s.view vertical) 0 ≤ far s.view vertical := max_le hsize hon
  obtain ⟨i, j, B⟩ := bar_beyond s.view vertical
  obtain ⟨w2, -⟩ := B.run F he ip' iq ops hw (.inr ⟨a, rfl, hr⟩) hno h2
  have g2 := Going.runs F ip' iq _ hf (o := some a) (.inr ⟨a, rfl, hr⟩)
  obtain ⟨w3, -⟩ := B.run F he ip' iq ops' w2 (.inl g2) hno' h3
  obtain ⟨g3, c3⟩ := next_frames F ip' iq (frameTimes ops') g2
  have b2 := g2.between F ip' iq
  have b3 := g3.between F ip' iq
  have hpq' : ((max (near s.view vertical) 0 : ℤ) : ℚ) ≤ (far s.view vertical : ℤ) := by exact_mod_cast hpq
  exact ⟨_, _, by exact_mod_cast b2.1.1 hpq', by exact_mod_cast c3.1 hpq', by exact_mod_cast b3.2.1 hpq', w2.uncovered F g2, w3.uncovered F g3⟩

/-- Once the duration of the wipe has elapsed nothing is hidden any more (up to rounding: with inexact arithmetic the polygon may still be
there, with no area). -/
theorem C67_bar_end {e : PEnv} (he : e.F = F.toFP) {W H : ℤ} {now : Nat} {tr : TransInfo} {vertical : Bool} {s s1 s2 : AState} (hb : BarStart tr vertical s)
    (h : animTransition e W H now (some tr) s = .ok s1) (hon : 0 ≤ far s.view vertical)
    (ops : List (Nat × AOp)) (hno : NoWipe ops) (hf : frameTimes ops ≠ []) (h2 : animRun e W H ops s1 = .ok s2)
    (hord : Ordered now (frameTimes ops)) (hend : now + tr.dur ≤ (frameTimes ops).getLast hf) (hlen : u = 0 ∨ (frameTimes ops).length < 2 ^ 20) :
    (s2.view.crop = [] ∨ s2.view.crop = beyond s.view vertical (far s.view vertical)) ∧ (u = 0 → s2.view.crop = []) := by
  obtain ⟨ip, iq, -, a, a0, hw, hr, ht0, hd0, ha0⟩ := bar_start F he hb h
  rw [max_eq_left hon] at hr ht0
  have ip' := ip.pos
  obtain ⟨i, j, B⟩ := bar_beyond s.view vertical
  obtain ⟨w2, -⟩ := B.run F he ip' iq ops hw (.inr ⟨a, rfl, hr⟩) hno h2
  cases hts : frameTimes ops with
  | nil => exact absurd hts hf
  | cons t ts =>
    simp only [hts] at hord hend hlen w2
    have hai : a.init = true := by rw [ha0]; rfl
    obtain ⟨hv, hn⟩ := solo_reaches F ip' iq hr ht0 hd0 (by rw [hai, if_pos rfl]; exact ha0) hord hend hlen
    obtain ⟨hc, -⟩ := w2
    generalize soloRun F.toFP (t :: ts) (some a, near s.view vertical) = r at *
    obtain ⟨o, c⟩ := r
    dsimp only at hv hn hc
    subst hv
    refine ⟨?_, fun hu => by rw [hn hu] at hc; exact hc⟩
    cases o with
    | none => exact .inl hc
    | some b => exact .inr hc

/-- During and after a bar wipe every frame has defined behaviour. -/
theorem C67_bar_defined {e : PEnv} (he : e.F = F.toFP) {W H : ℤ} {now : Nat} {tr : TransInfo} {vertical : Bool} {s s1 s2 : AState} (hb : BarStart tr vertical s)
    (h : animTransition e W H now (some tr) s = .ok s1) (ops : List (Nat × AOp)) (hno : NoWipe ops) (h2 : animRun e W H ops s1 = .ok s2) (t : Nat) :
    ∃ s3, animFrame e.F t s2 = .ok s3 := by
  obtain ⟨ip, iq, -, a, a0, hw, hr, -⟩ := bar_start F he hb h
  obtain ⟨i, j, B⟩ := bar_beyond s.view vertical
  obtain ⟨w2, g2⟩ := B.run F he ip.pos iq.pos ops hw (.inr ⟨a, rfl, hr⟩) hno h2
  obtain ⟨s3, h3, -⟩ := B.frame (F := F.toFP) (t := t) w2 (g2.again F ip.pos iq.pos t)
  exact ⟨s3, by rw [he]; exact h3⟩

end

/-! ## Diagonal wipes -/

theorem cropUpdate_length {F : FP} {t i : Nat} {a : Anim} {v : View} {p : Anim × View} (h : cropUpdate F t i a v = .ok p) : p.2.crop.length = v.crop.length := by
  unfold cropUpdate at h
  split at h
  · cases h
  · cases h; simp

theorem cropDone_cases (p : Anim × View) : (p.1.done = true ∧ (cropDone p) = (p.1, { p.2 with crop := [] })) ∨ (p.1.done = false ∧ cropDone p = p) := by
  unfold cropDone
  cases h : p.1.done <;> simp

theorem diagTurn_cases {F : FP} {t i : Nat} {x w y h : ℤ} {a : Anim} {v : View} {p : Anim × View} (hp : diagTurn F t i x w y h a v = .ok p) :
    (p.1.done = true ∧ p.2.crop = []) ∨ (p.1.done = false ∧ p.2.crop.length = v.crop.length) := by
  have key : ∀ q : Anim × View, q.2.crop.length = v.crop.length → ((cropDone q).1.done = true ∧ (cropDone q).2.crop = []) ∨
      ((cropDone q).1.done = false ∧ (cropDone q).2.crop.length = v.crop.length) := by
    intro q hq
    rcases cropDone_cases q with ⟨h1, h2⟩ | ⟨h1, h2⟩
    · left; rw [h2]; exact ⟨h1, rfl⟩
    · right; rw [h2]; exact ⟨h1, hq⟩
  unfold diagTurn at hp
  obtain ⟨q, hq, hp⟩ := Res.bind_eq_ok hp
  have hl := cropUpdate_length hq
  split at hp
  · obtain ⟨edge, -, hp⟩ := Res.bind_eq_ok hp
    split at hp
    · obtain ⟨far, -, hp⟩ := Res.bind_eq_ok hp
      cases hp; exact key _ hl
    · cases hp; exact key _ hl
  · cases hp; exact key _ hl

/-- The two animations of a diagonal wipe. -/
def isDiag (n : String) : Bool := n == "diagonalwipe:topLeft:x" || n == "diagonalwipe:topLeft:y"

theorem isDiag.wipe {n : String} (h : isDiag n = true) : isWipe n = true := by
  simp only [isDiag, Bool.or_eq_true, beq_iff_eq] at h
  rcases h with rfl | rfl <;> decide

theorem diag_turn {F : FP} {t : Nat} {a : Anim} {v : View} {p : Anim × View} (hn : isDiag a.name = true) (hp : animTurn F t a v = .ok p) :
    (p.1.done = true ∧ p.2.crop = []) ∨ (p.1.done = false ∧ p.2.crop.length = v.crop.length) := by
  unfold animTurn at hp
  rw [if_pos (isDiag.wipe hn)] at hp
  simp only [isDiag, Bool.or_eq_true, beq_iff_eq] at hn
  unfold wipeTurn at hp
  rcases hn with hn | hn
  · rw [if_neg (by rw [hn]; decide), if_neg (by rw [hn]; decide), if_pos hn] at hp
    exact diagTurn_cases hp
  · rw [if_neg (by rw [hn]; decide), if_neg (by rw [hn]; decide), if_neg (by rw [hn]; decide)] at hp
    exact diagTurn_cases hp

/-- With no polygon a wipe has undefined behaviour. -/
theorem wipe_ub {F : FP} {t : Nat} {a : Anim} {v : View} (hn : isWipe a.name = true) (hv : v.crop = []) : animTurn F t a v = .ub := by
  have hu : ∀ i, cropUpdate F t i a v = .ub := by intro i; unfold cropUpdate; rw [hv]; simp
  unfold animTurn
  rw [if_pos hn]
  unfold wipeTurn diagTurn
  simp only [hu]
  repeat' split
  all_goals rfl

theorem frame_ub {F : FP} {t : Nat} {s : AState} {l l' : List Anim} {a : Anim} (hi : s.infos = l ++ [a] ++ l') (hl : ∀ b ∈ l, isWipe b.name = false ∧ b.done = false)
    (hd : a.done = false) (hn : isWipe a.name = true) (hv : s.view.crop = []) : animFrame F t s = .ub := by
  obtain ⟨q, h1, h2, -⟩ := plain_loop F t l s.view hl
  unfold animFrame
  rw [hi, loop_append, loop_append, h1]
  simp only [Res.bind_ok, animLoop, hd, Bool.false_eq_true, if_false, wipe_ub hn (h2.trans hv)]
  rfl

/-- A diagonal wipe in progress, or one of whose animations is over. -/
def Diagonal (s : AState) : Prop :=
  (∀ a ∈ s.infos, a.done = false) ∧
  ((∃ l l' a b, s.infos = l ++ [a] ++ ([b] ++ l') ∧ (∀ c ∈ l, isWipe c.name = false) ∧ (∀ c ∈ l', isWipe c.name = false) ∧ isDiag a.name = true ∧ isDiag b.name = true ∧
      s.view.crop.length = 10) ∨
   (∃ l l' a, s.infos = l ++ [a] ++ l' ∧ (∀ c ∈ l, isWipe c.name = false) ∧ (∀ c ∈ l', isWipe c.name = false) ∧ isDiag a.name = true ∧ s.view.crop = []))

theorem Diagonal.frame {F : FP} {t : Nat} {s s' : AState} (h : Diagonal s) (hf : animFrame F t s = .ok s') : Diagonal s' := by
  obtain ⟨hd, ⟨l, l', a, b, hi, hl, hl', ha, hb, hc⟩ | ⟨l, l', a, hi, hl, hl', ha, hc⟩⟩ := h
  · unfold animFrame at hf
    obtain ⟨p, hp, hf⟩ := Res.bind_eq_ok hf
    cases hf
    obtain ⟨q1, e1, c1, n1⟩ := plain_loop F t l s.view (fun c hc => ⟨hl c hc, hd c (by rw [hi]; simp [hc])⟩)
    rw [hi, loop_append, loop_append, e1] at hp
    simp only [Res.bind_ok, animLoop, hd a (by rw [hi]; simp), Bool.false_eq_true, if_false] at hp
    cases hta : animTurn F t a q1.2 with
    | abort => rw [hta] at hp; cases hp
    | ub => rw [hta] at hp; cases hp
    | fuel => rw [hta] at hp; cases hp
    | ok p1 =>
      rw [hta] at hp
      simp only [Res.bind_ok, List.singleton_append, animLoop, hd b (by rw [hi]; simp), Bool.false_eq_true, if_false] at hp
      have na : isDiag p1.1.name = true := by rw [turn_name hta]; exact ha
      cases htb : animTurn F t b p1.2 with
      | abort => rw [htb] at hp; cases hp
      | ub => rw [htb] at hp; cases hp
      | fuel => rw [htb] at hp; cases hp
      | ok p2 =>
        rcases diag_turn ha hta with ⟨-, h2⟩ | ⟨h1, h2⟩
        · rw [wipe_ub (isDiag.wipe hb) h2] at htb; cases htb
        rw [htb] at hp
        simp only [Res.bind_ok] at hp
        have nb : isDiag p2.1.name = true := by rw [turn_name htb]; exact hb
        obtain ⟨q2, e2, c2, n2⟩ := plain_loop F t l' p2.2 (fun c hc => ⟨hl' c hc, hd c (by rw [hi]; simp [hc])⟩)
        rw [e2] at hp
        simp only [Res.bind_ok, Res.ok.injEq] at hp
        subst hp
        refine ⟨fun c hc => by simpa using (List.mem_filter.1 hc).2, ?_⟩
        have m1 : ∀ c ∈ q1.1.filter (fun a => !a.done), isWipe c.name = false := fun c hc => n1 c (List.mem_filter.1 hc).1
        have m2 : ∀ c ∈ q2.1.filter (fun a => !a.done), isWipe c.name = false := fun c hc => n2 c (List.mem_filter.1 hc).1
        rcases diag_turn hb htb with ⟨g1, g2⟩ | ⟨g1, g2⟩
        · right
          exact ⟨_, _, p1.1, by simp [List.filter_append, List.filter_cons, h1, g1], m1, m2, na, by rw [c2]; exact g2⟩
        · left
          exact ⟨_, _, p1.1, p2.1, by simp [List.filter_append, List.filter_cons, h1, g1], m1, m2, na, nb, by rw [c2, g2, h2, c1]; exact hc⟩
  · rw [frame_ub hi (fun c hc => ⟨hl c hc, hd c (by rw [hi]; simp [hc])⟩) (hd a (by rw [hi]; simp)) (isDiag.wipe ha) hc] at hf
    cases hf

theorem Diagonal.run {e : PEnv} {W H : ℤ} (ops : List (Nat × AOp)) : ∀ {s s' : AState}, Diagonal s → NoWipe ops → animRun e W H ops s = .ok s' → Diagonal s' := by
  induction ops with
  | nil => intro s s' h _ hr; cases hr; exact h
  | cons op ops ih =>
    intro s s' h hno hr
    have hno' : NoWipe ops := fun o ho => hno o (by simp [ho])
    obtain ⟨t, op⟩ := op
    cases op with
    | schedule n src dst dur =>
      simp only [animRun] at hr
      obtain ⟨s1, h1, hr⟩ := Res.bind_eq_ok hr
      obtain ⟨hv, l2, hl2, hpl⟩ := schedule_plain (hno (t, .schedule n src dst dur) (by simp)) h1
      refine ih ?_ hno' hr
      obtain ⟨hd, h⟩ := h
      refine ⟨?_, ?_⟩
      · intro a ha
        rw [hl2] at ha
        rcases List.mem_append.1 ha with ha | ha
        · exact hd a ha
        · exact (hpl a ha).2.1
      · rcases h with ⟨l, l', a, b, hi, hl, hl', ha, hb, hc⟩ | ⟨l, l', a, hi, hl, hl', ha, hc⟩
        · refine .inl ⟨l, l' ++ l2, a, b, by rw [hl2, hi]; simp, hl, ?_, ha, hb, by rw [hv]; exact hc⟩
          intro c hc
          rcases List.mem_append.1 hc with hc | hc
          · exact hl' c hc
          · exact (hpl c hc).1
        · refine .inr ⟨l, l' ++ l2, a, by rw [hl2, hi]; simp, hl, ?_, ha, by rw [hv]; exact hc⟩
          intro c hc
          rcases List.mem_append.1 hc with hc | hc
          · exact hl' c hc
          · exact (hpl c hc).1
    | frame =>
      simp only [animRun] at hr
      obtain ⟨s1, h1, hr⟩ := Res.bind_eq_ok hr
      exact ih (h.frame h1) hno' hr

/-- The property is false of diagonal wipes: however long the media is shown and whatever happens, the wipe never comes to its end with defined
behaviour: there is always an animation of it left, and once nothing is hidden any more the next frame has undefined behaviour (it dereferences the end
of the empty polygon). -/
theorem C67_fails_diagonal {e : PEnv} {W H : ℤ} {now : Nat} {tr : TransInfo} {s s1 s2 : AState} (ht : tr.type = "diagonalWipe")
    (hpl : ∀ a ∈ s.infos, isWipe a.name = false ∧ a.done = false) (h : animTransition e W H now (some tr) s = .ok s1) (ops : List (Nat × AOp)) (hno : NoWipe ops)
    (h2 : animRun e W H ops s1 = .ok s2) :
    (∃ a ∈ s2.infos, isWipe a.name = true) ∧ (s2.view.crop = [] → ∀ t, animFrame e.F t s2 = .ub) := by
  have h0 : Diagonal s1 := by
    unfold animTransition at h
    simp only [ht, show ("diagonalWipe" = "barWipe") = False by simp, if_false, if_true] at h
    obtain ⟨fx, -, h⟩ := Res.bind_eq_ok h
    obtain ⟨fy, -, h⟩ := Res.bind_eq_ok h
    rw [schedule_wipe (by decide)] at h
    simp only [Res.bind_ok] at h
    rw [schedule_wipe (by decide)] at h
    cases h
    have hname : ∀ m src dst dur, (mkAnim e.F W H now m src dst dur).name = m := by
      intro m src dst dur; simp only [mkAnim]; split_ifs <;> rfl
    refine ⟨?_, .inl ⟨s.infos, [], _, _, by dsimp only; rw [List.append_nil], fun c hc => (hpl c hc).1, by simp, by rw [hname]; decide, by rw [hname]; decide, rfl⟩⟩
    intro a ha
    simp only [List.mem_append, List.mem_singleton] at ha
    rcases ha with (ha | rfl) | rfl
    · exact (hpl a ha).2
    · exact mkAnim_done ..
    · exact mkAnim_done ..
  obtain ⟨hd, ⟨l, l', a, b, hi, hl, hl', ha, hb, hc⟩ | ⟨l, l', a, hi, hl, hl', ha, hc⟩⟩ := Diagonal.run ops h0 hno h2
  · exact ⟨⟨a, by rw [hi]; simp, isDiag.wipe ha⟩, fun h => by rw [h] at hc; cases hc⟩
  · exact ⟨⟨a, by rw [hi]; simp, isDiag.wipe ha⟩, fun _ t => frame_ub hi (fun c hc => ⟨hl c hc, hd c (by rw [hi]; simp [hc])⟩) (hd a (by rw [hi]; simp)) (isDiag.wipe ha) hc⟩

/-- Such a wipe of 100 by 100 pixels in one second: after one second and a frame the behaviour is undefined. -/
theorem C67_fails_diagonal_run :
    (match (animTransition penv1 640 480 0 (some ⟨"diagonalWipe", "topLeft", 1000⟩) ⟨[], view0⟩).bind (animFrames exactFP [250, 500, 510]) with
      | .ok s => decide (s.view.crop = [10, 100, 110, 0, 110, 0, 110, 100, 10, 100]) | _ => false) = true ∧
    (match (animTransition penv1 640 480 0 (some ⟨"diagonalWipe", "topLeft", 1000⟩) ⟨[], view0⟩).bind (animFrames exactFP [250, 500, 510, 1010]) with
      | .ub => true | _ => false) = true := by
  constructor <;> decide +kernel

/-- The property is false of documents that animate a property named like a wipe: the next frame has undefined behaviour. -/
theorem C67_fails_named {e : PEnv} {W H : ℤ} {now dur t : Nat} {n : String} {src dst : Str} {s s1 : AState} (hn : isWipe n = true) (hv : s.view.crop = [])
    (hpl : ∀ a ∈ s.infos, isWipe a.name = false ∧ a.done = false) (h : animSchedule e W H now n src dst dur s = .ok s1) : animFrame e.F t s1 = .ub := by
  rw [schedule_wipe hn] at h
  cases h
  have hname : (mkAnim e.F W H now n src dst dur).name = n := by simp only [mkAnim]; split_ifs <;> rfl
  exact frame_ub (l := s.infos) (l' := []) (a := mkAnim e.F W H now n src dst dur) (by simp) hpl (mkAnim_done ..) (by rw [hname]; exact hn) hv

/-! ## Fades -/

section
variable {u : ℚ} (F : FPE u)

theorem put_alpha_pixel {c : ℚ} (h1 : 0 ≤ c) (h2 : c ≤ 255) (w : View) : (w.put "transparency" c).get "transparency" = some ((pixel c : ℤ) : ℚ) := by
  have a1 := lround_mono h1
  have a2 := lround_mono h2
  have e1 : lround 0 = 0 := by decide +kernel
  have e2 : lround 255 = 255 := by decide +kernel
  rw [e1] at a1
  rw [e2] at a2
  have hp : pixel c = lround c := by unfold pixel clamp; split_ifs <;> omega
  have ha : clamp (lround c) 0 255 = lround c := by unfold clamp; split_ifs <;> omega
  simp only [View.put, View.get, reduceCtorEq, String.reduceEq, if_false, if_true, hp, ha]
  have : ((lround c).toNat : ℤ) = lround c := Int.toNat_of_nonneg a1
  congr 1
  rw [← Int.cast_natCast, this]

/-- Between 0 and `q`, after the animation `a` has advanced. -/
theorem Going.alpha {q : ℤ} (hq0 : 0 ≤ q) (hq : q ≤ 255) {o : Option Anim} {c : ℤ} (h : Going F 0 q o c) (t : Nat) : ∀ a, o = some a →
    0 ≤ ((if a.init then a else a.begin F.toFP c t).advance F.toFP t).current ∧ ((if a.init then a else a.begin F.toFP c t).advance F.toFP t).current ≤ 255 := by
  have iq : IsInt q := ⟨by omega, by omega⟩
  have i0 : IsInt 0 := ⟨by omega, by omega⟩
  have key : ∀ b : Anim, Moving F 0 q b → b.done = false → 0 ≤ (b.advance F.toFP t).current ∧ (b.advance F.toFP t).current ≤ 255 := by
    intro b hm hd
    obtain ⟨-, h1, h2, -⟩ := advance_moving F iq.abs hm hd t
    have hq0' : ((0 : ℤ) : ℚ) ≤ (q : ℤ) := by exact_mod_cast hq0
    have hq' : (q : ℚ) ≤ 255 := by exact_mod_cast hq
    have := h1.1 hq0'
    rw [Int.cast_zero] at this
    exact ⟨this, (h2.1 hq0').trans hq'⟩
  rintro a rfl
  rcases h with (⟨h, -⟩ | ⟨b, e, hd, hm, -⟩) | ⟨b, e, hr⟩
  · cases h
  · cases e
    rw [hm.init, if_pos rfl]
    exact key a hm hd
  · cases e
    obtain ⟨hm, hd, -⟩ := hr.moving F i0 t
    exact key _ hm hd

/-- `transparency` is not animated by the document meanwhile. -/
def NoAlpha (ops : List (Nat × AOp)) : Prop := ∀ o ∈ ops, match o.2 with | .schedule n _ _ _ => n ≠ "transparency" | .frame => True

theorem schedule_names {e : PEnv} {W H : ℤ} {now : Nat} {n : String} {src dst : Str} {dur : Nat} {s s' : AState}
    (h : animSchedule e W H now n src dst dur s = .ok s') : s'.view = s.view ∧ ∃ l, s'.infos = s.infos ++ l ∧ ∀ a ∈ l,
      (a.name = n ∨ a.name ∈ ["background:r", "background:g", "background:b"]) := by
  cases hn : isWipe n with
  | false =>
    obtain ⟨h1, l, h2, h3⟩ := schedule_plain hn h
    exact ⟨h1, l, h2, fun a ha => (h3 a ha).2.2⟩
  | true =>
    rw [schedule_wipe hn] at h
    cases h
    refine ⟨rfl, _, rfl, fun a ha => .inl ?_⟩
    simp only [List.mem_singleton] at ha
    subst ha
    simp only [mkAnim]; split_ifs <;> rfl

theorem fade_run {e : PEnv} (he : e.F = F.toFP) {W H q : ℤ} (hq0 : 0 ≤ q) (hq : q ≤ 255) (ops : List (Nat × AOp)) :
    ∀ {o : Option Anim} {c : ℤ} {s s' : AState}, Shows "transparency" o c s → Going F 0 q o c → NoAlpha ops → animRun e W H ops s = .ok s' →
      Shows "transparency" (soloRun F.toFP (frameTimes ops) (o, c)).1 (soloRun F.toFP (frameTimes ops) (o, c)).2 s' := by
  have iq : IsInt q := ⟨by omega, by omega⟩
  have i0 : IsInt 0 := ⟨by omega, by omega⟩
  induction ops with
  | nil => intro o c s s' h hg _ hr; cases hr; exact h
  | cons op ops ih =>
    intro o c s s' h hg hno hr
    have hno' : NoAlpha ops := fun o ho => hno o (by simp [ho])
    obtain ⟨t, op⟩ := op
    cases op with
    | schedule n src dst dur =>
      simp only [animRun] at hr
      obtain ⟨s1, h1, hr⟩ := Res.bind_eq_ok hr
      obtain ⟨hv, l2, hl2, hpl⟩ := schedule_names h1
      have hn : n ≠ "transparency" := hno (t, .schedule n src dst dur) (by simp)
      obtain ⟨hc, l, l', hi, hl, hl', ho⟩ := h
      refine ih (o := o) (c := c) (s := s1) ⟨by rw [hv]; exact hc, l, l' ++ l2, by rw [hl2, hi]; simp [List.append_assoc], hl, ?_, ho⟩ hg hno' hr
      intro a ha
      rcases List.mem_append.1 ha with ha | ha
      · exact hl' a ha
      · rcases hpl a ha with h | h
        · rw [h]; exact hn
        · intro hx; rw [hx] at h; exact absurd h (by decide)
    | frame =>
      simp only [animRun] at hr
      obtain ⟨s1, h1, hr⟩ := Res.bind_eq_ok hr
      rw [he] at h1
      have hs := frame_solo' F.toFP t "transparency" (by decide) o c s s1 h
        (fun a ha w => by obtain ⟨b1, b2⟩ := hg.alpha F hq0 hq t a ha; exact put_alpha_pixel b1 b2 w) h1
      exact ih hs (.inl (hg.next F i0 iq t)) hno' hr

/-- The transition is neither a bar wipe nor a diagonal one, and the transparency is not animated so far. -/
structure FadeStart (tr : TransInfo) (s : AState) : Prop where
  type : tr.type ≠ "barWipe" ∧ tr.type ≠ "diagonalWipe"
  free : ∀ a ∈ s.infos, a.name ≠ "transparency"
  alpha : s.view.alpha ≤ 255

theorem fade_start {e : PEnv} (he : e.F = F.toFP) {W H : ℤ} {now : Nat} {tr : TransInfo} {s s1 : AState} (hb : FadeStart tr s)
    (h : animTransition e W H now (some tr) s = .ok s1) :
    ∃ a a0 : Anim, Shows "transparency" (some a) s.view.alpha s1 ∧ Ready F 0 s.view.alpha a s.view.alpha ∧
      a0.target = (s.view.alpha : ℤ) ∧ a0.dur = tr.dur ∧ a = a0.begin F.toFP (0 : ℤ) now := by
  obtain ⟨⟨h1, h2⟩, hfree, hal⟩ := hb
  have ia : IsInt (s.view.alpha : ℤ) := ⟨by omega, by omega⟩
  have i0 : IsInt 0 := ⟨by omega, by omega⟩
  unfold animTransition at h
  simp only [if_neg h1, if_neg h2] at h
  unfold animSchedule at h
  simp only [String.reduceEq, if_false] at h
  cases h
  have hv : ∀ n : ℤ, IsInt n → 0 ≤ n → n ≤ 255 → animValue e.F W H "transparency" (intStr n) = n := by
    intro n hn n0 n1
    simp only [animValue, String.reduceEq, or_self, if_false, true_or, if_true]
    rw [parsePercent_intStr _ hn]
    unfold clamp; split_ifs <;> omega
  have hz : (['0'] : Str) = intStr 0 := by decide
  have e1 : mkAnim e.F W H now "transparency" ['0'] (intStr s.view.alpha) tr.dur =
      ({ name := "transparency", current := (0 : ℤ), target := (s.view.alpha : ℤ), dur := tr.dur, last := 0, speed := 1, done := false, init := false } : Anim).begin F.toFP (0 : ℤ) now := by
    rw [hz]
    simp only [mkAnim, if_pos (intStr_ne 0), hv 0 i0 (le_refl _) (by norm_num), hv _ ia (by omega) (by omega)]
    rw [he]
  refine ⟨_, _, ⟨?_, s.infos, [], by simp, hfree, by simp, ?_⟩, ?_, rfl, rfl, e1⟩
  · simp [View.get]
  · intro a ha
    simp only [Option.mem_some_iff] at ha
    rw [← ha, e1]; rfl
  · rw [e1]
    exact ⟨rfl, rfl, .inr ⟨rfl, begin_moving F i0.abs rfl now, rfl⟩⟩

/-- Any other transition fades the media in: its opacity only grows, from 0 to the one it had, whatever other properties are animated and whatever the times of the
frames. -/
theorem C67_fade {e : PEnv} (he : e.F = F.toFP) {W H : ℤ} {now : Nat} {tr : TransInfo} {s s1 s2 s3 : AState} (hb : FadeStart tr s)
    (h : animTransition e W H now (some tr) s = .ok s1) (ops ops' : List (Nat × AOp)) (hno : NoAlpha ops) (hno' : NoAlpha ops') (hf : frameTimes ops ≠ [])
    (h2 : animRun e W H ops s1 = .ok s2) (h3 : animRun e W H ops' s2 = .ok s3) : s2.view.alpha ≤ s3.view.alpha ∧ s3.view.alpha ≤ s.view.alpha := by
  obtain ⟨a, a0, hw, hr, -⟩ := fade_start F he hb h
  have hal := hb.alpha
  have ia : IsInt (s.view.alpha : ℤ) := ⟨by omega, by omega⟩
  have i0 : IsInt 0 := ⟨by omega, by omega⟩
  have w2 := fade_run F he (q := s.view.alpha) (by omega) (by omega) ops hw (.inr ⟨a, rfl, hr⟩) hno h2
  have g2 := Going.runs F i0 ia _ hf (o := some a) (.inr ⟨a, rfl, hr⟩)
  have w3 := fade_run F he (q := s.view.alpha) (by omega) (by omega) ops' w2 (.inl g2) hno' h3
  obtain ⟨g3, c3⟩ := next_frames F i0 ia (frameTimes ops') g2
  have b3 := g3.between F i0 ia
  have hpq' : ((0 : ℤ) : ℚ) ≤ ((s.view.alpha : ℤ) : ℚ) := by exact_mod_cast Nat.zero_le _
  have e2 : ∀ (v : View) (c : ℤ), v.get "transparency" = some ((c : ℤ) : ℚ) → (v.alpha : ℤ) = c := by
    intro v c h
    simp only [View.get, String.reduceEq, if_false, if_true, Option.some.injEq] at h
    exact_mod_cast h
  have k2 := e2 _ _ w2.1
  have k3 := e2 _ _ w3.1
  have l1 : (soloRun F.toFP (frameTimes ops) (some a, (s.view.alpha : ℤ))).2 ≤ (soloRun F.toFP (frameTimes ops') (soloRun F.toFP (frameTimes ops) (some a, (s.view.alpha : ℤ)))).2 := by exact_mod_cast c3.1 hpq'
  have l2 : (soloRun F.toFP (frameTimes ops') (soloRun F.toFP (frameTimes ops) (some a, (s.view.alpha : ℤ)))).2 ≤ (s.view.alpha : ℤ) := by exact_mod_cast b3.2.1 hpq'
  constructor
  · have : (s2.view.alpha : ℤ) ≤ s3.view.alpha := by rw [k2, k3]; exact l1
    exact_mod_cast this
  · have : (s3.view.alpha : ℤ) ≤ s.view.alpha := by rw [k3]; exact l2
    exact_mod_cast this

/-- Once its duration has elapsed the media has its own opacity. -/
theorem C67_fade_end {e : PEnv} (he : e.F = F.toFP) {W H : ℤ} {now : Nat} {tr : TransInfo} {s s1 s2 : AState} (hb : FadeStart tr s)
    (h : animTransition e W H now (some tr) s = .ok s1) (ops : List (Nat × AOp)) (hno : NoAlpha ops) (hf : frameTimes ops ≠ [])
    (h2 : animRun e W H ops s1 = .ok s2) (hord : Ordered now (frameTimes ops)) (hend : now + tr.dur ≤ (frameTimes ops).getLast hf)
    (hlen : u = 0 ∨ (frameTimes ops).length < 2 ^ 20) : s2.view.alpha = s.view.alpha := by
  obtain ⟨a, a0, hw, hr, ht0, hd0, ha0⟩ := fade_start F he hb h
  have hal := hb.alpha
  have ia : IsInt (s.view.alpha : ℤ) := ⟨by omega, by omega⟩
  have i0 : IsInt 0 := ⟨by omega, by omega⟩
  have w2 := fade_run F he (q := s.view.alpha) (by omega) (by omega) ops hw (.inr ⟨a, rfl, hr⟩) hno h2
  cases hts : frameTimes ops with
  | nil => exact absurd hts hf
  | cons t ts =>
    simp only [hts] at hord hend hlen w2
    have hai : a.init = true := by rw [ha0]; rfl
    obtain ⟨hv, -⟩ := solo_reaches F i0 ia hr ht0 hd0 (by rw [hai, if_pos rfl]; exact ha0) hord hend hlen
    have := w2.1
    rw [hv] at this
    simp only [View.get, String.reduceEq, if_false, if_true, Option.some.injEq] at this
    exact_mod_cast this

end

/-! ## Non-vacuity -/

example : BarStart ⟨"barWipe", "topToBottom", 1000⟩ true ⟨[], view0⟩ ∧ FadeStart ⟨"fade", "fadeFromColor", 1000⟩ ⟨[], view0⟩ ∧
    near view0 true ≤ far view0 true ∧ 0 ≤ far view0 true := by
  refine ⟨⟨rfl, by simp, by simp, by constructor <;> constructor <;> decide⟩, ⟨by decide, by simp, by decide⟩, by decide, by decide⟩

example : (match (animTransition penv1 640 480 0 (some ⟨"barWipe", "topToBottom", 1000⟩) ⟨[], view0⟩).bind (animFrames exactFP [250, 500]) with
      | .ok s => decide (s.view.crop = corners 10 50 110 100) | _ => false) = true ∧
    (match (animTransition penv1 640 480 0 (some ⟨"barWipe", "topToBottom", 1000⟩) ⟨[], view0⟩).bind (animFrames exactFP [250, 500, 1000]) with
      | .ok s => decide (s.view.crop = []) | _ => false) = true ∧
    (match (animTransition penv1 640 480 0 (some ⟨"fade", "", 1000⟩) ⟨[], view0⟩).bind (animFrames exactFP [250, 500]) with
      | .ok s => decide (s.view.alpha = 128) | _ => false) = true := by
  refine ⟨?_, ?_, ?_⟩ <;> decide +kernel

/-- The property is false of a media that moves during the wipe: the polygon stays where it was and hides what is there, and the media is seen as a whole at
its new place. -/
theorem C67_fails_move :
    (match (animTransition penv1 640 480 0 (some ⟨"barWipe", "topToBottom", 1000⟩) ⟨[], view0⟩).bind
        (animRun penv1 640 480 [(0, .schedule "left" [] "300".toList 0), (0, .frame), (10, .frame)]) with
      | .ok s => decide (s.view.x = 300 ∧ s.view.crop = corners 10 1 110 100) | _ => false) = true := by
  decide +kernel

end Ginga
