import Mathlib.Tactic.Positivity
import Mathlib.Tactic.GCongr
import Verif.Proofs.IEEE
import Verif.Props.C37
import Verif.Model.Animator
/-! # C38: animations; C39: animations of compound properties -/
set_option linter.unusedSimpArgs false
namespace Ginga

/-! ## Rounding -/

/-- Rounding that is idempotent and has relative error at most `u`, where `u` is at most 2^-53. -/
structure FPE (u : ℚ) extends FP where
  idem : ∀ x, rnd (rnd x) = rnd x
  err : ∀ x, |rnd x - x| ≤ u * |x|
  unit : 0 ≤ u ∧ u ≤ 1 / 2 ^ 53

/-- Exact arithmetic. -/
def exactE : FPE 0 := { exactFP with idem := fun _ => rfl, err := fun x => by simp [exactFP], unit := by norm_num }

theorem rne_err (x : ℚ) : |rne x - x| ≤ |x| / 2 ^ 53 := by
  rcases eq_or_ne x 0 with rfl | hx
  · rw [rne_exact ⟨0, 0, by norm_num, by norm_num⟩]; simp
  unfold rne
  obtain ⟨hl, -⟩ := log_bounds hx
  generalize Int.log 2 |x| = k at *
  have hu : (0 : ℚ) < 2 ^ (k - 52) := by positivity
  have h1 : |x / 2 ^ (k - 52) - roundEven (x / 2 ^ (k - 52))| ≤ 1 / 2 :=
    (roundEven_nearest _ (round (x / 2 ^ (k - 52)))).trans (abs_sub_round _)
  have e : (roundEven (x / 2 ^ (k - 52)) : ℚ) * 2 ^ (k - 52) - x = -((x / 2 ^ (k - 52) - roundEven (x / 2 ^ (k - 52))) * 2 ^ (k - 52)) := by
    field_simp; ring
  rw [e, abs_neg, abs_mul, abs_of_pos hu]
  have h2 : (2 : ℚ) ^ (k - 52) = 2 ^ k / 2 ^ 52 := by
    rw [zpow_sub₀ (by norm_num)]; norm_cast
  calc _ ≤ 1 / 2 * (2 : ℚ) ^ (k - 52) := by gcongr
    _ = 2 ^ k / 2 ^ 53 := by rw [h2]; field_simp
    _ ≤ _ := by gcongr

/-- IEEE doubles. -/
noncomputable def ieeeE : FPE (1 / 2 ^ 53) :=
  { ieee with idem := fun x => rne_exact (rne_rep x), err := fun x => by have := rne_err x; rw [div_mul_eq_mul_div, one_mul]; exact this, unit := by norm_num }

/-! ## One animation -/

/-- The four properties of the rectangle. -/
def Geometric (n : String) : Prop := n ∈ ["left", "top", "width", "height"]

/-- What one frame does to an animation of a geometric property and to its value. -/
def solo (F : FP) (t : Nat) : Option Anim × Int → Option Anim × Int
  | (none, v) => (none, v)
  | (some a, v) =>
    let a := (if a.init then a else a.begin F v t).advance F t
    (if a.done then none else some a, pixel a.current)

def soloRun (F : FP) : List Nat → Option Anim × Int → Option Anim × Int
  | [], s => s
  | t :: l, s => soloRun F l (solo F t s)

theorem put_y (v : View) (n : String) (c : ℚ) (h : n ≠ "top") : (v.put n c).y = v.y := by
  unfold View.put; split_ifs <;> first | rfl | contradiction
theorem put_x (v : View) (n : String) (c : ℚ) (h : n ≠ "left") : (v.put n c).x = v.x := by
  unfold View.put; split_ifs <;> first | rfl | contradiction
theorem put_w (v : View) (n : String) (c : ℚ) (h : n ≠ "width") : (v.put n c).w = v.w := by
  unfold View.put; split_ifs <;> first | rfl | contradiction
theorem put_h (v : View) (n : String) (c : ℚ) (h : n ≠ "height") : (v.put n c).h = v.h := by
  unfold View.put; split_ifs <;> first | rfl | contradiction
theorem put_r (v : View) (n : String) (c : ℚ) (h : n ≠ "background:r") : (v.put n c).r = v.r := by
  unfold View.put; split_ifs <;> first | rfl | contradiction
theorem put_g (v : View) (n : String) (c : ℚ) (h : n ≠ "background:g") : (v.put n c).g = v.g := by
  unfold View.put; split_ifs <;> first | rfl | contradiction
theorem put_b (v : View) (n : String) (c : ℚ) (h : n ≠ "background:b") : (v.put n c).b = v.b := by
  unfold View.put; split_ifs <;> first | rfl | contradiction
theorem put_alpha (v : View) (n : String) (c : ℚ) (h : n ≠ "transparency") : (v.put n c).alpha = v.alpha := by
  unfold View.put; split_ifs <;> first | rfl | contradiction
theorem put_get_ne (v : View) (n m : String) (c : ℚ) (h : n ≠ m) : (v.put n c).get m = v.get m := by
  unfold View.get
  by_cases hy : m = "top"
  · rw [if_pos hy, if_pos hy, put_y v n c (hy ▸ h)]
  rw [if_neg hy, if_neg hy]
  by_cases hx : m = "left"
  · rw [if_pos hx, if_pos hx, put_x v n c (hx ▸ h)]
  rw [if_neg hx, if_neg hx]
  by_cases hw : m = "width"
  · rw [if_pos hw, if_pos hw, put_w v n c (hw ▸ h)]
  rw [if_neg hw, if_neg hw]
  by_cases hh : m = "height"
  · rw [if_pos hh, if_pos hh, put_h v n c (hh ▸ h)]
  rw [if_neg hh, if_neg hh]
  by_cases hr : m = "background:r"
  · rw [if_pos hr, if_pos hr, put_r v n c (hr ▸ h)]
  rw [if_neg hr, if_neg hr]
  by_cases hg : m = "background:g"
  · rw [if_pos hg, if_pos hg, put_g v n c (hg ▸ h)]
  rw [if_neg hg, if_neg hg]
  by_cases hb : m = "background:b"
  · rw [if_pos hb, if_pos hb, put_b v n c (hb ▸ h)]
  rw [if_neg hb, if_neg hb]
  by_cases halpha : m = "transparency"
  · rw [if_pos halpha, if_pos halpha, put_alpha v n c (halpha ▸ h)]
  rw [if_neg halpha, if_neg halpha]

theorem put_get (v : View) (n : String) (c : ℚ) (h : Geometric n) : (v.put n c).get n = some ((pixel c : ℤ) : ℚ) := by
  simp only [Geometric, List.mem_cons, List.not_mem_nil, or_false] at h
  rcases h with rfl | rfl | rfl | rfl <;> simp [View.put, View.get]

theorem begin_name (F : FP) (a : Anim) (c : ℚ) (t : Nat) : (a.begin F c t).name = a.name := rfl
theorem advance_name (F : FP) (a : Anim) (t : Nat) : (a.advance F t).name = a.name := by
  simp only [Anim.advance]; split_ifs <;> rfl
theorem step_name (F : FP) (a : Anim) (t : Nat) (v : View) : (animStep F t a v).1.name = a.name := by
  unfold animStep
  split
  · rfl
  · dsimp only; rw [advance_name]; split <;> rfl

theorem cropUpdate_keeps {F : FP} {t i : Nat} {a : Anim} {v : View} {p : Anim × View} (h : cropUpdate F t i a v = .ok p) :
    p.1.name = a.name ∧ ∀ m, p.2.get m = v.get m := by
  unfold cropUpdate at h
  split at h
  · cases h
  · cases h
    refine ⟨?_, fun m => rfl⟩
    dsimp only; rw [advance_name]; split <;> rfl

theorem cropDone_keeps (p : Anim × View) : (cropDone p).1 = p.1 ∧ ∀ m, (cropDone p).2.get m = p.2.get m := by
  unfold cropDone; split <;> exact ⟨rfl, fun m => rfl⟩

theorem diagTurn_keeps {F : FP} {t i : Nat} {x w y h : Int} {a : Anim} {v : View} {p : Anim × View} (hp : diagTurn F t i x w y h a v = .ok p) :
    p.1.name = a.name ∧ ∀ m, p.2.get m = v.get m := by
  unfold diagTurn at hp
  obtain ⟨q, hq, hp⟩ := Res.bind_eq_ok hp
  obtain ⟨h1, h2⟩ := cropUpdate_keeps hq
  split at hp
  · obtain ⟨edge, -, hp⟩ := Res.bind_eq_ok hp
    split at hp
    · obtain ⟨far, -, hp⟩ := Res.bind_eq_ok hp
      cases hp
      exact ⟨by rw [(cropDone_keeps _).1]; exact h1, fun m => by rw [(cropDone_keeps _).2]; exact h2 m⟩
    · cases hp
      exact ⟨by rw [(cropDone_keeps _).1]; exact h1, fun m => by rw [(cropDone_keeps _).2]; exact h2 m⟩
  · cases hp
    exact ⟨by rw [(cropDone_keeps _).1]; exact h1, fun m => by rw [(cropDone_keeps _).2]; exact h2 m⟩

theorem wipeTurn_keeps {F : FP} {t : Nat} {a : Anim} {v : View} {p : Anim × View} (h : wipeTurn F t a v = .ok p) :
    p.1.name = a.name ∧ ∀ m, p.2.get m = v.get m := by
  have two : ∀ {i j : Nat}, ((cropUpdate F t i a v).bind fun p => (cropUpdate F t j p.1 p.2).bind fun p => .ok (cropDone p)) = .ok p →
      p.1.name = a.name ∧ ∀ m, p.2.get m = v.get m := by
    intro i j h
    obtain ⟨q, hq, h⟩ := Res.bind_eq_ok h
    obtain ⟨r, hr, h⟩ := Res.bind_eq_ok h
    cases h
    obtain ⟨h1, h2⟩ := cropUpdate_keeps hq
    obtain ⟨h3, h4⟩ := cropUpdate_keeps hr
    exact ⟨by rw [(cropDone_keeps _).1, h3, h1], fun m => by rw [(cropDone_keeps _).2, h4, h2]⟩
  unfold wipeTurn at h
  split at h
  · exact two h
  split at h
  · exact two h
  split at h
  · exact diagTurn_keeps h
  · exact diagTurn_keeps h

theorem turn_name {F : FP} {t : Nat} {a : Anim} {v : View} {p : Anim × View} (h : animTurn F t a v = .ok p) : p.1.name = a.name := by
  unfold animTurn at h
  split at h
  · exact (wipeTurn_keeps h).1
  · cases h; exact step_name ..

theorem turn_get {F : FP} {t : Nat} {a : Anim} {v : View} {p : Anim × View} (h : animTurn F t a v = .ok p) {n : String} (hn : a.name ≠ n) : p.2.get n = v.get n := by
  unfold animTurn at h
  split at h
  · exact (wipeTurn_keeps h).2 n
  · cases h
    unfold animStep
    split
    · rfl
    · dsimp only
      rw [put_get_ne]
      rw [advance_name]
      split <;> exact hn

theorem Geometric.notWipe {n : String} (h : Geometric n) : isWipe n = false := by
  simp only [Geometric, List.mem_cons, List.not_mem_nil, or_false] at h
  rcases h with rfl | rfl | rfl | rfl <;> decide

theorem loop_other (F : FP) (t : Nat) (n : String) (l : List Anim) : ∀ (v : View) (q : List Anim × View), (∀ a ∈ l, a.name ≠ n) →
    animLoop F t l v = .ok q → (∀ a ∈ q.1, a.name ≠ n) ∧ q.2.get n = v.get n := by
  induction l with
  | nil => intro v q _ h; cases h; simp
  | cons a l ih =>
    intro v q hn h
    simp only [animLoop] at h
    split at h
    · cases h
    obtain ⟨p, hp, h⟩ := Res.bind_eq_ok h
    obtain ⟨q', hq', h⟩ := Res.bind_eq_ok h
    cases h
    obtain ⟨h1, h2⟩ := ih _ _ (fun b hb => hn b (by simp [hb])) hq'
    refine ⟨?_, ?_⟩
    · intro b hb
      rcases List.mem_cons.1 hb with rfl | hb
      · rw [turn_name hp]; exact hn a (by simp)
      · exact h1 b hb
    · rw [h2, turn_get hp (hn a (by simp))]

theorem loop_append (F : FP) (t : Nat) (l l' : List Anim) : ∀ (v : View), animLoop F t (l ++ l') v =
    (animLoop F t l v).bind fun p => (animLoop F t l' p.2).bind fun q => .ok (p.1 ++ q.1, q.2) := by
  induction l with
  | nil => intro v; simp only [List.nil_append, animLoop, Res.bind_ok]; cases animLoop F t l' v <;> rfl
  | cons a l ih =>
    intro v
    simp only [List.cons_append, animLoop]
    split
    · rfl
    · cases animTurn F t a v with
      | ok p =>
        simp only [Res.bind_ok]
        rw [ih]
        cases animLoop F t l p.2 with
        | ok p => simp only [Res.bind_ok]; cases animLoop F t l' p.2 <;> rfl
        | _ => rfl
      | _ => rfl

/-- The state contains the animation `o` (if any) of the property `n`, and no other, and `v` is the value of the property. -/
def Shows (n : String) (o : Option Anim) (v : Int) (s : AState) : Prop :=
  s.view.get n = some ((v : ℤ) : ℚ) ∧ ∃ l l', s.infos = l ++ o.toList ++ l' ∧ (∀ a ∈ l, a.name ≠ n) ∧ (∀ a ∈ l', a.name ≠ n) ∧ (∀ a ∈ o, a.name = n)

/-- Animations of other properties do not interfere. -/
theorem frame_solo' (F : FP) (t : Nat) (n : String) (hw : isWipe n = false) (o : Option Anim) (v : Int) (s s' : AState) (h : Shows n o v s)
    (hput : ∀ a, o = some a → ∀ w : View, (w.put n ((if a.init then a else a.begin F v t).advance F t).current).get n =
      some ((pixel ((if a.init then a else a.begin F v t).advance F t).current : ℤ) : ℚ))
    (hf : animFrame F t s = .ok s') : Shows n (solo F t (o, v)).1 (solo F t (o, v)).2 s' := by
  obtain ⟨hv, l, l', hi, hl, hl', ho⟩ := h
  unfold animFrame at hf
  obtain ⟨p, hp, hf⟩ := Res.bind_eq_ok hf
  cases hf
  rw [hi, loop_append, loop_append] at hp
  obtain ⟨q, hq, hp⟩ := Res.bind_eq_ok hp
  obtain ⟨r, hr, hp⟩ := Res.bind_eq_ok hp
  cases hp
  obtain ⟨q1, hq1, hq⟩ := Res.bind_eq_ok hq
  obtain ⟨q2, hq2, hq⟩ := Res.bind_eq_ok hq
  cases hq
  obtain ⟨a1, a2⟩ := loop_other F t n l _ _ hl hq1
  obtain ⟨b1, b2⟩ := loop_other F t n l' _ _ hl' hr
  cases o with
  | none =>
    simp only [Option.toList, animLoop] at hq2
    cases hq2
    refine ⟨?_, q1.1.filter (fun a => !a.done), r.1.filter (fun a => !a.done), ?_, ?_, ?_, ?_⟩
    · dsimp only at b2 ⊢; rw [b2, a2]; exact hv
    · simp [solo, List.filter_append]
    · intro a ha; exact a1 a (List.mem_filter.1 ha).1
    · intro a ha; exact b1 a (List.mem_filter.1 ha).1
    · simp [solo]
  | some a =>
    have hn : a.name = n := ho a rfl
    simp only [Option.toList, animLoop] at hq2
    split at hq2
    · cases hq2
    simp only [animTurn, hn, hw, Bool.false_eq_true, if_false, Res.bind_ok] at hq2
    cases hq2
    have hget : q1.2.get a.name = some ((v : ℤ) : ℚ) := by rw [hn, a2, hv]
    have hstep : animStep F t a q1.2 = (((if a.init then a else a.begin F v t).advance F t),
        q1.2.put n ((if a.init then a else a.begin F v t).advance F t).current) := by
      unfold animStep
      rw [hget]
      dsimp only
      rw [advance_name]
      congr 2
      split <;> simp [begin_name, hn]
    refine ⟨?_, q1.1.filter (fun a => !a.done), r.1.filter (fun a => !a.done), ?_, ?_, ?_, ?_⟩
    · dsimp only at b2 ⊢
      rw [b2, hstep]
      dsimp only
      rw [hput a rfl]
      rfl
    · rw [hstep]
      dsimp only [solo]
      rw [List.filter_append, List.filter_append]
      generalize (if a.init then a else a.begin F v t).advance F t = b
      cases hd : b.done <;> simp [hd]
    · intro a ha; exact a1 a (List.mem_filter.1 ha).1
    · intro a ha; exact b1 a (List.mem_filter.1 ha).1
    · intro b hb
      dsimp only [solo] at hb
      have hc : ((if a.init then a else a.begin F v t).advance F t).name = n := by
        rw [advance_name]
        split
        · exact hn
        · exact hn
      generalize (if a.init then a else a.begin F v t).advance F t = c at hb hc
      cases hd : c.done <;> simp [hd] at hb
      rw [← hb]; exact hc

theorem frame_solo (F : FP) (t : Nat) (n : String) (hg : Geometric n) (o : Option Anim) (v : Int) (s s' : AState) (h : Shows n o v s)
    (hf : animFrame F t s = .ok s') : Shows n (solo F t (o, v)).1 (solo F t (o, v)).2 s' :=
  frame_solo' F t n hg.notWipe o v s s' h (fun _ _ w => put_get w _ _ hg) hf

theorem frames_solo (F : FP) (n : String) (hg : Geometric n) (ts : List Nat) : ∀ (o : Option Anim) (v : Int) (s s' : AState), Shows n o v s →
    animFrames F ts s = .ok s' → Shows n (soloRun F ts (o, v)).1 (soloRun F ts (o, v)).2 s' := by
  induction ts with
  | nil => intro o v s s' h hf; cases hf; exact h
  | cons t ts ih =>
    intro o v s s' h hf
    simp only [animFrames] at hf
    obtain ⟨s1, h1, hf⟩ := Res.bind_eq_ok hf
    exact ih _ _ s1 s' (frame_solo F t n hg o v s s1 h h1) hf


/-! ## The course of one animation -/

section
variable {u : ℚ} (F : FPE u)

theorem FPE.int (m : ℤ) (h : |m| ≤ 2 ^ 53) : F.rnd m = m :=
  FP.int F.toFP m (by rw [Int.abs_eq_natAbs] at h; exact_mod_cast h)
theorem FPE.zero : F.rnd 0 = 0 := FP.zero F.toFP
theorem FPE.nonneg {x : ℚ} (h : 0 ≤ x) : 0 ≤ F.rnd x := by have := F.mono 0 x h; rwa [FPE.zero] at this
theorem FPE.nonpos {x : ℚ} (h : x ≤ 0) : F.rnd x ≤ 0 := by have := F.mono x 0 h; rwa [FPE.zero] at this

/-- From `x` to `y` is in the direction from `p` to `q`. -/
def Toward (p q x y : ℚ) : Prop := (p ≤ q → x ≤ y) ∧ (q ≤ p → y ≤ x)

/-- An animation on its way from `p` to `q`. -/
structure Moving (p q : ℤ) (a : Anim) : Prop where
  init : a.init = true
  target : a.target = q
  fixed : F.rnd a.current = a.current
  speed : 0 ≤ a.speed
  pos : (p ≤ a.current ∧ a.current < q) ∨ ((q : ℚ) ≤ a.current ∧ a.current ≤ p)

theorem advance_moving {p q : ℤ} (hq : |q| ≤ 2 ^ 53) {a : Anim} (h : Moving F p q a) (hd : a.done = false) (t : Nat) :
    Toward p q a.current (a.advance F.toFP t).current ∧ Toward p q p (a.advance F.toFP t).current ∧ Toward p q (a.advance F.toFP t).current q ∧
    ((a.advance F.toFP t).done = true → (a.advance F.toFP t).current = q) ∧
    ((a.advance F.toFP t).done = false → Moving F p q (a.advance F.toFP t) ∧ (a.advance F.toFP t).current ≠ q) := by
  obtain ⟨hi, ht, hf, hs, hp⟩ := h
  have hdt : (0 : ℚ) ≤ F.rnd (tsub t a.last : Nat) := F.nonneg (by positivity)
  unfold Toward
  rcases hp with ⟨h1, h2⟩ | ⟨h1, h2⟩
  · have hlt : a.current < a.target := by rw [ht]; exact h2
    have hpq : (p : ℚ) < q := lt_of_le_of_lt h1 h2
    have hinc : 0 ≤ F.rnd (1 * a.speed * F.rnd (tsub t a.last : Nat)) := F.nonneg (by positivity)
    have hc : a.current ≤ F.rnd (a.current + F.rnd (1 * a.speed * F.rnd (tsub t a.last : Nat))) := by
      have := F.mono a.current (a.current + F.rnd (1 * a.speed * F.rnd (tsub t a.last : Nat))) (by linarith)
      rwa [hf] at this
    simp only [Anim.advance, if_pos hlt]
    generalize F.rnd (1 * a.speed * F.rnd (tsub t a.last : Nat)) = inc at *
    split
    · simp only [ht]
      refine ⟨⟨fun _ => h2.le, fun h => absurd h (not_le.2 hpq)⟩, ⟨fun h => h, fun h => h⟩, ⟨fun _ => le_refl _, fun _ => le_refl _⟩, fun _ => trivial, fun h => by cases h⟩
    · next hn =>
      push Not at hn
      have hc2 : F.rnd (a.current + inc) < q := by rw [← ht]; exact hn.2.1 (by norm_num)
      refine ⟨⟨fun _ => hc, fun h => absurd h (not_le.2 hpq)⟩, ⟨fun _ => h1.trans hc, fun h => absurd h (not_le.2 hpq)⟩,
        ⟨fun _ => hc2.le, fun h => absurd h (not_le.2 hpq)⟩, fun h => ?_, fun _ => ⟨⟨hi, ht, F.idem _, hs, .inl ⟨h1.trans hc, hc2⟩⟩, ne_of_lt hc2⟩⟩
      dsimp only at h; rw [hd] at h; cases h
  · have hlt : ¬ a.current < a.target := by rw [ht]; exact not_lt.2 h1
    have hpq : (q : ℚ) ≤ p := h1.trans h2
    have eqq : (p : ℚ) ≤ q → (p : ℚ) = q := fun h => le_antisymm h hpq
    have hinc : F.rnd (-1 * a.speed * F.rnd (tsub t a.last : Nat)) ≤ 0 := F.nonpos (by
      have : 0 ≤ a.speed * F.rnd (tsub t a.last : Nat) := by positivity
      linarith)
    have hc : F.rnd (a.current + F.rnd (-1 * a.speed * F.rnd (tsub t a.last : Nat))) ≤ a.current := by
      have := F.mono (a.current + F.rnd (-1 * a.speed * F.rnd (tsub t a.last : Nat))) a.current (by linarith)
      rwa [hf] at this
    simp only [Anim.advance, if_neg hlt]
    generalize F.rnd (-1 * a.speed * F.rnd (tsub t a.last : Nat)) = inc at *
    split
    · simp only [ht]
      refine ⟨⟨fun h => by rw [← eqq h]; exact h2, fun _ => h1⟩, ⟨fun h => h, fun h => h⟩, ⟨fun _ => le_refl _, fun _ => le_refl _⟩, fun _ => trivial, fun h => by cases h⟩
    · next hn =>
      push Not at hn
      have hc2 : q < F.rnd (a.current + inc) := by rw [← ht]; exact hn.2.2 (by norm_num)
      have hlt' : (q : ℚ) < p := lt_of_lt_of_le hc2 (hc.trans h2)
      refine ⟨⟨fun h => absurd h (not_le.2 hlt'), fun _ => hc⟩, ⟨fun h => absurd h (not_le.2 hlt'), fun _ => hc.trans h2⟩,
        ⟨fun h => absurd h (not_le.2 hlt'), fun _ => hc2.le⟩, fun h => ?_, fun _ => ⟨⟨hi, ht, F.idem _, hs, .inr ⟨hc2.le, hc.trans h2⟩⟩, ne_of_gt hc2⟩⟩
      dsimp only at h; rw [hd] at h; cases h

theorem begin_moving {p q : ℤ} (hp : |p| ≤ 2 ^ 53) {a : Anim} (ht : a.target = q) (t : Nat) : Moving F p q (a.begin F.toFP p t) := by
  refine ⟨rfl, ht, F.int p hp, ?_, ?_⟩
  · simp only [Anim.begin]
    split
    · refine F.nonneg (div_nonneg (F.nonneg ?_) (F.nonneg (by positivity)))
      split
      · linarith
      · linarith
    · exact le_refl _
  · rcases lt_or_ge (p : ℚ) q with h | h
    · exact .inl ⟨le_refl _, h⟩
    · exact .inr ⟨h, le_refl _⟩

theorem lround_int (m : ℤ) : lround m = m := by
  have h := lround_nearest (m : ℚ)
  have h1 : (m : ℚ) - 1 < lround (m : ℚ) := by linarith [h.1]
  have h2 : (lround (m : ℚ) : ℚ) < m + 1 := by linarith [h.2]
  have h1 : m - 1 < lround (m : ℚ) := by exact_mod_cast h1
  have h2 : lround (m : ℚ) < m + 1 := by exact_mod_cast h2
  omega

/-- An `int`. -/
def IsInt (p : ℤ) : Prop := -(2 ^ 31) ≤ p ∧ p ≤ 2 ^ 31 - 1

theorem IsInt.abs {p : ℤ} (h : IsInt p) : |p| ≤ 2 ^ 53 := by
  obtain ⟨h1, h2⟩ := h; rw [abs_le]; constructor <;> omega

theorem pixel_int {p : ℤ} (h : IsInt p) : pixel p = p := by
  unfold pixel; rw [lround_int]; unfold clamp; obtain ⟨h1, h2⟩ := h; split_ifs <;> omega

theorem pixel_mono {x y : ℚ} (h : x ≤ y) : pixel x ≤ pixel y := clamp_mono _ _ (lround_mono h) (by norm_num)

theorem Toward.pixel {p q : ℤ} {x y : ℚ} (h : Toward p q x y) : Toward p q (pixel x) (pixel y) :=
  ⟨fun hh => by exact_mod_cast pixel_mono (h.1 hh), fun hh => by exact_mod_cast pixel_mono (h.2 hh)⟩

theorem Toward.trans {p q x y z : ℚ} (h : Toward p q x y) (h' : Toward p q y z) : Toward p q x z :=
  ⟨fun hh => (h.1 hh).trans (h'.1 hh), fun hh => (h'.2 hh).trans (h.2 hh)⟩

theorem Toward.refl {p q x : ℚ} : Toward p q x x := ⟨fun _ => le_refl _, fun _ => le_refl _⟩

/-- After at least one frame. -/
def Running (p q : ℤ) (o : Option Anim) (v : ℤ) : Prop :=
  (o = none ∧ v = q) ∨ ∃ a, o = some a ∧ a.done = false ∧ Moving F p q a ∧ v = pixel a.current ∧ a.current ≠ q

/-- Ready for the first frame: with an explicit start value `p`, or starting from the value `p` the property has. -/
def Ready (p q : ℤ) (a : Anim) (v : ℤ) : Prop :=
  a.done = false ∧ a.target = q ∧ ((a.init = false ∧ v = p) ∨ (a.init = true ∧ Moving F p q a ∧ a.current = p))

theorem Ready.moving {p q : ℤ} {a : Anim} {v : ℤ} (hp : IsInt p) (h : Ready F p q a v) (t : Nat) :
    Moving F p q (if a.init then a else a.begin F.toFP v t) ∧ (if a.init then a else a.begin F.toFP v t).done = false ∧
    (if a.init then a else a.begin F.toFP v t).current = p := by
  obtain ⟨hd, ht, ⟨hi, rfl⟩ | ⟨hi, hm, hc⟩⟩ := h
  · simp only [hi, Bool.false_eq_true, if_false]
    exact ⟨begin_moving F hp.abs ht t, hd, rfl⟩
  · simp only [hi, if_true]
    exact ⟨hm, hd, hc⟩

theorem first_frame {p q : ℤ} (hp : IsInt p) (hq : IsInt q) {a : Anim} {v : ℤ} (h : Ready F p q a v) (t : Nat) :
    Running F p q (solo F.toFP t (some a, v)).1 (solo F.toFP t (some a, v)).2 ∧
    Toward p q p (solo F.toFP t (some a, v)).2 ∧ Toward p q (solo F.toFP t (some a, v)).2 q := by
  obtain ⟨hm, hd, -⟩ := h.moving F hp t
  obtain ⟨h1, h2, h3, h4, h5⟩ := advance_moving F hq.abs hm hd t
  simp only [solo]
  generalize (if a.init then a else a.begin F.toFP v t).advance F.toFP t = b at *
  refine ⟨?_, ?_, ?_⟩
  · cases hb : b.done with
    | true => left; rw [h4 hb]; exact ⟨by simp, pixel_int hq⟩
    | false => right; exact ⟨b, by simp, hb, (h5 hb).1, rfl, (h5 hb).2⟩
  · have := h2.pixel; rwa [pixel_int hp] at this
  · have := h3.pixel; rwa [pixel_int hq] at this

theorem next_frame {p q : ℤ} (_hp : IsInt p) (hq : IsInt q) {o : Option Anim} {v : ℤ} (h : Running F p q o v) (t : Nat) :
    Running F p q (solo F.toFP t (o, v)).1 (solo F.toFP t (o, v)).2 ∧
    Toward p q v (solo F.toFP t (o, v)).2 ∧ Toward p q (solo F.toFP t (o, v)).2 q := by
  rcases h with ⟨rfl, rfl⟩ | ⟨a, rfl, hd, hm, rfl, -⟩
  · exact ⟨.inl ⟨rfl, rfl⟩, .refl, .refl⟩
  · obtain ⟨h1, h2, h3, h4, h5⟩ := advance_moving F hq.abs hm hd t
    simp only [solo, hm.init, if_true]
    generalize a.advance F.toFP t = b at *
    refine ⟨?_, h1.pixel, ?_⟩
    · cases hb : b.done with
      | true => left; rw [h4 hb]; exact ⟨by simp, pixel_int hq⟩
      | false => right; exact ⟨b, by simp, hb, (h5 hb).1, rfl, (h5 hb).2⟩
    · have := h3.pixel; rwa [pixel_int hq] at this

theorem next_frames {p q : ℤ} (hp : IsInt p) (hq : IsInt q) (ts : List Nat) : ∀ {o : Option Anim} {v : ℤ}, Running F p q o v →
    Running F p q (soloRun F.toFP ts (o, v)).1 (soloRun F.toFP ts (o, v)).2 ∧ Toward p q v (soloRun F.toFP ts (o, v)).2 := by
  induction ts with
  | nil => intro o v h; exact ⟨h, .refl⟩
  | cons t ts ih =>
    intro o v h
    obtain ⟨h1, h2, -⟩ := next_frame F hp hq h t
    obtain ⟨h3, h4⟩ := ih h1
    exact ⟨h3, h2.trans h4⟩

theorem Running.between {p q : ℤ} (hp : IsInt p) (hq : IsInt q) {o : Option Anim} {v : ℤ} (h : Running F p q o v) : Toward p q p v ∧ Toward p q v q := by
  rcases h with ⟨rfl, rfl⟩ | ⟨a, rfl, hd, hm, rfl, -⟩
  · exact ⟨⟨fun h => h, fun h => h⟩, .refl⟩
  · have : Toward p q p a.current ∧ Toward p q a.current q := by
      rcases hm.pos with ⟨h1, h2⟩ | ⟨h1, h2⟩
      · exact ⟨⟨fun _ => h1, fun h => absurd (lt_of_le_of_lt h1 h2) (not_lt.2 h)⟩, ⟨fun _ => h2.le, fun h => absurd (lt_of_le_of_lt h1 h2) (not_lt.2 h)⟩⟩
      · refine ⟨⟨fun h => h.trans h1, fun _ => h2⟩, ⟨fun h => h2.trans h, fun _ => h1⟩⟩
    have h1 := this.1.pixel; have h2 := this.2.pixel
    rw [pixel_int hp] at h1; rw [pixel_int hq] at h2
    exact ⟨h1, h2⟩

/-! ### How far it has got -/

/-- The speed is at least nearly distance / duration. -/
theorem begin_speed {p q : ℤ} (hp : IsInt p) (hq : IsInt q) {a : Anim} (ht : a.target = q) (hd : 0 < a.dur) (t : Nat) :
    (1 - 2 * u) * (|(q : ℚ) - p| / a.dur) ≤ (a.begin F.toFP p t).speed := by
  obtain ⟨hu0, hu1⟩ := F.unit
  simp only [Anim.begin, if_pos hd, ht]
  have hD : (if (q : ℚ) - p ≤ 0 then (p : ℚ) - q else q - p) = |(q : ℚ) - p| := by
    split
    · next h => rw [abs_of_nonpos h]; ring
    · next h => rw [abs_of_pos (not_le.1 h)]
  rw [hD]
  have hDi : F.rnd |(q : ℚ) - p| = |(q : ℚ) - p| := by
    have : |(q : ℚ) - p| = ((|q - p| : ℤ) : ℚ) := by push_cast; rfl
    rw [this]
    apply F.int
    rw [abs_abs, abs_le]
    obtain ⟨h1, h2⟩ := hp; obtain ⟨h3, h4⟩ := hq
    constructor <;> omega
  rw [hDi]
  generalize hDD : |(q : ℚ) - p| = D at *
  have hD0 : 0 ≤ D := by rw [← hDD]; positivity
  have hdq : (0 : ℚ) < a.dur := by exact_mod_cast hd
  have hr : F.rnd (a.dur : ℚ) ≤ (1 + u) * a.dur := by
    have := F.err (a.dur : ℚ)
    rw [abs_of_pos hdq] at this
    linarith [(abs_le.1 this).2]
  have hr0 : 0 < F.rnd (a.dur : ℚ) := by
    have := F.err (a.dur : ℚ)
    rw [abs_of_pos hdq] at this
    have h2 := (abs_le.1 this).1
    have : u * a.dur ≤ 1 / 2 ^ 53 * a.dur := by gcongr
    nlinarith
  have hx : D / ((1 + u) * a.dur) ≤ D / F.rnd (a.dur : ℚ) := by gcongr
  have h3 := F.err (D / F.rnd (a.dur : ℚ))
  rw [abs_of_nonneg (a := D / F.rnd (a.dur : ℚ)) (by positivity)] at h3
  have h4 := (abs_le.1 h3).1
  have h5 : (1 - u) * (D / F.rnd (a.dur : ℚ)) ≤ F.rnd (D / F.rnd (a.dur : ℚ)) := by linarith
  refine le_trans ?_ h5
  have h6 : (1 - 2 * u) * (D / a.dur) ≤ (1 - u) * (D / ((1 + u) * a.dur)) := by
    have e : D / ((1 + u) * a.dur) = (D / a.dur) / (1 + u) := by field_simp
    rw [e]
    have hz : 0 ≤ D / a.dur := by positivity
    generalize D / a.dur = z at hz
    rw [mul_div_assoc', le_div_iff₀ (by linarith)]
    nlinarith [mul_nonneg hz hu0, mul_nonneg (mul_nonneg hz hu0) hu0]
  have h7 : 0 ≤ 1 - u := by linarith [show (1 : ℚ) / 2 ^ 53 ≤ 1 by norm_num]
  exact h6.trans (mul_le_mul_of_nonneg_left hx h7)

/-- One more frame: the distance covered grows by at least nearly its share. -/
theorem advance_lag {p q : ℤ} (hp : IsInt p) (hq : IsInt q) {a : Anim} (h : Moving F p q a) (hd : a.done = false) (t : Nat)
    (hn : (a.advance F.toFP t).done = false) (hlt : a.last ≤ t) (ht : t < 2 ^ 64) (S : ℚ) (hS0 : 0 ≤ S) (hS : (1 - 2 * u) * S ≤ a.speed) :
    |a.current - p| + (1 - 4 * u) * S * ((t : ℚ) - a.last) - u * 2 ^ 31 ≤ |(a.advance F.toFP t).current - p| ∧
    (a.advance F.toFP t).last = t ∧ (a.advance F.toFP t).speed = a.speed ∧ (a.advance F.toFP t).dur = a.dur := by
  obtain ⟨hu0, hu1⟩ := F.unit
  have hts : tsub t a.last = t - a.last := by unfold tsub; omega
  have hmv := advance_moving F hq.abs h hd t
  have hmv' := (hmv.2.2.2.2 hn).1
  have hmono := hmv.1
  clear hmv
  obtain ⟨hi, htg, hf, hs, hpos⟩ := h
  have hpa : |(p : ℚ)| ≤ 2 ^ 31 := by
    obtain ⟨h1, h2⟩ := hp
    rw [abs_le]; constructor
    · exact_mod_cast h1
    · have : (p : ℚ) ≤ ((2 ^ 31 - 1 : ℤ) : ℚ) := by exact_mod_cast h2
      refine this.trans (by norm_num)
  have hqa : |(q : ℚ)| ≤ 2 ^ 31 := by
    obtain ⟨h1, h2⟩ := hq
    rw [abs_le]; constructor
    · exact_mod_cast h1
    · have : (q : ℚ) ≤ ((2 ^ 31 - 1 : ℤ) : ℚ) := by exact_mod_cast h2
      refine this.trans (by norm_num)
  generalize hdt : (t : ℚ) - a.last = dt
  have hdt0 : 0 ≤ dt := by rw [← hdt]; have : (a.last : ℚ) ≤ t := by exact_mod_cast hlt
                           linarith
  have hcast : ((tsub t a.last : Nat) : ℚ) = dt := by rw [hts, Nat.cast_sub hlt, hdt]
  have hrdt : (1 - u) * dt ≤ F.rnd dt := by
    have := F.err dt; rw [abs_of_nonneg hdt0] at this; linarith [(abs_le.1 this).1]
  have hrdt0 : 0 ≤ F.rnd dt := F.nonneg hdt0
  -- the exact increment
  have hU : 0 ≤ 1 - u := by linarith [show (1 : ℚ) / 2 ^ 53 ≤ 1 by norm_num]
  have hexact : (1 - 3 * u) * (S * dt) ≤ a.speed * F.rnd dt := by
    have h2u : 0 ≤ 1 - 2 * u := by linarith [show (1 : ℚ) / 2 ^ 53 * 2 ≤ 1 by norm_num]
    calc (1 - 3 * u) * (S * dt) ≤ ((1 - 2 * u) * S) * ((1 - u) * dt) := by
          have := mul_nonneg hS0 hdt0
          nlinarith [mul_nonneg (mul_nonneg this hu0) hu0]
      _ ≤ a.speed * F.rnd dt := by gcongr
  have hprod : 0 ≤ a.speed * F.rnd dt := by positivity
  have hfin : (1 - 4 * u) * S * dt ≤ (1 - u) * (a.speed * F.rnd dt) := by
    have h1 : (1 - u) * ((1 - 3 * u) * (S * dt)) ≤ (1 - u) * (a.speed * F.rnd dt) := by gcongr
    have := mul_nonneg hS0 hdt0
    nlinarith [mul_nonneg (mul_nonneg this hu0) hu0]
  rcases hpos with ⟨h1, h2⟩ | ⟨h1, h2⟩
  · have hlt' : a.current < a.target := by rw [htg]; exact h2
    simp only [Anim.advance, if_pos hlt', hcast, one_mul] at hn hmv' hmono ⊢
    split at hn
    · cases hn
    next hnn =>
    rw [if_neg hnn] at hmv' hmono ⊢
    refine ⟨?_, rfl, rfl, rfl⟩
    dsimp only
    push Not at hnn
    have hc2 := hnn.2.1 (by norm_num)
    rw [htg] at hc2
    have hinc := F.err (a.speed * F.rnd dt)
    rw [abs_of_nonneg hprod] at hinc
    have hinc1 := (abs_le.1 hinc).1
    have hinc0 : 0 ≤ F.rnd (a.speed * F.rnd dt) := F.nonneg hprod
    generalize F.rnd (a.speed * F.rnd dt) = inc at *
    have hsum : a.current + inc < q := by
      by_contra hge
      have := F.mono q (a.current + inc) (not_lt.1 hge)
      rw [F.int q hq.abs] at this
      linarith
    have hsa : |a.current + inc| ≤ 2 ^ 31 := by
      rw [abs_le] at hpa hqa ⊢
      constructor <;> linarith
    have herr := F.err (a.current + inc)
    have : u * |a.current + inc| ≤ u * 2 ^ 31 := by gcongr
    have herr1 := (abs_le.1 (herr.trans this)).1
    have ha1 : |a.current - p| = a.current - p := abs_of_nonneg (by linarith)
    rw [ha1]
    have : F.rnd (a.current + inc) - p ≤ |F.rnd (a.current + inc) - p| := le_abs_self _
    linarith
  · have hlt' : ¬ a.current < a.target := by rw [htg]; exact not_lt.2 h1
    simp only [Anim.advance, if_neg hlt', hcast, neg_one_mul] at hn hmv' hmono ⊢
    split at hn
    · cases hn
    next hnn =>
    rw [if_neg hnn] at hmv' hmono ⊢
    refine ⟨?_, rfl, rfl, rfl⟩
    dsimp only
    push Not at hnn
    have hc2 := hnn.2.2 (by norm_num)
    rw [htg] at hc2
    rw [neg_mul] at *
    have hinc := F.err (-(a.speed * F.rnd dt))
    rw [abs_neg, abs_of_nonneg hprod] at hinc
    have hinc1 := (abs_le.1 hinc).2
    have hinc0 : F.rnd (-(a.speed * F.rnd dt)) ≤ 0 := F.nonpos (by linarith)
    generalize F.rnd (-(a.speed * F.rnd dt)) = inc at *
    have hsum : q < a.current + inc := by
      by_contra hge
      have := F.mono (a.current + inc) q (not_lt.1 hge)
      rw [F.int q hq.abs] at this
      linarith
    have hsa : |a.current + inc| ≤ 2 ^ 31 := by
      rw [abs_le] at hpa hqa ⊢
      constructor <;> linarith
    have herr := F.err (a.current + inc)
    have : u * |a.current + inc| ≤ u * 2 ^ 31 := by gcongr
    have herr1 := (abs_le.1 (herr.trans this)).2
    have ha1 : |a.current - p| = p - a.current := by rw [abs_of_nonpos (by linarith)]; ring
    rw [ha1]
    have : -(F.rnd (a.current + inc) - p) ≤ |F.rnd (a.current + inc) - p| := neg_le_abs _
    linarith

/-- The distance covered `k` frames after the start at `t0`. -/
def Covered (u : ℚ) (p : ℤ) (S : ℚ) (t0 k t : Nat) (a : Anim) : Prop :=
  a.last = t ∧ (1 - 2 * u) * S ≤ a.speed ∧ (1 - 4 * u) * S * ((t : ℚ) - t0) - k * (u * 2 ^ 31) ≤ |a.current - p|

theorem covered_next {p q : ℤ} (hp : IsInt p) (hq : IsInt q) {S : ℚ} (hS0 : 0 ≤ S) {a b : Anim} {v : ℤ} (hm : Moving F p q a) (hd : a.done = false) {t0 k t t' : Nat}
    (hc : Covered u p S t0 k t a) (htt : t ≤ t') (ht : t' < 2 ^ 64) (hs : (solo F.toFP t' (some a, v)).1 = some b) : Covered u p S t0 (k + 1) t' b := by
  obtain ⟨h1, h2, h3⟩ := hc
  simp only [solo, hm.init, if_true] at hs
  split at hs
  · cases hs
  next hb =>
  cases hs
  obtain ⟨a1, a2, a3, -⟩ := advance_lag F hp hq hm hd t' (by simpa using hb) (by omega) ht S hS0 h2
  refine ⟨a2, by rw [a3]; exact h2, le_trans ?_ a1⟩
  rw [h1]
  push_cast
  linarith

/-- Frames in time order. -/
def Ordered : Nat → List Nat → Prop
  | _, [] => True
  | t, t' :: l => t ≤ t' ∧ t' < 2 ^ 64 ∧ Ordered t' l

theorem covered_run {p q : ℤ} (hp : IsInt p) (hq : IsInt q) {S : ℚ} (hS0 : 0 ≤ S) (ts : List Nat) : ∀ {a b : Anim} {v : ℤ} {t0 k t : Nat},
    Moving F p q a → a.done = false → Covered u p S t0 k t a → Ordered t ts → (soloRun F.toFP ts (some a, v)).1 = some b →
    Covered u p S t0 (k + ts.length) (ts.getLast?.getD t) b := by
  induction ts with
  | nil => intro a b v t0 k t hm hd hc _ h; simp only [soloRun] at h; cases h; exact hc
  | cons t' ts ih =>
    intro a b v t0 k t hm hd hc ho h
    obtain ⟨o1, o2, o3⟩ := ho
    simp only [soloRun] at h
    cases hs : (solo F.toFP t' (some a, v)) with
    | mk o w =>
      rw [hs] at h
      cases o with
      | none =>
        exfalso
        have : ∀ (ts : List Nat) (w : ℤ), (soloRun F.toFP ts (none, w)).1 = none := by
          intro ts; induction ts with
          | nil => intro w; rfl
          | cons t ts ih => intro w; simp only [soloRun, solo]; exact ih w
        rw [this] at h; cases h
      | some a1 =>
        have hc1 := covered_next F hp hq hS0 hm hd hc o1 o2 (v := v) (by rw [hs])
        have hm1 : Moving F p q a1 ∧ a1.done = false := by
          have hadv := advance_moving F hq.abs hm hd t'
          simp only [solo, hm.init, if_true] at hs
          split at hs
          · cases hs
          next hb =>
          cases hs
          exact ⟨(hadv.2.2.2.2 (by simpa using hb)).1, by simpa using hb⟩
        have := ih hm1.1 hm1.2 hc1 o3 h
        rw [List.length_cons, List.getLast?_cons, Option.getD_some]
        rw [show k + (ts.length + 1) = k + 1 + ts.length by omega]
        exact this

/-- At the end: the value is the target up to rounding. -/
theorem covered_end {p q : ℤ} (hp : IsInt p) (hq : IsInt q) {a : Anim} (hm : Moving F p q a) {t0 k t dur : Nat} (hdur : 0 < dur)
    (hc : Covered u p (|(q : ℚ) - p| / dur) t0 k t a) (ht : t0 + dur ≤ t) : |a.current - q| ≤ u * 2 ^ 34 + k * (u * 2 ^ 31) := by
  obtain ⟨hu0, hu1⟩ := F.unit
  obtain ⟨-, -, h3⟩ := hc
  have hdq : (0 : ℚ) < dur := by exact_mod_cast hdur
  have hT : (dur : ℚ) ≤ (t : ℚ) - t0 := by
    have : ((t0 + dur : Nat) : ℚ) ≤ t := by exact_mod_cast ht
    push_cast at this; linarith
  have hD : |(q : ℚ) - p| ≤ 2 ^ 32 := by
    obtain ⟨a1, a2⟩ := hp; obtain ⟨a3, a4⟩ := hq
    have : |q - p| ≤ 2 ^ 32 := by rw [abs_le]; constructor <;> omega
    exact_mod_cast this
  have h4u : 0 ≤ 1 - 4 * u := by linarith [show (1 : ℚ) / 2 ^ 53 * 4 ≤ 1 by norm_num]
  have h1 : (1 - 4 * u) * |(q : ℚ) - p| ≤ (1 - 4 * u) * (|(q : ℚ) - p| / dur) * ((t : ℚ) - t0) := by
    have : |(q : ℚ) - p| = |(q : ℚ) - p| / dur * dur := by field_simp
    calc (1 - 4 * u) * |(q : ℚ) - p| = (1 - 4 * u) * (|(q : ℚ) - p| / dur) * dur := by rw [mul_assoc, ← this]
      _ ≤ _ := by gcongr
  have h2 : |a.current - q| = |(q : ℚ) - p| - |a.current - p| := by
    rcases hm.pos with ⟨b1, b2⟩ | ⟨b1, b2⟩
    · rw [abs_of_nonpos (by linarith), abs_of_nonneg (by linarith), abs_of_nonneg (by linarith)]; ring
    · rw [abs_of_nonneg (by linarith), abs_of_nonpos (by linarith), abs_of_nonpos (by linarith)]; ring
  rw [h2]
  have : u * |(q : ℚ) - p| ≤ u * 2 ^ 32 := by gcongr
  linarith

theorem pixel_near {x : ℚ} {q : ℤ} (hq : IsInt q) (h : |x - q| < 1 / 2) : pixel x = q := by
  have hr := lround_nearest x
  obtain ⟨h1, h2⟩ := abs_lt.1 h
  have a1 : (q : ℚ) - 1 < lround x := by linarith [hr.1]
  have a2 : (lround x : ℚ) < q + 1 := by linarith [hr.2]
  have a1 : q - 1 < lround x := by exact_mod_cast a1
  have a2 : lround x < q + 1 := by exact_mod_cast a2
  have : lround x = q := by omega
  unfold pixel; rw [this]; unfold clamp; obtain ⟨h1, h2⟩ := hq; split_ifs <;> omega

/-! ## C38 -/

theorem parsePercent_int (G : FP) (s : Str) (b : ℤ) : IsInt (parsePercent G s b 0 INTMAX) := by
  have := C33_range G s b 0 INTMAX (by unfold INTMAX; norm_num)
  have hI : INTMAX = 2 ^ 31 - 1 := rfl
  unfold IsInt; constructor <;> omega

/-- The number of pixels a value of `left`, `width`, `top` or `height` stands for, in a window of `W` by `H`. -/
def pixels (G : FP) (W H : ℤ) (n : String) (s : Str) : ℤ := parsePercent G s (if n = "top" ∨ n = "height" then H else W) 0 INTMAX

theorem animValue_pixels (G : FP) (W H : ℤ) {n : String} (h : Geometric n) (s : Str) : animValue G W H n s = pixels G W H n s := by
  simp only [Geometric, List.mem_cons, List.not_mem_nil, or_false] at h
  rcases h with rfl | rfl | rfl | rfl <;> simp [animValue, pixels]

theorem pixels_int (G : FP) (W H : ℤ) (n : String) (s : Str) : IsInt (pixels G W H n s) := parsePercent_int G s _

/-- Scheduling an animation of a property that has none. -/
theorem schedule_shows {e : PEnv} (he : e.F = F.toFP) {n : String} (hg : Geometric n) {s s1 : AState} {v : ℤ} (hv : s.view.get n = some (v : ℚ))
    (hn : ∀ a ∈ s.infos, a.name ≠ n) {W H : ℤ} {now dur : Nat} {src dst : Str} (h : animSchedule e W H now n src dst dur s = .ok s1) :
    ∃ a, Shows n (some a) v s1 ∧ Ready F (if src = [] then v else pixels e.F W H n src) (pixels e.F W H n dst) a v ∧ a.dur = dur ∧
      (src ≠ [] → a = ({ a with init := false } : Anim).begin F.toFP (pixels e.F W H n src) now) ∧ (src = [] → a.init = false) := by
  have hne : n ≠ "bounds" ∧ n ≠ "location" ∧ n ≠ "size" ∧ n ≠ "background" := by
    simp only [Geometric, List.mem_cons, List.not_mem_nil, or_false] at hg
    rcases hg with rfl | rfl | rfl | rfl <;> decide
  unfold animSchedule at h
  dsimp only at h
  rw [if_neg hne.1, if_neg hne.2.1, if_neg hne.2.2.1, if_neg hne.2.2.2] at h
  cases h
  have hname : (mkAnim e.F W H now n src dst dur).name = n := by
    simp only [mkAnim]; split_ifs <;> rfl
  refine ⟨mkAnim e.F W H now n src dst dur, ⟨hv, s.infos, [], by simp, hn, by simp, ?_⟩, ?_, ?_, ?_, ?_⟩
  · intro a ha; simp only [Option.mem_some_iff] at ha; rw [← ha, hname]
  · by_cases hsrc : src = []
    · subst hsrc
      refine ⟨rfl, ?_, .inl ⟨rfl, by simp⟩⟩
      simp [mkAnim, animValue_pixels _ _ _ hg]
    · have hs2 : src ≠ [] := hsrc
      simp only [mkAnim, if_pos hs2, if_neg hsrc, animValue_pixels _ _ _ hg]
      refine ⟨rfl, rfl, .inr ⟨rfl, ?_, rfl⟩⟩
      rw [he]
      exact begin_moving F (pixels_int _ _ _ _ _).abs rfl now
  · simp only [mkAnim]; split_ifs <;> rfl
  · intro hs2
    simp only [mkAnim, if_pos hs2, animValue_pixels _ _ _ hg, he]
    rfl
  · rintro rfl; rfl

/-- An animated position or size moves from its start value (the one given, or else the value the property has) towards its
target, never turns back and never overshoots: whatever other properties are animated at the same time, for all frame times
and every rounding. -/
theorem C38_monotone {e : PEnv} (he : e.F = F.toFP) {n : String} (hg : Geometric n) {s s1 s2 s3 : AState} {v : ℤ} (hv : s.view.get n = some (v : ℚ)) (hvi : IsInt v)
    (hn : ∀ a ∈ s.infos, a.name ≠ n) (W H : ℤ) (now dur : Nat) (src dst : Str) (h : animSchedule e W H now n src dst dur s = .ok s1)
    (ts ts' : List Nat) (hts : ts ≠ []) (h2 : animFrames e.F ts s1 = .ok s2) (h3 : animFrames e.F ts' s2 = .ok s3) :
    ∃ v2 v3 : ℤ, s2.view.get n = some (v2 : ℚ) ∧ s3.view.get n = some (v3 : ℚ) ∧
      let p := if src = [] then v else pixels e.F W H n src
      let q := pixels e.F W H n dst
      (p ≤ q → p ≤ v2 ∧ v2 ≤ v3 ∧ v3 ≤ q) ∧ (q ≤ p → q ≤ v3 ∧ v3 ≤ v2 ∧ v2 ≤ p) := by
  obtain ⟨a, hsh, hr, -⟩ := schedule_shows F he hg hv hn h
  have hpi : IsInt (if src = [] then v else pixels e.F W H n src) := by split; exact hvi; exact pixels_int _ _ _ _ _
  have hqi := pixels_int e.F W H n dst
  rw [he] at h2 h3
  have e2 := frames_solo F.toFP n hg ts _ _ _ _ hsh h2
  have e3 := frames_solo F.toFP n hg ts' _ _ _ _ e2 h3
  generalize (if src = [] then v else pixels e.F W H n src) = p at *
  generalize pixels e.F W H n dst = q at *
  cases ts with
  | nil => exact absurd rfl hts
  | cons t ts =>
    simp only [soloRun] at e2 e3
    obtain ⟨r1, -, -⟩ := first_frame F hpi hqi hr t
    obtain ⟨r2, -⟩ := next_frames F hpi hqi ts r1
    obtain ⟨r3, c3⟩ := next_frames F hpi hqi ts' r2
    have b2 := r2.between F hpi hqi
    have b3 := r3.between F hpi hqi
    refine ⟨_, _, e2.1, e3.1, ?_, ?_⟩
    · intro hpq
      have hpq' : (p : ℚ) ≤ q := by exact_mod_cast hpq
      exact ⟨by exact_mod_cast b2.1.1 hpq', by exact_mod_cast c3.1 hpq', by exact_mod_cast b3.2.1 hpq'⟩
    · intro hpq
      have hpq' : (q : ℚ) ≤ p := by exact_mod_cast hpq
      exact ⟨by exact_mod_cast b3.2.2 hpq', by exact_mod_cast c3.2 hpq', by exact_mod_cast b2.1.2 hpq'⟩

theorem soloRun_none (G : FP) (ts : List Nat) (w : ℤ) : soloRun G ts (none, w) = (none, w) := by
  induction ts with
  | nil => rfl
  | cons t ts ih => simp only [soloRun, solo]; exact ih

/-- Once the duration has elapsed the value is the target. -/
theorem solo_reaches {p q : ℤ} (hpi : IsInt p) (hqi : IsInt q) {a a0 : Anim} {v : ℤ} (hr : Ready F p q a v) {dur t0 t : Nat} {ts : List Nat}
    (ht0 : a0.target = q) (hd0 : a0.dur = dur) (hb : (if a.init then a else a.begin F.toFP v t) = a0.begin F.toFP p t0)
    (hord : Ordered t0 (t :: ts)) (hend : t0 + dur ≤ (t :: ts).getLast (by simp)) (hlen : u = 0 ∨ (t :: ts).length < 2 ^ 20) :
    (soloRun F.toFP (t :: ts) (some a, v)).2 = q ∧ (u = 0 → (soloRun F.toFP (t :: ts) (some a, v)).1 = none) := by
  obtain ⟨hm, hdn, hcur⟩ := hr.moving F hpi t
  obtain ⟨r1, -, -⟩ := first_frame F hpi hqi hr t
  obtain ⟨r2, -⟩ := next_frames F hpi hqi ts r1
  have hfin : ∀ o w, soloRun F.toFP ts (solo F.toFP t (some a, v)) = (o, w) → w = q ∧ (u = 0 → o = none) := by
    intro o w how
    rw [how] at r2
    rcases r2 with ⟨ho, hw⟩ | ⟨b, ho, hbd, hbm, hw, hbne⟩
    · exact ⟨hw, fun _ => ho⟩
    dsimp only at ho hw
    rw [hw]
    -- the animation is still on its way
    have hdpos : 0 < dur := by
      rcases Nat.eq_zero_or_pos dur with hz | hz
      · exfalso
        have : (solo F.toFP t (some a, v)).1 = none := by
          simp only [solo]
          rw [hb]
          have : ((a0.begin F.toFP p t0).advance F.toFP t).done = true := by
            have hdz : (a0.begin F.toFP p t0).dur = 0 := by rw [← hz, ← hd0]; rfl
            unfold Anim.advance
            dsimp only
            rw [if_pos (Or.inl hdz)]
          rw [this]; rfl
        obtain ⟨w', hw'⟩ : ∃ w', solo F.toFP t (some a, v) = (none, w') := ⟨_, Prod.ext this rfl⟩
        rw [hw', soloRun_none] at how
        cases how; cases ho
      · exact hz
    have hS0 : 0 ≤ |(q : ℚ) - p| / dur := by positivity
    have hc0 : Covered u p (|(q : ℚ) - p| / dur) t0 0 t0 (a0.begin F.toFP p t0) := by
      refine ⟨rfl, ?_, ?_⟩
      · rw [← hd0]; exact begin_speed F hpi hqi ht0 (by rw [hd0]; exact hdpos) t0
      · simp [Anim.begin]
    have hm0 : Moving F p q (a0.begin F.toFP p t0) := by rw [← hb]; exact hm
    have hdn0 : (a0.begin F.toFP p t0).done = false := by rw [← hb]; exact hdn
    have hrun : (soloRun F.toFP (t :: ts) (some (a0.begin F.toFP p t0), v)).1 = some b := by
      simp only [soloRun]
      have : solo F.toFP t (some (a0.begin F.toFP p t0), v) = solo F.toFP t (some a, v) := by
        simp only [solo, hb]
        simp [Anim.begin]
      rw [this, how, ho]
    have hcov := covered_run F hpi hqi hS0 (t :: ts) hm0 hdn0 hc0 hord hrun
    have hlast : (t :: ts).getLast?.getD t0 = (t :: ts).getLast (by simp) := by
      rw [List.getLast?_eq_some_getLast (by simp), Option.getD_some]
    rw [hlast] at hcov
    have hclose := covered_end F hpi hqi hbm hdpos hcov hend
    rcases hlen with hu | hlen
    · rw [hu] at hclose
      have : b.current - q = 0 := by
        have : |b.current - q| ≤ 0 := by simpa using hclose
        exact abs_nonpos_iff.1 this
      exact absurd (sub_eq_zero.1 this) hbne
    · have hu1 := F.unit.2
      have hu0 := F.unit.1
      have hk : ((0 + (t :: ts).length : Nat) : ℚ) ≤ 2 ^ 20 := by
        have : (0 + (t :: ts).length : Nat) ≤ 2 ^ 20 := by omega
        exact_mod_cast this
      have : |b.current - q| < 1 / 2 := by
        refine lt_of_le_of_lt hclose ?_
        have h1 : u * 2 ^ 34 ≤ 1 / 2 ^ 53 * 2 ^ 34 := by gcongr
        have h2 : ((0 + (t :: ts).length : Nat) : ℚ) * (u * 2 ^ 31) ≤ 2 ^ 20 * (1 / 2 ^ 53 * 2 ^ 31) := by gcongr
        refine lt_of_le_of_lt (add_le_add h1 h2) (by norm_num)
      refine ⟨pixel_near hqi this, fun hu => ?_⟩
      exfalso
      rw [hu] at hclose
      have : b.current - q = 0 := by
        have : |b.current - q| ≤ 0 := by simpa using hclose
        exact abs_nonpos_iff.1 this
      exact absurd (sub_eq_zero.1 this) hbne
  exact hfin _ _ rfl

/-- Once the duration has elapsed the property has its target value: for frame times in order, and if the arithmetic is not
exact, fewer than 2^20 frames (almost five hours at 60 frames per second).  The time counts from the scheduling if a start value is given, else
from the first frame.  With exact arithmetic the animation is also gone from the schedule. -/
theorem C38_reaches {e : PEnv} (he : e.F = F.toFP) {n : String} (hg : Geometric n) {s s1 s2 : AState} {v : ℤ} (hv : s.view.get n = some (v : ℚ)) (hvi : IsInt v)
    (hn : ∀ a ∈ s.infos, a.name ≠ n) (W H : ℤ) (now dur : Nat) (src dst : Str) (h : animSchedule e W H now n src dst dur s = .ok s1)
    (t : Nat) (ts : List Nat) (h2 : animFrames e.F (t :: ts) s1 = .ok s2)
    (hord : Ordered (if src = [] then t else now) (t :: ts)) (hend : (if src = [] then t else now) + dur ≤ (t :: ts).getLast (by simp))
    (hlen : u = 0 ∨ (t :: ts).length < 2 ^ 20) :
    s2.view.get n = some (pixels e.F W H n dst : ℚ) ∧ (u = 0 → ∀ a ∈ s2.infos, a.name ≠ n) := by
  obtain ⟨a, hsh, hr, hdur, hsrc, hnil⟩ := schedule_shows F he hg hv hn h
  have hpi : IsInt (if src = [] then v else pixels e.F W H n src) := by split; exact hvi; exact pixels_int _ _ _ _ _
  have hqi := pixels_int e.F W H n dst
  have hbeg : ∃ a0 : Anim, a0.target = (pixels e.F W H n dst : ℤ) ∧ a0.dur = dur ∧
      (if a.init then a else a.begin F.toFP v t) = a0.begin F.toFP ((if src = [] then v else pixels e.F W H n src : ℤ)) (if src = [] then t else now) := by
    by_cases hs : src = []
    · refine ⟨a, hr.2.1, hdur, ?_⟩
      rw [hnil hs, if_pos hs, if_pos hs]; simp
    · have ha := hsrc hs
      refine ⟨{ a with init := false }, hr.2.1, hdur, ?_⟩
      have hi : a.init = true := by rw [ha]; rfl
      rw [hi, if_neg hs, if_neg hs, if_pos rfl]; exact ha
  obtain ⟨a0, ht0, hd0, hb⟩ := hbeg
  obtain ⟨hm, hdn, hcur⟩ := hr.moving F hpi t
  rw [he] at h2
  have e2 := frames_solo F.toFP n hg (t :: ts) _ _ _ _ hsh h2
  simp only [soloRun] at e2
  obtain ⟨r1, -, -⟩ := first_frame F hpi hqi hr t
  obtain ⟨r2, -⟩ := next_frames F hpi hqi ts r1
  generalize (if src = [] then v else pixels e.F W H n src) = p at *
  generalize pixels e.F W H n dst = q at *
  generalize (if src = [] then t else now) = t0 at *
  obtain ⟨hw, ho⟩ := solo_reaches F hpi hqi hr ht0 hd0 hb hord hend hlen
  simp only [soloRun] at hw ho
  obtain ⟨g1, l, l', g2, g3, g4, -⟩ := e2
  refine ⟨by rw [g1, hw], fun hu b hbm => ?_⟩
  rw [g2, ho hu] at hbm
  simp only [Option.toList, List.append_nil, List.mem_append] at hbm
  rcases hbm with hbm | hbm
  · exact g3 b hbm
  · exact g4 b hbm

end

end Ginga
