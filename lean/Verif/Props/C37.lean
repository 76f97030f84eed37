import Verif.Props.C36
/-! # C37: compound geometry, and the distances from the right and bottom edges -/
set_option linter.unusedSimpArgs false
namespace Ginga

variable (e : PEnv)

/-- Same window, same values, and same properties (of the media object and of the player) except the one named `n`. -/
def SameBut (n : String) (s t : PSt) : Prop :=
  s.W = t.W ∧ s.H = t.H ∧ s.prop = t.prop ∧ s.attached = t.attached ∧ ∀ m, m ≠ n → s.media m = t.media m ∧ s.player m = t.player m

/-- Same outcome, and if there is a result, related results. -/
def ResRel {α : Type} (R : α → α → Prop) : Res α → Res α → Prop
  | .ok a, .ok b => R a b
  | .abort, .abort => True
  | .ub, .ub => True
  | .fuel, .fuel => True
  | _, _ => False

theorem ResRel.bind {α β : Type} {R : α → α → Prop} {S : β → β → Prop} {x y : Res α} {f g : α → Res β}
    (h : ResRel R x y) (hf : ∀ a b, R a b → ResRel S (f a) (g b)) : ResRel S (x.bind f) (y.bind g) := by
  cases x <;> cases y <;> first | exact h.elim | exact hf _ _ h | trivial

theorem SameBut.store {n : String} {s t : PSt} (h : SameBut n s t) (m : String) (v : Str) : SameBut n (s.store m v) (t.store m v) := by
  obtain ⟨h1, h2, h3, h4, h5⟩ := h
  refine ⟨h1, h2, h3, h4, fun k hk => ⟨(h5 k hk).1, ?_⟩⟩
  simp only [PSt.store, upd]
  split
  · rfl
  · exact (h5 k hk).2

theorem SameBut.mstore {n : String} {s t : PSt} (h : SameBut n s t) (m : String) (v : Str) : SameBut n (s.mstore m v) (t.mstore m v) := by
  obtain ⟨h1, h2, h3, h4, h5⟩ := h
  refine ⟨h1, h2, h3, h4, fun k hk => ⟨?_, (h5 k hk).2⟩⟩
  simp only [PSt.mstore, upd]
  split
  · rfl
  · exact (h5 k hk).1

theorem SameBut.withProp {n : String} {s t : PSt} (h : SameBut n s t) (p : PProp) : SameBut n { s with prop := p } { t with prop := p } :=
  ⟨h.1, h.2.1, rfl, h.2.2.2.1, h.2.2.2.2⟩

theorem SameBut.set {n : String} {s t : PSt} (h : SameBut n s t) (ha : s.attached = true) (hn : n ≠ "right" ∧ n ≠ "bottom")
    (m : String) (hm : m ∈ ["left", "top", "width", "height"]) (v : Str) :
    ResRel (fun a b => SameBut n a b ∧ a.attached = true) (mediaSet e m v s) (mediaSet e m v t) := by
  have hb : t.attached = true := h.2.2.2.1 ▸ ha
  obtain ⟨hW, hH, hp, -, hmem⟩ := id h
  have hr : ∀ (v : Str) (s t : PSt), SameBut n s t → s.attached = true →
      ResRel (fun a b => SameBut n a b ∧ a.attached = true) (mediaSet e "right" v s) (mediaSet e "right" v t) := by
    intro v s t h ha
    have hb : t.attached = true := h.2.2.2.1 ▸ ha
    obtain ⟨hW, hH, hp, -, -⟩ := id h
    rw [set_right e v s ha, set_right e v t hb, hW, hp]
    cases int32 (t.W - t.prop.w) with
    | ok d =>
      simp only [Res.bind_ok]
      cases int32 (d - parsePercent e.F (orDef "0%" v) t.W 0 INTMAX) with
      | ok x => exact ⟨((h.mstore "right" v).withProp _).store "right" v, ha⟩
      | _ => trivial
    | _ => trivial
  have hbt : ∀ (v : Str) (s t : PSt), SameBut n s t → s.attached = true →
      ResRel (fun a b => SameBut n a b ∧ a.attached = true) (mediaSet e "bottom" v s) (mediaSet e "bottom" v t) := by
    intro v s t h ha
    have hb : t.attached = true := h.2.2.2.1 ▸ ha
    obtain ⟨hW, hH, hp, -, -⟩ := id h
    rw [set_bottom e v s ha, set_bottom e v t hb, hH, hp]
    cases int32 (t.H - t.prop.h) with
    | ok d =>
      simp only [Res.bind_ok]
      cases int32 (d - parsePercent e.F (orDef "0%" v) t.prop.h 0 INTMAX) with
      | ok x => exact ⟨((h.mstore "bottom" v).withProp _).store "bottom" v, ha⟩
      | _ => trivial
    | _ => trivial
  simp only [List.mem_cons, List.not_mem_nil, or_false] at hm
  rcases hm with rfl | rfl | rfl | rfl
  · rw [set_left e v s ha, set_left e v t hb, hW, hp]
    exact ⟨((h.mstore "left" v).withProp _).store "left" v, ha⟩
  · rw [set_top e v s ha, set_top e v t hb, hH, hp]
    exact ⟨((h.mstore "top" v).withProp _).store "top" v, ha⟩
  · rw [set_width e v s ha, set_width e v t hb, (hmem "right" hn.1.symm).1]
    have hs : SameBut n (s.setW e v) (t.setW e v) := by
      unfold PSt.setW
      rw [hW, hp]
      exact (h.mstore "width" v).withProp _
    refine ResRel.bind (R := fun a b => SameBut n a b ∧ a.attached = true) ?_ (fun a b hab => ⟨hab.1.store "width" v, hab.2⟩)
    split
    · exact hr _ _ _ hs ha
    · exact ⟨hs, ha⟩
  · rw [set_height e v s ha, set_height e v t hb, (hmem "bottom" hn.2.symm).1]
    have hs : SameBut n (s.setH e v) (t.setH e v) := by
      unfold PSt.setH
      rw [hH, hp]
      exact (h.mstore "height" v).withProp _
    refine ResRel.bind (R := fun a b => SameBut n a b ∧ a.attached = true) ?_ (fun a b hab => ⟨hab.1.store "height" v, hab.2⟩)
    split
    · exact hbt _ _ _ hs ha
    · exact ⟨hs, ha⟩

theorem SameBut.setMany {n : String} (hn : n ≠ "right" ∧ n ≠ "bottom") (l : List (String × Str)) (hl : ∀ p ∈ l, p.1 ∈ ["left", "top", "width", "height"]) :
    ∀ {s t : PSt}, SameBut n s t → s.attached = true →
    ResRel (fun a b => SameBut n a b ∧ a.attached = true) (setMany (mediaSet e) l s) (setMany (mediaSet e) l t) := by
  induction l with
  | nil => intro s t h ha; exact ⟨h, ha⟩
  | cons p l ih =>
    intro s t h ha
    obtain ⟨m, v⟩ := p
    simp only [Ginga.setMany]
    exact (h.set e ha hn m (hl (m, v) (by simp)) v).bind fun a b hab => ih (fun q hq => hl q (by simp [hq])) hab.1 hab.2

theorem compound (n : String) (c : PCode) (d : String) (hi : propInfo n = some (c, d.toList)) (ht : n ≠ "transIn" ∧ n ≠ "transOut")
    (hn : n ≠ "right" ∧ n ≠ "bottom") (l : List (String × Str)) (hl : ∀ p ∈ l, p.1 ∈ ["left", "top", "width", "height"]) (v : Str)
    (hd : ∀ s, doSetProperty e (mediaSet e) c (orDef d v) s = (setMany (mediaSet e) l s).bind fun s => .ok (some s)) (s : PSt) (ha : s.attached = true) :
    ResRel (SameBut n) (mediaSet e n v s) (setMany (mediaSet e) l s) := by
  have hm : mediaSet e n v s = (setMany (mediaSet e) l (s.mstore n v)).bind fun s => .ok (s.store n v) := by
    have hm0 : mediaSet e n v s = playerSet e 3 n v (s.mstore n v) := by
      unfold mediaSet mediaSet1; dsimp only; rw [if_pos ha]; rfl
    rw [hm0, playerSet_unfold]
    unfold playerSet1
    dsimp only
    rw [if_neg (by rintro (h | h); exact ht.1 h; exact ht.2 h), hi]
    simp only [Res.bind_ok]
    have := hd (s.mstore n v)
    unfold orDef PSt.mstore at this
    unfold PSt.mstore
    rw [this]
    cases setMany (mediaSet e) l { s with media := upd s.media n v } <;> rfl
  rw [hm]
  have hb : setMany (mediaSet e) l s = (setMany (mediaSet e) l s).bind .ok := by cases setMany (mediaSet e) l s <;> rfl
  rw [hb]
  have h0 : SameBut n (s.mstore n v) s := ⟨rfl, rfl, rfl, rfl, fun m hm => ⟨by simp [PSt.mstore, upd, hm], rfl⟩⟩
  refine (h0.setMany e hn l hl ha).bind fun a b hab => ?_
  obtain ⟨⟨h1, h2, h3, h4, h5⟩, -⟩ := hab
  exact ⟨h1, h2, h3, h4, fun m hm => ⟨(h5 m hm).1, by simp [PSt.store, upd, hm]; exact (h5 m hm).2⟩⟩

/-- Setting `bounds`, `location` or `size` to a list of components has the effect of setting the corresponding properties to the
components one after the other: the same outcome and the same state, up to the compound property itself.  The components of a
text are as in C30: `parseList`. -/
theorem C37_compound (s : PSt) (ha : s.attached = true) (v : Str) (hv : v ≠ []) (a b c d : Str) :
    (parseList v ',' 4 4 = some [a, b, c, d] →
      ResRel (SameBut "bounds") (mediaSet e "bounds" v s) (setMany (mediaSet e) [("left", a), ("top", b), ("width", c), ("height", d)] s)) ∧
    (parseList v ',' 2 2 = some [a, b] →
      ResRel (SameBut "location") (mediaSet e "location" v s) (setMany (mediaSet e) [("left", a), ("top", b)] s) ∧
      ResRel (SameBut "size") (mediaSet e "size" v s) (setMany (mediaSet e) [("width", a), ("height", b)] s)) := by
  refine ⟨fun h => ?_, fun h => ⟨?_, ?_⟩⟩
  · refine compound e "bounds" .bounds _ info_bounds (by simp) (by simp) _ (by simp) v (fun s => ?_) s ha
    simp only [doSetProperty, orDef, if_neg hv, h]
  · refine compound e "location" .location _ info_location (by simp) (by simp) _ (by simp) v (fun s => ?_) s ha
    simp only [doSetProperty, orDef, if_neg hv, h]
  · refine compound e "size" .size _ info_size (by simp) (by simp) _ (by simp) v (fun s => ?_) s ha
    simp only [doSetProperty, orDef, if_neg hv, h]

example : parseList "10%, 20 ,30%,40%".toList ',' 4 4 = some ["10%".toList, "20".toList, "30%".toList, "40%".toList] := by decide +kernel

/-- A value with the wrong number of components ends the process. -/
theorem C37_reject (s : PSt) (ha : s.attached = true) (v : Str) (hv : v ≠ []) :
    (parseList v ',' 4 4 = none → mediaSet e "bounds" v s = .abort) ∧
    (parseList v ',' 2 2 = none → mediaSet e "location" v s = .abort ∧ mediaSet e "size" v s = .abort) := by
  refine ⟨fun h => ?_, fun h => ⟨?_, ?_⟩⟩ <;>
  · unfold mediaSet mediaSet1
    dsimp only
    rw [if_pos ha, playerSet_unfold]
    simp [playerSet1, info_bounds, info_location, info_size, doSetProperty, hv, h]

/-! ## Distances from the right and bottom edges -/

theorem Res.bind_eq_ok {α β : Type} {x : Res α} {f : α → Res β} {b : β} (h : x.bind f = .ok b) : ∃ a, x = .ok a ∧ f a = .ok b := by
  cases x <;> first | exact ⟨_, rfl, h⟩ | cases h

theorem int32_ok {x y : Int} (h : int32 x = .ok y) : y = x := by
  unfold int32 at h; split at h <;> cases h; rfl

/-- Only `left` has the code `left`, and so on: there are no aliases of geometry properties. -/
theorem code_name {name : String} {c : PCode} {d : Str} (h : propInfo name = some (c, d)) :
    (c = .left → name = "left") ∧ (c = .right → name = "right") ∧ (c = .width → name = "width") ∧ (c = .top → name = "top") ∧
    (c = .bottom → name = "bottom") ∧ (c = .height → name = "height") ∧ (c = .bounds → name = "bounds") ∧
    (c = .location → name = "location") ∧ (c = .size → name = "size") := by
  have k1 : ∀ p ∈ propTable, (p.2.1 = .left → p.1 = "left") ∧ (p.2.1 = .right → p.1 = "right") ∧ (p.2.1 = .width → p.1 = "width") ∧
    (p.2.1 = .top → p.1 = "top") ∧ (p.2.1 = .bottom → p.1 = "bottom") ∧ (p.2.1 = .height → p.1 = "height") ∧ (p.2.1 = .bounds → p.1 = "bounds") ∧
    (p.2.1 = .location → p.1 = "location") ∧ (p.2.1 = .size → p.1 = "size") := by decide +kernel
  have k2 : ∀ a ∈ aliasTable, ∀ p ∈ propTable, p.1 = a.2 → p.2.1 ∉ [PCode.left, .right, .width, .top, .bottom, .height, .bounds, .location, .size] := by
    decide +kernel
  unfold propInfo at h
  cases hf : propTable.find? (fun p => p.1 == name) with
  | some p =>
    rw [hf] at h
    cases h
    have hn : p.1 = name := by simpa using List.find?_some hf
    rw [← hn]
    exact k1 p (List.mem_of_find?_eq_some hf)
  | none =>
    rw [hf] at h
    dsimp only at h
    cases ha : aliasTable.find? (fun p => p.1 == name) with
    | none => rw [ha] at h; cases h
    | some a =>
      rw [ha] at h
      dsimp only at h
      rw [Option.map_eq_some_iff] at h
      obtain ⟨p, hp, he⟩ := h
      cases he
      have hm : p.1 = a.2 := by simpa using List.find?_some hp
      have := k2 a (List.mem_of_find?_eq_some ha) p (List.mem_of_find?_eq_some hp) hm
      simp only [List.mem_cons, List.not_mem_nil, or_false, not_or] at this
      refine ⟨?_, ?_, ?_, ?_, ?_, ?_, ?_, ?_, ?_⟩ <;> (intro hc; exfalso; grind)

/-- What a setting that is none of the nine geometry properties leaves alone. -/
theorem set_other (name : String) (hn : name ∉ ["left", "right", "width", "top", "bottom", "height", "bounds", "location", "size"]) (v : Str) (s s' : PSt)
    (h : mediaSet e name v s = .ok s') :
    s'.W = s.W ∧ s'.H = s.H ∧ s'.attached = s.attached ∧ s'.prop.x = s.prop.x ∧ s'.prop.y = s.prop.y ∧ s'.prop.w = s.prop.w ∧
    s'.prop.h = s.prop.h ∧ s'.media = upd s.media name v := by
  have hm : mediaSet e name v s = if s.attached then playerSet e 3 name v (s.mstore name v) else .ok (s.mstore name v) := rfl
  rw [hm] at h
  split at h
  case isFalse => cases h; exact ⟨rfl, rfl, rfl, rfl, rfl, rfl, rfl, rfl⟩
  rw [playerSet_unfold] at h
  unfold playerSet1 at h
  dsimp only at h
  cases hp : (if name = "transIn" ∨ name = "transOut" then e.trans v else .ok ()) with
  | ok u =>
    rw [hp] at h
    simp only [Res.bind_ok] at h
    cases hi : propInfo name with
    | none => rw [hi] at h; cases h; exact ⟨rfl, rfl, rfl, rfl, rfl, rfl, rfl, rfl⟩
    | some p =>
      obtain ⟨c, d⟩ := p
      have hc := code_name hi
      simp only [List.mem_cons, List.not_mem_nil, or_false, not_or] at hn
      rw [hi] at h
      dsimp only at h
      generalize (if v = [] then d else v) = w at h
      have key : ∀ r, doSetProperty e (mediaSet e) c w (s.mstore name v) = .ok (some r) → ∃ q : PProp, r = { s.mstore name v with prop := q } ∧
          q.x = s.prop.x ∧ q.y = s.prop.y ∧ q.w = s.prop.w ∧ q.h = s.prop.h := by
        intro r hr
        cases c <;> first
          | (exfalso; grind)
          | (simp only [doSetProperty, Res.ok.injEq, Option.some.injEq] at hr; subst hr; exact ⟨_, rfl, rfl, rfl, rfl, rfl⟩)
          | (simp only [doSetProperty] at hr
             split at hr
             · simp only [Res.ok.injEq, Option.some.injEq] at hr; subst hr; exact ⟨_, rfl, rfl, rfl, rfl, rfl⟩
             · obtain ⟨b, hb, hr⟩ := Res.bind_eq_ok hr
               simp only [Res.ok.injEq, Option.some.injEq] at hr; subst hr; exact ⟨_, rfl, rfl, rfl, rfl, rfl⟩)
          | (simp only [doSetProperty] at hr
             obtain ⟨b, hb, hr⟩ := Res.bind_eq_ok hr
             simp only [Res.ok.injEq, Option.some.injEq] at hr; subst hr; exact ⟨_, rfl, rfl, rfl, rfl, rfl⟩)
      cases hd : doSetProperty e (mediaSet e) c w (s.mstore name v) with
      | ok r =>
        rw [hd] at h
        simp only [Res.bind_ok] at h
        cases r with
        | none => cases h
        | some r =>
          obtain ⟨q, rfl, h1, h2, h3, h4⟩ := key r hd
          cases h
          exact ⟨rfl, rfl, rfl, h1, h2, h3, h4, rfl⟩
      | _ => rw [hd] at h; cases h
  | _ => rw [hp] at h; cases h


/-- The geometry of a media object and of its window. -/
structure Geo where
  W : Int
  H : Int
  x : Int
  y : Int
  w : Int
  h : Int

def PSt.geo (s : PSt) : Geo := ⟨s.W, s.H, s.prop.x, s.prop.y, s.prop.w, s.prop.h⟩

theorem left_ok {v : Str} {s s' : PSt} (ha : s.attached = true) (h : mediaSet e "left" v s = .ok s') :
    s'.attached = true ∧ s'.media = upd s.media "left" v ∧ s'.geo = { s.geo with x := parsePercent e.F (orDef "0" v) s.W 0 INTMAX } := by
  rw [set_left e v s ha] at h; cases h; exact ⟨ha, rfl, rfl⟩

theorem top_ok {v : Str} {s s' : PSt} (ha : s.attached = true) (h : mediaSet e "top" v s = .ok s') :
    s'.attached = true ∧ s'.media = upd s.media "top" v ∧ s'.geo = { s.geo with y := parsePercent e.F (orDef "0" v) s.H 0 INTMAX } := by
  rw [set_top e v s ha] at h; cases h; exact ⟨ha, rfl, rfl⟩

theorem right_ok {v : Str} {s s' : PSt} (ha : s.attached = true) (h : mediaSet e "right" v s = .ok s') :
    s'.attached = true ∧ s'.media = upd s.media "right" v ∧ s'.geo = { s.geo with x := s.W - s.prop.w - parsePercent e.F (orDef "0%" v) s.W 0 INTMAX } := by
  rw [set_right e v s ha] at h
  obtain ⟨d, hd, h⟩ := Res.bind_eq_ok h
  obtain ⟨x, hx, h⟩ := Res.bind_eq_ok h
  have h1 := int32_ok hd; have h2 := int32_ok hx
  subst h1 h2
  cases h; exact ⟨ha, rfl, rfl⟩

theorem bottom_ok {v : Str} {s s' : PSt} (ha : s.attached = true) (h : mediaSet e "bottom" v s = .ok s') :
    s'.attached = true ∧ s'.media = upd s.media "bottom" v ∧ s'.geo = { s.geo with y := s.H - s.prop.h - parsePercent e.F (orDef "0%" v) s.prop.h 0 INTMAX } := by
  rw [set_bottom e v s ha] at h
  obtain ⟨d, hd, h⟩ := Res.bind_eq_ok h
  obtain ⟨x, hx, h⟩ := Res.bind_eq_ok h
  have h1 := int32_ok hd; have h2 := int32_ok hx
  subst h1 h2
  cases h; exact ⟨ha, rfl, rfl⟩

theorem width_ok {v : Str} {s s' : PSt} (ha : s.attached = true) (h : mediaSet e "width" v s = .ok s') :
    s'.attached = true ∧ s'.media = upd s.media "width" v ∧
    s'.geo = (let w := parsePercent e.F (orDef "100%" v) s.W 0 INTMAX
      { s.geo with w := w, x := if s.media "right" = [] then s.prop.x else s.W - w - parsePercent e.F (s.media "right") s.W 0 INTMAX }) := by
  rw [set_width e v s ha] at h
  obtain ⟨t, ht, h⟩ := Res.bind_eq_ok h
  cases h
  split at ht
  · next hr =>
    obtain ⟨h1, h2, h3⟩ := right_ok e (s := s.setW e v) (by exact ha) ht
    refine ⟨h1, ?_, ?_⟩
    · show t.media = _
      rw [h2]
      funext m
      by_cases hm : m = "right"
      · subst hm; simp [upd]
      · rw [upd_ne _ _ hm]; rfl
    · show t.geo = _
      rw [h3]
      unfold orDef
      dsimp only
      rw [if_neg hr, if_neg hr]
      rfl
  · next hr =>
    cases ht
    have hr : s.media "right" = [] := Decidable.byContradiction hr
    refine ⟨ha, rfl, ?_⟩
    rw [hr]
    rfl

theorem height_ok {v : Str} {s s' : PSt} (ha : s.attached = true) (h : mediaSet e "height" v s = .ok s') :
    s'.attached = true ∧ s'.media = upd s.media "height" v ∧
    s'.geo = (let k := parsePercent e.F (orDef "100%" v) s.H 0 INTMAX
      { s.geo with h := k, y := if s.media "bottom" = [] then s.prop.y else s.H - k - parsePercent e.F (s.media "bottom") k 0 INTMAX }) := by
  rw [set_height e v s ha] at h
  obtain ⟨t, ht, h⟩ := Res.bind_eq_ok h
  cases h
  split at ht
  · next hr =>
    obtain ⟨h1, h2, h3⟩ := bottom_ok e (s := s.setH e v) (by exact ha) ht
    refine ⟨h1, ?_, ?_⟩
    · show t.media = _
      rw [h2]
      funext m
      by_cases hm : m = "bottom"
      · subst hm; simp [upd]
      · rw [upd_ne _ _ hm]; rfl
    · show t.geo = _
      rw [h3]
      unfold orDef
      dsimp only
      rw [if_neg hr, if_neg hr]
      rfl
  · next hr =>
    cases ht
    have hr : s.media "bottom" = [] := Decidable.byContradiction hr
    refine ⟨ha, rfl, ?_⟩
    rw [hr]
    rfl

/-- The media object has the distance `v` from the right edge. -/
def RightAt (v : Str) (s : PSt) : Prop :=
  s.attached = true ∧ s.media "right" = v ∧ s.prop.x + s.prop.w + parsePercent e.F v s.W 0 INTMAX = s.W

/-- The media object has the distance `v` from the bottom edge (a percentage being of the media object's height). -/
def BottomAt (v : Str) (s : PSt) : Prop :=
  s.attached = true ∧ s.media "bottom" = v ∧ s.prop.y + s.prop.h + parsePercent e.F v s.prop.h 0 INTMAX = s.H

theorem geo_eq {s : PSt} {g : Geo} (h : s.geo = g) : s.W = g.W ∧ s.H = g.H ∧ s.prop.x = g.x ∧ s.prop.y = g.y ∧ s.prop.w = g.w ∧ s.prop.h = g.h := by
  subst h; exact ⟨rfl, rfl, rfl, rfl, rfl, rfl⟩

theorem size_ok {v : Str} {s s' : PSt} (ha : s.attached = true) (h : mediaSet e "size" v s = .ok s') :
    ∃ a b s1, (setMany (mediaSet e) [("width", a), ("height", b)] s) = .ok s1 ∧ SameBut "size" s' s1 := by
  have hw : ∃ a b, parseList (orDef "100%,100%" v) ',' 2 2 = some [a, b] := by
    have hm : mediaSet e "size" v s = playerSet e 3 "size" v (s.mstore "size" v) := by
      unfold mediaSet mediaSet1; dsimp only; rw [if_pos ha]; rfl
    rw [hm, playerSet_unfold] at h
    simp only [playerSet1, info_size, doSetProperty, show ("size" = "transIn") = False by simp, show ("size" = "transOut") = False by simp, or_self, if_false, Res.bind_ok] at h
    unfold orDef
    split at h
    · next a b hp => exact ⟨a, b, hp⟩
    · cases h
  obtain ⟨a, b, hp⟩ := hw
  refine ⟨a, b, ?_⟩
  have := compound e "size" .size _ info_size (by simp) (by simp) [("width", a), ("height", b)] (by simp) v (fun s => by
    simp only [doSetProperty, hp]) s ha
  rw [h] at this
  cases hs : setMany (mediaSet e) [("width", a), ("height", b)] s with
  | ok s1 => rw [hs] at this; exact ⟨s1, rfl, this⟩
  | _ => rw [hs] at this; exact this.elim

theorem location_ok {v : Str} {s s' : PSt} (ha : s.attached = true) (h : mediaSet e "location" v s = .ok s') :
    ∃ a b s1, (setMany (mediaSet e) [("left", a), ("top", b)] s) = .ok s1 ∧ SameBut "location" s' s1 := by
  have hw : ∃ a b, parseList (orDef "0,0" v) ',' 2 2 = some [a, b] := by
    have hm : mediaSet e "location" v s = playerSet e 3 "location" v (s.mstore "location" v) := by
      unfold mediaSet mediaSet1; dsimp only; rw [if_pos ha]; rfl
    rw [hm, playerSet_unfold] at h
    simp only [playerSet1, info_location, doSetProperty, show ("location" = "transIn") = False by simp, show ("location" = "transOut") = False by simp, or_self, if_false, Res.bind_ok] at h
    unfold orDef
    split at h
    · next a b hp => exact ⟨a, b, hp⟩
    · cases h
  obtain ⟨a, b, hp⟩ := hw
  refine ⟨a, b, ?_⟩
  have := compound e "location" .location _ info_location (by simp) (by simp) [("left", a), ("top", b)] (by simp) v (fun s => by
    simp only [doSetProperty, hp]) s ha
  rw [h] at this
  cases hs : setMany (mediaSet e) [("left", a), ("top", b)] s with
  | ok s1 => rw [hs] at this; exact ⟨s1, rfl, this⟩
  | _ => rw [hs] at this; exact this.elim

/-- A distance from the right edge survives every setting of a property other than `left`, `bounds`, `location` and `right` itself. -/
theorem RightAt.set {v : Str} (hv : v ≠ []) {s s' : PSt} (hs : RightAt e v s) (name : String) (w : Str)
    (hn : name ∉ ["left", "right", "bounds", "location"]) (h : mediaSet e name w s = .ok s') : RightAt e v s' := by
  obtain ⟨ha, hm, hx⟩ := hs
  have width : ∀ {s s' : PSt} {w : Str}, RightAt e v s → mediaSet e "width" w s = .ok s' → RightAt e v s' := by
    intro s s' w hs h
    obtain ⟨ha, hm, hx⟩ := hs
    obtain ⟨h1, h2, h3⟩ := width_ok e ha h
    obtain ⟨g1, g2, g3, g4, g5, g6⟩ := geo_eq h3
    simp only [PSt.geo, hm, if_neg hv] at g1 g3 g5
    refine ⟨h1, by rw [h2, upd_ne _ _ (by simp), hm], ?_⟩
    rw [g1, g3, g5]
    omega
  have height : ∀ {s s' : PSt} {w : Str}, RightAt e v s → mediaSet e "height" w s = .ok s' → RightAt e v s' := by
    intro s s' w hs h
    obtain ⟨ha, hm, hx⟩ := hs
    obtain ⟨h1, h2, h3⟩ := height_ok e ha h
    obtain ⟨g1, g2, g3, g4, g5, g6⟩ := geo_eq h3
    simp only [PSt.geo] at g1 g3 g5
    exact ⟨h1, by rw [h2, upd_ne _ _ (by simp), hm], by rw [g1, g3, g5]; exact hx⟩
  simp only [List.mem_cons, List.not_mem_nil, or_false, not_or] at hn
  by_cases h1 : name = "width"
  · subst h1; exact width ⟨ha, hm, hx⟩ h
  by_cases h2 : name = "height"
  · subst h2; exact height ⟨ha, hm, hx⟩ h
  by_cases h3 : name = "top"
  · subst h3
    obtain ⟨a1, a2, a3⟩ := top_ok e ha h
    obtain ⟨g1, g2, g3, g4, g5, g6⟩ := geo_eq a3
    simp only [PSt.geo] at g1 g3 g5
    exact ⟨a1, by rw [a2, upd_ne _ _ (by simp), hm], by rw [g1, g3, g5]; exact hx⟩
  by_cases h4 : name = "bottom"
  · subst h4
    obtain ⟨a1, a2, a3⟩ := bottom_ok e ha h
    obtain ⟨g1, g2, g3, g4, g5, g6⟩ := geo_eq a3
    simp only [PSt.geo] at g1 g3 g5
    exact ⟨a1, by rw [a2, upd_ne _ _ (by simp), hm], by rw [g1, g3, g5]; exact hx⟩
  by_cases h5 : name = "size"
  · subst h5
    obtain ⟨a, b, s1, hs1, hb⟩ := size_ok e ha h
    simp only [setMany] at hs1
    obtain ⟨t, ht, hs1⟩ := Res.bind_eq_ok hs1
    obtain ⟨t2, ht2, hs1⟩ := Res.bind_eq_ok hs1
    cases hs1
    obtain ⟨b1, b2, b3⟩ := height (width ⟨ha, hm, hx⟩ ht) ht2
    obtain ⟨c1, c2, c3, c4, c5⟩ := hb
    exact ⟨by rw [c4]; exact b1, by rw [(c5 "right" (by simp)).1]; exact b2, by rw [c3, c1]; exact b3⟩
  · obtain ⟨g1, g2, g3, g4, g5, g6, g7, g8⟩ := set_other e name (by simp only [List.mem_cons, List.not_mem_nil, or_false, not_or]; exact ⟨hn.1, hn.2.1, h1, h3, h4, h2, hn.2.2.1, hn.2.2.2, h5⟩) w s s' h
    exact ⟨by rw [g3]; exact ha, by rw [g8, upd_ne _ _ (fun hc => hn.2.1 hc.symm), hm], by rw [g1, g4, g6]; exact hx⟩

/-- A distance from the bottom edge survives every setting of a property other than `top`, `bounds`, `location` and `bottom`. -/
theorem BottomAt.set {v : Str} (hv : v ≠ []) {s s' : PSt} (hs : BottomAt e v s) (name : String) (w : Str)
    (hn : name ∉ ["top", "bottom", "bounds", "location"]) (h : mediaSet e name w s = .ok s') : BottomAt e v s' := by
  obtain ⟨ha, hm, hx⟩ := hs
  have width : ∀ {s s' : PSt} {w : Str}, BottomAt e v s → mediaSet e "width" w s = .ok s' → BottomAt e v s' := by
    intro s s' w hs h
    obtain ⟨ha, hm, hx⟩ := hs
    obtain ⟨h1, h2, h3⟩ := width_ok e ha h
    obtain ⟨g1, g2, g3, g4, g5, g6⟩ := geo_eq h3
    simp only [PSt.geo] at g2 g4 g6
    exact ⟨h1, by rw [h2, upd_ne _ _ (by simp), hm], by rw [g2, g4, g6]; exact hx⟩
  have height : ∀ {s s' : PSt} {w : Str}, BottomAt e v s → mediaSet e "height" w s = .ok s' → BottomAt e v s' := by
    intro s s' w hs h
    obtain ⟨ha, hm, hx⟩ := hs
    obtain ⟨h1, h2, h3⟩ := height_ok e ha h
    obtain ⟨g1, g2, g3, g4, g5, g6⟩ := geo_eq h3
    simp only [PSt.geo, hm, if_neg hv] at g2 g4 g6
    refine ⟨h1, by rw [h2, upd_ne _ _ (by simp), hm], ?_⟩
    rw [g2, g4, g6]
    omega
  simp only [List.mem_cons, List.not_mem_nil, or_false, not_or] at hn
  by_cases h1 : name = "width"
  · subst h1; exact width ⟨ha, hm, hx⟩ h
  by_cases h2 : name = "height"
  · subst h2; exact height ⟨ha, hm, hx⟩ h
  by_cases h3 : name = "left"
  · subst h3
    obtain ⟨a1, a2, a3⟩ := left_ok e ha h
    obtain ⟨g1, g2, g3, g4, g5, g6⟩ := geo_eq a3
    simp only [PSt.geo] at g2 g4 g6
    exact ⟨a1, by rw [a2, upd_ne _ _ (by simp), hm], by rw [g2, g4, g6]; exact hx⟩
  by_cases h4 : name = "right"
  · subst h4
    obtain ⟨a1, a2, a3⟩ := right_ok e ha h
    obtain ⟨g1, g2, g3, g4, g5, g6⟩ := geo_eq a3
    simp only [PSt.geo] at g2 g4 g6
    exact ⟨a1, by rw [a2, upd_ne _ _ (by simp), hm], by rw [g2, g4, g6]; exact hx⟩
  by_cases h5 : name = "size"
  · subst h5
    obtain ⟨a, b, s1, hs1, hb⟩ := size_ok e ha h
    simp only [setMany] at hs1
    obtain ⟨t, ht, hs1⟩ := Res.bind_eq_ok hs1
    obtain ⟨t2, ht2, hs1⟩ := Res.bind_eq_ok hs1
    cases hs1
    obtain ⟨b1, b2, b3⟩ := height (width ⟨ha, hm, hx⟩ ht) ht2
    obtain ⟨c1, c2, c3, c4, c5⟩ := hb
    exact ⟨by rw [c4]; exact b1, by rw [(c5 "bottom" (by simp)).1]; exact b2, by rw [c3, c2]; exact b3⟩
  · obtain ⟨g1, g2, g3, g4, g5, g6, g7, g8⟩ := set_other e name (by simp only [List.mem_cons, List.not_mem_nil, or_false, not_or]; exact ⟨h3, h4, h1, hn.1, hn.2.1, h2, hn.2.2.1, hn.2.2.2, h5⟩) w s s' h
    exact ⟨by rw [g3]; exact ha, by rw [g8, upd_ne _ _ (fun hc => hn.2.1 hc.symm), hm], by rw [g2, g5, g7]; exact hx⟩

/-- A media object keeps its player. -/
theorem mediaSet_attached (name : String) (v : Str) (s s' : PSt) (ha : s.attached = true) (h : mediaSet e name v s = .ok s') : s'.attached = true := by
  by_cases hn : name ∉ ["left", "right", "width", "top", "bottom", "height", "bounds", "location", "size"]
  · rw [(set_other e name hn v s s' h).2.2.1, ha]
  · have hn : name ∈ ["left", "right", "width", "top", "bottom", "height", "bounds", "location", "size"] := Decidable.byContradiction hn
    simp only [List.mem_cons, List.not_mem_nil, or_false] at hn
    have four : ∀ {l : List (String × Str)} {s s1 : PSt}, (∀ p ∈ l, p.1 ∈ ["left", "top", "width", "height"]) → s.attached = true →
        setMany (mediaSet e) l s = .ok s1 → s1.attached = true := by
      intro l
      induction l with
      | nil => intro s s1 _ ha h; cases h; exact ha
      | cons p l ih =>
        intro s s1 hl ha h
        obtain ⟨n, v⟩ := p
        simp only [setMany] at h
        obtain ⟨t, ht, h⟩ := Res.bind_eq_ok h
        refine ih (fun q hq => hl q (by simp [hq])) ?_ h
        have := hl (n, v) (by simp)
        simp only [List.mem_cons, List.not_mem_nil, or_false] at this
        rcases this with rfl | rfl | rfl | rfl
        · exact (left_ok e ha ht).1
        · exact (top_ok e ha ht).1
        · exact (width_ok e ha ht).1
        · exact (height_ok e ha ht).1
    rcases hn with rfl | rfl | rfl | rfl | rfl | rfl | rfl | rfl | rfl
    · exact (left_ok e ha h).1
    · exact (right_ok e ha h).1
    · exact (width_ok e ha h).1
    · exact (top_ok e ha h).1
    · exact (bottom_ok e ha h).1
    · exact (height_ok e ha h).1
    · have hm : mediaSet e "bounds" v s = playerSet e 3 "bounds" v (s.mstore "bounds" v) := by
        unfold mediaSet mediaSet1; dsimp only; rw [if_pos ha]; rfl
      rw [hm, playerSet_unfold] at h
      simp only [playerSet1, info_bounds, doSetProperty, show ("bounds" = "transIn") = False by simp, show ("bounds" = "transOut") = False by simp, or_self, if_false, Res.bind_ok] at h
      split at h
      · obtain ⟨r, hr, h⟩ := Res.bind_eq_ok h
        obtain ⟨t, ht, hr⟩ := Res.bind_eq_ok hr
        cases hr
        cases h
        have h4 := four (s := s.mstore "bounds" v) ?_ ha ht
        · exact h4
        · simp
      · cases h
    · obtain ⟨a, b, s1, hs1, hb⟩ := location_ok e ha h
      rw [hb.2.2.2.1]
      exact four (by simp) ha hs1
    · obtain ⟨a, b, s1, hs1, hb⟩ := size_ok e ha h
      rw [hb.2.2.2.1]
      exact four (by simp) ha hs1

theorem setMany_append (l l' : List (String × Str)) (s : PSt) :
    setMany (mediaSet e) (l ++ l') s = (setMany (mediaSet e) l s).bind (setMany (mediaSet e) l') := by
  induction l generalizing s with
  | nil => rfl
  | cons p l ih =>
    obtain ⟨n, v⟩ := p
    simp only [List.cons_append, setMany]
    cases mediaSet e n v s with
    | ok t => simp only [Res.bind_ok]; exact ih t
    | _ => rfl

theorem setMany_attached (l : List (String × Str)) : ∀ (s s' : PSt), s.attached = true → setMany (mediaSet e) l s = .ok s' → s'.attached = true := by
  induction l with
  | nil => intro s s' ha h; cases h; exact ha
  | cons p l ih =>
    intro s s' ha h
    obtain ⟨n, v⟩ := p
    simp only [setMany] at h
    obtain ⟨t, ht, h⟩ := Res.bind_eq_ok h
    exact ih t s' (mediaSet_attached e n v s t ha ht) h

/-- `right`: whatever properties are set before, and whatever properties other than `left`, `location`, `bounds` and `right`
are set afterwards, in any order, the media object ends at the given distance from the right edge of the window (a
percentage being of the width of the window). -/
theorem C37_right (s s' : PSt) (ha : s.attached = true) (before after : List (String × Str)) (v : Str) (hv : v ≠ [])
    (hn : ∀ p ∈ after, p.1 ∉ ["left", "right", "bounds", "location"])
    (h : setMany (mediaSet e) (before ++ ("right", v) :: after) s = .ok s') :
    s'.prop.x + s'.prop.w + parsePercent e.F v s'.W 0 INTMAX = s'.W := by
  rw [setMany_append] at h
  obtain ⟨t, ht, hh⟩ := Res.bind_eq_ok h
  clear h
  have h := hh; clear hh
  simp only [setMany] at h
  obtain ⟨t1, ht1, hh⟩ := Res.bind_eq_ok h
  clear h
  have h := hh; clear hh
  have hta := setMany_attached e before s t ha ht
  obtain ⟨h1, h2, h3⟩ := right_ok e hta ht1
  obtain ⟨g1, g2, g3, g4, g5, g6⟩ := geo_eq h3
  simp only [PSt.geo, orDef, if_neg hv] at g1 g3 g5
  have h0 : RightAt e v t1 := ⟨h1, by rw [h2, upd_same], by rw [g1, g3, g5]; omega⟩
  clear ht ht1 h1 h2 h3 g1 g2 g3 g4 g5 g6 hta
  induction after generalizing t1 with
  | nil => cases h; exact h0.2.2
  | cons p l ih =>
    obtain ⟨n, w⟩ := p
    simp only [setMany] at h
    obtain ⟨t2, ht2, h⟩ := Res.bind_eq_ok h
    exact ih (fun q hq => hn q (by simp [hq])) t2 h (h0.set e hv n w (hn (n, w) (by simp)) ht2)

/-- A value that is not a percentage does not depend on what it is relative to. -/
theorem percent_base (F : FP) (v : Str) (hp : (orPercent F v).1 = false) (b b' lo hi : Int) : parsePercent F v b lo hi = parsePercent F v b' lo hi := by
  unfold parsePercent; dsimp only; rw [hp]; rfl

/-- `bottom`, in pixels: likewise for the bottom edge.  Missing: percentages, which are not of the window (`C37_fails_bottom`). -/
theorem C37_bottom_partial (s s' : PSt) (ha : s.attached = true) (before after : List (String × Str)) (v : Str) (hv : v ≠ [])
    (hp : (orPercent e.F v).1 = false) (hn : ∀ p ∈ after, p.1 ∉ ["top", "bottom", "bounds", "location"])
    (h : setMany (mediaSet e) (before ++ ("bottom", v) :: after) s = .ok s') :
    s'.prop.y + s'.prop.h + parsePercent e.F v s'.H 0 INTMAX = s'.H := by
  rw [setMany_append] at h
  obtain ⟨t, ht, hh⟩ := Res.bind_eq_ok h
  clear h
  have h := hh; clear hh
  simp only [setMany] at h
  obtain ⟨t1, ht1, hh⟩ := Res.bind_eq_ok h
  clear h
  have h := hh; clear hh
  have hta := setMany_attached e before s t ha ht
  obtain ⟨h1, h2, h3⟩ := bottom_ok e hta ht1
  obtain ⟨g1, g2, g3, g4, g5, g6⟩ := geo_eq h3
  simp only [PSt.geo, orDef, if_neg hv] at g2 g4 g6
  have h0 : BottomAt e v t1 := ⟨h1, by rw [h2, upd_same], by rw [g2, g4, g6]; omega⟩
  clear ht ht1 h1 h2 h3 g1 g2 g3 g4 g5 g6 hta
  induction after generalizing t1 with
  | nil =>
    cases h
    rw [percent_base e.F v hp _ s'.prop.h]
    exact h0.2.2
  | cons p l ih =>
    obtain ⟨n, w⟩ := p
    simp only [setMany] at h
    obtain ⟨t2, ht2, h⟩ := Res.bind_eq_ok h
    exact ih (fun q hq => hn q (by simp [hq])) t2 h (h0.set e hv n w (hn (n, w) (by simp)) ht2)

/-- An environment and a media object for examples: a window of 100 by 100. -/
def penv0 : PEnv := { F := exactFP, color := fun _ => some (1, 1, 0, 1), trans := fun _ => .ok () }
def pst0 : PSt := { W := 100, H := 100, media := fun _ => [], player := fun _ => [], prop := initProp penv0 100 100 (1, 1, 0, 1), attached := true }

/-- What of a result is looked at in examples. -/
def geoOf (r : Res PSt) : Option (Int × Int × Int × Int) := match r with | .ok s => some (s.prop.x, s.prop.y, s.prop.w, s.prop.h) | _ => none

example : geoOf (setMany (mediaSet penv0) ([("left", "7".toList), ("width", "50%".toList)] ++ ("right", "10%".toList) :: [("width", "20%".toList)]) pst0) = some (70, 0, 20, 100) := by
  decide +kernel

/-- The claim for `bottom` is false for percentages: `bottom = 50%` of a media object half as high as the window does not put
half of the window below it (its top would be at 0), because the percentage is taken of the height of the media object. -/
theorem C37_fails_bottom :
    geoOf (setMany (mediaSet penv0) [("height", "50%".toList), ("bottom", "50%".toList)] pst0) = some (0, 25, 100, 50) ∧
    geoOf (setMany (mediaSet penv0) [("width", "50%".toList), ("right", "50%".toList)] pst0) = some (0, 0, 50, 100) := by
  decide +kernel

/-! ## Resizing the window -/

theorem updateIfHave_ok {name : String} {s s' : PSt} (h : updateIfHave e name s = .ok s') :
    (s.media name = [] ∧ s' = s) ∨ (s.media name ≠ [] ∧ mediaSet e name (s.media name) s = .ok s') := by
  unfold updateIfHave at h
  split at h
  · next hn => exact .inr ⟨hn, h⟩
  · next hn => cases h; exact .inl ⟨Decidable.byContradiction hn, rfl⟩

/-- After the window has been resized, with the properties a media object has: a width, a left and a top are as if they
were set in the new window; a distance from the right edge wins over `left`, a distance in pixels from the bottom edge over `top`; the properties
themselves are unchanged. -/
theorem C37_resize (s s' : PSt) (ha : s.attached = true) (W H : Int) (h : resizeMedia e W H s = .ok s') :
    s'.W = W ∧ s'.H = H ∧ s'.media = s.media ∧
    (s.media "width" ≠ [] → s'.prop.w = parsePercent e.F (s.media "width") W 0 INTMAX) ∧
    (s.media "height" ≠ [] → s'.prop.h = parsePercent e.F (s.media "height") H 0 INTMAX) ∧
    (s.media "right" ≠ [] → s'.prop.x + s'.prop.w + parsePercent e.F (s.media "right") W 0 INTMAX = W) ∧
    (s.media "right" = [] → s.media "left" ≠ [] → s'.prop.x = parsePercent e.F (s.media "left") W 0 INTMAX) ∧
    (s.media "bottom" ≠ [] → s'.prop.y + s'.prop.h + parsePercent e.F (s.media "bottom") s'.prop.h 0 INTMAX = H) ∧
    (s.media "bottom" = [] → s.media "top" ≠ [] → s'.prop.y = parsePercent e.F (s.media "top") H 0 INTMAX) := by
  unfold resizeMedia at h
  split at h
  · cases h
  obtain ⟨s1, h1, h⟩ := Res.bind_eq_ok h
  obtain ⟨s2, h2, h⟩ := Res.bind_eq_ok h
  obtain ⟨s3, h3, h⟩ := Res.bind_eq_ok h
  obtain ⟨s4, h4, h⟩ := Res.bind_eq_ok h
  obtain ⟨s5, h5, h6⟩ := Res.bind_eq_ok h
  have self : ∀ (f : Store) (n : String), upd f n (f n) = f := fun f n => upd_own f n
  have e1 : s1.attached = true ∧ s1.media = s.media ∧ s1.geo = ⟨W, H, s.prop.x, if s.media "top" = [] then s.prop.y else parsePercent e.F (s.media "top") H 0 INTMAX, s.prop.w, s.prop.h⟩ := by
    rcases updateIfHave_ok e h1 with ⟨hn, rfl⟩ | ⟨hn, hs⟩
    · refine ⟨ha, rfl, ?_⟩
      have hn : s.media "top" = [] := hn
      rw [if_pos hn]; rfl
    · have hn : s.media "top" ≠ [] := hn
      obtain ⟨a, b, c⟩ := top_ok e (s := { s with W := W, H := H }) ha hs
      refine ⟨a, b.trans (self _ _), ?_⟩
      rw [c, if_neg hn]; unfold orDef; dsimp only; rw [if_neg hn]; rfl
  have e2 : s2.attached = true ∧ s2.media = s.media ∧ s2.geo = { s1.geo with x := if s.media "left" = [] then s1.geo.x else parsePercent e.F (s.media "left") W 0 INTMAX } := by
    have hm := e1.2.1
    have hW : s1.W = W := by have := congrArg Geo.W e1.2.2; exact this
    rcases updateIfHave_ok e h2 with ⟨hn, rfl⟩ | ⟨hn, hs⟩
    · rw [hm] at hn
      exact ⟨e1.1, hm, by rw [if_pos hn]⟩
    · obtain ⟨a, b, c⟩ := left_ok e e1.1 hs
      rw [hm] at hn
      refine ⟨a, (b.trans (self _ _)).trans hm, ?_⟩
      rw [c, if_neg hn]; unfold orDef; rw [hm, if_neg hn, hW]
  have e3 : s3.attached = true ∧ s3.media = s.media ∧ s3.geo = if s.media "width" = [] then s2.geo else
      (let w := parsePercent e.F (s.media "width") W 0 INTMAX
       { s2.geo with w := w, x := if s.media "right" = [] then s2.geo.x else W - w - parsePercent e.F (s.media "right") W 0 INTMAX }) := by
    have hm := e2.2.1
    have hW : s2.W = W := by have := congrArg Geo.W (e2.2.2.trans (by rw [e1.2.2])); exact this
    rcases updateIfHave_ok e h3 with ⟨hn, rfl⟩ | ⟨hn, hs⟩
    · rw [hm] at hn
      exact ⟨e2.1, hm, by rw [if_pos hn]⟩
    · obtain ⟨a, b, c⟩ := width_ok e e2.1 hs
      rw [hm] at hn
      refine ⟨a, (b.trans (self _ _)).trans hm, ?_⟩
      rw [c, if_neg hn]; unfold orDef; rw [hm, if_neg hn, hW]; rfl
  have e4 : s4.attached = true ∧ s4.media = s.media ∧ s4.geo = if s.media "height" = [] then s3.geo else
      (let k := parsePercent e.F (s.media "height") H 0 INTMAX
       { s3.geo with h := k, y := if s.media "bottom" = [] then s3.geo.y else H - k - parsePercent e.F (s.media "bottom") k 0 INTMAX }) := by
    have hm := e3.2.1
    have hH : s3.H = H := by
      have : s3.geo.H = H := by rw [e3.2.2]; split <;> simp [e2.2.2, e1.2.2]
      exact this
    rcases updateIfHave_ok e h4 with ⟨hn, rfl⟩ | ⟨hn, hs⟩
    · rw [hm] at hn
      exact ⟨e3.1, hm, by rw [if_pos hn]⟩
    · obtain ⟨a, b, c⟩ := height_ok e e3.1 hs
      rw [hm] at hn
      refine ⟨a, (b.trans (self _ _)).trans hm, ?_⟩
      rw [c, if_neg hn]; unfold orDef; rw [hm, if_neg hn, hH]; rfl
  have e5 : s5.attached = true ∧ s5.media = s.media ∧ s5.geo = if s.media "bottom" = [] then s4.geo else
      { s4.geo with y := H - s4.geo.h - parsePercent e.F (s.media "bottom") s4.geo.h 0 INTMAX } := by
    have hm := e4.2.1
    have hH : s4.H = H := by
      have : s4.geo.H = H := by rw [e4.2.2, e3.2.2]; split <;> split <;> simp [e2.2.2, e1.2.2]
      exact this
    rcases updateIfHave_ok e h5 with ⟨hn, rfl⟩ | ⟨hn, hs⟩
    · rw [hm] at hn
      exact ⟨e4.1, hm, by rw [if_pos hn]⟩
    · obtain ⟨a, b, c⟩ := bottom_ok e e4.1 hs
      rw [hm] at hn
      refine ⟨a, (b.trans (self _ _)).trans hm, ?_⟩
      rw [c, if_neg hn]; unfold orDef; rw [hm, if_neg hn, hH]; rfl
  have e6 : s'.attached = true ∧ s'.media = s.media ∧ s'.geo = if s.media "right" = [] then s5.geo else
      { s5.geo with x := W - s5.geo.w - parsePercent e.F (s.media "right") W 0 INTMAX } := by
    have hm := e5.2.1
    have hW : s5.W = W := by
      have : s5.geo.W = W := by rw [e5.2.2, e4.2.2, e3.2.2]; split <;> split <;> split <;> simp [e2.2.2, e1.2.2]
      exact this
    rcases updateIfHave_ok e h6 with ⟨hn, rfl⟩ | ⟨hn, hs⟩
    · rw [hm] at hn
      exact ⟨e5.1, hm, by rw [if_pos hn]⟩
    · obtain ⟨a, b, c⟩ := right_ok e e5.1 hs
      rw [hm] at hn
      refine ⟨a, (b.trans (self _ _)).trans hm, ?_⟩
      rw [c, if_neg hn]; unfold orDef; rw [hm, if_neg hn, hW]; rfl
  obtain ⟨g1, g2, g3, g4, g5, g6⟩ := geo_eq e6.2.2
  rw [g1, g2, g3, g4, g5, g6, e5.2.2, e4.2.2, e3.2.2, e2.2.2, e1.2.2]
  clear g1 g2 g3 g4 g5 g6 h1 h2 h3 h4 h5 h6 h e1 e2 e3 e4 e5
  refine ⟨?_, ?_, e6.2.1, ?_, ?_, ?_, ?_, ?_, ?_⟩
  · by_cases a : s.media "right" = [] <;> by_cases b : s.media "bottom" = [] <;> by_cases c : s.media "height" = [] <;> by_cases d : s.media "width" = [] <;> simp [a, b, c, d]
  · by_cases a : s.media "right" = [] <;> by_cases b : s.media "bottom" = [] <;> by_cases c : s.media "height" = [] <;> by_cases d : s.media "width" = [] <;> simp [a, b, c, d]
  · intro d; by_cases a : s.media "right" = [] <;> by_cases b : s.media "bottom" = [] <;> by_cases c : s.media "height" = [] <;> simp [a, b, c, d]
  · intro c; by_cases a : s.media "right" = [] <;> by_cases b : s.media "bottom" = [] <;> by_cases d : s.media "width" = [] <;> simp [a, b, c, d]
  · intro a; by_cases b : s.media "bottom" = [] <;> by_cases c : s.media "height" = [] <;> by_cases d : s.media "width" = [] <;> simp [a, b, c, d] <;> omega
  · intro a l; by_cases b : s.media "bottom" = [] <;> by_cases c : s.media "height" = [] <;> by_cases d : s.media "width" = [] <;> simp [a, b, c, d, l]
  · intro b; by_cases a : s.media "right" = [] <;> by_cases c : s.media "height" = [] <;> by_cases d : s.media "width" = [] <;> simp [a, b, c, d] <;> omega
  · intro b l; by_cases a : s.media "right" = [] <;> by_cases c : s.media "height" = [] <;> by_cases d : s.media "width" = [] <;> simp [a, b, c, d, l]

/-- A media object that fills the window because it has no geometry properties does not fill it after the window has been resized. -/
theorem C37_fails_resize : geoOf (.ok pst0) = some (0, 0, 100, 100) ∧ geoOf (resizeMedia penv0 200 200 pst0) = some (0, 0, 100, 100) := by
  decide +kernel

end Ginga
