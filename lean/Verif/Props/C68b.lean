import Verif.Props.C68
/-!
# C68, second part: the rectangle of a media object that starts
-/
set_option linter.unusedSimpArgs false
namespace Ginga

variable (e : PEnv)

/-! ## The geometry that the loop computes -/

/-- What of a media object and its player is about the rectangle. -/
structure GV where
  x : Int
  y : Int
  w : Int
  h : Int
  l : Str
  t : Str
  wd : Str
  ht : Str
  r : Str
  b : Str

def PSt.gv (s : PSt) : GV :=
  ⟨s.prop.x, s.prop.y, s.prop.w, s.prop.h, s.media "left", s.media "top", s.media "width", s.media "height", s.media "right", s.media "bottom"⟩

/-- Pixels of a text. -/
abbrev px (v : Str) (base : Int) : Int := parsePercent e.F v base 0 INTMAX

def GV.left (W : Int) (v : Str) (g : GV) : GV := { g with x := px e (orDef "0" v) W, l := v }
def GV.top (H : Int) (v : Str) (g : GV) : GV := { g with y := px e (orDef "0" v) H, t := v }
def GV.width (W : Int) (v : Str) (g : GV) : GV :=
  { g with w := px e (orDef "100%" v) W, wd := v, x := if g.r = [] then g.x else W - px e (orDef "100%" v) W - px e g.r W }
def GV.height (H : Int) (v : Str) (g : GV) : GV :=
  { g with h := px e (orDef "100%" v) H, ht := v,
           y := if g.b = [] then g.y else H - px e (orDef "100%" v) H - px e g.b (px e (orDef "100%" v) H) }
def GV.right (W : Int) (v : Str) (g : GV) : GV := { g with x := W - g.w - px e (orDef "0%" v) W, r := v }
def GV.bottom (H : Int) (v : Str) (g : GV) : GV := { g with y := H - g.h - px e (orDef "0%" v) g.h, b := v }

theorem gv_left {v : Str} {s s' : PSt} (ha : s.attached = true) (h : mediaSet e "left" v s = .ok s') :
    s'.attached = true ∧ s'.W = s.W ∧ s'.H = s.H ∧ s'.gv = s.gv.left e s.W v := by
  obtain ⟨h1, h2, h3⟩ := left_ok e ha h
  obtain ⟨g1, g2, g3, g4, g5, g6⟩ := geo_eq h3
  refine ⟨h1, g1, g2, ?_⟩
  simp [PSt.gv, GV.left, h2, g3, g4, g5, g6, upd, PSt.geo]

theorem gv_top {v : Str} {s s' : PSt} (ha : s.attached = true) (h : mediaSet e "top" v s = .ok s') :
    s'.attached = true ∧ s'.W = s.W ∧ s'.H = s.H ∧ s'.gv = s.gv.top e s.H v := by
  obtain ⟨h1, h2, h3⟩ := top_ok e ha h
  obtain ⟨g1, g2, g3, g4, g5, g6⟩ := geo_eq h3
  refine ⟨h1, g1, g2, ?_⟩
  simp [PSt.gv, GV.top, h2, g3, g4, g5, g6, upd, PSt.geo]

theorem gv_width {v : Str} {s s' : PSt} (ha : s.attached = true) (h : mediaSet e "width" v s = .ok s') :
    s'.attached = true ∧ s'.W = s.W ∧ s'.H = s.H ∧ s'.gv = s.gv.width e s.W v := by
  obtain ⟨h1, h2, h3⟩ := width_ok e ha h
  obtain ⟨g1, g2, g3, g4, g5, g6⟩ := geo_eq h3
  refine ⟨h1, g1, g2, ?_⟩
  by_cases hr : s.media "right" = [] <;> simp [hr, PSt.gv, GV.width, h2, g3, g4, g5, g6, upd, PSt.geo]

theorem gv_height {v : Str} {s s' : PSt} (ha : s.attached = true) (h : mediaSet e "height" v s = .ok s') :
    s'.attached = true ∧ s'.W = s.W ∧ s'.H = s.H ∧ s'.gv = s.gv.height e s.H v := by
  obtain ⟨h1, h2, h3⟩ := height_ok e ha h
  obtain ⟨g1, g2, g3, g4, g5, g6⟩ := geo_eq h3
  refine ⟨h1, g1, g2, ?_⟩
  by_cases hr : s.media "bottom" = [] <;> simp [hr, PSt.gv, GV.height, h2, g3, g4, g5, g6, upd, PSt.geo]

theorem gv_right {v : Str} {s s' : PSt} (ha : s.attached = true) (h : mediaSet e "right" v s = .ok s') :
    s'.attached = true ∧ s'.W = s.W ∧ s'.H = s.H ∧ s'.gv = s.gv.right e s.W v := by
  obtain ⟨h1, h2, h3⟩ := right_ok e ha h
  obtain ⟨g1, g2, g3, g4, g5, g6⟩ := geo_eq h3
  refine ⟨h1, g1, g2, ?_⟩
  simp [PSt.gv, GV.right, h2, g3, g4, g5, g6, upd, PSt.geo]

theorem gv_bottom {v : Str} {s s' : PSt} (ha : s.attached = true) (h : mediaSet e "bottom" v s = .ok s') :
    s'.attached = true ∧ s'.W = s.W ∧ s'.H = s.H ∧ s'.gv = s.gv.bottom e s.H v := by
  obtain ⟨h1, h2, h3⟩ := bottom_ok e ha h
  obtain ⟨g1, g2, g3, g4, g5, g6⟩ := geo_eq h3
  refine ⟨h1, g1, g2, ?_⟩
  simp [PSt.gv, GV.bottom, h2, g3, g4, g5, g6, upd, PSt.geo]

theorem gv_same {n : String} (hn : n ∉ geoNames) {s t : PSt} (h : SameBut n s t) : s.gv = t.gv := by
  obtain ⟨-, -, h3, -, h5⟩ := h
  have hm : ∀ k ∈ geoNames, s.media k = t.media k := fun k hk => (h5 k (fun hkn => hn (hkn ▸ hk))).1
  simp [PSt.gv, h3, hm "left" (by decide), hm "top" (by decide), hm "width" (by decide), hm "height" (by decide), hm "right" (by decide), hm "bottom" (by decide)]

/-- The `i`-th of the `k` components of a text. -/
def part (v : Str) (k i : Nat) : Str := ((parseList v ',' k k).getD []).getD i []

theorem gv_location {v : Str} {s s' : PSt} (hv : v ≠ []) (ha : s.attached = true) (h : mediaSet e "location" v s = .ok s') :
    s'.attached = true ∧ s'.W = s.W ∧ s'.H = s.H ∧ s'.gv = (s.gv.left e s.W (part v 2 0)).top e s.H (part v 2 1) := by
  have hw : ∃ a b, parseList v ',' 2 2 = some [a, b] := by
    have hm : mediaSet e "location" v s = playerSet e 3 "location" v (s.mstore "location" v) := by
      unfold mediaSet mediaSet1; dsimp only; rw [if_pos ha]; rfl
    rw [hm, playerSet_unfold] at h
    simp only [playerSet1, info_location, doSetProperty, show ("location" = "transIn") = False by simp, show ("location" = "transOut") = False by simp, or_self, if_false, Res.bind_ok, if_neg hv] at h
    split at h
    · next a b hp => exact ⟨a, b, hp⟩
    · cases h
  obtain ⟨a, b, hp⟩ := hw
  have hc := ((C37_compound e s ha v hv a b [] []).2 hp).1
  rw [h] at hc
  have ea : part v 2 0 = a := by simp [part, hp]
  have eb : part v 2 1 = b := by simp [part, hp]
  rw [ea, eb]
  cases hs : setMany (mediaSet e) [("left", a), ("top", b)] s with
  | ok s1 =>
    rw [hs] at hc
    simp only [setMany] at hs
    obtain ⟨u, hu, hs⟩ := Res.bind_eq_ok hs
    obtain ⟨u', hu', hs⟩ := Res.bind_eq_ok hs
    cases hs
    obtain ⟨k1, k2, k3, k4⟩ := gv_left e ha hu
    obtain ⟨j1, j2, j3, j4⟩ := gv_top e k1 hu'
    refine ⟨hc.2.2.2.1.trans j1, hc.1.trans (j2.trans k2), hc.2.1.trans (j3.trans k3), ?_⟩
    rw [gv_same (by decide) hc, j4, k4, k3]
  | _ => rw [hs] at hc; exact hc.elim

theorem gv_size {v : Str} {s s' : PSt} (hv : v ≠ []) (ha : s.attached = true) (h : mediaSet e "size" v s = .ok s') :
    s'.attached = true ∧ s'.W = s.W ∧ s'.H = s.H ∧ s'.gv = (s.gv.width e s.W (part v 2 0)).height e s.H (part v 2 1) := by
  have hw : ∃ a b, parseList v ',' 2 2 = some [a, b] := by
    have hm : mediaSet e "size" v s = playerSet e 3 "size" v (s.mstore "size" v) := by
      unfold mediaSet mediaSet1; dsimp only; rw [if_pos ha]; rfl
    rw [hm, playerSet_unfold] at h
    simp only [playerSet1, info_size, doSetProperty, show ("size" = "transIn") = False by simp, show ("size" = "transOut") = False by simp, or_self, if_false, Res.bind_ok, if_neg hv] at h
    split at h
    · next a b hp => exact ⟨a, b, hp⟩
    · cases h
  obtain ⟨a, b, hp⟩ := hw
  have hc := ((C37_compound e s ha v hv a b [] []).2 hp).2
  rw [h] at hc
  have ea : part v 2 0 = a := by simp [part, hp]
  have eb : part v 2 1 = b := by simp [part, hp]
  rw [ea, eb]
  cases hs : setMany (mediaSet e) [("width", a), ("height", b)] s with
  | ok s1 =>
    rw [hs] at hc
    simp only [setMany] at hs
    obtain ⟨u, hu, hs⟩ := Res.bind_eq_ok hs
    obtain ⟨u', hu', hs⟩ := Res.bind_eq_ok hs
    cases hs
    obtain ⟨k1, k2, k3, k4⟩ := gv_width e ha hu
    obtain ⟨j1, j2, j3, j4⟩ := gv_height e k1 hu'
    refine ⟨hc.2.2.2.1.trans j1, hc.1.trans (j2.trans k2), hc.2.1.trans (j3.trans k3), ?_⟩
    rw [gv_same (by decide) hc, j4, k4, k3]
  | _ => rw [hs] at hc; exact hc.elim

theorem gv_bounds {v : Str} {s s' : PSt} (hv : v ≠ []) (ha : s.attached = true) (h : mediaSet e "bounds" v s = .ok s') :
    s'.attached = true ∧ s'.W = s.W ∧ s'.H = s.H ∧
    s'.gv = (((s.gv.left e s.W (part v 4 0)).top e s.H (part v 4 1)).width e s.W (part v 4 2)).height e s.H (part v 4 3) := by
  have hw : ∃ a b c d, parseList v ',' 4 4 = some [a, b, c, d] := by
    have hm : mediaSet e "bounds" v s = playerSet e 3 "bounds" v (s.mstore "bounds" v) := by
      unfold mediaSet mediaSet1; dsimp only; rw [if_pos ha]; rfl
    rw [hm, playerSet_unfold] at h
    simp only [playerSet1, info_bounds, doSetProperty, show ("bounds" = "transIn") = False by simp, show ("bounds" = "transOut") = False by simp, or_self, if_false, Res.bind_ok, if_neg hv] at h
    split at h
    · next a b c d hp => exact ⟨a, b, c, d, hp⟩
    · cases h
  obtain ⟨a, b, c, d, hp⟩ := hw
  have hc := (C37_compound e s ha v hv a b c d).1 hp
  rw [h] at hc
  have ea : part v 4 0 = a := by simp [part, hp]
  have eb : part v 4 1 = b := by simp [part, hp]
  have ec : part v 4 2 = c := by simp [part, hp]
  have ed : part v 4 3 = d := by simp [part, hp]
  rw [ea, eb, ec, ed]
  cases hs : setMany (mediaSet e) [("left", a), ("top", b), ("width", c), ("height", d)] s with
  | ok s1 =>
    rw [hs] at hc
    simp only [setMany] at hs
    obtain ⟨u, hu, hs⟩ := Res.bind_eq_ok hs
    obtain ⟨u', hu', hs⟩ := Res.bind_eq_ok hs
    obtain ⟨u2, hu2, hs⟩ := Res.bind_eq_ok hs
    obtain ⟨u3, hu3, hs⟩ := Res.bind_eq_ok hs
    cases hs
    obtain ⟨k1, k2, k3, k4⟩ := gv_left e ha hu
    obtain ⟨j1, j2, j3, j4⟩ := gv_top e k1 hu'
    obtain ⟨i1, i2, i3, i4⟩ := gv_width e j1 hu2
    obtain ⟨h1, h2, h3, h4⟩ := gv_height e i1 hu3
    refine ⟨hc.2.2.2.1.trans h1, hc.1.trans (h2.trans (i2.trans (j2.trans k2))), hc.2.1.trans (h3.trans (i3.trans (j3.trans k3))), ?_⟩
    rw [gv_same (by decide) hc, h4, i4, j4, k4, i3, j3, k3, j2, k2]
  | _ => rw [hs] at hc; exact hc.elim

/-! ## The steps of the loop that are about the rectangle -/

/-- The properties that are about the rectangle, in the order of the loop. -/
def nine : List String := ["bottom", "bounds", "height", "left", "location", "right", "size", "top", "width"]

/-- Same, as far as the rectangle goes. -/
def GSame (s t : PSt) : Prop := t.attached = s.attached ∧ t.media = s.media ∧ t.W = s.W ∧ t.H = s.H ∧ t.gv = s.gv

theorem GSame.refl (s : PSt) : GSame s s := ⟨rfl, rfl, rfl, rfl, rfl⟩

theorem GSame.trans {s t u : PSt} (h : GSame s t) (h' : GSame t u) : GSame s u :=
  ⟨h'.1.trans h.1, h'.2.1.trans h.2.1, h'.2.2.1.trans h.2.2.1, h'.2.2.2.1.trans h.2.2.2.1, h'.2.2.2.2.trans h.2.2.2.2⟩

/-- The loop restricted to the properties of the rectangle. -/
def RectChain : List String → List String → PSt → PSt → Prop
  | [], _, s, t => GSame s t
  | n :: r, keys, s, t =>
    (n ∈ keys ∧ ∃ s0 u, GSame s s0 ∧ mediaSet e n (s0.media n) s0 = .ok u ∧ RectChain r (addedKeys n ++ keys) u t) ∨ (n ∉ keys ∧ RectChain r keys s t)

theorem RectChain.pre {e : PEnv} {rem : List String} : ∀ {keys : List String} {s0 s t : PSt}, GSame s0 s → RectChain e rem keys s t → RectChain e rem keys s0 t := by
  induction rem with
  | nil => intro keys s0 s t h h'; exact h.trans h'
  | cons n r ih =>
    intro keys s0 s t h h'
    rcases h' with ⟨hn, s1, u, h1, h2, h3⟩ | ⟨hn, h1⟩
    · exact .inl ⟨hn, s1, u, h.trans h1, h2, h3⟩
    · exact .inr ⟨hn, ih h h1⟩

/-- Setting a property to its own value. -/
theorem playerSet_own {n : String} {s : PSt} (ha : s.attached = true) : playerSet e 3 n (s.media n) s = mediaSet e n (s.media n) s := by
  unfold mediaSet mediaSet1
  dsimp only
  rw [if_pos ha, upd_own]

theorem chain_skip {rem : List String} : ∀ {keys : List String} {s : PSt}, (∀ n ∈ rem, n ∉ keys) → RectChain e rem keys s s := by
  induction rem with
  | nil => intro keys s _; exact GSame.refl s
  | cons n r ih => intro keys s h; exact .inr ⟨h n List.mem_cons_self, ih fun k hk => h k (List.mem_cons_of_mem _ hk)⟩

def four : List String := ["height", "left", "top", "width"]

theorem addedKeys_four {k n : String} (h : n ∈ addedKeys k) : n ∈ four := by
  unfold addedKeys at h
  split at h
  · revert h; simp [four]; rintro (rfl | rfl | rfl | rfl) <;> simp
  · split at h
    · revert h; simp [four]; rintro (rfl | rfl) <;> simp
    · split at h
      · revert h; simp [four]; rintro (rfl | rfl) <;> simp
      · cases h

theorem loop_chain (todo : List String) : ∀ {rem keys : List String} {s t : PSt}, todo.Pairwise (· < ·) → rem.Pairwise (· < ·) → s.attached = true →
    (∀ n ∈ rem, n ∈ nine) → (∀ n ∈ nine, n ∈ todo → n ∈ rem) → (∀ n ∈ rem, n ∉ todo → n ∉ keys ∧ n ∉ four) →
    startLoop (playerSet e 3) (·.media) todo keys s = .ok t → RectChain e rem keys s t := by
  induction todo with
  | nil =>
    intro rem keys s t _ _ _ _ _ hk h
    cases h
    exact chain_skip e fun n hn => (hk n hn (by simp)).1
  | cons k todo ih =>
    intro rem keys s t hs hr ha hnine hin hk h
    have hs' := List.pairwise_cons.1 hs
    by_cases hk9 : k ∈ nine
    · have hkr := hin k hk9 List.mem_cons_self
      induction rem with
      | nil => cases hkr
      | cons n r ihr =>
        have hr' := List.pairwise_cons.1 hr
        by_cases hnk : n = k
        · subst hnk
          have hrest : ∀ j ∈ nine, j ∈ todo → j ∈ r := fun j hj hjt => by
            rcases List.mem_cons.1 (hin j hj (List.mem_cons_of_mem _ hjt)) with rfl | h
            · exact absurd (hs'.1 _ hjt) (String.lt_irrefl _)
            · exact h
          have hkk : ∀ j ∈ r, j ∉ todo → j ∉ keys ∧ j ∉ four := fun j hj hjt => by
            refine hk j (List.mem_cons_of_mem _ hj) fun hc => ?_
            rcases List.mem_cons.1 hc with rfl | hc
            · exact String.lt_irrefl _ (hr'.1 _ hj)
            · exact hjt hc
          rcases startLoop_cons e h with ⟨hin', u, hu, h⟩ | ⟨hn', h⟩
          · rw [playerSet_own e ha] at hu
            refine .inl ⟨hin', s, u, GSame.refl s, hu, ih hs'.2 hr'.2 (mediaSet_attached e _ _ _ _ ha hu) (fun j hj => hnine j (List.mem_cons_of_mem _ hj)) hrest ?_ h⟩
            intro j hj hjt
            obtain ⟨a, b⟩ := hkk j hj hjt
            refine ⟨fun hc => ?_, b⟩
            rcases List.mem_append.1 hc with hc | hc
            · exact b (addedKeys_four hc)
            · exact a hc
          · exact .inr ⟨hn', ih hs'.2 hr'.2 ha (fun j hj => hnine j (List.mem_cons_of_mem _ hj)) hrest hkk h⟩
        · have hkr' : k ∈ r := (List.mem_cons.1 hkr).resolve_left fun h => hnk h.symm
          have hlt := hr'.1 k hkr'
          have hnt : n ∉ k :: todo := by
            intro hc
            rcases List.mem_cons.1 hc with rfl | hc
            · exact String.lt_irrefl _ hlt
            · exact String.lt_irrefl _ (String.lt_trans hlt (hs'.1 n hc))
          refine .inr ⟨(hk n List.mem_cons_self hnt).1, ihr hr'.2 (fun j hj => hnine j (List.mem_cons_of_mem _ hj)) ?_ (fun j hj => hk j (List.mem_cons_of_mem _ hj)) hkr'⟩
          intro j hj hjt
          rcases List.mem_cons.1 (hin j hj hjt) with rfl | h
          · exact absurd hjt hnt
          · exact h
    · have hrest : ∀ j ∈ nine, j ∈ todo → j ∈ rem := fun j hj hjt => hin j hj (List.mem_cons_of_mem _ hjt)
      have hkk : ∀ j ∈ rem, j ∉ todo → j ∉ keys ∧ j ∉ four := fun j hj hjt => by
        refine hk j hj fun hc => ?_
        rcases List.mem_cons.1 hc with rfl | hc
        · exact hk9 (hnine _ hj)
        · exact hjt hc
      rcases startLoop_cons e h with ⟨hin', u, hu, h⟩ | ⟨-, h⟩
      · rw [playerSet_own e ha] at hu
        have h0 : addedKeys k = [] := by
          unfold addedKeys
          rw [if_neg (fun h => hk9 (by rw [h]; decide)), if_neg (fun h => hk9 (by rw [h]; decide)), if_neg (fun h => hk9 (by rw [h]; decide))]
        rw [h0] at h
        obtain ⟨q1, q2, q3, q4, q5, q6, q7, q8⟩ := set_other e k (fun hc => hk9 (by revert hc; simp [nine]; grind)) _ _ _ hu
        have q8' : u.media = s.media := q8.trans (upd_own _ _)
        refine RectChain.pre ⟨q3, q8', q1, q2, ?_⟩ (ih hs'.2 hr (q3.trans ha) hnine hrest hkk h)
        simp [PSt.gv, q4, q5, q6, q7, q8']
      · exact ih hs'.2 hr ha hnine hrest hkk h

/-- A step of the chain, with what it does to the geometry. -/
theorem RectChain.step {e : PEnv} {n : String} {r keys : List String} {s t : PSt} {W H : Int} {f : GV → GV} (ha : s.attached = true) (hW : s.W = W) (hH : s.H = H)
    (hf : ∀ s0 u, s0.attached = true → s0.W = W → s0.H = H → s0.gv = s.gv → s0.media = s.media → n ∈ keys → mediaSet e n (s0.media n) s0 = .ok u →
      u.attached = true ∧ u.W = s0.W ∧ u.H = s0.H ∧ u.gv = f s0.gv)
    (h : RectChain e (n :: r) keys s t) :
    ∃ u keys', u.attached = true ∧ u.W = W ∧ u.H = H ∧ u.gv = (if n ∈ keys then f s.gv else s.gv) ∧ (∀ k, k ∉ geoNames → u.media k = s.media k) ∧
      (∀ j, j ∈ keys' ↔ (n ∈ keys ∧ j ∈ addedKeys n) ∨ j ∈ keys) ∧ RectChain e r keys' u t := by
  rcases h with ⟨hn, s0, u, h0, h1, h2⟩ | ⟨hn, h1⟩
  · obtain ⟨k1, k2, k3, k4, k5⟩ := h0
    obtain ⟨j1, j2, j3, j4⟩ := hf s0 u (k1.trans ha) (k3.trans hW) (k4.trans hH) k5 k2 hn h1
    refine ⟨u, addedKeys n ++ keys, j1, j2.trans (k3.trans hW), j3.trans (k4.trans hH), ?_, ?_, ?_, h2⟩
    · rw [if_pos hn, j4, k5]
    · intro k hk
      rw [← playerSet_own e (k1.trans ha)] at h1
      rw [set_media e 3 hk h1, k2]
    · intro j; simp [hn]
  · refine ⟨s, keys, ha, hW, hH, ?_, fun _ _ => rfl, ?_, h1⟩
    · rw [if_neg hn]
    · intro j; simp [hn]

/-! ## What the document says -/

/-- The left edge that the document says: `location` before `bounds` before `left`. -/
def wantLeft (keys : List String) (media : Store) : Str :=
  if "location" ∈ keys then part (media "location") 2 0 else if "bounds" ∈ keys then part (media "bounds") 4 0 else media "left"

/-- The upper edge that the document says: `location` before `bounds` before `top`. -/
def wantTop (keys : List String) (media : Store) : Str :=
  if "location" ∈ keys then part (media "location") 2 1 else if "bounds" ∈ keys then part (media "bounds") 4 1 else media "top"

/-- The width that the document says: `size` before `bounds` before `width`. -/
def wantWidth (keys : List String) (media : Store) : Str :=
  if "size" ∈ keys then part (media "size") 2 0 else if "bounds" ∈ keys then part (media "bounds") 4 2 else media "width"

/-- The height that the document says: `size` before `bounds` before `height`. -/
def wantHeight (keys : List String) (media : Store) : Str :=
  if "size" ∈ keys then part (media "size") 2 1 else if "bounds" ∈ keys then part (media "bounds") 4 3 else media "height"

/-- The rectangle of a media object that starts, for every document that gives texts (not empty) for the properties it gives: its width and height are what the document
says, in pixels or of the window, and the whole window if it says nothing; its distance from the right edge, if given, is the one given (percentages being of
the window), and else its left edge is the one given, or 0; its upper edge is the one given, or else its distance from the lower edge (percentages being of its own
height), or else 0. -/
theorem C68_rectangle {W H : Int} {keys : List String} {media : Store} {p0 : PProp} {yellow : Color} {s : PSt} (hy : e.color "yellow".toList = some yellow)
    (hk : media.Has keys) (hne : ∀ n ∈ nine, n ∈ keys → media n ≠ []) (h : startMedia e W H keys media p0 = .ok s) :
    s.prop.w = px e (orDef "100%" (wantWidth keys media)) W ∧
    s.prop.h = px e (orDef "100%" (wantHeight keys media)) H ∧
    ("right" ∈ keys → s.prop.x + s.prop.w + px e (media "right") W = W) ∧
    ("right" ∉ keys → s.prop.x = px e (orDef "0" (wantLeft keys media)) W) ∧
    ("top" ∈ keys ∨ "location" ∈ keys ∨ "bounds" ∈ keys ∨ "bottom" ∉ keys → s.prop.y = px e (orDef "0" (wantTop keys media)) H) ∧
    ("bottom" ∈ keys → "top" ∉ keys → "location" ∉ keys → "bounds" ∉ keys → s.prop.y + s.prop.h + px e (media "bottom") s.prop.h = H) := by
  unfold startMedia at h
  rw [C35_init e W H media p0 yellow hy] at h
  simp only [Res.bind_ok] at h
  have hch := loop_chain e _ (rem := nine) (mapKeys_sorted _) (by decide +kernel) rfl (fun _ h => h) (fun _ h _ => h) (fun n hn hnt => by
    have : n ∉ ["height", "left", "top", "width"] ++ startKeys keys := fun hc => hnt (mem_mapKeys.2 hc)
    simp only [List.mem_append, not_or] at this
    exact ⟨this.2, this.1⟩) h
  have hkeys : ∀ n ∈ nine, (n ∈ startKeys keys ↔ n ∈ keys) := by
    intro n hn
    have h1 : n ≠ "uri" := by rintro rfl; revert hn; decide
    have h2 : n ≠ "type" := by rintro rfl; revert hn; decide
    simp [startKeys, h1, h2]
  have hmem : ∀ n ∈ nine, startStore media n = media n := by
    intro n hn
    exact upd_ne _ _ (by rintro rfl; revert hn; decide)
  generalize hs0 : ({ W := W, H := H, media := startStore media, player := fun _ => [], prop := initProp e W H yellow, attached := true } : PSt) = s0 at hch
  have a0 : s0.attached = true := by rw [← hs0]
  have w0 : s0.W = W := by rw [← hs0]
  have h0 : s0.H = H := by rw [← hs0]
  have m0 : ∀ n ∈ nine, s0.media n = media n := by rw [← hs0]; exact hmem
  have g0 : s0.gv = ⟨px e "0".toList W, px e "0".toList H, px e "100%".toList W, px e "100%".toList H, media "left", media "top", media "width", media "height",
      media "right", media "bottom"⟩ := by
    rw [← hs0]
    simp only [PSt.gv, initProp]
    rw [hmem "left" (by decide), hmem "top" (by decide), hmem "width" (by decide), hmem "height" (by decide), hmem "right" (by decide), hmem "bottom" (by decide)]
  clear hs0 h
  -- bottom
  obtain ⟨s1, K1, a1, w1, h1, g1, m1, q1, hch⟩ := hch.step (f := fun g => g.bottom e H g.b) a0 w0 h0 (fun s u ha hW hH hg hm _ hu => by
    subst hH; exact gv_bottom e ha hu)
  have c2 : "bounds" ∈ K1 ↔ "bounds" ∈ keys := by
    simp only [q1, hkeys _ (show "bounds" ∈ nine by decide), addedKeys]
    simp [hkeys _ (show "bottom" ∈ nine by decide), hkeys _ (show "bounds" ∈ nine by decide)]
    try grind
  -- bounds
  obtain ⟨s2, K2, a2, w2, h2, g2, m2, q2, hch⟩ := hch.step (f := fun g => (((g.left e W (part (media "bounds") 4 0)).top e H (part (media "bounds") 4 1)).width e W (part (media "bounds") 4 2)).height e H (part (media "bounds") 4 3))
    a1 w1 h1 (fun s u ha hW hH hg hm hin hu => by
      have hb : s.media "bounds" = media "bounds" := by rw [hm, m1 _ (by decide), m0 _ (by decide)]
      have hin' : "bounds" ∈ keys := c2.1 hin
      subst hW hH
      rw [hb] at hu
      exact gv_bounds e (hne _ (by decide) hin') ha hu)
  have c3 : "height" ∈ K2 ↔ "bounds" ∈ keys ∨ "height" ∈ keys := by
    simp only [q2, q1, hkeys _ (show "height" ∈ nine by decide), hkeys _ (show "bounds" ∈ nine by decide), addedKeys]
    simp [hkeys _ (show "bottom" ∈ nine by decide), hkeys _ (show "bounds" ∈ nine by decide), hkeys _ (show "height" ∈ nine by decide)]
    try grind
  -- height
  obtain ⟨s3, K3, a3, w3, h3, g3, m3, q3, hch⟩ := hch.step (f := fun g => g.height e H g.ht) a2 w2 h2 (fun s u ha hW hH hg hm _ hu => by
    subst hH; exact gv_height e ha hu)
  have c4 : "left" ∈ K3 ↔ "bounds" ∈ keys ∨ "left" ∈ keys := by
    simp only [q3, q2, q1, hkeys _ (show "left" ∈ nine by decide), hkeys _ (show "bounds" ∈ nine by decide), addedKeys]
    simp [hkeys _ (show "bottom" ∈ nine by decide), hkeys _ (show "bounds" ∈ nine by decide), hkeys _ (show "height" ∈ nine by decide), hkeys _ (show "left" ∈ nine by decide)]
    try grind
  -- left
  obtain ⟨s4, K4, a4, w4, h4, g4, m4, q4, hch⟩ := hch.step (f := fun g => g.left e W g.l) a3 w3 h3 (fun s u ha hW hH hg hm _ hu => by
    subst hW; exact gv_left e ha hu)
  have c5 : "location" ∈ K4 ↔ "location" ∈ keys := by
    simp only [q4, q3, q2, q1, hkeys _ (show "location" ∈ nine by decide), addedKeys]
    simp [hkeys _ (show "bottom" ∈ nine by decide), hkeys _ (show "bounds" ∈ nine by decide), hkeys _ (show "height" ∈ nine by decide), hkeys _ (show "left" ∈ nine by decide), hkeys _ (show "location" ∈ nine by decide)]
    try grind
  -- location
  obtain ⟨s5, K5, a5, w5, h5, g5, m5, q5, hch⟩ := hch.step (f := fun g => (g.left e W (part (media "location") 2 0)).top e H (part (media "location") 2 1))
    a4 w4 h4 (fun s u ha hW hH hg hm hin hu => by
      have hb : s.media "location" = media "location" := by rw [hm, m4 _ (by decide), m3 _ (by decide), m2 _ (by decide), m1 _ (by decide), m0 _ (by decide)]
      have hin' : "location" ∈ keys := c5.1 hin
      subst hW hH
      rw [hb] at hu
      exact gv_location e (hne _ (by decide) hin') ha hu)
  have c6 : "right" ∈ K5 ↔ "right" ∈ keys := by
    simp only [q5, q4, q3, q2, q1, hkeys _ (show "right" ∈ nine by decide), addedKeys]
    simp [hkeys _ (show "bottom" ∈ nine by decide), hkeys _ (show "bounds" ∈ nine by decide), hkeys _ (show "height" ∈ nine by decide), hkeys _ (show "left" ∈ nine by decide), hkeys _ (show "location" ∈ nine by decide), hkeys _ (show "right" ∈ nine by decide)]
    try grind
  -- right
  obtain ⟨s6, K6, a6, w6, h6, g6, m6, q6, hch⟩ := hch.step (f := fun g => g.right e W g.r) a5 w5 h5 (fun s u ha hW hH hg hm _ hu => by
    subst hW; exact gv_right e ha hu)
  have c7 : "size" ∈ K6 ↔ "size" ∈ keys := by
    simp only [q6, q5, q4, q3, q2, q1, hkeys _ (show "size" ∈ nine by decide), addedKeys]
    simp [hkeys _ (show "bottom" ∈ nine by decide), hkeys _ (show "bounds" ∈ nine by decide), hkeys _ (show "height" ∈ nine by decide), hkeys _ (show "left" ∈ nine by decide), hkeys _ (show "location" ∈ nine by decide), hkeys _ (show "right" ∈ nine by decide), hkeys _ (show "size" ∈ nine by decide)]
    try grind
  -- size
  obtain ⟨s7, K7, a7, w7, h7, g7, m7, q7, hch⟩ := hch.step (f := fun g => (g.width e W (part (media "size") 2 0)).height e H (part (media "size") 2 1))
    a6 w6 h6 (fun s u ha hW hH hg hm hin hu => by
      have hb : s.media "size" = media "size" := by
        rw [hm, m6 _ (by decide), m5 _ (by decide), m4 _ (by decide), m3 _ (by decide), m2 _ (by decide), m1 _ (by decide), m0 _ (by decide)]
      have hin' : "size" ∈ keys := c7.1 hin
      subst hW hH
      rw [hb] at hu
      exact gv_size e (hne _ (by decide) hin') ha hu)
  have c8 : "top" ∈ K7 ↔ "bounds" ∈ keys ∨ "location" ∈ keys ∨ "top" ∈ keys := by
    simp only [q7, q6, q5, q4, q3, q2, q1, hkeys _ (show "top" ∈ nine by decide), hkeys _ (show "bounds" ∈ nine by decide), hkeys _ (show "location" ∈ nine by decide), addedKeys]
    simp [hkeys _ (show "bottom" ∈ nine by decide), hkeys _ (show "bounds" ∈ nine by decide), hkeys _ (show "height" ∈ nine by decide), hkeys _ (show "left" ∈ nine by decide), hkeys _ (show "location" ∈ nine by decide), hkeys _ (show "right" ∈ nine by decide), hkeys _ (show "size" ∈ nine by decide), hkeys _ (show "top" ∈ nine by decide)]
    try grind
  -- top
  obtain ⟨s8, K8, a8, w8, h8, g8, m8, q8, hch⟩ := hch.step (f := fun g => g.top e H g.t) a7 w7 h7 (fun s u ha hW hH hg hm _ hu => by
    subst hH; exact gv_top e ha hu)
  have c9 : "width" ∈ K8 ↔ "bounds" ∈ keys ∨ "size" ∈ keys ∨ "width" ∈ keys := by
    simp only [q8, q7, q6, q5, q4, q3, q2, q1, hkeys _ (show "width" ∈ nine by decide), hkeys _ (show "bounds" ∈ nine by decide), hkeys _ (show "size" ∈ nine by decide), addedKeys]
    simp [hkeys _ (show "bottom" ∈ nine by decide), hkeys _ (show "bounds" ∈ nine by decide), hkeys _ (show "height" ∈ nine by decide), hkeys _ (show "left" ∈ nine by decide), hkeys _ (show "location" ∈ nine by decide), hkeys _ (show "right" ∈ nine by decide), hkeys _ (show "size" ∈ nine by decide), hkeys _ (show "top" ∈ nine by decide), hkeys _ (show "width" ∈ nine by decide)]
    try grind
  -- width
  obtain ⟨s9, K9, a9, w9, h9, g9, m9, q9, hch⟩ := hch.step (f := fun g => g.width e W g.wd) a8 w8 h8 (fun s u ha hW hH hg hm _ hu => by
    subst hW; exact gv_width e ha hu)
  have hgv : s.gv = s9.gv := hch.2.2.2.2
  have hx : s.prop.x = s9.gv.x := congrArg GV.x hgv
  have hyy : s.prop.y = s9.gv.y := congrArg GV.y hgv
  have hw : s.prop.w = s9.gv.w := congrArg GV.w hgv
  have hh : s.prop.h = s9.gv.h := congrArg GV.h hgv
  clear hch a0 a1 a2 a3 a4 a5 a6 a7 a8 a9 w0 w1 w2 w3 w4 w5 w6 w7 w8 w9 h0 h1 h2 h3 h4 h5 h6 h7 h8 h9 m0 m1 m2 m3 m4 m5 m6 m7 m8 m9 hgv
  have hz : ∀ n ∈ nine, n ∉ keys → media n = [] := fun n _ hn => hk n hn
  clear q1 q2 q3 q4 q5 q6 q7 q8 q9
  simp only [hkeys _ (show "bottom" ∈ nine by decide)] at g1
  simp only [c2] at g2; simp only [c3] at g3; simp only [c4] at g4; simp only [c5] at g5; simp only [c6] at g6; simp only [c7] at g7; simp only [c8] at g8; simp only [c9] at g9
  clear c2 c3 c4 c5 c6 c7 c8 c9
  have hr0 : "right" ∉ keys → media "right" = [] := hz _ (by decide)
  have hb0 : "bottom" ∉ keys → media "bottom" = [] := hz _ (by decide)
  have hl0 : "left" ∉ keys → media "left" = [] := hz _ (by decide)
  have ht0 : "top" ∉ keys → media "top" = [] := hz _ (by decide)
  have hw0 : "width" ∉ keys → media "width" = [] := hz _ (by decide)
  have hh0 : "height" ∉ keys → media "height" = [] := hz _ (by decide)
  have hr1 : "right" ∈ keys → media "right" ≠ [] := hne _ (by decide)
  have hb1 : "bottom" ∈ keys → media "bottom" ≠ [] := hne _ (by decide)
  have r0 : s0.gv.r = media "right" := by rw [g0]
  have r1 : s1.gv.r = media "right" := by rw [g1]; split <;> exact r0
  have r2 : s2.gv.r = media "right" := by rw [g2]; split <;> exact r1
  have r3 : s3.gv.r = media "right" := by rw [g3]; split <;> exact r2
  have r4 : s4.gv.r = media "right" := by rw [g4]; split <;> exact r3
  have r5 : s5.gv.r = media "right" := by rw [g5]; split <;> exact r4
  have r6 : s6.gv.r = media "right" := by rw [g6]; split <;> exact r5
  have r7 : s7.gv.r = media "right" := by rw [g7]; split <;> exact r6
  have r8 : s8.gv.r = media "right" := by rw [g8]; split <;> exact r7
  have b0 : s0.gv.b = media "bottom" := by rw [g0]
  have b1 : s1.gv.b = media "bottom" := by rw [g1]; split <;> exact b0
  have b2 : s2.gv.b = media "bottom" := by rw [g2]; split <;> exact b1
  have b3 : s3.gv.b = media "bottom" := by rw [g3]; split <;> exact b2
  have b4 : s4.gv.b = media "bottom" := by rw [g4]; split <;> exact b3
  have b5 : s5.gv.b = media "bottom" := by rw [g5]; split <;> exact b4
  have b6 : s6.gv.b = media "bottom" := by rw [g6]; split <;> exact b5
  have b7 : s7.gv.b = media "bottom" := by rw [g7]; split <;> exact b6
  have b8 : s8.gv.b = media "bottom" := by rw [g8]; split <;> exact b7
  refine ⟨?_, ?_, ?_, ?_, ?_, ?_⟩
  · rw [hw, g9]
    unfold wantWidth
    by_cases c1 : "size" ∈ keys
    · simp only [c1, or_true, true_or, if_true, GV.width, g8, g7, GV.height, GV.top, apply_ite GV.wd, ite_self]
    · by_cases c2 : "bounds" ∈ keys
      · simp only [c1, c2, or_true, true_or, if_true, if_false, GV.width, g8, g7, g6, g5, g4, g3, g2, GV.height, GV.top, GV.left, GV.right, apply_ite GV.wd, ite_self]
      · by_cases c3 : "width" ∈ keys
        · simp only [c1, c2, c3, or_true, true_or, if_true, if_false, false_or, GV.width, g8, g7, g6, g5, g4, g3, g2, g1, g0, GV.height, GV.top, GV.left, GV.right, GV.bottom, apply_ite GV.wd, ite_self]
        · simp only [c1, c2, c3, or_true, true_or, if_true, if_false, false_or, GV.width, g8, g7, g6, g5, g4, g3, g2, g1, g0, GV.height, GV.top, GV.left, GV.right, GV.bottom, apply_ite GV.w, ite_self]
          rw [hw0 c3]; rfl
  · rw [hh, g9]
    unfold wantHeight
    by_cases c1 : "size" ∈ keys
    · simp only [c1, or_true, true_or, if_true, GV.width, g8, g7, GV.height, GV.top, apply_ite GV.h, ite_self]
    · by_cases c2 : "bounds" ∈ keys
      · simp only [c1, c2, or_true, true_or, if_true, if_false, GV.width, g8, g7, g6, g5, g4, g3, g2, GV.height, GV.top, GV.left, GV.right, apply_ite GV.h, ite_self]
      · by_cases c3 : "height" ∈ keys
        · simp only [c1, c2, c3, or_true, true_or, if_true, if_false, false_or, or_false, GV.width, g8, g7, g6, g5, g4, g3, g2, g1, g0, GV.height, GV.top, GV.left, GV.right, GV.bottom, apply_ite GV.h, apply_ite GV.ht, ite_self]
        · simp only [c1, c2, c3, or_true, true_or, if_true, if_false, false_or, or_false, GV.width, g8, g7, g6, g5, g4, g3, g2, g1, g0, GV.height, GV.top, GV.left, GV.right, GV.bottom, apply_ite GV.h, ite_self]
          rw [hh0 c3]; rfl
  · intro c
    have n0 := hr1 c
    have i6 : s6.gv.x + s6.gv.w + px e (media "right") W = W := by
      rw [g6, if_pos c]
      simp only [GV.right, r5, orDef, if_neg n0]
      omega
    have i7 : s7.gv.x + s7.gv.w + px e (media "right") W = W := by
      rw [g7]
      split
      · simp only [GV.height, GV.width, r6, if_neg n0]; omega
      · exact i6
    have i8 : s8.gv.x + s8.gv.w + px e (media "right") W = W := by
      rw [g8]; split <;> exact i7
    rw [hx, hw, g9]
    split
    · simp only [GV.width, r8, if_neg n0]; omega
    · exact i8
  · intro c
    have n0 := hr0 c
    have e9 : s9.gv.x = s5.gv.x := by
      have e8 : s9.gv.x = s8.gv.x := by
        rw [g9]; split
        · simp only [GV.width, r8, n0, if_true]
        · rfl
      have e7 : s8.gv.x = s7.gv.x := by rw [g8]; split <;> rfl
      have e6 : s7.gv.x = s6.gv.x := by
        rw [g7]; split
        · simp only [GV.height, GV.width, r6, n0, if_true]
        · rfl
      rw [e8, e7, e6, g6, if_neg c]
    rw [hx, e9, g5]
    unfold wantLeft
    by_cases c1 : "location" ∈ keys
    · simp only [c1, if_true, GV.top, GV.left]
    · by_cases c2 : "bounds" ∈ keys
      · simp only [c1, c2, or_true, true_or, if_true, if_false, g4, g3, g2, GV.left, GV.top, GV.height, GV.width]
      · by_cases c3 : "left" ∈ keys
        · simp only [c1, c2, c3, or_true, true_or, if_true, if_false, false_or, g4, g3, g2, g1, g0, GV.left, GV.top, GV.height, GV.bottom, GV.width, apply_ite GV.l, ite_self]
        · simp only [c1, c2, c3, or_true, true_or, if_true, if_false, false_or, or_false, g4, g3, g2, g1, g0, GV.left, GV.top, GV.height, GV.bottom, GV.width, apply_ite GV.x, ite_self]
          rw [hl0 c3]; rfl
  · intro c
    have e9 : s9.gv.y = s8.gv.y := by rw [g9]; split <;> rfl
    rw [hyy, e9, g8]
    have t7 : s7.gv.t = s5.gv.t := by
      have : s7.gv.t = s6.gv.t := by rw [g7]; split <;> rfl
      rw [this, g6]; split <;> rfl
    unfold wantTop
    by_cases c1 : "location" ∈ keys
    · simp only [c1, if_true, true_or, or_true, GV.top, t7, g5]
    · by_cases c2 : "bounds" ∈ keys
      · simp only [c1, c2, or_true, true_or, if_true, if_false, t7, g5, g4, g3, g2, GV.left, GV.top, GV.height, GV.width]
      · by_cases c3 : "top" ∈ keys
        · simp only [c1, c2, c3, or_true, true_or, if_true, if_false, false_or, t7, g5, g4, g3, g2, g1, g0, GV.left, GV.top, GV.height, GV.bottom, GV.width, apply_ite GV.t, ite_self]
        · have c4 : "bottom" ∉ keys := by rcases c with h | h | h | h <;> first | exact h | exact absurd h (by assumption)
          have n0 := hb0 c4
          have e7 : s7.gv.y = s6.gv.y := by
            rw [g7]; split
            · simp only [GV.height, GV.width, b6, n0, if_true]
            · rfl
          have e6 : s6.gv.y = s5.gv.y := by rw [g6]; split <;> rfl
          have e4 : s4.gv.y = s3.gv.y := by rw [g4]; split <;> rfl
          have e3 : s3.gv.y = s2.gv.y := by
            rw [g3]; split
            · simp only [GV.height, b2, n0, if_true]
            · rfl
          simp only [c1, c2, c3, or_self, if_false]
          rw [e7, e6, g5, if_neg c1, e4, e3, g2, if_neg c2, g1, if_neg c4, g0, ht0 c3]; rfl
  · intro c ct cl cb
    have n0 := hb1 c
    have i1 : s1.gv.y + s1.gv.h + px e (media "bottom") s1.gv.h = H := by
      rw [g1, if_pos c]
      simp only [GV.bottom, b0, orDef, if_neg n0]
      omega
    have i2 : s2.gv.y + s2.gv.h + px e (media "bottom") s2.gv.h = H := by rw [g2, if_neg cb]; exact i1
    have i3 : s3.gv.y + s3.gv.h + px e (media "bottom") s3.gv.h = H := by
      rw [g3]; split
      · simp only [GV.height, b2, if_neg n0]; omega
      · exact i2
    have i4 : s4.gv.y + s4.gv.h + px e (media "bottom") s4.gv.h = H := by rw [g4]; split <;> exact i3
    have i5 : s5.gv.y + s5.gv.h + px e (media "bottom") s5.gv.h = H := by rw [g5, if_neg cl]; exact i4
    have i6 : s6.gv.y + s6.gv.h + px e (media "bottom") s6.gv.h = H := by rw [g6]; split <;> exact i5
    have i7 : s7.gv.y + s7.gv.h + px e (media "bottom") s7.gv.h = H := by
      rw [g7]; split
      · have b6' : (s6.gv.width e W (part (media "size") 2 0)).b = media "bottom" := b6
        simp only [GV.height, b6', if_neg n0]; omega
      · exact i6
    have i8 : s8.gv.y + s8.gv.h + px e (media "bottom") s8.gv.h = H := by
      rw [g8, if_neg (by simp [cb, cl, ct])]; exact i7
    have i9 : s9.gv.y + s9.gv.h + px e (media "bottom") s9.gv.h = H := by rw [g9]; split <;> exact i8
    rw [hyy, hh]; exact i9

/-! ## Examples, and what is false -/

/-- The properties of a media object from a list. -/
def storeOf (l : List (String × String)) : Store := fun k => ((l.find? (·.1 == k)).map (·.2.toList)).getD []

def keysOfList (l : List (String × String)) : List String := l.map (·.1)

/-- The rectangle with which a media object starts in a window of 100 by 200. -/
def startsAt (l : List (String × String)) : Option (Int × Int × Int × Int) :=
  geoOf (startMedia penv0 100 200 (keysOfList l) (storeOf l) (initProp penv0 0 0 (0, 0, 0, 0)))

theorem storeOf_has (l : List (String × String)) : (storeOf l).Has (keysOfList l) := by
  intro k hk
  unfold storeOf
  rw [List.find?_eq_none.2]
  · rfl
  · intro p hp he
    exact hk (List.mem_map.2 ⟨p, hp, by simpa using he⟩)

/-- A media object as in the claim. -/
def media1 : List (String × String) :=
  [("uri", "a.png"), ("width", "50%"), ("height", "10"), ("right", "10%"), ("bottom", "20"), ("zIndex", "3"), ("transparency", "50%"), ("explicitDur", "5s"), ("visible", "false")]

example : startsAt media1 = some (40, 170, 50, 10) := by decide +kernel
example : ∀ n ∈ nine, n ∈ keysOfList media1 → storeOf media1 n ≠ [] := by decide +kernel
example : startsAt [("bounds", "10%,20%,30%,40%")] = some (10, 40, 30, 80) := by decide +kernel
example : startsAt [("bounds", "10%,20%,30%,40%"), ("location", "7,8"), ("size", "9,50%")] = some (7, 8, 9, 100) := by decide +kernel

/-- The values of the same object. -/
def valuesOf (r : Res PSt) : Option (Int × Nat × Nat × Bool × Str) :=
  match r with | .ok s => some (s.prop.z, s.prop.alpha, s.prop.duration, s.prop.visible, s.prop.type) | _ => none

example : valuesOf (startMedia penv0 100 200 (keysOfList media1) (storeOf media1) (initProp penv0 0 0 (0, 0, 0, 0))) =
    some (3, 127, 5 * SECOND, false, "image/png".toList) := by decide +kernel

/-- The property is false: with `left` and `right` (and no width, or any) the left edge is not at `left`, and the object does not fit between the two distances; whereas with
`top` and `bottom` the upper edge is at `top`. -/
theorem C68_fails_right : startsAt [("left", "10"), ("right", "20")] = some (-20, 0, 100, 200) ∧ startsAt [("left", "10"), ("right", "20"), ("width", "30")] = some (50, 0, 30, 200) ∧
    startsAt [("top", "10"), ("bottom", "20"), ("height", "30")] = some (0, 10, 100, 30) := by decide +kernel

/-- The property is false: what `left` says is ignored when `bounds` is given too, although the compound and the single property are both given by the document and `left`
comes later in it. -/
theorem C68_fails_bounds : startsAt [("bounds", "10%,20%,30%,40%"), ("left", "50%")] = some (10, 40, 30, 80) := by decide +kernel

/-- The property is false: an empty distance from the right edge puts the object at the right edge by the width it has before `width` is set, that is, outside of the place
that any reading of the document gives. -/
theorem C68_fails_empty : startsAt [("right", ""), ("width", "30")] = some (0, 0, 30, 200) ∧ startsAt [("right", "0"), ("width", "30")] = some (70, 0, 30, 200) := by decide +kernel

/-- The property is false: a value that is no number, no colour, no truth value or no list of the right length ends the process. -/
theorem C68_fails_text : startsAt [("zIndex", "front")] = none ∧ startsAt [("visible", "yes")] = none ∧ startsAt [("bounds", "1,2,3")] = none := by decide +kernel

/-- The kind of content is not that of the current name of the content: the type that was guessed when the media object was first started stays with it.  Here it was an
image, then its `uri` was set to that of a video, and when it starts again an image player is created for the video. -/
theorem C36_fails_restart (media : Store) (hu : media "uri" = "a.png".toList) (ht : media "type" = []) :
    startStore media "type" = "image/png".toList ∧
    (let media' := upd (startStore media) "uri" "b.mp4".toList
     startStore media' "type" = "image/png".toList ∧ playerKind false media' (media' "uri") (media' "type") = .ok .image ∧ playerKind false media' (media' "uri") [] = .ok .video) := by
  have h1 : startStore media "type" = "image/png".toList := by
    unfold startStore
    rw [upd_same, hu, ht]
    decide +kernel
  refine ⟨h1, ?_⟩
  have h2 : upd (startStore media) "uri" "b.mp4".toList "type" = "image/png".toList := by rw [upd_ne _ _ (by decide), h1]
  have h3 : upd (startStore media) "uri" "b.mp4".toList "uri" = "b.mp4".toList := upd_same ..
  refine ⟨?_, ?_, ?_⟩
  · show upd _ _ _ _ = _
    rw [upd_same, h2, h3]
    decide +kernel
  · show playerKind _ _ _ _ = _
    rw [h2, h3]
    unfold playerKind
    rw [show effectiveMime "b.mp4".toList "image/png".toList = "image/png".toList by decide +kernel]
    dsimp only
    rw [if_neg (by decide +kernel), if_neg (by decide +kernel), if_neg (by decide +kernel), if_pos (by decide +kernel)]
  · show playerKind _ _ _ _ = _
    rw [h3]
    unfold playerKind
    rw [show effectiveMime "b.mp4".toList [] = "video/mp4".toList by decide +kernel]
    dsimp only
    rw [if_neg (by decide +kernel), if_pos (by decide +kernel)]

example : ∃ media : Store, media "uri" = "a.png".toList ∧ media "type" = [] := ⟨storeOf [("uri", "a.png")], by decide +kernel, by decide +kernel⟩

end Ginga
