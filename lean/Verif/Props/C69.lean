import Verif.Model.Draw
import Verif.Props.C26
import Verif.Props.C37
/-!
# C69: what is on the screen
-/
set_option linter.unusedSimpArgs false
namespace Ginga

variable {σ κ : Type}

/-! ## What is claimed -/

/-- A media object is there to be seen: its property `visible` says so and its rectangle is not empty. -/
abbrev Pl.InSight (p : Pl σ) : Prop := p.st.prop.visible = true ∧ 0 < p.st.prop.w ∧ 0 < p.st.prop.h

/-- A media object is focused: it has a focus index and that is the current one. -/
abbrev Pl.HasFocus (p : Pl σ) (focus : Str) : Prop := p.st.prop.focusIndex ≠ [] ∧ p.st.prop.focusIndex = focus

/-- Whether a media object has anything to do with a pixel: it is visible and not empty, and the pixel is in its rectangle, or on its border while it is focused, or erased
by a wipe that is under way. -/
def Pl.touches (K : Cairo σ κ) (focus : Str) (p : Pl σ) (x y : Int) : Bool :=
  decide p.InSight && (p.st.prop.rect.has x y || (decide (p.HasFocus focus) && K.onBorder p.st.prop.rect x y) || K.erases p.crop x y)

/-- The colour of the window where there is nothing. -/
def ground (K : Cairo σ κ) (bg : Color) : κ :=
  if bg.2.2.2 > 0 then K.over (K.solid bg.1 bg.2.1 bg.2.2.1 bg.2.2.2) (K.solid 0 0 0 1) else K.solid 0 0 0 1

/-! ## Proofs -/

theorem shown_inSight (p : Pl σ) : p.st.prop.shown = decide p.InSight := by
  unfold PProp.shown Pl.InSight
  cases p.st.prop.visible <;> simp

theorem focused_hasFocus (p : Pl σ) (focus : Str) : p.st.prop.focused focus = decide (p.HasFocus focus) := by
  unfold PProp.focused Pl.HasFocus
  rw [Bool.eq_iff_iff]
  simp

theorem inSight_shown {p : Pl σ} (h : p.InSight) : p.st.prop.shown = true := by rw [shown_inSight]; exact decide_eq_true h

theorem pictureAt_append (K : Cairo σ κ) (l l' : List (Cmd σ)) (x y : Int) (d : κ) : pictureAt K (l ++ l') x y d = pictureAt K l' x y (pictureAt K l x y d) := by
  unfold pictureAt; rw [List.foldl_append]

theorem pictureAt_nil (K : Cairo σ κ) (x y : Int) (d : κ) : pictureAt K [] x y d = d := rfl

/-- What a media object leaves alone. -/
theorem draws_untouched (K : Cairo σ κ) (focus : Str) (p : Pl σ) (x y : Int) (d : κ) (hs : p.st.prop.shown = true) (h : p.touches K focus x y = false) :
    pictureAt K (p.draws focus) x y d = d := by
  simp only [Pl.touches, ← shown_inSight, ← focused_hasFocus, hs, Bool.true_and, Bool.or_eq_false_iff] at h
  obtain ⟨⟨h1, h2⟩, h3⟩ := h
  unfold Pl.draws
  dsimp only
  rw [pictureAt_append, pictureAt_append, pictureAt_append]
  have e1 : pictureAt K (if p.st.prop.bg.2.2.2 > 0 then [Cmd.fill p.st.prop.rect p.st.prop.bg.1 p.st.prop.bg.2.1 p.st.prop.bg.2.2.1 ((p.st.prop.alpha : Rat) / 255)] else []) x y d = d := by
    split
    · simp [pictureAt, Cmd.at, h1]
    · rfl
  have e2 : pictureAt K (p.surface.toList.map fun s => Cmd.image p.st.prop.rect s ((p.st.prop.alpha : Rat) / 255)) x y d = d := by
    cases p.surface <;> simp [pictureAt, Cmd.at, h1]
  rw [e1, e2]
  have e3 : pictureAt K (if p.st.prop.focused focus = true then [Cmd.border p.st.prop.rect p.st.prop.focusBorderColor.1 p.st.prop.focusBorderColor.2.1
      p.st.prop.focusBorderColor.2.2.1 ((p.st.prop.focusBorderTransparency : Rat) / 255)] else []) x y d = d := by
    split
    · next hf => rw [hf, Bool.true_and] at h2; simp [pictureAt, Cmd.at, h2]
    · rfl
  rw [e3]
  simp [pictureAt, Cmd.at, K.erased_outside _ _ _ _ h3]

/-- Drawing a player keeps its place in the order and what is not animated. -/
theorem redrawPlayer_ok {F : FP} {D : DEnv σ} {focus : Str} {p p' : Pl σ} {l : List (Cmd σ)} (h : redrawPlayer F D focus p = .ok (p', l)) :
    l = (if p'.st.prop.shown then p'.draws focus else []) ∧ p'.st.prop.z = p.st.prop.z ∧ p'.st.prop.zo = p.st.prop.zo := by
  unfold redrawPlayer at h
  obtain ⟨a, -, h⟩ := Res.bind_eq_ok h
  dsimp only at h
  have hz : ((p.withAnim a).st.prop.z = p.st.prop.z) ∧ ((p.withAnim a).st.prop.zo = p.st.prop.zo) := ⟨rfl, rfl⟩
  generalize p.withAnim a = q at h hz
  split at h
  · next hs =>
    obtain ⟨q', hq, h⟩ := Res.bind_eq_ok h
    simp only [Res.ok.injEq, Prod.mk.injEq] at h
    obtain ⟨rfl, rfl⟩ := h
    have key : q'.st.prop.shown = true ∧ q'.st.prop.z = q.st.prop.z ∧ q'.st.prop.zo = q.st.prop.zo := by
      split at hq
      · unfold reload at hq
        dsimp only at hq
        repeat' split at hq
        all_goals first
          | cases hq; done
          | (cases hq; exact ⟨hs, rfl, rfl⟩)
      · cases hq; exact ⟨hs, rfl, rfl⟩
    rw [if_pos key.1]
    exact ⟨rfl, key.2.1.trans hz.1, key.2.2.trans hz.2⟩
  · next hs =>
    cases h
    rw [if_neg hs]
    exact ⟨rfl, hz⟩

/-- The drawings of a list of media objects: each is drawn once, and its drawing is that of its final state. -/
theorem redrawAll_ok {F : FP} {D : DEnv σ} {focus : Str} (l : List Nat) : ∀ {c c' : Cast σ} {cmds : List (Cmd σ)}, l.Nodup → redrawAll F D focus l c = .ok (c', cmds) →
    (∀ m, m ∉ l → c' m = c m) ∧ (∀ m, c'.z m = c.z m) ∧
    cmds = l.flatMap fun m => match c' m with | some p => if p.st.prop.shown then p.draws focus else [] | none => [] := by
  induction l with
  | nil => intro c c' cmds _ h; cases h; exact ⟨fun _ _ => rfl, fun _ => rfl, rfl⟩
  | cons m l ih =>
    intro c c' cmds hn h
    rw [List.nodup_cons] at hn
    unfold redrawAll at h
    cases hm : c m with
    | none =>
      rw [hm] at h
      obtain ⟨h1, h2, h3⟩ := ih hn.2 h
      refine ⟨fun k hk => h1 k (fun h => hk (List.mem_cons_of_mem _ h)), h2, ?_⟩
      rw [List.flatMap_cons, h1 m hn.1, hm]
      exact h3
    | some p =>
      rw [hm] at h
      dsimp only at h
      obtain ⟨r, hr, h⟩ := Res.bind_eq_ok h
      obtain ⟨r', hr', h⟩ := Res.bind_eq_ok h
      cases h
      obtain ⟨p', l'⟩ := r
      obtain ⟨k1, k2, k3⟩ := redrawPlayer_ok hr
      obtain ⟨h1, h2, h3⟩ := ih hn.2 hr'
      have hm' : r'.1 m = some p' := by rw [h1 m hn.1]; exact upd_same ..
      refine ⟨fun k hk => ?_, fun k => ?_, ?_⟩
      · rw [h1 k (fun h => hk (List.mem_cons_of_mem _ h))]
        exact upd_ne _ _ (fun h => hk (h ▸ List.mem_cons_self))
      · rw [h2 k]
        by_cases hk : k = m
        · subst hk
          simp only [Cast.z, hm, upd_same, k2, k3]
        · simp only [Cast.z, upd_ne _ _ hk]
      · rw [List.flatMap_cons, hm', h3, k1]

/-- What is in the list. -/
theorem zlist_perm (z : Nat → Int × Int) (medias : List Nat) : (zlist z medias).Perm medias ∧ (zlist z medias).Pairwise fun a b => zle (z a) (z b) := by
  have h := C26_redraw z (fun _ => true) medias
  unfold painted at h
  have ft : ∀ l : List Nat, l.filter (fun _ => true) = l := fun l => List.filter_eq_self.2 (by simp)
  rw [ft, ft] at h
  exact h

/-- The picture over a list of media objects none of which touches the pixel. -/
theorem picture_untouched (K : Cairo σ κ) (focus : Str) (c : Cast σ) (x y : Int) (l : List Nat) : ∀ d : κ,
    (∀ m ∈ l, ∀ p, c m = some p → p.touches K focus x y = false) →
    pictureAt K (l.flatMap fun m => match c m with | some p => if p.st.prop.shown then p.draws focus else [] | none => []) x y d = d := by
  induction l with
  | nil => intro d _; rfl
  | cons m l ih =>
    intro d h
    rw [List.flatMap_cons, pictureAt_append]
    have e : pictureAt K (match c m with | some p => if p.st.prop.shown then p.draws focus else [] | none => []) x y d = d := by
      cases hm : c m with
      | none => rfl
      | some p =>
        dsimp only
        split
        · next hs => exact draws_untouched K focus p x y d hs (h m List.mem_cons_self p hm)
        · rfl
    rw [e]
    exact ih d fun m' hm' => h m' (List.mem_cons_of_mem _ hm')

theorem ground_at (K : Cairo σ κ) (W H : Int) (bg : Color) (l : List (Cmd σ)) {x y : Int} (hx : 0 ≤ x ∧ x < W) (hy : 0 ≤ y ∧ y < H) (d : κ) :
    pictureAt K ((Cmd.fill ⟨0, 0, W, H⟩ 0 0 0 1 : Cmd σ) :: (if bg.2.2.2 > 0 then [.fill ⟨0, 0, W, H⟩ bg.1 bg.2.1 bg.2.2.1 bg.2.2.2] else []) ++ l) x y d =
    pictureAt K l x y (ground K bg) := by
  rw [pictureAt_append]
  congr 1
  have hr : (Pane.mk 0 0 W H).has x y = true := by simp [Pane.has]; omega
  unfold ground
  split
  · simp [pictureAt, Cmd.at, hr, K.over_opaque _ _ (K.solid_opaque 0 0 0)]
  · simp [pictureAt, Cmd.at, hr, K.over_opaque _ _ (K.solid_opaque 0 0 0)]

/-! ## The property -/

/-- Whatever was on the screen before, a frame shows the background of the window at every pixel that no media object has anything to do with. -/
theorem C69_ground (K : Cairo σ κ) {F : FP} {D : DEnv σ} {W H : Int} {bg : Color} {focus : Str} {medias : List Nat} (hn : medias.Nodup) {c c' : Cast σ} {cmds : List (Cmd σ)}
    (h : redrawFrame F D W H bg focus medias c = .ok (c', cmds)) {x y : Int} (hx : 0 ≤ x ∧ x < W) (hy : 0 ≤ y ∧ y < H)
    (ht : ∀ m ∈ medias, ∀ p, c' m = some p → p.touches K focus x y = false) (d : κ) : pictureAt K cmds x y d = ground K bg := by
  unfold redrawFrame at h
  obtain ⟨r, hr, h⟩ := Res.bind_eq_ok h
  cases h
  obtain ⟨hp, -⟩ := zlist_perm c.z medias
  obtain ⟨-, -, h3⟩ := redrawAll_ok _ (hp.nodup_iff.2 hn) hr
  rw [ground_at K W H bg _ hx hy, h3]
  exact picture_untouched K focus _ x y _ _ fun m hm => ht m (hp.mem_iff.1 hm)

/-- What is above all else at a pixel is what is seen there: the drawing of a media object, over whatever there is below it, if every other media object that has to do with the
pixel has a smaller (zIndex, zOrder). -/
theorem C69_above (K : Cairo σ κ) {F : FP} {D : DEnv σ} {W H : Int} {bg : Color} {focus : Str} {medias : List Nat} (hn : medias.Nodup) {c c' : Cast σ} {cmds : List (Cmd σ)}
    (h : redrawFrame F D W H bg focus medias c = .ok (c', cmds)) {x y : Int} {m : Nat} (hm : m ∈ medias) {p : Pl σ} (hp : c' m = some p) (hs : p.InSight)
    (habove : ∀ m' ∈ medias, m' ≠ m → ∀ p', c' m' = some p' → p'.touches K focus x y = true →
      p'.st.prop.z < p.st.prop.z ∨ p'.st.prop.z = p.st.prop.z ∧ p'.st.prop.zo < p.st.prop.zo) (d : κ) :
    ∃ below, pictureAt K cmds x y d = pictureAt K (p.draws focus) x y below := by
  unfold redrawFrame at h
  obtain ⟨r, hr, h⟩ := Res.bind_eq_ok h
  cases h
  obtain ⟨hperm, hsort⟩ := zlist_perm c.z medias
  have hnd := hperm.nodup_iff.2 hn
  obtain ⟨-, h2, h3⟩ := redrawAll_ok _ hnd hr
  obtain ⟨l1, l2, hl⟩ := List.append_of_mem (hperm.mem_iff.2 hm)
  rw [hl] at h3 hsort hnd
  rw [h3, List.flatMap_append, List.flatMap_cons, hp]
  dsimp only
  rw [if_pos (inSight_shown hs), ← List.append_assoc, ← List.append_assoc, pictureAt_append, pictureAt_append]
  refine ⟨_, picture_untouched K focus _ x y _ _ fun m' hm' p' hp' => ?_⟩
  cases hb : p'.touches K focus x y with
  | false => rfl
  | true =>
    exfalso
    have hne : m' ≠ m := by
      rintro rfl
      rw [List.nodup_append] at hnd
      exact (List.nodup_cons.1 hnd.2.1).1 hm'
    have hmem : m' ∈ medias := hperm.mem_iff.1 (by rw [hl]; simp [hm'])
    have hlt := habove m' hmem hne p' hp' hb
    rw [List.pairwise_append] at hsort
    have hle := (List.pairwise_cons.1 hsort.2.1).1 m' hm'
    rw [← h2, ← h2] at hle
    simp only [Cast.z, hp, hp', zle] at hle
    omega

/-- A media object that is not visible, or whose rectangle is empty, draws nothing at all; one that is visible and not empty draws, in this order, its background (if it has one),
its content, the border (if it is focused) and the part erased by a wipe; and a frame draws nothing else than that of its media objects, after having filled the window. -/
theorem C69_drawn {F : FP} {D : DEnv σ} {W H : Int} {bg : Color} {focus : Str} {medias : List Nat} (hn : medias.Nodup) {c c' : Cast σ} {cmds : List (Cmd σ)}
    (h : redrawFrame F D W H bg focus medias c = .ok (c', cmds)) : ∃ (each : Nat → List (Cmd σ)) (order : List Nat), order.Perm medias ∧
    cmds = (Cmd.fill ⟨0, 0, W, H⟩ 0 0 0 1 : Cmd σ) :: (if bg.2.2.2 > 0 then [.fill ⟨0, 0, W, H⟩ bg.1 bg.2.1 bg.2.2.1 bg.2.2.2] else []) ++ order.flatMap each ∧
    (∀ m, c' m = none → each m = []) ∧
    (∀ m p, c' m = some p → (p.st.prop.visible = false ∨ p.st.prop.w ≤ 0 ∨ p.st.prop.h ≤ 0) → each m = []) ∧
    (∀ m p, c' m = some p → p.InSight → ∃ back front : List (Cmd σ),
      each m = back ++ (p.surface.toList.map fun s => .image ⟨p.st.prop.x, p.st.prop.y, p.st.prop.w, p.st.prop.h⟩ s ((p.st.prop.alpha : Rat) / 255)) ++ front ++ [.erase p.crop] ∧
      (back ≠ [] ↔ 0 < p.st.prop.bg.2.2.2) ∧ (front ≠ [] ↔ p.HasFocus focus)) := by
  unfold redrawFrame at h
  obtain ⟨r, hr, h⟩ := Res.bind_eq_ok h
  cases h
  obtain ⟨hp, -⟩ := zlist_perm c.z medias
  obtain ⟨-, -, h3⟩ := redrawAll_ok _ (hp.nodup_iff.2 hn) hr
  refine ⟨_, _, hp, by rw [h3], fun m hm => by rw [hm], fun m p hm hv => ?_, fun m p hm hv => ?_⟩
  · rw [hm]
    dsimp only
    rw [if_neg]
    rw [shown_inSight]
    intro hs
    have hs := of_decide_eq_true hs
    rcases hv with hv | hv | hv
    · rw [hs.1] at hv; cases hv
    · exact absurd hs.2.1 (by omega)
    · exact absurd hs.2.2 (by omega)
  · rw [hm]
    dsimp only
    rw [if_pos (inSight_shown hv)]
    refine ⟨_, _, rfl, ?_, ?_⟩
    · split <;> simp_all
    · rw [focused_hasFocus]
      by_cases hf : p.HasFocus focus
      · rw [if_pos (decide_eq_true hf)]; exact ⟨fun _ => hf, fun _ => List.cons_ne_nil _ _⟩
      · rw [if_neg (by simpa using hf)]; exact ⟨fun h => absurd rfl h, fun h => absurd h hf⟩

/-- An image (or text) that is opaque, not transparent and above all else is seen as it is, scaled to the rectangle of its media object. -/
theorem C69_image (K : Cairo σ κ) {F : FP} {D : DEnv σ} {W H : Int} {bg : Color} {focus : Str} {medias : List Nat} (hn : medias.Nodup) {c c' : Cast σ} {cmds : List (Cmd σ)}
    (h : redrawFrame F D W H bg focus medias c = .ok (c', cmds)) {x y : Int} {m : Nat} (hm : m ∈ medias) {p : Pl σ} (hp : c' m = some p) (hs : p.InSight)
    (hin : p.st.prop.rect.has x y = true) (hcrop : K.erases p.crop x y = false) (hf : ¬ (p.HasFocus focus ∧ K.onBorder p.st.prop.rect x y = true)) {s : σ} (hsur : p.surface = some s)
    (halpha : p.st.prop.alpha = 255) (hop : K.isOpaque (K.sample s p.st.prop.w p.st.prop.h (x - p.st.prop.x) (y - p.st.prop.y)) = true)
    (habove : ∀ m' ∈ medias, m' ≠ m → ∀ p', c' m' = some p' → p'.touches K focus x y = true →
      p'.st.prop.z < p.st.prop.z ∨ p'.st.prop.z = p.st.prop.z ∧ p'.st.prop.zo < p.st.prop.zo) (d : κ) :
    pictureAt K cmds x y d = K.sample s p.st.prop.w p.st.prop.h (x - p.st.prop.x) (y - p.st.prop.y) := by
  obtain ⟨below, hb⟩ := C69_above K hn h hm hp hs habove d
  rw [hb]
  have h255 : ((255 : Nat) : Rat) / 255 = 1 := by decide +kernel
  unfold Pl.draws
  dsimp only
  rw [hsur, halpha, h255]
  simp only [Option.toList_some, List.map_cons, List.map_nil]
  rw [pictureAt_append, pictureAt_append, pictureAt_append]
  generalize pictureAt K (if p.st.prop.bg.2.2.2 > 0 then _ else _) x y below = b
  have e2 : pictureAt K [Cmd.image p.st.prop.rect s 1] x y b = K.sample s p.st.prop.w p.st.prop.h (x - p.st.prop.x) (y - p.st.prop.y) := by
    simp only [pictureAt, List.foldl_cons, List.foldl_nil, Cmd.at, hin, if_true, K.fade_full]
    exact K.over_opaque _ _ hop
  rw [e2]
  have e3 : ∀ d : κ, pictureAt K (if p.st.prop.focused focus = true then [Cmd.border p.st.prop.rect p.st.prop.focusBorderColor.1 p.st.prop.focusBorderColor.2.1
      p.st.prop.focusBorderColor.2.2.1 ((p.st.prop.focusBorderTransparency : Rat) / 255)] else []) x y d = d := by
    intro d
    split
    · next hff =>
      have hb : K.onBorder p.st.prop.rect x y = false := by
        cases hb : K.onBorder p.st.prop.rect x y with
        | false => rfl
        | true => rw [focused_hasFocus] at hff; exact absurd ⟨of_decide_eq_true hff, hb⟩ hf
      simp [pictureAt, Cmd.at, hb]
    · rfl
  rw [e3]
  simp [pictureAt, Cmd.at, K.erased_outside _ _ _ _ hcrop]

/-- A media object without content but with a background that is above all else is seen as its background. -/
theorem C69_plain (K : Cairo σ κ) {F : FP} {D : DEnv σ} {W H : Int} {bg : Color} {focus : Str} {medias : List Nat} (hn : medias.Nodup) {c c' : Cast σ} {cmds : List (Cmd σ)}
    (h : redrawFrame F D W H bg focus medias c = .ok (c', cmds)) {x y : Int} {m : Nat} (hm : m ∈ medias) {p : Pl σ} (hp : c' m = some p) (hs : p.InSight)
    (hin : p.st.prop.rect.has x y = true) (hcrop : K.erases p.crop x y = false) (hf : ¬ (p.HasFocus focus ∧ K.onBorder p.st.prop.rect x y = true)) (hsur : p.surface = none)
    (halpha : p.st.prop.alpha = 255) (hbg : p.st.prop.bg.2.2.2 > 0)
    (habove : ∀ m' ∈ medias, m' ≠ m → ∀ p', c' m' = some p' → p'.touches K focus x y = true →
      p'.st.prop.z < p.st.prop.z ∨ p'.st.prop.z = p.st.prop.z ∧ p'.st.prop.zo < p.st.prop.zo) (d : κ) :
    pictureAt K cmds x y d = K.solid p.st.prop.bg.1 p.st.prop.bg.2.1 p.st.prop.bg.2.2.1 1 := by
  obtain ⟨below, hb⟩ := C69_above K hn h hm hp hs habove d
  rw [hb]
  have h255 : ((255 : Nat) : Rat) / 255 = 1 := by decide +kernel
  unfold Pl.draws
  dsimp only
  rw [hsur, halpha, h255, if_pos hbg]
  simp only [Option.toList_none, List.map_nil]
  rw [pictureAt_append, pictureAt_append, pictureAt_append]
  have e1 : pictureAt K [(Cmd.fill p.st.prop.rect p.st.prop.bg.1 p.st.prop.bg.2.1 p.st.prop.bg.2.2.1 1 : Cmd σ)] x y below =
      K.solid p.st.prop.bg.1 p.st.prop.bg.2.1 p.st.prop.bg.2.2.1 1 := by
    simp only [pictureAt, List.foldl_cons, List.foldl_nil, Cmd.at, hin, if_true]
    exact K.over_opaque _ _ (K.solid_opaque _ _ _)
  rw [e1]
  have e3 : ∀ d : κ, pictureAt K (if p.st.prop.focused focus = true then [Cmd.border p.st.prop.rect p.st.prop.focusBorderColor.1 p.st.prop.focusBorderColor.2.1
      p.st.prop.focusBorderColor.2.2.1 ((p.st.prop.focusBorderTransparency : Rat) / 255)] else []) x y d = d := by
    intro d
    split
    · next hff =>
      have hb : K.onBorder p.st.prop.rect x y = false := by
        cases hb : K.onBorder p.st.prop.rect x y with
        | false => rfl
        | true => rw [focused_hasFocus] at hff; exact absurd ⟨of_decide_eq_true hff, hb⟩ hf
      simp [pictureAt, Cmd.at, hb]
    · rfl
  simp only [pictureAt_nil]
  rw [e3]
  simp [pictureAt, Cmd.at, K.erased_outside _ _ _ _ hcrop]

/-- The focused media object has its border in the colour for that, if it is above all else there. -/
theorem C69_focus (K : Cairo σ κ) {F : FP} {D : DEnv σ} {W H : Int} {bg : Color} {focus : Str} {medias : List Nat} (hn : medias.Nodup) {c c' : Cast σ} {cmds : List (Cmd σ)}
    (h : redrawFrame F D W H bg focus medias c = .ok (c', cmds)) {x y : Int} {m : Nat} (hm : m ∈ medias) {p : Pl σ} (hp : c' m = some p) (hs : p.InSight)
    (hcrop : K.erases p.crop x y = false) (hfi : p.st.prop.focusIndex = focus) (hne : focus ≠ []) (hb : K.onBorder p.st.prop.rect x y = true) (ht : p.st.prop.focusBorderTransparency = 255)
    (habove : ∀ m' ∈ medias, m' ≠ m → ∀ p', c' m' = some p' → p'.touches K focus x y = true →
      p'.st.prop.z < p.st.prop.z ∨ p'.st.prop.z = p.st.prop.z ∧ p'.st.prop.zo < p.st.prop.zo) (d : κ) :
    pictureAt K cmds x y d = K.solid p.st.prop.focusBorderColor.1 p.st.prop.focusBorderColor.2.1 p.st.prop.focusBorderColor.2.2.1 1 := by
  obtain ⟨below, hbe⟩ := C69_above K hn h hm hp hs habove d
  rw [hbe]
  have h255 : ((255 : Nat) : Rat) / 255 = 1 := by decide +kernel
  have hfo : p.st.prop.focused focus = true := by simp [PProp.focused, hfi, hne]
  unfold Pl.draws
  dsimp only
  rw [ht, h255, if_pos hfo]
  rw [pictureAt_append, pictureAt_append]
  generalize pictureAt K _ x y below = b
  simp only [pictureAt, List.foldl_cons, List.foldl_nil, Cmd.at, hb, if_true, K.erased_outside _ _ _ _ hcrop]
  exact K.over_opaque _ _ (K.solid_opaque _ _ _)

/-- A media object that is fully transparent and not focused is not seen at all. -/
theorem C69_transparent (K : Cairo σ κ) (focus : Str) (p : Pl σ) (hf : ¬ p.HasFocus focus) (halpha : p.st.prop.alpha = 0) {x y : Int} (hcrop : K.erases p.crop x y = false) (d : κ) :
    pictureAt K (p.draws focus) x y d = d := by
  have h0 : ((0 : Nat) : Rat) / 255 = 0 := by decide +kernel
  unfold Pl.draws
  dsimp only
  rw [halpha, h0, pictureAt_append, pictureAt_append, pictureAt_append]
  have e1 : pictureAt K (if p.st.prop.bg.2.2.2 > 0 then [Cmd.fill p.st.prop.rect p.st.prop.bg.1 p.st.prop.bg.2.1 p.st.prop.bg.2.2.1 0] else []) x y d = d := by
    split
    · simp only [pictureAt, List.foldl_cons, List.foldl_nil, Cmd.at, K.solid_clear, K.over_clear, ite_self]
    · rfl
  have e2 : pictureAt K (p.surface.toList.map fun s => Cmd.image p.st.prop.rect s 0) x y d = d := by
    cases p.surface <;> simp [pictureAt, Cmd.at, K.fade_none, K.over_clear]
  rw [e1, e2, if_neg (by rw [focused_hasFocus]; simpa using hf)]
  simp [pictureAt, Cmd.at, K.erased_outside _ _ _ _ hcrop]

/-! ## What is false -/

/-- A background that lets half of what is below through is drawn like one that lets nothing through: only the transparency of the media object counts. -/
theorem C69_fails_background (focus : Str) (p : Pl σ) (a : Rat) (ha : 0 < a) (hb : 0 < p.st.prop.bg.2.2.2) :
    Pl.draws focus { p with st := { p.st with prop := { p.st.prop with bg := (p.st.prop.bg.1, p.st.prop.bg.2.1, p.st.prop.bg.2.2.1, a) } } } = p.draws focus := by
  simp only [Pl.draws, PProp.rect, PProp.focused, gt_iff_lt, ha, hb, if_true]
  rfl

/-- The width of the border of the focused object makes no difference. -/
theorem C69_fails_width (focus : Str) (p : Pl σ) (n : Int) :
    Pl.draws focus { p with st := { p.st with prop := { p.st.prop with focusBorderWidth := n } } } = p.draws focus := rfl

/-- While a media object is being uncovered by a wipe, what is not yet uncovered shows nothing at all, instead of what is below the media object. -/
theorem C69_fails_wipe (K : Cairo σ κ) {F : FP} {D : DEnv σ} {W H : Int} {bg : Color} {focus : Str} {medias : List Nat} (hn : medias.Nodup) {c c' : Cast σ} {cmds : List (Cmd σ)}
    (h : redrawFrame F D W H bg focus medias c = .ok (c', cmds)) {x y : Int} {m : Nat} (hm : m ∈ medias) {p : Pl σ} (hp : c' m = some p) (hs : p.InSight)
    (he : ∀ d, K.erased p.crop x y d = K.clear)
    (habove : ∀ m' ∈ medias, m' ≠ m → ∀ p', c' m' = some p' → p'.touches K focus x y = true →
      p'.st.prop.z < p.st.prop.z ∨ p'.st.prop.z = p.st.prop.z ∧ p'.st.prop.zo < p.st.prop.zo) (d : κ) :
    pictureAt K cmds x y d = K.clear := by
  obtain ⟨below, hb⟩ := C69_above K hn h hm hp hs habove d
  rw [hb]
  unfold Pl.draws
  dsimp only
  rw [pictureAt_append]
  exact he _

/-! ## Examples -/

/-- Exact arithmetic; a surface has one colour; wipes erase rectangles. -/
def cairo0 : Cairo Color Color where
  solid r g b a := (r * a, g * a, b * a, a)
  sample s _ _ _ _ := s
  over s d := (s.1 + (1 - s.2.2.2) * d.1, s.2.1 + (1 - s.2.2.2) * d.2.1, s.2.2.1 + (1 - s.2.2.2) * d.2.2.1, s.2.2.2 + (1 - s.2.2.2) * d.2.2.2)
  fade a s := (a * s.1, a * s.2.1, a * s.2.2.1, a * s.2.2.2)
  isOpaque s := decide (s.2.2.2 = 1)
  clear := (0, 0, 0, 0)
  onBorder r x y := decide ((x = r.x ∨ x = r.x + r.w) ∧ r.y ≤ y ∧ y ≤ r.y + r.h ∨ (y = r.y ∨ y = r.y + r.h) ∧ r.x ≤ x ∧ x ≤ r.x + r.w)
  erases crop x y := match crop with
    | [x0, y0, _, _, x2, y2, _, _] => decide (x0 ≤ x ∧ x ≤ x2 ∧ y0 ≤ y ∧ y ≤ y2)
    | _ => false
  erased crop x y d := match crop with
    | [x0, y0, _, _, x2, y2, _, _] => if x0 ≤ x ∧ x ≤ x2 ∧ y0 ≤ y ∧ y ≤ y2 then (0, 0, 0, 0) else d
    | _ => d
  solid_opaque _ _ _ := by simp
  solid_clear r g b := by simp [Rat.mul_zero]
  over_opaque s d h := by
    have h : s.2.2.2 = 1 := by simpa using h
    simp [h, Rat.sub_self, Rat.zero_mul, Rat.add_zero]
    rw [← h]
  over_clear d := by simp [Rat.one_mul, Rat.zero_add, Rat.sub_eq_add_neg, Rat.neg_zero, Rat.add_zero]
  fade_full s := by simp [Rat.one_mul]
  fade_none s := by simp [Rat.zero_mul]
  erases_nil _ _ := rfl
  erased_outside crop x y d h := by
    split at h
    · rw [if_neg (of_decide_eq_false h)]
    · rfl

/-- An image of one colour, and no other files. -/
def denv0 : DEnv Color := { image := fun u => if u = "blue.png".toList then some (0, 0, 1, 1) else none, svg := fun _ _ _ => none, text := fun _ _ _ _ => none }

def tprop0 : TProp := ⟨(0, 0, 0, 1), (0, 0, 0, 0), "sans".toList, "12".toList, [], [], [], "left".toList, "top".toList⟩

/-- A media object with the given rectangle and order in a window of 100 by 100. -/
def pl0 (kind : PlayerKind) (r : Pane) (z : Int) (bg : Color) (uri : String) (crop : List Int) : Pl Color :=
  { kind := kind, txt := tprop0, infos := [], crop := crop, time := 0, surface := none,
    st := { pst0 with prop := { initProp penv0 100 100 (1, 1, 0, 1) with x := r.x, y := r.y, w := r.w, h := r.h, z := z, bg := bg, uri := uri.toList } } }

/-- An image above which there is a smaller red rectangle, and above which there is an object being uncovered. -/
def cast0 : Cast Color := fun m =>
  if m = 1 then some (pl0 .image ⟨10, 10, 50, 50⟩ 0 (0, 0, 0, 0) "blue.png" [])
  else if m = 2 then some (pl0 .plain ⟨20, 20, 20, 20⟩ 1 (1, 0, 0, 1 / 2) "" [])
  else if m = 3 then some (pl0 .plain ⟨50, 50, 5, 5⟩ 2 (0, 1, 0, 1) "" [50, 50, 55, 50, 55, 55, 50, 55])
  else none

/-- The colour that is seen at a pixel. -/
def seen (c : Cast Color) (x y : Int) : Option Color :=
  match redrawFrame exactFP denv0 100 100 (0, 0, 0, 0) [] [3, 1, 2] c with
  | .ok r => some (pictureAt cairo0 r.2 x y (1, 1, 1, 1))
  | _ => none

/-- The conditions of `C69_image` for the first object at a pixel, computed. -/
def imageTop (x y : Int) : Bool :=
  match redrawFrame exactFP denv0 100 100 (0, 0, 0, 0) [] [3, 1, 2] cast0 with
  | .ok r => (match r.1 1, r.1 2, r.1 3 with
    | some p, some q, some t => decide p.InSight && p.st.prop.rect.has x y && !cairo0.erases p.crop x y && !(decide (p.HasFocus []) && cairo0.onBorder p.st.prop.rect x y) &&
        p.surface == some (0, 0, 1, 1) && p.st.prop.alpha == 255 && !(q.touches cairo0 [] x y) && !(t.touches cairo0 [] x y)
    | _, _, _ => false)
  | _ => false

example : imageTop 15 15 = true := by decide +kernel
example : seen cast0 5 5 = some (0, 0, 0, 1) := by decide +kernel
example : seen cast0 15 15 = some (0, 0, 1, 1) := by decide +kernel

/-- What is seen of the red rectangle that should let half of the blue image through is red; of the image where another object is being uncovered above it nothing is seen. -/
theorem C69_fails_seen : seen cast0 25 25 = some (1, 0, 0, 1) ∧ seen cast0 52 52 = some (0, 0, 0, 0) := by decide +kernel

end Ginga
