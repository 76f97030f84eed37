import Verif.Model.Player
/-! # C35: player properties -/
set_option linter.unusedSimpArgs false
namespace Ginga

/-! ## The recursion of `setProperty` -/

/-- The codes whose setting sets other properties. -/
def PCode.deep : PCode → Nat
  | .bounds | .location | .size => 2
  | .width | .height => 1
  | _ => 0

theorem doSet_flat (e : PEnv) (m m' : String → Str → PSt → Res PSt) (c : PCode) (h : c.deep = 0) (v : Str) (s : PSt) :
    doSetProperty e m c v s = doSetProperty e m' c v s := by
  cases c <;> first | rfl | (simp [PCode.deep] at h)

theorem doSet_mid (e : PEnv) (m m' : String → Str → PSt → Res PSt) (c : PCode) (h : c.deep ≤ 1) (v : Str) (s : PSt)
    (hr : ∀ v s, m "right" v s = m' "right" v s) (hb : ∀ v s, m "bottom" v s = m' "bottom" v s) :
    doSetProperty e m c v s = doSetProperty e m' c v s := by
  cases c <;> first | rfl | (simp [PCode.deep] at h; done) | (simp only [doSetProperty, hr, hb])

theorem doSet_deep (e : PEnv) (m m' : String → Str → PSt → Res PSt) (c : PCode) (v : Str) (s : PSt)
    (h : ∀ n ∈ ["right", "bottom", "left", "top", "width", "height"], ∀ v s, m n v s = m' n v s) :
    doSetProperty e m c v s = doSetProperty e m' c v s := by
  have hf : ∀ n ∈ ["right", "bottom", "left", "top", "width", "height"], m n = m' n := by
    intro n hn; funext v s; exact h n hn v s
  have h1 := hf "left" (by simp); have h2 := hf "top" (by simp); have h3 := hf "width" (by simp)
  have h4 := hf "height" (by simp); have h5 := hf "right" (by simp); have h6 := hf "bottom" (by simp)
  have hs : ∀ (l : List (String × Str)), (∀ p ∈ l, p.1 ∈ ["right", "bottom", "left", "top", "width", "height"]) → ∀ s, setMany m l s = setMany m' l s := by
    intro l
    induction l with
    | nil => intro _ s; rfl
    | cons p l ih =>
      intro hp s
      obtain ⟨n, v⟩ := p
      simp only [setMany]
      rw [hf n (hp (n, v) (by simp))]
      congr 1
      funext s
      exact ih (fun q hq => hp q (by simp [hq])) s
  cases c <;> first
    | rfl
    | (simp only [doSetProperty, h5, h6]; done)
    | (simp only [doSetProperty]
       split
       · rw [hs _ (by simp)]
       · rfl)

theorem propInfo_some {name : String} {c : PCode} {d : Str} (h : propInfo name = some (c, d)) :
    ∃ p ∈ propTable, p.2.1 = c ∧ p.2.2.2.toList = d := by
  unfold propInfo at h
  cases hf : propTable.find? (fun p => p.1 == name) with
  | some p => rw [hf] at h; cases h; exact ⟨p, List.mem_of_find?_eq_some hf, rfl, rfl⟩
  | none =>
    rw [hf] at h
    dsimp only at h
    cases ha : aliasTable.find? (fun p => p.1 == name) with
    | none => rw [ha] at h; cases h
    | some a =>
      rw [ha] at h
      dsimp only at h
      rw [Option.map_eq_some_iff] at h
      obtain ⟨p, hp, he⟩ := h
      cases he
      exact ⟨p, List.mem_of_find?_eq_some hp, rfl, rfl⟩

theorem playerSet1_congr (e : PEnv) (m m' : String → Str → PSt → Res PSt) (name : String) (v : Str) (s : PSt)
    (h : ∀ c d, propInfo name = some (c, d) → ∀ w, doSetProperty e m c w s = doSetProperty e m' c w s) :
    playerSet1 e m name v s = playerSet1 e m' name v s := by
  unfold playerSet1
  cases hp : propInfo name with
  | none => rfl
  | some p =>
    obtain ⟨c, d⟩ := p
    dsimp only
    rw [h c d hp]

theorem mediaSet1_congr {p p' : String → Str → PSt → Res PSt} {name : String} (h : ∀ v s, p name v s = p' name v s) (v : Str) (s : PSt) :
    mediaSet1 p name v s = mediaSet1 p' name v s := by
  unfold mediaSet1
  dsimp only
  rw [h]

theorem playerSet_flat (e : PEnv) (n k : Nat) (name : String) (hc : ∀ c d, propInfo name = some (c, d) → c.deep = 0) (v : Str) (s : PSt) :
    playerSet e (n + 1) name v s = playerSet e (k + 1) name v s :=
  playerSet1_congr e _ _ name v s fun c d h w => doSet_flat e _ _ c (hc c d h) w s

theorem info_right : propInfo "right" = some (.right, "0%".toList) := by decide +kernel
theorem info_bottom : propInfo "bottom" = some (.bottom, "0%".toList) := by decide +kernel
theorem info_left : propInfo "left" = some (.left, "0".toList) := by decide +kernel
theorem info_top : propInfo "top" = some (.top, "0".toList) := by decide +kernel
theorem info_width : propInfo "width" = some (.width, "100%".toList) := by decide +kernel
theorem info_height : propInfo "height" = some (.height, "100%".toList) := by decide +kernel
theorem info_bounds : propInfo "bounds" = some (.bounds, "0%,0%,100%,100%".toList) := by decide +kernel
theorem info_location : propInfo "location" = some (.location, "0,0".toList) := by decide +kernel
theorem info_size : propInfo "size" = some (.size, "100%,100%".toList) := by decide +kernel

theorem playerSet_mid (e : PEnv) (n k : Nat) (name : String) (hc : ∀ c d, propInfo name = some (c, d) → c.deep ≤ 1) (v : Str) (s : PSt) :
    playerSet e (n + 2) name v s = playerSet e (k + 2) name v s :=
  playerSet1_congr e _ _ name v s fun c d h w => doSet_mid e _ _ c (hc c d h) w s
    (fun v s => mediaSet1_congr (fun v s => playerSet_flat e n k "right" (by intro c d h; rw [info_right] at h; cases h; rfl) v s) v s)
    (fun v s => mediaSet1_congr (fun v s => playerSet_flat e n k "bottom" (by intro c d h; rw [info_bottom] at h; cases h; rfl) v s) v s)

/-- Three levels are enough: `setProperty` calls itself at most through a compound property, a size and a distance. -/
theorem playerSet_stable (e : PEnv) (n : Nat) (name : String) (v : Str) (s : PSt) :
    playerSet e (n + 3) name v s = playerSet e 3 name v s := by
  refine playerSet1_congr e _ _ name v s fun c d _ w => doSet_deep e _ _ c w s fun m hm v s => mediaSet1_congr (fun v s => ?_) v s
  have : ∀ c d, propInfo m = some (c, d) → c.deep ≤ 1 := by
    intro c d h
    simp only [List.mem_cons, List.not_mem_nil, or_false] at hm
    rcases hm with rfl | rfl | rfl | rfl | rfl | rfl
    · rw [info_right] at h; cases h; decide
    · rw [info_bottom] at h; cases h; decide
    · rw [info_left] at h; cases h; decide
    · rw [info_top] at h; cases h; decide
    · rw [info_width] at h; cases h; decide
    · rw [info_height] at h; cases h; decide
  exact playerSet_mid e n 0 m this v s

theorem mediaSet_eq (e : PEnv) (n : Nat) (name : String) (v : Str) (s : PSt) : mediaSet1 (playerSet e (n + 3)) name v s = mediaSet e name v s :=
  mediaSet1_congr (fun v s => playerSet_stable e n name v s) v s

/-- `Player::setProperty` in terms of `Media::setProperty`: the recursion unfolded once. -/
theorem playerSet_unfold (e : PEnv) (name : String) (v : Str) (s : PSt) :
    playerSet e 3 name v s = playerSet1 e (mediaSet e) name v s := by
  rw [← playerSet_stable e 1 name v s]
  refine playerSet1_congr e _ _ name v s fun c d _ w => ?_
  refine doSet_deep e _ _ c w s fun m _ v s => ?_
  exact mediaSet_eq e 0 m v s

/-! ## C35 -/

/-- After setting a property, reading it gives the value it was set to. -/
theorem C35_readback (e : PEnv) (name : String) (v : Str) (s s' : PSt) (h : playerSet e 3 name v s = .ok s') : s'.get name = v := by
  rw [playerSet_unfold] at h
  unfold playerSet1 at h
  dsimp only at h
  cases hp : (if name = "transIn" ∨ name = "transOut" then e.trans v else .ok ()) with
  | ok u =>
    rw [hp] at h
    simp only [Res.bind_ok] at h
    cases hi : propInfo name with
    | none => rw [hi] at h; cases h; simp [PSt.get]
    | some p =>
      obtain ⟨c, d⟩ := p
      rw [hi] at h
      dsimp only at h
      cases hd : doSetProperty e (mediaSet e) c (if v = [] then d else v) s with
      | ok r =>
        rw [hd] at h
        simp only [Res.bind_ok] at h
        cases r with
        | none => cases h
        | some s1 => cases h; simp [PSt.get]
      | _ => rw [hd] at h; cases h
  | _ => rw [hp] at h; cases h

/-- The effect of setting a property: everything except what `getProperty` reads. -/
def PSt.effect (s : PSt) : Int × Int × Store × PProp := (s.W, s.H, s.media, s.prop)

theorem playerSet_effect (e : PEnv) (name : String) (hn : name ≠ "transIn" ∧ name ≠ "transOut") (v : Str) (s : PSt) :
    (playerSet e 3 name v s).bind (fun s => .ok s.effect) =
      match propInfo name with
      | none => .ok s.effect
      | some (c, d) => (doSetProperty e (mediaSet e) c (if v = [] then d else v) s).bind fun r =>
          match r with | none => .abort | some s => .ok s.effect := by
  rw [playerSet_unfold]
  unfold playerSet1
  dsimp only
  rw [if_neg (by rintro (h | h); exact hn.1 h; exact hn.2 h)]
  simp only [Res.bind_ok]
  cases propInfo name with
  | none => rfl
  | some p =>
    obtain ⟨c, d⟩ := p
    dsimp only
    cases doSetProperty e (mediaSet e) c (if v = [] then d else v) s with
    | ok r => cases r <;> rfl
    | _ => rfl

/-- Setting a property through an alias has the effect of setting the property itself, for every alias, value and state. -/
theorem C35_alias (e : PEnv) (a c : String) (h : (a, c) ∈ aliasTable) (v : Str) (s : PSt) :
    (playerSet e 3 a v s).bind (fun s => .ok s.effect) = (playerSet e 3 c v s).bind (fun s => .ok s.effect) := by
  have key : ∀ p ∈ aliasTable, propInfo p.1 = propInfo p.2 ∧ (p.1 ≠ "transIn" ∧ p.1 ≠ "transOut") ∧ (p.2 ≠ "transIn" ∧ p.2 ≠ "transOut") := by
    decide +kernel
  obtain ⟨h1, h2, h3⟩ := key _ h
  rw [playerSet_effect e a h2, playerSet_effect e c h3, h1]

/-- Setting the empty string has the effect of setting the default of the table (and reads back as empty, by `C35_readback`). -/
theorem C35_default (e : PEnv) (name : String) (code : PCode) (init : Bool) (defval : String) (h : (name, code, init, defval) ∈ propTable) (s : PSt) :
    (playerSet e 3 name [] s).bind (fun s => .ok s.effect) = (playerSet e 3 name defval.toList s).bind (fun s => .ok s.effect) := by
  have key : ∀ p ∈ propTable, propInfo p.1 = some (p.2.1, p.2.2.2.toList) ∧ p.1 ≠ "transIn" ∧ p.1 ≠ "transOut" := by decide +kernel
  obtain ⟨h1, h2⟩ := key _ h
  dsimp only at h1 h2
  rw [playerSet_effect e name h2, playerSet_effect e name h2, h1]
  dsimp only
  rw [if_pos rfl]
  split
  · next h => rw [h]
  · rfl

/-- The properties of a media object and what each is when it is not given or given as the empty string. -/
def documented : List (String × String) :=
  [("background", ""), ("balance", "0.0"), ("bass", "0"), ("bottom", "0%"), ("bounds", "0%,0%,100%,100%"), ("currentTime", "indefinite"),
   ("debug", "false"), ("duration", "indefinite"), ("focusBorderColor", "yellow"), ("focusBorderTransparency", "0%"), ("focusBorderWidth", "4"), ("focusIndex", ""),
   ("fontBgColor", ""), ("fontColor", "black"), ("fontFamily", "sans"), ("fontSize", "12"), ("fontStyle", ""), ("fontVariant", ""),
   ("fontWeight", ""), ("freeze", "false"), ("freq", "440"), ("height", "100%"), ("horzAlign", "left"), ("left", "0"),
   ("location", "0,0"), ("mute", "false"), ("remotePlayerBaseURL", ""), ("right", "0%"), ("selBorderColor", "yellow"), ("size", "100%,100%"),
   ("speed", "1"), ("time", "indefinite"), ("top", "0"), ("transparency", "0%"), ("treble", "0"), ("type", "application/x-ginga-timer"),
   ("uri", ""), ("vertAlign", "top"), ("visible", "true"), ("volume", "100%"), ("wave", "sine"), ("width", "100%"),
   ("zIndex", "0"), ("zOrder", "0")]

/-- The other names of properties. -/
def otherNames : List (String × String) :=
  [("backgroundColor", "background"), ("balanceLevel", "balance"), ("bassLevel", "bass"), ("explicitDur", "duration"), ("rate", "speed"), ("soundLevel", "volume"),
   ("trebleLevel", "treble")]

/-- The properties that mean the same under two names are the other names of above, and `currentTime`, which is `time`; no two others do. -/
theorem C35_names : (∀ a c, (a, c) ∈ otherNames → ∀ (e : PEnv) (v : Str) (s : PSt),
      (playerSet e 3 a v s).bind (fun s => .ok s.effect) = (playerSet e 3 c v s).bind (fun s => .ok s.effect)) ∧
    (∀ n d, (n, d) ∈ documented → ∀ (e : PEnv) (s : PSt),
      (playerSet e 3 n [] s).bind (fun s => .ok s.effect) = (playerSet e 3 n d.toList s).bind (fun s => .ok s.effect)) ∧
    (∀ n, (propInfo n).isSome ↔ n ∈ documented.map (·.1) ++ otherNames.map (·.1)) ∧
    (∀ a ∈ documented.map (·.1), ∀ b ∈ documented.map (·.1), (propInfo a).map (·.1) = (propInfo b).map (·.1) → a = b ∨ (a = "time" ∧ b = "currentTime") ∨ (a = "currentTime" ∧ b = "time")) := by
  refine ⟨fun a c h e v s => C35_alias e a c ?_ v s, fun n d h e s => ?_, fun n => ?_, by decide +kernel⟩
  · have : ∀ p ∈ otherNames, p ∈ aliasTable := by decide +kernel
    exact this _ h
  · have : ∀ p ∈ documented, ∃ q ∈ propTable, q.1 = p.1 ∧ q.2.2.2 = p.2 := by decide +kernel
    obtain ⟨⟨n', c, i, d'⟩, hq, h1, h2⟩ := this _ h
    dsimp only at h1 h2
    subst h1 h2
    exact C35_default e n' c i d' hq s
  · have e1 : documented.map (·.1) = propTable.map (·.1) := by decide +kernel
    have e2 : ∀ x, x ∈ otherNames.map (·.1) ↔ x ∈ aliasTable.map (·.1) := by
      have a : ∀ x ∈ otherNames.map (·.1), x ∈ aliasTable.map (·.1) := by decide +kernel
      have b : ∀ x ∈ aliasTable.map (·.1), x ∈ otherNames.map (·.1) := by decide +kernel
      exact fun x => ⟨a x, b x⟩
    rw [List.mem_append, e1, e2]
    constructor
    · intro h
      obtain ⟨⟨c, d⟩, hc⟩ := Option.isSome_iff_exists.1 h
      unfold propInfo at hc
      split at hc
      · next p hp =>
        exact .inl (List.mem_map.2 ⟨p, List.mem_of_find?_eq_some hp, by simpa using List.find?_some hp⟩)
      · split at hc
        · cases hc
        · next a ha => exact .inr (List.mem_map.2 ⟨a, List.mem_of_find?_eq_some ha, by simpa using List.find?_some ha⟩)
    · rintro (h | h)
      · have : ∀ x ∈ propTable.map (·.1), (propInfo x).isSome = true := by decide +kernel
        exact this _ h
      · have : ∀ x ∈ aliasTable.map (·.1), (propInfo x).isSome = true := by decide +kernel
        exact this _ h

/-- A property that is neither in the table nor an alias is stored and has no effect. -/
theorem C35_unknown (e : PEnv) (name : String) (h1 : ∀ p ∈ propTable, p.1 ≠ name) (h2 : ∀ p ∈ aliasTable, p.1 ≠ name)
    (hn : name ≠ "transIn" ∧ name ≠ "transOut") (v : Str) (s : PSt) :
    ∃ s', playerSet e 3 name v s = .ok s' ∧ s'.effect = s.effect ∧ s'.get name = v ∧ ∀ m, m ≠ name → s'.get m = s.get m := by
  have hi : propInfo name = none := by
    unfold propInfo
    have a : propTable.find? (fun p => p.1 == name) = none := by rw [List.find?_eq_none]; intro p hp; simpa using h1 p hp
    have b : aliasTable.find? (fun p => p.1 == name) = none := by rw [List.find?_eq_none]; intro p hp; simpa using h2 p hp
    rw [a]; dsimp only; rw [b]
  refine ⟨{ s with player := upd s.player name v }, ?_, rfl, by simp [PSt.get], fun m hm => by simp [PSt.get, upd_ne _ _ hm]⟩
  rw [playerSet_unfold]
  unfold playerSet1
  dsimp only
  rw [if_neg (by rintro (h | h); exact hn.1 h; exact hn.2 h), hi]
  rfl

example : ∃ s' : PSt → PSt, ∀ e s, playerSet e 3 "moveUp" "3".toList s = .ok (s' s) :=
  ⟨fun s => { s with player := upd s.player "moveUp" "3".toList }, fun e s => by
    rw [playerSet_unfold]
    have : propInfo "moveUp" = none := by decide +kernel
    simp [playerSet1, this]⟩

/-! ## Geometry properties, explicitly -/

variable (e : PEnv)

def PSt.store (s : PSt) (name : String) (v : Str) : PSt := { s with player := upd s.player name v }
def PSt.mstore (s : PSt) (name : String) (v : Str) : PSt := { s with media := upd s.media name v }

/-- The default stands for the empty string. -/
def orDef (d : String) (v : Str) : Str := if v = [] then d.toList else v

theorem set_left (v : Str) (s : PSt) (ha : s.attached = true) : mediaSet e "left" v s =
    .ok (({ (s.mstore "left" v) with prop := { s.prop with x := parsePercent e.F (orDef "0" v) s.W 0 INTMAX, dirty := true } } : PSt).store "left" v) := by
  unfold mediaSet mediaSet1
  dsimp only
  rw [if_pos ha, playerSet_unfold]
  simp [playerSet1, info_left, doSetProperty, orDef, PSt.store, PSt.mstore]

theorem set_top (v : Str) (s : PSt) (ha : s.attached = true) : mediaSet e "top" v s =
    .ok (({ (s.mstore "top" v) with prop := { s.prop with y := parsePercent e.F (orDef "0" v) s.H 0 INTMAX, dirty := true } } : PSt).store "top" v) := by
  unfold mediaSet mediaSet1
  dsimp only
  rw [if_pos ha, playerSet_unfold]
  simp [playerSet1, info_top, doSetProperty, orDef, PSt.store, PSt.mstore]

theorem set_right (v : Str) (s : PSt) (ha : s.attached = true) : mediaSet e "right" v s =
    (int32 (s.W - s.prop.w)).bind fun d => (int32 (d - parsePercent e.F (orDef "0%" v) s.W 0 INTMAX)).bind fun x =>
    .ok (({ (s.mstore "right" v) with prop := { s.prop with x := x, dirty := true } } : PSt).store "right" v) := by
  unfold mediaSet mediaSet1
  dsimp only
  rw [if_pos ha, playerSet_unfold]
  simp only [playerSet1, info_right, doSetProperty, show ("right" = "transIn") = False by simp, show ("right" = "transOut") = False by simp, or_self, if_false, Res.bind_ok]
  cases int32 (s.W - s.prop.w) with
  | ok d =>
    simp only [Res.bind_ok, orDef]
    cases int32 (d - parsePercent e.F (if v = [] then "0%".toList else v) s.W 0 INTMAX) <;> rfl
  | _ => rfl

theorem set_bottom (v : Str) (s : PSt) (ha : s.attached = true) : mediaSet e "bottom" v s =
    (int32 (s.H - s.prop.h)).bind fun d => (int32 (d - parsePercent e.F (orDef "0%" v) s.prop.h 0 INTMAX)).bind fun y =>
    .ok (({ (s.mstore "bottom" v) with prop := { s.prop with y := y, dirty := true } } : PSt).store "bottom" v) := by
  unfold mediaSet mediaSet1
  dsimp only
  rw [if_pos ha, playerSet_unfold]
  simp only [playerSet1, info_bottom, doSetProperty, show ("bottom" = "transIn") = False by simp, show ("bottom" = "transOut") = False by simp, or_self, if_false, Res.bind_ok]
  cases int32 (s.H - s.prop.h) with
  | ok d =>
    simp only [Res.bind_ok, orDef]
    cases int32 (d - parsePercent e.F (if v = [] then "0%".toList else v) s.prop.h 0 INTMAX) <;> rfl
  | _ => rfl

/-- The state after the width has been stored and before the distance from the right edge is restored. -/
def PSt.setW (s : PSt) (v : Str) : PSt :=
  { (s.mstore "width" v) with prop := { s.prop with w := parsePercent e.F (orDef "100%" v) s.W 0 INTMAX, dirty := true } }
def PSt.setH (s : PSt) (v : Str) : PSt :=
  { (s.mstore "height" v) with prop := { s.prop with h := parsePercent e.F (orDef "100%" v) s.H 0 INTMAX, dirty := true } }

theorem set_width (v : Str) (s : PSt) (ha : s.attached = true) : mediaSet e "width" v s =
    (if s.media "right" ≠ [] then mediaSet e "right" (s.media "right") (s.setW e v) else .ok (s.setW e v)).bind fun s => .ok (s.store "width" v) := by
  unfold mediaSet mediaSet1
  dsimp only
  rw [if_pos ha, playerSet_unfold]
  simp only [playerSet1, info_width, doSetProperty, show ("width" = "transIn") = False by simp, show ("width" = "transOut") = False by simp, or_self, if_false, Res.bind_ok]
  have hm : upd s.media "width" v "right" = s.media "right" := upd_ne _ _ (by simp)
  rw [hm]
  split
  · have : mediaSet e "right" (s.media "right") (s.setW e v) = mediaSet1 (playerSet e 3) "right" (s.media "right") (s.setW e v) := rfl
    unfold mediaSet1 at this
    dsimp only at this
    unfold PSt.setW PSt.mstore orDef at this ⊢
    rw [← this]
    dsimp only
    cases mediaSet e "right" (s.media "right") _ <;> rfl
  · rfl

theorem set_height (v : Str) (s : PSt) (ha : s.attached = true) : mediaSet e "height" v s =
    (if s.media "bottom" ≠ [] then mediaSet e "bottom" (s.media "bottom") (s.setH e v) else .ok (s.setH e v)).bind fun s => .ok (s.store "height" v) := by
  unfold mediaSet mediaSet1
  dsimp only
  rw [if_pos ha, playerSet_unfold]
  simp only [playerSet1, info_height, doSetProperty, show ("height" = "transIn") = False by simp, show ("height" = "transOut") = False by simp, or_self, if_false, Res.bind_ok]
  have hm : upd s.media "height" v "bottom" = s.media "bottom" := upd_ne _ _ (by simp)
  rw [hm]
  split
  · have : mediaSet e "bottom" (s.media "bottom") (s.setH e v) = mediaSet1 (playerSet e 3) "bottom" (s.media "bottom") (s.setH e v) := rfl
    unfold mediaSet1 at this
    dsimp only at this
    unfold PSt.setH PSt.mstore orDef at this ⊢
    rw [← this]
    dsimp only
    cases mediaSet e "bottom" (s.media "bottom") _ <;> rfl
  · rfl

end Ginga
