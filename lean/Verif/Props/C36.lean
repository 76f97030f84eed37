import Verif.Props.C35b
import Verif.Props.C33
import Verif.Props.C29
/-! # C36: kinds of players -/
set_option linter.unusedSimpArgs false
namespace Ginga

/-! ## C36 -/

theorem afterLastDot_spec (p ext : Str) (h : '.' ∉ ext) : afterLastDot (p ++ '.' :: ext) = some ext := by
  unfold afterLastDot
  rw [if_pos (by simp)]
  rw [List.reverse_append, List.reverse_cons, List.append_assoc]
  rw [List.takeWhile_append_of_pos]
  · simp
  · intro c hc
    simp only [bne_iff_ne, ne_eq]
    rintro rfl
    exact h (List.mem_reverse.1 hc)

theorem afterLastDot_none (s : Str) (h : '.' ∉ s) : afterLastDot s = none := by
  unfold afterLastDot; rw [if_neg h]

/-- The mime type that counts: the explicit type if there is one; otherwise the entry of the table for what follows the last
dot of the uri; otherwise a timer. -/
theorem C36_mime (uri type : Str) :
    (type ≠ [] → effectiveMime uri type = type) ∧
    (∀ p ext, type = [] → uri = p ++ '.' :: ext → '.' ∉ ext →
      effectiveMime uri type = match mimeTable.find? (fun q => q.1.toList == ext) with | some q => q.2.toList | none => "application/x-ginga-timer".toList) ∧
    (type = [] → '.' ∉ uri → effectiveMime uri type = "application/x-ginga-timer".toList) := by
  have hne : ∀ q ∈ mimeTable, q.2.toList ≠ [] ∧ q.1.toList ≠ [] := by decide +kernel
  refine ⟨?_, ?_, ?_⟩
  · intro h
    have hr : rawMime uri type = type := by unfold rawMime; rw [if_neg (fun hc => h hc.1)]
    unfold effectiveMime
    rw [hr, if_neg h]
  · intro p ext ht hu hd
    subst ht hu
    have hr : rawMime (p ++ '.' :: ext) [] = (mimeForURI (p ++ '.' :: ext)).getD [] := by
      unfold rawMime; rw [if_pos ⟨rfl, by simp⟩]
    have hf0 : mimeForURI (p ++ '.' :: ext) = if ext = [] then none else mimeIndex ext := by
      unfold mimeForURI; rw [afterLastDot_spec p ext hd]
    rw [hf0] at hr
    unfold effectiveMime
    rw [hr]
    by_cases he : ext = []
    · subst he
      have : mimeTable.find? (fun q => q.1.toList == ([] : Str)) = none := by decide +kernel
      rw [this]; simp
    · rw [if_neg he]
      unfold mimeIndex
      cases hf : mimeTable.find? (fun q => q.1.toList == ext) with
      | none => simp
      | some q =>
        have := (hne q (List.mem_of_find?_eq_some hf)).1
        simp only [Option.map_some, Option.getD_some]
        rw [if_neg this]
  · intro ht hd
    subst ht
    have hr : rawMime uri [] = [] := by
      unfold rawMime mimeForURI
      rw [afterLastDot_none uri hd]
      split <;> rfl
    unfold effectiveMime
    rw [hr, if_pos rfl]

/-- A media object is meant for a remote player: it names a device, or has, by its type or, if it has none, its extension, the type of 360-degree content. -/
def Remote (media : Store) : Prop :=
  media "device" ≠ [] ∨ media "type" = "application/x-ncl360".toList ∨ (media "type" = [] ∧ mimeForURI (media "uri") = some "application/x-ncl360".toList)

theorem remote_iff {media : Store} : Remote media ↔ usesRemote media = true := by
  unfold Remote usesRemote
  simp only [Bool.or_eq_true, beq_iff_eq, bne_iff_ne, ne_eq]
  by_cases h : media "type" = []
  · rw [if_pos h, h]
    cases mimeForURI (media "uri") with
    | none => simp
    | some m => simp [or_comm]
  · rw [if_neg h]
    simp [h, or_comm]

/-- Which player is created, by mime type. -/
theorem C36_kinds (cef : Bool) (media : Store) (uri type : Str) :
    let mime := effectiveMime uri type
    (mime = "application/x-ginga-ncl".toList → playerKind cef media uri type = .abort) ∧
    ((∃ t, mime = "audio".toList ++ t) ∨ (∃ t, mime = "video".toList ++ t) → playerKind cef media uri type = .ok .video) ∧
    ((∃ t, mime = "image".toList ++ t) → playerKind cef media uri type = .ok .image) ∧
    (mime = "application/x-ginga-siggen".toList → playerKind cef media uri type = .ok .sigGen) ∧
    (mime = "text/plain".toList → playerKind cef media uri type = .ok .text) ∧
    (mime = "application/x-ginga-NCLua".toList → ¬ Remote media → playerKind cef media uri type = .ok .lua) ∧
    (mime = "application/x-ginga-timer".toList → ¬ Remote media → playerKind cef media uri type = .ok .plain) ∧
    ((∃ t, mime = "text/html".toList ++ t) → ¬ Remote media → cef = true → playerKind cef media uri type = .ok .html) ∧
    (mime ≠ "application/x-ginga-ncl".toList → ¬ (∃ t, mime = "audio".toList ++ t) → ¬ (∃ t, mime = "video".toList ++ t) → ¬ (∃ t, mime = "image".toList ++ t) →
      mime ≠ "application/x-ginga-siggen".toList → mime ≠ "text/plain".toList → (playerKind cef media uri type = .ok .remote ↔ Remote media)) := by
  have pre : ∀ (a b t : Str), hasPrefix (a ++ t) b = b.isPrefixOf (a ++ t) := fun _ _ _ => rfl
  intro mime
  have hm : effectiveMime uri type = mime := rfl
  clear_value mime
  refine ⟨?_, ?_, ?_, ?_, ?_, ?_, ?_, ?_, ?_⟩
  · intro h; simp [playerKind, hm, h]
  · intro h
    have h1 : mime ≠ "application/x-ginga-ncl".toList := by
      rcases h with ⟨t, h⟩ | ⟨t, h⟩ <;> (rw [h]; simp)
    have h2 : (hasPrefix mime "audio".toList || hasPrefix mime "video".toList) = true := by
      rcases h with ⟨t, h⟩ | ⟨t, h⟩ <;> (rw [h]; simp [hasPrefix, List.isPrefixOf])
    unfold playerKind
    rw [hm]; dsimp only
    rw [if_neg h1, if_pos h2]
  · rintro ⟨t, h⟩
    subst h
    unfold playerKind
    rw [hm]; dsimp only
    rw [if_neg (by simp), if_neg (by simp [hasPrefix, List.isPrefixOf]), if_neg (by simp), if_pos (by simp [hasPrefix, List.isPrefixOf])]
  · intro h; subst h; unfold playerKind; rw [hm]; dsimp only; rw [if_neg (by decide +kernel), if_neg (by decide +kernel), if_pos rfl]
  · intro h; subst h; unfold playerKind; rw [hm]; dsimp only; rw [if_neg (by decide +kernel), if_neg (by decide +kernel), if_neg (by decide +kernel), if_neg (by decide +kernel), if_pos rfl]
  · intro h hr; rw [remote_iff, Bool.not_eq_true] at hr; subst h; unfold playerKind; rw [hm, hr]
    dsimp only
    rw [if_neg (by decide +kernel), if_neg (by decide +kernel), if_neg (by decide +kernel), if_neg (by decide +kernel), if_neg (by decide +kernel), if_neg (by decide), if_neg (by cases cef <;> decide +kernel), if_neg (by decide +kernel), if_pos rfl]
  · intro h hr; rw [remote_iff, Bool.not_eq_true] at hr; subst h; unfold playerKind; rw [hm, hr]
    dsimp only
    rw [if_neg (by decide +kernel), if_neg (by decide +kernel), if_neg (by decide +kernel), if_neg (by decide +kernel), if_neg (by decide +kernel),
      if_neg (by decide), if_neg (by cases cef <;> decide +kernel), if_neg (by decide +kernel), if_neg (by decide +kernel), if_neg (by simp)]
  · rintro ⟨t, h⟩ hr hc
    rw [remote_iff, Bool.not_eq_true] at hr
    subst h hc
    unfold playerKind
    rw [hm, hr]; dsimp only
    rw [if_neg (by simp), if_neg (by simp [hasPrefix, List.isPrefixOf]), if_neg (by simp), if_neg (by simp [hasPrefix, List.isPrefixOf]),
      if_neg ?_, if_neg (by simp), if_pos (by simp [hasPrefix, List.isPrefixOf])]
    simp
  · intro h1 h2 h3 h4 h5 h6
    have pf : ∀ (p : Str), ¬ (∃ t, mime = p ++ t) → hasPrefix mime p = false := by
      intro p hp
      cases hb : hasPrefix mime p with
      | false => rfl
      | true =>
        obtain ⟨t, ht⟩ := List.isPrefixOf_iff_prefix.1 hb
        exact absurd ⟨t, ht.symm⟩ hp
    rw [remote_iff]
    unfold playerKind
    rw [hm]; dsimp only
    rw [if_neg h1, pf _ h2, pf _ h3, if_neg (by decide), if_neg h5, pf _ h4, if_neg (by decide), if_neg h6]
    constructor
    · intro h
      split at h
      · assumption
      · repeat' split at h
        all_goals cases h
    · intro h
      rw [if_pos h]

/-- What `playerKind` answers when it answers. -/
private def kindOf (cef : Bool) (mime : Str) (remote : Bool) : PlayerKind :=
  if hasPrefix mime "audio".toList || hasPrefix mime "video".toList then .video
  else if mime = "application/x-ginga-siggen".toList then .sigGen
  else if hasPrefix mime "image".toList then .image
  else if mime = "text/plain".toList then .text
  else if remote then .remote
  else if cef && hasPrefix mime "text/html".toList then .html
  else if hasPrefix mime "image/svg".toList then .svg
  else if mime = "application/x-ginga-NCLua".toList then .lua
  else .plain

private theorem playerKind_kindOf (cef : Bool) (m : Store) (uri type : Str) (k : PlayerKind)
    (h : playerKind cef m uri type = .ok k) : k = kindOf cef (effectiveMime uri type) (usesRemote m) := by
  unfold playerKind at h
  unfold kindOf
  generalize effectiveMime uri type = mime at *
  dsimp only at h
  by_cases h0 : mime = "application/x-ginga-ncl".toList
  · rw [if_pos h0] at h; cases h
  rw [if_neg h0] at h
  by_cases h1 : (hasPrefix mime "audio".toList || hasPrefix mime "video".toList) = true
  · rw [if_pos h1] at h ⊢; cases h; rfl
  rw [if_neg h1] at h ⊢
  by_cases h2 : mime = "application/x-ginga-siggen".toList
  · rw [if_pos h2] at h ⊢; cases h; rfl
  rw [if_neg h2] at h ⊢
  by_cases h3 : hasPrefix mime "image".toList = true
  · rw [if_pos h3] at h ⊢; cases h; rfl
  rw [if_neg h3] at h ⊢
  by_cases h4 : mime = "text/plain".toList
  · rw [if_pos h4] at h ⊢; cases h; rfl
  rw [if_neg h4] at h ⊢
  by_cases h5 : usesRemote m = true
  · rw [if_pos h5] at h ⊢; cases h; rfl
  rw [if_neg h5] at h ⊢
  by_cases h6 : (cef && hasPrefix mime "text/html".toList) = true
  · rw [if_pos h6] at h ⊢; cases h; rfl
  rw [if_neg h6] at h ⊢
  by_cases h7 : hasPrefix mime "image/svg".toList = true
  · rw [if_pos h7] at h ⊢; cases h; rfl
  rw [if_neg h7] at h ⊢
  by_cases h8 : mime = "application/x-ginga-NCLua".toList
  · rw [if_pos h8] at h ⊢; cases h; rfl
  rw [if_neg h8] at h ⊢
  split at h <;> cases h
  rfl

/-- Nothing else counts: two requests with the same mime type, for media objects that agree on remoteness, that both yield a
player yield the same kind. -/
theorem C36_determined (cef : Bool) (m m' : Store) (uri type uri' type' : Str) (k k' : PlayerKind)
    (he : effectiveMime uri type = effectiveMime uri' type') (hr : Remote m ↔ Remote m')
    (h : playerKind cef m uri type = .ok k) (h' : playerKind cef m' uri' type' = .ok k') : k = k' := by
  rw [remote_iff, remote_iff, ← Bool.eq_iff_iff] at hr
  rw [playerKind_kindOf _ _ _ _ _ h, playerKind_kindOf _ _ _ _ _ h', he, hr]

/-- SVG content is not shown by the SVG player: no request ever creates one, because `image/svg+xml` is taken for an image
first. -/
theorem C36_fails_svg (cef : Bool) (media : Store) (uri type : Str) : playerKind cef media uri type ≠ .ok .svg := by
  unfold playerKind
  generalize effectiveMime uri type = mime
  dsimp only
  repeat' split
  all_goals first
    | simp
    | skip
  next h1 _ _ _ h2 =>
    exfalso
    apply h1
    unfold hasPrefix at *
    rw [List.isPrefixOf_iff_prefix] at *
    obtain ⟨t, ht⟩ := h2
    refine ⟨"/svg".toList ++ t, ?_⟩
    rw [← ht, ← List.append_assoc]
    congr 1

example : playerKind false (fun _ => []) "a/b.c/pic.png".toList [] = .ok .image := by decide +kernel
example : playerKind false (fun _ => []) "pic.svg".toList [] = .ok .image := by decide +kernel

end Ginga
