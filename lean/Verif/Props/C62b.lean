import Verif.Model.Show
import Verif.Props.C62
import Verif.Props.C29
import Verif.Props.C67
/-!
# C62: what a player reads of the text of a transition

The parser turns a transition element into a text (`C62_shown_partial`); here this text is read again by the player that has to show the transition.
-/
namespace Ginga

/-- The names and values of a transition, with their defaults. -/
def transTable (a : String → Option String) (type : String) : List (Str × Str) :=
  [("type".toList, type.toList), ("subtype".toList, ((a "subtype").getD "").toList), ("dur".toList, ((a "dur").getD "0").toList),
   ("startProgress".toList, ((a "startProgress").getD "0").toList), ("endProgress".toList, ((a "endProgress").getD "0").toList),
   ("direction".toList, ((a "direction").getD "forward").toList), ("fadeColor".toList, ((a "fadeColor").getD "").toList),
   ("horzRepeat".toList, ((a "horzRepeat").getD "0").toList), ("vertRepeat".toList, ((a "vertRepeat").getD "0").toList),
   ("borderWidth".toList, ((a "borderWidth").getD "0").toList), ("borderColor".toList, ((a "borderColor").getD "").toList)]

theorem transWant_table (a : String → Option String) (type : String) : (transWant a type).toList = tableStr (transTable a type) := by
  unfold transWant transTable tableStr
  simp only [String.toList_append, List.map_cons, List.map_nil, joined, entryStr]
  simp

/-- A value without the separators of the text of a transition. -/
def Simple (v : String) : Prop := ',' ∉ v.toList ∧ '=' ∉ v.toList

theorem transTable_writable {a : String → Option String} {type : String} (ht : Simple type) (ha : ∀ n ∈ transNames, ∀ v, a n = some v → Simple v) :
    ∀ p ∈ transTable a type, Writable p := by
  have hk : ∀ k ∈ "type" :: transNames, k.toList ≠ [] ∧ (',' ∉ k.toList ∧ '=' ∉ k.toList) ∧ (∀ c, k.toList.head? = some c → blank c = false) ∧
      (∀ c, k.toList.getLast? = some c → blank c = false) := by decide +kernel
  have hv : ∀ n ∈ transNames, ∀ dflt : String, Simple dflt → Simple ((a n).getD dflt) := by
    intro n hn dflt hd
    cases h : a n with
    | none => exact hd
    | some v => exact ha n hn v h
  have hd : Simple "" ∧ Simple "0" ∧ Simple "forward" := by unfold Simple; decide +kernel
  have mk : ∀ k ∈ "type" :: transNames, ∀ v : String, Simple v → Writable (k.toList, v.toList) := by
    intro k hk' v hv
    obtain ⟨h1, h2, h3, h4⟩ := hk k hk'
    exact ⟨h1, h2, hv, h3, h4⟩
  intro p hp
  simp only [transTable, List.mem_cons, List.not_mem_nil, or_false] at hp
  rcases hp with rfl | rfl | rfl | rfl | rfl | rfl | rfl | rfl | rfl | rfl | rfl
  · exact mk _ (by simp) _ ht
  all_goals exact mk _ (by decide) _ (hv _ (by decide) _ (by first | exact hd.1 | exact hd.2.1 | exact hd.2.2))

/-- **C62** (the player): the transition that a player reads from the text made from a transition element has the type and subtype of the element, and lasts as long as its `dur` says (no time
without one); the player accepts it exactly if its numbers and colours can be read.  Values that contain a comma or an equals sign are excluded. -/
theorem C62_read {F : FP} {color : Str → Option Color} {a : String → Option String} {type : String} (ht : Simple type) (ha : ∀ n ∈ transNames, ∀ v, a n = some v → Simple v) (i : TransInfo) :
    readTransition F color (transWant a type).toList = .ok i ↔
      i.type = type ∧ i.subtype = (a "subtype").getD "" ∧ parseTimeA F ((a "dur").getD "0").toList = .ok i.dur ∧
      (∀ n ∈ ["startProgress", "endProgress"], ∃ r, stod ((a n).getD "0").toList = .ok r) ∧
      (∀ n ∈ ["fadeColor", "borderColor"], colorOf color ((a n).getD "").toList ≠ none) ∧
      (∀ n ∈ ["horzRepeat", "vertRepeat", "borderWidth"], ∃ r, xstrtou (2 ^ 32 - 1) ((a n).getD "0").toList = .ok r) := by
  unfold readTransition
  rw [transWant_table, C31_roundtrip _ (transTable_writable ht ha)]
  have g1 : (tableGet (transTable a type) "type".toList).getD [] = type.toList := by simp [tableGet, transTable]
  have g2 : (tableGet (transTable a type) "subtype".toList).getD [] = ((a "subtype").getD "").toList := by simp [tableGet, transTable]
  have g3 : (tableGet (transTable a type) "dur".toList).getD [] = ((a "dur").getD "0").toList := by simp [tableGet, transTable]
  have g4 : (tableGet (transTable a type) "startProgress".toList).getD [] = ((a "startProgress").getD "0").toList := by simp [tableGet, transTable]
  have g5 : (tableGet (transTable a type) "endProgress".toList).getD [] = ((a "endProgress").getD "0").toList := by simp [tableGet, transTable]
  have g6 : (tableGet (transTable a type) "fadeColor".toList).getD [] = ((a "fadeColor").getD "").toList := by simp [tableGet, transTable]
  have g7 : (tableGet (transTable a type) "horzRepeat".toList).getD [] = ((a "horzRepeat").getD "0").toList := by simp [tableGet, transTable]
  have g8 : (tableGet (transTable a type) "vertRepeat".toList).getD [] = ((a "vertRepeat").getD "0").toList := by simp [tableGet, transTable]
  have g9 : (tableGet (transTable a type) "borderWidth".toList).getD [] = ((a "borderWidth").getD "0").toList := by simp [tableGet, transTable]
  have g10 : (tableGet (transTable a type) "borderColor".toList).getD [] = ((a "borderColor").getD "").toList := by simp [tableGet, transTable]
  rw [Res.bind_ok]
  dsimp only
  simp only [g1, g2, g3, g4, g5, g6, g7, g8, g9, g10]
  simp only [List.mem_cons, List.not_mem_nil, or_false, forall_eq_or_imp, forall_eq]
  constructor
  · intro h
    obtain ⟨dur, h1, h⟩ := Res.bind_eq_ok h
    obtain ⟨r1, h2, h⟩ := Res.bind_eq_ok h
    obtain ⟨r2, h3, h⟩ := Res.bind_eq_ok h
    by_cases h4 : colorOf color ((a "fadeColor").getD "").toList = none
    · rw [if_pos h4] at h; cases h
    rw [if_neg h4] at h
    obtain ⟨r3, h5, h⟩ := Res.bind_eq_ok h
    obtain ⟨r4, h6, h⟩ := Res.bind_eq_ok h
    obtain ⟨r5, h7, h⟩ := Res.bind_eq_ok h
    by_cases h8 : colorOf color ((a "borderColor").getD "").toList = none
    · rw [if_pos h8] at h; cases h
    rw [if_neg h8] at h
    cases h
    simp only [String.ofList_toList]
    exact ⟨trivial, trivial, h1, ⟨⟨r1, h2⟩, r2, h3⟩, ⟨h4, h8⟩, ⟨r3, h5⟩, ⟨r4, h6⟩, r5, h7⟩
  · rintro ⟨h1, h2, h3, ⟨⟨r1, h4⟩, r2, h5⟩, ⟨h6, h7⟩, ⟨r3, h8⟩, ⟨r4, h9⟩, r5, h10⟩
    rw [h3, Res.bind_ok, h4, Res.bind_ok, h5, Res.bind_ok, if_neg h6, h8, Res.bind_ok, h9, Res.bind_ok, h10, Res.bind_ok, if_neg h7]
    obtain ⟨t, u, v⟩ := i
    dsimp only at h1 h2
    rw [String.ofList_toList, String.ofList_toList, ← h1, ← h2]

/-- The hypotheses are met by a wipe of two seconds, and it is read. -/
example : Simple "barWipe" ∧ Simple "2s" ∧ (match readTransition exactFP (fun _ => none) (transWant (fun n => if n = "dur" then some "2s" else none) "barWipe").toList with
    | .ok i => i.type == "barWipe" && i.subtype == "" && i.dur == 2 * SECOND
    | _ => false) = true := ⟨by unfold Simple; decide +kernel, by unfold Simple; decide +kernel, by decide +kernel⟩

end Ginga
