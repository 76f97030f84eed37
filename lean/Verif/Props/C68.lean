import Verif.Model.Players
import Verif.Props.C37
/-!
# C68: a media object that starts is shown as its document says
-/
set_option linter.unusedSimpArgs false
namespace Ginga

variable (e : PEnv)

/-! ## The keys -/

theorem mem_kinsert {a k : String} {l : List String} : k ∈ kinsert a l ↔ k = a ∨ k ∈ l := by
  induction l with
  | nil => simp [kinsert]
  | cons b t ih =>
    unfold kinsert
    split
    · next h => subst h; simp
    · split
      · simp
      · simp only [List.mem_cons, ih]
        constructor
        · rintro (h | h | h) <;> simp [h]
        · rintro (h | h | h) <;> simp [h]

theorem mem_mapKeys {k : String} {l : List String} : k ∈ mapKeys l ↔ k ∈ l := by
  induction l with
  | nil => simp [mapKeys]
  | cons b t ih => show k ∈ kinsert b (mapKeys t) ↔ _; rw [mem_kinsert, ih]; simp

theorem kinsert_sorted {a : String} {l : List String} (h : l.Pairwise (· < ·)) : (kinsert a l).Pairwise (· < ·) := by
  induction l with
  | nil => simp [kinsert]
  | cons b t ih =>
    rw [List.pairwise_cons] at h
    unfold kinsert
    split
    · exact List.pairwise_cons.2 h
    · next hne =>
      split
      · next hlt =>
        refine List.pairwise_cons.2 ⟨fun x hx => ?_, List.pairwise_cons.2 h⟩
        rcases List.mem_cons.1 hx with rfl | hx
        · exact hlt
        · exact String.lt_trans hlt (h.1 x hx)
      · next hlt =>
        refine List.pairwise_cons.2 ⟨fun x hx => ?_, ih h.2⟩
        rcases mem_kinsert.1 hx with rfl | hx
        · exact Decidable.byContradiction fun hn => hne (String.le_antisymm (String.not_lt.1 hn) (String.not_lt.1 hlt))
        · exact h.1 x hx

theorem mapKeys_sorted (l : List String) : (mapKeys l).Pairwise (· < ·) := by
  induction l with
  | nil => exact .nil
  | cons b t ih => exact kinsert_sorted ih

/-! ## Properties that are values of the player -/

/-- A value of the player. -/
inductive Slot
  | flag (b : Bool)
  | int (n : Int)
  | nat (n : Nat)
  | color (c : Color)
  | text (s : Str)
  | none
  deriving DecidableEq

/-- The values of the player that a property of the document sets directly, by property. -/
def PProp.slot (p : PProp) : PCode → Slot
  | .debug => .flag p.debug
  | .focusIndex => .text p.focusIndex
  | .focusBorderColor => .color p.focusBorderColor
  | .focusBorderWidth => .int p.focusBorderWidth
  | .focusBorderTransparency => .nat p.focusBorderTransparency
  | .selBorderColor => .color p.selBorderColor
  | .zIndex => .int p.z
  | .zOrder => .int p.zo
  | .transparency => .nat p.alpha
  | .background => .color p.bg
  | .visible => .flag p.visible
  | .duration => .nat p.duration
  | .uri => .text p.uri
  | .type => .text p.type
  | _ => .none

/-- What a text means as the value of a property: true or false, a colour (none: transparent black), a number, an opacity (255 for no transparency), a time
(`indefinite`: none), or the text itself. -/
def meaning (e : PEnv) (c : PCode) (v : Str) : Res Slot :=
  match c with
  | .debug => (parseBoolA v).bind fun b => .ok (.flag b)
  | .visible => (parseBoolA v).bind fun b => .ok (.flag b)
  | .focusBorderColor => (e.parseColor v).bind fun c => .ok (.color c)
  | .selBorderColor => (e.parseColor v).bind fun c => .ok (.color c)
  | .background => if v = [] then .ok (.color (0, 0, 0, 0)) else (e.parseColor v).bind fun c => .ok (.color c)
  | .focusBorderWidth => (parseInt v).bind fun n => .ok (.int n)
  | .zIndex => (parseInt v).bind fun n => .ok (.int n)
  | .zOrder => (parseInt v).bind fun n => .ok (.int n)
  | .focusBorderTransparency => .ok (.nat (opacity e.F v))
  | .transparency => .ok (.nat (opacity e.F v))
  | .duration => if v = "indefinite".toList then .ok (.nat NONE) else (parseTimeA e.F v).bind fun t => .ok (.nat t)
  | .focusIndex => .ok (.text v)
  | .uri => .ok (.text v)
  | .type => .ok (.text v)
  | _ => .ok .none

/-- The names of the geometry that one property may set for another. -/
def geoNames : List String := ["left", "top", "width", "height", "right", "bottom"]

theorem setMany_frame {m : String → Str → PSt → Res PSt} {α : Type} (f : PSt → α) (l : List (String × Str))
    (hm : ∀ p ∈ l, ∀ v s s', m p.1 v s = .ok s' → f s' = f s) : ∀ {s s' : PSt}, setMany m l s = .ok s' → f s' = f s := by
  induction l with
  | nil => intro s s' h; cases h; rfl
  | cons p l ih =>
    intro s s' h
    obtain ⟨n, v⟩ := p
    simp only [setMany] at h
    obtain ⟨s1, h1, h2⟩ := Res.bind_eq_ok h
    rw [ih (fun p hp => hm p (List.mem_cons_of_mem _ hp)) h2, hm (n, v) List.mem_cons_self _ _ _ h1]

/-- Setting a property sets its own value to what the text means ... -/
theorem doSet_hit {m : String → Str → PSt → Res PSt} {c : PCode} {v : Str} {s s' : PSt} (hc : ∀ p, PProp.slot p c ≠ .none)
    (h : doSetProperty e m c v s = .ok (some s')) : meaning e c v = .ok (s'.prop.slot c) := by
  cases c <;> first | exact absurd rfl (hc s.prop) | skip
  all_goals
    simp only [doSetProperty, meaning] at h ⊢
    repeat' split at h
    all_goals first
      | (simp only [Res.ok.injEq, Option.some.injEq] at h; subst h; simp_all [PProp.slot])
      | (obtain ⟨x, hx, h⟩ := Res.bind_eq_ok h
         simp only [Res.ok.injEq, Option.some.injEq] at h; subst h; simp_all [Res.bind, PProp.slot])

/-- ... and no other one. -/
theorem doSet_miss {m : String → Str → PSt → Res PSt} {c c' : PCode} {v : Str} {s s' : PSt} (hne : c ≠ c')
    (hm : ∀ n ∈ geoNames, ∀ v s s', m n v s = .ok s' → s'.prop.slot c' = s.prop.slot c')
    (h : doSetProperty e m c v s = .ok (some s')) : s'.prop.slot c' = s.prop.slot c' := by
  have hmany : ∀ (l : List (String × Str)) {s s' : PSt}, (∀ p ∈ l, p.1 ∈ geoNames) → setMany m l s = .ok s' → s'.prop.slot c' = s.prop.slot c' :=
    fun l {s s'} hl h => setMany_frame (fun s => s.prop.slot c') l (fun p hp v s s' => hm p.1 (hl p hp) v s s') h
  cases c
  case bounds =>
    simp only [doSetProperty] at h
    split at h
    · obtain ⟨x, hx, h⟩ := Res.bind_eq_ok h
      cases h; exact hmany _ (by simp [geoNames]) hx
    · cases h
  case location =>
    simp only [doSetProperty] at h
    split at h
    · obtain ⟨x, hx, h⟩ := Res.bind_eq_ok h
      cases h; exact hmany _ (by simp [geoNames]) hx
    · cases h
  case size =>
    simp only [doSetProperty] at h
    split at h
    · obtain ⟨x, hx, h⟩ := Res.bind_eq_ok h
      cases h; exact hmany _ (by simp [geoNames]) hx
    · cases h
  case width =>
    simp only [doSetProperty] at h
    split at h
    · obtain ⟨x, hx, h⟩ := Res.bind_eq_ok h
      cases h; rw [hm _ (by simp [geoNames]) _ _ _ hx]; cases c' <;> rfl
    · cases h; cases c' <;> rfl
  case height =>
    simp only [doSetProperty] at h
    split at h
    · obtain ⟨x, hx, h⟩ := Res.bind_eq_ok h
      cases h; rw [hm _ (by simp [geoNames]) _ _ _ hx]; cases c' <;> rfl
    · cases h; cases c' <;> rfl
  case right =>
    simp only [doSetProperty] at h
    obtain ⟨x, hx, h⟩ := Res.bind_eq_ok h
    obtain ⟨y, hy, h⟩ := Res.bind_eq_ok h
    cases h; cases c' <;> rfl
  case bottom =>
    simp only [doSetProperty] at h
    obtain ⟨x, hx, h⟩ := Res.bind_eq_ok h
    obtain ⟨y, hy, h⟩ := Res.bind_eq_ok h
    cases h; cases c' <;> rfl
  all_goals
    simp only [doSetProperty] at h
    repeat' split at h
    all_goals first
      | (simp only [Res.ok.injEq, Option.some.injEq] at h; subst h; cases c' <;> first | rfl | exact absurd rfl hne)
      | (obtain ⟨x, hx, h⟩ := Res.bind_eq_ok h
         simp only [Res.ok.injEq, Option.some.injEq] at h; subst h; cases c' <;> first | rfl | exact absurd rfl hne)

/-- The property that a name stands for. -/
def codeOf (name : String) : Option PCode := (propInfo name).map (·.1)

theorem geo_slot {n : String} (hn : n ∈ geoNames) {c : PCode} (hc : codeOf n = some c) (p : PProp) : p.slot c = .none := by
  simp only [geoNames, List.mem_cons, List.not_mem_nil, or_false] at hn
  rcases hn with rfl | rfl | rfl | rfl | rfl | rfl
  all_goals
    revert hc
    simp only [codeOf, info_left, info_top, info_width, info_height, info_right, info_bottom, Option.map_some, Option.some.injEq]
    intro hc; subst hc; rfl

theorem set1_miss {m : String → Str → PSt → Res PSt} {name : String} {v : Str} {s s' : PSt} {c' : PCode} (hne : codeOf name ≠ some c')
    (hm : ∀ n ∈ geoNames, ∀ v s s', m n v s = .ok s' → s'.prop.slot c' = s.prop.slot c')
    (h : playerSet1 e m name v s = .ok s') : s'.prop.slot c' = s.prop.slot c' := by
  unfold playerSet1 at h
  dsimp only at h
  obtain ⟨-, -, h⟩ := Res.bind_eq_ok h
  cases hp : propInfo name with
  | none => rw [hp] at h; cases h; rfl
  | some q =>
    obtain ⟨c, d⟩ := q
    rw [hp] at h
    dsimp only at h
    obtain ⟨r, hr, h⟩ := Res.bind_eq_ok h
    cases r with
    | none => cases h
    | some t =>
      cases h
      show t.prop.slot c' = _
      exact doSet_miss e (c := c) (fun hcc => hne (by rw [codeOf, hp, ← hcc]; rfl)) hm hr

theorem set_miss {c' : PCode} (hc : ∀ p, PProp.slot p c' ≠ .none) (n : Nat) : ∀ {name : String} {v : Str} {s s' : PSt}, codeOf name ≠ some c' →
    playerSet e n name v s = .ok s' → s'.prop.slot c' = s.prop.slot c' := by
  induction n with
  | zero => intro name v s s' _ h; cases h
  | succ n ih =>
    intro name v s s' hne h
    refine set1_miss e hne (fun k hk v s s' h => ?_) h
    unfold mediaSet1 at h
    dsimp only at h
    split at h
    · exact ih (s := s.mstore k v) (fun hk' => hc s.prop (geo_slot hk hk' s.prop)) h
    · cases h; rfl

/-- What is in the store of the media object besides the geometry is left alone. -/
theorem set_media (n : Nat) : ∀ {name : String} {v : Str} {s s' : PSt} {k : String}, k ∉ geoNames → playerSet e n name v s = .ok s' → s'.media k = s.media k := by
  induction n with
  | zero => intro name v s s' k _ h; cases h
  | succ n ih =>
    intro name v s s' k hk h
    have hms : ∀ j ∈ geoNames, ∀ v s s', mediaSet1 (playerSet e n) j v s = .ok s' → s'.media k = s.media k := by
      intro j hj v s s' h
      have hjk : k ≠ j := fun h => hk (h ▸ hj)
      unfold mediaSet1 at h
      dsimp only at h
      split at h
      · rw [ih (s := s.mstore j v) hk h]; exact upd_ne _ _ hjk
      · cases h; exact upd_ne _ _ hjk
    unfold playerSet playerSet1 at h
    dsimp only at h
    obtain ⟨-, -, h⟩ := Res.bind_eq_ok h
    cases hp : propInfo name with
    | none => rw [hp] at h; cases h; rfl
    | some q =>
      obtain ⟨c, d⟩ := q
      rw [hp] at h
      dsimp only at h
      obtain ⟨r, hr, h⟩ := Res.bind_eq_ok h
      cases r with
      | none => cases h
      | some t =>
        cases h
        show t.media k = s.media k
        clear hp
        generalize (if v = [] then d else v) = v at hr
        cases c
        case bounds =>
          simp only [doSetProperty] at hr
          split at hr
          · obtain ⟨x, hx, hr⟩ := Res.bind_eq_ok hr
            cases hr; exact setMany_frame (fun s => s.media k) _ (fun p hp => hms p.1 (by revert hp; simp [geoNames]; rintro (rfl | rfl | rfl | rfl) <;> simp)) hx
          · cases hr
        case location =>
          simp only [doSetProperty] at hr
          split at hr
          · obtain ⟨x, hx, hr⟩ := Res.bind_eq_ok hr
            cases hr; exact setMany_frame (fun s => s.media k) _ (fun p hp => hms p.1 (by revert hp; simp [geoNames]; rintro (rfl | rfl) <;> simp)) hx
          · cases hr
        case size =>
          simp only [doSetProperty] at hr
          split at hr
          · obtain ⟨x, hx, hr⟩ := Res.bind_eq_ok hr
            cases hr; exact setMany_frame (fun s => s.media k) _ (fun p hp => hms p.1 (by revert hp; simp [geoNames]; rintro (rfl | rfl) <;> simp)) hx
          · cases hr
        case width =>
          simp only [doSetProperty] at hr
          split at hr
          · obtain ⟨x, hx, hr⟩ := Res.bind_eq_ok hr
            cases hr; rw [hms _ (by simp [geoNames]) _ _ _ hx]
          · cases hr; rfl
        case height =>
          simp only [doSetProperty] at hr
          split at hr
          · obtain ⟨x, hx, hr⟩ := Res.bind_eq_ok hr
            cases hr; rw [hms _ (by simp [geoNames]) _ _ _ hx]
          · cases hr; rfl
        case right =>
          simp only [doSetProperty] at hr
          obtain ⟨x, hx, hr⟩ := Res.bind_eq_ok hr
          obtain ⟨y, hy, hr⟩ := Res.bind_eq_ok hr
          cases hr; rfl
        case bottom =>
          simp only [doSetProperty] at hr
          obtain ⟨x, hx, hr⟩ := Res.bind_eq_ok hr
          obtain ⟨y, hy, hr⟩ := Res.bind_eq_ok hr
          cases hr; rfl
        all_goals
          simp only [doSetProperty] at hr
          repeat' split at hr
          all_goals first
            | (simp only [Res.ok.injEq, Option.some.injEq] at hr; subst hr; rfl)
            | (obtain ⟨x, hx, hr⟩ := Res.bind_eq_ok hr
               simp only [Res.ok.injEq, Option.some.injEq] at hr; subst hr; rfl)

theorem set_hit {n : Nat} {name : String} {v : Str} {s s' : PSt} {c : PCode} {d : Str} (hi : propInfo name = some (c, d)) (hc : ∀ p, PProp.slot p c ≠ .none)
    (h : playerSet e n name v s = .ok s') : meaning e c (if v = [] then d else v) = .ok (s'.prop.slot c) := by
  cases n with
  | zero => cases h
  | succ n =>
    unfold playerSet playerSet1 at h
    dsimp only at h
    obtain ⟨-, -, h⟩ := Res.bind_eq_ok h
    rw [hi] at h
    dsimp only at h
    obtain ⟨r, hr, h⟩ := Res.bind_eq_ok h
    cases r with
    | none => cases h
    | some t => cases h; show _ = Res.ok (t.prop.slot c); exact doSet_hit e hc hr

/-! ## The loop -/

/-- One step of the loop. -/
theorem startLoop_cons {k : String} {todo keys : List String} {s s' : PSt}
    (h : startLoop (playerSet e 3) (·.media) (k :: todo) keys s = .ok s') :
    (k ∈ keys ∧ ∃ t, playerSet e 3 k (s.media k) s = .ok t ∧ startLoop (playerSet e 3) (·.media) todo (addedKeys k ++ keys) t = .ok s') ∨
    (k ∉ keys ∧ startLoop (playerSet e 3) (·.media) todo keys s = .ok s') := by
  unfold startLoop at h
  split at h
  · next hk =>
    obtain ⟨t, ht, h⟩ := Res.bind_eq_ok h
    exact .inl ⟨hk, t, ht, h⟩
  · next hk => exact .inr ⟨hk, h⟩

theorem addedKeys_geo {k n : String} (h : n ∈ addedKeys k) : n ∈ geoNames := by
  unfold addedKeys at h
  split at h
  · revert h; simp [geoNames]; rintro (rfl | rfl | rfl | rfl) <;> simp
  · split at h
    · revert h; simp [geoNames]; rintro (rfl | rfl) <;> simp
    · split at h
      · revert h; simp [geoNames]; rintro (rfl | rfl) <;> simp
      · cases h

/-- If no property still to come is the one of the value, the value stays. -/
theorem loop_miss {c : PCode} (hc : ∀ p, PProp.slot p c ≠ .none) (todo : List String) : ∀ {keys : List String} {s s' : PSt},
    (∀ k ∈ todo, k ∈ keys → codeOf k ≠ some c) → startLoop (playerSet e 3) (·.media) todo keys s = .ok s' → s'.prop.slot c = s.prop.slot c := by
  induction todo with
  | nil => intro keys s s' _ h; cases h; rfl
  | cons k todo ih =>
    intro keys s s' hk h
    rcases startLoop_cons e h with ⟨hin, t, ht, h⟩ | ⟨-, h⟩
    · rw [ih (fun j hj hjk hcj => ?_) h, set_miss e hc 3 (hk k List.mem_cons_self hin) ht]
      rcases List.mem_append.1 hjk with hjk | hjk
      · exact hc s.prop (geo_slot (addedKeys_geo hjk) hcj s.prop)
      · exact hk j (List.mem_cons_of_mem _ hj) hjk hcj
    · exact ih (fun j hj => hk j (List.mem_cons_of_mem _ hj)) h

/-- The last property that is the one of the value decides. -/
theorem loop_hit {c : PCode} {d : Str} {name : String} (hi : propInfo name = some (c, d)) (hc : ∀ p, PProp.slot p c ≠ .none) (hg : name ∉ geoNames)
    (todo : List String) : ∀ {keys : List String} {s s' : PSt}, todo.Pairwise (· < ·) → name ∈ todo → name ∈ keys →
    (∀ k ∈ todo, k ∈ keys → name < k → codeOf k ≠ some c) → startLoop (playerSet e 3) (·.media) todo keys s = .ok s' →
    meaning e c (if s.media name = [] then d else s.media name) = .ok (s'.prop.slot c) := by
  induction todo with
  | nil => intro keys s s' _ h; cases h
  | cons k todo ih =>
    intro keys s s' hs hin hkeys hafter h
    have hs' := List.pairwise_cons.1 hs
    by_cases hkn : k = name
    · subst hkn
      rcases startLoop_cons e h with ⟨-, t, ht, h⟩ | ⟨hn, -⟩
      · rw [loop_miss e hc todo (fun j hj hjk hcj => ?_) h]
        · exact set_hit e hi hc ht
        · rcases List.mem_append.1 hjk with hjk | hjk
          · exact hc s.prop (geo_slot (addedKeys_geo hjk) hcj s.prop)
          · exact hafter j (List.mem_cons_of_mem _ hj) hjk (hs'.1 j hj) hcj
      · exact absurd hkeys hn
    · have hin' : name ∈ todo := (List.mem_cons.1 hin).resolve_left (fun h => hkn h.symm)
      rcases startLoop_cons e h with ⟨-, t, ht, h⟩ | ⟨-, h⟩
      · rw [← set_media e 3 hg ht]
        refine ih hs'.2 hin' (List.mem_append_right _ hkeys) (fun j hj hjk hlt hcj => ?_) h
        rcases List.mem_append.1 hjk with hjk | hjk
        · exact hc s.prop (geo_slot (addedKeys_geo hjk) hcj s.prop)
        · exact hafter j (List.mem_cons_of_mem _ hj) hjk hlt hcj
      · exact ih hs'.2 hin' hkeys (fun j hj => hafter j (List.mem_cons_of_mem _ hj)) h

/-! ## The claim for the values -/

/-- The properties of the document that are values of the player, with the other name that some have. -/
def valueProps : List (String × Option String × PCode) :=
  [("background", some "backgroundColor", .background), ("debug", none, .debug), ("duration", some "explicitDur", .duration),
   ("focusBorderColor", none, .focusBorderColor), ("focusBorderTransparency", none, .focusBorderTransparency), ("focusBorderWidth", none, .focusBorderWidth),
   ("focusIndex", none, .focusIndex), ("selBorderColor", none, .selBorderColor), ("transparency", none, .transparency), ("type", none, .type),
   ("uri", none, .uri), ("visible", none, .visible), ("zIndex", none, .zIndex), ("zOrder", none, .zOrder)]

/-- The value that the document says a property has: under its other name if that is given, else under its name, else its default. -/
def says (keys : List String) (media : Store) (name : String) (other : Option String) (default : String) : Str :=
  orDef default (match other with
    | none => media name
    | some o => if o ∈ keys then media o else media name)

/-- The names of a value property, and that they come in this order. -/
theorem valueProps_names : ∀ p ∈ valueProps, ∃ d : String, (p.1, p.2.2, true, d) ∈ propTable ∧ propInfo p.1 = some (p.2.2, d.toList) ∧ p.1 ∉ geoNames ∧
    (∀ o, p.2.1 = some o → propInfo o = some (p.2.2, d.toList) ∧ o ∉ geoNames ∧ p.1 < o) ∧
    (∀ q ∈ propTable, q.2.1 = p.2.2 → q.1 = p.1) ∧ (∀ q ∈ aliasTable, codeOf q.1 = some p.2.2 → p.2.1 = some q.1) := by
  intro p hp
  simp only [valueProps, List.mem_cons, List.not_mem_nil, or_false] at hp
  rcases hp with rfl | rfl | rfl | rfl | rfl | rfl | rfl | rfl | rfl | rfl | rfl | rfl | rfl | rfl
  · exact ⟨"", by decide +kernel, by decide +kernel, by decide +kernel, (fun o h => by cases h; decide +kernel), by decide +kernel, by decide +kernel⟩
  · exact ⟨"false", by decide +kernel, by decide +kernel, by decide +kernel, (fun o h => by cases h), by decide +kernel, by decide +kernel⟩
  · exact ⟨"indefinite", by decide +kernel, by decide +kernel, by decide +kernel, (fun o h => by cases h; decide +kernel), by decide +kernel, by decide +kernel⟩
  · exact ⟨"yellow", by decide +kernel, by decide +kernel, by decide +kernel, (fun o h => by cases h), by decide +kernel, by decide +kernel⟩
  · exact ⟨"0%", by decide +kernel, by decide +kernel, by decide +kernel, (fun o h => by cases h), by decide +kernel, by decide +kernel⟩
  · exact ⟨"4", by decide +kernel, by decide +kernel, by decide +kernel, (fun o h => by cases h), by decide +kernel, by decide +kernel⟩
  · exact ⟨"", by decide +kernel, by decide +kernel, by decide +kernel, (fun o h => by cases h), by decide +kernel, by decide +kernel⟩
  · exact ⟨"yellow", by decide +kernel, by decide +kernel, by decide +kernel, (fun o h => by cases h), by decide +kernel, by decide +kernel⟩
  · exact ⟨"0%", by decide +kernel, by decide +kernel, by decide +kernel, (fun o h => by cases h), by decide +kernel, by decide +kernel⟩
  · exact ⟨"application/x-ginga-timer", by decide +kernel, by decide +kernel, by decide +kernel, (fun o h => by cases h), by decide +kernel, by decide +kernel⟩
  · exact ⟨"", by decide +kernel, by decide +kernel, by decide +kernel, (fun o h => by cases h), by decide +kernel, by decide +kernel⟩
  · exact ⟨"true", by decide +kernel, by decide +kernel, by decide +kernel, (fun o h => by cases h), by decide +kernel, by decide +kernel⟩
  · exact ⟨"0", by decide +kernel, by decide +kernel, by decide +kernel, (fun o h => by cases h), by decide +kernel, by decide +kernel⟩
  · exact ⟨"0", by decide +kernel, by decide +kernel, by decide +kernel, (fun o h => by cases h), by decide +kernel, by decide +kernel⟩

theorem code_names {k : String} {c : PCode} (h : codeOf k = some c) : (∃ q ∈ propTable, q.1 = k ∧ q.2.1 = c) ∨ ∃ q ∈ aliasTable, q.1 = k := by
  unfold codeOf propInfo at h
  cases hf : propTable.find? (fun p => p.1 == k) with
  | some q =>
    rw [hf] at h
    simp only [Option.map_some, Option.some.injEq] at h
    exact .inl ⟨q, List.mem_of_find?_eq_some hf, by simpa using List.find?_some hf, h⟩
  | none =>
    rw [hf] at h
    cases ha : aliasTable.find? (fun p => p.1 == k) with
    | some q => exact .inr ⟨q, List.mem_of_find?_eq_some ha, by simpa using List.find?_some ha⟩
    | none => rw [ha] at h; cases h

/-- The default of a value property is what a new player has. -/
theorem init_slot {W H : Int} {yellow : Color} (hy : e.color "yellow".toList = some yellow) : ∀ p ∈ valueProps, ∀ i (d : String), (p.1, p.2.2, i, d) ∈ propTable →
    meaning e p.2.2 d.toList = .ok ((initProp e W H yellow).slot p.2.2) := by
  have pb : parseBoolA "false".toList = .ok false := by decide +kernel
  have pt : parseBoolA "true".toList = .ok true := by decide +kernel
  have p4 : parseInt "4".toList = .ok 4 := by decide +kernel
  have p0' : parseInt "0".toList = .ok 0 := by decide +kernel
  intro p hp i d hd
  simp only [valueProps, List.mem_cons, List.not_mem_nil, or_false] at hp
  rcases hp with rfl | rfl | rfl | rfl | rfl | rfl | rfl | rfl | rfl | rfl | rfl | rfl | rfl | rfl
  all_goals
    simp [propTable] at hd
    obtain ⟨-, rfl⟩ := hd
    first
    | rfl
    | (simp only [meaning, pb, pt, p4, p0', Res.bind, PEnv.parseColor, hy]; rfl)

theorem slot_some : ∀ p ∈ valueProps, ∀ q : PProp, q.slot p.2.2 ≠ .none := by
  intro p hp q
  simp only [valueProps, List.mem_cons, List.not_mem_nil, or_false] at hp
  rcases hp with rfl | rfl | rfl | rfl | rfl | rfl | rfl | rfl | rfl | rfl | rfl | rfl | rfl | rfl <;> simp [PProp.slot]

theorem start_values {W H : Int} {keys : List String} {media : Store} {p0 : PProp} {yellow : Color} {s : PSt} (hy : e.color "yellow".toList = some yellow)
    (hk : ∀ k, k ∉ startKeys keys → startStore media k = []) (h : startMedia e W H keys media p0 = .ok s) :
    ∀ p ∈ valueProps, ∀ i (d : String), (p.1, p.2.2, i, d) ∈ propTable →
      meaning e p.2.2 (says (startKeys keys) (startStore media) p.1 p.2.1 d) = .ok (s.prop.slot p.2.2) := by
  unfold startMedia at h
  rw [C35_init e W H media p0 yellow hy] at h
  simp only [Res.bind_ok] at h
  intro p hp i d hd
  have hc := slot_some p hp
  obtain ⟨d', hmem, hinfo, hgeo, hother, htab, hal⟩ := valueProps_names p hp
  have hdd : d = d' := by
    have h1 := htab
    have key : ∀ q ∈ propTable, ∀ q' ∈ propTable, q.1 = q'.1 → q.2.2.2 = q'.2.2.2 := by decide +kernel
    exact key _ hd _ hmem rfl
  subst hdd
  have hcode : ∀ k, codeOf k = some p.2.2 → k = p.1 ∨ p.2.1 = some k := by
    intro k hk
    rcases code_names hk with ⟨q, hq, rfl, hqc⟩ | ⟨q, hq, rfl⟩
    · exact .inl (htab q hq hqc)
    · exact .inr (hal q hq hk)
  have hsorted := mapKeys_sorted (["height", "left", "top", "width"] ++ startKeys keys)
  have hin : ∀ {k}, k ∈ startKeys keys → k ∈ startOrder (startKeys keys) := fun hk => mem_mapKeys.2 (List.mem_append_right _ hk)
  have hname : p.1 ∈ startKeys keys → (∀ o, p.2.1 = some o → o ∉ startKeys keys) →
      meaning e p.2.2 (orDef d (startStore media p.1)) = .ok (s.prop.slot p.2.2) := by
    intro hm ho
    refine loop_hit e hinfo hc hgeo _ hsorted (hin hm) hm (fun k _ hkk hlt hck => ?_) h
    rcases hcode k hck with rfl | hk'
    · exact absurd hlt (String.lt_irrefl _)
    · exact ho k hk' hkk
  have hnone : p.1 ∉ startKeys keys → (∀ o, p.2.1 = some o → o ∉ startKeys keys) →
      meaning e p.2.2 (orDef d (startStore media p.1)) = .ok (s.prop.slot p.2.2) := by
    intro hm ho
    have h1 := loop_miss e hc _ (fun k _ hkk hck => by
      rcases hcode k hck with rfl | hk'
      · exact hm hkk
      · exact ho k hk' hkk) h
    rw [h1, hk _ hm]
    exact init_slot e hy p hp _ d hd
  have both : (∀ o, p.2.1 = some o → o ∉ startKeys keys) → meaning e p.2.2 (orDef d (startStore media p.1)) = .ok (s.prop.slot p.2.2) := by
    intro ho
    by_cases hm : p.1 ∈ startKeys keys
    · exact hname hm ho
    · exact hnone hm ho
  unfold says
  cases ho : p.2.1 with
  | none => exact both (fun o h => by rw [ho] at h; cases h)
  | some o =>
    dsimp only
    split
    · next hok =>
      obtain ⟨hoi, hog, hlt⟩ := hother o ho
      refine loop_hit e hoi hc hog _ hsorted (hin hok) hok (fun k _ _ hlt' hck => ?_) h
      rcases hcode k hck with rfl | hk'
      · exact String.lt_irrefl _ (String.lt_trans hlt hlt')
      · rw [ho] at hk'; cases hk'; exact String.lt_irrefl _ hlt'
    · next hok => exact both (fun o' h => by rw [ho] at h; cases h; exact hok)

/-- What the media object is given: properties that it does not have read as empty. -/
def Store.Has (media : Store) (keys : List String) : Prop := ∀ k, k ∉ keys → media k = []

theorem Store.Has.start {media : Store} {keys : List String} (h : media.Has keys) : ∀ k, k ∉ startKeys keys → startStore media k = [] := by
  intro k hk
  simp only [startKeys, List.mem_cons, not_or] at hk
  unfold startStore
  rw [upd_ne _ _ hk.2.1]
  exact h k hk.2.2

/-- The property that holds, first part: when a media object starts, every value of its player is what its document says, under the name of the property or under its
other name, and the default if the document says nothing; whatever else the document gives, and whatever the memory of the player contained. -/
theorem C68_values {W H : Int} {keys : List String} {media : Store} {p0 : PProp} {yellow : Color} {s : PSt} (hy : e.color "yellow".toList = some yellow)
    (hk : media.Has keys) (h : startMedia e W H keys media p0 = .ok s) {name : String} {other : Option String} {c : PCode} {d : String} {i : Bool}
    (hp : (name, other, c) ∈ valueProps) (hd : (name, c, i, d) ∈ propTable) (ht : name ≠ "type") :
    meaning e c (says keys media name other d) = .ok (s.prop.slot c) := by
  have h1 := start_values e hy hk.start h _ hp i d hd
  have hother : ∀ o, other = some o → o ≠ "uri" ∧ o ≠ "type" := by
    intro o ho
    subst ho
    revert hp
    simp only [valueProps, List.mem_cons, Prod.mk.injEq, List.not_mem_nil, or_false, reduceCtorEq, false_and, and_false, false_or, Option.some.injEq]
    rintro (⟨-, rfl, -⟩ | ⟨-, rfl, -⟩) <;> decide
  have hs : says (startKeys keys) (startStore media) name other d = says keys media name other d := by
    unfold says
    congr 1
    cases other with
    | none => exact upd_ne _ _ ht
    | some o =>
      obtain ⟨ho1, ho2⟩ := hother o rfl
      simp only [startKeys, List.mem_cons, ho1, ho2, false_or]
      unfold startStore
      rw [upd_ne _ _ ho2, upd_ne _ _ ht]
  rw [hs] at h1
  exact h1

/-- The type of content is the one given, or else the one of the name of the content; then the media object itself has it, also when it starts again. -/
theorem C68_type {W H : Int} {keys : List String} {media : Store} {p0 : PProp} {yellow : Color} {s : PSt} (hy : e.color "yellow".toList = some yellow)
    (hk : media.Has keys) (h : startMedia e W H keys media p0 = .ok s) : s.prop.type = effectiveMime (media "uri") (media "type") := by
  have h1 := start_values e hy hk.start h ("type", none, .type) (by decide) true "application/x-ginga-timer" (by decide +kernel)
  have h2 : startStore media "type" = effectiveMime (media "uri") (media "type") := by unfold startStore; exact upd_same ..
  have h3 : effectiveMime (media "uri") (media "type") ≠ [] := by
    unfold effectiveMime
    split
    · decide
    · assumption
  simp only [says, meaning, h2, orDef, if_neg h3, PProp.slot, Res.ok.injEq, Slot.text.injEq] at h1
  exact h1.symm

end Ginga
