import Verif.Model.Options
/-! # C26 (painting order), C27 (options), C28 (user data) -/
set_option linter.unusedSimpArgs false
namespace Ginga

/-! ## C26 -/

/-- Lexicographic order of (zIndex, zOrder). -/
def zle (p q : Int × Int) : Prop := p.1 < q.1 ∨ p.1 = q.1 ∧ p.2 ≤ q.2

theorem zcmp_pos (z : Nat → Int × Int) (a b : Nat) : zcmp z a b > 0 ↔ ¬ zle (z a) (z b) := by
  unfold zcmp zle
  repeat' split
  all_goals omega

theorem insertSorted_perm (cmp : Nat → Nat → Int) (a : Nat) (l : List Nat) : (insertSorted cmp a l).Perm (a :: l) := by
  induction l with
  | nil => exact .refl _
  | cons b t ih =>
    simp only [insertSorted]
    split
    · exact (ih.cons b).trans (.swap _ _ _)
    · exact .refl _

theorem insertSorted_sorted (z : Nat → Int × Int) (a : Nat) (l : List Nat) (h : l.Pairwise fun a b => zle (z a) (z b)) :
    (insertSorted (zcmp z) a l).Pairwise fun a b => zle (z a) (z b) := by
  have total : ∀ p q : Int × Int, ¬ zle p q → zle q p := by intro p q; unfold zle; omega
  have trans : ∀ {p q r : Int × Int}, zle p q → zle q r → zle p r := by intro p q r; unfold zle; omega
  induction l with
  | nil => simp [insertSorted]
  | cons b t ih =>
    rw [List.pairwise_cons] at h
    simp only [insertSorted]
    split
    · next hc =>
      rw [zcmp_pos] at hc
      rw [List.pairwise_cons]
      refine ⟨fun c hc' => ?_, ih h.2⟩
      have := (insertSorted_perm (zcmp z) a t).mem_iff.1 hc'
      rcases List.mem_cons.1 this with rfl | hm
      · exact total _ _ hc
      · exact h.1 c hm
    · next hc =>
      rw [zcmp_pos] at hc
      have hc : zle (z a) (z b) := Classical.byContradiction hc
      rw [List.pairwise_cons]
      refine ⟨fun c hc' => ?_, ?_⟩
      · rcases List.mem_cons.1 hc' with rfl | hm
        · exact hc
        · exact trans hc (h.1 c hm)
      · rw [List.pairwise_cons]; exact h

/-- Whatever the media objects, their (zIndex, zOrder) and which of them are awake, a redraw paints each awake one exactly
once and nothing else, in non-decreasing order of (zIndex, zOrder). -/
theorem C26_redraw (z : Nat → Int × Int) (awake : Nat → Bool) (medias : List Nat) :
    (painted z awake medias).Perm (medias.filter awake) ∧
    (painted z awake medias).Pairwise fun a b => zle (z a) (z b) := by
  have key : ∀ (l acc : List Nat), acc.Pairwise (fun a b => zle (z a) (z b)) →
      (l.foldl (fun l m => insertSorted (zcmp z) m l) acc).Perm (l ++ acc) ∧
      (l.foldl (fun l m => insertSorted (zcmp z) m l) acc).Pairwise fun a b => zle (z a) (z b) := by
    intro l
    induction l with
    | nil => intro acc h; exact ⟨.refl _, h⟩
    | cons m t ih =>
      intro acc h
      obtain ⟨h1, h2⟩ := ih _ (insertSorted_sorted z m acc h)
      refine ⟨?_, h2⟩
      refine h1.trans ?_
      refine (List.Perm.append_left t (insertSorted_perm (zcmp z) m acc)).trans ?_
      exact List.perm_middle
  obtain ⟨h1, h2⟩ := key medias [] .nil
  refine ⟨?_, h2.filter _⟩
  have := h1.filter awake
  rw [List.append_nil] at this
  exact this

example : painted (fun m => if m = 1 then (2, 0) else if m = 2 then (0, 5) else (0, 3)) (fun m => m != 4) [1, 2, 3, 4] = [3, 2, 1] := by
  decide +kernel

/-- Objects with the same (zIndex, zOrder) are painted in decreasing order of address: the one created at the lower address
is on top. -/
theorem C26_ties (medias : List Nat) (awake : Nat → Bool) (c : Int × Int) (z : Nat → Int × Int) (hz : ∀ m, z m = c) :
    painted z awake medias = (medias.filter awake).reverse := by
  have hs : ∀ m l, insertSorted (zcmp z) m l = m :: l := by
    intro m l
    cases l with
    | nil => rfl
    | cons b t => simp [insertSorted, zcmp, hz]
  have : ∀ (l acc : List Nat), l.foldl (fun l m => insertSorted (zcmp z) m l) acc = l.reverse ++ acc := by
    intro l
    induction l with
    | nil => intro acc; rfl
    | cons m t ih => intro acc; simp only [List.foldl_cons]; rw [hs, ih]; simp
  unfold painted zlist
  rw [this]
  simp

/-! ## C27 -/

theorem optType_some (n : String) (t : OptType) : optType n = some t ↔ (n, t) ∈ optsTable := by
  constructor
  · intro h
    unfold optType at h
    rw [Option.map_eq_some_iff] at h
    obtain ⟨p, hp, ht⟩ := h
    have h1 := List.mem_of_find?_eq_some hp
    have h2 := List.find?_some hp
    simp only [beq_iff_eq] at h2
    rw [← h2, ← ht]; exact h1
  · intro h
    have : ∀ p ∈ optsTable, optType p.1 = some p.2 := by decide +kernel
    exact this _ h

/-- Successful setting of an option of each type: it reads back as set, and every other option is unaffected. -/
theorem C27_bool (gl : Bool) (o o' : Opts) (n : String) (v : Bool) (h : o.setBool gl n v = .ok o') :
    o'.getBool n = .ok v ∧ (∀ m, m ≠ n → o'.getBool m = o.getBool m) ∧ (∀ m, o'.getInt m = o.getInt m) ∧
    (∀ m, o'.getString m = o.getString m) := by
  unfold Opts.setBool at h
  cases ht : optType n with
  | none => rw [ht] at h; cases h
  | some t =>
    rw [ht] at h
    dsimp only at h
    by_cases htb : t = .bool
    · subst htb
      simp only [ne_eq, not_true_eq_false, if_false] at h
      split at h
      · cases h
      · cases h
        have hk := (optType_some n .bool).1 ht
        have hn : n = "debug" ∨ n = "experimental" ∨ n = "opengl" := by simpa [optsTable] using hk
        have hI : ∀ m, (o.writeBool n v).getInt m = o.getInt m := by
          intro m; unfold Opts.getInt Opts.writeBool Opts.readInt; cases optType m <;> (repeat' split) <;> rfl
        have hS : ∀ m, (o.writeBool n v).getString m = o.getString m := by
          intro m; unfold Opts.getString Opts.writeBool; cases optType m <;> (repeat' split) <;> rfl
        refine ⟨?_, ?_, hI, hS⟩
        · simp only [Opts.getBool, ht, ne_eq, not_true_eq_false, if_false]
          rcases hn with rfl | rfl | rfl <;> simp [Opts.readBool, Opts.writeBool]
        · intro m hm
          unfold Opts.getBool
          cases hm2 : optType m with
          | none => rfl
          | some t =>
            dsimp only
            by_cases htb : t = .bool
            · subst htb
              have hmn : m = "debug" ∨ m = "experimental" ∨ m = "opengl" := by simpa [optsTable] using (optType_some m .bool).1 hm2
              rcases hn with rfl | rfl | rfl <;> rcases hmn with rfl | rfl | rfl <;>
                first
                | exact absurd rfl hm
                | simp [Opts.readBool, Opts.writeBool]
            · rw [if_pos htb, if_pos htb]
    · rw [if_pos htb] at h; cases h

theorem C27_int (o o' : Opts) (n : String) (v : Int) (h : o.setInt n v = .ok o') :
    o'.getInt n = .ok v ∧ (∀ m, m ≠ n → o'.getInt m = o.getInt m) ∧ (∀ m, o'.getBool m = o.getBool m) ∧
    (∀ m, o'.getString m = o.getString m) ∧ 0 < o'.width ∧ 0 < o'.height := by
  unfold Opts.setInt at h
  cases ht : optType n with
  | none => rw [ht] at h; cases h
  | some t =>
    rw [ht] at h
    dsimp only at h
    by_cases htb : t = .int
    · subst htb
      simp only [ne_eq, not_true_eq_false, if_false] at h
      split at h
      · next hpos =>
        cases h
        have hn : n = "height" ∨ n = "width" := by simpa [optsTable] using (optType_some n .int).1 ht
        have hB : ∀ m, (o.writeInt n v).getBool m = o.getBool m := by
          intro m; unfold Opts.getBool Opts.writeInt Opts.readBool; cases optType m <;> (repeat' split) <;> rfl
        have hS : ∀ m, (o.writeInt n v).getString m = o.getString m := by
          intro m; unfold Opts.getString Opts.writeInt; cases optType m <;> (repeat' split) <;> rfl
        refine ⟨?_, ?_, hB, hS, hpos.1, hpos.2⟩
        · simp only [Opts.getInt, ht, ne_eq, not_true_eq_false, if_false]
          rcases hn with rfl | rfl <;> simp [Opts.readInt, Opts.writeInt]
        · intro m hm
          unfold Opts.getInt
          cases hm2 : optType m with
          | none => rfl
          | some t =>
            dsimp only
            by_cases htb : t = .int
            · subst htb
              have hmn : m = "height" ∨ m = "width" := by simpa [optsTable] using (optType_some m .int).1 hm2
              rcases hn with rfl | rfl <;> rcases hmn with rfl | rfl <;>
                first
                | exact absurd rfl hm
                | simp [Opts.readInt, Opts.writeInt]
            · rw [if_pos htb, if_pos htb]
      · cases h
    · rw [if_pos htb] at h; cases h

theorem C27_string (color : String → Bool) (o o' : Opts) (n : String) (v : String) (h : o.setString color n v = .ok o') :
    o'.getString n = .ok v ∧ (∀ m, m ≠ n → o'.getString m = o.getString m) ∧ (∀ m, o'.getBool m = o.getBool m) ∧
    (∀ m, o'.getInt m = o.getInt m) := by
  unfold Opts.setString at h
  cases ht : optType n with
  | none => rw [ht] at h; cases h
  | some t =>
    rw [ht] at h
    dsimp only at h
    by_cases htb : t = .string
    · subst htb
      simp only [ne_eq, not_true_eq_false, if_false] at h
      split at h
      · cases h
        have hn : n = "background" := by simpa [optsTable] using (optType_some n .string).1 ht
        refine ⟨by simp [Opts.getString, ht], ?_, fun m => rfl, fun m => rfl⟩
        intro m hm
        unfold Opts.getString
        cases hm2 : optType m with
        | none => rfl
        | some t =>
          dsimp only
          by_cases htb : t = .string
          · subst htb
            have : m = "background" := by simpa [optsTable] using (optType_some m .string).1 hm2
            exact absurd (this.trans hn.symm) hm
          · rw [if_pos htb, if_pos htb]
      · cases h
    · rw [if_pos htb] at h; cases h

/-- Unknown names and wrong types end the process, for every getter and setter; a known name of the right type is always
readable. -/
theorem C27_unknown (gl : Bool) (color : String → Bool) (o : Opts) (n : String) :
    ((n, OptType.bool) ∉ optsTable → o.getBool n = .abort ∧ ∀ v, o.setBool gl n v = .abort) ∧
    ((n, OptType.int) ∉ optsTable → o.getInt n = .abort ∧ ∀ v, o.setInt n v = .abort) ∧
    ((n, OptType.string) ∉ optsTable → o.getString n = .abort ∧ ∀ v, o.setString color n v = .abort) ∧
    ((n, OptType.bool) ∈ optsTable → ∃ v, o.getBool n = .ok v) ∧ ((n, OptType.int) ∈ optsTable → ∃ v, o.getInt n = .ok v) ∧
    ((n, OptType.string) ∈ optsTable → ∃ v, o.getString n = .ok v) := by
  simp only [← optType_some]
  unfold Opts.getBool Opts.setBool Opts.getInt Opts.setInt Opts.getString Opts.setString
  cases optType n with
  | none => simp
  | some t => cases t <;> simp

/-- Which values are accepted. -/
theorem C27_accepted (gl : Bool) (color : String → Bool) (o : Opts) :
    (∀ v, ∃ o', o.setBool gl "debug" v = .ok o') ∧ (∀ v, ∃ o', o.setBool gl "experimental" v = .ok o') ∧
    (∀ v, (∃ o', o.setBool gl "opengl" v = .ok o') ↔ (v = true → gl = true)) ∧
    (∀ v, (∃ o', o.setInt "width" v = .ok o') ↔ 0 < v ∧ 0 < o.height) ∧
    (∀ v, (∃ o', o.setInt "height" v = .ok o') ↔ 0 < v ∧ 0 < o.width) ∧
    (∀ v, (∃ o', o.setString color "background" v = .ok o') ↔ v = "" ∨ color v = true) := by
  have h1 : optType "debug" = some .bool := by decide +kernel
  have h2 : optType "experimental" = some .bool := by decide +kernel
  have h3 : optType "opengl" = some .bool := by decide +kernel
  have h4 : optType "width" = some .int := by decide +kernel
  have h5 : optType "height" = some .int := by decide +kernel
  have h6 : optType "background" = some .string := by decide +kernel
  refine ⟨?_, ?_, ?_, ?_, ?_, ?_⟩
  · intro v; simp [Opts.setBool, h1]
  · intro v; simp [Opts.setBool, h2]
  · intro v; cases v <;> cases gl <;> simp [Opts.setBool, h3]
  · intro v
    simp only [Opts.setInt, h4, ne_eq, not_true_eq_false, if_false, Opts.writeInt]
    simp only [show ("width" = "height") = False by simp, if_false]
    by_cases h : 0 < v ∧ 0 < o.height
    · rw [if_pos ⟨h.1, h.2⟩]; simp [h]
    · rw [if_neg (fun hc => h ⟨hc.1, hc.2⟩)]; simp; intro ha; have := fun hb => h ⟨ha, hb⟩; omega
  · intro v
    simp only [Opts.setInt, h5, ne_eq, not_true_eq_false, if_false, Opts.writeInt, if_true]
    by_cases h : 0 < v ∧ 0 < o.width
    · rw [if_pos ⟨h.2, h.1⟩]; simp [h]
    · rw [if_neg (fun hc => h ⟨hc.2, hc.1⟩)]; simp; intro ha; have := fun hb => h ⟨ha, hb⟩; omega
  · intro v
    simp only [Opts.setString, h6, ne_eq, not_true_eq_false, if_false]
    by_cases h : v = "" ∨ color v = true
    · rw [if_pos h]; simp [h]
    · rw [if_neg h]; simpa using h

/-- The value of the last setting of option `n` in a history, if it was set. -/
def lastBool (n : String) (l : List OptSet) : Option Bool :=
  l.foldl (fun r s => match s with | .bool m v => if m = n then some v else r | _ => r) none
def lastInt (n : String) (l : List OptSet) : Option Int :=
  l.foldl (fun r s => match s with | .int m v => if m = n then some v else r | _ => r) none
def lastString (n : String) (l : List OptSet) : Option String :=
  l.foldl (fun r s => match s with | .string m v => if m = n then some v else r | _ => r) none

/-- After any history of settings that returned, each option reads as the value it was last set to, or as it was at the
beginning if it was not set; width and height are positive if one of them was set. -/
theorem C27_history (gl : Bool) (color : String → Bool) (o o' : Opts) (l : List OptSet) (h : o.setAll gl color l = .ok o') :
    (∀ n, o'.getBool n = match lastBool n l with | some v => .ok v | none => o.getBool n) ∧
    (∀ n, o'.getInt n = match lastInt n l with | some v => .ok v | none => o.getInt n) ∧
    (∀ n, o'.getString n = match lastString n l with | some v => .ok v | none => o.getString n) ∧
    ((0 < o.width ∧ 0 < o.height) ∨ (∃ n v, OptSet.int n v ∈ l) → 0 < o'.width ∧ 0 < o'.height) := by
  have key : ∀ (l : List OptSet) (o : Opts) (P : Prop) (b0 : String → Option Bool) (i0 : String → Option Int) (s0 : String → Option String) (o0 : Opts),
      (∀ n, o.getBool n = match b0 n with | some v => .ok v | none => o0.getBool n) →
      (∀ n, o.getInt n = match i0 n with | some v => .ok v | none => o0.getInt n) →
      (∀ n, o.getString n = match s0 n with | some v => .ok v | none => o0.getString n) →
      (P → 0 < o.width ∧ 0 < o.height) → o.setAll gl color l = .ok o' →
      (∀ n, o'.getBool n = match l.foldl (fun r s => match s with | .bool m v => if m = n then some v else r | _ => r) (b0 n) with | some v => .ok v | none => o0.getBool n) ∧
      (∀ n, o'.getInt n = match l.foldl (fun r s => match s with | .int m v => if m = n then some v else r | _ => r) (i0 n) with | some v => .ok v | none => o0.getInt n) ∧
      (∀ n, o'.getString n = match l.foldl (fun r s => match s with | .string m v => if m = n then some v else r | _ => r) (s0 n) with | some v => .ok v | none => o0.getString n) ∧
      (P ∨ (∃ n v, OptSet.int n v ∈ l) → 0 < o'.width ∧ 0 < o'.height) := by
    intro l
    induction l with
    | nil =>
      intro o P b0 i0 s0 o0 hb hi hs hp hx
      cases hx
      refine ⟨hb, hi, hs, ?_⟩
      rintro (h | ⟨n, v, h⟩)
      · exact hp h
      · cases h
    | cons s l ih =>
      intro o P b0 i0 s0 o0 hb hi hs hp hx
      simp only [Opts.setAll] at hx
      cases hset : o.set gl color s with
      | ok o1 =>
        rw [hset] at hx
        simp only [Res.bind_ok] at hx
        cases s with
        | bool n v =>
          obtain ⟨h1, h2, h3, h4⟩ := C27_bool gl o o1 n v hset
          have hwh : o1.width = o.width ∧ o1.height = o.height := by
            have hw := h3 "width"; have hh := h3 "height"
            have a1 : optType "width" = some .int := by decide +kernel
            have a2 : optType "height" = some .int := by decide +kernel
            simp only [Opts.getInt, a1, a2, ne_eq, not_true_eq_false, if_false, Opts.readInt, if_true] at hw hh
            simp only [show ("width" = "height") = False by simp, if_false] at hw
            exact ⟨Res.ok.inj hw, Res.ok.inj hh⟩
          have := ih o1 P (fun k => if n = k then some v else b0 k) i0 s0 o0
            (by
              intro k
              by_cases hk : n = k
              · subst hk; rw [if_pos rfl]; exact h1
              · rw [if_neg hk, h2 k (fun e => hk e.symm)]; exact hb k)
            (fun k => by rw [h3 k]; exact hi k) (fun k => by rw [h4 k]; exact hs k)
            (fun h => by rw [hwh.1, hwh.2]; exact hp h) hx
          refine ⟨this.1, this.2.1, this.2.2.1, ?_⟩
          rintro (h | ⟨a, b, h⟩)
          · exact this.2.2.2 (.inl h)
          · rcases List.mem_cons.1 h with h | h
            · cases h
            · exact this.2.2.2 (.inr ⟨a, b, h⟩)
        | int n v =>
          obtain ⟨h1, h2, h3, h4, h5, h6⟩ := C27_int o o1 n v hset
          have := ih o1 True b0 (fun k => if n = k then some v else i0 k) s0 o0
            (fun k => by rw [h3 k]; exact hb k)
            (by
              intro k
              by_cases hk : n = k
              · subst hk; rw [if_pos rfl]; exact h1
              · rw [if_neg hk, h2 k (fun e => hk e.symm)]; exact hi k)
            (fun k => by rw [h4 k]; exact hs k) (fun _ => ⟨h5, h6⟩) hx
          exact ⟨this.1, this.2.1, this.2.2.1, fun _ => this.2.2.2 (.inl trivial)⟩
        | string n v =>
          obtain ⟨h1, h2, h3, h4⟩ := C27_string color o o1 n v hset
          have hwh : o1.width = o.width ∧ o1.height = o.height := by
            have hw := h4 "width"; have hh := h4 "height"
            have a1 : optType "width" = some .int := by decide +kernel
            have a2 : optType "height" = some .int := by decide +kernel
            simp only [Opts.getInt, a1, a2, ne_eq, not_true_eq_false, if_false, Opts.readInt, if_true] at hw hh
            simp only [show ("width" = "height") = False by simp, if_false] at hw
            exact ⟨Res.ok.inj hw, Res.ok.inj hh⟩
          have := ih o1 P b0 i0 (fun k => if n = k then some v else s0 k) o0
            (fun k => by rw [h3 k]; exact hb k) (fun k => by rw [h4 k]; exact hi k)
            (by
              intro k
              by_cases hk : n = k
              · subst hk; rw [if_pos rfl]; exact h1
              · rw [if_neg hk, h2 k (fun e => hk e.symm)]; exact hs k)
            (fun h => by rw [hwh.1, hwh.2]; exact hp h) hx
          refine ⟨this.1, this.2.1, this.2.2.1, ?_⟩
          rintro (h | ⟨a, b, h⟩)
          · exact this.2.2.2 (.inl h)
          · rcases List.mem_cons.1 h with h | h
            · cases h
            · exact this.2.2.2 (.inr ⟨a, b, h⟩)
      | _ => rw [hset] at hx; cases hx
  exact key l o (0 < o.width ∧ 0 < o.height) (fun _ => none) (fun _ => none) (fun _ => none) o (fun _ => rfl) (fun _ => rfl) (fun _ => rfl) (fun h => h) h

example : (Opts.setAll false (fun s => s == "red") ⟨800, 600, false, false, false, false, ""⟩
    [.int "width" 100, .bool "debug" true, .string "background" "red", .int "width" 50]).bind (fun o => o.getInt "width") = .ok 50 := by
  decide +kernel

/-! ## C28 -/

/-- The data handed over with a clean-up function by a history of calls. -/
def handedOver (l : List (String × Nat × Nat)) : List Datum :=
  l.filterMap fun p => if p.2.1 ≠ 0 ∧ p.2.2 ≠ 0 then some ⟨p.2.1, p.2.2⟩ else none

/-- No key twice. -/
def UData.Ok (u : UData) : Prop := (u.tab.map (·.1)).Nodup

theorem UData.find_some {u : UData} (h : u.Ok) {k : String} {d : Datum} : u.find k = some d ↔ (k, d) ∈ u.tab := by
  unfold UData.find UData.Ok at *
  generalize u.tab = l at *
  induction l with
  | nil => simp
  | cons p t ih =>
    simp only [List.map_cons, List.nodup_cons] at h
    rw [List.find?_cons]
    by_cases hp : p.1 = k
    · subst hp
      simp only [beq_self_eq_true, Option.map_some, Option.some.injEq, List.mem_cons]
      constructor
      · rintro rfl; exact .inl rfl
      · rintro (h' | h')
        · rw [← h']
        · exact absurd (List.mem_map.2 ⟨_, h', rfl⟩) h.1
    · have : (p.1 == k) = false := by simpa using hp
      rw [this]
      refine (ih h.2).trans ?_
      simp only [List.mem_cons]
      constructor
      · exact .inr
      · rintro (h' | h')
        · rw [← h'] at hp; exact absurd rfl hp
        · exact h'

theorem UData.find_filter (l : List (String × Datum)) (c : List Datum) (k m : String) :
    (UData.find ⟨l.filter fun p => p.1 != k, c⟩ m) = if m = k then none else UData.find ⟨l, c⟩ m := by
  unfold UData.find
  dsimp only
  induction l with
  | nil => simp
  | cons p t ih =>
    rw [List.filter_cons]
    by_cases hp : p.1 = k
    · rw [if_neg (by simp [hp]), ih]
      split
      · rfl
      · next hm => rw [List.find?_cons]; rw [show (p.1 == m) = false by simp [hp]; exact fun e => hm e.symm]
    · rw [if_pos (by simp [hp])]
      rw [List.find?_cons, List.find?_cons]
      by_cases hm : p.1 = m
      · rw [show (p.1 == m) = true by simp [hm]]
        rw [if_neg (by rw [← hm]; exact hp)]
      · rw [show (p.1 == m) = false by simp [hm]]
        exact ih

theorem UData.clean_tab (u : UData) (d : Datum) : (u.clean d).tab = u.tab := by unfold UData.clean; split <;> rfl

/-- The state in which `setData` changes the map: after the clean-up. -/
theorem UData.set_eq (u : UData) (k : String) (v f : Nat) :
    (v = 0 → u.find k = none → u.set k v f = .ub) ∧
    (v = 0 → ∀ d, u.find k = some d → u.set k v f = .ok (false, { (u.clean d) with tab := u.tab.filter fun p => p.1 != k })) ∧
    (v ≠ 0 → u.find k = none → u.set k v f = .ok (true, { u with tab := (k, ⟨v, f⟩) :: u.tab.filter fun p => p.1 != k })) ∧
    (v ≠ 0 → ∀ d, u.find k = some d → u.set k v f = .ok (false, { (u.clean d) with tab := (k, ⟨v, f⟩) :: u.tab.filter fun p => p.1 != k })) := by
  refine ⟨?_, ?_, ?_, ?_⟩
  · intro hv hf; simp [UData.set, hv, hf]
  · intro hv d hf; simp [UData.set, hv, hf, UData.clean_tab]
  · intro hv hf; simp [UData.set, hv, hf]
  · intro hv d hf; simp [UData.set, hv, hf, UData.clean_tab]

/-- One call: the key reads as the value given, or as absent if it was null; other keys are unaffected; the result tells
whether the key is new.  Setting null on an absent key is undefined behaviour (`C28_fails_null`). -/
theorem C28_map (u u' : UData) (k : String) (v f : Nat) (b : Bool) (h : u.set k v f = .ok (b, u')) :
    u'.get k = (if v = 0 then none else some v) ∧ (∀ m, m ≠ k → u'.get m = u.get m) ∧ (b = true ↔ v ≠ 0 ∧ u.get k = none) := by
  obtain ⟨h1, h2, h3, h4⟩ := u.set_eq k v f
  have hfil : ∀ c m, m ≠ k → UData.find ⟨u.tab.filter fun p => p.1 != k, c⟩ m = u.find m := by
    intro c m hm; rw [UData.find_filter, if_neg hm]; rfl
  have hcons : ∀ c d m, UData.find ⟨(k, d) :: u.tab.filter fun p => p.1 != k, c⟩ m = if m = k then some d else u.find m := by
    intro c d m
    unfold UData.find
    dsimp only
    rw [List.find?_cons]
    by_cases hm : m = k
    · subst hm; simp
    · rw [show ((k, d).1 == m) = false by simp; exact fun e => hm e.symm, if_neg hm]
      exact hfil c m hm
  by_cases hv : v = 0
  · rw [if_pos hv]
    cases hf : u.find k with
    | none => rw [h1 hv hf] at h; cases h
    | some d =>
      rw [h2 hv d hf] at h
      cases h
      refine ⟨?_, fun m hm => ?_, ?_⟩
      · unfold UData.get; rw [UData.find_filter, if_pos rfl]; rfl
      · unfold UData.get; rw [hfil _ m hm]
      · simp [hv]
  · rw [if_neg hv]
    cases hf : u.find k with
    | none =>
      rw [h3 hv hf] at h
      cases h
      refine ⟨?_, fun m hm => ?_, ?_⟩
      · unfold UData.get; rw [hcons, if_pos rfl]; rfl
      · unfold UData.get; rw [hcons, if_neg hm]
      · simp [hv, UData.get, hf]
    | some d =>
      rw [h4 hv d hf] at h
      cases h
      refine ⟨?_, fun m hm => ?_, ?_⟩
      · unfold UData.get; rw [hcons, if_pos rfl]; rfl
      · unfold UData.get; rw [hcons, if_neg hm]
      · simp [hv, UData.get, hf]

/-- What is still to be cleaned up. -/
def UData.alive (u : UData) : List Datum := (u.tab.map (·.2)).filter fun d => d.fn ≠ 0

theorem UData.destroy_eq (u : UData) : u.destroy = u.cleaned ++ u.alive := rfl

theorem filter_key_perm (l : List (String × Datum)) (h : (l.map (·.1)).Nodup) (k : String) (d : Datum) (hm : (k, d) ∈ l) :
    l.Perm ((k, d) :: l.filter fun p => p.1 != k) := by
  induction l with
  | nil => cases hm
  | cons p t ih =>
    simp only [List.map_cons, List.nodup_cons] at h
    rcases List.mem_cons.1 hm with hp | hp
    · subst hp
      rw [List.filter_cons, if_neg (by simp)]
      have : t.filter (fun p => p.1 != k) = t := by
        rw [List.filter_eq_self]
        intro q hq
        simp only [bne_iff_ne, ne_eq]
        rintro rfl
        exact h.1 (List.mem_map.2 ⟨q, hq, rfl⟩)
      rw [this]
    · have hne : p.1 ≠ k := by
        rintro rfl
        exact h.1 (List.mem_map.2 ⟨_, hp, rfl⟩)
      rw [List.filter_cons, if_pos (by simp [hne])]
      exact ((ih h.2 hp).cons p).trans (.swap _ _ _)

theorem filter_key_none (l : List (String × Datum)) (k : String) (h : ∀ d, (k, d) ∉ l) : (l.filter fun p => p.1 != k) = l := by
  rw [List.filter_eq_self]
  intro q hq
  simp only [bne_iff_ne, ne_eq]
  rintro rfl
  exact h q.2 hq

theorem UData.set_inv {u u' : UData} {k : String} {v f : Nat} {b : Bool} (hu : u.Ok) (h : u.set k v f = .ok (b, u')) :
    u'.Ok ∧ u'.destroy.Perm (handedOver [(k, v, f)] ++ u.destroy) := by
  obtain ⟨h1, h2, h3, h4⟩ := u.set_eq k v f
  have hokf : ((u.tab.filter fun p => p.1 != k).map (·.1)).Nodup := hu.sublist (List.filter_sublist.map _)
  have hnot : ∀ d : Datum, k ∉ (u.tab.filter fun p => p.1 != k).map (·.1) := by
    intro d hm
    obtain ⟨q, hq, he⟩ := List.mem_map.1 hm
    have := (List.mem_filter.1 hq).2
    simp [he] at this
  have hd : ∀ d, u.find k = some d → ∀ t : List (String × Datum), (∀ c : List Datum,
      (UData.destroy { (u.clean d) with tab := t ++ u.tab.filter fun p => p.1 != k }).Perm ((t.map (·.2)).filter (fun d => d.fn ≠ 0) ++ u.destroy)) := by
    intro d hf t _
    have hp := filter_key_perm u.tab hu k d ((UData.find_some hu).1 hf)
    have hp2 : u.alive.Perm ((if d.fn ≠ 0 then [d] else []) ++ ((u.tab.filter fun p => p.1 != k).map (·.2)).filter fun d => d.fn ≠ 0) := by
      have := (hp.map (·.2)).filter fun d => d.fn ≠ 0
      refine this.trans ?_
      simp only [List.map_cons, List.filter_cons]
      split
      · next h => simp at h; simp [h]
      · next h => simp at h; simp [h]
    rw [UData.destroy_eq, UData.destroy_eq]
    unfold UData.alive at *
    dsimp only
    rw [List.map_append, List.filter_append]
    unfold UData.clean
    by_cases hfn : d.fn ≠ 0
    · rw [if_pos hfn] at hp2 ⊢
      dsimp only
      refine List.Perm.trans ?_ (List.Perm.append_left _ (List.Perm.append_left _ hp2.symm))
      grind
    · rw [if_neg hfn] at hp2 ⊢
      refine List.Perm.trans ?_ (List.Perm.append_left _ (List.Perm.append_left _ hp2.symm))
      grind
  by_cases hv : v = 0
  · cases hf : u.find k with
    | none => rw [h1 hv hf] at h; cases h
    | some d =>
      rw [h2 hv d hf] at h
      cases h
      refine ⟨hokf, ?_⟩
      have := hd d hf [] []
      simpa [handedOver, hv] using this
  · have hh : handedOver [(k, v, f)] = ([(k, (⟨v, f⟩ : Datum))].map (·.2)).filter fun d => d.fn ≠ 0 := by
      by_cases hf : f = 0 <;> simp [handedOver, hv, hf]
    cases hf : u.find k with
    | none =>
      rw [h3 hv hf] at h
      cases h
      have hno : ∀ d, (k, d) ∉ u.tab := by
        intro d hm; rw [← UData.find_some hu, hf] at hm; cases hm
      refine ⟨?_, ?_⟩
      · unfold UData.Ok; simp only [List.map_cons, List.nodup_cons]; exact ⟨hnot ⟨v, f⟩, hokf⟩
      · rw [hh, filter_key_none _ _ hno]
        rw [UData.destroy_eq, UData.destroy_eq]
        unfold UData.alive
        dsimp only
        rw [show (k, (⟨v, f⟩ : Datum)) :: u.tab = [(k, ⟨v, f⟩)] ++ u.tab from rfl, List.map_append, List.filter_append]
        grind
    | some d =>
      rw [h4 hv d hf] at h
      cases h
      refine ⟨?_, ?_⟩
      · unfold UData.Ok; simp only [List.map_cons, List.nodup_cons]; exact ⟨hnot ⟨v, f⟩, hokf⟩
      · rw [hh]; exact hd d hf [(k, ⟨v, f⟩)] []

/-- After any history of calls that all return, destroying the store leaves every value handed over with a clean-up
function cleaned up exactly as often as it was handed over (once per call), and nothing else cleaned up; before that, a value has
been cleaned up exactly if it is no longer in the store. -/
theorem C28_clean (l : List (String × Nat × Nat)) (u : UData) (h : UData.empty.setAll l = .ok u) :
    u.destroy.Perm (handedOver l) ∧ (u.cleaned ++ u.alive).Perm (handedOver l) := by
  have key : ∀ (l : List (String × Nat × Nat)) (u0 : UData), u0.Ok → u0.setAll l = .ok u →
      u.destroy.Perm (handedOver l ++ u0.destroy) := by
    intro l
    induction l with
    | nil => intro u0 _ hx; cases hx; exact .refl _
    | cons p l ih =>
      intro u0 hu hx
      obtain ⟨k, v, f⟩ := p
      simp only [UData.setAll] at hx
      cases hs : u0.set k v f with
      | ok q =>
        rw [hs] at hx
        obtain ⟨h1, h2⟩ := UData.set_inv hu hs
        refine (ih q.2 h1 hx).trans ?_
        refine (List.Perm.append_left _ h2).trans ?_
        have : handedOver ((k, v, f) :: l) = handedOver [(k, v, f)] ++ handedOver l := by
          simp [handedOver, List.filterMap_cons]
          split <;> simp_all
        rw [this]
        grind
      | _ => rw [hs] at hx; cases hx
  have := key l UData.empty (by simp [UData.Ok, UData.empty]) h
  have e : UData.empty.destroy = [] := rfl
  rw [e, List.append_nil] at this
  exact ⟨this, this⟩

example : (UData.empty.setAll [("a", 5, 1), ("b", 6, 1), ("a", 7, 2), ("b", 0, 0)]).bind (fun u => .ok (u.cleaned, u.destroy)) =
    .ok ([⟨5, 1⟩, ⟨6, 1⟩], [⟨5, 1⟩, ⟨6, 1⟩, ⟨7, 2⟩]) := by decide +kernel

/-- Setting null for a key that is absent erases the end iterator: undefined behaviour. -/
theorem C28_fails_null (u : UData) (k : String) (f : Nat) (h : u.get k = none) : u.set k 0 f = .ub := by
  refine (u.set_eq k 0 f).1 rfl ?_
  unfold UData.get at h
  cases hf : u.find k with
  | none => rfl
  | some d => rw [hf] at h; cases h

end Ginga
