import Verif.Props.C70
/-!
# C71: a text is shown as its document says
-/
set_option linter.unusedSimpArgs false
namespace Ginga

variable {σ : Type}

/-! ## What is claimed -/

/-- The properties of a text, and what each is by default. -/
def textProps : List (String × PCode × String) :=
  [("fontColor", .fontColor, "black"), ("fontBgColor", .fontBgColor, ""), ("fontFamily", .fontFamily, "sans"), ("fontSize", .fontSize, "12"), ("fontStyle", .fontStyle, ""),
   ("fontVariant", .fontVariant, ""), ("fontWeight", .fontWeight, ""), ("horzAlign", .horzAlign, "left"), ("vertAlign", .vertAlign, "top")]

/-- The value of such a property. -/
def TProp.slot (t : TProp) : PCode → Slot
  | .fontColor => .color t.fontColor
  | .fontBgColor => .color t.fontBgColor
  | .fontFamily => .text t.fontFamily
  | .fontSize => .text t.fontSize
  | .fontStyle => .text t.fontStyle
  | .fontVariant => .text t.fontVariant
  | .fontWeight => .text t.fontWeight
  | .horzAlign => .text t.horzAlign
  | .vertAlign => .text t.vertAlign
  | _ => .none

/-- What a text says as the value of such a property; `none`: nothing. -/
def textMeaning (color : Str → Option Color) (c : PCode) (v : Str) : Option Slot :=
  let oneOf (l : List String) : Option Slot := if v ∈ l.map String.toList then some (.text v) else none
  match c with
  | .fontColor | .fontBgColor => if v = [] then some (.color (0, 0, 0, 0)) else (color v).map .color
  | .fontFamily | .fontSize => some (.text v)
  | .fontStyle => oneOf ["", "normal", "italic"]
  | .fontVariant => oneOf ["", "small-caps"]
  | .fontWeight => oneOf ["", "normal", "bold"]
  | .horzAlign => oneOf ["", "left", "right", "center", "justified"]
  | .vertAlign => oneOf ["", "top", "middle", "bottom"]
  | _ => none

/-! ## Proofs -/

theorem textSet_hit {color : Str → Option Color} {c : PCode} (hc : c.textual = true) {v : Str} {t t' : TProp} (h : textSet color c v t = some t') :
    textMeaning color c v = some (t'.slot c) := by
  cases c <;> first | cases hc | skip
  all_goals simp only [textSet, textMeaning, colorOf] at h ⊢
  case fontColor | fontBgColor =>
    split
    · next hv => rw [if_pos hv] at h; cases h; rfl
    · next hv =>
      rw [if_neg hv] at h
      obtain ⟨c, hc, rfl⟩ := Option.map_eq_some_iff.1 h
      rw [hc]; rfl
  case fontFamily | fontSize => cases h; rfl
  all_goals
    split at h
    · next hv => cases h; rw [if_pos hv]; rfl
    · cases h

theorem textSet_miss {color : Str → Option Color} {c c' : PCode} (hne : c ≠ c') {v : Str} {t t' : TProp} (h : textSet color c v t = some t') : t'.slot c' = t.slot c' := by
  cases c <;> simp only [textSet] at h
  case fontColor | fontBgColor =>
    obtain ⟨a, -, rfl⟩ := Option.map_eq_some_iff.1 h
    cases c' <;> first | rfl | exact absurd rfl hne
  case fontStyle | fontVariant | fontWeight | horzAlign | vertAlign =>
    split at h
    · cases h
      cases c' <;> first | rfl | exact absurd rfl hne
    · cases h
  all_goals
    cases h
    cases c' <;> first | rfl | exact absurd rfl hne

theorem pset_text {F : FP} {color : Str → Option Color} {name : String} {v : Str} {p p' : Pl σ} (hk : p.kind = .text) (h : p.pset F color name v = .ok p') :
    (∀ c d, propInfo name = some (c, d) → c.textual = true → textMeaning color c (if v = [] then d else v) = some (p'.txt.slot c)) ∧
    (∀ c', codeOf name ≠ some c' → p'.txt.slot c' = p.txt.slot c') ∧ (∀ k, k ∉ geoNames → p'.st.media k = p.st.media k) := by
  unfold Pl.pset at h
  split at h
  · next code d _ hi =>
    split at h
    · next ht =>
      split at h
      · cases h
      · next t hts =>
        cases h
        refine ⟨fun c d' hi' hc => ?_, fun c' hc' => ?_, fun _ _ => rfl⟩
        · rw [hi] at hi'; cases hi'
          exact textSet_hit hc hts
        · exact textSet_miss (fun e => hc' (by simp [codeOf, hi, e])) hts
    · next ht =>
      obtain ⟨s, hs, h⟩ := Res.bind_eq_ok h
      cases h
      refine ⟨fun c d' hi' hc => ?_, fun c' _ => rfl, fun k hk' => set_media _ 3 hk' hs⟩
      rw [hi] at hi'; cases hi'
      exact absurd hc ht
  · next hno =>
    obtain ⟨s, hs, h⟩ := Res.bind_eq_ok h
    have hi : propInfo name = none := by
      cases hi : propInfo name with
      | none => rfl
      | some q => exact absurd hi (hno q.1 q.2 hk)
    have hst : p'.txt = p.txt ∧ p'.st = s := by
      split at h
      · obtain ⟨t, -, h⟩ := Res.bind_eq_ok h
        cases h; exact ⟨rfl, rfl⟩
      · cases h; exact ⟨rfl, rfl⟩
    refine ⟨fun c d' hi' _ => ?_, fun c' _ => by rw [hst.1], fun k hk' => by rw [hst.2]; exact set_media _ 3 hk' hs⟩
    rw [hi] at hi'; cases hi'

theorem text_code {name : String} {c : PCode} {d : String} (hp : (name, c, d) ∈ textProps) :
    propInfo name = some (c, d.toList) ∧ c.textual = true ∧ name ∉ geoNames ∧ (∀ k, codeOf k = some c → k = name) := by
  have key : ∀ p ∈ textProps, propInfo p.1 = some (p.2.1, p.2.2.toList) ∧ p.2.1.textual = true ∧ p.1 ∉ geoNames ∧
      (∀ q ∈ propTable, q.2.1 = p.2.1 → q.1 = p.1) ∧ (∀ q ∈ aliasTable, codeOf q.1 ≠ some p.2.1) := by decide +kernel
  obtain ⟨h1, h2, h3, h4, h5⟩ := key _ hp
  refine ⟨h1, h2, h3, fun k hk => ?_⟩
  rcases code_names hk with ⟨q, hq, rfl, hqc⟩ | ⟨q, hq, rfl⟩
  · exact h4 q hq hqc
  · exact absurd hk (h5 q hq)

/-- The values after the loop over the properties. -/
theorem text_loop {F : FP} {color : Str → Option Color} {name : String} {c : PCode} {d : String} (hp : (name, c, d) ∈ textProps) : ∀ (todo keys : List String) {p p' : Pl σ},
    p.kind = .text → todo.Nodup → startLoop (Pl.pset F color) (·.st.media) todo keys p = .ok p' →
    (name ∉ todo ∨ name ∉ keys → p'.txt.slot c = p.txt.slot c) ∧
    (name ∈ todo → name ∈ keys → textMeaning color c (if p.st.media name = [] then d.toList else p.st.media name) = some (p'.txt.slot c)) := by
  obtain ⟨hi, ht, hg, hu⟩ := text_code hp
  intro todo
  induction todo with
  | nil => intro keys p p' _ _ h; cases h; exact ⟨fun _ => rfl, fun h => by cases h⟩
  | cons k todo ih =>
    intro keys p p' hk hn h
    rw [List.nodup_cons] at hn
    unfold startLoop at h
    split at h
    · next hkk =>
      obtain ⟨q, hq, h⟩ := Res.bind_eq_ok h
      have hqk : q.kind = .text := (pset_keeps hq).1.trans hk
      obtain ⟨a, b, m⟩ := pset_text hk hq
      obtain ⟨i1, i2⟩ := ih _ hqk hn.2 h
      have hadd : name ∈ addedKeys k ++ keys ↔ name ∈ keys := by
        rw [List.mem_append]
        exact ⟨fun h => h.resolve_left (fun h => hg (addedKeys_geo h)), .inr⟩
      by_cases hkn : k = name
      · subst hkn
        refine ⟨fun h' => ?_, fun _ _ => ?_⟩
        · rcases h' with h' | h'
          · exact absurd List.mem_cons_self h'
          · exact absurd hkk h'
        · rw [i1 (.inl hn.1)]
          exact a c _ hi ht
      · have hbk := b c (fun hc => hkn (hu k hc))
        refine ⟨fun h' => ?_, fun h1 h2 => ?_⟩
        · rw [i1 ?_, hbk]
          rcases h' with h' | h'
          · exact .inl (fun h'' => h' (List.mem_cons_of_mem _ h''))
          · exact .inr (fun h'' => h' (hadd.1 h''))
        · rw [← m name hg]
          exact i2 ((List.mem_cons.1 h1).resolve_left (fun e => hkn e.symm)) (hadd.2 h2)
    · next hkk =>
      obtain ⟨i1, i2⟩ := ih _ hk hn.2 h
      refine ⟨fun h' => i1 ?_, fun h1 h2 => ?_⟩
      · rcases h' with h' | h'
        · exact .inl (fun h'' => h' (List.mem_cons_of_mem _ h''))
        · exact .inr h'
      · refine i2 ((List.mem_cons.1 h1).resolve_left ?_) h2
        rintro rfl
        exact hkk h2

/-- The values that the constructor leaves: the defaults, but for the colour of the background of the text. -/
theorem newText_ok {color : Str → Option Color} {t0 t : TProp} (h : newText color textHandled t0 = .ok t) :
    (∀ name c d, (name, c, d) ∈ textProps → name ≠ "fontBgColor" → textMeaning color c d.toList = some (t.slot c)) ∧ t.fontBgColor = t0.fontBgColor := by
  have hi : ∀ p ∈ textProps, propInfo p.1 = some (p.2.1, p.2.2.toList) := by decide +kernel
  have e0 : propInfo "bgColor" = none := by decide +kernel
  have e1 := hi ("fontColor", .fontColor, "black") (by decide)
  have e3 := hi ("fontFamily", .fontFamily, "sans") (by decide)
  have e4 := hi ("fontSize", .fontSize, "12") (by decide)
  have e5 := hi ("fontStyle", .fontStyle, "") (by decide)
  have e6 := hi ("fontVariant", .fontVariant, "") (by decide)
  have e7 := hi ("fontWeight", .fontWeight, "") (by decide)
  have e8 := hi ("horzAlign", .horzAlign, "left") (by decide)
  have e9 := hi ("vertAlign", .vertAlign, "top") (by decide)
  dsimp only at e1 e3 e4 e5 e6 e7 e8 e9
  cases hb : color "black".toList with
  | none =>
    simp only [newText, textHandled, e0, e1, textSet, colorOf] at h
    rw [if_neg (by decide), hb] at h
    cases h
  | some b =>
    simp only [newText, textHandled, e0, e1, e3, e4, e5, e6, e7, e8, e9, textSet, colorOf] at h
    rw [if_neg (by decide), hb] at h
    simp only [Option.map_some] at h
    rw [if_pos (by decide), ] at h
    dsimp only at h
    rw [if_pos (by decide)] at h
    dsimp only at h
    rw [if_pos (by decide)] at h
    dsimp only at h
    rw [if_pos (by decide)] at h
    dsimp only at h
    rw [if_pos (by decide)] at h
    dsimp only at h
    cases h
    refine ⟨fun name c d hp hn => ?_, rfl⟩
    simp only [textProps, List.mem_cons, List.not_mem_nil, or_false, Prod.mk.injEq] at hp
    rcases hp with ⟨rfl, rfl, rfl⟩ | ⟨rfl, rfl, rfl⟩ | ⟨rfl, rfl, rfl⟩ | ⟨rfl, rfl, rfl⟩ | ⟨rfl, rfl, rfl⟩ | ⟨rfl, rfl, rfl⟩ | ⟨rfl, rfl, rfl⟩ | ⟨rfl, rfl, rfl⟩ | ⟨rfl, rfl, rfl⟩
    · simp only [textMeaning]; rw [if_neg (by decide), hb]; rfl
    · exact absurd rfl hn
    all_goals rfl

theorem begin_txt {F : FP} {color : Str → Option Color} {D : DEnv σ} {p p' : Pl σ} (h : p.begin F color D = .ok p') : p'.txt = p.txt := by
  unfold Pl.begin at h
  obtain ⟨r, hr, h⟩ := Res.bind_eq_ok h
  obtain ⟨a, -, h⟩ := Res.bind_eq_ok h
  cases h
  show r.txt = p.txt
  unfold reload at hr
  dsimp only at hr
  repeat' split at hr
  all_goals first
    | (cases hr; rfl)
    | cases hr

theorem start_text {F : FP} {color : Str → Option Color} {D : DEnv σ} {W H : Int} {keys : List String} {media : Store} (hm : media.Has keys) {p0 : PProp} {t0 : TProp} {p : Pl σ}
    (h : startPl F color D .text W H keys media p0 t0 = .ok p) {name : String} {c : PCode} {d : String} (hp : (name, c, d) ∈ textProps) :
    (name ∈ keys → textMeaning color c (orDef d (media name)) = some (p.txt.slot c)) ∧
    (name ∉ keys → (name ≠ "fontBgColor" → textMeaning color c d.toList = some (p.txt.slot c)) ∧ (name = "fontBgColor" → p.txt.fontBgColor = t0.fontBgColor)) := by
  unfold startPl at h
  obtain ⟨s, -, h⟩ := Res.bind_eq_ok h
  obtain ⟨t, ht, h⟩ := Res.bind_eq_ok h
  obtain ⟨q, hq, h⟩ := Res.bind_eq_ok h
  rw [if_pos rfl] at ht
  obtain ⟨n1, n2⟩ := newText_ok ht
  rw [begin_txt h]
  have hne : name ≠ "uri" ∧ name ≠ "type" := by
    have : ∀ p ∈ textProps, p.1 ≠ "uri" ∧ p.1 ≠ "type" := by decide
    exact this _ hp
  have hkeys : name ∈ startKeys keys ↔ name ∈ keys := by simp [startKeys, hne.1, hne.2]
  have hnd : (startOrder (startKeys keys)).Nodup := (mapKeys_sorted _).imp (fun h e => by subst e; exact String.lt_irrefl _ h)
  obtain ⟨l1, l2⟩ := text_loop hp _ _ (by rfl) hnd hq
  have hst : startStore media name = media name := by unfold startStore; exact upd_ne _ _ hne.2
  refine ⟨fun hk => ?_, fun hk => ⟨fun hb => ?_, fun hb => ?_⟩⟩
  · have := l2 (mem_mapKeys.2 (List.mem_append_right _ (hkeys.2 hk))) (hkeys.2 hk)
    rw [← hst]
    exact this
  · rw [l1 (.inr (fun h => hk (hkeys.1 h)))]
    exact n1 name c d hp hb
  · subst hb
    have hc : c = .fontBgColor := by
      have : ∀ p ∈ textProps, p.1 = "fontBgColor" → p.2.1 = .fontBgColor := by decide
      exact this _ hp rfl
    subst hc
    have := l1 (.inr (fun h => hk (hkeys.1 h)))
    simp only [TProp.slot, Slot.color.injEq] at this
    rw [this, n2]

/-! ## The property -/

/-- A text that starts has each of its properties as its document says, under no other condition; one that is not given, or given as the empty string, is the default, but for the colour of
the background of the text, which must be given. -/
theorem C71_values {F : FP} {color : Str → Option Color} {D : DEnv σ} {W H : Int} {keys : List String} {media : Store} (hm : media.Has keys) {p0 : PProp} {t0 : TProp} {p : Pl σ}
    (h : startPl F color D .text W H keys media p0 t0 = .ok p) {name : String} {c : PCode} {d : String} (hp : (name, c, d) ∈ textProps) (hg : name = "fontBgColor" → name ∈ keys) :
    textMeaning color c (orDef d (media name)) = some (p.txt.slot c) := by
  obtain ⟨a, b⟩ := start_text hm h hp
  by_cases hk : name ∈ keys
  · exact a hk
  · rw [hm name hk]
    exact (b hk).1 (fun e => hk (hg e))

/-- Whatever happens to a text afterwards, a property has the value that was set last, and keeps it while others are set, time passes, frames are drawn or the window is resized. -/
theorem C71_set {F : FP} {color : Str → Option Color} {D : DEnv σ} {p p' : Pl σ} (hk : p.kind = .text) {o : PlOp} (h : plStep F color D p o = .ok p') {name : String} {c : PCode} {d : String}
    (hp : (name, c, d) ∈ textProps) :
    p'.kind = .text ∧ (∀ v, o = .set name v 0 → textMeaning color c (orDef d v) = some (p'.txt.slot c) ∧ p'.st.prop.dirty = true) ∧
    ((∀ v, o ≠ .set name v 0) → p'.txt.slot c = p.txt.slot c) := by
  obtain ⟨hi, ht, hg, hu⟩ := text_code hp
  cases o with
  | time n => cases h; exact ⟨hk, (fun v e => by cases e), fun _ => rfl⟩
  | resize W H =>
    obtain ⟨s, -, h⟩ := Res.bind_eq_ok h
    cases h
    exact ⟨hk, (fun v e => by cases e), fun _ => rfl⟩
  | frame focus =>
    obtain ⟨⟨q, l⟩, hr, h⟩ := Res.bind_eq_ok h
    cases h
    have hq : q.txt = p.txt ∧ q.kind = p.kind := by
      unfold redrawPlayer at hr
      obtain ⟨a, -, hr⟩ := Res.bind_eq_ok hr
      dsimp only at hr
      split at hr
      · obtain ⟨r, hr', hr⟩ := Res.bind_eq_ok hr
        cases hr
        split at hr'
        · unfold reload at hr'
          dsimp only at hr'
          repeat' split at hr'
          all_goals first
            | (cases hr'; exact ⟨rfl, rfl⟩)
            | cases hr'
        · cases hr'; exact ⟨rfl, rfl⟩
      · cases hr; exact ⟨rfl, rfl⟩
    exact ⟨hq.2.trans hk, (fun v e => by cases e), fun _ => by show q.txt.slot c = _; rw [hq.1]⟩
  | set n v dur =>
    change p.set F color n v dur = .ok p' at h
    unfold Pl.set at h
    dsimp only at h
    split at h
    · next hd =>
      obtain ⟨a, -, h⟩ := Res.bind_eq_ok h
      cases h
      refine ⟨hk, (fun v' e => ?_), fun _ => rfl⟩
      cases e
      exact absurd hd (Nat.lt_irrefl 0)
    · next hd =>
      have hd0 : dur = 0 := by omega
      subst hd0
      obtain ⟨a, b, -⟩ := pset_text (by exact hk) h
      refine ⟨(pset_keeps h).1.trans hk, fun v' e => ?_, fun hne => b c (fun hc => hne v (by rw [hu n hc]))⟩
      cases e
      refine ⟨a c _ hi ht, ?_⟩
      unfold Pl.pset at h
      simp only [hk, hi, ht, if_true] at h
      split at h
      · cases h
      · cases h; rfl

/-! ## What is false -/

/-- The colour of the background of a text for which none is given is whatever was in memory. -/
theorem C71_fails_background {F : FP} {color : Str → Option Color} {D : DEnv σ} {W H : Int} {keys : List String} {media : Store} (hm : media.Has keys) {p0 : PProp} {t0 : TProp} {p : Pl σ}
    (h : startPl F color D .text W H keys media p0 t0 = .ok p) (hk : "fontBgColor" ∉ keys) : p.txt.fontBgColor = t0.fontBgColor :=
  ((start_text hm h (name := "fontBgColor") (c := .fontBgColor) (d := "") (by decide)).2 hk).2 rfl

/-- Small capitals make no difference to what is drawn. -/
theorem C71_fails_variant (D : DEnv σ) (p : Pl σ) (v : Str) : content D { p with txt := { p.txt with fontVariant := v } } = content D p := rfl

/-- A value that says nothing ends the process. -/
theorem C71_fails_value {F : FP} {color : Str → Option Color} {p : Pl σ} (hk : p.kind = .text) {name : String} {c : PCode} {d : String} (hp : (name, c, d) ∈ textProps) {v : Str}
    (hv : textMeaning color c (orDef d v) = none) : p.set F color name v 0 = .abort := by
  obtain ⟨hi, ht, hg, hu⟩ := text_code hp
  unfold Pl.set Pl.pset
  dsimp only
  rw [if_neg (Nat.lt_irrefl 0)]
  simp only [hk, hi, ht, if_true]
  have : textSet color c (if v = [] then d.toList else v) p.txt = none := by
    cases hts : textSet color c (if v = [] then d.toList else v) p.txt with
    | none => rfl
    | some t => rw [show orDef d v = (if v = [] then d.toList else v) from rfl, textSet_hit ht hts] at hv; cases hv
  rw [this]

/-! ## Examples -/

/-- The text properties with which a text starts. -/
def textOf (props : List (String × String)) (t0 : TProp) : Option TProp :=
  match startPl penv0.F colors1 denv1 .text 100 100 (keysOfList props) (storeOf props) pst0.prop t0 with
  | .ok p => some p.txt
  | _ => none

example : textOf [("uri", "a.txt"), ("fontColor", "yellow"), ("fontWeight", "bold"), ("horzAlign", "")] tprop0 =
    some ⟨(1, 1, 0, 1), (0, 0, 0, 0), "sans".toList, "12".toList, [], [], "bold".toList, "left".toList, "top".toList⟩ := by decide +kernel

/-- With other contents of the memory the same text has another background; `oblique` and an unknown colour end the process. -/
theorem C71_fails_memory : (textOf [("uri", "a.txt")] { tprop0 with fontBgColor := (1, 0, 0, 1) }).map (·.fontBgColor) = some (1, 0, 0, 1) ∧
    (textOf [("uri", "a.txt")] tprop0).map (·.fontBgColor) = some (0, 0, 0, 0) ∧ textOf [("uri", "a.txt"), ("fontStyle", "oblique")] tprop0 = none ∧
    textOf [("uri", "a.txt"), ("fontColor", "nocolor")] tprop0 = none :=
  ⟨by decide +kernel, by decide +kernel, by decide +kernel, by decide +kernel⟩

end Ginga
