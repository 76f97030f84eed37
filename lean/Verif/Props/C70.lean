import Verif.Model.Show
import Verif.Props.C69
import Verif.Props.C38
import Verif.Props.C68b
/-!
# C70: a media object shows its current content
-/
set_option linter.unusedSimpArgs false
namespace Ginga

variable {σ : Type}

/-! ## What is claimed -/

/-- The content that a media object has: its image, its drawing at its size, its text with its properties at its size. -/
def content (D : DEnv σ) (p : Pl σ) : Option σ := match p.kind with
  | .image => D.image p.st.prop.uri
  | .svg => D.svg p.st.prop.uri p.st.prop.w p.st.prop.h
  | .text => D.text p.st.prop.uri p.txt.rendered p.st.prop.w p.st.prop.h
  | _ => none

/-- The property of a media object that something changes. -/
def PlOp.sets : PlOp → String → Prop
  | .set n _ _, m => n = m
  | _, _ => False

/-- The property of a media object that something changes during some time. -/
def PlOp.animates : PlOp → String → Prop
  | .set n _ d, m => n = m ∧ 0 < d
  | _, _ => False

/-! ## Settings -/

/-- What a setting other than `uri` does to what the content depends on. -/
structure Marks (s s' : PSt) : Prop where
  uri : s'.prop.uri = s.prop.uri
  attached : s'.attached = s.attached
  size : s'.prop.dirty = true ∨ (s'.prop.dirty = s.prop.dirty ∧ s'.prop.w = s.prop.w ∧ s'.prop.h = s.prop.h)

theorem Marks.refl (s : PSt) : Marks s s := ⟨rfl, rfl, .inr ⟨rfl, rfl, rfl⟩⟩

theorem Marks.trans {a b c : PSt} (h : Marks a b) (h' : Marks b c) : Marks a c :=
  ⟨h'.uri.trans h.uri, h'.attached.trans h.attached, by
    rcases h'.size with d | ⟨d, w, k⟩
    · exact .inl d
    · rcases h.size with d' | ⟨d', w', k'⟩
      · exact .inl (d.trans d')
      · exact .inr ⟨d.trans d', w.trans w', k.trans k'⟩⟩

theorem setMany_marks {mset : String → Str → PSt → Res PSt} (hm : ∀ n v s s', n ≠ "uri" → mset n v s = .ok s' → Marks s s') :
    ∀ (l : List (String × Str)) (s s' : PSt), (∀ p ∈ l, p.1 ≠ "uri") → setMany mset l s = .ok s' → Marks s s'
  | [], s, s', _, h => by cases h; exact .refl _
  | (n, v) :: l, s, s', hl, h => by
    obtain ⟨s1, h1, h2⟩ := Res.bind_eq_ok h
    exact (hm _ _ _ _ (hl _ List.mem_cons_self) h1).trans (setMany_marks hm l s1 s' (fun p hp => hl p (List.mem_cons_of_mem _ hp)) h2)

theorem doSet_marks (e : PEnv) {mset : String → Str → PSt → Res PSt} (hm : ∀ n v s s', n ≠ "uri" → mset n v s = .ok s' → Marks s s')
    {code : PCode} (hc : code ≠ .uri) {v : Str} {s s' : PSt} (h : doSetProperty e mset code v s = .ok (some s')) : Marks s s' := by
  have many : ∀ {l : List (String × Str)} {s' : PSt}, (∀ p ∈ l, p.1 ≠ "uri") → ((setMany mset l s).bind fun s => (Res.ok (some s) : Res (Option PSt))) = .ok (some s') → Marks s s' := by
    intro l s' hl hr
    obtain ⟨a, h1, ha⟩ := Res.bind_eq_ok hr
    cases ha
    exact setMany_marks hm l _ _ hl h1
  unfold doSetProperty at h
  dsimp only at h
  cases code <;> dsimp only at h
  case uri => exact absurd rfl hc
  case bounds | location | size =>
    split at h
    · exact many (by simp) h
    · cases h
  case debug | focusBorderColor | focusBorderWidth | selBorderColor | zIndex | zOrder | visible => obtain ⟨_, -, ha⟩ := Res.bind_eq_ok h; cases ha; exact ⟨rfl, rfl, .inr ⟨rfl, rfl, rfl⟩⟩
  case focusIndex | focusBorderTransparency | transparency | type => cases h; exact ⟨rfl, rfl, .inr ⟨rfl, rfl, rfl⟩⟩
  case left | top => cases h; exact ⟨rfl, rfl, .inl rfl⟩
  case right | bottom =>
    obtain ⟨d, -, h⟩ := Res.bind_eq_ok h
    obtain ⟨_, -, ha⟩ := Res.bind_eq_ok h; cases ha; exact ⟨rfl, rfl, .inl rfl⟩
  case width | height =>
    split at h
    · obtain ⟨a, h1, ha⟩ := Res.bind_eq_ok h
      cases ha
      refine Marks.trans ?_ (hm _ _ _ _ (by decide) h1)
      exact ⟨rfl, rfl, .inl rfl⟩
    · cases h
      exact ⟨rfl, rfl, .inl rfl⟩
  case background =>
    split at h
    · cases h; exact ⟨rfl, rfl, .inr ⟨rfl, rfl, rfl⟩⟩
    · obtain ⟨_, -, ha⟩ := Res.bind_eq_ok h; cases ha; exact ⟨rfl, rfl, .inr ⟨rfl, rfl, rfl⟩⟩
  case duration =>
    split at h
    · cases h; exact ⟨rfl, rfl, .inr ⟨rfl, rfl, rfl⟩⟩
    · obtain ⟨_, -, ha⟩ := Res.bind_eq_ok h; cases ha; exact ⟨rfl, rfl, .inr ⟨rfl, rfl, rfl⟩⟩
  all_goals (cases h; exact .refl _)

theorem info_uri : ∀ name c d, propInfo name = some (c, d) → name ≠ "uri" → c ≠ .uri := by
  intro name c d h hn hc
  subst hc
  unfold propInfo at h
  split at h
  · next p hp =>
    have hm := List.mem_of_find?_eq_some hp
    have hname : p.1 = name := by simpa using List.find?_some hp
    have key : ∀ p ∈ propTable, p.2.1 = .uri → p.1 = "uri" := by decide +kernel
    simp only [Option.some.injEq, Prod.mk.injEq] at h
    exact hn (hname ▸ key p hm h.1)
  · split at h
    · cases h
    · next a ha =>
      have hm := List.mem_of_find?_eq_some ha
      have key : ∀ a ∈ aliasTable, (propTable.find? (fun p => p.1 == a.2)).map (·.2.1) ≠ some .uri := by decide +kernel
      refine key a hm ?_
      rw [Option.map_eq_some_iff] at h ⊢
      obtain ⟨q, hq, he⟩ := h
      exact ⟨q, hq, (Prod.mk.injEq .. ▸ he).1⟩

theorem playerSet_marks (e : PEnv) : ∀ (k : Nat) (name : String) (v : Str) (s s' : PSt), name ≠ "uri" → playerSet e k name v s = .ok s' → Marks s s'
  | 0, _, _, _, _, _, h => by cases h
  | k + 1, name, v, s, s', hn, h => by
    have hm : ∀ n v s s', n ≠ "uri" → mediaSet1 (playerSet e k) n v s = .ok s' → Marks s s' := by
      intro n v s s' hn h
      unfold mediaSet1 at h
      dsimp only at h
      split at h
      · exact Marks.trans (b := { s with media := upd s.media n v }) ⟨rfl, rfl, .inr ⟨rfl, rfl, rfl⟩⟩ (playerSet_marks e k _ _ _ _ hn h)
      · cases h
        exact ⟨rfl, rfl, .inr ⟨rfl, rfl, rfl⟩⟩
    change playerSet1 e (mediaSet1 (playerSet e k)) name v s = .ok s' at h
    unfold playerSet1 at h
    dsimp only at h
    obtain ⟨-, -, h⟩ := Res.bind_eq_ok h
    split at h
    · cases h
      exact ⟨rfl, rfl, .inr ⟨rfl, rfl, rfl⟩⟩
    · next code d hi =>
      obtain ⟨r, hr, h⟩ := Res.bind_eq_ok h
      cases r with
      | none => cases h
      | some s1 =>
        cases h
        exact (doSet_marks e hm (info_uri _ _ _ hi hn) hr).trans ⟨rfl, rfl, .inr ⟨rfl, rfl, rfl⟩⟩

theorem mediaSet_marks (e : PEnv) {name : String} (hn : name ≠ "uri") {v : Str} {s s' : PSt} (h : mediaSet e name v s = .ok s') : Marks s s' := by
  unfold mediaSet mediaSet1 at h
  dsimp only at h
  split at h
  · exact Marks.trans (b := { s with media := upd s.media name v }) ⟨rfl, rfl, .inr ⟨rfl, rfl, rfl⟩⟩ (playerSet_marks e 3 _ _ _ _ hn h)
  · cases h
    exact ⟨rfl, rfl, .inr ⟨rfl, rfl, rfl⟩⟩

theorem resize_marks (e : PEnv) {W H : Int} {s s' : PSt} (h : resizeMedia e W H s = .ok s') : Marks s s' := by
  have one : ∀ {name : String} {s s' : PSt}, name ≠ "uri" → updateIfHave e name s = .ok s' → Marks s s' := by
    intro name s s' hn h
    unfold updateIfHave at h
    split at h
    · exact mediaSet_marks e hn h
    · cases h; exact .refl _
  unfold resizeMedia at h
  split at h
  · cases h
  · obtain ⟨s1, h1, h⟩ := Res.bind_eq_ok h
    obtain ⟨s2, h2, h⟩ := Res.bind_eq_ok h
    obtain ⟨s3, h3, h⟩ := Res.bind_eq_ok h
    obtain ⟨s4, h4, h⟩ := Res.bind_eq_ok h
    obtain ⟨s5, h5, h⟩ := Res.bind_eq_ok h
    have h0 : Marks s { s with W := W, H := H } := ⟨rfl, rfl, .inr ⟨rfl, rfl, rfl⟩⟩
    exact h0.trans ((one (by decide) h1).trans ((one (by decide) h2).trans ((one (by decide) h3).trans ((one (by decide) h4).trans
      ((one (by decide) h5).trans (one (by decide) h))))))

/-! ## Animations -/

/-- No animation changes the size. -/
def Still (l : List Anim) : Prop := ∀ a ∈ l, a.name ≠ "width" ∧ a.name ≠ "height"

theorem frame_still {F : FP} {t : Nat} {s s' : AState} (hs : Still s.infos) (h : animFrame F t s = .ok s') : s'.view.w = s.view.w ∧ s'.view.h = s.view.h ∧ Still s'.infos := by
  unfold animFrame at h
  obtain ⟨q, hq, h⟩ := Res.bind_eq_ok h
  cases h
  obtain ⟨w1, w2⟩ := loop_other F t "width" s.infos s.view q (fun a ha => (hs a ha).1) hq
  obtain ⟨h1, h2⟩ := loop_other F t "height" s.infos s.view q (fun a ha => (hs a ha).2) hq
  refine ⟨?_, ?_, fun a ha => ⟨w1 a (List.mem_filter.1 ha).1, h1 a (List.mem_filter.1 ha).1⟩⟩
  · simpa [View.get] using w2
  · simpa [View.get] using h2

theorem schedule_still {e : PEnv} {W H : Int} {now : Nat} {name : String} {src dst : Str} {dur : Nat} {s s' : AState} (hs : Still s.infos) (h1 : name ≠ "width") (h2 : name ≠ "height")
    (h : animSchedule e W H now name src dst dur s = .ok s') : s'.view = s.view ∧ Still s'.infos := by
  have mk : ∀ n src dst, (mkAnim e.F W H now n src dst dur).name = n := by
    intro n src dst
    unfold mkAnim
    dsimp only
    split <;> rfl
  unfold animSchedule at h
  dsimp only at h
  split at h
  · split at h
    · cases h
    · split at h <;> cases h
  · split at h
    · split at h
      · cases h
      · split at h <;> cases h
    · split at h
      · split at h
        · cases h
        · split at h <;> cases h
      · split at h
        · obtain ⟨pre, -, h⟩ := Res.bind_eq_ok h
          obtain ⟨pos, -, h⟩ := Res.bind_eq_ok h
          cases h
          refine ⟨rfl, fun a ha => ?_⟩
          simp only [List.mem_append, List.mem_cons, List.not_mem_nil, or_false] at ha
          rcases ha with ha | rfl | rfl | rfl
          · exact hs a ha
          all_goals (rw [mk]; decide)
        · cases h
          refine ⟨rfl, fun a ha => ?_⟩
          simp only [List.mem_append, List.mem_cons, List.not_mem_nil, or_false] at ha
          rcases ha with ha | rfl
          · exact hs a ha
          · rw [mk]; exact ⟨h1, h2⟩

theorem transition_still {e : PEnv} {W H : Int} {now : Nat} {tr : Option TransInfo} {s s' : AState} (hs : Still s.infos) (h : animTransition e W H now tr s = .ok s') :
    s'.view.w = s.view.w ∧ s'.view.h = s.view.h ∧ Still s'.infos := by
  unfold animTransition at h
  dsimp only at h
  split at h
  · cases h
    exact ⟨rfl, rfl, hs⟩
  · split at h
    · obtain ⟨fx, -, h⟩ := Res.bind_eq_ok h
      obtain ⟨fy, -, h⟩ := Res.bind_eq_ok h
      split at h
      all_goals
        obtain ⟨a, b⟩ := schedule_still (by exact hs) (by decide) (by decide) h
        rw [a]
        exact ⟨rfl, rfl, b⟩
    · split at h
      · obtain ⟨fx, -, h⟩ := Res.bind_eq_ok h
        obtain ⟨fy, -, h⟩ := Res.bind_eq_ok h
        obtain ⟨s1, h1, h⟩ := Res.bind_eq_ok h
        obtain ⟨a1, b1⟩ := schedule_still (by exact hs) (by decide) (by decide) h1
        obtain ⟨a, b⟩ := schedule_still b1 (by decide) (by decide) h
        rw [a, a1]
        exact ⟨rfl, rfl, b⟩
      · obtain ⟨a, b⟩ := schedule_still (by exact hs) (by decide) (by decide) h
        rw [a]
        exact ⟨rfl, rfl, b⟩

/-! ## The invariant -/

/-- What holds of a media object as long as its content is not set anew. -/
structure Fresh (D : DEnv σ) (p : Pl σ) : Prop where
  none : p.kind ≠ .image → p.kind ≠ .svg → p.kind ≠ .text → p.surface = none
  clean : p.st.prop.dirty = false → p.surface = content D p
  still : p.kind = .svg ∨ p.kind = .text → Still p.infos
  has : p.kind = .image ∨ p.kind = .svg ∨ p.kind = .text → p.surface.isSome = true

theorem content_congr {D : DEnv σ} {p q : Pl σ} (hk : q.kind = p.kind) (hu : q.st.prop.uri = p.st.prop.uri) (ht : q.txt = p.txt)
    (hs : p.kind = .svg ∨ p.kind = .text → q.st.prop.w = p.st.prop.w ∧ q.st.prop.h = p.st.prop.h) : content D q = content D p := by
  unfold content
  rw [hk, hu, ht]
  cases h : p.kind <;> simp only
  case svg => rw [(hs (.inl h)).1, (hs (.inl h)).2]
  case text => rw [(hs (.inr h)).1, (hs (.inr h)).2]

theorem reload_fresh {D : DEnv σ} {p p' : Pl σ} (hn : p.kind ≠ .image → p.kind ≠ .svg → p.kind ≠ .text → p.surface = none) (h : reload D p = .ok p') :
    p'.surface = content D p' ∧ (p.kind = .image ∨ p.kind = .svg ∨ p.kind = .text → p'.surface.isSome = true) ∧ p'.kind = p.kind ∧ p'.infos = p.infos ∧ p'.trin = p.trin ∧ p'.time = p.time ∧ p'.crop = p.crop ∧ p'.txt = p.txt ∧
    p'.st = { p.st with prop := { p.st.prop with dirty := false } } := by
  unfold reload at h
  dsimp only at h
  split at h
  · next hk =>
    split at h
    · cases h
    · next s hs =>
      cases h
      exact ⟨by simp [content, Pl.clean, hk, hs], fun _ => rfl, rfl, rfl, rfl, rfl, rfl, rfl, rfl⟩
  · next hk =>
    split at h
    · cases h
    · next s hs =>
      split at h
      · cases h
        exact ⟨by simp [content, Pl.clean, hk, hs], fun _ => rfl, rfl, rfl, rfl, rfl, rfl, rfl, rfl⟩
      · cases h
  · next hk =>
    split at h
    · cases h
    · next s hs =>
      split at h
      · cases h
        exact ⟨by simp [content, Pl.clean, hk, hs], fun _ => rfl, rfl, rfl, rfl, rfl, rfl, rfl, rfl⟩
      · cases h
  · next h1 h2 h3 =>
    cases h
    refine ⟨?_, (fun hh => by rcases hh with hh | hh | hh <;> contradiction), rfl, rfl, rfl, rfl, rfl, rfl, rfl⟩
    have hc : content D (p.clean p.surface) = Option.none := by
      unfold content
      show (match p.kind with | .image => _ | .svg => _ | .text => _ | _ => _) = _
      cases hk : p.kind <;> simp_all
    rw [hc]
    exact hn h1 h2 h3

/-- What a setting leaves alone. -/
theorem pset_keeps {F : FP} {color : Str → Option Color} {name : String} {v : Str} {p p' : Pl σ} (h : p.pset F color name v = .ok p') :
    p'.kind = p.kind ∧ p'.surface = p.surface ∧ p'.infos = p.infos ∧ p'.crop = p.crop ∧ p'.time = p.time := by
  unfold Pl.pset at h
  split at h
  · split at h
    · split at h
      · cases h
      · cases h; exact ⟨rfl, rfl, rfl, rfl, rfl⟩
    · obtain ⟨s, -, h⟩ := Res.bind_eq_ok h
      cases h; exact ⟨rfl, rfl, rfl, rfl, rfl⟩
  · obtain ⟨s, -, h⟩ := Res.bind_eq_ok h
    split at h
    · obtain ⟨t, -, h⟩ := Res.bind_eq_ok h
      cases h; exact ⟨rfl, rfl, rfl, rfl, rfl⟩
    · cases h; exact ⟨rfl, rfl, rfl, rfl, rfl⟩

theorem Fresh.marks {D : DEnv σ} {p q : Pl σ} (h : Fresh D p) (hm : Marks p.st q.st) (hk : q.kind = p.kind) (hs : q.surface = p.surface) (ht : q.txt = p.txt)
    (hi : p.kind = .svg ∨ p.kind = .text → Still p.infos → Still q.infos) : Fresh D q := by
  refine ⟨fun a b c => ?_, fun hd => ?_, fun hh => hi (hk ▸ hh) (h.still (hk ▸ hh)), fun hh => by rw [hs]; exact h.has (hk ▸ hh)⟩
  · rw [hs]; rw [hk] at a b c; exact h.none a b c
  · rcases hm.size with d | ⟨d, w, k⟩
    · rw [d] at hd; cases hd
    · rw [hs, content_congr hk hm.uri ht (fun _ => ⟨w, k⟩)]
      exact h.clean (d ▸ hd)

theorem pset_fresh {F : FP} {color : Str → Option Color} {D : DEnv σ} {name : String} (hn : name ≠ "uri") {v : Str} {p p' : Pl σ} (hf : Fresh D p) (h : p.pset F color name v = .ok p') :
    Fresh D p' := by
  obtain ⟨k1, k2, k3, -, -⟩ := pset_keeps h
  unfold Pl.pset at h
  split at h
  · split at h
    · split at h
      · cases h
      · cases h
        exact ⟨hf.none, (fun hd => by cases hd), hf.still, hf.has⟩
    · obtain ⟨s, hs, h⟩ := Res.bind_eq_ok h
      cases h
      exact hf.marks (playerSet_marks _ 3 _ _ _ _ hn hs) k1 k2 rfl (fun _ => id)
  · obtain ⟨s, hs, h⟩ := Res.bind_eq_ok h
    split at h
    · obtain ⟨t, -, h⟩ := Res.bind_eq_ok h
      cases h
      exact hf.marks (playerSet_marks _ 3 _ _ _ _ hn hs) k1 k2 rfl (fun _ => id)
    · cases h
      exact hf.marks (playerSet_marks _ 3 _ _ _ _ hn hs) k1 k2 rfl (fun _ => id)

theorem set_fresh {F : FP} {color : Str → Option Color} {D : DEnv σ} {name : String} (hn : name ≠ "uri") {v : Str} {dur : Nat} {p p' : Pl σ} (hf : Fresh D p)
    (ha : p.kind = .svg ∨ p.kind = .text → 0 < dur → name ≠ "width" ∧ name ≠ "height") (h : p.set F color name v dur = .ok p') : Fresh D p' ∧ p'.kind = p.kind := by
  unfold Pl.set at h
  dsimp only at h
  have h0 : Fresh D { p with st := { p.st with media := upd p.st.media name v } } := ⟨hf.none, hf.clean, hf.still, hf.has⟩
  split at h
  · next hd =>
    obtain ⟨a, hs, h⟩ := Res.bind_eq_ok h
    cases h
    refine ⟨⟨hf.none, hf.clean, fun hk => ?_, hf.has⟩, rfl⟩
    exact (schedule_still (hf.still hk) (ha hk hd).1 (ha hk hd).2 hs).2
  · exact ⟨pset_fresh hn h0 h, (pset_keeps h).1⟩

theorem redraw_fresh {F : FP} {D : DEnv σ} {focus : Str} {p p' : Pl σ} {l : List (Cmd σ)} (hf : Fresh D p) (h : redrawPlayer F D focus p = .ok (p', l)) :
    Fresh D p' ∧ p'.kind = p.kind ∧ (p'.st.prop.shown = true → p'.surface = content D p') := by
  unfold redrawPlayer at h
  obtain ⟨a, ha, h⟩ := Res.bind_eq_ok h
  dsimp only at h
  have hq : Fresh D (p.withAnim a) := by
    refine ⟨hf.none, fun hd => ?_, fun hk => (frame_still (hf.still hk) ha).2.2, hf.has⟩
    rw [content_congr (p := p) (q := p.withAnim a) rfl rfl rfl (fun hk => ?_)]
    · exact hf.clean hd
    · have := frame_still (hf.still hk) ha
      exact ⟨this.1, this.2.1⟩
  have hk : (p.withAnim a).kind = p.kind := rfl
  generalize p.withAnim a = q at h hq hk
  split at h
  · next hsh =>
    split at h
    · next hd =>
      obtain ⟨r, hr, h⟩ := Res.bind_eq_ok h
      cases h
      obtain ⟨r1, r0, r2, r3, -, -, -, -, -⟩ := reload_fresh hq.none hr
      refine ⟨⟨fun a b c => ?_, fun _ => r1, fun h' => ?_, fun h' => r0 (r2 ▸ h')⟩, r2.trans hk, fun _ => r1⟩
      · have hnone : q.surface = none := hq.none (by rwa [r2] at a) (by rwa [r2] at b) (by rwa [r2] at c)
        rw [r1]
        unfold content
        cases hkk : p'.kind <;> simp_all
      · rw [r3]; exact hq.still (r2 ▸ h')
    · next hd =>
      cases h
      exact ⟨hq, hk, fun _ => hq.clean (by simpa using hd)⟩
  · next hsh =>
    cases h
    exact ⟨hq, hk, fun hs => absurd hs hsh⟩

theorem step_fresh {F : FP} {color : Str → Option Color} {D : DEnv σ} {p p' : Pl σ} {o : PlOp} (hf : Fresh D p) (hu : ¬ o.sets "uri")
    (ha : p.kind = .svg ∨ p.kind = .text → ¬ o.animates "width" ∧ ¬ o.animates "height") (h : plStep F color D p o = .ok p') : Fresh D p' ∧ p'.kind = p.kind := by
  cases o with
  | set name v dur => exact set_fresh hu hf (fun hk hd => ⟨fun e => (ha hk).1 ⟨e, hd⟩, fun e => (ha hk).2 ⟨e, hd⟩⟩) h
  | time n => cases h; exact ⟨⟨hf.none, hf.clean, hf.still, hf.has⟩, rfl⟩
  | frame focus =>
    obtain ⟨⟨q, l⟩, hr, h⟩ := Res.bind_eq_ok h
    cases h
    obtain ⟨a, b, -⟩ := redraw_fresh hf hr
    exact ⟨a, b⟩
  | resize W H =>
    obtain ⟨s, hr, h⟩ := Res.bind_eq_ok h
    cases h
    exact ⟨hf.marks (resize_marks _ hr) rfl rfl rfl (fun _ => id), rfl⟩

theorem run_fresh {F : FP} {color : Str → Option Color} {D : DEnv σ} : ∀ {ops : List PlOp} {p p' : Pl σ}, Fresh D p → (∀ o ∈ ops, ¬ o.sets "uri") →
    (p.kind = .svg ∨ p.kind = .text → ∀ o ∈ ops, ¬ o.animates "width" ∧ ¬ o.animates "height") → plRun F color D ops p = .ok p' → Fresh D p' ∧ p'.kind = p.kind
  | [], p, p', hf, _, _, h => by cases h; exact ⟨hf, rfl⟩
  | o :: l, p, p', hf, hu, ha, h => by
    obtain ⟨q, hq, h⟩ := Res.bind_eq_ok h
    obtain ⟨a, b⟩ := step_fresh hf (hu o List.mem_cons_self) (fun hk => ha hk o List.mem_cons_self) hq
    obtain ⟨c, d⟩ := run_fresh a (fun o ho => hu o (List.mem_cons_of_mem _ ho)) (fun hk o ho => ha (b ▸ hk) o (List.mem_cons_of_mem _ ho)) h
    exact ⟨c, d.trans b⟩

/-- A loop over properties keeps what every setting keeps. -/
theorem startLoop_keeps {τ : Type} {set : String → Str → τ → Res τ} {media : τ → Store} {P : τ → Prop} (hP : ∀ n v s s', P s → set n v s = .ok s' → P s') :
    ∀ (todo keys : List String) (s s' : τ), P s → startLoop set media todo keys s = .ok s' → P s'
  | [], _, s, s', h, hl => by cases hl; exact h
  | k :: todo, keys, s, s', h, hl => by
    unfold startLoop at hl
    split at hl
    · obtain ⟨s1, h1, hl⟩ := Res.bind_eq_ok hl
      exact startLoop_keeps hP todo _ s1 s' (hP _ _ _ _ h h1) hl
    · exact startLoop_keeps hP todo _ s s' h hl

theorem start_fresh {F : FP} {color : Str → Option Color} {D : DEnv σ} {kind : PlayerKind} {W H : Int} {keys : List String} {media : Store} {p0 : PProp} {t0 : TProp} {p : Pl σ}
    (h : startPl F color D kind W H keys media p0 t0 = .ok p) : Fresh D p ∧ p.kind = kind := by
  unfold startPl at h
  obtain ⟨s, -, h⟩ := Res.bind_eq_ok h
  obtain ⟨t, -, h⟩ := Res.bind_eq_ok h
  obtain ⟨q, hq, h⟩ := Res.bind_eq_ok h
  have hinv : q.kind = kind ∧ q.surface = none ∧ q.infos = [] := by
    refine startLoop_keeps (P := fun q : Pl σ => q.kind = kind ∧ q.surface = none ∧ q.infos = []) ?_ _ _ _ _ ⟨rfl, rfl, rfl⟩ hq
    intro n v a b ha hb
    obtain ⟨k1, k2, k3, -, -⟩ := pset_keeps hb
    exact ⟨k1.trans ha.1, k2.trans ha.2.1, k3.trans ha.2.2⟩
  unfold Pl.begin at h
  obtain ⟨r, hr, h⟩ := Res.bind_eq_ok h
  obtain ⟨a, ha, h⟩ := Res.bind_eq_ok h
  cases h
  obtain ⟨r1, r0, r2, r3, -, -, -, -, -⟩ := reload_fresh (p := { q with time := 0 }) (fun _ _ _ => hinv.2.1) hr
  have hst : Still r.infos := by rw [r3]; show Still q.infos; rw [hinv.2.2]; intro a ha; cases ha
  obtain ⟨t1, t2, t3⟩ := transition_still hst ha
  have hc : content D (r.withAnim a) = content D r := content_congr rfl rfl rfl (fun _ => ⟨t1, t2⟩)
  refine ⟨⟨fun a' b' c' => ?_, fun _ => ?_, fun _ => t3, fun h' => r0 (r2 ▸ h')⟩, r2.trans hinv.1⟩
  · show r.surface = none
    rw [r1]
    have : (r.withAnim a).kind = r.kind := rfl
    rw [this] at a' b' c'
    unfold content
    cases hkk : r.kind <;> simp_all
  · rw [hc]; exact r1

/-! ## The property -/

/-- Every image that a frame draws of a media object is its current content, scaled to its current rectangle, and a media object that is visible and has content has it drawn:
after every start and every history in which its `uri` is not set and, unless it is an image, its size is not animated. -/
theorem C70_current {F : FP} {color : Str → Option Color} {D : DEnv σ} {kind : PlayerKind} {W H : Int} {keys : List String} {media : Store} {p0 : PProp} {t0 : TProp}
    {ops : List PlOp} {p q p' : Pl σ} {focus : Str} {cmds : List (Cmd σ)} (h : startPl F color D kind W H keys media p0 t0 = .ok p) (hr : plRun F color D ops p = .ok q)
    (hd : redrawPlayer F D focus q = .ok (p', cmds)) (hu : ∀ o ∈ ops, ¬ o.sets "uri")
    (ha : kind = .svg ∨ kind = .text → ∀ o ∈ ops, ¬ o.animates "width" ∧ ¬ o.animates "height") :
    (∀ r s a, Cmd.image r s a ∈ cmds ↔ p'.InSight ∧ content D p' = some s ∧ r = p'.st.prop.rect ∧ a = (p'.st.prop.alpha : Rat) / 255) ∧
    (p'.InSight → kind = .image ∨ kind = .svg ∨ kind = .text → (content D p').isSome = true) := by
  obtain ⟨f1, k1⟩ := start_fresh h
  obtain ⟨f2, k2⟩ := run_fresh f1 hu (fun hk => ha (k1 ▸ hk)) hr
  obtain ⟨f3, k3, hs⟩ := redraw_fresh f2 hd
  obtain ⟨hl, -, -⟩ := redrawPlayer_ok hd
  have hiff : p'.InSight ↔ p'.st.prop.shown = true := by rw [shown_inSight]; exact ⟨decide_eq_true, of_decide_eq_true⟩
  rw [hiff]
  refine ⟨fun r s a => ?_, fun hsh hk => ?_⟩
  · rw [hl]
    split
    · next hsh =>
      unfold Pl.draws
      dsimp only
      rw [hs hsh]
      simp only [List.mem_append, List.mem_map, Option.mem_toList, List.mem_cons, List.not_mem_nil, or_false, reduceCtorEq, hsh, true_and]
      constructor
      · rintro ((h | ⟨s', hs', he⟩) | h)
        · split at h <;> simp at h
        · cases he
          exact ⟨hs', rfl, rfl⟩
        · split at h <;> simp at h
      · rintro ⟨h1, h2, h3⟩
        exact .inl (.inr ⟨s, h1, by rw [h2, h3]⟩)
    · next hsh => simp [hsh]
  · rw [← hs hsh]
    exact f3.has (by rw [k3, k2, k1]; exact hk)

/-- When the window changes its size, a media object that is presented is in the new window, with the width and height that its properties give there. -/
theorem C70_resize {F : FP} {color : Str → Option Color} {D : DEnv σ} {p p' : Pl σ} {W H : Int} (ha : p.st.attached = true) (h : plStep F color D p (.resize W H) = .ok p') :
    p'.st.W = W ∧ p'.st.H = H ∧ p'.st.media = p.st.media ∧ (p.st.media "width" ≠ [] → p'.st.prop.w = parsePercent F (p.st.media "width") W 0 INTMAX) ∧
    (p.st.media "height" ≠ [] → p'.st.prop.h = parsePercent F (p.st.media "height") H 0 INTMAX) := by
  obtain ⟨s, hs, h⟩ := Res.bind_eq_ok h
  cases h
  obtain ⟨h1, h2, h3, h4, h5, -⟩ := C37_resize (penv F color) _ _ ha W H hs
  exact ⟨h1, h2, h3, h4, h5⟩

/-! ## The start is the one of C68 -/

theorem marks_dirty {s s' : PSt} (h : Marks s s') (hd : s.prop.dirty = true) : s'.prop.dirty = true := by
  rcases h.size with d | ⟨d, -, -⟩
  · exact d
  · rw [d, hd]

/-- Setting a property of a player about to be loaded, of any class, is setting it in the base class. -/
theorem pset_base {F : FP} {color : Str → Option Color} {name : String} {v : Str} {p p' : Pl σ} (hd : p.st.prop.dirty = true) (h : p.pset F color name v = .ok p') :
    playerSet (penv F color) 3 name v p.st = .ok p'.st ∧ p'.st.prop.dirty = true := by
  have hu : ∀ s', playerSet (penv F color) 3 "uri" v p.st = .ok s' → s'.prop.dirty = true := by
    intro s' h
    rw [playerSet_unfold] at h
    have hi : propInfo "uri" = some (.uri, []) := by decide +kernel
    simp only [playerSet1, hi, doSetProperty, Res.bind_ok, reduceCtorEq, String.reduceEq, or_self, if_false] at h
    cases h
    exact hd
  have hb : ∀ s', playerSet (penv F color) 3 name v p.st = .ok s' → s'.prop.dirty = true := by
    intro s' h
    by_cases hn : name = "uri"
    · subst hn; exact hu s' h
    · exact marks_dirty (playerSet_marks _ 3 _ _ _ _ hn h) hd
  unfold Pl.pset at h
  split at h
  · next code d hk hi =>
    split at h
    · next ht =>
      split at h
      · cases h
      · cases h
        refine ⟨?_, rfl⟩
        have hne : name ≠ "transIn" ∧ name ≠ "transOut" := by
          constructor
          · rintro rfl
            have : propInfo "transIn" = none := by decide +kernel
            rw [this] at hi; cases hi
          · rintro rfl
            have : propInfo "transOut" = none := by decide +kernel
            rw [this] at hi; cases hi
        rw [playerSet_unfold]
        unfold playerSet1
        dsimp only
        rw [if_neg (by rintro (h | h); exact hne.1 h; exact hne.2 h), hi]
        have hdo : ∀ v s, doSetProperty (penv F color) (mediaSet (penv F color)) code v s = .ok (some s) := by
          intro v s
          cases code <;> first | rfl | cases ht
        simp only [Res.bind_ok, hdo]
        rw [← hd]
    · obtain ⟨s, hs, h⟩ := Res.bind_eq_ok h
      cases h
      exact ⟨hs, hb _ hs⟩
  · obtain ⟨s, hs, h⟩ := Res.bind_eq_ok h
    split at h
    · obtain ⟨t, -, h⟩ := Res.bind_eq_ok h
      cases h
      exact ⟨hs, hb _ hs⟩
    · cases h
      exact ⟨hs, hb _ hs⟩

theorem loop_base {F : FP} {color : Str → Option Color} : ∀ (todo keys : List String) {p p' : Pl σ}, p.st.prop.dirty = true →
    startLoop (Pl.pset F color) (·.st.media) todo keys p = .ok p' →
    startLoop (playerSet (penv F color) 3) (·.media) todo keys p.st = .ok p'.st ∧ p'.st.prop.dirty = true
  | [], _, p, p', hd, h => by cases h; exact ⟨rfl, hd⟩
  | k :: todo, keys, p, p', hd, h => by
    unfold startLoop at h ⊢
    split at h
    · next hk =>
      obtain ⟨q, hq, h⟩ := Res.bind_eq_ok h
      obtain ⟨a, b⟩ := pset_base hd hq
      rw [if_pos hk, a]
      exact loop_base todo _ b h
    · next hk =>
      rw [if_neg hk]
      exact loop_base todo _ hd h

theorem transition_view {e : PEnv} {W H : Int} {now : Nat} {tr : Option TransInfo} {s s' : AState} (h : animTransition e W H now tr s = .ok s') :
    ∃ crop, s'.view = { s.view with crop := crop } := by
  have sch : ∀ {name : String} {src dst : Str} {dur : Nat} {s s' : AState}, animSchedule e W H now name src dst dur s = .ok s' → s'.view = s.view := by
    intro name src dst dur s s' h
    unfold animSchedule at h
    dsimp only at h
    repeat' split at h
    all_goals first
      | (cases h; rfl)
      | cases h
      | (obtain ⟨pre, -, h⟩ := Res.bind_eq_ok h
         obtain ⟨pos, -, h⟩ := Res.bind_eq_ok h
         cases h; rfl)
  unfold animTransition at h
  dsimp only at h
  split at h
  · cases h; exact ⟨_, rfl⟩
  · split at h
    · obtain ⟨fx, -, h⟩ := Res.bind_eq_ok h
      obtain ⟨fy, -, h⟩ := Res.bind_eq_ok h
      split at h <;> (have hh := sch h; exact ⟨s'.view.crop, by rw [hh]⟩)
    · split at h
      · obtain ⟨fx, -, h⟩ := Res.bind_eq_ok h
        obtain ⟨fy, -, h⟩ := Res.bind_eq_ok h
        obtain ⟨s1, h1, h⟩ := Res.bind_eq_ok h
        have hh := (sch h).trans (sch h1)
        exact ⟨s'.view.crop, by rw [hh]⟩
      · have hh := sch h
        exact ⟨s'.view.crop, by rw [hh]⟩

/-- A media object of any of these classes that has started has the properties of C68. -/
theorem start_media {F : FP} {color : Str → Option Color} {yellow : Color} (hy : color "yellow".toList = some yellow) {D : DEnv σ} {kind : PlayerKind} {W H : Int} {keys : List String} {media : Store} {p0 : PProp} {t0 : TProp} {p : Pl σ}
    (h : startPl F color D kind W H keys media p0 t0 = .ok p) :
    ∃ s, startMedia (penv F color) W H keys media p0 = .ok s ∧ p.st = { s with prop := { s.prop with dirty := false } } := by
  unfold startPl at h
  unfold startMedia
  rw [C35_init (penv F color) W H media p0 yellow hy] at h ⊢
  simp only [Res.bind_ok] at h ⊢
  obtain ⟨t, -, h⟩ := Res.bind_eq_ok h
  obtain ⟨q, hq, h⟩ := Res.bind_eq_ok h
  obtain ⟨h1, -⟩ := loop_base _ _ (by rfl) hq
  refine ⟨q.st, h1, ?_⟩
  unfold Pl.begin at h
  obtain ⟨r, hr, h⟩ := Res.bind_eq_ok h
  obtain ⟨a, ha, h⟩ := Res.bind_eq_ok h
  cases h
  obtain ⟨crop, hv⟩ := transition_view ha
  have hrs : r.st = { q.st with prop := { q.st.prop with dirty := false } } := by
    unfold reload at hr
    dsimp only at hr
    repeat' split at hr
    all_goals first
      | (cases hr; rfl)
      | cases hr
  show { r.st with prop := { r.st.prop with x := a.view.x, y := a.view.y, w := a.view.w, h := a.view.h, alpha := a.view.alpha, bg := (a.view.r, a.view.g, a.view.b, r.st.prop.bg.2.2.2) } } = _
  rw [hv]
  show { r.st with prop := { r.st.prop with x := r.st.prop.x, y := r.st.prop.y, w := r.st.prop.w, h := r.st.prop.h, alpha := r.st.prop.alpha, bg := (r.st.prop.bg.1, r.st.prop.bg.2.1, r.st.prop.bg.2.2.1, r.st.prop.bg.2.2.2) } } = _
  rw [hrs]

/-! ## What is false -/

/-- The content of an image that is given another file stays the old one, in every frame until something else is set. -/
theorem C70_fails_uri {F : FP} {color : Str → Option Color} {D : DEnv σ} {p q p' : Pl σ} {focus : Str} {cmds : List (Cmd σ)} {v : Str} (hv : v ≠ []) (hk : p.kind ≠ .text) (hd : p.st.prop.dirty = false)
    (h : p.set F color "uri" v 0 = .ok q) (hr : redrawPlayer F D focus q = .ok (p', cmds)) : p'.surface = p.surface ∧ p'.st.prop.uri = v ∧ p'.st.prop.dirty = false := by
  have hi : propInfo "uri" = some (.uri, []) := by decide +kernel
  have hq : q.surface = p.surface ∧ q.st.prop.uri = v ∧ q.st.prop.dirty = false := by
    unfold Pl.set Pl.pset at h
    simp only [gt_iff_lt, Nat.lt_irrefl, if_false, hi] at h
    split at h
    · exact absurd ‹_› hk
    · obtain ⟨s, hs, h⟩ := Res.bind_eq_ok h
      rw [if_neg (by decide)] at h
      cases h
      rw [playerSet_unfold] at hs
      simp only [playerSet1, hi, doSetProperty, Res.bind_ok, reduceCtorEq, String.reduceEq, or_self, if_false, if_neg hv] at hs
      cases hs
      exact ⟨rfl, rfl, hd⟩
  unfold redrawPlayer at hr
  obtain ⟨a, -, hr⟩ := Res.bind_eq_ok hr
  dsimp only at hr
  have hdq : (q.withAnim a).st.prop.dirty = false := hq.2.2
  rw [hdq] at hr
  simp only [Bool.false_eq_true, if_false, Res.bind_ok] at hr
  split at hr <;> (cases hr; exact hq)

/-- A media object whose image file cannot be read never starts: the process ends. -/
theorem C70_fails_missing {F : FP} {color : Str → Option Color} {yellow : Color} (hy : color "yellow".toList = some yellow) {D : DEnv σ} {W H : Int} {keys : List String} {media : Store} (hk : media.Has keys)
    {p0 : PProp} {t0 : TProp} {p : Pl σ} (hm : D.image (media "uri") = none) : startPl F color D .image W H keys media p0 t0 ≠ .ok p := by
  intro h
  obtain ⟨s, hs, hp⟩ := start_media hy h
  have hu := C68_values (penv F color) hy hk hs (name := "uri") (other := none) (c := .uri) (d := "") (i := true) (by decide) (by decide +kernel) (by decide)
  have hu' : s.prop.uri = media "uri" := by
    have : «says» keys media "uri" none "" = media "uri" := by
      unfold «says» orDef
      dsimp only
      split
      · next h => rw [h]; rfl
      · rfl
    rw [this] at hu
    simp only [meaning, PProp.slot, Res.ok.injEq, Slot.text.injEq] at hu
    exact hu.symm
  obtain ⟨f, k⟩ := start_fresh h
  have h1 := f.has (.inl k)
  have h2 : p.surface = content D p := f.clean (by rw [hp])
  rw [h2] at h1
  unfold content at h1
  rw [k] at h1
  have h3 : p.st.prop.uri = media "uri" := by rw [hp]; exact hu'
  simp [h3, hm] at h1

/-! ## Examples -/

/-- Two image files, and texts; a surface says what it shows and for which size it was made. -/
def denv1 : DEnv (Str × Int × Int) :=
  { image := fun u => if u = "a.png".toList ∨ u = "b.png".toList then some (u, 0, 0) else none
    svg := fun _ _ _ => none
    text := fun u _ w h => some (u, w, h) }

def colors1 : Str → Option Color := fun v => if v = "yellow".toList then some (1, 1, 0, 1) else if v = "black".toList then some (0, 0, 0, 1) else none

/-- What is drawn of a media object, and its size, after its start in a window of 100 by 100 and some events. -/
def drawn (kind : PlayerKind) (props : List (String × String)) (ops : List PlOp) : Option (Option (Str × Int × Int) × Int × Int) :=
  match (startPl penv0.F colors1 denv1 kind 100 100 (keysOfList props) (storeOf props) pst0.prop tprop0).bind (plRun penv0.F colors1 denv1 ops) with
  | .ok p => some (p.surface, p.st.prop.w, p.st.prop.h)
  | _ => none

example : drawn .text [("uri", "a.txt")] [.set "width" "50%".toList 0, .frame []] = some (some ("a.txt".toList, 50, 100), 50, 100) := by decide +kernel
example : drawn .image [("uri", "a.png")] [.set "width" "50%".toList 1000, .frame [], .time 2000, .frame []] = some (some ("a.png".toList, 0, 0), 50, 100) := by decide +kernel

/-- Another file for an image is not shown; a text whose width has been animated to one half is still the one for the whole width (and stretched to the half); a text in an empty
rectangle, or an image that does not exist, ends the process. -/
theorem C70_fails_shown : drawn .image [("uri", "a.png")] [.set "uri" "b.png".toList 0, .frame []] = some (some ("a.png".toList, 0, 0), 100, 100) ∧
    drawn .text [("uri", "a.txt")] [.set "width" "50%".toList 1000, .frame [], .time 500, .frame [], .time 600, .frame []] = some (some ("a.txt".toList, 100, 100), 50, 100) ∧
    drawn .text [("uri", "a.txt"), ("width", "0")] [] = none ∧ drawn .image [("uri", "c.png")] [] = none :=
  ⟨by decide +kernel, by decide +kernel, by decide +kernel, by decide +kernel⟩

end Ginga
