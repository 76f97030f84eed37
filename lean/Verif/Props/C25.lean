import Verif.Props.C50
/-! # C25 (full ids) and C49 (names) -/
namespace Ginga

/-! ## C49 -/

/-- A string names a transition exactly if it is the printed name up to case; so the printed name of each transition is
read back as that transition. -/
theorem C49_roundtrip (s : Str) (t : Trans) : nameTrans s = some t ↔ s.map lower = transName t := by
  have key : ∀ t : Trans, (transName t).map lower = transName t := by intro t; cases t <;> decide +kernel
  have inj : ∀ {a b : Trans}, transName a = transName b → a = b := by
    intro a b; cases a <;> cases b <;> decide +kernel
  have hc : ∀ u : Trans, caseEq s (transName u) = decide (s.map lower = transName u) := by
    intro u
    unfold caseEq
    rw [key u]
    rw [Bool.eq_iff_iff]; simp
  have h1 := hc .start; have h2 := hc .pause; have h3 := hc .resume; have h4 := hc .stop; have h5 := hc .abort
  simp only [transName] at h1 h2 h3 h4 h5
  unfold nameTrans
  rw [h1, h2, h3, h4, h5]
  constructor
  · intro h
    repeat' split at h
    all_goals first
      | (cases h; exact of_decide_eq_true (by assumption))
      | (cases h)
  · intro h
    cases t <;> rw [h] <;> decide +kernel

/-- Printing and reading back; no two transitions, states or types have the same name. -/
theorem C49_names :
    (∀ t : Trans, nameTrans (transName t) = some t) ∧ (∀ t u : Trans, transName t = transName u → t = u) ∧
    (∀ a b : EState, stateName a = stateName b → a = b) ∧ (∀ a b : EType, typeName a = typeName b → a = b) := by
  refine ⟨?_, ?_, ?_, ?_⟩
  · intro t; cases t <;> decide +kernel
  · intro t u; cases t <;> cases u <;> decide +kernel
  · intro t u; cases t <;> cases u <;> decide +kernel
  · intro t u; cases t <;> cases u <;> decide +kernel

example : nameTrans "StArT".toList = some .start := by decide +kernel
example : nameTrans "starts".toList = none := by decide +kernel

/-! ## C25 -/

/-- Characters used as separators in full ids. -/
def isSep (c : Char) : Bool := c == '@' || c == '.' || c == '<'

theorem sep_split : ∀ (l l' r r' : Str) (c c' : Char), (∀ x ∈ l, isSep x = false) → (∀ x ∈ l', isSep x = false) → isSep c = true → isSep c' = true →
    l ++ c :: r = l' ++ c' :: r' → l = l' ∧ c = c' ∧ r = r'
  | [], [], r, r', c, c', _, _, _, _, h => by simp at h; exact ⟨rfl, h.1, h.2⟩
  | [], x :: l', r, r', c, c', _, h2, h3, _, h => by
    simp at h
    have := h2 x (by simp)
    rw [← h.1, h3] at this; cases this
  | x :: l, [], r, r', c, c', h1, _, _, h4, h => by
    simp at h
    have := h1 x (by simp)
    rw [h.1, h4] at this; cases this
  | x :: l, y :: l', r, r', c, c', h1, h2, h3, h4, h => by
    simp at h
    obtain ⟨a, b, d⟩ := sep_split l l' r r' c c' (fun z hz => h1 z (by simp [hz])) (fun z hz => h2 z (by simp [hz])) h3 h4 h.2
    exact ⟨by rw [h.1, a], b, d⟩

/-- The full id of event `p` of object `x`. -/
def RObj.fullId (x : RObj) (p : Nat × REv) : Str := Ginga.fullId x.id.toList p.2.typ p.2.id.toList

/-- What the property needs: no separator in object ids, no anchor called `lambda`, no selection event of a key called
`lookat`, and at most one look-at event per object. -/
structure PlainIds (r : Reg) : Prop where
  obj : ∀ o x, r.has o x → ∀ c ∈ x.id.toList, isSep c = false
  lam : ∀ o x, r.has o x → ∀ p ∈ x.events, p.2.typ = .presentation → p.2.id ≠ "lambda"
  sel : ∀ o x, r.has o x → ∀ p ∈ x.events, p.2.typ = .selection → p.2.id ≠ "lookat"
  look : ∀ o x, r.has o x → ∀ p ∈ x.events, ∀ q ∈ x.events, p.2.typ = .lookat → q.2.typ = .lookat → p = q

/-- What follows the object id. -/
def tailId (t : EType) (id : Str) : Char × Str :=
  match t with
  | .presentation => ('@', if id = "@lambda".toList then "lambda".toList else id)
  | .attribution => ('.', id)
  | .selection => ('<', id ++ ['>'])
  | .lookat => ('<', "lookat>".toList)

theorem fullId_tail (o : Str) (t : EType) (id : Str) : Ginga.fullId o t id = o ++ (tailId t id).1 :: (tailId t id).2 := by
  cases t
  · rfl
  · simp only [Ginga.fullId, tailId]
    by_cases h : id = "@lambda".toList
    · rw [if_pos h, if_pos h, h]; rfl
    · rw [if_neg h, if_neg h]
  · simp [Ginga.fullId, tailId]
  · rfl

theorem tailId_sep (t : EType) (id : Str) : isSep (tailId t id).1 = true := by
  cases t <;> rfl

theorem tailId_inj {t t' : EType} {id id' : Str} (h : tailId t id = tailId t' id')
    (h1 : t = .presentation → id ≠ "lambda".toList) (h2 : t' = .presentation → id' ≠ "lambda".toList)
    (h3 : t = .selection → id ≠ "lookat".toList) (h4 : t' = .selection → id' ≠ "lookat".toList) :
    t = t' ∧ (t ≠ .lookat → id = id') := by
  have hl : ∀ s : Str, s ++ ['>'] = "lookat>".toList → s = "lookat".toList := by
    intro s hs
    have : "lookat>".toList = "lookat".toList ++ ['>'] := by decide +kernel
    rw [this] at hs
    exact List.append_cancel_right hs
  cases t <;> cases t' <;> simp only [tailId, Prod.mk.injEq] at h
  all_goals try (exact absurd h.1 (by decide))
  · exact ⟨rfl, fun _ => h.2⟩
  · refine ⟨rfl, fun _ => ?_⟩
    have h := h.2
    split at h
    · next e =>
      split at h
      · next e' => rw [e, e']
      · exact absurd h.symm (h2 rfl)
    · next e =>
      split at h
      · exact absurd h (h1 rfl)
      · exact h
  · exact ⟨rfl, fun _ => List.append_cancel_right h.2⟩
  · exact absurd (hl _ h.2) (h3 rfl)
  · exact absurd (hl _ h.2.symm) (h4 rfl)
  · exact ⟨rfl, fun h => absurd rfl h⟩

/-- With plain ids, two events of a document with the same full id are the same event (of the same object).
Missing: arbitrary ids, for which the property is false (`C25_fails_lambda`, `C25_fails_lookat`, `C25_fails_dot`). -/
theorem C25_partial (r : Reg) (h : Built r) (hp : PlainIds r) (o o' : Nat) (x x' : RObj) (hx : r.has o x) (hx' : r.has o' x')
    (p q : Nat × REv) (hpm : p ∈ x.events) (hqm : q ∈ x'.events) (he : x.fullId p = x'.fullId q) : o = o' ∧ p = q := by
  unfold RObj.fullId at he
  rw [fullId_tail, fullId_tail] at he
  obtain ⟨h1, h2, h3⟩ := sep_split _ _ _ _ _ _ (hp.obj o x hx) (hp.obj o' x' hx') (tailId_sep _ _) (tailId_sep _ _) he
  obtain rfl : o = o' := (C23_ids r h).1 o o' x x' hx hx' (String.toList_inj.1 h1)
  obtain rfl : x = x' := by have := hx.2.symm.trans hx'.2; cases this; rfl
  have hne : ∀ {s u : String}, s ≠ u → s.toList ≠ u.toList := fun h e => h (String.toList_inj.1 e)
  obtain ⟨ht, hid⟩ := tailId_inj (Prod.ext h2 h3) (fun e => hne (hp.lam o x hx p hpm e)) (fun e => hne (hp.lam o x hx q hqm e))
    (fun e => hne (hp.sel o x hx p hpm e)) (fun e => hne (hp.sel o x hx q hqm e))
  refine ⟨rfl, ?_⟩
  by_cases hl : p.2.typ = .lookat
  · exact hp.look o x hx p hpm q hqm hl (ht ▸ hl)
  · have hev := h.inv.1.ev o x hx.2
    have e1 := (getEvent_some hev (t := p.2.typ) (id := p.2.id)).2 ⟨hpm, rfl, rfl⟩
    have e2 := (getEvent_some hev (t := p.2.typ) (id := p.2.id)).2 ⟨hqm, ht.symm, (String.toList_inj.1 (hid hl)).symm⟩
    rw [e1] at e2; cases e2; rfl

/-- Build a document from operations. -/
def regOf (ops : List RegOp) : Reg := match newDoc 10 20 1 2 3 with
  | .ok r => match r.execAll ops with | .ok r => r | _ => r
  | _ => sampleReg

/-- The document with the anchor and look-at and selection events of `sampleOps` has plain ids. -/
example : PlainIds sampleReg := by
  have hd : ∀ o, o ∈ sampleReg.objects → o = 5 ∨ o = 8 ∨ o = 10 ∨ o = 20 ∨ o = 30 := by
    intro o ho
    have : sampleReg.objects = [5, 8, 10, 20, 30] := by decide +kernel
    rw [this] at ho; simpa using ho
  have all : ∀ o x, sampleReg.has o x → (∀ c ∈ x.id.toList, isSep c = false) ∧
      (∀ p ∈ x.events, p.2.typ = .presentation → p.2.id ≠ "lambda") ∧ (∀ p ∈ x.events, p.2.typ ≠ .selection) ∧
      (∀ p ∈ x.events, p.2.typ ≠ .lookat) := by
    intro o x hx
    rcases hd o hx.1 with rfl | rfl | rfl | rfl | rfl <;> (have h2 := hx.2; cases h2; decide +kernel)
  exact ⟨fun o x hx => (all o x hx).1, fun o x hx => (all o x hx).2.1, fun o x hx p hp h => absurd h ((all o x hx).2.2.1 p hp),
    fun o x hx p hp q hq h => absurd h ((all o x hx).2.2.2 p hp)⟩

/-- An anchor with id `lambda` has the full id of the whole content. -/
theorem C25_fails_lambda : ∃ r, BuiltTree r ∧ ∃ o x p q, r.has o x ∧ p ∈ x.events ∧ q ∈ x.events ∧ p ≠ q ∧ x.fullId p = x.fullId q := by
  refine ⟨regOf [.new 30 .media "m" 31 0, .addChild 10 30, .addEvent 30 32 { typ := .presentation, id := "lambda" }],
    ⟨10, 20, 1, 2, 3, regOf [], _, by decide, rfl, fun o => (by simp : RegOp.addObject o ∉ ([.new 30 .media "m" 31 0, .addChild 10 30, .addEvent 30 32 { typ := .presentation, id := "lambda" }] : List RegOp)), rfl⟩, 30, _,
    (31, { typ := .presentation, id := "@lambda" }), (32, { typ := .presentation, id := "lambda" }), ⟨by decide +kernel, rfl⟩, ?_, ?_, ?_, ?_⟩ <;> decide +kernel

/-- All look-at events of an object have the same full id. -/
theorem C25_fails_lookat : ∃ r, BuiltTree r ∧ ∃ o x p q, r.has o x ∧ p ∈ x.events ∧ q ∈ x.events ∧ p ≠ q ∧ x.fullId p = x.fullId q := by
  refine ⟨regOf [.new 30 .media "m" 31 0, .addChild 10 30, .addEvent 30 32 { typ := .lookat, id := "a" }, .addEvent 30 33 { typ := .lookat, id := "b" }],
    ⟨10, 20, 1, 2, 3, regOf [], _, by decide, rfl, fun o => (by simp : RegOp.addObject o ∉ ([.new 30 .media "m" 31 0, .addChild 10 30, .addEvent 30 32 { typ := .lookat, id := "a" }, .addEvent 30 33 { typ := .lookat, id := "b" }] : List RegOp)), rfl⟩, 30, _,
    (32, { typ := .lookat, id := "a" }), (33, { typ := .lookat, id := "b" }), ⟨by decide +kernel, rfl⟩, ?_, ?_, ?_, ?_⟩ <;> decide +kernel

/-- Dots in object ids (valid XML names): property `x.y` of `m` and property `y` of `m.x`. -/
theorem C25_fails_dot : ∃ r, BuiltTree r ∧ ∃ o o' x x' p q, o ≠ o' ∧ r.has o x ∧ r.has o' x' ∧ p ∈ x.events ∧ q ∈ x'.events ∧ x.fullId p = x'.fullId q := by
  refine ⟨regOf [.new 30 .media "m" 31 0, .addChild 10 30, .addEvent 30 32 { typ := .attribution, id := "x.y" },
      .new 40 .media "m.x" 41 0, .addChild 10 40, .addEvent 40 42 { typ := .attribution, id := "y" }],
    ⟨10, 20, 1, 2, 3, regOf [], _, by decide, rfl, fun o => (by simp : RegOp.addObject o ∉ ([.new 30 .media "m" 31 0, .addChild 10 30, .addEvent 30 32 { typ := .attribution, id := "x.y" }, .new 40 .media "m.x" 41 0, .addChild 10 40, .addEvent 40 42 { typ := .attribution, id := "y" }] : List RegOp)), rfl⟩, 30, 40, _, _,
    (32, { typ := .attribution, id := "x.y" }), (42, { typ := .attribution, id := "y" }), by decide, ⟨by decide +kernel, rfl⟩, ⟨by decide +kernel, rfl⟩, ?_, ?_, ?_⟩ <;> decide +kernel

end Ginga
