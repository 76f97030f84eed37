import Verif.Model.RemotePlayer
import Verif.Props.C68b
import Verif.Spec
/-!
# C77: a remote player is told what happens to its object
-/
namespace Ginga

/-! ## What the property speaks of -/

/-- What a text in JSON says (strings and objects that are not empty are enough here). -/
inductive JVal
  | str (s : Str)
  | obj (l : List (Str × JVal))

/-- Spaces are skipped. -/
def jskip : Str → Str
  | ' ' :: r => jskip r
  | s => s

/-- A string, after its opening quote: what it says, and the rest.  (Escapes are not read; a control character is not allowed.) -/
def jstring : Str → Option (Str × Str)
  | [] => none
  | c :: r => if c = '"' then some ([], r) else if c = '\\' ∨ c.toNat < 32 then none else (jstring r).map fun p => (c :: p.1, p.2)

mutual
/-- A value, and the rest. -/
def jvalue : Nat → Str → Option (JVal × Str)
  | 0, _ => none
  | n + 1, s =>
    match jskip s with
    | '"' :: r => (jstring r).map fun p => (.str p.1, p.2)
    | '{' :: r => (jfields n r).map fun p => (.obj p.1, p.2)
    | _ => none
/-- The fields of an object, after its opening brace, and the rest. -/
def jfields : Nat → Str → Option (List (Str × JVal) × Str)
  | 0, _ => none
  | n + 1, s =>
    match jskip s with
    | '"' :: r =>
      match jstring r with
      | none => none
      | some (k, r) =>
        match jskip r with
        | ':' :: r =>
          match jvalue n r with
          | none => none
          | some (v, r) =>
            match jskip r with
            | ',' :: r => (jfields n r).map fun p => ((k, v) :: p.1, p.2)
            | '}' :: r => some ([(k, v)], r)
            | _ => none
        | _ => none
    | _ => none
end

/-- A whole text says something: it is a value with nothing after it (however deep the reader may go, from some depth on). -/
def Says (text : Str) (v : JVal) : Prop := ∃ n, ∀ m ≥ n, jvalue m text = some (v, [])

/-- A text that can be put between quotes as it is. -/
def Plain (v : Str) : Prop := ∀ c ∈ v, c ≠ '"' ∧ c ≠ '\\' ∧ ¬ c.toNat < 32

instance (v : Str) : Decidable (Plain v) := by unfold Plain; infer_instance

/-- What is said of an action. -/
def sayAction (action : Str) : JVal := .obj [("action".toList, .str action), ("delay".toList, .str "0".toList)]

/-- What is said of a start, with the place and the order of the object. -/
def sayStart (top left width height z : Str) : JVal :=
  .obj [("action".toList, .str "start".toList), ("delay".toList, .str "0".toList),
    ("properties".toList, .obj [("bounds".toList, .obj [("top".toList, .str top), ("left".toList, .str left), ("width".toList, .str width), ("height".toList, .str height)]),
      ("zIndex".toList, .str z), ("transparency".toList, .str "0%".toList)])]

/-- What has to be announced: to which remote player, of which node, which action; `whole`: it is the start of the whole object. -/
structure Notice where
  to_ : Str
  node : Str
  action : Str
  whole : Bool

/-- What has to be announced of what happens to the object called `id`, while the remote player is at address `u`. -/
def ROp.announce (id u : Str) : ROp → Option Notice
  | .start => some ⟨u, id, "start".toList, true⟩
  | .stop => some ⟨u, id, "stop".toList, false⟩
  | .pause => some ⟨u, id, "pause".toList, false⟩
  | .resume => some ⟨u, id, "resume".toList, false⟩
  | .anchor a l => some ⟨u, if l = [] then id else l, a, false⟩
  | _ => none

/-- The address of the remote player after what happens. -/
def ROp.address : ROp → Str → Str
  | .set n v, u => if n = "remotePlayerBaseURL" then v else u
  | .stop, _ => []
  | _, u => u

/-- What has to be announced of a history. -/
def announced (id : Str) : List ROp → Str → List Notice
  | [], _ => []
  | o :: os, u => (o.announce id u).toList ++ announced id os (o.address u)

/-- The address of a node of a remote player. -/
def nodeUrl (base node : Str) : Str := base ++ "/scene/nodes/".toList ++ node

/-! ## Reading -/

theorem jstring_plain {v : Str} (hv : Plain v) (r : Str) : jstring (v ++ '"' :: r) = some (v, r) := by
  induction v with
  | nil => simp [jstring]
  | cons c v ih =>
    obtain ⟨h1, h2, h3⟩ := hv c List.mem_cons_self
    simp only [List.cons_append, jstring, h1, if_false, h2, h3, or_self]
    rw [ih (fun d hd => hv d (List.mem_cons_of_mem _ hd))]
    rfl

theorem jvalue_str {v : Str} (hv : Plain v) (n : Nat) (sp r : Str) (hsp : jskip (sp ++ '"' :: (v ++ '"' :: r)) = '"' :: (v ++ '"' :: r)) :
    jvalue (n + 1) (sp ++ '"' :: (v ++ '"' :: r)) = some (.str v, r) := by
  rw [jvalue, hsp]
  simp only
  rw [jstring_plain hv]
  rfl

/-- One field that is followed by another one. -/
theorem jfields_next {k : Str} (hk : Plain k) {n : Nat} {sp r1 r2 r3 r4 r5 : Str} {v : JVal} {l : List (Str × JVal)} (h1 : jskip sp = '"' :: (k ++ '"' :: r1)) (h2 : jskip r1 = ':' :: r2)
    (h3 : jvalue n r2 = some (v, r3)) (h4 : jskip r3 = ',' :: r4) (h5 : jfields n r4 = some (l, r5)) : jfields (n + 1) sp = some ((k, v) :: l, r5) := by
  rw [jfields, h1]
  simp only
  rw [jstring_plain hk]
  simp only
  rw [h2]
  simp only
  rw [h3]
  simp only
  rw [h4]
  simp only
  rw [h5]
  rfl

/-- The last field. -/
theorem jfields_last {k : Str} (hk : Plain k) {n : Nat} {sp r1 r2 r3 r4 : Str} {v : JVal} (h1 : jskip sp = '"' :: (k ++ '"' :: r1)) (h2 : jskip r1 = ':' :: r2)
    (h3 : jvalue n r2 = some (v, r3)) (h4 : jskip r3 = '}' :: r4) : jfields (n + 1) sp = some ([(k, v)], r4) := by
  rw [jfields, h1]
  simp only
  rw [jstring_plain hk]
  simp only
  rw [h2]
  simp only
  rw [h3]
  simp only
  rw [h4]
  rfl

theorem jvalue_obj {n : Nat} {sp r1 r2 : Str} {l : List (Str × JVal)} (h1 : jskip sp = '{' :: r1) (h2 : jfields n r1 = some (l, r2)) : jvalue (n + 1) sp = some (.obj l, r2) := by
  rw [jvalue, h1]
  simp only
  rw [h2]
  rfl

/-- The text of an action says it. -/
theorem actText_says {a : Str} (ha : Plain a) : Says (actText a) (sayAction a) := by
  refine ⟨4, fun m hm => ?_⟩
  obtain ⟨m, rfl⟩ : ∃ k, m = k + 4 := ⟨m - 4, by omega⟩
  unfold actText sayAction
  rw [List.append_assoc]
  refine jvalue_obj (n := m + 3) rfl ?_
  refine jfields_next (k := "action".toList) (n := m + 2) (by decide) rfl rfl (jvalue_str ha (m + 1) [' '] _ rfl) rfl ?_
  exact jfields_last (k := "delay".toList) (n := m + 1) (by decide) rfl rfl (jvalue_str (v := "0".toList) (by decide) m [' '] _ rfl) rfl

/-- The text of a start says it. -/
theorem startText_says {top left width height z : Str} (h1 : Plain top) (h2 : Plain left) (h3 : Plain width) (h4 : Plain height) (h5 : Plain z) :
    Says (actTextProps "start".toList top left width height z "0%".toList) (sayStart top left width height z) := by
  refine ⟨12, fun m hm => ?_⟩
  obtain ⟨m, rfl⟩ : ∃ k, m = k + 12 := ⟨m - 12, by omega⟩
  unfold actTextProps sayStart
  simp only [List.append_assoc]
  refine jvalue_obj (n := m + 11) rfl ?_
  refine jfields_next (k := "action".toList) (n := m + 10) (by decide) rfl rfl (jvalue_str (v := "start".toList) (by decide) (m + 9) [' '] _ rfl) rfl ?_
  refine jfields_next (k := "delay".toList) (n := m + 9) (by decide) rfl rfl (jvalue_str (v := "0".toList) (by decide) (m + 8) [' '] _ rfl) rfl ?_
  refine jfields_last (k := "properties".toList) (n := m + 8) (r3 := "   }".toList) (by decide) rfl rfl (jvalue_obj (n := m + 7) rfl ?_) rfl
  refine jfields_next (k := "bounds".toList) (n := m + 6)
    (r3 := ",        \"zIndex\" : \"".toList ++ (z ++ ("\",        \"transparency\" : \"".toList ++ ("0%".toList ++ "\"      }   }".toList)))) (by decide) rfl rfl (jvalue_obj (n := m + 5) rfl ?_) rfl ?_
  · refine jfields_next (k := "top".toList) (n := m + 4) (by decide) rfl rfl (jvalue_str h1 (m + 3) [' '] _ rfl) rfl ?_
    refine jfields_next (k := "left".toList) (n := m + 3) (by decide) rfl rfl (jvalue_str h2 (m + 2) [' '] _ rfl) rfl ?_
    refine jfields_next (k := "width".toList) (n := m + 2) (by decide) rfl rfl (jvalue_str h3 (m + 1) [' '] _ rfl) rfl ?_
    exact jfields_last (k := "height".toList) (n := m + 1) (by decide) rfl rfl (jvalue_str h4 m [' '] _ rfl) rfl
  · refine jfields_next (k := "zIndex".toList) (n := m + 5) (by decide) rfl rfl (jvalue_str h5 (m + 4) [' '] _ rfl) rfl ?_
    exact jfields_last (k := "transparency".toList) (n := m + 4) (by decide) rfl rfl (jvalue_str (v := "0%".toList) (by decide) (m + 3) [' '] _ rfl) rfl

/-! ## The properties of the player -/

section
variable (e : PEnv)

/-- Anything that does not depend on the values, nor on the stored texts of `name` and of the geometry, stays. -/
theorem set_frame {α : Type} (f : PSt → α) (hp : ∀ (s : PSt) p, f { s with prop := p } = f s) (hm : ∀ (s : PSt) (j : String) (v : Str), j ∈ geoNames → f { s with media := upd s.media j v } = f s)
    (hg : ∀ (s : PSt) (j : String) (v : Str), j ∈ geoNames → f { s with player := upd s.player j v } = f s) (n : Nat) : ∀ {name : String} {v : Str} {s s' : PSt},
    (∀ (s : PSt) (v : Str), f { s with player := upd s.player name v } = f s) → playerSet e n name v s = .ok s' → f s' = f s := by
  induction n with
  | zero => intro name v s s' _ h; cases h
  | succ n ih =>
    intro name v s s' hn h
    have hms : ∀ j ∈ geoNames, ∀ v s s', mediaSet1 (playerSet e n) j v s = .ok s' → f s' = f s := by
      intro j hj v s s' h
      unfold mediaSet1 at h
      dsimp only at h
      split at h
      · rw [ih (fun s v => hg s j v hj) h]; exact hm s j v hj
      · cases h; exact hm s j v hj
    unfold playerSet playerSet1 at h
    dsimp only at h
    obtain ⟨-, -, h⟩ := Res.bind_eq_ok h
    cases hi : propInfo name with
    | none => rw [hi] at h; cases h; exact hn s v
    | some q =>
      obtain ⟨c, d⟩ := q
      rw [hi] at h
      dsimp only at h
      obtain ⟨r, hr, h⟩ := Res.bind_eq_ok h
      cases r with
      | none => cases h
      | some t =>
        cases h
        rw [hn t v]
        clear hi
        generalize (if v = [] then d else v) = v at hr
        cases c
        case bounds =>
          simp only [doSetProperty] at hr
          split at hr
          · obtain ⟨x, hx, hr⟩ := Res.bind_eq_ok hr
            cases hr; exact setMany_frame f _ (fun p hp => hms p.1 (by revert hp; simp [geoNames]; rintro (rfl | rfl | rfl | rfl) <;> simp)) hx
          · cases hr
        case location =>
          simp only [doSetProperty] at hr
          split at hr
          · obtain ⟨x, hx, hr⟩ := Res.bind_eq_ok hr
            cases hr; exact setMany_frame f _ (fun p hp => hms p.1 (by revert hp; simp [geoNames]; rintro (rfl | rfl) <;> simp)) hx
          · cases hr
        case size =>
          simp only [doSetProperty] at hr
          split at hr
          · obtain ⟨x, hx, hr⟩ := Res.bind_eq_ok hr
            cases hr; exact setMany_frame f _ (fun p hp => hms p.1 (by revert hp; simp [geoNames]; rintro (rfl | rfl) <;> simp)) hx
          · cases hr
        case width =>
          simp only [doSetProperty] at hr
          split at hr
          · obtain ⟨x, hx, hr⟩ := Res.bind_eq_ok hr
            cases hr; rw [hms _ (by simp [geoNames]) _ _ _ hx]; exact hp s _
          · cases hr; exact hp s _
        case height =>
          simp only [doSetProperty] at hr
          split at hr
          · obtain ⟨x, hx, hr⟩ := Res.bind_eq_ok hr
            cases hr; rw [hms _ (by simp [geoNames]) _ _ _ hx]; exact hp s _
          · cases hr; exact hp s _
        case right =>
          simp only [doSetProperty] at hr
          obtain ⟨x, hx, hr⟩ := Res.bind_eq_ok hr
          obtain ⟨y, hy, hr⟩ := Res.bind_eq_ok hr
          cases hr; exact hp s _
        case bottom =>
          simp only [doSetProperty] at hr
          obtain ⟨x, hx, hr⟩ := Res.bind_eq_ok hr
          obtain ⟨y, hy, hr⟩ := Res.bind_eq_ok hr
          cases hr; exact hp s _
        all_goals
          simp only [doSetProperty] at hr
          repeat' split at hr
          all_goals first
            | (simp only [Res.ok.injEq, Option.some.injEq] at hr; subst hr; first | rfl | exact hp s _)
            | (obtain ⟨x, hx, hr⟩ := Res.bind_eq_ok hr
               simp only [Res.ok.injEq, Option.some.injEq] at hr; subst hr; exact hp s _)

/-- Setting a property changes the stored text of no other one that is not of the geometry. -/
theorem set_player {n : Nat} {name k : String} (hk : k ∉ geoNames) (hne : k ≠ name) {v : Str} {s s' : PSt} (h : playerSet e n name v s = .ok s') : s'.player k = s.player k :=
  set_frame e (fun s => s.player k) (fun _ _ => rfl) (fun _ _ _ _ => rfl) (fun _ j _ hj => upd_ne _ _ (fun h => hk (h ▸ hj))) n (fun _ _ => upd_ne _ _ hne) h

/-- Setting a property stores its text. -/
theorem set_stores {n : Nat} {name : String} {v : Str} {s s' : PSt} (h : playerSet e n name v s = .ok s') : s'.player name = v := by
  cases n with
  | zero => cases h
  | succ n =>
    unfold playerSet playerSet1 at h
    dsimp only at h
    obtain ⟨-, -, h⟩ := Res.bind_eq_ok h
    cases hi : propInfo name with
    | none => rw [hi] at h; cases h; exact upd_same ..
    | some q =>
      obtain ⟨c, d⟩ := q
      rw [hi] at h
      dsimp only at h
      obtain ⟨r, hr, h⟩ := Res.bind_eq_ok h
      cases r with
      | none => cases h
      | some t => cases h; exact upd_same ..

theorem set_attached {n : Nat} {name : String} {v : Str} {s s' : PSt} (h : playerSet e n name v s = .ok s') : s'.attached = s.attached :=
  set_frame e (·.attached) (fun _ _ => rfl) (fun _ _ _ _ => rfl) (fun _ _ _ _ => rfl) n (fun _ _ => rfl) h

theorem resetLoop_attached (l : List (String × PCode × Bool × String)) : ∀ {s s' : PSt}, resetLoop e l s = .ok s' → s'.attached = s.attached := by
  induction l with
  | nil => intro s s' h; cases h; rfl
  | cons p l ih =>
    intro s s' h
    simp only [resetLoop] at h
    split at h
    · obtain ⟨t, ht, h⟩ := Res.bind_eq_ok h
      exact (ih h).trans (set_attached e ht)
    · exact ih h

theorem resetProps_after {s s' : PSt} (h : resetProps e s = .ok s') : s'.attached = s.attached ∧ s'.player = fun _ => [] := by
  unfold resetProps at h
  obtain ⟨t, ht, h⟩ := Res.bind_eq_ok h
  cases h
  exact ⟨(resetLoop_attached e _ ht : t.attached = s.attached), rfl⟩

theorem startLoop_player {k : String} (hk : k ∉ geoNames) (todo : List String) : ∀ {keys : List String} {s s' : PSt}, todo.Pairwise (· < ·) → s.attached = true →
    startLoop (playerSet e 3) (·.media) todo keys s = .ok s' → s'.attached = true ∧ s'.player k = if k ∈ todo ∧ k ∈ keys then s.media k else s.player k := by
  induction todo with
  | nil => intro keys s s' _ ha h; cases h; exact ⟨ha, by simp⟩
  | cons j todo ih =>
    intro keys s s' hp ha h
    have hp' := List.pairwise_cons.1 hp
    rcases startLoop_cons e h with ⟨hin, t, ht, h⟩ | ⟨hout, h⟩
    · obtain ⟨h1, h2⟩ := ih hp'.2 ((set_attached e ht).trans ha) h
      refine ⟨h1, ?_⟩
      rw [h2, set_media e 3 hk ht]
      have hmem : (k ∈ addedKeys j ++ keys) ↔ k ∈ keys := by
        rw [List.mem_append]
        exact ⟨fun h => h.resolve_left (fun h => hk (addedKeys_geo h)), .inr⟩
      simp only [hmem, List.mem_cons]
      by_cases hj : k = j
      · subst hj
        rw [if_neg (fun hh => String.lt_irrefl _ (hp'.1 k hh.1)), if_pos ⟨.inl rfl, hin⟩]
        exact set_stores e ht
      · rw [set_player e hk hj ht]
        simp only [hj, false_or]
    · obtain ⟨h1, h2⟩ := ih hp'.2 ha h
      refine ⟨h1, ?_⟩
      rw [h2]
      simp only [List.mem_cons]
      by_cases hj : k = j
      · subst hj
        rw [if_neg (fun hh => hout hh.2), if_neg (fun hh => hout hh.2)]
      · simp only [hj, false_or]

/-- What the player of a media object that starts has stored: the texts of the document (those of the geometry may come from a compound property). -/
theorem startMedia_player {W H : Int} {keys : List String} {media : Store} {p0 : PProp} {s : PSt} (hh : media.Has keys) (h : startMedia e W H keys media p0 = .ok s) :
    s.attached = true ∧ ∀ k, k ∉ geoNames → k ≠ "type" → s.player k = media k := by
  unfold startMedia at h
  obtain ⟨b, hb, h⟩ := Res.bind_eq_ok h
  have hpl := (resetProps_after e hb).2
  have hsort : (startOrder (startKeys keys)).Pairwise (· < ·) := mapKeys_sorted _
  refine ⟨(startLoop_player e (k := "uri") (by decide) _ hsort rfl h).1, fun k hk ht => ?_⟩
  rw [(startLoop_player e hk _ hsort rfl h).2]
  have h1 : startStore media k = media k := upd_ne _ _ ht
  have h2 : (k ∈ startOrder (startKeys keys) ∧ k ∈ startKeys keys) ↔ k ∈ startKeys keys := by
    refine ⟨fun h => h.2, fun h => ⟨?_, h⟩⟩
    unfold startOrder
    rw [mem_mapKeys]
    exact List.mem_append_right _ h
  simp only [h2]
  by_cases hin : k ∈ startKeys keys
  · rw [if_pos hin]; exact h1
  · rw [if_neg hin]
    show b.player k = _
    rw [hpl, ← h1, hh.start k hin]

end

/-! ## What is sent -/

variable (E : REnv)

/-- A message is the one of a notice: it goes to the address of the node, and says the action. -/
def Posted.Is (q : Posted) (a : Notice) : Prop := q.url = nodeUrl a.to_ a.node ∧ (a.whole = false → Plain a.action → Says q.body (sayAction a.action))

/-- The notices that reach somebody. -/
def reaching (l : List Notice) : List Notice := l.filter fun a => E.reach (nodeUrl a.to_ a.node)

theorem rel_append {α β : Type} {R : α → β → Prop} {a b : List α} {c d : List β} (h : Each R a c) (h' : Each R b d) : Each R (a ++ b) (c ++ d) := by
  induction h with
  | nil => exact h'
  | cons h _ ih => exact .cons h ih

/-- What one operation does. -/
structure RStep (o : ROp) (s s' : RemSt) : Prop where
  id : s'.id = s.id
  attached : s'.base.attached = true
  address : s'.base.get "remotePlayerBaseURL" = o.address (s.base.get "remotePlayerBaseURL")
  sent : ∃ l, s'.sent = s.sent ++ l ∧ Each Posted.Is l (reaching E (o.announce s.id (s.base.get "remotePlayerBaseURL")).toList)

theorem post_is {body label : Str} {s : RemSt} {a : Notice} (h1 : a.to_ = s.base.get "remotePlayerBaseURL") (h2 : a.node = if label = [] then s.id else label)
    (h3 : a.whole = false → Plain a.action → Says body (sayAction a.action)) :
    ∃ l, (s.post E body label).sent = s.sent ++ l ∧ Each Posted.Is l (reaching E [a]) := by
  have hu : nodeUrl a.to_ a.node = s.base.get "remotePlayerBaseURL" ++ "/scene/nodes/".toList ++ (if label = [] then s.id else label) := by rw [h1, h2]; rfl
  unfold RemSt.post
  dsimp only
  rw [← hu]
  unfold reaching
  by_cases hr : E.reach (nodeUrl a.to_ a.node) = true
  · rw [if_pos hr, List.filter_cons_of_pos (by exact hr)]
    exact ⟨_, rfl, .cons ⟨rfl, h3⟩ .nil⟩
  · rw [if_neg hr, List.filter_cons_of_neg (by exact hr)]
    exact ⟨[], by simp, .nil⟩

theorem post_same {body label : Str} {s : RemSt} : (s.post E body label).id = s.id ∧ (s.post E body label).base = s.base ∧ (s.post E body label).st = s.st := by
  unfold RemSt.post
  dsimp only
  generalize (s.base.get "remotePlayerBaseURL" ++ "/scene/nodes/".toList ++ if label = [] then s.id else label) = u
  cases E.reach u <;> exact ⟨rfl, rfl, rfl⟩

theorem rem_step {o : ROp} {s s' : RemSt} (ha : s.base.attached = true) (h : o.run E s = .ok s') : RStep E o s s' := by
  have hone : ∀ (body label : Str) (a : Notice) (t : RemSt), o.announce s.id (s.base.get "remotePlayerBaseURL") = some a → a.to_ = s.base.get "remotePlayerBaseURL" →
      a.node = (if label = [] then s.id else label) → (a.whole = false → Plain a.action → Says body (sayAction a.action)) → o.address (s.base.get "remotePlayerBaseURL") = s.base.get "remotePlayerBaseURL" →
      t.id = s.id → t.base = s.base → t.sent = (s.post E body label).sent → RStep E o s t := by
    intro body label a t h1 h2 h3 h4 h5 h6 h7 h8
    refine ⟨h6, h7 ▸ ha, by rw [h7, h5], ?_⟩
    rw [h1, h8]
    exact post_is E h2 h3 h4
  cases o with
  | set n v =>
    simp only [ROp.run] at h
    obtain ⟨b, hb, h⟩ := Res.bind_eq_ok h
    cases h
    unfold mediaSet mediaSet1 at hb
    dsimp only at hb
    rw [if_pos ha] at hb
    refine ⟨rfl, (set_attached E.e hb).trans ha, ?_, [], by simp, .nil⟩
    show b.player _ = if _ then _ else _
    by_cases hn : n = "remotePlayerBaseURL"
    · rw [if_pos hn, ← hn]; exact set_stores E.e hb
    · rw [if_neg hn, set_player E.e (by decide) (fun h => hn h.symm) hb]; rfl
  | start =>
    simp only [ROp.run] at h
    obtain ⟨p1, p2, p3⟩ := post_same E (body := actTextProps "start".toList (s.base.get "top") (s.base.get "left") (s.base.get "width") (s.base.get "height") (s.base.get "zOrder") "0%".toList)
      (label := []) (s := s)
    split at h
    · cases h
    · cases h
      exact hone _ [] _ _ rfl rfl rfl (fun h => by cases h) rfl p1 p2 rfl
  | stop =>
    simp only [ROp.run] at h
    obtain ⟨p1, p2, p3⟩ := post_same E (body := actText "stop".toList) (label := []) (s := s)
    split at h
    · cases h
    · obtain ⟨b, hb, h⟩ := Res.bind_eq_ok h
      cases h
      obtain ⟨r1, r2⟩ := resetProps_after E.e hb
      refine ⟨p1, r1.trans (p2 ▸ ha), ?_, ?_⟩
      · show b.player _ = []
        rw [r2]
      · exact post_is E (a := ⟨_, s.id, "stop".toList, false⟩) rfl rfl (fun _ h => actText_says h)
  | pause =>
    simp only [ROp.run] at h
    obtain ⟨p1, p2, p3⟩ := post_same E (body := actText "pause".toList) (label := []) (s := s)
    split at h
    · cases h
    · cases h
      exact hone _ [] _ _ rfl rfl rfl (fun _ h => actText_says h) rfl p1 p2 rfl
  | resume =>
    simp only [ROp.run] at h
    obtain ⟨p1, p2, p3⟩ := post_same E (body := actText "resume".toList) (label := []) (s := s)
    split at h
    · cases h
    · cases h
      exact hone _ [] _ _ rfl rfl rfl (fun _ h => actText_says h) rfl p1 p2 rfl
  | anchor a l =>
    simp only [ROp.run] at h
    obtain ⟨p1, p2, p3⟩ := post_same E (body := actText a) (label := l) (s := s)
    cases h
    exact hone _ l _ _ rfl rfl rfl (fun _ h => actText_says h) rfl p1 p2 rfl
  | answer n =>
    cases h
    exact ⟨rfl, ha, rfl, [], by simp, .nil⟩

/-- **C77** (told): of whatever happens to an object of remote content, each start, stop, pause, resumption and labelled anchor is sent to the node of the object, or of the label, of the
remote player whose address is the one set last, in order and once each, and nothing else is sent; what is sent says the action.  (What cannot be an address reaches nobody.) -/
theorem C77_told (os : List ROp) : ∀ {s s' : RemSt}, s.base.attached = true → ROp.runAll E os s = .ok s' →
    ∃ l, s'.sent = s.sent ++ l ∧ Each Posted.Is l (reaching E (announced s.id os (s.base.get "remotePlayerBaseURL"))) := by
  induction os with
  | nil => intro s s' _ h; cases h; exact ⟨[], by simp, .nil⟩
  | cons o os ih =>
    intro s s' ha h
    obtain ⟨t, ht, h⟩ := Res.bind_eq_ok h
    have a := rem_step E ha ht
    obtain ⟨l1, h1, f1⟩ := a.sent
    obtain ⟨l2, h2, f2⟩ := ih a.attached h
    refine ⟨l1 ++ l2, by rw [h2, h1, List.append_assoc], ?_⟩
    rw [a.id, a.address] at f2
    unfold announced reaching
    rw [List.filter_append]
    exact rel_append f1 f2

/-- **C77** (start): what is sent of the start of the object says its place and order as they are stored when it starts. -/
theorem C77_start {s s' : RemSt} (h : ROp.start.run E s = .ok s') (hr : E.reach (nodeUrl (s.base.get "remotePlayerBaseURL") s.id) = true) :
    ∃ body, s'.sent = s.sent ++ [⟨nodeUrl (s.base.get "remotePlayerBaseURL") s.id, body⟩] ∧
      ((∀ k ∈ ["top", "left", "width", "height", "zOrder"], Plain (s.base.get k)) →
        Says body (sayStart (s.base.get "top") (s.base.get "left") (s.base.get "width") (s.base.get "height") (s.base.get "zOrder"))) := by
  simp only [ROp.run] at h
  split at h
  · cases h
  · cases h
    refine ⟨_, ?_, fun hp => startText_says (hp _ (by simp)) (hp _ (by simp)) (hp _ (by simp)) (hp _ (by simp)) (hp _ (by simp))⟩
    unfold RemSt.post
    dsimp only
    exact congrArg RemSt.sent (if_pos hr)

/-- **C77** (document): for an object of remote content that the document describes and whose remote player is at `url` when the object starts, the whole history is told to that address, or to
the one that is set later. -/
theorem C77_document {id : Str} {W H : Int} {keys : List String} {media : Store} {p0 : PProp} {s s' : RemSt} (hk : media.Has keys) (h : startRemote E id W H keys media p0 = .ok s)
    {os : List ROp} (h' : ROp.runAll E os s = .ok s') : Each Posted.Is s'.sent (reaching E (announced id os (media "remotePlayerBaseURL"))) ∧ s.base.get "zOrder" = media "zOrder" := by
  unfold startRemote at h
  obtain ⟨b, hb, h⟩ := Res.bind_eq_ok h
  cases h
  obtain ⟨h1, h2⟩ := startMedia_player E.e hk hb
  obtain ⟨l, hl, hf⟩ := C77_told E os (s := ⟨id, b, .sleeping, []⟩) h1 h'
  rw [show (s'.sent = l) from hl]
  refine ⟨?_, h2 _ (by decide) (by decide)⟩
  rw [← h2 "remotePlayerBaseURL" (by decide) (by decide)]
  exact hf

/-- How each operation moves the player. -/
inductive ROp.Moves : ROp → EState → EState → Prop
  | set (n : String) (v : Str) (x : EState) : (ROp.set n v).Moves x x
  | start (x : EState) : x ≠ .occurring → ROp.start.Moves x .occurring
  | stop (x : EState) : x ≠ .sleeping → ROp.stop.Moves x .sleeping
  | pause : ROp.pause.Moves .occurring .paused
  | resume : ROp.resume.Moves .paused .occurring
  | anchor (a l : Str) (x : EState) : (ROp.anchor a l).Moves x x
  | answer (k : Nat) (x : EState) : (ROp.answer k).Moves x x

/-- **C77** (states): what is announced happens: a start makes the player occur, a stop makes it sleep, a pause pauses what occurs, and a resumption resumes what is paused; nothing else moves it. -/
theorem C77_states {o : ROp} {s s' : RemSt} (h : o.run E s = .ok s') : o.Moves s.st s'.st := by
  cases o with
  | set n v =>
    simp only [ROp.run] at h
    obtain ⟨b, hb, h⟩ := Res.bind_eq_ok h
    cases h
    exact .set n v _
  | start =>
    simp only [ROp.run, (post_same E).2.2] at h
    split at h
    · cases h
    · rename_i hn
      cases h
      exact .start _ hn
  | stop =>
    simp only [ROp.run, (post_same E).2.2] at h
    split at h
    · cases h
    · rename_i hn
      obtain ⟨b, hb, h⟩ := Res.bind_eq_ok h
      cases h
      exact .stop _ hn
  | pause =>
    simp only [ROp.run, (post_same E).2.2] at h
    split at h
    · cases h
    · rename_i hn
      cases h
      cases hs : s.st with
      | occurring => exact .pause
      | paused => exact absurd (.inl hs) hn
      | sleeping => exact absurd (.inr hs) hn
  | resume =>
    simp only [ROp.run, (post_same E).2.2] at h
    split at h
    · cases h
    · rename_i hn
      cases h
      cases hs : s.st with
      | paused => exact .resume
      | occurring => exact absurd (by rw [hs]; decide) hn
      | sleeping => exact absurd (by rw [hs]; decide) hn
  | anchor a l =>
    simp only [ROp.run] at h
    cases h
    rw [(post_same E).2.2]
    exact .anchor a l _
  | answer k =>
    cases h
    exact .answer k _

/-! ## What is not so -/

/-- **C77** (nobody is told): if the remote player is not known when something happens, and so the address is none, nothing is sent; and it is not sent later either, when the remote player
becomes known: only what happens from then on is. -/
theorem C77_fails_unknown {s s' s'' : RemSt} (hr : E.reach (nodeUrl [] s.id) = false) (hu : s.base.get "remotePlayerBaseURL" = []) (ha : s.base.attached = true) {v : Str}
    (h : ROp.start.run E s = .ok s') (h' : (ROp.set "remotePlayerBaseURL" v).run E s' = .ok s'') : s''.st = .occurring ∧ s''.sent = s.sent := by
  obtain ⟨l, h1, h2⟩ := C77_told E [.start, .set "remotePlayerBaseURL" v] ha (s' := s'') (by simp only [ROp.runAll, h, Res.bind_ok, h'])
  have hl : l = [] := by
    rw [hu] at h2
    have : reaching E (announced s.id [.start, .set "remotePlayerBaseURL" v] []) = [] := by
      unfold reaching
      exact (List.filter_cons_of_neg (by simpa using hr))
    rw [this] at h2
    cases h2
    rfl
  refine ⟨?_, by rw [h1, hl]; simp⟩
  simp only [ROp.run] at h h'
  split at h
  · cases h
  · cases h
    obtain ⟨b, hb, h'⟩ := Res.bind_eq_ok h'
    cases h'
    rfl

/-- **C77** (failures): whatever the remote player answers, nothing is done about it. -/
theorem C77_fails_answer (status : Nat) (s : RemSt) : (ROp.answer status).run E s = .ok s := rfl

/-! ## Cases -/

/-- Addresses begin with `http://`. -/
def renv0 : REnv := { e := penv0, reach := fun u => hasPrefix u "http://".toList }

/-- An object of remote content with the given properties, and what then happened to it. -/
def remRun (l : List (String × String)) (os : List ROp) : Res RemSt :=
  (startRemote renv0 "m1".toList 100 200 (keysOfList l) (storeOf l) (initProp penv0 0 0 (0, 0, 0, 0))).bind (ROp.runAll renv0 os)

def remSeen (r : Res RemSt) : Option (List (String × String)) := match r with | .ok s => some (s.sent.map fun q => (String.ofList q.url, String.ofList q.body)) | _ => none

/-- An object that starts before its remote player is known, and is paused afterwards; then its label `a` is reached. -/
example : remSeen (remRun [("device", "hmd"), ("uri", "a.mp4")] [.start, .set "remotePlayerBaseURL" "http://h".toList, .pause, .answer 404, .anchor "start".toList "a".toList]) =
    some [("http://h/scene/nodes/m1", "{     \"action\": \"pause\",     \"delay\": \"0\"   }"),
      ("http://h/scene/nodes/a", "{     \"action\": \"start\",     \"delay\": \"0\"   }")] := by decide +kernel

example : renv0.reach (nodeUrl [] "m1".toList) = false := by decide +kernel
example : renv0.reach (nodeUrl "http://h".toList "m1".toList) = true := by decide +kernel
example : Plain "50%".toList := by decide

/-- **C77** (texts are not protected): a document whose `top` contains a quote is presented, and what is sent of its start cannot be read. -/
theorem C77_fails_quote : (match remRun [("device", "hmd"), ("uri", "a.mp4"), ("remotePlayerBaseURL", "http://h"), ("top", "5\"")] [.start] with
    | .ok s => some (s.st, s.sent.map fun q => (jvalue 100 q.body).isSome) | _ => none) = some (.occurring, [false]) := by decide +kernel

/-- The same without the quote. -/
example : (match remRun [("device", "hmd"), ("uri", "a.mp4"), ("remotePlayerBaseURL", "http://h"), ("top", "5")] [.start] with
    | .ok s => some (s.st, s.sent.map fun q => (jvalue 100 q.body).isSome) | _ => none) = some (.occurring, [true]) := by decide +kernel

end Ginga
