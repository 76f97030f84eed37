import Verif.Proofs.LtabDoc
import Verif.Props.C42
/-!
# C54–C57: what an NCL-ltab document becomes

The specification is in `Verif.SpecLtab`: it reads the tables of a document without mentioning the parser.  `H.at top π` is the table
reached from the table `top` through the lists of children.  The object of a table is the one that the document gives for its id; the
object of the outermost table is the root.
-/
namespace Ginga

/-- The object of the table `a` that stands at `π`. -/
def Reg.objectFor (r : Reg) (H : LHeap) (π : List Nat) (a : Nat) : Option Nat :=
  if π = [] then some r.root else (H.id a).bind r.getById

/-- The objects of the registry are those of the tables inside `top`. -/
structure ObjectsOf (H : LHeap) (r : Reg) (top : Nat) : Prop where
  /-- the outermost table is a context, and its id is another name of the root -/
  root : H.kind top = some .context ∧ ∃ x id, r.has r.root x ∧ x.kind = .context ∧ x.parent = none ∧ H.id top = some id ∧ (id, 0) ∈ x.aliases
  /-- a table inside it is an object with its kind and its id, in the object of the enclosing table -/
  node : ∀ π i a, H.at top (π ++ [i]) = some a → ∃ b o p x, H.at top π = some b ∧ r.objectFor H (π ++ [i]) a = some o ∧ r.objectFor H π b = some p ∧
    r.has o x ∧ H.kind a = some x.kind ∧ H.id a = some x.id ∧ x.parent = some p
  /-- tables at different places are different objects -/
  inj : ∀ π π' a a', H.at top π = some a → H.at top π' = some a' → r.objectFor H π a = r.objectFor H π' a' → π = π'
  /-- the document has no other objects, but for the settings -/
  all : ∀ q ∈ r.objects, r.settings = some q ∨ ∃ π a, H.at top π = some a ∧ r.objectFor H π a = some q
  /-- the children of an object are those of its table; the root has the settings object too -/
  children : ∀ π a, H.at top π = some a → ∃ o x, r.objectFor H π a = some o ∧ r.obj o = some x ∧
    ∀ c, c ∈ x.children ↔ (∃ i b, H.at top (π ++ [i]) = some b ∧ r.objectFor H (π ++ [i]) b = some c) ∨ (π = [] ∧ r.settings = some c)
  /-- nothing but tables in the lists of children -/
  tables : ∀ π a, H.at top π = some a → ∀ v ∈ H.kidVals a, ∃ b, v = .tab b

theorem objectFor_eq {E : PRead} {H : LHeap} {t : PS} {top : Nat} {f : List Nat → Nat} (h : LtabDoc E H t top f) {π : List Nat} {a : Nat} (ha : H.at top π = some a) :
    t.reg.objectFor H π a = some (f π) := by
  unfold Reg.objectFor
  split
  · next e => subst e; rw [h.root.1]
  · next e =>
    obtain ⟨x, -, -, h2, -, h3⟩ := h.node π a ha e
    rw [h2]; exact h3

/-- C54.  The objects of an accepted document are those of its tables: one per table, of the kind and with the id that the table
says, in the object of the enclosing table. -/
theorem C54 (E : PRead) (hinj : ∀ i j, E.addr i = E.addr j → i = j) (H : LHeap) (d : Nat) (v : LVal) (t : PS) (h : parseLtab E H d v = .ok (some t)) :
    ∃ top, v = .tab top ∧ ObjectsOf H t.reg top := by
  obtain ⟨top, f, rfl, hd, w⟩ := ltab_doc hinj h
  refine ⟨top, rfl, ⟨hd.root.2, ?_, ?_, ?_, ?_, ?_⟩⟩
  · intro π i a ha
    obtain ⟨x, h1, h2, h3, h4, -⟩ := hd.node _ a ha (by simp)
    obtain ⟨j, b, -, hb⟩ := at_dropLast ha (by simp)
    rw [List.dropLast_concat] at hb h4
    exact ⟨b, _, _, x, hb, objectFor_eq hd ha, objectFor_eq hd hb, h1, h2, h3, h4⟩
  · intro π π' a a' h1 h2 e
    rw [objectFor_eq hd h1, objectFor_eq hd h2] at e
    exact hd.inj _ _ _ _ h1 h2 (Option.some.inj e)
  · intro q hq
    rcases hd.all q hq with h1 | ⟨π, a, h1, h2⟩
    · exact .inl h1
    · exact .inr ⟨π, a, h1, by rw [objectFor_eq hd h1, h2]⟩
  · intro π a ha
    obtain ⟨x, hx, hc⟩ := hd.children π a ha
    refine ⟨_, x, objectFor_eq hd ha, hx, fun c => (hc c).trans ⟨?_, ?_⟩⟩
    · rintro (⟨i, b, h1, h2⟩ | h1)
      · exact .inl ⟨i, b, h1, by rw [objectFor_eq hd h1, h2]⟩
      · exact .inr h1
    · rintro (⟨i, b, h1, h2⟩ | h1)
      · exact .inl ⟨i, b, h1, by rw [objectFor_eq hd h1] at h2; exact (Option.some.inj h2).symm⟩
      · exact .inr h1
  · intro π a ha v hv
    rw [hd.tables π a ha] at hv
    obtain ⟨b, -, rfl⟩ := List.mem_map.1 hv
    exact ⟨b, rfl⟩

/-- C55.  A media object has an attribution event and the value for each property of its table (the last one if a property is given
twice, the source as property `uri`), a presentation event for each area with its times (the first of two with the same name) and for
the whole, and no other events or properties. -/
theorem C55 (E : PRead) (hinj : ∀ i j, E.addr i = E.addr j → i = j) (H : LHeap) (d : Nat) (top : Nat) (t : PS) (h : parseLtab E H d (.tab top) = .ok (some t))
    (π : List Nat) (a : Nat) (ha : H.at top π = some a) (hk : H.kind a = some .media) :
    ∃ o, t.reg.objectFor H π a = some o ∧ MediaAs E H t o a := by
  obtain ⟨top', f, e, hd, w⟩ := ltab_doc hinj h
  cases e
  have := hd.as π a ha
  unfold ObjectAs at this
  rw [hk] at this
  exact ⟨_, objectFor_eq hd ha, this⟩

/-- C56.  A context has the ports and the links of its table, in order: each condition and each action has the transition, the event
and the parameters that its table says, and the predicate of a condition has the truth of its table.  Missing: that the event exists
(`C56_fails_key`, `C56_keys`). -/
theorem C56_partial (E : PRead) (hinj : ∀ i j, E.addr i = E.addr j → i = j) (H : LHeap) (d : Nat) (top : Nat) (t : PS) (h : parseLtab E H d (.tab top) = .ok (some t))
    (π : List Nat) (a : Nat) (ha : H.at top π = some a) (hk : H.kind a = some .context) :
    ∃ o, t.reg.objectFor H π a = some o ∧ ContextAs H t o a := by
  obtain ⟨top', f, e, hd, w⟩ := ltab_doc hinj h
  cases e
  have := hd.as π a ha
  unfold ObjectAs at this
  rw [hk] at this
  exact ⟨_, objectFor_eq hd ha, this⟩

/-- C57.  A switch has the rules of its table, in order: each selects the child with the given id, and its predicate has the truth of
its table. -/
theorem C57 (E : PRead) (hinj : ∀ i j, E.addr i = E.addr j → i = j) (H : LHeap) (d : Nat) (top : Nat) (t : PS) (h : parseLtab E H d (.tab top) = .ok (some t))
    (π : List Nat) (a : Nat) (ha : H.at top π = some a) (hk : H.kind a = some .switch) :
    ∃ o, t.reg.objectFor H π a = some o ∧ SwitchAs H t o a := by
  obtain ⟨top', f, e, hd, w⟩ := ltab_doc hinj h
  cases e
  have := hd.as π a ha
  unfold ObjectAs at this
  rw [hk] at this
  exact ⟨_, objectFor_eq hd ha, this⟩

/-! ## The specification is not ambiguous -/

/-- A predicate table has one truth value. -/
theorem truth_unique {H : LHeap} {σ : String → String} {v : LVal} {b b' : Bool} (h : Truth H σ v b) (h' : Truth H σ v b') : b = b' := by
  have w3 : ∀ s, Word "not" s → Word "and" s → False := fun s h1 h2 => absurd (h1.symm.trans h2) (by decide)
  have w4 : ∀ s, Word "not" s → Word "or" s → False := fun s h1 h2 => absurd (h1.symm.trans h2) (by decide)
  have w5 : ∀ s, Word "and" s → Word "or" s → False := fun s h1 h2 => absurd (h1.symm.trans h2) (by decide)
  have opu : ∀ op t t', (op, t) ∈ opNames → (op, t') ∈ opNames → t = t' := by
    intro op t t' h1 h2
    simp only [opNames, List.mem_cons, Prod.mk.injEq, List.not_mem_nil, or_false] at h1 h2
    rcases h1 with ⟨rfl, rfl⟩ | ⟨rfl, rfl⟩ | ⟨rfl, rfl⟩ | ⟨rfl, rfl⟩ | ⟨rfl, rfl⟩ | ⟨rfl, rfl⟩ <;>
      rcases h2 with ⟨h2, rfl⟩ | ⟨h2, rfl⟩ | ⟨h2, rfl⟩ | ⟨h2, rfl⟩ | ⟨h2, rfl⟩ | ⟨h2, rfl⟩ <;> first | rfl | exact absurd h2 (by decide)
  induction h generalizing b' with
  | const h1 => cases h' <;> simp_all [LVal.text]
  | not h1 h2 _ ih =>
    cases h' with
    | const g1 => rw [g1] at h1; cases h1
    | not g1 g2 g3 => rw [ih g3]
    | and g1 g2 _ _ => rw [h1] at g1; cases g1; exact (w3 _ h2 g2).elim
    | or g1 g2 _ _ => rw [h1] at g1; cases g1; exact (w4 _ h2 g2).elim
    | test g1 g2 => rw [h1] at g1; cases g1; exact (g2 h2).elim
  | and h1 h2 _ _ ih1 ih2 =>
    cases h' with
    | const g1 => rw [g1] at h1; cases h1
    | not g1 g2 _ => rw [h1] at g1; cases g1; exact (w3 _ g2 h2).elim
    | and g1 g2 g3 g4 => rw [ih1 g3, ih2 g4]
    | or g1 g2 _ _ => rw [h1] at g1; cases g1; exact (w5 _ h2 g2).elim
    | test g1 _ g2 => rw [h1] at g1; cases g1; exact (g2 h2).elim
  | or h1 h2 _ _ ih1 ih2 =>
    cases h' with
    | const g1 => rw [g1] at h1; cases h1
    | not g1 g2 _ => rw [h1] at g1; cases g1; exact (w4 _ g2 h2).elim
    | and g1 g2 _ _ => rw [h1] at g1; cases g1; exact (w5 _ g2 h2).elim
    | or g1 g2 g3 g4 => rw [ih1 g3, ih2 g4]
    | test g1 _ _ g2 => rw [h1] at g1; cases g1; exact (g2 h2).elim
  | test h1 h2 h3 h4 h5 h6 h7 =>
    cases h' with
    | const g1 => rw [g1] at h1; cases h1
    | not g1 g2 _ => rw [h1] at g1; cases g1; exact (h2 g2).elim
    | and g1 g2 _ _ => rw [h1] at g1; cases g1; exact (h3 g2).elim
    | or g1 g2 _ _ => rw [h1] at g1; cases g1; exact (h4 g2).elim
    | test g1 _ _ _ g5 g6 g7 =>
      rw [h1] at g1; cases g1
      rw [h5] at g5; cases g5
      rw [h6] at g6; cases g6
      rw [opu _ _ _ h7 g7]

/-- The text of an event has one reading. -/
theorem eventText_unique {s id id' ev ev' : Str} {ty ty' : EType} (h : EventText s id ty ev) (h' : EventText s id' ty' ev') : id = id' ∧ ty = ty' ∧ ev = ev' := by
  have cutu : ∀ (c : Char) (a b a' b' : Str), c ∉ a → c ∉ a' → a ++ c :: b = a' ++ c :: b' → a = a' ∧ b = b' := by
    intro c a
    induction a with
    | nil =>
      intro b a' b' _ h2 e
      cases a' with
      | nil => simpa using e
      | cons x a' =>
        simp only [List.nil_append, List.cons_append, List.cons.injEq] at e
        rw [e.1] at h2; exact absurd (List.mem_cons_self) h2
    | cons x a ih =>
      intro b a' b' h1 h2 e
      cases a' with
      | nil =>
        simp only [List.nil_append, List.cons_append, List.cons.injEq] at e
        rw [e.1] at h1; exact absurd (List.mem_cons_self) h1
      | cons y a' =>
        simp only [List.cons_append, List.cons.injEq] at e
        obtain ⟨h3, h4⟩ := ih b a' b' (fun h => h1 (List.mem_cons_of_mem _ h)) (fun h => h2 (List.mem_cons_of_mem _ h)) e.2
        exact ⟨by rw [e.1, h3], h4⟩
  generalize hs : s = s' at h'
  cases h with
  | area h1 h2 =>
    cases h' with
    | area g1 g2 => obtain ⟨rfl, rfl⟩ := cutu _ _ _ _ _ h1 g1 hs; exact ⟨rfl, rfl, rfl⟩
    | whole g1 g2 => obtain ⟨rfl, rfl⟩ := cutu _ _ _ _ _ h1 g1 hs; exact absurd g2 h2
    | prop g1 g2 => have : '@' ∈ id' ++ '.' :: ev' := by rw [← hs]; simp
                    clear hs; simp_all
    | key g1 g2 g3 => rename_i c; have : '@' ∈ id' ++ '<' :: (ev' ++ [c]) := by rw [← hs]; simp
                      clear hs; simp_all
    | bare g1 g2 g3 => rename_i c; have : '@' ∈ ev' ++ [c] := by rw [← hs]; simp
                       exact absurd this g1
  | whole h1 h2 =>
    cases h' with
    | area g1 g2 => obtain ⟨rfl, rfl⟩ := cutu _ _ _ _ _ h1 g1 hs; exact absurd h2 g2
    | whole g1 g2 => obtain ⟨rfl, rfl⟩ := cutu _ _ _ _ _ h1 g1 hs; exact ⟨rfl, rfl, rfl⟩
    | prop g1 g2 => have : '@' ∈ id' ++ '.' :: ev' := by rw [← hs]; simp
                    clear hs; simp_all
    | key g1 g2 g3 => rename_i c; have : '@' ∈ id' ++ '<' :: (ev' ++ [c]) := by rw [← hs]; simp
                      clear hs; simp_all
    | bare g1 g2 g3 => rename_i c; have : '@' ∈ ev' ++ [c] := by rw [← hs]; simp
                       exact absurd this g1
  | prop h1 h2 =>
    cases h' with
    | area g1 g2 => have : '@' ∈ id ++ '.' :: ev := by rw [hs]; simp
                    clear hs; simp_all
    | whole g1 g2 => rename_i ev0; have : '@' ∈ id ++ '.' :: ev := by rw [hs]; simp
                     clear hs; simp_all
    | prop g1 g2 => obtain ⟨rfl, rfl⟩ := cutu _ _ _ _ _ h2 g2 hs; exact ⟨rfl, rfl, rfl⟩
    | key g1 g2 g3 => rename_i c; have : '.' ∈ id' ++ '<' :: (ev' ++ [c]) := by rw [← hs]; simp
                      clear hs; simp_all
    | bare g1 g2 g3 => rename_i c; have : '.' ∈ ev' ++ [c] := by rw [← hs]; simp
                       exact absurd this g2
  | key h1 h2 h3 =>
    rename_i c
    cases h' with
    | area g1 g2 => have : '@' ∈ id ++ '<' :: (ev ++ [c]) := by rw [hs]; simp
                    clear hs; simp_all
    | whole g1 g2 => have : '@' ∈ id ++ '<' :: (ev ++ [c]) := by rw [hs]; simp
                     clear hs; simp_all
    | prop g1 g2 => have : '.' ∈ id ++ '<' :: (ev ++ [c]) := by rw [hs]; simp
                    clear hs; simp_all
    | key g1 g2 g3 => obtain ⟨rfl, e⟩ := cutu _ _ _ _ _ h3 g3 hs; exact ⟨rfl, rfl, (List.append_inj' e rfl).1⟩
    | bare g1 g2 g3 => rename_i c'; have : '<' ∈ ev' ++ [c'] := by rw [← hs]; simp
                       exact absurd this g3
  | bare h1 h2 h3 =>
    rename_i c
    cases h' with
    | area g1 g2 => have : '@' ∈ ev ++ [c] := by rw [hs]; simp
                    exact absurd this h1
    | whole g1 g2 => have : '@' ∈ ev ++ [c] := by rw [hs]; simp
                     exact absurd this h1
    | prop g1 g2 => have : '.' ∈ ev ++ [c] := by rw [hs]; simp
                    exact absurd this h2
    | key g1 g2 g3 => rename_i c'; have : '<' ∈ ev ++ [c] := by rw [hs]; simp
                      exact absurd this h3
    | bare g1 g2 g3 => exact ⟨hs, rfl, (List.append_inj' hs rfl).1⟩

/-! ## Events that do not exist -/

/-- The event that a text names in an accepted document: if it is not the null pointer, it is the event of that type and id of the
child with that id; it is the null pointer only if the child has no such event. -/
theorem C56_event {t : PS} {o : Nat} {text : String} {e : Nat} (h : EventAt t o text e) :
    ∃ id ty ev x c y, EventText text.toList id ty ev ∧ t.reg.obj o = some x ∧ c ∈ x.children ∧ t.reg.obj c = some y ∧ y.id = String.ofList id ∧
      (e ≠ 0 → ∃ r, y.getEvent ty (String.ofList ev) = some (e, r)) ∧ ((∀ p ∈ y.events, p.1 ≠ 0) → e = 0 → y.getEvent ty (String.ofList ev) = none) := by
  obtain ⟨id, ty, ev, x, c, y, h1, h2, h3, h4, h5, h6⟩ := h
  refine ⟨id, ty, ev, x, c, y, h1, h2, h3, h4, h5, fun he => ?_, fun hn he => ?_⟩
  · cases hg : y.getEvent ty (String.ofList ev) with
    | none => rw [hg] at h6; exact absurd h6 he
    | some p => rw [hg] at h6; exact ⟨p.2, by rw [h6]; rfl⟩
  · cases hg : y.getEvent ty (String.ofList ev) with
    | none => rfl
    | some p =>
      rw [hg, he] at h6
      exact absurd h6.symm (hn p (List.mem_of_find?_eq_some hg))

/-- A condition, an action or a port that names a key of a child never gets an event: the null pointer, in every accepted document. -/
theorem C56_keys (E : PRead) (hinj : ∀ i j, E.addr i = E.addr j → i = j) (H : LHeap) (d : Nat) (top : Nat) (t : PS) (h : parseLtab E H d (.tab top) = .ok (some t))
    (π : List Nat) (a : Nat) (ha : H.at top π = some a) (o : Nat) (ho : t.reg.objectFor H π a = some o) (text : String) (id ev : Str)
    (ht : EventText text.toList id .selection ev) (e : Nat) (he : EventAt t o text e) : e = 0 := by
  obtain ⟨top', f, e', hd, w⟩ := ltab_doc hinj h
  cases e'
  rw [objectFor_eq hd ha] at ho
  cases ho
  obtain ⟨id', ty, ev', x, c, y, h1, h2, h3, h4, h5, h6⟩ := he
  obtain ⟨rfl, rfl, rfl⟩ := eventText_unique ht h1
  have none : (y.getEvent .selection (String.ofList ev)).map (·.2) = none := by
    obtain ⟨x', hx', hc⟩ := hd.children π a ha
    rw [h2] at hx'; cases hx'
    rcases (hc c).1 h3 with ⟨i, b, hb, rfl⟩ | ⟨-, hs⟩
    · have hb' := hd.as _ b hb
      unfold ObjectAs at hb'
      split at hb'
      · obtain ⟨z, hz, hz'⟩ := hb'.events
        rw [h4] at hz; cases hz
        rw [hz']; rfl
      · obtain ⟨z, hz, hz'⟩ := hb'.events
        rw [h4] at hz; cases hz
        rw [hz', if_neg (by simp)]
      · obtain ⟨z, hz, hz'⟩ := hb'.events
        rw [h4] at hz; cases hz
        rw [hz', if_neg (by simp)]
      · exact hb'.elim
    · obtain ⟨q, z, hq, hz, hz'⟩ := hd.settings
      rw [hs] at hq; cases hq
      rw [h4] at hz; cases hz
      exact hz' _
  rw [h6]
  cases hg : y.getEvent .selection (String.ofList ev) with
  | none => rfl
  | some p => rw [hg] at none; cases none

/-! ## A document -/

/-- A table with the positions 1, 2, ... -/
def arr (l : List LVal) : List (LKey × LVal) := ((l.zipIdx 1).map fun p => (LKey.int p.2, p.1)).filter fun p => p.2 != .nil

/-- A heap. -/
def ltabOf (l : List (List (LKey × LVal))) : LHeap := fun a => l.getD a []

/-- A reader whose addresses are not null. -/
def preadL : PRead := { pread0 with addr := fun i => i + 1 }

/-- A context `top` with a media object `m` (a source, a property, a transition and an area), a switch `s` with a media object `n` and a
rule, two ports and a link with the given condition. -/
def docLtab (cond : String) : LHeap := ltabOf
  [ arr [.str "context", .str "top", .nil, .tab 1, .tab 2, .tab 3],
    arr [.str "m@lambda", .str "m@a1"],
    arr [.tab 4, .tab 7],
    arr [.tab 10],
    arr [.str "media", .str "m", .tab 5, .tab 6],
    [(.str "src", .str "a.mp4"), (.str "left", .num "10"), (.str "transIn", .tab 20)],
    arr [.tab 21],
    arr [.str "switch", .str "s", .tab 8, .tab 9],
    arr [.tab 11],
    arr [.tab 12],
    arr [.tab 16, .tab 17],
    arr [.str "media", .str "n"],
    arr [.str "n", .tab 13],
    arr [.str "and", .tab 14, .tab 15],
    arr [.str "$m.left", .str "==", .str "10"],
    arr [.bool true],
    arr [.tab 18],
    arr [.tab 19],
    arr [.str "START", .str cond, .tab 14],
    arr [.str "set", .str "m.left", .str "20", .tab 22],
    [(.str "type", .str "fade"), (.str "dur", .str "2s")],
    arr [.str "a1", .str "1s", .str "2s"],
    [(.str "delay", .str "1s")] ]

/-- The document is accepted. -/
example : ∃ t, parseLtab preadL (docLtab "m@a1") 200 (.tab 0) = .ok (some t) ∧ t.reg.objects = [1, 2, 6, 13, 16] ∧
    t.reg.getById "m" = some 6 ∧ t.reg.getById "s" = some 13 ∧ t.reg.getById "n" = some 16 ∧
    ((t.links 1).map fun l => (l.conds.map fun c => (c.ev, c.value), l.acts.map fun c => (c.ev, c.value, c.delay))) =
      [([(12, "")], [(10, "20", "1s")])] ∧
    t.ports 1 = [7, 12] ∧ ((t.rules 13).map fun r => (r.1, r.2.truth fun x => if x = "$m.left" then "10" else x)) = [(16, true)] ∧ mget "uri" (t.props 6) = some "a.mp4" ∧ mget "left" (t.props 6) = some "10" := by
  obtain ⟨t, h1, h2⟩ := parsedAnd_iff.1 (show parsedAnd (parseLtab preadL (docLtab "m@a1") 200 (.tab 0)) (fun t => decide (t.reg.objects = [1, 2, 6, 13, 16] ∧
    t.reg.getById "m" = some 6 ∧ t.reg.getById "s" = some 13 ∧ t.reg.getById "n" = some 16 ∧
    ((t.links 1).map fun l => (l.conds.map fun c => (c.ev, c.value), l.acts.map fun c => (c.ev, c.value, c.delay))) =
      [([(12, "")], [(10, "20", "1s")])] ∧
    t.ports 1 = [7, 12] ∧ ((t.rules 13).map fun r => (r.1, r.2.truth fun x => if x = "$m.left" then "10" else x)) = [(16, true)] ∧ mget "uri" (t.props 6) = some "a.mp4" ∧ mget "left" (t.props 6) = some "10")) = true by decide +kernel)
  exact ⟨t, h1, of_decide_eq_true h2⟩

/-- Its tables: `m`, `s` and `n`. -/
example : (docLtab "m@a1").at 0 [0] = some 4 ∧ (docLtab "m@a1").at 0 [1] = some 7 ∧ (docLtab "m@a1").at 0 [1, 0] = some 11 ∧
    (docLtab "m@a1").kind 4 = some .media ∧ (docLtab "m@a1").kind 7 = some .switch ∧ (docLtab "m@a1").kind 0 = some .context := by decide +kernel

/-- What its tables say. -/
example : propsOf preadL (docLtab "m@a1") 4 = [("uri", "a.mp4"), ("left", "10"),
      ("transIn", "{type='fade',subtype='',dur='2s',startProgress='0',endProgress='0',direction='forward',fadeColor='',horzRepeat='0',vertRepeat='0',borderWidth='0',borderColor='',}")] ∧
    areasOf preadL (docLtab "m@a1") 4 = [("a1", 1000000000, 2000000000)] := by decide +kernel

/-- A link on the key `RED` of `m` is accepted, but its condition has no event: nothing can make it true. -/
theorem C56_fails_key : ∃ t, parseLtab preadL (docLtab "m<RED>") 200 (.tab 0) = .ok (some t) ∧
    ((t.links t.reg.root).map fun l => l.conds.map fun c => c.ev) = [[0]] ∧ ∀ i, preadL.addr i ≠ 0 := by
  obtain ⟨t, h1, h2⟩ := parsedAnd_iff.1 (show parsedAnd (parseLtab preadL (docLtab "m<RED>") 200 (.tab 0)) (fun t => decide (
    ((t.links t.reg.root).map fun l => l.conds.map fun c => c.ev) = [[0]])) = true by decide +kernel)
  exact ⟨t, h1, of_decide_eq_true h2, fun i => Nat.succ_ne_zero i⟩

end Ginga
