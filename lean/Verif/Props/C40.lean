import Verif.Proofs.Witness
/-! # C40 — the presentation does not depend on memory layout

Full statement: two runs of the same document with the same inputs make the same transitions in the
same order, wherever the allocator places objects and events.

It is false (`C40_fails_key_order`): objects, children and events are kept in sets ordered by
address, and the order of ticks, keys and propagation is the order of the sets. -/
set_option linter.unusedVariables false
namespace Ginga
open Ex

/-- The two lists contain the same elements, once `g` is applied to those of the second. -/
def SameSet {α : Type} (g : α → α) (l' l : List α) : Prop := List.Perm l' (l.map g)

instance {α : Type} [DecidableEq α] (g : α → α) (l' l : List α) : Decidable (SameSet g l' l) :=
  inferInstanceAs (Decidable (List.Perm _ _))

/-- An action whose event is found at address `τ`. -/
def Act.placed (τ : Eid → Eid) (a : Act) : Act := { a with ev := τ a.ev }

/-- `d'` is the document `d` with the object at address `o` now at `σ o` and the event at `e` now at
`τ e`.  Sets are ordered by address, so they may be in another order; lists are in the same order. -/
structure PlacedAt (σ : Oid → Oid) (τ : Eid → Eid) (d d' : Doc) : Prop where
  inj : ∀ o o', σ o = σ o' → o = o'
  surj : ∀ o', ∃ o, σ o = o'
  injE : ∀ e e', τ e = τ e' → e = e'
  surjE : ∀ e', ∃ e, τ e = e'
  ev : ∀ e, d'.ev (τ e) = { d.ev e with obj := σ (d.ev e).obj }
  kind : ∀ o, (d'.obj (σ o)).kind = (d.obj o).kind
  id : ∀ o, (d'.obj (σ o)).id = (d.obj o).id
  parent : ∀ o, (d'.obj (σ o)).parent = (d.obj o).parent.map σ
  children : ∀ o, SameSet σ (d'.obj (σ o)).children (d.obj o).children
  events : ∀ o, SameSet τ (d'.obj (σ o)).events (d.obj o).events
  lambda : ∀ o, (d'.obj (σ o)).lambda = τ (d.obj o).lambda
  aliases : ∀ o, (d'.obj (σ o)).aliases = (d.obj o).aliases.map fun p => (p.1, p.2.map σ)
  ports : ∀ o, (d'.obj (σ o)).ports = (d.obj o).ports.map τ
  links : ∀ o, (d'.obj (σ o)).links = (d.obj o).links.map fun l =>
    { conds := l.conds.map (Act.placed τ), acts := l.acts.map (Act.placed τ) }
  rules : ∀ o, (d'.obj (σ o)).rules = (d.obj o).rules.map fun p => (σ p.1, p.2)
  portNames : ∀ o, (d'.obj (σ o)).switchPorts.map (·.1) = (d.obj o).switchPorts.map (·.1)
  portEvents : ∀ o, ∀ p ∈ (d.obj o).switchPorts, ∃ p' ∈ (d'.obj (σ o)).switchPorts,
    p'.1 = p.1 ∧ SameSet τ p'.2 p.2
  props : ∀ o, (d'.obj (σ o)).props0 = (d.obj o).props0
  objs : SameSet σ d'.objs d.objs
  root : d'.root = σ d.root
  settings : d'.settings = σ d.settings
  par : ∀ e, d'.par0 (τ e) = d.par0 e
  env : d'.env = d.env

/-- The sets of the document are in the order of the addresses, as `std::set` keeps them. -/
structure ByAddress (d : Doc) : Prop where
  objs : d.objs.Pairwise (· < ·)
  children : ∀ o, (d.obj o).children.Pairwise (· < ·)
  events : ∀ o, (d.obj o).events.Pairwise (· < ·)

/-! ## The counter-example: two medias waiting for the same key -/

/-- A media with a whole-content event and a selection event. -/
def keyMedia (id : String) (lam sel : Eid) : ObjDecl :=
  { kind := .media, id := id, parent := some 0, events := [lam, sel], lambda := lam }

/-- Body(0), settings(1), a variable holder v(2) and two medias `x`, `y` at addresses 3 and 4 that
react to the key RED by setting the property `p` of v to "1" (for the media named `a`) or "2" (for
the one named `b`).  `e` is the address of the events of the media named `a`. -/
def slotDoc (first second : String) (a b : Eid) : Doc :=
  mkDoc env0
    [ { kind := .context, id := "__root__", children := [1, 2, 3, 4], events := [0], lambda := 0,
        ports := [2, a, b],
        links := [{ conds := [{ ev := a + 1, tr := .start }],
                    acts := [{ ev := 8, tr := .start, value := "1", duration := "1s" }] },
                  { conds := [{ ev := b + 1, tr := .start }],
                    acts := [{ ev := 8, tr := .start, value := "2", duration := "1s" }] }] },
      { kind := .settings, id := "__settings__", parent := some 0, events := [1, 7], lambda := 1,
        props0 := [("type", "application/x-ginga-settings")] },
      { kind := .media, id := "v", parent := some 0, events := [2, 8], lambda := 2 },
      keyMedia first 3 4, keyMedia second 5 6 ]
    [ { typ := .presentation, obj := 0, id := "@lambda" },
      { typ := .presentation, obj := 1, id := "@lambda" },
      { typ := .presentation, obj := 2, id := "@lambda" },
      { typ := .presentation, obj := 3, id := "@lambda" },
      { typ := .selection, obj := 3, id := "RED" },
      { typ := .presentation, obj := 4, id := "@lambda" },
      { typ := .selection, obj := 4, id := "RED" },
      { typ := .attribution, obj := 1, id := "service.currentFocus" },
      { typ := .attribution, obj := 2, id := "p" } ]
    0 1 [(4, "key", "RED"), (6, "key", "RED")]

/-- The document with `a` at the lower address, and with `a` at the higher address. -/
def slotDoc1 : Doc := slotDoc "a" "b" 3 5
def slotDoc2 : Doc := slotDoc "b" "a" 5 3

theorem slotDoc1_wf : DocWF slotDoc1 := mkDoc_wf [0, 1, 1, 1, 1] (by decide +kernel)
theorem slotDoc2_wf : DocWF slotDoc2 := mkDoc_wf [0, 1, 1, 1, 1] (by decide +kernel)

/-- The objects named `a` and `b`, and their events, change places. -/
def swapO (o : Oid) : Oid := if o = 3 then 4 else if o = 4 then 3 else o
def swapE (e : Eid) : Eid :=
  if e = 3 then 5 else if e = 5 then 3 else if e = 4 then 6 else if e = 6 then 4 else e

theorem swapO_swapO (o : Oid) : swapO (swapO o) = o := by
  unfold swapO; by_cases h : o = 3
  · simp [h]
  · by_cases h' : o = 4 <;> simp [h, h']
theorem swapE_swapE (e : Eid) : swapE (swapE e) = e := by
  unfold swapE
  by_cases h : e = 3
  · simp [h]
  · by_cases h' : e = 5
    · simp [h']
    · by_cases h'' : e = 4
      · simp [h'']
      · by_cases h3 : e = 6 <;> simp [h, h', h'', h3]

theorem swapO_big {o : Oid} (h : 5 ≤ o) : swapO o = o := by
  unfold swapO; rw [if_neg (by intro h'; subst h'; exact absurd h (by decide)),
    if_neg (by intro h'; subst h'; exact absurd h (by decide))]
theorem swapE_big {e : Eid} (h : 9 ≤ e) : swapE e = e := by
  unfold swapE
  rw [if_neg (by intro h'; subst h'; exact absurd h (by decide)),
    if_neg (by intro h'; subst h'; exact absurd h (by decide)),
    if_neg (by intro h'; subst h'; exact absurd h (by decide)),
    if_neg (by intro h'; subst h'; exact absurd h (by decide))]

theorem objBig {a b : String} {x y : Eid} {o : Oid} (h : 5 ≤ o) : (slotDoc a b x y).obj o =
    { kind := .media, id := "", events := [o - 5 + 9], lambda := o - 5 + 9 } := by
  show List.getD _ o _ = _
  rw [List.getD_eq_getElem?_getD, List.getElem?_eq_none (by simpa using h)]; rfl

theorem evBig {a b : String} {x y : Eid} {e : Eid} (h : 9 ≤ e) : (slotDoc a b x y).ev e =
    { typ := .presentation, obj := e - 9 + 5, id := "@lambda" } := by
  show List.getD _ e _ = _
  rw [List.getD_eq_getElem?_getD, List.getElem?_eq_none (by simpa using h)]; rfl

theorem below5 {P : Oid → Prop} (h : P 0 ∧ P 1 ∧ P 2 ∧ P 3 ∧ P 4) (hb : ∀ o, 5 ≤ o → P o) : ∀ o, P o
  | 0 => h.1 | 1 => h.2.1 | 2 => h.2.2.1 | 3 => h.2.2.2.1 | 4 => h.2.2.2.2
  | o + 5 => hb _ (Nat.le_add_left _ _)

theorem below9 {P : Eid → Prop}
    (h : P 0 ∧ P 1 ∧ P 2 ∧ P 3 ∧ P 4 ∧ P 5 ∧ P 6 ∧ P 7 ∧ P 8) (hb : ∀ e, 9 ≤ e → P e) : ∀ e, P e
  | 0 => h.1 | 1 => h.2.1 | 2 => h.2.2.1 | 3 => h.2.2.2.1 | 4 => h.2.2.2.2.1
  | 5 => h.2.2.2.2.2.1 | 6 => h.2.2.2.2.2.2.1 | 7 => h.2.2.2.2.2.2.2.1 | 8 => h.2.2.2.2.2.2.2.2
  | e + 9 => hb _ (Nat.le_add_left _ _)

theorem slotDoc_placed : PlacedAt swapO swapE slotDoc1 slotDoc2 := by
  have sw : ∀ {o : Oid}, 5 ≤ o → swapE (o - 5 + 9) = o - 5 + 9 := fun h => swapE_big (Nat.le_add_left _ _)
  constructor
  · intro o o' h; rw [← swapO_swapO o, h, swapO_swapO]
  · intro o; exact ⟨swapO o, swapO_swapO o⟩
  · intro e e' h; rw [← swapE_swapE e, h, swapE_swapE]
  · intro e; exact ⟨swapE e, swapE_swapE e⟩
  · refine below9 (by refine ⟨?_, ?_, ?_, ?_, ?_, ?_, ?_, ?_, ?_⟩ <;> rfl) ?_
    intro e h
    rw [swapE_big h, slotDoc1, slotDoc2, evBig h, evBig h]
    simp only [EvDecl.mk.injEq, true_and, and_true]
    exact (swapO_big (Nat.le_add_left _ _)).symm
  case children =>
    refine below5 (by refine ⟨?_, ?_, ?_, ?_, ?_⟩ <;> decide) ?_
    intro o h; rw [swapO_big h, slotDoc1, slotDoc2, objBig h, objBig h]; simp [SameSet]
  case events =>
    refine below5 (by refine ⟨?_, ?_, ?_, ?_, ?_⟩ <;> decide) ?_
    intro o h; rw [swapO_big h, slotDoc1, slotDoc2, objBig h, objBig h]; simp [SameSet, sw h]
  case lambda =>
    refine below5 (by refine ⟨?_, ?_, ?_, ?_, ?_⟩ <;> rfl) ?_
    intro o h; rw [swapO_big h, slotDoc1, slotDoc2, objBig h, objBig h]; exact (sw h).symm
  case portEvents =>
    refine below5 (by refine ⟨?_, ?_, ?_, ?_, ?_⟩ <;> exact fun p hp => nomatch hp) ?_
    intro o h; rw [slotDoc1, objBig h]; exact fun p hp => nomatch hp
  case objs => decide
  case par =>
    refine below9 (by refine ⟨?_, ?_, ?_, ?_, ?_, ?_, ?_, ?_, ?_⟩ <;> funext k <;>
      simp [slotDoc1, slotDoc2, slotDoc, mkDoc, swapE, List.find?] <;>
      (by_cases hk : "key" = k <;> simp [hk])) ?_
    intro e h
    rw [swapE_big h]
    have : ∀ v : Eid, v < 9 → v ≠ e := fun v hv h' => by subst h'; exact absurd h (Nat.not_le.2 hv)
    funext k
    simp [slotDoc1, slotDoc2, slotDoc, mkDoc, List.find?, this 4 (by decide), this 6 (by decide)]
  case root => rfl
  case settings => rfl
  case env => rfl
  all_goals
    refine below5 (by refine ⟨?_, ?_, ?_, ?_, ?_⟩ <;> rfl) ?_
    intro o h; rw [swapO_big h, slotDoc1, slotDoc2, objBig h, objBig h]
  all_goals rfl

theorem slotDoc1_ordered : ByAddress slotDoc1 := by
  refine ⟨by decide, below5 (by refine ⟨?_, ?_, ?_, ?_, ?_⟩ <;> decide) ?_,
    below5 (by refine ⟨?_, ?_, ?_, ?_, ?_⟩ <;> decide) ?_⟩
  all_goals intro o h; rw [slotDoc1, objBig h]; simp

theorem slotDoc2_ordered : ByAddress slotDoc2 := by
  refine ⟨by decide, below5 (by refine ⟨?_, ?_, ?_, ?_, ?_⟩ <;> decide) ?_,
    below5 (by refine ⟨?_, ?_, ?_, ?_, ?_⟩ <;> decide) ?_⟩
  all_goals intro o h; rw [slotDoc2, objBig h]; simp

/-- The value of property `k` of the object named `id`. -/
def valueOf (d : Doc) (s : St) (id k : String) : Option String := (d.byIdOrAlias id).map fun o => s.getProp o k

/-- **C40 fails**: one document at two placements of the medias `a` and `b`; the same start, ticks
and key press leave the property `p` of `v` with the value set by `a` in one run and with the value
set by `b` in the other. -/
theorem C40_fails_key_order :
    PlacedAt swapO swapE slotDoc1 slotDoc2 ∧ ByAddress slotDoc1 ∧ ByAddress slotDoc2 ∧
    DocWF slotDoc1 ∧ DocWF slotDoc2 ∧
    ∃ ops : List Op, ∃ f1 f2 : Fmt, ∃ bs : List Bool,
      execAll 50 (Fmt.new "" 800 600) (.start (some slotDoc1) :: ops) = .ok (bs, f1) ∧
      execAll 50 (Fmt.new "" 800 600) (.start (some slotDoc2) :: ops) = .ok (bs, f2) ∧
      valueOf slotDoc1 f1.st "v" "p" = some "1" ∧ valueOf slotDoc2 f2.st "v" "p" = some "2" := by
  refine ⟨slotDoc_placed, slotDoc1_ordered, slotDoc2_ordered, slotDoc1_wf, slotDoc2_wf,
    [tick 0, tick 1, .sendKey "RED" true], ?_⟩
  have h1 : (match execAll 50 (Fmt.new "" 800 600)
      (.start (some slotDoc1) :: [tick 0, tick 1, .sendKey "RED" true]) with
    | .ok (bs, f) => decide (bs = [true, true, true, true]) &&
        decide (valueOf slotDoc1 f.st "v" "p" = some "1") | _ => false) = true := by decide +kernel
  have h2 : (match execAll 50 (Fmt.new "" 800 600)
      (.start (some slotDoc2) :: [tick 0, tick 1, .sendKey "RED" true]) with
    | .ok (bs, f) => decide (bs = [true, true, true, true]) &&
        decide (valueOf slotDoc2 f.st "v" "p" = some "2") | _ => false) = true := by decide +kernel
  split at h1
  · next bs1 f1 e1 =>
    split at h2
    · next bs2 f2 e2 =>
      simp only [Bool.and_eq_true, decide_eq_true_eq] at h1 h2
      rw [h1.1] at e1; rw [h2.1] at e2
      exact ⟨f1, f2, _, e1, e2, h1.2, h2.2⟩
    · cases h2
  · cases h1

end Ginga
