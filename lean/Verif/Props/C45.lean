import Verif.Proofs.PFrame
/-!
# C45: identifiers in a source document are unique and well formed; C42: imported bases

The specification: the elements of a document are those of its tree and those of the bases it imports (`Unfolds`); an element
is well formed if the NCL grammar (`syntaxTable`) allows it where it is, with its attributes and its children.
-/
namespace Ginga

/-- An element of a document: the prefix given by the aliases under which it is imported, the tag of its parent. -/
structure Visit where
  pre : String
  parent : Option String
  elt : Xml

/-- The element is allowed by the grammar. -/
structure WellFormed (v : Visit) : Prop where
  /-- known element -/
  entry : ∃ e ∈ syntaxTable, e.tag = v.elt.tag ∧
    /- well placed -/
    (e.parents ≠ [] → ∃ p ∈ e.parents, v.parent = some p) ∧
    /- only known attributes -/
    (∀ a ∈ v.elt.attrs, ∃ fl, (a.1, fl) ∈ e.attrs) ∧
    /- all mandatory attributes -/
    (∀ n fl, (n, fl) ∈ e.attrs → fl.required = true → ∃ i, v.elt.prop n = some i) ∧
    /- nonempty values and names where required -/
    (∀ n fl i, (n, fl) ∈ e.attrs → v.elt.prop n = some i → (fl.nonempty = true → i ≠ "") ∧ (fl.isName = true → validName i = true))
  /-- only children that may be there -/
  children : ∀ c ∈ v.elt.children, ∃ e ∈ syntaxTable, e.tag = c.tag ∧ v.elt.tag ∈ e.parents

/-- The elements of a list of siblings, in document order; those of an imported base after the importing element. -/
inductive Unfolds (E : PRead) : List (String × String) → Option String → List Xml → List Visit → Prop
  | nil (al pt) : Unfolds E al pt [] []
  | cons {al pt x xs l1 l2} : x.tag ≠ "importBase" → Unfolds E al (some x.tag) x.children l1 → Unfolds E al pt xs l2 →
      Unfolds E al pt (x :: xs) (⟨aliasPrefix al, pt, x⟩ :: (l1 ++ l2))
  | imp {al tag x xs a d u root head l1 l2 l3} : x.tag = "importBase" → x.prop "alias" = some a → x.prop "documentURI" = some d →
      E.importUri (baseUri E al) d = .ok u →
      (∀ p ∈ al, p.2 ≠ u) → E.file u = some root → (root.findAll "head").head? = some head →
      Unfolds E (al ++ [(a, u)]) (some "head") (importedBases head tag) l1 →
      Unfolds E al (some x.tag) x.children l2 → Unfolds E al (some tag) xs l3 →
      Unfolds E al (some tag) (x :: xs) (⟨aliasPrefix al, some tag, x⟩ :: (l1 ++ l2 ++ l3))

/-- The qualified identifiers of the elements. -/
def idsOf (l : List Visit) : List String := l.filterMap fun v => (v.elt.prop "id").map fun i => v.pre ++ i

theorem idsOf_append (a b : List Visit) : idsOf (a ++ b) = idsOf a ++ idsOf b := by simp [idsOf]
theorem idsOf_cons (v : Visit) (b : List Visit) : idsOf (v :: b) = idsOf [v] ++ idsOf b := by
  rw [← idsOf_append]; rfl

theorem mget_mset_isSome {n m v : String} {acc : List (String × String)} (h : (mget n (mset m v acc)).isSome) :
    n = m ∨ (mget n acc).isSome := by
  by_cases hn : n = m
  · exact .inl hn
  · rw [mget_mset_ne _ _ _ _ hn] at h
    exact .inr h

/-- What the attribute loop guarantees. -/
theorem checkAttrs_ok (x : Xml) (syn : EltSyn) (full : Bool) (pre : String) : ∀ (l : List (String × AttrFlags)) (acc : List (String × String))
    (s : SynSt) (r : List (String × String)) (t : SynSt), checkAttrs x syn full pre l acc s = .ok (some (r, t)) →
    (∀ n fl, (n, fl) ∈ l → fl.required = true → (∃ i, x.prop n = some i) ∨ (n = "id" ∧ syn.genId = true)) ∧
    (∀ n fl i, (n, fl) ∈ l → x.prop n = some i → (fl.nonempty = true → i ≠ "") ∧ (fl.isName = true → validName i = true)) ∧
    (∀ n, (mget n r).isSome → (mget n acc).isSome ∨ ∃ fl, (n, fl) ∈ l) ∧
    (∀ i ∈ s.unique, i ∈ t.unique) ∧
    (∀ n fl i, (n, fl) ∈ l → fl.unique = true → fl.isId = true → x.prop n = some i → pre ++ i ∉ s.unique ∧ pre ++ i ∈ t.unique)
  | [], acc, s, r, t, h => by
    simp only [checkAttrs, Res.ok.injEq, Option.some.injEq, Prod.mk.injEq] at h
    obtain ⟨rfl, rfl⟩ := h
    refine ⟨?_, ?_, fun n hn => .inl hn, fun i hi => hi, ?_⟩ <;> intros <;> simp_all
  | (name, fl) :: rest, acc, s, r, t, h => by
    unfold checkAttrs at h
    cases hp : x.prop name with
    | none =>
      simp only [hp] at h
      -- whatever happens to this attribute, the others are checked
      have key : ∃ acc' s', checkAttrs x syn full pre rest acc' s' = .ok (some (r, t)) ∧ s'.unique = s.unique ∧
          (∀ n, (mget n acc').isSome → (mget n acc).isSome ∨ n = name) ∧ (fl.required = true → name = "id" ∧ syn.genId = true) := by
        split at h
        · rename_i hg
          split at h
          · split at h
            · simp at h
            · exact ⟨_, _, h, rfl, fun n hn => (mget_mset_isSome hn).symm.imp id fun h => h.trans hg.1.symm, fun _ => hg⟩
          · exact ⟨_, _, h, rfl, fun n hn => .inl hn, fun _ => hg⟩
        · split at h
          · simp at h
          · exact ⟨_, _, h, rfl, fun n hn => .inl hn, fun h' => absurd h' ‹_›⟩
      obtain ⟨acc', s', h1, h2, h3, h4⟩ := key
      obtain ⟨a1, a2, a3, a4, a5⟩ := checkAttrs_ok x syn full pre rest acc' s' r t h1
      rw [h2] at a4 a5
      refine ⟨?_, ?_, ?_, a4, ?_⟩
      · intro n f hm hr
        rcases List.mem_cons.1 hm with heq | hm
        · obtain ⟨rfl, rfl⟩ := Prod.mk.inj heq
          exact .inr (h4 hr)
        · exact a1 n f hm hr
      · intro n f i hm hi
        rcases List.mem_cons.1 hm with heq | hm
        · obtain ⟨rfl, rfl⟩ := Prod.mk.inj heq
          rw [hp] at hi; simp at hi
        · exact a2 n f i hm hi
      · intro n hn
        rcases a3 n hn with h' | ⟨f, hf⟩
        · rcases h3 n h' with h' | rfl
          · exact .inl h'
          · exact .inr ⟨fl, by simp⟩
        · exact .inr ⟨f, by simp [hf]⟩
      · intro n f i hm hu hid hi
        rcases List.mem_cons.1 hm with heq | hm
        · obtain ⟨rfl, rfl⟩ := Prod.mk.inj heq
          rw [hp] at hi; simp at hi
        · exact a5 n f i hm hu hid hi
    | some v =>
      simp only [hp] at h
      split at h
      · simp at h
      rename_i hne
      split at h
      · simp at h
      rename_i hname
      have key : ∃ acc' s', checkAttrs x syn full pre rest acc' s' = .ok (some (r, t)) ∧ (∀ i ∈ s.unique, i ∈ s'.unique) ∧
          (∀ n, (mget n acc').isSome → (mget n acc).isSome ∨ n = name) ∧
          (fl.unique = true → fl.isId = true → pre ++ v ∉ s.unique ∧ pre ++ v ∈ s'.unique) := by
        have hacc : ∀ w n, (mget n (if full = true then mset name w acc else acc)).isSome → (mget n acc).isSome ∨ n = name := by
          intro w n hn
          split at hn
          · exact (mget_mset_isSome hn).symm
          · exact .inl hn
        have hw : ∃ w, w = (if fl.isId = true ∨ fl.isIdRef = true then pre ++ v else v) := ⟨_, rfl⟩
        obtain ⟨w, hw⟩ := hw
        rw [← hw] at h
        split at h
        · split at h
          · simp at h
          · rename_i hu hc
            refine ⟨_, _, h, fun i hi => by simp [hi], hacc _, fun _ hid => ?_⟩
            simp only [hid, true_or, if_true] at hw
            subst hw
            exact ⟨by simpa using hc, by simp⟩
        · exact ⟨_, _, h, fun i hi => hi, hacc _, fun hu => absurd hu ‹_›⟩
      obtain ⟨acc', s', h1, h2, h3, h4⟩ := key
      obtain ⟨a1, a2, a3, a4, a5⟩ := checkAttrs_ok x syn full pre rest acc' s' r t h1
      refine ⟨?_, ?_, ?_, fun i hi => a4 i (h2 i hi), ?_⟩
      · intro n f hm hr
        rcases List.mem_cons.1 hm with heq | hm
        · obtain ⟨rfl, rfl⟩ := Prod.mk.inj heq
          exact .inl ⟨v, hp⟩
        · exact a1 n f hm hr
      · intro n f i hm hi
        rcases List.mem_cons.1 hm with heq | hm
        · obtain ⟨rfl, rfl⟩ := Prod.mk.inj heq
          obtain rfl : v = i := by rw [hp] at hi; simpa using hi
          refine ⟨fun h1 h2 => hne ⟨h1, h2⟩, fun h1 => ?_⟩
          cases hv : validName v with
          | true => rfl
          | false => exact absurd ⟨h1, by simp [hv]⟩ hname
        · exact a2 n f i hm hi
      · intro n hn
        rcases a3 n hn with h' | ⟨f, hf⟩
        · rcases h3 n h' with h' | rfl
          · exact .inl h'
          · exact .inr ⟨fl, by simp⟩
        · exact .inr ⟨f, by simp [hf]⟩
      · intro n f i hm hu hid hi
        rcases List.mem_cons.1 hm with heq | hm
        · obtain ⟨rfl, rfl⟩ := Prod.mk.inj heq
          obtain rfl : v = i := by rw [hp] at hi; simpa using hi
          exact ⟨(h4 hu hid).1, a4 _ (h4 hu hid).2⟩
        · exact ⟨fun hc => (a5 n f i hm hu hid hi).1 (h2 _ hc), (a5 n f i hm hu hid hi).2⟩

theorem syntaxOf_mem {tag : String} {e : EltSyn} (h : syntaxOf tag = some e) : e ∈ syntaxTable ∧ e.tag = tag := by
  refine ⟨List.mem_of_find?_eq_some h, ?_⟩
  have := List.find?_some h
  simpa using this

/-- In the grammar `id` is always a unique name, and generated identifiers are optional ones. -/
theorem table_ids : ∀ e ∈ syntaxTable, ∀ p ∈ e.attrs,
    (p.1 = "id" → p.2.unique = true ∧ p.2.isId = true) ∧ (p.1 = "id" → e.genId = true → p.2.required = false) := by decide +kernel

/-- What an accepted element satisfies. -/
theorem checkNode_ok {full : Bool} {pre : String} {parent : Option String} {x : Xml} {s : SynSt} {e : EltSyn}
    {r : List (String × String)} {t : SynSt} (h : checkNode full pre parent x s = .ok (some (e, r, t))) :
    syntaxOf x.tag = some e ∧ (∀ i ∈ s.unique, i ∈ t.unique) ∧
    (full = true → WellFormed ⟨pre, parent, x⟩ ∧ ∀ i, x.prop "id" = some i → pre ++ i ∉ s.unique ∧ pre ++ i ∈ t.unique) := by
  unfold checkNode at h
  cases hs : syntaxOf x.tag with
  | none => simp [hs] at h
  | some syn =>
    simp only [hs] at h
    split at h
    · simp at h
    rename_i hpar
    cases hc : checkAttrs x syn full pre syn.attrs [] s with
    | abort => simp [hc, Res.bind] at h
    | ub => simp [hc, Res.bind] at h
    | fuel => simp [hc, Res.bind] at h
    | ok q =>
      cases q with
      | none => simp [hc, Res.bind] at h
      | some q =>
        obtain ⟨attrs, s'⟩ := q
        simp only [hc, Res.bind] at h
        split at h
        · simp at h
        rename_i hall
        split at h
        · simp at h
        rename_i hch
        simp only [Res.ok.injEq, Option.some.injEq, Prod.mk.injEq] at h
        obtain ⟨rfl, rfl, rfl⟩ := h
        obtain ⟨a1, a2, a3, a4, a5⟩ := checkAttrs_ok _ _ _ _ _ _ _ _ _ hc
        obtain ⟨hm, ht⟩ := syntaxOf_mem hs
        have known : full = true → ∀ a ∈ x.attrs, ∃ fl, (a.1, fl) ∈ syn.attrs := by
          intro hf a ha
          have h1 : (mget a.1 attrs).isSome := by
            have : x.attrs.all (fun p => (mget p.1 attrs).isSome) = true := by
              cases hb : x.attrs.all (fun p => (mget p.1 attrs).isSome) with
              | true => rfl
              | false => exact absurd ⟨hf, by simp [hb]⟩ hall
            exact List.all_eq_true.1 this a ha
          rcases a3 a.1 h1 with h' | h'
          · simp [mget] at h'
          · exact h'
        refine ⟨rfl, a4, fun hf => ⟨⟨⟨syn, hm, ht, ?_, ?_, ?_, a2⟩, ?_⟩, ?_⟩⟩
        · intro hne
          cases parent with
          | none =>
            refine absurd ?_ hpar
            cases hp : syn.parents with
            | nil => exact absurd hp hne
            | cons _ _ => simp [parentOk, hp]
          | some p =>
            refine ⟨p, ?_, rfl⟩
            apply Decidable.byContradiction
            intro hn
            refine hpar ?_
            have : syn.parents.length > 0 := by cases hp : syn.parents with
              | nil => exact absurd hp hne
              | cons _ _ => simp
            simp [parentOk, this, hn]
        · exact known hf
        · intro n fl hmem hr
          rcases a1 n fl hmem hr with h' | ⟨rfl, hg⟩
          · exact h'
          · have := (table_ids syn hm _ hmem).2 rfl hg
            rw [hr] at this; simp at this
        · intro c hc
          have : possibleChild x.tag c.tag = true := by
            have : x.children.all (fun c => possibleChild x.tag c.tag) = true := by
              cases hb : x.children.all (fun c => possibleChild x.tag c.tag) with
              | true => rfl
              | false => exact absurd (by simp [hb]) hch
            exact List.all_eq_true.1 this c hc
          unfold possibleChild at this
          obtain ⟨e, he, hb⟩ := List.any_eq_true.1 this
          simp only [Bool.and_eq_true, beq_iff_eq, List.contains_eq_mem, decide_eq_true_eq] at hb
          exact ⟨e, he, hb.1, hb.2⟩
        · intro i hi
          have : ("id", i) ∈ x.attrs := by
            unfold Xml.prop at hi
            obtain ⟨p, hp, rfl⟩ := Option.map_eq_some_iff.1 hi
            have h1 := List.mem_of_find?_eq_some hp
            have h2 := List.find?_some hp
            simp only [beq_iff_eq] at h2
            rw [← h2]; exact h1
          obtain ⟨fl, hfl⟩ := known hf _ this
          have := (table_ids syn hm _ hfl).1 rfl
          exact a5 "id" fl i hfl this.1 this.2 hi

/-! ## The attributes of the new element -/

/-- The value kept for an attribute: references and identifiers are qualified. -/
def qualify (pre : String) (fl : AttrFlags) (v : String) : String := if fl.isId = true ∨ fl.isIdRef = true then pre ++ v else v

theorem checkAttrs_attrs (x : Xml) (syn : EltSyn) (pre : String) : ∀ (l : List (String × AttrFlags)) (acc : List (String × String))
    (s : SynSt) (r : List (String × String)) (t : SynSt), checkAttrs x syn true pre l acc s = .ok (some (r, t)) →
    (l.map Prod.fst).Nodup →
    (∀ n, n ∉ l.map Prod.fst → mget n r = mget n acc) ∧
    (∀ n fl i, (n, fl) ∈ l → x.prop n = some i → mget n r = some (qualify pre fl i)) ∧
    (∀ n fl, (n, fl) ∈ l → x.prop n = none → ¬ (n = "id" ∧ syn.genId = true) → mget n r = mget n acc)
  | [], acc, s, r, t, h, _ => by
    simp only [checkAttrs, Res.ok.injEq, Option.some.injEq, Prod.mk.injEq] at h
    obtain ⟨rfl, rfl⟩ := h
    simp
  | (name, fl) :: rest, acc, s, r, t, h, hnd => by
    simp only [List.map_cons, List.nodup_cons] at hnd
    unfold checkAttrs at h
    have key : ∃ acc' s', checkAttrs x syn true pre rest acc' s' = .ok (some (r, t)) ∧ (∀ n, n ≠ name → mget n acc' = mget n acc) ∧
        (∀ i, x.prop name = some i → mget name acc' = some (qualify pre fl i)) ∧
        (x.prop name = none → ¬ (name = "id" ∧ syn.genId = true) → mget name acc' = mget name acc) := by
      cases hp : x.prop name with
      | none =>
        simp only [hp] at h
        split at h
        · rename_i hg
          simp only [if_true] at h
          split at h
          · simp at h
          · exact ⟨_, _, h, fun n hn => mget_mset_ne _ _ _ _ (hg.1 ▸ hn), fun i hi => by simp at hi, fun _ hng => absurd hg hng⟩
        · split at h
          · simp at h
          · exact ⟨_, _, h, fun n hn => rfl, fun i hi => by simp at hi, fun _ _ => rfl⟩
      | some v =>
        simp only [hp, if_true] at h
        split at h
        · simp at h
        split at h
        · simp at h
        change (if fl.unique = true then if s.unique.contains (qualify pre fl v) = true then _ else
          checkAttrs x syn true pre rest (mset name (qualify pre fl v) acc) _ else
          checkAttrs x syn true pre rest (mset name (qualify pre fl v) acc) s) = _ at h
        have hv : ∀ i, some v = some i → mget name (mset name (qualify pre fl v) acc) = some (qualify pre fl i) := by
          intro i hi
          obtain rfl : v = i := by simpa using hi
          rw [mget_mset_same]
        split at h
        · split at h
          · simp at h
          · exact ⟨_, _, h, fun n hn => mget_mset_ne _ _ _ _ hn, hv, fun hc => by simp at hc⟩
        · exact ⟨_, _, h, fun n hn => mget_mset_ne _ _ _ _ hn, hv, fun hc => by simp at hc⟩
    obtain ⟨acc', s', h1, h2, h3, h4⟩ := key
    obtain ⟨a1, a2, a3⟩ := checkAttrs_attrs x syn pre rest acc' s' r t h1 hnd.2
    refine ⟨?_, ?_, ?_⟩
    · intro n hn
      simp only [List.map_cons, List.mem_cons, not_or] at hn
      rw [a1 n hn.2, h2 n hn.1]
    · intro n f i hm hi
      rcases List.mem_cons.1 hm with heq | hm
      · obtain ⟨rfl, rfl⟩ := Prod.mk.inj heq
        rw [a1 n hnd.1, h3 i hi]
      · exact a2 n f i hm hi
    · intro n f hm hi hg
      rcases List.mem_cons.1 hm with heq | hm
      · obtain ⟨rfl, rfl⟩ := Prod.mk.inj heq
        rw [a1 n hnd.1, h4 hi hg]
      · rw [a3 n f hm hi hg]
        exact h2 n fun hn => hnd.1 (hn ▸ List.mem_map_of_mem hm)

/-- The attributes of an accepted element. -/
structure AttrsOf (e : EltSyn) (pre : String) (x : Xml) (r : List (String × String)) : Prop where
  other : ∀ n, n ∉ e.attrs.map Prod.fst → mget n r = none
  given : ∀ n fl i, (n, fl) ∈ e.attrs → x.prop n = some i → mget n r = some (qualify pre fl i)
  absent : ∀ n fl, (n, fl) ∈ e.attrs → x.prop n = none → ¬ (n = "id" ∧ e.genId = true) → mget n r = none
  all : ∀ a ∈ x.attrs, (mget a.1 r).isSome

theorem table_nodup : ∀ e ∈ syntaxTable, (e.attrs.map Prod.fst).Nodup := by decide +kernel

theorem checkNode_attrs {pre : String} {parent : Option String} {x : Xml} {s : SynSt} {e : EltSyn}
    {r : List (String × String)} {t : SynSt} (h : checkNode true pre parent x s = .ok (some (e, r, t))) : AttrsOf e pre x r := by
  unfold checkNode at h
  cases hs : syntaxOf x.tag with
  | none => simp [hs] at h
  | some syn =>
    simp only [hs] at h
    split at h
    · simp at h
    cases hc : checkAttrs x syn true pre syn.attrs [] s with
    | abort => simp [hc, Res.bind] at h
    | ub => simp [hc, Res.bind] at h
    | fuel => simp [hc, Res.bind] at h
    | ok q =>
      cases q with
      | none => simp [hc, Res.bind] at h
      | some q =>
        obtain ⟨attrs, s'⟩ := q
        simp only [hc, Res.bind] at h
        split at h
        · simp at h
        rename_i hall
        split at h
        · simp at h
        simp only [Res.ok.injEq, Option.some.injEq, Prod.mk.injEq] at h
        obtain ⟨rfl, rfl, rfl⟩ := h
        obtain ⟨a1, a2, a3⟩ := checkAttrs_attrs _ _ _ _ _ _ _ _ hc (table_nodup _ (syntaxOf_mem hs).1)
        refine ⟨fun n hn => by rw [a1 n hn]; rfl, a2, fun n fl hm hi hg => by rw [a3 n fl hm hi hg]; rfl, fun a ha => ?_⟩
        have : x.attrs.all (fun p => (mget p.1 attrs).isSome) = true := by
          cases hb : x.attrs.all (fun p => (mget p.1 attrs).isSome) with
          | true => rfl
          | false => exact absurd (by simp [hb]) hall
        exact List.all_eq_true.1 this a ha

theorem prop_mem {x : Xml} {n i : String} (hi : x.prop n = some i) : (n, i) ∈ x.attrs := by
  unfold Xml.prop at hi
  obtain ⟨p, hp, rfl⟩ := Option.map_eq_some_iff.1 hi
  have h1 := List.mem_of_find?_eq_some hp
  have h2 := List.find?_some hp
  simp only [beq_iff_eq] at h2
  rw [← h2]; exact h1

/-- An attribute that is given is declared. -/
theorem AttrsOf.declared {e : EltSyn} {pre : String} {x : Xml} {r : List (String × String)} (h : AttrsOf e pre x r) {n i : String}
    (hi : x.prop n = some i) : ∃ fl, (n, fl) ∈ e.attrs := by
  apply Classical.byContradiction
  intro hc
  have h1 := h.all _ (prop_mem hi)
  rw [h.other n fun hm => ?_] at h1
  · simp at h1
  · obtain ⟨p, hp, rfl⟩ := List.mem_map.1 hm
    exact hc ⟨p.2, hp⟩

theorem table_gen : ∀ e ∈ syntaxTable, e.genId = true → e.tag = "link" := by decide +kernel

/-- The identifier of an accepted element. -/
theorem AttrsOf.id {e : EltSyn} (he : e ∈ syntaxTable) {pre : String} {x : Xml} {r : List (String × String)} (h : AttrsOf e pre x r) :
    mget "id" r = (x.prop "id").map (pre ++ ·) ∨ (x.prop "id" = none ∧ e.tag = "link") := by
  cases hi : x.prop "id" with
  | some i =>
    obtain ⟨fl, hfl⟩ := h.declared hi
    rw [h.given _ fl i hfl hi]
    have : fl.isId = true := ((table_ids e he _ hfl).1 rfl).2
    exact .inl (by simp [qualify, this])
  | none =>
    by_cases hm : "id" ∈ e.attrs.map Prod.fst
    · obtain ⟨p, hp, hpe⟩ := List.mem_map.1 hm
      cases hg : e.genId with
      | true => exact .inr ⟨rfl, table_gen e he hg⟩
      | false => exact .inl (h.absent _ p.2 (by rw [← hpe]; exact hp) hi (by simp [hg]))
    · exact .inl (h.other _ hm)

theorem PPost.check {full : Bool} {parent : Option String} {x : Xml} {s : PS} {Q : EltSyn × List (String × String) → PS → Prop}
    (h : ∀ e r y, checkNode full (aliasPrefix s.aliases) parent x s.syn = .ok (some (e, r, y)) → Q (e, r) { s with syn := y }) :
    PPost (check full parent x) Q s := by
  intro a t ha
  unfold Ginga.check at ha
  cases hc : checkNode full (aliasPrefix s.aliases) parent x s.syn with
  | abort => simp [hc, Res.bind] at ha
  | ub => simp [hc, Res.bind] at ha
  | fuel => simp [hc, Res.bind] at ha
  | ok q =>
    cases q with
    | none => simp [hc, Res.bind] at ha
    | some q =>
      obtain ⟨e, r, y⟩ := q
      simp only [hc, Res.bind, Res.ok.injEq, Option.some.injEq, Prod.mk.injEq] at ha
      obtain ⟨rfl, rfl⟩ := ha
      exact h e r y hc

theorem PPost.newElt {tag : String} {parent : Option Nat} {attrs : List (String × String)} {s : PS} {Q : Nat → PS → Prop}
    (h : Q s.nelt { s with elt := upd s.elt s.nelt { tag := tag, parent := parent, attrs := attrs }, nelt := s.nelt + 1 }) :
    PPost (newElt tag parent attrs) Q s := by
  intro a t ha
  simp only [Ginga.newElt, Res.ok.injEq, Option.some.injEq, Prod.mk.injEq] at ha
  obtain ⟨rfl, rfl⟩ := ha
  exact h

theorem PPost.cacheAdd {k : Nat} {s : PS} {Q : Unit → PS → Prop} (h : k ∉ s.cache → Q () { s with cache := s.cache ++ [k] }) :
    PPost (cacheAdd k) Q s := by
  intro a t ha
  unfold Ginga.cacheAdd at ha
  split at ha
  · simp at ha
  · simp only [Res.ok.injEq, Option.some.injEq, Prod.mk.injEq] at ha
    obtain ⟨-, rfl⟩ := ha
    exact h ‹_›

/-! ## Frames -/

/-- What the push and pop functions leave alone. -/
structure Fr (s t : PS) : Prop where
  syn : t.syn = s.syn
  aliases : t.aliases = s.aliases
  nelt : t.nelt = s.nelt
  cache : t.cache = s.cache
  tag : ∀ k, (t.elt k).tag = (s.elt k).tag
  parent : ∀ k, (t.elt k).parent = (s.elt k).parent

theorem Fr.refl (s : PS) : Fr s s := ⟨rfl, rfl, rfl, rfl, fun _ => rfl, fun _ => rfl⟩

theorem Fr.elt (s : PS) (k : Nat) (e : Elt) (h1 : e.tag = (s.elt k).tag) (h2 : e.parent = (s.elt k).parent) : Fr s (s.setElt k e) := by
  refine ⟨rfl, rfl, rfl, rfl, fun j => ?_, fun j => ?_⟩
  · by_cases h : j = k
    · subst h; rw [setElt_elt]; exact h1
    · simp [PS.setElt, upd, h]
  · by_cases h : j = k
    · subst h; rw [setElt_elt]; exact h2
    · simp [PS.setElt, upd, h]

theorem fr_atomic : PAtomic (fun _ => True) Fr where
  refl := Fr.refl
  trans h1 h2 := ⟨h2.syn.trans h1.syn, h2.aliases.trans h1.aliases, h2.nelt.trans h1.nelt, h2.cache.trans h1.cache,
    fun k => (h2.tag k).trans (h1.tag k), fun k => (h2.parent k).trans (h1.parent k)⟩
  names _ _ := trivial
  attr s k _ _ _ := Fr.elt s k _ rfl rfl
  elt s k e h1 h2 _ := Fr.elt s k e h1 h2
  reg _ _ _ _ _ := ⟨rfl, rfl, rfl, rfl, fun _ => rfl, fun _ => rfl⟩
  del _ _ := ⟨rfl, rfl, rfl, rfl, fun _ => rfl, fun _ => rfl⟩
  nalloc _ := ⟨rfl, rfl, rfl, rfl, fun _ => rfl, fun _ => rfl⟩
  objs _ _ := ⟨rfl, rfl, rfl, rfl, fun _ => rfl, fun _ => rfl⟩
  refer _ _ := ⟨rfl, rfl, rfl, rfl, fun _ => rfl, fun _ => rfl⟩
  conn _ _ := ⟨rfl, rfl, rfl, rfl, fun _ => rfl, fun _ => rfl⟩
  props _ _ _ _ _ _ := ⟨rfl, rfl, rfl, rfl, fun _ => rfl, fun _ => rfl⟩
  par _ _ _ := ⟨rfl, rfl, rfl, rfl, fun _ => rfl, fun _ => rfl⟩
  pred _ _ _ := ⟨rfl, rfl, rfl, rfl, fun _ => rfl, fun _ => rfl⟩

theorem fr_rects (s : PS) (l : List Rect) (z : Nat) : Fr s { s with rects := l, zorder := z } :=
  ⟨rfl, rfl, rfl, rfl, fun _ => rfl, fun _ => rfl⟩

theorem fr_push (E : PRead) (proc : Xml → PM Unit) (f : Push) (k : Nat) (h : f ≠ .importBase) : PRel Fr (push E proc f k) := by
  by_cases hr : f = .region
  · subst hr; exact PRel.pushRegion (fr_atomic.atom E) E k fr_rects
  · exact PRel.push fr_atomic E proc f k hr h fun _ _ => trivial

theorem fr_pop (E : PRead) (n : Nat) (f : Pop) (k : Nat) : PRel Fr (pop E n f k) := by
  by_cases hr : f = .region
  · subst hr; exact PRel.popRegion (fr_atomic.atom E) fr_rects
  · exact PRel.pop (fr_atomic.atom E) fr_atomic.objs n f k (fun _ _ _ => ⟨rfl, rfl, rfl, rfl, fun _ => rfl, fun _ => rfl⟩) (fun _ _ _ _ => ⟨rfl, rfl, rfl, rfl, fun _ => rfl, fun _ => rfl⟩) (fun _ _ _ => ⟨rfl, rfl, rfl, rfl, fun _ => rfl, fun _ => rfl⟩) hr

/-- The functions other than `pushDescriptorParam` leave the identifiers of elements alone. -/
def FrId (s t : PS) : Prop := ∀ k, t.attr k "id" = s.attr k "id"

theorem FrId.elt (s : PS) (k : Nat) (e : Elt) (h : mget "id" e.attrs = mget "id" (s.elt k).attrs) : FrId s (s.setElt k e) := by
  intro j
  unfold PS.attr
  by_cases hj : j = k
  · subst hj; rw [setElt_elt]; exact h
  · simp [PS.setElt, upd, hj]

theorem frId_atomic : PAtomic (· ≠ "id") FrId where
  refl _ _ := rfl
  trans h1 h2 := fun k => (h2 k).trans (h1 k)
  names _ h := h
  attr s k n v h := FrId.elt s k _ (mget_mset_ne _ _ _ _ (Ne.symm h))
  elt s k e _ _ h := FrId.elt s k e (by rw [h])
  reg _ _ _ _ _ := fun _ => rfl
  del _ _ := fun _ => rfl
  nalloc _ := fun _ => rfl
  objs _ _ := fun _ => rfl
  refer _ _ := fun _ => rfl
  conn _ _ := fun _ => rfl
  props _ _ _ _ _ _ := fun _ => rfl
  par _ _ _ := fun _ => rfl
  pred _ _ _ := fun _ => rfl

theorem frId_pop (E : PRead) (n : Nat) (f : Pop) (k : Nat) : PRel FrId (pop E n f k) := by
  by_cases hr : f = .region
  · subst hr; exact PRel.popRegion (frId_atomic.atom E) fun _ _ _ _ => rfl
  · exact PRel.pop (frId_atomic.atom E) frId_atomic.objs n f k (fun _ _ _ _ => rfl) (fun _ _ _ _ _ => rfl) (fun _ _ _ _ => rfl) hr

theorem frId_push (E : PRead) (proc : Xml → PM Unit) (f : Push) (k : Nat) (h : f ≠ .importBase) (s : PS)
    (hd : f = .descriptorParam → s.attr k "name" ≠ some "id") : PPost (push E proc f k) (fun _ t => FrId s t) s := by
  by_cases hr : f = .region
  · subst hr; exact PRel.pushRegion (frId_atomic.atom E) E k (fun _ _ _ _ => rfl) s
  · by_cases hp : f = .descriptorParam
    · subst hp
      show PPost (pushDescriptorParam k) _ s
      refine PPost.bind (PPost.attr! fun n hn => PPost.bind (PPost.attr! fun v _ => PPost.bind (PPost.parentElt fun p _ _ => PPost.modify ?_)))
      exact frId_atomic.attr s p n v fun hc => hd rfl (hc ▸ hn)
    · exact (PRel.push frId_atomic E proc f k hr h (fun hc => absurd hc hp)) s

/-! ## What processing a list of elements does -/

/-- No descriptor parameter is called `id`. -/
def NoIdParam (l : List Visit) : Prop := ∀ v ∈ l, v.elt.tag = "descriptorParam" → v.elt.prop "name" ≠ some "id"

/-- The internal element `k` stands for the element `v` of the document. -/
def Stands (t : PS) (v : Visit) (k : Nat) : Prop :=
  (t.elt k).tag = v.elt.tag ∧
  (t.attr k "id" = (v.elt.prop "id").map (v.pre ++ ·) ∨ (v.elt.prop "id" = none ∧ v.elt.tag = "link"))

/-- The effect on the parser state of processing the elements `l`. -/
structure Core (s t : PS) (l : List Visit) : Prop where
  nelt : s.nelt ≤ t.nelt
  tag : ∀ k < s.nelt, (t.elt k).tag = (s.elt k).tag
  parent : ∀ k < s.nelt, (t.elt k).parent = (s.elt k).parent
  cacheOld : ∀ k ∈ s.cache, k ∈ t.cache
  cacheNew : ∀ k ∈ t.cache, k ∈ s.cache ∨ (s.nelt ≤ k ∧ k < t.nelt)
  wf : ∀ v ∈ l, WellFormed v
  mono : ∀ i ∈ s.syn.unique, i ∈ t.syn.unique
  fresh : ∀ i ∈ idsOf l, i ∉ s.syn.unique ∧ i ∈ t.syn.unique
  nodup : (idsOf l).Nodup
  keep : NoIdParam l → ∀ k < s.nelt, t.attr k "id" = s.attr k "id"
  known : NoIdParam l → ∀ v ∈ l, ∃ k, s.nelt ≤ k ∧ k < t.nelt ∧ Stands t v k
  only : NoIdParam l → ∀ k, s.nelt ≤ k → k < t.nelt → ∃ v ∈ l, Stands t v k

theorem Stands.keep {t u : PS} {v : Visit} {k : Nat} (h : Stands t v k) (h1 : (u.elt k).tag = (t.elt k).tag)
    (h2 : u.attr k "id" = t.attr k "id") : Stands u v k := ⟨h1.trans h.1, by rw [h2]; exact h.2⟩

theorem NoIdParam.left {a b : List Visit} (h : NoIdParam (a ++ b)) : NoIdParam a := fun v hv => h v (by simp [hv])
theorem NoIdParam.right {a b : List Visit} (h : NoIdParam (a ++ b)) : NoIdParam b := fun v hv => h v (by simp [hv])

theorem Core.trans {s t u : PS} {a b : List Visit} (h : Core s t a) (h' : Core t u b) : Core s u (a ++ b) where
  nelt := Nat.le_trans h.nelt h'.nelt
  tag k hk := (h'.tag k (Nat.lt_of_lt_of_le hk h.nelt)).trans (h.tag k hk)
  parent k hk := (h'.parent k (Nat.lt_of_lt_of_le hk h.nelt)).trans (h.parent k hk)
  cacheOld k hk := h'.cacheOld k (h.cacheOld k hk)
  cacheNew k hk := by
    rcases h'.cacheNew k hk with h1 | ⟨h1, h2⟩
    · rcases h.cacheNew k h1 with h3 | ⟨h3, h4⟩
      · exact .inl h3
      · exact .inr ⟨h3, Nat.lt_of_lt_of_le h4 h'.nelt⟩
    · exact .inr ⟨Nat.le_trans h.nelt h1, h2⟩
  wf v hv := (List.mem_append.1 hv).elim (h.wf v) (h'.wf v)
  mono i hi := h'.mono i (h.mono i hi)
  fresh i hi := by
    rw [idsOf_append] at hi
    rcases List.mem_append.1 hi with hi | hi
    · exact ⟨(h.fresh i hi).1, h'.mono i (h.fresh i hi).2⟩
    · exact ⟨fun hc => (h'.fresh i hi).1 (h.mono i hc), (h'.fresh i hi).2⟩
  nodup := by
    rw [idsOf_append]
    refine List.nodup_append.2 ⟨h.nodup, h'.nodup, fun i hi j hj hij => ?_⟩
    exact (h'.fresh j hj).1 (hij ▸ (h.fresh i hi).2)
  keep hn k hk := (h'.keep hn.right k (Nat.lt_of_lt_of_le hk h.nelt)).trans (h.keep hn.left k hk)
  known hn v hv := by
    rcases List.mem_append.1 hv with hv | hv
    · obtain ⟨k, h1, h2, h3⟩ := h.known hn.left v hv
      exact ⟨k, h1, Nat.lt_of_lt_of_le h2 h'.nelt, h3.keep (h'.tag k h2) (h'.keep hn.right k h2)⟩
    · obtain ⟨k, h1, h2, h3⟩ := h'.known hn.right v hv
      exact ⟨k, Nat.le_trans h.nelt h1, h2, h3⟩
  only hn k h1 h2 := by
    by_cases hk : k < t.nelt
    · obtain ⟨v, hv, h3⟩ := h.only hn.left k h1 hk
      exact ⟨v, by simp [hv], h3.keep (h'.tag k hk) (h'.keep hn.right k hk)⟩
    · obtain ⟨v, hv, h3⟩ := h'.only hn.right k (Nat.le_of_not_lt hk) h2
      exact ⟨v, by simp [hv], h3⟩

theorem Core.nil {s t : PS} (h1 : t.nelt = s.nelt) (h2 : t.cache = s.cache) (h3 : ∀ k, (t.elt k).tag = (s.elt k).tag)
    (h4 : ∀ k, (t.elt k).parent = (s.elt k).parent) (h5 : ∀ i ∈ s.syn.unique, i ∈ t.syn.unique)
    (h6 : ∀ k < s.nelt, t.attr k "id" = s.attr k "id") : Core s t [] where
  nelt := by omega
  tag k _ := h3 k
  parent k _ := h4 k
  cacheOld k hk := h2 ▸ hk
  cacheNew k hk := .inl (h2 ▸ hk)
  wf := by simp
  mono := h5
  fresh := by simp [idsOf]
  nodup := by simp [idsOf]
  keep _ := h6
  known _ v hv := by cases hv
  only _ k ha hb := by omega

/-- Cached elements are in the cache. -/
def Cached (s t : PS) : Prop := ∀ k, s.nelt ≤ k → k < t.nelt → (∃ e, syntaxOf (t.elt k).tag = some e ∧ e.cache = true) → k ∈ t.cache

/-- The result of processing a list of siblings. -/
structure Parsed (E : PRead) (pt : Option String) (xs : List Xml) (s t : PS) (l : List Visit) : Prop extends Core s t l where
  aliases : t.aliases = s.aliases
  cached : Cached s t
  unfolds : Unfolds E s.aliases pt xs l

theorem Unfolds.append {E : PRead} {al : List (String × String)} {pt : Option String} {x : Xml} {xs : List Xml} {a b : List Visit}
    (h : Unfolds E al pt [x] a) (h' : Unfolds E al pt xs b) : Unfolds E al pt (x :: xs) (a ++ b) := by
  cases h with
  | cons h1 h2 h3 =>
    cases h3
    rw [List.append_nil, List.cons_append]
    exact .cons h1 h2 h'
  | imp h1 h2 h3 h4 h5 h6 h7 h8 h9 h10 =>
    cases h10
    rw [List.append_nil, List.cons_append]
    exact .imp h1 h2 h3 h4 h5 h6 h7 h8 h9 h'

theorem Cached.trans {s t u : PS} (h : Cached s t) (h' : Cached t u) (ht : ∀ k < t.nelt, (u.elt k).tag = (t.elt k).tag)
    (hc : ∀ k ∈ t.cache, k ∈ u.cache) : Cached s u := by
  intro k h1 h2 h3
  by_cases hk : k < t.nelt
  · exact hc k (h k h1 hk (ht k hk ▸ h3))
  · exact h' k (Nat.le_of_not_lt hk) h2 h3

theorem Parsed.append {E : PRead} {pt : Option String} {x : Xml} {xs : List Xml} {s t u : PS} {a b : List Visit}
    (h : Parsed E pt [x] s t a) (h' : Parsed E pt xs t u b) : Parsed E pt (x :: xs) s u (a ++ b) where
  toCore := h.toCore.trans h'.toCore
  aliases := h'.aliases.trans h.aliases
  cached := h.cached.trans h'.cached h'.tag h'.cacheOld
  unfolds := h.unfolds.append (h.aliases ▸ h'.unfolds)

/-- Processing siblings, given the result for each. -/
theorem parsed_forEach {E : PRead} {pt : Option String} {f : Xml → PM Unit} {I : PS → Prop} :
    ∀ (xs : List Xml) (s : PS), I s → (∀ x s, I s → PPost (f x) (fun _ t => I t ∧ ∃ l, Parsed E pt [x] s t l) s) →
      PPost (PM.forEach f xs) (fun _ t => ∃ l, Parsed E pt xs s t l) s
  | [], s, _, _ => PPost.pure' ⟨[], Core.nil rfl rfl (fun _ => rfl) (fun _ => rfl) (fun _ h => h) (fun _ _ => rfl), rfl,
      fun k h1 h2 => absurd h2 (Nat.not_lt.2 h1), .nil _ _⟩
  | x :: xs, s, hI, hf => PPost.bind' ((hf x s hI).mono fun _ t ⟨hI', l, hl⟩ =>
      (parsed_forEach xs t hI' hf).mono fun _ u ⟨l', hl'⟩ => ⟨l ++ l', hl.append hl'⟩)

theorem Core.frame {s t u : PS} {l : List Visit} (h : Core s t l) (hf : Fr t u) (hi : NoIdParam l → FrId t u) : Core s u l where
  nelt := hf.nelt ▸ h.nelt
  tag k hk := (hf.tag k).trans (h.tag k hk)
  parent k hk := (hf.parent k).trans (h.parent k hk)
  cacheOld k hk := hf.cache ▸ h.cacheOld k hk
  cacheNew k hk := by rw [hf.nelt]; exact h.cacheNew k (hf.cache ▸ hk)
  wf := h.wf
  mono i hi := by rw [hf.syn]; exact h.mono i hi
  fresh i hi := by rw [hf.syn]; exact h.fresh i hi
  nodup := h.nodup
  keep hn k hk := (hi hn k).trans (h.keep hn k hk)
  known hn v hv := by
    obtain ⟨k, h1, h2, h3⟩ := h.known hn v hv
    exact ⟨k, h1, hf.nelt ▸ h2, h3.keep (hf.tag k) (hi hn k)⟩
  only hn k h1 h2 := by
    obtain ⟨v, hv, h3⟩ := h.only hn k h1 (hf.nelt ▸ h2)
    exact ⟨v, hv, h3.keep (hf.tag k) (hi hn k)⟩

/-- A new element. -/
theorem Core.newElt {s : PS} {pt : Option String} {x : Xml} {e : EltSyn} {r : List (String × String)} {y : SynSt} {parent : Option Nat}
    (h : checkNode true (aliasPrefix s.aliases) pt x s.syn = .ok (some (e, r, y))) :
    Core s { s with syn := y, elt := upd s.elt s.nelt { tag := x.tag, parent := parent, attrs := r }, nelt := s.nelt + 1 }
      [⟨aliasPrefix s.aliases, pt, x⟩] := by
  obtain ⟨h1, h2, h3⟩ := checkNode_ok h
  obtain ⟨hwf, hids⟩ := h3 rfl
  have ha := checkNode_attrs h
  obtain ⟨he, ht⟩ := syntaxOf_mem h1
  have hst : ∀ t : PS, t.elt s.nelt = { tag := x.tag, parent := parent, attrs := r } → Stands t ⟨aliasPrefix s.aliases, pt, x⟩ s.nelt := by
    intro t h'
    refine ⟨by rw [h'], ?_⟩
    unfold PS.attr
    rw [h']
    rcases ha.id he with h' | h'
    · exact .inl h'
    · exact .inr ⟨h'.1, ht ▸ h'.2⟩
  refine ⟨Nat.le_succ _, fun k hk => ?_, fun k hk => ?_, fun k hk => hk, fun k hk => .inl hk, ?_, h2, ?_, ?_, fun _ k hk => ?_, ?_, ?_⟩
  · show (upd s.elt s.nelt _ k).tag = _
    rw [upd_ne _ _ (Nat.ne_of_lt hk)]
  · show (upd s.elt s.nelt _ k).parent = _
    rw [upd_ne _ _ (Nat.ne_of_lt hk)]
  · intro v hv
    simp only [List.mem_singleton] at hv
    subst hv
    exact hwf
  · intro i hi
    simp only [idsOf, List.filterMap_cons, List.filterMap_nil] at hi
    cases hp : x.prop "id" with
    | none => simp [hp] at hi
    | some j =>
      simp only [hp, Option.map_some, List.mem_singleton] at hi
      subst hi
      exact hids j hp
  · simp only [idsOf, List.filterMap_cons, List.filterMap_nil]
    cases hp : x.prop "id" <;> simp [hp]
  · show mget "id" (upd s.elt s.nelt _ k).attrs = _
    rw [upd_ne _ _ (Nat.ne_of_lt hk)]
    rfl
  · intro _ v hv
    simp only [List.mem_singleton] at hv
    subst hv
    exact ⟨s.nelt, Nat.le_refl _, Nat.lt_succ_self _, hst _ (upd_same _ _ _)⟩
  · intro _ k hk1 hk2
    refine ⟨_, List.mem_singleton.2 rfl, ?_⟩
    obtain rfl : k = s.nelt := by
      have : k < s.nelt + 1 := hk2
      omega
    exact hst _ (upd_same _ _ _)

/-- What an accepted import does. -/
theorem import_parsed {E : PRead} {proc : Xml → PM Unit} (k : Nat) (s : PS)
    (hproc : ∀ x s, PPost (proc x) (fun _ t => ∃ l, Parsed E (some "head") [x] s t l) s) :
    PPost (pushImportBase E proc k) (fun _ t => ∃ p a d u root head l, (s.elt k).parent = some p ∧ s.attr k "alias" = some a ∧
      s.attr k "documentURI" = some d ∧ E.importUri (baseUri E s.aliases) d = .ok u ∧
      (∀ q ∈ s.aliases, q.2 ≠ u) ∧ E.file u = some root ∧ (root.findAll "head").head? = some head ∧
      Unfolds E (s.aliases ++ [(a, u)]) (some "head") (importedBases head (s.elt p).tag) l ∧ Core s t l ∧ Cached s t ∧
      t.aliases = s.aliases) s := by
  unfold pushImportBase
  refine PPost.bind (PPost.parentElt fun p hp _ => PPost.bind (PPost.attr! fun a ha => PPost.bind (PPost.attr! fun d hd =>
    PPost.bind (PPost.get (PPost.bind (PPost.res fun u hu => ?_))))))
  split
  · exact PPost.err
  rename_i hany
  refine PPost.bind (PPost.modify (PPost.bind (PPost.orErr fun root hroot => PPost.bind (PPost.check fun e1 r1 y1 hc1 => ?_))))
  split
  · exact PPost.err
  rename_i head hl hhead
  refine PPost.bind (PPost.check fun e2 r2 y2 hc2 => ?_)
  dsimp only
  split
  · exact PPost.err
  refine PPost.bind ((parsed_forEach (I := fun _ => True) _ _ trivial fun x s _ => (hproc x s).mono fun _ _ h => ⟨trivial, h⟩).mono ?_)
  rintro _ t ⟨l, hl⟩
  refine PPost.modify ⟨p, a, d, u, root, head, l, hp, ha, hd, hu, ?_, hroot, ?_, hl.unfolds, ?_, ?_, ?_⟩
  · intro q hq hqu
    refine hany (List.any_eq_true.2 ⟨q, hq, by simpa using hqu⟩)
  · rw [hhead]; rfl
  · have h0 := (checkNode_ok hc1).2.1
    have h1 := (checkNode_ok hc2).2.1
    have c1 : Core s t ([] ++ l) := by
      refine Core.trans ?_ hl.toCore
      exact Core.nil rfl rfl (fun _ => rfl) (fun _ => rfl) (fun i hi => h1 i (h0 i hi)) (fun _ _ => rfl)
    have c2 : Core t { t with aliases := t.aliases.dropLast } [] :=
      Core.nil rfl rfl (fun _ => rfl) (fun _ => rfl) (fun i hi => hi) (fun _ _ => rfl)
    simpa using c1.trans c2
  · exact hl.cached
  · show t.aliases.dropLast = _
    rw [hl.aliases]
    simp

theorem table_push : ∀ e ∈ syntaxTable, (e.push = .importBase → e.tag = "importBase") ∧ (e.tag = "importBase" → e.push = .importBase) ∧
    (e.push = .descriptorParam → e.tag = "descriptorParam" ∧ ("name", aReqName) ∈ e.attrs) ∧
    (e.push = .importBase → ("alias", aReqName) ∈ e.attrs ∧ ("documentURI", aReq) ∈ e.attrs) := by decide +kernel

/-- A declared plain attribute of a new element is that of the XML element. -/
theorem AttrsOf.plain {e : EltSyn} {pre : String} {x : Xml} {r : List (String × String)} (h : AttrsOf e pre x r) {n : String}
    {fl : AttrFlags} (hm : (n, fl) ∈ e.attrs) (h1 : fl.isId = false) (h2 : fl.isIdRef = false) (hn : n ≠ "id") : mget n r = x.prop n := by
  cases hp : x.prop n with
  | none => exact h.absent n fl hm hp fun hc => hn hc.1
  | some i => rw [h.given n fl i hm hp]; simp [qualify, h1, h2]

/-- Processing an element. -/
theorem processNode_parsed (E : PRead) : ∀ (n : Nat) (parent : Option Nat) (pt : Option String) (x : Xml) (s : PS),
    (∀ p, parent = some p → p < s.nelt ∧ pt = some (s.elt p).tag) →
    PPost (processNode E n parent pt x) (fun _ t => ∃ l, Parsed E pt [x] s t l) s
  | 0, _, _, _, _, _ => PPost.fuel
  | n + 1, parent, pt, x, s, hpar => by
    unfold processNode
    refine PPost.bind (PPost.check fun e r y hc => PPost.bind (PPost.newElt ?_))
    dsimp only
    have hcore := Core.newElt (parent := parent) hc
    have hattrs := checkNode_attrs hc
    obtain ⟨hsyn, -, -⟩ := checkNode_ok hc
    obtain ⟨hmem, htag⟩ := syntaxOf_mem hsyn
    have hs2 : ∃ s2 : PS, s2 = { s with syn := y, elt := upd s.elt s.nelt { tag := x.tag, parent := parent, attrs := r }, nelt := s.nelt + 1 } :=
      ⟨_, rfl⟩
    obtain ⟨s2, hs2⟩ := hs2
    rw [← hs2] at hcore
    rw [show ({ ({ s with syn := y } : PS) with elt := upd s.elt s.nelt { tag := x.tag, parent := parent, attrs := r }, nelt := s.nelt + 1 } : PS) = s2
      from hs2.symm]
    have helt : s2.elt s.nelt = { tag := x.tag, parent := parent, attrs := r } := by rw [hs2]; exact upd_same _ _ _
    have hn2 : s2.nelt = s.nelt + 1 := by rw [hs2]
    have hal2 : s2.aliases = s.aliases := by rw [hs2]
    -- the push function
    have hpush : PPost (push E (processNode E n none (some "head")) e.push s.nelt) (fun _ t => t.aliases = s.aliases ∧ s.nelt < t.nelt ∧
        (t.elt s.nelt).tag = x.tag ∧ ∃ li, Core s t (⟨aliasPrefix s.aliases, pt, x⟩ :: li) ∧
        (∀ k, s.nelt + 1 ≤ k → k < t.nelt → (∃ e, syntaxOf (t.elt k).tag = some e ∧ e.cache = true) → k ∈ t.cache) ∧
        (∀ lc, Unfolds E s.aliases (some x.tag) x.children lc → Unfolds E s.aliases pt [x] (⟨aliasPrefix s.aliases, pt, x⟩ :: (li ++ lc)))) s2 := by
      by_cases hi : e.push = .importBase
      · rw [hi]
        show PPost (pushImportBase E _ s.nelt) _ s2
        refine (import_parsed s.nelt s2 fun x s => processNode_parsed E n none (some "head") x s (by simp)).mono ?_
        rintro _ t ⟨p, a, d, u, root, head, l, h1, h2, h3, h4, h5, h6, h7, h8, h9, h10, h11⟩
        rw [helt] at h1
        obtain ⟨hp1, hp2⟩ := hpar p h1
        have hptag : (s2.elt p).tag = (s.elt p).tag := hcore.tag p hp1
        rw [hptag] at h8
        rw [hal2] at h4 h5 h8 h11
        obtain ⟨hm1, hm2⟩ := (table_push e hmem).2.2.2 hi
        have htg : x.tag = "importBase" := htag ▸ (table_push e hmem).1 hi
        refine ⟨h11, by have := h9.nelt; omega, ?_, l, hcore.trans h9, ?_, ?_⟩
        · rw [h9.tag _ (by omega), helt]
        · intro k hk1 hk2 hk3
          exact h10 k (by omega) hk2 hk3
        · intro lc hlc
          have e1 : x.prop "alias" = some a := by
            rw [← h2]; unfold PS.attr; rw [helt]
            exact (hattrs.plain hm1 rfl rfl (by decide)).symm
          have e2 : x.prop "documentURI" = some d := by
            rw [← h3]; unfold PS.attr; rw [helt]
            exact (hattrs.plain hm2 rfl rfl (by decide)).symm
          have := Unfolds.imp (xs := []) htg e1 e2 h4 h5 h6 h7 h8 hlc (.nil _ _)
          rw [hp2]
          simpa using this
      · have hd : e.push = .descriptorParam → NoIdParam [⟨aliasPrefix s.aliases, pt, x⟩] → s2.attr s.nelt "name" ≠ some "id" := by
          intro hd hn
          obtain ⟨h1, h2⟩ := (table_push e hmem).2.2.1 hd
          unfold PS.attr
          rw [helt]
          show mget "name" r ≠ _
          rw [hattrs.plain h2 rfl rfl (by decide)]
          exact hn _ (List.mem_singleton.2 rfl) (htag ▸ h1)
        have hid : NoIdParam [⟨aliasPrefix s.aliases, pt, x⟩] → PPost (push E (processNode E n none (some "head")) e.push s.nelt)
            (fun _ t => FrId s2 t) s2 := fun hn => frId_push E _ e.push s.nelt hi s2 fun hd' => hd hd' hn
        intro a t hat
        have hfr : Fr s2 t := fr_push E _ e.push s.nelt hi s2 a t hat
        refine ⟨hfr.aliases.trans hal2, by rw [hfr.nelt]; omega, by rw [hfr.tag, helt], [], ?_, ?_, ?_⟩
        · exact hcore.frame hfr fun hn => hid hn a t hat
        · intro k hk1 hk2
          rw [hfr.nelt] at hk2
          omega
        · intro lc hlc
          have htg : x.tag ≠ "importBase" := fun hc => hi ((table_push e hmem).2.1 (htag.trans hc))
          simpa using Unfolds.cons (xs := []) (pt := pt) htg hlc (.nil _ _)
    refine PPost.bind (hpush.mono ?_)
    rintro _ s3 ⟨hal3, hn3, htag3, li, hcore3, hcache3, hunf⟩
    -- the cache
    have hstep : PPost (cacheIf e s.nelt) (fun _ t => t.aliases = s.aliases ∧ s.nelt < t.nelt ∧
        (t.elt s.nelt).tag = x.tag ∧ Core s t (⟨aliasPrefix s.aliases, pt, x⟩ :: li) ∧ Cached s t) s3 := by
      unfold cacheIf
      by_cases hca : e.cache = true
      · rw [if_pos hca]
        refine PPost.cacheAdd fun _ => ⟨hal3, hn3, htag3, ?_, ?_⟩
        · exact { hcore3 with
            cacheOld := fun k hk => List.mem_append_left _ (hcore3.cacheOld k hk)
            cacheNew := fun k hk => by
              rcases List.mem_append.1 hk with hk | hk
              · exact hcore3.cacheNew k hk
              · obtain rfl : k = s.nelt := by simpa using hk
                exact .inr ⟨Nat.le_refl _, hn3⟩ }
        · intro k hk1 hk2 hk3
          by_cases hk : k = s.nelt
          · subst hk; exact List.mem_append_right _ (by simp)
          · exact List.mem_append_left _ (hcache3 k (by omega) hk2 hk3)
      · rw [if_neg hca]
        refine PPost.pure ⟨hal3, hn3, htag3, hcore3, ?_⟩
        intro k hk1 hk2 hk3
        by_cases hk : k = s.nelt
        · subst hk
          obtain ⟨e', he', hc'⟩ := hk3
          rw [htag3, hsyn] at he'
          obtain rfl : e = e' := by simpa using he'
          exact absurd hc' hca
        · exact hcache3 k (by omega) hk2 hk3
    refine PPost.bind (hstep.mono ?_)
    rintro _ s4 ⟨hal4, hn4, htag4, hcore4, hcached4⟩
    -- the children
    refine PPost.bind ((parsed_forEach (E := E) (pt := some x.tag) (I := fun t => s.nelt < t.nelt ∧ (t.elt s.nelt).tag = x.tag) x.children s4
      ⟨hn4, htag4⟩ ?_).mono ?_)
    · intro c t ht
      refine (processNode_parsed E n (some s.nelt) (some x.tag) c t ?_).mono ?_
      · intro p hp
        obtain rfl : s.nelt = p := by simpa using hp
        exact ⟨ht.1, by rw [ht.2]⟩
      · rintro _ u ⟨l, hl⟩
        exact ⟨⟨Nat.lt_of_lt_of_le ht.1 hl.nelt, (hl.tag _ ht.1).trans ht.2⟩, l, hl⟩
    · rintro _ s5 ⟨lc, hlc⟩ a t hat
      have hfr := fr_pop E n e.pop s.nelt s5 a t hat
      have hid := frId_pop E n e.pop s.nelt s5 a t hat
      refine ⟨⟨aliasPrefix s.aliases, pt, x⟩ :: (li ++ lc), ?_, ?_, ?_, ?_⟩
      · exact (hcore4.trans hlc.toCore).frame hfr fun _ => hid
      · rw [hfr.aliases, hlc.aliases, hal4]
      · have := hcached4.trans hlc.cached hlc.tag hlc.cacheOld
        intro k hk1 hk2 hk3
        rw [hfr.cache]
        exact this k hk1 (hfr.nelt ▸ hk2) (hfr.tag k ▸ hk3)
      · exact hunf lc (hal4 ▸ hlc.unfolds)

end Ginga
