import Verif.Props.C45
import Verif.Props.C32
/-!
# C45, C42: the theorems
-/
namespace Ginga

/-- Every accepted document: its elements, with those it imports, are well formed, and no two have the same identifier. -/
theorem C45_accepted {E : PRead} {n : Nat} {W H : Int} {z : Nat} {x : Xml} {s : PS} (h : parseXml E n W H z x = .ok (some s)) :
    ∃ l, Unfolds E [] none [x] l ∧ (∀ v ∈ l, WellFormed v) ∧ (idsOf l).Nodup ∧
      ∀ v ∈ l, ∀ i, v.elt.prop "id" = some i → i ≠ "" ∧ validName i = true := by
  unfold parseXml at h
  split at h
  · simp at h
  cases hd : newDoc (E.addr 0) (E.addr 1) (E.addr 2) (E.addr 3) (E.addr 4) with
  | abort => simp [hd, Res.bind] at h
  | ub => simp [hd, Res.bind] at h
  | fuel => simp [hd, Res.bind] at h
  | ok reg =>
    simp only [hd, Res.bind] at h
    cases hp : processNode E n none none x (PS.init W H z reg 5) with
    | abort => simp [hp] at h
    | ub => simp [hp] at h
    | fuel => simp [hp] at h
    | ok r =>
      cases r with
      | none => simp [hp] at h
      | some r =>
        obtain ⟨l, hl⟩ := processNode_parsed E n none none x (PS.init W H z reg 5) (by simp) r.1 r.2 hp
        refine ⟨l, hl.unfolds, hl.wf, hl.nodup, fun v hv i hi => ?_⟩
        obtain ⟨e, he, -, -, h1, -, h2⟩ := (hl.wf v hv).entry
        obtain ⟨fl, hfl⟩ := h1 _ (prop_mem hi)
        have := table_names e he _ hfl rfl
        exact ⟨(h2 _ fl i hfl hi).1 this.1, (h2 _ fl i hfl hi).2 this.2⟩
where
  table_names : ∀ e ∈ syntaxTable, ∀ p ∈ e.attrs, p.1 = "id" → p.2.nonempty = true ∧ p.2.isName = true := by decide +kernel

/-! ## Conversely, the syntax check rejects nothing else -/

theorem checkAttrs_complete (x : Xml) (syn : EltSyn) (pre : String) : ∀ (l : List (String × AttrFlags)) (acc : List (String × String))
    (s : SynSt),
    (∀ n fl, (n, fl) ∈ l → fl.required = true → ∃ i, x.prop n = some i) →
    (∀ n fl i, (n, fl) ∈ l → x.prop n = some i → (fl.nonempty = true → i ≠ "") ∧ (fl.isName = true → validName i = true)) →
    (∀ n fl i, (n, fl) ∈ l → fl.unique = true → x.prop n = some i → n = "id" ∧ fl.isId = true ∧ pre ++ i ∉ s.unique) →
    (l.map Prod.fst).Nodup → genIdText s.genid ∉ s.unique →
    ∃ r t, checkAttrs x syn true pre l acc s = .ok (some (r, t))
  | [], acc, s, _, _, _, _, _ => ⟨acc, s, rfl⟩
  | (name, fl) :: rest, acc, s, h1, h2, h3, hnd, hg => by
    simp only [List.map_cons, List.nodup_cons] at hnd
    have r1 := fun n f (hm : (n, f) ∈ rest) => h1 n f (by simp [hm])
    have r2 := fun n f i (hm : (n, f) ∈ rest) => h2 n f i (by simp [hm])
    have r3 := fun n f i (hm : (n, f) ∈ rest) => h3 n f i (by simp [hm])
    unfold checkAttrs
    cases hp : x.prop name with
    | none =>
      dsimp only
      split
      · rename_i hid
        rw [if_pos rfl, if_neg (by simpa using hg)]
        refine checkAttrs_complete_noid x syn pre rest _ _ r1 r2 (fun n f i hm hu hi => ?_) hnd.2 ?_
        · exact absurd ((r3 n f i hm hu hi).1 ▸ List.mem_map_of_mem hm) (hid.1 ▸ hnd.1)
        · intro hc
          exact absurd hc (hid.1 ▸ hnd.1)
      · rw [if_neg]
        · exact checkAttrs_complete x syn pre rest _ _ r1 r2 r3 hnd.2 hg
        · intro hr
          obtain ⟨i, hi⟩ := h1 name fl (by simp) hr
          rw [hp] at hi; simp at hi
    | some v =>
      dsimp only
      have hv := h2 name fl v (by simp) hp
      rw [if_neg fun hc => hv.1 hc.1 hc.2, if_neg fun hc => hc.2 (hv.2 hc.1)]
      split
      · rename_i hu
        obtain ⟨hn, hid, hfr⟩ := h3 name fl v (by simp) hu hp
        rw [if_neg (by simpa [hid] using hfr)]
        refine checkAttrs_complete_noid x syn pre rest _ _ r1 r2 (fun n f i hm hu hi => ?_) hnd.2 ?_
        · exact absurd ((r3 n f i hm hu hi).1 ▸ List.mem_map_of_mem hm) (hn ▸ hnd.1)
        · intro hc
          exact absurd hc (hn ▸ hnd.1)
      · exact checkAttrs_complete x syn pre rest _ _ r1 r2 r3 hnd.2 hg
where
  /-- after the identifier -/
  checkAttrs_complete_noid (x : Xml) (syn : EltSyn) (pre : String) : ∀ (l : List (String × AttrFlags)) (acc : List (String × String))
    (s : SynSt),
    (∀ n fl, (n, fl) ∈ l → fl.required = true → ∃ i, x.prop n = some i) →
    (∀ n fl i, (n, fl) ∈ l → x.prop n = some i → (fl.nonempty = true → i ≠ "") ∧ (fl.isName = true → validName i = true)) →
    (∀ n fl i, (n, fl) ∈ l → fl.unique = true → x.prop n = some i → False) →
    (l.map Prod.fst).Nodup → ("id" ∉ l.map Prod.fst) →
    ∃ r t, checkAttrs x syn true pre l acc s = .ok (some (r, t))
  | [], acc, s, _, _, _, _, _ => ⟨acc, s, rfl⟩
  | (name, fl) :: rest, acc, s, h1, h2, h3, hnd, hid => by
    simp only [List.map_cons, List.nodup_cons] at hnd
    simp only [List.map_cons, List.mem_cons, not_or] at hid
    have r1 := fun n f (hm : (n, f) ∈ rest) => h1 n f (by simp [hm])
    have r2 := fun n f i (hm : (n, f) ∈ rest) => h2 n f i (by simp [hm])
    have r3 := fun n f i (hm : (n, f) ∈ rest) => h3 n f i (by simp [hm])
    unfold checkAttrs
    cases hp : x.prop name with
    | none =>
      dsimp only
      rw [if_neg fun hc => hid.1 hc.1.symm, if_neg]
      · exact checkAttrs_complete_noid x syn pre rest _ _ r1 r2 r3 hnd.2 hid.2
      · intro hr
        obtain ⟨i, hi⟩ := h1 name fl (by simp) hr
        rw [hp] at hi; simp at hi
    | some v =>
      dsimp only
      have hv := h2 name fl v (by simp) hp
      rw [if_neg fun hc => hv.1 hc.1 hc.2, if_neg fun hc => hc.2 (hv.2 hc.1)]
      split
      · exact absurd (h3 name fl v (by simp) ‹_› hp) id
      · exact checkAttrs_complete_noid x syn pre rest _ _ r1 r2 r3 hnd.2 hid.2

theorem table_tags : (syntaxTable.map (·.tag)).Nodup := by decide +kernel

theorem syntaxOf_complete {e : EltSyn} (h : e ∈ syntaxTable) : syntaxOf e.tag = some e := by
  unfold syntaxOf
  have key : ∀ l : List EltSyn, (l.map (·.tag)).Nodup → e ∈ l → l.find? (fun e' => e'.tag == e.tag) = some e := by
    intro l
    induction l with
    | nil => simp
    | cons a l ih =>
      intro hnd hm
      simp only [List.map_cons, List.nodup_cons] at hnd
      rcases List.mem_cons.1 hm with rfl | hm
      · simp
      · rw [List.find?_cons_of_neg, ih hnd.2 hm]
        intro hc
        exact hnd.1 (by rw [beq_iff_eq.1 hc]; exact List.mem_map_of_mem hm)
  exact key _ table_tags h

theorem table_unique : ∀ e ∈ syntaxTable, ∀ p ∈ e.attrs, p.2.unique = true → p.1 = "id" ∧ p.2.isId = true := by decide +kernel

/-- A well-formed element whose identifier is new is not rejected (unless the counter for generated identifiers has reached one
that is taken). -/
theorem C45_complete (v : Visit) (hv : WellFormed v) (s : SynSt) (hid : ∀ i, v.elt.prop "id" = some i → v.pre ++ i ∉ s.unique)
    (hg : genIdText s.genid ∉ s.unique) : ∃ e r t, checkNode true v.pre v.parent v.elt s = .ok (some (e, r, t)) := by
  obtain ⟨⟨e, he, ht, h1, h2, h3, h4⟩, h5⟩ := hv
  obtain ⟨r, t, hr⟩ := checkAttrs_complete v.elt e v.pre e.attrs [] s h3 h4 (fun n fl i hm hu hi => by
    obtain ⟨hn, hi'⟩ := table_unique e he _ hm hu
    have hn : n = "id" := hn
    subst hn
    exact ⟨rfl, hi', hid i hi⟩) (table_nodup e he) hg
  refine ⟨e, r, t, ?_⟩
  unfold checkNode
  rw [← ht, syntaxOf_complete he]
  dsimp only
  rw [if_neg, hr]
  · simp only [Res.bind]
    have ha := checkAttrs_attrs _ _ _ _ _ _ _ _ hr (table_nodup e he)
    rw [if_neg, if_neg]
    · simp only [Decidable.not_not, List.all_eq_true]
      intro c hc
      obtain ⟨e', he', h6, h7⟩ := h5 c hc
      refine List.any_eq_true.2 ⟨e', he', ?_⟩
      simp [h6, ht, h7]
    · simp only [true_and, Decidable.not_not, List.all_eq_true]
      intro a hm
      obtain ⟨fl, hfl⟩ := h2 a hm
      have : ∃ i, v.elt.prop a.1 = some i := by
        unfold Xml.prop
        cases hf : v.elt.attrs.find? (fun p => p.1 == a.1) with
        | none => exact absurd (List.find?_eq_none.1 hf a hm) (by simp)
        | some p => exact ⟨p.2, rfl⟩
      obtain ⟨i, hi⟩ := this
      rw [ha.2.1 a.1 fl i hfl hi]
      rfl
  · simp only [Decidable.not_not]
    unfold parentOk
    split
    · obtain ⟨p, hp, hpp⟩ := h1 (by intro hc; simp_all)
      simp [hpp, hp]
    · rfl

/-! ## Imports -/

/-- The siblings reached from the document `x`, through any number of imports: under which aliases (with the documents they
stand for) they are reached.  Nothing here prevents cycles. -/
inductive Reached (E : PRead) (x : Xml) : List (String × String) → Option String → List Xml → Prop
  | root : Reached E x [] none [x]
  | child {al pt xs y} : Reached E x al pt xs → y ∈ xs → Reached E x al (some y.tag) y.children
  | imp {al tag xs y a d u root head} : Reached E x al (some tag) xs → y ∈ xs → y.tag = "importBase" → y.prop "alias" = some a →
      y.prop "documentURI" = some d → E.importUri (baseUri E al) d = .ok u → E.file u = some root →
      (root.findAll "head").head? = some head → Reached E x (al ++ [(a, u)]) (some "head") (importedBases head tag)

theorem Unfolds.child {E : PRead} {al : List (String × String)} {pt : Option String} {y : Xml} :
    ∀ {xs : List Xml} {l : List Visit}, Unfolds E al pt xs l → y ∈ xs → ∃ l', Unfolds E al (some y.tag) y.children l' := by
  intro xs l h
  induction h with
  | nil => simp
  | cons h1 h2 h3 _ ih =>
    intro hm
    rcases List.mem_cons.1 hm with rfl | hm
    · exact ⟨_, h2⟩
    · exact ih hm
  | imp h1 h2 h3 h4 h5 h6 h7 h8 h9 h10 _ _ ih =>
    intro hm
    rcases List.mem_cons.1 hm with rfl | hm
    · exact ⟨_, h9⟩
    · exact ih hm

theorem Unfolds.import {E : PRead} {al : List (String × String)} {tag : String} {y : Xml} {a d u : String} {root head : Xml}
    (e1 : y.tag = "importBase") (e2 : y.prop "alias" = some a) (e3 : y.prop "documentURI" = some d)
    (e4 : E.importUri (baseUri E al) d = .ok u) (e5 : E.file u = some root) (e6 : (root.findAll "head").head? = some head) :
    ∀ {xs : List Xml} {l : List Visit} {pt : Option String}, Unfolds E al pt xs l → pt = some tag → y ∈ xs → (∀ p ∈ al, p.2 ≠ u) ∧
      ∃ l', Unfolds E (al ++ [(a, u)]) (some "head") (importedBases head tag) l' := by
  intro xs l pt h
  induction h with
  | nil => simp
  | cons h1 h2 h3 _ ih =>
    intro hpt hm
    rcases List.mem_cons.1 hm with rfl | hm
    · exact absurd e1 h1
    · exact ih e4 hpt hm
  | imp h1 h2 h3 h4 h5 h6 h7 h8 h9 h10 _ _ ih =>
    intro hpt hm
    rcases List.mem_cons.1 hm with rfl | hm
    · simp only [Option.some.injEq] at hpt
      subst hpt
      rw [e2] at h2
      obtain rfl : a = _ := by simpa using h2
      rw [e3] at h3
      obtain rfl : d = _ := by simpa using h3
      rw [e4] at h4
      obtain rfl : u = _ := by simpa using h4
      rw [e5] at h6
      obtain rfl : root = _ := by simpa using h6
      rw [e6] at h7
      obtain rfl : head = _ := by simpa using h7
      exact ⟨h5, _, h8⟩
    · exact ih e4 hpt hm

/-- In an accepted document no chain of imports comes to the same document twice: circular imports are rejected. -/
theorem C42_circular {E : PRead} {n : Nat} {W H : Int} {z : Nat} {x : Xml} {s : PS} (h : parseXml E n W H z x = .ok (some s))
    {al : List (String × String)} {pt : Option String} {xs : List Xml} (hr : Reached E x al pt xs) : (al.map (·.2)).Nodup := by
  obtain ⟨l, hl, -⟩ := C45_accepted h
  have key : ∀ {al pt xs}, Reached E x al pt xs → (al.map (·.2)).Nodup ∧ ∃ l, Unfolds E al pt xs l := by
    intro al pt xs hr
    induction hr with
    | root => exact ⟨by simp, l, hl⟩
    | child _ hm ih =>
      obtain ⟨l, hl⟩ := ih.2
      exact ⟨ih.1, hl.child hm⟩
    | imp _ hm e1 e2 e3 e4 e5 e6 ih =>
      obtain ⟨l, hl⟩ := ih.2
      obtain ⟨h1, h2⟩ := Unfolds.import e1 e2 e3 e4 e5 e6 hl rfl hm
      refine ⟨?_, h2⟩
      rw [List.map_append, List.nodup_append]
      refine ⟨ih.1, by simp, fun p hp q hq hpq => ?_⟩
      obtain ⟨r, hr, rfl⟩ := List.mem_map.1 hp
      simp only [List.map_cons, List.map_nil, List.mem_singleton] at hq
      exact h1 r hr (hpq.trans hq)
  exact (key hr).1

/-- Looking an element up by its tag and identifier: it is found under its qualified identifier, and under nothing else.
Missing: documents with a descriptor parameter called `id` (see `C42_fails_param`). -/
theorem C42_lookup_partial {E : PRead} {n : Nat} {W H : Int} {z : Nat} {x : Xml} {s : PS} (h : parseXml E n W H z x = .ok (some s)) :
    ∃ l, Unfolds E [] none [x] l ∧ (NoIdParam l → ∀ e ∈ syntaxTable, e.cache = true → e.tag ≠ "link" → ∀ q,
      (s.byId q [e.tag]).isSome = true ↔ ∃ v ∈ l, v.elt.tag = e.tag ∧ ∃ i, v.elt.prop "id" = some i ∧ q = v.pre ++ i) := by
  unfold parseXml at h
  split at h
  · simp at h
  cases hd : newDoc (E.addr 0) (E.addr 1) (E.addr 2) (E.addr 3) (E.addr 4) with
  | abort => simp [hd, Res.bind] at h
  | ub => simp [hd, Res.bind] at h
  | fuel => simp [hd, Res.bind] at h
  | ok reg =>
    simp only [hd, Res.bind] at h
    cases hp : processNode E n none none x (PS.init W H z reg 5) with
    | abort => simp [hp] at h
    | ub => simp [hp] at h
    | fuel => simp [hp] at h
    | ok r =>
      cases r with
      | none => simp [hp] at h
      | some r =>
        obtain ⟨l, hl⟩ := processNode_parsed E n none none x (PS.init W H z reg 5) (by simp) r.1 r.2 hp
        obtain ⟨u, t⟩ := r
        simp only [hp, Res.ok.injEq, Option.some.injEq] at h
        subst h
        refine ⟨l, hl.unfolds, fun hn e he hc hlink q => ?_⟩
        have hfind : (t.byId q [e.tag]).isSome = true ↔ ∃ k ∈ t.cache, (t.elt k).tag = e.tag ∧ t.attr k "id" = some q := by
          unfold PS.byId
          cases hf : t.cache.find? (fun k => (t.elt k).tag == e.tag && t.attr k "id" == some q) with
          | none =>
            simp only [PS.byId, Option.isSome_none, Bool.false_eq_true, false_iff]
            rintro ⟨k, h1, h2, h3⟩
            exact absurd (List.find?_eq_none.1 hf k h1) (by simp [h2, h3])
          | some k =>
            simp only [Option.isSome_some, true_iff]
            have := List.find?_some hf
            simp only [Bool.and_eq_true, beq_iff_eq] at this
            exact ⟨k, List.mem_of_find?_eq_some hf, this.1, this.2⟩
        rw [hfind]
        constructor
        · rintro ⟨k, h1, h2, h3⟩
          have h4 : k < t.nelt := by
            rcases hl.cacheNew k h1 with h' | h'
            · exact absurd h' (by simp [PS.init])
            · exact h'.2
          obtain ⟨v, hv, h5, h6⟩ := hl.only hn k (Nat.zero_le _) h4
          refine ⟨v, hv, h5 ▸ h2, ?_⟩
          rcases h6 with h6 | h6
          · rw [h3] at h6
            cases hi : v.elt.prop "id" with
            | none => rw [hi] at h6; simp at h6
            | some i => rw [hi] at h6; exact ⟨i, rfl, by simpa using h6⟩
          · exact absurd (h2.symm.trans (h5.trans h6.2)) hlink
        · rintro ⟨v, hv, h1, i, h2, rfl⟩
          obtain ⟨k, -, h4, h5, h6⟩ := hl.known hn v hv
          refine ⟨k, hl.cached k (Nat.zero_le _) h4 ⟨e, ?_, hc⟩, h5.trans h1, ?_⟩
          · rw [h5, h1]; exact syntaxOf_complete he
          · rcases h6 with h6 | h6
            · rw [h6, h2]; rfl
            · rw [h2] at h6; simp at h6

/-! ## Examples -/

/-- A reader for examples: `base.ncl` has a region base, `loop.ncl` imports itself. -/
def pread0 : PRead where
  F := exactFP
  fmtG := fun _ => "0"
  file := fun u =>
    if u = "base.ncl" then some (.elem "ncl" [] [.elem "head" [] [.elem "regionBase" [] [.elem "region" [("id", "r1")] []]]])
    else if u = "loop.ncl" then some (.elem "ncl" [] [.elem "head" [] [.elem "regionBase" []
      [.elem "importBase" [("alias", "x"), ("documentURI", "loop.ncl")] []]]])
    else none
  importUri := fun _ d => .ok d
  srcUri := id
  uri := "main.ncl"
  font := fun _ => true
  addr := id
  argOrder := ["borderColor", "borderWidth", "vertRepeat", "horzRepeat", "fadeColor", "direction", "endProgress", "startProgress", "dur", "subtype"]

/-- Whether a parse succeeds, with a condition on the state. -/
def parsedAnd (r : Res (Option PS)) (p : PS → Bool) : Bool := match r with | .ok (some s) => p s | _ => false

theorem parsedAnd_iff {r : Res (Option PS)} {p : PS → Bool} : parsedAnd r p = true ↔ ∃ s, r = .ok (some s) ∧ p s = true := by
  unfold parsedAnd
  split
  · simp
  · constructor
    · simp
    · rintro ⟨s, hs, -⟩
      rename_i hh
      exact absurd hs (hh s)

/-- A document that imports a region base. -/
def docImport (file : String) : Xml := .elem "ncl" [("id", "d")] [.elem "head" [] [
    .elem "regionBase" [] [.elem "importBase" [("alias", "b"), ("documentURI", file)] []],
    .elem "descriptorBase" [] [.elem "descriptor" [("id", "d1"), ("region", "b#r1")] []]],
  .elem "body" [] [.elem "port" [("id", "p"), ("component", "m")] [], .elem "media" [("id", "m"), ("descriptor", "d1")] []]]

/-- An accepted document with an import, whose region is known as `b#r1` and not as `r1`. -/
example : ∃ s, parseXml pread0 20 800 600 0 (docImport "base.ncl") = .ok (some s) ∧
    (s.byId "b#r1" ["region"]).isSome = true ∧ (s.byId "r1" ["region"]).isSome = false := by
  obtain ⟨s, h1, h2⟩ := parsedAnd_iff.1 (show parsedAnd (parseXml pread0 20 800 600 0 (docImport "base.ncl"))
    (fun s => (s.byId "b#r1" ["region"]).isSome && !(s.byId "r1" ["region"]).isSome) = true by decide +kernel)
  simp only [Bool.and_eq_true, Bool.not_eq_true'] at h2
  exact ⟨s, h1, h2.1, h2.2⟩

/-- How a parse ends: accepted, rejected with an error, or the process dies. -/
inductive Verdict | accepted | rejected | crash | undefined | unfinished
  deriving DecidableEq

/-- The end of a parse. -/
def verdict : Res (Option PS) → Verdict
  | .ok (some _) => .accepted
  | .ok none => .rejected
  | .abort => .crash
  | .ub => .undefined
  | .fuel => .unfinished

/-- A circular import is an error. -/
example : verdict (parseXml pread0 20 800 600 0 (docImport "loop.ncl")) = .rejected := by decide +kernel

/-- A document with a descriptor base. -/
def docDesc (l : List Xml) : Xml := .elem "ncl" [] [.elem "head" [] [.elem "descriptorBase" [] l], .elem "body" [] []]

/-- A descriptor parameter called `id` renames the descriptor: here two descriptors end up with the same identifier, and the
first cannot be found under its own. -/
theorem C42_fails_param : ∃ s, parseXml pread0 20 800 600 0 (docDesc
      [.elem "descriptor" [("id", "a")] [.elem "descriptorParam" [("name", "id"), ("value", "b")] []], .elem "descriptor" [("id", "b")] []]) =
      .ok (some s) ∧ s.byId "a" ["descriptor"] = none ∧
    ∃ j k, j ≠ k ∧ j ∈ s.cache ∧ k ∈ s.cache ∧ s.attr j "id" = some "b" ∧ s.attr k "id" = some "b" := by
  obtain ⟨s, h1, h2⟩ := parsedAnd_iff.1 (show parsedAnd (parseXml pread0 20 800 600 0 (docDesc
      [.elem "descriptor" [("id", "a")] [.elem "descriptorParam" [("name", "id"), ("value", "b")] []], .elem "descriptor" [("id", "b")] []]))
    (fun s => decide (s.byId "a" ["descriptor"] = none ∧ 3 ∈ s.cache ∧ 5 ∈ s.cache ∧ s.attr 3 "id" = some "b" ∧ s.attr 5 "id" = some "b")) = true
    by decide +kernel)
  simp only [decide_eq_true_eq] at h2
  exact ⟨s, h1, h2.1, 3, 5, by decide, h2.2.1, h2.2.2.1, h2.2.2.2.1, h2.2.2.2.2⟩

/-- A document with a connector and links between two media objects. -/
def docLinks (ids : List (Option String)) : Xml := .elem "ncl" [] [
  .elem "head" [] [.elem "connectorBase" [] [.elem "causalConnector" [("id", "c")]
    [.elem "simpleCondition" [("role", "onBegin")] [], .elem "simpleAction" [("role", "start")] []]]],
  .elem "body" [] (.elem "media" [("id", "m")] [] :: ids.map fun i =>
    .elem "link" ((match i with | some i => [("id", i)] | none => []) ++ [("xconnector", "c")])
      [.elem "bind" [("role", "onBegin"), ("component", "m")] [], .elem "bind" [("role", "start"), ("component", "m")] []])]

/-- Generated identifiers of links are not registered: a link may later be given the same one explicitly.  Given before, it makes
the parser abort. -/
theorem C45_generated_clash :
    (∃ s, parseXml pread0 20 800 600 0 (docLinks [none, some "__unamed-0__"]) = .ok (some s) ∧
      ∃ j k, j ≠ k ∧ j ∈ s.cache ∧ k ∈ s.cache ∧ s.attr j "id" = some "__unamed-0__" ∧ s.attr k "id" = some "__unamed-0__") ∧
    verdict (parseXml pread0 20 800 600 0 (docLinks [some "__unamed-0__", none])) = .crash := by
  obtain ⟨s, h1, h2⟩ := parsedAnd_iff.1 (show parsedAnd (parseXml pread0 20 800 600 0 (docLinks [none, some "__unamed-0__"]))
    (fun s => decide (8 ∈ s.cache ∧ 11 ∈ s.cache ∧ s.attr 8 "id" = some "__unamed-0__" ∧ s.attr 11 "id" = some "__unamed-0__")) = true
    by decide +kernel)
  simp only [decide_eq_true_eq] at h2
  exact ⟨⟨s, h1, 8, 11, by decide, h2.1, h2.2.1, h2.2.2.1, h2.2.2.2⟩, by decide +kernel⟩

/-- The identifiers of the internal objects are not reserved: using one makes the parser abort instead of reporting an error. -/
theorem C45_reserved_crash :
    verdict (parseXml pread0 20 800 600 0 (.elem "ncl" [] [.elem "body" [] [.elem "media" [("id", "__settings__")] []]])) = .crash ∧
    verdict (parseXml pread0 20 800 600 0 (.elem "ncl" [] [.elem "body" [] [.elem "context" [("id", "__root__")] []]])) = .crash := by
  decide +kernel

/-- Rejected documents: a duplicated identifier, an unknown element, an unknown attribute, a missing attribute, a bad name, a
misplaced element. -/
example : (List.map (fun x => verdict (parseXml pread0 20 800 600 0 x))
    [.elem "ncl" [] [.elem "body" [] [.elem "media" [("id", "a")] [], .elem "media" [("id", "a")] []]],
     .elem "ncl" [] [.elem "body" [] [.elem "movie" [] []]],
     .elem "ncl" [] [.elem "body" [("color", "red")] []],
     .elem "ncl" [] [.elem "body" [] [.elem "media" [] []]],
     .elem "ncl" [] [.elem "body" [] [.elem "media" [("id", "a b")] []]],
     .elem "ncl" [] [.elem "media" [("id", "a")] []]]) = List.replicate 6 .rejected := by decide +kernel

end Ginga
