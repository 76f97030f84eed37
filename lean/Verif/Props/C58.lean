import Verif.Props.C54
import Verif.Proofs.LtabOk3
/-!
# C58: loading an NCL-ltab document
-/
namespace Ginga

/-- C58.  A well-formed document is accepted: objects with tag and id, different ids, lists where lists are expected, properties that are
texts or transition tables, times that can be read, ports on events that exist, links with conditions and actions on events of
children, rules for children, known transitions and operators, and nothing nested deeper than the interpreter allows.  Of other
documents the claim is false: see `C58_fails_*`. -/
theorem C58_partial (E : PRead) (hinj : ∀ i j, E.addr i = E.addr j → i = j) (h0 : ∀ i, E.addr i ≠ 0) (H : LHeap) (n top : Nat) (h : DocFine E H n top) :
    ∃ t, parseLtab E H n (.tab top) = .ok (some t) := ltab_accepts hinj h0 h

/-! ## A well-formed document -/

/-- The tables inside a table, with their paths, down to depth `n`. -/
def pathsOf (H : LHeap) : Nat → Nat → List (List Nat × Nat)
  | 0, a => [([], a)]
  | n + 1, a => ([], a) :: ((H.kids a).zipIdx.flatMap fun p => (pathsOf H n p.1).map fun q => (p.2 :: q.1, q.2))

/-- There are no tables below depth `n`. -/
def shallow (H : LHeap) : Nat → Nat → Bool
  | 0, a => (H.kids a).isEmpty
  | n + 1, a => (H.kids a).all (shallow H n)

theorem mem_pathsOf {H : LHeap} : ∀ {n a : Nat} {π : List Nat} {b : Nat}, shallow H n a = true → H.at a π = some b → (π, b) ∈ pathsOf H n a
  | 0, a, [], b, _, h => by cases h; simp [pathsOf]
  | n + 1, a, [], b, _, h => by cases h; simp [pathsOf]
  | 0, a, i :: π, b, hs, h => by
    simp only [shallow, List.isEmpty_iff] at hs
    simp [LHeap.at, hs] at h
  | n + 1, a, i :: π, b, hs, h => by
    simp only [LHeap.at] at h
    split at h
    · next c hc =>
      simp only [shallow, List.all_eq_true] at hs
      have := mem_pathsOf (hs c (List.mem_of_getElem? hc)) h
      simp only [pathsOf, List.mem_cons, List.mem_flatMap, List.mem_map]
      refine .inr ⟨(c, i), ?_, (π, b), this, rfl⟩
      rw [List.mem_iff_getElem?]
      exact ⟨i, by rw [List.getElem?_zipIdx, hc]; simp⟩
    · cases h

theorem docLtab_fine : DocFine preadL (docLtab "m@a1") 5 0 := by
  have whole : EventText "m@lambda".toList "m".toList .presentation "@lambda".toList := EventText.whole (id := ['m']) (ev := "lambda".toList) (by decide) (by decide)
  have area : EventText "m@a1".toList "m".toList .presentation "a1".toList := EventText.area (id := ['m']) (ev := ['a', '1']) (by decide) (by decide)
  have left : EventText "m.left".toList "m".toList .attribution "left".toList := EventText.prop (id := ['m']) (ev := "left".toList) (by decide) (by decide)
  have test : PredFine (docLtab "m@a1") 3 (.tab 14) :=
    .test (l := "$m.left") (op := "==") (r := "10") (t := .eq) (by decide +kernel) (by unfold Word; decide +kernel) (by unfold Word; decide +kernel) (by unfold Word; decide +kernel) (by decide +kernel) (by decide +kernel) (by decide +kernel)
  have test' : PredFine (docLtab "m@a1") 4 (.tab 14) :=
    .test (l := "$m.left") (op := "==") (r := "10") (t := .eq) (by decide +kernel) (by unfold Word; decide +kernel) (by unfold Word; decide +kernel) (by unfold Word; decide +kernel) (by decide +kernel) (by decide +kernel) (by decide +kernel)
  have kids0 : (docLtab "m@a1").kids 0 = [4, 7] := by decide +kernel
  have kids7 : (docLtab "m@a1").kids 7 = [11] := by decide +kernel
  refine ⟨by decide +kernel, by decide +kernel, ⟨⟨.inr ⟨1, by decide +kernel⟩, .inr ⟨2, by decide +kernel⟩, .inr ⟨3, by decide +kernel⟩⟩, by decide +kernel, ?_, ?_⟩, ?_, ?_, ?_⟩
  · rw [show (docLtab "m@a1").items ((docLtab "m@a1").idx 0 4) = [.str "m@lambda", .str "m@a1"] by decide +kernel, List.forall_mem_cons, List.forall_mem_singleton]
    exact ⟨⟨by decide, "m@lambda", _, _, _, 4, rfl, whole, by decide +kernel, by decide +kernel, by decide +kernel⟩,
      by decide, "m@a1", _, _, _, 4, rfl, area, by decide +kernel, by decide +kernel, by decide +kernel⟩
  · rw [show (docLtab "m@a1").items ((docLtab "m@a1").idx 0 6) = [.tab 10] by decide +kernel, List.forall_mem_singleton]
    refine ⟨4, rfl, 10, 16, 17, rfl, by decide +kernel, by decide +kernel, by decide +kernel, by decide +kernel, ?_, ?_⟩
    · rw [show (docLtab "m@a1").items (.tab 16) = [.tab 18] by decide +kernel, List.forall_mem_singleton]
      refine ⟨18, rfl, ⟨"START", "start", .start, "m@a1", by decide +kernel, by unfold Word; decide +kernel, by decide +kernel, by decide +kernel, _, _, _, 4, area, by decide +kernel, by decide +kernel⟩, .inr ?_⟩
      rw [show (docLtab "m@a1").idx 18 3 = .tab 14 by decide +kernel]; exact test'
    · rw [show (docLtab "m@a1").items (.tab 17) = [.tab 19] by decide +kernel, List.forall_mem_singleton]
      exact ⟨19, rfl, ⟨"set", "set", .start, "m.left", by decide +kernel, by unfold Word; decide +kernel, by decide +kernel, by decide +kernel, _, _, _, 4, left, by decide +kernel, by decide +kernel⟩,
        .inr ⟨"20", by decide +kernel⟩, .inr ⟨22, by decide +kernel, .inr ⟨"1s", by decide +kernel⟩, .inl (by decide +kernel)⟩⟩
  · rw [kids0, List.forall_mem_cons, List.forall_mem_singleton]
    refine ⟨⟨by decide +kernel, ?_⟩, by decide +kernel, ?_⟩
    · rw [show (docLtab "m@a1").kind 4 = some .media by decide +kernel]
      refine ⟨.inr ⟨5, by decide +kernel⟩, .inr ⟨6, by decide +kernel⟩, ?_, by decide +kernel⟩
      rw [show (docLtab "m@a1").pairs ((docLtab "m@a1").idx 4 3) = [(.str "src", .str "a.mp4"), (.str "left", .num "10"), (.str "transIn", .tab 20)] by decide +kernel,
        List.forall_mem_cons, List.forall_mem_cons, List.forall_mem_singleton]
      refine ⟨⟨"src", rfl, .inr ⟨by unfold Word; decide +kernel, "a.mp4", rfl⟩⟩, ⟨"left", rfl, .inr ⟨by unfold Word; decide +kernel, "10", rfl⟩⟩,
        "transIn", rfl, .inl ⟨by unfold Word; decide +kernel, 20, rfl, ⟨"fade", by decide +kernel⟩, ?_⟩⟩
      simp only [List.forall_mem_cons, List.not_mem_nil, false_imp_iff, implies_true, and_true]
      refine ⟨.inl (by decide +kernel), .inr ⟨"2s", by decide +kernel⟩, .inl (by decide +kernel), .inl (by decide +kernel), .inl (by decide +kernel), .inl (by decide +kernel),
        .inl (by decide +kernel), .inl (by decide +kernel), .inl (by decide +kernel), .inl (by decide +kernel)⟩
    · rw [show (docLtab "m@a1").kind 7 = some .switch by decide +kernel]
      refine ⟨⟨⟨.inr ⟨8, by decide +kernel⟩, .inr ⟨9, by decide +kernel⟩⟩, by decide +kernel, ?_⟩, ?_⟩
      · rw [show (docLtab "m@a1").items ((docLtab "m@a1").idx 7 4) = [.tab 12] by decide +kernel, List.forall_mem_singleton]
        refine ⟨12, "n", 11, rfl, by decide +kernel, by decide +kernel, by decide +kernel, ?_⟩
        rw [show (docLtab "m@a1").idx 12 2 = .tab 13 by decide +kernel]
        refine .and (s := "and") (by decide +kernel) (by unfold Word; decide +kernel) ?_ ?_
        · rw [show (docLtab "m@a1").idx 13 2 = .tab 14 by decide +kernel]; exact test
        · rw [show (docLtab "m@a1").idx 13 3 = .tab 15 by decide +kernel]; exact .const (b := true) (by decide +kernel)
      · rw [kids7, List.forall_mem_singleton]
        refine ⟨by decide +kernel, ?_⟩
        rw [show (docLtab "m@a1").kind 11 = some .media by decide +kernel]
        exact ⟨.inl (by decide +kernel), .inl (by decide +kernel), by rw [show (docLtab "m@a1").pairs ((docLtab "m@a1").idx 11 3) = [] by decide +kernel]; simp, by decide +kernel⟩
  · intro π π' a a' h h' e
    have m := mem_pathsOf (n := 3) (by decide +kernel) h
    have m' := mem_pathsOf (n := 3) (by decide +kernel) h'
    have key : ∀ p ∈ pathsOf (docLtab "m@a1") 3 0, ∀ p' ∈ pathsOf (docLtab "m@a1") 3 0, (docLtab "m@a1").id p.2 = (docLtab "m@a1").id p'.2 → p.1 = p'.1 := by decide +kernel
    exact key _ m _ m' e
  · intro π a h hne
    have m := mem_pathsOf (n := 3) (by decide +kernel) h
    have key : ∀ p ∈ pathsOf (docLtab "m@a1") 3 0, p.1 ≠ [] → (docLtab "m@a1").id p.2 ≠ some "__root__" ∧ (docLtab "m@a1").id p.2 ≠ some "__settings__" := by decide +kernel
    exact key _ m hne

/-- It is accepted. -/
example : ∃ t, parseLtab preadL (docLtab "m@a1") 5 (.tab 0) = .ok (some t) :=
  C58_partial preadL (fun _ _ h => Nat.succ.inj h) (fun _ => Nat.succ_ne_zero _) _ 5 0 docLtab_fine

/-! ## Mistakes that end the process -/

/-- A document with the given children, ports and links of the outermost context, and further tables from address 4 on. -/
def docBad (ports kids links : List LVal) (more : List (List (LKey × LVal))) : LHeap := ltabOf
  ([ arr [.str "context", .str "top", .nil, .tab 1, .tab 2, .tab 3], arr ports, arr kids, arr links ] ++ more)

/-- How the document ends. -/
def loadBad (ports kids links : List LVal) (more : List (List (LKey × LVal))) : Verdict :=
  verdict (parseLtab preadL (docBad ports kids links more) 200 (.tab 0))

/-- What the examples below vary is accepted. -/
example : loadBad [.str "m@lambda"] [.tab 4] [.tab 5] [arr [.str "media", .str "m"], arr [.tab 6, .tab 7], arr [.tab 8], arr [.tab 9],
    arr [.str "start", .str "m@lambda"], arr [.str "stop", .str "m@lambda"]] = .accepted := by decide +kernel

/-- A child with an unknown tag ends the process. -/
theorem C58_fails_tag : loadBad [] [.tab 4] [] [arr [.str "area", .str "m"]] = .crash := by decide +kernel

/-- Two objects with the same id. -/
theorem C58_fails_id : loadBad [] [.tab 4, .tab 5] [] [arr [.str "media", .str "m"], arr [.str "media", .str "m"]] = .crash := by decide +kernel

/-- A child with the id of the outermost context. -/
theorem C58_fails_top : loadBad [] [.tab 4] [] [arr [.str "media", .str "top"]] = .crash := by decide +kernel

/-- A port to an area that does not exist. -/
theorem C58_fails_port : loadBad [.str "m@a"] [.tab 4] [] [arr [.str "media", .str "m"]] = .crash := by decide +kernel

/-- A port to a child that does not exist: a null pointer is used. -/
theorem C58_fails_child : loadBad [.str "x@lambda"] [.tab 4] [] [arr [.str "media", .str "m"]] = .undefined := by decide +kernel

/-- A link without actions. -/
theorem C58_fails_link : loadBad [] [.tab 4] [.tab 5] [arr [.str "media", .str "m"], arr [.tab 6, .tab 7], arr [.tab 8], arr [],
    arr [.str "start", .str "m@lambda"]] = .crash := by decide +kernel

/-- A condition with an unknown transition. -/
theorem C58_fails_trans : loadBad [] [.tab 4] [.tab 5] [arr [.str "media", .str "m"], arr [.tab 6, .tab 7], arr [.tab 8], arr [.tab 9],
    arr [.str "begin", .str "m@lambda"], arr [.str "stop", .str "m@lambda"]] = .crash := by decide +kernel

/-- A property whose value is not a text. -/
theorem C58_fails_prop : loadBad [] [.tab 4] [] [arr [.str "media", .str "m", .tab 5], [(.str "visible", .bool true)]] = .crash := by decide +kernel

/-- A transition given by its name, as in the XML syntax. -/
theorem C58_fails_transition : loadBad [] [.tab 4] [] [arr [.str "media", .str "m", .tab 5], [(.str "transIn", .str "fade")]] = .crash := by decide +kernel

/-- A rule for a child that the switch does not have. -/
theorem C58_fails_rule : loadBad [] [.tab 4] [] [arr [.str "switch", .str "s", .nil, .tab 5], arr [.tab 6], arr [.str "m", .tab 7], arr [.bool true]] = .crash := by
  decide +kernel

/-- A predicate with an unknown operator. -/
theorem C58_fails_operator : loadBad [] [.tab 4] [] [arr [.str "switch", .str "s", .tab 8, .tab 5], arr [.tab 6], arr [.str "m", .tab 7],
    arr [.str "1", .str "=", .str "1"], arr [.tab 9], arr [.str "media", .str "m"]] = .crash := by decide +kernel

/-- These are errors that are reported: a wrong tag of the document, a missing id, a time that cannot be read, a property without name. -/
example : verdict (parseLtab preadL (ltabOf [arr [.str "media", .str "top"]]) 200 (.tab 0)) = .rejected ∧ loadBad [] [.tab 4] [] [arr [.str "media"]] = .rejected ∧
    loadBad [] [.tab 4] [] [arr [.str "media", .str "m", .nil, .tab 5], arr [.tab 6], arr [.str "a", .str "soon"]] = .rejected ∧
    loadBad [] [.tab 4] [] [arr [.str "media", .str "m", .tab 5], arr [.str "x"]] = .rejected := by decide +kernel

end Ginga
