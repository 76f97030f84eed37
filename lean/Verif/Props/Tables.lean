import Verif.Props.C45
import Verif.Props.C14
/-!
# The words of NCL

The grammar and the reserved words, written out independently of the parser's tables (C44, C45, C46, C53).
-/
namespace Ginga

/-- A kind of element: where it may be; mandatory attributes that are names; other mandatory attributes; optional attributes that are names; other optional attributes. -/
structure Grammar where
  tag : String
  parents : List String
  names : List String := []
  texts : List String := []
  optNames : List String := []
  optTexts : List String := []
  deriving DecidableEq, Repr

/-- The elements of NCL. -/
def grammar : List Grammar :=
  [⟨"ncl", [], [], [], ["id"], ["title", "schemaLocation", "xmlns"]⟩,
   ⟨"head", ["ncl"], [], [], [], []⟩,
   ⟨"regionBase", ["head"], [], [], ["id"], ["device", "region"]⟩,
   ⟨"region", ["region", "regionBase"], ["id"], [], [], ["title", "left", "right", "top", "bottom", "height", "width", "zIndex"]⟩,
   ⟨"descriptorBase", ["head"], [], [], ["id"], []⟩,
   ⟨"descriptor", ["descriptorBase"], ["id"], [], ["region"],
     ["player", "explicitDur", "freeze", "moveLeft", "moveRight", "moveUp", "moveDown", "focusIndex", "focusBorderColor", "focusBorderWidth", "focusBorderTransparency", "focusSrc", "focusSelSrc",
       "selBorderColor", "transIn", "transOut", "left", "right", "top", "bottom", "height", "width", "zIndex"]⟩,
   ⟨"descriptorParam", ["descriptor"], ["name"], ["value"], [], []⟩,
   ⟨"connectorBase", ["head"], [], [], ["id"], []⟩,
   ⟨"causalConnector", ["connectorBase"], ["id"], [], [], []⟩,
   ⟨"connectorParam", ["causalConnector"], [], [], ["name"], ["type"]⟩,
   ⟨"compoundCondition", ["causalConnector", "compoundCondition"], [], [], [], ["operator", "delay"]⟩,
   ⟨"simpleCondition", ["causalConnector", "compoundCondition"], ["role"], [], [], ["eventType", "key", "transition", "delay", "min", "max", "qualifier"]⟩,
   ⟨"compoundAction", ["causalConnector", "compoundAction"], [], [], [], ["operator", "delay"]⟩,
   ⟨"simpleAction", ["causalConnector", "compoundAction"], ["role"], [], [],
     ["eventType", "actionType", "duration", "value", "delay", "min", "max", "qualifier", "repeat", "repeatDelay", "by"]⟩,
   ⟨"compoundStatement", ["compoundCondition", "compoundStatement"], [], ["operator"], [], ["isNegated"]⟩,
   ⟨"assessmentStatement", ["compoundCondition", "compoundStatement"], [], ["comparator"], [], []⟩,
   ⟨"attributeAssessment", ["assessmentStatement"], ["role"], [], [], ["eventType", "key", "attributeType", "offset"]⟩,
   ⟨"valueAssessment", ["assessmentStatement"], [], ["value"], [], []⟩,
   ⟨"ruleBase", ["head"], [], [], ["id"], []⟩,
   ⟨"compositeRule", ["ruleBase", "compositeRule"], ["id"], ["operator"], [], []⟩,
   ⟨"rule", ["ruleBase", "compositeRule"], ["id", "var"], ["comparator", "value"], [], []⟩,
   ⟨"transitionBase", ["head"], [], [], ["id"], []⟩,
   ⟨"transition", ["transitionBase"], ["id", "type"], [], ["subtype"],
     ["dur", "startProgress", "endProgress", "direction", "fadeColor", "horzRepeat", "vertRepeat", "borderWidth", "borderColor"]⟩,
   ⟨"importBase", ["connectorBase", "descriptorBase", "regionBase", "ruleBase", "transitionBase", "fontBase"], ["alias"], ["documentURI"], [], ["region", "baseId"]⟩,
   ⟨"fontBase", ["head"], [], [], [], []⟩,
   ⟨"font", ["fontBase"], [], ["fontFamily", "src"], [], ["fontStyle", "fontWeight"]⟩,
   ⟨"body", ["ncl"], [], [], ["id"], []⟩,
   ⟨"context", ["body", "context", "switch"], ["id"], [], ["refer"], []⟩,
   ⟨"port", ["body", "context"], ["id", "component"], [], ["interface"], []⟩,
   ⟨"switch", ["body", "context", "switch"], ["id"], [], ["refer"], []⟩,
   ⟨"switchPort", ["switch"], ["id"], [], [], []⟩,
   ⟨"mapping", ["switchPort"], ["component"], [], ["interface"], []⟩,
   ⟨"bindRule", ["switch"], ["constituent", "rule"], [], [], []⟩,
   ⟨"defaultComponent", ["switch"], ["component"], [], [], []⟩,
   ⟨"media", ["body", "context", "switch"], ["id"], [], ["descriptor", "refer"], ["src", "type", "instance"]⟩,
   ⟨"area", ["media"], ["id"], [], [], ["begin", "end", "label"]⟩,
   ⟨"property", ["body", "context", "media"], ["name"], [], [], ["value"]⟩,
   ⟨"link", ["body", "context"], ["xconnector"], [], ["id"], []⟩,
   ⟨"linkParam", ["link"], ["name"], ["value"], [], []⟩,
   ⟨"bind", ["link"], ["role", "component"], [], ["interface"], []⟩,
   ⟨"bindParam", ["bind"], ["name"], ["value"], [], []⟩]

/-- All attributes of a kind of element. -/
def Grammar.all (g : Grammar) : List String := g.names ++ g.texts ++ g.optNames ++ g.optTexts

/-- The element is as the grammar says. -/
structure Grammatical (v : Visit) : Prop where
  entry : ∃ g ∈ grammar, g.tag = v.elt.tag ∧
    /- it is where it may be -/
    (g.parents ≠ [] → ∃ p ∈ g.parents, v.parent = some p) ∧
    /- its attributes are known -/
    (∀ a ∈ v.elt.attrs, a.1 ∈ g.all) ∧
    /- those it must have are there -/
    (∀ n, n ∈ g.names ∨ n ∈ g.texts → ∃ i, v.elt.prop n = some i) ∧
    /- those that are names are nonempty, of the characters allowed in names -/
    (∀ n i, n ∈ g.names ∨ n ∈ g.optNames → v.elt.prop n = some i → i ≠ "" ∧ validName i = true)
  /-- and so are its children -/
  children : ∀ c ∈ v.elt.children, ∃ g ∈ grammar, g.tag = c.tag ∧ v.elt.tag ∈ g.parents

/-- The row of the grammar for a row of the table of the parser. -/
def EltSyn.grammar (e : EltSyn) : Grammar where
  tag := e.tag
  parents := e.parents
  names := (e.attrs.filter fun p => p.2.required && p.2.isName).map (·.1)
  texts := (e.attrs.filter fun p => p.2.required && !p.2.isName).map (·.1)
  optNames := (e.attrs.filter fun p => !p.2.required && p.2.isName).map (·.1)
  optTexts := (e.attrs.filter fun p => !p.2.required && !p.2.isName).map (·.1)

theorem table_grammar : syntaxTable.map EltSyn.grammar = grammar := by decide +kernel

theorem table_flags : ∀ e ∈ syntaxTable, ∀ p ∈ e.attrs, p.2.nonempty = p.2.isName := by decide +kernel

/-- **C45**, the grammar: the elements that the parser accepts one by one are those that the grammar of NCL allows. -/
theorem C45_grammar (v : Visit) : WellFormed v ↔ Grammatical v := by
  have fwd : ∀ e ∈ syntaxTable, e.grammar ∈ grammar := fun e he => by rw [← table_grammar]; exact List.mem_map_of_mem he
  have bwd : ∀ g ∈ grammar, ∃ e ∈ syntaxTable, e.grammar = g := fun g hg => by rw [← table_grammar] at hg; exact List.mem_map.1 hg
  have mAll : ∀ (e : EltSyn) n, n ∈ e.grammar.all ↔ ∃ fl, (n, fl) ∈ e.attrs := by
    intro e n
    simp only [Grammar.all, EltSyn.grammar, List.mem_append, List.mem_map, List.mem_filter, Bool.and_eq_true, Bool.not_eq_true', Prod.exists, exists_and_right, exists_eq_right]
    constructor
    · rintro (((⟨fl, h, -⟩ | ⟨fl, h, -⟩) | ⟨fl, h, -⟩) | ⟨fl, h, -⟩) <;> exact ⟨fl, h⟩
    · rintro ⟨fl, h⟩
      cases h1 : fl.required <;> cases h2 : fl.isName
      · exact .inr ⟨fl, h, h1, h2⟩
      · exact .inl (.inr ⟨fl, h, h1, h2⟩)
      · exact .inl (.inl (.inr ⟨fl, h, h1, h2⟩))
      · exact .inl (.inl (.inl ⟨fl, h, h1, h2⟩))
  have mReq : ∀ (e : EltSyn) n, n ∈ e.grammar.names ∨ n ∈ e.grammar.texts ↔ ∃ fl, (n, fl) ∈ e.attrs ∧ fl.required = true := by
    intro e n
    simp only [EltSyn.grammar, List.mem_map, List.mem_filter, Bool.and_eq_true, Bool.not_eq_true', Prod.exists, exists_and_right, exists_eq_right]
    constructor
    · rintro (⟨fl, h, h1, -⟩ | ⟨fl, h, h1, -⟩) <;> exact ⟨fl, h, h1⟩
    · rintro ⟨fl, h, h1⟩
      cases h2 : fl.isName
      · exact .inr ⟨fl, h, h1, h2⟩
      · exact .inl ⟨fl, h, h1, h2⟩
  have mName : ∀ (e : EltSyn) n, n ∈ e.grammar.names ∨ n ∈ e.grammar.optNames ↔ ∃ fl, (n, fl) ∈ e.attrs ∧ fl.isName = true := by
    intro e n
    simp only [EltSyn.grammar, List.mem_map, List.mem_filter, Bool.and_eq_true, Bool.not_eq_true', Prod.exists, exists_and_right, exists_eq_right]
    constructor
    · rintro (⟨fl, h, -, h1⟩ | ⟨fl, h, -, h1⟩) <;> exact ⟨fl, h, h1⟩
    · rintro ⟨fl, h, h1⟩
      cases h2 : fl.required
      · exact .inr ⟨fl, h, h2, h1⟩
      · exact .inl ⟨fl, h, h2, h1⟩
  constructor
  · rintro ⟨⟨e, he, h1, h2, h3, h4, h5⟩, h6⟩
    refine ⟨⟨e.grammar, fwd e he, h1, h2, fun a ha => (mAll e _).2 (h3 a ha), fun n hn => ?_, fun n i hn hi => ?_⟩, fun c hc => ?_⟩
    · obtain ⟨fl, hf, hr⟩ := (mReq e n).1 hn
      exact h4 n fl hf hr
    · obtain ⟨fl, hf, hr⟩ := (mName e n).1 hn
      obtain ⟨a, b⟩ := h5 n fl i hf hi
      exact ⟨a ((table_flags e he _ hf).trans hr), b hr⟩
    · obtain ⟨e', he', a, b⟩ := h6 c hc
      exact ⟨e'.grammar, fwd e' he', a, b⟩
  · rintro ⟨⟨g, hg, h1, h2, h3, h4, h5⟩, h6⟩
    obtain ⟨e, he, rfl⟩ := bwd g hg
    refine ⟨⟨e, he, h1, h2, fun a ha => (mAll e _).1 (h3 a ha), fun n fl hn hr => h4 n ((mReq e n).2 ⟨fl, hn, hr⟩), fun n fl i hn hi => ⟨fun hx => ?_, fun hx => ?_⟩⟩, fun c hc => ?_⟩
    · exact (h5 n i ((mName e n).2 ⟨fl, hn, (table_flags e he _ hn).symm.trans hx⟩) hi).1
    · exact (h5 n i ((mName e n).2 ⟨fl, hn, hx⟩) hi).2
    · obtain ⟨g', hg', a, b⟩ := h6 c hc
      obtain ⟨e', he', rfl⟩ := bwd g' hg'
      exact ⟨e', he', a, b⟩

/-- The reserved roles: whether the role is a condition, and what it is about. -/
def roleMeaning : List (String × Bool × EType × Trans) :=
  [("onBegin", true, .presentation, .start), ("onEnd", true, .presentation, .stop), ("onAbort", true, .presentation, .abort), ("onPause", true, .presentation, .pause),
   ("onResume", true, .presentation, .resume), ("onSelection", true, .selection, .start), ("onBeginSelection", true, .selection, .start), ("onEndSelection", true, .selection, .stop),
   ("onBeginAttribution", true, .attribution, .start), ("onEndAttribution", true, .attribution, .stop), ("onLookAt", true, .lookat, .start), ("onLookAway", true, .lookat, .stop),
   ("start", false, .presentation, .start), ("stop", false, .presentation, .stop), ("abort", false, .presentation, .abort), ("pause", false, .presentation, .pause),
   ("resume", false, .presentation, .resume), ("set", false, .attribution, .start)]

/-- **C46**, the reserved roles. -/
theorem C46_roles (role : String) (m : Bool × EType × Trans) : roleInfo role = some m ↔ (role, m) ∈ roleMeaning := by
  have h1 : ∀ p ∈ roleTable, ("on".toList.isPrefixOf p.1.toList, p.2.1, p.2.2) = (roleInfo p.1).getD (false, .presentation, .start) := by decide +kernel
  have h2 : ∀ q ∈ roleMeaning, roleInfo q.1 = some q.2 := by decide +kernel
  have h3 : ∀ p ∈ roleTable, (p.1, "on".toList.isPrefixOf p.1.toList, p.2.1, p.2.2) ∈ roleMeaning := by decide +kernel
  constructor
  · intro h
    unfold roleInfo at h
    obtain ⟨p, hp, rfl⟩ := Option.map_eq_some_iff.1 h
    have hr : p.1 = role := by simpa using List.find?_some hp
    subst hr
    exact h3 p (List.mem_of_find?_eq_some hp)
  · intro h
    exact h2 _ h

/-- **C44**, **C53**, the comparators: each name stands for the comparison of texts one expects; there are no other names. -/
theorem C44_comparators (c : String) (t : Test) : testOf c = some t ↔
    (c = "eq" ∧ ∀ a b, t.holds a b ↔ a = b) ∨ (c = "ne" ∧ ∀ a b, t.holds a b ↔ a ≠ b) ∨ (c = "lt" ∧ ∀ a b, t.holds a b ↔ a < b) ∨
    (c = "lte" ∧ ∀ a b, t.holds a b ↔ (a < b ∨ a = b)) ∨ (c = "gt" ∧ ∀ a b, t.holds a b ↔ b < a) ∨ (c = "gte" ∧ ∀ a b, t.holds a b ↔ (b < a ∨ a = b)) := by
  constructor
  · intro h
    unfold testOf at h
    repeat' split at h
    all_goals first
      | cases h
      | skip
    all_goals simp_all [Test.holds]
  · intro h
    rcases h with ⟨rfl, h⟩ | ⟨rfl, h⟩ | ⟨rfl, h⟩ | ⟨rfl, h⟩ | ⟨rfl, h⟩ | ⟨rfl, h⟩ <;>
    · have e1 := h "a" "b"
      have e2 := h "b" "a"
      have e3 := h "a" "a"
      clear h
      cases t <;> first
        | rfl
        | exact absurd (And.intro e1 (And.intro e2 e3)) (by decide +kernel)

/-- **C46**, **C53**: the names of event types, of transitions and of connectives. -/
theorem C46_words (s : String) :
    (∀ t, eventTypeOf s = some t ↔ (s, t) ∈ [("presentation", EType.presentation), ("attribution", .attribution), ("selection", .selection), ("lookat", .lookat)]) ∧
    (∀ t, transitionOf s = some t ↔ (s, t) ∈ [("start", Trans.start), ("starts", .start), ("pause", .pause), ("pauses", .pause), ("resume", .resume), ("resumes", .resume),
      ("stop", .stop), ("stops", .stop), ("abort", .abort), ("aborts", .abort)]) ∧
    (∀ c, connOf s = some c ↔ (s, c) ∈ [("not", Conn.not), ("and", .and), ("or", .or)]) := by
  refine ⟨fun t => ?_, fun t => ?_, fun c => ?_⟩
  · constructor
    · intro h
      unfold eventTypeOf at h
      repeat' split at h
      all_goals first
        | (cases h; simp_all)
        | cases h
    · intro h
      simp only [List.mem_cons, Prod.mk.injEq, List.not_mem_nil, or_false] at h
      rcases h with ⟨rfl, rfl⟩ | ⟨rfl, rfl⟩ | ⟨rfl, rfl⟩ | ⟨rfl, rfl⟩ <;> decide +kernel
  · constructor
    · intro h
      unfold transitionOf at h
      repeat' split at h
      all_goals first
        | cases h
        | skip
      all_goals (next hs => rcases hs with rfl | rfl <;> simp)
    · intro h
      simp only [List.mem_cons, Prod.mk.injEq, List.not_mem_nil, or_false] at h
      rcases h with ⟨rfl, rfl⟩ | ⟨rfl, rfl⟩ | ⟨rfl, rfl⟩ | ⟨rfl, rfl⟩ | ⟨rfl, rfl⟩ | ⟨rfl, rfl⟩ | ⟨rfl, rfl⟩ | ⟨rfl, rfl⟩ | ⟨rfl, rfl⟩ | ⟨rfl, rfl⟩ <;> decide +kernel
  · constructor
    · intro h
      unfold connOf at h
      repeat' split at h
      all_goals first
        | (cases h; simp_all)
        | cases h
    · intro h
      simp only [List.mem_cons, Prod.mk.injEq, List.not_mem_nil, or_false] at h
      rcases h with ⟨rfl, rfl⟩ | ⟨rfl, rfl⟩ | ⟨rfl, rfl⟩ <;> decide +kernel

end Ginga
