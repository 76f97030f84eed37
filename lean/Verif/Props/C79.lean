import Verif.Proofs.NotK
import Verif.Proofs.Words
import Verif.Proofs.ReachNote
import Verif.Props.C53
/-!
# C79: the connectors of an accepted document are well formed

Conditions have the roles of conditions and actions those of actions; a reserved role keeps its meaning; a role that is not reserved says what it is about; an action
that sets a property says the value; and every connector has a condition and an action. This holds for imported connectors too.
-/
namespace Ginga

/-- Every condition or action of the document, or of a document it imports, is about one transition of events of one type. -/
theorem C79_role {E : PRead} (hinj : ∀ i j, E.addr i = E.addr j → i = j) {n : Nat} {W H : Int} {z : Nat} {x : Xml} {t : PS} (h : parseXml E n W H z x = .ok (some t))
    {al : List (String × String)} {pt : Option String} {xs : List Xml} (hr : Reached E x al pt xs) {y : Xml} (hy : y ∈ xs) (ht : y.tag = "simpleCondition" ∨ y.tag = "simpleAction") :
    ∃ ty tr, RoleMeans y ty tr ∧ (y.tag = "simpleAction" → ty = .attribution → y.prop "value" ≠ none) := by
  obtain ⟨ns, f, m, u, he⟩ := doc_treeP hinj (linkK_extra E _ _) (fun f reg hreg => linkK_init f W H z reg 5) h
  have hd := he.tree
  obtain ⟨k, nt, g1, g2, -⟩ := hd.note_of hr hy
  have htag : nt.tag = y.tag := by unfold Note.tag; rw [g2]
  have hpu : nt.push = .simpleCondition := by
    unfold Note.push; rw [htag]
    rcases ht with ht | ht <;> rw [ht] <;> decide +kernel
  obtain ⟨r, hro⟩ := he.extra.role k nt g1 hpu
  have hpl : ∀ a, a ≠ "id" → nt.get a = y.prop a := fun a ha => by
    rw [← g2]; exact table_plain _ role_plain (hd.ok k nt g1) (by rw [htag]; simpa using ht) ha
  obtain ⟨c1, c2⟩ := simpleRole_congr hpl (nt.tag == "simpleCondition") ((nt.get "role").getD "") (nt.parent.getD 0)
  rw [c1, hpl "role" (by decide), htag] at hro
  obtain ⟨g, -⟩ := simpleRole_some hro
  refine ⟨r.typ, r.tr, kindOf_means (by unfold kindOf; rw [← g]; simp only [beq_iff_eq]; rfl), fun hta hty hv => ?_⟩
  unfold simpleRole at hro
  rw [g] at hro
  dsimp only at hro
  rw [if_pos ⟨by rw [hta]; decide, hty, hv⟩] at hro
  cases hro

/-- The type and the transition are those. -/
theorem RoleMeans.uniq {y : Xml} {ty ty' : EType} {tr tr' : Trans} (h : RoleMeans y ty tr) (h' : RoleMeans y ty' tr') : ty = ty' ∧ tr = tr' := by
  have hT : ∀ a b, typeWord a = typeWord b → a = b := by intro a b; cases a <;> cases b <;> simp [typeWord]
  have hR : ∀ a b : Trans, ∀ w, (w = transWord a ∨ w = transWord a ++ "s") → (w = transWord b ∨ w = transWord b ++ "s") → a = b := by
    intro a b w h1 h2
    have : ∀ a b : Trans, (transWord a = transWord b → a = b) ∧ (transWord a = transWord b ++ "s" → a = b) ∧ (transWord a ++ "s" = transWord b → a = b) ∧ (transWord a ++ "s" = transWord b ++ "s" → a = b) := by
      intro a b; cases a <;> cases b <;> decide
    obtain ⟨k1, k2, k3, k4⟩ := this a b
    rcases h1 with rfl | rfl <;> rcases h2 with h2 | h2
    · exact k1 h2
    · exact k2 h2
    · exact k3 h2
    · exact k4 h2
  have htab : ∀ p ∈ conditionRoles ++ actionRoles, ∀ q ∈ conditionRoles ++ actionRoles, p.1 = q.1 → p = q := by decide +kernel
  have hsub : ∀ p, p ∈ (if y.tag = "simpleCondition" then conditionRoles else actionRoles) → p ∈ conditionRoles ++ actionRoles := by
    intro p hp; split at hp <;> simp [hp]
  rcases h.role with h1 | ⟨h1, h2, h3⟩
  · rcases h'.role with h4 | ⟨h4, -, -⟩
    · have := htab _ (hsub _ h1) _ (hsub _ h4) rfl
      simpa using this
    · exact absurd rfl (h4 _ (hsub _ h1))
  · obtain ⟨v, hv⟩ : ∃ v, y.prop "eventType" = some v := by cases hh : y.prop "eventType" with | none => exact absurd hh h2 | some v => exact ⟨v, rfl⟩
    obtain ⟨w, hw⟩ : ∃ w, y.prop (if y.tag = "simpleCondition" then "transition" else "actionType") = some w := by
      cases hh : y.prop (if y.tag = "simpleCondition" then "transition" else "actionType") with | none => exact absurd hh h3 | some v => exact ⟨v, rfl⟩
    exact ⟨hT _ _ ((h.eventType v hv).symm.trans (h'.eventType v hv)), hR _ _ w (h.transition w hw) (h'.transition w hw)⟩

mutual
theorem rolesIn_sub (c : Xml) : ∀ (up : List Xml) (x : Xml), SubElt c x → ∀ y ∈ rolesIn up x, SubElt c y.1
  | up, .elem tag attrs cs, hc, y, hy => by
    rw [rolesIn] at hy
    rcases List.mem_append.1 hy with hy | hy
    · split at hy
      · obtain rfl : y = _ := by simpa using hy
        exact hc
      · cases hy
    · exact rolesInAll_sub c _ cs (fun w hw => .child hc hw) y hy
theorem rolesInAll_sub (c : Xml) : ∀ (up : List Xml) (xs : List Xml), (∀ w ∈ xs, SubElt c w) → ∀ y ∈ rolesInAll up xs, SubElt c y.1
  | _, [], _, y, hy => by rw [rolesInAll] at hy; cases hy
  | up, w :: ws, hc, y, hy => by
    rw [rolesInAll] at hy
    rcases List.mem_append.1 hy with hy | hy
    · exact rolesIn_sub c up w (hc w (by simp)) y hy
    · exact rolesInAll_sub c up ws (fun v hv => hc v (by simp [hv])) y hy
end

/-- Every connector, imported or not, has a condition and an action. -/
theorem C79_connector {E : PRead} (hinj : ∀ i j, E.addr i = E.addr j → i = j) {n : Nat} {W H : Int} {z : Nat} {x : Xml} {t : PS} (h : parseXml E n W H z x = .ok (some t))
    {al : List (String × String)} {pt : Option String} {xs : List Xml} (hr : Reached E x al pt xs) {c : Xml} (hc : c ∈ xs) (ht : c.tag = "causalConnector") :
    (∃ y, SubElt c y ∧ y.tag = "simpleCondition") ∧ ∃ y, SubElt c y ∧ y.tag = "simpleAction" := by
  obtain ⟨ns, f, m, u, he⟩ := doc_treeP hinj ((linkK_extra E _ _).and (connK_rides E _ _).extra) (fun f reg hreg => ⟨linkK_init f W H z reg 5, fun j n hj => by simp at hj⟩) h
  have hd := he.tree
  obtain ⟨hlk, hck⟩ := he.extra
  obtain ⟨k, nt, g1, g2, -⟩ := hd.note_of hr hc
  have htag : nt.tag = "causalConnector" := by unfold Note.tag; rw [g2]; exact ht
  have hsub : ∀ y ∈ rolesInAll [] c.children, SubElt c y.1 := rolesInAll_sub c [] c.children fun w hw => .child .self hw
  obtain ⟨y, a1, a2, a3⟩ := hck.full hd he.j hlk g1 htag true
  obtain ⟨y', b1, b2, b3⟩ := hck.full hd he.j hlk g1 htag false
  rw [g2] at a1 b1
  refine ⟨⟨y.1, hsub y a1, by simpa using a3⟩, y'.1, hsub y' b1, ?_⟩
  rcases b2 with b2 | b2
  · rw [b2] at b3; exact absurd b3 (by decide)
  · exact b2

theorem connOf_word {s : String} (h : (connOf s).isSome = true) : s = "not" ∨ s = "and" ∨ s = "or" := by
  unfold connOf at h
  repeat' split at h
  all_goals first | (cases h; done) | (simp [*])

/-- Every compound statement, imported or not, has a known operator and contains something: two statements at least, or, if it is a negation, exactly one. -/
theorem C79_statement {E : PRead} (hinj : ∀ i j, E.addr i = E.addr j → i = j) {n : Nat} {W H : Int} {z : Nat} {x : Xml} {t : PS} (h : parseXml E n W H z x = .ok (some t))
    {al : List (String × String)} {pt : Option String} {xs : List Xml} (hr : Reached E x al pt xs) {c : Xml} (hc : c ∈ xs) (ht : c.tag = "compoundStatement") :
    c.children ≠ [] ∧ (c.prop "operator" = some "not" ∧ c.children.length = 1 ∨ (c.prop "operator" = some "and" ∨ c.prop "operator" = some "or") ∧ 2 ≤ c.children.length) := by
  obtain ⟨ns, f, m, u, he⟩ := doc_treeP hinj ((wordK_extra E _ _).and ((stmtK_rides E _ _).extra.and ((stmtLenK_rides E _ _).and (notK_rides E _ _)).extra))
    (fun f reg hreg => ⟨fun j n hj => by simp at hj, fun j n hj => by simp at hj, fun j n hj => by simp at hj, NotK.init W H z reg 5⟩) h
  have hd := he.tree
  obtain ⟨hw, hs, hl, hn⟩ := he.extra
  obtain ⟨π, hpi⟩ := he.pi
  obtain ⟨k, nt, g1, g2, -⟩ := hd.note_of hr hc
  have htag : nt.tag = "compoundStatement" := by unfold Note.tag; rw [g2]; exact ht
  have a1 := hs.full hd k nt g1 htag
  have a2 := hl.full hd g1 htag
  obtain ⟨op, a3, a4⟩ := (hw k nt g1).1 (.inl htag)
  rw [table_plain _ stmt_plain (hd.ok k nt g1) (by rw [htag]; decide) (by decide), g2] at a3
  have a5 := hn.full hpi hd g1 htag
  rw [g2] at a1 a2 a5
  have hop := connOf_word a4
  refine ⟨a1, ?_⟩
  by_cases hn : op = "not"
  · have ho : c.prop "operator" = some "not" := hn ▸ a3
    have := a5 ho
    have hp := List.length_pos_iff.2 a1
    exact .inl ⟨ho, by omega⟩
  · exact .inr ⟨(hop.resolve_left hn).imp (fun h : op = "and" => h ▸ a3) (fun h : op = "or" => h ▸ a3), a2 (by rw [a3]; exact fun h => hn (Option.some.inj h))⟩

/-- Every rule and composite rule, imported or not, has a known comparator or operator. -/
theorem C79_rule {E : PRead} (hinj : ∀ i j, E.addr i = E.addr j → i = j) {n : Nat} {W H : Int} {z : Nat} {x : Xml} {t : PS} (h : parseXml E n W H z x = .ok (some t))
    {al : List (String × String)} {pt : Option String} {xs : List Xml} (hr : Reached E x al pt xs) {c : Xml} (hc : c ∈ xs) :
    (c.tag = "rule" → ∃ w, c.prop "comparator" = some w ∧ w ∈ ["eq", "ne", "lt", "lte", "gt", "gte"]) ∧
    (c.tag = "compositeRule" → ∃ w, c.prop "operator" = some w ∧ w ∈ ["and", "or", "not"]) := by
  obtain ⟨ns, f, m, u, he⟩ := doc_treeP hinj (wordK_extra E _ _) (fun f reg hreg => fun j n hj => by simp at hj) h
  have hd := he.tree
  obtain ⟨k, nt, g1, g2, -⟩ := hd.note_of hr hc
  have htag : nt.tag = c.tag := by unfold Note.tag; rw [g2]
  have hg : ∀ {a}, (c.tag = "rule" ∨ c.tag = "compositeRule") → a ≠ "id" → nt.get a = c.prop a := fun ht ha => by
    rw [← g2]; exact table_plain ["rule", "compositeRule"] (fun e he ht => table_rule_plain e he (by simpa using ht)) (hd.ok k nt g1) (by rw [htag]; simpa using ht) ha
  refine ⟨fun ht => ?_, fun ht => ?_⟩
  · obtain ⟨op, a3, a4⟩ := (he.extra k nt g1).2 (htag.trans ht)
    rw [hg (.inl ht) (by decide)] at a3
    refine ⟨op, a3, ?_⟩
    unfold testOf at a4
    simp only [List.mem_cons, List.not_mem_nil, or_false]
    repeat' split at a4
    all_goals first | (cases a4; done) | (simp [*])
  · obtain ⟨op, a3, a4⟩ := (he.extra k nt g1).1 (.inr (htag.trans ht))
    rw [hg (.inr ht) (by decide)] at a3
    refine ⟨op, a3, ?_⟩
    rcases connOf_word a4 with rfl | rfl | rfl <;> simp

/-! ## Examples -/

/-- A document with one connector, with these elements. -/
def docConn (cs : List Xml) : Xml := .elem "ncl" [] [.elem "head" [] [.elem "connectorBase" [] [.elem "causalConnector" [("id", "k")] cs]], .elem "body" [] []]

def onBegin : Xml := .elem "simpleCondition" [("role", "onBegin")] []
def startAct : Xml := .elem "simpleAction" [("role", "start")] []

/-- The hypotheses are met: accepted documents. -/
example : (List.map (fun cs => verdict (parseXml pread0 20 800 600 0 (docConn cs))) [
    [onBegin, startAct],
    [.elem "simpleCondition" [("role", "onSelection"), ("eventType", "selection"), ("transition", "starts")] [], .elem "simpleAction" [("role", "set"), ("value", "1")] []],
    [.elem "simpleCondition" [("role", "mine"), ("eventType", "presentation"), ("transition", "pauses")] [], .elem "simpleAction" [("role", "yours"), ("eventType", "attribution"), ("actionType", "start"), ("value", "v")] []]]) =
    [.accepted, .accepted, .accepted] := by decide +kernel

/-- An action role of a condition, a condition role of an action, a reserved role that is given another event type or transition, a role of one's own without them, a property set to nothing, a connector without condition or action: rejected. -/
example : (List.map (fun cs => verdict (parseXml pread0 20 800 600 0 (docConn cs))) [
    [onBegin, .elem "simpleCondition" [("role", "start")] [], startAct],
    [onBegin, startAct, .elem "simpleAction" [("role", "onEnd")] []],
    [.elem "simpleCondition" [("role", "onBegin"), ("eventType", "selection")] [], startAct],
    [.elem "simpleCondition" [("role", "onBegin"), ("transition", "stops")] [], startAct],
    [.elem "simpleCondition" [("role", "mine")] [], startAct],
    [onBegin, .elem "simpleAction" [("role", "set")] []],
    [onBegin], [startAct]]) = List.replicate 8 .rejected := by decide +kernel

/-- Compound statements: with one statement, with an unknown operator, empty. -/
example : (List.map (fun cs => verdict (parseXml pread0 20 800 600 0 (docConn [.elem "compoundCondition" [("operator", "and")] (onBegin :: cs), startAct]))) [
    [.elem "compoundStatement" [("operator", "and")] (testOne ++ testOne)], [.elem "compoundStatement" [("operator", "not")] testOne],
    [.elem "compoundStatement" [("operator", "and")] testOne], [.elem "compoundStatement" [("operator", "xor")] (testOne ++ testOne)],
    [.elem "compoundStatement" [("operator", "not")] []], [.elem "compoundStatement" [("operator", "not")] (testOne ++ testOne)]]) =
    [.accepted, .accepted, .rejected, .rejected, .rejected, .rejected] := by decide +kernel

end Ginga
