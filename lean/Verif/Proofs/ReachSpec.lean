import Verif.Props.C42
/-!
# What is imported, stated without the parser

`Reached`, with which the properties of imported elements are stated, says the same as `Imports`, which uses nothing of the parser but the two
ways to read a file.
-/
namespace Ginga

/-- The elements of a list with this tag. -/
def withTag (tag : String) (l : List Xml) : List Xml := l.filter fun c => c.tag == tag

/-- The siblings `xs`, children of an element with tag `pt`, belong to the document `x` or to one it imports: under the aliases of `al`, outermost first, each with the document it stands for. -/
inductive Imports (E : PRead) (x : Xml) : List (String × String) → Option String → List Xml → Prop
  | root : Imports E x [] none [x]
  | child {al pt xs y} : Imports E x al pt xs → y ∈ xs → Imports E x al (some y.tag) y.children
  /-- An import into a base of descriptors brings the bases of descriptors, of regions and of transitions in the head of the document named, in this order. -/
  | descriptors {al xs y a d u root head} (base : String) : Imports E x al (some "descriptorBase") xs → y ∈ xs → y.tag = "importBase" → y.prop "alias" = some a → y.prop "documentURI" = some d →
      (al = [] → base = E.uri) → (∀ l b v, al = l ++ [(b, v)] → base = v) → E.importUri base d = .ok u → E.file u = some root → (withTag "head" root.children).head? = some head →
      Imports E x (al ++ [(a, u)]) (some "head") (withTag "descriptorBase" head.children ++ (withTag "regionBase" head.children ++ withTag "transitionBase" head.children))
  /-- An import into another base brings the bases of the same kind. The name of a document is relative to the document with the import. -/
  | others {al tag xs y a d u root head} (base : String) : Imports E x al (some tag) xs → tag ≠ "descriptorBase" → y ∈ xs → y.tag = "importBase" → y.prop "alias" = some a → y.prop "documentURI" = some d →
      (al = [] → base = E.uri) → (∀ l b v, al = l ++ [(b, v)] → base = v) → E.importUri base d = .ok u → E.file u = some root → (withTag "head" root.children).head? = some head →
      Imports E x (al ++ [(a, u)]) (some "head") (withTag tag head.children)

theorem baseUri_is {E : PRead} {al : List (String × String)} {base : String} (h1 : al = [] → base = E.uri) (h2 : ∀ l b v, al = l ++ [(b, v)] → base = v) : baseUri E al = base := by
  unfold baseUri
  rcases List.eq_nil_or_concat al with rfl | ⟨l, ⟨b, v⟩, rfl⟩
  · exact (h1 rfl).symm
  · rw [List.concat_eq_append, List.getLast?_concat]
    exact (h2 l b v (List.concat_eq_append ..)).symm

theorem C42_imports {E : PRead} {x : Xml} {al : List (String × String)} {pt : Option String} {xs : List Xml} : Reached E x al pt xs ↔ Imports E x al pt xs := by
  constructor
  · intro h
    induction h with
    | root => exact .root
    | child _ h1 ih => exact .child ih h1
    | @imp al tag xs y a d u root head _ h1 h2 h3 h4 h5 h6 h7 ih =>
      have e1 : al = [] → baseUri E al = E.uri := by rintro rfl; rfl
      have e2 : ∀ l b v, al = l ++ [(b, v)] → baseUri E al = v := by rintro l b v rfl; unfold baseUri; rw [List.getLast?_concat]
      by_cases ht : tag = "descriptorBase"
      · subst ht
        exact .descriptors _ ih h1 h2 h3 h4 e1 e2 h5 h6 h7
      · have := Imports.others _ ih ht h1 h2 h3 h4 e1 e2 h5 h6 h7
        unfold importedBases
        rw [if_neg ht, List.append_nil]
        exact this
  · intro h
    induction h with
    | root => exact .root
    | child _ h1 ih => exact .child ih h1
    | descriptors base _ h1 h2 h3 h4 e1 e2 h5 h6 h7 ih =>
      rw [← baseUri_is e1 e2] at h5
      exact .imp ih h1 h2 h3 h4 h5 h6 h7
    | @others al tag xs y a d u root head base _ ht h1 h2 h3 h4 e1 e2 h5 h6 h7 ih =>
      rw [← baseUri_is e1 e2] at h5
      have := Reached.imp ih h1 h2 h3 h4 h5 h6 h7
      unfold importedBases at this
      rwa [if_neg ht, List.append_nil] at this

/-- What stands before the names in an imported document: the aliases, outermost first, each followed by `#`. -/
theorem C42_prefix : aliasPrefix [] = "" ∧ ∀ (al : List (String × String)) (a u : String), aliasPrefix (al ++ [(a, u)]) = aliasPrefix al ++ (a ++ "#") := by
  refine ⟨rfl, fun al a u => ?_⟩
  induction al with
  | nil => simp [aliasPrefix]
  | cons p l ih => rw [List.cons_append, aliasPrefix, ih, aliasPrefix]; simp [String.append_assoc]

example : aliasPrefix [("a", "x.ncl"), ("b", "y.ncl")] = "a#b#" := by decide +kernel

end Ginga
