import Verif.Proofs.Witness
/-! # C15 — property references resolve to the current value -/
namespace Ginga
open Ex

theorem splitFirst_append {c : Char} (a b : List Char) (h : c ∉ a) :
    splitFirst c (a ++ c :: b) = some (a, b) := by
  induction a with
  | nil => simp [splitFirst]
  | cons x xs ih =>
    simp only [List.mem_cons, not_or] at h
    simp [splitFirst, Ne.symm h.1, ih h.2]

theorem splitFirst_some {c : Char} {l a b : List Char} (h : splitFirst c l = some (a, b)) :
    l = a ++ c :: b ∧ c ∉ a := by
  induction l generalizing a b with
  | nil => simp [splitFirst] at h
  | cons x xs ih =>
    simp only [splitFirst] at h
    split at h
    · next hx => simp at h; obtain ⟨rfl, rfl⟩ := h; simp [hx]
    · next hx =>
      split at h
      · cases h
      · next a' b' he =>
        simp at h; obtain ⟨rfl, rfl⟩ := h
        obtain ⟨h1, h2⟩ := ih he
        exact ⟨by rw [h1]; rfl, by simp [h2, Ne.symm hx]⟩

theorem parseRef_ref (id name : String) (h : '.' ∉ id.toList) :
    parseRef ("$" ++ id ++ "." ++ name) = some (id, name) := by
  have : ("$" ++ id ++ "." ++ name).toList = '$' :: (id.toList ++ '.' :: name.toList) := by
    simp [String.toList_append]
  unfold parseRef
  rw [this]
  simp [splitFirst_append _ _ h]

theorem parseRef_some {ref id name : String} (h : parseRef ref = some (id, name)) :
    '.' ∉ id.toList ∧ ref = "$" ++ id ++ "." ++ name := by
  unfold parseRef at h
  split at h
  · next rest hr =>
    split at h
    · cases h
    · next a b he =>
      simp at h
      obtain ⟨rfl, rfl⟩ := h
      obtain ⟨h1, h2⟩ := splitFirst_some he
      refine ⟨by simpa using h2, ?_⟩
      apply String.toList_injective
      rw [hr, h1]
      simp [String.toList_append]
  · cases h

/-- The current value of a property: what was last stored, or empty. -/
def St.value (s : St) (o : Oid) (name : String) : String := (mget name (s.props o)).getD ""

/-- **C15**.  `$id.name` denotes the current value of property `name` of the object with that
id. -/
theorem C15_reference (d : Doc) (s : St) (id name : String) (hid : '.' ∉ id.toList)
    (o : Oid) (ho : o ∈ d.objs) (hoid : (d.obj o).id = id)
    (huniq : ∀ o' ∈ d.objs, (d.obj o').id = id → o' = o) :
    evalRef d s ("$" ++ id ++ "." ++ name) = some (s.value o name) := by
  unfold evalRef
  rw [parseRef_ref id name hid]
  have : d.byIdOrAlias id = some o := by
    unfold Doc.byIdOrAlias
    cases hf : d.objs.find? (fun o => (d.obj o).id == id) with
    | none =>
      have := List.find?_eq_none.1 hf o ho
      simp [hoid] at this
    | some o' =>
      have h1 := List.find?_some hf
      have h2 := List.mem_of_find?_eq_some hf
      simp only
      rw [huniq o' h2 (by simpa using h1)]
  simp only [this]; rfl

/-- **C15**, aliases: if no object has that id, the reference denotes the property of the object
that has it as an alias. -/
theorem C15_alias (d : Doc) (s : St) (al name : String) (hal : '.' ∉ al.toList)
    (hno : ∀ o ∈ d.objs, (d.obj o).id ≠ al)
    (o : Oid) (ho : o ∈ d.objs) (hoa : ∃ c, (al, c) ∈ (d.obj o).aliases)
    (huniq : ∀ o' ∈ d.objs, (∃ c, (al, c) ∈ (d.obj o').aliases) → o' = o) :
    evalRef d s ("$" ++ al ++ "." ++ name) = some (s.value o name) := by
  unfold evalRef
  rw [parseRef_ref al name hal]
  have hal' : ∀ o, (d.obj o).hasAlias al = true ↔ ∃ c, (al, c) ∈ (d.obj o).aliases := by
    intro o; simp [ObjDecl.hasAlias]
  have : d.byIdOrAlias al = some o := by
    unfold Doc.byIdOrAlias
    have h0 : d.objs.find? (fun o => (d.obj o).id == al) = none := by
      rw [List.find?_eq_none]; intro x hx; simpa using hno x hx
    rw [h0]
    cases hf : d.objs.find? (fun o => (d.obj o).hasAlias al) with
    | none =>
      have := List.find?_eq_none.1 hf o ho
      rw [(hal' o).2 hoa] at this; exact absurd rfl this
    | some o' =>
      simp only
      rw [huniq o' (List.mem_of_find?_eq_some hf)
        ((hal' o').1 (List.find?_some (p := fun o => (d.obj o).hasAlias al) hf))]
  simp only [this]; rfl

/-- **C15**, everything else is not a reference: a string of another form, or one naming no
object, is reported as such, and the value used in its place is the string itself. -/
theorem C15_not_reference (d : Doc) (s : St) (ref : String)
    (h : ∀ id name, '.' ∉ id.toList → ref = "$" ++ id ++ "." ++ name →
      ∀ o ∈ d.objs, (d.obj o).id ≠ id ∧ ∀ c, (id, c) ∉ (d.obj o).aliases) :
    evalRef d s ref = none ∧ deref d s ref = ref := by
  have key : evalRef d s ref = none := by
    unfold evalRef
    cases hp : parseRef ref with
    | none => rfl
    | some q =>
      obtain ⟨id, name⟩ := q
      obtain ⟨h1, h2⟩ := parseRef_some hp
      have hno := h id name h1 h2
      have : d.byIdOrAlias id = none := by
        unfold Doc.byIdOrAlias
        have h0 : d.objs.find? (fun o => (d.obj o).id == id) = none := by
          rw [List.find?_eq_none]; intro x hx; simpa using (hno x hx).1
        have h3 : d.objs.find? (fun o => (d.obj o).hasAlias id) = none := by
          rw [List.find?_eq_none]; intro x hx hb
          simp only [ObjDecl.hasAlias, List.any_eq_true, beq_iff_eq] at hb
          obtain ⟨⟨a, c⟩, hm, rfl⟩ := hb
          exact (hno x hx).2 c hm
        rw [h0]; exact h3
      simp [this]
  exact ⟨key, by unfold deref; rw [key]; rfl⟩

/-! Non-vacuity: object `a` of `twoMedias` and a string with a dot that is no reference. -/
example : evalRef twoMedias (twoMedias.init "") ("$" ++ "a" ++ "." ++ "explicitDur") = some "2s" :=
  C15_reference twoMedias _ "a" "explicitDur" (by decide +kernel) 2 (by decide +kernel)
    (by decide +kernel) (by decide +kernel)
example : evalRef twoMedias (twoMedias.init "") "a.explicitDur" = none :=
  (C15_not_reference twoMedias _ _ (by
    intro id name _ he
    have := congrArg String.toList he
    simp [String.toList_append] at this)).1

end Ginga
