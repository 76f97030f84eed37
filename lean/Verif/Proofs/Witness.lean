import Verif.Proofs.Clock
import Verif.Examples
/-! # Concrete reachable presentations (for non-vacuity checks and counter-examples) -/
set_option linter.unusedVariables false
namespace Ginga

theorem execAll_doc {n : Nat} (ops : List Op) : ∀ f, FInv (fun _ _ => True) f → OpsWF ops →
    ∀ bs f', execAll n f ops = .ok (bs, f') → ∀ d, f'.doc = some d →
      f.doc = some d ∨ Op.start (some d) ∈ ops := by
  induction ops with
  | nil => intro f _ _ bs f' he d hd; cases he; exact .inl hd
  | cons op ops ih =>
    intro f hf hw bs f' he d hd
    simp only [execAll] at he
    have h1 := exec_inv (U := True) (n := n) triv_inv hf op (fun d hd => hw d (by simp [hd]))
      (fun _ _ _ => trivial)
    cases hx : exec n f op with
    | ok p =>
      rw [hx] at he h1
      simp only [rwp] at h1
      simp only [Res.bind] at he
      cases hy : execAll n p.2 ops with
      | ok q =>
        rw [hy] at he
        simp only [Res.ok.injEq, Prod.mk.injEq] at he
        obtain ⟨-, rfl⟩ := he
        rcases ih p.2 h1.1 (fun d hd => hw d (by simp [hd])) q.1 q.2 hy d hd with h2 | h2
        · rcases h1.2 d h2 with h3 | h3
          · exact .inl h3
          · exact .inr (by simp [h3])
        · exact .inr (by simp [h2])
      | _ => rw [hy] at he; cases he
    | _ => rw [hx] at he; cases he

/-- A checked run of a single document gives a reachable formatter presenting that document. -/
theorem witness (d : Doc) (hd : DocWF d) (n : Nat) (ops : List Op)
    (hops : ops.all (fun o => match o with | .start _ => false | _ => true) = true)
    (P : Fmt → Bool)
    (h : (match execAll n (Fmt.new "" 800 600) (.start (some d) :: ops) with
      | .ok (_, f) => f.doc.isSome && P f | _ => false) = true) :
    ∃ f, Reachable f ∧ f.doc = some d ∧ P f = true := by
  have hw : OpsWF (.start (some d) :: ops) := by
    intro d' hd'
    simp at hd'
    rcases hd' with rfl | hd'
    · exact hd
    · have := List.all_eq_true.1 hops _ hd'; simp at this
  cases he : execAll n (Fmt.new "" 800 600) (.start (some d) :: ops) with
  | ok p =>
    rw [he] at h
    obtain ⟨bs, f⟩ := p
    simp only [Bool.and_eq_true] at h
    refine ⟨f, ⟨n, _, _, _, _, bs, hw, he⟩, ?_, h.2⟩
    obtain ⟨d', hd'⟩ := Option.isSome_iff_exists.1 h.1
    rcases execAll_doc _ _ (FInv.new _ _ _) hw bs f he d' hd' with h1 | h1
    · cases h1
    · simp at h1
      rcases h1 with rfl | h1
      · exact hd'
      · have := List.all_eq_true.1 hops _ h1; simp at this
  | _ => rw [he] at h; cases h

/-- A decidable test on the outcome of a call. -/
def okAnd {α : Type} (x : Res (α × St)) (P : α → St → Bool) : Bool :=
  match x with
  | .ok (a, s) => P a s
  | _ => false

theorem okAnd_iff {α : Type} {x : Res (α × St)} {P : α → St → Bool} :
    okAnd x P = true ↔ ∃ a s, x = .ok (a, s) ∧ P a s = true := by
  cases x with
  | ok p =>
    obtain ⟨a, s⟩ := p
    constructor
    · intro h; exact ⟨a, s, rfl, h⟩
    · rintro ⟨a', s', h, hp⟩; cases h; exact hp
  | _ => simp [okAnd]

end Ginga
