import Verif.Proofs.ConnFull
/-!
# The operators and comparators of an accepted document are known words
-/
namespace Ginga

/-- The operators of statements and composite rules, and the comparators of rules. -/
def WordK (g : List Note) : Prop := ∀ (j : Nat) (n : Note), g[j]? = some n →
  (n.tag = "compoundStatement" ∨ n.tag = "compositeRule" → ∃ op, n.get "operator" = some op ∧ (connOf op).isSome = true) ∧
  (n.tag = "rule" → ∃ op, n.get "comparator" = some op ∧ (testOf op).isSome = true)

theorem WordK.push {g : List Note} (h : WordK g) {nt : Note}
    (h1 : nt.tag = "compoundStatement" ∨ nt.tag = "compositeRule" → ∃ op, nt.get "operator" = some op ∧ (connOf op).isSome = true)
    (h2 : nt.tag = "rule" → ∃ op, nt.get "comparator" = some op ∧ (testOf op).isSome = true) : WordK (g ++ [nt]) := by
  intro j n hj
  rcases append_key hj with ⟨-, hj⟩ | ⟨-, rfl⟩
  · exact h j n hj
  · exact ⟨h1, h2⟩

theorem wordK_extra (E : PRead) (scr : Rect) (z0 : Nat) : Extra E scr z0 (fun _ g _ _ => WordK g) where
  same f g S s y al ca hU h := h
  imp f g S s s2 par pt x e r y nt hn ht hk hp := by
    obtain ⟨b1, b2, b3, b4, b5, b6, b7, b8, b9, b10, b11, b12, b13⟩ := ht.push_base hn
    have htg : nt.tag = "importBase" := by rw [b2, ← b4]; exact (table_objs e b3).2.2.2.2.2.2.1.1 hp
    exact hk.push (fun h => by rw [htg] at h; exact absurd h (by decide)) (fun h => by rw [htg] at h; exact absurd h (by decide))
  push f f' g S s s2 par pt x e r y nt proc a t hn ht hk himp hrun hpu hj hf ht' := by
    obtain ⟨b1, b2, b3, b4, b5, b6, b7, b8, b9, b10, b11, b12, b13⟩ := ht.push_base hn
    have htg : nt.tag = e.tag := b2.trans b4.symm
    have hat : s2.attr s.nelt = nt.get := funext b8
    have hst : (s2.elt s.nelt).tag = nt.tag := b9.trans b2.symm
    have htab : ∀ e ∈ syntaxTable, (e.tag = "compoundStatement" → e.push = .compoundStatement) ∧ (e.tag = "compositeRule" ∨ e.tag = "rule" → e.push = .rule) := by decide +kernel
    obtain ⟨t1, t2⟩ := htab e b3
    have hrule : nt.tag = "compositeRule" ∨ nt.tag = "rule" → PPost (rulePred s2 s.nelt) (fun _ _ =>
        (nt.tag = "compositeRule" → ∃ op, nt.get "operator" = some op ∧ (connOf op).isSome = true) ∧
        (nt.tag = "rule" → ∃ op, nt.get "comparator" = some op ∧ (testOf op).isSome = true)) s2 := by
      intro hr
      unfold rulePred
      rw [hst]
      split
      · next h =>
        refine PPost.bind (PPost.attr! fun var _ => PPost.bind (PPost.attr! fun comp hc => PPost.bind (PPost.orErr fun v hv => ?_)))
        rw [hat] at hc
        exact fun _ _ _ => ⟨fun hc' => absurd (hc'.symm.trans h) (by decide), fun _ => ⟨comp, hc, by rw [hv]; rfl⟩⟩
      · next h =>
        refine PPost.bind (PPost.attr! fun op hc => PPost.bind (PPost.orErr fun v hv => ?_))
        rw [hat] at hc
        exact fun _ _ _ => ⟨fun _ => ⟨op, hc, by rw [hv]; rfl⟩, fun hc' => absurd hc' h⟩
    have hpush : nt.tag = "compositeRule" ∨ nt.tag = "rule" →
        (nt.tag = "compositeRule" → ∃ op, nt.get "operator" = some op ∧ (connOf op).isSome = true) ∧
        (nt.tag = "rule" → ∃ op, nt.get "comparator" = some op ∧ (testOf op).isSome = true) := by
      intro hr
      rw [t2 (htg ▸ hr)] at hrun
      have key : PPost (pushRule s.nelt) (fun _ _ => (nt.tag = "compositeRule" → ∃ op, nt.get "operator" = some op ∧ (connOf op).isSome = true) ∧
        (nt.tag = "rule" → ∃ op, nt.get "comparator" = some op ∧ (testOf op).isSome = true)) s2 := by
        unfold pushRule
        exact PPost.bind (PPost.get (PPost.bind ((hrule hr).mono fun _ _ h => fun _ _ _ => h)))
      exact key a t hrun
    refine hk.push (fun h => ?_) (fun h => (hpush (.inr h)).2 h)
    rcases h with h | h
    · rw [t1 (htg ▸ h)] at hrun
      have key : PPost (pushCompoundStatement s.nelt) (fun _ _ => ∃ op, nt.get "operator" = some op ∧ (connOf op).isSome = true) s2 := by
        unfold pushCompoundStatement
        refine PPost.bind (PPost.get (PPost.bind (PPost.attr! fun op hc => PPost.bind (PPost.orErr fun v hv => ?_))))
        rw [hat] at hc
        exact fun _ _ _ => ⟨op, hc, by rw [hv]; rfl⟩
      exact key a t hrun
    · exact (hpush (.inl h)).1 h
  pop f g O S s k nt e n a t hj hpi ht hk h1 h2 h3 h4 h5 ht' := hk

end Ginga
