import Verif.Proofs.Segment
/-!
# Compound statements are not empty
-/
namespace Ginga

/-- Every compound statement that is closed has a child. -/
def StmtK (g : List Note) (S : List Nat) : Prop :=
  ∀ (j : Nat) (n : Note), g[j]? = some n → n.tag = "compoundStatement" → j ∉ S → ∃ (i : Nat) (n' : Note), g[i]? = some n' ∧ n'.parent = some j

theorem StmtK.push {g : List Note} {S : List Nat} (h : StmtK g S) (nt : Note) {k : Nat} (hk : k = g.length) : StmtK (g ++ [nt]) (k :: S) := by
  intro j n hj ht hS
  rcases append_key hj with ⟨hlt, hj⟩ | ⟨hl, rfl⟩
  · obtain ⟨i, n', h1, h2⟩ := h j n hj ht fun hc => hS (by simp [hc])
    exact ⟨i, n', by rw [List.getElem?_append_left (getElem?_lt h1)]; exact h1, h2⟩
  · exact absurd (by simp [hl, hk]) hS

theorem stmtK_rides (E : PRead) (scr : Rect) (z0 : Nat) : Rides E scr z0 (fun g S _ => StmtK g S) where
  same g S s y al ca _ h := h
  push g S s s2 par pt x e r y nt proc a t hn h _ _ _ _ := h.push nt hn.j.len.symm
  imp g S s s2 par pt x e r y nt hn h _ := h.push nt hn.j.len.symm
  pop g O S s k nt e n a t hj hpi h hk hsyn hne hrun hp := by
    intro j m hm ht hS
    by_cases hc : j = k
    · subst hc
      rw [hk] at hm
      obtain rfl : nt = m := by simpa using hm
      obtain ⟨⟨π, hpi⟩, -⟩ := hpi
      have hpu : nt.push = .compoundStatement := by unfold Note.push; rw [ht]; decide +kernel
      have hpo : e.pop = .compoundStatement := by
        have : ∀ e ∈ syntaxTable, e.tag = "compoundStatement" → e.pop = .compoundStatement := by decide +kernel
        obtain ⟨h1, h2⟩ := syntaxOf_mem hsyn
        exact this e h1 (h2.trans ht)
      obtain ⟨p, h1, h2⟩ := hpi.opened j nt _ hk (by rw [hpu]; rfl)
      rw [hpo] at hrun
      have key : PPost (popCompoundStatement j) (fun _ _ => ∃ p c cs, (s.elt j).pred = some p ∧ s.pnode p = .node c cs ∧ cs ≠ []) s := by
        unfold popCompoundStatement
        refine PPost.bind (PPost.get (PPost.bind (PPost.some! fun p hp => ?_)))
        split
        · exact PPost.abort
        · next cs hcs =>
          split
          · exact PPost.err
          · next hl => exact PPost.pure ⟨p, _, cs, hp, hcs, fun hc => hl (by rw [hc]; rfl)⟩
        · next c cs _ hcs =>
          split
          · exact PPost.err
          · next hl => exact PPost.pure ⟨p, _, cs, hp, hcs, fun hc => hl (by rw [hc]; decide)⟩
      obtain ⟨p', c, cs, g1, g2, g3⟩ := key a t hrun
      rw [h1] at g1; cases g1
      rw [h2, kidsOf_notes] at g2
      have : (kidNotes j 0 g).flatMap (fun q => (π q.1).toList) = cs := by
        simp only [PNode.withKids, PNode.node.injEq] at g2
        exact g2.2
      cases hkn : kidNotes j 0 g with
      | nil => rw [hkn] at this; exact absurd this.symm g3
      | cons w l =>
        have hw : w ∈ kidNotes j 0 g := by rw [hkn]; simp
        obtain ⟨-, e1, e2⟩ := kidNotes_mem.1 hw
        rw [Nat.sub_zero] at e1
        exact ⟨w.1, w.2, e1, e2⟩
    · exact h j m hm ht (by simp [hc, hS])

/-- No compound statement of the document is empty. -/
def StmtFull (ns : List Note) : Prop := ∀ (j : Nat) (n : Note), ns[j]? = some n → n.tag = "compoundStatement" → n.xml.children ≠ []

theorem StmtK.full {E : PRead} {scr : Rect} {x : Xml} {t : PS} {ns : List Note} {f : Nat → Nat} (h : StmtK ns [0]) (hd : DocTree E scr x t ns f) : StmtFull ns := by
  intro j n hj ht hc
  have h0 : j ∉ [0] := by
    intro h0
    obtain rfl : j = 0 := by simpa using h0
    have := hd.laid
    cases this with
    | cons h1 h2 h3 h4 h5 h6 =>
      obtain rfl : _ = n := by simpa using hj
      have : x.tag = "compoundStatement" := by rw [← h2]; exact ht
      rw [hd.root] at this; revert this; decide
  obtain ⟨i, n', h1, h2⟩ := h j n hj ht h0
  have hm : (i, n') ∈ kidNotes j 0 ns := kidNotes_mem.2 ⟨by omega, by simpa using h1, h2⟩
  have := hd.kids hj
  rw [hc] at this
  have : kidNotes j 0 ns = [] := by simpa using this
  rw [this] at hm; cases hm

end Ginga
