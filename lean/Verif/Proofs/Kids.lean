import Verif.Proofs.Nest
import Verif.Proofs.Preds
import Verif.Props.C42
/-!
# The elements in an element, by number
-/
namespace Ginga

/-- The children of element `j`, with their numbers. -/
def kidNotes (j : Nat) : Nat → List Note → List (Nat × Note)
  | _, [] => []
  | i, n :: l => (if n.parent = some j then [(i, n)] else []) ++ kidNotes j (i + 1) l

theorem kidNotes_append (j : Nat) : ∀ (i : Nat) (l1 l2 : List Note), kidNotes j i (l1 ++ l2) = kidNotes j i l1 ++ kidNotes j (i + l1.length) l2
  | _, [], _ => rfl
  | i, n :: l1, l2 => by
    simp only [List.cons_append, kidNotes, List.length_cons, List.append_assoc]
    rw [kidNotes_append j (i + 1) l1 l2, show i + 1 + l1.length = i + (l1.length + 1) by omega]

theorem kidNotes_none (j : Nat) : ∀ (i : Nat) (l : List Note), (∀ n ∈ l, n.parent ≠ some j) → kidNotes j i l = []
  | _, [], _ => rfl
  | i, n :: l, h => by
    simp only [kidNotes]
    rw [if_neg (h n (by simp)), kidNotes_none j (i + 1) l fun m hm => h m (by simp [hm])]
    rfl

theorem kidNotes_mem {j : Nat} : ∀ {i : Nat} {l : List Note} {q : Nat × Note}, q ∈ kidNotes j i l ↔ i ≤ q.1 ∧ l[q.1 - i]? = some q.2 ∧ q.2.parent = some j
  | i, [], q => by simp [kidNotes]
  | i, n :: l, q => by
    simp only [kidNotes, List.mem_append]
    rw [kidNotes_mem]
    constructor
    · rintro (h | ⟨h1, h2, h3⟩)
      · split at h
        · rename_i hp
          obtain rfl : q = (i, n) := by simpa using h
          simp [hp]
        · cases h
      · refine ⟨by omega, ?_, h3⟩
        rw [show q.1 - i = (q.1 - (i + 1)) + 1 by omega, List.getElem?_cons_succ]; exact h2
    · rintro ⟨h1, h2, h3⟩
      by_cases he : q.1 = i
      · left
        rw [he, Nat.sub_self, List.getElem?_cons_zero] at h2
        obtain rfl : n = q.2 := by simpa using h2
        rw [if_pos h3, ← he]; simp
      · right
        refine ⟨by omega, ?_, h3⟩
        rw [show q.1 - i = (q.1 - (i + 1)) + 1 by omega, List.getElem?_cons_succ] at h2; exact h2

theorem kidsOf_notes (π : Nat → Option Nat) (j : Nat) : ∀ (i : Nat) (l : List Note), kidsOf π j i l = (kidNotes j i l).flatMap fun q => (π q.1).toList
  | _, [] => rfl
  | i, n :: l => by
    simp only [kidsOf, kidNotes, List.flatMap_append]
    rw [kidsOf_notes π j (i + 1) l]
    split <;> simp

/-- The parents of the elements of a list lie above it or in it. -/
theorem Laid.parent_range {E : PRead} {al : List (String × String)} {pt : Option String} {par : Option Nat} {k : Nat} {xs : List Xml} {l : List Note}
    (h : Laid E al pt par k xs l) : ∀ n ∈ l, n.parent = par ∨ n.parent = none ∨ ∃ p, n.parent = some p ∧ k ≤ p ∧ p < k + l.length := by
  induction h with
  | nil => intro n hn; cases hn
  | @cons al pt par k x xs n l1 l2 h1 h2 h3 h4 h5 h6 ih1 ih2 =>
    intro m hm
    simp only [List.length_cons, List.length_append]
    rcases List.mem_cons.1 hm with rfl | hm
    · exact .inl h3
    rcases List.mem_append.1 hm with hm | hm
    · rcases ih1 m hm with h | h | ⟨p, h, ha, hb⟩
      · exact .inr (.inr ⟨k, h, by omega, by omega⟩)
      · exact .inr (.inl h)
      · exact .inr (.inr ⟨p, h, by omega, by omega⟩)
    · rcases ih2 m hm with h | h | ⟨p, h, ha, hb⟩
      · exact .inl h
      · exact .inr (.inl h)
      · exact .inr (.inr ⟨p, h, by omega, by omega⟩)
  | @imp al tag par k x xs a d u root head n l1 l2 l3 h1 h2 h3 h4 h5 h6 h7 h8 h9 h10 h11 h12 h13 ih1 ih2 ih3 =>
    intro m hm
    simp only [List.length_cons, List.length_append]
    rcases List.mem_cons.1 hm with rfl | hm
    · exact .inl h3
    rcases List.mem_append.1 hm with hm | hm
    · rcases List.mem_append.1 hm with hm | hm
      · rcases ih1 m hm with h | h | ⟨p, h, ha, hb⟩
        · exact .inr (.inl h)
        · exact .inr (.inl h)
        · exact .inr (.inr ⟨p, h, by omega, by omega⟩)
      · rcases ih2 m hm with h | h | ⟨p, h, ha, hb⟩
        · exact .inr (.inr ⟨k, h, by omega, by omega⟩)
        · exact .inr (.inl h)
        · exact .inr (.inr ⟨p, h, by omega, by omega⟩)
    · rcases ih3 m hm with h | h | ⟨p, h, ha, hb⟩
      · exact .inl h
      · exact .inr (.inl h)
      · exact .inr (.inr ⟨p, h, by omega, by omega⟩)

/-- No element of the list has a parent outside of it other than the common one. -/
theorem Laid.no_kids {E : PRead} {al : List (String × String)} {pt : Option String} {par : Option Nat} {k : Nat} {xs : List Xml} {l : List Note}
    (h : Laid E al pt par k xs l) {j : Nat} (hj : par ≠ some j) (hr : j < k ∨ k + l.length ≤ j) (i : Nat) : kidNotes j i l = [] := by
  refine kidNotes_none j i l fun n hn hc => ?_
  rcases h.parent_range n hn with h' | h' | ⟨p, h', ha, hb⟩
  · exact hj (h'.symm.trans hc)
  · rw [hc] at h'; cases h'
  · rw [hc] at h'; obtain rfl : j = p := by simpa using h'
    omega

/-- The children of the element above a list are the list. -/
theorem Laid.kids_par {E : PRead} {al : List (String × String)} {pt : Option String} {par : Option Nat} {k : Nat} {xs : List Xml} {l : List Note}
    (h : Laid E al pt par k xs l) {p : Nat} (hp : par = some p) (hlt : p < k) (i : Nat) : (kidNotes p i l).map (fun q => q.2.xml) = xs := by
  induction h generalizing i with
  | nil => rfl
  | @cons al pt par k x xs n l1 l2 h1 h2 h3 h4 h5 h6 ih1 ih2 =>
    rw [kidNotes, kidNotes_append, if_pos (h3.trans hp), h5.no_kids (j := p) (by simp; omega) (by omega), List.nil_append, List.map_append, ih2 hp (by omega)]
    simp [h2]
  | @imp al tag par k x xs a d u root head n l1 l2 l3 h1 h2 h3 h4 h5 h6 h7 h8 h9 h10 h11 h12 h13 ih1 ih2 ih3 =>
    rw [kidNotes, kidNotes_append, kidNotes_append, if_pos (h3.trans hp), h11.no_kids (j := p) (by simp) (by omega),
      h12.no_kids (j := p) (by simp; omega) (by omega), List.nil_append, List.nil_append, List.map_append, ih3 hp (by omega)]
    simp [h2]

/-- The children of an element of a list. -/
theorem Laid.kids {E : PRead} {al : List (String × String)} {pt : Option String} {par : Option Nat} {k : Nat} {xs : List Xml} {l : List Note}
    (h : Laid E al pt par k xs l) (hpar : ∀ p, par = some p → p < k) {i : Nat} {m : Note} (hi : l[i]? = some m) (b : Nat) :
    (kidNotes (k + i) b l).map (fun q => q.2.xml) = m.xml.children := by
  induction h generalizing i b with
  | nil => simp at hi
  | @cons al pt par k x xs n l1 l2 h1 h2 h3 h4 h5 h6 ih1 ih2 =>
    have hne : ∀ i, par ≠ some (k + i) := fun i hc => by have := hpar _ hc; omega
    rw [kidNotes, kidNotes_append, if_neg (by rw [h3]; exact hne i), List.nil_append, List.map_append]
    cases i with
    | zero =>
      obtain rfl : n = m := by simpa using hi
      rw [h6.no_kids (hne 0) (by omega), Nat.add_zero, h5.kids_par rfl (by omega), h2]; simp
    | succ i =>
      rw [List.getElem?_cons_succ] at hi
      by_cases hlt : i < l1.length
      · rw [List.getElem?_append_left hlt] at hi
        rw [h6.no_kids (hne _) (by omega), show k + (i + 1) = k + 1 + i by omega, ih1 (by simp) hi]; simp
      · rw [List.getElem?_append_right (by omega)] at hi
        rw [h5.no_kids (by simp) (by omega), show k + (i + 1) = k + 1 + l1.length + (i - l1.length) by omega,
          ih2 (fun p hp => by have := hpar p hp; omega) hi]; simp
  | @imp al tag par k x xs a d u root head n l1 l2 l3 h1 h2 h3 h4 h5 h6 h7 h8 h9 h10 h11 h12 h13 ih1 ih2 ih3 =>
    have hne : ∀ i, par ≠ some (k + i) := fun i hc => by have := hpar _ hc; omega
    rw [kidNotes, kidNotes_append, kidNotes_append, if_neg (by rw [h3]; exact hne i), List.nil_append, List.map_append, List.map_append]
    cases i with
    | zero =>
      obtain rfl : n = m := by simpa using hi
      rw [h13.no_kids (hne 0) (by omega), Nat.add_zero, h11.no_kids (by simp) (by omega), h12.kids_par rfl (by omega), h2]; simp
    | succ i =>
      rw [List.getElem?_cons_succ] at hi
      by_cases hlt : i < l1.length
      · rw [List.append_assoc, List.getElem?_append_left hlt] at hi
        rw [h13.no_kids (hne _) (by omega), h12.no_kids (by simp) (by omega), show k + (i + 1) = k + 1 + i by omega, ih1 (by simp) hi]; simp
      · by_cases hlt2 : i < l1.length + l2.length
        · rw [List.append_assoc, List.getElem?_append_right (by omega), List.getElem?_append_left (by omega)] at hi
          rw [h13.no_kids (hne _) (by omega), h11.no_kids (by simp) (by omega), show k + (i + 1) = k + 1 + l1.length + (i - l1.length) by omega,
            ih2 (by simp; omega) hi]; simp
        · rw [List.getElem?_append_right (by simp; omega), List.length_append] at hi
          rw [h11.no_kids (by simp) (by omega), h12.no_kids (by simp) (by omega),
            show k + (i + 1) = k + 1 + l1.length + l2.length + (i - (l1.length + l2.length)) by omega,
            ih3 (fun p hp => by have := hpar p hp; omega) hi]; simp

/-- The children of element `j` are those of its XML element. -/
theorem DocTree.kids {E : PRead} {scr : Rect} {x : Xml} {t : PS} {ns : List Note} {f : Nat → Nat} (hd : DocTree E scr x t ns f) {j : Nat} {m : Note}
    (hj : ns[j]? = some m) : (kidNotes j 0 ns).map (fun q => q.2.xml) = m.xml.children := by
  have := hd.laid.kids (by simp) hj 0
  rwa [Nat.zero_add] at this

/-- Every element is reached from the document. -/
theorem Laid.reached {E : PRead} {x : Xml} {al : List (String × String)} {pt : Option String} {par : Option Nat} {k : Nat} {xs : List Xml} {l : List Note}
    (h : Laid E al pt par k xs l) (hr : Reached E x al pt xs) : ∀ n ∈ l, ∃ al' pt' ys, Reached E x al' pt' ys ∧ n.xml ∈ ys ∧ n.pre = aliasPrefix al' := by
  have key : ∀ {al : List (String × String)} {pt : Option String} {par : Option Nat} {k : Nat} {xs : List Xml} {l : List Note}, Laid E al pt par k xs l →
      ∀ zs, Reached E x al pt zs → (∀ y ∈ xs, y ∈ zs) → ∀ n ∈ l, ∃ al' pt' ys, Reached E x al' pt' ys ∧ n.xml ∈ ys ∧ n.pre = aliasPrefix al' := by
    intro al pt par k xs l h
    induction h with
    | nil => intro zs _ _ n hn; cases hn
    | @cons al pt par k x' xs n l1 l2 h1 h2 h3 h4 h5 h6 ih1 ih2 =>
      intro zs hz hs m hm
      rcases List.mem_cons.1 hm with rfl | hm
      · exact ⟨al, pt, zs, hz, h2 ▸ hs _ (by simp), h4⟩
      rcases List.mem_append.1 hm with hm | hm
      · exact ih1 _ (.child hz (hs x' (by simp))) (fun _ h => h) m hm
      · exact ih2 zs hz (fun y hy => hs y (by simp [hy])) m hm
    | @imp al tag par k x' xs a d u root head n l1 l2 l3 h1 h2 h3 h4 h5 h6 h7 h8 h9 h10 h11 h12 h13 ih1 ih2 ih3 =>
      intro zs hz hs m hm
      rcases List.mem_cons.1 hm with rfl | hm
      · exact ⟨al, some tag, zs, hz, h2 ▸ hs _ (by simp), h4⟩
      rcases List.mem_append.1 hm with hm | hm
      · rcases List.mem_append.1 hm with hm | hm
        · exact ih1 _ (.imp hz (hs x' (by simp)) h1 h5 h6 h7 h9 h10) (fun _ h => h) m hm
        · exact ih2 _ (.child hz (hs x' (by simp))) (fun _ h => h) m hm
      · exact ih3 zs hz (fun y hy => hs y (by simp [hy])) m hm
  exact key h xs hr fun _ h => h

end Ginga
