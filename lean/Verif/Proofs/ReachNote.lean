import Verif.Proofs.EndDoc
/-!
# The elements reached through imports have notes

The converse of `Laid.reached`: whatever is reached from the document, through any chain of imports, is among the notes.
-/
namespace Ginga

theorem Laid.sub_child {E : PRead} {al : List (String × String)} {pt : Option String} {y : Xml} :
    ∀ {par : Option Nat} {k : Nat} {xs : List Xml} {l : List Note}, Laid E al pt par k xs l → y ∈ xs →
      (∃ n ∈ l, n.xml = y ∧ n.pre = aliasPrefix al) ∧ ∃ par' k' l', Laid E al (some y.tag) par' k' y.children l' ∧ ∀ n ∈ l', n ∈ l := by
  intro par k xs l h
  induction h with
  | nil => simp
  | cons h1 h2 h3 h4 h5 _ _ ih =>
    intro hm
    rcases List.mem_cons.1 hm with rfl | hm
    · exact ⟨⟨_, List.mem_cons_self, h2, h4⟩, _, _, _, h5, fun n hn => by simp [hn]⟩
    · obtain ⟨⟨n, a1, a2⟩, p, k, l', b1, b2⟩ := ih hm
      exact ⟨⟨n, by simp [a1], a2⟩, p, k, l', b1, fun n hn => by simp [b2 n hn]⟩
  | imp h1 h2 h3 h4 h5 h6 h7 h8 h9 h10 _ h12 _ _ _ ih =>
    intro hm
    rcases List.mem_cons.1 hm with rfl | hm
    · exact ⟨⟨_, List.mem_cons_self, h2, h4⟩, _, _, _, h12, fun n hn => by simp [hn]⟩
    · obtain ⟨⟨n, a1, a2⟩, p, k, l', b1, b2⟩ := ih hm
      exact ⟨⟨n, by simp [a1], a2⟩, p, k, l', b1, fun n hn => by simp [b2 n hn]⟩

theorem Laid.sub_import {E : PRead} {al : List (String × String)} {tag : String} {y : Xml} {a d u : String} {root head : Xml}
    (e1 : y.tag = "importBase") (e2 : y.prop "alias" = some a) (e3 : y.prop "documentURI" = some d)
    (e4 : E.importUri (baseUri E al) d = .ok u) (e5 : E.file u = some root) (e6 : (root.findAll "head").head? = some head) :
    ∀ {xs : List Xml} {l : List Note} {pt : Option String} {par : Option Nat} {k : Nat}, Laid E al pt par k xs l → pt = some tag → y ∈ xs →
      ∃ par' k' l', Laid E (al ++ [(a, u)]) (some "head") par' k' (importedBases head tag) l' ∧ ∀ n ∈ l', n ∈ l := by
  intro xs l pt par k h
  induction h with
  | nil => simp
  | cons h1 h2 h3 h4 h5 _ _ ih =>
    intro hpt hm
    rcases List.mem_cons.1 hm with rfl | hm
    · exact absurd e1 h1
    · obtain ⟨p, k, l', b1, b2⟩ := ih e4 hpt hm
      exact ⟨p, k, l', b1, fun n hn => by simp [b2 n hn]⟩
  | imp h1 h2 h3 h4 h5 h6 h7 h8 h9 h10 h11 _ _ _ _ ih =>
    intro hpt hm
    rcases List.mem_cons.1 hm with rfl | hm
    · simp only [Option.some.injEq] at hpt
      subst hpt
      rw [e2] at h5
      obtain rfl : a = _ := by simpa using h5
      rw [e3] at h6
      obtain rfl : d = _ := by simpa using h6
      rw [e4] at h7
      obtain rfl : u = _ := by simpa using h7
      rw [e5] at h9
      obtain rfl : root = _ := by simpa using h9
      rw [e6] at h10
      obtain rfl : head = _ := by simpa using h10
      exact ⟨_, _, _, h11, fun n hn => by simp [hn]⟩
    · obtain ⟨p, k, l', b1, b2⟩ := ih e4 hpt hm
      exact ⟨p, k, l', b1, fun n hn => by simp [b2 n hn]⟩

/-- Every element reached from the document has a number. -/
theorem DocTree.note_of {E : PRead} {scr : Rect} {x : Xml} {t : PS} {ns : List Note} {f : Nat → Nat} (hd : DocTree E scr x t ns f) {al : List (String × String)}
    {pt : Option String} {xs : List Xml} (hr : Reached E x al pt xs) {y : Xml} (hy : y ∈ xs) :
    ∃ (k : Nat) (n : Note), ns[k]? = some n ∧ n.xml = y ∧ n.pre = aliasPrefix al := by
  have key : ∀ {al pt xs}, Reached E x al pt xs → ∃ par k l, Laid E al pt par k xs l ∧ ∀ n ∈ l, n ∈ ns := by
    intro al pt xs hr
    induction hr with
    | root => exact ⟨_, _, _, hd.laid, fun _ h => h⟩
    | child _ hm ih =>
      obtain ⟨p, k, l, h1, h2⟩ := ih
      obtain ⟨-, p', k', l', h3, h4⟩ := h1.sub_child hm
      exact ⟨p', k', l', h3, fun n hn => h2 n (h4 n hn)⟩
    | imp _ hm e1 e2 e3 e4 e5 e6 ih =>
      obtain ⟨p, k, l, h1, h2⟩ := ih
      obtain ⟨p', k', l', h3, h4⟩ := h1.sub_import e1 e2 e3 e4 e5 e6 rfl hm
      exact ⟨p', k', l', h3, fun n hn => h2 n (h4 n hn)⟩
  obtain ⟨p, k, l, h1, h2⟩ := key hr
  obtain ⟨⟨n, h3, h4, h5⟩, -⟩ := h1.sub_child hy
  obtain ⟨k, hk⟩ := List.mem_iff_getElem?.1 (h2 n h3)
  exact ⟨k, n, hk, h4, h5⟩

/-- The attributes of a region or of a descriptor, in the document or imported: the identifier, and the region of a descriptor, come with the aliases. -/
theorem Note.get_any {E : PRead} {scr : Rect} {g : List Note} {j : Nat} {n : Note} (h : NoteOk E scr g j n) (ht : n.tag = "region" ∨ n.tag = "descriptor") (a : String) :
    n.get a = if a = "id" ∨ a = "region" then (n.xml.prop a).map (n.pre ++ ·) else n.xml.prop a := by
  obtain ⟨e, he, hat⟩ := h.syn
  obtain ⟨hm, hm2⟩ := syntaxOf_mem he
  have htab : ∀ e ∈ syntaxTable, e.tag = "region" ∨ e.tag = "descriptor" → e.genId = false ∧
      ∀ q ∈ e.attrs, (q.2.isId = true ∨ q.2.isIdRef = true ↔ q.1 = "id" ∨ q.1 = "region") := by decide +kernel
  obtain ⟨t1, t2⟩ := htab e hm (by rw [hm2]; exact ht)
  unfold Note.get
  cases hx : n.xml.prop a with
  | some i =>
    obtain ⟨fl, hfl⟩ := hat.declared hx
    rw [hat.given _ fl i hfl hx]
    have := t2 _ hfl
    unfold qualify
    by_cases hc : a = "id" ∨ a = "region"
    · rw [if_pos hc, if_pos (this.2 hc)]; rfl
    · rw [if_neg hc, if_neg (fun h => hc (this.1 h))]
  | none =>
    have : (if a = "id" ∨ a = "region" then (none : Option String).map (n.pre ++ ·) else none) = none := by split <;> rfl
    rw [this]
    by_cases hd : a ∈ e.attrs.map Prod.fst
    · obtain ⟨q, hq, rfl⟩ := List.mem_map.1 hd
      exact hat.absent q.1 q.2 hq hx (by rw [t1]; simp)
    · exact hat.other _ hd

end Ginga
