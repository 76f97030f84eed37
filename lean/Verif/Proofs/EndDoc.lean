import Verif.Proofs.Component
import Verif.Proofs.Tables
import Verif.Proofs.RuleTruth
import Verif.Props.C51
/-!
# The elements looked for at the end of the document
-/
namespace Ginga

theorem forEach_split {f : Nat → PM Unit} {k : Nat} : ∀ {l : List Nat} {s t : PS} {a : Unit}, k ∈ l → PM.forEach f l s = .ok (some (a, t)) →
    ∃ l1 l2 s1 s2, l = l1 ++ k :: l2 ∧ PM.forEach f l1 s = .ok (some ((), s1)) ∧ f k s1 = .ok (some ((), s2)) ∧ PM.forEach f l2 s2 = .ok (some ((), t))
  | [], _, _, _, h, _ => by cases h
  | b :: l, s, t, a, hk, h => by
    obtain ⟨x, u, h1, h2⟩ := PM.bind_ok.1 (show (f b >>= fun _ => PM.forEach f l) s = _ from h)
    by_cases hb : k = b
    · subst hb; exact ⟨[], l, s, u, rfl, rfl, h1, h2⟩
    · obtain ⟨l1, l2, s1, s2, e1, e2, e3, e4⟩ := forEach_split (List.mem_of_ne_of_mem hb hk) h2
      refine ⟨b :: l1, l2, s1, s2, by rw [e1]; rfl, ?_, e3, e4⟩
      exact PM.bind_ok.2 ⟨(), u, h1, e2⟩

theorem PS.clone_congr {s t : PS} (h : t.pnode = s.pnode) : ∀ n p, t.clone n p = s.clone n p
  | 0, _ => rfl
  | n + 1, p => by
    unfold PS.clone
    rw [h]
    have : t.clone n = s.clone n := funext fun q => PS.clone_congr h n q
    rw [this]

theorem PS.byId_congr {s t : PS} (h1 : t.cache = s.cache) (i : String) : ∀ {l : List String}, (∀ k, (t.elt k).tag = (s.elt k).tag ∧ ((s.elt k).tag ∈ l → (t.elt k).attrs = (s.elt k).attrs)) →
    t.byId i l = s.byId i l
  | [], _ => rfl
  | tg :: l, h => by
    unfold PS.byId
    rw [h1, PS.byId_congr h1 i fun k => ⟨(h k).1, fun hm => (h k).2 (by simp [hm])⟩]
    have : (fun k => (t.elt k).tag == tg && t.attr k "id" == some i) = fun k => (s.elt k).tag == tg && s.attr k "id" == some i := by
      funext k
      rw [(h k).1]
      by_cases hc : (s.elt k).tag = tg
      · unfold PS.attr; rw [(h k).2 (by simp [hc])]
      · have : ((s.elt k).tag == tg) = false := by simpa using hc
        rw [this, Bool.false_and, Bool.false_and]
    rw [this]

theorem PS.byId_some {s : PS} {i : String} {k : Nat} : ∀ {l : List String}, s.byId i l = some k → k ∈ s.cache ∧ (s.elt k).tag ∈ l ∧ s.attr k "id" = some i
  | [], h => by simp [PS.byId] at h
  | tg :: l, h => by
    unfold PS.byId at h
    split at h
    · next k' hk =>
      obtain rfl : k' = k := by simpa using h
      have h1 := List.find?_some hk
      simp only [Bool.and_eq_true, beq_iff_eq] at h1
      exact ⟨List.mem_of_find?_eq_some hk, by simp [h1.1], h1.2⟩
    · obtain ⟨h1, h2, h3⟩ := PS.byId_some h
      exact ⟨h1, by simp [h2], h3⟩

/-- The elements of a tag that is cached, in document order. -/
theorem byTag_range {E : PRead} {scr : Rect} {z : Nat} {ns : List Note} {u : PS} (hj : J E scr z ns u) (hkc : KC ns u) {tag : String} (hi : tag ≠ "importBase")
    (hc : cachedTag tag = true) : u.byTag tag = (List.range ns.length).filter fun k => tagAt ns k == tag := by
  have htag : ∀ k ∈ u.cache, (u.elt k).tag = tagAt ns k := by
    intro k hk
    have := hkc.lt k hk
    unfold tagAt
    rw [List.getElem?_eq_getElem this]
    exact (hj.tag (List.getElem?_eq_getElem this)).1
  have h1 : u.byTag tag = (u.cache.filter fun k => tagAt ns k != "importBase").filter fun k => tagAt ns k == tag := by
    unfold PS.byTag
    rw [List.filter_filter]
    refine List.filter_congr fun k hk => ?_
    rw [htag k hk]
    by_cases h : tagAt ns k = tag
    · simp [h, hi]
    · simp [h]
  rw [h1, hkc.eq, List.filter_filter]
  refine List.filter_congr fun k _ => ?_
  by_cases h : tagAt ns k = tag
  · simp [h, hc]
  · simp [h]

/-- The elements of a tag that is cached. -/
theorem byTag_notes {E : PRead} {scr : Rect} {z : Nat} {ns : List Note} {u : PS} (hj : J E scr z ns u) (hkc : KC ns u) {tag : String} (hi : tag ≠ "importBase")
    (hc : cachedTag tag = true) : (u.byTag tag).Nodup ∧ ∀ k, k ∈ u.byTag tag ↔ ∃ n, ns[k]? = some n ∧ n.tag = tag := by
  have h2 := byTag_range hj hkc hi hc
  refine ⟨by rw [h2]; exact List.filter_sublist.nodup List.nodup_range, fun k => ?_⟩
  rw [h2, List.mem_filter, List.mem_range]
  unfold tagAt
  constructor
  · rintro ⟨h, h'⟩
    rw [List.getElem?_eq_getElem h] at h' ⊢
    exact ⟨_, rfl, by simpa using h'⟩
  · rintro ⟨n, h, h'⟩
    refine ⟨(List.getElem?_eq_some_iff.1 h).1, ?_⟩
    rw [h]; simpa using h'

/-- `name` names the element `y` in the document `x`, or in a document imported by it: there `name` starts with the aliases of the imports. -/
def Named (E : PRead) (x : Xml) (name : String) (y : Xml) : Prop :=
  ∃ al pt xs, Reached E x al pt xs ∧ y ∈ xs ∧ ∃ i, y.prop "id" = some i ∧ name = aliasPrefix al ++ i

/-- The identifier of a numbered element. -/
theorem DocTree.named {E : PRead} {scr : Rect} {x : Xml} {t : PS} {ns : List Note} {f : Nat → Nat} (hd : DocTree E scr x t ns f) {j : Nat} {m : Note} {name : String}
    (hj : ns[j]? = some m) (hl : m.tag ≠ "link") (hn : m.get "id" = some name) : Named E x name m.xml := by
  obtain ⟨al, pt, xs, h1, h2, h3⟩ := hd.laid.reached .root m (List.mem_of_getElem? hj)
  refine ⟨al, pt, xs, h1, h2, ?_⟩
  obtain ⟨e, he, hat⟩ := (hd.ok j m hj).syn
  obtain ⟨hm, hm2⟩ := syntaxOf_mem he
  rcases hat.id hm with h | ⟨-, h⟩
  · have hn' : mget "id" m.attrs = some name := hn
    rw [h] at hn'
    obtain ⟨i, hi, rfl⟩ := Option.map_eq_some_iff.1 hn'
    exact ⟨i, hi, by rw [h3]⟩
  · exact absurd (hm2.symm.trans h) hl

end Ginga
