import Verif.Proofs.Conn
/-!
# Links and roles while elements are processed
-/
namespace Ginga

/-- The table of links is the same. -/
def SameLinks (s t : PS) : Prop := t.links = s.links

theorem sameLinks_atomic : PAtomic (fun _ => True) SameLinks where
  refl _ := rfl
  trans h1 h2 := h2.trans h1
  names _ _ := trivial
  attr _ _ _ _ _ := rfl
  elt _ _ _ _ _ _ := rfl
  reg _ _ _ _ _ := rfl
  del _ _ := rfl
  nalloc _ := rfl
  objs _ _ := rfl
  refer _ _ := rfl
  conn _ _ := rfl
  props _ _ _ _ _ _ := rfl
  par _ _ _ := rfl
  pred _ _ _ := rfl

theorem sameLinks_push (E : PRead) (proc : Xml → PM Unit) (f : Push) (k : Nat) (h : f ≠ .importBase) : PRel SameLinks (push E proc f k) := by
  by_cases hr : f = .region
  · subst hr; exact PRel.pushRegion (sameLinks_atomic.atom E) E k fun _ _ _ => rfl
  · exact PRel.push sameLinks_atomic E proc f k hr h fun _ _ => trivial

theorem sameLinks_pop (E : PRead) (n : Nat) (f : Pop) (k : Nat) (h : f ≠ .ncl) : PRel SameLinks (pop E n f k) := by
  by_cases hr : f = .region
  · subst hr; exact PRel.popRegion (sameLinks_atomic.atom E) fun _ _ _ => rfl
  · exact PRel.pop (sameLinks_atomic.atom E) sameLinks_atomic.objs n f k (fun _ _ _ => rfl) (fun hc => absurd hc h) (fun _ _ _ => rfl) hr

/-- No link is made while elements are processed, links know the object of the element they are in, and roles are well formed. -/
structure LinkK (f : Nat → Nat) (g : List Note) (s : PS) : Prop where
  links : s.links = fun _ => []
  role : ∀ (j : Nat) n, g[j]? = some n → n.push = .simpleCondition →
    ∃ r, simpleRole n.get (n.tag == "simpleCondition") ((n.get "role").getD "") (n.parent.getD 0) = some r
  ctx : ∀ (j : Nat) n, g[j]? = some n → n.tag = "link" → ∃ q, n.parent = some q ∧ (s.elt j).context = some (f q)

theorem append_key {g : List Note} {nt : Note} {j : Nat} {n : Note} (hj : (g ++ [nt])[j]? = some n) : (j < g.length ∧ g[j]? = some n) ∨ (j = g.length ∧ n = nt) := by
  by_cases hc : j < g.length
  · rw [List.getElem?_append_left hc] at hj; exact .inl ⟨hc, hj⟩
  · have hlt := (List.getElem?_eq_some_iff.1 hj).1
    have : j = g.length := by simp at hlt; omega
    subst this
    exact .inr ⟨rfl, by simpa using hj.symm⟩

theorem linkK_extra (E : PRead) (scr : Rect) (z0 : Nat) : Extra E scr z0 (fun f g _ s => LinkK f g s) where
  same f g S s y al ca hU h := ⟨h.links, h.role, h.ctx⟩
  imp f g S s s2 par pt x e r y nt hn ht hk hp := by
    obtain ⟨b1, b2, b3, b4, b5, b6, b7, b8, b9, b10, b11, b12, b13⟩ := ht.push_base hn
    have htg : nt.tag = "importBase" := by rw [b2, ← b4]; exact (table_objs e b3).2.2.2.2.2.2.1.1 hp
    refine ⟨by rw [hn.state]; exact hk.links, fun j n hj h1 => ?_, fun j n hj h1 => ?_⟩
    · rcases append_key hj with ⟨-, hj⟩ | ⟨-, rfl⟩
      · exact hk.role j n hj h1
      · exfalso
        unfold Note.push at h1; rw [htg] at h1; revert h1; decide +kernel
    · rcases append_key hj with ⟨hlt, hj⟩ | ⟨-, rfl⟩
      · have he : s2.elt j = s.elt j := by rw [hn.state]; exact upd_ne _ _ (by rw [b1]; omega)
        rw [he]; exact hk.ctx j n hj h1
      · rw [htg] at h1; exact absurd h1 (by decide)
  push f f' g S s s2 par pt x e r y nt proc a t hn ht hk himp hrun hpu hj hf ht' := by
    obtain ⟨b1, b2, b3, b4, b5, b6, b7, b8, b9, b10, b11, b12, b13⟩ := ht.push_base hn
    have hpe : nt.push = e.push := by
      unfold Note.push pushOf; rw [b2, ← b4, syntaxOf_complete b3]
    have hpar : (s2.elt s.nelt).parent = par := by rw [hn.state]; simp [upd_same]
    refine ⟨?_, fun j n hj h1 => ?_, fun j n hj h1 => ?_⟩
    · rw [show t.links = s2.links from sameLinks_push E proc e.push s.nelt himp s2 a t hrun, hn.state]; exact hk.links
    · rcases append_key hj with ⟨-, hj⟩ | ⟨-, rfl⟩
      · exact hk.role j n hj h1
      · rw [← hpe, h1] at hrun
        have key : PPost (pushSimpleCondition s.nelt) (fun _ _ => ∃ role r, s2.attr s.nelt "role" = some role ∧
            simpleRole (s2.attr s.nelt) ((s2.elt s.nelt).tag == "simpleCondition") role (((s2.elt s.nelt).parent).getD 0) = some r) s2 := by
          unfold pushSimpleCondition
          refine PPost.bind (PPost.get (PPost.bind (PPost.attr! fun role hr => PPost.bind (PPost.orErr fun r hr' => ?_))))
          exact fun _ _ _ => ⟨role, r, hr, hr'⟩
        obtain ⟨role, r', h2, h3⟩ := key a t hrun
        refine ⟨r', ?_⟩
        have : s2.attr s.nelt = n.get := funext b8
        rw [this] at h2 h3
        rw [h2, hn.parent, ← hpar, Option.getD_some, b2, ← b9]; exact h3
    · rcases append_key hj with ⟨hlt, hj⟩ | ⟨hl, rfl⟩
      · obtain ⟨q, h2, h3⟩ := hk.ctx j n hj h1
        have hq := ((hn.j.ok j n hj).parent q h2).1
        refine ⟨q, h2, ?_⟩
        rw [hf q (by omega), ← h3, hpu.other j (by rw [b1]; omega)]
        have he2 : s2.elt j = s.elt j := by rw [hn.state]; exact upd_ne _ _ (by rw [b1]; omega)
        rw [he2]
        split
        · rw [(childEff_tag _ _ _ _ _).2.2.2]
          split <;> rfl
        · rw [id_eq]; split <;> rfl
      · have hel : e.push = .link ∧ e.parents = ["body", "context"] := by
          have : ∀ e ∈ syntaxTable, e.tag = "link" → e.push = .link ∧ e.parents = ["body", "context"] := by decide +kernel
          exact this e b3 (b4.trans (b2.symm.trans h1))
        rw [hel.1] at hrun
        have key : PPost (pushLink s.nelt) (fun _ t => ∃ o l, s2.objs = o :: l ∧ (t.elt s.nelt).context = some o) s2 := by
          unfold pushLink
          refine PPost.bind (PPost.peekObj fun o l ho => PPost.bind (PPost.object fun x hx => ?_))
          split
          · exact PPost.modify ⟨o, l, ho, by simp [PS.setElt, upd_same]⟩
          · exact PPost.abort
        obtain ⟨o, l, h2, h3⟩ := key a t hrun
        cases hp : par with
        | none =>
          exfalso
          obtain ⟨hsyn, -, hwf⟩ := checkNode_ok hn.check
          obtain ⟨e', he', het', hpo, -⟩ := (hwf rfl).1.entry
          obtain rfl : e' = e := table_tag_inj e' e he' b3 (Eq.trans het' b4.symm)
          obtain ⟨q, hq, hq2⟩ := hpo (by rw [hel.2]; simp)
          have hq2 : pt = some q := hq2
          rw [hel.2] at hq
          rcases hn.top hp with ⟨h, hg⟩ | ⟨h, -⟩
          · rw [h] at hq2; cases hq2
          · rw [h] at hq2; cases hq2; revert hq; decide
        | some p =>
          obtain ⟨g1, g2, m, g3, g4⟩ := hn.up p hp
          refine ⟨p, by rw [hn.parent, hp], ?_⟩
          rw [hl, ← b1, h3, hf p g1]
          rw [b11, ht.stack] at h2
          cases S with
          | nil => simp at g2
          | cons p' S' =>
            obtain rfl : p' = p := by simpa using g2
            have ho : objAt g p' = true := by
              unfold objAt; rw [g3]
              rw [hel.2] at g4
              have : m.tag = "body" ∨ m.tag = "context" := by simpa using g4
              rcases this with h | h <;> dsimp only <;> rw [h] <;> decide
            rw [List.filter_cons_of_pos ho, List.map_cons] at h2
            rw [(List.cons.inj h2).1]
  pop f g O S s k nt e n a t hj hpi ht hk h1 h2 h3 h4 h5 ht' := by
    refine ⟨?_, hk.role, fun j m hj h => ?_⟩
    · rw [show t.links = s.links from sameLinks_pop E n e.pop k h3 s a t h4]; exact hk.links
    · obtain ⟨q, g1, g2⟩ := hk.ctx j m hj h
      refine ⟨q, g1, ?_⟩
      by_cases hjk : j = k
      · subst hjk; rw [h5.own]; exact g2
      · rw [h5.other j hjk]; exact g2

theorem linkK_init (f : Nat → Nat) (W H : Int) (z : Nat) (reg : Reg) (n : Nat) : LinkK f [] (PS.init W H z reg n) :=
  ⟨rfl, fun j n h => by simp at h, fun j n h => by simp at h⟩

end Ginga
