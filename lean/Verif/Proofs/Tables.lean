import Verif.Proofs.Nest
/-!
# Tables filled at the end

While elements are processed no switch has a rule, and it has ports only if there are elements for them.
-/
namespace Ginga

/-- The tables of rules and of switch ports are the same. -/
def SameTabs (s t : PS) : Prop := t.rules = s.rules ∧ t.sports = s.sports

theorem sameTabs_atomic : PAtomic (fun _ => True) SameTabs where
  refl _ := ⟨rfl, rfl⟩
  trans h1 h2 := ⟨h2.1.trans h1.1, h2.2.trans h1.2⟩
  names _ _ := trivial
  attr _ _ _ _ _ := ⟨rfl, rfl⟩
  elt _ _ _ _ _ _ := ⟨rfl, rfl⟩
  reg _ _ _ _ _ := ⟨rfl, rfl⟩
  del _ _ := ⟨rfl, rfl⟩
  nalloc _ := ⟨rfl, rfl⟩
  objs _ _ := ⟨rfl, rfl⟩
  refer _ _ := ⟨rfl, rfl⟩
  conn _ _ := ⟨rfl, rfl⟩
  props _ _ _ _ _ _ := ⟨rfl, rfl⟩
  par _ _ _ := ⟨rfl, rfl⟩
  pred _ _ _ := ⟨rfl, rfl⟩

theorem sameTabs_push (E : PRead) (proc : Xml → PM Unit) (f : Push) (k : Nat) (h : f ≠ .importBase) : PRel SameTabs (push E proc f k) := by
  by_cases hr : f = .region
  · subst hr; exact PRel.pushRegion (sameTabs_atomic.atom E) E k fun _ _ _ => ⟨rfl, rfl⟩
  · exact PRel.push sameTabs_atomic E proc f k hr h fun _ _ => trivial

theorem sameTabs_pop (E : PRead) (n : Nat) (f : Pop) (k : Nat) (h : f ≠ .ncl) (h' : f ≠ .switch) : PRel SameTabs (pop E n f k) := by
  by_cases hr : f = .region
  · subst hr; exact PRel.popRegion (sameTabs_atomic.atom E) fun _ _ _ => ⟨rfl, rfl⟩
  · exact PRel.pop (sameTabs_atomic.atom E) sameTabs_atomic.objs n f k (fun _ _ _ => ⟨rfl, rfl⟩) (fun hc => absurd hc h) (fun hc => absurd hc h') hr

/-- The table of rules is the same. -/
def SameRules (s t : PS) : Prop := t.rules = s.rules

theorem sameRules_atomic : PAtomic (fun _ => True) SameRules where
  refl _ := rfl
  trans h1 h2 := h2.trans h1
  names _ _ := trivial
  attr _ _ _ _ _ := rfl
  elt _ _ _ _ _ _ := rfl
  reg _ _ _ _ _ := rfl
  del _ _ := rfl
  nalloc _ := rfl
  objs _ _ := rfl
  refer _ _ := rfl
  conn _ _ := rfl
  props _ _ _ _ _ _ := rfl
  par _ _ _ := rfl
  pred _ _ _ := rfl

/-- The ports that an element collects are those of the elements in it. -/
theorem effAll_switchPorts (j : Nat) : ∀ (i : Nat) (l : List Note) (e : Elt), (∀ n ∈ l, n.tag ≠ "switchPort") → (effAll j i l e).switchPorts = e.switchPorts
  | _, [], _, _ => rfl
  | i, n :: l, e, h => by
    rw [effAll, effAll_switchPorts j (i + 1) l _ fun m hm => h m (by simp [hm])]
    have hn : n.push ≠ .switchPort := by
      intro hc
      have : ∀ e ∈ syntaxTable, e.push = .switchPort → e.tag = "switchPort" := by decide +kernel
      unfold Note.push pushOf at hc
      split at hc
      · rename_i e he
        obtain ⟨h1, h2⟩ := syntaxOf_mem he
        exact h n (by simp) (h2 ▸ this e h1 hc)
      · cases hc
    unfold Note.eff
    split
    · rename_i hp
      have : ∀ f, f ≠ Push.switchPort → ∀ e' : Elt, (childEff f i n.tag n.get e').switchPorts = e'.switchPorts := by
        intro f hf e'
        cases f <;> simp only [childEff, ne_eq, not_true] at hf ⊢
        split
        · rfl
        · split <;> rfl
      rw [this _ hn]
      split <;> rfl
    · show (if _ then _ else e).switchPorts = _
      split <;> rfl

/-- While elements are processed. -/
def TabsK (g : List Note) (_ : List Nat) (s : PS) : Prop := s.rules = (fun _ => []) ∧ ((∀ n ∈ g, n.tag ≠ "switchPort") → s.sports = fun _ => [])

theorem tabsK_rides (E : PRead) (scr : Rect) (z0 : Nat) : Rides E scr z0 TabsK where
  same _ _ _ _ _ _ _ hk := hk
  push g S s s2 par pt x e r y nt proc a t hn hk h1 h2 h3 h4 := by
    have h := sameTabs_push E proc e.push s.nelt h1 s2 a t h2
    have hs := hn.state
    constructor
    · rw [h.1, hs]; exact hk.1
    · intro hg
      rw [h.2, hs]; exact hk.2 fun n hn => hg n (by simp [hn])
  imp g S s s2 par pt x e r y nt hn hk h1 := by
    have hs := hn.state
    constructor
    · rw [hs]; exact hk.1
    · intro hg
      rw [hs]; exact hk.2 fun n hn => hg n (by simp [hn])
  pop g O S s k nt e n a t hj hp hk h1 h2 h3 h4 h5 := by
    by_cases hsw : e.pop = .switch
    · rw [hsw] at h4
      have hr : SameRules s t := PRel.popSwitch (sameRules_atomic.atom E) sameRules_atomic.objs (fun _ _ => rfl) n k trivial s a t h4
      refine ⟨by rw [hr]; exact hk.1, fun hg => ?_⟩
      have hsp : (s.elt k).switchPorts = [] := by
        have he := hj.elt k nt h1
        have : (eraseE (s.elt k)).switchPorts = (eraseE (effAll k 0 g nt.base)).switchPorts := by rw [he]
        exact this.trans (effAll_switchPorts k 0 g nt.base hg)
      have key : PPost (popSwitch E n k) (fun _ t => t.sports = s.sports) s := by
        unfold popSwitch
        refine PPost.bind (PPost.peekObj fun o l ho => PPost.bind (PPost.object fun x hx => ?_))
        split
        · refine PPost.bind (PPost.get (PPost.bind ((PRel.resolveRules (sameTabs_atomic.toPBase.core E) o _ s).mono fun rs u hu => ?_)))
          rw [hsp]
          exact PPost.bind (PPost.modify (PPost.bind (PPost.pure' (PPost.modify hu.2))))
        · exact PPost.abort
      rw [key a t h4]; exact hk.2 hg
    · have h := sameTabs_pop E n e.pop k h3 hsw s a t h4
      exact ⟨by rw [h.1]; exact hk.1, fun hg => by rw [h.2]; exact hk.2 hg⟩

end Ginga
