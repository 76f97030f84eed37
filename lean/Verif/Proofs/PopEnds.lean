import Verif.Proofs.CloneEnds
import Verif.Proofs.Refer
/-!
# The functions at the end of elements end

`popContext_settles`, `popSwitch_settles`, `popNcl_settles`: the resolution of ports, switch ports, and of the references of the whole document.
-/
namespace Ginga

/-- The objects are those of a document, and references have media objects. -/
structure RefsOk (E : PRead) (s : PS) : Prop where
  world : WorldOf E s
  refer : ReferM E s

theorem ReferM.keep {E : PRead} {s t : PS} (h : ReferM E s) (hk : EvKeep E s t) (hr : SameRefer s t) : ReferM E t := by
  intro q hq
  rw [show t.refer = s.refer from hr] at hq
  obtain ⟨h1, h2⟩ := h q hq
  refine ⟨h1.mono hk.1, fun x hx => ?_⟩
  obtain ⟨y, h3, h4⟩ := hk.2.1 _ h1 x hx
  rw [h4.kind]; exact h2 y h3

/-- Functions that keep both. -/
def KeepsRefs (E : PRead) (s t : PS) : Prop := RefsOk E s → RefsOk E t

section
variable {E : PRead} (hinj : ∀ i j, E.addr i = E.addr j → i = j)
include hinj

theorem keepsRefs_same {s t : PS} (h1 : t.reg = s.reg) (h2 : t.nalloc = s.nalloc) (h3 : t.refer = s.refer) (h4 : t.syn = s.syn) : KeepsRefs E s t := fun h =>
  ⟨((ostep_same h1 h2 h3 h4).2 h.world).1, h.refer.keep (evKeep_same h1 (Nat.le_of_eq h2.symm)) h3⟩

theorem keepsRefs_atom : PAtom E (fun _ => True) (KeepsRefs E) where
  refl _ h := h
  trans h h' g := h' (h g)
  event o e _ s a t ht h := ⟨((ostep_addEvent hinj o e s a t ht).2 h.world).1,
    h.refer.keep ((evKeep_core E).event o e trivial s a t ht) ((sameRefer_atom E).event o e trivial s a t ht)⟩
  props _ _ _ _ _ _ := keepsRefs_same hinj rfl rfl rfl rfl
  par _ _ _ := keepsRefs_same hinj rfl rfl rfl rfl
  conn _ _ := keepsRefs_same hinj rfl rfl rfl rfl
  pred _ _ _ := keepsRefs_same hinj rfl rfl rfl rfl
  names _ _ := trivial
  attr _ _ _ _ _ := keepsRefs_same hinj rfl rfl rfl rfl
  elt _ _ _ _ _ _ := keepsRefs_same hinj rfl rfl rfl rfl

theorem popContext_settles {s : PS} (h : RefsOk E s) (k : Nat) : PSettles (fun n => popContext n k) s := by
  unfold popContext
  refine PSettles.bindP PNF.peekObj (PPost.peekObj fun o l _ => PSettles.bindP (PNF.object _) (PPost.object fun x _ => ?_))
  by_cases hk : x.kind = .context
  · simp only [if_pos hk]
    refine PSettles.bindP PNF.get (PPost.get ?_)
    refine PSettles.bind (q := fun _ _ => popObj) (PSettles.forEach (I := RefsOk E) h ?_) fun _ _ _ _ => PNF.popObj.settles
    intro id _ t ht
    constructor
    · refine PSettles.bindP PNF.get (PPost.get (PSettles.bindP (PNF.some! _) (PPost.some! fun j _ => ?_)))
      exact PSettles.bind (resolveIface_settles ht.world ht.refer o j) fun _ _ _ _ => (PNF.modify _).settles
    · intro n a u hu
      have : PRel (KeepsRefs E) (do
        let s ← PM.get
        let j ← PM.some! (s.byId id ["port"])
        let e ← resolveIface n o j
        addPort o e.addr : PM Unit) := by
        have hR := (keepsRefs_atom hinj).toPCore
        repeat' with_reducible first | exact PRel.resolveIface hR _ _ _ | exact PRel.addPort hR (fun _ _ => keepsRefs_same hinj rfl rfl rfl rfl) _ _ | prel hR
      exact this t a u hu ht
  · simp only [if_neg hk]
    exact PNF.abort.settles

theorem resolveAll_settles (o : Nat) : ∀ l {s : PS}, RefsOk E s → PSettles (fun n => resolveAll n o l) s
  | [], _, _ => (PNF.pure' _).settles
  | j :: l, s, h => by
    unfold resolveAll
    refine PSettles.bind (resolveIface_settles h.world h.refer o j) fun n a t ht => ?_
    have h' : RefsOk E t := PRel.resolveIface (keepsRefs_atom hinj).toPCore n o j s a t ht h
    exact PSettles.bind (resolveAll_settles o l h') fun _ _ _ _ => (PNF.pure _).settles

theorem resolveSwitchPort_settles {s : PS} (h : RefsOk E s) (o : Nat) (id : String) : PSettles (fun n => resolveSwitchPort E n o id) s := by
  unfold resolveSwitchPort
  refine PSettles.bindP PNF.get (PPost.get (PSettles.bindP (PNF.some! _) (PPost.some! fun j _ => ?_)))
  exact PSettles.bind (resolveAll_settles hinj o _ h) fun _ _ _ _ => (PNF.bind (PNF.addEvent _ _ _) fun _ => PNF.modify _).settles

theorem popSwitch_settles {s : PS} (h : RefsOk E s) (k : Nat) : PSettles (fun n => popSwitch E n k) s := by
  unfold popSwitch
  refine PSettles.bindP PNF.peekObj (PPost.peekObj fun o l _ => PSettles.bindP (PNF.object _) (PPost.object fun x _ => ?_))
  have hR := keepsRefs_atom hinj
  by_cases hk : x.kind = .switch
  · simp only [if_pos hk]
    refine PSettles.bindP PNF.get (PPost.get ?_)
    refine PSettles.bind (PNF.resolveRules _ _).settles fun _ rs t ht => ?_
    have h' : RefsOk E t := PRel.resolveRules hR.toPCore o _ s rs t ht h
    refine PSettles.bindP (PNF.modify _) (PPost.modify ?_)
    refine PSettles.bind (q := fun _ _ => popObj) (PSettles.forEach (I := RefsOk E) (hR.elt t k { t.elt k with rules := rs } rfl rfl rfl h') ?_) fun _ _ _ _ => PNF.popObj.settles
    intro id _ u hu
    exact ⟨resolveSwitchPort_settles hinj hu o id, fun n a v hv => PRel.resolveSwitchPort hR.toPCore (fun _ _ => keepsRefs_same hinj rfl rfl rfl rfl) n o id trivial u a v hv hu⟩
  · simp only [if_neg hk]
    exact PNF.abort.settles

theorem pop_settles {s : PS} (h : RefsOk E s) (f : Pop) (k : Nat) (hf : f ≠ .ncl) : PSettles (fun n => pop E n f k) s := by
  by_cases h1 : f = .context
  · subst h1; exact popContext_settles hinj h k
  by_cases h2 : f = .switch
  · subst h2; exact popSwitch_settles hinj h k
  have key : ∀ n, pop E n f k = pop E 0 f k := by
    intro n
    cases f with
    | ncl => exact absurd rfl hf
    | context => exact absurd rfl h1
    | switch => exact absurd rfl h2
    | _ => rfl
  exact (PSettles.const (m := pop E 0 f k) ((PNF.pop E 0 f k hf h1 h2).ne s)).congr key

/-! ## The end of the document -/

theorem resolveTable_settles (ctx : Nat) : ∀ l acc {s : PS}, RefsOk E s → PSettles (fun n => resolveTable n ctx l acc) s
  | [], _, _, _ => (PNF.pure' _).settles
  | b :: l, acc, s, h => by
    unfold resolveTable
    refine PSettles.bindP PNF.get (PPost.get ?_)
    by_cases hb : b.elt ∈ s.cache
    · simp only [if_pos hb]
      refine PSettles.bind (resolveIface_settles h.world h.refer ctx b.elt) fun n e t ht => ?_
      have h' : RefsOk E t := PRel.resolveIface (keepsRefs_atom hinj).toPCore n ctx b.elt s e t ht h
      exact PSettles.bindP (PNF.object _) (PPost.object fun x _ => resolveTable_settles ctx l _ h')
    · simp only [if_neg hb]; exact PNF.abort.settles

omit hinj in
theorem PNF.roleEvent (r : Role) (e : EvRef) (a b c : List (String × String)) : PNF (roleEvent E r e a b c) := by
  unfold Ginga.roleEvent; nf2

omit hinj in
theorem PredsEnd.fixed {s t : PS} (h : PredsEnd s) (hf : Fixed s t) : PredsEnd t :=
  h.congr hf.cache hf.nelt (fun k => by rw [hf.elt]) (fun k => by rw [hf.elt]) hf.pnode hf.npred

/-- What the end of the document needs. -/
def EndOk (E : PRead) (s : PS) : Prop := RefsOk E s ∧ PredsEnd s

def KeepsEnd (E : PRead) (s t : PS) : Prop := EndOk E s → EndOk E t

omit hinj in
theorem keepsEnd_of {α : Type} {m : PM α} (h1 : PRel (KeepsRefs E) m) (h2 : PRel Fixed m) : PRel (KeepsEnd E) m := fun s a t ht h =>
  ⟨h1 s a t ht h.1, h.2.fixed (h2 s a t ht)⟩

theorem resolveRole_settles {s : PS} (h : EndOk E s) (ctx : Nat) (r : Role) (b : Bind) (x y z : List (String × String)) : PSettles (fun n => resolveRole E n ctx r b x y z) s := by
  unfold resolveRole
  refine PSettles.bindP PNF.get (PPost.get ?_)
  by_cases hb : b.elt ∉ s.cache
  · simp only [if_pos hb]; exact PNF.abort.settles
  · simp only [if_neg hb]
    refine PSettles.bind (resolveIface_settles h.1.world h.1.refer ctx b.elt) fun n e t ht => ?_
    have ht : EndOk E t := keepsEnd_of (PRel.resolveIface (keepsRefs_atom hinj).toPCore n ctx b.elt) (PRel.resolveIface (fixed_base.core E) n ctx b.elt) s e t ht h
    refine PSettles.bind (PNF.roleEvent r e _ _ _).settles fun _ v u hu => ?_
    have hu : EndOk E u := keepsEnd_of (PRel.roleEvent (keepsRefs_atom hinj).toPCore r e _ _ _ ⟨trivial, trivial⟩) (PRel.roleEvent (fixed_base.core E) r e _ _ _ ⟨trivial, trivial⟩) t v u hu ht
    refine PSettles.bind (p := fun _ => if r.cond then obtainPred r.parent else pure none) ?_ fun _ _ _ _ => (PNF.pure _).settles
    by_cases hc : r.cond = true
    · simp only [if_pos hc]; exact .const (obtainPred_ends hu.2 _)
    · simp only [if_neg hc]; exact (PNF.pure _).settles

theorem resolveRoles_settles (ctx : Nat) (roles : List Role) (x y z : List (String × String)) : ∀ l {s : PS}, EndOk E s → PSettles (fun n => resolveRoles E n ctx roles x y z l) s
  | [], _, _ => (PNF.pure' _).settles
  | (i, b) :: l, s, h => by
    unfold resolveRoles
    refine PSettles.bindP (PNF.some! _) (PPost.some! fun r _ => ?_)
    refine PSettles.bind (resolveRole_settles hinj h ctx r b x y z) fun n a t ht => ?_
    have ht : EndOk E t := keepsEnd_of (PRel.resolveRole (keepsRefs_atom hinj).toPCore n ctx r b x y z ⟨trivial, trivial⟩) (PRel.resolveRole (fixed_base.core E) n ctx r b x y z ⟨trivial, trivial⟩) s a t ht h
    exact PSettles.bind (resolveRoles_settles ctx roles x y z l ht) fun _ _ _ _ => (PNF.pure _).settles

theorem popLinkElt_settles {s : PS} (h : EndOk E s) (k : Nat) : PSettles (fun n => popLinkElt E n k) s := by
  unfold popLinkElt
  refine PSettles.bindP PNF.get (PPost.get (PSettles.bindP (PNF.attr! _ _) (PPost.attr! fun c _ => PSettles.bindP (PNF.orErr _) (PPost.orErr fun ck _ =>
    PSettles.bindP (PNF.some! _) (PPost.some! fun ctx _ => ?_)))))
  dsimp only
  have tab : ∀ l acc n v t, resolveTable n ctx l acc s = .ok (some (v, t)) → EndOk E t := fun l acc n v t ht =>
    keepsEnd_of (PRel.resolveTable (keepsRefs_atom hinj).toPCore n ctx l acc) (PRel.resolveTable (fixed_base.core E) n ctx l acc) s v t ht h
  generalize bindAll _ _ _ = b
  by_cases hb : ¬ allBound (s.elt ck).roles (s.elt ck).tests b = true
  · simp only [if_pos hb]; exact PNF.err.settles
  · simp only [if_neg hb]
    refine PSettles.bind (resolveTable_settles hinj ctx _ _ h.1) fun n tt t ht => ?_
    have ht := tab _ _ _ _ _ ht
    refine PSettles.bind (resolveTable_settles hinj ctx _ _ ht.1) fun n gh u hu => ?_
    have hu : EndOk E u := keepsEnd_of (PRel.resolveTable (keepsRefs_atom hinj).toPCore n ctx _ _) (PRel.resolveTable (fixed_base.core E) n ctx _ _) t gh u hu ht
    refine PSettles.bind (resolveRoles_settles hinj ctx _ _ _ _ _ hu) fun n v w _ => ?_
    by_cases hc : v.1 = [] ∨ v.2 = []
    · simp only [if_pos hc]; exact PNF.abort.settles
    · simp only [if_neg hc]; exact (PNF.modify _).settles

omit hinj in
theorem popRules_ends (E : PRead) (o : Nat) : ∀ l {s : PS}, PredsEnd s → popRules o l s ≠ .fuel
  | [], _, _ => by intro h; cases h
  | (j, c) :: l, s, h => by
    unfold popRules
    refine PM.bind_ne_fuel ((PNF.some! _).ne _) fun c' t ht => ?_
    obtain rfl : t = s := (PRel.some! (R := Eq) ⟨fun _ => rfl, Eq.trans⟩ _ s _ _ ht).symm
    refine PM.bind_ne_fuel (PNF.get.ne _) fun a u ha => ?_
    obtain ⟨rfl, rfl⟩ : a = t ∧ u = t := PPost.get (Q := fun a u => a = t ∧ u = t) ⟨rfl, rfl⟩ _ _ ha
    split
    · exact popRules_ends E o l h
    · refine PM.bind_ne_fuel (bindRulePred_ends h j) fun p v hv => ?_
      have hv := h.fixed (PRel.bindRulePred (fixed_base.core E) u j u p v hv)
      refine PM.bind_ne_fuel ((PNF.modify _).ne _) fun _ w hw => ?_
      exact popRules_ends E o l (hv.fixed (PRel.addRule (fixed_base.core E) (fun _ _ => ⟨rfl, rfl, rfl, rfl, rfl⟩) o c' p v _ w hw))

omit hinj in
theorem popSwitchElt_ends (E : PRead) {s : PS} (h : PredsEnd s) (k : Nat) : popSwitchElt k s ≠ .fuel := by
  unfold popSwitchElt
  refine PM.bind_ne_fuel (PNF.get.ne _) fun a u ha => ?_
  obtain ⟨rfl, rfl⟩ : a = s ∧ u = s := PPost.get (Q := fun a u => a = s ∧ u = s) ⟨rfl, rfl⟩ _ _ ha
  have eqp : PPre (@Eq PS) := ⟨fun _ => rfl, Eq.trans⟩
  refine PM.bind_ne_fuel ((PNF.attr! _ _).ne _) fun id t ht => ?_
  obtain rfl : t = u := (PRel.attr! eqp _ _ _ _ _ ht).symm
  refine PM.bind_ne_fuel ((PNF.some! _).ne _) fun o u hu => ?_
  obtain rfl : u = t := (PRel.some! eqp _ _ _ _ hu).symm
  refine PM.bind_ne_fuel ((PNF.object _).ne _) fun x t ht => ?_
  obtain rfl : t = u := (PRel.object eqp _ _ _ _ ht).symm
  split
  · intro h; cases h
  · exact PM.bind_ne_fuel (popRules_ends E o _ h) fun _ v _ => (PNF.forEach (fun _ => PNF.modify _) _).ne v

theorem popNcl_settles {s : PS} (h : EndOk E s) : PSettles (fun n => popNcl E n) s := by
  have hR := keepsRefs_atom hinj
  unfold popNcl
  refine PSettles.bindP PNF.get (PPost.get ?_)
  refine PSettles.bind (PNF.forEach (PNF.popDesc E) _).settles fun _ a t ht => ?_
  have h1 : EndOk E t := by
    have hd : DescOnly (s.byTag "descriptor") s t := PRel.forEachMem ⟨DescOnly.refl _, fun h h' => h.trans h'⟩ _ (fun k hk => popDesc_only hk) s _ _ ht
    refine ⟨PRel.forEachMem hR.toPPre _ (fun k _ => PRel.popDesc hR k) s _ _ ht h.1, h.2.congr ?_ ?_ ?_ ?_ ?_ ?_⟩
    · rw [hd.state]
    · rw [hd.state]
    · intro k; rw [hd.elt k]
    · intro k; rw [hd.elt k]
    · rw [hd.state]
    · rw [hd.state]
  refine PSettles.bind (PNF.forEach (PNF.popMediaElt E) _).settles fun _ a u hu => ?_
  have h2 : EndOk E u := keepsEnd_of (PRel.forEachMem hR.toPPre _ (fun k _ => PRel.popMediaElt hR.toPCore k (fun _ => trivial) trivial))
    (PRel.forEachMem fixed_base.toPPre _ fun k _ => PRel.popMediaElt (fixed_base.core E) k (fun _ => trivial) trivial) t _ _ hu h1
  have hfs : ∀ k, PRel (KeepsEnd E) (popSwitchElt k) := fun k => keepsEnd_of (PRel.popSwitchElt hR.toPCore (fun _ _ => keepsRefs_same hinj rfl rfl rfl rfl) k)
    (PRel.popSwitchElt (fixed_base.core E) (fun _ _ => ⟨rfl, rfl, rfl, rfl, rfl⟩) k)
  have hfl : ∀ n k, PRel (KeepsEnd E) (popLinkElt E n k) := fun n k => keepsEnd_of (PRel.popLinkElt hR.toPCore (fun _ _ => keepsRefs_same hinj rfl rfl rfl rfl) n k ⟨trivial, trivial⟩)
    (PRel.popLinkElt (fixed_base.core E) (fun _ _ => ⟨rfl, rfl, rfl, rfl, rfl⟩) n k ⟨trivial, trivial⟩)
  refine PSettles.bind (PSettles.forEach (f := fun _ => popSwitchElt) (I := EndOk E) h2 fun k _ v hv => ⟨.const (popSwitchElt_ends E hv.2 k), fun _ a w hw => hfs k v a w hw hv⟩) fun _ a v hv => ?_
  have h3 : EndOk E v := PRel.forEachMem ⟨fun _ h => h, fun h h' g => h' (h g)⟩ _ (fun k _ => hfs k) u a v hv h2
  refine PSettles.bind (PSettles.forEach (I := EndOk E) h3 fun k _ w hw => ⟨popLinkElt_settles hinj hw k, fun n a x hx => hfl n k w a x hx hw⟩) fun n a w hw => ?_
  exact (PNF.bind PNF.peekObj fun _ => PNF.popObj).settles
end

end Ginga
