import Verif.Proofs.RulesEnd
import Verif.Proofs.Events
import Verif.Proofs.Shared
/-!
# C44: rules and statements compile to equivalent predicates

The rules of a switch: one for each `bindRule`, in document order, with a predicate that is true exactly when the rule it names is; then one for each
`defaultComponent`, always true.
-/
namespace Ginga

/-- Something in the document `x` has the name `a`: it is one of the two that the parser uses itself, or the identifier of an element. -/
def HasName (x : Xml) (a : String) : Prop :=
  a = "__root__" ∨ a = "__settings__" ∨
    ∃ d, SubElt x d ∧ (d.tag = "ncl" ∨ d.tag = "body" ∨ d.tag = "context" ∨ d.tag = "switch" ∨ d.tag = "media") ∧ d.prop "id" = some a

/-- The element `y` of the switch `c` of the document `x` stands for the rule `q`: what it names is found, and is true when `q` is. -/
structure RuleOf (E : PRead) (x : Xml) (t : PS) (c y : Xml) (q : Nat × Pred) : Prop where
  rule : y.tag = "bindRule" → ∃ name r, y.prop "rule" = some name ∧ Named E x name r ∧ (r.tag = "rule" ∨ r.tag = "compositeRule") ∧
    if r.tag = "compositeRule" ∧ r.children = [] then q.2 = .falsum else ∀ v, q.2.truth v = ruleTrue v r
  default : y.tag = "defaultComponent" → q.2 = .verum
  component : ∀ d, d ∈ c.children ∨ d = c → (eltKind d).isSome = true → y.prop (if y.tag = "bindRule" then "constituent" else "component") = d.prop "id" →
    ∃ a, d.prop "id" = some a ∧ t.reg.getById a = some q.1
  /-- A child that shares the object of another element, or is a settings element: provided that its identifier is not one of the parser's, and no element refers to a settings
  element. -/
  shared : ∀ d o, d ∈ c.children → d.tag = "media" → eltKind d = none → ObjOf x t.reg d o → y.prop (if y.tag = "bindRule" then "constituent" else "component") = d.prop "id" →
    (∃ a, d.prop "id" = some a ∧ Unshared x d a) → q.1 = o
  /-- In any case the name is that of something. -/
  named : ∀ a, y.prop (if y.tag = "bindRule" then "constituent" else "component") = some a → HasName x a

theorem DocTree.hasName {E : PRead} {scr : Rect} {x : Xml} {t : PS} {ns : List Note} {f : Nat → Nat} (hd : DocTree E scr x t ns f) {j : Nat} {n : Note} {a : String} (hj : ns[j]? = some n)
    (ht : n.tag = "ncl" ∨ n.tag = "body" ∨ n.tag = "context" ∨ n.tag = "switch" ∨ n.tag = "media") (ha : n.get "id" = some a) : HasName x a := by
  obtain ⟨h1, h2, -⟩ := hd.main _ j n (Nat.lt_succ_self _) hj (by rcases ht with h | h | h | h | h <;> rw [h] <;> decide)
  refine .inr (.inr ⟨n.xml, h1, ht, ?_⟩)
  rw [← Note.get_main (hd.ok j n hj) h2 "id" (.inl (by rcases ht with h | h | h | h | h <;> rw [h] <;> decide))]; exact ha

/-- What has been found under a name has it in the document. -/
theorem named_end {E : PRead} {P : (Nat → Nat) → List Note → List Nat → PS → Prop} {scr : Rect} {z : Nat} {x : Xml} {t u : PS} {ns : List Note}
    {f : Nat → Nat} {m : Nat} (he : Ended P E scr z x t ns f m u) {a : String} (h : NamedIn ns a) : HasName x a := by
  rcases h with h | h | ⟨j, n, h1, h2, h3⟩ | ⟨j, n, h1, h2, h3⟩
  · exact .inl h
  · exact .inr (.inl h)
  · obtain ⟨i', n', e1, e2, e3, -⟩ := refers_end he h1 h2 h3
    exact he.tree.hasName e1 (by simp [e2]) e3
  · exact he.tree.hasName h1 h2 h3

/-- The object of an element that has no object of its own. -/
theorem shared_end {E : PRead} (hinj : ∀ i j, E.addr i = E.addr j → i = j) {P : (Nat → Nat) → List Note → List Nat → PS → Prop} {scr : Rect} {z : Nat} {x : Xml} {t u : PS} {ns : List Note}
    {f : Nat → Nat} {m : Nat} (he : Ended P E scr z x t ns f m u) (hb : ShBase E f ns [0] u) {i : Nat} {md : Note} {d : Xml} {o : Nat} (hi : ns[i]? = some md) (hx : md.xml = d)
    (hk : eltKind d = none) (ho : ObjOf x t.reg d o) : f i = o ∧ (d.tag = "media" → u.reg.obj (f i) ≠ none) := by
  obtain ⟨_, hkp⟩ := end_keeps hinj he
  have hd := he.tree
  have htag : md.tag = d.tag := by unfold Note.tag; rw [hx]
  have hp := (hd.main _ i md (Nat.lt_succ_self _) hi (by rw [htag]; exact objOf_tag ho)).2.1
  have hok := hd.ok i md hi
  have hkind : md.kind = none := by rw [Note.kind_main hok hp, hx]; exact hk
  have hget : ∀ a, (md.tag ≠ "link") → md.get a = d.prop a := fun a hne => by rw [Note.get_main hok hp a (.inl hne), hx]
  cases ho with
  | own h1 _ _ => rw [hk] at h1; cases h1
  | body h1 => exact ⟨hd.top i md hi (.inr (htag.trans h1)), fun h => absurd (h1.symm.trans h) (by decide)⟩
  | settings h1 h2 h3 h4 =>
    have hs := hb.2.1.2.settings i md hi (htag.trans h1) (by rw [hget _ (by rw [htag, h1]; decide)]; exact h2) hkind
    rw [hkp.2.2.1, hs] at h4
    obtain rfl := Option.some.inj h4
    refine ⟨rfl, fun _ hn => ?_⟩
    obtain ⟨b, z, g1, g2, -⟩ := he.treeK.world.settings
    rw [hs] at g1
    obtain rfl : f i = b := Option.some.inj g1
    rw [hn] at g2; cases g2
  | refer h1 h2 h3 h4 h5 h6 =>
    obtain ⟨j, m', -, -, g1, g2, g3, -, -⟩ := hd.laid.inside h3
    have hokm := hd.ok j m' g1
    have hmk : m'.kind = some .media := by rw [Note.kind_main hokm g3, g2]; exact h4
    have hid := (by rw [Note.get_main hokm g3 "id" (.inl (Note.kind_ne (by rw [hmk]; rfl)).1), g2]; exact h5 : m'.get "id" = some _)
    have hf := hb.2.1.2.done i j md m' _ hi (htag.trans h1) (by rw [hget _ (by rw [htag, h1]; decide)]; exact h2) g1 hmk hid
    refine ⟨?_, fun _ hn => ?_⟩
    · obtain ⟨a', q', e1, e2, e3⟩ := hd.made j m' _ g1 hmk
      rw [hid] at e1; cases e1
      rw [e3.byId hd.world.inv] at h6
      exact hf.trans (Option.some.inj h6)
    · obtain ⟨a', q', e1, e2, y, e3, -⟩ := he.treeK.made j m' _ g1 hmk
      rw [hf] at hn
      have e4 := e3.2
      rw [hn] at e4; cases e4

/-- The rules of the switch made from a switch element are its bind rules, in document order, and then its default components. -/
theorem C44_switch {E : PRead} (hinj : ∀ i j, E.addr i = E.addr j → i = j) {n : Nat} {W H : Int} {z : Nat} {x : Xml} {t : PS}
    (h : parseXml E n W H z x = .ok (some t)) {c : Xml} (hc : SubElt x c) (hs : c.tag = "switch") :
    ∃ i o, c.prop "id" = some i ∧ t.reg.getById i = some o ∧
      Each (RuleOf E x t c) ((c.children.filter fun y => y.tag == "bindRule") ++ c.children.filter fun y => y.tag == "defaultComponent") (t.rules o) := by
  obtain ⟨ns, f, m, u, he⟩ := doc_treeP hinj ((idK_extra hinj _ _).and ((rulesK_extra hinj _ _).and ((tabsK_rides E _ _).extra.and (sharedRules_extra hinj _ _))))
    (fun f reg hreg => ⟨idK_init hinj W H z hreg, rulesK_init hinj hreg, ⟨rfl, fun _ => rfl⟩, shBase_init hinj hreg, fun k n h => by simp at h⟩) h
  have hd := he.tree
  have hcl := (clear_end hinj he he.extra.1).1
  obtain ⟨u1, u2, u3, u4, hst⟩ := popNcl_stages he.run
  obtain ⟨π, hpi⟩ := he.pi
  obtain ⟨k, nt, -, -, g1, g2, g3, -, -⟩ := hd.laid.inside hc
  have htag : nt.tag = "switch" := by unfold Note.tag; rw [g2]; exact hs
  have hok := hd.ok k nt g1
  have hkind : nt.kind = some .switch := by unfold Note.kind; rw [if_pos htag]
  obtain ⟨i, q, a1, a2, a3⟩ := hd.made k nt .switch g1 hkind
  have hgi : c.prop "id" = some i := by rw [← g2, ← Note.get_main hok g3 "id" (.inl (by rw [htag]; decide))]; exact a1
  refine ⟨i, f k, hgi, a3.byId hd.world.inv, ?_⟩
  have hne : ∀ j w, ns[j]? = some w → w.tag ≠ "descriptor" → u1.elt j = u.elt j := by
    intro j w hj hw
    refine hst.f1.other j fun hm => hw ?_
    unfold PS.byTag at hm
    rw [← (he.j.tag hj).1]; simpa using (List.mem_filter.1 hm).2
  have hget : ∀ j w, ns[j]? = some w → w.tag ≠ "descriptor" → w.tag ≠ "region" → ∀ a, u1.attr j a = w.get a := by
    intro j w hj hw hw' a
    unfold PS.attr
    rw [hne j w hj hw, he.j.attrs hj hw' hw]; rfl
  obtain ⟨rs, r1, r2⟩ := switch_rules hinj he.j he.kc he.treeK he.extra.2.2.1.1 hst g1 htag
  have hk0 : k ∉ [0] := by
    intro hk
    obtain rfl : k = 0 := by simpa using hk
    have := (hok.parent q a2).1
    omega
  have hR := he.extra.2.1.2 k nt g1 htag hk0
  have hS := he.extra.2.2.2.2 k nt g1 htag hk0
  rw [hne k nt g1 (by rw [htag]; decide)] at r1 r2
  rw [r1]
  -- the elements
  have hL : ∀ w ∈ (kidNotes k 0 ns).filter fun q => q.2.push == .bindRule, ns[w.1]? = some w.2 ∧ w.2.parent = some k ∧ (w.2.tag = "bindRule" ∨ w.2.tag = "defaultComponent") := by
    intro w hw
    obtain ⟨hw1, hw2⟩ := List.mem_filter.1 hw
    obtain ⟨-, h1, h2⟩ := kidNotes_mem.1 hw1
    rw [Nat.sub_zero] at h1
    refine ⟨h1, h2, ?_⟩
    have : ∀ e ∈ syntaxTable, e.push = .bindRule → e.tag = "bindRule" ∨ e.tag = "defaultComponent" := by decide +kernel
    have hqb : w.2.push = .bindRule := by simpa using hw2
    unfold Note.push pushOf at hqb
    split at hqb
    · rename_i e' he'
      obtain ⟨q1, q2⟩ := syntaxOf_mem he'
      rw [← q2]; exact this e' q1 hqb
    · cases hqb
  have hq : ∀ w ∈ (kidNotes k 0 ns).filter fun q => q.2.push == .bindRule, (u1.elt w.1).tag = w.2.tag ∧ (w.2.tag = "bindRule" ∨ w.2.tag = "defaultComponent") := by
    intro w hw
    obtain ⟨h1, h2, h3⟩ := hL w hw
    refine ⟨?_, h3⟩
    rw [hne w.1 w.2 h1 (by rcases h3 with h | h <;> rw [h] <;> decide), (he.j.tag h1).1]
  have hch : ∀ tg, (tg = "bindRule" ∨ tg = "defaultComponent") → c.children.filter (fun y => y.tag == tg) =
      (((kidNotes k 0 ns).filter fun q => q.2.push == .bindRule).filter fun q => q.2.tag == tg).map fun q => q.2.xml := by
    intro tg htg
    rw [← g2, ← hd.kids g1, List.filter_map, List.filter_filter]
    congr 1
    refine List.filter_congr fun w _ => ?_
    show (w.2.tag == tg) = _
    by_cases hw : w.2.tag = tg
    · have : w.2.push = .bindRule := by
        unfold Note.push; rw [hw]; rcases htg with rfl | rfl <;> decide +kernel
      simp [hw, this]
    · simp [hw]
  -- what they name
  have hcomp : ∀ w ∈ (kidNotes k 0 ns).filter (fun q => q.2.push == .bindRule), ∀ r ∈ (u.elt k).rules, r.1 = w.1 → ∀ b, r.2 = some b →
      ∀ d, d ∈ c.children ∨ d = c → (eltKind d).isSome = true → w.2.xml.prop (if w.2.xml.tag = "bindRule" then "constituent" else "component") = d.prop "id" →
      ∃ a, d.prop "id" = some a ∧ t.reg.getById a = some b := by
    intro w hw r hr hrw b hb d hdc hdk hda
    obtain ⟨h1, h2, h3⟩ := hL w hw
    obtain ⟨-, b', hb', hall⟩ := hR r hr
    rw [hb] at hb'; obtain rfl : b = b' := by simpa using hb'
    rw [hrw] at hall
    have hwm : w.2.tag ∈ bodyTags := by rcases h3 with h | h <;> rw [h] <;> decide
    have hwp := (hd.main _ w.1 w.2 (Nat.lt_succ_self _) h1 hwm).2.1
    -- the element that is named
    obtain ⟨jd, md, d1, d2, d3, d4⟩ : ∃ (j : Nat) (m : Note), ns[j]? = some m ∧ m.xml = d ∧ m.pre = "" ∧ (m.parent = some k ∨ j = k) := by
      rcases hdc with hdc | rfl
      · rw [← g2, ← hd.kids g1] at hdc
        obtain ⟨q, hq1, hq2⟩ := List.mem_map.1 hdc
        obtain ⟨-, e1, e2⟩ := kidNotes_mem.1 hq1
        rw [Nat.sub_zero] at e1
        refine ⟨q.1, q.2, e1, hq2, ?_, .inl e2⟩
        refine (hd.main _ q.1 q.2 (Nat.lt_succ_self _) e1 ?_).2.1
        have : q.2.tag = d.tag := by unfold Note.tag; rw [hq2]
        rw [this]
        unfold eltKind at hdk
        split at hdk
        · rename_i h; rw [h]; decide
        · split at hdk
          · rename_i h; rw [h]; decide
          · split at hdk
            · rename_i h; rw [h.1]; decide
            · cases hdk
      · exact ⟨k, nt, g1, g2, g3, .inr rfl⟩
    have hdok := hd.ok jd md d1
    have hmk : md.kind = eltKind d := by rw [Note.kind_main hdok d3, d2]
    obtain ⟨kd, hkd⟩ := Option.isSome_iff_exists.1 hdk
    rw [hkd] at hmk
    obtain ⟨a, q', e1, e2, e3⟩ := hd.made jd md kd d1 hmk
    have hida : d.prop "id" = some a := by
      rw [← d2, ← Note.get_main hdok d3 "id" (.inl (Note.kind_ne (by rw [hmk]; rfl)).1)]; exact e1
    refine ⟨a, hida, ?_⟩
    rw [hida] at hda
    have hwc : ruleComp w.2 = some a := by
      unfold ruleComp
      rw [Note.get_main (hd.ok w.1 w.2 h1) hwp _ (.inl (by rcases h3 with h | h <;> rw [h] <;> decide))]
      exact hda
    rw [e3.byId hd.world.inv, hall w.2 a h1 hwc jd md d1 (by rw [hmk]; rfl) e1 d4]
  have hshared : ∀ w ∈ (kidNotes k 0 ns).filter (fun q => q.2.push == .bindRule), ∀ r ∈ (u.elt k).rules, r.1 = w.1 → ∀ b, r.2 = some b →
      ∀ d o, d ∈ c.children → d.tag = "media" → eltKind d = none → ObjOf x t.reg d o → w.2.xml.prop (if w.2.xml.tag = "bindRule" then "constituent" else "component") = d.prop "id" →
      (∃ a, d.prop "id" = some a ∧ Unshared x d a) → b = o := by
    rintro w hw r hr hrw b hb d o hdc hdt hdk hdo hda ⟨a, ha, hun⟩
    obtain ⟨h1, h2, h3⟩ := hL w hw
    obtain ⟨-, b', hb', hall⟩ := hS r hr
    rw [hb] at hb'; obtain rfl : b = b' := by simpa using hb'
    rw [hrw] at hall
    have hwm : w.2.tag ∈ bodyTags := by rcases h3 with h | h <;> rw [h] <;> decide
    have hwp := (hd.main _ w.1 w.2 (Nat.lt_succ_self _) h1 hwm).2.1
    rw [← g2] at hdc
    obtain ⟨jd, md, d1, d2, d4⟩ := child_note hd g1 hdc
    have hmt : md.tag = "media" := by unfold Note.tag; rw [d2]; exact hdt
    have d3 := (hd.main _ jd md (Nat.lt_succ_self _) d1 (by rw [hmt]; decide)).2.1
    have hdok := hd.ok jd md d1
    have hget : ∀ a, md.get a = d.prop a := fun a => by rw [Note.get_main hdok d3 a (.inl (by rw [hmt]; decide)), d2]
    have hmk : md.kind = none := by rw [Note.kind_main hdok d3, d2]; exact hdk
    have hwc : ruleComp w.2 = some a := by
      unfold ruleComp
      rw [Note.get_main (hd.ok w.1 w.2 h1) hwp _ (.inl (by rcases h3 with h | h <;> rw [h] <;> decide))]
      exact hda.trans ha
    obtain ⟨e1, e2⟩ := shared_end hinj he he.extra.2.2.2.1 d1 d2 hdk hdo
    have hfree := hcl jd md a d1 (.inr hmt) hmk (by rw [hget]; exact ha) (by rw [d2]; exact hun)
    rcases (hall w.2 a h1 hwc).2 jd md d1 hmt hmk (by rw [hget]; exact ha) d4 with g | ⟨j, n', n1, n2, n3⟩ | ⟨o', g⟩ | ⟨-, g⟩
    · exact g.trans e1
    · exact absurd ⟨j, n', n1, n2, n3⟩ hfree.2
    · rw [hfree.1] at g; cases g
    · exact absurd g (e2 hdt)
  have hnamed : ∀ w ∈ (kidNotes k 0 ns).filter (fun q => q.2.push == .bindRule), ∀ r ∈ (u.elt k).rules, r.1 = w.1 →
      ∀ a, w.2.xml.prop (if w.2.xml.tag = "bindRule" then "constituent" else "component") = some a → HasName x a := by
    intro w hw r hr hrw a ha
    obtain ⟨h1, h2, h3⟩ := hL w hw
    obtain ⟨-, b', hb', hall⟩ := hS r hr
    rw [hrw] at hall
    have hwp := (hd.main _ w.1 w.2 (Nat.lt_succ_self _) h1 (by rcases h3 with h | h <;> rw [h] <;> decide)).2.1
    refine named_end he (hall w.2 a h1 ?_).1
    unfold ruleComp
    rw [Note.get_main (hd.ok w.1 w.2 h1) hwp _ (.inl (by rcases h3 with h | h <;> rw [h] <;> decide))]
    exact ha
  rw [hch _ (.inl rfl), hch _ (.inr rfl)]
  refine Each.append (Each.map_left ?_) (Each.map_left (Each.map_right ?_))
  · refine (each_rules (he.j.rules g1) hq r2).imp ?_
    rintro w hw p ⟨r, hr, hrw, hb, hbp⟩
    obtain ⟨hw1, hw2⟩ := List.mem_filter.1 hw
    obtain ⟨h1, h2, h3⟩ := hL w hw1
    have hwt : w.2.tag = "bindRule" := by simpa using hw2
    have hwp := (hd.main _ w.1 w.2 (Nat.lt_succ_self _) h1 (by rw [hwt]; decide)).2.1
    refine ⟨fun _ => ?_, fun hc => ?_, hcomp w hw1 r hr hrw _ hb, hshared w hw1 r hr hrw _ hb, hnamed w hw1 r hr hrw⟩
    · obtain ⟨rule, rk, pk, b1, b2, b3, b4⟩ := hbp
      rw [hrw, hget w.1 w.2 h1 (by rw [hwt]; decide) (by rw [hwt]; decide), Note.get_main (hd.ok w.1 w.2 h1) hwp _ (.inl (by rw [hwt]; decide))] at b1
      obtain ⟨c1, c2, c3⟩ := PS.byId_some b2
      have hca : u1.cache = u.cache := by rw [hst.f1.state]
      rw [hca] at c1
      have hlt := he.kc.lt rk c1
      have hrk : ns[rk]? = some ns[rk] := List.getElem?_eq_getElem hlt
      generalize ns[rk] = mr at hrk
      have htg : (u1.elt rk).tag = mr.tag := by
        have := hst.f1.elt rk
        rw [this]; exact (he.j.tag hrk).1
      rw [htg] at c2
      have c2 : mr.tag = "rule" ∨ mr.tag = "compositeRule" := by simpa using c2
      rw [hget rk mr hrk (by rcases c2 with h | h <;> rw [h] <;> decide) (by rcases c2 with h | h <;> rw [h] <;> decide)] at c3
      rw [hne rk mr hrk (by rcases c2 with h | h <;> rw [h] <;> decide)] at b3
      have hpn : u1.pnode = u.pnode := by rw [hst.f1.state]
      refine ⟨rule, mr.xml, b1, hd.named hrk (by rcases c2 with h | h <;> rw [h] <;> decide) c3, c2, ?_⟩
      have hem := rule_empty hd hpi hrk c2 b3
      rw [hpn] at b4
      split
      · next hc =>
        rcases b4 with b4 | b4
        · exact b4.2
        · obtain ⟨c, hc'⟩ := hem.2 hc
          exact absurd hc' (b4.1 c)
      · next hc =>
        rcases b4 with b4 | b4
        · exact absurd (hem.1 b4.1) hc
        · intro v
          rw [PS.clone_congr hpn] at b4
          exact rule_truth hd hpi v _ rk mr pk p.2 hrk (pushOf_rule c2) b3 b4.2
    · have : w.2.tag = "defaultComponent" := hc
      rw [hwt] at this; exact absurd this (by decide)
  · refine (each_defaults (he.j.rules g1) hq fun r hr => ?_).imp ?_
    · obtain ⟨-, b, hb, -⟩ := hR r hr
      rw [hb]; rfl
    · rintro w hw b ⟨r, hr, hrw, hb⟩
      obtain ⟨hw1, hw2⟩ := List.mem_filter.1 hw
      have hwt : w.2.tag = "defaultComponent" := by simpa using hw2
      refine ⟨fun hc => ?_, fun _ => rfl, hcomp w hw1 r hr hrw _ hb, hshared w hw1 r hr hrw _ hb, hnamed w hw1 r hr hrw⟩
      have : w.2.tag = "bindRule" := hc
      rw [hwt] at this; exact absurd this (by decide)

/-- A document whose switch has the rule `r`, a default component, and a second rule after it. -/
def docRules (r : Xml) : Xml := .elem "ncl" [] [.elem "head" [] [.elem "ruleBase" [] [r,
    .elem "rule" [("id", "r2"), ("var", "user.age"), ("comparator", "gt"), ("value", "17")] []]],
  .elem "body" [] [.elem "port" [("id", "p"), ("component", "s")] [],
    .elem "switch" [("id", "s")] [.elem "bindRule" [("constituent", "a"), ("rule", "r")] [], .elem "defaultComponent" [("component", "d")] [],
      .elem "bindRule" [("constituent", "b"), ("rule", "r2")] [],
      .elem "media" [("id", "a")] [], .elem "media" [("id", "b")] [], .elem "context" [("id", "d")] []]]]

/-- A composite rule with a nested one. -/
def ruleDeep : Xml := .elem "compositeRule" [("id", "r"), ("operator", "or")] [
  .elem "rule" [("id", "x"), ("var", "system.language"), ("comparator", "eq"), ("value", "pt")] [],
  .elem "compositeRule" [("id", "y"), ("operator", "and")] []]

/-- A composite rule that is an empty conjunction. -/
def ruleEmpty : Xml := .elem "compositeRule" [("id", "r"), ("operator", "and")] []

/-- The hypotheses of `C44_switch` are met: this document is accepted and its switch has three rules, the default one last. -/
example : parsedAnd (parseXml pread0 20 800 600 0 (docRules ruleDeep)) (fun t => t.reg.objects.any fun o => (t.rules o).length == 3 &&
    (match (t.rules o)[2]? with | some (_, Pred.verum) => true | _ => false)) = true := by decide +kernel
example : SubElt (docRules ruleDeep) (.elem "switch" [("id", "s")] [.elem "bindRule" [("constituent", "a"), ("rule", "r")] [],
    .elem "defaultComponent" [("component", "d")] [], .elem "bindRule" [("constituent", "b"), ("rule", "r2")] [],
    .elem "media" [("id", "a")] [], .elem "media" [("id", "b")] [], .elem "context" [("id", "d")] []]) := by
  exact .child (.child .self (List.Mem.tail _ (List.Mem.head _))) (List.Mem.tail _ (List.Mem.head _))

/-- An empty conjunction named by a bind rule is false, although it is true where it is part of another rule. -/
theorem C44_fails_empty : ∃ t o a, parseXml pread0 20 800 600 0 (docRules ruleEmpty) = .ok (some t) ∧ t.reg.getById "s" = some o ∧
    (a, Pred.falsum) ∈ t.rules o ∧ ∀ v, ruleTrue v ruleEmpty = true := by
  have h : parsedAnd (parseXml pread0 20 800 600 0 (docRules ruleEmpty)) (fun t => match t.reg.getById "s" with
      | some o => (match t.rules o with | (_, Pred.falsum) :: _ => true | _ => false)
      | none => false) = true := by decide +kernel
  obtain ⟨t, ht, h⟩ := parsedAnd_iff.1 h
  split at h
  · rename_i o ho
    split at h
    · rename_i a l hl
      exact ⟨t, o, a, ht, ho, by rw [hl]; simp, fun v => by rfl⟩
    · cases h
  · cases h

/-- A document whose switch chooses between elements that share objects: one refers to a media element, the other is a settings element. -/
def docSharing : Xml := .elem "ncl" [] [.elem "head" [] [.elem "ruleBase" [] [.elem "rule" [("id", "r"), ("var", "user.age"), ("comparator", "gt"), ("value", "17")] []]],
  .elem "body" [] [.elem "port" [("id", "p"), ("component", "s")] [],
    .elem "switch" [("id", "s")] [.elem "bindRule" [("constituent", "a"), ("rule", "r")] [], .elem "defaultComponent" [("component", "b")] [],
      .elem "media" [("id", "a"), ("refer", "m")] [], .elem "media" [("id", "b"), ("type", "application/x-ncl-settings")] []],
    .elem "media" [("id", "m")] []]]

/-- The hypotheses of `RuleOf.shared` are met: nothing has the identifiers `a` and `b`; the rules lead to the object of `m` and to the settings. -/
example : parsedAnd (parseXml pread0 20 800 600 0 docSharing) (fun t => match t.reg.getById "s", t.reg.getById "m" with
    | some o, some m => (t.reg.getById "a").isNone && (t.reg.getById "b").isNone && (t.rules o).map Prod.fst == [m] ++ t.reg.settings.toList
    | _, _ => false) = true := by decide +kernel

end Ginga
