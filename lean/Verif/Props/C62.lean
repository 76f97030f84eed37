import Verif.Props.C61
/-!
# C62: a transition shows its attributes

The attribute `transIn` of a descriptor, and of the media that use it, is a text that shows the attributes of the transition it names. `transWant` is that text.
The parser reads all attributes into one string before it builds the text: what it shows is right if at most one attribute is given, or all that are given agree.
-/
namespace Ginga

/-- The attributes of a transition besides its type. -/
def transNames : List String := ["subtype", "dur", "startProgress", "endProgress", "direction", "fadeColor", "horzRepeat", "vertRepeat", "borderWidth", "borderColor"]

/-- The text of a transition: each attribute has its value, or its default. -/
def transWant (a : String → Option String) (type : String) : String :=
  "{type='" ++ type ++ "',subtype='" ++ (a "subtype").getD "" ++ "',dur='" ++ (a "dur").getD "0" ++ "',startProgress='" ++ (a "startProgress").getD "0"
    ++ "',endProgress='" ++ (a "endProgress").getD "0" ++ "',direction='" ++ (a "direction").getD "forward" ++ "',fadeColor='" ++ (a "fadeColor").getD ""
    ++ "',horzRepeat='" ++ (a "horzRepeat").getD "0" ++ "',vertRepeat='" ++ (a "vertRepeat").getD "0" ++ "',borderWidth='" ++ (a "borderWidth").getD "0"
    ++ "',borderColor='" ++ (a "borderColor").getD "" ++ "'}"

/-- The value read last, if the given attributes agree. -/
theorem transLast_agree {attrs : List (String × String)} {v : String} : ∀ (l : List String) (cap : Nat) (b : Bool) (cur : String), (∀ n ∈ l, mget n attrs = none ∨ mget n attrs = some v) →
    (b = true → cur = v ∧ v.utf8ByteSize ≤ cap) → ∃ w, transLast attrs l cap b cur = some w ∧ ((∃ n ∈ l, mget n attrs = some v) → w = v) ∧ (b = true → w = v)
  | [], cap, b, cur, _, hb => ⟨cur, rfl, (fun ⟨_, h, _⟩ => by cases h), fun h => (hb h).1⟩
  | n :: l, cap, b, cur, h, hb => by
    unfold transLast
    rcases h n List.mem_cons_self with hn | hn
    · rw [hn]
      obtain ⟨w, h1, h2, h3⟩ := transLast_agree l cap b cur (fun m hm => h m (List.mem_cons_of_mem _ hm)) hb
      refine ⟨w, h1, ?_, h3⟩
      rintro ⟨m, hm, e⟩
      rcases List.mem_cons.1 hm with rfl | hm
      · rw [hn] at e; cases e
      · exact h2 ⟨m, hm, e⟩
    · rw [hn]
      dsimp only
      split
      · next hc =>
        obtain ⟨w, h1, h2, h3⟩ := transLast_agree l cap true v (fun m hm => h m (List.mem_cons_of_mem _ hm)) (fun _ => ⟨rfl, hc⟩)
        exact ⟨w, h1, fun _ => h3 rfl, fun _ => h3 rfl⟩
      · next hc =>
        split
        · next hb' => exact absurd (hb hb').2 hc
        · obtain ⟨w, h1, h2, h3⟩ := transLast_agree l (max v.utf8ByteSize (2 * cap)) true v (fun m hm => h m (List.mem_cons_of_mem _ hm)) (fun _ => ⟨rfl, Nat.le_max_left _ _⟩)
          exact ⟨w, h1, fun _ => h3 rfl, fun _ => h3 rfl⟩

/-- The text, if the given attributes agree. -/
theorem transText_agree {order : List String} {attrs : List (String × String)} {type v : String} (ho : ∀ n, n ∈ order ↔ n ∈ transNames)
    (h : ∀ n ∈ transNames, mget n attrs = none ∨ mget n attrs = some v) : transText order attrs type = some (transWant (fun n => mget n attrs) type) := by
  obtain ⟨w, h1, h2, -⟩ := transLast_agree (v := v) order (if type.utf8ByteSize ≤ 15 then 15 else max type.utf8ByteSize 30) false type (fun n hn => h n ((ho n).1 hn)) (by simp)
  unfold transText
  rw [h1, Option.map_some]
  have hw : ∀ n ∈ transNames, ∀ d, (if (mget n attrs).isSome = true then w else d) = (mget n attrs).getD d := by
    intro n hn d
    rcases h n hn with e | e
    · rw [e]; rfl
    · rw [e, h2 ⟨n, (ho n).2 hn, e⟩]; rfl
  unfold transShow transWant
  dsimp only
  rw [hw "subtype" (by decide), hw "dur" (by decide), hw "startProgress" (by decide), hw "endProgress" (by decide), hw "direction" (by decide), hw "fadeColor" (by decide),
    hw "horzRepeat" (by decide), hw "vertRepeat" (by decide), hw "borderWidth" (by decide), hw "borderColor" (by decide)]

/-- **C62, in part.** The `transIn` or `transOut` of a descriptor that names the transition `tr` shows the attributes of `tr`, if those that are given have one value.
(Missing: transitions with attributes of different values, for which the claim is false.) -/
theorem C62_shown_partial {E : PRead} (hinj : ∀ i j, E.addr i = E.addr j → i = j) (ho : ∀ n, n ∈ E.argOrder ↔ n ∈ transNames) {n : Nat} {W H : Int} {z : Nat} {x : Xml} {t : PS}
    (h : parseXml E n W H z x = .ok (some t)) {d tr : Xml} (hd : SubElt x d) (hdt : d.tag = "descriptor") {nm i ty v : String} (hnm : nm = "transIn" ∨ nm = "transOut")
    (hdi : ownAttr d nm = some i) (htr : SubElt x tr) (htt : tr.tag = "transition") (hti : tr.prop "id" = some i) (hty : tr.prop "type" = some ty)
    (hv : ∀ a ∈ transNames, tr.prop a = none ∨ tr.prop a = some v) :
    ∃ k, (t.elt k).tag = "descriptor" ∧ t.attr k nm = some (transWant tr.prop ty) ∧
      ((∀ al pt ys, Reached E x al pt ys → ∀ y ∈ ys, y.tag = "descriptorParam" → y.prop "name" ≠ some "id") → ∀ i, d.prop "id" = some i → t.byId i ["descriptor"] = some k) := by
  obtain ⟨k, k1, k2, -, k4⟩ := C61_descriptor hinj h hd hdt
  refine ⟨k, k1, ?_, k4⟩
  rw [k2 nm hnm, hdi]
  obtain ⟨ns, f, m, u, he⟩ := doc_treeP hinj (descK_extra hinj _ _) (fun f reg hreg => descK_init hinj W H z hreg) h
  have hD := he.tree
  obtain ⟨j, mj, -, -, g1, g2, g3, -, -⟩ := hD.laid.inside htr
  have hjt : mj.tag = "transition" := by unfold Note.tag; rw [g2]; exact htt
  have hg : ∀ a, mj.get a = tr.prop a := fun a => by rw [Note.get_main (hD.ok j mj g1) g3 a (.inl (by rw [hjt]; decide)), g2]
  obtain ⟨u1, u2, u3, u4, hst⟩ := popNcl_stages he.run
  have htags : ∀ k, (t.elt k).tag = (u.elt k).tag := fun k => by rw [hst.elt, hst.f1.elt]
  have hcache : t.cache = u.cache := by rw [hst.last]; exact (hst.f4.cache.trans (hst.f3.cache.trans hst.f2.cache)).trans (by rw [hst.f1.state])
  have hat : ∀ (q : Nat) mq, ns[q]? = some mq → mq.tag = "transition" → (t.elt q).attrs = mq.attrs := fun q mq hq hqt => by
    rw [hst.eltNe (by rw [(he.j.tag hq).1, hqt]; decide), he.j.attrs hq (by rw [hqt]; decide) (by rw [hqt]; decide)]
  have hby : t.byId i ["transition"] = some j := by
    cases hb : t.byId i ["transition"] with
    | some q =>
      obtain ⟨b1, b2, b3⟩ := PS.byId_some hb
      rw [hcache] at b1
      have hlt := he.kc.lt q b1
      have hk : ns[q]? = some ns[q] := List.getElem?_eq_getElem hlt
      have hqt : (ns[q]).tag = "transition" := by rw [← (he.j.tag hk).1, ← htags]; simpa using b2
      unfold PS.attr at b3
      rw [hat q _ hk hqt] at b3
      rw [hD.once q j _ mj i hk g1 (by rw [hqt]; decide) (by rw [hjt]; decide) b3 (by rw [hg]; exact hti)]
    | none =>
      exfalso
      have hm : j ∈ u.byTag "transition" := ((byTag_notes he.j he.kc (tag := "transition") (by decide) (by decide +kernel)).2 j).2 ⟨mj, g1, hjt⟩
      unfold PS.byTag at hm
      have hm := (List.mem_filter.1 hm).1
      unfold PS.byId at hb
      split at hb
      · cases hb
      · next hf =>
        rw [hcache] at hf
        have := List.find?_eq_none.1 hf j hm
        have e : t.attr j "id" = some i := by unfold PS.attr; rw [hat j mj g1 hjt, ← hti, ← hg]; rfl
        rw [htags, (he.j.tag g1).1, hjt, e] at this
        simp at this
  have hattr : ∀ a, mget a (t.elt j).attrs = tr.prop a := fun a => by rw [hat j mj g1 hjt]; exact hg a
  unfold PS.transVal
  rw [Option.bind_some, hby, Option.bind_some]
  have : t.attr j "type" = some ty := by rw [← hty]; exact hattr "type"
  rw [this, Option.bind_some, transText_agree (v := v) ho fun a ha => by rw [hattr]; exact hv a ha]
  congr 2
  funext a
  exact hattr a

/-! ## Failures -/

/-- The attributes of a transition with a subtype and a duration. -/
def transTwo : List (String × String) := [("dur", "2s"), ("id", "w"), ("subtype", "leftToRight"), ("type", "barWipe")]

theorem transLast_two : ∀ (l : List String) (cur : String) (b : Bool), "dur" ∈ l ∨ "subtype" ∈ l ∨ cur = "2s" ∨ cur = "leftToRight" → (∀ n ∈ l, n ∈ transNames) →
    transLast transTwo l 15 b cur = some "2s" ∨ transLast transTwo l 15 b cur = some "leftToRight"
  | [], cur, b, h, _ => by
    rcases h with h | h | h | h
    · cases h
    · cases h
    · exact .inl (by rw [h]; rfl)
    · exact .inr (by rw [h]; rfl)
  | n :: l, cur, b, h, hl => by
    have hl' : ∀ n ∈ l, n ∈ transNames := fun m hm => hl m (List.mem_cons_of_mem _ hm)
    unfold transLast
    by_cases h1 : n = "dur"
    · rw [h1, show mget "dur" transTwo = some "2s" from rfl]
      dsimp only
      rw [if_pos (by decide +kernel)]
      exact transLast_two l _ _ (.inr (.inr (.inl rfl))) hl'
    · by_cases h2 : n = "subtype"
      · rw [h2, show mget "subtype" transTwo = some "leftToRight" from rfl]
        dsimp only
        rw [if_pos (by decide +kernel)]
        exact transLast_two l _ _ (.inr (.inr (.inr rfl))) hl'
      · have : mget n transTwo = none := by
          have hn := hl n List.mem_cons_self
          refine mget_none fun p hp e => ?_
          simp only [transTwo, List.mem_cons, List.not_mem_nil, or_false] at hp
          rcases hp with rfl | rfl | rfl | rfl
          · exact h1 e.symm
          · rw [← e] at hn; exact absurd hn (by decide)
          · exact h2 e.symm
          · rw [← e] at hn; exact absurd hn (by decide)
        rw [this]
        refine transLast_two l cur b ?_ hl'
        rcases h with h | h | h
        · rcases List.mem_cons.1 h with h | h
          · exact absurd h.symm h1
          · exact .inl h
        · rcases List.mem_cons.1 h with h | h
          · exact absurd h.symm h2
          · exact .inr (.inl h)
        · exact .inr (.inr h)

/-- **The claim is false.** In whatever order the compiler evaluates the arguments, a transition with `subtype="leftToRight"` and `dur="2s"` shows one value for both. -/
theorem C62_fails_two (order : List String) (ho : ∀ n, n ∈ order ↔ n ∈ transNames) :
    (transText order transTwo "barWipe" = some (transWant (fun n => if n = "subtype" ∨ n = "dur" then some "2s" else none) "barWipe") ∨
     transText order transTwo "barWipe" = some (transWant (fun n => if n = "subtype" ∨ n = "dur" then some "leftToRight" else none) "barWipe")) ∧
    transText order transTwo "barWipe" ≠ some (transWant (fun n => mget n transTwo) "barWipe") := by
  have hd : "dur" ∈ order := (ho _).2 (by decide)
  have hcap : (if "barWipe".utf8ByteSize ≤ 15 then 15 else max "barWipe".utf8ByteSize 30) = 15 := by decide +kernel
  have key := transLast_two order "barWipe" false (.inl hd) fun n hn => (ho n).1 hn
  unfold transText
  rw [hcap]
  rcases key with h | h
  · rw [h, Option.map_some]
    exact ⟨.inl (by decide +kernel), by decide +kernel⟩
  · rw [h, Option.map_some]
    exact ⟨.inr (by decide +kernel), by decide +kernel⟩

/-- A document whose media `m` comes in with a transition. -/
def docTrans (attrs : List (String × String)) : Xml := .elem "ncl" [] [
  .elem "head" [] [
    .elem "transitionBase" [] [.elem "transition" ([("id", "w"), ("type", "barWipe")] ++ attrs) []],
    .elem "descriptorBase" [] [.elem "descriptor" [("id", "d"), ("transIn", "w")] []]],
  .elem "body" [] [.elem "media" [("id", "m"), ("src", "a.png"), ("descriptor", "d")] []]]

/-- The same for a document, with arguments evaluated from right to left (as GCC does on x86) and from left to right (as Clang does). -/
theorem C62_fails_document :
    (parsedAnd (parseXml pread0 20 800 600 0 (docTrans [("subtype", "leftToRight"), ("dur", "2s")])) fun t =>
      propAt t "m" "transIn" == some (transWant (fun n => if n = "subtype" ∨ n = "dur" then some "leftToRight" else none) "barWipe")) = true ∧
    (parsedAnd (parseXml { pread0 with argOrder := pread0.argOrder.reverse } 20 800 600 0 (docTrans [("subtype", "leftToRight"), ("dur", "2s")])) fun t =>
      propAt t "m" "transIn" == some (transWant (fun n => if n = "subtype" ∨ n = "dur" then some "2s" else none) "barWipe")) = true := by decide +kernel

/-- A value of more than 15 bytes that is read after another one: its pointer dangles. -/
theorem C62_fails_dangling : verdict (parseXml pread0 20 800 600 0 (docTrans [("subtype", "topLeftHorizontal"), ("dur", "2s")])) = .undefined ∧
    verdict (parseXml { pread0 with argOrder := pread0.argOrder.reverse } 20 800 600 0 (docTrans [("subtype", "leftToRight"), ("fadeColor", "lightgoldenrodyellow")])) = .undefined := by
  decide +kernel

/-- The hypotheses are met: a transition with one attribute is shown as it is. -/
example : (∀ n, n ∈ pread0.argOrder ↔ n ∈ transNames) ∧ parsedAnd (parseXml pread0 20 800 600 0 (docTrans [("dur", "2s")])) (fun t =>
    propAt t "m" "transIn" == some "{type='barWipe',subtype='',dur='2s',startProgress='0',endProgress='0',direction='forward',fadeColor='',horzRepeat='0',vertRepeat='0',borderWidth='0',borderColor=''}") = true := by
  refine ⟨fun n => ?_, by decide +kernel⟩
  simp only [pread0, transNames, List.mem_cons, List.not_mem_nil, or_false]
  constructor <;> (intro h; rcases h with h | h | h | h | h | h | h | h | h | h <;> simp [h])

end Ginga
