import Verif.Proofs.PropEnd
/-!
# C47: the properties of a media override those of its descriptor

A media object is that of a media element and of the media elements that refer to it. A property named by a property element in any of these elements has the last
value that these elements give it, in document order, whatever the descriptor and its region say.
-/
namespace Ginga

/-- The media element `c` stands for the media `i`: it declares it or refers to it. -/
def standsFor (i : String) (c : Xml) : Prop := c.tag = "media" ∧ (c.prop "id" = some i ∧ c.prop "refer" = none ∨ c.prop "refer" = some i)

instance (i : String) (c : Xml) : Decidable (standsFor i c) := by unfold standsFor; infer_instance

/-- The media element `c` declares the media `i`. -/
def declares (i : String) (c : Xml) : Prop := c.tag = "media" ∧ c.prop "id" = some i ∧ c.prop "refer" = none

instance (i : String) (c : Xml) : Decidable (declares i c) := by unfold declares; infer_instance

/-- The value that the element `w.2`, in the element `w.1`, gives to the property `nm` of the object for which the elements of `S` stand: that of a property element
with a value; a media element that declares the object (`D`) gives its source (property `uri`) and type. -/
def gives (E : PRead) (S D : Xml → Prop) [DecidablePred S] [DecidablePred D] (nm : String) (w : Option Xml × Xml) : Option String :=
  if w.2.tag = "property" then
    if (∃ c, w.1 = some c ∧ S c) ∧ w.2.prop "name" = some nm ∧ (w.2.prop "value").getD "" ≠ "" then w.2.prop "value" else none
  else if D w.2 then
    if nm = "uri" then some (srcOf E (w.2.prop "src")) else if nm = "type" then some ((w.2.prop "type").getD "") else none
  else none

/-- The values given to a property, in document order. -/
def givenBy (E : PRead) (x : Xml) (S D : Xml → Prop) [DecidablePred S] [DecidablePred D] (nm : String) : List String := (x.listing none).filterMap (gives E S D nm)

/-- The values given to the property `nm` of the media `i`, in document order. -/
def given (E : PRead) (x : Xml) (i nm : String) : List String := givenBy E x (standsFor i) (declares i) nm

/-- One of the elements that stand for the object has a property element named `nm`. -/
def HasProperty (x : Xml) (S : Xml → Prop) (nm : String) : Prop := ∃ c y, SubElt x c ∧ S c ∧ y ∈ c.children ∧ y.tag = "property" ∧ y.prop "name" = some nm

section
variable {E : PRead} {scr : Rect} {z : Nat} {x : Xml} {T u : PS} {ns : List Note} {f : Nat → Nat} {P : (Nat → Nat) → List Note → List Nat → PS → Prop} {m : Nat}

/-- The values of an object before the last phase. -/
theorem given_notes (he : Ended P E scr z x T ns f m u) {o : Nat} (S D : Xml → Prop) [DecidablePred S] [DecidablePred D]
    (hS : ∀ (q : Nat) mq, ns[q]? = some mq → mq.tag = "body" ∨ mq.tag = "context" ∨ mq.tag = "media" → (f q = o ↔ S mq.xml))
    (hD : ∀ (j : Nat) n, ns[j]? = some n → n.pre = "" → (n.kind = some .media ∧ f j = o ↔ D n.xml)) (hDt : ∀ c, D c → c.tag = "media") (nm : String) :
    lastSet E f ns o nm = (givenBy E x S D nm).getLast? := by
  have hd := he.tree
  unfold lastSet givenBy
  have key : ns.zipIdx.filterMap (sets E f o nm) = (listingAll none [x]).filterMap (gives E S D nm) := by
    refine hd.laid.listing ?_ rfl (fun i n hn => by rw [Nat.zero_add]; exact hn)
    intro j n hj
    have hok := hd.ok j n hj
    unfold sets gives
    dsimp only
    by_cases ht : n.tag = "property"
    · have hpre := (hd.main _ j n (Nat.lt_succ_self _) hj (by rw [ht]; decide)).2.1
      have ht' : n.xml.tag = "property" := ht
      rw [if_pos ht, if_pos hpre, if_pos ht', Note.get_main hok hpre "name" (.inr (by decide)), Note.get_main hok hpre "value" (.inr (by decide))]
      have hiff : n.parent.map f = some o ↔ ∃ c, n.parent.map (xmlAt ns) = some c ∧ S c := by
        cases hpar : n.parent with
        | none => simp
        | some q =>
          obtain ⟨-, mq, b1, e, b2, b3, b4⟩ := hok.parent q hpar
          rw [(table_props e b2).2 (b3.trans ht)] at b4
          have b4 : mq.tag = "body" ∨ mq.tag = "context" ∨ mq.tag = "media" := by simpa using b4
          have hx : xmlAt ns q = mq.xml := by unfold xmlAt; rw [b1]
          rw [Option.map_some, Option.map_some, hx]
          constructor
          · intro hf; exact ⟨_, rfl, (hS q mq b1 b4).1 (Option.some.inj hf)⟩
          · rintro ⟨_, ⟨⟩, hs⟩; rw [(hS q mq b1 b4).2 hs]
      simp only [hiff]
    · have ht' : ¬ n.xml.tag = "property" := ht
      rw [if_neg ht, if_neg ht']
      by_cases hm : n.tag = "media"
      · have hpre := (hd.main _ j n (Nat.lt_succ_self _) hj (by rw [hm]; decide)).2.1
        have hg : ∀ a, n.get a = n.xml.prop a := fun a => Note.get_main hok hpre a (.inl (by rw [hm]; decide))
        rw [if_pos hpre, hg "src", hg "type"]
        simp only [hD j n hj hpre]
      · rw [if_neg (fun h => hm (Note.kind_media h.1).1)]
        split
        · rw [if_neg fun h => hm (hDt _ h)]
        · rfl
  rw [key]
  congr 2
  rw [listingAll, listingAll, List.append_nil]

/-- The property element of an object. -/
theorem HasProperty.note (hd : DocTree E scr x T ns f) {o : Nat} {S : Xml → Prop} {nm : String} (hp : HasProperty x S nm)
    (hS : ∀ (q : Nat) mq, ns[q]? = some mq → mq.tag = "body" ∨ mq.tag = "context" ∨ mq.tag = "media" → (f q = o ↔ S mq.xml))
    (hSt : ∀ c, S c → c.tag = "body" ∨ c.tag = "context" ∨ c.tag = "media") :
    ∃ (j q : Nat) (n : Note), ns[j]? = some n ∧ n.tag = "property" ∧ n.parent = some q ∧ n.get "name" = some nm ∧ f q = o := by
  obtain ⟨c', y, p1, p2, p3, p4, p5⟩ := hp
  obtain ⟨q, mq, -, -, q1, q2, q3, -, -⟩ := hd.laid.inside p1
  obtain ⟨j, mj, j1, j2, j3⟩ := child_note hd q1 (q2 ▸ p3)
  have hjt : mj.tag = "property" := by unfold Note.tag; rw [j2]; exact p4
  have hjp := (hd.main _ j mj (Nat.lt_succ_self _) j1 (by rw [hjt]; decide)).2.1
  exact ⟨j, q, mj, j1, hjt, j3, by rw [Note.get_main (hd.ok j mj j1) hjp "name" (.inr (by decide)), j2]; exact p5,
    (hS q mq q1 (by unfold Note.tag; rw [q2]; exact hSt c' p2)).2 (q2 ▸ p2)⟩

/-- The last value given to a property that has a property element. -/
theorem last_given (he : Ended P E scr z x T ns f m u) (hpk : PropK E f ns u) {o : Nat} (S D : Xml → Prop) [DecidablePred S] [DecidablePred D]
    (hS : ∀ (q : Nat) mq, ns[q]? = some mq → mq.tag = "body" ∨ mq.tag = "context" ∨ mq.tag = "media" → (f q = o ↔ S mq.xml))
    (hSt : ∀ c, S c → c.tag = "body" ∨ c.tag = "context" ∨ c.tag = "media")
    (hD : ∀ (j : Nat) n, ns[j]? = some n → n.pre = "" → (n.kind = some .media ∧ f j = o ↔ D n.xml)) (hDt : ∀ c, D c → c.tag = "media")
    {nm : String} (hp : HasProperty x S nm) : mget nm (T.props o) = (givenBy E x S D nm).getLast? := by
  obtain ⟨j, q, n, h1, h2, h3, h4, h5⟩ := hp.note he.tree hS hSt
  obtain ⟨a1, a2⟩ := hpk.ev j q n nm h1 h2 h3 h4
  rw [h5] at a1 a2
  obtain ⟨u1, u2, u3, u4, hstg⟩ := popNcl_stages he.run
  rw [(propKeep_stages hstg).2 a1 a2, hpk.val]
  exact given_notes he S D hS hD hDt nm

/-- What stands for a media, in notes. -/
theorem stands_note (he : Ended P E scr z x T ns f m u) (hr : RefK f ns u) (hsh : ShareK E f ns u) {k : Nat} {mk : Note} {i : String} (g1 : ns[k]? = some mk)
    (hkk : mk.kind = some .media) (hki : mk.get "id" = some i) :
    (∀ (q : Nat) mq, ns[q]? = some mq → mq.tag = "body" ∨ mq.tag = "context" ∨ mq.tag = "media" → (f q = f k ↔ standsFor i mq.xml)) ∧
    (∀ (j : Nat) n, ns[j]? = some n → n.pre = "" → (n.kind = some .media ∧ f j = f k ↔ declares i n.xml)) := by
  have hd := he.tree
  have hkt := (Note.kind_media hkk).1
  constructor
  · intro q mq hq hqt
    rw [share_iff he hr hsh g1 hkk hki hq hqt]
    have hpre := (hd.main _ q mq (Nat.lt_succ_self _) hq (by rcases hqt with h | h | h <;> rw [h] <;> decide)).2.1
    have hg : ∀ a, mq.get a = mq.xml.prop a := fun a => Note.get_main (hd.ok q mq hq) hpre a (.inl (by rcases hqt with h | h | h <;> rw [h] <;> decide))
    unfold standsFor
    constructor
    · rintro (rfl | ⟨h1, h2⟩)
      · rw [g1] at hq; cases hq
        exact ⟨hkt, .inl ⟨by rw [← hg]; exact hki, by rw [← hg]; exact (kind_media.1 hkk).2.1⟩⟩
      · exact ⟨h1, .inr (by rw [← hg]; exact h2)⟩
    · rintro ⟨h1, ⟨h2, h3⟩ | h2⟩
      · left
        exact hd.once q k mq mk i hq g1 (by rw [show mq.tag = "media" from h1]; decide) (by rw [hkt]; decide) (by rw [hg]; exact h2) hki
      · exact .inr ⟨h1, by rw [hg]; exact h2⟩
  · intro j n hj hpre
    have hok := hd.ok j n hj
    obtain ⟨i', p, e1, e2, e3⟩ := hd.made k mk .media g1 hkk
    rw [hki] at e1; cases e1
    constructor
    · rintro ⟨h1, h2⟩
      have hm := (Note.kind_media h1).1
      have hg : ∀ a, n.get a = n.xml.prop a := fun a => Note.get_main hok hpre a (.inl (by rw [hm]; decide))
      obtain ⟨i2, p2, c1, c2, c3⟩ := hd.made j n .media hj h1
      rw [h2] at c3
      obtain rfl := (e3.uniq c3).1
      exact ⟨hm, by rw [← hg]; exact c1, by rw [← hg]; exact (kind_media.1 h1).2.1⟩
    · rintro ⟨hm, h2, -⟩
      have hm : n.tag = "media" := hm
      have : j = k := hd.once j k n mk i hj g1 (by rw [hm]; decide) (by rw [hkt]; decide)
        (by rw [Note.get_main hok hpre "id" (.inl (by rw [hm]; decide))]; exact h2) hki
      subst this
      rw [g1] at hj; cases hj
      exact ⟨hkk, rfl⟩

end

/-- The last value that the media gives. -/
theorem C47_last {E : PRead} (hinj : ∀ i j, E.addr i = E.addr j → i = j) {n : Nat} {W H : Int} {z : Nat} {x : Xml} {t : PS} (h : parseXml E n W H z x = .ok (some t))
    {c : Xml} (hc : SubElt x c) (hk : eltKind c = some .media) {i nm : String} (hi : c.prop "id" = some i) (hp : HasProperty x (standsFor i) nm) :
    ∃ o, t.reg.getById i = some o ∧ mget nm (t.props o) = (given E x i nm).getLast? := by
  obtain ⟨ns, f, m, u, he⟩ := doc_treeP hinj ((rulesK_extra hinj _ _).and ((propK_extra hinj _ _).and (shareK_extra hinj _ _)))
    (fun f reg hreg => ⟨rulesK_init hinj hreg, propK_init f W H z reg 5, (rulesK_init hinj hreg).1.1, shareK_init f W H z reg 5⟩) h
  have hd := he.tree
  obtain ⟨⟨⟨hn, hr⟩, -⟩, hpk, -, hsh⟩ := he.extra
  obtain ⟨k, mk, -, -, g1, g2, g3, -, -⟩ := hd.laid.inside hc
  have hkk : mk.kind = some .media := by rw [Note.kind_main (hd.ok k mk g1) g3, g2]; exact hk
  have hkt := (Note.kind_media hkk).1
  have hki : mk.get "id" = some i := by rw [Note.get_main (hd.ok k mk g1) g3 "id" (.inl (by rw [hkt]; decide)), g2]; exact hi
  obtain ⟨i', p, e1, e2, e3⟩ := hd.made k mk .media g1 hkk
  rw [hki] at e1; cases e1
  obtain ⟨hS, hD⟩ := stands_note he hr hsh g1 hkk hki
  exact ⟨f k, e3.byId hd.world.inv, last_given he hpk _ _ hS (fun c h => .inr (.inr h.1)) hD (fun c h => h.1) hp⟩

/-- An element that is a settings node. -/
def isSettings (c : Xml) : Prop := c.tag = "media" ∧ c.prop "refer" = none ∧ (c.prop "type" = some "application/x-ginga-settings" ∨ c.prop "type" = some "application/x-ncl-settings")

instance : DecidablePred isSettings := fun c => by unfold isSettings; infer_instance

/-- The element stands for the settings object: a settings node, or a reference to one. -/
def forSettings (x c : Xml) : Prop := isSettings c ∨ c.tag = "media" ∧ ∃ d i, SubElt x d ∧ isSettings d ∧ d.prop "id" = some i ∧ c.prop "refer" = some i

section
variable {E : PRead} {scr : Rect} {z : Nat} {x : Xml} {T u : PS} {ns : List Note} {f : Nat → Nat} {P : (Nat → Nat) → List Note → List Nat → PS → Prop} {m : Nat}

/-- What stands for the settings object, in notes. -/
theorem settings_note (he : Ended P E scr z x T ns f m u) (hr : RefK f ns u) {b : Nat} (w1 : u.reg.settings = some b) {q : Nat} {mq : Note} (hq : ns[q]? = some mq) :
    (∀ kd, mq.kind = some kd → f q ≠ b) ∧
    (mq.tag = "body" ∨ mq.tag = "context" ∨ mq.tag = "media" → (isSettings mq.xml → f q = b) ∧ (f q = b → forSettings x mq.xml)) := by
  have hd := he.tree
  obtain ⟨yb, w2, w4⟩ : ∃ yb, u.reg.obj b = some yb ∧ yb.parent ≠ none := by
    obtain ⟨b', yb, w1', w2, w3, w4⟩ := he.treeK.world.settings
    rw [w1] at w1'; cases w1'
    exact ⟨yb, w2, by rw [w4]; simp⟩
  have hroot : u.reg.root ≠ b := by
    rintro rfl
    obtain ⟨Y, b1, b2, -⟩ := he.treeK.world.tree.root
    rw [w2] at b1; cases b1
    exact w4 b2
  have hnode : ∀ {k : Nat} {mk : Note} {kd : RKind}, ns[k]? = some mk → mk.kind = some kd → f k ≠ b := by
    rintro k mk kd hk hkk rfl
    obtain ⟨i, p, a1, a2, X, ⟨-, a3⟩, -, a4, -⟩ := he.treeK.made k mk kd hk hkk
    rw [w2] at a3; cases a3
    obtain ⟨Y, ⟨-, b1⟩, b2⟩ := (he.treeK.world.inv.settings _ w1 (f k)).2 rfl
    rw [w2] at b1; cases b1
    have : mk.kind ≠ some .settings := by
      unfold Note.kind; intro hc
      split at hc
      · cases hc
      · split at hc
        · cases hc
        · split at hc <;> cases hc
    exact this (by rw [hkk, ← a4, b2])
  refine ⟨fun kd hk => hnode hq hk, fun hqt => ?_⟩
  have hpre := (hd.main _ q mq (Nat.lt_succ_self _) hq (by rcases hqt with h | h | h <;> rw [h] <;> decide)).2.1
  have hg : ∀ a, mq.get a = mq.xml.prop a := fun a => Note.get_main (hd.ok q mq hq) hpre a (.inl (by rcases hqt with h | h | h <;> rw [h] <;> decide))
  rcases hqt with ht | ht | ht
  · refine ⟨fun hs => ?_, fun hf => absurd ((he.treeK.top q mq hq (.inr ht)).symm.trans hf) hroot⟩
    have : mq.tag = "media" := hs.1
    rw [ht] at this; exact absurd this (by decide)
  · refine ⟨fun hs => ?_, fun hf => absurd hf (hnode (kd := .context) hq (by unfold Note.kind; rw [ht]; simp))⟩
    have : mq.tag = "media" := hs.1
    rw [ht] at this; exact absurd this (by decide)
  · have hkind : ∀ {mq : Note}, mq.tag = "media" → (∀ a, mq.get a = mq.xml.prop a) → (isSettings mq.xml ↔ mq.kind = none ∧ mq.get "refer" = none) := by
      intro mq ht hg
      unfold isSettings Note.kind
      rw [ht, if_neg (by decide), if_neg (by decide), hg, hg, show mq.xml.tag = "media" from ht]
      by_cases h1 : mq.xml.prop "refer" = none
      · by_cases h2 : mq.xml.prop "type" = some "application/x-ginga-settings"
        · simp [h1, h2]
        · by_cases h3 : mq.xml.prop "type" = some "application/x-ncl-settings"
          · simp [h1, h3]
          · simp [h1, h2, h3]
      · simp [h1]
    constructor
    · rw [hkind ht hg]
      rintro ⟨h1, h2⟩
      have := hr.settings q mq hq ht h2 h1
      rw [w1] at this
      exact (Option.some.inj this).symm
    · intro hf
      have hkn : mq.kind = none := by
        cases hkq : mq.kind with
        | none => rfl
        | some kd => exact absurd hf (hnode hq hkq)
      cases hrq : mq.get "refer" with
      | none => exact .inl ((hkind ht hg).2 ⟨hkn, hrq⟩)
      | some r =>
        right
        obtain ⟨k2, m2, c1, c2, c3, c4⟩ := refer_target he hq ht hrq
        obtain ⟨s1, s2, -⟩ := hd.main _ k2 m2 (Nat.lt_succ_self _) c1 (by rw [c2]; decide)
        have hg2 : ∀ a, m2.get a = m2.xml.prop a := fun a => Note.get_main (hd.ok k2 m2 c1) s2 a (.inl (by rw [c2]; decide))
        cases hk2 : m2.kind with
        | some kd =>
          exfalso
          obtain rfl : kd = .media := by
            unfold Note.kind at hk2
            rw [c2, if_neg (by decide), if_neg (by decide)] at hk2
            split at hk2
            · exact (Option.some.inj hk2).symm
            · cases hk2
          exact hnode c1 hk2 ((hr.done q k2 mq m2 r hq ht hrq c1 hk2 c3).symm.trans hf)
        | none =>
          exact ⟨ht, m2.xml, r, s1, (hkind c2 hg2).2 ⟨hk2, c4⟩, by rw [← hg2]; exact c3, by rw [← hg]; exact hrq⟩

end

/-- A property that a settings node names has a value that a settings node, or a reference to one, gives. -/
theorem C47_settings {E : PRead} (hinj : ∀ i j, E.addr i = E.addr j → i = j) {n : Nat} {W H : Int} {z : Nat} {x : Xml} {t : PS} (h : parseXml E n W H z x = .ok (some t))
    {nm : String} (hp : HasProperty x isSettings nm) : ∃ o, t.reg.settings = some o ∧
      (∀ v, mget nm (t.props o) = some v → ∃ c y, SubElt x c ∧ forSettings x c ∧ y ∈ c.children ∧ y.tag = "property" ∧ y.prop "name" = some nm ∧ y.prop "value" = some v) ∧
      ((∀ c, SubElt x c → forSettings x c → isSettings c) → mget nm (t.props o) = (givenBy E x isSettings (fun _ => False) nm).getLast?) := by
  obtain ⟨ns, f, m, u, he⟩ := doc_treeP hinj ((rulesK_extra hinj _ _).and ((propK_extra hinj _ _).and (shareK_extra hinj _ _)))
    (fun f reg hreg => ⟨rulesK_init hinj hreg, propK_init f W H z reg 5, (rulesK_init hinj hreg).1.1, shareK_init f W H z reg 5⟩) h
  have hd := he.tree
  obtain ⟨⟨⟨hn, hr⟩, -⟩, hpk, -, hsh⟩ := he.extra
  obtain ⟨u1, u2, u3, u4, hstg⟩ := popNcl_stages he.run
  have hset : t.reg.settings = u.reg.settings := (propKeep_stages (o := 0) (nm := "") hstg).1.2.2
  obtain ⟨b, yb, w1, -⟩ := he.treeK.world.settings
  have hcl := fun (q : Nat) mq hq => settings_note he hr w1 (q := q) (mq := mq) hq
  refine ⟨b, by rw [hset, w1], fun v hv => ?_, fun hno => ?_⟩
  · obtain ⟨c, y, p1, p2, p3, p4, p5⟩ := hp
    obtain ⟨q, mq, -, -, q1, q2, q3, -, -⟩ := hd.laid.inside p1
    obtain ⟨j, mj, j1, j2, j3⟩ := child_note hd q1 (q2 ▸ p3)
    have hjt : mj.tag = "property" := by unfold Note.tag; rw [j2]; exact p4
    have hjp := (hd.main _ j mj (Nat.lt_succ_self _) j1 (by rw [hjt]; decide)).2.1
    obtain ⟨a1, a2⟩ := hpk.ev j q mj nm j1 hjt j3 (by rw [Note.get_main (hd.ok j mj j1) hjp "name" (.inr (by decide)), j2]; exact p5)
    rw [((hcl q mq q1).2 (.inr (.inr (by unfold Note.tag; rw [q2]; exact p2.1)))).1 (q2 ▸ p2)] at a1 a2
    rw [(propKeep_stages hstg).2 a1 a2, hpk.val] at hv
    obtain ⟨⟨n, k⟩, hm, hsv⟩ := List.mem_filterMap.1 (List.mem_of_getLast? hv)
    have hk : ns[k]? = some n := by simpa using List.mem_zipIdx_iff_getElem?.1 hm
    unfold sets at hsv
    dsimp only at hsv
    split at hsv
    · next ht =>
      split at hsv
      · next hc =>
        obtain ⟨hpar, hname, -⟩ := hc
        have hpre := (hd.main _ k n (Nat.lt_succ_self _) hk (by rw [ht]; decide)).2.1
        rw [Note.get_main (hd.ok k n hk) hpre _ (.inr (by decide))] at hname hsv
        obtain ⟨r, hr1, hr2⟩ := Option.map_eq_some_iff.1 hpar
        obtain ⟨-, mr, b1, e, b2, b3, b4⟩ := (hd.ok k n hk).parent r hr1
        rw [(table_props e b2).2 (b3.trans ht)] at b4
        have b4 : mr.tag = "body" ∨ mr.tag = "context" ∨ mr.tag = "media" := by simpa using b4
        rcases hd.laid.back k n hk with ⟨g1, -⟩ | ⟨g1, -⟩ | ⟨p', n', g1, g2, g3, g4⟩
        · rw [hr1] at g1; cases g1
        · rw [hr1] at g1; cases g1
        · rw [hr1] at g1; cases g1
          rw [Nat.zero_add] at b1 hr2
          rw [b1] at g2; cases g2
          exact ⟨mr.xml, n.xml, (hd.main _ _ mr (Nat.lt_succ_self _) b1 (by rcases b4 with h | h | h <;> rw [h] <;> decide)).1, ((hcl _ mr b1).2 b4).2 hr2, g3, ht, hname, hsv⟩
      · cases hsv
    · split at hsv
      · next hc => exact absurd hc.2 ((hcl k n hk).1 _ hc.1)
      · cases hsv
  · refine last_given he hpk isSettings (fun _ => False) (fun q mq hq hqt => ⟨fun hf => ?_, ((hcl q mq hq).2 hqt).1⟩) (fun c h => .inr (.inr h.1))
      (fun j n hj _ => ⟨fun h => absurd h.2 ((hcl j n hj).1 _ h.1), False.elim⟩) (fun c h => h.elim) hp
    exact hno _ (hd.main _ q mq (Nat.lt_succ_self _) hq (by rcases hqt with h | h | h <;> rw [h] <;> decide)).1 (((hcl q mq hq).2 hqt).2 hf)

/-- The listing has every element. -/
theorem mem_listingAll {p : Option Xml} : ∀ {xs : List Xml} {y : Xml}, y ∈ xs → ∀ {w}, w ∈ y.listing p → w ∈ listingAll p xs
  | c :: cs, y, hy, w, hw => by
    rw [listingAll, List.mem_append]
    rcases List.mem_cons.1 hy with rfl | hy
    · exact .inl hw
    · exact .inr (mem_listingAll hy hw)

theorem SubElt.listed {x c : Xml} (h : SubElt x c) : ∃ p, ∀ w, w ∈ c.listing p → w ∈ x.listing none := by
  induction h with
  | self => exact ⟨none, fun _ h => h⟩
  | @child p c _ hc ih =>
    obtain ⟨q, hq⟩ := ih
    refine ⟨some p, fun w hw => hq w ?_⟩
    rw [Xml.listing_eq, List.mem_cons]
    exact .inr (mem_listingAll hc hw)

mutual
theorem listing_back {x : Xml} : ∀ (y : Xml) (p : Option Xml), SubElt x y → ∀ w ∈ y.listing p, w = (p, y) ∨ ∃ d, w.1 = some d ∧ SubElt x d ∧ w.2 ∈ d.children
  | .elem tag attrs cs, p, hy, w, hw => by
    rw [Xml.listing, List.mem_cons] at hw
    rcases hw with hw | hw
    · exact .inl hw
    · exact .inr (listingAll_back cs (.elem tag attrs cs) hy (fun _ h => h) w hw)
theorem listingAll_back {x : Xml} : ∀ (cs : List Xml) (p : Xml), SubElt x p → (∀ c ∈ cs, c ∈ p.children) → ∀ w ∈ listingAll (some p) cs, ∃ d, w.1 = some d ∧ SubElt x d ∧ w.2 ∈ d.children
  | [], _, _, _, w, hw => by rw [listingAll] at hw; cases hw
  | c :: cs, p, hp, hc, w, hw => by
    rw [listingAll, List.mem_append] at hw
    rcases hw with hw | hw
    · rcases listing_back c (some p) (.child hp (hc c (by simp))) w hw with rfl | h
      · exact ⟨p, rfl, hp, hc c (by simp)⟩
      · exact h
    · exact listingAll_back cs p hp (fun c h => hc c (by simp [h])) w hw
end

theorem listing_sub {x d y : Xml} (h : (some d, y) ∈ x.listing none) : SubElt x d ∧ y ∈ d.children := by
  rcases listing_back x none .self _ h with h | ⟨d', h1, h2, h3⟩
  · cases h
  · cases h1; exact ⟨h2, h3⟩

/-- If the media has a property element with a value, and no other value, then this is the value of the property, whatever its descriptor and region say. -/
theorem C47_own {E : PRead} (hinj : ∀ i j, E.addr i = E.addr j → i = j) {n : Nat} {W H : Int} {z : Nat} {x : Xml} {t : PS} (h : parseXml E n W H z x = .ok (some t))
    {c : Xml} (hc : SubElt x c) (hk : eltKind c = some .media) {i nm v : String} (hi : c.prop "id" = some i) (h1 : nm ≠ "uri") (h2 : nm ≠ "type")
    {d y : Xml} (hd : SubElt x d) (hdi : standsFor i d) (hy : y ∈ d.children) (hyt : y.tag = "property") (hyn : y.prop "name" = some nm) (hyv : y.prop "value" = some v) (hv : v ≠ "")
    (hone : ∀ d y w, SubElt x d → standsFor i d → y ∈ d.children → y.tag = "property" → y.prop "name" = some nm → y.prop "value" = some w → w ≠ "" → w = v) :
    ∃ o, t.reg.getById i = some o ∧ mget nm (t.props o) = some v := by
  obtain ⟨o, g1, g2⟩ := C47_last hinj h hc hk hi ⟨d, y, hd, hdi, hy, hyt, hyn⟩
  refine ⟨o, g1, ?_⟩
  have hall : ∀ w ∈ given E x i nm, w = v := by
    intro w hw
    obtain ⟨⟨p, y'⟩, hm, hg⟩ := List.mem_filterMap.1 hw
    unfold gives at hg
    dsimp only at hg
    rw [if_neg h1, if_neg h2, ite_self] at hg
    split at hg
    · next hyt' =>
      split at hg
      · next hcond =>
        obtain ⟨⟨d', rfl, hd'⟩, hn', hv'⟩ := hcond
        rw [hg] at hv'
        obtain ⟨a1, a2⟩ := listing_sub hm
        exact hone d' y' w a1 hd' a2 hyt' hn' hg hv'
      · cases hg
    · cases hg
  have hmem : v ∈ given E x i nm := by
    refine List.mem_filterMap.2 ⟨(some d, y), ?_, ?_⟩
    · obtain ⟨p, hp⟩ := hd.listed
      refine hp _ ?_
      rw [Xml.listing_eq, List.mem_cons]
      exact .inr (mem_listingAll hy (by rw [Xml.listing_eq]; simp))
    · unfold gives
      dsimp only
      rw [if_pos hyt, if_pos ⟨⟨d, rfl, hdi⟩, hyn, by rw [hyv]; exact hv⟩, hyv]
  rw [g2]
  cases hl : (given E x i nm).getLast? with
  | none => rw [List.getLast?_eq_none_iff.1 hl] at hmem; cases hmem
  | some w => rw [hall w (List.mem_of_getLast? hl)]

/-- A document in which the descriptor of a media, and its region, give it a place; and the media, and a reference to it, give it another one. -/
def docOverride : Xml := .elem "ncl" [] [
  .elem "head" [] [
    .elem "regionBase" [] [.elem "region" [("id", "r"), ("left", "10%"), ("top", "20%"), ("zIndex", "3")] []],
    .elem "descriptorBase" [] [.elem "descriptor" [("id", "d"), ("region", "r"), ("explicitDur", "5s"), ("freeze", "true")] []]],
  .elem "body" [] [
    .elem "media" [("id", "m"), ("src", "a.png"), ("descriptor", "d")] [.elem "property" [("name", "left"), ("value", "30%")] [], .elem "property" [("name", "explicitDur"), ("value", "7s")] [],
      .elem "property" [("name", "freeze")] []],
    .elem "media" [("id", "n"), ("refer", "m")] [.elem "property" [("name", "left"), ("value", "40%")] []]]]

/-- The property `nm` of the object `i`. -/
def propAt (t : PS) (i nm : String) : Option String := (t.reg.getById i).bind fun o => mget nm (t.props o)

/-- The hypotheses are met: this document is accepted. The last value of `left` is that of the reference; the other properties are those of the media, or, for
those that it does not name, those of its descriptor. A property named without a value has none. -/
example : parsedAnd (parseXml pread0 20 800 600 0 docOverride) (fun t =>
    (propAt t "m" "left", propAt t "m" "explicitDur", propAt t "m" "freeze", propAt t "m" "uri") == (some "40%", some "7s", none, some (pread0.srcUri "a.png")) &&
    (propAt t "m" "top").isSome) = true := by decide +kernel

example : given pread0 docOverride "m" "left" = ["30%", "40%"] ∧ given pread0 docOverride "m" "freeze" = [] ∧ given pread0 docOverride "m" "uri" = [pread0.srcUri "a.png"] := by
  decide +kernel

/-- A document with a settings node and a reference `a1` to it, before or after it. -/
def docSettings (before : Bool) : Xml := .elem "ncl" [] [
  .elem "body" [] ([.elem "media" [("id", "m")] [], .elem "media" [("id", "a0"), ("refer", "m")] []] ++
    let st : Xml := .elem "media" [("id", "s"), ("type", "application/x-ginga-settings")] [.elem "property" [("name", "x"), ("value", "1")] []]
    let r : Xml := .elem "media" [("id", "a1"), ("refer", "s")] [.elem "property" [("name", "x"), ("value", "2")] []]
    if before then [r, st] else [st, r])]

/-- The hypotheses of `C47_settings` are met. A reference that comes before the settings node may be lost (the loop that redirects it stops at the reference `a0`): its
value is not the last one then, nor in any order. -/
example : (parsedAnd (parseXml pread0 20 800 600 0 (docSettings false)) fun t => propAt t "__settings__" "x" == some "2") = true ∧
    (parsedAnd (parseXml pread0 20 800 600 0 (docSettings true)) fun t => propAt t "__settings__" "x" == some "1" && (propAt t "a1" "x").isNone) = true := by decide +kernel

end Ginga
