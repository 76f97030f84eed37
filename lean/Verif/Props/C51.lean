import Verif.Proofs.Nest
/-!
# C51: the tree of objects is the tree of elements

Every context, every switch and every media element that is neither a reference nor the settings stands for one object, which has its `id` and is a child of
the object of the element around it; there are no other objects but the root and the settings.
-/
namespace Ginga

/-- The kind of the object that an element stands for (a media element that refers to another one, or to the settings, has no object of its own). -/
def eltKind (c : Xml) : Option RKind :=
  if c.tag = "switch" then some .switch
  else if c.tag = "context" then some .context
  else if c.tag = "media" ∧ c.prop "refer" = none ∧ c.prop "type" ≠ some "application/x-ginga-settings" ∧ c.prop "type" ≠ some "application/x-ncl-settings"
  then some .media else none

theorem table_kind : ∀ e ∈ syntaxTable, e.tag = "switch" ∨ e.tag = "context" ∨ e.tag = "media" →
    (∀ p ∈ e.parents, p = "body" ∨ p = "context" ∨ p = "switch") ∧ "head" ∉ e.parents := by decide +kernel

theorem Note.kind_main {E : PRead} {scr : Rect} {g : List Note} {j : Nat} {n : Note} (h : NoteOk E scr g j n) (hp : n.pre = "") : n.kind = eltKind n.xml := by
  unfold Note.kind eltKind
  rw [Note.get_main h hp _ (.inr (by decide)), Note.get_main h hp _ (.inr (by decide))]
  rfl

theorem Note.kind_tag {n : Note} {kd : RKind} (h : n.kind = some kd) : n.tag = "switch" ∨ n.tag = "context" ∨ n.tag = "media" := by
  unfold Note.kind at h
  split at h
  · left; assumption
  · split at h
    · right; left; assumption
    · split at h
      · rename_i h'; exact .inr (.inr h'.1)
      · cases h

/-- Every context, switch and plain media element has its object, and the object is in that of the element around it. -/
theorem C51_elements {E : PRead} (hinj : ∀ i j, E.addr i = E.addr j → i = j) {n : Nat} {W H : Int} {z : Nat} {x : Xml} {t : PS}
    (h : parseXml E n W H z x = .ok (some t)) {p c : Xml} (hp : SubElt x p) (hc : c ∈ p.children) {kd : RKind} (hk : eltKind c = some kd) :
    ∃ i o q, c.prop "id" = some i ∧ t.reg.getById i = some o ∧ t.reg.node o i kd (some q) ∧
      ((p.tag = "body" ∧ q = t.reg.root) ∨ ∃ kp j g, eltKind p = some kp ∧ p.prop "id" = some j ∧ t.reg.getById j = some q ∧ t.reg.node q j kp (some g)) := by
  obtain ⟨ns, f, hd⟩ := doc_tree hinj h
  obtain ⟨a, b, m, m', g1, g2, g3, g4, g5, g6, g7⟩ := hd.laid.inside_child hp hc
  have okm := hd.ok a m g1
  have okm' := hd.ok b m' g4
  have hkc : m'.kind = some kd := by rw [Note.kind_main okm' g6, g5]; exact hk
  obtain ⟨i, q, e1, e2, e3⟩ := hd.made b m' kd g4 hkc
  have htag := Note.kind_tag hkc
  rw [g7] at e2; obtain rfl : a = q := by simpa using e2
  have hid : c.prop "id" = some i := by
    rw [← g5, ← Note.get_main okm' g6 "id" (.inl (by rcases htag with h | h | h <;> rw [h] <;> decide))]; exact e1
  refine ⟨i, f b, f a, hid, e3.byId hd.world.inv, e3, ?_⟩
  obtain ⟨-, m1, hm1, e, he, het, hpe⟩ := okm'.parent a g7
  obtain rfl : m = m1 := by rw [g1] at hm1; simpa using hm1
  have hptag : m.tag = p.tag := by unfold Note.tag; rw [g2]
  rcases (table_kind e he (het ▸ htag)).1 m.tag hpe with hb | hb
  · exact .inl ⟨hptag ▸ hb, hd.top a m g1 (.inr hb)⟩
  · right
    have hkp : ∃ kp, m.kind = some kp := by
      rcases hb with hb | hb <;> simp [Note.kind, hb]
    obtain ⟨kp, hkp⟩ := hkp
    obtain ⟨j, q', d1, d2, d3⟩ := hd.made a m kp g1 hkp
    refine ⟨kp, j, f q', by rw [← g2, ← Note.kind_main okm g3]; exact hkp, ?_, d3.byId hd.world.inv, d3⟩
    rw [← g2, ← Note.get_main okm g3 "id" (.inl (by rcases hb with h | h <;> rw [h] <;> decide))]; exact d1

/-- The elements that come only from the main document. -/
def bodyTags : List String := ["ncl", "body", "context", "switch", "media", "port", "switchPort", "mapping", "bindRule", "defaultComponent", "property",
  "area", "link", "linkParam", "bind", "bindParam"]

/-- The elements of the body are elements of the main document. -/
theorem DocTree.main {E : PRead} {scr : Rect} {x : Xml} {t : PS} {ns : List Note} {f : Nat → Nat} (hd : DocTree E scr x t ns f) :
    ∀ (n j : Nat) (m : Note), j < n → ns[j]? = some m → m.tag ∈ bodyTags →
      SubElt x m.xml ∧ m.pre = "" ∧ (m.tag ≠ "ncl" → ∃ p, SubElt x p ∧ m.xml ∈ p.children)
  | 0, j, _, hj, _, _ => by omega
  | n + 1, j, m, hj, hm, ht => by
    have hok := hd.ok j m hm
    cases hp : m.parent with
    | none =>
      rcases hd.above j m hm hp with rfl | ⟨e, he, het, hh⟩
      · rcases hd.laid.back 0 m hm with ⟨-, g2, g3⟩ | ⟨-, g2⟩ | ⟨p, n', g1, -⟩
        · have hx : m.xml = x := by simpa using g2
          refine ⟨hx ▸ .self, g3, fun hc => ?_⟩
          exact absurd (by unfold Note.tag; rw [hx]; exact hd.root) hc
        · omega
        · rw [hp] at g1; cases g1
      · exfalso
        rw [← het] at ht
        have : ∀ e ∈ syntaxTable, e.tag ∈ bodyTags → "head" ∉ e.parents := by decide +kernel
        exact this e he ht hh
    | some p =>
      obtain ⟨hlt, m1, hm1, e, he, het, hpe⟩ := hok.parent p hp
      have htab : ∀ e ∈ syntaxTable, e.tag ∈ bodyTags → ∀ p ∈ e.parents, p ∈ bodyTags := by decide +kernel
      obtain ⟨i1, i2, -⟩ := hd.main n p m1 (by omega) hm1 (htab e he (het ▸ ht) m1.tag hpe)
      rcases hd.laid.back j m hm with ⟨g1, -⟩ | ⟨g1, -⟩ | ⟨p', n', g1, g2, g3, g4⟩
      · rw [hp] at g1; cases g1
      · rw [hp] at g1; cases g1
      · rw [hp] at g1
        obtain rfl : p = p' := by simpa using g1
        obtain rfl : m1 = n' := by rw [hm1] at g2; simpa using g2
        exact ⟨.child i1 g3, by rw [g4, i2], fun _ => ⟨_, i1, g3⟩⟩

/-- The root and the settings apart, every object of the document stands for such an element. -/
theorem C51_objects {E : PRead} (hinj : ∀ i j, E.addr i = E.addr j → i = j) {n : Nat} {W H : Int} {z : Nat} {x : Xml} {t : PS}
    (h : parseXml E n W H z x = .ok (some t)) {o : Nat} {id : String} {kd : RKind} {q : Option Nat} (ho : t.reg.node o id kd q) :
    o = t.reg.root ∨ t.reg.settings = some o ∨
      ∃ p c, SubElt x p ∧ c ∈ p.children ∧ eltKind c = some kd ∧ c.prop "id" = some id := by
  obtain ⟨ns, f, hd⟩ := doc_tree hinj h
  rcases hd.back o id kd q ho with h' | h' | ⟨j, m, h1, h2, h3⟩
  · exact .inl h'
  · exact .inr (.inl h')
  right; right
  obtain ⟨kd', hkd⟩ := Option.isSome_iff_exists.1 h2
  obtain ⟨i, q', e1, e2, e3⟩ := hd.made j m kd' h1 hkd
  have htag := Note.kind_tag hkd
  obtain ⟨i1, i2, i3⟩ := hd.main _ j m (Nat.lt_succ_self j) h1 (by rcases htag with h | h | h <;> simp [bodyTags, h])
  obtain ⟨p, hp1, hp2⟩ := i3 (by rcases htag with h | h | h <;> simp [h])
  rw [h3] at e3
  have hsame : kd' = kd ∧ i = id := by
    obtain ⟨x1, a1, a2, a3, -⟩ := e3
    obtain ⟨x2, b1, b2, b3, -⟩ := ho
    obtain rfl : x1 = x2 := by have := a1.2; rw [b1.2] at this; simpa using this.symm
    exact ⟨a3.symm.trans b3, a2.symm.trans b2⟩
  refine ⟨p, m.xml, hp1, hp2, ?_, ?_⟩
  · rw [← Note.kind_main (hd.ok j m h1) i2, hkd, hsame.1]
  · rw [← Note.get_main (hd.ok j m h1) i2 "id" (.inl (by rcases htag with h | h | h <;> rw [h] <;> decide)), e1, hsame.2]

/-- The root is a context that is in no other object, and the settings object is in the root. -/
theorem C51_roots {E : PRead} (hinj : ∀ i j, E.addr i = E.addr j → i = j) {n : Nat} {W H : Int} {z : Nat} {x : Xml} {t : PS}
    (h : parseXml E n W H z x = .ok (some t)) :
    (∃ y, t.reg.obj t.reg.root = some y ∧ y.kind = .context ∧ y.parent = none) ∧
    (∃ b y, t.reg.settings = some b ∧ t.reg.obj b = some y ∧ y.kind = .settings ∧ y.parent = some t.reg.root) := by
  obtain ⟨ns, f, hd⟩ := doc_tree hinj h
  refine ⟨?_, hd.world.settings⟩
  obtain ⟨y, hy, hk⟩ := hd.world.inv.rootKind
  obtain ⟨y', hy', hp', -⟩ := hd.world.tree.root
  obtain rfl : y = y' := by rw [hy] at hy'; simpa using hy'
  exact ⟨y, hy, hk, hp'⟩

/-- A body with a media, a context with a media and a switch, a reference and the settings. -/
def docTree : Xml := .elem "ncl" [] [.elem "head" [] [],
  .elem "body" [] [.elem "media" [("id", "a")] [],
    .elem "context" [("id", "c")] [.elem "media" [("id", "b")] [], .elem "switch" [("id", "s")] [.elem "media" [("id", "d")] []],
      .elem "media" [("id", "ra"), ("refer", "a")] []],
    .elem "media" [("id", "set"), ("type", "application/x-ginga-settings")] []]]

/-- The identifiers and the identifiers of the parents of the objects. -/
def treeOf (r : Res (Option PS)) : List (String × Option String) :=
  match r with
  | .ok (some s) => s.reg.objects.filterMap fun o => (s.reg.obj o).map fun x => (x.id, x.parent.bind fun p => (s.reg.obj p).map (·.id))
  | _ => []

example : treeOf (parseXml pread0 20 800 600 0 docTree) = [("__root__", none), ("__settings__", some "__root__"), ("a", some "__root__"),
    ("c", some "__root__"), ("b", some "c"), ("s", some "c"), ("d", some "s")] := by decide +kernel
example : ∀ i j, pread0.addr i = pread0.addr j → i = j := fun _ _ h => h

end Ginga
