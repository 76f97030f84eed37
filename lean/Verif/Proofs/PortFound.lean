import Verif.Proofs.Component
import Verif.Proofs.PropK
import Verif.Proofs.EndDoc
import Verif.Proofs.Events
import Verif.Proofs.Shared
/-!
# What ports and mappings name when their element is closed
-/
namespace Ginga

/-- In the element `k`, the component of the element `b` is the element `i`, that has an object of its own: a child of `k`, or `k` itself. -/
structure NComp (g : List Note) (k b i : Nat) (m : Note) : Prop where
  at' : g[i]? = some m
  kind : m.kind.isSome = true
  name : ∃ mb a, g[b]? = some mb ∧ mb.get "component" = some a ∧ m.get "id" = some a
  scope : m.parent = some k ∨ i = k

/-- The interface of `mb` names an event of type `ty` and name `nm` of the element `i` in `k`. -/
def NIface (g : List Note) (S : List Nat) (k i : Nat) (m mb : Note) (ty : EType) (nm : String) : Prop :=
  (mb.get "interface" = none ∧ ty = .presentation ∧ nm = "@lambda") ∨
  (mb.get "interface" = some nm ∧ (m.kind = some .media ∧ (ty = .presentation ∨ ty = .attribution ∧
      (i = k ∨ i ∉ S ∧ ∀ (j : Nat) (mj : Note), g[j]? = some mj → mj.tag = "area" → mj.parent = some i → mj.get "id" ≠ some nm)) ∨ m.kind = some .switch ∧ ty = .presentation ∨
    m.kind = some .context ∧ ty = .attribution ∧ (i = k ∨ i ∉ S ∧ ∀ (j : Nat) (mj : Note), g[j]? = some mj → mj.tag = "port" → mj.parent = some i → mj.get "id" ≠ some nm)))

/-- In the element `k`, the component of the element `b` is the media element `i`, that has no object of its own. -/
structure SComp (g : List Note) (k b i : Nat) (m : Note) : Prop where
  at' : g[i]? = some m
  media : m.tag = "media"
  kind : m.kind = none
  parent : m.parent = some k
  name : ∃ mb a, g[b]? = some mb ∧ mb.get "component" = some a ∧ m.get "id" = some a

/-- The element `b` names the event `e` of the object of `i`, that has none of its own.  (Or somebody refers to the name, or it is that of an object, or the object was deleted; or the object
is not one of a media element.) -/
def SFound (f : Nat → Nat) (g : List Note) (r : Reg) (b i e : Nat) : Prop :=
  ∀ mb a, g[b]? = some mb → mb.get "component" = some a → referName g a ∨ (∃ o', r.getById a = some o') ∨ r.obj (f i) = none ∨
    ∃ X, r.obj (f i) = some X ∧ (X.kind = .media ∨ X.kind = .settings → ∃ p ty nm, X.getEvent ty nm = some p ∧ e = p.1 ∧
      (mb.get "interface" = none ∧ ty = .presentation ∧ nm = "@lambda" ∨ mb.get "interface" = some nm ∧ (ty = .presentation ∨ ty = .attribution)))

/-- In the element `k`, the element `b` names the event `e`. -/
inductive Found (f : Nat → Nat) (g : List Note) (S : List Nat) (r : Reg) : Nat → Nat → Nat → Prop
  | stray {k b e} : (∀ i m, ¬ NComp g k b i m) → (∀ i m, SComp g k b i m → SFound f g r b i e) →
      (∀ mb a, g[b]? = some mb → mb.get "component" = some a → NamedIn g a) → Found f g S r k b e
  | event {k b i m mb ty nm X p} : NComp g k b i m → g[b]? = some mb → NIface g S k i m mb ty nm → r.obj (f i) = some X → X.getEvent ty nm = some p →
      Found f g S r k b p.1
  | port {k b i j m mb mj a e} : NComp g k b i m → m.kind = some .context → i ≠ k → i ∉ S → g[b]? = some mb → mb.get "interface" = some a → g[j]? = some mj → mj.tag = "port" →
      mj.parent = some i → mj.get "id" = some a → Found f g S r i j e → Found f g S r k b e

theorem Found.named {f : Nat → Nat} {g : List Note} {S : List Nat} {r : Reg} {k b e : Nat} (h : Found f g S r k b e) {mb : Note} {a : String} (hb : g[b]? = some mb)
    (ha : mb.get "component" = some a) : NamedIn g a := by
  have own : ∀ {i : Nat} {m : Note}, NComp g k b i m → NamedIn g a := by
    intro i m hc
    obtain ⟨mb', a', h1, h2, h3⟩ := hc.name
    rw [hb] at h1; cases h1
    rw [ha] at h2; cases h2
    refine .inr (.inr (.inr ⟨i, m, hc.at', ?_, h3⟩))
    obtain ⟨kd, hkd⟩ := Option.isSome_iff_exists.1 hc.kind
    rcases Note.kind_tag hkd with h | h | h <;> simp [h]
  cases h with
  | stray _ _ h => exact h mb a hb ha
  | event hc => exact own hc
  | port hc => exact own hc

theorem resolveIface_same : ∀ (n c k : Nat) (s : PS), PPost (resolveIface n c k) (fun _ t => t = s) s
  | 0, _, _, _ => PPost.fuel
  | n + 1, c, k, s => by
    unfold resolveIface resolveComponent
    refine PPost.bind (PPost.bind (PPost.get (PPost.bind (PPost.attr! fun a _ => PPost.orErr fun o _ => PPost.bind (PPost.object fun X _ => PPost.bind (PPost.get ?_))))))
    split
    · exact PPost.some! fun _ _ => rfl
    · split
      · split
        · exact PPost.pure rfl
        · exact PPost.orErr fun _ _ => rfl
      · split
        · exact PPost.pure rfl
        · exact PPost.orErr fun _ _ => rfl
      · split
        · exact PPost.orErr fun _ _ => rfl
        · split
          · exact PPost.orErr fun _ _ => rfl
          · refine PPost.bind (PPost.parentElt fun p _ _ => PPost.bind (Q := fun _ t => t = s) ?_)
            have hc : ∀ {m : Nat → PM EvRef}, (∀ c, PPost (m c) (fun _ t => t = s) s) → PPost (if (s.elt p).tag = "body" then pure s.reg.root
                     else do
                       let id ← attr! p "id"
                       let c ← PM.some! (s.reg.getById id)
                       let y ← object c
                       if y.kind = .context then pure c else PM.abort) (fun c t => PPost (m c) (fun _ t => t = s) t) s := by
              intro m hm
              split
              · exact PPost.pure (hm _)
              · refine PPost.bind (PPost.attr! fun _ _ => PPost.bind (PPost.some! fun _ _ => PPost.bind (PPost.object fun _ _ => ?_)))
                split
                · exact PPost.pure (hm _)
                · exact PPost.abort
            refine hc fun c => PPost.bind (PPost.object fun y _ => ?_)
            split
            · exact PPost.err
            · exact resolveIface_same n _ _ s
      · exact PPost.orErr fun _ _ => rfl

section
variable {E : PRead} {scr : Rect} {z : Nat} {f : Nat → Nat} {g : List Note} {S : List Nat} {s : PS}

/-- The component of an element is found. -/
theorem NComp.found (ht : TreeK E f g S s) (hn : NameK E f g S s) {k b i : Nat} {m mb : Note} {a : String} (h : NComp g k b i m) (hb : g[b]? = some mb)
    (ha : mb.get "component" = some a) : s.component (f k) a = some (f i) := by
  obtain ⟨mb', a', h1, h2, h3⟩ := h.name
  rw [hb] at h1; cases h1
  rw [ha] at h2; cases h2
  rcases h.scope with hp | rfl
  · exact child_component ht hn h.at' h.kind h3 hp
  · exact self_component ht h.at' h.kind h3

theorem NComp.object (ht : TreeK E f g S s) {k b i : Nat} {m : Note} (h : NComp g k b i m) : ∃ X kd, s.reg.obj (f i) = some X ∧ m.kind = some kd ∧ X.kind = kd ∧
    X.inDoc = true ∧ m.get "id" = some X.id := by
  obtain ⟨kd, hkd⟩ := Option.isSome_iff_exists.1 h.kind
  obtain ⟨a', q', h1, h2, x, ⟨h3, h4⟩, h5, h6, h7⟩ := ht.made i m kd h.at' hkd
  obtain ⟨X', h8, h9⟩ := ht.world.inv.objs _ h3
  rw [h4] at h8; cases h8
  exact ⟨x, kd, h4, hkd, h6, h9, by rw [h5]; exact h1⟩

/-- A later state, in which events were added. -/
structure Later (u s : PS) : Prop where
  skel : Skel u s
  elt : ∀ j, (s.elt j).tag = (u.elt j).tag ∧ (s.elt j).parent = (u.elt j).parent ∧ (s.elt j).attrs = (u.elt j).attrs ∧ (s.elt j).mappings = (u.elt j).mappings
  cache : s.cache = u.cache

theorem Later.refl (u : PS) : Later u u := ⟨step_same rfl rfl, fun _ => ⟨rfl, rfl, rfl, rfl⟩, rfl⟩
theorem Later.trans {u s t : PS} (h : Later u s) (h' : Later s t) : Later u t :=
  ⟨(step_pre _).trans h.skel h'.skel, fun j => ⟨(h'.elt j).1.trans (h.elt j).1, (h'.elt j).2.1.trans (h.elt j).2.1, (h'.elt j).2.2.1.trans (h.elt j).2.2.1,
    (h'.elt j).2.2.2.trans (h.elt j).2.2.2⟩, h'.cache.trans h.cache⟩

theorem NComp.later {u : PS} (ht : TreeK E f g S u) (hl : Later u s) {k b i : Nat} {m : Note} (h : NComp g k b i m) : ∃ X kd, s.reg.obj (f i) = some X ∧ m.kind = some kd ∧ X.kind = kd ∧
    m.get "id" = some X.id := by
  obtain ⟨X, kd, h1, h2, h3, h4, h5⟩ := h.object ht
  obtain ⟨X', g1, g2⟩ := hl.skel.get h1
  obtain ⟨g3, g4, -⟩ := skel_hasAlias g2
  exact ⟨X', kd, g1, h2, g4.trans h3, by rw [g3]; exact h5⟩

theorem kind_note {m : Note} {kd : RKind} (h : m.kind = some kd) : (kd = .media ∨ kd = .context ∨ kd = .switch) ∧ (kd = .context → m.tag = "context") := by
  unfold Note.kind at h
  split at h
  · cases h; simp
  · split at h
    · next ht => cases h; exact ⟨.inr (.inl rfl), fun _ => ht⟩
    · split at h
      · cases h; simp
      · cases h

/-- The anchors of the media objects are there. -/
def Anchored (f : Nat → Nat) (g : List Note) (r : Reg) : Prop := ∀ (j i : Nat) (mj m : Note) (nm : String) (X : RObj), g[j]? = some mj → mj.tag = "area" → mj.parent = some i →
  mj.get "id" = some nm → g[i]? = some m → m.kind = some .media → r.obj (f i) = some X → (X.getEvent .presentation nm).isSome = true

/-- What a port or mapping that leads to something names. -/
theorem iface_named {u : PS} (hj : J E scr z g u) (ht : TreeK E f g S u) (hn : ShBase E f g S u) (hl : Later u s) {n q b : Nat} {mb : Note} (hb : g[b]? = some mb)
    (hbt : mb.tag = "port" ∨ mb.tag = "mapping" ∨ mb.tag = "bind") (hq : ∃ y, u.reg.obj (f q) = some y ∧ y.inDoc = true) :
    PPost (resolveIface n (f q) b) (fun _ _ => ∀ mb a, g[b]? = some mb → mb.get "component" = some a → NamedIn g a) s := by
  cases n with
  | zero => exact PPost.fuel
  | succ n =>
    obtain ⟨y, y1, y2⟩ := hq
    have hba : ∀ nm, s.attr b nm = mb.get nm := by
      intro nm
      unfold PS.attr Note.get
      rw [(hl.elt b).2.2.1, hj.attrs hb (by rcases hbt with h | h | h <;> rw [h] <;> decide) (by rcases hbt with h | h | h <;> rw [h] <;> decide)]
    unfold resolveIface resolveComponent
    refine PPost.bind (PPost.bind (PPost.get ?_))
    dsimp only
    rw [if_neg (by rw [(hl.elt b).1, (hj.tag hb).1]; rcases hbt with h | h | h <;> rw [h] <;> decide)]
    refine PPost.bind (PPost.attr! fun a' ha => PPost.orErr fun o ho => ?_)
    rw [hba] at ha
    rw [hl.skel.component] at ho
    intro _ _ _ mb' a h1 h2
    rw [hb] at h1; cases h1
    rw [ha] at h2; cases h2
    exact component_named ht hn y1 y2 ho

/-- What a port or mapping leads to, that names an element with no object of its own. -/
theorem iface_shared {u : PS} (hj : J E scr z g u) (ht : TreeK E f g S u) (hn : ShBase E f g S u) (hl : Later u s) {n q b : Nat} {mb : Note} (hb : g[b]? = some mb)
    (hbt : mb.tag = "port" ∨ mb.tag = "mapping") (hq : ∃ y, u.reg.obj (f q) = some y ∧ y.inDoc = true) {i : Nat} {m : Note} (hc : SComp g q b i m) :
    PPost (resolveIface n (f q) b) (fun e _ => SFound f g s.reg b i e.addr) s := by
  cases n with
  | zero => exact PPost.fuel
  | succ n =>
    obtain ⟨y, y1, y2⟩ := hq
    obtain ⟨mb', a, n1, n2, n3⟩ := hc.name
    rw [hb] at n1; cases n1
    have hba : ∀ nm, s.attr b nm = mb.get nm := by
      intro nm
      unfold PS.attr Note.get
      rw [(hl.elt b).2.2.1, hj.attrs hb (by rcases hbt with h | h <;> rw [h] <;> decide) (by rcases hbt with h | h <;> rw [h] <;> decide)]
    have triv : ∀ {e}, (referName g a ∨ (∃ o', s.reg.getById a = some o') ∨ s.reg.obj (f i) = none) → SFound f g s.reg b i e := by
      intro e h mb' a' h1 h2
      rw [hb] at h1; cases h1
      rw [n2] at h2; cases h2
      rcases h with h | h | h
      · exact .inl h
      · exact .inr (.inl h)
      · exact .inr (.inr (.inl h))
    unfold resolveIface resolveComponent
    refine PPost.bind (PPost.bind (PPost.get ?_))
    dsimp only
    rw [if_neg (by rw [(hl.elt b).1, (hj.tag hb).1]; rcases hbt with h | h <;> rw [h] <;> decide)]
    refine PPost.bind (PPost.attr! fun a' ha => PPost.orErr fun o ho => PPost.bind (PPost.object fun X hX => PPost.bind (PPost.get ?_)))
    rw [hba, n2] at ha; cases ha
    rw [hl.skel.component] at ho
    rcases shared_component ht hn hc.at' hc.media hc.kind n3 y1 y2 ho with rfl | h | ⟨o', h⟩ | ⟨-, h⟩
    case inr.inl => exact fun _ _ _ => triv (.inl h)
    case inr.inr.inl =>
      refine fun _ _ _ => triv (.inr (.inl ⟨o', ?_⟩))
      unfold Reg.getById at h ⊢
      rw [hl.skel.byId]; exact h
    case inr.inr.inr =>
      refine fun _ _ _ => triv (.inr (.inr ?_))
      cases hx : s.reg.obj (f i) with
      | none => rfl
      | some x =>
        obtain ⟨Y, e1, -⟩ := hl.skel.back hx
        rw [h] at e1; cases e1
    have fin : ∀ {ty nm} {e : EvRef}, (mb.get "interface" = none ∧ ty = .presentation ∧ nm = "@lambda" ∨ mb.get "interface" = some nm ∧ (ty = .presentation ∨ ty = .attribution)) →
        evOf (f i) X ty nm = some e → SFound f g s.reg b i e.addr := by
      intro ty nm e hN he mb' a' h1 h2
      rw [hb] at h1; cases h1
      obtain ⟨p, e1, e2⟩ := Option.map_eq_some_iff.1 he
      exact .inr (.inr (.inr ⟨X, hX, fun _ => ⟨p, ty, nm, e1, by rw [← e2], hN⟩⟩))
    have other : ∀ {e}, ¬ (X.kind = .media ∨ X.kind = .settings) → SFound f g s.reg b i e := fun h mb' a' _ _ => .inr (.inr (.inr ⟨X, hX, fun hk => absurd hk h⟩))
    rw [hba]
    split
    · next hi => exact PPost.some! fun e he => fin (.inl ⟨hi, rfl, rfl⟩) he
    · next iface hi =>
      split
      · split
        · next e he => exact PPost.pure (fin (.inr ⟨hi, .inl rfl⟩) he)
        · exact PPost.orErr fun e he => fin (.inr ⟨hi, .inr rfl⟩) he
      · split
        · next e he => exact PPost.pure (fin (.inr ⟨hi, .inl rfl⟩) he)
        · exact PPost.orErr fun e he => fin (.inr ⟨hi, .inr rfl⟩) he
      · next hk => exact fun _ _ _ => other (by rw [hk]; simp)
      · next hk => exact fun _ _ _ => other (by rw [hk]; simp)

theorem iface_found {u : PS} (hj : J E scr z g u) (hkc : KC g u) (ht : TreeK E f g S u) (hn : ShBase E f g S u) (hl : Later u s) (han : Anchored f g s.reg) : ∀ (n q b : Nat) (mb : Note), (∀ j ∈ S, j ≤ q) →
    (∃ y, u.reg.obj (f q) = some y ∧ y.inDoc = true) → g[b]? = some mb →
    (mb.tag = "port" ∨ mb.tag = "mapping") → PPost (resolveIface n (f q) b) (fun e _ => Found f g S s.reg q b e.addr) s
  | 0, _, _, _, _, _, _, _ => PPost.fuel
  | n + 1, q, b, mb, hS, hq, hb, hbt => by
    by_cases hex : ∃ i m, NComp g q b i m
    case neg =>
      by_cases hsx : ∃ i m, SComp g q b i m
      case neg => exact (iface_named hj ht hn hl hb (by rcases hbt with h | h <;> simp [h]) hq).mono fun _ _ hna => .stray (fun i m h => hex ⟨i, m, h⟩) (fun i m h => absurd ⟨i, m, h⟩ hsx) hna
      obtain ⟨i, m, hc⟩ := hsx
      refine ((iface_shared hj ht hn hl hb hbt hq hc).and (iface_named hj ht hn hl hb (by rcases hbt with h | h <;> simp [h]) hq)).mono fun e _ he => .stray (fun i m h => hex ⟨i, m, h⟩) (fun i' m' h => ?_) he.2
      replace he := he.1
      obtain ⟨mb1, a1, e1, e2, e3⟩ := hc.name
      obtain ⟨mb2, a2, e4, e5, e6⟩ := h.name
      rw [e1] at e4; cases e4
      rw [e2] at e5; cases e5
      have := ht.once i i' m m' a1 hc.at' h.at' (by rw [hc.media]; decide) (by rw [h.media]; decide) e3 e6
      subst this
      exact he
    obtain ⟨i, m, hc⟩ := hex
    have hattr : ∀ {j : Nat} {mj : Note}, g[j]? = some mj → mj.tag ≠ "region" → mj.tag ≠ "descriptor" → ∀ nm, s.attr j nm = mj.get nm := by
      intro j mj h1 h2 h3 nm
      unfold PS.attr Note.get; rw [(hl.elt j).2.2.1, hj.attrs h1 h2 h3]
    have hba := hattr hb (by rcases hbt with h | h <;> rw [h] <;> decide) (by rcases hbt with h | h <;> rw [h] <;> decide)
    unfold resolveIface resolveComponent
    refine PPost.bind (PPost.bind (PPost.get ?_))
    dsimp only
    rw [if_neg (by rw [(hl.elt b).1, (hj.tag hb).1]; rcases hbt with h | h <;> rw [h] <;> decide)]
    refine PPost.bind (PPost.attr! fun a ha => PPost.orErr fun o ho => PPost.bind (PPost.object fun X hX => PPost.bind (PPost.get ?_)))
    rw [hba] at ha
    rw [hl.skel.component, hc.found ht hn.1.1 hb ha] at ho
    obtain rfl : f i = o := Option.some.inj ho
    obtain ⟨X', kd, h1, hkd, h3, h5⟩ := hc.later ht hl
    rw [hX] at h1; cases h1
    obtain ⟨U, kd', u1, u2, u3, u4, u5⟩ := hc.object ht
    obtain rfl : kd = kd' := by rw [hkd] at u2; exact Option.some.inj u2
    obtain ⟨hk1, hk2⟩ := kind_note hkd
    have ev : ∀ {ty id} {e : EvRef}, evOf (f i) X ty id = some e → ∃ p, X.getEvent ty id = some p ∧ e.addr = p.1 := by
      intro ty id e he
      obtain ⟨p, e1, e2⟩ := Option.map_eq_some_iff.1 he
      exact ⟨p, e1, by rw [← e2]⟩
    have fin : ∀ {ty nm} {e : EvRef}, NIface g S q i m mb ty nm → evOf (f i) X ty nm = some e → Found f g S s.reg q b e.addr := by
      intro ty nm e hN he
      obtain ⟨p, e1, e2⟩ := ev he
      rw [e2]; exact .event hc hb hN hX e1
    rw [hba]
    split
    · next hi => exact PPost.some! fun e he => fin (.inl ⟨hi, rfl, rfl⟩) he
    · next iface hi =>
      split
      · next hk =>
        split
        · next e he => exact PPost.pure (fin (.inr ⟨hi, .inl ⟨by rw [hkd, ← h3, hk], .inl rfl⟩⟩) he)
        · next hnone =>
          have hmk : m.kind = some .media := by rw [hkd, ← h3, hk]
          refine PPost.orErr fun e he => fin (.inr ⟨hi, .inl ⟨hmk, .inr ⟨rfl, ?_⟩⟩⟩) he
          rcases hc.scope with hp | h
          · have hqi : q < i := ((hj.ok i m hc.at').parent q hp).1
            refine .inr ⟨fun h => by have := hS i h; omega, fun j mj j1 j2 j3 j4 => ?_⟩
            have := han j i mj m iface X j1 j2 j3 j4 hc.at' hmk hX
            unfold evOf at hnone
            rw [Option.map_eq_none_iff.1 hnone] at this
            cases this
          · exact .inl h
      · next hk => rw [h3] at hk; rw [hk] at hk1; simp at hk1
      · next hk =>
        have hkc' : m.kind = some .context := by rw [hkd, ← h3, hk]
        have hmt : m.tag = "context" := hk2 (h3.symm.trans hk)
        have hown : m.parent = some q → f i ≠ f q := by
          intro hp hfe
          obtain ⟨a', q', g1, g2, x, ⟨g3, g4⟩, g5, g6, g7⟩ := ht.made i m _ hc.at' hkd
          rw [hp] at g2; cases g2
          rw [u1] at g4; cases g4
          exact ht.world.tree.not_own u1 u4 (by rw [g7, hfe])
        split
        · next hoq =>
          refine PPost.orErr fun e he => fin (.inr ⟨hi, .inr (.inr ⟨hkc', rfl, .inl ?_⟩)⟩) he
          rcases hc.scope with hp | h
          · exact absurd hoq (hown hp)
          · exact h
        · next hoq =>
          have hp : m.parent = some q := hc.scope.resolve_right fun h => hoq (by rw [h])
          have hqi : q < i := by exact ((hj.ok i m hc.at').parent q hp).1
          have hiS : i ∉ S := fun h => by have := hS i h; omega
          split
          · next hnone =>
            refine PPost.orErr fun e he => fin (.inr ⟨hi, .inr (.inr ⟨hkc', rfl, .inr ⟨hiS, fun j mj j1 j2 j3 j4 => ?_⟩⟩)⟩) he
            have hmem := ((byTag_notes hj hkc (tag := "port") (by decide) (by decide +kernel)).2 j).2 ⟨mj, j1, j2⟩
            unfold PS.byTag at hmem
            unfold PS.byId at hnone
            split at hnone
            · cases hnone
            · next hf =>
              have := List.find?_eq_none.1 hf j (by rw [hl.cache]; exact (List.mem_filter.1 hmem).1)
              refine this ?_
              rw [(hl.elt j).1, (hj.tag j1).1, j2, hattr j1 (by rw [j2]; decide) (by rw [j2]; decide), j4]
              simp
          · next j hjj =>
            obtain ⟨b1, b2, b3⟩ := PS.byId_some hjj
            rw [hl.cache] at b1
            obtain ⟨mj, hmj⟩ : ∃ mj, g[j]? = some mj := ⟨_, List.getElem?_eq_getElem (hkc.lt j b1)⟩
            have hjt : mj.tag = "port" := by rw [(hl.elt j).1, (hj.tag hmj).1] at b2; simpa using b2
            have hjid : mj.get "id" = some iface := by rw [← hattr hmj (by rw [hjt]; decide) (by rw [hjt]; decide)]; exact b3
            refine PPost.bind (PPost.parentElt fun p hpp _ => ?_)
            rw [(hl.elt j).2.1, (hj.tag hmj).2] at hpp
            obtain ⟨hpj, mp, hmp, e, he, het, hep⟩ := (hj.ok j mj hmj).parent p hpp
            have hmpt : mp.tag = "body" ∨ mp.tag = "context" := by
              have : ∀ e ∈ syntaxTable, e.tag = "port" → ∀ p ∈ e.parents, p = "body" ∨ p = "context" := by decide +kernel
              exact this e he (het.trans hjt) _ hep
            have hcp : PPost (if (s.elt p).tag = "body" then pure s.reg.root
                     else do
                       let id ← attr! p "id"
                       let c ← PM.some! (s.reg.getById id)
                       let y ← object c
                       if y.kind = .context then pure c else PM.abort) (fun c s' => s' = s ∧ c = f p) s := by
              rw [(hl.elt p).1, (hj.tag hmp).1]
              split
              · next hb => exact PPost.pure ⟨rfl, by rw [hl.skel.root]; exact (ht.top p mp hmp (.inr hb)).symm⟩
              · next hb =>
                have hpt : mp.tag = "context" := hmpt.resolve_left hb
                refine PPost.bind (PPost.attr! fun id hid => PPost.bind (PPost.some! fun c hc => PPost.bind (PPost.object fun y hy => ?_)))
                rw [hattr hmp (by rw [hpt]; decide) (by rw [hpt]; decide)] at hid
                obtain ⟨i', q', m1, m2, m3⟩ := ht.made p mp .context hmp (by unfold Note.kind; rw [hpt]; simp)
                rw [hid] at m1; cases m1
                have hby := m3.byId ht.world.inv
                unfold Reg.getById at hc hby
                rw [hl.skel.byId, hby] at hc
                cases hc
                split
                · exact PPost.pure ⟨rfl, rfl⟩
                · exact PPost.abort
            refine PPost.bind (hcp.mono ?_)
            intro c s' hcs
            rw [hcs.1, hcs.2]
            refine PPost.bind (PPost.object fun y hy => ?_)
            split
            · exact PPost.err
            · next hyx =>
              have hyx : y.id = X.id := Classical.not_not.1 hyx
              have hXU : X.id = U.id := by rw [u5] at h5; exact (Option.some.inj h5).symm
              obtain ⟨Y, y1, y2⟩ := hl.skel.back hy
              have hyY : Y.id = U.id := (skel_hasAlias y2).1.symm.trans (hyx.trans hXU)
              -- the port is one of the context
              have hin : Y.inDoc = true := by
                rcases hmpt with hb' | hb'
                · rw [ht.top p mp hmp (.inr hb')] at y1
                  obtain ⟨R, r1, -, r2⟩ := ht.world.tree.root
                  rw [r1] at y1; cases y1; exact r2
                · obtain ⟨i', q', m1, m2, Y', ⟨m3, m4⟩, -⟩ := ht.made p mp .context hmp (by unfold Note.kind; rw [hb']; simp)
                  obtain ⟨X', m5, m6⟩ := ht.world.inv.objs _ m3
                  rw [m5] at y1; cases y1; exact m6
              have e1 := (ht.world.inv.byId U.id (f p)).2 ⟨Y, ⟨ht.world.inv.inDoc _ _ y1 hin, y1⟩, hyY⟩
              have e2 := (ht.world.inv.byId U.id (f i)).2 ⟨U, ⟨ht.world.inv.inDoc _ _ u1 u4, u1⟩, rfl⟩
              rw [e1] at e2
              have hfp : f p = f i := Option.some.inj e2
              have hpi : p = i := by
                rcases hmpt with hb' | hb'
                · exfalso
                  rw [ht.top p mp hmp (.inr hb')] at hfp
                  obtain ⟨R, r1, r2, -⟩ := ht.world.tree.root
                  rw [hfp, u1] at r1; cases r1
                  obtain ⟨a', q', g1, g2, x, ⟨g3, g4⟩, g5, g6, g7⟩ := ht.made i m _ hc.at' hkd
                  rw [u1] at g4; cases g4
                  rw [r2] at g7; cases g7
                · obtain ⟨i', q', m1, m2, Y', ⟨m3, m4⟩, m5, -⟩ := ht.made p mp .context hmp (by unfold Note.kind; rw [hb']; simp)
                  rw [y1] at m4; cases m4
                  exact ht.once p i mp m U.id hmp hc.at' (by rw [hb']; decide) (Note.kind_ne hc.kind).1 (by rw [m1, ← m5, hyY]) u5
              rw [hpi]
              rw [hpi] at hpp
              refine (iface_found hj hkc ht hn hl han n i j mj (fun j hj => by have := hS j hj; omega) ⟨U, u1, u4⟩ hmj (.inl hjt)).mono fun e _ he => ?_
              exact .port hc hkc' (by omega) hiS hb hi hmj hjt hpp hjid he
      · next hk =>
        exact PPost.orErr fun e he => fin (.inr ⟨hi, .inr (.inl ⟨by rw [hkd, ← h3, hk], rfl⟩)⟩) he

end
end Ginga
