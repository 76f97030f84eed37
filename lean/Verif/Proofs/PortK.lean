import Verif.Proofs.PortFound
import Verif.Proofs.RulesEnd
import Verif.Proofs.EventK
/-!
# The ports of contexts and switches, while elements are processed
-/
namespace Ginga

/-- What a list becomes when `L` is added to it, each element once. -/
def addNew : List Nat → List Nat → List Nat
  | l, [] => l
  | l, e :: L => addNew (if e ∈ l then l else l ++ [e]) L

/-- The events of a switch port. -/
def portEvents (id : String) (l : List (String × List Nat)) : Option (List Nat) := (l.find? fun p => p.1 == id).map Prod.snd

theorem portEvents_set {id id' : String} {v : List Nat} : ∀ {l : List (String × List Nat)}, portEvents id' (smset id v l) = if id' = id then some v else portEvents id' l
  | [] => by
    unfold smset portEvents
    by_cases h : id' = id
    · subst h; simp
    · rw [if_neg h, List.find?_cons_of_neg (by simpa using fun hc => h hc.symm)]
  | p :: l => by
    have ih := portEvents_set (id := id) (id' := id') (v := v) (l := l)
    unfold portEvents at ih ⊢
    unfold smset
    by_cases h : id' = id
    · subst h
      rw [if_pos rfl] at ih ⊢
      split
      · simp
      · next h1 =>
        split
        · simp
        · rw [List.find?_cons_of_neg (by simpa using fun hc => h1 hc.symm)]; exact ih
    · rw [if_neg h] at ih ⊢
      split
      · next h1 =>
        rw [List.find?_cons_of_neg (by simpa using fun hc => h hc.symm), List.find?_cons_of_neg (by simpa using fun hc => h (hc.symm.trans h1.symm))]
      · split
        · rw [List.find?_cons_of_neg (by simpa using fun hc => h hc.symm)]
        · rw [List.find?_cons, List.find?_cons]; split
          · rfl
          · exact ih

/-! ## The children of an element -/

/-- The children of an element that are processed by `pu`. -/
def kidsBy (g : List Note) (pu : Push) (j : Nat) : List (Nat × Note) := (kidNotes j 0 g).filter fun q => q.2.push == pu

theorem kidsBy_mem {g : List Note} {pu : Push} {j : Nat} {q : Nat × Note} : q ∈ kidsBy g pu j ↔ g[q.1]? = some q.2 ∧ q.2.parent = some j ∧ q.2.push = pu := by
  unfold kidsBy
  rw [List.mem_filter, kidNotes_mem]
  simp [and_assoc]

theorem kidsBy_append {g : List Note} {nt : Note} {pu : Push} {j : Nat} (h : nt.parent ≠ some j) : kidsBy (g ++ [nt]) pu j = kidsBy g pu j := by
  unfold kidsBy
  rw [kidNotes_append]
  simp [kidNotes, h]

theorem eff_ports (j : Nat) : ∀ (i : Nat) (l : List Note) (e : Elt),
    (effAll j i l e).ports = e.ports ++ (((kidNotes j i l).filter fun q => q.2.push == .port).map fun q => (q.2.get "id").getD "") ∧
    (effAll j i l e).switchPorts = e.switchPorts ++ (((kidNotes j i l).filter fun q => q.2.push == .switchPort).map fun q => (q.2.get "id").getD "") ∧
    (effAll j i l e).mappings = e.mappings ++ (((kidNotes j i l).filter fun q => q.2.push == .mapping).map fun q => q.1)
  | i, [], e => by simp [effAll, kidNotes]
  | i, n :: l, e => by
    rw [effAll]
    obtain ⟨h1, h2, h3⟩ := eff_ports j (i + 1) l (n.eff i j e)
    rw [h1, h2, h3]
    have hc : ∀ rs ts, (if n.conn = some j then connApply rs ts e else e).ports = e.ports ∧ (if n.conn = some j then connApply rs ts e else e).switchPorts = e.switchPorts ∧
        (if n.conn = some j then connApply rs ts e else e).mappings = e.mappings := by intro rs ts; split <;> exact ⟨rfl, rfl, rfl⟩
    rw [kidNotes]
    unfold Note.eff
    split
    · rename_i hp
      have : ∀ e' : Elt, (childEff n.push i n.tag n.get e').ports = e'.ports ++ (if n.push = .port then [(n.get "id").getD ""] else []) ∧
          (childEff n.push i n.tag n.get e').switchPorts = e'.switchPorts ++ (if n.push = .switchPort then [(n.get "id").getD ""] else []) ∧
          (childEff n.push i n.tag n.get e').mappings = e'.mappings ++ (if n.push = .mapping then [i] else []) := by
        intro e'
        cases n.push <;> simp [childEff]
        split
        · simp
        · split <;> simp
      rw [(this _).1, (this _).2.1, (this _).2.2, (hc _ _).1, (hc _ _).2.1, (hc _ _).2.2, List.filter_append, List.filter_append, List.filter_append]
      refine ⟨?_, ?_, ?_⟩ <;> (split <;> rename_i hq <;> simp [hq])
    · rw [id_eq, (hc _ _).1, (hc _ _).2.1, (hc _ _).2.2, List.nil_append]; exact ⟨rfl, rfl, rfl⟩

theorem J.ports {E : PRead} {scr : Rect} {z : Nat} {g : List Note} {s : PS} (h : J E scr z g s) {j : Nat} {n : Note} (hj : g[j]? = some n) :
    (s.elt j).ports = (kidsBy g .port j).map (fun q => (q.2.get "id").getD "") ∧ (s.elt j).switchPorts = (kidsBy g .switchPort j).map (fun q => (q.2.get "id").getD "") ∧
    (s.elt j).mappings = (kidsBy g .mapping j).map Prod.fst := by
  have he := h.elt j n hj
  have h1 : (eraseE (s.elt j)).ports = (eraseE (effAll j 0 g n.base)).ports := by rw [he]
  have h2 : (eraseE (s.elt j)).switchPorts = (eraseE (effAll j 0 g n.base)).switchPorts := by rw [he]
  have h3 : (eraseE (s.elt j)).mappings = (eraseE (effAll j 0 g n.base)).mappings := by rw [he]
  obtain ⟨e1, e2, e3⟩ := eff_ports j 0 g n.base
  simp only [eraseE, e1] at h1
  simp only [eraseE, e2] at h2
  simp only [eraseE, e3] at h3
  exact ⟨by simpa [Note.base, kidsBy] using h1, by simpa [Note.base, kidsBy] using h2, by simpa [Note.base, kidsBy] using h3⟩

/-! ## What was found stays so -/

/-- Events of the objects of elements stay; those of shared objects too, unless the object is deleted. -/
structure EvOn (f : Nat → Nat) (g : List Note) (r r' : Reg) : Prop where
  own : ∀ (i : Nat) (m : Note) (kd : RKind), g[i]? = some m → m.kind = some kd → ∀ X, r.obj (f i) = some X →
    ∃ X', r'.obj (f i) = some X' ∧ ∀ ty nm p, X.getEvent ty nm = some p → X'.getEvent ty nm = some p
  names : ∀ a o, r.getById a = some o → r'.getById a = some o
  shared : ∀ (i : Nat) (m : Note), g[i]? = some m → m.tag = "media" → m.kind = none → Grows r r' (f i)

theorem EvOn.refl (f : Nat → Nat) (g : List Note) (r : Reg) : EvOn f g r r := ⟨fun _ _ _ _ _ X h => ⟨X, h, fun _ _ _ h => h⟩, fun _ _ h => h, fun _ _ _ _ _ => .refl _ _⟩
theorem EvOn.trans {f : Nat → Nat} {g : List Note} {r r' r'' : Reg} (h : EvOn f g r r') (h' : EvOn f g r' r'') : EvOn f g r r'' := by
  refine ⟨?_, fun a o ho => h'.names a o (h.names a o ho), fun i m h1 h2 h3 => (h.shared i m h1 h2 h3).trans (h'.shared i m h1 h2 h3)⟩
  intro i m kd h1 h2 X hX
  obtain ⟨X', e1, e2⟩ := h.own i m kd h1 h2 X hX
  obtain ⟨X'', e3, e4⟩ := h'.own i m kd h1 h2 X' e1
  exact ⟨X'', e3, fun ty nm p hp => e4 ty nm p (e2 ty nm p hp)⟩

theorem evOn_keep {E : PRead} {f : Nat → Nat} {g : List Note} {s t : PS} (h : EvKeep E s t) (ha : ∀ (i : Nat) (m : Note) (kd : RKind), g[i]? = some m → m.kind = some kd → Alloc E s (f i))
    (hx : ∀ (i : Nat) (m : Note) (kd : RKind), g[i]? = some m → m.kind = some kd → ∃ X, t.reg.obj (f i) = some X)
    (hid : ∀ a o, s.reg.getById a = some o → t.reg.getById a = some o) (hs : ∀ (i : Nat) (m : Note), g[i]? = some m → m.tag = "media" → m.kind = none → Alloc E s (f i)) : EvOn f g s.reg t.reg := by
  refine ⟨?_, hid, fun i m h1 h2 h3 => h.2.1 (f i) (hs i m h1 h2 h3)⟩
  intro i m kd h1 h2 X hX
  obtain ⟨X', hX'⟩ := hx i m kd h1 h2
  obtain ⟨Y, e1, e2⟩ := h.2.1 (f i) (ha i m kd h1 h2) X' hX'
  rw [hX] at e1; cases e1
  exact ⟨X', hX', e2.keeps⟩

theorem Anchored.mono {f : Nat → Nat} {g : List Note} {r r' : Reg} (h : Anchored f g r) (he : EvOn f g r r') (hx : ∀ (i : Nat) (m : Note) (kd : RKind), g[i]? = some m → m.kind = some kd → ∃ X, r.obj (f i) = some X) :
    Anchored f g r' := by
  intro j i mj m nm X h1 h2 h3 h4 h5 h6 h7
  obtain ⟨Y, hY⟩ := hx i m _ h5 h6
  obtain ⟨X', e1, e2⟩ := he.own i m _ h5 h6 Y hY
  rw [h7] at e1; cases e1
  obtain ⟨p, hp⟩ := Option.isSome_iff_exists.1 (h j i mj m nm Y h1 h2 h3 h4 h5 h6 hY)
  rw [e2 _ _ _ hp]; rfl

theorem EventK.anchored {E : PRead} {f : Nat → Nat} {g : List Note} {S : List Nat} {s : PS} (ht : TreeK E f g S s) (h : EventK E f g s) :
    Anchored f g s.reg := by
  intro j i mj m nm X h1 h2 h3 h4 h5 h6 h7
  obtain ⟨i', q', g1, g2, x, ⟨g3, g4⟩, g5, g6, g7⟩ := ht.made i m _ h5 h6
  rw [h7] at g4; cases g4
  have hv := h.val (f i) X h7 (by rw [g6]; decide) .presentation nm
  obtain ⟨ev, hev⟩ := Option.isSome_iff_exists.1 (h.ok j mj h1 h2)
  have ha : adds E f (f i) mj = some ev := by
    unfold adds
    rw [if_pos (by rw [h3]; rfl), if_pos h2]; exact hev
  have hk : ev.typ = .presentation ∧ ev.id = nm := by
    unfold areaEvent at hev
    rw [h4] at hev
    dsimp only at hev
    split at hev
    · split at hev
      · cases hev
      · cases hev; exact ⟨rfl, rfl⟩
    · split at hev
      · cases hev; exact ⟨rfl, rfl⟩
      · cases hev
  have hmem : ev ∈ baseEvents X.kind ++ g.filterMap (adds E f (f i)) := by
    refine List.mem_append.2 (.inr (List.mem_filterMap.2 ⟨mj, List.mem_of_getElem? h1, ha⟩))
  have : (pick (baseEvents X.kind ++ g.filterMap (adds E f (f i))) .presentation nm).isSome = true := by
    unfold pick
    rw [List.find?_isSome]
    exact ⟨ev, hmem, by simp [hk.1, hk.2]⟩
  rw [← hv, Option.isSome_map] at this
  exact this

theorem Found.step {f f' : Nat → Nat} {g g' : List Note} {S S' : List Nat} {r r' : Reg} (hg : ∀ j, j < g.length → g'[j]? = g[j]?)
    (hnew : ∀ (j : Nat) (m : Note), g'[j]? = some m → g.length ≤ j → ∀ p, m.parent = some p → p ∈ S) (hS : ∀ j, j < g.length → j ∉ S → j ∉ S')
    (hf : ∀ j, j < g.length → f' j = f j) (hev : EvOn f g r r') {k b e : Nat} (h : Found f g S r k b e) :
    k < g.length → b < g.length → (∀ (j : Nat) (m : Note), g'[j]? = some m → g.length ≤ j → m.parent ≠ some k) → Found f' g' S' r' k b e := by
  have up : ∀ {k b i : Nat} {m : Note}, b < g.length → NComp g k b i m → NComp g' k b i m := by
    intro k b i m hb h
    obtain ⟨mb, a, h1, h2, h3⟩ := h.name
    exact ⟨by rw [hg i (getElem?_lt h.at')]; exact h.at', h.kind, ⟨mb, a, by rw [hg b hb]; exact h1, h2, h3⟩, h.scope⟩
  have down : ∀ {k b i : Nat} {m : Note}, k < g.length → b < g.length → (∀ (j : Nat) (m : Note), g'[j]? = some m → g.length ≤ j → m.parent ≠ some k) → NComp g' k b i m → NComp g k b i m := by
    intro k b i m hk hb hn h
    obtain ⟨mb, a, h1, h2, h3⟩ := h.name
    have hi : i < g.length := by
      rcases h.scope with hp | rfl
      · exact Nat.lt_of_not_le fun hc => hn i m h.at' hc hp
      · exact hk
    exact ⟨by rw [← hg i hi]; exact h.at', h.kind, ⟨mb, a, by rw [← hg b hb]; exact h1, h2, h3⟩, h.scope⟩
  induction h with
  | @stray k b e h hs hna =>
    intro hk hb hn
    refine .stray (fun i m hc => h i m (down hk hb hn hc)) (fun i m hc => ?_) fun mb a h1 h2 => (hna mb a (by rw [← hg b hb]; exact h1) h2).up hg
    have hi : i < g.length := Nat.lt_of_not_le fun hl => hn i m hc.at' hl hc.parent
    obtain ⟨mb, a, h1, h2, h3⟩ := hc.name
    rw [hg b hb] at h1
    have hi' : g[i]? = some m := by rw [← hg i hi]; exact hc.at'
    intro mb' a' g1 g2
    rw [hg b hb, h1] at g1; cases g1
    rw [h2] at g2; cases g2
    rw [hf i hi]
    rcases hs i m ⟨hi', hc.media, hc.kind, hc.parent, mb, a, h1, h2, h3⟩ mb a h1 h2 with q | ⟨o', q⟩ | q | ⟨X, q1, q2⟩
    · left
      obtain ⟨j, n, j1, j2⟩ := q
      exact ⟨j, n, by rw [hg j (getElem?_lt j1)]; exact j1, j2⟩
    · exact .inr (.inl ⟨o', hev.names a o' q⟩)
    · refine .inr (.inr (.inl ?_))
      cases hx : r'.obj (f i) with
      | none => rfl
      | some x =>
        obtain ⟨Y, e1, -⟩ := hev.shared i m hi' hc.media hc.kind x hx
        rw [q] at e1; cases e1
    · cases hx : r'.obj (f i) with
      | none => exact .inr (.inr (.inl rfl))
      | some x =>
        obtain ⟨Y, e1, e2⟩ := hev.shared i m hi' hc.media hc.kind x hx
        rw [q1] at e1; cases e1
        refine .inr (.inr (.inr ⟨x, rfl, fun hk => ?_⟩))
        obtain ⟨p, ty, nm, p1, p2⟩ := q2 (by rw [← e2.kind]; exact hk)
        exact ⟨p, ty, nm, e2.keeps ty nm p p1, p2⟩
  | @event k b i m mb ty nm X p hc hb hi hX hp =>
    intro hk hbl hn
    obtain ⟨kd, hkd⟩ := Option.isSome_iff_exists.1 hc.kind
    obtain ⟨X', e1, e2⟩ := hev.own i m kd hc.at' hkd X hX
    refine .event (up hbl hc) (by rw [hg b hbl]; exact hb) ?_ (by rw [hf i (getElem?_lt hc.at')]; exact e1) (e2 ty nm p hp)
    rcases hi with hi | ⟨h1, h2 | h2 | ⟨h2, h3, h4⟩⟩
    · exact .inl hi
    · refine .inr ⟨h1, .inl ⟨h2.1, h2.2.imp id fun h4 => ⟨h4.1, h4.2.imp id fun h4 => ⟨hS i (getElem?_lt hc.at') h4.1, fun j mj j1 j2 j3 => ?_⟩⟩⟩⟩
      by_cases hj : j < g.length
      · exact h4.2 j mj (by rw [← hg j hj]; exact j1) j2 j3
      · exact absurd (hnew j mj j1 (by omega) i j3) h4.1
    · exact .inr ⟨h1, .inr (.inl h2)⟩
    · refine .inr ⟨h1, .inr (.inr ⟨h2, h3, h4.imp id fun h4 => ⟨hS i (getElem?_lt hc.at') h4.1, fun j mj j1 j2 j3 => ?_⟩⟩)⟩
      by_cases hj : j < g.length
      · exact h4.2 j mj (by rw [← hg j hj]; exact j1) j2 j3
      · exact absurd (hnew j mj j1 (by omega) i j3) h4.1
  | @port k b i j m mb mj a e hc hk hik hiS hb ha hj hjt hjp hji _ ih =>
    intro hkl hbl hn
    exact .port (up hbl hc) hk hik (hS i (getElem?_lt hc.at') hiS) (by rw [hg b hbl]; exact hb) ha (by rw [hg j (getElem?_lt hj)]; exact hj) hjt hjp hji
      (ih (getElem?_lt hc.at') (getElem?_lt hj) fun j m h1 h2 h3 => hiS (hnew j m h1 h2 i h3))

/-! ## Closing a context or a switch -/

section
variable {E : PRead} {scr : Rect} {z : Nat} {f : Nat → Nat} {g : List Note} {S : List Nat} {u : PS}

theorem Later.attrs (hj : J E scr z g u) {s : PS} (hl : Later u s) {j : Nat} {mj : Note} (h1 : g[j]? = some mj) (h2 : mj.tag ≠ "region") (h3 : mj.tag ≠ "descriptor") (nm : String) :
    s.attr j nm = mj.get nm := by
  unfold PS.attr Note.get; rw [(hl.elt j).2.2.1, hj.attrs h1 h2 h3]

/-- The element found by its identifier is the one that has it. -/
theorem Later.byId (hj : J E scr z g u) (hkc : KC g u) (ht : TreeK E f g S u) {s : PS} (hl : Later u s) {tag a : String} (htag : tag ≠ "link" ∧ tag ≠ "region" ∧ tag ≠ "descriptor") {j : Nat}
    (h : s.byId a [tag] = some j) {i : Nat} {m : Note} (hi : g[i]? = some m) (hit : m.tag = tag) (hid : m.get "id" = some a) : j = i := by
  obtain ⟨b1, b2, b3⟩ := PS.byId_some h
  rw [hl.cache] at b1
  obtain ⟨mj, hmj⟩ : ∃ mj, g[j]? = some mj := ⟨_, List.getElem?_eq_getElem (hkc.lt j b1)⟩
  have hjt : mj.tag = tag := by rw [(hl.elt j).1, (hj.tag hmj).1] at b2; simpa using b2
  rw [hl.attrs hj hmj (by rw [hjt]; exact htag.2.1) (by rw [hjt]; exact htag.2.2)] at b3
  exact ht.once j i mj m a hmj hi (by rw [hjt]; exact htag.1) (by rw [hit]; exact htag.1) b3 hid

/-- The loop over the ports of a context. -/
theorem ctxPorts_loop (hj : J E scr z g u) (hkc : KC g u) (ht : TreeK E f g S u) (hn : ShBase E f g S u) {k : Nat} (hq0 : ∃ y, u.reg.obj (f k) = some y ∧ y.inDoc = true) (hS : ∀ j ∈ S, j ≤ k) (han : Anchored f g u.reg) (n : Nat) :
    ∀ (l : List (Nat × Note)) (s : PS), (∀ q ∈ l, g[q.1]? = some q.2 ∧ q.2.tag = "port" ∧ (q.2.get "id").isSome = true) → (∃ p, s = { u with ports := p }) →
      PPost (PM.forEach (fun id => do
        let s ← PM.get
        let j ← PM.some! (s.byId id ["port"])
        let e ← resolveIface n (f k) j
        addPort (f k) e.addr) (l.map fun q => (q.2.get "id").getD ""))
      (fun _ t => ∃ L p, Each (Found f g S u.reg k) (l.map Prod.fst) L ∧ t = { s with ports := p } ∧ p (f k) = addNew (s.ports (f k)) L ∧ ∀ o, o ≠ f k → p o = s.ports o) s
  | [], s, _, _ => PPost.pure' ⟨[], s.ports, .nil, rfl, rfl, fun _ _ => rfl⟩
  | q :: l, s, hq, hs => by
    obtain ⟨p0, hs0⟩ := hs
    obtain ⟨q1, q2, q3⟩ := hq q (by simp)
    obtain ⟨a, ha⟩ := Option.isSome_iff_exists.1 q3
    have hl : Later u s := by rw [hs0]; exact ⟨step_same rfl rfl, fun _ => ⟨rfl, rfl, rfl, rfl⟩, rfl⟩
    have hreg : s.reg = u.reg := by rw [hs0]
    rw [List.map_cons]
    unfold PM.forEach
    refine PPost.bind' (PPost.bind (PPost.get (PPost.bind (PPost.some! fun j hjj => ?_))))
    rw [ha] at hjj
    have hji : j = q.1 := hl.byId hj hkc ht ⟨by decide, by decide, by decide⟩ hjj q1 q2 ha
    rw [hji]
    refine PPost.bind (((iface_found hj hkc ht hn hl (by rw [hreg]; exact han) n k q.1 q.2 hS hq0 q1 (.inl q2)).and (resolveIface_same n (f k) q.1 s)).mono fun e t hh => ?_)
    rw [hh.2]
    refine PPost.modify ?_
    refine (ctxPorts_loop hj hkc ht hn hq0 hS han n l _ (fun q' hq' => hq q' (by simp [hq'])) ⟨_, by rw [hs0]⟩).mono ?_
    rintro _ t' ⟨L, p, h1, h2, h3, h4⟩
    refine ⟨e.addr :: L, p, .cons (by rw [← hreg]; exact hh.1) h1, by rw [h2], ?_, fun o ho => ?_⟩
    · rw [h3]
      show addNew (upd s.ports (f k) _ (f k)) L = _
      rw [upd_same, addNew]
    · rw [h4 o ho]
      show upd s.ports (f k) _ o = _
      rw [upd_ne _ _ ho]

/-- The mappings of a switch port. -/
theorem mappings_loop (hj : J E scr z g u) (hkc : KC g u) (ht : TreeK E f g S u) (hn : ShBase E f g S u) {k : Nat} (hq0 : ∃ y, u.reg.obj (f k) = some y ∧ y.inDoc = true) (hS : ∀ j ∈ S, j ≤ k) (n : Nat) {s : PS} (hl : Later u s) (han : Anchored f g s.reg) :
    ∀ (l : List Nat), (∀ j ∈ l, ∃ m, g[j]? = some m ∧ m.tag = "mapping") → PPost (resolveAll n (f k) l) (fun L t => t = s ∧ Each (Found f g S s.reg k) l L) s
  | [], _ => PPost.pure' ⟨rfl, .nil⟩
  | j :: l, hm => by
    obtain ⟨m, m1, m2⟩ := hm j (by simp)
    unfold resolveAll
    refine PPost.bind (((iface_found hj hkc ht hn hl han n k j m hS hq0 m1 (.inr m2)).and (resolveIface_same n (f k) j s)).mono fun e t hh => ?_)
    rw [hh.2]
    refine PPost.bind ((mappings_loop hj hkc ht hn hq0 hS n hl han l fun j hj => hm j (by simp [hj])).mono fun L t' hh' => ?_)
    rw [hh'.1]
    exact PPost.pure ⟨rfl, .cons hh.1 hh'.2⟩

/-- The loop over the ports of a switch. -/
theorem sports_loop (hj : J E scr z g u) (hkc : KC g u) (ht : TreeK E f g S u) (hn : ShBase E f g S u) {k : Nat} (hq0 : ∃ y, u.reg.obj (f k) = some y ∧ y.inDoc = true) (hkl : k < g.length) (hS : ∀ j ∈ S, j ≤ k) (n : Nat) :
    ∀ (l : List (Nat × Note)) (s : PS), (∀ q ∈ l, g[q.1]? = some q.2 ∧ q.2.tag = "switchPort" ∧ (q.2.get "id").isSome = true) → Later u s → Anchored f g s.reg → u.nalloc ≤ s.nalloc →
      PPost (PM.forEach (resolveSwitchPort E n (f k)) (l.map fun q => (q.2.get "id").getD ""))
      (fun _ t => EvOn f g s.reg t.reg ∧ t.ports = s.ports ∧ (∀ o, o ≠ f k → t.sports o = s.sports o) ∧
        (∀ q ∈ l, ∃ L, portEvents ((q.2.get "id").getD "") (t.sports (f k)) = some L ∧ Each (Found f g S t.reg k) ((kidsBy g .mapping q.1).map Prod.fst) L) ∧
        (∀ a, (∀ q ∈ l, q.2.get "id" ≠ some a) → portEvents a (t.sports (f k)) = portEvents a (s.sports (f k)))) s
  | [], s, _, _, _, _ => PPost.pure' ⟨.refl _ _ _, rfl, fun _ _ => rfl, (fun q hq => by cases hq), fun _ _ => rfl⟩
  | q :: l, s, hq, hl, han, ha => by
    obtain ⟨q1, q2, q3⟩ := hq q (by simp)
    obtain ⟨a, hqa⟩ := Option.isSome_iff_exists.1 q3
    rw [List.map_cons]
    unfold PM.forEach
    have one : PPost (resolveSwitchPort E n (f k) ((q.2.get "id").getD "")) (fun _ t => t.ports = s.ports ∧ (∀ o, o ≠ f k → t.sports o = s.sports o) ∧
        ∃ L, Each (Found f g S s.reg k) ((kidsBy g .mapping q.1).map Prod.fst) L ∧ t.sports (f k) = smset a L (s.sports (f k))) s := by
      unfold resolveSwitchPort
      refine PPost.bind (PPost.get (PPost.bind (PPost.some! fun j hjj => ?_)))
      rw [hqa] at hjj ⊢
      have hji : j = q.1 := hl.byId hj hkc ht ⟨by decide, by decide, by decide⟩ hjj q1 q2 hqa
      rw [hji, (hl.elt q.1).2.2.2, (hj.ports q1).2.2]
      refine PPost.bind ((mappings_loop hj hkc ht hn hq0 hS n hl han _ ?_).mono fun L t hh => ?_)
      · intro j hj
        obtain ⟨w, hw, rfl⟩ := List.mem_map.1 hj
        obtain ⟨w1, w2, w3⟩ := kidsBy_mem.1 hw
        refine ⟨w.2, w1, ?_⟩
        have : ∀ e ∈ syntaxTable, e.push = .mapping → e.tag = "mapping" := by decide +kernel
        unfold Note.push pushOf at w3
        split at w3
        · rename_i e' he'
          obtain ⟨q1, q2⟩ := syntaxOf_mem he'
          rw [← q2]; exact this e' q1 w3
        · cases w3
      · rw [hh.1]
        unfold addEvent
        refine PPost.bind (PPost.bind (PPost.alloc (PPost.regOp fun _ r _ => PPost.modify ⟨rfl, fun o ho => ?_, L, hh.2, ?_⟩)))
        · show upd s.sports (f k) _ o = _
          rw [upd_ne _ _ ho]
        · show upd s.sports (f k) _ (f k) = _
          rw [upd_same]; rfl
    have hsk : PRel Skel (resolveSwitchPort E n (f k) ((q.2.get "id").getD "")) := PRel.resolveSwitchPort (skel_core E) (fun _ _ => step_same rfl rfl) n _ _
    have hfx : PRel Fixed (resolveSwitchPort E n (f k) ((q.2.get "id").getD "")) := PRel.resolveSwitchPort (fixed_base.core E) (fun _ _ => ⟨rfl, rfl, rfl, rfl, rfl⟩) n _ _
    have hek : PRel (EvKeep E) (resolveSwitchPort E n (f k) ((q.2.get "id").getD "")) := PRel.resolveSwitchPort (evKeep_core E) (fun _ _ => evKeep_same rfl (Nat.le_refl _)) n _ _
    refine PPost.bind' ((((one.and (hsk s)).and (hfx s)).and (hek s)).mono ?_)
    rintro _ t ⟨⟨⟨⟨o1, o2, L, o3, o4⟩, sk⟩, fx⟩, ek⟩
    have hlt : Later u t := hl.trans ⟨sk, fun j => by rw [fx.elt]; exact ⟨rfl, rfl, rfl, rfl⟩, fx.cache⟩
    have hev : EvOn f g s.reg t.reg := evOn_keep ek
      (fun i m kd h1 h2 => by
        obtain ⟨i', q', g1, g2, x, ⟨g3, g4⟩, g5⟩ := ht.made i m kd h1 h2
        exact Alloc.mono (ht.world.objAddr _ x g4) ha)
      (fun i m kd h1 h2 => by
        obtain ⟨i', q', g1, g2, x, ⟨g3, g4⟩, g5⟩ := ht.made i m kd h1 h2
        obtain ⟨X, h3, -⟩ := hlt.skel.get g4
        exact ⟨X, h3⟩)
      (fun a o ho => by unfold Reg.getById at ho ⊢; rw [sk.byId]; exact ho) (fun i m h1 h2 h3 => (hn.shared_alloc ht h1 h2 h3).mono ha)
    refine (sports_loop hj hkc ht hn hq0 hkl hS n l t (fun q' hq' => hq q' (by simp [hq'])) hlt (han.mono hev fun i m kd h1 h2 => by
      obtain ⟨i', q', g1, g2, x, ⟨g3, g4⟩, g5⟩ := ht.made i m kd h1 h2
      obtain ⟨X, h3, -⟩ := hl.skel.get g4
      exact ⟨X, h3⟩) (Nat.le_trans ha ek.1)).mono ?_
    rintro _ v ⟨e1, e2, e3, e4, e5⟩
    refine ⟨hev.trans e1, e2.trans o1, fun o ho => (e3 o ho).trans (o2 o ho), fun q' hq' => ?_, fun a' ha' => ?_⟩
    · rcases List.mem_cons.1 hq' with rfl | hq'
      · by_cases hin : ∃ q ∈ l, q.2.get "id" = some a
        · obtain ⟨w, w1, w2⟩ := hin
          obtain ⟨p1, p2, p3⟩ := hq w (by simp [w1])
          have hwq : w.1 = q'.1 := ht.once _ _ _ _ a p1 q1 (by rw [p2]; decide) (by rw [q2]; decide) w2 hqa
          obtain ⟨L', l1, l2⟩ := e4 w w1
          rw [w2, hwq] at *
          rw [hqa]
          exact ⟨L', l1, l2⟩
        · refine ⟨L, ?_, ?_⟩
          · rw [hqa, Option.getD_some, e5 a (fun w hw hc => hin ⟨w, hw, hc⟩), o4, portEvents_set, if_pos rfl]
          · refine o3.imp fun b hb e he => ?_
            obtain ⟨w, hw, rfl⟩ := List.mem_map.1 hb
            exact he.step (fun _ _ => rfl) (fun j m h1 h2 => absurd (getElem?_lt h1) (by omega)) (fun _ _ h => h) (fun _ _ => rfl) (hev.trans e1)
              hkl (getElem?_lt (kidsBy_mem.1 hw).1) (fun j m h1 h2 => absurd (getElem?_lt h1) (by omega))
      · exact e4 q' hq'
    · rw [e5 a' fun q' hq' => ha' q' (by simp [hq']), o4, portEvents_set, if_neg]
      rintro rfl
      exact ha' q (by simp) hqa

end


/-! ## While elements are processed -/

/-- The table of ports is the same. -/
def SamePorts (s t : PS) : Prop := t.ports = s.ports ∧ t.sports = s.sports

theorem samePorts_atomic : PAtomic (fun _ => True) SamePorts where
  refl _ := ⟨rfl, rfl⟩
  trans h1 h2 := ⟨h2.1.trans h1.1, h2.2.trans h1.2⟩
  names _ _ := trivial
  attr _ _ _ _ _ := ⟨rfl, rfl⟩
  elt _ _ _ _ _ _ := ⟨rfl, rfl⟩
  reg _ _ _ _ _ := ⟨rfl, rfl⟩
  del _ _ := ⟨rfl, rfl⟩
  nalloc _ := ⟨rfl, rfl⟩
  objs _ _ := ⟨rfl, rfl⟩
  refer _ _ := ⟨rfl, rfl⟩
  conn _ _ := ⟨rfl, rfl⟩
  props _ _ _ _ _ _ := ⟨rfl, rfl⟩
  par _ _ _ := ⟨rfl, rfl⟩
  pred _ _ _ := ⟨rfl, rfl⟩

theorem samePorts_push (E : PRead) (proc : Xml → PM Unit) (f : Push) (k : Nat) (h : f ≠ .importBase) : PRel SamePorts (push E proc f k) := by
  by_cases hr : f = .region
  · subst hr; exact PRel.pushRegion (samePorts_atomic.atom E) E k fun _ _ _ => ⟨rfl, rfl⟩
  · exact PRel.push samePorts_atomic E proc f k hr h fun _ _ => trivial

theorem samePorts_pop (E : PRead) (n : Nat) (f : Pop) (k : Nat) (h : f ≠ .context) (h' : f ≠ .switch) : PRel SamePorts (pop E n f k) := by
  by_cases hr : f = .region
  · subst hr; exact PRel.popRegion (samePorts_atomic.atom E) fun _ _ _ => ⟨rfl, rfl⟩
  · exact PRel.pop (samePorts_atomic.atom E) samePorts_atomic.objs n f k (fun hc => absurd hc h) (fun _ _ _ _ => ⟨rfl, rfl⟩) (fun hc => absurd hc h') hr

/-- A context or the body, that is closed. -/
def Shut (g : List Note) (S : List Nat) (tags : List String) (k : Nat) : Prop := k ∉ S ∧ ∃ n, g[k]? = some n ∧ n.tag ∈ tags

/-- The ports of an object: those of the closed elements that have it (several, when there are several bodies), in document order. -/
def PortsOf (f : Nat → Nat) (g : List Note) (S : List Nat) (s : PS) (o : Nat) : Prop :=
  ∃ ks LL, ks.Pairwise (· < ·) ∧ (∀ k, k ∈ ks ↔ Shut g S ["body", "context"] k ∧ f k = o) ∧
    Each (fun k L => Each (Found f g S s.reg k) ((kidsBy g .port k).map Prod.fst) L) ks LL ∧ s.ports o = addNew [] LL.flatten

/-- The ports of the contexts and switches that are closed. -/
structure PortK (f : Nat → Nat) (g : List Note) (S : List Nat) (s : PS) : Prop where
  desc : S.Pairwise (· > ·)
  nest : ∀ j ∈ S, ∀ n p, g[j]? = some n → n.parent = some p → p ∈ S
  ids : ∀ (j : Nat) n, g[j]? = some n → n.push = .port ∨ n.push = .switchPort → (n.get "id").isSome = true
  within : ∀ j ∈ S, ∀ j' n p, j < j' → g[j']? = some n → n.parent = some p → j ≤ p
  above : ∀ (j : Nat) n, g[j]? = some n → n.parent = none → j = 0 ∨ ∃ e ∈ syntaxTable, e.tag = n.tag ∧ "head" ∈ e.parents
  ports : ∀ o, PortsOf f g S s o
  others : ∀ o, s.ports o ≠ [] → ∃ k, Shut g S ["body", "context"] k ∧ f k = o
  sports : ∀ k, Shut g S ["switch"] k →
    (∀ q ∈ kidsBy g .switchPort k, ∃ L, portEvents ((q.2.get "id").getD "") (s.sports (f k)) = some L ∧ Each (Found f g S s.reg k) ((kidsBy g .mapping q.1).map Prod.fst) L) ∧
    ∀ a, (∀ q ∈ kidsBy g .switchPort k, q.2.get "id" ≠ some a) → portEvents a (s.sports (f k)) = none
  nosports : ∀ o, s.sports o ≠ [] → ∃ k, Shut g S ["switch"] k ∧ f k = o

theorem addNew_append : ∀ (A B l : List Nat), addNew l (A ++ B) = addNew (addNew l A) B
  | [], _, _ => rfl
  | _ :: A, B, _ => addNew_append A B _

/-- The ports of an object that one element has. -/
theorem PortK.one {f : Nat → Nat} {g : List Note} {S : List Nat} {s : PS} (h : PortK f g S s) {k : Nat} (hk : Shut g S ["body", "context"] k)
    (hu : ∀ k', Shut g S ["body", "context"] k' → f k' = f k → k' = k) : ∃ L, Each (Found f g S s.reg k) ((kidsBy g .port k).map Prod.fst) L ∧ s.ports (f k) = addNew [] L := by
  obtain ⟨ks, LL, h1, h2, h3, h4⟩ := h.ports (f k)
  have hks : ks = [k] := by
    have hm : k ∈ ks := (h2 k).2 ⟨hk, rfl⟩
    have ha : ∀ k' ∈ ks, k' = k := fun k' hk' => hu k' ((h2 k').1 hk').1 ((h2 k').1 hk').2
    match ks, h1, hm, ha with
    | [a], _, _, ha => rw [ha a (by simp)]
    | a :: b :: l, h1, _, ha =>
      exfalso
      have := (List.pairwise_cons.1 h1).1 b (by simp)
      rw [ha a (by simp), ha b (by simp)] at this
      omega
  subst hks
  cases h3 with
  | cons h5 h6 =>
    cases h6
    exact ⟨_, h5, by simpa using h4⟩

theorem push_tag {pu : Push} {t : String} (h : ∀ e ∈ syntaxTable, e.push = pu → e.tag = t) (hpu : pu ≠ .none) {n : Note} (hn : n.push = pu) : n.tag = t := by
  unfold Note.push pushOf at hn
  split at hn
  · rename_i e' he'
    obtain ⟨q1, q2⟩ := syntaxOf_mem he'
    rw [← q2]; exact h e' q1 hn
  · exact absurd hn.symm hpu

/-- Elements with objects of their own have different ones. -/
theorem TreeK.own_inj {E : PRead} {f : Nat → Nat} {g : List Note} {S : List Nat} {s : PS} (ht : TreeK E f g S s) {k k' : Nat} {n n' : Note} (h : g[k]? = some n) (h' : g[k']? = some n')
    (hk : n.kind.isSome = true) (hk' : n'.kind.isSome = true) (hf : f k = f k') : k = k' := by
  obtain ⟨kd, e⟩ := Option.isSome_iff_exists.1 hk
  obtain ⟨kd', e'⟩ := Option.isSome_iff_exists.1 hk'
  obtain ⟨i, q, a1, a2, a3⟩ := ht.made k n kd h e
  obtain ⟨i', q', b1, b2, b3⟩ := ht.made k' n' kd' h' e'
  rw [hf] at a3
  obtain rfl := (a3.uniq b3).1
  exact ht.once k k' n n' i h h' (Note.kind_ne hk).1 (Note.kind_ne hk').1 a1 b1

section
variable {E : PRead} {scr : Rect} {z : Nat} {f : Nat → Nat} {g : List Note} {S : List Nat} {s t : PS}

theorem PortK.grow (h : PortK f g S s) {f' : Nat → Nat} {nt : Note} {k0 : Nat} (hk0 : k0 = g.length) (hlt : ∀ k ∈ S, k < g.length) (hpar : ∀ p, nt.parent = some p → p ∈ S)
    (hab : ∀ (j : Nat) n, (g ++ [nt])[j]? = some n → n.parent = none → j = 0 ∨ ∃ e ∈ syntaxTable, e.tag = n.tag ∧ "head" ∈ e.parents)
    (htop : ∀ p, nt.parent = some p → ∀ j ∈ S, j ≤ p) (hf : ∀ k, k < g.length → f' k = f k) (hev : EvOn f g s.reg t.reg) (hsame : SamePorts s t) (hid : nt.push = .port ∨ nt.push = .switchPort → (nt.get "id").isSome = true) :
    PortK f' (g ++ [nt]) (k0 :: S) t := by
  subst hk0
  have hg : ∀ j, j < g.length → (g ++ [nt])[j]? = g[j]? := fun j hj => List.getElem?_append_left hj
  have hnew : ∀ (j : Nat) (m : Note), (g ++ [nt])[j]? = some m → g.length ≤ j → m = nt := by
    intro j m hj hl
    rcases append_key hj with ⟨h1, -⟩ | ⟨-, h2⟩
    · omega
    · exact h2
  have down : ∀ {k tags}, Shut (g ++ [nt]) (g.length :: S) tags k → k < g.length ∧ Shut g S tags k := by
    rintro k tags ⟨h1, n, h2, h3⟩
    rcases append_key h2 with ⟨h4, h5⟩ | ⟨h4, -⟩
    · exact ⟨h4, fun hc => h1 (by simp [hc]), n, h5, h3⟩
    · exact absurd (by simp [h4]) h1
  have up : ∀ {k tags}, Shut g S tags k → k < g.length ∧ Shut (g ++ [nt]) (g.length :: S) tags k := by
    rintro k tags ⟨h1, n, h2, h3⟩
    have := getElem?_lt h2
    exact ⟨this, fun hc => (List.mem_cons.1 hc).elim (by omega) h1, n, by rw [hg k this]; exact h2, h3⟩
  have kid : ∀ {k : Nat} {pu : Push}, k ∉ S → kidsBy (g ++ [nt]) pu k = kidsBy g pu k := fun hk => kidsBy_append fun hc => hk (hpar _ hc)
  have fnd : ∀ {k : Nat} {pu : Push} {j : Nat} {L : List Nat}, k ∉ S → k < g.length → Each (Found f g S s.reg k) ((kidsBy g pu j).map Prod.fst) L →
      Each (Found f' (g ++ [nt]) (g.length :: S) t.reg k) ((kidsBy g pu j).map Prod.fst) L := by
    intro k pu j L hkS hk hE
    refine hE.imp fun b hb e he => ?_
    obtain ⟨w, hw, rfl⟩ := List.mem_map.1 hb
    refine he.step hg ?_ ?_ hf hev hk (getElem?_lt (kidsBy_mem.1 hw).1) ?_
    · intro j m h1 h2 p hp
      rw [hnew j m h1 h2] at hp; exact hpar p hp
    · intro j hj hjS hc
      rcases List.mem_cons.1 hc with hc | hc
      · omega
      · exact hjS hc
    · intro j m h1 h2 hc
      rw [hnew j m h1 h2] at hc; exact hkS (hpar k hc)
  refine ⟨List.pairwise_cons.2 ⟨hlt, h.desc⟩, ?_, ?_, ?_, ?_, ?_, ?_, ?_, ?_⟩
  · intro j hj n p hn hp
    rcases append_key hn with ⟨h1, h2⟩ | ⟨h1, h2⟩
    · rcases List.mem_cons.1 hj with hj | hj
      · omega
      · exact List.mem_cons_of_mem _ (h.nest j hj n p h2 hp)
    · rw [h2] at hp; exact List.mem_cons_of_mem _ (hpar p hp)
  · intro j n hn hp
    rcases append_key hn with ⟨-, h2⟩ | ⟨-, rfl⟩
    · exact h.ids j n h2 hp
    · exact hid hp
  · intro j hj j' n p hlt' hn hp
    rcases append_key hn with ⟨h1, h2⟩ | ⟨h1, h2⟩
    · rcases List.mem_cons.1 hj with hj | hj
      · omega
      · exact h.within j hj j' n p hlt' h2 hp
    · rw [h2] at hp
      rcases List.mem_cons.1 hj with hj | hj
      · omega
      · exact htop p hp j hj
  · exact hab
  · intro o
    obtain ⟨ks, LL, h1, h2, h3, h4⟩ := h.ports o
    refine ⟨ks, LL, h1, fun k => ?_, h3.imp fun k hk L hL => ?_, by rw [hsame.1]; exact h4⟩
    · rw [h2 k]
      constructor
      · rintro ⟨a1, a2⟩
        exact ⟨(up a1).2, by rw [hf k (up a1).1]; exact a2⟩
      · rintro ⟨a1, a2⟩
        obtain ⟨b1, b2⟩ := down a1
        exact ⟨b2, by rw [← hf k b1]; exact a2⟩
    · obtain ⟨a1, -⟩ := (h2 k).1 hk
      rw [kid a1.1]
      exact fnd a1.1 (up a1).1 hL
  · intro o ho
    rw [hsame.1] at ho
    obtain ⟨k, h1, h2⟩ := h.others o ho
    exact ⟨k, (up h1).2, by rw [hf k (up h1).1]; exact h2⟩
  · intro k hk
    obtain ⟨hkl, hk⟩ := down hk
    obtain ⟨h1, h2⟩ := h.sports k hk
    rw [kid hk.1, hsame.2, hf k hkl]
    refine ⟨fun q hq => ?_, h2⟩
    obtain ⟨L, e1, e2⟩ := h1 q hq
    obtain ⟨q1, q2, -⟩ := kidsBy_mem.1 hq
    rw [kid fun hc => hk.1 (h.nest q.1 hc q.2 k q1 q2)]
    exact ⟨L, e1, fnd hk.1 hkl e2⟩
  · intro o ho
    rw [hsame.2] at ho
    obtain ⟨k, h1, h2⟩ := h.nosports o ho
    exact ⟨k, (up h1).2, by rw [hf k (up h1).1]; exact h2⟩

theorem shut_pop {tags : List String} {k k' : Nat} (h : Shut g S tags k') : k' = k ∨ Shut g (k :: S) tags k' := by
  by_cases hc : k' = k
  · exact .inl hc
  · exact .inr ⟨by simp [hc, h.1], h.2⟩

theorem Shut.less {tags : List String} {k k' : Nat} (h : Shut g (k :: S) tags k') : Shut g S tags k' := ⟨fun hc => h.1 (by simp [hc]), h.2⟩

theorem Found.less {r r' : Reg} (hev : EvOn f g r r') {k k' b e : Nat} (hk : k' < g.length) (hb : b < g.length) (h : Found f g (k :: S) r k' b e) : Found f g S r' k' b e :=
  h.step (fun _ _ => rfl) (fun j m h1 h2 => absurd (getElem?_lt h1) (by omega)) (fun _ _ h hc => h (by simp [hc])) (fun _ _ => rfl) hev hk hb
    (fun j m h1 h2 => absurd (getElem?_lt h1) (by omega))

theorem Found.lessEach {r r' : Reg} (hev : EvOn f g r r') {k k' : Nat} (hk : k' < g.length) {pu : Push} {j : Nat} {L : List Nat} (h : Each (Found f g (k :: S) r k') ((kidsBy g pu j).map Prod.fst) L) :
    Each (Found f g S r' k') ((kidsBy g pu j).map Prod.fst) L := by
  refine h.imp fun b hb e he => ?_
  obtain ⟨w, hw, rfl⟩ := List.mem_map.1 hb
  exact he.less hev hk (getElem?_lt (kidsBy_mem.1 hw).1)

theorem Shut.lt {tags : List String} {k : Nat} (h : Shut g S tags k) : k < g.length := by obtain ⟨-, n, h, -⟩ := h; exact getElem?_lt h

/-- Closing an element: its own ports, and what is kept of the others. -/
theorem PortK.less {k : Nat} (h : PortK f g (k :: S) s) (hlt : ∀ (j : Nat) n p, g[j]? = some n → n.parent = some p → p < j) (hev : EvOn f g s.reg t.reg)
    (hp : (¬ Shut g S ["body", "context"] k ∧ t.ports = s.ports) ∨ (Shut g S ["body", "context"] k ∧ (∀ o, o ≠ f k → t.ports o = s.ports o) ∧
      (∀ k', Shut g S ["body", "context"] k' → f k' = f k → k' ≤ k) ∧
      ∃ L, Each (Found f g S t.reg k) ((kidsBy g .port k).map Prod.fst) L ∧ t.ports (f k) = addNew (s.ports (f k)) L))
    (hs : (¬ Shut g S ["switch"] k ∧ t.sports = s.sports) ∨ (Shut g S ["switch"] k ∧ (∀ k', Shut g S ["switch"] k' → f k' = f k → k' = k) ∧ (∀ o, o ≠ f k → t.sports o = s.sports o) ∧
      (∀ q ∈ kidsBy g .switchPort k, ∃ L, portEvents ((q.2.get "id").getD "") (t.sports (f k)) = some L ∧ Each (Found f g S t.reg k) ((kidsBy g .mapping q.1).map Prod.fst) L) ∧
      ∀ a, (∀ q ∈ kidsBy g .switchPort k, q.2.get "id" ≠ some a) → portEvents a (t.sports (f k)) = portEvents a (s.sports (f k)))) : PortK f g S t := by
  have hd := List.pairwise_cons.1 h.desc
  refine ⟨hd.2, ?_, h.ids, fun j hj => h.within j (List.mem_cons_of_mem _ hj), h.above, ?_, ?_, ?_, ?_⟩
  · intro j hj n p hn hpp
    rcases List.mem_cons.1 (h.nest j (List.mem_cons_of_mem _ hj) n p hn hpp) with rfl | h1
    · have := hd.1 j hj
      have := hlt j n p hn hpp
      omega
    · exact h1
  · intro o
    obtain ⟨ks, LL, h1, h2, h3, h4⟩ := h.ports o
    have h3' : Each (fun k' L => Each (Found f g S t.reg k') ((kidsBy g .port k').map Prod.fst) L) ks LL := h3.imp fun k' hk' L hL => Found.lessEach hev ((h2 k').1 hk').1.lt hL
    have hnk : k ∉ ks := fun hc => ((h2 k).1 hc).1.1 (by simp)
    by_cases hc : Shut g S ["body", "context"] k ∧ f k = o
    · obtain ⟨hc1, rfl⟩ := hc
      rcases hp with ⟨hp, -⟩ | ⟨-, -, hle, L, l1, l2⟩
      · exact absurd hc1 hp
      refine ⟨ks ++ [k], LL ++ [L], List.pairwise_append.2 ⟨h1, by simp, fun a ha b hb => ?_⟩, fun k' => ?_, h3'.append (.cons l1 .nil), ?_⟩
      · rw [List.mem_singleton.1 hb]
        have := hle a ((h2 a).1 ha).1.less ((h2 a).1 ha).2
        have : a ≠ k := fun e => hnk (e ▸ ha)
        omega
      · rw [List.mem_append, List.mem_singleton, h2 k']
        constructor
        · rintro (⟨a1, a2⟩ | rfl)
          · exact ⟨a1.less, a2⟩
          · exact ⟨hc1, rfl⟩
        · rintro ⟨a1, a2⟩
          rcases shut_pop (k := k) a1 with rfl | a1
          · exact .inr rfl
          · exact .inl ⟨a1, a2⟩
      · rw [l2, h4, List.flatten_append, addNew_append]; simp
    · refine ⟨ks, LL, h1, fun k' => ?_, h3', ?_⟩
      · rw [h2 k']
        constructor
        · rintro ⟨a1, a2⟩
          exact ⟨a1.less, a2⟩
        · rintro ⟨a1, a2⟩
          rcases shut_pop (k := k) a1 with rfl | a1'
          · exact absurd ⟨a1, a2⟩ hc
          · exact ⟨a1', a2⟩
      · rcases hp with ⟨-, hp⟩ | ⟨hp1, hp, -⟩
        · rw [hp]; exact h4
        · rw [hp o fun e => hc ⟨hp1, e.symm⟩]; exact h4
  · intro o ho
    rcases hp with ⟨-, hp⟩ | ⟨hp1, hp, -⟩
    · rw [hp] at ho
      obtain ⟨k2, h1, h2⟩ := h.others o ho
      exact ⟨k2, h1.less, h2⟩
    · by_cases hc : o = f k
      · exact ⟨k, hp1, hc.symm⟩
      · rw [hp o hc] at ho
        obtain ⟨k2, h1, h2⟩ := h.others o ho
        exact ⟨k2, h1.less, h2⟩
  · intro k' hk'
    rcases shut_pop (k := k) hk' with rfl | hk1
    · rcases hs with ⟨hs, -⟩ | ⟨-, hu, -, h1, h2⟩
      · exact absurd hk' hs
      · refine ⟨h1, fun a ha => ?_⟩
        rw [h2 a ha]
        have : s.sports (f k') = [] := by
          refine Classical.byContradiction fun hc => ?_
          obtain ⟨k2, g1, g2⟩ := h.nosports _ hc
          exact g1.1 (by rw [hu k2 g1.less g2]; simp)
        rw [this]; rfl
    · obtain ⟨h1, h2⟩ := h.sports k' hk1
      have he : t.sports (f k') = s.sports (f k') := by
        rcases hs with ⟨-, hs⟩ | ⟨-, hu, hs, -⟩
        · rw [hs]
        · exact hs _ fun hc => hk1.1 (by simp [hu k' hk' hc])
      rw [he]
      refine ⟨fun q hq => ?_, h2⟩
      obtain ⟨L, e1, e2⟩ := h1 q hq
      exact ⟨L, e1, Found.lessEach hev hk'.lt e2⟩
  · intro o ho
    rcases hs with ⟨-, hs⟩ | ⟨hs1, -, hs, -⟩
    · rw [hs] at ho
      obtain ⟨k2, h1, h2⟩ := h.nosports o ho
      exact ⟨k2, h1.less, h2⟩
    · by_cases hc : o = f k
      · exact ⟨k, hs1, hc.symm⟩
      · rw [hs o hc] at ho
        obtain ⟨k2, h1, h2⟩ := h.nosports o ho
        exact ⟨k2, h1.less, h2⟩
end


theorem head_max {S : List Nat} {p : Nat} (h : S.Pairwise (· > ·)) (hp : S.head? = some p) : ∀ j ∈ S, j ≤ p := by
  cases S with
  | nil => cases hp
  | cons a l =>
    obtain rfl : a = p := by simpa using hp
    intro j hj
    rcases List.mem_cons.1 hj with rfl | hj
    · exact Nat.le_refl _
    · exact Nat.le_of_lt ((List.pairwise_cons.1 h).1 j hj)

theorem tree_alloc {E : PRead} {f : Nat → Nat} {g : List Note} {S : List Nat} {s : PS} (ht : TreeK E f g S s) (i : Nat) (m : Note) (kd : RKind) (h1 : g[i]? = some m) (h2 : m.kind = some kd) :
    Alloc E s (f i) := by
  obtain ⟨i', q', g1, g2, x, ⟨g3, g4⟩, g5⟩ := ht.made i m kd h1 h2
  exact ht.world.objAddr _ x g4

/-- The object of a context, of the body or of a switch. -/
theorem scope_obj {E : PRead} {f : Nat → Nat} {g : List Note} {S : List Nat} {s : PS} (ht : TreeK E f g S s) {k : Nat} {n : Note} (h : g[k]? = some n)
    (hn : n.tag = "body" ∨ n.tag = "context" ∨ n.tag = "switch") : ∃ y, s.reg.obj (f k) = some y ∧ y.inDoc = true := by
  have made : ∀ {kd}, n.kind = some kd → ∃ y, s.reg.obj (f k) = some y ∧ y.inDoc = true := by
    intro kd hk
    obtain ⟨i', q', -, -, x, ⟨g3, g4⟩, -⟩ := ht.made k n kd h hk
    obtain ⟨X, h8, h9⟩ := ht.world.inv.objs _ g3
    exact ⟨X, h8, h9⟩
  rcases hn with h' | h' | h'
  · rw [ht.top k n h (.inr h')]
    obtain ⟨R, r1, -, r2⟩ := ht.world.tree.root
    exact ⟨R, r1, r2⟩
  · exact made (kd := .context) (by unfold Note.kind; rw [h']; simp)
  · exact made (kd := .switch) (by unfold Note.kind; rw [if_pos h'])

theorem portK_extra {E : PRead} (hinj : ∀ i j, E.addr i = E.addr j → i = j) (scr : Rect) (z0 : Nat) :
    Extra E scr z0 (fun f g S s => (ShBase E f g S s ∧ EventK E f g s) ∧ PortK f g S s) where
  same f g S s y al ca hU h := ⟨((shBase_extra hinj scr z0).and (eventK_extra hinj scr z0)).same f g S s y al ca hU h.1, h.2.desc, h.2.nest, h.2.ids, h.2.within, h.2.above, h.2.ports, h.2.others, h.2.sports, h.2.nosports⟩
  imp f g S s s2 par pt x e r y nt hn ht hk hp := by
    refine ⟨((shBase_extra hinj scr z0).and (eventK_extra hinj scr z0)).imp f g S s s2 par pt x e r y nt hn ht hk.1 hp, ?_⟩
    obtain ⟨b1, b2, b3, b4, b5, b6, b7, b8, b9, b10, b11, b12, b13⟩ := ht.push_base hn
    have htg : nt.tag = "importBase" := by rw [b2, ← b4]; exact (table_objs e b3).2.2.2.2.2.2.1.1 hp
    refine hk.2.grow b1 ht.lt ?_ (topK_new (S' := S) (s' := s) hn hk.2.above) ?_ (fun _ _ => rfl) (by rw [b10]; exact .refl _ _ _) (by rw [hn.state]; exact ⟨rfl, rfl⟩) ?_
    · intro p hp'
      rw [hn.parent] at hp'
      exact List.mem_of_mem_head? (by rw [(hn.up p hp').2.1]; rfl)
    · intro p hp' j hj
      rw [hn.parent] at hp'
      exact head_max hk.2.desc (hn.up p hp').2.1 j hj
    · intro h
      exfalso
      unfold Note.push at h; rw [htg] at h; revert h; decide +kernel
  push f f' g S s s2 par pt x e r y nt proc a t hn ht hk himp hrun hpu hj hf ht' := by
    refine ⟨((shBase_extra hinj scr z0).and (eventK_extra hinj scr z0)).push f f' g S s s2 par pt x e r y nt proc a t hn ht hk.1 himp hrun hpu hj hf ht', ?_⟩
    obtain ⟨b1, b2, b3, b4, b5, b6, b7, b8, b9, b10, b11, b12, b13⟩ := ht.push_base hn
    have hpe : nt.push = e.push := by
      unfold Note.push pushOf; rw [b2, ← b4, syntaxOf_complete b3]
    refine hk.2.grow b1 ht.lt ?_ (topK_new (S' := S) (s' := s) hn hk.2.above) ?_ hf ?_ ?_ ?_
    · intro p hp'
      rw [hn.parent] at hp'
      exact List.mem_of_mem_head? (by rw [(hn.up p hp').2.1]; rfl)
    · intro p hp' j hj
      rw [hn.parent] at hp'
      exact head_max hk.2.desc (hn.up p hp').2.1 j hj
    · rw [← b10]
      refine evOn_keep (evKeep_push hinj proc e.push s.nelt himp s2 a t hrun) (fun i m kd h1 h2 => ?_) (fun i m kd h1 h2 => ?_) ?_ ?_
      · obtain ⟨j, j1, j2⟩ := tree_alloc ht i m kd h1 h2
        exact ⟨j, by rw [b13]; exact j1, j2⟩
      · have hi := getElem?_lt h1
        obtain ⟨i', q', g1, g2, x, ⟨g3, g4⟩, g5⟩ := ht'.made i m kd (by rw [List.getElem?_append_left hi]; exact h1) h2
        rw [hf i hi] at g4
        exact ⟨x, g4⟩
      · intro a o ho
        obtain ⟨_, hkp⟩ := push_keeps hinj hn ht himp hrun
        rw [b10] at ho
        exact getById_keeps ht.world.inv ht'.world.inv hkp ho
      · intro i m h1 h2 h3
        obtain ⟨j, j1, j2⟩ := hk.1.1.shared_alloc ht h1 h2 h3
        exact ⟨j, by rw [b13]; exact j1, j2⟩
    · have h1 : SamePorts s2 t := samePorts_push E proc e.push s.nelt himp s2 a t hrun
      rw [hn.state] at h1
      exact h1
    · intro h
      rw [hpe] at h
      rcases h with h | h
      · rw [h] at hrun
        have key : PPost (pushPort s.nelt) (fun _ _ => (s2.attr s.nelt "id").isSome = true) s2 := by
          unfold pushPort
          exact PPost.bind (PPost.attr! fun v hv => fun _ _ _ => by rw [hv]; rfl)
        rw [← b8]; exact key a t hrun
      · rw [h] at hrun
        have key : PPost (pushSwitchPort s.nelt) (fun _ _ => (s2.attr s.nelt "id").isSome = true) s2 := by
          unfold pushSwitchPort
          exact PPost.bind (PPost.attr! fun v hv => fun _ _ _ => by rw [hv]; rfl)
        rw [← b8]; exact key a t hrun
  pop f g O S s k nt e n a t hj hpi ht hk h1 h2 h3 h4 h5 ht' := by
    refine ⟨((shBase_extra hinj scr z0).and (eventK_extra hinj scr z0)).pop f g O S s k nt e n a t hj hpi ht hk.1 h1 h2 h3 h4 h5 ht', ?_⟩
    obtain ⟨em, et⟩ := syntaxOf_mem h2
    have hkc := hpi.2
    have hkl := getElem?_lt h1
    have hkS : k ∉ S := fun hc => by have := (List.pairwise_cons.1 hk.2.desc).1 k hc; omega
    have hS : ∀ j ∈ k :: S, j ≤ k := by
      intro j hj
      rcases List.mem_cons.1 hj with rfl | hj
      · exact Nat.le_refl _
      · exact Nat.le_of_lt ((List.pairwise_cons.1 hk.2.desc).1 j hj)
    have hev : EvOn f g s.reg t.reg := evOn_keep (evKeep_pop n e.pop k s a t h4) (tree_alloc ht) (fun i m kd g1 g2 => by
      obtain ⟨i', q', g1, g2, x, ⟨g3, g4⟩, g5⟩ := ht'.made i m kd g1 g2
      exact ⟨x, g4⟩) (fun a o ho => by
      obtain ⟨_, hkp⟩ := pop_keeps hinj ht.world h4
      exact getById_keeps ht.world.inv ht'.world.inv hkp ho) fun i m g1 g2 g3 => hk.1.1.shared_alloc ht g1 g2 g3
    have hbody : Shut g S ["body", "context"] k ↔ e.pop = .context := by
      have : ∀ e ∈ syntaxTable, e.tag ∈ ["body", "context"] ↔ e.pop = .context := by decide +kernel
      rw [← this e em, et]
      constructor
      · rintro ⟨-, n', g1, g2⟩
        rw [h1] at g1; cases g1; exact g2
      · exact fun h => ⟨hkS, nt, h1, h⟩
    have hsw : Shut g S ["switch"] k ↔ e.pop = .switch := by
      have : ∀ e ∈ syntaxTable, e.tag ∈ ["switch"] ↔ e.pop = .switch := by decide +kernel
      rw [← this e em, et]
      constructor
      · rintro ⟨-, n', g1, g2⟩
        rw [h1] at g1; cases g1; exact g2
      · exact fun h => ⟨hkS, nt, h1, h⟩
    have hpar : ∀ (j : Nat) n p, g[j]? = some n → n.parent = some p → p < j := fun j n p hj' hp => ((hj.ok j n hj').parent p hp).1
    have hst := ht.stack
    by_cases hc1 : e.pop = .context
    · have hsh := hbody.2 hc1
      obtain ⟨-, n', g1, g2⟩ := hsh
      have hq0 := scope_obj ht g1 ((by simpa using g2 : n'.tag = "body" ∨ n'.tag = "context").imp_right .inl)
      have hobj : objAt g k = true := by
        unfold objAt; rw [g1]; dsimp only
        rcases (by simpa using g2 : n'.tag = "body" ∨ n'.tag = "context") with h | h <;> rw [h] <;> decide
      rw [List.filter_cons, if_pos hobj, List.map_cons] at hst
      rw [hc1] at h4
      have key : PPost (popContext n k) (fun _ t => ∃ L, Each (Found f g (k :: S) s.reg k) ((kidsBy g .port k).map Prod.fst) L ∧ t.sports = s.sports ∧
          t.ports (f k) = addNew (s.ports (f k)) L ∧ ∀ o, o ≠ f k → t.ports o = s.ports o) s := by
        unfold popContext
        refine PPost.bind (PPost.peekObj fun o l ho => PPost.bind (PPost.object fun x hx => ?_))
        rw [hst] at ho
        obtain rfl : f k = o := (List.cons.inj ho).1
        split
        · refine PPost.bind (PPost.get ?_)
          rw [(hj.ports h1).1]
          refine PPost.bind ((ctxPorts_loop hj hkc ht hk.1.1 hq0 hS (hk.1.2.anchored ht) n (kidsBy g .port k) s (fun q hq => ?_) ⟨s.ports, rfl⟩).mono ?_)
          · obtain ⟨q1, q2, q3⟩ := kidsBy_mem.1 hq
            exact ⟨q1, push_tag (by decide +kernel) (by decide) q3, hk.2.ids q.1 q.2 q1 (.inl q3)⟩
          · rintro _ v ⟨L, p, e1, e2, e3, e4⟩
            have hpo : PPost popObj (fun _ t => t.ports = v.ports ∧ t.sports = v.sports) v := by
              unfold popObj
              exact PPost.modify ⟨rfl, rfl⟩
            refine hpo.mono fun _ w hw => ⟨L, e1, by rw [hw.2, e2], ?_, ?_⟩
            · rw [hw.1, e2]; exact e3
            · rw [hw.1, e2]; exact e4
        · exact PPost.abort
      obtain ⟨L, e1, e2, e3, e4⟩ := key a t h4
      refine hk.2.less hpar hev (.inr ⟨hbody.2 hc1, e4, fun k' hk' hf' => ?_, L, Found.lessEach hev hkl e1, e3⟩) (.inl ⟨fun hc => ?_, e2⟩)
      · refine Classical.byContradiction fun hlt => ?_
        have hab := hk.2.above
        have tb1 : ∀ e ∈ syntaxTable, e.tag = "body" → e.parents = ["ncl"] := by decide +kernel
        have tb2 : ∀ e ∈ syntaxTable, e.tag = "ncl" → e.parents = [] := by decide +kernel
        have rootp : ∀ {b c : Nat} {mb mc : Note}, g[b]? = some mb → mb.tag = "body" → g[c]? = some mc → mc.tag = "context" → f b = f c → False := by
          intro b c mb mc hb hbt hc hct hf
          rw [ht.top b mb hb (.inr hbt)] at hf
          obtain ⟨i', q', c1, c2, X, ⟨-, a4⟩, -, -, a7⟩ := ht.made c mc .context hc (by unfold Note.kind; rw [hct]; simp)
          obtain ⟨Y, c3, c4, -⟩ := ht.world.tree.root
          rw [← hf, c3] at a4; cases a4
          rw [c4] at a7; cases a7
        obtain ⟨-, m, m1, m2⟩ := hk'
        have m2 : m.tag = "body" ∨ m.tag = "context" := by simpa using m2
        have g2 : n'.tag = "body" ∨ n'.tag = "context" := by simpa using g2
        rcases m2 with m2 | m2 <;> rcases g2 with g2 | g2
        · cases hp : m.parent with
          | none =>
            rcases hab k' m m1 hp with h | ⟨e', h1, h2, h3⟩
            · omega
            · rw [tb1 e' h1 (h2.trans m2)] at h3; revert h3; decide
          | some p =>
            obtain ⟨q1, mp, q2, e', q3, q4, q5⟩ := (hj.ok k' m m1).parent p hp
            rw [tb1 e' q3 (q4.trans m2)] at q5
            have q5 : mp.tag = "ncl" := by simpa using q5
            have hle := hk.2.within k (by simp) k' m p (by omega) m1 hp
            have hp0 : p = 0 := by
              cases hpp : mp.parent with
              | none =>
                rcases hab p mp q2 hpp with h | ⟨e', h1, h2, h3⟩
                · exact h
                · rw [tb2 e' h1 (h2.trans q5)] at h3; simp at h3
              | some p' =>
                obtain ⟨-, _, -, e', r3, r4, r5⟩ := (hj.ok p mp q2).parent p' hpp
                rw [tb2 e' r3 (r4.trans q5)] at r5; simp at r5
            obtain rfl : k = p := by omega
            rw [g1] at q2; cases q2
            rw [g2] at q5; exact absurd q5 (by decide)
        · exact rootp m1 m2 g1 g2 hf'
        · exact rootp g1 g2 m1 m2 hf'.symm
        · exact absurd (ht.own_inj m1 g1 (by unfold Note.kind; rw [m2]; simp) (by unfold Note.kind; rw [g2]; simp) hf') (by omega)
      · rw [hsw, hc1] at hc; cases hc
    by_cases hc2 : e.pop = .switch
    · have hsh := hsw.2 hc2
      obtain ⟨-, n', g1, g2⟩ := hsh
      have g2 : n'.tag = "switch" := by simpa using g2
      have hq0 := scope_obj ht g1 (.inr (.inr g2))
      have hobj : objAt g k = true := by unfold objAt; rw [g1]; dsimp only; rw [g2]; decide
      rw [List.filter_cons, if_pos hobj, List.map_cons] at hst
      rw [hc2] at h4
      have key : PPost (popSwitch E n k) (fun _ t => t.ports = s.ports ∧ (∀ o, o ≠ f k → t.sports o = s.sports o) ∧
          (∀ q ∈ kidsBy g .switchPort k, ∃ L, portEvents ((q.2.get "id").getD "") (t.sports (f k)) = some L ∧ Each (Found f g (k :: S) t.reg k) ((kidsBy g .mapping q.1).map Prod.fst) L) ∧
          (∀ a, (∀ q ∈ kidsBy g .switchPort k, q.2.get "id" ≠ some a) → portEvents a (t.sports (f k)) = portEvents a (s.sports (f k)))) s := by
        unfold popSwitch
        refine PPost.bind (PPost.peekObj fun o l ho => PPost.bind (PPost.object fun x hx => ?_))
        rw [hst] at ho
        obtain rfl : f k = o := (List.cons.inj ho).1
        split
        · refine PPost.bind (PPost.get (PPost.bind ((resolveRules_spec (f k) _ s).mono fun rs v hv => ?_)))
          rw [hv.1, (hj.ports h1).2.1]
          refine PPost.bind (PPost.modify (PPost.bind ?_))
          have hl : Later s (s.setElt k { s.elt k with rules := rs }) := by
            refine ⟨step_same rfl rfl, fun j => ?_, rfl⟩
            by_cases hc : j = k
            · subst hc
              show (upd s.elt j _ j).tag = _ ∧ (upd s.elt j _ j).parent = _ ∧ (upd s.elt j _ j).attrs = _ ∧ (upd s.elt j _ j).mappings = _
              rw [upd_same]; exact ⟨rfl, rfl, rfl, rfl⟩
            · show (upd s.elt k _ j).tag = _ ∧ (upd s.elt k _ j).parent = _ ∧ (upd s.elt k _ j).attrs = _ ∧ (upd s.elt k _ j).mappings = _
              rw [upd_ne _ _ hc]; exact ⟨rfl, rfl, rfl, rfl⟩
          refine (sports_loop hj hkc ht hk.1.1 hq0 hkl hS n (kidsBy g .switchPort k) _ (fun q hq => ?_) hl (show Anchored f g s.reg from hk.1.2.anchored ht) (Nat.le_refl _)).mono ?_
          · obtain ⟨q1, q2, q3⟩ := kidsBy_mem.1 hq
            exact ⟨q1, push_tag (by decide +kernel) (by decide) q3, hk.2.ids q.1 q.2 q1 (.inr q3)⟩
          · rintro _ v ⟨-, e2, e3, e4, e5⟩
            have hpo : PPost popObj (fun _ t => t.ports = v.ports ∧ t.sports = v.sports ∧ t.reg = v.reg) v := by
              unfold popObj
              exact PPost.modify ⟨rfl, rfl, rfl⟩
            refine hpo.mono fun _ w hw => ?_
            rw [hw.1, hw.2.1, hw.2.2]
            exact ⟨e2, e3, e4, e5⟩
        · exact PPost.abort
      obtain ⟨e2, e3, e4, e5⟩ := key a t h4
      refine hk.2.less hpar hev (.inl ⟨fun hc => ?_, e2⟩) (.inr ⟨hsw.2 hc2, ?_, e3, fun q hq => ?_, e5⟩)
      · rw [hbody, hc2] at hc; cases hc
      · rintro k' ⟨-, m, m1, m2⟩ hf
        have m2 : m.tag = "switch" := by simpa using m2
        exact ht.own_inj m1 g1 (by unfold Note.kind; rw [if_pos m2]; rfl) (by unfold Note.kind; rw [if_pos g2]; rfl) hf
      · obtain ⟨L, l1, l2⟩ := e4 q hq
        exact ⟨L, l1, Found.lessEach (.refl _ _ _) hkl l2⟩
    · have hsm : SamePorts s t := samePorts_pop E n e.pop k hc1 hc2 s a t h4
      exact hk.2.less hpar hev (.inl ⟨fun hc => hc1 (hbody.1 hc), hsm.1⟩) (.inl ⟨fun hc => hc2 (hsw.1 hc), hsm.2⟩)

theorem portK_init {f : Nat → Nat} {W H : Int} {z : Nat} {reg : Reg} {n : Nat} : PortK f [] [] (PS.init W H z reg n) := by
  refine ⟨.nil, ?_, ?_, ?_, ?_, ?_, ?_, ?_, ?_⟩
  · intro j hj; cases hj
  · intro j n hj; simp at hj
  · intro j hj; cases hj
  · intro j n hj; simp at hj
  · exact fun o => ⟨[], [], .nil, fun k => ⟨fun h => (by cases h), fun ⟨⟨_, n, h, _⟩, _⟩ => (by simp at h)⟩, .nil, rfl⟩
  · intro o ho; exact absurd rfl ho
  · rintro k ⟨-, n, h, -⟩; simp at h
  · intro o ho; exact absurd rfl ho

end Ginga
