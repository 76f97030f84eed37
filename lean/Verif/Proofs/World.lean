import Verif.Proofs.Root
import Verif.Proofs.Final
import Verif.Props.C50
/-!
# The objects that the parser builds
-/
namespace Ginga

/-- What holds of the objects at every moment of the construction of a document.  `U`: the identifiers seen so far. -/
structure World (E : PRead) (r : Reg) (n : Nat) (refer : List (String × Nat)) (U : List String) : Prop where
  inv : RegInv r
  tree : TreeInv r
  /-- addresses come from the allocator -/
  objAddr : ∀ o x, r.obj o = some x → ∃ i, i < n ∧ o = E.addr i
  evAddr : ∀ o x a e, r.obj o = some x → (a, e) ∈ x.events → ∃ i, i < n ∧ a = E.addr i
  evUniq : ∀ o o' x x' a e e', r.obj o = some x → r.obj o' = some x' → (a, e) ∈ x.events → (a, e') ∈ x'.events → o = o'
  evNodup : ∀ o x, r.obj o = some x → (x.events.map Prod.fst).Nodup
  kids : ∀ p y, r.obj p = some y → y.children.Nodup ∧ (y.children ≠ [] → y.kind = .context ∨ y.kind = .switch)
  objs : r.objects.Nodup
  /-- the settings object is a child of the root -/
  settings : ∃ b x, r.settings = some b ∧ r.obj b = some x ∧ x.kind = .settings ∧ x.parent = some r.root
  /-- an identifier that was only referred to: its object waits for the element -/
  wait : ∀ q ∈ refer, q.1 ∉ U → ∃ x, r.obj q.2 = some x ∧ x.id = q.1 ∧ x.kind = .media ∧ x.inDoc = false

theorem mem_einsert' {a : Nat} {e : REv} {p : Nat × REv} : ∀ {l : List (Nat × REv)}, p ∈ einsert a e l ↔ p = (a, e) ∨ p ∈ l
  | [] => by simp [einsert]
  | b :: t => by
    unfold einsert
    split
    · simp
    · simp only [List.mem_cons, mem_einsert' (l := t)]
      constructor
      · rintro (h | h | h) <;> simp [h]
      · rintro (h | h | h) <;> simp [h]

theorem einsert_nodup {a : Nat} {e : REv} : ∀ {l : List (Nat × REv)}, (l.map Prod.fst).Nodup → a ∉ l.map Prod.fst → ((einsert a e l).map Prod.fst).Nodup
  | [], _, _ => by simp [einsert]
  | b :: t, h, ha => by
    unfold einsert
    split
    · exact List.nodup_cons.2 ⟨ha, h⟩
    · simp only [List.map_cons, List.nodup_cons] at h ⊢
      refine ⟨?_, einsert_nodup h.2 fun hm => ha (by simp [hm])⟩
      intro hm
      obtain ⟨p, hp, hpe⟩ := List.mem_map.1 hm
      rcases mem_einsert'.1 hp with h1 | h1
      · subst h1; exact ha (by simp at hpe; simp [hpe])
      · exact h.1 (List.mem_map.2 ⟨p, h1, hpe⟩)

theorem mem_sinsert' {a b : Nat} : ∀ {l : List Nat}, b ∈ sinsert a l ↔ b = a ∨ b ∈ l
  | [] => by simp [sinsert]
  | c :: t => by
    unfold sinsert
    split
    · next h => subst h; simp
    · split
      · simp
      · simp only [List.mem_cons, mem_sinsert' (l := t)]
        constructor
        · rintro (h | h | h) <;> simp [h]
        · rintro (h | h | h) <;> simp [h]

theorem sinsert_nodup {a : Nat} : ∀ {l : List Nat}, l.Nodup → a ∉ l → (sinsert a l).Nodup
  | [], _, _ => by simp [sinsert]
  | c :: t, h, ha => by
    unfold sinsert
    split
    · exact h
    · split
      · exact List.nodup_cons.2 ⟨ha, h⟩
      · simp only [List.nodup_cons, List.mem_cons, not_or] at h ha ⊢
        exact ⟨fun hm => (mem_sinsert'.1 hm).elim (fun e => ha.1 e.symm) h.1, sinsert_nodup h.2 ha.2⟩

theorem addEvent_events (x : RObj) (a : Nat) (e : REv) (p : Nat × REv) (h : p ∈ (x.addEvent a e).events) : p = (a, e) ∨ p ∈ x.events := by
  unfold RObj.addEvent at h
  split at h
  · exact .inr h
  · exact mem_einsert'.1 h

theorem addEvent_evNodup {x : RObj} {a : Nat} {e : REv} (h : (x.events.map Prod.fst).Nodup) (ha : ∀ p ∈ x.events, p.1 ≠ a) :
    ((x.addEvent a e).events.map Prod.fst).Nodup := by
  unfold RObj.addEvent
  split
  · exact h
  · refine einsert_nodup h fun hm => ?_
    obtain ⟨p, hp, hpe⟩ := List.mem_map.1 hm
    exact ha p hp hpe

theorem newObj_events (k : RKind) (id : String) (a1 a2 : Nat) (p : Nat × REv) (h : p ∈ (newObj k id a1 a2).events) : p.1 = a1 ∨ p.1 = a2 := by
  unfold newObj at h
  dsimp only at h
  split at h
  · rcases addEvent_events _ _ _ _ h with h | h
    · exact .inr (by rw [h])
    · rcases addEvent_events _ _ _ _ h with h | h
      · exact .inl (by rw [h])
      · simp at h
  · rcases addEvent_events _ _ _ _ h with h | h
    · exact .inl (by rw [h])
    · simp at h

theorem newObj_evNodup (k : RKind) (id : String) (a1 a2 : Nat) (h : a1 ≠ a2) : ((newObj k id a1 a2).events.map Prod.fst).Nodup := by
  unfold newObj
  dsimp only
  have h1 : ((({ kind := k, id := id } : RObj).addEvent a1 { typ := .presentation, id := "@lambda" }).events.map Prod.fst).Nodup :=
    addEvent_evNodup (by simp) (by simp)
  split
  · refine addEvent_evNodup h1 fun p hp => ?_
    rcases addEvent_events _ _ _ _ hp with h2 | h2
    · rw [h2]; exact h
    · simp at h2
  · exact h1

section
variable {E : PRead} {r : Reg} {n : Nat} {refer : List (String × Nat)} {U : List String}

/-- More identifiers seen, more addresses used. -/
theorem World.grow (w : World E r n refer U) {m : Nat} {V : List String} (hm : n ≤ m) (hU : ∀ a ∈ U, a ∈ V) : World E r m refer V where
  inv := w.inv
  tree := w.tree
  objAddr o x h := by obtain ⟨i, h1, h2⟩ := w.objAddr o x h; exact ⟨i, Nat.lt_of_lt_of_le h1 hm, h2⟩
  evAddr o x a e h h' := by obtain ⟨i, h1, h2⟩ := w.evAddr o x a e h h'; exact ⟨i, Nat.lt_of_lt_of_le h1 hm, h2⟩
  evUniq := w.evUniq
  evNodup := w.evNodup
  kids := w.kids
  objs := w.objs
  settings := w.settings
  wait q hq hn := w.wait q hq fun h => hn (hU _ h)

/-- An update of one object that leaves its place in the tree. -/
theorem World.setObj (w : World E r n refer U) {o : Nat} {x x' : RObj} (hx : r.obj o = some x) (hok : EvOk x')
    (hs : x'.id = x.id ∧ x'.kind = x.kind ∧ x'.parent = x.parent ∧ x'.children = x.children ∧ x'.inDoc = x.inDoc)
    (hn : (x'.events.map Prod.fst).Nodup)
    (he : ∀ p ∈ x'.events, p ∈ x.events ∨ ((∃ i, i < n ∧ p.1 = E.addr i) ∧ ∀ q y f, r.obj q = some y → f ∈ y.events → f.1 ≠ p.1)) :
    World E (r.setObj o x') n refer U := by
  have hobj : ∀ q y, (r.setObj o x').obj q = some y → (q = o ∧ y = x') ∨ (q ≠ o ∧ r.obj q = some y) := by
    intro q y hy
    simp only [Reg.setObj, upd] at hy
    split at hy
    · next e => cases hy; exact .inl ⟨e, rfl⟩
    · next e => exact .inr ⟨e, hy⟩
  have same : ∀ q z, r.obj q = some z → ∃ z', (r.setObj o x').obj q = some z' ∧ z'.id = z.id ∧ z'.kind = z.kind ∧ z'.parent = z.parent ∧ z'.inDoc = z.inDoc := by
    intro q z hz
    by_cases hq : q = o
    · subst hq; rw [hx] at hz; cases hz
      exact ⟨x', by simp [Reg.setObj, upd], hs.1, hs.2.1, hs.2.2.1, hs.2.2.2.2⟩
    · exact ⟨z, by simp [Reg.setObj, upd, hq, hz], rfl, rfl, rfl, rfl⟩
  refine ⟨w.inv.setObj o x x' hx hok hs.1 hs.2.1 hs.2.2.2.2, setObj_same w.tree hx ⟨hs.2.2.1, hs.2.2.2.1, hs.2.2.2.2⟩, ?_, ?_, ?_, ?_, ?_, w.objs, ?_, ?_⟩
  · intro q y hy
    rcases hobj q y hy with ⟨rfl, -⟩ | ⟨-, h⟩
    · exact w.objAddr _ _ hx
    · exact w.objAddr _ _ h
  · intro q y a e hy ha
    rcases hobj q y hy with ⟨rfl, rfl⟩ | ⟨-, h⟩
    · rcases he _ ha with h | h
      · exact w.evAddr _ _ _ _ hx h
      · exact h.1
    · exact w.evAddr _ _ _ _ h ha
  · intro q q' y y' a e e' hy hy' ha ha'
    rcases hobj q y hy with ⟨h1, h2⟩ | ⟨h0, h1⟩ <;> rcases hobj q' y' hy' with ⟨h3, h4⟩ | ⟨h3, h4⟩
    · rw [h1, h3]
    · subst h1; subst h2
      rcases he _ ha with h | h
      · exact w.evUniq _ _ _ _ _ _ _ hx h4 h ha'
      · exact absurd rfl (h.2 _ _ (a, e') h4 ha')
    · subst h3; subst h4
      rcases he _ ha' with h | h
      · exact w.evUniq _ _ _ _ _ _ _ h1 hx ha h
      · exact absurd rfl (h.2 _ _ (a, e) h1 ha)
    · exact w.evUniq _ _ _ _ _ _ _ h1 h4 ha ha'
  · intro q y hy
    rcases hobj q y hy with ⟨-, rfl⟩ | ⟨-, h⟩
    · exact hn
    · exact w.evNodup _ _ h
  · intro q y hy
    rcases hobj q y hy with ⟨-, rfl⟩ | ⟨-, h⟩
    · rw [hs.2.2.2.1, hs.2.1]; exact w.kids _ _ hx
    · exact w.kids _ _ h
  · obtain ⟨b, z, h1, h2, h3, h4⟩ := w.settings
    obtain ⟨z', g1, g2, g3, g4, g5⟩ := same b z h2
    exact ⟨b, z', h1, g1, g3.trans h3, g4.trans h4⟩
  · intro q hq hu
    obtain ⟨z, h1, h2, h3, h4⟩ := w.wait q hq hu
    obtain ⟨z', g1, g2, g3, g4, g5⟩ := same _ z h1
    exact ⟨z', g1, g2.trans h2, g3.trans h3, g5.trans h4⟩

theorem World.fresh (w : World E r n refer U) (hinj : ∀ i j, E.addr i = E.addr j → i = j) {m : Nat} (hm : n ≤ m) :
    r.obj (E.addr m) = none ∧ ∀ q y f, r.obj q = some y → f ∈ y.events → f.1 ≠ E.addr m := by
  constructor
  · cases h : r.obj (E.addr m) with
    | none => rfl
    | some x =>
      obtain ⟨i, h1, h2⟩ := w.objAddr _ _ h
      have := hinj _ _ h2; omega
  · intro q y f hy hf he
    obtain ⟨i, h1, h2⟩ := w.evAddr q y f.1 f.2 hy hf
    rw [he] at h2
    have := hinj _ _ h2; omega

theorem World.addEvent (w : World E r n refer U) (hinj : ∀ i j, E.addr i = E.addr j → i = j) {o : Nat} {e : REv} {b : Bool} {r' : Reg}
    (h : r.exec (.addEvent o (E.addr n) e) = .ok (b, r')) : World E r' (n + 1) refer U := by
  simp only [Reg.exec] at h
  cases ho : r.obj o with
  | none => rw [ho] at h; cases h
  | some x =>
    rw [ho] at h; cases h
    have f := addEvent_fields x (E.addr n) e
    have fr := w.fresh hinj (Nat.le_refl n)
    refine (w.grow (Nat.le_succ n) fun _ h => h).setObj ho (addEvent_evok (w.inv.ev _ _ ho) _ _) ⟨f.1, f.2.1, f.2.2.1, f.2.2.2.1, f.2.2.2.2.1⟩ ?_ ?_
    · exact addEvent_evNodup (w.evNodup _ _ ho) fun p hp => fr.2 _ _ _ ho hp
    · intro p hp
      rcases addEvent_events _ _ _ _ hp with h | h
      · subst h; exact .inr ⟨⟨n, Nat.lt_succ_self n, rfl⟩, fr.2⟩
      · exact .inl h

theorem World.addAlias (w : World E r n refer U) {o c : Nat} {a : String} {b : Bool} {r' : Reg}
    (h : r.exec (.addAlias o a c) = .ok (b, r')) : World E r' n refer U := by
  simp only [Reg.exec, Reg.addAlias] at h
  cases ho : r.obj o with
  | none => rw [ho] at h; cases h
  | some x =>
    rw [ho] at h
    dsimp only at h
    split at h
    · cases h; exact w
    · cases h
      have := w.inv.ev _ _ ho
      exact w.setObj ho ⟨this.uniq, this.lam, this.focus⟩ ⟨rfl, rfl, rfl, rfl, rfl⟩ (w.evNodup o x ho) fun p hp => .inl hp

theorem World.new (w : World E r n refer U) (hinj : ∀ i j, E.addr i = E.addr j → i = j) {k : RKind} {id : String} {b : Bool} {r' : Reg}
    (h : r.exec (.new (E.addr n) k id (E.addr (n + 1)) (E.addr (n + 2))) = .ok (b, r')) :
    World E r' (n + 3) refer U ∧ r'.obj (E.addr n) = some (newObj k id (E.addr (n + 1)) (E.addr (n + 2))) := by
  have fr := fun m hm => w.fresh hinj (m := m) hm
  have hn := (fr n (Nat.le_refl n)).1
  have hi := exec_reginv w.inv _ _ _ h
  have ht := exec_tree w.tree w.inv (by simp) h
  simp only [Reg.exec, hn] at h
  cases h
  have f := newObj_fields k id (E.addr (n + 1)) (E.addr (n + 2))
  have hne : E.addr (n + 1) ≠ E.addr (n + 2) := fun h => by have := hinj _ _ h; omega
  have hobj : ∀ q y, (r.setObj (E.addr n) (newObj k id (E.addr (n + 1)) (E.addr (n + 2)))).obj q = some y →
      (q = E.addr n ∧ y = newObj k id (E.addr (n + 1)) (E.addr (n + 2))) ∨ (q ≠ E.addr n ∧ r.obj q = some y) := by
    intro q y hy
    simp only [Reg.setObj, upd] at hy
    split at hy
    · next e => cases hy; exact .inl ⟨e, rfl⟩
    · next e => exact .inr ⟨e, hy⟩
  have keep : ∀ q y, r.obj q = some y → (r.setObj (E.addr n) (newObj k id (E.addr (n + 1)) (E.addr (n + 2)))).obj q = some y := by
    intro q y hy
    have : q ≠ E.addr n := by rintro rfl; rw [hn] at hy; cases hy
    simp [Reg.setObj, upd, this, hy]
  refine ⟨⟨hi, ht, ?_, ?_, ?_, ?_, ?_, w.objs, ?_, ?_⟩, by simp [Reg.setObj, upd]⟩
  · intro q y hy
    rcases hobj q y hy with ⟨rfl, -⟩ | ⟨-, h⟩
    · exact ⟨n, by omega, rfl⟩
    · obtain ⟨i, h1, h2⟩ := w.objAddr _ _ h; exact ⟨i, by omega, h2⟩
  · intro q y a e hy ha
    rcases hobj q y hy with ⟨rfl, rfl⟩ | ⟨-, h⟩
    · rcases newObj_events _ _ _ _ _ ha with h | h
      · exact ⟨n + 1, by omega, h⟩
      · exact ⟨n + 2, by omega, h⟩
    · obtain ⟨i, h1, h2⟩ := w.evAddr _ _ _ _ h ha; exact ⟨i, by omega, h2⟩
  · intro q q' y y' a e e' hy hy' ha ha'
    have clash : ∀ q y a e e', r.obj q = some y → (a, e) ∈ y.events →
        (a, e') ∈ (newObj k id (E.addr (n + 1)) (E.addr (n + 2))).events → False := by
      intro q y a e e' h1 h2 h3
      rcases newObj_events _ _ _ _ _ h3 with h | h
      · exact (fr (n + 1) (by omega)).2 _ _ _ h1 h2 h
      · exact (fr (n + 2) (by omega)).2 _ _ _ h1 h2 h
    rcases hobj q y hy with ⟨h1, h2⟩ | ⟨h0, h1⟩ <;> rcases hobj q' y' hy' with ⟨h3, h4⟩ | ⟨h3, h4⟩
    · rw [h1, h3]
    · subst h2; exact (clash _ _ _ _ _ h4 ha' ha).elim
    · subst h4; exact (clash _ _ _ _ _ h1 ha ha').elim
    · exact w.evUniq _ _ _ _ _ _ _ h1 h4 ha ha'
  · intro q y hy
    rcases hobj q y hy with ⟨-, rfl⟩ | ⟨-, h⟩
    · exact newObj_evNodup _ _ _ _ hne
    · exact w.evNodup _ _ h
  · intro q y hy
    rcases hobj q y hy with ⟨-, rfl⟩ | ⟨-, h⟩
    · rw [f.2.2.2.1]; simp
    · exact w.kids _ _ h
  · obtain ⟨b, z, h1, h2, h3, h4⟩ := w.settings
    exact ⟨b, z, h1, keep _ _ h2, h3, h4⟩
  · intro q hq hu
    obtain ⟨z, h1, h2⟩ := w.wait q hq hu
    exact ⟨z, keep _ _ h1, h2⟩

theorem addChild_objects {c o : Nat} {b : Bool} {r' : Reg} (h : r.addChild c o = .ok (b, r')) :
    r'.settings = r.settings ∧ ((r' = r ∧ ∃ y, r.obj c = some y ∧ o ∈ y.children) ∨
      (o ∉ r.objects ∧ r'.objects = sinsert o r.objects ∧ ∃ y, r.obj c = some y ∧ (y.kind = .context ∨ y.kind = .switch))) := by
  have reg : ∀ (r : Reg) (o : Nat) (x : RObj), (r.register o x).objects = sinsert o r.objects ∧ (r.register o x).settings = r.settings := by
    intro r o x
    unfold Reg.register
    dsimp only
    split <;> exact ⟨rfl, rfl⟩
  have ao : ∀ (r r' : Reg) (o : Nat) (b : Bool), r.addObject o = .ok (b, r') → r'.settings = r.settings ∧
      (b = true → o ∉ r.objects ∧ r'.objects = sinsert o r.objects) := by
    intro r r' o b h
    unfold Reg.addObject at h
    split at h
    · cases h
    · split at h
      · cases h; exact ⟨rfl, by simp⟩
      · next h1 =>
        split at h
        · cases h
        · split at h
          · cases h
          · cases h; exact ⟨(reg _ _ _).2, fun _ => ⟨fun h => h1 (.inl h), (reg _ _ _).1⟩⟩
  unfold Reg.addChild at h
  split at h
  · next y x hy hx =>
    split at h
    · cases h
    · next hk =>
      split at h
      · next hm => cases h; exact ⟨rfl, .inl ⟨rfl, y, hy, hm⟩⟩
      · split at h
        · cases h
        · split at h
          · cases h
          · dsimp only at h
            split at h
            · cases h
            · next x2 hx2 =>
              cases ha : ((r.setObj c { y with children := sinsert o y.children }).setObj o { x2 with parent := some c }).addObject o with
              | ok p =>
                rw [ha] at h
                simp only [Res.bind] at h
                split at h
                · next hp =>
                  cases h
                  have := ao _ _ _ _ (show _ = Res.ok (p.1, p.2) from ha)
                  refine ⟨this.1, .inr ⟨(this.2 hp).1, (this.2 hp).2, y, hy, ?_⟩⟩
                  cases hk' : y.kind <;> simp_all
                · cases h
              | abort => rw [ha] at h; cases h
              | ub => rw [ha] at h; cases h
              | fuel => rw [ha] at h; cases h
  · cases h

theorem World.addChild (w : World E r n refer U) {c o : Nat} {b : Bool} {r' : Reg} (hw : ∀ q ∈ refer, q.1 ∉ U → q.2 ≠ o)
    (h : r.exec (.addChild c o) = .ok (b, r')) : World E r' n refer U := by
  have hi := exec_reginv w.inv _ _ _ h
  have ht := exec_tree w.tree w.inv (by simp) h
  have hroot := (exec_mono h).2.1
  simp only [Reg.exec] at h
  have hsh := addChild_shape w.inv h
  have hob := addChild_objects h
  rcases hsh.2 with ⟨rfl, -⟩ | ⟨y, x, hy, hx, -, hx0, hpn, hco, hoy, -, hc', ho', hq⟩
  · exact w
  have hin : r'.objects = sinsert o r.objects ∧ o ∉ r.objects ∧ (y.kind = .context ∨ y.kind = .switch) := by
    rcases hob.2 with ⟨-, z, hz, hoz⟩ | ⟨h1, h2, z, hz, hk⟩
    · rw [hy] at hz; cases hz; exact absurd hoz hoy
    · rw [hy] at hz; cases hz; exact ⟨h2, h1, hk⟩
  have hobj : ∀ q z, r'.obj q = some z → (q = c ∧ z = { y with children := sinsert o y.children }) ∨
      (q = o ∧ z = { x with parent := some c, inDoc := true }) ∨ (q ≠ c ∧ q ≠ o ∧ r.obj q = some z) := by
    intro q z hz
    by_cases h1 : q = c
    · subst h1; rw [hc'] at hz; cases hz; exact .inl ⟨rfl, rfl⟩
    · by_cases h2 : q = o
      · subst h2; rw [ho'] at hz; cases hz; exact .inr (.inl ⟨rfl, rfl⟩)
      · rw [hq q h1 h2] at hz; exact .inr (.inr ⟨h1, h2, hz⟩)
  have back : ∀ q z, r'.obj q = some z → ∃ z0, r.obj q = some z0 ∧ z0.events = z.events := by
    intro q z hz
    rcases hobj q z hz with ⟨rfl, rfl⟩ | ⟨rfl, rfl⟩ | ⟨-, -, h⟩
    · exact ⟨y, hy, rfl⟩
    · exact ⟨x, hx, rfl⟩
    · exact ⟨z, h, rfl⟩
  refine ⟨hi, ht, ?_, ?_, ?_, ?_, ?_, ?_, ?_, ?_⟩
  · intro q z hz
    obtain ⟨z0, h1, -⟩ := back q z hz
    exact w.objAddr _ _ h1
  · intro q z a e hz ha
    obtain ⟨z0, h1, h2⟩ := back q z hz
    exact w.evAddr _ _ _ _ h1 (h2 ▸ ha)
  · intro q q' z z' a e e' hz hz' ha ha'
    obtain ⟨z0, h1, h2⟩ := back q z hz
    obtain ⟨z1, h3, h4⟩ := back q' z' hz'
    exact w.evUniq _ _ _ _ _ _ _ h1 h3 (h2 ▸ ha) (h4 ▸ ha')
  · intro q z hz
    obtain ⟨z0, h1, h2⟩ := back q z hz
    rw [← h2]; exact w.evNodup _ _ h1
  · intro q z hz
    rcases hobj q z hz with ⟨rfl, rfl⟩ | ⟨rfl, rfl⟩ | ⟨-, -, h⟩
    · exact ⟨sinsert_nodup (w.kids _ _ hy).1 hoy, fun _ => hin.2.2⟩
    · exact w.kids q x hx
    · exact w.kids _ _ h
  · rw [hin.1]; exact sinsert_nodup w.objs hin.2.1
  · obtain ⟨b, z, h1, h2, h3, h4⟩ := w.settings
    by_cases e1 : b = c
    · subst e1; rw [hy] at h2; cases h2
      rw [h3] at hin; simp at hin
    · by_cases e2 : b = o
      · subst e2; rw [hx] at h2; cases h2; rw [hpn] at h4; cases h4
      · exact ⟨b, z, hob.1.trans h1, (hq b e1 e2).trans h2, h3, by rw [hroot]; exact h4⟩
  · intro q hq' hu
    obtain ⟨z, h1, h2, h3, h4⟩ := w.wait q hq' hu
    by_cases e1 : q.2 = c
    · rw [e1, hy] at h1; cases h1; rw [h3] at hin; simp at hin
    · exact ⟨z, (hq _ e1 (hw q hq' hu)).trans h1, h2, h3, h4⟩

/-- The deletion of an object that is not in the document and that no unseen identifier refers to. -/
theorem World.del (w : World E r n refer U) {o : Nat} (hd : ∀ x, r.obj o = some x → x.inDoc = false)
    (hw : ∀ q ∈ refer, q.1 ∉ U → q.2 ≠ o) : World E { r with obj := upd r.obj o none } n refer U := by
  have hobj : ∀ q z, upd r.obj o none q = some z → q ≠ o ∧ r.obj q = some z := by
    intro q z hz
    simp only [upd] at hz
    split at hz
    · cases hz
    · next e => exact ⟨e, hz⟩
  have keep : ∀ q z, r.obj q = some z → z.inDoc = true → upd r.obj o none q = some z := by
    intro q z hz hi
    have : q ≠ o := by rintro rfl; rw [hd _ hz] at hi; cases hi
    simp [upd, this, hz]
  have hhas : ∀ q z, ({ r with obj := upd r.obj o none } : Reg).has q z ↔ r.has q z := by
    intro q z
    constructor
    · rintro ⟨h1, h2⟩; exact ⟨h1, (hobj _ _ h2).2⟩
    · rintro ⟨h1, h2⟩
      obtain ⟨z', hz', hi⟩ := w.inv.objs q h1
      have h2' : r.obj q = some z := h2
      rw [hz'] at h2'; cases h2'
      exact ⟨h1, keep _ _ h2 hi⟩
  have rootD : ∃ x, upd r.obj o none r.root = some x ∧ r.obj r.root = some x := by
    obtain ⟨x, h1, -, h3⟩ := w.tree.root
    exact ⟨x, keep _ _ h1 h3, h1⟩
  have upk : ∀ q, UpToRoot r q → (q = r.root ∨ ∃ x, r.obj q = some x ∧ x.inDoc = true) → UpToRoot { r with obj := upd r.obj o none } q := by
    intro q hu
    induction hu with
    | root => intro _; exact UpToRoot.root (r := { r with obj := upd r.obj o none })
    | @up q x p hq hp _ ih =>
      intro h
      have hin : x.inDoc = true := by
        rcases h with h | ⟨x', h1, h2⟩
        · obtain ⟨z, h1, h2, -⟩ := w.tree.root
          rw [← h, hq] at h1; cases h1; rw [hp] at h2; cases h2
        · rw [hq] at h1; cases h1; exact h2
      have hqr : q ≠ r.root := by
        rintro rfl
        obtain ⟨z, h1, h2, -⟩ := w.tree.root
        rw [hq] at h1; cases h1; rw [hp] at h2; cases h2
      obtain ⟨p', y, h1, h2, h3⟩ := w.tree.par q x hq hin hqr
      rw [hp] at h1; cases h1
      have hyin : y.inDoc = true := by
        cases hb : y.inDoc with
        | true => rfl
        | false => rw [(w.tree.out _ _ h2 hb).2] at h3; cases h3
      exact .up (keep _ _ hq hin) hp (ih (.inr ⟨y, h2, hyin⟩))
  refine ⟨?_, ?_, ?_, ?_, ?_, ?_, ?_, w.objs, ?_, ?_⟩
  · refine ⟨fun q z h => w.inv.ev _ _ (hobj _ _ h).2, ?_, fun q z h => w.inv.inDoc _ _ (hobj _ _ h).2, ?_, ?_, ?_, ?_, ?_, ?_⟩
    · intro q hq
      obtain ⟨z, h1, h2⟩ := w.inv.objs q hq
      exact ⟨z, keep _ _ h1 h2, h2⟩
    · intro id q; simp only [hhas]; exact w.inv.byId id q
    · intro q; simp only [hhas]; exact w.inv.medias q
    · intro q; simp only [hhas]; exact w.inv.contexts q
    · intro q; simp only [hhas]; exact w.inv.switches q
    · obtain ⟨x, h1, h2⟩ := rootD
      obtain ⟨x', h3, h4⟩ := w.inv.rootKind
      rw [h2] at h3; cases h3
      exact ⟨x, h1, h4⟩
    · intro b hb q; simp only [hhas]; exact w.inv.settings b hb q
  · refine ⟨?_, fun q z h => w.tree.out _ _ (hobj _ _ h).2, ?_, ?_, ?_⟩
    · obtain ⟨x, h1, h2⟩ := rootD
      obtain ⟨x', h3, h4⟩ := w.tree.root
      rw [h2] at h3; cases h3
      exact ⟨x, h1, h4⟩
    · intro q z hz hi hr
      obtain ⟨p, y, h1, h2, h3⟩ := w.tree.par q z (hobj _ _ hz).2 hi hr
      refine ⟨p, y, h1, keep _ _ h2 ?_, h3⟩
      cases hb : y.inDoc with
      | true => rfl
      | false => rw [(w.tree.out _ _ h2 hb).2] at h3; cases h3
    · intro p y hy q hq
      obtain ⟨z, h1, h2, h3⟩ := w.tree.chi p y (hobj _ _ hy).2 q hq
      exact ⟨z, keep _ _ h1 h3, h2, h3⟩
    · intro q z hz hi
      exact upk q (w.tree.up _ _ (hobj _ _ hz).2 hi) (.inr ⟨z, (hobj _ _ hz).2, hi⟩)
  · intro q z hz; exact w.objAddr _ _ (hobj _ _ hz).2
  · intro q z a e hz; exact w.evAddr _ _ _ _ (hobj _ _ hz).2
  · intro q q' z z' a e e' hz hz'; exact w.evUniq _ _ _ _ _ _ _ (hobj _ _ hz).2 (hobj _ _ hz').2
  · intro q z hz; exact w.evNodup _ _ (hobj _ _ hz).2
  · intro q z hz; exact w.kids _ _ (hobj _ _ hz).2
  · obtain ⟨b, z, h1, h2, h3, h4⟩ := w.settings
    refine ⟨b, z, h1, keep _ _ h2 ?_, h3, h4⟩
    cases hb : z.inDoc with
    | true => rfl
    | false => rw [(w.tree.out _ _ h2 hb).1] at h4; cases h4
  · intro q hq hu
    obtain ⟨z, h1, h2⟩ := w.wait q hq hu
    have : q.2 ≠ o := hw q hq hu
    exact ⟨z, by simp [upd, this, h1], h2⟩

end

/-! ## Registered objects stay -/

/-- An object of the document, with what never changes. -/
def Reg.node (r : Reg) (o : Nat) (id : String) (k : RKind) (p : Option Nat) : Prop :=
  ∃ x, r.has o x ∧ x.id = id ∧ x.kind = k ∧ x.parent = p

/-- An object of the document is found by its identifier. -/
theorem Reg.node.byId {r : Reg} (h : RegInv r) {o : Nat} {i : String} {k : RKind} {p : Option Nat} (hn : r.node o i k p) : r.getById i = some o := by
  obtain ⟨x, hx, h1, -⟩ := hn
  exact (h.byId i o).2 ⟨x, hx, h1⟩

/-- Registered objects stay, and only the objects of `l` are new. -/
def Keeps (l : List Nat) (r r' : Reg) : Prop :=
  (∀ o id k p, r.node o id k p → r'.node o id k p) ∧ r'.root = r.root ∧ r'.settings = r.settings ∧
  ∀ o id k p, r'.node o id k p → r.node o id k p ∨ o ∈ l

theorem Keeps.refl (r : Reg) : Keeps [] r r := ⟨fun _ _ _ _ h => h, rfl, rfl, fun _ _ _ _ h => .inl h⟩
theorem Keeps.trans {l m : List Nat} {a b c : Reg} (h : Keeps l a b) (h' : Keeps m b c) : Keeps (l ++ m) a c :=
  ⟨fun _ _ _ _ hn => h'.1 _ _ _ _ (h.1 _ _ _ _ hn), h'.2.1.trans h.2.1, h'.2.2.1.trans h.2.2.1, fun o id k p hn => by
    rcases h'.2.2.2 _ _ _ _ hn with h1 | h1
    · rcases h.2.2.2 _ _ _ _ h1 with h2 | h2
      · exact .inl h2
      · exact .inr (by simp [h2])
    · exact .inr (by simp [h1])⟩

theorem Keeps.of_obj {r r' : Reg} (ho : r'.objects = r.objects) (hr : r'.root = r.root) (hs : r'.settings = r.settings)
    (h : ∀ o x, r.has o x → ∃ x', r'.obj o = some x' ∧ x'.id = x.id ∧ x'.kind = x.kind ∧ x'.parent = x.parent)
    (h' : ∀ o x', r'.has o x' → ∃ x, r.obj o = some x ∧ x'.id = x.id ∧ x'.kind = x.kind ∧ x'.parent = x.parent) : Keeps [] r r' := by
  refine ⟨?_, hr, hs, ?_⟩
  · rintro o id k p ⟨x, hx, rfl, rfl, rfl⟩
    obtain ⟨x', h1, h2⟩ := h o x hx
    exact ⟨x', ⟨ho ▸ hx.1, h1⟩, h2⟩
  · rintro o id k p ⟨x', hx, rfl, rfl, rfl⟩
    obtain ⟨x, h1, h2, h3, h4⟩ := h' o x' hx
    exact .inl ⟨x, ⟨ho ▸ hx.1, h1⟩, h2.symm, h3.symm, h4.symm⟩

theorem keeps_setObj {r : Reg} {o : Nat} {x x' : RObj} (hx : r.obj o = some x) (hs : x'.id = x.id ∧ x'.kind = x.kind ∧ x'.parent = x.parent) :
    Keeps [] r (r.setObj o x') := by
  refine Keeps.of_obj rfl rfl rfl (fun q z hz => ?_) (fun q z hz => ?_)
  · by_cases hq : q = o
    · subst hq
      have := hz.2
      rw [hx] at this; cases this
      exact ⟨x', by simp [Reg.setObj, upd], hs⟩
    · exact ⟨z, by simp [Reg.setObj, upd, hq, hz.2], rfl, rfl, rfl⟩
  · have h2 := hz.2
    simp only [Reg.setObj, upd] at h2
    split at h2
    · next e => cases h2; subst e; exact ⟨x, hx, hs⟩
    · exact ⟨z, h2, rfl, rfl, rfl⟩

theorem exec_keeps {r r' : Reg} {op : RegOp} {b : Bool} (hi : RegInv r) (hop : ∀ o, op ≠ .addObject o) (hop' : ∀ c o, op ≠ .addChild c o)
    (h : r.exec op = .ok (b, r')) : Keeps [] r r' := by
  cases op with
  | addObject o => exact absurd rfl (hop o)
  | addChild c o => exact absurd rfl (hop' c o)
  | new a k id a1 a2 =>
    simp only [Reg.exec] at h
    cases ha : r.obj a with
    | some x => rw [ha] at h; cases h; exact Keeps.refl _
    | none =>
      rw [ha] at h; cases h
      have na : a ∉ r.objects := by
        intro hm
        obtain ⟨z, h3, -⟩ := hi.objs _ hm
        rw [ha] at h3; cases h3
      refine Keeps.of_obj rfl rfl rfl (fun q z hz => ?_) (fun q z hz => ?_)
      · have : q ≠ a := by rintro rfl; exact na hz.1
        exact ⟨z, by simp [Reg.setObj, upd, this, hz.2], rfl, rfl, rfl⟩
      · have : q ≠ a := by rintro rfl; exact na hz.1
        have h2 := hz.2
        simp only [Reg.setObj, upd, this, if_false] at h2
        exact ⟨z, h2, rfl, rfl, rfl⟩
  | addAlias o a c =>
    simp only [Reg.exec, Reg.addAlias] at h
    cases ho : r.obj o with
    | none => rw [ho] at h; cases h
    | some x =>
      rw [ho] at h
      dsimp only at h
      split at h
      · cases h; exact Keeps.refl _
      · cases h; exact keeps_setObj ho ⟨rfl, rfl, rfl⟩
  | addEvent o a e =>
    simp only [Reg.exec] at h
    cases ho : r.obj o with
    | none => rw [ho] at h; cases h
    | some x =>
      rw [ho] at h; cases h
      have f := addEvent_fields x a e
      exact keeps_setObj ho ⟨f.1, f.2.1, f.2.2.1⟩

theorem addChild_keeps {r r' : Reg} {c o : Nat} {b : Bool} (hi : RegInv r) (h : r.exec (.addChild c o) = .ok (b, r')) : Keeps [o] r r' := by
  have hm := exec_mono h
  simp only [Reg.exec] at h
  have hob := (addChild_objects h).2
  rcases (addChild_shape hi h).2 with ⟨rfl, -⟩ | ⟨y, x, hy, hx, -, hx0, -, hco, hoy, -, hc', ho', hq⟩
  · exact ⟨fun _ _ _ _ h => h, rfl, rfl, fun _ _ _ _ h => .inl h⟩
  · have hobjs : r'.objects = sinsert o r.objects := by
      rcases hob with ⟨-, z, hz, hoz⟩ | ⟨-, h2, -⟩
      · rw [hy] at hz; cases hz; exact absurd hoz hoy
      · exact h2
    refine ⟨?_, hm.2.1, hm.2.2, ?_⟩
    · rintro q id k p ⟨z, hz, rfl, rfl, rfl⟩
      by_cases e1 : q = c
      · subst e1; have := hz.2; rw [hy] at this; cases this
        exact ⟨_, ⟨hm.1 _ hz.1, hc'⟩, rfl, rfl, rfl⟩
      · by_cases e2 : q = o
        · subst e2; have h2 := hz.2; rw [hx] at h2; cases h2
          obtain ⟨z', h3, h4⟩ := hi.objs _ hz.1
          rw [hx] at h3; cases h3; rw [hx0] at h4; cases h4
        · exact ⟨z, ⟨hm.1 _ hz.1, (hq q e1 e2).trans hz.2⟩, rfl, rfl, rfl⟩
    · rintro q id k p ⟨z, hz, rfl, rfl, rfl⟩
      by_cases e2 : q = o
      · exact .inr (by simp [e2])
      · have hqo : q ∈ r.objects := by
          have := hz.1
          rw [hobjs] at this
          rcases mem_sinsert'.1 this with h | h
          · exact absurd h e2
          · exact h
        by_cases e1 : q = c
        · subst e1; have := hz.2; rw [hc'] at this; cases this
          exact .inl ⟨y, ⟨hqo, hy⟩, rfl, rfl, rfl⟩
        · exact .inl ⟨z, ⟨hqo, (hq q e1 e2) ▸ hz.2⟩, rfl, rfl, rfl⟩

theorem keeps_del {r : Reg} (hi : RegInv r) {o : Nat} (hd : ∀ x, r.obj o = some x → x.inDoc = false) : Keeps [] r { r with obj := upd r.obj o none } := by
  have no : o ∉ r.objects := by
    intro hm
    obtain ⟨z', h3, h4⟩ := hi.objs _ hm
    rw [hd _ h3] at h4; cases h4
  refine Keeps.of_obj rfl rfl rfl (fun q z hz => ?_) (fun q z hz => ?_)
  · have : q ≠ o := by rintro rfl; exact no hz.1
    exact ⟨z, by simp [upd, this, hz.2], rfl, rfl, rfl⟩
  · have : q ≠ o := by rintro rfl; exact no hz.1
    have h2 := hz.2
    simp only [upd, this, if_false] at h2
    exact ⟨z, h2, rfl, rfl, rfl⟩

/-! ## The parser keeps the objects in order -/

def WorldOf (E : PRead) (s : PS) : Prop := World E s.reg s.nalloc s.refer s.syn.unique

/-- What the processing of an element does to the objects. -/
def OStep (E : PRead) (s t : PS) : Prop := t.syn = s.syn ∧ (WorldOf E s → WorldOf E t ∧ Keeps [] s.reg t.reg)

theorem ostep_pre (E : PRead) : PPre (OStep E) where
  refl _ := ⟨rfl, fun w => ⟨w, Keeps.refl _⟩⟩
  trans h h' := ⟨h'.1.trans h.1, fun w => by
    obtain ⟨w1, k1⟩ := h.2 w
    obtain ⟨w2, k2⟩ := h'.2 w1
    exact ⟨w2, k1.trans k2⟩⟩

/-- A step that changes none of the fields concerned. -/
theorem ostep_same {E : PRead} {s t : PS} (h1 : t.reg = s.reg) (h2 : t.nalloc = s.nalloc) (h3 : t.refer = s.refer) (h4 : t.syn = s.syn) :
    OStep E s t := by
  refine ⟨h4, fun w => ?_⟩
  refine ⟨?_, by rw [h1]; exact Keeps.refl _⟩
  unfold WorldOf at w ⊢
  rw [h1, h2, h3, h4]; exact w

theorem ostep_addEvent {E : PRead} (hinj : ∀ i j, E.addr i = E.addr j → i = j) (o : Nat) (e : REv) : PRel (OStep E) (addEvent E o e) := by
  intro s
  unfold addEvent
  refine PPost.bind' (PPost.alloc ?_)
  refine PPost.regOp fun b r h => ⟨rfl, fun w => ?_⟩
  exact ⟨World.addEvent w hinj h, exec_keeps w.inv (by simp) (by simp) h⟩

theorem ostep_atom {E : PRead} (hinj : ∀ i j, E.addr i = E.addr j → i = j) : PAtom E (fun _ => True) (OStep E) where
  toPPre := ostep_pre E
  event o e _ := ostep_addEvent hinj o e
  props _ _ _ _ _ _ := ostep_same rfl rfl rfl rfl
  par _ _ _ := ostep_same rfl rfl rfl rfl
  conn _ _ := ostep_same rfl rfl rfl rfl
  pred _ _ _ := ostep_same rfl rfl rfl rfl
  names _ _ := trivial
  attr _ _ _ _ _ := ostep_same rfl rfl rfl rfl
  elt _ _ _ _ _ _ := ostep_same rfl rfl rfl rfl


/-- A new object: not in the document yet, and no identifier refers to it. -/
structure NewAt (E : PRead) (s t : PS) (o : Nat) (k : RKind) (id : String) : Prop where
  world : WorldOf E t
  keeps : Keeps [] s.reg t.reg
  obj : ∃ x, t.reg.obj o = some x ∧ x.id = id ∧ x.kind = k ∧ x.inDoc = false ∧ x.parent = none
  fresh : s.reg.obj o = none
  refer : t.refer = s.refer
  syn : t.syn = s.syn
  objs : t.objs = s.objs
  elt : t.elt = s.elt

theorem newObject_post {E : PRead} (hinj : ∀ i j, E.addr i = E.addr j → i = j) {s : PS} (w : WorldOf E s) (k : RKind) (id : String) :
    PPost (newObject E k id) (fun o t => NewAt E s t o k id) s := by
  unfold newObject
  refine PPost.bind' (PPost.alloc (PPost.bind' (PPost.alloc (PPost.bind' (PPost.alloc ?_)))))
  refine PPost.bind' (PPost.regOp fun b r h => PPost.pure' ?_)
  have h' : s.reg.exec (.new (E.addr s.nalloc) k id (E.addr (s.nalloc + 1)) (E.addr (s.nalloc + 2))) = .ok (b, r) := h
  obtain ⟨w1, h1⟩ := World.new w hinj h'
  have f := newObj_fields k id (E.addr (s.nalloc + 1)) (E.addr (s.nalloc + 2))
  exact ⟨w1, exec_keeps w.inv (by simp) (by simp) h', ⟨_, h1, f.1, f.2.1, f.2.2.2.2.1, f.2.2.1⟩, (World.fresh w hinj (Nat.le_refl _)).1, rfl, rfl, rfl, rfl⟩

theorem World.notFresh {E : PRead} {r : Reg} {n : Nat} {refer : List (String × Nat)} {U : List String} (w : World E r n refer U) {o : Nat}
    (ho : r.obj o = none) : ∀ q ∈ refer, q.1 ∉ U → q.2 ≠ o := by
  rintro q hq hu rfl
  obtain ⟨x, hx, -⟩ := w.wait q hq hu
  rw [ho] at hx; cases hx

/-- The node that `addChild` makes. -/
theorem addChild_node {r r' : Reg} {c o : Nat} {b : Bool} (hi : RegInv r) {x : RObj} (hx : r.obj o = some x) (hp : x.parent = none) (ht : TreeInv r)
    (h : r.exec (.addChild c o) = .ok (b, r')) : r'.node o x.id x.kind (some c) := by
  have hi' := exec_reginv hi _ _ _ h
  simp only [Reg.exec] at h
  rcases (addChild_shape hi h).2 with ⟨rfl, y, hy, ho⟩ | ⟨y, x', hy, hx', -, -, -, -, -, -, -, ho', -⟩
  · obtain ⟨z, h1, h2, -⟩ := ht.chi _ _ hy _ ho
    rw [hx] at h1; cases h1; rw [hp] at h2; cases h2
  · rw [hx] at hx'; cases hx'
    exact ⟨_, ⟨hi'.inDoc _ _ ho' rfl, ho'⟩, rfl, rfl, rfl⟩

/-- The result of a push that creates and adopts an object. -/
def Adopted (E : PRead) (s t : PS) (k : RKind) (id : String) : Prop :=
  WorldOf E t ∧ ∃ o p, Keeps [o] s.reg t.reg ∧ t.objs = o :: s.objs ∧ t.reg.node o id k (some p) ∧ ∃ l, s.objs = p :: l

theorem adopt_post {E : PRead} (hinj : ∀ i j, E.addr i = E.addr j → i = j) {s : PS} (w : WorldOf E s) (k : RKind) (id : String) {p : Nat}
    (hp : ∃ l, s.objs = p :: l) :
    PPost (do let o ← newObject E k id; regOp (.addChild p o); pushObj o) (fun _ t => Adopted E s t k id ∧ t.syn = s.syn ∧ t.refer = s.refer) s := by
  refine PPost.bind ((newObject_post hinj w k id).mono fun o t h => ?_)
  refine PPost.bind (PPost.regOp fun b r hx => PPost.modify ?_)
  obtain ⟨x, h1, h2, h3, h4, h5⟩ := h.obj
  have w' := h.world
  refine ⟨⟨World.addChild w' (fun q hq hu => ?_) hx, o, p, h.keeps.trans (addChild_keeps w'.inv hx), by simp [h.objs], ?_, hp⟩, h.syn, h.refer⟩
  · rw [h.refer] at hq; rw [h.syn] at hu
    exact World.notFresh w h.fresh q hq hu
  · have := addChild_node w'.inv h1 h5 w'.tree hx
    rw [h2, h3] at this; exact this

theorem pushSwitch_post {E : PRead} (hinj : ∀ i j, E.addr i = E.addr j → i = j) {s : PS} (w : WorldOf E s) (k : Nat) :
    PPost (pushSwitch E k) (fun _ t => ∃ id, s.attr k "id" = some id ∧ Adopted E s t .switch id ∧ t.syn = s.syn) s := by
  unfold pushSwitch
  refine PPost.bind (PPost.peekComp fun p l x h1 h2 h3 => PPost.bind (PPost.attr! fun id hid => ?_))
  exact (adopt_post hinj w .switch id ⟨l, h1⟩).mono fun _ t h => ⟨id, hid, h.1, h.2.1⟩

theorem aliasOpt_post {E : PRead} {s : PS} (w : WorldOf E s) (o c : Nat) (a : Option String) :
    PPost (match a with | some id => regOp (.addAlias o id c) | none => pure ())
      (fun _ t => WorldOf E t ∧ Keeps [] s.reg t.reg ∧ ∃ r, t = { s with reg := r }) s := by
  cases a with
  | none => exact PPost.pure ⟨w, Keeps.refl _, s.reg, rfl⟩
  | some id => exact PPost.regOp fun b r h => ⟨World.addAlias w h, exec_keeps w.inv (by simp) (by simp) h, r, rfl⟩

theorem pushNcl_post {E : PRead} {s : PS} (w : WorldOf E s) (k : Nat) :
    PPost (pushNcl k) (fun _ t => WorldOf E t ∧ Keeps [] s.reg t.reg ∧ t.objs = s.reg.root :: s.objs ∧ t.syn = s.syn) s := by
  unfold pushNcl
  refine PPost.bind (PPost.get (PPost.bind ((aliasOpt_post w _ _ _).mono ?_)))
  rintro _ t ⟨h1, h2, r, rfl⟩
  exact PPost.modify ⟨h1, h2, rfl, rfl⟩

theorem pushContext_post {E : PRead} (hinj : ∀ i j, E.addr i = E.addr j → i = j) {s : PS} (w : WorldOf E s) (k : Nat) :
    PPost (pushContext E k) (fun _ t => WorldOf E t ∧ t.syn = s.syn ∧
      if (s.elt k).tag = "body" then (∃ o l, Keeps [] s.reg t.reg ∧ s.objs = o :: l ∧ t.objs = o :: s.objs) else ∃ id, s.attr k "id" = some id ∧ Adopted E s t .context id) s := by
  unfold pushContext
  refine PPost.bind (PPost.get ?_)
  split
  · refine PPost.bind (PPost.peekObj fun o l ho => PPost.bind (PPost.object fun x hx => ?_))
    split
    · refine PPost.bind ((aliasOpt_post w _ _ _).mono ?_)
      rintro _ t ⟨h1, h2, r, rfl⟩
      exact PPost.modify ⟨h1, rfl, o, l, h2, ho, rfl⟩
    · exact PPost.abort
  · refine PPost.bind (PPost.peekComp fun p l x h1 h2 h3 => PPost.bind (PPost.attr! fun id hid => ?_))
    exact (adopt_post hinj w .context id ⟨l, h1⟩).mono fun _ t h => ⟨h.1.1, h.2.1, id, hid, h.1⟩

theorem mem_referAdd {id : String} {m : Nat} {q : String × Nat} : ∀ {l : List (String × Nat)}, q ∈ referAdd id m l → q = (id, m) ∨ q ∈ l
  | [], h => by simpa [referAdd] using h
  | p :: l, h => by
    unfold referAdd at h
    split at h
    · exact .inr h
    · split at h
      · simpa using h
      · rcases List.mem_cons.1 h with h | h
        · exact .inr (by simp [h])
        · rcases mem_referAdd h with h | h
          · exact .inl h
          · exact .inr (by simp [h])

theorem World.referAdd {E : PRead} {r : Reg} {n : Nat} {refer : List (String × Nat)} {U : List String} (w : World E r n refer U) {id : String} {m : Nat}
    (h : id ∈ U ∨ ∃ x, r.obj m = some x ∧ x.id = id ∧ x.kind = .media ∧ x.inDoc = false) : World E r n (referAdd id m refer) U where
  inv := w.inv
  tree := w.tree
  objAddr := w.objAddr
  evAddr := w.evAddr
  evUniq := w.evUniq
  evNodup := w.evNodup
  kids := w.kids
  objs := w.objs
  settings := w.settings
  wait q hq hu := by
    rcases mem_referAdd hq with rfl | h'
    · rcases h with h | h
      · exact absurd h hu
      · exact h
    · exact w.wait q h' hu

theorem World.referSub {E : PRead} {r : Reg} {n : Nat} {refer refer' : List (String × Nat)} {U : List String} (w : World E r n refer U)
    (h : ∀ q ∈ refer', q.1 ∉ U → q ∈ refer) : World E r n refer' U where
  inv := w.inv
  tree := w.tree
  objAddr := w.objAddr
  evAddr := w.evAddr
  evUniq := w.evUniq
  evNodup := w.evNodup
  kids := w.kids
  objs := w.objs
  settings := w.settings
  wait q hq hu := w.wait q (h q hq hu) hu

theorem referIdx_mem {s : PS} {id : String} {m : Nat} (h : s.referIdx id = some m) : (id, m) ∈ s.refer := by
  unfold PS.referIdx at h
  obtain ⟨p, h1, h2⟩ := Option.map_eq_some_iff.1 h
  have := List.find?_some h1
  simp only [beq_iff_eq] at this
  have hm := List.mem_of_find?_eq_some h1
  cases p; simp_all

/-- The object of a reference, and the map of references, when the identifier of the element is known. -/
theorem pushRefer_post {E : PRead} (hinj : ∀ i j, E.addr i = E.addr j → i = j) {s : PS} (w : WorldOf E s) (id refer : String) (hid : id ∈ s.syn.unique) :
    PPost (pushRefer E id refer) (fun _ t => WorldOf E t ∧ Keeps [] s.reg t.reg ∧ t.syn = s.syn ∧ t.objs = s.objs) s := by
  unfold pushRefer
  refine PPost.bind (PPost.get ?_)
  dsimp only
  have rest : ∀ (m : Nat) (t : PS), WorldOf E t → Keeps [] s.reg t.reg → t.syn = s.syn → t.objs = s.objs →
      PPost (do
        let parent ← peekComp
        regOp (.addAlias m id parent)
        PM.modify fun s => { s with refer := Ginga.referAdd id m s.refer }
        pure m) (fun _ t => WorldOf E t ∧ Keeps [] s.reg t.reg ∧ t.syn = s.syn ∧ t.objs = s.objs) t := by
    intro m t wt kt st ot
    refine PPost.bind (PPost.peekComp fun p l x h1 h2 h3 => PPost.bind (PPost.regOp fun b r hx => PPost.bind (PPost.modify (PPost.pure ?_))))
    refine ⟨?_, kt.trans (exec_keeps wt.inv (by simp) (by simp) hx), st, ot⟩
    exact World.referAdd (World.addAlias wt hx) (.inl (by show id ∈ t.syn.unique; rw [st]; exact hid))
  split
  · exact PPost.bind (PPost.pure (rest _ s w (Keeps.refl _) rfl rfl))
  · refine PPost.bind ?_
    split
    · next m hm =>
      refine PPost.bind (PPost.pure (PPost.bind (PPost.modify (PPost.pure (rest _ _ ?_ (Keeps.refl _) rfl rfl)))))
      refine World.referSub w fun q hq hu => ?_
      rcases mem_referAdd hq with rfl | h
      · exact referIdx_mem hm
      · exact h
    · refine PPost.bind ((newObject_post hinj w .media refer).mono fun o t h => PPost.bind (PPost.modify (PPost.pure (rest _ _ ?_ h.keeps h.syn h.objs))))
      obtain ⟨x, h1, h2, h3, h4, h5⟩ := h.obj
      exact World.referAdd h.world (.inr ⟨x, h1, h2, h3, h4⟩)

theorem redirect_spec {tmp m : Nat} : ∀ {l l' : List (String × Nat)} {keys : List String}, redirect tmp m l = some (l', keys) →
    ∀ q ∈ l', q ∈ l ∨ (q.2 = m ∧ (q.1, tmp) ∈ l)
  | [], _, _, h => by simp [redirect] at h
  | p :: l, l', keys, h => by
    unfold redirect at h
    split at h
    · next hp =>
      obtain ⟨⟨a, b⟩, h1, h2⟩ := Option.map_eq_some_iff.1 h
      cases h2
      intro q hq
      rcases List.mem_cons.1 hq with rfl | hq
      · exact .inr ⟨rfl, by rw [← hp]; simp⟩
      · rcases redirect_spec h1 q hq with h | h
        · exact .inl (by simp [h])
        · exact .inr ⟨h.1, by simp [h.2]⟩
    · cases h; intro q hq; exact .inl hq

theorem pushSettings_post {E : PRead} {s : PS} {U : List String} (w : World E s.reg s.nalloc s.refer U) (hU : ∀ a ∈ U, a ∈ s.syn.unique)
    (id : String) (hn : id ∉ U) (hid : id ∈ s.syn.unique) :
    PPost (pushSettings id) (fun _ t => WorldOf E t ∧ Keeps [] s.reg t.reg ∧ t.syn = s.syn ∧ t.objs = s.objs) s := by
  have ws : WorldOf E s := World.grow w (Nat.le_refl _) hU
  unfold pushSettings
  refine PPost.bind (PPost.get (PPost.bind (PPost.some! fun m hm => ?_)))
  refine PPost.bind (PPost.mono (P := fun _ t => WorldOf E t ∧ Keeps [] s.reg t.reg ∧ t.syn = s.syn ∧ t.objs = s.objs) ?_ ?_)
  · split
    · exact PPost.pure ⟨ws, Keeps.refl _, rfl, rfl⟩
    · next tmp ht =>
      have htm := referIdx_mem ht
      obtain ⟨x, hx1, hx2, hx3, hx4⟩ := w.wait _ htm hn
      -- another identifier not seen yet waits for another object
      have other : ∀ q ∈ s.refer, q.1 ∉ s.syn.unique → q.2 ≠ tmp := by
        intro q hq hu he
        obtain ⟨y, hy1, hy2, -⟩ := w.wait q hq fun h => hu (hU _ h)
        rw [he] at hy1
        have : x = y := by
          have hx1' : s.reg.obj tmp = some x := hx1
          rw [hx1'] at hy1; exact Option.some.inj hy1
        have he2 : q.1 = id := by rw [← hy2, ← this]; exact hx2
        exact hu (by rw [he2]; exact hid)
      split
      · exact PPost.ub
      · next l keys hr =>
        have hl : ∀ q ∈ l, q.1 ∉ s.syn.unique → q ∈ s.refer := by
          intro q hq hu
          rcases redirect_spec hr q hq with h | h
          · exact h
          · exact absurd rfl (other _ h.2 hu)
        refine PPost.bind (PPost.modify ?_)
        have w1 : WorldOf E { s with refer := l } := World.referSub ws hl
        refine PPost.bind ((PPost.forEach (I := fun t => WorldOf E t ∧ Keeps [] s.reg t.reg ∧ (t.syn = s.syn ∧ t.objs = s.objs) ∧ t.refer = l ∧ (∀ y, t.reg.obj tmp = some y → y.inDoc = false))
          ⟨w1, Keeps.refl _, ⟨rfl, rfl⟩, rfl, fun y hy => ?_⟩ ?_).mono ?_)
        · have hx1' : s.reg.obj tmp = some x := hx1
          have hy' : s.reg.obj tmp = some y := hy
          rw [hx1'] at hy'; cases hy'; exact hx4
        · rintro a - t ⟨h1, h2, h3, h4, h5⟩
          refine PPost.regOp fun b r h => ⟨World.addAlias h1 h, h2.trans (exec_keeps h1.inv (by simp) (by simp) h), h3, h4, ?_⟩
          intro y hy
          simp only [Reg.exec, Reg.addAlias] at h
          split at h
          · cases h
          · next z hz =>
            split at h
            · cases h; exact h5 y hy
            · cases h
              simp only [Reg.setObj, upd] at hy
              split at hy
              · next e => cases hy; subst e; exact h5 z hz
              · exact h5 y hy
        · rintro - t ⟨h1, h2, h3, h4, h5⟩
          split
          · exact PPost.pure ⟨h1, h2, h3⟩
          · refine PPost.modify ⟨World.del h1 h5 ?_, h2.trans (keeps_del h1.inv h5), h3⟩
            rw [h4, h3.1]
            exact fun q hq hu => other q (hl q hq hu) hu
  · rintro - t ⟨h1, h2, h3⟩
    refine PPost.bind (PPost.peekComp fun p l x _ _ _ => PPost.bind (PPost.regOp fun b r hx => PPost.bind (PPost.modify (PPost.pure ?_))))
    refine ⟨?_, h2.trans (exec_keeps h1.inv (by simp) (by simp) hx), h3⟩
    exact World.referAdd (World.addAlias h1 hx) (.inl (by show id ∈ t.syn.unique; rw [h3.1]; exact hid))

theorem pushPlain_post {E : PRead} (hinj : ∀ i j, E.addr i = E.addr j → i = j) {s : PS} {U : List String} (w : World E s.reg s.nalloc s.refer U)
    (hU : ∀ a ∈ U, a ∈ s.syn.unique) (id src type : String) (hn : id ∉ U) (hid : id ∈ s.syn.unique) :
    PPost (pushPlainMedia E id src type) (fun o t => WorldOf E t ∧ Keeps [o] s.reg t.reg ∧ t.syn = s.syn ∧ t.objs = s.objs ∧ ∃ p l, s.objs = p :: l ∧ t.reg.node o id .media (some p)) s := by
  have ws : WorldOf E s := World.grow w (Nat.le_refl _) hU
  unfold pushPlainMedia
  refine PPost.bind (PPost.get ?_)
  dsimp only
  have rest : ∀ (m : Nat) (t : PS), WorldOf E t → Keeps [] s.reg t.reg → t.syn = s.syn → t.objs = s.objs →
      (∃ x, t.reg.obj m = some x ∧ x.id = id ∧ x.kind = .media ∧ x.parent = none) → (∀ q ∈ t.refer, q.1 ∉ s.syn.unique → q.2 ≠ m) →
      PPost (do
        setProp m "uri" (if src ≠ "" then E.srcUri src else src)
        setProp m "type" type
        let parent ← peekComp
        regOp (.addChild parent m)
        pure m) (fun o t => WorldOf E t ∧ Keeps [o] s.reg t.reg ∧ t.syn = s.syn ∧ t.objs = s.objs ∧ ∃ p l, s.objs = p :: l ∧ t.reg.node o id .media (some p)) t := by
    rintro m t wt kt st ot ⟨x, hx1, hx2, hx3, hx4⟩ hne
    have sp : ∀ (t : PS) (n v : String), PPost (setProp m n v) (fun _ u => ∃ p f, u = { t with props := p, focus := f }) t := by
      intro t n v
      exact PPost.bind (PPost.object fun x hx => PPost.modify ⟨_, _, rfl⟩)
    refine PPost.bind ((sp _ _ _).mono ?_)
    rintro - t1 ⟨p1, f1, rfl⟩
    refine PPost.bind ((sp _ _ _).mono ?_)
    rintro - t2 ⟨p2, f2, rfl⟩
    refine PPost.bind (PPost.peekComp fun p l y h1 h2 h3 => PPost.bind (PPost.regOp fun b r hx => PPost.pure ?_))
    refine ⟨World.addChild wt (fun q hq hu => hne q hq (by rw [← st]; exact hu)) hx, kt.trans (addChild_keeps wt.inv hx), st, ot, p, l, ?_, ?_⟩
    · exact ot.symm.trans h1
    · have := addChild_node wt.inv hx1 hx4 wt.tree hx
      rw [hx2, hx3] at this; exact this
  split
  · next m hm =>
    have hmm := referIdx_mem hm
    obtain ⟨x, hx1, hx2, hx3, hx4⟩ := w.wait _ hmm hn
    refine PPost.bind (PPost.pure (rest m s ws (Keeps.refl _) rfl rfl ⟨x, hx1, hx2, hx3, (w.tree.out _ _ hx1 hx4).1⟩ ?_))
    intro q hq hu he
    obtain ⟨y, hy1, hy2, -⟩ := w.wait q hq fun h => hu (hU _ h)
    rw [he] at hy1
    have : x = y := by
      have hx1' : s.reg.obj m = some x := hx1
      rw [hx1'] at hy1; exact Option.some.inj hy1
    have he2 : q.1 = id := by rw [← hy2, ← this]; exact hx2
    exact hu (by rw [he2]; exact hid)
  · refine PPost.bind ((newObject_post hinj ws .media id).mono fun o t h => ?_)
    obtain ⟨x, h1, h2, h3, h4, h5⟩ := h.obj
    refine rest o t h.world h.keeps h.syn h.objs ⟨x, h1, h2, h3, h5⟩ ?_
    intro q hq hu
    rw [h.refer] at hq
    exact World.notFresh ws h.fresh q hq hu

/-- What is pushed for a media element. -/
theorem pushMedia_post {E : PRead} (hinj : ∀ i j, E.addr i = E.addr j → i = j) {s : PS} {U : List String} (w : World E s.reg s.nalloc s.refer U)
    (hU : ∀ a ∈ U, a ∈ s.syn.unique) (k : Nat) (hid : ∀ id, s.attr k "id" = some id → id ∉ U ∧ id ∈ s.syn.unique) :
    PPost (pushMedia E k) (fun _ t => WorldOf E t ∧ t.syn = s.syn ∧ (∃ o, t.objs = o :: s.objs) ∧
      if s.attr k "refer" = none ∧ s.attr k "type" ≠ some "application/x-ginga-settings" ∧ s.attr k "type" ≠ some "application/x-ncl-settings" then
        ∃ id, s.attr k "id" = some id ∧ Adopted E s t .media id
      else Keeps [] s.reg t.reg) s := by
  unfold pushMedia
  refine PPost.bind (PPost.get (PPost.bind (PPost.attr! fun id h => ?_)))
  obtain ⟨hn, hi⟩ := hid id h
  dsimp only
  split
  · next refer hr =>
    split
    · exact PPost.err
    · refine PPost.bind ((pushRefer_post hinj (World.grow w (Nat.le_refl _) hU) id refer hi).mono fun o t ⟨h1, h2, h3, h4⟩ => PPost.modify ⟨h1, h3, ⟨o, by simp [h4]⟩, ?_⟩)
      rw [if_neg (by rw [hr]; simp)]; exact h2
  · split
    · next ht =>
      refine PPost.bind ((pushSettings_post w hU id hn hi).mono fun o t ⟨h1, h2, h3, h4⟩ => ?_)
      split
      · exact PPost.abort
      · refine PPost.modify ⟨h1, h3, ⟨o, by simp [h4]⟩, ?_⟩
        rw [if_neg]
        · exact h2
        · rintro ⟨-, g1, g2⟩
          rcases ht with ht | ht
          · exact absurd ht g1
          · exact absurd ht g2
    · next hr ht =>
      refine PPost.bind ((pushPlain_post hinj w hU id _ _ hn hi).mono fun o t ⟨h1, h2, h3, h6, p, l, h4, h5⟩ => PPost.modify ⟨h1, h3, ⟨o, by simp [h6]⟩, ?_⟩)
      rw [if_pos ⟨hr, fun g => ht (.inl g), fun g => ht (.inr g)⟩]
      exact ⟨id, h, h1, o, p, h2, by simp [h6], h5, l, h4⟩

end Ginga
