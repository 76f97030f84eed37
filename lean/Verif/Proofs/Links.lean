import Verif.Props.C14
/-! # Firing links: closed form of `evalActionInContext` -/
namespace Ginga

variable {d : Doc}

/-- Outcome of triggering the actions `l` in context `ctx`: immediate ones are returned, delayed
ones queued; every delay was a valid time. -/
structure Fires (d : Doc) (ctx : Oid) (l : List Act) (s : St) (xs : List Act) (s' : St) : Prop where
  valid : ∀ a ∈ l, (a.delayOf d s).isSome = true
  now : xs = l.filter (Act.immediate d s)
  later : s' = s.enqueue d ctx l

theorem deref_congr {s s' : St} (h : s'.props = s.props) : deref d s' = deref d s := by
  funext v; unfold deref evalRef St.getProp; rw [h]

theorem enqueue_nil (s : St) (ctx : Oid) : s.enqueue d ctx [] = s := by
  simp [St.enqueue, upd_self]

theorem delayOf_enqueue (s : St) (ctx : Oid) (l : List Act) :
    (fun a => Act.delayOf d (s.enqueue d ctx l) a) = fun a => Act.delayOf d s a := by
  funext a; unfold Act.delayOf; rw [deref_congr]; rfl

theorem imm_enqueue (s : St) (ctx : Oid) (l : List Act) :
    Act.immediate d (s.enqueue d ctx l) = Act.immediate d s := by
  funext a; unfold Act.immediate; rw [congrFun (delayOf_enqueue s ctx l) a]

theorem entry_enqueue (s : St) (ctx c : Oid) (l : List Act) :
    Act.entry d (s.enqueue d ctx l) c = Act.entry d s c := by
  funext a; unfold Act.entry; rw [congrFun (delayOf_enqueue s ctx l) a]; rfl

theorem enqueue_append (s : St) (ctx : Oid) (l l' : List Act) :
    (s.enqueue d ctx l).enqueue d ctx l' = s.enqueue d ctx (l ++ l') := by
  unfold St.enqueue
  rw [show ({ s with delayed := _ } : St) = s.enqueue d ctx l from rfl]
  rw [entry_enqueue, imm_enqueue]
  simp [St.enqueue]

theorem Fires.nil (s : St) (ctx : Oid) : Fires d ctx [] s [] s :=
  ⟨by simp, by simp, (enqueue_nil s ctx).symm⟩

theorem Fires.append {ctx l l' s xs ys s1 s2} (h1 : Fires d ctx l s xs s1)
    (h2 : Fires d ctx l' s1 ys s2) : Fires d ctx (l ++ l') s (xs ++ ys) s2 := by
  obtain ⟨v1, n1, e1⟩ := h1
  obtain ⟨v2, n2, e2⟩ := h2
  subst e1
  refine ⟨?_, ?_, ?_⟩
  · intro a ha
    rcases List.mem_append.1 ha with h | h
    · exact v1 a h
    · have := v2 a h; rwa [congrFun (delayOf_enqueue s ctx l) a] at this
  · rw [n1, n2, imm_enqueue]; simp
  · rw [e2, enqueue_append]

/-- The two outcomes that mean "the model's call fits the specification list". -/
def FiresM (d : Doc) (ctx : Oid) (m : M (List Act)) (l : List Act) (s : St) : Prop :=
  (∀ xs s', m s = .ok (xs, s') → Fires d ctx l s xs s') ∧
  ((∀ a ∈ l, (a.delayOf d s).isSome = true) →
    m s = .ok (l.filter (Act.immediate d s), s.enqueue d ctx l))

theorem bind_ok {α β : Type} {m : M α} {f : α → M β} {s : St} {b : β} {s' : St}
    (h : (m >>= f) s = .ok (b, s')) : ∃ a s1, m s = .ok (a, s1) ∧ f a s1 = .ok (b, s') := by
  change M.bind m f s = _ at h
  unfold M.bind at h
  cases hm : m s with
  | ok p => rw [hm] at h; exact ⟨p.1, p.2, rfl, h⟩
  | _ => rw [hm] at h; cases h

theorem bind_of_ok {α β : Type} {m : M α} {f : α → M β} {s s1 : St} {a : α}
    (h : m s = .ok (a, s1)) : (m >>= f) s = f a s1 := by
  change M.bind m f s = _
  unfold M.bind; rw [h]; rfl

theorem FiresM.append {ctx : Oid} {m m' : M (List Act)} {l l' : List Act} {s : St}
    (h1 : FiresM d ctx m l s) (h2 : ∀ s1, s1.props = s.props → s1.time = s.time →
      FiresM d ctx m' l' s1) :
    FiresM d ctx (do let xs ← m; let ys ← m'; pure (xs ++ ys)) (l ++ l') s := by
  constructor
  · intro zs s' h
    obtain ⟨xs, s1, hx, h⟩ := bind_ok h
    obtain ⟨ys, s2, hy, h⟩ := bind_ok h
    cases h
    have f1 := h1.1 _ _ hx
    exact f1.append ((h2 s1 (by rw [f1.later]; rfl) (by rw [f1.later]; rfl)).1 _ _ hy)
  · intro hv
    rw [bind_of_ok (h1.2 fun a ha => hv a (by simp [ha]))]
    have hv' : ∀ a ∈ l', (a.delayOf d (s.enqueue d ctx l)).isSome = true := by
      intro a ha; rw [congrFun (delayOf_enqueue s ctx l) a]; exact hv a (by simp [ha])
    rw [bind_of_ok ((h2 (s.enqueue d ctx l) rfl rfl).2 hv'), enqueue_append, imm_enqueue]
    simp [pure, M.pure]

theorem fireActs_firesM (ctx : Oid) (as : List Act) (s : St) :
    FiresM d ctx (fireActs d ctx as) as s := by
  induction as generalizing s with
  | nil =>
    constructor
    · intro xs s' h; cases h; exact .nil _ _
    · intro _; rw [enqueue_nil]; rfl
  | cons a as ih =>
    have key : FiresM d ctx (fireActs d ctx (a :: as)) ([a] ++ as) s := by
      cases ht : d.env.parseTime (deref d s a.delay) with
      | none =>
        have hf : fireActs d ctx (a :: as) s = .abort := by
          unfold fireActs
          change M.bind M.get _ s = _
          simp only [M.bind, M.get, Res.bind_ok]
          change M.bind (parseTimeM d _) _ s = _
          simp [M.bind, parseTimeM, ht, M.abort]
        constructor
        · intro xs s' h; rw [hf] at h; cases h
        · intro hv; have := hv a (by simp); rw [Act.delayOf, ht] at this; cases this
      | some t =>
        have hf : fireActs d ctx (a :: as) s =
            if t = 0 ∨ t = NONE then (do let rest ← fireActs d ctx as; pure (a :: rest) : M _) s
            else (fireActs d ctx as) (addDelayedSt ctx a.ev a.tr a.value t s) := by
          rw [fireActs]
          change M.bind M.get _ s = _
          simp only [M.bind, M.get, Res.bind_ok]
          change M.bind (parseTimeM d _) _ s = _
          simp only [M.bind, parseTimeM, ht, M.pure, Res.bind_ok]
          split
          · rfl
          · rfl
        have hd : a.delayOf d s = some t := ht
        by_cases hi : t = 0 ∨ t = NONE
        · rw [if_pos hi] at hf
          have him : a.immediate d s = true := by simp [Act.immediate, hd, hi]
          have h1 : s.enqueue d ctx [a] = s := by
            simp [St.enqueue, him, upd_self]
          constructor
          · intro xs s' h
            rw [hf] at h
            obtain ⟨ys, s1, hy, h⟩ := bind_ok h
            cases h
            have h2 := (ih s).1 _ _ hy
            have h3 : Fires d ctx [a] s [a] s := ⟨by simp [hd], by simp [him], h1.symm⟩
            exact h3.append h2
          · intro hv
            rw [hf, bind_of_ok ((ih s).2 fun b hb => hv b (by simp [hb]))]
            rw [← enqueue_append, h1]
            simp [him, pure, M.pure]
        · rw [if_neg hi] at hf
          have him : a.immediate d s = false := by
            simp only [Act.immediate, hd, Option.some.injEq]; simpa using hi
          have h1 : s.enqueue d ctx [a] = addDelayedSt ctx a.ev a.tr a.value t s := by
            simp [St.enqueue, him, Act.entry, hd, addDelayedSt, St.setDelayed]
          constructor
          · intro xs s' h
            rw [hf, ← h1] at h
            have h2 := (ih _).1 _ _ h
            have h3 : Fires d ctx [a] s [] (s.enqueue d ctx [a]) := ⟨by simp [hd], by simp [him], rfl⟩
            exact h3.append h2
          · intro hv
            rw [hf, ← h1, (ih _).2, enqueue_append, imm_enqueue]
            · simp [him]
            · intro b hb; rw [congrFun (delayOf_enqueue s ctx [a]) b]; exact hv b (by simp [hb])
    exact key

/-- Negation-free condition. -/
def Act.condOk (c : Act) : Prop := ∀ p ∈ c.pred, p.NegFree

theorem fireConds_firesM (ctx : Oid) (act : Act) (acts : List Act) (cs : List Act) (s : St) :
    (∀ xs s', fireConds d ctx act acts cs s = .ok (xs, s') → Fires d ctx
      ((cs.filter (Act.satisfied (deref d s) act.ev act.tr)).flatMap fun _ => acts.reverse) s xs s') ∧
    ((∀ c ∈ cs, c.condOk) → FiresM d ctx (fireConds d ctx act acts cs)
      ((cs.filter (Act.satisfied (deref d s) act.ev act.tr)).flatMap fun _ => acts.reverse) s) := by
  induction cs generalizing s with
  | nil =>
    constructor
    · intro xs s' h; cases h; exact .nil _ _
    · intro _; constructor
      · intro xs s' h; cases h; exact .nil _ _
      · intro _; rw [show (List.flatMap (fun _ => acts.reverse) (List.filter _ ([] : List Act))) = [] from rfl,
          enqueue_nil]; rfl
  | cons c cs ih =>
    by_cases hm : c.ev = act.ev ∧ c.tr = act.tr
    · -- the condition names this transition
      have hf : fireConds d ctx act acts (c :: cs) = (do
          let ok ← (match c.pred with
            | none => pure true
            | some p => M.lift fun s => evalPred d s p)
          if ok then do
            let xs ← fireActs d ctx acts.reverse
            let ys ← fireConds d ctx act acts cs
            pure (xs ++ ys)
          else fireConds d ctx act acts cs) := by
        rw [fireConds, if_pos hm]; cases c.pred <;> rfl
      have hpred : ∀ b s1, (match c.pred with
            | none => pure true
            | some p => M.lift fun s => evalPred d s p : M Bool) s = .ok (b, s1) →
          s1 = s ∧ b = c.satisfied (deref d s) act.ev act.tr := by
        intro b s1 h
        cases hp : c.pred with
        | none => rw [hp] at h; cases h; simp [Act.satisfied, hm, hp]
        | some p =>
          rw [hp] at h
          change M.lift _ s = _ at h
          unfold M.lift at h
          simp only at h
          cases he : evalPred d s p with
          | ok b' =>
            rw [he] at h; cases h
            refine ⟨rfl, ?_⟩
            rw [evalPred_sound d s p b he]; simp [Act.satisfied, hm, hp]
          | _ => rw [he] at h; cases h
      have hpred' : c.condOk → (match c.pred with
            | none => pure true
            | some p => M.lift fun s => evalPred d s p : M Bool) s =
          .ok (c.satisfied (deref d s) act.ev act.tr, s) := by
        intro hc
        cases hp : c.pred with
        | none => simp [Act.satisfied, hm, hp]; rfl
        | some p =>
          have := C14_eval_partial d s p (hc p (by simp [hp]))
          simp only [M.lift, this, Res.bind_ok]
          simp [Act.satisfied, hm, hp]
      have hsat : c.satisfied (deref d s) act.ev act.tr = true →
          (List.filter (Act.satisfied (deref d s) act.ev act.tr) (c :: cs)).flatMap (fun _ => acts.reverse)
          = acts.reverse ++ (List.filter (Act.satisfied (deref d s) act.ev act.tr) cs).flatMap (fun _ => acts.reverse) := by
        intro h; simp [h]
      have hnsat : c.satisfied (deref d s) act.ev act.tr = false →
          (List.filter (Act.satisfied (deref d s) act.ev act.tr) (c :: cs)).flatMap (fun _ => acts.reverse)
          = (List.filter (Act.satisfied (deref d s) act.ev act.tr) cs).flatMap (fun _ => acts.reverse) := by
        intro h; simp [h]
      constructor
      · intro xs s' h
        rw [hf] at h
        obtain ⟨b, s1, hb, h⟩ := bind_ok h
        obtain ⟨rfl, hbs⟩ := hpred b s1 hb
        cases b with
        | true =>
          rw [if_pos rfl] at h
          obtain ⟨ys, s2, h1, h⟩ := bind_ok h
          obtain ⟨zs, s3, h2, h⟩ := bind_ok h
          cases h
          have f1 := (fireActs_firesM ctx _ _).1 _ _ h1
          have f2 := (ih s2).1 _ _ h2
          rw [deref_congr (show s2.props = s1.props by rw [f1.later]; rfl)] at f2
          rw [hsat hbs.symm]
          exact f1.append f2
        | false =>
          rw [if_neg (by simp)] at h
          rw [hnsat hbs.symm]
          exact (ih s1).1 _ _ h
      · intro hc
        have hb := hpred' (hc c (by simp))
        have hc' : ∀ c ∈ cs, c.condOk := fun x hx => hc x (by simp [hx])
        cases hs : c.satisfied (deref d s) act.ev act.tr with
        | true =>
          have hrun : fireConds d ctx act acts (c :: cs) s = (do
            let xs ← fireActs d ctx acts.reverse
            let ys ← fireConds d ctx act acts cs
            pure (xs ++ ys) : M _) s := by
            rw [hf, bind_of_ok hb, hs, if_pos rfl]
          have := FiresM.append (d := d) (fireActs_firesM ctx acts.reverse s) (m' := fireConds d ctx act acts cs)
            (l' := (List.filter (Act.satisfied (deref d s) act.ev act.tr) cs).flatMap (fun _ => acts.reverse))
            (by
              intro s1 hp _
              have := (ih s1).2 hc'
              rwa [deref_congr hp] at this)
          rw [hsat hs]
          unfold FiresM at this ⊢
          rw [hrun]; exact this
        | false =>
          have hrun : fireConds d ctx act acts (c :: cs) s = fireConds d ctx act acts cs s := by
            rw [hf, bind_of_ok hb, hs, if_neg (by simp)]
          rw [hnsat hs]
          unfold FiresM
          rw [hrun]; exact (ih s).2 hc'
    · have hf : fireConds d ctx act acts (c :: cs) = fireConds d ctx act acts cs := by
        rw [fireConds, if_neg hm]
      have hs : c.satisfied (deref d s) act.ev act.tr = false := by
        simp only [Act.satisfied, decide_eq_false_iff_not]; intro hx; exact hm ⟨hx.1, hx.2.1⟩
      rw [hf]
      simp only [List.filter_cons, hs]
      constructor
      · exact (ih s).1
      · intro hc; exact (ih s).2 fun x hx => hc x (by simp [hx])

theorem fireLinks_firesM (ctx : Oid) (act : Act) (ls : List Link) (s : St) :
    (∀ xs s', fireLinks d ctx act ls s = .ok (xs, s') →
      Fires d ctx (triggered (deref d s) act.ev act.tr ls) s xs s') ∧
    ((∀ l ∈ ls, ∀ c ∈ l.conds, c.condOk) →
      FiresM d ctx (fireLinks d ctx act ls) (triggered (deref d s) act.ev act.tr ls) s) := by
  induction ls generalizing s with
  | nil =>
    constructor
    · intro xs s' h; cases h; exact .nil _ _
    · intro _; constructor
      · intro xs s' h; cases h; exact .nil _ _
      · intro _; rw [show triggered (deref d s) act.ev act.tr [] = [] from rfl, enqueue_nil]; rfl
  | cons l ls ih =>
    have ht : ∀ v, triggered v act.ev act.tr (l :: ls) =
      ((l.conds.filter (Act.satisfied v act.ev act.tr)).flatMap fun _ => l.acts.reverse) ++
        triggered v act.ev act.tr ls := by intro v; simp [triggered]
    rw [ht]
    constructor
    · intro xs s' h
      rw [fireLinks] at h
      obtain ⟨ys, s1, h1, h⟩ := bind_ok h
      obtain ⟨zs, s2, h2, h⟩ := bind_ok h
      cases h
      have f1 := (fireConds_firesM ctx act l.acts l.conds s).1 _ _ h1
      have f2 := (ih s1).1 _ _ h2
      rw [deref_congr (show s1.props = s.props by rw [f1.later]; rfl)] at f2
      exact f1.append f2
    · intro hc
      rw [fireLinks]
      refine FiresM.append ((fireConds_firesM ctx act l.acts l.conds s).2 (hc l (by simp))) ?_
      intro s1 hp _
      have := (ih s1).2 (fun x hx => hc x (by simp [hx]))
      rwa [deref_congr hp] at this

theorem evalInCtx_fires (act : Act) (ctx : Oid) (s : St) {xs s'}
    (h : evalInCtx d act ctx s = .ok (xs, s')) :
    Fires d ctx (triggeredIn d s act.ev act.tr ctx) s xs s' := by
  unfold evalInCtx at h
  obtain ⟨s0, s1, h1, h⟩ := bind_ok h
  cases h1
  unfold triggeredIn
  split at h
  · next hs => rw [if_pos hs]; exact (fireLinks_firesM ctx act _ s).1 _ _ h
  · next hs => rw [if_neg hs]; cases h; exact .nil _ _

theorem evalInCtx_ok (act : Act) (ctx : Oid) (s : St)
    (hc : ∀ l ∈ (d.obj ctx).links, ∀ c ∈ l.conds, c.condOk)
    (hv : ∀ a ∈ triggeredIn d s act.ev act.tr ctx, (a.delayOf d s).isSome = true) :
    evalInCtx d act ctx s = .ok ((triggeredIn d s act.ev act.tr ctx).filter (Act.immediate d s),
      s.enqueue d ctx (triggeredIn d s act.ev act.tr ctx)) := by
  unfold evalInCtx
  rw [bind_of_ok (show M.get s = .ok (s, s) from rfl)]
  unfold triggeredIn at hv ⊢
  split
  · next hs => rw [if_pos hs] at hv; exact ((fireLinks_firesM ctx act _ s).2 hc).2 hv
  · rw [enqueue_nil]; rfl

/-! ## Several contexts -/

theorem LinksFired.nil (s : St) (e : Eid) (t : Trans) : LinksFired d s e t [] [] s :=
  ⟨by simp, by simp, rfl⟩

theorem LinksFired.one {s s' : St} {e t ctx xs}
    (h : Fires d ctx (triggeredIn d s e t ctx) s xs s') : LinksFired d s e t [ctx] xs s' := by
  obtain ⟨-, h1, h2⟩ := h
  subst h2
  refine ⟨by simp [h1], ?_, rfl⟩
  intro c
  by_cases hc : ctx = c
  · subst hc; simp [St.enqueue, queuedIn]
  · simp [St.enqueue, hc, upd, Ne.symm hc]

theorem triggeredIn_congr {s s' : St} (h : s'.props = s.props) (h2 : s'.status = s.status) (e t) :
    triggeredIn d s' e t = triggeredIn d s e t := by
  funext c; unfold triggeredIn; rw [h2, deref_congr h]

theorem immediate_congr {s s' : St} (h : s'.props = s.props) :
    Act.immediate d s' = Act.immediate d s := by
  funext a; unfold Act.immediate Act.delayOf; rw [deref_congr h]

theorem queuedIn_congr {s s' : St} (h : s'.props = s.props) (h2 : s'.status = s.status)
    (h3 : s'.time = s.time) (e t) : queuedIn d s' e t = queuedIn d s e t := by
  funext c; unfold queuedIn
  rw [triggeredIn_congr h h2, immediate_congr h]
  congr 1
  funext a; unfold Act.entry Act.delayOf; rw [deref_congr h, h3]

theorem LinksFired.append {s s1 s2 : St} {e t cs cs' xs ys} (h1 : LinksFired d s e t cs xs s1)
    (h2 : LinksFired d s1 e t cs' ys s2) : LinksFired d s e t (cs ++ cs') (xs ++ ys) s2 := by
  obtain ⟨p1, q1, f1⟩ := h1
  obtain ⟨p2, q2, f2⟩ := h2
  have e1 : s1.props = s.props := by rw [f1]
  have e2 : s1.status = s.status := by rw [f1]
  have e3 : s1.time = s.time := by rw [f1]
  refine ⟨?_, ?_, ?_⟩
  · rw [p1, p2, immediate_congr e1, triggeredIn_congr e1 e2]; simp
  · intro c; rw [q2, q1, queuedIn_congr e1 e2 e3]; simp
  · rw [f2, f1]

theorem evalInCtx_fired {act : Act} {ctx : Oid} {s s' : St} {xs}
    (h : evalInCtx d act ctx s = .ok (xs, s')) : LinksFired d s act.ev act.tr [ctx] xs s' :=
  .one (evalInCtx_fires act ctx s h)

theorem firePorts_fired {act : Act} {obj g : Oid} (ps : List Eid) {s s' : St} {xs}
    (h : firePorts d act obj g ps s = .ok (xs, s')) :
    LinksFired d s act.ev act.tr ((ps.filter fun q => (d.ev q).obj = obj).map fun _ => g) xs s' := by
  induction ps generalizing s xs with
  | nil => cases h; exact .nil _ _ _
  | cons p ps ih =>
    rw [firePorts] at h
    split at h
    · next hp =>
      obtain ⟨ys, s1, h1, h⟩ := bind_ok h
      obtain ⟨zs, s2, h2, h⟩ := bind_ok h
      cases h
      have := (evalInCtx_fired h1).append (ih h2)
      simpa [hp] using this
    · next hp => simpa [hp] using ih h

theorem fireAliases_fired {act : Act} (l : List (String × Option Oid)) {s s' : St} {xs}
    (h : fireAliases d act l s = .ok (xs, s')) :
    LinksFired d s act.ev act.tr ((l.filterMap (·.2)).filter fun c => (d.obj c).kind = .context)
      xs s' := by
  induction l generalizing s xs with
  | nil => cases h; exact .nil _ _ _
  | cons p ps ih =>
    obtain ⟨a, c⟩ := p
    cases c with
    | none => simp only [fireAliases] at h; simpa using ih h
    | some c =>
      simp only [fireAliases] at h
      split at h
      · next hp =>
        obtain ⟨ys, s1, h1, h⟩ := bind_ok h
        obtain ⟨zs, s2, h2, h⟩ := bind_ok h
        cases h
        have := (evalInCtx_fired h1).append (ih h2)
        simpa [hp] using this
      · next hp => simpa [hp] using ih h

theorem fireOwn_fired {act : Act} {x : Oid} {s s' : St} {xs}
    (h : fireOwn d act x s = .ok (xs, s')) :
    LinksFired d s act.ev act.tr (if (d.obj x).kind = .context then [x]
      else ((d.obj x).aliases.filterMap (·.2)).filter fun c => (d.obj c).kind = .context) xs s' := by
  unfold fireOwn at h
  split at h
  · next hk => rw [if_pos hk]; exact evalInCtx_fired h
  · next hk => rw [if_neg hk]; exact fireAliases_fired _ h

theorem fireParent_fired {r : Rec} {act : Act} {x : Oid} {s s' : St} {xs}
    (hsw : ∀ p, (d.obj x).parent = some p → (d.obj p).kind ≠ .switch)
    (h : fireParent d r act x s = .ok (xs, s')) :
    LinksFired d s act.ev act.tr (match (d.obj x).parent with
     | none => []
     | some p =>
       if (d.obj p).kind = .context ∧ s.est (d.obj p).lambda = .occurring then
         p :: (match (d.obj p).parent with
               | none => []
               | some g =>
                 if (d.obj g).kind = .context ∧ s.est (d.obj g).lambda = .occurring then
                   ((d.obj p).ports.filter fun q => (d.ev q).obj = x).map fun _ => g
                 else [])
       else []) xs s' := by
  unfold fireParent at h
  obtain ⟨s0, s1, h1, h⟩ := bind_ok h
  cases h1
  cases hp : (d.obj x).parent with
  | none => rw [hp] at h; cases h; exact .nil _ _ _
  | some p =>
    rw [hp] at h
    simp only at h ⊢
    split at h
    · next hk =>
      split at h
      · next ho =>
        have ho' : s.est (d.obj p).lambda = .occurring := by simpa [isOccurring] using ho
        rw [if_pos ⟨hk, ho'⟩]
        obtain ⟨ys, s2, h2, h⟩ := bind_ok h
        obtain ⟨s3, s4, h3, h⟩ := bind_ok h
        cases h3
        have f1 := evalInCtx_fired h2
        cases hg : (d.obj p).parent with
        | none => rw [hg] at h; cases h; exact f1
        | some g =>
          rw [hg] at h
          simp only at h ⊢
          have hest : s2.est = s.est := by rw [f1.frame]
          split at h
          · next hgc =>
            obtain ⟨zs, s5, h5, h⟩ := bind_ok h
            cases h
            have hgc' : (d.obj g).kind = .context ∧ s.est (d.obj g).lambda = .occurring := by
              simpa [isOccurring, hest] using hgc
            rw [if_pos hgc']
            exact f1.append (firePorts_fired _ h5)
          · next hgc =>
            have hgc' : ¬ ((d.obj g).kind = .context ∧ s.est (d.obj g).lambda = .occurring) := by
              simpa [isOccurring, hest] using hgc
            cases h
            rw [if_neg hgc']; exact f1
      · next ho =>
        have ho' : ¬ s.est (d.obj p).lambda = .occurring := by simpa [isOccurring] using ho
        rw [if_neg (fun hx => ho' hx.2)]; cases h; exact .nil _ _ _
    · next hk =>
      rw [if_neg (fun hx => hk hx.1)]
      split at h
      · next hs => exact absurd hs (hsw p hp)
      · cases h; exact .nil _ _ _

theorem evalStep_fired {r : Rec} {act : Act} {s s' : St} {pushed : List Act}
    (hsw : ∀ p, (d.obj (d.ev act.ev).obj).parent = some p → (d.obj p).kind ≠ .switch)
    (h : evalStep d r act s = .ok (some pushed, s')) :
    ∃ s0 s1, r.trans act.ev act.tr s0 = .ok (true, s1) ∧
      (∃ par, s0 = { s with par := par }) ∧
      LinksFired d s1 act.ev act.tr (linkContexts d s1 (d.ev act.ev).obj) pushed s' := by
  unfold evalStep at h
  obtain ⟨_, s0, h0, h⟩ := bind_ok h
  cases h0
  have : ∃ s0, (∃ par, s0 = { s with par := par }) ∧ (do
      if (← r.trans act.ev act.tr) then do
        let obj := (d.ev act.ev).obj
        let xs ← fireParent d r act obj
        let ys ← fireOwn d act obj
        pure (some (xs ++ ys))
      else pure none : M _) s0 = .ok (some pushed, s') := by
    split at h
    · obtain ⟨_, s0, h0, h⟩ := bind_ok h
      cases h0
      exact ⟨_, ⟨_, rfl⟩, h⟩
    · exact ⟨_, ⟨_, rfl⟩, h⟩
  obtain ⟨s0, hpar, h⟩ := this
  obtain ⟨b, s1, hb, h⟩ := bind_ok h
  cases b with
  | false => rw [if_neg (by simp)] at h; cases h
  | true =>
    rw [if_pos rfl] at h
    obtain ⟨xs, s2, h1, h⟩ := bind_ok h
    obtain ⟨ys, s3, h2, h⟩ := bind_ok h
    cases h
    refine ⟨s0, s1, hb, hpar, ?_⟩
    exact (fireParent_fired hsw h1).append (fireOwn_fired h2)

end Ginga
