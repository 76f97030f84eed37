import Verif.Proofs.Links
/-! # C09 — links fire exactly the matching actions -/
namespace Ginga
open Ex

/-- **C09**.  When an action's transition succeeds, the links of exactly the contexts
`linkContexts` (parent, grandparent through ports, itself, alias contexts) fire: `pushed`, the
actions executed immediately afterwards, and the additions to the queues of the contexts are
exactly those of the satisfied conditions (`LinksFired`, see `Verif.Spec`).  Everything is
evaluated in the state `s1` reached by the transition.  (Inside a switch the transition is first
mapped to the interfaces of the switch; here the object is not directly inside a switch.) -/
theorem C09_links_fire (d : Doc) (n : Nat) (act : Act) (s s' : St) (pushed : List Act)
    (hsw : ∀ p, (d.obj (d.ev act.ev).obj).parent = some p → (d.obj p).kind ≠ .switch)
    (h : evalStep d (run d n) act s = .ok (some pushed, s')) :
    ∃ s0 s1, (run d n).trans act.ev act.tr s0 = .ok (true, s1) ∧
      (∃ par, s0 = { s with par := par }) ∧
      LinksFired d s1 act.ev act.tr (linkContexts d s1 (d.ev act.ev).obj) pushed s' :=
  evalStep_fired hsw h

theorem satisfied_iff (v : String → String) (e : Eid) (t : Trans) (k : Act) :
    k.satisfied v e t = true ↔ k.ev = e ∧ k.tr = t ∧ ∀ p ∈ k.pred, p.truth v = true :=
  decide_eq_true_iff

theorem immediate_iff (d : Doc) (s : St) (a : Act) : a.immediate d s = true ↔
    (d.env.parseTime (deref d s a.delay) = some 0 ∨ d.env.parseTime (deref d s a.delay) = some NONE) :=
  decide_eq_true_iff

/-- Reading of `LinksFired`: an action is executed immediately iff it belongs to an enabled link,
of one of the contexts, with a condition that names the event and the transition and whose
predicate (if any) holds, and its delay is zero. -/
theorem C09_immediate_iff {d : Doc} {s s' : St} {e : Eid} {t : Trans} {ctxs : List Oid}
    {pushed : List Act} (h : LinksFired d s e t ctxs pushed s') (a : Act) :
    a ∈ pushed ↔ ∃ c ∈ ctxs, s.status c = true ∧ ∃ l ∈ (d.obj c).links,
      (∃ k ∈ l.conds, k.ev = e ∧ k.tr = t ∧ ∀ p ∈ k.pred, p.truth (deref d s) = true) ∧
      a ∈ l.acts ∧
      (d.env.parseTime (deref d s a.delay) = some 0 ∨ d.env.parseTime (deref d s a.delay) = some NONE) := by
  rw [h.pushed_eq]
  simp only [List.mem_filter, List.mem_flatMap, triggeredIn, triggered, immediate_iff]
  constructor
  · rintro ⟨⟨c, hc, ha⟩, hd⟩
    split at ha
    · next hs =>
      simp only [List.mem_flatMap, List.mem_filter, List.mem_reverse, satisfied_iff] at ha
      obtain ⟨l, hl, k, ⟨hk, hk2⟩, hal⟩ := ha
      exact ⟨c, hc, hs, l, hl, ⟨k, hk, hk2⟩, hal, hd⟩
    · simp at ha
  · rintro ⟨c, hc, hs, l, hl, ⟨k, hk, hk2⟩, hal, hd⟩
    refine ⟨⟨c, hc, ?_⟩, hd⟩
    rw [if_pos hs]
    simp only [List.mem_flatMap, List.mem_filter, List.mem_reverse, satisfied_iff]
    exact ⟨l, hl, k, ⟨hk, hk2⟩, hal⟩

/-- Reading of `LinksFired` for delayed actions: an entry is added to the queue of context `c`
iff it comes from an action with a delay of a satisfied link of `c`; its time is the current time
of the context plus the delay. -/
theorem C09_delayed_iff {d : Doc} {s s' : St} {e : Eid} {t : Trans} {ctxs : List Oid}
    {pushed : List Act} (h : LinksFired d s e t ctxs pushed s') (c : Oid) :
    ∃ added, s'.delayed c = s.delayed c ++ added ∧
      (c ∉ ctxs → added = []) ∧
      ∀ q ∈ added, s.status c = true ∧ ∃ l ∈ (d.obj c).links,
        (∃ k ∈ l.conds, k.ev = e ∧ k.tr = t ∧ ∀ p ∈ k.pred, p.truth (deref d s) = true) ∧
        ∃ a ∈ l.acts, q.1.ev = a.ev ∧ q.1.tr = a.tr ∧ q.1.value = a.value ∧
          ¬ (d.env.parseTime (deref d s a.delay) = some 0 ∨
             d.env.parseTime (deref d s a.delay) = some NONE) ∧
          q.2 = tadd (s.time c) ((d.env.parseTime (deref d s a.delay)).getD 0) := by
  refine ⟨_, h.queued_eq c, ?_, ?_⟩
  · intro hc
    have : ctxs.filter (fun x => decide (x = c)) = [] := by
      rw [List.filter_eq_nil_iff]; intro x hx; simp; rintro rfl; exact hc hx
    rw [this]; rfl
  · intro q hq
    simp only [List.mem_flatMap, queuedIn, triggeredIn, List.mem_map, List.mem_filter] at hq
    obtain ⟨_, _, a, ⟨ha, hd⟩, rfl⟩ := hq
    split at ha
    · next hs =>
      simp only [triggered, List.mem_flatMap, List.mem_filter, List.mem_reverse, satisfied_iff] at ha
      obtain ⟨l, hl, k, ⟨hk, hk2⟩, hal⟩ := ha
      refine ⟨hs, l, hl, ⟨k, hk, hk2⟩, a, hal, rfl, rfl, rfl, ?_, rfl⟩
      intro hx; rw [(immediate_iff d s a).2 hx] at hd; simp at hd
    · simp at ha

/-- **C09**, firing does happen: if the predicates of the conditions contain no negation and the
delays of the triggered actions are valid times, looking at the links of an (enabled) context
returns, with exactly the triggered actions; if the links of the context are disabled, with
none. -/
theorem C09_context_total (d : Doc) (act : Act) (ctx : Oid) (s : St)
    (hc : ∀ l ∈ (d.obj ctx).links, ∀ c ∈ l.conds, ∀ p ∈ c.pred, p.NegFree)
    (hv : ∀ a ∈ triggeredIn d s act.ev act.tr ctx,
      (d.env.parseTime (deref d s a.delay)).isSome = true) :
    ∃ s', evalInCtx d act ctx s =
        .ok ((triggeredIn d s act.ev act.tr ctx).filter (Act.immediate d s), s') ∧
      LinksFired d s act.ev act.tr [ctx]
        ((triggeredIn d s act.ev act.tr ctx).filter (Act.immediate d s)) s' ∧
      (s.status ctx = false → s' = s ∧ triggeredIn d s act.ev act.tr ctx = []) := by
  have h := evalInCtx_ok act ctx s hc hv
  refine ⟨_, h, evalInCtx_fired h, ?_⟩
  intro hs
  have : triggeredIn d s act.ev act.tr ctx = [] := by simp [triggeredIn, hs]
  rw [this]; exact ⟨enqueue_nil s ctx, rfl⟩

/-- **C09** for the links of any one context, whatever made it look at its links. -/
theorem C09_context (d : Doc) (act : Act) (ctx : Oid) (s s' : St) (xs : List Act)
    (h : evalInCtx d act ctx s = .ok (xs, s')) : LinksFired d s act.ev act.tr [ctx] xs s' :=
  evalInCtx_fired h

/-! Non-vacuity: when media `a` of `twoMedias` stops, the link of the body fires and yields the
start of `b`. -/
example : ∃ f, Reachable f ∧ f.doc = some twoMedias ∧
    (match evalStep twoMedias (run twoMedias 20) { ev := 2, tr := .stop } f.st with
     | .ok (some pushed, _) => pushed.map (fun a => (a.ev, a.tr)) == [(3, .start)]
     | _ => false) = true :=
  witness twoMedias twoMedias_wf 50 [tick 0, tick 600000000] rfl _ (by decide +kernel)

end Ginga
