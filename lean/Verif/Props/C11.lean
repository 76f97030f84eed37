import Verif.Proofs.Api
import Verif.Proofs.Witness
import Verif.Props.C10
/-! # C11 — delayed actions

Full statement: an action queued in an object for time `T` runs at the first tick of the
(occurring) object at which its clock has reached `T`, never before, exactly once, in queueing
order with the other actions due at that tick, unless the object is stopped first.

It fails when an action that is due at the same tick *pauses* the object: the following due actions
are lost (`C11_fails_pause`).  `C11_tick_partial` proves everything else. -/
set_option linter.unusedVariables false
namespace Ginga
open Ex

/-- Between `s` and `s'` nothing was removed from the queue of `o`, unless `o` was stopped. -/
def QueueKept (d : Doc) (o : Oid) (s s' : St) : Prop :=
  LogGrow s s' ∧ (s.est (d.obj o).lambda ≠ .sleeping → ¬ StoppedBetween d o s s' →
    s'.est (d.obj o).lambda ≠ .sleeping ∧ ∃ added, s'.delayed o = s.delayed o ++ added)

/-- Between `s` and `s'` the object `o` kept occurring and its clock did not change, unless `o`
made some transition. -/
def ClockKept (d : Doc) (o : Oid) (s s' : St) : Prop :=
  LogGrow s s' ∧ (s.est (d.obj o).lambda = .occurring → ¬ TouchedBetween d o s s' →
    s'.est (d.obj o).lambda = .occurring ∧ s'.time o = s.time o)

theorem since_trans {s t u : St} (h : LogGrow s t) (h' : LogGrow t u) :
    s.since u = t.since u ++ s.since t := by
  obtain ⟨l, h⟩ := h
  obtain ⟨l', h'⟩ := h'
  rw [since_of h, since_of h', since_of (l := l' ++ l) (by rw [h', h, List.append_assoc])]

theorem not_stopped_trans {d o} {s t u : St} (h : LogGrow s t) (h' : LogGrow t u)
    (hn : ¬ StoppedBetween d o s u) : ¬ StoppedBetween d o s t ∧ ¬ StoppedBetween d o t u := by
  unfold StoppedBetween at *
  rw [since_trans h h'] at hn
  constructor
  · rintro ⟨x, hx, h1⟩; exact hn ⟨x, by simp [hx], h1⟩
  · rintro ⟨x, hx, h1⟩; exact hn ⟨x, by simp [hx], h1⟩

theorem not_touched_trans {d o} {s t u : St} (h : LogGrow s t) (h' : LogGrow t u)
    (hn : ¬ TouchedBetween d o s u) : ¬ TouchedBetween d o s t ∧ ¬ TouchedBetween d o t u := by
  unfold TouchedBetween at *
  rw [since_trans h h'] at hn
  constructor
  · rintro ⟨x, hx, h1⟩; exact hn ⟨x, by simp [hx], h1⟩
  · rintro ⟨x, hx, h1⟩; exact hn ⟨x, by simp [hx], h1⟩

theorem Whole.obj {d rank} (hw : WF d rank) {o e} (h : Whole d o e) : (d.ev e).obj = o := by
  rcases h with rfl | ⟨-, h, -⟩
  · exact hw.lam_obj o
  · exact h

theorem QueueKept.of_eq {d o} {s s' : St} (hl : s'.log = s.log)
    (he : s.est (d.obj o).lambda ≠ .sleeping → s'.est (d.obj o).lambda ≠ .sleeping)
    (hq : s.est (d.obj o).lambda ≠ .sleeping → ∃ add, s'.delayed o = s.delayed o ++ add) :
    QueueKept d o s s' :=
  ⟨⟨[], hl⟩, fun h _ => ⟨he h, hq h⟩⟩

theorem queueKept_closed {d rank} (hw : WF d rank) (o : Oid) :
    TClosed d (fun _ => False) (· ≠ o) (QueueKept d o) where
  refl := fun s => .of_eq rfl id fun _ => ⟨[], by simp⟩
  trans := by
    rintro s t u ⟨g1, h1⟩ ⟨g2, h2⟩
    refine ⟨(logGrow_closed d).trans g1 g2, fun hs hn => ?_⟩
    obtain ⟨n1, n2⟩ := not_stopped_trans g1 g2 hn
    obtain ⟨a1, add1, q1⟩ := h1 hs n1
    obtain ⟨a2, add2, q2⟩ := h2 a1 n2
    exact ⟨a2, add1 ++ add2, by rw [q2, q1, List.append_assoc]⟩
  par := fun s e k v _ => .of_eq rfl id fun _ => ⟨[], by simp [setParSt]⟩
  mark := fun _ _ _ _ _ h _ => h
  enq := by
    intro s x e t v dl
    refine .of_eq rfl id fun _ => ?_
    by_cases hx : o = x
    · subst hx; exact ⟨_, by simp [addDelayedSt]; rfl⟩
    · exact ⟨[], by simp [addDelayedSt, hx]⟩
  focusReq := fun s x => .of_eq rfl id fun _ => ⟨[], by simp⟩
  prop := fun s x k v _ => .of_eq rfl id fun _ => ⟨[], by simp [St.setProps]⟩
  focus := fun s v _ => .of_eq rfl id fun _ => ⟨[], by simp⟩
  player := fun s x p p' _ => .of_eq rfl id fun _ => ⟨[], by simp⟩
  newPlayer := fun s x p _ => .of_eq rfl id fun _ => ⟨[], by simp⟩
  sel := fun s x c => .of_eq rfl id fun _ => ⟨[], by simp⟩
  wake := by
    intro s e x _ hx
    refine .of_eq rfl (fun h => ?_) fun _ => ⟨[], by simp⟩
    simp only [St.setEst, upd]; split
    · exact hx
    · exact h
  start := fun s x e _ _ => .of_eq (by simp) (by simp) fun _ => ⟨[], by simp⟩
  logged := by
    intro s e t b _ h1 h2
    exact ⟨⟨[⟨e, t, b⟩], rfl⟩, fun h _ => ⟨h, [], by simp⟩⟩
  touched := fun s s' e t b h => h.elim
  stopEv := by
    intro s e t b _ hn
    refine ⟨⟨[⟨e, t, b⟩], rfl⟩, fun h _ => ⟨?_, [], by simp⟩⟩
    have : (d.obj o).lambda ≠ e := fun hx => hn o (.inl hx.symm)
    simpa [St.setEst, upd, this] using h
  stopObj := by
    intro s x e t b p ht hwh
    refine ⟨⟨[⟨e, t, b⟩], by simp [St.addLog]⟩, fun h hn => ?_⟩
    by_cases hx : x = o
    · subst hx
      exfalso; apply hn
      refine ⟨⟨e, t, b⟩, ?_, hwh, ht⟩
      rw [since_of (l := [⟨e, t, b⟩]) (by simp [St.addLog])]; simp
    · have h1 := hwh.obj hw
      have h2 : (d.obj o).lambda ≠ e := by
        rintro rfl; exact hx (h1.symm.trans (hw.lam_obj o))
      have hox : o ≠ x := fun h => hx h.symm
      refine ⟨?_, [], ?_⟩
      · simp only [addLog_est, doStopSt_est, hw.reset_apply, hw.lam_obj, hox, if_false]
        simpa [h2] using h
      · simp [hox]
  anchor := by
    rintro s s1 x q hs ⟨g, h⟩
    refine ⟨g, fun hne hn => ?_⟩
    by_cases hx : x = o
    · subst hx; exact absurd hs hne
    · have hox : o ≠ x := fun h => hx h.symm
      obtain ⟨h1, add, h2⟩ := h hne (by simpa [StoppedBetween, St.since] using hn)
      exact ⟨h1, add, by simpa [St.setDelayed, upd, hox] using h2⟩
  time := fun s x t _ => .of_eq rfl id fun _ => ⟨[], by simp⟩
  queue := fun s x q hx => .of_eq rfl id fun _ => ⟨[], by
    have hox : o ≠ x := fun h => hx h.symm
    simp [St.setDelayed, upd, hox]⟩
  focusDone := fun s => .of_eq rfl id fun _ => ⟨[], by simp⟩

theorem clockKept_closed {d rank} (hw : WF d rank) (o : Oid) :
    TClosed d (Whole d o) (· ≠ o) (ClockKept d o) := by
  have of_eq : ∀ {s s' : St}, s'.log = s.log →
      (s.est (d.obj o).lambda = .occurring → s'.est (d.obj o).lambda = .occurring ∧
        s'.time o = s.time o) → ClockKept d o s s' :=
    fun hl h => ⟨⟨[], hl⟩, fun hs _ => h hs⟩
  have hl : ∀ {e}, ¬ Whole d o e → (d.obj o).lambda ≠ e := fun hn hx => hn (.inl hx.symm)
  exact
  { refl := fun s => of_eq rfl fun h => ⟨h, rfl⟩
    trans := by
      rintro s t u ⟨g1, h1⟩ ⟨g2, h2⟩
      refine ⟨(logGrow_closed d).trans g1 g2, fun hs hn => ?_⟩
      obtain ⟨n1, n2⟩ := not_touched_trans g1 g2 hn
      obtain ⟨a1, q1⟩ := h1 hs n1
      obtain ⟨a2, q2⟩ := h2 a1 n2
      exact ⟨a2, q2.trans q1⟩
    par := fun s e k v _ => of_eq rfl fun h => ⟨h, rfl⟩
    mark := fun _ _ _ _ _ h _ => h
    enq := fun s x e t v dl => of_eq rfl fun h => ⟨h, rfl⟩
    focusReq := fun s x => of_eq rfl fun h => ⟨h, rfl⟩
    prop := fun s x k v _ => of_eq rfl fun h => ⟨h, rfl⟩
    focus := fun s v _ => of_eq rfl fun h => ⟨h, rfl⟩
    player := fun s x p p' _ => of_eq rfl fun h => ⟨h, rfl⟩
    newPlayer := fun s x p _ => of_eq rfl fun h => ⟨h, rfl⟩
    sel := fun s x c => of_eq rfl fun h => ⟨h, rfl⟩
    wake := by
      intro s e x hX hx
      refine of_eq rfl fun h => ⟨?_, rfl⟩
      simpa [St.setEst, upd, hl hX] using h
    start := by
      intro s x e hX hwh
      refine of_eq (by simp) fun h => ⟨by simpa using h, ?_⟩
      have hox : o ≠ x := by
        rintro rfl; exact hX hwh
      simp [hox]
    logged := by
      intro s e t b hX h1 h2
      exact ⟨⟨[⟨e, t, b⟩], rfl⟩, fun h _ => ⟨h, rfl⟩⟩
    touched := by
      intro s s' e t b hX hg _ _ _
      refine ⟨(logGrow_closed d).trans hg ⟨[⟨e, t, b⟩], rfl⟩, fun _ hn => ?_⟩
      exfalso; apply hn
      refine ⟨⟨e, t, b⟩, ?_, hX⟩
      rw [since_trans hg ⟨[⟨e, t, b⟩], rfl⟩, since_of (l := [⟨e, t, b⟩]) rfl]; simp
    stopEv := by
      intro s e t b _ hn
      refine ⟨⟨[⟨e, t, b⟩], rfl⟩, fun h _ => ⟨?_, rfl⟩⟩
      have := hl (hn o)
      simpa [St.setEst, upd, this] using h
    stopObj := by
      intro s x e t b p ht hwh
      refine ⟨⟨[⟨e, t, b⟩], by simp [St.addLog]⟩, fun h hn => ?_⟩
      by_cases hx : x = o
      · subst hx
        exfalso; apply hn
        refine ⟨⟨e, t, b⟩, ?_, hwh⟩
        rw [since_of (l := [⟨e, t, b⟩]) (by simp [St.addLog])]; simp
      · have h1 := hwh.obj hw
        have h2 : (d.obj o).lambda ≠ e := by
          rintro rfl; exact hx (h1.symm.trans (hw.lam_obj o))
        have hox : o ≠ x := fun h => hx h.symm
        refine ⟨?_, ?_⟩
        · simp only [addLog_est, doStopSt_est, hw.reset_apply, hw.lam_obj, hox, if_false]
          simpa [h2] using h
        · simp [hox]
    anchor := by
      rintro s s1 x q hs ⟨g, h⟩
      exact ⟨g, fun hne hn => h hne hn⟩
    time := fun s x t hx => of_eq rfl fun h => ⟨h, by
      have hox : o ≠ x := fun h => hx h.symm
      simp [St.setTime, upd, hox]⟩
    queue := fun s x q hx => of_eq rfl fun h => ⟨h, rfl⟩
    focusDone := fun s => of_eq rfl fun h => ⟨h, rfl⟩ }

/-- The trigger loop evaluates a prefix of the list in order, and stops early only because the
object is not occurring any more. -/
theorem runDue_inOrder {d : Doc} {n : Nat} {o : Oid} (l : List Act) : ∀ {s s' : St} {b : Bool},
    runDue d (run d n) o l s = .ok (b, s') →
    ∃ ran skipped, l = ran ++ skipped ∧ InOrder d n ran s s' ∧ (b = true → skipped = []) ∧
      (b = false → s'.est (d.obj o).lambda ≠ .occurring) := by
  induction l with
  | nil =>
    intro s s' b h
    change Res.ok (true, s) = _ at h
    cases h
    exact ⟨[], [], rfl, .nil, fun _ => rfl, fun h => by cases h⟩
  | cons a l ih =>
    intro s s' b h
    rw [runDue] at h
    obtain ⟨k, s1, h1, h⟩ := bind_ok h
    obtain ⟨_, _, h2, h⟩ := bind_ok h
    cases h2
    split at h
    · next hocc =>
      obtain ⟨ran, skipped, rfl, h3, h4, h5⟩ := ih h
      exact ⟨a :: ran, skipped, rfl, .cons h1 h3, h4, h5⟩
    · next hocc =>
      cases h
      refine ⟨[a], l, rfl, .cons h1 .nil, ?_, ?_⟩
      · intro h; cases h
      · intro _ hx; apply hocc; simpa [isOccurring] using hx

/-- **C11**, one tick (partial).  Let `now` be the clock of the occurring object `o` after a tick.
The actions queued for a time up to `now` — and no others — are evaluated, each one exactly once, in
queueing order; evaluation of the list (`due = ran ++ skipped`) is left early only because the
object is not occurring any more.  Afterwards, unless the object was stopped meanwhile, the entries
of the queue that can still run are the later ones, unchanged and in order, followed by entries
added during the tick.

Missing: `skipped = []` when the object was not *stopped* (see `C11_fails_pause`). -/
theorem C11_tick_partial {d : Doc} (hd : DocWF d) (s : St) (n : Nat)
    (o : Oid) (hocc : s.est (d.obj o).lambda = .occurring) (diff : Nat)
    (hclk : s.time o + diff < NONE) (s' : St)
    (he : objTick d (run d n) o diff s = .ok ((), s')) :
    ∃ s1 s2 ran skipped,
      -- the clock advances and the due actions are taken out
      s1.time o = s.time o + diff ∧
      s1 = { s with time := s1.time, delayed := s1.delayed } ∧
      pending (s1.delayed o) = (pending (s.delayed o)).filter (fun p => s.time o + diff < p.2) ∧
      (∀ x, x ≠ o → s1.time x = s.time x ∧ s1.delayed x = s.delayed x) ∧
      -- exactly the due actions are evaluated, in order
      ((s.delayed o).filter (fun p => p.2 ≤ s.time o + diff)).map (·.1) = ran ++ skipped ∧
      InOrder d n ran s1 s2 ∧
      (skipped ≠ [] → s2.est (d.obj o).lambda ≠ .occurring) ∧
      s' = { s2 with delayed := s'.delayed } ∧
      (∀ x, x ≠ o → s'.delayed x = s2.delayed x) ∧
      -- what remains queued
      pending (s'.delayed o) = pending (s2.delayed o) ∧
      (¬ StoppedBetween d o s s' → ∃ added, pending (s'.delayed o) =
        (pending (s.delayed o)).filter (fun p => s.time o + diff < p.2) ++ added) := by
  obtain ⟨rank, hw⟩ := hd
  have hnow : tadd (s.time o) diff = s.time o + diff := by
    unfold tadd; apply Nat.mod_eq_of_lt; unfold NONE at hclk; omega
  rw [objTick] at he
  obtain ⟨_, _, h1, he⟩ := bind_ok he
  cases h1
  rw [if_pos (by simpa [isOccurring] using hocc)] at he
  obtain ⟨_, sa, h1, he⟩ := bind_ok he
  have hsa : sa = s := by
    unfold M.assert at h1; split at h1 <;> cases h1; rfl
  rw [hsa] at he
  obtain ⟨_, _, h2, he⟩ := bind_ok he
  cases h2
  obtain ⟨_, _, h2, he⟩ := bind_ok he
  cases h2
  obtain ⟨_, s1, h2, he⟩ := bind_ok he
  cases h2
  obtain ⟨b, s2, h3, he⟩ := bind_ok he
  simp only [St.setTime, upd_same, hnow, St.setDelayed] at h3 he
  let q1 := (s.delayed o).map fun p => if p.2 ≤ s.time o + diff then (p.1, NONE) else p
  obtain ⟨s1, hs1⟩ : ∃ s1 : St, { s with time := upd s.time o (s.time o + diff), delayed := upd s.delayed o q1 } = s1 := ⟨_, rfl⟩
  have h3' := h3
  replace h3 : runDue d (run d n) o (((s.delayed o).filter fun p => p.2 ≤ s.time o + diff).map (·.1)) s1 =
      .ok (b, s2) := by rw [← hs1]; exact h3'
  clear h3'
  obtain ⟨ran, skipped, hsplit, hin, hb1, hb2⟩ := runDue_inOrder _ h3
  have hpend : pending (s1.delayed o) =
      (pending (s.delayed o)).filter (fun p => s.time o + diff < p.2) := by
    rw [← hs1]
    simp only [upd_same, pending, q1]
    generalize s.delayed o = q
    induction q with
    | nil => rfl
    | cons p q ih =>
      by_cases hp : p.2 ≤ s.time o + diff
      · have h4 : p.2 ≠ NONE := by intro h; rw [h] at hp; omega
        simp only [List.map_cons, hp, if_true, List.filter_cons, ne_eq, not_true, decide_false,
          Bool.false_eq_true, if_false, h4, not_false_eq_true, decide_true, Nat.not_lt.2 hp, ih]
      · by_cases h4 : p.2 = NONE
        · obtain ⟨a, t⟩ := p
          simp only at h4; subst h4
          simp only [List.map_cons, Nat.not_le.2 hclk, if_false, List.filter_cons, ne_eq, not_true, decide_false,
            Bool.false_eq_true]
          simpa using ih
        · simp only [List.map_cons, hp, if_false, List.filter_cons, h4, ne_eq, not_false_eq_true, decide_true,
            if_true, Nat.not_le.1 hp]
          simpa using ih
  have hk : QueueKept d o s1 s2 :=
    (pres_runDue (queueKept_closed hw o) (run_closed (queueKept_closed hw o).toClosed hw n) o _).ok h3
  have hs1est : s1.est = s.est := by rw [← hs1]
  have hs1log : s1.log = s.log := by rw [← hs1]
  have hfin : pending (s'.delayed o) = pending (s2.delayed o) ∧ s' = { s2 with delayed := s'.delayed } ∧
      (∀ x, x ≠ o → s'.delayed x = s2.delayed x) := by
    cases b with
    | true =>
      simp only [if_true] at he
      change Res.ok ((), s2.setDelayed o _) = _ at he
      cases he
      refine ⟨?_, rfl, fun x hx => by simp [St.setDelayed, upd, hx]⟩
      simp only [St.setDelayed, upd_same, pending, List.filter_filter, Bool.and_self]
    | false =>
      simp only [Bool.false_eq_true, if_false] at he
      cases he; exact ⟨rfl, rfl, fun _ _ => rfl⟩
  refine ⟨s1, s2, ran, skipped, by rw [← hs1]; simp, by rw [← hs1], hpend, ?_, hsplit, hin, ?_, hfin.2.1,
    hfin.2.2, hfin.1, ?_⟩
  · intro x hx; rw [← hs1]; simp [hx]
  · intro hne
    cases b with
    | true => exact absurd (hb1 rfl) hne
    | false => exact hb2 rfl
  · intro hn
    have hlog : s'.log = s2.log := by rw [hfin.2.1]
    have hn' : ¬ StoppedBetween d o s1 s2 := by
      simpa [StoppedBetween, St.since, hlog, hs1log] using hn
    obtain ⟨-, add, hq⟩ := hk.2 (by rw [hs1est, hocc]; simp) hn'
    refine ⟨pending add, ?_⟩
    rw [hfin.1, hq]
    simp only [pending, List.filter_append] at hpend ⊢
    rw [hpend]

/-- **C11**, nothing lost (partial): if during the tick the object made no transition at all as a
whole, every due action was evaluated. -/
theorem C11_all_due_partial {d : Doc} (hd : DocWF d) (s : St) (n : Nat)
    (o : Oid) (hocc : s.est (d.obj o).lambda = .occurring) (diff : Nat)
    (hclk : s.time o + diff < NONE) (s' : St)
    (he : objTick d (run d n) o diff s = .ok ((), s')) (hn : ¬ TouchedBetween d o s s') :
    ∃ s1 s2, InOrder d n
        (((s.delayed o).filter (fun p => p.2 ≤ s.time o + diff)).map (·.1)) s1 s2 ∧
      s1 = { s with time := s1.time, delayed := s1.delayed } ∧
      s' = { s2 with delayed := s'.delayed } ∧ s'.time o = s.time o + diff ∧
      s'.est (d.obj o).lambda = .occurring := by
  obtain ⟨rank, hw⟩ := hd
  obtain ⟨s1, s2, ran, skipped, ht, hs1, -, -, hsplit, hin, hsk, hs', -⟩ :=
    C11_tick_partial ⟨rank, hw⟩ s n o hocc diff hclk s' he
  have hk : ClockKept d o s1 s2 := by
    have hR := clockKept_closed hw o
    clear hs' hsk hsplit he hs1 ht
    induction hin with
    | nil => exact hR.refl _
    | cons h1 _ ih => exact hR.trans (((run_closed hR.toClosed hw n).evalA _).ok h1) ih
  have hest : s1.est = s.est := by rw [hs1]
  have hlog : s1.log = s.log := by rw [hs1]
  have hlog' : s'.log = s2.log := by rw [hs']
  obtain ⟨h1, h2⟩ := hk.2 (by rw [hest, hocc]) (by simpa [TouchedBetween, St.since, hlog', hlog] using hn)
  have hskip : skipped = [] := by
    by_cases hx : skipped = []
    · exact hx
    · exact absurd h1 (hsk hx)
  subst hskip
  rw [List.append_nil] at hsplit
  refine ⟨s1, s2, by rw [hsplit]; exact hin, hs1, hs', ?_, ?_⟩
  · rw [hs']; simp only; rw [h2, ht]
  · rw [hs']; exact h1

/-- **C11**, waiting.  A call other than a tick (a key, an end of stream, a requested action, a
resize) removes nothing from the queue of an object, unless it stops the object. -/
theorem C11_waiting {f : Fmt} (hf : Reachable f) {d : Doc} (hd : f.doc = some d) (o : Oid)
    (hawake : f.st.est (d.obj o).lambda ≠ .sleeping) (n : Nat) (op : Op)
    (hop : ∀ t df fr, op ≠ .sendTick t df fr) (b : Bool) (f' : Fmt)
    (he : exec n f op = .ok (b, f')) (hd' : f'.doc = some d)
    (hns : ¬ StoppedBetween d o f.st f'.st) :
    ∃ added, f'.st.delayed o = f.st.delayed o ++ added := by
  obtain ⟨rank, hw, hg, -⟩ := (hf.inv triv_inv).good d hd
  have h : QueueKept d o f.st f'.st := (engineCall hf hd he hd').pres hw (queueKept_closed hw o)
    (fun s x k _ => .of_eq rfl id fun _ => ⟨[], by simp [St.setProps]⟩) hop
  exact (h.2 hawake hns).2

/-- **C11**, a document tick.  When `sendTick` returns and the document is still presented, each
object that was occurring at the call got exactly one queue tick (described by
`C11_tick_partial`), every other object none; everything else that happened in the call
removed nothing from its queue, unless the object was stopped, and left its clock alone and the
object occurring, unless the object made a transition. -/
theorem C11_sendTick {f : Fmt} (hf : Reachable f) {d : Doc} (hd : f.doc = some d) (o : Oid)
    (ho : o ∈ d.objs) (n : Nat) (total diff frame : Nat) (b : Bool) (f' : Fmt)
    (he : exec n f (.sendTick total diff frame) = .ok (b, f')) (hd' : f'.doc = some d) :
    (f.st.est (d.obj o).lambda = .occurring → ∃ s1 s2,
      QueueKept d o f.st s1 ∧ ClockKept d o f.st s1 ∧
      objTick d (run d n) o diff s1 = .ok ((), s2) ∧
      QueueKept d o s2 f'.st ∧ ClockKept d o s2 f'.st) ∧
    (f.st.est (d.obj o).lambda ≠ .occurring → QueueKept d o f.st f'.st) := by
  obtain ⟨rank, hw, hg, -⟩ := (hf.inv triv_inv).good d hd
  have hc := engineCall hf hd he hd'
  cases hc with
  | tick h =>
    obtain ⟨h1, h2⟩ := docTick_split hw h o ho
    refine ⟨fun hocc => ?_, fun hocc => h2 hocc _ _ (queueKept_closed hw o)⟩
    obtain ⟨s1, s2, h3, h4⟩ := h1 hocc
    have hq := h4 _ _ (queueKept_closed hw o)
    have hk := h4 _ _ (clockKept_closed hw o)
    exact ⟨s1, s2, hq.1, hk.1, h3, hq.2, hk.2⟩

/-! The counter-example: body with settings and medias `a`, `b`; the link "onBegin a: pause the
body, start b", both delayed by one second. -/
def pauseDoc : Doc :=
  mkDoc env0
    [ { kind := .context, id := "__root__", children := [1, 2, 3], events := [0], lambda := 0,
        ports := [2],
        links := [{ conds := [{ ev := 2, tr := .start }],
                    acts := [{ ev := 3, tr := .start, delay := "1s" },
                             { ev := 0, tr := .pause, delay := "1s" }] }] },
      { kind := .settings, id := "__settings__", parent := some 0, events := [1, 4], lambda := 1,
        props0 := [("type", "application/x-ginga-settings")] },
      { kind := .media, id := "a", parent := some 0, events := [2], lambda := 2 },
      { kind := .media, id := "b", parent := some 0, events := [3], lambda := 3 } ]
    [ { typ := .presentation, obj := 0, id := "@lambda" },
      { typ := .presentation, obj := 1, id := "@lambda" },
      { typ := .presentation, obj := 2, id := "@lambda" },
      { typ := .presentation, obj := 3, id := "@lambda" },
      { typ := .attribution, obj := 1, id := "service.currentFocus" } ]
    0 1

theorem pauseDoc_wf : DocWF pauseDoc := mkDoc_wf [0, 1, 1, 1] (by decide +kernel)

/-- **C11 fails** when a due action pauses the object: the start of `b` (3), queued for one second,
does not run at the tick at which the clock of the body reaches one second, although the body was
occurring, was not stopped (it is paused), and the entry can never run afterwards. -/
theorem C11_fails_pause :
    ∃ f, Reachable f ∧ f.doc = some pauseDoc ∧ f.st.est 0 = .occurring ∧
      (f.st.delayed 0).map (fun p => (p.1.ev, p.2)) = [(0, SECOND), (3, SECOND)] ∧
      ∃ s', objTick pauseDoc (run pauseDoc 50) 0 (2 * SECOND) f.st = .ok ((), s') ∧
        s'.est 0 = .paused ∧ s'.est 3 = .sleeping ∧ pending (s'.delayed 0) = [] := by
  obtain ⟨f, h1, h2, h3⟩ := witness pauseDoc pauseDoc_wf 50 [tick 0] rfl
    (fun f => decide (f.st.est 0 = .occurring) &&
      decide ((f.st.delayed 0).map (fun p => (p.1.ev, p.2)) = [(0, SECOND), (3, SECOND)]) &&
      okAnd (objTick pauseDoc (run pauseDoc 50) 0 (2 * SECOND) f.st) (fun _ s =>
        decide (s.est 0 = .paused) && decide (s.est 3 = .sleeping) && (pending (s.delayed 0)).isEmpty))
    (by decide +kernel)
  simp only [Bool.and_eq_true, decide_eq_true_eq] at h3
  obtain ⟨⟨h4, h5⟩, h6⟩ := h3
  obtain ⟨_, s', h7, h8⟩ := okAnd_iff.1 h6
  simp only [Bool.and_eq_true, decide_eq_true_eq, List.isEmpty_iff] at h8
  exact ⟨f, h1, h2, h4, h5, s', h7, h8.1.1, h8.1.2, h8.2⟩

/-! Non-vacuity: in `twoMedias` the anchor of `a` is queued, occurs at its tick and the rest of the
queue stays; `a` makes no transition as a whole. -/
example : ∃ f, Reachable f ∧ f.doc = some twoMedias ∧
    (decide (f.st.est 2 = .occurring) && decide ((f.st.delayed 2).map (·.2) = [500000000, 1000000000]) &&
     okAnd (objTick twoMedias (run twoMedias 50) 2 600000000 f.st) (fun _ s =>
       decide (s.est 4 = .occurring) && decide ((s.delayed 2).map (·.2) = [1000000000]) &&
       decide ((f.st.since s).map (·.ev) = [4]))) = true :=
  witness twoMedias twoMedias_wf 50 [tick 0] rfl _ (by decide +kernel)

end Ginga
