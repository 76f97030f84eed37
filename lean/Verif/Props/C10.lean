import Verif.Props.C09
import Verif.Proofs.Fuel
/-! # C10 — the actions of one link run in document order -/
namespace Ginga
open Ex

theorem run_le_ok {d : Doc} {n m : Nat} (hnm : n ≤ m) {l k s x}
    (h : (run d n).loop l k s = .ok x) : (run d m).loop l k s = .ok x := by
  rcases ((run_mle d n m hnm).loop l k).le s with h1 | h1
  · rw [h1] at h; cases h
  · rw [← h1]; exact h

theorem loop_nil {d : Doc} {n m : Nat} {s : St} : (run d (n + 1)).loop [] m s = .ok (m, s) := rfl

theorem loop_split (d : Doc) : ∀ n xs ys m s k s', (run d n).loop (xs ++ ys) m s = .ok (k, s') →
    ∃ k1 s1, (run d n).loop xs m s = .ok (k1, s1) ∧ (run d n).loop ys k1 s1 = .ok (k, s') := by
  intro n
  induction n with
  | zero => intro xs ys m s k s' h; simp [run, M.fuel] at h
  | succ n ih =>
    intro xs ys m s k s' h
    cases xs with
    | nil => exact ⟨m, s, rfl, h⟩
    | cons a xs =>
      change evalLoop d (run d n) (a :: (xs ++ ys)) m s = _ at h
      rw [evalLoop] at h
      obtain ⟨o, s1, h1, h⟩ := bind_ok h
      have hrun : ∀ zs m', (run d (n + 1)).loop (a :: zs) m' s =
          (match o with
          | none => (run d n).loop zs m'
          | some pushed => (run d n).loop (pushed.reverse ++ zs) (m' + 1)) s1 := by
        intro zs m'
        change evalLoop d (run d n) (a :: zs) m' s = _
        rw [evalLoop, bind_of_ok h1]
        cases o <;> rfl
      cases o with
      | none =>
        obtain ⟨k1, s2, h2, h3⟩ := ih _ _ _ _ _ _ h
        exact ⟨k1, s2, by rw [hrun]; exact h2, run_le_ok (Nat.le_succ n) h3⟩
      | some pushed =>
        simp only at h
        rw [← List.append_assoc] at h
        obtain ⟨k1, s2, h2, h3⟩ := ih _ _ _ _ _ _ h
        exact ⟨k1, s2, by rw [hrun]; exact h2, run_le_ok (Nat.le_succ n) h3⟩

theorem loop_shift (d : Doc) : ∀ n xs m s k s', (run d n).loop xs m s = .ok (k, s') →
    m ≤ k ∧ ∀ j, (run d n).loop xs j s = .ok (k - m + j, s') := by
  intro n
  induction n with
  | zero => intro xs m s k s' h; simp [run, M.fuel] at h
  | succ n ih =>
    intro xs m s k s' h
    cases xs with
    | nil =>
      change Res.ok (m, s) = _ at h
      cases h
      exact ⟨Nat.le_refl _, fun j => by rw [Nat.sub_self, Nat.zero_add]; rfl⟩
    | cons a xs =>
      change evalLoop d (run d n) (a :: xs) m s = _ at h
      rw [evalLoop] at h
      obtain ⟨o, s1, h1, h⟩ := bind_ok h
      have hrun : ∀ zs m', (run d (n + 1)).loop (a :: zs) m' s =
          (match o with
          | none => (run d n).loop zs m'
          | some pushed => (run d n).loop (pushed.reverse ++ zs) (m' + 1)) s1 := by
        intro zs m'
        change evalLoop d (run d n) (a :: zs) m' s = _
        rw [evalLoop, bind_of_ok h1]
        cases o <;> rfl
      cases o with
      | none =>
        obtain ⟨h2, h3⟩ := ih _ _ _ _ _ h
        exact ⟨h2, fun j => by rw [hrun]; exact h3 j⟩
      | some pushed =>
        obtain ⟨h2, h3⟩ := ih _ _ _ _ _ h
        refine ⟨by omega, fun j => ?_⟩
        rw [hrun, show k - m + j = k - (m + 1) + (j + 1) by omega]
        exact h3 (j + 1)

theorem loop_inOrder (d : Doc) (n : Nat) (xs : List Act) : ∀ m s k s',
    (run d n).loop xs m s = .ok (k, s') → InOrder d (n + 1) xs s s' := by
  induction xs with
  | nil =>
    intro m s k s' h
    cases n with
    | zero => simp [run, M.fuel] at h
    | succ n => change Res.ok (m, s) = _ at h; cases h; exact .nil
  | cons a xs ih =>
    intro m s k s' h
    obtain ⟨k1, s1, h1, h2⟩ := loop_split d n [a] xs m s k s' h
    exact .cons ((loop_shift d n _ _ _ _ _ h1).2 0) (ih _ _ _ _ h2)

/-- **C10**, one at a time.  Evaluating an action makes its own transition and then evaluates the
immediate actions it triggers one after the other, each one together with everything that it
triggers in turn before the next one starts, in the reverse of the order in which the links pushed
them. -/
theorem C10_depth_first (d : Doc) (n : Nat) (act : Act) (s s' : St) (k : Nat)
    (h : (run d (n + 2)).evalA act s = .ok (k, s')) :
    (evalStep d (run d n) act s = .ok (none, s') ∧ k = 0) ∨
    ∃ pushed s1, evalStep d (run d n) act s = .ok (some pushed, s1) ∧
      InOrder d (n + 1) pushed.reverse s1 s' := by
  change evalLoop d (run d n) [act] 0 s = _ at h
  rw [evalLoop] at h
  obtain ⟨o, s1, h1, h⟩ := bind_ok h
  cases o with
  | none =>
    left
    simp only at h
    cases n with
    | zero => simp [run, M.fuel] at h
    | succ n => change Res.ok (0, s1) = _ at h; cases h; exact ⟨h1, rfl⟩
  | some pushed =>
    simp only [List.append_nil] at h
    exact .inr ⟨pushed, s1, h1, loop_inOrder d n _ _ _ _ _ h⟩

/-- The order in which the actions triggered by the links of the contexts `ctxs` are evaluated:
for each satisfied condition, the immediate actions of its link in the order in which they are
written, contiguously.  (Of two links satisfied by the same transition the later one goes
first, and of two contexts the outer one.) -/
def evaluationOrder (d : Doc) (s : St) (e : Eid) (t : Trans) (ctxs : List Oid) : List Act :=
  ctxs.reverse.flatMap fun ctx =>
    if s.status ctx then
      (d.obj ctx).links.reverse.flatMap fun l =>
        (l.conds.filter (Act.satisfied (deref d s) e t)).flatMap fun _ =>
          l.acts.filter (Act.immediate d s)
    else []

theorem reverse_filter_flatMap {α β : Type} (p : β → Bool) (f : α → List β) (l : List α) :
    (List.filter p (l.flatMap f)).reverse = l.reverse.flatMap fun a => (List.filter p (f a)).reverse := by
  induction l with
  | nil => rfl
  | cons a l ih => simp [List.filter_append, ih]

theorem flatMap_const_reverse {α β : Type} (l : List α) (as : List β) :
    (l.reverse.flatMap fun _ => as) = l.flatMap fun _ => as := by
  induction l with
  | nil => rfl
  | cons a l ih =>
    simp only [List.reverse_cons, List.flatMap_append, List.flatMap_cons, List.flatMap_nil,
      List.append_nil, ih]
    clear ih
    induction l with
    | nil => simp
    | cons c cs ih => simp only [List.flatMap_cons, List.append_assoc, ih]

/-- **C10**, document order: what the links push is evaluated in the order `evaluationOrder`. -/
theorem C10_document_order {d : Doc} {s s' : St} {e : Eid} {t : Trans} {ctxs : List Oid}
    {pushed : List Act} (h : LinksFired d s e t ctxs pushed s') :
    pushed.reverse = evaluationOrder d s e t ctxs := by
  rw [h.pushed_eq, reverse_filter_flatMap]
  unfold evaluationOrder
  congr 1
  funext ctx
  unfold triggeredIn
  split
  · unfold triggered
    rw [reverse_filter_flatMap]
    congr 1
    funext l
    rw [reverse_filter_flatMap, flatMap_const_reverse]
    congr 1
    funext _
    rw [List.filter_reverse, List.reverse_reverse]
  · rfl

/-- **C10**, together.  If evaluating an action has an effect (`k ≠ 0`), its transition was made
and then the actions of the links it satisfies were evaluated in the order `evaluationOrder`, each
one completely before the next one. -/
theorem C10_actions_in_order (d : Doc) (n : Nat) (act : Act) (s s' : St) (k : Nat)
    (h : (run d (n + 2)).evalA act s = .ok (k, s')) (hk : k ≠ 0)
    (hsw : ∀ p, (d.obj (d.ev act.ev).obj).parent = some p → (d.obj p).kind ≠ .switch) :
    ∃ s0 s1 s2, (∃ par, s0 = { s with par := par }) ∧
      (run d n).trans act.ev act.tr s0 = .ok (true, s1) ∧
      (∃ q, s2 = { s1 with delayed := q }) ∧
      InOrder d (n + 1)
        (evaluationOrder d s1 act.ev act.tr (linkContexts d s1 (d.ev act.ev).obj)) s2 s' := by
  rcases C10_depth_first d n act s s' k h with ⟨-, h1⟩ | ⟨pushed, s2, h1, h2⟩
  · exact absurd h1 hk
  · obtain ⟨s0, s1, ht, hp, hf⟩ := C09_links_fire d n act s s2 pushed hsw h1
    exact ⟨s0, s1, s2, hp, ht, ⟨_, hf.frame⟩, by rw [← C10_document_order hf]; exact h2⟩

/-! Non-vacuity: a link with three actions. -/
def orderDoc : Doc :=
  mkDoc env0
    [ { kind := .context, id := "__root__", children := [1, 2, 3, 4], events := [0], lambda := 0,
        ports := [2],
        links := [{ conds := [{ ev := 2, tr := .start }],
                    acts := [{ ev := 3, tr := .start }, { ev := 4, tr := .start }, { ev := 3, tr := .stop }] }] },
      { kind := .settings, id := "__settings__", parent := some 0, events := [1, 5], lambda := 1,
        props0 := [("type", "application/x-ginga-settings")] },
      { kind := .media, id := "a", parent := some 0, events := [2], lambda := 2 },
      { kind := .media, id := "b", parent := some 0, events := [3], lambda := 3 },
      { kind := .media, id := "c", parent := some 0, events := [4], lambda := 4 } ]
    [ { typ := .presentation, obj := 0, id := "@lambda" },
      { typ := .presentation, obj := 1, id := "@lambda" },
      { typ := .presentation, obj := 2, id := "@lambda" },
      { typ := .presentation, obj := 3, id := "@lambda" },
      { typ := .presentation, obj := 4, id := "@lambda" },
      { typ := .attribution, obj := 1, id := "service.currentFocus" } ]
    0 1
theorem orderDoc_wf : DocWF orderDoc := mkDoc_wf [0, 1, 1, 1, 1] (by decide +kernel)

/-- Two actions of one link, in the evaluation order of the body's links. -/
example : (evaluationOrder orderDoc (orderDoc.init "") 2 .start [0]).map (fun a => (a.ev, a.tr)) =
    [(3, .start), (4, .start), (3, .stop)] := by decide +kernel

example : ∃ f, Reachable f ∧ f.doc = some orderDoc ∧
    (f.st.log.take 4).map (fun e => (e.ev, e.tr)) =
      [(3, .stop), (4, .start), (3, .start), (2, .start)] := by
  obtain ⟨f, h1, h2, h3⟩ := witness orderDoc orderDoc_wf 50 [tick 0] rfl
    (fun f => decide ((f.st.log.take 4).map (fun e => (e.ev, e.tr)) =
      [(3, .stop), (4, .start), (3, .start), (2, .start)])) (by decide +kernel)
  exact ⟨f, h1, h2, of_decide_eq_true h3⟩

end Ginga
