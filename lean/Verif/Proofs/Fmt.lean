import Verif.Proofs.Invariants
import Verif.Proofs.Fuel
/-! # Formatter-level invariants: the end-of-stream flag and the document -/
set_option linter.unusedVariables false
set_option linter.unusedSimpArgs false
set_option linter.unusedSectionVars false
namespace Ginga

theorem triv_inv : StInv (fun _ _ => True) := ⟨fun _ _ _ => trivial, fun _ _ _ _ _ _ _ _ => trivial⟩

theorem loop_ge (d : Doc) : ∀ n l k s k' s', (run d n).loop l k s = .ok (k', s') → k ≤ k' := by
  intro n
  induction n with
  | zero => intro l k s k' s' h; simp [run, M.fuel] at h
  | succ n ih =>
    intro l k s k' s' h
    cases l with
    | nil =>
      simp only [run, evalLoop] at h
      cases h; exact Nat.le_refl _
    | cons a l =>
      simp only [run, evalLoop] at h
      change M.bind (evalStep d (run d n) a) _ s = _ at h
      unfold M.bind at h
      cases he : evalStep d (run d n) a s with
      | ok p =>
        rw [he] at h
        obtain ⟨o, s1⟩ := p
        cases o with
        | none => exact ih _ _ _ _ _ h
        | some x => exact Nat.le_trans (Nat.le_succ k) (ih _ _ _ _ _ h)
      | _ => rw [he] at h; cases h

/-- A legal START of the root is counted. -/
theorem start_count {d : Doc} {rank : Oid → Nat} (h : WF d rank) {n : Nat} {s s' : St} {k : Nat}
    (hg : Good d rank s) (hs : s.est (d.lam d.root) = .sleeping)
    (he : (run d n).evalA { ev := d.lam d.root, tr := .start } s = .ok (k, s')) : 1 ≤ k := by
  cases n with
  | zero => simp [run, M.fuel] at he
  | succ n =>
    simp only [run] at he
    cases n with
    | zero => simp [run, M.fuel] at he
    | succ n =>
      simp only [run, evalLoop] at he
      change M.bind (evalStep d (run d n) _) _ s = _ at he
      unfold M.bind at he
      cases hst : evalStep d (run d n) { ev := d.lam d.root, tr := .start } s with
      | ok p =>
        rw [hst] at he
        obtain ⟨o, s1⟩ := p
        cases o with
        | some x => exact loop_ge d n _ _ _ _ _ he
        | none =>
          exfalso
          have : wp True True (evalStep d (run d n) { ev := d.lam d.root, tr := .start })
              (fun o _ => o ≠ none) s := by
            unfold evalStep
            simp only [wp_bind, wp_setPar, h.lam_typ]
            have hg' : Good d rank (setParSt (d.lam d.root) "duration" "" s) :=
              Good.congr h hg (fun _ _ => rfl) rfl rfl (fun _ _ => rfl)
            have hne : EType.presentation ≠ .attribution := by simp
            simp only [if_neg hne, wp_bind, wp_pure]
            refine wp_mono ((run_spec h (U := True) (fun _ => trivial) n).trans _ _ _ hg') ?_
            intro b s2 hp
            have hb : b = true := hp.must rfl (h.lam_typ _) (by rw [h.lam_obj, h.root_kind]; simp)
              (by simp [setParSt, hs])
            subst hb
            simp only [if_true, wp_bind]
            apply wp_intro
            all_goals (intros; first | trivial | skip)
            apply wp_intro
            all_goals (intros; first | trivial | skip)
            simp
          rw [wp] at this
          rw [hst] at this
          exact this rfl
      | _ => rw [hst] at he; cases he

/-- Between calls the end-of-stream flag is off and a document is held exactly while playing. -/
structure FmtOk (f : Fmt) : Prop where
  inv : FInv (fun _ _ => True) f
  eos : f.eos = false
  doc : f.playing = f.doc.isSome

theorem FInv.triv {P : Doc → St → Prop} {f : Fmt} (h : FInv P f) : FInv (fun _ _ => True) f :=
  ⟨h.play, fun d hd => let ⟨r, h1, h2, _⟩ := h.good d hd; ⟨r, h1, h2, trivial⟩⟩

theorem rwp_and {α : Type} {A U : Prop} {x : Res α} {Q R : α → Prop} (h1 : rwp A U x Q)
    (h2 : rwp A U x R) : rwp A U x (fun a => Q a ∧ R a) := by
  cases x <;> first | exact ⟨h1, h2⟩ | exact h1

theorem rwp_run_any {α : Type} (f : Fmt) (m : M α) :
    rwp True True (f.run m) (fun p => p.2 = { f with st := p.2.st }) := by
  unfold Fmt.run
  cases hm : m f.st <;> simp [Res.bind, rwp]

theorem fmtStop_ok {n : Nat} {f : Fmt} (hd : f.playing = f.doc.isSome) (he : f.eos = false) :
    rwp True True (fmtStop n f) (fun p => p.2.playing = false ∧ p.2.doc = none ∧ p.2.eos = false) := by
  unfold fmtStop
  cases hpl : f.playing with
  | false =>
    simp only [Bool.not_false, if_true, rwp]
    rw [hpl] at hd
    exact ⟨hpl, by cases h : f.doc <;> simp_all, he⟩
  | true =>
    simp only [Bool.not_true, Bool.false_eq_true, if_false]
    cases hdoc : f.doc with
    | none => rw [hpl, hdoc] at hd; cases hd
    | some d =>
      simp only [rwp_bind]
      refine rwp_mono (rwp_run_any _ _) ?_
      rintro ⟨_, f1⟩ h1
      simp only [rwp] at h1 ⊢
      exact ⟨trivial, trivial, by rw [h1]; exact he⟩

theorem guarded_ok {n : Nat} {f : Fmt} (hd : f.playing = f.doc.isSome) (he : f.eos = false)
    {body : Doc → Fmt → Res Fmt}
    (hb : ∀ d f1, f1 = f → rwp True True (body d f1)
      (fun f2 => f2.playing = f1.playing ∧ f2.doc = f1.doc ∧ f2.eos = f1.eos)) :
    rwp True True (guarded n f body) (fun p => p.2.playing = p.2.doc.isSome ∧ p.2.eos = false) := by
  unfold guarded
  cases hpl : f.playing with
  | false => simp only [Bool.not_false, if_true, rwp]; exact ⟨hd, he⟩
  | true =>
    simp only [Bool.not_true, Bool.false_eq_true, if_false]
    cases hdoc : f.doc with
    | none => trivial
    | some d =>
      simp only [rwp_bind]
      unfold checkEos
      by_cases hsl : isSleeping d f.st d.root = true
      · simp only [hsl, if_true, rwp_bind]
        have := fmtStop_ok (n := n) (f := { f with eos := false }) hd rfl
        refine rwp_mono this ?_
        rintro ⟨b, f1⟩ ⟨h1, h2, h3⟩
        simp only at h1 h2 h3
        split
        · simp only [rwp, h1, Bool.not_false, if_true]
          exact ⟨by rw [h2]; rfl, h3⟩
        · trivial
      · simp only [hsl, he, Bool.false_eq_true, if_false]
        simp only [rwp, hpl, Bool.not_true, Bool.false_eq_true, if_false]
        change rwp True True ((body d f).bind _) _
        rw [rwp_bind]
        refine rwp_mono (hb d f rfl) ?_
        rintro f2 ⟨h1, h2, h3⟩
        simp only [rwp]
        exact ⟨by rw [h1, h2]; exact hd, h3.trans he⟩

theorem exec_ok {n : Nat} {f : Fmt} (hf : FmtOk f) (op : Op)
    (hd : ∀ d, op = .start (some d) → DocWF d) :
    rwp True True (exec n f op) (fun q => FmtOk q.2) := by
  have h1 := exec_inv (U := True) (n := n) triv_inv hf.inv op hd (fun _ _ _ => trivial)
  have h2 : rwp True True (exec n f op) (fun q => q.2.playing = q.2.doc.isSome ∧ q.2.eos = false) := by
    cases op with
    | start p =>
      simp only [exec]; unfold fmtStart
      cases hpl : f.playing with
      | true => simp only [if_true, rwp]; exact ⟨hf.doc, hf.eos⟩
      | false =>
        simp only [Bool.false_eq_true, if_false]
        split
        · trivial
        · cases p with
          | none => simp only [rwp]; exact ⟨hf.doc, hf.eos⟩
          | some d =>
            obtain ⟨rank, hw⟩ := hd d rfl
            simp only [rwp_bind]
            have hg0 := Good.init hw (rank := rank) f.focus
            unfold Fmt.run
            cases he : (run d n).evalA { ev := (d.obj d.root).lambda, tr := .start } (d.init f.focus) with
            | ok q =>
              obtain ⟨k, s1⟩ := q
              have hk := start_count hw hg0 rfl he
              have hk0 : k ≠ 0 := by omega
              simp only [Res.bind, rwp, if_neg hk0]
              cases he2 : (run d n).trans (d.obj d.settings).lambda .start s1 with
              | ok q2 =>
                obtain ⟨b, s2⟩ := q2
                cases b <;> simp [rwp, Res.bind]
              | _ => trivial
            | _ => trivial
    | stop =>
      refine rwp_mono (fmtStop_ok hf.doc hf.eos) ?_
      rintro q ⟨h1, h2, h3⟩
      exact ⟨by rw [h1, h2]; rfl, h3⟩
    | sendKey k p =>
      refine guarded_ok hf.doc hf.eos ?_
      intro d f1 _
      rw [rwp_bind]
      refine rwp_mono (rwp_run_any _ _) ?_
      rintro q hq
      simp only [rwp]; rw [hq]; exact ⟨rfl, rfl, rfl⟩
    | sendTick a b c =>
      refine guarded_ok hf.doc hf.eos ?_
      intro d f1 _
      rw [rwp_bind]
      refine rwp_mono (rwp_run_any _ _) ?_
      rintro q hq
      simp only [rwp]; rw [hq]; exact ⟨rfl, rfl, rfl⟩
    | resize w hh =>
      simp only [exec, fmtResize]
      split
      · split
        · exact ⟨hf.doc, hf.eos⟩
        · split
          · trivial
          · simp only [rwp_bind]
            refine rwp_mono (rwp_run_any _ _) ?_
            rintro q hq
            simp only [rwp]; rw [hq]; exact ⟨hf.doc, hf.eos⟩
      · trivial
    | playerEos o =>
      simp only [exec, rwp_bind]
      refine rwp_mono (rwp_run_any _ _) ?_
      rintro q hq
      simp only [rwp]; rw [hq]; exact ⟨hf.doc, hf.eos⟩
    | action a =>
      simp only [exec]
      split
      · exact ⟨hf.doc, hf.eos⟩
      · simp only [rwp_bind]
        refine rwp_mono (rwp_run_any _ _) ?_
        rintro q hq
        simp only [rwp]; rw [hq]; exact ⟨hf.doc, hf.eos⟩
  exact rwp_mono (rwp_and h1 h2) fun q hq => ⟨hq.1.1, hq.2.2, hq.2.1⟩

theorem execAll_ok {n : Nat} (ops : List Op) : ∀ f : Fmt, FmtOk f → OpsWF ops →
    rwp True True (execAll n f ops) (fun q => FmtOk q.2) := by
  induction ops with
  | nil => intro f hf _; exact hf
  | cons op ops ih =>
    intro f hf hw
    simp only [execAll, rwp_bind]
    refine rwp_mono (exec_ok hf op (fun d hd => hw d (by simp [hd]))) ?_
    intro q hq
    exact rwp_mono (ih q.2 hq (fun d hd => hw d (by simp [hd]))) fun _ h => h

theorem Reachable.ok {f : Fmt} (hf : Reachable f) : FmtOk f := by
  obtain ⟨n, focus, w, hh, ops, bs, hw, he⟩ := hf
  have := execAll_ok (n := n) ops (Fmt.new focus w hh) ⟨FInv.new focus w hh, rfl, rfl⟩ hw
  rw [he] at this
  exact this

/-- One more call keeps reachability. -/
theorem execAll_append (n : Nat) (f : Fmt) (a b : List Op) :
    execAll n f (a ++ b) = (execAll n f a).bind fun p =>
      (execAll n p.2 b).bind fun q => .ok (p.1 ++ q.1, q.2) := by
  induction a generalizing f with
  | nil =>
    simp only [execAll, List.nil_append, Res.bind]
    cases execAll n f b <;> rfl
  | cons op a ih =>
    simp only [List.cons_append, execAll]
    cases exec n f op with
    | ok p =>
      simp only [Res.bind, ih]
      cases execAll n p.2 a with
      | ok q =>
        simp only [Res.bind]
        cases execAll n q.2 b <;> rfl
      | _ => rfl
    | _ => rfl

theorem Reachable.exec {f f' : Fmt} (hf : Reachable f) {n : Nat} {op : Op} {b : Bool}
    (hop : ∀ d, op = .start (some d) → DocWF d) (he : exec n f op = .ok (b, f')) :
    Reachable f' := by
  obtain ⟨m, focus, w, hh, ops, bs, hw, hm⟩ := hf
  refine ⟨max n m, focus, w, hh, ops ++ [op], bs ++ [b], ?_, ?_⟩
  · intro d hd
    simp at hd
    rcases hd with hd | hd
    · exact hw d hd
    · exact hop d hd.symm
  · have h1 : execAll (max n m) (Fmt.new focus w hh) ops = .ok (bs, f) := by
      rcases execAll_rle (Nat.le_max_right n m) ops (Fmt.new focus w hh) with h | h
      · rw [hm] at h; cases h
      · rw [← h, hm]
    have h2 : Ginga.exec (max n m) f op = .ok (b, f') := by
      rcases exec_rle (Nat.le_max_left n m) f op with h | h
      · rw [he] at h; cases h
      · rw [← h, he]
    rw [execAll_append, h1]
    simp only [Res.bind, execAll, h2]

end Ginga
