import Verif.Proofs.LtabRead
import Verif.Proofs.Conn
import Verif.Proofs.Trans
/-!
# Events, links, ports and rules of NCL-ltab tables
-/
namespace Ginga

theorem cut_some {c : Char} : ∀ {s a b : Str}, cut c s = some (a, b) → s = a ++ c :: b ∧ c ∉ a
  | [], _, _, h => by cases h
  | x :: s, a, b, h => by
    unfold cut at h
    split at h
    · next e => cases h; subst e; exact ⟨rfl, by simp⟩
    · next e =>
      cases hc : cut c s with
      | none => rw [hc] at h; cases h
      | some p =>
        obtain ⟨p1, p2⟩ := p
        rw [hc] at h
        simp only [Option.map_some, Option.some.injEq, Prod.mk.injEq] at h
        obtain ⟨rfl, rfl⟩ := h
        obtain ⟨h1, h2⟩ := cut_some hc
        exact ⟨by rw [h1]; rfl, by simp [h2, Ne.symm e]⟩

theorem cut_none {c : Char} : ∀ {s : Str}, cut c s = none → c ∉ s
  | [], _ => by simp
  | x :: s, h => by
    unfold cut at h
    split at h
    · cases h
    · next e =>
      cases hc : cut c s with
      | none => simp [cut_none hc, Ne.symm e]
      | some p => rw [hc] at h; cases h

theorem caseEq_word' {s : Str} {w : String} (hw : w.toList.map lower = w.toList) : caseEq w.toList s = true ↔ s.map lower = w.toList := by
  unfold caseEq
  rw [hw]
  rw [beq_iff_eq, eq_comm]

/-- The three parts of the text of an event. -/
theorem reads_text (text : Str) : Reads (match cut '@' text with
    | some (a, b) => PM.pure (a, EType.presentation, if caseEq "lambda".toList b then "@lambda".toList else b)
    | none =>
      match cut '.' text with
      | some (a, b) => PM.pure (a, EType.attribution, b)
      | none =>
        match cut '<' text with
        | some (a, b) => if b = [] then PM.ub else PM.pure (a, EType.selection, b.dropLast)
        | none => if text = [] then PM.ub else PM.pure (text, EType.selection, text.dropLast) : PM (Str × EType × Str))
    fun p => EventText text p.1 p.2.1 p.2.2 := by
  cases h1 : cut '@' text with
  | some p =>
    obtain ⟨a, b⟩ := p
    obtain ⟨rfl, h⟩ := cut_some h1
    dsimp only
    refine Reads.pure' ?_
    dsimp only
    split
    · next hc => exact .whole h ((caseEq_word' (by decide)).1 hc)
    · next hc => exact .area h fun hh => hc ((caseEq_word' (by decide)).2 hh)
  | none =>
    have n1 := cut_none h1
    dsimp only
    cases h2 : cut '.' text with
    | some p =>
      obtain ⟨a, b⟩ := p
      obtain ⟨rfl, h⟩ := cut_some h2
      dsimp only
      exact Reads.pure' (.prop (by simpa using n1) h)
    | none =>
      have n2 := cut_none h2
      dsimp only
      cases h3 : cut '<' text with
      | some p =>
        obtain ⟨a, b⟩ := p
        obtain ⟨rfl, h⟩ := cut_some h3
        dsimp only
        split
        · exact Reads.ub
        · next hb =>
          refine Reads.pure' ?_
          have e := List.dropLast_concat_getLast hb
          have := EventText.key (id := a) (ev := b.dropLast) (c := b.getLast hb) (by rw [List.append_assoc, e]; simpa using n1) (by rw [List.append_assoc, e]; simpa using n2) h
          rw [e] at this
          exact this
      | none =>
        have n3 := cut_none h3
        dsimp only
        split
        · exact Reads.ub
        · next hb =>
          refine Reads.pure' ?_
          have e := List.dropLast_concat_getLast hb
          have := EventText.bare (ev := text.dropLast) (c := text.getLast hb) (by rw [e]; exact n1) (by rw [e]; exact n2) (by rw [e]; exact n3)
          rw [e] at this
          exact this

theorem childById_spec {r : Reg} {cs : List Nat} {id : String} {c : Nat} (h : childById r cs id = some c) : c ∈ cs ∧ ∃ y, r.obj c = some y ∧ y.id = id := by
  unfold childById at h
  refine ⟨List.mem_of_find?_eq_some h, ?_⟩
  have := List.find?_some h
  cases hy : r.obj c with
  | none => rw [hy] at this; cases this
  | some y => rw [hy] at this; exact ⟨y, rfl, by simpa using this⟩

theorem ltabEvent_post (o : Nat) (text : String) (s : PS) : PPost (ltabEvent o text) (fun e t => t = s ∧ EventAt s o text e) s := by
  unfold ltabEvent
  refine Reads.seq (reads_text text.toList) fun p hp => ?_
  obtain ⟨id, ty, ev⟩ := p
  dsimp only at hp ⊢
  refine PPost.bind (PPost.object fun x hx => PPost.bind (PPost.get ?_))
  cases hc : childById s.reg x.children (String.ofList id) with
  | none => exact PPost.ub
  | some c =>
    obtain ⟨h1, y, h2, h3⟩ := childById_spec hc
    refine PPost.bind (PPost.object fun y' hy' => PPost.pure ⟨rfl, id, ty, ev, x, c, y, hp, hx, h1, h2, h3, ?_⟩)
    rw [h2] at hy'; cases hy'; rfl

/-- A loop that changes nothing and collects results. -/
theorem collect_post {α β : Type} {f : α → PM β} {R : α → β → Prop} {s : PS} : ∀ {l : List α}, (∀ a ∈ l, PPost (f a) (fun b t => t = s ∧ R a b) s) →
    PPost (PM.collect f l) (fun bs t => t = s ∧ Each R l bs) s
  | [], _ => PPost.pure' ⟨rfl, .nil⟩
  | a :: l, h => by
    unfold PM.collect
    refine PPost.bind ((h a (by simp)).mono fun b t hb => ?_)
    obtain ⟨rfl, hb⟩ := hb
    refine PPost.bind ((collect_post (f := f) (R := R) (l := l) fun a ha => h a (by simp [ha])).mono fun bs t hbs => ?_)
    obtain ⟨rfl, hbs⟩ := hbs
    exact PPost.pure ⟨rfl, .cons hb hbs⟩

theorem cond_post (H : LHeap) (d o : Nat) (v : LVal) (s : PS) : PPost (parseLCond H d o v) (fun c t => t = s ∧ CondAs H s o v c) s := by
  unfold parseLCond
  refine Reads.seq (reads_asTable v) fun a ha => Reads.seq (reads_trans _) fun tr htr => Reads.seq (reads_checkStr _) fun ev hev => ?_
  subst ha
  obtain ⟨w, x, h1, h2, h3⟩ := htr
  refine PPost.bind ((ltabEvent_post o ev s).mono fun e t he => ?_)
  obtain ⟨rfl, he⟩ := he
  split
  · next hn => exact PPost.pure ⟨rfl, a, w, x, ev, rfl, h1, h2, h3, hev, he, rfl, rfl, rfl, hn⟩
  · refine Reads.seq (reads_checkTable _) fun _ _ => Reads.seq (reads_pred H d _) fun p hp => PPost.pure ?_
    exact ⟨rfl, a, w, x, ev, rfl, h1, h2, h3, hev, he, rfl, rfl, rfl, hp⟩

theorem act_post (H : LHeap) (o : Nat) (v : LVal) (s : PS) : PPost (parseLAct H o v) (fun c t => t = s ∧ ActAs H s o v c) s := by
  unfold parseLAct
  refine Reads.seq (reads_asTable v) fun a ha => Reads.seq (reads_trans _) fun tr htr => Reads.seq (reads_checkStr _) fun ev hev => ?_
  subst ha
  obtain ⟨w, x, h1, h2, h3⟩ := htr
  refine PPost.bind ((ltabEvent_post o ev s).mono fun e t he => ?_)
  obtain ⟨rfl, he⟩ := he
  refine Reads.seq (reads_optStr _) fun val hval => ?_
  split
  · next hn => exact PPost.pure ⟨rfl, a, w, x, ev, rfl, h1, h2, h3, hev, he, rfl, hval, .inl ⟨hn, rfl, rfl⟩⟩
  · refine Reads.seq (reads_checkTable _) fun b hb => Reads.seq (reads_optStr _) fun de hde => Reads.seq (reads_optStr _) fun du hdu => PPost.pure ?_
    exact ⟨rfl, a, w, x, ev, rfl, h1, h2, h3, hev, he, rfl, hval, .inr ⟨b, hb, hde, hdu⟩⟩

theorem items_tab {H : LHeap} {a : Nat} : H.items (.tab a) = (H a).map (·.2) := rfl

theorem each_map_left {α β γ : Type} {R : γ → β → Prop} {f : α → γ} {l : List α} {m : List β} (h : Each (fun a b => R (f a) b) l m) : Each R (l.map f) m := by
  induction h with
  | nil => exact .nil
  | cons h _ ih => exact .cons h ih

theorem link_post (H : LHeap) (d o : Nat) (v : LVal) (s : PS) :
    PPost (parseLLink H d o v) (fun _ t => ∃ l, LinkAs H s o v l ∧ t = { s with links := upd s.links o (s.links o ++ [l]) }) s := by
  unfold parseLLink
  refine Reads.seq (reads_checkTable v) fun a ha => Reads.seq (reads_checkTable _) fun c hc => ?_
  subst ha
  refine PPost.bind ((collect_post (R := fun (p : LKey × LVal) b => CondAs H s o p.2 b) fun p _ => cond_post H d o p.2 s).mono fun conds t h1 => ?_)
  obtain ⟨rfl, h1⟩ := h1
  refine Reads.seq (reads_checkTable _) fun c' hc' => ?_
  refine PPost.bind ((collect_post (R := fun (p : LKey × LVal) b => ActAs H t o p.2 b) fun p _ => act_post H o p.2 t).mono fun acts u h2 => ?_)
  obtain ⟨rfl, h2⟩ := h2
  split
  · exact PPost.abort
  · next hne =>
    simp only [not_or] at hne
    refine PPost.modify ⟨⟨conds, acts⟩, ⟨a, rfl, ?_, ?_, hne.1, hne.2⟩, rfl⟩
    · rw [hc, items_tab]; exact each_map_left h1
    · rw [hc', items_tab]; exact each_map_left h2

theorem port_post (o : Nat) (v : LVal) (s : PS) :
    PPost (parseLPort o v) (fun _ t => ∃ e, PortAs s o v e ∧ t = { s with ports := upd s.ports o (if e ∈ s.ports o then s.ports o else s.ports o ++ [e]) }) s := by
  unfold parseLPort
  refine Reads.seq (reads_checkStr v) fun text ht => ?_
  refine PPost.bind ((ltabEvent_post o text s).mono fun e t he => ?_)
  obtain ⟨rfl, he⟩ := he
  split
  · exact PPost.abort
  · next hne => exact PPost.modify ⟨e, ⟨hne, text, ht, he⟩, rfl⟩

theorem rule_post (H : LHeap) (d o : Nat) (v : LVal) (s : PS) :
    PPost (parseLRule H d o v) (fun _ t => ∃ r, RuleAs H s o v r ∧ t = { s with rules := upd s.rules o (s.rules o ++ [r]) }) s := by
  unfold parseLRule
  refine Reads.seq (reads_asTable v) fun a ha => Reads.seq (reads_checkStr _) fun id hid => ?_
  subst ha
  refine PPost.bind (PPost.object fun x hx => PPost.bind (PPost.get ?_))
  refine Reads.seq (reads_checkTable _) fun _ _ => Reads.seq (reads_pred H d _) fun p hp => ?_
  cases hc : childById s.reg x.children id with
  | none => exact PPost.abort
  | some c =>
    obtain ⟨h1, y, h2, h3⟩ := childById_spec hc
    exact PPost.modify ⟨(c, p), ⟨a, x, y, rfl, hx, h1, h2, by rw [hid, h3], hp⟩, rfl⟩

/-! ## The same objects, the same meaning -/

/-- The composition and its children are the same. -/
def SameAt (o : Nat) (s t : PS) : Prop := t.reg.obj o = s.reg.obj o ∧ ∀ x, s.reg.obj o = some x → ∀ c ∈ x.children, t.reg.obj c = s.reg.obj c

theorem SameAt.refl (o : Nat) (s : PS) : SameAt o s s := ⟨rfl, fun _ _ _ _ => rfl⟩
theorem SameAt.of_reg {o : Nat} {s t : PS} (h : t.reg = s.reg) : SameAt o s t := by
  unfold SameAt; rw [h]; exact ⟨rfl, fun _ _ _ _ => rfl⟩

theorem EventAt.same {o : Nat} {s t : PS} (h : SameAt o s t) {text : String} {e : Nat} (he : EventAt s o text e) : EventAt t o text e := by
  obtain ⟨id, ty, ev, x, c, y, h1, h2, h3, h4, h5⟩ := he
  exact ⟨id, ty, ev, x, c, y, h1, h.1.trans h2, h3, (h.2 x h2 c h3).trans h4, h5⟩

theorem each_mono {α β : Type} {R S : α → β → Prop} {l : List α} {m : List β} (h : Each R l m) (hs : ∀ a b, R a b → S a b) : Each S l m := by
  induction h with
  | nil => exact .nil
  | cons h _ ih => exact .cons (hs _ _ h) ih

theorem CondAs.same {H : LHeap} {o : Nat} {s t : PS} (h : SameAt o s t) {v : LVal} {c : Act} (hc : CondAs H s o v c) : CondAs H t o v c := by
  obtain ⟨a, w, x, text, h1, h2, h3, h4, h5, h6, h7⟩ := hc
  exact ⟨a, w, x, text, h1, h2, h3, h4, h5, h6.same h, h7⟩

theorem ActAs.same {H : LHeap} {o : Nat} {s t : PS} (h : SameAt o s t) {v : LVal} {c : Act} (hc : ActAs H s o v c) : ActAs H t o v c := by
  obtain ⟨a, w, x, text, h1, h2, h3, h4, h5, h6, h7⟩ := hc
  exact ⟨a, w, x, text, h1, h2, h3, h4, h5, h6.same h, h7⟩

theorem LinkAs.same {H : LHeap} {o : Nat} {s t : PS} (h : SameAt o s t) {v : LVal} {l : Link} (hl : LinkAs H s o v l) : LinkAs H t o v l := by
  obtain ⟨a, h1, h2, h3, h4⟩ := hl
  exact ⟨a, h1, each_mono h2 fun _ _ => CondAs.same h, each_mono h3 fun _ _ => ActAs.same h, h4⟩

theorem PortAs.same {o : Nat} {s t : PS} (h : SameAt o s t) {v : LVal} {e : Nat} (hp : PortAs s o v e) : PortAs t o v e := by
  obtain ⟨h1, text, h2, h3⟩ := hp
  exact ⟨h1, text, h2, h3.same h⟩

theorem RuleAs.same {H : LHeap} {o : Nat} {s t : PS} (h : SameAt o s t) {v : LVal} {r : Nat × Pred} (hr : RuleAs H s o v r) : RuleAs H t o v r := by
  obtain ⟨a, x, y, h1, h2, h3, h4, h5⟩ := hr
  exact ⟨a, x, y, h1, h.1.trans h2, h3, (h.2 x h2 _ h3).trans h4, h5⟩

/-! ## The loops over ports, links and rules -/

theorem called_post {α : Type} {d : Nat} {m : Nat → PM α} {Q : α → PS → Prop} {s : PS} (h : ∀ d, PPost (m d) Q s) : PPost (called d m) Q s := by
  unfold called
  split
  · exact PPost.err
  · exact h _

theorem eraseDups_snoc (l : List Nat) (e : Nat) : (l ++ [e]).eraseDups = if e ∈ l.eraseDups then l.eraseDups else l.eraseDups ++ [e] := by
  rw [List.eraseDups_append]
  by_cases h : e ∈ l
  · rw [if_pos (List.mem_eraseDups.2 h)]
    simp [List.removeAll, h]
  · rw [if_neg (fun hh => h (List.mem_eraseDups.1 hh))]
    simp [List.removeAll, h, List.eraseDups_cons]

theorem each_snoc {α β : Type} {R : α → β → Prop} {l : List α} {m : List β} {a : α} {b : β} (h : Each R l m) (hab : R a b) : Each R (l ++ [a]) (m ++ [b]) :=
  h.append' (.cons hab .nil)

theorem ports_loop (d o : Nat) : ∀ (l : List (LKey × LVal)) (done : List LVal) (es : List Nat) (s : PS), Each (PortAs s o) done es → s.ports o = es.eraseDups →
    PPost (PM.forEach (fun q => called d fun _ => parseLPort o q.2) l) (fun _ t => ∃ P es, t = { s with ports := upd s.ports o P } ∧
      P = es.eraseDups ∧ Each (PortAs s o) (done ++ l.map (·.2)) es) s
  | [], done, es, s, h, hp => PPost.pure' ⟨_, es, by rw [← hp, upd_self _ _ _ rfl], rfl, by simpa using h⟩
  | q :: l, done, es, s, h, hp => by
    refine PPost.bind' (called_post (fun _ => port_post o q.2 s) |>.mono fun _ t ht => ?_)
    obtain ⟨e, he, rfl⟩ := ht
    have hs : SameAt o s { s with ports := upd s.ports o (if e ∈ s.ports o then s.ports o else s.ports o ++ [e]) } := SameAt.of_reg rfl
    refine (ports_loop d o l (done ++ [q.2]) (es ++ [e]) _ ?_ ?_).mono fun _ t ht => ?_
    · exact each_mono (each_snoc h he) fun _ _ => PortAs.same hs
    · rw [eraseDups_snoc, ← hp]; simp [upd]
    · obtain ⟨P, es', rfl, h2, h3⟩ := ht
      refine ⟨P, es', ?_, h2, ?_⟩
      · simp [upd_upd]
      · have := each_mono h3 fun _ _ => PortAs.same (t := s) (SameAt.of_reg rfl)
        simpa using this

theorem links_loop (H : LHeap) (d o : Nat) : ∀ (l : List (LKey × LVal)) (done : List LVal) (s : PS), Each (LinkAs H s o) done (s.links o) →
    PPost (PM.forEach (fun q => called d fun d => parseLLink H d o q.2) l) (fun _ t => ∃ L, t = { s with links := upd s.links o L } ∧
      Each (LinkAs H s o) (done ++ l.map (·.2)) L) s
  | [], done, s, h => PPost.pure' ⟨_, by rw [upd_self _ _ _ rfl], by simpa using h⟩
  | q :: l, done, s, h => by
    refine PPost.bind' (called_post (fun d => link_post H d o q.2 s) |>.mono fun _ t ht => ?_)
    obtain ⟨e, he, rfl⟩ := ht
    refine (links_loop H d o l (done ++ [q.2]) _ ?_).mono fun _ t ht => ?_
    · have := each_mono (each_snoc h he) fun _ _ => LinkAs.same (t := { s with links := upd s.links o (s.links o ++ [e]) }) (SameAt.of_reg rfl)
      simpa [upd] using this
    · obtain ⟨P, rfl, h3⟩ := ht
      refine ⟨P, by simp [upd_upd], ?_⟩
      have := each_mono h3 fun _ _ => LinkAs.same (t := s) (SameAt.of_reg rfl)
      simpa using this

theorem rules_loop (H : LHeap) (d o : Nat) : ∀ (l : List (LKey × LVal)) (done : List LVal) (s : PS), Each (RuleAs H s o) done (s.rules o) →
    PPost (PM.forEach (fun q => parseLRule H d o q.2) l) (fun _ t => ∃ L, t = { s with rules := upd s.rules o L } ∧
      Each (RuleAs H s o) (done ++ l.map (·.2)) L) s
  | [], done, s, h => PPost.pure' ⟨_, by rw [upd_self _ _ _ rfl], by simpa using h⟩
  | q :: l, done, s, h => by
    refine PPost.bind' ((rule_post H d o q.2 s) |>.mono fun _ t ht => ?_)
    obtain ⟨e, he, rfl⟩ := ht
    refine (rules_loop H d o l (done ++ [q.2]) _ ?_).mono fun _ t ht => ?_
    · have := each_mono (each_snoc h he) fun _ _ => RuleAs.same (t := { s with rules := upd s.rules o (s.rules o ++ [e]) }) (SameAt.of_reg rfl)
      simpa [upd] using this
    · obtain ⟨P, rfl, h3⟩ := ht
      refine ⟨P, by simp [upd_upd], ?_⟩
      have := each_mono h3 fun _ _ => RuleAs.same (t := s) (SameAt.of_reg rfl)
      simpa using this

end Ginga
