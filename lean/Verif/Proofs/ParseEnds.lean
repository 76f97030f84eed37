import Verif.Proofs.ReferM
/-!
# The parser ends

With finitely many readable files, `processNode` settles: nested elements are finitely many, and an import reads a file that is not being read already.
-/
namespace Ginga

/-- A function that settles, with a postcondition. -/
structure SP {α : Type} (p : Nat → PM α) (Q : α → PS → Prop) (s : PS) : Prop where
  ends : PSettles p s
  post : ∀ n, PPost (p n) Q s

section
variable {α β : Type} {s : PS}
theorem SP.pnf {m : PM α} {Q : α → PS → Prop} (h : PNF m) (h' : PPost m Q s) : SP (fun _ => m) Q s := ⟨h.settles, fun _ => h'⟩
theorem SP.bind {p : Nat → PM α} {q : Nat → α → PM β} {Q : β → PS → Prop} (h : SP p (fun a t => SP (fun n => q n a) Q t) s) : SP (fun n => p n >>= q n) Q s :=
  ⟨h.ends.bind fun n a t ht => (h.post n a t ht).ends, fun n => PPost.bind ((h.post n).mono fun a _ h => h.post n)⟩
theorem SP.bindP {m : PM α} {q : Nat → α → PM β} {Q : β → PS → Prop} (h : PNF m) (h' : PPost m (fun a t => SP (fun n => q n a) Q t) s) : SP (fun n => m >>= q n) Q s :=
  SP.bind (p := fun _ => m) (SP.pnf h h')
theorem SP.ite {c : Prop} [Decidable c] {p q : Nat → PM α} {Q : α → PS → Prop} (h : c → SP p Q s) (h' : ¬ c → SP q Q s) : SP (fun n => if c then p n else q n) Q s := by
  by_cases hc : c
  · simp only [if_pos hc]; exact h hc
  · simp only [if_neg hc]; exact h' hc
theorem SP.settles {p : Nat → PM α} {q : Nat → α → PM β} (h : SP p (fun a t => PSettles (fun n => q n a) t) s) : PSettles (fun n => p n >>= q n) s :=
  h.ends.bind fun n a t ht => h.post n a t ht
end

theorem settles_forEach {K : List Note → List Nat → PS → Prop} {S : List Nat} {E : PRead} {scr : Rect} {z0 : Nat} {pt : Option String} {par : Option Nat} {O : List Nat} {f : Nat → Xml → PM Unit} :
    ∀ (xs : List Xml), ∀ (g : List Note) (s : PS),
    (∀ x ∈ xs, ∀ (l : List Note) s', InvK K E scr z0 (g ++ l) O S s' → Ctx scr (g ++ l) par s' → s'.aliases = s.aliases →
      PSettles (fun n => f n x) s' ∧ ∀ n, PPost (f n x) (fun _ t => ∃ ns, Done K E scr z0 pt par (g ++ l) O S [x] ns s' t) s') →
    InvK K E scr z0 g O S s → Ctx scr g par s → PSettles (fun n => PM.forEach (f n) xs) s
  | [], g, s, _, _, _ => (PNF.pure' ()).settles
  | x :: xs, g, s, hf, hi, hc => by
    have h0 := hf x (by simp) [] s (by rw [List.append_nil]; exact hi) (by rw [List.append_nil]; exact hc) rfl
    rw [List.append_nil] at h0
    refine PSettles.bind (q := fun n _ => PM.forEach (f n) xs) h0.1 fun n a t ht => ?_
    obtain ⟨n1, hd1⟩ := h0.2 n a t ht
    refine settles_forEach (pt := pt) xs (g ++ n1) t ?_ hd1.inv (hc.next n1 hd1.conn hd1.rects)
    intro y hy l u hi' hc' hal
    have := hf y (by simp [hy]) (n1 ++ l) u (by rw [← List.append_assoc]; exact hi') (by rw [← List.append_assoc]; exact hc') (hal.trans hd1.aliases)
    rw [← List.append_assoc] at this
    exact this

theorem push_proc (E : PRead) (p p' : Xml → PM Unit) (f : Push) (k : Nat) (h : f ≠ .importBase) : push E p f k = push E p' f k := by
  cases f with
  | importBase => exact absurd rfl h
  | _ => rfl

/-- One element, given its children and what it imports. -/
theorem processNode_step {K : List Note → List Nat → PS → Prop} (E : PRead) (scr : Rect) (z0 : Nat) (hR : Rides E scr z0 K) (huri : ∀ a b, E.importUri a b ≠ .fuel)
    (hpop : ∀ g O S s k f, InvK K E scr z0 g O S s → f ≠ .ncl → PSettles (fun n => pop E n f k) s)
    (par : Option Nat) (pt : Option String) (x : Xml) (s : PS) (g : List Note)
    (O S : List Nat) (hx : x.tag ≠ "ncl") (hi : InvK K E scr z0 g O S s) (hctx : Ctx scr g par s) (hpt : ∀ p m, par = some p → g[p]? = some m → pt = some m.tag)
    (hS : ∀ p, par = some p → S.head? = some p) (htop : par = none → pt = some "head")
    (kids : ∀ (c : Xml) (u : PS) (g : List Note) (O S : List Nat) (par : Option Nat) (pt : Option String), c ∈ x.children → c.tag ≠ "ncl" → u.aliases = s.aliases → InvK K E scr z0 g O S u → Ctx scr g par u →
      (∀ p m, par = some p → g[p]? = some m → pt = some m.tag) → (∀ p, par = some p → S.head? = some p) → (par = none → pt = some "head") → PSettles (fun n => processNode E n par pt c) u)
    (imported : ∀ (a : String) (c : Xml) (u : PS) (g : List Note) (O S : List Nat), (∀ q ∈ s.aliases, q.2 ≠ a) → (E.file a).isSome → c.tag ≠ "ncl" → u.aliases.map Prod.snd = s.aliases.map Prod.snd ++ [a] →
      InvK K E scr z0 g O S u → Ctx scr g none u → PSettles (fun n => processNode E n none (some "head") c) u) :
    PSettles (fun n => processNode E n par pt x) s := by
  refine PSettles.succ ?_
  unfold processNode
  refine PSettles.bindP (PNF.check _ _ _) (PPost.check fun e r y hc => PSettles.bindP (PNF.newElt _ _ _) (PPost.newElt ?_))
  dsimp only
  have hattrs := checkNode_attrs hc
  obtain ⟨hsyn, -, hwf⟩ := checkNode_ok hc
  obtain ⟨hwf, -⟩ := hwf rfl
  obtain ⟨hmem, htag⟩ := syntaxOf_mem hsyn
  obtain ⟨tb1, tb2, -, tb4, tb5, tb6, tb7⟩ := pushOf_tables e hmem
  rw [htag] at tb1 tb2 tb4 tb5 tb6 tb7
  have hpushof : pushOf x.tag = e.push := by unfold pushOf; rw [hsyn]
  have hlen := hi.j.len
  have hparents : ∀ p, par = some p → ∃ m, g[p]? = some m ∧ m.tag ∈ e.parents := by
    intro p hp
    have hl := hctx.lt p hp
    refine ⟨g[p], List.getElem?_eq_getElem hl, ?_⟩
    have := hpt p g[p] hp (List.getElem?_eq_getElem hl)
    obtain ⟨e', he', het', hpo, -⟩ := hwf.entry
    have hee : e' = e := by
      have hnd : ∀ a ∈ syntaxTable, ∀ b ∈ syntaxTable, a.tag = b.tag → a = b := by decide +kernel
      exact hnd e' he' e hmem (het'.trans htag.symm)
    subst hee
    obtain ⟨q, hq, hq2⟩ := hpo fun hc => hx (tb7.1 hc)
    have hq2 : pt = some q := hq2
    rw [this] at hq2
    obtain rfl : (g[p]).tag = q := by simpa using hq2
    exact hq
  have hs2 : ∃ s2 : PS, s2 = { s with syn := y, elt := upd s.elt s.nelt { tag := x.tag, parent := par, attrs := r }, nelt := s.nelt + 1 } :=
    ⟨_, rfl⟩
  obtain ⟨s2, hs2⟩ := hs2
  rw [show ({ ({ s with syn := y } : PS) with elt := upd s.elt s.nelt { tag := x.tag, parent := par, attrs := r }, nelt := s.nelt + 1 } : PS) = s2
    from hs2.symm]
  have helt2 : s2.elt = upd s.elt s.nelt { tag := x.tag, parent := par, attrs := r } := by rw [hs2]
  have hek : s2.elt s.nelt = { tag := x.tag, parent := par, attrs := r } := by rw [helt2]; exact upd_same _ _ _
  -- what follows a push function with its effect
  have step : ∀ t, Pushed E e.push s2 t s.nelt → ∃ nt : Note, nt.pre = aliasPrefix s.aliases ∧ nt.parent = par ∧ nt.xml = x ∧
      J E scr z0 (g ++ [nt]) t ∧ (∃ π, PI (g ++ [nt]) (if nt.tag = "assessmentStatement" then s.nelt :: O else O) π t) ∧
      Ctx scr (g ++ [nt]) (some s.nelt) t ∧ (t.rects = if x.tag = "region" then nt.rect :: s.rects else s.rects) ∧ nt.attrs = r ∧ NewElt E scr z0 g S s s2 par pt x e r y nt := by
    intro t ht
    obtain ⟨nt, h1, h2, h3, h4, h5, h6, h7, h8, h9⟩ := hi.j.push hsyn hattrs hparents helt2 (by rw [hs2]) (by rw [hs2]; exact hctx.conn)
      (by rw [hs2]; exact hctx.rect) (by rw [hs2]; exact hctx.last) (by rw [hs2]) ht
    have htg : nt.tag = x.tag := by unfold Note.tag; rw [h3]
    have hnp : nt.push = e.push := by unfold Note.push; rw [htg]; exact hpushof
    have hbase : nt.base = { tag := x.tag, parent := par, attrs := r } := by unfold Note.base; rw [htg, h2, h4]
    obtain ⟨π, hπ⟩ := hi.pi
    have hpi := hπ.push hi.j (n := nt) (s2 := s2) (t := t) (by rw [helt2, hbase]) (by rw [hs2]) (by rw [hs2])
      (fun p hp => hctx.lt p (h2 ▸ hp)) (by rw [htg, hsyn]; rfl) (by rw [hnp]; exact ht)
    refine ⟨nt, h1, h2, h3, h5, hpi, ⟨h6.symm, h7, h8, fun p hp => ?_⟩, ?_, h4,
      hi.j, hc, fun p hp => ⟨hctx.lt p hp, hS p hp, hparents p hp⟩, fun h => .inr ⟨htop h, hx⟩, hs2, h1, h2, h3, h4⟩
    · obtain rfl : s.nelt = p := by simpa using hp
      simp; omega
    · rw [h9, hs2]
  -- from the push function on
  have rest : ∀ (nt : Note) (li : List Note) (t : PS), nt.xml = x →
      InvK K E scr z0 (g ++ nt :: li) (if nt.tag = "assessmentStatement" then s.nelt :: O else O) (s.nelt :: S) t → Ctx scr (g ++ nt :: li) (some s.nelt) t →
      t.aliases = s.aliases →
      PSettles (fun n => do
        PM.forEach (processNode E n (some s.nelt) (some x.tag)) x.children
        pop E n e.pop s.nelt : Nat → PM Unit) t := by
    intro nt li t h3 hinv hcx hal
    have htg : nt.tag = x.tag := by unfold Note.tag; rw [h3]
    have hg : (g ++ nt :: li)[s.nelt]? = some nt := by rw [← hlen]; simp
    have hcn : ∀ c ∈ x.children, c.tag ≠ "ncl" := by
      intro c hcm hnc
      obtain ⟨e', he', het, hem⟩ := hwf.children c hcm
      have := (pushOf_tables e' he').2.2.2.2.2.2.2 (het.trans hnc)
      rw [this] at hem
      simp at hem
    have hcm' : ∀ l (p : Nat) m, some s.nelt = some p → (g ++ nt :: li ++ l)[p]? = some m → some x.tag = some m.tag := by
      intro l p m hp hm
      obtain rfl : s.nelt = p := by simpa using hp
      rw [List.getElem?_append_left (getElem?_lt hg), hg] at hm
      obtain rfl : nt = m := by simpa using hm
      rw [htg]
    refine PSettles.bind (settles_forEach (pt := some x.tag) x.children (g ++ nt :: li) t ?_ hinv hcx) fun n _ u hu => ?_
    · intro c hcm l u hi' hc' hal'
      refine ⟨kids c u _ _ _ (some s.nelt) (some x.tag) hcm (hcn c hcm) (hal'.trans hal) hi' hc' (hcm' l) (by simp) (by simp), fun n => ?_⟩
      exact processNode_laid E scr z0 hR n (some s.nelt) (some x.tag) c u _ _ _ (hcn c hcm) hi' hc' (hcm' l) (by simp) (by simp)
    · obtain ⟨lc, hd⟩ := laid_forEach (pt := some x.tag) x.children (g ++ nt :: li) t (fun c hcm l v hi' hc' =>
        processNode_laid E scr z0 hR n (some s.nelt) (some x.tag) c v _ _ _ (hcn c hcm) hi' hc' (hcm' l) (by simp) (by simp)) hinv hcx _ u hu
      exact hpop _ _ _ u s.nelt e.pop hd.inv (fun hc => hx (tb6.1 hc))
  by_cases himp : e.push = .importBase
  · -- an import
    have htg : x.tag = "importBase" := htag ▸ (table_push e hmem).1 himp
    obtain ⟨nt, h1, h2, h3, hj, hpi, hcx, hrec, h4, hnew⟩ := step s2 (by
      rw [himp]
      exact .of_same (.refl s2) (fun _ _ _ => rfl) (fun _ _ _ => rfl) (fun _ _ => rfl) (by decide) (by decide) (fun _ _ => rfl))
    have hnt : nt.tag = x.tag := by unfold Note.tag; rw [h3]
    have hgk : (g ++ [nt])[s.nelt]? = some nt := by rw [← hlen]; simp
    have hnas : nt.tag ≠ "assessmentStatement" := by rw [hnt, htg]; decide
    rw [if_neg hnas] at hpi
    have hinv2 : InvK K E scr z0 (g ++ [nt]) O (s.nelt :: S) s2 := ⟨hj, (hi.kc.congr (by rw [hs2])).addImport (hnt.trans htg), hpi,
      hR.imp _ _ _ _ _ _ _ _ _ _ _ hnew hi.k himp⟩
    have hnc : nt.conn = none := by
      cases hcn : nt.conn with
      | none => rfl
      | some c =>
        have := hj.connTag (s.nelt + 1) s.nelt nt (by omega) hgk (by rw [hcn]; simp)
        rw [hnt, htg] at this
        exact absurd this (by decide)
    have hnr : nt.rect = scr := by
      apply Classical.byContradiction
      intro hne
      have := hj.rectTag (s.nelt + 1) s.nelt nt (by omega) hgk hne
      rw [hnt, htg] at this
      exact absurd this (by decide)
    rw [himp]
    refine SP.settles (p := fun n => pushImportBase E (processNode E n none (some "head")) s.nelt) (q := fun n _ => (do
      cacheIf e s.nelt
      PM.forEach (processNode E n (some s.nelt) (some x.tag)) x.children
      pop E n e.pop s.nelt : PM Unit)) ?_
    unfold pushImportBase
    refine SP.bindP (PNF.parentElt _) (PPost.parentElt fun p hp _ => SP.bindP (PNF.attr! _ _) (PPost.attr! fun a ha => SP.bindP (PNF.attr! _ _) (PPost.attr! fun d hd =>
      SP.bindP PNF.get (PPost.get (SP.bindP (PNF.res (huri _ _)) (PPost.res fun u hu => ?_))))))
    refine SP.ite (fun _ => SP.pnf PNF.err PPost.err) fun hany => ?_
    refine SP.bindP (PNF.modify _) (PPost.modify (SP.bindP (PNF.orErr _) (PPost.orErr fun root hroot => SP.bindP (PNF.check _ _ _) (PPost.check fun e1 r1 y1 hc1 => ?_))))
    rcases hhead : root.findAll "head" with _ | ⟨head, hl⟩
    · exact SP.pnf PNF.err PPost.err
    refine SP.bindP (PNF.check _ _ _) (PPost.check fun e2 r2 y2 hc2 => ?_)
    dsimp only
    refine SP.ite (fun _ => SP.pnf PNF.err PPost.err) fun _ => ?_
    have hpar : par = some p := by rw [hek] at hp; exact hp
    have hpl := hctx.lt p hpar
    have hptag : (s2.elt p).tag = (g[p]).tag := by
      rw [helt2, upd_ne _ _ (by omega)]
      exact (hi.j.tag (List.getElem?_eq_getElem hpl)).1
    have hbase : (g[p]).tag ∈ ["connectorBase", "descriptorBase", "regionBase", "ruleBase", "transitionBase", "fontBase"] := by
      obtain ⟨m, hm, hme⟩ := hparents p hpar
      rw [List.getElem?_eq_getElem hpl] at hm
      obtain rfl : g[p] = m := by simpa using hm
      exact (table_bases e hmem).2 (htag.trans htg) _ hme
    have hal2 : s2.aliases = s.aliases := by rw [hs2]
    have hinv2' : InvK K E scr z0 (g ++ [nt]) O (s.nelt :: S) ({ s2 with syn := y2, aliases := s2.aliases ++ [(a, u)] } : PS) :=
      ⟨hinv2.j.congr rfl rfl rfl, hinv2.kc.congr rfl, hinv2.pi.imp fun π hp => hp.congr (fun _ => rfl) (fun _ => rfl) (fun _ => rfl) rfl rfl,
        hR.same _ _ s2 y2 _ s2.cache (fun i hi => (checkNode_ok hc2).2.1 i ((checkNode_ok hc1).2.1 i hi)) hinv2.k⟩
    have hcn : ∀ c ∈ importedBases head (s2.elt p).tag, c.tag ≠ "ncl" := by
      intro c hcm
      unfold importedBases at hcm
      have hft : ∀ tag, c ∈ head.findAll tag → c.tag = tag := by
        intro tag hm
        have := (List.mem_filter.1 hm).2
        simpa using this
      intro hcn
      rcases List.mem_append.1 hcm with hcm | hcm
      · have := hft _ hcm
        rw [hptag] at this
        rw [← this, hcn] at hbase
        exact absurd hbase (by decide)
      · split at hcm
        · rcases List.mem_append.1 hcm with hcm | hcm
          · have := hft _ hcm; rw [hcn] at this; exact absurd this (by decide)
          · have := hft _ hcm; rw [hcn] at this; exact absurd this (by decide)
        · simp at hcm
    have hctx2 : Ctx scr (g ++ [nt]) none ({ s2 with syn := y2, aliases := s2.aliases ++ [(a, u)] } : PS) := by
      refine ⟨?_, ?_, hcx.last, by simp⟩
      · have := hcx.conn
        simp only [connFor, hgk, hnt, htg] at this
        rw [if_neg (by decide), hnc] at this
        exact this
      · have := hcx.rect
        simp only [rectFor, hgk, hnr] at this
        exact this
    have hnotin : ∀ q ∈ s.aliases, q.2 ≠ u := fun q hq hqu => hany (List.any_eq_true.2 ⟨q, hal2 ▸ hq, by simpa using hqu⟩)
    have hlaid : ∀ n c, c ∈ importedBases head (s2.elt p).tag → ∀ (l : List Note) v, InvK K E scr z0 (g ++ [nt] ++ l) O (s.nelt :: S) v → Ctx scr (g ++ [nt] ++ l) none v →
        PPost (processNode E n none (some "head") c) (fun _ t => ∃ ns, Done K E scr z0 (some "head") none (g ++ [nt] ++ l) O (s.nelt :: S) [c] ns v t) v := fun n c hcm l v hi' hc' =>
      processNode_laid E scr z0 hR n none (some "head") c v _ _ _ (hcn c hcm) hi' hc' (by simp) (by simp) (fun _ => rfl)
    refine SP.bind (p := fun n => PM.forEach (processNode E n none (some "head")) (importedBases head (s2.elt p).tag)) (q := fun _ _ => PM.modify fun s => { s with aliases := s.aliases.dropLast }) ⟨?_, fun n => ?_⟩
    · refine settles_forEach (pt := some "head") (par := none) (scr := scr) (z0 := z0) (O := O) (S := s.nelt :: S) (K := K) (E := E)
        (importedBases head (s2.elt p).tag) (g ++ [nt]) ({ s2 with syn := y2, aliases := s2.aliases ++ [(a, u)] } : PS) ?_ hinv2' hctx2
      intro c hcm l v hi' hc' hal'
      refine ⟨imported u c v _ _ _ hnotin (by rw [hroot]; simp) (hcn c hcm) ?_ hi' hc', fun n => hlaid n c hcm l v hi' hc'⟩
      rw [hal']; show (s2.aliases ++ [(a, u)]).map Prod.snd = _; rw [hal2]; simp
    refine (laid_forEach (f := processNode E n none (some "head")) (pt := some "head") (par := none) (scr := scr) (z0 := z0) (O := O) (S := s.nelt :: S) (K := K) (E := E)
      (importedBases head (s2.elt p).tag) (g ++ [nt]) ({ s2 with syn := y2, aliases := s2.aliases ++ [(a, u)] } : PS) (hlaid n)
      hinv2' hctx2).mono ?_
    · rintro _ t ⟨li, hd'⟩
      refine SP.pnf (PNF.modify _) (PPost.modify ?_)
      have hsp : g ++ [nt] ++ li = g ++ nt :: li := by simp
      have hinv3 := hd'.inv
      rw [hsp] at hinv3
      have hg3 : (g ++ nt :: li)[s.nelt]? = some nt := by rw [← hlen]; simp
      have hcx3 : Ctx scr (g ++ nt :: li) (some s.nelt) t := by
        have := hcx.next li hd'.conn hd'.rects
        rw [hsp] at this
        exact this
      have hal3 : t.aliases.dropLast = s.aliases := by
        rw [hd'.aliases]
        show (s2.aliases ++ [(a, u)]).dropLast = _
        rw [hal2]; simp
      have hfin : ∀ t', t'.aliases = s.aliases → InvK K E scr z0 (g ++ nt :: li) O (s.nelt :: S) t' → Ctx scr (g ++ nt :: li) (some s.nelt) t' →
          PSettles (fun n => do
            PM.forEach (processNode E n (some s.nelt) (some x.tag)) x.children
            pop E n e.pop s.nelt : Nat → PM Unit) t' := by
        intro t' hal' hinv' hcx'
        exact rest nt li t' h3 (by rw [if_neg hnas]; exact hinv') hcx' hal'
      refine PSettles.bindP (PNF.cacheIf _ _) ?_
      unfold cacheIf
      split
      · refine PPost.cacheAdd fun _ => ?_
        refine hfin _ hal3 ?_ ⟨hcx3.conn, hcx3.rect, hcx3.last, hcx3.lt⟩
        refine ⟨hinv3.j.congr rfl rfl rfl, ?_, hinv3.pi.imp fun π hp => hp.congr (fun _ => rfl) (fun _ => rfl) (fun _ => rfl) rfl rfl,
          hR.same _ _ t t.syn t.aliases.dropLast _ (fun _ h => h) hinv3.k⟩
        exact KC.cacheImport (hinv3.kc.congr (t := { t with aliases := t.aliases.dropLast }) rfl) (by unfold tagAt; rw [hg3]; exact hnt.trans htg)
      · refine PPost.pure ?_
        exact hfin _ hal3 ⟨hinv3.j.congr rfl rfl rfl, hinv3.kc.congr rfl, hinv3.pi.imp fun π hp => hp.congr (fun _ => rfl) (fun _ => rfl) (fun _ => rfl) rfl rfl,
          hR.same _ _ t t.syn t.aliases.dropLast t.cache (fun _ h => h) hinv3.k⟩ ⟨hcx3.conn, hcx3.rect, hcx3.last, hcx3.lt⟩
  · -- other elements
    have htg : x.tag ≠ "importBase" := fun hc => himp ((table_push e hmem).2.1 (htag.trans hc))
    have hsame : ∀ n, push E (processNode E n none (some "head")) e.push s.nelt = push E (fun _ => pure ()) e.push s.nelt :=
      fun n => push_proc E _ _ e.push s.nelt himp
    refine PSettles.bind (p := fun n => push E (processNode E n none (some "head")) e.push s.nelt) (q := fun n _ => (do
      cacheIf e s.nelt
      PM.forEach (processNode E n (some s.nelt) (some x.tag)) x.children
      pop E n e.pop s.nelt : PM Unit)) ((PSettles.const ((PNF.push E (fun _ => pure ()) e.push s.nelt himp).ne s2)).congr hsame) fun n a0 t hrun => ?_
    revert a0 t hrun
    refine (PPost.and (push_pushed E (processNode E n none (some "head")) e.push s.nelt s2 himp ?_ ?_) (fun _ _ ha => ha)).mono ?_
    · rw [hek]
      intro hc
      have := hctx.lt _ hc
      omega
    · rw [hs2]
      show s.conn ≠ _
      rw [hctx.conn]
      intro hc
      cases hp : par with
      | none => rw [hp] at hc; simp [connFor] at hc
      | some p =>
        obtain ⟨m, hm, -⟩ := hparents p hp
        have hpl := getElem?_lt hm
        rw [hp] at hc
        simp only [connFor, hm] at hc
        split at hc
        · have : p = s.nelt := by simpa using hc
          omega
        · have := (hi.j.ok p m hm).connLt _ hc
          omega
    · rintro a0 t ⟨ht, hrun⟩
      obtain ⟨nt, h1, h2, h3, hj, hpi, hcx, hrec, h4, hnew⟩ := step t ht
      have hnt : nt.tag = x.tag := by unfold Note.tag; rw [h3]
      have hct : cachedTag nt.tag = e.cache := by
        unfold cachedTag
        rw [hnt, hsyn]
        simp [htg]
      have hca : t.cache = s.cache := by rw [ht.cache, hs2]
      have hal : t.aliases = s.aliases := by rw [ht.aliases, hs2]
      have hfin : ∀ t', t'.aliases = s.aliases → t'.rects = t.rects → KC (g ++ [nt]) t' → t'.nelt = t.nelt → t'.elt = t.elt → t'.zorder = t.zorder →
          t'.pnode = t.pnode → t'.npred = t.npred → t'.conn = t.conn → K (g ++ [nt]) (s.nelt :: S) t' → PSettles (fun n => do
            PM.forEach (processNode E n (some s.nelt) (some x.tag)) x.children
            pop E n e.pop s.nelt : Nat → PM Unit) t' := by
        intro t' hal' hrec' hkc a1 a2 a3 a4 a5 a6 a7
        exact rest nt [] t' h3 ⟨hj.congr a1 a2 a3, hkc, hpi.imp fun π hp => hp.congr (fun _ => by rw [a2]) (fun _ => by rw [a2]) (fun _ => by rw [a2]) a4 a5, a7⟩
          ⟨by rw [a6]; exact hcx.conn, by rw [hrec']; exact hcx.rect, by rw [hrec']; exact hcx.last, hcx.lt⟩ hal'
      have hk := hR.push _ _ _ _ _ _ _ _ _ _ _ _ _ _ hnew hi.k himp hrun ht hj
      refine PSettles.bindP (PNF.cacheIf _ _) ?_
      unfold cacheIf
      split
      · rename_i hcc
        refine PPost.cacheAdd fun _ => ?_
        refine hfin _ hal rfl ?_ rfl rfl rfl rfl rfl rfl (hR.same _ _ t t.syn t.aliases _ (fun _ h => h) hk)
        refine hi.kc.add (hnt ▸ htg) ?_
        rw [hct, if_pos hcc, hlen, ← hca]
      · rename_i hcc
        refine PPost.pure ?_
        refine hfin _ hal rfl ?_ rfl rfl rfl rfl rfl rfl hk
        refine hi.kc.add (hnt ▸ htg) ?_
        rw [hct, if_neg hcc, ← hca]


/-- The readable files that are not being read. -/
def unread (L : List String) (al : List (String × String)) : Nat := L.countP fun u => decide (u ∉ al.map Prod.snd)

theorem countP_less {α : Type} {p q : α → Bool} (h : ∀ a, q a = true → p a = true) {a : α} (ha : p a = true) (ha' : q a = false) : ∀ {l : List α}, a ∈ l → l.countP q < l.countP p
  | [], hm => by cases hm
  | b :: l, hm => by
    have hle : l.countP q ≤ l.countP p := List.countP_mono_left fun x _ => h x
    rw [List.countP_cons, List.countP_cons]
    rcases List.mem_cons.1 hm with rfl | hm
    · rw [if_pos ha, if_neg (by rw [ha']; decide)]; omega
    · have := countP_less h ha ha' hm
      by_cases hq : q b = true
      · rw [if_pos hq, if_pos (h b hq)]; omega
      · rw [if_neg hq]; split <;> omega

theorem unread_less {L : List String} {al al' : List (String × String)} {a : String} (ha : a ∈ L) (hn : ∀ q ∈ al, q.2 ≠ a) (he : al'.map Prod.snd = al.map Prod.snd ++ [a]) :
    unread L al' < unread L al := by
  refine countP_less (a := a) ?_ ?_ ?_ ha
  · intro b hb
    rw [he] at hb
    simp at hb ⊢
    exact fun c hc => hb.1 c hc
  · simp; exact fun c hc => hn (c, a) hc rfl
  · rw [he]; simp

theorem processNode_settles {K : List Note → List Nat → PS → Prop} (E : PRead) (scr : Rect) (z0 : Nat) (hR : Rides E scr z0 K) (huri : ∀ a b, E.importUri a b ≠ .fuel)
    (hpop : ∀ g O S s k f, InvK K E scr z0 g O S s → f ≠ .ncl → PSettles (fun n => pop E n f k) s) (L : List String) (hL : ∀ u, (E.file u).isSome → u ∈ L) :
    ∀ (M : Nat) (N : Nat) (par : Option Nat) (pt : Option String) (x : Xml) (s : PS) (g : List Note) (O S : List Nat), sizeOf x ≤ N → unread L s.aliases ≤ M →
      x.tag ≠ "ncl" → InvK K E scr z0 g O S s → Ctx scr g par s → (∀ p m, par = some p → g[p]? = some m → pt = some m.tag) →
      (∀ p, par = some p → S.head? = some p) → (par = none → pt = some "head") → PSettles (fun n => processNode E n par pt x) s := by
  intro M
  induction M with
  | zero =>
    intro N
    induction N with
    | zero => intro par pt x s g O S hN; cases x; simp at hN
    | succ N ihN =>
      intro par pt x s g O S hN hM hx hi hctx hpt hS htop
      refine processNode_step E scr z0 hR huri hpop par pt x s g O S hx hi hctx hpt hS htop ?_ ?_
      · intro c u g O S par pt hc hcx hal h1 h2 h3 h4 h5
        refine ihN par pt c u g O S ?_ (by rw [hal]; exact hM) hcx h1 h2 h3 h4 h5
        cases x with
        | elem t a cs => have := List.sizeOf_lt_of_mem (show c ∈ cs from hc); simp at hN; omega
      · intro a c u g O S hn ha hcx he h1 h2
        have := unread_less (hL a ha) hn he
        omega
  | succ M ihM =>
    intro N
    induction N with
    | zero => intro par pt x s g O S hN; cases x; simp at hN
    | succ N ihN =>
      intro par pt x s g O S hN hM hx hi hctx hpt hS htop
      refine processNode_step E scr z0 hR huri hpop par pt x s g O S hx hi hctx hpt hS htop ?_ ?_
      · intro c u g O S par pt hc hcx hal h1 h2 h3 h4 h5
        refine ihN par pt c u g O S ?_ (by rw [hal]; exact hM) hcx h1 h2 h3 h4 h5
        cases x with
        | elem t a cs => have := List.sizeOf_lt_of_mem (show c ∈ cs from hc); simp at hN; omega
      · intro a c u g O S hn ha hcx he h1 h2
        have := unread_less (hL a ha) hn he
        exact ihM (sizeOf c) none (some "head") c u g O S (Nat.le_refl _) (by omega) hcx h1 h2 (by simp) (by simp) (fun _ => rfl)

/-- The whole document. -/
theorem root_settles {E : PRead} (hinj : ∀ i j, E.addr i = E.addr j → i = j) (huri : ∀ a b, E.importUri a b ≠ .fuel) (L : List String) (hL : ∀ u, (E.file u).isSome → u ∈ L)
    (W H : Int) (z : Nat) (x : Xml) {reg : Reg} (hr : newDoc (E.addr 0) (E.addr 1) (E.addr 2) (E.addr 3) (E.addr 4) = .ok reg) :
    PSettles (fun n => processNode E n none none x) (PS.init W H z reg 5) := by
  have hR := settleK_rides hinj ⟨0, 0, W, H⟩ z
  have hpopS : ∀ g O S s k f, InvK (SettleK E) E ⟨0, 0, W, H⟩ z g O S s → f ≠ .ncl → PSettles (fun n => pop E n f k) s := fun g O S s k f h hf => pop_settles hinj h.k.refs f k hf
  have hi := InvK.init E W H z reg 5 (settleK_init hinj W H z hr)
  have hctx := Ctx.init W H z reg 5
  have hs0 : (PS.init W H z reg 5).nelt = 0 := rfl
  have hs1 : (PS.init W H z reg 5).aliases = [] := rfl
  have hs3 : (PS.init W H z reg 5).cache = [] := rfl
  generalize PS.init W H z reg 5 = s at hi hctx hs0 hs1 hs3
  refine PSettles.succ ?_
  unfold processNode
  refine PSettles.bindP (PNF.check _ _ _) (PPost.check fun e r y hc => PSettles.bindP (PNF.newElt _ _ _) (PPost.newElt ?_))
  dsimp only
  have hattrs := checkNode_attrs hc
  obtain ⟨hsyn, -, hwf⟩ := checkNode_ok hc
  obtain ⟨hwf, -⟩ := hwf rfl
  obtain ⟨hmem, htag⟩ := syntaxOf_mem hsyn
  obtain ⟨tb1, tb2, -, tb4, tb5, tb6, tb7⟩ := pushOf_tables e hmem
  rw [htag] at tb1 tb2 tb4 tb5 tb6 tb7
  have hx : x.tag = "ncl" := by
    obtain ⟨e', he', het', hpo, -⟩ := hwf.entry
    have hee : e' = e := table_tag_inj e' e he' hmem (het'.trans htag.symm)
    subst hee
    apply Classical.byContradiction
    intro hne
    obtain ⟨q, -, hq⟩ := hpo fun hc => hne (tb7.1 hc)
    simp at hq
  obtain ⟨hpush, hpop⟩ := table_ncl e hmem (htag.trans hx)
  have hpushof : pushOf x.tag = e.push := by unfold pushOf; rw [hsyn]
  have hlen := hi.j.len
  have hs2 : ∃ s2 : PS, s2 = { s with syn := y, elt := upd s.elt s.nelt { tag := x.tag, parent := none, attrs := r }, nelt := s.nelt + 1 } := ⟨_, rfl⟩
  obtain ⟨s2, hs2⟩ := hs2
  rw [show ({ ({ s with syn := y } : PS) with elt := upd s.elt s.nelt { tag := x.tag, parent := none, attrs := r }, nelt := s.nelt + 1 } : PS) = s2 from hs2.symm]
  have helt2 : s2.elt = upd s.elt s.nelt { tag := x.tag, parent := none, attrs := r } := by rw [hs2]
  have hek : s2.elt s.nelt = { tag := x.tag, parent := none, attrs := r } := by rw [helt2]; exact upd_same _ _ _
  have himp : e.push ≠ .importBase := by rw [hpush]; decide
  refine PSettles.bind (p := fun n => push E (processNode E n none (some "head")) e.push s.nelt) (q := fun n _ => (do
    cacheIf e s.nelt
    PM.forEach (processNode E n (some s.nelt) (some x.tag)) x.children
    pop E n e.pop s.nelt : PM Unit)) ((PSettles.const ((PNF.push E (fun _ => pure ()) e.push s.nelt himp).ne s2)).congr fun n => push_proc E _ _ e.push s.nelt himp) fun n a0 t hrun => ?_
  have ht := push_pushed E (processNode E n none (some "head")) e.push s.nelt s2 himp (by rw [hek]; simp)
    (by rw [hs2]; show s.conn ≠ _; rw [hctx.conn]; simp [connFor]) a0 t hrun
  obtain ⟨nt, h1, h2, h3, h4, hj, h6, h7, h8, h9⟩ := hi.j.push hsyn hattrs (by simp) helt2 (by rw [hs2]) (by rw [hs2]; exact hctx.conn)
    (by rw [hs2]; exact hctx.rect) (by rw [hs2]; exact hctx.last) (by rw [hs2]) ht
  have htg : nt.tag = x.tag := by unfold Note.tag; rw [h3]
  have hnp : nt.push = e.push := by unfold Note.push; rw [htg]; exact hpushof
  have hbase : nt.base = { tag := x.tag, parent := none, attrs := r } := by unfold Note.base; rw [htg, h2, h4]
  obtain ⟨π, hπ⟩ := hi.pi
  have hpi := hπ.push hi.j (n := nt) (s2 := s2) (t := t) (by rw [helt2, hbase]) (by rw [hs2]) (by rw [hs2])
    (by rw [h2]; simp) (by rw [htg, hsyn]; rfl) (by rw [hnp]; exact ht)
  rw [if_neg (by rw [htg, hx]; decide)] at hpi
  have hkc : ∀ t', (t'.cache = if cachedTag nt.tag then s.cache ++ [([] : List Note).length] else s.cache) → KC ([] ++ [nt]) t' :=
    fun t' h => hi.kc.add (by rw [htg, hx]; decide) h
  have hca : t.cache = s.cache := by rw [ht.cache, hs2]
  have hal : t.aliases = [] := by rw [ht.aliases, hs2]; exact hs1
  have hct : cachedTag nt.tag = e.cache := by
    unfold cachedTag
    rw [htg, hsyn]
    simp [hx]
  have hfin : ∀ t', t'.aliases = [] → InvK (SettleK E) E ⟨0, 0, W, H⟩ z [nt] [] [s.nelt] t' → Ctx ⟨0, 0, W, H⟩ [nt] (some s.nelt) t' → PSettles (fun n => do
        PM.forEach (processNode E n (some s.nelt) (some x.tag)) x.children
        pop E n e.pop s.nelt : Nat → PM Unit) t' := by
    intro t' hal' hinv' hcx'
    have hcn : ∀ c ∈ x.children, c.tag ≠ "ncl" := by
      intro c hcm hnc
      obtain ⟨e', he', het, hem⟩ := hwf.children c hcm
      have := (pushOf_tables e' he').2.2.2.2.2.2.2 (het.trans hnc)
      rw [this] at hem
      simp at hem
    have hcm' : ∀ l (p : Nat) m, some s.nelt = some p → ([nt] ++ l)[p]? = some m → some x.tag = some m.tag := by
      intro l p m hp hm
      obtain rfl : s.nelt = p := by simpa using hp
      rw [hs0] at hm
      obtain rfl : nt = m := by simpa using hm
      rw [htg]
    refine PSettles.bind (settles_forEach (pt := some x.tag) x.children [nt] t' ?_ hinv' hcx') fun n _ u hu => ?_
    · intro c hcm l u hi' hc' hal''
      exact ⟨processNode_settles E _ z hR huri hpopS L hL _ _ (some s.nelt) (some x.tag) c u _ _ _ (Nat.le_refl _) (Nat.le_refl _) (hcn c hcm) hi' hc' (hcm' l) (by simp) (by simp), fun n =>
        processNode_laid E _ z hR n (some s.nelt) (some x.tag) c u _ _ _ (hcn c hcm) hi' hc' (hcm' l) (by simp) (by simp)⟩
    · obtain ⟨lc, hd⟩ := laid_forEach (pt := some x.tag) x.children [nt] t' (fun c hcm l v hi' hc' =>
        processNode_laid E _ z hR n (some s.nelt) (some x.tag) c v _ _ _ (hcn c hcm) hi' hc' (hcm' l) (by simp) (by simp)) hinv' hcx' _ u hu
      rw [hpop]
      exact popNcl_settles hinj ⟨hd.inv.k.refs, predsEnd hd.inv.j hd.inv.kc hd.inv.pi⟩
  have hk := hR.push [] [] s s2 none none x e r y nt _ a0 t ⟨hi.j, hc, by simp, fun _ => .inl ⟨rfl, rfl⟩, hs2, h1, h2, h3, h4⟩ hi.k himp hrun ht hj
  refine PSettles.bindP (PNF.cacheIf _ _) ?_
  unfold cacheIf
  split
  · rename_i hcc
    refine PPost.cacheAdd fun _ => ?_
    refine hfin _ hal ⟨hj.congr rfl rfl rfl, hkc _ ?_, hpi.imp fun π hp => hp.congr (fun _ => rfl) (fun _ => rfl) (fun _ => rfl) rfl rfl,
      hR.same _ _ t t.syn t.aliases _ (fun _ h => h) hk⟩
      ⟨h6.symm, h7, h8, fun p hp => ?_⟩
    · rw [hct, if_pos hcc, hs3]
      show t.cache ++ _ = _
      rw [hca, hs3, hs0]; rfl
    · obtain rfl : s.nelt = p := by simpa using hp
      rw [hs0]; simp
  · rename_i hcc
    refine PPost.pure ?_
    refine hfin _ hal ⟨hj, hkc _ ?_, hpi, hk⟩ ⟨h6.symm, h7, h8, fun p hp => ?_⟩
    · rw [hct, if_neg hcc, hca]
    · obtain rfl : s.nelt = p := by simpa using hp
      rw [hs0]; simp

/-- The parser ends: with a large enough bound there is a result, the same for all such bounds. -/
theorem parseXml_settles {E : PRead} (hinj : ∀ i j, E.addr i = E.addr j → i = j) (huri : ∀ a b, E.importUri a b ≠ .fuel) (L : List String) (hL : ∀ u, (E.file u).isSome → u ∈ L)
    (W H : Int) (z : Nat) (x : Xml) : ∃ N r, r ≠ .fuel ∧ ∀ n, N ≤ n → parseXml E n W H z x = r := by
  unfold parseXml
  split
  · exact ⟨0, .abort, by simp, fun _ _ => rfl⟩
  cases hd : newDoc (E.addr 0) (E.addr 1) (E.addr 2) (E.addr 3) (E.addr 4) with
  | abort => exact ⟨0, .abort, by simp, fun _ _ => rfl⟩
  | ub => exact ⟨0, .ub, by simp, fun _ _ => rfl⟩
  | fuel => exact absurd hd (newDoc_nf _ _ _ _ _)
  | ok reg =>
    obtain ⟨N, r, hr, hN⟩ := root_settles hinj huri L hL W H z x hd
    refine ⟨N, r.bind fun r => match r with | none => .ok none | some (_, s) => .ok (some s), Res.bind_ne_fuel hr fun a _ => by split <;> simp, fun n hn => ?_⟩
    show (processNode E n none none x (PS.init W H z reg 5)).bind _ = _
    rw [show processNode E n none none x (PS.init W H z reg 5) = r from hN n hn]
    cases r with
    | ok a => rcases a with _ | ⟨a, s⟩ <;> rfl
    | _ => rfl

end Ginga
