import Verif.Proofs.Laid
/-!
# Accepted documents: the state of the parser at the end of the document

`root_laid`: in an accepted document all elements have been laid down in document order, and what remains is `popNcl`.
-/
namespace Ginga

theorem InvK.init {K : List Note → List Nat → PS → Prop} (E : PRead) (W H : Int) (z : Nat) (reg : Reg) (na : Nat) (hk : K [] [] (PS.init W H z reg na)) :
    InvK K E ⟨0, 0, W, H⟩ z [] [] [] (PS.init W H z reg na) where
  k := hk
  j := { len := rfl, ok := by simp, elt := by simp, region := by simp, zle := Nat.le_refl _, z := by simp, zlt := by simp }
  kc := ⟨by simp [PS.init], rfl⟩
  pi := ⟨fun _ => none, { small := by simp, openLt := by simp, cell := by simp, closed := by simp, opened := by simp, att := by simp, disj := by simp }⟩

theorem Ctx.init (W H : Int) (z : Nat) (reg : Reg) (na : Nat) : Ctx ⟨0, 0, W, H⟩ [] none (PS.init W H z reg na) where
  conn := rfl
  rect := rfl
  last := rfl
  lt := by simp

theorem table_ncl : ∀ e ∈ syntaxTable, e.tag = "ncl" → e.push = .ncl ∧ e.pop = .ncl := by decide +kernel

/-- All that the parser knows at the end of an accepted document, with a further property `K` that rides along. -/
theorem root_laidK {K : List Note → List Nat → PS → Prop} {E : PRead} {n : Nat} {W H : Int} {z : Nat} {x : Xml} {t : PS}
    (hR : Rides E ⟨0, 0, W, H⟩ z K)
    (hK : ∀ reg, newDoc (E.addr 0) (E.addr 1) (E.addr 2) (E.addr 3) (E.addr 4) = .ok reg → K [] [] (PS.init W H z reg 5))
    (h : parseXml E n W H z x = .ok (some t)) :
    ∃ (ns : List Note) (m : Nat) (u : PS), x.tag = "ncl" ∧ 0 < W ∧ 0 < H ∧ Laid E [] none none 0 [x] ns ∧ InvK K E ⟨0, 0, W, H⟩ z ns [] [0] u ∧
      popNcl E m u = .ok (some ((), t)) := by
  unfold parseXml at h
  split at h
  · simp at h
  rename_i hWH
  cases hr : newDoc (E.addr 0) (E.addr 1) (E.addr 2) (E.addr 3) (E.addr 4) with
  | abort => rw [hr] at h; simp [Res.bind] at h
  | ub => rw [hr] at h; simp [Res.bind] at h
  | fuel => rw [hr] at h; simp [Res.bind] at h
  | ok reg =>
    rw [hr] at h
    simp only [Res.bind] at h
    have key : ∀ n, PPost (processNode E n none none x) (fun _ t => ∃ (ns : List Note) (m : Nat) (u : PS), x.tag = "ncl" ∧
        Laid E [] none none 0 [x] ns ∧ InvK K E ⟨0, 0, W, H⟩ z ns [] [0] u ∧ popNcl E m u = .ok (some ((), t))) (PS.init W H z reg 5) := by
      intro n
      cases n with
      | zero => exact PPost.fuel
      | succ n =>
        have hi := InvK.init E W H z reg 5 (hK reg hr)
        have hctx := Ctx.init W H z reg 5
        have hs0 : (PS.init W H z reg 5).nelt = 0 := rfl
        have hs1 : (PS.init W H z reg 5).aliases = [] := rfl
        have hs3 : (PS.init W H z reg 5).cache = [] := rfl
        generalize PS.init W H z reg 5 = s at hi hctx hs0 hs1 hs3
        unfold processNode
        refine PPost.bind (PPost.check fun e r y hc => PPost.bind (PPost.newElt ?_))
        dsimp only
        have hattrs := checkNode_attrs hc
        obtain ⟨hsyn, -, hwf⟩ := checkNode_ok hc
        obtain ⟨hwf, -⟩ := hwf rfl
        obtain ⟨hmem, htag⟩ := syntaxOf_mem hsyn
        obtain ⟨tb1, tb2, -, tb4, tb5, tb6, tb7⟩ := pushOf_tables e hmem
        rw [htag] at tb1 tb2 tb4 tb5 tb6 tb7
        have hx : x.tag = "ncl" := by
          obtain ⟨e', he', het', hpo, -⟩ := hwf.entry
          have hee : e' = e := by
            have hnd : ∀ a ∈ syntaxTable, ∀ b ∈ syntaxTable, a.tag = b.tag → a = b := by decide +kernel
            exact hnd e' he' e hmem (het'.trans htag.symm)
          subst hee
          apply Classical.byContradiction
          intro hne
          obtain ⟨q, -, hq⟩ := hpo fun hc => hne (tb7.1 hc)
          simp at hq
        obtain ⟨hpush, hpop⟩ := table_ncl e hmem (htag.trans hx)
        have hpushof : pushOf x.tag = e.push := by unfold pushOf; rw [hsyn]
        have hlen := hi.j.len
        have hs2 : ∃ s2 : PS, s2 = { s with syn := y, elt := upd s.elt s.nelt { tag := x.tag, parent := none, attrs := r }, nelt := s.nelt + 1 } :=
          ⟨_, rfl⟩
        obtain ⟨s2, hs2⟩ := hs2
        rw [show ({ ({ s with syn := y } : PS) with elt := upd s.elt s.nelt { tag := x.tag, parent := none, attrs := r }, nelt := s.nelt + 1 } : PS) = s2
          from hs2.symm]
        have helt2 : s2.elt = upd s.elt s.nelt { tag := x.tag, parent := none, attrs := r } := by rw [hs2]
        have hek : s2.elt s.nelt = { tag := x.tag, parent := none, attrs := r } := by rw [helt2]; exact upd_same _ _ _
        refine PPost.bind ((PPost.and (push_pushed E (processNode E n none (some "head")) e.push s.nelt s2 (by rw [hpush]; decide) (by rw [hek]; simp)
          (by rw [hs2]; show s.conn ≠ _; rw [hctx.conn]; simp [connFor])) (fun _ _ ha => ha)).mono ?_)
        rintro a0 t ⟨ht, hrun⟩
        obtain ⟨nt, h1, h2, h3, h4, hj, h6, h7, h8, h9⟩ := hi.j.push hsyn hattrs (by simp) helt2 (by rw [hs2]) (by rw [hs2]; exact hctx.conn)
          (by rw [hs2]; exact hctx.rect) (by rw [hs2]; exact hctx.last) (by rw [hs2]) ht
        have htg : nt.tag = x.tag := by unfold Note.tag; rw [h3]
        have hnp : nt.push = e.push := by unfold Note.push; rw [htg]; exact hpushof
        have hbase : nt.base = { tag := x.tag, parent := none, attrs := r } := by unfold Note.base; rw [htg, h2, h4]
        obtain ⟨π, hπ⟩ := hi.pi
        have hpi := hπ.push hi.j (n := nt) (s2 := s2) (t := t) (by rw [helt2, hbase]) (by rw [hs2]) (by rw [hs2])
          (by rw [h2]; simp) (by rw [htg, hsyn]; rfl) (by rw [hnp]; exact ht)
        rw [if_neg (by rw [htg, hx]; decide)] at hpi
        have hkc : ∀ t', (t'.cache = if cachedTag nt.tag then s.cache ++ [([] : List Note).length] else s.cache) → KC ([] ++ [nt]) t' :=
          fun t' h => hi.kc.add (by rw [htg, hx]; decide) h
        have hca : t.cache = s.cache := by rw [ht.cache, hs2]
        have hal : t.aliases = [] := by rw [ht.aliases, hs2]; exact hs1
        have hct : cachedTag nt.tag = e.cache := by
          unfold cachedTag
          rw [htg, hsyn]
          simp [hx]
        have hfin : ∀ t', t'.aliases = [] → InvK K E ⟨0, 0, W, H⟩ z [nt] [] [s.nelt] t' → Ctx ⟨0, 0, W, H⟩ [nt] (some s.nelt) t' → PPost (do
              PM.forEach (processNode E n (some s.nelt) (some x.tag)) x.children
              pop E n e.pop s.nelt : PM Unit) (fun _ t => ∃ (ns : List Note) (m : Nat) (u : PS), x.tag = "ncl" ∧
        Laid E [] none none 0 [x] ns ∧ InvK K E ⟨0, 0, W, H⟩ z ns [] [0] u ∧ popNcl E m u = .ok (some ((), t))) t' := by
          intro t' hal' hinv' hcx'
          refine PPost.bind ((laid_forEach (pt := some x.tag) x.children [nt] t' ?_ hinv' hcx').mono ?_)
          · intro c hcm l u hi' hc'
            refine processNode_laid E _ z hR n (some s.nelt) (some x.tag) c u _ _ _ ?_ hi' hc' ?_ (by simp) (by simp)
            · intro hnc
              obtain ⟨e', he', het, hem⟩ := hwf.children c hcm
              have := (pushOf_tables e' he').2.2.2.2.2.2.2 (het.trans hnc)
              rw [this] at hem
              simp at hem
            · intro p m hp hm
              obtain rfl : s.nelt = p := by simpa using hp
              rw [hs0] at hm
              obtain rfl : nt = m := by simpa using hm
              rw [htg]
          · rintro _ u ⟨lc, hd⟩
            rw [hpop]
            intro a v hv
            refine ⟨nt :: lc, n, u, hx, ?_, by simpa [hs0] using hd.inv, hv⟩
            have hl := hd.laid
            rw [hal', hs0] at hl
            have := Laid.cons (E := E) (pt := none) (xs := []) (l2 := []) (by rw [hx]; decide) h3 h2 (by rw [h1, hs1]) hl (.nil _ _ _ _)
            simpa using this
        have hk := hR.push [] [] s s2 none none x e r y nt _ a0 t ⟨hi.j, hc, by simp, fun _ => .inl ⟨rfl, rfl⟩, hs2, h1, h2, h3, h4⟩ hi.k (by rw [hpush]; decide) hrun ht hj
        unfold cacheIf
        split
        · rename_i hcc
          refine PPost.bind (PPost.cacheAdd fun _ => ?_)
          refine hfin _ hal ⟨hj.congr rfl rfl rfl, hkc _ ?_, hpi.imp fun π hp => hp.congr (fun _ => rfl) (fun _ => rfl) (fun _ => rfl) rfl rfl,
            hR.same _ _ t t.syn t.aliases _ (fun _ h => h) hk⟩
            ⟨h6.symm, h7, h8, fun p hp => ?_⟩
          · rw [hct, if_pos hcc, hs3]
            show t.cache ++ _ = _
            rw [hca, hs3, hs0]; rfl
          · obtain rfl : s.nelt = p := by simpa using hp
            rw [hs0]; simp
        · rename_i hcc
          refine PPost.bind (PPost.pure ?_)
          refine hfin _ hal ⟨hj, hkc _ ?_, hpi, hk⟩ ⟨h6.symm, h7, h8, fun p hp => ?_⟩
          · rw [hct, if_neg hcc, hca]
          · obtain rfl : s.nelt = p := by simpa using hp
            rw [hs0]; simp
    cases hp : processNode E n none none x (PS.init W H z reg 5) with
    | abort => rw [hp] at h; simp at h
    | ub => rw [hp] at h; simp at h
    | fuel => rw [hp] at h; simp at h
    | ok o =>
      rw [hp] at h
      cases o with
      | none => simp at h
      | some q =>
        obtain ⟨a, v⟩ := q
        obtain rfl : v = t := by simpa using h
        obtain ⟨ns, m, u, h1, h2⟩ := key n a v hp
        exact ⟨ns, m, u, h1, by omega, by omega, h2⟩

/-- All that the parser knows at the end of an accepted document. -/
theorem root_laid {E : PRead} {n : Nat} {W H : Int} {z : Nat} {x : Xml} {t : PS} (h : parseXml E n W H z x = .ok (some t)) :
    ∃ (ns : List Note) (m : Nat) (u : PS), x.tag = "ncl" ∧ 0 < W ∧ 0 < H ∧ Laid E [] none none 0 [x] ns ∧
      InvK (fun _ _ _ => True) E ⟨0, 0, W, H⟩ z ns [] [0] u ∧ popNcl E m u = .ok (some ((), t)) :=
  root_laidK (.triv _ _ _) (fun _ _ => trivial) h

end Ginga
