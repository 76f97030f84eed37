import Verif.Proofs.ParseEnds
import Verif.Props.C42
/-!
# C60: opening a document ends
-/
namespace Ginga

/-- Opening a document ends, whatever the document and the files it imports, when there are finitely many files that can be
read: with a large enough bound on the nesting the parser gives an answer other than "out of bound", and this answer is the same for all
larger bounds.  Addresses of live objects are distinct, and building the URI of an import is not itself bounded. -/
theorem C60_ends {E : PRead} (hinj : ∀ i j, E.addr i = E.addr j → i = j) (huri : ∀ a b, E.importUri a b ≠ .fuel)
    (files : List String) (hfin : ∀ u, (E.file u).isSome → u ∈ files) (W H : Int) (z : Nat) (x : Xml) :
    ∃ N r, r ≠ .fuel ∧ ∀ n, N ≤ n → parseXml E n W H z x = r :=
  parseXml_settles hinj huri files hfin W H z x

/-! ## Without the hypothesis on files it does not end -/

/-- A document that imports itself as `./self.ncl`. -/
def docSelf : Xml := .elem "ncl" [] [.elem "head" [] [.elem "regionBase" [] [.elem "importBase" [("alias", "a"), ("documentURI", "./self.ncl")] []]]]

/-- A reader for which `./x` is a file when `x` is: paths are joined (lib/Parser.cpp:3473-3478, `g_build_filename`) and never
normalized, so that `self.ncl` importing `./self.ncl` imports `./self.ncl`, then `././self.ncl`, and so on. -/
def preadDot : PRead := { pread0 with
  file := fun _ => some docSelf
  importUri := fun b _ => .ok ("./" ++ b)
  uri := "self.ncl" }

theorem PM.bind_fuel {α β : Type} {m : PM α} {f : α → PM β} {s : PS} (h : m s = .fuel) : (m >>= f) s = .fuel := by
  show (m s).bind _ = _
  rw [h]; rfl

theorem PM.run_ok {α β : Type} {m : PM α} {f : α → PM β} {s t : PS} {a : α} (h : m s = .ok (some (a, t))) : (m >>= f) s = f a t := by
  show (m s).bind _ = _
  rw [h]; rfl

/-- The import in the document. -/
def selfImp : Xml := .elem "importBase" [("alias", "a"), ("documentURI", "./self.ncl")] []

/-- The region base of the document. -/
def selfBase : Xml := .elem "regionBase" [] [selfImp]

/-- What is known of the state each time the base is reached: the URI that the next import is relative to is at least as long as those being read. -/
structure SelfInv (s : PS) : Prop where
  cache : ∀ k ∈ s.cache, k < s.nelt
  len : ∀ p ∈ s.aliases, p.2.length ≤ (baseUri preadDot s.aliases).length

theorem selfImp_fuel {n : Nat} (ih : ∀ s, SelfInv s → processNode preadDot n none (some "head") selfBase s = .fuel) {s : PS} {q : Nat}
    (h : SelfInv s) (hq : q ∈ s.cache) (ht : (s.elt q).tag = "regionBase") :
    processNode preadDot (n + 1) (some q) (some "regionBase") selfImp s = .fuel := by
  have hlt := h.cache q hq
  have hne : q ≠ s.nelt := Nat.ne_of_lt hlt
  unfold processNode
  refine (PM.run_ok (s := s) (t := s) (a := ((syntaxOf "importBase").get (by decide +kernel), [("alias", "a"), ("documentURI", "./self.ncl")])) rfl).trans ?_
  refine (PM.run_ok rfl).trans ?_
  refine PM.bind_fuel ?_
  show pushImportBase _ _ _ _ = _
  obtain ⟨u, hu⟩ : ∃ u : PS, u = { s with elt := upd s.elt s.nelt { tag := selfImp.tag, parent := some q, attrs := [("alias", "a"), ("documentURI", "./self.ncl")] }, nelt := s.nelt + 1 } := ⟨_, rfl⟩
  rw [show ({ s with elt := upd s.elt s.nelt _, nelt := s.nelt + 1 } : PS) = u from hu.symm]
  have hun : u.elt s.nelt = { tag := selfImp.tag, parent := some q, attrs := [("alias", "a"), ("documentURI", "./self.ncl")] } := by rw [hu]; exact upd_same _ _ _
  have huq : (u.elt q).tag = "regionBase" := by rw [hu]; show (upd s.elt s.nelt _ q).tag = _; rw [upd_ne _ _ hne]; exact ht
  have hua : u.aliases = s.aliases := by rw [hu]
  unfold pushImportBase
  refine (PM.run_ok (t := u) (a := q) ?_).trans ?_
  · unfold parentElt
    refine (PM.run_ok rfl).trans ?_
    rw [hun]
    show (if q ∈ u.cache then PM.pure q else PM.abort) u = _
    rw [if_pos (by rw [hu]; exact hq)]
    rfl
  refine (PM.run_ok (t := u) (a := "a") ?_).trans ?_
  · unfold attr!
    refine (PM.run_ok rfl).trans ?_
    unfold PS.attr
    rw [hun]
    rfl
  refine (PM.run_ok (t := u) (a := "./self.ncl") ?_).trans ?_
  · unfold attr!
    refine (PM.run_ok rfl).trans ?_
    unfold PS.attr
    rw [hun]
    rfl
  refine (PM.run_ok rfl).trans ?_
  refine (PM.run_ok (t := u) (a := "./" ++ baseUri preadDot s.aliases) (by rw [hua]; rfl)).trans ?_
  dsimp only
  rw [if_neg]
  · refine (PM.run_ok rfl).trans ?_
    refine (PM.run_ok rfl).trans ?_
    refine (PM.run_ok (a := ((syntaxOf "ncl").get (by decide +kernel), [])) rfl).trans ?_
    show (check false (some "ncl") (.elem "head" [] [selfBase]) >>= fun _ =>
      if (Xml.elem "head" [] [selfBase]).findAll (u.elt q).tag = [] then PM.err
      else do
        PM.forEach (processNode preadDot n none (some "head")) (importedBases (.elem "head" [] [selfBase]) (u.elt q).tag)
        PM.modify fun s => { s with aliases := s.aliases.dropLast }) _ = _
    refine (PM.run_ok (a := ((syntaxOf "head").get (by decide +kernel), [])) rfl).trans ?_
    rw [huq]
    rw [if_neg (by decide)]
    refine PM.bind_fuel (PM.bind_fuel (ih _ ⟨?_, ?_⟩))
    · intro k hk
      have := h.cache k (by rw [hu] at hk; exact hk)
      show k < u.nelt
      rw [hu]
      exact Nat.lt_succ_of_lt this
    · intro p hp
      have hb : baseUri preadDot (u.aliases ++ [("a", "./" ++ baseUri preadDot s.aliases)]) = "./" ++ baseUri preadDot s.aliases := by
        unfold baseUri; simp
      show _ ≤ (baseUri preadDot (u.aliases ++ [("a", "./" ++ baseUri preadDot s.aliases)])).length
      rw [hb, String.length_append]
      rcases List.mem_append.1 (show p ∈ u.aliases ++ [("a", "./" ++ baseUri preadDot s.aliases)] from hp) with hp | hp
      · rw [hua] at hp
        have := h.len p hp
        omega
      · obtain rfl := List.mem_singleton.1 hp
        simp
  · intro hc
    obtain ⟨p, hp, hpe⟩ := List.any_eq_true.1 hc
    rw [hua] at hp
    have := h.len p hp
    rw [beq_iff_eq.1 hpe, String.length_append] at this
    have h2 : "./".length = 2 := rfl
    omega

theorem selfBase_fuel : ∀ n s par, SelfInv s → processNode preadDot n par (some "head") selfBase s = .fuel
  | 0, _, _, _ => rfl
  | n + 1, s, par, h => by
    unfold processNode
    refine (PM.run_ok (s := s) (t := s) (a := ((syntaxOf "regionBase").get (by decide +kernel), [])) rfl).trans ?_
    refine (PM.run_ok rfl).trans ?_
    refine (PM.run_ok rfl).trans ?_
    refine (PM.run_ok (if_neg fun hm => Nat.lt_irrefl _ (h.cache _ hm))).trans ?_
    refine PM.bind_fuel (PM.bind_fuel ?_)
    cases n with
    | zero => rfl
    | succ n =>
      refine selfImp_fuel (fun s => selfBase_fuel n s none) ⟨?_, h.len⟩ (by simp) ?_
      · intro k hk
        rcases List.mem_append.1 hk with hk | hk
        · exact Nat.lt_succ_of_lt (h.cache k hk)
        · obtain rfl := List.mem_singleton.1 hk
          exact Nat.lt_succ_self _
      · show (upd s.elt s.nelt _ s.nelt).tag = _
        rw [upd_same]
        rfl

/-- Circular imports are recognized only when a file is reached under a spelling already used: a document that imports itself as
`./self.ncl` is read for ever (in a system that bounds the length of paths, until that bound). -/
theorem C60_fails_spelling (n : Nat) : parseXml preadDot n 800 600 0 docSelf = .fuel := by
  unfold parseXml
  rw [if_neg (by decide)]
  cases hd : newDoc (preadDot.addr 0) (preadDot.addr 1) (preadDot.addr 2) (preadDot.addr 3) (preadDot.addr 4) with
  | abort => exact absurd hd (by intro h; cases h)
  | ub => exact absurd hd (by intro h; cases h)
  | fuel => exact absurd hd (newDoc_nf _ _ _ _ _)
  | ok reg =>
    show (processNode _ _ _ _ _ _).bind _ = _
    rw [show processNode preadDot n none none docSelf (PS.init 800 600 0 reg 5) = .fuel from ?_]
    · rfl
    cases n with
    | zero => rfl
    | succ n =>
      unfold processNode
      refine (PM.run_ok (t := PS.init 800 600 0 reg 5) (a := ((syntaxOf "ncl").get (by decide +kernel), [])) rfl).trans ?_
      refine (PM.run_ok rfl).trans ?_
      refine (PM.run_ok rfl).trans ?_
      refine (PM.run_ok rfl).trans ?_
      refine PM.bind_fuel (PM.bind_fuel ?_)
      cases n with
      | zero => rfl
      | succ n =>
        unfold processNode
        refine (PM.run_ok (a := ((syntaxOf "head").get (by decide +kernel), [])) rfl).trans ?_
        refine (PM.run_ok rfl).trans ?_
        refine (PM.run_ok rfl).trans ?_
        refine (PM.run_ok rfl).trans ?_
        exact PM.bind_fuel (PM.bind_fuel (selfBase_fuel _ _ _ ⟨by intro k hk; simp [PS.init] at hk, by intro k hk; simp [PS.init] at hk⟩))

/-! ## An instance of the hypotheses: a document that imports itself, with two readable files -/

example : ∃ N r, r ≠ .fuel ∧ ∀ n, N ≤ n → parseXml pread0 n 800 600 0 (docImport "loop.ncl") = r :=
  C60_ends (E := pread0) (fun _ _ h => h) (fun _ _ => by simp [pread0]) ["base.ncl", "loop.ncl"]
    (fun u hu => by
      by_cases h1 : u = "base.ncl"
      · simp [h1]
      by_cases h2 : u = "loop.ncl"
      · simp [h2]
      · simp [pread0, h1, h2] at hu) 800 600 0 (docImport "loop.ncl")

end Ginga
