import Verif.Props.C42
/-!
# C43: link parameters override by proximity
-/
namespace Ginga

/-- The value of a parameter: the nearest one. -/
def nearestParam (bindParams linkParams : List (String × String)) (name : String) : Option String :=
  (mget name bindParams).or (mget name linkParams)

theorem mk_dollar (n : String) : ("$" ++ n).toList = '$' :: n.toList := by simp

theorem resolveParameter_dollar (n : String) (bp lp gh : List (String × String)) : resolveParameter ("$" ++ n) bp lp gh =
    match nearestParam bp lp n with
    | none => ""
    | some v => match v.toList with
      | '$' :: g => (mget (String.ofList g) gh).getD v
      | _ => v := by
  unfold resolveParameter nearestParam
  rw [mk_dollar]
  simp only [String.ofList_toList]
  cases h1 : mget n bp with
  | some v => simp only [Option.some_or]; rfl
  | none => cases h2 : mget n lp with
    | none => simp
    | some v => simp only [Option.none_or]; rfl

/-- A text that is not a reference is left unchanged. -/
theorem C43_plain (t : String) (h : ∀ n, t ≠ "$" ++ n) (bp lp gh : List (String × String)) : resolveParameter t bp lp gh = t := by
  unfold resolveParameter
  split
  · rename_i name hn
    exact absurd (by rw [← String.toList_inj, hn, mk_dollar, String.toList_ofList]) (h (String.ofList name))
  · rfl

/-- The parameter of the bind wins, that of the link is second; the value is used as it is unless it is itself a reference to a
bind that serves as a variable. -/
theorem C43_nearest (n v : String) (bp lp gh : List (String × String)) (h : nearestParam bp lp n = some v)
    (hv : ∀ g, v = "$" ++ g → mget g gh = none) : resolveParameter ("$" ++ n) bp lp gh = v := by
  rw [resolveParameter_dollar, h]
  dsimp only
  split
  · rename_i g hg
    rw [hv (String.ofList g) (by rw [← String.toList_inj, hg, mk_dollar, String.toList_ofList])]
    rfl
  · rfl

/-- The value refers to a bind: the reference is to the property bound. -/
theorem C43_ghost (n g w : String) (bp lp gh : List (String × String)) (h : nearestParam bp lp n = some ("$" ++ g))
    (hg : mget g gh = some w) : resolveParameter ("$" ++ n) bp lp gh = w := by
  rw [resolveParameter_dollar, h]
  dsimp only
  rw [mk_dollar]
  simp [hg]

theorem C43_bind_wins (n v : String) (bp lp gh : List (String × String)) (h : mget n bp = some v) (hv : ∀ g, v ≠ "$" ++ g) :
    resolveParameter ("$" ++ n) bp lp gh = v :=
  C43_nearest n v bp lp gh (by simp [nearestParam, h]) fun g hg => absurd hg (hv g)

theorem C43_link_second (n v : String) (bp lp gh : List (String × String)) (h0 : mget n bp = none) (h : mget n lp = some v)
    (hv : ∀ g, v ≠ "$" ++ g) : resolveParameter ("$" ++ n) bp lp gh = v :=
  C43_nearest n v bp lp gh (by simp [nearestParam, h0, h]) fun g hg => absurd hg (hv g)

/-- A reference to an unknown parameter is not left unchanged but lost. -/
theorem C43_fails_unknown (n : String) (bp lp gh : List (String × String)) (h : nearestParam bp lp n = none) :
    resolveParameter ("$" ++ n) bp lp gh = "" ∧ "" ≠ "$" ++ n := by
  refine ⟨by rw [resolveParameter_dollar, h], fun hc => ?_⟩
  have := congrArg String.toList hc
  rw [mk_dollar] at this
  simp at this

example : resolveParameter "$d" [("d", "1s")] [("d", "2s")] [] = "1s" ∧ resolveParameter "$d" [] [("d", "2s")] [] = "2s" ∧
    resolveParameter "$v" [("v", "$get")] [] [("get", "$m.left")] = "$m.left" ∧ resolveParameter "5s" [("5s", "x")] [] [] = "5s" := by
  decide +kernel

/-! ## In the link -/

/-- The delay and the duration of a condition or action of a link, and the value of an attribution, are those of the role of the
connector with the parameters resolved. -/
theorem C43_action (E : PRead) (n ctx : Nat) (r : Role) (b : Bind) (lp tests gh : List (String × String)) (s : PS) :
    PPost (resolveRole E n ctx r b lp tests gh) (fun a _ =>
      a.tr = r.tr ∧ a.delay = resolveParameter r.delay (s.elt b.elt).params lp gh ∧
      a.duration = resolveParameter r.duration (s.elt b.elt).params lp gh ∧
      (r.typ = .attribution → a.value = resolveParameter r.value (s.elt b.elt).params lp gh) ∧
      (r.typ = .selection → a.value = resolveParameter r.key (s.elt b.elt).params lp gh)) s := by
  unfold resolveRole
  refine PPost.bind (PPost.get ?_)
  split
  · exact PPost.abort
  refine PPost.bind fun e t he => PPost.bind ?_
  have : ∀ t, PPost (roleEvent E r e (s.elt b.elt).params lp gh) (fun p _ =>
      (r.typ = .attribution → p.2 = resolveParameter r.value (s.elt b.elt).params lp gh) ∧
      (r.typ = .selection → p.2 = resolveParameter r.key (s.elt b.elt).params lp gh)) t := by
    intro t
    unfold roleEvent
    split
    · split
      · exact PPost.pure ⟨by simp_all, by simp_all⟩
      · exact PPost.err
    · split
      · exact PPost.pure ⟨fun _ => rfl, by simp_all⟩
      · exact PPost.err
    · split
      · exact PPost.err
      · refine PPost.bind fun _ _ _ => PPost.bind fun _ _ _ => PPost.bind fun _ _ _ => PPost.bind fun _ _ _ => PPost.pure ⟨by simp_all, fun _ => rfl⟩
    · refine PPost.bind fun _ _ _ => PPost.bind fun _ _ _ => PPost.bind fun _ _ _ => PPost.pure ⟨by simp_all, by simp_all⟩
  refine (this t).mono ?_
  rintro ⟨ev, value⟩ u ⟨h1, h2⟩
  refine PPost.bind fun _ _ _ => PPost.pure ⟨rfl, rfl, rfl, h1, h2⟩

/-- A document whose link has a delay given by a parameter. -/
def docParams (bindParams linkParams : List (String × String)) : Xml := .elem "ncl" [] [
  .elem "head" [] [.elem "connectorBase" [] [.elem "causalConnector" [("id", "c")]
    [.elem "simpleCondition" [("role", "onBegin")] [], .elem "simpleAction" [("role", "start"), ("delay", "$d")] []]]],
  .elem "body" [] [.elem "media" [("id", "m")] [], .elem "link" [("xconnector", "c")]
      (linkParams.map (fun p => .elem "linkParam" [("name", p.1), ("value", p.2)] []) ++
      [.elem "bind" [("role", "onBegin"), ("component", "m")] [],
       .elem "bind" [("role", "start"), ("component", "m")] (bindParams.map fun p => .elem "bindParam" [("name", p.1), ("value", p.2)] [])])]]

/-- The delays of the actions of the links of the body. -/
def delaysOf (r : Res (Option PS)) : Option (List (List String)) :=
  match r with | .ok (some s) => some ((s.links s.reg.root).map fun l => l.acts.map (·.delay)) | _ => none

example : delaysOf (parseXml pread0 20 800 600 0 (docParams [("d", "1s")] [("d", "2s")])) = some [["1s"]] ∧
    delaysOf (parseXml pread0 20 800 600 0 (docParams [] [("d", "2s")])) = some [["2s"]] ∧
    delaysOf (parseXml pread0 20 800 600 0 (docParams [] [("e", "2s")])) = some [[""]] := by decide +kernel

end Ginga
