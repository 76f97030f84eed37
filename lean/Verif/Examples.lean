import Verif.Proofs.Steps
/-!
# Concrete documents used for non-vacuity checks and counter-examples
-/
namespace Ginga.Ex

/-- A document given by tables; object and event ids are positions.  Ids beyond the tables
stand for isolated medias with a lambda event. -/
def mkDoc (env : Env) (objs : List ObjDecl) (evs : List EvDecl) (root settings : Oid)
    (par : List (Eid × String × String) := []) : Doc where
  ev := fun e => evs.getD e { typ := .presentation, obj := e - evs.length + objs.length, id := "@lambda" }
  obj := fun o => objs.getD o { kind := .media, id := "", events := [o - objs.length + evs.length],
                                lambda := o - objs.length + evs.length }
  objs := List.range objs.length
  root := root
  settings := settings
  par0 := fun e k => (par.find? (fun p => p.1 = e ∧ p.2.1 = k)).map (·.2.2)
  env := env

/-- Decidable well-formedness of the tables. -/
def tablesOk (objs : List ObjDecl) (evs : List EvDecl) (root settings : Oid) (rk : List Nat) : Bool :=
  let nO := objs.length
  let nE := evs.length
  let O := fun o => objs.getD o { kind := .media, id := "", events := [], lambda := 0 }
  let E := fun e => evs.getD e { typ := .presentation, obj := 0, id := "" }
  (List.range nO).all (fun o =>
    (O o).lambda < nE && (E (O o).lambda).isLambda && (E (O o).lambda).obj == o &&
    (O o).events.all (fun e => e < nE && (E e).obj == o) &&
    (O o).children.all (fun c => c < nO && (O c).parent == some o) &&
    decide (O o).children.Nodup &&
    (match (O o).parent with
      | none => true
      | some p => p < nO && (O p).children.contains o &&
          (decide ((O p).kind = .context) || decide ((O p).kind = .switch)) &&
          rk.getD p 0 < rk.getD o 0) &&
    (O o).rules.all (fun x => x.1 < nO && (O x.1).parent == some o)) &&
  (List.range nE).all (fun e =>
    (E e).obj < nO && (O (E e).obj).events.contains e &&
    (!(E e).isLambda || (O (E e).obj).lambda == e)) &&
  (root < nO && settings < nO && decide ((O root).kind = .context) && (O root).parent == none &&
    decide ((O settings).kind = .settings) && (O settings).parent == some root) &&
  (List.range nO).all (fun o => decide (O o).events.Nodup)

theorem mkDoc_wf {env objs evs root settings par} (rk : List Nat)
    (hok : tablesOk objs evs root settings rk = true) :
    DocWF (mkDoc env objs evs root settings par) := by
  simp only [tablesOk, Bool.and_eq_true, List.all_eq_true, List.mem_range, decide_eq_true_eq,
    beq_iff_eq, Bool.or_eq_true, Bool.not_eq_true', List.contains_iff_mem] at hok
  obtain ⟨⟨⟨hO, hE⟩, hR⟩, hN⟩ := hok
  have objLt : ∀ {o} d, o < objs.length → objs.getD o d = (mkDoc env objs evs root settings par).obj o := by
    intro o d ho; simp [mkDoc, List.getD, ho]
  have evLt : ∀ {e} d, e < evs.length → evs.getD e d = (mkDoc env objs evs root settings par).ev e := by
    intro e d he; simp [mkDoc, List.getD, he]
  have objGe : ∀ {o}, ¬ o < objs.length → (mkDoc env objs evs root settings par).obj o =
      { kind := .media, id := "", events := [o - objs.length + evs.length],
        lambda := o - objs.length + evs.length } := by
    intro o ho; simp at ho; simp [mkDoc, List.getD, List.getElem?_eq_none_iff.2 ho]
  have evGe : ∀ {e}, ¬ e < evs.length → (mkDoc env objs evs root settings par).ev e =
      { typ := .presentation, obj := e - evs.length + objs.length, id := "@lambda" } := by
    intro e he; simp at he; simp [mkDoc, List.getD, List.getElem?_eq_none_iff.2 he]
  generalize hd : mkDoc env objs evs root settings par = d at *
  have hroot : d.root = root := by rw [← hd]; rfl
  have hset : d.settings = settings := by rw [← hd]; rfl
  have hobjs : d.objs = List.range objs.length := by rw [← hd]; rfl
  have hO' : ∀ o, o < objs.length → (d.obj o).lambda < evs.length ∧
      (d.ev (d.obj o).lambda).isLambda = true ∧ (d.ev (d.obj o).lambda).obj = o ∧
      (∀ e ∈ (d.obj o).events, e < evs.length ∧ (d.ev e).obj = o) ∧
      (∀ c ∈ (d.obj o).children, c < objs.length ∧ (d.obj c).parent = some o) ∧
      (d.obj o).children.Nodup ∧
      (∀ p, (d.obj o).parent = some p → p < objs.length ∧ o ∈ (d.obj p).children ∧
        ((d.obj p).kind = .context ∨ (d.obj p).kind = .switch) ∧ rk.getD p 0 < rk.getD o 0) ∧
      (∀ x ∈ (d.obj o).rules, (d.obj x.1).parent = some o) := by
    intro o ho
    have h1 := hO o ho
    rw [objLt _ ho] at h1
    obtain ⟨⟨⟨⟨⟨⟨⟨h1, h2⟩, h3⟩, h4⟩, h5⟩, h6⟩, h7⟩, h8⟩ := h1
    rw [evLt _ h1] at h2 h3
    refine ⟨h1, h2, h3, ?_, ?_, h6, ?_, ?_⟩
    · intro e he; have := h4 e he; rw [evLt _ this.1] at this; exact this
    · intro c hc; have := h5 c hc; rw [objLt _ this.1] at this; exact this
    · intro p hp; rw [hp] at h7; simp at h7
      obtain ⟨⟨⟨h9, h10⟩, h11⟩, h12⟩ := h7
      have e1 := objLt { kind := .media, id := "", events := [], lambda := 0 } h9
      simp only [List.getD_eq_getElem?_getD] at e1
      rw [e1] at h10 h11
      refine ⟨h9, h10, h11, by simpa using h12⟩
    · intro x hx; have := h8 x hx; rw [objLt _ this.1] at this; exact this.2
  have hE' : ∀ e, e < evs.length → (d.ev e).obj < objs.length ∧ e ∈ (d.obj (d.ev e).obj).events ∧
      ((d.ev e).isLambda = true → (d.obj (d.ev e).obj).lambda = e) := by
    intro e he
    have h1 := hE e he
    rw [evLt _ he] at h1
    obtain ⟨⟨h1, h2⟩, h3⟩ := h1
    rw [objLt _ h1] at h2 h3
    refine ⟨h1, h2, ?_⟩
    intro hl; rcases h3 with h3 | h3
    · rw [hl] at h3; cases h3
    · exact h3
  have parNone : ∀ {o}, ¬ o < objs.length → (d.obj o).parent = none := by
    intro o ho; rw [objGe ho]
  refine ⟨fun o => rk.getD o 0, ?_⟩
  constructor
  · intro o
    by_cases ho : o < objs.length
    · exact (hO' o ho).2.1
    · rw [objGe ho, evGe (by simp)]; simp [EvDecl.isLambda]
  · intro o
    by_cases ho : o < objs.length
    · exact (hO' o ho).2.2.1
    · rw [objGe ho, evGe (by simp)]; simp only [Nat.add_sub_cancel]; exact Nat.sub_add_cancel (Nat.not_lt.1 ho)
  · intro e he
    by_cases hlt : e < evs.length
    · exact ((hE' e hlt).2.2 he).symm
    · rw [evGe hlt]; simp only; rw [objGe (by simp)]; simp only [Nat.add_sub_cancel]; exact (Nat.sub_add_cancel (Nat.not_lt.1 hlt)).symm
  · intro o e
    by_cases ho : o < objs.length
    · constructor
      · intro he; exact ((hO' o ho).2.2.2.1 e he).2
      · intro he
        by_cases hlt : e < evs.length
        · have := (hE' e hlt).2.1; rw [he] at this; exact this
        · rw [evGe hlt] at he; simp only at he
          exact absurd ho (by rw [← he]; exact Nat.not_lt.2 (Nat.le_add_left _ _))
    · rw [objGe ho]
      simp only [List.mem_singleton]
      constructor
      · intro he; subst he; rw [evGe (by simp)]; simp only [Nat.add_sub_cancel]; exact Nat.sub_add_cancel (Nat.not_lt.1 ho)
      · intro he
        by_cases hlt : e < evs.length
        · have := (hE' e hlt).1; rw [he] at this; exact absurd this ho
        · rw [evGe hlt] at he; simp only at he
          rw [← he, Nat.add_sub_cancel]; exact (Nat.sub_add_cancel (Nat.not_lt.1 hlt)).symm
  · intro p c
    by_cases hp : p < objs.length
    · constructor
      · intro hc; exact ((hO' p hp).2.2.2.2.1 c hc).2
      · intro hc
        by_cases hlt : c < objs.length
        · exact ((hO' c hlt).2.2.2.2.2.2.1 p hc).2.1
        · rw [parNone hlt] at hc; cases hc
    · constructor
      · intro hc; rw [objGe hp] at hc; simp at hc
      · intro hc
        by_cases hlt : c < objs.length
        · exact absurd ((hO' c hlt).2.2.2.2.2.2.1 p hc).1 hp
        · rw [parNone hlt] at hc; cases hc
  · intro p
    by_cases hp : p < objs.length
    · exact (hO' p hp).2.2.2.2.2.1
    · rw [objGe hp]; simp
  · intro c p hc
    by_cases hlt : c < objs.length
    · exact ((hO' c hlt).2.2.2.2.2.2.1 p hc).2.2.1
    · rw [parNone hlt] at hc; cases hc
  · intro c p hc
    by_cases hlt : c < objs.length
    · exact ((hO' c hlt).2.2.2.2.2.2.1 p hc).2.2.2
    · rw [parNone hlt] at hc; cases hc
  · intro o c pr hx
    by_cases ho : o < objs.length
    · exact .inl ((hO' o ho).2.2.2.2.2.2.2 _ hx)
    · rw [objGe ho] at hx; simp at hx
  · rw [hobjs]; exact List.nodup_range
  · obtain ⟨⟨⟨⟨⟨h1, h2⟩, h3⟩, h4⟩, h5⟩, h6⟩ := hR
    rw [objLt _ h1] at h3; rw [hroot]; exact h3
  · obtain ⟨⟨⟨⟨⟨h1, h2⟩, h3⟩, h4⟩, h5⟩, h6⟩ := hR
    rw [objLt _ h1] at h4; rw [hroot]; exact h4
  · obtain ⟨⟨⟨⟨⟨h1, h2⟩, h3⟩, h4⟩, h5⟩, h6⟩ := hR
    rw [objLt _ h2] at h5; rw [hset]; exact h5
  · obtain ⟨⟨⟨⟨⟨h1, h2⟩, h3⟩, h4⟩, h5⟩, h6⟩ := hR
    rw [objLt _ h2] at h6; rw [hset, hroot]; exact h6
  · intro o
    by_cases ho : o < objs.length
    · have h1 := hN o ho; rw [objLt _ ho] at h1; exact h1
    · rw [objGe ho]; simp

/-- A permissive environment: "" is 0, "1s" one second, "2s" two seconds; every player can
be created; no property value is fatal. -/
def env0 : Env where
  parseTime := fun v =>
    if v = "" then some 0 else if v = "1s" then some 1000000000
    else if v = "2s" then some 2000000000 else none
  createPlayer := fun _ t => some t
  badProp := fun _ _ => false

/-- body(0) containing the settings(1) and two medias a(2), b(3); port on a; link
"onEnd a start b". -/
def twoMedias : Doc :=
  mkDoc env0
    [ { kind := .context, id := "__root__", children := [1, 2, 3], events := [0], lambda := 0,
        ports := [2],
        links := [{ conds := [{ ev := 2, tr := .stop }], acts := [{ ev := 3, tr := .start }] }] },
      { kind := .settings, id := "__settings__", parent := some 0, events := [1, 5], lambda := 1,
        props0 := [("type", "application/x-ginga-settings")] },
      { kind := .media, id := "a", parent := some 0, events := [2, 4], lambda := 2,
        props0 := [("explicitDur", "2s"), ("focusIndex", "1")] },
      { kind := .media, id := "b", parent := some 0, events := [3], lambda := 3,
        props0 := [("duration", "1s")] } ]
    [ { typ := .presentation, obj := 0, id := "@lambda" },
      { typ := .presentation, obj := 1, id := "@lambda" },
      { typ := .presentation, obj := 2, id := "@lambda" },
      { typ := .presentation, obj := 3, id := "@lambda" },
      { typ := .presentation, obj := 2, id := "seg", begin_ := 500000000, end_ := 1000000000 },
      { typ := .attribution, obj := 1, id := "service.currentFocus" } ]
    0 1

theorem twoMedias_wf : DocWF twoMedias := mkDoc_wf [0, 1, 1, 1] (by decide +kernel)

/-- Observes the states of a list of events after a history, with the results. -/
def observe (n : Nat) (f : Fmt) (ops : List Op) (evs : List Eid) :
    Option (List Bool × List EState × Bool) :=
  match execAll n f ops with
  | .ok (bs, f') => some (bs, evs.map f'.st.est, f'.playing)
  | _ => none

def tick (s : Nat) : Op := .sendTick 0 s 0


example : observe 50 (Fmt.new "" 800 600) [.start (some twoMedias), tick 0, tick 600000000]
    [0, 1, 2, 3, 4] = some ([true, true, true],
      [.occurring, .occurring, .occurring, .sleeping, .occurring], true) := by decide +kernel

/-- body(0) with settings(1) and a context c(2) whose port leads to the switchPort `p` of a
switch(3) with the single alternative m(4). -/
def switchDoc : Doc :=
  mkDoc env0
    [ { kind := .context, id := "__root__", children := [1, 2], events := [0], lambda := 0,
        ports := [2] },
      { kind := .settings, id := "__settings__", parent := some 0, events := [1, 6], lambda := 1,
        props0 := [("type", "application/x-ginga-settings")] },
      { kind := .context, id := "c", parent := some 0, children := [3], events := [2], lambda := 2,
        ports := [5] },
      { kind := .switch, id := "sw", parent := some 2, children := [4], events := [3, 5],
        lambda := 3, rules := [(4, .verum)], switchPorts := [("p", [4])] },
      { kind := .media, id := "m", parent := some 3, events := [4], lambda := 4 } ]
    [ { typ := .presentation, obj := 0, id := "@lambda" },
      { typ := .presentation, obj := 1, id := "@lambda" },
      { typ := .presentation, obj := 2, id := "@lambda" },
      { typ := .presentation, obj := 3, id := "@lambda" },
      { typ := .presentation, obj := 4, id := "@lambda" },
      { typ := .presentation, obj := 3, id := "p" },
      { typ := .attribution, obj := 1, id := "service.currentFocus" } ]
    0 1

theorem switchDoc_wf : DocWF switchDoc := mkDoc_wf [0, 1, 1, 2, 3] (by decide +kernel)

/-- body(0) with settings(1) and a context c(2) containing a context e(3) containing a media
m(4); ports all the way down. -/
def nestedDoc : Doc :=
  mkDoc env0
    [ { kind := .context, id := "__root__", children := [1, 2], events := [0], lambda := 0,
        ports := [2] },
      { kind := .settings, id := "__settings__", parent := some 0, events := [1, 5], lambda := 1,
        props0 := [("type", "application/x-ginga-settings")] },
      { kind := .context, id := "c", parent := some 0, children := [3], events := [2], lambda := 2,
        ports := [3] },
      { kind := .context, id := "e", parent := some 2, children := [4], events := [3], lambda := 3,
        ports := [4] },
      { kind := .media, id := "m", parent := some 3, events := [4], lambda := 4 } ]
    [ { typ := .presentation, obj := 0, id := "@lambda" },
      { typ := .presentation, obj := 1, id := "@lambda" },
      { typ := .presentation, obj := 2, id := "@lambda" },
      { typ := .presentation, obj := 3, id := "@lambda" },
      { typ := .presentation, obj := 4, id := "@lambda" },
      { typ := .attribution, obj := 1, id := "service.currentFocus" } ]
    0 1

theorem nestedDoc_wf : DocWF nestedDoc := mkDoc_wf [0, 1, 1, 2, 3] (by decide +kernel)

end Ginga.Ex
