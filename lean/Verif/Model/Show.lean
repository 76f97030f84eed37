import Verif.Model.Draw
/-!
# A media object while it is presented (lib/Media.cpp, lib/Player.cpp, lib/PlayerText.cpp, lib/PlayerAnimator.cpp)

Images, SVG drawings, texts and media objects without content: from the creation of the player through all settings and frames.
-/
namespace Ginga

/-! ## Transitions -/

/-- `Color` of a text; the empty text is no colour (lib/aux-ginga.cpp:96-109). -/
def colorOf (color : Str → Option Color) (v : Str) : Option Color := if v = [] then some (0, 0, 0, 0) else color v

/-- `stod`: an exception that nobody catches if there is no number (`double`s out of range, which are another one, are not modelled). -/
def stod (s : Str) : Res Rat := match strtod s with | some p => .ok p.1 | none => .abort

/-- `setTransitionProperties` (lib/PlayerAnimator.cpp:256-287): what is read of the text of a transition.  A key that is not there has the empty value. -/
def readTransition (F : FP) (color : Str → Option Color) (v : Str) : Res TransInfo :=
  (parseTable v).bind fun o => match o with
    | none => .abort
    | some tab =>
      let val (k : String) : Str := (tableGet tab k.toList).getD []
      (parseTimeA F (val "dur")).bind fun dur =>
      (stod (val "startProgress")).bind fun _ =>
      (stod (val "endProgress")).bind fun _ =>
      if colorOf color (val "fadeColor") = none then .abort
      else
        (xstrtou (2 ^ 32 - 1) (val "horzRepeat")).bind fun _ =>
        (xstrtou (2 ^ 32 - 1) (val "vertRepeat")).bind fun _ =>
        (xstrtou (2 ^ 32 - 1) (val "borderWidth")).bind fun _ =>
        if colorOf color (val "borderColor") = none then .abort
        else .ok ⟨String.ofList (val "type"), String.ofList (val "subtype"), dur⟩

/-- The environment of a player with transitions as they are. -/
def penv (F : FP) (color : Str → Option Color) : PEnv :=
  { F := F, color := color, trans := fun v => (readTransition F color v).bind fun _ => .ok () }

/-! ## Texts -/

/-- The properties that `PlayerText` handles itself (lib/PlayerText.cpp:187-241). -/
def PCode.textual : PCode → Bool
  | .fontColor | .fontBgColor | .fontFamily | .fontSize | .fontStyle | .fontVariant | .fontWeight | .horzAlign | .vertAlign => true
  | _ => false

/-- `PlayerText::doSetProperty` (lib/PlayerText.cpp:183-245) for these; `none` is the result `false`. -/
def textSet (color : Str → Option Color) (code : PCode) (v : Str) (t : TProp) : Option TProp :=
  let oneOf (l : List String) (r : TProp) : Option TProp := if v ∈ l.map String.toList then some r else none
  match code with
  | .fontColor => (colorOf color v).map fun c => { t with fontColor := c }
  | .fontBgColor => (colorOf color v).map fun c => { t with fontBgColor := c }
  | .fontFamily => some { t with fontFamily := v }
  | .fontSize => some { t with fontSize := v }
  | .fontStyle => oneOf ["", "normal", "italic"] { t with fontStyle := v }
  | .fontVariant => oneOf ["", "small-caps"] { t with fontVariant := v }
  | .fontWeight => oneOf ["", "normal", "bold"] { t with fontWeight := v }
  | .horzAlign => oneOf ["", "left", "right", "center", "justified"] { t with horzAlign := v }
  | .vertAlign => oneOf ["", "top", "middle", "bottom"] { t with vertAlign := v }
  | _ => some t

/-- The properties that the constructor of `PlayerText` sets to the empty string (lib/PlayerText.cpp:152-157). -/
def textHandled : List String := ["bgColor", "fontColor", "fontFamily", "fontSize", "fontStyle", "fontVariant", "fontWeight", "horzAlign", "vertAlign"]

/-- What the constructor of `PlayerText` makes of the memory it is given: `resetProperties (&handled)` (lib/PlayerText.cpp:148-159, lib/Player.cpp:341-346).  A name that is
not in the table of properties is only stored. -/
def newText (color : Str → Option Color) : List String → TProp → Res TProp
  | [], t => .ok t
  | n :: l, t => match propInfo n with
    | none => newText color l t
    | some (code, d) => match textSet color code d t with
      | none => .abort
      | some t => newText color l t

/-! ## Players -/

variable {σ : Type}

/-- `Player::setProperty` of a player that is attached to its media object (lib/Player.cpp:291-331, lib/PlayerText.cpp:183-245, lib/PlayerAnimator.cpp:256-287).  The settings
that a setting leads to are settings of the geometry, which no class overrides. -/
def Pl.pset (F : FP) (color : Str → Option Color) (name : String) (v : Str) (p : Pl σ) : Res (Pl σ) :=
  match p.kind, propInfo name with
  | .text, some (code, d) =>
    if code.textual then
      match textSet color code (if v = [] then d else v) p.txt with
      | none => .abort
      | some t => .ok { p with txt := t, st := { p.st with player := upd p.st.player name v, prop := { p.st.prop with dirty := true } } }
    else (playerSet (penv F color) 3 name v p.st).bind fun s => .ok { p with st := s }
  | _, _ =>
    (playerSet (penv F color) 3 name v p.st).bind fun s =>
      if name = "transIn" then (readTransition F color v).bind fun t => .ok { p with st := s, trin := some t }
      else .ok { p with st := s }

/-- `Media::setProperty` (lib/Media.cpp:62-76) with a player. -/
def Pl.set (F : FP) (color : Str → Option Color) (name : String) (v : Str) (dur : Nat) (p : Pl σ) : Res (Pl σ) :=
  let old := p.st.media name
  let p := { p with st := { p.st with media := upd p.st.media name v } }
  if dur > 0 then
    (animSchedule (penv F color) p.st.W p.st.H p.time name old v dur ⟨p.infos, p.view⟩).bind fun a => .ok { p with infos := a.infos }
  else p.pset F color name v

/-- `Player::start` (lib/Player.cpp:250-262). -/
def Pl.begin (F : FP) (color : Str → Option Color) (D : DEnv σ) (p : Pl σ) : Res (Pl σ) :=
  (reload D { p with time := 0 }).bind fun p =>
    (animTransition (penv F color) p.st.W p.st.H 0 p.trin ⟨p.infos, p.view⟩).bind fun a => .ok (p.withAnim a)

/-- The start of a media object of the given class (lib/Media.cpp:183-204): `p0` and `t0` are what the memory of its player contained. -/
def startPl (F : FP) (color : Str → Option Color) (D : DEnv σ) (kind : PlayerKind) (W H : Int) (keys : List String) (media : Store) (p0 : PProp) (t0 : TProp) : Res (Pl σ) :=
  (newPlayer (penv F color) W H media p0).bind fun s =>
    (if kind = .text then newText color textHandled t0 else .ok t0).bind fun t =>
      let p : Pl σ := { kind := kind, st := { s with media := startStore media, attached := true }, txt := t, infos := [], crop := [], time := 0, surface := none }
      (startLoop (Pl.pset F color) (·.st.media) (startOrder (startKeys keys)) (startKeys keys) p).bind (Pl.begin F color D)

/-- What happens to a media object while it is presented: a property is set (at once or during some time), time passes, a frame is drawn, the window changes its size. -/
inductive PlOp
  | set (name : String) (v : Str) (dur : Nat)
  | time (n : Nat)
  | frame (focus : Str)
  | resize (W H : Int)

/-- One of these. -/
def plStep (F : FP) (color : Str → Option Color) (D : DEnv σ) (p : Pl σ) : PlOp → Res (Pl σ)
  | .set name v dur => p.set F color name v dur
  | .time n => .ok { p with time := tadd p.time n }
  | .frame focus => (redrawPlayer F D focus p).bind fun r => .ok r.1
  | .resize W H => (resizeMedia (penv F color) W H p.st).bind fun s => .ok { p with st := s }

/-- Some of these, one after the other. -/
def plRun (F : FP) (color : Str → Option Color) (D : DEnv σ) : List PlOp → Pl σ → Res (Pl σ)
  | [], p => .ok p
  | o :: l, p => (plStep F color D p o).bind (plRun F color D l)

end Ginga
