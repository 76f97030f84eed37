import Verif.Model.Player
/-!
# Animations (lib/PlayerAnimator.cpp)

Simplifications: the memory of finished animations (never freed) is not modelled; `round` and `lround` are exact, which they are for
the values that occur.
-/
namespace Ginga

/-- `AnimInfo` (lib/PlayerAnimator.h:28-56). -/
structure Anim where
  name : String
  current : Rat
  target : Rat
  dur : Nat
  last : Nat
  speed : Rat
  done : Bool
  init : Bool
  node : Nat := 0
  deriving DecidableEq, Repr

/-- What `Player::redraw` lets the animator change: `_prop.rect`, `_prop.alpha`, `_prop.bgColor` and `_crop`
(lib/Player.cpp:365). -/
structure View where
  x : Int
  y : Int
  w : Int
  h : Int
  alpha : Nat
  r : Rat
  g : Rat
  b : Rat
  crop : List Int := []
  deriving DecidableEq, Repr

/-- `AnimInfo::init` (lib/PlayerAnimator.cpp:548-559); only called when not initialised. -/
def Anim.begin (F : FP) (a : Anim) (cur : Rat) (t : Nat) : Anim :=
  { a with
    current := cur
    speed := if a.dur > 0 then F.rnd (F.rnd (if a.target - cur ≤ 0 then cur - a.target else a.target - cur) / F.rnd (a.dur : Rat)) else 0
    init := true
    last := t }

/-- `AnimInfo::update (Time)` (lib/PlayerAnimator.cpp:561-581). -/
def Anim.advance (F : FP) (a : Anim) (t : Nat) : Anim :=
  let dir : Rat := if a.current < a.target then 1 else -1
  let c := F.rnd (a.current + F.rnd (dir * a.speed * F.rnd (tsub t a.last : Nat)))
  if a.dur = 0 ∨ (dir > 0 ∧ c ≥ a.target) ∨ (dir < 0 ∧ c ≤ a.target) then
    { a with current := a.target, last := t, done := true }
  else { a with current := c, last := t }

/-- The variable of `UPDATE (info, ..., var, ...)` for a property (lib/PlayerAnimator.cpp:149-247); `none` for a property the
animator does not know. -/
def View.get (v : View) (name : String) : Option Rat :=
  if name = "top" then some v.y
  else if name = "left" then some v.x
  else if name = "width" then some v.w
  else if name = "height" then some v.h
  else if name = "background:r" then some v.r
  else if name = "background:g" then some v.g
  else if name = "background:b" then some v.b
  else if name = "transparency" then some (v.alpha : Rat)
  else none

/-- `(int) CLAMP (lround (x), G_MININT, G_MAXINT)`. -/
def pixel (x : Rat) : Int := clamp (lround x) (-(2 ^ 31)) (2 ^ 31 - 1)

/-- `(double) CLAMP (round (x), 0., 1.)`. -/
def channel (x : Rat) : Rat := (clamp (lround x) 0 1 : Int)

/-- The assignment of `UPDATE`. -/
def View.put (v : View) (name : String) (c : Rat) : View :=
  if name = "top" then { v with y := pixel c }
  else if name = "left" then { v with x := pixel c }
  else if name = "width" then { v with w := pixel c }
  else if name = "height" then { v with h := pixel c }
  else if name = "background:r" then { v with r := channel c }
  else if name = "background:g" then { v with g := channel c }
  else if name = "background:b" then { v with b := channel c }
  else if name = "transparency" then { v with alpha := (clamp (lround c) 0 255).toNat }
  else v

/-- One turn of the loop of `PlayerAnimator::update` for a property that is not a wipe (lib/PlayerAnimator.cpp:124-247). -/
def animStep (F : FP) (t : Nat) (a : Anim) (v : View) : Anim × View :=
  match v.get a.name with
  | none => (a, v)
  | some var =>
    let a := (if a.init then a else a.begin F var t).advance F t
    (a, v.put a.name a.current)

/-- The base and maximum of a property's values in `doSchedule` (lib/PlayerAnimator.cpp:438-461). -/
def animValue (F : FP) (W H : Int) (name : String) (s : Str) : Int :=
  if name = "top" ∨ name = "height" then parsePercent F s H 0 INTMAX
  else if name = "left" ∨ name = "width" then parsePercent F s W 0 INTMAX
  else if name = "transparency" ∨ name = "background" then parsePercent F s 255 0 255
  else parsePercent F s 100 0 INTMAX

/-- The names of the animations of the crop polygon (lib/PlayerAnimator.cpp:166-227). -/
def isWipe (name : String) : Bool :=
  name == "barwipe:topToBottom" || name == "barwipe:leftToRight" || name == "diagonalwipe:topLeft:x" || name == "diagonalwipe:topLeft:y"

/-- The sum of two `int`s; overflow is undefined. -/
def isum (a b : Int) : Res Int := if -(2 ^ 31) ≤ a + b ∧ a + b ≤ 2 ^ 31 - 1 then .ok (a + b) else .ub

/-- `to_string (int)`. -/
def intStr (n : Int) : Str := if n < 0 then '-' :: Nat.toDigits 10 n.natAbs else Nat.toDigits 10 n.natAbs

/-- `UPDATE (info, int, *it, lround, ...)` with `it` at position `i` of the crop polygon (lib/PlayerAnimator.cpp:168-172 and so on); a position past
its end is undefined. -/
def cropUpdate (F : FP) (t i : Nat) (a : Anim) (v : View) : Res (Anim × View) :=
  match v.crop[i]? with
  | none => .ub
  | some c =>
    let a := (if a.init then a else a.begin F c t).advance F t
    .ok (a, { v with crop := v.crop.set i (pixel a.current) })

/-- `if (info->isDone ()) cropPolygon->clear ()`. -/
def cropDone (p : Anim × View) : Anim × View := if p.1.done then (p.1, { p.2 with crop := [] }) else p

/-- The second half of a diagonal wipe: `setStateNode (1)` and `updateSchedule` (lib/PlayerAnimator.cpp:195-202, 380-419). -/
def Anim.second (F : FP) (a : Anim) (src to : Int) : Anim :=
  { a with node := 1, current := (animValue F 0 0 a.name (intStr src) : Int), target := (animValue F 0 0 a.name (intStr to) : Int), done := false, init := false }

/-- The two cases of a diagonal wipe (lib/PlayerAnimator.cpp:184-227): `x`, `w` along the side of the first half, `y`, `h` along that of the second. -/
def diagTurn (F : FP) (t i : Nat) (x w y h : Int) (a : Anim) (v : View) : Res (Anim × View) :=
  (cropUpdate F t i a v).bind fun p =>
    if p.1.node = 0 then
      (isum x w).bind fun edge =>
        if (p.2.crop[i]?).getD 0 ≥ edge then
          (isum y h).bind fun far => .ok (cropDone (p.1.second F y far, p.2))
        else .ok (cropDone p)
    else .ok (cropDone p)

/-- One turn of the loop for a wipe (lib/PlayerAnimator.cpp:166-227). -/
def wipeTurn (F : FP) (t : Nat) (a : Anim) (v : View) : Res (Anim × View) :=
  if a.name = "barwipe:topToBottom" then
    (cropUpdate F t 1 a v).bind fun p => (cropUpdate F t 3 p.1 p.2).bind fun p => .ok (cropDone p)
  else if a.name = "barwipe:leftToRight" then
    (cropUpdate F t 0 a v).bind fun p => (cropUpdate F t 6 p.1 p.2).bind fun p => .ok (cropDone p)
  else if a.name = "diagonalwipe:topLeft:x" then
    diagTurn F t (if a.node = 1 then 3 else 2) v.x v.w v.y v.h a v
  else
    diagTurn F t (if a.node = 0 then 1 else 0) v.y v.h v.x v.w a v

/-- One turn of the loop of `PlayerAnimator::update` (lib/PlayerAnimator.cpp:124-247). -/
def animTurn (F : FP) (t : Nat) (a : Anim) (v : View) : Res (Anim × View) :=
  if isWipe a.name then wipeTurn F t a v else .ok (animStep F t a v)

/-- The loop of `PlayerAnimator::update`: the animations after it and the view; a finished animation in the list fails an
assertion. -/
def animLoop (F : FP) (t : Nat) : List Anim → View → Res (List Anim × View)
  | [], v => .ok ([], v)
  | a :: l, v =>
    if a.done then .abort
    else
      (animTurn F t a v).bind fun p =>
        (animLoop F t l p.2).bind fun q => .ok (p.1 :: q.1, q.2)

/-- The scheduled animations and what they act on. -/
structure AState where
  infos : List Anim
  view : View

/-- `PlayerAnimator::update` (lib/PlayerAnimator.cpp:124-250) at player time `t`. -/
def animFrame (F : FP) (t : Nat) (s : AState) : Res AState :=
  (animLoop F t s.infos s.view).bind fun p => .ok ⟨p.1.filter (fun a => !a.done), p.2⟩

/-- The animation made by `PlayerAnimator::doSchedule` (lib/PlayerAnimator.cpp:421-468). -/
def mkAnim (F : FP) (W H : Int) (now : Nat) (name : String) (src to : Str) (dur : Nat) : Anim :=
  let cur : Rat := if src ≠ [] then (animValue F W H name src : Int) else 0
  let a : Anim := { name := name, current := cur, target := (animValue F W H name to : Int), dur := dur, last := 0, speed := 1, done := false, init := false }
  if src ≠ [] then a.begin F cur now else a

/-- `xstrbuild ("%d", (int) CLAMP (x * 255, 0, 255))`. -/
def chanStr (F : FP) (x : Rat) : Str :=
  let y := F.rnd (x * 255)
  let z := if y > 255 then 255 else if y < 0 then 0 else y
  (Nat.toDigits 10 z.floor.toNat)

/-- `PlayerAnimator::schedule` (lib/PlayerAnimator.cpp:47-115).  For `bounds`, `location` and `size` the code
dereferences `list_pos.end ()`. -/
def animSchedule (e : PEnv) (W H : Int) (now : Nat) (name : String) (src to : Str) (dur : Nat) (s : AState) : Res AState :=
  let compound (n : Nat) : Res AState :=
    if src ≠ [] ∧ parseList src ',' n n = none then .abort
    else if parseList to ',' n n = none then .abort
    else .ub
  if name = "bounds" then compound 4
  else if name = "location" then compound 2
  else if name = "size" then compound 2
  else if name = "background" then
    (e.parseColor src).bind fun pre => (e.parseColor to).bind fun pos =>
      .ok { s with infos := s.infos ++
        [mkAnim e.F W H now "background:r" (chanStr e.F pre.1) (chanStr e.F pos.1) dur,
         mkAnim e.F W H now "background:g" (chanStr e.F pre.2.1) (chanStr e.F pos.2.1) dur,
         mkAnim e.F W H now "background:b" (chanStr e.F pre.2.2.1) (chanStr e.F pos.2.2.1) dur] }
  else .ok { s with infos := s.infos ++ [mkAnim e.F W H now name src to dur] }

/-- The parts of a transition that are used (`TransitionInfo`, lib/PlayerAnimator.h:60-85). -/
structure TransInfo where
  type : String
  subtype : String
  dur : Nat

/-- `scheduleTransition ("start", ...)` with `createPolygon` (lib/PlayerAnimator.cpp:287-373), called by `Player::start` (lib/Player.cpp:246-256).
Nothing is ever done for `transOut`. -/
def animTransition (e : PEnv) (W H : Int) (now : Nat) (tr : Option TransInfo) (s : AState) : Res AState :=
  let v := { s.view with crop := [] }
  match tr with
  | none => .ok { s with view := v }
  | some tr =>
    if tr.type = "barWipe" then
      (isum v.x v.w).bind fun fx => (isum v.y v.h).bind fun fy =>
        let v := { v with crop := [v.x, v.y, fx, v.y, fx, fy, v.x, fy] }
        if tr.subtype = "topToBottom" then
          animSchedule e W H now "barwipe:topToBottom" (intStr v.y) (intStr fy) tr.dur { s with view := v }
        else
          animSchedule e W H now "barwipe:leftToRight" (intStr v.x) (intStr fx) tr.dur { s with view := v }
    else if tr.type = "diagonalWipe" then
      (isum v.x v.w).bind fun fx => (isum v.y v.h).bind fun fy =>
        let v := { v with crop := [v.x, v.y, v.x, v.y, fx, v.y, fx, fy, v.x, fy] }
        (animSchedule e W H now "diagonalwipe:topLeft:x" (intStr v.x) (intStr fx) (tr.dur / 2) { s with view := v }).bind
          (animSchedule e W H now "diagonalwipe:topLeft:y" (intStr v.y) (intStr fy) (tr.dur / 2))
    else
      animSchedule e W H now "transparency" ['0'] (intStr v.alpha) tr.dur { s with view := v }

/-- Frames at the given player times. -/
def animFrames (F : FP) : List Nat → AState → Res AState
  | [], s => .ok s
  | t :: l, s => (animFrame F t s).bind (animFrames F l)

end Ginga
