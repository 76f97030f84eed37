import Verif.Model.Players
import Verif.Model.Options
/-!
# Drawing (lib/Formatter.cpp, lib/Player.cpp, lib/PlayerImage.cpp, lib/PlayerSvg.cpp, lib/PlayerText.cpp)

What a frame draws, without OpenGL and without debugging information.  What cairo, Pango, GdkPixbuf and librsvg do with a drawing is not modelled; it is a parameter
(`Cairo`, `DEnv`).
-/
namespace Ginga

/-- A rectangle of pixels. -/
structure Pane where
  x : Int
  y : Int
  w : Int
  h : Int
  deriving DecidableEq, Repr

/-- The calls of cairo that draw something, with the state they are made in. -/
inductive Cmd (σ : Type)
  /-- `cairo_set_source_rgba`, `cairo_rectangle`, `cairo_fill` -/
  | fill (r : Pane) (red green blue : Rat) (alpha : Rat)
  /-- `cairo_translate`, `cairo_scale`, `cairo_set_source_surface`, `cairo_paint_with_alpha`: a surface scaled to the rectangle -/
  | image (r : Pane) (s : σ) (alpha : Rat)
  /-- `cairo_rectangle`, `cairo_stroke`: the border of the rectangle -/
  | border (r : Pane) (red green blue : Rat) (alpha : Rat)
  /-- the polygon that is erased with `CAIRO_OPERATOR_CLEAR` -/
  | erase (crop : List Int)

/-- The text properties (`PlayerText::_prop`, lib/PlayerText.h:36-50). -/
structure TProp where
  fontColor : Color
  fontBgColor : Color
  fontFamily : Str
  fontSize : Str
  fontStyle : Str
  fontVariant : Str
  fontWeight : Str
  horzAlign : Str
  vertAlign : Str
  deriving DecidableEq, Repr

/-- What `renderSurface` is given of them (lib/PlayerText.cpp:172-175): everything but the variant of the font. -/
def TProp.rendered (t : TProp) : TProp := { t with fontVariant := [] }

/-- What the files contain, as drawings: an image; an SVG drawing and a text for a given size.  `none`: there is no such file, or it cannot be read. -/
structure DEnv (σ : Type) where
  image : Str → Option σ
  svg : Str → Int → Int → Option σ
  text : Str → TProp → Int → Int → Option σ

/-- A player while its object is presented: properties, text properties (only used by a text player), animations, the polygon that is erased, its time and its surface
(lib/Player.h:128-160). -/
structure Pl (σ : Type) where
  kind : PlayerKind
  st : PSt
  txt : TProp
  infos : List Anim
  crop : List Int
  time : Nat
  surface : Option σ
  /-- `_transIn` of its animator -/
  trin : Option TransInfo := none

def PProp.rect (p : PProp) : Pane := ⟨p.x, p.y, p.w, p.h⟩

/-- What the animator works on (lib/Player.cpp:353, `&_prop.rect, &_prop.bgColor, &_prop.alpha, &_crop`). -/
def Pl.view {σ : Type} (p : Pl σ) : View :=
  { x := p.st.prop.x, y := p.st.prop.y, w := p.st.prop.w, h := p.st.prop.h, alpha := p.st.prop.alpha, r := p.st.prop.bg.1, g := p.st.prop.bg.2.1,
    b := p.st.prop.bg.2.2.1, crop := p.crop }

/-- The same after the animator has changed it. -/
def Pl.withAnim {σ : Type} (p : Pl σ) (a : AState) : Pl σ :=
  { p with
    st := { p.st with prop := { p.st.prop with x := a.view.x, y := a.view.y, w := a.view.w, h := a.view.h, alpha := a.view.alpha,
                                               bg := (a.view.r, a.view.g, a.view.b, p.st.prop.bg.2.2.2) } }
    crop := a.view.crop
    infos := a.infos }

def Pl.clean {σ : Type} (p : Pl σ) (s : Option σ) : Pl σ := { p with surface := s, st := { p.st with prop := { p.st.prop with dirty := false } } }

/-- `reload` (lib/Player.cpp:345-349, lib/PlayerImage.cpp:95-123, lib/PlayerSvg.cpp:32-81, lib/PlayerText.cpp:150-180); players of other kinds have no surface of
their own (lib/PlayerVideo.cpp and others get theirs before drawing), here they draw none. -/
def reload {σ : Type} (D : DEnv σ) (p : Pl σ) : Res (Pl σ) :=
  let q := p.st.prop
  match p.kind with
  | .image => match D.image q.uri with
    | none => .abort
    | some s => .ok (p.clean (some s))
  | .svg => match D.svg q.uri q.w q.h with
    | none => .abort
    | some s => if 0 < q.w ∧ 0 < q.h then .ok (p.clean (some s)) else .abort
  | .text => match D.text q.uri p.txt.rendered q.w q.h with
    | none => .abort
    | some s => if 0 < q.w ∧ 0 < q.h then .ok (p.clean (some s)) else .abort
  | _ => .ok (p.clean p.surface)

/-- What of a player is drawn at all (lib/Player.cpp:355-358). -/
def PProp.shown (p : PProp) : Bool := p.visible && decide (0 < p.w ∧ 0 < p.h)

/-- `isFocused` (lib/Player.cpp:212-216). -/
def PProp.focused (p : PProp) (focus : Str) : Bool := p.focusIndex != [] && p.focusIndex == focus

/-- The drawing of a player that is shown (lib/Player.cpp:365-475). -/
def Pl.draws {σ : Type} (focus : Str) (p : Pl σ) : List (Cmd σ) :=
  let q := p.st.prop
  (if q.bg.2.2.2 > 0 then [.fill q.rect q.bg.1 q.bg.2.1 q.bg.2.2.1 ((q.alpha : Rat) / 255)] else []) ++
  (p.surface.toList.map fun s => .image q.rect s ((q.alpha : Rat) / 255)) ++
  (if q.focused focus then
    [.border q.rect q.focusBorderColor.1 q.focusBorderColor.2.1 q.focusBorderColor.2.2.1 ((q.focusBorderTransparency : Rat) / 255)] else []) ++
  [.erase p.crop]

/-- `Player::redraw` (lib/Player.cpp:350-481). -/
def redrawPlayer {σ : Type} (F : FP) (D : DEnv σ) (focus : Str) (p : Pl σ) : Res (Pl σ × List (Cmd σ)) :=
  (animFrame F p.time ⟨p.infos, p.view⟩).bind fun a =>
    let p := p.withAnim a
    if p.st.prop.shown then
      (if p.st.prop.dirty then reload D p else .ok p).bind fun p => .ok (p, p.draws focus)
    else .ok (p, [])

/-- The media objects of a document: `none` for one that sleeps or has no player. -/
abbrev Cast (σ : Type) := Nat → Option (Pl σ)

/-- `Media::getZ` (lib/Media.cpp:495-502), with the initial values of lib/Formatter.cpp:86-87. -/
def Cast.z {σ : Type} (c : Cast σ) (m : Nat) : Int × Int := match c m with | some p => (p.st.prop.z, p.st.prop.zo) | none => (0, 0)

/-- The loop over the media objects (lib/Formatter.cpp:272-279; lib/Media.cpp:504-510). -/
def redrawAll {σ : Type} (F : FP) (D : DEnv σ) (focus : Str) : List Nat → Cast σ → Res (Cast σ × List (Cmd σ))
  | [], c => .ok (c, [])
  | m :: l, c => match c m with
    | none => redrawAll F D focus l c
    | some p => (redrawPlayer F D focus p).bind fun r => (redrawAll F D focus l (upd c m (some r.1))).bind fun r' => .ok (r'.1, r.2 ++ r'.2)

/-- `Formatter::redraw` while a document is presented (lib/Formatter.cpp:225-280): `medias` in the order of their addresses, `bg` the colour of option `background`. -/
def redrawFrame {σ : Type} (F : FP) (D : DEnv σ) (W H : Int) (bg : Color) (focus : Str) (medias : List Nat) (c : Cast σ) : Res (Cast σ × List (Cmd σ)) :=
  (redrawAll F D focus (zlist c.z medias) c).bind fun r =>
    .ok (r.1, .fill ⟨0, 0, W, H⟩ 0 0 0 1 :: (if bg.2.2.2 > 0 then [.fill ⟨0, 0, W, H⟩ bg.1 bg.2.1 bg.2.2.1 bg.2.2.2] else []) ++ r.2)

/-! ## Pictures -/

/-- What cairo does to pixels: the colour of a solid source, of a surface scaled to a size at a place, `CAIRO_OPERATOR_OVER`, `cairo_paint_with_alpha`, which pixels belong to
the border of a rectangle, where a polygon erases something and how much (its edges are smoothed).  All roundings and all samplings are allowed; only what is said in the laws is used. -/
structure Cairo (σ κ : Type) where
  solid : Rat → Rat → Rat → Rat → κ
  sample : σ → Int → Int → Int → Int → κ
  over : κ → κ → κ
  fade : Rat → κ → κ
  isOpaque : κ → Bool
  clear : κ
  onBorder : Pane → Int → Int → Bool
  erases : List Int → Int → Int → Bool
  erased : List Int → Int → Int → κ → κ
  solid_opaque : ∀ r g b, isOpaque (solid r g b 1) = true
  solid_clear : ∀ r g b, solid r g b 0 = clear
  over_opaque : ∀ s d, isOpaque s = true → over s d = s
  over_clear : ∀ d, over clear d = d
  fade_full : ∀ s, fade 1 s = s
  fade_none : ∀ s, fade 0 s = clear
  erases_nil : ∀ x y, erases [] x y = false
  erased_outside : ∀ crop x y d, erases crop x y = false → erased crop x y d = d

/-- Whether a pixel is inside of a rectangle. -/
def Pane.has (r : Pane) (x y : Int) : Bool := decide (r.x ≤ x ∧ x < r.x + r.w ∧ r.y ≤ y ∧ y < r.y + r.h)

/-- A pixel after a drawing. -/
def Cmd.at {σ κ : Type} (K : Cairo σ κ) (x y : Int) (d : κ) : Cmd σ → κ
  | .fill r red green blue a => if r.has x y then K.over (K.solid red green blue a) d else d
  | .image r s a => if r.has x y then K.over (K.fade a (K.sample s r.w r.h (x - r.x) (y - r.y))) d else d
  | .border r red green blue a => if K.onBorder r x y then K.over (K.solid red green blue a) d else d
  | .erase crop => K.erased crop x y d

/-- A pixel after some drawings. -/
def pictureAt {σ κ : Type} (K : Cairo σ κ) (l : List (Cmd σ)) (x y : Int) (d : κ) : κ := l.foldl (Cmd.at K x y) d

end Ginga
