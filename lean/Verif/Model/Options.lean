import Verif.Model.Text
/-!
# Options and painting order of the formatter, user data
(lib/Formatter.cpp, lib/aux-ginga.cpp)
-/
namespace Ginga

/-! ## Options (lib/Formatter.cpp:42-80, 195-199, 385-425, 432-467, 525-626) -/

/-- `GingaOptions` (lib/ginga.h:44-73). -/
structure Opts where
  width : Int
  height : Int
  debug : Bool
  webservices : Bool
  opengl : Bool
  experimental : Bool
  background : String
  deriving DecidableEq, Repr

/-- The types of options. -/
inductive OptType | bool | int | string
  deriving DecidableEq, Repr

/-- `opts_table` (lib/Formatter.cpp:61-68): names and types. -/
def optsTable : List (String × OptType) :=
  [("background", .string), ("debug", .bool), ("experimental", .bool), ("height", .int), ("opengl", .bool), ("width", .int)]

/-- `opts_table_index`. -/
def optType (name : String) : Option OptType := (optsTable.find? fun p => p.1 == name).map (·.2)

/-- The field at the option's offset, as a `bool`. -/
def Opts.readBool (o : Opts) (name : String) : Bool :=
  if name = "debug" then o.debug else if name = "experimental" then o.experimental else o.opengl

def Opts.writeBool (o : Opts) (name : String) (v : Bool) : Opts :=
  if name = "debug" then { o with debug := v } else if name = "experimental" then { o with experimental := v } else { o with opengl := v }

def Opts.readInt (o : Opts) (name : String) : Int := if name = "height" then o.height else o.width

def Opts.writeInt (o : Opts) (name : String) (v : Int) : Opts :=
  if name = "height" then { o with height := v } else { o with width := v }

/-- `Formatter::getOptionBool` (`OPT_GETSET_DEFN`, lib/Formatter.cpp:396-404); an unknown name or wrong type ends the process. -/
def Opts.getBool (o : Opts) (name : String) : Res Bool :=
  match optType name with
  | none => .abort
  | some t => if t ≠ .bool then .abort else .ok (o.readBool name)

/-- `Formatter::getOptionInt`. -/
def Opts.getInt (o : Opts) (name : String) : Res Int :=
  match optType name with
  | none => .abort
  | some t => if t ≠ .int then .abort else .ok (o.readInt name)

/-- `Formatter::getOptionString`. -/
def Opts.getString (o : Opts) (name : String) : Res String :=
  match optType name with
  | none => .abort
  | some t => if t ≠ .string then .abort else .ok o.background

/-- `Formatter::setOptionBool` (lib/Formatter.cpp:405-418) with `setOptionDebug`, `setOptionExperimental`,
`setOptionOpenGL` (536-616).  `gl`: compiled with OpenGL.  Environment variables are not modelled. -/
def Opts.setBool (gl : Bool) (o : Opts) (name : String) (v : Bool) : Res Opts :=
  match optType name with
  | none => .abort
  | some t =>
    if t ≠ .bool then .abort
    else if name = "opengl" ∧ v = true ∧ gl = false then .abort
    else .ok (o.writeBool name v)

/-- `Formatter::setOptionInt` with `setOptionSize` (lib/Formatter.cpp:618-626) and the assertion and assignments of
`Formatter::resize` (195-199); the effect on media objects is in `Verif.Model.Player`. -/
def Opts.setInt (o : Opts) (name : String) (v : Int) : Res Opts :=
  match optType name with
  | none => .abort
  | some t =>
    if t ≠ .int then .abort
    else
      let o := o.writeInt name v
      if o.width > 0 ∧ o.height > 0 then .ok { o with width := o.width, height := o.height } else .abort

/-- `Formatter::setOptionString` with `setOptionBackground` (lib/Formatter.cpp:526-536); `color` tells whether a string
is a colour. -/
def Opts.setString (color : String → Bool) (o : Opts) (name : String) (v : String) : Res Opts :=
  match optType name with
  | none => .abort
  | some t =>
    if t ≠ .string then .abort
    else if v = "" ∨ color v then .ok { o with background := v }
    else .abort

/-- The setters, together. -/
inductive OptSet
  | bool (name : String) (v : Bool)
  | int (name : String) (v : Int)
  | string (name : String) (v : String)
  deriving DecidableEq, Repr

def Opts.set (gl : Bool) (color : String → Bool) (o : Opts) : OptSet → Res Opts
  | .bool n v => o.setBool gl n v
  | .int n v => o.setInt n v
  | .string n v => o.setString color n v

/-- A history of setters that all return. -/
def Opts.setAll (gl : Bool) (color : String → Bool) (o : Opts) : List OptSet → Res Opts
  | [] => .ok o
  | s :: l => (o.set gl color s).bind fun o => o.setAll gl color l

/-! ## Painting order (lib/Formatter.cpp:82-103, 267-280) -/

/-- `zcmp`: negative, zero or positive.  `z m` is what `getZ` stores: (0, 0) for a sleeping object (lib/Media.cpp:495-502). -/
def zcmp (z : Nat → Int × Int) (a b : Nat) : Int :=
  if (z a).1 < (z b).1 then -1
  else if (z a).1 > (z b).1 then 1
  else if (z a).2 < (z b).2 then -1
  else if (z a).2 > (z b).2 then 1
  else 0

/-- `g_list_insert_sorted`: before the first element that does not compare smaller than the new one. -/
def insertSorted (cmp : Nat → Nat → Int) (a : Nat) : List Nat → List Nat
  | [] => [a]
  | b :: t => if cmp a b > 0 then b :: insertSorted cmp a t else a :: b :: t

/-- The list built by `Formatter::redraw` (lib/Formatter.cpp:267-269) from the media objects in address order. -/
def zlist (z : Nat → Int × Int) (medias : List Nat) : List Nat :=
  medias.foldl (fun l m => insertSorted (zcmp z) m l) []

/-- The objects painted by `Formatter::redraw`, in painting order: `Media::redraw` (lib/Media.cpp:504-510) skips sleeping
objects and objects without player. -/
def painted (z : Nat → Int × Int) (awake : Nat → Bool) (medias : List Nat) : List Nat :=
  (zlist z medias).filter awake

/-! ## User data (lib/aux-ginga.cpp:763-800) -/

/-- A value and its clean-up function (0 for null). -/
structure Datum where
  value : Nat
  fn : Nat
  deriving DecidableEq, Repr

/-- The map `_udata` and the clean-ups made so far, latest last. -/
structure UData where
  tab : List (String × Datum)
  cleaned : List Datum
  deriving DecidableEq, Repr

def UData.empty : UData := ⟨[], []⟩

/-- `_udata.find`. -/
def UData.find (u : UData) (k : String) : Option Datum := (u.tab.find? fun p => p.1 == k).map (·.2)

/-- `UserData::getData`. -/
def UData.get (u : UData) (k : String) : Option Nat := (u.find k).map (·.value)

/-- Calling the clean-up function of a datum, if there is one. -/
def UData.clean (u : UData) (d : Datum) : UData := if d.fn ≠ 0 then { u with cleaned := u.cleaned ++ [d] } else u

/-- `UserData::setData`; erasing the end iterator is undefined behaviour. -/
def UData.set (u : UData) (k : String) (value fn : Nat) : Res (Bool × UData) :=
  let u' := match u.find k with | some d => u.clean d | none => u
  if value = 0 then
    match u.find k with
    | none => .ub
    | some _ => .ok (false, { u' with tab := u'.tab.filter fun p => p.1 != k })
  else
    .ok ((u.find k).isNone, { u' with tab := (k, ⟨value, fn⟩) :: u'.tab.filter fun p => p.1 != k })

/-- `UserData::~UserData`: the clean-ups of all the data left (in key order; the order is not modelled). -/
def UData.destroy (u : UData) : List Datum := u.cleaned ++ (u.tab.map (·.2)).filter fun d => d.fn ≠ 0

/-- A history of `setData` calls. -/
def UData.setAll (u : UData) : List (String × Nat × Nat) → Res UData
  | [] => .ok u
  | (k, v, f) :: l => (u.set k v f).bind fun p => p.2.setAll l

end Ginga
