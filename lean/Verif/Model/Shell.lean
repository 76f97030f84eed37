import Verif.Model.Formatter
import Verif.Model.Text
/-!
# The command `ginga` (src/ginga.cpp)

The GTK+ program around the library: its keyboard, frame and geometry callbacks, the loop over the files of the command line and the
option `--size`.  GTK+ calls one callback after the other; `In` lists these calls.  Not modelled: the other options (their values only
reach `Ginga::create`), drawing, signals, closing of the window (ends the process), builds with GTK+ older than 3.8.
-/
namespace Ginga

/-- Key symbols that `keyboard_callback` tells apart (src/ginga.cpp:189-247). -/
inductive KeySym
  | escape | f10 | f11 | asterisk | numbersign | return_ | f1 | f2 | f3 | f4 | f5 | down | left | right | up
  | other (keyval : Nat)
  deriving DecidableEq, Repr

/-- What the program is given: `gdk_keyval_name` (a null pointer for a value without name), `g_utf8_strup`, and the document that
`Formatter::start` reads from a file (`none`: an error). -/
structure GEnv where
  keyName : Nat → Option String
  upper : String → String
  open_ : String → Option Doc

/-- The calls that GTK+ makes while `gtk_main` runs: `key-press-event` and `key-release-event`, the tick callback (frame time in microseconds,
frame counter) and `configure-event`. -/
inductive In
  | key (press : Bool) (k : KeySym)
  | frame (time counter : Nat)
  | configure (width height : Int)

/-- The global variables of the program; `ticking`: the tick callback is installed (src/ginga.cpp:398-400); `first` and `last`: the static
variables of `tick_callback`; `calls`: the calls of the library made so far (not in the program). -/
structure Shell where
  fmt : Fmt
  ticking : Bool
  first : Nat
  last : Nat
  debug : Bool
  full : Bool
  width : Int
  height : Int
  calls : List Op

/-- The name of a key (src/ginga.cpp:189-255); `none` for the three keys that are for the program itself.  `strlen` of the null pointer is
undefined. -/
def keyText (E : GEnv) : KeySym → Res (Option String)
  | .escape => .ok none
  | .f10 => .ok none
  | .f11 => .ok none
  | .asterisk => .ok (some "*")
  | .numbersign => .ok (some "#")
  | .return_ => .ok (some "ENTER")
  | .f1 => .ok (some "RED")
  | .f2 => .ok (some "GREEN")
  | .f3 => .ok (some "YELLOW")
  | .f4 => .ok (some "BLUE")
  | .f5 => .ok (some "INFO")
  | .down => .ok (some "CURSOR_DOWN")
  | .left => .ok (some "CURSOR_LEFT")
  | .right => .ok (some "CURSOR_RIGHT")
  | .up => .ok (some "CURSOR_UP")
  | .other v =>
    match E.keyName v with
    | none => .ub
    | some s => .ok (some (if s.utf8ByteSize > 1 then E.upper s else s))

/-- The argument `g_str_equal (type, "press") == 0` of `sendKey` for a callback of the given type (src/ginga.cpp:257-258). -/
def pressArg (press : Bool) : Bool := (if press then 1 else 0) == 0

/-- `keyboard_callback` (src/ginga.cpp:183-270); the second result: `gtk_main_quit` was called. -/
def onKey (n : Nat) (E : GEnv) (press : Bool) (k : KeySym) (s : Shell) : Res (Shell × Bool) :=
  match k with
  | .escape => .ok (s, press)
  | .f10 => .ok (if press then { s with debug := !s.debug } else s, false)
  | .f11 => .ok (if press then { s with full := !s.full } else s, false)
  | k =>
    (keyText E k).bind fun key =>
      match key with
      | none => .ok (s, false)
      | some key =>
        (fmtKey n s.fmt key (pressArg press)).bind fun p =>
          let s := { s with fmt := p.2, calls := s.calls ++ [Op.sendKey key (pressArg press)] }
          if p.1 then .ok (s, false)
          else if p.2.playing then .abort
          else .ok (s, true)

/-- `tick_callback` (src/ginga.cpp:272-310).  Once it has returned `G_SOURCE_REMOVE` it is not called again. -/
def onFrame (n : Nat) (time counter : Nat) (s : Shell) : Res (Shell × Bool) :=
  if !s.ticking then .ok (s, false)
  else
    let now := time * 1000 % 2 ^ 64
    let s := if counter = 0 then { s with first := now, last := now } else s
    (fmtTick n s.fmt (tsub now s.first) (tsub now s.last) counter).bind fun p =>
      let s := { s with fmt := p.2, calls := s.calls ++ [Op.sendTick (tsub now s.first) (tsub now s.last) counter] }
      if p.1 then .ok ({ s with last := now }, false)
      else if p.2.playing then .abort
      else .ok ({ s with ticking := false }, true)

/-- `resize_callback` (src/ginga.cpp:170-181). -/
def onConfigure (w h : Int) (s : Shell) : Res (Shell × Bool) :=
  (fmtResize s.fmt w h).bind fun f => .ok ({ s with fmt := f, width := w, height := h, calls := s.calls ++ [.resize w h] }, false)

/-- One callback. -/
def onInput (n : Nat) (E : GEnv) (s : Shell) : In → Res (Shell × Bool)
  | .key press k => onKey n E press k s
  | .frame t c => onFrame n t c s
  | .configure w h => onConfigure w h s

/-- `gtk_main`: callbacks until one of them calls `gtk_main_quit`; `none`: the loop is still running after these. -/
def mainLoop (n : Nat) (E : GEnv) : List In → Shell → Res (Shell × Option (List In))
  | [], s => .ok (s, none)
  | i :: l, s => (onInput n E s i).bind fun p => if p.2 then .ok (p.1, some l) else mainLoop n E l p.1

/-- The loop over the files (src/ginga.cpp:422-438) with the callbacks that happen, in order; the results: how many files could not be opened and
whether the loop has come to its end. -/
def playFiles (n : Nat) (E : GEnv) : List String → List In → Nat → Shell → Res (Shell × Nat × Bool)
  | [], _, fails, s => .ok (s, fails, true)
  | file :: files, ins, fails, s =>
    (fmtStart n s.fmt (E.open_ file)).bind fun p =>
      let s := { s with fmt := p.2, calls := s.calls ++ [.start (E.open_ file)] }
      if !p.1 then playFiles n E files ins (fails + 1) s
      else
        (mainLoop n E ins s).bind fun q =>
          match q.2 with
          | none => .ok (q.1, fails, false)
          | some rest =>
            (fmtStop n q.1.fmt).bind fun r => playFiles n E files rest fails { q.1 with fmt := r.2, calls := q.1.calls ++ [.stop] }

/-- `_exit (fail_count)` (src/ginga.cpp:445): what the parent process gets are the low eight bits. -/
def exitStatus (fails : Nat) : Nat := fails % 256

/-- The program before its files are opened (src/ginga.cpp:281-284, 398-415): the static variables are zero. -/
def Shell.start (focus : String) (w h : Int) (debug full : Bool) : Shell :=
  { fmt := Fmt.new focus w h, ticking := true, first := 0, last := 0, debug := debug, full := full, width := w, height := h, calls := [] }

/-- `g_ascii_strtoll (s, &end, 10)` with the end pointer: 0 and the whole string if there is no number. -/
def strtollEnd (s : Str) : Int × Str :=
  match strtoll s with
  | none => (0, s)
  | some v => (v, (sign (s.dropWhile cspace)).2.dropWhile isDigit)

/-- `opt_size_cb` (src/ginga.cpp:61-88): the two sizes; `none` is an error.  (At the end of the string `*end` is NUL.) -/
def sizeOption (arg : Str) : Option (Int × Int) :=
  let w := strtollEnd arg
  if w.1 = 0 then none
  else
    match w.2 with
    | 'x' :: rest =>
      let h := strtollEnd rest
      if h.1 = 0 then none else some (clamp w.1 0 (2 ^ 31 - 1), clamp h.1 0 (2 ^ 31 - 1))
    | _ => none

end Ginga
