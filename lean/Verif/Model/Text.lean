import Verif.Model.Basic
/-!
# Strings, lists, tables, times and numbers (lib/aux-ginga.cpp)

A `std::string` is a `List Char` here (`Str`).  Simplifications made throughout this file:

* strings contain no NUL character (XML text cannot), so `s.c_str ()` is `s`;
* a `double` is a rational number and every `double` operation is followed by a rounding function `rnd`
  about which only what is listed in `FP` is assumed; infinities and NaN are not modelled;
* `g_strtod`/`g_ascii_strtod` read decimal notation only: the hexadecimal form, `inf` and `nan`
  are not modelled; the locale is "C";
* `g_assert` and `ERROR` end the process (`Res.abort`).
-/
namespace Ginga

/-- `std::string`. -/
abbrev Str := List Char

/-! ## Characters and blanks -/

/-- `g_ascii_isspace`: space, tab, newline, form feed, carriage return. -/
def blank (c : Char) : Bool := c == ' ' || c == '\t' || c == '\n' || c == '\x0c' || c == '\r'

/-- C `isspace` in the "C" locale (used inside `strtod`, `strtoll`): `blank` and vertical tab. -/
def cspace (c : Char) : Bool := blank c || c == '\x0b'

/-- `g_ascii_tolower`. -/
def lower (c : Char) : Char := if 'A' ≤ c ∧ c ≤ 'Z' then Char.ofNat (c.toNat + 32) else c

/-- `xstrcaseeq (s, t)`: `g_ascii_strcasecmp` is zero (lib/aux-ginga.cpp:452-457, lib/aux-ginga.h). -/
def caseEq (s t : Str) : Bool := s.map lower == t.map lower

/-- `g_strchug`: drops leading blanks. -/
def chug (s : Str) : Str := s.dropWhile blank

/-- `g_strchomp`: drops trailing blanks. -/
def chomp (s : Str) : Str := (s.reverse.dropWhile blank).reverse

/-- `xstrstrip` (lib/aux-ginga.cpp:535-542): `g_strstrip` = `g_strchomp` then `g_strchug`. -/
def strip (s : Str) : Str := chug (chomp s)

/-! ## Booleans, splitting, lists, tables -/

/-- `try_parse_bool` (lib/aux-ginga.cpp:71-88). -/
def parseBool (s : Str) : Option Bool :=
  if caseEq s "true".toList then some true
  else if caseEq s "false".toList then some false
  else none

/-- The loop `while (getline (ss, tok, sep)) result.push_back (tok)` of `xstrsplit`
(lib/aux-ginga.cpp:550-561).  `tok` is what has been read of the current token; `getline` fails
only when it reaches the end of the stream having read no character at all. -/
def splitGo (sep : Char) : Str → Str → List Str
  | tok, [] => if tok = [] then [] else [tok]
  | tok, c :: s => if c = sep then tok :: splitGo sep [] s else splitGo sep (tok ++ [c]) s

/-- `xstrsplit` (lib/aux-ginga.cpp:550-561). -/
def split (s : Str) (sep : Char) : List Str := splitGo sep [] s

/-- `try_parse_list` (lib/aux-ginga.cpp:119-139); `none` is the result `false`. -/
def parseList (s : Str) (sep : Char) (min max : Nat) : Option (List Str) :=
  let items := split s sep
  if items.length < min ∨ items.length > max then none
  else some (items.map strip)

/-- The check on the quotes of a value in `try_parse_table` (lib/aux-ginga.cpp:175-179).
`string::front` of an empty string is undefined (`Res.ub`). -/
def quoted (v : Str) : Res Bool :=
  match v.head?, v.getLast? with
  | some a, some b => .ok ((a == '\'' && b == '\'') || (a == '"' && b == '"'))
  | _, _ => .ub

/-- `string::substr (1, length () - 2)`: the length is unsigned, so for a string of one character
the count wraps and the rest of the string (nothing) is taken. -/
def inner (v : Str) : Str := if v.length < 2 then v.drop 1 else (v.drop 1).take (v.length - 2)

/-- The entries of a table: the loop of `try_parse_table` (lib/aux-ginga.cpp:161-181).
`ok none` is the result `false`. -/
def tableGo : List Str → List (Str × Str) → Res (Option (List (Str × Str)))
  | [], tab => .ok (some tab)
  | it :: rest, tab =>
    match parseList it '=' 2 2 with
    | some [k, v] =>
      let key := strip k
      let val := strip v
      (quoted val).bind fun q =>
        if q then tableGo rest (tab ++ [(key, inner val)]) else .ok none
    | _ => .ok none

/-- `try_parse_table` (lib/aux-ginga.cpp:150-185).  The `std::map` is the list of assignments
`tab[key] = …` in order: the value of a key is that of its last assignment (`tableGet`). -/
def parseTable (s : Str) : Res (Option (List (Str × Str))) :=
  let str := strip s
  match str.head?, str.getLast? with
  | some a, some b =>
    if a ≠ '{' ∨ b ≠ '}' then .ok none
    else tableGo (split (inner str) ',') []
  | _, _ => .ub

/-- `map::find` on a list of assignments. -/
def tableGet (tab : List (Str × Str)) (k : Str) : Option Str :=
  (tab.reverse.find? fun p => p.1 == k).map (·.2)

/-! ## Integers -/

/-- The value of a decimal digit. -/
def digit (c : Char) : Nat := c.toNat - 48
/-- `g_ascii_isdigit`. -/
def isDigit (c : Char) : Bool := '0' ≤ c && c ≤ '9'

/-- Horner's scheme over decimal digits. -/
def digitsVal (acc : Nat) (s : Str) : Nat := s.foldl (fun a c => a * 10 + digit c) acc

/-- Splits off an optional sign. -/
def sign (s : Str) : Bool × Str :=
  match s with
  | '-' :: t => (true, t)
  | '+' :: t => (false, t)
  | _ => (false, s)

/-- `g_ascii_strtoll (c_str, &endptr, 10)`: `none` if there is no number, i.e. `endptr == c_str`;
otherwise the value, saturated to 64 bits.  (Only base 10 is used by ginga.) -/
def strtoll (s : Str) : Option Int :=
  let p := sign (s.dropWhile cspace)
  let ds := p.2.takeWhile isDigit
  if ds = [] then none
  else
    let v := digitsVal 0 ds
    some (if p.1 then (if v > 2 ^ 63 then -(2 ^ 63 : Int) else -(v : Int))
          else (if v > 2 ^ 63 - 1 then (2 ^ 63 - 1 : Int) else v))

/-- `g_ascii_strtoull (c_str, &endptr, 10)`: a minus sign negates modulo 2^64. -/
def strtoull (s : Str) : Option Nat :=
  let p := sign (s.dropWhile cspace)
  let ds := p.2.takeWhile isDigit
  if ds = [] then none
  else
    let v := digitsVal 0 ds
    some (if v > 2 ^ 64 - 1 then 2 ^ 64 - 1
          else if p.1 then (2 ^ 64 - v) % 2 ^ 64 else v)

/-- GLib's `CLAMP`. -/
def clamp (x lo hi : Int) : Int := if x > hi then hi else if x < lo then lo else x

/-- `_GINGA_XSTRTO_DEFN` (lib/aux-ginga.cpp:380-386): `xstrtoint`, `xstrtoint8`, `xstrtoint64`
with the bounds of the type. -/
def xstrto (lo hi : Int) (s : Str) : Res Int :=
  match strtoll s with
  | none => .abort
  | some x => .ok (clamp x lo hi)

/-- `_GINGA_XSTRTOU_DEFN` (lib/aux-ginga.cpp:392-398): `xstrtouint`, `xstrtouint8`, `xstrtouint64`. -/
def xstrtou (hi : Nat) (s : Str) : Res Nat :=
  match strtoull s with
  | none => .abort
  | some x => .ok (min x hi)

/-! ## Floating-point numbers -/

/-- What is assumed of `double` rounding: it preserves order and leaves integers with at most 53
significant bits alone.  Round-to-nearest-even (IEEE 754) satisfies this, and so does exact
arithmetic; overflow to infinity is not modelled. -/
structure FP where
  rnd : Rat → Rat
  mono : ∀ x y, x ≤ y → rnd x ≤ rnd y
  exact : ∀ (m : Int) (k : Nat), m.natAbs ≤ 2 ^ 53 → rnd (m * 2 ^ k) = m * 2 ^ k

/-- The decimal exponent after a mantissa: `e`, an optional sign and at least one digit; nothing
is consumed otherwise. -/
def expo (s : Str) : Int × Str :=
  match s with
  | c :: t =>
    if c = 'e' ∨ c = 'E' then
      let p := sign t
      let ds := p.2.takeWhile isDigit
      if ds = [] then (0, s)
      else ((if p.1 then -(digitsVal 0 ds : Int) else digitsVal 0 ds), p.2.dropWhile isDigit)
    else (0, s)
  | [] => (0, s)

/-- The fraction after the integer digits: the digits after `.` and what follows them. -/
def fraction (r : Str) : Str × Str :=
  match r with
  | '.' :: r' => (r'.takeWhile isDigit, r'.dropWhile isDigit)
  | _ => ([], r)

/-- `g_ascii_strtod (s, &end)`, decimal notation: the exact value read and the rest of the string;
`none` if there is no number (then the value is 0 and `end == s`). -/
def strtod (s : Str) : Option (Rat × Str) :=
  let p := sign (s.dropWhile cspace)
  let ip := p.2.takeWhile isDigit
  let r := p.2.dropWhile isDigit
  let fr := fraction r
  if ip = [] ∧ fr.1 = [] then none
  else
    let e := expo fr.2
    let v : Rat := (digitsVal 0 (ip ++ fr.1) : Rat) * 10 ^ (e.1 - (fr.1.length : Int))
    some (if p.1 then -v else v, e.2)

/-- `g_strtod`/`g_ascii_strtod` as the code uses it: a pair of a `double` and the end pointer. -/
def cstrtod (F : FP) (s : Str) : Rat × Str :=
  match strtod s with
  | some (v, r) => (F.rnd v, r)
  | none => (0, s)

/-- The conversion `(Time) (secs * GINGA_SECOND)` (lib/aux-ginga.cpp:222): truncation; undefined if
the truncated value is not a 64-bit unsigned number. -/
def toTime (F : FP) (secs : Rat) : Res Nat :=
  let x := F.rnd (secs * (SECOND : Rat))
  if x ≤ -1 ∨ x ≥ 2 ^ 64 then .ub else .ok x.floor.toNat

/-- `try_parse_time` (lib/aux-ginga.cpp:192-229); `ok none` is the result `false`. -/
def parseTime (F : FP) (s : Str) : Res (Option Nat) :=
  let dup := chomp s
  let a := cstrtod F dup
  if a.2 = [] ∨ a.2 = ['s'] then (toTime F a.1).bind fun t => .ok (some t)
  else match a.2 with
    | ':' :: r1 =>
      let b := cstrtod F r1
      let secs := F.rnd (F.rnd (3600 * a.1) + F.rnd (60 * b.1))
      match b.2 with
      | ':' :: r2 =>
        let c := cstrtod F r2
        let secs := F.rnd (secs + c.1)
        if c.2 = [] then (toTime F secs).bind fun t => .ok (some t) else .ok none
      | _ => .ok none
    | _ => .ok none

/-- `lround`: to nearest, halves away from zero. -/
def lround (x : Rat) : Int := if 0 ≤ x then (x + 1 / 2).floor else -(-x + 1 / 2).floor

/-- The conversion of a `long` to `int`: modulo 2^32 (gcc). -/
def toInt32 (x : Int) : Int := (x + 2 ^ 31) % 2 ^ 32 - 2 ^ 31

/-- `xstrispercent` (lib/aux-ginga.cpp:409-420). -/
def isPercent (F : FP) (s : Str) : Bool :=
  match s with
  | '%' :: _ => false
  | _ => (cstrtod F s).2.head? == some '%'

/-- `xstrtodorpercent` (lib/aux-ginga.cpp:430-444). -/
def orPercent (F : FP) (s : Str) : Bool × Rat :=
  let p := cstrtod F s
  if p.2.head? = some '%' then (true, F.rnd (p.1 / 100)) else (false, p.1)

/-- `parse_percent` (lib/aux-ginga.cpp:270-288).  `lround` of a value that does not fit a `long` is
unspecified; the model then takes the exact integer. -/
def parsePercent (F : FP) (s : Str) (base min max : Int) : Int :=
  let p := orPercent F s
  let result := if p.1 then toInt32 (lround (F.rnd (p.2 * base))) else toInt32 (lround p.2)
  clamp result min max

/-- `parse_pixel` (lib/aux-ginga.cpp:295-299); the conversion to `guint8` is modulo 256. -/
def parsePixel (F : FP) (s : Str) : Nat := (parsePercent F s 255 0 255 % 256).toNat

end Ginga
