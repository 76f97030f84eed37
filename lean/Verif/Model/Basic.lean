/-!
# Outcomes, time, strings

Conventions shared by the whole model.
-/
namespace Ginga

/-- Outcome of a modelled C++ call.
* `ok a`  : the call returned normally.
* `abort` : a `g_assert*` failed or `ERROR` (`g_error`) was reached; the process dies
  (lib/aux-ginga.h:109-112, glib `g_assert`).
* `ub`    : undefined behaviour (null dereference, past-the-end access).
* `fuel`  : the recursion bound given to the interpreter was too small (model artefact). -/
inductive Res (α : Type) where
  | ok (a : α)
  | abort
  | ub
  | fuel
  deriving Repr, DecidableEq

/-- Sequencing of outcomes: anything but a normal return ends the run. -/
def Res.bind {α β : Type} (x : Res α) (f : α → Res β) : Res β :=
  match x with
  | .ok a => f a
  | .abort => .abort
  | .ub => .ub
  | .fuel => .fuel

@[simp] theorem Res.bind_ok {α β : Type} (a : α) (f : α → Res β) :
    (Res.ok a).bind f = f a := rfl
@[simp] theorem Res.bind_abort {α β : Type} (f : α → Res β) :
    (Res.abort : Res α).bind f = .abort := rfl
@[simp] theorem Res.bind_ub {α β : Type} (f : α → Res β) :
    (Res.ub : Res α).bind f = .ub := rfl
@[simp] theorem Res.bind_fuel {α β : Type} (f : α → Res β) :
    (Res.fuel : Res α).bind f = .fuel := rfl

/-- `GINGA_TIME_NONE` = `GST_CLOCK_TIME_NONE` = `(guint64) -1` (lib/aux-ginga.h:120-124). -/
def NONE : Nat := 2 ^ 64 - 1

/-- 64-bit unsigned addition on `Time` (lib/aux-ginga.h:120, `GstClockTime` = `guint64`). -/
def tadd (a b : Nat) : Nat := (a + b) % 2 ^ 64

/-- 64-bit unsigned subtraction on `Time`. -/
def tsub (a b : Nat) : Nat := (2 ^ 64 + a - b) % 2 ^ 64

/-- `GINGA_SECOND` in nanoseconds (lib/aux-ginga.h:127). -/
def SECOND : Nat := 1000000000

/-- Point update of a function. -/
def upd {κ ν : Type} [DecidableEq κ] (f : κ → ν) (k : κ) (v : ν) : κ → ν :=
  fun x => if x = k then v else f x

@[simp] theorem upd_same {κ ν : Type} [DecidableEq κ] (f : κ → ν) (k : κ) (v : ν) :
    upd f k v k = v := by simp [upd]
@[simp] theorem upd_ne {κ ν : Type} [DecidableEq κ] (f : κ → ν) {k x : κ} (v : ν)
    (h : x ≠ k) : upd f k v x = f x := by simp [upd, h]

/-- `map<string,string>::operator[]` assignment on the sorted association list that
stands for a `std::map<string,string>` (iteration in key order). -/
def mset (k v : String) : List (String × String) → List (String × String)
  | [] => [(k, v)]
  | (k', v') :: t =>
    if k = k' then (k, v) :: t
    else if k < k' then (k, v) :: (k', v') :: t
    else (k', v') :: mset k v t

/-- `map<string,string>::find`. -/
def mget (k : String) : List (String × String) → Option String
  | [] => none
  | (k', v') :: t => if k = k' then some v' else mget k t

theorem mget_mset_same (k v : String) (l : List (String × String)) :
    mget k (mset k v l) = some v := by
  induction l with
  | nil => simp [mset, mget]
  | cons p t ih =>
    obtain ⟨k', v'⟩ := p
    simp only [mset]
    split
    · simp [mget]
    · split
      · simp [mget]
      · next h1 h2 => simp [mget, h1, ih]

theorem mget_mset_ne (k v k2 : String) (l : List (String × String)) (h : k2 ≠ k) :
    mget k2 (mset k v l) = mget k2 l := by
  induction l with
  | nil => simp [mset, mget, h]
  | cons p t ih =>
    obtain ⟨k', v'⟩ := p
    simp only [mset]
    split
    · next h1 => subst h1; simp [mget, h]
    · split
      · simp [mget, h]
      · simp [mget, ih]

end Ginga
