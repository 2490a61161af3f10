/-!
# Python-level conventions

Exceptions are values.  Nothing here models a particular function of the
repository; these are the conventions used by all model files.
-/

namespace Verif

/-- Node names.  pycid requires `str` (pycid/core/causal_bayesian_network.py:90-93). -/
abbrev Node := String

/-- The exception classes the modelled code can raise. -/
inductive Err
  | key              -- KeyError
  | value            -- ValueError
  | index            -- IndexError
  | runtime          -- RuntimeError
  | assertion        -- AssertionError
  | type             -- TypeError
  | attribute        -- AttributeError
  | nx               -- networkx.NetworkXError and subclasses
  | parentsNotReady  -- pycid's ParentsNotReadyException
  | zeroDivision     -- ZeroDivisionError
  | stopIteration    -- StopIteration
  deriving DecidableEq, Repr

/-- A Python call: it returns a value or raises. -/
abbrev Py (α : Type) := Except Err α

deriving instance DecidableEq for Except

/-- `for x in xs: if not ok(x): raise e`. -/
def checkAll {α : Type} (xs : List α) (ok : α → Bool) (e : Err) : Py Unit :=
  if xs.all ok then .ok () else .error e

/-- `any(f(x) for x in xs)` where `f` may raise: stops at the first `True`. -/
def anyM {α : Type} (f : α → Py Bool) : List α → Py Bool
  | [] => .ok false
  | x :: xs =>
    match f x with
    | .error e => .error e
    | .ok true => .ok true
    | .ok false => anyM f xs

/-- `[x for x in xs if f(x)]` where `f` may raise. -/
def filterM' {α : Type} (f : α → Py Bool) : List α → Py (List α)
  | [] => .ok []
  | x :: xs =>
    match f x with
    | .error e => .error e
    | .ok b =>
      match filterM' f xs with
      | .error e => .error e
      | .ok ys => .ok (if b then x :: ys else ys)

/-- `[f(x) for x in xs]` where `f` may raise. -/
def mapPy {α β : Type} (f : α → Py β) : List α → Py (List β)
  | [] => .ok []
  | x :: xs =>
    match f x with
    | .error e => .error e
    | .ok y =>
      match mapPy f xs with
      | .error e => .error e
      | .ok ys => .ok (y :: ys)

/-- A Python dictionary in insertion order. -/
abbrev Dict (K V : Type) := List (K × V)

namespace Dict
variable {K V : Type} [DecidableEq K]

/-- `k in d` -/
def has (d : Dict K V) (k : K) : Bool := d.any (fun p => p.1 == k)

/-- `d.get(k)` -/
def get? : Dict K V → K → Option V
  | [], _ => none
  | (k', v) :: d, k => if k' = k then some v else get? d k

/-- `d[k]` -/
def get (d : Dict K V) (k : K) : Py V :=
  match get? d k with
  | some v => .ok v
  | none => .error .key

/-- `d.keys()` -/
def keys (d : Dict K V) : List K := d.map (·.1)

/-- `d[k] = v` : an existing key keeps its position. -/
def set : Dict K V → K → V → Dict K V
  | [], k, v => [(k, v)]
  | (k', v') :: d, k, v => if k' = k then (k', v) :: d else (k', v') :: set d k v

/-- `del d[k]` / `d.pop(k)` on a present key. -/
def erase (d : Dict K V) (k : K) : Dict K V := d.filter (fun p => !(p.1 == k))

end Dict

end Verif
