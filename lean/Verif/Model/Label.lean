import Verif.Model.Py

/-!
# Labels of relationships (pycid/core/cpd.py: StochasticFunctionCPD.compute_label)

Strings are lists of characters.
-/

namespace Verif
namespace Label

/-- `s.find(sub, start, len(s))` for `start ≥ 0`; `none` is -1 -/
def find (sub s : List Char) (start : Nat) : Option Nat :=
  (List.range (s.length + 1)).find? (fun i => decide (start ≤ i) && sub.isPrefixOf (s.drop i))

/-- what is asked of the function: its name, if it has one, and the first of the source lines that `inspect.getsourcelines` finds
(OSError if there is no source; TypeError if the callable is not a function, such as a `functools.partial`) -/
inductive Source
  | line (l : List Char)
  | missing
  | notFunction

/-- `sl[i] in {"(", "[", "{"}` (cpd.py:151) -/
def opens (c : Char) : Bool := c == '(' || c == '[' || c == '{'

/-- `sl[i] in {")", "]", "}"}` (cpd.py:153) -/
def closes (c : Char) : Bool := c == ')' || c == ']' || c == '}'

/-- cpd.py:151-154 -/
def deeper (k : Int) (c : Char) : Int := if opens c then k + 1 else if closes c then k - 1 else k

/-- the loop (cpd.py:150-156) over the positions, each with the place where the slice ends and the character; `none` if the loop ends
without returning -/
def scan : Int → List (Nat × Char) → Option Nat
  | _, [] => none
  | k, (i, c) :: rest =>
    let k' := deeper k c
    if k' = 0 ∧ c = ',' ∨ k' = -1 then some i else scan k' rest

/-- `range(colon, len(sl))` and `sl[i]` (cpd.py:150); for `colon = -1` the first character is the last one of the line, and
the slice that ends at -1 leaves out the last character -/
def positions (sl : List Char) : Option Nat → List (Nat × Char)
  | some c => ((sl.zipIdx.drop c).map (fun p => (p.2, p.1)))
  | none => (match sl.getLast? with | some x => [(sl.length - 1, x)] | none => []) ++ sl.zipIdx.map (fun p => (p.2, p.1))

/-- `sl[a:b]` for `a, b ≥ 0` -/
def slice (s : List Char) (a b : Nat) : List Char := (s.take b).drop a

/-- `compute_label` (cpd.py:133-157).  `name` is `function.__name__`, `none` if there is none. -/
def computeLabel (var : List Char) (name : Option (List Char)) (src : Source) : Py (List Char) :=
  if name.isSome ∧ name ≠ some "<lambda>".toList then .ok (name.getD [])
  else
    match src with
    | .notFunction => .error .type
    | .missing => .ok []
    | .line sl =>
      -- a negative start counts from the end
      let varPos := (find var sl 0).getD (sl.length - 1)
      match find "lambda".toList sl varPos with
      | none => .ok []
      | some lambdaPos =>
        let colon := find ":".toList sl lambdaPos
        let start := match colon with | some c => c + 2 | none => 1
        .ok (slice sl start ((scan 0 (positions sl colon)).getD sl.length))

/-- `label if label is not None else self.compute_label(stochastic_function)` (cpd.py:83-84) -/
def label (given : Option (List Char)) (var : List Char) (name : Option (List Char)) (src : Source) : Py (List Char) :=
  match given with
  | some l => .ok l
  | none => computeLabel var name src

end Label
end Verif
