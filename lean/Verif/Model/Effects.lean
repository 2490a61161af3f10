import Verif.Model.Infer

/-!
# pycid/analyze/effects.py
-/

namespace Verif
namespace Net

/-- `cid.expected_value([x], {}, intervention={a: v})[0]` (effects.py:7) -/
def evAt (pick : Pick) (ord : List Node → List Node) (net : Net) (a x : Node) (v : Outcome) : Net × Py Rat :=
  match net.expectedValue pick ord [x] [] [(a, v)] with
  | (net', .error e) => (net', .error e)
  | (net', .ok []) => (net', .error .index)
  | (net', .ok (y :: _)) => (net', .ok y)

/-- `total_effect` (effects.py:4-9): the term for `a1` is evaluated first. -/
def totalEffect (pick : Pick) (ord : List Node → List Node) (net : Net) (a x : Node) (a0 a1 : Outcome) : Net × Py Rat :=
  match net.evAt pick ord a x a1 with
  | (net', .error e) => (net', .error e)
  | (net', .ok e1) =>
    match net'.evAt pick ord a x a0 with
    | (net'', .error e) => (net'', .error e)
    | (net'', .ok e0) => (net'', .ok (e1 - e0))

/-- `introduced_total_effect` (effects.py:12-21) -/
def introducedTotalEffect (pick : Pick) (ord : List Node → List Node) (net : Net) (a d y : Node) (a0 a1 : Outcome)
    (adapt : Bool) : Net × Py Rat :=
  match net.totalEffect pick ord a d a0 a1 with
  | (net', .error e) => (net', .error e)
  | (net', .ok ted) =>
    match net'.totalEffect pick ord a y a0 a1 with
    | (net'', .error e) => (net'', .error e)
    | (net'', .ok tey) =>
      if tey < 0 ∧ adapt = true then (net'', .ok (-ted - -tey)) else (net'', .ok (ted - tey))

end Net
end Verif
