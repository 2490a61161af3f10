import Verif.Model.Graph

/-!
# pycid/core/get_paths.py
-/

namespace Verif

/-- Iteration order of a Python set.  `ord tag l` is the order in which the set with elements `l`
is iterated; `tag` (here: the path under consideration) lets equal sets built at different moments
iterate differently. -/
abbrev SetOrder := List Node → List Node → List Node

/-- The only thing Python promises: every element exactly once. -/
def SetOrder.Valid (ord : SetOrder) : Prop := ∀ tag l, (ord tag l).Perm l

/-- Insertion order, one possible iteration order. -/
def SetOrder.id : SetOrder := fun _ l => l

/-! ### `_dfs_search_paths` (lines 8-33) -/

/-- State of the generator: the mutable `path`, the stack of partially consumed iterators
(top first), and what has been yielded so far. -/
structure DfsState where
  path : List Node
  stack : List (List Node)
  out : List (List Node)
  deriving DecidableEq, Repr

/-- One turn of the `while successor_stack:` loop (get_paths.py:19-33).  `none`: the loop is over. -/
def dfsStep (succ : List Node → List Node) (tgt : Node) (st : DfsState) : Option DfsState :=
  match st.stack with
  | [] => none
  | [] :: rest => some ⟨st.path.dropLast, rest, st.out⟩
  | (n :: ns) :: rest =>
    if n = tgt then some ⟨st.path, ns :: rest, st.out ++ [st.path ++ [n]]⟩
    else some ⟨st.path ++ [n], succ (st.path ++ [n]) :: ns :: rest, st.out⟩

/-- `k` turns of the loop. -/
def dfsRun (succ : List Node → List Node) (tgt : Node) : Nat → DfsState → DfsState
  | 0, st => st
  | k + 1, st =>
    match dfsStep succ tgt st with
    | none => st
    | some st' => dfsRun succ tgt k st'

/-- Initial state of the loop (get_paths.py:17-18). -/
def dfsInit (succ : List Node → List Node) (s : Node) : DfsState := ⟨[s], [succ [s]], []⟩

/-- The same enumeration written recursively, cut off at depth `d`.  `C03` proves that it is what
the explicit-stack loop yields. -/
def dfsRec (succ : List Node → List Node) (tgt : Node) : Nat → List Node → List (List Node)
  | 0, _ => []
  | d + 1, path =>
    (succ path).flatMap (fun n => if n = tgt then [path ++ [n]] else dfsRec succ tgt d (path ++ [n]))

/-- `_dfs_search_paths` (get_paths.py:8-33), in recursive form. -/
def dfsSearchPaths (succ : List Node → List Node) (s tgt : Node) (depth : Nat) : List (List Node) :=
  if s = tgt then [[s]] else dfsRec succ tgt depth [s]

/-! ### successor functions -/

/-- `successors` of `find_all_dir_paths` (get_paths.py:136-137): children of `path[-1]`. -/
def dirSucc (g : Graph) (path : List Node) : List Node :=
  match path.getLast? with
  | none => []
  | some e => g.children e

/-- `successors` of `find_all_undir_paths` (get_paths.py:150-154): the set of children and parents
of `path[-1]` not on the path, before choosing an iteration order. -/
def undirNbrs (g : Graph) (path : List Node) : List Node :=
  match path.getLast? with
  | none => []
  | some e => ((g.children e ++ g.parents e).dedup).filter (fun x => decide (x ∉ path))

/-- `last_forward` (get_paths.py:39): the last step of the path follows an edge. -/
def lastForward (g : Graph) (path : List Node) (e : Node) : Bool :=
  match path.dropLast.getLast? with
  | none => false
  | some q => decide (e ∈ g.children q)

/-- `_active_neighbours` (get_paths.py:36-56), before choosing an iteration order. -/
def activeNeighbours (g : Graph) (observed : List Node) (path : List Node) : List Node :=
  match path.getLast? with
  | none => []
  | some e =>
    let possibleColliders := g.ancestorsOf observed
    let activeParents :=
      if !lastForward g path e || decide (e ∈ possibleColliders) then
        (g.parents e).filter (fun x => decide (x ∉ observed))
      else []
    let activeChildren := if e ∈ observed then [] else g.children e
    ((activeParents ++ activeChildren).dedup).filter (fun x => decide (x ∉ path))

/-! ### path enumeration -/

/-- `find_all_dir_paths` (get_paths.py:130-139). The list of what the iterator yields. -/
def findAllDirPaths (g : Graph) (s t : Node) : Py (List (List Node)) :=
  match checkAll [s, t] g.hasNode .key with
  | .error e => .error e
  | .ok _ => .ok (dfsSearchPaths (dirSucc g) s t g.nodes.length)

/-- `find_all_undir_paths` (get_paths.py:142-156). -/
def findAllUndirPaths (ord : SetOrder) (g : Graph) (s t : Node) : Py (List (List Node)) :=
  match checkAll [s, t] g.hasNode .key with
  | .error e => .error e
  | .ok _ => .ok (dfsSearchPaths (fun p => ord p (undirNbrs g p)) s t g.nodes.length)

/-- `find_active_path` (get_paths.py:59-77). -/
def findActivePath (ord : SetOrder) (g : Graph) (s t : Node) (observed : List Node) : Py (List Node) :=
  match checkAll (observed ++ [s, t]) g.hasNode .key with
  | .error e => .error e
  | .ok _ =>
    if t ∈ observed then .error .value
    else
      match dfsSearchPaths (fun p => ord p (activeNeighbours g observed p)) s t g.nodes.length with
      | [] => .error .value
      | p :: _ => .ok p

/-- `directed_decision_free_path` (get_paths.py:159-168). -/
def directedDecisionFreePath (g : Graph) (decisions : List Node) (s t : Node) : Py Bool :=
  match checkAll [s, t] g.hasNode .key with
  | .error e => .error e
  | .ok _ =>
    match findAllDirPaths g s t with
    | .error e => .error e
    | .ok ps => .ok (ps.any (fun p => p.tail.dropLast.all (fun v => decide (v ∉ decisions))))

/-! ### motifs and activity -/

/-- The strings returned by `get_motif`. -/
inductive Motif | forward | backward | collider | fork | endpoint
  deriving DecidableEq, Repr

/-- `path[idx - 1]` with Python's negative indexing at `idx = 0`. -/
def pyPrev (path : List Node) (idx : Nat) : Option Node :=
  match idx with
  | 0 => path.getLast?
  | i + 1 => path[i]?

/-- `get_motif` (get_paths.py:80-108), for `idx >= 0`. -/
def getMotif (g : Graph) (path : List Node) (idx : Nat) : Py Motif :=
  match checkAll path g.hasNode .key with
  | .error e => .error e
  | .ok _ =>
    if path.length ≤ idx then .error .index
    else if path.length = idx + 1 then .ok .endpoint
    else
      match pyPrev path idx, path[idx]?, path[idx + 1]? with
      | some a, some b, some c =>
        if g.hasEdge a b && g.hasEdge b c then .ok .forward
        else if g.hasEdge c b && g.hasEdge b a then .ok .backward
        else if g.hasEdge a b && g.hasEdge c b then .ok .collider
        else if g.hasEdge b a && g.hasEdge b c then .ok .fork
        else .error .runtime
      | _, _, _ => .error .index

/-- `get_motifs` (get_paths.py:111-127). -/
def getMotifs (g : Graph) (path : List Node) : Py (List Motif) :=
  match checkAll path g.hasNode .key with
  | .error e => .error e
  | .ok _ =>
    mapPy (fun i =>
      if i = 0 then
        match path[0]?, path[1]? with
        | some a, some b => .ok (if a ∈ g.parents b then Motif.forward else Motif.backward)
        | _, _ => .error .index
      else getMotif g path i) (List.range path.length)

/-- The loop of `is_active_path` over the middle nodes `b` (get_paths.py:201-210). -/
def isActiveLoop (g : Graph) (path observed : List Node) : List Node → Py Bool
  | [] => .ok true
  | b :: bs =>
    match getMotif g path (path.idxOf b) with
    | .error e => .error e
    | .ok m =>
      if (m = .fork ∨ m = .forward ∨ m = .backward) ∧ b ∈ observed then .ok false
      else if m = .collider ∧ ((g.descendants b ++ [b]).any (fun x => decide (x ∈ observed))) = false then
        .ok false
      else isActiveLoop g path observed bs

/-- `is_active_path` (get_paths.py:187-212). -/
def isActivePath (g : Graph) (path observed : List Node) : Py Bool :=
  match checkAll (path ++ observed) g.hasNode .key with
  | .error e => .error e
  | .ok _ =>
    if path.length < 3 then .ok true
    else isActiveLoop g path observed path.tail.dropLast

/-- `is_active_backdoor_trail` (get_paths.py:242-263). -/
def isActiveBackdoorTrail (ord : SetOrder) (g : Graph) (s t : Node) (observed : List Node) : Py Bool :=
  match checkAll (observed ++ [s, t]) g.hasNode .key with
  | .error e => .error e
  | .ok _ =>
    match findAllUndirPaths ord g s t with
    | .error e => .error e
    | .ok ps =>
      anyM (fun p =>
        match p with
        | a :: b :: _ =>
          match isActivePath g p observed with
          | .error e => .error e
          | .ok act => .ok (decide (b ∈ g.parents a) && act)
        | _ => .ok false) ps

/-- `is_active_indirect_frontdoor_trail` (get_paths.py:215-239). `path[1]` raises IndexError on a
one-node path. -/
def isActiveIndirectFrontdoorTrail (ord : SetOrder) (g : Graph) (s t : Node) (observed : List Node) :
    Py Bool :=
  match checkAll (observed ++ [s, t]) g.hasNode .key with
  | .error e => .error e
  | .ok _ =>
    match findAllUndirPaths ord g s t with
    | .error e => .error e
    | .ok ps =>
      anyM (fun p =>
        match p with
        | a :: b :: _ =>
          match isActivePath g p observed with
          | .error e => .error e
          | .ok act =>
            match getMotifs g p with
            | .error e => .error e
            | .ok ms => .ok (decide (a ∈ g.parents b) && act && decide (Motif.collider ∈ ms))
        | _ => .error .index) ps

/-- `_get_path_edges` (get_paths.py:171-184). -/
def getPathEdges (g : Graph) : List Node → List (Node × Node)
  | a :: b :: r =>
    if a ∈ g.parents b then (a, b) :: getPathEdges g (b :: r)
    else if b ∈ g.parents a then (b, a) :: getPathEdges g (b :: r)
    else getPathEdges g (b :: r)
  | _ => []

end Verif
