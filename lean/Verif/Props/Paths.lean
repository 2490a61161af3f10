import Verif.Lemmas.Examples

/-!
# C01-C12: paths, activity, d-connection

Everything is stated for well-formed graphs (`Graph.WF`), which `C13` shows to be an invariant of
all edit histories.
-/

namespace Verif
open Graph

/-- **C01** `find_all_dir_paths` yields exactly the directed paths, each once. -/
theorem C01_find_all_dir_paths (g : Graph) (hw : g.WF) (s t : Node) :
    (s ∈ g.nodes → t ∈ g.nodes →
      ∃ ps, findAllDirPaths g s t = .ok ps ∧ ps.Nodup ∧ ∀ p, p ∈ ps ↔ g.IsDirPath s t p) ∧
    (¬ (s ∈ g.nodes ∧ t ∈ g.nodes) → findAllDirPaths g s t = .error .key) := by
  constructor
  · intro hs ht
    unfold findAllDirPaths
    rw [check_ok (by intro x hx; simp at hx; rcases hx with rfl | rfl; exacts [hs, ht])]
    exact ⟨_, rfl, nodup_dfs_dir hw _, fun p => mem_dfs_dir hw hs⟩
  · intro h
    unfold findAllDirPaths
    rw [check_err (by intro h'; exact h ⟨h' s (by simp), h' t (by simp)⟩)]

example : exG.WF ∧ "A" ∈ exG.nodes ∧ "E" ∈ exG.nodes ∧
    findAllDirPaths exG "A" "E" = .ok [["A", "D", "C", "E"], ["A", "C", "E"]] :=
  ⟨exG_wf, by decide, by decide, by decide +kernel⟩

/-- **C02** `find_all_undir_paths` yields exactly the simple undirected paths, each once, for every
set iteration order. -/
theorem C02_find_all_undir_paths (g : Graph) (hw : g.WF) (ord : SetOrder) (ho : ord.Valid)
    (s t : Node) :
    (s ∈ g.nodes → t ∈ g.nodes →
      ∃ ps, findAllUndirPaths ord g s t = .ok ps ∧ ps.Nodup ∧ ∀ p, p ∈ ps ↔ g.IsUndirPath s t p) ∧
    (¬ (s ∈ g.nodes ∧ t ∈ g.nodes) → findAllUndirPaths ord g s t = .error .key) := by
  constructor
  · intro hs ht
    unfold findAllUndirPaths
    rw [check_ok (by intro x hx; simp at hx; rcases hx with rfl | rfl; exacts [hs, ht])]
    exact ⟨_, rfl, nodup_dfs_undir hw ho _, fun p => mem_dfs_undir hw ho hs⟩
  · intro h
    unfold findAllUndirPaths
    rw [check_err (by intro h'; exact h ⟨h' s (by simp), h' t (by simp)⟩)]

example : exG.WF ∧ SetOrder.id.Valid ∧ findAllUndirPaths SetOrder.id exG "D" "E" =
    .ok [["D", "U", "A", "C", "E"], ["D", "C", "E"], ["D", "A", "C", "E"]] :=
  ⟨exG_wf, ordId_valid, by decide +kernel⟩

/-- **C03** The explicit-stack loop reaches, after finitely many turns, the state in which the loop
condition is false, having yielded exactly the recursive depth-first enumeration in order; for the
directed, the undirected and the active-path successor functions. -/
theorem C03_dfs_loop_terminates (g : Graph) (hw : g.WF) (ord : SetOrder) (ho : ord.Valid)
    (s t : Node) (hs : s ∈ g.nodes) (hst : s ≠ t) (Z : List Node) (succ : List Node → List Node)
    (hsucc : succ = dirSucc g ∨ succ = (fun p => ord p (undirNbrs g p)) ∨
      succ = (fun p => ord p (activeNeighbours g Z p))) :
    ∃ k st, dfsRun succ t k (dfsInit succ s) = st ∧ dfsStep succ t st = none ∧
      st.out = dfsSearchPaths succ s t g.nodes.length := by
  have hpos : 0 < g.nodes.length := List.length_pos_of_mem hs
  obtain ⟨d, hd⟩ : ∃ d, g.nodes.length = d + 1 := ⟨g.nodes.length - 1, by omega⟩
  have hdepth : DepthLE succ t (d + 1) [s] := by
    rw [← hd]
    rcases hsucc with rfl | rfl | rfl
    · exact dir_depth hw hs
    · exact undir_depth hw ho hs
    · exact active_depth hw ho hs
  obtain ⟨k, hk⟩ := dfsRun_init hdepth
  refine ⟨k, _, hk, rfl, ?_⟩
  simp [dfsSearchPaths, hst, hd]

example : exG.WF ∧ "A" ∈ exG.nodes ∧ "A" ≠ "E" ∧
    (dfsRun (dirSucc exG) "E" 40 (dfsInit (dirSucc exG) "A")) =
      ⟨[], [], [["A", "D", "C", "E"], ["A", "C", "E"]]⟩ :=
  ⟨exG_wf, by decide, by decide, by decide +kernel⟩

/-- **C04** `directed_decision_free_path`. The strictly intermediate nodes of a path `s :: m ++ [t]`
are `m`. -/
theorem C04_directed_decision_free_path (g : Graph) (hw : g.WF) (decisions : List Node) (s t : Node) :
    (s ∈ g.nodes → t ∈ g.nodes → ∃ b, directedDecisionFreePath g decisions s t = .ok b ∧
      (b = true ↔ s = t ∨ ∃ m, g.IsDirPath s t (s :: (m ++ [t])) ∧ ∀ v ∈ m, v ∉ decisions)) ∧
    (¬ (s ∈ g.nodes ∧ t ∈ g.nodes) → directedDecisionFreePath g decisions s t = .error .key) := by
  constructor
  · intro hs ht
    obtain ⟨ps, h1, _, h3⟩ := (C01_find_all_dir_paths g hw s t).1 hs ht
    unfold directedDecisionFreePath
    rw [check_ok (by intro x hx; simp at hx; rcases hx with rfl | rfl; exacts [hs, ht])]
    simp only [h1]
    refine ⟨_, rfl, ?_⟩
    simp only [List.any_eq_true, List.all_eq_true, decide_eq_true_eq]
    constructor
    · rintro ⟨p, hp, hd⟩
      by_cases hst : s = t
      · exact Or.inl hst
      · right
        have hp' := (h3 p).1 hp
        obtain ⟨q, rfl⟩ := head_last_split hp'.1 hp'.2.1 hst
        refine ⟨q, by simpa using hp', ?_⟩
        intro v hv
        exact hd v (by simp [hv])
    · rintro (rfl | ⟨m, hm, hd⟩)
      · exact ⟨[s], (h3 _).2 ⟨by simp, by simp, by simp⟩, by simp⟩
      · refine ⟨_, (h3 _).2 hm, ?_⟩
        intro v hv
        simp at hv
        exact hd v hv
  · intro h
    unfold directedDecisionFreePath
    rw [check_err (by intro h'; exact h ⟨h' s (by simp), h' t (by simp)⟩)]

example : exG.WF ∧ directedDecisionFreePath exG ["D"] "A" "E" = .ok true ∧
    directedDecisionFreePath exG ["C"] "A" "E" = .ok false :=
  ⟨exG_wf, by decide +kernel, by decide +kernel⟩

/-- **C05** `get_motif` at an interior index: never raises and classifies by the two edges. -/
theorem C05_get_motif_interior (g : Graph) (hw : g.WF) (l r : List Node) (a b c : Node)
    (hp : ∀ x ∈ l ++ a :: b :: c :: r, x ∈ g.nodes) (hab : g.Adj a b) (hbc : g.Adj b c) :
    (∃ m, getMotif g (l ++ a :: b :: c :: r) (l.length + 1) = .ok m) ∧
    ∀ m, getMotif g (l ++ a :: b :: c :: r) (l.length + 1) = .ok m ↔ g.MotifOf a b c m := by
  constructor
  · obtain ⟨m, h, _⟩ := getMotif_split hw.acyclic hp hab hbc
    exact ⟨m, h⟩
  · intro m; exact getMotif_iff hw.acyclic hp hab hbc

example : exM.WF ∧ exM.Adj "A" "M" ∧ exM.Adj "M" "B" ∧
    getMotif exM ["S", "A", "M", "B", "T"] 2 = .ok .collider ∧
    getMotif exM ["S", "A", "M", "B", "T"] 1 = .ok .fork :=
  ⟨exM_wf, Or.inl (by decide), Or.inr (by decide), by decide +kernel, by decide +kernel⟩

/-- **C05** boundaries of `get_motif`: last index, index past the end, unknown node. -/
theorem C05_get_motif_boundaries (g : Graph) (p : List Node) (i : Nat) :
    ((∃ x ∈ p, x ∉ g.nodes) → getMotif g p i = .error .key) ∧
    ((∀ x ∈ p, x ∈ g.nodes) → p.length ≤ i → getMotif g p i = .error .index) ∧
    ((∀ x ∈ p, x ∈ g.nodes) → i + 1 = p.length → getMotif g p i = .ok .endpoint) := by
  refine ⟨?_, ?_, ?_⟩
  · rintro ⟨x, hx, hn⟩
    unfold getMotif
    rw [check_err (fun h => hn (h x hx))]
  · intro h hi
    unfold getMotif
    rw [check_ok h]
    simp [hi]
  · intro h hi
    unfold getMotif
    rw [check_ok h]
    simp [hi.symm]

example : (∀ x ∈ ["A", "D"], x ∈ exG.nodes) ∧ 1 + 1 = ["A", "D"].length := by decide

/-- **C05** disagreement: at index 0 the "previous" node is the last node of the path.  If the last
and the first node are not adjacent, `get_motif(path, 0)` raises RuntimeError, and otherwise the
node is classified by the edge between the two ends and the first edge of the path. -/
theorem C05_get_motif_index_zero (g : Graph) (hw : g.WF) (b c e : Node) (r : List Node)
    (hp : ∀ x ∈ b :: c :: r, x ∈ g.nodes) (he : (b :: c :: r).getLast? = some e) :
    (¬ g.Adj e b → getMotif g (b :: c :: r) 0 = .error .runtime) ∧
    (g.Adj e b → g.Adj b c → ∀ m, getMotif g (b :: c :: r) 0 = .ok m ↔ g.MotifOf e b c m) := by
  have hck := check_ok (g := g) (e := .key) hp
  constructor
  · intro hadj
    unfold getMotif
    rw [hck]
    simp only [pyPrev, he]
    have h1 : g.hasEdge e b = false := by
      by_contra h; exact hadj (Or.inl (hasEdge_iff.1 (by simpa using h)))
    have h2 : g.hasEdge b e = false := by
      by_contra h; exact hadj (Or.inr (hasEdge_iff.1 (by simpa using h)))
    simp [h1, h2]
  · intro h1 h2 m
    have asym : ∀ {u v}, g.Edge u v → ¬ g.Edge v u := fun p q => hw.acyclic _ ((Relation.TransGen.single p).tail q)
    have hT : ∀ {u v}, g.Edge u v → g.hasEdge u v = true := fun h => hasEdge_iff.2 h
    have hF : ∀ {u v}, g.Edge u v → g.hasEdge v u = false := fun h => by
      by_contra q
      exact asym h (hasEdge_iff.1 (by simpa using q))
    unfold getMotif
    rw [hck]
    simp only [pyPrev, he]
    rcases h1 with h1 | h1 <;> rcases h2 with h2 | h2 <;> cases m <;>
      simp [hT h1, hF h1, hT h2, hF h2, MotifOf, h1, h2, asym h1, asym h2]

example : getMotif exG ["D", "U", "A"] 0 = .ok .forward ∧ exG.Edge "A" "D" ∧ exG.Edge "D" "U" ∧
    getMotif exM ["S", "A", "M"] 0 = .error .runtime := by
  refine ⟨by decide +kernel, by decide, by decide, by decide +kernel⟩

/-- **C05** `get_motifs` on a path with at least two nodes returns one motif per node: the first
tells the direction of the first edge, the others are those of `get_motif`. -/
theorem C05_get_motifs (g : Graph) (hw : g.WF) (p : List Node) (hp : ∀ x ∈ p, x ∈ g.nodes)
    (hc : p.IsChain g.Adj) (hlen : 2 ≤ p.length) :
    ∃ ms, getMotifs g p = .ok ms ∧ ms.length = p.length ∧
      (∀ a b r, p = a :: b :: r → ∃ m ms', ms = m :: ms' ∧
        ((m = .forward ∧ g.Edge a b) ∨ (m = .backward ∧ ¬ g.Edge a b))) ∧
      (∀ i, 0 < i → ∀ m, ms[i]? = some m → getMotif g p i = .ok m) :=
  getMotifs_spec hw.acyclic hp hc hlen

example : exM.WF ∧ getMotifs exM ["S", "A", "M", "B", "T"] =
    .ok [.backward, .fork, .collider, .fork, .endpoint] := ⟨exM_wf, by decide +kernel⟩

/-- **C05** `get_motifs` of the empty path is empty; on a path of one node it raises IndexError. -/
theorem C05_get_motifs_short (g : Graph) : getMotifs g [] = .ok [] ∧
    (∀ a ∈ g.nodes, getMotifs g [a] = .error .index) ∧ ∀ p : List Node, (∃ x ∈ p, x ∉ g.nodes) → getMotifs g p = .error .key := by
  refine ⟨rfl, fun a ha => ?_, ?_⟩
  · unfold getMotifs
    rw [check_ok (by simpa using ha)]
    rfl
  · rintro p ⟨x, hx, hn⟩
    unfold getMotifs
    rw [check_err (fun h => hn (h x hx))]

/-- **C06** `is_active_path` decides activity of a simple undirected path. -/
theorem C06_is_active_path (g : Graph) (hw : g.WF) (s t : Node) (p Z : List Node)
    (hs : s ∈ g.nodes) (hp : g.IsUndirPath s t p) :
    ((∀ z ∈ Z, z ∈ g.nodes) → ∃ b, isActivePath g p Z = .ok b ∧ (b = true ↔ g.Active Z p)) ∧
    ((∃ z ∈ Z, z ∉ g.nodes) → isActivePath g p Z = .error .key) := by
  constructor
  · intro hz
    exact isActivePath_spec hw (undirPath_subset hw hs hp) hz hp.2.2.1 hp.2.2.2
  · rintro ⟨z, hz, hn⟩
    unfold isActivePath
    rw [check_err (fun h => hn (h z (by simp [hz])))]

example : exM.WF ∧ isActivePath exM ["S", "A", "M", "B", "T"] [] = .ok false ∧
    isActivePath exM ["S", "A", "M", "B", "T"] ["W"] = .ok true ∧
    exM.IsUndirPath "S" "T" ["S", "A", "M", "B", "T"] := by
  refine ⟨exM_wf, by decide +kernel, by decide +kernel, rfl, rfl, ?_, by decide⟩
  simp only [List.isChain_cons_cons]
  exact ⟨by decide, by decide, by decide, by decide, by simp⟩

/-- **C07** `find_active_path`: soundness, completeness, and the exact error conditions, for every
set iteration order.  For an observed start node only the paths that leave it through a parent are
considered. -/
theorem C07_find_active_path (g : Graph) (hw : g.WF) (ord : SetOrder) (ho : ord.Valid)
    (s t : Node) (Z : List Node) :
    (¬ (∀ x ∈ Z ++ [s, t], x ∈ g.nodes) → findActivePath ord g s t Z = .error .key) ∧
    ((∀ x ∈ Z ++ [s, t], x ∈ g.nodes) →
      (∀ p, findActivePath ord g s t Z = .ok p → g.IsUndirPath s t p ∧ g.Active Z p ∧ t ∉ Z) ∧
      ((∃ p, findActivePath ord g s t Z = .ok p) ↔
        t ∉ Z ∧ ∃ p, g.IsUndirPath s t p ∧ g.Active Z p ∧
          (s ∈ Z → ∀ n r, p = s :: n :: r → g.Edge n s)) ∧
      ((¬ ∃ p, findActivePath ord g s t Z = .ok p) → findActivePath ord g s t Z = .error .value)) := by
  constructor
  · intro h
    unfold findActivePath
    rw [check_err h]
  · intro h
    have hs : s ∈ g.nodes := h s (by simp)
    by_cases htz : t ∈ Z
    · have he : findActivePath ord g s t Z = .error .value := by
        unfold findActivePath
        rw [check_ok h]
        simp [htz]
      rw [he]
      refine ⟨(by intro p hp; exact absurd hp (by simp)), ?_, fun _ => rfl⟩
      constructor
      · rintro ⟨p, hp⟩; exact absurd hp (by simp)
      · rintro ⟨h', _⟩; exact absurd htz h'
    · have hmem := fun p => mem_dfs_active hw ho (Z := Z) (t := t) hs htz (p := p)
      have he : findActivePath ord g s t Z =
          match dfsSearchPaths (fun p => ord p (activeNeighbours g Z p)) s t g.nodes.length with
          | [] => .error .value
          | p :: _ => .ok p := by
        unfold findActivePath
        rw [check_ok h]
        simp only [htz, if_false]
        cases dfsSearchPaths (fun p => ord p (activeNeighbours g Z p)) s t g.nodes.length <;> rfl
      rw [he]
      cases hd : dfsSearchPaths (fun p => ord p (activeNeighbours g Z p)) s t g.nodes.length with
      | nil =>
        rw [hd] at hmem
        refine ⟨(by intro p hp; exact absurd hp (by simp)), ?_, fun _ => rfl⟩
        constructor
        · rintro ⟨p, hp⟩; exact absurd hp (by simp)
        · rintro ⟨_, p, h1, h2, h3⟩
          have := (hmem p).2 ⟨h1, h2, h3⟩
          simp at this
      | cons q qs =>
        rw [hd] at hmem
        have hq := (hmem q).1 (by simp)
        refine ⟨?_, ?_, ?_⟩
        · intro p hp
          cases hp
          exact ⟨hq.1, hq.2.1, htz⟩
        · constructor
          · intro _; exact ⟨htz, q, hq⟩
          · intro _; exact ⟨q, rfl⟩
        · intro hno; exact absurd ⟨q, rfl⟩ hno

example : exM.WF ∧ SetOrder.id.Valid ∧ (∀ x ∈ ["W"] ++ ["S", "T"], x ∈ exM.nodes) ∧
    findActivePath SetOrder.id exM "S" "T" ["W"] = .ok ["S", "A", "M", "B", "T"] ∧
    findActivePath SetOrder.id exM "S" "T" [] = .error .value :=
  ⟨exM_wf, ordId_valid, by decide, by decide +kernel, by decide +kernel⟩

/-- **C08** `is_dconnected` decides textbook d-connection, whatever `set.pop()` returns. -/
theorem C08_is_dconnected (g : Graph) (hw : g.WF) (pick : Pick) (s t : Node) (Z : List Node)
    (hs : s ∈ g.nodes) (hz : ∀ z ∈ Z, z ∈ g.nodes) :
    ∃ b, isDConnected pick g s t Z = .ok b ∧ (b = true ↔ g.DConn s t Z) :=
  isDConnected_spec hw pick hs hz

/-- **C08** (schedule independence and termination) the work list is empty when the loop is left,
for every pop order. -/
theorem C08_work_list_terminates (g : Graph) (hw : g.WF) (pick : Pick) (s : Node) (Z : List Node)
    (hs : s ∈ g.nodes) :
    (ballRun pick g Z (g.ancestorsOf Z) (ballFuel g) ⟨[(s, .up)], [], []⟩).visit = [] :=
  (ballRun_spec hw pick (ballFuel g) ⟨[(s, .up)], [], []⟩ (ballInv_init (Z := Z) hs)
    (by simp [ballMeasure, ballFuel])).2

example : exM.WF ∧ isDConnected (fun n _ => n) exM "S" "T" ["W"] = .ok true ∧
    isDConnected (fun n _ => n) exM "S" "T" ["W", "A"] = .ok false ∧
    isDConnected (fun _ _ => 0) exM "S" "T" [] = .ok false :=
  ⟨exM_wf, by decide +kernel, by decide +kernel, by decide +kernel⟩

/-- **C09** the two independent algorithms agree. -/
theorem C09_find_active_path_iff_is_dconnected (g : Graph) (hw : g.WF) (ord : SetOrder)
    (ho : ord.Valid) (pick : Pick) (s t : Node) (Z : List Node)
    (hs : s ∈ g.nodes) (ht : t ∈ g.nodes) (hz : ∀ z ∈ Z, z ∈ g.nodes) (hsz : s ∉ Z) :
    (∃ p, findActivePath ord g s t Z = .ok p) ↔ isDConnected pick g s t Z = .ok true := by
  have h7 := (C07_find_active_path g hw ord ho s t Z).2
    (by intro x hx; simp at hx; rcases hx with h | rfl | rfl; exacts [hz x h, hs, ht])
  obtain ⟨b, h1, h2⟩ := C08_is_dconnected g hw pick s t Z hs hz
  rw [h7.2.1, h1]
  have : (Except.ok b = (Except.ok true : Py Bool)) ↔ b = true := by
    constructor
    · intro h; cases h; rfl
    · rintro rfl; rfl
  rw [this, h2]
  constructor
  · rintro ⟨h, p, hp, ha, _⟩; exact ⟨hsz, h, p, hp, ha⟩
  · rintro ⟨_, h, p, hp, ha⟩; exact ⟨h, p, hp, ha, fun h' => absurd h' hsz⟩

example : exM.WF ∧ "S" ∈ exM.nodes ∧ "T" ∈ exM.nodes ∧ (∀ z ∈ ["W"], z ∈ exM.nodes) ∧ "S" ∉ ["W"] :=
  ⟨exM_wf, by decide, by decide, by decide, by decide⟩

/-- **C09** disagreement: for an observed start node the two functions differ; `find_active_path`
returns a path although the end points are d-separated by definition. -/
theorem C09_observed_start_differs :
    ∃ g s t Z, Graph.WF g ∧ s ∈ g.nodes ∧ t ∈ g.nodes ∧ s ∈ Z ∧
      (∃ p, findActivePath SetOrder.id g s t Z = .ok p) ∧
      isDConnected (fun _ _ => 0) g s t Z = .ok false :=
  ⟨exG, "D", "A", ["D"], exG_wf, by decide, by decide, by decide, ⟨["D", "A"], by decide +kernel⟩,
    by decide +kernel⟩

/-- **C10** symmetry. -/
theorem C10_is_dconnected_symmetric (g : Graph) (hw : g.WF) (pick pick' : Pick) (s t : Node)
    (Z : List Node) (hs : s ∈ g.nodes) (ht : t ∈ g.nodes) (hz : ∀ z ∈ Z, z ∈ g.nodes) :
    isDConnected pick g s t Z = isDConnected pick' g t s Z := by
  obtain ⟨b, h1, h2⟩ := C08_is_dconnected g hw pick s t Z hs hz
  obtain ⟨b', h1', h2'⟩ := C08_is_dconnected g hw pick' t s Z ht hz
  rw [h1, h1']
  have : b = true ↔ b' = true := by
    rw [h2, h2']
    exact ⟨dconn_symm, dconn_symm⟩
  cases b <;> cases b' <;> simp_all

example : isDConnected (fun _ _ => 0) exM "S" "T" ["M"] = .ok true ∧
    isDConnected (fun n _ => n + 1) exM "T" "S" ["M"] = .ok true :=
  ⟨by decide +kernel, by decide +kernel⟩

/-- **C11** `is_active_backdoor_trail`. -/
theorem C11_is_active_backdoor_trail (g : Graph) (hw : g.WF) (ord : SetOrder) (ho : ord.Valid)
    (s t : Node) (Z : List Node) :
    ((∀ x ∈ Z ++ [s, t], x ∈ g.nodes) → ∃ v, isActiveBackdoorTrail ord g s t Z = .ok v ∧
      (v = true ↔ ∃ n r, g.IsUndirPath s t (s :: n :: r) ∧ g.Edge n s ∧ g.Active Z (s :: n :: r))) ∧
    (¬ (∀ x ∈ Z ++ [s, t], x ∈ g.nodes) → isActiveBackdoorTrail ord g s t Z = .error .key) := by
  constructor
  · intro h
    exact backdoor_spec hw ho (h s (by simp)) (h t (by simp)) (fun z hz => h z (by simp [hz]))
  · intro h
    unfold isActiveBackdoorTrail
    rw [check_err h]

example : exG.WF ∧ isActiveBackdoorTrail SetOrder.id exG "D" "U" [] = .ok true ∧
    isActiveBackdoorTrail SetOrder.id exG "D" "U" ["A"] = .ok false :=
  ⟨exG_wf, by decide +kernel, by decide +kernel⟩

/-- **C12** `is_active_indirect_frontdoor_trail` for distinct end points. -/
theorem C12_is_active_indirect_frontdoor_trail (g : Graph) (hw : g.WF) (ord : SetOrder)
    (ho : ord.Valid) (s t : Node) (Z : List Node) :
    ((∀ x ∈ Z ++ [s, t], x ∈ g.nodes) → s ≠ t →
      ∃ v, isActiveIndirectFrontdoorTrail ord g s t Z = .ok v ∧
      (v = true ↔ ∃ n r, g.IsUndirPath s t (s :: n :: r) ∧ g.Edge s n ∧ g.Active Z (s :: n :: r) ∧
        ∃ l a b c r', s :: n :: r = l ++ a :: b :: c :: r' ∧ g.Edge a b ∧ g.Edge c b)) ∧
    ((∀ x ∈ Z ++ [s, t], x ∈ g.nodes) → s = t →
      isActiveIndirectFrontdoorTrail ord g s t Z = .error .index) ∧
    (¬ (∀ x ∈ Z ++ [s, t], x ∈ g.nodes) →
      isActiveIndirectFrontdoorTrail ord g s t Z = .error .key) := by
  refine ⟨?_, ?_, ?_⟩
  · intro h hst
    exact frontdoor_spec hw ho (h s (by simp)) (h t (by simp)) (fun z hz => h z (by simp [hz])) hst
  · rintro h rfl
    unfold isActiveIndirectFrontdoorTrail
    rw [check_ok h]
    simp only
    unfold findAllUndirPaths
    rw [check_ok (fun x hx => h x (by simp at hx; simp [hx]))]
    simp [dfsSearchPaths, anyM]
  · intro h
    unfold isActiveIndirectFrontdoorTrail
    rw [check_err h]

example : exG.WF ∧ isActiveIndirectFrontdoorTrail SetOrder.id exG "D" "U" ["E"] = .ok true ∧
    isActiveIndirectFrontdoorTrail SetOrder.id exG "D" "U" [] = .ok false ∧
    isActiveIndirectFrontdoorTrail SetOrder.id exG "D" "D" [] = .error .index :=
  ⟨exG_wf, by decide +kernel, by decide +kernel, by decide +kernel⟩

end Verif
