import Verif.Spec.Equilibria
import Verif.Props.Subgame

/-!
# C64, C65, C68: equilibria
-/

namespace Verif
open Relation Graph Macid Net

/-! ## C65 -/

theorem get?_none_map {V : Type} (l : List Node) (v : Node) (x : V) :
    Dict.get? (l.map (fun d => (d, x))) v = if v ∈ l then some x else none := by
  induction l with
  | nil => rfl
  | cons d l ih =>
    simp only [List.map_cons, Dict.get?, List.mem_cons]
    by_cases h : d = v
    · simp [h]
    · rw [if_neg (by simpa using h), ih]
      simp [Ne.symm h]

theorem foldl_assign (p : List Cpd) (d : Dict Node (Option Cpd)) (v : Node) :
    Dict.get? (p.foldl (fun d c => d.set c.var (some c)) d) v =
      match (p.reverse.find? (fun c => decide (c.var = v))) with
      | some c => some (some c)
      | none => d.get? v := by
  induction p generalizing d with
  | nil => rfl
  | cons c p ih =>
    rw [List.foldl_cons, ih, List.reverse_cons, List.find?_append]
    cases h : p.reverse.find? (fun c => decide (c.var = v)) with
    | some c' => simp
    | none =>
      simp only [Option.none_or, List.find?_cons, List.find?_nil, Dict.get?_set]
      by_cases hv : c.var = v
      · simp [hv]
      · simp [hv, Ne.symm hv]

/-- **C65** `policy_profile_assignment` maps a node to the last rule given for it, to `None` if it is a decision without rule, and
knows no other nodes. -/
theorem C65_policy_profile_assignment (m : Macid) (p : List Cpd) (v : Node) :
    (∀ c, (policyProfileAssignment m p).get? v = some (some c) ↔ ∃ l r, p = l ++ c :: r ∧ c.var = v ∧ ∀ c' ∈ r, c'.var ≠ v) ∧
    ((policyProfileAssignment m p).get? v = some none ↔ v ∈ m.decisions ∧ v ∉ p.map (·.var)) ∧
    ((policyProfileAssignment m p).get? v = none ↔ v ∉ m.decisions ∧ v ∉ p.map (·.var)) := by
  unfold policyProfileAssignment
  rw [foldl_assign, get?_none_map]
  cases h : p.reverse.find? (fun c => decide (c.var = v)) with
  | none =>
    have hn : v ∉ p.map (·.var) := by
      rw [List.mem_map]
      rintro ⟨c, hc, e⟩
      have := List.find?_eq_none.1 h c (by simpa using hc)
      simp [e] at this
    refine ⟨fun c => ⟨fun q => ?_, ?_⟩, ?_, ?_⟩
    · simp only at q
      split at q <;> simp at q
    · rintro ⟨l, r, rfl, hc, _⟩
      exact absurd (List.mem_map.2 ⟨c, by simp, hc⟩) hn
    · simp only
      split <;> simp_all
    · simp only
      split <;> simp_all
  | some c0 =>
    obtain ⟨hc0, l, r, hp, hr⟩ := List.find?_eq_some_iff_append.1 h
    simp only [decide_eq_true_eq] at hc0
    have hp' : p = r.reverse ++ c0 :: l.reverse := by
      have := congrArg List.reverse hp
      simpa using this
    have hin : v ∈ p.map (·.var) := by
      rw [hp']
      simp [hc0]
    refine ⟨fun c => ⟨fun q => ?_, ?_⟩, by simp [hin], by simp [hin]⟩
    · simp only [Option.some.injEq] at q
      subst q
      refine ⟨r.reverse, l.reverse, hp', hc0, fun c' hc' => ?_⟩
      have := hr c' (by simpa using hc')
      simpa using this
    · rintro ⟨l', r', e, hc, hr'⟩
      simp only [Option.some.injEq]
      rw [e] at h
      simp only [List.reverse_append, List.reverse_cons, List.append_assoc, List.find?_append] at h
      have h1 : r'.reverse.find? (fun c => decide (c.var = v)) = none := by
        rw [List.find?_eq_none]
        intro c' hc'
        simpa using hr' c' (by simpa using hc')
      rw [h1] at h
      simp [hc] at h
      exact h.symm

/-- A profile that gives `D2` two rules and `D1` none. -/
example : (policyProfileAssignment ExS.m [⟨"D2", [0], [], [], [], .stochastic, fun _ => .error .key, none⟩,
    ⟨"D2", [1], [], [], [], .stochastic, fun _ => .error .key, none⟩]).map (fun p => (p.1, p.2.map (·.domain))) =
    [("D1", none), ("D2", some [1])] := by
  decide +kernel

/-! ## C68 -/

/-- **C68** Which solver's results are returned: enummixed by default for two players; enumpure by default otherwise, replaced by
simpdiv exactly if it finds nothing; a requested solver is used, except that enummixed, lcp and lp are replaced by enumpure if
there are not two players; any other name raises ValueError before a solver is started. -/
theorem C68_solver_selection {σ : Type} (run : Solver → Py (List σ)) (conv : σ → σ) (players : Nat) :
    (players = 2 → neSolver run conv players none = (run .enummixed).map (List.map conv)) ∧
    (players ≠ 2 → ∀ l, run .enumpure = .ok l → l ≠ [] → neSolver run conv players none = .ok (l.map conv)) ∧
    (players ≠ 2 → run .enumpure = .ok [] → neSolver run conv players none = (run .simpdiv).map (List.map conv)) ∧
    (players ≠ 2 → ∀ e, run .enumpure = .error e → neSolver run conv players none = .error e) ∧
    (∀ n s, (n, s) ∈ solverNames → players = 2 ∨ s ∉ [Solver.enummixed, .lcp, .lp] →
      neSolver run conv players (some n) = (run s).map (List.map (fun x => if s = .lp ∨ s = .lcp then x else conv x))) ∧
    (∀ n s, (n, s) ∈ solverNames → players ≠ 2 → s ∈ [Solver.enummixed, .lcp, .lp] →
      neSolver run conv players (some n) = (run .enumpure).map (List.map conv)) ∧
    (∀ n, (∀ s, (n, s) ∉ solverNames) → neSolver run conv players (some n) = .error .value) := by
  have hcalled : ∀ n s, (n, s) ∈ solverNames → Solver.ofName n = some s := by
    intro n s h
    simp only [solverNames, List.mem_cons, Prod.mk.injEq, List.not_mem_nil, or_false] at h
    rcases h with ⟨rfl, rfl⟩ | ⟨rfl, rfl⟩ | ⟨rfl, rfl⟩ | ⟨rfl, rfl⟩ | ⟨rfl, rfl⟩ | ⟨rfl, rfl⟩ | ⟨rfl, rfl⟩ <;> rfl
  have huncalled : ∀ n, (∀ s, (n, s) ∉ solverNames) → Solver.ofName n = none := by
    intro n h
    cases hs : Solver.ofName n with
    | none => rfl
    | some s =>
      refine absurd ?_ (h s)
      unfold Solver.ofName at hs
      split at hs <;> simp_all [solverNames]
  have hname : ∀ n s, Solver.ofName n = some s → (n ∈ ["enummixed", "lcp", "lp"] ↔ s ∈ [Solver.enummixed, .lcp, .lp]) := by
    intro n s h
    unfold Solver.ofName at h
    split at h <;> simp_all <;> subst h <;> simp
  have hno : ∀ n, Solver.ofName n = none → n ∉ ["enummixed", "lcp", "lp"] := by
    intro n h hn
    simp only [List.mem_cons, List.not_mem_nil, or_false] at hn
    rcases hn with rfl | rfl | rfl <;> simp [Solver.ofName] at h
  refine ⟨fun h => ?_, fun h l hl hn => ?_, fun h hl => ?_, fun h e hl => ?_, fun n s hs h => ?_, fun n s hs h h' => ?_, fun n hn => ?_⟩
  · subst h
    simp only [neSolver, chooseSolver, decide_true, if_true, Solver.ofName]
    cases run .enummixed <;> simp [Except.map]
  · simp [neSolver, chooseSolver, h, Solver.ofName, hl, hn]
  · simp only [neSolver, chooseSolver, h, Solver.ofName, hl, decide_false, Bool.false_eq_true, if_false]
    cases run .simpdiv <;> simp [Except.map]
  · simp [neSolver, chooseSolver, h, Solver.ofName, hl]
  · replace hs := hcalled n s hs
    have hc : chooseSolver (decide (players = 2)) (some n) = n := by
      simp only [chooseSolver]
      rw [if_neg]
      rintro ⟨h1, h2⟩
      rcases h with h | h
      · simp [h] at h2
      · exact h ((hname n s hs).1 h1)
    simp only [neSolver, hc, hs]
    cases run s <;> simp [Except.map]
  · replace hs := hcalled n s hs
    have hc : chooseSolver (decide (players = 2)) (some n) = "enumpure" := by
      simp only [chooseSolver]
      rw [if_pos ⟨(hname n s hs).2 h', by simp [h]⟩]
    simp only [neSolver, hc, Solver.ofName]
    cases run .enumpure <;> simp [Except.map]
  · replace hn := huncalled n hn
    have hc : chooseSolver (decide (players = 2)) (some n) = n := by
      simp only [chooseSolver]
      rw [if_neg]
      rintro ⟨h1, _⟩
      exact hno n hn h1
    simp only [neSolver, hc, hn]

/-- Three players, no pure equilibrium: simpdiv is tried. Two players, "lp" requested: the result is not converted. -/
example : neSolver (σ := Nat) (fun s => if s = .enumpure then .ok [] else .ok [7]) (· + 1) 3 none = .ok [8] ∧
    neSolver (σ := Nat) (fun s => if s = .lp then .ok [7] else .ok []) (· + 1) 2 (some "lp") = .ok [7] ∧
    neSolver (σ := Nat) (fun _ => .ok [7]) (· + 1) 2 (some "gambit") = .error .value := by
  decide

/-! ## C64 -/

/-- rules given as tables and stored -/
def TabsIn (net : Net) (S : List Cpd) : Prop := ∀ c ∈ S, net.rels.get? c.var = some (.tab c) ∧ net.cpds.get? c.var = some c

theorem setLoop_tabs {S : List Cpd} {s : Net → Node → Rel → Net × Py Unit}
    (hs : ∀ net net' v r, (∀ c ∈ S, c.var = v → r = .tab c) → TabsIn net S → s net v r = (net', .ok ()) → TabsIn net' S) :
    ∀ {cs : List Node} {net net' : Net}, TabsIn net S → setLoop s net cs = (net', .ok ()) → TabsIn net' S
  | [], net, net', h, hl => by
    simp only [setLoop, Prod.mk.injEq, and_true] at hl
    exact hl ▸ h
  | x :: cs, net, net', h, hl => by
    unfold setLoop at hl
    cases hr : net.rels.get? x with
    | none => rw [hr] at hl; exact setLoop_tabs hs h hl
    | some r =>
      rw [hr] at hl
      simp only at hl
      generalize hg : s net x r = y at hl
      obtain ⟨n1, q⟩ := y
      cases q with
      | error e => simp at hl
      | ok u =>
        refine setLoop_tabs hs (hs net n1 x r (fun c hc e => ?_) h hg) hl
        have := (h c hc).1
        rw [e, hr] at this
        exact Option.some.inj this

theorem setItem_tabs {S : List Cpd} : ∀ (n : Nat) (net net' : Net) (v : Node) (r : Rel),
    (∀ c ∈ S, c.var = v → r = .tab c) → (∀ c ∈ S, c.var ≠ v → net.rels.get? c.var = some (.tab c) ∧ net.cpds.get? c.var = some c) →
    setItem n net v r = (net', .ok ()) → TabsIn net' S
  | 0, net, net', v, r, _, _, h => by simp [setItem] at h
  | n + 1, net, net', v, r, hr, ht, h => by
    rcases setItem_cases n net v r with ⟨h1, e⟩ | ⟨e', _, _, e⟩ | ⟨c, hc, ⟨_, e⟩ | ⟨_, _, e⟩ | ⟨_, hv, _, _, e⟩ | ⟨_, hv, _, e⟩⟩
    all_goals rw [e] at h
    · simp only [Prod.mk.injEq, and_true] at h
      subst h
      intro c hc
      by_cases hcv : c.var = v
      · rw [hr c hc hcv] at h1
        simp [toCpd] at h1
      · rw [stage_rels, stage_cpds, if_neg hcv, if_neg hcv]
        exact ht c hc hcv
    · simp at h
    · simp at h
    · simp at h
    · simp only [Prod.mk.injEq, and_true] at h
      subst h
      intro c' hc'
      rw [put_rels, put_cpds]
      by_cases hcv : c'.var = v
      · have := hr c' hc' hcv
        rw [this] at hc
        simp only [toCpd, Except.ok.injEq] at hc
        subst hc
        simp [hcv, this]
      · rw [if_neg hcv, if_neg hcv]
        exact ht c' hc' hcv
    · refine setLoop_tabs (S := S) (fun net1 net2 w r2 h1 h2 h3 => ?_) ?_ h
      · exact setItem_tabs n net1 net2 w r2 h1 (fun c hc _ => h2 c hc) h3
      · intro c' hc'
        rw [put_rels, put_cpds]
        by_cases hcv : c'.var = v
        · have := hr c' hc' hcv
          rw [this] at hc
          simp only [toCpd, Except.ok.injEq] at hc
          subst hc
          simp [hcv, this]
        · rw [if_neg hcv, if_neg hcv]
          exact ht c' hc' hcv

theorem addPolicy_tabs : ∀ (p : List Cpd) {S : List Cpd} {net net' : Net}, ((S ++ p).map (·.var)).Nodup → TabsIn net S →
    net.addPolicy p = (net', .ok ()) → TabsIn net' (S ++ p)
  | [], S, net, net', _, ht, h => by
    simp only [addPolicy, List.map_nil, addCpds, Prod.mk.injEq, and_true] at h
    rw [← h, List.append_nil]
    exact ht
  | c :: p, S, net, net', hn, ht, h => by
    unfold addPolicy at h
    rw [List.map_cons, addCpds] at h
    generalize hg : net.set c.var (.tab c) = y at h
    obtain ⟨n1, q⟩ := y
    cases q with
    | error e => simp at h
    | ok u =>
      have hn' : (((S ++ [c]) ++ p).map (·.var)).Nodup := by simpa using hn
      have := addPolicy_tabs p (S := S ++ [c]) hn' ?_ h
      · simpa using this
      · have hS : ∀ c' ∈ S, c'.var ≠ c.var := by
          intro c' hc' e
          rw [List.map_append, List.nodup_append] at hn
          exact hn.2.2 _ (List.mem_map.2 ⟨c', hc', rfl⟩) _ (List.mem_map.2 ⟨c, by simp, rfl⟩) e
        refine setItem_tabs _ net n1 c.var (.tab c) (fun c' hc' e => ?_) (fun c' hc' e => ?_) hg
        · rcases List.mem_append.1 hc' with h1 | h1
          · exact absurd e (hS c' h1)
          · simp only [List.mem_singleton] at h1
            rw [h1]
        · rcases List.mem_append.1 hc' with h1 | h1
          · exact ht c' h1
          · simp only [List.mem_singleton] at h1
            exact absurd (by rw [h1]) e

theorem addPolicy_m {net net' : Net} {p : List Cpd} (h : net.addPolicy p = (net', .ok ())) :
    net'.m = net.m ∧ net'.base = net.base := runs_m (addCpds_runs h)

/-- the invariant of the loops: only the rules of the decisions handled so far differ -/
structure Kept (macid : Net) (W : List Node) (net : Net) : Prop where
  m : net.m = macid.m
  base : net.base = macid.base
  rels : ∀ v, v ∉ W → net.rels.get? v = macid.rels.get? v

theorem kept_add {macid net net' : Net} {W : List Node} (hW : W.Nodup) (hk : Kept macid W net) {p : List Cpd} (hp : (p.map (·.var)).Perm W)
    (h : net.addPolicy p = (net', .ok ())) : WithRules macid p net' ∧ Kept macid W net' := by
  have hn : (p.map (·.var)).Nodup := hp.nodup_iff.2 hW
  obtain ⟨h1, h2⟩ := addPolicy_m h
  have ht := addPolicy_tabs p (S := []) (by simpa using hn) (by intro c hc; simp at hc) h
  have hr : ∀ v, v ∉ W → net'.rels.get? v = macid.rels.get? v := by
    intro v hv
    have hmap : ((p.map (fun c => (c.var, Rel.tab c))).map (·.1)) = p.map (·.var) := by simp [Function.comp_def]
    rw [addCpds_rels (by rw [hmap]; exact hn) h v]
    have : Dict.get? (p.map (fun c => (c.var, Rel.tab c))) v = none := by
      by_contra hcon
      obtain ⟨r, hr⟩ := Option.ne_none_iff_exists'.1 hcon
      have := List.mem_map.2 ⟨(v, r), Dict.mem_of_get? hr, (rfl : (fun x : Node × Rel => x.1) (v, r) = v)⟩
      rw [hmap] at this
      exact hv (hp.mem_iff.1 this)
    rw [this]
    exact hk.rels v hv
  refine ⟨⟨h1.trans hk.m, h2.trans hk.base, fun c hc => (ht c (by simpa using hc)).2, fun v hv => hr v (fun q => hv (hp.mem_iff.2 q))⟩,
    ⟨h1.trans hk.m, h2.trans hk.base, hr⟩⟩

theorem speStep_spec {ne : Net → List Node → Py (List (List Cpd))} {macid : Net} {W scc : List Node} (hW : W.Nodup) :
    ∀ (ps : List (List Cpd)) {net net' : Net} {out : List (List Cpd)}, Kept macid W net → (∀ p ∈ ps, (p.map (·.var)).Perm W) →
    speStep ne scc net ps = .ok (net', out) →
    Kept macid W net' ∧ ∃ founds, List.Forall₂ (fun p found => ∃ n, WithRules macid p n ∧ ne n scc = .ok found) ps founds ∧
      out = (List.zipWith (fun p found => found.map (fun q => p ++ q)) ps founds).flatten
  | [], net, net', out, hk, _, h => by
    simp only [speStep, Except.ok.injEq, Prod.mk.injEq] at h
    exact ⟨h.1 ▸ hk, [], .nil, h.2 ▸ rfl⟩
  | p :: ps, net, net', out, hk, hp, h => by
    unfold speStep at h
    generalize hg : net.addPolicy p = y at h
    obtain ⟨n1, q⟩ := y
    cases q with
    | error e => simp at h
    | ok u =>
      simp only at h
      obtain ⟨k1, k2⟩ := kept_add hW hk (hp p (by simp)) hg
      cases hne : ne n1 scc with
      | error e => rw [hne] at h; simp at h
      | ok found =>
        rw [hne] at h
        simp only at h
        cases hs : speStep ne scc n1 ps with
        | error e => rw [hs] at h; simp at h
        | ok r =>
          obtain ⟨n2, rest⟩ := r
          rw [hs] at h
          simp only [Except.ok.injEq, Prod.mk.injEq] at h
          obtain ⟨e1, e2⟩ := h
          subst e1 e2
          obtain ⟨j1, founds, j2, j3⟩ := speStep_spec hW ps k2 (fun p' hp' => hp p' (by simp [hp'])) hs
          exact ⟨j1, found :: founds, .cons ⟨n1, k1, hne⟩ j2, by rw [j3]; rfl⟩

theorem zipWith_mem {level : List (List Cpd)} {founds : List (List (List Cpd))} {R : List Cpd → List (List Cpd) → Prop}
    (h : List.Forall₂ R level founds) {x : List Cpd}
    (hx : x ∈ (List.zipWith (fun p found => found.map (fun q => p ++ q)) level founds).flatten) :
    ∃ p ∈ level, ∃ found, R p found ∧ ∃ q ∈ found, x = p ++ q := by
  induction h with
  | nil => simp at hx
  | @cons p found level founds hpf _ ih =>
    simp only [List.zipWith_cons_cons, List.flatten_cons, List.mem_append, List.mem_map] at hx
    rcases hx with ⟨q, hq, rfl⟩ | hx
    · exact ⟨p, by simp, found, hpf, q, hq, rfl⟩
    · obtain ⟨p', h1, h2⟩ := ih hx
      exact ⟨p', by simp [h1], h2⟩

theorem speLoop_spec {ne : Net → List Node → Py (List (List Cpd))} {macid : Net}
    (hne : ∀ n scc found, ne n scc = .ok found → ∀ q ∈ found, (q.map (·.var)).Perm scc) :
    ∀ (sccs : List (List Node)) {W : List Node} {net : Net} {level out : List (List Cpd)}, (W ++ sccs.flatten).Nodup → Kept macid W net →
    (∀ p ∈ level, (p.map (·.var)).Perm W) → speLoop ne net level sccs = .ok out →
    Induction ne macid sccs level out ∧ ∀ p ∈ out, (p.map (·.var)).Perm (W ++ sccs.flatten)
  | [], W, net, level, out, _, _, hp, h => by
    simp only [speLoop, Except.ok.injEq] at h
    subst h
    exact ⟨.done, by simpa using hp⟩
  | scc :: sccs, W, net, level, out, hn, hk, hp, h => by
    unfold speLoop at h
    cases hs : speStep ne scc net level with
    | error e => rw [hs] at h; simp at h
    | ok r =>
      obtain ⟨net', level'⟩ := r
      rw [hs] at h
      simp only at h
      have hW : W.Nodup := (List.nodup_append.1 hn).1
      obtain ⟨k1, founds, k2, k3⟩ := speStep_spec hW level hk hp hs
      have hlev : ∀ p ∈ level', (p.map (·.var)).Perm (W ++ scc) := by
        intro x hx
        rw [k3] at hx
        obtain ⟨p, h1, found, ⟨n, _, h2⟩, q, h3, rfl⟩ := zipWith_mem k2 hx
        rw [List.map_append]
        exact (hp p h1).append (hne n scc found h2 q h3)
      have hn' : ((W ++ scc) ++ sccs.flatten).Nodup := by simpa using hn
      obtain ⟨j1, j2⟩ := speLoop_spec hne sccs (W := W ++ scc) hn' ⟨k1.m, k1.base, fun v hv => k1.rels v (fun q => hv (by simp [q]))⟩ hlev h
      refine ⟨.step k2 (k3 ▸ j1), fun p hp => ?_⟩
      have := j2 p hp
      simpa using this

/-- **C64** Whatever `get_spe` returns is the result of backward induction over groups of mutually relevant decisions: the groups contain
every decision once, no group relies on a group handled later, the rules of a group are all that `ne` finds in the network in
which exactly the rules of the groups handled before have been put in, in all combinations. -/
theorem C64_backward_induction {net : Net} (hU : net.Usable) (hnames : NamesOk net.g) {pick : Pick} {stpick : List Nat → Nat}
    {enumScc : Graph → List (List Node)} {ne : Net → List Node → Py (List (List Cpd))}
    (hscc : ∀ rg : Graph, rg.nodes.Perm net.m.decisions →
      (∀ a b, rg.Edge a b ↔ a ∈ net.m.decisions ∧ b ∈ net.m.decisions ∧ a ≠ b ∧ net.m.RReach a b) → IsSccs rg.nodes rg.Edge (enumScc rg))
    (hne : ∀ n scc found, ne n scc = .ok found → ∀ q ∈ found, (q.map (·.var)).Perm scc)
    {spes : List (List Cpd)} (h : getSpe pick stpick enumScc ne net = .ok spes) :
    ∃ macid groups, net.copy = .ok macid ∧ groups.flatten.Perm net.m.decisions ∧
      groups.Pairwise (fun c c' => ∀ x ∈ c, ∀ y ∈ c', ¬ net.m.RReach x y) ∧
      (∀ c ∈ groups, ∀ x ∈ c, ∀ y ∈ net.m.decisions, (y ∈ c ↔
        ReflTransGen (fun a b => a ∈ net.m.decisions ∧ b ∈ net.m.decisions ∧ a ≠ b ∧ net.m.RReach a b) x y ∧
        ReflTransGen (fun a b => a ∈ net.m.decisions ∧ b ∈ net.m.decisions ∧ a ≠ b ∧ net.m.RReach a b) y x)) ∧
      Induction ne macid groups [[]] spes ∧
      ∀ p ∈ spes, (p.map (·.var)).Perm net.m.decisions := by
  obtain ⟨macid, c1, c2, c3, c4, _, _⟩ := hU.copy
  have hdec : ∀ d, d ∈ macid.m.decisions ↔ d ∈ net.m.decisions := fun d => by
    rw [Net.decisions_role, Net.decisions_role, c4]
  have hdn : macid.m.decisions.Nodup := c2.roles.dec.nodeKeys
  have hperm : macid.m.decisions.Perm net.m.decisions :=
    (List.perm_ext_iff_of_nodup hdn hU.roles.dec.nodeKeys).2 hdec
  have hrr : ∀ d v, macid.m.RReach d v ↔ net.m.RReach d v := Macid.rreach_congr c4 (fun v => by
    rw [show macid.m.g.nodes = net.m.g.nodes from c3.nodes]) c3.edges
  have hn' : NamesOk macid.m.g := ⟨fun u hu v hv => hnames.1 u (c3.nodes ▸ hu) v (c3.nodes ▸ hv), fun v hv => hnames.2 v (c3.nodes ▸ hv)⟩
  have hplay : ∀ d ∈ macid.m.decisions, macid.m.Playable d := fun d hd => playable_of c2 hd
  obtain ⟨rg, r1, r2, r3, r4⟩ := relevanceGraph_spec c2.roles (mecFree_of_names hn') pick hdn hplay
  have hsc : IsSccs macid.m.decisions rg.Edge (enumScc rg) := by
    have := hscc rg (r2 ▸ hperm) (fun a b => by rw [r4, hdec, hdec, hrr])
    rw [r2] at this
    exact this
  obtain ⟨rg', q1, q2, q3⟩ := C20_scc_ordering macid.m c2.roles hn' pick stpick hplay
  rw [r1] at q1
  cases q1
  obtain ⟨out, o1, o2, o3, o4⟩ := q3 _ hsc
  unfold getSpe at h
  rw [c1] at h; simp only at h
  rw [r1] at h; simp only at h
  rw [o1] at h; simp only at h
  have hfl : out.reverse.flatten.Perm macid.m.decisions := ((List.reverse_perm out).flatten).trans o3
  obtain ⟨s1, s2⟩ := speLoop_spec hne out.reverse (W := []) (by simpa using hfl.nodup_iff.2 hdn) ⟨rfl, rfl, fun _ _ => rfl⟩
    (by simp) h
  refine ⟨macid, out.reverse, c1, hfl.trans hperm, ?_, ?_, s1, fun p hp => ?_⟩
  · rw [List.pairwise_reverse]
    refine o4.imp (fun {c c'} hcc x hx y hy => ?_)
    rw [← hrr]
    exact hcc x hx y hy
  · intro c hc x hx y hy
    have hR : rg.Edge = (fun a b => a ∈ net.m.decisions ∧ b ∈ net.m.decisions ∧ a ≠ b ∧ net.m.RReach a b) := by
      funext a b
      exact propext (by rw [r4, hdec, hdec, hrr])
    rw [← hR]
    exact hsc.classes c (o2.mem_iff.1 (List.mem_reverse.1 hc)) x hx y ((hdec y).2 hy)
  · exact ((s2 p hp).trans (by simpa using hfl)).trans hperm

theorem behaviorToCpd_vars {net : Net} {keys : Dict InfoKey Nat} {b : Behavior} : ∀ {decs : List Node} {q : List Cpd},
    net.behaviorToCpd keys b decs = .ok q → q.map (·.var) = decs := by
  intro decs q h
  unfold behaviorToCpd at h
  rw [mapPy_ok_iff] at h
  induction h with
  | nil => rfl
  | @cons d c ds q hd _ ih =>
    rw [List.map_cons, ih]
    congr 1
    unfold behaviorCpd at hd
    split at hd
    · simp at hd
    · split at hd
      · simp at hd
      · split at hd
        · simp at hd
        · exact (mkCpd_fields hd).1

/-- what `get_ne_in_sg` returns has one rule per decision -/
theorem getNeInSg_vars {pick : Pick} {tpick : List Node → Nat} {ord setOrd : List Node → List Node} {agentOrd : List Agent → List Agent}
    {run : Efg → Solver → Py (List Behavior)} {conv : Behavior → Behavior} {override : Option String} {net : Net} {decs : List Node}
    {found : List (List Cpd)} (h : getNeInSg pick tpick ord setOrd agentOrd run conv override net decs = .ok found) :
    ∀ q ∈ found, q.map (·.var) = decs := by
  unfold getNeInSg at h
  split at h
  · simp at h
  · dsimp only at h
    split at h
    · simp at h
    · split at h
      · simp at h
      · split at h
        · simp at h
        · intro q hq
          obtain ⟨b, _, hb⟩ := mapPy_mem' h hq
          exact behaviorToCpd_vars hb

/-- **C64** with the code's own solver for a group, `get_ne_in_sg`, which enumerates the set `group` in any order, and an arbitrary
external solver `run`. -/
theorem C64_get_spe {net : Net} (hU : net.Usable) (hnames : NamesOk net.g) {pick : Pick} {stpick : List Nat → Nat}
    {enumScc : Graph → List (List Node)} {tpick : List Node → Nat} {ord setOrd enumSet : List Node → List Node} {agentOrd : List Agent → List Agent}
    {run : Efg → Solver → Py (List Behavior)} {conv : Behavior → Behavior} {override : Option String}
    (hscc : ∀ rg : Graph, rg.nodes.Perm net.m.decisions →
      (∀ a b, rg.Edge a b ↔ a ∈ net.m.decisions ∧ b ∈ net.m.decisions ∧ a ≠ b ∧ net.m.RReach a b) → IsSccs rg.nodes rg.Edge (enumScc rg))
    (hset : ∀ l, (enumSet l).Perm l) {spes : List (List Cpd)}
    (h : getSpe pick stpick enumScc (fun n group => getNeInSg pick tpick ord setOrd agentOrd run conv override n (enumSet group)) net = .ok spes) :
    ∃ macid groups, net.copy = .ok macid ∧ groups.flatten.Perm net.m.decisions ∧
      groups.Pairwise (fun c c' => ∀ x ∈ c, ∀ y ∈ c', ¬ net.m.RReach x y) ∧
      (∀ c ∈ groups, ∀ x ∈ c, ∀ y ∈ net.m.decisions, (y ∈ c ↔
        ReflTransGen (fun a b => a ∈ net.m.decisions ∧ b ∈ net.m.decisions ∧ a ≠ b ∧ net.m.RReach a b) x y ∧
        ReflTransGen (fun a b => a ∈ net.m.decisions ∧ b ∈ net.m.decisions ∧ a ≠ b ∧ net.m.RReach a b) y x)) ∧
      Induction (fun n group => getNeInSg pick tpick ord setOrd agentOrd run conv override n (enumSet group)) macid groups [[]] spes ∧
      ∀ p ∈ spes, (p.map (·.var)).Perm net.m.decisions :=
  C64_backward_induction hU hnames hscc (fun n scc found hf q hq => by
    rw [getNeInSg_vars hf q hq]
    exact hset scc) h

namespace ExG

/-- the second player sees the move of the first; the first wants to agree, the second does not -/
def edges : List (Node × Node) := [("D1", "D2"), ("D1", "U1"), ("D2", "U1"), ("D1", "U2"), ("D2", "U2")]

def m : Macid := ⟨⟨["D1", "D2", "U1", "U2"], edges⟩,
  [(0, ["D1"]), (1, ["D2"])], [(0, ["U1"]), (1, ["U2"])], [("D1", 0), ("D2", 1)], [("U1", 0), ("U2", 1)]⟩

def u1 : Func := fun pv => .ok (.val (if pv "D1" = pv "D2" then 1 else 0))
def u2 : Func := fun pv => .ok (.val (if pv "D1" = pv "D2" then 0 else 2))

def rels : List (Node × Rel) := [("D1", .seq [0, 1]), ("D2", .seq [0, 1]), ("U1", .func u1), ("U2", .func u2)]

def net : Net := ((Net.mk m [] [] [] Macid.new).addCpds rels).1

theorem honest : ∀ p ∈ rels, Honest p.2 := by
  intro p hp
  simp only [rels, List.mem_cons, List.not_mem_nil, or_false] at hp
  rcases hp with rfl | rfl | rfl | rfl
  · trivial
  · trivial
  · intro pv; simp [u1]
  · intro pv; simp [u2]

theorem usable : net.Usable ∧ net.m = m :=
  usable_of_build (edges := edges) (ad := [(0, ["D1"]), (1, ["D2"])]) (au := [(0, ["U1"]), (1, ["U2"])]) (rels := rels)
    (by decide +kernel) (by rw [← show ((Net.mk m [] [] [] Macid.new).addCpds rels).2 = .ok () by decide +kernel]; rfl)
    honest (by decide +kernel)

theorem names : NamesOk net.g := by
  show NamesOk net.m.g
  rw [usable.2]
  exact ⟨by decide +kernel, by decide +kernel⟩

/-- a solver that finds everybody's first action and everybody's last action -/
def run : Efg → Solver → Py (List Behavior) := fun _ _ => .ok [fun _ => [1, 0], fun _ => [0, 1]]

def ne : Net → List Node → Py (List (List Cpd)) := fun n group => getNeInSg (fun _ => 0) (fun _ => 0) id id id run id none n group

/-- every decision is a group, which is right if nobody relies on the first player -/
def sccs (rg : Graph) : List (List Node) := rg.nodes.map (fun d => [d])

/-- the tables of the profiles found -/
def found : List (List (Node × List (List Rat))) :=
  match getSpe (fun _ => 0) (fun _ => 0) sccs ne net with
  | .ok spes => spes.map (fun p => p.map (fun c => (c.var, c.table)))
  | .error _ => []

end ExG

/-- **C64** For a leader and a follower the hypotheses hold; with a solver that finds two rules for every group, the four
combinations are returned, the follower's rule first. -/
theorem C64_example : ExG.net.Usable ∧ NamesOk ExG.net.g ∧
    (∀ rg : Graph, rg.nodes.Perm ExG.net.m.decisions →
      (∀ a b, rg.Edge a b ↔ a ∈ ExG.net.m.decisions ∧ b ∈ ExG.net.m.decisions ∧ a ≠ b ∧ ExG.net.m.RReach a b) →
      IsSccs rg.nodes rg.Edge (ExG.sccs rg)) ∧
    ExG.found = [[("D2", [[1, 0], [1, 0]]), ("D1", [[1, 0]])], [("D2", [[1, 0], [1, 0]]), ("D1", [[0, 1]])],
      [("D2", [[0, 1], [0, 1]]), ("D1", [[1, 0]])], [("D2", [[0, 1], [0, 1]]), ("D1", [[0, 1]])]] := by
  have hU := ExG.usable.1
  have hdn : ExG.net.m.decisions.Nodup := hU.roles.dec.nodeKeys
  obtain ⟨rg0, r1, r2, _, r4⟩ := relevanceGraph_spec hU.roles (mecFree_of_names ExG.names) (fun _ => 0) hdn
    (fun d hd => playable_of hU hd)
  have hrg : relevanceGraph (fun _ => 0) ExG.net.m ExG.net.m.decisions = .ok ⟨["D1", "D2"], [("D1", "D2")]⟩ := by decide +kernel
  rw [hrg] at r1
  cases r1
  refine ⟨hU, ExG.names, fun rg hn he => ?_, by decide +kernel⟩
  have hE : ∀ a b, rg.Edge a b → a = "D1" ∧ b = "D2" := by
    intro a b hab
    have := (r4 a b).2 ((he a b).1 hab)
    simpa [Graph.Edge] using this
  have hr : ∀ x y, ReflTransGen rg.Edge x y → x = y ∨ (x = "D1" ∧ y = "D2") := by
    intro x y h
    induction h with
    | refl => exact Or.inl rfl
    | tail _ h2 ih =>
      obtain ⟨rfl, rfl⟩ := hE _ _ h2
      rcases ih with rfl | ⟨_, h⟩
      · exact Or.inr ⟨rfl, rfl⟩
      · exact absurd h (by decide)
  refine ⟨?_, ?_, ?_⟩
  · have : (ExG.sccs rg).flatten = rg.nodes := by
      unfold ExG.sccs
      induction rg.nodes with
      | nil => rfl
      | cons x xs ih => simpa using ih
    rw [this]
  · intro c hc
    obtain ⟨d, _, rfl⟩ := List.mem_map.1 hc
    simp
  · intro c hc x hx y hy
    obtain ⟨d, hd, rfl⟩ := List.mem_map.1 hc
    simp only [List.mem_singleton] at hx ⊢
    subst hx
    constructor
    · rintro rfl
      exact ⟨.refl, .refl⟩
    · rintro ⟨h1, h2⟩
      rcases hr _ _ h1 with h | h
      · exact h.symm
      · rcases hr _ _ h2 with h' | h'
        · exact h'
        · rw [h.1] at h'; exact absurd h'.2 (by decide)

end Verif
