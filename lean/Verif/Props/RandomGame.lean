import Verif.Lemmas.RandomMade
import Verif.Props.Random
import Verif.Props.Relevance

/-!
# Random games (C72, C79)
-/

namespace Verif

open Random Macid

namespace Random

theorem deal_lengths : ∀ {ks : List Nat} {l : List Node}, ks.sum ≤ l.length → (deal ks l).map List.length = ks
  | [], l, _ => rfl
  | k :: ks, l, h => by
    simp only [List.sum_cons] at h
    simp only [deal, List.map_cons, List.length_take]
    rw [deal_lengths (by rw [List.length_drop]; omega), min_eq_left (by omega)]

theorem deal_flatten : ∀ {ks : List Nat} {l : List Node}, ((deal ks l).flatten).Sublist l
  | [], l => by simp [deal]
  | k :: ks, l => by
    simp only [deal, List.flatten_cons]
    conv_rhs => rw [← List.take_append_drop k l]
    exact (List.Sublist.refl _).append deal_flatten

theorem length_deal : ∀ {ks : List Nat} {l : List Node}, (deal ks l).length = ks.length
  | [], l => rfl
  | k :: ks, l => by simp [deal, length_deal]

/-- the game that is made when the roles have been assigned -/
theorem assigned {w : Wanted} (hl : w.decs.length = w.utils.length) (h2 : 2 ≤ w.nodes) {ω ω1 ω2 ω3 : Draws} {g : Graph} {shuffled : List Node} {ro : Roles}
    (h1 : randomDag w.nodes w.density w.maxIn ω = some (.ok (g, ω1))) {n : Nat}
    (hs : sample n (g.nodes.filter (fun v => decide (g.children v = []))) ω1 = some (.ok (shuffled, ω2)))
    (hn : n = (g.nodes.filter (fun v => decide (g.children v = []))).length) (hb : w.utils.sum ≤ n)
    (ha : assign g 0 (w.decs.zip (deal w.utils shuffled)) ⟨[], [], [], []⟩ ω2 = some (.ok (some ro, ω3))) :
    ∃ mb, Macid.init (relabel g (update ro.names (renames chanceName (g.nodes.filter (fun v => decide (v ∉ ro.names.keys)))))).edgesView
        ro.decs ro.utils = .ok mb ∧ IsRandomGame w mb ∧ (∀ v ∈ mb.g.nodes, Given v) ∧ ∃ f, Renamed f g mb.g := by
  obtain ⟨hdag, _⟩ := C70_random_dag h1
  have hw := hdag.wf
  have hlen : g.nodes.length = w.nodes := by
    have := hdag.nodes.length_eq
    simpa using this
  obtain ⟨hs1, rest, hs2⟩ := sample_ok hs
  have hperm : shuffled.Perm (g.nodes.filter (fun v => decide (g.children v = []))) := by
    have hr : rest = [] := by
      have := hs2.length_eq
      rw [List.length_append, hs1, hn] at this
      exact List.length_eq_zero_iff.1 (by omega)
    rw [hr, List.append_nil] at hs2
    exact hs2
  have hz1 : (w.decs.zip (deal w.utils shuffled)).map (·.1) = w.decs := by
    rw [List.map_fst_zip]
    rw [length_deal, hl]
  have hz2 : (w.decs.zip (deal w.utils shuffled)).map (·.2) = deal w.utils shuffled := by
    rw [List.map_snd_zip]
    rw [length_deal, hl]
  have hflat : (w.decs.zip (deal w.utils shuffled)).flatMap (·.2) = (deal w.utils shuffled).flatten := by
    rw [List.flatMap_def, hz2]
  have hnd : shuffled.Nodup := hperm.nodup_iff.2 (hw.nodesNodup.filter _)
  obtain ⟨more, m1, m2, m3, m4, m5⟩ := assign_ok hw (done := []) (rest := w.decs.zip (deal w.utils shuffled)) (ro := ⟨[], [], [], []⟩)
    ⟨by simp [chosen], by simp, by simp⟩ (by simp only [List.flatMap_nil, List.nil_append]; rw [hflat]; exact hnd.sublist deal_flatten)
    (by
      intro q hq u hu
      have hu' : u ∈ (w.decs.zip (deal w.utils shuffled)).flatMap (·.2) := List.mem_flatMap.2 ⟨q, hq, hu⟩
      rw [hflat] at hu'
      have hm := hperm.mem_iff.1 (deal_flatten.subset hu')
      simp only [List.mem_filter, decide_eq_true_eq] at hm
      refine ⟨hm.1, fun c hc => ?_⟩
      have := Graph.mem_children.2 hc
      rw [hm.2] at this
      simp at this) rfl rfl rfl rfl ha
  rw [hz1] at m1
  rw [List.nil_append, hz2] at m2 m3 m4 m5
  have hml : more.length = (deal w.utils shuffled).length := by
    have := congrArg List.length m1
    rw [List.length_map] at this
    rw [this, length_deal, hl]
  have hd : w.decs = ((deal w.utils shuffled).zip more).map (fun p => p.2.length) := by
    rw [show (fun p : List Node × List Node => p.2.length) = List.length ∘ Prod.snd from rfl, ← List.map_map, List.map_snd_zip, m1]
    rw [hml]
  have hu : w.utils = ((deal w.utils shuffled).zip more).map (fun p => p.1.length) := by
    rw [show (fun p : List Node × List Node => p.1.length) = List.length ∘ Prod.fst from rfl, ← List.map_map, List.map_fst_zip, deal_lengths]
    · rw [hs1]; exact hb
    · rw [hml]
  obtain ⟨mb, k1, k2, k3, k4⟩ := made hw (by rw [hlen]; exact h2) hdag.joined m2 hlen.symm hd hu
  refine ⟨mb, ?_, k2, k3, _, k4⟩
  rw [m3, m4, m5]
  have hk : Dict.keys (entries 0 ((deal w.utils shuffled).zip more)) = (entries 0 ((deal w.utils shuffled).zip more)).map (·.1) := rfl
  rw [hk, update_new]
  · exact k1
  · exact nodup_all hw m2

theorem attempt_ok {pick : Pick} {ord : SetOrder} (ho : ord.Valid) {w : Wanted} (hl : w.decs.length = w.utils.length) (h2 : 2 ≤ w.nodes)
    {ω ω' : Draws} {mb : Macid} (h : attempt pick ord w ω = some (.ok (some mb, ω'))) :
    IsRandomGame w mb ∧ (w.recall = true → ∀ v ∈ mb.g.nodes, ((mb.g.parents v).length : Int) ≤ w.maxIn) := by
  unfold attempt at h
  split at h
  · simp at h
  · simp at h
  rename_i g ω1 h1
  dsimp only at h
  split at h
  · simp at h
  rename_i hb
  split at h
  · simp at h
  · simp at h
  rename_i shuffled ω2 hs
  split at h
  · simp at h
  · simp at h
  · simp at h
  rename_i ro ω3 ha
  obtain ⟨mb0, k1, k2, k3, _⟩ := assigned hl h2 h1 hs rfl (by omega) ha
  rw [k1] at h
  simp only at h
  split at h
  · split at h
    · simp at h
    · simp at h
    rename_i mb1 ω4 hr
    split at h
    · rename_i hc
      simp only [Option.some.injEq, Except.ok.injEq, Prod.mk.injEq] at h
      obtain ⟨rfl, _⟩ := h
      have hk := agents_kept ho k2 k3 hr
      refine ⟨hk.game k2, fun _ v hv => ?_⟩
      unfold checkMaxInDegree at hc
      have := List.all_eq_true.1 hc v hv
      exact of_decide_eq_true this
    · simp at h
  · rename_i hrec
    simp only [Option.some.injEq, Except.ok.injEq, Prod.mk.injEq] at h
    obtain ⟨rfl, _⟩ := h
    exact ⟨k2, fun hr => absurd hr hrec⟩

theorem assign_no_error {g : Graph} {e : Err} : ∀ {rest : List (Nat × List Node)} {a : Nat} {ro : Roles} {ω : Draws},
    assign g a rest ro ω ≠ some (.error e)
  | [], a, ro, ω => by simp [assign]
  | (num, utils) :: rest, a, ro, ω => by
    unfold assign
    dsimp only
    split
    · simp
    rename_i hlt
    split
    · simp
    · rename_i e' he
      exact absurd he (sample_no_error (by omega))
    · exact assign_no_error

theorem attempt_no_error {pick : Pick} {ord : SetOrder} (ho : ord.Valid) {w : Wanted} (hl : w.decs.length = w.utils.length) (h2 : 2 ≤ w.nodes)
    {ω : Draws} {e : Err} : attempt pick ord w ω ≠ some (.error e) := by
  unfold attempt
  split
  · simp
  · rename_i e' he
    exact absurd he (C70_no_exception.1 (by omega) e')
  rename_i g ω1 h1
  dsimp only
  split
  · simp
  rename_i hb
  split
  · simp
  · rename_i e' he
    exact absurd he (sample_no_error le_rfl)
  rename_i shuffled ω2 hs
  split
  · simp
  · rename_i e' he
    exact absurd he assign_no_error
  · simp
  rename_i ro ω3 ha
  obtain ⟨mb0, k1, k2, k3, _⟩ := assigned hl h2 h1 hs rfl (by omega) ha
  rw [k1]
  simp only
  split
  · split
    · simp
    · rename_i e' he
      refine absurd he (agents_no_error ho k2 k3 ?_)
      intro a haa
      refine ⟨?_, haa⟩
      rw [k2.decAgents, ← k2.utilAgents]
      exact haa
    · split <;> simp
  · simp

theorem attempts_ok {pick : Pick} {ord : SetOrder} {w : Wanted} : ∀ {k : Nat} {ω ω' : Draws} {mb : Macid}, attempts pick ord w k ω = some (.ok (mb, ω')) →
    ∃ ω1, attempt pick ord w ω1 = some (.ok (some mb, ω'))
  | 0, ω, ω', mb, h => by simp [attempts] at h
  | k + 1, ω, ω', mb, h => by
    unfold attempts at h
    split at h
    · simp at h
    · simp at h
    · rename_i mb1 ω1 h1
      simp only [Option.some.injEq, Except.ok.injEq, Prod.mk.injEq] at h
      obtain ⟨rfl, rfl⟩ := h
      exact ⟨ω, h1⟩
    · exact attempts_ok h

theorem attempts_error {pick : Pick} {ord : SetOrder} (ho : ord.Valid) {w : Wanted} (hl : w.decs.length = w.utils.length) (h2 : 2 ≤ w.nodes) {e : Err} :
    ∀ {k : Nat} {ω : Draws}, attempts pick ord w k ω = some (.error e) → e = .value
  | 0, ω, h => by
    simp only [attempts, Option.some.injEq, Except.error.injEq] at h
    exact h.symm
  | k + 1, ω, h => by
    unfold attempts at h
    split at h
    · simp at h
    · rename_i e' h1
      exact absurd h1 (attempt_no_error ho hl h2)
    · simp at h
    · exact attempts_error ho hl h2 h

end Random

/-- **C72** Whatever the random choices, a game that `random_macidbase` returns (two nodes or more) has what was asked for, see
`IsRandomGame`; with `sufficient_recall` no node has more than `max_in_degree` parents. -/
theorem C72_random_macidbase {pick : Pick} {ord : SetOrder} (ho : ord.Valid) {w : Wanted} (h2 : 2 ≤ w.nodes) {n : Nat} {ω ω' : Draws} {mb : Macid}
    (h : randomMacidBase pick ord w n ω = some (.ok (mb, ω'))) :
    IsRandomGame w mb ∧ (w.recall = true → ∀ v ∈ mb.g.nodes, ((mb.g.parents v).length : Int) ≤ w.maxIn) := by
  unfold randomMacidBase at h
  split at h
  · simp at h
  rename_i hl
  obtain ⟨ω1, h1⟩ := attempts_ok h
  exact attempt_ok ho (by omega) h2 h1

/-- **C72** The only exception is ValueError: at once if the two sequences have different lengths, otherwise when the attempts are
used up. -/
theorem C72_value_error {pick : Pick} {ord : SetOrder} (ho : ord.Valid) {w : Wanted} (h2 : 2 ≤ w.nodes) {n : Nat} {ω : Draws} :
    (w.decs.length ≠ w.utils.length → randomMacidBase pick ord w n ω = some (.error .value)) ∧
    (∀ e, randomMacidBase pick ord w n ω = some (.error e) → e = .value) := by
  unfold randomMacidBase
  constructor
  · intro h
    rw [if_pos h]
  · intro e h
    split at h
    · simp only [Option.some.injEq, Except.error.injEq] at h
      exact h.symm
    · exact attempts_error ho (by omega) h2 h

/-- three decisions and a utility among six nodes, with `sufficient_recall=True` -/
def exWanted : Wanted := ⟨6, [3], [1], true, 8 / 15, 4⟩

/-- draws for which the first attempt succeeds -/
def exTape : Draws := [0, 0, 0, 0, 0, 0, 2, 0, 3, 0, 4, 1, 2, 1, 3, 2, 4, 0, 3, 2, 0, 1, 1]

/-- the game that is returned for these draws -/
def exRandom : Macid :=
  ⟨⟨["X_0", "D^0_0", "X_1", "D^0_1", "D^0_2", "U^0_0"],
    [("X_0", "D^0_0"), ("X_0", "X_1"), ("D^0_0", "D^0_1"), ("D^0_0", "D^0_2"), ("X_1", "D^0_1"), ("X_1", "U^0_0"), ("D^0_1", "D^0_2"),
      ("D^0_2", "U^0_0"), ("X_0", "D^0_2"), ("X_1", "D^0_2")]⟩,
    [(0, ["D^0_0", "D^0_1", "D^0_2"])], [(0, ["U^0_0"])], [("D^0_0", 0), ("D^0_1", 0), ("D^0_2", 0)], [("U^0_0", 0)]⟩

set_option maxRecDepth 100000 in
theorem exRandom_run : randomMacidBase (fun _ _ => 0) SetOrder.id exWanted 1000 exTape = some (.ok (exRandom, [])) := by
  have h : attempt (fun _ _ => 0) SetOrder.id exWanted exTape = some (.ok (some exRandom, [])) := by decide +kernel
  show attempts _ _ _ (999 + 1) _ = _
  unfold attempts
  rw [h]

/-- the hypotheses of C72 are met -/
theorem C72_example : IsRandomGame exWanted exRandom ∧ ∀ v ∈ exRandom.g.nodes, ((exRandom.g.parents v).length : Int) ≤ 4 := by
  obtain ⟨h1, h2⟩ := C72_random_macidbase (fun _ l => .refl l) (by decide) exRandom_run
  exact ⟨h1, h2 rfl⟩

/-- **C72** (why two nodes are needed) Asked for one node that is a utility, `random_macidbase` returns a game whose only utility is not
a node of its graph: isolated nodes are lost when the graph is built from the edges. -/
theorem C72_one_node : randomMacidBase (fun _ _ => 0) SetOrder.id ⟨1, [0], [1], false, 2 / 5, 4⟩ 1000 [0, 0] =
    some (.ok (⟨Graph.empty, [(0, [])], [(0, ["U^0_0"])], [], [("U^0_0", 0)]⟩, [])) := by
  decide +kernel

/-- **C79** (refuted) A game returned with `sufficient_recall=True` need not have sufficient recall: the edges added for one pair of
decisions can make another pair rely on each other.  In `exRandom` there are edges D^0_0 → D^0_1, so D^0_0 relies on D^0_1; the
edge X_0 → D^0_2, which was added for D^0_2's recall of D^0_0, makes D^0_1 rely on D^0_0. -/
theorem C79_counterexample : ∃ ω mb, randomMacidBase (fun _ _ => 0) SetOrder.id exWanted 1000 ω = some (.ok (mb, [])) ∧ exWanted.recall = true ∧
    (∀ ds, mb.agentDecisions.get? 0 = some ds → ¬ mb.NoRelianceCycle ds) ∧
    ∀ (pick : Pick) (tpick : List Node → Nat), sufficientRecall pick tpick mb (some 0) = .ok false := by
  have hg := C72_example.1
  have hv : NamesOk exRandom.g := ⟨by decide +kernel, by decide +kernel⟩
  have hno : ¬ exRandom.NoRelianceCycle ["D^0_0", "D^0_1", "D^0_2"] := by
    obtain ⟨b, hb1, hb2⟩ := (C19_sufficient_recall_agent exRandom hg.consistent hv (fun _ _ => 0) (fun _ => 0) 0).1 (by decide) ["D^0_0", "D^0_1", "D^0_2"] rfl
    have : sufficientRecall (fun _ _ => 0) (fun _ => 0) exRandom (some 0) = .ok false := by decide +kernel
    rw [this] at hb1
    cases hb1
    intro h
    exact absurd (hb2.2 h) (by simp)
  refine ⟨exTape, exRandom, exRandom_run, rfl, ?_, ?_⟩
  · intro ds hds
    cases hds
    exact hno
  · intro pick tpick
    obtain ⟨b, hb1, hb2⟩ := (C19_sufficient_recall_agent exRandom hg.consistent hv pick tpick 0).1 (by decide) ["D^0_0", "D^0_1", "D^0_2"] rfl
    rw [hb1]
    cases b with
    | false => rfl
    | true => exact absurd (hb2.1 rfl) hno

end Verif
